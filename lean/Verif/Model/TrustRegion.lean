import Verif.Model.Newton
import Mathlib.Analysis.InnerProductSpace.Basic
/-!
# The trust-region solver

Model of `TrustRegion` in `src/serac/numerics/equation_solver.cpp:205-684`.

Vectors are an abstract real inner product space (`Dot` is its inner product, `Norm` its norm); arithmetic is exact.  A vector that
contains NaN is `none`; a residual evaluation is a vector, NaN (`bad`; a residual with infinite entries is identified with it), or an
exception (`threw`, with what was left in the output vector).  The residual at a NaN iterate is assumed to be NaN or to throw.
Printing and `MFEM_ASSERT`s are left out, except that printing resets the CG counter (`printIters`).
-/

noncomputable section
namespace Serac.TrustRegion
open Serac.Newton (Num Report dblMax)
open scoped Classical InnerProductSpace

variable {V : Type} [NormedAddCommGroup V] [InnerProductSpace ℝ V]

/-- `TrustRegionSettings::t1` (217), the decrease factor. -/
def t1 : ℝ := 1 / 4
/-- `TrustRegionSettings::t2` (219), the increase factor. -/
def t2 : ℝ := 7 / 4
/-- `TrustRegionSettings::eta1` (221). -/
def eta1 : ℝ := 1 / 10 ^ 9
/-- `TrustRegionSettings::eta2` (223). -/
def eta2 : ℝ := 1 / 10
/-- `TrustRegionSettings::eta3` (225). -/
def eta3 : ℝ := 3 / 5

/-- `TrustRegionResults::Status` (248-253). -/
inductive Status | interior | negativeCurvature | onBoundary
  deriving DecidableEq

/-- `projectToBoundaryWithCoefs` (320-325); `none` where the code divides by zero or takes the root of a negative number. -/
def projectToBoundary (z d : V) (tr zz zd dd : ℝ) : Option V :=
  let rad := (tr * tr - zz) * dd + zd * zd
  if dd = 0 ∨ rad < 0 then none else some (z + ((Real.sqrt rad - zd) / dd) • d)

/-- `projectToBoundaryBetweenWithCoefs` (328-336): `z.Add(-tau, z); z.Add(tau, y);`. -/
def projectBetween (z y : V) (tr zz zy yy : ℝ) : Option V :=
  let dd := yy - 2 * zy + zz
  let zd := zy - zz
  let rad := (tr * tr - zz) * dd + zd * zd
  if dd = 0 ∨ rad < 0 then none
  else
    let tau := (Real.sqrt rad - zd) / dd
    some ((z + (-tau) • z) + tau • y)

/-- `doglegStep` (339-362).  With NaN in `cp` the first two tests are false, and the point between `cp` and `newtonP` is NaN; with NaN in `newtonP` only
the first test can succeed. -/
def doglegStep (cp newtonP : Option V) (tr : ℝ) : Option V :=
  match cp with
  | none => match newtonP with
    | none => none
    | some n => if tr * tr < ⟪n, n⟫_ℝ then none else some n
  | some c =>
    let cc := ⟪c, c⟫_ℝ
    let tt := tr * tr
    if tt ≤ cc then (if cc = 0 then none else some (Real.sqrt (tt / cc) • c))
    else match newtonP with
      | none => none
      | some n =>
        let nn := ⟪n, n⟫_ℝ
        if nn < cc then some c
        else if tt < nn then projectBetween c n tr cc ⟪c, n⟫_ℝ nn
        else some n

/-- The loop of `solveTrustRegionModelProblem` (398-438); `rem` is the number of iterations left, `it` the value of `cgIter`.  When `rPr`
is zero the next direction is NaN, and so is `z` from then on (`d` having infinite entries is treated the same). -/
def cgLoop (H P : V → V) (tol2 : ℝ) (minCg : ℕ) (tr : ℝ) :
    (rem it : ℕ) → (z d r : V) → (rPr zz zd dd : ℝ) → Option V × Status × ℕ
  | 0, it, z, _, _, _, _, _, _ => (some z, .interior, it)
  | rem + 1, it, z, d, r, rPr, zz, zd, dd =>
    let curvature := ⟪d, H d⟫_ℝ
    let alpha := if curvature ≠ 0 then rPr / curvature else 0
    let zPred := z + alpha • d
    let zzN := ⟪zPred, zPred⟫_ℝ
    if curvature ≤ 0 then (projectToBoundary z d tr zz zd dd, .negativeCurvature, it)
    else if tr * tr < zzN then (projectToBoundary z d tr zz zd dd, .onBoundary, it)
    else
      let r' := r + alpha • H d
      let Pr := P r'
      let rPrN := ⟪r', Pr⟫_ℝ
      if ⟪r', r'⟫_ℝ ≤ tol2 ∧ minCg ≤ it then (some zPred, .interior, it)
      else if rPr = 0 ∧ 0 < rem then (none, .interior, it + 1 + rem)
      else
        let d' := (-1 : ℝ) • Pr + (rPrN / rPr) • d
        cgLoop H P tol2 minCg tr rem (it + 1) zPred d' r' rPrN zzN ⟪zPred, d'⟫_ℝ ⟪d', d'⟫_ℝ

/-- `solveTrustRegionModelProblem` (366-439), called with `z = 0`: step, status, `cg_iterations_count`. -/
def solveModel (H P : V → V) (r0 : V) (cgTol : ℝ) (minCg maxCg : ℕ) (tr : ℝ) : Option V × Status × ℕ :=
  if ⟪r0, r0⟫_ℝ ≤ cgTol * cgTol ∧ minCg ≤ 0 then (some 0, .interior, 0)
  else
    let Pr := P r0
    let d := (0 : V) + (-1 : ℝ) • Pr
    cgLoop H P (cgTol * cgTol) minCg tr maxCg 1 0 d r0 ⟪r0, Pr⟫_ℝ 0 0 ⟪d, d⟫_ℝ

/-- Outcome of `computeResidual`. -/
inductive Res (V : Type) | ok (r : V) | bad | threw (r : V)

/-- The nonlinear problem: residual (the second argument is the old content of the output vector), Jacobian action at a point,
preconditioner built from the Jacobian at a point, sign bit of the model objective when it is zero. -/
structure Problem (V : Type) where
  oper : V → V → Res V
  jac : V → V → V
  prec : V → V → V
  zeroNeg : V → Bool

structure Options where
  relTol : ℝ
  absTol : ℝ
  maxIter : ℕ
  minIter : ℕ
  maxLs : ℕ
  maxCg : ℕ
  tr0 : ℝ
  printIters : Bool

/-- A `double` ratio as far as comparisons with constants are concerned. -/
inductive Ext | nan | ninf | pinf | fin (x : ℝ)

/-- `rho >= c`. -/
def Ext.ge : Ext → ℝ → Prop
  | fin x, c => c ≤ x
  | pinf, _ => True
  | _, _ => False
/-- `rho > c`. -/
def Ext.gt : Ext → ℝ → Prop
  | fin x, c => c < x
  | pinf, _ => True
  | _, _ => False

/-- `rho` (636-645): `realImprove / modelImprove`, with the sign of the divisor flipped when the model objective is positive.  For a zero
model objective the divisor `-modelObjective` is `-0.0` for `+0.0` and `+0.0` for `-0.0` (`neg`). -/
def rho (modelObj realObj : ℝ) (neg : Bool) : Ext :=
  if modelObj ≠ 0 then .fin (if 0 < modelObj then -realObj / -(-modelObj) else -realObj / -modelObj)
  else if realObj = 0 then .nan
  else if (0 < -realObj ↔ neg = true) then .pinf else .ninf

/-- Radius update (647-651). -/
def newRadius (ρ : Ext) (st : Status) (tr : ℝ) : ℝ :=
  if ¬ ρ.ge eta2 then tr * t1 else if ρ.gt eta3 ∧ st = .onBoundary then tr * t2 else tr

/-- What happened in one pass of the inner loop (not in the code). -/
structure Attempt (V : Type) where
  /-- `X` before -/
  x : V
  step : Option V
  before : ℝ
  after : ℝ
  accepted : Bool

/-- Iterate, residual, norm, radius, content of `r_pred`, and the list of attempts made, latest first (the last is not in the code). -/
structure Inner (V : Type) where
  x : V
  r : V
  norm : ℝ
  tr : ℝ
  rPred : V
  trace : List (Attempt V)

/-- `modelObjective` (600-602). -/
def modelObjective (H : V → V) (r d : V) : ℝ := ⟪r, d⟫_ℝ + 0.5 * ⟪d, H d⟫_ℝ

/-- One pass of the inner loop (594-672), and whether it accepted. -/
def attempt (p : Problem V) (goal : ℝ) (cp z : Option V) (st : Status) (s : Inner V) : Inner V × Bool :=
  match doglegStep cp z s.tr with
  | none => ({ s with tr := newRadius .nan st s.tr, trace := ⟨s.x, none, s.tr, newRadius .nan st s.tr, false⟩ :: s.trace }, false)
  | some d =>
    let m := modelObjective (p.jac s.x) s.r d
    let xp := s.x + d
    match p.oper xp s.rPred with
    | .bad => ({ s with tr := newRadius .nan st s.tr, trace := ⟨s.x, some d, s.tr, newRadius .nan st s.tr, false⟩ :: s.trace }, false)
    | .ok rp =>
      let obj := 0.5 * (⟪s.r, d⟫_ℝ + ⟪rp, d⟫_ℝ)
      if ‖rp‖ ≤ goal then ({ s with x := xp, r := rp, norm := ‖rp‖, rPred := rp, trace := ⟨s.x, some d, s.tr, s.tr, true⟩ :: s.trace }, true)
      else
        let ρ := rho m obj (p.zeroNeg d)
        let tr' := newRadius ρ st s.tr
        if ρ.ge eta1 then ({ x := xp, r := rp, norm := ‖rp‖, tr := tr', rPred := rp, trace := ⟨s.x, some d, s.tr, tr', true⟩ :: s.trace }, true)
        else ({ s with tr := tr', rPred := rp, trace := ⟨s.x, some d, s.tr, tr', false⟩ :: s.trace }, false)
    | .threw rp =>
      if dblMax ≤ goal then ({ s with x := xp, r := rp, norm := dblMax, rPred := rp, trace := ⟨s.x, some d, s.tr, s.tr, true⟩ :: s.trace }, true)
      else
        let ρ := rho m dblMax (p.zeroNeg d)
        let tr' := newRadius ρ st s.tr
        if ρ.ge eta1 then ({ x := xp, r := rp, norm := dblMax, tr := tr', rPred := rp, trace := ⟨s.x, some d, s.tr, tr', true⟩ :: s.trace }, true)
        else ({ s with tr := tr', rPred := rp, trace := ⟨s.x, some d, s.tr, tr', false⟩ :: s.trace }, false)

/-- The inner loop (593-672); `rem` passes are left, initially `max_line_search_iterations + 1`. -/
def attempts (p : Problem V) (goal : ℝ) (cp z : Option V) (st : Status) : ℕ → Inner V → Inner V
  | 0, s => s
  | rem + 1, s =>
    let a := attempt p goal cp z st s
    if a.2 then a.1 else attempts p goal cp z st rem a.1

/-- Inner state plus the bookkeeping of the preconditioner: where it was last built, the CG iterations since, the last CG count. -/
structure Outer (V : Type) where
  inner : Inner V
  precAt : V
  cum : ℕ
  cgCount : ℕ

/-- The Cauchy point and the model step of one outer iteration (558-588): Cauchy point, step, status, CG count. -/
def modelStep (H P : V → V) (r : V) (norm goal tr : ℝ) (minIter maxCg : ℕ) : Option V × Option V × Status × ℕ :=
  let gKg := ⟪r, H r⟫_ℝ
  let cp : Option V :=
    if 0 < gKg then some ((0 : V) + (-⟪r, r⟫_ℝ / gKg) • r)
    else if ⟪r, r⟫_ℝ = 0 then none
    else some ((0 : V) + (-tr / Real.sqrt ⟪r, r⟫_ℝ) • r)
  let n2 : ℝ := if 0 < gKg then (match cp with | some c => ⟪c, c⟫_ℝ | none => 0) else tr * tr
  if tr * tr ≤ n2 then
    let cp' := if n2 = 0 then none else cp.map fun c => (tr / Real.sqrt n2) • c
    (cp', cp', .onBoundary, 1)
  else
    let m := solveModel H P r (max (0.5 * goal) (5 / 10 ^ 5 * norm)) minIter maxCg tr
    (cp, m.1, m.2.1, m.2.2)

/-- One outer iteration after the convergence tests (544-672). -/
def iterate (p : Problem V) (o : Options) (goal : ℝ) (it : ℕ) (s : Outer V) : Outer V :=
  let upd := it = 0 ∨ o.maxCg ≤ s.cgCount ∨ 1 ≤ s.cum
  let precAt := if upd then s.inner.x else s.precAt
  let cum := if upd then 0 else s.cum
  let m := modelStep (p.jac s.inner.x) (p.prec precAt) s.inner.r s.inner.norm goal s.inner.tr o.minIter o.maxCg
  { inner := attempts p goal m.1 m.2.1 m.2.2.1 (o.maxLs + 1) s.inner
    precAt
    cum := cum + m.2.2.2
    cgCount := if o.printIters then 0 else m.2.2.2 }

/-- The main loop (517-673).  The norm cannot be NaN here: see `mult`. -/
def loop (p : Problem V) (o : Options) (goal : ℝ) (rep : Report) (it : ℕ) (s : Outer V) : Outer V × Report :=
  if s.inner.norm ≤ goal ∧ o.minIter ≤ it then (s, { rep with converged := true, finalIter := it, finalNorm := .fin s.inner.norm })
  else if o.maxIter ≤ it then (s, { rep with converged := false, finalIter := it, finalNorm := .fin s.inner.norm })
  else loop p o goal rep (it + 1) (iterate p o goal it s)
termination_by o.maxIter - it

/-- How a call ends. -/
inductive Outcome (V : Type)
  /-- an exception from the first residual evaluation leaves the solver (it is outside the `try`) -/
  | threw
  /-- the first residual is NaN: early return (531-535) -/
  | nan (rep : Report)
  | done (s : Outer V) (rep : Report)

/-- `TrustRegion::Mult` (475-684). -/
def mult (p : Problem V) (o : Options) (x r : V) (rep : Report) : Outcome V :=
  match p.oper x r with
  | .threw _ => .threw
  | .bad => .nan { rep with initialNorm := .nan }
  | .ok r0 =>
    let goal := max (o.relTol * ‖r0‖) o.absTol
    let q := loop p o goal { rep with initialNorm := .fin ‖r0‖ } 0
      { inner := { x, r := r0, norm := ‖r0‖, tr := o.tr0, rPred := 0, trace := [] }, precAt := x, cum := 0, cgCount := 0 }
    .done q.1 q.2

end Serac.TrustRegion
