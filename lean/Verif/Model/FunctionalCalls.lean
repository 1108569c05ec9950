import Mathlib.Algebra.Group.Basic
/-!
# `Functional`: evaluations and gradients as a sequence of calls on one object

`/repo/src/serac/numerics/functional/functional.hpp` 406-432 (`ActionOfGradient`), 447-498 (`operator()`), 523 (`updateQdata`), 300-340 (`Add...Integral`);
`integral.hpp` 38-49 (constructor), 65-82 (`Mult`), 94-104 (`GradientMult`), 175-215 (`generate_kernels`: one derivative buffer per argument of each
integral, allocated without initialisation and shared by the evaluation, the jacobian-vector product and the element matrices).

Everything the calls leave behind in the object is in `Mem`.  The vectors of true dofs, local dofs and element values are elements of `T`, `L`, `E` (one
type each: spaces of different sizes are thought of as parts of one large space).  A buffer that was never written is `none`, and using it is `none`.

An integral's kernels are data: what is added to the output (`value`), what the material state becomes (`next`), what the kernel with differentiation adds
and stores (`valueAD`, `nextAD`, `derivative`) and what the jacobian-vector product adds (`jvp`).  Their loops are the subject of C41 and C51.
-/

namespace Serac.FnCalls

/-- `Domain::Type`. -/
inductive DType | elements | boundary
  deriving DecidableEq

/-- `P_trial_[i]->Mult`, `G_trial_[type][i].Gather`, `G_test_[type].ScatterAdd` and `P_test_->MultTranspose`. -/
structure Ops (T L E : Type) where
  prolong : ℕ → T → L
  gather : DType → ℕ → L → E
  scatterAdd : DType → E → L → L
  restrict : L → T

/-- `Integral`; `Q` material state, `D` contents of a derivative buffer.  The `ℕ` in the kernels with differentiation is the position among the arguments of
the integral. -/
structure Integral (Tm E Q D : Type) where
  type : DType
  active : List ℕ
  value : Tm → List E → Q → E
  next : Tm → List E → Q → Bool → Q
  valueAD : ℕ → Tm → List E → Q → E
  nextAD : ℕ → Tm → List E → Q → Bool → Q
  derivative : ℕ → Tm → List E → Q → D
  jvp : ℕ → D → E → E

/-- `functional_to_integral_index_`, filled in a loop: a later entry replaces an earlier one. -/
def Integral.index {Tm E Q D : Type} (I : Integral Tm E Q D) : ℕ → Option ℕ :=
  I.active.zipIdx.foldl (fun m p => fun w => if w = p.1 then some p.2 else m w) (fun _ => none)

/-- The object between calls. -/
structure Mem (Tm T L E Q D : Type) where
  integrals : List (Integral Tm E Q D)
  update : Bool
  state : Q
  inputL : ℕ → L
  inputE : DType → ℕ → E
  outputL : L
  outputE : DType → E
  outputT : T
  buffer : ℕ → ℕ → Option D

section
variable {Tm T L E Q D : Type}

/-- `if (!already_computed[type][i]) { Gather; already_computed[type][i] = true; }` for every active space. -/
def gatherActive (ops : Ops T L E) (type : DType) (active : List ℕ) (s : Mem Tm T L E Q D × (DType → ℕ → Bool)) : Mem Tm T L E Q D × (DType → ℕ → Bool) :=
  active.foldl (fun s i =>
    if s.2 type i then s
    else ({ s.1 with inputE := fun d j => if d = type ∧ j = i then ops.gather type i (s.1.inputL i) else s.1.inputE d j },
      fun d j => if d = type ∧ j = i then true else s.2 d j)) s

variable [Zero L] [Zero E] [Add E]

/-- `Integral::Mult`: the output is zeroed, then the kernels add to it; with differentiation the buffer of that argument is overwritten. -/
def mult (I : Integral Tm E Q D) (k : ℕ) (t : Tm) (wrt : Option ℕ) (m : Mem Tm T L E Q D) : Mem Tm T L E Q D :=
  let xs := I.active.map (m.inputE I.type)
  match wrt.bind I.index with
  | some i =>
    { m with
      outputE := fun d => if d = I.type then 0 + I.valueAD i t xs m.state else m.outputE d
      state := I.nextAD i t xs m.state m.update
      buffer := fun k' i' => if k' = k ∧ i' = i then some (I.derivative i t xs m.state) else m.buffer k' i' }
  | none =>
    { m with
      outputE := fun d => if d = I.type then 0 + I.value t xs m.state else m.outputE d
      state := I.next t xs m.state m.update }

/-- Body of the loop over the integrals in `operator()`. -/
def evalStep (ops : Ops T L E) (t : Tm) (wrt : Option ℕ) (s : Mem Tm T L E Q D × (DType → ℕ → Bool)) (p : Integral Tm E Q D × ℕ) :
    Mem Tm T L E Q D × (DType → ℕ → Bool) :=
  let s := gatherActive ops p.1.type p.1.active s
  let m := mult p.1 p.2 t wrt s.1
  ({ m with outputL := ops.scatterAdd p.1.type (m.outputE p.1.type) m.outputL }, s.2)

/-- `operator()`; the result is a reference to `outputT`. -/
def evaluate (ops : Ops T L E) (wrt : Option ℕ) (t : Tm) (args : ℕ → T) (m : Mem Tm T L E Q D) : Mem Tm T L E Q D :=
  let m := { m with inputL := fun i => ops.prolong i (args i), outputL := 0 }
  let m := (m.integrals.zipIdx.foldl (evalStep ops t wrt) (m, fun _ _ => false)).1
  { m with outputT := ops.restrict m.outputL }

/-- `Integral::GradientMult`. -/
def gradientMult (I : Integral Tm E Q D) (k : ℕ) (which : ℕ) (m : Mem Tm T L E Q D) : Option (Mem Tm T L E Q D) :=
  match I.index which with
  | none => some { m with outputE := fun d => if d = I.type then 0 else m.outputE d }
  | some i =>
    match m.buffer k i with
    | none => none
    | some d => some { m with outputE := fun d' => if d' = I.type then 0 + I.jvp i d (m.inputE I.type which) else m.outputE d' }

/-- Body of the loop in `ActionOfGradient`. -/
def actionStep (ops : Ops T L E) (which : ℕ) (s : Mem Tm T L E Q D × (DType → Bool)) (p : Integral Tm E Q D × ℕ) :
    Option (Mem Tm T L E Q D × (DType → Bool)) :=
  let s := if s.2 p.1.type then s
    else ({ s.1 with inputE := fun d j => if d = p.1.type ∧ j = which then ops.gather d which (s.1.inputL which) else s.1.inputE d j },
      fun d => if d = p.1.type then true else s.2 d)
  match gradientMult p.1 p.2 which s.1 with
  | none => none
  | some m => some ({ m with outputL := ops.scatterAdd p.1.type (m.outputE p.1.type) m.outputL }, s.2)

/-- `ActionOfGradient`: the object afterwards and the result. -/
def action (ops : Ops T L E) (which : ℕ) (dx : T) (m : Mem Tm T L E Q D) : Option (Mem Tm T L E Q D × T) :=
  let m := { m with inputL := fun i => if i = which then ops.prolong which dx else m.inputL i, outputL := 0 }
  match m.integrals.zipIdx.foldlM (actionStep ops which) (m, fun _ => false) with
  | none => none
  | some s => some (s.1, ops.restrict s.1.outputL)

/-- What a user can do with the object. -/
inductive Call (Tm T E Q D : Type)
  | evaluate (wrt : Option ℕ) (t : Tm) (args : ℕ → T)
  | action (which : ℕ) (dx : T)
  | updateQdata (flag : Bool)
  | addIntegral (I : Integral Tm E Q D)

/-- One call; an action with an unwritten buffer has no defined outcome. -/
def call (ops : Ops T L E) (m : Mem Tm T L E Q D) : Call Tm T E Q D → Option (Mem Tm T L E Q D)
  | .evaluate wrt t args => some (evaluate ops wrt t args m)
  | .action which dx => (action ops which dx m).map Prod.fst
  | .updateQdata flag => some { m with update := flag }
  | .addIntegral I => some { m with integrals := m.integrals ++ [I] }

/-- A sequence of calls. -/
def run (ops : Ops T L E) (m : Mem Tm T L E Q D) (cs : List (Call Tm T E Q D)) : Option (Mem Tm T L E Q D) := cs.foldlM (call ops) m
end

end Serac.FnCalls
