import Verif.Model.Tensor
import Mathlib.Analysis.SpecialFunctions.Log.Basic
import Mathlib.Analysis.SpecialFunctions.Trigonometric.Basic
/-!
# Liquid crystal elastomers

`LiquidCrystElastomerBrighenti` and `LiquidCrystalElastomerBertoldi` (`src/serac/physics/materials/liquid_crystal_elastomer.hpp:29-198, 210-352`)
and `matrix_sqrt` (`src/serac/numerics/functional/tensor.hpp:1305-1313`).

`double` is ℝ; values of dual numbers are modelled, not their gradients.  Tensor operations are those of `Verif.Model.Tensor`; sums and scalings
of tensors are entrywise.  Division by zero, the inverse of a singular matrix and the logarithm of a non-positive number have outcome `none`.
The constructors' `SLIC_ERROR_ROOT_IF` is the outcome `none`.
-/

noncomputable section
namespace Serac.LCE
open Serac.Tensor

abbrev M3 := Mat ℝ 3 3

/-- The loop of `matrix_sqrt` (tensor.hpp:1309-1311): `B = 0.5 * (B + dot(A, inv(B)))`. -/
def sqrtLoop (A : M3) : ℕ → M3 → Option M3
  | 0, B => some B
  | n + 1, B => (inv3 B).bind fun Bi => sqrtLoop A n fun i j => (1 / 2) * (B i j + dot A Bi i j)

/-- `matrix_sqrt` (tensor.hpp:1305-1313): fifteen passes from `B = A`. -/
def matrixSqrt (A : M3) : Option M3 := sqrtLoop A 15 A

/-! ## Brighenti -/

/-- The members (:189-197). -/
structure Brighenti where
  density : ℝ
  shear : ℝ
  bulk : ℝ
  orderConstant : ℝ
  q0 : ℝ
  transition : ℝ
  N : ℝ

/-- The constructor (:51-69). -/
def mkBrighenti (rho G K c q0 tt N : ℝ) : Option Brighenti :=
  if rho ≤ 0 then none else if G ≤ 0 then none else if K ≤ 0 then none else if c ≤ 0 then none else if tt ≤ 0 then none
  else some ⟨rho, G, K, c, q0, tt, N⟩

/-- `State` (:34-38). -/
structure State where
  F : M3
  mu : M3
  temperature : ℝ

/-- What quadrature data holds before the first call. -/
def State.zero : State := ⟨fun _ _ => 0, fun _ _ => 0, 0⟩

/-- `normal` (:94). -/
def normalB (gamma : ℝ) : Vec ℝ 3 := ![Real.cos gamma, Real.sin gamma, 0 * gamma]

/-- The initial distribution tensor (:97, 110): `N / 3` multiplies only the first term. -/
def mu0 (p : Brighenti) (n : Vec ℝ 3) : M3 :=
  fun i j => (p.N / 3) * ((1 - p.q0) * identity 3 i j) + 3 * p.q0 * outer n n i j

/-- The order parameter at a temperature (:152-153). -/
def order (p : Brighenti) (theta : ℝ) : ℝ := p.q0 / (1 + Real.exp ((theta - p.transition) / p.orderConstant))

/-- The order tensor (:162-163). -/
def orderTensor (q : ℝ) (n : Vec ℝ 3) : M3 := fun i j => (1 / 2) * ((1 - q) * identity 3 i j + 3 * q * outer n n i j)

/-- `calculateDistributionTensor` (:145-177). -/
def distribution (p : Brighenti) (st : State) (Fhat : M3) (theta : ℝ) (n : Vec ℝ 3) : Option M3 :=
  let Qold := orderTensor (order p st.temperature) n
  let Q := orderTensor (order p theta) n
  (matrixSqrt (dot (transpose Fhat) Fhat)).bind fun Uhat =>
  (inv3 Uhat).map fun Ui =>
    let Rhat := dot Fhat Ui
    let alpha := 2 * p.N / 3
    let muHat : M3 := fun i j => st.mu i j + alpha * (Q i j - Qold i j)
    let muA := dot Fhat (dot muHat (transpose Fhat))
    let RQR := dot Rhat (dot Q (transpose Rhat))
    fun i j => muA i j + alpha * (Q i j - RQR i j)

/-- `if (norm(state.deformation_gradient) == 0) { ... }` (:96-100). -/
def initialise (p : Brighenti) (st : State) (du : M3) (theta : ℝ) (n : Vec ℝ 3) : State :=
  if Real.sqrt (sqNorm st.F) = 0 then ⟨fun i j => du i j + identity 3 i j, mu0 p n, theta⟩ else st

/-- `operator()` (:82-127): the Cauchy stress and the updated state. -/
def respond (p : Brighenti) (st0 : State) (du : M3) (theta gamma : ℝ) : Option (M3 × State) :=
  let n := normalB gamma
  let st := initialise p st0 du theta n
  let F : M3 := fun i j => du i j + identity 3 i j
  (inv3 st.F).bind fun FoldInv =>
  let Fhat := dot F FoldInv
  let J := det3 F
  (distribution p st Fhat theta n).bind fun mu =>
  if p.N = 0 then none else if J ≤ 0 then none else
  let lam := p.bulk - (2 / 3) * p.shear
  some (fun i j => ((3 * p.shear / p.N) * (mu i j - mu0 p n i j) + lam * Real.log J * identity 3 i j) / J, ⟨F, mu, theta⟩)

/-- One call: displacement gradient, temperature, director angle. -/
structure Call where
  du : M3
  theta : ℝ
  gamma : ℝ

/-- Successive calls at one quadrature point with the state kept between them. -/
def run (p : Brighenti) : State → List Call → Option (List M3 × State)
  | st, [] => some ([], st)
  | st, c :: cs => (respond p st c.du c.theta c.gamma).bind fun r => (run p r.2 cs).map fun s => (r.1 :: s.1, s.2)

/-! ## Bertoldi -/

/-- The members (:346-350). -/
structure Bertoldi where
  density : ℝ
  young : ℝ
  poisson : ℝ
  S0 : ℝ
  beta : ℝ

/-- The constructor (:225-240). -/
def mkBertoldi (rho E nu S0 beta : ℝ) : Option Bertoldi :=
  if rho ≤ 0 then none else if E ≤ 0 then none else if nu ≤ 0 then none else if S0 ≤ 0 then none else if beta ≤ 0 then none
  else some ⟨rho, E, nu, S0, beta⟩

/-- `normal` (:267, 321). -/
def normalL (gamma eta : ℝ) : Vec ℝ 3 := ![Real.cos gamma * Real.cos eta, Real.sin gamma * Real.cos eta, 0 * gamma + Real.sin eta]

/-- `lambda` and `mu` (:273-274, 327-328). -/
def lame (p : Bertoldi) : Option (ℝ × ℝ) :=
  if 1 + p.poisson = 0 ∨ 1 - 2 * p.poisson = 0 then none
  else some (p.poisson * p.young / (1 + p.poisson) / (1 - 2 * p.poisson), p.young / 2 / (1 + p.poisson))

/-- `E` (:277-280, 331-334). -/
def strain (du : M3) : M3 :=
  let F : M3 := fun i j => du i j + identity 3 i j
  let C := dot (transpose F) F
  fun i j => (1 / 2) * (C i j - identity 3 i j)

/-- `operator()` (:257-292). -/
def bertoldi (p : Bertoldi) (du : M3) (St gamma eta : ℝ) : Option M3 :=
  let n := normalL gamma eta
  let F : M3 := fun i j => du i j + identity 3 i j
  let E := strain du
  let J := det3 F
  (lame p).bind fun lm =>
  if J = 0 then none else
  let S : M3 := fun i j =>
    lm.1 * tr E * identity 3 i j + 2 * lm.2 * E i j + -(1 / 2) * p.beta * (St - p.S0) * (3 * outer n n i j - identity 3 i j)
  let JF : M3 := fun i j => 1 / J * F i j
  some (dot (dot JF S) (transpose F))

/-- `calculateStrainEnergy` (:311-344). -/
def energy (p : Bertoldi) (du : M3) (St gamma eta : ℝ) : Option ℝ :=
  let n := normalL gamma eta
  let E := strain du
  (lame p).map fun lm =>
    (1 / 2) * lm.1 * tr E * tr E + lm.2 * inner E E +
      -(1 / 2) * p.beta * (St - p.S0) * inner (fun i j => 3 * outer n n i j - identity 3 i j) E

end Serac.LCE
