import Verif.Model.Loop
import Mathlib.Data.Real.Basic
import Mathlib.Data.Fin.VecNotation
import Mathlib.Tactic.NormNum
/-!
# Nodal bases and element shape functions

Model of src/serac/numerics/functional/polynomials.hpp:28-33 and 493-609 (one-dimensional nodal bases and their derivatives) and of the
`shape_functions`, `shape_function_gradients` members of src/serac/numerics/functional/detail/{quadrilateral,hexahedron,triangle,
tetrahedron}_H1.inl.

`constexpr double sqrt5 = 2.23606797749978981;` is the parameter `s5`, so that statements can be made both for the exact square root and for
the literal `sqrt5`.  Values are reals: rounding is not modelled, decimal literals are the rationals they denote.
-/

noncomputable section
namespace Serac.Nodal
open Serac

/-- The literal used for the square root of five (polynomials.hpp:507, 536; triangle_H1.inl:113, 179; tetrahedron_H1.inl:86, 197). -/
def sqrt5 : ℝ := 2.23606797749978981

/-- `GaussLobattoNodes<n>()` on `[0, 1]` (polynomials.hpp:28-33). -/
def lobattoNodes : (n : ℕ) → Fin n → ℝ
  | 2 => ![0, 1]
  | 3 => ![0, 0 + 0.5000000000000000 * (1 - 0), 1]
  | 4 => ![0, 0 + 0.2763932022500210 * (1 - 0), 0 + 0.7236067977499790 * (1 - 0), 1]
  | _ => fun _ => 0

/-- `GaussLegendreNodes<n, SEGMENT>()` for the orders that have a nodal basis (polynomials.hpp:43-50). -/
def legendreNodes : (n : ℕ) → Fin n → ℝ
  | 1 => ![0.50000000000000000]
  | 2 => ![0.2113248654051871, 0.7886751345948129]
  | 3 => ![0.1127016653792583, 0.500000000000000, 0.887298334620742]
  | 4 => ![0.0694318442029737, 0.330009478207572, 0.669990521792428, 0.930568155797026]
  | _ => fun _ => 0

/-- `GaussLobattoInterpolation` (polynomials.hpp:493-514). -/
def lobatto (s5 : ℝ) : (n : ℕ) → ℝ → Fin n → ℝ
  | 1, _ => ![1.0]
  | 2, x => ![1.0 - x, x]
  | 3, x => ![(-1.0 + x) * (-1.0 + 2.0 * x), -4.0 * (-1.0 + x) * x, x * (-1.0 + 2.0 * x)]
  | 4, x => ![-(-1.0 + x) * (1.0 + 5.0 * (-1.0 + x) * x), -0.5 * s5 * (5.0 + s5 - 10.0 * x) * (-1.0 + x) * x,
      -0.5 * s5 * (-1.0 + x) * x * (-5.0 + s5 + 10.0 * x), x * (1.0 + 5.0 * (-1.0 + x) * x)]
  | _, _ => fun _ => 0

/-- `GaussLobattoInterpolationDerivative` (polynomials.hpp:521-541). -/
def lobattoDerivative (s5 : ℝ) : (n : ℕ) → ℝ → Fin n → ℝ
  | 1, _ => ![0.0]
  | 2, _ => ![-1, 1]
  | 3, x => ![-3.0 + 4.0 * x, 4.0 - 8.0 * x, -1.0 + 4.0 * x]
  | 4, x => ![-6.0 + 5.0 * (4.0 - 3.0 * x) * x, 2.5 * (1.0 + s5 + 2.0 * x * (-1.0 - 3.0 * s5 + 3.0 * s5 * x)),
      -2.5 * (-1.0 + s5 + 2.0 * x * (1.0 - 3.0 * s5 + 3.0 * s5 * x)), 1.0 + 5.0 * x * (-2.0 + 3.0 * x)]
  | _, _ => fun _ => 0

/-- `GaussLegendreInterpolation` (polynomials.hpp:557-580). -/
def gaussLegendre : (n : ℕ) → ℝ → Fin n → ℝ
  | 1, _ => ![1]
  | 2, x => ![1.3660254037844386467637231708 - 1.732050807568877293527446342 * x,
      -0.3660254037844386467637231708 + 1.732050807568877293527446342 * x]
  | 3, x => ![1.47883055770123614752987757 + x * (-4.6243277820691389617264218 + 3.33333333333333333333333333 * x),
      -0.666666666666666666666666667 + (6.66666666666666666666666667 - 6.666666666666666666666666667 * x) * x,
      0.1878361089654305191367891 + x * (-2.04233888459752770494024487 + 3.33333333333333333333333333 * x)]
  | 4, x => ![
      1.5267881254572667869843283 +
        x * (-8.546023607872198765973019 + (14.325858354171888152966621 - 7.420540068038946105200642 * x) * x),
      -0.8136324494869272605618981 +
        x * (13.807166925689577066158695 + x * (-31.388222363446060212058231 + 18.795449407555060811261716 * x)),
      0.400761520311650404800281777 + x * (-7.41707042146263907582738061 +
        (24.9981258592191222217269164 - 18.79544940755506081126171563 * x) * x),
      -0.113917196281989931222711973 +
        x * (2.15592710364526077564170438 + x * (-7.9357618499449501626353065 + 7.4205400680389461052006424 * x))]
  | _, _ => fun _ => 0

/-- `GaussLegendreInterpolationDerivative` (polynomials.hpp:594-609). -/
def gaussLegendreDerivative : (n : ℕ) → ℝ → Fin n → ℝ
  | 1, _ => ![0]
  | 2, _ => ![-1.7320508075688772935274463415, 1.7320508075688772935274463415]
  | 3, x => ![-4.6243277820691389617264218 + 6.6666666666666666666666667 * x,
      6.66666666666666666666666667 - 13.3333333333333333333333333 * x,
      -2.04233888459752770494024487 + 6.66666666666666666666666667 * x]
  | 4, x => ![-8.5460236078721987659730185 + (28.651716708343776305933241 - 22.261620204116838315601927 * x) * x,
      13.8071669256895770661586947 + x * (-62.776444726892120424116461 + 56.386348222665182433785147 * x),
      -7.4170704214626390758273806 + (49.996251718438244443453833 - 56.386348222665182433785147 * x) * x,
      2.15592710364526077564170438 + x * (-15.871523699889900325270613 + 22.2616202041168383156019272 * x)]
  | _, _ => fun _ => 0

/-! ### Tensor-product elements

The output array is indexed by `count`, incremented after each store; an array is a function of the index and `at` reads a table entry (zero
when out of range, which the loops never do). -/

/-- Reading entry `i` of a table with `n` entries. -/
def at' {n : ℕ} (v : Fin n → ℝ) (i : ℕ) : ℝ := if h : i < n then v ⟨i, h⟩ else 0

/-- `N[count++] = v;` -/
def push {V : Type} (v : V) (st : (ℕ → V) × ℕ) : (ℕ → V) × ℕ := (Function.update st.1 st.2 v, st.2 + 1)

/-- quadrilateral_H1.inl:77-92, `shape_functions`. -/
def quadShape (s5 : ℝ) (p : ℕ) (xi : Fin 2 → ℝ) : ℕ → ℝ :=
  let N_xi := lobatto s5 (p + 1) (xi 0)
  let N_eta := lobatto s5 (p + 1) (xi 1)
  (forRange 0 (p + 1) (fun j st => forRange 0 (p + 1) (fun i st => push (at' N_xi i * at' N_eta j) st) st) (fun _ => 0, 0)).1

/-- quadrilateral_H1.inl:94-111, `shape_function_gradients`. -/
def quadShapeGrad (s5 : ℝ) (p : ℕ) (xi : Fin 2 → ℝ) : ℕ → Fin 2 → ℝ :=
  let N_xi := lobatto s5 (p + 1) (xi 0)
  let N_eta := lobatto s5 (p + 1) (xi 1)
  let dN_xi := lobattoDerivative s5 (p + 1) (xi 0)
  let dN_eta := lobattoDerivative s5 (p + 1) (xi 1)
  (forRange 0 (p + 1) (fun j st => forRange 0 (p + 1) (fun i st =>
    push ![at' dN_xi i * at' N_eta j, at' N_xi i * at' dN_eta j] st) st) (fun _ => 0, 0)).1

/-- hexahedron_H1.inl:39-57, `shape_functions`. -/
def hexShape (s5 : ℝ) (p : ℕ) (xi : Fin 3 → ℝ) : ℕ → ℝ :=
  let N_xi := lobatto s5 (p + 1) (xi 0)
  let N_eta := lobatto s5 (p + 1) (xi 1)
  let N_zeta := lobatto s5 (p + 1) (xi 2)
  (forRange 0 (p + 1) (fun k st => forRange 0 (p + 1) (fun j st => forRange 0 (p + 1) (fun i st =>
    push (at' N_xi i * at' N_eta j * at' N_zeta k) st) st) st) (fun _ => 0, 0)).1

/-- hexahedron_H1.inl:59-87, `shape_function_gradients`. -/
def hexShapeGrad (s5 : ℝ) (p : ℕ) (xi : Fin 3 → ℝ) : ℕ → Fin 3 → ℝ :=
  let N_xi := lobatto s5 (p + 1) (xi 0)
  let N_eta := lobatto s5 (p + 1) (xi 1)
  let N_zeta := lobatto s5 (p + 1) (xi 2)
  let dN_xi := lobattoDerivative s5 (p + 1) (xi 0)
  let dN_eta := lobattoDerivative s5 (p + 1) (xi 1)
  let dN_zeta := lobattoDerivative s5 (p + 1) (xi 2)
  (forRange 0 (p + 1) (fun k st => forRange 0 (p + 1) (fun j st => forRange 0 (p + 1) (fun i st =>
    push ![at' dN_xi i * at' N_eta j * at' N_zeta k, at' N_xi i * at' dN_eta j * at' N_zeta k,
      at' N_xi i * at' N_eta j * at' dN_zeta k] st) st) st) (fun _ => 0, 0)).1

/-! ### Simplices

One table per order; `shape_functions` copies the entries in order (triangle_H1.inl:224-231, tetrahedron_H1.inl:320-327). -/

/-- linear triangle (triangle_H1.inl:82-91 and 148-157): `shape_function`. -/
def tri1 (_s5 x y : ℝ) : Fin 3 → ℝ :=
  ![1 - x - y,
    x,
    y]

/-- linear triangle (triangle_H1.inl:82-91 and 148-157): `shape_function_gradient`. -/
def tri1Grad (_s5 _x _y : ℝ) : Fin 3 → Fin 2 → ℝ :=
  ![![-1,
      -1],
    ![1,
      0],
    ![0,
      1]]

/-- quadratic triangle (triangle_H1.inl:94-109 and 160-175): `shape_function`. -/
def tri2 (_s5 x y : ℝ) : Fin 6 → ℝ :=
  ![(-1 + x + y) * (-1 + 2 * x + 2 * y),
    -4 * x * (-1 + x + y),
    x * (-1 + 2 * x),
    -4 * y * (-1 + x + y),
    4 * x * y,
    y * (-1 + 2 * y)]

/-- quadratic triangle (triangle_H1.inl:94-109 and 160-175): `shape_function_gradient`. -/
def tri2Grad (_s5 x y : ℝ) : Fin 6 → Fin 2 → ℝ :=
  ![![-3 + 4 * x + 4 * y,
      -3 + 4 * x + 4 * y],
    ![-4 * (-1 + 2 * x + y),
      -4 * x],
    ![-1 + 4 * x,
      0],
    ![-4 * y,
      -4 * (-1 + x + 2 * y)],
    ![4 * y,
      4 * x],
    ![0,
      -1 + 4 * y]]

/-- cubic triangle (triangle_H1.inl:112-139 and 178-219): `shape_function`. -/
def tri3 (s5 x y : ℝ) : Fin 10 → ℝ :=
  ![-((-1 + x + y) * (1 + 5 * x * x + 5 * (-1 + y) * y + x * (-5 + 11 * y))),
    (5 * x * (-1 + x + y) * (-1 - s5 + 2 * s5 * x + (3 + s5) * y)) / 2,
    (-5 * x * (-1 + x + y) * (1 - s5 + 2 * s5 * x + (-3 + s5) * y)) / 2,
    x * (1 + 5 * x * x + y - y * y - x * (5 + y)),
    (5 * y * (-1 + x + y) * (-1 - s5 + (3 + s5) * x + 2 * s5 * y)) / 2,
    -27 * x * y * (-1 + x + y),
    (5 * x * y * (-2 + (3 + s5) * x - (-3 + s5) * y)) / 2,
    (5 * y * (-1 + x + y) * (5 - 3 * s5 + 2 * (-5 + 2 * s5) * x + 5 * (-1 + s5) * y)) / (-5 + s5),
    (-5 * x * y * (2 + (-3 + s5) * x - (3 + s5) * y)) / 2,
    y * (1 + x - x * x - x * y + 5 * (-1 + y) * y)]

/-- cubic triangle (triangle_H1.inl:112-139 and 178-219): `shape_function_gradient`. -/
def tri3Grad (s5 x y : ℝ) : Fin 10 → Fin 2 → ℝ :=
  ![![-6 - 15 * x * x + 4 * x * (5 - 8 * y) + (21 - 16 * y) * y,
      -6 - 16 * x * x + x * (21 - 32 * y) + 5 * (4 - 3 * y) * y],
    ![(5 * (6 * s5 * x * x + x * (-2 - 6 * s5 + 6 * (1 + s5) * y) + (-1 + y) * (-1 - s5 + (3 + s5) * y))) / 2,
      (5 * x * (-2 * (2 + s5) + 3 * (1 + s5) * x + 2 * (3 + s5) * y)) / 2],
    ![(-5 * (6 * s5 * x * x + (-1 + y) * (1 - s5 + (-3 + s5) * y) + x * (2 - 6 * s5 + 6 * (-1 + s5) * y))) / 2,
      (-5 * x * (4 - 2 * s5 + 3 * (-1 + s5) * x + 2 * (-3 + s5) * y)) / 2],
    ![1 + 15 * x * x + y - y * y - 2 * x * (5 + y),
      -(x * (-1 + x + 2 * y))],
    ![(5 * y * (-2 * (2 + s5) + 2 * (3 + s5) * x + 3 * (1 + s5) * y)) / 2,
      (5 * (1 + s5 - 2 * (2 + s5) * x + (3 + s5) * x * x + 6 * (1 + s5) * x * y + 2 * y * (-1 - 3 * s5 + 3 * s5 * y))) / 2],
    ![-27 * y * (-1 + 2 * x + y),
      -27 * x * (-1 + x + 2 * y)],
    ![(-5 * y * (2 - 2 * (3 + s5) * x + (-3 + s5) * y)) / 2,
      (5 * x * (-2 + (3 + s5) * x - 2 * (-3 + s5) * y)) / 2],
    ![(-5 * y * (4 - 2 * s5 + 2 * (-3 + s5) * x + 3 * (-1 + s5) * y)) / 2,
      (-5 * (-1 + s5 + (-3 + s5) * x * x + 2 * y * (1 - 3 * s5 + 3 * s5 * y) + x * (4 - 2 * s5 + 6 * (-1 + s5) * y))) / 2],
    ![(5 * y * (-2 - 2 * (-3 + s5) * x + (3 + s5) * y)) / 2,
      (-5 * x * (2 + (-3 + s5) * x - 2 * (3 + s5) * y)) / 2],
    ![-(y * (-1 + 2 * x + y)),
      1 + x - x * x - 2 * (5 + x) * y + 15 * y * y]]

/-- linear tetrahedron (tetrahedron_H1.inl:48-59 and 158-169): `shape_function`. -/
def tet1 (_s5 x y z : ℝ) : Fin 4 → ℝ :=
  ![1 - x - y - z,
    x,
    y,
    z]

/-- linear tetrahedron (tetrahedron_H1.inl:48-59 and 158-169): `shape_function_gradient`. -/
def tet1Grad (_s5 _x _y _z : ℝ) : Fin 4 → Fin 3 → ℝ :=
  ![![-1,
      -1,
      -1],
    ![1,
      0,
      0],
    ![0,
      1,
      0],
    ![0,
      0,
      1]]

/-- quadratic tetrahedron (tetrahedron_H1.inl:60-83 and 170-194): `shape_function`. -/
def tet2 (_s5 x y z : ℝ) : Fin 10 → ℝ :=
  ![(-1 + x + y + z) * (-1 + 2 * x + 2 * y + 2 * z),
    -4 * x * (-1 + x + y + z),
    x * (-1 + 2 * x),
    -4 * y * (-1 + x + y + z),
    4 * x * y,
    y * (-1 + 2 * y),
    -4 * z * (-1 + x + y + z),
    4 * x * z,
    4 * y * z,
    z * (-1 + 2 * z)]

/-- quadratic tetrahedron (tetrahedron_H1.inl:60-83 and 170-194): `shape_function_gradient`. -/
def tet2Grad (_s5 x y z : ℝ) : Fin 10 → Fin 3 → ℝ :=
  ![![-3 + 4 * x + 4 * y + 4 * z,
      -3 + 4 * x + 4 * y + 4 * z,
      -3 + 4 * x + 4 * y + 4 * z],
    ![-4 * (-1 + 2 * x + y + z),
      -4 * x,
      -4 * x],
    ![-1 + 4 * x,
      0,
      0],
    ![-4 * y,
      -4 * (-1 + x + 2 * y + z),
      -4 * y],
    ![4 * y,
      4 * x,
      0],
    ![0,
      -1 + 4 * y,
      0],
    ![-4 * z,
      -4 * z,
      -4 * (-1 + x + y + 2 * z)],
    ![4 * z,
      0,
      4 * x],
    ![0,
      4 * z,
      4 * y],
    ![0,
      0,
      -1 + 4 * z]]

/-- cubic tetrahedron (tetrahedron_H1.inl:85-150 and 196-315): `shape_function`. -/
def tet3 (s5 x y z : ℝ) : Fin 20 → ℝ :=
  ![-((-1 + x + y + z) * (1 + 5 * x * x + 5 * y * y + 5 * (-1 + z) * z + y * (-5 + 11 * z) + x * (-5 + 11 * y + 11 * z))),
    (5 * x * (-1 + x + y + z) * (-1 - s5 + 2 * s5 * x + (3 + s5) * y + (3 + s5) * z)) / 2,
    (-5 * x * (-1 + x + y + z) * (1 - s5 + 2 * s5 * x + (-3 + s5) * y + (-3 + s5) * z)) / 2,
    x * (1 + 5 * x * x + y - y * y + z - y * z - z * z - x * (5 + y + z)),
    (5 * y * (-1 + x + y + z) * (-1 - s5 + (3 + s5) * x + 2 * s5 * y + (3 + s5) * z)) / 2,
    -27 * x * y * (-1 + x + y + z),
    (5 * x * y * (-2 + (3 + s5) * x - (-3 + s5) * y)) / 2,
    (-5 * y * (-1 + x + y + z) * (1 - s5 + (-3 + s5) * x + 2 * s5 * y + (-3 + s5) * z)) / 2,
    (-5 * x * y * (2 + (-3 + s5) * x - (3 + s5) * y)) / 2,
    y * (1 - x * x + 5 * y * y + z - z * z - y * (5 + z) - x * (-1 + y + z)),
    (5 * z * (-1 + x + y + z) * (-439204 - 196418 * s5 + (710647 + 317811 * s5) * x + (710647 + 317811 * s5) * y + 606965 * z + 271443 * s5
      * z)) / (271443 + 121393 * s5),
    -27 * x * z * (-1 + x + y + z),
    (5 * x * z * (-5 - 3 * s5 + (15 + 7 * s5) * x + 2 * s5 * z)) / (5 + 3 * s5),
    -27 * y * z * (-1 + x + y + z),
    27 * x * y * z,
    (5 * y * z * (-5 - 3 * s5 + (15 + 7 * s5) * y + 2 * s5 * z)) / (5 + 3 * s5),
    (5 * z * (-1 + x + y + z) * (88555 + 39603 * s5 + (54730 + 24476 * s5) * x + (54730 + 24476 * s5) * y - 5 * (64079 + 28657 * s5) * z)) /
      (143285 + 64079 * s5),
    (-5 * x * z * (2 + (-3 + s5) * x - (3 + s5) * z)) / 2,
    (-5 * y * z * (2 + (-3 + s5) * y - (3 + s5) * z)) / 2,
    -(z * (-1 + x * x + y * y + y * (-1 + z) - 5 * (-1 + z) * z + x * (-1 + y + z)))]

/-- cubic tetrahedron (tetrahedron_H1.inl:85-150 and 196-315): `shape_function_gradient`. -/
def tet3Grad (s5 x y z : ℝ) : Fin 20 → Fin 3 → ℝ :=
  ![![-6 - 15 * x * x - 16 * y * y + y * (21 - 33 * z) + (21 - 16 * z) * z - 4 * x * (-5 + 8 * y + 8 * z),
      -6 - 16 * x * x + 20 * y + x * (21 - 32 * y - 33 * z) + 21 * z - (3 * y + 4 * z) * (5 * y + 4 * z),
      -6 - 16 * x * x + 21 * y + x * (21 - 33 * y - 32 * z) + 20 * z - (4 * y + 3 * z) * (4 * y + 5 * z)],
    ![(5 * (6 * s5 * x * x + x * (-2 - 6 * s5 + 6 * (1 + s5) * y + 6 * (1 + s5) * z) + (-1 + y + z) * (-1 - s5 + (3 + s5) * y + (3 + s5) *
        z))) / 2,
      (5 * x * (-4 - 2 * s5 + 3 * (1 + s5) * x + 2 * (3 + s5) * y + 2 * (3 + s5) * z)) / 2,
      (5 * x * (-4 - 2 * s5 + 3 * (1 + s5) * x + 2 * (3 + s5) * y + 2 * (3 + s5) * z)) / 2],
    ![-15 * s5 * x * x - (5 * (-1 + y + z) * (1 - s5 + (-3 + s5) * y + (-3 + s5) * z)) / 2 - 5 * x * (1 - 3 * s5 + 3 * (-1 + s5) * y + 3 *
        (-1 + s5) * z),
      (-5 * x * (4 - 2 * s5 + 3 * (-1 + s5) * x + 2 * (-3 + s5) * y + 2 * (-3 + s5) * z)) / 2,
      (-5 * x * (4 - 2 * s5 + 3 * (-1 + s5) * x + 2 * (-3 + s5) * y + 2 * (-3 + s5) * z)) / 2],
    ![1 + 15 * x * x + y - y * y + z - y * z - z * z - 2 * x * (5 + y + z),
      -(x * (-1 + x + 2 * y + z)),
      -(x * (-1 + x + y + 2 * z))],
    ![(5 * y * (-2 * (2 + s5) + 2 * (3 + s5) * x + 3 * (1 + s5) * y + 2 * (3 + s5) * z)) / 2,
      15 * s5 * y * y + 5 * y * (-1 - 3 * s5 + 3 * (1 + s5) * x + 3 * (1 + s5) * z) + (5 * (-1 + x + z) * (-1 - s5 + (3 + s5) * x + (3 + s5)
        * z)) / 2,
      (5 * y * (-2 * (2 + s5) + 2 * (3 + s5) * x + 3 * (1 + s5) * y + 2 * (3 + s5) * z)) / 2],
    ![-27 * y * (-1 + 2 * x + y + z),
      -27 * x * (-1 + x + 2 * y + z),
      -27 * x * y],
    ![(-5 * y * (2 - 2 * (3 + s5) * x + (-3 + s5) * y)) / 2,
      (5 * x * (-2 + (3 + s5) * x - 2 * (-3 + s5) * y)) / 2,
      0],
    ![(-5 * y * (4 - 2 * s5 + 2 * (-3 + s5) * x + 3 * (-1 + s5) * y + 2 * (-3 + s5) * z)) / 2,
      -15 * s5 * y * y - (5 * (-1 + x + z) * (1 - s5 + (-3 + s5) * x + (-3 + s5) * z)) / 2 - 5 * y * (1 - 3 * s5 + 3 * (-1 + s5) * x + 3 *
        (-1 + s5) * z),
      (-5 * y * (4 - 2 * s5 + 2 * (-3 + s5) * x + 3 * (-1 + s5) * y + 2 * (-3 + s5) * z)) / 2],
    ![(5 * y * (-2 - 2 * (-3 + s5) * x + (3 + s5) * y)) / 2,
      (-5 * x * (2 + (-3 + s5) * x - 2 * (3 + s5) * y)) / 2,
      0],
    ![-(y * (-1 + 2 * x + y + z)),
      1 - x * x + 15 * y * y + z - z * z - 2 * y * (5 + z) - x * (-1 + 2 * y + z),
      -(y * (-1 + x + y + 2 * z))],
    ![(5 * z * (-2 * (2 + s5) + 2 * (3 + s5) * x + 2 * (3 + s5) * y + 3 * (1 + s5) * z)) / 2,
      (5 * z * (-2 * (2 + s5) + 2 * (3 + s5) * x + 2 * (3 + s5) * y + 3 * (1 + s5) * z)) / 2,
      (5 * (1 + s5 + (3 + s5) * x * x - 2 * (2 + s5) * y + (3 + s5) * y * y + 6 * (1 + s5) * y * z + 2 * z * (-1 - 3 * s5 + 3 * s5 * z) + 2
        * x * (-2 - s5 + (3 + s5) * y + 3 * (1 + s5) * z))) / 2],
    ![-27 * z * (-1 + 2 * x + y + z),
      -27 * x * z,
      -27 * x * (-1 + x + y + 2 * z)],
    ![(-5 * z * (2 - 2 * (3 + s5) * x + (-3 + s5) * z)) / 2,
      0,
      (5 * x * (-2 + (3 + s5) * x - 2 * (-3 + s5) * z)) / 2],
    ![-27 * y * z,
      -27 * z * (-1 + x + 2 * y + z),
      -27 * y * (-1 + x + y + 2 * z)],
    ![27 * y * z,
      27 * x * z,
      27 * x * y],
    ![0,
      (-5 * z * (2 - 2 * (3 + s5) * y + (-3 + s5) * z)) / 2,
      (5 * y * (-2 + (3 + s5) * y - 2 * (-3 + s5) * z)) / 2],
    ![(-5 * z * (4 - 2 * s5 + 2 * (-3 + s5) * x + 2 * (-3 + s5) * y + 3 * (-1 + s5) * z)) / 2,
      (-5 * z * (4 - 2 * s5 + 2 * (-3 + s5) * x + 2 * (-3 + s5) * y + 3 * (-1 + s5) * z)) / 2,
      (-5 * (-3 + s5) * x * x) / 2 - 5 * x * (2 - s5 + (-3 + s5) * y + 3 * (-1 + s5) * z) - (5 * (-1 + s5 + (-3 + s5) * y * y + 2 * z * (1 -
        3 * s5 + 3 * s5 * z) + y * (4 - 2 * s5 + 6 * (-1 + s5) * z))) / 2],
    ![(5 * z * (-2 - 2 * (-3 + s5) * x + (3 + s5) * z)) / 2,
      0,
      (-5 * x * (2 + (-3 + s5) * x - 2 * (3 + s5) * z)) / 2],
    ![0,
      (5 * z * (-2 - 2 * (-3 + s5) * y + (3 + s5) * z)) / 2,
      (-5 * y * (2 + (-3 + s5) * y - 2 * (3 + s5) * z)) / 2],
    ![-(z * (-1 + 2 * x + y + z)),
      -(z * (-1 + x + 2 * y + z)),
      1 + x - x * x + y - x * y - y * y - 2 * (5 + x + y) * z + 15 * z * z]]

end Serac.Nodal
