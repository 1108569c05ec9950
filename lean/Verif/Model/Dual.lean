import Mathlib.Analysis.SpecialFunctions.Pow.Real
import Mathlib.Analysis.SpecialFunctions.Trigonometric.Inverse
import Mathlib.Analysis.SpecialFunctions.Trigonometric.Arctan
import Mathlib.Analysis.SpecialFunctions.Complex.Arg
/-!
# Dual numbers

Model of `src/serac/numerics/functional/dual.hpp`.  `double` is ℝ; the gradient type is any real vector space `G` (a number, a tensor,
a tuple of tensors).  The functions of `<cmath>` are Mathlib's real functions, `atan2(y, x)` is the argument of `x + iy`, `log1p x` is
`log (1 + x)`.  Outside their mathematical domain `<cmath>` returns NaN or infinities; that is not modelled and the theorems exclude it.
-/

noncomputable section
namespace Serac

/-- `template <typename gradient_type> struct dual` (dual.hpp:28-45). -/
structure Dual (G : Type) where
  value : ℝ
  gradient : G

namespace Dual
variable {G : Type} [AddCommGroup G] [Module ℝ G]

/-- dual.hpp:59-63. -/
def addR (a : Dual G) (b : ℝ) : Dual G := ⟨a.value + b, a.gradient⟩
/-- dual.hpp:66-70. -/
def addL (a : ℝ) (b : Dual G) : Dual G := ⟨a + b.value, b.gradient⟩
/-- dual.hpp:73-77; also `+=`, dual.hpp:182-188. -/
def add (a b : Dual G) : Dual G := ⟨a.value + b.value, a.gradient + b.gradient⟩
/-- dual.hpp:80-84. -/
def neg (x : Dual G) : Dual G := ⟨-x.value, -x.gradient⟩
/-- dual.hpp:87-91. -/
def subR (a : Dual G) (b : ℝ) : Dual G := ⟨a.value - b, a.gradient⟩
/-- dual.hpp:94-98. -/
def subL (a : ℝ) (b : Dual G) : Dual G := ⟨a - b.value, -b.gradient⟩
/-- dual.hpp:101-105; also `-=`, dual.hpp:191-197. -/
def sub (a b : Dual G) : Dual G := ⟨a.value - b.value, a.gradient - b.gradient⟩
/-- dual.hpp:108-112. -/
def mulR (a : Dual G) (b : ℝ) : Dual G := ⟨a.value * b, b • a.gradient⟩
/-- dual.hpp:115-119. -/
def mulL (a : ℝ) (b : Dual G) : Dual G := ⟨a * b.value, a • b.gradient⟩
/-- dual.hpp:122-126. -/
def mul (a b : Dual G) : Dual G := ⟨a.value * b.value, b.value • a.gradient + a.value • b.gradient⟩
/-- dual.hpp:129-133. -/
def divR (a : Dual G) (b : ℝ) : Dual G := ⟨a.value / b, b⁻¹ • a.gradient⟩
/-- dual.hpp:136-140. -/
def divL (a : ℝ) (b : Dual G) : Dual G := ⟨a / b.value, (-(a / (b.value * b.value))) • b.gradient⟩
/-- dual.hpp:143-147. -/
def div (a b : Dual G) : Dual G :=
  ⟨a.value / b.value, b.value⁻¹ • a.gradient - (b.value * b.value)⁻¹ • (a.value • b.gradient)⟩
/-- dual.hpp:219-223. -/
def abs (x : Dual G) : Dual G := if x.value ≥ 0 then x else neg x
/-- dual.hpp:229-234. -/
def maxR (a : Dual G) (b : ℝ) : Dual G := if a.value > b then a else ⟨b, (0 : ℝ) • a.gradient⟩
/-- dual.hpp:237-242. -/
def maxL (a : ℝ) (b : Dual G) : Dual G := if a > b.value then ⟨a, (0 : ℝ) • b.gradient⟩ else b
/-- dual.hpp:245-249. -/
def max (a b : Dual G) : Dual G := if a.value > b.value then a else b
/-- dual.hpp:255-260. -/
def minR (a : Dual G) (b : ℝ) : Dual G := if a.value < b then a else ⟨b, (0 : ℝ) • a.gradient⟩
/-- dual.hpp:263-268. -/
def minL (a : ℝ) (b : Dual G) : Dual G := if a < b.value then ⟨a, (0 : ℝ) • b.gradient⟩ else b
/-- dual.hpp:271-275. -/
def min (a b : Dual G) : Dual G := if a.value < b.value then a else b
/-- dual.hpp:278-283. -/
def sqrt (x : Dual G) : Dual G := ⟨Real.sqrt x.value, (2 * Real.sqrt x.value)⁻¹ • x.gradient⟩
/-- dual.hpp:286-291. -/
def cos (a : Dual G) : Dual G := ⟨Real.cos a.value, Real.sin a.value • (-a.gradient)⟩
/-- dual.hpp:294-299. -/
def sin (a : Dual G) : Dual G := ⟨Real.sin a.value, Real.cos a.value • a.gradient⟩
/-- dual.hpp:302-307. -/
def atan (a : Dual G) : Dual G := ⟨Real.arctan a.value, (1 + a.value ^ 2)⁻¹ • a.gradient⟩
/-- `std::atan2`. -/
def stdAtan2 (y x : ℝ) : ℝ := Complex.arg ⟨x, y⟩
/-- dual.hpp:310-316. -/
def atan2 (y x : Dual G) : Dual G :=
  ⟨stdAtan2 y.value x.value, (x.value ^ 2 + y.value ^ 2)⁻¹ • (x.value • y.gradient) -
    (x.value ^ 2 + y.value ^ 2)⁻¹ • (y.value • x.gradient)⟩
/-- dual.hpp:319-324. -/
def atan2L (y : ℝ) (x : Dual G) : Dual G :=
  ⟨stdAtan2 y x.value, (x.value ^ 2 + y ^ 2)⁻¹ • (y • (-x.gradient))⟩
/-- dual.hpp:327-332. -/
def atan2R (y : Dual G) (x : ℝ) : Dual G :=
  ⟨stdAtan2 y.value x, (x ^ 2 + y.value ^ 2)⁻¹ • (x • y.gradient)⟩
/-- dual.hpp:335-340. -/
def asin (a : Dual G) : Dual G := ⟨Real.arcsin a.value, (Real.sqrt (1 - a.value ^ 2))⁻¹ • a.gradient⟩
/-- dual.hpp:343-348. -/
def acos (a : Dual G) : Dual G := ⟨Real.arccos a.value, (Real.sqrt (1 - a.value ^ 2))⁻¹ • (-a.gradient)⟩
/-- dual.hpp:351-356. -/
def exp (a : Dual G) : Dual G := ⟨Real.exp a.value, Real.exp a.value • a.gradient⟩
/-- dual.hpp:359-364. -/
def log (a : Dual G) : Dual G := ⟨Real.log a.value, a.value⁻¹ • a.gradient⟩
/-- dual.hpp:367-372. -/
def log1p (a : Dual G) : Dual G := ⟨Real.log (1 + a.value), (1 + a.value)⁻¹ • a.gradient⟩
/-- dual.hpp:375-382. -/
def pow (a b : Dual G) : Dual G :=
  ⟨a.value ^ b.value, (a.value ^ (b.value - 1)) • (b.value • a.gradient + (a.value * Real.log a.value) • b.gradient)⟩
/-- dual.hpp:385-391. -/
def powL (a : ℝ) (b : Dual G) : Dual G := ⟨a ^ b.value, (a ^ b.value * Real.log a) • b.gradient⟩
/-- dual.hpp:394-401. -/
def powR (a : Dual G) (b : ℝ) : Dual G := ⟨a.value ^ b, (b * a.value ^ (b - 1)) • a.gradient⟩

end Dual

/-- What an expression has in C++: type `double` or type `dual<G>`. -/
inductive Num (G : Type)
  | dbl (x : ℝ)
  | dual (d : Dual G)

/-- Unary operations: negation and the functions of one argument. -/
inductive Op1 | neg | abs | sqrt | cos | sin | atan | asin | acos | exp | log | log1p
/-- Binary operations. -/
inductive Op2 | add | sub | mul | div | max | min | atan2 | pow

/-- Expression trees a user can write in a q-function. -/
inductive Expr (ι : Type)
  | const (c : ℝ)
  | var (i : ι)
  | un (o : Op1) (a : Expr ι)
  | bin (o : Op2) (a b : Expr ι)

namespace Num
variable {G : Type} [AddCommGroup G] [Module ℝ G]

/-- The functions of `<cmath>` on `double`. -/
def std1 : Op1 → ℝ → ℝ
  | .neg, x => -x
  | .abs, x => |x|
  | .sqrt, x => Real.sqrt x
  | .cos, x => Real.cos x
  | .sin, x => Real.sin x
  | .atan, x => Real.arctan x
  | .asin, x => Real.arcsin x
  | .acos, x => Real.arccos x
  | .exp, x => Real.exp x
  | .log, x => Real.log x
  | .log1p, x => Real.log (1 + x)

/-- Built-in operators and `<cmath>` functions of two `double`s. -/
def std2 : Op2 → ℝ → ℝ → ℝ
  | .add, x, y => x + y
  | .sub, x, y => x - y
  | .mul, x, y => x * y
  | .div, x, y => x / y
  | .max, x, y => Max.max x y
  | .min, x, y => Min.min x y
  | .atan2, x, y => Dual.stdAtan2 x y
  | .pow, x, y => x ^ y

/-- Overload resolution for one argument. -/
def ap1 (o : Op1) : Num G → Num G
  | dbl x => dbl (std1 o x)
  | dual d => dual (match o with
    | .neg => d.neg | .abs => d.abs | .sqrt => d.sqrt | .cos => d.cos | .sin => d.sin | .atan => d.atan
    | .asin => d.asin | .acos => d.acos | .exp => d.exp | .log => d.log | .log1p => d.log1p)

/-- Overload resolution for two arguments. -/
def ap2 (o : Op2) : Num G → Num G → Num G
  | dbl x, dbl y => dbl (std2 o x y)
  | dbl x, dual y => dual (match o with
    | .add => Dual.addL x y | .sub => Dual.subL x y | .mul => Dual.mulL x y | .div => Dual.divL x y
    | .max => Dual.maxL x y | .min => Dual.minL x y | .atan2 => Dual.atan2L x y | .pow => Dual.powL x y)
  | dual x, dbl y => dual (match o with
    | .add => x.addR y | .sub => x.subR y | .mul => x.mulR y | .div => x.divR y
    | .max => x.maxR y | .min => x.minR y | .atan2 => x.atan2R y | .pow => x.powR y)
  | dual x, dual y => dual (match o with
    | .add => x.add y | .sub => x.sub y | .mul => x.mul y | .div => x.div y
    | .max => x.max y | .min => x.min y | .atan2 => x.atan2 y | .pow => x.pow y)

/-- `get_value` (dual.hpp:415-426). -/
def value : Num G → ℝ
  | dbl x => x
  | dual d => d.value

/-- `get_gradient` (dual.hpp:429-433) of a dual; a plain `double` does not depend on the inputs. -/
def gradient : Num G → G
  | dbl _ => 0
  | dual d => d.gradient

end Num

/-- Evaluation of an expression whose variables are the given numbers (plain or dual). -/
def Expr.run {ι G : Type} [AddCommGroup G] [Module ℝ G] (x : ι → Num G) : Expr ι → Num G
  | .const c => .dbl c
  | .var i => x i
  | .un o a => .ap1 o (a.run x)
  | .bin o a b => .ap2 o (a.run x) (b.run x)

/-- `make_dual` (dual.hpp:412). -/
def makeDual (x : ℝ) : Dual ℝ := ⟨x, 1⟩

end Serac
