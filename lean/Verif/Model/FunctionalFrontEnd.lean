import Verif.Model.FunctionalCalls
/-!
# How a call of a `Functional` says what to differentiate

Modelled:
* src/serac/numerics/functional/differentiate_wrt.hpp, 12-42: `NO_DIFFERENTIATION`, `differentiate_wrt_this`,
  `differentiate_wrt`;
* src/serac/numerics/functional/functional.hpp, 49-61: `index_of_differentiation`;
* src/serac/numerics/functional/functional.hpp, 476-498, 502-513: `operator()(double t, args...)`, and what
  `operator()(DifferentiateWRT<wrt>, t, args...)` returns; the evaluation itself is `FnCalls.evaluate`;
* src/serac/numerics/functional/shape_aware_functional.hpp, 538-541, 557-560: forwards to the above.

An assertion that fails at compile time is `none`.
-/

namespace Serac.FrontEnd
open Serac.FnCalls

/-- An argument: an `mfem::Vector`, or `differentiate_wrt(vector)`. -/
inductive Arg (T : Type)
  | vector (x : T)
  | differentiateWrt (x : T)

/-- `static_cast<const mfem::Vector&>(arg)`. -/
def Arg.value {T : Type} : Arg T → T
  | .vector x => x
  | .differentiateWrt x => x

/-- `std::is_same_v<T, differentiate_wrt_this>`. -/
def Arg.matching {T : Type} : Arg T → Bool
  | .vector _ => false
  | .differentiateWrt _ => true

/-- `uint32_t(1) << 31`. -/
def noDifferentiation : ℕ := 2 ^ 31

/-- The loop of `index_of_differentiation`, from `i` on. -/
def indexOfDifferentiation : List Bool → ℕ → ℕ
  | [], _ => noDifferentiation
  | b :: bs, i => if b then i else indexOfDifferentiation bs (i + 1)

variable {Tm T L E Q D : Type}

/-- `operator()(double t, args...)` of an object with `n` trial spaces: the value, and the number of the
gradient object (`grad_[wrt]`) if one is returned. -/
def call [Zero T] [Zero L] [Add E] [Zero E] (ops : Ops T L E) (n : ℕ) (t : Tm) (args : List (Arg T))
    (m : Mem Tm T L E Q D) : Option (Mem Tm T L E Q D × T × Option ℕ) :=
  if 1 < (args.map Arg.matching).count true then none
  else if args.length ≠ n then none
  else
    let i := indexOfDifferentiation (args.map Arg.matching) 0
    let m' := evaluate ops (if i = noDifferentiation then none else some i) t
      (fun k => ((args[k]?).map Arg.value).getD 0) m
    some (m', m'.outputT, if i = noDifferentiation then none else some i)

end Serac.FrontEnd
