import Mathlib.Algebra.Ring.Defs
import Mathlib.Data.List.Basic
/-!
# Loops over the components of tensors of any rank

Modelled:
* src/serac/numerics/functional/detail/metaprogramming.hpp, 50-62, 96-100: `for_constexpr`;
* src/serac/numerics/functional/tensor.hpp, 1032-1038, 1833-1839, 1923-1929: `squared_norm`, `chain_rule` of a
  scalar-valued function, `isnan`;
* src/serac/numerics/functional/tuple_tensor_dual_functions.hpp, 338-347, 493-520: `make_dual`, `get_value`,
  `get_gradient`.

The body of a loop acts on a state, which stands for the variables it captures.  A tensor is a function of its
list of indices.
-/

namespace Serac.ForConstexpr

/-- An argument after the functor: `std::integer_sequence` or `integral_constant`. -/
inductive Arg
  | seq (values : List ℕ)
  | const (i : ℕ)

def Arg.isSeq : Arg → Bool
  | .seq _ => true
  | .const _ => false

/-- `args...` once all of them are constants. -/
def Arg.index : Arg → Option ℕ
  | .seq _ => none
  | .const i => some i

/-- The two overloads of `detail::for_constexpr`: the first sequence is removed and each of its values is
appended at the end. -/
def detail {σ : Type} (f : List ℕ → σ → σ) : List Arg → σ → σ
  | .seq l :: args, s => l.foldl (fun s n => detail f (args ++ [.const n]) s) s
  | .const i :: args, s => f (i :: args.filterMap Arg.index) s
  | [], s => f [] s
termination_by args => (args.filter Arg.isSeq).length
decreasing_by simp [List.filter_cons, Arg.isSeq]

/-- `for_constexpr<n...>(f)`. -/
def forConstexpr {σ : Type} (ns : List ℕ) (f : List ℕ → σ → σ) (s : σ) : σ :=
  detail f (ns.map fun n => .seq (List.range n)) s

/-- `squared_norm` of a tensor of any rank (tensor.hpp 1032-1038). -/
def squaredNorm {R : Type} [Semiring R] (ns : List ℕ) (A : List ℕ → R) : R :=
  forConstexpr ns (fun i total => total + A i * A i) 0

/-- `chain_rule` of a scalar-valued function (tensor.hpp 1833-1839). -/
def chainRule {R : Type} [Semiring R] (ns : List ℕ) (df_dx dx : List ℕ → R) : R :=
  forConstexpr ns (fun i total => total + df_dx i * dx i) 0

/-- `isnan` (tensor.hpp 1923-1929), for what the numbers' own `isnan` answers. -/
def isnan {R : Type} (nan : R → Bool) (ns : List ℕ) (A : List ℕ → R) : Bool :=
  forConstexpr ns (fun i found => found || nan (A i)) false

/-- `get_value` (tuple_tensor_dual_functions.hpp 493-499); a dual number is the pair of value and gradient. -/
def getValue {R G : Type} [Zero R] (ns : List ℕ) (arg : List ℕ → R × G) : List ℕ → R :=
  forConstexpr ns (fun i value => fun k => if k = i then (arg i).1 else value k) (fun _ => 0)

/-- `get_gradient` (tuple_tensor_dual_functions.hpp 505-520). -/
def getGradient {R G : Type} [Zero G] (ns : List ℕ) (arg : List ℕ → R × G) : List ℕ → G :=
  forConstexpr ns (fun i g => fun k => if k = i then (arg i).2 else g k) (fun _ => 0)

/-- `make_dual` (tuple_tensor_dual_functions.hpp 338-347): value and gradient of each component are zero at first. -/
def makeDual {R : Type} [Semiring R] (ns : List ℕ) (A : List ℕ → R) : List ℕ → R × (List ℕ → R) :=
  forConstexpr ns (fun i d => fun k => if k = i then (A i, fun l => if l = i then 1 else (d i).2 l) else d k)
    (fun _ => (0, fun _ => 0))

/-- `make_dual_helper<i, N>` of a tensor (tuple_tensor_dual_functions.hpp 153-163): the gradient is a tuple of `N`
entries, of which only the `i`-th is not of type `zero`; entries of type `zero` are modelled as zero. -/
def makeDualHelper {R : Type} [Semiring R] (i : ℕ) (ns : List ℕ) (A : List ℕ → R) :
    List ℕ → R × (ℕ → List ℕ → R) :=
  forConstexpr ns (fun j d => fun k =>
    if k = j then (A j, fun b l => if b = i ∧ l = j then 1 else (d j).2 b l) else d k) (fun _ => (0, fun _ _ => 0))

/-- `get_gradient` of a tensor of dual numbers whose gradients are tuples of `N` entries
(tuple_tensor_dual_functions.hpp 316-324). -/
def getGradientTuple {R G : Type} [Zero G] (N : ℕ) (ns : List ℕ) (arg : List ℕ → R × (ℕ → G)) : ℕ → List ℕ → G :=
  forConstexpr ns (fun i g => forConstexpr [N] (fun j g => fun b k =>
    if b = j.headD 0 ∧ k = i then (arg i).2 (j.headD 0) else g b k) g) (fun _ _ => 0)

end Serac.ForConstexpr
