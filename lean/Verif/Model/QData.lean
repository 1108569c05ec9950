import Mathlib.Data.List.Basic
/-!
# Material state at the quadrature points

`/repo/src/serac/numerics/functional/quadrature_data.hpp` 122-144 (the buffer), `domain_integral_kernels.hpp` 123-150 (`batch_apply_qf`) and 156-219
(`evaluation_kernel_impl`), `integral.hpp` 65-86 (`Mult`), `functional.hpp` 447-478 and 523, `physics/state/state_manager.hpp` 109-131
(`newQuadratureDataBuffer`), `physics/solid_mechanics.hpp` 407-411 (`resetStates`), 1279-1288 (end of `advanceTimestep`).

One element geometry.  A buffer is a row-major array with one row per element of the mesh; the kernel takes the address of entry `(e, 0)` and adds the
point number (`&qf_state(e, 0)`, `qpt_data[i]`), so neighbouring rows are reached when there are more points than columns.  Access past the end is
`none`.

`S` is the type of material states, `I` that of everything else an evaluation depends on (time, fields), `Y` that of the results at a point.
-/

namespace Serac.QData

/-- `axom::Array<T, 2>`. -/
structure Buffer (S : Type) where
  rows : Nat
  cols : Nat
  data : List S

/-- Constructor of `QuadratureData`: filled with the initial value. -/
def Buffer.filled {S : Type} (rows cols : Nat) (value : S) : Buffer S := ⟨rows, cols, List.replicate (rows * cols) value⟩

/-- A domain integral: the mesh elements in its domain, the points per element of its quadrature rule, the number of its buffer, and the q-function at a
point of an element. -/
structure Integral (S I Y : Type) where
  elements : List Nat
  points : Nat
  buffer : Nat
  qf : I → Nat → Nat → S → Y × S

/-- The (position in the domain, point) pairs in the order of the two loops. -/
def loops (n points : Nat) : List (Nat × Nat) := (List.range n).flatMap fun e => (List.range points).map fun q => (e, q)

/-- Body of the loop in `batch_apply_qf`: a copy of the state is handed to the q-function, and stored only if `update`. -/
def point {S I Y : Type} (g : Integral S I Y) (update : Bool) (inp : I) (cols : Nat) (acc : List Y × List S) (k : Nat × Nat) : Option (List Y × List S) :=
  match acc.2[k.1 * cols + k.2]? with
  | none => none
  | some qdata =>
    let r := g.qf inp (g.elements.getD k.1 0) k.2 qdata
    some (acc.1 ++ [r.1], if update then acc.2.set (k.1 * cols + k.2) r.2 else acc.2)

/-- `evaluation_kernel_impl` for one integral. -/
def evalIntegral {S I Y : Type} (g : Integral S I Y) (update : Bool) (inp : I) (b : Buffer S) : Option (List Y × Buffer S) :=
  ((loops g.elements.length g.points).foldlM (point g update inp b.cols) ([], b.data)).map fun r => (r.1, { b with data := r.2 })

/-- `Functional::operator()`: all integrals in turn. -/
def evaluate {S I Y : Type} (gs : List (Integral S I Y)) (update : Bool) (inp : I) (bufs : List (Buffer S)) : Option (List (List Y) × List (Buffer S)) :=
  gs.foldlM (fun acc g =>
    match acc.2[g.buffer]? with
    | none => none
    | some b => (evalIntegral g update inp b).map fun r => (acc.1 ++ [r.1], acc.2.set g.buffer r.2)) ([], bufs)

/-- What happens to a module: residual or derivative evaluations during a solve, the update at the end of a step, and `resetStates`. -/
inductive Op (I : Type) where
  | evaluate (inp : I)
  | endStep (inp : I)
  | reset

/-- `updateQdata(true)`, evaluation, `updateQdata(false)` for `endStep`; `resetStates` does not touch the buffers. -/
def step {S I Y : Type} (gs : List (Integral S I Y)) (bufs : List (Buffer S)) : Op I → Option (List (Buffer S))
  | .evaluate inp => (evaluate gs false inp bufs).map (·.2)
  | .endStep inp => (evaluate gs true inp bufs).map (·.2)
  | .reset => some bufs

def run {S I Y : Type} (gs : List (Integral S I Y)) (bufs : List (Buffer S)) (ops : List (Op I)) : Option (List (Buffer S)) := ops.foldlM (step gs) bufs

/-- Points per direction of `Functional`: one more than the highest order of the test space and all trial spaces (functional.hpp:193). -/
def functionalQ (test : Nat) (trials : List Nat) : Nat := (test :: trials).foldl max 0 + 1

/-- Points per direction of `newQuadratureDataBuffer`: one more than the order of the module. -/
def bufferQ (order : Nat) : Nat := order + 1

end Serac.QData
