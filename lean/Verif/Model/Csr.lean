import Verif.Model.Restriction
import Mathlib.Algebra.Group.Defs
/-!
# Sparse assembly

Model of `GradientAssemblyLookupTables::init` (`dof_numbering.hpp`, lines 255-358) and of the assembly loop of
`Functional::Gradient::assemble` (`functional.hpp`, lines 569-645).  `uint32_t` row and column numbers are `Nat`.
-/

namespace Serac.Csr

/-- `struct Entry` (dof_numbering.hpp:255-257): row, column. -/
abbrev Entry := Nat × Nat

/-- `Entry::operator<` (dof_numbering.hpp:260-263). -/
def entryLt (a b : Entry) : Bool := a.1 < b.1 || (a.1 == b.1 && a.2 < b.2)

/-- The entries emitted by one geometry (dof_numbering.hpp:303-319): loops over elements `e`, test nodes `i`, trial nodes `j`, test
components `k`, trial components `l`. -/
def emitGeom (test trial : ElementRestriction) : List Entry :=
  (List.range trial.numElements).flatMap fun e =>
    (List.range test.nodesPerElem).flatMap fun i =>
      (List.range trial.nodesPerElem).flatMap fun j =>
        (List.range test.components).flatMap fun k =>
          (List.range trial.components).map fun l => (test.vdof e i k, trial.vdof e j l)

/-- Keys of the hash map after the emission loops: each emitted entry once (dof_numbering.hpp:314).  The iteration order
of the hash map is irrelevant because the keys are sorted next. -/
def keys : List Entry → List Entry
  | [] => []
  | e :: es => if e ∈ es then keys es else e :: keys es

/-- `entries` after `std::sort` (dof_numbering.hpp:322-329). -/
def sortedEntries (emitted : List Entry) : List Entry := (keys emitted).mergeSort fun a b => !entryLt b a

/-- The tables (dof_numbering.hpp:361-376). -/
structure Tables where
  nnz : Nat
  rowPtr : Vec Nat
  colInd : List Nat
  lut : Entry → Option Nat

/-- Inner loop `for j in entries[i-1].row .. entries[i].row-1 : row_ptr[j + 1] = i` (dof_numbering.hpp:343-345). -/
def fillRows (prev row i : Nat) (v : Vec Nat) : Option (Vec Nat) :=
  (List.range' prev (row - prev)).foldlM (fun v j => v.set? (j + 1) i) v

/-- The `row_ptr` part of the loop `for i in 1 .. nnz-1` (dof_numbering.hpp:338-346), as a recursion over the remaining entries;
`prev` is `entries[i-1].row`. -/
def rowLoop : Nat → Nat → List Entry → Vec Nat → Option (Vec Nat)
  | _, _, [], v => some v
  | prev, i, e :: rest, v => (fillRows prev e.1 i v).bind (rowLoop e.1 (i + 1) rest)

/-- The `nz_LUT[entries[i]] = i` part of the same loop: the keys were inserted with value 0, then positions `1 ..` are stored. -/
def lutLoop (es : List Entry) : Entry → Option Nat :=
  (es.zipIdx.drop 1).foldl (fun lut ei => fun e => if e = ei.1 then some ei.2 else lut e)
    (fun e => if e ∈ es then some 0 else none)

/-- `init` (dof_numbering.hpp:290-351).  With no entries at all `col_ind[0] = entries[0].column` is out of range: `none`. -/
def init (lsize : Nat) (emitted : List Entry) : Option Tables :=
  match sortedEntries emitted with
  | [] => none
  | e0 :: rest => do
    -- row_ptr.resize(LSize + 1) value-initialises; row_ptr[0] = 0
    let v0 : Vec Nat := ⟨lsize + 1, fun _ => 0⟩
    let v ← rowLoop e0.1 1 rest v0
    -- row_ptr.back() = nnz
    let v ← v.set? lsize (rest.length + 1)
    return { nnz := rest.length + 1, rowPtr := v, colInd := (e0 :: rest).map Prod.snd, lut := lutLoop (e0 :: rest) }

variable {R : Type}

/-- One assembly statement `values[lookup_tables(row, col)] += v` (functional.hpp:637-638).  `lookup_tables(row, col)` is
`nz_LUT.at`, which throws for a missing key: `none`. -/
def addAt [Add R] (t : Tables) (vals : Vec R) (c : Entry × R) : Option (Vec R) := do
  let k ← t.lut c.1
  let old ← vals.get? k
  vals.set? k (old + c.2)

/-- The whole assembly: zero-initialised values (functional.hpp:586), then all contributions. -/
def assemble [Add R] [Zero R] (t : Tables) (contribs : List (Entry × R)) : Option (Vec R) :=
  contribs.foldlM (addAt t) ⟨t.nnz, fun _ => 0⟩

/-- Contributions of one geometry in the order of the loops (functional.hpp:620-640): element `e`, trial vdof `i`, test vdof `j`,
value `sign * elem_matrices(e, i, j)`.  `sgn` is the product of the two record signs. -/
def elemContribs [Mul R] (test trial : ElementRestriction) (sgn : Int → R) (K : Nat → Nat → Nat → R) :
    List (Entry × R) :=
  (List.range trial.numElements).flatMap fun e =>
    ((trial.elementVDofs e).zipIdx).flatMap fun ci =>
      ((test.elementVDofs e).zipIdx).map fun rj =>
        ((rj.1.pos, ci.1.pos), sgn (rj.1.sign * ci.1.sign) * K e ci.2 rj.2)

/-- `mfem::SparseMatrix::Mult` on the CSR arrays: row `r` uses slots `row_ptr[r] .. row_ptr[r+1]-1`. -/
def mult [AddCommMonoid R] [Mul R] (t : Tables) (vals : Nat → R) (x : Nat → R) (r : Nat) : R :=
  ((List.range' (t.rowPtr.val r) (t.rowPtr.val (r + 1) - t.rowPtr.val r)).map
    fun k => vals k * x (t.colInd.getD k 0)).sum

end Serac.Csr
