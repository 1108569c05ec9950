import Verif.Model.DoF
/-!
# Element restriction operators

Model of `ElementRestriction` and `BlockElementRestriction` in
`src/serac/numerics/functional/element_restriction.{hpp,cpp}` (cpp lines 390-536).

`uint64_t` sizes are `Nat`; the dof records themselves are the 64-bit words of `Verif.Model.DoF`.  The `int(...)` casts of
record indices are modelled (`DoF.pos`), those of E-vector positions are not (vectors have fewer than 2^31 entries).
-/

namespace Serac

/-- `mfem::Ordering::Type`. -/
inductive Ordering' | byNODES | byVDIM
  deriving DecidableEq, Repr

/-- A dense vector with checked access: `mfem::Vector`.  `val` is only meaningful below `size`. -/
structure Vec (R : Type) where
  size : Nat
  val : Nat → R

namespace Vec
variable {R : Type}
/-- `v[i]` read; out of range is undefined behaviour, modelled as `none`. -/
def get? (v : Vec R) (i : Nat) : Option R := if i < v.size then some (v.val i) else none
/-- `v[i] = x`; out of range is undefined behaviour, modelled as `none`. -/
def set? (v : Vec R) (i : Nat) (x : R) : Option (Vec R) :=
  if i < v.size then some { v with val := fun k => if k = i then x else v.val k } else none
end Vec

/-- Data members of `ElementRestriction` (element_restriction.hpp:179-201). -/
structure ElementRestriction where
  ordering : Ordering'
  lsize : Nat
  components : Nat
  numNodes : Nat
  numElements : Nat
  nodesPerElem : Nat
  dofInfo : Nat → Nat → DoF

namespace ElementRestriction

/-- The constructors (element_restriction.cpp:392-419): everything but the dof table is computed from the space. -/
def build (ordering : Ordering') (vsize vdim ne npe : Nat) (info : Nat → Nat → DoF) : ElementRestriction :=
  { ordering := ordering, lsize := vsize, components := vdim, numNodes := vsize / vdim,
    numElements := ne, nodesPerElem := npe, dofInfo := info }

/-- `ESize()` (element_restriction.cpp:403, 421). -/
def esize (r : ElementRestriction) : Nat := r.numElements * r.nodesPerElem * r.components

/-- `GetVDof` (element_restriction.cpp:425-432). -/
def getVDof (r : ElementRestriction) (node : DoF) (component : Nat) : DoF :=
  match r.ordering with
  | .byNODES => DoF.mk3 (BitVec.ofNat 64 (component * r.numNodes + node.index.toNat))
      (if node.sign = 1 then 0#64 else 1#64) node.orientation
  | .byVDIM => DoF.mk3 (BitVec.ofNat 64 (node.index.toNat * r.components + component))
      (if node.sign = 1 then 0#64 else 1#64) node.orientation

/-- `int(GetVDof(dof_info(i, j), c).index())`. -/
def vdof (r : ElementRestriction) (i j c : Nat) : Nat := (r.getVDof (r.dofInfo i j) c).pos

/-- `GetElementVDofs` (element_restriction.cpp:434-441): entry `c * nodes_per_elem + j` of the output. -/
def elementVDofs (r : ElementRestriction) (i : Nat) : List DoF :=
  (List.range r.components).flatMap fun c => (List.range r.nodesPerElem).map fun j => r.getVDof (r.dofInfo i j) c

/-- The `(E_id, L_id)` pairs visited by the triple loop of `Gather` and `ScatterAdd`
(element_restriction.cpp:445-449 and 458-462). -/
def loopIds (r : ElementRestriction) : List (Nat × Nat) :=
  (List.range r.numElements).flatMap fun i =>
    (List.range r.components).flatMap fun c =>
      (List.range r.nodesPerElem).map fun j => ((i * r.components + c) * r.nodesPerElem + j, r.vdof i j c)

variable {R : Type}

/-- `Gather` (element_restriction.cpp:443-454). -/
def gather (r : ElementRestriction) (L E : Vec R) : Option (Vec R) :=
  r.loopIds.foldlM (fun E el => do let x ← L.get? el.2; E.set? el.1 x) E

/-- `ScatterAdd` (element_restriction.cpp:456-467). -/
def scatterAdd [Add R] (r : ElementRestriction) (E L : Vec R) : Option (Vec R) :=
  r.loopIds.foldlM (fun L el => do let x ← E.get? el.1; let y ← L.get? el.2; L.set? el.2 (y + x)) L

end ElementRestriction

/-- `mfem::Geometry::NUM_GEOMETRIES` (POINT, SEGMENT, TRIANGLE, SQUARE, TETRAHEDRON, CUBE, PRISM, PYRAMID). -/
def numGeometries : Nat := 8

/-- `BlockElementRestriction::restrictions`, a `std::map` from geometry to restriction
(element_restriction.hpp:235).  A map is a partial function on the geometry numbers; iteration is in key order. -/
abbrev BlockRestriction := Nat → Option ElementRestriction

namespace BlockRestriction

/-- Size of one block; geometries not in the map get none. -/
def blockSize (b : BlockRestriction) (g : Nat) : Nat := match b g with | some r => r.esize | none => 0

/-- `bOffsets()` (element_restriction.cpp:507-522): `offsets[0] = 0`, then one running sum per geometry. -/
def bOffsets (b : BlockRestriction) : List Nat :=
  (List.range numGeometries).foldl (fun offs g => offs ++ [offs.getLastD 0 + b.blockSize g]) [0]

/-- The geometries present, in key order. -/
def keys (b : BlockRestriction) : List Nat := (List.range numGeometries).filter fun g => (b g).isSome

/-- `ESize()` (element_restriction.cpp:503): the first entry of the map; an empty map dereferences `end()`. -/
def esize (b : BlockRestriction) : Option Nat := b.keys.head?.bind fun g => (b g).map ElementRestriction.esize

/-- `LSize()` (element_restriction.cpp:505). -/
def lsize (b : BlockRestriction) : Option Nat := b.keys.head?.bind fun g => (b g).map ElementRestriction.lsize

variable {R : Type}

/-- `E_block_vector.GetBlock(geom)`: a view of the big vector between two offsets (mfem::BlockVector). -/
def viewGet (E : Nat → R) (off : Nat) (n : Nat) : Vec R := ⟨n, fun k => E (off + k)⟩

/-- Writing a block back into the big vector (in MFEM the block aliases the memory). -/
def viewPut (E : Nat → R) (off n : Nat) (v : Vec R) : Nat → R :=
  fun k => if off ≤ k ∧ k < off + n then v.val (k - off) else E k

/-- `BlockElementRestriction::Gather` (element_restriction.cpp:524-529).  `E` has `offsets.back()` entries. -/
def gather (b : BlockRestriction) (L : Vec R) (E : Nat → R) : Option (Nat → R) :=
  (List.range numGeometries).foldlM (fun E g =>
    match b g with
    | none => some E
    | some r =>
      let off := b.bOffsets.getD g 0
      let n := b.bOffsets.getD (g + 1) 0 - off
      (r.gather L (viewGet E off n)).map (viewPut E off n)) E

/-- `BlockElementRestriction::ScatterAdd` (element_restriction.cpp:531-536). -/
def scatterAdd [Add R] (b : BlockRestriction) (E : Nat → R) (L : Vec R) : Option (Vec R) :=
  (List.range numGeometries).foldlM (fun L g =>
    match b g with
    | none => some L
    | some r =>
      let off := b.bOffsets.getD g 0
      let n := b.bOffsets.getD (g + 1) 0 - off
      r.scatterAdd (viewGet E off n) L) L

end BlockRestriction
end Serac
