import Mathlib.Data.Real.Basic
/-!
# Coefficients in the input file

`/repo/src/serac/infrastructure/input.cpp` 105-188 (coefficients) and 216-308 (conversion from the parsed input); the options structure is
`input.hpp` 85-139.

The parsed input is modelled by which entries `base.contains` reports and their values.  `std::unordered_map`s are lists of pairs in any order; keys
occur once.  Functions are opaque.  `SLIC_ERROR_ROOT` is `refused`; reading or writing outside an `mfem::Vector` (checked in debug builds of mfem only)
is `undefined`.
-/

noncomputable section
namespace Serac.Input

/-- How a call ends. -/
inductive Res (α : Type) where
  | ok (a : α)
  | refused
  | undefined

/-- A vector table of the input: fields `x`, `y`, `z` (`defineVectorInputFileSchema`, lines 96-103). -/
structure VecIn where
  x : Option ℝ
  y : Option ℝ
  z : Option ℝ

/-- `FromInlet<mfem::Vector>`, lines 216-231.  Reading a missing `x` is an Inlet error. -/
def parseVector (v : VecIn) : Res (List ℝ) :=
  match v.x with
  | none => .refused
  | some x =>
    match v.y with
    | some y =>
      match v.z with
      | some z => .ok [x, y, z]
      | none => .ok [x, y]
    | none => .ok [x]

/-- A coefficient entry of the input file.  `VF`, `SF`: vector- and scalar-valued functions. -/
structure Entry (VF SF : Type) where
  vectorFunction : Option VF
  scalarFunction : Option SF
  constant : Option ℝ
  vectorConstant : Option VecIn
  piecewise : Option (List (ℤ × ℝ))
  vectorPiecewise : Option (List (ℤ × VecIn))
  component : Option ℤ

/-- `CoefficientInputOptions`, input.hpp 85-139. -/
structure Options (VF SF : Type) where
  scalarFunction : Option SF
  vectorFunction : Option VF
  scalarConstant : Option ℝ
  vectorConstant : Option (List ℝ)
  scalarPw : List (ℤ × ℝ)
  vectorPw : List (ℤ × List ℝ)
  component : Option ℤ

def Res.bind {α β : Type} : Res α → (α → Res β) → Res β
  | .ok a, f => f a
  | .refused, _ => .refused
  | .undefined, _ => .undefined

/-- Conversion of an `unordered_map<int, mfem::Vector>` entry by entry. -/
def parseTable : List (ℤ × VecIn) → Res (List (ℤ × List ℝ))
  | [] => .ok []
  | (k, v) :: rest => (parseVector v).bind fun x => (parseTable rest).bind fun r => .ok ((k, x) :: r)

def parseOptVector : Option VecIn → Res (Option (List ℝ))
  | none => .ok none
  | some v => (parseVector v).bind fun x => .ok (some x)

def parseOptTable : Option (List (ℤ × VecIn)) → Res (List (ℤ × List ℝ))
  | none => .ok []
  | some t => parseTable t

/-- `FromInlet<CoefficientInputOptions>`, lines 246-308. -/
def fromInlet {VF SF : Type} (b : Entry VF SF) : Res (Options VF SF) :=
  (parseOptVector b.vectorConstant).bind fun vc =>
  (parseOptTable b.vectorPiecewise).bind fun vpw =>
    let definitions := b.vectorFunction.isSome.toNat + b.scalarFunction.isSome.toNat + b.constant.isSome.toNat + b.vectorConstant.isSome.toNat +
      b.piecewise.isSome.toNat + b.vectorPiecewise.isSome.toNat
    let spw := b.piecewise.getD []
    let component := if b.constant.isSome || b.scalarFunction.isSome || !spw.isEmpty then b.component else none
    if 1 < definitions then .refused
    else if definitions = 0 then .refused
    else .ok ⟨b.scalarFunction, b.vectorFunction, b.constant, vc, spw, vpw, component⟩

/-- `isVector`, lines 111-114. -/
def Options.isVector {VF SF : Type} (o : Options VF SF) : Bool := o.vectorFunction.isSome || o.vectorConstant.isSome || !o.vectorPw.isEmpty

/-- `std::max_element` with the comparison on keys, lines 125-126 and 165-166. -/
def maxElement {α : Type} : List (ℤ × α) → Option (ℤ × α)
  | [] => none
  | e :: rest => some (rest.foldl (fun best e => if best.1 < e.1 then e else best) e)

/-- `pw_constants(entry.first - 1) = value` on a vector of `n` entries, lines 139, 175. -/
def writeAll (n : ℤ) : List (ℤ × ℝ) → List ℝ → Res (List ℝ)
  | [], v => .ok v
  | (k, x) :: rest, v => if 1 ≤ k ∧ k ≤ n then writeAll n rest (v.set (k - 1).toNat x) else .undefined

/-- `mfem::Vector pw_constants(n); pw_constants = 0.0;` and the writes, lines 135-140 and 171-177.  A negative size is undefined. -/
def table (n : ℤ) (entries : List (ℤ × ℝ)) : Res (List ℝ) := if n < 0 then .undefined else writeAll n entries (List.replicate n.toNat 0)

/-- The coefficient objects that can be built. -/
inductive Scalar (SF : Type) where
  | function (f : SF)
  | constant (c : ℝ)
  | piecewise (constants : List ℝ)

inductive Vect (VF : Type) where
  | function (dim : ℕ) (f : VF)
  | constant (c : List ℝ)
  | piecewise (components : List (List ℝ))

/-- `entry.second[i]` for all entries, line 139. -/
def componentOf (i : ℕ) : List (ℤ × List ℝ) → Res (List (ℤ × ℝ))
  | [] => .ok []
  | (k, v) :: rest =>
    match v[i]? with
    | none => .undefined
    | some x => (componentOf i rest).bind fun r => .ok ((k, x) :: r)

/-- The loop over spatial dimensions, lines 131-143. -/
def componentTables (n : ℤ) (entries : List (ℤ × List ℝ)) : List ℕ → Res (List (List ℝ))
  | [] => .ok []
  | i :: is => (componentOf i entries).bind fun es => (table n es).bind fun t => (componentTables n entries is).bind fun r => .ok (t :: r)

/-- `constructVector`, lines 116-154. -/
def Options.constructVector {VF SF : Type} (o : Options VF SF) (dim : ℕ) : Res (Vect VF) :=
  if !o.isVector then .refused
  else match o.vectorFunction with
    | some f => .ok (.function dim f)
    | none => match o.vectorConstant with
      | some c => .ok (.constant c)
      | none => match maxElement o.vectorPw with
        | some m => (componentTables m.1 o.vectorPw (List.range m.2.length)).bind fun cs => .ok (.piecewise cs)
        | none => .refused

/-- `constructScalar`, lines 156-188. -/
def Options.constructScalar {VF SF : Type} (o : Options VF SF) : Res (Scalar SF) :=
  if o.isVector then .refused
  else match o.scalarFunction with
    | some f => .ok (.function f)
    | none => match o.scalarConstant with
      | some c => .ok (.constant c)
      | none => match maxElement o.scalarPw with
        | some m => (table m.1 o.scalarPw).bind fun t => .ok (.piecewise t)
        | none => .refused

/-- `mfem::PWConstCoefficient::Eval`: `constants(attribute - 1)`. -/
def pwEval (constants : List ℝ) (attr : ℤ) : Res ℝ :=
  if attr < 1 then .undefined else match constants[(attr - 1).toNat]? with
    | some x => .ok x
    | none => .undefined

/-- `FromInlet<BoundaryConditionInputOptions>`, lines 233-244: the set of values of the map `attrs`. -/
def attrSet (attrs : List (ℤ × ℤ)) : List ℤ := attrs.foldl (fun s e => if e.2 ∈ s then s else s ++ [e.2]) []

end Serac.Input
