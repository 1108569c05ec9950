/-!
# Field names

`/repo/src/serac/physics/base_physics.cpp` 389-412 and the parameter accessors of `base_physics.hpp` 240-286.  Strings are lists of characters.
-/

namespace Serac.Prefix

/-- `detail::addPrefix`, lines 390-396. -/
def addPrefix (pfx target : List Char) : List Char := if pfx = [] then target else pfx ++ ['_'] ++ target

/-- `std::string::find`: the first position at which `needle` occurs. -/
def find (needle : List Char) : List Char → Option Nat
  | [] => if needle = [] then some 0 else none
  | c :: s => if needle.isPrefixOf (c :: s) then some 0 else (find needle s).map (· + 1)

/-- `detail::removePrefix`, lines 398-411. -/
def removePrefix (pfx target : List Char) : List Char :=
  if pfx ≠ [] then
    if find (pfx ++ ['_']) target = some 0 then target.drop (pfx.length + 1) else target
  else target

/-- The names the module's parameters are registered under: `solid_mechanics.hpp` 237, `heat_transfer.hpp` 202. -/
def register (mod : List Char) (names : List (List Char)) : List (List Char) := names.map (addPrefix mod)

/-- `BasePhysics::parameterNames`, lines 277-286. -/
def parameterNames (mod : List Char) (registered : List (List Char)) : List (List Char) := registered.map (removePrefix mod)

/-- `BasePhysics::parameter(name)`, lines 240-255: index of the field returned; `none` is the error. -/
def parameter (mod : List Char) (registered : List (List Char)) (name : List Char) : Option Nat :=
  registered.findIdx? (addPrefix mod name == ·)

end Serac.Prefix
