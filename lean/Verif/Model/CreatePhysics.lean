import Mathlib.Data.List.Sort
import Mathlib.Data.String.Basic
/-!
# From input file to physics module

`/repo/src/drivers/serac.cpp` 89-236 and 355-389, `physics/solid_mechanics.hpp` 280-362, `physics/heat_transfer.hpp` 231-273,
`physics/thermomechanics.hpp` 104-132, `physics/heat_transfer_input.cpp` 55-72, `physics/solid_mechanics_input.cpp` 58-74, `numerics/odes.cpp` 22-70 and
261-297.

Modelled: which module is built, and what of the input it is given.  A material, boundary condition or initial condition is an opaque value; "applied" means
handed to `setMaterial`, `addEssential`, `project`.  Stops of the program (`SLIC_ERROR`, `SLIC_ERROR_ROOT`) are `refused`.  Not modelled: the effect of
applying them, the solver options (C44), the building of coefficients (C37).
-/

namespace Serac.CreatePhysics

inductive Res (α : Type) where
  | ok (a : α)
  | refused
  | undefined

def Res.bind {α β : Type} : Res α → (α → Res β) → Res β
  | .ok a, f => f a
  | .refused, _ => .refused
  | .undefined, _ => .undefined

/-- `s.find(sub) != npos`. -/
def has (s sub : String) : Prop := sub.toList <:+: s.toList

instance (s sub : String) : Decidable (has s sub) := inferInstanceAs (Decidable (_ <:+: _))

/-! ## Options -/

/-- A boundary condition of the input: coefficient (opaque), whether it is vector valued, the component if given. -/
structure BC (C : Type) where
  coef : C
  isVector : Bool
  component : Option Int

/-- What `bcs_.addEssential` was called with: the component is absent for a vector coefficient. -/
structure Essential (C : Type) where
  coef : C
  component : Option Int
  deriving DecidableEq

/-- `var_solid_material_t`: elastic (`NeoHookean`, `LinearIsotropic`) or small strain J2. -/
inductive SolidMat (C : Type) where
  | elastic (m : C)
  | j2 (m : C)

/-- `var_thermal_material_t`: isotropic, or a conductor of a dimension. -/
inductive HeatMat (C : Type) where
  | isotropic (m : C)
  | conductor (dim : Int) (m : C)

structure SolidOptions (C : Type) where
  order : Int
  materials : List (SolidMat C)
  initialDisplacement : Option C
  initialVelocity : Option C
  bcs : List (String × BC C)

structure HeatOptions (C : Type) where
  order : Int
  materials : List (HeatMat C)
  initialTemperature : Option C
  source : Option C
  bcs : List (String × BC C)

structure ThermoOptions (C : Type) where
  solid : SolidOptions C
  heat : HeatOptions C
  /-- coefficient of thermal expansion and reference temperature -/
  expansion : Option (C × C)

/-! ## Modules -/

/-- A solid module: order, dimension, and everything that was applied to it. -/
structure Solid (C : Type) where
  order : Int
  dim : Int
  materials : List C
  displacement : Option C
  velocity : Option C
  essential : List (Essential C)

structure Heat (C : Type) where
  order : Int
  dim : Int
  materials : List C
  temperature : Option C
  essential : List (Essential C)

inductive Module (C : Type) where
  | solid (m : Solid C)
  | heat (m : Heat C)
  | thermo (solid : Solid C) (heat : Heat C) (expansion : Option (C × C))

variable {C : Type}

/-- solid_mechanics.hpp 286-321: one material after the other. -/
def applySolidMats (dim : Int) : List (SolidMat C) → Res (List C)
  | [] => .ok []
  | .elastic m :: t => (applySolidMats dim t).bind fun r => .ok (m :: r)
  | .j2 m :: t => if dim = 3 then (applySolidMats dim t).bind fun r => .ok (m :: r) else .refused

/-- solid_mechanics.hpp 331-361, for the boundary conditions in the order of iteration of the `unordered_map`. -/
def applySolidBCs : List (String × BC C) → Res (List (Essential C))
  | [] => .ok []
  | (name, b) :: t =>
    if has name "displacement" then
      if b.isVector then (applySolidBCs t).bind fun r => .ok (⟨b.coef, none⟩ :: r)
      else match b.component with
        | none => .refused
        | some c => (applySolidBCs t).bind fun r => .ok (⟨b.coef, some c⟩ :: r)
    else if has name "traction" then .refused
    else if has name "traction_ref" then .refused
    else if has name "pressure" then .refused
    else if has name "pressure_ref" then .refused
    else applySolidBCs t

/-- `SolidMechanics(input_options, ...)`, 280-362, given the order of iteration. -/
def buildSolid (dim order : Int) (o : SolidOptions C) (iter : List (String × BC C)) : Res (Solid C) :=
  (applySolidMats dim o.materials).bind fun ms => (applySolidBCs iter).bind fun es =>
    .ok ⟨order, dim, ms, o.initialDisplacement, o.initialVelocity, es⟩

/-- heat_transfer.hpp 236-242: a conductor of another dimension matches no branch. -/
def applyHeatMats (dim : Int) : List (HeatMat C) → List C
  | [] => []
  | .isotropic m :: t => m :: applyHeatMats dim t
  | .conductor d m :: t => if d = dim then m :: applyHeatMats dim t else applyHeatMats dim t

/-- heat_transfer.hpp 258-272: `*bc.coef_opts.component` of an empty `optional` is undefined; a vector coefficient has no component and cannot be built as a
scalar, which stops the program first. -/
def applyHeatBCs : List (String × BC C) → Res (List (Essential C))
  | [] => .ok []
  | (name, b) :: t =>
    if has name "temperature" then
      if b.isVector then .refused
      else match b.component with
        | none => .undefined
        | some c => (applyHeatBCs t).bind fun r => .ok (⟨b.coef, some c⟩ :: r)
    else if has name "flux" then .refused
    else applyHeatBCs t

/-- The copy into a `std::map`, heat_transfer.hpp 256-257. -/
def sortBCs (l : List (String × BC C)) : List (String × BC C) := l.mergeSort fun a b => decide (a.1 ≤ b.1)

/-- `HeatTransfer(input_options, ...)`, 231-273. -/
def buildHeat (dim order : Int) (o : HeatOptions C) : Res (Heat C) :=
  if o.source.isSome then .refused
  else (applyHeatBCs (sortBCs o.bcs)).bind fun es => .ok ⟨order, dim, applyHeatMats dim o.materials, o.initialTemperature, es⟩

/-- `Thermomechanics(thermal_options, solid_options, ...)`, 104-112: only the solver options, the time stepping and `geom_nonlin` are passed on. -/
def buildThermo (dim order : Int) (_s : SolidOptions C) (_h : HeatOptions C) : Res (Module C) :=
  .ok (.thermo ⟨order, dim, [], none, none, []⟩ ⟨order, dim, [], none, []⟩ none)

/-- The input file: the three optional blocks. -/
structure File (C : Type) where
  solid : Option (SolidOptions C)
  heat : Option (HeatOptions C)
  thermo : Option (ThermoOptions C)

/-- `getOrder`, 209-236. -/
def getOrder (f : File C) : Res Int :=
  let range (o : Int) : Res Int := if o < 1 ∨ o > 3 then .refused else .ok o
  match f.thermo, f.solid, f.heat with
  | some t, _, _ => if t.solid.order ≠ t.heat.order then .refused else range t.solid.order
  | none, some s, some h => if s.order ≠ h.order then .refused else range s.order
  | none, some s, none => range s.order
  | none, none, some h => range h.order
  | none, none, none => .refused

/-- `createPhysics`, 89-198: `none` is a null pointer (an order or dimension without a branch). -/
def createPhysics (dim order : Int) (f : File C) (iter : List (String × BC C) → List (String × BC C)) : Res (Option (Module C)) :=
  let known : Bool := (order = 1 ∨ order = 2 ∨ order = 3) ∧ (dim = 2 ∨ dim = 3)
  let wrap (r : Res (Module C)) : Res (Option (Module C)) := if known then r.bind fun m => .ok (some m) else .ok none
  match f.thermo, f.solid, f.heat with
  | some t, _, _ => wrap (buildThermo dim order t.solid t.heat)  -- the expansion coefficients are built and dropped, thermomechanics.hpp 126-131
  | none, some s, some h => wrap (buildThermo dim order s h)
  | none, some s, none => wrap ((buildSolid dim order s (iter s.bcs)).bind fun m => .ok (.solid m))
  | none, none, some h => wrap ((buildHeat dim order h).bind fun m => .ok (.heat m))
  | none, none, none => .refused

/-- The driver, 372-383: dimension check, order, creation; the pointer is dereferenced next.  `iter` is the order in which the `unordered_map` of boundary
conditions is traversed. -/
def driver (dim : Int) (f : File C) (iter : List (String × BC C) → List (String × BC C)) : Res (Module C) :=
  if dim < 2 ∨ dim > 3 then .refused
  else (getOrder f).bind fun order => (createPhysics dim order f iter).bind fun m =>
    match m with
    | none => .undefined
    | some m => .ok m

/-! ## Time stepping methods in the input -/

/-- `TimestepMethod`, solver_config.hpp 27-56. -/
inductive Method where
  | QuasiStatic | BackwardEuler | SDIRK33 | ForwardEuler | RK2 | RK3SSP | RK4 | GeneralizedAlpha | ImplicitMidpoint | SDIRK23 | SDIRK34
  | Newmark | HHTAlpha | WBZAlpha | AverageAcceleration | LinearAcceleration | CentralDifference | FoxGoodwin
  deriving DecidableEq

/-- solid_mechanics_input.cpp 59-66. -/
def solidMethod : String → Res Method
  | "AverageAcceleration" => .ok .AverageAcceleration
  | "NewmarkBeta" => .ok .Newmark
  | "BackwardEuler" => .ok .BackwardEuler
  | _ => .refused

/-- heat_transfer_input.cpp 55-62. -/
def heatMethod : String → Res Method
  | "AverageAcceleration" => .ok .AverageAcceleration
  | "BackwardEuler" => .ok .BackwardEuler
  | "ForwardEuler" => .ok .ForwardEuler
  | _ => .refused

/-- `SecondOrderODE::SetTimestepper`, odes.cpp 22-62: whether there is a branch for the method. -/
def secondOrderAccepts : Method → Bool
  | .Newmark | .HHTAlpha | .WBZAlpha | .AverageAcceleration | .LinearAcceleration | .CentralDifference | .FoxGoodwin | .BackwardEuler => true
  | _ => false

/-- `FirstOrderODE::SetTimestepper`, odes.cpp 261-295. -/
def firstOrderAccepts : Method → Bool
  | .BackwardEuler | .SDIRK33 | .ForwardEuler | .RK2 | .RK3SSP | .RK4 | .GeneralizedAlpha | .ImplicitMidpoint | .SDIRK23 | .SDIRK34 => true
  | _ => false

/-- The method a module ends up with; `SetTimestepper` stops the program for a method without a branch. -/
def setMethod (accepts : Method → Bool) (r : Res Method) : Res Method := r.bind fun m => if accepts m then .ok m else .refused

end Serac.CreatePhysics
