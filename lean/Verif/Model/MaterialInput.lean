/-!
# Materials in an input file

`/repo/src/serac/physics/materials/hardening_input.cpp` 11-65, `solid_material_input.cpp` 11-90, `thermal_material_input.cpp` 11-108 and the variants in
`hardening_input.hpp` 22-23, `solid_material_input.hpp` 23-26, `thermal_material_input.hpp` 22-23.

A table is read by axom's Inlet: an entry is absent, a number, or of another type.  `verify` is the verifier registered with the schema (Inlet calls it for
every table given by the user and refuses the file if it returns false), `decode` is the `FromInlet` functor.  `base["name"]` of an entry that is not a
number makes Inlet stop: `refused`.  `T` stands for `double`, values are only copied.  The checks in the constructors of the conductors are in
`Verif/Model/Conductors.lean`.
-/

namespace Serac.MaterialInput

inductive Res (α : Type) where
  | ok (a : α)
  | refused
  | undefined

def Res.bind {α β : Type} : Res α → (α → Res β) → Res β
  | .ok a, f => f a
  | .refused, _ => .refused
  | .undefined, _ => .undefined

inductive Entry (T : Type) where
  | absent
  | number (x : T)
  | other

variable {T : Type}

/-- `c.contains(name) && c[name].type() == double_type`. -/
def Entry.present : Entry T → Bool
  | .number _ => true
  | _ => false

/-- `base[name]` converted to `double`. -/
def Entry.get : Entry T → Res T
  | .number x => .ok x
  | _ => .refused

/-! ## Hardening laws -/

structure HardTable (T : Type) where
  law : String
  sigma_y : Entry T
  n : Entry T
  eps0 : Entry T
  sigma_sat : Entry T
  strain_constant : Entry T

/-- `var_hardening_t`; a default-constructed variant holds its first alternative, `LinearHardening`, with indeterminate members. -/
inductive Hard (T : Type) where
  | linear (sigma_y Hi : T)
  | powerLaw (sigma_y n eps0 : T)
  | voce (sigma_y sigma_sat strain_constant : T)

/-- hardening_input.cpp 26-43; the power law tests `sigma_sat` twice. -/
def HardTable.verify (c : HardTable T) : Bool :=
  if c.law = "PowerLawHardening" then
    c.sigma_y.present && c.n.present && c.eps0.present && !c.sigma_sat.present && !c.sigma_sat.present
  else if c.law = "VoceHardening" then
    c.sigma_y.present && !c.n.present && !c.eps0.present && c.sigma_sat.present && c.strain_constant.present
  else false

/-- hardening_input.cpp 48-61.  An unknown law leaves the default variant, whose members are indeterminate. -/
def HardTable.decode (c : HardTable T) : Res (Hard T) :=
  if c.law = "PowerLawHardening" then
    c.sigma_y.get.bind fun a => c.n.get.bind fun b => c.eps0.get.bind fun d => .ok (.powerLaw a b d)
  else if c.law = "VoceHardening" then
    c.sigma_y.get.bind fun a => c.sigma_sat.get.bind fun b => c.strain_constant.get.bind fun d => .ok (.voce a b d)
  else .undefined

/-! ## Solid materials -/

structure SolidTable (T : Type) where
  model : String
  density : Entry T
  mu : Entry T
  K : Entry T
  E : Entry T
  nu : Entry T
  Hk : Entry T
  hardening : Option (HardTable T)

/-- `var_solid_material_t`. -/
inductive Solid (T : Type) where
  | neoHookean (density K G : T)
  | linearIsotropic (density K G : T)
  | j2 (E nu : T) (hardening : Hard T) (Hk density : T)

/-- solid_material_input.cpp 30-50, together with the verifier of the nested table. -/
def SolidTable.verify (c : SolidTable T) : Bool :=
  (match c.hardening with | none => true | some h => h.verify) &&
  if c.model = "NeoHookean" ∨ c.model = "LinearIsotropic" then
    c.density.present && c.mu.present && c.K.present && !c.E.present && !c.nu.present && !c.hardening.isSome
  else if c.model = "J2SmallStrain" then
    c.density.present && !c.mu.present && !c.K.present && c.E.present && c.nu.present && c.Hk.present && c.hardening.isSome
  else false

/-- solid_material_input.cpp 56-90. -/
def SolidTable.decode (c : SolidTable T) : Res (Solid T) :=
  if c.model = "NeoHookean" then
    c.density.get.bind fun d => c.K.get.bind fun k => c.mu.get.bind fun g => .ok (.neoHookean d k g)
  else if c.model = "LinearIsotropic" then
    c.density.get.bind fun d => c.K.get.bind fun k => c.mu.get.bind fun g => .ok (.linearIsotropic d k g)
  else if c.model = "J2SmallStrain" then
    match c.hardening with
    | none => .refused
    | some t => t.decode.bind fun h =>
        c.E.get.bind fun e => c.nu.get.bind fun v => c.Hk.get.bind fun hk => c.density.get.bind fun d => .ok (.j2 e v h hk d)
  else .undefined

/-- Reading a material: schema verification, then conversion. -/
def SolidTable.read (c : SolidTable T) : Res (Solid T) := if c.verify then c.decode else .refused

/-! ## Thermal materials -/

structure ThermalTable (T : Type) where
  model : String
  density : Entry T
  cp : Entry T
  kappa : Entry T
  /-- the integer entry `dim` -/
  dim : Option Int
  /-- the nested table `kappa_tensor`: its three rows, each possibly absent -/
  kappaTensor : Option (Option (List T) × Option (List T) × Option (List T))

inductive Thermal (T : Type) where
  | isotropic (density cp kappa : T)
  | conductor2 (density cp : T) (k : Fin 2 → Fin 2 → T)
  | conductor3 (density cp : T) (k : Fin 3 → Fin 3 → T)

/-- thermal_material_input.cpp 30-63. -/
def ThermalTable.verify (c : ThermalTable T) : Bool :=
  if c.model = "LinearIsotropicConductor" then
    c.density.present && c.cp.present && c.kappa.present && !c.dim.isSome && !c.kappaTensor.isSome
  else if c.model = "LinearConductor" then
    match c.dim, c.kappaTensor with
    | some d, some (r1, r2, r3) =>
      if c.density.present && c.cp.present && !c.kappa.present then
        let size (r : Option (List T)) : Nat := (r.getD []).length
        if d = 2 then r1.isSome && size r1 == 2 && (r2.isSome && size r2 == 2) && !r3.isSome
        else if d = 3 then r1.isSome && size r1 == 3 && (r2.isSome && size r2 == 3) && (r3.isSome && size r3 == 3)
        else false
      else false
    | _, _ => false
  else false

/-- `v[i]` of a `std::vector`. -/
def at' (r : List T) (i : Nat) : Res T := match r[i]? with | some x => .ok x | none => .undefined

/-- thermal_material_input.cpp 82-106. -/
def ThermalTable.decode (c : ThermalTable T) : Res (Thermal T) :=
  if c.model = "LinearIsotropicConductor" then
    c.density.get.bind fun d => c.cp.get.bind fun p => c.kappa.get.bind fun k => .ok (.isotropic d p k)
  else if c.model = "LinearConductor" then
    match c.dim, c.kappaTensor with
    | some dim, some (r1, r2, r3) =>
      if dim = 2 then
        match r1, r2 with
        | some v0, some v1 =>
          (at' v0 0).bind fun a => (at' v0 1).bind fun b => (at' v1 0).bind fun e => (at' v1 1).bind fun f =>
            c.density.get.bind fun d => c.cp.get.bind fun p => .ok (.conductor2 d p fun i j => if i = 0 then (if j = 0 then a else b) else if j = 0 then e else f)
        | _, _ => .refused
      else if dim = 3 then
        match r1, r2, r3 with
        | some v0, some v1, some v2 =>
          (at' v0 0).bind fun a00 => (at' v0 1).bind fun a01 => (at' v0 2).bind fun a02 =>
          (at' v1 0).bind fun a10 => (at' v1 1).bind fun a11 => (at' v1 2).bind fun a12 =>
          (at' v2 0).bind fun a20 => (at' v2 1).bind fun a21 => (at' v2 2).bind fun a22 =>
            c.density.get.bind fun d => c.cp.get.bind fun p => .ok (.conductor3 d p fun i j =>
              if i = 0 then (if j = 0 then a00 else if j = 1 then a01 else a02)
              else if i = 1 then (if j = 0 then a10 else if j = 1 then a11 else a12)
              else (if j = 0 then a20 else if j = 1 then a21 else a22))
        | _, _, _ => .refused
      else .undefined
    | _, _ => .refused
  else .undefined

def ThermalTable.read (c : ThermalTable T) : Res (Thermal T) := if c.verify then c.decode else .refused

end Serac.MaterialInput
