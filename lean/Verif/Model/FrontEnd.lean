import Mathlib.Data.Real.Basic
import Mathlib.Data.Fin.VecNotation
import Std.Data.String.ToInt
/-!
# From the command line to the mesh

* `/repo/src/serac/infrastructure/cli.cpp` 19-88 (`defineAndParse`) and 100-134 (`printGiven`);
* `/repo/src/serac/infrastructure/input.cpp` 45-64 (`findMeshFilePath`) and 80-94 (`getInputFileName`);
* `/repo/src/serac/mesh/mesh_utils.cpp` 394-473 (`defineInputFileSchema`, `buildParallelMesh`, `refineAndDistribute`) and 476-522 (`FromInlet`);
* `/repo/src/drivers/serac.cpp` 244-359 (`main` up to the mesh).

The libraries are parameters or assumed: CLI11 calls `check` for every option that is given and fails if one of them is violated; Inlet rejects an
entry that is read but was not given, and `contains` says whether the user gave an entry; mfem's Cartesian meshes are grids of equal cells and
uniform refinement halves every cell in every direction.  Sidre, the logger and the physics are not modelled; `t_final` and `dt` are in `Driver.lean`.
-/

noncomputable section
namespace Serac.FrontEnd

/-- What a call can do: return, stop with a message of the logger or of CLI11, or run into undefined behaviour or an uncaught exception. -/
inductive Res (α : Type) where
  | ok (a : α)
  | refused
  | thrown

def Res.bind {α β : Type} : Res α → (α → Res β) → Res β
  | .ok a, f => f a
  | .refused, _ => .refused
  | .thrown, _ => .thrown

/-! ## Command line -/

/-- The variables bound to the options, cli.cpp 26-44.  `restart` is `none` when `restart_opt->count()` is 0; a path that was not given is "". -/
structure Args where
  inputFile : String := ""
  restart : Option ℤ := none
  docs : Bool := false
  outputDirectory : String := ""
  paraview : Bool := false
  unused : Bool := false
  version : Bool := false
  help : Bool := false

/-- `std::unordered_map<std::string, std::string>` with the newest entry first. -/
abbrev Opts := List (String × String)

/-- `cli_opts.find(k)`. -/
def Opts.find (o : Opts) (k : String) : Option String := (o.find? fun e => e.1 == k).map (·.2)

/-- `cli_opts.insert({k, v})`: an entry that exists stays. -/
def Opts.insert (o : Opts) (k v : String) : Opts := if (o.find k).isSome then o else (k, v) :: o

/-- `cli_opts[k] = v`. -/
def Opts.assign (o : Opts) (k v : String) : Opts := (k, v) :: o.filter fun e => e.1 != k

/-- `path.baseName()`: what follows the last separator. -/
def baseName (p : List Char) : List Char := (p.reverse.takeWhile (· ≠ '/')).reverse

/-- `basename.substr(0, index)` with `index = basename.find_last_of(".")`, or all of it, input.cpp 86-91. -/
def cutExtension (b : List Char) : List Char := if '.' ∈ b then ((b.reverse.dropWhile (· ≠ '.')).drop 1).reverse else b

/-- `getInputFileName`, input.cpp 80-94. -/
def inputFileName (p : String) : String := String.ofList (cutExtension (baseName p.toList))

/-- `app.parse` with the checks `ExistingFile` and `PositiveNumber`, cli.cpp 28-31 and 47-59. -/
def checked (isFile : String → Bool) (a : Args) : Bool := (a.inputFile == "" || isFile a.inputFile) && (a.restart.all fun c => decide (0 < c))

/-- What `defineAndParse` returns: a map, or the request to print the help text and leave (line 53). -/
inductive Parsed where
  | help
  | opts (o : Opts)

/-- The map built in lines 62-85. -/
def store (a : Args) : Res Opts :=
  if a.version then .ok (Opts.insert [] "version" "")
  else if a.inputFile == "" then .refused
  else
    let o : Opts := Opts.insert [] "input-file" a.inputFile
    let o := match a.restart with
      | some c => o.assign "restart-cycle" c.repr
      | none => o
    let o := if a.docs then o.insert "create-input-file-docs" "" else o
    let o := if a.unused then o.insert "print-unused" "" else o
    let dir := if a.outputDirectory == "" then inputFileName a.inputFile else a.outputDirectory
    let o := o.insert "output-directory" dir
    .ok (if a.paraview then (o.insert "paraview" "").insert "paraview-directory" (dir ++ "_paraview") else o)

/-- `defineAndParse`, cli.cpp 19-88.  CLI11 reports the request for help before it runs the checks. -/
def defineAndParse (isFile : String → Bool) (a : Args) : Res Parsed :=
  if a.help then .ok .help
  else if checked isFile a then (store a).bind fun o => .ok (.opts o)
  else .refused

/-- The options `printGiven` looks for, cli.cpp 107-113. -/
def printedKeys : List (String × String) :=
  [("create-input-file-docs", "Create Input File Docs"), ("input-file", "Input File"), ("output-directory", "Output Directory"),
   ("paraview", "Enable ParaView output"), ("restart-cycle", "Restart Cycle"), ("version", "Print version")]

/-- The lines `printGiven` writes, cli.cpp 117-122. -/
def printGiven (o : Opts) : List (String × String) := printedKeys.filterMap fun k => (o.find k.1).map fun v => (k.2, v)

/-! ## Mesh options -/

/-- The struct `elements` or `size` of the input file. -/
structure Triple (α : Type) where
  x : Option α := none
  y : Option α := none
  z : Option α := none

/-- `contains` of the struct: something in it was given. -/
def Triple.given {α : Type} (t : Triple α) : Bool := t.x.isSome || t.y.isSome || t.z.isSome

/-- The container `main_mesh`, mesh_utils.cpp 394-421.  `type` is `none` when it is missing. -/
structure MeshIn where
  serRef : Option ℤ := none
  parRef : Option ℤ := none
  type : Option String
  mesh : Option String := none
  elements : Triple ℤ := {}
  size : Triple ℝ := {}
  approx : Option ℤ := none

/-- The conditions of the schema, lines 397-401: `type` is required and one of four values. -/
def MeshIn.verified (b : MeshIn) : Bool := b.type.any fun t => t ∈ ["ball", "box", "disk", "file"]

/-- `InputOptions::extra_options`, mesh_utils.hpp 39. -/
inductive Extra where
  | file (rel abs : String)
  | box (elements : List ℤ) (size : List ℝ)
  | nball (approx : ℤ) (dim : ℕ)

structure Options where
  extra : Extra
  serRef : ℤ
  parRef : ℤ

/-- Reading an entry that was not given and has no default. -/
def need {α : Type} : Option α → Res α
  | some a => .ok a
  | none => .refused

/-- `overall_size`, lines 493-503; `n` is `elements.size()`. -/
def overallSize (n : ℕ) (s : Triple ℝ) : Res (List ℝ) :=
  if s.given then
    (need s.x).bind fun x => (need s.y).bind fun y => .ok (match s.z with | some z => [x, y, z] | none => [x, y])
  else .ok (List.replicate n 1)

/-- `elements`, lines 485-491. -/
def elementCounts (e : Triple ℤ) : Res (List ℤ) :=
  (need e.x).bind fun x => (need e.y).bind fun y => .ok (match e.z with | some z => [x, y, z] | none => [x, y])

/-- `FromInlet<InputOptions>`, lines 476-522. -/
def decode (b : MeshIn) : Res Options :=
  (need b.type).bind fun t =>
    let mk (e : Extra) : Options := ⟨e, b.serRef.getD 0, b.parRef.getD 0⟩
    if t = "box" then
      (elementCounts b.elements).bind fun e => (overallSize e.length b.size).bind fun s => .ok (mk (.box e s))
    else if t = "disk" ∨ t = "ball" then
      (need b.approx).bind fun n => .ok (mk (.nball n (if t = "disk" then 2 else 3)))
    else if t = "file" then (need b.mesh).bind fun m => .ok (mk (.file m ""))
    else .refused

/-- `findMeshFilePath`, input.cpp 45-64; `dir` is the directory of the input file and `join` is `joinPath`. -/
def findMeshFile (exist : String → Bool) (join : String → String → String) (dir mesh : String) : Res String :=
  if exist mesh then .ok mesh
  else if exist (join dir mesh) then .ok (join dir mesh)
  else .refused

/-- The serial mesh that is made. -/
inductive Serial where
  | file (path : String)
  | rectangle (nx ny : ℤ) (sx sy : ℝ)
  | cuboid (nx ny nz : ℤ) (sx sy sz : ℝ)
  | disk (approx : ℤ)
  | ball (approx : ℤ)

/-- `v.at(i)`. -/
def at' {α : Type} (v : List α) (i : ℕ) : Res α := match v[i]? with
  | some a => .ok a
  | none => .thrown

/-- The choice of the serial mesh in `buildParallelMesh`, lines 427-446. -/
def serialMesh : Extra → Res Serial
  | .file _ abs => if abs = "" then .refused else .ok (.file abs)
  | .box e s =>
    if e.length = 2 then
      (at' e 0).bind fun nx => (at' e 1).bind fun ny => (at' s 0).bind fun sx => (at' s 1).bind fun sy => .ok (.rectangle nx ny sx sy)
    else
      (at' e 0).bind fun nx => (at' e 1).bind fun ny => (at' e 2).bind fun nz =>
        (at' s 0).bind fun sx => (at' s 1).bind fun sy => (at' s 2).bind fun sz => .ok (.cuboid nx ny nz sx sy sz)
  | .nball n dim => if dim = 2 then .ok (.disk n) else .ok (.ball n)

/-- `for (int lev = 0; lev < levels; lev++) mesh.UniformRefinement()`, lines 456-458 and 462-464. -/
def refineLoop {M : Type} (refine : M → M) (levels lev : ℤ) (m : M) : M :=
  if lev < levels then refineLoop refine levels (lev + 1) (refine m) else m
termination_by (levels - lev).toNat
decreasing_by omega

/-- `refineAndDistribute`, lines 452-471: `distribute` makes the parallel mesh. -/
def refineAndDistribute {S P : Type} (refineS : S → S) (distribute : S → P) (refineP : P → P) (ser par : ℤ) (m : S) : P :=
  refineLoop refineP par 0 (distribute (refineLoop refineS ser 0 m))

/-- A cell of a Cartesian mesh: its lower and upper corner. -/
abbrev Cell (d : ℕ) := (Fin d → ℝ) × (Fin d → ℝ)

/-- The cells of `MakeCartesian2D` and `MakeCartesian3D`: vertex `i` in direction `k` is at `i / n k * s k`. -/
def cells {d : ℕ} (n : Fin d → ℕ) (s : Fin d → ℝ) : Set (Cell d) :=
  {c | ∃ i : Fin d → ℕ, (∀ k, i k < n k) ∧ c = (fun k => (i k : ℝ) / n k * s k, fun k => (i k + 1 : ℝ) / n k * s k)}

/-- The child of a cell that takes the upper half in the directions `b`. -/
def child {d : ℕ} (c : Cell d) (b : Fin d → Bool) : Cell d :=
  (fun k => if b k then (c.1 k + c.2 k) / 2 else c.1 k, fun k => if b k then c.2 k else (c.1 k + c.2 k) / 2)

/-- `UniformRefinement` of quadrilaterals and hexahedra with straight edges. -/
def uniform {d : ℕ} (m : Set (Cell d)) : Set (Cell d) := {c | ∃ p ∈ m, ∃ b, c = child p b}

/-! ## The driver -/

/-- The parts of the environment `main` looks at. -/
structure Env where
  isFile : String → Bool
  exist : String → Bool
  join : String → String → String
  /-- The directory of a path, `fullDirectoryFromPath`. -/
  dirOf : String → String
  /-- The container `main_mesh` of the input file. -/
  meshIn : String → MeshIn
  /-- `inlet.verify()` of everything but the mesh. -/
  restVerified : String → Bool
  /-- The time stored with a cycle in a directory, `none`: `StateManager::load` finds nothing and stops. -/
  stored : String → ℤ → Option ℝ

/-- Where the mesh of the run comes from. -/
inductive Source where
  | built (m : Serial) (serRef parRef : ℤ)
  | loaded (cycle : ℤ)

/-- A run: what `main` has decided when it reaches the physics, serac.cpp 360. -/
structure Run where
  source : Source
  t : ℝ
  cycle : ℤ
  outputDirectory : String
  paraviewDirectory : Option String

inductive Outcome where
  | help
  | about
  /-- The documentation is written to the path. -/
  | docs (path : String)
  | listUnused
  | run (r : Run)

/-- serac.cpp 346-352: decode the options, fill in the path of a mesh file, and choose the mesh. -/
def buildMesh (env : Env) (inputFile : String) : Res Source :=
  (decode (env.meshIn inputFile)).bind fun o =>
    (match o.extra with
      | .file rel _ => (findMeshFile env.exist env.join (env.dirOf inputFile) rel).bind fun p => .ok (Extra.file rel p)
      | e => .ok e).bind fun e => (serialMesh e).bind fun m => .ok (.built m o.serRef o.parRef)

/-- `std::stoi`: throws when the text is no number. -/
def stoi (s : String) : Res ℤ := match s.toInt? with
  | some c => .ok c
  | none => .thrown

/-- serac.cpp 253-359 for the map `o`. -/
def mainOpts (env : Env) (o : Opts) : Res Outcome :=
  if (o.find "version").isSome then .ok .about
  else
    let inputFile := (o.find "input-file").getD ""
    let dir := (o.find "output-directory").getD ""
    (match o.find "restart-cycle" with
      | some s => (stoi s).bind fun c => .ok (some c)
      | none => .ok none).bind fun restart =>
    if !((env.meshIn inputFile).verified && env.restVerified inputFile) then .refused
    else if (o.find "create-input-file-docs").isSome then .ok (.docs (env.join dir "serac_input.rst"))
    else if (o.find "print-unused").isSome then .ok .listUnused
    else match restart with
      | none => (buildMesh env inputFile).bind fun s => .ok (.run ⟨s, 0, 0, dir, o.find "paraview-directory"⟩)
      | some c => (need (env.stored dir c)).bind fun t => .ok (.run ⟨.loaded c, t, c, dir, o.find "paraview-directory"⟩)

/-- `main` up to line 359. -/
def main (env : Env) (a : Args) : Res Outcome :=
  (defineAndParse env.isFile a).bind fun p => match p with
    | .help => .ok .help
    | .opts o => mainOpts env o

end Serac.FrontEnd
