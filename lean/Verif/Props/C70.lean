import Verif.Model.FrontEnd
import Mathlib.Data.Set.Card
import Mathlib.Data.Fintype.Pi
import Mathlib.Data.Fintype.BigOperators
import Mathlib.Tactic.FinCases
import Mathlib.Algebra.BigOperators.Fin
import Mathlib.Tactic.Ring
import Mathlib.Tactic.FieldSimp
import Mathlib.Tactic.Linarith
/-!
# C70: the command line and the mesh options select the run the user asked for

The specification below speaks about the arguments, the entries of the input file and the outcome of `main`; it uses none of the maps and
intermediate options of the model.
-/

noncomputable section
namespace Serac.C70
open Serac.FrontEnd

/-! ## Specification -/

/-- `stem` is the name of the file at `path` without directory and without its last extension. -/
def IsStem (path stem : List Char) : Prop :=
  ∃ dir base, path = dir ++ base ∧ '/' ∉ base ∧ (dir = [] ∨ dir.getLast? = some '/') ∧
    (('.' ∉ base ∧ stem = base) ∨ ∃ ext, base = stem ++ '.' :: ext ∧ '.' ∉ ext)

/-- The directory of a run: as given, or the name of the input file without extension. -/
def IsDirectory (a : Args) (dir : String) : Prop := if a.outputDirectory = "" then IsStem a.inputFile.toList dir.toList else dir = a.outputDirectory

/-- The options are acceptable to the parser. -/
def Accepted (env : Env) (a : Args) : Prop := (a.inputFile ≠ "" → env.isFile a.inputFile = true) ∧ ∀ c, a.restart = some c → 0 < c

/-- The input file passes verification. -/
def Verified (env : Env) (f : String) : Prop :=
  (∃ t, (env.meshIn f).type = some t ∧ (t = "ball" ∨ t = "box" ∨ t = "disk" ∨ t = "file")) ∧ env.restVerified f = true

/-- The mesh that the entries `b` describe; `path` is where the mesh file is found. -/
inductive Describes (b : MeshIn) (path : String → Option String) : Serial → Prop
  | rectangle {nx ny : ℤ} {sx sy : ℝ} : b.type = some "box" → b.elements.x = some nx → b.elements.y = some ny → b.elements.z = none →
      (b.size.x = some sx ∧ b.size.y = some sy ∨ (b.size.x = none ∧ b.size.y = none ∧ b.size.z = none ∧ sx = 1 ∧ sy = 1)) → Describes b path (.rectangle nx ny sx sy)
  | cuboid {nx ny nz : ℤ} {sx sy sz : ℝ} : b.type = some "box" → b.elements.x = some nx → b.elements.y = some ny → b.elements.z = some nz →
      (b.size.x = some sx ∧ b.size.y = some sy ∧ b.size.z = some sz ∨ (b.size.x = none ∧ b.size.y = none ∧ b.size.z = none ∧ sx = 1 ∧ sy = 1 ∧ sz = 1)) →
      Describes b path (.cuboid nx ny nz sx sy sz)
  | disk {n : ℤ} : b.type = some "disk" → b.approx = some n → Describes b path (.disk n)
  | ball {n : ℤ} : b.type = some "ball" → b.approx = some n → Describes b path (.ball n)
  | file {m p : String} : b.type = some "file" → b.mesh = some m → path m = some p → Describes b path (.file p)

/-- A mesh file is looked for as given, then next to the input file.  An existing file has a path that is not empty. -/
def located (env : Env) (f m : String) : Option String :=
  if env.exist m then some m else if env.exist (env.join (env.dirOf f) m) then some (env.join (env.dirOf f) m) else none

/-! ## The map of the options -/

theorem find_nil (k : String) : Opts.find [] k = none := rfl

theorem find_cons (e : String × String) (o : Opts) (k : String) : Opts.find (e :: o) k = if e.1 = k then some e.2 else Opts.find o k := by
  unfold Opts.find
  by_cases h : e.1 = k <;> simp [h]

theorem find_insert (o : Opts) (k v k' : String) : (o.insert k v).find k' = if k = k' then (some ((o.find k).getD v)) else o.find k' := by
  unfold Opts.insert
  by_cases h : (o.find k).isSome
  · rw [if_pos h]
    by_cases hk : k = k'
    · subst hk
      obtain ⟨w, hw⟩ := Option.isSome_iff_exists.1 h
      simp [hw]
    · simp [hk]
  · rw [if_neg h, find_cons]
    have : o.find k = none := by simpa using h
    simp [this]

theorem find_assign (o : Opts) (k v k' : String) : (o.assign k v).find k' = if k = k' then some v else o.find k' := by
  unfold Opts.assign
  rw [find_cons]
  by_cases h : k = k'
  · simp [h]
  · simp only [h, if_false]
    induction o with
    | nil => rfl
    | cons e o ih =>
      rw [find_cons, List.filter_cons]
      by_cases he : e.1 = k
      · simp only [he, bne_self_eq_false, Bool.false_eq_true, if_false, h]
        exact ih
      · have : (e.1 != k) = true := by simpa using he
        simp only [this, if_true, find_cons]
        rw [ih]

/-- The map for arguments without `version`, key by key. -/
theorem store_find (a : Args) (hv : a.version = false) (hi : a.inputFile ≠ "") : ∃ o, store a = .ok o ∧
    o.find "version" = none ∧ o.find "input-file" = some a.inputFile ∧ o.find "restart-cycle" = a.restart.map Int.repr ∧
    o.find "create-input-file-docs" = (if a.docs then some "" else none) ∧ o.find "print-unused" = (if a.unused then some "" else none) ∧
    o.find "output-directory" = some (if a.outputDirectory = "" then inputFileName a.inputFile else a.outputDirectory) ∧
    o.find "paraview" = (if a.paraview then some "" else none) ∧
    o.find "paraview-directory" = (if a.paraview then some ((if a.outputDirectory = "" then inputFileName a.inputFile else a.outputDirectory) ++ "_paraview") else none) := by
  unfold store
  rw [hv]
  simp only [Bool.false_eq_true, if_false, beq_iff_eq, hi]
  refine ⟨_, rfl, ?_⟩
  cases hr : a.restart <;> cases hd : a.docs <;> cases hu : a.unused <;> cases hp : a.paraview <;>
    simp [find_insert, find_assign, find_nil]

theorem store_version (a : Args) (hv : a.version = true) : ∃ o, store a = .ok o ∧ ∀ k, o.find k = if k = "version" then some "" else none := by
  unfold store
  rw [hv]
  refine ⟨_, rfl, fun k => ?_⟩
  rw [find_insert, find_nil, find_nil]
  simp [eq_comm]

/-! ## Names -/

theorem mem_takeWhile {p : Char → Bool} {l : List Char} {x : Char} (h : x ∈ l.takeWhile p) : p x = true := by
  induction l with
  | nil => simp at h
  | cons c l ih =>
    rw [List.takeWhile_cons] at h
    split_ifs at h with hc
    · rcases List.mem_cons.1 h with rfl | h
      · exact hc
      · exact ih h
    · simp at h

theorem takeWhile_split (p : Char → Bool) (l : List Char) : l = l.takeWhile p ++ l.dropWhile p := (List.takeWhile_append_dropWhile).symm

theorem stem_spec (path : List Char) : IsStem path (cutExtension (baseName path)) := by
  have hb : path = (path.reverse.dropWhile (· ≠ '/')).reverse ++ baseName path := by
    unfold baseName
    rw [← List.reverse_append, ← takeWhile_split, List.reverse_reverse]
  refine ⟨_, _, hb, ?_, ?_, ?_⟩
  · unfold baseName
    rw [List.mem_reverse]
    intro h
    have := mem_takeWhile h
    simp at this
  · cases h : path.reverse.dropWhile (· ≠ '/') with
    | nil => exact .inl rfl
    | cons c t =>
      refine .inr ?_
      have hc := List.head?_dropWhile_not (fun x : Char => decide (x ≠ '/')) path.reverse
      rw [h] at hc
      simp only [List.head?_cons] at hc
      simp only [List.reverse_cons, List.getLast?_append, List.getLast?_singleton, Option.some_or, Option.some.injEq]
      simpa using hc
  · unfold cutExtension
    by_cases hd : '.' ∈ baseName path
    · rw [if_pos hd]
      refine .inr ⟨((baseName path).reverse.takeWhile (· ≠ '.')).reverse, ?_, ?_⟩
      · have hs := takeWhile_split (fun x : Char => decide (x ≠ '.')) (baseName path).reverse
        have hne : (baseName path).reverse.dropWhile (fun x : Char => decide (x ≠ '.')) ≠ [] := by
          intro h0
          rw [h0, List.append_nil] at hs
          have : '.' ∈ (baseName path).reverse := List.mem_reverse.2 hd
          rw [hs] at this
          have := mem_takeWhile this
          simp at this
        obtain ⟨c, t, hct⟩ := List.exists_cons_of_ne_nil hne
        have hc := List.head?_dropWhile_not (fun x : Char => decide (x ≠ '.')) (baseName path).reverse
        rw [hct] at hc
        have hc' : c = '.' := by simpa using hc
        rw [hct, hc'] at hs ⊢
        have := congrArg List.reverse hs
        rw [List.reverse_reverse] at this
        conv_lhs => rw [this]
        simp
      · rw [List.mem_reverse]
        intro h
        have := mem_takeWhile h
        simp at this
    · rw [if_neg hd]
      exact .inl ⟨hd, rfl⟩

theorem directory_spec (a : Args) : IsDirectory a (if a.outputDirectory = "" then inputFileName a.inputFile else a.outputDirectory) := by
  unfold IsDirectory
  by_cases h : a.outputDirectory = ""
  · simp only [h, if_true]
    unfold inputFileName
    rw [String.toList_ofList]
    exact stem_spec _
  · simp [h]

/-! ## The mesh -/

theorem bind_ok {α β : Type} {r : Res α} {f : α → Res β} {b : β} : r.bind f = .ok b ↔ ∃ a, r = .ok a ∧ f a = .ok b := by
  cases r <;> simp [Res.bind]

theorem bind_thrown {α β : Type} {r : Res α} {f : α → Res β} : r.bind f = .thrown ↔ r = .thrown ∨ ∃ a, r = .ok a ∧ f a = .thrown := by
  cases r <;> simp [Res.bind]

theorem need_ok {α : Type} {o : Option α} {a : α} : need o = .ok a ↔ o = some a := by
  cases o <;> simp [need]

theorem need_thrown {α : Type} {o : Option α} : need o ≠ .thrown := by
  cases o <;> simp [need]

theorem findMeshFile_ok (env : Env) (f m p : String) : findMeshFile env.exist env.join (env.dirOf f) m = .ok p ↔ located env f m = some p := by
  unfold findMeshFile located
  split_ifs <;> simp

theorem findMeshFile_thrown (env : Env) (f m : String) : findMeshFile env.exist env.join (env.dirOf f) m ≠ .thrown := by
  unfold findMeshFile
  split_ifs <;> simp


theorem bind_of_ok {α β : Type} (a : α) (f : α → Res β) : (Res.ok a).bind f = f a := rfl

theorem buildMesh_ok (env : Env) (hexist : env.exist "" = false) (f : String) (s : Source) : buildMesh env f = .ok s ↔
    ∃ m, s = .built m ((env.meshIn f).serRef.getD 0) ((env.meshIn f).parRef.getD 0) ∧ Describes (env.meshIn f) (located env f) m := by
  set b := env.meshIn f with hb
  constructor
  · intro h
    unfold buildMesh decode at h
    rw [← hb] at h
    obtain ⟨o, ho, h⟩ := bind_ok.1 h
    obtain ⟨t, ht, ho⟩ := bind_ok.1 ho
    rw [need_ok] at ht
    dsimp only at ho
    split_ifs at ho with h1 h2 h3 h3
    · obtain ⟨e, he, ho⟩ := bind_ok.1 ho
      obtain ⟨z, hz, ho⟩ := bind_ok.1 ho
      obtain rfl : (⟨.box e z, b.serRef.getD 0, b.parRef.getD 0⟩ : Options) = o := by simpa using ho
      obtain ⟨nx, hnx, he⟩ := bind_ok.1 he
      obtain ⟨ny, hny, he⟩ := bind_ok.1 he
      rw [need_ok] at hnx hny
      obtain ⟨e', he', h⟩ := bind_ok.1 h
      obtain rfl : Extra.box e z = e' := by simpa using he'
      obtain ⟨m, hm, h⟩ := bind_ok.1 h
      refine ⟨m, by simpa using h.symm, ?_⟩
      unfold overallSize at hz
      subst h1
      cases hez : b.elements.z with
      | none =>
        obtain rfl : [nx, ny] = e := by simpa [hez] using he
        split_ifs at hz with hg
        · obtain ⟨sx, hsx, hz⟩ := bind_ok.1 hz
          obtain ⟨sy, hsy, hz⟩ := bind_ok.1 hz
          rw [need_ok] at hsx hsy
          have : m = .rectangle nx ny sx sy := by
            cases hsz : b.size.z <;> simp only [hsz, Res.ok.injEq] at hz <;> subst hz <;>
              simpa [serialMesh, at', Res.bind] using hm.symm
          subst this
          exact .rectangle ht hnx hny hez (.inl ⟨hsx, hsy⟩)
        · obtain rfl : List.replicate 2 (1 : ℝ) = z := by simpa using hz
          have : m = .rectangle nx ny 1 1 := by simpa [serialMesh, at', Res.bind] using hm.symm
          subst this
          simp only [Triple.given, Bool.not_eq_true, Bool.or_eq_false_iff, Option.isSome_eq_false_iff, Option.isNone_iff_eq_none] at hg
          exact .rectangle ht hnx hny hez (.inr ⟨hg.1.1, hg.1.2, hg.2, rfl, rfl⟩)
      | some nz =>
        obtain rfl : [nx, ny, nz] = e := by simpa [hez] using he
        split_ifs at hz with hg
        · obtain ⟨sx, hsx, hz⟩ := bind_ok.1 hz
          obtain ⟨sy, hsy, hz⟩ := bind_ok.1 hz
          rw [need_ok] at hsx hsy
          cases hsz : b.size.z with
          | none =>
            simp only [hsz, Res.ok.injEq] at hz
            subst hz
            simp [serialMesh, at', Res.bind] at hm
          | some sz =>
            simp only [hsz, Res.ok.injEq] at hz
            subst hz
            obtain rfl : m = .cuboid nx ny nz sx sy sz := by simpa [serialMesh, at', Res.bind] using hm.symm
            exact .cuboid ht hnx hny hez (.inl ⟨hsx, hsy, hsz⟩)
        · obtain rfl : List.replicate 3 (1 : ℝ) = z := by simpa using hz
          obtain rfl : m = .cuboid nx ny nz 1 1 1 := by simpa [serialMesh, at', Res.bind] using hm.symm
          simp only [Triple.given, Bool.not_eq_true, Bool.or_eq_false_iff, Option.isSome_eq_false_iff, Option.isNone_iff_eq_none] at hg
          exact .cuboid ht hnx hny hez (.inr ⟨hg.1.1, hg.1.2, hg.2, rfl, rfl, rfl⟩)
    · obtain ⟨n, hn, ho⟩ := bind_ok.1 ho
      rw [need_ok] at hn
      subst h3
      obtain rfl : (⟨.nball n 2, b.serRef.getD 0, b.parRef.getD 0⟩ : Options) = o := by simpa using ho
      exact ⟨.disk n, by simpa [serialMesh, Res.bind] using h.symm, .disk ht hn⟩
    · obtain ⟨n, hn, ho⟩ := bind_ok.1 ho
      rw [need_ok] at hn
      have : t = "ball" := by tauto
      subst this
      obtain rfl : (⟨.nball n 3, b.serRef.getD 0, b.parRef.getD 0⟩ : Options) = o := by simpa using ho
      exact ⟨.ball n, by simpa [serialMesh, Res.bind] using h.symm, .ball ht hn⟩
    · obtain ⟨n, hn, ho⟩ := bind_ok.1 ho
      rw [need_ok] at hn
      subst h3
      obtain rfl : (⟨.file n "", b.serRef.getD 0, b.parRef.getD 0⟩ : Options) = o := by simpa using ho
      dsimp only at h
      obtain ⟨e, he, h⟩ := bind_ok.1 h
      obtain ⟨p, hp, he⟩ := bind_ok.1 he
      obtain rfl : Extra.file n p = e := by simpa using he
      rw [findMeshFile_ok] at hp
      obtain ⟨m, hm, h⟩ := bind_ok.1 h
      unfold serialMesh at hm
      dsimp only at hm
      split_ifs at hm with h0
      obtain rfl : Serial.file p = m := by simpa using hm
      exact ⟨.file p, by simpa using h.symm, .file ht hn hp⟩
  · rintro ⟨m, rfl, hm⟩
    unfold buildMesh decode
    rw [← hb]
    cases hm with
    | rectangle ht hx hy hz hs =>
      rename_i nx ny sx sy
      rcases hs with ⟨h1, h2⟩ | ⟨h1, h2, h3, rfl, rfl⟩
      · cases hsz : b.size.z <;> simp [ht, hx, hy, hz, need, Res.bind, elementCounts, overallSize, Triple.given, h1, h2, hsz, serialMesh, at']
      · simp [ht, hx, hy, hz, need, Res.bind, elementCounts, overallSize, Triple.given, h1, h2, h3, serialMesh, at']
    | cuboid ht hx hy hz hs =>
      rcases hs with ⟨h1, h2, h3⟩ | ⟨h1, h2, h3, rfl, rfl, rfl⟩
      · simp [ht, hx, hy, hz, need, Res.bind, elementCounts, overallSize, Triple.given, h1, h2, h3, serialMesh, at']
      · simp [ht, hx, hy, hz, need, Res.bind, elementCounts, overallSize, Triple.given, h1, h2, h3, serialMesh, at']
    | disk ht hn => simp [ht, hn, need, Res.bind, serialMesh]
    | ball ht hn => simp [ht, hn, need, Res.bind, serialMesh]
    | file ht hn hp =>
      rename_i n p
      have hp' := (findMeshFile_ok env f n p).2 hp
      have hne : p ≠ "" := by
        rintro rfl
        unfold located at hp
        split_ifs at hp with h1 h2
        · rw [Option.some.inj hp, hexist] at h1
          exact absurd h1 (by simp)
        · rw [Option.some.inj hp, hexist] at h2
          exact absurd h2 (by simp)
      simp [ht, hn, need, Res.bind, serialMesh, hp', hne]

/-- Sizes that the box reader accepts and the mesh builder cannot use: three numbers of elements and two sizes. -/
def TwoSizes (b : MeshIn) : Prop :=
  b.type = some "box" ∧ b.elements.x.isSome ∧ b.elements.y.isSome ∧ b.elements.z.isSome ∧ b.size.x.isSome ∧ b.size.y.isSome ∧ b.size.z = none

theorem buildMesh_thrown (env : Env) (f : String) : buildMesh env f = .thrown ↔ TwoSizes (env.meshIn f) := by
  set b := env.meshIn f with hb
  unfold buildMesh decode TwoSizes
  rw [← hb]
  cases ht : b.type with
  | none => simp [need, Res.bind]
  | some t =>
    by_cases h1 : t = "box"
    · subst h1
      cases hx : b.elements.x <;> cases hy : b.elements.y <;> cases hz : b.elements.z <;> cases hsx : b.size.x <;> cases hsy : b.size.y <;>
        cases hsz : b.size.z <;> simp [need, Res.bind, elementCounts, overallSize, Triple.given, hx, hy, hz, hsx, hsy, hsz, serialMesh, at']
    · simp only [need, bind_of_ok, h1, if_false, Option.some.injEq, false_and, iff_false]
      split_ifs with h2 h3 h3
      · cases hn : b.approx <;> simp [Res.bind, serialMesh]
      · cases hn : b.approx <;> simp [Res.bind, serialMesh]
      · cases hn : b.mesh with
        | none => simp [Res.bind]
        | some n =>
          simp only [bind_of_ok]
          have := findMeshFile_thrown env f n
          cases hf : findMeshFile env.exist env.join (env.dirOf f) n with
          | ok p =>
            simp only [bind_of_ok, serialMesh]
            split_ifs <;> simp [Res.bind]
          | refused => simp [Res.bind]
          | thrown => exact absurd hf this
      · simp [Res.bind]

theorem checked_iff (env : Env) (a : Args) : checked env.isFile a = true ↔ Accepted env a := by
  unfold checked Accepted
  cases hr : a.restart <;> by_cases hi : a.inputFile = "" <;> simp [hi]

theorem verified_iff (env : Env) (f : String) : ((env.meshIn f).verified && env.restVerified f) = true ↔ Verified env f := by
  unfold Verified MeshIn.verified
  cases ht : (env.meshIn f).type <;> simp

theorem stoi_repr (c : ℤ) : stoi c.repr = .ok c := by
  unfold stoi
  rw [Int.toInt?_repr]

/-- `main` when neither the help text nor the version is asked for and the arguments are accepted. -/
theorem main_eq (env : Env) (a : Args) (hh : a.help = false) (hv : a.version = false) (hc : Accepted env a) (hi : a.inputFile ≠ "") :
    ∃ dir, IsDirectory a dir ∧ main env a =
      if !((env.meshIn a.inputFile).verified && env.restVerified a.inputFile) then .refused
      else if a.docs then .ok (.docs (env.join dir "serac_input.rst"))
      else if a.unused then .ok .listUnused
      else match a.restart with
        | none => (buildMesh env a.inputFile).bind fun s => .ok (.run ⟨s, 0, 0, dir, if a.paraview then some (dir ++ "_paraview") else none⟩)
        | some c => (need (env.stored dir c)).bind fun t => .ok (.run ⟨.loaded c, t, c, dir, if a.paraview then some (dir ++ "_paraview") else none⟩) := by
  refine ⟨_, directory_spec a, ?_⟩
  obtain ⟨o, ho, h1, h2, h3, h4, h5, h6, -, h8⟩ := store_find a hv hi
  unfold main defineAndParse
  rw [hh, if_neg (by simp), if_pos ((checked_iff env a).2 hc), ho]
  simp only [bind_of_ok]
  unfold mainOpts
  simp only [h1, h2, h3, h4, h5, h6, h8, Option.isSome_none, Bool.false_eq_true, if_false, Option.getD_some]
  cases hr : a.restart with
  | none =>
    simp only [Option.map_none, bind_of_ok]
    cases hd : a.docs <;> cases hu : a.unused <;> simp
  | some c =>
    simp only [Option.map_some, stoi_repr, bind_of_ok]
    cases hd : a.docs <;> cases hu : a.unused <;> simp

theorem main_help (env : Env) (a : Args) (hh : a.help = true) : main env a = .ok .help := by
  unfold main defineAndParse
  rw [hh]
  rfl

theorem main_version (env : Env) (a : Args) (hh : a.help = false) (hv : a.version = true) (hc : Accepted env a) : main env a = .ok .about := by
  obtain ⟨o, ho, h⟩ := store_version a hv
  unfold main defineAndParse
  rw [hh, if_neg (by simp), if_pos ((checked_iff env a).2 hc), ho]
  simp only [bind_of_ok]
  unfold mainOpts
  simp [h]

theorem main_unaccepted (env : Env) (a : Args) (hh : a.help = false) (hc : ¬ Accepted env a) : main env a = .refused := by
  unfold main defineAndParse
  rw [hh, if_neg (by simp), if_neg (by rwa [checked_iff])]
  rfl

theorem main_noinput (env : Env) (a : Args) (hh : a.help = false) (hv : a.version = false) (hi : a.inputFile = "") : main env a = .refused := by
  unfold main defineAndParse store
  rw [hh, hv, hi]
  simp only [Bool.false_eq_true, if_false, beq_self_eq_true, if_true]
  split_ifs <;> rfl

/-- The arguments ask for a simulation. -/
def Simulate (env : Env) (a : Args) : Prop :=
  a.help = false ∧ a.version = false ∧ a.docs = false ∧ a.unused = false ∧ Accepted env a ∧ a.inputFile ≠ "" ∧ Verified env a.inputFile

theorem main_simulate (env : Env) (a : Args) (h : Simulate env a) : ∃ dir, IsDirectory a dir ∧ main env a = match a.restart with
    | none => (buildMesh env a.inputFile).bind fun s => .ok (.run ⟨s, 0, 0, dir, if a.paraview then some (dir ++ "_paraview") else none⟩)
    | some c => (need (env.stored dir c)).bind fun t => .ok (.run ⟨.loaded c, t, c, dir, if a.paraview then some (dir ++ "_paraview") else none⟩) := by
  obtain ⟨hh, hv, hd, hu, hc, hi, hf⟩ := h
  obtain ⟨dir, h1, h2⟩ := main_eq env a hh hv hc hi
  refine ⟨dir, h1, ?_⟩
  rw [h2, (verified_iff env a.inputFile).2 hf, hd, hu]
  simp

/-- What does not ask for a simulation has another outcome. -/
theorem main_other (env : Env) (a : Args) (h : ¬ Simulate env a) : main env a ≠ .thrown ∧ ∀ r, main env a ≠ .ok (.run r) := by
  cases hh : a.help
  swap
  · simp [main_help env a hh]
  by_cases hc : Accepted env a
  swap
  · simp [main_unaccepted env a hh hc]
  cases hv : a.version
  swap
  · simp [main_version env a hh hv hc]
  by_cases hi : a.inputFile = ""
  · simp [main_noinput env a hh hv hi]
  obtain ⟨dir, -, h2⟩ := main_eq env a hh hv hc hi
  rw [h2]
  by_cases hf : Verified env a.inputFile
  swap
  · rw [← verified_iff] at hf
    rw [if_pos (by rw [Bool.eq_false_of_not_eq_true hf]; rfl)]
    simp
  rw [(verified_iff env a.inputFile).2 hf]
  cases hd : a.docs
  swap
  · simp
  cases hu : a.unused
  swap
  · simp
  exact absurd ⟨hh, hv, hd, hu, hc, hi, hf⟩ h

/-! ## Theorems -/

/-- **C70, the run**: whenever `main` gets to a simulation, it was asked for; its files go to the directory the user gave, or else to the one named
after the input file; ParaView files are written exactly when asked for, next to it; without a restart the run starts at time and cycle 0 on the
mesh the input file describes with the given numbers of refinements; with a restart it starts at the cycle the user gave, at the time stored with it. -/
theorem C70_run (env : Env) (hexist : env.exist "" = false) (a : Args) (r : Run) (h : main env a = .ok (.run r)) :
    Simulate env a ∧ IsDirectory a r.outputDirectory ∧
    r.paraviewDirectory = (if a.paraview then some (r.outputDirectory ++ "_paraview") else none) ∧
    match a.restart with
    | none => r.t = 0 ∧ r.cycle = 0 ∧ ∃ m, r.source = .built m ((env.meshIn a.inputFile).serRef.getD 0) ((env.meshIn a.inputFile).parRef.getD 0) ∧
        Describes (env.meshIn a.inputFile) (located env a.inputFile) m
    | some c => r.source = .loaded c ∧ r.cycle = c ∧ env.stored r.outputDirectory c = some r.t := by
  have hs : Simulate env a := by
    by_contra hn
    exact (main_other env a hn).2 r h
  obtain ⟨dir, hdir, hm⟩ := main_simulate env a hs
  rw [h] at hm
  refine ⟨hs, ?_⟩
  cases hr : a.restart with
  | none =>
    rw [hr] at hm
    obtain ⟨s, hb, hm⟩ := bind_ok.1 hm.symm
    obtain rfl : (⟨s, 0, 0, dir, if a.paraview then some (dir ++ "_paraview") else none⟩ : Run) = r := by simpa using hm
    exact ⟨hdir, rfl, rfl, rfl, (buildMesh_ok env hexist a.inputFile s).1 hb⟩
  | some c =>
    rw [hr] at hm
    obtain ⟨t, ht, hm⟩ := bind_ok.1 hm.symm
    obtain rfl : (⟨.loaded c, t, c, dir, if a.paraview then some (dir ++ "_paraview") else none⟩ : Run) = r := by simpa using hm
    exact ⟨hdir, rfl, rfl, rfl, need_ok.1 ht⟩

/-- **C70, runs happen**: a request for a simulation is carried out if the input file describes a mesh; with a restart it is carried out if the cycle
is stored in the directory of the run. -/
theorem C70_runs (env : Env) (hexist : env.exist "" = false) (a : Args) (h : Simulate env a) :
    (a.restart = none → ((∃ r, main env a = .ok (.run r)) ↔ ∃ m, Describes (env.meshIn a.inputFile) (located env a.inputFile) m)) ∧
    ∀ c, a.restart = some c → ∃ dir, IsDirectory a dir ∧ ((∃ r, main env a = .ok (.run r)) ↔ (env.stored dir c).isSome) := by
  obtain ⟨dir, hdir, hm⟩ := main_simulate env a h
  constructor
  · intro hr
    constructor
    · rintro ⟨r, hr'⟩
      have := (C70_run env hexist a r hr').2.2.2
      rw [hr] at this
      obtain ⟨-, -, m, -, hd⟩ := this
      exact ⟨m, hd⟩
    · rintro ⟨m, hd⟩
      have hb := (buildMesh_ok env hexist a.inputFile _).2 ⟨m, rfl, hd⟩
      rw [hm, hr]
      simp only [hb, bind_of_ok]
      exact ⟨_, rfl⟩
  · intro c hr
    refine ⟨dir, hdir, ?_⟩
    rw [hm, hr]
    dsimp only
    cases hst : env.stored dir c <;> simp [need, Res.bind]

/-- **C70, a mesh is described in one way**: the entries determine the mesh. -/
theorem C70_described (b : MeshIn) (path : String → Option String) (m m' : Serial) (h : Describes b path m) (h' : Describes b path m') : m = m' := by
  rcases h with ⟨h1, h2, h3, h4, h5⟩ | ⟨h1, h2, h3, h4, h5⟩ | ⟨h1, h2⟩ | ⟨h1, h2⟩ | ⟨h1, h2, h3⟩ <;>
    rcases h' with ⟨g1, g2, g3, g4, g5⟩ | ⟨g1, g2, g3, g4, g5⟩ | ⟨g1, g2⟩ | ⟨g1, g2⟩ | ⟨g1, g2, g3⟩ <;> simp_all
  · rcases h5 with ⟨a1, a2⟩ | ⟨a1, a2, -, rfl, rfl⟩ <;> rcases g5 with ⟨b1, b2⟩ | ⟨b1, b2, -, rfl, rfl⟩ <;> simp_all
  · rcases h5 with ⟨a1, a2, a3⟩ | ⟨a1, a2, a3, rfl, rfl, rfl⟩ <;> rcases g5 with ⟨b1, b2, b3⟩ | ⟨b1, b2, b3, rfl, rfl, rfl⟩ <;> simp_all

/-- **C70, the other requests**: the help text comes before everything; then the version; then, for a verified input file, the documentation of the
input file, and the list of the unused entries. -/
theorem C70_requests (env : Env) (a : Args) :
    (main env a = .ok .help ↔ a.help = true) ∧
    (main env a = .ok .about ↔ a.help = false ∧ a.version = true ∧ Accepted env a) ∧
    (main env a = .ok .listUnused ↔ a.help = false ∧ a.version = false ∧ a.docs = false ∧ a.unused = true ∧ Accepted env a ∧ a.inputFile ≠ "" ∧ Verified env a.inputFile) ∧
    ((∃ p, main env a = .ok (.docs p)) ↔ a.help = false ∧ a.version = false ∧ a.docs = true ∧ Accepted env a ∧ a.inputFile ≠ "" ∧ Verified env a.inputFile) ∧
    ∀ p, main env a = .ok (.docs p) → ∃ dir, IsDirectory a dir ∧ p = env.join dir "serac_input.rst" := by
  cases hh : a.help
  swap
  · simp [main_help env a hh]
  by_cases hc : Accepted env a
  swap
  · simp [main_unaccepted env a hh hc, hc]
  cases hv : a.version
  swap
  · simp [main_version env a hh hv hc, hc]
  by_cases hi : a.inputFile = ""
  · simp [main_noinput env a hh hv hi, hi]
  obtain ⟨dir, hdir, h2⟩ := main_eq env a hh hv hc hi
  rw [h2]
  by_cases hf : Verified env a.inputFile
  swap
  · have hf' := hf
    rw [← verified_iff] at hf'
    rw [if_pos (by rw [Bool.eq_false_of_not_eq_true hf']; rfl)]
    simp [hf]
  rw [(verified_iff env a.inputFile).2 hf]
  cases hd : a.docs
  swap
  · simp only [Bool.not_true, Bool.false_eq_true, if_false, if_true]
    simp [hc, hi, hf]
    exact ⟨dir, hdir, rfl⟩
  cases hu : a.unused
  swap
  · simp [hc, hi, hf]
  simp only [Bool.not_true, Bool.false_eq_true, if_false]
  cases hr : a.restart with
  | none => simp [bind_ok]
  | some c => simp [bind_ok]

/-- **C70, a restart does not read the mesh options**: two input files that pass verification give the same run. -/
theorem C70_restart_mesh (env env' : Env) (a : Args) (c : ℤ) (hr : a.restart = some c) (hs : Simulate env a) (hs' : Simulate env' a)
    (hst : env.stored = env'.stored) (ho : a.outputDirectory ≠ "") : main env a = main env' a := by
  obtain ⟨dir, hdir, hm⟩ := main_simulate env a hs
  obtain ⟨dir', hdir', hm'⟩ := main_simulate env' a hs'
  unfold IsDirectory at hdir hdir'
  rw [if_neg ho] at hdir hdir'
  rw [hm, hm', hr, hdir, hdir', hst]

/-- **C70, a missing size ends the program**: the only request that ends in an exception is a box with three numbers of elements and exactly the
first two sizes: `std::vector::at(2)` throws instead of a message about the input. -/
theorem C70_size_wrong (env : Env) (a : Args) : main env a = .thrown ↔ Simulate env a ∧ a.restart = none ∧ TwoSizes (env.meshIn a.inputFile) := by
  by_cases hs : Simulate env a
  swap
  · simp [(main_other env a hs).1, hs]
  obtain ⟨dir, hdir, hm⟩ := main_simulate env a hs
  rw [hm]
  cases hr : a.restart with
  | none => simp [bind_thrown, buildMesh_thrown, hs]
  | some c => simp [bind_thrown, need_thrown]

/-- **C70, two-dimensional boxes ignore the third size**: it is accepted without a message. -/
theorem C70_size_ignored (b : MeshIn) (path : String → Option String) (nx ny : ℤ) (sx sy : ℝ) (z : Option ℝ) (hx : b.size.x = some sx) (hy : b.size.y = some sy) :
    Describes b path (.rectangle nx ny sx sy) ↔ Describes { b with size := { b.size with z := z } } path (.rectangle nx ny sx sy) := by
  constructor
  · rintro (⟨h1, h2, h3, h4, -⟩ | _)
    exact .rectangle h1 h2 h3 h4 (.inl ⟨hx, hy⟩)
  · rintro (⟨h1, h2, h3, h4, -⟩ | _)
    exact .rectangle h1 h2 h3 h4 (.inl ⟨hx, hy⟩)

/-- **C70, `--version` does not stand alone**: the program announces that it ignores all other options, but an input file that does not exist or a
restart cycle that is not positive makes it stop with an error. -/
theorem C70_version_wrong (env : Env) (a : Args) (hh : a.help = false) (hv : a.version = true) : main env a = .refused ↔ ¬ Accepted env a := by
  by_cases hc : Accepted env a
  · simp [main_version env a hh hv hc, hc]
  · simp [main_unaccepted env a hh hc, hc]

/-- **C70, what is printed**: the input file, the directory, the restart cycle and the requests for documentation and ParaView are listed exactly when
they are given. -/
theorem C70_printed (a : Args) (hv : a.version = false) (hi : a.inputFile ≠ "") : ∃ o dir, store a = .ok o ∧ IsDirectory a dir ∧ ∀ l v, (l, v) ∈ printGiven o ↔
    (l = "Create Input File Docs" ∧ a.docs = true ∧ v = "") ∨ (l = "Input File" ∧ v = a.inputFile) ∨ (l = "Output Directory" ∧ v = dir) ∨
    (l = "Enable ParaView output" ∧ a.paraview = true ∧ v = "") ∨ (l = "Restart Cycle" ∧ ∃ c, a.restart = some c ∧ v = c.repr) := by
  obtain ⟨o, ho, h1, h2, h3, h4, h5, h6, h7, h8⟩ := store_find a hv hi
  refine ⟨o, _, ho, directory_spec a, fun l v => ?_⟩
  unfold printGiven printedKeys
  simp only [List.mem_filterMap, List.mem_cons, List.not_mem_nil, or_false, exists_eq_or_imp, exists_eq_left, h1, h2, h3, h4, h6, h7,
    Option.map_eq_some_iff, Prod.mk.injEq]
  constructor
  · rintro (⟨w, hw, rfl, rfl⟩ | ⟨w, hw, rfl, rfl⟩ | ⟨w, hw, rfl, rfl⟩ | ⟨w, hw, rfl, rfl⟩ | ⟨w, hw, rfl, h⟩ | ⟨w, hw, -⟩)
    · cases hd : a.docs <;> simp [hd] at hw ⊢
      exact hw
    · simp only [Option.some.injEq] at hw
      simp [hw]
    · simp only [Option.some.injEq] at hw
      simp [hw]
    · cases hd : a.paraview <;> simp [hd] at hw ⊢
      exact hw
    · obtain ⟨c, hc, rfl⟩ := hw
      exact .inr (.inr (.inr (.inr ⟨rfl, c, hc, h.symm⟩)))
    · simp at hw
  · rintro (⟨rfl, hd, rfl⟩ | ⟨rfl, rfl⟩ | ⟨rfl, rfl⟩ | ⟨rfl, hd, rfl⟩ | ⟨rfl, c, hc, rfl⟩) <;> simp [*]

/-- **C70, `--print-unused` is not printed**: the listing of the options is the same with and without it. -/
theorem C70_printed_wrong (a : Args) : ∀ o o', store a = .ok o → store { a with unused := true } = .ok o' → printGiven o' = printGiven o := by
  intro o o' h h'
  by_cases hv : a.version = true
  · unfold store at h h'
    simp only [hv, if_true, Res.ok.injEq] at h h'
    rw [← h, ← h']
  · have hv' : a.version = false := by simpa using hv
    by_cases hi : a.inputFile = ""
    · unfold store at h
      simp [hv', hi] at h
    · obtain ⟨p, hp, h1, h2, h3, h4, h5, h6, h7, h8⟩ := store_find a hv' hi
      obtain ⟨q, hq, g1, g2, g3, g4, g5, g6, g7, g8⟩ := store_find { a with unused := true } hv' hi
      rw [hp] at h
      rw [hq] at h'
      obtain rfl : p = o := by simpa using h
      obtain rfl : q = o' := by simpa using h'
      unfold printGiven printedKeys
      simp only [List.filterMap_cons, List.filterMap_nil, h1, h2, h3, h4, h6, h7, g1, g2, g3, g4, g6, g7]

/-! ### Refinement -/

theorem refineLoop_eq {M : Type} (refine : M → M) (levels lev : ℤ) (m : M) : refineLoop refine levels lev m = refine^[(levels - lev).toNat] m := by
  obtain ⟨n, hn⟩ : ∃ n, (levels - lev).toNat = n := ⟨_, rfl⟩
  induction n generalizing lev m with
  | zero =>
    rw [refineLoop, if_neg (by omega), hn]
    rfl
  | succ n ih =>
    rw [refineLoop, if_pos (by omega), ih _ _ (by omega), hn, show (levels - (lev + 1)).toNat = n by omega]
    rfl

/-- **C70, levels**: the mesh is refined as often as the two levels say, and a negative level counts as none; when distributing and refining
commute, only the sum of the levels matters. -/
theorem C70_levels {S P : Type} (refineS : S → S) (distribute : S → P) (refineP : P → P) (ser par : ℤ) (m : S) :
    refineAndDistribute refineS distribute refineP ser par m = refineP^[par.toNat] (distribute (refineS^[ser.toNat] m)) ∧
    ((∀ m, distribute (refineS m) = refineP (distribute m)) →
      refineAndDistribute refineS distribute refineP ser par m = distribute (refineS^[ser.toNat + par.toNat] m)) := by
  have h : refineAndDistribute refineS distribute refineP ser par m = refineP^[par.toNat] (distribute (refineS^[ser.toNat] m)) := by
    unfold refineAndDistribute
    rw [refineLoop_eq, refineLoop_eq, sub_zero, sub_zero]
  refine ⟨h, fun hd => ?_⟩
  rw [h, add_comm, Function.iterate_add_apply]
  generalize refineS^[ser.toNat] m = m'
  induction par.toNat with
  | zero => rfl
  | succ n ih => rw [Function.iterate_succ_apply', Function.iterate_succ_apply', ih, hd]

theorem uniform_cells {d : ℕ} (n : Fin d → ℕ) (hn : ∀ k, 0 < n k) (s : Fin d → ℝ) : uniform (cells n s) = cells (fun k => n k * 2) s := by
  have hn' : ∀ k, (n k : ℝ) ≠ 0 := fun k => by have := hn k; positivity
  ext c
  constructor
  · rintro ⟨p, ⟨i, hi, rfl⟩, b, rfl⟩
    refine ⟨fun k => 2 * i k + if b k then 1 else 0, fun k => ?_, ?_⟩
    · have := hi k
      dsimp only
      split_ifs <;> omega
    · refine Prod.ext (funext fun k => ?_) (funext fun k => ?_) <;> have := hn' k <;> simp only [child] <;> split_ifs <;> push_cast <;> field_simp <;> ring
  · rintro ⟨i, hi, rfl⟩
    refine ⟨_, ⟨fun k => i k / 2, fun k => ?_, rfl⟩, fun k => decide (i k % 2 = 1), ?_⟩
    · have := hi k
      dsimp only at this ⊢
      omega
    · refine Prod.ext (funext fun k => ?_) (funext fun k => ?_) <;> simp only [child, decide_eq_true_eq] <;> have h0 := hn' k
      · rcases Nat.mod_two_eq_zero_or_one (i k) with h | h
        · have : (i k : ℝ) = 2 * (i k / 2 : ℕ) := by exact_mod_cast (by omega : i k = 2 * (i k / 2))
          rw [if_neg (by omega), this]
          push_cast
          field_simp
        · have : (i k : ℝ) = 2 * (i k / 2 : ℕ) + 1 := by exact_mod_cast (by omega : i k = 2 * (i k / 2) + 1)
          rw [if_pos h, this]
          push_cast
          field_simp
          ring
      · rcases Nat.mod_two_eq_zero_or_one (i k) with h | h
        · have : (i k : ℝ) = 2 * (i k / 2 : ℕ) := by exact_mod_cast (by omega : i k = 2 * (i k / 2))
          rw [if_neg (by omega), this]
          push_cast
          field_simp
          ring
        · have : (i k : ℝ) = 2 * (i k / 2 : ℕ) + 1 := by exact_mod_cast (by omega : i k = 2 * (i k / 2) + 1)
          rw [if_pos h, this]
          push_cast
          field_simp
          ring

/-- **C70, refined boxes**: after refining, the box consists of `n k * 2 ^ (ser + par)` equal cells in direction `k` and still has the sizes of the input. -/
theorem C70_box {d : ℕ} (n : Fin d → ℕ) (hn : ∀ k, 0 < n k) (s : Fin d → ℝ) (ser par : ℤ) :
    refineAndDistribute uniform id uniform ser par (cells n s) = cells (fun k => n k * 2 ^ (ser.toNat + par.toNat)) s := by
  rw [(C70_levels uniform id uniform ser par (cells n s)).2 fun _ => rfl]
  simp only [id]
  induction ser.toNat + par.toNat with
  | zero => simp
  | succ l ih =>
    rw [Function.iterate_succ_apply', ih, uniform_cells _ (fun k => by have := hn k; positivity)]
    simp only [pow_succ, mul_assoc]

/-- **C70, the number of cells** of a box with non-zero sizes is the product of the numbers of elements, and every cell has the same edge lengths. -/
theorem C70_box_count {d : ℕ} (n : Fin d → ℕ) (s : Fin d → ℝ) (hs : ∀ k, s k ≠ 0) : (cells n s).ncard = ∏ k, n k ∧
    ∀ c ∈ cells n s, ∀ k, c.2 k - c.1 k = s k / n k := by
  constructor
  · have : cells n s = Set.range fun i : (k : Fin d) → Fin (n k) =>
        ((fun k => ((i k : ℕ) : ℝ) / n k * s k, fun k => (((i k : ℕ) : ℝ) + 1) / n k * s k) : Cell d) := by
      ext c
      constructor
      · rintro ⟨i, hi, rfl⟩
        exact ⟨fun k => ⟨i k, hi k⟩, rfl⟩
      · rintro ⟨i, rfl⟩
        exact ⟨fun k => i k, fun k => (i k).2, rfl⟩
    rw [this, ← Set.image_univ, Set.ncard_image_of_injective, Set.ncard_univ, Nat.card_eq_fintype_card, Fintype.card_pi]
    · simp
    · intro i j hij
      funext k
      have h1 := congrFun (Prod.ext_iff.1 hij).1 k
      dsimp only at h1
      have hk : (n k : ℝ) ≠ 0 := by
        have := (i k).2
        have : 0 < n k := by omega
        positivity
      have h2 := mul_right_cancel₀ (hs k) h1
      rw [div_left_inj' hk] at h2
      exact Fin.ext (by exact_mod_cast h2)
  · rintro c ⟨i, hi, rfl⟩ k
    dsimp only
    ring

/-! ### Examples -/

def sampleMesh : MeshIn := { type := some "box", elements := { x := some 2, y := some 3, z := some 4 }, size := { x := some 1, y := some 2 } }

def sampleEnv : Env where
  isFile f := f == "runs/beam.lua"
  exist f := f != ""
  join a b := a ++ "/" ++ b
  dirOf _ := "/runs"
  meshIn _ := sampleMesh
  restVerified _ := true
  stored d c := if d = "beam" ∧ c = 7 then some 3 else none

theorem sample_simulate (a : Args) (h : a = { inputFile := "runs/beam.lua" } ∨ a = { inputFile := "runs/beam.lua", restart := some 7 }) : Simulate sampleEnv a := by
  rcases h with rfl | rfl <;>
    exact ⟨rfl, rfl, rfl, rfl, ⟨fun _ => rfl, by intro c hc; simp at hc <;> omega⟩, by decide, ⟨⟨"box", rfl, by decide⟩, rfl⟩⟩

/-- The box of the sample has two sizes only. -/
example : main sampleEnv { inputFile := "runs/beam.lua" } = .thrown :=
  (C70_size_wrong _ _).2 ⟨sample_simulate _ (.inl rfl), rfl, rfl, rfl, rfl, rfl, rfl, rfl, rfl⟩

/-- The same input file can be used for a restart. -/
example : ∃ r, main sampleEnv { inputFile := "runs/beam.lua", restart := some 7, outputDirectory := "beam" } = .ok (.run r) ∧ r.t = 3 ∧ r.cycle = 7 := by
  obtain ⟨dir, hd, h⟩ := main_simulate sampleEnv { inputFile := "runs/beam.lua", restart := some 7, outputDirectory := "beam" }
    ⟨rfl, rfl, rfl, rfl, ⟨fun _ => rfl, by intro c hc; simp at hc; omega⟩, by decide, ⟨⟨"box", rfl, by decide⟩, rfl⟩⟩
  obtain rfl : dir = "beam" := by simpa [IsDirectory] using hd
  refine ⟨_, h, ?_, ?_⟩ <;> rfl

/-- The name of a run. -/
example : IsStem "runs/beam.v2.lua".toList "beam.v2".toList := ⟨"runs/".toList, "beam.v2.lua".toList, by decide, by decide, by decide, .inr ⟨"lua".toList, by decide, by decide⟩⟩

example : Describes { sampleMesh with size := {} } (fun _ => none) (.cuboid 2 3 4 1 1 1) := .cuboid rfl rfl rfl rfl (.inr ⟨rfl, rfl, rfl, rfl, rfl, rfl⟩)

example : (refineAndDistribute uniform id uniform 1 2 (cells ![2, 3] ![1, 5])).ncard = 16 * 24 := by
  rw [C70_box _ (by intro k; fin_cases k <;> simp), (C70_box_count _ _ (by intro k; fin_cases k <;> simp)).1]
  simp [Fin.prod_univ_two]

example : main sampleEnv { version := true, restart := some 0 } = .refused :=
  (C70_version_wrong _ _ rfl rfl).2 fun h => absurd (h.2 0 rfl) (by decide)

end Serac.C70
