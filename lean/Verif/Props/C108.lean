/-
C108: every way a program can end shuts the libraries down in order and loses no messages.

The spec speaks of what is seen of a process: which messages were handed to the logger and which were
printed, which libraries were started and stopped in which order, calls a library does not allow, and the
exit status.  An execution is any interleaving of the program's calls with any number of signals.
-/
import Verif.Model.Lifecycle
import Mathlib.Data.List.Count
import Mathlib.Tactic.Common

namespace Serac.C108

open Serac.Lifecycle

/-! ### Spec -/

/-- The messages handed to the logger. -/
def logs (t : List Ev) : List String := t.filterMap fun | .logged m => some m | _ => none

/-- The messages on the console. -/
def prints (t : List Ev) : List String := t.filterMap fun | .printed m => some m | _ => none

/-- What may still happen once MPI was shut down. -/
def Late (e : Ev) : Prop := e = .deviceReset ∨ e = .signalled ∨ e = .misuse .petsc

/-- MPI is shut down at most once, not unless it was started, and nearly nothing happens thereafter. -/
def MpiOrder (t : List Ev) : Prop :=
  t.count (.stopped .mpi) ≤ t.count (.started .mpi) ∧ t.count (.started .mpi) ≤ 1 ∧
    ∀ xs ys, t = xs ++ .stopped .mpi :: ys → ∀ e ∈ ys, Late e

/-- A library that was started was stopped. -/
def Stopped (l : Lib) (t : List Ev) : Prop := t.count (.stopped l) = t.count (.started l)

/-! ### Invariant -/

structure Inv (c : Config) (s : St) : Prop where
  clean : ∀ l, Ev.misuse l ∈ s.trace → l = .petsc
  msgs : prints s.trace ++ s.pending = logs s.trace
  quiet : s.slic = false → s.pending = []
  serial : c.parallel = false → s.pending = []
  slicMpi : s.slic = true → s.mpi = .up
  profMpi : s.prof = true → s.mpi = .up
  born : s.trace.count (.started .mpi) = if s.mpi = .unborn then 0 else 1
  died : s.trace.count (.stopped .mpi) = if s.mpi = .down then 1 else 0
  slicCount : s.trace.count (.started .slic) = s.trace.count (.stopped .slic) + if s.slic then 1 else 0
  profCount : s.trace.count (.started .prof) = s.trace.count (.stopped .prof) + if s.prof then 1 else 0
  late : ∀ xs ys, s.trace = xs ++ .stopped .mpi :: ys → ∀ e ∈ ys, Late e

theorem late_append {t : List Ev} {e : Ev}
    (h : ∀ xs ys, t = xs ++ .stopped .mpi :: ys → ∀ e ∈ ys, Late e)
    (he : Ev.stopped .mpi ∈ t → Late e) :
    ∀ xs ys, t ++ [e] = xs ++ .stopped .mpi :: ys → ∀ e ∈ ys, Late e := by
  intro xs ys hx
  rcases List.eq_nil_or_concat ys with rfl | ⟨ys', y, rfl⟩
  · simp
  · have h2 : t ++ [e] = (xs ++ .stopped .mpi :: ys') ++ [y] := by simpa using hx
    obtain ⟨h3, h4⟩ := List.append_inj' h2 rfl
    have h5 : e = y := by simpa using h4
    subst h5
    intro z hz
    rw [List.concat_eq_append] at hz
    rcases List.mem_append.1 hz with hz | hz
    · exact h _ _ h3 z hz
    · have : z = e := by simpa using hz
      rw [this]
      exact he (by rw [h3]; simp)

theorem late_prints {t : List Ev} (p : List String)
    (hm : Ev.stopped .mpi ∉ t) :
    ∀ xs ys, t ++ p.map .printed = xs ++ .stopped .mpi :: ys → ∀ e ∈ ys, Late e := by
  intro xs ys hx
  exfalso
  have : Ev.stopped .mpi ∈ t ++ p.map .printed := by rw [hx]; simp
  rcases List.mem_append.1 this with h1 | h1
  · exact hm h1
  · simp at h1

theorem Inv.notDown {c : Config} {s : St} (h : Inv c s) (hm : s.mpi ≠ .down) :
    Ev.stopped .mpi ∉ s.trace := by
  have := h.died
  rw [if_neg hm] at this
  exact List.count_eq_zero.1 this

theorem inv_start (c : Config) : Inv c {} := by
  constructor <;> simp [logs, prints]

/-- What a call needs. -/
def Pre (s : St) : Instr → Prop
  | .mpiInit => s.mpi = .unborn
  | .slicInit => s.mpi = .up
  | .profInit => s.mpi = .up ∧ s.prof = false
  | .petscInit => s.mpi = .up
  | .info _ => s.slic = true
  | .flush => s.slic = true
  | .slicFinalize => s.slic = true ∧ s.pending = []
  | .petscFinalize => s.slic = false
  | .mpiFinalize => s.mpi = .up ∧ s.slic = false ∧ s.prof = false
  | _ => True

theorem inv_call {c : Config} {s : St} {i : Instr} {rest : List Instr} (h : Inv c s) (hp : Pre s i) :
    Inv c (call c s i rest).st := by
  obtain ⟨h1, h2, h3, h4, h5, h6, h7, h8, h9, h10, h11⟩ := h
  have hd : s.mpi ≠ .down → Ev.stopped .mpi ∉ s.trace :=
    Inv.notDown ⟨h1, h2, h3, h4, h5, h6, h7, h8, h9, h10, h11⟩
  cases i with
  | mpiInit =>
    have hp' : s.mpi = .unborn := hp
    by_cases hm : c.mpiOk
    · have h0 : s.slic = false := by
        by_contra hc
        simp at hc
        rw [h5 hc] at hp'
        cases hp'
      have h0' : s.prof = false := by
        by_contra hc
        simp at hc
        rw [h6 hc] at hp'
        cases hp'
      have := hd (by simp [hp'])
      simp only [call, hp', hm, if_true, St.emit]
      constructor <;> simp_all [logs, prints] <;> try exact h1
      exact late_append h11 (fun h => absurd h this)
    · simp only [call, hp', hm, if_true]
      exact ⟨h1, h2, h3, h4, h5, h6, h7, h8, h9, h10, h11⟩
  | registerSignals => exact ⟨h1, h2, h3, h4, h5, h6, h7, h8, h9, h10, h11⟩
  | slicInit =>
    have hp' : s.mpi = .up := hp
    have := hd (by simp [hp'])
    cases hs : s.slic with
    | true =>
      simp only [call, hs, if_true]
      exact ⟨h1, h2, h3, h4, h5, h6, h7, h8, h9, h10, h11⟩
    | false =>
      simp only [call, hs, St.emit]
      constructor <;> simp_all [logs, prints] <;> try exact h1
      exact late_append h11 (fun h => absurd h this)
  | activateLogger =>
    by_cases hm : c.logOk <;> simp only [call, hm, if_true] <;>
      exact ⟨h1, h2, h3, h4, h5, h6, h7, h8, h9, h10, h11⟩
  | profInit =>
    obtain ⟨hp', hq⟩ : s.mpi = .up ∧ s.prof = false := hp
    have := hd (by simp [hp'])
    simp only [call, hp', if_true, St.emit]
    constructor <;> simp_all [logs, prints] <;> try exact h1
    exact late_append h11 (fun h => absurd h this)
  | petscInit =>
    have hp' : s.mpi = .up := hp
    have := hd (by simp [hp'])
    cases hs : s.petsc
    · simp only [call, hp', hs, and_self, if_true, St.emit]
      constructor <;> simp_all [logs, prints] <;> try exact h1
      exact late_append h11 (fun h => absurd h this)
    · simp only [call, hs, misused, St.emit]
      constructor <;> simp_all [logs, prints]
      · rintro l (h | h)
        · exact h1 l h
        · exact h
      exact late_append h11 (fun h => absurd h this)
  | info m =>
    have hp' : s.slic = true := hp
    have hu := h5 hp'
    have := hd (by simp [hu])
    cases hc : c.parallel
    · have h0 := h4 hc
      simp only [call, hp', hc, if_true, St.emit]
      constructor <;> simp_all [logs, prints] <;> try exact h1
      have k1 := late_append (e := .logged m) h11 (fun h => absurd h this)
      have k2 := late_append (e := .printed m) k1 (fun h => absurd h (by simp [this]))
      simpa using k2
    · simp only [call, hp', hc, if_true, St.emit]
      constructor <;> simp_all [logs, prints] <;> try exact h1
      · rw [← h2]; simp
      · exact late_append h11 (fun h => absurd h this)
  | flush =>
    have hp' : s.slic = true := hp
    have hu := h5 hp'
    have := hd (by simp [hu])
    have e1 : ∀ p : List String, (p.map Ev.printed).filterMap
        (fun | .printed m => some m | _ => none : Ev → Option String) = p := by
      intro p; induction p with
      | nil => rfl
      | cons a p ih => simp [ih]
    have e2 : ∀ p : List String, (p.map Ev.printed).filterMap
        (fun | .logged m => some m | _ => none : Ev → Option String) = [] := by
      intro p; induction p with
      | nil => rfl
      | cons a p ih => simp [ih]
    have e3 : ∀ (p : List String) (l : Lib), (p.map Ev.printed).count (.started l) = 0 := by
      intro p l; rw [List.count_eq_zero]; simp
    have e4 : ∀ (p : List String) (l : Lib), (p.map Ev.printed).count (.stopped l) = 0 := by
      intro p l; rw [List.count_eq_zero]; simp
    simp only [call, hp', hu, implies_true, and_self, if_true]
    constructor
    · intro l hl
      rcases List.mem_append.1 hl with hl | hl
      · exact h1 l hl
      · simp at hl
    · simp only [logs, prints, List.filterMap_append, e1, e2, List.append_nil] at h2 ⊢
      exact h2
    · simp
    · simp
    · intro _; rfl
    · intro _; rfl
    · simpa [e3, hu] using h7
    · simpa [e4, hu] using h8
    · simpa [e3, e4, hp'] using h9
    · simpa [e3, e4] using h10
    · exact late_prints _ this
  | slicFinalize =>
    obtain ⟨hp', hq⟩ : s.slic = true ∧ s.pending = [] := hp
    have hu := h5 hp'
    have := hd (by simp [hu])
    simp only [call, hp', hu, implies_true, and_self, if_true, St.emit]
    constructor <;> simp_all [logs, prints] <;> try exact h1
    exact late_append h11 (fun h => absurd h this)
  | petscFinalize =>
    have hp' : s.slic = false := hp
    by_cases hs : s.petsc ∧ s.mpi = .up
    · have := hd (by simp [hs.2])
      simp only [call, hs, and_self, if_true, St.emit]
      constructor <;> simp_all [logs, prints] <;> try exact h1
      exact late_append h11 (fun h => absurd h this)
    · simp only [call, if_neg hs, misused, St.emit]
      constructor
      · intro l hl
        rcases List.mem_append.1 hl with hl | hl
        · exact h1 l hl
        · simpa using hl
      · simpa [logs, prints] using h2
      · exact h3
      · exact h4
      · exact h5
      · exact h6
      · simpa using h7
      · simpa using h8
      · simpa using h9
      · simpa using h10
      · exact late_append h11 (fun _ => Or.inr (Or.inr rfl))
  | profFinalize =>
    cases hs : s.prof with
    | false =>
      simp only [call, hs]
      exact ⟨h1, h2, h3, h4, h5, h6, h7, h8, h9, h10, h11⟩
    | true =>
      have hu := h6 hs
      have := hd (by simp [hu])
      simp only [call, hs, hu, if_true, St.emit]
      constructor <;> simp_all [logs, prints] <;> try exact h1
      exact late_append h11 (fun h => absurd h this)
  | mpiFinalize =>
    obtain ⟨hp', hq, hr⟩ : s.mpi = .up ∧ s.slic = false ∧ s.prof = false := hp
    have := hd (by simp [hp'])
    simp only [call, hp', if_true, St.emit]
    constructor <;> simp_all [logs, prints] <;> try exact h1
    exact late_append h11 (fun h => absurd h this)
  | deviceReset =>
    simp only [call, St.emit]
    constructor
    · simpa using h1
    · simpa [logs, prints] using h2
    · exact h3
    · exact h4
    · exact h5
    · exact h6
    · simpa using h7
    · simpa using h8
    · simpa using h9
    · simpa using h10
    · exact late_append h11 (fun _ => Or.inl rfl)
  | ifSlic n => exact ⟨h1, h2, h3, h4, h5, h6, h7, h8, h9, h10, h11⟩
  | ifMpi n => exact ⟨h1, h2, h3, h4, h5, h6, h7, h8, h9, h10, h11⟩
  | exit e => exact ⟨h1, h2, h3, h4, h5, h6, h7, h8, h9, h10, h11⟩

theorem inv_signalled {c : Config} {s : St} (h : Inv c s) : Inv c (s.emit .signalled) := by
  obtain ⟨h1, h2, h3, h4, h5, h6, h7, h8, h9, h10, h11⟩ := h
  simp only [St.emit]
  constructor
  · simpa using h1
  · simpa [logs, prints] using h2
  · exact h3
  · exact h4
  · exact h5
  · exact h6
  · simpa using h7
  · simpa using h8
  · simpa using h9
  · simpa using h10
  · exact late_append h11 (fun _ => Or.inr (Or.inl rfl))

/-! ### Executions -/

/-- What holds at any time of a process. -/
structure Fine (c : Config) (m : Machine) : Prop where
  inv : Inv c m.st
  over : ∀ e, m.ctl = .exited e → m.st.slic = false ∧ m.st.prof = false ∧ m.st.mpi ≠ .up
  more : m.ctl ≠ .running []

/-- What holds as long as no signal arrives. -/
def Safe (c : Config) (m : Machine) : Prop := ∀ n, Fine c ((next c)^[n] m)

theorem Safe.next {c : Config} {m : Machine} (h : Safe c m) : Safe c (next c m) := fun n => by
  have := h (n + 1)
  rwa [Function.iterate_succ_apply] at this

theorem safe_call {c : Config} {s : St} {i : Instr} {rest : List Instr} (h : Inv c s)
    (hs : Safe c (call c s i rest)) : Safe c ⟨s, .running (i :: rest)⟩ := by
  intro n
  cases n with
  | zero => exact ⟨h, by simp, by simp⟩
  | succ n => rw [Function.iterate_succ_apply]; exact hs n

theorem iterate_fixed {c : Config} {m : Machine} (h : Lifecycle.next c m = m) (n : Nat) :
    (Lifecycle.next c)^[n] m = m := by
  induction n with
  | zero => rfl
  | succ n ih => rw [Function.iterate_succ_apply, h, ih]

theorem safe_exited {c : Config} {s : St} {e : Bool} (h : Inv c s) (h1 : s.slic = false)
    (h2 : s.prof = false) (h3 : s.mpi ≠ .up) : Safe c ⟨s, .exited e⟩ := fun n => by
  rw [iterate_fixed rfl]
  exact ⟨h, fun _ _ => ⟨h1, h2, h3⟩, by simp⟩

theorem safe_killed {c : Config} {s : St} (h : Inv c s) : Safe c ⟨s, .killed⟩ := fun n => by
  rw [iterate_fixed rfl]
  exact ⟨h, by simp, by simp⟩

theorem safe_device {c : Config} {s : St} {e : Bool} (h : Inv c s) (h1 : s.slic = false)
    (h2 : s.prof = false) (h3 : s.mpi ≠ .up) : Safe c ⟨s, .running [.deviceReset, .exit e]⟩ := by
  have k := inv_call (i := .deviceReset) (rest := [.exit e]) h trivial
  exact safe_call h (safe_call k (safe_exited k h1 h2 h3))

theorem safe_mpi {c : Config} {s : St} {e : Bool} (h : Inv c s) (h1 : s.slic = false)
    (h2 : s.prof = false) :
    Safe c ⟨s, .running [.ifMpi 1, .mpiFinalize, .deviceReset, .exit e]⟩ := by
  refine safe_call h ?_
  by_cases hu : s.mpi = .up
  · simp only [call, hu, if_true]
    refine safe_call h ?_
    have k := inv_call (i := .mpiFinalize) (rest := [.deviceReset, .exit e]) h ⟨hu, h1, h2⟩
    simp only [call, hu, if_true, St.emit] at k ⊢
    exact safe_device k h1 h2 (by simp)
  · simp only [call, hu, if_false, List.drop]
    exact safe_device h h1 h2 hu

theorem safe_prof {c : Config} {s : St} {e : Bool} (h : Inv c s) (h1 : s.slic = false) :
    Safe c ⟨s, .running [.profFinalize, .ifMpi 1, .mpiFinalize, .deviceReset, .exit e]⟩ := by
  refine safe_call h ?_
  have k := inv_call (i := .profFinalize) (rest := [.ifMpi 1, .mpiFinalize, .deviceReset, .exit e]) h trivial
  cases hs : s.prof with
  | false =>
    simp only [call, hs]
    exact safe_mpi h h1 hs
  | true =>
    have hu := h.profMpi hs
    simp only [call, hs, hu, if_true, St.emit] at k ⊢
    exact safe_mpi k h1 rfl

theorem safe_petsc {c : Config} {s : St} {e : Bool} (h : Inv c s) (h1 : s.slic = false) :
    Safe c ⟨s, .running ((if c.petsc then [.petscFinalize] else []) ++
      [.profFinalize, .ifMpi 1, .mpiFinalize, .deviceReset, .exit e])⟩ := by
  cases hc : c.petsc with
  | false => exact safe_prof h h1
  | true =>
    refine safe_call h ?_
    have k := inv_call (i := .petscFinalize)
      (rest := [.profFinalize, .ifMpi 1, .mpiFinalize, .deviceReset, .exit e]) h h1
    by_cases hp : s.petsc ∧ s.mpi = .up
    · simp only [call, hp, and_self, if_true, St.emit] at k ⊢
      exact safe_prof k h1
    · simp only [call, if_neg hp, misused] at k ⊢
      exact safe_killed k

theorem safe_exit {c : Config} {s : St} {e : Bool} (h : Inv c s) :
    Safe c ⟨s, .running (exitGracefully c e)⟩ := by
  refine safe_call h ?_
  cases hs : s.slic with
  | false =>
    simp only [call, hs]
    exact safe_petsc h hs
  | true =>
    have hu := h.slicMpi hs
    simp only [call, hs, if_true]
    refine safe_call h ?_
    have k := inv_call (i := .flush) (rest := []) h hs
    simp only [call, hs, hu, implies_true, and_self, if_true] at k ⊢
    refine safe_call k ?_
    have k2 := inv_call (i := .slicFinalize) (rest := []) k ⟨rfl, rfl⟩
    simp only [call, implies_true, and_self, if_true, St.emit] at k2 ⊢
    exact safe_petsc k2 rfl

theorem safe_body {c : Config} {e : Bool} (body : List User) : ∀ {s : St}, Inv c s → s.slic = true →
    Safe c ⟨s, .running (body.map User.instr ++ exitGracefully c e)⟩ := by
  induction body with
  | nil => intro s h _; exact safe_exit h
  | cons b body ih =>
    intro s h hs
    have hu := h.slicMpi hs
    refine safe_call h ?_
    cases b with
    | info m =>
      have k := inv_call (i := .info m) (rest := []) h hs
      cases hc : c.parallel <;> simp only [User.instr, call, hs, hc, if_true] at k ⊢ <;>
        first | exact ih k hs | exact ih k rfl
    | flush =>
      have k := inv_call (i := .flush) (rest := []) h hs
      simp only [User.instr, call, hs, hu, implies_true, and_self, if_true] at k ⊢
      exact ih k rfl

theorem safe_boot (c : Config) (body : List User) (e : Bool) : Safe c (boot c body e) := by
  have h0 := inv_start c
  refine safe_call h0 ?_
  have h1 := inv_call (i := .mpiInit) (rest := []) h0 rfl
  cases hm : c.mpiOk with
  | false =>
    simp only [call, hm]
    exact safe_exit h0
  | true =>
    simp only [call, hm, if_true] at h1 ⊢
    refine safe_call h1 ?_
    have h2 := inv_call (i := .registerSignals) (rest := []) h1 trivial
    refine safe_call h2 ?_
    have h3 := inv_call (i := .slicInit) (rest := []) h2 rfl
    refine safe_call h3 ?_
    cases hl : c.logOk with
    | false =>
      simp only [call, hl]
      exact safe_exit h3
    | true =>
      simp only [call, hl, if_true]
      refine safe_call h3 ?_
      have h4 := inv_call (i := .info (hello c)) (rest := []) h3 rfl
      have key : ∀ s : St, Inv c s → s.slic = true → s.prof = false →
          Safe c ⟨s, .running ([.flush, .profInit] ++ (if c.petsc then [.petscInit] else []) ++
            (body.map User.instr ++ exitGracefully c e))⟩ := by
        intro s h hs hp
        have hu := h.slicMpi hs
        refine safe_call h ?_
        have k := inv_call (i := .flush) (rest := []) h hs
        simp only [call, hs, hu, implies_true, and_self, if_true] at k ⊢
        refine safe_call k ?_
        have k2 := inv_call (i := .profInit) (rest := []) k ⟨rfl, hp⟩
        simp only [call, if_true, St.emit] at k2 ⊢
        cases hc : c.petsc with
        | false => exact safe_body body k2 rfl
        | true =>
          refine safe_call k2 ?_
          have k3 := inv_call (i := .petscInit) (rest := []) k2 rfl
          cases hpe : s.petsc
          · simp only [call, hpe, and_self, if_true, St.emit] at k3 ⊢
            exact safe_body body k3 rfl
          · simp only [call, hpe, misused] at k3 ⊢
            exact safe_killed (by simpa using k3)
      cases hc : c.parallel <;> simp only [call, hc, if_true] at h4 ⊢
      · exact key _ h4 rfl rfl
      · exact key _ h4 rfl rfl

/-- Signals do no harm. -/
theorem safe_run {c : Config} (cs : List Choice) : ∀ {m : Machine}, Safe c m → Safe c (run c m cs) := by
  induction cs with
  | nil => intro m h; exact h
  | cons a cs ih =>
    intro m h
    refine ih ?_
    cases a with
    | step => exact h.next
    | signal =>
      have h0 := (h 0).inv
      obtain ⟨s, ctl⟩ := m
      cases ctl with
      | running code =>
        by_cases hh : s.handlers
        · simp only [act, Lifecycle.signal, hh, if_true]
          exact safe_exit (inv_signalled h0)
        · simp only [act, Lifecycle.signal, hh]
          exact safe_killed h0
      | exited e => exact h
      | killed => exact h

/-! ### Theorems -/

/-- Every message is printed at most once, in order, and when the process exits all were printed. -/
theorem C108_messages (c : Config) (body : List User) (error : Bool) (cs : List Choice) :
    let m := run c (boot c body error) cs
    prints m.st.trace <+: logs m.st.trace ∧
      ∀ e, m.ctl = .exited e → prints m.st.trace = logs m.st.trace := by
  intro m
  have h := safe_run cs (safe_boot c body error) 0
  have hm : prints m.st.trace ++ m.st.pending = logs m.st.trace := h.inv.msgs
  refine ⟨⟨_, hm⟩, fun e he => ?_⟩
  have hq : m.st.pending = [] := h.inv.quiet (h.over e he).1
  rw [← hm, hq, List.append_nil]

/-- MPI is shut down at most once and after everything that needs it; a process that exits has shut down
MPI, the logger and the profiler if they were started. -/
theorem C108_order (c : Config) (body : List User) (error : Bool) (cs : List Choice) :
    let m := run c (boot c body error) cs
    MpiOrder m.st.trace ∧
      ∀ e, m.ctl = .exited e → ∀ l, l ≠ .petsc → Stopped l m.st.trace := by
  intro m
  have h := safe_run cs (safe_boot c body error) 0
  have hb := h.inv.born
  have hd := h.inv.died
  refine ⟨⟨?_, ?_, h.inv.late⟩, fun e he l hl => ?_⟩
  · show List.count _ m.st.trace ≤ List.count _ m.st.trace
    change List.count _ m.st.trace = _ at hb
    change List.count _ m.st.trace = _ at hd
    rw [hb, hd]
    change (if m.st.mpi = .down then 1 else 0) ≤ (if m.st.mpi = .unborn then 0 else 1)
    cases m.st.mpi <;> simp
  · change List.count _ m.st.trace = if m.st.mpi = .unborn then 0 else 1 at hb
    rw [hb]
    split <;> omega
  · obtain ⟨o1, o2, o3⟩ := h.over e he
    cases l with
    | mpi =>
      change m.st.mpi ≠ .up at o3
      change List.count _ m.st.trace = if m.st.mpi = .unborn then 0 else 1 at hb
      change List.count _ m.st.trace = if m.st.mpi = .down then 1 else 0 at hd
      unfold Stopped
      rw [hb, hd]
      cases hq : m.st.mpi <;> simp_all
    | slic =>
      have := h.inv.slicCount
      rw [o1] at this
      exact this.symm
    | prof =>
      have := h.inv.profCount
      rw [o2] at this
      exact this.symm
    | petsc => exact absurd rfl hl

/-- Without PETSc no library is misused. -/
structure NoPetsc (m : Machine) : Prop where
  code : ∀ code, m.ctl = .running code → Instr.petscInit ∉ code ∧ Instr.petscFinalize ∉ code
  trace : Ev.misuse .petsc ∉ m.st.trace

theorem noPetsc_exit {c : Config} (hc : c.petsc = false) (e : Bool) :
    Instr.petscInit ∉ exitGracefully c e ∧ Instr.petscFinalize ∉ exitGracefully c e := by
  simp [exitGracefully, hc]

theorem noPetsc_act {c : Config} (hc : c.petsc = false) {m : Machine} (h : NoPetsc m) (a : Choice) :
    NoPetsc (act c m a) := by
  obtain ⟨s, ctl⟩ := m
  obtain ⟨h1, h2⟩ := h
  cases ctl with
  | exited e => cases a <;> exact ⟨h1, h2⟩
  | killed => cases a <;> exact ⟨h1, h2⟩
  | running code =>
    cases a with
    | signal =>
      by_cases hh : s.handlers
      · simp only [act, Lifecycle.signal, hh, if_true]
        exact ⟨fun code hcode => by cases hcode; exact noPetsc_exit hc true, by simpa [St.emit] using h2⟩
      · simp only [act, Lifecycle.signal, hh]
        exact ⟨by simp, h2⟩
    | step =>
      cases code with
      | nil => exact ⟨h1, h2⟩
      | cons i rest =>
        obtain ⟨k1, k2⟩ := h1 _ rfl
        simp only [List.mem_cons, not_or] at k1 k2
        have hr : ∀ code, Ctl.running rest = .running code →
            Instr.petscInit ∉ code ∧ Instr.petscFinalize ∉ code := by
          intro code hcode; cases hcode; exact ⟨k1.2, k2.2⟩
        have hx : ∀ code, Ctl.running (exitGracefully c true) = .running code →
            Instr.petscInit ∉ code ∧ Instr.petscFinalize ∉ code := by
          intro code hcode; cases hcode; exact noPetsc_exit hc true
        simp only [act, Lifecycle.next]
        cases i <;> simp only [call, misused, St.emit] <;> (try split) <;> (try split) <;>
          first
          | exact absurd rfl k1.1
          | exact absurd rfl k2.1
          | exact ⟨hr, by simpa using h2⟩
          | exact ⟨hx, by simpa using h2⟩
          | exact ⟨fun code hcode => by
              cases hcode
              exact ⟨fun h => k1.2 (List.mem_of_mem_drop h), fun h => k2.2 (List.mem_of_mem_drop h)⟩, h2⟩
          | exact ⟨by simp, by simpa using h2⟩

theorem C108_misuse (c : Config) (body : List User) (error : Bool) (cs : List Choice) (l : Lib) :
    Ev.misuse l ∈ (run c (boot c body error) cs).st.trace → l = .petsc ∧ c.petsc = true := by
  intro hm
  have h := (safe_run cs (safe_boot c body error) 0).inv.clean l hm
  subst h
  refine ⟨rfl, ?_⟩
  by_contra hc
  have hc : c.petsc = false := by simpa using hc
  have hb : NoPetsc (boot c body error) := by
    refine ⟨fun code hcode => ?_, by simp [boot]⟩
    cases hcode
    have hu : ∀ i, (i = .petscInit ∨ i = .petscFinalize) → i ∉ body.map User.instr := by
      intro i hi hmem
      obtain ⟨u, _, rfl⟩ := List.mem_map.1 hmem
      cases u <;> simp [User.instr] at hi
    have hx := noPetsc_exit hc error
    simp [program, startUp, hc, hu, hx]
  have : ∀ (cs : List Choice) (m : Machine), NoPetsc m → NoPetsc (run c m cs) := by
    intro cs
    induction cs with
    | nil => intro m h; exact h
    | cons a cs ih => intro m h; exact ih _ (noPetsc_act hc h a)
  exact (this cs _ hb).trace hm

/-- A step either goes on in the code, or goes to termination with an error, or ends. -/
theorem call_code (c : Config) (s : St) (i : Instr) (rest : List Instr) :
    ((∃ n, (call c s i rest).ctl = .running (rest.drop n)) ∧ ∀ e, i ≠ .exit e) ∨
      ((call c s i rest).ctl = .running (exitGracefully c true) ∧ (i = .mpiInit ∨ i = .activateLogger)) ∨
      (call c s i rest).ctl = .killed ∨ ∃ e, i = .exit e ∧ (call c s i rest).ctl = .exited e := by
  cases i <;> simp only [call, misused] <;> (try split) <;> (try split) <;>
    first
    | exact Or.inl ⟨⟨0, rfl⟩, by simp⟩
    | exact Or.inl ⟨⟨_, rfl⟩, by simp⟩
    | exact Or.inr (Or.inl ⟨rfl, by simp⟩)
    | exact Or.inr (Or.inr (Or.inl rfl))
    | exact Or.inr (Or.inr (Or.inr ⟨_, rfl, rfl⟩))

/-- The process can no longer end with success. -/
def Doomed (m : Machine) : Prop :=
  m.ctl ≠ .exited false ∧ ∀ code, m.ctl = .running code → Instr.exit false ∉ code

theorem doomed_exit (c : Config) (s : St) : Doomed ⟨s, .running (exitGracefully c true)⟩ := by
  refine ⟨by simp, fun code h => ?_⟩
  cases h
  cases h : c.petsc <;> simp [exitGracefully, h]

theorem doomed_signal (c : Config) (m : Machine) (h : ∀ e, m.ctl ≠ .exited e) :
    Doomed (Lifecycle.signal c m) := by
  obtain ⟨s, ctl⟩ := m
  cases ctl with
  | running code =>
    by_cases hh : s.handlers
    · simp only [Lifecycle.signal, hh, if_true]; exact doomed_exit c _
    · simp only [Lifecycle.signal, hh]; exact ⟨by simp, by simp⟩
  | exited e => exact absurd rfl (h e)
  | killed => exact ⟨by simp [Lifecycle.signal], by simp [Lifecycle.signal]⟩

theorem doomed_act {c : Config} {m : Machine} (h : Doomed m) (a : Choice) : Doomed (act c m a) := by
  obtain ⟨s, ctl⟩ := m
  cases ctl with
  | exited e => cases a <;> exact h
  | killed => cases a <;> exact h
  | running code =>
    cases a with
    | signal => exact doomed_signal c _ (by simp)
    | step =>
      cases code with
      | nil => exact h
      | cons i rest =>
        have h2 := h.2 _ rfl
        simp only [List.mem_cons, not_or] at h2
        show Doomed (call c s i rest)
        rcases call_code c s i rest with ⟨⟨n, hn⟩, _⟩ | ⟨hn, _⟩ | hn | ⟨e, rfl, hn⟩
        · refine ⟨by simp [hn], fun code hcode => ?_⟩
          rw [hn] at hcode
          cases hcode
          exact fun hm => h2.2 (List.mem_of_mem_drop hm)
        · have := doomed_exit c s
          refine ⟨by simp [hn], fun code hcode => ?_⟩
          rw [hn] at hcode
          exact this.2 code hcode
        · exact ⟨by simp [hn], by simp [hn]⟩
        · refine ⟨?_, by simp [hn]⟩
          rw [hn]
          rintro h3
          cases h3
          exact h2.1 rfl

theorem doomed_run {c : Config} (cs : List Choice) : ∀ {m : Machine}, Doomed m → Doomed (run c m cs) := by
  induction cs with
  | nil => intro m h; exact h
  | cons a cs ih => intro m h; exact ih (doomed_act h a)

theorem doomed_start (c : Config) (body : List User) (error : Bool)
    (hf : ¬ (c.mpiOk = true ∧ c.logOk = true)) (cs : List Choice) :
    (run c (boot c body error) cs).ctl ≠ .exited false := by
  have hsig : ∀ (m : Machine) (ys : List Choice), (∀ e, m.ctl ≠ .exited e) →
      (run c m (.signal :: ys)).ctl ≠ .exited false := fun m ys h =>
    (doomed_run ys (doomed_signal c m h)).1
  have hstep : ∀ (m : Machine) (ys : List Choice), run c m (.step :: ys) = run c (next c m) ys :=
    fun _ _ => rfl
  cases hm : c.mpiOk with
  | false =>
    cases cs with
    | nil => simp [run, boot]
    | cons a cs =>
      cases a with
      | signal => exact hsig _ _ (by simp [boot])
      | step =>
        rw [hstep]
        refine (doomed_run cs ?_).1
        have : Lifecycle.next c (boot c body error) = ⟨{}, .running (exitGracefully c true)⟩ := by
          simp [Lifecycle.next, boot, program, startUp, call, hm]
        rw [this]
        exact doomed_exit c _
  | true =>
    have hl : c.logOk = false := by simpa [hm] using hf
    have h0 : ∀ n, n ≤ 3 → ∃ s code, (next c)^[n] (boot c body error) = ⟨s, .running code⟩ := by
      intro n hn
      have : n = 0 ∨ n = 1 ∨ n = 2 ∨ n = 3 := by omega
      rcases this with rfl | rfl | rfl | rfl <;>
        simp [boot, program, startUp, Lifecycle.next, call, hm, St.emit]
    have h4 : Doomed ((next c)^[4] (boot c body error)) := by
      have : ∃ s, (next c)^[4] (boot c body error) = ⟨s, .running (exitGracefully c true)⟩ := by
        simp [boot, program, startUp, Lifecycle.next, call, hm, hl, St.emit]
      obtain ⟨s, hs⟩ := this
      rw [hs]
      exact doomed_exit c s
    have key : ∀ k n, n + k = 4 → ∀ cs, (run c ((next c)^[n] (boot c body error)) cs).ctl ≠ .exited false := by
      intro k
      induction k with
      | zero =>
        intro n hn cs
        have : n = 4 := by omega
        subst this
        exact (doomed_run cs h4).1
      | succ k ih =>
        intro n hn cs
        obtain ⟨s, code, hs⟩ := h0 n (by omega)
        cases cs with
        | nil => rw [hs]; simp [run]
        | cons a cs =>
          cases a with
          | signal => rw [hs]; exact hsig _ _ (by simp)
          | step =>
            rw [hstep, ← Function.iterate_succ_apply' (next c)]
            exact ih (n + 1) (by omega) cs
    exact key 4 0 rfl cs

/-- A process that exits with success was asked to, its libraries could be started, and no signal reached it
before it exited. -/
theorem C108_success (c : Config) (body : List User) (error : Bool) (cs : List Choice)
    (h : (run c (boot c body error) cs).ctl = .exited false) :
    error = false ∧ (c.mpiOk = true ∧ c.logOk = true) ∧
      ∀ xs ys, cs = xs ++ .signal :: ys → ∃ e, (run c (boot c body error) xs).ctl = .exited e := by
  constructor
  · by_contra he
    have he : error = true := by simpa using he
    subst he
    have hb : Doomed (boot c body true) := by
      refine ⟨by simp [boot], fun code hcode => ?_⟩
      cases hcode
      have hu : Instr.exit false ∉ body.map User.instr := by
        intro hmem
        obtain ⟨u, _, hu⟩ := List.mem_map.1 hmem
        cases u <;> simp [User.instr] at hu
      have hx : Instr.exit false ∉ exitGracefully c true := (doomed_exit c {}).2 _ rfl
      have hs : Instr.exit false ∉ startUp c := by cases hp : c.petsc <;> simp [startUp, hp]
      simp only [program, List.mem_append, not_or]
      exact ⟨hs, hu, hx⟩
    exact (doomed_run cs hb).1 h
  constructor
  · by_contra hf
    exact doomed_start c body error hf cs h
  · rintro xs ys rfl
    by_contra hn
    have hn : ∀ e, (run c (boot c body error) xs).ctl ≠ .exited e := fun e he => hn ⟨e, he⟩
    have : run c (boot c body error) (xs ++ .signal :: ys) =
        run c (Lifecycle.signal c (run c (boot c body error) xs)) ys := by
      simp [run, act]
    rw [this] at h
    exact (doomed_run ys (doomed_signal c _ hn)).1 h

/-- How many calls are left at most. -/
def weight : List Instr → Nat
  | [] => 0
  | .mpiInit :: is => 11 + weight is
  | .activateLogger :: is => 11 + weight is
  | _ :: is => 1 + weight is

theorem weight_cons (i : Instr) (is : List Instr) : weight is < weight (i :: is) := by
  cases i <;> simp only [weight] <;> omega

theorem weight_drop (n : Nat) (is : List Instr) : weight (is.drop n) ≤ weight is := by
  induction n generalizing is with
  | zero => simp
  | succ n ih =>
    cases is with
    | nil => simp
    | cons i is =>
      have := weight_cons i is
      have := ih is
      simp only [List.drop_succ_cons]
      omega

theorem weight_exit (c : Config) (e : Bool) : weight (exitGracefully c e) ≤ 9 := by
  cases h : c.petsc <;> simp [exitGracefully, h, weight]

theorem finishes (c : Config) (n : Nat) : ∀ (m : Machine) (code : List Instr), m.ctl = .running code →
    weight code ≤ n → Safe c m →
    ∃ k ≤ n, ((next c)^[k] m).ctl = .killed ∨ ∃ e, ((next c)^[k] m).ctl = .exited e := by
  induction n with
  | zero =>
    intro m code hc hw hs
    cases code with
    | nil => exact absurd hc (hs 0).more
    | cons i rest => have := weight_cons i rest; omega
  | succ n ih =>
    intro m code hc hw hs
    cases code with
    | nil => exact absurd hc (hs 0).more
    | cons i rest =>
      have hnext : Lifecycle.next c m = call c m.st i rest := by simp [Lifecycle.next, hc]
      have hlt := weight_cons i rest
      have go : ∀ code', (Lifecycle.next c m).ctl = .running code' → weight code' ≤ n →
          ∃ k ≤ n + 1, ((next c)^[k] m).ctl = .killed ∨ ∃ e, ((next c)^[k] m).ctl = .exited e := by
        intro code' h1 h2
        obtain ⟨k, hk, h3⟩ := ih (Lifecycle.next c m) code' h1 h2 hs.next
        exact ⟨k + 1, by omega, by simpa only [Function.iterate_succ_apply] using h3⟩
      rcases call_code c m.st i rest with ⟨⟨j, hj⟩, _⟩ | ⟨hj, hi⟩ | hj | ⟨e, _, hj⟩
      · exact go _ (by rw [hnext, hj]) (by have := weight_drop j rest; omega)
      · refine go _ (by rw [hnext, hj]) ?_
        have h9 := weight_exit c true
        rcases hi with rfl | rfl <;> simp only [weight] at hw <;> omega
      · exact ⟨1, by omega, Or.inl (by simpa [hnext] using hj)⟩
      · exact ⟨1, by omega, Or.inr ⟨e, by simpa [hnext] using hj⟩⟩

/-- Once signals are handled, only misuse of a library ends the process without `exit`. -/
structure Handled (m : Machine) : Prop where
  handlers : m.st.handlers = true
  alive : m.ctl = .killed → ∃ l, Ev.misuse l ∈ m.st.trace

theorem handled_act {c : Config} {m : Machine} (h : Handled m) (a : Choice) : Handled (act c m a) := by
  obtain ⟨s, ctl⟩ := m
  obtain ⟨h1, h2⟩ := h
  change s.handlers = true at h1
  cases ctl with
  | exited e => cases a <;> exact ⟨h1, h2⟩
  | killed => cases a <;> exact ⟨h1, h2⟩
  | running code =>
    cases a with
    | signal =>
      simp only [act, Lifecycle.signal, h1, if_true]
      exact ⟨h1, by simp⟩
    | step =>
      cases code with
      | nil => exact ⟨h1, h2⟩
      | cons i rest =>
        show Handled (call c s i rest)
        cases i <;> simp only [call, misused, St.emit] <;> (try split) <;> (try split) <;>
          first
          | exact ⟨h1, by simp⟩
          | exact ⟨rfl, by simp⟩

theorem handled_run {c : Config} (cs : List Choice) : ∀ {m : Machine}, Handled m → Handled (run c m cs) := by
  induction cs with
  | nil => intro m h; exact h
  | cons a cs ih => intro m h; exact ih (handled_act h a)

theorem handled_iterate {c : Config} {m : Machine} (h : Handled m) (n : Nat) :
    Handled ((next c)^[n] m) := by
  induction n generalizing m with
  | zero => exact h
  | succ n ih => rw [Function.iterate_succ_apply]; exact ih (handled_act (c := c) h .step)

theorem run_replicate (c : Config) (m : Machine) (n : Nat) :
    run c m (List.replicate n .step) = (next c)^[n] m := by
  induction n generalizing m with
  | zero => rfl
  | succ n ih =>
    rw [Function.iterate_succ_apply, ← ih]
    rfl

theorem run_append (c : Config) (m : Machine) (xs ys : List Choice) :
    run c m (xs ++ ys) = run c (run c m xs) ys := by
  simp [run]

/-- Whatever signals arrive, and whenever (once the handlers are in place), a process built without PETSc
exits as soon as no more signals arrive. -/
theorem C108_exits_partial (c : Config) (body : List User) (error : Bool) (cs : List Choice)
    (hp : c.petsc = false) (hm : c.mpiOk = true) :
    ∃ n e, (run c (boot c body error) ([.step, .step] ++ cs ++ List.replicate n .step)).ctl = .exited e := by
  have hh : Handled (run c (boot c body error) [.step, .step]) := by
    constructor
    · simp [run, act, boot, program, startUp, Lifecycle.next, call, hm, St.emit]
    · simp [run, act, boot, program, startUp, Lifecycle.next, call, hm, St.emit]
  set m := run c (boot c body error) ([.step, .step] ++ cs) with hmdef
  have hs : Safe c m := safe_run _ (safe_boot c body error)
  have hh2 : Handled m := by rw [hmdef, run_append]; exact handled_run cs hh
  have hend : ∃ k, ((next c)^[k] m).ctl = .killed ∨ ∃ e, ((next c)^[k] m).ctl = .exited e := by
    cases hc : m.ctl with
    | running code =>
      obtain ⟨k, _, h⟩ := finishes c _ m code hc (Nat.le_refl _) hs
      exact ⟨k, h⟩
    | exited e => exact ⟨0, Or.inr ⟨e, hc⟩⟩
    | killed => exact ⟨0, Or.inl hc⟩
  obtain ⟨k, hk⟩ := hend
  refine ⟨k, ?_⟩
  rw [run_append, ← hmdef, run_replicate]
  rcases hk with hk | hk
  · exfalso
    obtain ⟨l, hl⟩ := (handled_iterate (c := c) hh2 k).alive hk
    rw [← run_replicate, hmdef, ← run_append] at hl
    have := (C108_misuse c body error _ l hl).2
    rw [hp] at this
    cases this
  · exact hk

/-! ### Uninterrupted runs, and one signal while the user's program runs -/

/-- The messages of the user's program. -/
def said (body : List User) : List String := body.filterMap fun | .info m => some m | .flush => none

/-- Everything was shut down properly, the libraries allow every call, and exactly these messages are on
the console. -/
structure Proper (msgs : List String) (t : List Ev) : Prop where
  misuse : ∀ l, Ev.misuse l ∉ t
  stopped : ∀ l, Stopped l t
  messages : prints t = msgs

structure Up (c : Config) (msgs : List String) (s : St) : Prop where
  inv : Inv c s
  slic : s.slic = true
  handlers : s.handlers = true
  petsc : s.petsc = c.petsc
  misuse : ∀ l, Ev.misuse l ∉ s.trace
  counts : s.trace.count (.started .petsc) = s.trace.count (.stopped .petsc) + if s.petsc then 1 else 0
  logged : logs s.trace = msgs

theorem up_exit {c : Config} {s : St} {msgs : List String} (h : Up c msgs s) (e : Bool) :
    ∃ s', (next c)^[(exitGracefully c e).length] ⟨s, .running (exitGracefully c e)⟩ = ⟨s', .exited e⟩ ∧
      (∀ l, Ev.misuse l ∉ s'.trace) ∧ Stopped .petsc s'.trace ∧ logs s'.trace = msgs := by
  obtain ⟨h1, h2, h3, h4, h5, h6, h7⟩ := h
  have hu := h1.slicMpi h2
  have e2 : ∀ p : List String, logs (p.map Ev.printed) = [] := by
    intro p; induction p with
    | nil => rfl
    | cons a p ih => simp [logs]
  have e3 : ∀ (p : List String) (l : Lib), (p.map Ev.printed).count (.started l) = 0 := by
    intro p l; rw [List.count_eq_zero]; simp
  have e4 : ∀ (p : List String) (l : Lib), (p.map Ev.printed).count (.stopped l) = 0 := by
    intro p l; rw [List.count_eq_zero]; simp
  have e5 : ∀ a b : List Ev, logs (a ++ b) = logs a ++ logs b := fun a b => List.filterMap_append
  cases hc : c.petsc <;> cases hp : s.prof <;> rw [hc] at h4 <;>
    refine ⟨_, by simp [exitGracefully, hc, hp, Lifecycle.next, call, h2, h4, hu, St.emit]; rfl, ?_, ?_, ?_⟩ <;>
    simp [h5, e5, h7, e2, e3, e4, h6, h4, Stopped] <;> simp [logs]

theorem up_body {c : Config} (b : List User) (rest : List Instr) : ∀ {s : St} {msgs : List String},
    Up c msgs s → ∃ s', (next c)^[b.length] ⟨s, .running (b.map User.instr ++ rest)⟩ = ⟨s', .running rest⟩ ∧
      Up c (msgs ++ said b) s' := by
  induction b with
  | nil => intro s msgs h; exact ⟨s, rfl, by simpa [said] using h⟩
  | cons u b ih =>
    intro s msgs h
    obtain ⟨h1, h2, h3, h4, h5, h6, h7⟩ := h
    have hu := h1.slicMpi h2
    cases u with
    | info m =>
      have k := inv_call (i := .info m) (rest := b.map User.instr ++ rest) h1 h2
      have hup : Up c (msgs ++ [m]) (call c s (.info m) (b.map User.instr ++ rest)).st := by
        refine ⟨k, ?_, ?_, ?_, ?_, ?_, ?_⟩ <;> cases hc : c.parallel <;>
          simp_all [call, St.emit, logs]
      obtain ⟨s', e1, e2⟩ := ih hup
      refine ⟨s', ?_, by simpa [said] using e2⟩
      rw [List.length_cons, Function.iterate_succ_apply, ← e1]
      congr 1
      cases hc : c.parallel <;> simp [Lifecycle.next, User.instr, call, h2, hc]
    | flush =>
      have k := inv_call (i := .flush) (rest := b.map User.instr ++ rest) h1 h2
      have e2 : ∀ p : List String, (p.map Ev.printed).filterMap
          (fun | .logged m => some m | _ => none : Ev → Option String) = [] := by
        intro p; induction p with
        | nil => rfl
        | cons a p ih => simp [ih]
      have e3 : ∀ (p : List String) (l : Lib), (p.map Ev.printed).count (.started l) = 0 := by
        intro p l; rw [List.count_eq_zero]; simp
      have e4 : ∀ (p : List String) (l : Lib), (p.map Ev.printed).count (.stopped l) = 0 := by
        intro p l; rw [List.count_eq_zero]; simp
      have hup : Up c msgs (call c s .flush (b.map User.instr ++ rest)).st := by
        refine ⟨k, ?_, ?_, ?_, ?_, ?_, ?_⟩ <;> simp_all [call, logs]
      obtain ⟨s', f1, f2⟩ := ih hup
      refine ⟨s', ?_, by simpa [said] using f2⟩
      rw [List.length_cons, Function.iterate_succ_apply, ← f1]
      congr 1
      simp [Lifecycle.next, User.instr, call, h2, hu]

theorem up_boot {c : Config} (body : List User) (e : Bool) (hm : c.mpiOk = true) (hl : c.logOk = true) :
    ∃ s, (next c)^[(startUp c).length] (boot c body e) =
        ⟨s, .running (body.map User.instr ++ exitGracefully c e)⟩ ∧ Up c [hello c] s := by
  have key : ∃ s, (next c)^[(startUp c).length] (boot c body e) =
      ⟨s, .running (body.map User.instr ++ exitGracefully c e)⟩ ∧ s.slic = true ∧ s.handlers = true ∧
        s.petsc = c.petsc ∧ (∀ l, Ev.misuse l ∉ s.trace) ∧
        (s.trace.count (.started .petsc) = s.trace.count (.stopped .petsc) + if s.petsc then 1 else 0) ∧
        logs s.trace = [hello c] := by
    cases hp : c.petsc <;> cases hc : c.parallel <;>
      refine ⟨_, by simp [boot, program, startUp, hp, hc, Lifecycle.next, call, hm, hl, St.emit]; rfl,
        ?_, ?_, ?_, ?_, ?_, ?_⟩ <;> simp [logs]
  obtain ⟨s, h1, h2, h3, h4, h5, h6, h7⟩ := key
  have hi := (safe_boot c body e (startUp c).length).inv
  rw [h1] at hi
  exact ⟨s, h1, hi, h2, h3, h4, h5, h6, h7⟩

theorem proper_of {c : Config} {body : List User} {error e : Bool} {cs : List Choice} {msgs : List String}
    (h1 : (run c (boot c body error) cs).ctl = .exited e)
    (h2 : ∀ l, Ev.misuse l ∉ (run c (boot c body error) cs).st.trace)
    (h3 : Stopped .petsc (run c (boot c body error) cs).st.trace)
    (h4 : logs (run c (boot c body error) cs).st.trace = msgs) :
    Proper msgs (run c (boot c body error) cs).st.trace := by
  refine ⟨h2, fun l => ?_, ?_⟩
  · by_cases hl : l = .petsc
    · rw [hl]; exact h3
    · exact (C108_order c body error cs).2 e h1 l hl
  · rw [(C108_messages c body error cs).2 e h1, h4]

/-- A run that no signal interrupts ends with the status asked for. -/
theorem C108_normal (c : Config) (body : List User) (error : Bool) (hm : c.mpiOk = true)
    (hl : c.logOk = true) :
    let m := run c (boot c body error) (List.replicate (program c body error).length .step)
    m.ctl = .exited error ∧ Proper (hello c :: said body) m.st.trace := by
  intro m
  obtain ⟨s1, a1, a2⟩ := up_boot body error hm hl
  obtain ⟨s2, b1, b2⟩ := up_body body (exitGracefully c error) a2
  obtain ⟨s3, c1, c2, c3, c4⟩ := up_exit b2 error
  have e : m = ⟨s3, .exited error⟩ := by
    show run c _ _ = _
    rw [run_replicate]
    have : (program c body error).length =
        (exitGracefully c error).length + (body.length + (startUp c).length) := by
      simp [program]; omega
    rw [this, Function.iterate_add_apply, Function.iterate_add_apply, a1, b1, c1]
  have h1 : m.ctl = .exited error := by rw [e]
  refine ⟨h1, proper_of h1 ?_ ?_ ?_⟩
  · show ∀ l, _ ∉ m.st.trace; rw [e]; exact c2
  · show Stopped _ m.st.trace; rw [e]; exact c3
  · show logs m.st.trace = _; rw [e]; exact c4

/-- A run that one signal interrupts while the user's program runs ends with an error. -/
theorem C108_interrupted_partial (c : Config) (b1 b2 : List User) (error : Bool) (hm : c.mpiOk = true)
    (hl : c.logOk = true) :
    let m := run c (boot c (b1 ++ b2) error)
      (List.replicate ((startUp c).length + b1.length) .step ++ .signal ::
        List.replicate (exitGracefully c true).length .step)
    m.ctl = .exited true ∧ Proper (hello c :: said b1) m.st.trace := by
  intro m
  obtain ⟨s1, a1, a2⟩ := up_boot (b1 ++ b2) error hm hl
  obtain ⟨s2, f1, f2⟩ := up_body b1 (b2.map User.instr ++ exitGracefully c error) a2
  have f3 : Up c ([hello c] ++ said b1) (s2.emit .signalled) := by
    obtain ⟨h1, h2, h3, h4, h5, h6, h7⟩ := f2
    have h6' : (s2.trace ++ [Ev.signalled]).count (.started .petsc) =
        (s2.trace ++ [Ev.signalled]).count (.stopped .petsc) + if s2.petsc then 1 else 0 := by
      simpa using h6
    exact ⟨inv_signalled h1, h2, h3, h4, by simpa [St.emit] using h5, h6', by simpa [St.emit, logs] using h7⟩
  obtain ⟨s3, c1, c2, c3, c4⟩ := up_exit f3 true
  have e : m = ⟨s3, .exited true⟩ := by
    show run c _ _ = _
    rw [run_append, run_replicate, Nat.add_comm, Function.iterate_add_apply, a1, List.map_append,
      List.append_assoc, f1]
    have hsig : ∀ (m : Machine) (ys : List Choice),
        run c m (.signal :: ys) = run c (Lifecycle.signal c m) ys := fun _ _ => rfl
    rw [hsig, run_replicate]
    simp only [Lifecycle.signal, f2.handlers, if_true]
    exact c1
  have h1 : m.ctl = .exited true := by rw [e]
  refine ⟨h1, proper_of h1 ?_ ?_ ?_⟩
  · show ∀ l, _ ∉ m.st.trace; rw [e]; exact c2
  · show Stopped _ m.st.trace; rw [e]; exact c3
  · show logs m.st.trace = _; rw [e]; exact c4

/-- With PETSc a second signal, or a failure during start-up, makes the process call PETSc's finalization
when PETSc is not running; MPI is then never shut down. -/
theorem C108_petsc_wrong (c : Config) (hp : c.petsc = true) :
    (∀ (body : List User) (error : Bool), c.mpiOk = true → c.logOk = false →
      ∃ cs, (∀ a ∈ cs, a = .step) ∧
        let m := run c (boot c body error) cs
        m.ctl = .killed ∧ Ev.misuse .petsc ∈ m.st.trace ∧ ¬ Stopped .mpi m.st.trace) ∧
      (c.mpiOk = true → c.logOk = true →
        ∃ cs, let m := run c (boot c [] false) cs
          m.ctl = .killed ∧ Ev.misuse .petsc ∈ m.st.trace ∧ ¬ Stopped .mpi m.st.trace) := by
  constructor
  · intro body error hm hl
    refine ⟨List.replicate 8 .step, by simp, ?_⟩
    cases hc : c.parallel <;>
      simp [run, act, boot, program, startUp, exitGracefully, Lifecycle.next, call, misused, hp, hm, hl,
        hc, St.emit, Stopped, List.replicate]
  · intro hm hl
    refine ⟨List.replicate 12 .step ++ .signal :: List.replicate 2 .step, ?_⟩
    cases hc : c.parallel <;>
      simp [run, act, boot, program, startUp, exitGracefully, Lifecycle.next, Lifecycle.signal, call,
        misused, hp, hm, hl, hc, St.emit, Stopped, List.replicate]

/-! ### Examples -/

/-- Two ranks, no PETSc; the user logs two messages. -/
def exConfig : Config := ⟨true, false, true, true⟩
def exBody : List User := [.info "step 0", .flush, .info "step 1"]

/-- A signal during the user's program and another during termination: both messages appear. -/
example : (run exConfig (boot exConfig exBody false)
      (List.replicate 10 .step ++ [.signal, .step, .step, .signal] ++ List.replicate 9 .step)).ctl =
      .exited true ∧
    prints (run exConfig (boot exConfig exBody false)
      (List.replicate 10 .step ++ [.signal, .step, .step, .signal] ++ List.replicate 9 .step)).st.trace =
      ["Logger activated: 'serac_parallel_logger'", "step 0", "step 1"] := by decide

/-- The same program with PETSc, uninterrupted. -/
example : Proper (hello ⟨true, true, true, true⟩ :: ["step 0", "step 1"])
    (run ⟨true, true, true, true⟩ (boot ⟨true, true, true, true⟩ exBody false)
      (List.replicate 20 .step)).st.trace :=
  (C108_normal ⟨true, true, true, true⟩ exBody false rfl rfl).2

end Serac.C108
