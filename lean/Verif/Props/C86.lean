import Verif.Model.Summary
import Verif.Props.C36
import Verif.Props.C74
import Mathlib.Data.List.Basic
import Mathlib.Algebra.Order.BigOperators.Group.Finset
/-!
# C86: the summary of a run

Spec.  Of a history of saves, every curve is the list of the values at the saves, in order (`record`).  The history of a run of the driver (`history`): the times are the
partial sums of the steps, the data are those of the module after as many steps.
-/

noncomputable section
namespace Serac.C86
open Serac.Summary Serac.Fields

/-! ### Spec -/

/-- The curves of a list of values. -/
def curves (l : List Stats) : Curves :=
  ⟨l.map Stats.l1, l.map Stats.l2, l.map Stats.linf, l.map Stats.avg, l.map Stats.min, l.map Stats.max⟩

/-- The summary of a history of saves: times, and the values of each state. -/
def record (count : ℕ) (names : List String) (h : List (ℝ × (String → Stats))) : Store :=
  ⟨count, h.map Prod.fst, names.map fun n => (n, curves (h.map fun x => x.2 n))⟩

/-- Times and data after each step of a list of steps. -/
def history {P : Type} (rnd : ℝ → ℝ) (advance : ℝ → P → P) : ℝ → P → List ℝ → List (ℝ × P)
  | _, _, [] => []
  | t, m, h :: hs => (rnd (t + h), advance h m) :: history rnd advance (rnd (t + h)) (advance h m) hs

/-! ### Initialisation -/

theorem createGroups_ok (ns : List String) (g : List (String × Curves)) (hn : ns.Nodup) (ht : "t" ∉ ns) (hd : ∀ n ∈ ns, n ∉ g.map Prod.fst) :
    createGroups ns g = .ok (g ++ ns.map fun n => (n, curves [])) := by
  induction ns generalizing g with
  | nil => simp [createGroups]
  | cons n ns ih =>
    rw [List.nodup_cons] at hn
    rw [createGroups, if_neg, ih]
    · simp [curves]
    · exact hn.2
    · exact fun h => ht (List.mem_cons_of_mem _ h)
    · intro k hk
      rw [List.map_append, List.mem_append]
      rintro (h | h)
      · exact hd k (List.mem_cons_of_mem _ hk) h
      · simp only [List.map_cons, List.map_nil, List.mem_singleton] at h
        exact hn.1 (h ▸ hk)
    · rintro (h | h)
      · exact ht (h ▸ List.mem_cons_self)
      · exact hd n List.mem_cons_self h

theorem createGroups_ub (ns : List String) (g : List (String × Curves)) (h : ¬ (ns.Nodup ∧ "t" ∉ ns ∧ ∀ n ∈ ns, n ∉ g.map Prod.fst)) : createGroups ns g = .ub := by
  induction ns generalizing g with
  | nil => exact absurd ⟨List.nodup_nil, by simp, by simp⟩ h
  | cons n ns ih =>
    rw [createGroups]
    split
    · rfl
    · rename_i h1
      rw [not_or] at h1
      apply ih
      rintro ⟨a, b, c⟩
      apply h
      refine ⟨List.nodup_cons.2 ⟨?_, a⟩, ?_, ?_⟩
      · intro hm
        exact c n hm (by simp)
      · rw [List.mem_cons]
        rintro (e | e)
        · exact h1.1 e.symm
        · exact b e
      · intro k hk
        rcases List.mem_cons.1 hk with rfl | hk
        · exact h1.2
        · intro hm
          exact c k hk (by rw [List.map_append]; exact List.mem_append_left _ hm)

/-- **Initialisation**: the root gets an empty summary exactly if there is none, the names of the states are distinct and none is "t", and the number of steps makes sense as
an integer; a second initialisation is refused; the other ranks do nothing. -/
theorem C86_initialize (count : ℕ) (names : List String) (tf dt : ℝ) :
    (∀ rank, rank ≠ 0 → ∀ root, initSummary count rank names tf dt root = .ok root) ∧
    (∀ st, initSummary count 0 names tf dt (some st) = .error) ∧
    ((names.Nodup ∧ "t" ∉ names ∧ dt ≠ 0 ∧ -(2 : ℤ) ^ 63 ≤ ⌈tf / dt⌉ ∧ ⌈tf / dt⌉ < (2 : ℤ) ^ 63) →
      initSummary count 0 names tf dt none = .ok (some (record count names []))) ∧
    (¬ (names.Nodup ∧ "t" ∉ names ∧ dt ≠ 0 ∧ -(2 : ℤ) ^ 63 ≤ ⌈tf / dt⌉ ∧ ⌈tf / dt⌉ < (2 : ℤ) ^ 63) → initSummary count 0 names tf dt none = .ub) := by
  refine ⟨fun rank h root => by unfold initSummary; rw [if_pos h], fun st => by simp [initSummary], ?_, ?_⟩
  · rintro ⟨a, b, c, d, e⟩
    have := createGroups_ok names [] a b (by simp)
    unfold initSummary
    rw [if_neg (by simp)]
    dsimp only
    rw [if_neg (by rw [not_or]; exact ⟨c, not_not.2 ⟨d, e⟩⟩), this]
    simp [record]
  · intro h
    unfold initSummary
    rw [if_neg (by simp)]
    dsimp only
    split
    · rfl
    · rename_i h1
      rw [not_or, not_not] at h1
      rw [createGroups_ub names [] (fun h2 => h ⟨h2.1, h2.2.1, h1.1, h1.2.1, h1.2.2⟩)]

/-! ### Saves -/

theorem pushTo_skip (n : String) (s : Stats) (pre g : List (String × Curves)) (h : n ∉ pre.map Prod.fst) :
    pushTo n s (pre ++ g) = match pushTo n s g with
      | .ok g' => .ok (pre ++ g')
      | .error => .error
      | .ub => .ub := by
  induction pre with
  | nil => simp only [List.nil_append]; cases pushTo n s g <;> rfl
  | cons a pre ih =>
    simp only [List.map_cons, List.mem_cons, not_or] at h
    rw [List.cons_append, pushTo, if_neg (Ne.symm h.1), ih h.2]
    cases pushTo n s g <;> rfl

theorem pushAll_ok (ns : List String) (s : String → Stats) (c : String → Curves) (pre : List (String × Curves)) (hn : ns.Nodup) (hd : ∀ n ∈ ns, n ∉ pre.map Prod.fst) :
    pushAll (ns.map fun n => (n, s n)) (pre ++ ns.map fun n => (n, c n)) = .ok (pre ++ ns.map fun n => (n, (c n).push (s n))) := by
  induction ns generalizing pre with
  | nil => simp [pushAll]
  | cons n ns ih =>
    rw [List.nodup_cons] at hn
    rw [List.map_cons, List.map_cons, pushAll, pushTo_skip _ _ _ _ (hd n List.mem_cons_self), pushTo, if_pos rfl]
    dsimp only
    have := ih (pre ++ [(n, (c n).push (s n))]) hn.2 (by
      intro k hk
      rw [List.map_append, List.mem_append]
      rintro (h | h)
      · exact hd k (List.mem_cons_of_mem _ hk) h
      · simp only [List.map_cons, List.map_nil, List.mem_singleton] at h
        exact hn.1 (h ▸ hk))
    simpa using this

theorem curves_push (l : List Stats) (s : Stats) : (curves l).push s = curves (l ++ [s]) := by
  simp [curves, Curves.push]

theorem save_ok (count : ℕ) (names : List String) (hn : names.Nodup) (h : List (ℝ × (String → Stats))) (t : ℝ) (s : String → Stats) :
    saveSummary 0 (names.map fun n => (n, s n)) t (some (record count names h)) = .ok (some (record count names (h ++ [(t, s)]))) := by
  unfold saveSummary
  rw [if_neg (by simp)]
  dsimp only [record]
  have := pushAll_ok names s (fun n => curves (h.map fun x => x.2 n)) [] hn (by simp)
  rw [List.nil_append, List.nil_append] at this
  rw [this]
  simp [curves_push]

/-- A list of saves on one rank. -/
def saves (rank : ℕ) (names : List String) : List (ℝ × (String → Stats)) → Option Store → Res (Option Store)
  | [], root => .ok root
  | x :: xs, root => match saveSummary rank (names.map fun n => (n, x.2 n)) x.1 root with
    | .ok root' => saves rank names xs root'
    | .error => .error
    | .ub => .ub

theorem saves_record (count : ℕ) (names : List String) (hn : names.Nodup) (h h' : List (ℝ × (String → Stats))) :
    saves 0 names h' (some (record count names h)) = .ok (some (record count names (h ++ h'))) := by
  induction h' generalizing h with
  | nil => simp [saves]
  | cons x xs ih =>
    rw [saves, save_ok count names hn]
    dsimp only
    rw [ih]
    simp

/-- **Saves**: after an initialisation and any number of saves the root holds exactly the values of the saves, in order: all curves are as long as there were saves, and entry
`k` of every curve belongs to save `k`.  The other ranks hold nothing.  A save without an initialisation is refused. -/
theorem C86_curves (count : ℕ) (names : List String) (hn : names.Nodup) (ht : "t" ∉ names) (tf dt : ℝ) (hdt : dt ≠ 0) (h1 : -(2 : ℤ) ^ 63 ≤ ⌈tf / dt⌉)
    (h2 : ⌈tf / dt⌉ < (2 : ℤ) ^ 63) (l : List (ℝ × (String → Stats))) :
    (∃ st, initSummary count 0 names tf dt none = .ok (some st) ∧ ∃ st', saves 0 names l (some st) = .ok (some st') ∧ st'.mpiRankCount = count ∧ st'.t = l.map Prod.fst ∧
      st'.groups.map Prod.fst = names ∧ ∀ n c, (n, c) ∈ st'.groups →
        c.l1norms = l.map (fun x => (x.2 n).l1) ∧ c.l2norms = l.map (fun x => (x.2 n).l2) ∧ c.linfnorms = l.map (fun x => (x.2 n).linf) ∧
        c.avgs = l.map (fun x => (x.2 n).avg) ∧ c.mins = l.map (fun x => (x.2 n).min) ∧ c.maxs = l.map (fun x => (x.2 n).max)) ∧
    (∀ rank, rank ≠ 0 → ∀ root, saves rank names l root = .ok root) ∧
    ∀ states t, saveSummary 0 states t none = .error := by
  refine ⟨⟨record count names [], (C86_initialize count names tf dt).2.2.1 ⟨hn, ht, hdt, h1, h2⟩, _, saves_record count names hn [] l, rfl, by simp [record], ?_, ?_⟩, ?_, ?_⟩
  · simp only [record, List.nil_append, List.map_map]
    exact (List.map_congr_left fun _ _ => rfl).trans (List.map_id names)
  · intro n c hc
    simp only [record, List.nil_append, List.mem_map] at hc
    obtain ⟨k, _, e⟩ := hc
    rw [Prod.mk.injEq] at e
    obtain ⟨rfl, rfl⟩ := e
    simp [curves, Function.comp_def]
  · intro rank hr root
    induction l generalizing root with
    | nil => rfl
    | cons x xs ih => unfold saves saveSummary; rw [if_pos hr]; exact ih root
  · intro states t
    simp [saveSummary]

/-- **A save finds its arrays**: a state that has no group is not survived. -/
theorem C86_unknown (states : List (String × Stats)) (t : ℝ) (st : Store) (n : String) (hn : n ∈ states.map Prod.fst) (h : n ∉ st.groups.map Prod.fst) :
    saveSummary 0 states t (some st) = .ub := by
  have hk : ∀ (m : String) (s : Stats) (g g' : List (String × Curves)), pushTo m s g = .ok g' → g'.map Prod.fst = g.map Prod.fst := by
    intro m s g
    induction g with
    | nil => intro g' h; simp [pushTo] at h
    | cons a g ih =>
      intro g' h
      rw [pushTo] at h
      split at h
      · cases h; rfl
      · cases hp : pushTo m s g with
        | ok q => rw [hp] at h; cases h; simp [ih q hp]
        | error => rw [hp] at h; cases h
        | ub => rw [hp] at h; cases h
  have hne : ∀ (m : String) (s : Stats) (g : List (String × Curves)), pushTo m s g ≠ .error := by
    intro m s g
    induction g with
    | nil => simp [pushTo]
    | cons a g ih =>
      rw [pushTo]
      split
      · simp
      · cases hp : pushTo m s g with
        | ok q => simp
        | error => exact absurd hp ih
        | ub => simp
  have hub : ∀ (m : String) (s : Stats) (g : List (String × Curves)), m ∉ g.map Prod.fst → pushTo m s g = .ub := by
    intro m s g
    induction g with
    | nil => intro _; rfl
    | cons a g ih =>
      intro hm
      simp only [List.map_cons, List.mem_cons, not_or] at hm
      rw [pushTo, if_neg (Ne.symm hm.1), ih hm.2]
  have : ∀ (ss : List (String × Stats)) (g : List (String × Curves)), n ∈ ss.map Prod.fst → n ∉ g.map Prod.fst → pushAll ss g = .ub := by
    intro ss
    induction ss with
    | nil => intro g h; simp at h
    | cons a ss ih =>
      intro g h1 h2
      rw [pushAll]
      cases hp : pushTo a.1 a.2 g with
      | error => exact absurd hp (hne _ _ _)
      | ub => rfl
      | ok q =>
        dsimp only
        rw [List.map_cons, List.mem_cons] at h1
        rcases h1 with e | h1
        · rw [hub a.1 a.2 g (e ▸ h2)] at hp; cases hp
        · exact ih q h1 (by rw [hk _ _ _ _ hp]; exact h2)
  unfold saveSummary
  rw [if_neg (by simp)]
  dsimp only
  rw [this states st.groups hn h]

/-! ### The values -/

/-- **Order of the curves**: whatever the distribution over processors, the smallest entry of a field is at most its average, which is at most its largest entry. -/
theorem C86_order (norm : Option ℕ → Field → ℝ) (f : Field) (h0 : 0 < C74.total f.K) (h1 : C74.total f.K < 2 ^ 31) :
    ∃ lo hi : ℝ, (f.stats norm).min = (lo : WithTop ℝ) ∧ (f.stats norm).max = (hi : WithBot ℝ) ∧ lo ≤ (f.stats norm).avg ∧ (f.stats norm).avg ≤ hi ∧
      (∃ t, f.v t = lo) ∧ (∃ t, f.v t = hi) ∧ ∀ t, lo ≤ f.v t ∧ f.v t ≤ hi := by
  have hcard : Fintype.card f.K.True = C74.total f.K := by simp [C74.total]
  have hne : Nonempty f.K.True := Fintype.card_pos_iff.1 (by omega)
  obtain ⟨a, _, ha⟩ := Finset.exists_min_image (Finset.univ : Finset f.K.True) f.v ⟨hne.some, Finset.mem_univ _⟩
  obtain ⟨b, _, hb⟩ := Finset.exists_max_image (Finset.univ : Finset f.K.True) f.v ⟨hne.some, Finset.mem_univ _⟩
  have hp : (0 : ℝ) < C74.total f.K := by exact_mod_cast h0
  refine ⟨f.v a, f.v b, ((C74.C74_min f.K f.v).1 _).2 ⟨⟨a, rfl⟩, fun t => ha t (Finset.mem_univ _)⟩, ((C74.C74_max f.K f.v).1 _).2 ⟨⟨b, rfl⟩, fun t => hb t (Finset.mem_univ _)⟩,
    ?_, ?_, ⟨a, rfl⟩, ⟨b, rfl⟩, fun t => ⟨ha t (Finset.mem_univ _), hb t (Finset.mem_univ _)⟩⟩
  · show _ ≤ f.K.avg f.v
    rw [C74.C74_avg f.K f.v h1, le_div_iff₀ hp]
    have := Finset.card_nsmul_le_sum Finset.univ f.v (f.v a) (fun t ht => ha t ht)
    rw [Finset.card_univ, hcard, nsmul_eq_mul] at this
    linarith
  · show f.K.avg f.v ≤ _
    rw [C74.C74_avg f.K f.v h1, div_le_iff₀ hp]
    have := Finset.sum_le_card_nsmul Finset.univ f.v (f.v b) (fun t ht => hb t ht)
    rw [Finset.card_univ, hcard, nsmul_eq_mul] at this
    linarith

/-- **Number of processors**: the average, largest and smallest entries in the summary are the same for every distribution of a field. -/
theorem C86_partition (norm : Option ℕ → Field → ℝ) (f g : Field) (e : f.K.True ≃ g.K.True) (h : f.v = g.v ∘ e) :
    (f.stats norm).avg = (g.stats norm).avg ∧ (f.stats norm).max = (g.stats norm).max ∧ (f.stats norm).min = (g.stats norm).min := by
  have := C74.C74_partition f.K g.K e g.v g.v
  rw [← h] at this
  exact ⟨this.1, this.2.1, this.2.2.1⟩

/-! ### Runs of the driver -/

theorem history_append {P : Type} (rnd : ℝ → ℝ) (advance : ℝ → P → P) (t : ℝ) (m : P) (a : List ℝ) (h : ℝ) :
    ∃ t' m', history rnd advance t m (a ++ [h]) = history rnd advance t m a ++ [(t', m')] := by
  induction a generalizing t m with
  | nil => exact ⟨_, _, rfl⟩
  | cons x a ih =>
    obtain ⟨t', m', e⟩ := ih (rnd (t + x)) (advance x m)
    exact ⟨t', m', by rw [List.cons_append, history, e]; rfl⟩

/-- What the driver's loop does to the rest of the program: the steps it takes from now on. -/
def taken (s s' : Driver.State) : List ℝ := s'.steps.drop s.steps.length

theorem driver_steps (rnd : ℝ → ℝ) (dt tf : ℝ) (fuel : ℕ) (s s' : Driver.State) (h : Driver.loop rnd dt tf fuel s = some s') : ∃ l, s'.steps = s.steps ++ l := by
  induction fuel generalizing s with
  | zero => simp [Driver.loop] at h
  | succ n ih =>
    rw [Driver.loop] at h
    split at h
    · cases h; exact ⟨_, rfl⟩
    · obtain ⟨l, e⟩ := ih _ h
      exact ⟨min dt (rnd (tf - s.t)) :: l, by rw [e]; simp [Driver.body]⟩

theorem taken_cons (rnd : ℝ → ℝ) (dt tf : ℝ) (fuel : ℕ) (s s' : Driver.State) (h : Driver.loop rnd dt tf fuel (Driver.body rnd dt tf s) = some s') :
    taken s s' = min dt (rnd (tf - s.t)) :: taken (Driver.body rnd dt tf s) s' := by
  obtain ⟨l, e⟩ := driver_steps rnd dt tf fuel _ s' h
  unfold taken
  rw [e]
  simp [Driver.body]

/-- **Runs of the driver**, with any rounding: the loop with a module and a summary ends exactly when the driver's loop does, never fails, and the summary then holds, step by
step, the time of the driver and the values of the module's states after that step. -/
theorem C86_run {P : Type} (rnd : ℝ → ℝ) (dt tf : ℝ) (norm : Option ℕ → Field → ℝ) (advance : ℝ → P → P) (states : P → List Field) (names : List String) (hn : names.Nodup)
    (field : P → String → Field) (hf : ∀ m, states m = names.map (field m)) (hname : ∀ m, ∀ n ∈ names, (field m n).name = n) (count fuel : ℕ) (s : Driver.State) (m : P)
    (h : List (ℝ × (String → Stats))) :
    loop rnd dt tf 0 norm advance states fuel ⟨s, m, some (record count names h)⟩ =
      (Driver.loop rnd dt tf fuel s).map fun s' => .ok ⟨s', (taken s s').foldl (fun m x => advance x m) m,
        some (record count names (h ++ (history rnd advance s.t m (taken s s')).map fun x => (x.1, fun n => (field x.2 n).stats norm)))⟩ := by
  induction fuel generalizing s m h with
  | zero => rfl
  | succ k ih =>
    have hp : pass rnd dt tf 0 norm advance states ⟨s, m, some (record count names h)⟩ =
        .ok ⟨Driver.body rnd dt tf s, advance (min dt (rnd (tf - s.t))) m, some (record count names (h ++ [((Driver.body rnd dt tf s).t,
          fun n => (field (advance (min dt (rnd (tf - s.t))) m) n).stats norm)]))⟩ := by
      have hl : ((states (advance (min dt (rnd (tf - s.t))) m)).map fun f => (f.name, f.stats norm)) =
          names.map fun n => (n, (field (advance (min dt (rnd (tf - s.t))) m) n).stats norm) := by
        rw [hf, List.map_map]
        apply List.map_congr_left
        intro n hm
        simp [hname _ n hm]
      unfold pass
      dsimp only
      rw [hl, save_ok count names hn]
    rw [Summary.loop, hp]
    dsimp only
    rw [Driver.loop]
    by_cases hl : Driver.last rnd dt tf (Driver.body rnd dt tf s).t
    · rw [if_pos hl, if_pos hl, Option.map_some]
      have : taken s (Driver.body rnd dt tf s) = [min dt (rnd (tf - s.t))] := by simp [taken, Driver.body]
      rw [this]
      rfl
    · rw [if_neg hl, if_neg hl, ih]
      cases hd : Driver.loop rnd dt tf k (Driver.body rnd dt tf s) with
      | none => rfl
      | some s' =>
        rw [Option.map_some, Option.map_some, taken_cons rnd dt tf k s s' hd]
        simp [history, Driver.body]

theorem history_times {P : Type} (advance : ℝ → P → P) (t : ℝ) (m : P) (l : List ℝ) :
    (history id advance t m l).length = l.length ∧
    ∀ k (hk : k < (history id advance t m l).length), ((history id advance t m l)[k]).1 = t + (l.take (k + 1)).sum ∧
      ((history id advance t m l)[k]).2 = (l.take (k + 1)).foldl (fun m x => advance x m) m := by
  induction l generalizing t m with
  | nil => exact ⟨rfl, fun k hk => absurd hk (by simp [history])⟩
  | cons x l ih =>
    obtain ⟨h1, h2⟩ := ih (t + x) (advance x m)
    refine ⟨by simp [history, h1], fun k hk => ?_⟩
    cases k with
    | zero => simp [history]
    | succ k =>
      have := h2 k (by simpa [history] using hk)
      simp only [history, List.getElem_cons_succ, id, List.take_succ_cons, List.sum_cons, List.foldl_cons]
      rw [this.1, this.2]
      exact ⟨by ring, rfl⟩

/-- **A whole run** (exact arithmetic): the summary of a run from `t₀` to `tf` has one entry for each step; the times increase strictly, start one step after `t₀` and end at
`tf` up to the driver's tolerance; entry `k` is the time after `k + 1` steps, and the values with it are those of the module after these steps. -/
theorem C86_whole {P : Type} (dt tf : ℝ) (hdt : 0 < dt) (norm : Option ℕ → Field → ℝ) (advance : ℝ → P → P) (states : P → List Field) (names : List String)
    (hn : names.Nodup) (ht : "t" ∉ names) (field : P → String → Field) (hf : ∀ m, states m = names.map (field m)) (hname : ∀ m, ∀ n ∈ names, (field m n).name = n)
    (count : ℕ) (t0 : ℝ) (cycle : ℤ) (h0 : t0 < tf) (m : P) (hr : -(2 : ℤ) ^ 63 ≤ ⌈tf / dt⌉ ∧ ⌈tf / dt⌉ < (2 : ℤ) ^ 63) :
    ∃ root, initSummary count 0 names tf dt none = .ok root ∧ ∀ fuel, C36.numSteps dt tf t0 ≤ fuel → ∃ (st : Store) (ms : List P) (s' : Driver.State) (m' : P),
      loop id dt tf 0 norm advance states fuel ⟨⟨t0, cycle, []⟩, m, root⟩ = some (.ok ⟨s', m', some st⟩) ∧
      st.t.length = C36.numSteps dt tf t0 ∧ ms.length = C36.numSteps dt tf t0 ∧
      st.t.Pairwise (· < ·) ∧ (∀ x ∈ st.t, t0 < x ∧ x ≤ tf) ∧ (∀ k, k + 1 = st.t.length → ∃ x, st.t[k]? = some x ∧ tf - 1 / 10 ^ 8 * dt ≤ x) ∧
      (∀ k, k < C36.numSteps dt tf t0 → st.t[k]? = some (t0 + ((C36.sizes dt tf t0).take (k + 1)).sum) ∧
        ms[k]? = some (((C36.sizes dt tf t0).take (k + 1)).foldl (fun m x => advance x m) m)) ∧
      st.groups = names.map fun n => (n, curves (ms.map fun q => (field q n).stats norm)) := by
  refine ⟨_, (C86_initialize count names tf dt).2.2.1 ⟨hn, ht, hdt.ne', hr⟩, fun fuel hfuel => ?_⟩
  have hl := C36.C36_run_partial dt tf hdt ⟨t0, cycle, []⟩ h0 fuel
  dsimp only at hl
  rw [if_pos hfuel] at hl
  have hrun := C86_run id dt tf norm advance states names hn field hf hname count fuel ⟨t0, cycle, []⟩ m []
  rw [hl, Option.map_some] at hrun
  have htk : ∀ s' : Driver.State, s'.steps = [] ++ C36.sizes dt tf t0 → taken ⟨t0, cycle, []⟩ s' = C36.sizes dt tf t0 := by
    intro s' e; simp [taken, e]
  rw [htk _ rfl] at hrun
  set H := history id advance t0 m (C36.sizes dt tf t0) with hH
  obtain ⟨hlen, hval⟩ := history_times advance t0 m (C36.sizes dt tf t0)
  rw [← hH] at hlen hval
  obtain ⟨hpos, hsz, hub, hend⟩ := C36.C36_sizes dt tf t0 hdt h0
  have hlen' : H.length = C36.numSteps dt tf t0 := hlen.trans hsz
  have hT : (record count names ([] ++ H.map fun x => (x.1, fun n => (field x.2 n).stats norm))).t = H.map Prod.fst := by
    simp [record, Function.comp_def]
  have hmono : ∀ i j, i < j → j ≤ (C36.sizes dt tf t0).length → ((C36.sizes dt tf t0).take i).sum < ((C36.sizes dt tf t0).take j).sum := by
    intro i j hij hj
    induction j with
    | zero => omega
    | succ j ih =>
      have hj' : j < (C36.sizes dt tf t0).length := hj
      rw [List.take_add_one, List.sum_append, List.getElem?_eq_getElem hj']
      have hp : 0 < (C36.sizes dt tf t0)[j] := (hpos _ (List.getElem_mem hj')).1
      simp only [Option.toList_some, List.sum_cons, List.sum_nil, add_zero]
      rcases Nat.lt_succ_iff_lt_or_eq.1 hij with h | h
      · linarith [ih h hj'.le]
      · subst h; linarith
  refine ⟨_, H.map Prod.snd, _, _, hrun, ?_, ?_, ?_, ?_, ?_, ?_, ?_⟩
  · rw [hT, List.length_map, hlen']
  · rw [List.length_map, hlen']
  · rw [hT, List.pairwise_iff_getElem]
    intro i j hi hj hij
    rw [List.length_map] at hi hj
    rw [List.getElem_map, List.getElem_map, (hval i hi).1, (hval j hj).1]
    have := hmono (i + 1) (j + 1) (by omega) (by omega)
    linarith
  · intro x hx
    rw [hT] at hx
    obtain ⟨k, hk, rfl⟩ := List.getElem_of_mem hx
    rw [List.length_map] at hk
    rw [List.getElem_map, (hval k hk).1]
    have := hmono 0 (k + 1) (by omega) (by omega)
    rw [List.take_zero, List.sum_nil] at this
    exact ⟨by linarith, hub (k + 1)⟩
  · intro k hk
    rw [hT, List.length_map] at hk
    have hk' : k < H.length := by omega
    refine ⟨(H[k]).1, by rw [hT, List.getElem?_map, List.getElem?_eq_getElem hk']; rfl, ?_⟩
    rw [(hval k hk').1, List.take_of_length_le (by omega)]
    exact hend
  · intro k hk
    have hk' : k < H.length := by omega
    rw [hT, List.getElem?_map, List.getElem?_map, List.getElem?_eq_getElem hk']
    exact ⟨congrArg some (hval k hk').1, congrArg some (hval k hk').2⟩
  · simp [record, Function.comp_def]

/-! ### Examples -/

/-- One state on two ranks, the second of which owns nothing; the module doubles the field in each step. -/
def exLayout : Layout where
  ranks := 2
  size := fun r => if r = 0 then 2 else 0
  lsize := fun r => if r = 0 then 2 else 0
  tdof := id
  sign := fun _ => 1
  own := id

def exField (m : ℝ) (n : String) : Field := ⟨n, exLayout, fun t => m * (t.2 : ℕ)⟩

example : 0 < C74.total exLayout ∧ C74.total exLayout < 2 ^ 31 := by
  have : C74.total exLayout = 2 := by unfold C74.total; exact (Fin.sum_univ_two (f := fun r : Fin 2 => if r = 0 then 2 else 0)).trans rfl
  rw [this]; norm_num

/-- Two steps and a half: three entries. -/
example : C36.numSteps 2 5 0 = 3 := by
  unfold C36.numSteps
  have : ⌈((5 : ℝ) - 0) / 2 - 1 / 10 ^ 8⌉₊ = 3 := by rw [Nat.ceil_eq_iff (by norm_num)]; norm_num
  rw [this]; rfl

example : ∃ root, initSummary 2 0 ["temperature", "velocity"] 5 2 none = .ok root ∧ ∃ (st : Store) (s' : Driver.State) (m' : ℝ),
    loop id 2 5 0 (fun _ _ => 0) (fun h m => (1 + h) * m) (fun m => ["temperature", "velocity"].map (exField m)) 100 ⟨⟨0, 0, []⟩, 1, root⟩ = some (.ok ⟨s', m', some st⟩) ∧
      0 < st.t.length ∧ st.t.Pairwise (· < ·) := by
  have hc : ⌈(5 : ℝ) / 2⌉ = 3 := by rw [Int.ceil_eq_iff]; norm_num
  have hs : C36.numSteps 2 5 0 ≤ 100 := by
    unfold C36.numSteps
    rw [max_le_iff]
    exact ⟨by norm_num, Nat.ceil_le.2 (by norm_num)⟩
  obtain ⟨root, h, hrun⟩ := C86_whole (P := ℝ) 2 5 (by norm_num) (fun _ _ => 0) (fun h m => (1 + h) * m) (fun m => ["temperature", "velocity"].map (exField m))
    ["temperature", "velocity"] (by decide) (by decide) exField (fun _ => rfl) (fun _ _ _ => rfl) 2 0 0 (by norm_num) 1 (by rw [hc]; norm_num)
  obtain ⟨st, ms, s', m', e, h1, _, h3, _⟩ := hrun 100 hs
  exact ⟨root, h, st, s', m', e, by rw [h1]; exact lt_of_lt_of_le Nat.one_pos (le_max_left _ _), h3⟩

end Serac.C86
