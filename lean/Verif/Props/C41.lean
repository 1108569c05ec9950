import Verif.Model.QData
import Mathlib.Data.List.Nodup
import Mathlib.Tactic.Ring
import Mathlib.Tactic.Linarith
/-!
# C41: material history

Spec.  The material state of a point of an element after a run is obtained from its initial state by the material's own update with the inputs at the end of
each step, in order; evaluations in between, and the other points, elements and materials, have no influence.

Proved for integrals with separate buffers of the right shape.  Fails if a buffer is shared (`C41_shared_wrong`), if a parameter field has a higher order
than the displacement (`C41_order_wrong`), and `resetStates` does not reset the history (`C41_reset_wrong`).
-/

namespace Serac.C41
open Serac.QData

variable {S I Y : Type}

/-- The state stored for the `e`-th element of a domain and point `q`. -/
def entry (b : Buffer S) (e q : ℕ) : Option S := if q < b.cols then b.data[e * b.cols + q]? else none

/-- The buffer fits the integral: as many columns as points, a row for each element of the domain. -/
def Fits (g : Integral S I Y) (b : Buffer S) : Prop := b.data.length = b.rows * b.cols ∧ g.points = b.cols ∧ g.elements.length ≤ b.rows

/-- The material's own update at a point. -/
def advance (g : Integral S I Y) (inp : I) (e q : ℕ) (s : S) : S := (g.qf inp (g.elements.getD e 0) q s).2

theorem mem_loops {n p : ℕ} {k : ℕ × ℕ} : k ∈ loops n p ↔ k.1 < n ∧ k.2 < p := by
  unfold loops
  simp only [List.mem_flatMap, List.mem_range, List.mem_map]
  constructor
  · rintro ⟨e, he, q, hq, rfl⟩
    exact ⟨he, hq⟩
  · rintro ⟨h1, h2⟩
    exact ⟨k.1, h1, k.2, h2, rfl⟩

theorem index_inj {cols e q e' q' : ℕ} (hq : q < cols) (hq' : q' < cols) (h : e * cols + q = e' * cols + q') : e = e' ∧ q = q' := by
  have hc : 0 < cols := by omega
  have h1 : (e * cols + q) / cols = e := by
    rw [mul_comm, Nat.mul_add_div hc, Nat.div_eq_of_lt hq, add_zero]
  have h2 : (e' * cols + q') / cols = e' := by
    rw [mul_comm, Nat.mul_add_div hc, Nat.div_eq_of_lt hq', add_zero]
  have he : e = e' := by rw [← h1, ← h2, h]
  subst he
  exact ⟨rfl, by omega⟩

theorem nodup_loops (n p : ℕ) : (loops n p).Nodup := by
  unfold loops
  rw [List.nodup_flatMap]
  refine ⟨fun e _ => (List.nodup_range).map (fun a b h => (Prod.mk.inj h).2), ?_⟩
  refine (List.nodup_range (n := n)).imp ?_
  intro a b hab k hk hk'
  simp only [List.mem_map] at hk hk'
  obtain ⟨q, -, rfl⟩ := hk
  obtain ⟨q', -, h⟩ := hk'
  exact hab (Prod.mk.inj h).1.symm

/-- One pass over distinct points within the array. -/
theorem pass (g : Integral S I Y) (u : Bool) (inp : I) (cols : ℕ) : ∀ (ks : List (ℕ × ℕ)) (ys : List Y) (d : List S), ks.Nodup → (∀ k ∈ ks, k.2 < cols) →
    (∀ k ∈ ks, k.1 * cols + k.2 < d.length) → ∃ ys' d', ks.foldlM (point g u inp cols) (ys, d) = some (ys', d') ∧ d'.length = d.length ∧
      (∀ k ∈ ks, d'[k.1 * cols + k.2]? = (d[k.1 * cols + k.2]?).map fun s => if u then advance g inp k.1 k.2 s else s) ∧
      (∀ j, (∀ k ∈ ks, j ≠ k.1 * cols + k.2) → d'[j]? = d[j]?) ∧
      (ys'.map some = ys.map some ++ ks.map fun k => (d[k.1 * cols + k.2]?).map fun s => (g.qf inp (g.elements.getD k.1 0) k.2 s).1) := by
  intro ks
  induction ks with
  | nil => exact fun ys d _ _ _ => ⟨ys, d, rfl, rfl, by simp, by simp, by simp⟩
  | cons k ks ih =>
    intro ys d hnd hc hb
    have hk := hb k (by simp)
    have hkc := hc k (by simp)
    rw [List.nodup_cons] at hnd
    have hne : ∀ k' ∈ ks, k'.1 * cols + k'.2 ≠ k.1 * cols + k.2 := by
      intro k' hk' h
      obtain ⟨h1, h2⟩ := index_inj (hc k' (List.mem_cons_of_mem _ hk')) hkc h
      have : k' = k := Prod.ext h1 h2
      exact hnd.1 (this ▸ hk')
    have hget : d[k.1 * cols + k.2]? = some d[k.1 * cols + k.2] := List.getElem?_eq_getElem hk
    have hstep : point g u inp cols (ys, d) k = some (ys ++ [(g.qf inp (g.elements.getD k.1 0) k.2 d[k.1 * cols + k.2]).1],
        if u then d.set (k.1 * cols + k.2) (advance g inp k.1 k.2 d[k.1 * cols + k.2]) else d) := by
      unfold point
      rw [hget]
      rfl
    have hlen : (if u then d.set (k.1 * cols + k.2) (advance g inp k.1 k.2 d[k.1 * cols + k.2]) else d).length = d.length := by
      cases u <;> simp
    obtain ⟨ys', d', h1, h2, h3, h4, h5⟩ := ih (ys ++ [(g.qf inp (g.elements.getD k.1 0) k.2 d[k.1 * cols + k.2]).1])
      (if u then d.set (k.1 * cols + k.2) (advance g inp k.1 k.2 d[k.1 * cols + k.2]) else d) hnd.2
      (fun k' hk' => hc k' (List.mem_cons_of_mem _ hk')) (fun k' hk' => by rw [hlen]; exact hb k' (List.mem_cons_of_mem _ hk'))
    have hother : ∀ j, j ≠ k.1 * cols + k.2 →
        (if u then d.set (k.1 * cols + k.2) (advance g inp k.1 k.2 d[k.1 * cols + k.2]) else d)[j]? = d[j]? := by
      intro j hj
      cases u
      · rfl
      · exact List.getElem?_set_ne (Ne.symm hj)
    refine ⟨ys', d', ?_, by rw [h2, hlen], ?_, ?_, ?_⟩
    · rw [List.foldlM_cons, hstep]
      exact h1
    · intro k' hk'
      rcases List.mem_cons.1 hk' with rfl | hk'
      · rw [h4 _ (fun k'' hk'' => (hne k'' hk'').symm), hget]
        cases u
        · simp [hget]
        · simp [hk]
      · rw [h3 k' hk', hother _ (hne k' hk')]
    · intro j hj
      rw [h4 j (fun k' hk' => hj k' (List.mem_cons_of_mem _ hk')), hother j (hj k (by simp))]
    · rw [h5, List.map_append, List.append_assoc, List.map_cons (l := ks), hget]
      congr 1
      simp only [List.map_cons, List.map_nil, Option.map_some, List.cons_append, List.nil_append]
      congr 1
      apply List.map_congr_left
      intro k' hk'
      rw [hother _ (hne k' hk')]

/-- The results an integral should return: from the states stored before the call. -/
def results (g : Integral S I Y) (inp : I) (b : Buffer S) : List (Option Y) :=
  (loops g.elements.length g.points).map fun k => (entry b k.1 k.2).map fun s => (g.qf inp (g.elements.getD k.1 0) k.2 s).1

theorem evalIntegral_fits (g : Integral S I Y) (u : Bool) (inp : I) (b : Buffer S) (h : Fits g b) : ∃ ys b', evalIntegral g u inp b = some (ys, b') ∧
    Fits g b' ∧ b'.cols = b.cols ∧ b'.rows = b.rows ∧ b'.data.length = b.data.length ∧ ys.map some = results g inp b ∧
    (∀ e q, e < g.elements.length → entry b' e q = (entry b e q).map fun s => if u then advance g inp e q s else s) ∧
    (∀ e q, g.elements.length ≤ e → entry b' e q = entry b e q) := by
  obtain ⟨h0, h1, h2⟩ := h
  have hb : ∀ k ∈ loops g.elements.length g.points, k.1 * b.cols + k.2 < b.data.length := by
    intro k hk
    obtain ⟨hk1, hk2⟩ := mem_loops.1 hk
    rw [h0]
    calc k.1 * b.cols + k.2 < k.1 * b.cols + b.cols := by omega
      _ = (k.1 + 1) * b.cols := by ring
      _ ≤ b.rows * b.cols := Nat.mul_le_mul_right _ (by omega)
  obtain ⟨ys', d', e1, e2, e3, e4, e5⟩ := pass g u inp b.cols (loops g.elements.length g.points) [] b.data (nodup_loops _ _)
    (fun k hk => h1 ▸ (mem_loops.1 hk).2) hb
  refine ⟨ys', { b with data := d' }, ?_, ⟨by rw [← h0]; exact e2, h1, h2⟩, rfl, rfl, e2, ?_, ?_, ?_⟩
  · unfold evalIntegral
    rw [e1]
    rfl
  · rw [e5, results, List.map_nil, List.nil_append]
    apply List.map_congr_left
    intro k hk
    rw [entry, if_pos (h1 ▸ (mem_loops.1 hk).2)]
  · intro e q he
    unfold entry
    by_cases hq : q < b.cols
    · rw [if_pos hq, if_pos hq]
      exact e3 (e, q) (mem_loops.2 ⟨he, h1 ▸ hq⟩)
    · rw [if_neg hq, if_neg hq]
      rfl
  · intro e q he
    unfold entry
    by_cases hq : q < b.cols
    · rw [if_pos hq, if_pos hq]
      apply e4
      intro k hk h
      obtain ⟨hk1, hk2⟩ := mem_loops.1 hk
      obtain ⟨h3, -⟩ := index_inj hq (h1 ▸ hk2) h
      omega
    · rw [if_neg hq, if_neg hq]

/-- Separate buffers that fit. -/
def Separate (gs : List (Integral S I Y)) (bufs : List (Buffer S)) : Prop :=
  (gs.map (·.buffer)).Nodup ∧ ∀ g ∈ gs, ∃ b, bufs[g.buffer]? = some b ∧ Fits g b

/-- **C41, one evaluation.**  With separate buffers that fit, an evaluation is defined; every integral's results are those of the stored states; states
are changed only if the update flag is set, and then each to the material's update of itself; buffers of no integral keep their contents. -/
theorem C41_evaluate (gs : List (Integral S I Y)) (u : Bool) (inp : I) (bufs : List (Buffer S)) (h : Separate gs bufs) :
    ∃ yss bufs', evaluate gs u inp bufs = some (yss, bufs') ∧ bufs'.length = bufs.length ∧ Separate gs bufs' ∧
      (∀ (i : ℕ) (g : Integral S I Y), gs[i]? = some g → ∀ b, bufs[g.buffer]? = some b → ∃ b' ys, bufs'[g.buffer]? = some b' ∧ yss[i]? = some ys ∧
        ys.map some = results g inp b ∧
        (∀ e q, e < g.elements.length → entry b' e q = (entry b e q).map fun s => if u then advance g inp e q s else s) ∧
        (∀ e q, g.elements.length ≤ e → entry b' e q = entry b e q)) ∧
      (∀ j, (∀ g ∈ gs, g.buffer ≠ j) → bufs'[j]? = bufs[j]?) := by
  have key : ∀ (gs : List (Integral S I Y)) (yss : List (List Y)) (bufs : List (Buffer S)), Separate gs bufs → ∃ yss' bufs',
      gs.foldlM (fun acc g => match acc.2[g.buffer]? with
        | none => none
        | some b => (evalIntegral g u inp b).map fun r => (acc.1 ++ [r.1], acc.2.set g.buffer r.2)) (yss, bufs) = some (yss ++ yss', bufs') ∧
      bufs'.length = bufs.length ∧
      (∀ (i : ℕ) (g : Integral S I Y), gs[i]? = some g → ∀ b, bufs[g.buffer]? = some b → ∃ b' ys, bufs'[g.buffer]? = some b' ∧ yss'[i]? = some ys ∧
        Fits g b' ∧ ys.map some = results g inp b ∧
        (∀ e q, e < g.elements.length → entry b' e q = (entry b e q).map fun s => if u then advance g inp e q s else s) ∧
        (∀ e q, g.elements.length ≤ e → entry b' e q = entry b e q)) ∧
      (∀ j, (∀ g ∈ gs, g.buffer ≠ j) → bufs'[j]? = bufs[j]?) := by
    intro gs
    induction gs with
    | nil => exact fun yss bufs _ => ⟨[], bufs, by simp, rfl, by simp, by simp⟩
    | cons g gs ih =>
      intro yss bufs ⟨hnd, hf⟩
      obtain ⟨b, hb, hfit⟩ := hf g (by simp)
      obtain ⟨ys, b', e1, e2, -, -, -, e6, e7, e8⟩ := evalIntegral_fits g u inp b hfit
      rw [List.map_cons, List.nodup_cons] at hnd
      have hne : ∀ g' ∈ gs, g'.buffer ≠ g.buffer := fun g' hg' h => hnd.1 (h ▸ List.mem_map_of_mem hg')
      have hset : ∀ g' ∈ gs, (bufs.set g.buffer b')[g'.buffer]? = bufs[g'.buffer]? := fun g' hg' => List.getElem?_set_ne (Ne.symm (hne g' hg'))
      obtain ⟨yss', bufs', f1, f2, f3, f4⟩ := ih (yss ++ [ys]) (bufs.set g.buffer b')
        ⟨hnd.2, fun g' hg' => by rw [hset g' hg']; exact hf g' (List.mem_cons_of_mem _ hg')⟩
      have hlt : g.buffer < bufs.length := (List.getElem?_eq_some_iff.1 hb).1
      refine ⟨ys :: yss', bufs', ?_, by rw [f2, List.length_set], ?_, ?_⟩
      · rw [List.foldlM_cons]
        have : (match bufs[g.buffer]? with
          | none => none
          | some b => (evalIntegral g u inp b).map fun r => (yss ++ [r.1], bufs.set g.buffer r.2)) = some (yss ++ [ys], bufs.set g.buffer b') := by
          rw [hb]
          simp only [e1, Option.map_some]
        simp only [this]
        rw [show yss ++ ys :: yss' = yss ++ [ys] ++ yss' by simp]
        exact f1
      · intro i g' hg' c hc
        cases i with
        | zero =>
          simp only [List.getElem?_cons_zero, Option.some.injEq] at hg'
          subst hg'
          rw [hb] at hc
          cases hc
          refine ⟨b', ys, ?_, by simp, e2, e6, e7, e8⟩
          rw [f4 _ (fun g' hg' => hne g' hg')]
          simp [hlt]
        | succ i =>
          rw [List.getElem?_cons_succ] at hg'
          have hm : g' ∈ gs := List.mem_of_getElem? hg'
          obtain ⟨b'', ys'', k1, k2, k3⟩ := f3 i g' hg' c (by rw [hset g' hm]; exact hc)
          exact ⟨b'', ys'', k1, by simpa using k2, k3⟩
      · intro j hj
        rw [f4 j (fun g' hg' => hj g' (List.mem_cons_of_mem _ hg'))]
        exact List.getElem?_set_ne (hj g (by simp))
  obtain ⟨yss, bufs', h1, h2, h3, h4⟩ := key gs [] bufs h
  refine ⟨yss, bufs', (List.nil_append yss ▸ h1 :), h2, ⟨h.1, ?_⟩, ?_, h4⟩
  · intro g hg
    obtain ⟨i, hi⟩ := List.mem_iff_getElem?.1 hg
    obtain ⟨b, hb, -⟩ := h.2 g hg
    obtain ⟨b', ys, k1, -, k3, -⟩ := h3 i g hi b hb
    exact ⟨b', k1, k3⟩
  · intro i g hg b hb
    obtain ⟨b', ys, k1, k2, -, k4⟩ := h3 i g hg b hb
    exact ⟨b', ys, k1, k2, k4⟩

theorem point_false (g : Integral S I Y) (inp : I) (cols : ℕ) (ks : List (ℕ × ℕ)) (acc r : List Y × List S)
    (h : ks.foldlM (point g false inp cols) acc = some r) : r.2 = acc.2 := by
  induction ks generalizing acc with
  | nil => cases h; rfl
  | cons k ks ih =>
    rw [List.foldlM_cons] at h
    cases hp : point g false inp cols acc k with
    | none => rw [hp] at h; cases h
    | some a =>
      rw [hp] at h
      have := ih a h
      rw [this]
      unfold point at hp
      cases hd : acc.2[k.1 * cols + k.2]? with
      | none => rw [hd] at hp; cases hp
      | some s =>
        rw [hd] at hp
        cases hp
        rfl

/-- **C41, evaluations are pure**: without the update flag, whatever the integrals and buffers (shared, of any shape), an evaluation that is defined
leaves all states as they are. -/
theorem C41_pure (gs : List (Integral S I Y)) (inp : I) (bufs : List (Buffer S)) (yss : List (List Y)) (bufs' : List (Buffer S))
    (h : evaluate gs false inp bufs = some (yss, bufs')) : bufs' = bufs := by
  unfold evaluate at h
  have key : ∀ (gs : List (Integral S I Y)) (acc r : List (List Y) × List (Buffer S)), gs.foldlM (fun acc g => match acc.2[g.buffer]? with
        | none => none
        | some b => (evalIntegral g false inp b).map fun r => (acc.1 ++ [r.1], acc.2.set g.buffer r.2)) acc = some r → r.2 = acc.2 := by
    intro gs
    induction gs with
    | nil => intro acc r h; cases h; rfl
    | cons g gs ih =>
      intro acc r h
      rw [List.foldlM_cons] at h
      cases hb : acc.2[g.buffer]? with
      | none => simp only [hb] at h; cases h
      | some b =>
        simp only [hb] at h
        cases he : evalIntegral g false inp b with
        | none => rw [he] at h; cases h
        | some q =>
          rw [he] at h
          have h1 := ih _ _ h
          rw [h1]
          have hq : q.2 = b := by
            unfold evalIntegral at he
            cases hf : (loops g.elements.length g.points).foldlM (point g false inp b.cols) ([], b.data) with
            | none => rw [hf] at he; cases he
            | some w =>
              rw [hf] at he
              have := point_false g inp b.cols _ _ _ hf
              cases he
              change ({ b with data := w.2 } : Buffer S) = b
              rw [this]
          change acc.2.set g.buffer q.2 = acc.2
          rw [hq]
          obtain ⟨hlt, he'⟩ := List.getElem?_eq_some_iff.1 hb
          rw [← he']
          exact List.set_getElem_self hlt
  exact key gs _ _ h

/-- The steps that were completed, with their inputs. -/
def stepInputs : List (Op I) → List I
  | [] => []
  | .endStep inp :: ops => inp :: stepInputs ops
  | .evaluate _ :: ops => stepInputs ops
  | .reset :: ops => stepInputs ops

/-- **C41, history** (partial: separate buffers that fit): after every run of a module the state of each point is the material's update of its initial
state by the inputs at the ends of the steps. -/
theorem C41_history_partial (gs : List (Integral S I Y)) (bufs : List (Buffer S)) (h : Separate gs bufs) (ops : List (Op I)) :
    ∃ bufs', run gs bufs ops = some bufs' ∧ Separate gs bufs' ∧ ∀ g ∈ gs, ∀ b, bufs[g.buffer]? = some b → ∃ b', bufs'[g.buffer]? = some b' ∧
      ∀ e q, e < g.elements.length → entry b' e q = (entry b e q).map fun s => (stepInputs ops).foldl (fun s inp => advance g inp e q s) s := by
  induction ops generalizing bufs with
  | nil => exact ⟨bufs, rfl, h, fun g _ b hb => ⟨b, hb, fun e q _ => by simp [stepInputs]⟩⟩
  | cons o ops ih =>
    have hstep : ∀ u inp, ∃ bufs₁, (evaluate gs u inp bufs).map (·.2) = some bufs₁ ∧ Separate gs bufs₁ ∧ ∀ g ∈ gs, ∀ b, bufs[g.buffer]? = some b →
        ∃ b', bufs₁[g.buffer]? = some b' ∧ ∀ e q, e < g.elements.length → entry b' e q = (entry b e q).map fun s => if u then advance g inp e q s else s := by
      intro u inp
      obtain ⟨yss, bufs₁, h1, -, h3, h4, -⟩ := C41_evaluate gs u inp bufs h
      refine ⟨bufs₁, by rw [h1]; rfl, h3, ?_⟩
      intro g hg b hb
      obtain ⟨i, hi⟩ := List.mem_iff_getElem?.1 hg
      obtain ⟨b', ys, k1, -, -, k4, -⟩ := h4 i g hi b hb
      exact ⟨b', k1, k4⟩
    cases o with
    | evaluate inp =>
      obtain ⟨bufs₁, h1, h2, h3⟩ := hstep false inp
      obtain ⟨bufs', r1, r2, r3⟩ := ih bufs₁ h2
      refine ⟨bufs', ?_, r2, ?_⟩
      · unfold run at r1 ⊢
        rw [List.foldlM_cons, show step gs bufs (.evaluate inp) = some bufs₁ from h1]
        exact r1
      · intro g hg b hb
        obtain ⟨b₁, k1, k2⟩ := h3 g hg b hb
        obtain ⟨b', m1, m2⟩ := r3 g hg b₁ k1
        refine ⟨b', m1, fun e q he => ?_⟩
        rw [m2 e q he, k2 e q he]
        simp [stepInputs]
    | endStep inp =>
      obtain ⟨bufs₁, h1, h2, h3⟩ := hstep true inp
      obtain ⟨bufs', r1, r2, r3⟩ := ih bufs₁ h2
      refine ⟨bufs', ?_, r2, ?_⟩
      · unfold run at r1 ⊢
        rw [List.foldlM_cons, show step gs bufs (.endStep inp) = some bufs₁ from h1]
        exact r1
      · intro g hg b hb
        obtain ⟨b₁, k1, k2⟩ := h3 g hg b hb
        obtain ⟨b', m1, m2⟩ := r3 g hg b₁ k1
        refine ⟨b', m1, fun e q he => ?_⟩
        rw [m2 e q he, k2 e q he]
        simp [stepInputs, Function.comp_def]
    | reset =>
      obtain ⟨bufs', r1, r2, r3⟩ := ih bufs h
      exact ⟨bufs', r1, r2, r3⟩

/-- **C41, `resetStates`, refuted**: it leaves the material states of the previous run in place, so a second run starts from them. -/
theorem C41_reset_wrong (gs : List (Integral S I Y)) (bufs : List (Buffer S)) (ops : List (Op I)) :
    run gs bufs (ops ++ [.reset]) = run gs bufs ops := by
  unfold run
  rw [List.foldlM_append]
  cases h : List.foldlM (step gs) bufs ops with
  | none => rfl
  | some b => rfl

/-- **C41, order of parameters, refuted**: if the integral's rule has more points than the buffer has columns, an evaluation over the whole (non-empty)
mesh accesses memory past the end of the buffer. -/
theorem C41_order_wrong (g : Integral S I Y) (u : Bool) (inp : I) (b : Buffer S) (hl : b.data.length = b.rows * b.cols) (hn : g.elements.length = b.rows)
    (h0 : 0 < b.rows) (hp : b.cols < g.points) : evalIntegral g u inp b = none := by
  have hlen : ∀ (ks : List (ℕ × ℕ)) (acc r : List Y × List S), ks.foldlM (point g u inp b.cols) acc = some r →
      r.2.length = acc.2.length ∧ ∀ k ∈ ks, k.1 * b.cols + k.2 < acc.2.length := by
    intro ks
    induction ks with
    | nil => intro acc r h; cases h; exact ⟨rfl, by simp⟩
    | cons k ks ih =>
      intro acc r h
      rw [List.foldlM_cons] at h
      cases hp : point g u inp b.cols acc k with
      | none => rw [hp] at h; cases h
      | some a =>
        rw [hp] at h
        obtain ⟨h1, h2⟩ := ih a r h
        unfold point at hp
        cases hd : acc.2[k.1 * b.cols + k.2]? with
        | none => rw [hd] at hp; cases hp
        | some s =>
          rw [hd] at hp
          have ha : a.2.length = acc.2.length := by
            cases hp
            cases u <;> simp
          rw [ha] at h1 h2
          refine ⟨h1, ?_⟩
          intro k' hk'
          rcases List.mem_cons.1 hk' with rfl | hk'
          · exact (List.getElem?_eq_some_iff.1 hd).1
          · exact h2 k' hk'
  unfold evalIntegral
  cases hf : (loops g.elements.length g.points).foldlM (point g u inp b.cols) ([], b.data) with
  | none => rfl
  | some r =>
    exfalso
    have := (hlen _ _ _ hf).2 (b.rows - 1, b.cols) (mem_loops.2 ⟨by omega, hp⟩)
    simp only at this
    rw [hl] at this
    have e : (b.rows - 1) * b.cols + b.cols = b.rows * b.cols := by
      rw [← Nat.succ_mul]
      congr 1
      omega
    omega

/-- **C41, when that happens**: exactly if one of the fields has a higher order than the module. -/
theorem C41_order (order : ℕ) (trials : List ℕ) : bufferQ order < functionalQ order trials ↔ ∃ p ∈ trials, order < p := by
  unfold bufferQ functionalQ
  have h : ∀ (l : List ℕ) (a : ℕ), order < l.foldl max a ↔ order < a ∨ ∃ p ∈ l, order < p := by
    intro l
    induction l with
    | nil => simp
    | cons x l ih =>
      intro a
      rw [List.foldl_cons, ih]
      simp only [lt_max_iff, List.mem_cons, exists_eq_or_imp]
      tauto
  rw [Nat.add_lt_add_iff_right, h]
  simp

/-- **C41, shared buffer, refuted**: if two integrals over disjoint parts of the mesh use one buffer that fits both, the state of the first element of the
first part is updated by both materials in turn. -/
theorem C41_shared_wrong (g₁ g₂ : Integral S I Y) (b : Buffer S) (inp : I) (h₁ : Fits g₁ b) (h₂ : Fits g₂ b) (hb₁ : g₁.buffer = 0) (hb₂ : g₂.buffer = 0)
    (n₁ : 0 < g₁.elements.length) (n₂ : 0 < g₂.elements.length) : ∃ yss b', evaluate [g₁, g₂] true inp [b] = some (yss, [b']) ∧
      ∀ q, entry b' 0 q = (entry b 0 q).map fun s => advance g₂ inp 0 q (advance g₁ inp 0 q s) := by
  obtain ⟨ys₁, b₁, e1, f1, c1, r1, l1, -, k1, -⟩ := evalIntegral_fits g₁ true inp b h₁
  have h₂' : Fits g₂ b₁ := ⟨by rw [l1, r1, c1]; exact h₂.1, by rw [c1]; exact h₂.2.1, by rw [r1]; exact h₂.2.2⟩
  obtain ⟨ys₂, b₂, e2, -, -, -, -, -, k2, -⟩ := evalIntegral_fits g₂ true inp b₁ h₂'
  refine ⟨[ys₁, ys₂], b₂, ?_, ?_⟩
  · unfold evaluate
    simp [List.foldlM_cons, hb₁, hb₂, e1, e2]
  · intro q
    rw [k2 0 q n₂, k1 0 q n₁]
    simp [Function.comp_def]

/-! ### Examples -/

/-- A material that counts: the state accumulates the input. -/
private def counter (elements : List ℕ) (buffer : ℕ) (a : ℤ) : Integral ℤ ℤ ℤ := ⟨elements, 2, buffer, fun inp _ _ s => (s + inp, s + a * inp)⟩

example : Separate [counter [0, 2] 0 1, counter [1] 1 10] [Buffer.filled 3 2 (0 : ℤ), Buffer.filled 3 2 0] := by
  refine ⟨by decide, ?_⟩
  intro g hg
  simp only [List.mem_cons, List.not_mem_nil, or_false] at hg
  rcases hg with rfl | rfl
  · exact ⟨_, rfl, by decide, rfl, by decide⟩
  · exact ⟨_, rfl, by decide, rfl, by decide⟩

example : (run [counter [0, 2] 0 1, counter [1] 1 10] [Buffer.filled 3 2 (0 : ℤ), Buffer.filled 3 2 0] [.evaluate 7, .endStep 1, .evaluate 3, .endStep 2]).map
    (fun bs => bs.map (·.data)) = some [[3, 3, 3, 3, 0, 0], [30, 30, 0, 0, 0, 0]] := by decide

/-- Shared: element 0 and element 1 both end with the sum of both materials' increments. -/
example : (run [counter [0, 2] 0 1, counter [1] 0 10] [Buffer.filled 3 2 (0 : ℤ)] [.endStep 1]).map (fun bs => bs.map (·.data)) =
    some [[11, 11, 1, 1, 0, 0]] := by decide

end Serac.C41
