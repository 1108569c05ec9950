import Verif.Model.PetscSolvers
import Mathlib.Tactic.Ring
import Mathlib.Tactic.Linarith
import Mathlib.Tactic.NormNum
import Mathlib.Tactic.FieldSimp
import Mathlib.Tactic.FinCases
import Mathlib.Analysis.Real.Sqrt
/-!
# C76: PETSc's solvers get the right step and the right matrix

Spec.  Before a step is tried, it is halved until the residual after the step consists of numbers, within the allowed number of halvings and above the smallest step
length; a step that needs no halving is left alone (`Accept`).  A PETSc preconditioner is built from a matrix in the format AIJ with the values of the operator, a
foreign one from the operator itself.  The options `wrap_op` and `min_iterations` do what they say.
-/

namespace Serac.C76
open Serac.Petsc

/-! ## Back-off -/

theorem fold_some (l : List Scalar) : (∃ v, l.foldr Scalar.add (some 0) = some v) ↔ ∀ a ∈ l, a ≠ none := by
  induction l with
  | nil => simp
  | cons a l ih =>
    rw [List.foldr_cons]
    constructor
    · rintro ⟨v, hv⟩ b hb
      cases a with
      | none => simp [Scalar.add] at hv
      | some x =>
        cases hl : l.foldr Scalar.add (some 0) with
        | none => rw [hl] at hv; simp [Scalar.add] at hv
        | some y =>
          rcases List.mem_cons.1 hb with rfl | hb
          · simp
          · exact ih.1 ⟨y, hl⟩ b hb
    · intro h
      obtain ⟨v, hv⟩ := ih.2 fun b hb => h b (List.mem_cons_of_mem _ hb)
      cases a with
      | none => exact absurd rfl (h none List.mem_cons_self)
      | some x => exact ⟨x + v, by rw [hv]; rfl⟩

/-- **C76, what is checked.**  However the entries are distributed over ranks, the product is a number exactly if every entry of the residual is one, whatever the
step.  So all ranks take the same branch, and none of them overlooks an infinity of another one. -/
theorem C76_finite {n : ℕ} (ranks : List (List (Fin n))) (hr : ∀ i, ∃ r ∈ ranks, i ∈ r) (F : Fin n → Scalar) (Y : Fin n → ℝ) :
    (∃ v, dot ranks F Y = some v) ↔ ∀ i, F i ≠ none := by
  unfold dot
  rw [fold_some]
  constructor
  · intro h i
    obtain ⟨r, hr, hi⟩ := hr i
    have h1 := h _ (List.mem_map_of_mem hr)
    obtain ⟨v, hv⟩ := Option.ne_none_iff_exists'.1 h1
    have h2 := (fold_some _).1 ⟨v, hv⟩ _ (List.mem_map_of_mem hi)
    intro h0
    rw [h0] at h2
    exact h2 rfl
  · intro h a ha
    obtain ⟨r, -, rfl⟩ := List.mem_map.1 ha
    refine Option.ne_none_iff_exists'.2 ((fold_some _).2 fun b hb => ?_)
    obtain ⟨i, -, rfl⟩ := List.mem_map.1 hb
    obtain ⟨x, hx⟩ := Option.ne_none_iff_exists'.1 (h i)
    rw [hx]
    simp [Scalar.mul]

section Backoff
variable {n : ℕ} (L : Search n) (X Y : Fin n → ℝ)

/-- The step after `k` halvings. -/
noncomputable def halved (Y : Fin n → ℝ) (k : ℕ) : Fin n → ℝ := fun i => Y i / 2 ^ k

/-- The residual after the step consists of numbers. -/
def Works (Y : Fin n → ℝ) : Prop := ∀ i, L.func (L.trial X Y) i ≠ none

/-- The number of halvings: the first one that works, unless the failures are used up or the next halving would be too short. -/
structure Accept (k : ℕ) : Prop where
  allowed : k ≤ L.maxFailures.toNat
  before : ∀ j < k, ¬ Works L X (halved Y j) ∧ L.minLambda ≤ L.lambda / 2 ^ (j + 1)
  stop : k = L.maxFailures.toNat ∨ Works L X (halved Y k) ∨ L.lambda / 2 ^ (k + 1) < L.minLambda

variable {L X Y}

theorem halved_zero (Y : Fin n → ℝ) : halved Y 0 = Y := by
  funext i
  simp [halved]

theorem loop_spec (hr : ∀ i, ∃ r ∈ L.ranks, i ∈ r) : ∀ (m : ℕ) (lambda : ℝ) (Y : Fin n → ℝ) (c : Bool), ∃ k ≤ m,
    L.loop X m lambda Y c = (halved Y k, c || decide (0 < k)) ∧ (∀ j < k, ¬ Works L X (halved Y j) ∧ L.minLambda ≤ lambda / 2 ^ (j + 1)) ∧
    (k = m ∨ Works L X (halved Y k) ∨ lambda / 2 ^ (k + 1) < L.minLambda) := by
  intro m
  induction m with
  | zero => exact fun lambda Y c => ⟨0, le_refl _, by simp [Search.loop, halved_zero], by simp, .inl rfl⟩
  | succ m ih =>
    intro lambda Y c
    have h0 : halved Y 0 = Y := by funext i; simp [halved]
    have hw : Works L X Y ↔ ∃ v, L.check X Y = some v := (C76_finite L.ranks hr _ _).symm
    cases hc : L.check X Y with
    | some v => exact ⟨0, Nat.zero_le _, by simp [Search.loop, hc, h0], by simp, .inr (.inl (by rw [h0]; exact hw.2 ⟨v, hc⟩))⟩
    | none =>
      have hn : ¬ Works L X Y := fun h => by
        obtain ⟨v, hv⟩ := hw.1 h
        rw [hc] at hv
        cases hv
      by_cases hs : lambda * (1 / 2) < L.minLambda
      · refine ⟨0, Nat.zero_le _, ?_, by simp, .inr (.inr ?_)⟩
        · simp only [Search.loop, hc, if_pos hs, h0]
          simp
        · rw [zero_add, pow_one]
          linarith
      · obtain ⟨k, hk, he, hb, hst⟩ := ih (lambda * (1 / 2)) (fun i => Y i * (1 / 2)) true
        have hh : ∀ j, halved (fun i => Y i * (1 / 2)) j = halved Y (j + 1) := fun j => by
          funext i
          unfold halved
          rw [pow_succ]
          field_simp
        have hl : ∀ j, lambda * (1 / 2) / 2 ^ (j + 1) = lambda / 2 ^ (j + 1 + 1) := fun j => by
          rw [pow_succ 2 (j + 1)]
          field_simp
        refine ⟨k + 1, Nat.succ_le_succ hk, ?_, ?_, ?_⟩
        · simp only [Search.loop, hc, if_neg hs, he, hh]
          simp
        · intro j hj
          cases j with
          | zero => exact ⟨by rwa [h0], by rw [zero_add, pow_one]; linarith⟩
          | succ j =>
            have := hb j (by omega)
            rwa [hh, hl] at this
        · rw [hh, hl] at hst
          rcases hst with h | h
          · exact .inl (by omega)
          · exact .inr h

/-- **C76, back-off.**  The step is halved as `Accept` says, the flag tells whether it was. -/
theorem C76_backoff (hr : ∀ i, ∃ r ∈ L.ranks, i ∈ r) : ∃ k, Accept L X Y k ∧ L.preCheck X Y = (halved Y k, decide (0 < k)) := by
  obtain ⟨k, h1, h2, h3, h4⟩ := loop_spec (X := X) hr L.maxFailures.toNat L.lambda Y false
  exact ⟨k, ⟨h1, h3, h4⟩, by simpa [Search.preCheck] using h2⟩

/-- `Accept` leaves no choice. -/
theorem C76_unique {k k' : ℕ} (h : Accept L X Y k) (h' : Accept L X Y k') : k = k' := by
  rcases lt_trichotomy k k' with hl | hl | hl
  · rcases h.stop with h1 | h1 | h1
    · have := h'.allowed; omega
    · exact absurd h1 (h'.before k hl).1
    · exact absurd (h'.before k hl).2 (not_le.2 h1)
  · exact hl
  · rcases h'.stop with h1 | h1 | h1
    · have := h.allowed; omega
    · exact absurd h1 (h.before k' hl).1
    · exact absurd (h.before k' hl).2 (not_le.2 h1)

/-- **C76, harmless.**  A step that works is not touched, and neither is any step with `-snes_max_fail 0`. -/
theorem C76_untouched (hr : ∀ i, ∃ r ∈ L.ranks, i ∈ r) (h : Works L X Y ∨ L.maxFailures ≤ 0) : L.preCheck X Y = (Y, false) := by
  obtain ⟨k, hk, he⟩ := C76_backoff (L := L) (X := X) (Y := Y) hr
  have h0 : k = 0 := by
    rcases h with h | h
    · by_contra hne
      refine (hk.before 0 (Nat.pos_of_ne_zero hne)).1 ?_
      rwa [show halved Y 0 = Y by funext i; simp [halved]]
    · have := hk.allowed
      omega
  subst h0
  rw [he]
  simp [halved_zero]

/-- **C76, recovery.**  If one of the halved steps within the allowed number works and is long enough, the step that is returned works, and it is the longest. -/
theorem C76_recovers (hr : ∀ i, ∃ r ∈ L.ranks, i ∈ r) (hl : 0 ≤ L.lambda) (j : ℕ) (hj : j < L.maxFailures.toNat) (hw : Works L X (halved Y j))
    (hm : j = 0 ∨ L.minLambda ≤ L.lambda / 2 ^ j) : ∃ k ≤ j, L.preCheck X Y = (halved Y k, decide (0 < k)) ∧ Works L X (halved Y k) ∧ ∀ i < k, ¬ Works L X (halved Y i) := by
  obtain ⟨k, hk, he⟩ := C76_backoff (L := L) (X := X) (Y := Y) hr
  have hkj : k ≤ j := by
    by_contra hlt
    exact (hk.before j (by omega)).1 hw
  refine ⟨k, hkj, he, ?_, fun i hi => (hk.before i hi).1⟩
  rcases hk.stop with h | h | h
  · omega
  · exact h
  · rcases eq_or_lt_of_le hkj with rfl | hlt
    · exact hw
    · exfalso
      have h1 : L.lambda / 2 ^ j ≤ L.lambda / 2 ^ (k + 1) :=
        div_le_div_of_nonneg_left hl (by positivity) (pow_le_pow_right₀ (by norm_num) (by omega))
      rcases hm with rfl | hm
      · omega
      · linarith

end Backoff

/-! ## PETSc preconditioners -/

section Pre
variable {V : Type} (kind : ℕ → Kind)

/-- Spec: the operator is a matrix of the user.  If its format is not AIJ, the preconditioner works with the values it has at the first solve after it was set. -/
structure Spec (V : Type) where
  vals : ℕ → V
  last : Option ℕ
  frozen : Option V

def Spec.seen (s : Spec V) (i : ℕ) : V := if (kind i).hasAij then s.vals i else s.frozen.getD (s.vals i)

def Spec.run : List (PCOp V) → Spec V → Option (List V)
  | [], _ => some []
  | .assemble i v :: os, s => Spec.run os { s with vals := fun j => if j = i then v else s.vals j }
  | .set i :: os, s => Spec.run os { s with last := some i, frozen := none }
  | .presolve :: os, s => match s.last with
    | none => none
    | some i => (Spec.run os { s with frozen := some (s.seen kind i) }).map (s.seen kind i :: ·)

/-- The state of the code and of the spec belong together. -/
def Rel (s : PC V) (t : Spec V) : Prop := s.vals = t.vals ∧ (s.checked = true → s.cached.isSome = true) ∧ (t.last = none → s.op = none) ∧
  ∀ i, t.last = some i → match t.frozen with
    | none => s.op = some (.user i)
    | some v => if (kind i).hasAij then s.op = some (.user i) else s.op = some (.copy v)

theorem run_spec : ∀ (os : List (PCOp V)) (s : PC V) (t : Spec V), Rel kind s t →
    (PC.run kind os s).map (fun r => r.2.map Prod.snd) = Spec.run kind os t ∧ ∀ r, PC.run kind os s = some r → ∀ x ∈ r.2, x.1.hasAij = true := by
  intro os
  induction os with
  | nil => intro s t _; exact ⟨rfl, fun r hr x hx => by cases hr; cases hx⟩
  | cons o os ih =>
    intro s t h
    obtain ⟨hv, hc, hn, ho⟩ := h
    cases o with
    | assemble i v =>
      have := ih { s with vals := fun j => if j = i then v else s.vals j } { t with vals := fun j => if j = i then v else t.vals j } ⟨by rw [hv], hc, hn, ho⟩
      refine ⟨?_, fun r hr => ?_⟩
      · rw [Spec.run, ← this.1]
        dsimp only [PC.run, PC.step]
        cases PC.run kind os { s with vals := fun j => if j = i then v else s.vals j } <;> rfl
      · dsimp only [PC.run, PC.step] at hr
        cases hR : PC.run kind os { s with vals := fun j => if j = i then v else s.vals j } with
        | none => rw [hR] at hr; cases hr
        | some r' => rw [hR] at hr; cases hr; exact this.2 _ hR
    | set i =>
      have := ih { s with op := some (.user i) } { t with last := some i, frozen := none } ⟨hv, hc, by simp, by
        intro j hj
        cases hj
        rfl⟩
      refine ⟨?_, fun r hr => ?_⟩
      · rw [Spec.run, ← this.1]
        dsimp only [PC.run, PC.step]
        cases PC.run kind os { s with op := some (.user i) } <;> rfl
      · dsimp only [PC.run, PC.step] at hr
        cases hR : PC.run kind os { s with op := some (.user i) } with
        | none => rw [hR] at hr; cases hr
        | some r' => rw [hR] at hr; cases hr; exact this.2 _ hR
    | presolve =>
      cases hl : t.last with
      | none =>
        have h1 := hn hl
        refine ⟨?_, fun r hr => ?_⟩
        · simp [PC.run, PC.step, PC.presolve, h1, Spec.run, hl]
        · simp [PC.run, PC.step, PC.presolve, h1] at hr
      | some i =>
        have hcond : (!s.checked || s.cached.isSome) = true := by
          cases hk : s.checked with
          | false => rfl
          | true => rw [hc hk]; rfl
        have key : ∃ s' r, s.presolve kind = some s' ∧ s'.op = some r ∧ (r.kind kind).hasAij = true ∧ r.values s'.vals = t.seen kind i ∧
            Rel kind s' { t with frozen := some (t.seen kind i) } := by
          have h2 := ho i hl
          by_cases ha : (kind i).hasAij = true
          · have h3 : s.op = some (.user i) := by
              cases hf : t.frozen with
              | none => rw [hf] at h2; exact h2
              | some v => rw [hf] at h2; dsimp only at h2; rwa [if_pos ha] at h2
            refine ⟨s, .user i, ?_, h3, ha, ?_, hv, hc, ?_, ?_⟩
            · simp only [PC.presolve, h3, hcond, if_true, Ref.kind, ha]
            · simp [Ref.values, Spec.seen, ha, hv]
            · intro hno; exact absurd (hno.symm.trans hl) (by simp)
            · intro j hj
              have : j = i := by have := hj.symm.trans hl; simpa using this
              subst this
              simp only [ha, if_true]
              exact h3
          · cases hf : t.frozen with
            | none =>
              rw [hf] at h2
              refine ⟨{ s with cached := some (s.vals i), op := some (.copy (s.vals i)), checked := true }, .copy (s.vals i), ?_, rfl, rfl, ?_, ?_⟩
              · simp only [PC.presolve, h2, hcond, if_true, Ref.kind, ha, Ref.values, Bool.false_eq_true, if_false]
              · simp [Ref.values, Spec.seen, ha, hf, hv]
              · refine ⟨hv, fun _ => rfl, fun hno => absurd (hno.symm.trans hl) (by simp), fun j hj => ?_⟩
                have : j = i := by have := hj.symm.trans hl; simpa using this
                subst this
                simp only [ha, Bool.false_eq_true, if_false, Spec.seen, hf, Option.getD_none, hv]
            | some v =>
              rw [hf] at h2
              simp only [ha, Bool.false_eq_true, if_false] at h2
              refine ⟨s, .copy v, ?_, h2, rfl, ?_, hv, hc, ?_, ?_⟩
              · simp only [PC.presolve, h2, hcond, if_true, Ref.kind, Kind.hasAij]
              · simp [Ref.values, Spec.seen, ha, hf]
              · intro hno; exact absurd (hno.symm.trans hl) (by simp)
              · intro j hj
                have : j = i := by have := hj.symm.trans hl; simpa using this
                subst this
                simp only [ha, Bool.false_eq_true, if_false, Spec.seen, hf, Option.getD_some]
                exact h2
        obtain ⟨s', r, e1, e2, e3, e4, e5⟩ := key
        have hi := ih s' _ e5
        refine ⟨?_, fun R hR => ?_⟩
        · rw [Spec.run, hl]
          rw [hl] at hi
          dsimp only
          rw [← hi.1]
          dsimp only [PC.run, PC.step]
          rw [e1]
          dsimp only
          cases hrun : PC.run kind os s' with
          | none => rfl
          | some R =>
            obtain ⟨a, b⟩ := R
            dsimp only
            rw [e2]
            simp [e4]
        · dsimp only [PC.run, PC.step] at hR
          rw [e1] at hR
          dsimp only at hR
          cases hrun : PC.run kind os s' with
          | none => rw [hrun] at hR; cases hR
          | some R' =>
            obtain ⟨a, b⟩ := R'
            rw [hrun] at hR
            dsimp only at hR
            rw [e2] at hR
            cases hR
            intro x hx
            rcases List.mem_cons.1 hx with rfl | hx
            · exact e3
            · exact hi.2 _ hrun x hx

/-- **C76, PETSc preconditioners.**  In every program the preconditioner is built from a matrix whose format is one of AIJ, with the values that `Spec` says; the flag
that should save checks never suppresses a conversion. -/
theorem C76_pc (vals : ℕ → V) (os : List (PCOp V)) :
    (PC.run kind os (PC.init vals)).map (fun r => r.2.map Prod.snd) = Spec.run kind os ⟨vals, none, none⟩ ∧
    ∀ r, PC.run kind os (PC.init vals) = some r → ∀ x ∈ r.2, x.1.hasAij = true :=
  run_spec kind os _ _ ⟨rfl, by simp [PC.init], fun _ => rfl, by simp⟩

/-- Programs that set the operator again after they changed its values, if it has to be converted. -/
def Careful : Option ℕ → Bool → List (PCOp V) → Prop
  | _, _, [] => True
  | last, used, .assemble i _ :: os => (last = some i → used = true → (kind i).hasAij = true) ∧ Careful last used os
  | _, _, .set i :: os => Careful (some i) false os
  | last, _, .presolve :: os => Careful last true os

/-- What a user expects: every solve uses the values the operator has at that time. -/
def current : List (PCOp V) → (ℕ → V) → Option ℕ → Option (List V)
  | [], _, _ => some []
  | .assemble i v :: os, vals, last => current os (fun j => if j = i then v else vals j) last
  | .set i :: os, vals, _ => current os vals (some i)
  | .presolve :: os, vals, last => match last with
    | none => none
    | some i => (current os vals (some i)).map (vals i :: ·)

theorem careful_spec : ∀ (os : List (PCOp V)) (t : Spec V), Careful kind t.last t.frozen.isSome os → (∀ i v, t.last = some i → t.frozen = some v → v = t.vals i ∨ (kind i).hasAij = true) →
    Spec.run kind os t = current os t.vals t.last := by
  intro os
  induction os with
  | nil => intro t _ _; rfl
  | cons o os ih =>
    intro t hc hi
    cases o with
    | assemble i v =>
      rw [Spec.run, current]
      refine ih { t with vals := fun j => if j = i then v else t.vals j } hc.2 ?_
      intro j w hj hw
      rcases hi j w hj hw with h | h
      · by_cases hij : j = i
        · subst hij
          exact .inr (hc.1 hj (by rw [show t.frozen = some w from hw]; rfl))
        · exact .inl (by simp [hij, h])
      · exact .inr h
    | set i => exact ih { t with last := some i, frozen := none } hc (by simp)
    | presolve =>
      rw [Spec.run]
      cases hl : t.last with
      | none => rfl
      | some i =>
        have hs : t.seen kind i = t.vals i := by
          unfold Spec.seen
          split_ifs with ha
          · rfl
          · cases hf : t.frozen with
            | none => rfl
            | some v => exact (hi i v hl hf).resolve_right ha
        dsimp only [current]
        rw [hs, ← hl, ih { t with frozen := some (t.vals i) } (by dsimp only [Careful] at hc; exact hc) (by
          intro j w hj hw
          have : j = i := by have := hj.symm.trans hl; simpa using this
          subst this
          exact .inl (by simpa using hw.symm))]

/-- **C76, current values.**  If the operator is set again whenever its values changed (as a `SNES` does in each iteration), every solve uses the values that the operator
has at that time. -/
theorem C76_pc_current_partial (vals : ℕ → V) (os : List (PCOp V)) (h : Careful kind none false os) :
    (PC.run kind os (PC.init vals)).map (fun r => r.2.map Prod.snd) = current os vals none := by
  rw [(C76_pc kind vals os).1]
  exact careful_spec kind os ⟨vals, none, none⟩ h (by simp)

/-- **C76, in-place changes.**  Without it this fails exactly for matrices that are converted: PETSc notices changes of a matrix by itself, but not those of the
original of a copy. -/
theorem C76_pc_stale_wrong (vals : ℕ → V) (i : ℕ) (v : V) (hv : v ≠ vals i) :
    (PC.run kind [.set i, .presolve, .assemble i v, .presolve] (PC.init vals)).map (fun r => r.2.map Prod.snd) = current [.set i, .presolve, .assemble i v, .presolve] vals none ↔
      (kind i).hasAij = true := by
  rw [(C76_pc kind vals _).1]
  by_cases ha : (kind i).hasAij = true
  · simp [Spec.run, current, Spec.seen, ha]
  · simp [Spec.run, current, Spec.seen, ha, hv.symm]

end Pre

/-! ## Foreign preconditioners -/

section Foreign
variable {V : Type} (kind : ℕ → Kind)

/-- The operator seen by the first solve of a program. -/
def first : Option ℕ → List (KSPOp V) → Option ℕ
  | _, [] => none
  | A, .assemble _ _ :: os => first A os
  | _, .setOperators i :: os => first (some i) os
  | _, .setOperator i :: os => first (some i) os
  | A, .presolve :: _ => A

theorem ksp_checked : ∀ (os : List (KSPOp V)) (s s' : KSP V), KSP.run kind os s = some s' →
    (s.needs = true → s'.needs = true) ∧ (s.checked = true → s.needs = false → s'.checked = true ∧ s'.needs = false) := by
  intro os
  induction os with
  | nil => intro s s' h; cases h; exact ⟨id, fun a b => ⟨a, b⟩⟩
  | cons o os ih =>
    intro s s' h
    rw [KSP.run] at h
    cases hs : s.step kind o with
    | none => rw [hs] at h; cases h
    | some s1 =>
      rw [hs] at h
      have h1 := ih s1 s' h
      have : (s.needs = true → s1.needs = true) ∧ (s.checked = true → s.needs = false → s1.checked = true ∧ s1.needs = false) := by
        cases o with
        | assemble i v => cases hs; exact ⟨id, fun a b => ⟨a, b⟩⟩
        | setOperators i => cases hs; exact ⟨id, fun a b => ⟨a, b⟩⟩
        | setOperator i => cases hs; exact ⟨id, fun a b => ⟨a, b⟩⟩
        | presolve =>
          dsimp only [KSP.step, KSP.presolve] at hs
          cases hA : s.A with
          | none => rw [hA] at hs; cases hs
          | some i =>
            rw [hA] at hs
            dsimp only at hs
            split_ifs at hs with h2 h3
            · cases hs; exact ⟨id, fun _ b => ⟨rfl, b⟩⟩
            · cases hs
              refine ⟨fun _ => rfl, fun a b => ?_⟩
              rw [a, b] at h2
              exact absurd h2 (by simp)
            · cases hs; exact ⟨id, fun _ b => ⟨rfl, b⟩⟩
      exact ⟨fun h => h1.1 (this.1 h), fun a b => h1.2 (this.2 a b).1 (this.2 a b).2⟩

/-- After a program the wrapper is in use exactly if the first solve saw a hypre matrix. -/
theorem ksp_first : ∀ (os : List (KSPOp V)) (s s' : KSP V), s.checked = false → s.needs = false → KSP.run kind os s = some s' →
    (∀ i, first s.A os = some i → s'.checked = true ∧ (s'.needs = true ↔ kind i = .hypre) ∨ kind i = .hypre ∧ s'.needs = true) ∧
    (first s.A os = none → s'.checked = false ∧ s'.needs = false) := by
  intro os
  induction os with
  | nil => intro s s' hc hn h; cases h; exact ⟨by simp [first], fun _ => ⟨hc, hn⟩⟩
  | cons o os ih =>
    intro s s' hc hn h
    rw [KSP.run] at h
    cases o with
    | assemble i v => exact ih { s with vals := fun j => if j = i then v else s.vals j } s' hc hn h
    | setOperators i => exact ih { s with A := some i } s' hc hn h
    | setOperator i => exact ih { s with A := some i, prec := some (s.vals i) } s' hc hn h
    | presolve =>
      cases hA : s.A with
      | none =>
        dsimp only [KSP.step, KSP.presolve] at h
        rw [hA] at h
        cases h
      | some i =>
        dsimp only [KSP.step, KSP.presolve] at h
        rw [hA] at h
        dsimp only at h
        rw [hc] at h
        simp only [Bool.not_false, Bool.true_or, if_true] at h
        refine ⟨fun j hj => ?_, fun hno => by simp [first] at hno⟩
        have hij : j = i := by simpa [first] using hj.symm
        subst hij
        by_cases hk : kind j = .hypre
        · rw [if_neg (by simpa using hk)] at h
          exact .inr ⟨hk, (ksp_checked kind os _ s' h).1 rfl⟩
        · rw [if_pos hk] at h
          obtain ⟨a, b⟩ := (ksp_checked kind os _ s' h).2 rfl hn
          exact .inl ⟨a, by rw [b]; simp [hk]⟩

theorem run_append (os os' : List (KSPOp V)) (s : KSP V) : KSP.run kind (os ++ os') s = (KSP.run kind os s).bind (KSP.run kind os') := by
  induction os generalizing s with
  | nil => rfl
  | cons o os ih =>
    rw [List.cons_append, KSP.run, KSP.run]
    cases s.step kind o with
    | none => rfl
    | some s' => exact ih s'

/-- **C76, foreign preconditioners.**  If the first solve of a program works on a hypre matrix, then at every later solve with a hypre matrix the preconditioner is set
up with the values the matrix has at that time. -/
theorem C76_ksp_partial (vals : ℕ → V) (os : List (KSPOp V)) (s : KSP V) (h : KSP.run kind os (KSP.init vals) = some s) (i : ℕ) (hA : s.A = some i) (hk : kind i = .hypre)
    (hf : ∀ j, first none os = some j → kind j = .hypre) :
    ∃ s', KSP.run kind (os ++ [.presolve]) (KSP.init vals) = some s' ∧ s'.prec = some (s.vals i) := by
  have hcond : (!s.checked || s.needs) = true := by
    have h1 := ksp_first kind os (KSP.init vals) s rfl rfl h
    cases hj : first none os with
    | none => rw [(h1.2 hj).1]; rfl
    | some j =>
      rcases h1.1 j hj with ⟨-, h2⟩ | ⟨-, h2⟩
      · rw [h2.2 (hf j hj)]; simp
      · rw [h2]; simp
  rw [run_append, h]
  have hw : s.rewrap i = some i := by
    unfold KSP.rewrap
    split_ifs with h
    · rfl
    · exact not_not.1 h
  refine ⟨{ s with wrapped := some i, prec := some (s.vals i), needs := true, checked := true }, ?_, rfl⟩
  simp only [Option.bind_some, KSP.run, KSP.step, KSP.presolve, hA, hcond, if_true, hk, ne_eq, not_true_eq_false, if_false, hw, Option.map_some]

/-- **C76, a first operator in another format.**  If the first solve works on any other matrix, no solve ever hands a matrix to the preconditioner again: solving leaves
the preconditioner as it is, whatever hypre matrices are set. -/
theorem C76_ksp_wrong (vals : ℕ → V) (os : List (KSPOp V)) (s : KSP V) (h : KSP.run kind os (KSP.init vals) = some s) (j : ℕ) (hf : first none os = some j) (hk : kind j ≠ .hypre)
    (os' : List (KSPOp V)) (hos : ∀ o ∈ os', ∀ i, o ≠ .setOperator i) (s' : KSP V) (h' : KSP.run kind os' s = some s') : s'.prec = s.prec := by
  have h0 : s.checked = true ∧ s.needs = false := by
    rcases (ksp_first kind os (KSP.init vals) s rfl rfl h).1 j hf with ⟨a, b⟩ | ⟨a, -⟩
    · refine ⟨a, ?_⟩
      by_contra hn
      exact hk (b.1 (by simpa using hn))
    · exact absurd a hk
  clear h hf
  induction os' generalizing s with
  | nil => cases h'; rfl
  | cons o os' ih =>
    rw [KSP.run] at h'
    have hrest : ∀ o ∈ os', ∀ i, o ≠ .setOperator i := fun o ho => hos o (List.mem_cons_of_mem _ ho)
    cases o with
    | assemble i v => exact ih { s with vals := fun j => if j = i then v else s.vals j } hrest h' h0
    | setOperators i => exact ih { s with A := some i } hrest h' h0
    | setOperator i => exact absurd rfl (hos _ List.mem_cons_self i)
    | presolve =>
      dsimp only [KSP.step, KSP.presolve] at h'
      cases hA : s.A with
      | none => rw [hA] at h'; cases h'
      | some i =>
        rw [hA] at h'
        dsimp only at h'
        rw [h0.1, h0.2] at h'
        simp only [Bool.not_true, Bool.or_self, Bool.false_eq_true, if_false] at h'
        exact ih { s with A := some i, needs := false, checked := true } hrest h' ⟨rfl, rfl⟩

end Foreign

/-! ## Options -/

/-- **C76, formats.**  Without wrapping, a PETSc preconditioner gets a hypre or shell matrix only if the caller made it one; with wrapping, matrices of mfem are not copied. -/
theorem C76_format (petscPC : Bool) (g : Given) (hg : ∀ k, g ≠ .petsc k) :
    format false true g ≠ .hypre ∧ format false petscPC g ≠ .shell ∧ (g = .hypre ∨ g = .other → format true petscPC g = .shell) := by
  cases g <;> cases petscPC <;> simp [format] at hg ⊢

/-- **C76, `wrap_op`.**  The constructor from a communicator forgets it: such a solver copies a hypre matrix although it was asked to wrap it.  The others keep it. -/
theorem C76_wrap_wrong (petscPC : Bool) : format (Constructor.fromComm true).wrap petscPC .hypre ≠ .shell ∧ format (Constructor.fromComm true).wrap petscPC .other ≠ .shell := by
  cases petscPC <;> simp [format, Constructor.wrap]
theorem C76_wrap_partial (w petscPC : Bool) : (format (Constructor.fromHypre w).wrap petscPC .hypre = .shell ↔ w = true) := by
  cases w <;> cases petscPC <;> simp [format, Constructor.wrap]

/-- **C76, `min_iterations`.**  PETSc takes the number asked for exactly if it is at most one. -/
theorem C76_min_iterations_wrong (m : ℤ) : m ≤ forced m ↔ m ≤ 1 := by
  unfold forced
  split_ifs <;> omega

/-! ## Examples -/

section Examples

/-- The square root of `x - 1` next to a linear function, from `x = 5`: the full step leads to `-3`. -/
noncomputable def exSearch : Search 2 where
  ranks := [[1], [], [0]]
  func x i := if i = 0 then (if x 0 < 1 then none else some (Real.sqrt (x 0 - 1))) else some (x 1)
  project := none
  lambda := 1
  minLambda := 1 / 1000
  maxFailures := 5

example : ∃ k ≤ 1, exSearch.preCheck ![5, 0] ![8, 1] = (halved ![8, 1] k, decide (0 < k)) ∧ Works exSearch ![5, 0] (halved ![8, 1] k) ∧
    ∀ i < k, ¬ Works exSearch ![5, 0] (halved ![8, 1] i) := by
  refine C76_recovers (by intro i; fin_cases i <;> simp [exSearch]) (by simp [exSearch]) 1 (by simp [exSearch]) ?_ (.inr (by norm_num [exSearch]))
  intro i
  fin_cases i <;> simp [exSearch, Search.trial, halved]
  norm_num

example : ¬ Works exSearch ![5, 0] (halved ![8, 1] 0) := fun h => h 0 (by simp [exSearch, Search.trial, halved]; norm_num)

def exKind : ℕ → Kind := fun i => if i = 0 then .aij else .hypre

example : Careful (V := ℕ) exKind none false [.set 1, .presolve, .presolve, .assemble 0 3, .set 1, .presolve, .set 0, .presolve, .assemble 0 4, .presolve] := by
  simp [Careful, exKind, Kind.hasAij]

/-- Two solves, the first with an AIJ matrix: the preconditioner never sees the hypre matrix. -/
example : ∃ s, KSP.run exKind [.setOperators 0, .presolve] (KSP.init fun i => i) = some s ∧ s.prec = none ∧
    ∃ s', KSP.run exKind [.setOperators 1, .presolve, .assemble 1 7, .presolve] s = some s' ∧ s'.prec = none := by
  refine ⟨_, rfl, rfl, _, rfl, ?_⟩
  rfl

example : ∃ s', KSP.run exKind ([.setOperators 1, .presolve, .assemble 1 7] ++ [.presolve]) (KSP.init fun i => i) = some s' ∧ s'.prec = some 7 :=
  C76_ksp_partial exKind (fun i => i) [.setOperators 1, .presolve, .assemble 1 7] _ rfl 1 rfl rfl (by simp [first, exKind])

end Examples
end Serac.C76
