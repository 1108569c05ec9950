import Verif.Model.FunctionalCalls
import Mathlib.Analysis.Calculus.Deriv.Add
import Mathlib.Analysis.Calculus.Deriv.Mul
import Mathlib.Analysis.Calculus.Deriv.Comp
import Mathlib.Analysis.Calculus.FDeriv.Linear
import Mathlib.Analysis.Calculus.FDeriv.Comp
import Mathlib.Data.List.Nodup
import Mathlib.Data.Real.Basic
import Mathlib.Data.Fintype.Fin
import Mathlib.Tactic.FinCases
import Mathlib.Tactic.Linarith
/-!
# C52: what a gradient object means after any sequence of calls

Spec.  `residual` is the sum over the integrals of their values at the given arguments and material states.  The theorems say, for every sequence of calls:

* the vector returned by an evaluation is the residual, and stays so until the next evaluation;
* the gradient with respect to argument `w` is the derivative of the residual at the arguments, time and material state of the latest evaluation that
  differentiated with respect to `w`, whatever evaluations, gradient actions, flag changes came in between;
* before such an evaluation, using it is undefined exactly if some integral depends on `w`.
-/

namespace Serac.C52
open Serac.FnCalls

variable {Tm T L E Q D : Type}

/-! ### Spec -/

/-- Element values seen by an integral. -/
def inputs (ops : Ops T L E) (I : Integral Tm E Q D) (args : ℕ → T) : List E := I.active.map fun i => ops.gather I.type i (ops.prolong i (args i))

/-- Material states seen by the integrals, one after the other. -/
def states (ops : Ops T L E) (t : Tm) (args : ℕ → T) (upd : Bool) : List (Integral Tm E Q D) → Q → List Q
  | [], _ => []
  | I :: Is, q => q :: states ops t args upd Is (I.next t (inputs ops I args) q upd)

/-- Material state after all integrals. -/
def finalState (ops : Ops T L E) (t : Tm) (args : ℕ → T) (upd : Bool) (Is : List (Integral Tm E Q D)) (q : Q) : Q :=
  Is.foldl (fun q I => I.next t (inputs ops I args) q upd) q

/-- The residual: integrals paired with the material states they see. -/
def residual [Zero L] [Add L] [Zero E] (ops : Ops T L E) (Iq : List (Integral Tm E Q D × Q)) (t : Tm) (args : ℕ → T) : T :=
  ops.restrict ((Iq.map fun p => ops.scatterAdd p.1.type (p.1.value t (inputs ops p.1 args) p.2) 0).sum)

/-- The kernels with differentiation compute the same values and states, and the state only changes when asked to. -/
structure Sound (I : Integral Tm E Q D) : Prop where
  value : ∀ i t xs q, I.valueAD i t xs q = I.value t xs q
  next : ∀ i t xs q b, I.nextAD i t xs q b = I.next t xs q b
  keeps : ∀ t xs q, I.next t xs q false = q

/-- The stored derivative and the jacobian-vector product are the derivative of the kernel in that argument (C51). -/
def Differentiates [NormedAddCommGroup E] [NormedSpace ℝ E] (I : Integral Tm E Q D) : Prop :=
  ∀ i, i < I.active.length → ∀ t xs q, xs.length = I.active.length → ∀ x, xs[i]? = some x → ∀ dx,
    HasDerivAt (fun h : ℝ => I.value t (xs.set i (x + h • dx)) q) (I.jvp i (I.derivative i t xs q) dx) 0

/-- The same at one time, state and list of element values. -/
def DifferentiatesAt [NormedAddCommGroup E] [NormedSpace ℝ E] (I : Integral Tm E Q D) (i : ℕ) (t : Tm) (xs : List E) (q : Q) : Prop :=
  ∀ x, xs[i]? = some x → ∀ dx, HasDerivAt (fun h : ℝ => I.value t (xs.set i (x + h • dx)) q) (I.jvp i (I.derivative i t xs q) dx) 0

/-- Prolongation, gather, scatter-add and restriction are linear (C07). -/
structure Linear [NormedAddCommGroup T] [NormedSpace ℝ T] [NormedAddCommGroup L] [NormedSpace ℝ L] [NormedAddCommGroup E] [NormedSpace ℝ E]
    (ops : Ops T L E) where
  P : ℕ → T →L[ℝ] L
  G : DType → ℕ → L →L[ℝ] E
  S : DType → E →L[ℝ] L
  R : L →L[ℝ] T
  hP : ∀ i x, ops.prolong i x = P i x
  hG : ∀ d i x, ops.gather d i x = G d i x
  hS : ∀ d e l, ops.scatterAdd d e l = l + S d e
  hR : ∀ l, ops.restrict l = R l

/-! ### The table of argument positions -/

theorem index_aux (l : List ℕ) (n : ℕ) (m : ℕ → Option ℕ) (w : ℕ) :
    let r := (l.zipIdx n).foldl (fun m p => fun w => if w = p.1 then some p.2 else m w) m w
    (w ∉ l ∧ r = m w) ∨ ∃ i, l[i]? = some w ∧ r = some (n + i) := by
  induction l generalizing n m with
  | nil => left; simp
  | cons a l ih =>
    simp only [List.zipIdx_cons, List.foldl_cons]
    rcases ih (n + 1) (fun w => if w = a then some n else m w) with ⟨h1, h2⟩ | ⟨i, h1, h2⟩
    · by_cases h : w = a
      · right; refine ⟨0, by simp [h], ?_⟩
        rw [h2]; simp [h]
      · left; refine ⟨by simp [h, h1], ?_⟩
        rw [h2]; simp [h]
    · right; refine ⟨i + 1, by simpa using h1, ?_⟩
      rw [h2]; congr 1; omega

theorem index_none (I : Integral Tm E Q D) (w : ℕ) : I.index w = none ↔ w ∉ I.active := by
  have := index_aux I.active 0 (fun _ => none) w
  unfold Integral.index
  rcases this with ⟨h1, h2⟩ | ⟨i, h1, h2⟩
  · simp [h1, h2]
  · rw [h2]; simp [List.mem_of_getElem? h1]

theorem index_some {I : Integral Tm E Q D} {w i : ℕ} (h : I.index w = some i) : I.active[i]? = some w := by
  have := index_aux I.active 0 (fun _ => none) w
  unfold Integral.index at h
  rcases this with ⟨h1, h2⟩ | ⟨j, h1, h2⟩
  · rw [h2] at h; cases h
  · rw [h2] at h; simp at h; rwa [← h]

theorem index_inj {I : Integral Tm E Q D} {w v i : ℕ} (h : I.index w = some i) (h' : I.index v = some i) : w = v := by
  have := index_some h; rw [index_some h'] at this; simpa using this.symm

/-! ### Evaluation -/

section eval
variable [AddCommGroup L] [AddCommGroup E]

/-- Gathered values are current. -/
def Gathered (ops : Ops T L E) (s : Mem Tm T L E Q D × (DType → ℕ → Bool)) : Prop :=
  ∀ d i, s.2 d i = true → s.1.inputE d i = ops.gather d i (s.1.inputL i)

omit [AddCommGroup L] [AddCommGroup E] in
theorem gatherActive_spec (ops : Ops T L E) (type : DType) (active : List ℕ) (s : Mem Tm T L E Q D × (DType → ℕ → Bool)) (h : Gathered ops s) :
    let r := gatherActive ops type active s
    Gathered ops r ∧ (∀ i ∈ active, r.2 type i = true) ∧ (∀ d i, s.2 d i = true → r.2 d i = true) ∧
    r.1 = { s.1 with inputE := r.1.inputE } := by
  induction active generalizing s with
  | nil => exact ⟨h, by simp, fun _ _ h => h, rfl⟩
  | cons a l ih =>
    simp only [gatherActive, List.foldl_cons] at *
    by_cases hd : s.2 type a = true
    · simp only [hd, if_true]
      obtain ⟨h1, h2, h3, h4⟩ := ih s h
      refine ⟨h1, ?_, h3, h4⟩
      intro i hi
      rcases List.mem_cons.mp hi with rfl | hi
      · exact h3 _ _ hd
      · exact h2 i hi
    · simp only [hd]
      obtain ⟨h1, h2, h3, h4⟩ := ih ({ s.1 with inputE := fun d j => if d = type ∧ j = a then ops.gather type a (s.1.inputL a) else s.1.inputE d j },
          fun d j => if d = type ∧ j = a then true else s.2 d j) (by
        intro d i hi
        by_cases hc : d = type ∧ i = a
        · obtain ⟨rfl, rfl⟩ := hc; simp
        · simp only [hc, if_false] at hi ⊢
          exact h d i hi)
      refine ⟨h1, ?_, ?_, h4⟩
      · intro i hi
        rcases List.mem_cons.mp hi with rfl | hi
        · exact h3 _ _ (by simp)
        · exact h2 i hi
      · intro d i hi
        exact h3 d i (by simp [hi])

omit [AddCommGroup L] [AddCommGroup E] in
/-- The values an integral reads after the gather step. -/
theorem inputs_gathered (ops : Ops T L E) (I : Integral Tm E Q D) (args : ℕ → T) (s : Mem Tm T L E Q D × (DType → ℕ → Bool)) (h : Gathered ops s)
    (hL : s.1.inputL = fun i => ops.prolong i (args i)) :
    I.active.map ((gatherActive ops I.type I.active s).1.inputE I.type) = inputs ops I args := by
  obtain ⟨h1, h2, -, h4⟩ := gatherActive_spec ops I.type I.active s h
  unfold inputs
  apply List.map_congr_left
  intro i hi
  rw [h1 _ _ (h2 i hi), h4]
  simp only [hL]

theorem evalLoop (ops : Ops T L E) (hS : ∀ d e l, ops.scatterAdd d e l = l + ops.scatterAdd d e 0) (t : Tm) (wrt : Option ℕ) (args : ℕ → T)
    (Is : List (Integral Tm E Q D)) (hI : ∀ I ∈ Is, Sound I) (n : ℕ) (s : Mem Tm T L E Q D × (DType → ℕ → Bool)) (h : Gathered ops s)
    (hL : s.1.inputL = fun i => ops.prolong i (args i)) :
    let r := ((Is.zipIdx n).foldl (evalStep ops t wrt) s).1
    r.integrals = s.1.integrals ∧ r.update = s.1.update ∧ r.state = finalState ops t args s.1.update Is s.1.state ∧ r.outputT = s.1.outputT ∧
    r.outputL = s.1.outputL + ((Is.zip (states ops t args s.1.update Is s.1.state)).map fun p =>
      ops.scatterAdd p.1.type (p.1.value t (inputs ops p.1 args) p.2) 0).sum ∧
    (∀ k i, k < n → r.buffer k i = s.1.buffer k i) ∧
    (∀ k i, (∀ I, Is[k]? = some I → wrt.bind I.index ≠ some i) → r.buffer (n + k) i = s.1.buffer (n + k) i) ∧
    (∀ k I q, Is[k]? = some I → (states ops t args s.1.update Is s.1.state)[k]? = some q → ∀ i, wrt.bind I.index = some i →
      r.buffer (n + k) i = some (I.derivative i t (inputs ops I args) q)) := by
  induction Is generalizing n s with
  | nil => simp [finalState, states]
  | cons I Is ih =>
    simp only [List.zipIdx_cons, List.foldl_cons]
    have hin := inputs_gathered ops I args s h hL
    obtain ⟨g1, g2, -, g4⟩ := gatherActive_spec ops I.type I.active s h
    generalize hg : gatherActive ops I.type I.active s = g at *
    have hs := hI I (by simp)
    -- the state after this integral
    obtain ⟨m', hm', e1, e2, e3, e4, e5, e6, e7, e8⟩ : ∃ m' : Mem Tm T L E Q D, evalStep ops t wrt s (I, n) = (m', g.2) ∧
        m'.integrals = s.1.integrals ∧ m'.update = s.1.update ∧ m'.state = I.next t (inputs ops I args) s.1.state s.1.update ∧
        m'.outputT = s.1.outputT ∧ m'.outputL = s.1.outputL + ops.scatterAdd I.type (I.value t (inputs ops I args) s.1.state) 0 ∧
        m'.inputL = s.1.inputL ∧ m'.inputE = g.1.inputE ∧
        ∀ k i, m'.buffer k i = if k = n ∧ wrt.bind I.index = some i then some (I.derivative i t (inputs ops I args) s.1.state) else s.1.buffer k i := by
      refine ⟨(evalStep ops t wrt s (I, n)).1, ?_, ?_⟩
      · simp only [evalStep, hg]
      · simp only [evalStep, hg, mult, hin]
        rw [g4]
        cases hw : wrt.bind I.index with
        | none =>
          refine ⟨rfl, rfl, rfl, rfl, ?_, rfl, rfl, ?_⟩
          · simp [hS I.type _ s.1.outputL]
          · intro k i; simp
        | some j =>
          refine ⟨rfl, rfl, ?_, rfl, ?_, rfl, rfl, ?_⟩
          · simp only [hs.next]
          · simp [hS I.type _ s.1.outputL, hs.value]
          · intro k i
            by_cases hij : j = i
            · subst hij; simp
            · have : ¬ i = j := fun h => hij h.symm
              simp [hij, this]
    rw [hm']
    have hG' : Gathered ops (m', g.2) := by
      intro d i hi
      have := g1 d i hi
      simp only [e6, e7]
      rw [this]
      congr 1
      rw [g4]
    obtain ⟨r1, r2, r3, r4, r5, r6, r7, r8⟩ := ih (fun I' h' => hI I' (by simp [h'])) (n + 1) (m', g.2) hG' (by simp only [e6]; exact hL)
    simp only [e1, e2, e3, e4, e5] at r1 r2 r3 r4 r5 r8
    refine ⟨r1, r2, r3, r4, ?_, ?_, ?_, ?_⟩
    · rw [r5]; simp [states, add_assoc]
    · intro k i hk
      rw [r6 k i (by omega), e8]
      rw [if_neg (by omega)]
    · intro k i hne
      cases k with
      | zero =>
        rw [r6 (n + 0) i (by omega), e8]
        rw [if_neg (fun h => hne I (by simp) h.2)]
      | succ k =>
        simp only [List.getElem?_cons_succ] at hne
        have := r7 k i hne
        rw [show n + (k + 1) = n + 1 + k by omega, this, e8, if_neg (by omega)]
    · intro k I' q hk hq i hi
      cases k with
      | zero =>
        simp only [List.getElem?_cons_zero, Option.some.injEq, states] at hk hq
        subst hk; subst hq
        rw [r6 (n + 0) i (by omega), e8]
        simp [hi]
      | succ k =>
        simp only [List.getElem?_cons_succ, states] at hk hq
        rw [show n + (k + 1) = n + 1 + k by omega]
        exact r8 k I' q hk hq i hi

/-- Everything `operator()` does, in terms of the spec. -/
theorem evaluate_spec (ops : Ops T L E) (hS : ∀ d e l, ops.scatterAdd d e l = l + ops.scatterAdd d e 0) (t : Tm) (wrt : Option ℕ) (args : ℕ → T)
    (m : Mem Tm T L E Q D) (hI : ∀ I ∈ m.integrals, Sound I) :
    let qs := states ops t args m.update m.integrals m.state
    let r := evaluate ops wrt t args m
    r.integrals = m.integrals ∧ r.update = m.update ∧ r.state = finalState ops t args m.update m.integrals m.state ∧
    r.outputT = residual ops (m.integrals.zip qs) t args ∧
    (∀ k i, (∀ I, m.integrals[k]? = some I → wrt.bind I.index ≠ some i) → r.buffer k i = m.buffer k i) ∧
    (∀ k I q, m.integrals[k]? = some I → qs[k]? = some q → ∀ i, wrt.bind I.index = some i →
      r.buffer k i = some (I.derivative i t (inputs ops I args) q)) := by
  obtain ⟨r1, r2, r3, r4, r5, r6, r7, r8⟩ := evalLoop ops hS t wrt args m.integrals hI 0
    ({ m with inputL := fun i => ops.prolong i (args i), outputL := 0 }, fun _ _ => false) (by intro d i h; simp at h) rfl
  refine ⟨r1, r2, r3, ?_, ?_, ?_⟩
  · simp only [evaluate, residual]
    rw [r5]; simp
  · intro k i hne
    have := r7 k i hne
    simpa [evaluate] using this
  · intro k I q hk hq i hi
    have := r8 k I q hk hq i hi
    simpa [evaluate] using this
end eval

/-! ### Actions of the gradient -/

section action
variable [AddCommGroup L] [AddCommGroup E]

/-- What an integral contributes to the action, given the contents of the buffers. -/
def contribution (ops : Ops T L E) (w : ℕ) (dx : T) (I : Integral Tm E Q D) (buf : ℕ → Option D) : E :=
  match I.index w with
  | none => 0
  | some i => match buf i with
    | none => 0
    | some d => I.jvp i d (ops.gather I.type w (ops.prolong w dx))

/-- All buffers needed have been written. -/
def Written (w : ℕ) (buffer : ℕ → ℕ → Option D) (l : List (Integral Tm E Q D × ℕ)) : Prop :=
  ∀ p ∈ l, ∀ i, p.1.index w = some i → buffer p.2 i ≠ none

theorem actionStep_spec (ops : Ops T L E) (hS : ∀ d e l, ops.scatterAdd d e l = l + ops.scatterAdd d e 0) (w : ℕ) (dx : T)
    (p : Integral Tm E Q D × ℕ) (s : Mem Tm T L E Q D × (DType → Bool)) (hL : s.1.inputL w = ops.prolong w dx)
    (hd : ∀ d, s.2 d = true → s.1.inputE d w = ops.gather d w (ops.prolong w dx)) :
    (actionStep ops w s p = none ∧ ∃ i, p.1.index w = some i ∧ s.1.buffer p.2 i = none) ∨
    ∃ s', actionStep ops w s p = some s' ∧ (∀ i, p.1.index w = some i → s.1.buffer p.2 i ≠ none) ∧
      s'.1.integrals = s.1.integrals ∧ s'.1.update = s.1.update ∧ s'.1.state = s.1.state ∧ s'.1.outputT = s.1.outputT ∧ s'.1.buffer = s.1.buffer ∧
      s'.1.inputL = s.1.inputL ∧ (∀ d, s'.2 d = true → s'.1.inputE d w = ops.gather d w (ops.prolong w dx)) ∧
      s'.1.outputL = s.1.outputL + ops.scatterAdd p.1.type (contribution ops w dx p.1 (s.1.buffer p.2)) 0 := by
  -- the gather step
  obtain ⟨g, hg, h1, h2, h3, h4, h5, h6, h7, h8, h9⟩ : ∃ g : Mem Tm T L E Q D × (DType → Bool),
      (if s.2 p.1.type then s else ({ s.1 with inputE := fun d j => if d = p.1.type ∧ j = w then ops.gather d w (s.1.inputL w) else s.1.inputE d j },
        fun d => if d = p.1.type then true else s.2 d)) = g ∧
      g.1.integrals = s.1.integrals ∧ g.1.update = s.1.update ∧ g.1.state = s.1.state ∧ g.1.outputT = s.1.outputT ∧ g.1.buffer = s.1.buffer ∧
      g.1.inputL = s.1.inputL ∧ (∀ d, g.2 d = true → g.1.inputE d w = ops.gather d w (ops.prolong w dx)) ∧ g.1.outputL = s.1.outputL ∧
      g.2 p.1.type = true := by
    by_cases h : s.2 p.1.type = true
    · exact ⟨s, by simp [h], rfl, rfl, rfl, rfl, rfl, rfl, hd, rfl, h⟩
    · refine ⟨_, if_neg h, rfl, rfl, rfl, rfl, rfl, rfl, ?_, rfl, by simp⟩
      intro d h'
      by_cases hdt : d = p.1.type
      · simp [hdt, hL]
      · simp only [hdt, if_false, false_and] at h' ⊢
        exact hd d h'
  have hE : g.1.inputE p.1.type w = ops.gather p.1.type w (ops.prolong w dx) := h7 _ h9
  have key : actionStep ops w s p = (match gradientMult p.1 p.2 w g.1 with
      | none => none
      | some m => some ({ m with outputL := ops.scatterAdd p.1.type (m.outputE p.1.type) m.outputL }, g.2)) := by
    rw [← hg]; rfl
  rw [key]
  unfold gradientMult contribution
  cases hi : p.1.index w with
  | none =>
    right
    refine ⟨_, rfl, by simp, h1, h2, h3, h4, h5, h6, h7, ?_⟩
    simp only [if_true]
    rw [hS, h8]
  | some i =>
    have h5' : g.1.buffer p.2 i = s.1.buffer p.2 i := by rw [h5]
    cases hb : s.1.buffer p.2 i with
    | none =>
      left
      rw [hb] at h5'
      exact ⟨by simp only [h5'], i, rfl, hb⟩
    | some d =>
      right
      rw [hb] at h5'
      refine ⟨({ g.1 with
          outputE := fun d' => if d' = p.1.type then 0 + p.1.jvp i d (g.1.inputE p.1.type w) else g.1.outputE d'
          outputL := ops.scatterAdd p.1.type (0 + p.1.jvp i d (g.1.inputE p.1.type w)) g.1.outputL }, g.2),
        by simp only [h5', if_true], ?_, h1, h2, h3, h4, h5, h6, h7, ?_⟩
      · intro j hj; cases hj; simp [hb]
      · simp only [hb]
        rw [hS, h8, hE, zero_add]

theorem actionLoop (ops : Ops T L E) (hS : ∀ d e l, ops.scatterAdd d e l = l + ops.scatterAdd d e 0) (w : ℕ) (dx : T)
    (l : List (Integral Tm E Q D × ℕ)) (s : Mem Tm T L E Q D × (DType → Bool)) (hL : s.1.inputL w = ops.prolong w dx)
    (hd : ∀ d, s.2 d = true → s.1.inputE d w = ops.gather d w (ops.prolong w dx)) :
    (l.foldlM (actionStep ops w) s = none ∧ ¬ Written w s.1.buffer l) ∨
    ∃ s', l.foldlM (actionStep ops w) s = some s' ∧ Written w s.1.buffer l ∧
      s'.1.integrals = s.1.integrals ∧ s'.1.update = s.1.update ∧ s'.1.state = s.1.state ∧ s'.1.outputT = s.1.outputT ∧ s'.1.buffer = s.1.buffer ∧
      s'.1.outputL = s.1.outputL + (l.map fun p => ops.scatterAdd p.1.type (contribution ops w dx p.1 (s.1.buffer p.2)) 0).sum := by
  induction l generalizing s with
  | nil => right; exact ⟨s, rfl, by simp [Written], rfl, rfl, rfl, rfl, rfl, by simp⟩
  | cons p l ih =>
    rw [List.foldlM_cons]
    rcases actionStep_spec ops hS w dx p s hL hd with ⟨h, i, hi, hb⟩ | ⟨s1, h, hw, a1, a2, a3, a4, a5, a6, a7, a8⟩
    · left
      rw [h]
      exact ⟨rfl, fun hW => hW p (by simp) i hi hb⟩
    · rw [h]
      have hbind : (some s1 >>= fun s' => List.foldlM (actionStep ops w) s' l) = List.foldlM (actionStep ops w) s1 l := rfl
      rw [hbind]
      rcases ih s1 (by rw [a6]; exact hL) a7 with ⟨h', hW⟩ | ⟨s2, h', hW, b1, b2, b3, b4, b5, b6⟩
      · left
        refine ⟨h', fun hW' => hW ?_⟩
        rw [a5]
        exact fun q hq => hW' q (by simp [hq])
      · right
        refine ⟨s2, h', ?_, b1.trans a1, b2.trans a2, b3.trans a3, b4.trans a4, b5.trans a5, ?_⟩
        · intro q hq
          rcases List.mem_cons.mp hq with rfl | hq
          · exact hw
          · rw [a5] at hW; exact hW q hq
        · rw [b6, a8, a5]; simp [add_assoc]

/-- Everything `ActionOfGradient` does, in terms of the spec. -/
theorem action_spec (ops : Ops T L E) (hS : ∀ d e l, ops.scatterAdd d e l = l + ops.scatterAdd d e 0) (w : ℕ) (dx : T) (m : Mem Tm T L E Q D) :
    (action ops w dx m = none ∧ ¬ Written w m.buffer m.integrals.zipIdx) ∨
    ∃ m', action ops w dx m = some (m', ops.restrict ((m.integrals.zipIdx.map fun p =>
        ops.scatterAdd p.1.type (contribution ops w dx p.1 (m.buffer p.2)) 0).sum)) ∧ Written w m.buffer m.integrals.zipIdx ∧
      m'.integrals = m.integrals ∧ m'.update = m.update ∧ m'.state = m.state ∧ m'.outputT = m.outputT ∧ m'.buffer = m.buffer := by
  rcases actionLoop ops hS w dx m.integrals.zipIdx
    ({ m with inputL := fun i => if i = w then ops.prolong w dx else m.inputL i, outputL := 0 }, fun _ => false) (by simp) (by simp)
    with ⟨h, hW⟩ | ⟨s, h, hW, b1, b2, b3, b4, b5, b6⟩
  · left
    exact ⟨by simp only [action, h], hW⟩
  · right
    refine ⟨s.1, ?_, hW, b1, b2, b3, b4, b5⟩
    simp only [action, h, b6, zero_add]
end action

/-! ### Sequences of calls -/

section calls
variable [AddCommGroup L] [AddCommGroup E]

/-- Integrals added are sound. -/
def Call.Sound : Call Tm T E Q D → Prop
  | .addIntegral I => C52.Sound I
  | _ => True

/-- Calls that do not renew the gradient with respect to `w`: anything but an evaluation differentiating with respect to `w` or the addition of an integral
depending on it. -/
def Call.Quiet (w : ℕ) : Call Tm T E Q D → Prop
  | .evaluate wrt _ _ => wrt ≠ some w
  | .addIntegral I => w ∉ I.active
  | _ => True

/-- Not an evaluation. -/
def Call.NotEval : Call Tm T E Q D → Prop
  | .evaluate _ _ _ => False
  | _ => True

theorem call_integrals (ops : Ops T L E) (hS : ∀ d e l, ops.scatterAdd d e l = l + ops.scatterAdd d e 0) (c : Call Tm T E Q D) (m m' : Mem Tm T L E Q D)
    (hI : ∀ I ∈ m.integrals, Sound I) (hc : Call.Sound c) (h : call ops m c = some m') : ∀ I ∈ m'.integrals, Sound I := by
  cases c with
  | evaluate wrt t args =>
    simp only [call, Option.some.injEq] at h; subst h
    rw [(evaluate_spec ops hS t wrt args m hI).1]; exact hI
  | action w dx =>
    rcases action_spec ops hS w dx m with ⟨h', -⟩ | ⟨m1, h', -, b1, -⟩
    · simp [call, h'] at h
    · simp [call, h'] at h; subst h; rw [b1]; exact hI
  | updateQdata f => simp only [call, Option.some.injEq] at h; subst h; exact hI
  | addIntegral I =>
    simp only [call, Option.some.injEq] at h; subst h
    intro J hJ
    rcases List.mem_append.mp hJ with hJ | hJ
    · exact hI J hJ
    · rw [List.mem_singleton.mp hJ]; exact hc

/-- The gradient with respect to `w` belongs to the integrals `Is`, the time `t`, the arguments and the material states `qs`; integrals added since do not
depend on `w`. -/
def Holds (ops : Ops T L E) (w : ℕ) (t : Tm) (args : ℕ → T) (Is : List (Integral Tm E Q D)) (qs : List Q) (m : Mem Tm T L E Q D) : Prop :=
  (∃ extra, m.integrals = Is ++ extra ∧ ∀ I ∈ extra, w ∉ I.active) ∧
  ∀ k I q, Is[k]? = some I → qs[k]? = some q → ∀ i, I.index w = some i → m.buffer k i = some (I.derivative i t (inputs ops I args) q)

theorem call_holds (ops : Ops T L E) (hS : ∀ d e l, ops.scatterAdd d e l = l + ops.scatterAdd d e 0) (w : ℕ) (t : Tm) (args : ℕ → T)
    (Is : List (Integral Tm E Q D)) (qs : List Q) (c : Call Tm T E Q D) (m m' : Mem Tm T L E Q D) (hI : ∀ I ∈ m.integrals, Sound I)
    (hq : Call.Quiet w c) (hm : Holds ops w t args Is qs m) (h : call ops m c = some m') : Holds ops w t args Is qs m' := by
  obtain ⟨⟨extra, he, hx⟩, hb⟩ := hm
  cases c with
  | evaluate wrt t' args' =>
    simp only [call, Option.some.injEq] at h; subst h
    obtain ⟨r1, -, -, -, r5, -⟩ := evaluate_spec ops hS t' wrt args' m hI
    refine ⟨⟨extra, r1.trans he, hx⟩, fun k I q hk hq' i hi => ?_⟩
    rw [r5 k i, hb k I q hk hq' i hi]
    intro J hJ hJi
    have hIJ : J = I := by
      rw [he, List.getElem?_append_left (List.getElem?_eq_some_iff.mp hk).1, hk] at hJ
      simpa using hJ.symm
    subst hIJ
    cases wrt with
    | none => simp at hJi
    | some v =>
      simp only [Option.bind_some] at hJi
      exact hq (by rw [index_inj hJi hi])
  | action v dx =>
    rcases action_spec ops hS v dx m with ⟨h', -⟩ | ⟨m1, h', -, b1, -, -, -, b5⟩
    · simp [call, h'] at h
    · simp [call, h'] at h; subst h
      exact ⟨⟨extra, b1.trans he, hx⟩, by rw [b5]; exact hb⟩
  | updateQdata f => simp only [call, Option.some.injEq] at h; subst h; exact ⟨⟨extra, he, hx⟩, hb⟩
  | addIntegral I =>
    simp only [call, Option.some.injEq] at h; subst h
    refine ⟨⟨extra ++ [I], by simp [he], ?_⟩, hb⟩
    intro J hJ
    rcases List.mem_append.mp hJ with hJ | hJ
    · exact hx J hJ
    · rw [List.mem_singleton.mp hJ]; exact hq

theorem run_holds (ops : Ops T L E) (hS : ∀ d e l, ops.scatterAdd d e l = l + ops.scatterAdd d e 0) (w : ℕ) (t : Tm) (args : ℕ → T)
    (Is : List (Integral Tm E Q D)) (qs : List Q) (ds : List (Call Tm T E Q D)) (m m' : Mem Tm T L E Q D) (hI : ∀ I ∈ m.integrals, Sound I)
    (hs : ∀ c ∈ ds, Call.Sound c) (hq : ∀ c ∈ ds, Call.Quiet w c) (hm : Holds ops w t args Is qs m) (h : run ops m ds = some m') :
    Holds ops w t args Is qs m' := by
  induction ds generalizing m with
  | nil => simp [run] at h; subst h; exact hm
  | cons c ds ih =>
    simp only [run, List.foldlM_cons] at h
    cases hc : call ops m c with
    | none => rw [hc] at h; cases h
    | some m1 =>
      rw [hc] at h
      exact ih m1 (call_integrals ops hS c m m1 hI (hs c (by simp)) hc) (fun c' h' => hs c' (by simp [h'])) (fun c' h' => hq c' (by simp [h']))
        (call_holds ops hS w t args Is qs c m m1 hI (hq c (by simp)) hm hc) h

omit [AddCommGroup L] [AddCommGroup E] in
theorem length_states (ops : Ops T L E) (t : Tm) (args : ℕ → T) (upd : Bool) (Is : List (Integral Tm E Q D)) (q : Q) :
    (states ops t args upd Is q).length = Is.length := by
  induction Is generalizing q with
  | nil => rfl
  | cons I Is ih => simp [states, ih]

omit [AddCommGroup L] [AddCommGroup E] in
/-- Without updates every integral sees the same material state, and leaves it as it is. -/
theorem states_false (ops : Ops T L E) (t : Tm) (args : ℕ → T) (Is : List (Integral Tm E Q D)) (hI : ∀ I ∈ Is, Sound I) (q : Q) :
    Is.zip (states ops t args false Is q) = Is.map (fun I => (I, q)) := by
  induction Is with
  | nil => rfl
  | cons I Is ih =>
    simp only [states, (hI I (by simp)).keeps, List.zip_cons_cons, List.map_cons]
    rw [ih fun J hJ => hI J (by simp [hJ])]

theorem run_outputT (ops : Ops T L E) (hS : ∀ d e l, ops.scatterAdd d e l = l + ops.scatterAdd d e 0) (ds : List (Call Tm T E Q D))
    (hn : ∀ c ∈ ds, Call.NotEval c) (m m' : Mem Tm T L E Q D) (h : run ops m ds = some m') : m'.outputT = m.outputT := by
  induction ds generalizing m with
  | nil => simp [run] at h; rw [h]
  | cons c ds ih =>
    simp only [run, List.foldlM_cons] at h
    cases hc : call ops m c with
    | none => rw [hc] at h; cases h
    | some m1 =>
      rw [hc] at h
      rw [ih (fun c' h' => hn c' (by simp [h'])) m1 h]
      cases c with
      | evaluate wrt t args => exact (hn (.evaluate wrt t args) (by simp)).elim
      | action w dx =>
        rcases action_spec ops hS w dx m with ⟨h', -⟩ | ⟨m2, h', -, -, -, -, b4, -⟩
        · simp [call, h'] at hc
        · simp [call, h'] at hc; rw [← hc]; exact b4
      | updateQdata f => simp only [call, Option.some.injEq] at hc; rw [← hc]
      | addIntegral I => simp only [call, Option.some.injEq] at hc; rw [← hc]

/-- **C52, values.**  For every object, evaluation and later calls that are not evaluations: the returned vector holds the residual at the arguments. -/
theorem C52_value (ops : Ops T L E) (hS : ∀ d e l, ops.scatterAdd d e l = l + ops.scatterAdd d e 0) (wrt : Option ℕ) (t : Tm) (args : ℕ → T)
    (m m' : Mem Tm T L E Q D) (hI : ∀ I ∈ m.integrals, Sound I) (ds : List (Call Tm T E Q D)) (hn : ∀ c ∈ ds, Call.NotEval c)
    (h : run ops (evaluate ops wrt t args m) ds = some m') :
    m'.outputT = residual ops (m.integrals.zip (states ops t args m.update m.integrals m.state)) t args := by
  rw [run_outputT ops hS ds hn _ _ h, (evaluate_spec ops hS t wrt args m hI).2.2.2.1]

/-- **C52, history.**  Without the update flag, an evaluation leaves the material state as it was, and all integrals see that state. -/
theorem C52_state (ops : Ops T L E) (hS : ∀ d e l, ops.scatterAdd d e l = l + ops.scatterAdd d e 0) (wrt : Option ℕ) (t : Tm) (args : ℕ → T)
    (m : Mem Tm T L E Q D) (hI : ∀ I ∈ m.integrals, Sound I) (hu : m.update = false) :
    (evaluate ops wrt t args m).state = m.state ∧
    (evaluate ops wrt t args m).outputT = residual ops (m.integrals.map fun I => (I, m.state)) t args := by
  obtain ⟨-, -, r3, r4, -⟩ := evaluate_spec ops hS t wrt args m hI
  constructor
  · rw [r3, hu]
    have : ∀ (Is : List (Integral Tm E Q D)) (q : Q), (∀ I ∈ Is, Sound I) → finalState ops t args false Is q = q := by
      intro Is
      induction Is with
      | nil => intro q _; rfl
      | cons I Is ih =>
        intro q h
        simp only [finalState, List.foldl_cons, (h I (by simp)).keeps]
        exact ih q fun J hJ => h J (by simp [hJ])
    exact this _ _ hI
  · rw [r4, hu, states_false ops t args m.integrals hI]
end calls

/-! ### Derivatives -/

section deriv
variable [NormedAddCommGroup T] [NormedSpace ℝ T] [NormedAddCommGroup L] [NormedSpace ℝ L] [NormedAddCommGroup E] [NormedSpace ℝ E]

theorem Linear.scatter {ops : Ops T L E} (lin : Linear ops) : ∀ d e l, ops.scatterAdd d e l = l + ops.scatterAdd d e 0 := by
  intro d e l; rw [lin.hS, lin.hS]; simp

theorem hasDerivAt_sum {A V : Type} [NormedAddCommGroup V] [NormedSpace ℝ V] (l : List A) (f : A → ℝ → V) (f' : A → V) (h : ∀ a ∈ l, HasDerivAt (f a) (f' a) 0) :
    HasDerivAt (fun x => (l.map fun a => f a x).sum) ((l.map f').sum) 0 := by
  induction l with
  | nil => simpa using hasDerivAt_const (0 : ℝ) (0 : V)
  | cons a l ih =>
    simp only [List.map_cons, List.sum_cons]
    exact (h a (by simp)).add (ih fun b hb => h b (by simp [hb]))

/-- The element values when one argument moves. -/
theorem inputs_update {ops : Ops T L E} (lin : Linear ops) (I : Integral Tm E Q D) (hnd : I.active.Nodup) (args : ℕ → T) (w i : ℕ) (hi : I.index w = some i) (y : T)
    (h : ℝ) : inputs ops I (Function.update args w (args w + h • y))
      = (inputs ops I args).set i (ops.gather I.type w (ops.prolong w (args w)) + h • ops.gather I.type w (ops.prolong w y)) := by
  have hw := index_some hi
  apply List.ext_getElem?
  intro j
  rw [List.getElem?_set]
  simp only [inputs, List.getElem?_map, List.length_map]
  by_cases hj : i = j
  · subst hj
    simp only [if_true]
    rw [hw, if_pos (List.getElem?_eq_some_iff.mp hw).1]
    simp [lin.hP, lin.hG]
  · rw [if_neg hj]
    cases hv : I.active[j]? with
    | none => rfl
    | some v =>
      have hne : v ≠ w := by
        rintro rfl
        obtain ⟨hi1, hi2⟩ := List.getElem?_eq_some_iff.mp hw
        obtain ⟨hj1, hj2⟩ := List.getElem?_eq_some_iff.mp hv
        exact hj ((hnd.getElem_inj_iff).mp (hi2.trans hj2.symm))
      simp [Function.update_of_ne hne]

/-- **C52, where the integrals are differentiable.**  Take any object `m` (after any calls), evaluate it at `t`, `args` differentiating with respect to argument `w`, and make any further calls that
neither differentiate with respect to `w` nor add an integral depending on `w`.  Then the action of the gradient object of `w` on `dx` is defined and is
the derivative of the residual in direction `dx` at `t`, `args` and the material states of that evaluation. -/
theorem C52_pointwise_partial (ops : Ops T L E) (lin : Linear ops) (w : ℕ) (t : Tm) (args : ℕ → T) (m m' : Mem Tm T L E Q D) (hI : ∀ I ∈ m.integrals, Sound I)
    (hD : ∀ p ∈ m.integrals.zip (states ops t args m.update m.integrals m.state), ∀ i, p.1.index w = some i → DifferentiatesAt p.1 i t (inputs ops p.1 args) p.2) (hnd : ∀ I ∈ m.integrals, I.active.Nodup) (ds : List (Call Tm T E Q D)) (hs : ∀ c ∈ ds, Call.Sound c)
    (hq : ∀ c ∈ ds, Call.Quiet w c) (h : run ops (evaluate ops (some w) t args m) ds = some m') (dx : T) :
    ∃ m'' v, action ops w dx m' = some (m'', v) ∧
      HasDerivAt (fun x : ℝ => residual ops (m.integrals.zip (states ops t args m.update m.integrals m.state)) t
        (Function.update args w (args w + x • dx))) v 0 := by
  have hS := lin.scatter
  set qs := states ops t args m.update m.integrals m.state with hqs
  have hlen : qs.length = m.integrals.length := length_states ops t args m.update m.integrals m.state
  obtain ⟨r1, -, -, -, -, r6⟩ := evaluate_spec ops hS t (some w) args m hI
  have h0 : Holds ops w t args m.integrals qs (evaluate ops (some w) t args m) :=
    ⟨⟨[], by simpa using r1, by simp⟩, fun k I q hk hq' i hi => r6 k I q hk hq' i hi⟩
  obtain ⟨⟨extra, he, hx⟩, hb⟩ := run_holds ops hS w t args m.integrals qs ds _ m' (by rw [r1]; exact hI) hs hq h0 h
  have hW : Written w m'.buffer m'.integrals.zipIdx := by
    intro p hp i hi
    have hp' := List.mem_zipIdx hp
    simp only [Nat.zero_le, Nat.zero_add, Nat.sub_zero, true_and] at hp'
    obtain ⟨hlt, hpe⟩ := hp'
    by_cases hk : p.2 < m.integrals.length
    · have h1 : m.integrals[p.2]? = some p.1 := by
        rw [hpe]
        simp only [he]
        rw [List.getElem_append_left hk]
        exact List.getElem?_eq_getElem hk
      have h2 : qs[p.2]? = some (qs[p.2]'(by omega)) := List.getElem?_eq_getElem _
      rw [hb p.2 p.1 _ h1 h2 i hi]; simp
    · exfalso
      have hmem : p.1 ∈ extra := by
        rw [hpe]; simp only [he]
        rw [List.getElem_append_right (by omega)]
        exact List.getElem_mem _
      rw [(index_none p.1 w).mpr (hx _ hmem)] at hi
      cases hi
  rcases action_spec ops hS w dx m' with ⟨-, hno⟩ | ⟨m'', hact, -, -⟩
  · exact absurd hW hno
  refine ⟨m'', _, hact, ?_⟩
  -- the contributions in terms of the integrals and states of the evaluation
  have hsum : (m'.integrals.zipIdx.map fun p => ops.scatterAdd p.1.type (contribution ops w dx p.1 (m'.buffer p.2)) 0).sum
      = ((m.integrals.zip qs).map fun p => lin.S p.1.type (match p.1.index w with
          | none => 0
          | some i => p.1.jvp i (p.1.derivative i t (inputs ops p.1 args) p.2) (ops.gather p.1.type w (ops.prolong w dx)))).sum := by
    rw [he, List.zipIdx_append, List.map_append, List.sum_append]
    have h2 : ((extra.zipIdx (0 + m.integrals.length)).map fun p => ops.scatterAdd p.1.type (contribution ops w dx p.1 (m'.buffer p.2)) 0).sum = 0 := by
      apply List.sum_eq_zero
      intro y hy
      obtain ⟨p, hp, rfl⟩ := List.mem_map.mp hy
      have : p.1 ∈ extra := by
        have := List.mem_zipIdx hp
        rw [this.2.2]; exact List.getElem_mem _
      simp [contribution, (index_none p.1 w).mpr (hx _ this), lin.hS]
    rw [h2, add_zero]
    congr 1
    apply List.ext_getElem
    · simp [hlen]
    intro k hk1 hk2
    simp only [List.length_map, List.length_zipIdx] at hk1
    have hk3 : k < qs.length := by omega
    simp only [List.getElem_map, List.getElem_zipIdx, List.getElem_zip, Nat.zero_add]
    rw [lin.hS, zero_add]
    congr 1
    unfold contribution
    cases hi : (m.integrals[k]).index w with
    | none => rfl
    | some i =>
      simp only
      rw [hb k _ _ (List.getElem?_eq_getElem hk1) (List.getElem?_eq_getElem hk3) i hi]
  rw [lin.hR, hsum]
  simp only [residual, lin.hR]
  refine (lin.R.hasFDerivAt.comp_hasDerivAt (0 : ℝ) (hasDerivAt_sum (m.integrals.zip qs) _ _ ?_))
  intro p hp
  have hpI : p.1 ∈ m.integrals := (List.of_mem_zip hp).1
  simp only [lin.hS, zero_add]
  refine (lin.S p.1.type).hasFDerivAt.comp_hasDerivAt (0 : ℝ) ?_
  cases hi : p.1.index w with
  | none =>
    have hw := (index_none p.1 w).mp hi
    have hc : ∀ x : ℝ, inputs ops p.1 (Function.update args w (args w + x • dx)) = inputs ops p.1 args := by
      intro x
      apply List.map_congr_left
      intro j hj
      have : j ≠ w := fun h => hw (h ▸ hj)
      simp [Function.update_of_ne this]
    simp only [hc]
    exact hasDerivAt_const _ _
  | some i =>
    simp only [inputs_update lin p.1 (hnd _ hpI) args w i hi dx]
    have hw := index_some hi
    refine hD p hp i hi _ ?_ _
    simp [inputs, hw]

/-- **C52.**  The same for integrals that are differentiable everywhere. -/
theorem C52_gradient_partial (ops : Ops T L E) (lin : Linear ops) (w : ℕ) (t : Tm) (args : ℕ → T) (m m' : Mem Tm T L E Q D) (hI : ∀ I ∈ m.integrals, Sound I)
    (hD : ∀ I ∈ m.integrals, Differentiates I) (hnd : ∀ I ∈ m.integrals, I.active.Nodup) (ds : List (Call Tm T E Q D)) (hs : ∀ c ∈ ds, Call.Sound c)
    (hq : ∀ c ∈ ds, Call.Quiet w c) (h : run ops (evaluate ops (some w) t args m) ds = some m') (dx : T) :
    ∃ m'' v, action ops w dx m' = some (m'', v) ∧
      HasDerivAt (fun x : ℝ => residual ops (m.integrals.zip (states ops t args m.update m.integrals m.state)) t
        (Function.update args w (args w + x • dx))) v 0 :=
  C52_pointwise_partial ops lin w t args m m' hI (fun p hp i hi x hx dx => hD p.1 (List.of_mem_zip hp).1 i (List.getElem?_eq_some_iff.mp (index_some hi)).1 t _ p.2
    (by simp [inputs]) x hx dx) hnd ds hs hq h dx

/-- **C52, in observable terms.**  If the update flag was not set during that evaluation, the action is the derivative of the vector that evaluating the same
object at shifted arguments returns. -/
theorem C52_observable_partial (ops : Ops T L E) (lin : Linear ops) (w : ℕ) (t : Tm) (args : ℕ → T) (m m' : Mem Tm T L E Q D) (hu : m.update = false)
    (hI : ∀ I ∈ m.integrals, Sound I) (hD : ∀ I ∈ m.integrals, Differentiates I) (hnd : ∀ I ∈ m.integrals, I.active.Nodup)
    (ds : List (Call Tm T E Q D)) (hs : ∀ c ∈ ds, Call.Sound c) (hq : ∀ c ∈ ds, Call.Quiet w c)
    (h : run ops (evaluate ops (some w) t args m) ds = some m') (dx : T) :
    ∃ m'' v, action ops w dx m' = some (m'', v) ∧
      HasDerivAt (fun x : ℝ => (evaluate ops none t (Function.update args w (args w + x • dx)) m).outputT) v 0 := by
  obtain ⟨m'', v, h1, h2⟩ := C52_gradient_partial ops lin w t args m m' hI hD hnd ds hs hq h dx
  refine ⟨m'', v, h1, ?_⟩
  rw [hu, states_false ops t args m.integrals hI] at h2
  simp only [(C52_state ops lin.scatter none t _ m hI hu).2]
  exact h2
end deriv

/-! ### Before the first evaluation -/

section fresh
variable [AddCommGroup L] [AddCommGroup E]

/-- Nothing with respect to `w` has been stored. -/
def Empty (w : ℕ) (m : Mem Tm T L E Q D) : Prop :=
  (∀ k i, m.integrals.length ≤ k → m.buffer k i = none) ∧ ∀ k I i, m.integrals[k]? = some I → I.index w = some i → m.buffer k i = none

theorem run_empty (ops : Ops T L E) (hS : ∀ d e l, ops.scatterAdd d e l = l + ops.scatterAdd d e 0) (w : ℕ) (cs : List (Call Tm T E Q D))
    (hs : ∀ c ∈ cs, Call.Sound c) (hw : ∀ t args, Call.evaluate (some w) t args ∉ cs) (m m' : Mem Tm T L E Q D) (hI : ∀ I ∈ m.integrals, Sound I)
    (hm : Empty w m) (h : run ops m cs = some m') : Empty w m' := by
  induction cs generalizing m with
  | nil => simp [run] at h; subst h; exact hm
  | cons c cs ih =>
    simp only [run, List.foldlM_cons] at h
    cases hc : call ops m c with
    | none => rw [hc] at h; cases h
    | some m1 =>
      rw [hc] at h
      refine ih (fun c' h' => hs c' (by simp [h'])) (fun t args h' => hw t args (by simp [h'])) m1
        (call_integrals ops hS c m m1 hI (hs c (by simp)) hc) ?_ h
      obtain ⟨hm1, hm2⟩ := hm
      cases c with
      | evaluate wrt t args =>
        simp only [call, Option.some.injEq] at hc; subst hc
        obtain ⟨r1, -, -, -, r5, -⟩ := evaluate_spec ops hS t wrt args m hI
        refine ⟨fun k i hk => ?_, fun k I i hk hi => ?_⟩
        · rw [r1] at hk
          rw [r5 k i, hm1 k i hk]
          intro I hI'
          rw [List.getElem?_eq_none hk] at hI'; cases hI'
        · rw [r1] at hk
          rw [r5 k i, hm2 k I i hk hi]
          intro J hJ hJi
          rw [hk] at hJ; cases hJ
          cases wrt with
          | none => simp at hJi
          | some v =>
            have := index_inj hJi hi
            subst this
            exact hw t args (by simp)
      | action v dx =>
        rcases action_spec ops hS v dx m with ⟨h', -⟩ | ⟨m2, h', -, b1, -, -, -, b5⟩
        · simp [call, h'] at hc
        · simp [call, h'] at hc; subst hc
          exact ⟨by rw [b1, b5]; exact hm1, by rw [b1, b5]; exact hm2⟩
      | updateQdata f => simp only [call, Option.some.injEq] at hc; subst hc; exact ⟨hm1, hm2⟩
      | addIntegral J =>
        simp only [call, Option.some.injEq] at hc; subst hc
        refine ⟨fun k i hk => hm1 k i (by simp at hk; omega), fun k I i hk hi => ?_⟩
        by_cases hlt : k < m.integrals.length
        · rw [List.getElem?_append_left hlt] at hk
          exact hm2 k I i hk hi
        · exact hm1 k i (by omega)

/-- **C52, before the first differentiation.**  If no call so far differentiated with respect to `w`, using the gradient with respect to `w` is undefined
exactly if some integral depends on `w` (its buffer was allocated but never written). -/
theorem C52_undefined (ops : Ops T L E) (hS : ∀ d e l, ops.scatterAdd d e l = l + ops.scatterAdd d e 0) (w : ℕ) (cs : List (Call Tm T E Q D))
    (hs : ∀ c ∈ cs, Call.Sound c) (hw : ∀ t args, Call.evaluate (some w) t args ∉ cs) (m m' : Mem Tm T L E Q D) (hI : ∀ I ∈ m.integrals, Sound I)
    (hm : ∀ k i, m.buffer k i = none) (h : run ops m cs = some m') (dx : T) :
    action ops w dx m' = none ↔ ∃ I ∈ m'.integrals, w ∈ I.active := by
  have hE := run_empty ops hS w cs hs hw m m' hI ⟨fun k i _ => hm k i, fun k I i _ _ => hm k i⟩ h
  have key : Written w m'.buffer m'.integrals.zipIdx ↔ ¬ ∃ I ∈ m'.integrals, w ∈ I.active := by
    constructor
    · rintro hW ⟨I, hI', hwI⟩
      obtain ⟨k, hk, rfl⟩ := List.mem_iff_getElem.mp hI'
      have hp : (m'.integrals[k], k) ∈ m'.integrals.zipIdx := by
        rw [List.mem_iff_getElem]
        exact ⟨k, by simpa using hk, by simp⟩
      cases hi : (m'.integrals[k]).index w with
      | none => exact (index_none _ w).mp hi hwI
      | some i => exact hW _ hp i hi (hE.2 k _ i (List.getElem?_eq_getElem hk) hi)
    · intro hn p hp i hi
      exfalso
      apply hn
      refine ⟨p.1, ?_, List.mem_of_getElem? (index_some hi)⟩
      rw [(List.mem_zipIdx hp).2.2]; exact List.getElem_mem _
  rcases action_spec ops hS w dx m' with ⟨h1, h2⟩ | ⟨m2, h1, h2, -⟩
  · simp only [h1, true_iff]
    by_contra hc
    exact h2 (key.mpr hc)
  · simp only [h1, reduceCtorEq, false_iff]
    exact key.mp h2
end fresh

/-! ### An argument named twice -/

/-- One dof, one element: all transfer operators are the identity. -/
def idOps : Ops ℝ ℝ ℝ := ⟨fun _ x => x, fun _ _ x => x, fun _ e l => l + e, fun l => l⟩

/-- The product of its first two arguments, over the arguments `active`. -/
def product (active : List ℕ) : Integral ℝ ℝ Unit (ℝ × ℝ) where
  type := .elements
  active := active
  value _ xs _ := xs.getD 0 0 * xs.getD 1 0
  next _ _ q _ := q
  valueAD _ _ xs _ := xs.getD 0 0 * xs.getD 1 0
  nextAD _ _ _ q _ := q
  derivative _ _ xs _ := (xs.getD 1 0, xs.getD 0 0)
  jvp i d dx := (if i = 0 then d.1 else d.2) * dx

theorem product_sound (active : List ℕ) : Sound (product active) := ⟨fun _ _ _ _ => rfl, fun _ _ _ _ _ => rfl, fun _ _ _ => rfl⟩

theorem product_differentiates (active : List ℕ) (h2 : active.length = 2) : Differentiates (product active) := by
  intro i hi t xs q hlen x hx dx
  simp only [product] at hlen hi ⊢
  match xs, hlen.trans h2 with
  | [a, b], _ =>
    have hlin : ∀ c : ℝ, HasDerivAt (fun h : ℝ => c + h • dx) dx 0 := fun c => by
      simpa using ((hasDerivAt_id (0 : ℝ)).mul_const dx).const_add c
    match i, (show i < 2 by omega) with
    | 0, _ =>
      simp at hx; subst hx
      simpa [mul_comm] using (hlin a).mul_const b
    | 1, _ =>
      simp at hx; subst hx
      simpa using (hlin b).const_mul a

/-- An object with one integral. -/
def single (active : List ℕ) : Mem ℝ ℝ ℝ ℝ Unit (ℝ × ℝ) :=
  { integrals := [product active], update := false, state := (), inputL := fun _ => 0, inputE := fun _ _ => 0, outputL := 0, outputE := fun _ => 0,
    outputT := 0, buffer := fun _ _ => none }

/-- **C52, negation for `DependsOn<0, 0>`.**  The hypothesis that no integral names an argument twice is needed: the residual is `u * u`, and for every
`u`, `dx` other than zero the action of the gradient just computed is `u * dx`, which is not the derivative. -/
theorem C52_repeated_wrong (u dx : ℝ) (hu : u ≠ 0) (hx : dx ≠ 0) :
    (∀ x : ℝ, (evaluate idOps none 0 (fun _ => x) (single [0, 0])).outputT = x * x) ∧
    ∃ m, action idOps 0 dx (evaluate idOps (some 0) 0 (fun _ => u) (single [0, 0])) = some (m, u * dx) ∧
      ¬ HasDerivAt (fun x : ℝ => (evaluate idOps none 0 (fun _ => u + x * dx) (single [0, 0])).outputT) (u * dx) 0 := by
  have hv : ∀ x : ℝ, (evaluate idOps none 0 (fun _ => x) (single [0, 0])).outputT = x * x := by
    intro x
    simp [evaluate, single, evalStep, gatherActive, mult, product, idOps]
  refine ⟨hv, ?_⟩
  refine ⟨_, by
    simp [action, actionStep, gradientMult, evaluate, single, evalStep, gatherActive, mult, product, idOps, Integral.index]; rfl, ?_⟩
  intro hd
  simp only [hv] at hd
  have hlin : HasDerivAt (fun h : ℝ => u + h * dx) dx 0 := by simpa using ((hasDerivAt_id (0 : ℝ)).mul_const dx).const_add u
  have h2 := (hlin.mul hlin).unique hd
  simp at h2
  exact h2.elim hx hu

/-! ### Example -/

/-- The identity operators are linear. -/
def idLinear : Linear idOps where
  P _ := ContinuousLinearMap.id ℝ ℝ
  G _ _ := ContinuousLinearMap.id ℝ ℝ
  S _ := ContinuousLinearMap.id ℝ ℝ
  R := ContinuousLinearMap.id ℝ ℝ
  hP _ _ := rfl
  hG _ _ _ := rfl
  hS _ _ _ := rfl
  hR _ := rfl

/-- `u v` differentiated with respect to `u` at `(2, 3)`, then evaluated at `(1, 1)`, differentiated with respect to `v` at `(5, 7)` and that gradient used:
all hypotheses hold, and the gradient with respect to `u` is still the one at `(2, 3)`. -/
example : ∃ m' m'' : Mem ℝ ℝ ℝ ℝ Unit (ℝ × ℝ),
    run idOps (evaluate idOps (some 0) 0 (fun i => if i = 0 then 2 else 3) (single [0, 1]))
      [.evaluate none 0 (fun _ => 1), .evaluate (some 1) 0 (fun i => if i = 0 then 5 else 7), .action 1 4] = some m' ∧
    (∀ I ∈ (single [0, 1]).integrals, Sound I ∧ Differentiates I ∧ I.active.Nodup) ∧
    action idOps 0 10 m' = some (m'', 30) ∧
    HasDerivAt (fun x : ℝ => (evaluate idOps none 0 (Function.update (fun i => if i = 0 then 2 else 3) 0 (2 + x • 10)) (single [0, 1])).outputT) 30 0 := by
  have hI : ∀ I ∈ (single [0, 1]).integrals, Sound I ∧ Differentiates I ∧ I.active.Nodup := by
    intro I hI
    simp only [single, List.mem_singleton] at hI
    subst hI
    exact ⟨product_sound _, product_differentiates _ rfl, by simp [product]⟩
  obtain ⟨m', hm'⟩ : ∃ m', run idOps (evaluate idOps (some 0) 0 (fun i => if i = 0 then 2 else 3) (single [0, 1]))
      [.evaluate none 0 (fun _ => 1), .evaluate (some 1) 0 (fun i => if i = 0 then 5 else 7), .action 1 4] = some m' := by
    apply Option.isSome_iff_exists.mp
    simp [run, call, action, actionStep, gradientMult, evaluate, single, evalStep, gatherActive, mult, product, idOps, Integral.index]
  obtain ⟨m'', v, h1, h2⟩ := C52_observable_partial idOps idLinear 0 0 (fun i => if i = 0 then 2 else 3) (single [0, 1]) m' rfl
    (fun I h => (hI I h).1) (fun I h => (hI I h).2.1) (fun I h => (hI I h).2.2) _ (by intro c hc; fin_cases hc <;> trivial)
    (by intro c hc; fin_cases hc <;> simp [Call.Quiet]) hm' 10
  have h3 : v = 30 := by
    have hd : HasDerivAt (fun x : ℝ => (evaluate idOps none 0 (Function.update (fun i => if i = 0 then 2 else 3) 0 (2 + x • 10)) (single [0, 1])).outputT) 30 0 := by
      have : ∀ x : ℝ, (evaluate idOps none 0 (Function.update (fun i => if i = 0 then 2 else 3) 0 (2 + x • 10)) (single [0, 1])).outputT
          = (2 + x * 10) * 3 := by
        intro x
        simp [evaluate, single, evalStep, gatherActive, mult, product, idOps]
      simp only [this]
      have := (((hasDerivAt_id (0 : ℝ)).mul_const 10).const_add 2).mul_const 3
      norm_num at this
      exact this
    exact h2.unique hd
  subst h3
  exact ⟨m', m'', hm', hI, h1, h2⟩

end Serac.C52
