import Verif.Model.Assemble
import Verif.Props.C06
import Verif.Props.C08
import Verif.Props.C09
import Mathlib.Tactic.Linarith
import Mathlib.Tactic.IntervalCases
/-!
# C53: the assembled gradient and its matrix-free action agree on every mesh

Spec: for any number of integrals over elements and boundary elements of any mixture of geometries, the local sparse matrix times any vector is what the
action of the gradient computes.  This extends the last theorem of C09 from one geometry and one integral.
-/

namespace Serac.C53
open Csr Assemble ElementRestriction BlockRestriction

variable {R : Type} [CommRing R]

/-! ### Spec: spaces on one mesh -/

/-- The records hold nothing but node numbers, and all vector dof numbers fit an `int`. -/
def Small (r : ElementRestriction) : Prop :=
  r.numNodes * r.components ≤ 2 ^ 31 ∧ ∀ e < r.numElements, ∀ i < r.nodesPerElem, (r.dofInfo e i).index.toNat < r.numNodes

/-- Test and trial space live on one mesh: the same geometries with the same elements; their dof numbers are in bounds; the dofs of a boundary element are
dofs of one element; every test dof (in particular the last) belongs to an element. -/
structure OneMesh (n ntrial : ℕ) (test trial : Space) : Prop where
  test_wf : ∀ b, C08.WF (test.get b) (n + 1)
  trial_wf : ∀ b, C08.WF (trial.get b) ntrial
  test_small : ∀ b g r, test.get b g = some r → Small r
  trial_small : ∀ b g r, trial.get b g = some r → Small r
  bounded : ∀ b g, numGeometries ≤ g → test.get b g = none
  same : ∀ b g, (test.get b g).isSome = (trial.get b g).isSome
  count : ∀ b g rs rt, test.get b g = some rs → trial.get b g = some rt → rs.numElements = rt.numElements
  inside : ∀ g rs rt, test.boundary g = some rs → trial.boundary g = some rt → ∀ e < rs.numElements, ∃ g' rs' rt' e',
    test.elements g' = some rs' ∧ trial.elements g' = some rt' ∧ e' < rs'.numElements ∧
    (∀ i < rs.nodesPerElem, ∃ i' < rs'.nodesPerElem, ∀ k < rs.components, k < rs'.components ∧ rs'.vdof e' i' k = rs.vdof e i k) ∧
    (∀ q < rt.nodesPerElem, ∃ q' < rt'.nodesPerElem, ∀ l < rt.components, l < rt'.components ∧ rt'.vdof e' q' l = rt.vdof e q l)
  last : ∃ g rs e i k, test.elements g = some rs ∧ e < rs.numElements ∧ i < rs.nodesPerElem ∧ k < rs.components ∧ rs.vdof e i k = n
  nonempty : ∀ g rt, trial.elements g = some rt → 0 < rt.nodesPerElem ∧ 0 < rt.components

theorem small_signs {r : ElementRestriction} (h : Small r) : C09.PlainSigns r := by
  intro e he i hi c hc
  have hn := h.2 e he i hi
  have hle : r.numNodes ≤ r.numNodes * r.components := Nat.le_mul_of_pos_right _ (by omega)
  have h1 := h.1
  rw [(C06.C06_vdof_partial r (r.dofInfo e i) c hn hc (by omega)).2.2, C01.sign_eq, ← C01.index_eq, if_pos (by omega)]

/-! ### One geometry -/

/-- Row `r` of the product of element matrices `M` with gathered values of `x`, for one geometry. -/
def geomAct (rs rt : ElementRestriction) (M : ℕ → ℕ → ℕ → R) (x : ℕ → R) (r : ℕ) : R :=
  ∑ e ∈ Finset.range rs.numElements, ∑ k ∈ Finset.range rs.components, ∑ i ∈ Finset.range rs.nodesPerElem,
    if rs.vdof e i k = r then ∑ l ∈ Finset.range rt.components, ∑ q ∈ Finset.range rt.nodesPerElem,
      M e (l * rt.nodesPerElem + q) (k * rs.nodesPerElem + i) * x (rt.vdof e q l) else 0

theorem geomAct_add (rs rt : ElementRestriction) (M N : ℕ → ℕ → ℕ → R) (x : ℕ → R) (r : ℕ) :
    geomAct rs rt (fun e i j => M e i j + N e i j) x r = geomAct rs rt M x r + geomAct rs rt N x r := by
  unfold geomAct
  simp only [← Finset.sum_add_distrib]
  refine Finset.sum_congr rfl fun e _ => Finset.sum_congr rfl fun k _ => Finset.sum_congr rfl fun i _ => ?_
  split_ifs
  · simp only [← Finset.sum_add_distrib, add_mul]
  · simp

theorem geomAct_zero (rs rt : ElementRestriction) (x : ℕ → R) (r : ℕ) : geomAct rs rt (fun _ _ _ => 0) x r = 0 := by
  unfold geomAct; simp

omit [CommRing R] in
theorem sum_flatMap' {A M : Type} [AddCommMonoid M] (l : List A) (f : A → List M) : (l.flatMap f).sum = (l.map fun a => (f a).sum).sum := by
  induction l with
  | nil => simp
  | cons a l ih => simp [ih]

/-- The contributions of one geometry, summed into row `r`. -/
theorem contribs_sum (rs rt : ElementRestriction) (hs : C09.PlainSigns rs) (ht : C09.PlainSigns rt) (hne : rs.numElements = rt.numElements)
    (sgn : ℤ → R) (h1 : sgn 1 = 1) (M : ℕ → ℕ → ℕ → R) (x : ℕ → R) (r : ℕ) :
    ((elemContribs rs rt sgn M).map fun c => if c.1.1 = r then c.2 * x c.1.2 else 0).sum = geomAct rs rt M x r := by
  rw [C09.elemContribs_eq]
  simp only [List.map_flatMap, sum_flatMap', List.map_map, sum_map_range, Function.comp_def]
  unfold geomAct
  rw [hne]
  refine Finset.sum_congr rfl fun e he => ?_
  have he' := Finset.mem_range.mp he
  have : ∀ k i, (if rs.vdof e i k = r then ∑ l ∈ Finset.range rt.components, ∑ q ∈ Finset.range rt.nodesPerElem,
      M e (l * rt.nodesPerElem + q) (k * rs.nodesPerElem + i) * x (rt.vdof e q l) else 0)
      = ∑ l ∈ Finset.range rt.components, ∑ q ∈ Finset.range rt.nodesPerElem,
        if rs.vdof e i k = r then M e (l * rt.nodesPerElem + q) (k * rs.nodesPerElem + i) * x (rt.vdof e q l) else 0 := by
    intro k i; split_ifs <;> simp
  simp only [this]
  conv_rhs => rw [C09.exchange4]
  refine Finset.sum_congr rfl fun l hl => Finset.sum_congr rfl fun q hq => Finset.sum_congr rfl fun k hk => Finset.sum_congr rfl fun i hi => ?_
  rw [hs e (by omega) i (Finset.mem_range.mp hi) k (Finset.mem_range.mp hk), ht e he' q (Finset.mem_range.mp hq) l (Finset.mem_range.mp hl)]
  simp only [mul_one, h1, one_mul]

/-! ### Loops over the geometries -/

omit [CommRing R] in
theorem foldlM_append {A B : Type} (l : List A) (f : List B → A → Option (List B)) (g : A → List B) (h : ∀ a ∈ l, ∀ acc, f acc a = some (acc ++ g a)) (acc : List B) :
    l.foldlM f acc = some (acc ++ l.flatMap g) := by
  induction l generalizing acc with
  | nil => simp
  | cons a l ih =>
    rw [List.foldlM_cons, h a (by simp)]
    refine (ih (fun b hb => h b (by simp [hb])) (acc ++ g a)).trans ?_
    simp [List.append_assoc]

/-- Entries of one geometry. -/
def entriesOf (test trial : BlockRestriction) (g : ℕ) : List Entry :=
  match test g, trial g with
  | some rs, some rt => emitGeom rs rt
  | _, _ => []

theorem emit_eq {n m : ℕ} {test trial : Space} (h : OneMesh n m test trial) :
    emit test.elements trial.elements = some ((List.range numGeometries).flatMap (entriesOf test.elements trial.elements)) := by
  unfold emit
  rw [foldlM_append _ _ (entriesOf test.elements trial.elements)]
  · simp
  intro g _ acc
  have hs := h.same false g
  simp only [Space.get] at hs
  unfold entriesOf
  cases ht : trial.elements g with
  | none => cases test.elements g <;> simp
  | some rt =>
    cases hs' : test.elements g with
    | none => simp [hs', ht] at hs
    | some rs => simp

/-- Contributions of one geometry. -/
def contribsOf (sgn : ℤ → R) (test trial : BlockRestriction) (k : KMap R) (g : ℕ) : List (Entry × R) :=
  match k g, test g, trial g with
  | some M, some rs, some rt => elemContribs rs rt sgn M
  | _, _, _ => []

theorem typeContribs_eq {n m : ℕ} {test trial : Space} (h : OneMesh n m test trial) (sgn : ℤ → R) (b : Bool) (k : KMap R)
    (hk : ∀ g M, k g = some M → (test.get b g).isSome) :
    typeContribs sgn (test.get b) (trial.get b) k = some ((List.range numGeometries).flatMap (contribsOf sgn (test.get b) (trial.get b) k)) := by
  unfold typeContribs
  rw [foldlM_append _ _ (contribsOf sgn (test.get b) (trial.get b) k)]
  · simp
  intro g _ acc
  unfold contribsOf
  cases hM : k g with
  | none => simp
  | some M =>
    have hs := hk g M hM
    have hsame := h.same b g
    cases hs' : test.get b g with
    | none => simp [hs'] at hs
    | some rs =>
      cases ht : trial.get b g with
      | none => simp [hs', ht] at hsame
      | some rt =>
        have := h.count b g rs rt hs' ht
        simp only [this]

/-! ### Element matrices of all integrals -/

/-- Element matrices one integral adds for geometry `g` of domain type `b`. -/
def added (I : Integral R) (b : Bool) (g e i j : ℕ) : R :=
  if I.boundary = b ∧ I.depends = true then (I.geoms.map fun g' => if g' = g then I.K g e i j else 0).sum else 0

/-- Sum over the integrals. -/
def total (Is : List (Integral R)) (b : Bool) (g e i j : ℕ) : R := (Is.map fun I => added I b g e i j).sum

theorem addGeoms_eq (I : Integral R) (dom : ℕ → Option ElementRestriction) (gs : List ℕ) (hg : ∀ g ∈ gs, (dom g).isSome)
    (M : ℕ → ℕ → ℕ → ℕ → R) :
    gs.foldlM (fun (k : KMap R) g =>
      match k g with
      | none => none
      | some M => some fun g' => if g' = g then some fun e i j => M e i j + I.K g e i j else k g') (fun g => (dom g).map fun _ => M g)
    = some (fun g => (dom g).map fun _ => fun e i j => M g e i j + (gs.map fun g' => if g' = g then I.K g e i j else 0).sum) := by
  induction gs generalizing M with
  | nil => simp
  | cons a gs ih =>
    rw [List.foldlM_cons]
    obtain ⟨r, hr⟩ := Option.isSome_iff_exists.mp (hg a (by simp))
    have hstep : (fun g' : ℕ => if g' = a then some fun e i j => M a e i j + I.K a e i j else (dom g').map fun _ => M g')
        = fun g => (dom g).map fun _ => fun e i j => M g e i j + if a = g then I.K g e i j else 0 := by
      funext g
      by_cases h : g = a
      · subst h; simp [hr]
      · have h' : ¬ a = g := fun h' => h h'.symm
        simp only [h, h', if_false, add_zero]
    simp only [hr, Option.map_some]
    rw [← hr] at *
    have := ih (fun g h => hg g (by simp [h])) (fun g e i j => M g e i j + if a = g then I.K g e i j else 0)
    rw [← hstep] at this
    refine Eq.trans this ?_
    congr 1
    funext g
    congr 1
    funext _ e i j
    simp [add_assoc]

/-- State of the maps after some integrals. -/
def Inv (test : Space) (done : List (Integral R)) (ks : Bool → KMap R) : Prop :=
  ∀ b, (ks b = (fun _ => none) ∧ ∀ I ∈ done, I.boundary ≠ b) ∨ ks b = fun g => (test.get b g).map fun _ => total done b g

theorem elementStep_inv {n m : ℕ} {test trial : Space} (h : OneMesh n m test trial) (done : List (Integral R)) (ks : Bool → KMap R)
    (hi : Inv test done ks) (I : Integral R) (hg : ∀ g ∈ I.geoms, (test.get I.boundary g).isSome) :
    ∃ ks', elementStep test ks I = some ks' ∧ Inv test (done ++ [I]) ks' := by
  have hk : (if isEmpty (ks I.boundary) then allocate (test.get I.boundary) else ks I.boundary)
      = fun g => (test.get I.boundary g).map fun _ => total done I.boundary g := by
    rcases hi I.boundary with ⟨h1, h2⟩ | h1
    · have : isEmpty (ks I.boundary) = true := by rw [h1]; simp [isEmpty]
      rw [if_pos this]
      unfold allocate
      funext g
      congr 1
      funext _ e i j
      unfold total
      symm
      apply List.sum_eq_zero
      intro y hy
      obtain ⟨J, hJ, rfl⟩ := List.mem_map.mp hy
      unfold added
      rw [if_neg (fun h' => h2 J hJ h'.1)]
    · split_ifs with he
      · rw [← h1]
        funext g
        simp only [isEmpty, List.all_eq_true, List.mem_range] at he
        by_cases hlt : g < numGeometries
        · have := he g hlt
          rw [h1] at this ⊢
          simp only [Option.isNone_map, Option.isNone_iff_eq_none] at this
          simp [allocate, this]
        · have := h.bounded I.boundary g (by omega)
          rw [h1]
          simp [allocate, this]
      · exact h1
  have htot : ∀ b g, total (done ++ [I]) b g = fun e i j => total done b g e i j + added I b g e i j := by
    intro b g; funext e i j; simp [total]
  have key : ∀ k' : KMap R, k' = (fun g => (test.get I.boundary g).map fun _ => total (done ++ [I]) I.boundary g) →
      Inv test (done ++ [I]) (fun b => if b = I.boundary then k' else ks b) := by
    intro k' hk' b
    by_cases hb : b = I.boundary
    · subst hb; right; simp only [if_true]; exact hk'
    · simp only [hb, if_false]
      rcases hi b with ⟨h1, h2⟩ | h1
      · left
        refine ⟨h1, fun J hJ => ?_⟩
        rcases List.mem_append.mp hJ with hJ | hJ
        · exact h2 J hJ
        · rw [List.mem_singleton.mp hJ]; exact fun h' => hb h'.symm
      · right
        rw [h1]
        funext g
        congr 1
        funext _ e i j
        rw [htot]
        have : ¬ (I.boundary = b ∧ I.depends = true) := fun h' => hb h'.1.symm
        simp [added, this]
  unfold elementStep
  simp only [hk]
  by_cases hd : I.depends = true
  · have : addGeoms I (fun g => (test.get I.boundary g).map fun _ => total done I.boundary g) = _ :=
      addGeoms_eq I (test.get I.boundary) I.geoms hg (total done I.boundary)
    simp only [hd, if_true]
    rw [this]
    refine ⟨_, rfl, key _ ?_⟩
    funext g
    congr 1
    funext _ e i j
    rw [htot]
    simp [added, hd]
  · simp only [hd]
    refine ⟨_, rfl, key _ ?_⟩
    funext g
    congr 1
    funext _ e i j
    rw [htot]
    simp [added, hd]

theorem elementLoop {n m : ℕ} {test trial : Space} (h : OneMesh n m test trial) (Is done : List (Integral R)) (ks : Bool → KMap R)
    (hi : Inv test done ks) (hg : ∀ I ∈ Is, ∀ g ∈ I.geoms, (test.get I.boundary g).isSome) :
    ∃ ks', Is.foldlM (elementStep test) ks = some ks' ∧ Inv test (done ++ Is) ks' := by
  induction Is generalizing done ks with
  | nil => exact ⟨ks, rfl, by simpa using hi⟩
  | cons I Is ih =>
    obtain ⟨k1, h1, i1⟩ := elementStep_inv h done ks hi I (hg I (by simp))
    obtain ⟨k2, h2, i2⟩ := ih (done ++ [I]) k1 i1 (fun J hJ => hg J (by simp [hJ]))
    refine ⟨k2, by rw [List.foldlM_cons, h1]; exact h2, by simpa using i2⟩

/-! ### The matrix-free side -/

/-- What one integral adds to row `r`. -/
def integralAct (test trial : Space) (I : Integral R) (x : ℕ → R) (r : ℕ) : R :=
  ∑ g ∈ Finset.range numGeometries, match test.get I.boundary g, trial.get I.boundary g with
    | some rs, some rt => geomAct rs rt (added I I.boundary g) x r
    | _, _ => 0

theorem off_eq (b : BlockRestriction) {g : ℕ} (hg : g ≤ numGeometries) : off b g = C08.start b g := C08.bOffsets_getD b g hg

/-- The element vector of the action at a position of geometry `g`. -/
theorem gradientMult_at {n m : ℕ} {test trial : Space} (h : OneMesh n m test trial) (I : Integral R) (hg : ∀ g ∈ I.geoms, g < numGeometries)
    (E : ℕ → R) (x : Vec R) (g : ℕ) (hlt : g < numGeometries) (rs rt : ElementRestriction) (hs : test.get I.boundary g = some rs)
    (ht : trial.get I.boundary g = some rt)
    (hE : ∀ i < rt.numElements, ∀ c < rt.components, ∀ j < rt.nodesPerElem,
        E (C08.start (trial.get I.boundary) g + C07.epos rt i c j) = x.val (rt.vdof i j c))
    (e k i : ℕ) (he : e < rs.numElements) (hk : k < rs.components) (hi : i < rs.nodesPerElem) :
    gradientMult (test.get I.boundary) (trial.get I.boundary) I E (C08.start (test.get I.boundary) g + C07.epos rs e k i)
      = ∑ l ∈ Finset.range rt.components, ∑ q ∈ Finset.range rt.nodesPerElem,
        added I I.boundary g e (l * rt.nodesPerElem + q) (k * rs.nodesPerElem + i) * x.val (rt.vdof e q l) := by
  set bs := test.get I.boundary
  set bt := trial.get I.boundary
  have hsize : bs.blockSize g = rs.esize := by simp [blockSize, hs]
  have hki : k * rs.nodesPerElem + i < rs.components * rs.nodesPerElem := by
    calc k * rs.nodesPerElem + i < (k + 1) * rs.nodesPerElem := by rw [Nat.succ_mul]; omega
      _ ≤ _ := Nat.mul_le_mul_right _ hk
  have hep : C07.epos rs e k i = rs.components * rs.nodesPerElem * e + (k * rs.nodesPerElem + i) := by unfold C07.epos; ring
  have hpos : C07.epos rs e k i < rs.esize := by
    rw [hep]
    unfold ElementRestriction.esize
    calc rs.components * rs.nodesPerElem * e + (k * rs.nodesPerElem + i) < rs.components * rs.nodesPerElem * (e + 1) := by rw [Nat.mul_succ]; omega
      _ ≤ rs.components * rs.nodesPerElem * rs.numElements := Nat.mul_le_mul_left _ he
      _ = _ := by ring
  -- the position lies in block g and in no other
  have hblock : ∀ g' < numGeometries, (off bs g' ≤ C08.start bs g + C07.epos rs e k i ∧
      C08.start bs g + C07.epos rs e k i < off bs g' + bs.blockSize g') ↔ g' = g := by
    intro g' hg'
    rw [off_eq bs (by omega)]
    constructor
    · intro h'
      have htot : C08.start bs g + C07.epos rs e k i < C08.total bs := by
        have : C08.start bs (g + 1) ≤ C08.total bs := C08.start_mono bs (by omega)
        have h2 : C08.start bs (g + 1) = C08.start bs g + bs.blockSize g := by simp [C08.start, Finset.sum_range_succ]
        omega
      obtain ⟨g0, -, huniq⟩ := C08.C08_partition bs _ htot
      have a := huniq g' ⟨hg', h'⟩
      have b := huniq g ⟨hlt, by omega, by omega⟩
      rw [a, b]
    · rintro rfl
      omega
  have hper : perElem bs g = rs.components * rs.nodesPerElem := by simp [perElem, hs]
  have hpert : perElem bt g = rt.components * rt.nodesPerElem := by simp [perElem, ht]
  have hcpos : 0 < rs.components * rs.nodesPerElem := by omega
  have he' : e < rt.numElements := by rw [← h.count I.boundary g rs rt hs ht]; exact he
  -- one kernel
  have hone : ∀ g' ∈ I.geoms, (if off bs g' ≤ C08.start bs g + C07.epos rs e k i ∧ C08.start bs g + C07.epos rs e k i < off bs g' + bs.blockSize g' then
        let e' := (C08.start bs g + C07.epos rs e k i - off bs g') / perElem bs g'
        let j := (C08.start bs g + C07.epos rs e k i - off bs g') % perElem bs g'
        ((List.range (perElem bt g')).map fun i => I.K g' e' i j * E (off bt g' + e' * perElem bt g' + i)).sum
      else 0) = ∑ l ∈ Finset.range rt.components, ∑ q ∈ Finset.range rt.nodesPerElem,
        (if g' = g then I.K g e (l * rt.nodesPerElem + q) (k * rs.nodesPerElem + i) else 0) * x.val (rt.vdof e q l) := by
    intro g' hg'
    have hg'' := hg g' hg'
    by_cases hgg : g' = g
    · subst hgg
      rw [if_pos ((hblock g' hg'').mpr rfl)]
      simp only [if_true]
      rw [off_eq bs (by omega), off_eq bt (by omega), Nat.add_sub_cancel_left, hper, hpert, hep, Nat.mul_add_div hcpos, Nat.mul_add_mod,
        Nat.div_eq_of_lt hki, Nat.mod_eq_of_lt hki, Nat.add_zero]
      rw [← range_mul_eq]
      rw [List.map_flatMap, sum_flatMap', sum_map_range]
      refine Finset.sum_congr rfl fun l hl => ?_
      rw [List.map_map, sum_map_range]
      refine Finset.sum_congr rfl fun q hq => ?_
      simp only [Function.comp]
      rw [← hE e he' l (Finset.mem_range.mp hl) q (Finset.mem_range.mp hq)]
      congr 2
      unfold C07.epos; ring
    · rw [if_neg (fun h' => hgg ((hblock g' hg'').mp h'))]
      simp [hgg]
  unfold gradientMult
  by_cases hd : I.depends = true
  · simp only [hd, if_true]
    rw [List.map_congr_left hone]
    simp only [added, hd, and_self, if_true]
    generalize I.geoms = gs
    induction gs with
    | nil => simp
    | cons a gs ih =>
      simp only [List.map_cons, List.sum_cons, add_mul, Finset.sum_add_distrib]
      rw [ih]
  · simp [hd, added]

theorem actionStep_eq {n m : ℕ} {test trial : Space} (h : OneMesh n m test trial) (I : Integral R) (hg : ∀ g ∈ I.geoms, g < numGeometries)
    (x L : Vec R) (hx : x.size = m) (hL : L.size = n + 1) :
    ∃ S, actionStep test trial x L I = some S ∧ S.size = n + 1 ∧ ∀ r, S.val r = L.val r + integralAct test trial I x.val r := by
  obtain ⟨E, e1, e2, -⟩ := C08.C08_gather (trial.get I.boundary) m (h.trial_wf I.boundary) x hx (fun _ => 0)
  obtain ⟨S, s1, s2, s3⟩ := C08.C08_scatterAdd (test.get I.boundary) (n + 1) (h.test_wf I.boundary)
    (gradientMult (test.get I.boundary) (trial.get I.boundary) I E) L hL
  refine ⟨S, ?_, s2, fun r => ?_⟩
  · unfold actionStep
    rw [e1]; exact s1
  · rw [s3 r]
    congr 1
    unfold C08.slotSum integralAct
    refine Finset.sum_congr rfl fun g hg' => ?_
    have hlt := Finset.mem_range.mp hg'
    have hsame := h.same I.boundary g
    cases hs : test.get I.boundary g with
    | none => rfl
    | some rs =>
      cases ht : trial.get I.boundary g with
      | none => simp [hs, ht] at hsame
      | some rt =>
        simp only
        unfold geomAct
        refine Finset.sum_congr rfl fun e he => Finset.sum_congr rfl fun k hk => Finset.sum_congr rfl fun i hi => ?_
        rw [gradientMult_at h I hg E x g hlt rs rt hs ht (fun a ha b hb c hc => e2 g hlt rt ht a ha b hb c hc) e k i (Finset.mem_range.mp he)
          (Finset.mem_range.mp hk) (Finset.mem_range.mp hi)]

theorem action_eq {n m : ℕ} {test trial : Space} (h : OneMesh n m test trial) (Is : List (Integral R)) (hg : ∀ I ∈ Is, ∀ g ∈ I.geoms, g < numGeometries)
    (x L : Vec R) (hx : x.size = m) (hL : L.size = n + 1) :
    ∃ S, Is.foldlM (actionStep test trial x) L = some S ∧ S.size = n + 1 ∧
      ∀ r, S.val r = L.val r + (Is.map fun I => integralAct test trial I x.val r).sum := by
  induction Is generalizing L with
  | nil => exact ⟨L, rfl, hL, by simp⟩
  | cons I Is ih =>
    obtain ⟨S, s1, s2, s3⟩ := actionStep_eq h I (hg I (by simp)) x L hx hL
    obtain ⟨S', t1, t2, t3⟩ := ih (fun J hJ => hg J (by simp [hJ])) S s2
    refine ⟨S', by rw [List.foldlM_cons, s1]; exact t1, t2, fun r => ?_⟩
    rw [t3, s3]; simp [add_assoc]

/-! ### Agreement -/

/-- Row `r` of the contributions of one domain type. -/
theorem typeSum {n m : ℕ} {test trial : Space} (h : OneMesh n m test trial) (sgn : ℤ → R) (h1 : sgn 1 = 1) (b : Bool) (Is : List (Integral R)) (ks : Bool → KMap R)
    (hi : Inv test Is ks) (x : ℕ → R) (r : ℕ) :
    ((((List.range numGeometries).flatMap (contribsOf sgn (test.get b) (trial.get b) (ks b))).map fun c =>
        if c.1.1 = r then c.2 * x c.1.2 else 0)).sum
      = ∑ g ∈ Finset.range numGeometries, match test.get b g, trial.get b g with
        | some rs, some rt => geomAct rs rt (total Is b g) x r
        | _, _ => 0 := by
  rw [List.map_flatMap, sum_flatMap', sum_map_range]
  refine Finset.sum_congr rfl fun g _ => ?_
  have hsame := h.same b g
  unfold contribsOf
  cases hs : test.get b g with
  | none => cases ks b g <;> simp
  | some rs =>
    cases ht : trial.get b g with
    | none => simp [hs, ht] at hsame
    | some rt =>
      rcases hi b with ⟨e1, e2⟩ | e1
      · rw [e1]
        have : total Is b g = fun _ _ _ => 0 := by
          funext e i j
          unfold total
          apply List.sum_eq_zero
          intro y hy
          obtain ⟨J, hJ, rfl⟩ := List.mem_map.mp hy
          unfold added
          rw [if_neg (fun h' => e2 J hJ h'.1)]
        simp [this, geomAct_zero]
      · rw [e1]
        simp only [hs, Option.map_some]
        exact contribs_sum rs rt (small_signs (h.test_small b g rs hs)) (small_signs (h.trial_small b g rt ht)) (h.count b g rs rt hs ht) sgn h1 _ x r

/-- Both domain types together are the sum over the integrals. -/
theorem typesSum (test trial : Space) (Is : List (Integral R)) (x : ℕ → R) (r : ℕ) :
    (∑ g ∈ Finset.range numGeometries, match test.get false g, trial.get false g with
        | some rs, some rt => geomAct rs rt (total Is false g) x r
        | _, _ => 0)
      + (∑ g ∈ Finset.range numGeometries, match test.get true g, trial.get true g with
        | some rs, some rt => geomAct rs rt (total Is true g) x r
        | _, _ => 0)
      = (Is.map fun I => integralAct test trial I x r).sum := by
  have hadd : ∀ b (I : Integral R) (Is : List (Integral R)), (∑ g ∈ Finset.range numGeometries, match test.get b g, trial.get b g with
        | some rs, some rt => geomAct rs rt (total (I :: Is) b g) x r
        | _, _ => 0)
      = (∑ g ∈ Finset.range numGeometries, match test.get b g, trial.get b g with
        | some rs, some rt => geomAct rs rt (added I b g) x r
        | _, _ => 0)
      + (∑ g ∈ Finset.range numGeometries, match test.get b g, trial.get b g with
        | some rs, some rt => geomAct rs rt (total Is b g) x r
        | _, _ => 0) := by
    intro b I Is
    rw [← Finset.sum_add_distrib]
    refine Finset.sum_congr rfl fun g _ => ?_
    have : total (I :: Is) b g = fun e i j => added I b g e i j + total Is b g e i j := by funext e i j; simp [total]
    rw [this]
    cases test.get b g with
    | none => simp
    | some rs => cases trial.get b g with
      | none => simp
      | some rt => simp only [geomAct_add]
  have hone : ∀ I : Integral R, (∑ g ∈ Finset.range numGeometries, match test.get false g, trial.get false g with
        | some rs, some rt => geomAct rs rt (added I false g) x r
        | _, _ => 0)
      + (∑ g ∈ Finset.range numGeometries, match test.get true g, trial.get true g with
        | some rs, some rt => geomAct rs rt (added I true g) x r
        | _, _ => 0) = integralAct test trial I x r := by
    intro I
    have hz : ∀ b, b ≠ I.boundary → (∑ g ∈ Finset.range numGeometries, match test.get b g, trial.get b g with
        | some rs, some rt => geomAct rs rt (added I b g) x r
        | _, _ => 0) = 0 := by
      intro b hb
      apply Finset.sum_eq_zero
      intro g _
      have : added I b g = fun _ _ _ => 0 := by
        funext e i j
        unfold added
        rw [if_neg (fun h' => hb h'.1.symm)]
      rw [this]
      cases test.get b g with
      | none => simp
      | some rs => cases trial.get b g with
        | none => simp
        | some rt => simp only [geomAct_zero]
    unfold integralAct
    cases hb : I.boundary with
    | false => rw [hz true (by simp [hb]), add_zero]
    | true => rw [hz false (by simp [hb]), zero_add]
  induction Is with
  | nil =>
    have hz : ∀ b, (∑ g ∈ Finset.range numGeometries, match test.get b g, trial.get b g with
        | some rs, some rt => geomAct rs rt (total ([] : List (Integral R)) b g) x r
        | _, _ => 0) = 0 := by
      intro b
      apply Finset.sum_eq_zero
      intro g _
      have : total ([] : List (Integral R)) b g = fun _ _ _ => 0 := by funext e i j; simp [total]
      rw [this]
      cases test.get b g with
      | none => simp
      | some rs => cases trial.get b g with
        | none => simp
        | some rt => simp only [geomAct_zero]
    rw [hz, hz]; simp
  | cons I Is ih =>
    rw [hadd false, hadd true, List.map_cons, List.sum_cons, ← ih, ← hone I]
    ring

theorem mem_emitGeom {rs rt : ElementRestriction} {p : Entry} : p ∈ emitGeom rs rt ↔
    ∃ e < rt.numElements, ∃ i < rs.nodesPerElem, ∃ q < rt.nodesPerElem, ∃ k < rs.components, ∃ l < rt.components, p = (rs.vdof e i k, rt.vdof e q l) := by
  simp only [emitGeom, List.mem_flatMap, List.mem_range, List.mem_map]
  constructor
  · rintro ⟨e, he, i, hi, q, hq, k, hk, l, hl, rfl⟩
    exact ⟨e, he, i, hi, q, hq, k, hk, l, hl, rfl⟩
  · rintro ⟨e, he, i, hi, q, hq, k, hk, l, hl, rfl⟩
    exact ⟨e, he, i, hi, q, hq, k, hk, l, hl, rfl⟩

/-- All pairs addressed by contributions are in the table. -/
theorem covered {n m : ℕ} {test trial : Space} (h : OneMesh n m test trial) (sgn : ℤ → R) (b : Bool) (k : KMap R) :
    ∀ c ∈ (List.range numGeometries).flatMap (contribsOf sgn (test.get b) (trial.get b) k),
      c.1 ∈ (List.range numGeometries).flatMap (entriesOf test.elements trial.elements) := by
  intro c hc
  obtain ⟨g, hg, hc⟩ := List.mem_flatMap.mp hc
  unfold contribsOf at hc
  cases hM : k g with
  | none => simp [hM] at hc
  | some M =>
    cases hs : test.get b g with
    | none => simp [hM, hs] at hc
    | some rs =>
      cases ht : trial.get b g with
      | none => simp [hM, hs, ht] at hc
      | some rt =>
        simp only [hM, hs, ht] at hc
        rw [C09.elemContribs_eq] at hc
        simp only [List.mem_flatMap, List.mem_range, List.mem_map] at hc
        obtain ⟨e, he, l, hl, q, hq, k', hk, i, hi, rfl⟩ := hc
        have hcount := h.count b g rs rt hs ht
        cases b with
        | false =>
          refine List.mem_flatMap.mpr ⟨g, hg, ?_⟩
          unfold entriesOf
          simp only [Space.get, Bool.false_eq_true, if_false] at hs ht
          rw [hs, ht]
          exact mem_emitGeom.mpr ⟨e, he, i, hi, q, hq, k', hk, l, hl, rfl⟩
        | true =>
          simp only [Space.get, if_true] at hs ht
          obtain ⟨g', rs', rt', e', hs', ht', he', hI, hQ⟩ := h.inside g rs rt hs ht e (by omega)
          obtain ⟨i', hi', hi2⟩ := hI i hi
          obtain ⟨q', hq', hq2⟩ := hQ q hq
          have hc' := h.count false g' rs' rt' (by simpa [Space.get] using hs') (by simpa [Space.get] using ht')
          have hg' : g' < numGeometries := by
            by_contra hge
            have := h.bounded false g' (by omega)
            simp only [Space.get, Bool.false_eq_true, if_false] at this
            rw [this] at hs'; cases hs'
          refine List.mem_flatMap.mpr ⟨g', List.mem_range.mpr hg', ?_⟩
          unfold entriesOf
          rw [hs', ht']
          refine mem_emitGeom.mpr ⟨e', by omega, i', hi', q', hq', k', (hi2 k' hk).1, l, (hq2 l hl).1, ?_⟩
          rw [(hi2 k' hk).2, (hq2 l hl).2]

/-- **C53.**  For every mesh and every pair of spaces on it, every list of integrals over its elements and boundary elements and every vector: assembling
succeeds, the action of the gradient succeeds, and the assembled matrix times the vector is the action. -/
theorem C53_assembled {n m : ℕ} {test trial : Space} (h : OneMesh n m test trial) (sgn : ℤ → R) (h1 : sgn 1 = 1) (Is : List (Integral R))
    (hg : ∀ I ∈ Is, ∀ g ∈ I.geoms, (test.get I.boundary g).isSome) :
    ∃ t vals, Assemble.assemble sgn (n + 1) test trial Is = some (t, vals) ∧
      ∀ x : Vec R, x.size = m → ∃ S, Assemble.action (n + 1) test trial Is x = some S ∧ ∀ r < n + 1, mult t vals.val x.val r = S.val r := by
  have hg8 : ∀ I ∈ Is, ∀ g ∈ I.geoms, g < numGeometries := by
    intro I hI g hgI
    by_contra hge
    have := hg I hI g hgI
    rw [h.bounded I.boundary g (by omega)] at this
    simp at this
  set touched := (List.range numGeometries).flatMap (entriesOf test.elements trial.elements) with htouched
  have hrow : ∀ p ∈ touched, p.1 < n + 1 := by
    intro p hp
    obtain ⟨g, hg', hp⟩ := List.mem_flatMap.mp hp
    unfold entriesOf at hp
    cases hs : test.elements g with
    | none => simp [hs] at hp
    | some rs =>
      cases ht : trial.elements g with
      | none => simp [hs, ht] at hp
      | some rt =>
        simp only [hs, ht] at hp
        obtain ⟨e, he, i, hi, q, hq, k, hk, l, hl, rfl⟩ := mem_emitGeom.mp hp
        have hw := h.test_wf false g rs (by simpa [Space.get] using hs)
        have hc := h.count false g rs rt (by simpa [Space.get] using hs) (by simpa [Space.get] using ht)
        have := hw.2 e (by omega) k hk i hi
        rw [hw.1] at this
        exact this
  have hlast : ∃ p ∈ touched, p.1 = n := by
    obtain ⟨g, rs, e, i, k, hs, he, hi, hk, hv⟩ := h.last
    have hsame := h.same false g
    simp only [Space.get, Bool.false_eq_true, if_false] at hsame
    rw [hs] at hsame
    obtain ⟨rt, ht⟩ := Option.isSome_iff_exists.mp hsame.symm
    have hc := h.count false g rs rt (by simpa [Space.get] using hs) (by simpa [Space.get] using ht)
    have hne := h.nonempty g rt ht
    have hg' : g < numGeometries := by
      by_contra hge
      have := h.bounded false g (by omega)
      simp only [Space.get, Bool.false_eq_true, if_false] at this
      rw [this] at hs; cases hs
    refine ⟨(rs.vdof e i k, rt.vdof e 0 0), List.mem_flatMap.mpr ⟨g, List.mem_range.mpr hg', ?_⟩, hv⟩
    unfold entriesOf
    rw [hs, ht]
    exact mem_emitGeom.mpr ⟨e, by omega, i, hi, 0, hne.1, k, hk, 0, hne.2, rfl⟩
  obtain ⟨ks, k1, k2⟩ := elementLoop h Is [] (fun _ => fun _ => none) (fun b => Or.inl ⟨rfl, by simp⟩) hg
  simp only [List.nil_append] at k2
  have hks : ∀ b g M, ks b g = some M → (test.get b g).isSome := by
    intro b g M hM
    rcases k2 b with ⟨e1, -⟩ | e1
    · rw [e1] at hM; cases hM
    · rw [e1] at hM
      cases hs : test.get b g with
      | none => simp [hs] at hM
      | some r => rfl
  have c1 := typeContribs_eq h sgn false (ks false) (hks false)
  have c2 := typeContribs_eq h sgn true (ks true) (hks true)
  set C1 := (List.range numGeometries).flatMap (contribsOf sgn (test.get false) (trial.get false) (ks false))
  set C2 := (List.range numGeometries).flatMap (contribsOf sgn (test.get true) (trial.get true) (ks true))
  obtain ⟨t, vals, t1, a1, act⟩ := C09.C09_action_partial n touched hrow hlast (C1 ++ C2) (by
    intro c hc
    rcases List.mem_append.mp hc with hc | hc
    · exact covered h sgn false (ks false) c hc
    · exact covered h sgn true (ks true) c hc)
  refine ⟨t, vals, ?_, fun x hx => ?_⟩
  · unfold Assemble.assemble
    rw [emit_eq h]
    simp only [Space.get, Bool.false_eq_true, if_false, if_true] at c1 c2
    simp only [Option.bind_eq_bind, Option.bind_some]
    rw [← htouched, t1]
    simp only [Option.bind_some, k1, c1, c2, a1]
    rfl
  · obtain ⟨S, s1, -, s3⟩ := action_eq h Is hg8 x ⟨n + 1, fun _ => 0⟩ hx rfl
    refine ⟨S, s1, fun r hr => ?_⟩
    rw [act x.val r hr, s3 r, List.map_append, List.sum_append, typeSum h sgn h1 false Is ks k2, typeSum h sgn h1 true Is ks k2, typesSum]
    simp

/-! ### Hcurl spaces -/

omit [CommRing R] in
theorem foldlM_fail {A B : Type} (l : List A) (f : B → A → Option B) (a : A) (ha : a ∈ l) (hf : ∀ b, f b a = none) (b : B) : l.foldlM f b = none := by
  induction l generalizing b with
  | nil => cases ha
  | cons c l ih =>
    rw [List.foldlM_cons]
    rcases List.mem_cons.mp ha with rfl | ha
    · rw [hf]; rfl
    · cases f b c with
      | none => rfl
      | some b' => exact ih ha b'

/-- The record `GetElementRestriction` makes for the dof number `-1 - k`, by which MFEM says that the dof `k` is to be taken with the opposite sign. -/
def reversed (k : ℕ) : DoF := DoF.mk3 (BitVec.ofInt 64 (-1 - (k : ℤ))) 1#64 0#64

theorem reversed_pos (r : ElementRestriction) (hc : r.components = 1) (k : ℕ) (hk : k < 2 ^ 31) : (r.getVDof (reversed k) 0).pos = 2 ^ 32 - 1 - k := by
  have h1 : (reversed k).bits.toNat = 2 ^ 64 - 1 - k := by
    have h2 : (reversed k).bits = BitVec.ofInt 64 (-1 - (k : ℤ)) := by
      unfold reversed DoF.mk3 DoF.signShift DoF.orientationShift
      have : (1#64 &&& 0x1#64 <<< 63) + ((0#64 &&& 0x7#64) <<< 60) = 0#64 := by decide
      simp only [this]
      simp
    rw [h2, BitVec.toNat_ofInt]
    omega
  have hp : (reversed k).pos = 2 ^ 32 - 1 - k := by
    rw [DoF.pos, C01.index_eq, h1]
    omega
  have key : r.getVDof (reversed k) 0 = C01.build (BitVec.ofNat 64 ((reversed k).bits.toNat)) (decide ((reversed k).sign ≠ 1)) (reversed k).orientation := by
    unfold ElementRestriction.getVDof C01.build
    cases r.ordering <;> by_cases hs : (reversed k).sign = 1 <;> simp [hs, hc, C01.index_eq]
  rw [DoF.pos, C01.index_eq, key, C01.bits_toNat_mod _ _ _ (C06.orientation_lt _), BitVec.toNat_ofNat, h1]
  omega

omit [CommRing R] in
/-- **C53, negation for Hcurl spaces.**  If some edge of some element has the opposite orientation (on every mesh but the simplest), the record points outside
every vector, so gathering (and with it evaluating and differentiating) is undefined. -/
theorem C53_hcurl_wrong (r : ElementRestriction) (hc : r.components = 1) (e i k : ℕ) (he : e < r.numElements) (hi : i < r.nodesPerElem) (hk : k < 2 ^ 31)
    (hr : r.dofInfo e i = reversed k) (L E : Vec R) (hL : L.size ≤ 2 ^ 31) : r.gather L E = none := by
  unfold ElementRestriction.gather
  refine foldlM_fail _ _ ((e * r.components + 0) * r.nodesPerElem + i, r.vdof e i 0) (mem_loopIds.mpr ⟨e, he, 0, by omega, i, hi, rfl⟩) ?_ E
  intro E'
  have hv : 2 ^ 31 ≤ r.vdof e i 0 := by
    unfold ElementRestriction.vdof
    rw [hr, reversed_pos r hc k hk]
    omega
  have : L.get? (r.vdof e i 0) = none := by
    unfold Vec.get?
    rw [if_neg (by omega)]
  simp [this]

/-- A mesh of one square with its four edges, the last of which is reversed. -/
example : ∃ r : ElementRestriction, r.components = 1 ∧ 0 < r.numElements ∧ 3 < r.nodesPerElem ∧ r.dofInfo 0 3 = reversed 3 ∧
    r.gather (⟨4, fun _ => (1 : ℤ)⟩ : Vec ℤ) ⟨4, fun _ => 0⟩ = none := by
  refine ⟨ElementRestriction.build .byNODES 4 1 1 4 fun _ j => if j = 3 then reversed 3 else DoF.mk3 (BitVec.ofNat 64 j) 1#64 0#64, rfl, by decide, by decide, rfl, ?_⟩
  exact C53_hcurl_wrong _ rfl 0 3 3 (by decide) (by decide) (by decide) rfl _ _ (by decide)

/-! ### Example: a triangle and a square sharing an edge, two boundary edges -/

/-- Scalar space with the given nodes per element. -/
def nodal (npe : ℕ) (nodes : List (List ℕ)) : ElementRestriction :=
  ElementRestriction.build .byNODES 5 1 nodes.length npe fun e i => DoF.mk3 (BitVec.ofNat 64 ((nodes.getD e []).getD i 0)) 0 0

def exElements : BlockRestriction := fun g => if g = 2 then some (nodal 3 [[0, 1, 2]]) else if g = 3 then some (nodal 4 [[1, 3, 2, 4]]) else none
def exBoundary : BlockRestriction := fun g => if g = 1 then some (nodal 2 [[0, 1], [3, 4]]) else none
def exSpace : Space := ⟨exElements, exBoundary⟩

theorem ex_cases {b : Bool} {g : ℕ} {r : ElementRestriction} (h : exSpace.get b g = some r) :
    (b = false ∧ g = 2 ∧ r = nodal 3 [[0, 1, 2]]) ∨ (b = false ∧ g = 3 ∧ r = nodal 4 [[1, 3, 2, 4]]) ∨ (b = true ∧ g = 1 ∧ r = nodal 2 [[0, 1], [3, 4]]) := by
  cases b
  · by_cases h2 : g = 2
    · subst h2; left; simp [exSpace, Space.get, exElements] at h; exact ⟨rfl, rfl, h.symm⟩
    · by_cases h3 : g = 3
      · subst h3; right; left; simp [exSpace, Space.get, exElements] at h; exact ⟨rfl, rfl, h.symm⟩
      · simp [exSpace, Space.get, exElements, h2, h3] at h
  · by_cases h1 : g = 1
    · subst h1; right; right; simp [exSpace, Space.get, exBoundary] at h; exact ⟨rfl, rfl, h.symm⟩
    · simp [exSpace, Space.get, exBoundary, h1] at h

theorem ex_mesh : OneMesh 4 5 exSpace exSpace where
  test_wf := by
    intro b g r h
    rcases ex_cases h with ⟨-, -, rfl⟩ | ⟨-, -, rfl⟩ | ⟨-, -, rfl⟩ <;> exact ⟨rfl, by unfold C07.InBounds; decide⟩
  trial_wf := by
    intro b g r h
    rcases ex_cases h with ⟨-, -, rfl⟩ | ⟨-, -, rfl⟩ | ⟨-, -, rfl⟩ <;> exact ⟨rfl, by unfold C07.InBounds; decide⟩
  test_small := by
    intro b g r h
    rcases ex_cases h with ⟨-, -, rfl⟩ | ⟨-, -, rfl⟩ | ⟨-, -, rfl⟩ <;> exact ⟨by decide, by decide⟩
  trial_small := by
    intro b g r h
    rcases ex_cases h with ⟨-, -, rfl⟩ | ⟨-, -, rfl⟩ | ⟨-, -, rfl⟩ <;> exact ⟨by decide, by decide⟩
  bounded := by
    intro b g hg
    cases h : exSpace.get b g with
    | none => rfl
    | some r =>
      rcases ex_cases h with ⟨-, rfl, -⟩ | ⟨-, rfl, -⟩ | ⟨-, rfl, -⟩ <;> simp [numGeometries] at hg
  same := fun _ _ => rfl
  count := by intro b g rs rt h h'; rw [h] at h'; cases h'; rfl
  inside := by
    intro g rs rt h h'
    have hb : exSpace.get true g = some rs := h
    have e : rs = rt := by rw [h] at h'; exact Option.some.inj h'
    subst e
    rcases ex_cases hb with ⟨h0, -, -⟩ | ⟨h0, -, -⟩ | ⟨-, rfl, rfl⟩
    · cases h0
    · cases h0
    · intro e he
      have he2 : e < 2 := he
      interval_cases e
      · exact ⟨2, nodal 3 [[0, 1, 2]], nodal 3 [[0, 1, 2]], 0, rfl, rfl, by decide, by decide, by decide⟩
      · exact ⟨3, nodal 4 [[1, 3, 2, 4]], nodal 4 [[1, 3, 2, 4]], 0, rfl, rfl, by decide, by decide, by decide⟩
  last := ⟨3, nodal 4 [[1, 3, 2, 4]], 0, 3, 0, rfl, by decide, by decide, by decide, by decide⟩
  nonempty := by
    intro g rt h
    have hb : exSpace.get false g = some rt := h
    rcases ex_cases hb with ⟨-, -, rfl⟩ | ⟨-, -, rfl⟩ | ⟨-, -, rfl⟩ <;> exact ⟨by decide, by decide⟩

/-- Two integrals over elements and one over the boundary. -/
def exIntegrals : List (Integral ℤ) :=
  [⟨false, true, [2, 3], fun g e i j => ((g + e + 10 * i + 100 * j : ℕ) : ℤ)⟩, ⟨true, true, [1], fun _ e i j => ((e + i * j : ℕ) : ℤ)⟩, ⟨false, false, [3], fun _ _ _ _ => 1⟩]

/-- All hypotheses hold. -/
example : ∃ t vals, Assemble.assemble (fun z : ℤ => z) 5 exSpace exSpace exIntegrals = some (t, vals) ∧
    ∀ x : Vec ℤ, x.size = 5 → ∃ S, Assemble.action 5 exSpace exSpace exIntegrals x = some S ∧ ∀ r < 5, mult t vals.val x.val r = S.val r := by
  apply C53_assembled ex_mesh (fun z => z) rfl
  intro I hI g hg
  simp only [exIntegrals, List.mem_cons, List.not_mem_nil, or_false] at hI
  rcases hI with rfl | rfl | rfl
  · simp at hg; rcases hg with rfl | rfl <;> rfl
  · simp at hg; rw [hg]; rfl
  · simp at hg; rw [hg]; rfl

end Serac.C53
