import Verif.Proofs.Csr
import Verif.Props.C07
/-!
# C09: sparse assembly tables are a valid CSR structure and address every contribution

Full statement: for every list of touched (row, column) pairs with rows below the number of rows, `init` succeeds and gives a
valid CSR structure whose slots are in one-to-one correspondence with the touched pairs, and the assembled matrix acts as the sum of
the contributions.

The code violates this when the list is empty (`C09_empty_is_undefined`) and when the last rows are untouched
(`C09_trailing_row_wrong`).  Everything else is proved, under the hypothesis that the last row is touched.
-/

namespace Serac.C09
open Csr ElementRestriction

/-- Lexicographic order of (row, column) pairs. -/
def Before (a b : Nat × Nat) : Prop := a.1 < b.1 ∨ (a.1 = b.1 ∧ a.2 < b.2)

/-- A valid CSR description of the set of touched pairs: there is a strictly increasing list of exactly the touched
pairs such that slot `k` stores the column of the `k`-th pair and row `r` owns exactly the slots of its pairs. -/
structure ValidCsr (rows : Nat) (touched : List (Nat × Nat)) (t : Tables) (es : List (Nat × Nat)) : Prop where
  sorted : es.Pairwise Before
  same : ∀ e, e ∈ es ↔ e ∈ touched
  nnz : t.nnz = es.length
  cols : t.colInd = es.map Prod.snd
  first : t.rowPtr.val 0 = 0
  last : t.rowPtr.val rows = t.nnz
  mono : ∀ r < rows, t.rowPtr.val r ≤ t.rowPtr.val (r + 1)
  owns : ∀ r < rows, ∀ k e, es[k]? = some e → (e.1 = r ↔ t.rowPtr.val r ≤ k ∧ k < t.rowPtr.val (r + 1))

private theorem before_le {es : List Entry} {r : Nat} : before es r ≤ before es (r + 1) := by
  unfold before
  apply List.countP_mono_left
  intro a _ h; simp at h ⊢; omega

private theorem before_zero {es : List Entry} : before es 0 = 0 := by
  unfold before; rw [List.countP_eq_zero]; simp

/-- **C09, structure.**  If the last row is touched, the tables are a valid CSR description. -/
theorem C09_valid_partial (n : Nat) (touched : List (Nat × Nat)) (hrow : ∀ e ∈ touched, e.1 < n + 1)
    (hlast : ∃ e ∈ touched, e.1 = n) : ∃ t es, init (n + 1) touched = some t ∧ ValidCsr (n + 1) touched t es := by
  obtain ⟨e1, he1, hn⟩ := hlast
  obtain ⟨t, h1, h2, h3, h4, h5, h6⟩ := init_spec (n + 1) touched (List.ne_nil_of_mem he1) hrow
  have hsort := sorted_pairwise touched
  have hle : (sortedEntries touched).Pairwise fun a b => a.1 ≤ b.1 := hsort.imp (by intro a b h; omega)
  have hrp : ∀ r ≤ n + 1, t.rowPtr.val r = before (sortedEntries touched) r := by
    intro r hr
    rw [h6 r]
    by_cases hrn : r = n + 1
    · rw [if_pos hrn, hrn]
      symm; apply countP_full_of
      intro e he; simpa using hrow e (mem_sorted.mp he)
    · rw [if_neg hrn, if_pos ⟨e1, he1, by omega⟩]
  refine ⟨t, sortedEntries touched, h1, hsort, fun e => mem_sorted, h2, h3, ?_, ?_, ?_, ?_⟩
  · rw [hrp 0 (by omega), before_zero]
  · rw [h6, if_pos rfl, h2]
  · intro r hr; rw [hrp r (by omega), hrp (r + 1) (by omega)]; exact before_le
  · intro r hr k e he
    rw [hrp r (by omega), hrp (r + 1) (by omega)]
    have a := before_iff _ hle r k e he
    have b := before_iff _ hle (r + 1) k e he
    omega

/-- **C09, lookup.**  Whatever rows are touched: every touched pair has a slot holding its column, different pairs have
different slots, and an untouched pair is refused (the `at` throws). -/
theorem C09_lookup (lsize : Nat) (touched : List (Nat × Nat)) (hne : touched ≠ []) (hrow : ∀ e ∈ touched, e.1 < lsize) :
    ∃ t, init lsize touched = some t ∧
      (∀ e ∈ touched, ∃ k, t.lut e = some k ∧ k < t.nnz ∧ t.colInd[k]? = some e.2) ∧
      (∀ e ∈ touched, ∀ e' ∈ touched, t.lut e = t.lut e' → e = e') ∧
      (∀ e, e ∉ touched → t.lut e = none) := by
  obtain ⟨t, h1, h2, h3, h4, -, -⟩ := init_spec lsize touched hne hrow
  have key : ∀ e ∈ touched, ∃ k, (sortedEntries touched)[k]? = some e ∧ t.lut e = some k := by
    intro e he
    obtain ⟨k, hk⟩ := List.mem_iff_getElem?.mp (mem_sorted.mpr he)
    exact ⟨k, hk, by rw [h4]; exact lutLoop_spec _ (sorted_nodup _) k e hk⟩
  refine ⟨t, h1, ?_, ?_, ?_⟩
  · intro e he
    obtain ⟨k, hk, hl⟩ := key e he
    refine ⟨k, hl, ?_, by rw [h3, List.getElem?_map, hk]; rfl⟩
    rw [h2]; exact (List.getElem?_eq_some_iff.mp hk).1
  · intro e he e' he' h
    obtain ⟨k, hk, hl⟩ := key e he
    obtain ⟨k', hk', hl'⟩ := key e' he'
    rw [hl, hl'] at h
    obtain rfl := Option.some.inj h
    rw [hk] at hk'; exact Option.some.inj hk'
  · intro e he
    rw [h4]; exact lutLoop_none _ (sorted_nodup _) e (fun h => he (mem_sorted.mp h))

/-- **The code violates the structure when the last row is untouched**: for every such non-empty list of pairs, the last row
claims every slot of the matrix. -/
theorem C09_trailing_row_wrong (n : Nat) (touched : List (Nat × Nat)) (hne : touched ≠ [])
    (hrow : ∀ e ∈ touched, e.1 < n) :
    ∃ t, init (n + 1) touched = some t ∧ t.rowPtr.val n = 0 ∧ t.rowPtr.val (n + 1) = t.nnz ∧ 0 < t.nnz := by
  obtain ⟨t, h1, h2, -, -, -, h6⟩ := init_spec (n + 1) touched hne (fun e he => by have := hrow e he; omega)
  refine ⟨t, h1, ?_, by rw [h6, if_pos rfl, h2], ?_⟩
  · rw [h6, if_neg (by omega), if_neg]
    rintro ⟨e, he, h⟩; have := hrow e he; omega
  · rw [h2]
    obtain ⟨a, l, rfl⟩ := List.exists_cons_of_ne_nil hne
    exact List.length_pos_of_mem (mem_sorted.mpr (List.mem_cons_self))

/-- **The code has undefined behaviour when nothing is touched** (e.g. a rank without elements). -/
theorem C09_empty_is_undefined (n : Nat) : (init n []).isNone := by
  have : sortedEntries [] = [] := by simp [sortedEntries, keys]
  simp [init, this]

variable {R : Type} [CommRing R]

private theorem assemble_fold (t : Tables) (contribs : List ((Nat × Nat) × R)) : ∀ (v : Vec R),
    v.size = t.nnz → (∀ c ∈ contribs, ∃ k, t.lut c.1 = some k ∧ k < t.nnz) →
    ∃ v', contribs.foldlM (addAt t) v = some v' ∧ v'.size = v.size ∧
      ∀ k, v'.val k = v.val k + (contribs.map fun c => if t.lut c.1 = some k then c.2 else 0).sum := by
  induction contribs with
  | nil => intro v _ _; exact ⟨v, rfl, rfl, by simp⟩
  | cons c cs ih =>
    intro v hv hc
    obtain ⟨k0, hk0, hlt⟩ := hc c (by simp)
    have hadd : addAt t v c = some ⟨v.size, fun k => if k = k0 then v.val k0 + c.2 else v.val k⟩ := by
      simp [addAt, hk0, Vec.get?, Vec.set?, hv, hlt]
    obtain ⟨v', h1, h2, h3⟩ := ih ⟨v.size, fun k => if k = k0 then v.val k0 + c.2 else v.val k⟩ hv
      (fun c' h => hc c' (List.mem_cons_of_mem _ h))
    refine ⟨v', by rw [List.foldlM_cons, hadd]; exact h1, h2, fun k => ?_⟩
    rw [h3 k]
    simp only [List.map_cons, List.sum_cons, hk0, Option.some.injEq]
    by_cases hk : k = k0
    · subst hk; simp only [if_true]; ring
    · simp only [hk, Ne.symm hk, if_false]; ring

/-- **C09, action.**  The assembled matrix times any vector is the sum of the contributions, row by row: nothing is lost, doubled or
put in the wrong place. -/
theorem C09_action_partial (n : Nat) (touched : List (Nat × Nat)) (hrow : ∀ e ∈ touched, e.1 < n + 1)
    (hlast : ∃ e ∈ touched, e.1 = n) (contribs : List ((Nat × Nat) × R)) (hc : ∀ c ∈ contribs, c.1 ∈ touched) :
    ∃ t vals, init (n + 1) touched = some t ∧ assemble t contribs = some vals ∧
      ∀ (x : Nat → R) (r : Nat), r < n + 1 →
        mult t vals.val x r = (contribs.map fun c => if c.1.1 = r then c.2 * x c.1.2 else 0).sum := by
  obtain ⟨t, es, h1, hv⟩ := C09_valid_partial n touched hrow hlast
  obtain ⟨e1, he1, -⟩ := hlast
  obtain ⟨t', h1', hlook, -, -⟩ := C09_lookup (n + 1) touched (List.ne_nil_of_mem he1) hrow
  obtain rfl : t = t' := by rw [h1] at h1'; exact Option.some.inj h1'
  -- slot of each touched pair is its position in `es`
  have hpos : ∀ e ∈ touched, ∃ k, t.lut e = some k ∧ es[k]? = some e := by
    obtain ⟨t2, g1, g2, g3, g4, -, -⟩ := init_spec (n + 1) touched (List.ne_nil_of_mem he1) hrow
    obtain rfl : t = t2 := by rw [h1] at g1; exact Option.some.inj g1
    have hes : es = sortedEntries touched := by
      apply List.Perm.eq_of_pairwise (le := Before) ?_ hv.sorted (sorted_pairwise touched) ?_
      · intro a b _ _ h h'; unfold Before at h h'; exact Prod.ext (by omega) (by omega)
      · apply (List.perm_ext_iff_of_nodup ?_ (sorted_nodup _)).mpr
        · intro a; rw [hv.same, mem_sorted]
        · exact hv.sorted.imp (by rintro a b h rfl; unfold Before at h; omega)
    intro e he
    obtain ⟨k, hk⟩ := List.mem_iff_getElem?.mp (mem_sorted.mpr he)
    exact ⟨k, by rw [g4]; exact lutLoop_spec _ (sorted_nodup _) k e hk, by rw [hes]; exact hk⟩
  obtain ⟨vals, a1, -, a3⟩ := assemble_fold t contribs ⟨t.nnz, fun _ => 0⟩ rfl
    (fun c h => by obtain ⟨k, hk, hlt, -⟩ := hlook c.1 (hc c h); exact ⟨k, hk, hlt⟩)
  refine ⟨t, vals, h1, a1, fun x r hr => ?_⟩
  unfold mult
  rw [List.range'_eq_map_range, List.map_map, sum_map_range]
  have hval : ∀ k, vals.val k = (contribs.map fun c => if t.lut c.1 = some k then c.2 else 0).sum := by
    intro k; rw [a3 k]; simp
  simp only [Function.comp, hval]
  clear a1 a3 hval
  induction contribs with
  | nil => simp
  | cons c cs ih =>
    simp only [List.map_cons, List.sum_cons, add_mul, Finset.sum_add_distrib]
    rw [ih (fun c' h => hc c' (List.mem_cons_of_mem _ h))]
    congr 1
    obtain ⟨k0, hk0, hes0⟩ := hpos c.1 (hc c (by simp))
    have hown := hv.owns r hr k0 c.1 hes0
    have hcol : t.colInd.getD k0 0 = c.1.2 := by
      rw [hv.cols, List.getD_eq_getElem?_getD, List.getElem?_map, hes0]; rfl
    have hmono := hv.mono r hr
    simp only [hk0, Option.some.injEq]
    by_cases hcr : c.1.1 = r
    · rw [if_pos hcr]
      have hin := hown.mp hcr
      rw [Finset.sum_eq_single (k0 - t.rowPtr.val r)]
      · rw [if_pos (by omega), show t.rowPtr.val r + (k0 - t.rowPtr.val r) = k0 by omega, hcol]
      · intro b _ hb; rw [if_neg (by omega)]; simp
      · intro hb; exfalso; apply hb; rw [Finset.mem_range]; omega
    · rw [if_neg hcr]
      apply Finset.sum_eq_zero
      intro b hb
      rw [Finset.mem_range] at hb
      rw [if_neg]
      · simp
      · intro h; apply hcr; apply hown.mpr; omega

/-! ### Assembled and matrix-free actions agree -/

private theorem zipIdx_blocks {α : Type} (a b : Nat) (g : Nat → Nat → α) :
    ((List.range a).flatMap fun c => (List.range b).map fun q => g c q).zipIdx =
      (List.range a).flatMap fun c => (List.range b).map fun q => (g c q, c * b + q) := by
  have hrow : ∀ (s c b : Nat), ((List.range b).map fun q => g c q).zipIdx s = (List.range b).map fun q => (g c q, s + q) := by
    intro s c b
    induction b with
    | zero => rfl
    | succ b ih =>
      rw [List.range_succ, List.map_append, List.zipIdx_append, ih, List.map_append]
      simp
  induction a with
  | zero => rfl
  | succ a ih =>
    rw [List.range_succ, List.flatMap_append, List.zipIdx_append, ih, List.flatMap_append]
    congr 1
    simp only [List.flatMap_cons, List.flatMap_nil, List.append_nil]
    rw [hrow]
    have hlen : ((List.range a).flatMap fun c => (List.range b).map fun q => g c q).length = a * b := by
      clear ih hrow
      induction a with
      | zero => simp
      | succ a ih => rw [List.range_succ, List.flatMap_append, List.length_append, ih]; simp [Nat.succ_mul]
    simp [hlen]

/-- The contribution list of one geometry: one item per (element, trial component, trial node, test component, test node). -/
theorem elemContribs_eq (test trial : ElementRestriction) (sgn : Int → R) (K : Nat → Nat → Nat → R) :
    elemContribs test trial sgn K =
      (List.range trial.numElements).flatMap fun e =>
        (List.range trial.components).flatMap fun l => (List.range trial.nodesPerElem).flatMap fun q =>
          (List.range test.components).flatMap fun k => (List.range test.nodesPerElem).map fun i =>
            ((test.vdof e i k, trial.vdof e q l),
              sgn ((test.getVDof (test.dofInfo e i) k).sign * (trial.getVDof (trial.dofInfo e q) l).sign) *
                K e (l * trial.nodesPerElem + q) (k * test.nodesPerElem + i)) := by
  unfold elemContribs elementVDofs
  simp only [zipIdx_blocks, List.flatMap_assoc, List.flatMap_map, List.map_flatMap, List.map_map]
  rfl

/-- All records carry the sign +1 (true of every record built from a non-negative dof number, see C06). -/
def PlainSigns (r : ElementRestriction) : Prop :=
  ∀ e < r.numElements, ∀ i < r.nodesPerElem, ∀ c < r.components, (r.getVDof (r.dofInfo e i) c).sign = 1

/-- One element's matrix-free action: entry `j` of `K_e x_e`, where `K e i j` has the trial index first. -/
def elemAction (trial : ElementRestriction) (K : Nat → Nat → Nat → R) (xe : Nat → R) (e j : Nat) : R :=
  ∑ i ∈ Finset.range (trial.components * trial.nodesPerElem),
    K e i j * xe (e * (trial.components * trial.nodesPerElem) + i)

theorem exchange4 (a b c d : Nat) (f : Nat → Nat → Nat → Nat → R) :
    ∑ k ∈ Finset.range a, ∑ i ∈ Finset.range b, ∑ l ∈ Finset.range c, ∑ q ∈ Finset.range d, f k i l q
      = ∑ l ∈ Finset.range c, ∑ q ∈ Finset.range d, ∑ k ∈ Finset.range a, ∑ i ∈ Finset.range b, f k i l q := by
  rw [Finset.sum_congr rfl (fun k _ => Finset.sum_comm), Finset.sum_comm]
  apply Finset.sum_congr rfl; intro l _
  rw [Finset.sum_congr rfl (fun k _ => Finset.sum_comm), Finset.sum_comm]

/-- **C09.**  For one geometry whose last dof is touched: assembling element matrices and multiplying gives the same vector as
gather, element-by-element multiplication and scatter-add. -/
theorem C09_assembled_eq_matrix_free_partial (n : Nat) (test trial : ElementRestriction)
    (htest : C07.InBounds test) (htrial : C07.InBounds trial) (hn : test.lsize = n + 1)
    (hne : test.numElements = trial.numElements)
    (hs : PlainSigns test) (hs' : PlainSigns trial)
    (hlast : ∃ e ∈ emitGeom test trial, e.1 = n) (sgn : Int → R) (h1 : sgn 1 = 1) (K : Nat → Nat → Nat → R)
    (x E0 : Vec R) (hx : x.size = trial.lsize) (hE0 : E0.size = trial.esize) :
    ∃ t vals G S, init (n + 1) (emitGeom test trial) = some t ∧
      assemble t (elemContribs test trial sgn K) = some vals ∧
      trial.gather x E0 = some G ∧
      test.scatterAdd ⟨test.esize, fun p => elemAction trial K G.val
        (p / (test.components * test.nodesPerElem)) (p % (test.components * test.nodesPerElem))⟩
        ⟨n + 1, fun _ => 0⟩ = some S ∧
      ∀ r < n + 1, mult t vals.val x.val r = S.val r := by
  have hrow : ∀ e ∈ emitGeom test trial, e.1 < n + 1 := by
    intro e he
    simp only [emitGeom, List.mem_flatMap, List.mem_range, List.mem_map] at he
    obtain ⟨a, ha, i, hi, j, hj, k, hk, l, hl, rfl⟩ := he
    rw [← hn]; exact htest a (by omega) k hk i hi
  have hcov : ∀ c ∈ elemContribs test trial sgn K, c.1 ∈ emitGeom test trial := by
    intro c hc
    rw [elemContribs_eq] at hc
    simp only [List.mem_flatMap, List.mem_range, List.mem_map] at hc
    obtain ⟨a, ha, l, hl, q, hq, k, hk, i, hi, rfl⟩ := hc
    simp only [emitGeom, List.mem_flatMap, List.mem_range, List.mem_map]
    exact ⟨a, ha, i, hi, q, hq, k, hk, l, hl, rfl⟩
  obtain ⟨t, vals, t1, a1, act⟩ := C09_action_partial n (emitGeom test trial) hrow hlast _ hcov
  obtain ⟨G, g1, -, g3⟩ := C07.C07_gather trial htrial x E0 hx hE0
  obtain ⟨S, s1, -, s3⟩ := C07.C07_scatterAdd test htest
    ⟨test.esize, fun p => elemAction trial K G.val
        (p / (test.components * test.nodesPerElem)) (p % (test.components * test.nodesPerElem))⟩
    (⟨n + 1, fun _ => 0⟩ : Vec R) hn.symm rfl
  refine ⟨t, vals, G, S, t1, a1, g1, s1, fun r hr => ?_⟩
  rw [act x.val r hr, s3 r, elemContribs_eq]
  simp only [List.map_flatMap, sum_flatMap', List.map_map, sum_map_range, Function.comp_def, zero_add, hne]
  apply Finset.sum_congr rfl
  intro e he
  have he' := Finset.mem_range.mp he
  -- expand the element action into components and nodes
  have hact : ∀ k < test.components, ∀ i < test.nodesPerElem,
      elemAction trial K G.val (C07.epos test e k i / (test.components * test.nodesPerElem))
        (C07.epos test e k i % (test.components * test.nodesPerElem))
      = ∑ l ∈ Finset.range trial.components, ∑ q ∈ Finset.range trial.nodesPerElem,
          K e (l * trial.nodesPerElem + q) (k * test.nodesPerElem + i) * x.val (trial.vdof e q l) := by
    intro k hk i hi
    have hlt : k * test.nodesPerElem + i < test.components * test.nodesPerElem := by
      calc k * test.nodesPerElem + i < k * test.nodesPerElem + test.nodesPerElem := by omega
        _ = (k + 1) * test.nodesPerElem := by ring
        _ ≤ _ := Nat.mul_le_mul_right _ hk
    have hpos : 0 < test.components * test.nodesPerElem := by omega
    have hep : C07.epos test e k i = test.components * test.nodesPerElem * e + (k * test.nodesPerElem + i) := by
      unfold C07.epos; ring
    rw [hep, Nat.mul_add_div hpos, Nat.mul_add_mod, Nat.div_eq_of_lt hlt, Nat.mod_eq_of_lt hlt, Nat.add_zero]
    unfold elemAction
    rw [← sum_map_range, ← range_mul_eq, List.map_flatMap, sum_flatMap', sum_map_range]
    apply Finset.sum_congr rfl
    intro l hl
    rw [List.map_map, sum_map_range]
    apply Finset.sum_congr rfl
    intro q hq
    simp only [Function.comp]
    have := g3 e he' l (Finset.mem_range.mp hl) q (Finset.mem_range.mp hq)
    rw [← this]
    congr 2
    unfold C07.epos; ring
  -- exchange the order of summation
  have hR : ∑ k ∈ Finset.range test.components, ∑ i ∈ Finset.range test.nodesPerElem,
        (if test.vdof e i k = r then elemAction trial K G.val (C07.epos test e k i / (test.components * test.nodesPerElem))
          (C07.epos test e k i % (test.components * test.nodesPerElem)) else 0)
      = ∑ k ∈ Finset.range test.components, ∑ i ∈ Finset.range test.nodesPerElem,
          ∑ l ∈ Finset.range trial.components, ∑ q ∈ Finset.range trial.nodesPerElem,
          if test.vdof e i k = r then
            K e (l * trial.nodesPerElem + q) (k * test.nodesPerElem + i) * x.val (trial.vdof e q l) else 0 := by
    apply Finset.sum_congr rfl; intro k hk
    apply Finset.sum_congr rfl; intro i hi
    rw [hact k (Finset.mem_range.mp hk) i (Finset.mem_range.mp hi)]
    by_cases h : test.vdof e i k = r <;> simp [h]
  rw [hR]
  conv_rhs => rw [exchange4]
  apply Finset.sum_congr rfl; intro l hl
  apply Finset.sum_congr rfl; intro q hq
  apply Finset.sum_congr rfl; intro k hk
  apply Finset.sum_congr rfl; intro i hi
  rw [hs e (by omega) i (Finset.mem_range.mp hi) k (Finset.mem_range.mp hk),
    hs' e he' q (Finset.mem_range.mp hq) l (Finset.mem_range.mp hl)]
  simp [h1]

/-! ### The hypotheses are met -/

example : ∃ e ∈ emitGeom C07.sample C07.sample, e.1 = 2 := by decide
example : PlainSigns C07.sample := by
  intro e he i hi c hc
  have he' : e < 2 := he
  have hi' : i < 2 := hi
  have hc' : c < 1 := hc
  interval_cases e <;> interval_cases i <;> interval_cases c <;> decide
example : init 3 [(0, 1), (0, 0), (0, 1)] ≠ none ∧ ∀ e ∈ [(0, 1), (0, 0), (0, 1)], e.1 < 2 := by
  constructor
  · intro h
    obtain ⟨t, ht, -⟩ := C09_trailing_row_wrong 2 [(0, 1), (0, 0), (0, 1)] (by simp) (by decide)
    rw [h] at ht; cases ht
  · decide

end Serac.C09
