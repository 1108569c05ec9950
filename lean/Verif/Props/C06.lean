import Verif.Proofs.Restriction
/-!
# C06: component/node to vector-dof numbering is a bijection

Full statement: under both orderings the vector-dof record of (node, component) has the expected position, the positions
are in one-to-one correspondence with the pairs, and the sign and orientation of the node are carried along.
The position is right in the 32 bits that are used, whatever the sign and orientation; sign and orientation themselves are carried along
only when both are trivial (`C06_word`, `C06_orientation_wrong`, `C06_sign_wrong`).
-/

namespace Serac.C06

/-- Specification: where component `c` of node `n` lives in a vector over `nn` nodes with `nc` components. -/
def position (o : Ordering') (nn nc n c : Nat) : Nat :=
  match o with
  | .byNODES => c * nn + n      -- all values of component 0 first, then component 1, ...
  | .byVDIM => n * nc + c       -- all components of node 0 first, then node 1, ...

private theorem radix_bij (a b k : Nat) (hk : k < a * b) : ∃! q : Nat × Nat, (q.1 < a ∧ q.2 < b) ∧ q.1 * b + q.2 = k := by
  have hb : 0 < b := by rcases Nat.eq_zero_or_pos b with h | h; · simp [h] at hk
                        · exact h
  refine ⟨(k / b, k % b), ⟨⟨?_, Nat.mod_lt _ hb⟩, ?_⟩, ?_⟩
  · exact Nat.div_lt_of_lt_mul (by rwa [Nat.mul_comm] at hk)
  · exact Nat.div_add_mod' k b
  · rintro ⟨x, y⟩ ⟨⟨hx, hy⟩, rfl⟩
    simp only at hx hy ⊢
    rw [Prod.mk.injEq]
    constructor
    · rw [Nat.mul_comm, Nat.mul_add_div hb, Nat.div_eq_of_lt hy]; simp
    · rw [Nat.mul_comm, Nat.mul_add_mod, Nat.mod_eq_of_lt hy]

/-- **C06.**  Positions stay below `nodes * components` and each is taken by exactly one (node, component) pair. -/
theorem C06_bijection (o : Ordering') (nn nc : Nat) :
    (∀ n c, n < nn → c < nc → position o nn nc n c < nn * nc) ∧
    (∀ k, k < nn * nc → ∃! q : Nat × Nat, (q.1 < nn ∧ q.2 < nc) ∧ position o nn nc q.1 q.2 = k) := by
  constructor
  · intro n c hn hc
    cases o <;> simp only [position]
    · calc c * nn + n < c * nn + nn := by omega
        _ = (c + 1) * nn := by ring
        _ ≤ nc * nn := Nat.mul_le_mul_right _ hc
        _ = nn * nc := Nat.mul_comm _ _
    · calc n * nc + c < n * nc + nc := by omega
        _ = (n + 1) * nc := by ring
        _ ≤ nn * nc := Nat.mul_le_mul_right _ hn
  · intro k hk
    cases o <;> simp only [position]
    · obtain ⟨⟨c, n⟩, ⟨⟨h1, h2⟩, h3⟩, hu⟩ := radix_bij nc nn k (by rwa [Nat.mul_comm])
      refine ⟨(n, c), ⟨⟨h2, h1⟩, h3⟩, ?_⟩
      rintro ⟨n', c'⟩ ⟨⟨h1', h2'⟩, h3'⟩
      have := hu (c', n') ⟨⟨h2', h1'⟩, h3'⟩
      simp only [Prod.mk.injEq] at this ⊢
      exact ⟨this.2, this.1⟩
    · exact radix_bij nn nc k hk

theorem orientation_lt (d : DoF) : d.orientation.toNat < 8 := by
  rw [C01.orientation_toNat]; omega

/-- How often the number of a node enters its vector dof numbers. -/
def stride (o : Ordering') (nc : Nat) : Nat := match o with | .byNODES => 1 | .byVDIM => nc

/-- `GetVDof` on the word of a record: `d.bits = high * 2^60 + node`, with the sign and orientation in `high`.  The position is right, but `high` is
multiplied along with the node number, because `index()` does not mask it, and the orientation is added once more. -/
theorem C06_word (r : ElementRestriction) (d : DoF) (c : Nat)
    (hn : d.bits.toNat % 2 ^ 60 < r.numNodes) (hc : c < r.components) (hsz : r.numNodes * r.components ≤ 2 ^ 48) :
    (r.getVDof d c).bits.toNat =
      ((stride r.ordering r.components * (d.bits.toNat / 2 ^ 60) + d.bits.toNat / 2 ^ 60 % 8) % 16) * 2 ^ 60 +
        position r.ordering r.numNodes r.components (d.bits.toNat % 2 ^ 60) c := by
  have hpos := (C06_bijection r.ordering r.numNodes r.components).1 _ _ hn hc
  generalize hP : position r.ordering r.numNodes r.components (d.bits.toNat % 2 ^ 60) c = P at hpos ⊢
  generalize hA : stride r.ordering r.components * (d.bits.toNat / 2 ^ 60) = A
  have hv : r.getVDof d c = C01.build (BitVec.ofNat 64 (A * 2 ^ 60 + P)) (decide (d.sign ≠ 1)) d.orientation := by
    have hX : ∀ o, r.ordering = o → (match o with
        | .byNODES => c * r.numNodes + d.bits.toNat
        | .byVDIM => d.bits.toNat * r.components + c) = A * 2 ^ 60 + P := by
      intro o ho
      have hd : d.bits.toNat = d.bits.toNat / 2 ^ 60 * 2 ^ 60 + d.bits.toNat % 2 ^ 60 := (Nat.div_add_mod' _ _).symm
      rw [ho] at hA hP
      subst hA hP
      cases o <;> simp only [stride, position]
      · omega
      · conv_lhs => rw [hd]
        ring
    have := hX _ rfl
    unfold ElementRestriction.getVDof C01.build
    cases ho : r.ordering <;> simp only [ho, C01.index_eq] at this ⊢ <;> rw [this] <;> by_cases hs : d.sign = 1 <;> simp [hs]
  rw [hv, C01.bits_toNat_mod _ _ _ (orientation_lt d), C01.orientation_toNat, BitVec.toNat_ofNat]
  omega

/-- **C06, the positions.**  The position used for (node, component) is the specified one, for every sign and orientation of the node. -/
theorem C06_position (r : ElementRestriction) (d : DoF) (c : Nat)
    (hn : d.pos < r.numNodes) (hc : c < r.components) (hsz : r.numNodes * r.components ≤ 2 ^ 32) :
    (r.getVDof d c).pos = position r.ordering r.numNodes r.components d.pos c := by
  have hpos := (C06_bijection r.ordering r.numNodes r.components).1 _ _ hn hc
  have hv : (r.getVDof d c).bits.toNat % 2 ^ 32 =
      position r.ordering r.numNodes r.components d.bits.toNat c % 2 ^ 32 := by
    have hb : ∀ X fl, (C01.build (BitVec.ofNat 64 X) fl d.orientation).bits.toNat % 2 ^ 32 = X % 2 ^ 32 := by
      intro X fl
      rw [C01.bits_toNat_mod _ _ _ (orientation_lt d), BitVec.toNat_ofNat]
      omega
    have : r.getVDof d c = C01.build (BitVec.ofNat 64 (position r.ordering r.numNodes r.components d.bits.toNat c)) (decide (d.sign ≠ 1)) d.orientation := by
      unfold ElementRestriction.getVDof C01.build position
      cases r.ordering <;> simp only [C01.index_eq] <;> by_cases hs : d.sign = 1 <;> simp [hs]
    rw [this, hb]
  have hm : position r.ordering r.numNodes r.components d.bits.toNat c % 2 ^ 32 =
      position r.ordering r.numNodes r.components d.pos c % 2 ^ 32 := by
    unfold position DoF.pos
    rw [C01.index_eq]
    cases r.ordering <;> simp only
    · omega
    · conv_rhs => rw [Nat.add_mod, Nat.mod_mul_mod, ← Nat.add_mod]
  rw [DoF.pos, C01.index_eq, hv, hm, Nat.mod_eq_of_lt (by omega)]

/-- **C06, the part that holds.**  If nothing but a node number is in the record, as in every record made for H1 and L2 spaces, the whole index is the
specified position, and sign and orientation are carried along.  Missing: other signs and orientations. -/
theorem C06_vdof_partial (r : ElementRestriction) (d : DoF) (c : Nat)
    (hn : d.index.toNat < r.numNodes) (hc : c < r.components) (hsz : r.numNodes * r.components ≤ 2 ^ 48) :
    (r.getVDof d c).index.toNat = position r.ordering r.numNodes r.components d.index.toNat c ∧
    (r.getVDof d c).orientation = d.orientation ∧ (r.getVDof d c).sign = d.sign := by
  rw [C01.index_eq] at hn
  have hle : r.numNodes ≤ r.numNodes * r.components := Nat.le_mul_of_pos_right _ (by omega)
  have hpos := (C06_bijection r.ordering r.numNodes r.components).1 _ _ hn hc
  have h0 : d.bits.toNat / 2 ^ 60 = 0 := by omega
  have hm : d.bits.toNat % 2 ^ 60 = d.bits.toNat := by omega
  have hw := C06_word r d c (by omega) hc hsz
  rw [h0, hm] at hw
  simp only [Nat.mul_zero, Nat.zero_mod, Nat.zero_mul, Nat.zero_add] at hw
  refine ⟨by rw [C01.index_eq, C01.index_eq, hw], ?_, ?_⟩
  · apply BitVec.eq_of_toNat_eq
    rw [C01.orientation_toNat, C01.orientation_toNat, hw]
    omega
  · rw [C01.sign_eq, C01.sign_eq, hw, if_pos (by omega), if_pos (by omega)]

/-- **C06.** Distinct (node, component) pairs get distinct positions. -/
theorem C06_injective (r : ElementRestriction) (d d' : DoF) (c c' : Nat)
    (hn : d.pos < r.numNodes) (hc : c < r.components) (hn' : d'.pos < r.numNodes)
    (hc' : c' < r.components) (hsz : r.numNodes * r.components ≤ 2 ^ 32)
    (h : (r.getVDof d c).pos = (r.getVDof d' c').pos) : d.pos = d'.pos ∧ c = c' := by
  have h1 := C06_position r d c hn hc hsz
  have h2 := C06_position r d' c' hn' hc' hsz
  have hlt := (C06_bijection r.ordering r.numNodes r.components).1 _ _ hn hc
  obtain ⟨q, -, hu⟩ := (C06_bijection r.ordering r.numNodes r.components).2 _ hlt
  have e1 := hu (d.pos, c) ⟨⟨hn, hc⟩, rfl⟩
  have e2 := hu (d'.pos, c') ⟨⟨hn', hc'⟩, by simp only; rw [← h1, ← h2, h]⟩
  have := e1.trans e2.symm
  simp only [Prod.mk.injEq] at this
  exact this

/-- The record of a node with its sign bit set or not and an orientation. -/
def record (node : Nat) (negative : Bool) (o : Nat) : DoF := ⟨BitVec.ofNat 64 ((if negative then 8 else 0) * 2 ^ 60 + o * 2 ^ 60 + node)⟩

private theorem record_bits (node : Nat) (b : Bool) (o : Nat) (hn : node < 2 ^ 48) (ho : o < 8) :
    (record node b o).bits.toNat / 2 ^ 60 = (if b then 8 else 0) + o ∧ (record node b o).bits.toNat % 2 ^ 60 = node := by
  unfold record
  rw [BitVec.toNat_ofNat]
  cases b <;> simp only [if_true, if_false, Bool.false_eq_true] <;> omega

/-- **The code violates the orientation part.**  The orientation of a component dof is the node's orientation times one more than the stride: right
exactly if the stride times the orientation is a multiple of 8.  With nodes first it is wrong for every orientation but 0, and then so is the index of a
positive node. -/
theorem C06_orientation_wrong (r : ElementRestriction) (node o c : Nat) (b : Bool) (ho : o < 8)
    (hn : node < r.numNodes) (hc : c < r.components) (hsz : r.numNodes * r.components ≤ 2 ^ 48) :
    (record node b o).orientation.toNat = o ∧
    ((r.getVDof (record node b o) c).orientation.toNat = o ↔ stride r.ordering r.components * o % 8 = 0) ∧
    (r.ordering = .byNODES → o ≠ 0 → (r.getVDof (record node b o) c).orientation.toNat ≠ o ∧
      (b = false → (r.getVDof (record node b o) c).index.toNat ≠ position r.ordering r.numNodes r.components node c)) := by
  have hle : r.numNodes ≤ r.numNodes * r.components := Nat.le_mul_of_pos_right _ (by omega)
  obtain ⟨h1, h2⟩ := record_bits node b o (by omega) ho
  have hw := C06_word r (record node b o) c (by omega) hc hsz
  have hpos := (C06_bijection r.ordering r.numNodes r.components).1 _ _ hn hc
  rw [h1, h2] at hw
  generalize position r.ordering r.numNodes r.components node c = P at *
  have hor : (r.getVDof (record node b o) c).orientation.toNat = (stride r.ordering r.components * o + o) % 8 := by
    obtain ⟨t, ht⟩ : ∃ t, (if b then 8 else 0) = 8 * t := by cases b; exacts [⟨0, rfl⟩, ⟨1, rfl⟩]
    rw [C01.orientation_toNat, hw, ht]
    generalize stride r.ordering r.components = S
    have : S * (8 * t + o) = 8 * (S * t) + S * o := by ring
    rw [this]
    omega
  refine ⟨by rw [C01.orientation_toNat, h1]; clear h1 h2 hw hor; split <;> omega, by rw [hor]; omega, ?_⟩
  intro hord h0
  rw [hor, C01.index_eq, hw, hord]
  simp only [stride]
  refine ⟨by omega, ?_⟩
  rintro rfl
  simp only [if_false, Bool.false_eq_true]
  omega

/-- **The code violates the sign part.**  With components first and an even number of components, or for a positive node whose orientation is at least 4
with nodes first, the sign of a component dof is not that of the node. -/
theorem C06_sign_wrong (r : ElementRestriction) (node c : Nat)
    (hn : node < r.numNodes) (hc : c < r.components) (hsz : r.numNodes * r.components ≤ 2 ^ 48) :
    (r.ordering = .byVDIM → r.components % 2 = 0 → (record node true 0).sign = -1 ∧ (r.getVDof (record node true 0) c).sign = 1) ∧
    (∀ o, r.ordering = .byNODES → 4 ≤ o → o < 8 → (record node false o).sign = 1 ∧ (r.getVDof (record node false o) c).sign = -1) := by
  have hle : r.numNodes ≤ r.numNodes * r.components := Nat.le_mul_of_pos_right _ (by omega)
  have hpos := (C06_bijection r.ordering r.numNodes r.components).1 _ _ hn hc
  constructor
  · intro hord hev
    obtain ⟨h1, h2⟩ := record_bits node true 0 (by omega) (by omega)
    have hw := C06_word r (record node true 0) c (by omega) hc hsz
    rw [h1, h2, hord] at hw
    rw [hord] at hpos
    simp only [if_true, stride] at h1 hw
    generalize position Ordering'.byVDIM r.numNodes r.components node c = P at *
    rw [C01.sign_eq, C01.sign_eq, hw]
    constructor
    · rw [if_neg (by omega)]
    · rw [if_pos (by omega)]
  · intro o hord h4 h8
    obtain ⟨h1, h2⟩ := record_bits node false o (by omega) h8
    have hw := C06_word r (record node false o) c (by omega) hc hsz
    rw [h1, h2, hord] at hw
    rw [hord] at hpos
    simp only [if_false, Bool.false_eq_true, stride] at h1 hw
    generalize position Ordering'.byNODES r.numNodes r.components node c = P at *
    rw [C01.sign_eq, C01.sign_eq, hw]
    constructor
    · rw [if_pos (by omega)]
    · rw [if_neg (by omega)]

/-- A small restriction: 3 nodes, 2 components. -/
def sample : ElementRestriction := ElementRestriction.build .byVDIM 6 2 1 3 (fun _ j => DoF.mk3 (BitVec.ofNat 64 j) 0 0)

example : (DoF.mk3 2#64 0 5).pos < sample.numNodes ∧ 1 < sample.components ∧
    sample.numNodes * sample.components ≤ 2 ^ 32 ∧ (sample.getVDof (DoF.mk3 2#64 0 5) 1).pos = 5 := by decide
example : (DoF.mk3 2#64 0 0).index.toNat < sample.numNodes ∧ (sample.getVDof (DoF.mk3 2#64 0 0) 1).index = 5#64 := by decide
/-- Records with sign and orientation, and what becomes of them. -/
example : (record 2 true 0).sign = -1 ∧ (record 2 true 0).pos = 2 ∧ (sample.getVDof (record 2 true 0) 1).sign = 1 ∧
    (record 2 false 3).orientation = 3#64 ∧ (sample.getVDof (record 2 false 3) 1).orientation = 1#64 := by decide

end Serac.C06
