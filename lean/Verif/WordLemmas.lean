import Verif.Word
/-! # Facts about word operations -/
namespace HT

variable {n : Nat}

/-- The word whose only set bit is bit `i`. -/
abbrev bitAt (n i : Nat) : BitVec n := 1#n <<< i

/-- Number of set bits strictly below position `i`. -/
def onesBelow (x : BitVec n) (i : Nat) : Nat := ((List.range i).filter fun j => x.getLsbD j).length

theorem getLsbD_bitAt (i j : Nat) : (bitAt n i).getLsbD j = (decide (i = j) && decide (j < n)) := by
  simp only [bitAt, BitVec.getLsbD_shiftLeft, BitVec.getLsbD_one]
  by_cases h1 : j < n <;> by_cases h2 : i = j <;> simp [h1, h2] <;> omega

theorem countOnes_eq_onesBelow (x : BitVec n) : countOnes x = onesBelow x n := rfl

@[simp] theorem onesBelow_zero (x : BitVec n) : onesBelow x 0 = 0 := rfl

theorem onesBelow_succ (x : BitVec n) (i : Nat) :
    onesBelow x (i + 1) = onesBelow x i + if x.getLsbD i then 1 else 0 := by
  simp only [onesBelow, List.range_succ, List.filter_append, List.length_append, List.filter_cons,
    List.filter_nil]
  split <;> simp

theorem onesBelow_mono (x : BitVec n) {i j : Nat} (h : i ≤ j) : onesBelow x i ≤ onesBelow x j := by
  induction j with
  | zero => simp at h; subst h; simp
  | succ j ih =>
    rw [onesBelow_succ]
    rcases Nat.lt_or_ge j i with h' | h'
    · have : i = j + 1 := by omega
      subst this; rw [onesBelow_succ]; omega
    · have := ih h'; omega

theorem onesBelow_congr {m : Nat} (x : BitVec n) (y : BitVec m) {i : Nat}
    (h : ∀ j, j < i → x.getLsbD j = y.getLsbD j) : onesBelow x i = onesBelow y i := by
  induction i with
  | zero => rfl
  | succ i ih =>
    rw [onesBelow_succ, onesBelow_succ, ih (fun j hj => h j (by omega)), h i (by omega)]

theorem onesBelow_lt_countOnes (x : BitVec n) {i : Nat} (h : x.getLsbD i = true) :
    onesBelow x i < countOnes x := by
  have hi : i < n := by
    rcases Nat.lt_or_ge i n with h' | h'
    · exact h'
    · rw [BitVec.getLsbD_of_ge x i h'] at h; simp at h
  have := onesBelow_mono x (show i + 1 ≤ n from hi)
  rw [onesBelow_succ, h] at this
  rw [countOnes_eq_onesBelow]; simp at this; omega

theorem onesBelow_zero_of (x : BitVec n) (i : Nat) (h : ∀ j, j < i → x.getLsbD j = false) :
    onesBelow x i = 0 := by
  induction i with
  | zero => rfl
  | succ i ih =>
    rw [onesBelow_succ, ih (fun j hj => h j (by omega)), h i (by omega)]; rfl

theorem onesBelow_eq_zero {x : BitVec n} {i : Nat} (h : onesBelow x i = 0) :
    ∀ j, j < i → x.getLsbD j = false := by
  intro j hj
  have := onesBelow_mono x (show j + 1 ≤ i from hj)
  rw [onesBelow_succ] at this
  cases hx : x.getLsbD j with
  | false => rfl
  | true => rw [hx] at this; simp at this; omega

theorem countOnes_bitAt {i : Nat} (hi : i < n) : countOnes (bitAt n i) = 1 := by
  rw [countOnes_eq_onesBelow]
  have key : ∀ m, m ≤ n → onesBelow (bitAt n i) m = if i < m then 1 else 0 := by
    intro m
    induction m with
    | zero => simp
    | succ m ih =>
      intro hm
      rw [onesBelow_succ, ih (by omega), getLsbD_bitAt]
      by_cases h1 : i < m
      · have : ¬ i = m := by omega
        simp [h1, this]; omega
      · by_cases h2 : i = m
        · subst h2; simp; omega
        · have : ¬ i < m + 1 := by omega
          simp [h1, h2, this]
  rw [key n (Nat.le_refl n)]; simp [hi]

theorem countOnes_zero : countOnes (0#n) = 0 := by
  rw [countOnes_eq_onesBelow]; exact onesBelow_zero_of _ _ (by simp)

theorem countOnes_le (x : BitVec n) : countOnes x ≤ n := by
  have := List.length_filter_le (fun i => x.getLsbD i) (List.range n)
  simpa [countOnes] using this

theorem bitAt_of_countOnes_one {x : BitVec n} (h : countOnes x = 1) :
    ∃ i, i < n ∧ x = bitAt n i := by
  rw [countOnes_eq_onesBelow] at h
  -- take the first position where the count becomes one
  have key : ∀ m, m ≤ n → onesBelow x m = 1 →
      ∃ i, i < m ∧ x.getLsbD i = true ∧ ∀ j, j < m → j ≠ i → x.getLsbD j = false := by
    intro m
    induction m with
    | zero => simp
    | succ m ih =>
      intro hm h1
      rw [onesBelow_succ] at h1
      cases hx : x.getLsbD m with
      | true =>
        rw [hx] at h1; simp at h1
        refine ⟨m, by omega, hx, fun j hj hne => onesBelow_eq_zero h1 j (by omega)⟩
      | false =>
        rw [hx] at h1; simp at h1
        obtain ⟨i, hi, hxi, hr⟩ := ih (by omega) h1
        refine ⟨i, by omega, hxi, fun j hj hne => ?_⟩
        rcases Nat.lt_or_ge j m with h' | h'
        · exact hr j h' hne
        · have : j = m := by omega
          subst this; exact hx
  obtain ⟨i, hi, hxi, hr⟩ := key n (Nat.le_refl n) h
  refine ⟨i, hi, ?_⟩
  apply BitVec.eq_of_getLsbD_eq
  intro j hj
  rw [getLsbD_bitAt]
  by_cases hji : i = j
  · subst hji; simp [hxi, hi]
  · rw [hr j hj (fun e => hji e.symm)]; simp [hji]

theorem bitAt_inj {i j : Nat} (hi : i < n) (h : bitAt n i = bitAt n j) : i = j := by
  have : (bitAt n i).getLsbD i = (bitAt n j).getLsbD i := by rw [h]
  rw [getLsbD_bitAt, getLsbD_bitAt] at this
  simp [hi] at this; exact this.symm

theorem and_bitAt_eq_zero (x : BitVec n) {i : Nat} (hi : i < n) :
    x &&& bitAt n i = 0#n ↔ x.getLsbD i = false := by
  constructor
  · intro h
    have : (x &&& bitAt n i).getLsbD i = false := by rw [h]; simp
    rw [BitVec.getLsbD_and, getLsbD_bitAt] at this
    simpa [hi] using this
  · intro h
    apply BitVec.eq_of_getLsbD_eq
    intro j hj
    rw [BitVec.getLsbD_and, getLsbD_bitAt]
    by_cases hji : i = j
    · subst hji; simp [h]
    · simp [hji]

theorem getLsbD_bitAt_sub_one {i : Nat} (hi : i < n) (j : Nat) :
    (bitAt n i - 1#n).getLsbD j = decide (j < i) := by
  have h1 : (bitAt n i - 1#n).toNat = 2 ^ i - 1 := by
    have hlt : 2 ^ i < 2 ^ n := Nat.pow_lt_pow_right (by omega) hi
    have hpos : 0 < 2 ^ i := Nat.two_pow_pos i
    have hn : 1 < 2 ^ n := by omega
    rw [BitVec.toNat_sub, BitVec.toNat_shiftLeft, BitVec.toNat_ofNat, Nat.shiftLeft_eq,
      Nat.mod_eq_of_lt hn, Nat.one_mul, Nat.mod_eq_of_lt hlt,
      show 2 ^ n - 1 + 2 ^ i = (2 ^ i - 1) + 2 ^ n by omega, Nat.add_mod_right]
    exact Nat.mod_eq_of_lt (by omega)
  rw [BitVec.getLsbD, h1, Nat.testBit_two_pow_sub_one]

theorem countOnes_mask (x : BitVec n) {i : Nat} (hi : i < n) :
    countOnes (x &&& (bitAt n i - 1#n)) = onesBelow x i := by
  rw [countOnes_eq_onesBelow]
  have key : ∀ m, onesBelow (x &&& (bitAt n i - 1#n)) m = onesBelow x (min m i) := by
    intro m
    induction m with
    | zero => simp
    | succ m ih =>
      rw [onesBelow_succ, ih, BitVec.getLsbD_and, getLsbD_bitAt_sub_one hi]
      by_cases h : m < i
      · rw [show min m i = m by omega, show min (m + 1) i = m + 1 by omega, onesBelow_succ]
        simp [h]
      · rw [show min m i = i by omega, show min (m + 1) i = i by omega]
        simp [h]
  rw [key, show min n i = i by omega]

/-! ### The operations at a single-bit word -/

theorem nthBit_ok {i : Nat} (h : i < n) : nthBit n i = .ok (bitAt n i) := by
  simp [nthBit, bitAt]; omega

theorem nthBit_err {i : Nat} (h : n ≤ i) : nthBit n i = .error .range := by
  simp [nthBit]; omega

theorem bitCountOne_bitAt {i : Nat} (h : i < n) : bitCountOne (bitAt n i) = .ok () := by
  simp [bitCountOne, countOnes_bitAt h]

theorem bitFound_bitAt (x : BitVec n) {i : Nat} (h : i < n) :
    bitFound x (bitAt n i) = if x.getLsbD i then .ok () else .error .notFound := by
  simp only [bitFound, bitCountOne_bitAt h, and_bitAt_eq_zero x h]
  cases x.getLsbD i <;> rfl

theorem bitContains_bitAt (x : BitVec n) {i : Nat} (h : i < n) :
    bitContains x (bitAt n i) = .ok (x.getLsbD i) := by
  simp only [bitContains, bitCountOne_bitAt h]
  have := and_bitAt_eq_zero x h
  cases hx : x.getLsbD i with
  | false => rw [hx] at this; simp at this; simp [this, bind, Except.bind]
  | true => rw [hx] at this; simp at this; simp [this, bind, Except.bind]

theorem bitIndex_bitAt (x : BitVec n) {i : Nat} (h : i < n) :
    bitIndex x (bitAt n i) = if x.getLsbD i then .ok (onesBelow x i) else .error .notFound := by
  simp only [bitIndex, bitFound_bitAt x h, countOnes_mask x h]
  cases x.getLsbD i <;> rfl

theorem bitInsert_bitAt (x : BitVec n) {i : Nat} (h : i < n) :
    bitInsert x (bitAt n i) = if x.getLsbD i then .error .found else .ok (x ||| bitAt n i) := by
  simp only [bitInsert, bitNotFound, bitCountOne_bitAt h, bitsNotFound, ne_eq, and_bitAt_eq_zero x h]
  cases x.getLsbD i <;> rfl

theorem bitRemove_bitAt (x : BitVec n) {i : Nat} (h : i < n) :
    bitRemove x (bitAt n i) = if x.getLsbD i then .ok (x ^^^ bitAt n i) else .error .notFound := by
  simp only [bitRemove, bitFound_bitAt x h]
  cases x.getLsbD i <;> rfl

theorem bitMerge_eq (x y : BitVec n) :
    bitMerge x y = if x &&& y = 0#n then .ok (x ||| y) else .error .found := by
  simp only [bitMerge, bitsNotFound]
  by_cases h : x &&& y = 0#n <;> simp [h, bind, Except.bind]

theorem and_eq_zero_iff (x y : BitVec n) :
    x &&& y = 0#n ↔ ∀ i, i < n → ¬ (x.getLsbD i = true ∧ y.getLsbD i = true) := by
  constructor
  · intro h i hi ⟨h1, h2⟩
    have : (x &&& y).getLsbD i = false := by rw [h]; simp
    rw [BitVec.getLsbD_and, h1, h2] at this; simp at this
  · intro h
    apply BitVec.eq_of_getLsbD_eq
    intro j hj
    have := h j hj
    rw [BitVec.getLsbD_and]
    cases h1 : x.getLsbD j <;> cases h2 : y.getLsbD j <;> simp_all

theorem bits_countOne_err {bit : BitVec n} (h : countOnes bit ≠ 1) :
    bitCountOne bit = .error .countNotEqualToOne := by simp [bitCountOne, h]

end HT
