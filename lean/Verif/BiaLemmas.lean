import Verif.Bia
import Verif.WordLemmas
/-! # Facts about bit-indexed arrays: refinement to a partial map from positions to values -/
namespace HT

variable {n : Nat} {V : Type}

theorem getLsbD_or_bitAt (x : BitVec n) (i j : Nat) :
    (x ||| bitAt n i).getLsbD j = (x.getLsbD j || (decide (i = j) && decide (j < n))) := by
  rw [BitVec.getLsbD_or, getLsbD_bitAt]

theorem getLsbD_xor_bitAt (x : BitVec n) (i j : Nat) :
    (x ^^^ bitAt n i).getLsbD j = (x.getLsbD j ^^ (decide (i = j) && decide (j < n))) := by
  rw [BitVec.getLsbD_xor, getLsbD_bitAt]

theorem onesBelow_or {x : BitVec n} {i : Nat} (hi : i < n) (hx : x.getLsbD i = false) (j : Nat) :
    onesBelow (x ||| bitAt n i) j = onesBelow x j + if i < j then 1 else 0 := by
  induction j with
  | zero => simp
  | succ j ih =>
    rw [onesBelow_succ, onesBelow_succ, ih, getLsbD_or_bitAt]
    by_cases h : i = j
    · subst h; rw [hx]; simp [hi]
    · by_cases h2 : i < j
      · have : i < j + 1 := by omega
        simp [h, h2, this]; omega
      · have : ¬ i < j + 1 := by omega
        simp [h, h2, this]

theorem onesBelow_xor {x : BitVec n} {i : Nat} (hi : i < n) (hx : x.getLsbD i = true) (j : Nat) :
    onesBelow x j = onesBelow (x ^^^ bitAt n i) j + if i < j then 1 else 0 := by
  induction j with
  | zero => simp
  | succ j ih =>
    rw [onesBelow_succ, onesBelow_succ, ih, getLsbD_xor_bitAt]
    by_cases h : i = j
    · subst h; simp [hx, hi]
    · by_cases h2 : i < j
      · have : i < j + 1 := by omega
        simp [h, h2, this]; omega
      · have : ¬ i < j + 1 := by omega
        simp [h, h2, this]

theorem mapM_range (l : List V) (f : Nat → Option V) (h : ∀ i, i < l.length → f i = l[i]?) :
    (List.range l.length).mapM f = some l := by
  have gen : ∀ m, m ≤ l.length → (List.range m).mapM f = some (l.take m) := by
    intro m
    induction m with
    | zero => intro _; rfl
    | succ m ih =>
      intro hm
      have hlt : m < l.length := by omega
      rw [List.range_succ, List.mapM_append, ih (by omega)]
      simp only [List.mapM_cons, List.mapM_nil, h m hlt, List.getElem?_eq_getElem hlt]
      rw [List.take_succ_eq_append_getElem hlt]
      rfl
  rw [gen _ (Nat.le_refl _), List.take_length]

namespace Bia

/-- The value at bit position `i`, if any. -/
def slot (a : Bia n V) (i : Nat) : Option V :=
  if a.bits.getLsbD i then a.values[onesBelow a.bits i]? else none

/-- The number of set bits is the number of values. -/
def Ok (a : Bia n V) : Prop := countOnes a.bits = a.values.length

theorem slot_isSome {a : Bia n V} (h : a.Ok) (i : Nat) :
    (a.slot i).isSome = a.bits.getLsbD i := by
  unfold slot
  cases hb : a.bits.getLsbD i with
  | false => simp
  | true =>
    have := onesBelow_lt_countOnes a.bits hb
    rw [h] at this
    simp [this]

theorem slot_eq_none_iff {a : Bia n V} (h : a.Ok) (i : Nat) :
    a.slot i = none ↔ a.bits.getLsbD i = false := by
  rw [← slot_isSome h i]; cases a.slot i <;> simp

theorem slot_ge {a : Bia n V} {i : Nat} (h : n ≤ i) : a.slot i = none := by
  simp [slot, BitVec.getLsbD_of_ge a.bits i h]

theorem slot_map {W : Type} (bits : BitVec n) (values : List V) (e : Nat) (f : V → W) (i : Nat) :
    (Bia.mk bits (values.map f) e).slot i = ((Bia.mk bits values e).slot i).map f := by
  simp only [slot]
  split <;> simp

theorem slot_mem {a : Bia n V} {i : Nat} {v : V} (h : a.slot i = some v) : v ∈ a.values := by
  unfold slot at h
  split at h
  · exact List.mem_of_getElem? h
  · simp at h

theorem slot_lt {a : Bia n V} {i : Nat} {v : V} (h : a.slot i = some v) : i < n := by
  rcases Nat.lt_or_ge i n with h' | h'
  · exact h'
  · rw [slot_ge h'] at h; simp at h

theorem at'_bitAt (a : Bia n V) (h : a.Ok) {i : Nat} (hi : i < n) :
    a.at' (bitAt n i) = match a.slot i with
      | some v => .ok v
      | none => .error .notFound := by
  simp only [at', bitIndex_bitAt a.bits hi]
  cases hb : a.bits.getLsbD i with
  | false =>
    rw [(slot_eq_none_iff h i).2 hb]; rfl
  | true =>
    have := onesBelow_lt_countOnes a.bits hb
    rw [h] at this
    simp [slot, hb, List.getElem?_eq_getElem this, bind, Except.bind]

theorem atBitIndex_eq (a : Bia n V) (h : a.Ok) (i : Nat) :
    a.atBitIndex i = .ok (match a.slot i with
      | some v => .ok v
      | none => .error (if i < n then .notFound else .range)) := by
  simp only [atBitIndex]
  rcases Nat.lt_or_ge i n with hi | hi
  · simp only [nthBit_ok hi, bind, Except.bind, bitIndex_bitAt a.bits hi]
    cases hb : a.bits.getLsbD i with
    | false => rw [(slot_eq_none_iff h i).2 hb]; simp [hi]
    | true =>
      have := onesBelow_lt_countOnes a.bits hb
      rw [h] at this
      simp [slot, hb, List.getElem?_eq_getElem this]
  · have : ¬ i < n := by omega
    simp [nthBit_err hi, bind, Except.bind, slot_ge hi, this]

theorem create_eq {bits : BitVec n} {f : Nat → Option V} (l : List V) (e : Nat)
    (hn : n ≤ 128) (hc : countOnes bits = l.length) (hf : ∀ i, i < l.length → f i = l[i]?)
    {len : Nat} (hlen : len = l.length) :
    create bits len f e = .ok (.ok ⟨bits, l, e⟩) := by
  subst hlen
  have := countOnes_le bits
  have h1 : l.length ≤ 128 := by omega
  simp [create, hc, h1, mapM_range l f hf]

theorem ofVec_eq {bits : BitVec n} (l : List V) (e : Nat)
    (hn : n ≤ 128) (hc : countOnes bits = l.length) :
    ofVec bits l e = .ok (.ok ⟨bits, l, e⟩) :=
  create_eq l e hn hc (fun _ _ => rfl) rfl

theorem ofVec_err {bits : BitVec n} (l : List V) (e : Nat) (hc : countOnes bits ≠ l.length) :
    ofVec bits l e = .ok (.error .countNotEqualToOne) := by
  simp [ofVec, create, hc]

/-- `inserted` at a vacant position. -/
theorem inserted_eq (a : Bia n V) (h : a.Ok) (hn : n ≤ 128) {i : Nat} (hi : i < n)
    (hs : a.slot i = none) (v : V) (e : Nat) :
    a.inserted (bitAt n i) v e =
      .ok (.ok ⟨a.bits ||| bitAt n i, a.values.insertIdx (onesBelow a.bits i) v, e⟩) := by
  have hb := (slot_eq_none_iff h i).1 hs
  have hle : onesBelow a.bits i ≤ a.values.length := by
    have := onesBelow_mono a.bits (Nat.le_of_lt hi)
    rw [← h]; exact this
  have hidx : bitIndex (a.bits ||| bitAt n i) (bitAt n i) = .ok (onesBelow a.bits i) := by
    rw [bitIndex_bitAt _ hi, getLsbD_or_bitAt, onesBelow_or hi hb]; simp [hi]
  have hlen : (a.values.insertIdx (onesBelow a.bits i) v).length = a.values.length + 1 := by
    rw [List.length_insertIdx_of_le_length hle]
  simp only [inserted, bitInsert_bitAt a.bits hi, hb, bind, Except.bind, hidx, pure, Except.pure,
    Bool.false_eq_true, if_false]
  apply create_eq _ _ hn
  · rw [countOnes_eq_onesBelow, onesBelow_or hi hb, hlen, ← h, countOnes_eq_onesBelow]; simp [hi]
  · intro j hj
    rw [hlen] at hj
    simp only [insertAt, List.getElem?_insertIdx]
    split
    · rfl
    · split
      · simp; omega
      · rename_i h1 h2
        have : ¬ j = onesBelow a.bits i := h2
        rfl
  · rw [hlen]

theorem slot_inserted (a : Bia n V) (h : a.Ok) {i : Nat} (hi : i < n)
    (hs : a.slot i = none) (v : V) (e : Nat) (j : Nat) :
    (Bia.mk (a.bits ||| bitAt n i) (a.values.insertIdx (onesBelow a.bits i) v) e).slot j =
      if j = i then some v else a.slot j := by
  have hb := (slot_eq_none_iff h i).1 hs
  have hle : onesBelow a.bits i ≤ a.values.length := by
    have := onesBelow_mono a.bits (Nat.le_of_lt hi)
    rw [← h]; exact this
  by_cases hj : j = i
  · subst hj
    simp [slot, getLsbD_or_bitAt, hi, onesBelow_or hi hb, List.getElem?_insertIdx, hle]
  · have hij : ¬ i = j := fun e => hj e.symm
    simp only [slot, getLsbD_or_bitAt, onesBelow_or hi hb, hj, hij, decide_false, Bool.false_and,
      Bool.or_false, if_false]
    cases hbj : a.bits.getLsbD j with
    | false => simp
    | true =>
      simp only [if_true]
      by_cases h2 : i < j
      · have := onesBelow_mono a.bits (Nat.le_of_lt h2)
        simp only [h2, if_true, List.getElem?_insertIdx]
        rw [if_neg (by omega), if_neg (by omega)]; rfl
      · have hlt : j < i := by omega
        have := onesBelow_mono a.bits (show j + 1 ≤ i from hlt)
        rw [onesBelow_succ, hbj] at this
        simp only [h2, if_false, List.getElem?_insertIdx]
        rw [if_pos (by simp at this; omega)]; rfl

theorem ok_inserted (a : Bia n V) (h : a.Ok) {i : Nat} (hi : i < n)
    (hs : a.slot i = none) (v : V) (e : Nat) :
    (Bia.mk (a.bits ||| bitAt n i) (a.values.insertIdx (onesBelow a.bits i) v) e).Ok := by
  have hb := (slot_eq_none_iff h i).1 hs
  have hle : onesBelow a.bits i ≤ a.values.length := by
    have := onesBelow_mono a.bits (Nat.le_of_lt hi)
    rw [← h]; exact this
  simp only [Ok]
  rw [List.length_insertIdx_of_le_length hle, countOnes_eq_onesBelow, onesBelow_or hi hb, ← h,
    countOnes_eq_onesBelow]; simp [hi]

/-- `updated` at an occupied position. -/
theorem updated_eq (a : Bia n V) (h : a.Ok) (hn : n ≤ 128) {i : Nat} {v0 : V}
    (hs : a.slot i = some v0) (v : V) (e : Nat) :
    a.updated (bitAt n i) v e =
      .ok (.ok ⟨a.bits, a.values.set (onesBelow a.bits i) v, e⟩) := by
  have hi := slot_lt hs
  have hb : a.bits.getLsbD i = true := by rw [← slot_isSome h i, hs]; rfl
  simp only [updated, bitIndex_bitAt a.bits hi, hb, if_true]
  apply create_eq _ _ hn
  · rw [List.length_set]; exact h
  · intro j hj
    rw [List.length_set] at hj
    simp only [updateAt, List.getElem?_set]
    by_cases h1 : onesBelow a.bits i = j
    · subst h1; simp [hj]
    · simp only [h1, if_false]
      split
      · rfl
      · rw [if_neg (fun e => h1 e.symm)]
  · rw [List.length_set]

theorem slot_updated (a : Bia n V) (h : a.Ok) {i : Nat} {v0 : V}
    (hs : a.slot i = some v0) (v : V) (e : Nat) (j : Nat) :
    (Bia.mk a.bits (a.values.set (onesBelow a.bits i) v) e).slot j =
      if j = i then some v else a.slot j := by
  have hi := slot_lt hs
  have hb : a.bits.getLsbD i = true := by rw [← slot_isSome h i, hs]; rfl
  have hlt := onesBelow_lt_countOnes a.bits hb
  rw [h] at hlt
  by_cases hj : j = i
  · subst hj; simp [slot, hb, hlt]
  · simp only [slot, hj, if_false]
    cases hbj : a.bits.getLsbD j with
    | false => simp
    | true =>
      simp only [if_true, List.getElem?_set]
      have : onesBelow a.bits i ≠ onesBelow a.bits j := by
        rcases Nat.lt_or_ge i j with h2 | h2
        · have := onesBelow_mono a.bits (show i + 1 ≤ j from h2)
          rw [onesBelow_succ, hb] at this; simp at this; omega
        · have := onesBelow_mono a.bits (show j + 1 ≤ i by omega)
          rw [onesBelow_succ, hbj] at this; simp at this; omega
      rw [if_neg this]

theorem ok_updated (a : Bia n V) (h : a.Ok) (i : Nat) (v : V) (e : Nat) :
    (Bia.mk a.bits (a.values.set i v) e).Ok := by
  simp only [Ok, List.length_set]; exact h

/-- `removed` at an occupied position. -/
theorem removed_eq (a : Bia n V) (h : a.Ok) (hn : n ≤ 128) {i : Nat} {v0 : V}
    (hs : a.slot i = some v0) (e : Nat) :
    a.removed (bitAt n i) e =
      .ok (.ok ⟨a.bits ^^^ bitAt n i, a.values.eraseIdx (onesBelow a.bits i), e⟩) := by
  have hi := slot_lt hs
  have hb : a.bits.getLsbD i = true := by rw [← slot_isSome h i, hs]; rfl
  have hlt := onesBelow_lt_countOnes a.bits hb
  rw [h] at hlt
  have hlen : (a.values.eraseIdx (onesBelow a.bits i)).length = a.values.length - 1 := by
    rw [List.length_eraseIdx_of_lt hlt]
  simp only [removed, bitRemove_bitAt a.bits hi, hb, bind, Except.bind, pure, Except.pure,
    bitIndex_bitAt a.bits hi, if_true]
  apply create_eq _ _ hn
  · have := onesBelow_xor hi hb n
    rw [hlen, ← h, countOnes_eq_onesBelow, countOnes_eq_onesBelow, this]; simp [hi]
  · intro j hj
    simp only [removeAt, List.getElem?_eraseIdx]
  · rw [hlen]

theorem slot_removed (a : Bia n V) (h : a.Ok) {i : Nat} {v0 : V}
    (hs : a.slot i = some v0) (e : Nat) (j : Nat) :
    (Bia.mk (a.bits ^^^ bitAt n i) (a.values.eraseIdx (onesBelow a.bits i)) e).slot j =
      if j = i then none else a.slot j := by
  have hi := slot_lt hs
  have hb : a.bits.getLsbD i = true := by rw [← slot_isSome h i, hs]; rfl
  by_cases hj : j = i
  · subst hj; simp only [slot, getLsbD_xor_bitAt, hb]; simp [hi]
  · have hij : ¬ i = j := fun e => hj e.symm
    have hx := onesBelow_xor hi hb j
    simp only [slot, getLsbD_xor_bitAt, hj, hij, decide_false, Bool.false_and,
      Bool.xor_false, if_false]
    cases hbj : a.bits.getLsbD j with
    | false => simp
    | true =>
      simp only [if_true, List.getElem?_eraseIdx]
      by_cases h2 : i < j
      · have := onesBelow_mono a.bits (show i + 1 ≤ j from h2)
        rw [onesBelow_succ, hb] at this
        simp [h2] at this hx
        rw [if_neg (by omega), hx]
      · have hlt : j < i := by omega
        have := onesBelow_mono a.bits (show j + 1 ≤ i from hlt)
        rw [onesBelow_succ, hbj] at this
        simp [h2] at this hx
        rw [if_pos (by omega), hx]

theorem ok_removed (a : Bia n V) (h : a.Ok) {i : Nat} {v0 : V}
    (hs : a.slot i = some v0) (e : Nat) :
    (Bia.mk (a.bits ^^^ bitAt n i) (a.values.eraseIdx (onesBelow a.bits i)) e).Ok := by
  have hi := slot_lt hs
  have hb : a.bits.getLsbD i = true := by rw [← slot_isSome h i, hs]; rfl
  have hlt := onesBelow_lt_countOnes a.bits hb
  rw [h] at hlt
  have := onesBelow_xor hi hb n
  simp only [Ok]
  rw [List.length_eraseIdx_of_lt hlt, ← h, countOnes_eq_onesBelow, countOnes_eq_onesBelow, this]
  simp [hi]

/-- The stored values, in storage order, are the occupied slots in increasing position. -/
theorem values_eq (a : Bia n V) (h : a.Ok) : a.values = (List.range n).filterMap a.slot := by
  have gen : ∀ m, m ≤ n → (List.range m).filterMap a.slot = a.values.take (onesBelow a.bits m) := by
    intro m
    induction m with
    | zero => intro _; simp
    | succ m ih =>
      intro hm
      rw [List.range_succ, List.filterMap_append, ih (by omega), onesBelow_succ]
      cases hb : a.bits.getLsbD m with
      | false =>
        have := (slot_eq_none_iff h m).2 hb
        simp [this]
      | true =>
        have hlt := onesBelow_lt_countOnes a.bits hb
        rw [h] at hlt
        have hs : a.slot m = some a.values[onesBelow a.bits m] := by
          simp [slot, hb, hlt]
        simp only [List.filterMap_cons, hs, List.filterMap_nil, if_true]
        rw [List.take_succ_eq_append_getElem hlt]
  rw [gen n (Nat.le_refl n), ← countOnes_eq_onesBelow, h, List.take_length]

/-- Two arrays with the same slots (and bit counts right) have the same values and bits. -/
theorem ext_slot {a b : Bia n V} (ha : a.Ok) (hb : b.Ok) (h : ∀ i, a.slot i = b.slot i) :
    a.bits = b.bits ∧ a.values = b.values := by
  constructor
  · apply BitVec.eq_of_getLsbD_eq
    intro i _
    rw [← slot_isSome ha, ← slot_isSome hb, h]
  · rw [values_eq a ha, values_eq b hb, funext h]

end Bia
end HT
