import Verif.BiaLemmas
/-!
# Properties C28, C29: flag words and bit-indexed arrays

A word is specified by its members: `x.getLsbD i = true` says that position `i` is in `x`.
-/
namespace HT

deriving instance DecidableEq for Except

variable {n : Nat}

/-! ## C28 -/

/-- C28, `nth_bit`: the word whose only member is `i`, exactly when `i` is below the width. -/
theorem C28_nth_bit (n i : Nat) :
    (n ≤ i → nthBit n i = .error .range) ∧
    (i < n → ∃ x, nthBit n i = .ok x ∧ ∀ j, x.getLsbD j = true ↔ j = i) := by
  refine ⟨fun h => nthBit_err h, fun h => ⟨_, nthBit_ok h, fun j => ?_⟩⟩
  rw [getLsbD_bitAt]
  simp only [Bool.and_eq_true, decide_eq_true_eq]
  omega

example : nthBit 8 7 = .ok 128#8 ∧ nthBit 8 8 = .error .range := by decide

/-- C28, `max_ones` is the number of members of the word with all bits set, the most any word has, and `nth_bit`
    accepts exactly the positions below it. -/
theorem C28_max_ones (x : BitVec n) :
    countOnes x ≤ maxOnes x ∧ countOnes (BitVec.allOnes n) = maxOnes x ∧
    (countOnes x = maxOnes x ↔ x = BitVec.allOnes n) ∧
    ∀ i, (∃ y, nthBit n i = .ok y) ↔ i < maxOnes x := by
  refine ⟨countOnes_le x, ?_, ⟨fun h => ?_, fun h => ?_⟩, fun i => ⟨fun ⟨y, hy⟩ => ?_, fun h => ⟨_, nthBit_ok h⟩⟩⟩
  · have : (List.range n).filter (fun i => (BitVec.allOnes n).getLsbD i) = List.range n := by
      rw [List.filter_eq_self]; intro i hi; simpa using hi
    rw [countOnes, this, List.length_range]; rfl
  · have : (List.range n).filter (fun i => x.getLsbD i) = List.range n := by
      apply List.Sublist.eq_of_length List.filter_sublist
      simpa [countOnes, maxOnes] using h
    rw [List.filter_eq_self] at this
    apply BitVec.eq_of_getLsbD_eq
    intro i hi
    simp [this i (by simpa using hi), hi]
  · subst h
    have : (List.range n).filter (fun i => (BitVec.allOnes n).getLsbD i) = List.range n := by
      rw [List.filter_eq_self]; intro i hi; simpa using hi
    rw [countOnes, this, List.length_range]; rfl
  · rcases Nat.lt_or_ge i n with h | h
    · exact h
    · rw [nthBit_err h] at hy; simp at hy

example : maxOnes (5#32) = 32 ∧ countOnes (5#32) = 2 := by decide

/-- C28, invalid bits: an argument that does not have exactly one member is rejected by all operations
    that take a single bit. -/
theorem C28_invalid_bit (x bit : BitVec n) (h : countOnes bit ≠ 1) :
    bitContains x bit = .error .countNotEqualToOne ∧ bitIndex x bit = .error .countNotEqualToOne ∧
    bitInsert x bit = .error .countNotEqualToOne ∧ bitRemove x bit = .error .countNotEqualToOne := by
  simp [bitContains, bitIndex, bitInsert, bitRemove, bitFound, bitNotFound, bits_countOne_err h, bind,
    Except.bind]

example : countOnes (6#8) ≠ 1 := by decide

/-- C28, valid bits: the arguments with exactly one member are the results of `nth_bit`. -/
theorem C28_valid_bit (bit : BitVec n) : countOnes bit = 1 ↔ ∃ i, nthBit n i = .ok bit := by
  constructor
  · intro h
    obtain ⟨i, hi, rfl⟩ := bitAt_of_countOnes_one h
    exact ⟨i, nthBit_ok hi⟩
  · intro ⟨i, hi⟩
    rcases Nat.lt_or_ge i n with h | h
    · rw [nthBit_ok h] at hi; injection hi with hi; rw [← hi, countOnes_bitAt h]
    · rw [nthBit_err h] at hi; simp at hi

/-- C28, `bit_contains` is membership, `bit_index` the number of members below a member. -/
theorem C28_contains_index (x bit : BitVec n) (i : Nat) (hb : nthBit n i = .ok bit) :
    bitContains x bit = .ok (x.getLsbD i) ∧
    (x.getLsbD i = false → bitIndex x bit = .error .notFound) ∧
    (x.getLsbD i = true →
      bitIndex x bit = .ok ((List.range i).filter (fun j => x.getLsbD j)).length) := by
  rcases Nat.lt_or_ge i n with h | h
  · rw [nthBit_ok h] at hb; injection hb with hb; subst hb
    refine ⟨bitContains_bitAt x h, ?_, ?_⟩ <;> intro hx <;> rw [bitIndex_bitAt x h, hx] <;> rfl
  · rw [nthBit_err h] at hb; simp at hb

example : nthBit 8 2 = .ok 4#8 ∧ bitIndex (0b110110#8) 4#8 = .ok 1 := by decide

/-- C28, `bit_insert` adds a non-member and rejects a member. -/
theorem C28_insert (x bit : BitVec n) (i : Nat) (hb : nthBit n i = .ok bit) :
    (x.getLsbD i = true → bitInsert x bit = .error .found) ∧
    (x.getLsbD i = false → ∃ y, bitInsert x bit = .ok y ∧
      ∀ j, y.getLsbD j = true ↔ (x.getLsbD j = true ∨ j = i)) := by
  rcases Nat.lt_or_ge i n with h | h
  · rw [nthBit_ok h] at hb; injection hb with hb; subst hb
    refine ⟨fun hx => by rw [bitInsert_bitAt x h, hx]; rfl, fun hx => ⟨_, by rw [bitInsert_bitAt x h, hx]; rfl, ?_⟩⟩
    intro j
    rw [getLsbD_or_bitAt]
    simp only [Bool.or_eq_true, Bool.and_eq_true, decide_eq_true_eq]
    constructor
    · rintro (h1 | ⟨h1, h2⟩)
      · exact .inl h1
      · exact .inr h1.symm
    · rintro (h1 | h1)
      · exact .inl h1
      · exact .inr ⟨h1.symm, by omega⟩
  · rw [nthBit_err h] at hb; simp at hb

example : bitInsert (0b10010#8) 4#8 = .ok 0b10110#8 := by decide

/-- C28, `bit_remove` removes a member and rejects a non-member. -/
theorem C28_remove (x bit : BitVec n) (i : Nat) (hb : nthBit n i = .ok bit) :
    (x.getLsbD i = false → bitRemove x bit = .error .notFound) ∧
    (x.getLsbD i = true → ∃ y, bitRemove x bit = .ok y ∧
      ∀ j, y.getLsbD j = true ↔ (x.getLsbD j = true ∧ j ≠ i)) := by
  rcases Nat.lt_or_ge i n with h | h
  · rw [nthBit_ok h] at hb; injection hb with hb; subst hb
    refine ⟨fun hx => by rw [bitRemove_bitAt x h, hx]; rfl, fun hx => ⟨_, by rw [bitRemove_bitAt x h, hx]; rfl, ?_⟩⟩
    intro j
    rw [getLsbD_xor_bitAt]
    by_cases hj : i = j
    · subst hj; simp [hx, h]
    · have : j ≠ i := fun e => hj e.symm
      simp [hj, this]
  · rw [nthBit_err h] at hb; simp at hb

example : bitRemove (0b10110#8) 4#8 = .ok 0b10010#8 := by decide

/-- C28, `bit_merge` is the union of disjoint words and rejects overlapping ones. -/
theorem C28_merge (x y : BitVec n) :
    ((∃ i, x.getLsbD i = true ∧ y.getLsbD i = true) → bitMerge x y = .error .found) ∧
    ((∀ i, ¬ (x.getLsbD i = true ∧ y.getLsbD i = true)) → ∃ z, bitMerge x y = .ok z ∧
      ∀ j, z.getLsbD j = true ↔ (x.getLsbD j = true ∨ y.getLsbD j = true)) := by
  rw [bitMerge_eq]
  constructor
  · rintro ⟨i, h1, h2⟩
    have : ¬ (x &&& y = 0#n) := by
      rw [and_eq_zero_iff]
      intro h
      rcases Nat.lt_or_ge i n with hi | hi
      · exact h i hi ⟨h1, h2⟩
      · rw [BitVec.getLsbD_of_ge _ _ hi] at h1; simp at h1
    rw [if_neg this]
  · intro h
    have : x &&& y = 0#n := (and_eq_zero_iff x y).2 (fun i _ => h i)
    refine ⟨_, if_pos this, fun j => ?_⟩
    rw [BitVec.getLsbD_or]; simp

example : bitMerge (0b10010#8) (0b101#8) = .ok 0b10111#8 := by decide

/-- C28: insertion and removal of the same bit undo each other, and so do the counts. -/
theorem C28_undo (x y bit : BitVec n) :
    (bitInsert x bit = .ok y → bitRemove y bit = .ok x ∧ countOnes y = countOnes x + 1) ∧
    (bitRemove x bit = .ok y → bitInsert y bit = .ok x ∧ countOnes x = countOnes y + 1) := by
  by_cases hc : countOnes bit = 1
  · obtain ⟨i, hi, rfl⟩ := bitAt_of_countOnes_one hc
    have key : ∀ x y : BitVec n, x.getLsbD i = false → y = x ||| bitAt n i →
        y ^^^ bitAt n i = x ∧ y.getLsbD i = true ∧ countOnes y = countOnes x + 1 := by
      intro x y hx hy
      subst hy
      refine ⟨?_, ?_, ?_⟩
      · apply BitVec.eq_of_getLsbD_eq
        intro j hj
        rw [getLsbD_xor_bitAt, getLsbD_or_bitAt]
        by_cases h : i = j
        · subst h; rw [hx]; simp [hi]
        · simp [h]
      · rw [getLsbD_or_bitAt]; simp [hi]
      · rw [countOnes_eq_onesBelow, countOnes_eq_onesBelow, onesBelow_or hi hx]; simp [hi]
    constructor
    · intro h
      rw [bitInsert_bitAt x hi] at h
      cases hx : x.getLsbD i with
      | true => rw [hx] at h; simp at h
      | false =>
        rw [hx] at h
        injection h with h
        obtain ⟨k1, k2, k3⟩ := key x y hx h.symm
        refine ⟨?_, k3⟩
        rw [bitRemove_bitAt y hi, k2, if_pos rfl, k1]
    · intro h
      rw [bitRemove_bitAt x hi] at h
      cases hx : x.getLsbD i with
      | false => rw [hx] at h; simp at h
      | true =>
        rw [hx] at h
        injection h with h
        have hy : y.getLsbD i = false := by
          rw [← h, getLsbD_xor_bitAt, hx]; simp [hi]
        have hxy : x = y ||| bitAt n i := by
          apply BitVec.eq_of_getLsbD_eq
          intro j hj
          rw [getLsbD_or_bitAt, ← h, getLsbD_xor_bitAt]
          by_cases h' : i = j
          · subst h'; simp [hx, hi]
          · simp [h']
        obtain ⟨k1, k2, k3⟩ := key y x hy hxy
        refine ⟨?_, k3⟩
        rw [bitInsert_bitAt y hi, hy, ← hxy]; rfl
  · have := C28_invalid_bit x bit hc
    rw [this.2.2.1, this.2.2.2]
    simp

example : bitInsert (0b10010#8) 4#8 = .ok 0b10110#8 ∧ bitRemove (0b10110#8) 4#8 = .ok 0b10010#8 := by
  decide

/-! ## C29 -/

variable {V : Type}

/-- The arrays a program can hold: the empty one, and every array an operation returns. -/
inductive Bia.Made : Bia n V → Prop
  | default : Bia.Made Bia.default
  | ofVec {bits : BitVec n} {vs : List V} {e : Nat} {a : Bia n V} :
      Bia.ofVec bits vs e = .ok (.ok a) → Bia.Made a
  | inserted {a a' : Bia n V} {bit : BitVec n} {v : V} {e : Nat} : Bia.Made a →
      a.inserted bit v e = .ok (.ok a') → Bia.Made a'
  | updated {a a' : Bia n V} {bit : BitVec n} {v : V} {e : Nat} : Bia.Made a →
      a.updated bit v e = .ok (.ok a') → Bia.Made a'
  | removed {a a' : Bia n V} {bit : BitVec n} {e : Nat} : Bia.Made a →
      a.removed bit e = .ok (.ok a') → Bia.Made a'

theorem Bia.create_ok {bits : BitVec n} {len : Nat} {f : Nat → Option V} {e : Nat} {a : Bia n V}
    (h : Bia.create bits len f e = .ok (.ok a)) : a.Ok := by
  have aux : ∀ (l : List Nat) (vs : List V), l.mapM f = some vs → vs.length = l.length := by
    intro l
    induction l with
    | nil => intro vs h; simp at h; subst h; rfl
    | cons x l ih =>
      intro vs h
      rw [List.mapM_cons] at h
      cases hx : f x with
      | none => rw [hx] at h; simp at h
      | some v =>
        rw [hx] at h
        cases hl : l.mapM f with
        | none => rw [hl] at h; simp at h
        | some vs' =>
          rw [hl] at h
          simp at h
          subst h
          simp [ih vs' hl]
  unfold Bia.create at h
  split at h
  · simp at h
  · rename_i hc
    split at h
    · split at h
      · rename_i vs hvs
        injection h with h; injection h with h; subst h
        have := aux _ _ hvs
        simp only [List.length_range] at this
        simp only [Bia.Ok]
        omega
      · simp at h
    · simp at h

theorem Bia.Made.ok {a : Bia n V} (h : a.Made) : a.Ok := by
  induction h with
  | default => simp [Bia.Ok, Bia.default, countOnes_zero]
  | ofVec h => exact Bia.create_ok h
  | inserted _ h _ => unfold Bia.inserted at h; split at h <;> first | (simp at h; done) | exact Bia.create_ok h
  | updated _ h _ => unfold Bia.updated at h; split at h <;> first | (simp at h; done) | exact Bia.create_ok h
  | removed _ h _ => unfold Bia.removed at h; split at h <;> first | (simp at h; done) | exact Bia.create_ok h

/-- The value at a bit position, if any: what `at_bit_index` answers. -/
def Bia.read (a : Bia n V) (i : Nat) : Option V :=
  match a.atBitIndex i with
  | .ok (.ok v) => some v
  | _ => none

theorem Bia.read_eq {a : Bia n V} (h : a.Ok) (i : Nat) : a.read i = a.slot i := by
  rw [Bia.read, Bia.atBitIndex_eq a h]
  cases a.slot i <;> rfl

/-- C29, reads: `at_bit_index` never panics and says `Range` exactly outside the word; `at` agrees with
    it; the occupied positions are the members of the bit word; iteration yields the values of the
    occupied positions in increasing order. -/
theorem C29_read {a : Bia n V} (h : a.Made) :
    (∀ i, a.atBitIndex i = .ok (match a.read i with
      | some v => .ok v
      | none => .error (if i < n then .notFound else .range))) ∧
    (∀ i bit, nthBit n i = .ok bit → a.at' bit = (match a.read i with
      | some v => .ok v
      | none => .error .notFound)) ∧
    (∀ i, (a.read i).isSome = a.bits.getLsbD i) ∧
    a.iter = (List.range n).filterMap a.read := by
  have ok := h.ok
  have hr : a.read = a.slot := funext (Bia.read_eq ok)
  rw [hr]
  refine ⟨Bia.atBitIndex_eq a ok, ?_, Bia.slot_isSome ok, Bia.values_eq a ok⟩
  intro i bit hb
  rcases Nat.lt_or_ge i n with hi | hi
  · rw [nthBit_ok hi] at hb; injection hb with hb; subst hb
    exact Bia.at'_bitAt a ok hi
  · rw [nthBit_err hi] at hb; simp at hb

/-- C29, `at_index` and `iter` agree. -/
theorem C29_at_index (a : Bia n V) (i : Nat) :
    a.atIndex i = match a.iter[i]? with
      | some v => .ok v
      | none => .error .range := rfl

/-- C29, `inserted`: fails exactly when the position is occupied (or not a position), otherwise only the
    addressed position changes.  (No word type of the crate is wider than 128 bits.) -/
theorem C29_inserted {a : Bia n V} (h : a.Made) (hn : n ≤ 128) (i : Nat) (v : V) (e : Nat) :
    (n ≤ i → a.insertedBitIndex i v e = .ok (.error .range)) ∧
    (i < n → a.read i ≠ none → a.insertedBitIndex i v e = .ok (.error .found)) ∧
    (i < n → a.read i = none → ∃ a', a.insertedBitIndex i v e = .ok (.ok a') ∧ a'.extra = e ∧
      ∀ j, a'.read j = if j = i then some v else a.read j) := by
  have ok := h.ok
  refine ⟨?_, ?_, ?_⟩
  · intro hi; simp [Bia.insertedBitIndex, nthBit_err hi]
  · intro hi hs
    rw [Bia.read_eq ok] at hs
    have hb : a.bits.getLsbD i = true := by
      rw [← Bia.slot_isSome ok]; cases hx : a.slot i <;> simp_all
    simp [Bia.insertedBitIndex, nthBit_ok hi, Bia.inserted, bitInsert_bitAt _ hi, hb, bind, Except.bind]
  · intro hi hs
    rw [Bia.read_eq ok] at hs
    have e1 := Bia.inserted_eq a ok hn hi hs v e
    refine ⟨_, by simp only [Bia.insertedBitIndex, nthBit_ok hi]; exact e1, rfl, ?_⟩
    intro j
    rw [Bia.read_eq ok, Bia.read_eq (Bia.ok_inserted a ok hi hs v e), Bia.slot_inserted a ok hi hs]

/-- C29, `updated`: fails exactly when the position is vacant, otherwise only the addressed position
    changes. -/
theorem C29_updated {a : Bia n V} (h : a.Made) (hn : n ≤ 128) (i : Nat) (v : V) (e : Nat) :
    (n ≤ i → a.updatedBitIndex i v e = .ok (.error .range)) ∧
    (i < n → a.read i = none → a.updatedBitIndex i v e = .ok (.error .notFound)) ∧
    (a.read i ≠ none → ∃ a', a.updatedBitIndex i v e = .ok (.ok a') ∧ a'.extra = e ∧
      ∀ j, a'.read j = if j = i then some v else a.read j) := by
  have ok := h.ok
  refine ⟨?_, ?_, ?_⟩
  · intro hi; simp [Bia.updatedBitIndex, nthBit_err hi]
  · intro hi hs
    rw [Bia.read_eq ok] at hs
    have hb := (Bia.slot_eq_none_iff ok i).1 hs
    simp [Bia.updatedBitIndex, nthBit_ok hi, Bia.updated, bitIndex_bitAt _ hi, hb]
  · intro hs
    rw [Bia.read_eq ok] at hs
    obtain ⟨v0, hs⟩ := Option.ne_none_iff_exists'.1 hs
    have hi := Bia.slot_lt hs
    have e1 := Bia.updated_eq a ok hn hs v e
    refine ⟨_, by simp only [Bia.updatedBitIndex, nthBit_ok hi]; exact e1, rfl, ?_⟩
    intro j
    rw [Bia.read_eq ok, Bia.read_eq (Bia.ok_updated a ok _ v e), Bia.slot_updated a ok hs]

/-- C29, `removed`: fails exactly when the position is vacant, otherwise only the addressed position
    changes. -/
theorem C29_removed {a : Bia n V} (h : a.Made) (hn : n ≤ 128) (i : Nat) (e : Nat) :
    (n ≤ i → a.removedBitIndex i e = .ok (.error .range)) ∧
    (i < n → a.read i = none → a.removedBitIndex i e = .ok (.error .notFound)) ∧
    (a.read i ≠ none → ∃ a', a.removedBitIndex i e = .ok (.ok a') ∧ a'.extra = e ∧
      ∀ j, a'.read j = if j = i then none else a.read j) := by
  have ok := h.ok
  refine ⟨?_, ?_, ?_⟩
  · intro hi; simp [Bia.removedBitIndex, nthBit_err hi]
  · intro hi hs
    rw [Bia.read_eq ok] at hs
    have hb := (Bia.slot_eq_none_iff ok i).1 hs
    simp [Bia.removedBitIndex, nthBit_ok hi, Bia.removed, bitRemove_bitAt _ hi, hb, bind, Except.bind]
  · intro hs
    rw [Bia.read_eq ok] at hs
    obtain ⟨v0, hs⟩ := Option.ne_none_iff_exists'.1 hs
    have hi := Bia.slot_lt hs
    have e1 := Bia.removed_eq a ok hn hs e
    refine ⟨_, by simp only [Bia.removedBitIndex, nthBit_ok hi]; exact e1, rfl, ?_⟩
    intro j
    rw [Bia.read_eq ok, Bia.read_eq (Bia.ok_removed a ok hs e), Bia.slot_removed a ok hs]

/-- C29, construction: rejected exactly when the number of values disagrees with the number of set bits
    (for the word widths of the crate); otherwise the values sit at the set bits in order. -/
theorem C29_construct (bits : BitVec n) (vs : List V) (e : Nat) (hn : n ≤ 128) :
    (countOnes bits ≠ vs.length → Bia.ofVec bits vs e = .ok (.error .countNotEqualToOne)) ∧
    (countOnes bits = vs.length → ∃ a, Bia.ofVec bits vs e = .ok (.ok a) ∧ a.bits = bits ∧
      a.iter = vs ∧ a.extra = e) :=
  ⟨fun h => Bia.ofVec_err vs e h, fun h => ⟨_, Bia.ofVec_eq vs e hn h, rfl, rfl, rfl⟩⟩

/-- Two arrays with the same occupied positions have the same number of values. -/
theorem Bia.Made.length_eq {a b : Bia n V} (ha : a.Made) (hb : b.Made) (h : a.bits = b.bits) :
    a.values.length = b.values.length := by
  have h1 : countOnes a.bits = a.values.length := ha.ok
  have h2 : countOnes b.bits = b.values.length := hb.ok
  rw [← h1, ← h2, h]

theorem Bia.eqLoop_spec [BEq V] (xs ys : List V) (h : xs.length = ys.length) : ∀ d i, i + d = xs.length →
    Bia.eqLoop xs ys (List.range' i d) = .ok (xs.drop i == ys.drop i)
  | 0, i, hi => by
    rw [List.drop_eq_nil_of_le (by omega), List.drop_eq_nil_of_le (by omega)]; rfl
  | d + 1, i, hi => by
    have h1 : i < xs.length := by omega
    have h2 : i < ys.length := by omega
    rw [List.range'_succ, Bia.eqLoop, List.getElem?_eq_getElem h1, List.getElem?_eq_getElem h2,
      List.drop_eq_getElem_cons h1, List.drop_eq_getElem_cons h2, List.cons_beq_cons]
    simp only [bne]
    rw [Bia.eqLoop_spec xs ys h d (i + 1) (by omega)]
    by_cases hxy : (xs[i] == ys[i]) = true
    · simp [hxy]
    · simp [hxy]

/-- C29, equality: comparing two arrays of one size never reads outside them, agrees with comparing arrays of
    any size, and is true exactly if the same positions are occupied, by values that compare equal, and the
    extra data agree. -/
theorem C29_equality [BEq V] {a b : Bia n V} (ha : a.Made) (hb : b.Made) :
    (a.values.length = b.values.length → a.eqSized b = .ok (a.eqDyn b)) ∧
    (a.eqDyn b = true ↔ a.extra = b.extra ∧ ∀ i, match a.read i, b.read i with
      | none, none => True
      | some x, some y => (x == y) = true
      | _, _ => False) := by
  constructor
  · intro hl
    unfold Bia.eqSized Bia.eqDyn
    by_cases h1 : a.bits = b.bits
    · by_cases h2 : a.extra = b.extra
      · have := Bia.eqLoop_spec a.values b.values hl a.values.length 0 (by omega)
        rw [← List.range_eq_range'] at this
        simpa [h1, h2, bne] using this
      · simp [h2, bne]
    · simp [h1, bne]
  · have h3a := (C29_read ha).2.2.1
    have h3b := (C29_read hb).2.2.1
    have h4a := (C29_read ha).2.2.2
    have h4b := (C29_read hb).2.2.2
    unfold Bia.eqDyn
    rw [Bool.and_eq_true, Bool.and_eq_true]
    rw [show a.values = a.iter from rfl, show b.values = b.iter from rfl, h4a, h4b]
    have key : ∀ l : List Nat, (∀ i ∈ l, (a.read i).isSome = (b.read i).isSome) →
        ((l.filterMap a.read == l.filterMap b.read) = true ↔ ∀ i ∈ l, match a.read i, b.read i with
          | none, none => True
          | some x, some y => (x == y) = true
          | _, _ => False) := by
      intro l
      induction l with
      | nil => intro _; simp
      | cons i l ih =>
        intro h
        have hi := h i (by simp)
        have ih := ih fun j hj => h j (by simp [hj])
        rw [List.forall_mem_cons, ← ih]
        cases hx : a.read i <;> cases hy : b.read i <;> rw [hx, hy] at hi <;> simp_all
    have out : ∀ (x : Bia n V), x.Made → ∀ i, n ≤ i → x.read i = none := by
      intro x hx i hi
      have := (C29_read hx).2.2.1 i
      rw [BitVec.getLsbD_of_ge _ _ hi] at this
      cases hr : x.read i with
      | none => rfl
      | some v => rw [hr] at this; simp at this
    constructor
    · rintro ⟨⟨e1, e2⟩, e3⟩
      have e1 : a.bits = b.bits := by simpa using e1
      refine ⟨by simpa using e3, fun i => ?_⟩
      rcases Nat.lt_or_ge i n with hi | hi
      · exact (key _ fun j _ => by rw [h3a, h3b, e1]).1 e2 i (List.mem_range.2 hi)
      · rw [out a ha i hi, out b hb i hi]; trivial
    · rintro ⟨e1, e2⟩
      have same : ∀ i, (a.read i).isSome = (b.read i).isSome := by
        intro i
        have := e2 i
        cases hx : a.read i <;> cases hy : b.read i <;> rw [hx, hy] at this <;> first | rfl | exact this.elim
      refine ⟨⟨?_, (key _ fun j _ => same j).2 fun i _ => e2 i⟩, by simpa using e1⟩
      have : a.bits = b.bits := by
        apply BitVec.eq_of_getLsbD_eq
        intro i _
        rw [← h3a, ← h3b, same]
      simpa using this

/-- C29: an array equals its clone, which is also an array the operations can produce. -/
theorem C29_clone [BEq V] [ReflBEq V] {a : Bia n V} (ha : a.Made) :
    a.clone.Made ∧ (∀ i, a.clone.read i = a.read i) ∧ a.eqDyn a.clone = true ∧ a.eqSized a.clone = .ok true := by
  have h : a.eqDyn a = true := by simp [Bia.eqDyn]
  exact ⟨ha, fun _ => rfl, h, ((C29_equality ha ha).1 rfl).trans (congrArg _ h)⟩

example : (Bia.mk (0b10010#8) [10, 11] 0).eqSized ⟨0b10010#8, [10, 11], 0⟩ = .ok true ∧
    (Bia.mk (0b10010#8) [10, 11] 0).eqSized ⟨0b10010#8, [10, 12], 0⟩ = .ok false ∧
    (Bia.mk (0b10010#8) [10, 11] 0).eqDyn ⟨0b1000#8, [10], 0⟩ = false := by decide

example : ∃ a : Bia 8 Nat, a.Made ∧ a.read 1 = some 10 ∧ a.read 2 = none ∧ a.read 4 = some 11 := by
  refine ⟨⟨0b10010#8, [10, 11], 0⟩, .ofVec (bits := 0b10010#8) (vs := [10, 11]) (e := 0) ?_, ?_⟩
  · exact Bia.ofVec_eq _ _ (by decide) (by decide)
  · decide

end HT
