import Verif.HasherLemmas
import Verif.Examples
/-!
# Property C30: hashing a key into the map's hash word

`finish k : BitVec 64` is the result of the standard hasher.  C30 as stated ("never panics") holds for 64-bit hash words
and is false for 8, 16 and 32 bits.
-/
namespace HT

variable {K V : Type} [BEq K] {c : Cfg} {finish : K → BitVec 64}

/-- C30 for 64-bit hash words: hashing never panics and is the hasher's result, for every hasher and key. -/
theorem C30_word64 {K : Type} (finish : K → BitVec 64) (k : K) : hasherBv 64 finish k = .ok (finish k) := by
  have : (finish k).toNat < 2 ^ 64 := (finish k).isLt
  simp only [hasherBv, if_pos this, Res.unwrap_some, BitVec.setWidth_eq]

/-- For every hash word: hashing returns iff the hasher's result fits, and is then that number. -/
theorem C30_hash_iff {K : Type} (w : Nat) (finish : K → BitVec 64) (k : K) :
    ((finish k).toNat < 2 ^ w →
      ∃ h, hasherBv w finish k = .ok h ∧ h.toNat = (finish k).toNat) ∧
    (2 ^ w ≤ (finish k).toNat → hasherBv w finish k = .panic .unwrap) := by
  constructor
  · intro h
    refine ⟨(finish k).setWidth w, by simp [hasherBv, h], ?_⟩
    rw [BitVec.toNat_setWidth, Nat.mod_eq_of_lt h]
  · intro h
    have : ¬ (finish k).toNat < 2 ^ w := by omega
    simp [hasherBv, this]

/-- With a hash word of 8, 16 or 32 bits there is a hasher result for which `find`, `insert` and
    `remove` panic, on every map: any result that does not fit. -/
theorem C30_refuted (t : Trie c K V) (k : K) (v : V) (replace : Bool)
    (big : 2 ^ c.w ≤ (finish k).toNat) :
    t.findM finish k = .panic .unwrap ∧ t.insertM finish k v replace = .panic .unwrap ∧
      t.removeM finish k = .panic .unwrap := by
  have h := (C30_hash_iff c.w finish k).2 big
  simp [Trie.findM, Trie.insertM, Trie.removeM, h]

/-- The hypothesis can be met in every configuration with fewer than 64 bits. -/
example (c : Cfg) (hw : c.w < 64) : ∃ finish : Nat → BitVec 64, 2 ^ c.w ≤ (finish 0).toNat := by
  refine ⟨fun _ => BitVec.ofNat 64 (2 ^ c.w), ?_⟩
  have : 2 ^ c.w < 2 ^ 64 := Nat.pow_lt_pow_right (by decide) hw
  simp only [BitVec.toNat_ofNat]
  rw [Nat.mod_eq_of_lt this]
  exact Nat.le_refl _

/-- The negation of C30, for each of the narrow hash words. -/
theorem C30_not_for_narrow_words :
    ∀ w, w = 8 ∨ w = 16 ∨ w = 32 → ¬ ∀ (finish : Nat → BitVec 64) (k : Nat), (hasherBv w finish k).isOk := by
  intro w hw hall
  have := hall (fun _ => BitVec.ofNat 64 (2 ^ 32)) 0
  rcases hw with h | h | h <;> subst h <;> exact this

/-- C30, what holds for every hash word: for keys whose hash fits, the calls are those of the rest of the model, with the
    hasher's result as the hash.  Missing: keys whose hash does not fit, for which the calls panic. -/
theorem C30_fits_partial (t : Trie c K V) (k : K) (v : V) (replace : Bool)
    (fits : (finish k).toNat < 2 ^ c.w) :
    (lowBits c.w finish k).toNat = (finish k).toNat ∧
    t.findM finish k = t.find (lowBits c.w finish) k ∧
    t.insertM finish k v replace = t.insert (lowBits c.w finish) k v replace ∧
    t.removeM finish k = t.remove (lowBits c.w finish) k := by
  refine ⟨lowBits_toNat fits, ?_, ?_, ?_⟩ <;>
    simp only [Trie.findM, Trie.insertM, Trie.removeM, hasherBv_fits fits, Res.ok_bind] <;> rfl

example : ((fun k : Ex.Tk => BitVec.ofNat 64 (k.id / 10)) ⟨641, 0⟩).toNat < 2 ^ Ex.c8.w := by decide

/-- Every map made with the hasher of the code is a map the other theorems are about, and every key it stores has
    a hash that fits: hashing a stored key again cannot panic. -/
theorem C30_stored_keys_fit (laws : KeyLaws finish) {t : Trie c K V} (h : MReach c finish t) :
    Reach c (lowBits c.w finish) t ∧
      ∀ e ∈ t.visit, hasherBv c.w finish e.1 = .ok (lowBits c.w finish e.1) := by
  have laws' : KeyLaws (lowBits c.w finish) :=
    ⟨laws.refl, laws.symm, laws.trans, fun x y e => by simp only [lowBits, laws.hash x y e]⟩
  induction h with
  | new => exact ⟨.new laws', by simp [Trie.new_visit]⟩
  | @insert t t' k v replace ptr prev _ hr ih =>
    obtain ⟨ih1, ih2⟩ := ih
    rw [Trie.insertM, Res.bind_eq_ok] at hr
    obtain ⟨h, hh, hr⟩ := hr
    obtain ⟨fits, rfl⟩ := hasherBv_ok hh
    refine ⟨.insert ih1 (ih1.query k) (laws.refl k) hr, ?_⟩
    rcases ih1.insertQ v replace (ih1.query k) (laws.refl k) with ⟨r, hr', good⟩ | ⟨_, hp⟩
    · rw [hr] at hr'; injection hr' with hr'; subst hr'
      cases good with
      | ok _ _ _ _ _ perm =>
        intro e he
        have he := perm.mem_iff.1 he
        rcases List.mem_cons.1 he with rfl | he
        · exact hh
        · exact ih2 e (List.mem_filter.1 he).1
    · rw [hr] at hp; simp at hp
  | @remove t t' k e _ hr ih =>
    obtain ⟨ih1, ih2⟩ := ih
    rw [Trie.removeM, Res.bind_eq_ok] at hr
    obtain ⟨h, hh, hr⟩ := hr
    obtain ⟨fits, rfl⟩ := hasherBv_ok hh
    refine ⟨.remove ih1 (ih1.query k) hr, ?_⟩
    rcases Trie.removeQ_spec c.levels_pos c.levels_within ih1.laws.hash ih1.valid (ih1.query k) with
      ⟨r, hr', good⟩ | ⟨_, _, hp⟩
    · rw [hr] at hr'; injection hr' with hr'; subst hr'
      cases good with
      | some _ _ _ _ hv =>
        intro e he
        rw [hv] at he
        exact ih2 e (List.mem_filter.1 he).1
    · rw [hr] at hp; simp at hp

/-- Making a map of two colliding keys, so that a stored key is hashed again. -/
def Ex.hashed : Res (Trie Ex.c8 Ex.Tk Nat) := do
  match ← (Trie.new Ex.c8).insertM (fun k : Ex.Tk => BitVec.ofNat 64 (k.id / 10)) ⟨5, 0⟩ 50 false with
  | .error _ => .panic .unwrap
  | .ok (t, _, _) =>
    match ← t.insertM (fun k : Ex.Tk => BitVec.ofNat 64 (k.id / 10)) ⟨7, 0⟩ 51 false with
    | .error _ => .panic .unwrap
    | .ok (t', _, _) => .ok t'

example : ∃ t : Trie Ex.c8 Ex.Tk Nat, MReach Ex.c8 (fun k : Ex.Tk => BitVec.ofNat 64 (k.id / 10)) t ∧ t.size = 2 := by
  have h : (match Ex.hashed with | .ok t => decide (t.size = 2) | _ => false) = true := by decide +kernel
  split at h
  · rename_i t ht
    simp only [Ex.hashed, Res.bind_eq_ok] at ht
    obtain ⟨r, h1, ht⟩ := ht
    split at ht
    · simp at ht
    · obtain ⟨r2, h2, ht⟩ := Res.bind_eq_ok.1 ht
      split at ht
      · simp at ht
      · injection ht with ht; subst ht
        exact ⟨_, .insert (.insert .new h1) h2, by simpa using h⟩
  · simp at h

end HT
