import Verif.SetReach
import Verif.JointExamples
/-! # Concrete sets, used to show that the hypotheses of the property theorems are met -/
namespace HT

variable {K L : Type} {c : Cfg}

/-- Insert keys one after the other (calls of `HashTrieSet::insert`, `/repo/src/set.rs:92-99`), ignoring
    refusals. -/
def HSet.insertMany [BEq K] (hash : K → BitVec c.w) : HSet c K → List K → Res (HSet c K)
  | s, [] => .ok s
  | s, k :: ks => do
    match ← s.insert hash k true with
    | .ok (s', _, _) => HSet.insertMany hash s' ks
    | .error _ => HSet.insertMany hash s ks

theorem SReach.insertMany [BEq K] {hash : K → BitVec c.w} {s s' : HSet c K} (h : SReach c hash s) {ks : List K}
    (hr : HSet.insertMany hash s ks = .ok s') : SReach c hash s' := by
  induction ks generalizing s with
  | nil => simp [HSet.insertMany] at hr; subst hr; exact h
  | cons k ks ih =>
    rw [HSet.insertMany, Res.bind_eq_ok] at hr
    obtain ⟨r, hr1, hr2⟩ := hr
    cases r with
    | error e => exact ih h hr2
    | ok r =>
      obtain ⟨t1, ptr, prev⟩ := r
      exact ih (SReach.insert h (h.map.query k) (h.laws.refl k) hr1) hr2

/-- A set built by insertions that passes a test exists. -/
theorem exists_sreach [BEq K] {hash : K → BitVec c.w} (laws : KeyLaws hash) (ks : List K) (p : HSet c K → Bool)
    (h : (match HSet.insertMany hash (HSet.new c) ks with
      | .ok s => p s
      | _ => false) = true) : ∃ s, SReach c hash s ∧ p s = true := by
  split at h
  · rename_i s hs
    exact ⟨s, SReach.insertMany (.new laws) hs, h⟩
  · simp at h

/-- Two sets built by insertions that pass a test together exist. -/
theorem exists_sreach2 [BEq K] [BEq L] {hash : K → BitVec c.w} {hash' : L → BitVec c.w} (laws : KeyLaws hash)
    (laws' : KeyLaws hash') (ks : List K) (ls : List L) (p : HSet c K → HSet c L → Bool)
    (h : (match HSet.insertMany hash (HSet.new c) ks, HSet.insertMany hash' (HSet.new c) ls with
      | .ok s, .ok t => p s t
      | _, _ => false) = true) : ∃ s t, SReach c hash s ∧ SReach c hash' t ∧ p s t = true := by
  split at h
  · rename_i s t hs ht
    exact ⟨s, t, SReach.insertMany (.new laws) hs, SReach.insertMany (.new laws') ht, h⟩
  · simp at h

end HT
