import Verif.ExprSpec
import Verif.SetAlg
/-! # Lemmas about expressions over sets -/
namespace HT
variable {K V R : Type} [BEq K] {c : Cfg} {hash : K → BitVec c.w}

omit [BEq K] in
theorem countP_le_one {α : Type} {p : α → Bool} {l : List α} (h : l.Pairwise fun a b => p a = true → p b = true → False) :
    l.countP p ≤ 1 := by
  induction l with
  | nil => simp
  | cons a l ih =>
    rw [List.pairwise_cons] at h
    rw [List.countP_cons]
    cases ha : p a with
    | false => simpa using ih h.2
    | true =>
      have : l.countP p = 0 := by
        rw [List.countP_eq_zero]
        exact fun b hb hp => h.1 b hb ha hp
      simp [this]

/-- If every key of one list equals a key of another, and the first list has no two equal keys, it is not longer. -/
theorem length_le_of_cover (laws : KeyLaws hash) {l l' : List K} (h : l.Pairwise fun a b => (a == b) = false)
    (cover : ∀ a ∈ l, ∃ b ∈ l', (b == a) = true) : l.length ≤ l'.length := by
  induction l generalizing l' with
  | nil => simp
  | cons x l ih =>
    rw [List.pairwise_cons] at h
    obtain ⟨b, hb, hbx⟩ := cover x (by simp)
    have h1 := ih (l' := l'.filter fun b => !(b == x)) h.2 (fun a ha => by
      obtain ⟨b', hb', hba⟩ := cover a (by simp [ha])
      refine ⟨b', List.mem_filter.2 ⟨hb', ?_⟩, hba⟩
      cases hx : b' == x with
      | false => rfl
      | true =>
        have := h.1 a ha
        rw [laws.trans _ _ _ (laws.symm _ _ hx) hba] at this
        cases this)
    have h2 : (l'.filter fun b => !(b == x)).length < l'.length := by
      rw [List.length_filter_lt_length_iff_exists]
      exact ⟨b, hb, by simp [hbx]⟩
    simp only [List.length_cons]; omega

theorem SReach.distinct {s : HSet c K} (h : SReach c hash s) : s.visit.Pairwise fun a b => (a == b) = false := by
  rw [HSet.visit, List.pairwise_map]
  exact h.map.distinct

theorem SReach.has_iff {s : HSet c K} (h : SReach c hash s) (k : K) : s.Has hash k ↔ ∃ a ∈ s.visit, (a == k) = true := by
  rw [HSet.Has, h.find]
  constructor
  · rintro ⟨a, ha⟩
    rw [Res.ok.injEq] at ha
    have h1 := List.mem_of_find?_eq_some ha
    have h2 := List.find?_some ha
    exact ⟨a, h1, h2⟩
  · rintro ⟨a, ha, hk⟩
    cases hf : s.visit.find? (· == k) with
    | some b => exact ⟨b, rfl⟩
    | none =>
      rw [List.find?_eq_none] at hf
      exact absurd hk (hf a ha)

theorem SReach.has_mem {s : HSet c K} (h : SReach c hash s) {k : K} (hk : k ∈ s.visit) : s.Has hash k :=
  (h.has_iff k).2 ⟨k, hk, h.laws.refl k⟩

/-- `l` lists the keys of which `P` holds, one for each class of equal keys. -/
theorem SReach.size_eq {s : HSet c K} (h : SReach c hash s) {l : List K} (hd : l.Pairwise fun a b => (a == b) = false)
    (hl : ∀ k, (∃ a ∈ l, (a == k) = true) ↔ s.Has hash k) : s.size = l.length := by
  rw [h.size]
  apply Nat.le_antisymm
  · exact length_le_of_cover h.laws h.distinct fun a ha => (hl a).2 (h.has_mem ha)
  · exact length_le_of_cover h.laws hd fun a ha => (h.has_iff a).1 ((hl a).1 ⟨a, ha, h.laws.refl a⟩)

omit [BEq K] in
theorem SetAlgebra.means_congr {a a' b b' : Prop} (ha : a ↔ a') (hb : b ↔ b') (o : SetAlgebra) :
    o.means a b ↔ o.means a' b' := by
  have := propext ha; have := propext hb; subst a'; subst b'; exact Iff.rfl

omit [BEq K] in
theorem SetAlgebra.means_some {a b : Prop} {o : SetAlgebra} (h : o.means a b) : a ∨ b := by
  cases o with
  | union => exact h
  | intersection => exact .inl h.1
  | difference => exact .inl h.1
  | symmetricDifference =>
    by_cases ha : a
    · exact .inl ha
    · by_cases hb : b
      · exact .inr hb
      · exact absurd ⟨fun x => absurd x ha, fun x => absurd x hb⟩ h

omit [BEq K] in
theorem SetExpr.means_some {has : Nat → Prop} {x : SetExpr K R} (h : x.means has) : ∃ i, has i := by
  induction x with
  | var i => exact ⟨i, h⟩
  | op o call a b iha ihb => exact (SetAlgebra.means_some h).elim iha ihb

/-- One call. -/
theorem SetCall.has {call : SetCall K R} {o : SetAlgebra} (ho : call.Performs o) {reduce : R → R → R} {e r : R}
    {s t s' : HSet c K} (hs : SReach c hash s) (ht : SReach c hash t)
    (h : HSet.twt reduce e hash call.both call.left call.right call.par s t = .ok (s', r)) :
    SReach c hash s' ∧ ∀ k, s'.Has hash k ↔ o.means (s.Has hash k) (t.Has hash k) := by
  cases o with
  | union =>
    obtain ⟨h1, h2⟩ := HSet.twt_has hs ht (kb := true) (kl := true) (kr := true) ho.1 ho.2.1 ho.2.2 h
    refine ⟨h1, fun k => ?_⟩
    rw [h2]
    by_cases s.Has hash k <;> by_cases t.Has hash k <;> simp [SetAlgebra.means, *]
  | intersection =>
    obtain ⟨h1, h2⟩ := HSet.twt_has hs ht (kb := true) (kl := false) (kr := false) ho.1 ho.2.1 ho.2.2 h
    refine ⟨h1, fun k => ?_⟩
    rw [h2]
    by_cases s.Has hash k <;> by_cases t.Has hash k <;> simp [SetAlgebra.means, *]
  | difference =>
    obtain ⟨h1, h2⟩ := HSet.twt_has hs ht (kb := false) (kl := true) (kr := false) ho.1 ho.2.1 ho.2.2 h
    refine ⟨h1, fun k => ?_⟩
    rw [h2]
    by_cases s.Has hash k <;> by_cases t.Has hash k <;> simp [SetAlgebra.means, *]
  | symmetricDifference =>
    obtain ⟨h1, h2⟩ := HSet.twt_has hs ht (kb := false) (kl := true) (kr := true) ho.1 ho.2.1 ho.2.2 h
    refine ⟨h1, fun k => ?_⟩
    rw [h2]
    by_cases s.Has hash k <;> by_cases t.Has hash k <;> simp [SetAlgebra.means, *]

omit [BEq K] in
theorem SetCall.uniform {call : SetCall K R} {o : SetAlgebra} (ho : call.Performs o) :
    (call.both.KeepsAll ∨ call.both.DropsAll) ∧ (call.left.KeepsAll ∨ call.left.DropsAll) ∧
    (call.right.KeepsAll ∨ call.right.DropsAll) := by
  cases o
  · exact ⟨.inl ho.1, .inl ho.2.1, .inl ho.2.2⟩
  · exact ⟨.inl ho.1, .inr ho.2.1, .inr ho.2.2⟩
  · exact ⟨.inr ho.1, .inl ho.2.1, .inr ho.2.2⟩
  · exact ⟨.inr ho.1, .inl ho.2.1, .inl ho.2.2⟩

/-- A set of keys of which no two different ones share a hash. -/
theorem SReach.noCollision {s : HSet c K} (h : SReach c hash s)
    (apart : ∀ k k', s.Has hash k → s.Has hash k' → hash k = hash k' → (k == k') = true) (b : BitVec c.w) :
    collisions hash s.set.visit b ≤ 1 := by
  refine countP_le_one (h.map.distinct.imp_of_mem fun {x y} hx hy hxy h1 h2 => ?_)
  have := apart x.1 y.1 (h.has_mem (List.mem_map_of_mem hx)) (h.has_mem (List.mem_map_of_mem hy))
    ((beq_iff_eq.1 h1).trans (beq_iff_eq.1 h2).symm)
  rw [hxy] at this; cases this

end HT
