import Verif.Reach
/-!
# Maps with the same keys have the same size
-/
namespace HT

variable {K V W : Type} [BEq K] {c c' : Cfg}

/-- If each key of `l` equals a key of `l'`, then `l` is not longer. -/
theorem length_le_of_keys [EquivBEq K] {l : List (K × V)} {l' : List (K × W)} (hd : DistinctKeys l)
    (h : ∀ a ∈ l, ∃ b ∈ l', (a.1 == b.1) = true) : l.length ≤ l'.length := by
  induction l generalizing l' with
  | nil => simp
  | cons a l ih =>
    obtain ⟨b, hb, hab⟩ := h a (List.mem_cons_self ..)
    obtain ⟨p, q, rfl⟩ := List.append_of_mem hb
    have := ih (l' := p ++ q) (List.Pairwise.of_cons hd) fun e he => by
      obtain ⟨b', hb', heb⟩ := h e (List.mem_cons_of_mem _ he)
      have hne : (a.1 == e.1) = false := List.rel_of_pairwise_cons hd he
      rcases List.mem_append.1 hb' with h1 | h1
      · exact ⟨b', List.mem_append_left _ h1, heb⟩
      · rcases List.mem_cons.1 h1 with h2 | h2
        · subst h2
          have : (a.1 == e.1) = true := BEq.trans hab (BEq.symm heb)
          rw [hne] at this; simp at this
        · exact ⟨b', List.mem_append_right _ h2, heb⟩
    simp only [List.length_cons, List.length_append] at this ⊢
    omega

/-- Two reachable maps that hold the same keys have the same size. -/
theorem size_of_same_keys {hash : K → BitVec c.w} {hash' : K → BitVec c'.w} {t : Trie c K V} {u : Trie c' K W}
    (ht : Reach c hash t) (hu : Reach c' hash' u)
    (h : ∀ k, (∃ a, t.find hash k = .ok (some a)) ↔ ∃ b, u.find hash' k = .ok (some b)) : t.size = u.size := by
  have equiv : EquivBEq K := ht.laws.equiv
  have refl := ht.laws.refl
  rw [ht.size, hu.size]
  apply Nat.le_antisymm
  · refine length_le_of_keys ht.distinct fun a ha => ?_
    have ht' : t.find hash a.1 = .ok (some a) := by
      rw [ht.find, Res.ok.injEq, (ht.query a.1).no_other ht.distinct]
      exact ⟨ha, refl _⟩
    obtain ⟨b, hb⟩ := (h a.1).1 ⟨a, ht'⟩
    rw [hu.find, Res.ok.injEq, (hu.query a.1).no_other hu.distinct] at hb
    exact ⟨b, hb.1, BEq.symm hb.2⟩
  · refine length_le_of_keys hu.distinct fun a ha => ?_
    have hu' : u.find hash' a.1 = .ok (some a) := by
      rw [hu.find, Res.ok.injEq, (hu.query a.1).no_other hu.distinct]
      exact ⟨ha, refl _⟩
    obtain ⟨b, hb⟩ := (h a.1).2 ⟨a, hu'⟩
    rw [ht.find, Res.ok.injEq, (ht.query a.1).no_other ht.distinct] at hb
    exact ⟨b, hb.1, BEq.symm hb.2⟩

end HT
