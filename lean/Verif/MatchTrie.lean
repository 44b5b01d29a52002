import Verif.MatchTree
/-! # Joint operations on maps, whatever `==` and `hash` answer -/
namespace HT

variable {K V L W S X R : Type} {c : Cfg} {x : Cross c K L} {reduce : R → R → R} {e : R}

theorem Trie.visit_none : (Trie.new c : Trie c K V).visit = [] := by
  rfl

theorem Trie.twm_paired {ops : TwmOps K V L W R} {par : Par} {t t' : Trie c K V} {u : Trie c L W} {r : R}
    (ht : t.root.Shape 0) (hu : u.root.Shape 0) (h : t.twm x reduce e ops par u = .ok (t', r)) :
    t'.root.Shape 0 ∧ ∃ cs, Pairing x.Says t.visit u.visit cs ∧ (ops.sem reduce e).Real cs t'.visit r := by
  obtain ⟨res, h1, h2⟩ := Res.bind_eq_ok.1 h
  have g := Node.twm_paired ht hu h1
  cases res with
  | unchanged r => cases h2; exact ⟨ht, g.ex⟩
  | node m r => cases h2; exact ⟨g.wf m rfl, g.ex⟩
  | removed r => cases h2; exact ⟨Trie.new_shape, by rw [Trie.visit_none]; exact g.ex⟩

theorem Trie.mwt_paired {ops : MwtOps K V L W R} {par : Par} {t : Trie c K V} {u t' : Trie c L W} {r : R}
    (ht : t.root.Shape 0) (hu : u.root.Shape 0) (h : t.mwt x reduce e ops par u = .ok (t', r)) :
    t'.root.Shape 0 ∧ ∃ cs, Pairing x.Says t.visit u.visit cs ∧ (ops.sem reduce e).Real cs t'.visit r := by
  obtain ⟨res, h1, h2⟩ := Res.bind_eq_ok.1 h
  have g := Node.mwt_paired ht hu h1
  cases res with
  | unchanged r => cases h2; exact ⟨hu, g.ex⟩
  | node m r => cases h2; exact ⟨g.wf m rfl, g.ex⟩
  | removed r => cases h2; exact ⟨Trie.new_shape, by rw [Trie.visit_none]; exact g.ex⟩

theorem Trie.mwm_paired {ops : MwmOps K V L W S X R} {t : Trie c K V} {u : Trie c L W} {t' : Trie c S X} {r : R}
    (ht : t.root.Shape 0) (hu : u.root.Shape 0) (h : t.mwm x reduce e ops u = .ok (t', r)) :
    t'.root.Shape 0 ∧ ∃ cs, Pairing x.Says t.visit u.visit cs ∧ (ops.sem reduce e).Real cs t'.visit r := by
  obtain ⟨res, h1, h2⟩ := Res.bind_eq_ok.1 h
  have g := Node.mwm_paired ht hu h1
  cases res with
  | node m r => cases h2; exact ⟨g.wf m rfl, g.ex⟩
  | removed r => cases h2; exact ⟨Trie.new_shape, by rw [Trie.visit_none]; exact g.ex⟩

end HT
