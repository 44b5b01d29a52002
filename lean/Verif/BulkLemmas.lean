import Verif.TransmuteLemmas
/-! # transform and transmute of maps -/
namespace HT

variable {K V S X R : Type} [BEq K] {c : Cfg} {hash : K → BitVec c.w}

theorem Trie.transform_spec (hh : HashOk hash) {mx : Nat} (hmx : 0 < mx) {t : Trie c K V}
    (h : t.ValidAt hash mx) (reduce : R → R → R) (e : R)
    (op : MapTransform R (K → V → MapTransformResult V R)) (par : Par) :
    ∃ t' r, t.transform reduce e op par = .ok (t', r) ∧ t'.ValidAt hash mx ∧
      t'.visit = op.outs t.visit ∧
      (Mon reduce e → op.Neutral e → r = total reduce e (op.reds t.visit)) := by
  obtain ⟨res, hr, g⟩ := Node.transform_spec op hh reduce e par h
  simp only [Trie.transform, hr, Res.ok_bind]
  cases res with
  | unchanged r => exact ⟨_, _, rfl, h, g.entries, g.red⟩
  | node m r => exact ⟨_, _, rfl, g.wf m rfl, g.entries, g.red⟩
  | removed r => exact ⟨_, _, rfl, Trie.new_valid hmx, g.entries, g.red⟩

theorem Trie.transmute_spec [BEq S] {hash' : S → BitVec c.w} {mx : Nat} (hmx : 0 < mx) {t : Trie c K V}
    (h : t.ValidAt hash mx) (reduce : R → R → R) (e : R)
    (op : MapTransmute R (K → V → MapTransmuteResult S X R)) (km : KeyMap hash hash' op.call) :
    ∃ t' r, t.transmute reduce e op = .ok (t', r) ∧ t'.ValidAt hash' mx ∧
      t'.visit = op.outs t.visit ∧
      (Mon reduce e → op.Neutral e → r = total reduce e (op.reds t.visit)) := by
  obtain ⟨res, hr, g⟩ := Node.transmute_spec op km reduce e h
  simp only [Trie.transmute, hr, Res.ok_bind]
  cases res with
  | node m r => exact ⟨_, _, rfl, g.wf m rfl, g.entries, g.red⟩
  | removed r => exact ⟨_, _, rfl, Trie.new_valid hmx, g.entries, g.red⟩

end HT
