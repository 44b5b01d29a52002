import Verif.AgreeSpec
import Verif.JointExamples
/-! # Lemmas on translated instructions -/
namespace HT

variable {K V L W R : Type} [BEq K] [BEq L] {c : Cfg} {x : Cross c K L}

omit [BEq K] [BEq L] in
theorem MapTransformResult.asTransmute_entry (e : K × V) (a : MapTransformResult V R) :
    (a.asTransmute e).entry = a.entry e := by cases a <;> rfl

omit [BEq K] [BEq L] in
theorem MapTransformResult.asTransmute_red (e : K × V) (a : MapTransformResult V R) :
    (a.asTransmute e).red = a.red := by cases a <;> rfl

omit [BEq K] in
theorem MapTransformResult.asTransmute_key {e : K × V} {a : MapTransformResult V R} {k v r}
    (h : a.asTransmute e = .transmuted k v r) : k = e.1 := by
  cases a <;> simp [asTransmute] at h <;> exact h.1.symm

omit [BEq K] [BEq L] in
theorem TwmOps.asMwm_out (both : K → V → L → W → MapTransformResult V R) (left : K → V → MapTransformResult V R)
    (right : L → W → MapTransmuteResult K V R) :
    (TwmOps.asMwm both left right).out = TwmOps.out ⟨.generic both, .generic left, .generic right⟩ := by
  funext p
  cases p <;> simp only [MwmOps.out, TwmOps.out, TwmOps.asMwm, MapTransmute.closure, MapTransmute.closure2,
    MapTransform.closure, MapTransform.closure2, MapTransformResult.asTransmute_entry]

omit [BEq K] [BEq L] in
theorem MwtOps.asMwm_out (both : K → V → L → W → MapTransformResult W R) (left : K → V → MapTransmuteResult L W R)
    (right : L → W → MapTransformResult W R) :
    (MwtOps.asMwm both left right).out = MwtOps.out ⟨.generic both, .generic left, .generic right⟩ := by
  funext p
  cases p <;> simp only [MwmOps.out, MwtOps.out, MwtOps.asMwm, MapTransmute.closure, MapTransmute.closure2,
    MapTransform.closure, MapTransform.closure2, MapTransformResult.asTransmute_entry]

/-- What `transform_with_transmuted` stores for a case has a key equal to the case's key. -/
theorem TwmOps.out_key {ops : TwmOps K V L W R} (con : ops.Contract x) {p : Case (K × V) (L × W)} {e : K × V}
    (h : ops.out p = some e) : p.lkey? = some e.1 ∨ ∃ l, p.rkey? = some l ∧ x.eq e.1 l = true ∧ p.lkey? = none := by
  cases p with
  | left a =>
    simp only [TwmOps.out] at h
    cases hc : ops.left.closure a.1 a.2 <;> simp [hc, MapTransformResult.entry] at h <;> simp [Case.lkey?, ← h]
  | right b =>
    simp only [TwmOps.out] at h
    cases hc : ops.right.closure b.1 b.2 <;> simp [hc, MapTransmuteResult.entry] at h
    subst h
    exact .inr ⟨b.1, rfl, con _ _ _ _ _ hc, rfl⟩
  | both a b =>
    simp only [TwmOps.out] at h
    cases hc : ops.both.closure2 a.1 a.2 b.1 b.2 <;> simp [hc, MapTransformResult.entry] at h <;>
      simp [Case.lkey?, ← h]

/-- What `transmute_with_transformed` stores for a case has a key equal to the case's key. -/
theorem MwtOps.out_key {ops : MwtOps K V L W R} (con : ops.Contract x) {p : Case (K × V) (L × W)} {e : L × W}
    (h : ops.out p = some e) : p.rkey? = some e.1 ∨ ∃ k, p.lkey? = some k ∧ x.eq k e.1 = true ∧ p.rkey? = none := by
  cases p with
  | right a =>
    simp only [MwtOps.out] at h
    cases hc : ops.right.closure a.1 a.2 <;> simp [hc, MapTransformResult.entry] at h <;> simp [Case.rkey?, ← h]
  | left b =>
    simp only [MwtOps.out] at h
    cases hc : ops.left.closure b.1 b.2 <;> simp [hc, MapTransmuteResult.entry] at h
    subst h
    exact .inr ⟨b.1, rfl, con _ _ _ _ _ hc, rfl⟩
  | both a b =>
    simp only [MwtOps.out] at h
    cases hc : ops.both.closure2 a.1 a.2 b.1 b.2 <;> simp [hc, MapTransformResult.entry] at h <;>
      simp [Case.rkey?, ← h]

theorem TwmOps.asMwm_contract (laws : CrossLaws x) {both : K → V → L → W → MapTransformResult V R}
    {left : K → V → MapTransformResult V R} {right : L → W → MapTransmuteResult K V R}
    (con : TwmOps.Contract x ⟨.generic both, .generic left, .generic right⟩) :
    (TwmOps.asMwm both left right).Contract x x.hash := by
  haveI := laws.left.equiv
  constructor
  · intro p e _ h
    rw [TwmOps.asMwm_out] at h
    rcases TwmOps.out_key con h with h | ⟨l, h, he, hn⟩
    · cases p <;> simp [Case.lkey?] at h <;> simp [Cross.caseHash, h]
    · cases p <;> simp [Case.rkey?] at h <;> simp [Case.lkey?] at hn
      subst h; exact laws.hash _ _ he
  · intro p q e e' _ _ h h' he
    rw [TwmOps.asMwm_out] at h h'
    rcases TwmOps.out_key con h with h | ⟨l, h, hl, _⟩ <;> rcases TwmOps.out_key con h' with h' | ⟨l', h', hl', _⟩
    · exact .inl ⟨_, _, h, h', he⟩
    · exact .inr (.inr (.inl ⟨_, _, h, h', laws.congL _ _ _ (BEq.symm he) hl'⟩))
    · exact .inr (.inr (.inr ⟨_, _, h', h, laws.congL _ _ _ he hl⟩))
    · exact .inr (.inl ⟨_, _, h, h', laws.uniqR _ _ _ (laws.congL _ _ _ he hl) hl'⟩)

theorem MwtOps.asMwm_contract (laws : CrossLaws x) {both : K → V → L → W → MapTransformResult W R}
    {left : K → V → MapTransmuteResult L W R} {right : L → W → MapTransformResult W R}
    (con : MwtOps.Contract x ⟨.generic both, .generic left, .generic right⟩) :
    (MwtOps.asMwm both left right).Contract x x.hash' := by
  haveI := laws.right.equiv
  constructor
  · intro p e hm h
    rw [MwtOps.asMwm_out] at h
    rcases MwtOps.out_key con h with h | ⟨l, h, he, hn⟩
    · cases p <;> simp [Case.rkey?] at h <;> simp [Cross.caseHash, h]
      rw [← h]; exact (laws.hash _ _ hm).symm
    · cases p <;> simp [Case.lkey?] at h <;> simp [Case.rkey?] at hn
      subst h; exact (laws.hash _ _ he).symm
  · intro p q e e' _ _ h h' he
    rw [MwtOps.asMwm_out] at h h'
    rcases MwtOps.out_key con h with h | ⟨l, h, hl, _⟩ <;> rcases MwtOps.out_key con h' with h' | ⟨l', h', hl', _⟩
    · exact .inr (.inl ⟨_, _, h, h', he⟩)
    · exact .inr (.inr (.inr ⟨_, _, h', h, laws.congR _ _ _ (BEq.symm he) hl'⟩))
    · exact .inr (.inr (.inl ⟨_, _, h, h', laws.congR _ _ _ he hl⟩))
    · exact .inl ⟨_, _, h, h', laws.uniqL _ _ _ (laws.congR _ _ _ he hl) hl'⟩

end HT
