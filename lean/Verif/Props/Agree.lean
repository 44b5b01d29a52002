import Verif.AgreeLemmas
import Verif.Props.Contents
import Verif.ClosureLemmas
/-!
# Property C47: the transforming and the transmuting functions agree

Given the same instructions (translated by `Verif/AgreeSpec.lean`), the functions give the same map and reduction.
-/
namespace HT

variable {K V L W R : Type} [BEq K] [BEq L] {c : Cfg} {x : Cross c K L}

omit [BEq L] in
/-- C47: `transmute` that keeps each key and gives it the value that `transform` gives it yields the same entries,
    in the same order, and the same reduction. -/
theorem C47_transform_is_transmute {hash : K → BitVec c.w} {t : Trie c K V} (h : Reach c hash t)
    (reduce : R → R → R) (e : R) (f : K → V → MapTransformResult V R) (par : Par) :
    ∃ t₁ r₁ t₂ r₂, t.transform reduce e (.generic f) par = .ok (t₁, r₁) ∧
      t.transmute reduce e (.generic fun k v => (f k v).asTransmute (k, v)) = .ok (t₂, r₂) ∧
      t₁.visit = t₂.visit ∧ Alike hash t₁ t₂ ∧ t₁.size = t₂.size ∧ (Mon reduce e → r₁ = r₂) := by
  have km : KeyMap hash hash (MapTransmute.generic fun k v => (f k v).asTransmute (k, v) :
      MapTransmute R (K → V → MapTransmuteResult K V R)).closure := by
    constructor
    · intro k v k' v' r h
      rw [MapTransformResult.asTransmute_key h]
    · intro k v k' v' r l w l' w' s h1 h2 he
      rw [MapTransformResult.asTransmute_key h1, MapTransformResult.asTransmute_key h2] at he
      exact he
  obtain ⟨t₁, r₁, e₁, _, v₁, m₁⟩ := Trie.transform_spec h.laws.hash c.levels_pos h.valid reduce e (.generic f) par
  obtain ⟨t₂, r₂, e₂, _, v₂, m₂⟩ := Trie.transmute_spec c.levels_pos h.valid reduce e
    (.generic fun k v => (f k v).asTransmute (k, v)) km
  have hv : t₁.visit = t₂.visit := by
    rw [v₁, v₂]
    simp only [MapTransform.outs, MapTransmute.outs, MapTransform.call, MapTransmute.call,
      MapTransformResult.asTransmute_entry]
  have R₁ : Reach c hash t₁ := .transform h e₁
  have R₂ : Reach c hash t₂ := .transmute h h.laws km e₂
  refine ⟨t₁, r₁, t₂, r₂, e₁, e₂, hv, .of_perm R₁ R₂ (by rw [hv]), by rw [R₁.size, R₂.size, hv], fun mon => ?_⟩
  rw [m₁ mon trivial, m₂ mon trivial]
  simp only [MapTransform.reds, MapTransmute.reds, MapTransform.call, MapTransmute.call,
    MapTransformResult.asTransmute_red]

/-- C47 is false of the joint functions: given the same instructions (keep everything), on two colliding keys and
    three colliding keys `transmute_with_transformed` returns and `transform_with_transmuted` does not. -/
theorem C47_refuted :
    ∃ (t u t' : Trie Ex.c8 Ex.Tk Nat), Reach Ex.c8 Ex.exHash t ∧ Reach Ex.c8 Ex.exHash u ∧
      Trie.mwt (Cross.same Ex.exHash) (fun _ _ => ()) ()
        (instrMwt (fun _ _ _ _ => .unchanged ()) (fun _ _ => .unchanged ()) fun _ _ => .unchanged ())
        .sequential t u = .ok (t', ()) ∧
      Trie.twm (Cross.same Ex.exHash) (fun _ _ => ()) ()
        (instrTwm (fun _ _ _ _ => .unchanged ()) (fun _ _ => .unchanged ()) fun _ _ => .unchanged ())
        .sequential t u = .diverge := by
  obtain ⟨t, u, ht, hu, h⟩ := exists_reach2 (c := Ex.c8) Ex.exLaws Ex.exLaws
    [(⟨1, 0⟩, 1), (⟨2, 0⟩, 2)] [(⟨3, 0⟩, 3), (⟨4, 0⟩, 4), (⟨5, 0⟩, 5)] (fun (t u : Trie Ex.c8 Ex.Tk Nat) =>
      ((Trie.mwt (Cross.same Ex.exHash) (fun _ _ => ()) ()
        (instrMwt (fun _ _ _ _ => .unchanged ()) (fun _ _ => .unchanged ()) fun _ _ => .unchanged ())
        .sequential t u).test fun (_ : Trie Ex.c8 Ex.Tk Nat × Unit) => true) &&
      (Trie.twm (Cross.same Ex.exHash) (fun _ _ => ()) ()
        (instrTwm (fun _ _ _ _ => .unchanged ()) (fun _ _ => .unchanged ()) fun _ _ => .unchanged ())
        .sequential t u).diverges) (by decide +kernel)
  simp only [Bool.and_eq_true, Res.test_iff, Res.diverges_iff] at h
  obtain ⟨⟨⟨t', ⟨⟩⟩, h1, _⟩, h3⟩ := h
  exact ⟨t, u, t', ht, hu, h1, h3⟩

/-- C47 for `transform_with_transmuted` and `transmute_with_transmuted`, maps of two key types, part: whenever both
    return (they do if no hash is shared by two keys of one map and three of the other).  Missing: that they both
    return or both do not. -/
theorem C47_transform_with_transmuted_partial (laws : CrossLaws x) {t : Trie c K V} (h : Reach c x.hash t)
    {u : Trie c L W} (g : Reach c x.hash' u) {both : K → V → L → W → MapTransformResult V R}
    {left : K → V → MapTransformResult V R} {right : L → W → MapTransmuteResult K V R}
    (con : TwmOps.Contract x ⟨.generic both, .generic left, .generic right⟩) (reduce : R → R → R) (e : R) (par : Par) :
    (NoStall x t.visit u.visit → NoStall x.flip u.visit t.visit →
      (∃ t' r, Trie.twm x reduce e ⟨.generic both, .generic left, .generic right⟩ par t u = .ok (t', r)) ∧
      ∃ t' r, Trie.mwm x reduce e (TwmOps.asMwm both left right) t u = .ok (t', r)) ∧
    (∀ t₁ r₁ t₂ r₂, Trie.twm x reduce e ⟨.generic both, .generic left, .generic right⟩ par t u = .ok (t₁, r₁) →
      Trie.mwm x reduce e (TwmOps.asMwm both left right) t u = .ok (t₂, r₂) →
      Alike x.hash t₁ t₂ ∧ t₁.size = t₂.size ∧ (CMon reduce e → r₁ = r₂)) := by
  have con' := TwmOps.asMwm_contract laws con
  refine ⟨fun n1 n2 => ⟨(C23_transform_with_transmuted_partial laws h g con reduce e par).1 n1,
    (C23_transmute_with_transmuted_partial laws laws.left h g con' reduce e).1 n1 n2⟩, ?_⟩
  intro t₁ r₁ t₂ r₂ e₁ e₂
  have P1 := (C24_transform_with_transmuted laws h g con reduce e par e₁).2
  have P2 := (C26_transmute_with_transmuted laws laws.left h g con' reduce e e₂).2.2.2.2.2
  rw [TwmOps.asMwm_out] at P2
  refine ⟨.of_perm (.transformWithTransmuted h g laws con e₁) (.transmuteWithTransmuted h g laws laws.left con' e₂)
    (P1.1.trans P2.1.symm), by rw [P1.2, P2.2], fun mon => ?_⟩
  rw [C34_transform_with_transmuted laws h g con mon ⟨trivial, trivial, trivial⟩ par e₁,
    C34_transmute_with_transmuted laws laws.left h g con' mon ⟨trivial, trivial, trivial⟩ e₂]
  refine congrArg (total reduce e) (List.map_congr_left fun p _ => ?_)
  cases p
  · exact (MapTransformResult.asTransmute_red ..).symm
  · rfl
  · exact (MapTransformResult.asTransmute_red ..).symm

/-- C47 for `transmute_with_transformed` and `transmute_with_transmuted`, likewise. -/
theorem C47_transmute_with_transformed_partial (laws : CrossLaws x) {t : Trie c K V} (h : Reach c x.hash t)
    {u : Trie c L W} (g : Reach c x.hash' u) {both : K → V → L → W → MapTransformResult W R}
    {left : K → V → MapTransmuteResult L W R} {right : L → W → MapTransformResult W R}
    (con : MwtOps.Contract x ⟨.generic both, .generic left, .generic right⟩) (reduce : R → R → R) (e : R) (par : Par) :
    (NoStall x t.visit u.visit → NoStall x.flip u.visit t.visit →
      (∃ t' r, Trie.mwt x reduce e ⟨.generic both, .generic left, .generic right⟩ par t u = .ok (t', r)) ∧
      ∃ t' r, Trie.mwm x reduce e (MwtOps.asMwm both left right) t u = .ok (t', r)) ∧
    (∀ t₁ r₁ t₂ r₂, Trie.mwt x reduce e ⟨.generic both, .generic left, .generic right⟩ par t u = .ok (t₁, r₁) →
      Trie.mwm x reduce e (MwtOps.asMwm both left right) t u = .ok (t₂, r₂) →
      Alike x.hash' t₁ t₂ ∧ t₁.size = t₂.size ∧ (CMon reduce e → r₁ = r₂)) := by
  have con' := MwtOps.asMwm_contract laws con
  refine ⟨fun n1 n2 => ⟨(C23_transmute_with_transformed_partial laws h g con reduce e par).1 n2,
    (C23_transmute_with_transmuted_partial laws laws.right h g con' reduce e).1 n1 n2⟩, ?_⟩
  intro t₁ r₁ t₂ r₂ e₁ e₂
  have P1 := (C25_transmute_with_transformed laws h g con reduce e par e₁).2
  have P2 := (C26_transmute_with_transmuted laws laws.right h g con' reduce e e₂).2.2.2.2.2
  rw [MwtOps.asMwm_out] at P2
  refine ⟨.of_perm (.transmuteWithTransformed h g laws con e₁) (.transmuteWithTransmuted h g laws laws.right con' e₂)
    (P1.1.trans P2.1.symm), by rw [P1.2, P2.2], fun mon => ?_⟩
  rw [C34_transmute_with_transformed laws h g con mon ⟨trivial, trivial, trivial⟩ par e₁,
    C34_transmute_with_transmuted laws laws.right h g con' mon ⟨trivial, trivial, trivial⟩ e₂]
  refine congrArg (total reduce e) (List.map_congr_left fun p _ => ?_)
  cases p
  · rfl
  · exact (MapTransformResult.asTransmute_red ..).symm
  · exact (MapTransformResult.asTransmute_red ..).symm

omit [BEq L] in
/-- C47, reductions: whatever the answers, whenever `transform_with_transformed` and `transform_with_transmuted` return
    on maps of one key and value type and the same instructions, their reductions in a commutative monoid agree (and so
    do those of the other joint functions, see above). -/
theorem C47_reductions {hash : K → BitVec c.w} {t u : Trie c K V} (h : Reach c hash t) (g : Reach c hash u)
    (both : K → V → K → V → MapTransformResult V R) (left right : K → V → MapTransformResult V R)
    {reduce : R → R → R} {e : R} (mon : CMon reduce e) (par par' : Par) {t₁ t₂ : Trie c K V} {r₁ r₂ : R}
    (e₁ : Trie.twt reduce e hash (instrTwt both left right) par t u = .ok (t₁, r₁)) :
    (Trie.twm (Cross.same hash) reduce e (instrTwm both left right) par' t u = .ok (t₂, r₂) → r₁ = r₂) ∧
    (Trie.mwt (Cross.same hash) reduce e (instrMwt both left right) par' t u = .ok (t₂, r₂) → r₁ = r₂) ∧
    (Trie.mwm (Cross.same hash) reduce e (instrMwm both left right) t u = .ok (t₂, r₂) → r₁ = r₂) := by
  have laws : CrossLaws (Cross.same hash) := .same h.laws
  have con₂ : (instrTwm both left right).Contract (Cross.same hash) := by
    intro l w k v r hc
    rw [MapTransformResult.asTransmute_key hc]; exact h.laws.refl l
  have con₃ : (instrMwt both left right).Contract (Cross.same hash) := by
    intro l w k v r hc
    rw [MapTransformResult.asTransmute_key hc]; exact h.laws.refl l
  have con₄ : (instrMwm both left right).Contract (Cross.same hash) hash := TwmOps.asMwm_contract laws con₂
  rw [C34_transform_with_transformed (ops := instrTwt both left right) h g mon ⟨trivial, trivial, trivial⟩ par e₁]
  refine ⟨fun e₂ => ?_, fun e₂ => ?_, fun e₂ => ?_⟩
  · rw [C34_transform_with_transmuted laws h g con₂ mon ⟨trivial, trivial, trivial⟩ par' e₂]
    refine congrArg (total reduce e) (List.map_congr_left fun p _ => ?_)
    cases p
    all_goals simp only [instrTwt, instrTwm, MapTransform.closure, MapTransmute.closure,
      MapTransform.closure2, MapJointTransform.closure, MapTransformResult.asTransmute_red]
    rename_i a b _
    cases both a.1 a.2 b.1 b.2 <;> rfl
  · rw [C34_transmute_with_transformed laws h g con₃ mon ⟨trivial, trivial, trivial⟩ par' e₂]
    refine congrArg (total reduce e) (List.map_congr_left fun p _ => ?_)
    cases p
    all_goals simp only [instrTwt, instrMwt, MapTransform.closure, MapTransmute.closure,
      MapTransform.closure2, MapJointTransform.closure, MapTransformResult.asTransmute_red]
    rename_i a b _
    cases both a.1 a.2 b.1 b.2 <;> rfl
  · rw [C34_transmute_with_transmuted laws h.laws h g con₄ mon ⟨trivial, trivial, trivial⟩ e₂]
    refine congrArg (total reduce e) (List.map_congr_left fun p _ => ?_)
    cases p
    all_goals simp only [instrTwt, instrMwm, MapTransform.closure, MapTransmute.closure,
      MapTransform.closure2, MapJointTransform.closure, MapTransformResult.asTransmute_red]
    all_goals first | exact (MapTransformResult.asTransmute_red ..).symm | skip
    rename_i a b _
    refine Eq.trans ?_ (MapTransformResult.asTransmute_red ..).symm
    cases both a.1 a.2 b.1 b.2 <;> rfl

omit [BEq L] in
/-- C47 for all four joint functions on maps of one key and value type, given the same instructions, part: if the
    answers are tame for `transform_with_transformed` (C21; always so when no keys collide) then, whenever the four
    calls return, the same keys are found in the four results, with the same values; for keys that are not in both
    maps the entries are identical, and those of `transform_with_transmuted` and `transmute_with_transmuted` always are;
    sizes and, for a commutative monoid, reductions agree.  Missing: answers that are not tame, and that the
    calls return or do not return together. -/
theorem C47_four_partial {hash : K → BitVec c.w} {t u : Trie c K V} (h : Reach c hash t) (g : Reach c hash u)
    (both : K → V → K → V → MapTransformResult V R) (left right : K → V → MapTransformResult V R)
    (tame : (instrTwt both left right).Tame hash t.visit u.visit) (reduce : R → R → R) (e : R) (par : Par)
    {t₁ t₂ t₃ t₄ : Trie c K V} {r₁ r₂ r₃ r₄ : R}
    (e₁ : Trie.twt reduce e hash (instrTwt both left right) par t u = .ok (t₁, r₁))
    (e₂ : Trie.twm (Cross.same hash) reduce e (instrTwm both left right) par t u = .ok (t₂, r₂))
    (e₃ : Trie.mwt (Cross.same hash) reduce e (instrMwt both left right) par t u = .ok (t₃, r₃))
    (e₄ : Trie.mwm (Cross.same hash) reduce e (instrMwm both left right) t u = .ok (t₄, r₄)) :
    (∀ k v, ((∃ k₁, t₁.find hash k = .ok (some (k₁, v))) ↔ ∃ k₂, t₂.find hash k = .ok (some (k₂, v))) ∧
      ((∃ k₁, t₁.find hash k = .ok (some (k₁, v))) ↔ ∃ k₃, t₃.find hash k = .ok (some (k₃, v)))) ∧
    (∀ k, t.find hash k = .ok none ∨ u.find hash k = .ok none →
      t₁.find hash k = t₂.find hash k ∧ t₁.find hash k = t₃.find hash k) ∧
    Alike hash t₂ t₄ ∧ (t₁.size = t₂.size ∧ t₁.size = t₃.size ∧ t₁.size = t₄.size) ∧
    (CMon reduce e → r₁ = r₂ ∧ r₁ = r₃ ∧ r₁ = r₄) := by
  have laws : CrossLaws (Cross.same hash) := .same h.laws
  have con₂ : (instrTwm both left right).Contract (Cross.same hash) := by
    intro l w k v r hc
    rw [MapTransformResult.asTransmute_key hc]; exact h.laws.refl l
  have con₃ : (instrMwt both left right).Contract (Cross.same hash) := by
    intro l w k v r hc
    rw [MapTransformResult.asTransmute_key hc]; exact h.laws.refl l
  have P1 := C21_transform_with_transformed_partial h g tame reduce e par e₁
  have P2 := C24_transform_with_transmuted laws h g con₂ reduce e par e₂
  have P3 := C25_transmute_with_transformed laws h g con₃ reduce e par e₃
  have A := (C47_transform_with_transmuted_partial laws h g con₂ reduce e par).2 t₂ r₂ t₄ r₄ e₂ e₄
  have F : ∀ k, ∃ o₁ o₂ o₃, t₁.find hash k = .ok o₁ ∧ t₂.find hash k = .ok o₂ ∧ t₃.find hash k = .ok o₃ ∧
      o₁.map Prod.snd = o₂.map Prod.snd ∧ o₁.map Prod.snd = o₃.map Prod.snd ∧
      (t.find hash k = .ok none ∨ u.find hash k = .ok none → o₁ = o₂ ∧ o₁ = o₃) := by
    intro k
    obtain ⟨o₁, f₁, q₁⟩ := P1 k _ _ (h.find k) (g.find k)
    have f₂ := P2.1 k _ _ (h.find k) (g.find k)
    have f₃ := P3.1 k _ _ (h.find k) (g.find k)
    refine ⟨o₁, _, _, f₁, f₂, f₃, ?_⟩
    rw [h.find k, g.find k]
    revert q₁
    cases t.visit.find? (fun e => e.1 == k) <;> cases u.visit.find? (fun e => e.1 == k) <;> intro q₁
    · simp only at q₁; simp [q₁]
    · simp only at q₁
      simp [q₁, instrTwt, instrTwm, instrMwt, MapTransform.closure, MapTransmute.closure,
        MapTransformResult.asTransmute_entry]
    · simp only at q₁
      simp [q₁, instrTwt, instrTwm, instrMwt, MapTransform.closure, MapTransmute.closure,
        MapTransformResult.asTransmute_entry]
    · rename_i a b
      simp only [instrTwt, instrTwm, instrMwt, MapJointTransform.Entry, MapJointTransform.closure,
        MapTransform.closure2] at q₁ ⊢
      revert q₁
      cases both a.1 a.2 b.1 b.2 <;> simp only [MapTransformResult.asJoint, MapTransformResult.asRight,
        MapJointTransformResult.Entry, MapTransformResult.entry] <;> intro q₁
      · simp [q₁]
      · rcases q₁ with q₁ | q₁ <;> simp [q₁]
      · simp [q₁]
  refine ⟨?_, ?_, A.1, ?_, ?_⟩
  · intro k v
    obtain ⟨o₁, o₂, o₃, f₁, f₂, f₃, q₂, q₃, _⟩ := F k
    rw [f₁, f₂, f₃]
    have : ∀ o : Option (K × V), (∃ k₁, (Res.ok o) = .ok (some (k₁, v))) ↔ o.map Prod.snd = some v := by
      intro o
      cases o with
      | none => simp
      | some p => obtain ⟨a, b⟩ := p; simp
    rw [this, this, this, q₂, ← q₃, q₂]; simp
  · intro k hk
    obtain ⟨o₁, o₂, o₃, f₁, f₂, f₃, _, _, q⟩ := F k
    obtain ⟨q2, q3⟩ := q hk
    rw [f₁, f₂, f₃]; exact ⟨by rw [q2], by rw [q3]⟩
  · have R₁ : Reach c hash t₁ := .transformWithTransformed h g tame e₁
    have R₂ : Reach c hash t₂ := .transformWithTransmuted h g laws con₂ e₂
    have R₃ : Reach c hash t₃ := .transmuteWithTransformed h g laws con₃ e₃
    have s23 : t₂.size = t₃.size := by
      rw [P2.2.2, P3.2.2, List.length_filterMap_eq_countP, List.length_filterMap_eq_countP]
      refine congrArg (List.countP · _) (funext fun p => ?_)
      cases p with
      | both a b =>
        simp only [TwmOps.out, MwtOps.out, instrTwm, instrMwt, MapTransform.closure2]
        cases both a.1 a.2 b.1 b.2 <;> rfl
      | _ => simp [TwmOps.out, MwtOps.out, instrTwm, instrMwt, MapTransform.closure, MapTransmute.closure,
          MapTransformResult.asTransmute_entry]
    have s12 : t₁.size = t₂.size := by
      rw [P2.2.2, List.length_filterMap_eq_countP, List.countP_eq_length_filter, R₁.size]
      rcases Trie.twt_total h.laws reduce e par h.valid g.valid tame with ⟨d, _⟩ | ⟨t1, r1, h1, _, ho, _⟩
      · rw [e₁] at d; simp at d
      · rw [e₁] at h1; injection h1 with h1; injection h1 with h1 _; subst h1
        refine ho.length_eq fun p _ o' hp => ?_
        cases p with
        | left a => have hp : o' = _ := hp; rw [hp]; rfl
        | right b =>
          have hp : o' = _ := hp
          rw [hp]
          simp [TwmOps.out, instrTwm, instrTwt, MapTransform.closure, MapTransmute.closure,
            MapTransformResult.asTransmute_entry]
        | both a b =>
          have hp : (instrTwt both left right).both.Entry a b o' := hp
          refine (MapJointTransform.entry_isSome hp).trans ?_
          simp only [TwmOps.out, instrTwm, instrTwt, MapTransform.closure2, MapJointTransform.closure]
          cases both a.1 a.2 b.1 b.2 <;> rfl
    exact ⟨s12, s12.trans s23, s12.trans A.2.1⟩
  · intro mon
    rw [C34_transform_with_transformed (ops := instrTwt both left right) h g mon ⟨trivial, trivial, trivial⟩ par e₁, ← A.2.2 mon,
      C34_transform_with_transmuted laws h g con₂ mon ⟨trivial, trivial, trivial⟩ par e₂,
      C34_transmute_with_transformed laws h g con₃ mon ⟨trivial, trivial, trivial⟩ par e₃]
    refine ⟨?_, ?_, ?_⟩ <;> refine congrArg (total reduce e) (List.map_congr_left fun p _ => ?_) <;> cases p
    all_goals simp only [instrTwt, instrTwm, instrMwt, MapTransform.closure, MapTransmute.closure,
      MapTransform.closure2, MapJointTransform.closure, MapTransformResult.asTransmute_red]
    all_goals
      rename_i a b _
      cases both a.1 a.2 b.1 b.2 <;> rfl

omit [BEq L] in
/-- C47: when no key that collides inside one map collides with a key of the other, all four calls return (and
    their answers are tame). -/
theorem C47_four_return_partial {hash : K → BitVec c.w} {t u : Trie c K V} (h : Reach c hash t) (g : Reach c hash u)
    (apart : Apart hash t.visit u.visit)
    (both : K → V → K → V → MapTransformResult V R) (left right : K → V → MapTransformResult V R)
    (reduce : R → R → R) (e : R) (par : Par) :
    (instrTwt both left right).Tame hash t.visit u.visit ∧
    (∃ t₁ r₁, Trie.twt reduce e hash (instrTwt both left right) par t u = .ok (t₁, r₁)) ∧
    (∃ t₂ r₂, Trie.twm (Cross.same hash) reduce e (instrTwm both left right) par t u = .ok (t₂, r₂)) ∧
    (∃ t₃ r₃, Trie.mwt (Cross.same hash) reduce e (instrMwt both left right) par t u = .ok (t₃, r₃)) ∧
    (∃ t₄ r₄, Trie.mwm (Cross.same hash) reduce e (instrMwm both left right) t u = .ok (t₄, r₄)) := by
  have laws : CrossLaws (Cross.same hash) := .same h.laws
  have con₂ : (instrTwm both left right).Contract (Cross.same hash) := by
    intro l w k v r hc
    rw [MapTransformResult.asTransmute_key hc]; exact h.laws.refl l
  have con₃ : (instrMwt both left right).Contract (Cross.same hash) := by
    intro l w k v r hc
    rw [MapTransformResult.asTransmute_key hc]; exact h.laws.refl l
  have n1 : NoStall (Cross.same hash) t.visit u.visit := by
    intro y hy
    have hy : 2 ≤ collisions hash t.visit y := hy
    show collisions hash u.visit y ≤ 2
    rcases apart y with a | a | a <;> omega
  have n2 : NoStall (Cross.same hash).flip u.visit t.visit := by
    intro y hy
    have hy : 2 ≤ collisions hash u.visit y := hy
    show collisions hash t.visit y ≤ 2
    rcases apart y with a | a | a <;> omega
  have A := (C47_transform_with_transmuted_partial laws h g con₂ reduce e par).1 n1 n2
  exact ⟨TwtOps.tame_of_apart _ apart, C23_transform_with_transformed_apart_partial h g apart _ reduce e par, A.1,
    (C23_transmute_with_transformed_partial laws h g con₃ reduce e par).1 n2, A.2⟩

/-- Maps with a collision in each and shared keys that meet the condition. -/
example : ∃ (t u : Trie Ex.c8 Ex.Tk Nat), Reach Ex.c8 Ex.exHash t ∧ Reach Ex.c8 Ex.exHash u ∧
    decide (Apart Ex.exHash t.visit u.visit ∧ t.size = 4 ∧ u.size = 4 ∧
      ((Cross.same Ex.exHash).cases t.visit u.visit).length = 7) = true :=
  exists_reach2 Ex.exLaws Ex.exLaws Ex.apartL Ex.apartR _ (by decide +kernel)

/-- Operations between two key types that abide by the contract: `C24`, with the same maps. -/
example : TwmOps.Contract Ex.cross
    ⟨.generic fun (k : Ex.Tk) (v : Nat) (_ : Ex.Num) (w : Nat) => if k.id % 3 = 0 then .removed [v, w] else .transformed (v + w) [v, w],
      .generic fun k v => if k.id % 3 = 0 then .removed [v] else .unchanged [v],
      .generic fun (l : Ex.Num) w => if l.n % 2 = 0 then .transmuted (⟨l.n, 9⟩ : Ex.Tk) w [w] else .removed [w]⟩ := by
  intro l w k v r h
  simp only [MapTransmute.closure] at h
  split at h
  · injection h with h1 _ _; subst h1; simp [Ex.cross]
  · simp at h

end HT
