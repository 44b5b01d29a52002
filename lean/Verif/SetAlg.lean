import Verif.Props.Sets
/-! # Uniform joint operations on sets are tame -/
namespace HT

variable {K L R : Type} [BEq K] [BEq L] {c : Cfg} {hash : K → BitVec c.w}

theorem TwtOps.tame_uniform {V : Type} {ops : TwtOps K V R} {as bs : List (K × V)}
    (nr : ∀ as bs : List (K × V), ops.NoR as bs) (nr' : ∀ as bs : List (K × V), ops.flip.NoR as bs)
    (hl : (∀ l, ops.left.NoKeep l) ∨ (∀ l, ops.left.NoDrop l))
    (hr : (∀ l, ops.right.NoKeep l) ∨ (∀ l, ops.right.NoDrop l)) : ops.Tame hash as bs := by
  intro h
  refine ⟨fun _ _ => ⟨?_, ?_⟩, fun _ _ => ⟨?_, ?_⟩, fun _ _ => ⟨nr _ _, nr' _ _⟩⟩
  · intro b hb a ha hab r hr
    exact absurd hr (nr _ _ a ha b hb hab r)
  · intro b _ _ _ _
    exact hl.imp (fun h => h _) (fun h => h _)
  · intro b hb a ha hab r hr
    exact absurd hr (nr' _ _ a ha b hb hab r)
  · intro b _ _ _ _
    exact hr.imp (fun h => h _) (fun h => h _)

omit [BEq K] [BEq L] in
theorem SetTransform.KeepsAll.noDrop {op : SetTransform R (K → SetTransformResult R)} (h : op.KeepsAll)
    (l : List (K × Unit)) : op.toMap.NoDrop l := by
  intro a _ r hr
  obtain ⟨r', h⟩ := h a.1
  rw [SetTransform.toMap_closure, h] at hr
  simp [SetTransformResult.toMap] at hr

omit [BEq K] [BEq L] in
theorem SetTransform.DropsAll.noKeep {op : SetTransform R (K → SetTransformResult R)} (h : op.DropsAll)
    (l : List (K × Unit)) : op.toMap.NoKeep l := by
  intro a _ r hr
  obtain ⟨r', h⟩ := h a.1
  rw [SetTransform.toMap_closure, h] at hr
  simp [SetTransformResult.toMap] at hr

omit [BEq L] in
theorem SetJointTransform.KeepsAll.noR {both : SetJointTransform R (K → K → SetJointTransformResult R)}
    (h : both.KeepsAll ∨ both.DropsAll) (left right : SetTransform R (K → SetTransformResult R)) :
    (∀ as bs, TwtOps.NoR ⟨both.toMap, left.toMap, right.toMap⟩ as bs) ∧
    (∀ as bs, (TwtOps.flip ⟨both.toMap, left.toMap, right.toMap⟩).NoR as bs) := by
  cases both with
  | generic f fl =>
    have hf : ∀ a b, ∃ r, f a b = .unchangedLR r ∨ f a b = .removed r := by
      intro a b
      rcases h with (h | ⟨r, h⟩) | h
      · cases fl
        · obtain ⟨r, h⟩ := h a b
          exact ⟨r, .inl (by simpa [SetJointTransform.closure] using h)⟩
        · obtain ⟨r, h⟩ := h b a
          simp only [SetJointTransform.closure, if_true] at h
          exact ⟨r, .inl (by revert h; cases f a b <;> simp [SetJointTransformResult.flip])⟩
      · simp at h
      · cases fl
        · obtain ⟨r, h⟩ := h a b
          exact ⟨r, .inr (by simpa [SetJointTransform.closure] using h)⟩
        · obtain ⟨r, h⟩ := h b a
          simp only [SetJointTransform.closure, if_true] at h
          exact ⟨r, .inr (by revert h; cases f a b <;> simp [SetJointTransformResult.flip])⟩
    constructor <;> intro as bs a _ b _ _ r hr <;>
      simp only [TwtOps.flip, MapJointTransform.flip, SetJointTransform.toMap, MapJointTransform.closure_eq, MapJointTransform.call] at hr <;>
      split at hr <;>
      first
      | (obtain ⟨r', h | h⟩ := hf a.1 b.1 <;> simp [h, SetJointTransformResult.toMap, MapJointTransformResult.flip] at hr; done)
      | (obtain ⟨r', h | h⟩ := hf b.1 a.1 <;> simp [h, SetJointTransformResult.toMap, MapJointTransformResult.flip] at hr; done)
  | unchangedR r =>
    rcases h with (h | ⟨r', h⟩) | h
    · constructor <;> intro as bs a _ b _ _ <;> (obtain ⟨_, h⟩ := h a.1 b.1; simp [SetJointTransform.closure] at h)
    · simp at h
    · constructor <;> intro as bs a _ b _ _ <;> (obtain ⟨_, h⟩ := h a.1 b.1; simp [SetJointTransform.closure] at h)
  | unchangedLR r =>
    constructor <;> intro as bs a _ b _ _ r hr <;>
      simp [TwtOps.flip, MapJointTransform.flip, SetJointTransform.toMap, MapJointTransform.closure] at hr
  | unchangedL r =>
    constructor <;> intro as bs a _ b _ _ r hr <;>
      simp [TwtOps.flip, MapJointTransform.flip, SetJointTransform.toMap, MapJointTransform.closure] at hr
  | removed r =>
    constructor <;> intro as bs a _ b _ _ r hr <;>
      simp [TwtOps.flip, MapJointTransform.flip, SetJointTransform.toMap, MapJointTransform.closure] at hr

omit [BEq L] in
/-- Operations that treat all keys alike are tame. -/
theorem SetJointTransform.tame {both : SetJointTransform R (K → K → SetJointTransformResult R)}
    (hb : both.KeepsAll ∨ both.DropsAll) {left right : SetTransform R (K → SetTransformResult R)}
    (hl : left.KeepsAll ∨ left.DropsAll) (hr : right.KeepsAll ∨ right.DropsAll) (as bs : List (K × Unit)) :
    TwtOps.Tame ⟨both.toMap, left.toMap, right.toMap⟩ hash as bs :=
  TwtOps.tame_uniform (SetJointTransform.KeepsAll.noR hb left right).1 (SetJointTransform.KeepsAll.noR hb left right).2
    (hl.elim (fun h => .inr h.noDrop) (fun h => .inl h.noKeep))
    (hr.elim (fun h => .inr h.noDrop) (fun h => .inl h.noKeep))

omit [BEq K] [BEq L] in
theorem SetJointTransform.KeepsAll.key {both : SetJointTransform R (K → K → SetJointTransformResult R)}
    (h : both.KeepsAll) {a b : K} {o : Option K} (ho : both.Key a b o) : ∃ k, o = some k := by
  have : o = some a ∨ o = some b := by
    rcases h with h | ⟨r, rfl⟩
    · obtain ⟨r, h⟩ := h a b
      cases both with
      | generic f fl =>
        have ho : ((SetJointTransform.generic f fl).closure a b).Key a b o := ho
        rw [h] at ho; exact ho
      | removed r => simp [SetJointTransform.closure] at h
      | unchangedLR _ => exact ho
      | unchangedL _ => exact ho
      | unchangedR _ => exact ho
    · exact ho
  rcases this with rfl | rfl
  · exact ⟨a, rfl⟩
  · exact ⟨b, rfl⟩

omit [BEq K] [BEq L] in
theorem SetJointTransform.DropsAll.key {both : SetJointTransform R (K → K → SetJointTransformResult R)}
    (h : both.DropsAll) {a b : K} {o : Option K} (ho : both.Key a b o) : o = none := by
  obtain ⟨r, h⟩ := h a b
  cases both with
  | generic f fl =>
    have ho : ((SetJointTransform.generic f fl).closure a b).Key a b o := ho
    rw [h] at ho; exact ho
  | removed r => exact ho
  | unchangedLR _ => simp [SetJointTransform.closure] at h
  | unchangedL _ => simp [SetJointTransform.closure] at h
  | unchangedR _ => simp [SetJointTransform.closure] at h

omit [BEq L] in
/-- Membership in the result of a joint transformation with operations that treat all keys alike. -/
theorem HSet.twt_has {s t : HSet c K} (hs : SReach c hash s) (ht : SReach c hash t) {reduce : R → R → R} {e : R}
    {both : SetJointTransform R (K → K → SetJointTransformResult R)} {left right : SetTransform R (K → SetTransformResult R)}
    {par : Par} {kb kl kr : Bool} (hb : if kb then both.KeepsAll else both.DropsAll)
    (hl : if kl then left.KeepsAll else left.DropsAll) (hr : if kr then right.KeepsAll else right.DropsAll)
    {s' : HSet c K} {r : R} (h : HSet.twt reduce e hash both left right par s t = .ok (s', r)) :
    SReach c hash s' ∧ ∀ k, s'.Has hash k ↔
      (s.Has hash k ∧ t.Has hash k ∧ kb = true ∨ s.Has hash k ∧ ¬ t.Has hash k ∧ kl = true ∨
        ¬ s.Has hash k ∧ t.Has hash k ∧ kr = true) := by
  have or_of : ∀ {P Q : Prop} {b : Bool}, (if b then P else Q) → P ∨ Q := by
    intro P Q b h; cases b
    · exact .inr (by simpa using h)
    · exact .inl (by simpa using h)
  have tame := SetJointTransform.tame (hash := hash) (or_of hb) (or_of hl) (or_of hr) s.set.visit t.set.visit
  have hs' : SReach c hash s' := .transformWithTransformed hs ht tame h
  refine ⟨hs', fun k => ?_⟩
  obtain ⟨o, h1, h2⟩ := C36_transform_with_transformed_partial hs ht reduce e both left right par tame h k _ _
    (hs.find k) (ht.find k)
  have keepL : ∀ {op : SetTransform R (K → SetTransformResult R)} {b : Bool},
      (if b then op.KeepsAll else op.DropsAll) → ∀ k, (op.closure k).keep = b := by
    intro op b h k
    cases b
    · obtain ⟨r, h⟩ := (show op.DropsAll by simpa using h) k; rw [h]; rfl
    · obtain ⟨r, h⟩ := (show op.KeepsAll by simpa using h) k; rw [h]; rfl
  simp only [HSet.Has, hs.find, ht.find, h1, Res.ok.injEq]
  cases hsf : s.visit.find? (· == k) <;> cases htf : t.visit.find? (· == k) <;> rw [hsf, htf] at h2 <;>
    simp only at h2
  · simp [h2]
  · rw [keepL hr] at h2; rw [h2]; cases kr <;> simp
  · rw [keepL hl] at h2; rw [h2]; cases kl <;> simp
  · cases kb
    · rw [SetJointTransform.DropsAll.key (by simpa using hb) h2]; simp
    · obtain ⟨k', h3⟩ := SetJointTransform.KeepsAll.key (by simpa using hb) h2
      rw [h3]; simp

end HT
