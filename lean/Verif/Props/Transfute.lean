import Verif.SetSpec
import Verif.SetSpec
import Verif.JointExamples
import Verif.Props.Joint
/-!
# Property C35: the transfute functions

`Trie.twf` and `Trie.fwt` are `transform_with_transfuted` and `transfute_with_transformed`.  Unlike the transmute
functions they are safe: no contract is required of the operations.
-/
namespace HT

variable {K V W R : Type} [BEq K] {c : Cfg} {hash : K → BitVec c.w}

omit [BEq K] in
theorem SetTransmute.withKey_entry (op : SetTransmute R (K → V → SetTransmuteResult W R)) (k : K) (v : V) :
    (op.withKey.closure k v).entry = ((op.closure2 k v).key?).map fun w => (k, w) := by
  cases op with
  | generic g =>
    simp only [SetTransmute.withKey, MapTransmute.closure, SetTransmute.closure2]
    cases g k v <;> rfl
  | removed r => rfl

theorem SetTransmute.withKey_key {op : SetTransmute R (K → V → SetTransmuteResult W R)} {k k' : K} {v : V} {w : W}
    {r : R} (h : op.withKey.closure k v = .transmuted k' w r) : k' = k := by
  cases op with
  | generic g =>
    simp only [SetTransmute.withKey, MapTransmute.closure] at h
    cases hg : g k v <;> rw [hg] at h <;> simp at h
    exact h.1.symm
  | removed r => simp [SetTransmute.withKey, MapTransmute.closure] at h

theorem SetTransmute.twf_contract (laws : KeyLaws hash) (both : MapTransform R (K → V → K → W → MapTransformResult V R))
    (left : MapTransform R (K → V → MapTransformResult V R)) (right : SetTransmute R (K → W → SetTransmuteResult V R)) :
    TwmOps.Contract (Cross.one hash) ⟨both, left, right.withKey⟩ := by
  intro l w k v r h
  have : k = l := SetTransmute.withKey_key h
  subst this
  exact laws.refl k

theorem SetTransmute.fwt_contract (laws : KeyLaws hash) (both : MapTransform R (K → V → K → W → MapTransformResult W R))
    (left : SetTransmute R (K → V → SetTransmuteResult W R)) (right : MapTransform R (K → W → MapTransformResult W R)) :
    MwtOps.Contract (Cross.one hash) ⟨both, left.withKey, right⟩ := by
  intro k v l w r h
  have : l = k := SetTransmute.withKey_key h
  subst this
  exact laws.refl l

/-- C35: `transform_with_transfuted` returns exactly when no hash is shared by two keys of the left map and three
    keys of the right map (see C23), whatever the operations, and does not panic. -/
theorem C35_transform_with_transfuted_returns_partial {t : Trie c K V} {u : Trie c K W} (ht : Reach c hash t)
    (hu : Reach c hash u) (both : MapTransform R (K → V → K → W → MapTransformResult V R))
    (left : MapTransform R (K → V → MapTransformResult V R)) (right : SetTransmute R (K → W → SetTransmuteResult V R))
    (reduce : R → R → R) (e : R) (par : Par) :
    (NoStall (Cross.one hash) t.visit u.visit → ∃ t' r, Trie.twf reduce e hash both left right par t u = .ok (t', r)) ∧
    (¬ NoStall (Cross.one hash) t.visit u.visit → Trie.twf reduce e hash both left right par t u = .diverge) :=
  C23_transform_with_transmuted_partial (x := Cross.one hash) (.same ht.laws) ht hu
    (SetTransmute.twf_contract ht.laws both left right) reduce e par

/-- C35: whenever `transform_with_transfuted` returns, the result holds for each key what the operation for it says:
    an entry of the left map keeps its key, an entry of the right map alone is stored under its own key; and every
    key of the result is the key object of the left map, or, if that has none, of the right map. -/
theorem C35_transform_with_transfuted {t : Trie c K V} {u : Trie c K W} (ht : Reach c hash t)
    (hu : Reach c hash u) (both : MapTransform R (K → V → K → W → MapTransformResult V R))
    (left : MapTransform R (K → V → MapTransformResult V R)) (right : SetTransmute R (K → W → SetTransmuteResult V R))
    (reduce : R → R → R) (e : R) (par : Par) {t' : Trie c K V} {r : R}
    (hr : Trie.twf reduce e hash both left right par t u = .ok (t', r)) :
    Reach c hash t' ∧
    (∀ k a? b?, t.find hash k = .ok a? → u.find hash k = .ok b? →
      t'.find hash k = .ok (match a?, b? with
        | none, none => none
        | some a, none => (left.closure a.1 a.2).entry a
        | none, some b => ((right.closure2 b.1 b.2).key?).map fun w => (b.1, w)
        | some a, some b => (both.closure2 a.1 a.2 b.1 b.2).entry a)) ∧
    (∀ k k0 v, t'.find hash k = .ok (some (k0, v)) →
      (∃ v', t.find hash k = .ok (some (k0, v'))) ∨
      (t.find hash k = .ok none ∧ ∃ w, u.find hash k = .ok (some (k0, w)))) := by
  have con := SetTransmute.twf_contract ht.laws both left right
  have laws : CrossLaws (Cross.one hash) := .same ht.laws
  have key : ∀ k a? b?, t.find hash k = .ok a? → u.find hash k = .ok b? →
      t'.find hash k = .ok (match a?, b? with
        | none, none => none
        | some a, none => (left.closure a.1 a.2).entry a
        | none, some b => ((right.closure2 b.1 b.2).key?).map fun w => (b.1, w)
        | some a, some b => (both.closure2 a.1 a.2 b.1 b.2).entry a) := by
    intro k a? b? ha hb
    have := (C24_transform_with_transmuted laws (x := Cross.one hash) ht hu con reduce e par hr).1 k a? b? ha hb
    refine this.trans ?_
    cases a? <;> cases b? <;> simp only [SetTransmute.withKey_entry]
  refine ⟨.transformWithTransmuted (x := Cross.one hash) ht hu laws con hr, key, ?_⟩
  intro k k0 v hk
  have ha := ht.find k
  have hb := hu.find k
  have := key k _ _ ha hb
  rw [hk, Res.ok.injEq] at this
  cases hfa : t.visit.find? (fun e => e.1 == k) <;> cases hfb : u.visit.find? (fun e => e.1 == k) <;>
    rw [hfa, hfb] at this <;> rw [hfa] at ha <;> rw [hfb] at hb
  · simp at this
  · rename_i b
    refine .inr ⟨ha, b.2, ?_⟩
    simp only [eq_comm (a := some (k0, v)), Option.map_eq_some_iff, Prod.mk.injEq] at this
    obtain ⟨w, _, h1, _⟩ := this
    rw [hb, ← h1]
  · rename_i a
    refine .inl ⟨a.2, ?_⟩
    have h0 := MapTransformResult.entry_key this; simp only at h0; rw [ha, h0]
  · rename_i a b
    refine .inl ⟨a.2, ?_⟩
    have h0 := MapTransformResult.entry_key this; simp only at h0; rw [ha, h0]

/-- C35: `transfute_with_transformed` returns exactly when no hash is shared by two keys of the right map and three
    keys of the left map. -/
theorem C35_transfute_with_transformed_returns_partial {t : Trie c K V} {u : Trie c K W} (ht : Reach c hash t)
    (hu : Reach c hash u) (both : MapTransform R (K → V → K → W → MapTransformResult W R))
    (left : SetTransmute R (K → V → SetTransmuteResult W R)) (right : MapTransform R (K → W → MapTransformResult W R))
    (reduce : R → R → R) (e : R) (par : Par) :
    (NoStall (Cross.one hash) u.visit t.visit → ∃ t' r, Trie.fwt reduce e hash both left right par t u = .ok (t', r)) ∧
    (¬ NoStall (Cross.one hash) u.visit t.visit → Trie.fwt reduce e hash both left right par t u = .diverge) :=
  C23_transmute_with_transformed_partial (x := Cross.one hash) (.same ht.laws) ht hu
    (SetTransmute.fwt_contract ht.laws both left right) reduce e par

/-- C35: the same for `transfute_with_transformed`, where the right map's entries are transformed. -/
theorem C35_transfute_with_transformed {t : Trie c K V} {u : Trie c K W} (ht : Reach c hash t)
    (hu : Reach c hash u) (both : MapTransform R (K → V → K → W → MapTransformResult W R))
    (left : SetTransmute R (K → V → SetTransmuteResult W R)) (right : MapTransform R (K → W → MapTransformResult W R))
    (reduce : R → R → R) (e : R) (par : Par) {t' : Trie c K W} {r : R}
    (hr : Trie.fwt reduce e hash both left right par t u = .ok (t', r)) :
    Reach c hash t' ∧
    (∀ k a? b?, t.find hash k = .ok a? → u.find hash k = .ok b? →
      t'.find hash k = .ok (match a?, b? with
        | none, none => none
        | some a, none => ((left.closure2 a.1 a.2).key?).map fun w => (a.1, w)
        | none, some b => (right.closure b.1 b.2).entry b
        | some a, some b => (both.closure2 a.1 a.2 b.1 b.2).entry b)) ∧
    (∀ k k0 w, t'.find hash k = .ok (some (k0, w)) →
      (∃ w', u.find hash k = .ok (some (k0, w'))) ∨
      (u.find hash k = .ok none ∧ ∃ v, t.find hash k = .ok (some (k0, v)))) := by
  have con := SetTransmute.fwt_contract ht.laws both left right
  have laws : CrossLaws (Cross.one hash) := .same ht.laws
  have key : ∀ k a? b?, t.find hash k = .ok a? → u.find hash k = .ok b? →
      t'.find hash k = .ok (match a?, b? with
        | none, none => none
        | some a, none => ((left.closure2 a.1 a.2).key?).map fun w => (a.1, w)
        | none, some b => (right.closure b.1 b.2).entry b
        | some a, some b => (both.closure2 a.1 a.2 b.1 b.2).entry b) := by
    intro k a? b? ha hb
    have := (C25_transmute_with_transformed laws (x := Cross.one hash) ht hu con reduce e par hr).1 k a? b? ha hb
    refine this.trans ?_
    cases a? <;> cases b? <;> simp only [SetTransmute.withKey_entry]
  refine ⟨.transmuteWithTransformed (x := Cross.one hash) ht hu laws con hr, key, ?_⟩
  intro k k0 v hk
  have ha := ht.find k
  have hb := hu.find k
  have := key k _ _ ha hb
  rw [hk, Res.ok.injEq] at this
  cases hfa : t.visit.find? (fun e => e.1 == k) <;> cases hfb : u.visit.find? (fun e => e.1 == k) <;>
    rw [hfa, hfb] at this <;> rw [hfa] at ha <;> rw [hfb] at hb
  · simp at this
  · rename_i b
    refine .inl ⟨b.2, ?_⟩
    have h0 := MapTransformResult.entry_key this; simp only at h0; rw [hb, h0]
  · rename_i a
    refine .inr ⟨hb, a.2, ?_⟩
    simp only [eq_comm (a := some (k0, v)), Option.map_eq_some_iff, Prod.mk.injEq] at this
    obtain ⟨w, _, h1, _⟩ := this
    rw [ha, ← h1]
  · rename_i a b
    refine .inl ⟨b.2, ?_⟩
    have h0 := MapTransformResult.entry_key this; simp only at h0; rw [hb, h0]

/-- Two maps with collisions and common keys on which `transform_with_transfuted` returns, keeping the left key
    object (payload 0) of key 1 and the right key object (payload 1) of keys of the right map alone. -/
example : ∃ (t u : Trie Ex.c8 Ex.Tk Nat), Reach Ex.c8 Ex.exHash t ∧ Reach Ex.c8 Ex.exHash u ∧
    ((Trie.twf (fun _ _ => ()) () Ex.exHash (.generic fun _ v _ w => .transformed (v + w) ()) (.unchanged ())
      (.generic fun _ w => .transmuted (w + 1) ()) .middleIndex t u).test
      fun (y : Trie Ex.c8 Ex.Tk Nat × Unit) => decide (y.1.size = 10)) = true :=
  exists_reach2 Ex.exLaws Ex.exLaws Ex.entries Ex.right _ (by decide +kernel)

example : ∃ (t u : Trie Ex.c8 Ex.Tk Nat), Reach Ex.c8 Ex.exHash t ∧ Reach Ex.c8 Ex.exHash u ∧
    ((Trie.fwt (fun _ _ => ()) () Ex.exHash (.generic fun _ v _ w => .transformed (v + w) ())
      (.generic fun _ w => .transmuted (w + 1) ()) (.unchanged ()) .middleIndex t u).test
      fun (y : Trie Ex.c8 Ex.Tk Nat × Unit) => decide (y.1.size = 10)) = true :=
  exists_reach2 Ex.exLaws Ex.exLaws Ex.right Ex.entries _ (by decide +kernel)

end HT
