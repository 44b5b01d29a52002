import Verif.SetExamples
import Verif.Props.Histories
import Verif.Props.Bulk
import Verif.Props.Joint
/-!
# Properties C36, C27, C35: sets, set algebra, transfute

`HSet` models `HashTrieSet` (`Verif/Api.lean`); `SReach` says that a set is obtained from the set API;
`ASet` is the specification of sets (`Verif/SetSpec.lean`).
-/
namespace HT

variable {K L S V W R : Type} [BEq K] [BEq L] [BEq S] {c : Cfg} {hash : K → BitVec c.w}

/-! ## C36: histories -/

omit [BEq L] [BEq S] in
/-- C36: every history of set calls returns (or panics, or does not) as the same history of calls on maps with
    values `()`, answer by answer with the values dropped, and the resulting versions wrap the maps. -/
theorem C36_history_is_map_history (vs : List (Trie c K Unit)) (ops : List (SOp K)) :
    HSet.run hash (vs.map HSet.mk) ops =
      (Trie.run hash vs (ops.map SOp.toMap)).mapOk fun p => (p.1.map Out.drop, p.2.map HSet.mk) :=
  HSet.run_eq hash ops vs

omit [BEq L] [BEq S] in
/-- C36: in a build without overflow checks every history of set calls, on any versions, gives the answers
    of an abstract finite set. -/
theorem C36_history (laws : KeyLaws hash) (rel : c.checked = false) (vs : List (HSet c K))
    (hvs : ∀ s ∈ vs, SReach c hash s) (ops : List (SOp K)) :
    ∃ os vs', HSet.run hash vs ops = .ok (os, vs') ∧
      Pointwise SOut.Same os (ASet.run (vs.map HSet.visit) ops).1 ∧
      Pointwise (fun s m => s.visit.Perm m) vs' (ASet.run (vs.map HSet.visit) ops).2 := by
  obtain ⟨os, ts, h1, h2, h3⟩ := C09_history laws rel (vs.map HSet.set) (by
    intro t ht
    obtain ⟨s, hs, rfl⟩ := List.mem_map.1 ht
    exact (hvs s hs).map) (ops.map SOp.toMap)
  have e1 : vs = (vs.map HSet.set).map HSet.mk := by rw [List.map_map]; exact (List.map_id _).symm
  have e2 : vs.map HSet.visit = ((vs.map HSet.set).map Trie.visit).map (List.map Prod.fst) := by
    simp [List.map_map, Function.comp_def, HSet.visit]
  refine ⟨os.map Out.drop, ts.map HSet.mk, ?_, ?_, ?_⟩
  · rw [e1, HSet.run_eq, h1]; rfl
  · rw [e2, ASet.run_eq]; exact Pointwise.map _ _ (fun _ _ h => h.drop) h2
  · rw [e2, ASet.run_eq]; exact Pointwise.map _ _ (fun _ _ h => List.Perm.map _ h) h3

omit [BEq L] [BEq S] in
/-- C36 for a program that starts with `new()`. -/
theorem C36_from_new (laws : KeyLaws hash) (rel : c.checked = false) (ops : List (SOp K)) :
    ∃ os vs', HSet.run hash [HSet.new c] ops = .ok (os, vs') ∧ Pointwise SOut.Same os (ASet.run [[]] ops).1 := by
  obtain ⟨os, vs', h1, h2, _⟩ := C36_history laws rel [HSet.new c]
    (fun t ht => by rw [List.mem_singleton.1 ht]; exact .new laws) ops
  exact ⟨os, vs', h1, h2⟩

/-- A branching history with collisions, replacement, refusals and removals. -/
def Ex.sops : List (SOp Ex.Tk) :=
  [.insert 0 ⟨5, 0⟩ false, .insert 1 ⟨641, 0⟩ false, .insert 2 ⟨7, 0⟩ false,
   .insert 3 ⟨7, 1⟩ false, .insert 3 ⟨7, 1⟩ true, .remove 4 ⟨5, 0⟩, .find 5 ⟨641, 9⟩,
   .size 5, .size 3, .remove 2 ⟨641, 0⟩, .find 2 ⟨641, 0⟩]

example : (match HSet.run Ex.exHash [HSet.new Ex.c8] Ex.sops with
    | .ok (os, _) => decide (os = (ASet.run [[]] Ex.sops).1)
    | _ => false) = true := by decide +kernel

/-! ## C36: transform and transmute -/

omit [BEq L] [BEq S] in
/-- C36: `transform` on a set keeps exactly the keys the operation keeps. -/
theorem C36_transform {s : HSet c K} (h : SReach c hash s) (reduce : R → R → R) (e : R)
    (op : SetTransform R (K → SetTransformResult R)) (par : Par) :
    ∃ s' r, s.transform reduce e op par = .ok (s', r) ∧
      s'.visit = s.visit.filter (fun k => (op.closure k).keep) ∧
      s'.size = (s.visit.filter fun k => (op.closure k).keep).length ∧
      (∀ k k?, s.find hash k = .ok k? → s'.find hash k = .ok (k?.filter fun k => (op.closure k).keep)) ∧
      (Mon reduce e → op.toMap.Neutral e → r = total reduce e (s.visit.map fun k => (op.closure k).red)) := by
  rw [SetTransform.closure_eq]
  obtain ⟨t', r, h1, h2, h3, h4⟩ := Trie.transform_spec h.laws.hash c.levels_pos h.map.valid reduce e op.toMap par
  have hw : s.transform reduce e op par = .ok (⟨t'⟩, r) := HSet.wrap_ok.2 h1
  have hs' : SReach c hash ⟨t'⟩ := .transform h hw
  have hv : HSet.visit ⟨t'⟩ = s.visit.filter (fun k => (op.call k).keep) := by
    have h3' : t'.visit = s.set.visit.filterMap fun x => (op.toMap.call x.1 x.2).entry x := h3
    simp only [HSet.visit, h3', SetTransform.toMap_call]
    induction s.set.visit with
    | nil => rfl
    | cons x l ih =>
      obtain ⟨k, u⟩ := x
      simp only [List.filterMap_cons, List.map_cons, List.filter_cons]
      rw [SetTransformResult.toMap_entry]
      cases (op.call k).keep <;> simp [ih]
  refine ⟨⟨t'⟩, r, hw, hv, by rw [hs'.size, hv], ?_, ?_⟩
  · intro k k? hk
    rw [hs'.find, hv, Res.ok.injEq]
    rw [h.find, Res.ok.injEq] at hk
    have dist : ∀ a ∈ s.visit, ∀ b ∈ s.visit, (a == k) = true → (b == k) = true → a = b := by
      intro a ha b hb ha' hb'
      obtain ⟨⟨a, u⟩, ha1, rfl⟩ := List.mem_map.1 ha
      obtain ⟨⟨b, u'⟩, hb1, rfl⟩ := List.mem_map.1 hb
      have := distinct_eq h.laws h.map.distinct ha1 hb1 (h.laws.trans _ _ _ ha' (h.laws.symm _ _ hb'))
      injection this
    subst hk
    generalize s.visit = l at dist
    clear hv
    induction l with
    | nil => rfl
    | cons a l ih =>
      have ih' := ih fun a ha b hb => dist a (List.mem_cons_of_mem _ ha) b (List.mem_cons_of_mem _ hb)
      rw [List.filter_cons, List.find?_cons]
      cases hak : a == k with
      | false => cases (op.call a).keep <;> simp [hak, ih']
      | true =>
        cases hkeep : (op.call a).keep with
        | true => simp [hak, hkeep, Option.filter]
        | false =>
          simp only [Option.filter_some, hkeep, Bool.false_eq_true, if_false, List.find?_eq_none]
          intro b hb hbk
          have := dist a (List.mem_cons_self ..) b (List.mem_cons_of_mem _ (List.mem_filter.1 hb).1) hak hbk
          subst this
          rw [(List.mem_filter.1 hb).2] at hkeep; simp at hkeep
  · intro mon nu
    rw [h4 mon nu]
    congr 1
    simp [MapTransform.reds, HSet.visit, Function.comp_def, SetTransformResult.toMap_red]

omit [BEq L] in
/-- C36: a contract-abiding `transmute` on a set returns exactly the produced keys, in the same order. -/
theorem C36_transmute {s : HSet c K} (h : SReach c hash s) {hash' : S → BitVec c.w} (laws' : KeyLaws hash')
    (reduce : R → R → R) (e : R) {op : SetTransmute R (K → SetTransmuteResult S R)} (km : op.KeyMap hash hash') :
    ∃ s' r, s.transmute reduce e op = .ok (s', r) ∧ SReach c hash' s' ∧
      s'.visit = s.visit.filterMap (fun k => (op.closure k).key?) ∧
      s'.size = (s.visit.filterMap fun k => (op.closure k).key?).length ∧
      (Mon reduce e → op.toMap.Neutral e → r = total reduce e (s.visit.map fun k => (op.closure k).red)) := by
  rw [SetTransmute.closure_eq]
  obtain ⟨t', r, h1, h2, h3, h4⟩ := Trie.transmute_spec c.levels_pos h.map.valid reduce e op.toMap
    (by rw [← MapTransmute.closure_eq]; exact km.map)
  have hw : s.transmute reduce e op = .ok (⟨t'⟩, r) := HSet.wrap_ok.2 h1
  have hs' : SReach c hash' ⟨t'⟩ := .transmute h laws' km hw
  have hv : HSet.visit ⟨t'⟩ = s.visit.filterMap (fun k => (op.call k).key?) := by
    have h3' : t'.visit = s.set.visit.filterMap fun x => (op.toMap.call x.1 x.2).entry := h3
    simp [HSet.visit, h3', SetTransmute.toMap_call, SetTransmuteResult.toMap_entry, List.map_filterMap,
      List.filterMap_map, Function.comp_def]
  refine ⟨⟨t'⟩, r, hw, hs', hv, by rw [hs'.size, hv], fun mon nu => ?_⟩
  rw [h4 mon nu]
  congr 1
  simp [MapTransmute.reds, HSet.visit, Function.comp_def, SetTransmuteResult.toMap_red]

example : ∃ s : HSet Ex.c8 Ex.Tk, SReach Ex.c8 Ex.exHash s ∧
    ((s.transform (· + ·) 0 (.generic fun k => if k.id % 3 = 0 then .removed 1 else .unchanged 2) .middleIndex).test
      fun y => decide (y.1.size = 4 ∧ y.2 = 10 ∧ s.size = 6)) = true :=
  exists_sreach Ex.exLaws (Ex.entries.map Prod.fst) _ (by decide +kernel)

/-- A contract-abiding transmutation of keys. -/
def Ex.stm : SetTransmute Nat (Ex.Tk → SetTransmuteResult Ex.Num Nat) :=
  .generic fun k => if k.id % 3 = 0 then .removed 1 else .transmuted ⟨k.id⟩ 2

example : Ex.stm.KeyMap Ex.exHash (fun l : Ex.Num => (BitVec.ofNat 8 (l.n / 10) : BitVec Ex.c8.w)) where
  hash := by
    intro k k' r hf
    simp only [Ex.stm, SetTransmute.closure] at hf; split at hf <;> simp at hf
    rw [← hf.1]; rfl
  inj := by
    intro k k' r l l' s hf hg heq
    simp only [Ex.stm, SetTransmute.closure] at hf hg; split at hf <;> simp at hf; split at hg <;> simp at hg
    rw [← hf.1, ← hg.1] at heq
    simpa [BEq.beq] using heq

/-! ## C36: joint operations -/

section
variable {x : Cross c K L}

omit [BEq S] in
/-- C36: `transform_with_transmuted` on sets, key by key, whenever it returns (see C23). -/
theorem C36_transform_with_transmuted (laws : CrossLaws x) {s : HSet c K} (hs : SReach c x.hash s) {t : HSet c L}
    (ht : SReach c x.hash' t) (reduce : R → R → R) (e : R) (both : SetTransform R (K → L → SetTransformResult R))
    (left : SetTransform R (K → SetTransformResult R)) {right : SetTransmute R (L → SetTransmuteResult K R)}
    (con : right.Right x) (par : Par) {s' : HSet c K} {r : R}
    (hr : HSet.twm reduce e x both left right par s t = .ok (s', r)) :
    ∀ k a? b?, s.find x.hash k = .ok a? → t.findAcross x k = .ok b? →
      s'.find x.hash k = .ok (match a?, b? with
        | none, none => none
        | some a, none => if (left.closure a).keep then some a else none
        | none, some b => (right.closure b).key?
        | some a, some b => if (both.closure2 a b).keep then some a else none) := by
  intro k a? b? ha hb
  rw [HSet.find_iff] at ha ⊢
  rw [HSet.findAcross_iff] at hb
  rw [(C24_transform_with_transmuted laws hs.map ht.map con.map reduce e par (HSet.wrap_ok.1 hr)).1 k _ _ ha hb]
  cases a? <;> cases b? <;>
    simp [SetTransformResult.toMap_entry, SetTransmuteResult.toMap_entry]
  all_goals split <;> simp

omit [BEq S] in
/-- C36: `transmute_with_transformed` on sets, key by key, whenever it returns. -/
theorem C36_transmute_with_transformed (laws : CrossLaws x) {s : HSet c K} (hs : SReach c x.hash s) {t : HSet c L}
    (ht : SReach c x.hash' t) (reduce : R → R → R) (e : R) (both : SetTransform R (K → L → SetTransformResult R))
    {left : SetTransmute R (K → SetTransmuteResult L R)} (right : SetTransform R (L → SetTransformResult R))
    (con : left.Left x) (par : Par) {s' : HSet c L} {r : R}
    (hr : HSet.mwt reduce e x both left right par s t = .ok (s', r)) :
    ∀ l a? b?, s.findAcross x.flip l = .ok a? → t.find x.hash' l = .ok b? →
      s'.find x.hash' l = .ok (match a?, b? with
        | none, none => none
        | some a, none => (left.closure a).key?
        | none, some b => if (right.closure b).keep then some b else none
        | some a, some b => if (both.closure2 a b).keep then some b else none) := by
  intro l a? b? ha hb
  rw [HSet.find_iff] at hb ⊢
  rw [HSet.findAcross_iff] at ha
  rw [(C25_transmute_with_transformed laws hs.map ht.map con.map reduce e par (HSet.wrap_ok.1 hr)).1 l _ _ ha hb]
  cases a? <;> cases b? <;>
    simp [SetTransformResult.toMap_entry, SetTransmuteResult.toMap_entry]
  all_goals split <;> simp

/-- C36: `transmute_with_transmuted` on sets, whenever it returns: the keys of the result are those produced
    for the keys of the two sets, each pair of equal keys being one case. -/
theorem C36_transmute_with_transmuted (laws : CrossLaws x) {s : HSet c K} (hs : SReach c x.hash s) {t : HSet c L}
    (ht : SReach c x.hash' t) {hash' : S → BitVec c.w} (laws' : KeyLaws hash') (reduce : R → R → R) (e : R)
    {both : SetTransmute R (K → L → SetTransmuteResult S R)} {left : SetTransmute R (K → SetTransmuteResult S R)}
    {right : SetTransmute R (L → SetTransmuteResult S R)} (con : SetMwmContract x hash' both left right)
    {s' : HSet c S} {r : R} (hr : HSet.mwm reduce e x both left right s t = .ok (s', r)) :
    SReach c hash' s' ∧
    s'.visit.Perm ((jointCases x.eq s.visit t.visit).filterMap (setOut both left right)) ∧
    s'.size = ((jointCases x.eq s.visit t.visit).filterMap (setOut both left right)).length := by
  have hs' : SReach c hash' s' := .transmuteWithTransmuted hs ht laws laws' con hr
  have h1 := (C26_transmute_with_transmuted laws laws' hs.map ht.map con.map reduce e
    (HSet.wrap_ok.1 hr)).2.2.2.2.2.1
  have h2 := List.Perm.map Prod.fst h1
  have h3 : (List.filterMap (MwmOps.out ⟨both.toMap2, left.toMap, right.toMap⟩)
      (jointCases (fun a b => x.eq a.1 b.1) s.set.visit t.set.visit)).map Prod.fst =
      (jointCases x.eq s.visit t.visit).filterMap (setOut both left right) := by
    have e1 : jointCases x.eq s.visit t.visit =
        (jointCases (fun a b => x.eq a.1 b.1) s.set.visit t.set.visit).map Case.keys := by
      simp only [jointCases, HSet.visit, List.map_append, List.map_map, Function.comp_def, List.filter_map,
        List.any_map, List.find?_map]
      congr 1
      · apply List.map_congr_left
        intro a _
        cases List.find? (fun b => x.eq a.1 b.1) t.set.visit <;> rfl
    rw [e1, List.filterMap_map, List.map_filterMap]
    apply List.filterMap_congr
    intro p _
    rw [setOut_toMap, Option.map_map]
    show Option.map _ _ = _
    simp [Function.comp_def]
  rw [h3] at h2
  exact ⟨hs', h2, by rw [hs'.size]; exact h2.length_eq⟩

omit [BEq L] [BEq S] in
/-- C36: `transform_with_transformed` on sets, key by key, whenever it returns, when the answers are tame. -/
theorem C36_transform_with_transformed_partial {s t : HSet c K} (hs : SReach c hash s) (ht : SReach c hash t)
    (reduce : R → R → R) (e : R) (both : SetJointTransform R (K → K → SetJointTransformResult R))
    (left right : SetTransform R (K → SetTransformResult R)) (par : Par)
    (tame : TwtOps.Tame ⟨both.toMap, left.toMap, right.toMap⟩ hash s.set.visit t.set.visit)
    {s' : HSet c K} {r : R} (hr : HSet.twt reduce e hash both left right par s t = .ok (s', r)) :
      ∀ k a? b?, s.find hash k = .ok a? → t.find hash k = .ok b? →
        ∃ o, s'.find hash k = .ok o ∧ (match a?, b? with
          | none, none => o = none
          | some a, none => o = if (left.closure a).keep then some a else none
          | none, some b => o = if (right.closure b).keep then some b else none
          | some a, some b => both.Key a b o) := by
  have h2 := C21_transform_with_transformed_partial hs.map ht.map tame reduce e par (HSet.wrap_ok.1 hr)
  intro k a? b? ha hb
  rw [HSet.find_iff] at ha hb
  obtain ⟨o, h3, h4⟩ := h2 k _ _ ha hb
  refine ⟨o.map Prod.fst, by rw [HSet.find_iff, h3]; cases o <;> rfl, ?_⟩
  cases a? <;> cases b?
  · simp only [Option.map_none] at h4; simp [h4]
  · simp only [Option.map_some, Option.map_none, SetTransform.toMap_closure, SetTransformResult.toMap_entry] at h4
    rw [h4]; simp only; split <;> rfl
  · simp only [Option.map_some, Option.map_none, SetTransform.toMap_closure, SetTransformResult.toMap_entry] at h4
    rw [h4]; simp only; split <;> rfl
  · rename_i a b
    simp only [Option.map_some] at h4
    show both.Key a b _
    cases both with
    | generic f fl =>
      simp only [MapJointTransform.Entry, SetJointTransform.toMap] at h4
      have h5 := SetJointTransform.toMap_closure (.generic f fl) a b () ()
      simp only [SetJointTransform.toMap] at h5
      rw [h5] at h4
      show ((SetJointTransform.generic f fl).closure a b).Key a b _
      revert h4
      cases (SetJointTransform.generic f fl).closure a b <;>
        simp only [SetJointTransformResult.toMap, MapJointTransformResult.Entry, SetJointTransformResult.Key] <;>
        intro h4
      · rcases h4 with rfl | rfl <;> simp
      all_goals rw [h4]; rfl
    | removed r => simp only [MapJointTransform.Entry, SetJointTransform.toMap] at h4; rw [h4]; rfl
    | unchangedLR r =>
      simp only [MapJointTransform.Entry, SetJointTransform.toMap] at h4
      rcases h4 with rfl | rfl <;> simp [SetJointTransform.Key]
    | unchangedL r =>
      simp only [MapJointTransform.Entry, SetJointTransform.toMap] at h4
      rcases h4 with rfl | rfl <;> simp [SetJointTransform.Key]
    | unchangedR r =>
      simp only [MapJointTransform.Entry, SetJointTransform.toMap] at h4
      rcases h4 with rfl | rfl <;> simp [SetJointTransform.Key]

end

end HT
