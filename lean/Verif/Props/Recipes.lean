import Verif.Ctors
import Verif.Props.Bulk
import Verif.Props.Joint
import Verif.SetAlg
import Verif.Props.Sets
/-!
# Property C69: operations made by the library's constructors, and what the usual recipes with them do
-/
namespace HT

section
variable {K V L W S X R : Type}

/-- C69: an operation made by a constructor of map operations answers what its documentation says: the generic ones what
    the closure answers, given the same arguments in the same order; the others always the same. -/
theorem C69_map_constructors (k l₁ : K) (v w₁ : V) (l : L) (w : W) (r : R) :
    (∀ f : K → V → K → V → MapJointTransformResult V R, (newMapJointTransformGeneric f).call k v l₁ w₁ = f k v l₁ w₁) ∧
    ((newMapJointTransformUnchangedLR r : MapJointTransform R (K → V → K → V → MapJointTransformResult V R)).call k v l₁ w₁ = .unchangedLR r) ∧
    ((newMapJointTransformUnchangedL r : MapJointTransform R (K → V → K → V → MapJointTransformResult V R)).call k v l₁ w₁ = .unchangedL r) ∧
    ((newMapJointTransformUnchangedR r : MapJointTransform R (K → V → K → V → MapJointTransformResult V R)).call k v l₁ w₁ = .unchangedR r) ∧
    ((newMapJointTransformRemoved r : MapJointTransform R (K → V → K → V → MapJointTransformResult V R)).call k v l₁ w₁ = .removed r) ∧
    (∀ f : K → V → MapTransformResult V R, (newMapTransformGeneric f).call k v = f k v) ∧
    ((newMapTransformUnchanged r : MapTransform R (K → V → MapTransformResult V R)).call k v = .unchanged r) ∧
    ((newMapTransformRemoved r : MapTransform R (K → V → MapTransformResult V R)).call k v = .removed r) ∧
    (∀ f : K → V → L → W → MapTransformResult V R, (newMapTransformTransmuteGeneric f).call2 k v l w = f k v l w) ∧
    ((newMapTransformTransmuteUnchanged r : MapTransform R (K → V → L → W → MapTransformResult V R)).call2 k v l w = .unchanged r) ∧
    ((newMapTransformTransmuteRemoved r : MapTransform R (K → V → L → W → MapTransformResult V R)).call2 k v l w = .removed r) ∧
    (∀ f : K → V → L → W → MapTransformResult W R, (newMapTransmuteTransformGeneric f).call2 k v l w = f k v l w) ∧
    ((newMapTransmuteTransformUnchanged r : MapTransform R (K → V → L → W → MapTransformResult W R)).call2 k v l w = .unchanged r) ∧
    ((newMapTransmuteTransformRemoved r : MapTransform R (K → V → L → W → MapTransformResult W R)).call2 k v l w = .removed r) ∧
    (∀ f : K → V → MapTransmuteResult S X R, (newMapTransmuteGeneric f).call k v = f k v) ∧
    ((newMapTransmuteRemoved r : MapTransmute R (K → V → MapTransmuteResult S X R)).call k v = .removed r) ∧
    (∀ f : K → V → L → W → MapTransmuteResult S X R, (newMapTransmuteTransmuteGeneric f).call2 k v l w = f k v l w) ∧
    ((newMapTransmuteTransmuteRemoved r : MapTransmute R (K → V → L → W → MapTransmuteResult S X R)).call2 k v l w = .removed r) := by
  refine ⟨?_, ?_, ?_, ?_, ?_, ?_, ?_, ?_, ?_, ?_, ?_, ?_, ?_, ?_, ?_, ?_, ?_, ?_⟩ <;> first | rfl | (intro f; rfl)

/-- C69: an operation made by a constructor of set operations answers what its documentation says: the generic ones what
    the closure answers, given the same arguments in the same order; the others always the same. -/
theorem C69_set_constructors (k k₁ : K) (l : L) (r : R) :
    (∀ f : K → K → SetJointTransformResult R, (newSetJointTransformGeneric f).call k k₁ = f k k₁) ∧
    ((newSetJointTransformUnchangedLR r : SetJointTransform R (K → K → SetJointTransformResult R)).call k k₁ = .unchangedLR r) ∧
    ((newSetJointTransformUnchangedL r : SetJointTransform R (K → K → SetJointTransformResult R)).call k k₁ = .unchangedL r) ∧
    ((newSetJointTransformUnchangedR r : SetJointTransform R (K → K → SetJointTransformResult R)).call k k₁ = .unchangedR r) ∧
    ((newSetJointTransformRemoved r : SetJointTransform R (K → K → SetJointTransformResult R)).call k k₁ = .removed r) ∧
    (∀ f : K → SetTransformResult R, (newSetTransformGeneric f).call k = f k) ∧
    ((newSetTransformUnchanged r : SetTransform R (K → SetTransformResult R)).call k = .unchanged r) ∧
    ((newSetTransformRemoved r : SetTransform R (K → SetTransformResult R)).call k = .removed r) ∧
    (∀ f : K → L → SetTransformResult R, (newSetTransformTransmuteGeneric f).call2 k l = f k l) ∧
    ((newSetTransformTransmuteUnchanged r : SetTransform R (K → L → SetTransformResult R)).call2 k l = .unchanged r) ∧
    ((newSetTransformTransmuteRemoved r : SetTransform R (K → L → SetTransformResult R)).call2 k l = .removed r) ∧
    (∀ f : K → SetTransmuteResult S R, (newSetTransmuteGeneric f).call k = f k) ∧
    ((newSetTransmuteRemoved r : SetTransmute R (K → SetTransmuteResult S R)).call k = .removed r) ∧
    (∀ f : K → L → SetTransmuteResult S R, (newSetTransmuteTransmuteGeneric f).call2 k l = f k l) ∧
    ((newSetTransmuteTransmuteRemoved r : SetTransmute R (K → L → SetTransmuteResult S R)).call2 k l = .removed r) := by
  refine ⟨?_, ?_, ?_, ?_, ?_, ?_, ?_, ?_, ?_, ?_, ?_, ?_, ?_, ?_, ?_⟩ <;> first | rfl | (intro f; rfl)

end

variable {K V L W S X R : Type} [BEq K] [BEq L] {c : Cfg} {hash : K → BitVec c.w} {x : Cross c K L}

/-! ## One map -/

omit [BEq L] in
/-- C69, filter: `transform` with a closure that answers `Unchanged(1)` or `Removed(0)` as a predicate says, and `+` as
    reduction, returns the map of the entries that satisfy the predicate (in the order of the original) and its size,
    for every strategy. -/
theorem C69_filter {t : Trie c K V} (h : Reach c hash t) (p : K → V → Bool) (par : Par) :
    ∃ t', t.transform (· + ·) 0 (newMapTransformGeneric fun k v => if p k v then .unchanged 1 else .removed 0) par =
        .ok (t', t'.size) ∧
      t'.visit = t.visit.filter (fun a => p a.1 a.2) ∧
      ∀ k a?, t.find hash k = .ok a? → t'.find hash k = .ok (a?.filter fun a => p a.1 a.2) := by
  obtain ⟨t', r, h1, h2, h3, h4, h5⟩ := C16_transform_per_entry h (· + ·) 0
    (fun k v => if p k v then .unchanged 1 else .removed 0) par
  obtain ⟨t1, h6⟩ := C18_transform_reduction h (reduce := (· + ·)) (e := 0)
    ⟨Nat.add_assoc, Nat.zero_add, Nat.add_zero⟩ (fun k v => if p k v then .unchanged 1 else .removed 0) par
  rw [h1] at h6; injection h6 with h6; injection h6 with h6 h7; subst h6
  have hv : t'.visit = t.visit.filter (fun a => p a.1 a.2) := by
    rw [h2]
    have : ∀ l : List (K × V), l.filterMap (fun a => (if p a.1 a.2 then MapTransformResult.unchanged 1 else
        .removed 0 : MapTransformResult V Nat).entry a) = l.filter (fun a => p a.1 a.2) := by
      intro l
      induction l with
      | nil => rfl
      | cons a l ih =>
        rw [List.filterMap_cons, List.filter_cons, ih]
        cases p a.1 a.2 <;> rfl
    exact this _
  have hr : r = t'.size := by
    rw [h7, (Reach.transform h h1).size, hv]
    have mon : Mon (R := Nat) (· + ·) 0 := ⟨Nat.add_assoc, Nat.zero_add, Nat.add_zero⟩
    have : ∀ l : List (K × V), total (· + ·) 0 (l.map fun a => (if p a.1 a.2 then MapTransformResult.unchanged 1 else
        .removed 0 : MapTransformResult V Nat).red) = (l.filter (fun a => p a.1 a.2)).length := by
      intro l
      induction l with
      | nil => rfl
      | cons a l ih =>
        rw [List.map_cons, mon.total_cons, ih, List.filter_cons]
        cases p a.1 a.2 <;> simp [MapTransformResult.red, Nat.add_comm]
    exact this _
  refine ⟨t', by rw [← hr]; exact h1, hv, fun k a? ha => ?_⟩
  cases a? with
  | none => exact h4 k ha
  | some a =>
    rw [h5 k a.1 a.2 ha]
    cases hp : p a.1 a.2 <;> simp [MapTransformResult.entry, Option.filter, hp]

omit [BEq L] in
/-- C69, map over values: `transform` with a closure that always answers `Transformed` keeps keys, order and size. -/
theorem C69_map_values {t : Trie c K V} (h : Reach c hash t) (g : K → V → V) (par : Par) :
    ∃ t', t.transform (fun _ _ => ()) () (newMapTransformGeneric fun k v => .transformed (g k v) ()) par = .ok (t', ()) ∧
      t'.visit = t.visit.map (fun a => (a.1, g a.1 a.2)) ∧ t'.size = t.size ∧
      ∀ k a?, t.find hash k = .ok a? → t'.find hash k = .ok (a?.map fun a => (a.1, g a.1 a.2)) := by
  obtain ⟨t', r, h1, h2, h3, h4, h5⟩ := C16_transform_per_entry h (fun _ _ => ()) ()
    (fun k v => .transformed (g k v) ()) par
  have hv : t'.visit = t.visit.map (fun a => (a.1, g a.1 a.2)) := by
    rw [h2, ← List.filterMap_eq_map]; rfl
  refine ⟨t', h1, hv, by rw [(Reach.transform h h1).size, h.size, hv, List.length_map], fun k a? ha => ?_⟩
  cases a? with
  | none => exact h4 k ha
  | some a => exact h5 k a.1 a.2 ha

omit [BEq L] in
/-- C69, fold: `transform` with a closure that always answers `Unchanged` leaves the contents and computes the
    reduction of the contributions in visit order. -/
theorem C69_fold {t : Trie c K V} (h : Reach c hash t) {reduce : R → R → R} {e : R} (mon : Mon reduce e)
    (g : K → V → R) (par : Par) :
    ∃ t', t.transform reduce e (newMapTransformGeneric fun k v => .unchanged (g k v)) par =
        .ok (t', total reduce e (t.visit.map fun a => g a.1 a.2)) ∧
      t'.visit = t.visit ∧ t'.size = t.size ∧ ∀ k, t'.find hash k = t.find hash k := by
  obtain ⟨t', r, h1, h2, h3, h4, h5⟩ := C16_transform_per_entry h reduce e (fun k v => .unchanged (g k v)) par
  obtain ⟨t1, h6⟩ := C18_transform_reduction h mon (fun k v => .unchanged (g k v)) par
  rw [h1] at h6; injection h6 with h6; injection h6 with h6 h7; subst h6
  have ht' : Reach c hash t' := .transform h h1
  have hv : t'.visit = t.visit := by
    rw [h2]; exact List.filterMap_some
  exact ⟨t', by rw [← show _ = total reduce e (t.visit.map fun a => g a.1 a.2) from h7]; exact h1, hv, by rw [ht'.size, h.size, hv], fun k => by rw [ht'.find, h.find, hv]⟩

omit [BEq K] [BEq L] in
/-- C69, keep and clear: the constructed bulk operations return the very map, or an empty one, and the given
    contribution. -/
theorem C69_keep_clear (t : Trie c K V) (reduce : R → R → R) (e r : R) (par : Par) :
    t.transform reduce e (newMapTransformUnchanged r) par = .ok (t, r) ∧
    (∃ t', t.transform reduce e (newMapTransformRemoved r) par = .ok (t', r) ∧ t'.visit = [] ∧ t'.size = 0) ∧
    (∃ t' : Trie c S X, t.transmute reduce e (newMapTransmuteRemoved r) = .ok (t', r) ∧ t'.visit = [] ∧ t'.size = 0) :=
  ⟨C33_bulk_unchanged t reduce e r par, C33_bulk_removed t reduce e r par, C33_bulk_transmute_removed t reduce e r⟩

/-- The recipes about one map, on a map with colliding keys: three of six entries kept; all values changed; their sum. -/
example : (Trie.insertMany Ex.exHash true (Trie.new Ex.c8) Ex.entries).test (fun t =>
    (t.transform (· + ·) 0 (newMapTransformGeneric fun k _ => if decide (k.id % 2 = 1 ∧ 6 < k.id) then .unchanged 1
      else .removed 0) .middleIndex).test (fun (t', r) => decide (t'.size = 3) && decide (r = 3)) &&
    (t.transform (· + ·) 0 (newMapTransformGeneric fun k v => .unchanged (k.id + 0 * v)) .middleIndex).test
      fun (t', r) => decide (t'.visit = t.visit) && decide (r = 757)) = true := by
  decide +kernel

omit [BEq L] in
/-- C69, filter, for sets. -/
theorem C69_filter_set {s : HSet c K} (h : SReach c hash s) (p : K → Bool) (par : Par) :
    ∃ s', s.transform (· + ·) 0 (newSetTransformGeneric fun k => if p k then .unchanged 1 else .removed 0) par =
        .ok (s', s'.size) ∧
      s'.visit = s.visit.filter p ∧ ∀ k k?, s.find hash k = .ok k? → s'.find hash k = .ok (k?.filter p) := by
  have mon : Mon (R := Nat) (· + ·) 0 := ⟨Nat.add_assoc, Nat.zero_add, Nat.add_zero⟩
  obtain ⟨s', r, h1, h2, h3, h4, h5⟩ := C36_transform h (· + ·) 0
    (newSetTransformGeneric fun k => if p k then .unchanged 1 else .removed 0) par
  have hp : (fun k => (SetTransform.closure (newSetTransformGeneric fun k => if p k then .unchanged 1 else
      (.removed 0 : SetTransformResult Nat)) k).keep) = p := by
    funext k
    show (if p k then SetTransformResult.unchanged 1 else (.removed 0 : SetTransformResult Nat)).keep = p k
    cases p k <;> rfl
  rw [hp] at h2 h3
  have hr : r = s'.size := by
    rw [h5 mon trivial, h3]
    have : ∀ l : List K, total (· + ·) 0 (l.map fun k => (if p k then SetTransformResult.unchanged 1 else
        .removed 0 : SetTransformResult Nat).red) = (l.filter p).length := by
      intro l
      induction l with
      | nil => rfl
      | cons a l ih =>
        rw [List.map_cons, mon.total_cons, ih, List.filter_cons]
        cases p a <;> simp [SetTransformResult.red, Nat.add_comm]
    exact this _
  refine ⟨s', by rw [← hr]; exact h1, h2, fun k k? hk => ?_⟩
  rw [h4 k k? hk, hp]

/-! ## Two maps -/

omit [BEq L] in
/-- The operations that decide by key alone what is kept of the left map. -/
theorem TwmOps.contract_removed [BEq L] (both : MapTransform R (K → V → L → W → MapTransformResult V R))
    (left : MapTransform R (K → V → MapTransformResult V R)) (r : R) :
    TwmOps.Contract x ⟨both, left, newMapTransmuteRemoved r⟩ := by
  intro l w k v r' h; simp [newMapTransmuteRemoved, MapTransmute.closure] at h

omit [BEq K] [BEq L] in
theorem cases_restrict {A B : Type} (eq : A → B → Bool) (as : List A) (bs : List B) (out : Case A B → Option A)
    (hb : ∀ a b, out (.both a b) = some a) (hl : ∀ a, out (.left a) = none) (hr : ∀ b, out (.right b) = none) :
    (jointCases eq as bs).filterMap out = as.filter fun a => bs.any (eq a) := by
  rw [jointCases, List.filterMap_append, List.filterMap_map, List.filterMap_map]
  have : (bs.filter fun b => !as.any fun a => eq a b).filterMap (out ∘ Case.right) = [] := by
    rw [List.filterMap_eq_nil_iff]; intro b _; exact hr b
  rw [this, List.append_nil]
  induction as with
  | nil => rfl
  | cons a as ih =>
    have ih := ih (by
      rw [List.filterMap_eq_nil_iff]; intro b _; exact hr b)
    rw [List.filterMap_cons, List.filter_cons, ih]
    cases h : bs.find? (eq a) with
    | none =>
      have : bs.any (eq a) = false := by
        rw [List.any_eq_false]; exact List.find?_eq_none.1 h
      simp [h, hl, this]
    | some b =>
      have : bs.any (eq a) = true := List.any_eq_true.2 ⟨b, List.mem_of_find?_eq_some h, List.find?_some h⟩
      simp [h, hb, this]

omit [BEq K] [BEq L] in
theorem cases_exclude {A B : Type} (eq : A → B → Bool) (as : List A) (bs : List B) (out : Case A B → Option A)
    (hb : ∀ a b, out (.both a b) = none) (hl : ∀ a, out (.left a) = some a) (hr : ∀ b, out (.right b) = none) :
    (jointCases eq as bs).filterMap out = as.filter fun a => !bs.any (eq a) := by
  rw [jointCases, List.filterMap_append, List.filterMap_map, List.filterMap_map]
  have : (bs.filter fun b => !as.any fun a => eq a b).filterMap (out ∘ Case.right) = [] := by
    rw [List.filterMap_eq_nil_iff]; intro b _; exact hr b
  rw [this, List.append_nil]
  induction as with
  | nil => rfl
  | cons a as ih =>
    have ih := ih (by
      rw [List.filterMap_eq_nil_iff]; intro b _; exact hr b)
    rw [List.filterMap_cons, List.filter_cons, ih]
    cases h : bs.find? (eq a) with
    | none =>
      have : bs.any (eq a) = false := by
        rw [List.any_eq_false]; exact List.find?_eq_none.1 h
      simp [h, hl, this]
    | some b =>
      have : bs.any (eq a) = true := List.any_eq_true.2 ⟨b, List.mem_of_find?_eq_some h, List.find?_some h⟩
      simp [h, hb, this]

/-- C69, restrict: `transform_with_transmuted` with `Unchanged` for pairs and `Removed` for the rest returns, whenever
    it returns (C23), the entries of the left map whose keys the right map holds. -/
theorem C69_restrict (laws : CrossLaws x) {t : Trie c K V} (ht : Reach c x.hash t) {u : Trie c L W}
    (hu : Reach c x.hash' u) (reduce : R → R → R) (e rb rl rr : R) (par : Par) {t' : Trie c K V} {r : R}
    (h : Trie.twm x reduce e ⟨newMapTransformTransmuteUnchanged rb, newMapTransformRemoved rl, newMapTransmuteRemoved rr⟩
      par t u = .ok (t', r)) :
    (∀ k a? b?, t.find x.hash k = .ok a? → u.findAcross x k = .ok b? →
      t'.find x.hash k = .ok (if b?.isSome then a? else none)) ∧
    t'.visit.Perm (t.visit.filter fun a => u.visit.any fun b => x.eq a.1 b.1) := by
  have C := C24_transform_with_transmuted laws ht hu (TwmOps.contract_removed _ _ rr) reduce e par h
  refine ⟨fun k a? b? ha hb => ?_, ?_⟩
  · rw [C.1 k a? b? ha hb]
    cases a? <;> cases b? <;> rfl
  · rw [← cases_restrict (fun a b => x.eq a.1 b.1) t.visit u.visit
      (TwmOps.out ⟨newMapTransformTransmuteUnchanged rb, newMapTransformRemoved rl, newMapTransmuteRemoved rr⟩)
      (fun _ _ => rfl) (fun _ => rfl) (fun _ => rfl)]
    exact C.2.1

/-- C69, exclude: with `Removed` for pairs and `Unchanged` for entries only in the left map, those whose keys the right
    map does not hold. -/
theorem C69_exclude (laws : CrossLaws x) {t : Trie c K V} (ht : Reach c x.hash t) {u : Trie c L W}
    (hu : Reach c x.hash' u) (reduce : R → R → R) (e rb rl rr : R) (par : Par) {t' : Trie c K V} {r : R}
    (h : Trie.twm x reduce e ⟨newMapTransformTransmuteRemoved rb, newMapTransformUnchanged rl, newMapTransmuteRemoved rr⟩
      par t u = .ok (t', r)) :
    (∀ k a? b?, t.find x.hash k = .ok a? → u.findAcross x k = .ok b? →
      t'.find x.hash k = .ok (if b?.isSome then none else a?)) ∧
    t'.visit.Perm (t.visit.filter fun a => !u.visit.any fun b => x.eq a.1 b.1) := by
  have C := C24_transform_with_transmuted laws ht hu (TwmOps.contract_removed _ _ rr) reduce e par h
  refine ⟨fun k a? b? ha hb => ?_, ?_⟩
  · rw [C.1 k a? b? ha hb]
    cases a? <;> cases b? <;> rfl
  · rw [← cases_exclude (fun a b => x.eq a.1 b.1) t.visit u.visit
      (TwmOps.out ⟨newMapTransformTransmuteRemoved rb, newMapTransformUnchanged rl, newMapTransmuteRemoved rr⟩)
      (fun _ _ => rfl) (fun _ => rfl) (fun _ => rfl)]
    exact C.2.1

/-- C69: restricting and excluding split a map: their sizes add up to its size. -/
theorem C69_split (laws : CrossLaws x) {t : Trie c K V} (ht : Reach c x.hash t) {u : Trie c L W}
    (hu : Reach c x.hash' u) (reduce : R → R → R) (e rb rl rr : R) (par par' : Par) {t₁ t₂ : Trie c K V} {r₁ r₂ : R}
    (h₁ : Trie.twm x reduce e ⟨newMapTransformTransmuteUnchanged rb, newMapTransformRemoved rl, newMapTransmuteRemoved rr⟩
      par t u = .ok (t₁, r₁))
    (h₂ : Trie.twm x reduce e ⟨newMapTransformTransmuteRemoved rb, newMapTransformUnchanged rl, newMapTransmuteRemoved rr⟩
      par' t u = .ok (t₂, r₂)) :
    (t₁.visit ++ t₂.visit).Perm t.visit ∧ t₁.size + t₂.size = t.size := by
  have p := ((C69_restrict laws ht hu reduce e rb rl rr par h₁).2.append
    (C69_exclude laws ht hu reduce e rb rl rr par' h₂).2).trans (List.filter_append_perm _ t.visit)
  refine ⟨p, ?_⟩
  rw [(Reach.transformWithTransmuted ht hu laws (TwmOps.contract_removed _ _ rr) h₁).size,
    (Reach.transformWithTransmuted ht hu laws (TwmOps.contract_removed _ _ rr) h₂).size, ht.size, ← p.length_eq,
    List.length_append]

/-- C69, update: with a closure for pairs that answers `Transformed`, and `Unchanged` for entries only in the left map,
    the values of the left map are updated from the right map, and nothing else. -/
theorem C69_update (laws : CrossLaws x) {t : Trie c K V} (ht : Reach c x.hash t) {u : Trie c L W}
    (hu : Reach c x.hash' u) (g : K → V → L → W → V) (reduce : R → R → R) (e rb rl rr : R) (par : Par)
    {t' : Trie c K V} {r : R}
    (h : Trie.twm x reduce e ⟨newMapTransformTransmuteGeneric fun k v l w => .transformed (g k v l w) rb,
      newMapTransformUnchanged rl, newMapTransmuteRemoved rr⟩ par t u = .ok (t', r)) :
    ∀ k a? b?, t.find x.hash k = .ok a? → u.findAcross x k = .ok b? →
      t'.find x.hash k = .ok (a?.map fun a => match b? with
        | none => a
        | some b => (a.1, g a.1 a.2 b.1 b.2)) := by
  intro k a? b? ha hb
  rw [(C24_transform_with_transmuted laws ht hu (TwmOps.contract_removed _ _ rr) reduce e par h).1 k a? b? ha hb]
  cases a? <;> cases b? <;> rfl

/-- The operations of an inner join. -/
def joinOps (rb rl rr : R) : MwmOps K V L W K (V × W) R :=
  ⟨newMapTransmuteTransmuteGeneric fun k v _ w => .transmuted k (v, w) rb, newMapTransmuteRemoved rl,
    newMapTransmuteRemoved rr⟩

theorem joinOps_contract (laws : CrossLaws x) (rb rl rr : R) :
    (joinOps rb rl rr : MwmOps K V L W K (V × W) R).Contract x x.hash where
  hash := by
    intro p e _ h
    cases p <;> simp [MwmOps.out, joinOps, newMapTransmuteRemoved, newMapTransmuteTransmuteGeneric,
      MapTransmute.closure, MapTransmute.closure2, MapTransmuteResult.entry] at h
    subst h; rfl
  inj := by
    intro p q e e' _ _ h h' hk
    cases p <;> simp [MwmOps.out, joinOps, newMapTransmuteRemoved, newMapTransmuteTransmuteGeneric,
      MapTransmute.closure, MapTransmute.closure2, MapTransmuteResult.entry] at h
    cases q <;> simp [MwmOps.out, joinOps, newMapTransmuteRemoved, newMapTransmuteTransmuteGeneric,
      MapTransmute.closure, MapTransmute.closure2, MapTransmuteResult.entry] at h'
    subst h; subst h'
    exact .inl ⟨_, _, rfl, rfl, hk⟩

/-- C69, join: `transmute_with_transmuted` with a closure that pairs the values of entries in both maps, and `Removed`
    for the rest, returns, whenever it returns (C23), for each key in both maps the pair of its values, under the left
    key. -/
theorem C69_join (laws : CrossLaws x) {t : Trie c K V} (ht : Reach c x.hash t) {u : Trie c L W}
    (hu : Reach c x.hash' u) (reduce : R → R → R) (e rb rl rr : R) {t' : Trie c K (V × W)} {r : R}
    (h : Trie.mwm x reduce e ⟨newMapTransmuteTransmuteGeneric fun k v _ w => .transmuted k (v, w) rb,
      newMapTransmuteRemoved rl, newMapTransmuteRemoved rr⟩ t u = .ok (t', r)) :
    ∀ k a? b?, t.find x.hash k = .ok a? → u.findAcross x k = .ok b? →
      t'.find x.hash k = .ok (match a?, b? with
        | some a, some b => some (a.1, (a.2, b.2))
        | _, _ => none) := by
  intro k a? b? ha hb
  have con : (joinOps rb rl rr : MwmOps K V L W K (V × W) R).Contract x x.hash := joinOps_contract laws rb rl rr
  have ht' : Reach c x.hash t' := .transmuteWithTransmuted ht hu laws laws.left con h
  obtain ⟨_, _, _, C4, C5, _⟩ := C26_transmute_with_transmuted laws laws.left ht hu con reduce e h
  have put : ∀ a b, a? = some a → b? = some b → t'.find x.hash a.1 = .ok (some (a.1, (a.2, b.2))) := by
    rintro a b rfl rfl
    exact C4 k a b a.1 (a.2, b.2) rb ha hb rfl
  have hf : ∃ o, t'.find x.hash k = .ok o := ⟨_, ht'.find k⟩
  obtain ⟨o, hf⟩ := hf
  have key : ∀ s y, o = some (s, y) → ∃ a b, a? = some a ∧ b? = some b ∧ s = a.1 ∧ y = (a.2, b.2) := by
    rintro s y rfl
    have hk : (s == k) = true := by
      rw [ht'.find, Res.ok.injEq] at hf
      have := List.find?_some hf
      exact this
    rcases C5 k s y hf with ⟨a, r', _, _, h1⟩ | ⟨b, r', _, _, h1⟩ | ⟨a, b, r', h1, h2, h3⟩
    · simp [newMapTransmuteRemoved, MapTransmute.closure, joinOps] at h1
    · simp [newMapTransmuteRemoved, MapTransmute.closure, joinOps] at h1
    · simp [joinOps, newMapTransmuteTransmuteGeneric, MapTransmute.closure2] at h3
      obtain ⟨rfl, rfl, _⟩ := h3
      rw [ht.find, Res.ok.injEq, (ht.query a.1).no_other ht.distinct] at h1
      have h4 : t.find x.hash k = .ok (some a) := by
        rw [ht.find, Res.ok.injEq, (ht.query k).no_other ht.distinct]; exact ⟨h1.1, hk⟩
      rw [Trie.findAcross, hu.findQ (laws.query a.1), Res.ok.injEq, (laws.query a.1).no_other hu.distinct] at h2
      have h5 : u.findAcross x k = .ok (some b) := by
        rw [Trie.findAcross, hu.findQ (laws.query k), Res.ok.injEq, (laws.query k).no_other hu.distinct]
        refine ⟨h2.1, ?_⟩
        have h6 := h2.2
        rw [laws.sym] at h6 ⊢
        exact laws.congL _ _ _ hk h6
      rw [h4] at ha; rw [h5] at hb
      injection ha with ha; injection hb with hb
      exact ⟨a, b, ha.symm, hb.symm, rfl, rfl⟩
  rw [hf]
  congr 1
  cases o with
  | some p =>
    obtain ⟨s, y⟩ := p
    obtain ⟨a, b, rfl, rfl, rfl, rfl⟩ := key s y rfl
    rfl
  | none =>
    cases a? with
    | none => rfl
    | some a =>
      cases b? with
      | none => rfl
      | some b =>
        exfalso
        have h1 := put a b rfl rfl
        have hk : (a.1 == k) = true := by
          rw [ht.find, Res.ok.injEq] at ha
          have := List.find?_some ha
          exact this
        rw [ht'.find, Res.ok.injEq, (ht'.query a.1).no_other ht'.distinct] at h1
        have h2 : t'.find x.hash k = .ok (some (a.1, (a.2, b.2))) := by
          rw [ht'.find, Res.ok.injEq, (ht'.query k).no_other ht'.distinct]; exact ⟨h1.1, hk⟩
        rw [hf] at h2; simp at h2

/-- C69, merge: `transform_with_transformed` with a closure for pairs that answers `Transformed`, and `Unchanged` for
    entries only in one map, does not panic, returns if no hash is shared by two keys of one map and three of the
    other, and whenever it returns the result holds for each key in both maps the combined value, under one of the two
    equal keys, and for each other key the entry of the map that holds it. -/
theorem C69_merge {t u : Trie c K V} (ht : Reach c hash t) (hu : Reach c hash u) (g : K → V → K → V → V)
    (reduce : R → R → R) (e rb rl rr : R) (par : Par) :
    (NoStall (Cross.same hash) t.visit u.visit → NoStall (Cross.same hash) u.visit t.visit →
      ∃ t' r, Trie.twt reduce e hash ⟨newMapJointTransformGeneric fun k v l w => .transformed (g k v l w) rb,
        newMapTransformUnchanged rl, newMapTransformUnchanged rr⟩ par t u = .ok (t', r)) ∧
    (∀ cause, Trie.twt reduce e hash ⟨newMapJointTransformGeneric fun k v l w => .transformed (g k v l w) rb,
        newMapTransformUnchanged rl, newMapTransformUnchanged rr⟩ par t u ≠ .panic cause) ∧
    ∀ t' r, Trie.twt reduce e hash ⟨newMapJointTransformGeneric fun k v l w => .transformed (g k v l w) rb,
        newMapTransformUnchanged rl, newMapTransformUnchanged rr⟩ par t u = .ok (t', r) →
      ∀ k a? b?, t.find hash k = .ok a? → u.find hash k = .ok b? →
        ∃ o, t'.find hash k = .ok o ∧ (match a?, b? with
          | none, none => o = none
          | some a, none => o = some a
          | none, some b => o = some b
          | some a, some b => o = some (a.1, g a.1 a.2 b.1 b.2) ∨ o = some (b.1, g a.1 a.2 b.1 b.2)) := by
  have tame : TwtOps.Tame ⟨newMapJointTransformGeneric fun k v l w => .transformed (g k v l w) rb,
      newMapTransformUnchanged rl, newMapTransformUnchanged rr⟩ hash t.visit u.visit := by
    refine TwtOps.tame_uniform ?_ ?_ (.inr ?_) (.inr ?_)
    · intro as bs a _ b _ _ r h
      simp [newMapJointTransformGeneric, MapJointTransform.closure] at h
    · intro as bs a _ b _ _ r h
      simp [newMapJointTransformGeneric, TwtOps.flip, MapJointTransform.flip, MapJointTransform.closure] at h
    · intro l a _ r h
      simp [newMapTransformUnchanged, MapTransform.closure] at h
    · intro l a _ r h
      simp [newMapTransformUnchanged, MapTransform.closure] at h
  have C := C23_transform_with_transformed_partial ht hu tame reduce e par
  refine ⟨C.1, fun cause hc => ?_, fun t' r h k a? b? ha hb => ?_⟩
  · rcases C.2.2 with ⟨_, _, h⟩ | h <;> rw [hc] at h <;> simp at h
  · obtain ⟨o, h1, h2⟩ := C21_transform_with_transformed_partial ht hu tame reduce e par h k a? b? ha hb
    refine ⟨o, h1, ?_⟩
    cases a? <;> cases b?
    · exact h2
    · exact h2
    · exact h2
    · exact h2

/-- Two maps with colliding keys, on which the recipes for two maps return. -/
example : ∃ (t u : Trie Ex.c8 Ex.Tk Nat), Reach Ex.c8 Ex.exHash t ∧ Reach Ex.c8 Ex.exHash u ∧
    ((Trie.twm (Cross.same Ex.exHash) (fun _ _ => ()) () ⟨newMapTransformTransmuteUnchanged (), newMapTransformRemoved (),
        newMapTransmuteRemoved ()⟩ .sequential t u).test (fun p => decide (p.1.size = 2)) &&
     (Trie.twm (Cross.same Ex.exHash) (fun _ _ => ()) () ⟨newMapTransformTransmuteRemoved (), newMapTransformUnchanged (),
        newMapTransmuteRemoved ()⟩ .sequential t u).test (fun p => decide (p.1.size = 4)) &&
     (Trie.mwm (Cross.same Ex.exHash) (fun _ _ => ()) () ⟨newMapTransmuteTransmuteGeneric fun k v _ w =>
        .transmuted k (v, w) (), newMapTransmuteRemoved (), newMapTransmuteRemoved ()⟩ t u).test
        (fun p => decide (p.1.size = 2)) &&
     (Trie.twt (fun _ _ => ()) () Ex.exHash ⟨newMapJointTransformGeneric fun _ v _ w => .transformed (v + w) (),
        newMapTransformUnchanged (), newMapTransformUnchanged ()⟩ .sequential t u).test
        (fun p => decide (p.1.size = 10))) = true :=
  exists_reach2 Ex.exLaws Ex.exLaws Ex.entries Ex.right _ (by decide +kernel)

end HT
