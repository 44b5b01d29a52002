import Verif.EffMem
import Verif.JointExamples
/-!
# Properties C31, C42, C43: equality of tries, allocation, pointers

`Mem hash s vs` (`Verif/EffMem.lean`): after some history of calls (of any of the functions that return maps) the
program holds the maps `vs`, and `s` is the next address the allocator hands out.  `ATrie` is a map whose nodes have
addresses (`Verif/Arc.lean`); `t.erase` is the map of the rest of the model, and the first theorems say that the calls
return the same as in the rest of the model.
-/
namespace HT

variable {K V R : Type} [BEq K] {c : Cfg} {hash : K → BitVec c.w}

/-! ## Forgetting addresses gives the functions of the rest of the model -/

/-- The answer of `insert` without the pointer. -/
def noPtr {T P : Type} (r : Except (K × V) (T × P × Option (K × V))) : Except (K × V) (T × Option (K × V)) :=
  r.map fun x => (x.1, x.2.2)

/-- The answer of `insert`, without the pointer and without addresses. -/
def noAddr {P : Type} (r : Except (K × V) (ATrie c K V × P × Option (K × V))) :
    Except (K × V) (Trie c K V × Option (K × V)) :=
  r.map fun x => (x.1.erase, x.2.2)

theorem C31_model_insert {s : Nat} {vs : List (ATrie c K V)} (h : Mem hash s vs) {t : ATrie c K V} (ht : t ∈ vs)
    (k : K) (v : V) (replace : Bool) :
    (t.insert hash k v replace s).map (fun r => noAddr r.1) = (t.erase.insert hash k v replace).map noPtr := by
  obtain ⟨U, heap, hU⟩ := h.heap
  refine (ATrie.insert_sim heap (hU t ht) k v replace).eraseEq ?_
  intro U' s' a b P
  cases P <;> rfl

theorem C31_model_remove {s : Nat} {vs : List (ATrie c K V)} (h : Mem hash s vs) {t : ATrie c K V} (ht : t ∈ vs)
    (k : K) :
    (t.remove hash k s).map (fun r => r.1.map fun x => (x.1.erase, x.2)) = t.erase.remove hash k := by
  obtain ⟨U, heap, hU⟩ := h.heap
  have := (ATrie.remove_sim (hash := hash) heap (hU t ht) k).eraseEq
    (f := fun r => r.map fun x => (x.1.erase, x.2)) (g := id) (by
      intro U' s' a b P
      cases P <;> rfl)
  rw [this]
  cases t.erase.remove hash k <;> rfl

theorem C31_model_transform {s : Nat} {vs : List (ATrie c K V)} (h : Mem hash s vs) {t : ATrie c K V} (ht : t ∈ vs)
    (reduce : R → R → R) (e : R) (op : MapTransform R (K → V → MapTransformResult V R)) (par : Par) :
    (t.transform reduce e op par s).map (fun r => (r.1.1.erase, r.1.2)) = t.erase.transform reduce e op par := by
  obtain ⟨U, heap, hU⟩ := h.heap
  have := (ATrie.transform_sim heap (hU t ht) reduce e op par).eraseEq
    (f := fun r => (r.1.erase, r.2)) (g := id) (by
      intro U' s' a b P
      exact Prod.ext P.1.2.1 P.1.2.2.1)
  rw [this]
  cases t.erase.transform reduce e op par <;> rfl

omit [BEq K] in
theorem C31_model_new (s : Nat) :
    (ATrie.new c s).map (fun r => r.1.erase) = .ok (Trie.new c : Trie c K V) := rfl

/-! ## C31 -/

omit [BEq K] in
/-- C31: `==` is reflexive. -/
theorem C31_refl (t : ATrie c K V) : t.eq t = true := ANode.eq_refl _

omit [BEq K] in
/-- C31: a map equals its clone. -/
theorem C31_clone (t : ATrie c K V) : t.eq t.clone = true := ANode.eq_refl _

omit [BEq K] in
/-- C31: `==` is symmetric. -/
theorem C31_symm (t u : ATrie c K V) : t.eq u = u.eq t := by
  unfold ATrie.eq
  cases t.root <;> cases u.root <;> simp only [ANode.eq, Bool.beq_comm]

omit [BEq K] in
/-- C31: `==` is transitive. -/
theorem C31_trans (t u w : ATrie c K V) (h1 : t.eq u = true) (h2 : u.eq w = true) : t.eq w = true := by
  unfold ATrie.eq at *
  revert h1 h2
  cases t.root <;> cases u.root <;> cases w.root <;> simp [ANode.eq] <;> intro h1 h2 <;> omega

/-- C31: of the maps a program holds, two that are equal are the same: same size, same entries in the same order, and
    every lookup gives the same. -/
theorem C31_equal_same {s : Nat} {vs : List (ATrie c K V)} (h : Mem hash s vs) {t u : ATrie c K V} (ht : t ∈ vs)
    (hu : u ∈ vs) (he : t.eq u = true) :
    t = u ∧ t.erase.size = u.erase.size ∧ t.erase.visit = u.erase.visit ∧
      ∀ k, t.erase.find hash k = u.erase.find hash k := by
  obtain ⟨U, heap, hU⟩ := h.heap
  have hr := heap.inj _ _ (hU t ht) (hU u hu) (ANode.eq_addr he)
  have e : t = u := by cases t; cases u; simp only at hr; rw [hr]
  subst e
  exact ⟨rfl, rfl, rfl, fun _ => rfl⟩

/-- C31: a map returned by an insertion is different from every map held before. -/
theorem C31_insert_new {s s' : Nat} {vs : List (ATrie c K V)} (h : Mem hash s vs) {t t' : ATrie c K V} (ht : t ∈ vs)
    {k : K} {v : V} {replace : Bool} {ptr : Nat} {prev : Option (K × V)}
    (hr : t.insert hash k v replace s = .ok (.ok (t', ptr, prev), s')) {u : ATrie c K V} (hu : u ∈ vs) :
    t'.eq u = false := by
  obtain ⟨U, heap, hU⟩ := h.heap
  obtain ⟨_, _, _, U', _, _, heap', P⟩ := (ATrie.insert_sim heap (hU t ht) k v replace).ok hr
  cases P with
  | ok _ o p prev h1 h2 =>
    have := heap.lt _ (hU u hu)
    exact ANode.ne_of_addr (by omega)

/-- C31: a map returned by a removal is different from the map the removal was called on. -/
theorem C31_remove_ne {s s' : Nat} {vs : List (ATrie c K V)} (h : Mem hash s vs) {t t' : ATrie c K V} (ht : t ∈ vs)
    {k : K} {e : K × V} (hr : t.remove hash k s = .ok (some (t', e), s')) : t'.eq t = false := by
  obtain ⟨U, heap, hU⟩ := h.heap
  obtain ⟨_, _, _, U', _, _, heap', P⟩ := (ATrie.remove_sim heap (hU t ht) k).ok hr
  cases P with
  | some _ _ h1 h2 =>
    have := heap.lt _ (hU t ht)
    exact ANode.ne_of_addr (by omega)

/-- C31: two maps made by `new` are different (even though both are empty), and different from every other map. -/
theorem C31_new_ne {s s' : Nat} {vs : List (ATrie c K V)} (h : Mem hash s vs) {t : ATrie c K V}
    (hr : ATrie.new c s = .ok (t, s')) {u : ATrie c K V} (hu : u ∈ vs) : t.eq u = false := by
  obtain ⟨U, heap, hU⟩ := h.heap
  obtain ⟨_, _, _, U', _, _, heap', P⟩ := (ATrie.new_sim heap).ok hr
  have := heap.lt _ (hU u hu)
  have h2 := P.2.1
  exact ANode.ne_of_addr (by omega)

/-- C31: the bulk operation `Unchanged` returns an equal map and allocates nothing. -/
theorem C31_transform_bulk_unchanged {s : Nat} {vs : List (ATrie c K V)} (laws : KeyLaws hash) (h : Mem hash s vs)
    {t : ATrie c K V} (ht : t ∈ vs) (reduce : R → R → R) (e r : R) (par : Par) :
    ∃ t' r', t.transform reduce e (.unchanged r) par s = .ok ((t', r'), s) ∧ t'.eq t = true := by
  obtain ⟨U, heap, hU⟩ := h.heap
  have sim := ATrie.transform_sim heap (hU t ht) reduce e (.unchanged r) par
  have hrun : ∃ x, t.erase.root.transform reduce e (.unchanged r) par = .ok (.unchanged x) := by
    cases t.erase.root with
    | C b v x => exact ⟨r, by rw [Node.transform]⟩
    | L l => refine ⟨r, ?_⟩; rw [Node.transform]; cases l <;> rfl
    | S s => exact ⟨r, by rw [Node.transform]; rfl⟩
  obtain ⟨x, hx⟩ := hrun
  have hm : t.erase.transform reduce e (.unchanged r) par = .ok (t.erase, x) := by
    unfold Trie.transform; rw [hx]; rfl
  rw [hm] at sim
  unfold Sim at sim
  split at sim
  · rename_i a s' b e1 e2
    obtain ⟨_, U', _, _, _, P, Q⟩ := sim
    have ha := Q.2 ⟨x, hx⟩
    have hs : s' = s := by
      rcases P.2.2.2 with ⟨_, h⟩ | h | h
      · exact h
      · rw [ha] at h; omega
      · have := heap.lt _ (hU t ht); rw [ha] at h; omega
    refine ⟨a.1, a.2, ?_, by rw [ha]; exact C31_refl t⟩
    rw [e1, hs]
  · rename_i e2; cases e2
  · rename_i e2; cases e2
  · exact sim.elim

/-- C31: `transform` with a closure returns a map equal to its source exactly if the closure answers `Unchanged` for
    every entry; and then allocates nothing. -/
theorem C31_transform_equal_iff {s s' : Nat} {vs : List (ATrie c K V)} (laws : KeyLaws hash) (h : Mem hash s vs)
    {t t' : ATrie c K V} (ht : t ∈ vs) {reduce : R → R → R} {e r : R} {f : K → V → MapTransformResult V R}
    {par : Par} (hr : t.transform reduce e (.generic f) par s = .ok ((t', r), s')) :
    (t'.eq t = true ↔ ∀ x ∈ t.erase.visit, ∃ r, f x.1 x.2 = .unchanged r) ∧ (t'.eq t = true → s' = s) := by
  obtain ⟨U, heap, hU⟩ := h.heap
  obtain ⟨b, hb, hle, U', hsub, hnew, heap', P, Q⟩ := (ATrie.transform_sim heap (hU t ht) reduce e _ par).ok hr
  simp only at P Q
  have hlt := heap.lt _ (hU t ht)
  have e1 : t'.eq t = true ↔ t' = t := by
    constructor
    · intro he
      have hr := heap'.inj _ _ P.1 (hsub _ (hU t ht)) (ANode.eq_addr he)
      cases t; cases t'; simp only at hr; rw [hr]
    · rintro rfl; exact C31_refl _
  refine ⟨?_, ?_⟩
  · rw [e1, Q]
    obtain ⟨res, h1, _⟩ := Node.transform_spec (MapTransform.generic f) laws.hash reduce e par
      ((h.reach laws t ht).valid : t.erase.root.WF hash c.levels 0)
    have h2 := Node.transform_isUnchanged laws.hash reduce e par f
      ((h.reach laws t ht).valid : t.erase.root.WF hash c.levels 0) h1
    rw [h1]
    have h3 : (∃ x, (Res.ok res : Res (TRes (Node c.n K V) R)) = .ok (.unchanged x)) ↔ res.isUnchanged = true := by
      cases res <;> simp [TRes.isUnchanged]
    have h4 : ∀ y : MapTransformResult V R, y.isUnchanged = true ↔ ∃ r, y = .unchanged r := by
      intro y; cases y <;> simp [MapTransformResult.isUnchanged]
    rw [h3, h2, List.all_eq_true]
    exact ⟨fun h x hx => (h4 _).1 (h x hx), fun h x hx => (h4 _).2 (h x hx)⟩
  · intro he
    have ha := e1.1 he
    rcases P.2.2.2 with ⟨_, h⟩ | h | h
    · exact h
    · rw [ha] at h; simp only at h; omega
    · rw [ha] at h; simp only at h; omega

/-! ## C42 -/

/-- C42: an insertion allocates at most one object per level of the trie and one per key of the largest group of keys
    with one hash; every other object of the new map is an object of the old map.  (A refused insertion allocates
    nothing.) -/
theorem C42_insert_allocates {s s' : Nat} {vs : List (ATrie c K V)} (laws : KeyLaws hash) (h : Mem hash s vs)
    {t : ATrie c K V} (ht : t ∈ vs) {k : K} {v : V} {replace : Bool}
    {r : Except (K × V) (ATrie c K V × Nat × Option (K × V))}
    (hr : t.insert hash k v replace s = .ok (r, s')) :
    match r with
    | .error _ => s' = s
    | .ok (t', _, _) => ∀ N, 1 ≤ N → (∀ hv, (t'.erase.visit.filter fun x => hash x.1 == hv).length ≤ N) →
        s' ≤ s + (c.w + c.b - 1) / c.b + N ∧
        ∀ o : ANode c.n K V, o.Sub t'.root → o.Sub t.root ∨ (s ≤ o.addr ∧ o.addr < s') := by
  obtain ⟨U, heap, hU⟩ := h.heap
  obtain ⟨b, hb, hle, U', hsub, hnew, heap', P⟩ :=
    (ATrie.insert_sim (heap.below (hU t ht)) (.refl _) k v replace).ok hr
  cases P with
  | error e h1 => exact h1
  | ok t' o p prev h1 h2 h3 =>
    simp only
    intro N hN1 hN
    have mem' : Mem hash s' (vs ++ [t']) := .insert h ht hr
    have wf : t'.erase.root.WF hash c.levels 0 := (mem'.reach laws t' (by simp)).valid
    have := wf.pathObjs_le hN hN1
    refine ⟨?_, fun o ho => ?_⟩; rotate_left
    · have ho' := (heap'.sub ho h1).1
      exact (hnew o ho').imp id fun h => ⟨h, heap'.lt o ho'⟩
    show s' ≤ s + c.levels + N
    omega

/-- C42: the same for removals. -/
theorem C42_remove_allocates {s s' : Nat} {vs : List (ATrie c K V)} (laws : KeyLaws hash) (h : Mem hash s vs)
    {t : ATrie c K V} (ht : t ∈ vs) {k : K} {r : Option (ATrie c K V × (K × V))}
    (hr : t.remove hash k s = .ok (r, s')) :
    match r with
    | none => s' = s
    | some (t', _) => ∀ N, 1 ≤ N → (∀ hv, (t'.erase.visit.filter fun x => hash x.1 == hv).length ≤ N) →
        s' ≤ s + (c.w + c.b - 1) / c.b + N ∧
        ∀ o : ANode c.n K V, o.Sub t'.root → o.Sub t.root ∨ (s ≤ o.addr ∧ o.addr < s') := by
  obtain ⟨U, heap, hU⟩ := h.heap
  obtain ⟨b, hb, hle, U', hsub, hnew, heap', P⟩ :=
    (ATrie.remove_sim (heap.below (hU t ht)) (.refl _) k).ok hr
  cases P with
  | none h1 => exact h1
  | some t' e h1 h2 h3 =>
    simp only
    intro N hN1 hN
    have mem' : Mem hash s' (vs ++ [t']) := .remove h ht hr
    have wf : t'.erase.root.WF hash c.levels 0 := (mem'.reach laws t' (by simp)).valid
    have := wf.pathObjs_le hN hN1
    refine ⟨?_, fun o ho => ?_⟩; rotate_left
    · have ho' := (heap'.sub ho h1).1
      exact (hnew o ho').imp id fun h => ⟨h, heap'.lt o ho'⟩
    show s' ≤ s + c.levels + N
    omega

/-! ## C43 -/

/-- C43: the pointers an insertion returns point into an object that belongs to the returned map and holds the inserted
    key and value; it is not part of any older map, and of all objects of the maps held it is the only one at that
    address. -/
theorem C43_insert_pointer {s s' : Nat} {vs : List (ATrie c K V)} (laws : KeyLaws hash) (h : Mem hash s vs)
    {t t' : ATrie c K V} (ht : t ∈ vs) {k : K} {v : V} {replace : Bool} {ptr : Nat} {prev : Option (K × V)}
    (hr : t.insert hash k v replace s = .ok (.ok (t', ptr, prev), s')) :
    ∃ o : ANode c.n K V, o.Sub t'.root ∧ o.addr = ptr ∧ o.entry = some (k, v) ∧
      (∀ u ∈ vs, ∀ o' : ANode c.n K V, o'.Sub u.root → o'.addr ≠ ptr) ∧
      (∀ o' : ANode c.n K V, o'.Sub t'.root → o'.addr = ptr → o' = o) := by
  obtain ⟨U, heap, hU⟩ := h.heap
  obtain ⟨b, hb, hle, U', hsub, hnew, heap', P⟩ := (ATrie.insert_sim heap (hU t ht) k v replace).ok hr
  cases P with
  | ok _ o p prev h1 h2 h3 h4 h5 h6 =>
    have reach := h.reach laws t ht
    have hp : p = (k, v) := by
      rcases reach.insertQ v replace (reach.query k) (laws.refl k) with ⟨r, hr', good⟩ | ⟨_, hp⟩
      · have e : Res.ok (Except.ok (t'.erase, p, prev)) = Res.ok r := hb.symm.trans hr'
        injection e with e
        subst e
        cases good with
        | ok => rfl
      · have e := hb.symm.trans hp; simp at e
    refine ⟨o, h4, rfl, by rw [h5, hp], ?_, ?_⟩
    · intro u hu o' ho'
      have := heap.lt _ (heap.sub ho' (hU u hu)).1
      omega
    · intro o' ho' ha
      exact heap'.inj _ _ (heap'.sub ho' h1).1 (heap'.sub h4 h1).1 ha

/-! ## The hypotheses are met -/

/-- Insert entries one after the other (with `replace`, which is never refused), keeping all versions. -/
def ATrie.versions (hash : K → BitVec c.w) : ATrie c K V → List (K × V) → Al (List (ATrie c K V))
  | t, [] => pure [t]
  | t, (k, v) :: es => do
    let r ← t.insert hash k v true
    match r with
    | .error _ => Al.lift .diverge
    | .ok (t', _, _) => do
      let vs ← ATrie.versions hash t' es
      pure (t :: vs)

theorem Mem.versions {s s' : Nat} {t : ATrie c K V} {us vs : List (ATrie c K V)}
    (h : Mem hash s (us ++ [t])) {es : List (K × V)} (hr : ATrie.versions hash t es s = .ok (vs, s')) :
    Mem hash s' (us ++ vs) := by
  induction es generalizing s t us vs with
  | nil =>
    injection hr with hr; injection hr with h1 h2; subst h1 h2; exact h
  | cons e es ih =>
    obtain ⟨k, v⟩ := e
    unfold ATrie.versions at hr
    change Al.bind _ _ s = _ at hr
    unfold Al.bind at hr
    split at hr
    · rename_i r s1 h1
      cases r with
      | error e => cases hr
      | ok r =>
        obtain ⟨t', ptr, prev⟩ := r
        simp only at hr
        change Al.bind _ _ s1 = _ at hr
        unfold Al.bind at hr
        split at hr
        · rename_i ws s2 h2
          injection hr with hr; injection hr with h3 h4; subst h3 h4
          have := ih (.insert h (by simp) h1) h2
          simpa using this
        · cases hr
        · cases hr
    · cases hr
    · cases hr

theorem exists_mem (hash : K → BitVec c.w) (es : List (K × V)) (p : Nat → List (ATrie c K V) → Bool)
    (h : (((do
      let t ← ATrie.new c
      ATrie.versions hash t es : Al (List (ATrie c K V))) 0).test fun r => p r.2 r.1) = true) :
    ∃ s vs, Mem hash s vs ∧ p s vs = true := by
  change ((Al.bind _ _ 0).test _) = true at h
  unfold Al.bind at h
  split at h
  · rename_i t s1 h1
    have m1 : Mem hash s1 ([] ++ [t]) := .new (.start 0) h1
    change ((ATrie.versions hash t es s1).test _) = true at h
    cases h2 : ATrie.versions hash t es s1 with
    | ok r =>
      rw [h2] at h
      exact ⟨r.2, r.1, by simpa using Mem.versions m1 h2, h⟩
    | panic p => rw [h2] at h; cases h
    | diverge => rw [h2] at h; cases h
  · cases h
  · cases h

/-- Seven versions; the last one has a collision list.  Versions differ, and the following calls succeed: a removal (its
    result differs from the source), an insertion, a transformation that answers `Unchanged` everywhere and one that
    does not. -/
example : ∃ s vs, Mem Ex.exHash (c := Ex.c8) (V := Nat) s vs ∧ (decide (vs.length = 7) &&
    match vs[6]?, vs[5]? with
    | some t, some u => !t.eq u && t.eq t.clone &&
        (t.remove Ex.exHash ⟨5, 0⟩ s).test (fun r => match r.1 with
          | some (t', _) => !t'.eq t && decide (r.2 ≤ s + 5)
          | none => false) &&
        (t.insert Ex.exHash ⟨9, 0⟩ 1 false s).test (fun r => match r.1 with
          | .ok (t', ptr, _) => !t'.eq t && decide (s ≤ ptr)
          | .error _ => false) &&
        (t.transform (fun _ _ => ()) () (.generic fun _ _ => .unchanged ()) .sequential s).test (fun r => r.1.1.eq t) &&
        (t.transform (fun _ _ => ()) () (.generic fun k v => if k.id = 11 then .transformed v () else .unchanged ())
          .sequential s).test (fun r => !r.1.1.eq t)
    | _, _ => false) = true :=
  exists_mem Ex.exHash Ex.entries _ (by decide +kernel)

end HT
