import Verif.SetAlg
/-!
# Property C27: set algebra

`HSet.Has hash s k` says that `s.find(&k)` finds a key.  `KeepsAll`/`DropsAll` (`Verif/SetSpec.lean`) say that an
operation keeps/removes whatever it is asked about; they hold of the bulk operations and of the corresponding
closures.  `NoStall` is the condition of C23.
-/
namespace HT

variable {K L R : Type} [BEq K] [BEq L] {c : Cfg} {hash : K → BitVec c.w}

/-! ## transform_with_transformed -/

section
variable {s t : HSet c K} {reduce : R → R → R} {e : R}
  {both : SetJointTransform R (K → K → SetJointTransformResult R)} {left right : SetTransform R (K → SetTransformResult R)}
  {par : Par}

omit [BEq L] in
/-- C27: with operations that keep or remove everything `transform_with_transformed` on sets does not panic, and
    returns if no hash is shared by two keys of one set and three of the other.  Missing: it need not return
    otherwise (`C27_refuted`). -/
theorem C27_returns_partial (hs : SReach c hash s) (ht : SReach c hash t)
    (hb : both.KeepsAll ∨ both.DropsAll) (hl : left.KeepsAll ∨ left.DropsAll) (hr : right.KeepsAll ∨ right.DropsAll) :
    (NoStall (Cross.same hash) s.set.visit t.set.visit → NoStall (Cross.same hash) t.set.visit s.set.visit →
      ∃ s' r, HSet.twt reduce e hash both left right par s t = .ok (s', r)) ∧
    ((∃ s' r, HSet.twt reduce e hash both left right par s t = .ok (s', r)) ∨
      HSet.twt reduce e hash both left right par s t = .diverge) := by
  have h := C23_transform_with_transformed_partial hs.map ht.map
    (SetJointTransform.tame (hash := hash) hb hl hr s.set.visit t.set.visit) reduce e par
  constructor
  · intro n1 n2
    obtain ⟨t', r, h⟩ := h.1 n1 n2
    exact ⟨⟨t'⟩, r, HSet.wrap_ok.2 h⟩
  · rcases h.2.2 with ⟨t', r, h⟩ | h
    · exact .inl ⟨⟨t'⟩, r, HSet.wrap_ok.2 h⟩
    · exact .inr (by rw [HSet.twt, h]; rfl)

omit [BEq L] in
/-- C27, union: whenever the call returns (`C27_returns_partial`), the result is a set of the API holding exactly the keys of
    either set. -/
theorem C27_union_partial (hs : SReach c hash s) (ht : SReach c hash t)
    (hb : both.KeepsAll) (hl : left.KeepsAll) (hr : right.KeepsAll) {s' : HSet c K} {r : R}
    (h : HSet.twt reduce e hash both left right par s t = .ok (s', r)) :
    SReach c hash s' ∧ ∀ k, s'.Has hash k ↔ (s.Has hash k ∨ t.Has hash k) := by
  obtain ⟨h1, h2⟩ := HSet.twt_has hs ht (kb := true) (kl := true) (kr := true) hb hl hr h
  refine ⟨h1, fun k => ?_⟩
  rw [h2]
  by_cases s.Has hash k <;> by_cases t.Has hash k <;> simp [*]

omit [BEq L] in
/-- C27, intersection. -/
theorem C27_intersection_partial (hs : SReach c hash s) (ht : SReach c hash t)
    (hb : both.KeepsAll) (hl : left.DropsAll) (hr : right.DropsAll) {s' : HSet c K} {r : R}
    (h : HSet.twt reduce e hash both left right par s t = .ok (s', r)) :
    SReach c hash s' ∧ ∀ k, s'.Has hash k ↔ (s.Has hash k ∧ t.Has hash k) := by
  obtain ⟨h1, h2⟩ := HSet.twt_has hs ht (kb := true) (kl := false) (kr := false) hb hl hr h
  refine ⟨h1, fun k => ?_⟩
  rw [h2]
  by_cases s.Has hash k <;> by_cases t.Has hash k <;> simp [*]

omit [BEq L] in
/-- C27, difference. -/
theorem C27_difference_partial (hs : SReach c hash s) (ht : SReach c hash t)
    (hb : both.DropsAll) (hl : left.KeepsAll) (hr : right.DropsAll) {s' : HSet c K} {r : R}
    (h : HSet.twt reduce e hash both left right par s t = .ok (s', r)) :
    SReach c hash s' ∧ ∀ k, s'.Has hash k ↔ (s.Has hash k ∧ ¬ t.Has hash k) := by
  obtain ⟨h1, h2⟩ := HSet.twt_has hs ht (kb := false) (kl := true) (kr := false) hb hl hr h
  refine ⟨h1, fun k => ?_⟩
  rw [h2]
  by_cases s.Has hash k <;> by_cases t.Has hash k <;> simp [*]

omit [BEq L] in
/-- C27, symmetric difference (`/repo/examples/set_xor.rs`). -/
theorem C27_symmetric_difference_partial (hs : SReach c hash s) (ht : SReach c hash t)
    (hb : both.DropsAll) (hl : left.KeepsAll) (hr : right.KeepsAll) {s' : HSet c K} {r : R}
    (h : HSet.twt reduce e hash both left right par s t = .ok (s', r)) :
    SReach c hash s' ∧ ∀ k, s'.Has hash k ↔ ¬ (s.Has hash k ↔ t.Has hash k) := by
  obtain ⟨h1, h2⟩ := HSet.twt_has hs ht (kb := false) (kl := true) (kr := true) hb hl hr h
  refine ⟨h1, fun k => ?_⟩
  rw [h2]
  by_cases s.Has hash k <;> by_cases t.Has hash k <;> simp [*]

end

/-! ## The other joint operations -/

section
variable {s t : HSet c K} {reduce : R → R → R} {e : R} {par : Par}

omit [BEq L] in
/-- C27 with `transform_with_transmuted` (`set_xor.rs`), whenever it returns: every Boolean combination `f` of two
    sets, given operations that keep a key as `f` says and transmute a key of the right set to itself. -/
theorem C27_transform_with_transmuted_partial (hs : SReach c hash s) (ht : SReach c hash t) {f : Bool → Bool → Bool}
    (hf : f false false = false) {both : SetTransform R (K → K → SetTransformResult R)}
    {left : SetTransform R (K → SetTransformResult R)} {right : SetTransmute R (K → SetTransmuteResult K R)}
    (hb : ∀ a b, (both.closure2 a b).keep = f true true) (hl : ∀ a, (left.closure a).keep = f true false)
    (hr : ∀ b, (right.closure b).key? = if f false true then some b else none) {s' : HSet c K} {r : R}
    (h : HSet.twm reduce e (Cross.one hash) both left right par s t = .ok (s', r)) :
    ∀ k a? b?, s.find hash k = .ok a? → t.find hash k = .ok b? →
      ∃ o?, s'.find hash k = .ok o? ∧ o?.isSome = f a?.isSome b?.isSome := by
  have con : right.Right (Cross.one hash) := by
    intro l k r hk
    have := hr l
    rw [hk] at this
    split at this <;> simp [SetTransmuteResult.key?] at this
    subst this; exact hs.laws.refl k
  intro k a? b? ha hb'
  have := C36_transform_with_transmuted (.same hs.laws) (x := Cross.one hash) hs ht reduce e both left con par h k a? b? ha hb'
  refine ⟨_, this, ?_⟩
  cases a? <;> cases b? <;> simp only [hb, hl, hr, Option.isSome_none, Option.isSome_some, hf]
  all_goals split <;> simp [*]

omit [BEq L] in
/-- C27 with `transmute_with_transformed` (`set_xor.rs`), whenever it returns. -/
theorem C27_transmute_with_transformed_partial (hs : SReach c hash s) (ht : SReach c hash t) {f : Bool → Bool → Bool}
    (hf : f false false = false) {both : SetTransform R (K → K → SetTransformResult R)}
    {left : SetTransmute R (K → SetTransmuteResult K R)} {right : SetTransform R (K → SetTransformResult R)}
    (hb : ∀ a b, (both.closure2 a b).keep = f true true)
    (hl : ∀ a, (left.closure a).key? = if f true false then some a else none)
    (hr : ∀ b, (right.closure b).keep = f false true) {s' : HSet c K} {r : R}
    (h : HSet.mwt reduce e (Cross.one hash) both left right par s t = .ok (s', r)) :
    ∀ k a? b?, s.find hash k = .ok a? → t.find hash k = .ok b? →
      ∃ o?, s'.find hash k = .ok o? ∧ o?.isSome = f a?.isSome b?.isSome := by
  have con : left.Left (Cross.one hash) := by
    intro k l r hk
    have := hl k
    rw [hk] at this
    split at this <;> simp [SetTransmuteResult.key?] at this
    subst this; exact hs.laws.refl l
  intro k a? b? ha hb'
  have := C36_transmute_with_transformed (.same hs.laws) (x := Cross.one hash) hs ht reduce e both right con par h k a? b? ha hb'
  refine ⟨_, this, ?_⟩
  cases a? <;> cases b? <;> simp only [hb, hl, hr, Option.isSome_none, Option.isSome_some, hf]
  all_goals split <;> simp [*]

omit [BEq L] in
/-- C27 with `transmute_with_transmuted` (`set_xor.rs`), whenever it returns. -/
theorem C27_transmute_with_transmuted_partial (hs : SReach c hash s) (ht : SReach c hash t) {f : Bool → Bool → Bool}
    (hf : f false false = false) {both : SetTransmute R (K → K → SetTransmuteResult K R)}
    {left right : SetTransmute R (K → SetTransmuteResult K R)}
    (hb : ∀ a b, (both.closure2 a b).key? = if f true true then some a else none)
    (hl : ∀ a, (left.closure a).key? = if f true false then some a else none)
    (hr : ∀ b, (right.closure b).key? = if f false true then some b else none) {s' : HSet c K} {r : R}
    (h : HSet.mwm reduce e (Cross.one hash) both left right s t = .ok (s', r)) :
    ∀ k a? b?, s.find hash k = .ok a? → t.find hash k = .ok b? →
      ∃ o?, s'.find hash k = .ok o? ∧ o?.isSome = f a?.isSome b?.isSome := by
  have laws := hs.laws
  have own : ∀ p k, setOut both left right p = some k → (match p with
      | .left a => a = k
      | .right b => b = k
      | .both a _ => a = k) := by
    intro p k hp
    cases p <;> simp only [setOut, hb, hl, hr] at hp <;> split at hp <;> simp at hp <;> exact hp
  have con : SetMwmContract (Cross.one hash) hash both left right := by
    constructor
    · intro p k _ hp
      have := own p k hp
      cases p <;> simp only at this <;> subst this <;> rfl
    · intro p q k k' _ _ hp hq hk
      have h1 := own p k hp
      have h2 := own q k' hq
      cases p <;> cases q <;> simp only at h1 h2 <;> subst h1 h2
      all_goals first
        | exact .inl ⟨_, _, rfl, rfl, hk⟩
        | exact .inr (.inl ⟨_, _, rfl, rfl, hk⟩)
        | exact .inr (.inr (.inl ⟨_, _, rfl, rfl, hk⟩))
        | exact .inr (.inr (.inr ⟨_, _, rfl, rfl, laws.symm _ _ hk⟩))
  intro k a? b? ha hb'
  have hs' : SReach c hash s' := .transmuteWithTransmuted hs ht (.same laws) laws con h
  have hp := (C26_transmute_with_transmuted (.same laws) laws (x := Cross.one hash) hs.map ht.map con.map reduce e
    (HSet.wrap_ok.1 h)).2.2.2.2.2.1
  rw [HSet.find_iff] at ha hb'
  let sm : Sem (K × Unit) (K × Unit) (K × Unit) Unit :=
    ⟨fun p o => o = MwmOps.out ⟨both.toMap2, left.toMap, right.toMap⟩ p, fun _ => (), fun _ _ => (), (), False,
      fun h => h.elim⟩
  have ho : sm.Outs ((Cross.one hash).cases s.set.visit t.set.visit) s'.set.visit :=
    Sem.Outs.of_perm sm (f := MwmOps.out ⟨both.toMap2, left.toMap, right.toMap⟩) (fun _ => rfl) hp
  have key := outs_find_left (.same laws) (x := Cross.one hash) hs.map ht.map hs'.map ho (by
    intro p _ e' he'
    have he' : some e' = MwmOps.out ⟨both.toMap2, left.toMap, right.toMap⟩ p := he'
    rw [setOut_toMap] at he'
    have hk : setOut both left right p.keys = some e'.1 := by
      cases hq : setOut both left right p.keys with
      | none => rw [hq] at he'; simp at he'
      | some k => rw [hq] at he'; simp at he'; rw [he']
    have := own _ _ hk
    cases p <;> simp only [Case.keys] at this <;> (show (_ == _) = true) <;> rw [this] <;> exact laws.refl _) ha hb'
  cases a? <;> cases b? <;> simp only [Option.map_none, Option.map_some, Case.of?] at key
  · exact ⟨none, by rw [HSet.find_iff]; exact key, by simp [hf]⟩
  all_goals
    obtain ⟨o, h1, h2⟩ := key
    have h1 : o = MwmOps.out _ _ := h1
    rw [setOut_toMap] at h1
    refine ⟨_, (HSet.find_iff _ _).2 (h2.trans (congrArg Res.ok h1)), ?_⟩
    simp only [Case.keys, setOut, hb, hl, hr]
    split <;> simp [*]

end

/-! ## What is false -/

/-- C27 is false: the union of `{1, 2}` and `{3, 4, 5}`, all with one hash, does not return; and the intersection of
    `{3, 4}` and `{4, 5}`, all with one hash, with the bulk operation `UnchangedR` panics (`unwrap` of `None`). -/
theorem C27_refuted :
    (∃ s t : HSet Ex.c8 Ex.Tk, SReach Ex.c8 Ex.exHash s ∧ SReach Ex.c8 Ex.exHash t ∧
      HSet.twt (fun _ _ => ()) () Ex.exHash (.unchangedLR ()) (.unchanged ()) (.unchanged ()) .sequential s t
        = .diverge) ∧
    (∃ s t : HSet Ex.c8 Ex.Tk, SReach Ex.c8 Ex.exHash s ∧ SReach Ex.c8 Ex.exHash t ∧ ∃ p,
      HSet.twt (fun _ _ => ()) () Ex.exHash (.unchangedR ()) (.removed ()) (.removed ()) .sequential s t
        = .panic p) := by
  constructor
  · obtain ⟨s, t, hs, ht, h⟩ := exists_sreach2 (c := Ex.c8) Ex.exLaws Ex.exLaws [⟨1, 0⟩, ⟨2, 0⟩] [⟨3, 0⟩, ⟨4, 0⟩, ⟨5, 0⟩]
      (fun s t => (HSet.twt (fun _ _ => ()) () Ex.exHash (.unchangedLR ()) (.unchanged ()) (.unchanged ())
        .sequential s t).diverges) (by decide +kernel)
    exact ⟨s, t, hs, ht, Res.diverges_iff.1 h⟩
  · obtain ⟨s, t, hs, ht, h⟩ := exists_sreach2 (c := Ex.c8) Ex.exLaws Ex.exLaws [⟨3, 0⟩, ⟨4, 0⟩] [⟨4, 1⟩, ⟨5, 1⟩]
      (fun s t => match HSet.twt (fun _ _ => ()) () Ex.exHash (.unchangedR ()) (.removed ()) (.removed ())
        .sequential s t with
        | .panic _ => true
        | _ => false) (by decide +kernel)
    refine ⟨s, t, hs, ht, ?_⟩
    split at h
    · next p hp => exact ⟨p, hp⟩
    · simp at h

/-! ## Examples -/

/-- Two sets with collisions inside and across, on which all four operations return. -/
example : ∃ s t : HSet Ex.c8 Ex.Tk, SReach Ex.c8 Ex.exHash s ∧ SReach Ex.c8 Ex.exHash t ∧
    (decide (s.size = 6) && decide (t.size = 6) &&
     decide (NoStall (Cross.same Ex.exHash) s.set.visit t.set.visit) &&
     (HSet.twt (fun _ _ => ()) () Ex.exHash (.unchangedLR ()) (.unchanged ()) (.unchanged ()) .sequential s t).test
      fun y => decide (y.1.size = 10)) = true :=
  exists_sreach2 Ex.exLaws Ex.exLaws (Ex.entries.map Prod.fst) (Ex.right.map Prod.fst) _ (by decide +kernel)

/-- The operations of `set_xor.rs`. -/
example : SetJointTransform.DropsAll (K := Ex.Tk) (.generic (fun _ _ => .removed ()) false) ∧
    SetTransform.KeepsAll (K := Ex.Tk) (.generic fun _ => .unchanged ()) ∧
    SetTransform.KeepsAll (K := Ex.Tk) (.unchanged ()) ∧
    SetJointTransform.KeepsAll (K := Ex.Tk) (.generic (fun _ _ => .unchangedLR ()) false) ∧
    SetJointTransform.KeepsAll (K := Ex.Tk) (.unchangedL ()) :=
  ⟨fun _ _ => ⟨(), rfl⟩, fun _ => ⟨(), rfl⟩, fun _ => ⟨(), rfl⟩, .inl fun _ _ => ⟨(), rfl⟩, .inr ⟨(), rfl⟩⟩

end HT
