import Verif.SetChaos
import Verif.Props.Pairing
/-!
# Property C72: sets of keys whose code answers anything

`ChaoticSet c s` (`Verif/SetChaosSpec.lean`): `s` was made by any history of set operations with keys whose hashes and
`==` may answer anything at any time, and closures that keep no contract.  `HSet.findK`, `HSet.insertK`, `HSet.removeK` are
the operations with every call of the keys' code as a step, `Path calls outcome` (`Verif/Eff.lean`) one run with the
answers it got, `SaidYes calls k` that `==` was asked about the stored key `k` in that run and said yes.  For the joint
operations see C71, for `Pairing` `Verif/MatchSpec.lean`.
-/
namespace HT

variable {K L S R : Type} {c : Cfg}
open Tree

/-- C72: `size` is the number of keys `visit` shows. -/
theorem C72_size {s : HSet c K} (h : ChaoticSet c s) : s.size = s.visit.length := by
  rw [HSet.size, C65_size h.map, HSet.visit, List.length_map]

/-- C72: `find` returns (unless the keys' code does not) a key of the set to which `==` said yes, or nothing, and then `==`
    did not say yes. -/
theorem C72_find {s : HSet c K} (h : ChaoticSet c s) {calls : List (Reply (KCall K Unit) (KAns K Unit c.w))}
    {o : Outcome (KCall K Unit) (Option K)} (run : s.findK.Path calls o) :
    (∃ q, o = .closure q) ∨
    (o = .ret none ∧ ∀ k, ¬ SaidYes calls k) ∨
    ∃ k, o = .ret (some k) ∧ k ∈ s.visit ∧ SaidYes calls k := by
  rw [HSet.findK_eq] at run
  obtain ⟨o', h1, rfl⟩ := Path.map_cases run
  rcases C65_find h.map h1 with ⟨q, rfl⟩ | ⟨rfl, no⟩ | ⟨e, rfl, mem, yes⟩
  · exact .inl ⟨q, rfl⟩
  · exact .inr (.inl ⟨rfl, no⟩)
  · exact .inr (.inr ⟨e.1, rfl, List.mem_map_of_mem mem, yes⟩)

/-- C72: `remove` takes out exactly one key, to which `==` said yes, and keeps the order of the others; or it finds none, and
    then `==` did not say yes.  It panics only in builds with overflow checks. -/
theorem C72_remove {s : HSet c K} (h : ChaoticSet c s) {calls : List (Reply (KCall K Unit) (KAns K Unit c.w))}
    {o : Outcome (KCall K Unit) (Option (HSet c K × K))} (run : s.removeK.Path calls o) :
    (∃ q, o = .closure q) ∨
    (o = .ret none ∧ ∀ k, ¬ SaidYes calls k) ∨
    (∃ s' k l r, o = .ret (some (s', k)) ∧ SaidYes calls k ∧ s.visit = l ++ k :: r ∧ s'.visit = l ++ r) ∨
    (o = .panic .shiftOverflow ∧ c.checked = true) := by
  rw [HSet.removeK_eq] at run
  obtain ⟨o', h1, rfl⟩ := Path.map_cases run
  rcases C65_remove h.map h1 with ⟨q, rfl⟩ | ⟨rfl, no⟩ | ⟨t', e, l, r, rfl, yes, h2, h3⟩ | ⟨rfl, h⟩
  · exact .inl ⟨q, rfl⟩
  · exact .inr (.inl ⟨rfl, no⟩)
  · refine .inr (.inr (.inl ⟨⟨t'⟩, e.1, l.map Prod.fst, r.map Prod.fst, rfl, yes, ?_, ?_⟩))
    · rw [HSet.visit, h2, List.map_append, List.map_cons]
    · rw [HSet.visit, h3, List.map_append]
  · exact .inr (.inr (.inr ⟨rfl, h⟩))

/-- C72: `insert` refuses because of a key of the set to which `==` said yes; or adds exactly its key, dropping at most one
    key, which it returns and to which `==` said yes.  It panics only if `==` contradicted itself on one key, or if it
    cannot tell two keys apart by the hashes it was given, or in builds with overflow checks. -/
theorem C72_insert {s : HSet c K} (h : ChaoticSet c s) {k : K} {replace : Bool}
    {calls : List (Reply (KCall K Unit) (KAns K Unit c.w))}
    {o : Outcome (KCall K Unit) (Except K (HSet c K × K × Option K))} (run : (s.insertK k replace).Path calls o) :
    (∃ q, o = .closure q) ∨
    (∃ k₀, o = .ret (.error k₀) ∧ replace = false ∧ k₀ ∈ s.visit ∧ SaidYes calls k₀) ∨
    (∃ s', o = .ret (.ok (s', k, none)) ∧ (∀ k, ¬ SaidYes calls k) ∧ s'.visit.Perm (k :: s.visit)) ∨
    (∃ s' k₀ l r, o = .ret (.ok (s', k, some k₀)) ∧ replace = true ∧ SaidYes calls k₀ ∧
      s.visit = l ++ k₀ :: r ∧ s'.visit.Perm (k :: (l ++ r))) ∨
    (o = .panic .explicit ∧ replace = true ∧ ∃ k, SaidYes calls k ∧ SaidNo calls k) ∨
    (o = .panic .unwrap ∧ ∀ k, ¬ SaidYes calls k) ∨
    (o = .panic .shiftOverflow ∧ c.checked = true) := by
  rw [HSet.insertK_eq] at run
  obtain ⟨o', h1, rfl⟩ := Path.map_cases run
  rcases C65_insert h.map h1 with ⟨q, rfl⟩ | ⟨e, rfl, h2, h3, h4⟩ | ⟨t', rfl, h2, h3⟩ | ⟨t', e, l, r, rfl, h2, h3, h4, h5⟩ |
    ⟨rfl, h2⟩ | ⟨rfl, h2⟩ | ⟨rfl, h2⟩
  · exact .inl ⟨q, rfl⟩
  · exact .inr (.inl ⟨e.1, rfl, h2, List.mem_map_of_mem h3, h4⟩)
  · exact .inr (.inr (.inl ⟨⟨t'⟩, rfl, h2, h3.map Prod.fst⟩))
  · refine .inr (.inr (.inr (.inl ⟨⟨t'⟩, e.1, l.map Prod.fst, r.map Prod.fst, rfl, h2, h3, ?_, ?_⟩)))
    · rw [HSet.visit, h4, List.map_append, List.map_cons]
    · rw [← List.map_append]; exact h5.map Prod.fst
  · exact .inr (.inr (.inr (.inr (.inl ⟨rfl, h2⟩))))
  · exact .inr (.inr (.inr (.inr (.inr (.inl ⟨rfl, h2⟩)))))
  · exact .inr (.inr (.inr (.inr (.inr (.inr ⟨rfl, h2⟩)))))

/-- C72: `transform` returns and keeps exactly the keys the closure keeps, in order. -/
theorem C72_transform {s : HSet c K} (h : ChaoticSet c s) (reduce : R → R → R) (e : R)
    (op : SetTransform R (K → SetTransformResult R)) (par : Par) :
    ∃ s' r, s.transform reduce e op par = .ok (s', r) ∧ ChaoticSet c s' ∧
      s'.visit = s.visit.filter (fun k => (op.closure k).keep) ∧
      (Mon reduce e → op.toMap.Neutral e → r = total reduce e (s.visit.map fun k => (op.closure k).red)) := by
  rw [SetTransform.closure_eq]
  obtain ⟨t', r, h1, _, h3, h4⟩ := C65_transform h.map reduce e op.toMap par
  have hw : s.transform reduce e op par = .ok (⟨t'⟩, r) := HSet.wrap_ok.2 h1
  refine ⟨_, r, hw, .transform h hw, ?_, fun mon neu => ?_⟩
  · simp only [HSet.visit, h3, SetTransform.toMap_call]
    induction s.set.visit with
    | nil => rfl
    | cons a l ih =>
      obtain ⟨k, ⟨⟩⟩ := a
      rw [List.filterMap_cons, SetTransformResult.toMap_entry, List.map_cons, List.filter_cons]
      cases (op.call k).keep <;> simp [ih]
  · rw [h4 mon neu, HSet.visit, List.map_map]
    exact congrArg (total reduce e) (List.map_congr_left fun a _ => by
      rw [SetTransform.toMap_call, SetTransformResult.toMap_red]; rfl)

/-- C72: `transmute` returns and shows what the closure makes of each key, in order. -/
theorem C72_transmute {s : HSet c K} (h : ChaoticSet c s) (reduce : R → R → R) (e : R)
    (op : SetTransmute R (K → SetTransmuteResult S R)) :
    ∃ s' r, s.transmute reduce e op = .ok (s', r) ∧ ChaoticSet c s' ∧
      s'.visit = s.visit.filterMap (fun k => (op.closure k).key?) ∧
      (Mon reduce e → op.toMap.Neutral e → r = total reduce e (s.visit.map fun k => (op.closure k).red)) := by
  rw [SetTransmute.closure_eq]
  obtain ⟨t', r, h1, _, h3, h4⟩ := C65_transmute h.map reduce e op.toMap
  have hw : s.transmute reduce e op = .ok (⟨t'⟩, r) := HSet.wrap_ok.2 h1
  refine ⟨_, r, hw, .transmute h hw, ?_, fun mon neu => ?_⟩
  · simp [HSet.visit, h3, SetTransmute.toMap_call, SetTransmuteResult.toMap_entry, List.map_filterMap,
      List.filterMap_map, Function.comp_def]
  · rw [h4 mon neu, HSet.visit, List.map_map]
    exact congrArg (total reduce e) (List.map_congr_left fun a _ => by
      rw [SetTransmute.toMap_call, SetTransmuteResult.toMap_red]; rfl)

variable {x : Cross c K L} {reduce : R → R → R} {e : R}

/-- C72 for `transform_with_transmuted`: if it returns, keys of the two sets were paired, none used twice, `==` having said
    yes to each pair, and the result has exactly what the closures made of the pairs and of the other keys. -/
theorem C72_transform_with_transmuted {s : HSet c K} (hs : ChaoticSet c s) {t : HSet c L} (ht : ChaoticSet c t)
    {both : SetTransform R (K → L → SetTransformResult R)} {left : SetTransform R (K → SetTransformResult R)}
    {right : SetTransmute R (L → SetTransmuteResult K R)} {par : Par} {s' : HSet c K} {r : R}
    (hr : HSet.twm reduce e x both left right par s t = .ok (s', r)) :
    (∃ cs : List (Case K L), Pairing (fun k l => x.eq k l = true ∨ x.eq' l k = true) s.visit t.visit cs ∧
      s'.visit.Perm (cs.filterMap fun
        | .left k => if (left.closure k).keep then some k else none
        | .right l => (right.closure l).key?
        | .both k l => if (both.closure2 k l).keep then some k else none) ∧
      (CMon reduce e → left.toMap.Neutral e → right.toMap.Neutral e → r = total reduce e (cs.map fun
        | .left k => (left.closure k).red
        | .right l => (right.closure l).red
        | .both k l => (both.closure2 k l).red))) ∧
    s'.size = s'.visit.length ∧ s'.size ≤ s.size + t.size := by
  obtain ⟨⟨cs, h1, h2, h3⟩, _, h4⟩ := C71_transform_with_transmuted hs.map ht.map (HSet.wrap_ok.1 hr)
  refine ⟨⟨cs.map Case.keys, h1.keys, ?_, fun mon nl nr => ?_⟩, C72_size (.twm hs ht hr), h4⟩
  · refine (h2.map Prod.fst).trans (List.Perm.of_eq ?_)
    rw [List.filterMap_map, List.map_filterMap]
    refine List.filterMap_congr fun p _ => ?_
    cases p <;>
      simp [Case.keys, MapTransform.closure_eq, MapTransmute.closure_eq, MapTransform.closure2_eq, MapTransmute.closure2_eq,
        SetTransform.closure_eq, SetTransform.closure2_eq, SetTransmute.closure_eq, SetTransmute.closure2_eq,
        SetTransformResult.entry_key, SetTransmuteResult.entry_key]
  · rw [h3 mon ⟨trivial, nl, nr⟩, List.map_map]
    refine congrArg (total reduce e) (List.map_congr_left fun p _ => ?_)
    cases p <;>
      simp [Case.keys, MapTransform.closure_eq, MapTransmute.closure_eq, MapTransform.closure2_eq, SetTransform.closure_eq,
        SetTransform.closure2_eq, SetTransmute.closure_eq, SetTransformResult.toMap_red, SetTransmuteResult.toMap_red]

/-- C72 for `transmute_with_transformed`: likewise. -/
theorem C72_transmute_with_transformed {s : HSet c K} (hs : ChaoticSet c s) {t : HSet c L} (ht : ChaoticSet c t)
    {both : SetTransform R (K → L → SetTransformResult R)} {left : SetTransmute R (K → SetTransmuteResult L R)}
    {right : SetTransform R (L → SetTransformResult R)} {par : Par} {s' : HSet c L} {r : R}
    (hr : HSet.mwt reduce e x both left right par s t = .ok (s', r)) :
    (∃ cs : List (Case K L), Pairing (fun k l => x.eq k l = true ∨ x.eq' l k = true) s.visit t.visit cs ∧
      s'.visit.Perm (cs.filterMap fun
        | .left k => (left.closure k).key?
        | .right l => if (right.closure l).keep then some l else none
        | .both k l => if (both.closure2 k l).keep then some l else none) ∧
      (CMon reduce e → left.toMap.Neutral e → right.toMap.Neutral e → r = total reduce e (cs.map fun
        | .left k => (left.closure k).red
        | .right l => (right.closure l).red
        | .both k l => (both.closure2 k l).red))) ∧
    s'.size = s'.visit.length ∧ s'.size ≤ s.size + t.size := by
  obtain ⟨⟨cs, h1, h2, h3⟩, _, h4⟩ := C71_transmute_with_transformed hs.map ht.map (HSet.wrap_ok.1 hr)
  refine ⟨⟨cs.map Case.keys, h1.keys, ?_, fun mon nl nr => ?_⟩, C72_size (.mwt hs ht hr), h4⟩
  · refine (h2.map Prod.fst).trans (List.Perm.of_eq ?_)
    rw [List.filterMap_map, List.map_filterMap]
    refine List.filterMap_congr fun p _ => ?_
    cases p <;>
      simp [Case.keys, MapTransform.closure_eq, MapTransmute.closure_eq, MapTransform.closure2_eq, MapTransmute.closure2_eq,
        SetTransform.closure_eq, SetTransform.closure2_eq, SetTransmute.closure_eq, SetTransmute.closure2_eq,
        SetTransformResult.entry_key, SetTransmuteResult.entry_key]
  · rw [h3 mon ⟨trivial, nl, nr⟩, List.map_map]
    refine congrArg (total reduce e) (List.map_congr_left fun p _ => ?_)
    cases p <;>
      simp [Case.keys, MapTransform.closure_eq, MapTransmute.closure_eq, MapTransform.closure2_eq, SetTransform.closure_eq,
        SetTransform.closure2_eq, SetTransmute.closure_eq, SetTransformResult.toMap_red, SetTransmuteResult.toMap_red]

/-- C72 for `transmute_with_transmuted`: likewise. -/
theorem C72_transmute_with_transmuted {s : HSet c K} (hs : ChaoticSet c s) {t : HSet c L} (ht : ChaoticSet c t)
    {both : SetTransmute R (K → L → SetTransmuteResult S R)} {left : SetTransmute R (K → SetTransmuteResult S R)}
    {right : SetTransmute R (L → SetTransmuteResult S R)} {s' : HSet c S} {r : R}
    (hr : HSet.mwm reduce e x both left right s t = .ok (s', r)) :
    (∃ cs : List (Case K L), Pairing (fun k l => x.eq k l = true ∨ x.eq' l k = true) s.visit t.visit cs ∧
      s'.visit.Perm (cs.filterMap fun
        | .left k => (left.closure k).key?
        | .right l => (right.closure l).key?
        | .both k l => (both.closure2 k l).key?) ∧
      (CMon reduce e → left.toMap.Neutral e → right.toMap.Neutral e → r = total reduce e (cs.map fun
        | .left k => (left.closure k).red
        | .right l => (right.closure l).red
        | .both k l => (both.closure2 k l).red))) ∧
    s'.size = s'.visit.length ∧ s'.size ≤ s.size + t.size := by
  obtain ⟨⟨cs, h1, h2, h3⟩, _, h4⟩ := C71_transmute_with_transmuted hs.map ht.map (HSet.wrap_ok.1 hr)
  refine ⟨⟨cs.map Case.keys, h1.keys, ?_, fun mon nl nr => ?_⟩, C72_size (.mwm hs ht hr), h4⟩
  · refine (h2.map Prod.fst).trans (List.Perm.of_eq ?_)
    rw [List.filterMap_map, List.map_filterMap]
    refine List.filterMap_congr fun p _ => ?_
    cases p <;>
      simp [Case.keys, MapTransform.closure_eq, MapTransmute.closure_eq, MapTransform.closure2_eq, MapTransmute.closure2_eq,
        SetTransform.closure_eq, SetTransform.closure2_eq, SetTransmute.closure_eq, SetTransmute.closure2_eq,
        SetTransformResult.entry_key, SetTransmuteResult.entry_key]
  · rw [h3 mon ⟨trivial, nl, nr⟩, List.map_map]
    refine congrArg (total reduce e) (List.map_congr_left fun p _ => ?_)
    cases p <;>
      simp [Case.keys, MapTransform.closure_eq, MapTransmute.closure_eq, MapTransform.closure2_eq, SetTransform.closure_eq,
        SetTransform.closure2_eq, SetTransmute.closure_eq, SetTransformResult.toMap_red, SetTransmuteResult.toMap_red]

/-- C72 for `transform_with_transformed`: it makes up no keys. -/
theorem C72_transform_with_transformed [BEq K] {s t : HSet c K} (hs : ChaoticSet c s) (ht : ChaoticSet c t)
    {hash : K → BitVec c.w} {both : SetJointTransform R (K → K → SetJointTransformResult R)}
    {left right : SetTransform R (K → SetTransformResult R)} {par : Par} {s' : HSet c K} {r : R}
    (hr : HSet.twt reduce e hash both left right par s t = .ok (s', r)) :
    (∀ k ∈ s'.visit, k ∈ s.visit ∨ k ∈ t.visit) ∧ s'.size = s'.visit.length := by
  refine ⟨fun k hk => ?_, C72_size (.twt hs ht hr)⟩
  obtain ⟨⟨k, ⟨⟩⟩, hk2, rfl⟩ := List.mem_map.1 hk
  rcases (C71_transform_with_transformed hs.map ht.map (HSet.wrap_ok.1 hr)).1 k () hk2 with
    h | h | ⟨_, _, h, _⟩ | ⟨_, _, h, _⟩ | ⟨a, ha, b, hb, _, hk', _⟩
  · exact .inl (List.mem_map_of_mem (f := Prod.fst) h)
  · exact .inr (List.mem_map_of_mem (f := Prod.fst) h)
  · exact .inl (List.mem_map_of_mem (f := Prod.fst) h)
  · exact .inr (List.mem_map_of_mem (f := Prod.fst) h)
  · rcases hk' with rfl | rfl
    · exact .inl (List.mem_map_of_mem ha)
    · exact .inr (List.mem_map_of_mem hb)

/-! ### Such sets and calls -/

/-- What the keys' code answers in these examples, as `Ex.says`. -/
def Ex.saysS (lookup stored : BitVec 8) (eq : Bool) : (q : KCall Nat Unit) → KAns Nat Unit Ex.c8.w q
  | .lookupHash => lookup
  | .hash _ => stored
  | .eq _ => eq
  | .intoKey => ()
  | .intoValue => ()
  | .cloneKey _ => ()
  | .cloneValue _ => ()

/-- Insert one key after the other; keys hash to `lookup` when they are looked up and to `stored` once they are in the set,
    and `==` always says no. -/
def Ex.insertS (lookup stored : BitVec 8) (s : HSet Ex.c8 Nat) : List Nat → Res (HSet Ex.c8 Nat)
  | [] => .ok s
  | k :: ks => do
    match ← (s.insertK k true).eval (Ex.saysS lookup stored false) with
    | .ok (s', _, _) => Ex.insertS lookup stored s' ks
    | .error _ => .ok s

theorem Ex.insertS_chaotic {lookup stored : BitVec 8} {s s' : HSet Ex.c8 Nat} (h : ChaoticSet Ex.c8 s) {ks : List Nat}
    (hr : Ex.insertS lookup stored s ks = .ok s') : ChaoticSet Ex.c8 s' := by
  induction ks generalizing s with
  | nil => injection hr with hr; subst hr; exact h
  | cons k ks ih =>
    simp only [Ex.insertS] at hr
    obtain ⟨r, h1, hr⟩ := Res.bind_eq_ok.1 hr
    rcases r with e | ⟨t1, p, q⟩
    · injection hr with hr; subst hr; exact h
    · obtain ⟨calls, h2, _⟩ := Tree.eval_path h1
      exact ih (.insert h h2) hr

theorem Ex.exists_chaoticSets (ks ks' ls ls' : List Nat) (p : HSet Ex.c8 Nat → HSet Ex.c8 Nat → Bool)
    (hp : (match Ex.insertS 1#8 1#8 (HSet.new Ex.c8) ks >>= (Ex.insertS 0#8 1#8 · ks'),
        Ex.insertS 1#8 1#8 (HSet.new Ex.c8) ls >>= (Ex.insertS 0#8 1#8 · ls') with
      | .ok s, .ok t => p s t
      | _, _ => false) = true) :
    ∃ s t : HSet Ex.c8 Nat, ChaoticSet Ex.c8 s ∧ ChaoticSet Ex.c8 t ∧ p s t = true := by
  split at hp
  · rename_i s t hs ht
    obtain ⟨s1, h1, h2⟩ := Res.bind_eq_ok.1 hs
    obtain ⟨t1, h3, h4⟩ := Res.bind_eq_ok.1 ht
    exact ⟨s, t, Ex.insertS_chaotic (Ex.insertS_chaotic .new h1) h2, Ex.insertS_chaotic (Ex.insertS_chaotic .new h3) h4, hp⟩
  · cases hp

/-- 42 and 62 are both `==` to 10; 20, which is `==` to them too, stays alone beside the pair of 10 and 42. -/
example : ∃ s t : HSet Ex.c8 Nat, ChaoticSet Ex.c8 s ∧ ChaoticSet Ex.c8 t ∧
    ((HSet.twm (· + ·) 0 Ex.liar (.generic fun _ _ => .unchanged 1) (.generic fun _ => .unchanged 10)
      (.generic fun l => .transmuted l 100) .sequential s t).test fun y => decide (y.1.visit = [2, 60, 1, 31, 20, 10]) &&
        decide (y.2 = 123)) = true :=
  Ex.exists_chaoticSets [10, 20, 31] [1, 2] [42, 51] [60, 70] _ (by decide +kernel)

example : ∃ s t : HSet Ex.c8 Nat, ChaoticSet Ex.c8 s ∧ ChaoticSet Ex.c8 t ∧
    ((HSet.mwt (· + ·) 0 Ex.liar (.generic fun _ _ => .unchanged 1) (.generic fun k => .transmuted k 10)
      (.generic fun _ => .unchanged 100) .sequential s t).test fun y => decide (y.1.visit = [7, 60, 10, 20, 51, 42])) = true :=
  Ex.exists_chaoticSets [10, 20] [4, 7] [42, 51] [60] _ (by decide +kernel)

example : ∃ s t : HSet Ex.c8 Nat, ChaoticSet Ex.c8 s ∧ ChaoticSet Ex.c8 t ∧
    ((HSet.mwm (· + ·) 0 Ex.liar (.generic fun k l => .transmuted (k + l) 1) (.generic fun k => .transmuted k 10)
      (.generic fun l => .transmuted l 100) s t).test fun y => decide (y.1.visit = [72, 1, 60, 82, 20, 52])) = true :=
  Ex.exists_chaoticSets [10, 20, 31] [1, 2] [42, 51] [60, 70] _ (by decide +kernel)

example : ∃ s t : HSet Ex.c8 Nat, ChaoticSet Ex.c8 s ∧ ChaoticSet Ex.c8 t ∧
    ((@HSet.twt Nat Nat Ex.c8 (· + ·) 0 Ex.parity (fun _ => 1#8) (.generic (fun _ _ => .unchangedL 1) false)
      (.generic fun _ => .unchanged 10) (.generic fun _ => .unchanged 100) .sequential s t).test fun y =>
        decide (y.1.visit = [2, 60, 1, 31, 20, 10])) = true :=
  Ex.exists_chaoticSets [10, 20, 31] [1, 2] [42, 51] [60, 70] _ (by decide +kernel)

/-- A set of five keys; a lookup that hashes elsewhere finds none of them, `remove` and a refused and a replacing `insert`
    take a key `==` says yes to. -/
example : ∃ s : HSet Ex.c8 Nat, ChaoticSet Ex.c8 s ∧ s.size = 5 ∧
    (∃ calls, s.findK.Path calls (.ret none)) ∧ (∃ calls k, s.findK.Path calls (.ret (some k))) ∧
    (∃ calls s' k, s.removeK.Path calls (.ret (some (s', k)))) ∧
    (∃ calls k, (s.insertK 9 false).Path calls (.ret (.error k))) ∧
    (∃ calls s' p k, (s.insertK 9 true).Path calls (.ret (.ok (s', p, some k)))) := by
  obtain ⟨s, _, hs, _, hp⟩ := Ex.exists_chaoticSets [10, 20, 31] [1, 2] [] [] (fun s _ => decide (s.size = 5) &&
    (match s.findK.eval (Ex.saysS 2#8 0#8 true) with | .ok none => true | _ => false) &&
    (match s.findK.eval (Ex.saysS 1#8 1#8 true) with | .ok (some _) => true | _ => false) &&
    (match s.removeK.eval (Ex.saysS 1#8 1#8 true) with | .ok (some _) => true | _ => false) &&
    (match (s.insertK 9 false).eval (Ex.saysS 1#8 1#8 true) with | .ok (.error _) => true | _ => false) &&
    (match (s.insertK 9 true).eval (Ex.saysS 1#8 1#8 true) with | .ok (.ok (_, _, some _)) => true | _ => false))
    (by decide +kernel)
  simp only [Bool.and_eq_true, decide_eq_true_eq] at hp
  obtain ⟨⟨⟨⟨⟨h1, h2⟩, h3⟩, h4⟩, h5⟩, h6⟩ := hp
  refine ⟨s, hs, h1, ?_, ?_, ?_, ?_, ?_⟩
  · split at h2
    · rename_i hr; obtain ⟨calls, h, _⟩ := eval_path hr; exact ⟨calls, h⟩
    · cases h2
  · split at h3
    · rename_i k hr; obtain ⟨calls, h, _⟩ := eval_path hr; exact ⟨calls, _, h⟩
    · cases h3
  · split at h4
    · rename_i p hr; obtain ⟨calls, h, _⟩ := eval_path hr; exact ⟨calls, _, _, h⟩
    · cases h4
  · split at h5
    · rename_i k hr; obtain ⟨calls, h, _⟩ := eval_path hr; exact ⟨calls, _, h⟩
    · cases h5
  · split at h6
    · rename_i hr; obtain ⟨calls, h, _⟩ := eval_path hr; exact ⟨calls, _, _, _, h⟩
    · cases h6

end HT
