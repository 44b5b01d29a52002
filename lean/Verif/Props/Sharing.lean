import Verif.Props.Effects
import Verif.EffKeep
/-!
# Properties C51, C52: what the maps returned by bulk and joint operations share; when they are equal

As in `Verif/Props/Effects.lean` the closures may have state; `Mem hash s vs` (`Verif/EffMem.lean`) says that after some
history of calls, which may include all the bulk and joint operations, a program holds the maps `vs` and `s` is the next
address.  `o.Sub m` (`Verif/ArcSim.lean`) says that `o` is an object of the map with root `m`.  (That equal maps have
equal contents is `C31_equal_same`, which is about the same histories.)
-/
namespace HT

variable {K V L W S X R σ : Type} [BEq K] [BEq L] {c : Cfg} {hash : K → BitVec c.w}

omit [BEq K] [BEq L] in
theorem Heap.both {n : Nat} {U : ANode n K V → Prop} {s : Nat} (h : Heap U s) {m m' : ANode n K V} (hm : U m)
    (hm' : U m') : Heap (fun o => o.Sub m ∨ o.Sub m') s where
  lt := by
    rintro x (hx | hx)
    · exact (h.below hm).lt x hx
    · exact (h.below hm').lt x hx
  kids := by
    rintro x (hx | hx) y hy
    · exact ⟨.inl ((h.below hm).kids x hx y hy).1, ((h.below hm).kids x hx y hy).2⟩
    · exact ⟨.inr ((h.below hm').kids x hx y hy).1, ((h.below hm').kids x hx y hy).2⟩
  inj := by
    intro x y hx hy e
    have g : ∀ z : ANode n K V, z.Sub m ∨ z.Sub m' → U z := fun z hz =>
      hz.elim (fun hz => (h.sub hz hm).1) fun hz => (h.sub hz hm').1
    exact h.inj x y (g x hx) (g y hy) e

omit [BEq K] [BEq L] in
theorem PSim.shares {Q : Type} {A : Q → Type} {U : ANode c.n K V → Prop} {s s' : Nat} {f : (q : Q) → A q}
    {x : Prog Q A (ATrie c K V × R)} {y : Res (Trie c K V × R)} (sim : PSim f U s x y OutP)
    {env : (q : Q) → σ → Option (A q × σ)} {st st' : σ} {t' : ATrie c K V} {r : R} {l : List (Reply Q A)}
    (hr : x.run s env st = (.ret (((t', r), s'), st'), l)) (hf : Answers f l) (o : ANode c.n K V)
    (ho : o.Sub t'.root) : U o ∨ (s ≤ o.addr ∧ o.addr < s') := by
  obtain ⟨b, hb, hle, U', hsub, hnew, heap', P⟩ := Sim.ok sim (Prog.eval_of_run hr hf)
  have ho' := (heap'.sub ho P.1).1
  exact (hnew o ho').imp id fun h => ⟨h, heap'.lt o ho'⟩

/-! ## C51: what is shared -/

/-- C51: every object of a map returned by `transform` is an object of the map it was called on, or new. -/
theorem C51_transform_shares {s s' : Nat} {vs : List (ATrie c K V)} (laws : KeyLaws hash) (h : Mem hash s vs)
    {t t' : ATrie c K V} (ht : t ∈ vs) {reduce : R → R → R} {e r : R} {o : MapTransform R Unit} {par : Par}
    {env : (p : K × V) → σ → Option (MapTransformResult V R × σ)} {st st' : σ}
    {l : List (Reply (K × V) fun _ => MapTransformResult V R)}
    (hr : (t.transformE reduce e o.asking par).run s env st = (.ret (((t', r), s'), st'), l)) :
    ∀ m : ANode c.n K V, m.Sub t'.root → m.Sub t.root ∨ (s ≤ m.addr ∧ m.addr < s') := by
  obtain ⟨U, heap, hU⟩ := h.heap
  obtain ⟨f, hf⟩ := (C50_transform laws h ht reduce e o par env st).1
  rw [hr] at hf
  exact (ATrie.transformE_sim reduce e (o.asking_rel f) par t (heap.below (hU t ht)) (.refl _)).shares hr hf

/-- C51: every object of a map returned by `transmute` is new. -/
theorem C51_transmute_shares {s s' : Nat} {t : ATrie c K V} (ht : Reach c hash t.erase) {t' : ATrie c S X}
    {reduce : R → R → R} {e r : R} {o : MapTransmute R Unit}
    {env : (p : K × V) → σ → Option (MapTransmuteResult S X R × σ)} {st st' : σ}
    {l : List (Reply (K × V) fun _ => MapTransmuteResult S X R)}
    (hr : (t.transmuteE reduce e o.asking).run s env st = (.ret (((t', r), s'), st'), l)) :
    ∀ m : ANode c.n S X, m.Sub t'.root → s ≤ m.addr ∧ m.addr < s' := by
  obtain ⟨f, hf⟩ := (C50_transmute ht reduce e o s env st).1
  rw [hr] at hf
  intro m hm
  exact ((ATrie.transmuteE_sim reduce e (o.asking_rel f) t (Heap.empty ..)).shares hr hf m hm).elim False.elim id

section
variable {x : Cross c K L} (laws : CrossLaws x)
include laws

/-- C51: every object of a map returned by `transform_with_transmuted` is an object of the left map, or new. -/
theorem C51_transform_with_transmuted_shares {s s' : Nat} {vs : List (ATrie c K V)} (h : Mem x.hash s vs)
    {t t' : ATrie c K V} (ht : t ∈ vs) {u : ATrie c L W} (hu : Reach c x.hash' u.erase) {reduce : R → R → R} {e r : R}
    {o : TwmKinds R} {par : Par} {env : (p : Case (K × V) (L × W)) → σ → Option (TwmAnswer K V L W R p × σ)}
    {st st' : σ} {l : List (Reply _ (TwmAnswer K V L W R))}
    (hr : (ATrie.twmE x reduce e o.asking par t u).run s env st = (.ret (((t', r), s'), st'), l)) :
    ∀ m : ANode c.n K V, m.Sub t'.root → m.Sub t.root ∨ (s ≤ m.addr ∧ m.addr < s') := by
  obtain ⟨U, heap, hU⟩ := h.heap
  obtain ⟨f, hf⟩ := (C50_transform_with_transmuted laws reduce e h ht hu o par env st).1
  rw [hr] at hf
  exact (ATrie.twmE_sim x reduce e (o.asking_rel f) par t u (heap.below (hU t ht)) (.refl _)).shares hr hf

/-- C51: every object of a map returned by `transmute_with_transformed` is an object of the right map, or new. -/
theorem C51_transmute_with_transformed_shares {s s' : Nat} {vs : List (ATrie c L W)} (h : Mem x.hash' s vs)
    {t : ATrie c K V} (ht : Reach c x.hash t.erase) {u t' : ATrie c L W} (hu : u ∈ vs) {reduce : R → R → R} {e r : R}
    {o : MwtKinds R} {par : Par} {env : (p : Case (K × V) (L × W)) → σ → Option (MwtAnswer K V L W R p × σ)}
    {st st' : σ} {l : List (Reply _ (MwtAnswer K V L W R))}
    (hr : (ATrie.mwtE x reduce e o.asking par t u).run s env st = (.ret (((t', r), s'), st'), l)) :
    ∀ m : ANode c.n L W, m.Sub t'.root → m.Sub u.root ∨ (s ≤ m.addr ∧ m.addr < s') := by
  obtain ⟨U, heap, hU⟩ := h.heap
  obtain ⟨f, hf⟩ := (C50_transmute_with_transformed laws reduce e h ht hu o par env st).1
  rw [hr] at hf
  exact (ATrie.mwtE_sim x reduce e (o.asking_rel f) par t u (heap.below (hU u hu)) (.refl _)).shares hr hf

/-- C51: every object of a map returned by `transmute_with_transmuted` is new. -/
theorem C51_transmute_with_transmuted_shares {s s' : Nat} {t : ATrie c K V} (ht : Reach c x.hash t.erase)
    {u : ATrie c L W} (hu : Reach c x.hash' u.erase) {t' : ATrie c S X} {reduce : R → R → R} {e r : R}
    {o : MwmKinds R} {env : (p : Case (K × V) (L × W)) → σ → Option (MwmAnswer K V L W S X R p × σ)}
    {st st' : σ} {l : List (Reply _ (MwmAnswer K V L W S X R))}
    (hr : (ATrie.mwmE x reduce e o.asking t u).run s env st = (.ret (((t', r), s'), st'), l)) :
    ∀ m : ANode c.n S X, m.Sub t'.root → s ≤ m.addr ∧ m.addr < s' := by
  obtain ⟨f, hf⟩ := (C50_transmute_with_transmuted laws reduce e ht hu o s env st).1
  rw [hr] at hf
  intro m hm
  exact ((ATrie.mwmE_sim x reduce e (o.asking_rel f) t u (Heap.empty ..)).shares hr hf m hm).elim False.elim id

end

/-- C51: every object of a map returned by `transform_with_transformed` is an object of one of the two maps, or new. -/
theorem C51_transform_with_transformed_shares {s s' : Nat} {vs : List (ATrie c K V)} (laws : KeyLaws hash)
    (h : Mem hash s vs) {t u t' : ATrie c K V} (ht : t ∈ vs) (hu : u ∈ vs) {reduce : R → R → R} {e r : R}
    {o : TwtKinds R} {par : Par} {env : (p : Case (K × V) (K × V)) → σ → Option (TwtAnswer K V R p × σ)}
    {st st' : σ} {l : List (Reply _ (TwtAnswer K V R))}
    (hr : (ATrie.twtE reduce e hash o.asking par t u).run s env st = (.ret (((t', r), s'), st'), l)) :
    ∀ m : ANode c.n K V, m.Sub t'.root → (m.Sub t.root ∨ m.Sub u.root) ∨ (s ≤ m.addr ∧ m.addr < s') := by
  obtain ⟨U, heap, hU⟩ := h.heap
  obtain ⟨f, hf⟩ := (C50_transform_with_transformed laws h ht hu reduce e o par env st).1
  rw [hr] at hf
  exact (ATrie.twtE_sim reduce e hash (o.asking_rel f) par t u (heap.both (hU t ht) (hU u hu)) (.inl (.refl _))
    (.inr (.refl _))).shares hr hf

/-! ## C52: a call that changes nothing returns its operand -/

/-- C52: `transform` returns a map equal to the one it was called on exactly if the closure answered `Unchanged` every
    time, and then allocates nothing. -/
theorem C52_transform_equal_iff_partial {s s' : Nat} {vs : List (ATrie c K V)} (laws : KeyLaws hash) (h : Mem hash s vs)
    {t t' : ATrie c K V} (ht : t ∈ vs) {reduce : R → R → R} {e r : R} {par : Par}
    {env : (p : K × V) → σ → Option (MapTransformResult V R × σ)} {st st' : σ}
    {l : List (Reply (K × V) fun _ => MapTransformResult V R)}
    (hr : (t.transformE reduce e (.asking (.generic ())) par).run s env st = (.ret (((t', r), s'), st'), l)) :
    (t'.eq t = true ↔ ∀ p ∈ l, ∃ r', p.2 = some (.unchanged r')) ∧ (t'.eq t = true → s' = s) := by
  have once := C49_transform reduce e (.generic ()) par (h.reach laws t ht) s env st
  obtain ⟨f, hf⟩ := (C50_transform laws h ht reduce e (.generic ()) par env st).1
  rw [hr] at hf once
  have hev := Prog.eval_of_run hr hf
  rw [ATrie.transformE_eval reduce e (MapTransform.asking_rel _ f)] at hev
  obtain ⟨h1, h2⟩ := C31_transform_equal_iff laws h ht hev
  refine ⟨h1.trans ⟨fun hall p hp => ?_, fun hall p hp => ?_⟩, h2⟩
  · have hs := once.answered (by simp) p hp
    obtain ⟨q, a⟩ := p
    cases a with
    | none => cases hs
    | some a =>
      have hq := once.only q (List.mem_map.2 ⟨_, hp, rfl⟩)
      obtain ⟨r', hr'⟩ := hall q hq
      exact ⟨r', by rw [← hf q a hp]; exact congrArg some hr'⟩
  · obtain ⟨⟨q, a⟩, hp', rfl⟩ := List.mem_map.1 ((once.all _ rfl).symm.subset hp)
    obtain ⟨r', hr'⟩ := hall _ hp'
    simp only at hr'
    subst hr'
    exact ⟨r', hf _ _ hp'⟩

/-- The trie a run returned, tested. -/
def Outcome.trie {Q : Type} {A : Q → Type} (p : ATrie c K V → Nat → Bool)
    (r : Outcome Q (((ATrie c K V × R) × Nat) × σ) × List (Reply Q A)) : Bool :=
  match r.1 with
  | .ret a => p a.1.1.1 a.1.2
  | _ => false

omit [BEq K] [BEq L] in
theorem Outcome.trie_iff {Q : Type} {A : Q → Type} {p : ATrie c K V → Nat → Bool}
    {r : Outcome Q (((ATrie c K V × R) × Nat) × σ) × List (Reply Q A)} (h : Outcome.trie p r = true) :
    ∃ t' r' s' st', r.1 = .ret (((t', r'), s'), st') ∧ p t' s' = true := by
  unfold Outcome.trie at h
  split at h
  · rename_i a ha
    exact ⟨a.1.1.1, a.1.1.2, a.1.2, a.2, ha, h⟩
  · cases h

/-- C52 fails for the joint operations: there are maps `t` and `u` (made by insertions) such that
    `transform_with_transmuted` (with `t` on the left) and `transform_with_transformed`, told to keep every entry of `t`
    and to remove the others, return maps that hold the entries of `t` but are not equal to it; so does
    `transmute_with_transformed` with `t` on the right. -/
theorem C52_joint_refuted : ∃ s vs, Mem Ex.exHash (c := Ex.c8) (V := Nat) s vs ∧ ∃ t u, t ∈ vs ∧ u ∈ vs ∧
    (∃ t' s', ((ATrie.twmE (Cross.same Ex.exHash) (fun _ _ => ()) ()
        (TwmKinds.asking ⟨.unchanged (), .unchanged (), .removed ()⟩) .sequential t u).run s
          (fun _ _ => none) ()).1 = .ret (((t', ()), s'), ()) ∧ t'.erase.visit = t.erase.visit ∧ t'.eq t = false) ∧
    (∃ t' s', ((ATrie.mwtE (Cross.same Ex.exHash) (fun _ _ => ()) ()
        (MwtKinds.asking ⟨.unchanged (), .removed (), .unchanged ()⟩) .sequential u t).run s
          (fun _ _ => none) ()).1 = .ret (((t', ()), s'), ()) ∧ t'.erase.visit = t.erase.visit ∧ t'.eq t = false) ∧
    (∃ t' s', ((ATrie.twtE (fun _ _ => ()) () Ex.exHash
        (TwtKinds.asking ⟨.generic () false, .unchanged (), .removed ()⟩) .sequential t u).run s
          (Prog.stateless fun p => match p with
            | .left _ => none
            | .right _ => none
            | .both _ _ => some (.unchangedLR ())) ()).1 = .ret (((t', ()), s'), ()) ∧
        t'.erase.visit = t.erase.visit ∧ t'.eq t = false) := by
  have h := exists_mem (c := Ex.c8) (V := Nat) Ex.exHash Ex.entries (fun s vs =>
    match vs[2]?, vs[4]? with
    | some t, some u =>
      let p : ATrie Ex.c8 Ex.Tk Nat → Nat → Bool := fun t' _ => decide (t'.erase.visit = t.erase.visit) && !t'.eq t
      Outcome.trie p ((ATrie.twmE (Cross.same Ex.exHash) (fun _ _ => ()) ()
        (TwmKinds.asking ⟨.unchanged (), .unchanged (), .removed ()⟩) .sequential t u).run s (fun _ _ => none) ()) &&
      Outcome.trie p ((ATrie.mwtE (Cross.same Ex.exHash) (fun _ _ => ()) ()
        (MwtKinds.asking ⟨.unchanged (), .removed (), .unchanged ()⟩) .sequential u t).run s (fun _ _ => none) ()) &&
      Outcome.trie p ((ATrie.twtE (fun _ _ => ()) () Ex.exHash
        (TwtKinds.asking ⟨.generic () false, .unchanged (), .removed ()⟩) .sequential t u).run s
          (Prog.stateless fun p => match p with
            | .left _ => none
            | .right _ => none
            | .both _ _ => some (.unchangedLR ())) ())
    | _, _ => false) (by decide +kernel)
  obtain ⟨s, vs, mem, h⟩ := h
  split at h
  · rename_i t u ht hu
    simp only [Bool.and_eq_true] at h
    obtain ⟨⟨h1, h2⟩, h3⟩ := h
    refine ⟨s, vs, mem, t, u, List.mem_of_getElem? ht, List.mem_of_getElem? hu, ?_, ?_, ?_⟩
    · obtain ⟨t', r', s', st', hr, hp⟩ := Outcome.trie_iff h1
      simp only [Bool.and_eq_true, decide_eq_true_eq, Bool.not_eq_true'] at hp
      exact ⟨t', s', hr, hp.1, hp.2⟩
    · obtain ⟨t', r', s', st', hr, hp⟩ := Outcome.trie_iff h2
      simp only [Bool.and_eq_true, decide_eq_true_eq, Bool.not_eq_true'] at hp
      exact ⟨t', s', hr, hp.1, hp.2⟩
    · obtain ⟨t', r', s', st', hr, hp⟩ := Outcome.trie_iff h3
      simp only [Bool.and_eq_true, decide_eq_true_eq, Bool.not_eq_true'] at hp
      exact ⟨t', s', hr, hp.1, hp.2⟩
  · cases h

/-- Maps made by insertions, and one made by a transformation of the last of them. -/
theorem exists_mem_transformed (hash : K → BitVec c.w) (es : List (K × V))
    (op : MapTransform Unit (K → V → MapTransformResult V Unit))
    (p : Nat → List (ATrie c K V) → ATrie c K V → Bool)
    (h : (((do
      let t ← ATrie.new c
      ATrie.versions hash t es : Al (List (ATrie c K V))) 0).test fun r =>
        match r.1.getLast? with
        | some t => (t.transform (fun _ _ => ()) () op .sequential r.2).test fun q => p q.2 r.1 q.1.1
        | none => false) = true) :
    ∃ s vs t', Mem hash s (vs ++ [t']) ∧ p s vs t' = true := by
  obtain ⟨s, vs, mem, h⟩ := exists_mem hash es (fun s vs =>
    match vs.getLast? with
    | some t => (t.transform (fun _ _ => ()) () op .sequential s).test fun q => p q.2 vs q.1.1
    | none => false) h
  cases hl : vs.getLast? with
  | none => rw [hl] at h; cases h
  | some t =>
    rw [hl] at h
    cases hq : t.transform (fun _ _ => ()) () op .sequential s with
    | ok q =>
      replace h : Res.test _ (t.transform (fun _ _ => ()) () op .sequential s) = true := h
      unfold Al at *
      rw [hq] at h
      exact ⟨q.2, vs, q.1.1, .transform mem (List.mem_of_getLast? hl) hq, h⟩
    | panic e =>
      replace h : Res.test _ (t.transform (fun _ _ => ()) () op .sequential s) = true := h
      unfold Al at *
      rw [hq] at h; cases h
    | diverge =>
      replace h : Res.test _ (t.transform (fun _ _ => ()) () op .sequential s) = true := h
      unfold Al at *
      rw [hq] at h; cases h

/-- C52 fails for the joint operations also if the other map has no keys of its own, when keys of the kept map share a
    hash: in each case all keys of `u` are keys of `t`, every entry of `t` is kept, and the returned map holds the
    entries of `t` but is equal neither to `t` nor to `u`. -/
theorem C52_collision_refuted : ∃ s vs, Mem Ex.exHash (c := Ex.c8) (V := Nat) s vs ∧
    (∃ t u t' s', t ∈ vs ∧ u ∈ vs ∧ (∀ b ∈ u.erase.visit, ∃ a ∈ t.erase.visit, (a.1 == b.1) = true) ∧
      ((ATrie.twmE (Cross.same Ex.exHash) (fun _ _ => ()) ()
        (TwmKinds.asking ⟨.unchanged (), .unchanged (), .removed ()⟩) .sequential t u).run s
          (fun _ _ => none) ()).1 = .ret (((t', ()), s'), ()) ∧
        t'.erase.visit = t.erase.visit ∧ t'.eq t = false ∧ t'.eq u = false) ∧
    (∃ t u t' s', t ∈ vs ∧ u ∈ vs ∧ (∀ b ∈ u.erase.visit, ∃ a ∈ t.erase.visit, (a.1 == b.1) = true) ∧
      ((ATrie.mwtE (Cross.same Ex.exHash) (fun _ _ => ()) ()
        (MwtKinds.asking ⟨.unchanged (), .removed (), .unchanged ()⟩) .sequential u t).run s
          (fun _ _ => none) ()).1 = .ret (((t', ()), s'), ()) ∧
        t'.erase.visit = t.erase.visit ∧ t'.eq t = false ∧ t'.eq u = false) ∧
    (∃ t u t' s', t ∈ vs ∧ u ∈ vs ∧ (∀ b ∈ u.erase.visit, ∃ a ∈ t.erase.visit, (a.1 == b.1) = true) ∧
      ((ATrie.twtE (fun _ _ => ()) () Ex.exHash
        (TwtKinds.asking ⟨.generic () false, .unchanged (), .removed ()⟩) .sequential t u).run s
          (Prog.stateless fun p => match p with
            | .left _ => none
            | .right _ => none
            | .both _ _ => some (.unchangedL ())) ()).1 = .ret (((t', ()), s'), ()) ∧
        t'.erase.visit = t.erase.visit ∧ t'.eq t = false ∧ t'.eq u = false) ∧
    (∃ t u t' s', t ∈ vs ∧ u ∈ vs ∧ (∀ b ∈ u.erase.visit, ∃ a ∈ t.erase.visit, (a.1 == b.1) = true) ∧
      ((ATrie.twtE (fun _ _ => ()) () Ex.exHash
        (TwtKinds.asking ⟨.generic () false, .removed (), .unchanged ()⟩) .sequential u t).run s
          (Prog.stateless fun p => match p with
            | .left _ => none
            | .right _ => none
            | .both _ _ => some (.unchangedR ())) ()).1 = .ret (((t', ()), s'), ()) ∧
        t'.erase.visit = t.erase.visit ∧ t'.eq t = false ∧ t'.eq u = false) := by
  let p : ATrie Ex.c8 Ex.Tk Nat → ATrie Ex.c8 Ex.Tk Nat → ATrie Ex.c8 Ex.Tk Nat → Nat → Bool := fun t u t' _ =>
    decide (t'.erase.visit = t.erase.visit) && !t'.eq t && !t'.eq u &&
      u.erase.visit.all fun b => t.erase.visit.any fun a => a.1 == b.1
  have hp : ∀ {t u t'} (s : Nat), p t u t' s = true →
      (∀ b ∈ u.erase.visit, ∃ a ∈ t.erase.visit, (a.1 == b.1) = true) ∧
        t'.erase.visit = t.erase.visit ∧ t'.eq t = false ∧ t'.eq u = false := by
    intro t u t' s h
    simp only [p, Bool.and_eq_true, decide_eq_true_eq, Bool.not_eq_true', List.all_eq_true, List.any_eq_true] at h
    exact ⟨h.2, h.1.1.1, h.1.1.2, h.1.2⟩
  have h := exists_mem_transformed (c := Ex.c8) (V := Nat) Ex.exHash
    [(⟨5, 0⟩, 1), (⟨7, 0⟩, 2), (⟨641, 0⟩, 3)]
    (.generic fun k _ => if k.id < 100 then .unchanged () else .removed ()) (fun s vs t' =>
    match vs[3]?, vs[2]? with
    | some t, some u =>
      Outcome.trie (p t u) ((ATrie.twmE (Cross.same Ex.exHash) (fun _ _ => ()) ()
        (TwmKinds.asking ⟨.unchanged (), .unchanged (), .removed ()⟩) .sequential t u).run s (fun _ _ => none) ()) &&
      Outcome.trie (p t u) ((ATrie.mwtE (Cross.same Ex.exHash) (fun _ _ => ()) ()
        (MwtKinds.asking ⟨.unchanged (), .removed (), .unchanged ()⟩) .sequential u t).run s (fun _ _ => none) ()) &&
      Outcome.trie (p t' u) ((ATrie.twtE (fun _ _ => ()) () Ex.exHash
        (TwtKinds.asking ⟨.generic () false, .unchanged (), .removed ()⟩) .sequential t' u).run s
          (Prog.stateless fun p => match p with
            | .left _ => none
            | .right _ => none
            | .both _ _ => some (.unchangedL ())) ()) &&
      Outcome.trie (p u u) ((ATrie.twtE (fun _ _ => ()) () Ex.exHash
        (TwtKinds.asking ⟨.generic () false, .removed (), .unchanged ()⟩) .sequential u u).run s
          (Prog.stateless fun p => match p with
            | .left _ => none
            | .right _ => none
            | .both _ _ => some (.unchangedR ())) ())
    | _, _ => false) (by decide +kernel)
  obtain ⟨s, vs, v, mem, h⟩ := h
  split at h
  · rename_i t u ht hu
    have ht := List.mem_append_left [v] (List.mem_of_getElem? ht)
    have hu := List.mem_append_left [v] (List.mem_of_getElem? hu)
    have hv : v ∈ vs ++ [v] := by simp
    simp only [Bool.and_eq_true] at h
    obtain ⟨⟨⟨h1, h2⟩, h3⟩, h4⟩ := h
    refine ⟨s, _, mem, ?_, ?_, ?_, ?_⟩
    · obtain ⟨t', r', s', st', hr, h⟩ := Outcome.trie_iff h1
      exact ⟨t, u, t', s', ht, hu, (hp s' h).1, hr, (hp s' h).2⟩
    · obtain ⟨t', r', s', st', hr, h⟩ := Outcome.trie_iff h2
      exact ⟨t, u, t', s', ht, hu, (hp s' h).1, hr, (hp s' h).2⟩
    · obtain ⟨t', r', s', st', hr, h⟩ := Outcome.trie_iff h3
      exact ⟨v, u, t', s', hv, hu, (hp s' h).1, hr, (hp s' h).2⟩
    · obtain ⟨t', r', s', st', hr, h⟩ := Outcome.trie_iff h4
      exact ⟨u, u, t', s', hu, hu, (hp s' h).1, hr, (hp s' h).2⟩
  · cases h

/-! ### C52 for joint operations whose other operand has no keys of its own

If no two keys of the kept map share a hash and all keys of the other map are keys of the kept map too, the joint
operations do return an equal map. -/

/-- Does the answer of `transform_with_transmuted`'s closure keep the left map's entry?  (Of an entry of the right map
    alone nothing is asked.) -/
def TwmAnswer.Keeps : (p : Case (K × V) (L × W)) → TwmAnswer K V L W R p → Prop
  | .left _, a => ∃ r, a = MapTransformResult.unchanged r
  | .right _, _ => True
  | .both _ _, a => ∃ r, a = MapTransformResult.unchanged r

/-- Does the answer of `transmute_with_transformed`'s closure keep the right map's entry? -/
def MwtAnswer.Keeps : (p : Case (K × V) (L × W)) → MwtAnswer K V L W R p → Prop
  | .left _, _ => True
  | .right _, a => ∃ r, a = MapTransformResult.unchanged r
  | .both _ _, a => ∃ r, a = MapTransformResult.unchanged r

/-- Does the answer of `transform_with_transformed`'s closure keep the left map's entry? -/
def TwtAnswer.KeepsLeft : (p : Case (K × V) (K × V)) → TwtAnswer K V R p → Prop
  | .left _, a => ∃ r, a = MapTransformResult.unchanged r
  | .right _, _ => True
  | .both _ _, a => ∃ r, a = MapJointTransformResult.unchangedL r ∨ a = MapJointTransformResult.unchangedLR r

/-- Does the answer of `transform_with_transformed`'s closure keep the right map's entry? -/
def TwtAnswer.KeepsRight : (p : Case (K × V) (K × V)) → TwtAnswer K V R p → Prop
  | .left _, _ => True
  | .right _, a => ∃ r, a = MapTransformResult.unchanged r
  | .both _ _, a => ∃ r, a = MapJointTransformResult.unchangedR r ∨ a = MapJointTransformResult.unchangedLR r

section
variable {x : Cross c K L} (laws : CrossLaws x)
include laws

/-- C52: if no two keys of the left map share a hash, all keys of the right map are keys of the left map, no part of the
    operation is a bulk removal, and all answers are `Unchanged`, `transform_with_transmuted` returns a map equal to
    the left one. -/
theorem C52_transform_with_transmuted_partial {s s' : Nat} {vs : List (ATrie c K V)} (h : Mem x.hash s vs)
    {t t' : ATrie c K V} (ht : t ∈ vs) {u : ATrie c L W} (hu : Reach c x.hash' u.erase)
    (nc : NoCollision x.hash t.erase.visit)
    (cov : ∀ b ∈ u.erase.visit, ∃ a ∈ t.erase.visit, x.eq a.1 b.1 = true) {reduce : R → R → R} {e r : R}
    {o : TwmKinds R} (ob : ∀ r, o.both ≠ .removed r) (ol : ∀ r, o.left ≠ .removed r) {par : Par}
    {env : (p : Case (K × V) (L × W)) → σ → Option (TwmAnswer K V L W R p × σ)}
    {st st' : σ} {l : List (Reply _ (TwmAnswer K V L W R))}
    (hr : (ATrie.twmE x reduce e o.asking par t u).run s env st = (.ret (((t', r), s'), st'), l))
    (keep : ∀ p a, ⟨p, some a⟩ ∈ l → TwmAnswer.Keeps p a) : t'.eq t = true := by
  obtain ⟨U, heap, hU⟩ := h.heap
  have once := C49_transform_with_transmuted laws reduce e o par (h.reach laws.left t ht) hu s env st
  rw [hr] at once
  obtain ⟨f, hf, hk⟩ := exists_answers_with TwmAnswer.Keeps
    (fun p => match p with
      | .left _ => MapTransformResult.unchanged e
      | .right _ => MapTransmuteResult.removed e
      | .both _ _ => MapTransformResult.unchanged e)
    (by intro p; cases p <;> first | exact ⟨_, rfl⟩ | trivial) once.once keep
  have sim := ATrie.twmE_keep laws reduce e (o.asking_rel f) (by
      cases hb : o.both with
      | removed r => exact absurd hb (ob r)
      | unchanged r => simp only [TwmKinds.answering, hb, MapTransform.map]; trivial
      | generic g =>
        simp only [TwmKinds.answering, hb, MapTransform.map]
        exact fun k v l w => hk (.both (k, v) (l, w))) (by
      cases hl : o.left with
      | removed r => exact absurd hl (ol r)
      | unchanged r => simp only [TwmKinds.answering, hl, MapTransform.map]; trivial
      | generic g =>
        simp only [TwmKinds.answering, hl, MapTransform.map]
        exact fun k v => hk (.left (k, v))) par (h.reach laws.left t ht).valid hu.valid (.of_noCollision nc) cov heap
    (hU t ht)
  obtain ⟨_, _, _, _, _, _, _, P⟩ := Sim.ok sim (Prog.eval_of_run hr hf)
  exact P

/-- C52: if no two keys of the right map share a hash, all keys of the left map are keys of the right map, no part of
    the operation is a bulk removal, and all answers are `Unchanged`, `transmute_with_transformed` returns a map equal
    to the right one. -/
theorem C52_transmute_with_transformed_partial {s s' : Nat} {vs : List (ATrie c L W)} (h : Mem x.hash' s vs)
    {t : ATrie c K V} (ht : Reach c x.hash t.erase) {u t' : ATrie c L W} (hu : u ∈ vs)
    (nc : NoCollision x.hash' u.erase.visit)
    (cov : ∀ a ∈ t.erase.visit, ∃ b ∈ u.erase.visit, x.eq a.1 b.1 = true) {reduce : R → R → R} {e r : R}
    {o : MwtKinds R} (ob : ∀ r, o.both ≠ .removed r) (or : ∀ r, o.right ≠ .removed r) {par : Par}
    {env : (p : Case (K × V) (L × W)) → σ → Option (MwtAnswer K V L W R p × σ)}
    {st st' : σ} {l : List (Reply _ (MwtAnswer K V L W R))}
    (hr : (ATrie.mwtE x reduce e o.asking par t u).run s env st = (.ret (((t', r), s'), st'), l))
    (keep : ∀ p a, ⟨p, some a⟩ ∈ l → MwtAnswer.Keeps p a) : t'.eq u = true := by
  obtain ⟨U, heap, hU⟩ := h.heap
  have once := C49_transmute_with_transformed laws reduce e o par ht (h.reach laws.right u hu) s env st
  rw [hr] at once
  obtain ⟨f, hf, hk⟩ := exists_answers_with MwtAnswer.Keeps
    (fun p => match p with
      | .left _ => MapTransmuteResult.removed e
      | .right _ => MapTransformResult.unchanged e
      | .both _ _ => MapTransformResult.unchanged e)
    (by intro p; cases p <;> first | exact ⟨_, rfl⟩ | trivial) once.once keep
  have sim := ATrie.mwtE_keep laws reduce e (o.asking_rel f) (by
      cases hb : o.both with
      | removed r => exact absurd hb (ob r)
      | unchanged r => simp only [MwtKinds.answering, hb, MapTransform.map]; trivial
      | generic g =>
        simp only [MwtKinds.answering, hb, MapTransform.map]
        exact fun k v l w => hk (.both (k, v) (l, w))) (by
      cases hl : o.right with
      | removed r => exact absurd hl (or r)
      | unchanged r => simp only [MwtKinds.answering, hl, MapTransform.map]; trivial
      | generic g =>
        simp only [MwtKinds.answering, hl, MapTransform.map]
        exact fun k v => hk (.right (k, v))) par ht.valid (h.reach laws.right u hu).valid (.of_noCollision nc)
    (fun a ha => by
      obtain ⟨b, hb, he⟩ := cov a ha
      exact ⟨b, hb, (laws.sym _ _).trans he⟩) heap (hU u hu)
  obtain ⟨_, _, _, _, _, _, _, P⟩ := Sim.ok sim (Prog.eval_of_run hr hf)
  exact P

end

/-- C52: if no two keys of the left map share a hash, all keys of the right map are keys of the left map, and all answers
    keep the left map's entry, `transform_with_transformed` returns a map equal to the left one.  (The operation for the
    keys of both maps is a closure or the bulk operation `UnchangedLR`; `UnchangedL` and `UnchangedR` are exchanged by
    the code, `C22_wrong_side`.) -/
theorem C52_transform_with_transformed_left_partial {s s' : Nat} {vs : List (ATrie c K V)} (laws : KeyLaws hash)
    (h : Mem hash s vs) {t u t' : ATrie c K V} (ht : t ∈ vs) (hu : u ∈ vs) (nc : NoCollision hash t.erase.visit)
    (cov : ∀ b ∈ u.erase.visit, ∃ a ∈ t.erase.visit, (a.1 == b.1) = true) {reduce : R → R → R} {e r : R}
    {o : TwtKinds R} (ob : o.both.isClosure = true ∨ ∃ r, o.both = .unchangedLR r) (ol : ∀ r, o.left ≠ .removed r)
    {par : Par} {env : (p : Case (K × V) (K × V)) → σ → Option (TwtAnswer K V R p × σ)}
    {st st' : σ} {l : List (Reply _ (TwtAnswer K V R))}
    (hr : (ATrie.twtE reduce e hash o.asking par t u).run s env st = (.ret (((t', r), s'), st'), l))
    (keep : ∀ p a, ⟨p, some a⟩ ∈ l → TwtAnswer.KeepsLeft p a) : t'.eq t = true := by
  obtain ⟨U, heap, hU⟩ := h.heap
  have once := C49_transform_with_transformed reduce e o par (h.reach laws t ht) (h.reach laws u hu) s env st
  rw [hr] at once
  obtain ⟨f, hf, hk⟩ := exists_answers_with TwtAnswer.KeepsLeft
    (fun p => match p with
      | .left _ => MapTransformResult.unchanged e
      | .right _ => MapTransformResult.unchanged e
      | .both _ _ => MapJointTransformResult.unchangedLR e)
    (by intro p; cases p <;> first | exact ⟨_, rfl⟩ | exact ⟨_, .inr rfl⟩ | trivial) once.once keep
  have sim := ATrie.twtE_keepL laws reduce e (o.asking_rel f) (by
      cases hb : o.both with
      | generic g b =>
        simp only [TwtKinds.answering, hb, MapJointTransform.map]
        intro k v l w
        obtain ⟨r, hr⟩ := hk (.both (k, v) (l, w))
        simp only [MapJointTransform.call]
        rcases hr with hr | hr <;> (rw [hr]; trivial)
      | unchangedLR r => simp only [TwtKinds.answering, hb, MapJointTransform.map]; trivial
      | _ => rw [hb] at ob; rcases ob with ob | ⟨_, ob⟩ <;> cases ob) (by
      cases hl : o.left with
      | removed r => exact absurd hl (ol r)
      | unchanged r => simp only [TwtKinds.answering, hl, MapTransform.map]; trivial
      | generic g =>
        simp only [TwtKinds.answering, hl, MapTransform.map]
        exact fun k v => hk (.left (k, v))) par (h.reach laws t ht).valid (h.reach laws u hu).valid
    (.of_noCollision nc) cov heap (hU t ht) (hU u hu)
  obtain ⟨_, _, _, _, _, _, _, P⟩ := Sim.ok sim (Prog.eval_of_run hr hf)
  exact P

/-- C52: if no two keys of the right map share a hash, all keys of the left map are keys of the right map, and all
    answers keep the right map's entry, `transform_with_transformed` returns a map equal to the right one, or else the
    maps have the same keys, all answers were `UnchangedLR` and it returns a map equal to the left one. -/
theorem C52_transform_with_transformed_right_partial {s s' : Nat} {vs : List (ATrie c K V)} (laws : KeyLaws hash)
    (h : Mem hash s vs) {t u t' : ATrie c K V} (ht : t ∈ vs) (hu : u ∈ vs) (nc : NoCollision hash u.erase.visit)
    (cov : ∀ a ∈ t.erase.visit, ∃ b ∈ u.erase.visit, (a.1 == b.1) = true) {reduce : R → R → R} {e r : R}
    {o : TwtKinds R} (ob : o.both.isClosure = true ∨ ∃ r, o.both = .unchangedLR r) (or : ∀ r, o.right ≠ .removed r)
    {par : Par} {env : (p : Case (K × V) (K × V)) → σ → Option (TwtAnswer K V R p × σ)}
    {st st' : σ} {l : List (Reply _ (TwtAnswer K V R))}
    (hr : (ATrie.twtE reduce e hash o.asking par t u).run s env st = (.ret (((t', r), s'), st'), l))
    (keep : ∀ p a, ⟨p, some a⟩ ∈ l → TwtAnswer.KeepsRight p a) :
    t'.eq u = true ∨ t'.eq t = true ∧ (∀ b ∈ u.erase.visit, ∃ a ∈ t.erase.visit, (a.1 == b.1) = true) ∧
      ∀ p q a, ⟨.both p q, some a⟩ ∈ l → ∃ r, a = MapJointTransformResult.unchangedLR r := by
  obtain ⟨U, heap, hU⟩ := h.heap
  have once := C49_transform_with_transformed reduce e o par (h.reach laws t ht) (h.reach laws u hu) s env st
  rw [hr] at once
  obtain ⟨f, hf, hk⟩ := exists_answers_with TwtAnswer.KeepsRight
    (fun p => match p with
      | .left _ => MapTransformResult.unchanged e
      | .right _ => MapTransformResult.unchanged e
      | .both _ _ => MapJointTransformResult.unchangedLR e)
    (by intro p; cases p <;> first | exact ⟨_, rfl⟩ | exact ⟨_, .inr rfl⟩ | trivial) once.once keep
  have sim := ATrie.twtE_keepR laws reduce e (o.asking_rel f) (by
      cases hb : o.both with
      | generic g b =>
        simp only [TwtKinds.answering, hb, MapJointTransform.map]
        intro k v l w
        obtain ⟨r, hr⟩ := hk (.both (k, v) (l, w))
        simp only [MapJointTransform.call]
        rcases hr with hr | hr <;> (rw [hr]; trivial)
      | unchangedLR r => simp only [TwtKinds.answering, hb, MapJointTransform.map]; trivial
      | _ => rw [hb] at ob; rcases ob with ob | ⟨_, ob⟩ <;> cases ob) (by
      cases hl : o.right with
      | removed r => exact absurd hl (or r)
      | unchanged r => simp only [TwtKinds.answering, hl, MapTransform.map]; trivial
      | generic g =>
        simp only [TwtKinds.answering, hl, MapTransform.map]
        exact fun k v => hk (.right (k, v))) par (h.reach laws t ht).valid (h.reach laws u hu).valid
    (.of_noCollision nc) (fun a ha => by
      obtain ⟨b, hb, he⟩ := cov a ha
      exact ⟨b, hb, ((CrossLaws.same laws).sym _ _).trans he⟩) heap (hU t ht) (hU u hu)
  obtain ⟨_, _, _, _, _, _, _, P⟩ := Sim.ok sim (Prog.eval_of_run hr hf)
  rcases P with P | ⟨P, all⟩
  · exact .inl P
  · refine .inr ⟨P, fun b hb => ?_, fun p q a ha => ?_⟩
    · obtain ⟨a, ha, he, _⟩ := all.2 b hb
      exact ⟨a, ha, he⟩
    · have j := (CrossLaws.same laws).joinable (h.reach laws t ht).distinct (h.reach laws u hu).distinct
      obtain ⟨hc, hask⟩ := List.mem_filter.1 (once.only _ (List.mem_map.2 ⟨_, ha, rfl⟩))
      obtain ⟨hp, hq, he⟩ := (mem_jointCases j _).1 hc
      obtain ⟨q', hq', he', r', hr'⟩ := all.1 p hp
      obtain rfl := j.ur p hp q hq q' hq' he he'
      refine ⟨r', ?_⟩
      rw [← hf (.both p q) a ha]
      cases hb : o.both with
      | generic g b => simp only [TwtKinds.answering, hb, MapJointTransform.map, MapJointTransform.call] at hr'; exact hr'
      | _ => rw [TwtKinds.asks, hb] at hask; cases hask

/-- The hypotheses hold of non-trivial runs: a map without colliding keys and one with some of its keys, with closures
    that count; the second map is on the left or right, and the kept map comes back. -/
example : ∃ s vs, Mem Ex.exHash (c := Ex.c8) (V := Nat) s vs ∧ (
    match vs[2]?, vs[1]? with
    | some t, some u =>
        let env : (p : Case (Ex.Tk × Nat) (Ex.Tk × Nat)) → Nat →
            Option (TwtAnswer Ex.Tk Nat Unit p × Nat) := fun p n =>
          match p with
          | .left _ => some (.unchanged (), n + 1)
          | .right _ => some (.unchanged (), n + 1)
          | .both _ _ => some (.unchangedLR (), n + 1)
        let envL : (p : Case (Ex.Tk × Nat) (Ex.Tk × Nat)) → Nat →
            Option (TwmAnswer Ex.Tk Nat Ex.Tk Nat Unit p × Nat) := fun p n =>
          match p with
          | .left _ => some (.unchanged (), n + 1)
          | .right _ => none
          | .both _ _ => some (.unchanged (), n + 1)
        let envR : (p : Case (Ex.Tk × Nat) (Ex.Tk × Nat)) → Nat →
            Option (MwtAnswer Ex.Tk Nat Ex.Tk Nat Unit p × Nat) := fun p n =>
          match p with
          | .left _ => none
          | .right _ => some (.unchanged (), n + 1)
          | .both _ _ => some (.unchanged (), n + 1)
        decide (t.erase.visit.length = 2) && decide (u.erase.visit.length = 1) &&
        (t.erase.visit.all fun a => (t.erase.visit.countP fun b => Ex.exHash b.1 == Ex.exHash a.1) == 1) &&
        (u.erase.visit.all fun b => t.erase.visit.any fun a => a.1 == b.1) &&
        Outcome.trie (fun t' _ => t'.eq t && !t'.eq u)
          ((ATrie.twmE (Cross.same Ex.exHash) (fun _ _ => ()) () (TwmKinds.asking ⟨.generic (), .generic (), .generic ()⟩)
            .sequential t u).run s envL 0) &&
        Outcome.trie (fun t' _ => t'.eq t && !t'.eq u)
          ((ATrie.mwtE (Cross.same Ex.exHash) (fun _ _ => ()) () (MwtKinds.asking ⟨.generic (), .generic (), .generic ()⟩)
            .sequential u t).run s envR 0) &&
        Outcome.trie (fun t' _ => t'.eq t && !t'.eq u)
          ((ATrie.twtE (fun _ _ => ()) () Ex.exHash (TwtKinds.asking ⟨.generic () false, .generic (), .generic ()⟩)
            .sequential t u).run s env 0) &&
        Outcome.trie (fun t' _ => t'.eq t && !t'.eq u)
          ((ATrie.twtE (fun _ _ => ()) () Ex.exHash (TwtKinds.asking ⟨.generic () false, .generic (), .generic ()⟩)
            .sequential u t).run s env 0)
    | _, _ => false) = true :=
  exists_mem Ex.exHash Ex.entries _ (by decide +kernel)

/-- The hypotheses hold of non-trivial runs: on a map with six entries, with a collision list, `transform` with a closure
    that answers `Unchanged` and counts allocates nothing and returns an equal map; with one that removes the first
    entry it is shown, a different map, with new objects; and the joint operations return. -/
example : ∃ s vs, Mem Ex.exHash (c := Ex.c8) (V := Nat) s vs ∧ (
    match vs[6]?, vs[2]? with
    | some t, some u =>
        let keep : Ex.Tk × Nat → Nat → Option (MapTransformResult Nat Unit × Nat) := fun _ n =>
          some (.unchanged (), n + 1)
        let drop : Ex.Tk × Nat → Nat → Option (MapTransformResult Nat Unit × Nat) := fun _ n =>
          some (if n = 0 then .removed () else .unchanged (), n + 1)
        let envX : Ex.Tk × Nat → Nat → Option (MapTransmuteResult Nat Nat Unit × Nat) := fun p n =>
          some (.transmuted p.1.id p.2 (), n + 1)
        let env : (p : Case (Ex.Tk × Nat) (Ex.Tk × Nat)) → Nat →
            Option (TwtAnswer Ex.Tk Nat Unit p × Nat) := fun p n =>
          match p with
          | .left _ => some (.unchanged (), n + 1)
          | .right _ => none
          | .both _ _ => some (if n % 2 = 0 then .unchangedLR () else .removed (), n + 1)
        Outcome.trie (fun t' s' => t'.eq t && s' == s)
          ((t.transformE (fun _ _ => ()) () (.asking (.generic ())) .sequential).run s keep 0) &&
        Outcome.trie (fun t' s' => !t'.eq t && decide (s < s'))
          ((t.transformE (fun _ _ => ()) () (.asking (.generic ())) .sequential).run s drop 0) &&
        Outcome.trie (fun t' s' => decide (t'.erase.size = 6) && decide (s < s'))
          ((t.transmuteE (fun _ _ => ()) () (.asking (.generic ()))).run s envX 0) &&
        Outcome.trie (fun t' s' => !t'.eq t && decide (s < s'))
          ((ATrie.twtE (fun _ _ => ()) () Ex.exHash (TwtKinds.asking ⟨.generic () false, .generic (), .generic ()⟩)
            .middleIndex t u).run s env 0)
    | _, _ => false) = true :=
  exists_mem Ex.exHash Ex.entries _ (by decide +kernel)

end HT
