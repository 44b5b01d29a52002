import Verif.EffSpec
import Verif.EffSimTrie
import Verif.EffCallsTrie
/-! # Runs of the bulk and joint operations with arbitrary closures -/
namespace HT

variable {K V L W S X R : Type} {Q : Type} {A : Q → Type} {α σ : Type}

/-! ### Runs in general -/

theorem Tree.Calls.run {P : α → Prop} {x : Tree Q A α} {l : List Q} (h : x.Calls P l)
    (env : (q : Q) → σ → Option (A q × σ)) (st : σ) :
    ∃ rest, ((x.run env st).2.map Sigma.fst ++ rest).Perm l ∧ ∀ a, (x.run env st).1 = .ret a → rest = [] := by
  induction x generalizing l st with
  | ret a => obtain ⟨rfl, _⟩ := h; exact ⟨[], .refl _, fun _ _ => rfl⟩
  | panic p => exact ⟨l, .refl _, fun _ h => by cases h⟩
  | diverge => exact ⟨l, .refl _, fun _ h => by cases h⟩
  | ask q k ih =>
    obtain ⟨l', h1, h2⟩ := h
    rw [Tree.run]
    cases he : env q st with
    | none => exact ⟨l', h1.symm, fun _ h => by cases h⟩
    | some p =>
      obtain ⟨a, st'⟩ := p
      obtain ⟨rest, h3, h4⟩ := ih a (h2 a) st'
      exact ⟨rest, (h3.cons q).trans h1.symm, h4⟩

theorem Tree.run_answered (env : (q : Q) → σ → Option (A q × σ)) (x : Tree Q A α) (st : σ) :
    ((∀ q, (x.run env st).1 ≠ .closure q) → ∀ p ∈ (x.run env st).2, p.2.isSome) ∧
    ∀ q, (x.run env st).1 = .closure q →
      ∃ before, (x.run env st).2 = before ++ [⟨q, none⟩] ∧ ∀ p ∈ before, p.2.isSome := by
  induction x generalizing st with
  | ret a => exact ⟨fun _ p hp => (by cases hp), fun _ h => (by cases h)⟩
  | panic p => exact ⟨fun _ p hp => (by cases hp), fun _ h => (by cases h)⟩
  | diverge => exact ⟨fun _ p hp => (by cases hp), fun _ h => (by cases h)⟩
  | ask q k ih =>
    rw [Tree.run]
    cases he : env q st with
    | none =>
      refine ⟨fun h => absurd rfl (h q), fun q' h => ⟨[], ?_, fun p hp => by cases hp⟩⟩
      injection h with h
      subst h; rfl
    | some p =>
      obtain ⟨a, st'⟩ := p
      obtain ⟨h1, h2⟩ := ih a st'
      refine ⟨fun h p hp => ?_, fun q' h => ?_⟩
      · rcases List.mem_cons.1 hp with hp | hp
        · rw [hp]; rfl
        · exact h1 h p hp
      · obtain ⟨before, h3, h4⟩ := h2 q' h
        refine ⟨_ :: before, by simp only [h3]; rfl, fun p hp => ?_⟩
        rcases List.mem_cons.1 hp with hp | hp
        · rw [hp]; rfl
        · exact h4 p hp

theorem Prog.Calls.once {P : α → Prop} {x : Prog Q A α} {l : List Q} (h : x.Calls l P) (hn : l.Nodup) (s : Nat)
    (env : (q : Q) → σ → Option (A q × σ)) (st : σ) : CallsOnce (x.run s env st) l := by
  obtain ⟨rest, h1, h2⟩ := (h s).run env st
  have hn' := h1.nodup_iff.2 hn
  have h5 := Tree.run_answered env (x s) st
  refine ⟨hn'.sublist (List.sublist_append_left _ _), fun q hq => h1.subset (List.mem_append_left _ hq), ?_, h5.1, h5.2⟩
  intro a ha
  rw [h2 a ha, List.append_nil] at h1
  exact h1

/-- Replies to different calls can be a function's. -/
theorem exists_answers (d : (q : Q) → A q) {l : List (Reply Q A)} (h : (l.map Sigma.fst).Nodup) :
    ∃ f, Answers f l := by
  classical
  induction l with
  | nil => exact ⟨d, fun _ _ h => by cases h⟩
  | cons r l ih =>
    obtain ⟨hr, hn⟩ := List.nodup_cons.1 h
    obtain ⟨f, hf⟩ := ih hn
    obtain ⟨q, o⟩ := r
    cases o with
    | none =>
      refine ⟨f, fun q' a' hm => ?_⟩
      rcases List.mem_cons.1 hm with hm | hm
      · cases hm
      · exact hf q' a' hm
    | some a =>
      refine ⟨fun q' => if hq : q' = q then hq ▸ a else f q', fun q' a' hm => ?_⟩
      rcases List.mem_cons.1 hm with h1 | h2
      · cases h1; simp
      · have : q' ≠ q := fun e => hr (List.mem_map.2 ⟨_, h2, e⟩)
        simp only [this, dif_neg, not_false_iff]
        exact hf q' a' h2

/-- A run against the pure functions that answer as the closures did. -/
theorem Tree.run_eval (env : (q : Q) → σ → Option (A q × σ)) {f : (q : Q) → A q} (x : Tree Q A α) (st : σ)
    (hf : Answers f (x.run env st).2) :
    match (x.run env st).1 with
    | .ret a => x.eval f = .ok a.1
    | .panic p => x.eval f = .panic p
    | .diverge => x.eval f = .diverge
    | .closure q => ∃ before, (x.run env st).2 = before ++ [⟨q, none⟩] := by
  induction x generalizing st with
  | ret a => rfl
  | panic p => rfl
  | diverge => rfl
  | ask q k ih =>
    rw [Tree.run] at hf ⊢
    cases he : env q st with
    | none => exact ⟨[], rfl⟩
    | some p =>
      obtain ⟨a, st'⟩ := p
      rw [he] at hf
      have hq : f q = a := hf q a (List.mem_cons_self ..)
      have := ih a st' fun q' a' h => hf q' a' (List.mem_cons_of_mem _ h)
      rw [Tree.eval, hq]
      dsimp only
      generalize ((k a).run env st').1 = o at this
      cases o with
      | ret a => exact this
      | panic p => exact this
      | diverge => exact this
      | closure q =>
        obtain ⟨before, hb⟩ := this
        exact ⟨_ :: before, by rw [hb]; rfl⟩

/-- Code that returned, with pure functions in the place of the closures. -/
theorem Prog.eval_of_run {env : (q : Q) → σ → Option (A q × σ)} {f : (q : Q) → A q} {x : Prog Q A α} {s s' : Nat}
    {st st' : σ} {a : α} {l : List (Reply Q A)} (hr : x.run s env st = (.ret ((a, s'), st'), l)) (hf : Answers f l) :
    Prog.eval f x s = .ok (a, s') := by
  have := Tree.run_eval env (f := f) (x s) st (by unfold Prog.run at hr; rw [hr]; exact hf)
  unfold Prog.run at hr
  rw [hr] at this
  exact this

/-- What a run says when the code with pure functions is that of the plain model. -/
theorem PSim.like {c : Cfg} {U : ANode c.n K V → Prop} {s : Nat} {f : (q : Q) → A q} {x : Prog Q A (ATrie c K V × R)}
    {y : Res (Trie c K V × R)} (sim : PSim f U s x y OutP) (env : (q : Q) → σ → Option (A q × σ)) (st : σ)
    (hf : Answers f (x.run s env st).2) : Outcome.Like (x.run s env st) y := by
  have hrun := Tree.run_eval env (x s) st hf
  have hsim : (Prog.eval f x s).map (fun r => (r.1.1.erase, r.1.2)) = y := by
    have := Sim.eraseEq (f := fun r => (r.1.erase, r.2)) (g := id) sim (by
      intro U' s' a b P
      exact Prod.ext P.2.1 P.2.2)
    rw [this]
    cases y <;> rfl
  unfold Outcome.Like
  unfold Prog.run at hf ⊢
  unfold Prog.eval at hsim
  generalize ((x s).run env st).1 = o at hrun
  cases o with
  | ret a => rw [← hsim, hrun]; rfl
  | panic p => rw [← hsim, hrun]; rfl
  | diverge => rw [← hsim, hrun]; rfl
  | closure q => exact hrun

/-! ### The operations of a kind -/

theorem MapTransform.asking_rel (o : MapTransform R Unit) (f : K × V → MapTransformResult V R) :
    o.asking.Rel f (o.answering f) := by
  cases o with
  | generic _ => exact .generic fun _ _ => rfl
  | unchanged r => exact .unchanged r
  | removed r => exact .removed r

theorem MapTransform.asking_asks (o : MapTransform R Unit) :
    (o.asking : MapTransform R (K → V → _)).Asks (fun p => o.expected [p]) := by
  cases o with
  | generic _ => exact .generic fun k v => .ask (k, v)
  | unchanged r => exact .unchanged r fun _ => rfl
  | removed r => exact .removed r fun _ => rfl

theorem MapTransform.expected_flatMap (o : MapTransform R Unit) (l : List (K × V)) :
    (l.flatMap fun p => o.expected [p]) = o.expected l := by
  cases o with
  | generic _ => simp [MapTransform.expected, MapTransform.isClosure]
  | unchanged r => simp [MapTransform.expected, MapTransform.isClosure]
  | removed r => simp [MapTransform.expected, MapTransform.isClosure]

theorem MapTransform.expected_nodup (o : MapTransform R Unit) {l : List (K × V)} (h : l.Nodup) :
    (o.expected l).Nodup := by
  unfold MapTransform.expected
  split
  · exact h
  · exact List.nodup_nil

theorem MapTransmute.asking_rel (o : MapTransmute R Unit) (f : K × V → MapTransmuteResult S X R) :
    o.asking.Rel f (o.answering f) := by
  cases o with
  | generic _ => exact .generic fun _ _ => rfl
  | removed r => exact .removed r

theorem MapTransmute.asking_asks (o : MapTransmute R Unit) :
    (o.asking : MapTransmute R (K → V → Prog _ _ (MapTransmuteResult S X R))).Asks (fun p => o.expected [p]) := by
  cases o with
  | generic _ => exact .generic fun k v => .ask (k, v)
  | removed r => exact .removed r fun _ => rfl

theorem MapTransmute.expected_flatMap (o : MapTransmute R Unit) (l : List (K × V)) :
    (l.flatMap fun p => o.expected [p]) = o.expected l := by
  cases o with
  | generic _ => simp [MapTransmute.expected, MapTransmute.isClosure]
  | removed r => simp [MapTransmute.expected, MapTransmute.isClosure]

theorem MapTransmute.expected_nodup (o : MapTransmute R Unit) {l : List (K × V)} (h : l.Nodup) :
    (o.expected l).Nodup := by
  unfold MapTransmute.expected
  split
  · exact h
  · exact List.nodup_nil

/-- The calls for one case. -/
def callsIf {α : Type} (p : α → Bool) (a : α) : List α := if p a then [a] else []

theorem callsIf_flatMap {α : Type} (p : α → Bool) (l : List α) : l.flatMap (callsIf p) = l.filter p := by
  induction l with
  | nil => rfl
  | cons a l ih =>
    rw [List.flatMap_cons, ih, callsIf]
    cases h : p a <;> simp [h]

theorem TwmKinds.asking_rel (o : TwmKinds R) (f : (p : Case (K × V) (L × W)) → TwmAnswer K V L W R p) : o.asking.Rel f (o.answering f) := by
  obtain ⟨b, l, r⟩ := o
  refine ⟨?_, ?_, ?_⟩
  · cases b with
    | generic _ => exact .generic fun _ _ _ _ => rfl
    | unchanged r => exact .unchanged r
    | removed r => exact .removed r
  · cases l with
    | generic _ => exact .generic fun _ _ => rfl
    | unchanged r => exact .unchanged r
    | removed r => exact .removed r
  · cases r with
    | generic _ => exact .generic fun _ _ => rfl
    | removed r => exact .removed r

theorem TwmKinds.asking_asks (o : TwmKinds R) :
    (o.asking : TwmOpsM _ (TwmAnswer K V L W R) K V L W R).Asks (callsIf o.asks) := by
  obtain ⟨b, l, r⟩ := o
  refine ⟨?_, ?_, ?_⟩
  · cases b with
    | generic _ => exact .generic fun k v l w => Prog.Calls.ask (A := TwmAnswer K V L W R) (Case.both (k, v) (l, w))
    | unchanged r => exact .unchanged r fun _ _ => rfl
    | removed r => exact .removed r fun _ _ => rfl
  · cases l with
    | generic _ => exact .generic fun k v => Prog.Calls.ask (A := TwmAnswer K V L W R) (Case.left (k, v))
    | unchanged r => exact .unchanged r fun _ => rfl
    | removed r => exact .removed r fun _ => rfl
  · cases r with
    | generic _ => exact .generic fun k v => Prog.Calls.ask (A := TwmAnswer K V L W R) (Case.right (k, v))
    | removed r => exact .removed r fun _ => rfl

theorem MwtKinds.asking_rel (o : MwtKinds R) (f : (p : Case (K × V) (L × W)) → MwtAnswer K V L W R p) : o.asking.Rel f (o.answering f) := by
  obtain ⟨b, l, r⟩ := o
  refine ⟨?_, ?_, ?_⟩
  · cases b with
    | generic _ => exact .generic fun _ _ _ _ => rfl
    | unchanged r => exact .unchanged r
    | removed r => exact .removed r
  · cases l with
    | generic _ => exact .generic fun _ _ => rfl
    | removed r => exact .removed r
  · cases r with
    | generic _ => exact .generic fun _ _ => rfl
    | unchanged r => exact .unchanged r
    | removed r => exact .removed r

theorem MwtKinds.asking_asks (o : MwtKinds R) :
    (o.asking : MwtOpsM _ (MwtAnswer K V L W R) K V L W R).Asks (callsIf o.asks) := by
  obtain ⟨b, l, r⟩ := o
  refine ⟨?_, ?_, ?_⟩
  · cases b with
    | generic _ => exact .generic fun k v l w => Prog.Calls.ask (A := MwtAnswer K V L W R) (Case.both (k, v) (l, w))
    | unchanged r => exact .unchanged r fun _ _ => rfl
    | removed r => exact .removed r fun _ _ => rfl
  · cases l with
    | generic _ => exact .generic fun k v => Prog.Calls.ask (A := MwtAnswer K V L W R) (Case.left (k, v))
    | removed r => exact .removed r fun _ => rfl
  · cases r with
    | generic _ => exact .generic fun k v => Prog.Calls.ask (A := MwtAnswer K V L W R) (Case.right (k, v))
    | unchanged r => exact .unchanged r fun _ => rfl
    | removed r => exact .removed r fun _ => rfl

theorem MwmKinds.asking_rel (o : MwmKinds R) (f : (p : Case (K × V) (L × W)) → MwmAnswer K V L W S X R p) : o.asking.Rel f (o.answering f) := by
  obtain ⟨b, l, r⟩ := o
  refine ⟨?_, ?_, ?_⟩
  · cases b with
    | generic _ => exact .generic fun _ _ _ _ => rfl
    | removed r => exact .removed r
  · cases l with
    | generic _ => exact .generic fun _ _ => rfl
    | removed r => exact .removed r
  · cases r with
    | generic _ => exact .generic fun _ _ => rfl
    | removed r => exact .removed r

theorem MwmKinds.asking_asks (o : MwmKinds R) :
    (o.asking : MwmOpsM _ (MwmAnswer K V L W S X R) K V L W S X R).Asks (callsIf o.asks) := by
  obtain ⟨b, l, r⟩ := o
  refine ⟨?_, ?_, ?_⟩
  · cases b with
    | generic _ => exact .generic fun k v l w => Prog.Calls.ask (A := MwmAnswer K V L W S X R) (Case.both (k, v) (l, w))
    | removed r => exact .removed r fun _ _ => rfl
  · cases l with
    | generic _ => exact .generic fun k v => Prog.Calls.ask (A := MwmAnswer K V L W S X R) (Case.left (k, v))
    | removed r => exact .removed r fun _ => rfl
  · cases r with
    | generic _ => exact .generic fun k v => Prog.Calls.ask (A := MwmAnswer K V L W S X R) (Case.right (k, v))
    | removed r => exact .removed r fun _ => rfl

theorem TwtKinds.asking_rel (o : TwtKinds R) (f : (p : Case (K × V) (K × V)) → TwtAnswer K V R p) : o.asking.Rel f (o.answering f) := by
  obtain ⟨b, l, r⟩ := o
  refine ⟨?_, ?_, ?_⟩
  · cases b with
    | generic _ _ => exact .generic false fun _ _ _ _ => rfl
    | unchangedLR r => exact .unchangedLR r
    | unchangedL r => exact .unchangedL r
    | unchangedR r => exact .unchangedR r
    | removed r => exact .removed r
  · cases l with
    | generic _ => exact .generic fun _ _ => rfl
    | unchanged r => exact .unchanged r
    | removed r => exact .removed r
  · cases r with
    | generic _ => exact .generic fun _ _ => rfl
    | unchanged r => exact .unchanged r
    | removed r => exact .removed r

theorem TwtKinds.asking_asks (o : TwtKinds R) :
    (o.asking : TwtOpsM _ (TwtAnswer K V R) K V R).Asks (callsIf o.asks) := by
  obtain ⟨b, l, r⟩ := o
  refine ⟨?_, ?_, ?_⟩
  · cases b with
    | generic _ _ => exact .plain fun k v l w => Prog.Calls.ask (A := TwtAnswer K V R) (Case.both (k, v) (l, w))
    | unchangedLR r => exact .unchangedLR r fun _ _ => rfl
    | unchangedL r => exact .unchangedL r fun _ _ => rfl
    | unchangedR r => exact .unchangedR r fun _ _ => rfl
    | removed r => exact .removed r fun _ _ => rfl
  · cases l with
    | generic _ => exact .generic fun k v => Prog.Calls.ask (A := TwtAnswer K V R) (Case.left (k, v))
    | unchanged r => exact .unchanged r fun _ => rfl
    | removed r => exact .removed r fun _ => rfl
  · cases r with
    | generic _ => exact .generic fun k v => Prog.Calls.ask (A := TwtAnswer K V R) (Case.right (k, v))
    | unchanged r => exact .unchanged r fun _ => rfl
    | removed r => exact .removed r fun _ => rfl

/-! ### Tries -/

section
variable {c : Cfg} [BEq K] {hash : K → BitVec c.w}

theorem ATrie.transformE_once (reduce : R → R → R) (e : R) (o : MapTransform R Unit) (par : Par) {t : ATrie c K V}
    (h : Reach c hash t.erase) (s : Nat) (env : (p : K × V) → σ → Option (MapTransformResult V R × σ)) (st : σ) :
    CallsOnce ((t.transformE reduce e o.asking par).run s env st) (o.expected t.erase.visit) := by
  refine Prog.Calls.once (P := fun _ => True) ?_ (o.expected_nodup (distinct_nodup h.laws h.distinct)) s env st
  refine Prog.Calls.eq ?_ (o.expected_flatMap _)
  refine .bindEnd (ANode.transformE_calls reduce e o.asking_asks par t.root h.valid) fun r _ => ?_
  cases r with
  | unchanged r => exact .pureT
  | node m r => exact .pureT
  | removed r => exact .bindNil .al fun _ _ => .pureT

theorem ATrie.transmuteE_once (reduce : R → R → R) (e : R) (o : MapTransmute R Unit) {t : ATrie c K V}
    (h : Reach c hash t.erase) (s : Nat) (env : (p : K × V) → σ → Option (MapTransmuteResult S X R × σ)) (st : σ) :
    CallsOnce ((t.transmuteE reduce e o.asking).run s env st) (o.expected t.erase.visit) := by
  refine Prog.Calls.once (P := fun _ => True) ?_ (o.expected_nodup (distinct_nodup h.laws h.distinct)) s env st
  refine Prog.Calls.eq ?_ (o.expected_flatMap _)
  refine .bindEnd (ANode.transmuteE_calls reduce e o.asking_asks t.root h.valid) fun r _ => ?_
  cases r with
  | node m r => exact .pureT
  | removed r => exact .bindNil .al fun _ _ => .pureT

theorem cases_nodup [BEq L] {x : Cross c K L} {as : List (K × V)} {bs : List (L × W)} (laws : CrossLaws x)
    (ha : DistinctKeys as) (hb : DistinctKeys bs) : (x.cases as bs).Nodup :=
  nodup_jointCases (distinct_nodup laws.left ha) (distinct_nodup laws.right hb)

theorem ATrie.twmE_once [BEq L] {x : Cross c K L} (laws : CrossLaws x) (reduce : R → R → R) (e : R) (o : TwmKinds R) (par : Par)
    {t : ATrie c K V} {u : ATrie c L W} (ht : Reach c x.hash t.erase) (hu : Reach c x.hash' u.erase) (s : Nat)
    (env : (p : Case (K × V) (L × W)) → σ → Option (TwmAnswer K V L W R p × σ)) (st : σ) :
    CallsOnce ((ATrie.twmE x reduce e o.asking par t u).run s env st)
      ((x.cases t.erase.visit u.erase.visit).filter o.asks) := by
  refine Prog.Calls.once (P := fun _ => True) ?_ ((cases_nodup laws ht.distinct hu.distinct).filter _) s env st
  refine Prog.Calls.eq ?_ (callsIf_flatMap _ _)
  refine .bindEnd (ANode.twm_calls laws reduce e o.asking_asks par t.root u.root 0 ht.valid hu.valid) fun r _ => ?_
  cases r with
  | unchanged r => exact .pureT
  | node m r => exact .pureT
  | removed r => exact .bindNil .al fun _ _ => .pureT

theorem ATrie.mwtE_once [BEq L] {x : Cross c K L} (laws : CrossLaws x) (reduce : R → R → R) (e : R) (o : MwtKinds R) (par : Par)
    {t : ATrie c K V} {u : ATrie c L W} (ht : Reach c x.hash t.erase) (hu : Reach c x.hash' u.erase) (s : Nat)
    (env : (p : Case (K × V) (L × W)) → σ → Option (MwtAnswer K V L W R p × σ)) (st : σ) :
    CallsOnce ((ATrie.mwtE x reduce e o.asking par t u).run s env st)
      ((x.cases t.erase.visit u.erase.visit).filter o.asks) := by
  refine Prog.Calls.once (P := fun _ => True) ?_ ((cases_nodup laws ht.distinct hu.distinct).filter _) s env st
  refine Prog.Calls.eq ?_ (callsIf_flatMap _ _)
  refine .bindEnd (ANode.mwt_calls laws reduce e o.asking_asks par t.root u.root 0 ht.valid hu.valid) fun r _ => ?_
  cases r with
  | unchanged r => exact .pureT
  | node m r => exact .pureT
  | removed r => exact .bindNil .al fun _ _ => .pureT

theorem ATrie.mwmE_once [BEq L] {x : Cross c K L} (laws : CrossLaws x) (reduce : R → R → R) (e : R) (o : MwmKinds R)
    {t : ATrie c K V} {u : ATrie c L W} (ht : Reach c x.hash t.erase) (hu : Reach c x.hash' u.erase) (s : Nat)
    (env : (p : Case (K × V) (L × W)) → σ → Option (MwmAnswer K V L W S X R p × σ)) (st : σ) :
    CallsOnce ((ATrie.mwmE x reduce e o.asking t u).run s env st)
      ((x.cases t.erase.visit u.erase.visit).filter o.asks) := by
  refine Prog.Calls.once (P := fun _ => True) ?_ ((cases_nodup laws ht.distinct hu.distinct).filter _) s env st
  refine Prog.Calls.eq ?_ (callsIf_flatMap _ _)
  refine .bindEnd (ANode.mwm_calls laws reduce e o.asking_asks t.root u.root 0 ht.valid hu.valid) fun r _ => ?_
  cases r with
  | node m r => exact .pureT
  | removed r => exact .bindNil .al fun _ _ => .pureT

theorem ATrie.twtE_once (reduce : R → R → R) (e : R) (o : TwtKinds R) (par : Par) {t u : ATrie c K V}
    (ht : Reach c hash t.erase) (hu : Reach c hash u.erase) (s : Nat)
    (env : (p : Case (K × V) (K × V)) → σ → Option (TwtAnswer K V R p × σ)) (st : σ) :
    CallsOnce ((ATrie.twtE reduce e hash o.asking par t u).run s env st)
      (((Cross.same hash).cases t.erase.visit u.erase.visit).filter o.asks) := by
  refine Prog.Calls.once (P := fun _ => True) ?_
    ((cases_nodup (CrossLaws.same ht.laws) ht.distinct hu.distinct).filter _) s env st
  refine Prog.Calls.eq ?_ (callsIf_flatMap _ _)
  refine .bindEnd (ANode.twt_calls ht.laws reduce e o.asking_asks par t.root u.root 0 ht.valid hu.valid) fun r _ => ?_
  cases r with
  | unchangedLR r => exact .pureT
  | unchangedL r => exact .pureT
  | unchangedR r => exact .pureT
  | node m r => exact .pureT
  | removed r => exact .bindNil .al fun _ _ => .pureT
end
end HT
