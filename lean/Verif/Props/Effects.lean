import Verif.EffMem
import Verif.EffPure
import Verif.Props.Equality
/-!
# Properties C49, C50: closures with state, closures that panic or do not return

The vocabulary is that of `Verif/EffSpec.lean`.  An operation `o` is given by which of its parts are closures and which
are bulk operations; `env` is what the closures do: given the arguments and a state they answer and change the state, or
(`none`) panic or never return.  A run starts with any next free address `s` and any state `st`.
-/
namespace HT

variable {K V L W S X R σ : Type} [BEq K] [BEq L] {c : Cfg} {hash : K → BitVec c.w}

/-! ## C49: each entry's closure is called exactly once -/

/-- C49: `transform` calls the closure once with each entry, and with nothing else. -/
theorem C49_transform (reduce : R → R → R) (e : R) (o : MapTransform R Unit) (par : Par) {t : ATrie c K V}
    (ht : Reach c hash t.erase) (s : Nat) (env : (p : K × V) → σ → Option (MapTransformResult V R × σ)) (st : σ) :
    CallsOnce ((t.transformE reduce e o.asking par).run s env st) (o.expected t.erase.visit) :=
  ATrie.transformE_once reduce e o par ht s env st

/-- C49: `transmute` calls the closure once with each entry, and with nothing else. -/
theorem C49_transmute (reduce : R → R → R) (e : R) (o : MapTransmute R Unit) {t : ATrie c K V}
    (ht : Reach c hash t.erase) (s : Nat) (env : (p : K × V) → σ → Option (MapTransmuteResult S X R × σ)) (st : σ) :
    CallsOnce ((t.transmuteE reduce e o.asking).run s env st) (o.expected t.erase.visit) :=
  ATrie.transmuteE_once reduce e o ht s env st

section
variable {x : Cross c K L} (laws : CrossLaws x) (reduce : R → R → R) (e : R)
include laws

/-- C49: `transform_with_transmuted` calls the closures once for each case: the entries of the left map that match none
    of the right map, those of the right map that match none of the left, and the pairs of matching entries. -/
theorem C49_transform_with_transmuted (o : TwmKinds R) (par : Par) {t : ATrie c K V} {u : ATrie c L W}
    (ht : Reach c x.hash t.erase) (hu : Reach c x.hash' u.erase) (s : Nat)
    (env : (p : Case (K × V) (L × W)) → σ → Option (TwmAnswer K V L W R p × σ)) (st : σ) :
    CallsOnce ((ATrie.twmE x reduce e o.asking par t u).run s env st)
      ((x.cases t.erase.visit u.erase.visit).filter o.asks) :=
  ATrie.twmE_once laws reduce e o par ht hu s env st

/-- C49: `transmute_with_transformed` calls the closures once for each case. -/
theorem C49_transmute_with_transformed (o : MwtKinds R) (par : Par) {t : ATrie c K V} {u : ATrie c L W}
    (ht : Reach c x.hash t.erase) (hu : Reach c x.hash' u.erase) (s : Nat)
    (env : (p : Case (K × V) (L × W)) → σ → Option (MwtAnswer K V L W R p × σ)) (st : σ) :
    CallsOnce ((ATrie.mwtE x reduce e o.asking par t u).run s env st)
      ((x.cases t.erase.visit u.erase.visit).filter o.asks) :=
  ATrie.mwtE_once laws reduce e o par ht hu s env st

/-- C49: `transmute_with_transmuted` calls the closures once for each case. -/
theorem C49_transmute_with_transmuted (o : MwmKinds R) {t : ATrie c K V} {u : ATrie c L W}
    (ht : Reach c x.hash t.erase) (hu : Reach c x.hash' u.erase) (s : Nat)
    (env : (p : Case (K × V) (L × W)) → σ → Option (MwmAnswer K V L W S X R p × σ)) (st : σ) :
    CallsOnce ((ATrie.mwmE x reduce e o.asking t u).run s env st)
      ((x.cases t.erase.visit u.erase.visit).filter o.asks) :=
  ATrie.mwmE_once laws reduce e o ht hu s env st

end

/-- C49: `transform_with_transformed` calls the closures once for each case, also where its result is wrong
    (`C21_refuted`). -/
theorem C49_transform_with_transformed (reduce : R → R → R) (e : R) (o : TwtKinds R) (par : Par) {t u : ATrie c K V}
    (ht : Reach c hash t.erase) (hu : Reach c hash u.erase) (s : Nat)
    (env : (p : Case (K × V) (K × V)) → σ → Option (TwtAnswer K V R p × σ)) (st : σ) :
    CallsOnce ((ATrie.twtE reduce e hash o.asking par t u).run s env st)
      (((Cross.same hash).cases t.erase.visit u.erase.visit).filter o.asks) :=
  ATrie.twtE_once reduce e o par ht hu s env st

/-- C49: a run ends in a closure only if the closure, called with arguments it was to be called with, does not return;
    and a run of closures without state that returns has had an answer for everything it was to call. -/
theorem C49_no_answer {Q : Type} {A : Q → Type} {α : Type} {x : Prog Q A α} {s : Nat} {f : (q : Q) → Option (A q)}
    {st : Unit} {expected : List Q} (h : CallsOnce (x.run s (Prog.stateless f) st) expected) :
    (∀ q, (x.run s (Prog.stateless f) st).1 = .closure q → q ∈ expected ∧ f q = none) ∧
      ((∃ a, (x.run s (Prog.stateless f) st).1 = .ret a) → ∀ q ∈ expected, (f q).isSome) := by
  have key : ∀ (x : Tree Q A (α × Nat)) (st : Unit), ∀ p ∈ (x.run (Prog.stateless f) st).2, p.2 = f p.1 := by
    intro x
    induction x with
    | ret a => intro st p hp; cases hp
    | panic q => intro st p hp; cases hp
    | diverge => intro st p hp; cases hp
    | ask q k ih =>
      intro st p hp
      rw [Tree.run] at hp
      cases hq : f q with
      | none =>
        simp only [Prog.stateless, hq, Option.map_none, List.mem_singleton] at hp
        rw [hp, hq]
      | some a =>
        simp only [Prog.stateless, hq, Option.map_some] at hp
        rcases List.mem_cons.1 hp with hp | hp
        · rw [hp, hq]
        · exact ih a st p hp
  have key := key (x s) st
  refine ⟨fun q hq => ?_, ?_⟩
  · obtain ⟨before, h1, _⟩ := h.stops q hq
    have hm : (⟨q, none⟩ : Reply Q A) ∈ (x.run s (Prog.stateless f) st).2 := by rw [h1]; simp
    exact ⟨h.only q (List.mem_map.2 ⟨_, hm, rfl⟩), (key _ hm).symm⟩
  · rintro ⟨a, ha⟩ q hq
    obtain ⟨p, hp, rfl⟩ := List.mem_map.1 ((h.all a ha).symm.subset hq)
    rw [← key p hp]
    exact h.answered (fun q' hq' => by rw [ha] at hq'; cases hq') p hp

/-! ## C50: the outcome is that of the functions that answer as the closures did -/

/-- C50: `transform`. -/
theorem C50_transform {s : Nat} {vs : List (ATrie c K V)} (laws : KeyLaws hash) (h : Mem hash s vs) {t : ATrie c K V}
    (ht : t ∈ vs) (reduce : R → R → R) (e : R) (o : MapTransform R Unit) (par : Par)
    (env : (p : K × V) → σ → Option (MapTransformResult V R × σ)) (st : σ) :
    let run := (t.transformE reduce e o.asking par).run s env st
    (∃ f, Answers f run.2) ∧
      ∀ f, Answers f run.2 → Outcome.Like run (t.erase.transform reduce e (o.answering f) par) := by
  obtain ⟨U, heap, hU⟩ := h.heap
  exact ⟨exists_answers (fun _ => .removed e) (C49_transform reduce e o par (h.reach laws t ht) s env st).once,
    fun f hf => (ATrie.transformE_sim reduce e (o.asking_rel f) par t heap (hU t ht)).like env st hf⟩

omit [BEq K] in
/-- The part of memory holding objects of one type, before any of them is made. -/
theorem Heap.empty (n s : Nat) : Heap (fun _ : ANode n K V => False) s := ⟨by simp, by simp, by simp⟩

/-- C50: `transmute`. -/
theorem C50_transmute {t : ATrie c K V} (ht : Reach c hash t.erase) (reduce : R → R → R) (e : R)
    (o : MapTransmute R Unit) (s : Nat) (env : (p : K × V) → σ → Option (MapTransmuteResult S X R × σ)) (st : σ) :
    let run := (t.transmuteE reduce e o.asking).run s env st
    (∃ f, Answers f run.2) ∧
      ∀ f, Answers f run.2 → Outcome.Like run (t.erase.transmute reduce e (o.answering f)) :=
  ⟨exists_answers (fun _ => .removed e) (C49_transmute reduce e o ht s env st).once,
    fun f hf => (ATrie.transmuteE_sim reduce e (o.asking_rel f) t (Heap.empty ..)).like env st hf⟩

section
variable {x : Cross c K L} (laws : CrossLaws x) (reduce : R → R → R) (e : R)
include laws

/-- C50: `transform_with_transmuted`. -/
theorem C50_transform_with_transmuted {s : Nat} {vs : List (ATrie c K V)} (h : Mem x.hash s vs) {t : ATrie c K V}
    (ht : t ∈ vs) {u : ATrie c L W} (hu : Reach c x.hash' u.erase) (o : TwmKinds R) (par : Par)
    (env : (p : Case (K × V) (L × W)) → σ → Option (TwmAnswer K V L W R p × σ)) (st : σ) :
    let run := (ATrie.twmE x reduce e o.asking par t u).run s env st
    (∃ f, Answers f run.2) ∧
      ∀ f, Answers f run.2 → Outcome.Like run (Trie.twm x reduce e (o.answering f) par t.erase u.erase) := by
  obtain ⟨U, heap, hU⟩ := h.heap
  refine ⟨exists_answers (fun p => ?_)
      (C49_transform_with_transmuted laws reduce e o par (h.reach laws.left t ht) hu s env st).once,
    fun f hf => (ATrie.twmE_sim x reduce e (o.asking_rel f) par t u heap (hU t ht)).like env st hf⟩
  cases p with
  | left _ => exact .removed e
  | right _ => exact .removed e
  | both _ _ => exact .removed e

/-- C50: `transmute_with_transformed`. -/
theorem C50_transmute_with_transformed {s : Nat} {vs : List (ATrie c L W)} (h : Mem x.hash' s vs) {t : ATrie c K V}
    (ht : Reach c x.hash t.erase) {u : ATrie c L W} (hu : u ∈ vs) (o : MwtKinds R) (par : Par)
    (env : (p : Case (K × V) (L × W)) → σ → Option (MwtAnswer K V L W R p × σ)) (st : σ) :
    let run := (ATrie.mwtE x reduce e o.asking par t u).run s env st
    (∃ f, Answers f run.2) ∧
      ∀ f, Answers f run.2 → Outcome.Like run (Trie.mwt x reduce e (o.answering f) par t.erase u.erase) := by
  obtain ⟨U, heap, hU⟩ := h.heap
  refine ⟨exists_answers (fun p => ?_)
      (C49_transmute_with_transformed laws reduce e o par ht (h.reach laws.right u hu) s env st).once,
    fun f hf => (ATrie.mwtE_sim x reduce e (o.asking_rel f) par t u heap (hU u hu)).like env st hf⟩
  cases p with
  | left _ => exact .removed e
  | right _ => exact .removed e
  | both _ _ => exact .removed e

/-- C50: `transmute_with_transmuted`. -/
theorem C50_transmute_with_transmuted {t : ATrie c K V} (ht : Reach c x.hash t.erase) {u : ATrie c L W}
    (hu : Reach c x.hash' u.erase) (o : MwmKinds R) (s : Nat)
    (env : (p : Case (K × V) (L × W)) → σ → Option (MwmAnswer K V L W S X R p × σ)) (st : σ) :
    let run := (ATrie.mwmE x reduce e o.asking t u).run s env st
    (∃ f, Answers f run.2) ∧
      ∀ f, Answers f run.2 → Outcome.Like run (Trie.mwm x reduce e (o.answering f) t.erase u.erase) := by
  refine ⟨exists_answers (fun p => ?_) (C49_transmute_with_transmuted laws reduce e o ht hu s env st).once,
    fun f hf => (ATrie.mwmE_sim x reduce e (o.asking_rel f) t u (Heap.empty ..)).like env st hf⟩
  cases p with
  | left _ => exact .removed e
  | right _ => exact .removed e
  | both _ _ => exact .removed e

end

/-- C50: `transform_with_transformed`. -/
theorem C50_transform_with_transformed {s : Nat} {vs : List (ATrie c K V)} (laws : KeyLaws hash) (h : Mem hash s vs)
    {t u : ATrie c K V} (ht : t ∈ vs) (hu : u ∈ vs) (reduce : R → R → R) (e : R) (o : TwtKinds R) (par : Par)
    (env : (p : Case (K × V) (K × V)) → σ → Option (TwtAnswer K V R p × σ)) (st : σ) :
    let run := (ATrie.twtE reduce e hash o.asking par t u).run s env st
    (∃ f, Answers f run.2) ∧
      ∀ f, Answers f run.2 → Outcome.Like run (Trie.twt reduce e hash (o.answering f) par t.erase u.erase) := by
  obtain ⟨U, heap, hU⟩ := h.heap
  refine ⟨exists_answers (fun p => ?_)
      (C49_transform_with_transformed reduce e o par (h.reach laws t ht) (h.reach laws u hu) s env st).once,
    fun f hf => (ATrie.twtE_sim reduce e hash (o.asking_rel f) par t u heap (hU t ht) (hU u hu)).like env st hf⟩
  cases p with
  | left _ => exact .removed e
  | right _ => exact .removed e
  | both _ _ => exact .removed e

/-! ## The hypotheses hold of non-trivial maps -/

/-- The run returns, and the final state of the closures and the number of calls are as tested. -/
def Outcome.returned {Q α : Type} {A : Q → Type} (p : σ → Nat → Bool) (r : Outcome Q (α × σ) × List (Reply Q A)) :
    Bool :=
  match r.1 with
  | .ret a => p a.2 r.2.length
  | _ => false

/-- The run is ended by a closure, after some number of calls. -/
def Outcome.stopped {Q α : Type} {A : Q → Type} (calls : Nat) (r : Outcome Q (α × σ) × List (Reply Q A)) : Bool :=
  match r.1 with
  | .closure _ => r.2.length == calls
  | _ => false

/-- Two maps (with six and with two entries, the first with a collision list) obtained by insertions.  A closure that
    counts its calls and answers alternately `Unchanged` and `Removed`: `transform` and `transmute` call it six times.
    One that panics when called for the third time ends the call.  The joint operations: two pairs match and four
    entries of the first map match none, so there are six calls; with a bulk operation for the latter, two. -/
example : ∃ s vs, Mem Ex.exHash (c := Ex.c8) (V := Nat) s vs ∧ (
    match vs[6]?, vs[2]? with
    | some t, some u =>
        let env : Ex.Tk × Nat → Nat → Option (MapTransformResult Nat Unit × Nat) := fun _ n =>
          some (if n % 2 = 0 then .unchanged () else .removed (), n + 1)
        let envX : Ex.Tk × Nat → Nat → Option (MapTransmuteResult Nat Nat Unit × Nat) := fun p n =>
          some (if n % 2 = 0 then .transmuted p.1.id p.2 () else .removed (), n + 1)
        let stop : Ex.Tk × Nat → Nat → Option (MapTransformResult Nat Unit × Nat) := fun _ n =>
          if n = 2 then none else some (.unchanged (), n + 1)
        let envM : (p : Case (Ex.Tk × Nat) (Ex.Tk × Nat)) → Nat →
            Option (TwmAnswer Ex.Tk Nat Ex.Tk Nat Unit p × Nat) := fun p n =>
          match p with
          | .left _ => some (if n % 2 = 0 then .unchanged () else .removed (), n + 1)
          | .right _ => none
          | .both _ _ => some (if n % 2 = 0 then .unchanged () else .removed (), n + 1)
        let envW : (p : Case (Ex.Tk × Nat) (Ex.Tk × Nat)) → Nat →
            Option (MwtAnswer Ex.Tk Nat Ex.Tk Nat Unit p × Nat) := fun p n =>
          match p with
          | .left _ => some (.removed (), n + 1)
          | .right _ => none
          | .both _ _ => some (if n % 2 = 0 then .unchanged () else .removed (), n + 1)
        let envMM : (p : Case (Ex.Tk × Nat) (Ex.Tk × Nat)) → Nat →
            Option (MwmAnswer Ex.Tk Nat Ex.Tk Nat Nat Nat Unit p × Nat) := fun p n =>
          match p with
          | .left a => some (.transmuted a.1.id a.2 (), n + 1)
          | .right _ => none
          | .both _ _ => some (.removed (), n + 1)
        let envT : (p : Case (Ex.Tk × Nat) (Ex.Tk × Nat)) → Nat →
            Option (TwtAnswer Ex.Tk Nat Unit p × Nat) := fun p n =>
          match p with
          | .left _ => some (if n % 2 = 0 then .unchanged () else .removed (), n + 1)
          | .right _ => none
          | .both _ _ => some (if n % 2 = 0 then .unchangedLR () else .removed (), n + 1)
        Outcome.returned (fun st calls => st == 6 && calls == 6)
          ((t.transformE (fun _ _ => ()) () (.asking (.generic ())) .sequential).run s env 0) &&
        Outcome.returned (fun st calls => st == 0 && calls == 0)
          ((t.transformE (fun _ _ => ()) () (.asking (.removed ())) .sequential).run s env 0) &&
        Outcome.stopped 3 ((t.transformE (fun _ _ => ()) () (.asking (.generic ())) .middleIndex).run s stop 0) &&
        Outcome.returned (fun st calls => st == 6 && calls == 6)
          ((t.transmuteE (fun _ _ => ()) () (.asking (.generic ()))).run s envX 0) &&
        Outcome.returned (fun st calls => st == 6 && calls == 6)
          ((ATrie.twmE (Cross.same Ex.exHash) (fun _ _ => ()) ()
            (TwmKinds.asking ⟨.generic (), .generic (), .generic ()⟩) .sequential t u).run s envM 0) &&
        Outcome.returned (fun st calls => st == 2 && calls == 2)
          ((ATrie.twmE (Cross.same Ex.exHash) (fun _ _ => ()) ()
            (TwmKinds.asking ⟨.generic (), .unchanged (), .generic ()⟩) .sequential t u).run s envM 0) &&
        Outcome.returned (fun st calls => st == 6 && calls == 6)
          ((ATrie.mwtE (Cross.same Ex.exHash) (fun _ _ => ()) ()
            (MwtKinds.asking ⟨.generic (), .generic (), .generic ()⟩) .sequential t u).run s envW 0) &&
        Outcome.returned (fun st calls => st == 6 && calls == 6)
          ((ATrie.mwmE (Cross.same Ex.exHash) (fun _ _ => ()) ()
            (MwmKinds.asking ⟨.generic (), .generic (), .generic ()⟩) t u).run s envMM 0) &&
        Outcome.returned (fun st calls => st == 6 && calls == 6)
          ((ATrie.twtE (fun _ _ => ()) () Ex.exHash
            (TwtKinds.asking ⟨.generic () false, .generic (), .generic ()⟩) .middleIndex t u).run s envT 0)
    | _, _ => false) = true :=
  exists_mem Ex.exHash Ex.entries _ (by decide +kernel)

end HT
