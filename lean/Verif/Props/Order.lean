import Verif.EffSameApi
import Verif.Props.Effects
import Verif.Props.Parallel
/-!
# Properties C53 to C55: the order of the calls of closures

The vocabulary is that of `Verif/EffSpec.lean` and `Verif/OrderSpec.lean`.
-/
namespace HT

variable {K V L W S X R R' σ σ' : Type} {c : Cfg}

/-! ## C53: the calls do not depend on the answers -/

/-- C53: `transform`.  Two runs on the same map with closures in the same places make the same calls in the same order,
    until one of them ends: whatever the closures answer and do to their state, whatever the reduction (the type of its
    results included), the strategy and the state of memory. -/
theorem C53_transform (reduce : R → R → R) (e : R) (reduce' : R' → R' → R') (e' : R') {o : MapTransform R Unit}
    {o' : MapTransform R' Unit} (ho : o.forget = o'.forget) (par par' : Par) (t : ATrie c K V) (s s' : Nat)
    (env : (p : K × V) → σ → Option (MapTransformResult V R × σ))
    (env' : (p : K × V) → σ' → Option (MapTransformResult V R' × σ')) (st : σ) (st' : σ') :
    SameCalls ((t.transformE reduce e o.asking par).run s env st)
      ((t.transformE reduce' e' o'.asking par').run s' env' st') :=
  (ATrie.transformE_step reduce reduce' e e' (MapTransform.asking_step ho) par par' t).sameCalls s s' env env' st st'

/-- C53: `transmute`. -/
theorem C53_transmute (reduce : R → R → R) (e : R) (reduce' : R' → R' → R') (e' : R') {o : MapTransmute R Unit}
    {o' : MapTransmute R' Unit} (ho : o.forget = o'.forget) (t : ATrie c K V) (s s' : Nat)
    (env : (p : K × V) → σ → Option (MapTransmuteResult S X R × σ))
    (env' : (p : K × V) → σ' → Option (MapTransmuteResult S X R' × σ')) (st : σ) (st' : σ') :
    SameCalls ((t.transmuteE reduce e o.asking).run s env st) ((t.transmuteE reduce' e' o'.asking).run s' env' st') :=
  (ATrie.transmuteE_step reduce reduce' e e' (MapTransmute.asking_step ho) t).sameCalls s s' env env' st st'

section
variable (x : Cross c K L) (reduce : R → R → R) (e : R) (reduce' : R' → R' → R') (e' : R')
  (t : ATrie c K V) (u : ATrie c L W) (s s' : Nat)

/-- C53: `transform_with_transmuted`. -/
theorem C53_transform_with_transmuted {o : TwmKinds R} {o' : TwmKinds R'} (ho : o.forget = o'.forget) (par par' : Par)
    (env : (p : Case (K × V) (L × W)) → σ → Option (TwmAnswer K V L W R p × σ))
    (env' : (p : Case (K × V) (L × W)) → σ' → Option (TwmAnswer K V L W R' p × σ')) (st : σ) (st' : σ') :
    SameCalls ((ATrie.twmE x reduce e o.asking par t u).run s env st)
      ((ATrie.twmE x reduce' e' o'.asking par' t u).run s' env' st') :=
  (ATrie.twmE_step x reduce reduce' e e' (TwmKinds.asking_step ho) par par' t u).sameCalls s s' env env' st st'

/-- C53: `transmute_with_transformed`. -/
theorem C53_transmute_with_transformed {o : MwtKinds R} {o' : MwtKinds R'} (ho : o.forget = o'.forget) (par par' : Par)
    (env : (p : Case (K × V) (L × W)) → σ → Option (MwtAnswer K V L W R p × σ))
    (env' : (p : Case (K × V) (L × W)) → σ' → Option (MwtAnswer K V L W R' p × σ')) (st : σ) (st' : σ') :
    SameCalls ((ATrie.mwtE x reduce e o.asking par t u).run s env st)
      ((ATrie.mwtE x reduce' e' o'.asking par' t u).run s' env' st') :=
  (ATrie.mwtE_step x reduce reduce' e e' (MwtKinds.asking_step ho) par par' t u).sameCalls s s' env env' st st'

/-- C53: `transmute_with_transmuted`. -/
theorem C53_transmute_with_transmuted {o : MwmKinds R} {o' : MwmKinds R'} (ho : o.forget = o'.forget)
    (env : (p : Case (K × V) (L × W)) → σ → Option (MwmAnswer K V L W S X R p × σ))
    (env' : (p : Case (K × V) (L × W)) → σ' → Option (MwmAnswer K V L W S X R' p × σ')) (st : σ) (st' : σ') :
    SameCalls ((ATrie.mwmE x reduce e o.asking t u).run s env st)
      ((ATrie.mwmE x reduce' e' o'.asking t u).run s' env' st') :=
  (ATrie.mwmE_step x reduce reduce' e e' (MwmKinds.asking_step ho) t u).sameCalls s s' env env' st st'

end

/-- C53: `transform_with_transformed`. -/
theorem C53_transform_with_transformed [BEq K] (hash : K → BitVec c.w) (reduce : R → R → R) (e : R)
    (reduce' : R' → R' → R') (e' : R') {o : TwtKinds R} {o' : TwtKinds R'} (ho : o.forget = o'.forget) (par par' : Par)
    (t u : ATrie c K V) (s s' : Nat)
    (env : (p : Case (K × V) (K × V)) → σ → Option (TwtAnswer K V R p × σ))
    (env' : (p : Case (K × V) (K × V)) → σ' → Option (TwtAnswer K V R' p × σ')) (st : σ) (st' : σ') :
    SameCalls ((ATrie.twtE reduce e hash o.asking par t u).run s env st)
      ((ATrie.twtE reduce' e' hash o'.asking par' t u).run s' env' st') :=
  (ATrie.twtE_step reduce reduce' e e' hash (TwtKinds.asking_step ho) par par' t u).sameCalls s s' env env' st st'

/-- C53: so two runs that return have made the same calls in the same order. -/
theorem C53_both_return {Q α α' : Type} {A A' : Q → Type} {run : Outcome Q α × List (Reply Q A)}
    {run' : Outcome Q α' × List (Reply Q A')} (h : SameCalls run run') {a : α} {b : α'} (h1 : run.1 = .ret a)
    (h2 : run'.1 = .ret b) : run.2.map Sigma.fst = run'.2.map Sigma.fst :=
  (h.right ⟨b, h2⟩).eq_of_length_le (h.left ⟨a, h1⟩).length_le

/-! ## C54: the strategy makes no difference, also with closures that have a state -/

variable [BEq K] [BEq L] {hash : K → BitVec c.w}

/-- C54: `transform`. -/
theorem C54_transform {s : Nat} {vs : List (ATrie c K V)} (laws : KeyLaws hash) (h : Mem hash s vs) {t : ATrie c K V}
    (ht : t ∈ vs) (reduce : R → R → R) (e : R) (o : MapTransform R Unit) (par par' : Par)
    (env : (p : K × V) → σ → Option (MapTransformResult V R × σ)) (st : σ) :
    SameReturn (Mon reduce e) ((t.transformE reduce e o.asking par).run s env st)
      ((t.transformE reduce e o.asking par').run s env st) := by
  obtain ⟨U, heap, hU⟩ := h.heap
  exact sameReturn (ATrie.transformE_step reduce reduce e e (MapTransform.asking_step rfl) par par' t) env st
    (fun f => ATrie.transformE_sim reduce e (o.asking_rel f) par t heap (hU t ht))
    (fun f => ATrie.transformE_sim reduce e (o.asking_rel f) par' t heap (hU t ht))
    (C50_transform laws h ht reduce e o par env st).1 fun f => C19_transform_outcome reduce e _ par par' _

section
variable {x : Cross c K L} (laws : CrossLaws x) (reduce : R → R → R) (e : R)
include laws

/-- C54: `transform_with_transmuted`. -/
theorem C54_transform_with_transmuted {s : Nat} {vs : List (ATrie c K V)} (h : Mem x.hash s vs) {t : ATrie c K V}
    (ht : t ∈ vs) {u : ATrie c L W} (hu : Reach c x.hash' u.erase) (o : TwmKinds R) (par par' : Par)
    (env : (p : Case (K × V) (L × W)) → σ → Option (TwmAnswer K V L W R p × σ)) (st : σ) :
    SameReturn (Mon reduce e) ((ATrie.twmE x reduce e o.asking par t u).run s env st)
      ((ATrie.twmE x reduce e o.asking par' t u).run s env st) := by
  obtain ⟨U, heap, hU⟩ := h.heap
  exact sameReturn (ATrie.twmE_step x reduce reduce e e (TwmKinds.asking_step rfl) par par' t u) env st
    (fun f => ATrie.twmE_sim x reduce e (o.asking_rel f) par t u heap (hU t ht))
    (fun f => ATrie.twmE_sim x reduce e (o.asking_rel f) par' t u heap (hU t ht))
    (C50_transform_with_transmuted laws reduce e h ht hu o par env st).1
    fun f => C19_transform_with_transmuted x reduce e _ par par' _ _

/-- C54: `transmute_with_transformed`. -/
theorem C54_transmute_with_transformed {s : Nat} {vs : List (ATrie c L W)} (h : Mem x.hash' s vs) {t : ATrie c K V}
    (ht : Reach c x.hash t.erase) {u : ATrie c L W} (hu : u ∈ vs) (o : MwtKinds R) (par par' : Par)
    (env : (p : Case (K × V) (L × W)) → σ → Option (MwtAnswer K V L W R p × σ)) (st : σ) :
    SameReturn (Mon reduce e) ((ATrie.mwtE x reduce e o.asking par t u).run s env st)
      ((ATrie.mwtE x reduce e o.asking par' t u).run s env st) := by
  obtain ⟨U, heap, hU⟩ := h.heap
  exact sameReturn (ATrie.mwtE_step x reduce reduce e e (MwtKinds.asking_step rfl) par par' t u) env st
    (fun f => ATrie.mwtE_sim x reduce e (o.asking_rel f) par t u heap (hU u hu))
    (fun f => ATrie.mwtE_sim x reduce e (o.asking_rel f) par' t u heap (hU u hu))
    (C50_transmute_with_transformed laws reduce e h ht hu o par env st).1
    fun f => C19_transmute_with_transformed x reduce e _ par par' _ _

end

/-- C54: `transform_with_transformed`. -/
theorem C54_transform_with_transformed {s : Nat} {vs : List (ATrie c K V)} (laws : KeyLaws hash) (h : Mem hash s vs)
    {t u : ATrie c K V} (ht : t ∈ vs) (hu : u ∈ vs) (reduce : R → R → R) (e : R) (o : TwtKinds R) (par par' : Par)
    (env : (p : Case (K × V) (K × V)) → σ → Option (TwtAnswer K V R p × σ)) (st : σ) :
    SameReturn (Mon reduce e) ((ATrie.twtE reduce e hash o.asking par t u).run s env st)
      ((ATrie.twtE reduce e hash o.asking par' t u).run s env st) := by
  obtain ⟨U, heap, hU⟩ := h.heap
  exact sameReturn (ATrie.twtE_step reduce reduce e e hash (TwtKinds.asking_step rfl) par par' t u) env st
    (fun f => ATrie.twtE_sim reduce e hash (o.asking_rel f) par t u heap (hU t ht) (hU u hu))
    (fun f => ATrie.twtE_sim reduce e hash (o.asking_rel f) par' t u heap (hU t ht) (hU u hu))
    (C50_transform_with_transformed laws h ht hu reduce e o par env st).1
    fun f => C19_transform_with_transformed hash reduce e _ par par' _ _

/-! ## C55: the order of the calls of `transform` and `transmute` -/

/-- C55: `transform` calls the closure in the order of `visit`, with any strategy, except that keys of equal hash come in
    the opposite order. -/
theorem C55_transform (reduce : R → R → R) (e : R) (o : MapTransform R Unit) (par : Par) {t : ATrie c K V}
    (ht : Reach c hash t.erase) (s : Nat) (env : (p : K × V) → σ → Option (MapTransformResult V R × σ)) (st : σ) :
    Reorder hash (((t.transformE reduce e o.asking par).run s env st).2.map Sigma.fst) t.erase.visit :=
  ATrie.transformE_reorder reduce e o par ht s env st

/-- C55: `transmute`. -/
theorem C55_transmute (reduce : R → R → R) (e : R) (o : MapTransmute R Unit) {t : ATrie c K V}
    (ht : Reach c hash t.erase) (s : Nat) (env : (p : K × V) → σ → Option (MapTransmuteResult S X R × σ)) (st : σ) :
    Reorder hash (((t.transmuteE reduce e o.asking).run s env st).2.map Sigma.fst) t.erase.visit :=
  ATrie.transmuteE_reorder reduce e o ht s env st

/-- C55: if no two of the map's keys have equal hashes the order is that of `visit`: a run that returns has called the closure with the entries
    one by one as `visit` would. -/
theorem C55_no_collisions (reduce : R → R → R) (e : R) (u : Unit) (par : Par) {t : ATrie c K V}
    (ht : Reach c hash t.erase) (inj : ∀ p ∈ t.erase.visit, ∀ q ∈ t.erase.visit, hash p.1 = hash q.1 → p = q) (s : Nat)
    (env : (p : K × V) → σ → Option (MapTransformResult V R × σ)) (st : σ) {a : ((ATrie c K V × R) × Nat) × σ}
    (h : ((t.transformE reduce e (.asking (.generic u)) par).run s env st).1 = .ret a) :
    ((t.transformE reduce e (.asking (.generic u)) par).run s env st).2.map Sigma.fst = t.erase.visit := by
  have once := C49_transform reduce e (.generic u) par ht s env st
  have perm := once.all a h
  simp only [MapTransform.expected, MapTransform.isClosure, if_true] at perm
  have ord := C55_transform reduce e (.generic u) par ht s env st
  generalize ((t.transformE reduce e (.asking (.generic u)) par).run s env st).2.map Sigma.fst = l at perm ord
  have hn := distinct_nodup ht.laws ht.distinct
  refine perm.eq_of_pairwise (le := fun p q => [p, q].Sublist t.erase.visit) ?_ ?_ ?_
  · intro p q _ _ h1 h2
    exact sublist_swap_eq hn h1 h2
  · rw [List.pairwise_iff_forall_sublist]
    intro p q hs
    refine (ord p q hs).2 fun he => ?_
    have hp := perm.subset (hs.subset (List.mem_cons_self ..))
    have hq := perm.subset (hs.subset (List.mem_cons_of_mem _ (List.mem_cons_self ..)))
    have := (perm.nodup_iff.2 hn).sublist hs
    rw [inj p hp q hq he] at this
    simp at this
  · rw [List.pairwise_iff_forall_sublist]
    exact fun h => h

/-! ## The hypotheses hold of non-trivial maps -/

/-- A map with six entries obtained by insertions, the keys 3, 5 and 7 with one hash.  The order of `visit` and that of
    the calls differ in those three only.  With closures that answer alternately, that always answer `Unchanged` with
    another reduction, and that panic when called for the fourth time, the calls are the same (the first four, in the
    last case); with either strategy. -/
example : ∃ s vs, Mem Ex.exHash (c := Ex.c8) (V := Nat) s vs ∧ (
    match vs[6]? with
    | some t =>
        let env : Ex.Tk × Nat → Nat → Option (MapTransformResult Nat Unit × Nat) := fun _ n =>
          some (if n % 2 = 0 then .unchanged () else .removed (), n + 1)
        let env' : Ex.Tk × Nat → Unit → Option (MapTransformResult Nat Nat × Unit) := fun p _ => some (.unchanged p.2, ())
        let stop : Ex.Tk × Nat → Nat → Option (MapTransformResult Nat Unit × Nat) := fun _ n =>
          if n = 3 then none else some (.unchanged (), n + 1)
        let envX : Ex.Tk × Nat → Nat → Option (MapTransmuteResult Nat Nat Unit × Nat) := fun p n =>
          some (if n % 2 = 0 then .transmuted p.1.id p.2 () else .removed (), n + 1)
        let calls := [5, 7, 3, 641, 11, 90]
        (t.erase.visit.map fun p => p.1.id) == [3, 7, 5, 641, 11, 90] &&
        (((t.transformE (fun _ _ => ()) () (.asking (.generic ())) .sequential).run s env 0).2.map fun p => p.1.1.id) ==
          calls &&
        (((t.transformE (fun _ _ => ()) () (.asking (.generic ())) .middleIndex).run s env 0).2.map fun p => p.1.1.id) ==
          calls &&
        (((t.transformE (· + ·) 0 (.asking (.generic ())) .middleIndex).run s env' ()).2.map fun p => p.1.1.id) ==
          calls &&
        (((t.transformE (fun _ _ => ()) () (.asking (.generic ())) .sequential).run s stop 0).2.map fun p => p.1.1.id) ==
          calls.take 4 &&
        (((t.transmuteE (fun _ _ => ()) () (.asking (.generic ()))).run s envX 0).2.map fun p => p.1.1.id) == calls &&
        Outcome.returned (fun st calls => st == 6 && calls == 6)
          ((t.transformE (fun _ _ => ()) () (.asking (.generic ())) .sequential).run s env 0)
    | _ => false) = true :=
  exists_mem Ex.exHash Ex.entries _ (by decide +kernel)

end HT
