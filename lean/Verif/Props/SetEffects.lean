import Verif.SetEffMem
import Verif.Props.Effects
import Verif.SetExamples
/-!
# Property C67: the set functions and the transfute functions with closures that have state, panic or do not return

The vocabulary is that of `Verif/SetEffSpec.lean` (and `Verif/EffSpec.lean`).  `C67_*_calls`: every closure is called
once with each key (or pair of keys, or case) it is meant for and with nothing else.  `C67_*`: the outcome is the one the
function has with any functions that answer what the closures answered.
-/
namespace HT

variable {K V L W S R σ : Type} [BEq K] [BEq L] {c : Cfg} {hash : K → BitVec c.w}

/-! ## Calls -/

/-- C67: the set function `transform` calls the closure once with each key of the set. -/
theorem C67_transform_calls (reduce : R → R → R) (e : R) (o : SetTransform R Unit) (par : Par) {t : AHSet c K}
    (ht : SReach c hash t.erase) (s : Nat) (env : K → σ → Option (SetTransformResult R × σ)) (st : σ) :
    CallsOnce ((t.transformE reduce e o.asking par).run s env st) (o.expected t.erase.visit) := by
  rw [AHSet.transformE_eq, show t.erase.visit = t.erase.set.visit.map Prod.fst from rfl, ← SetTransform.expected_kind]
  exact (C49_transform reduce e o.kind par (t := t.set) ht.map s _ st).wrapE transTransform_inj

/-- C67: the set function `transmute` calls the closure once with each key of the set. -/
theorem C67_transmute_calls (reduce : R → R → R) (e : R) (o : SetTransmute R Unit) {t : AHSet c K}
    (ht : SReach c hash t.erase) (s : Nat) (env : K → σ → Option (SetTransmuteResult S R × σ)) (st : σ) :
    CallsOnce ((t.transmuteE reduce e o.asking).run s env st) (o.expected t.erase.visit) := by
  rw [AHSet.transmuteE_eq, show t.erase.visit = t.erase.set.visit.map Prod.fst from rfl,
    ← SetTransmute.expected_kind (S := S)]
  exact (C49_transmute reduce e o.kind (t := t.set) ht.map s _ st).wrapE transTransmute_inj

section
variable {x : Cross c K L} (laws : CrossLaws x) (reduce : R → R → R) (e : R)
include laws

/-- C67: the set function `transform_with_transmuted` calls the closures once for each pair of equal keys and each key
    without a partner, except those that fall to a bulk operation. -/
theorem C67_transform_with_transmuted_calls (o : STwmKinds R) (par : Par) {t : AHSet c K} {u : AHSet c L}
    (ht : SReach c x.hash t.erase) (hu : SReach c x.hash' u.erase) (s : Nat)
    (env : (p : Case K L) → σ → Option (STwmAnswer K L R p × σ)) (st : σ) :
    CallsOnce ((AHSet.twmAsk reduce e x o par t u).run s env st)
      ((jointCases x.eq t.erase.visit u.erase.visit).filter o.asks) := by
  rw [AHSet.twmAsk_eq]
  exact o.expected x t.erase.set.visit u.erase.set.visit ▸
    (C49_transform_with_transmuted laws reduce e o.kinds par (t := t.set) (u := u.set) ht.map hu.map s _ st).wrapE
      o.trans_inj

/-- C67: the set function `transmute_with_transformed` calls the closures once for each case. -/
theorem C67_transmute_with_transformed_calls (o : SMwtKinds R) (par : Par) {t : AHSet c K} {u : AHSet c L}
    (ht : SReach c x.hash t.erase) (hu : SReach c x.hash' u.erase) (s : Nat)
    (env : (p : Case K L) → σ → Option (SMwtAnswer K L R p × σ)) (st : σ) :
    CallsOnce ((AHSet.mwtAsk reduce e x o par t u).run s env st)
      ((jointCases x.eq t.erase.visit u.erase.visit).filter o.asks) := by
  rw [AHSet.mwtAsk_eq]
  exact o.expected x t.erase.set.visit u.erase.set.visit ▸
    (C49_transmute_with_transformed laws reduce e o.kinds par (t := t.set) (u := u.set) ht.map hu.map s _ st).wrapE
      o.trans_inj

/-- C67: the set function `transmute_with_transmuted` calls the closures once for each case. -/
theorem C67_transmute_with_transmuted_calls (o : SMwmKinds R) {t : AHSet c K} {u : AHSet c L}
    (ht : SReach c x.hash t.erase) (hu : SReach c x.hash' u.erase) (s : Nat)
    (env : (p : Case K L) → σ → Option (SMwmAnswer K L S R p × σ)) (st : σ) :
    CallsOnce ((AHSet.mwmAsk reduce e x o t u).run s env st)
      ((jointCases x.eq t.erase.visit u.erase.visit).filter o.asks) := by
  rw [AHSet.mwmAsk_eq]
  exact o.expected (S := S) x t.erase.set.visit u.erase.set.visit ▸
    (C49_transmute_with_transmuted laws reduce e o.kinds (t := t.set) (u := u.set) ht.map hu.map s _ st).wrapE
      o.trans_inj

end

/-- C67: the set function `transform_with_transformed` calls the closures once for each pair of equal keys and each key
    without a partner. -/
theorem C67_transform_with_transformed_calls (reduce : R → R → R) (e : R) (o : STwtKinds R) (par : Par)
    {t u : AHSet c K} (ht : SReach c hash t.erase) (hu : SReach c hash u.erase) (s : Nat)
    (env : (p : Case K K) → σ → Option (STwtAnswer K R p × σ)) (st : σ) :
    CallsOnce ((AHSet.twtAsk reduce e hash o par t u).run s env st)
      ((jointCases (fun a b => a == b) t.erase.visit u.erase.visit).filter o.asks) := by
  rw [AHSet.twtAsk_eq]
  exact o.expected (Cross.same hash) t.erase.set.visit u.erase.set.visit ▸
    (C49_transform_with_transformed reduce e o.kinds par (t := t.set) (u := u.set) ht.map hu.map s _ st).wrapE
      transTwt_inj

/-- C67: `transform_with_transfuted` calls the closures once for each pair of entries with equal keys and each entry
    without a partner. -/
theorem C67_transform_with_transfuted_calls (laws : KeyLaws hash) (reduce : R → R → R) (e : R) (o : TwfKinds R)
    (par : Par) {t : ATrie c K V} {u : ATrie c K W} (ht : Reach c hash t.erase) (hu : Reach c hash u.erase) (s : Nat)
    (env : (p : Case (K × V) (K × W)) → σ → Option (TwfAnswer K V W R p × σ)) (st : σ) :
    CallsOnce ((ATrie.twfAsk reduce e hash o par t u).run s env st)
      ((jointCases (fun a b => a.1 == b.1) t.erase.visit u.erase.visit).filter o.asks) := by
  rw [ATrie.twfAsk_eq]
  exact o.expected (jointCases (fun a b => a.1 == b.1) t.erase.visit u.erase.visit) ▸
    (C49_transform_with_transmuted (x := Cross.one hash) (CrossLaws.same laws) reduce e o.kinds par ht hu s _ st).sub
      fun q q' p h h' => by rw [transTwf_call] at h h'; cases h; cases h'; rfl

/-- C67: `transfute_with_transformed` calls the closures once for each case. -/
theorem C67_transfute_with_transformed_calls (laws : KeyLaws hash) (reduce : R → R → R) (e : R) (o : FwtKinds R)
    (par : Par) {t : ATrie c K V} {u : ATrie c K W} (ht : Reach c hash t.erase) (hu : Reach c hash u.erase) (s : Nat)
    (env : (p : Case (K × V) (K × W)) → σ → Option (FwtAnswer K V W R p × σ)) (st : σ) :
    CallsOnce ((ATrie.fwtAsk reduce e hash o par t u).run s env st)
      ((jointCases (fun a b => a.1 == b.1) t.erase.visit u.erase.visit).filter o.asks) := by
  rw [ATrie.fwtAsk_eq]
  exact o.expected (jointCases (fun a b => a.1 == b.1) t.erase.visit u.erase.visit) ▸
    (C49_transmute_with_transformed (x := Cross.one hash) (CrossLaws.same laws) reduce e o.kinds par ht hu s _ st).sub
      fun q q' p h h' => by rw [transFwt_call] at h h'; cases h; cases h'; rfl

/-! ## Outcomes -/

section
variable {s : Nat} {vs : List (AHSet c K)}

omit [BEq K] in
private theorem AHSet.mem_set {t : AHSet c K} (h : t ∈ vs) : t.set ∈ vs.map AHSet.set := List.mem_map.2 ⟨_, h, rfl⟩

/-- C67: the outcome of the set function `transform`. -/
theorem C67_transform (laws : KeyLaws hash) (h : SMem hash s vs) {t : AHSet c K} (ht : t ∈ vs) (reduce : R → R → R)
    (e : R) (o : SetTransform R Unit) (par : Par) (env : K → σ → Option (SetTransformResult R × σ)) (st : σ) :
    let run := (t.transformE reduce e o.asking par).run s env st
    (∃ f, Answers f run.2) ∧
      ∀ f, Answers f run.2 → Outcome.LikeSet run (t.erase.transform reduce e (o.answering f) par) := by
  have once := C67_transform_calls reduce e o par (h.reach laws t ht) s env st
  refine ⟨exists_answers (fun _ => .removed e) once.once, fun f hf => ?_⟩
  rw [AHSet.transformE_eq] at hf once ⊢
  have := LikeSet.of once (C50_transform laws h.mem (AHSet.mem_set ht) reduce e o.kind par _ st).2 hf
  rw [HSet.transform, SetTransform.answering_toMap]
  exact this

/-- C67: the outcome of the set function `transmute`. -/
theorem C67_transmute {t : AHSet c K} (ht : SReach c hash t.erase) (reduce : R → R → R) (e : R)
    (o : SetTransmute R Unit) (s : Nat) (env : K → σ → Option (SetTransmuteResult S R × σ)) (st : σ) :
    let run := (t.transmuteE reduce e o.asking).run s env st
    (∃ f, Answers f run.2) ∧
      ∀ f, Answers f run.2 → Outcome.LikeSet run (t.erase.transmute reduce e (o.answering f)) := by
  have once := C67_transmute_calls reduce e o ht s env st
  refine ⟨exists_answers (fun _ => .removed e) once.once, fun f hf => ?_⟩
  rw [AHSet.transmuteE_eq] at hf once ⊢
  have := LikeSet.of once (C50_transmute (t := t.set) ht.map reduce e o.kind s _ st).2 hf
  rw [HSet.transmute, SetTransmute.answering_toMap]
  exact this

/-- C67: the outcome of the set function `transform_with_transmuted`. -/
theorem C67_transform_with_transmuted {x : Cross c K L} (laws : CrossLaws x) (reduce : R → R → R) (e : R)
    (h : SMem x.hash s vs) {t : AHSet c K} (ht : t ∈ vs) {u : AHSet c L} (hu : SReach c x.hash' u.erase)
    (o : STwmKinds R) (par : Par) (env : (p : Case K L) → σ → Option (STwmAnswer K L R p × σ)) (st : σ) :
    let run := (AHSet.twmAsk reduce e x o par t u).run s env st
    (∃ f, Answers f run.2) ∧
      ∀ f, Answers f run.2 → Outcome.LikeSet run (HSet.twmWith reduce e x o f par t.erase u.erase) := by
  have once := C67_transform_with_transmuted_calls laws reduce e o par (h.reach laws.left t ht) hu s env st
  refine ⟨exists_answers (fun p => match p with
    | .left _ => .removed e | .right _ => .removed e | .both _ _ => .removed e) once.once, fun f hf => ?_⟩
  rw [AHSet.twmAsk_eq] at hf once ⊢
  rw [HSet.twmWith_eq]
  exact LikeSet.of once (C50_transform_with_transmuted laws reduce e h.mem (AHSet.mem_set ht) (u := u.set) hu.map
    o.kinds par _ st).2 hf

/-- C67: the outcome of the set function `transmute_with_transformed`. -/
theorem C67_transmute_with_transformed {x : Cross c L K} (laws : CrossLaws x) (reduce : R → R → R) (e : R)
    (h : SMem x.hash' s vs) {t : AHSet c L} (ht : SReach c x.hash t.erase) {u : AHSet c K} (hu : u ∈ vs)
    (o : SMwtKinds R) (par : Par) (env : (p : Case L K) → σ → Option (SMwtAnswer L K R p × σ)) (st : σ) :
    let run := (AHSet.mwtAsk reduce e x o par t u).run s env st
    (∃ f, Answers f run.2) ∧
      ∀ f, Answers f run.2 → Outcome.LikeSet run (HSet.mwtWith reduce e x o f par t.erase u.erase) := by
  have once := C67_transmute_with_transformed_calls laws reduce e o par ht (h.reach laws.right u hu) s env st
  refine ⟨exists_answers (fun p => match p with
    | .left _ => .removed e | .right _ => .removed e | .both _ _ => .removed e) once.once, fun f hf => ?_⟩
  rw [AHSet.mwtAsk_eq] at hf once ⊢
  rw [HSet.mwtWith_eq]
  exact LikeSet.of once (C50_transmute_with_transformed laws reduce e h.mem (t := t.set) ht.map (AHSet.mem_set hu)
    o.kinds par _ st).2 hf

/-- C67: the outcome of the set function `transmute_with_transmuted`. -/
theorem C67_transmute_with_transmuted {x : Cross c K L} (laws : CrossLaws x) (reduce : R → R → R) (e : R)
    {t : AHSet c K} (ht : SReach c x.hash t.erase) {u : AHSet c L} (hu : SReach c x.hash' u.erase)
    (o : SMwmKinds R) (s : Nat) (env : (p : Case K L) → σ → Option (SMwmAnswer K L S R p × σ)) (st : σ) :
    let run := (AHSet.mwmAsk reduce e x o t u).run s env st
    (∃ f, Answers f run.2) ∧
      ∀ f, Answers f run.2 → Outcome.LikeSet run (HSet.mwmWith reduce e x o f t.erase u.erase) := by
  have once := C67_transmute_with_transmuted_calls laws reduce e o ht hu s env st
  refine ⟨exists_answers (fun p => match p with
    | .left _ => .removed e | .right _ => .removed e | .both _ _ => .removed e) once.once, fun f hf => ?_⟩
  rw [AHSet.mwmAsk_eq] at hf once ⊢
  rw [HSet.mwmWith_eq]
  exact LikeSet.of once (C50_transmute_with_transmuted laws reduce e (t := t.set) ht.map (u := u.set) hu.map
    o.kinds s _ st).2 hf

/-- C67: the outcome of the set function `transform_with_transformed`. -/
theorem C67_transform_with_transformed (laws : KeyLaws hash) (h : SMem hash s vs) {t u : AHSet c K} (ht : t ∈ vs)
    (hu : u ∈ vs) (reduce : R → R → R) (e : R) (o : STwtKinds R) (par : Par)
    (env : (p : Case K K) → σ → Option (STwtAnswer K R p × σ)) (st : σ) :
    let run := (AHSet.twtAsk reduce e hash o par t u).run s env st
    (∃ f, Answers f run.2) ∧
      ∀ f, Answers f run.2 → Outcome.LikeSet run (HSet.twtWith reduce e hash o f par t.erase u.erase) := by
  have once := C67_transform_with_transformed_calls reduce e o par (h.reach laws t ht) (h.reach laws u hu) s env st
  refine ⟨exists_answers (fun p => match p with
    | .left _ => .removed e | .right _ => .removed e | .both _ _ => .removed e) once.once, fun f hf => ?_⟩
  rw [AHSet.twtAsk_eq] at hf once ⊢
  rw [HSet.twtWith_eq]
  exact LikeSet.of once (C50_transform_with_transformed laws h.mem (AHSet.mem_set ht) (AHSet.mem_set hu) reduce e
    o.kinds par _ st).2 hf

end

/-- C67: the outcome of `transform_with_transfuted`, whose result is again a map in memory. -/
theorem C67_transform_with_transfuted (laws : KeyLaws hash) {s : Nat} {vs : List (ATrie c K V)} (h : Mem hash s vs)
    {t : ATrie c K V} (ht : t ∈ vs) {u : ATrie c K W} (hu : Reach c hash u.erase) (reduce : R → R → R) (e : R)
    (o : TwfKinds R) (par : Par) (env : (p : Case (K × V) (K × W)) → σ → Option (TwfAnswer K V W R p × σ)) (st : σ) :
    let run := (ATrie.twfAsk reduce e hash o par t u).run s env st
    (∃ f, Answers f run.2) ∧
      (∀ f, Answers f run.2 → Outcome.Like run (Trie.twfWith reduce e hash o f par t.erase u.erase)) ∧
      ∀ t' r s' st', run.1 = .ret (((t', r), s'), st') → Mem hash s' (vs ++ [t']) := by
  have once := C67_transform_with_transfuted_calls laws reduce e o par (h.reach laws t ht) hu s env st
  have some_f := exists_answers (fun p => match p with
    | .left _ => .removed e | .right _ => .removed e | .both _ _ => .removed e) once.once
  refine ⟨some_f, fun f hf => ?_, fun t' r s' st' hr => ?_⟩
  · rw [ATrie.twfAsk_eq] at hf once ⊢
    rw [Trie.twfWith_eq]
    exact Like.of once (C50_transform_with_transmuted (x := Cross.one hash) (CrossLaws.same laws) reduce e h ht hu
      o.kinds par _ st).2 hf
  · obtain ⟨f, hf⟩ := some_f
    exact Mem.transfuted laws h ht hu hf (Prod.ext hr rfl)

/-- C67: the outcome of `transfute_with_transformed`, whose result is again a map in memory. -/
theorem C67_transfute_with_transformed (laws : KeyLaws hash) {s : Nat} {vs : List (ATrie c K W)} (h : Mem hash s vs)
    {t : ATrie c K V} (ht : Reach c hash t.erase) {u : ATrie c K W} (hu : u ∈ vs) (reduce : R → R → R) (e : R)
    (o : FwtKinds R) (par : Par) (env : (p : Case (K × V) (K × W)) → σ → Option (FwtAnswer K V W R p × σ)) (st : σ) :
    let run := (ATrie.fwtAsk reduce e hash o par t u).run s env st
    (∃ f, Answers f run.2) ∧
      (∀ f, Answers f run.2 → Outcome.Like run (Trie.fwtWith reduce e hash o f par t.erase u.erase)) ∧
      ∀ t' r s' st', run.1 = .ret (((t', r), s'), st') → Mem hash s' (vs ++ [t']) := by
  have once := C67_transfute_with_transformed_calls laws reduce e o par ht (h.reach laws u hu) s env st
  have some_f := exists_answers (fun p => match p with
    | .left _ => .removed e | .right _ => .removed e | .both _ _ => .removed e) once.once
  refine ⟨some_f, fun f hf => ?_, fun t' r s' st' hr => ?_⟩
  · rw [ATrie.fwtAsk_eq] at hf once ⊢
    rw [Trie.fwtWith_eq]
    exact Like.of once (C50_transmute_with_transformed (x := Cross.one hash) (CrossLaws.same laws) reduce e h ht hu
      o.kinds par _ st).2 hf
  · obtain ⟨f, hf⟩ := some_f
    exact Mem.transfuting laws h ht hu hf (Prod.ext hr rfl)

/-- C67: the sets that the set functions make, whatever the closures do, are sets as `SReach` describes them, and the maps
    inside them are maps in memory (so that what is proved of the memory of maps holds of the memory of sets). -/
theorem C67_memory (laws : KeyLaws hash) {s : Nat} {vs : List (AHSet c K)} (h : SMem hash s vs) :
    (∀ t ∈ vs, SReach c hash t.erase) ∧ Mem hash s (vs.map AHSet.set) := ⟨h.reach laws, h.mem⟩

/-! ## insert and remove -/

/-- C67: the set function `insert` answers as it does in the rest of the model; of the pointer it returns, the object it
    points to is a part of the new set and of no older one, and holds the inserted key. -/
theorem C67_insert (laws : KeyLaws hash) {s : Nat} {vs : List (AHSet c K)} (h : SMem hash s vs) {t : AHSet c K}
    (ht : t ∈ vs) (k : K) (replace : Bool) :
    (t.insert hash k replace s).map (fun r => r.1.map fun x => (x.1.erase, x.2.2)) =
        (t.erase.insert hash k replace).map (fun r => r.map fun x => (x.1, x.2.2)) ∧
      ∀ t' ptr prev s', t.insert hash k replace s = .ok (.ok (t', ptr, prev), s') →
        ∃ o : ANode c.n K Unit, o.Sub t'.set.root ∧ o.addr = ptr ∧ o.entry = some (k, ()) ∧
          ∀ u ∈ vs, ∀ o' : ANode c.n K Unit, o'.Sub u.set.root → o'.addr ≠ ptr := by
  constructor
  · have := C31_model_insert h.mem (List.mem_map.2 ⟨t, ht, rfl⟩) k () replace
    change (Al.bind _ _ s).map _ = (Res.bind (t.set.erase.insert hash k () replace) _).map _
    unfold Al.bind
    cases hx : t.set.insert hash k () replace s with
    | panic p =>
      rw [hx] at this
      cases hy : t.set.erase.insert hash k () replace with
      | panic q => rw [hy] at this; cases this; rfl
      | ok q => rw [hy] at this; cases this
      | diverge => rw [hy] at this; cases this
    | diverge =>
      rw [hx] at this
      cases hy : t.set.erase.insert hash k () replace with
      | panic q => rw [hy] at this; cases this
      | ok q => rw [hy] at this; cases this
      | diverge => rfl
    | ok r =>
      rw [hx] at this
      cases hy : t.set.erase.insert hash k () replace with
      | panic q => rw [hy] at this; cases this
      | diverge => rw [hy] at this; cases this
      | ok q =>
        rw [hy] at this
        obtain ⟨r, s1⟩ := r
        cases r with
        | error a => cases q with
          | error b => cases this; rfl
          | ok b => cases this
        | ok a => cases q with
          | error b => cases this
          | ok b =>
            obtain ⟨a1, a2, a3⟩ := a
            obtain ⟨b1, b2, b3⟩ := b
            cases this
            rfl
  · intro t' ptr prev s' hr
    obtain ⟨_, h1, _⟩ := AHSet.insert_ok hr
    obtain ⟨o, h2, h3, h4, h5, _⟩ := C43_insert_pointer laws h.mem (List.mem_map.2 ⟨t, ht, rfl⟩) h1
    exact ⟨o, h2, h3, h4, fun u hu => h5 _ (List.mem_map.2 ⟨u, hu, rfl⟩)⟩

/-- C67: the set function `remove` answers as it does in the rest of the model. -/
theorem C67_remove {s : Nat} {vs : List (AHSet c K)} (h : SMem hash s vs) {t : AHSet c K} (ht : t ∈ vs) (k : K) :
    (t.remove hash k s).map (fun r => r.1.map fun x => (x.1.erase, x.2)) = t.erase.remove hash k := by
  have := C31_model_remove h.mem (List.mem_map.2 ⟨t, ht, rfl⟩) k
  change (Al.bind _ _ s).map _ = Res.bind (t.set.erase.remove hash k) _
  rw [← this]
  unfold Al.bind
  cases hx : t.set.remove hash k s with
  | panic p => rfl
  | diverge => rfl
  | ok r =>
    obtain ⟨r, s1⟩ := r
    cases r <;> rfl

/-! ## The hypotheses hold of non-trivial sets -/

/-- A set and the sets made from it by inserting keys (`/repo/src/set.rs:92-99`), one after the other. -/
def AHSet.versions (hash : K → BitVec c.w) : AHSet c K → List K → Al (List (AHSet c K))
  | t, [] => pure [t]
  | t, k :: ks => do
    match ← t.insert hash k true with
    | .ok (t', _, _) =>
      let ws ← AHSet.versions hash t' ks
      pure (t :: ws)
    | .error _ => Al.lift .diverge

theorem SMem.versions {ks : List K} {t : AHSet c K} {s s' : Nat} {vs ws : List (AHSet c K)}
    (h : SMem hash s (vs ++ [t])) (hr : AHSet.versions hash t ks s = .ok (ws, s')) : SMem hash s' (vs ++ ws) := by
  induction ks generalizing t s vs ws with
  | nil => cases hr; exact h
  | cons k ks ih =>
    obtain ⟨⟨r, s1⟩, h1, h2⟩ := Al.bind_ok hr
    cases r with
    | error e => cases h2
    | ok r =>
      obtain ⟨t', ptr, prev⟩ := r
      obtain ⟨⟨ws', s2⟩, h3, h4⟩ := Al.bind_ok h2
      cases h4
      have := ih (.insert h (by simp) h1) h3
      simpa using this

theorem exists_smem (hash : K → BitVec c.w) (ks : List K) (p : Nat → List (AHSet c K) → Bool)
    (h : (((do
      let t ← AHSet.new c
      AHSet.versions hash t ks : Al (List (AHSet c K))) 0).test fun r => p r.2 r.1) = true) :
    ∃ s vs, SMem hash s vs ∧ p s vs = true := by
  obtain ⟨⟨ws, s'⟩, hr, hp⟩ := Res.test_iff.1 h
  obtain ⟨⟨t, s1⟩, h1, h2⟩ := Al.bind_ok hr
  exact ⟨s', ws, by simpa using SMem.versions (vs := []) (.new (.start 0) h1) h2, hp⟩

/-- Two sets (of six and of two keys, the first with a collision list) obtained by insertions, and closures that count
    their calls and answer alternately.  `transform` and `transmute` call the closure six times; one that panics when
    called for the third time ends the call.  The joint functions: two pairs match and four keys of the first set match
    none, so there are six calls; with a bulk operation for the pairs four, for the rest two. -/
example : ∃ s vs, SMem Ex.exHash (c := Ex.c8) s vs ∧ (
    match vs[6]?, vs[2]? with
    | some t, some u =>
        let env : Ex.Tk → Nat → Option (SetTransformResult Unit × Nat) := fun _ n =>
          some (if n % 2 = 0 then .unchanged () else .removed (), n + 1)
        let envX : Ex.Tk → Nat → Option (SetTransmuteResult Nat Unit × Nat) := fun p n =>
          some (if n % 2 = 0 then .transmuted p.id () else .removed (), n + 1)
        let stop : Ex.Tk → Nat → Option (SetTransformResult Unit × Nat) := fun _ n =>
          if n = 2 then none else some (.unchanged (), n + 1)
        let envM : (p : Case Ex.Tk Ex.Tk) → Nat → Option (STwmAnswer Ex.Tk Ex.Tk Unit p × Nat) := fun p n =>
          match p with
          | .left _ => some (if n % 2 = 0 then .unchanged () else .removed (), n + 1)
          | .right _ => none
          | .both _ _ => some (if n % 2 = 0 then .unchanged () else .removed (), n + 1)
        let envW : (p : Case Ex.Tk Ex.Tk) → Nat → Option (SMwtAnswer Ex.Tk Ex.Tk Unit p × Nat) := fun p n =>
          match p with
          | .left _ => some (.removed (), n + 1)
          | .right _ => none
          | .both _ _ => some (if n % 2 = 0 then .unchanged () else .removed (), n + 1)
        let envMM : (p : Case Ex.Tk Ex.Tk) → Nat → Option (SMwmAnswer Ex.Tk Ex.Tk Nat Unit p × Nat) := fun p n =>
          match p with
          | .left a => some (.transmuted a.id (), n + 1)
          | .right _ => none
          | .both _ _ => some (.removed (), n + 1)
        let envT : (p : Case Ex.Tk Ex.Tk) → Nat → Option (STwtAnswer Ex.Tk Unit p × Nat) := fun p n =>
          match p with
          | .left _ => some (if n % 2 = 0 then .unchanged () else .removed (), n + 1)
          | .right _ => none
          | .both _ _ => some (if n % 2 = 0 then .unchangedLR () else .removed (), n + 1)
        Outcome.returned (fun st calls => st == 6 && calls == 6)
          ((t.transformE (fun _ _ => ()) () (.asking (.generic ())) .sequential).run s env 0) &&
        Outcome.returned (fun st calls => st == 0 && calls == 0)
          ((t.transformE (fun _ _ => ()) () (.asking (.removed ())) .sequential).run s env 0) &&
        Outcome.stopped 3 ((t.transformE (fun _ _ => ()) () (.asking (.generic ())) .middleIndex).run s stop 0) &&
        Outcome.returned (fun st calls => st == 6 && calls == 6)
          ((t.transmuteE (fun _ _ => ()) () (.asking (.generic ()))).run s envX 0) &&
        Outcome.returned (fun st calls => st == 6 && calls == 6)
          ((AHSet.twmAsk (fun _ _ => ()) () (Cross.same Ex.exHash) ⟨.generic (), .generic (), .generic ()⟩
            .sequential t u).run s envM 0) &&
        Outcome.returned (fun st calls => st == 4 && calls == 4)
          ((AHSet.twmAsk (fun _ _ => ()) () (Cross.same Ex.exHash) ⟨.removed (), .generic (), .generic ()⟩
            .sequential t u).run s envM 0) &&
        Outcome.returned (fun st calls => st == 2 && calls == 2)
          ((AHSet.twmAsk (fun _ _ => ()) () (Cross.same Ex.exHash) ⟨.generic (), .unchanged (), .generic ()⟩
            .sequential t u).run s envM 0) &&
        Outcome.returned (fun st calls => st == 6 && calls == 6)
          ((AHSet.mwtAsk (fun _ _ => ()) () (Cross.same Ex.exHash) ⟨.generic (), .generic (), .generic ()⟩
            .sequential t u).run s envW 0) &&
        Outcome.returned (fun st calls => st == 6 && calls == 6)
          ((AHSet.mwmAsk (fun _ _ => ()) () (Cross.same Ex.exHash) ⟨.generic (), .generic (), .generic ()⟩
            t u).run s envMM 0) &&
        Outcome.returned (fun st calls => st == 6 && calls == 6)
          ((AHSet.twtAsk (fun _ _ => ()) () Ex.exHash ⟨.generic () false, .generic (), .generic ()⟩
            .middleIndex t u).run s envT 0)
    | _, _ => false) = true :=
  exists_smem Ex.exHash (Ex.entries.map Prod.fst) _ (by decide +kernel)

/-- The transfute functions: two pairs match, four entries of one map match none.  The entries without a partner get
    new values under their own keys, so that the result has six entries. -/
example : ∃ s vs, Mem Ex.exHash (c := Ex.c8) (V := Nat) s vs ∧ (
    match vs[6]?, vs[2]? with
    | some t, some u =>
        let env : (p : Case (Ex.Tk × Nat) (Ex.Tk × Nat)) → Nat → Option (TwfAnswer Ex.Tk Nat Nat Unit p × Nat) :=
          fun p n =>
          match p with
          | .left _ => none
          | .right b => some (.transmuted (b.2 + n) (), n + 1)
          | .both _ _ => some (if n % 2 = 0 then .transformed n () else .unchanged (), n + 1)
        let env' : (p : Case (Ex.Tk × Nat) (Ex.Tk × Nat)) → Nat → Option (FwtAnswer Ex.Tk Nat Nat Unit p × Nat) :=
          fun p n =>
          match p with
          | .left b => some (.transmuted (b.2 + n) (), n + 1)
          | .right _ => none
          | .both _ _ => some (if n % 2 = 0 then .transformed n () else .unchanged (), n + 1)
        Outcome.returned (fun st calls => st == 6 && calls == 6)
          ((ATrie.twfAsk (fun _ _ => ()) () Ex.exHash ⟨.generic (), .generic (), .generic ()⟩
            .sequential u t).run s env 0) &&
        Outcome.returned (fun st calls => st == 2 && calls == 2)
          ((ATrie.twfAsk (fun _ _ => ()) () Ex.exHash ⟨.generic (), .generic (), .removed ()⟩
            .sequential u t).run s env 0) &&
        Outcome.returned (fun st calls => st == 6 && calls == 6)
          ((ATrie.fwtAsk (fun _ _ => ()) () Ex.exHash ⟨.generic (), .generic (), .generic ()⟩
            .middleIndex t u).run s env' 0)
    | _, _ => false) = true :=
  exists_mem Ex.exHash Ex.entries _ (by decide +kernel)

end HT
