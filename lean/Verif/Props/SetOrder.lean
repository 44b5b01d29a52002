import Verif.SetOrder
import Verif.Props.Order
import Verif.Props.SetEffects
/-!
# Property C68: the order in which set functions and transfute functions call closures, and the strategy

As C53, C54 and C55 (`Verif/Props/Order.lean`), of the set functions and the transfute functions.
-/
namespace HT

variable {K V L W S R R' σ σ' : Type} {c : Cfg}

/-! ## The calls do not depend on the answers -/

/-- C68: the calls of the set function `transform` do not depend on what the closure answers, its state, the reduction,
    the strategy, or where memory is allocated. -/
theorem C68_transform (reduce : R → R → R) (e : R) (reduce' : R' → R' → R') (e' : R') {o : SetTransform R Unit}
    {o' : SetTransform R' Unit} (ho : o.forget = o'.forget) (par par' : Par) (t : AHSet c K) (s s' : Nat)
    (env : K → σ → Option (SetTransformResult R × σ)) (env' : K → σ' → Option (SetTransformResult R' × σ')) (st : σ)
    (st' : σ') :
    SameCalls ((t.transformE reduce e o.asking par).run s env st)
      ((t.transformE reduce' e' o'.asking par').run s' env' st') := by
  rw [AHSet.transformE_eq, AHSet.transformE_eq]
  exact (C53_transform reduce e reduce' e' (SetTransform.forget_kind ho) par par' t.set s s' _ _ st st').wrapE rfl

/-- C68: the calls of the set function `transmute`. -/
theorem C68_transmute (reduce : R → R → R) (e : R) (reduce' : R' → R' → R') (e' : R') {o : SetTransmute R Unit}
    {o' : SetTransmute R' Unit} (ho : o.forget = o'.forget) (t : AHSet c K) (s s' : Nat)
    (env : K → σ → Option (SetTransmuteResult S R × σ)) (env' : K → σ' → Option (SetTransmuteResult S R' × σ')) (st : σ)
    (st' : σ') :
    SameCalls ((t.transmuteE reduce e o.asking).run s env st) ((t.transmuteE reduce' e' o'.asking).run s' env' st') := by
  rw [AHSet.transmuteE_eq, AHSet.transmuteE_eq]
  exact (C53_transmute reduce e reduce' e' (SetTransmute.forget_kind ho) t.set s s' _ _ st st').wrapE rfl

/-- C68: the calls of the set function `transform_with_transmuted`. -/
theorem C68_transform_with_transmuted (x : Cross c K L) (reduce : R → R → R) (e : R) (reduce' : R' → R' → R') (e' : R')
    {o : STwmKinds R} {o' : STwmKinds R'} (ho : o.forget = o'.forget) (par par' : Par) (t : AHSet c K) (u : AHSet c L) (s s' : Nat)
    (env : (p : Case K L) → σ → Option (STwmAnswer K L R p × σ)) (env' : (p : Case K L) → σ' → Option (STwmAnswer K L R' p × σ')) (st : σ)
    (st' : σ') :
    SameCalls ((AHSet.twmAsk reduce e x o par t u).run s env st)
      ((AHSet.twmAsk reduce' e' x o' par' t u).run s' env' st') := by
  rw [AHSet.twmAsk_eq, AHSet.twmAsk_eq]
  exact (C53_transform_with_transmuted x reduce e reduce' e' t.set u.set s s' (STwmKinds.forget_kinds ho) par par' _ _ st st').wrapE
    (STwmKinds.call_eq ho)

/-- C68: the calls of the set function `transmute_with_transformed`. -/
theorem C68_transmute_with_transformed (x : Cross c K L) (reduce : R → R → R) (e : R) (reduce' : R' → R' → R') (e' : R')
    {o : SMwtKinds R} {o' : SMwtKinds R'} (ho : o.forget = o'.forget) (par par' : Par) (t : AHSet c K) (u : AHSet c L) (s s' : Nat)
    (env : (p : Case K L) → σ → Option (SMwtAnswer K L R p × σ)) (env' : (p : Case K L) → σ' → Option (SMwtAnswer K L R' p × σ')) (st : σ)
    (st' : σ') :
    SameCalls ((AHSet.mwtAsk reduce e x o par t u).run s env st)
      ((AHSet.mwtAsk reduce' e' x o' par' t u).run s' env' st') := by
  rw [AHSet.mwtAsk_eq, AHSet.mwtAsk_eq]
  exact (C53_transmute_with_transformed x reduce e reduce' e' t.set u.set s s' (SMwtKinds.forget_kinds ho) par par' _ _ st st').wrapE
    (SMwtKinds.call_eq ho)

/-- C68: the calls of the set function `transmute_with_transmuted`. -/
theorem C68_transmute_with_transmuted (x : Cross c K L) (reduce : R → R → R) (e : R) (reduce' : R' → R' → R') (e' : R')
    {o : SMwmKinds R} {o' : SMwmKinds R'} (ho : o.forget = o'.forget) (t : AHSet c K) (u : AHSet c L) (s s' : Nat)
    (env : (p : Case K L) → σ → Option (SMwmAnswer K L S R p × σ)) (env' : (p : Case K L) → σ' → Option (SMwmAnswer K L S R' p × σ')) (st : σ)
    (st' : σ') :
    SameCalls ((AHSet.mwmAsk reduce e x o t u).run s env st)
      ((AHSet.mwmAsk reduce' e' x o' t u).run s' env' st') := by
  rw [AHSet.mwmAsk_eq, AHSet.mwmAsk_eq]
  exact (C53_transmute_with_transmuted x reduce e reduce' e' t.set u.set s s' (SMwmKinds.forget_kinds ho) _ _ st st').wrapE
    (SMwmKinds.call_eq ho)

/-- C68: the calls of the set function `transform_with_transformed`. -/
theorem C68_transform_with_transformed [BEq K] (hash : K → BitVec c.w) (reduce : R → R → R) (e : R) (reduce' : R' → R' → R') (e' : R')
    {o : STwtKinds R} {o' : STwtKinds R'} (ho : o.forget = o'.forget) (par par' : Par) (t : AHSet c K) (u : AHSet c K) (s s' : Nat)
    (env : (p : Case K K) → σ → Option (STwtAnswer K R p × σ)) (env' : (p : Case K K) → σ' → Option (STwtAnswer K R' p × σ')) (st : σ)
    (st' : σ') :
    SameCalls ((AHSet.twtAsk reduce e hash o par t u).run s env st)
      ((AHSet.twtAsk reduce' e' hash o' par' t u).run s' env' st') := by
  rw [AHSet.twtAsk_eq, AHSet.twtAsk_eq]
  exact (C53_transform_with_transformed hash reduce e reduce' e' (STwtKinds.forget_kinds ho) par par' t.set u.set s s' _ _ st st').wrapE
    (funext fun q => by cases q <;> rfl)

/-- C68: the calls of `transform_with_transfuted`. -/
theorem C68_transform_with_transfuted [BEq K] (hash : K → BitVec c.w) (reduce : R → R → R) (e : R) (reduce' : R' → R' → R') (e' : R')
    {o : TwfKinds R} {o' : TwfKinds R'} (ho : o.forget = o'.forget) (par par' : Par) (t : ATrie c K V) (u : ATrie c K W) (s s' : Nat)
    (env : (p : Case (K × V) (K × W)) → σ → Option (TwfAnswer K V W R p × σ)) (env' : (p : Case (K × V) (K × W)) → σ' → Option (TwfAnswer K V W R' p × σ')) (st : σ)
    (st' : σ') :
    SameCalls ((ATrie.twfAsk reduce e hash o par t u).run s env st)
      ((ATrie.twfAsk reduce' e' hash o' par' t u).run s' env' st') := by
  rw [ATrie.twfAsk_eq, ATrie.twfAsk_eq]
  exact (C53_transform_with_transmuted (Cross.one hash) reduce e reduce' e' t u s s' (TwfKinds.forget_kinds ho) par par' _ _ st st').sub
    (funext fun q => (transTwf_call q).trans (transTwf_call q).symm)

/-- C68: the calls of `transfute_with_transformed`. -/
theorem C68_transfute_with_transformed [BEq K] (hash : K → BitVec c.w) (reduce : R → R → R) (e : R) (reduce' : R' → R' → R') (e' : R')
    {o : FwtKinds R} {o' : FwtKinds R'} (ho : o.forget = o'.forget) (par par' : Par) (t : ATrie c K V) (u : ATrie c K W) (s s' : Nat)
    (env : (p : Case (K × V) (K × W)) → σ → Option (FwtAnswer K V W R p × σ)) (env' : (p : Case (K × V) (K × W)) → σ' → Option (FwtAnswer K V W R' p × σ')) (st : σ)
    (st' : σ') :
    SameCalls ((ATrie.fwtAsk reduce e hash o par t u).run s env st)
      ((ATrie.fwtAsk reduce' e' hash o' par' t u).run s' env' st') := by
  rw [ATrie.fwtAsk_eq, ATrie.fwtAsk_eq]
  exact (C53_transmute_with_transformed (Cross.one hash) reduce e reduce' e' t u s s' (FwtKinds.forget_kinds ho) par par' _ _ st st').sub
    (funext fun q => (transFwt_call q).trans (transFwt_call q).symm)

/-! ## The strategy makes no difference, also with closures that have a state -/

section
variable [BEq K] [BEq L] {hash : K → BitVec c.w} {s : Nat} {vs : List (AHSet c K)}

/-- C68: the set function `transform` with another strategy. -/
theorem C68_transform_strategy (laws : KeyLaws hash) (h : SMem hash s vs) {t : AHSet c K} (ht : t ∈ vs)
    (reduce : R → R → R) (e : R) (o : SetTransform R Unit) (par par' : Par)
    (env : K → σ → Option (SetTransformResult R × σ)) (st : σ) :
    SameReturnSet (Mon reduce e) ((t.transformE reduce e o.asking par).run s env st)
      ((t.transformE reduce e o.asking par').run s env st) := by
  rw [AHSet.transformE_eq, AHSet.transformE_eq]
  exact (C54_transform laws h.mem (List.mem_map.2 ⟨t, ht, rfl⟩) reduce e o.kind par par' _ st).wrapE

/-- C68: the set function `transform_with_transmuted` with another strategy. -/
theorem C68_transform_with_transmuted_strategy {x : Cross c K L} (laws : CrossLaws x) (h : SMem x.hash s vs)
    {t : AHSet c K} (ht : t ∈ vs) {u : AHSet c L} (hu : SReach c x.hash' u.erase) (reduce : R → R → R) (e : R)
    (o : STwmKinds R) (par par' : Par) (env : (p : Case K L) → σ → Option (STwmAnswer K L R p × σ)) (st : σ) :
    SameReturnSet (Mon reduce e) ((AHSet.twmAsk reduce e x o par t u).run s env st)
      ((AHSet.twmAsk reduce e x o par' t u).run s env st) := by
  rw [AHSet.twmAsk_eq, AHSet.twmAsk_eq]
  exact (C54_transform_with_transmuted laws reduce e h.mem (List.mem_map.2 ⟨t, ht, rfl⟩) (u := u.set) hu.map o.kinds par
    par' _ st).wrapE

/-- C68: the set function `transmute_with_transformed` with another strategy. -/
theorem C68_transmute_with_transformed_strategy {x : Cross c L K} (laws : CrossLaws x) (h : SMem x.hash' s vs)
    {t : AHSet c L} (ht : SReach c x.hash t.erase) {u : AHSet c K} (hu : u ∈ vs) (reduce : R → R → R) (e : R)
    (o : SMwtKinds R) (par par' : Par) (env : (p : Case L K) → σ → Option (SMwtAnswer L K R p × σ)) (st : σ) :
    SameReturnSet (Mon reduce e) ((AHSet.mwtAsk reduce e x o par t u).run s env st)
      ((AHSet.mwtAsk reduce e x o par' t u).run s env st) := by
  rw [AHSet.mwtAsk_eq, AHSet.mwtAsk_eq]
  exact (C54_transmute_with_transformed laws reduce e h.mem (t := t.set) ht.map (List.mem_map.2 ⟨u, hu, rfl⟩) o.kinds par
    par' _ st).wrapE

/-- C68: the set function `transform_with_transformed` with another strategy. -/
theorem C68_transform_with_transformed_strategy (laws : KeyLaws hash) (h : SMem hash s vs) {t u : AHSet c K}
    (ht : t ∈ vs) (hu : u ∈ vs) (reduce : R → R → R) (e : R) (o : STwtKinds R) (par par' : Par)
    (env : (p : Case K K) → σ → Option (STwtAnswer K R p × σ)) (st : σ) :
    SameReturnSet (Mon reduce e) ((AHSet.twtAsk reduce e hash o par t u).run s env st)
      ((AHSet.twtAsk reduce e hash o par' t u).run s env st) := by
  rw [AHSet.twtAsk_eq, AHSet.twtAsk_eq]
  exact (C54_transform_with_transformed laws h.mem (List.mem_map.2 ⟨t, ht, rfl⟩) (List.mem_map.2 ⟨u, hu, rfl⟩) reduce e
    o.kinds par par' _ st).wrapE

end

section
variable [BEq K] {hash : K → BitVec c.w} {s : Nat}

/-- C68: `transform_with_transfuted` with another strategy. -/
theorem C68_transform_with_transfuted_strategy (laws : KeyLaws hash) {vs : List (ATrie c K V)} (h : Mem hash s vs)
    {t : ATrie c K V} (ht : t ∈ vs) {u : ATrie c K W} (hu : Reach c hash u.erase) (reduce : R → R → R) (e : R)
    (o : TwfKinds R) (par par' : Par) (env : (p : Case (K × V) (K × W)) → σ → Option (TwfAnswer K V W R p × σ))
    (st : σ) :
    SameReturn (Mon reduce e) ((ATrie.twfAsk reduce e hash o par t u).run s env st)
      ((ATrie.twfAsk reduce e hash o par' t u).run s env st) := by
  rw [ATrie.twfAsk_eq, ATrie.twfAsk_eq]
  exact (C54_transform_with_transmuted (x := Cross.one hash) (CrossLaws.same laws) reduce e h ht hu o.kinds par par' _
    st).sub

/-- C68: `transfute_with_transformed` with another strategy. -/
theorem C68_transfute_with_transformed_strategy (laws : KeyLaws hash) {vs : List (ATrie c K W)} (h : Mem hash s vs)
    {t : ATrie c K V} (ht : Reach c hash t.erase) {u : ATrie c K W} (hu : u ∈ vs) (reduce : R → R → R) (e : R)
    (o : FwtKinds R) (par par' : Par) (env : (p : Case (K × V) (K × W)) → σ → Option (FwtAnswer K V W R p × σ))
    (st : σ) :
    SameReturn (Mon reduce e) ((ATrie.fwtAsk reduce e hash o par t u).run s env st)
      ((ATrie.fwtAsk reduce e hash o par' t u).run s env st) := by
  rw [ATrie.fwtAsk_eq, ATrie.fwtAsk_eq]
  exact (C54_transmute_with_transformed (x := Cross.one hash) (CrossLaws.same laws) reduce e h ht hu o.kinds par par' _
    st).sub

/-! ## The order of the calls -/

/-- C68: the set function `transform` calls the closure in the order of `visit`, except that keys of equal hash come in
    the opposite order. -/
theorem C68_transform_order (reduce : R → R → R) (e : R) (o : SetTransform R Unit) (par : Par) {t : AHSet c K}
    (ht : SReach c hash t.erase) (env : K → σ → Option (SetTransformResult R × σ)) (st : σ) (k l : K)
    (h : [k, l].Sublist (((t.transformE reduce e o.asking par).run s env st).2.map Sigma.fst)) :
    (hash k = hash l → [l, k].Sublist t.erase.visit) ∧ (hash k ≠ hash l → [k, l].Sublist t.erase.visit) := by
  rw [AHSet.transformE_eq, AHSet.run_wrapE] at h
  exact order_keys (C55_transform reduce e o.kind par (t := t.set) ht.map s _ st)
    ((Prog.run_sub (t.set.transformE reduce e o.kind.asking par)).2.calls ▸ h) fun q => rfl

/-- C68: the set function `transmute` calls the closure in the order of `visit`, except that keys of equal hash come in
    the opposite order. -/
theorem C68_transmute_order (reduce : R → R → R) (e : R) (o : SetTransmute R Unit) {t : AHSet c K}
    (ht : SReach c hash t.erase) (env : K → σ → Option (SetTransmuteResult S R × σ)) (st : σ) (k l : K)
    (h : [k, l].Sublist (((t.transmuteE reduce e o.asking).run s env st).2.map Sigma.fst)) :
    (hash k = hash l → [l, k].Sublist t.erase.visit) ∧ (hash k ≠ hash l → [k, l].Sublist t.erase.visit) := by
  rw [AHSet.transmuteE_eq, AHSet.run_wrapE] at h
  exact order_keys (C55_transmute reduce e o.kind (t := t.set) ht.map s _ st)
    ((Prog.run_sub (t.set.transmuteE reduce e o.kind.asking)).2.calls ▸ h) fun q => rfl

end

/-! ## The hypotheses hold of non-trivial sets -/

/-- A set of six keys obtained by insertions, 3, 5 and 7 with one hash.  The order of `visit` and that of the calls differ
    in those three only, with closures that answer alternately, that panic when called for the fourth time (after which
    there are no calls), and with either strategy.  A joint function with a bulk operation for the pairs: no calls for
    them. -/
example : ∃ s vs, SMem Ex.exHash (c := Ex.c8) s vs ∧ (
    match vs[6]?, vs[2]? with
    | some t, some u =>
        let env : Ex.Tk → Nat → Option (SetTransformResult Unit × Nat) := fun _ n =>
          some (if n % 2 = 0 then .unchanged () else .removed (), n + 1)
        let stop : Ex.Tk → Nat → Option (SetTransformResult Unit × Nat) := fun _ n =>
          if n = 3 then none else some (.unchanged (), n + 1)
        let envX : Ex.Tk → Nat → Option (SetTransmuteResult Nat Unit × Nat) := fun p n =>
          some (if n % 2 = 0 then .transmuted p.id () else .removed (), n + 1)
        let envM : (p : Case Ex.Tk Ex.Tk) → Nat → Option (STwmAnswer Ex.Tk Ex.Tk Unit p × Nat) := fun p n =>
          match p with
          | .left _ => some (if n % 2 = 0 then .unchanged () else .removed (), n + 1)
          | .right _ => none
          | .both _ _ => some (if n % 2 = 0 then .unchanged () else .removed (), n + 1)
        let left : Case Ex.Tk Ex.Tk → Nat := fun
          | .left a => a.id
          | .right _ => 0
          | .both _ _ => 1
        let calls := [5, 7, 3, 641, 11, 90]
        (t.erase.visit.map fun p => p.id) == [3, 7, 5, 641, 11, 90] &&
        ((t.transformE (fun _ _ => ()) () (.asking (.generic ())) .sequential).run s env 0).2.map (fun r => r.1.id) ==
          calls &&
        ((t.transformE (fun _ _ => ()) () (.asking (.generic ())) .middleIndex).run s env 0).2.map (fun r => r.1.id) ==
          calls &&
        ((t.transformE (fun _ _ => ()) () (.asking (.generic ())) .sequential).run s stop 0).2.map (fun r => r.1.id) ==
          calls.take 4 &&
        ((t.transmuteE (fun _ _ => ()) () (.asking (.generic ()))).run s envX 0).2.map (fun r => r.1.id) == calls &&
        ((AHSet.twmAsk (fun _ _ => ()) () (Cross.same Ex.exHash) ⟨.removed (), .generic (), .generic ()⟩
            .sequential t u).run s envM 0).2.map (fun r => left r.1) ==
        ((AHSet.twmAsk (fun _ _ => ()) () (Cross.same Ex.exHash) ⟨.unchanged (), .generic (), .generic ()⟩
            .middleIndex t u).run s envM 1).2.map (fun r => left r.1)
    | _, _ => false) = true :=
  exists_smem Ex.exHash (Ex.entries.map Prod.fst) _ (by decide +kernel)

end HT
