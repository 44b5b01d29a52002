import Verif.NatBase
/-! # Changing the type of the reduction: joint operations -/
namespace HT

variable {K V L W S X R R' : Type} {c : Cfg}
variable {reduce : R → R → R} {e : R} {reduce' : R' → R' → R'} {e' : R'} {g : R → R'}

section
variable (h : Hom reduce e reduce' e' g)
include h

/-! ### Lists and single nodes -/

theorem twmApart_nat (this : LNext K V) (a b : BitVec c.w) (d : Nat) (l : TRes (LNext K V) R)
    (r : XRes (LNext K V) R) : (twmApart reduce this a b d l r).mapOk (TRes.mapR g) =
      twmApart reduce' this a b d (l.mapR g) (r.mapR g) := by
  simp only [twmApart]
  refine Res.bind_nat (f := id) (by cases flagOf a d <;> rfl) fun lf => ?_
  refine Res.bind_nat (f := id) (by cases flagOf b d <;> rfl) fun rf => ?_
  cases l <;> cases r <;> simp only [TRes.mapR, XRes.mapR, Res.mapOk_ok, h.op, id] <;>
    first | rfl | exact Res.bind_nat (f := id) (by generalize liftN _ _ _ _ = z; cases z <;> rfl) (fun m => (by simp only [TRes.mapR, Res.mapOk_ok, h.op, id]))

theorem mwtApart_nat (right : LNext K V) (a b : BitVec c.w) (d : Nat) (l : XRes (LNext K V) R)
    (r : TRes (LNext K V) R) : (mwtApart reduce right a b d l r).mapOk (TRes.mapR g) =
      mwtApart reduce' right a b d (l.mapR g) (r.mapR g) := by
  simp only [mwtApart]
  refine Res.bind_nat (f := id) (by cases flagOf a d <;> rfl) fun lf => ?_
  refine Res.bind_nat (f := id) (by cases flagOf b d <;> rfl) fun rf => ?_
  cases l <;> cases r <;> simp only [TRes.mapR, XRes.mapR, Res.mapOk_ok, h.op, id] <;>
    first | rfl | exact Res.bind_nat (f := id) (by generalize liftN _ _ _ _ = z; cases z <;> rfl) (fun m => (by simp only [TRes.mapR, Res.mapOk_ok, h.op, id]))

theorem mwmApart_nat (a b : BitVec c.w) (d : Nat) (l r : XRes (LNext S X) R) :
    (mwmApart reduce a b d l r).mapOk (XRes.mapR g) = mwmApart reduce' a b d (l.mapR g) (r.mapR g) := by
  simp only [mwmApart]
  refine Res.bind_nat (f := id) (by cases flagOf a d <;> rfl) fun lf => ?_
  refine Res.bind_nat (f := id) (by cases flagOf b d <;> rfl) fun rf => ?_
  cases l <;> cases r <;> simp only [XRes.mapR, Res.mapOk_ok, h.op, id] <;>
    first | rfl | exact Res.bind_nat (f := id) (by generalize liftN _ _ _ _ = z; cases z <;> rfl) (fun m => (by simp only [XRes.mapR, Res.mapOk_ok, h.op, id]))

theorem twtApart_nat (this right : LNext K V) (a b : BitVec c.w) (d : Nat) (l r : TRes (LNext K V) R) :
    (twtApart reduce this right a b d l r).mapOk (JRes.mapR g) =
      twtApart reduce' this right a b d (l.mapR g) (r.mapR g) := by
  simp only [twtApart]
  refine Res.bind_nat (f := id) (by cases flagOf a d <;> rfl) fun lf => ?_
  refine Res.bind_nat (f := id) (by cases flagOf b d <;> rfl) fun rf => ?_
  cases l <;> cases r <;> simp only [TRes.mapR, JRes.mapR, Res.mapOk_ok, h.op, id] <;>
    first | rfl | exact Res.bind_nat (f := id) (by generalize liftN _ _ _ _ = z; cases z <;> rfl) (fun m => (by simp only [JRes.mapR, Res.mapOk_ok, h.op, id]))

variable (x : Cross c K L)

/-! transform_with_transmuted -/

theorem SNode.twmImpl_nat (ops : TwmOps K V L W R) (s : SNode K V) (rk : L) (rv : W) :
    s.twmImpl x reduce' (ops.mapR g) rk rv = (s.twmImpl x reduce ops rk rv).mapR g := by
  simp only [SNode.twmImpl, TwmOps.mapR, MapTransform.mapR2_call, MapTransform.mapR_call,
    MapTransmute.mapR_call]
  split
  · cases ops.both.call2 s.key s.value rk rv <;> rfl
  · cases ops.left.call s.key s.value <;> cases ops.right.call rk rv <;>
      simp [MapTransformResult.mapR, MapTransmuteResult.mapR, TRes.mapR, h.op]

theorem SNode.twm_nat (ops : TwmOps K V L W R) (s : SNode K V) (r : SNode L W) (d : Nat) :
    s.twm x reduce' (ops.mapR g) r d = (s.twm x reduce ops r d).mapOk (TRes.mapR g) := by
  simp only [SNode.twm]
  split
  · rw [SNode.twmImpl_nat h]; simp
  · rw [twmApart_nat h]; simp [TwmOps.mapR]

theorem LNode.twmSImpl_nat (ops : TwmOps K V L W R) (r : SNode L W) :
    ∀ l : LNode K V, l.twmSImpl x reduce' (ops.mapR g) r = (l.twmSImpl x reduce ops r).mapR g
  | .nextS k v s z => by
    simp only [LNode.twmSImpl]
    rw [SNode.twmImpl_nat h]
    simp only [TwmOps.mapR, MapTransform.mapR2_call, MapTransform.mapR_call, SNode.transform_nat, ← TRes.mapR_map]
    split <;> rw [LNode.transformResult_nat h]
  | .nextL k v l z => by
    simp only [LNode.twmSImpl]
    rw [LNode.twmSImpl_nat ops r l]
    simp only [TwmOps.mapR, MapTransform.mapR2_call, MapTransform.mapR_call, LNode.transform_nat h]
    split <;> rw [LNode.transformResult_nat h]

theorem LNode.twmS_nat (ops : TwmOps K V L W R) (l : LNode K V) (r : SNode L W) (d : Nat) :
    l.twmS x reduce' (ops.mapR g) r d = (l.twmS x reduce ops r d).mapOk (TRes.mapR g) := by
  simp only [LNode.twmS]
  split
  · rw [LNode.twmSImpl_nat h]; simp
  · rw [twmApart_nat h]; simp [TwmOps.mapR, LNode.transform_nat h]

theorem SNode.twmLast_nat (ops : TwmOps K V L W R) (s : SNode K V) (rights : List (L × W)) :
    s.twmLast x reduce' (ops.mapR g) rights = Prod.map (TRes.mapR g) id (s.twmLast x reduce ops rights) := by
  simp only [SNode.twmLast]
  cases takeMatch (fun e => x.eq s.key e.1) rights with
  | none => simp [TwmOps.mapR]
  | some b => simp [SNode.twmImpl_nat h]

theorem TwmOps.step_nat (ops : TwmOps K V L W R) (k : K) (v : V) (rights : List (L × W)) :
    (ops.mapR g).step x k v rights = Prod.map (MapTransformResult.mapR g) id (ops.step x k v rights) := by
  simp only [TwmOps.step]
  cases takeMatch (fun e => x.eq k e.1) rights with
  | none => simp [TwmOps.mapR]
  | some b => simp [TwmOps.mapR]

theorem LNode.twmLImpl_nat (ops : TwmOps K V L W R) : ∀ (l : LNode K V) (rights : List (L × W)),
    l.twmLImpl x reduce' (ops.mapR g) rights = Prod.map (TRes.mapR g) id (l.twmLImpl x reduce ops rights)
  | .nextS k v s z, rights => by
    simp only [LNode.twmLImpl, SNode.twmLast_nat h, TwmOps.step_nat h, Prod.map, id,
      LNode.transformResult_nat h]
  | .nextL k v l z, rights => by
    simp only [LNode.twmLImpl, LNode.twmLImpl_nat ops l, TwmOps.step_nat h, Prod.map, id,
      LNode.transformResult_nat h]

theorem TwmOps.leftover_nat (ops : TwmOps K V L W R) (this : LNode K V) (next : TRes (LNext K V) R) (b : L × W) :
    (ops.mapR g).leftover reduce' this (next.mapR g) b = (ops.leftover reduce this next b).mapR g := by
  simp only [TwmOps.leftover, TwmOps.mapR, MapTransmute.mapR_call]
  cases ops.right.call b.1 b.2 <;> cases next <;> simp [MapTransmuteResult.mapR, TRes.mapR, h.op]

theorem LNode.twmL_nat (ops : TwmOps K V L W R) (l : LNode K V) (r : LNode L W) (d : Nat) :
    l.twmL x reduce' (ops.mapR g) r d = (l.twmL x reduce ops r d).mapOk (TRes.mapR g) := by
  simp only [LNode.twmL]
  split
  · rw [Res.bind_mapOk]
    congr 1; funext rights
    simp only [LNode.twmLImpl_nat h, Prod.map, id, Res.mapOk_ok, TRes.mapR_map]
    congr 2
    generalize (LNode.twmLImpl x reduce ops l rights).1 = z
    induction (LNode.twmLImpl x reduce ops l rights).2 generalizing z with
    | nil => rfl
    | cons b bs ih => rw [List.foldl_cons, List.foldl_cons, TwmOps.leftover_nat h, ih]
  · rw [twmApart_nat h]; simp [TwmOps.mapR, LNode.transform_nat h, LNode.transmute_nat h]

/-! transmute_with_transformed -/

theorem SNode.mwtImpl_nat (ops : MwtOps K V L W R) (s : SNode K V) (r : SNode L W) :
    s.mwtImpl x reduce' (ops.mapR g) r = (s.mwtImpl x reduce ops r).mapR g := by
  simp only [SNode.mwtImpl, MwtOps.mapR, MapTransform.mapR2_call, MapTransform.mapR_call,
    MapTransmute.mapR_call]
  split
  · cases ops.both.call2 s.key s.value r.key r.value <;> rfl
  · cases ops.left.call s.key s.value <;> cases ops.right.call r.key r.value <;>
      simp [MapTransformResult.mapR, MapTransmuteResult.mapR, TRes.mapR, h.op]

theorem SNode.mwt_nat (ops : MwtOps K V L W R) (s : SNode K V) (r : SNode L W) (d : Nat) :
    s.mwt x reduce' (ops.mapR g) r d = (s.mwt x reduce ops r d).mapOk (TRes.mapR g) := by
  simp only [SNode.mwt]
  split
  · rw [SNode.mwtImpl_nat h]; simp
  · rw [mwtApart_nat h]; simp [MwtOps.mapR]

theorem SNode.withTransmuted_nat (s : SNode K V) (r : MapTransformResult V R) (n : XRes (LNext K V) R) :
    s.withTransmuted reduce' (r.mapR g) (n.mapR g) = (s.withTransmuted reduce r n).mapR g := by
  cases r <;> cases n <;> simp [SNode.withTransmuted, MapTransformResult.mapR, XRes.mapR, TRes.mapR, h.op]

theorem SNode.withTransformed_nat (s : SNode K V) (r : MapTransmuteResult K V R) (n : TRes (LNext K V) R) :
    s.withTransformed reduce' (r.mapR g) (n.mapR g) = (s.withTransformed reduce r n).mapR g := by
  cases r <;> cases n <;> simp [SNode.withTransformed, MapTransmuteResult.mapR, TRes.mapR, h.op]

theorem LNode.mwtSImpl_nat (ops : MwtOps K V L W R) (r : SNode L W) :
    ∀ l : LNode K V, l.mwtSImpl x reduce' (ops.mapR g) r = (l.mwtSImpl x reduce ops r).mapR g
  | .nextS k v s z => by
    simp only [LNode.mwtSImpl]
    rw [SNode.mwtImpl_nat h]
    simp only [MwtOps.mapR, MapTransform.mapR2_call, MapTransmute.mapR_call, SNode.transmute_nat, ← XRes.mapR_map]
    split
    · rw [SNode.withTransmuted_nat h]
    · rw [SNode.withTransformed_nat h]
  | .nextL k v l z => by
    simp only [LNode.mwtSImpl]
    rw [LNode.mwtSImpl_nat ops r l]
    simp only [MwtOps.mapR, MapTransform.mapR2_call, MapTransmute.mapR_call, LNode.transmute_nat h]
    split
    · rw [SNode.withTransmuted_nat h]
    · rw [SNode.withTransformed_nat h]

theorem LNode.mwtS_nat (ops : MwtOps K V L W R) (l : LNode K V) (r : SNode L W) (d : Nat) :
    l.mwtS x reduce' (ops.mapR g) r d = (l.mwtS x reduce ops r d).mapOk (TRes.mapR g) := by
  simp only [LNode.mwtS]
  split
  · rw [LNode.mwtSImpl_nat h]; simp
  · rw [mwtApart_nat h]; simp [MwtOps.mapR, LNode.transmute_nat h]

/-! transmute_with_transmuted -/

theorem SNode.mwmValues_nat (ops : MwmOps K V L W S X R) (lk : K) (lv : V) (rk : L) (rv : W) :
    SNode.mwmValues x reduce' (ops.mapR g) lk lv rk rv = (SNode.mwmValues x reduce ops lk lv rk rv).mapR g := by
  simp only [SNode.mwmValues, MwmOps.mapR, MapTransmute.mapR2_call, MapTransmute.mapR_call]
  split
  · cases ops.both.call2 lk lv rk rv <;> rfl
  · cases ops.left.call lk lv <;> cases ops.right.call rk rv <;>
      simp [MapTransmuteResult.mapR, XRes.mapR, h.op]

theorem SNode.mwm_nat (ops : MwmOps K V L W S X R) (s : SNode K V) (r : SNode L W) (d : Nat) :
    s.mwm x reduce' (ops.mapR g) r d = (s.mwm x reduce ops r d).mapOk (XRes.mapR g) := by
  simp only [SNode.mwm]
  split
  · rw [SNode.mwmValues_nat h]; simp
  · rw [mwmApart_nat h]; simp [MwmOps.mapR]

theorem LNode.mwmSImpl_nat (ops : MwmOps K V L W S X R) (r : SNode L W) :
    ∀ l : LNode K V, l.mwmSImpl x reduce' (ops.mapR g) r = (l.mwmSImpl x reduce ops r).mapR g
  | .nextS k v s z => by
    simp only [LNode.mwmSImpl]
    rw [SNode.mwmValues_nat h]
    simp only [MwmOps.mapR, MapTransmute.mapR2_call, MapTransmute.mapR_call, SNode.transmute_nat, ← XRes.mapR_map]
    split <;> rw [LNode.transmuteResult_nat h]
  | .nextL k v l z => by
    simp only [LNode.mwmSImpl]
    rw [LNode.mwmSImpl_nat ops r l]
    simp only [MwmOps.mapR, MapTransmute.mapR2_call, MapTransmute.mapR_call, LNode.transmute_nat h]
    split <;> rw [LNode.transmuteResult_nat h]

theorem LNode.mwmS_nat (ops : MwmOps K V L W S X R) (l : LNode K V) (r : SNode L W) (d : Nat) :
    l.mwmS x reduce' (ops.mapR g) r d = (l.mwmS x reduce ops r d).mapOk (XRes.mapR g) := by
  simp only [LNode.mwmS]
  split
  · rw [LNode.mwmSImpl_nat h]; simp
  · rw [mwmApart_nat h]; simp [MwmOps.mapR, LNode.transmute_nat h]

theorem SNode.mwmLast_nat (ops : MwmOps K V L W S X R) (s : SNode K V) (rights : List (L × W)) :
    s.mwmLast x reduce' (ops.mapR g) rights = Prod.map (XRes.mapR g) id (s.mwmLast x reduce ops rights) := by
  simp only [SNode.mwmLast]
  cases takeMatch (fun e => x.eq s.key e.1) rights with
  | none => simp [MwmOps.mapR]
  | some b => simp [SNode.mwmValues_nat h]

theorem MwmOps.step_nat (ops : MwmOps K V L W S X R) (k : K) (v : V) (rights : List (L × W)) :
    (ops.mapR g).step x k v rights = Prod.map (MapTransmuteResult.mapR g) id (ops.step x k v rights) := by
  simp only [MwmOps.step]
  cases takeMatch (fun e => x.eq k e.1) rights with
  | none => simp [MwmOps.mapR]
  | some b => simp [MwmOps.mapR]

theorem LNode.mwmLImpl_nat (ops : MwmOps K V L W S X R) : ∀ (l : LNode K V) (rights : List (L × W)),
    l.mwmLImpl x reduce' (ops.mapR g) rights = Prod.map (XRes.mapR g) id (l.mwmLImpl x reduce ops rights)
  | .nextS k v s z, rights => by
    simp only [LNode.mwmLImpl, SNode.mwmLast_nat h, MwmOps.step_nat h, Prod.map, id,
      LNode.transmuteResult_nat h]
  | .nextL k v l z, rights => by
    simp only [LNode.mwmLImpl, LNode.mwmLImpl_nat ops l, MwmOps.step_nat h, Prod.map, id,
      LNode.transmuteResult_nat h]

theorem MwmOps.leftover_nat (ops : MwmOps K V L W S X R) (next : XRes (LNext S X) R) (b : L × W) :
    (ops.mapR g).leftover reduce' (next.mapR g) b = (ops.leftover reduce next b).mapR g := by
  simp only [MwmOps.leftover, MwmOps.mapR, MapTransmute.mapR_call]
  cases ops.right.call b.1 b.2 <;> cases next <;> simp [MapTransmuteResult.mapR, XRes.mapR, h.op]

theorem LNode.mwmL_nat (ops : MwmOps K V L W S X R) (l : LNode K V) (r : LNode L W) (d : Nat) :
    l.mwmL x reduce' (ops.mapR g) r d = (l.mwmL x reduce ops r d).mapOk (XRes.mapR g) := by
  simp only [LNode.mwmL]
  split
  · rw [Res.bind_mapOk]
    congr 1; funext rights
    simp only [LNode.mwmLImpl_nat h, Prod.map, id, Res.mapOk_ok, XRes.mapR_map]
    congr 2
    generalize (LNode.mwmLImpl x reduce ops l rights).1 = z
    induction (LNode.mwmLImpl x reduce ops l rights).2 generalizing z with
    | nil => rfl
    | cons b bs ih => rw [List.foldl_cons, List.foldl_cons, MwmOps.leftover_nat h, ih]
  · rw [mwmApart_nat h]; simp [MwmOps.mapR, LNode.transmute_nat h]

/-! transform_with_transformed -/

omit x
variable [BEq K] (hash : K → BitVec c.w)

theorem SNode.twtImpl_nat (ops : TwtOps K V R) (s r : SNode K V) :
    s.twtImpl reduce' (ops.mapR g) r = (s.twtImpl reduce ops r).mapR g := by
  simp only [SNode.twtImpl, TwtOps.mapR, MapJointTransform.mapR_call, MapTransform.mapR_call]
  split
  · cases ops.both.call s.key s.value r.key r.value <;> rfl
  · cases ops.left.call s.key s.value <;> cases ops.right.call r.key r.value <;>
      simp [MapTransformResult.mapR, JRes.mapR, h.op]

theorem SNode.twt_nat (ops : TwtOps K V R) (s r : SNode K V) (d : Nat) :
    s.twt reduce' hash (ops.mapR g) r d = (s.twt reduce hash ops r d).mapOk (JRes.mapR g) := by
  simp only [SNode.twt]
  split
  · rw [SNode.twtImpl_nat h]; simp
  · rw [twtApart_nat h]; simp [TwtOps.mapR]

omit [BEq K] in
theorem LNode.jointThenPlain_nat (this : LNode K V) (r : MapJointTransformResult V R) (that : SNode K V)
    (next : TRes (LNext K V) R) : LNode.jointThenPlain reduce' this (r.mapR g) that (next.mapR g) =
      (LNode.jointThenPlain reduce this r that next).mapR g := by
  cases r <;> cases next <;>
    simp [LNode.jointThenPlain, MapJointTransformResult.mapR, TRes.mapR, JRes.mapR, h.op]

omit [BEq K] in
theorem LNode.plainThenJoint_nat (this : LNode K V) (r : MapTransformResult V R) (that : SNode K V)
    (next : JRes (LNext K V) R) : LNode.plainThenJoint reduce' this (r.mapR g) that (next.mapR g) =
      (LNode.plainThenJoint reduce this r that next).mapR g := by
  cases r <;> cases next <;>
    simp [LNode.plainThenJoint, MapTransformResult.mapR, JRes.mapR, h.op]

theorem LNode.twtSImpl_nat (ops : TwtOps K V R) (r : SNode K V) :
    ∀ l : LNode K V, l.twtSImpl reduce' (ops.mapR g) r = (l.twtSImpl reduce ops r).mapR g
  | .nextS k v s z => by
    simp only [LNode.twtSImpl]
    rw [SNode.twtImpl_nat h]
    simp only [TwtOps.mapR, MapJointTransform.mapR_call, MapTransform.mapR_call, SNode.transform_nat, ← TRes.mapR_map]
    split
    · rw [LNode.jointThenPlain_nat h]
    · rw [LNode.plainThenJoint_nat h]
  | .nextL k v l z => by
    simp only [LNode.twtSImpl]
    rw [LNode.twtSImpl_nat ops r l]
    simp only [TwtOps.mapR, MapJointTransform.mapR_call, MapTransform.mapR_call, LNode.transform_nat h]
    split
    · rw [LNode.jointThenPlain_nat h]
    · rw [LNode.plainThenJoint_nat h]

theorem LNode.twtS_nat (ops : TwtOps K V R) (l : LNode K V) (r : SNode K V) (d : Nat) :
    l.twtS reduce' hash (ops.mapR g) r d = (l.twtS reduce hash ops r d).mapOk (JRes.mapR g) := by
  simp only [LNode.twtS]
  split
  · rw [LNode.twtSImpl_nat h]; simp
  · rw [twtApart_nat h]; simp [TwtOps.mapR, LNode.transform_nat h]

omit [BEq K] in
theorem LNode.jointThenJoint_nat (this : LNode K V) (r : MapJointTransformResult V R) (that : Option (K × V))
    (next : JRes (LNext K V) R) : LNode.jointThenJoint reduce' this (r.mapR g) that (next.mapR g) =
      (LNode.jointThenJoint reduce this r that next).mapOk (JRes.mapR g) := by
  cases r <;> cases next <;> cases that <;>
    simp [LNode.jointThenJoint, MapJointTransformResult.mapR, JRes.mapR, h.op]

theorem SNode.twtLast_nat (ops : TwtOps K V R) (s : SNode K V) (rights : List (K × V)) :
    s.twtLast reduce' (ops.mapR g) rights = Prod.map (JRes.mapR g) id (s.twtLast reduce ops rights) := by
  simp only [SNode.twtLast]
  cases takeMatch (fun e => s.key == e.1) rights with
  | none => simp [TwtOps.mapR]
  | some b => simp [SNode.twtImpl_nat h]

theorem TwtOps.step_nat (ops : TwtOps K V R) (k : K) (v : V) (rights : List (K × V)) :
    (ops.mapR g).step k v rights = Prod.map (MapJointTransformResult.mapR g) id (ops.step k v rights) := by
  simp only [TwtOps.step]
  cases takeMatch (fun e => k == e.1) rights with
  | none => simp [TwtOps.mapR]
  | some b => simp [TwtOps.mapR]

theorem LNode.twtLImpl_nat (ops : TwtOps K V R) : ∀ (l : LNode K V) (rights : List (K × V)),
    l.twtLImpl reduce' (ops.mapR g) rights = (l.twtLImpl reduce ops rights).mapOk (Prod.map (JRes.mapR g) id)
  | .nextS k v s z, rights => by
    simp only [LNode.twtLImpl, SNode.twtLast_nat h, TwtOps.step_nat h, Prod.map, id]
    refine (Res.bind_nat (LNode.jointThenJoint_nat h ..).symm fun a => ?_).symm
    rfl
  | .nextL k v l z, rights => by
    simp only [LNode.twtLImpl, LNode.twtLImpl_nat ops l]
    refine (Res.bind_nat rfl fun next => ?_).symm
    simp only [TwtOps.step_nat h, Prod.map, id]
    refine Res.bind_nat (LNode.jointThenJoint_nat h ..).symm fun a => ?_
    rfl

omit [BEq K] in
theorem TwtOps.leftover_nat (ops : TwtOps K V R) (this : LNode K V) (next : JRes (LNext K V) R) (b : K × V) :
    (ops.mapR g).leftover reduce' this (next.mapR g) b = (ops.leftover reduce this next b).mapOk (JRes.mapR g) := by
  simp only [TwtOps.leftover, TwtOps.mapR, MapTransform.mapR_call]
  cases ops.right.call b.1 b.2 <;> cases next <;> simp [MapTransformResult.mapR, JRes.mapR, h.op]

omit [BEq K] in
theorem TwtOps.leftovers_nat (ops : TwtOps K V R) (this : LNode K V) (rights : List (K × V)) :
    ∀ (next : JRes (LNext K V) R), (ops.mapR g).leftovers reduce' this rights (next.mapR g) =
      (ops.leftovers reduce this rights next).mapOk (JRes.mapR g) := by
  induction rights with
  | nil => intro next; rfl
  | cons b bs ih =>
    intro next
    simp only [TwtOps.leftovers]
    exact (Res.bind_nat (TwtOps.leftover_nat h ..).symm fun a => (ih a).symm).symm

theorem LNode.twtL_nat (ops : TwtOps K V R) (l r : LNode K V) (d : Nat) :
    l.twtL reduce' hash (ops.mapR g) r d = (l.twtL reduce hash ops r d).mapOk (JRes.mapR g) := by
  simp only [LNode.twtL]
  split
  · rw [Res.bind_mapOk]
    congr 1; funext rights
    refine (Res.bind_nat (LNode.twtLImpl_nat h ..).symm fun a => ?_).symm
    refine Res.bind_nat (TwtOps.leftovers_nat h ..).symm fun a => ?_
    simp
  · rw [twtApart_nat h]; simp [TwtOps.mapR, LNode.transform_nat h]

end

/-! ### Loops over branch nodes -/

section
variable {n : Nat}

theorem TRes.itemOpt_nat (g : R → R') (keep : Bool) (node? : Option (Node n K V)) (res : TRes (Node n K V) R) :
    (res.mapR g).itemOpt keep node? = (res.itemOpt keep node?).mapOk (Item.mapR g) := by
  cases res <;> cases node? <;> rfl

theorem XRes.item_nat (g : R → R') (res : XRes (Node n S X) R) : (res.mapR g).item = res.item.mapR g := by
  cases res <;> rfl

theorem JRes.itemOpt_nat (g : R → R') (l? r? : Option (Node n K V)) (res : JRes (Node n K V) R) :
    (res.mapR g).itemOpt l? r? = (res.itemOpt l? r?).mapOk (Item.mapR g) := by
  cases res <;> cases l? <;> cases r? <;> rfl

theorem flatItem_nat {ρ ρ' ι ι' ε : Type} (G : ρ → ρ') (I : ι → ι') (flag : BitVec n) (index : Nat)
    (child : Except ε (Node n K V × Res ρ)) {elsewhere : Node n K V → Res ρ} {elsewhere' : Node n K V → Res ρ'}
    (he : ∀ m, elsewhere' m = (elsewhere m).mapOk G) {alone : ρ} {alone' : ρ'} (ha : alone' = G alone)
    {item : Option (Node n K V) → ρ → Res ι} {item' : Option (Node n K V) → ρ' → Res ι'}
    (hi : ∀ o r, item' o (G r) = (item o r).mapOk I) {skip : ι} {skip' : ι'} (hs : skip' = I skip) :
    flatItem flag index (Except.map (Prod.map id (Res.mapOk G)) child) elsewhere' alone' item' skip' =
      (flatItem flag index child elsewhere alone item skip).mapOk I := by
  subst ha hs
  simp only [flatItem]
  cases nthBit n index with
  | error _ => rfl
  | ok bit =>
    simp only [Res.unwrapE_ok, Res.ok_bind]
    cases child with
    | error _ =>
      simp only [Except.map]
      split
      · exact hi none alone
      · rfl
    | ok mr =>
      obtain ⟨m, run⟩ := mr
      simp only [Except.map, Prod.map, id]
      split
      · exact (Res.bind_nat rfl fun a => (hi _ a).symm).symm
      · exact (Res.bind_nat (he m).symm fun a => (hi _ a).symm).symm

theorem flatLoop_nat (h : Hom reduce e reduce' e' g) {ρ ρ' : Type} (G : ρ → ρ') (rh : BitVec c.w) (d : Nat)
    (bits : BitVec c.n) (vs : List (Node c.n K V × Res ρ)) (z : Nat)
    {elsewhere : Node c.n K V → Res ρ} {elsewhere' : Node c.n K V → Res ρ'}
    (he : ∀ m, elsewhere' m = (elsewhere m).mapOk G) {alone : ρ} {alone' : ρ'} (ha : alone' = G alone)
    {item : Option (Node c.n K V) → ρ → Res (Item c.n S X R)}
    {item' : Option (Node c.n K V) → ρ' → Res (Item c.n S X R')}
    (hi : ∀ o r, item' o (G r) = (item o r).mapOk (Item.mapR g)) :
    flatLoop reduce' e' rh d ⟨bits, vs.map (Prod.map id (Res.mapOk G)), z⟩ elsewhere' alone' item' =
      (flatLoop reduce e rh d ⟨bits, vs, z⟩ elsewhere alone item).mapOk (Acc.mapR g) := by
  simp only [flatLoop]
  rw [Res.bind_mapOk]
  congr 1; funext flag
  rw [Acc.gather_nat h]
  congr 1; funext index
  rw [Bia.atBitIndex_map]
  refine (Res.bind_nat rfl fun child => ?_).symm
  exact (flatItem_nat G (Item.mapR g) _ _ child he ha hi rfl).symm

theorem bothItem_nat {ρ ρ' ι ι' ε ε' : Type} (G : ρ → ρ') (I : ι → ι')
    (child : Except ε (Node n K V × (Node n L W → Res ρ))) (rchild : Except ε' (Node n L W))
    {onlyL : Node n K V → Res ρ} {onlyL' : Node n K V → Res ρ'} (hl : ∀ m, onlyL' m = (onlyL m).mapOk G)
    {onlyR : Node n L W → Res ρ} {onlyR' : Node n L W → Res ρ'} (hr : ∀ m, onlyR' m = (onlyR m).mapOk G)
    {item : Option (Node n K V) → Option (Node n L W) → ρ → Res ι}
    {item' : Option (Node n K V) → Option (Node n L W) → ρ' → Res ι'}
    (hi : ∀ o o' r, item' o o' (G r) = (item o o' r).mapOk I) {skip : ι} {skip' : ι'} (hs : skip' = I skip) :
    bothItem (Except.map (Prod.map id fun f r => (f r).mapOk G) child) rchild onlyL' onlyR' item' skip' =
      (bothItem child rchild onlyL onlyR item skip).mapOk I := by
  subst hs
  cases child with
  | error _ =>
    cases rchild with
    | error _ => rfl
    | ok r => exact (Res.bind_nat (hr r).symm fun a => (hi _ _ a).symm).symm
  | ok mr =>
    obtain ⟨m, run⟩ := mr
    cases rchild with
    | error _ => exact (Res.bind_nat (hl m).symm fun a => (hi _ _ a).symm).symm
    | ok r => exact (Res.bind_nat rfl fun a => (hi _ _ a).symm).symm

theorem bothLoop_nat (h : Hom reduce e reduce' e' g) {ρ ρ' : Type} (G : ρ → ρ') (par : Par)
    (bits : BitVec n) (vs : List (Node n K V × (Node n L W → Res ρ))) (z : Nat) (right : Bia n (Node n L W))
    {onlyL : Node n K V → Res ρ} {onlyL' : Node n K V → Res ρ'} (hl : ∀ m, onlyL' m = (onlyL m).mapOk G)
    {onlyR : Node n L W → Res ρ} {onlyR' : Node n L W → Res ρ'} (hr : ∀ m, onlyR' m = (onlyR m).mapOk G)
    {item : Option (Node n K V) → Option (Node n L W) → ρ → Res (Item n S X R)}
    {item' : Option (Node n K V) → Option (Node n L W) → ρ' → Res (Item n S X R')}
    (hi : ∀ o o' r, item' o o' (G r) = (item o o' r).mapOk (Item.mapR g)) :
    bothLoop reduce' e' par ⟨bits, vs.map (Prod.map id fun f r => (f r).mapOk G), z⟩ right onlyL' onlyR' item' =
      (bothLoop reduce e par ⟨bits, vs, z⟩ right onlyL onlyR item).mapOk (Acc.mapR g) := by
  simp only [bothLoop]
  rw [Acc.gather_nat h]
  congr 1; funext index
  rw [Bia.atBitIndex_map]
  refine (Res.bind_nat rfl fun child => ?_).symm
  rw [Res.bind_mapOk]
  congr 1; funext rchild
  exact (bothItem_nat G (Item.mapR g) child rchild hl hr hi rfl).symm

end

section
variable (h : Hom reduce e reduce' e' g)
include h

/-! ### Nodes -/

theorem fold_map_fst {n : Nat} {β β' : Type} (f : β → β') (l : List (Node n K V × β)) :
    (l.map (Prod.map id f)).map Prod.fst = l.map Prod.fst := by
  rw [List.map_map]; rfl

theorem toT_nat {n : Nat} (m : Node n L W) (op : MapTransmute R (L → W → MapTransmuteResult K V R)) :
    (do let res ← m.transmute reduce' e' (op.mapR g)
        .ok res.toT : Res (TRes (Node n K V) R')) =
    (do let res ← m.transmute reduce e op
        .ok res.toT).mapOk (TRes.mapR g) := by
  rw [Node.transmute_nat h]
  exact (Res.bind_nat rfl fun a => by simp).symm

variable (x : Cross c K L)

theorem Node.twmS_nat (ops : TwmOps K V L W R) (par : Par) (m : Node c.n K V) (r : SNode L W) (d : Nat) :
    m.twmS x reduce' e' (ops.mapR g) par r d = (m.twmS x reduce e ops par r d).mapOk (TRes.mapR g) := by
  refine (Node.fold_nat (Res.mapOk (TRes.mapR g)) ?_ ?_ ?_ m d).symm
  · intro s d; exact (SNode.twm_nat h x ops s r d).symm
  · intro l d; exact (LNode.twmS_nat h x ops l r d).symm
  · intro bits left z d
    refine Res.bind_nat (f := Acc.mapR g) ?_ fun acc => TRes.finish_nat g acc
    exact (flatLoop_nat h (TRes.mapR g) _ _ _ _ _ (fun m => Node.transform_nat h ops.left par m)
      (by simp [TwmOps.mapR]) (fun o r => TRes.itemOpt_nat g true o r)).symm

theorem Node.twmL_nat (ops : TwmOps K V L W R) (par : Par) (m : Node c.n K V) (r : LNode L W) (d : Nat) :
    m.twmL x reduce' e' (ops.mapR g) par r d = (m.twmL x reduce e ops par r d).mapOk (TRes.mapR g) := by
  refine (Node.fold_nat (Res.mapOk (TRes.mapR g)) ?_ ?_ ?_ m d).symm
  · intro s d; rw [TwmOps.mapR_flip]; exact (LNode.mwtS_nat h x.flip ops.flip r s d).symm
  · intro l d; exact (LNode.twmL_nat h x ops l r d).symm
  · intro bits left z d
    refine Res.bind_nat (f := Acc.mapR g) ?_ fun acc => TRes.finish_nat g acc
    exact (flatLoop_nat h (TRes.mapR g) _ _ _ _ _ (fun m => Node.transform_nat h ops.left par m)
      (by simp [TwmOps.mapR, LNode.transmute_nat h]) (fun o r => TRes.itemOpt_nat g false o r)).symm

theorem Node.mwtS_nat (ops : MwtOps K V L W R) (m : Node c.n K V) (r : SNode L W) (d : Nat) :
    m.mwtS x reduce' e' (ops.mapR g) r d = (m.mwtS x reduce e ops r d).mapOk (TRes.mapR g) := by
  refine (Node.fold_nat (Res.mapOk (TRes.mapR g)) ?_ ?_ ?_ m d).symm
  · intro s d; exact (SNode.mwt_nat h x ops s r d).symm
  · intro l d; exact (LNode.mwtS_nat h x ops l r d).symm
  · intro bits left z d
    refine Res.bind_nat (f := Acc.mapR g) ?_ fun acc => TRes.finish_nat g acc
    exact (flatLoop_nat h (TRes.mapR g) _ _ _ _ _ (fun m => toT_nat h m ops.left)
      (by simp [MwtOps.mapR]) (fun o r => TRes.itemOpt_nat g true _ r)).symm

theorem Node.mwtL_nat (ops : MwtOps K V L W R) (m : Node c.n K V) (r : LNode L W) (d : Nat) :
    m.mwtL x reduce' e' (ops.mapR g) r d = (m.mwtL x reduce e ops r d).mapOk (TRes.mapR g) := by
  refine (Node.fold_nat (Res.mapOk (TRes.mapR g)) ?_ ?_ ?_ m d).symm
  · intro s d; rw [MwtOps.mapR_flip]; exact (LNode.twmS_nat h x.flip ops.flip r s d).symm
  · intro l d; rw [MwtOps.mapR_flip]; exact (LNode.twmL_nat h x.flip ops.flip r l d).symm
  · intro bits left z d
    refine Res.bind_nat (f := Acc.mapR g) ?_ fun acc => TRes.finish_nat g acc
    exact (flatLoop_nat h (TRes.mapR g) _ _ _ _ _ (fun m => toT_nat h m ops.left)
      (by simp [MwtOps.mapR, LNode.transform_nat h]) (fun o r => TRes.itemOpt_nat g false _ r)).symm

theorem SNode.twmN_nat (ops : TwmOps K V L W R) (s : SNode K V) (r : Node c.n L W) (d : Nat) :
    s.twmN x reduce' e' (ops.mapR g) r d = (s.twmN x reduce e ops r d).mapOk (TRes.mapR g) := by
  cases r with
  | C b v z => simp only [SNode.twmN]; rw [TwmOps.mapR_flip, Node.mwtS_nat h]
  | L l => simp only [SNode.twmN]; rw [TwmOps.mapR_flip, LNode.mwtS_nat h]
  | S s => simp only [SNode.twmN]; rw [SNode.twm_nat h]

theorem LNode.twmN_nat (ops : TwmOps K V L W R) (l : LNode K V) (r : Node c.n L W) (d : Nat) :
    l.twmN x reduce' e' (ops.mapR g) r d = (l.twmN x reduce e ops r d).mapOk (TRes.mapR g) := by
  cases r with
  | C b v z => simp only [LNode.twmN]; rw [TwmOps.mapR_flip, Node.mwtL_nat h]
  | L l => simp only [LNode.twmN]; rw [LNode.twmL_nat h]
  | S s => simp only [LNode.twmN]; rw [LNode.twmS_nat h]

theorem Node.twm_nat (ops : TwmOps K V L W R) (par : Par) (m : Node c.n K V) (r : Node c.n L W) (d : Nat) :
    m.twm x reduce' e' (ops.mapR g) par r d = (m.twm x reduce e ops par r d).mapOk (TRes.mapR g) := by
  refine (congrFun (Node.fold_nat (β := Node c.n L W → Res (TRes (Node c.n K V) R)) (β' := Node c.n L W → Res (TRes (Node c.n K V) R'))
    (fun f r => Res.mapOk (TRes.mapR g) (f r)) ?_ ?_ ?_ m d) r).symm
  · intro s d; funext r; exact (SNode.twmN_nat h x ops s r d).symm
  · intro l d; funext r; exact (LNode.twmN_nat h x ops l r d).symm
  · intro bits left z d; funext r
    cases r with
    | C b v y =>
      refine Res.bind_nat (f := Acc.mapR g) ?_ fun acc => TRes.finish_nat g acc
      exact (bothLoop_nat h (TRes.mapR g) _ _ _ _ _ (fun m => Node.transform_nat h ops.left par m)
        (fun m => toT_nat h m ops.right) (fun o _ r => TRes.itemOpt_nat g true o r)).symm
    | L l => simp only [twmC]; rw [Node.twmL_nat h, fold_map_fst h]
    | S s => simp only [twmC]; rw [Node.twmS_nat h, fold_map_fst h]

theorem SNode.mwtN_nat (ops : MwtOps K V L W R) (par : Par) (s : SNode K V) (r : Node c.n L W) (d : Nat) :
    s.mwtN x reduce' e' (ops.mapR g) par r d = (s.mwtN x reduce e ops par r d).mapOk (TRes.mapR g) := by
  cases r with
  | C b v z => simp only [SNode.mwtN]; rw [MwtOps.mapR_flip, Node.twmS_nat h]
  | L l => simp only [SNode.mwtN]; rw [MwtOps.mapR_flip, LNode.twmS_nat h]
  | S s => simp only [SNode.mwtN]; rw [SNode.mwt_nat h]

theorem LNode.mwtN_nat (ops : MwtOps K V L W R) (par : Par) (l : LNode K V) (r : Node c.n L W) (d : Nat) :
    l.mwtN x reduce' e' (ops.mapR g) par r d = (l.mwtN x reduce e ops par r d).mapOk (TRes.mapR g) := by
  cases r with
  | C b v z => simp only [LNode.mwtN]; rw [MwtOps.mapR_flip, Node.twmL_nat h]
  | L l => simp only [LNode.mwtN]; rw [MwtOps.mapR_flip, LNode.twmL_nat h]
  | S s => simp only [LNode.mwtN]; rw [LNode.mwtS_nat h]

theorem Node.mwt_nat (ops : MwtOps K V L W R) (par : Par) (m : Node c.n K V) (r : Node c.n L W) (d : Nat) :
    m.mwt x reduce' e' (ops.mapR g) par r d = (m.mwt x reduce e ops par r d).mapOk (TRes.mapR g) := by
  refine (congrFun (Node.fold_nat (β := Node c.n L W → Res (TRes (Node c.n L W) R)) (β' := Node c.n L W → Res (TRes (Node c.n L W) R'))
    (fun f r => Res.mapOk (TRes.mapR g) (f r)) ?_ ?_ ?_ m d) r).symm
  · intro s d; funext r; exact (SNode.mwtN_nat h x ops par s r d).symm
  · intro l d; funext r; exact (LNode.mwtN_nat h x ops par l r d).symm
  · intro bits left z d; funext r
    cases r with
    | C b v y =>
      refine Res.bind_nat (f := Acc.mapR g) ?_ fun acc => TRes.finish_nat g acc
      exact (bothLoop_nat h (TRes.mapR g) _ _ _ _ _ (fun m => toT_nat h m ops.left)
        (fun m => Node.transform_nat h ops.right par m) (fun _ o r => TRes.itemOpt_nat g true o r)).symm
    | L l => simp only [mwtC]; rw [Node.mwtL_nat h, fold_map_fst h]
    | S s => simp only [mwtC]; rw [Node.mwtS_nat h, fold_map_fst h]

theorem Node.mwmS_nat (ops : MwmOps K V L W S X R) (m : Node c.n K V) (r : SNode L W) (d : Nat) :
    m.mwmS x reduce' e' (ops.mapR g) r d = (m.mwmS x reduce e ops r d).mapOk (XRes.mapR g) := by
  refine (Node.fold_nat (Res.mapOk (XRes.mapR g)) ?_ ?_ ?_ m d).symm
  · intro s d; exact (SNode.mwm_nat h x ops s r d).symm
  · intro l d; exact (LNode.mwmS_nat h x ops l r d).symm
  · intro bits left z d
    refine Res.bind_nat (f := Acc.mapR g) ?_ fun acc => XRes.finish_nat g acc
    exact (flatLoop_nat h (XRes.mapR g) _ _ _ _ _ (fun m => Node.transmute_nat h ops.left m)
      (by simp [MwmOps.mapR]) (fun o r => by rw [XRes.item_nat]; rfl)).symm

theorem Node.mwmL_nat (ops : MwmOps K V L W S X R) (m : Node c.n K V) (r : LNode L W) (d : Nat) :
    m.mwmL x reduce' e' (ops.mapR g) r d = (m.mwmL x reduce e ops r d).mapOk (XRes.mapR g) := by
  refine (Node.fold_nat (Res.mapOk (XRes.mapR g)) ?_ ?_ ?_ m d).symm
  · intro s d; rw [MwmOps.mapR_flip]; exact (LNode.mwmS_nat h x.flip ops.flip r s d).symm
  · intro l d; exact (LNode.mwmL_nat h x ops l r d).symm
  · intro bits left z d
    refine Res.bind_nat (f := Acc.mapR g) ?_ fun acc => XRes.finish_nat g acc
    exact (flatLoop_nat h (XRes.mapR g) _ _ _ _ _ (fun m => Node.transmute_nat h ops.left m)
      (by simp [MwmOps.mapR, LNode.transmute_nat h]) (fun o r => by rw [XRes.item_nat]; rfl)).symm

theorem SNode.mwmN_nat (ops : MwmOps K V L W S X R) (s : SNode K V) (r : Node c.n L W) (d : Nat) :
    s.mwmN x reduce' e' (ops.mapR g) r d = (s.mwmN x reduce e ops r d).mapOk (XRes.mapR g) := by
  cases r with
  | C b v z => simp only [SNode.mwmN]; rw [MwmOps.mapR_flip, Node.mwmS_nat h]
  | L l => simp only [SNode.mwmN]; rw [MwmOps.mapR_flip, LNode.mwmS_nat h]
  | S s => simp only [SNode.mwmN]; rw [SNode.mwm_nat h]

theorem LNode.mwmN_nat (ops : MwmOps K V L W S X R) (l : LNode K V) (r : Node c.n L W) (d : Nat) :
    l.mwmN x reduce' e' (ops.mapR g) r d = (l.mwmN x reduce e ops r d).mapOk (XRes.mapR g) := by
  cases r with
  | C b v z => simp only [LNode.mwmN]; rw [MwmOps.mapR_flip, Node.mwmL_nat h]
  | L l => simp only [LNode.mwmN]; rw [LNode.mwmL_nat h]
  | S s => simp only [LNode.mwmN]; rw [LNode.mwmS_nat h]

theorem Node.mwm_nat (ops : MwmOps K V L W S X R) (m : Node c.n K V) (r : Node c.n L W) (d : Nat) :
    m.mwm x reduce' e' (ops.mapR g) r d = (m.mwm x reduce e ops r d).mapOk (XRes.mapR g) := by
  refine (congrFun (Node.fold_nat (β := Node c.n L W → Res (XRes (Node c.n S X) R)) (β' := Node c.n L W → Res (XRes (Node c.n S X) R'))
    (fun f r => Res.mapOk (XRes.mapR g) (f r)) ?_ ?_ ?_ m d) r).symm
  · intro s d; funext r; exact (SNode.mwmN_nat h x ops s r d).symm
  · intro l d; funext r; exact (LNode.mwmN_nat h x ops l r d).symm
  · intro bits left z d; funext r
    cases r with
    | C b v y =>
      refine Res.bind_nat (f := Acc.mapR g) ?_ fun acc => XRes.finish_nat g acc
      exact (bothLoop_nat h (XRes.mapR g) _ _ _ _ _ (fun m => Node.transmute_nat h ops.left m)
        (fun m => Node.transmute_nat h ops.right m) (fun _ _ r => by rw [XRes.item_nat]; rfl)).symm
    | L l => simp only [mwmC]; rw [Node.mwmL_nat h, fold_map_fst h]
    | S s => simp only [mwmC]; rw [Node.mwmS_nat h, fold_map_fst h]

omit x
variable [BEq K] (hash : K → BitVec c.w)

omit [BEq K] in
theorem Node.transformL_nat (par : Par) (op : MapTransform R (K → V → MapTransformResult V R)) (m : Node c.n K V) :
    m.transformL reduce' e' par (op.mapR g) = (m.transformL reduce e par op).mapOk (JRes.mapR g) := by
  simp only [Node.transformL]
  rw [Node.transform_nat h]
  exact (Res.bind_nat rfl fun a => by simp).symm

omit [BEq K] in
theorem Node.transformR_nat (par : Par) (op : MapTransform R (K → V → MapTransformResult V R)) (m : Node c.n K V) :
    m.transformR reduce' e' par (op.mapR g) = (m.transformR reduce e par op).mapOk (JRes.mapR g) := by
  simp only [Node.transformR]
  rw [Node.transform_nat h]
  exact (Res.bind_nat rfl fun a => by simp).symm

theorem JRes.flipR_nat {N : Type} (res : Res (JRes N R)) :
    JRes.flipR (res.mapOk (JRes.mapR g)) = (JRes.flipR res).mapOk (JRes.mapR g) := by
  cases res with
  | ok a => cases a <;> rfl
  | panic p => rfl
  | diverge => rfl

theorem Node.twtS_nat (ops : TwtOps K V R) (par : Par) (m : Node c.n K V) (r : SNode K V) (d : Nat) :
    m.twtS reduce' e' hash (ops.mapR g) par r d = (m.twtS reduce e hash ops par r d).mapOk (JRes.mapR g) := by
  refine (Node.fold_nat (Res.mapOk (JRes.mapR g)) ?_ ?_ ?_ m d).symm
  · intro s d; exact (SNode.twt_nat h hash ops s r d).symm
  · intro l d; exact (LNode.twtS_nat h hash ops l r d).symm
  · intro bits left z d
    refine Res.bind_nat (f := Acc.mapR g) ?_ fun acc => JRes.finish_nat g acc
    exact (flatLoop_nat h (JRes.mapR g) _ _ _ _ _ (fun m => Node.transformL_nat h par ops.left m)
      (by simp [TwtOps.mapR]) (fun o r => JRes.itemOpt_nat g o _ r)).symm

theorem Node.twtL_nat (ops : TwtOps K V R) (par : Par) (m : Node c.n K V) (r : LNode K V) (d : Nat) :
    m.twtL reduce' e' hash (ops.mapR g) par r d = (m.twtL reduce e hash ops par r d).mapOk (JRes.mapR g) := by
  refine (Node.fold_nat (Res.mapOk (JRes.mapR g)) ?_ ?_ ?_ m d).symm
  · intro s d; rw [TwtOps.mapR_flip, LNode.twtS_nat h, JRes.flipR_nat h]
  · intro l d; exact (LNode.twtL_nat h hash ops l r d).symm
  · intro bits left z d
    refine Res.bind_nat (f := Acc.mapR g) ?_ fun acc => JRes.finish_nat g acc
    exact (flatLoop_nat h (JRes.mapR g) _ _ _ _ _ (fun m => Node.transformL_nat h par ops.left m)
      (by simp [TwtOps.mapR, LNode.transform_nat h]) (fun o r => JRes.itemOpt_nat g o _ r)).symm

theorem SNode.twtN_nat (ops : TwtOps K V R) (par : Par) (s : SNode K V) (r : Node c.n K V) (d : Nat) :
    s.twtN reduce' e' hash (ops.mapR g) par r d = (s.twtN reduce e hash ops par r d).mapOk (JRes.mapR g) := by
  cases r with
  | C b v z => simp only [SNode.twtN]; rw [TwtOps.mapR_flip, Node.twtS_nat h, JRes.flipR_nat h]
  | L l => simp only [SNode.twtN]; rw [TwtOps.mapR_flip, LNode.twtS_nat h, JRes.flipR_nat h]
  | S s => simp only [SNode.twtN]; rw [SNode.twt_nat h]

theorem LNode.twtN_nat (ops : TwtOps K V R) (par : Par) (l : LNode K V) (r : Node c.n K V) (d : Nat) :
    l.twtN reduce' e' hash (ops.mapR g) par r d = (l.twtN reduce e hash ops par r d).mapOk (JRes.mapR g) := by
  cases r with
  | C b v z => simp only [LNode.twtN]; rw [TwtOps.mapR_flip, Node.twtL_nat h, JRes.flipR_nat h]
  | L l => simp only [LNode.twtN]; rw [LNode.twtL_nat h]
  | S s => simp only [LNode.twtN]; rw [LNode.twtS_nat h]

omit [BEq K] in
theorem TwtOps.shortcut_nat (ops : TwtOps K V R) :
    (ops.mapR g).shortcut (c := c) = ops.shortcut.map (JRes.mapR g) := by
  obtain ⟨both, left, right⟩ := ops
  cases both <;> cases left <;> cases right <;> rfl

theorem Node.twt_nat (ops : TwtOps K V R) (par : Par) (m r : Node c.n K V) (d : Nat) :
    m.twt reduce' e' hash (ops.mapR g) par r d = (m.twt reduce e hash ops par r d).mapOk (JRes.mapR g) := by
  refine (congrFun (Node.fold_nat (β := Node c.n K V → Res (JRes (Node c.n K V) R)) (β' := Node c.n K V → Res (JRes (Node c.n K V) R'))
    (fun f r => Res.mapOk (JRes.mapR g) (f r)) ?_ ?_ ?_ m d) r).symm
  · intro s d; funext r; exact (SNode.twtN_nat h hash ops par s r d).symm
  · intro l d; funext r; exact (LNode.twtN_nat h hash ops par l r d).symm
  · intro bits left z d; funext r
    cases r with
    | C b v y =>
      simp only [twtC, twtCC, TwtOps.shortcut_nat h]
      cases ops.shortcut (c := c) with
      | some res => rfl
      | none =>
        refine Res.bind_nat (f := Acc.mapR g) ?_ fun acc => JRes.finish_nat g acc
        exact (bothLoop_nat h (JRes.mapR g) _ _ _ _ _ (fun m => Node.transformL_nat h par ops.left m)
          (fun m => Node.transformR_nat h par ops.right m) (fun o o' r => JRes.itemOpt_nat g o o' r)).symm
    | L l => simp only [twtC]; rw [Node.twtL_nat h, fold_map_fst h]
    | S s => simp only [twtC]; rw [Node.twtS_nat h, fold_map_fst h]

end
end HT
