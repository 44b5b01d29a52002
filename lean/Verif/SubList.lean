import Verif.Sub
/-! # Replacing the calls of the functions on lists and single nodes -/
namespace HT
variable {K V L W S X R : Type} {Q Q' : Type} {A : Q → Type} {A' : Q' → Type} {α β σ : Type}
variable (tr : Trans Q A Q' A')

@[simp] theorem ASNode.transformE_sub (op : MapTransform R (K → V → Prog Q A (MapTransformResult V R))) (this : ASNode K V) :
    this.transformE (op.sub tr) = Prog.sub tr (this.transformE op) := by
  simp [ASNode.transformE]

@[simp] theorem ASNode.transmuteE_sub (op : MapTransmute R (K → V → Prog Q A (MapTransmuteResult S X R))) (this : ASNode K V) :
    this.transmuteE (op.sub tr) = Prog.sub tr (this.transmuteE op) := by
  simp [ASNode.transmuteE]

@[simp] theorem ALNode.transformE_sub (reduce : R → R → R) (op : MapTransform R (K → V → Prog Q A (MapTransformResult V R)))
    (this : ALNode K V) : this.transformE reduce (op.sub tr) = Prog.sub tr (this.transformE reduce op) := by
  induction this with
  | nextS a k v s z =>
    cases op with
    | generic f =>
      have h1 := ASNode.transformE_sub tr (.generic f) s
      have h2 := MapTransform.sub_callM tr (.generic f) k v
      simp only [MapTransform.sub, MapTransform.map] at h1 h2 ⊢
      simp [ALNode.transformE, h1, h2]
    | _ => rfl
  | nextL a k v l z ih =>
    cases op with
    | generic f =>
      have h2 := MapTransform.sub_callM tr (.generic f) k v
      simp only [MapTransform.sub, MapTransform.map] at h2 ih ⊢
      simp [ALNode.transformE, ih, h2]
    | _ => rfl

@[simp] theorem ALNode.transmuteE_sub (reduce : R → R → R) (op : MapTransmute R (K → V → Prog Q A (MapTransmuteResult S X R)))
    (this : ALNode K V) : this.transmuteE reduce (op.sub tr) = Prog.sub tr (this.transmuteE reduce op) := by
  induction this with
  | nextS a k v s z =>
    cases op with
    | generic f =>
      have h1 := ASNode.transmuteE_sub tr (.generic f) s
      have h2 := MapTransmute.sub_callM tr (.generic f) k v
      simp only [MapTransmute.sub, MapTransmute.map] at h1 h2 ⊢
      simp [ALNode.transmuteE, h1, h2]
    | _ => rfl
  | nextL a k v l z ih =>
    cases op with
    | generic f =>
      have h2 := MapTransmute.sub_callM tr (.generic f) k v
      simp only [MapTransmute.sub, MapTransmute.map] at h2 ih ⊢
      simp [ALNode.transmuteE, ih, h2]
    | _ => rfl

variable {c : Cfg} (x : Cross c K L) (reduce : R → R → R)

section
variable (ops : TwmOpsM Q A K V L W R)

@[simp] theorem ASNode.twmImpl_sub (this : ASNode K V) (rk : L) (rv : W) :
    this.twmImpl x reduce (ops.sub tr) rk rv = Prog.sub tr (this.twmImpl x reduce ops rk rv) := by
  simp [ASNode.twmImpl, Prog.sub_ite, TwmOpsM.sub]

@[simp] theorem ASNode.twm_sub (this : ASNode K V) (right : ASNode L W) (depth : Nat) :
    this.twm x reduce (ops.sub tr) right depth = Prog.sub tr (this.twm x reduce ops right depth) := by
  unfold ASNode.twm
  rw [ASNode.twmImpl_sub]
  simp [Prog.sub_ite, TwmOpsM.sub]

@[simp] theorem ALNode.twmSImpl_sub (right : ASNode L W) (this : ALNode K V) :
    this.twmSImpl x reduce (ops.sub tr) right = Prog.sub tr (this.twmSImpl x reduce ops right) := by
  induction this with
  | nextS a k v s z =>
    unfold ALNode.twmSImpl
    rw [ASNode.twmImpl_sub]
    simp [Prog.sub_ite, TwmOpsM.sub]
  | nextL a k v l z ih =>
    unfold ALNode.twmSImpl
    rw [ih]
    simp [Prog.sub_ite, TwmOpsM.sub]

@[simp] theorem ALNode.twmS_sub (this : ALNode K V) (right : ASNode L W) (depth : Nat) :
    this.twmS x reduce (ops.sub tr) right depth = Prog.sub tr (this.twmS x reduce ops right depth) := by
  unfold ALNode.twmS
  rw [ALNode.twmSImpl_sub]
  simp [Prog.sub_ite, TwmOpsM.sub]

theorem ASNode.twmLast_sub (s : ASNode K V) (rights : List (L × W)) :
    s.twmLast x reduce (ops.sub tr) rights = Prog.sub tr (s.twmLast x reduce ops rights) := by
  unfold ASNode.twmLast
  split
  · rw [ASNode.twmImpl_sub]; simp
  · simp [TwmOpsM.sub]

theorem TwmOpsM.step_sub (k : K) (v : V) (rights : List (L × W)) :
    (ops.sub tr).step x k v rights = Prog.sub tr (ops.step x k v rights) := by
  unfold TwmOpsM.step
  split <;> simp [TwmOpsM.sub]

theorem ALNode.twmLImpl_sub (this : ALNode K V) (rights : List (L × W)) :
    this.twmLImpl x reduce (ops.sub tr) rights = Prog.sub tr (this.twmLImpl x reduce ops rights) := by
  induction this with
  | nextS a k v s z => simp [ALNode.twmLImpl, ASNode.twmLast_sub, TwmOpsM.step_sub]
  | nextL a k v l z ih => simp [ALNode.twmLImpl, ih, TwmOpsM.step_sub]

theorem TwmOpsM.leftovers_sub (this : ALNode K V) (rights : List (L × W)) (next : TRes (ALNext K V) R) :
    (ops.sub tr).leftovers reduce this rights next = Prog.sub tr (ops.leftovers reduce this rights next) := by
  induction rights generalizing next with
  | nil => rfl
  | cons b rights ih =>
    simp only [TwmOpsM.leftovers, ih, Prog.sub_bind, Prog.sub_al]
    simp [TwmOpsM.sub]

@[simp] theorem ALNode.twmL_sub (this : ALNode K V) (right : ALNode L W) (depth : Nat) :
    this.twmL x reduce (ops.sub tr) right depth = Prog.sub tr (this.twmL x reduce ops right depth) := by
  unfold ALNode.twmL
  simp only [ALNode.twmLImpl_sub, TwmOpsM.leftovers_sub]
  simp [Prog.sub_ite, TwmOpsM.sub]

end

section
variable (ops : MwtOpsM Q A K V L W R)

@[simp] theorem ASNode.mwtImpl_sub (this : ASNode K V) (right : ASNode L W) :
    this.mwtImpl x reduce (ops.sub tr) right = Prog.sub tr (this.mwtImpl x reduce ops right) := by
  simp [ASNode.mwtImpl, Prog.sub_ite, MwtOpsM.sub]

@[simp] theorem ASNode.mwt_sub (this : ASNode K V) (right : ASNode L W) (depth : Nat) :
    this.mwt x reduce (ops.sub tr) right depth = Prog.sub tr (this.mwt x reduce ops right depth) := by
  unfold ASNode.mwt
  rw [ASNode.mwtImpl_sub]
  simp [Prog.sub_ite, MwtOpsM.sub]

@[simp] theorem ALNode.mwtSImpl_sub (right : ASNode L W) (this : ALNode K V) :
    this.mwtSImpl x reduce (ops.sub tr) right = Prog.sub tr (this.mwtSImpl x reduce ops right) := by
  induction this with
  | nextS a k v s z =>
    unfold ALNode.mwtSImpl
    rw [ASNode.mwtImpl_sub]
    simp [Prog.sub_ite, MwtOpsM.sub]
  | nextL a k v l z ih =>
    unfold ALNode.mwtSImpl
    rw [ih]
    simp [Prog.sub_ite, MwtOpsM.sub]

@[simp] theorem ALNode.mwtS_sub (this : ALNode K V) (right : ASNode L W) (depth : Nat) :
    this.mwtS x reduce (ops.sub tr) right depth = Prog.sub tr (this.mwtS x reduce ops right depth) := by
  unfold ALNode.mwtS
  rw [ALNode.mwtSImpl_sub]
  simp [Prog.sub_ite, MwtOpsM.sub]

end

section
variable (ops : MwmOpsM Q A K V L W S X R)

@[simp] theorem ASNode.mwmValues_sub (lk : K) (lv : V) (rk : L) (rv : W) :
    ASNode.mwmValues x reduce (ops.sub tr) lk lv rk rv = Prog.sub tr (ASNode.mwmValues x reduce ops lk lv rk rv) := by
  simp [ASNode.mwmValues, Prog.sub_ite, MwmOpsM.sub]

@[simp] theorem ASNode.mwm_sub (this : ASNode K V) (right : ASNode L W) (depth : Nat) :
    this.mwm x reduce (ops.sub tr) right depth = Prog.sub tr (this.mwm x reduce ops right depth) := by
  unfold ASNode.mwm
  rw [ASNode.mwmValues_sub]
  simp [Prog.sub_ite, MwmOpsM.sub]

@[simp] theorem ALNode.mwmSImpl_sub (right : ASNode L W) (this : ALNode K V) :
    this.mwmSImpl x reduce (ops.sub tr) right = Prog.sub tr (this.mwmSImpl x reduce ops right) := by
  induction this with
  | nextS a k v s z =>
    unfold ALNode.mwmSImpl
    rw [ASNode.mwmValues_sub]
    simp [Prog.sub_ite, MwmOpsM.sub]
  | nextL a k v l z ih =>
    unfold ALNode.mwmSImpl
    rw [ih]
    simp [Prog.sub_ite, MwmOpsM.sub]

@[simp] theorem ALNode.mwmS_sub (this : ALNode K V) (right : ASNode L W) (depth : Nat) :
    this.mwmS x reduce (ops.sub tr) right depth = Prog.sub tr (this.mwmS x reduce ops right depth) := by
  unfold ALNode.mwmS
  rw [ALNode.mwmSImpl_sub]
  simp [Prog.sub_ite, MwmOpsM.sub]

theorem ASNode.mwmLast_sub (s : ASNode K V) (rights : List (L × W)) :
    s.mwmLast x reduce (ops.sub tr) rights = Prog.sub tr (s.mwmLast x reduce ops rights) := by
  unfold ASNode.mwmLast
  split
  · rw [ASNode.mwmValues_sub]; simp
  · simp [MwmOpsM.sub]

theorem MwmOpsM.step_sub (k : K) (v : V) (rights : List (L × W)) :
    (ops.sub tr).step x k v rights = Prog.sub tr (ops.step x k v rights) := by
  unfold MwmOpsM.step
  split <;> simp [MwmOpsM.sub]

theorem ALNode.mwmLImpl_sub (this : ALNode K V) (rights : List (L × W)) :
    this.mwmLImpl x reduce (ops.sub tr) rights = Prog.sub tr (this.mwmLImpl x reduce ops rights) := by
  induction this with
  | nextS a k v s z => simp [ALNode.mwmLImpl, ASNode.mwmLast_sub, MwmOpsM.step_sub]
  | nextL a k v l z ih => simp [ALNode.mwmLImpl, ih, MwmOpsM.step_sub]

theorem MwmOpsM.leftovers_sub (rights : List (L × W)) (next : XRes (ALNext S X) R) :
    (ops.sub tr).leftovers reduce rights next = Prog.sub tr (ops.leftovers reduce rights next) := by
  induction rights generalizing next with
  | nil => rfl
  | cons b rights ih =>
    simp only [MwmOpsM.leftovers, ih, Prog.sub_bind, Prog.sub_al]
    simp [MwmOpsM.sub]

@[simp] theorem ALNode.mwmL_sub (this : ALNode K V) (right : ALNode L W) (depth : Nat) :
    this.mwmL x reduce (ops.sub tr) right depth = Prog.sub tr (this.mwmL x reduce ops right depth) := by
  unfold ALNode.mwmL
  simp only [ALNode.mwmLImpl_sub, MwmOpsM.leftovers_sub]
  simp [Prog.sub_ite, MwmOpsM.sub]

end

section
variable [BEq K] (hash : K → BitVec c.w) (ops : TwtOpsM Q A K V R)

@[simp] theorem ASNode.twtImpl_sub (this right : ASNode K V) :
    this.twtImpl reduce (ops.sub tr) right = Prog.sub tr (this.twtImpl reduce ops right) := by
  simp [ASNode.twtImpl, Prog.sub_ite, TwtOpsM.sub]

@[simp] theorem ASNode.twt_sub (this right : ASNode K V) (depth : Nat) :
    this.twt reduce hash (ops.sub tr) right depth = Prog.sub tr (this.twt reduce hash ops right depth) := by
  unfold ASNode.twt
  rw [ASNode.twtImpl_sub]
  simp [Prog.sub_ite, TwtOpsM.sub]

@[simp] theorem ALNode.twtSImpl_sub (right : ASNode K V) (this : ALNode K V) :
    this.twtSImpl reduce (ops.sub tr) right = Prog.sub tr (this.twtSImpl reduce ops right) := by
  induction this with
  | nextS a k v s z =>
    unfold ALNode.twtSImpl
    rw [ASNode.twtImpl_sub]
    simp [Prog.sub_ite, TwtOpsM.sub]
  | nextL a k v l z ih =>
    unfold ALNode.twtSImpl
    rw [ih]
    simp [Prog.sub_ite, TwtOpsM.sub]

@[simp] theorem ALNode.twtS_sub (this : ALNode K V) (right : ASNode K V) (depth : Nat) :
    this.twtS reduce hash (ops.sub tr) right depth = Prog.sub tr (this.twtS reduce hash ops right depth) := by
  unfold ALNode.twtS
  rw [ALNode.twtSImpl_sub]
  simp [Prog.sub_ite, TwtOpsM.sub]

theorem ASNode.twtLast_sub (s : ASNode K V) (rights : List (K × V)) :
    s.twtLast reduce (ops.sub tr) rights = Prog.sub tr (s.twtLast reduce ops rights) := by
  unfold ASNode.twtLast
  split
  · simp
  · simp [TwtOpsM.sub]

theorem TwtOpsM.step_sub (k : K) (v : V) (rights : List (K × V)) :
    (ops.sub tr).step k v rights = Prog.sub tr (ops.step k v rights) := by
  unfold TwtOpsM.step
  split <;> simp [TwtOpsM.sub]

theorem ALNode.twtLImpl_sub (this : ALNode K V) (rights : List (K × V)) :
    this.twtLImpl reduce (ops.sub tr) rights = Prog.sub tr (this.twtLImpl reduce ops rights) := by
  induction this with
  | nextS a k v s z => simp [ALNode.twtLImpl, ASNode.twtLast_sub, TwtOpsM.step_sub]
  | nextL a k v l z ih => simp [ALNode.twtLImpl, ih, TwtOpsM.step_sub]

omit [BEq K] in
theorem TwtOpsM.leftovers_sub (this : ALNode K V) (rights : List (K × V)) (next : JRes (ALNext K V) R) :
    (ops.sub tr).leftovers reduce this rights next = Prog.sub tr (ops.leftovers reduce this rights next) := by
  induction rights generalizing next with
  | nil => rfl
  | cons b rights ih =>
    simp only [TwtOpsM.leftovers, ih, Prog.sub_bind, Prog.sub_al]
    simp [TwtOpsM.sub]

@[simp] theorem ALNode.twtL_sub (this right : ALNode K V) (depth : Nat) :
    this.twtL reduce hash (ops.sub tr) right depth = Prog.sub tr (this.twtL reduce hash ops right depth) := by
  unfold ALNode.twtL
  simp only [ALNode.twtLImpl_sub, TwtOpsM.leftovers_sub]
  simp [Prog.sub_ite, TwtOpsM.sub]

end
end HT
