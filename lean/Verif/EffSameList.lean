import Verif.EffSame
/-! # The calls of closures do not depend on what is answered: joint operations on single nodes and lists -/
namespace HT

variable {K V L W S X R R' : Type} {Q : Type} {A A' : Q → Type} {c : Cfg} (x : Cross c K L) (reduce : R → R → R)
  (reduce' : R' → R' → R')

/-- The remaining right entries are the same. -/
abbrev SameRest {α α' β : Type} (a : α × β) (b : α' × β) : Prop := a.2 = b.2

/-! ### transform_with_transmuted -/

section
variable {o : TwmOpsM Q A K V L W R} {o' : TwmOpsM Q A' K V L W R'} (h : o.Step o')
include h

theorem ASNode.twmImpl_step (s : ASNode K V) (rk : L) (rv : W) :
    (s.twmImpl x reduce o rk rv).StepT (s.twmImpl x reduce' o' rk rv) :=
  .ite (fun _ => .bindT (h.both.call _ _ _ _) fun _ _ => .map .al) fun _ => .two (h.left.call _ _) (h.right.call _ _)

theorem ASNode.twm_step (s : ASNode K V) (r : ASNode L W) (d : Nat) :
    (s.twm x reduce o r d).StepT (s.twm x reduce' o' r d) :=
  .ite (fun _ => .map (s.twmImpl_step x reduce reduce' h _ _)) fun _ =>
    .two (s.transformE_step h.left) (r.transmuteE_step h.right)

theorem ALNode.twmSImpl_step (r : ASNode L W) (l : ALNode K V) :
    (l.twmSImpl x reduce o r).StepT (l.twmSImpl x reduce' o' r) := by
  induction l with
  | nextS a k v s z =>
    exact .ite (fun _ => .two (s.transformE_step h.left) (h.both.call _ _ _ _)) fun _ =>
      .two (s.twmImpl_step x reduce reduce' h _ _) (h.left.call _ _)
  | nextL a k v l z ih =>
    exact .ite (fun _ => .two (l.transformE_step reduce reduce' h.left) (h.both.call _ _ _ _)) fun _ =>
      .two ih (h.left.call _ _)

theorem ALNode.twmS_step (l : ALNode K V) (r : ASNode L W) (d : Nat) :
    (l.twmS x reduce o r d).StepT (l.twmS x reduce' o' r d) :=
  .ite (fun _ => .map (l.twmSImpl_step x reduce reduce' h _)) fun _ =>
    .two (l.transformE_step reduce reduce' h.left) (r.transmuteE_step h.right)

theorem ASNode.twmLast_step (s : ASNode K V) (rights : List (L × W)) :
    Prog.Step SameRest (s.twmLast x reduce o rights) (s.twmLast x reduce' o' rights) := by
  unfold ASNode.twmLast
  cases takeMatch (fun e => x.eq s.key e.1) rights with
  | none => exact .bindT (s.transformE_step h.left) fun _ _ => .pure rfl
  | some p => exact .bindT (s.twmImpl_step x reduce reduce' h _ _) fun _ _ => .pure rfl

theorem TwmOpsM.step_step (k : K) (v : V) (rights : List (L × W)) :
    Prog.Step SameRest (o.step x k v rights) (o'.step x k v rights) := by
  unfold TwmOpsM.step
  cases takeMatch (fun e => x.eq k e.1) rights with
  | none => exact .bindT (h.left.call _ _) fun _ _ => .pure rfl
  | some p => exact .bindT (h.both.call _ _ _ _) fun _ _ => .pure rfl

theorem ALNode.twmLImpl_step (l : ALNode K V) (rights : List (L × W)) :
    Prog.Step SameRest (l.twmLImpl x reduce o rights) (l.twmLImpl x reduce' o' rights) := by
  induction l generalizing rights with
  | nextS a k v s z =>
    refine .bind (s.twmLast_step x reduce reduce' h rights) fun p p' hp => ?_
    rw [hp]
    exact .bind (TwmOpsM.step_step x h k v _) fun r r' hr => .bindT .al fun _ _ => .pure hr
  | nextL a k v l z ih =>
    refine .bind (ih rights) fun p p' hp => ?_
    rw [hp]
    exact .bind (TwmOpsM.step_step x h k v _) fun r r' hr => .bindT .al fun _ _ => .pure hr

theorem TwmOpsM.leftovers_step (this : ALNode K V) (rights : List (L × W)) (next : TRes (ALNext K V) R)
    (next' : TRes (ALNext K V) R') : (o.leftovers reduce this rights next).StepT (o'.leftovers reduce' this rights next') := by
  induction rights generalizing next next' with
  | nil => exact .pureT
  | cons b rights ih => exact .bindT (h.right.call _ _) fun _ _ => .bindT .al fun _ _ => ih _ _

theorem ALNode.twmL_step (l : ALNode K V) (r : ALNode L W) (d : Nat) :
    (l.twmL x reduce o r d).StepT (l.twmL x reduce' o' r d) := by
  refine .ite (fun _ => .bind .same fun rights rights' hr => ?_) fun _ =>
    .two (l.transformE_step reduce reduce' h.left) (r.transmuteE_step reduce reduce' h.right)
  rw [hr.2]
  refine .bind (l.twmLImpl_step x reduce reduce' h _) fun p p' hp => ?_
  rw [hp]
  exact .map (TwmOpsM.leftovers_step reduce reduce' h l _ _ _)

end

/-! ### transmute_with_transformed -/

section
variable {o : MwtOpsM Q A K V L W R} {o' : MwtOpsM Q A' K V L W R'} (h : o.Step o')
include h

theorem ASNode.mwtImpl_step (s : ASNode K V) (r : ASNode L W) :
    (s.mwtImpl x reduce o r).StepT (s.mwtImpl x reduce' o' r) :=
  .ite (fun _ => .bindT (h.both.call _ _ _ _) fun _ _ => .map .al) fun _ => .two (h.left.call _ _) (h.right.call _ _)

theorem ASNode.mwt_step (s : ASNode K V) (r : ASNode L W) (d : Nat) :
    (s.mwt x reduce o r d).StepT (s.mwt x reduce' o' r d) :=
  .ite (fun _ => .map (s.mwtImpl_step x reduce reduce' h _)) fun _ =>
    .two (s.transmuteE_step h.left) (r.transformE_step h.right)

theorem ALNode.mwtSImpl_step (r : ASNode L W) (l : ALNode K V) :
    (l.mwtSImpl x reduce o r).StepT (l.mwtSImpl x reduce' o' r) := by
  induction l with
  | nextS a k v s z =>
    exact .ite (fun _ => .two (s.transmuteE_step h.left) (h.both.call _ _ _ _)) fun _ =>
      .two (s.mwtImpl_step x reduce reduce' h _) (h.left.call _ _)
  | nextL a k v l z ih =>
    exact .ite (fun _ => .two (l.transmuteE_step reduce reduce' h.left) (h.both.call _ _ _ _)) fun _ =>
      .two ih (h.left.call _ _)

theorem ALNode.mwtS_step (l : ALNode K V) (r : ASNode L W) (d : Nat) :
    (l.mwtS x reduce o r d).StepT (l.mwtS x reduce' o' r d) :=
  .ite (fun _ => .map (l.mwtSImpl_step x reduce reduce' h _)) fun _ =>
    .two (l.transmuteE_step reduce reduce' h.left) (r.transformE_step h.right)

end

/-! ### transmute_with_transmuted -/

section
variable {o : MwmOpsM Q A K V L W S X R} {o' : MwmOpsM Q A' K V L W S X R'} (h : o.Step o')
include h

theorem ASNode.mwmValues_step (lk : K) (lv : V) (rk : L) (rv : W) :
    (ASNode.mwmValues x reduce o lk lv rk rv).StepT (ASNode.mwmValues x reduce' o' lk lv rk rv) :=
  .ite (fun _ => .bindT (h.both.call _ _ _ _) fun _ _ => .map .al) fun _ => .two (h.left.call _ _) (h.right.call _ _)

theorem ASNode.mwm_step (s : ASNode K V) (r : ASNode L W) (d : Nat) :
    (s.mwm x reduce o r d).StepT (s.mwm x reduce' o' r d) :=
  .ite (fun _ => .map (ASNode.mwmValues_step x reduce reduce' h _ _ _ _)) fun _ =>
    .two (s.transmuteE_step h.left) (r.transmuteE_step h.right)

theorem ALNode.mwmSImpl_step (r : ASNode L W) (l : ALNode K V) :
    (l.mwmSImpl x reduce o r).StepT (l.mwmSImpl x reduce' o' r) := by
  induction l with
  | nextS a k v s z =>
    exact .ite (fun _ => .two (s.transmuteE_step h.left) (h.both.call _ _ _ _)) fun _ =>
      .two (ASNode.mwmValues_step x reduce reduce' h _ _ _ _) (h.left.call _ _)
  | nextL a k v l z ih =>
    exact .ite (fun _ => .two (l.transmuteE_step reduce reduce' h.left) (h.both.call _ _ _ _)) fun _ =>
      .two ih (h.left.call _ _)

theorem ALNode.mwmS_step (l : ALNode K V) (r : ASNode L W) (d : Nat) :
    (l.mwmS x reduce o r d).StepT (l.mwmS x reduce' o' r d) :=
  .ite (fun _ => .map (l.mwmSImpl_step x reduce reduce' h _)) fun _ =>
    .two (l.transmuteE_step reduce reduce' h.left) (r.transmuteE_step h.right)

theorem ASNode.mwmLast_step (s : ASNode K V) (rights : List (L × W)) :
    Prog.Step SameRest (s.mwmLast x reduce o rights) (s.mwmLast x reduce' o' rights) := by
  unfold ASNode.mwmLast
  cases takeMatch (fun e => x.eq s.key e.1) rights with
  | none => exact .bindT (s.transmuteE_step h.left) fun _ _ => .pure rfl
  | some p => exact .bindT (ASNode.mwmValues_step x reduce reduce' h _ _ _ _) fun _ _ => .pure rfl

theorem MwmOpsM.step_step (k : K) (v : V) (rights : List (L × W)) :
    Prog.Step SameRest (o.step x k v rights) (o'.step x k v rights) := by
  unfold MwmOpsM.step
  cases takeMatch (fun e => x.eq k e.1) rights with
  | none => exact .bindT (h.left.call _ _) fun _ _ => .pure rfl
  | some p => exact .bindT (h.both.call _ _ _ _) fun _ _ => .pure rfl

theorem ALNode.mwmLImpl_step (l : ALNode K V) (rights : List (L × W)) :
    Prog.Step SameRest (l.mwmLImpl x reduce o rights) (l.mwmLImpl x reduce' o' rights) := by
  induction l generalizing rights with
  | nextS a k v s z =>
    refine .bind (s.mwmLast_step x reduce reduce' h rights) fun p p' hp => ?_
    rw [hp]
    exact .bind (MwmOpsM.step_step x h k v _) fun r r' hr => .bindT .al fun _ _ => .pure hr
  | nextL a k v l z ih =>
    refine .bind (ih rights) fun p p' hp => ?_
    rw [hp]
    exact .bind (MwmOpsM.step_step x h k v _) fun r r' hr => .bindT .al fun _ _ => .pure hr

theorem MwmOpsM.leftovers_step (rights : List (L × W)) (next : XRes (ALNext S X) R) (next' : XRes (ALNext S X) R') :
    (o.leftovers reduce rights next).StepT (o'.leftovers reduce' rights next') := by
  induction rights generalizing next next' with
  | nil => exact .pureT
  | cons b rights ih => exact .bindT (h.right.call _ _) fun _ _ => .bindT .al fun _ _ => ih _ _

theorem ALNode.mwmL_step (l : ALNode K V) (r : ALNode L W) (d : Nat) :
    (l.mwmL x reduce o r d).StepT (l.mwmL x reduce' o' r d) := by
  refine .ite (fun _ => .bind .same fun rights rights' hr => ?_) fun _ =>
    .two (l.transmuteE_step reduce reduce' h.left) (r.transmuteE_step reduce reduce' h.right)
  rw [hr.2]
  refine .bind (l.mwmLImpl_step x reduce reduce' h _) fun p p' hp => ?_
  rw [hp]
  exact .map (MwmOpsM.leftovers_step reduce reduce' h _ _ _)

end

/-! ### transform_with_transformed -/

section
variable [BEq K] (hash : K → BitVec c.w) {o : TwtOpsM Q A K V R} {o' : TwtOpsM Q A' K V R'} (h : o.Step o')
include h

theorem ASNode.twtImpl_step' (s r r' : ASNode K V) (hk : r.key = r'.key) (hv : r.value = r'.value) :
    (s.twtImpl reduce o r).StepT (s.twtImpl reduce' o' r') := by
  unfold ASNode.twtImpl
  rw [hk, hv]
  exact .ite (fun _ => .endAl (h.both.call _ _ _ _)) fun _ => .two (h.left.call _ _) (h.right.call _ _)

theorem ASNode.twtImpl_step (s r : ASNode K V) : (s.twtImpl reduce o r).StepT (s.twtImpl reduce' o' r) :=
  s.twtImpl_step' reduce reduce' h r r rfl rfl

theorem ASNode.twt_step (s r : ASNode K V) (d : Nat) :
    (s.twt reduce hash o r d).StepT (s.twt reduce' hash o' r d) :=
  .ite (fun _ => .map (s.twtImpl_step reduce reduce' h _)) fun _ =>
    .two (s.transformE_step h.left) (r.transformE_step h.right)

theorem ALNode.twtSImpl_step (r : ASNode K V) (l : ALNode K V) :
    (l.twtSImpl reduce o r).StepT (l.twtSImpl reduce' o' r) := by
  induction l with
  | nextS a k v s z =>
    exact .ite (fun _ => .two (s.transformE_step h.left) (h.both.call _ _ _ _)) fun _ =>
      .two (s.twtImpl_step reduce reduce' h _) (h.left.call _ _)
  | nextL a k v l z ih =>
    exact .ite (fun _ => .two (l.transformE_step reduce reduce' h.left) (h.both.call _ _ _ _)) fun _ =>
      .two ih (h.left.call _ _)

theorem ALNode.twtS_step (l : ALNode K V) (r : ASNode K V) (d : Nat) :
    (l.twtS reduce hash o r d).StepT (l.twtS reduce' hash o' r d) :=
  .ite (fun _ => .map (l.twtSImpl_step reduce reduce' h _)) fun _ =>
    .two (l.transformE_step reduce reduce' h.left) (r.transformE_step h.right)

theorem ASNode.twtLast_step (s : ASNode K V) (rights : List (K × V)) :
    Prog.Step (fun a b => a.2.2 = b.2.2) (s.twtLast reduce o rights) (s.twtLast reduce' o' rights) := by
  unfold ASNode.twtLast
  cases takeMatch (fun e => s.key == e.1) rights with
  | none => exact .bindT (s.transformE_step h.left) fun _ _ => .pure rfl
  | some p =>
    refine .bind (P := fun a b => a.key = b.key ∧ a.value = b.value) (fun _ _ => ⟨rfl, rfl⟩) fun r r' hr => ?_
    exact .bindT (s.twtImpl_step' reduce reduce' h r r' hr.1 hr.2) fun _ _ => .pure rfl

theorem TwtOpsM.step_step (k : K) (v : V) (rights : List (K × V)) :
    Prog.Step SameRest (o.step k v rights) (o'.step k v rights) := by
  unfold TwtOpsM.step
  cases takeMatch (fun e => k == e.1) rights with
  | none => exact .bindT (h.left.call _ _) fun _ _ => .pure rfl
  | some p => exact .bindT (h.both.call _ _ _ _) fun _ _ => .pure rfl

theorem ALNode.twtLImpl_step (l : ALNode K V) (rights : List (K × V)) :
    Prog.Step SameRest (l.twtLImpl reduce o rights) (l.twtLImpl reduce' o' rights) := by
  induction l generalizing rights with
  | nextS a k v s z =>
    refine .bind (s.twtLast_step reduce reduce' h rights) fun p p' hp => ?_
    rw [hp]
    exact .bind (TwtOpsM.step_step h k v _) fun r r' hr => .bindT .al fun _ _ => .pure hr
  | nextL a k v l z ih =>
    refine .bind (ih rights) fun p p' hp => ?_
    rw [hp]
    exact .bind (TwtOpsM.step_step h k v _) fun r r' hr => .bindT .al fun _ _ => .pure hr

omit [BEq K] in
theorem TwtOpsM.leftovers_step (this : ALNode K V) (rights : List (K × V)) (next : JRes (ALNext K V) R)
    (next' : JRes (ALNext K V) R') : (o.leftovers reduce this rights next).StepT (o'.leftovers reduce' this rights next') := by
  induction rights generalizing next next' with
  | nil => exact .pureT
  | cons b rights ih => exact .bindT (h.right.call _ _) fun _ _ => .bindT .al fun _ _ => ih _ _

theorem ALNode.twtL_step (l r : ALNode K V) (d : Nat) :
    (l.twtL reduce hash o r d).StepT (l.twtL reduce' hash o' r d) := by
  refine .ite (fun _ => .bind .same fun rights rights' hr => ?_) fun _ =>
    .two (l.transformE_step reduce reduce' h.left) (r.transformE_step reduce reduce' h.right)
  rw [hr.2]
  refine .bind (l.twtLImpl_step reduce reduce' h _) fun p p' hp => ?_
  rw [hp]
  exact .map (TwtOpsM.leftovers_step reduce reduce' h l _ _ _)

end
end HT
