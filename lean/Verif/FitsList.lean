import Verif.Fits
/-! # What bulk and joint operations on single nodes and collision lists point to, whatever the closures do -/
namespace HT

variable {K V L W S X R : Type} {n : Nat} {Q : Type} {A : Q → Type} {s : Nat}

/-! ### transform and transmute -/

theorem ASNode.transformE_fits {U : ANode n K V → Prop}
    {op : MapTransform R (K → V → Prog Q A (MapTransformResult V R))}
    (ho : op.Still) (this : ASNode K V) (heap : Heap U s) :
    Fits U s (this.transformE op) (fun U' => TP (InS U')) :=
  Fits.bindQ (ho.call _ _) fun _ => (Fits.al (this.answer_sim heap _))

theorem ASNode.transformE_fitsL {U : ANode n K V → Prop}
    {op : MapTransform R (K → V → Prog Q A (MapTransformResult V R))}
    (ho : op.Still) (this : ASNode K V) (heap : Heap U s) :
    Fits U s (this.transformE op)
      (fun U' a (b : TRes (SNode K V) R) => TP (InL U') (a.map .S) (b.map .S)) :=
  Fits.mono (this.transformE_fits ho heap) fun _ _ _ hp => ⟨_, hp.map fun _ _ hm => hm.toL⟩

theorem ASNode.transmuteE_fits {U : ANode n S X → Prop}
    {op : MapTransmute R (K → V → Prog Q A (MapTransmuteResult S X R))}
    (ho : op.Still) (this : ASNode K V) (heap : Heap U s) :
    Fits U s (this.transmuteE op) (fun U' => XP (InS U')) :=
  Fits.bindQ (ho.call _ _) fun _ => (Fits.al (ASNode.answerX_sim heap _))

theorem ASNode.transmuteE_fitsL {U : ANode n S X → Prop}
    {op : MapTransmute R (K → V → Prog Q A (MapTransmuteResult S X R))}
    (ho : op.Still) (this : ASNode K V) (heap : Heap U s) :
    Fits U s (this.transmuteE op)
      (fun U' a (b : XRes (SNode S X) R) => XP (InL U') (a.map .S) (b.map .S)) :=
  Fits.mono (this.transmuteE_fits ho heap) fun _ _ _ hp => ⟨_, hp.map fun _ _ hm => hm.toL⟩

theorem ALNode.transformE_fits {U : ANode n K V → Prop} (reduce : R → R → R)
    {op : MapTransform R (K → V → Prog Q A (MapTransformResult V R))}
    (ho : op.Still) (this : ALNode K V) (heap : Heap U s)
    (hU : U (.L this)) :
    Fits U s (this.transformE reduce op) (fun U' => TP (InL U')) := by
  have hn := heap.nextU hU
  induction this with
  | nextS a k v t z =>
    cases op with
    | unchanged r => exact Fits.pure heap (.unchanged r)
    | removed r => exact Fits.pure heap (.removed r)
    | generic F =>
      refine Fits.bind (t.transformE_fitsL ho heap) fun U' s' nx _ hsub heap' hx => ?_
      exact Fits.bindQ (ho F rfl k v) fun _ => (Fits.al (ALNode.transformResult_sim reduce (.nextS a k v t z) heap' (hsub _ hn) _ hx))
  | nextL a k v l z ih =>
    cases op with
    | unchanged r => exact Fits.pure heap (.unchanged r)
    | removed r => exact Fits.pure heap (.removed r)
    | generic F =>
      refine Fits.bind (ih hn (heap.nextU hn)) fun U' s' nx _ hsub heap' hx => ?_
      exact Fits.bindQ (ho F rfl k v) fun _ => (Fits.al (ALNode.transformResult_sim reduce (.nextL a k v l z) heap' (hsub _ hn) _ hx))

theorem ALNode.transmuteE_fits {U : ANode n S X → Prop} (reduce : R → R → R)
    {op : MapTransmute R (K → V → Prog Q A (MapTransmuteResult S X R))}
    (ho : op.Still) (this : ALNode K V) (heap : Heap U s) :
    Fits U s (this.transmuteE reduce op) (fun U' => XP (InL U')) := by
  induction this with
  | nextS a k v t z =>
    cases op with
    | removed r => exact Fits.pure heap (.removed r)
    | generic F =>
      refine Fits.bind (t.transmuteE_fitsL ho heap) fun U' s' nx _ hsub heap' hx => ?_
      exact Fits.bindQ (ho F rfl k v) fun _ => (Fits.al (ALNode.transmuteResult_sim reduce heap' _ hx))
  | nextL a k v l z ih =>
    cases op with
    | removed r => exact Fits.pure heap (.removed r)
    | generic F =>
      refine Fits.bind ih fun U' s' nx _ hsub heap' hx => ?_
      exact Fits.bindQ (ho F rfl k v) fun _ => (Fits.al (ALNode.transmuteResult_sim reduce heap' _ hx))

variable {c : Cfg} (x : Cross c K L) (reduce : R → R → R)

/-! ### transform_with_transmuted -/

section
variable {U : ANode c.n K V → Prop} {ops : TwmOpsM Q A K V L W R} (ho : ops.Still)
include ho

theorem ASNode.twmImpl_fits (this : ASNode K V) (heap : Heap U s) (hU : U (.S this)) (rk : L) (rv : W) :
    Fits U s (this.twmImpl x reduce ops rk rv)
      (fun U' => TP (InL U')) := by
  unfold ASNode.twmImpl
  refine Fits.ite (fun he => ?_) (fun he => ?_)
  · refine Fits.bindQ (ho.both.call _ _ _ _) fun _ => ?_
    refine Fits.bind (Fits.al (this.answer_sim heap _)) fun U' s' r _ hsub heap' hx => ?_
    exact Fits.pure heap' (hx.map (P' := InL U') fun _ _ hm => hm.toL)
  · refine Fits.bindQ (ho.left.call _ _) fun _ => (Fits.bindQ (ho.right.call _ _) fun _ => ?_)
    exact Fits.al (this.twmTable_sim reduce heap hU _ _)

theorem ASNode.twm_fits (this : ASNode K V) (right : ASNode L W) (depth : Nat) (heap : Heap U s) (hU : U (.S this)) :
    Fits U s (this.twm x reduce ops right depth)
      (fun U' => TP (InN U')) := by
  unfold ASNode.twm
  refine Fits.ite (fun he => ?_) (fun he => ?_)
  · exact Fits.map (this.twmImpl_fits x reduce ho heap hU _ _) fun _ _ _ hp => ⟨_, hp.map fun _ _ hm => hm.toN⟩
  · refine Fits.bind (this.transformE_fitsL ho.left heap) fun U1 s1 l _ hsub1 heap1 hl => ?_
    refine Fits.bind (right.transmuteE_fitsL ho.right heap1) fun U2 s2 r _ hsub2 heap2 hr => ?_
    exact Fits.al (atwmApart_sim reduce heap2 (⟨hsub2 _ (hsub1 _ hU), rfl⟩ : InL U2 (.S this) (.S this.erase)) _ _ _
      (hl.mono fun _ _ hm => hm.mono hsub2) hr)

theorem ALNode.twmSImpl_fits (this : ALNode K V) (right : ASNode L W) (heap : Heap U s) (hU : U (.L this)) :
    Fits U s (this.twmSImpl x reduce ops right)
      (fun U' => TP (InL U')) := by
  have hn := heap.nextU hU
  induction this with
  | nextS a k v t z =>
    unfold ALNode.twmSImpl
    refine Fits.ite (fun he => ?_) (fun he => ?_)
    · refine Fits.bind (t.transformE_fitsL ho.left heap) fun U' s' nx _ hsub heap' hx => ?_
      exact Fits.bindQ (ho.both.call _ _ _ _) fun _ =>
        (Fits.al (ALNode.transformResult_sim reduce (.nextS a k v t z) heap' (hsub _ hn) _ hx))
    · refine Fits.bind (t.twmImpl_fits x reduce ho heap hn _ _) fun U' s' nx _ hsub heap' hx => ?_
      exact Fits.bindQ (ho.left.call _ _) fun _ =>
        (Fits.al (ALNode.transformResult_sim reduce (.nextS a k v t z) heap' (hsub _ hn) _ hx))
  | nextL a k v l z ih =>
    unfold ALNode.twmSImpl
    refine Fits.ite (fun he => ?_) (fun he => ?_)
    · refine Fits.bind (l.transformE_fits reduce ho.left heap hn) fun U' s' nx _ hsub heap' hx => ?_
      exact Fits.bindQ (ho.both.call _ _ _ _) fun _ =>
        (Fits.al (ALNode.transformResult_sim reduce (.nextL a k v l z) heap' (hsub _ hn) _ hx))
    · refine Fits.bind (ih hn (heap.nextU hn)) fun U' s' nx _ hsub heap' hx => ?_
      exact Fits.bindQ (ho.left.call _ _) fun _ =>
        (Fits.al (ALNode.transformResult_sim reduce (.nextL a k v l z) heap' (hsub _ hn) _ hx))

theorem ALNode.twmS_fits (this : ALNode K V) (right : ASNode L W) (depth : Nat) (heap : Heap U s) (hU : U (.L this)) :
    Fits U s (this.twmS x reduce ops right depth)
      (fun U' => TP (InN U')) := by
  unfold ALNode.twmS
  refine Fits.ite (fun he => ?_) (fun he => ?_)
  · exact Fits.map (this.twmSImpl_fits x reduce ho right heap hU) fun _ _ _ hp => ⟨_, hp.map fun _ _ hm => hm.toN⟩
  · refine Fits.bind (this.transformE_fits reduce ho.left heap hU) fun U1 s1 l _ hsub1 heap1 hl => ?_
    refine Fits.bind (right.transmuteE_fitsL ho.right heap1) fun U2 s2 r _ hsub2 heap2 hr => ?_
    exact Fits.al (atwmApart_sim reduce heap2 (⟨hsub2 _ (hsub1 _ hU), rfl⟩ : InL U2 (.L this) (.L this.erase)) _ _ _
      (hl.mono fun _ _ hm => hm.mono hsub2) hr)

theorem ASNode.twmLast_fits (t : ASNode K V) (rights : List (L × W)) (heap : Heap U s) (hU : U (.S t)) :
    Fits U s (t.twmLast x reduce ops rights)
      (fun U' a b => TP (InL U') a.1 b) := by
  unfold ASNode.twmLast
  cases takeMatch (fun e : L × W => x.eq t.key e.1) rights with
  | some b => exact Fits.map (t.twmImpl_fits x reduce ho heap hU _ _) fun _ _ _ hp => ⟨_, hp⟩
  | none =>
    refine Fits.map (t.transformE_fitsL ho.left heap) ?_
    exact fun _ _ _ hp => ⟨_, hp⟩

theorem TwmOpsM.step_still (k : K) (v : V) (rights : List (L × W)) :
    (ops.step x k v rights).Still := by
  unfold TwmOpsM.step
  cases takeMatch (fun e : L × W => x.eq k e.1) rights with
  | some b => exact .then (ho.both.call _ _ _ _) fun _ => .ret _
  | none => exact .then (ho.left.call _ _) fun _ => .ret _

theorem ALNode.twmLImpl_fits (this : ALNode K V) (heap : Heap U s) (hU : U (.L this)) (rights : List (L × W)) :
    Fits U s (this.twmLImpl x reduce ops rights)
      (fun U' a b => TP (InL U') a.1 b) := by
  have hn := heap.nextU hU
  induction this generalizing rights with
  | nextS a k v t z =>
    unfold ALNode.twmLImpl
    refine Fits.bind (t.twmLast_fits x reduce ho rights heap hn) fun U' s' nx _ hsub heap' hx => ?_
    refine Fits.bindQ (TwmOpsM.step_still x ho _ _ _) fun _ => ?_
    exact Fits.map (Fits.al (ALNode.transformResult_sim reduce (.nextS a k v t z) heap' (hsub _ hn) _ hx))
       fun _ _ _ hp => ⟨_, hp⟩
  | nextL a k v l z ih =>
    unfold ALNode.twmLImpl
    refine Fits.bind (ih hn (rights := rights) (heap.nextU hn)) fun U' s' nx _ hsub heap' hx => ?_
    refine Fits.bindQ (TwmOpsM.step_still x ho _ _ _) fun _ => ?_
    exact Fits.map (Fits.al (ALNode.transformResult_sim reduce (.nextL a k v l z) heap' (hsub _ hn) _ hx))
       fun _ _ _ hp => ⟨_, hp⟩

theorem TwmOpsM.leftovers_fits (this : ALNode K V) (rights : List (L × W)) :
    ∀ (U : ANode c.n K V → Prop) (s : Nat) (nx : TRes (ALNext K V) R) (nx' : TRes (LNext K V) R), Heap U s →
      U (.L this) → TP (InL U) nx nx' →
      Fits U s (ops.leftovers reduce this rights nx)
        (fun U' => TP (InL U')) := by
  induction rights with
  | nil => intro U s nx nx' heap _ hx; exact Fits.pure heap hx
  | cons b rights ih =>
    intro U s nx nx' heap hU hx
    refine Fits.bindQ (ho.right.call _ _) fun a => ?_
    have r : R := by cases a <;> assumption
    refine Fits.bind (Fits.al (this.twmLeftover_sim (ops := ⟨.removed r, .removed r, .generic fun _ _ => a⟩)
      reduce heap hU b hx)) fun U' s' nx2 _ hsub heap' hx' => ?_
    exact ih U' s' nx2 _ heap' (hsub _ hU) hx'

theorem ALNode.twmL_fits (this : ALNode K V) (right : ALNode L W) (depth : Nat) (heap : Heap U s) (hU : U (.L this)) :
    Fits U s (this.twmL x reduce ops right depth)
      (fun U' => TP (InN U')) := by
  unfold ALNode.twmL
  refine Fits.ite (fun he => ?_) (fun he => ?_)
  · refine Fits.bindRes fun rights _ => ?_
    refine Fits.bind (this.twmLImpl_fits x reduce ho heap hU rights) fun U1 s1 nx _ hsub1 heap1 hx => ?_
    exact Fits.map (TwmOpsM.leftovers_fits reduce ho this _ U1 s1 _ _ heap1 (hsub1 _ hU) hx)
      fun _ _ _ hp => ⟨_, hp.map fun _ _ hm => hm.toN⟩
  · refine Fits.bind (this.transformE_fits reduce ho.left heap hU) fun U1 s1 l _ hsub1 heap1 hl => ?_
    refine Fits.bind (right.transmuteE_fits reduce ho.right heap1) fun U2 s2 r _ hsub2 heap2 hr => ?_
    exact Fits.al (atwmApart_sim reduce heap2 (⟨hsub2 _ (hsub1 _ hU), rfl⟩ : InL U2 (.L this) (.L this.erase)) _ _ _
      (hl.mono fun _ _ hm => hm.mono hsub2) hr)

end

/-! ### transmute_with_transformed -/

section
variable {U : ANode c.n L W → Prop} {ops : MwtOpsM Q A K V L W R} (ho : ops.Still)
include ho

theorem ASNode.mwtImpl_fits (this : ASNode K V) (right : ASNode L W) (heap : Heap U s) (hU : U (.S right)) :
    Fits U s (this.mwtImpl x reduce ops right)
      (fun U' => TP (InL U')) := by
  unfold ASNode.mwtImpl
  refine Fits.ite (fun he => ?_) (fun he => ?_)
  · refine Fits.bindQ (ho.both.call _ _ _ _) fun _ => ?_
    refine Fits.bind (Fits.al (right.answer_sim heap _)) fun U' s' r _ hsub heap' hx => ?_
    exact Fits.pure heap' (hx.map (P' := InL U') fun _ _ hm => hm.toL)
  · refine Fits.bindQ (ho.left.call _ _) fun _ => (Fits.bindQ (ho.right.call _ _) fun _ => ?_)
    exact Fits.al (right.mwtTable_sim reduce heap hU _ _)

theorem ASNode.mwt_fits (this : ASNode K V) (right : ASNode L W) (depth : Nat) (heap : Heap U s) (hU : U (.S right)) :
    Fits U s (this.mwt x reduce ops right depth)
      (fun U' => TP (InN U')) := by
  unfold ASNode.mwt
  refine Fits.ite (fun he => ?_) (fun he => ?_)
  · exact Fits.map (this.mwtImpl_fits x reduce ho right heap hU) fun _ _ _ hp => ⟨_, hp.map fun _ _ hm => hm.toN⟩
  · refine Fits.bind (this.transmuteE_fitsL ho.left heap) fun U1 s1 l _ hsub1 heap1 hl => ?_
    refine Fits.bind (right.transformE_fitsL ho.right heap1) fun U2 s2 r _ hsub2 heap2 hr => ?_
    exact Fits.al (amwtApart_sim reduce heap2 (⟨hsub2 _ (hsub1 _ hU), rfl⟩ : InL U2 (.S right) (.S right.erase)) _ _ _
      (hl.mono fun _ _ hm => hm.mono hsub2) hr)

theorem ALNode.mwtSImpl_fits (this : ALNode K V) (right : ASNode L W) (heap : Heap U s) (hU : U (.S right)) :
    Fits U s (this.mwtSImpl x reduce ops right)
      (fun U' => TP (InL U')) := by
  induction this with
  | nextS a k v t z =>
    unfold ALNode.mwtSImpl
    refine Fits.ite (fun he => ?_) (fun he => ?_)
    · refine Fits.bind (t.transmuteE_fitsL ho.left heap) fun U' s' nx _ hsub heap' hx => ?_
      exact Fits.bindQ (ho.both.call _ _ _ _) fun _ => (Fits.al (right.withTransmuted_sim reduce heap' _ hx))
    · refine Fits.bind (t.mwtImpl_fits x reduce ho right heap hU) fun U' s' nx _ hsub heap' hx => ?_
      exact Fits.bindQ (ho.left.call _ _) fun _ => (Fits.al (right.withTransformed_sim reduce heap' (hsub _ hU) _ hx))
  | nextL a k v l z ih =>
    unfold ALNode.mwtSImpl
    refine Fits.ite (fun he => ?_) (fun he => ?_)
    · refine Fits.bind (l.transmuteE_fits reduce ho.left heap) fun U' s' nx _ hsub heap' hx => ?_
      exact Fits.bindQ (ho.both.call _ _ _ _) fun _ => (Fits.al (right.withTransmuted_sim reduce heap' _ hx))
    · refine Fits.bind ih fun U' s' nx _ hsub heap' hx => ?_
      exact Fits.bindQ (ho.left.call _ _) fun _ => (Fits.al (right.withTransformed_sim reduce heap' (hsub _ hU) _ hx))

theorem ALNode.mwtS_fits (this : ALNode K V) (right : ASNode L W) (depth : Nat) (heap : Heap U s) (hU : U (.S right)) :
    Fits U s (this.mwtS x reduce ops right depth)
      (fun U' => TP (InN U')) := by
  unfold ALNode.mwtS
  refine Fits.ite (fun he => ?_) (fun he => ?_)
  · exact Fits.map (this.mwtSImpl_fits x reduce ho right heap hU) fun _ _ _ hp => ⟨_, hp.map fun _ _ hm => hm.toN⟩
  · refine Fits.bind (this.transmuteE_fits reduce ho.left heap) fun U1 s1 l _ hsub1 heap1 hl => ?_
    refine Fits.bind (right.transformE_fitsL ho.right heap1) fun U2 s2 r _ hsub2 heap2 hr => ?_
    exact Fits.al (amwtApart_sim reduce heap2 (⟨hsub2 _ (hsub1 _ hU), rfl⟩ : InL U2 (.S right) (.S right.erase)) _ _ _
      (hl.mono fun _ _ hm => hm.mono hsub2) hr)

end

/-! ### transmute_with_transmuted -/

section
variable {U : ANode c.n S X → Prop} {ops : MwmOpsM Q A K V L W S X R} (ho : ops.Still)
include ho

theorem ASNode.mwmValues_fits (heap : Heap U s) (lk : K) (lv : V) (rk : L) (rv : W) :
    Fits U s (ASNode.mwmValues x reduce ops lk lv rk rv)
      (fun U' => XP (InL U')) := by
  unfold ASNode.mwmValues
  refine Fits.ite (fun he => ?_) (fun he => ?_)
  · refine Fits.bindQ (ho.both.call _ _ _ _) fun _ => ?_
    refine Fits.bind (Fits.al (ASNode.answerX_sim heap _)) fun U' s' r _ hsub heap' hx => ?_
    exact Fits.pure heap' (hx.map (P' := InL U') fun _ _ hm => hm.toL)
  · refine Fits.bindQ (ho.left.call _ _) fun _ => (Fits.bindQ (ho.right.call _ _) fun _ => ?_)
    exact Fits.al (ASNode.mwmTable_sim reduce heap _ _)

theorem ASNode.mwm_fits (this : ASNode K V) (right : ASNode L W) (depth : Nat) (heap : Heap U s) :
    Fits U s (this.mwm x reduce ops right depth)
      (fun U' => XP (InN U')) := by
  unfold ASNode.mwm
  refine Fits.ite (fun he => ?_) (fun he => ?_)
  · exact Fits.map (ASNode.mwmValues_fits x reduce ho heap _ _ _ _) fun _ _ _ hp => ⟨_, hp.map fun _ _ hm => hm.toN⟩
  · refine Fits.bind (this.transmuteE_fitsL ho.left heap) fun U1 s1 l _ hsub1 heap1 hl => ?_
    refine Fits.bind (right.transmuteE_fitsL ho.right heap1) fun U2 s2 r _ hsub2 heap2 hr => ?_
    exact Fits.al (amwmApart_sim reduce heap2 _ _ _ (hl.mono fun _ _ hm => hm.mono hsub2) hr)

theorem ALNode.mwmSImpl_fits (this : ALNode K V) (right : ASNode L W) (heap : Heap U s) :
    Fits U s (this.mwmSImpl x reduce ops right)
      (fun U' => XP (InL U')) := by
  induction this with
  | nextS a k v t z =>
    unfold ALNode.mwmSImpl
    refine Fits.ite (fun he => ?_) (fun he => ?_)
    · refine Fits.bind (t.transmuteE_fitsL ho.left heap) fun U' s' nx _ hsub heap' hx => ?_
      exact Fits.bindQ (ho.both.call _ _ _ _) fun _ => (Fits.al (ALNode.transmuteResult_sim reduce heap' _ hx))
    · refine Fits.bind (ASNode.mwmValues_fits x reduce ho heap _ _ _ _) fun U' s' nx _ hsub heap' hx => ?_
      exact Fits.bindQ (ho.left.call _ _) fun _ => (Fits.al (ALNode.transmuteResult_sim reduce heap' _ hx))
  | nextL a k v l z ih =>
    unfold ALNode.mwmSImpl
    refine Fits.ite (fun he => ?_) (fun he => ?_)
    · refine Fits.bind (l.transmuteE_fits reduce ho.left heap) fun U' s' nx _ hsub heap' hx => ?_
      exact Fits.bindQ (ho.both.call _ _ _ _) fun _ => (Fits.al (ALNode.transmuteResult_sim reduce heap' _ hx))
    · refine Fits.bind ih fun U' s' nx _ hsub heap' hx => ?_
      exact Fits.bindQ (ho.left.call _ _) fun _ => (Fits.al (ALNode.transmuteResult_sim reduce heap' _ hx))

theorem ALNode.mwmS_fits (this : ALNode K V) (right : ASNode L W) (depth : Nat) (heap : Heap U s) :
    Fits U s (this.mwmS x reduce ops right depth)
      (fun U' => XP (InN U')) := by
  unfold ALNode.mwmS
  refine Fits.ite (fun he => ?_) (fun he => ?_)
  · exact Fits.map (this.mwmSImpl_fits x reduce ho right heap) fun _ _ _ hp => ⟨_, hp.map fun _ _ hm => hm.toN⟩
  · refine Fits.bind (this.transmuteE_fits reduce ho.left heap) fun U1 s1 l _ hsub1 heap1 hl => ?_
    refine Fits.bind (right.transmuteE_fitsL ho.right heap1) fun U2 s2 r _ hsub2 heap2 hr => ?_
    exact Fits.al (amwmApart_sim reduce heap2 _ _ _ (hl.mono fun _ _ hm => hm.mono hsub2) hr)

theorem ASNode.mwmLast_fits (t : ASNode K V) (rights : List (L × W)) (heap : Heap U s) :
    Fits U s (t.mwmLast x reduce ops rights)
      (fun U' a b => XP (InL U') a.1 b) := by
  unfold ASNode.mwmLast
  cases takeMatch (fun e : L × W => x.eq t.key e.1) rights with
  | some b => exact Fits.map (ASNode.mwmValues_fits x reduce ho heap _ _ _ _) fun _ _ _ hp => ⟨_, hp⟩
  | none =>
    refine Fits.map (t.transmuteE_fitsL ho.left heap) ?_
    exact fun _ _ _ hp => ⟨_, hp⟩

theorem MwmOpsM.step_still (k : K) (v : V) (rights : List (L × W)) :
    (ops.step x k v rights).Still := by
  unfold MwmOpsM.step
  cases takeMatch (fun e : L × W => x.eq k e.1) rights with
  | some b => exact .then (ho.both.call _ _ _ _) fun _ => .ret _
  | none => exact .then (ho.left.call _ _) fun _ => .ret _

theorem ALNode.mwmLImpl_fits (this : ALNode K V) (heap : Heap U s) (rights : List (L × W)) :
    Fits U s (this.mwmLImpl x reduce ops rights)
      (fun U' a b => XP (InL U') a.1 b) := by
  induction this generalizing rights with
  | nextS a k v t z =>
    unfold ALNode.mwmLImpl
    refine Fits.bind (t.mwmLast_fits x reduce ho rights heap) fun U' s' nx _ hsub heap' hx => ?_
    refine Fits.bindQ (MwmOpsM.step_still x ho _ _ _) fun _ => ?_
    exact Fits.map (Fits.al (ALNode.transmuteResult_sim reduce heap' _ hx))
       fun _ _ _ hp => ⟨_, hp⟩
  | nextL a k v l z ih =>
    unfold ALNode.mwmLImpl
    refine Fits.bind (ih (rights := rights)) fun U' s' nx _ hsub heap' hx => ?_
    refine Fits.bindQ (MwmOpsM.step_still x ho _ _ _) fun _ => ?_
    exact Fits.map (Fits.al (ALNode.transmuteResult_sim reduce heap' _ hx))
       fun _ _ _ hp => ⟨_, hp⟩

theorem MwmOpsM.leftovers_fits (rights : List (L × W)) :
    ∀ (U : ANode c.n S X → Prop) (s : Nat) (nx : XRes (ALNext S X) R) (nx' : XRes (LNext S X) R), Heap U s →
      XP (InL U) nx nx' →
      Fits U s (ops.leftovers reduce rights nx)
        (fun U' => XP (InL U')) := by
  induction rights with
  | nil => intro U s nx nx' heap hx; exact Fits.pure heap hx
  | cons b rights ih =>
    intro U s nx nx' heap hx
    refine Fits.bindQ (ho.right.call _ _) fun _ => ?_
    refine Fits.bind (Fits.al (ALNode.transmuteResult_sim reduce heap _ hx)) fun U' s' nx2 _ hsub heap' hx' => ?_
    exact ih U' s' nx2 _ heap' hx'

theorem ALNode.mwmL_fits (this : ALNode K V) (right : ALNode L W) (depth : Nat) (heap : Heap U s) :
    Fits U s (this.mwmL x reduce ops right depth)
      (fun U' => XP (InN U')) := by
  unfold ALNode.mwmL
  refine Fits.ite (fun he => ?_) (fun he => ?_)
  · refine Fits.bindRes fun rights _ => ?_
    refine Fits.bind (this.mwmLImpl_fits x reduce ho heap rights) fun U1 s1 nx _ hsub1 heap1 hx => ?_
    exact Fits.map (MwmOpsM.leftovers_fits reduce ho _ U1 s1 _ _ heap1 hx)
      fun _ _ _ hp => ⟨_, hp.map fun _ _ hm => hm.toN⟩
  · refine Fits.bind (this.transmuteE_fits reduce ho.left heap) fun U1 s1 l _ hsub1 heap1 hl => ?_
    refine Fits.bind (right.transmuteE_fits reduce ho.right heap1) fun U2 s2 r _ hsub2 heap2 hr => ?_
    exact Fits.al (amwmApart_sim reduce heap2 _ _ _ (hl.mono fun _ _ hm => hm.mono hsub2) hr)

end

/-! ### transform_with_transformed -/

section
variable [BEq K] (hash : K → BitVec c.w) {U : ANode c.n K V → Prop} {ops : TwtOpsM Q A K V R} (ho : ops.Still)
include ho

theorem ASNode.twtImpl_fits (this right : ASNode K V) (heap : Heap U s) (hU : U (.S this)) (hR : U (.S right)) :
    Fits U s (this.twtImpl reduce ops right)
      (fun U' => JP (InL U')) := by
  unfold ASNode.twtImpl
  refine Fits.ite (fun he => ?_) (fun he => ?_)
  · exact Fits.bindQ (ho.both.call _ _ _ _) fun _ => (Fits.al (this.answerJ_sim heap _))
  · refine Fits.bindQ (ho.left.call _ _) fun _ => (Fits.bindQ (ho.right.call _ _) fun _ => ?_)
    exact Fits.al (this.twtTable_sim reduce right heap hU hR _ _)

theorem ASNode.twt_fits (this right : ASNode K V) (depth : Nat) (heap : Heap U s) (hU : U (.S this)) (hR : U (.S right)) :
    Fits U s (this.twt reduce hash ops right depth)
      (fun U' => JP (InN U')) := by
  unfold ASNode.twt
  refine Fits.ite (fun he => ?_) (fun he => ?_)
  · exact Fits.map (this.twtImpl_fits reduce ho right heap hU hR) fun _ _ _ hp => ⟨_, hp.map fun _ _ hm => hm.toN⟩
  · refine Fits.bind (this.transformE_fitsL ho.left heap) fun U1 s1 l _ hsub1 heap1 hl => ?_
    refine Fits.bind (right.transformE_fitsL ho.right heap1) fun U2 s2 r _ hsub2 heap2 hr => ?_
    exact Fits.al (atwtApart_sim reduce heap2 (⟨hsub2 _ (hsub1 _ hU), rfl⟩ : InL U2 (.S this) (.S this.erase))
      (⟨hsub2 _ (hsub1 _ hR), rfl⟩ : InL U2 (.S right) (.S right.erase)) _ _ _
      (hl.mono fun _ _ hm => hm.mono hsub2) hr)

theorem ALNode.twtSImpl_fits (this : ALNode K V) (right : ASNode K V) (heap : Heap U s) (hU : U (.L this))
    (hR : U (.S right)) :
    Fits U s (this.twtSImpl reduce ops right)
      (fun U' => JP (InL U')) := by
  induction this with
  | nextS a k v t z =>
    have hn := heap.nextU hU
    unfold ALNode.twtSImpl
    refine Fits.ite (fun he => ?_) (fun he => ?_)
    · refine Fits.bind (t.transformE_fitsL ho.left heap) fun U' s' nx _ hsub heap' hx => ?_
      exact Fits.bindQ (ho.both.call _ _ _ _) fun _ =>
        (Fits.al (ALNode.jointThenPlain_sim reduce (.nextS a k v t z) right heap' (hsub _ hn) _ hx))
    · refine Fits.bind (t.twtImpl_fits reduce ho right heap hn hR) fun U' s' nx _ hsub heap' hx => ?_
      exact Fits.bindQ (ho.left.call _ _) fun _ =>
        (Fits.al (ALNode.plainThenJoint_sim reduce (.nextS a k v t z) right heap' (hsub _ hU) (hsub _ hn) (hsub _ hR) _ hx))
  | nextL a k v l z ih =>
    have hn := heap.nextU hU
    unfold ALNode.twtSImpl
    refine Fits.ite (fun he => ?_) (fun he => ?_)
    · refine Fits.bind (l.transformE_fits reduce ho.left heap hn) fun U' s' nx _ hsub heap' hx => ?_
      exact Fits.bindQ (ho.both.call _ _ _ _) fun _ =>
        (Fits.al (ALNode.jointThenPlain_sim reduce (.nextL a k v l z) right heap' (hsub _ hn) _ hx))
    · refine Fits.bind (ih hn) fun U' s' nx _ hsub heap' hx => ?_
      exact Fits.bindQ (ho.left.call _ _) fun _ =>
        (Fits.al (ALNode.plainThenJoint_sim reduce (.nextL a k v l z) right heap' (hsub _ hU) (hsub _ hn) (hsub _ hR) _ hx))

theorem ALNode.twtS_fits (this : ALNode K V) (right : ASNode K V) (depth : Nat) (heap : Heap U s) (hU : U (.L this))
    (hR : U (.S right)) :
    Fits U s (this.twtS reduce hash ops right depth)
      (fun U' => JP (InN U')) := by
  unfold ALNode.twtS
  refine Fits.ite (fun he => ?_) (fun he => ?_)
  · exact Fits.map (this.twtSImpl_fits reduce ho right heap hU hR) fun _ _ _ hp => ⟨_, hp.map fun _ _ hm => hm.toN⟩
  · refine Fits.bind (this.transformE_fits reduce ho.left heap hU) fun U1 s1 l _ hsub1 heap1 hl => ?_
    refine Fits.bind (right.transformE_fitsL ho.right heap1) fun U2 s2 r _ hsub2 heap2 hr => ?_
    exact Fits.al (atwtApart_sim reduce heap2 (⟨hsub2 _ (hsub1 _ hU), rfl⟩ : InL U2 (.L this) (.L this.erase))
      (⟨hsub2 _ (hsub1 _ hR), rfl⟩ : InL U2 (.S right) (.S right.erase)) _ _ _
      (hl.mono fun _ _ hm => hm.mono hsub2) hr)

theorem ASNode.twtLast_fits (t : ASNode K V) (rights : List (K × V)) (heap : Heap U s) (hU : U (.S t)) :
    Fits U s (t.twtLast reduce ops rights)
      (fun U' a b => JP (InL U') a.1 b) := by
  unfold ASNode.twtLast
  cases takeMatch (fun e : K × V => t.key == e.1) rights with
  | some b =>
    refine Fits.bind (P := fun U' => InS U') (Fits.al (y := .ok ⟨b.1.1, b.1.2⟩) ?_)
      fun U1 s1 r _ hsub1 heap1 hr => ?_
    · exact Sim.bindSNew heap fun _ _ h2 h3 => Sim.pure h3 ⟨h2, rfl⟩
    · exact Fits.map (t.twtImpl_fits reduce ho r heap1 (hsub1 _ hU) hr.1) fun _ _ _ hp => ⟨_, hp⟩
  | none =>
    refine Fits.map (t.transformE_fitsL ho.left heap) ?_
    exact fun _ _ _ hp => ⟨_, hp.jointL⟩

theorem TwtOpsM.step_still (k : K) (v : V) (rights : List (K × V)) :
    (ops.step k v rights).Still := by
  unfold TwtOpsM.step
  cases takeMatch (fun e : K × V => k == e.1) rights with
  | some b => exact .then (ho.both.call _ _ _ _) fun _ => .ret _
  | none => exact .then (ho.left.call _ _) fun _ => .ret _

theorem ALNode.twtLImpl_fits (this : ALNode K V) (heap : Heap U s) (hU : U (.L this)) (rights : List (K × V)) :
    Fits U s (this.twtLImpl reduce ops rights)
      (fun U' a b => JP (InL U') a.1 b) := by
  have hn := heap.nextU hU
  induction this generalizing rights with
  | nextS a k v t z =>
    unfold ALNode.twtLImpl
    refine Fits.bind (t.twtLast_fits reduce ho rights heap hn) fun U' s' nx _ hsub heap' hx => ?_
    refine Fits.bindQ (TwtOpsM.step_still ho _ _ _) fun _ => ?_
    exact Fits.map (Fits.al (ALNode.jointThenJoint_sim reduce (.nextS a k v t z) _ heap' (hsub _ hn) _ hx))
       fun _ _ _ hp => ⟨_, hp⟩
  | nextL a k v l z ih =>
    unfold ALNode.twtLImpl
    refine Fits.bind (ih hn (rights := rights) (heap.nextU hn)) fun U' s' nx nx' hsub heap' hx => ?_
    refine Fits.bindQ (TwtOpsM.step_still ho _ _ _) fun _ => ?_
    exact Fits.map (Fits.al (ALNode.jointThenJoint_sim reduce (.nextL a k v l z) _ heap' (hsub _ hn) _ hx))
       fun _ _ _ hp => ⟨_, hp⟩

omit [BEq K] in
theorem TwtOpsM.leftovers_fits (this : ALNode K V) (rights : List (K × V)) :
    ∀ (U : ANode c.n K V → Prop) (s : Nat) (nx : JRes (ALNext K V) R) (nx' : JRes (LNext K V) R), Heap U s →
      U (.L this) → JP (InL U) nx nx' →
      Fits U s (ops.leftovers reduce this rights nx)
        (fun U' => JP (InL U')) := by
  induction rights with
  | nil => intro U s nx nx' heap _ hx; exact Fits.pure heap hx
  | cons b rights ih =>
    intro U s nx nx' heap hU hx
    refine Fits.bindQ (ho.right.call _ _) fun a => ?_
    have r : R := by cases a <;> assumption
    refine Fits.bind (Fits.al (this.twtLeftover_sim (ops := ⟨.removed r, .removed r, .generic fun _ _ => a⟩)
      reduce heap hU b hx)) fun U' s' nx2 _ hsub heap' hx' => ?_
    exact ih U' s' nx2 _ heap' (hsub _ hU) hx'

theorem ALNode.twtL_fits (this right : ALNode K V) (depth : Nat) (heap : Heap U s) (hU : U (.L this))
    (hR : U (.L right)) :
    Fits U s (this.twtL reduce hash ops right depth)
      (fun U' => JP (InN U')) := by
  unfold ALNode.twtL
  refine Fits.ite (fun he => ?_) (fun he => ?_)
  · refine Fits.bindRes fun rights _ => ?_
    refine Fits.bind (this.twtLImpl_fits reduce ho heap hU rights) fun U1 s1 nx nx' hsub1 heap1 hx => ?_
    exact Fits.map (TwtOpsM.leftovers_fits reduce ho this _ U1 s1 _ _ heap1 (hsub1 _ hU) hx)
      fun _ _ _ hp => ⟨_, hp.map fun _ _ hm => hm.toN⟩
  · refine Fits.bind (this.transformE_fits reduce ho.left heap hU) fun U1 s1 l _ hsub1 heap1 hl => ?_
    refine Fits.bind (right.transformE_fits reduce ho.right heap1 (hsub1 _ hR)) fun U2 s2 r _ hsub2 heap2 hr => ?_
    exact Fits.al (atwtApart_sim reduce heap2 (⟨hsub2 _ (hsub1 _ hU), rfl⟩ : InL U2 (.L this) (.L this.erase))
      (⟨hsub2 _ (hsub1 _ hR), rfl⟩ : InL U2 (.L right) (.L right.erase)) _ _ _
      (hl.mono fun _ _ hm => hm.mono hsub2) hr)

end
end HT
