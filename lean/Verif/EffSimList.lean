import Verif.EffTables
/-! # Bulk and joint operations on single nodes and collision lists do what the model does, when the closures are pure -/
namespace HT

variable {K V L W S X R : Type} {n : Nat} {Q : Type} {A : Q → Type} {h : (q : Q) → A q} {s : Nat}

theorem ALNode.rights_erase (r : ALNode K V) : r.rights = r.erase.rights := by
  cases r <;> rfl

theorem Heap.nextU {U : ANode n K V → Prop} (heap : Heap U s) {l : ALNode K V} (hl : U (.L l)) : U l.next.toNode := by
  cases l with
  | nextS a k v t z => exact (heap.kids _ hl (.S t) (by simp [ANode.kids])).1
  | nextL a k v l z => exact (heap.kids _ hl (.L l) (by simp [ANode.kids])).1

namespace PSim
variable {α β : Type} {U : ANode n K V → Prop} {p q : Prop} [Decidable p] [Decidable q]

theorem ite {x x' : Prog Q A α} {y y' : Res β} {P : (ANode n K V → Prop) → α → β → Prop} (hpq : q ↔ p)
    (h1 : p → PSim h U s x y P) (h2 : ¬p → PSim h U s x' y' P) :
    PSim h U s (if p then x else x') (if q then y else y') P := by
  by_cases hp : p
  · rw [if_pos hp, if_pos (hpq.2 hp)]; exact h1 hp
  · rw [if_neg hp, if_neg (fun hq => hp (hpq.1 hq))]; exact h2 hp

theorem iteOk {x x' : Prog Q A α} {y y' : β} {P : (ANode n K V → Prop) → α → β → Prop} (hpq : q ↔ p)
    (h1 : p → PSim h U s x (.ok y) P) (h2 : ¬p → PSim h U s x' (.ok y') P) :
    PSim h U s (if p then x else x') (.ok (if q then y else y')) P := by
  by_cases hp : p
  · rw [if_pos hp, if_pos (hpq.2 hp)]; exact h1 hp
  · rw [if_neg hp, if_neg (fun hq => hp (hpq.1 hq))]; exact h2 hp

end PSim

/-! ### transform and transmute -/

theorem ASNode.transformE_sim {U : ANode n K V → Prop}
    {op : MapTransform R (K → V → Prog Q A (MapTransformResult V R))}
    {op' : MapTransform R (K → V → MapTransformResult V R)} (ho : op.Rel h op') (this : ASNode K V) (heap : Heap U s) :
    PSim h U s (this.transformE op) (.ok (this.erase.transform op')) (fun U' => TP (InS U')) :=
  PSim.bindPure (ho.call _ _) (PSim.al (this.answer_sim heap _))

theorem ASNode.transformE_simL {U : ANode n K V → Prop}
    {op : MapTransform R (K → V → Prog Q A (MapTransformResult V R))}
    {op' : MapTransform R (K → V → MapTransformResult V R)} (ho : op.Rel h op') (this : ASNode K V) (heap : Heap U s) :
    PSim h U s (this.transformE op) (.ok (this.erase.transform op'))
      (fun U' a b => TP (InL U') (a.map .S) (b.map .S)) :=
  PSim.mono (this.transformE_sim ho heap) fun _ _ _ _ hp => hp.map fun _ _ hm => hm.toL

theorem ASNode.transmuteE_sim {U : ANode n S X → Prop}
    {op : MapTransmute R (K → V → Prog Q A (MapTransmuteResult S X R))}
    {op' : MapTransmute R (K → V → MapTransmuteResult S X R)} (ho : op.Rel h op') (this : ASNode K V) (heap : Heap U s) :
    PSim h U s (this.transmuteE op) (.ok (this.erase.transmute op')) (fun U' => XP (InS U')) :=
  PSim.bindPure (ho.call _ _) (PSim.al (ASNode.answerX_sim heap _))

theorem ASNode.transmuteE_simL {U : ANode n S X → Prop}
    {op : MapTransmute R (K → V → Prog Q A (MapTransmuteResult S X R))}
    {op' : MapTransmute R (K → V → MapTransmuteResult S X R)} (ho : op.Rel h op') (this : ASNode K V) (heap : Heap U s) :
    PSim h U s (this.transmuteE op) (.ok (this.erase.transmute op'))
      (fun U' a b => XP (InL U') (a.map .S) (b.map .S)) :=
  PSim.mono (this.transmuteE_sim ho heap) fun _ _ _ _ hp => hp.map fun _ _ hm => hm.toL

theorem ALNode.transformE_sim {U : ANode n K V → Prop} (reduce : R → R → R)
    {op : MapTransform R (K → V → Prog Q A (MapTransformResult V R))}
    {op' : MapTransform R (K → V → MapTransformResult V R)} (ho : op.Rel h op') (this : ALNode K V) (heap : Heap U s)
    (hU : U (.L this)) :
    PSim h U s (this.transformE reduce op) (.ok (this.erase.transform reduce op')) (fun U' => TP (InL U')) := by
  have hn := heap.nextU hU
  induction this with
  | nextS a k v t z =>
    cases ho with
    | unchanged r => exact PSim.pure heap (.unchanged r)
    | removed r => exact PSim.pure heap (.removed r)
    | generic hf =>
      refine PSim.bindOk (t.transformE_simL (.generic hf) heap) fun U' s' nx hsub heap' hx => ?_
      exact PSim.bindPure (hf k v) (PSim.al (ALNode.transformResult_sim reduce (.nextS a k v t z) heap' (hsub _ hn) _ hx))
  | nextL a k v l z ih =>
    cases ho with
    | unchanged r => exact PSim.pure heap (.unchanged r)
    | removed r => exact PSim.pure heap (.removed r)
    | generic hf =>
      refine PSim.bindOk (ih hn (heap.nextU hn)) fun U' s' nx hsub heap' hx => ?_
      exact PSim.bindPure (hf k v) (PSim.al (ALNode.transformResult_sim reduce (.nextL a k v l z) heap' (hsub _ hn) _ hx))

theorem ALNode.transmuteE_sim {U : ANode n S X → Prop} (reduce : R → R → R)
    {op : MapTransmute R (K → V → Prog Q A (MapTransmuteResult S X R))}
    {op' : MapTransmute R (K → V → MapTransmuteResult S X R)} (ho : op.Rel h op') (this : ALNode K V) (heap : Heap U s) :
    PSim h U s (this.transmuteE reduce op) (.ok (this.erase.transmute reduce op')) (fun U' => XP (InL U')) := by
  induction this with
  | nextS a k v t z =>
    cases ho with
    | removed r => exact PSim.pure heap (.removed r)
    | generic hf =>
      refine PSim.bindOk (t.transmuteE_simL (.generic hf) heap) fun U' s' nx hsub heap' hx => ?_
      exact PSim.bindPure (hf k v) (PSim.al (ALNode.transmuteResult_sim reduce heap' _ hx))
  | nextL a k v l z ih =>
    cases ho with
    | removed r => exact PSim.pure heap (.removed r)
    | generic hf =>
      refine PSim.bindOk ih fun U' s' nx hsub heap' hx => ?_
      exact PSim.bindPure (hf k v) (PSim.al (ALNode.transmuteResult_sim reduce heap' _ hx))

variable {c : Cfg} (x : Cross c K L) (reduce : R → R → R)

/-! ### transform_with_transmuted -/

section
variable {U : ANode c.n K V → Prop} {ops : TwmOpsM Q A K V L W R} {ops' : TwmOps K V L W R} (ho : ops.Rel h ops')
include ho

theorem ASNode.twmImpl_sim (this : ASNode K V) (heap : Heap U s) (hU : U (.S this)) (rk : L) (rv : W) :
    PSim h U s (this.twmImpl x reduce ops rk rv) (.ok (this.erase.twmImpl x reduce ops' rk rv))
      (fun U' => TP (InL U')) := by
  unfold ASNode.twmImpl SNode.twmImpl
  refine PSim.iteOk Iff.rfl (fun he => ?_) (fun he => ?_)
  · refine PSim.bindPure (ho.both.call _ _ _ _) ?_
    refine PSim.bindOk (PSim.al (this.answer_sim heap _)) fun U' s' r hsub heap' hx => ?_
    simp only [ASNode.erase]
    generalize ops'.both.call2 this.key this.value rk rv = q at hx ⊢
    cases q <;> exact PSim.pure heap' (hx.map (P' := InL U') fun _ _ hm => hm.toL)
  · refine PSim.bindPure (ho.left.call _ _) (PSim.bindPure (ho.right.call _ _) ?_)
    exact PSim.al (this.twmTable_sim reduce heap hU _ _)

theorem ASNode.twm_sim (this : ASNode K V) (right : ASNode L W) (depth : Nat) (heap : Heap U s) (hU : U (.S this)) :
    PSim h U s (this.twm x reduce ops right depth) (this.erase.twm x reduce ops' right.erase depth)
      (fun U' => TP (InN U')) := by
  unfold ASNode.twm SNode.twm
  refine PSim.ite Iff.rfl (fun he => ?_) (fun he => ?_)
  · exact PSim.mapOk (this.twmImpl_sim x reduce ho heap hU _ _) fun _ _ _ hp => hp.map fun _ _ hm => hm.toN
  · refine PSim.bindOk (this.transformE_simL ho.left heap) fun U1 s1 l hsub1 heap1 hl => ?_
    refine PSim.bindOk (right.transmuteE_simL ho.right heap1) fun U2 s2 r hsub2 heap2 hr => ?_
    exact PSim.al (atwmApart_sim reduce heap2 (⟨hsub2 _ (hsub1 _ hU), rfl⟩ : InL U2 (.S this) (.S this.erase)) _ _ _
      (hl.mono fun _ _ hm => hm.mono hsub2) hr)

theorem ALNode.twmSImpl_sim (this : ALNode K V) (right : ASNode L W) (heap : Heap U s) (hU : U (.L this)) :
    PSim h U s (this.twmSImpl x reduce ops right) (.ok (this.erase.twmSImpl x reduce ops' right.erase))
      (fun U' => TP (InL U')) := by
  have hn := heap.nextU hU
  induction this with
  | nextS a k v t z =>
    unfold ALNode.twmSImpl ALNode.erase LNode.twmSImpl
    refine PSim.iteOk Iff.rfl (fun he => ?_) (fun he => ?_)
    · refine PSim.bindOk (t.transformE_simL ho.left heap) fun U' s' nx hsub heap' hx => ?_
      exact PSim.bindPure (ho.both.call _ _ _ _)
        (PSim.al (ALNode.transformResult_sim reduce (.nextS a k v t z) heap' (hsub _ hn) _ hx))
    · refine PSim.bindOk (t.twmImpl_sim x reduce ho heap hn _ _) fun U' s' nx hsub heap' hx => ?_
      exact PSim.bindPure (ho.left.call _ _)
        (PSim.al (ALNode.transformResult_sim reduce (.nextS a k v t z) heap' (hsub _ hn) _ hx))
  | nextL a k v l z ih =>
    unfold ALNode.twmSImpl ALNode.erase LNode.twmSImpl
    refine PSim.iteOk Iff.rfl (fun he => ?_) (fun he => ?_)
    · refine PSim.bindOk (l.transformE_sim reduce ho.left heap hn) fun U' s' nx hsub heap' hx => ?_
      exact PSim.bindPure (ho.both.call _ _ _ _)
        (PSim.al (ALNode.transformResult_sim reduce (.nextL a k v l z) heap' (hsub _ hn) _ hx))
    · refine PSim.bindOk (ih hn (heap.nextU hn)) fun U' s' nx hsub heap' hx => ?_
      exact PSim.bindPure (ho.left.call _ _)
        (PSim.al (ALNode.transformResult_sim reduce (.nextL a k v l z) heap' (hsub _ hn) _ hx))

theorem ALNode.twmS_sim (this : ALNode K V) (right : ASNode L W) (depth : Nat) (heap : Heap U s) (hU : U (.L this)) :
    PSim h U s (this.twmS x reduce ops right depth) (this.erase.twmS x reduce ops' right.erase depth)
      (fun U' => TP (InN U')) := by
  unfold ALNode.twmS LNode.twmS
  rw [ALNode.erase_key]
  refine PSim.ite Iff.rfl (fun he => ?_) (fun he => ?_)
  · exact PSim.mapOk (this.twmSImpl_sim x reduce ho right heap hU) fun _ _ _ hp => hp.map fun _ _ hm => hm.toN
  · refine PSim.bindOk (this.transformE_sim reduce ho.left heap hU) fun U1 s1 l hsub1 heap1 hl => ?_
    refine PSim.bindOk (right.transmuteE_simL ho.right heap1) fun U2 s2 r hsub2 heap2 hr => ?_
    exact PSim.al (atwmApart_sim reduce heap2 (⟨hsub2 _ (hsub1 _ hU), rfl⟩ : InL U2 (.L this) (.L this.erase)) _ _ _
      (hl.mono fun _ _ hm => hm.mono hsub2) hr)

theorem ASNode.twmLast_sim (t : ASNode K V) (rights : List (L × W)) (heap : Heap U s) (hU : U (.S t)) :
    PSim h U s (t.twmLast x reduce ops rights) (.ok (t.erase.twmLast x reduce ops' rights))
      (fun U' a b => TP (InL U') a.1 b.1 ∧ a.2 = b.2) := by
  unfold ASNode.twmLast SNode.twmLast
  show PSim h U s _ (.ok (match takeMatch (fun e : L × W => x.eq t.key e.1) rights with
    | some (b, rights') => _ | none => _)) _
  cases takeMatch (fun e : L × W => x.eq t.key e.1) rights with
  | some b => exact PSim.mapOk (g := fun y => (y, b.2)) (t.twmImpl_sim x reduce ho heap hU _ _) fun _ _ _ hp => ⟨hp, rfl⟩
  | none =>
    refine PSim.mapOk (g := fun y => (y.map LNext.S, rights)) (t.transformE_simL ho.left heap) ?_
    exact fun _ _ _ hp => ⟨hp, rfl⟩

theorem TwmOpsM.step_eval (k : K) (v : V) (rights : List (L × W)) :
    Prog.eval h (ops.step x k v rights) = pure (ops'.step x k v rights) := by
  unfold TwmOpsM.step TwmOps.step
  cases takeMatch (fun e : L × W => x.eq k e.1) rights with
  | some b => simp only; rw [Prog.eval_bind, ho.both.call]; rfl
  | none => simp only; rw [Prog.eval_bind, ho.left.call]; rfl

theorem ALNode.twmLImpl_sim (this : ALNode K V) (heap : Heap U s) (hU : U (.L this)) (rights : List (L × W)) :
    PSim h U s (this.twmLImpl x reduce ops rights) (.ok (this.erase.twmLImpl x reduce ops' rights))
      (fun U' a b => TP (InL U') a.1 b.1 ∧ a.2 = b.2) := by
  have hn := heap.nextU hU
  induction this generalizing rights with
  | nextS a k v t z =>
    unfold ALNode.twmLImpl ALNode.erase LNode.twmLImpl
    refine PSim.bindOk (t.twmLast_sim x reduce ho rights heap hn) fun U' s' nx hsub heap' hx => ?_
    rw [hx.2]
    refine PSim.bindPure (TwmOpsM.step_eval x ho _ _ _) ?_
    exact PSim.mapOk (PSim.al (ALNode.transformResult_sim reduce (.nextS a k v t z) heap' (hsub _ hn) _ hx.1))
      (g := fun b => (b, _)) fun _ _ _ hp => ⟨hp, rfl⟩
  | nextL a k v l z ih =>
    unfold ALNode.twmLImpl ALNode.erase LNode.twmLImpl
    refine PSim.bindOk (ih hn (rights := rights) (heap.nextU hn)) fun U' s' nx hsub heap' hx => ?_
    rw [hx.2]
    refine PSim.bindPure (TwmOpsM.step_eval x ho _ _ _) ?_
    exact PSim.mapOk (PSim.al (ALNode.transformResult_sim reduce (.nextL a k v l z) heap' (hsub _ hn) _ hx.1))
      (g := fun b => (b, _)) fun _ _ _ hp => ⟨hp, rfl⟩

theorem TwmOpsM.leftovers_sim (this : ALNode K V) (rights : List (L × W)) :
    ∀ (U : ANode c.n K V → Prop) (s : Nat) (nx : TRes (ALNext K V) R) (nx' : TRes (LNext K V) R), Heap U s →
      U (.L this) → TP (InL U) nx nx' →
      PSim h U s (ops.leftovers reduce this rights nx) (.ok (rights.foldl (ops'.leftover reduce this.erase) nx'))
        (fun U' => TP (InL U')) := by
  induction rights with
  | nil => intro U s nx nx' heap _ hx; exact PSim.pure heap hx
  | cons b rights ih =>
    intro U s nx nx' heap hU hx
    refine PSim.bindPure (ho.right.call _ _) ?_
    refine PSim.bindOk (PSim.al (this.twmLeftover_sim reduce heap hU b hx)) fun U' s' nx2 hsub heap' hx' => ?_
    exact ih U' s' nx2 _ heap' (hsub _ hU) hx'

theorem ALNode.twmL_sim (this : ALNode K V) (right : ALNode L W) (depth : Nat) (heap : Heap U s) (hU : U (.L this)) :
    PSim h U s (this.twmL x reduce ops right depth) (this.erase.twmL x reduce ops' right.erase depth)
      (fun U' => TP (InN U')) := by
  unfold ALNode.twmL LNode.twmL
  rw [ALNode.erase_key, ALNode.erase_key, ALNode.rights_erase]
  refine PSim.ite Iff.rfl (fun he => ?_) (fun he => ?_)
  · refine PSim.bindRes fun rights _ => ?_
    refine PSim.bindOk (this.twmLImpl_sim x reduce ho heap hU rights) fun U1 s1 nx hsub1 heap1 hx => ?_
    rw [hx.2]
    exact PSim.mapOk (TwmOpsM.leftovers_sim reduce ho this _ U1 s1 _ _ heap1 (hsub1 _ hU) hx.1)
      fun _ _ _ hp => hp.map fun _ _ hm => hm.toN
  · refine PSim.bindOk (this.transformE_sim reduce ho.left heap hU) fun U1 s1 l hsub1 heap1 hl => ?_
    refine PSim.bindOk (right.transmuteE_sim reduce ho.right heap1) fun U2 s2 r hsub2 heap2 hr => ?_
    exact PSim.al (atwmApart_sim reduce heap2 (⟨hsub2 _ (hsub1 _ hU), rfl⟩ : InL U2 (.L this) (.L this.erase)) _ _ _
      (hl.mono fun _ _ hm => hm.mono hsub2) hr)

end

/-! ### transmute_with_transformed -/

section
variable {U : ANode c.n L W → Prop} {ops : MwtOpsM Q A K V L W R} {ops' : MwtOps K V L W R} (ho : ops.Rel h ops')
include ho

theorem ASNode.mwtImpl_sim (this : ASNode K V) (right : ASNode L W) (heap : Heap U s) (hU : U (.S right)) :
    PSim h U s (this.mwtImpl x reduce ops right) (.ok (this.erase.mwtImpl x reduce ops' right.erase))
      (fun U' => TP (InL U')) := by
  unfold ASNode.mwtImpl SNode.mwtImpl
  refine PSim.iteOk Iff.rfl (fun he => ?_) (fun he => ?_)
  · refine PSim.bindPure (ho.both.call _ _ _ _) ?_
    refine PSim.bindOk (PSim.al (right.answer_sim heap _)) fun U' s' r hsub heap' hx => ?_
    simp only [ASNode.erase]
    generalize ops'.both.call2 this.key this.value right.key right.value = q at hx ⊢
    cases q <;> exact PSim.pure heap' (hx.map (P' := InL U') fun _ _ hm => hm.toL)
  · refine PSim.bindPure (ho.left.call _ _) (PSim.bindPure (ho.right.call _ _) ?_)
    exact PSim.al (right.mwtTable_sim reduce heap hU _ _)

theorem ASNode.mwt_sim (this : ASNode K V) (right : ASNode L W) (depth : Nat) (heap : Heap U s) (hU : U (.S right)) :
    PSim h U s (this.mwt x reduce ops right depth) (this.erase.mwt x reduce ops' right.erase depth)
      (fun U' => TP (InN U')) := by
  unfold ASNode.mwt SNode.mwt
  refine PSim.ite Iff.rfl (fun he => ?_) (fun he => ?_)
  · exact PSim.mapOk (this.mwtImpl_sim x reduce ho right heap hU) fun _ _ _ hp => hp.map fun _ _ hm => hm.toN
  · refine PSim.bindOk (this.transmuteE_simL ho.left heap) fun U1 s1 l hsub1 heap1 hl => ?_
    refine PSim.bindOk (right.transformE_simL ho.right heap1) fun U2 s2 r hsub2 heap2 hr => ?_
    exact PSim.al (amwtApart_sim reduce heap2 (⟨hsub2 _ (hsub1 _ hU), rfl⟩ : InL U2 (.S right) (.S right.erase)) _ _ _
      (hl.mono fun _ _ hm => hm.mono hsub2) hr)

theorem ALNode.mwtSImpl_sim (this : ALNode K V) (right : ASNode L W) (heap : Heap U s) (hU : U (.S right)) :
    PSim h U s (this.mwtSImpl x reduce ops right) (.ok (this.erase.mwtSImpl x reduce ops' right.erase))
      (fun U' => TP (InL U')) := by
  induction this with
  | nextS a k v t z =>
    unfold ALNode.mwtSImpl ALNode.erase LNode.mwtSImpl
    refine PSim.iteOk Iff.rfl (fun he => ?_) (fun he => ?_)
    · refine PSim.bindOk (t.transmuteE_simL ho.left heap) fun U' s' nx hsub heap' hx => ?_
      exact PSim.bindPure (ho.both.call _ _ _ _) (PSim.al (right.withTransmuted_sim reduce heap' _ hx))
    · refine PSim.bindOk (t.mwtImpl_sim x reduce ho right heap hU) fun U' s' nx hsub heap' hx => ?_
      exact PSim.bindPure (ho.left.call _ _) (PSim.al (right.withTransformed_sim reduce heap' (hsub _ hU) _ hx))
  | nextL a k v l z ih =>
    unfold ALNode.mwtSImpl ALNode.erase LNode.mwtSImpl
    refine PSim.iteOk Iff.rfl (fun he => ?_) (fun he => ?_)
    · refine PSim.bindOk (l.transmuteE_sim reduce ho.left heap) fun U' s' nx hsub heap' hx => ?_
      exact PSim.bindPure (ho.both.call _ _ _ _) (PSim.al (right.withTransmuted_sim reduce heap' _ hx))
    · refine PSim.bindOk ih fun U' s' nx hsub heap' hx => ?_
      exact PSim.bindPure (ho.left.call _ _) (PSim.al (right.withTransformed_sim reduce heap' (hsub _ hU) _ hx))

theorem ALNode.mwtS_sim (this : ALNode K V) (right : ASNode L W) (depth : Nat) (heap : Heap U s) (hU : U (.S right)) :
    PSim h U s (this.mwtS x reduce ops right depth) (this.erase.mwtS x reduce ops' right.erase depth)
      (fun U' => TP (InN U')) := by
  unfold ALNode.mwtS LNode.mwtS
  rw [ALNode.erase_key]
  refine PSim.ite Iff.rfl (fun he => ?_) (fun he => ?_)
  · exact PSim.mapOk (this.mwtSImpl_sim x reduce ho right heap hU) fun _ _ _ hp => hp.map fun _ _ hm => hm.toN
  · refine PSim.bindOk (this.transmuteE_sim reduce ho.left heap) fun U1 s1 l hsub1 heap1 hl => ?_
    refine PSim.bindOk (right.transformE_simL ho.right heap1) fun U2 s2 r hsub2 heap2 hr => ?_
    exact PSim.al (amwtApart_sim reduce heap2 (⟨hsub2 _ (hsub1 _ hU), rfl⟩ : InL U2 (.S right) (.S right.erase)) _ _ _
      (hl.mono fun _ _ hm => hm.mono hsub2) hr)

end

/-! ### transmute_with_transmuted -/

section
variable {U : ANode c.n S X → Prop} {ops : MwmOpsM Q A K V L W S X R} {ops' : MwmOps K V L W S X R}
  (ho : ops.Rel h ops')
include ho

theorem ASNode.mwmValues_sim (heap : Heap U s) (lk : K) (lv : V) (rk : L) (rv : W) :
    PSim h U s (ASNode.mwmValues x reduce ops lk lv rk rv) (.ok (SNode.mwmValues x reduce ops' lk lv rk rv))
      (fun U' => XP (InL U')) := by
  unfold ASNode.mwmValues SNode.mwmValues
  refine PSim.iteOk Iff.rfl (fun he => ?_) (fun he => ?_)
  · refine PSim.bindPure (ho.both.call _ _ _ _) ?_
    refine PSim.bindOk (PSim.al (ASNode.answerX_sim heap _)) fun U' s' r hsub heap' hx => ?_
    generalize ops'.both.call2 lk lv rk rv = q at hx ⊢
    cases q <;> exact PSim.pure heap' (hx.map (P' := InL U') fun _ _ hm => hm.toL)
  · refine PSim.bindPure (ho.left.call _ _) (PSim.bindPure (ho.right.call _ _) ?_)
    exact PSim.al (ASNode.mwmTable_sim reduce heap _ _)

theorem ASNode.mwm_sim (this : ASNode K V) (right : ASNode L W) (depth : Nat) (heap : Heap U s) :
    PSim h U s (this.mwm x reduce ops right depth) (this.erase.mwm x reduce ops' right.erase depth)
      (fun U' => XP (InN U')) := by
  unfold ASNode.mwm SNode.mwm
  refine PSim.ite Iff.rfl (fun he => ?_) (fun he => ?_)
  · exact PSim.mapOk (ASNode.mwmValues_sim x reduce ho heap _ _ _ _) fun _ _ _ hp => hp.map fun _ _ hm => hm.toN
  · refine PSim.bindOk (this.transmuteE_simL ho.left heap) fun U1 s1 l hsub1 heap1 hl => ?_
    refine PSim.bindOk (right.transmuteE_simL ho.right heap1) fun U2 s2 r hsub2 heap2 hr => ?_
    exact PSim.al (amwmApart_sim reduce heap2 _ _ _ (hl.mono fun _ _ hm => hm.mono hsub2) hr)

theorem ALNode.mwmSImpl_sim (this : ALNode K V) (right : ASNode L W) (heap : Heap U s) :
    PSim h U s (this.mwmSImpl x reduce ops right) (.ok (this.erase.mwmSImpl x reduce ops' right.erase))
      (fun U' => XP (InL U')) := by
  induction this with
  | nextS a k v t z =>
    unfold ALNode.mwmSImpl ALNode.erase LNode.mwmSImpl
    refine PSim.iteOk Iff.rfl (fun he => ?_) (fun he => ?_)
    · refine PSim.bindOk (t.transmuteE_simL ho.left heap) fun U' s' nx hsub heap' hx => ?_
      exact PSim.bindPure (ho.both.call _ _ _ _) (PSim.al (ALNode.transmuteResult_sim reduce heap' _ hx))
    · refine PSim.bindOk (ASNode.mwmValues_sim x reduce ho heap _ _ _ _) fun U' s' nx hsub heap' hx => ?_
      exact PSim.bindPure (ho.left.call _ _) (PSim.al (ALNode.transmuteResult_sim reduce heap' _ hx))
  | nextL a k v l z ih =>
    unfold ALNode.mwmSImpl ALNode.erase LNode.mwmSImpl
    refine PSim.iteOk Iff.rfl (fun he => ?_) (fun he => ?_)
    · refine PSim.bindOk (l.transmuteE_sim reduce ho.left heap) fun U' s' nx hsub heap' hx => ?_
      exact PSim.bindPure (ho.both.call _ _ _ _) (PSim.al (ALNode.transmuteResult_sim reduce heap' _ hx))
    · refine PSim.bindOk ih fun U' s' nx hsub heap' hx => ?_
      exact PSim.bindPure (ho.left.call _ _) (PSim.al (ALNode.transmuteResult_sim reduce heap' _ hx))

theorem ALNode.mwmS_sim (this : ALNode K V) (right : ASNode L W) (depth : Nat) (heap : Heap U s) :
    PSim h U s (this.mwmS x reduce ops right depth) (this.erase.mwmS x reduce ops' right.erase depth)
      (fun U' => XP (InN U')) := by
  unfold ALNode.mwmS LNode.mwmS
  rw [ALNode.erase_key]
  refine PSim.ite Iff.rfl (fun he => ?_) (fun he => ?_)
  · exact PSim.mapOk (this.mwmSImpl_sim x reduce ho right heap) fun _ _ _ hp => hp.map fun _ _ hm => hm.toN
  · refine PSim.bindOk (this.transmuteE_sim reduce ho.left heap) fun U1 s1 l hsub1 heap1 hl => ?_
    refine PSim.bindOk (right.transmuteE_simL ho.right heap1) fun U2 s2 r hsub2 heap2 hr => ?_
    exact PSim.al (amwmApart_sim reduce heap2 _ _ _ (hl.mono fun _ _ hm => hm.mono hsub2) hr)

theorem ASNode.mwmLast_sim (t : ASNode K V) (rights : List (L × W)) (heap : Heap U s) :
    PSim h U s (t.mwmLast x reduce ops rights) (.ok (t.erase.mwmLast x reduce ops' rights))
      (fun U' a b => XP (InL U') a.1 b.1 ∧ a.2 = b.2) := by
  unfold ASNode.mwmLast SNode.mwmLast
  show PSim h U s _ (.ok (match takeMatch (fun e : L × W => x.eq t.key e.1) rights with
    | some (b, rights') => _ | none => _)) _
  cases takeMatch (fun e : L × W => x.eq t.key e.1) rights with
  | some b => exact PSim.mapOk (g := fun y => (y, b.2)) (ASNode.mwmValues_sim x reduce ho heap _ _ _ _) fun _ _ _ hp => ⟨hp, rfl⟩
  | none =>
    refine PSim.mapOk (g := fun y => (y.map LNext.S, rights)) (t.transmuteE_simL ho.left heap) ?_
    exact fun _ _ _ hp => ⟨hp, rfl⟩

theorem MwmOpsM.step_eval (k : K) (v : V) (rights : List (L × W)) :
    Prog.eval h (ops.step x k v rights) = pure (ops'.step x k v rights) := by
  unfold MwmOpsM.step MwmOps.step
  cases takeMatch (fun e : L × W => x.eq k e.1) rights with
  | some b => simp only; rw [Prog.eval_bind, ho.both.call]; rfl
  | none => simp only; rw [Prog.eval_bind, ho.left.call]; rfl

theorem ALNode.mwmLImpl_sim (this : ALNode K V) (heap : Heap U s) (rights : List (L × W)) :
    PSim h U s (this.mwmLImpl x reduce ops rights) (.ok (this.erase.mwmLImpl x reduce ops' rights))
      (fun U' a b => XP (InL U') a.1 b.1 ∧ a.2 = b.2) := by
  induction this generalizing rights with
  | nextS a k v t z =>
    unfold ALNode.mwmLImpl ALNode.erase LNode.mwmLImpl
    refine PSim.bindOk (t.mwmLast_sim x reduce ho rights heap) fun U' s' nx hsub heap' hx => ?_
    rw [hx.2]
    refine PSim.bindPure (MwmOpsM.step_eval x ho _ _ _) ?_
    exact PSim.mapOk (PSim.al (ALNode.transmuteResult_sim reduce heap' _ hx.1))
      (g := fun b => (b, _)) fun _ _ _ hp => ⟨hp, rfl⟩
  | nextL a k v l z ih =>
    unfold ALNode.mwmLImpl ALNode.erase LNode.mwmLImpl
    refine PSim.bindOk (ih (rights := rights)) fun U' s' nx hsub heap' hx => ?_
    rw [hx.2]
    refine PSim.bindPure (MwmOpsM.step_eval x ho _ _ _) ?_
    exact PSim.mapOk (PSim.al (ALNode.transmuteResult_sim reduce heap' _ hx.1))
      (g := fun b => (b, _)) fun _ _ _ hp => ⟨hp, rfl⟩

theorem MwmOpsM.leftovers_sim (rights : List (L × W)) :
    ∀ (U : ANode c.n S X → Prop) (s : Nat) (nx : XRes (ALNext S X) R) (nx' : XRes (LNext S X) R), Heap U s →
      XP (InL U) nx nx' →
      PSim h U s (ops.leftovers reduce rights nx) (.ok (rights.foldl (ops'.leftover reduce) nx'))
        (fun U' => XP (InL U')) := by
  induction rights with
  | nil => intro U s nx nx' heap hx; exact PSim.pure heap hx
  | cons b rights ih =>
    intro U s nx nx' heap hx
    refine PSim.bindPure (ho.right.call _ _) ?_
    refine PSim.bindOk (PSim.al (ALNode.transmuteResult_sim reduce heap _ hx)) fun U' s' nx2 hsub heap' hx' => ?_
    exact ih U' s' nx2 _ heap' hx'

theorem ALNode.mwmL_sim (this : ALNode K V) (right : ALNode L W) (depth : Nat) (heap : Heap U s) :
    PSim h U s (this.mwmL x reduce ops right depth) (this.erase.mwmL x reduce ops' right.erase depth)
      (fun U' => XP (InN U')) := by
  unfold ALNode.mwmL LNode.mwmL
  rw [ALNode.erase_key, ALNode.erase_key, ALNode.rights_erase]
  refine PSim.ite Iff.rfl (fun he => ?_) (fun he => ?_)
  · refine PSim.bindRes fun rights _ => ?_
    refine PSim.bindOk (this.mwmLImpl_sim x reduce ho heap rights) fun U1 s1 nx hsub1 heap1 hx => ?_
    rw [hx.2]
    exact PSim.mapOk (MwmOpsM.leftovers_sim reduce ho _ U1 s1 _ _ heap1 hx.1)
      fun _ _ _ hp => hp.map fun _ _ hm => hm.toN
  · refine PSim.bindOk (this.transmuteE_sim reduce ho.left heap) fun U1 s1 l hsub1 heap1 hl => ?_
    refine PSim.bindOk (right.transmuteE_sim reduce ho.right heap1) fun U2 s2 r hsub2 heap2 hr => ?_
    exact PSim.al (amwmApart_sim reduce heap2 _ _ _ (hl.mono fun _ _ hm => hm.mono hsub2) hr)

end

/-! ### transform_with_transformed -/

section
variable [BEq K] (hash : K → BitVec c.w) {U : ANode c.n K V → Prop} {ops : TwtOpsM Q A K V R} {ops' : TwtOps K V R}
  (ho : ops.Rel h ops')
include ho

theorem ASNode.twtImpl_sim (this right : ASNode K V) (heap : Heap U s) (hU : U (.S this)) (hR : U (.S right)) :
    PSim h U s (this.twtImpl reduce ops right) (.ok (this.erase.twtImpl reduce ops' right.erase))
      (fun U' => JP (InL U')) := by
  unfold ASNode.twtImpl SNode.twtImpl
  refine PSim.iteOk Iff.rfl (fun he => ?_) (fun he => ?_)
  · exact PSim.bindPure (ho.both.call _ _ _ _) (PSim.al (this.answerJ_sim heap _))
  · refine PSim.bindPure (ho.left.call _ _) (PSim.bindPure (ho.right.call _ _) ?_)
    exact PSim.al (this.twtTable_sim reduce right heap hU hR _ _)

theorem ASNode.twt_sim (this right : ASNode K V) (depth : Nat) (heap : Heap U s) (hU : U (.S this)) (hR : U (.S right)) :
    PSim h U s (this.twt reduce hash ops right depth) (this.erase.twt reduce hash ops' right.erase depth)
      (fun U' => JP (InN U')) := by
  unfold ASNode.twt SNode.twt
  refine PSim.ite Iff.rfl (fun he => ?_) (fun he => ?_)
  · exact PSim.mapOk (this.twtImpl_sim reduce ho right heap hU hR) fun _ _ _ hp => hp.map fun _ _ hm => hm.toN
  · refine PSim.bindOk (this.transformE_simL ho.left heap) fun U1 s1 l hsub1 heap1 hl => ?_
    refine PSim.bindOk (right.transformE_simL ho.right heap1) fun U2 s2 r hsub2 heap2 hr => ?_
    exact PSim.al (atwtApart_sim reduce heap2 (⟨hsub2 _ (hsub1 _ hU), rfl⟩ : InL U2 (.S this) (.S this.erase))
      (⟨hsub2 _ (hsub1 _ hR), rfl⟩ : InL U2 (.S right) (.S right.erase)) _ _ _
      (hl.mono fun _ _ hm => hm.mono hsub2) hr)

theorem ALNode.twtSImpl_sim (this : ALNode K V) (right : ASNode K V) (heap : Heap U s) (hU : U (.L this))
    (hR : U (.S right)) :
    PSim h U s (this.twtSImpl reduce ops right) (.ok (this.erase.twtSImpl reduce ops' right.erase))
      (fun U' => JP (InL U')) := by
  induction this with
  | nextS a k v t z =>
    have hn := heap.nextU hU
    unfold ALNode.twtSImpl ALNode.erase LNode.twtSImpl
    refine PSim.iteOk Iff.rfl (fun he => ?_) (fun he => ?_)
    · refine PSim.bindOk (t.transformE_simL ho.left heap) fun U' s' nx hsub heap' hx => ?_
      exact PSim.bindPure (ho.both.call _ _ _ _)
        (PSim.al (ALNode.jointThenPlain_sim reduce (.nextS a k v t z) right heap' (hsub _ hn) _ hx))
    · refine PSim.bindOk (t.twtImpl_sim reduce ho right heap hn hR) fun U' s' nx hsub heap' hx => ?_
      exact PSim.bindPure (ho.left.call _ _)
        (PSim.al (ALNode.plainThenJoint_sim reduce (.nextS a k v t z) right heap' (hsub _ hU) (hsub _ hn) (hsub _ hR) _ hx))
  | nextL a k v l z ih =>
    have hn := heap.nextU hU
    unfold ALNode.twtSImpl ALNode.erase LNode.twtSImpl
    refine PSim.iteOk Iff.rfl (fun he => ?_) (fun he => ?_)
    · refine PSim.bindOk (l.transformE_sim reduce ho.left heap hn) fun U' s' nx hsub heap' hx => ?_
      exact PSim.bindPure (ho.both.call _ _ _ _)
        (PSim.al (ALNode.jointThenPlain_sim reduce (.nextL a k v l z) right heap' (hsub _ hn) _ hx))
    · refine PSim.bindOk (ih hn) fun U' s' nx hsub heap' hx => ?_
      exact PSim.bindPure (ho.left.call _ _)
        (PSim.al (ALNode.plainThenJoint_sim reduce (.nextL a k v l z) right heap' (hsub _ hU) (hsub _ hn) (hsub _ hR) _ hx))

theorem ALNode.twtS_sim (this : ALNode K V) (right : ASNode K V) (depth : Nat) (heap : Heap U s) (hU : U (.L this))
    (hR : U (.S right)) :
    PSim h U s (this.twtS reduce hash ops right depth) (this.erase.twtS reduce hash ops' right.erase depth)
      (fun U' => JP (InN U')) := by
  unfold ALNode.twtS LNode.twtS
  rw [ALNode.erase_key]
  refine PSim.ite Iff.rfl (fun he => ?_) (fun he => ?_)
  · exact PSim.mapOk (this.twtSImpl_sim reduce ho right heap hU hR) fun _ _ _ hp => hp.map fun _ _ hm => hm.toN
  · refine PSim.bindOk (this.transformE_sim reduce ho.left heap hU) fun U1 s1 l hsub1 heap1 hl => ?_
    refine PSim.bindOk (right.transformE_simL ho.right heap1) fun U2 s2 r hsub2 heap2 hr => ?_
    exact PSim.al (atwtApart_sim reduce heap2 (⟨hsub2 _ (hsub1 _ hU), rfl⟩ : InL U2 (.L this) (.L this.erase))
      (⟨hsub2 _ (hsub1 _ hR), rfl⟩ : InL U2 (.S right) (.S right.erase)) _ _ _
      (hl.mono fun _ _ hm => hm.mono hsub2) hr)

theorem ASNode.twtLast_sim (t : ASNode K V) (rights : List (K × V)) (heap : Heap U s) (hU : U (.S t)) :
    PSim h U s (t.twtLast reduce ops rights) (.ok (t.erase.twtLast reduce ops' rights))
      (fun U' a b => JP (InL U') a.1 b.1 ∧ a.2 = b.2) := by
  unfold ASNode.twtLast SNode.twtLast
  show PSim h U s _ (.ok (match takeMatch (fun e : K × V => t.key == e.1) rights with
    | some (b, rights') => _ | none => _)) _
  cases takeMatch (fun e : K × V => t.key == e.1) rights with
  | some b =>
    refine PSim.bindOk (b := (⟨b.1.1, b.1.2⟩ : SNode K V)) (P := fun U' => InS U') (PSim.al ?_)
      fun U1 s1 r hsub1 heap1 hr => ?_
    · exact Sim.bindSNew heap fun _ _ h2 h3 => Sim.pure h3 ⟨h2, rfl⟩
    · simp only [show (⟨b.1.1, b.1.2⟩ : SNode K V) = r.erase from hr.2.symm]
      exact PSim.mapOk (g := fun y => (y, some b.1, b.2)) (t.twtImpl_sim reduce ho r heap1 (hsub1 _ hU) hr.1) fun _ _ _ hp => ⟨hp, rfl⟩
  | none =>
    refine PSim.mapOk (g := fun y => ((y.map LNext.S).jointL, none, rights)) (t.transformE_simL ho.left heap) ?_
    exact fun _ _ _ hp => ⟨hp.jointL, rfl⟩

theorem TwtOpsM.step_eval (k : K) (v : V) (rights : List (K × V)) :
    Prog.eval h (ops.step k v rights) = pure (ops'.step k v rights) := by
  unfold TwtOpsM.step TwtOps.step
  cases takeMatch (fun e : K × V => k == e.1) rights with
  | some b => simp only; rw [Prog.eval_bind, ho.both.call]; rfl
  | none => simp only; rw [Prog.eval_bind, ho.left.call]; rfl

theorem ALNode.twtLImpl_sim (this : ALNode K V) (heap : Heap U s) (hU : U (.L this)) (rights : List (K × V)) :
    PSim h U s (this.twtLImpl reduce ops rights) (this.erase.twtLImpl reduce ops' rights)
      (fun U' a b => JP (InL U') a.1 b.1 ∧ a.2 = b.2) := by
  have hn := heap.nextU hU
  induction this generalizing rights with
  | nextS a k v t z =>
    unfold ALNode.twtLImpl ALNode.erase LNode.twtLImpl
    refine PSim.bindOk (t.twtLast_sim reduce ho rights heap hn) fun U' s' nx hsub heap' hx => ?_
    rw [hx.2]
    refine PSim.bindPure (TwtOpsM.step_eval ho _ _ _) ?_
    exact PSim.map (PSim.al (ALNode.jointThenJoint_sim reduce (.nextS a k v t z) _ heap' (hsub _ hn) _ hx.1))
      (g := fun b => (b, _)) fun _ _ _ hp => ⟨hp, rfl⟩
  | nextL a k v l z ih =>
    unfold ALNode.twtLImpl ALNode.erase LNode.twtLImpl
    refine PSim.bind (ih hn (rights := rights) (heap.nextU hn)) fun U' s' nx nx' hsub heap' hx => ?_
    rw [hx.2]
    refine PSim.bindPure (TwtOpsM.step_eval ho _ _ _) ?_
    exact PSim.map (PSim.al (ALNode.jointThenJoint_sim reduce (.nextL a k v l z) _ heap' (hsub _ hn) _ hx.1))
      (g := fun b => (b, _)) fun _ _ _ hp => ⟨hp, rfl⟩

omit [BEq K] in
theorem TwtOpsM.leftovers_sim (this : ALNode K V) (rights : List (K × V)) :
    ∀ (U : ANode c.n K V → Prop) (s : Nat) (nx : JRes (ALNext K V) R) (nx' : JRes (LNext K V) R), Heap U s →
      U (.L this) → JP (InL U) nx nx' →
      PSim h U s (ops.leftovers reduce this rights nx) (ops'.leftovers reduce this.erase rights nx')
        (fun U' => JP (InL U')) := by
  induction rights with
  | nil => intro U s nx nx' heap _ hx; exact PSim.pure heap hx
  | cons b rights ih =>
    intro U s nx nx' heap hU hx
    refine PSim.bindPure (ho.right.call _ _) ?_
    refine PSim.bind (PSim.al (this.twtLeftover_sim reduce heap hU b hx)) fun U' s' nx2 nx2' hsub heap' hx' => ?_
    exact ih U' s' nx2 _ heap' (hsub _ hU) hx'

theorem ALNode.twtL_sim (this right : ALNode K V) (depth : Nat) (heap : Heap U s) (hU : U (.L this))
    (hR : U (.L right)) :
    PSim h U s (this.twtL reduce hash ops right depth) (this.erase.twtL reduce hash ops' right.erase depth)
      (fun U' => JP (InN U')) := by
  unfold ALNode.twtL LNode.twtL
  rw [ALNode.erase_key, ALNode.erase_key, ALNode.rights_erase]
  refine PSim.ite Iff.rfl (fun he => ?_) (fun he => ?_)
  · refine PSim.bindRes fun rights _ => ?_
    refine PSim.bind (this.twtLImpl_sim reduce ho heap hU rights) fun U1 s1 nx nx' hsub1 heap1 hx => ?_
    rw [hx.2]
    exact PSim.map (TwtOpsM.leftovers_sim reduce ho this _ U1 s1 _ _ heap1 (hsub1 _ hU) hx.1)
      fun _ _ _ hp => hp.map fun _ _ hm => hm.toN
  · refine PSim.bindOk (this.transformE_sim reduce ho.left heap hU) fun U1 s1 l hsub1 heap1 hl => ?_
    refine PSim.bindOk (right.transformE_sim reduce ho.right heap1 (hsub1 _ hR)) fun U2 s2 r hsub2 heap2 hr => ?_
    exact PSim.al (atwtApart_sim reduce heap2 (⟨hsub2 _ (hsub1 _ hU), rfl⟩ : InL U2 (.L this) (.L this.erase))
      (⟨hsub2 _ (hsub1 _ hR), rfl⟩ : InL U2 (.L right) (.L right.erase)) _ _ _
      (hl.mono fun _ _ hm => hm.mono hsub2) hr)

end
end HT
