import Verif.EffSimNode
/-! # transform with pure closures is the one of `Verif/Arc.lean` -/
namespace HT

variable {K V R : Type} {n : Nat} {Q : Type} {A : Q → Type} {h : (q : Q) → A q}

theorem Al.pure_bind {α β : Type} (a : α) (f : α → Al β) : (pure a >>= f : Al β) = f a := rfl

section
variable {op : MapTransform R (K → V → Prog Q A (MapTransformResult V R))}
  {op' : MapTransform R (K → V → MapTransformResult V R)}

theorem ASNode.transformE_eval (ho : op.Rel h op') (s : ASNode K V) :
    Prog.eval h (s.transformE op) = s.transform op' := by
  unfold ASNode.transformE ASNode.transform
  rw [Prog.eval_bind, ho.call, Al.pure_bind, Prog.eval_al]
  cases op'.call s.key s.value <;> rfl

theorem ALNode.transformE_eval (reduce : R → R → R) (ho : op.Rel h op') (l : ALNode K V) :
    Prog.eval h (l.transformE reduce op) = l.transform reduce op' := by
  cases ho with
  | unchanged r => cases l <;> rfl
  | removed r => cases l <;> rfl
  | @generic F f hf =>
    have ho : MapTransform.Rel h (.generic F) (.generic f) := .generic hf
    induction l with
    | nextS a k v s z =>
      unfold ALNode.transformE ALNode.transform
      rw [Prog.eval_bind, ASNode.transformE_eval ho]
      congr 1
      funext nx
      rw [Prog.eval_bind, ho.call, Al.pure_bind, Prog.eval_al]
    | nextL a k v l z ih =>
      unfold ALNode.transformE ALNode.transform
      rw [Prog.eval_bind, ih]
      congr 1
      funext nx
      rw [Prog.eval_bind, ho.call, Al.pure_bind, Prog.eval_al]

theorem AAcc.loopE_eval (reduce : R → R → R) {item : Nat → Prog Q A (AItem n K V R)} {item' : Nat → Al (AItem n K V R)}
    (hi : ∀ i, Prog.eval h (item i) = item' i) (is : List Nat) (acc : AAcc n K V R) :
    Prog.eval h (AAcc.loopE reduce item is acc) = AAcc.loop reduce item' is acc := by
  induction is generalizing acc with
  | nil => rfl
  | cons i is ih =>
    unfold AAcc.loopE AAcc.loop
    rw [Prog.eval_bind, hi]
    congr 1
    funext it
    rw [Prog.eval_bind, Prog.eval_res]
    congr 1
    funext acc
    exact ih acc

theorem AAcc.gatherE_eval (reduce : R → R → R) (e : R) (par : Par) {item : Nat → Prog Q A (AItem n K V R)}
    {item' : Nat → Al (AItem n K V R)} (hi : ∀ i, Prog.eval h (item i) = item' i) :
    Prog.eval h (AAcc.gatherE reduce e par item) = AAcc.gather reduce e par item' := by
  cases par with
  | sequential => exact AAcc.loopE_eval reduce hi _ _
  | middleIndex =>
    unfold AAcc.gatherE AAcc.gather
    simp only
    rw [Prog.eval_bind, AAcc.loopE_eval reduce hi]
    congr 1
    funext l
    rw [Prog.eval_bind, AAcc.loopE_eval reduce hi]
    congr 1
    funext r
    rw [Prog.eval_res]

theorem transformEC_generic (reduce : R → R → R) (e : R) (F : K → V → Prog Q A (MapTransformResult V R)) (par : Par)
    (a : Nat) (bits : BitVec n) (values : List (ANode n K V × Prog Q A (TRes (ANode n K V) R))) (extra d : Nat) :
    transformEC reduce e (.generic F) par a bits values extra d = (do
      let acc ← AAcc.gatherE reduce e par fun index => do
        let child ← Prog.res ((Bia.mk bits values extra).atBitIndex index)
        TRes.achildItemE child
      Prog.al (TRes.afinish acc)) := rfl

theorem ANode.transformE_eval (reduce : R → R → R) (e : R) (ho : op.Rel h op') (par : Par) (m : ANode n K V) :
    Prog.eval h (m.transformE reduce e op par) = m.transform reduce e op' par := by
  unfold ANode.transformE
  suffices H : ∀ (m : ANode n K V) (d : Nat),
      Prog.eval h (ANode.fold _ _ (transformEC reduce e op par) m d) = m.transform reduce e op' par from H m 0
  intro m d
  refine ANode.recDepth (motive := fun m d =>
      Prog.eval h (ANode.fold _ _ (transformEC reduce e op par) m d) = m.transform reduce e op' par) ?_ ?_ ?_ m d
  · intro s d
    rw [ANode.fold, ANode.transform, Prog.eval_bind, ASNode.transformE_eval ho]
    rfl
  · intro l d
    rw [ANode.fold, ANode.transform, Prog.eval_bind, ALNode.transformE_eval reduce ho]
    rfl
  · intro a bits vs extra d ih
    rw [ANode.fold, ANode.foldAll_eq]
    cases ho with
    | unchanged r => rw [ANode.transform]; rfl
    | removed r => rw [ANode.transform]; rfl
    | generic hf =>
      rw [ANode.transform]
      rw [transformEC_generic, Prog.eval_bind, AAcc.gatherE_eval reduce e par (item' := fun index => do
        let child ← Al.lift ((Bia.mk bits (ANode.transformAll reduce e _ par vs) extra).atBitIndex index)
        TRes.achildItem child)]
      · congr 1
        funext acc
        rw [Prog.eval_al]
        rfl
      · intro i
        rw [Prog.eval_bind, Prog.eval_res, ANode.transformAll_eq, Bia.atBitIndex_mapped, Bia.atBitIndex_mapped]
        cases hat : (Bia.mk bits vs extra).atBitIndex i with
        | panic p => rfl
        | diverge => rfl
        | ok child =>
          cases child with
          | error err => rfl
          | ok m0 =>
            have := ih m0 (Bia.atBitIndex_mem hat)
            show Prog.eval h (ANode.fold _ _ (transformEC reduce e _ par) m0 (d + 1) >>= fun res => Pure.pure (TRes.aitem m0 res)) =
              (m0.transform reduce e _ par >>= fun res => Pure.pure (res.aitem m0))
            rw [Prog.eval_bind, this]
            rfl

theorem ATrie.transformE_eval {c : Cfg} (reduce : R → R → R) (e : R) (ho : op.Rel h op') (par : Par) (t : ATrie c K V) :
    Prog.eval h (t.transformE reduce e op par) = t.transform reduce e op' par := by
  unfold ATrie.transformE ATrie.transform
  rw [Prog.eval_bind, ANode.transformE_eval reduce e ho]
  congr 1
  funext r
  cases r with
  | unchanged r => rfl
  | node m r => rfl
  | removed r => rw [Prog.eval_bind, Prog.eval_al]; rfl
end
end HT
