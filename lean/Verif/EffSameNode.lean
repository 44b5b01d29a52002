import Verif.EffSameList
/-! # The calls of closures do not depend on what is answered: nodes and tries -/
namespace HT

variable {K V L W S X R R' : Type} {Q : Type} {A A' : Q → Type}

theorem ANode.map_fst' {n : Nat} {ρ : Type} (vs : List (ANode n K V)) (f : ANode n K V → ρ) :
    (vs.map fun m => (m, f m)).map Prod.fst = vs := by
  rw [List.map_map]; exact List.map_id _

/-- Looking up a slot among the children with two functions' results on them. -/
theorem Bia.atBitIndex_step {n : Nat} {α ρ ρ' : Type} (bits : BitVec n) (vs : List α) (extra i : Nat) (f : α → ρ)
    (g : α → ρ') :
    Prog.Step (fun a b => (∃ er er', a = Except.error er ∧ b = Except.error er') ∨ ∃ m ∈ vs, a = .ok (m, f m) ∧ b = .ok (m, g m))
      (Prog.res ((Bia.mk bits (vs.map fun m => (m, f m)) extra).atBitIndex i) : Prog Q A _)
      (Prog.res ((Bia.mk bits (vs.map fun m => (m, g m)) extra).atBitIndex i) : Prog Q A' _) := by
  rw [Bia.atBitIndex_map, Bia.atBitIndex_map]
  refine .mono .res fun a b h => ?_
  cases hm : (Bia.mk bits vs extra).atBitIndex i with
  | panic p => rw [hm] at h; simp at h
  | diverge => rw [hm] at h; simp at h
  | ok m =>
    rw [hm] at h
    simp only [Res.mapOk_ok, Res.ok.injEq] at h
    obtain ⟨rfl, rfl⟩ := h
    cases m with
    | error er => exact .inl ⟨er, er, rfl, rfl⟩
    | ok m => exact .inr ⟨m, Bia.atBitIndex_mem hm, rfl, rfl⟩

section
variable {n : Nat} (reduce : R → R → R) (reduce' : R' → R' → R') (e : R) (e' : R')

theorem ANode.transformE_step {op : MapTransform R (K → V → Prog Q A (MapTransformResult V R))}
    {op' : MapTransform R' (K → V → Prog Q A' (MapTransformResult V R'))} (h : op.Step op') (par par' : Par)
    (m : ANode n K V) : (m.transformE reduce e op par).StepT (m.transformE reduce' e' op' par') := by
  unfold ANode.transformE
  refine ANode.recDepth (motive := fun m d => (ANode.fold _ _ (transformEC reduce e op par) m d).StepT
    (ANode.fold _ _ (transformEC reduce' e' op' par') m d)) ?_ ?_ ?_ m 0
  · intro s d
    exact .map (s.transformE_step h)
  · intro l d
    exact .map (l.transformE_step reduce reduce' h)
  · intro a bits vs extra d ih
    rw [ANode.fold, ANode.foldAll_eq, ANode.fold, ANode.foldAll_eq]
    cases h with
    | unchanged r r' => exact .pureT
    | removed r r' => exact .pureT
    | generic hf =>
      refine .endAl (AAcc.gatherE_step par par' fun i => .bind (Bia.atBitIndex_step _ _ _ _ _ _) ?_)
      rintro a b (⟨er, er', rfl, rfl⟩ | ⟨m, hm, rfl, rfl⟩)
      · exact .pureT
      · exact .map (ih m hm)

theorem ANode.transmuteE_step {op : MapTransmute R (K → V → Prog Q A (MapTransmuteResult S X R))}
    {op' : MapTransmute R' (K → V → Prog Q A' (MapTransmuteResult S X R'))} (h : op.Step op')
    (m : ANode n K V) : (m.transmuteE reduce e op).StepT (m.transmuteE reduce' e' op') := by
  unfold ANode.transmuteE
  refine ANode.recDepth (motive := fun m d => (ANode.fold _ _ (transmuteEC reduce e op) m d).StepT
    (ANode.fold _ _ (transmuteEC reduce' e' op') m d)) ?_ ?_ ?_ m 0
  · intro s d
    exact .map (s.transmuteE_step h)
  · intro l d
    exact .map (l.transmuteE_step reduce reduce' h)
  · intro a bits vs extra d ih
    rw [ANode.fold, ANode.foldAll_eq, ANode.fold, ANode.foldAll_eq]
    cases h with
    | removed r r' => exact .pureT
    | generic hf =>
      refine .endAl (AAcc.gatherE_step _ _ fun i => .bind (Bia.atBitIndex_step _ _ _ _ _ _) ?_)
      rintro a b (⟨er, er', rfl, rfl⟩ | ⟨m, hm, rfl, rfl⟩)
      · exact .pureT
      · exact .map (ih m hm)

end

/-! ### The loops of the joint operations -/

section
variable {c : Cfg} {reduce : R → R → R} {reduce' : R' → R' → R'} {e : R} {e' : R'} {ρ ρ' : Type}

theorem aflatLoop_step {hv : BitVec c.w} {d : Nat} {bits : BitVec c.n} {vs : List (ANode c.n K V)} {extra : Nat}
    {f elsewhere : ANode c.n K V → Prog Q A ρ} {f' elsewhere' : ANode c.n K V → Prog Q A' ρ'} {alone : Prog Q A ρ}
    {alone' : Prog Q A' ρ'} {item : Option (ANode c.n K V) → ρ → Res (AItem c.n S X R)}
    {item' : Option (ANode c.n K V) → ρ' → Res (AItem c.n S X R')}
    (hf : ∀ m ∈ vs, (f m).StepT (f' m)) (he : ∀ m, (elsewhere m).StepT (elsewhere' m)) (ha : alone.StepT alone') :
    (aflatLoop reduce e hv d ⟨bits, vs.map fun m => (m, f m), extra⟩ elsewhere alone item).StepT
      (aflatLoop reduce' e' hv d ⟨bits, vs.map fun m => (m, f' m), extra⟩ elsewhere' alone' item') := by
  refine .bind .same fun fl fl' hfl => AAcc.gatherE_step _ _ fun i => .bind (Bia.atBitIndex_step _ _ _ _ _ _) ?_
  rw [hfl.2]
  rintro a b (⟨er, er', rfl, rfl⟩ | ⟨m, hm, rfl, rfl⟩)
  · refine .bind .same fun bit bit' hb => ?_
    rw [hb.2]
    exact .ite (fun _ => .bindT ha fun _ _ => .resT) fun _ => .pureT
  · refine .bind .same fun bit bit' hb => ?_
    rw [hb.2]
    exact .ite (fun _ => .bindT (hf m hm) fun _ _ => .resT) fun _ => .bindT (he m) fun _ _ => .resT

theorem abothLoop_step {par par' : Par} {bits : BitVec c.n} {vs : List (ANode c.n K V)} {extra : Nat}
    {right : Bia c.n (ANode c.n L W)} {f : ANode c.n K V → ANode c.n L W → Prog Q A ρ}
    {f' : ANode c.n K V → ANode c.n L W → Prog Q A' ρ'} {onlyL : ANode c.n K V → Prog Q A ρ}
    {onlyL' : ANode c.n K V → Prog Q A' ρ'} {onlyR : ANode c.n L W → Prog Q A ρ} {onlyR' : ANode c.n L W → Prog Q A' ρ'}
    {item : Option (ANode c.n K V) → Option (ANode c.n L W) → ρ → Res (AItem c.n S X R)}
    {item' : Option (ANode c.n K V) → Option (ANode c.n L W) → ρ' → Res (AItem c.n S X R')}
    (hf : ∀ m ∈ vs, ∀ r, (f m r).StepT (f' m r)) (hl : ∀ m, (onlyL m).StepT (onlyL' m))
    (hr : ∀ r, (onlyR r).StepT (onlyR' r)) :
    (abothLoop reduce e par ⟨bits, vs.map fun m => (m, f m), extra⟩ right onlyL onlyR item).StepT
      (abothLoop reduce' e' par' ⟨bits, vs.map fun m => (m, f' m), extra⟩ right onlyL' onlyR' item') := by
  refine AAcc.gatherE_step _ _ fun i => .bind (Bia.atBitIndex_step _ _ _ _ _ _) ?_
  rintro a b (⟨er, er', rfl, rfl⟩ | ⟨m, hm, rfl, rfl⟩)
  · refine .bind .same fun rc rc' hrc => ?_
    rw [hrc.2]
    cases rc' with
    | error er => exact .pureT
    | ok r => exact .bindT (hr r) fun _ _ => .resT
  · refine .bind .same fun rc rc' hrc => ?_
    rw [hrc.2]
    cases rc' with
    | error er => exact .bindT (hl m) fun _ _ => .resT
    | ok r => exact .bindT (hf m hm r) fun _ _ => .resT

end

variable {c : Cfg} (x : Cross c K L) (reduce : R → R → R) (reduce' : R' → R' → R') (e : R) (e' : R')

/-! ### Right operand a list or single node -/

section
variable {o : TwmOpsM Q A K V L W R} {o' : TwmOpsM Q A' K V L W R'} (h : o.Step o') (par par' : Par)
include h

theorem ANode.twmS_step (this : ANode c.n K V) (right : ASNode L W) (depth : Nat) :
    (this.twmS x reduce e o par right depth).StepT (this.twmS x reduce' e' o' par' right depth) := by
  refine ANode.recDepth (motive := fun m d => (m.twmS x reduce e o par right d).StepT (m.twmS x reduce' e' o' par' right d))
    ?_ ?_ ?_ this depth
  · intro s d; exact s.twm_step x reduce reduce' h right d
  · intro l d; exact l.twmS_step x reduce reduce' h right d
  · intro a bits vs extra d ih
    unfold ANode.twmS
    rw [ANode.fold, ANode.foldAll_eq, ANode.fold, ANode.foldAll_eq]
    exact .endAl (aflatLoop_step ih (fun m => m.transformE_step reduce reduce' e e' h.left par par')
      (.map (right.transmuteE_step h.right)))

theorem ANode.twmL_step (this : ANode c.n K V) (right : ALNode L W) (depth : Nat) :
    (this.twmL x reduce e o par right depth).StepT (this.twmL x reduce' e' o' par' right depth) := by
  refine ANode.recDepth (motive := fun m d => (m.twmL x reduce e o par right d).StepT (m.twmL x reduce' e' o' par' right d))
    ?_ ?_ ?_ this depth
  · intro s d; exact right.mwtS_step x.flip reduce reduce' h.flip s d
  · intro l d; exact l.twmL_step x reduce reduce' h right d
  · intro a bits vs extra d ih
    unfold ANode.twmL
    rw [ANode.fold, ANode.foldAll_eq, ANode.fold, ANode.foldAll_eq]
    exact .endAl (aflatLoop_step ih (fun m => m.transformE_step reduce reduce' e e' h.left par par')
      (.map (right.transmuteE_step reduce reduce' h.right)))

end

section
variable {o : MwtOpsM Q A K V L W R} {o' : MwtOpsM Q A' K V L W R'} (h : o.Step o')
include h

theorem ANode.mwtS_step (this : ANode c.n K V) (right : ASNode L W) (depth : Nat) :
    (this.mwtS x reduce e o right depth).StepT (this.mwtS x reduce' e' o' right depth) := by
  refine ANode.recDepth (motive := fun m d => (m.mwtS x reduce e o right d).StepT (m.mwtS x reduce' e' o' right d))
    ?_ ?_ ?_ this depth
  · intro s d; exact s.mwt_step x reduce reduce' h right d
  · intro l d; exact l.mwtS_step x reduce reduce' h right d
  · intro a bits vs extra d ih
    unfold ANode.mwtS
    rw [ANode.fold, ANode.foldAll_eq, ANode.fold, ANode.foldAll_eq]
    exact .endAl (aflatLoop_step ih (fun m => .map (m.transmuteE_step reduce reduce' e e' h.left))
      (.map (right.transformE_step h.right)))

theorem ANode.mwtL_step (this : ANode c.n K V) (right : ALNode L W) (depth : Nat) :
    (this.mwtL x reduce e o right depth).StepT (this.mwtL x reduce' e' o' right depth) := by
  refine ANode.recDepth (motive := fun m d => (m.mwtL x reduce e o right d).StepT (m.mwtL x reduce' e' o' right d))
    ?_ ?_ ?_ this depth
  · intro s d; exact right.twmS_step x.flip reduce reduce' h.flip s d
  · intro l d; exact right.twmL_step x.flip reduce reduce' h.flip l d
  · intro a bits vs extra d ih
    unfold ANode.mwtL
    rw [ANode.fold, ANode.foldAll_eq, ANode.fold, ANode.foldAll_eq]
    exact .endAl (aflatLoop_step ih (fun m => .map (m.transmuteE_step reduce reduce' e e' h.left))
      (.map (right.transformE_step reduce reduce' h.right)))

end

section
variable {o : MwmOpsM Q A K V L W S X R} {o' : MwmOpsM Q A' K V L W S X R'} (h : o.Step o')
include h

theorem ANode.mwmS_step (this : ANode c.n K V) (right : ASNode L W) (depth : Nat) :
    (this.mwmS x reduce e o right depth).StepT (this.mwmS x reduce' e' o' right depth) := by
  refine ANode.recDepth (motive := fun m d => (m.mwmS x reduce e o right d).StepT (m.mwmS x reduce' e' o' right d))
    ?_ ?_ ?_ this depth
  · intro s d; exact s.mwm_step x reduce reduce' h right d
  · intro l d; exact l.mwmS_step x reduce reduce' h right d
  · intro a bits vs extra d ih
    unfold ANode.mwmS
    rw [ANode.fold, ANode.foldAll_eq, ANode.fold, ANode.foldAll_eq]
    exact .endAl (aflatLoop_step ih (fun m => m.transmuteE_step reduce reduce' e e' h.left)
      (.map (right.transmuteE_step h.right)))

theorem ANode.mwmL_step (this : ANode c.n K V) (right : ALNode L W) (depth : Nat) :
    (this.mwmL x reduce e o right depth).StepT (this.mwmL x reduce' e' o' right depth) := by
  refine ANode.recDepth (motive := fun m d => (m.mwmL x reduce e o right d).StepT (m.mwmL x reduce' e' o' right d))
    ?_ ?_ ?_ this depth
  · intro s d; exact right.mwmS_step x.flip reduce reduce' h.flip s d
  · intro l d; exact l.mwmL_step x reduce reduce' h right d
  · intro a bits vs extra d ih
    unfold ANode.mwmL
    rw [ANode.fold, ANode.foldAll_eq, ANode.fold, ANode.foldAll_eq]
    exact .endAl (aflatLoop_step ih (fun m => m.transmuteE_step reduce reduce' e e' h.left)
      (.map (right.transmuteE_step reduce reduce' h.right)))

theorem ANode.mwm_step (this : ANode c.n K V) (right : ANode c.n L W) (depth : Nat) :
    (this.mwm x reduce e o right depth).StepT (this.mwm x reduce' e' o' right depth) := by
  refine ANode.recDepth (motive := fun m d => ∀ right : ANode c.n L W, (m.mwm x reduce e o right d).StepT
    (m.mwm x reduce' e' o' right d)) ?_ ?_ ?_ this depth right
  · intro s d right
    cases right with
    | S r => exact s.mwm_step x reduce reduce' h r d
    | L r => exact r.mwmS_step x.flip reduce reduce' h.flip s d
    | C a b v z => exact (ANode.C a b v z).mwmS_step x.flip reduce reduce' e e' h.flip s d
  · intro l d right
    cases right with
    | S r => exact l.mwmS_step x reduce reduce' h r d
    | L r => exact l.mwmL_step x reduce reduce' h r d
    | C a b v z => exact (ANode.C a b v z).mwmL_step x.flip reduce reduce' e e' h.flip l d
  · intro a bits vs extra d ih right
    unfold ANode.mwm
    rw [ANode.fold, ANode.foldAll_eq, ANode.fold, ANode.foldAll_eq]
    cases right with
    | S r =>
      unfold amwmC
      rw [ANode.map_fst', ANode.map_fst']
      exact (ANode.C a bits vs extra).mwmS_step x reduce reduce' e e' h r d
    | L r =>
      unfold amwmC
      rw [ANode.map_fst', ANode.map_fst']
      exact (ANode.C a bits vs extra).mwmL_step x reduce reduce' e e' h r d
    | C a' b v z =>
      exact .endAl (abothLoop_step ih (fun m => m.transmuteE_step reduce reduce' e e' h.left)
        fun m => m.transmuteE_step reduce reduce' e e' h.right)

end

section
variable {o : TwmOpsM Q A K V L W R} {o' : TwmOpsM Q A' K V L W R'} (h : o.Step o') (par par' : Par)
include h

theorem ANode.twm_step (this : ANode c.n K V) (right : ANode c.n L W) (depth : Nat) :
    (this.twm x reduce e o par right depth).StepT (this.twm x reduce' e' o' par' right depth) := by
  refine ANode.recDepth (motive := fun m d => ∀ right : ANode c.n L W, (m.twm x reduce e o par right d).StepT
    (m.twm x reduce' e' o' par' right d)) ?_ ?_ ?_ this depth right
  · intro s d right
    cases right with
    | S r => exact s.twm_step x reduce reduce' h r d
    | L r => exact r.mwtS_step x.flip reduce reduce' h.flip s d
    | C a b v z => exact (ANode.C a b v z).mwtS_step x.flip reduce reduce' e e' h.flip s d
  · intro l d right
    cases right with
    | S r => exact l.twmS_step x reduce reduce' h r d
    | L r => exact l.twmL_step x reduce reduce' h r d
    | C a b v z => exact (ANode.C a b v z).mwtL_step x.flip reduce reduce' e e' h.flip l d
  · intro a bits vs extra d ih right
    unfold ANode.twm
    rw [ANode.fold, ANode.foldAll_eq, ANode.fold, ANode.foldAll_eq]
    cases right with
    | S r =>
      unfold atwmC
      rw [ANode.map_fst', ANode.map_fst']
      exact (ANode.C a bits vs extra).twmS_step x reduce reduce' e e' h par par' r d
    | L r =>
      unfold atwmC
      rw [ANode.map_fst', ANode.map_fst']
      exact (ANode.C a bits vs extra).twmL_step x reduce reduce' e e' h par par' r d
    | C a' b v z =>
      exact .endAl (abothLoop_step ih (fun m => m.transformE_step reduce reduce' e e' h.left par par')
        fun m => .map (m.transmuteE_step reduce reduce' e e' h.right))

end

section
variable {o : MwtOpsM Q A K V L W R} {o' : MwtOpsM Q A' K V L W R'} (h : o.Step o') (par par' : Par)
include h

theorem ANode.mwt_step (this : ANode c.n K V) (right : ANode c.n L W) (depth : Nat) :
    (this.mwt x reduce e o par right depth).StepT (this.mwt x reduce' e' o' par' right depth) := by
  refine ANode.recDepth (motive := fun m d => ∀ right : ANode c.n L W, (m.mwt x reduce e o par right d).StepT
    (m.mwt x reduce' e' o' par' right d)) ?_ ?_ ?_ this depth right
  · intro s d right
    cases right with
    | S r => exact s.mwt_step x reduce reduce' h r d
    | L r => exact r.twmS_step x.flip reduce reduce' h.flip s d
    | C a b v z => exact (ANode.C a b v z).twmS_step x.flip reduce reduce' e e' h.flip par par' s d
  · intro l d right
    cases right with
    | S r => exact l.mwtS_step x reduce reduce' h r d
    | L r => exact r.twmL_step x.flip reduce reduce' h.flip l d
    | C a b v z => exact (ANode.C a b v z).twmL_step x.flip reduce reduce' e e' h.flip par par' l d
  · intro a bits vs extra d ih right
    unfold ANode.mwt
    rw [ANode.fold, ANode.foldAll_eq, ANode.fold, ANode.foldAll_eq]
    cases right with
    | S r =>
      unfold amwtC
      rw [ANode.map_fst', ANode.map_fst']
      exact (ANode.C a bits vs extra).mwtS_step x reduce reduce' e e' h r d
    | L r =>
      unfold amwtC
      rw [ANode.map_fst', ANode.map_fst']
      exact (ANode.C a bits vs extra).mwtL_step x reduce reduce' e e' h r d
    | C a' b v z =>
      exact .endAl (abothLoop_step ih (fun m => .map (m.transmuteE_step reduce reduce' e e' h.left))
        fun m => m.transformE_step reduce reduce' e e' h.right par par')

end

section
variable [BEq K] (hash : K → BitVec c.w) {o : TwtOpsM Q A K V R} {o' : TwtOpsM Q A' K V R'} (h : o.Step o')
  (par par' : Par)
include h

theorem ANode.twtS_step (this : ANode c.n K V) (right : ASNode K V) (depth : Nat) :
    (this.twtS reduce e hash o par right depth).StepT (this.twtS reduce' e' hash o' par' right depth) := by
  refine ANode.recDepth (motive := fun m d => (m.twtS reduce e hash o par right d).StepT
    (m.twtS reduce' e' hash o' par' right d)) ?_ ?_ ?_ this depth
  · intro s d; exact s.twt_step reduce reduce' hash h right d
  · intro l d; exact l.twtS_step reduce reduce' hash h right d
  · intro a bits vs extra d ih
    unfold ANode.twtS
    rw [ANode.fold, ANode.foldAll_eq, ANode.fold, ANode.foldAll_eq]
    exact .endAl (aflatLoop_step ih (fun m => .map (m.transformE_step reduce reduce' e e' h.left par par'))
      (.map (right.transformE_step h.right)))

theorem ANode.twtL_step (this : ANode c.n K V) (right : ALNode K V) (depth : Nat) :
    (this.twtL reduce e hash o par right depth).StepT (this.twtL reduce' e' hash o' par' right depth) := by
  refine ANode.recDepth (motive := fun m d => (m.twtL reduce e hash o par right d).StepT
    (m.twtL reduce' e' hash o' par' right d)) ?_ ?_ ?_ this depth
  · intro s d; exact .map (right.twtS_step reduce reduce' hash h.flip s d)
  · intro l d; exact l.twtL_step reduce reduce' hash h right d
  · intro a bits vs extra d ih
    unfold ANode.twtL
    rw [ANode.fold, ANode.foldAll_eq, ANode.fold, ANode.foldAll_eq]
    exact .endAl (aflatLoop_step ih (fun m => .map (m.transformE_step reduce reduce' e e' h.left par par'))
      (.map (right.transformE_step reduce reduce' h.right)))

omit [BEq K] in
theorem TwtOpsM.shortcut_step : (o.shortcut : Option (JRes (ANode c.n K V) R)).isSome =
    (o'.shortcut : Option (JRes (ANode c.n K V) R')).isSome := by
  obtain ⟨b, l, r⟩ := o
  obtain ⟨b', l', r'⟩ := o'
  obtain ⟨hb, hl, hr⟩ := h
  dsimp only at hb hl hr
  cases hb <;> cases hl <;> cases hr <;> rfl

omit [BEq K] in
theorem atwtCC_step {bits : BitVec c.n} {vs : List (ANode c.n K V)} {extra : Nat} {right : Bia c.n (ANode c.n K V)}
    {f : ANode c.n K V → ANode c.n K V → Prog Q A (JRes (ANode c.n K V) R)}
    {f' : ANode c.n K V → ANode c.n K V → Prog Q A' (JRes (ANode c.n K V) R')}
    (hs : (o.shortcut : Option (JRes (ANode c.n K V) R)).isSome =
      (o'.shortcut : Option (JRes (ANode c.n K V) R')).isSome)
    (ih : ∀ m ∈ vs, ∀ r, (f m r).StepT (f' m r)) :
    (atwtCC reduce e o par bits (vs.map fun m => (m, f m)) extra right).StepT
      (atwtCC reduce' e' o' par' bits (vs.map fun m => (m, f' m)) extra right) := by
  unfold atwtCC
  generalize hs1 : o.shortcut = r1 at hs ⊢
  generalize hs2 : o'.shortcut = r2 at hs ⊢
  cases r1 with
  | some r1 =>
    cases r2 with
    | some r2 => exact .pureT
    | none => cases hs
  | none =>
    cases r2 with
    | some r2 => cases hs
    | none =>
      exact .endAl (abothLoop_step ih (fun m => .map (m.transformE_step reduce reduce' e e' h.left par par'))
        fun m => .map (m.transformE_step reduce reduce' e e' h.right par par'))

theorem ANode.twt_step (this right : ANode c.n K V) (depth : Nat) :
    (this.twt reduce e hash o par right depth).StepT (this.twt reduce' e' hash o' par' right depth) := by
  refine ANode.recDepth (motive := fun m d => ∀ right : ANode c.n K V, (m.twt reduce e hash o par right d).StepT
    (m.twt reduce' e' hash o' par' right d)) ?_ ?_ ?_ this depth right
  · intro s d right
    cases right with
    | S r => exact s.twt_step reduce reduce' hash h r d
    | L r => exact .map (r.twtS_step reduce reduce' hash h.flip s d)
    | C a b v z => exact .map ((ANode.C a b v z).twtS_step reduce reduce' e e' hash h.flip par par' s d)
  · intro l d right
    cases right with
    | S r => exact l.twtS_step reduce reduce' hash h r d
    | L r => exact l.twtL_step reduce reduce' hash h r d
    | C a b v z => exact .map ((ANode.C a b v z).twtL_step reduce reduce' e e' hash h.flip par par' l d)
  · intro a bits vs extra d ih right
    unfold ANode.twt
    rw [ANode.fold, ANode.foldAll_eq, ANode.fold, ANode.foldAll_eq]
    cases right with
    | S r =>
      unfold atwtC
      rw [ANode.map_fst', ANode.map_fst']
      exact (ANode.C a bits vs extra).twtS_step reduce reduce' e e' hash h par par' r d
    | L r =>
      unfold atwtC
      rw [ANode.map_fst', ANode.map_fst']
      exact (ANode.C a bits vs extra).twtL_step reduce reduce' e e' hash h par par' r d
    | C a' b v z =>
      have hs := TwtOpsM.shortcut_step (c := c) h
      exact atwtCC_step reduce reduce' e e' h par par' hs ih

end

/-! ### Tries -/

namespace ATrie

theorem transformE_step {op : MapTransform R (K → V → Prog Q A (MapTransformResult V R))}
    {op' : MapTransform R' (K → V → Prog Q A' (MapTransformResult V R'))} (h : op.Step op') (par par' : Par)
    (t : ATrie c K V) : (t.transformE reduce e op par).StepT (t.transformE reduce' e' op' par') := by
  refine .bindT (t.root.transformE_step reduce reduce' e e' h par par') fun a b => Prog.Quiet.step ?_ ?_
  · cases a <;> first | exact Prog.Quiet.pure | exact Prog.Quiet.bind Prog.Quiet.al fun _ => Prog.Quiet.pure
  · cases b <;> first | exact Prog.Quiet.pure | exact Prog.Quiet.bind Prog.Quiet.al fun _ => Prog.Quiet.pure

theorem transmuteE_step {op : MapTransmute R (K → V → Prog Q A (MapTransmuteResult S X R))}
    {op' : MapTransmute R' (K → V → Prog Q A' (MapTransmuteResult S X R'))} (h : op.Step op')
    (t : ATrie c K V) : (t.transmuteE reduce e op).StepT (t.transmuteE reduce' e' op') := by
  refine .bindT (t.root.transmuteE_step reduce reduce' e e' h) fun a b => Prog.Quiet.step ?_ ?_
  · cases a <;> first | exact Prog.Quiet.pure | exact Prog.Quiet.bind Prog.Quiet.al fun _ => Prog.Quiet.pure
  · cases b <;> first | exact Prog.Quiet.pure | exact Prog.Quiet.bind Prog.Quiet.al fun _ => Prog.Quiet.pure

theorem twmE_step {o : TwmOpsM Q A K V L W R} {o' : TwmOpsM Q A' K V L W R'} (h : o.Step o') (par par' : Par)
    (t : ATrie c K V) (u : ATrie c L W) : (twmE x reduce e o par t u).StepT (twmE x reduce' e' o' par' t u) := by
  refine .bindT (t.root.twm_step x reduce reduce' e e' h par par' u.root 0) fun a b => Prog.Quiet.step ?_ ?_
  · cases a <;> first | exact Prog.Quiet.pure | exact Prog.Quiet.bind Prog.Quiet.al fun _ => Prog.Quiet.pure
  · cases b <;> first | exact Prog.Quiet.pure | exact Prog.Quiet.bind Prog.Quiet.al fun _ => Prog.Quiet.pure

theorem mwtE_step {o : MwtOpsM Q A K V L W R} {o' : MwtOpsM Q A' K V L W R'} (h : o.Step o') (par par' : Par)
    (t : ATrie c K V) (u : ATrie c L W) : (mwtE x reduce e o par t u).StepT (mwtE x reduce' e' o' par' t u) := by
  refine .bindT (t.root.mwt_step x reduce reduce' e e' h par par' u.root 0) fun a b => Prog.Quiet.step ?_ ?_
  · cases a <;> first | exact Prog.Quiet.pure | exact Prog.Quiet.bind Prog.Quiet.al fun _ => Prog.Quiet.pure
  · cases b <;> first | exact Prog.Quiet.pure | exact Prog.Quiet.bind Prog.Quiet.al fun _ => Prog.Quiet.pure

theorem mwmE_step {o : MwmOpsM Q A K V L W S X R} {o' : MwmOpsM Q A' K V L W S X R'} (h : o.Step o')
    (t : ATrie c K V) (u : ATrie c L W) : (mwmE x reduce e o t u).StepT (mwmE x reduce' e' o' t u) := by
  refine .bindT (t.root.mwm_step x reduce reduce' e e' h u.root 0) fun a b => Prog.Quiet.step ?_ ?_
  · cases a <;> first | exact Prog.Quiet.pure | exact Prog.Quiet.bind Prog.Quiet.al fun _ => Prog.Quiet.pure
  · cases b <;> first | exact Prog.Quiet.pure | exact Prog.Quiet.bind Prog.Quiet.al fun _ => Prog.Quiet.pure

theorem twtE_step [BEq K] (hash : K → BitVec c.w) {o : TwtOpsM Q A K V R} {o' : TwtOpsM Q A' K V R'} (h : o.Step o')
    (par par' : Par) (t u : ATrie c K V) :
    (twtE reduce e hash o par t u).StepT (twtE reduce' e' hash o' par' t u) := by
  refine .bindT (t.root.twt_step reduce reduce' e e' hash h par par' u.root 0) fun a b => Prog.Quiet.step ?_ ?_
  · cases a <;> first | exact Prog.Quiet.pure | exact Prog.Quiet.bind Prog.Quiet.al fun _ => Prog.Quiet.pure
  · cases b <;> first | exact Prog.Quiet.pure | exact Prog.Quiet.bind Prog.Quiet.al fun _ => Prog.Quiet.pure

end ATrie
end HT
