import Verif.Rename
/-! # Addresses are only passed on: single nodes and collision lists -/
namespace HT

variable {K V L W S X R : Type} {n : Nat} {Q : Type} {A : Q → Type} {φ : Shift}

namespace Prog.Ren
variable {α β γ δ : Type}

theorem treeBind {P : α → β → Prop} {P' : γ → δ → Prop} {x : Tree Q A α} {y : Tree Q A β} {f : α → Tree Q A γ}
    {g : β → Tree Q A δ} (h : x.Rel P y) (hf : ∀ a b, P a b → (f a).Rel P' (g b)) : (x.bind f).Rel P' (y.bind g) := by
  induction h with
  | ret hp => exact hf _ _ hp
  | ask q _ ih => exact .ask q ih
  | panic p => exact .panic p
  | diverge => exact .diverge

theorem pure {P : α → β → Prop} {a : α} {b : β} (h : P a b) :
    Prog.Ren φ P (Pure.pure a : Prog Q A α) (Pure.pure b) := fun _ hs => .ret ⟨h, hs, rfl⟩

theorem bind {P : α → β → Prop} {P' : γ → δ → Prop} {x : Prog Q A α} {y : Prog Q A β} {f : α → Prog Q A γ}
    {g : β → Prog Q A δ} (h : Prog.Ren φ P x y) (hf : ∀ a b, P a b → Prog.Ren φ P' (f a) (g b)) :
    Prog.Ren φ P' (x >>= f) (y >>= g) := by
  intro s hs
  refine treeBind (h s hs) fun a b hp => ?_
  obtain ⟨b, s2⟩ := b
  obtain ⟨hp, hb, rfl⟩ := hp
  exact hf a.1 b hp a.2 hb

theorem then' {k : α → β} {P' : γ → δ → Prop} {x : Prog Q A α} {y : Prog Q A β} {f : α → Prog Q A γ} {g : β → Prog Q A δ}
    (h : Prog.Ren φ (Is k) x y) (hf : ∀ a, Prog.Ren φ P' (f a) (g (k a))) : Prog.Ren φ P' (x >>= f) (y >>= g) :=
  bind h fun a b e => e ▸ hf a

/-- A step with the same result on both sides. -/
theorem thenEq {P' : γ → δ → Prop} {x y : Prog Q A α} {f : α → Prog Q A γ} {g : α → Prog Q A δ}
    (h : Prog.Ren φ Eq x y) (hf : ∀ a, Prog.Ren φ P' (f a) (g a)) : Prog.Ren φ P' (x >>= f) (y >>= g) :=
  bind h fun a b e => e ▸ hf a

theorem al {P : α → β → Prop} {x : Al α} {y : Al β} (h : Al.Ren φ P x y) :
    Prog.Ren φ P (Prog.al x : Prog Q A α) (Prog.al y) := by
  intro s hs
  have := h s hs
  unfold Prog.al
  generalize x s = u at this
  generalize y (φ.f s) = v at this
  cases this with
  | ok h => exact .ret h
  | panic p => exact .panic p
  | diverge => exact .diverge

theorem res {P : α → β → Prop} {x : Res α} {y : Res β} (h : x.Rel P y) :
    Prog.Ren φ P (Prog.res x : Prog Q A α) (Prog.res y) := al (.lift h)

theorem resEq (x : Res α) : Prog.Ren φ Eq (Prog.res x : Prog Q A α) (Prog.res x) := res (by
  cases x with
  | ok a => exact .ok rfl
  | panic p => exact .panic p
  | diverge => exact .diverge)

theorem ask (q : Q) : Prog.Ren φ Eq (Prog.ask q : Prog Q A (A q)) (Prog.ask q) :=
  fun _ hs => .ask q fun _ => .ret ⟨rfl, hs, rfl⟩

theorem map {k : α → β} {k' : γ → δ} {x : Prog Q A α} {y : Prog Q A β} {f : α → γ} {g : β → δ}
    (h : Prog.Ren φ (Is k) x y) (hf : ∀ a, g (k a) = k' (f a)) :
    Prog.Ren φ (Is k') (x >>= fun a => Pure.pure (f a)) (y >>= fun a => Pure.pure (g a)) :=
  then' h fun a => pure (hf a)

theorem ite {P : α → β → Prop} {p : Prop} [Decidable p] {x y : Prog Q A α} {x' y' : Prog Q A β}
    (h : p → Prog.Ren φ P x x') (h' : ¬ p → Prog.Ren φ P y y') :
    Prog.Ren φ P (if p then x else y) (if p then x' else y') := by
  split
  · exact h ‹_›
  · exact h' ‹_›

end Prog.Ren

/-! ### Operations whose closures do not see addresses -/

section
variable (φ : Shift)

/-- The closure, if there is one, does the same whatever address comes next. -/
def MapTransform.Free {Y : Type} (op : MapTransform R (K → V → Prog Q A (MapTransformResult Y R))) : Prop :=
  ∀ F, op = .generic F → ∀ k v, Prog.Ren φ Eq (F k v) (F k v)

@[inherit_doc MapTransform.Free]
def MapTransform.Free2 {Y : Type} (op : MapTransform R (K → V → L → W → Prog Q A (MapTransformResult Y R))) : Prop :=
  ∀ F, op = .generic F → ∀ k v l w, Prog.Ren φ Eq (F k v l w) (F k v l w)

@[inherit_doc MapTransform.Free]
def MapTransmute.Free (op : MapTransmute R (K → V → Prog Q A (MapTransmuteResult S X R))) : Prop :=
  ∀ F, op = .generic F → ∀ k v, Prog.Ren φ Eq (F k v) (F k v)

@[inherit_doc MapTransform.Free]
def MapTransmute.Free2 (op : MapTransmute R (K → V → L → W → Prog Q A (MapTransmuteResult S X R))) : Prop :=
  ∀ F, op = .generic F → ∀ k v l w, Prog.Ren φ Eq (F k v l w) (F k v l w)

@[inherit_doc MapTransform.Free]
def MapJointTransform.Free (op : MapJointTransform R (K → V → K → V → Prog Q A (MapJointTransformResult V R))) : Prop :=
  ∀ F b, op = .generic F b → ∀ k v l w, Prog.Ren φ Eq (F k v l w) (F k v l w)

structure TwmOpsM.Free (o : TwmOpsM Q A K V L W R) : Prop where
  both : o.both.Free2 φ
  left : o.left.Free φ
  right : o.right.Free φ

structure MwtOpsM.Free (o : MwtOpsM Q A K V L W R) : Prop where
  both : o.both.Free2 φ
  left : o.left.Free φ
  right : o.right.Free φ

structure MwmOpsM.Free (o : MwmOpsM Q A K V L W S X R) : Prop where
  both : o.both.Free2 φ
  left : o.left.Free φ
  right : o.right.Free φ

structure TwtOpsM.Free (o : TwtOpsM Q A K V R) : Prop where
  both : o.both.Free φ
  left : o.left.Free φ
  right : o.right.Free φ

end

theorem MapTransform.Free.call {op : MapTransform R (K → V → Prog Q A (MapTransformResult V R))} (h : op.Free φ) (k : K)
    (v : V) : Prog.Ren φ Eq (op.callM k v) (op.callM k v) := by
  cases op with
  | generic F => exact h F rfl k v
  | unchanged r => exact .pure rfl
  | removed r => exact .pure rfl

theorem MapTransform.Free2.call {Y : Type} {op : MapTransform R (K → V → L → W → Prog Q A (MapTransformResult Y R))}
    (h : op.Free2 φ) (k : K) (v : V) (l : L) (w : W) : Prog.Ren φ Eq (op.call2M k v l w) (op.call2M k v l w) := by
  cases op with
  | generic F => exact h F rfl k v l w
  | unchanged r => exact .pure rfl
  | removed r => exact .pure rfl

theorem MapTransform.Free2.flip {Y : Type} {op : MapTransform R (K → V → L → W → Prog Q A (MapTransformResult Y R))}
    (h : op.Free2 φ) : op.flip2M.Free2 φ := by
  cases op with
  | generic F => intro G hG l w k v; injection hG with hG; subst hG; exact h F rfl k v l w
  | unchanged r => intro G hG; cases hG
  | removed r => intro G hG; cases hG

theorem MapTransmute.Free.call {op : MapTransmute R (K → V → Prog Q A (MapTransmuteResult S X R))} (h : op.Free φ) (k : K)
    (v : V) : Prog.Ren φ Eq (op.callM k v) (op.callM k v) := by
  cases op with
  | generic F => exact h F rfl k v
  | removed r => exact .pure rfl

theorem MapTransmute.Free2.call {op : MapTransmute R (K → V → L → W → Prog Q A (MapTransmuteResult S X R))}
    (h : op.Free2 φ) (k : K) (v : V) (l : L) (w : W) : Prog.Ren φ Eq (op.call2M k v l w) (op.call2M k v l w) := by
  cases op with
  | generic F => exact h F rfl k v l w
  | removed r => exact .pure rfl

theorem MapTransmute.Free2.flip {op : MapTransmute R (K → V → L → W → Prog Q A (MapTransmuteResult S X R))}
    (h : op.Free2 φ) : op.flipM.Free2 φ := by
  cases op with
  | generic F => intro G hG l w k v; injection hG with hG; subst hG; exact h F rfl k v l w
  | removed r => intro G hG; cases hG

theorem MapJointTransform.Free.call
    {op : MapJointTransform R (K → V → K → V → Prog Q A (MapJointTransformResult V R))} (h : op.Free φ)
    (k : K) (v : V) (l : K) (w : V) : Prog.Ren φ Eq (op.callM k v l w) (op.callM k v l w) := by
  cases op with
  | generic F b =>
    cases b with
    | false => exact h F _ rfl k v l w
    | true => exact .thenEq (h F _ rfl l w k v) fun _ => .pure rfl
  | unchangedLR r => exact .pure rfl
  | unchangedL r => exact .pure rfl
  | unchangedR r => exact .pure rfl
  | removed r => exact .pure rfl

theorem MapJointTransform.Free.flip
    {op : MapJointTransform R (K → V → K → V → Prog Q A (MapJointTransformResult V R))} (h : op.Free φ) :
    op.flip.Free φ := by
  cases op with
  | generic F b => intro G b' hG; injection hG with hG; subst hG; exact h F _ rfl
  | unchangedLR r => intro G b' hG; cases hG
  | unchangedL r => intro G b' hG; cases hG
  | unchangedR r => intro G b' hG; cases hG
  | removed r => intro G b' hG; cases hG

theorem TwmOpsM.Free.flip {o : TwmOpsM Q A K V L W R} (h : o.Free φ) : o.flip.Free φ := ⟨h.both.flip, h.right, h.left⟩
theorem MwtOpsM.Free.flip {o : MwtOpsM Q A K V L W R} (h : o.Free φ) : o.flip.Free φ := ⟨h.both.flip, h.right, h.left⟩
theorem MwmOpsM.Free.flip {o : MwmOpsM Q A K V L W S X R} (h : o.Free φ) : o.flip.Free φ :=
  ⟨h.both.flip, h.right, h.left⟩
theorem TwtOpsM.Free.flip {o : TwtOpsM Q A K V R} (h : o.Free φ) : o.flip.Free φ := ⟨h.both.flip, h.right, h.left⟩

/-! ### Tables -/

abbrev TRes.renL (f : Nat → Nat) : TRes (ALNext K V) R → TRes (ALNext K V) R := TRes.map (ALNext.ren f)
abbrev XRes.renL (f : Nat → Nat) : XRes (ALNext K V) R → XRes (ALNext K V) R := XRes.map (ALNext.ren f)
abbrev JRes.renL (f : Nat → Nat) : JRes (ALNext K V) R → JRes (ALNext K V) R := JRes.map (ALNext.ren f)
abbrev TRes.renS (f : Nat → Nat) : TRes (ASNode K V) R → TRes (ASNode K V) R := TRes.map (ASNode.ren f)
abbrev XRes.renS (f : Nat → Nat) : XRes (ASNode K V) R → XRes (ASNode K V) R := XRes.map (ASNode.ren f)
abbrev TRes.renN (f : Nat → Nat) : TRes (ANode n K V) R → TRes (ANode n K V) R := TRes.map (ANode.ren f)
abbrev XRes.renN (f : Nat → Nat) : XRes (ANode n K V) R → XRes (ANode n K V) R := XRes.map (ANode.ren f)
abbrev JRes.renN (f : Nat → Nat) : JRes (ANode n K V) R → JRes (ANode n K V) R := JRes.map (ANode.ren f)

/-- A row of a table. -/
macro "row" : tactic => `(tactic| first
  | exact .pure rfl
  | exact .map (.lnew _ _ _) fun _ => rfl
  | exact .map (.snew _ _) fun _ => rfl
  | exact .then' (.snew _ _) fun s => .map (.lnew _ _ (.S s)) fun _ => rfl
  | exact .failed _
  | exact .same fun _ _ => .map (.lnew _ _ _) fun _ => rfl
  | exact .same fun _ _ => .map (.snew _ _) fun _ => rfl
  | exact .same fun _ _ => .then' (.snew _ _) fun s => .map (.lnew _ _ (.S s)) fun _ => rfl)

theorem ASNode.answer_ren (s : ASNode K V) (r : MapTransformResult V R) :
    Al.Ren φ (Is (TRes.renS φ.f)) (s.answer r) ((s.ren φ.f).answer r) := by
  cases r <;> simp only [ASNode.answer, ASNode.ren_key] <;> row

theorem ASNode.answerX_ren (r : MapTransmuteResult S X R) :
    Al.Ren φ (Is (XRes.renS φ.f)) (ASNode.answerX r) (ASNode.answerX r) := by
  cases r <;> simp only [ASNode.answerX] <;> row

variable (reduce : R → R → R)

theorem ALNode.transformResult_ren (this : ALNode K V) (r : MapTransformResult V R) (next : TRes (ALNext K V) R) :
    Al.Ren φ (Is (TRes.renL φ.f)) (this.transformResult reduce r next)
      ((this.ren φ.f).transformResult reduce r (next.renL φ.f)) := by
  cases r <;> cases next <;> simp only [ALNode.transformResult, ALNode.ren_key, ALNode.ren_value, ALNode.ren_next, TRes.renL,
    TRes.map] <;> row

theorem ALNode.transmuteResult_ren (r : MapTransmuteResult S X R) (next : XRes (ALNext S X) R) :
    Al.Ren φ (Is (XRes.renL φ.f)) (ALNode.transmuteResult reduce r next)
      (ALNode.transmuteResult reduce r (next.renL φ.f)) := by
  cases r <;> cases next <;> simp only [ALNode.transmuteResult, XRes.renL, XRes.map] <;> row

theorem ASNode.twmTable_ren (s : ASNode K V) (l : MapTransformResult V R) (r : MapTransmuteResult K V R) :
    Al.Ren φ (Is (TRes.renL φ.f)) (s.twmTable reduce l r) ((s.ren φ.f).twmTable reduce l r) := by
  cases l <;> cases r <;> simp only [ASNode.twmTable, ASNode.ren_key] <;>
    first | row | exact .map (.lnew _ _ (.S s)) fun _ => rfl

theorem ASNode.mwtTable_ren (s : ASNode K V) (l : MapTransmuteResult K V R) (r : MapTransformResult V R) :
    Al.Ren φ (Is (TRes.renL φ.f)) (s.mwtTable reduce l r) ((s.ren φ.f).mwtTable reduce l r) := by
  cases l <;> cases r <;> simp only [ASNode.mwtTable, ASNode.ren_key] <;>
    first | row | exact .map (.lnew _ _ (.S s)) fun _ => rfl

theorem ASNode.mwmTable_ren (l r : MapTransmuteResult S X R) :
    Al.Ren φ (Is (XRes.renL φ.f)) (ASNode.mwmTable reduce l r) (ASNode.mwmTable reduce l r) := by
  cases l <;> cases r <;> simp only [ASNode.mwmTable] <;> row

theorem ASNode.answerJ_ren (s : ASNode K V) (r : MapJointTransformResult V R) :
    Al.Ren φ (Is (JRes.renL φ.f)) (s.answerJ r) ((s.ren φ.f).answerJ r) := by
  cases r <;> simp only [ASNode.answerJ, ASNode.ren_key] <;> row

theorem ASNode.twtTable_ren (s t : ASNode K V) (l r : MapTransformResult V R) :
    Al.Ren φ (Is (JRes.renL φ.f)) (s.twtTable reduce t l r) ((s.ren φ.f).twtTable reduce (t.ren φ.f) l r) := by
  cases l <;> cases r <;> simp only [ASNode.twtTable, ASNode.ren_key, ASNode.ren_value] <;>
    first | row | exact .map (.lnew _ _ (.S s)) fun _ => rfl | exact .map (.lnew _ _ (.S t)) fun _ => rfl

theorem ASNode.withTransmuted_ren (s : ASNode K V) (r : MapTransformResult V R) (next : XRes (ALNext K V) R) :
    Al.Ren φ (Is (TRes.renL φ.f)) (s.withTransmuted reduce r next)
      ((s.ren φ.f).withTransmuted reduce r (next.renL φ.f)) := by
  cases r <;> cases next <;> simp only [ASNode.withTransmuted, ASNode.ren_key, ASNode.ren_value, XRes.renL, XRes.map] <;> row

theorem ASNode.withTransformed_ren (s : ASNode K V) (r : MapTransmuteResult K V R) (next : TRes (ALNext K V) R) :
    Al.Ren φ (Is (TRes.renL φ.f)) (s.withTransformed reduce r next)
      ((s.ren φ.f).withTransformed reduce r (next.renL φ.f)) := by
  cases r <;> cases next <;> simp only [ASNode.withTransformed, ASNode.ren_key, ASNode.ren_value, TRes.renL, TRes.map] <;>
    first | row | exact .map (.lnew _ _ (.S s)) fun _ => rfl

theorem ALNode.jointThenPlain_ren (this : ALNode K V) (r : MapJointTransformResult V R) (that : ASNode K V)
    (next : TRes (ALNext K V) R) :
    Al.Ren φ (Is (JRes.renL φ.f)) (this.jointThenPlain reduce r that next)
      ((this.ren φ.f).jointThenPlain reduce r (that.ren φ.f) (next.renL φ.f)) := by
  cases r <;> cases next <;> simp only [ALNode.jointThenPlain, ALNode.ren_key, ALNode.ren_value, ALNode.ren_next,
    ASNode.ren_key, ASNode.ren_value, TRes.renL, TRes.map] <;> row

theorem ALNode.plainThenJoint_ren (this : ALNode K V) (r : MapTransformResult V R) (that : ASNode K V)
    (next : JRes (ALNext K V) R) :
    Al.Ren φ (Is (JRes.renL φ.f)) (this.plainThenJoint reduce r that next)
      ((this.ren φ.f).plainThenJoint reduce r (that.ren φ.f) (next.renL φ.f)) := by
  cases r <;> cases next <;> simp only [ALNode.plainThenJoint, ALNode.ren_key, ALNode.ren_value, ALNode.ren_next,
    ASNode.ren_key, ASNode.ren_value, JRes.renL, JRes.map] <;>
    first
      | row
      | exact .map (.lnew _ _ (.L this)) fun _ => rfl
      | exact .map (.lnew _ _ (.S that)) fun _ => rfl

theorem ALNode.jointThenJoint_ren (this : ALNode K V) (r : MapJointTransformResult V R) (that : Option (K × V))
    (next : JRes (ALNext K V) R) :
    Al.Ren φ (Is (JRes.renL φ.f)) (this.jointThenJoint reduce r that next)
      ((this.ren φ.f).jointThenJoint reduce r that (next.renL φ.f)) := by
  cases r <;> cases next <;> simp only [ALNode.jointThenJoint, ALNode.beforeThat, ALNode.ren_key, ALNode.ren_value,
    ALNode.ren_next, JRes.renL, JRes.map] <;> row

theorem ALNode.twmLeftover_ren (this : ALNode K V) (r : MapTransmuteResult K V R) (next : TRes (ALNext K V) R) :
    Al.Ren φ (Is (TRes.renL φ.f)) (this.twmLeftover reduce r next)
      ((this.ren φ.f).twmLeftover reduce r (next.renL φ.f)) := by
  cases r <;> cases next <;> simp only [ALNode.twmLeftover, TRes.renL, TRes.map] <;>
    first | row | exact .map (.lnew _ _ (.L this)) fun _ => rfl

theorem ALNode.twtLeftover_ren (this : ALNode K V) (b : K × V) (r : MapTransformResult V R) (next : JRes (ALNext K V) R) :
    Al.Ren φ (Is (JRes.renL φ.f)) (this.twtLeftover reduce b r next)
      ((this.ren φ.f).twtLeftover reduce b r (next.renL φ.f)) := by
  cases r <;> cases next <;> simp only [ALNode.twtLeftover, JRes.renL, JRes.map] <;>
    first | row | exact .map (.lnew _ _ (.L this)) fun _ => rfl

section
variable {c : Cfg} (h h' : BitVec c.w) (d : Nat)

theorem atwmApart_ren (this : ALNext K V) (l : TRes (ALNext K V) R) (r : XRes (ALNext K V) R) :
    Al.Ren φ (Is (TRes.renN φ.f)) (atwmApart reduce this h h' d l r)
      (atwmApart reduce (this.ren φ.f) h h' d (l.renL φ.f) (r.renL φ.f)) := by
  refine .same fun lf _ => .same fun rf _ => ?_
  cases l <;> cases r <;> simp only [TRes.renL, TRes.map, XRes.renL, XRes.map] <;>
    first
      | exact .map (aliftN_ren _ _ _ _) fun _ => rfl
      | exact .pure rfl
      | exact .pure (by simp [Is, TRes.renN, TRes.map])

theorem amwtApart_ren (right : ALNext K V) (l : XRes (ALNext K V) R) (r : TRes (ALNext K V) R) :
    Al.Ren φ (Is (TRes.renN φ.f)) (amwtApart reduce right h h' d l r)
      (amwtApart reduce (right.ren φ.f) h h' d (l.renL φ.f) (r.renL φ.f)) := by
  refine .same fun lf _ => .same fun rf _ => ?_
  cases l <;> cases r <;> simp only [TRes.renL, TRes.map, XRes.renL, XRes.map] <;>
    first
      | exact .map (aliftN_ren _ _ _ _) fun _ => rfl
      | exact .pure rfl
      | exact .pure (by simp [Is, TRes.renN, TRes.map])

theorem amwmApart_ren (l r : XRes (ALNext S X) R) :
    Al.Ren φ (Is (XRes.renN φ.f)) (amwmApart reduce h h' d l r)
      (amwmApart reduce h h' d (l.renL φ.f) (r.renL φ.f)) := by
  refine .same fun lf _ => .same fun rf _ => ?_
  cases l <;> cases r <;> simp only [XRes.renL, XRes.map] <;>
    first
      | exact .map (aliftN_ren _ _ _ _) fun _ => rfl
      | exact .pure rfl
      | exact .pure (by simp [Is, XRes.renN, XRes.map])

theorem atwtApart_ren (this right : ALNext K V) (l r : TRes (ALNext K V) R) :
    Al.Ren φ (Is (JRes.renN φ.f)) (atwtApart reduce this right h h' d l r)
      (atwtApart reduce (this.ren φ.f) (right.ren φ.f) h h' d (l.renL φ.f) (r.renL φ.f)) := by
  refine .same fun lf _ => .same fun rf _ => ?_
  cases l <;> cases r <;> simp only [TRes.renL, TRes.map] <;>
    first
      | exact .map (aliftN_ren _ _ _ _) fun _ => rfl
      | exact .pure rfl
      | exact .pure (by simp [Is, JRes.renN, JRes.map])

end

/-! ### Repackaging -/

theorem TRes.renL_S (f : Nat → Nat) (r : TRes (ASNode K V) R) :
    (TRes.map ALNext.S (r.renS f) : TRes (ALNext K V) R) = TRes.renL f (r.map .S) := by cases r <;> rfl
theorem XRes.renL_S (f : Nat → Nat) (r : XRes (ASNode K V) R) :
    (XRes.map ALNext.S (r.renS f) : XRes (ALNext K V) R) = XRes.renL f (r.map .S) := by cases r <;> rfl
theorem TRes.renN_L (f : Nat → Nat) (r : TRes (ALNext K V) R) :
    (TRes.map ALNext.toNode (r.renL f) : TRes (ANode n K V) R) = TRes.renN f (r.map ALNext.toNode) := by
  cases r <;> simp [TRes.map]
theorem XRes.renN_L (f : Nat → Nat) (r : XRes (ALNext K V) R) :
    (XRes.map ALNext.toNode (r.renL f) : XRes (ANode n K V) R) = XRes.renN f (r.map ALNext.toNode) := by
  cases r <;> simp [XRes.map]
theorem JRes.renN_L (f : Nat → Nat) (r : JRes (ALNext K V) R) :
    (JRes.map ALNext.toNode (r.renL f) : JRes (ANode n K V) R) = JRes.renN f (r.map ALNext.toNode) := by
  cases r <;> simp [JRes.map]
theorem TRes.renL_jointL (f : Nat → Nat) (r : TRes (ALNext K V) R) : (r.renL f).jointL = JRes.renL f r.jointL := by
  cases r <;> rfl

/-- A step and then a table. -/
theorem Prog.Ren.endAl {α β γ δ : Type} {k : α → β} {k' : γ → δ} {x : Prog Q A α} {y : Prog Q A β} {f : α → Al γ}
    {g : β → Al δ} (h : Prog.Ren φ (Is k) x y) (hf : ∀ a, Al.Ren φ (Is k') (f a) (g (k a))) :
    Prog.Ren φ (Is k') (x >>= fun a => Prog.al (f a)) (y >>= fun a => Prog.al (g a)) := .then' h fun a => .al (hf a)

/-- An answer and then a table. -/
theorem Prog.Ren.endEq {α γ δ : Type} {k' : γ → δ} {x y : Prog Q A α} {f : α → Al γ} {g : α → Al δ}
    (h : Prog.Ren φ Eq x y) (hf : ∀ a, Al.Ren φ (Is k') (f a) (g a)) :
    Prog.Ren φ (Is k') (x >>= fun a => Prog.al (f a)) (y >>= fun a => Prog.al (g a)) := .thenEq h fun a => .al (hf a)

/-! ### transform and transmute -/

theorem ASNode.transformE_ren {op : MapTransform R (K → V → Prog Q A (MapTransformResult V R))} (h : op.Free φ)
    (s : ASNode K V) : Prog.Ren φ (Is (TRes.renS φ.f)) (s.transformE op) ((s.ren φ.f).transformE op) :=
  .endEq (h.call s.key s.value) fun r => s.answer_ren r

theorem ASNode.transmuteE_ren {op : MapTransmute R (K → V → Prog Q A (MapTransmuteResult S X R))} (h : op.Free φ)
    (s : ASNode K V) : Prog.Ren φ (Is (XRes.renS φ.f)) (s.transmuteE op) ((s.ren φ.f).transmuteE op) :=
  .endEq (h.call s.key s.value) fun r => ASNode.answerX_ren r

theorem ALNode.transformE_ren {op : MapTransform R (K → V → Prog Q A (MapTransformResult V R))} (h : op.Free φ)
    (l : ALNode K V) :
    Prog.Ren φ (Is (TRes.renL φ.f)) (l.transformE reduce op) ((l.ren φ.f).transformE reduce op) := by
  cases op with
  | unchanged r => cases l <;> exact .pure rfl
  | removed r => cases l <;> exact .pure rfl
  | generic F =>
    induction l with
    | nextS a k v s z =>
      refine .then' (s.transformE_ren h) fun nx => .endEq (h.call k v) fun r => ?_
      rw [TRes.renL_S]
      exact ALNode.transformResult_ren reduce (.nextS a k v s z) r _
    | nextL a k v l z ih =>
      exact .then' ih fun nx => .endEq (h.call k v) fun r => ALNode.transformResult_ren reduce (.nextL a k v l z) r _

theorem ALNode.transmuteE_ren {op : MapTransmute R (K → V → Prog Q A (MapTransmuteResult S X R))} (h : op.Free φ)
    (l : ALNode K V) :
    Prog.Ren φ (Is (XRes.renL φ.f)) (l.transmuteE reduce op) ((l.ren φ.f).transmuteE reduce op) := by
  cases op with
  | removed r => cases l <;> exact .pure rfl
  | generic F =>
    induction l with
    | nextS a k v s z =>
      refine .then' (s.transmuteE_ren h) fun nx => .endEq (h.call k v) fun r => ?_
      rw [XRes.renL_S]
      exact ALNode.transmuteResult_ren reduce r _
    | nextL a k v l z ih =>
      exact .then' ih fun nx => .endEq (h.call k v) fun r => ALNode.transmuteResult_ren reduce r _

variable {c : Cfg} (x : Cross c K L)

/-! ### transform_with_transmuted -/

section
variable {o : TwmOpsM Q A K V L W R} (h : o.Free φ)
include h

theorem ASNode.twmImpl_ren (s : ASNode K V) (rk : L) (rv : W) :
    Prog.Ren φ (Is (TRes.renL φ.f)) (s.twmImpl x reduce o rk rv) ((s.ren φ.f).twmImpl x reduce o rk rv) :=
  .ite (fun _ => .thenEq (h.both.call _ _ _ _) fun r => .map (.al (s.answer_ren r)) fun r => TRes.renL_S _ r)
    fun _ => .thenEq (h.left.call _ _) fun l => .endEq (h.right.call _ _) fun r => s.twmTable_ren reduce l r

theorem ASNode.twm_ren (s : ASNode K V) (r : ASNode L W) (d : Nat) :
    Prog.Ren φ (Is (TRes.renN φ.f)) (s.twm x reduce o r d) ((s.ren φ.f).twm x reduce o (r.ren φ.f) d) :=
  .ite (fun _ => .map (s.twmImpl_ren reduce x h _ _) fun r => TRes.renN_L _ r) fun _ =>
    .then' (s.transformE_ren h.left) fun nx => .endAl (r.transmuteE_ren h.right) fun r => by
      rw [TRes.renL_S, XRes.renL_S]
      exact atwmApart_ren reduce _ _ d (.S s) _ _

theorem ALNode.twmSImpl_ren (r : ASNode L W) (l : ALNode K V) :
    Prog.Ren φ (Is (TRes.renL φ.f)) (l.twmSImpl x reduce o r) ((l.ren φ.f).twmSImpl x reduce o (r.ren φ.f)) := by
  induction l with
  | nextS a k v s z =>
    refine .ite (fun _ => .then' (s.transformE_ren h.left) fun nx => .endEq (h.both.call _ _ _ _) fun r => ?_) fun _ =>
      .then' (s.twmImpl_ren reduce x h _ _) fun nx => .endEq (h.left.call _ _) fun r =>
        ALNode.transformResult_ren reduce (.nextS a k v s z) r _
    rw [TRes.renL_S]
    exact ALNode.transformResult_ren reduce (.nextS a k v s z) r _
  | nextL a k v l z ih =>
    exact .ite (fun _ => .then' (l.transformE_ren reduce h.left) fun nx => .endEq (h.both.call _ _ _ _) fun r =>
        ALNode.transformResult_ren reduce (.nextL a k v l z) r _) fun _ =>
      .then' ih fun nx => .endEq (h.left.call _ _) fun r => ALNode.transformResult_ren reduce (.nextL a k v l z) r _

theorem ALNode.twmS_ren (l : ALNode K V) (r : ASNode L W) (d : Nat) :
    Prog.Ren φ (Is (TRes.renN φ.f)) (l.twmS x reduce o r d) ((l.ren φ.f).twmS x reduce o (r.ren φ.f) d) := by
  unfold ALNode.twmS
  rw [ALNode.ren_key]
  exact .ite (fun _ => .map (l.twmSImpl_ren reduce x h _) fun r => TRes.renN_L _ r) fun _ =>
    .then' (l.transformE_ren reduce h.left) fun nx => .endAl (r.transmuteE_ren h.right) fun r => by
      rw [XRes.renL_S]
      exact atwmApart_ren reduce _ _ d (.L l) _ _

theorem ASNode.twmLast_ren (s : ASNode K V) (rights : List (L × W)) :
    Prog.Ren φ (Is fun p => (TRes.renL φ.f p.1, p.2)) (s.twmLast x reduce o rights)
      ((s.ren φ.f).twmLast x reduce o rights) := by
  unfold ASNode.twmLast
  rw [ASNode.ren_key]
  cases takeMatch (fun e => x.eq s.key e.1) rights with
  | none => exact .map (s.transformE_ren h.left) fun r => by rw [TRes.renL_S]
  | some p => exact .map (s.twmImpl_ren reduce x h _ _) fun _ => rfl

omit reduce in
theorem TwmOpsM.step_ren (k : K) (v : V) (rights : List (L × W)) :
    Prog.Ren φ Eq (o.step x k v rights) (o.step x k v rights) := by
  unfold TwmOpsM.step
  cases takeMatch (fun e => x.eq k e.1) rights with
  | none => exact .thenEq (h.left.call _ _) fun _ => .pure rfl
  | some p => exact .thenEq (h.both.call _ _ _ _) fun _ => .pure rfl

theorem ALNode.twmLImpl_ren (l : ALNode K V) (rights : List (L × W)) :
    Prog.Ren φ (Is fun p => (TRes.renL φ.f p.1, p.2)) (l.twmLImpl x reduce o rights)
      ((l.ren φ.f).twmLImpl x reduce o rights) := by
  induction l generalizing rights with
  | nextS a k v s z =>
    exact .then' (s.twmLast_ren reduce x h rights) fun p => .thenEq (TwmOpsM.step_ren x h k v _) fun r =>
      .map (.al (ALNode.transformResult_ren reduce (.nextS a k v s z) _ _)) fun _ => rfl
  | nextL a k v l z ih =>
    exact .then' (ih rights) fun p => .thenEq (TwmOpsM.step_ren x h k v _) fun r =>
      .map (.al (ALNode.transformResult_ren reduce (.nextL a k v l z) _ _)) fun _ => rfl

theorem TwmOpsM.leftovers_ren (this : ALNode K V) (rights : List (L × W)) (next : TRes (ALNext K V) R) :
    Prog.Ren φ (Is (TRes.renL φ.f)) (o.leftovers reduce this rights next)
      (o.leftovers reduce (this.ren φ.f) rights (next.renL φ.f)) := by
  induction rights generalizing next with
  | nil => exact .pure rfl
  | cons b rights ih =>
    exact .thenEq (h.right.call _ _) fun r => .then' (.al (this.twmLeftover_ren reduce r next)) fun nx => ih nx

theorem ALNode.twmL_ren (l : ALNode K V) (r : ALNode L W) (d : Nat) :
    Prog.Ren φ (Is (TRes.renN φ.f)) (l.twmL x reduce o r d) ((l.ren φ.f).twmL x reduce o (r.ren φ.f) d) := by
  unfold ALNode.twmL
  rw [ALNode.ren_key, ALNode.ren_key, ALNode.ren_rights]
  exact .ite (fun _ => .thenEq (.resEq _) fun rights => .then' (l.twmLImpl_ren reduce x h rights) fun p =>
      .map (TwmOpsM.leftovers_ren reduce h l _ _) fun r => TRes.renN_L _ r) fun _ =>
    .then' (l.transformE_ren reduce h.left) fun nx => .endAl (r.transmuteE_ren reduce h.right) fun r =>
      atwmApart_ren reduce _ _ d (.L l) _ _

end

/-! ### transmute_with_transformed -/

section
variable {o : MwtOpsM Q A K V L W R} (h : o.Free φ)
include h

theorem ASNode.mwtImpl_ren (s : ASNode K V) (r : ASNode L W) :
    Prog.Ren φ (Is (TRes.renL φ.f)) (s.mwtImpl x reduce o r) ((s.ren φ.f).mwtImpl x reduce o (r.ren φ.f)) :=
  .ite (fun _ => .thenEq (h.both.call _ _ _ _) fun t => .map (.al (r.answer_ren t)) fun r => TRes.renL_S _ r)
    fun _ => .thenEq (h.left.call _ _) fun l => .endEq (h.right.call _ _) fun t => r.mwtTable_ren reduce l t

theorem ASNode.mwt_ren (s : ASNode K V) (r : ASNode L W) (d : Nat) :
    Prog.Ren φ (Is (TRes.renN φ.f)) (s.mwt x reduce o r d) ((s.ren φ.f).mwt x reduce o (r.ren φ.f) d) :=
  .ite (fun _ => .map (s.mwtImpl_ren reduce x h _) fun r => TRes.renN_L _ r) fun _ =>
    .then' (s.transmuteE_ren h.left) fun nx => .endAl (r.transformE_ren h.right) fun _ => by
      rw [TRes.renL_S, XRes.renL_S]
      exact amwtApart_ren reduce _ _ d (.S r) _ _

theorem ALNode.mwtSImpl_ren (r : ASNode L W) (l : ALNode K V) :
    Prog.Ren φ (Is (TRes.renL φ.f)) (l.mwtSImpl x reduce o r) ((l.ren φ.f).mwtSImpl x reduce o (r.ren φ.f)) := by
  induction l with
  | nextS a k v s z =>
    refine .ite (fun _ => .then' (s.transmuteE_ren h.left) fun nx => .endEq (h.both.call _ _ _ _) fun t => ?_) fun _ =>
      .then' (s.mwtImpl_ren reduce x h r) fun nx => .endEq (h.left.call _ _) fun t => r.withTransformed_ren reduce t _
    rw [XRes.renL_S]
    exact r.withTransmuted_ren reduce t _
  | nextL a k v l z ih =>
    exact .ite (fun _ => .then' (l.transmuteE_ren reduce h.left) fun nx => .endEq (h.both.call _ _ _ _) fun t =>
        r.withTransmuted_ren reduce t _) fun _ =>
      .then' ih fun nx => .endEq (h.left.call _ _) fun t => r.withTransformed_ren reduce t _

theorem ALNode.mwtS_ren (l : ALNode K V) (r : ASNode L W) (d : Nat) :
    Prog.Ren φ (Is (TRes.renN φ.f)) (l.mwtS x reduce o r d) ((l.ren φ.f).mwtS x reduce o (r.ren φ.f) d) := by
  unfold ALNode.mwtS
  rw [ALNode.ren_key]
  exact .ite (fun _ => .map (l.mwtSImpl_ren reduce x h _) fun r => TRes.renN_L _ r) fun _ =>
    .then' (l.transmuteE_ren reduce h.left) fun nx => .endAl (r.transformE_ren h.right) fun _ => by
      rw [TRes.renL_S]
      exact amwtApart_ren reduce _ _ d (.S r) _ _

end

/-! ### transmute_with_transmuted -/

section
variable {o : MwmOpsM Q A K V L W S X R} (h : o.Free φ)
include h

theorem ASNode.mwmValues_ren (lk : K) (lv : V) (rk : L) (rv : W) :
    Prog.Ren φ (Is (XRes.renL φ.f)) (ASNode.mwmValues x reduce o lk lv rk rv)
      (ASNode.mwmValues x reduce o lk lv rk rv) :=
  .ite (fun _ => .thenEq (h.both.call _ _ _ _) fun r => .map (.al (ASNode.answerX_ren r)) fun r => XRes.renL_S _ r)
    fun _ => .thenEq (h.left.call _ _) fun l => .endEq (h.right.call _ _) fun r => ASNode.mwmTable_ren reduce l r

theorem ASNode.mwm_ren (s : ASNode K V) (r : ASNode L W) (d : Nat) :
    Prog.Ren φ (Is (XRes.renN φ.f)) (s.mwm x reduce o r d) ((s.ren φ.f).mwm x reduce o (r.ren φ.f) d) :=
  .ite (fun _ => .map (ASNode.mwmValues_ren reduce x h _ _ _ _) fun r => XRes.renN_L _ r) fun _ =>
    .then' (s.transmuteE_ren h.left) fun nx => .endAl (r.transmuteE_ren h.right) fun _ => by
      rw [XRes.renL_S, XRes.renL_S]
      exact amwmApart_ren reduce _ _ d _ _

theorem ALNode.mwmSImpl_ren (r : ASNode L W) (l : ALNode K V) :
    Prog.Ren φ (Is (XRes.renL φ.f)) (l.mwmSImpl x reduce o r) ((l.ren φ.f).mwmSImpl x reduce o (r.ren φ.f)) := by
  induction l with
  | nextS a k v s z =>
    refine .ite (fun _ => .then' (s.transmuteE_ren h.left) fun nx => .endEq (h.both.call _ _ _ _) fun t => ?_) fun _ =>
      .then' (ASNode.mwmValues_ren reduce x h _ _ _ _) fun nx => .endEq (h.left.call _ _) fun t =>
        ALNode.transmuteResult_ren reduce t _
    rw [XRes.renL_S]
    exact ALNode.transmuteResult_ren reduce t _
  | nextL a k v l z ih =>
    exact .ite (fun _ => .then' (l.transmuteE_ren reduce h.left) fun nx => .endEq (h.both.call _ _ _ _) fun t =>
        ALNode.transmuteResult_ren reduce t _) fun _ =>
      .then' ih fun nx => .endEq (h.left.call _ _) fun t => ALNode.transmuteResult_ren reduce t _

theorem ALNode.mwmS_ren (l : ALNode K V) (r : ASNode L W) (d : Nat) :
    Prog.Ren φ (Is (XRes.renN φ.f)) (l.mwmS x reduce o r d) ((l.ren φ.f).mwmS x reduce o (r.ren φ.f) d) := by
  unfold ALNode.mwmS
  rw [ALNode.ren_key]
  exact .ite (fun _ => .map (l.mwmSImpl_ren reduce x h _) fun r => XRes.renN_L _ r) fun _ =>
    .then' (l.transmuteE_ren reduce h.left) fun nx => .endAl (r.transmuteE_ren h.right) fun _ => by
      rw [XRes.renL_S]
      exact amwmApart_ren reduce _ _ d _ _

theorem ASNode.mwmLast_ren (s : ASNode K V) (rights : List (L × W)) :
    Prog.Ren φ (Is fun p => (XRes.renL φ.f p.1, p.2)) (s.mwmLast x reduce o rights)
      ((s.ren φ.f).mwmLast x reduce o rights) := by
  unfold ASNode.mwmLast
  rw [ASNode.ren_key]
  cases takeMatch (fun e => x.eq s.key e.1) rights with
  | none => exact .map (s.transmuteE_ren h.left) fun r => by rw [XRes.renL_S]
  | some p => exact .map (ASNode.mwmValues_ren reduce x h _ _ _ _) fun _ => rfl

omit reduce in
theorem MwmOpsM.step_ren (k : K) (v : V) (rights : List (L × W)) :
    Prog.Ren φ Eq (o.step x k v rights) (o.step x k v rights) := by
  unfold MwmOpsM.step
  cases takeMatch (fun e => x.eq k e.1) rights with
  | none => exact .thenEq (h.left.call _ _) fun _ => .pure rfl
  | some p => exact .thenEq (h.both.call _ _ _ _) fun _ => .pure rfl

theorem ALNode.mwmLImpl_ren (l : ALNode K V) (rights : List (L × W)) :
    Prog.Ren φ (Is fun p => (XRes.renL φ.f p.1, p.2)) (l.mwmLImpl x reduce o rights)
      ((l.ren φ.f).mwmLImpl x reduce o rights) := by
  induction l generalizing rights with
  | nextS a k v s z =>
    exact .then' (s.mwmLast_ren reduce x h rights) fun p => .thenEq (MwmOpsM.step_ren x h k v _) fun r =>
      .map (.al (ALNode.transmuteResult_ren reduce _ _)) fun _ => rfl
  | nextL a k v l z ih =>
    exact .then' (ih rights) fun p => .thenEq (MwmOpsM.step_ren x h k v _) fun r =>
      .map (.al (ALNode.transmuteResult_ren reduce _ _)) fun _ => rfl

theorem MwmOpsM.leftovers_ren (rights : List (L × W)) (next : XRes (ALNext S X) R) :
    Prog.Ren φ (Is (XRes.renL φ.f)) (o.leftovers reduce rights next) (o.leftovers reduce rights (next.renL φ.f)) := by
  induction rights generalizing next with
  | nil => exact .pure rfl
  | cons b rights ih =>
    exact .thenEq (h.right.call _ _) fun r => .then' (.al (ALNode.transmuteResult_ren reduce r next)) fun nx => ih nx

theorem ALNode.mwmL_ren (l : ALNode K V) (r : ALNode L W) (d : Nat) :
    Prog.Ren φ (Is (XRes.renN φ.f)) (l.mwmL x reduce o r d) ((l.ren φ.f).mwmL x reduce o (r.ren φ.f) d) := by
  unfold ALNode.mwmL
  rw [ALNode.ren_key, ALNode.ren_key, ALNode.ren_rights]
  exact .ite (fun _ => .thenEq (.resEq _) fun rights => .then' (l.mwmLImpl_ren reduce x h rights) fun p =>
      .map (MwmOpsM.leftovers_ren reduce h _ _) fun r => XRes.renN_L _ r) fun _ =>
    .then' (l.transmuteE_ren reduce h.left) fun nx => .endAl (r.transmuteE_ren reduce h.right) fun r =>
      amwmApart_ren reduce _ _ d _ _

end

/-! ### transform_with_transformed -/

section
variable [BEq K] (hash : K → BitVec c.w) {o : TwtOpsM Q A K V R} (h : o.Free φ)
include h

theorem ASNode.twtImpl_ren (s r : ASNode K V) :
    Prog.Ren φ (Is (JRes.renL φ.f)) (s.twtImpl reduce o r) ((s.ren φ.f).twtImpl reduce o (r.ren φ.f)) :=
  .ite (fun _ => .endEq (h.both.call _ _ _ _) fun t => s.answerJ_ren t)
    fun _ => .thenEq (h.left.call _ _) fun l => .endEq (h.right.call _ _) fun t => s.twtTable_ren reduce r l t

theorem ASNode.twt_ren (s r : ASNode K V) (d : Nat) :
    Prog.Ren φ (Is (JRes.renN φ.f)) (s.twt reduce hash o r d) ((s.ren φ.f).twt reduce hash o (r.ren φ.f) d) :=
  .ite (fun _ => .map (s.twtImpl_ren reduce h _) fun r => JRes.renN_L _ r) fun _ =>
    .then' (s.transformE_ren h.left) fun nx => .endAl (r.transformE_ren h.right) fun _ => by
      rw [TRes.renL_S, TRes.renL_S]
      exact atwtApart_ren reduce _ _ d (.S s) (.S r) _ _

theorem ALNode.twtSImpl_ren (r : ASNode K V) (l : ALNode K V) :
    Prog.Ren φ (Is (JRes.renL φ.f)) (l.twtSImpl reduce o r) ((l.ren φ.f).twtSImpl reduce o (r.ren φ.f)) := by
  induction l with
  | nextS a k v s z =>
    refine .ite (fun _ => .then' (s.transformE_ren h.left) fun nx => .endEq (h.both.call _ _ _ _) fun t => ?_) fun _ =>
      .then' (s.twtImpl_ren reduce h r) fun nx => .endEq (h.left.call _ _) fun t =>
        ALNode.plainThenJoint_ren reduce (.nextS a k v s z) t r _
    rw [TRes.renL_S]
    exact ALNode.jointThenPlain_ren reduce (.nextS a k v s z) t r _
  | nextL a k v l z ih =>
    exact .ite (fun _ => .then' (l.transformE_ren reduce h.left) fun nx => .endEq (h.both.call _ _ _ _) fun t =>
        ALNode.jointThenPlain_ren reduce (.nextL a k v l z) t r _) fun _ =>
      .then' ih fun nx => .endEq (h.left.call _ _) fun t => ALNode.plainThenJoint_ren reduce (.nextL a k v l z) t r _

theorem ALNode.twtS_ren (l : ALNode K V) (r : ASNode K V) (d : Nat) :
    Prog.Ren φ (Is (JRes.renN φ.f)) (l.twtS reduce hash o r d) ((l.ren φ.f).twtS reduce hash o (r.ren φ.f) d) := by
  unfold ALNode.twtS
  rw [ALNode.ren_key]
  exact .ite (fun _ => .map (l.twtSImpl_ren reduce h _) fun r => JRes.renN_L _ r) fun _ =>
    .then' (l.transformE_ren reduce h.left) fun nx => .endAl (r.transformE_ren h.right) fun _ => by
      rw [TRes.renL_S]
      exact atwtApart_ren reduce _ _ d (.L l) (.S r) _ _

theorem ASNode.twtLast_ren (s : ASNode K V) (rights : List (K × V)) :
    Prog.Ren φ (Is fun p => (JRes.renL φ.f p.1, p.2)) (s.twtLast reduce o rights)
      ((s.ren φ.f).twtLast reduce o rights) := by
  unfold ASNode.twtLast
  rw [ASNode.ren_key]
  cases takeMatch (fun e => s.key == e.1) rights with
  | none => exact .map (s.transformE_ren h.left) fun r => by rw [TRes.renL_S, TRes.renL_jointL]
  | some p => exact .then' (.al (.snew _ _)) fun r => .map (s.twtImpl_ren reduce h r) fun _ => rfl

omit reduce in
theorem TwtOpsM.step_ren (k : K) (v : V) (rights : List (K × V)) :
    Prog.Ren φ Eq (o.step k v rights) (o.step k v rights) := by
  unfold TwtOpsM.step
  cases takeMatch (fun e => k == e.1) rights with
  | none => exact .thenEq (h.left.call _ _) fun _ => .pure rfl
  | some p => exact .thenEq (h.both.call _ _ _ _) fun _ => .pure rfl

theorem ALNode.twtLImpl_ren (l : ALNode K V) (rights : List (K × V)) :
    Prog.Ren φ (Is fun p => (JRes.renL φ.f p.1, p.2)) (l.twtLImpl reduce o rights)
      ((l.ren φ.f).twtLImpl reduce o rights) := by
  induction l generalizing rights with
  | nextS a k v s z =>
    exact .then' (s.twtLast_ren reduce h rights) fun p => .thenEq (TwtOpsM.step_ren h k v _) fun r =>
      .map (.al (ALNode.jointThenJoint_ren reduce (.nextS a k v s z) _ _ _)) fun _ => rfl
  | nextL a k v l z ih =>
    exact .then' (ih rights) fun p => .thenEq (TwtOpsM.step_ren h k v _) fun r =>
      .map (.al (ALNode.jointThenJoint_ren reduce (.nextL a k v l z) _ _ _)) fun _ => rfl

omit [BEq K] in
theorem TwtOpsM.leftovers_ren (this : ALNode K V) (rights : List (K × V)) (next : JRes (ALNext K V) R) :
    Prog.Ren φ (Is (JRes.renL φ.f)) (o.leftovers reduce this rights next)
      (o.leftovers reduce (this.ren φ.f) rights (next.renL φ.f)) := by
  induction rights generalizing next with
  | nil => exact .pure rfl
  | cons b rights ih =>
    exact .thenEq (h.right.call _ _) fun r => .then' (.al (this.twtLeftover_ren reduce b r next)) fun nx => ih nx

theorem ALNode.twtL_ren (l r : ALNode K V) (d : Nat) :
    Prog.Ren φ (Is (JRes.renN φ.f)) (l.twtL reduce hash o r d) ((l.ren φ.f).twtL reduce hash o (r.ren φ.f) d) := by
  unfold ALNode.twtL
  rw [ALNode.ren_key, ALNode.ren_key, ALNode.ren_rights]
  exact .ite (fun _ => .thenEq (.resEq _) fun rights => .then' (l.twtLImpl_ren reduce h rights) fun p =>
      .map (TwtOpsM.leftovers_ren reduce h l _ _) fun r => JRes.renN_L _ r) fun _ =>
    .then' (l.transformE_ren reduce h.left) fun nx => .endAl (r.transformE_ren reduce h.right) fun _ =>
      atwtApart_ren reduce _ _ d (.L l) (.L r) _ _

end
end HT
