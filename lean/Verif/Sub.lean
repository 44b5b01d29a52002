import Verif.EffSpec
import Verif.EffLoop
import Verif.NatBase
/-!
# Replacing the calls of a piece of code

A translation turns each call into a known answer, or into another call whose answer is converted.
-/
namespace HT
variable {K V L W S X R : Type} {Q Q' : Type} {A : Q → Type} {A' : Q' → Type} {α β σ : Type}

/-- What becomes of a call: an answer, or a call of something else and a conversion of its answer. -/
abbrev Trans (Q : Type) (A : Q → Type) (Q' : Type) (A' : Q' → Type) := (q : Q) → A q ⊕ ((q' : Q') × (A' q' → A q))

variable (tr : Trans Q A Q' A')

/-- The code with its calls replaced. -/
def Tree.sub : Tree Q A α → Tree Q' A' α
  | .ret a => .ret a
  | .ask q k =>
    match tr q with
    | .inl a => (k a).sub
    | .inr r => .ask r.1 fun a => (k (r.2 a)).sub
  | .panic p => .panic p
  | .diverge => .diverge

theorem Tree.sub_ask (q : Q) (k : A q → Tree Q A α) : (Tree.ask q k).sub tr = match tr q with
    | .inl a => (k a).sub tr
    | .inr r => .ask r.1 fun a => (k (r.2 a)).sub tr := by
  rw [Tree.sub]

theorem Tree.sub_bind (x : Tree Q A α) (f : α → Tree Q A β) :
    (x.bind f).sub tr = (x.sub tr).bind fun a => (f a).sub tr := by
  induction x with
  | ret a => rfl
  | ask q k ih =>
    show Tree.sub tr (.ask q fun a => (k a).bind f) = (Tree.sub tr (.ask q k)).bind _
    rw [Tree.sub_ask, Tree.sub_ask]
    cases tr q with
    | inl a => exact ih a
    | inr r => exact congrArg (Tree.ask r.1) (funext fun a => ih _)
  | panic p => rfl
  | diverge => rfl

/-- As `Tree.sub`, of code that allocates. -/
def Prog.sub (x : Prog Q A α) : Prog Q' A' α := fun s => (x s).sub tr

namespace Prog

@[simp] theorem sub_pure (a : α) : Prog.sub tr (Pure.pure a : Prog Q A α) = Pure.pure a := rfl

@[simp] theorem sub_bind (x : Prog Q A α) (f : α → Prog Q A β) :
    Prog.sub tr (x >>= f) = Prog.sub tr x >>= fun a => Prog.sub tr (f a) :=
  funext fun s => Tree.sub_bind tr (x s) _

@[simp] theorem sub_al (x : Al α) : Prog.sub tr (Prog.al x : Prog Q A α) = Prog.al x := by
  funext s
  unfold Prog.sub Prog.al
  cases x s <;> rfl

@[simp] theorem sub_res (x : Res α) : Prog.sub tr (Prog.res x : Prog Q A α) = Prog.res x := sub_al tr _

theorem sub_ite (p : Prop) [Decidable p] (x y : Prog Q A α) :
    Prog.sub tr (if p then x else y) = if p then Prog.sub tr x else Prog.sub tr y := by split <;> rfl

theorem sub_ask (q : Q) : Prog.sub tr (Prog.ask q : Prog Q A (A q)) = match tr q with
    | .inl a => Pure.pure a
    | .inr r => Prog.ask r.1 >>= fun a => Pure.pure (r.2 a) := by
  funext s
  show Tree.sub tr (.ask q fun a => .ret (a, s)) = _
  rw [Tree.sub_ask]
  cases tr q <;> rfl

end Prog

/-! ### Operations -/

/-- A closure with its calls replaced. -/
def MapTransform.sub {Y : Type} (op : MapTransform R (K → V → Prog Q A (MapTransformResult Y R))) :
    MapTransform R (K → V → Prog Q' A' (MapTransformResult Y R)) := op.map fun f k v => Prog.sub tr (f k v)
@[inherit_doc MapTransform.sub]
def MapTransform.sub2 {Y : Type} (op : MapTransform R (K → V → L → W → Prog Q A (MapTransformResult Y R))) :
    MapTransform R (K → V → L → W → Prog Q' A' (MapTransformResult Y R)) :=
  op.map fun f k v l w => Prog.sub tr (f k v l w)
@[inherit_doc MapTransform.sub]
def MapTransmute.sub (op : MapTransmute R (K → V → Prog Q A (MapTransmuteResult S X R))) :
    MapTransmute R (K → V → Prog Q' A' (MapTransmuteResult S X R)) := op.map fun f k v => Prog.sub tr (f k v)
@[inherit_doc MapTransform.sub]
def MapTransmute.sub2 (op : MapTransmute R (K → V → L → W → Prog Q A (MapTransmuteResult S X R))) :
    MapTransmute R (K → V → L → W → Prog Q' A' (MapTransmuteResult S X R)) :=
  op.map fun f k v l w => Prog.sub tr (f k v l w)
@[inherit_doc MapTransform.sub]
def MapJointTransform.sub (op : MapJointTransform R (K → V → K → V → Prog Q A (MapJointTransformResult V R))) :
    MapJointTransform R (K → V → K → V → Prog Q' A' (MapJointTransformResult V R)) :=
  match op with
  | .generic f b => .generic (fun k v l w => Prog.sub tr (f k v l w)) b
  | .unchangedLR r => .unchangedLR r
  | .unchangedL r => .unchangedL r
  | .unchangedR r => .unchangedR r
  | .removed r => .removed r

@[simp] theorem MapTransform.sub_callM (op : MapTransform R (K → V → Prog Q A (MapTransformResult V R))) (k : K) (v : V) :
    (op.sub tr).callM k v = Prog.sub tr (op.callM k v) := by cases op <;> rfl
@[simp] theorem MapTransform.sub_call2M {Y : Type}
    (op : MapTransform R (K → V → L → W → Prog Q A (MapTransformResult Y R))) (k : K) (v : V) (l : L) (w : W) :
    (op.sub2 tr).call2M k v l w = Prog.sub tr (op.call2M k v l w) := by cases op <;> rfl
@[simp] theorem MapTransmute.sub_callM (op : MapTransmute R (K → V → Prog Q A (MapTransmuteResult S X R))) (k : K) (v : V) :
    (op.sub tr).callM k v = Prog.sub tr (op.callM k v) := by cases op <;> rfl
@[simp] theorem MapTransmute.sub_call2M
    (op : MapTransmute R (K → V → L → W → Prog Q A (MapTransmuteResult S X R))) (k : K) (v : V) (l : L) (w : W) :
    (op.sub2 tr).call2M k v l w = Prog.sub tr (op.call2M k v l w) := by cases op <;> rfl
@[simp] theorem MapJointTransform.sub_callM
    (op : MapJointTransform R (K → V → K → V → Prog Q A (MapJointTransformResult V R))) (k : K) (v : V) (l : K) (w : V) :
    (op.sub tr).callM k v l w = Prog.sub tr (op.callM k v l w) := by
  cases op with
  | generic f b => cases b <;> simp [MapJointTransform.sub, MapJointTransform.callM]
  | _ => rfl

/-- The operation with its calls replaced. -/
def TwmOpsM.sub (o : TwmOpsM Q A K V L W R) : TwmOpsM Q' A' K V L W R := ⟨o.both.sub2 tr, o.left.sub tr, o.right.sub tr⟩
@[inherit_doc TwmOpsM.sub]
def MwtOpsM.sub (o : MwtOpsM Q A K V L W R) : MwtOpsM Q' A' K V L W R := ⟨o.both.sub2 tr, o.left.sub tr, o.right.sub tr⟩
@[inherit_doc TwmOpsM.sub]
def MwmOpsM.sub (o : MwmOpsM Q A K V L W S X R) : MwmOpsM Q' A' K V L W S X R :=
  ⟨o.both.sub2 tr, o.left.sub tr, o.right.sub tr⟩
@[inherit_doc TwmOpsM.sub]
def TwtOpsM.sub (o : TwtOpsM Q A K V R) : TwtOpsM Q' A' K V R := ⟨o.both.sub tr, o.left.sub tr, o.right.sub tr⟩

theorem TwmOpsM.sub_flip (o : TwmOpsM Q A K V L W R) : (o.sub tr).flip = o.flip.sub tr := by
  obtain ⟨b, l, r⟩ := o; cases b <;> rfl
theorem MwtOpsM.sub_flip (o : MwtOpsM Q A K V L W R) : (o.sub tr).flip = o.flip.sub tr := by
  obtain ⟨b, l, r⟩ := o; cases b <;> rfl
theorem MwmOpsM.sub_flip (o : MwmOpsM Q A K V L W S X R) : (o.sub tr).flip = o.flip.sub tr := by
  obtain ⟨b, l, r⟩ := o; cases b <;> rfl
theorem TwtOpsM.sub_flip (o : TwtOpsM Q A K V R) : (o.sub tr).flip = o.flip.sub tr := by
  obtain ⟨b, l, r⟩ := o; cases b <;> rfl

end HT
