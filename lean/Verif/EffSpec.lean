import Verif.EffNode
import Verif.ArcSim
import Verif.JointSpec
/-!
# Vocabulary for operations whose closures may have state, panic or not return

An operation is given by its *kind*: which of its parts are bulk operations and which are closures (a `Unit` stands for
the closure).  What the closures do is left to the environment of a run (`Tree.run`): a call of a closure of a joint
operation is named by the case it is about, a call of the closure of `transform` or `transmute` by the entry.
-/
namespace HT

variable {K V L W S X R : Type}

/-- Another closure in the place of the closure. -/
def MapTransform.map {F G : Type} (g : F → G) : MapTransform R F → MapTransform R G
  | .generic f => .generic (g f)
  | .unchanged r => .unchanged r
  | .removed r => .removed r
@[inherit_doc MapTransform.map]
def MapTransmute.map {F G : Type} (g : F → G) : MapTransmute R F → MapTransmute R G
  | .generic f => .generic (g f)
  | .removed r => .removed r
/-- Another closure in the place of the closure.  (The flag of `Generic` is the one users give; the other is what
    exchanging the operands makes of it.) -/
def MapJointTransform.map {F G : Type} (g : F → G) : MapJointTransform R F → MapJointTransform R G
  | .generic f _ => .generic (g f) false
  | .unchangedLR r => .unchangedLR r
  | .unchangedL r => .unchangedL r
  | .unchangedR r => .unchangedR r
  | .removed r => .removed r

/-- Is it a closure (and not a bulk operation)? -/
def MapTransform.isClosure {F : Type} : MapTransform R F → Bool
  | .generic _ => true
  | _ => false
@[inherit_doc MapTransform.isClosure]
def MapTransmute.isClosure {F : Type} : MapTransmute R F → Bool
  | .generic _ => true
  | _ => false
@[inherit_doc MapTransform.isClosure]
def MapJointTransform.isClosure {F : Type} : MapJointTransform R F → Bool
  | .generic _ _ => true
  | _ => false

/-! ### transform and transmute -/

/-- The operation whose closure is whatever the environment does. -/
def MapTransform.asking (o : MapTransform R Unit) :
    MapTransform R (K → V → Prog (K × V) (fun _ => MapTransformResult V R) (MapTransformResult V R)) :=
  o.map fun _ k v => Prog.ask (Q := K × V) (A := fun _ => MapTransformResult V R) (k, v)
/-- The operation whose closure is the function `f`. -/
def MapTransform.answering (o : MapTransform R Unit) (f : K × V → MapTransformResult V R) :
    MapTransform R (K → V → MapTransformResult V R) := o.map fun _ k v => f (k, v)
/-- The calls to be made for the entries `l`. -/
def MapTransform.expected (o : MapTransform R Unit) (l : List (K × V)) : List (K × V) :=
  if o.isClosure then l else []

@[inherit_doc MapTransform.asking]
def MapTransmute.asking (o : MapTransmute R Unit) :
    MapTransmute R (K → V → Prog (K × V) (fun _ => MapTransmuteResult S X R) (MapTransmuteResult S X R)) :=
  o.map fun _ k v => Prog.ask (Q := K × V) (A := fun _ => MapTransmuteResult S X R) (k, v)
@[inherit_doc MapTransform.answering]
def MapTransmute.answering (o : MapTransmute R Unit) (f : K × V → MapTransmuteResult S X R) :
    MapTransmute R (K → V → MapTransmuteResult S X R) := o.map fun _ k v => f (k, v)
@[inherit_doc MapTransform.expected]
def MapTransmute.expected (o : MapTransmute R Unit) (l : List (K × V)) : List (K × V) :=
  if o.isClosure then l else []

/-! ### Joint operations -/

/-- Which parts of `transform_with_transmuted`'s operation are closures. -/
structure TwmKinds (R : Type) where
  both : MapTransform R Unit
  left : MapTransform R Unit
  right : MapTransmute R Unit
/-- Which parts of `transmute_with_transformed`'s operation are closures. -/
structure MwtKinds (R : Type) where
  both : MapTransform R Unit
  left : MapTransmute R Unit
  right : MapTransform R Unit
/-- Which parts of `transmute_with_transmuted`'s operation are closures. -/
structure MwmKinds (R : Type) where
  both : MapTransmute R Unit
  left : MapTransmute R Unit
  right : MapTransmute R Unit
/-- Which parts of `transform_with_transformed`'s operation are closures. -/
structure TwtKinds (R : Type) where
  both : MapJointTransform R Unit
  left : MapTransform R Unit
  right : MapTransform R Unit

/-- What the closures answer for a case. -/
def TwmAnswer (K V L W R : Type) : Case (K × V) (L × W) → Type
  | .left _ => MapTransformResult V R
  | .right _ => MapTransmuteResult K V R
  | .both _ _ => MapTransformResult V R
@[inherit_doc TwmAnswer]
def MwtAnswer (K V L W R : Type) : Case (K × V) (L × W) → Type
  | .left _ => MapTransmuteResult L W R
  | .right _ => MapTransformResult W R
  | .both _ _ => MapTransformResult W R
@[inherit_doc TwmAnswer]
def MwmAnswer (K V L W S X R : Type) : Case (K × V) (L × W) → Type
  | .left _ => MapTransmuteResult S X R
  | .right _ => MapTransmuteResult S X R
  | .both _ _ => MapTransmuteResult S X R
@[inherit_doc TwmAnswer]
def TwtAnswer (K V R : Type) : Case (K × V) (K × V) → Type
  | .left _ => MapTransformResult V R
  | .right _ => MapTransformResult V R
  | .both _ _ => MapJointTransformResult V R

/-- The operation whose closures are whatever the environment does. -/
def TwmKinds.asking (o : TwmKinds R) : TwmOpsM (Case (K × V) (L × W)) (TwmAnswer K V L W R) K V L W R where
  both := o.both.map fun _ k v l w => Prog.ask (A := TwmAnswer K V L W R) (.both (k, v) (l, w))
  left := o.left.map fun _ k v => Prog.ask (A := TwmAnswer K V L W R) (.left (k, v))
  right := o.right.map fun _ l w => Prog.ask (A := TwmAnswer K V L W R) (.right (l, w))
@[inherit_doc TwmKinds.asking]
def MwtKinds.asking (o : MwtKinds R) : MwtOpsM (Case (K × V) (L × W)) (MwtAnswer K V L W R) K V L W R where
  both := o.both.map fun _ k v l w => Prog.ask (A := MwtAnswer K V L W R) (.both (k, v) (l, w))
  left := o.left.map fun _ k v => Prog.ask (A := MwtAnswer K V L W R) (.left (k, v))
  right := o.right.map fun _ l w => Prog.ask (A := MwtAnswer K V L W R) (.right (l, w))
@[inherit_doc TwmKinds.asking]
def MwmKinds.asking (o : MwmKinds R) :
    MwmOpsM (Case (K × V) (L × W)) (MwmAnswer K V L W S X R) K V L W S X R where
  both := o.both.map fun _ k v l w => Prog.ask (A := MwmAnswer K V L W S X R) (.both (k, v) (l, w))
  left := o.left.map fun _ k v => Prog.ask (A := MwmAnswer K V L W S X R) (.left (k, v))
  right := o.right.map fun _ l w => Prog.ask (A := MwmAnswer K V L W S X R) (.right (l, w))
@[inherit_doc TwmKinds.asking]
def TwtKinds.asking (o : TwtKinds R) : TwtOpsM (Case (K × V) (K × V)) (TwtAnswer K V R) K V R where
  both := o.both.map fun _ k v l w => Prog.ask (A := TwtAnswer K V R) (.both (k, v) (l, w))
  left := o.left.map fun _ k v => Prog.ask (A := TwtAnswer K V R) (.left (k, v))
  right := o.right.map fun _ l w => Prog.ask (A := TwtAnswer K V R) (.right (l, w))

/-- The operation whose closures are the functions `f`. -/
def TwmKinds.answering (o : TwmKinds R) (f : (p : Case (K × V) (L × W)) → TwmAnswer K V L W R p) :
    TwmOps K V L W R where
  both := o.both.map fun _ k v l w => f (.both (k, v) (l, w))
  left := o.left.map fun _ k v => f (.left (k, v))
  right := o.right.map fun _ l w => f (.right (l, w))
@[inherit_doc TwmKinds.answering]
def MwtKinds.answering (o : MwtKinds R) (f : (p : Case (K × V) (L × W)) → MwtAnswer K V L W R p) :
    MwtOps K V L W R where
  both := o.both.map fun _ k v l w => f (.both (k, v) (l, w))
  left := o.left.map fun _ k v => f (.left (k, v))
  right := o.right.map fun _ l w => f (.right (l, w))
@[inherit_doc TwmKinds.answering]
def MwmKinds.answering (o : MwmKinds R) (f : (p : Case (K × V) (L × W)) → MwmAnswer K V L W S X R p) :
    MwmOps K V L W S X R where
  both := o.both.map fun _ k v l w => f (.both (k, v) (l, w))
  left := o.left.map fun _ k v => f (.left (k, v))
  right := o.right.map fun _ l w => f (.right (l, w))
@[inherit_doc TwmKinds.answering]
def TwtKinds.answering (o : TwtKinds R) (f : (p : Case (K × V) (K × V)) → TwtAnswer K V R p) : TwtOps K V R where
  both := o.both.map fun _ k v l w => f (.both (k, v) (l, w))
  left := o.left.map fun _ k v => f (.left (k, v))
  right := o.right.map fun _ l w => f (.right (l, w))

/-- Does the case call for a closure? -/
def TwmKinds.asks {A B : Type} (o : TwmKinds R) : Case A B → Bool
  | .left _ => o.left.isClosure
  | .right _ => o.right.isClosure
  | .both _ _ => o.both.isClosure
@[inherit_doc TwmKinds.asks]
def MwtKinds.asks {A B : Type} (o : MwtKinds R) : Case A B → Bool
  | .left _ => o.left.isClosure
  | .right _ => o.right.isClosure
  | .both _ _ => o.both.isClosure
@[inherit_doc TwmKinds.asks]
def MwmKinds.asks {A B : Type} (o : MwmKinds R) : Case A B → Bool
  | .left _ => o.left.isClosure
  | .right _ => o.right.isClosure
  | .both _ _ => o.both.isClosure
@[inherit_doc TwmKinds.asks]
def TwtKinds.asks {A B : Type} (o : TwtKinds R) : Case A B → Bool
  | .left _ => o.left.isClosure
  | .right _ => o.right.isClosure
  | .both _ _ => o.both.isClosure

/-! ### Runs -/

section
variable {Q : Type} {A : Q → Type} {α σ : Type}

/-- A run of `x` when the next free address is `s` and the closures' state is `st`. -/
def Prog.run (x : Prog Q A α) (s : Nat) (env : (q : Q) → σ → Option (A q × σ)) (st : σ) :
    Outcome Q ((α × Nat) × σ) × List (Reply Q A) := (x s).run env st

/-- The function `f` answers as the closures did in the run. -/
def Answers (f : (q : Q) → A q) (replies : List (Reply Q A)) : Prop := ∀ q a, ⟨q, some a⟩ ∈ replies → f q = a

/-- The calls of a run that should make the calls `expected`: it makes no other, none twice, and if it returns it has
    made all of them and each was answered; if it ends because a closure does not return, that is the last call and the
    only one that was not answered; and otherwise (the code itself panics or does not return) each was answered. -/
structure CallsOnce (run : Outcome Q α × List (Reply Q A)) (expected : List Q) : Prop where
  once : (run.2.map Sigma.fst).Nodup
  only : ∀ q ∈ run.2.map Sigma.fst, q ∈ expected
  all : ∀ a, run.1 = .ret a → (run.2.map Sigma.fst).Perm expected
  answered : (∀ q, run.1 ≠ .closure q) → ∀ p ∈ run.2, p.2.isSome
  stops : ∀ q, run.1 = .closure q → ∃ before, run.2 = before ++ [⟨q, none⟩] ∧ ∀ p ∈ before, p.2.isSome

/-- A run that is not ended by a closure ends as the function without closures' effects: it returns the same
    (addresses forgotten), or panics for the same reason, or neither returns.  One that is ended by a closure is ended
    by the last call. -/
def Outcome.Like {c : Cfg} (run : Outcome Q (((ATrie c K V × R) × Nat) × σ) × List (Reply Q A))
    (res : Res (Trie c K V × R)) : Prop :=
  match run.1 with
  | .ret a => res = .ok (a.1.1.1.erase, a.1.1.2)
  | .panic p => res = .panic p
  | .diverge => res = .diverge
  | .closure q => ∃ before, run.2 = before ++ [⟨q, none⟩]

/-- Closures without state, which may panic or not return on some arguments. -/
def Prog.stateless (f : (q : Q) → Option (A q)) : (q : Q) → Unit → Option (A q × Unit) :=
  fun q st => (f q).map fun a => (a, st)

end
end HT
