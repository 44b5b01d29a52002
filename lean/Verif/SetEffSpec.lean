import Verif.SetEff
import Verif.EffSpec
import Verif.SetSpec
/-!
# Vocabulary for set operations and transfute functions whose closures may have state, panic or not return

As `Verif/EffSpec.lean`: a call of a closure is named by the key, or by the case, it is about.
-/
namespace HT

variable {K V L W S R : Type}

/-- Another closure in the place of the closure. -/
def SetTransform.map {F G : Type} (g : F → G) : SetTransform R F → SetTransform R G
  | .generic f => .generic (g f)
  | .unchanged r => .unchanged r
  | .removed r => .removed r
@[inherit_doc SetTransform.map]
def SetTransmute.map {F G : Type} (g : F → G) : SetTransmute R F → SetTransmute R G
  | .generic f => .generic (g f)
  | .removed r => .removed r
/-- Another closure in the place of the closure; see `MapJointTransform.map`. -/
def SetJointTransform.map {F G : Type} (g : F → G) : SetJointTransform R F → SetJointTransform R G
  | .generic f _ => .generic (g f) false
  | .unchangedLR r => .unchangedLR r
  | .unchangedL r => .unchangedL r
  | .unchangedR r => .unchangedR r
  | .removed r => .removed r

/-- Is it a closure (and not a bulk operation)? -/
def SetTransform.isClosure {F : Type} : SetTransform R F → Bool
  | .generic _ => true
  | _ => false
@[inherit_doc SetTransform.isClosure]
def SetTransmute.isClosure {F : Type} : SetTransmute R F → Bool
  | .generic _ => true
  | _ => false
@[inherit_doc SetTransform.isClosure]
def SetJointTransform.isClosure {F : Type} : SetJointTransform R F → Bool
  | .generic _ _ => true
  | _ => false

/-! ### transform and transmute -/

/-- The operation whose closure is whatever the environment does. -/
def SetTransform.asking (o : SetTransform R Unit) :
    SetTransform R (K → Prog K (fun _ => SetTransformResult R) (SetTransformResult R)) :=
  o.map fun _ k => Prog.ask (Q := K) (A := fun _ => SetTransformResult R) k
/-- The operation whose closure is the function `f`. -/
def SetTransform.answering (o : SetTransform R Unit) (f : K → SetTransformResult R) :
    SetTransform R (K → SetTransformResult R) := o.map fun _ => f
/-- The calls to be made for the keys `l`. -/
def SetTransform.expected (o : SetTransform R Unit) (l : List K) : List K := if o.isClosure then l else []

@[inherit_doc SetTransform.asking]
def SetTransmute.asking (o : SetTransmute R Unit) :
    SetTransmute R (K → Prog K (fun _ => SetTransmuteResult S R) (SetTransmuteResult S R)) :=
  o.map fun _ k => Prog.ask (Q := K) (A := fun _ => SetTransmuteResult S R) k
@[inherit_doc SetTransform.answering]
def SetTransmute.answering (o : SetTransmute R Unit) (f : K → SetTransmuteResult S R) :
    SetTransmute R (K → SetTransmuteResult S R) := o.map fun _ => f
@[inherit_doc SetTransform.expected]
def SetTransmute.expected (o : SetTransmute R Unit) (l : List K) : List K := if o.isClosure then l else []

/-! ### Joint operations -/

/-- Which parts of the set function `transform_with_transmuted`'s operation are closures. -/
structure STwmKinds (R : Type) where
  both : SetTransform R Unit
  left : SetTransform R Unit
  right : SetTransmute R Unit
/-- Which parts of the set function `transmute_with_transformed`'s operation are closures. -/
structure SMwtKinds (R : Type) where
  both : SetTransform R Unit
  left : SetTransmute R Unit
  right : SetTransform R Unit
/-- Which parts of the set function `transmute_with_transmuted`'s operation are closures. -/
structure SMwmKinds (R : Type) where
  both : SetTransmute R Unit
  left : SetTransmute R Unit
  right : SetTransmute R Unit
/-- Which parts of the set function `transform_with_transformed`'s operation are closures. -/
structure STwtKinds (R : Type) where
  both : SetJointTransform R Unit
  left : SetTransform R Unit
  right : SetTransform R Unit
/-- Which parts of `transform_with_transfuted`'s operation are closures. -/
structure TwfKinds (R : Type) where
  both : MapTransform R Unit
  left : MapTransform R Unit
  right : SetTransmute R Unit
/-- Which parts of `transfute_with_transformed`'s operation are closures. -/
structure FwtKinds (R : Type) where
  both : MapTransform R Unit
  left : SetTransmute R Unit
  right : MapTransform R Unit

/-- What the closures answer for a case. -/
def STwmAnswer (K L R : Type) : Case K L → Type
  | .left _ => SetTransformResult R
  | .right _ => SetTransmuteResult K R
  | .both _ _ => SetTransformResult R
@[inherit_doc STwmAnswer]
def SMwtAnswer (K L R : Type) : Case K L → Type
  | .left _ => SetTransmuteResult L R
  | .right _ => SetTransformResult R
  | .both _ _ => SetTransformResult R
@[inherit_doc STwmAnswer]
def SMwmAnswer (K L S R : Type) : Case K L → Type
  | .left _ => SetTransmuteResult S R
  | .right _ => SetTransmuteResult S R
  | .both _ _ => SetTransmuteResult S R
@[inherit_doc STwmAnswer]
def STwtAnswer (K R : Type) : Case K K → Type
  | .left _ => SetTransformResult R
  | .right _ => SetTransformResult R
  | .both _ _ => SetJointTransformResult R
@[inherit_doc STwmAnswer]
def TwfAnswer (K V W R : Type) : Case (K × V) (K × W) → Type
  | .left _ => MapTransformResult V R
  | .right _ => SetTransmuteResult V R
  | .both _ _ => MapTransformResult V R
@[inherit_doc STwmAnswer]
def FwtAnswer (K V W R : Type) : Case (K × V) (K × W) → Type
  | .left _ => SetTransmuteResult W R
  | .right _ => MapTransformResult W R
  | .both _ _ => MapTransformResult W R

section
variable {c : Cfg} (reduce : R → R → R) (e : R)

/-- A run of the set function `transform_with_transmuted` whose closures are whatever the environment does. -/
def AHSet.twmAsk (x : Cross c K L) (o : STwmKinds R) (par : Par) (s : AHSet c K) (t : AHSet c L) :
    Prog (Case K L) (STwmAnswer K L R) (AHSet c K × R) :=
  AHSet.twmE reduce e x (o.both.map fun _ k l => Prog.ask (A := STwmAnswer K L R) (.both k l))
    (o.left.map fun _ k => Prog.ask (A := STwmAnswer K L R) (.left k))
    (o.right.map fun _ l => Prog.ask (A := STwmAnswer K L R) (.right l)) par s t
/-- The set function `transform_with_transmuted` with the functions `f` for closures. -/
def HSet.twmWith (x : Cross c K L) (o : STwmKinds R) (f : (p : Case K L) → STwmAnswer K L R p) (par : Par)
    (s : HSet c K) (t : HSet c L) : Res (HSet c K × R) :=
  HSet.twm reduce e x (o.both.map fun _ k l => f (.both k l)) (o.left.map fun _ k => f (.left k))
    (o.right.map fun _ l => f (.right l)) par s t

/-- A run of the set function `transmute_with_transformed` whose closures are whatever the environment does. -/
def AHSet.mwtAsk (x : Cross c K L) (o : SMwtKinds R) (par : Par) (s : AHSet c K) (t : AHSet c L) :
    Prog (Case K L) (SMwtAnswer K L R) (AHSet c L × R) :=
  AHSet.mwtE reduce e x (o.both.map fun _ k l => Prog.ask (A := SMwtAnswer K L R) (.both k l))
    (o.left.map fun _ k => Prog.ask (A := SMwtAnswer K L R) (.left k))
    (o.right.map fun _ l => Prog.ask (A := SMwtAnswer K L R) (.right l)) par s t
/-- The set function `transmute_with_transformed` with the functions `f` for closures. -/
def HSet.mwtWith (x : Cross c K L) (o : SMwtKinds R) (f : (p : Case K L) → SMwtAnswer K L R p) (par : Par)
    (s : HSet c K) (t : HSet c L) : Res (HSet c L × R) :=
  HSet.mwt reduce e x (o.both.map fun _ k l => f (.both k l)) (o.left.map fun _ k => f (.left k))
    (o.right.map fun _ l => f (.right l)) par s t

/-- A run of the set function `transmute_with_transmuted` whose closures are whatever the environment does. -/
def AHSet.mwmAsk (x : Cross c K L) (o : SMwmKinds R) (s : AHSet c K) (t : AHSet c L) :
    Prog (Case K L) (SMwmAnswer K L S R) (AHSet c S × R) :=
  AHSet.mwmE reduce e x (o.both.map fun _ k l => Prog.ask (A := SMwmAnswer K L S R) (.both k l))
    (o.left.map fun _ k => Prog.ask (A := SMwmAnswer K L S R) (.left k))
    (o.right.map fun _ l => Prog.ask (A := SMwmAnswer K L S R) (.right l)) s t
/-- The set function `transmute_with_transmuted` with the functions `f` for closures. -/
def HSet.mwmWith (x : Cross c K L) (o : SMwmKinds R) (f : (p : Case K L) → SMwmAnswer K L S R p)
    (s : HSet c K) (t : HSet c L) : Res (HSet c S × R) :=
  HSet.mwm reduce e x (o.both.map fun _ k l => f (.both k l)) (o.left.map fun _ k => f (.left k))
    (o.right.map fun _ l => f (.right l)) s t

/-- A run of the set function `transform_with_transformed` whose closures are whatever the environment does. -/
def AHSet.twtAsk [BEq K] (hash : K → BitVec c.w) (o : STwtKinds R) (par : Par) (s t : AHSet c K) :
    Prog (Case K K) (STwtAnswer K R) (AHSet c K × R) :=
  AHSet.twtE reduce e hash (o.both.map fun _ k l => Prog.ask (A := STwtAnswer K R) (.both k l))
    (o.left.map fun _ k => Prog.ask (A := STwtAnswer K R) (.left k))
    (o.right.map fun _ l => Prog.ask (A := STwtAnswer K R) (.right l)) par s t
/-- The set function `transform_with_transformed` with the functions `f` for closures. -/
def HSet.twtWith [BEq K] (hash : K → BitVec c.w) (o : STwtKinds R) (f : (p : Case K K) → STwtAnswer K R p) (par : Par)
    (s t : HSet c K) : Res (HSet c K × R) :=
  HSet.twt reduce e hash (o.both.map fun _ k l => f (.both k l)) (o.left.map fun _ k => f (.left k))
    (o.right.map fun _ l => f (.right l)) par s t

/-- A run of `transform_with_transfuted` whose closures are whatever the environment does. -/
def ATrie.twfAsk [BEq K] (hash : K → BitVec c.w) (o : TwfKinds R) (par : Par) (t : ATrie c K V) (u : ATrie c K W) :
    Prog (Case (K × V) (K × W)) (TwfAnswer K V W R) (ATrie c K V × R) :=
  ATrie.twfE reduce e hash (o.both.map fun _ k v l w => Prog.ask (A := TwfAnswer K V W R) (.both (k, v) (l, w)))
    (o.left.map fun _ k v => Prog.ask (A := TwfAnswer K V W R) (.left (k, v)))
    (o.right.map fun _ l w => Prog.ask (A := TwfAnswer K V W R) (.right (l, w))) par t u
/-- `transform_with_transfuted` with the functions `f` for closures. -/
def Trie.twfWith [BEq K] (hash : K → BitVec c.w) (o : TwfKinds R)
    (f : (p : Case (K × V) (K × W)) → TwfAnswer K V W R p) (par : Par) (t : Trie c K V) (u : Trie c K W) :
    Res (Trie c K V × R) :=
  Trie.twf reduce e hash (o.both.map fun _ k v l w => f (.both (k, v) (l, w))) (o.left.map fun _ k v => f (.left (k, v)))
    (o.right.map fun _ l w => f (.right (l, w))) par t u

/-- A run of `transfute_with_transformed` whose closures are whatever the environment does. -/
def ATrie.fwtAsk [BEq K] (hash : K → BitVec c.w) (o : FwtKinds R) (par : Par) (t : ATrie c K V) (u : ATrie c K W) :
    Prog (Case (K × V) (K × W)) (FwtAnswer K V W R) (ATrie c K W × R) :=
  ATrie.fwtE reduce e hash (o.both.map fun _ k v l w => Prog.ask (A := FwtAnswer K V W R) (.both (k, v) (l, w)))
    (o.left.map fun _ k v => Prog.ask (A := FwtAnswer K V W R) (.left (k, v)))
    (o.right.map fun _ l w => Prog.ask (A := FwtAnswer K V W R) (.right (l, w))) par t u
/-- `transfute_with_transformed` with the functions `f` for closures. -/
def Trie.fwtWith [BEq K] (hash : K → BitVec c.w) (o : FwtKinds R)
    (f : (p : Case (K × V) (K × W)) → FwtAnswer K V W R p) (par : Par) (t : Trie c K V) (u : Trie c K W) :
    Res (Trie c K W × R) :=
  Trie.fwt reduce e hash (o.both.map fun _ k v l w => f (.both (k, v) (l, w))) (o.left.map fun _ k v => f (.left (k, v)))
    (o.right.map fun _ l w => f (.right (l, w))) par t u

end

/-- Does the case call for a closure? -/
def STwmKinds.asks {A B : Type} (o : STwmKinds R) : Case A B → Bool
  | .left _ => o.left.isClosure
  | .right _ => o.right.isClosure
  | .both _ _ => o.both.isClosure
@[inherit_doc STwmKinds.asks]
def SMwtKinds.asks {A B : Type} (o : SMwtKinds R) : Case A B → Bool
  | .left _ => o.left.isClosure
  | .right _ => o.right.isClosure
  | .both _ _ => o.both.isClosure
@[inherit_doc STwmKinds.asks]
def SMwmKinds.asks {A B : Type} (o : SMwmKinds R) : Case A B → Bool
  | .left _ => o.left.isClosure
  | .right _ => o.right.isClosure
  | .both _ _ => o.both.isClosure
@[inherit_doc STwmKinds.asks]
def STwtKinds.asks {A B : Type} (o : STwtKinds R) : Case A B → Bool
  | .left _ => o.left.isClosure
  | .right _ => o.right.isClosure
  | .both _ _ => o.both.isClosure
@[inherit_doc STwmKinds.asks]
def TwfKinds.asks {A B : Type} (o : TwfKinds R) : Case A B → Bool
  | .left _ => o.left.isClosure
  | .right _ => o.right.isClosure
  | .both _ _ => o.both.isClosure
@[inherit_doc STwmKinds.asks]
def FwtKinds.asks {A B : Type} (o : FwtKinds R) : Case A B → Bool
  | .left _ => o.left.isClosure
  | .right _ => o.right.isClosure
  | .both _ _ => o.both.isClosure

/-- As `Outcome.Like`, of sets. -/
def Outcome.LikeSet {c : Cfg} {Q : Type} {A : Q → Type} {σ : Type}
    (run : Outcome Q (((AHSet c K × R) × Nat) × σ) × List (Reply Q A)) (res : Res (HSet c K × R)) : Prop :=
  match run.1 with
  | .ret a => res = .ok (a.1.1.1.erase, a.1.1.2)
  | .panic p => res = .panic p
  | .diverge => res = .diverge
  | .closure q => ∃ before, run.2 = before ++ [⟨q, none⟩]

end HT
