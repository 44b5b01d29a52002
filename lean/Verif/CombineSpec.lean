import Verif.JointSpec
/-!
# What reductions are, when `reduce_op` has no laws

`Combines reduce e l r`: `r` is made from the members of `l`, each used once and in this order, and copies of
`e`, by `reduce`, bracketed in some way.
-/
namespace HT

/-- `r` is a bracketing of `l`, with copies of `e` put in anywhere. -/
inductive Combines {R : Type} (reduce : R → R → R) (e : R) : List R → R → Prop
  | none : Combines reduce e [] e
  | one (r : R) : Combines reduce e [r] r
  | both {l l' : List R} {r r' : R} : Combines reduce e l r → Combines reduce e l' r' →
      Combines reduce e (l ++ l') (reduce r r')

variable {K V L W S X R : Type}

/-- What a closure contributes when called with an entry; a bulk operation is not called. -/
def MapTransform.said : MapTransform R (K → V → MapTransformResult V R) → K → V → List R
  | .generic f, k, v => [(f k v).red]
  | _, _, _ => []
@[inherit_doc MapTransform.said]
def MapTransform.said2 {A : Type} : MapTransform R (K → V → L → W → MapTransformResult A R) → K → V → L → W → List R
  | .generic f, k, v, l, w => [(f k v l w).red]
  | _, _, _, _, _ => []
@[inherit_doc MapTransform.said]
def MapTransmute.said : MapTransmute R (K → V → MapTransmuteResult S X R) → K → V → List R
  | .generic f, k, v => [(f k v).red]
  | _, _, _ => []
@[inherit_doc MapTransform.said]
def MapTransmute.said2 : MapTransmute R (K → V → L → W → MapTransmuteResult S X R) → K → V → L → W → List R
  | .generic f, k, v, l, w => [(f k v l w).red]
  | _, _, _, _, _ => []
@[inherit_doc MapTransform.said]
def MapJointTransform.said : MapJointTransform R (K → V → K → V → MapJointTransformResult V R) → K → V → K → V → List R
  | .generic f false, k, v, l, w => [(f k v l w).red]
  | .generic f true, k, v, l, w => [(f l w k v).red]
  | _, _, _, _, _ => []

variable (P : R → Prop)

/-- Everything the operation contributes to the reduction is `P`: what its closure contributes, whatever it is called
    with, or the contribution of the bulk operation. -/
def MapTransform.Gives : MapTransform R (K → V → MapTransformResult V R) → Prop
  | .generic f => ∀ k v, P (f k v).red
  | .unchanged r => P r
  | .removed r => P r
@[inherit_doc MapTransform.Gives]
def MapTransform.Gives2 {A : Type} : MapTransform R (K → V → L → W → MapTransformResult A R) → Prop
  | .generic f => ∀ k v l w, P (f k v l w).red
  | .unchanged r => P r
  | .removed r => P r
@[inherit_doc MapTransform.Gives]
def MapTransmute.Gives : MapTransmute R (K → V → MapTransmuteResult S X R) → Prop
  | .generic f => ∀ k v, P (f k v).red
  | .removed r => P r
@[inherit_doc MapTransform.Gives]
def MapTransmute.Gives2 : MapTransmute R (K → V → L → W → MapTransmuteResult S X R) → Prop
  | .generic f => ∀ k v l w, P (f k v l w).red
  | .removed r => P r
@[inherit_doc MapTransform.Gives]
def MapJointTransform.Gives : MapJointTransform R (K → V → K → V → MapJointTransformResult V R) → Prop
  | .generic f _ => ∀ k v l w, P (f k v l w).red
  | .unchangedLR r => P r
  | .unchangedL r => P r
  | .unchangedR r => P r
  | .removed r => P r

end HT
