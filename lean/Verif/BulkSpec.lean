import Verif.Ops
/-!
# Specification vocabulary for the bulk operations

What the answer of a user's operation means for an entry, and what a reduction is.  Nothing here
refers to nodes.
-/
namespace HT

variable {K V L W S X R A : Type}

/-! ### What an operation answers

`Generic` operations answer what the closure answers; bulk operations answer the same for every entry
(documentation of the enums, `/repo/src/transformations.rs:146-156` and the like).  These definitions do not refer to
the functions of the model that call operations; the lemmas `closure_eq` connect the two. -/

/-- The closure that answers every entry as the operation does. -/
def MapTransform.closure : MapTransform R (K → V → MapTransformResult V R) → K → V → MapTransformResult V R
  | .generic f => f
  | .unchanged r => fun _ _ => .unchanged r
  | .removed r => fun _ _ => .removed r

/-- The closure that answers every pair of entries as the operation does. -/
def MapTransform.closure2 :
    MapTransform R (K → V → L → W → MapTransformResult A R) → K → V → L → W → MapTransformResult A R
  | .generic f => f
  | .unchanged r => fun _ _ _ _ => .unchanged r
  | .removed r => fun _ _ _ _ => .removed r

@[inherit_doc MapTransform.closure]
def MapTransmute.closure : MapTransmute R (K → V → MapTransmuteResult S X R) → K → V → MapTransmuteResult S X R
  | .generic f => f
  | .removed r => fun _ _ => .removed r

@[inherit_doc MapTransform.closure2]
def MapTransmute.closure2 :
    MapTransmute R (K → V → L → W → MapTransmuteResult S X R) → K → V → L → W → MapTransmuteResult S X R
  | .generic f => f
  | .removed r => fun _ _ _ _ => .removed r

@[inherit_doc MapTransform.closure2]
def MapJointTransform.closure :
    MapJointTransform R (K → V → K → V → MapJointTransformResult V R) → K → V → K → V → MapJointTransformResult V R
  | .generic f false => f
  | .generic f true => fun k v l w => match f l w k v with
    | .unchangedLR r => .unchangedLR r
    | .unchangedL r => .unchangedR r
    | .unchangedR r => .unchangedL r
    | .transformed y r => .transformed y r
    | .removed r => .removed r
  | .unchangedLR r => fun _ _ _ _ => .unchangedLR r
  | .unchangedL r => fun _ _ _ _ => .unchangedL r
  | .unchangedR r => fun _ _ _ _ => .unchangedR r
  | .removed r => fun _ _ _ _ => .removed r

theorem MapTransform.closure_eq (op : MapTransform R (K → V → MapTransformResult V R)) : op.closure = op.call := by
  funext k v; cases op <;> rfl

theorem MapTransform.closure2_eq (op : MapTransform R (K → V → L → W → MapTransformResult A R)) :
    op.closure2 = op.call2 := by
  funext k v l w; cases op <;> rfl

theorem MapTransmute.closure_eq (op : MapTransmute R (K → V → MapTransmuteResult S X R)) : op.closure = op.call := by
  funext k v; cases op <;> rfl

theorem MapTransmute.closure2_eq (op : MapTransmute R (K → V → L → W → MapTransmuteResult S X R)) :
    op.closure2 = op.call2 := by
  funext k v l w; cases op <;> rfl

theorem MapJointTransform.closure_eq (op : MapJointTransform R (K → V → K → V → MapJointTransformResult V R)) :
    op.closure = op.call := by
  funext k v l w
  cases op with
  | generic f fl =>
    cases fl with
    | false => rfl
    | true => simp only [closure, call, if_true]; cases f l w k v <;> rfl
  | _ => rfl

/-- `rfl`, up to `closure_eq`. -/
macro "crfl" : tactic => `(tactic| first
  | rfl
  | (simp only [← MapTransform.closure_eq, ← MapTransform.closure2_eq, ← MapTransmute.closure_eq,
      ← MapTransmute.closure2_eq, ← MapJointTransform.closure_eq]; rfl))

/-! ### What an answer means -/

/-- What becomes of entry `e` when the operation answers so. -/
def MapTransformResult.entry (e : K × V) : MapTransformResult V R → Option (K × V)
  | .unchanged _ => some e
  | .transformed v _ => some (e.1, v)
  | .removed _ => none

/-- The contribution to the reduction. -/
def MapTransformResult.red : MapTransformResult V R → R
  | .unchanged r => r
  | .transformed _ r => r
  | .removed r => r

/-- The entry produced. -/
def MapTransmuteResult.entry : MapTransmuteResult S X R → Option (S × X)
  | .transmuted k v _ => some (k, v)
  | .removed _ => none

/-- The contribution to the reduction. -/
def MapTransmuteResult.red : MapTransmuteResult S X R → R
  | .transmuted _ _ r => r
  | .removed r => r

/-- `reduce` with default `e` is a monoid. -/
structure Mon (reduce : R → R → R) (e : R) : Prop where
  assoc : ∀ x y z, reduce (reduce x y) z = reduce x (reduce y z)
  left : ∀ x, reduce e x = x
  right : ∀ x, reduce x e = x

/-- Reduction of a list of contributions from the left, starting with the default. -/
def total (reduce : R → R → R) (e : R) (rs : List R) : R := rs.foldl reduce e

/-- The operation is a closure, or a bulk operation whose contribution is the default. -/
def MapTransform.Neutral {F : Type} (e : R) : MapTransform R F → Prop
  | .generic _ => True
  | .unchanged r => r = e
  | .removed r => r = e

/-- The operation is a closure, or a bulk operation whose contribution is the default. -/
def MapTransmute.Neutral {F : Type} (e : R) : MapTransmute R F → Prop
  | .generic _ => True
  | .removed r => r = e

/-- The operation is a closure, or a bulk operation whose contribution is the default. -/
def MapJointTransform.Neutral {F : Type} (e : R) : MapJointTransform R F → Prop
  | .generic _ _ => True
  | .unchangedLR r => r = e
  | .unchangedL r => r = e
  | .unchangedR r => r = e
  | .removed r => r = e

/-- The unsafe contract of a transmutation: the new key hashes like the old one, and different keys
    do not become equal. -/
structure KeyMap {w : Nat} [BEq K] [BEq S] (hash : K → BitVec w) (hash' : S → BitVec w)
    (f : K → V → MapTransmuteResult S X R) : Prop where
  hash : ∀ k v k' v' r, f k v = .transmuted k' v' r → hash' k' = hash k
  inj : ∀ k v k' v' r l w l' w' s, f k v = .transmuted k' v' r → f l w = .transmuted l' w' s →
    (k' == l') = true → (k == l) = true

end HT
