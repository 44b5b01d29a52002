import Verif.SetSpec
/-!
# Expressions over sets, and maps laid over one another

What a program computes that combines several sets by nested calls of `transform_with_transformed`
(`/repo/examples/set_xor.rs` is one such call), and one that merges a sequence of maps.
-/
namespace HT
variable {K V R : Type} {c : Cfg}

/-- The four operations of set algebra. -/
inductive SetAlgebra where
  | union
  | intersection
  | difference
  | symmetricDifference
  deriving DecidableEq

/-- What they mean for a key that is (or is not) in the left and in the right set. -/
def SetAlgebra.means (left right : Prop) : SetAlgebra → Prop
  | .union => left ∨ right
  | .intersection => left ∧ right
  | .difference => left ∧ ¬ right
  | .symmetricDifference => ¬ (left ↔ right)

/-- The arguments of one call: what to do with keys in both sets, only in the left one, only in the right one, and the
    parallelism strategy. -/
structure SetCall (K R : Type) where
  both : SetJointTransform R (K → K → SetJointTransformResult R)
  left : SetTransform R (K → SetTransformResult R)
  right : SetTransform R (K → SetTransformResult R)
  par : Par

/-- The arguments perform the operation: they keep and remove everything they should. -/
def SetCall.Performs (call : SetCall K R) : SetAlgebra → Prop
  | .union => call.both.KeepsAll ∧ call.left.KeepsAll ∧ call.right.KeepsAll
  | .intersection => call.both.KeepsAll ∧ call.left.DropsAll ∧ call.right.DropsAll
  | .difference => call.both.DropsAll ∧ call.left.KeepsAll ∧ call.right.DropsAll
  | .symmetricDifference => call.both.DropsAll ∧ call.left.KeepsAll ∧ call.right.KeepsAll

/-- An expression: a variable, or an operation on two expressions together with the arguments with which to perform it. -/
inductive SetExpr (K R : Type) where
  | var (i : Nat)
  | op (o : SetAlgebra) (call : SetCall K R) (a b : SetExpr K R)

/-- All arguments are suitable. -/
def SetExpr.Proper : SetExpr K R → Prop
  | .var _ => True
  | .op o call a b => call.Performs o ∧ a.Proper ∧ b.Proper

/-- Which keys the expression denotes: `has i` says that the key is in the `i`-th set. -/
def SetExpr.means (has : Nat → Prop) : SetExpr K R → Prop
  | .var i => has i
  | .op o _ a b => o.means (a.means has) (b.means has)

/-- The nested calls. -/
def SetExpr.eval [BEq K] (reduce : R → R → R) (e : R) (hash : K → BitVec c.w) (sets : Nat → HSet c K) :
    SetExpr K R → Res (HSet c K)
  | .var i => .ok (sets i)
  | .op _ call a b => do
    let s ← a.eval reduce e hash sets
    let t ← b.eval reduce e hash sets
    let (s', _) ← HSet.twt reduce e hash call.both call.left call.right call.par s t
    .ok s'

/-- The arguments of a merge in which the entries of the right map win. -/
def overrideOps (rb rl rr : R) : TwtOps K V R :=
  ⟨.generic (fun _ _ _ w => .transformed w rb) false, .unchanged rl, .unchanged rr⟩

/-- Maps laid one over another, the later ones over the earlier ones. -/
def Trie.layers [BEq K] (reduce : R → R → R) (e : R) (hash : K → BitVec c.w) (rb rl rr : R) (par : Par) :
    Trie c K V → List (Trie c K V) → Res (Trie c K V)
  | t, [] => .ok t
  | t, u :: us => do
    let (t', _) ← Trie.twt reduce e hash (overrideOps rb rl rr) par t u
    layers reduce e hash rb rl rr par t' us

end HT
