import Verif.Spec
import Verif.Api
import Verif.JointSpec
/-!
# Specification of sets

A finite set with distinguishable equal keys: the list of its keys, one per class of equal keys.
-/
namespace HT

/-- A finite set: the list of its keys (in no particular order). -/
abbrev ASet (K : Type) := List K

/-- One call of the set API; `src` is the index of the version it is applied to. -/
inductive SOp (K : Type) where
  | insert (src : Nat) (k : K) (replace : Bool)
  | remove (src : Nat) (k : K)
  | find (src : Nat) (k : K)
  | size (src : Nat)
  | visit (src : Nat)

/-- What the caller sees. -/
inductive SOut (K : Type) where
  /-- insert succeeded; the key the returned pointer denotes and the displaced key -/
  | inserted (ptr : K) (prev : Option K)
  /-- insert was refused -/
  | occupied (k : K)
  | removed (k : K)
  | found (k : K)
  | notFound
  | size (n : Nat)
  /-- the callback calls, in order -/
  | visited (ks : List K)
  /-- the call names a version that does not exist -/
  | noSuchVersion
  deriving DecidableEq

/-- The same answer, up to the order in which `visit` reports keys. -/
def SOut.Same {K : Type} : SOut K → SOut K → Prop
  | .visited ks, .visited ks' => ks.Perm ks'
  | a, b => a = b

namespace ASet
variable {K : Type} [BEq K]

/-- One call on abstract sets: the answer and the new list of versions. -/
def step (vs : List (ASet K)) : SOp K → SOut K × List (ASet K)
  | .insert src k replace =>
    match vs[src]? with
    | none => (.noSuchVersion, vs)
    | some s => match List.find? (fun x => x == k) s, replace with
      | some x, false => (.occupied x, vs)
      | prev, _ => (.inserted k prev, vs ++ [k :: List.filter (fun x => !(x == k)) s])
  | .remove src k =>
    match vs[src]? with
    | none => (.noSuchVersion, vs)
    | some s => match List.find? (fun x => x == k) s with
      | none => (.notFound, vs)
      | some x => (.removed x, vs ++ [List.filter (fun x => !(x == k)) s])
  | .find src k =>
    match vs[src]? with
    | none => (.noSuchVersion, vs)
    | some s => match List.find? (fun x => x == k) s with
      | none => (.notFound, vs)
      | some x => (.found x, vs)
  | .size src =>
    match vs[src]? with
    | none => (.noSuchVersion, vs)
    | some s => (.size (List.length s), vs)
  | .visit src =>
    match vs[src]? with
    | none => (.noSuchVersion, vs)
    | some s => (.visited s, vs)

/-- A whole history. -/
def run (vs : List (ASet K)) : List (SOp K) → List (SOut K) × List (ASet K)
  | [] => ([], vs)
  | op :: ops =>
    let r := step vs op
    let r' := run r.2 ops
    (r.1 :: r'.1, r'.2)

end ASet

/-! ### Answers of operations on sets -/

section
variable {K L S R : Type}

/-- The closure that answers every key as the operation does (as `MapTransform.closure`). -/
def SetTransform.closure : SetTransform R (K → SetTransformResult R) → K → SetTransformResult R
  | .generic f => f
  | .unchanged r => fun _ => .unchanged r
  | .removed r => fun _ => .removed r

/-- The closure that answers every pair of keys as the operation does. -/
def SetTransform.closure2 : SetTransform R (K → L → SetTransformResult R) → K → L → SetTransformResult R
  | .generic f => f
  | .unchanged r => fun _ _ => .unchanged r
  | .removed r => fun _ _ => .removed r

@[inherit_doc SetTransform.closure]
def SetTransmute.closure : SetTransmute R (K → SetTransmuteResult S R) → K → SetTransmuteResult S R
  | .generic f => f
  | .removed r => fun _ => .removed r

@[inherit_doc SetTransform.closure2]
def SetTransmute.closure2 : SetTransmute R (K → L → SetTransmuteResult S R) → K → L → SetTransmuteResult S R
  | .generic f => f
  | .removed r => fun _ _ => .removed r

@[inherit_doc SetTransform.closure2]
def SetJointTransform.closure :
    SetJointTransform R (K → K → SetJointTransformResult R) → K → K → SetJointTransformResult R
  | .generic f false => f
  | .generic f true => fun k l => match f l k with
    | .unchangedLR r => .unchangedLR r
    | .unchangedL r => .unchangedR r
    | .unchangedR r => .unchangedL r
    | .removed r => .removed r
  | .unchangedLR r => fun _ _ => .unchangedLR r
  | .unchangedL r => fun _ _ => .unchangedL r
  | .unchangedR r => fun _ _ => .unchangedR r
  | .removed r => fun _ _ => .removed r

theorem SetTransform.closure_eq (op : SetTransform R (K → SetTransformResult R)) : op.closure = op.call := by
  funext k; cases op <;> rfl

theorem SetTransform.closure2_eq (op : SetTransform R (K → L → SetTransformResult R)) : op.closure2 = op.call2 := by
  funext k l; cases op <;> rfl

theorem SetTransmute.closure_eq (op : SetTransmute R (K → SetTransmuteResult S R)) : op.closure = op.call := by
  funext k; cases op <;> rfl

theorem SetTransmute.closure2_eq (op : SetTransmute R (K → L → SetTransmuteResult S R)) :
    op.closure2 = op.call2 := by
  funext k l; cases op <;> rfl

theorem SetJointTransform.closure_eq (op : SetJointTransform R (K → K → SetJointTransformResult R)) :
    op.closure = op.call := by
  funext k l
  cases op with
  | generic f fl =>
    cases fl with
    | false => rfl
    | true => simp only [closure, call, if_true]; cases f l k <;> rfl
  | _ => rfl

/-- Whether the key is kept. -/
def SetTransformResult.keep : SetTransformResult R → Bool
  | .unchanged _ => true
  | .removed _ => false

/-- The contribution to the reduction. -/
def SetTransformResult.red : SetTransformResult R → R
  | .unchanged r => r
  | .removed r => r

/-- The key produced. -/
def SetTransmuteResult.key? : SetTransmuteResult S R → Option S
  | .transmuted k _ => some k
  | .removed _ => none

/-- The contribution to the reduction. -/
def SetTransmuteResult.red : SetTransmuteResult S R → R
  | .transmuted _ r => r
  | .removed r => r

/-- What may become of a pair of equal keys. -/
def SetJointTransformResult.Key (a b : K) : SetJointTransformResult R → Option K → Prop
  | .unchangedLR _, o => o = some a ∨ o = some b
  | .unchangedL _, o => o = some a
  | .unchangedR _, o => o = some b
  | .removed _, o => o = none

/-- The same for an operation; of `UnchangedL`/`UnchangedR` given as bulk operations only that one of the keys
    is kept (`C22_wrong_side`). -/
def SetJointTransform.Key (op : SetJointTransform R (K → K → SetJointTransformResult R)) (a b : K)
    (o : Option K) : Prop :=
  match op with
  | .generic _ _ => (op.closure a b).Key a b o
  | .removed _ => o = none
  | _ => o = some a ∨ o = some b

/-- Lookup with a key of another type (`HashTrieSet::find::<L>`, `/repo/src/set.rs:86-88`). -/
def HSet.findAcross {c : Cfg} (x : Cross c K L) (t : HSet c L) (k : K) : Res (Option L) :=
  t.findQ (fun l => x.eq' l k) (x.hash k)

/-- `find(&k)` finds a key. -/
def HSet.Has {c : Cfg} [BEq K] (hash : K → BitVec c.w) (s : HSet c K) (k : K) : Prop :=
  ∃ a, s.find hash k = .ok (some a)

/-- Every key is kept. -/
def SetTransform.KeepsAll (op : SetTransform R (K → SetTransformResult R)) : Prop :=
  ∀ k, ∃ r, op.closure k = .unchanged r

/-- Every key is removed. -/
def SetTransform.DropsAll (op : SetTransform R (K → SetTransformResult R)) : Prop :=
  ∀ k, ∃ r, op.closure k = .removed r

/-- Every pair of equal keys is answered with `UnchangedLR`, or the operation is the bulk `UnchangedL`. -/
def SetJointTransform.KeepsAll (op : SetJointTransform R (K → K → SetJointTransformResult R)) : Prop :=
  (∀ a b, ∃ r, op.closure a b = .unchangedLR r) ∨ ∃ r, op = .unchangedL r

/-- Every pair of equal keys is removed. -/
def SetJointTransform.DropsAll (op : SetJointTransform R (K → K → SetJointTransformResult R)) : Prop :=
  ∀ a b, ∃ r, op.closure a b = .removed r

/-! ### Contracts of the unsafe operations -/

/-- A transmuted key hashes like the old one, and different keys do not become equal. -/
structure SetTransmute.KeyMap {w : Nat} [BEq K] [BEq S] (hash : K → BitVec w) (hash' : S → BitVec w)
    (op : SetTransmute R (K → SetTransmuteResult S R)) : Prop where
  hash : ∀ k k' r, op.closure k = .transmuted k' r → hash' k' = hash k
  inj : ∀ k k' r l l' s, op.closure k = .transmuted k' r → op.closure l = .transmuted l' s →
    (k' == l') = true → (k == l) = true

/-- A transmuted right key equals the original (`transform_with_transmuted`). -/
def SetTransmute.Right {c : Cfg} (x : Cross c K L) (op : SetTransmute R (L → SetTransmuteResult K R)) : Prop :=
  ∀ l k r, op.closure l = .transmuted k r → x.eq k l = true

/-- A transmuted left key equals the original (`transmute_with_transformed`). -/
def SetTransmute.Left {c : Cfg} (x : Cross c K L) (op : SetTransmute R (K → SetTransmuteResult L R)) : Prop :=
  ∀ k l r, op.closure k = .transmuted l r → x.eq k l = true

/-- The key produced for a key of the left set, of the right set, or of both (`transmute_with_transmuted`). -/
def setOut (both : SetTransmute R (K → L → SetTransmuteResult S R)) (left : SetTransmute R (K → SetTransmuteResult S R))
    (right : SetTransmute R (L → SetTransmuteResult S R)) : Case K L → Option S
  | .left k => (left.closure k).key?
  | .right l => (right.closure l).key?
  | .both k l => (both.closure2 k l).key?

/-- A key as an entry of a map with values `()`. -/
def Case.unit : Case K L → Case (K × Unit) (L × Unit)
  | .left k => .left (k, ())
  | .right l => .right (l, ())
  | .both k l => .both (k, ()) (l, ())

/-- Keys produced have the hash of the key they come from, and different keys yield different keys. -/
structure SetMwmContract {c : Cfg} [BEq K] [BEq L] [BEq S] (x : Cross c K L) (hash : S → BitVec c.w)
    (both : SetTransmute R (K → L → SetTransmuteResult S R)) (left : SetTransmute R (K → SetTransmuteResult S R))
    (right : SetTransmute R (L → SetTransmuteResult S R)) : Prop where
  hash : ∀ p s, Matched x p.unit → setOut both left right p = some s → hash s = x.caseHash p.unit
  inj : ∀ p q s s', Matched x p.unit → Matched x q.unit → setOut both left right p = some s →
    setOut both left right q = some s' → (s == s') = true → Overlap x p.unit q.unit

end

end HT
