import Verif.BulkSpec
import Verif.Contract
import Verif.JointOps
/-!
# Specification vocabulary for the joint operations

A joint operation on two maps consults the user's operations once per *case*: an entry of the left map
without equal key on the right, an entry of the right map without equal key on the left, or a pair of
entries with equal keys.  Nothing here refers to nodes.
-/
namespace HT

variable {A B K V L W S X R : Type}

/-- An entry of the left map only, of the right map only, or of both. -/
inductive Case (A B : Type) where
  | left (a : A)
  | right (b : B)
  | both (a : A) (b : B)
  deriving DecidableEq, Repr

/-- Left and right exchanged. -/
def Case.flip : Case A B → Case B A
  | .left a => .right a
  | .right b => .left b
  | .both a b => .both b a

/-- The case described by what is found on the left and on the right. -/
def Case.of? : Option A → Option B → Option (Case A B)
  | none, none => none
  | some a, none => some (.left a)
  | none, some b => some (.right b)
  | some a, some b => some (.both a b)

/-- The cases of two lists of entries, where `eq a b` says that the keys are equal. -/
def jointCases (eq : A → B → Bool) (as : List A) (bs : List B) : List (Case A B) :=
  as.map (fun a => match bs.find? (eq a) with
    | some b => Case.both a b
    | none => Case.left a) ++
  (bs.filter fun b => !as.any fun a => eq a b).map Case.right

/-- The contract of `PartialEq` and hashing between the key types of two maps: `==` is one relation, seen
    from both sides, compatible with `==` on each side, and equal keys have equal hashes. -/
structure CrossLaws {c : Cfg} [BEq K] [BEq L] (x : Cross c K L) : Prop where
  left : KeyLaws x.hash
  right : KeyLaws x.hash'
  hash : ∀ k l, x.eq k l = true → x.hash k = x.hash' l
  sym : ∀ k l, x.eq' l k = x.eq k l
  congL : ∀ k k' l, (k == k') = true → x.eq k l = true → x.eq k' l = true
  congR : ∀ k l l', (l == l') = true → x.eq k l = true → x.eq k l' = true
  uniqL : ∀ k k' l, x.eq k l = true → x.eq k' l = true → (k == k') = true
  uniqR : ∀ k l l', x.eq k l = true → x.eq k l' = true → (l == l') = true

/-- The key comparison of two maps with the same key type. -/
def Cross.same {c : Cfg} [BEq K] (hash : K → BitVec c.w) : Cross c K K :=
  ⟨hash, hash, fun k l => k == l, fun l k => l == k⟩

/-- The cases of two maps' entries. -/
def Cross.cases {c : Cfg} (x : Cross c K L) (as : List (K × V)) (bs : List (L × W)) :
    List (Case (K × V) (L × W)) := jointCases (fun a b => x.eq a.1 b.1) as bs

/-- The left key of a case. -/
def Case.lkey? : Case (K × V) (L × W) → Option K
  | .left a => some a.1
  | .right _ => none
  | .both a _ => some a.1

/-- The right key of a case. -/
def Case.rkey? : Case (K × V) (L × W) → Option L
  | .left _ => none
  | .right b => some b.1
  | .both _ b => some b.1

/-- Two cases are about the same key. -/
def Overlap {c : Cfg} [BEq K] [BEq L] (x : Cross c K L) (p q : Case (K × V) (L × W)) : Prop :=
  (∃ k k', p.lkey? = some k ∧ q.lkey? = some k' ∧ (k == k') = true) ∨
  (∃ l l', p.rkey? = some l ∧ q.rkey? = some l' ∧ (l == l') = true) ∨
  (∃ k l, p.lkey? = some k ∧ q.rkey? = some l ∧ x.eq k l = true) ∨
  (∃ k l, q.lkey? = some k ∧ p.rkey? = some l ∧ x.eq k l = true)

/-- The pair of a case of both maps really has equal keys. -/
def Matched {c : Cfg} (x : Cross c K L) : Case (K × V) (L × W) → Prop
  | .both a b => x.eq a.1 b.1 = true
  | _ => True

/-- The hash of the key of a case. -/
def Cross.caseHash {c : Cfg} (x : Cross c K L) : Case (K × V) (L × W) → BitVec c.w
  | .left a => x.hash a.1
  | .right b => x.hash' b.1
  | .both a _ => x.hash a.1

/-! ### What the operations say about a case -/

/-- `transform_with_transmuted`: the entry of the result. -/
def TwmOps.out (o : TwmOps K V L W R) : Case (K × V) (L × W) → Option (K × V)
  | .left a => (o.left.closure a.1 a.2).entry a
  | .right b => (o.right.closure b.1 b.2).entry
  | .both a b => (o.both.closure2 a.1 a.2 b.1 b.2).entry a

/-- `transform_with_transmuted`: the contribution to the reduction. -/
def TwmOps.red (o : TwmOps K V L W R) : Case (K × V) (L × W) → R
  | .left a => (o.left.closure a.1 a.2).red
  | .right b => (o.right.closure b.1 b.2).red
  | .both a b => (o.both.closure2 a.1 a.2 b.1 b.2).red

/-- `transmute_with_transformed`: the entry of the result. -/
def MwtOps.out (o : MwtOps K V L W R) : Case (K × V) (L × W) → Option (L × W)
  | .left a => (o.left.closure a.1 a.2).entry
  | .right b => (o.right.closure b.1 b.2).entry b
  | .both a b => (o.both.closure2 a.1 a.2 b.1 b.2).entry b

/-- `transmute_with_transformed`: the contribution to the reduction. -/
def MwtOps.red (o : MwtOps K V L W R) : Case (K × V) (L × W) → R
  | .left a => (o.left.closure a.1 a.2).red
  | .right b => (o.right.closure b.1 b.2).red
  | .both a b => (o.both.closure2 a.1 a.2 b.1 b.2).red

/-- `transmute_with_transmuted`: the entry of the result. -/
def MwmOps.out (o : MwmOps K V L W S X R) : Case (K × V) (L × W) → Option (S × X)
  | .left a => (o.left.closure a.1 a.2).entry
  | .right b => (o.right.closure b.1 b.2).entry
  | .both a b => (o.both.closure2 a.1 a.2 b.1 b.2).entry

/-- `transmute_with_transmuted`: the contribution to the reduction. -/
def MwmOps.red (o : MwmOps K V L W S X R) : Case (K × V) (L × W) → R
  | .left a => (o.left.closure a.1 a.2).red
  | .right b => (o.right.closure b.1 b.2).red
  | .both a b => (o.both.closure2 a.1 a.2 b.1 b.2).red

/-- The contribution to the reduction. -/
def MapJointTransformResult.red : MapJointTransformResult V R → R
  | .unchangedLR r => r
  | .unchangedL r => r
  | .unchangedR r => r
  | .transformed _ r => r
  | .removed r => r

/-- What may become of a pair of entries when the operation answers so: the two keys are equal, and the
    result may be stored under either. -/
def MapJointTransformResult.Entry (a b : K × V) : MapJointTransformResult V R → Option (K × V) → Prop
  | .unchangedLR _, o => o = some a ∨ o = some b
  | .unchangedL _, o => o = some a
  | .unchangedR _, o => o = some b
  | .transformed v _, o => o = some (a.1, v) ∨ o = some (b.1, v)
  | .removed _, o => o = none

/-- The same for `UnchangedL`/`UnchangedR` given as bulk operations, which the code confuses
    (`C22_wrong_side`). -/
def MapJointTransform.Entry
    (op : MapJointTransform R (K → V → K → V → MapJointTransformResult V R)) (a b : K × V)
    (o : Option (K × V)) : Prop :=
  match op with
  | .generic _ _ => (op.closure a.1 a.2 b.1 b.2).Entry a b o
  | .removed _ => o = none
  | _ => o = some a ∨ o = some b

/-- `transform_with_transformed`: the possible entries of the result. -/
def TwtOps.Out (o : TwtOps K V R) : Case (K × V) (K × V) → Option (K × V) → Prop
  | .left a, e => e = (o.left.closure a.1 a.2).entry a
  | .right b, e => e = (o.right.closure b.1 b.2).entry b
  | .both a b, e => o.both.Entry a b e

/-- `transform_with_transformed`: the contribution to the reduction. -/
def TwtOps.red (o : TwtOps K V R) : Case (K × V) (K × V) → R
  | .left a => (o.left.closure a.1 a.2).red
  | .right b => (o.right.closure b.1 b.2).red
  | .both a b => (o.both.closure a.1 a.2 b.1 b.2).red

/-! ### Contracts of the unsafe operations -/

/-- A transmuted right entry is stored under a key equal to its own. -/
def TwmOps.Contract {c : Cfg} (x : Cross c K L) (o : TwmOps K V L W R) : Prop :=
  ∀ l w k v r, o.right.closure l w = .transmuted k v r → x.eq k l = true

/-- A transmuted left entry is stored under a key equal to its own. -/
def MwtOps.Contract {c : Cfg} (x : Cross c K L) (o : MwtOps K V L W R) : Prop :=
  ∀ k v l w r, o.left.closure k v = .transmuted l w r → x.eq k l = true

/-- Entries are stored under keys with the hash of the case's key, and cases about different keys yield
    different keys. -/
structure MwmOps.Contract {c : Cfg} [BEq K] [BEq L] [BEq S] (x : Cross c K L) (hash : S → BitVec c.w)
    (o : MwmOps K V L W S X R) : Prop where
  hash : ∀ p e, Matched x p → o.out p = some e → hash e.1 = x.caseHash p
  inj : ∀ p q e e', Matched x p → Matched x q → o.out p = some e → o.out q = some e' →
    (e.1 == e'.1) = true → Overlap x p q

/-! ### Reductions -/

/-- `reduce` with default `e` is a commutative monoid. -/
structure CMon (reduce : R → R → R) (e : R) : Prop extends Mon reduce e where
  comm : ∀ x y, reduce x y = reduce y x

/-- All operations are closures, or bulk operations contributing the default. -/
def TwmOps.Neutral (e : R) (o : TwmOps K V L W R) : Prop :=
  o.both.Neutral e ∧ o.left.Neutral e ∧ o.right.Neutral e
@[inherit_doc TwmOps.Neutral]
def MwtOps.Neutral (e : R) (o : MwtOps K V L W R) : Prop :=
  o.both.Neutral e ∧ o.left.Neutral e ∧ o.right.Neutral e
@[inherit_doc TwmOps.Neutral]
def MwmOps.Neutral (e : R) (o : MwmOps K V L W S X R) : Prop :=
  o.both.Neutral e ∧ o.left.Neutral e ∧ o.right.Neutral e
@[inherit_doc TwmOps.Neutral]
def TwtOps.Neutral (e : R) (o : TwtOps K V R) : Prop :=
  o.both.Neutral e ∧ o.left.Neutral e ∧ o.right.Neutral e

/-! ### Collisions -/

/-- How many of the entries have a key hashing to `h`. -/
def collisions {w : Nat} (hash : K → BitVec w) (l : List (K × V)) (h : BitVec w) : Nat :=
  l.countP fun e => hash e.1 == h

/-- No hash is shared by two keys on the left and three keys on the right. -/
def NoStall {c : Cfg} (x : Cross c K L) (as : List (K × V)) (bs : List (L × W)) : Prop :=
  ∀ h, 2 ≤ collisions x.hash as h → collisions x.hash' bs h ≤ 2

/-- Some hash is shared by three keys on the left and three keys on the right. -/
def Clash {c : Cfg} (x : Cross c K L) (as : List (K × V)) (bs : List (L × W)) : Prop :=
  ∃ h, 3 ≤ collisions x.hash as h ∧ 3 ≤ collisions x.hash' bs h

/-- No two keys share a hash. -/
def NoCollision {w : Nat} (hash : K → BitVec w) (l : List (K × V)) : Prop :=
  ∀ h, collisions hash l h ≤ 1

/-- Keys that share their hash with another key of the same map share it with no key of the other map. -/
def Apart {w : Nat} (hash : K → BitVec w) (as bs : List (K × V)) : Prop :=
  ∀ h, collisions hash as h ≤ 1 ∧ collisions hash bs h ≤ 1 ∨ collisions hash as h = 0 ∨ collisions hash bs h = 0

/-- The entries whose keys hash to `h`. -/
def withHash {w : Nat} (hash : K → BitVec w) (l : List (K × V)) (h : BitVec w) : List (K × V) :=
  l.filter fun e => hash e.1 == h

/-- No pair of entries with equal keys is answered with `UnchangedR`. -/
def TwtOps.NoR [BEq K] (o : TwtOps K V R) (as bs : List (K × V)) : Prop :=
  ∀ a ∈ as, ∀ b ∈ bs, (a.1 == b.1) = true → ∀ r, o.both.closure a.1 a.2 b.1 b.2 ≠ .unchangedR r

/-- No entry is answered with `Unchanged`. -/
def MapTransform.NoKeep (op : MapTransform R (K → V → MapTransformResult V R)) (l : List (K × V)) : Prop :=
  ∀ a ∈ l, ∀ r, op.closure a.1 a.2 ≠ .unchanged r

/-- No entry is answered with `Removed`. -/
def MapTransform.NoDrop (op : MapTransform R (K → V → MapTransformResult V R)) (l : List (K × V)) : Prop :=
  ∀ a ∈ l, ∀ r, op.closure a.1 a.2 ≠ .removed r

/-- Answers that the code executes correctly for several entries `as` on one side and a single entry `bs`
    on the other, all with the same hash, in whatever order the colliding entries are stored:
    if both sides hold the key, and the pair is answered `UnchangedR`, then no other entry of `as` is kept as it is;
    if the entry of `bs` has no counterpart, and is kept as it is, then the entries of `as` are not partly kept as
    they are and partly removed. -/
structure TwtOps.TameOne [BEq K] (o : TwtOps K V R) (as bs : List (K × V)) : Prop where
  hit : ∀ b ∈ bs, ∀ a ∈ as, (a.1 == b.1) = true → ∀ r, o.both.closure a.1 a.2 b.1 b.2 = .unchangedR r →
    ∀ a' ∈ as, (a'.1 == b.1) = false → ∀ r', o.left.closure a'.1 a'.2 ≠ .unchanged r'
  miss : ∀ b ∈ bs, (∀ a ∈ as, (a.1 == b.1) = false) → ∀ r, o.right.closure b.1 b.2 = .unchanged r →
    o.left.NoKeep as ∨ o.left.NoDrop as

/-- Answers that the code executes correctly for entries `as` on the left and `bs` on the right that all
    have the same hash.  Nothing is required when there is at most one entry on each side. -/
structure TwtOps.TameAt [BEq K] (o : TwtOps K V R) (as bs : List (K × V)) : Prop where
  left : 2 ≤ as.length → bs.length = 1 → o.TameOne as bs
  right : as.length = 1 → 2 ≤ bs.length → o.flip.TameOne bs as
  both : 2 ≤ as.length → 2 ≤ bs.length → o.NoR as bs ∧ o.flip.NoR bs as

/-- The answers are tame for each hash. -/
def TwtOps.Tame [BEq K] {w : Nat} (o : TwtOps K V R) (hash : K → BitVec w) (as bs : List (K × V)) : Prop :=
  ∀ h, o.TameAt (withHash hash as h) (withHash hash bs h)

/-- `l` lists a right result of `transform_with_transformed` for the entries `as` and `bs`: for each case (an entry
    alone, or a pair with equal keys) one of the outcomes its answer allows, and nothing else. -/
def TwtOps.Right [BEq K] (o : TwtOps K V R) (as bs l : List (K × V)) : Prop :=
  ∃ ps : List (Case (K × V) (K × V) × Option (K × V)),
    (ps.map Prod.fst).Perm (jointCases (fun a b => a.1 == b.1) as bs) ∧ (∀ p ∈ ps, o.Out p.1 p.2) ∧
    l.Perm (ps.filterMap Prod.snd)

end HT
