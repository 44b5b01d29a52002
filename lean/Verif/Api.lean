import Verif.JointNode
/-!
# The public types (`/repo/src/set.rs`, `/repo/src/map.rs`) and the operations on sets

`HashTrieMap` (`/repo/src/map.rs:60-62`) is a wrapper of `HashTrie`: except for the two "transfute" functions
below, each of its functions forwards its arguments unchanged, so `Trie` models it.  `HashTrieSet`
wraps a `HashTrie` with values `()` and converts operations and results.
-/
namespace HT

variable {K V L W S X R : Type} {c : Cfg}

/-! ### Answers and operations for sets -/

/-- `enum SetTransformResult` (`/repo/src/results.rs:112-119`). -/
inductive SetTransformResult (R : Type) where
  | unchanged (r : R)
  | removed (r : R)
  deriving DecidableEq, Repr

/-- `enum SetJointTransformResult` (`/repo/src/results.rs:121-132`). -/
inductive SetJointTransformResult (R : Type) where
  | unchangedLR (r : R)
  | unchangedL (r : R)
  | unchangedR (r : R)
  | removed (r : R)
  deriving DecidableEq, Repr

/-- `SetJointTransformResult::flip` (`/repo/src/results.rs:134-143`). -/
def SetJointTransformResult.flip : SetJointTransformResult R → SetJointTransformResult R
  | .unchangedLR r => .unchangedLR r
  | .unchangedL r => .unchangedR r
  | .unchangedR r => .unchangedL r
  | .removed r => .removed r

/-- `enum SetTransmuteResult` (`/repo/src/results.rs:145-152`).  Also used with a value in place of the key
    by the transfute functions. -/
inductive SetTransmuteResult (K R : Type) where
  | transmuted (k : K) (r : R)
  | removed (r : R)
  deriving DecidableEq, Repr

/-- `impl From<SetTransformResult> for MapTransformResult` (`/repo/src/results.rs:165-172`); also the match at
    `/repo/src/set.rs:121-124`. -/
def SetTransformResult.toMap : SetTransformResult R → MapTransformResult V R
  | .unchanged r => .unchanged r
  | .removed r => .removed r

/-- `impl From<SetJointTransformResult> for MapJointTransformResult` (`/repo/src/results.rs:201-210`). -/
def SetJointTransformResult.toMap : SetJointTransformResult R → MapJointTransformResult V R
  | .unchangedLR r => .unchangedLR r
  | .unchangedL r => .unchangedL r
  | .unchangedR r => .unchangedR r
  | .removed r => .removed r

/-- The matches at `/repo/src/set.rs:144-147`, 209-212, 237-240, 273-276, 278-281, 285-288. -/
def SetTransmuteResult.toMap : SetTransmuteResult K R → MapTransmuteResult K Unit R
  | .transmuted k r => .transmuted k () r
  | .removed r => .removed r

/-- `enum SetTransform` (`/repo/src/transformations.rs:266-274`). -/
inductive SetTransform (R F : Type) where
  | generic (f : F)
  | unchanged (r : R)
  | removed (r : R)

/-- `SetTransform::call` (`/repo/src/transformations.rs:278-285`). -/
def SetTransform.call (op : SetTransform R (K → SetTransformResult R)) (k : K) : SetTransformResult R :=
  match op with
  | .generic f => f k
  | .unchanged r => .unchanged r
  | .removed r => .removed r

/-- `SetTransform::call_transmute` (`/repo/src/transformations.rs:288-295`). -/
def SetTransform.call2 (op : SetTransform R (K → L → SetTransformResult R)) (k : K) (l : L) :
    SetTransformResult R :=
  match op with
  | .generic f => f k l
  | .unchanged r => .unchanged r
  | .removed r => .removed r

/-- `SetTransform::flip_transmute` (`/repo/src/transformations.rs:298-309`). -/
def SetTransform.flip2 (op : SetTransform R (K → L → SetTransformResult R)) :
    SetTransform R (L → K → SetTransformResult R) :=
  match op with
  | .generic f => .generic fun l k => f k l
  | .unchanged r => .unchanged r
  | .removed r => .removed r

/-- `enum SetTransmute` (`/repo/src/transformations.rs:405-411`). -/
inductive SetTransmute (R F : Type) where
  | generic (f : F)
  | removed (r : R)

/-- `SetTransmute::call` (`/repo/src/transformations.rs:415-421`). -/
def SetTransmute.call (op : SetTransmute R (K → SetTransmuteResult S R)) (k : K) : SetTransmuteResult S R :=
  match op with
  | .generic f => f k
  | .removed r => .removed r

/-- `SetTransmute::call_transmute` (`/repo/src/transformations.rs:424-430`). -/
def SetTransmute.call2 (op : SetTransmute R (K → L → SetTransmuteResult S R)) (k : K) (l : L) :
    SetTransmuteResult S R :=
  match op with
  | .generic f => f k l
  | .removed r => .removed r

/-- `SetTransmute::flip` (`/repo/src/transformations.rs:433-443`). -/
def SetTransmute.flip (op : SetTransmute R (K → L → SetTransmuteResult S R)) :
    SetTransmute R (L → K → SetTransmuteResult S R) :=
  match op with
  | .generic f => .generic fun l k => f k l
  | .removed r => .removed r

/-- `enum SetJointTransform` (`/repo/src/transformations.rs:77-89`). -/
inductive SetJointTransform (R F : Type) where
  | generic (f : F) (flipped : Bool)
  | unchangedLR (r : R)
  | unchangedL (r : R)
  | unchangedR (r : R)
  | removed (r : R)

/-- `SetJointTransform::call` (`/repo/src/transformations.rs:93-109`). -/
def SetJointTransform.call (op : SetJointTransform R (K → K → SetJointTransformResult R)) (k l : K) :
    SetJointTransformResult R :=
  match op with
  | .generic f flipped => if flipped then (f l k).flip else f k l
  | .unchangedLR r => .unchangedLR r
  | .unchangedL r => .unchangedL r
  | .unchangedR r => .unchangedR r
  | .removed r => .removed r

/-- `SetJointTransform::flip` (`/repo/src/transformations.rs:112-121`): as in the code, `UnchangedL` and
    `UnchangedR` are not exchanged. -/
def SetJointTransform.flip {F : Type} (op : SetJointTransform R F) : SetJointTransform R F :=
  match op with
  | .generic f flipped => .generic f (!flipped)
  | .unchangedLR r => .unchangedLR r
  | .unchangedL r => .unchangedL r
  | .unchangedR r => .unchangedR r
  | .removed r => .removed r

/-! ### Conversion of operations -/

/-- The conversion of a one-sided transformation (`/repo/src/set.rs:120-127`, 172-176, 177-181, 203-207,
    243-247). -/
def SetTransform.toMap (op : SetTransform R (K → SetTransformResult R)) :
    MapTransform R (K → Unit → MapTransformResult Unit R) :=
  match op with
  | .generic f => .generic fun k _ => (f k).toMap
  | .unchanged r => .unchanged r
  | .removed r => .removed r

/-- The conversion of a one-sided transmutation (`/repo/src/set.rs:143-149`, 208-214, 236-242, 277-283,
    284-290). -/
def SetTransmute.toMap (op : SetTransmute R (K → SetTransmuteResult S R)) :
    MapTransmute R (K → Unit → MapTransmuteResult S Unit R) :=
  match op with
  | .generic f => .generic fun k _ => (f k).toMap
  | .removed r => .removed r

/-- The conversion of a joint transformation (`/repo/src/set.rs:165-171`). -/
def SetJointTransform.toMap (op : SetJointTransform R (K → K → SetJointTransformResult R)) :
    MapJointTransform R (K → Unit → K → Unit → MapJointTransformResult Unit R) :=
  match op with
  | .generic g flipped => .generic (fun k _ l _ => (g k l).toMap) flipped
  | .unchangedLR r => .unchangedLR r
  | .unchangedL r => .unchangedL r
  | .unchangedR r => .unchangedR r
  | .removed r => .removed r

/-- The conversion of the two-sided operation of `transform_with_transmuted` and
    `transmute_with_transformed` (`/repo/src/set.rs:202`, 235): a closure even if a bulk operation was
    given. -/
def SetTransform.toMap2 (op : SetTransform R (K → L → SetTransformResult R)) :
    MapTransform R (K → Unit → L → Unit → MapTransformResult Unit R) :=
  .generic fun l _ r _ => (op.call2 l r).toMap

/-- The conversion of the two-sided operation of `transmute_with_transmuted` (`/repo/src/set.rs:273-276`). -/
def SetTransmute.toMap2 (op : SetTransmute R (K → L → SetTransmuteResult S R)) :
    MapTransmute R (K → Unit → L → Unit → MapTransmuteResult S Unit R) :=
  .generic fun l _ r _ => (op.call2 l r).toMap

/-! ### `HashTrieSet` -/

/-- `struct HashTrieSet` (`/repo/src/set.rs:68-70`). -/
structure HSet (c : Cfg) (K : Type) where
  set : Trie c K Unit

/-- `HashTrieSet{set}` around the map of a result `(set, reduced)` (e.g. `/repo/src/set.rs:128`). -/
def HSet.wrap (r : Res (Trie c K Unit × R)) : Res (HSet c K × R) := do
  let p ← r
  .ok (⟨p.1⟩, p.2)

namespace HSet

/-- `HashTrieSet::new`, `Default` (`/repo/src/set.rs:74-78`, 295-299). -/
def new (c : Cfg) : HSet c K := ⟨Trie.new c⟩

/-- `HashTrieSet::size` (`/repo/src/set.rs:81-83`). -/
def size (s : HSet c K) : Nat := s.set.size

/-- `HashTrieSet::find` (`/repo/src/set.rs:86-88`), for a lookup key with comparison `q` and hash `h`. -/
def findQ (s : HSet c K) (q : K → Bool) (h : BitVec c.w) : Res (Option K) := do
  let r ← s.set.findQ q h
  .ok (r.map Prod.fst)

/-- `HashTrieSet::insert` (`/repo/src/set.rs:92-99`): refused with the stored key, or the new set, the key the
    returned pointer points to, and the displaced key. -/
def insertQ (hash : K → BitVec c.w) (s : HSet c K) (q : K → Bool) (h : BitVec c.w) (k : K) (replace : Bool) :
    Res (Except K (HSet c K × K × Option K)) := do
  let r ← s.set.insertQ hash q h k () replace
  match r with
  | .ok (set, ptr, prev) => .ok (.ok (⟨set⟩, ptr.1, prev.map Prod.fst))
  | .error e => .ok (.error e.1)

/-- `HashTrieSet::remove` (`/repo/src/set.rs:102-104`). -/
def removeQ (s : HSet c K) (q : K → Bool) (h : BitVec c.w) : Res (Option (HSet c K × K)) := do
  let r ← s.set.removeQ q h
  .ok (r.map fun p => (⟨p.1⟩, p.2.1))

/-- `HashTrieSet::visit` (`/repo/src/set.rs:107-109`): the calls made to `op`, in order. -/
def visit (s : HSet c K) : List K := s.set.visit.map Prod.fst

/-- `find(&key)` with a key of the set's own type. -/
def find [BEq K] (hash : K → BitVec c.w) (s : HSet c K) (k : K) : Res (Option K) := s.findQ (· == k) (hash k)

/-- `insert(key, replace)` with a key of the set's own type. -/
def insert [BEq K] (hash : K → BitVec c.w) (s : HSet c K) (k : K) (replace : Bool) :
    Res (Except K (HSet c K × K × Option K)) := s.insertQ hash (· == k) (hash k) k replace

/-- `remove(&key)` with a key of the set's own type. -/
def remove [BEq K] (hash : K → BitVec c.w) (s : HSet c K) (k : K) : Res (Option (HSet c K × K)) :=
  s.removeQ (· == k) (hash k)

section
variable (reduce : R → R → R) (e : R)

/-- `HashTrieSet::transform` (`/repo/src/set.rs:112-129`). -/
def transform (s : HSet c K) (op : SetTransform R (K → SetTransformResult R)) (par : Par) : Res (HSet c K × R) :=
  wrap (s.set.transform reduce e op.toMap par)

/-- `HashTrieSet::transmute` (`/repo/src/set.rs:132-151`). -/
def transmute (s : HSet c K) (op : SetTransmute R (K → SetTransmuteResult S R)) : Res (HSet c S × R) :=
  wrap (s.set.transmute reduce e op.toMap)

/-- `HashTrieSet::transform_with_transformed` (`/repo/src/set.rs:154-183`). -/
def twt [BEq K] (hash : K → BitVec c.w) (both : SetJointTransform R (K → K → SetJointTransformResult R))
    (left right : SetTransform R (K → SetTransformResult R)) (par : Par) (s t : HSet c K) : Res (HSet c K × R) :=
  wrap (Trie.twt reduce e hash ⟨both.toMap, left.toMap, right.toMap⟩ par s.set t.set)

variable (x : Cross c K L)

/-- `HashTrieSet::transform_with_transmuted` (`/repo/src/set.rs:186-216`). -/
def twm (both : SetTransform R (K → L → SetTransformResult R)) (left : SetTransform R (K → SetTransformResult R))
    (right : SetTransmute R (L → SetTransmuteResult K R)) (par : Par) (s : HSet c K) (t : HSet c L) :
    Res (HSet c K × R) :=
  wrap (Trie.twm x reduce e ⟨both.toMap2, left.toMap, right.toMap⟩ par s.set t.set)

/-- `HashTrieSet::transmute_with_transformed` (`/repo/src/set.rs:219-249`). -/
def mwt (both : SetTransform R (K → L → SetTransformResult R)) (left : SetTransmute R (K → SetTransmuteResult L R))
    (right : SetTransform R (L → SetTransformResult R)) (par : Par) (s : HSet c K) (t : HSet c L) :
    Res (HSet c L × R) :=
  wrap (Trie.mwt x reduce e ⟨both.toMap2, left.toMap, right.toMap⟩ par s.set t.set)

/-- `HashTrieSet::transmute_with_transmuted` (`/repo/src/set.rs:252-292`). -/
def mwm (both : SetTransmute R (K → L → SetTransmuteResult S R)) (left : SetTransmute R (K → SetTransmuteResult S R))
    (right : SetTransmute R (L → SetTransmuteResult S R)) (s : HSet c K) (t : HSet c L) : Res (HSet c S × R) :=
  wrap (Trie.mwm x reduce e ⟨both.toMap2, left.toMap, right.toMap⟩ s.set t.set)

end
end HSet

/-! ### The transfute functions of `HashTrieMap` -/

/-- The conversion at `/repo/src/map.rs:171-177` and 215-221: the new entry gets a clone of the old entry's
    key (a clone is modelled by the same value). -/
def SetTransmute.withKey (op : SetTransmute R (K → V → SetTransmuteResult W R)) :
    MapTransmute R (K → V → MapTransmuteResult K W R) :=
  match op with
  | .generic g => .generic fun k v => match g k v with
    | .transmuted w r => .transmuted k w r
    | .removed r => .removed r
  | .removed r => .removed r

/-- The comparison and hash of one key type, used on both sides (`L = K` in the trait bounds). -/
def Cross.one [BEq K] (hash : K → BitVec c.w) : Cross c K K := ⟨hash, hash, fun k l => k == l, fun l k => l == k⟩

/-- `HashTrieMap::transform_with_transfuted` (`/repo/src/map.rs:159-180`). -/
def Trie.twf [BEq K] (reduce : R → R → R) (e : R) (hash : K → BitVec c.w)
    (both : MapTransform R (K → V → K → W → MapTransformResult V R))
    (left : MapTransform R (K → V → MapTransformResult V R))
    (right : SetTransmute R (K → W → SetTransmuteResult V R)) (par : Par) (t : Trie c K V) (u : Trie c K W) :
    Res (Trie c K V × R) :=
  Trie.twm (Cross.one hash) reduce e ⟨both, left, right.withKey⟩ par t u

/-- `HashTrieMap::transfute_with_transformed` (`/repo/src/map.rs:203-224`). -/
def Trie.fwt [BEq K] (reduce : R → R → R) (e : R) (hash : K → BitVec c.w)
    (both : MapTransform R (K → V → K → W → MapTransformResult W R))
    (left : SetTransmute R (K → V → SetTransmuteResult W R))
    (right : MapTransform R (K → W → MapTransformResult W R)) (par : Par) (t : Trie c K V) (u : Trie c K W) :
    Res (Trie c K W × R) :=
  Trie.mwt (Cross.one hash) reduce e ⟨both, left.withKey, right⟩ par t u

end HT
