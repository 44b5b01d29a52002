import Verif.EffNode
import Verif.Api
import Verif.ArcSim
/-!
# Sets with addresses, and the set operations and transfute functions with closure calls

As in `Verif/Api.lean`, with the closures as in `Verif/Eff.lean`.
-/
namespace HT

variable {K V L W S X R : Type} {c : Cfg} {Q : Type} {A : Q → Type}

/-! ### Conversion of operations -/

/-- As `SetTransform.call2` (`/repo/src/transformations.rs:288-295`). -/
def SetTransform.call2M (op : SetTransform R (K → L → Prog Q A (SetTransformResult R))) (k : K) (l : L) :
    Prog Q A (SetTransformResult R) :=
  match op with
  | .generic f => f k l
  | .unchanged r => pure (.unchanged r)
  | .removed r => pure (.removed r)

/-- As `SetTransmute.call2` (`/repo/src/transformations.rs:424-430`). -/
def SetTransmute.call2M (op : SetTransmute R (K → L → Prog Q A (SetTransmuteResult S R))) (k : K) (l : L) :
    Prog Q A (SetTransmuteResult S R) :=
  match op with
  | .generic f => f k l
  | .removed r => pure (.removed r)

/-- As `SetTransform.toMap` (`/repo/src/set.rs:120-127`, 172-176, 177-181, 203-207, 243-247). -/
def SetTransform.toMapM (op : SetTransform R (K → Prog Q A (SetTransformResult R))) :
    MapTransform R (K → Unit → Prog Q A (MapTransformResult Unit R)) :=
  match op with
  | .generic f => .generic fun k _ => do
    let a ← f k
    pure a.toMap
  | .unchanged r => .unchanged r
  | .removed r => .removed r

/-- As `SetTransmute.toMap` (`/repo/src/set.rs:143-149`, 208-214, 236-242, 277-283, 284-290). -/
def SetTransmute.toMapM (op : SetTransmute R (K → Prog Q A (SetTransmuteResult S R))) :
    MapTransmute R (K → Unit → Prog Q A (MapTransmuteResult S Unit R)) :=
  match op with
  | .generic f => .generic fun k _ => do
    let a ← f k
    pure a.toMap
  | .removed r => .removed r

/-- As `SetJointTransform.toMap` (`/repo/src/set.rs:165-171`). -/
def SetJointTransform.toMapM (op : SetJointTransform R (K → K → Prog Q A (SetJointTransformResult R))) :
    MapJointTransform R (K → Unit → K → Unit → Prog Q A (MapJointTransformResult Unit R)) :=
  match op with
  | .generic g flipped => .generic (fun k _ l _ => do
    let a ← g k l
    pure a.toMap) flipped
  | .unchangedLR r => .unchangedLR r
  | .unchangedL r => .unchangedL r
  | .unchangedR r => .unchangedR r
  | .removed r => .removed r

/-- As `SetTransform.toMap2` (`/repo/src/set.rs:202`, 235): a closure even if a bulk operation was given. -/
def SetTransform.toMap2M (op : SetTransform R (K → L → Prog Q A (SetTransformResult R))) :
    MapTransform R (K → Unit → L → Unit → Prog Q A (MapTransformResult Unit R)) :=
  .generic fun l _ r _ => do
    let a ← op.call2M l r
    pure a.toMap

/-- As `SetTransmute.toMap2` (`/repo/src/set.rs:273-276`). -/
def SetTransmute.toMap2M (op : SetTransmute R (K → L → Prog Q A (SetTransmuteResult S R))) :
    MapTransmute R (K → Unit → L → Unit → Prog Q A (MapTransmuteResult S Unit R)) :=
  .generic fun l _ r _ => do
    let a ← op.call2M l r
    pure a.toMap

/-- The new entry of a transfute function: with (a clone of) the old entry's key (`/repo/src/map.rs:172-175`,
    216-219). -/
def SetTransmuteResult.at (k : K) : SetTransmuteResult W R → MapTransmuteResult K W R
  | .transmuted w r => .transmuted k w r
  | .removed r => .removed r

/-- As `SetTransmute.withKey` (`/repo/src/map.rs:171-177`, 215-221). -/
def SetTransmute.withKeyM (op : SetTransmute R (K → V → Prog Q A (SetTransmuteResult W R))) :
    MapTransmute R (K → V → Prog Q A (MapTransmuteResult K W R)) :=
  match op with
  | .generic g => .generic fun k v => do
    let a ← g k v
    pure (a.at k)
  | .removed r => .removed r

/-! ### Sets -/

/-- `struct HashTrieSet` (`/repo/src/set.rs:68-70`), with addresses. -/
structure AHSet (c : Cfg) (K : Type) where
  set : ATrie c K Unit

namespace AHSet

/-- The set without its addresses. -/
def erase (s : AHSet c K) : HSet c K := ⟨s.set.erase⟩

/-- `HashTrieSet::new` (`/repo/src/set.rs:74-78`). -/
def new (c : Cfg) : Al (AHSet c K) := do
  let t ← ATrie.new c
  pure ⟨t⟩

/-- The derived `Clone` (`/repo/src/set.rs:66`). -/
def clone (s : AHSet c K) : AHSet c K := ⟨s.set.clone⟩

/-- `HashTrieSet::insert` (`/repo/src/set.rs:90-99`).  The address is that of the new entry. -/
def insert [BEq K] (hash : K → BitVec c.w) (s : AHSet c K) (k : K) (replace : Bool) :
    Al (Except K (AHSet c K × Nat × Option K)) := do
  let r ← s.set.insert hash k () replace
  match r with
  | .ok (t, ptr, prev) => pure (.ok (⟨t⟩, ptr, prev.map Prod.fst))
  | .error p => pure (.error p.1)

/-- `HashTrieSet::remove` (`/repo/src/set.rs:102-104`). -/
def remove [BEq K] (hash : K → BitVec c.w) (s : AHSet c K) (k : K) : Al (Option (AHSet c K × K)) := do
  let r ← s.set.remove hash k
  match r with
  | some (t, p) => pure (some (⟨t⟩, p.1))
  | none => pure none

/-- `(HashTrieSet{set}, reduced)` (e.g. `/repo/src/set.rs:128`). -/
def wrapE (x : Prog Q A (ATrie c K Unit × R)) : Prog Q A (AHSet c K × R) := do
  let p ← x
  pure (⟨p.1⟩, p.2)

section
variable (reduce : R → R → R) (e : R)

/-- `HashTrieSet::transform` (`/repo/src/set.rs:112-129`). -/
def transformE (s : AHSet c K) (op : SetTransform R (K → Prog Q A (SetTransformResult R))) (par : Par) :
    Prog Q A (AHSet c K × R) := wrapE (s.set.transformE reduce e op.toMapM par)

/-- `HashTrieSet::transmute` (`/repo/src/set.rs:132-151`). -/
def transmuteE (s : AHSet c K) (op : SetTransmute R (K → Prog Q A (SetTransmuteResult S R))) :
    Prog Q A (AHSet c S × R) := wrapE (s.set.transmuteE reduce e op.toMapM)

/-- `HashTrieSet::transform_with_transformed` (`/repo/src/set.rs:154-183`). -/
def twtE [BEq K] (hash : K → BitVec c.w) (both : SetJointTransform R (K → K → Prog Q A (SetJointTransformResult R)))
    (left right : SetTransform R (K → Prog Q A (SetTransformResult R))) (par : Par) (s t : AHSet c K) :
    Prog Q A (AHSet c K × R) :=
  wrapE (ATrie.twtE reduce e hash ⟨both.toMapM, left.toMapM, right.toMapM⟩ par s.set t.set)

variable (x : Cross c K L)

/-- `HashTrieSet::transform_with_transmuted` (`/repo/src/set.rs:186-216`). -/
def twmE (both : SetTransform R (K → L → Prog Q A (SetTransformResult R)))
    (left : SetTransform R (K → Prog Q A (SetTransformResult R)))
    (right : SetTransmute R (L → Prog Q A (SetTransmuteResult K R))) (par : Par) (s : AHSet c K) (t : AHSet c L) :
    Prog Q A (AHSet c K × R) :=
  wrapE (ATrie.twmE x reduce e ⟨both.toMap2M, left.toMapM, right.toMapM⟩ par s.set t.set)

/-- `HashTrieSet::transmute_with_transformed` (`/repo/src/set.rs:219-249`). -/
def mwtE (both : SetTransform R (K → L → Prog Q A (SetTransformResult R)))
    (left : SetTransmute R (K → Prog Q A (SetTransmuteResult L R)))
    (right : SetTransform R (L → Prog Q A (SetTransformResult R))) (par : Par) (s : AHSet c K) (t : AHSet c L) :
    Prog Q A (AHSet c L × R) :=
  wrapE (ATrie.mwtE x reduce e ⟨both.toMap2M, left.toMapM, right.toMapM⟩ par s.set t.set)

/-- `HashTrieSet::transmute_with_transmuted` (`/repo/src/set.rs:252-292`). -/
def mwmE (both : SetTransmute R (K → L → Prog Q A (SetTransmuteResult S R)))
    (left : SetTransmute R (K → Prog Q A (SetTransmuteResult S R)))
    (right : SetTransmute R (L → Prog Q A (SetTransmuteResult S R))) (s : AHSet c K) (t : AHSet c L) :
    Prog Q A (AHSet c S × R) :=
  wrapE (ATrie.mwmE x reduce e ⟨both.toMap2M, left.toMapM, right.toMapM⟩ s.set t.set)

end
end AHSet

/-- `HashTrieMap::transform_with_transfuted` (`/repo/src/map.rs:159-180`). -/
def ATrie.twfE [BEq K] (reduce : R → R → R) (e : R) (hash : K → BitVec c.w)
    (both : MapTransform R (K → V → K → W → Prog Q A (MapTransformResult V R)))
    (left : MapTransform R (K → V → Prog Q A (MapTransformResult V R)))
    (right : SetTransmute R (K → W → Prog Q A (SetTransmuteResult V R))) (par : Par) (t : ATrie c K V)
    (u : ATrie c K W) : Prog Q A (ATrie c K V × R) :=
  ATrie.twmE (Cross.one hash) reduce e ⟨both, left, right.withKeyM⟩ par t u

/-- `HashTrieMap::transfute_with_transformed` (`/repo/src/map.rs:203-224`). -/
def ATrie.fwtE [BEq K] (reduce : R → R → R) (e : R) (hash : K → BitVec c.w)
    (both : MapTransform R (K → V → K → W → Prog Q A (MapTransformResult W R)))
    (left : SetTransmute R (K → V → Prog Q A (SetTransmuteResult W R)))
    (right : MapTransform R (K → W → Prog Q A (MapTransformResult W R))) (par : Par) (t : ATrie c K V)
    (u : ATrie c K W) : Prog Q A (ATrie c K W × R) :=
  ATrie.mwtE (Cross.one hash) reduce e ⟨both, left.withKeyM, right⟩ par t u

end HT
