import Verif.ChaosSpec
import Verif.SetSpec
/-!
# Sets when nothing at all is known about the keys' code

Find, insert and remove of sets with every call of the keys' own code as a step, and the sets made by any history of the
set operations.
-/
namespace HT

variable {K L S R : Type} {c : Cfg}

namespace HSet

/-- `HashTrieSet::find` (`/repo/src/set.rs:86-88`) with every call of the keys' code as a step.  (The program of the map
    underneath also lists `into` and `clone` of values; the values are `()`, whose code cannot fail.  That it may
    fail here only allows more runs.) -/
def findK (s : HSet c K) : KTree c K Unit (Option K) := do
  let r ← s.set.findK
  pure (r.map Prod.fst)

/-- `HashTrieSet::insert` (`/repo/src/set.rs:92-99`) likewise. -/
def insertK (s : HSet c K) (k : K) (replace : Bool) : KTree c K Unit (Except K (HSet c K × K × Option K)) := do
  let r ← s.set.insertK k () replace
  match r with
  | .ok (set, ptr, prev) => pure (.ok (⟨set⟩, ptr.1, prev.map Prod.fst))
  | .error e => pure (.error e.1)

/-- `HashTrieSet::remove` (`/repo/src/set.rs:102-104`) likewise. -/
def removeK (s : HSet c K) : KTree c K Unit (Option (HSet c K × K)) := do
  let r ← s.set.removeK
  pure (r.map fun p => (⟨p.1⟩, p.2.1))

end HSet

/-- The sets made by the operations on sets when hashing and `==` of the keys answer anything whenever they are called, and
    closures keep no contract.  (Within one call of a joint operation the answers are functions of the keys asked about,
    any functions, and other ones in the next call.) -/
inductive ChaoticSet (c : Cfg) : {K : Type} → HSet c K → Prop
  | new {K : Type} : ChaoticSet c (HSet.new c : HSet c K)
  | insert {K : Type} {s s' : HSet c K} {k ptr : K} {replace : Bool} {prev : Option K}
      {calls : List (Reply (KCall K Unit) (KAns K Unit c.w))} (h : ChaoticSet c s)
      (run : (s.insertK k replace).Path calls (.ret (.ok (s', ptr, prev)))) : ChaoticSet c s'
  | remove {K : Type} {s s' : HSet c K} {k : K} {calls : List (Reply (KCall K Unit) (KAns K Unit c.w))}
      (h : ChaoticSet c s) (run : s.removeK.Path calls (.ret (some (s', k)))) : ChaoticSet c s'
  | transform {K R : Type} {s s' : HSet c K} {reduce : R → R → R} {e r : R}
      {op : SetTransform R (K → SetTransformResult R)} {par : Par} (h : ChaoticSet c s)
      (hr : s.transform reduce e op par = .ok (s', r)) : ChaoticSet c s'
  | transmute {K S R : Type} {s : HSet c K} {s' : HSet c S} {reduce : R → R → R} {e r : R}
      {op : SetTransmute R (K → SetTransmuteResult S R)} (h : ChaoticSet c s)
      (hr : s.transmute reduce e op = .ok (s', r)) : ChaoticSet c s'
  | twm {K L R : Type} {s s' : HSet c K} {t : HSet c L} {x : Cross c K L} {reduce : R → R → R} {e r : R}
      {both : SetTransform R (K → L → SetTransformResult R)} {left : SetTransform R (K → SetTransformResult R)}
      {right : SetTransmute R (L → SetTransmuteResult K R)} {par : Par} (hs : ChaoticSet c s) (ht : ChaoticSet c t)
      (hr : HSet.twm reduce e x both left right par s t = .ok (s', r)) : ChaoticSet c s'
  | mwt {K L R : Type} {s : HSet c K} {t s' : HSet c L} {x : Cross c K L} {reduce : R → R → R} {e r : R}
      {both : SetTransform R (K → L → SetTransformResult R)} {left : SetTransmute R (K → SetTransmuteResult L R)}
      {right : SetTransform R (L → SetTransformResult R)} {par : Par} (hs : ChaoticSet c s) (ht : ChaoticSet c t)
      (hr : HSet.mwt reduce e x both left right par s t = .ok (s', r)) : ChaoticSet c s'
  | mwm {K L S R : Type} {s : HSet c K} {t : HSet c L} {s' : HSet c S} {x : Cross c K L} {reduce : R → R → R} {e r : R}
      {both : SetTransmute R (K → L → SetTransmuteResult S R)} {left : SetTransmute R (K → SetTransmuteResult S R)}
      {right : SetTransmute R (L → SetTransmuteResult S R)} (hs : ChaoticSet c s) (ht : ChaoticSet c t)
      (hr : HSet.mwm reduce e x both left right s t = .ok (s', r)) : ChaoticSet c s'
  | twt {K R : Type} [BEq K] {s t s' : HSet c K} {hash : K → BitVec c.w} {reduce : R → R → R} {e r : R}
      {both : SetJointTransform R (K → K → SetJointTransformResult R)}
      {left right : SetTransform R (K → SetTransformResult R)} {par : Par} (hs : ChaoticSet c s) (ht : ChaoticSet c t)
      (hr : HSet.twt reduce e hash both left right par s t = .ok (s', r)) : ChaoticSet c s'

end HT
