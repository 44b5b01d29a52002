import Verif.Trie
import Verif.Transform
/-! # The maps a program can hold when nothing is known about `==` -/
namespace HT

/-- The maps obtained by `new`, `insert`, `remove`, `transform` and `transmute` when the keys' `==` may be
    anything, as long as keys that compare equal have the same hash.  A lookup key enters as the test
    `q` (`stored_key == lookup_key`) and its hash: `q` need not be reflexive, symmetric or transitive, need
    not hold of the key that is stored, and may be another one at every call.  The keys a `transmute` makes
    must hash like the old ones but may well be equal to each other. -/
inductive Made (c : Cfg) : {K V : Type} → (K → BitVec c.w) → Trie c K V → Prop
  | new {K V : Type} {hash : K → BitVec c.w} : Made c hash (Trie.new c : Trie c K V)
  | insert {K V : Type} {hash : K → BitVec c.w} {t t' : Trie c K V} {q : K → Bool} {k : K} {v : V}
      {replace : Bool} {ptr : K × V} {prev : Option (K × V)} (h : Made c hash t)
      (hq : ∀ x, q x = true → hash x = hash k)
      (hr : t.insertQ hash q (hash k) k v replace = .ok (.ok (t', ptr, prev))) : Made c hash t'
  | remove {K V : Type} {hash : K → BitVec c.w} {t t' : Trie c K V} {q : K → Bool} {h : BitVec c.w}
      {e : K × V} (ht : Made c hash t) (hq : ∀ x, q x = true → hash x = h)
      (hr : t.removeQ q h = .ok (some (t', e))) : Made c hash t'
  | transform {K V R : Type} {hash : K → BitVec c.w} {t t' : Trie c K V} {reduce : R → R → R} {e r : R}
      {op : MapTransform R (K → V → MapTransformResult V R)} {par : Par} (h : Made c hash t)
      (hr : t.transform reduce e op par = .ok (t', r)) : Made c hash t'
  | transmute {K V S X R : Type} {hash : K → BitVec c.w} {hash' : S → BitVec c.w} {t : Trie c K V}
      {t' : Trie c S X} {reduce : R → R → R} {e r : R} {f : K → V → MapTransmuteResult S X R}
      (h : Made c hash t) (hf : ∀ k v k' v' r, f k v = .transmuted k' v' r → hash' k' = hash k)
      (hr : t.transmute reduce e (.generic f) = .ok (t', r)) : Made c hash' t'

end HT
