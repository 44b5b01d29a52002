import Verif.Trie
import Verif.Contract
import Verif.JointSpec
import Verif.FlagLemmas
/-!
# Vocabulary: maps made by insertions only, and when a joint operation on them does not return
-/
namespace HT

/-- A map made from `new()` by insertions (with any lookup key type, with or without replacement). -/
inductive Grown {c : Cfg} {K V : Type} [BEq K] (hash : K → BitVec c.w) : Trie c K V → Prop
  | new (laws : KeyLaws hash) : Grown hash (Trie.new c)
  | insert {t t' : Trie c K V} {q : K → Bool} {k : K} {v : V} {replace : Bool} {ptr : K × V} {prev : Option (K × V)}
      (h : Grown hash t) (hq : Query hash q (hash k)) (hk : q k = true)
      (hr : t.insertQ hash q (hash k) k v replace = .ok (.ok (t', ptr, prev))) : Grown hash t'

variable {K V L W : Type} {c : Cfg}

/-- Some key on the right has a hash that differs from `h` but agrees with it in its first `n ≥ 1` groups of bits (the
    least significant groups), and no key on the left has. -/
def Nearer (x : Cross c K L) (as : List (K × V)) (bs : List (L × W)) (h : BitVec c.w) : Prop :=
  ∃ n, 1 ≤ n ∧ (∃ b ∈ bs, x.hash' b.1 ≠ h ∧ Agree c n (x.hash' b.1) h) ∧
    ∀ a ∈ as, x.hash a.1 ≠ h → ¬ Agree c n (x.hash a.1) h

/-- Some hash is that of at least two keys of one map and three of the other; three on the left if the right has keys
    nearer to the hash, three on the right otherwise. -/
def Blocked (x : Cross c K L) (as : List (K × V)) (bs : List (L × W)) : Prop :=
  ∃ h, (Nearer x as bs h ∧ 3 ≤ collisions x.hash as h ∧ 2 ≤ collisions x.hash' bs h) ∨
    (¬ Nearer x as bs h ∧ 2 ≤ collisions x.hash as h ∧ 3 ≤ collisions x.hash' bs h)

end HT
