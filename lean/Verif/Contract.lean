import Verif.Flag
/-!
# What the caller must guarantee

The contracts of `Eq`, `Hash` and of the crate's `HashLike` (`/repo/src/traits.rs`): they are
hypotheses of the theorems, never proved.
-/
namespace HT

variable {K V : Type} [BEq K] {w : Nat} (hash : K → BitVec w)

/-- Hashing respects key equality. -/
def HashOk : Prop := ∀ x y : K, (x == y) = true → hash x = hash y

/-- The contract of `Eq` and `Hash` for the map's key type. -/
structure KeyLaws : Prop where
  refl : ∀ x : K, (x == x) = true
  symm : ∀ x y : K, (x == y) = true → (y == x) = true
  trans : ∀ x y z : K, (x == y) = true → (y == z) = true → (x == z) = true
  hash : HashOk hash

/-- What a lookup key of a foreign type must satisfy (the contract behind `HashLike` and
    `PartialEq<L>`), where `q x` is `x == lookup_key` and `h` is the hash of the lookup key: the stored
    keys it compares equal to all have its hash, and are exactly one class of equal keys. -/
structure Query (q : K → Bool) (h : BitVec w) : Prop where
  hash : ∀ x, q x = true → hash x = h
  cls : ∀ x y, q x = true → (q y = (x == y))

/-- No two entries of the list have equal keys. -/
def DistinctKeys (l : List (K × V)) : Prop := l.Pairwise fun a b => (a.1 == b.1) = false

theorem KeyLaws.equiv {hash : K → BitVec w} (h : KeyLaws hash) : EquivBEq K where
  rfl := h.refl _
  symm := h.symm _ _
  trans := h.trans _ _ _

end HT
