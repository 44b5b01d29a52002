import Verif.Trie
/-!
# Hashing a key (`/repo/src/traits.rs:249-272`)

`HasherBv::hash` runs a standard hasher, whose result has 64 bits, and converts that result to the map's hash word
with `try_into().unwrap()`.  The rest of the model takes the hash as a total function; here it is what the
code has.
-/
namespace HT

variable {K V : Type}

/-- `HasherBv::hash` (`hasher_bv_impl!`, `/repo/src/traits.rs:254-264`) for a hash word of `w` bits; `finish k` is what
    `hasher.finish()` returns after the key was fed to a fresh hasher.  The conversion is
    `<$type as TryFrom<u64>>::try_from`, which succeeds exactly when the number fits. -/
def hasherBv (w : Nat) (finish : K → BitVec 64) (k : K) : Res (BitVec w) :=
  Res.unwrap (if (finish k).toNat < 2 ^ w then some ((finish k).setWidth w) else none)

/-- The low bits of the hasher's result: the hash of the keys whose hash fits. -/
def lowBits (w : Nat) (finish : K → BitVec 64) (k : K) : BitVec w := (finish k).setWidth w

namespace Trie
variable [BEq K] {c : Cfg} (finish : K → BitVec 64)

/-- `HashTrie::find` (`/repo/src/hash_trie.rs:29-34`): the argument `M::default().hash(key)` is evaluated first. -/
def findM (t : Trie c K V) (k : K) : Res (Option (K × V)) := do
  let h ← hasherBv c.w finish k
  t.findQ (· == k) h

/-- `HashTrie::insert` (`/repo/src/hash_trie.rs:36-49`): the key is hashed first.  The code below the root hashes the key
    of a stored entry when it makes room for a second one; that hash is taken to fit here, which
    `C30_stored_keys_fit` proves of every stored key. -/
def insertM (t : Trie c K V) (k : K) (v : V) (replace : Bool) :
    Res (Except (K × V) (Trie c K V × (K × V) × Option (K × V))) := do
  let h ← hasherBv c.w finish k
  t.insertQ (lowBits c.w finish) (· == k) h k v replace

/-- `HashTrie::remove` (`/repo/src/hash_trie.rs:51-59`): the key is hashed first. -/
def removeM (t : Trie c K V) (k : K) : Res (Option (Trie c K V × (K × V))) := do
  let h ← hasherBv c.w finish k
  t.removeQ (· == k) h

end Trie

/-- The maps made with `new`, `insert` and `remove`, with the hasher of the code. -/
inductive MReach (c : Cfg) [BEq K] (finish : K → BitVec 64) : Trie c K V → Prop
  | new : MReach c finish (Trie.new c)
  | insert {t t' : Trie c K V} {k : K} {v : V} {replace : Bool} {ptr : K × V} {prev : Option (K × V)} :
      MReach c finish t → t.insertM finish k v replace = .ok (.ok (t', ptr, prev)) → MReach c finish t'
  | remove {t t' : Trie c K V} {k : K} {e : K × V} :
      MReach c finish t → t.removeM finish k = .ok (some (t', e)) → MReach c finish t'

end HT
