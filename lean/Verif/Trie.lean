import Verif.Node
/-!
# The container (`/repo/src/hash_trie.rs`), single-map operations

`HashTrieMap` (`/repo/src/map.rs:68-112`) forwards to it unchanged.
-/
namespace HT

/-- `struct HashTrie` (`/repo/src/hash_trie.rs:5-8`). -/
structure Trie (c : Cfg) (K V : Type) where
  root : Node c.n K V

namespace Trie
variable {K V : Type} (c : Cfg) (hash : K → BitVec c.w)

/-- `HashTrie::new`, `Default` (`/repo/src/hash_trie.rs:11-16`, 205-209). -/
def new : Trie c K V := ⟨Node.default⟩

variable {c}

/-- `HashTrie::size` (`/repo/src/hash_trie.rs:25-27`). -/
def size (t : Trie c K V) : Nat := t.root.size

/-- `HashTrie::visit` (`/repo/src/hash_trie.rs:61-63`): the calls made to `op`, in order. -/
def visit (t : Trie c K V) : List (K × V) := t.root.visit

/-- `HashTrie::find` (`/repo/src/hash_trie.rs:29-34`) for a lookup key with comparison `q` and hash
    `h`; `none` is `Err(HashTrieError::NotFound)`. -/
def findQ (t : Trie c K V) (q : K → Bool) (h : BitVec c.w) : Res (Option (K × V)) := do
  let f ← Flag.new h
  t.root.find c q (some f)

/-- `HashTrie::insert` (`/repo/src/hash_trie.rs:36-49`) for a lookup key with comparison `q`, hash `h`
    and conversion `k`.  `Except.error` is the code's `Err((key, value))`; on success the new map, the
    entry the returned pointers point to, and the previous entry. -/
def insertQ (t : Trie c K V) (q : K → Bool) (h : BitVec c.w) (k : K) (v : V) (replace : Bool) :
    Res (Except (K × V) (Trie c K V × (K × V) × Option (K × V))) := do
  let f ← Flag.new h
  let r ← t.root.insert c hash q k v replace (some f)
  match r with
  | .found k0 v0 => .ok (.error (k0, v0))
  | .inserted m ptr prev => .ok (.ok (⟨m⟩, ptr, prev))

/-- `HashTrie::remove` (`/repo/src/hash_trie.rs:51-59`); `none` is `Err(HashTrieError::NotFound)`. -/
def removeQ (t : Trie c K V) (q : K → Bool) (h : BitVec c.w) :
    Res (Option (Trie c K V × (K × V))) := do
  let f ← Flag.new h
  let r ← t.root.remove c q (some f)
  match r with
  | .notFound => .ok none
  | .removed m k v => .ok (some (⟨m⟩, (k, v)))
  | .removedZ k v => .ok (some (new c, (k, v)))

variable [BEq K]

/-- `find(&key)` with a key of the map's own key type (`L = K`). -/
def find (t : Trie c K V) (k : K) : Res (Option (K × V)) := t.findQ (· == k) (hash k)

/-- `insert(key, value, replace)` with a key of the map's own key type (`L = K`). -/
def insert (t : Trie c K V) (k : K) (v : V) (replace : Bool) :
    Res (Except (K × V) (Trie c K V × (K × V) × Option (K × V))) :=
  t.insertQ hash (· == k) (hash k) k v replace

/-- `remove(&key)` with a key of the map's own key type (`L = K`). -/
def remove (t : Trie c K V) (k : K) : Res (Option (Trie c K V × (K × V))) :=
  t.removeQ (· == k) (hash k)

end Trie
end HT
