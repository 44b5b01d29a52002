import Verif.Eff
import Verif.Trie
/-!
# Calls of the keys' own code

`find`, `insert` and `remove` once more, with every call of code that belongs to the key and value types as a step of
its own: hashing, `==`, `into`, `clone`.  What `==` answers may depend on anything, and any of these calls may panic
or never return (`Verif/Eff.lean`).  `into` and `clone` are steps that, if they return, return the thing itself.
-/
namespace HT

/-- A call of code of the key and value types. -/
inductive KCall (K V : Type) where
  /-- `M::default().hash(key)` of the lookup key. -/
  | lookupHash
  /-- `M::default().hash(k)` of a stored key. -/
  | hash (k : K)
  /-- `k == key` for a stored key `k` and the lookup key. -/
  | eq (k : K)
  /-- `key.into()`. -/
  | intoKey
  /-- `value.into()`. -/
  | intoValue
  /-- `k.clone()` for a stored key. -/
  | cloneKey (k : K)
  /-- `v.clone()` for a stored value. -/
  | cloneValue (v : V)
  deriving DecidableEq, Repr

/-- What such a call answers. -/
def KAns (K V : Type) (w : Nat) : KCall K V → Type
  | .lookupHash => BitVec w
  | .hash _ => BitVec w
  | .eq _ => Bool
  | .intoKey => Unit
  | .intoValue => Unit
  | .cloneKey _ => Unit
  | .cloneValue _ => Unit

/-- Code calling code of the key and value types. -/
abbrev KTree (c : Cfg) (K V α : Type) := Tree (KCall K V) (KAns K V c.w) α

instance {Q : Type} {A : Q → Type} : Monad (Tree Q A) where
  pure a := .ret a
  bind x f := x.bind f

/-- Code calling nothing. -/
def Tree.res {Q : Type} {A : Q → Type} {α : Type} : Res α → Tree Q A α
  | .ok a => .ret a
  | .panic p => .panic p
  | .diverge => .diverge

/-- One call. -/
def Tree.one {Q : Type} {A : Q → Type} (q : Q) : Tree Q A (A q) := .ask q .ret

variable {K V : Type} (c : Cfg)

/-- `k == key` (a call). -/
def askEq (k : K) : KTree c K V Bool := Tree.one (A := KAns K V c.w) (.eq k)

/-- The hash of a stored key (a call). -/
def askHash (k : K) : KTree c K V (BitVec c.w) := Tree.one (A := KAns K V c.w) (.hash k)

/-- `key.into()` and `value.into()` (two calls). -/
def askInto : KTree c K V Unit := do
  let _ ← (Tree.one (A := KAns K V c.w) .intoKey : KTree c K V Unit)
  Tree.one (A := KAns K V c.w) .intoValue

/-- `key.clone()` and `value.clone()` of an entry (two calls). -/
def askClone (k : K) (v : V) : KTree c K V Unit := do
  let _ ← (Tree.one (A := KAns K V c.w) (.cloneKey k) : KTree c K V Unit)
  Tree.one (A := KAns K V c.w) (.cloneValue v)

/-- As `SNode.find` (`/repo/src/node/snode.rs:31-38`). -/
def SNode.findK (s : SNode K V) : KTree c K V (Option (K × V)) := do
  if ← askEq c s.key then pure (some (s.key, s.value)) else pure none

/-- As `LNode.find` (`/repo/src/node/lnode.rs:75-85`). -/
def LNode.findK : LNode K V → KTree c K V (Option (K × V))
  | .nextS k v s _ => do
    if ← askEq c k then pure (some (k, v)) else s.findK c
  | .nextL k v l _ => do
    if ← askEq c k then pure (some (k, v)) else l.findK

/-- As `liftL` (`/repo/src/node/lnode.rs:1213-1236`). -/
def liftLK (this : LNext K V) (k : K) (v : V) (keyFlag : Flag c) : KTree c K V (InsertResult c.n K V) := do
  let thisHash ← askHash c this.key
  if thisHash = keyFlag.hashValue then do
    askInto c
    pure (.inserted (.L (LNode.new k v this)) (k, v) none)
  else do
    let tf ← .res (Flag.newAtDepth thisHash keyFlag.depth)
    let tf ← .res (Res.unwrap tf)
    askInto c
    let m ← .res (liftC c this.toNode tf (.S ⟨k, v⟩) keyFlag)
    pure (.inserted m (k, v) none)

/-- As `SNode.insert` (`/repo/src/node/snode.rs:42-63`). -/
def SNode.insertK (k : K) (v : V) (replace : Bool) (this : SNode K V) (keyFlag : Option (Flag c)) :
    KTree c K V (InsertResult c.n K V) := do
  if ← askEq c this.key then
    if replace then do
      askInto c
      pure (.inserted (.S ⟨k, v⟩) (k, v) (some (this.key, this.value)))
    else pure (.found this.key this.value)
  else do
    let f ← .res (Res.unwrap keyFlag)
    liftLK c (.S this) k v f

/-- As `SNode.remove` (`/repo/src/node/snode.rs:65-72`). -/
def SNode.removeK {n : Nat} (this : SNode K V) : KTree c K V (RemoveResult n K V) := do
  if ← askEq c this.key then pure (.removedZ this.key this.value) else pure .notFound

/-- As `LNode.removeFrom` (`/repo/src/node/lnode.rs:129-149`). -/
def LNode.removeFromK : LNode K V → KTree c K V (LNodeRemoveResult K V)
  | .nextS k v s _ => do
    if ← askEq c k then pure (.removedS s k v)
    else if ← askEq c s.key then do
      askClone c k v
      pure (.removedS ⟨k, v⟩ s.key s.value)
    else pure .notFound
  | .nextL k v l _ => do
    if ← askEq c k then pure (.removedL l k v)
    else match ← l.removeFromK with
      | .notFound => pure .notFound
      | .removedL l' k' v' => do
        askClone c k v
        pure (.removedL (LNode.new k v (.L l')) k' v')
      | .removedS s' k' v' => do
        askClone c k v
        pure (.removedL (LNode.new k v (.S s')) k' v')

/-- As `LNode.remove` (`/repo/src/node/lnode.rs:121-127`). -/
def LNode.removeK {n : Nat} (this : LNode K V) : KTree c K V (RemoveResult n K V) := do
  match ← this.removeFromK c with
  | .notFound => pure .notFound
  | .removedL l k v => pure (.removed (.L l) k v)
  | .removedS s k v => pure (.removed (.S s) k v)

/-- The replacement in `LNode.insert` (`/repo/src/node/lnode.rs:97-112`), after `remove_from_lnode`. -/
def LNode.replaceK (k : K) (v : V) : LNodeRemoveResult K V → KTree c K V (InsertResult c.n K V)
  | .removedL l pk pv => do
    askInto c
    pure (.inserted (.L (LNode.new k v (.L l))) (k, v) (some (pk, pv)))
  | .removedS s pk pv => do
    askInto c
    pure (.inserted (.L (LNode.new k v (.S s))) (k, v) (some (pk, pv)))
  | .notFound => .panic .explicit

/-- As `LNode.insert` (`/repo/src/node/lnode.rs:89-119`). -/
def LNode.insertK (k : K) (v : V) (replace : Bool) (this : LNode K V) (keyFlag : Option (Flag c)) :
    KTree c K V (InsertResult c.n K V) := do
  match ← this.findK c with
  | some (fk, fv) =>
    if replace then do
      let r ← this.removeFromK c
      LNode.replaceK c k v r
    else pure (.found fk fv)
  | none => do
    let f ← .res (Res.unwrap keyFlag)
    liftLK c (.L this) k v f

mutual

/-- As `Node.find` (`/repo/src/node/mnode.rs:22-31`, `/repo/src/node/cnode.rs:24-33`). -/
def Node.findK : Node c.n K V → Option (Flag c) → KTree c K V (Option (K × V))
  | .C bits values extra, flag => do
    let f ← .res (Res.unwrap flag)
    match (Bia.mk bits (Node.findAllK values) extra).at' f.flag with
    | .ok run => run f
    | .error _ => pure none
  | .L l, _ => l.findK c
  | .S s, _ => s.findK c

/-- As `Node.findAll` (`/repo/src/node/cnode.rs:26-30`). -/
def Node.findAllK : List (Node c.n K V) → List (Flag c → KTree c K V (Option (K × V)))
  | [] => []
  | m :: ms =>
    (fun f => match m with
      | .C .. => do
        let nx ← .res f.next
        m.findK nx
      | .L l => l.findK c
      | .S s => s.findK c) :: Node.findAllK ms

end

mutual

/-- As `Node.insert` (`/repo/src/node/mnode.rs:33-44`, `/repo/src/node/cnode.rs:77-115`). -/
def Node.insertK (k : K) (v : V) (replace : Bool) :
    Node c.n K V → Option (Flag c) → KTree c K V (InsertResult c.n K V)
  | .C bits values extra, flag => do
    let f ← .res (Res.unwrap flag)
    match (Bia.mk bits (Node.insertAllK k v replace values) extra).at' f.flag with
    | .ok run => do
      let nx ← .res f.next
      let r ← run nx extra
      match r with
      | .inl (fk, fv) => pure (.found fk fv)
      | .inr (m, size, ptr, prev) => do
        let a ← .res ((Bia.mk bits values extra).updated f.flag m size)
        let a ← .res (Res.unwrapE a)
        pure (.inserted (Node.ofBia a) ptr prev)
    | .error _ => do
      askInto c
      let a ← .res ((Bia.mk bits values extra).inserted f.flag (.S ⟨k, v⟩) (extra + 1))
      let a ← .res (Res.unwrapE a)
      pure (.inserted (Node.ofBia a) (k, v) none)
  | .L l, flag => l.insertK c k v replace flag
  | .S s, flag => s.insertK c k v replace flag

/-- As `Node.insertAll` (`/repo/src/node/cnode.rs:85-107`). -/
def Node.insertAllK (k : K) (v : V) (replace : Bool) :
    List (Node c.n K V) →
    List (Option (Flag c) → Nat →
      KTree c K V ((K × V) ⊕ (Node c.n K V × Nat × (K × V) × Option (K × V))))
  | [] => []
  | m :: ms =>
    (fun nx selfSize => do
      let r ← m.insertK k v replace nx
      .res (m.insertStep selfSize r)) :: Node.insertAllK k v replace ms

end

/-- The arms of the inner `match` of `CNode::remove` (`/repo/src/node/cnode.rs:38-58`) after the recursive call. -/
def Node.removeStep {c : Cfg} (bits : BitVec c.n) (values : List (Node c.n K V)) (extra : Nat) (flag : BitVec c.n) :
    RemoveResult c.n K V → Res (RemoveResult c.n K V)
  | .notFound => .ok .notFound
  | .removed m k v =>
    match m with
    | .C _ _ 0 => .panic .explicit
    | _ => do
      let z ← usub extra 1
      let a ← (Bia.mk bits values extra).updated flag m z
      let a ← Res.unwrapE a
      .ok (.removed (Node.ofBia a) k v)
  | .removedZ k v =>
    if extra = 1 then .ok (.removedZ k v)
    else do
      let z ← usub extra 1
      let a ← (Bia.mk bits values extra).removed flag z
      let a ← Res.unwrapE a
      .ok (.removed (Node.ofBia a) k v)

mutual

/-- As `Node.remove` (`/repo/src/node/mnode.rs:46-52`, `/repo/src/node/cnode.rs:35-62`). -/
def Node.removeK : Node c.n K V → Option (Flag c) → KTree c K V (RemoveResult c.n K V)
  | .C bits values extra, flag => do
    let f ← .res (Res.unwrap flag)
    match (Bia.mk bits (Node.removeAllK values) extra).at' f.flag with
    | .ok run => do
      let nx ← .res f.next
      let r ← run nx
      .res (Node.removeStep bits values extra f.flag r)
    | .error _ => pure .notFound
  | .L l, _ => l.removeK c
  | .S s, _ => s.removeK c

/-- As `Node.removeAll` (`/repo/src/node/cnode.rs:37`). -/
def Node.removeAllK : List (Node c.n K V) → List (Option (Flag c) → KTree c K V (RemoveResult c.n K V))
  | [] => []
  | m :: ms => (fun nx => m.removeK nx) :: Node.removeAllK ms

end

namespace Trie
variable {c}

/-- As `Trie.findQ` (`/repo/src/hash_trie.rs:29-34`). -/
def findK (t : Trie c K V) : KTree c K V (Option (K × V)) := do
  let h ← (Tree.one (A := KAns K V c.w) .lookupHash : KTree c K V (BitVec c.w))
  let f ← .res (Flag.new h)
  t.root.findK c (some f)

/-- As `Trie.insertQ` (`/repo/src/hash_trie.rs:36-49`). -/
def insertK (t : Trie c K V) (k : K) (v : V) (replace : Bool) :
    KTree c K V (Except (K × V) (Trie c K V × (K × V) × Option (K × V))) := do
  let h ← (Tree.one (A := KAns K V c.w) .lookupHash : KTree c K V (BitVec c.w))
  let f ← .res (Flag.new h)
  let r ← t.root.insertK c k v replace (some f)
  match r with
  | .found k0 v0 => pure (.error (k0, v0))
  | .inserted m ptr prev => pure (.ok (⟨m⟩, ptr, prev))

/-- As `Trie.removeQ` (`/repo/src/hash_trie.rs:51-59`). -/
def removeK (t : Trie c K V) : KTree c K V (Option (Trie c K V × (K × V))) := do
  let h ← (Tree.one (A := KAns K V c.w) .lookupHash : KTree c K V (BitVec c.w))
  let f ← .res (Flag.new h)
  let r ← t.root.removeK c (some f)
  match r with
  | .notFound => pure none
  | .removed m k v => pure (some (⟨m⟩, (k, v)))
  | .removedZ k v => pure (some (new c, (k, v)))

end Trie
end HT
