import Verif.Arc
/-! # Lookup, with the addresses of the references it returns

`find` returns references to the key and the value inside an object of the map. Here the address of that object is kept. -/
namespace HT
variable {K V : Type}

/-- `SNode::find` (`/repo/src/node/snode.rs:31-38`): references into this object. -/
def ASNode.findP (q : K → Bool) (s : ASNode K V) : Option (Nat × K × V) :=
  if q s.key then some (s.addr, s.key, s.value) else none

/-- `LNode::find` (`/repo/src/node/lnode.rs:75-85`): references into this cell, or what the rest of the list finds. -/
def ALNode.findP (q : K → Bool) : ALNode K V → Option (Nat × K × V)
  | .nextS a k v s _ => if q k then some (a, k, v) else s.findP q
  | .nextL a k v l _ => if q k then some (a, k, v) else l.findP q

variable {c : Cfg}

mutual

/-- `MNode::find` (`/repo/src/node/mnode.rs:22-31`), `CNode::find` (`/repo/src/node/cnode.rs:24-33`), as `Node.find`. -/
def ANode.findP (q : K → Bool) : ANode c.n K V → Option (Flag c) → Res (Option (Nat × K × V))
  | .C _ bits values extra, flag => do
    let f ← Res.unwrap flag
    match (Bia.mk bits (ANode.findAllP q values) extra).at' f.flag with
    | .ok run => run f
    | .error _ => .ok none
  | .L l, _ => .ok (l.findP q)
  | .S s, _ => .ok (s.findP q)

/-- The inner `match node` of `CNode::find` (`/repo/src/node/cnode.rs:26-30`) for every child. -/
def ANode.findAllP (q : K → Bool) : List (ANode c.n K V) → List (Flag c → Res (Option (Nat × K × V)))
  | [] => []
  | m :: ms =>
    (fun f => match m with
      | .C .. => do
        let nx ← f.next
        m.findP q nx
      | .L l => .ok (l.findP q)
      | .S s => .ok (s.findP q)) :: ANode.findAllP q ms

end

/-- `HashTrie::find` (`/repo/src/hash_trie.rs:29-34`), `HashTrieMap::find` (`/repo/src/map.rs:88-90`), `HashTrieSet::find`
    (`/repo/src/set.rs:86-88`): the address of the object the returned references point into, and the key and the value there. -/
def ATrie.findP [BEq K] (hash : K → BitVec c.w) (t : ATrie c K V) (k : K) : Res (Option (Nat × K × V)) := do
  let f ← Flag.new (hash k)
  t.root.findP (· == k) (some f)

end HT
