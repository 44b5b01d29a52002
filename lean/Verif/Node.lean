import Verif.Bia
import Verif.Flag
/-!
# Nodes, and the single-map operations find / insert / remove / visit / size

Models `/repo/src/node/{snode,lnode,cnode,mnode}.rs` for these operations.

Simplifications, throughout:
* `Arc<_>` sharing is not represented: a node is its (immutable) contents.
* `usize` sizes are natural numbers; subtractions are checked (`usub`).
* A lookup key of a foreign type `L` enters only through `q : K → Bool` (the test
  `stored_key == lookup_key`), its conversion `key.into() : K`, and its `Flag` (its hash).
* `HasherBv::hash` on stored keys is a function `hash : K → BitVec w`.
* A `*const K, *const V` returned by insert is the pair it points to.
-/
namespace HT

/-- `usize` subtraction (underflow is reported as a panic in both kinds of build, so that the
    theorems exclude it in both). -/
def usub (a b : Nat) : Res Nat := if b ≤ a then .ok (a - b) else .panic .subOverflow

/-- `struct SNode` (`/repo/src/node/snode.rs:5-9`). -/
structure SNode (K V : Type) where
  key : K
  value : V
  deriving DecidableEq, Repr

/-- `struct LNode` with its `next: LNodeNext` (`/repo/src/node/lnode.rs:5-9`, `29-35`): a collision
    list; the two constructors are the two cases of `next`. -/
inductive LNode (K V : Type) where
  | nextS (key : K) (value : V) (next : SNode K V) (size : Nat)
  | nextL (key : K) (value : V) (next : LNode K V) (size : Nat)
  deriving DecidableEq, Repr

/-- `enum LNodeNext` (`/repo/src/node/lnode.rs:5-9`). -/
inductive LNext (K V : Type) where
  | L (l : LNode K V)
  | S (s : SNode K V)
  deriving DecidableEq, Repr

/-- `enum MNode` (`/repo/src/node/mnode.rs:5-10`) with `CNode` (`/repo/src/node/cnode.rs:8-11`)
    unfolded: a `CNode` is a bit-indexed array of nodes whose `extra` is the cached size. -/
inductive Node (n : Nat) (K V : Type) where
  | C (bits : BitVec n) (values : List (Node n K V)) (extra : Nat)
  | L (l : LNode K V)
  | S (s : SNode K V)

variable {K V : Type}

namespace SNode

/-- `SNode::find` (`/repo/src/node/snode.rs:31-38`). -/
def find (q : K → Bool) (s : SNode K V) : Option (K × V) :=
  if q s.key then some (s.key, s.value) else none

/-- `SNode::visit` (`/repo/src/node/snode.rs:27-29`): the calls made to `op`, in order. -/
def visit (s : SNode K V) : List (K × V) := [(s.key, s.value)]

end SNode

namespace LNode

/-- `LNode::key` (`/repo/src/node/lnode.rs:38-41`). -/
def key : LNode K V → K
  | nextS k _ _ _ => k
  | nextL k _ _ _ => k

/-- `LNode::value` (`/repo/src/node/lnode.rs:43-46`). -/
def value : LNode K V → V
  | nextS _ v _ _ => v
  | nextL _ v _ _ => v

/-- field `next` (`/repo/src/node/lnode.rs:33`). -/
def next : LNode K V → LNext K V
  | nextS _ _ s _ => .S s
  | nextL _ _ l _ => .L l

/-- `LNode::size` (`/repo/src/node/lnode.rs:62-65`). -/
def size : LNode K V → Nat
  | nextS _ _ _ z => z
  | nextL _ _ _ z => z

/-- `LNode::new` (`/repo/src/node/lnode.rs:48-60`). -/
def new (k : K) (v : V) : LNext K V → LNode K V
  | .L l => .nextL k v l (1 + l.size)
  | .S s => .nextS k v s (1 + 1)

/-- `LNode::visit` (`/repo/src/node/lnode.rs:67-73`): the calls made to `op`, in order. -/
def visit : LNode K V → List (K × V)
  | nextS k v s _ => (k, v) :: s.visit
  | nextL k v l _ => (k, v) :: l.visit

/-- `LNode::find` (`/repo/src/node/lnode.rs:75-85`). -/
def find (q : K → Bool) : LNode K V → Option (K × V)
  | nextS k v s _ => if q k then some (k, v) else s.find q
  | nextL k v l _ => if q k then some (k, v) else l.find q

end LNode

/-- `LNodeNext::key` (`/repo/src/node/lnode.rs:11-18`). -/
def LNext.key : LNext K V → K
  | .L l => l.key
  | .S s => s.key

/-- `From<LNodeNext> for MNode` (`/repo/src/node/lnode.rs:20-27`). -/
def LNext.toNode {n : Nat} : LNext K V → Node n K V
  | .L l => .L l
  | .S s => .S s

namespace Node
variable {n : Nat}

/-- `MNode::size` (`/repo/src/node/mnode.rs:14-20`), `CNode::size` (`/repo/src/node/cnode.rs:20-22`). -/
def size : Node n K V → Nat
  | .C _ _ extra => extra
  | .L l => l.size
  | .S _ => 1

/-- `CNode::new` (`/repo/src/node/cnode.rs:15-17`). -/
def ofBia (a : Bia n (Node n K V)) : Node n K V := .C a.bits a.values a.extra

/-- `MNode::default` / `CNode::default` (`/repo/src/node/mnode.rs:357-361`,
    `/repo/src/node/cnode.rs:1640-1644`). -/
def default : Node n K V := ofBia Bia.default

end Node

/-- `enum InsertResult` (`/repo/src/results.rs:31-37`) with `CNodeInsertResult` and
    `LNodeInsertResult` (39-70): the constructors `InsertedC/L/S` are `inserted` of a `C/L/S` node. -/
inductive InsertResult (n : Nat) (K V : Type) where
  | found (k : K) (v : V)
  | inserted (node : Node n K V) (ptr : K × V) (prev : Option (K × V))

/-- `enum RemoveResult` (`/repo/src/results.rs:72-79`); `RemovedC/L/S` are `removed`. -/
inductive RemoveResult (n : Nat) (K V : Type) where
  | notFound
  | removed (node : Node n K V) (k : K) (v : V)
  | removedZ (k : K) (v : V)

/-- `enum LNodeRemoveResult` (`/repo/src/results.rs:81-86`). -/
inductive LNodeRemoveResult (K V : Type) where
  | notFound
  | removedL (l : LNode K V) (k : K) (v : V)
  | removedS (s : SNode K V) (k : K) (v : V)

variable (c : Cfg)

/-- `cnode::lift_to_cnode_and_insert` (`/repo/src/node/cnode.rs:1615-1630`).
    The recursion of the code ends because `next` fails once `depth * log_b ≥ 8 * max_ones`. -/
def liftC (this : Node c.n K V) (thisFlag : Flag c) (right : Node c.n K V) (rightFlag : Flag c) :
    Res (Node c.n K V) :=
  let size := this.size + right.size
  if thisFlag.flag = rightFlag.flag then
    match _h : thisFlag.next with
    | .panic p => .panic p
    | .diverge => .diverge
    | .ok none => .panic .unwrap
    | .ok (some tf) => do
      let rf ← rightFlag.next
      let rf ← Res.unwrap rf
      let inner ← liftC this tf right rf
      let a ← Bia.ofVec thisFlag.flag [inner] size
      let a ← Res.unwrapE a
      .ok (Node.ofBia a)
  else do
    let flags ← Res.unwrapE (bitInsert thisFlag.flag rightFlag.flag)
    let i ← Res.unwrapE (bitIndex flags thisFlag.flag)
    let values := if i = 0 then [this, right] else [right, this]
    let a ← Bia.ofVec flags values size
    let a ← Res.unwrapE a
    .ok (Node.ofBia a)
termination_by 8 * c.w - thisFlag.depth
decreasing_by
  simp only [Flag.next, Flag.newAtDepth] at _h
  split at _h
  · simp at _h
  · rename_i hlt
    have hb := c.bpos
    simp only [Res.bind_eq_ok] at _h
    obtain ⟨x, _, y, _, hz⟩ := _h
    injection hz with hz
    injection hz with hz
    subst hz
    have : thisFlag.depth + 1 ≤ (thisFlag.depth + 1) * c.b := Nat.le_mul_of_pos_right _ hb
    show 8 * c.w - (thisFlag.depth + 1) < 8 * c.w - thisFlag.depth
    omega

variable (hash : K → BitVec c.w)

/-- `lnode::lift_to_cnode_and_insert` (`/repo/src/node/lnode.rs:1213-1236`).
    `k` is `key.into()`, `v` is `value.into()`. -/
def liftL (this : LNext K V) (k : K) (v : V) (keyFlag : Flag c) : Res (InsertResult c.n K V) :=
  let thisHash := hash this.key
  if thisHash = keyFlag.hashValue then
    .ok (.inserted (.L (LNode.new k v this)) (k, v) none)
  else do
    let tf ← Flag.newAtDepth thisHash keyFlag.depth
    let tf ← Res.unwrap tf
    let m ← liftC c this.toNode tf (.S ⟨k, v⟩) keyFlag
    .ok (.inserted m (k, v) none)

/-- `snode::insert` (`/repo/src/node/snode.rs:42-63`). -/
def SNode.insert (q : K → Bool) (k : K) (v : V) (replace : Bool) (this : SNode K V)
    (keyFlag : Option (Flag c)) : Res (InsertResult c.n K V) :=
  if q this.key then
    if replace then .ok (.inserted (.S ⟨k, v⟩) (k, v) (some (this.key, this.value)))
    else .ok (.found this.key this.value)
  else do
    let f ← Res.unwrap keyFlag
    liftL c hash (.S this) k v f

/-- `snode::remove` (`/repo/src/node/snode.rs:65-72`). -/
def SNode.remove {n : Nat} (q : K → Bool) (this : SNode K V) : RemoveResult n K V :=
  if q this.key then .removedZ this.key this.value else .notFound

/-- `lnode::remove_from_lnode` (`/repo/src/node/lnode.rs:129-149`). -/
def LNode.removeFrom (q : K → Bool) : LNode K V → LNodeRemoveResult K V
  | .nextS k v s _ =>
    if q k then .removedS s k v
    else if q s.key then .removedS ⟨k, v⟩ s.key s.value
    else .notFound
  | .nextL k v l _ =>
    if q k then .removedL l k v
    else match l.removeFrom q with
      | .notFound => .notFound
      | .removedL l' k' v' => .removedL (LNode.new k v (.L l')) k' v'
      | .removedS s' k' v' => .removedL (LNode.new k v (.S s')) k' v'

/-- `lnode::remove` (`/repo/src/node/lnode.rs:121-127`). -/
def LNode.remove {n : Nat} (q : K → Bool) (this : LNode K V) : RemoveResult n K V :=
  match this.removeFrom q with
  | .notFound => .notFound
  | .removedL l k v => .removed (.L l) k v
  | .removedS s k v => .removed (.S s) k v

/-- `lnode::insert` (`/repo/src/node/lnode.rs:89-119`). -/
def LNode.insert (q : K → Bool) (k : K) (v : V) (replace : Bool) (this : LNode K V)
    (keyFlag : Option (Flag c)) : Res (InsertResult c.n K V) :=
  match this.find q with
  | some (fk, fv) =>
    if replace then
      match this.removeFrom q with
      | .removedL l pk pv => .ok (.inserted (.L (LNode.new k v (.L l))) (k, v) (some (pk, pv)))
      | .removedS s pk pv => .ok (.inserted (.L (LNode.new k v (.S s))) (k, v) (some (pk, pv)))
      | .notFound => .panic .explicit
    else .ok (.found fk fv)
  | none => do
    let f ← Res.unwrap keyFlag
    liftL c hash (.L this) k v f

mutual

/-- `MNode::find` (`/repo/src/node/mnode.rs:22-31`), `CNode::find` (`/repo/src/node/cnode.rs:24-33`).
    The recursive calls are tabulated per child (`findAll`); only the one looked up is run. -/
def Node.find (q : K → Bool) : Node c.n K V → Option (Flag c) → Res (Option (K × V))
  | .C bits values extra, flag => do
    let f ← Res.unwrap flag
    match (Bia.mk bits (Node.findAll q values) extra).at' f.flag with
    | .ok run => run f
    | .error _ => .ok none
  | .L l, _ => .ok (l.find q)
  | .S s, _ => .ok (s.find q)

/-- The inner `match node` of `CNode::find` (`/repo/src/node/cnode.rs:26-30`) for every child:
    `flag.next()` is evaluated only when the child is a `C`. -/
def Node.findAll (q : K → Bool) : List (Node c.n K V) → List (Flag c → Res (Option (K × V)))
  | [] => []
  | m :: ms =>
    (fun f => match m with
      | .C .. => do
        let nx ← f.next
        m.find q nx
      | .L l => .ok (l.find q)
      | .S s => .ok (s.find q)) :: Node.findAll q ms

end

/-- The arms of the inner `match node` of `CNode::insert` (`/repo/src/node/cnode.rs:85-107`) after the
    recursive call on child `m` returned `r`: either the existing entry, or the new child, the new size
    of the parent (`selfSize` is `self.size()`), the pointers and the previous entry. -/
def Node.insertStep {n : Nat} (m : Node n K V) (selfSize : Nat) :
    InsertResult n K V → Res ((K × V) ⊕ (Node n K V × Nat × (K × V) × Option (K × V)))
  | .found fk fv => .ok (.inl (fk, fv))
  | .inserted m2 ptr prev =>
    match m, m2 with
    | .C .., .C .. => do
      let z ← usub (selfSize + m2.size) m.size
      .ok (.inr (m2, z, ptr, prev))
    | .L _, .C .. => .ok (.inr (m2, selfSize + 1, ptr, prev))
    | .L _, .L _ => do
      let z ← usub (selfSize + m2.size) m.size
      .ok (.inr (m2, z, ptr, prev))
    | .S _, .C .. => .ok (.inr (m2, selfSize + 1, ptr, prev))
    | .S _, .L _ => .ok (.inr (m2, selfSize + 1, ptr, prev))
    | .S _, .S _ => .ok (.inr (m2, selfSize, ptr, prev))
    -- the remaining combinations do not exist in the code's result types
    -- (`CNodeInsertResult` has no `InsertedL/S`, `LNodeInsertResult` no `InsertedS`)
    | .C .., .L _ => .panic .explicit
    | .C .., .S _ => .panic .explicit
    | .L _, .S _ => .panic .explicit

mutual

/-- `MNode::insert` (`/repo/src/node/mnode.rs:33-44`), `CNode::insert`
    (`/repo/src/node/cnode.rs:77-115`). -/
def Node.insert (q : K → Bool) (k : K) (v : V) (replace : Bool) :
    Node c.n K V → Option (Flag c) → Res (InsertResult c.n K V)
  | .C bits values extra, flag => do
    let f ← Res.unwrap flag
    match (Bia.mk bits (Node.insertAll q k v replace values) extra).at' f.flag with
    | .ok run => do
      let nx ← f.next
      let r ← run nx extra
      match r with
      | .inl (fk, fv) => .ok (.found fk fv)
      | .inr (m, size, ptr, prev) => do
        let a ← (Bia.mk bits values extra).updated f.flag m size
        let a ← Res.unwrapE a
        .ok (.inserted (Node.ofBia a) ptr prev)
    | .error _ => do
      let a ← (Bia.mk bits values extra).inserted f.flag (.S ⟨k, v⟩) (extra + 1)
      let a ← Res.unwrapE a
      .ok (.inserted (Node.ofBia a) (k, v) none)
  | .L l, flag => l.insert c hash q k v replace flag
  | .S s, flag => s.insert c hash q k v replace flag

/-- The inner `match node` of `CNode::insert` (`/repo/src/node/cnode.rs:85-107`) for every child, given
    `flag.next()` and `self.size()`. -/
def Node.insertAll (q : K → Bool) (k : K) (v : V) (replace : Bool) :
    List (Node c.n K V) →
    List (Option (Flag c) → Nat →
      Res ((K × V) ⊕ (Node c.n K V × Nat × (K × V) × Option (K × V))))
  | [] => []
  | m :: ms =>
    (fun nx selfSize => do
      let r ← m.insert q k v replace nx
      m.insertStep selfSize r) :: Node.insertAll q k v replace ms

end

mutual

/-- `MNode::remove` (`/repo/src/node/mnode.rs:46-52`), `CNode::remove`
    (`/repo/src/node/cnode.rs:35-62`).  `flag.next()` is evaluated for every kind of child. -/
def Node.remove (q : K → Bool) : Node c.n K V → Option (Flag c) → Res (RemoveResult c.n K V)
  | .C bits values extra, flag => do
    let f ← Res.unwrap flag
    match (Bia.mk bits (Node.removeAll q values) extra).at' f.flag with
    | .ok run => do
      let nx ← f.next
      let r ← run nx
      match r with
      | .notFound => .ok .notFound
      | .removed m k v =>
        match m with
        | .C _ _ 0 => .panic .explicit
        | _ => do
          let z ← usub extra 1
          let a ← (Bia.mk bits values extra).updated f.flag m z
          let a ← Res.unwrapE a
          .ok (.removed (Node.ofBia a) k v)
      | .removedZ k v =>
        if extra = 1 then .ok (.removedZ k v)
        else do
          let z ← usub extra 1
          let a ← (Bia.mk bits values extra).removed f.flag z
          let a ← Res.unwrapE a
          .ok (.removed (Node.ofBia a) k v)
    | .error _ => .ok .notFound
  | .L l, _ => .ok (l.remove q)
  | .S s, _ => .ok (s.remove q)

/-- `node.remove(key, _)` for every child (`/repo/src/node/cnode.rs:37`). -/
def Node.removeAll (q : K → Bool) :
    List (Node c.n K V) → List (Option (Flag c) → Res (RemoveResult c.n K V))
  | [] => []
  | m :: ms => (fun nx => m.remove q nx) :: Node.removeAll q ms

end

mutual

/-- `MNode::visit` (`/repo/src/node/mnode.rs:54-60`), `CNode::visit` (`/repo/src/node/cnode.rs:64-72`):
    the calls made to `op`, in order. -/
def Node.visit {n : Nat} : Node n K V → List (K × V)
  | .C _ values _ => Node.visitAll values
  | .L l => l.visit
  | .S s => s.visit

/-- The loop of `CNode::visit` (`/repo/src/node/cnode.rs:65-71`). -/
def Node.visitAll {n : Nat} : List (Node n K V) → List (K × V)
  | [] => []
  | m :: ms => m.visit ++ Node.visitAll ms

end

end HT
