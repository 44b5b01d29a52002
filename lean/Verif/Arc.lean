import Verif.Transform
/-!
# Allocation: nodes with addresses

The rest of the model represents a node by its contents.  `==` on tries compares addresses, so this file models the
functions that make and return nodes once more, with an address on every `Arc` (`Arc<SNode>`, `Arc<LNode>`, and the
`Arc<dyn BitIndexedArray>` of a `CNode`).  Cloning an `Arc` keeps the address; `SNode::new`, `LNode::new` and `CNode::new`
allocate.  `Verif/ArcInsert.lean`, `Verif/ArcTransform.lean` and `Verif/ArcTrie.lean` prove that forgetting the addresses gives the functions of `Verif/Node.lean` and
`Verif/Transform.lean`.

Simplification: addresses come from a counter and are never reused.  `Verif/Props/Threads.lean` (C56) proves that callers
cannot tell the difference to an allocator that reuses the addresses of objects no map has any more.
-/
namespace HT

variable {K V R : Type}

/-- Code that allocates: `s` is the next free address. -/
def Al (α : Type) := Nat → Res (α × Nat)

namespace Al
variable {α β : Type}

def bind (x : Al α) (f : α → Al β) : Al β := fun s =>
  match x s with
  | .ok (a, s') => f a s'
  | .panic p => .panic p
  | .diverge => .diverge

instance : Monad Al where
  pure a := fun s => .ok (a, s)
  bind := Al.bind

/-- Code that does not allocate. -/
def lift (x : Res α) : Al α := fun s =>
  match x with
  | .ok a => .ok (a, s)
  | .panic p => .panic p
  | .diverge => .diverge

/-- `Arc::new` (`/repo/src/node/snode.rs:24`, `/repo/src/node/lnode.rs:54`) and the conversion of a `Box` to an `Arc`
    (`/repo/src/node/cnode.rs:16`): the address of the new object. -/
def fresh : Al Nat := fun s => .ok (s, s + 1)

end Al

/-- `Arc<SNode>` (`/repo/src/node/snode.rs:5-9`). -/
structure ASNode (K V : Type) where
  addr : Nat
  key : K
  value : V
  deriving DecidableEq, Repr

/-- `Arc<LNode>` (`/repo/src/node/lnode.rs:29-35`); the constructors are the two cases of `next`. -/
inductive ALNode (K V : Type) where
  | nextS (addr : Nat) (key : K) (value : V) (next : ASNode K V) (size : Nat)
  | nextL (addr : Nat) (key : K) (value : V) (next : ALNode K V) (size : Nat)
  deriving DecidableEq, Repr

/-- `enum LNodeNext` (`/repo/src/node/lnode.rs:5-9`). -/
inductive ALNext (K V : Type) where
  | L (l : ALNode K V)
  | S (s : ASNode K V)

/-- `enum MNode` (`/repo/src/node/mnode.rs:5-10`) with `CNode` (`/repo/src/node/cnode.rs:8-11`) unfolded. -/
inductive ANode (n : Nat) (K V : Type) where
  | C (addr : Nat) (bits : BitVec n) (values : List (ANode n K V)) (extra : Nat)
  | L (l : ALNode K V)
  | S (s : ASNode K V)

namespace ALNode

def addr : ALNode K V → Nat
  | nextS a _ _ _ _ => a
  | nextL a _ _ _ _ => a

/-- `LNode::key` (`/repo/src/node/lnode.rs:38-41`). -/
def key : ALNode K V → K
  | nextS _ k _ _ _ => k
  | nextL _ k _ _ _ => k

/-- `LNode::value` (`/repo/src/node/lnode.rs:43-46`). -/
def value : ALNode K V → V
  | nextS _ _ v _ _ => v
  | nextL _ _ v _ _ => v

/-- field `next` (`/repo/src/node/lnode.rs:33`). -/
def next : ALNode K V → ALNext K V
  | nextS _ _ _ s _ => .S s
  | nextL _ _ _ l _ => .L l

/-- `LNode::size` (`/repo/src/node/lnode.rs:62-65`). -/
def size : ALNode K V → Nat
  | nextS _ _ _ _ z => z
  | nextL _ _ _ _ z => z

/-- `LNode::find` (`/repo/src/node/lnode.rs:75-85`). -/
def find (q : K → Bool) : ALNode K V → Option (K × V)
  | nextS _ k v s _ => if q k then some (k, v) else if q s.key then some (s.key, s.value) else none
  | nextL _ k v l _ => if q k then some (k, v) else l.find q

/-- `LNode::new` (`/repo/src/node/lnode.rs:48-60`). -/
def new (k : K) (v : V) : ALNext K V → Al (ALNode K V)
  | .L l => do
    let a ← Al.fresh
    pure (.nextL a k v l (1 + l.size))
  | .S s => do
    let a ← Al.fresh
    pure (.nextS a k v s (1 + 1))

end ALNode

/-- `SNode::new` (`/repo/src/node/snode.rs:22-25`). -/
def ASNode.new (k : K) (v : V) : Al (ASNode K V) := do
  let a ← Al.fresh
  pure ⟨a, k, v⟩

/-- `LNodeNext::key` (`/repo/src/node/lnode.rs:11-18`). -/
def ALNext.key : ALNext K V → K
  | .L l => l.key
  | .S s => s.key

/-- `From<LNodeNext> for MNode` (`/repo/src/node/lnode.rs:20-27`). -/
def ALNext.toNode {n : Nat} : ALNext K V → ANode n K V
  | .L l => .L l
  | .S s => .S s

namespace ANode
variable {n : Nat}

/-- The address a node is compared by. -/
def addr : ANode n K V → Nat
  | .C a _ _ _ => a
  | .L l => l.addr
  | .S s => s.addr

/-- `MNode::size` (`/repo/src/node/mnode.rs:14-20`). -/
def size : ANode n K V → Nat
  | .C _ _ _ extra => extra
  | .L l => l.size
  | .S _ => 1

/-- `CNode::new` (`/repo/src/node/cnode.rs:15-17`). -/
def ofBia (a : Bia n (ANode n K V)) : Al (ANode n K V) := do
  let p ← Al.fresh
  pure (.C p a.bits a.values a.extra)

/-- `MNode::default`, `CNode::default` (`/repo/src/node/mnode.rs:357-361`, `/repo/src/node/cnode.rs:1640-1644`). -/
def default : Al (ANode n K V) := ofBia Bia.default

/-- `PartialEq for MNode` (`/repo/src/node/mnode.rs:365-388`) and `PartialEq for CNode`
    (`/repo/src/node/cnode.rs:1648-1652`). -/
def eq : ANode n K V → ANode n K V → Bool
  | .C a _ _ _, .C b _ _ _ => a == b
  | .L l, .L m => l.addr == m.addr
  | .S s, .S t => s.addr == t.addr
  | _, _ => false

end ANode

/-- `enum InsertResult` (`/repo/src/results.rs:31-70`).  `ptr` is the address of the object the returned `*const K`,
    `*const V` point into. -/
inductive AInsertResult (n : Nat) (K V : Type) where
  | found (k : K) (v : V)
  | inserted (node : ANode n K V) (ptr : Nat) (prev : Option (K × V))

/-- `enum RemoveResult` (`/repo/src/results.rs:72-79`). -/
inductive ARemoveResult (n : Nat) (K V : Type) where
  | notFound
  | removed (node : ANode n K V) (k : K) (v : V)
  | removedZ (k : K) (v : V)

/-- `enum LNodeRemoveResult` (`/repo/src/results.rs:81-86`). -/
inductive ALNodeRemoveResult (K V : Type) where
  | notFound
  | removedL (l : ALNode K V) (k : K) (v : V)
  | removedS (s : ASNode K V) (k : K) (v : V)

variable (c : Cfg)

/-- `cnode::lift_to_cnode_and_insert` (`/repo/src/node/cnode.rs:1615-1630`). -/
def aliftC (this : ANode c.n K V) (thisFlag : Flag c) (right : ANode c.n K V) (rightFlag : Flag c) :
    Al (ANode c.n K V) :=
  let size := this.size + right.size
  if thisFlag.flag = rightFlag.flag then
    match _h : thisFlag.next with
    | .panic p => fun _ => .panic p
    | .diverge => fun _ => .diverge
    | .ok none => fun _ => .panic .unwrap
    | .ok (some tf) => do
      let rf ← Al.lift rightFlag.next
      let rf ← Al.lift (Res.unwrap rf)
      let inner ← aliftC this tf right rf
      let a ← Al.lift (Bia.ofVec thisFlag.flag [inner] size)
      let a ← Al.lift (Res.unwrapE a)
      ANode.ofBia a
  else do
    let flags ← Al.lift (Res.unwrapE (bitInsert thisFlag.flag rightFlag.flag))
    let i ← Al.lift (Res.unwrapE (bitIndex flags thisFlag.flag))
    let values := if i = 0 then [this, right] else [right, this]
    let a ← Al.lift (Bia.ofVec flags values size)
    let a ← Al.lift (Res.unwrapE a)
    ANode.ofBia a
termination_by 8 * c.w - thisFlag.depth
decreasing_by
  simp only [Flag.next, Flag.newAtDepth] at _h
  split at _h
  · simp at _h
  · rename_i hlt
    have hb := c.bpos
    simp only [Res.bind_eq_ok] at _h
    obtain ⟨x, _, y, _, hz⟩ := _h
    injection hz with hz
    injection hz with hz
    subst hz
    have : thisFlag.depth + 1 ≤ (thisFlag.depth + 1) * c.b := Nat.le_mul_of_pos_right _ hb
    show 8 * c.w - (thisFlag.depth + 1) < 8 * c.w - thisFlag.depth
    omega

variable (hash : K → BitVec c.w)

/-- `lnode::lift_to_cnode_and_insert` (`/repo/src/node/lnode.rs:1213-1236`). -/
def aliftL (this : ALNext K V) (k : K) (v : V) (keyFlag : Flag c) : Al (AInsertResult c.n K V) :=
  let thisHash := hash this.key
  if thisHash = keyFlag.hashValue then do
    let l ← ALNode.new k v this
    pure (.inserted (.L l) l.addr none)
  else do
    let tf ← Al.lift (Flag.newAtDepth thisHash keyFlag.depth)
    let tf ← Al.lift (Res.unwrap tf)
    let s ← ASNode.new k v
    let m ← aliftC c this.toNode tf (.S s) keyFlag
    pure (.inserted m s.addr none)

/-- `snode::insert` (`/repo/src/node/snode.rs:42-63`). -/
def ASNode.insert (q : K → Bool) (k : K) (v : V) (replace : Bool) (this : ASNode K V)
    (keyFlag : Option (Flag c)) : Al (AInsertResult c.n K V) :=
  if q this.key then
    if replace then do
      let s ← ASNode.new k v
      pure (.inserted (.S s) s.addr (some (this.key, this.value)))
    else pure (.found this.key this.value)
  else do
    let f ← Al.lift (Res.unwrap keyFlag)
    aliftL c hash (.S this) k v f

/-- `snode::remove` (`/repo/src/node/snode.rs:65-72`). -/
def ASNode.remove {n : Nat} (q : K → Bool) (this : ASNode K V) : ARemoveResult n K V :=
  if q this.key then .removedZ this.key this.value else .notFound

/-- `lnode::remove_from_lnode` (`/repo/src/node/lnode.rs:129-149`). -/
def ALNode.removeFrom (q : K → Bool) : ALNode K V → Al (ALNodeRemoveResult K V)
  | .nextS _ k v s _ =>
    if q k then pure (.removedS s k v)
    else if q s.key then do
      let s' ← ASNode.new k v
      pure (.removedS s' s.key s.value)
    else pure .notFound
  | .nextL _ k v l _ =>
    if q k then pure (.removedL l k v)
    else do
      match ← l.removeFrom q with
      | .notFound => pure .notFound
      | .removedL l' k' v' => do
        let l2 ← ALNode.new k v (.L l')
        pure (.removedL l2 k' v')
      | .removedS s' k' v' => do
        let l2 ← ALNode.new k v (.S s')
        pure (.removedL l2 k' v')

/-- `lnode::remove` (`/repo/src/node/lnode.rs:121-127`). -/
def ALNode.remove {n : Nat} (q : K → Bool) (this : ALNode K V) : Al (ARemoveResult n K V) := do
  match ← this.removeFrom q with
  | .notFound => pure .notFound
  | .removedL l k v => pure (.removed (.L l) k v)
  | .removedS s k v => pure (.removed (.S s) k v)

/-- `lnode::insert` (`/repo/src/node/lnode.rs:89-119`). -/
def ALNode.insert (q : K → Bool) (k : K) (v : V) (replace : Bool) (this : ALNode K V)
    (keyFlag : Option (Flag c)) : Al (AInsertResult c.n K V) :=
  match this.find q with
  | some (fk, fv) =>
    if replace then do
      match ← this.removeFrom q with
      | .removedL l pk pv => do
        let l2 ← ALNode.new k v (.L l)
        pure (.inserted (.L l2) l2.addr (some (pk, pv)))
      | .removedS s pk pv => do
        let l2 ← ALNode.new k v (.S s)
        pure (.inserted (.L l2) l2.addr (some (pk, pv)))
      | .notFound => Al.lift (.panic .explicit)
    else pure (.found fk fv)
  | none => do
    let f ← Al.lift (Res.unwrap keyFlag)
    aliftL c hash (.L this) k v f

/-- As `Node.insertStep`: the arms of the inner `match node` of `CNode::insert` (`/repo/src/node/cnode.rs:85-107`). -/
def ANode.insertStep {n : Nat} (m : ANode n K V) (selfSize : Nat) :
    AInsertResult n K V → Res ((K × V) ⊕ (ANode n K V × Nat × Nat × Option (K × V)))
  | .found fk fv => .ok (.inl (fk, fv))
  | .inserted m2 ptr prev =>
    match m, m2 with
    | .C .., .C .. => do
      let z ← usub (selfSize + m2.size) m.size
      .ok (.inr (m2, z, ptr, prev))
    | .L _, .C .. => .ok (.inr (m2, selfSize + 1, ptr, prev))
    | .L _, .L _ => do
      let z ← usub (selfSize + m2.size) m.size
      .ok (.inr (m2, z, ptr, prev))
    | .S _, .C .. => .ok (.inr (m2, selfSize + 1, ptr, prev))
    | .S _, .L _ => .ok (.inr (m2, selfSize + 1, ptr, prev))
    | .S _, .S _ => .ok (.inr (m2, selfSize, ptr, prev))
    | .C .., .L _ => .panic .explicit
    | .C .., .S _ => .panic .explicit
    | .L _, .S _ => .panic .explicit

mutual

/-- `MNode::insert` (`/repo/src/node/mnode.rs:33-44`), `CNode::insert` (`/repo/src/node/cnode.rs:77-115`). -/
def ANode.insert (q : K → Bool) (k : K) (v : V) (replace : Bool) :
    ANode c.n K V → Option (Flag c) → Al (AInsertResult c.n K V)
  | .C _ bits values extra, flag => do
    let f ← Al.lift (Res.unwrap flag)
    match (Bia.mk bits (ANode.insertAll q k v replace values) extra).at' f.flag with
    | .ok run => do
      let nx ← Al.lift f.next
      let r ← run nx extra
      match r with
      | .inl (fk, fv) => pure (.found fk fv)
      | .inr (m, size, ptr, prev) => do
        let a ← Al.lift ((Bia.mk bits values extra).updated f.flag m size)
        let a ← Al.lift (Res.unwrapE a)
        let m' ← ANode.ofBia a
        pure (.inserted m' ptr prev)
    | .error _ => do
      let s ← ASNode.new k v
      let a ← Al.lift ((Bia.mk bits values extra).inserted f.flag (.S s) (extra + 1))
      let a ← Al.lift (Res.unwrapE a)
      let m' ← ANode.ofBia a
      pure (.inserted m' s.addr none)
  | .L l, flag => l.insert c hash q k v replace flag
  | .S s, flag => s.insert c hash q k v replace flag

/-- The inner `match node` of `CNode::insert` (`/repo/src/node/cnode.rs:85-107`) for every child. -/
def ANode.insertAll (q : K → Bool) (k : K) (v : V) (replace : Bool) :
    List (ANode c.n K V) →
    List (Option (Flag c) → Nat → Al ((K × V) ⊕ (ANode c.n K V × Nat × Nat × Option (K × V))))
  | [] => []
  | m :: ms =>
    (fun nx selfSize => do
      let r ← m.insert q k v replace nx
      Al.lift (m.insertStep selfSize r)) :: ANode.insertAll q k v replace ms

end

mutual

/-- `MNode::remove` (`/repo/src/node/mnode.rs:46-52`), `CNode::remove` (`/repo/src/node/cnode.rs:35-62`). -/
def ANode.remove (q : K → Bool) : ANode c.n K V → Option (Flag c) → Al (ARemoveResult c.n K V)
  | .C _ bits values extra, flag => do
    let f ← Al.lift (Res.unwrap flag)
    match (Bia.mk bits (ANode.removeAll q values) extra).at' f.flag with
    | .ok run => do
      let nx ← Al.lift f.next
      let r ← run nx
      match r with
      | .notFound => pure .notFound
      | .removed m k v =>
        match m with
        | .C _ _ _ 0 => Al.lift (.panic .explicit)
        | _ => do
          let z ← Al.lift (usub extra 1)
          let a ← Al.lift ((Bia.mk bits values extra).updated f.flag m z)
          let a ← Al.lift (Res.unwrapE a)
          let m' ← ANode.ofBia a
          pure (.removed m' k v)
      | .removedZ k v =>
        if extra = 1 then pure (.removedZ k v)
        else do
          let z ← Al.lift (usub extra 1)
          let a ← Al.lift ((Bia.mk bits values extra).removed f.flag z)
          let a ← Al.lift (Res.unwrapE a)
          let m' ← ANode.ofBia a
          pure (.removed m' k v)
    | .error _ => pure .notFound
  | .L l, _ => l.remove q
  | .S s, _ => pure (s.remove q)

/-- `node.remove(key, _)` for every child (`/repo/src/node/cnode.rs:37`). -/
def ANode.removeAll (q : K → Bool) :
    List (ANode c.n K V) → List (Option (Flag c) → Al (ARemoveResult c.n K V))
  | [] => []
  | m :: ms => (fun nx => m.remove q nx) :: ANode.removeAll q ms

end

/-! ### transform -/

/-- As `Item` (`Verif/Transform.lean`). -/
inductive AItem (n : Nat) (K V R : Type) where
  | skip
  | put (m : ANode n K V) (r : R) (kl kr : Bool)
  | drop (r : R) (kl kr : Bool)

/-- As `Acc`: the mutable variables of the loop (`/repo/src/node/cnode.rs:177-181`). -/
structure AAcc (n : Nat) (K V R : Type) where
  size : Nat
  bits : BitVec n
  values : List (ANode n K V)
  ul : Bool
  ur : Bool
  red : R

namespace AAcc
variable {n : Nat}

/-- Their initial values (`/repo/src/node/cnode.rs:177-181`). -/
def init (e : R) : AAcc n K V R := ⟨0, 0#n, [], true, true, e⟩

/-- One iteration (`/repo/src/node/cnode.rs:186-216`). -/
def step (reduce : R → R → R) (acc : AAcc n K V R) (index : Nat) : AItem n K V R → Res (AAcc n K V R)
  | .skip => .ok acc
  | .put m r kl kr => do
    let bit ← Res.unwrapE (nthBit n index)
    let bits ← Res.unwrapE (bitInsert acc.bits bit)
    .ok ⟨acc.size + m.size, bits, acc.values ++ [m], acc.ul && kl, acc.ur && kr, reduce acc.red r⟩
  | .drop r kl kr =>
    .ok ⟨acc.size, acc.bits, acc.values, acc.ul && kl, acc.ur && kr, reduce acc.red r⟩

/-- `for index in range` (`/repo/src/node/cnode.rs:183`). -/
def loop (reduce : R → R → R) (item : Nat → Al (AItem n K V R)) :
    List Nat → AAcc n K V R → Al (AAcc n K V R)
  | [], acc => pure acc
  | i :: is, acc => do
    let it ← item i
    let acc ← Al.lift (acc.step reduce i it)
    loop reduce item is acc

/-- Combination of the two halves (`/repo/src/node/cnode.rs:142-147`). -/
def merge (reduce : R → R → R) (a b : AAcc n K V R) : Res (AAcc n K V R) := do
  let bits ← Res.unwrapE (bitMerge a.bits b.bits)
  .ok ⟨a.size + b.size, bits, a.values ++ b.values, a.ul && b.ul, a.ur && b.ur, reduce a.red b.red⟩

/-- The `match par_strat` (`/repo/src/node/cnode.rs:133-150`). -/
def gather (reduce : R → R → R) (e : R) (par : Par) (item : Nat → Al (AItem n K V R)) :
    Al (AAcc n K V R) :=
  match par with
  | .middleIndex => do
    let l ← loop reduce item (List.range' 0 (n / 2)) (init e)
    let r ← loop reduce item (List.range' (n / 2) (n - n / 2)) (init e)
    Al.lift (merge reduce l r)
  | .sequential => loop reduce item (List.range' 0 n) (init e)

/-- `CNode::new(new_bit_indexed_array(bits, BitIndexedArrayVec::new(&values), size).unwrap())`
    (`/repo/src/node/cnode.rs:160`, 164). -/
def branch (acc : AAcc n K V R) : Al (Option (ANode n K V)) := do
  let a ← Al.lift (Bia.ofVec acc.bits acc.values acc.size)
  let a ← Al.lift (Res.unwrapE a)
  let m ← ANode.ofBia a
  pure (some m)

/-- The final `match values.len()` (`/repo/src/node/cnode.rs:157-165`): `none` is `Removed`. -/
def pack (acc : AAcc n K V R) : Al (Option (ANode n K V)) :=
  match acc.values with
  | [] => pure none
  | [.L l] => pure (some (.L l))
  | [.S s] => pure (some (.S s))
  | _ => acc.branch

end AAcc

/-- `snode::transform` (`/repo/src/node/snode.rs:74-84`). -/
def ASNode.transform (op : MapTransform R (K → V → MapTransformResult V R)) (this : ASNode K V) :
    Al (TRes (ASNode K V) R) :=
  match op.call this.key this.value with
  | .unchanged r => pure (.unchanged r)
  | .transformed v r => do
    let s ← ASNode.new this.key v
    pure (.node s r)
  | .removed r => pure (.removed r)

/-- `lnode::transform_result` (`/repo/src/node/lnode.rs:1164-1192`). -/
def ALNode.transformResult (reduce : R → R → R) (this : ALNode K V) (result : MapTransformResult V R)
    (next : TRes (ALNext K V) R) : Al (TRes (ALNext K V) R) :=
  match result, next with
  | .unchanged lr, .unchanged rr => pure (.unchanged (reduce lr rr))
  | .unchanged lr, .node m rr => do
    let l ← ALNode.new this.key this.value m
    pure (.node (.L l) (reduce lr rr))
  | .unchanged lr, .removed rr => do
    let s ← ASNode.new this.key this.value
    pure (.node (.S s) (reduce lr rr))
  | .transformed lv lr, .unchanged rr => do
    let l ← ALNode.new this.key lv this.next
    pure (.node (.L l) (reduce lr rr))
  | .transformed lv lr, .node m rr => do
    let l ← ALNode.new this.key lv m
    pure (.node (.L l) (reduce lr rr))
  | .transformed lv lr, .removed rr => do
    let s ← ASNode.new this.key lv
    pure (.node (.S s) (reduce lr rr))
  | .removed lr, .unchanged rr => pure (.node this.next (reduce lr rr))
  | .removed lr, .node m rr => pure (.node m (reduce lr rr))
  | .removed lr, .removed rr => pure (.removed (reduce lr rr))

/-- `lnode::transform` and `transform_impl` (`/repo/src/node/lnode.rs:151-176`). -/
def ALNode.transform (reduce : R → R → R) (op : MapTransform R (K → V → MapTransformResult V R)) :
    ALNode K V → Al (TRes (ALNext K V) R)
  | .nextS a k v s z =>
    match op with
    | .generic _ => do
      let nx ← s.transform op
      ALNode.transformResult reduce (.nextS a k v s z) (op.call k v) (nx.map .S)
    | .unchanged r => pure (.unchanged r)
    | .removed r => pure (.removed r)
  | .nextL a k v l z =>
    match op with
    | .generic _ => do
      let nx ← l.transform reduce op
      ALNode.transformResult reduce (.nextL a k v l z) (op.call k v) nx
    | .unchanged r => pure (.unchanged r)
    | .removed r => pure (.removed r)

/-- The `match` on a child's transform result (`/repo/src/node/cnode.rs:185-217`). -/
def TRes.aitem {n : Nat} (node : ANode n K V) : TRes (ANode n K V) R → AItem n K V R
  | .unchanged r => .put node r true true
  | .node m r => .put m r false false
  | .removed r => .drop r false false

/-- The body of the loop of `transform_impl` (`/repo/src/node/cnode.rs:184-218`). -/
def TRes.achildItem {n : Nat} {ε : Type} (child : Except ε (ANode n K V × Al (TRes (ANode n K V) R))) :
    Al (AItem n K V R) :=
  match child with
  | .error _ => pure .skip
  | .ok (m, run) => do
    let res ← run
    pure (res.aitem m)

variable {n : Nat} (reduce : R → R → R) (e : R)

mutual

/-- `MNode::transform` (`/repo/src/node/mnode.rs:62-74`), `cnode::transform` and `transform_impl`
    (`/repo/src/node/cnode.rs:118-222`). -/
def ANode.transform (op : MapTransform R (K → V → MapTransformResult V R)) (par : Par) :
    ANode n K V → Al (TRes (ANode n K V) R)
  | .C _ bits values extra =>
    match op with
    | .unchanged r => pure (.unchanged r)
    | .removed r => pure (.removed r)
    | .generic _ => do
      let acc ← AAcc.gather reduce e par fun index => do
        let child ← Al.lift ((Bia.mk bits (ANode.transformAll op par values) extra).atBitIndex index)
        TRes.achildItem child
      if acc.ul then pure (.unchanged acc.red)
      else do
        let o ← acc.pack
        pure (TRes.ofOption o acc.red)
  | .L l => do
    let r ← l.transform reduce op
    pure (r.map ALNext.toNode)
  | .S s => do
    let r ← s.transform op
    pure (r.map .S)

/-- Each child with its `node.transform(..)` (`/repo/src/node/cnode.rs:184-185`). -/
def ANode.transformAll (op : MapTransform R (K → V → MapTransformResult V R)) (par : Par) :
    List (ANode n K V) → List (ANode n K V × Al (TRes (ANode n K V) R))
  | [] => []
  | m :: ms => (m, m.transform op par) :: ANode.transformAll op par ms

end

/-! ### The container -/

/-- `struct HashTrie` (`/repo/src/hash_trie.rs:5-8`). -/
structure ATrie (c : Cfg) (K V : Type) where
  root : ANode c.n K V

namespace ATrie
variable {c : Cfg}

/-- `HashTrie::new`, `Default` (`/repo/src/hash_trie.rs:11-16`, 205-209). -/
def new (c : Cfg) : Al (ATrie c K V) := do
  let m ← ANode.default
  pure ⟨m⟩

/-- `Clone` (`/repo/src/hash_trie.rs:199-203`, `/repo/src/node/mnode.rs:347-355`): the `Arc` of the root is cloned. -/
def clone (t : ATrie c K V) : ATrie c K V := ⟨t.root⟩

/-- `PartialEq` (`/repo/src/hash_trie.rs:213-217`, `/repo/src/map.rs:279-283`, `/repo/src/set.rs:304-308`). -/
def eq (t u : ATrie c K V) : Bool := t.root.eq u.root

variable [BEq K] (hash : K → BitVec c.w)

/-- `insert(key, value, replace)` (`/repo/src/hash_trie.rs:36-49`). -/
def insert (t : ATrie c K V) (k : K) (v : V) (replace : Bool) :
    Al (Except (K × V) (ATrie c K V × Nat × Option (K × V))) := do
  let f ← Al.lift (Flag.new (hash k))
  let r ← t.root.insert c hash (· == k) k v replace (some f)
  match r with
  | .found k0 v0 => pure (.error (k0, v0))
  | .inserted m ptr prev => pure (.ok (⟨m⟩, ptr, prev))

/-- `remove(key)` (`/repo/src/hash_trie.rs:51-59`). -/
def remove (t : ATrie c K V) (k : K) : Al (Option (ATrie c K V × (K × V))) := do
  let f ← Al.lift (Flag.new (hash k))
  let r ← t.root.remove c (· == k) (some f)
  match r with
  | .notFound => pure none
  | .removed m k v => pure (some (⟨m⟩, (k, v)))
  | .removedZ k v => do
    let t' ← new c
    pure (some (t', (k, v)))

omit [BEq K] in
/-- `transform` (`/repo/src/hash_trie.rs:65-80`). -/
def transform (t : ATrie c K V) (op : MapTransform R (K → V → MapTransformResult V R)) (par : Par) :
    Al (ATrie c K V × R) := do
  let res ← t.root.transform reduce e op par
  match res with
  | .unchanged r => pure (t.clone, r)
  | .node m r => pure (⟨m⟩, r)
  | .removed r => do
    let t' ← new c
    pure (t', r)

end ATrie
end HT
