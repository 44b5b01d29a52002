import Verif.Node
import Verif.Trie
import Verif.Ops
/-!
# transform and transmute (`/repo/src/node/*.rs`, `/repo/src/hash_trie.rs`)

`reduce` is the user's `reduce_op`, `e` is `ReduceT::default()`.
-/
namespace HT

variable {K V S X R : Type}

/-! ### The loop over the children of branch nodes

All bulk functions on branch nodes run the same loop: for each position they decide what happens to
it, and then add to the size, the bits, the values, the reduction and the "unchanged" flags. -/

/-- What an iteration of the loop does at a position: nothing (`continue` / no node); push a child and
    fold in `r`; or push nothing and fold in `r`.  `kl` (`kr`) is `false` when the iteration sets
    `unchangedl` (`unchangedr`) to `false`; functions with only one flag use `kl`. -/
inductive Item (n : Nat) (K V R : Type) where
  | skip
  | put (m : Node n K V) (r : R) (kl kr : Bool)
  | drop (r : R) (kl kr : Bool)

/-- The mutable variables of the loops (`/repo/src/node/cnode.rs:177-181`, 238-241, 488-493, ...). -/
structure Acc (n : Nat) (K V R : Type) where
  size : Nat
  bits : BitVec n
  values : List (Node n K V)
  ul : Bool
  ur : Bool
  red : R

namespace Acc
variable {n : Nat}

/-- Their initial values (`/repo/src/node/cnode.rs:177-181`). -/
def init (e : R) : Acc n K V R := ⟨0, 0#n, [], true, true, e⟩

/-- One iteration (`/repo/src/node/cnode.rs:186-216`, and alike in all other loops). -/
def step (reduce : R → R → R) (acc : Acc n K V R) (index : Nat) : Item n K V R → Res (Acc n K V R)
  | .skip => .ok acc
  | .put m r kl kr => do
    let bit ← Res.unwrapE (nthBit n index)
    let bits ← Res.unwrapE (bitInsert acc.bits bit)
    .ok ⟨acc.size + m.size, bits, acc.values ++ [m], acc.ul && kl, acc.ur && kr, reduce acc.red r⟩
  | .drop r kl kr =>
    .ok ⟨acc.size, acc.bits, acc.values, acc.ul && kl, acc.ur && kr, reduce acc.red r⟩

/-- `for index in range` (`/repo/src/node/cnode.rs:183`). -/
def loop (reduce : R → R → R) (item : Nat → Res (Item n K V R)) :
    List Nat → Acc n K V R → Res (Acc n K V R)
  | [], acc => .ok acc
  | i :: is, acc => do
    let it ← item i
    let acc ← acc.step reduce i it
    loop reduce item is acc

/-- Combination of the two halves (`/repo/src/node/cnode.rs:142-147`, 444-449). -/
def merge (reduce : R → R → R) (a b : Acc n K V R) : Res (Acc n K V R) := do
  let bits ← Res.unwrapE (bitMerge a.bits b.bits)
  .ok ⟨a.size + b.size, bits, a.values ++ b.values, a.ul && b.ul, a.ur && b.ur, reduce a.red b.red⟩

/-- The `match par_strat` (`/repo/src/node/cnode.rs:133-150`, 433-452).  `join!` of two futures that
    never wait runs them one after the other. -/
def gather (reduce : R → R → R) (e : R) (par : Par) (item : Nat → Res (Item n K V R)) :
    Res (Acc n K V R) :=
  match par with
  | .middleIndex => do
    let l ← loop reduce item (List.range' 0 (n / 2)) (init e)
    let r ← loop reduce item (List.range' (n / 2) (n - n / 2)) (init e)
    merge reduce l r
  | .sequential => loop reduce item (List.range' 0 n) (init e)

/-- The final `match values.len()` (`/repo/src/node/cnode.rs:157-165`, 273-281, 467-475, ...):
    `none` is `Removed`. -/
def pack (acc : Acc n K V R) : Res (Option (Node n K V)) :=
  match acc.values with
  | [] => .ok none
  | [.C b v x] => do
    let a ← Bia.ofVec acc.bits [.C b v x] acc.size
    let a ← Res.unwrapE a
    .ok (some (Node.ofBia a))
  | [.L l] => .ok (some (.L l))
  | [.S s] => .ok (some (.S s))
  | vs => do
    let a ← Bia.ofVec acc.bits vs acc.size
    let a ← Res.unwrapE a
    .ok (some (Node.ofBia a))

end Acc

/-- `Removed(reduced)` or `C/L/S(_, reduced)` of the functions returning a transform result. -/
def TRes.ofOption {N : Type} (o : Option N) (r : R) : TRes N R :=
  match o with
  | none => .removed r
  | some m => .node m r

/-- As `TRes.ofOption`, for transmute results. -/
def XRes.ofOption {N : Type} (o : Option N) (r : R) : XRes N R :=
  match o with
  | none => .removed r
  | some m => .node m r

/-! ### Single nodes -/

/-- `snode::transform` (`/repo/src/node/snode.rs:74-84`). -/
def SNode.transform (op : MapTransform R (K → V → MapTransformResult V R)) (this : SNode K V) :
    TRes (SNode K V) R :=
  match op.call this.key this.value with
  | .unchanged r => .unchanged r
  | .transformed v r => .node ⟨this.key, v⟩ r
  | .removed r => .removed r

/-- `snode::transmute` (`/repo/src/node/snode.rs:86-94`, with `From` in `/repo/src/results.rs:421-428`). -/
def SNode.transmute (op : MapTransmute R (K → V → MapTransmuteResult S X R)) (this : SNode K V) :
    XRes (SNode S X) R :=
  match op.call this.key this.value with
  | .transmuted k v r => .node ⟨k, v⟩ r
  | .removed r => .removed r

/-! ### Collision lists -/

/-- `lnode::transform_result` (`/repo/src/node/lnode.rs:1164-1192`). -/
def LNode.transformResult (reduce : R → R → R) (this : LNode K V) (result : MapTransformResult V R)
    (next : TRes (LNext K V) R) : TRes (LNext K V) R :=
  match result, next with
  | .unchanged lr, .unchanged rr => .unchanged (reduce lr rr)
  | .unchanged lr, .node m rr => .node (.L (LNode.new this.key this.value m)) (reduce lr rr)
  | .unchanged lr, .removed rr => .node (.S ⟨this.key, this.value⟩) (reduce lr rr)
  | .transformed lv lr, .unchanged rr => .node (.L (LNode.new this.key lv this.next)) (reduce lr rr)
  | .transformed lv lr, .node m rr => .node (.L (LNode.new this.key lv m)) (reduce lr rr)
  | .transformed lv lr, .removed rr => .node (.S ⟨this.key, lv⟩) (reduce lr rr)
  | .removed lr, .unchanged rr => .node this.next (reduce lr rr)
  | .removed lr, .node m rr => .node m (reduce lr rr)
  | .removed lr, .removed rr => .removed (reduce lr rr)

/-- `lnode::transform` and `transform_impl` (`/repo/src/node/lnode.rs:151-176`).  The test for a bulk
    operation is made by the recursive calls too, on the same operation. -/
def LNode.transform (reduce : R → R → R) (op : MapTransform R (K → V → MapTransformResult V R)) :
    LNode K V → TRes (LNext K V) R
  | .nextS k v s z =>
    match op with
    | .generic _ =>
      LNode.transformResult reduce (.nextS k v s z) (op.call k v) ((s.transform op).map .S)
    | .unchanged r => .unchanged r
    | .removed r => .removed r
  | .nextL k v l z =>
    match op with
    | .generic _ => LNode.transformResult reduce (.nextL k v l z) (op.call k v) (l.transform reduce op)
    | .unchanged r => .unchanged r
    | .removed r => .removed r

/-- `lnode::transmute_result` (`/repo/src/node/lnode.rs:1194-1211`). -/
def LNode.transmuteResult (reduce : R → R → R) (result : MapTransmuteResult S X R)
    (next : XRes (LNext S X) R) : XRes (LNext S X) R :=
  match result, next with
  | .transmuted lk lv lr, .node m rr => .node (.L (LNode.new lk lv m)) (reduce lr rr)
  | .transmuted lk lv lr, .removed rr => .node (.S ⟨lk, lv⟩) (reduce lr rr)
  | .removed lr, .node m rr => .node m (reduce lr rr)
  | .removed lr, .removed rr => .removed (reduce lr rr)

/-- `lnode::transmute` and `transmute_impl` (`/repo/src/node/lnode.rs:178-206`). -/
def LNode.transmute (reduce : R → R → R) (op : MapTransmute R (K → V → MapTransmuteResult S X R)) :
    LNode K V → XRes (LNext S X) R
  | .nextS k v s _ =>
    match op with
    | .generic _ => LNode.transmuteResult reduce (op.call k v) ((s.transmute op).map .S)
    | .removed r => .removed r
  | .nextL k v l _ =>
    match op with
    | .generic _ => LNode.transmuteResult reduce (op.call k v) (l.transmute reduce op)
    | .removed r => .removed r

/-! ### Branch nodes -/

/-- The `match` on a child's transform result (`/repo/src/node/cnode.rs:185-217`): `node` is the child. -/
def TRes.item {n : Nat} (node : Node n K V) : TRes (Node n K V) R → Item n K V R
  | .unchanged r => .put node r true true
  | .node m r => .put m r false false
  | .removed r => .drop r false false

/-- The `match` on a child's transmute result (`/repo/src/node/cnode.rs:245-267`). -/
def XRes.item {n : Nat} : XRes (Node n S X) R → Item n S X R
  | .node m r => .put m r false false
  | .removed r => .drop r false false

/-- The body of the loop of `transform_impl` (`/repo/src/node/cnode.rs:184-218`), given the child at the
    position and its own transform. -/
def TRes.childItem {n : Nat} {ε : Type} (child : Except ε (Node n K V × Res (TRes (Node n K V) R))) :
    Res (Item n K V R) :=
  match child with
  | .error _ => .ok .skip
  | .ok (m, run) => do
    let res ← run
    .ok (res.item m)

/-- The body of the loop of `transmute` (`/repo/src/node/cnode.rs:244-268`), given the child's own
    transmute. -/
def XRes.childItem {n : Nat} {ε : Type} (child : Except ε (Res (XRes (Node n S X) R))) :
    Res (Item n S X R) :=
  match child with
  | .error _ => .ok .skip
  | .ok run => do
    let res ← run
    .ok res.item

variable {n : Nat} (reduce : R → R → R) (e : R)

mutual

/-- `MNode::transform` (`/repo/src/node/mnode.rs:62-74`), `cnode::transform` and `transform_impl`
    (`/repo/src/node/cnode.rs:118-222`). -/
def Node.transform (op : MapTransform R (K → V → MapTransformResult V R)) (par : Par) :
    Node n K V → Res (TRes (Node n K V) R)
  | .C bits values extra =>
    match op with
    | .unchanged r => .ok (.unchanged r)
    | .removed r => .ok (.removed r)
    | .generic _ => do
      let acc ← Acc.gather reduce e par fun index => do
        let child ← (Bia.mk bits (Node.transformAll op par values) extra).atBitIndex index
        TRes.childItem child
      if acc.ul then .ok (.unchanged acc.red)
      else do
        let o ← acc.pack
        .ok (TRes.ofOption o acc.red)
  | .L l => .ok ((l.transform reduce op).map LNext.toNode)
  | .S s => .ok ((s.transform op).map .S)

/-- Each child with its `node.transform(..)` (`/repo/src/node/cnode.rs:184-185`). -/
def Node.transformAll (op : MapTransform R (K → V → MapTransformResult V R)) (par : Par) :
    List (Node n K V) → List (Node n K V × Res (TRes (Node n K V) R))
  | [] => []
  | m :: ms => (m, m.transform op par) :: Node.transformAll op par ms

end

mutual

/-- `MNode::transmute` (`/repo/src/node/mnode.rs:76-91`), `cnode::transmute`
    (`/repo/src/node/cnode.rs:224-282`). -/
def Node.transmute (op : MapTransmute R (K → V → MapTransmuteResult S X R)) :
    Node n K V → Res (XRes (Node n S X) R)
  | .C bits values extra =>
    match op with
    | .removed r => .ok (.removed r)
    | .generic _ => do
      let acc ← Acc.gather reduce e .sequential fun index => do
        let child ← (Bia.mk bits (Node.transmuteAll op values) extra).atBitIndex index
        XRes.childItem child
      if acc.values.length ≠ countOnes acc.bits then .panic .assertion
      else do
        let o ← acc.pack
        .ok (XRes.ofOption o acc.red)
  | .L l => .ok ((l.transmute reduce op).map LNext.toNode)
  | .S s => .ok ((s.transmute op).map .S)

/-- `node.transmute(..)` for each child (`/repo/src/node/cnode.rs:244-245`). -/
def Node.transmuteAll (op : MapTransmute R (K → V → MapTransmuteResult S X R)) :
    List (Node n K V) → List (Res (XRes (Node n S X) R))
  | [] => []
  | m :: ms => m.transmute op :: Node.transmuteAll op ms

end

namespace Trie
variable {c : Cfg}

/-- `HashTrie::transform` (`/repo/src/hash_trie.rs:65-80`), `HashTrieMap::transform`
    (`/repo/src/map.rs:115-125`). -/
def transform (t : Trie c K V) (op : MapTransform R (K → V → MapTransformResult V R)) (par : Par) :
    Res (Trie c K V × R) := do
  let res ← t.root.transform reduce e op par
  match res with
  | .unchanged r => .ok (t, r)
  | .node m r => .ok (⟨m⟩, r)
  | .removed r => .ok (new c, r)

/-- `HashTrie::transmute` (`/repo/src/hash_trie.rs:82-99`), `HashTrieMap::transmute`
    (`/repo/src/map.rs:128-141`). -/
def transmute (t : Trie c K V) (op : MapTransmute R (K → V → MapTransmuteResult S X R)) :
    Res (Trie c S X × R) := do
  let res ← t.root.transmute reduce e op
  match res with
  | .node m r => .ok (⟨m⟩, r)
  | .removed r => .ok (new c, r)

end Trie
end HT
