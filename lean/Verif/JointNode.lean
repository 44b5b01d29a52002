import Verif.JointList
/-!
# Joint operations on nodes (`/repo/src/node/mnode.rs`, `/repo/src/node/cnode.rs` and the dispatchers in
`/repo/src/node/lnode.rs`, `/repo/src/node/snode.rs`)

The recursion of all these functions on the left operand is `Node.fold`: a branch node's function sees
each child together with the function's own result on that child, one level deeper.
-/
namespace HT

variable {K V L W S X R : Type}

mutual

/-- Recursion on nodes.  `fS`, `fL`, `fC` say what the function does on a single node, a collision list
    and a branch node at the given depth; children are at `depth + 1`. -/
def Node.fold {n : Nat} {β : Type} (fS : SNode K V → Nat → β) (fL : LNode K V → Nat → β)
    (fC : BitVec n → List (Node n K V × β) → Nat → Nat → β) : Node n K V → Nat → β
  | .C bits values extra, depth => fC bits (Node.foldAll fS fL fC values (depth + 1)) extra depth
  | .L l, depth => fL l depth
  | .S s, depth => fS s depth

/-- Each child with the function's result on it. -/
def Node.foldAll {n : Nat} {β : Type} (fS : SNode K V → Nat → β) (fL : LNode K V → Nat → β)
    (fC : BitVec n → List (Node n K V × β) → Nat → Nat → β) :
    List (Node n K V) → Nat → List (Node n K V × β)
  | [], _ => []
  | m :: ms, depth => (m, Node.fold fS fL fC m depth) :: Node.foldAll fS fL fC ms depth

end

/-! ### The bodies of the loops -/

/-- The `match transform_result` of the loops with one "unchanged" flag (`/repo/src/node/cnode.rs:624-656`,
    715-747, 1010-1043, 1100-1133, 1397-1429, 1486-1518).  `node?` is the node that `Unchanged` stands for,
    `keep` is whether `Unchanged` leaves the flag alone (it does not at lines 1016 and 1106). -/
def TRes.itemOpt {n : Nat} (keep : Bool) (node? : Option (Node n K V)) :
    TRes (Node n K V) R → Res (Item n K V R)
  | .unchanged r => do
    let m ← Res.unwrap node?
    .ok (.put m r keep keep)
  | .node m r => .ok (.put m r false false)
  | .removed r => .ok (.drop r false false)

/-- The `match transform_result` of the loops with two flags (`/repo/src/node/cnode.rs:529-579`, 891-941,
    1278-1328). -/
def JRes.itemOpt {n : Nat} (left? right? : Option (Node n K V)) :
    JRes (Node n K V) R → Res (Item n K V R)
  | .unchangedLR r => do
    let m ← Res.unwrap left?
    .ok (.put m r true true)
  | .unchangedL r => do
    let m ← Res.unwrap left?
    .ok (.put m r true false)
  | .unchangedR r => do
    let m ← Res.unwrap right?
    .ok (.put m r false true)
  | .node m r => .ok (.put m r false false)
  | .removed r => .ok (.drop r false false)

/-- The end of the functions with one flag (`/repo/src/node/cnode.rs:659-672`, 750-763, 1046-1059,
    1136-1149, 1432-1445, 1521-1534). -/
def TRes.finish {n : Nat} (acc : Acc n K V R) : Res (TRes (Node n K V) R) :=
  if acc.ul then .ok (.unchanged acc.red)
  else do
    let o ← acc.pack
    .ok (TRes.ofOption o acc.red)

/-- The end of the functions without flag (`/repo/src/node/cnode.rs:831-839`, 1219-1227, 1604-1612). -/
def XRes.finish {n : Nat} (acc : Acc n K V R) : Res (XRes (Node n K V) R) := do
  let o ← acc.pack
  .ok (XRes.ofOption o acc.red)

/-- `Removed(reduced)` or `C/L/S(_, reduced)` of the functions returning a joint transform result. -/
def JRes.ofOption {N : Type} (o : Option N) (r : R) : JRes N R :=
  match o with
  | none => .removed r
  | some m => .node m r

/-- The end of the functions with two flags (`/repo/src/node/cnode.rs:455-476`, 944-965, 1331-1352). -/
def JRes.finish {n : Nat} (acc : Acc n K V R) : Res (JRes (Node n K V) R) :=
  if acc.ul then
    if acc.ur then .ok (.unchangedLR acc.red) else .ok (.unchangedL acc.red)
  else if acc.ur then .ok (.unchangedR acc.red)
  else do
    let o ← acc.pack
    .ok (JRes.ofOption o acc.red)

/-- One iteration of a loop over a branch node on the left against a list or single node on the right
    (`/repo/src/node/cnode.rs:862-889`, 992-1008, 1085-1098, 1179-1192, 1250-1276, 1379-1395, 1471-1484,
    1564-1577): `child` is the left child with the joint operation's result on it, `elsewhere` the
    operation on a left child alone, `alone` the operation on the right operand alone, `item` the final
    `match`. -/
def flatItem {n : Nat} {ρ ι ε : Type} (flag : BitVec n) (index : Nat)
    (child : Except ε (Node n K V × Res ρ)) (elsewhere : Node n K V → Res ρ) (alone : ρ)
    (item : Option (Node n K V) → ρ → Res ι) (skip : ι) : Res ι := do
  let bit ← Res.unwrapE (nthBit n index)
  match child with
  | .ok (m, run) =>
    if flag = bit then do
      let res ← run
      item (some m) res
    else do
      let res ← elsewhere m
      item (some m) res
  | .error _ => if flag = bit then item none alone else .ok skip

/-- A whole loop of that kind (`/repo/src/node/cnode.rs:852-942`, 983-1044, 1076-1134, 1171-1217, 1240-1329,
    1370-1430, 1462-1519, 1556-1602); `rightHash` is the hash of the right operand's key. -/
def flatLoop {c : Cfg} {ρ : Type} (reduce : R → R → R) (e : R) (rightHash : BitVec c.w) (depth : Nat)
    (left : Bia c.n (Node c.n K V × Res ρ)) (elsewhere : Node c.n K V → Res ρ) (alone : ρ)
    (item : Option (Node c.n K V) → ρ → Res (Item c.n S X R)) : Res (Acc c.n S X R) := do
  let flag ← flagOf (c := c) rightHash depth
  Acc.gather reduce e .sequential fun index => do
    let child ← left.atBitIndex index
    flatItem flag.flag index child elsewhere alone item .skip

/-- One iteration of a loop over two branch nodes (`/repo/src/node/cnode.rs:496-527`, 606-622, 696-713,
    791-804): `onlyL`, `onlyR` are the operations on a child without counterpart. -/
def bothItem {n : Nat} {ρ ι ε ε' : Type} (child : Except ε (Node n K V × (Node n L W → Res ρ)))
    (rchild : Except ε' (Node n L W)) (onlyL : Node n K V → Res ρ) (onlyR : Node n L W → Res ρ)
    (item : Option (Node n K V) → Option (Node n L W) → ρ → Res ι) (skip : ι) : Res ι :=
  match child, rchild with
  | .ok (m, run), .ok r => do
    let res ← run r
    item (some m) (some r) res
  | .ok (m, _), .error _ => do
    let res ← onlyL m
    item (some m) none res
  | .error _, .ok r => do
    let res ← onlyR r
    item none (some r) res
  | .error _, .error _ => .ok skip

/-- A whole loop of that kind (`/repo/src/node/cnode.rs:495-582`, 599-657, 689-748, 785-829). -/
def bothLoop {n : Nat} {ρ : Type} (reduce : R → R → R) (e : R) (par : Par)
    (left : Bia n (Node n K V × (Node n L W → Res ρ))) (right : Bia n (Node n L W))
    (onlyL : Node n K V → Res ρ) (onlyR : Node n L W → Res ρ)
    (item : Option (Node n K V) → Option (Node n L W) → ρ → Res (Item n S X R)) : Res (Acc n S X R) :=
  Acc.gather reduce e par fun index => do
    let child ← left.atBitIndex index
    let rchild ← right.atBitIndex index
    bothItem child rchild onlyL onlyR item .skip

variable {c : Cfg} (x : Cross c K L) (reduce : R → R → R) (e : R)

/-! ### transform_with_transmuted and transmute_with_transformed, right operand a list or single node -/

section
variable (ops : TwmOps K V L W R) (par : Par)

/-- `cnode::transform_with_transmuted_snode` (`/repo/src/node/cnode.rs:1355-1446`), given the results on
    the children. -/
def twmSC (right : SNode L W) (bits : BitVec c.n) (left : List (Node c.n K V × Res (TRes (Node c.n K V) R)))
    (extra depth : Nat) : Res (TRes (Node c.n K V) R) := do
  let acc ← flatLoop reduce e (x.hash' right.key) depth ⟨bits, left, extra⟩
    (fun m => m.transform reduce e ops.left par) ((right.transmute ops.right).map Node.S).toT
    (fun left? res => res.itemOpt true left?)
  TRes.finish acc

/-- `MNode::transform_with_transmuted_snode` (`/repo/src/node/mnode.rs:277-296`). -/
def Node.twmS (this : Node c.n K V) (right : SNode L W) (depth : Nat) : Res (TRes (Node c.n K V) R) :=
  Node.fold (fun s d => s.twm x reduce ops right d) (fun l d => l.twmS x reduce ops right d)
    (twmSC x reduce e ops par right) this depth

/-- `cnode::transform_with_transmuted_lnode` (`/repo/src/node/cnode.rs:968-1060`), given the results on
    the children. -/
def twmLC (right : LNode L W) (bits : BitVec c.n) (left : List (Node c.n K V × Res (TRes (Node c.n K V) R)))
    (extra depth : Nat) : Res (TRes (Node c.n K V) R) := do
  let acc ← flatLoop reduce e (x.hash' right.key) depth ⟨bits, left, extra⟩
    (fun m => m.transform reduce e ops.left par) ((right.transmute reduce ops.right).map LNext.toNode).toT
    (fun left? res => res.itemOpt false left?)
  TRes.finish acc

/-- `MNode::transform_with_transmuted_lnode` (`/repo/src/node/mnode.rs:193-212`). -/
def Node.twmL (this : Node c.n K V) (right : LNode L W) (depth : Nat) : Res (TRes (Node c.n K V) R) :=
  Node.fold (fun s d => right.mwtS x.flip reduce ops.flip s d) (fun l d => l.twmL x reduce ops right d)
    (twmLC x reduce e ops par right) this depth

end

section
variable (ops : MwtOps K V L W R)

/-- `cnode::transmute_with_transformed_snode` (`/repo/src/node/cnode.rs:1448-1535`), given the results on
    the children. -/
def mwtSC (right : SNode L W) (bits : BitVec c.n) (left : List (Node c.n K V × Res (TRes (Node c.n L W) R)))
    (extra depth : Nat) : Res (TRes (Node c.n L W) R) := do
  let acc ← flatLoop reduce e (x.hash' right.key) depth ⟨bits, left, extra⟩
    (fun m => do
      let res ← m.transmute reduce e ops.left
      .ok res.toT) ((right.transform ops.right).map Node.S)
    (fun _ res => res.itemOpt true (some (.S right)))
  TRes.finish acc

/-- `MNode::transmute_with_transformed_snode` (`/repo/src/node/mnode.rs:298-317`). -/
def Node.mwtS (this : Node c.n K V) (right : SNode L W) (depth : Nat) : Res (TRes (Node c.n L W) R) :=
  Node.fold (fun s d => s.mwt x reduce ops right d) (fun l d => l.mwtS x reduce ops right d)
    (mwtSC x reduce e ops right) this depth

/-- `cnode::transmute_with_transformed_lnode` (`/repo/src/node/cnode.rs:1062-1150`), given the results on
    the children. -/
def mwtLC (right : LNode L W) (bits : BitVec c.n) (left : List (Node c.n K V × Res (TRes (Node c.n L W) R)))
    (extra depth : Nat) : Res (TRes (Node c.n L W) R) := do
  let acc ← flatLoop reduce e (x.hash' right.key) depth ⟨bits, left, extra⟩
    (fun m => do
      let res ← m.transmute reduce e ops.left
      .ok res.toT) ((right.transform reduce ops.right).map LNext.toNode)
    (fun _ res => res.itemOpt false (some (.L right)))
  TRes.finish acc

/-- `MNode::transmute_with_transformed_lnode` (`/repo/src/node/mnode.rs:214-233`). -/
def Node.mwtL (this : Node c.n K V) (right : LNode L W) (depth : Nat) : Res (TRes (Node c.n L W) R) :=
  Node.fold (fun s d => right.twmS x.flip reduce ops.flip s d)
    (fun l d => right.twmL x.flip reduce ops.flip l d)
    (mwtLC x reduce e ops right) this depth

end

/-! ### transform_with_transmuted -/

section
variable (ops : TwmOps K V L W R) (par : Par)

/-- `snode::transform_with_transmuted` (`/repo/src/node/snode.rs:112-131`). -/
def SNode.twmN (this : SNode K V) (right : Node c.n L W) (depth : Nat) : Res (TRes (Node c.n K V) R) :=
  match right with
  | .C b v z => (Node.C b v z).mwtS x.flip reduce e ops.flip this depth
  | .L l => l.mwtS x.flip reduce ops.flip this depth
  | .S s => this.twm x reduce ops s depth

/-- `lnode::transform_with_transmuted` (`/repo/src/node/lnode.rs:224-243`). -/
def LNode.twmN (this : LNode K V) (right : Node c.n L W) (depth : Nat) : Res (TRes (Node c.n K V) R) :=
  match right with
  | .C b v z => (Node.C b v z).mwtL x.flip reduce e ops.flip this depth
  | .L l => this.twmL x reduce ops l depth
  | .S s => this.twmS x reduce ops s depth

/-- `cnode::transform_with_transmuted_cnode` (`/repo/src/node/cnode.rs:585-673`), given the results on
    the children. -/
def twmCC (bits : BitVec c.n)
    (left : List (Node c.n K V × (Node c.n L W → Res (TRes (Node c.n K V) R)))) (extra : Nat)
    (right : Bia c.n (Node c.n L W)) : Res (TRes (Node c.n K V) R) := do
  let acc ← bothLoop reduce e .sequential ⟨bits, left, extra⟩ right
    (fun m => m.transform reduce e ops.left par)
    (fun m => do
      let res ← m.transmute reduce e ops.right
      .ok res.toT)
    (fun left? _ res => res.itemOpt true left?)
  TRes.finish acc

/-- `cnode::transform_with_transmuted` (`/repo/src/node/cnode.rs:301-321`).  The functions called for a list
    or single node use the results on the children against that list or single node, which `Node.twmL`,
    `Node.twmS` compute from the children themselves. -/
def twmC (bits : BitVec c.n)
    (left : List (Node c.n K V × (Node c.n L W → Res (TRes (Node c.n K V) R)))) (extra depth : Nat)
    (right : Node c.n L W) : Res (TRes (Node c.n K V) R) :=
  match right with
  | .C b v z => twmCC reduce e ops par bits left extra ⟨b, v, z⟩
  | .L l => (Node.C bits (left.map Prod.fst) extra).twmL x reduce e ops par l depth
  | .S s => (Node.C bits (left.map Prod.fst) extra).twmS x reduce e ops par s depth

/-- `MNode::transform_with_transmuted` (`/repo/src/node/mnode.rs:109-128`). -/
def Node.twm (this : Node c.n K V) (right : Node c.n L W) (depth : Nat) : Res (TRes (Node c.n K V) R) :=
  Node.fold (fun s d right => s.twmN x reduce e ops right d) (fun l d right => l.twmN x reduce e ops right d)
    (twmC x reduce e ops par) this depth right

end

/-! ### transmute_with_transformed -/

section
variable (ops : MwtOps K V L W R) (par : Par)

/-- `snode::transmute_with_transformed` (`/repo/src/node/snode.rs:133-152`). -/
def SNode.mwtN (this : SNode K V) (right : Node c.n L W) (depth : Nat) : Res (TRes (Node c.n L W) R) :=
  match right with
  | .C b v z => (Node.C b v z).twmS x.flip reduce e ops.flip par this depth
  | .L l => l.twmS x.flip reduce ops.flip this depth
  | .S s => this.mwt x reduce ops s depth

/-- `lnode::transmute_with_transformed` (`/repo/src/node/lnode.rs:245-264`). -/
def LNode.mwtN (this : LNode K V) (right : Node c.n L W) (depth : Nat) : Res (TRes (Node c.n L W) R) :=
  match right with
  | .C b v z => (Node.C b v z).twmL x.flip reduce e ops.flip par this depth
  | .L l => l.twmL x.flip reduce ops.flip this depth
  | .S s => this.mwtS x reduce ops s depth

/-- `cnode::transmute_with_transformed_cnode` (`/repo/src/node/cnode.rs:675-764`), given the results on
    the children. -/
def mwtCC (bits : BitVec c.n)
    (left : List (Node c.n K V × (Node c.n L W → Res (TRes (Node c.n L W) R)))) (extra : Nat)
    (right : Bia c.n (Node c.n L W)) : Res (TRes (Node c.n L W) R) := do
  let acc ← bothLoop reduce e .sequential ⟨bits, left, extra⟩ right
    (fun m => do
      let res ← m.transmute reduce e ops.left
      .ok res.toT)
    (fun m => m.transform reduce e ops.right par)
    (fun _ right? res => res.itemOpt true right?)
  TRes.finish acc

/-- `cnode::transmute_with_transformed` (`/repo/src/node/cnode.rs:323-343`); see `twmC`. -/
def mwtC (bits : BitVec c.n)
    (left : List (Node c.n K V × (Node c.n L W → Res (TRes (Node c.n L W) R)))) (extra depth : Nat)
    (right : Node c.n L W) : Res (TRes (Node c.n L W) R) :=
  match right with
  | .C b v z => mwtCC reduce e ops par bits left extra ⟨b, v, z⟩
  | .L l => (Node.C bits (left.map Prod.fst) extra).mwtL x reduce e ops l depth
  | .S s => (Node.C bits (left.map Prod.fst) extra).mwtS x reduce e ops s depth

/-- `MNode::transmute_with_transformed` (`/repo/src/node/mnode.rs:130-149`). -/
def Node.mwt (this : Node c.n K V) (right : Node c.n L W) (depth : Nat) : Res (TRes (Node c.n L W) R) :=
  Node.fold (fun s d right => s.mwtN x reduce e ops par right d)
    (fun l d right => l.mwtN x reduce e ops par right d)
    (mwtC x reduce e ops par) this depth right

end

/-! ### transmute_with_transmuted -/

section
variable (ops : MwmOps K V L W S X R)

/-- `cnode::transmute_with_transmuted_snode` (`/repo/src/node/cnode.rs:1537-1613`), given the results on
    the children. -/
def mwmSC (right : SNode L W) (bits : BitVec c.n) (left : List (Node c.n K V × Res (XRes (Node c.n S X) R)))
    (extra depth : Nat) : Res (XRes (Node c.n S X) R) := do
  let acc ← flatLoop reduce e (x.hash' right.key) depth ⟨bits, left, extra⟩
    (fun m => m.transmute reduce e ops.left) ((right.transmute ops.right).map Node.S)
    (fun _ res => .ok res.item)
  XRes.finish acc

/-- `MNode::transmute_with_transmuted_snode` (`/repo/src/node/mnode.rs:319-343`). -/
def Node.mwmS (this : Node c.n K V) (right : SNode L W) (depth : Nat) : Res (XRes (Node c.n S X) R) :=
  Node.fold (fun s d => s.mwm x reduce ops right d) (fun l d => l.mwmS x reduce ops right d)
    (mwmSC x reduce e ops right) this depth

/-- `cnode::transmute_with_transmuted_lnode` (`/repo/src/node/cnode.rs:1152-1228`), given the results on
    the children. -/
def mwmLC (right : LNode L W) (bits : BitVec c.n) (left : List (Node c.n K V × Res (XRes (Node c.n S X) R)))
    (extra depth : Nat) : Res (XRes (Node c.n S X) R) := do
  let acc ← flatLoop reduce e (x.hash' right.key) depth ⟨bits, left, extra⟩
    (fun m => m.transmute reduce e ops.left) ((right.transmute reduce ops.right).map LNext.toNode)
    (fun _ res => .ok res.item)
  XRes.finish acc

/-- `MNode::transmute_with_transmuted_lnode` (`/repo/src/node/mnode.rs:235-259`). -/
def Node.mwmL (this : Node c.n K V) (right : LNode L W) (depth : Nat) : Res (XRes (Node c.n S X) R) :=
  Node.fold (fun s d => right.mwmS x.flip reduce ops.flip s d) (fun l d => l.mwmL x reduce ops right d)
    (mwmLC x reduce e ops right) this depth

/-- `snode::transmute_with_transmuted` (`/repo/src/node/snode.rs:401-425`). -/
def SNode.mwmN (this : SNode K V) (right : Node c.n L W) (depth : Nat) : Res (XRes (Node c.n S X) R) :=
  match right with
  | .C b v z => (Node.C b v z).mwmS x.flip reduce e ops.flip this depth
  | .L l => l.mwmS x.flip reduce ops.flip this depth
  | .S s => this.mwm x reduce ops s depth

/-- `lnode::transmute_with_transmuted` (`/repo/src/node/lnode.rs:266-290`). -/
def LNode.mwmN (this : LNode K V) (right : Node c.n L W) (depth : Nat) : Res (XRes (Node c.n S X) R) :=
  match right with
  | .C b v z => (Node.C b v z).mwmL x.flip reduce e ops.flip this depth
  | .L l => this.mwmL x reduce ops l depth
  | .S s => this.mwmS x reduce ops s depth

/-- `cnode::transmute_with_transmuted_cnode` (`/repo/src/node/cnode.rs:766-840`), given the results on
    the children. -/
def mwmCC (bits : BitVec c.n)
    (left : List (Node c.n K V × (Node c.n L W → Res (XRes (Node c.n S X) R)))) (extra : Nat)
    (right : Bia c.n (Node c.n L W)) : Res (XRes (Node c.n S X) R) := do
  let acc ← bothLoop reduce e .sequential ⟨bits, left, extra⟩ right
    (fun m => m.transmute reduce e ops.left)
    (fun m => m.transmute reduce e ops.right)
    (fun _ _ res => .ok res.item)
  XRes.finish acc

/-- `cnode::transmute_with_transmuted` (`/repo/src/node/cnode.rs:345-369`); see `twmC`. -/
def mwmC (bits : BitVec c.n)
    (left : List (Node c.n K V × (Node c.n L W → Res (XRes (Node c.n S X) R)))) (extra depth : Nat)
    (right : Node c.n L W) : Res (XRes (Node c.n S X) R) :=
  match right with
  | .C b v z => mwmCC reduce e ops bits left extra ⟨b, v, z⟩
  | .L l => (Node.C bits (left.map Prod.fst) extra).mwmL x reduce e ops l depth
  | .S s => (Node.C bits (left.map Prod.fst) extra).mwmS x reduce e ops s depth

/-- `MNode::transmute_with_transmuted` (`/repo/src/node/mnode.rs:151-175`). -/
def Node.mwm (this : Node c.n K V) (right : Node c.n L W) (depth : Nat) : Res (XRes (Node c.n S X) R) :=
  Node.fold (fun s d right => s.mwmN x reduce e ops right d)
    (fun l d right => l.mwmN x reduce e ops right d)
    (mwmC x reduce e ops) this depth right

end

/-! ### transform_with_transformed -/

section
variable [BEq K] (hash : K → BitVec c.w) (ops : TwtOps K V R) (par : Par)

/-- A left child transformed alone (`/repo/src/node/cnode.rs:506-512`, 870-876, 1258-1264). -/
def Node.transformL (op : MapTransform R (K → V → MapTransformResult V R)) (m : Node c.n K V) :
    Res (JRes (Node c.n K V) R) := do
  let res ← m.transform reduce e op par
  .ok res.jointL

/-- A right child transformed alone (`/repo/src/node/cnode.rs:517-523`). -/
def Node.transformR (op : MapTransform R (K → V → MapTransformResult V R)) (m : Node c.n K V) :
    Res (JRes (Node c.n K V) R) := do
  let res ← m.transform reduce e op par
  .ok res.jointR

/-- `cnode::transform_with_transformed_snode` (`/repo/src/node/cnode.rs:1230-1353`), given the results on
    the children. -/
def twtSC (right : SNode K V) (bits : BitVec c.n) (left : List (Node c.n K V × Res (JRes (Node c.n K V) R)))
    (extra depth : Nat) : Res (JRes (Node c.n K V) R) := do
  let acc ← flatLoop reduce e (hash right.key) depth ⟨bits, left, extra⟩
    (Node.transformL reduce e par ops.left) ((right.transform ops.right).map Node.S).jointR
    (fun left? res => res.itemOpt left? (some (.S right)))
  JRes.finish acc

/-- `MNode::transform_with_transformed_snode` (`/repo/src/node/mnode.rs:261-275`). -/
def Node.twtS (this : Node c.n K V) (right : SNode K V) (depth : Nat) : Res (JRes (Node c.n K V) R) :=
  Node.fold (fun s d => s.twt reduce hash ops right d) (fun l d => l.twtS reduce hash ops right d)
    (twtSC reduce e hash ops par right) this depth

/-- `cnode::transform_with_transformed_lnode` (`/repo/src/node/cnode.rs:842-966`), given the results on
    the children. -/
def twtLC (right : LNode K V) (bits : BitVec c.n) (left : List (Node c.n K V × Res (JRes (Node c.n K V) R)))
    (extra depth : Nat) : Res (JRes (Node c.n K V) R) := do
  let acc ← flatLoop reduce e (hash right.key) depth ⟨bits, left, extra⟩
    (Node.transformL reduce e par ops.left) ((right.transform reduce ops.right).map LNext.toNode).jointR
    (fun left? res => res.itemOpt left? (some (.L right)))
  JRes.finish acc

/-- `x.flip()` of a result. -/
def JRes.flipR {N : Type} (res : Res (JRes N R)) : Res (JRes N R) := do
  let res ← res
  .ok res.flip

/-- `MNode::transform_with_transformed_lnode` (`/repo/src/node/mnode.rs:177-191`). -/
def Node.twtL (this : Node c.n K V) (right : LNode K V) (depth : Nat) : Res (JRes (Node c.n K V) R) :=
  Node.fold (fun s d => JRes.flipR (right.twtS reduce hash ops.flip s d))
    (fun l d => l.twtL reduce hash ops right d)
    (twtLC reduce e hash ops par right) this depth

/-- `snode::transform_with_transformed` (`/repo/src/node/snode.rs:96-110`). -/
def SNode.twtN (this : SNode K V) (right : Node c.n K V) (depth : Nat) : Res (JRes (Node c.n K V) R) :=
  match right with
  | .C b v z => JRes.flipR ((Node.C b v z).twtS reduce e hash ops.flip par this depth)
  | .L l => JRes.flipR (l.twtS reduce hash ops.flip this depth)
  | .S s => this.twt reduce hash ops s depth

/-- `lnode::transform_with_transformed` (`/repo/src/node/lnode.rs:208-222`). -/
def LNode.twtN (this : LNode K V) (right : Node c.n K V) (depth : Nat) : Res (JRes (Node c.n K V) R) :=
  match right with
  | .C b v z => JRes.flipR ((Node.C b v z).twtL reduce e hash ops.flip par this depth)
  | .L l => this.twtL reduce hash ops l depth
  | .S s => this.twtS reduce hash ops s depth

omit [BEq K] in
/-- The `match &both_op` (`/repo/src/node/cnode.rs:380-430`): operands that need not be looked at. -/
def TwtOps.shortcut (ops : TwtOps K V R) : Option (JRes (Node c.n K V) R) :=
  match ops.both, ops.left, ops.right with
  | .unchangedLR r, .unchanged _, .removed _ => some (.unchangedL r)
  | .unchangedLR r, .removed _, .unchanged _ => some (.unchangedR r)
  | .unchangedL r, .unchanged _, .removed _ => some (.unchangedL r)
  | .unchangedR r, .removed _, .unchanged _ => some (.unchangedR r)
  | .removed r, .removed _, .removed _ => some (.removed r)
  | _, _, _ => none

omit [BEq K] in
/-- `cnode::transform_with_transformed_cnode` (`/repo/src/node/cnode.rs:371-583`), given the results on
    the children. -/
def twtCC (bits : BitVec c.n)
    (left : List (Node c.n K V × (Node c.n K V → Res (JRes (Node c.n K V) R)))) (extra : Nat)
    (right : Bia c.n (Node c.n K V)) : Res (JRes (Node c.n K V) R) :=
  match ops.shortcut with
  | some res => .ok res
  | none => do
    let acc ← bothLoop reduce e par ⟨bits, left, extra⟩ right
      (Node.transformL reduce e par ops.left)
      (Node.transformR reduce e par ops.right)
      (fun left? right? res => res.itemOpt left? right?)
    JRes.finish acc

/-- `cnode::transform_with_transformed` (`/repo/src/node/cnode.rs:284-299`); see `twmC`. -/
def twtC (bits : BitVec c.n)
    (left : List (Node c.n K V × (Node c.n K V → Res (JRes (Node c.n K V) R)))) (extra depth : Nat)
    (right : Node c.n K V) : Res (JRes (Node c.n K V) R) :=
  match right with
  | .C b v z => twtCC reduce e ops par bits left extra ⟨b, v, z⟩
  | .L l => (Node.C bits (left.map Prod.fst) extra).twtL reduce e hash ops par l depth
  | .S s => (Node.C bits (left.map Prod.fst) extra).twtS reduce e hash ops par s depth

/-- `MNode::transform_with_transformed` (`/repo/src/node/mnode.rs:93-107`). -/
def Node.twt (this right : Node c.n K V) (depth : Nat) : Res (JRes (Node c.n K V) R) :=
  Node.fold (fun s d right => s.twtN reduce e hash ops par right d)
    (fun l d right => l.twtN reduce e hash ops par right d)
    (twtC reduce e hash ops par) this depth right

end

/-! ### Tries -/

namespace Trie

/-- `HashTrie::transform_with_transmuted` (`/repo/src/hash_trie.rs:121-143`). -/
def twm (ops : TwmOps K V L W R) (par : Par) (t : Trie c K V) (u : Trie c L W) : Res (Trie c K V × R) := do
  let res ← t.root.twm x reduce e ops par u.root 0
  match res with
  | .unchanged r => .ok (t, r)
  | .node m r => .ok (⟨m⟩, r)
  | .removed r => .ok (new c, r)

/-- `HashTrie::transmute_with_transformed` (`/repo/src/hash_trie.rs:145-167`). -/
def mwt (ops : MwtOps K V L W R) (par : Par) (t : Trie c K V) (u : Trie c L W) : Res (Trie c L W × R) := do
  let res ← t.root.mwt x reduce e ops par u.root 0
  match res with
  | .unchanged r => .ok (u, r)
  | .node m r => .ok (⟨m⟩, r)
  | .removed r => .ok (new c, r)

/-- `HashTrie::transmute_with_transmuted` (`/repo/src/hash_trie.rs:169-195`). -/
def mwm (ops : MwmOps K V L W S X R) (t : Trie c K V) (u : Trie c L W) : Res (Trie c S X × R) := do
  let res ← t.root.mwm x reduce e ops u.root 0
  match res with
  | .node m r => .ok (⟨m⟩, r)
  | .removed r => .ok (new c, r)

/-- `HashTrie::transform_with_transformed` (`/repo/src/hash_trie.rs:101-119`). -/
def twt [BEq K] (hash : K → BitVec c.w) (ops : TwtOps K V R) (par : Par) (t u : Trie c K V) :
    Res (Trie c K V × R) := do
  let res ← t.root.twt reduce e hash ops par u.root 0
  match res with
  | .unchangedLR r => .ok (t, r)
  | .unchangedL r => .ok (t, r)
  | .unchangedR r => .ok (u, r)
  | .node m r => .ok (⟨m⟩, r)
  | .removed r => .ok (new c, r)

/-- Lookup in the right map with a key of the left map's type: `right.find(&k)`
    (`/repo/src/hash_trie.rs:29-34`, with `L: PartialEq<K>`, `M: HasherBv<H, K>`). -/
def findAcross (x : Cross c K L) (u : Trie c L W) (k : K) : Res (Option (L × W)) :=
  u.findQ (fun l => x.eq' l k) (x.hash k)

end Trie
end HT
