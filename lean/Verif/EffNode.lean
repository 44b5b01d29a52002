import Verif.EffList
/-!
# Bulk and joint operations on nodes and tries, with closure calls and addresses

As in `Verif/Transform.lean` and `Verif/JointNode.lean`, in the order in which the code calls the closures and allocates.
-/
namespace HT

variable {K V L W S X R : Type} {Q : Type} {A : Q → Type}

mutual

/-- Recursion on nodes; see `Node.fold`.  `fC` also gets the address of the branch node. -/
def ANode.fold {n : Nat} {β : Type} (fS : ASNode K V → Nat → β) (fL : ALNode K V → Nat → β)
    (fC : Nat → BitVec n → List (ANode n K V × β) → Nat → Nat → β) : ANode n K V → Nat → β
  | .C a bits values extra, depth => fC a bits (ANode.foldAll fS fL fC values (depth + 1)) extra depth
  | .L l, depth => fL l depth
  | .S s, depth => fS s depth

/-- Each child with the function's result on it. -/
def ANode.foldAll {n : Nat} {β : Type} (fS : ASNode K V → Nat → β) (fL : ALNode K V → Nat → β)
    (fC : Nat → BitVec n → List (ANode n K V × β) → Nat → Nat → β) :
    List (ANode n K V) → Nat → List (ANode n K V × β)
  | [], _ => []
  | m :: ms, depth => (m, ANode.fold fS fL fC m depth) :: ANode.foldAll fS fL fC ms depth

end

/-! ### The bodies of the loops -/

namespace AAcc
variable {n : Nat}

/-- `for index in range` (`/repo/src/node/cnode.rs:183`, 243, ...). -/
def loopE (reduce : R → R → R) (item : Nat → Prog Q A (AItem n K V R)) :
    List Nat → AAcc n K V R → Prog Q A (AAcc n K V R)
  | [], acc => pure acc
  | i :: is, acc => do
    let it ← item i
    let acc ← Prog.res (acc.step reduce i it)
    loopE reduce item is acc

/-- The `match par_strat` (`/repo/src/node/cnode.rs:133-150`, 433-452).  `join!` of two futures that never wait runs
    them one after the other. -/
def gatherE (reduce : R → R → R) (e : R) (par : Par) (item : Nat → Prog Q A (AItem n K V R)) :
    Prog Q A (AAcc n K V R) :=
  match par with
  | .middleIndex => do
    let l ← loopE reduce item (List.range' 0 (n / 2)) (init e)
    let r ← loopE reduce item (List.range' (n / 2) (n - n / 2)) (init e)
    Prog.res (merge reduce l r)
  | .sequential => loopE reduce item (List.range' 0 n) (init e)

end AAcc

/-- As `TRes.itemOpt` (`/repo/src/node/cnode.rs:624-656`, 715-747, 1010-1043, 1100-1133, 1397-1429, 1486-1518). -/
def TRes.aitemOpt {n : Nat} (keep : Bool) (node? : Option (ANode n K V)) :
    TRes (ANode n K V) R → Res (AItem n K V R)
  | .unchanged r => do
    let m ← Res.unwrap node?
    .ok (.put m r keep keep)
  | .node m r => .ok (.put m r false false)
  | .removed r => .ok (.drop r false false)

/-- As `JRes.itemOpt` (`/repo/src/node/cnode.rs:529-579`, 891-941, 1278-1328). -/
def JRes.aitemOpt {n : Nat} (left? right? : Option (ANode n K V)) :
    JRes (ANode n K V) R → Res (AItem n K V R)
  | .unchangedLR r => do
    let m ← Res.unwrap left?
    .ok (.put m r true true)
  | .unchangedL r => do
    let m ← Res.unwrap left?
    .ok (.put m r true false)
  | .unchangedR r => do
    let m ← Res.unwrap right?
    .ok (.put m r false true)
  | .node m r => .ok (.put m r false false)
  | .removed r => .ok (.drop r false false)

/-- As `XRes.item` (`/repo/src/node/cnode.rs:245-267`). -/
def XRes.aitem {n : Nat} : XRes (ANode n S X) R → AItem n S X R
  | .node m r => .put m r false false
  | .removed r => .drop r false false

/-- As `TRes.finish` (`/repo/src/node/cnode.rs:659-672`, 750-763, 1046-1059, 1136-1149, 1432-1445, 1521-1534); also
    the end of `transform` (`/repo/src/node/cnode.rs:153-166`). -/
def TRes.afinish {n : Nat} (acc : AAcc n K V R) : Al (TRes (ANode n K V) R) :=
  if acc.ul then pure (.unchanged acc.red)
  else do
    let o ← acc.pack
    pure (TRes.ofOption o acc.red)

/-- As `XRes.finish` (`/repo/src/node/cnode.rs:831-839`, 1219-1227, 1604-1612). -/
def XRes.afinish {n : Nat} (acc : AAcc n K V R) : Al (XRes (ANode n K V) R) := do
  let o ← acc.pack
  pure (XRes.ofOption o acc.red)

/-- As `JRes.finish` (`/repo/src/node/cnode.rs:455-476`, 944-965, 1331-1352). -/
def JRes.afinish {n : Nat} (acc : AAcc n K V R) : Al (JRes (ANode n K V) R) :=
  if acc.ul then
    if acc.ur then pure (.unchangedLR acc.red) else pure (.unchangedL acc.red)
  else if acc.ur then pure (.unchangedR acc.red)
  else do
    let o ← acc.pack
    pure (JRes.ofOption o acc.red)

/-- The end of `transmute` (`/repo/src/node/cnode.rs:271-281`). -/
def XRes.afinishAssert {n : Nat} (acc : AAcc n K V R) : Al (XRes (ANode n K V) R) :=
  if acc.values.length ≠ countOnes acc.bits then Al.lift (.panic .assertion)
  else XRes.afinish acc

/-- As `flatItem` (`/repo/src/node/cnode.rs:862-889`, 992-1008, 1085-1098, 1179-1192, 1250-1276, 1379-1395, 1471-1484,
    1564-1577). -/
def aflatItem {n : Nat} {ρ ι ε : Type} (flag : BitVec n) (index : Nat)
    (child : Except ε (ANode n K V × Prog Q A ρ)) (elsewhere : ANode n K V → Prog Q A ρ) (alone : Prog Q A ρ)
    (item : Option (ANode n K V) → ρ → Res ι) (skip : ι) : Prog Q A ι := do
  let bit ← Prog.res (Res.unwrapE (nthBit n index))
  match child with
  | .ok (m, run) =>
    if flag = bit then do
      let res ← run
      Prog.res (item (some m) res)
    else do
      let res ← elsewhere m
      Prog.res (item (some m) res)
  | .error _ =>
    if flag = bit then do
      let res ← alone
      Prog.res (item none res)
    else pure skip

/-- As `flatLoop` (`/repo/src/node/cnode.rs:852-942`, 983-1044, 1076-1134, 1171-1217, 1240-1329, 1370-1430, 1462-1519,
    1556-1602). -/
def aflatLoop {c : Cfg} {ρ : Type} (reduce : R → R → R) (e : R) (rightHash : BitVec c.w) (depth : Nat)
    (left : Bia c.n (ANode c.n K V × Prog Q A ρ)) (elsewhere : ANode c.n K V → Prog Q A ρ) (alone : Prog Q A ρ)
    (item : Option (ANode c.n K V) → ρ → Res (AItem c.n S X R)) : Prog Q A (AAcc c.n S X R) := do
  let flag ← Prog.res (flagOf (c := c) rightHash depth)
  AAcc.gatherE reduce e .sequential fun index => do
    let child ← Prog.res (left.atBitIndex index)
    aflatItem flag.flag index child elsewhere alone item .skip

/-- As `bothItem` (`/repo/src/node/cnode.rs:496-527`, 606-622, 696-713, 791-804). -/
def abothItem {n : Nat} {ρ ι ε ε' : Type} (child : Except ε (ANode n K V × (ANode n L W → Prog Q A ρ)))
    (rchild : Except ε' (ANode n L W)) (onlyL : ANode n K V → Prog Q A ρ) (onlyR : ANode n L W → Prog Q A ρ)
    (item : Option (ANode n K V) → Option (ANode n L W) → ρ → Res ι) (skip : ι) : Prog Q A ι :=
  match child, rchild with
  | .ok (m, run), .ok r => do
    let res ← run r
    Prog.res (item (some m) (some r) res)
  | .ok (m, _), .error _ => do
    let res ← onlyL m
    Prog.res (item (some m) none res)
  | .error _, .ok r => do
    let res ← onlyR r
    Prog.res (item none (some r) res)
  | .error _, .error _ => pure skip

/-- As `bothLoop` (`/repo/src/node/cnode.rs:495-582`, 599-657, 689-748, 785-829). -/
def abothLoop {n : Nat} {ρ : Type} (reduce : R → R → R) (e : R) (par : Par)
    (left : Bia n (ANode n K V × (ANode n L W → Prog Q A ρ))) (right : Bia n (ANode n L W))
    (onlyL : ANode n K V → Prog Q A ρ) (onlyR : ANode n L W → Prog Q A ρ)
    (item : Option (ANode n K V) → Option (ANode n L W) → ρ → Res (AItem n S X R)) : Prog Q A (AAcc n S X R) :=
  AAcc.gatherE reduce e par fun index => do
    let child ← Prog.res (left.atBitIndex index)
    let rchild ← Prog.res (right.atBitIndex index)
    abothItem child rchild onlyL onlyR item .skip

/-! ### transform and transmute -/

/-- The body of the loop of `transform_impl` (`/repo/src/node/cnode.rs:184-218`). -/
def TRes.achildItemE {n : Nat} {ε : Type} (child : Except ε (ANode n K V × Prog Q A (TRes (ANode n K V) R))) :
    Prog Q A (AItem n K V R) :=
  match child with
  | .error _ => pure .skip
  | .ok (m, run) => do
    let res ← run
    pure (res.aitem m)

/-- The body of the loop of `transmute` (`/repo/src/node/cnode.rs:244-268`). -/
def XRes.achildItemE {n : Nat} {ε : Type} (child : Except ε (ANode n K V × Prog Q A (XRes (ANode n S X) R))) :
    Prog Q A (AItem n S X R) :=
  match child with
  | .error _ => pure .skip
  | .ok (_, run) => do
    let res ← run
    pure res.aitem

section
variable {n : Nat} (reduce : R → R → R) (e : R)

/-- `cnode::transform` and `transform_impl` (`/repo/src/node/cnode.rs:118-222`), given the children's own. -/
def transformEC (op : MapTransform R (K → V → Prog Q A (MapTransformResult V R))) (par : Par)
    (_ : Nat) (bits : BitVec n) (values : List (ANode n K V × Prog Q A (TRes (ANode n K V) R))) (extra : Nat)
    (_ : Nat) : Prog Q A (TRes (ANode n K V) R) :=
  match op with
  | .unchanged r => pure (.unchanged r)
  | .removed r => pure (.removed r)
  | .generic _ => do
    let acc ← AAcc.gatherE reduce e par fun index => do
      let child ← Prog.res ((Bia.mk bits values extra).atBitIndex index)
      TRes.achildItemE child
    Prog.al (TRes.afinish acc)

/-- `MNode::transform` (`/repo/src/node/mnode.rs:62-74`); the depth counts nothing here. -/
def ANode.transformE (op : MapTransform R (K → V → Prog Q A (MapTransformResult V R))) (par : Par)
    (this : ANode n K V) : Prog Q A (TRes (ANode n K V) R) :=
  ANode.fold
    (fun s _ => do
      let r ← s.transformE op
      pure (r.map .S))
    (fun l _ => do
      let r ← l.transformE reduce op
      pure (r.map ALNext.toNode))
    (transformEC reduce e op par) this 0

/-- `cnode::transmute` (`/repo/src/node/cnode.rs:224-282`), given the children's own. -/
def transmuteEC (op : MapTransmute R (K → V → Prog Q A (MapTransmuteResult S X R)))
    (_ : Nat) (bits : BitVec n) (values : List (ANode n K V × Prog Q A (XRes (ANode n S X) R))) (extra : Nat)
    (_ : Nat) : Prog Q A (XRes (ANode n S X) R) :=
  match op with
  | .removed r => pure (.removed r)
  | .generic _ => do
    let acc ← AAcc.gatherE reduce e .sequential fun index => do
      let child ← Prog.res ((Bia.mk bits values extra).atBitIndex index)
      XRes.achildItemE child
    Prog.al (XRes.afinishAssert acc)

/-- `MNode::transmute` (`/repo/src/node/mnode.rs:76-91`); the depth counts nothing here. -/
def ANode.transmuteE (op : MapTransmute R (K → V → Prog Q A (MapTransmuteResult S X R)))
    (this : ANode n K V) : Prog Q A (XRes (ANode n S X) R) :=
  ANode.fold
    (fun s _ => do
      let r ← s.transmuteE op
      pure (r.map .S))
    (fun l _ => do
      let r ← l.transmuteE reduce op
      pure (r.map ALNext.toNode))
    (transmuteEC reduce e op) this 0

end

variable {c : Cfg} (x : Cross c K L) (reduce : R → R → R) (e : R)

/-! ### transform_with_transmuted and transmute_with_transformed, right operand a list or single node -/

section
variable (ops : TwmOpsM Q A K V L W R) (par : Par)

/-- `cnode::transform_with_transmuted_snode` (`/repo/src/node/cnode.rs:1355-1446`). -/
def atwmSC (right : ASNode L W) (_ : Nat) (bits : BitVec c.n)
    (left : List (ANode c.n K V × Prog Q A (TRes (ANode c.n K V) R))) (extra depth : Nat) :
    Prog Q A (TRes (ANode c.n K V) R) := do
  let acc ← aflatLoop reduce e (x.hash' right.key) depth ⟨bits, left, extra⟩
    (fun m => m.transformE reduce e ops.left par)
    (do
      let r ← right.transmuteE ops.right
      pure (r.map ANode.S).toT)
    (fun left? res => res.aitemOpt true left?)
  Prog.al (TRes.afinish acc)

/-- `MNode::transform_with_transmuted_snode` (`/repo/src/node/mnode.rs:277-296`). -/
def ANode.twmS (this : ANode c.n K V) (right : ASNode L W) (depth : Nat) : Prog Q A (TRes (ANode c.n K V) R) :=
  ANode.fold (fun s d => s.twm x reduce ops right d) (fun l d => l.twmS x reduce ops right d)
    (atwmSC x reduce e ops par right) this depth

/-- `cnode::transform_with_transmuted_lnode` (`/repo/src/node/cnode.rs:968-1060`). -/
def atwmLC (right : ALNode L W) (_ : Nat) (bits : BitVec c.n)
    (left : List (ANode c.n K V × Prog Q A (TRes (ANode c.n K V) R))) (extra depth : Nat) :
    Prog Q A (TRes (ANode c.n K V) R) := do
  let acc ← aflatLoop reduce e (x.hash' right.key) depth ⟨bits, left, extra⟩
    (fun m => m.transformE reduce e ops.left par)
    (do
      let r ← right.transmuteE reduce ops.right
      pure (r.map ALNext.toNode).toT)
    (fun left? res => res.aitemOpt false left?)
  Prog.al (TRes.afinish acc)

/-- `MNode::transform_with_transmuted_lnode` (`/repo/src/node/mnode.rs:193-212`). -/
def ANode.twmL (this : ANode c.n K V) (right : ALNode L W) (depth : Nat) : Prog Q A (TRes (ANode c.n K V) R) :=
  ANode.fold (fun s d => right.mwtS x.flip reduce ops.flip s d) (fun l d => l.twmL x reduce ops right d)
    (atwmLC x reduce e ops par right) this depth

end

section
variable (ops : MwtOpsM Q A K V L W R)

/-- `cnode::transmute_with_transformed_snode` (`/repo/src/node/cnode.rs:1448-1535`). -/
def amwtSC (right : ASNode L W) (_ : Nat) (bits : BitVec c.n)
    (left : List (ANode c.n K V × Prog Q A (TRes (ANode c.n L W) R))) (extra depth : Nat) :
    Prog Q A (TRes (ANode c.n L W) R) := do
  let acc ← aflatLoop reduce e (x.hash' right.key) depth ⟨bits, left, extra⟩
    (fun m => do
      let res ← m.transmuteE reduce e ops.left
      pure res.toT)
    (do
      let r ← right.transformE ops.right
      pure (r.map ANode.S))
    (fun _ res => res.aitemOpt true (some (.S right)))
  Prog.al (TRes.afinish acc)

/-- `MNode::transmute_with_transformed_snode` (`/repo/src/node/mnode.rs:298-317`). -/
def ANode.mwtS (this : ANode c.n K V) (right : ASNode L W) (depth : Nat) : Prog Q A (TRes (ANode c.n L W) R) :=
  ANode.fold (fun s d => s.mwt x reduce ops right d) (fun l d => l.mwtS x reduce ops right d)
    (amwtSC x reduce e ops right) this depth

/-- `cnode::transmute_with_transformed_lnode` (`/repo/src/node/cnode.rs:1062-1150`). -/
def amwtLC (right : ALNode L W) (_ : Nat) (bits : BitVec c.n)
    (left : List (ANode c.n K V × Prog Q A (TRes (ANode c.n L W) R))) (extra depth : Nat) :
    Prog Q A (TRes (ANode c.n L W) R) := do
  let acc ← aflatLoop reduce e (x.hash' right.key) depth ⟨bits, left, extra⟩
    (fun m => do
      let res ← m.transmuteE reduce e ops.left
      pure res.toT)
    (do
      let r ← right.transformE reduce ops.right
      pure (r.map ALNext.toNode))
    (fun _ res => res.aitemOpt false (some (.L right)))
  Prog.al (TRes.afinish acc)

/-- `MNode::transmute_with_transformed_lnode` (`/repo/src/node/mnode.rs:214-233`). -/
def ANode.mwtL (this : ANode c.n K V) (right : ALNode L W) (depth : Nat) : Prog Q A (TRes (ANode c.n L W) R) :=
  ANode.fold (fun s d => right.twmS x.flip reduce ops.flip s d)
    (fun l d => right.twmL x.flip reduce ops.flip l d)
    (amwtLC x reduce e ops right) this depth

end

/-! ### transform_with_transmuted -/

section
variable (ops : TwmOpsM Q A K V L W R) (par : Par)

/-- `snode::transform_with_transmuted` (`/repo/src/node/snode.rs:112-131`). -/
def ASNode.twmN (this : ASNode K V) (right : ANode c.n L W) (depth : Nat) : Prog Q A (TRes (ANode c.n K V) R) :=
  match right with
  | .C a b v z => (ANode.C a b v z).mwtS x.flip reduce e ops.flip this depth
  | .L l => l.mwtS x.flip reduce ops.flip this depth
  | .S s => this.twm x reduce ops s depth

/-- `lnode::transform_with_transmuted` (`/repo/src/node/lnode.rs:224-243`). -/
def ALNode.twmN (this : ALNode K V) (right : ANode c.n L W) (depth : Nat) : Prog Q A (TRes (ANode c.n K V) R) :=
  match right with
  | .C a b v z => (ANode.C a b v z).mwtL x.flip reduce e ops.flip this depth
  | .L l => this.twmL x reduce ops l depth
  | .S s => this.twmS x reduce ops s depth

/-- `cnode::transform_with_transmuted_cnode` (`/repo/src/node/cnode.rs:585-673`). -/
def atwmCC (bits : BitVec c.n)
    (left : List (ANode c.n K V × (ANode c.n L W → Prog Q A (TRes (ANode c.n K V) R)))) (extra : Nat)
    (right : Bia c.n (ANode c.n L W)) : Prog Q A (TRes (ANode c.n K V) R) := do
  let acc ← abothLoop reduce e .sequential ⟨bits, left, extra⟩ right
    (fun m => m.transformE reduce e ops.left par)
    (fun m => do
      let res ← m.transmuteE reduce e ops.right
      pure res.toT)
    (fun left? _ res => res.aitemOpt true left?)
  Prog.al (TRes.afinish acc)

/-- `cnode::transform_with_transmuted` (`/repo/src/node/cnode.rs:301-321`); see `twmC`. -/
def atwmC (a : Nat) (bits : BitVec c.n)
    (left : List (ANode c.n K V × (ANode c.n L W → Prog Q A (TRes (ANode c.n K V) R)))) (extra depth : Nat)
    (right : ANode c.n L W) : Prog Q A (TRes (ANode c.n K V) R) :=
  match right with
  | .C _ b v z => atwmCC reduce e ops par bits left extra ⟨b, v, z⟩
  | .L l => (ANode.C a bits (left.map Prod.fst) extra).twmL x reduce e ops par l depth
  | .S s => (ANode.C a bits (left.map Prod.fst) extra).twmS x reduce e ops par s depth

/-- `MNode::transform_with_transmuted` (`/repo/src/node/mnode.rs:109-128`). -/
def ANode.twm (this : ANode c.n K V) (right : ANode c.n L W) (depth : Nat) : Prog Q A (TRes (ANode c.n K V) R) :=
  ANode.fold (fun s d right => s.twmN x reduce e ops right d) (fun l d right => l.twmN x reduce e ops right d)
    (atwmC x reduce e ops par) this depth right

end

/-! ### transmute_with_transformed -/

section
variable (ops : MwtOpsM Q A K V L W R) (par : Par)

/-- `snode::transmute_with_transformed` (`/repo/src/node/snode.rs:133-152`). -/
def ASNode.mwtN (this : ASNode K V) (right : ANode c.n L W) (depth : Nat) : Prog Q A (TRes (ANode c.n L W) R) :=
  match right with
  | .C a b v z => (ANode.C a b v z).twmS x.flip reduce e ops.flip par this depth
  | .L l => l.twmS x.flip reduce ops.flip this depth
  | .S s => this.mwt x reduce ops s depth

/-- `lnode::transmute_with_transformed` (`/repo/src/node/lnode.rs:245-264`). -/
def ALNode.mwtN (this : ALNode K V) (right : ANode c.n L W) (depth : Nat) : Prog Q A (TRes (ANode c.n L W) R) :=
  match right with
  | .C a b v z => (ANode.C a b v z).twmL x.flip reduce e ops.flip par this depth
  | .L l => l.twmL x.flip reduce ops.flip this depth
  | .S s => this.mwtS x reduce ops s depth

/-- `cnode::transmute_with_transformed_cnode` (`/repo/src/node/cnode.rs:675-764`). -/
def amwtCC (bits : BitVec c.n)
    (left : List (ANode c.n K V × (ANode c.n L W → Prog Q A (TRes (ANode c.n L W) R)))) (extra : Nat)
    (right : Bia c.n (ANode c.n L W)) : Prog Q A (TRes (ANode c.n L W) R) := do
  let acc ← abothLoop reduce e .sequential ⟨bits, left, extra⟩ right
    (fun m => do
      let res ← m.transmuteE reduce e ops.left
      pure res.toT)
    (fun m => m.transformE reduce e ops.right par)
    (fun _ right? res => res.aitemOpt true right?)
  Prog.al (TRes.afinish acc)

/-- `cnode::transmute_with_transformed` (`/repo/src/node/cnode.rs:323-343`); see `twmC`. -/
def amwtC (a : Nat) (bits : BitVec c.n)
    (left : List (ANode c.n K V × (ANode c.n L W → Prog Q A (TRes (ANode c.n L W) R)))) (extra depth : Nat)
    (right : ANode c.n L W) : Prog Q A (TRes (ANode c.n L W) R) :=
  match right with
  | .C _ b v z => amwtCC reduce e ops par bits left extra ⟨b, v, z⟩
  | .L l => (ANode.C a bits (left.map Prod.fst) extra).mwtL x reduce e ops l depth
  | .S s => (ANode.C a bits (left.map Prod.fst) extra).mwtS x reduce e ops s depth

/-- `MNode::transmute_with_transformed` (`/repo/src/node/mnode.rs:130-149`). -/
def ANode.mwt (this : ANode c.n K V) (right : ANode c.n L W) (depth : Nat) : Prog Q A (TRes (ANode c.n L W) R) :=
  ANode.fold (fun s d right => s.mwtN x reduce e ops par right d)
    (fun l d right => l.mwtN x reduce e ops par right d)
    (amwtC x reduce e ops par) this depth right

end

/-! ### transmute_with_transmuted -/

section
variable (ops : MwmOpsM Q A K V L W S X R)

/-- `cnode::transmute_with_transmuted_snode` (`/repo/src/node/cnode.rs:1537-1613`). -/
def amwmSC (right : ASNode L W) (_ : Nat) (bits : BitVec c.n)
    (left : List (ANode c.n K V × Prog Q A (XRes (ANode c.n S X) R))) (extra depth : Nat) :
    Prog Q A (XRes (ANode c.n S X) R) := do
  let acc ← aflatLoop reduce e (x.hash' right.key) depth ⟨bits, left, extra⟩
    (fun m => m.transmuteE reduce e ops.left)
    (do
      let r ← right.transmuteE ops.right
      pure (r.map ANode.S))
    (fun _ res => .ok res.aitem)
  Prog.al (XRes.afinish acc)

/-- `MNode::transmute_with_transmuted_snode` (`/repo/src/node/mnode.rs:319-343`). -/
def ANode.mwmS (this : ANode c.n K V) (right : ASNode L W) (depth : Nat) : Prog Q A (XRes (ANode c.n S X) R) :=
  ANode.fold (fun s d => s.mwm x reduce ops right d) (fun l d => l.mwmS x reduce ops right d)
    (amwmSC x reduce e ops right) this depth

/-- `cnode::transmute_with_transmuted_lnode` (`/repo/src/node/cnode.rs:1152-1228`). -/
def amwmLC (right : ALNode L W) (_ : Nat) (bits : BitVec c.n)
    (left : List (ANode c.n K V × Prog Q A (XRes (ANode c.n S X) R))) (extra depth : Nat) :
    Prog Q A (XRes (ANode c.n S X) R) := do
  let acc ← aflatLoop reduce e (x.hash' right.key) depth ⟨bits, left, extra⟩
    (fun m => m.transmuteE reduce e ops.left)
    (do
      let r ← right.transmuteE reduce ops.right
      pure (r.map ALNext.toNode))
    (fun _ res => .ok res.aitem)
  Prog.al (XRes.afinish acc)

/-- `MNode::transmute_with_transmuted_lnode` (`/repo/src/node/mnode.rs:235-259`). -/
def ANode.mwmL (this : ANode c.n K V) (right : ALNode L W) (depth : Nat) : Prog Q A (XRes (ANode c.n S X) R) :=
  ANode.fold (fun s d => right.mwmS x.flip reduce ops.flip s d) (fun l d => l.mwmL x reduce ops right d)
    (amwmLC x reduce e ops right) this depth

/-- `snode::transmute_with_transmuted` (`/repo/src/node/snode.rs:401-425`). -/
def ASNode.mwmN (this : ASNode K V) (right : ANode c.n L W) (depth : Nat) : Prog Q A (XRes (ANode c.n S X) R) :=
  match right with
  | .C a b v z => (ANode.C a b v z).mwmS x.flip reduce e ops.flip this depth
  | .L l => l.mwmS x.flip reduce ops.flip this depth
  | .S s => this.mwm x reduce ops s depth

/-- `lnode::transmute_with_transmuted` (`/repo/src/node/lnode.rs:266-290`). -/
def ALNode.mwmN (this : ALNode K V) (right : ANode c.n L W) (depth : Nat) : Prog Q A (XRes (ANode c.n S X) R) :=
  match right with
  | .C a b v z => (ANode.C a b v z).mwmL x.flip reduce e ops.flip this depth
  | .L l => this.mwmL x reduce ops l depth
  | .S s => this.mwmS x reduce ops s depth

/-- `cnode::transmute_with_transmuted_cnode` (`/repo/src/node/cnode.rs:766-840`). -/
def amwmCC (bits : BitVec c.n)
    (left : List (ANode c.n K V × (ANode c.n L W → Prog Q A (XRes (ANode c.n S X) R)))) (extra : Nat)
    (right : Bia c.n (ANode c.n L W)) : Prog Q A (XRes (ANode c.n S X) R) := do
  let acc ← abothLoop reduce e .sequential ⟨bits, left, extra⟩ right
    (fun m => m.transmuteE reduce e ops.left)
    (fun m => m.transmuteE reduce e ops.right)
    (fun _ _ res => .ok res.aitem)
  Prog.al (XRes.afinish acc)

/-- `cnode::transmute_with_transmuted` (`/repo/src/node/cnode.rs:345-369`); see `twmC`. -/
def amwmC (a : Nat) (bits : BitVec c.n)
    (left : List (ANode c.n K V × (ANode c.n L W → Prog Q A (XRes (ANode c.n S X) R)))) (extra depth : Nat)
    (right : ANode c.n L W) : Prog Q A (XRes (ANode c.n S X) R) :=
  match right with
  | .C _ b v z => amwmCC reduce e ops bits left extra ⟨b, v, z⟩
  | .L l => (ANode.C a bits (left.map Prod.fst) extra).mwmL x reduce e ops l depth
  | .S s => (ANode.C a bits (left.map Prod.fst) extra).mwmS x reduce e ops s depth

/-- `MNode::transmute_with_transmuted` (`/repo/src/node/mnode.rs:151-175`). -/
def ANode.mwm (this : ANode c.n K V) (right : ANode c.n L W) (depth : Nat) : Prog Q A (XRes (ANode c.n S X) R) :=
  ANode.fold (fun s d right => s.mwmN x reduce e ops right d)
    (fun l d right => l.mwmN x reduce e ops right d)
    (amwmC x reduce e ops) this depth right

end

/-! ### transform_with_transformed -/

section
variable [BEq K] (hash : K → BitVec c.w) (ops : TwtOpsM Q A K V R) (par : Par)

/-- As `Node.transformL` (`/repo/src/node/cnode.rs:506-512`, 870-876, 1258-1264). -/
def ANode.transformL (op : MapTransform R (K → V → Prog Q A (MapTransformResult V R))) (m : ANode c.n K V) :
    Prog Q A (JRes (ANode c.n K V) R) := do
  let res ← m.transformE reduce e op par
  pure res.jointL

/-- As `Node.transformR` (`/repo/src/node/cnode.rs:517-523`). -/
def ANode.transformR (op : MapTransform R (K → V → Prog Q A (MapTransformResult V R))) (m : ANode c.n K V) :
    Prog Q A (JRes (ANode c.n K V) R) := do
  let res ← m.transformE reduce e op par
  pure res.jointR

/-- `cnode::transform_with_transformed_snode` (`/repo/src/node/cnode.rs:1230-1353`). -/
def atwtSC (right : ASNode K V) (_ : Nat) (bits : BitVec c.n)
    (left : List (ANode c.n K V × Prog Q A (JRes (ANode c.n K V) R))) (extra depth : Nat) :
    Prog Q A (JRes (ANode c.n K V) R) := do
  let acc ← aflatLoop reduce e (hash right.key) depth ⟨bits, left, extra⟩
    (ANode.transformL reduce e par ops.left)
    (do
      let r ← right.transformE ops.right
      pure (r.map ANode.S).jointR)
    (fun left? res => res.aitemOpt left? (some (.S right)))
  Prog.al (JRes.afinish acc)

/-- `MNode::transform_with_transformed_snode` (`/repo/src/node/mnode.rs:261-275`). -/
def ANode.twtS (this : ANode c.n K V) (right : ASNode K V) (depth : Nat) : Prog Q A (JRes (ANode c.n K V) R) :=
  ANode.fold (fun s d => s.twt reduce hash ops right d) (fun l d => l.twtS reduce hash ops right d)
    (atwtSC reduce e hash ops par right) this depth

/-- `cnode::transform_with_transformed_lnode` (`/repo/src/node/cnode.rs:842-966`). -/
def atwtLC (right : ALNode K V) (_ : Nat) (bits : BitVec c.n)
    (left : List (ANode c.n K V × Prog Q A (JRes (ANode c.n K V) R))) (extra depth : Nat) :
    Prog Q A (JRes (ANode c.n K V) R) := do
  let acc ← aflatLoop reduce e (hash right.key) depth ⟨bits, left, extra⟩
    (ANode.transformL reduce e par ops.left)
    (do
      let r ← right.transformE reduce ops.right
      pure (r.map ALNext.toNode).jointR)
    (fun left? res => res.aitemOpt left? (some (.L right)))
  Prog.al (JRes.afinish acc)

/-- As `JRes.flipR`. -/
def JRes.flipE {N : Type} (res : Prog Q A (JRes N R)) : Prog Q A (JRes N R) := do
  let res ← res
  pure res.flip

/-- `MNode::transform_with_transformed_lnode` (`/repo/src/node/mnode.rs:177-191`). -/
def ANode.twtL (this : ANode c.n K V) (right : ALNode K V) (depth : Nat) : Prog Q A (JRes (ANode c.n K V) R) :=
  ANode.fold (fun s d => JRes.flipE (right.twtS reduce hash ops.flip s d))
    (fun l d => l.twtL reduce hash ops right d)
    (atwtLC reduce e hash ops par right) this depth

/-- `snode::transform_with_transformed` (`/repo/src/node/snode.rs:96-110`). -/
def ASNode.twtN (this : ASNode K V) (right : ANode c.n K V) (depth : Nat) : Prog Q A (JRes (ANode c.n K V) R) :=
  match right with
  | .C a b v z => JRes.flipE ((ANode.C a b v z).twtS reduce e hash ops.flip par this depth)
  | .L l => JRes.flipE (l.twtS reduce hash ops.flip this depth)
  | .S s => this.twt reduce hash ops s depth

/-- `lnode::transform_with_transformed` (`/repo/src/node/lnode.rs:208-222`). -/
def ALNode.twtN (this : ALNode K V) (right : ANode c.n K V) (depth : Nat) : Prog Q A (JRes (ANode c.n K V) R) :=
  match right with
  | .C a b v z => JRes.flipE ((ANode.C a b v z).twtL reduce e hash ops.flip par this depth)
  | .L l => this.twtL reduce hash ops l depth
  | .S s => this.twtS reduce hash ops s depth

omit [BEq K] in
/-- As `TwtOps.shortcut` (`/repo/src/node/cnode.rs:380-430`). -/
def TwtOpsM.shortcut (ops : TwtOpsM Q A K V R) : Option (JRes (ANode c.n K V) R) :=
  match ops.both, ops.left, ops.right with
  | .unchangedLR r, .unchanged _, .removed _ => some (.unchangedL r)
  | .unchangedLR r, .removed _, .unchanged _ => some (.unchangedR r)
  | .unchangedL r, .unchanged _, .removed _ => some (.unchangedL r)
  | .unchangedR r, .removed _, .unchanged _ => some (.unchangedR r)
  | .removed r, .removed _, .removed _ => some (.removed r)
  | _, _, _ => none

omit [BEq K] in
/-- `cnode::transform_with_transformed_cnode` (`/repo/src/node/cnode.rs:371-583`). -/
def atwtCC (bits : BitVec c.n)
    (left : List (ANode c.n K V × (ANode c.n K V → Prog Q A (JRes (ANode c.n K V) R)))) (extra : Nat)
    (right : Bia c.n (ANode c.n K V)) : Prog Q A (JRes (ANode c.n K V) R) :=
  match ops.shortcut with
  | some res => pure res
  | none => do
    let acc ← abothLoop reduce e par ⟨bits, left, extra⟩ right
      (ANode.transformL reduce e par ops.left)
      (ANode.transformR reduce e par ops.right)
      (fun left? right? res => res.aitemOpt left? right?)
    Prog.al (JRes.afinish acc)

/-- `cnode::transform_with_transformed` (`/repo/src/node/cnode.rs:284-299`); see `twmC`. -/
def atwtC (a : Nat) (bits : BitVec c.n)
    (left : List (ANode c.n K V × (ANode c.n K V → Prog Q A (JRes (ANode c.n K V) R)))) (extra depth : Nat)
    (right : ANode c.n K V) : Prog Q A (JRes (ANode c.n K V) R) :=
  match right with
  | .C _ b v z => atwtCC reduce e ops par bits left extra ⟨b, v, z⟩
  | .L l => (ANode.C a bits (left.map Prod.fst) extra).twtL reduce e hash ops par l depth
  | .S s => (ANode.C a bits (left.map Prod.fst) extra).twtS reduce e hash ops par s depth

/-- `MNode::transform_with_transformed` (`/repo/src/node/mnode.rs:93-107`). -/
def ANode.twt (this right : ANode c.n K V) (depth : Nat) : Prog Q A (JRes (ANode c.n K V) R) :=
  ANode.fold (fun s d right => s.twtN reduce e hash ops par right d)
    (fun l d right => l.twtN reduce e hash ops par right d)
    (atwtC reduce e hash ops par) this depth right

end

/-! ### Tries -/

namespace ATrie

/-- `HashTrie::transform` (`/repo/src/hash_trie.rs:65-80`), `HashTrieMap::transform` (`/repo/src/map.rs:115-125`). -/
def transformE (t : ATrie c K V) (op : MapTransform R (K → V → Prog Q A (MapTransformResult V R))) (par : Par) :
    Prog Q A (ATrie c K V × R) := do
  let res ← t.root.transformE reduce e op par
  match res with
  | .unchanged r => pure (t.clone, r)
  | .node m r => pure (⟨m⟩, r)
  | .removed r => do
    let t' ← Prog.al (new c)
    pure (t', r)

/-- `HashTrie::transmute` (`/repo/src/hash_trie.rs:82-99`), `HashTrieMap::transmute` (`/repo/src/map.rs:128-141`). -/
def transmuteE (t : ATrie c K V) (op : MapTransmute R (K → V → Prog Q A (MapTransmuteResult S X R))) :
    Prog Q A (ATrie c S X × R) := do
  let res ← t.root.transmuteE reduce e op
  match res with
  | .node m r => pure (⟨m⟩, r)
  | .removed r => do
    let t' ← Prog.al (new c)
    pure (t', r)

/-- `HashTrie::transform_with_transmuted` (`/repo/src/hash_trie.rs:121-143`). -/
def twmE (ops : TwmOpsM Q A K V L W R) (par : Par) (t : ATrie c K V) (u : ATrie c L W) :
    Prog Q A (ATrie c K V × R) := do
  let res ← t.root.twm x reduce e ops par u.root 0
  match res with
  | .unchanged r => pure (t.clone, r)
  | .node m r => pure (⟨m⟩, r)
  | .removed r => do
    let t' ← Prog.al (new c)
    pure (t', r)

/-- `HashTrie::transmute_with_transformed` (`/repo/src/hash_trie.rs:145-167`). -/
def mwtE (ops : MwtOpsM Q A K V L W R) (par : Par) (t : ATrie c K V) (u : ATrie c L W) :
    Prog Q A (ATrie c L W × R) := do
  let res ← t.root.mwt x reduce e ops par u.root 0
  match res with
  | .unchanged r => pure (u.clone, r)
  | .node m r => pure (⟨m⟩, r)
  | .removed r => do
    let t' ← Prog.al (new c)
    pure (t', r)

/-- `HashTrie::transmute_with_transmuted` (`/repo/src/hash_trie.rs:169-195`). -/
def mwmE (ops : MwmOpsM Q A K V L W S X R) (t : ATrie c K V) (u : ATrie c L W) : Prog Q A (ATrie c S X × R) := do
  let res ← t.root.mwm x reduce e ops u.root 0
  match res with
  | .node m r => pure (⟨m⟩, r)
  | .removed r => do
    let t' ← Prog.al (new c)
    pure (t', r)

/-- `HashTrie::transform_with_transformed` (`/repo/src/hash_trie.rs:101-119`). -/
def twtE [BEq K] (hash : K → BitVec c.w) (ops : TwtOpsM Q A K V R) (par : Par) (t u : ATrie c K V) :
    Prog Q A (ATrie c K V × R) := do
  let res ← t.root.twt reduce e hash ops par u.root 0
  match res with
  | .unchangedLR r => pure (t.clone, r)
  | .unchangedL r => pure (t.clone, r)
  | .unchangedR r => pure (u.clone, r)
  | .node m r => pure (⟨m⟩, r)
  | .removed r => do
    let t' ← Prog.al (new c)
    pure (t', r)

end ATrie
end HT
