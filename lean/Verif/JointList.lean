import Verif.Transform
import Verif.JointOps
/-!
# Joint operations on single nodes and collision lists (`/repo/src/node/snode.rs`, `/repo/src/node/lnode.rs`)
-/
namespace HT

variable {K V L W S X R : Type}

/-! ### The vector of the right operand's entries -/

/-- The `loop` collecting the entries of `right` (`/repo/src/node/lnode.rs:305-318`, 443-456, 564-577),
    run for at most `fuel` iterations.  As in the code, `r` is reset to `right`, not advanced to `lnode`. -/
def LNode.rightsLoop (right : LNode L W) : Nat → LNode L W → List (L × W) → Option (List (L × W))
  | 0, _, _ => none
  | fuel + 1, r, rights =>
    match r.next with
    | .L lnode => rightsLoop right fuel right (rights ++ [(lnode.key, lnode.value)])
    | .S snode => some (rights ++ [(snode.key, snode.value)])

/-- The outcome of that loop: it ends after one iteration, or never.  `LNode.rights_ok` and
    `LNode.rights_diverge` below prove that this is what `rightsLoop` does. -/
def LNode.rights (right : LNode L W) : Res (List (L × W)) :=
  match right.next with
  | .L _ => .diverge
  | .S snode => .ok [(right.key, right.value), (snode.key, snode.value)]

theorem LNode.rightsLoop_L {right l : LNode L W} (h : right.next = .L l) (fuel : Nat)
    (rights : List (L × W)) : right.rightsLoop fuel right rights = none := by
  induction fuel generalizing rights with
  | zero => rfl
  | succ fuel ih => rw [LNode.rightsLoop, h]; exact ih _

/-- The loop returns `l` after some number of iterations iff the model says so. -/
theorem LNode.rights_ok (right : LNode L W) (l : List (L × W)) :
    right.rights = .ok l ↔ ∃ fuel, right.rightsLoop fuel right [(right.key, right.value)] = some l := by
  cases h : right.next with
  | L lnode =>
    simp [LNode.rights, h, LNode.rightsLoop_L h]
  | S snode =>
    simp only [LNode.rights, h, Res.ok.injEq]
    constructor
    · intro hl; exact ⟨1, by rw [LNode.rightsLoop, h, ← hl]; rfl⟩
    · rintro ⟨fuel, hf⟩
      cases fuel with
      | zero => simp [LNode.rightsLoop] at hf
      | succ fuel => rw [LNode.rightsLoop, h] at hf; injection hf with hf

/-- The loop never ends iff the model says so. -/
theorem LNode.rights_diverge (right : LNode L W) :
    right.rights = .diverge ↔ ∀ fuel, right.rightsLoop fuel right [(right.key, right.value)] = none := by
  cases h : right.next with
  | L lnode => simp [LNode.rights, h, LNode.rightsLoop_L h]
  | S snode =>
    simp only [LNode.rights, h, reduceCtorEq, false_iff]
    intro hf
    have := hf 1
    rw [LNode.rightsLoop, h] at this
    simp at this

/-- `Vec::swap_remove`, as used in `/repo/src/node/lnode.rs:399`: the last element takes the place of the
    removed one. -/
def swapRemove {α : Type} (l : List α) (i : Nat) : List α :=
  match l.getLast? with
  | none => l
  | some z => (l.set i z).dropLast

/-- `rights.iter().position(p).map(|index| rights.swap_remove(index))` (`/repo/src/node/lnode.rs:399`, 413,
    526, 533, 644, 651): the element found, and the vector afterwards. -/
def takeMatch {α : Type} (p : α → Bool) (rights : List α) : Option (α × List α) :=
  match rights.findIdx? p with
  | none => none
  | some i => match rights[i]? with
    | none => none
    | some a => some (a, swapRemove rights i)

/-! ### Operands with different hashes -/

section
variable {c : Cfg}

/-- `Flag::new_at_depth(hash, depth).unwrap()` (`/repo/src/node/lnode.rs:354-355`, ...). -/
def flagOf (hash : BitVec c.w) (depth : Nat) : Res (Flag c) := do
  let f ← Flag.newAtDepth hash depth
  Res.unwrap f

/-- `cnode::lift_to_cnode_and_insert(l, left_flag, r, right_flag)` of two lists or single nodes
    (`/repo/src/node/cnode.rs:1615-1630`). -/
def liftN (l : LNext K V) (lf : Flag c) (r : LNext K V) (rf : Flag c) : Res (Node c.n K V) :=
  liftC c l.toNode lf r.toNode rf

/-- The table for different hashes of `transform_with_transmuted`: `/repo/src/node/lnode.rs:483-507`
    (lists), 756-776 (list and single), `/repo/src/node/snode.rs:261-277` (singles).
    Lists and single nodes are treated alike, which merges the rows `L(..)` and `S(..)`. -/
def twmApart (reduce : R → R → R) (this : LNext K V) (thisHash rightHash : BitVec c.w) (depth : Nat)
    (left : TRes (LNext K V) R) (right : XRes (LNext K V) R) : Res (TRes (Node c.n K V) R) := do
  let lf ← flagOf thisHash depth
  let rf ← flagOf rightHash depth
  match left, right with
  | .unchanged lr, .node r rr => do
    let m ← liftN this lf r rf
    .ok (.node m (reduce lr rr))
  | .unchanged lr, .removed rr => .ok (.unchanged (reduce lr rr))
  | .node l lr, .node r rr => do
    let m ← liftN l lf r rf
    .ok (.node m (reduce lr rr))
  | .node l lr, .removed rr => .ok (.node l.toNode (reduce lr rr))
  | .removed lr, .node r rr => .ok (.node r.toNode (reduce lr rr))
  | .removed lr, .removed rr => .ok (.removed (reduce lr rr))

/-- The table for different hashes of `transmute_with_transformed`: `/repo/src/node/lnode.rs:834-853`,
    `/repo/src/node/snode.rs:345-359`. -/
def mwtApart (reduce : R → R → R) (right : LNext K V) (thisHash rightHash : BitVec c.w) (depth : Nat)
    (left : XRes (LNext K V) R) (r : TRes (LNext K V) R) : Res (TRes (Node c.n K V) R) := do
  let lf ← flagOf thisHash depth
  let rf ← flagOf rightHash depth
  match left, r with
  | .node l lr, .unchanged rr => do
    let m ← liftN l lf right rf
    .ok (.node m (reduce lr rr))
  | .node l lr, .node r rr => do
    let m ← liftN l lf r rf
    .ok (.node m (reduce lr rr))
  | .node l lr, .removed rr => .ok (.node l.toNode (reduce lr rr))
  | .removed lr, .unchanged rr => .ok (.unchanged (reduce lr rr))
  | .removed lr, .node r rr => .ok (.node r.toNode (reduce lr rr))
  | .removed lr, .removed rr => .ok (.removed (reduce lr rr))

/-- The table for different hashes of `transmute_with_transmuted`: `/repo/src/node/lnode.rs:602-621`,
    916-932, `/repo/src/node/snode.rs:456-468`. -/
def mwmApart (reduce : R → R → R) (thisHash rightHash : BitVec c.w) (depth : Nat)
    (left right : XRes (LNext S X) R) : Res (XRes (Node c.n S X) R) := do
  let lf ← flagOf thisHash depth
  let rf ← flagOf rightHash depth
  match left, right with
  | .node l lr, .node r rr => do
    let m ← liftN l lf r rf
    .ok (.node m (reduce lr rr))
  | .node l lr, .removed rr => .ok (.node l.toNode (reduce lr rr))
  | .removed lr, .node r rr => .ok (.node r.toNode (reduce lr rr))
  | .removed lr, .removed rr => .ok (.removed (reduce lr rr))

/-- The table for different hashes of `transform_with_transformed`: `/repo/src/node/lnode.rs:354-382`,
    678-702, `/repo/src/node/snode.rs:173-192`. -/
def twtApart (reduce : R → R → R) (this right : LNext K V) (thisHash rightHash : BitVec c.w) (depth : Nat)
    (left r : TRes (LNext K V) R) : Res (JRes (Node c.n K V) R) := do
  let lf ← flagOf thisHash depth
  let rf ← flagOf rightHash depth
  match left, r with
  | .unchanged lr, .unchanged rr => do
    let m ← liftN this lf right rf
    .ok (.node m (reduce lr rr))
  | .unchanged lr, .node r rr => do
    let m ← liftN this lf r rf
    .ok (.node m (reduce lr rr))
  | .unchanged lr, .removed rr => .ok (.unchangedL (reduce lr rr))
  | .node l lr, .unchanged rr => do
    let m ← liftN l lf right rf
    .ok (.node m (reduce lr rr))
  | .node l lr, .node r rr => do
    let m ← liftN l lf r rf
    .ok (.node m (reduce lr rr))
  | .node l lr, .removed rr => .ok (.node l.toNode (reduce lr rr))
  | .removed lr, .unchanged rr => .ok (.unchangedR (reduce lr rr))
  | .removed lr, .node r rr => .ok (.node r.toNode (reduce lr rr))
  | .removed lr, .removed rr => .ok (.removed (reduce lr rr))

end

/-- The tail of a collision list, transformed (`/repo/src/node/lnode.rs:715-718`, 793-796). -/
def LNext.transform (reduce : R → R → R) (op : MapTransform R (K → V → MapTransformResult V R)) :
    LNext K V → TRes (LNext K V) R
  | .L l => l.transform reduce op
  | .S s => (s.transform op).map .S

/-- The tail of a collision list, transmuted (`/repo/src/node/lnode.rs:870-873`, 953-956). -/
def LNext.transmute (reduce : R → R → R) (op : MapTransmute R (K → V → MapTransmuteResult S X R)) :
    LNext K V → XRes (LNext S X) R
  | .L l => l.transmute reduce op
  | .S s => (s.transmute op).map .S

variable {c : Cfg} (x : Cross c K L) (reduce : R → R → R)

/-! ### transform_with_transmuted -/

section
variable (ops : TwmOps K V L W R)

/-- `snode::transform_with_transmuted_snode_impl` (`/repo/src/node/snode.rs:281-319`). -/
def SNode.twmImpl (this : SNode K V) (rk : L) (rv : W) : TRes (LNext K V) R :=
  if x.eq this.key rk then
    match ops.both.call2 this.key this.value rk rv with
    | .unchanged r => .unchanged r
    | .transformed v r => .node (.S ⟨this.key, v⟩) r
    | .removed r => .removed r
  else
    match ops.left.call this.key this.value, ops.right.call rk rv with
    | .unchanged lr, .transmuted rk rv rr => .node (.L (LNode.new rk rv (.S this))) (reduce lr rr)
    | .unchanged lr, .removed rr => .unchanged (reduce lr rr)
    | .transformed lv lr, .transmuted rk rv rr =>
      .node (.L (LNode.new rk rv (.S ⟨this.key, lv⟩))) (reduce lr rr)
    | .transformed lv lr, .removed rr => .node (.S ⟨this.key, lv⟩) (reduce lr rr)
    | .removed lr, .transmuted rk rv rr => .node (.S ⟨rk, rv⟩) (reduce lr rr)
    | .removed lr, .removed rr => .removed (reduce lr rr)

/-- `snode::transform_with_transmuted_snode` (`/repo/src/node/snode.rs:237-279`). -/
def SNode.twm (this : SNode K V) (right : SNode L W) (depth : Nat) : Res (TRes (Node c.n K V) R) :=
  if x.hash this.key = x.hash' right.key then
    .ok ((this.twmImpl x reduce ops right.key right.value).map LNext.toNode)
  else
    twmApart reduce (.S this) (x.hash this.key) (x.hash' right.key) depth
      ((this.transform ops.left).map .S) ((right.transmute ops.right).map .S)

/-- `lnode::transform_with_transmuted_snode_impl` (`/repo/src/node/lnode.rs:780-808`).  The table
    `transform_with_transformed_result` (1056-1084) is `transform_result` (1164-1192) word for word. -/
def LNode.twmSImpl (right : SNode L W) : LNode K V → TRes (LNext K V) R
  | .nextS k v s z =>
    if x.eq k right.key then
      LNode.transformResult reduce (.nextS k v s z) (ops.both.call2 k v right.key right.value)
        ((s.transform ops.left).map .S)
    else
      LNode.transformResult reduce (.nextS k v s z) (ops.left.call k v)
        (s.twmImpl x reduce ops right.key right.value)
  | .nextL k v l z =>
    if x.eq k right.key then
      LNode.transformResult reduce (.nextL k v l z) (ops.both.call2 k v right.key right.value)
        (l.transform reduce ops.left)
    else
      LNode.transformResult reduce (.nextL k v l z) (ops.left.call k v) (l.twmSImpl right)

/-- `lnode::transform_with_transmuted_snode` (`/repo/src/node/lnode.rs:732-778`). -/
def LNode.twmS (this : LNode K V) (right : SNode L W) (depth : Nat) : Res (TRes (Node c.n K V) R) :=
  if x.hash this.key = x.hash' right.key then
    .ok ((this.twmSImpl x reduce ops right).map LNext.toNode)
  else
    twmApart reduce (.L this) (x.hash this.key) (x.hash' right.key) depth
      (this.transform reduce ops.left) ((right.transmute ops.right).map .S)

/-- The last node of the left list against the remaining entries of the right one
    (`/repo/src/node/lnode.rs:525-530`). -/
def SNode.twmLast (s : SNode K V) (rights : List (L × W)) : TRes (LNext K V) R × List (L × W) :=
  match takeMatch (fun e => x.eq s.key e.1) rights with
  | some (b, rights') => (s.twmImpl x reduce ops b.1 b.2, rights')
  | none => ((s.transform ops.left).map .S, rights)

/-- An entry of the left list against the remaining entries of the right one
    (`/repo/src/node/lnode.rs:533-536`). -/
def TwmOps.step (k : K) (v : V) (rights : List (L × W)) : MapTransformResult V R × List (L × W) :=
  match takeMatch (fun e => x.eq k e.1) rights with
  | some (b, rights') => (ops.both.call2 k v b.1 b.2, rights')
  | none => (ops.left.call k v, rights)

/-- `lnode::transform_with_transmuted_lnode_impl` (`/repo/src/node/lnode.rs:511-539`), with the vector
    `rights` afterwards. -/
def LNode.twmLImpl : LNode K V → List (L × W) → TRes (LNext K V) R × List (L × W)
  | .nextS k v s z, rights =>
    let next := s.twmLast x reduce ops rights
    let result := ops.step x k v next.2
    (LNode.transformResult reduce (.nextS k v s z) result.1 next.1, result.2)
  | .nextL k v l z, rights =>
    let next := l.twmLImpl rights
    let result := ops.step x k v next.2
    (LNode.transformResult reduce (.nextL k v l z) result.1 next.1, result.2)

/-- One iteration of `for (rk, rv) in rights` (`/repo/src/node/lnode.rs:460-475`). -/
def TwmOps.leftover (this : LNode K V) (next : TRes (LNext K V) R) (b : L × W) : TRes (LNext K V) R :=
  match ops.right.call b.1 b.2, next with
  | .transmuted rk rv rr, .unchanged rn => .node (.L (LNode.new rk rv (.L this))) (reduce rr rn)
  | .transmuted rk rv rr, .node m rn => .node (.L (LNode.new rk rv m)) (reduce rr rn)
  | .transmuted rk rv rr, .removed rn => .node (.S ⟨rk, rv⟩) (reduce rr rn)
  | .removed rr, .unchanged rn => .unchanged (reduce rr rn)
  | .removed rr, .node m rn => .node m (reduce rr rn)
  | .removed rr, .removed rn => .removed (reduce rr rn)

/-- `lnode::transform_with_transmuted_lnode` (`/repo/src/node/lnode.rs:425-509`). -/
def LNode.twmL (this : LNode K V) (right : LNode L W) (depth : Nat) : Res (TRes (Node c.n K V) R) :=
  if x.hash this.key = x.hash' right.key then do
    let rights ← right.rights
    let next := this.twmLImpl x reduce ops rights
    .ok ((next.2.foldl (ops.leftover reduce this) next.1).map LNext.toNode)
  else
    twmApart reduce (.L this) (x.hash this.key) (x.hash' right.key) depth
      (this.transform reduce ops.left) (right.transmute reduce ops.right)

end

/-! ### transmute_with_transformed -/

section
variable (ops : MwtOps K V L W R)

/-- `snode::transmute_with_transformed_snode_impl` (`/repo/src/node/snode.rs:363-399`). -/
def SNode.mwtImpl (this : SNode K V) (right : SNode L W) : TRes (LNext L W) R :=
  if x.eq this.key right.key then
    match ops.both.call2 this.key this.value right.key right.value with
    | .unchanged r => .unchanged r
    | .transformed v r => .node (.S ⟨right.key, v⟩) r
    | .removed r => .removed r
  else
    match ops.left.call this.key this.value, ops.right.call right.key right.value with
    | .transmuted lk lv lr, .unchanged rr => .node (.L (LNode.new lk lv (.S right))) (reduce lr rr)
    | .transmuted lk lv lr, .transformed rv rr =>
      .node (.L (LNode.new lk lv (.S ⟨right.key, rv⟩))) (reduce lr rr)
    | .transmuted lk lv lr, .removed rr => .node (.S ⟨lk, lv⟩) (reduce lr rr)
    | .removed lr, .unchanged rr => .unchanged (reduce lr rr)
    | .removed lr, .transformed rv rr => .node (.S ⟨right.key, rv⟩) (reduce lr rr)
    | .removed lr, .removed rr => .removed (reduce lr rr)

/-- `snode::transmute_with_transformed_snode` (`/repo/src/node/snode.rs:321-361`). -/
def SNode.mwt (this : SNode K V) (right : SNode L W) (depth : Nat) : Res (TRes (Node c.n L W) R) :=
  if x.hash this.key = x.hash' right.key then
    .ok ((this.mwtImpl x reduce ops right).map LNext.toNode)
  else
    mwtApart reduce (.S right) (x.hash this.key) (x.hash' right.key) depth
      ((this.transmute ops.left).map .S) ((right.transform ops.right).map .S)

/-- `lnode::transform_with_transmuted_result` (`/repo/src/node/lnode.rs:1119-1141`). -/
def SNode.withTransmuted (this : SNode K V) (result : MapTransformResult V R) (next : XRes (LNext K V) R) :
    TRes (LNext K V) R :=
  match result, next with
  | .unchanged lr, .node m rr => .node (.L (LNode.new this.key this.value m)) (reduce lr rr)
  | .unchanged lr, .removed rr => .node (.S ⟨this.key, this.value⟩) (reduce lr rr)
  | .transformed lv lr, .node m rr => .node (.L (LNode.new this.key lv m)) (reduce lr rr)
  | .transformed lv lr, .removed rr => .node (.S ⟨this.key, lv⟩) (reduce lr rr)
  | .removed lr, .node m rr => .node m (reduce lr rr)
  | .removed lr, .removed rr => .removed (reduce lr rr)

/-- `lnode::transmute_with_transformed_result` (`/repo/src/node/lnode.rs:1143-1162`). -/
def SNode.withTransformed (this : SNode K V) (result : MapTransmuteResult K V R)
    (next : TRes (LNext K V) R) : TRes (LNext K V) R :=
  match result, next with
  | .transmuted lk lv lr, .unchanged rr => .node (.L (LNode.new lk lv (.S this))) (reduce lr rr)
  | .transmuted lk lv lr, .node m rr => .node (.L (LNode.new lk lv m)) (reduce lr rr)
  | .transmuted lk lv lr, .removed rr => .node (.S ⟨lk, lv⟩) (reduce lr rr)
  | .removed lr, .unchanged rr => .node (.S ⟨this.key, this.value⟩) (reduce lr rr)
  | .removed lr, .node m rr => .node m (reduce lr rr)
  | .removed lr, .removed rr => .removed (reduce lr rr)

/-- `lnode::transmute_with_transformed_snode_impl` (`/repo/src/node/lnode.rs:857-885`). -/
def LNode.mwtSImpl (right : SNode L W) : LNode K V → TRes (LNext L W) R
  | .nextS k v s _ =>
    if x.eq k right.key then
      right.withTransmuted reduce (ops.both.call2 k v right.key right.value)
        ((s.transmute ops.left).map .S)
    else
      right.withTransformed reduce (ops.left.call k v) (s.mwtImpl x reduce ops right)
  | .nextL k v l _ =>
    if x.eq k right.key then
      right.withTransmuted reduce (ops.both.call2 k v right.key right.value)
        (l.transmute reduce ops.left)
    else
      right.withTransformed reduce (ops.left.call k v) (l.mwtSImpl right)

/-- `lnode::transmute_with_transformed_snode` (`/repo/src/node/lnode.rs:810-855`). -/
def LNode.mwtS (this : LNode K V) (right : SNode L W) (depth : Nat) : Res (TRes (Node c.n L W) R) :=
  if x.hash this.key = x.hash' right.key then
    .ok ((this.mwtSImpl x reduce ops right).map LNext.toNode)
  else
    mwtApart reduce (.S right) (x.hash this.key) (x.hash' right.key) depth
      (this.transmute reduce ops.left) ((right.transform ops.right).map .S)

end

/-! ### transmute_with_transmuted -/

section
variable (ops : MwmOps K V L W S X R)

/-- `snode::transmute_with_transmuted_values` (`/repo/src/node/snode.rs:472-506`), with the conversion
    `/repo/src/results.rs:352-359`. -/
def SNode.mwmValues (lk : K) (lv : V) (rk : L) (rv : W) : XRes (LNext S X) R :=
  if x.eq lk rk then
    match ops.both.call2 lk lv rk rv with
    | .transmuted k v r => .node (.S ⟨k, v⟩) r
    | .removed r => .removed r
  else
    match ops.left.call lk lv, ops.right.call rk rv with
    | .transmuted lk lv lr, .transmuted rk rv rr =>
      .node (.L (LNode.new lk lv (.S ⟨rk, rv⟩))) (reduce lr rr)
    | .transmuted lk lv lr, .removed rr => .node (.S ⟨lk, lv⟩) (reduce lr rr)
    | .removed lr, .transmuted rk rv rr => .node (.S ⟨rk, rv⟩) (reduce lr rr)
    | .removed lr, .removed rr => .removed (reduce lr rr)

/-- `snode::transmute_with_transmuted_snode` (`/repo/src/node/snode.rs:427-470`). -/
def SNode.mwm (this : SNode K V) (right : SNode L W) (depth : Nat) : Res (XRes (Node c.n S X) R) :=
  if x.hash this.key = x.hash' right.key then
    .ok ((SNode.mwmValues x reduce ops this.key this.value right.key right.value).map LNext.toNode)
  else
    mwmApart reduce (x.hash this.key) (x.hash' right.key) depth
      ((this.transmute ops.left).map .S) ((right.transmute ops.right).map .S)

/-- `lnode::transmute_with_transmuted_snode_impl` (`/repo/src/node/lnode.rs:936-970`). -/
def LNode.mwmSImpl (right : SNode L W) : LNode K V → XRes (LNext S X) R
  | .nextS k v s _ =>
    if x.eq k right.key then
      LNode.transmuteResult reduce (ops.both.call2 k v right.key right.value)
        ((s.transmute ops.left).map .S)
    else
      LNode.transmuteResult reduce (ops.left.call k v)
        (SNode.mwmValues x reduce ops s.key s.value right.key right.value)
  | .nextL k v l _ =>
    if x.eq k right.key then
      LNode.transmuteResult reduce (ops.both.call2 k v right.key right.value)
        (l.transmute reduce ops.left)
    else
      LNode.transmuteResult reduce (ops.left.call k v) (l.mwmSImpl right)

/-- `lnode::transmute_with_transmuted_snode` (`/repo/src/node/lnode.rs:887-934`). -/
def LNode.mwmS (this : LNode K V) (right : SNode L W) (depth : Nat) : Res (XRes (Node c.n S X) R) :=
  if x.hash this.key = x.hash' right.key then
    .ok ((this.mwmSImpl x reduce ops right).map LNext.toNode)
  else
    mwmApart reduce (x.hash this.key) (x.hash' right.key) depth
      (this.transmute reduce ops.left) ((right.transmute ops.right).map .S)

/-- The last node of the left list (`/repo/src/node/lnode.rs:643-648`). -/
def SNode.mwmLast (s : SNode K V) (rights : List (L × W)) : XRes (LNext S X) R × List (L × W) :=
  match takeMatch (fun e => x.eq s.key e.1) rights with
  | some (b, rights') => (SNode.mwmValues x reduce ops s.key s.value b.1 b.2, rights')
  | none => ((s.transmute ops.left).map .S, rights)

/-- An entry of the left list (`/repo/src/node/lnode.rs:651-654`). -/
def MwmOps.step (k : K) (v : V) (rights : List (L × W)) : MapTransmuteResult S X R × List (L × W) :=
  match takeMatch (fun e => x.eq k e.1) rights with
  | some (b, rights') => (ops.both.call2 k v b.1 b.2, rights')
  | none => (ops.left.call k v, rights)

/-- `lnode::transmute_with_transmuted_lnode_impl` (`/repo/src/node/lnode.rs:625-657`). -/
def LNode.mwmLImpl : LNode K V → List (L × W) → XRes (LNext S X) R × List (L × W)
  | .nextS k v s _, rights =>
    let next := s.mwmLast x reduce ops rights
    let result := ops.step x k v next.2
    (LNode.transmuteResult reduce result.1 next.1, result.2)
  | .nextL k v l _, rights =>
    let next := l.mwmLImpl rights
    let result := ops.step x k v next.2
    (LNode.transmuteResult reduce result.1 next.1, result.2)

/-- One iteration of `for (rk, rv) in rights` (`/repo/src/node/lnode.rs:581-594`). -/
def MwmOps.leftover (next : XRes (LNext S X) R) (b : L × W) : XRes (LNext S X) R :=
  match ops.right.call b.1 b.2, next with
  | .transmuted rk rv rr, .node m rn => .node (.L (LNode.new rk rv m)) (reduce rr rn)
  | .transmuted rk rv rr, .removed rn => .node (.S ⟨rk, rv⟩) (reduce rr rn)
  | .removed rr, .node m rn => .node m (reduce rr rn)
  | .removed rr, .removed rn => .removed (reduce rr rn)

/-- `lnode::transmute_with_transmuted_lnode` (`/repo/src/node/lnode.rs:541-623`). -/
def LNode.mwmL (this : LNode K V) (right : LNode L W) (depth : Nat) : Res (XRes (Node c.n S X) R) :=
  if x.hash this.key = x.hash' right.key then do
    let rights ← right.rights
    let next := this.mwmLImpl x reduce ops rights
    .ok ((next.2.foldl (ops.leftover reduce) next.1).map LNext.toNode)
  else
    mwmApart reduce (x.hash this.key) (x.hash' right.key) depth
      (this.transmute reduce ops.left) (right.transmute reduce ops.right)

end

/-! ### transform_with_transformed -/

section
variable [BEq K] (hash : K → BitVec c.w) (ops : TwtOps K V R)

/-- `snode::transform_with_transformed_snode_impl` (`/repo/src/node/snode.rs:196-235`). -/
def SNode.twtImpl (this right : SNode K V) : JRes (LNext K V) R :=
  if this.key == right.key then
    match ops.both.call this.key this.value right.key right.value with
    | .unchangedLR r => .unchangedLR r
    | .unchangedL r => .unchangedL r
    | .unchangedR r => .unchangedR r
    | .transformed v r => .node (.S ⟨this.key, v⟩) r
    | .removed r => .removed r
  else
    match ops.left.call this.key this.value, ops.right.call right.key right.value with
    | .unchanged lr, .unchanged rr =>
      .node (.L (LNode.new right.key right.value (.S this))) (reduce lr rr)
    | .unchanged lr, .transformed rv rr => .node (.L (LNode.new right.key rv (.S this))) (reduce lr rr)
    | .unchanged lr, .removed rr => .unchangedL (reduce lr rr)
    | .transformed lv lr, .unchanged rr => .node (.L (LNode.new this.key lv (.S right))) (reduce lr rr)
    | .transformed lv lr, .transformed rv rr =>
      .node (.L (LNode.new right.key rv (.S ⟨this.key, lv⟩))) (reduce lr rr)
    | .transformed lv lr, .removed rr => .node (.S ⟨this.key, lv⟩) (reduce lr rr)
    | .removed lr, .unchanged rr => .unchangedR (reduce lr rr)
    | .removed lr, .transformed rv rr => .node (.S ⟨right.key, rv⟩) (reduce lr rr)
    | .removed lr, .removed rr => .removed (reduce lr rr)

/-- `snode::transform_with_transformed_snode` (`/repo/src/node/snode.rs:154-194`). -/
def SNode.twt (this right : SNode K V) (depth : Nat) : Res (JRes (Node c.n K V) R) :=
  if hash this.key = hash right.key then
    .ok ((this.twtImpl reduce ops right).map LNext.toNode)
  else
    twtApart reduce (.S this) (.S right) (hash this.key) (hash right.key) depth
      ((this.transform ops.left).map .S) ((right.transform ops.right).map .S)

omit [BEq K] in
/-- `lnode::joint_transform_with_transformed_result` (`/repo/src/node/lnode.rs:1020-1054`). -/
def LNode.jointThenPlain (this : LNode K V) (result : MapJointTransformResult V R) (that : SNode K V)
    (next : TRes (LNext K V) R) : JRes (LNext K V) R :=
  match result, next with
  | .unchangedLR lr, .unchanged rr => .unchangedL (reduce lr rr)
  | .unchangedLR lr, .node m rr => .node (.L (LNode.new this.key this.value m)) (reduce lr rr)
  | .unchangedLR lr, .removed rr => .node (.S ⟨this.key, this.value⟩) (reduce lr rr)
  | .unchangedL lr, .unchanged rr => .unchangedL (reduce lr rr)
  | .unchangedL lr, .node m rr => .node (.L (LNode.new this.key this.value m)) (reduce lr rr)
  | .unchangedL lr, .removed rr => .node (.S ⟨this.key, this.value⟩) (reduce lr rr)
  | .unchangedR lr, .unchanged rr => .node (.L (LNode.new that.key that.value this.next)) (reduce lr rr)
  | .unchangedR lr, .node m rr => .node (.L (LNode.new that.key that.value m)) (reduce lr rr)
  | .unchangedR lr, .removed rr => .unchangedR (reduce lr rr)
  | .transformed lv lr, .unchanged rr => .node (.L (LNode.new this.key lv this.next)) (reduce lr rr)
  | .transformed lv lr, .node m rr => .node (.L (LNode.new this.key lv m)) (reduce lr rr)
  | .transformed lv lr, .removed rr => .node (.S ⟨this.key, lv⟩) (reduce lr rr)
  | .removed lr, .unchanged rr => .node this.next (reduce lr rr)
  | .removed lr, .node m rr => .node m (reduce lr rr)
  | .removed lr, .removed rr => .removed (reduce lr rr)

omit [BEq K] in
/-- `lnode::transform_with_joint_transformed_result` (`/repo/src/node/lnode.rs:1086-1117`). -/
def LNode.plainThenJoint (this : LNode K V) (result : MapTransformResult V R) (that : SNode K V)
    (next : JRes (LNext K V) R) : JRes (LNext K V) R :=
  match result, next with
  | .unchanged lr, .unchangedLR rr => .unchangedL (reduce lr rr)
  | .unchanged lr, .unchangedL rr => .unchangedL (reduce lr rr)
  | .unchanged lr, .unchangedR rr => .node (.L (LNode.new that.key that.value (.L this))) (reduce lr rr)
  | .unchanged lr, .node m rr => .node (.L (LNode.new this.key this.value m)) (reduce lr rr)
  | .unchanged lr, .removed rr => .node (.S ⟨this.key, this.value⟩) (reduce lr rr)
  | .transformed lv lr, .unchangedLR rr => .node (.L (LNode.new this.key lv this.next)) (reduce lr rr)
  | .transformed lv lr, .unchangedL rr => .node (.L (LNode.new this.key lv this.next)) (reduce lr rr)
  | .transformed lv lr, .unchangedR rr => .node (.L (LNode.new this.key lv (.S that))) (reduce lr rr)
  | .transformed lv lr, .node m rr => .node (.L (LNode.new this.key lv m)) (reduce lr rr)
  | .transformed lv lr, .removed rr => .node (.S ⟨this.key, lv⟩) (reduce lr rr)
  | .removed lr, .unchangedLR rr => .node this.next (reduce lr rr)
  | .removed lr, .unchangedL rr => .node this.next (reduce lr rr)
  | .removed lr, .unchangedR rr => .unchangedR (reduce lr rr)
  | .removed lr, .node m rr => .node m (reduce lr rr)
  | .removed lr, .removed rr => .removed (reduce lr rr)

/-- `lnode::transform_with_transformed_snode_impl` (`/repo/src/node/lnode.rs:706-730`). -/
def LNode.twtSImpl (right : SNode K V) : LNode K V → JRes (LNext K V) R
  | .nextS k v s z =>
    if k == right.key then
      LNode.jointThenPlain reduce (.nextS k v s z) (ops.both.call k v right.key right.value) right
        ((s.transform ops.left).map .S)
    else
      LNode.plainThenJoint reduce (.nextS k v s z) (ops.left.call k v) right
        (s.twtImpl reduce ops right)
  | .nextL k v l z =>
    if k == right.key then
      LNode.jointThenPlain reduce (.nextL k v l z) (ops.both.call k v right.key right.value) right
        (l.transform reduce ops.left)
    else
      LNode.plainThenJoint reduce (.nextL k v l z) (ops.left.call k v) right (l.twtSImpl right)

/-- `lnode::transform_with_transformed_snode` (`/repo/src/node/lnode.rs:659-704`). -/
def LNode.twtS (this : LNode K V) (right : SNode K V) (depth : Nat) : Res (JRes (Node c.n K V) R) :=
  if hash this.key = hash right.key then
    .ok ((this.twtSImpl reduce ops right).map LNext.toNode)
  else
    twtApart reduce (.L this) (.S right) (hash this.key) (hash right.key) depth
      (this.transform reduce ops.left) ((right.transform ops.right).map .S)

omit [BEq K] in
/-- `lnode::joint_transform_with_joint_transformed_result` (`/repo/src/node/lnode.rs:972-1018`).
    `that` is the right entry matched by the last node of the list, if the call is for the last pair. -/
def LNode.jointThenJoint (this : LNode K V) (result : MapJointTransformResult V R) (that : Option (K × V))
    (next : JRes (LNext K V) R) : Res (JRes (LNext K V) R) :=
  match result, next with
  | .unchangedLR lr, .unchangedLR rr => .ok (.unchangedLR (reduce lr rr))
  | .unchangedLR lr, .unchangedL rr => .ok (.unchangedL (reduce lr rr))
  | .unchangedLR lr, .unchangedR rr => .ok (.unchangedR (reduce lr rr))
  | .unchangedLR lr, .node m rr => .ok (.node (.L (LNode.new this.key this.value m)) (reduce lr rr))
  | .unchangedLR lr, .removed rr => .ok (.node (.S ⟨this.key, this.value⟩) (reduce lr rr))
  | .unchangedL lr, .unchangedLR rr => .ok (.unchangedL (reduce lr rr))
  | .unchangedL lr, .unchangedL rr => .ok (.unchangedL (reduce lr rr))
  | .unchangedL lr, .unchangedR rr => do
    let t ← Res.unwrap that
    .ok (.node (.L (LNode.new this.key this.value (.S ⟨t.1, t.2⟩))) (reduce lr rr))
  | .unchangedL lr, .node m rr => .ok (.node (.L (LNode.new this.key this.value m)) (reduce lr rr))
  | .unchangedL lr, .removed rr => .ok (.node (.S ⟨this.key, this.value⟩) (reduce lr rr))
  | .unchangedR lr, .unchangedLR rr => do
    let t ← Res.unwrap that
    .ok (.node (.L (LNode.new this.key this.value (.S ⟨t.1, t.2⟩))) (reduce lr rr))
  | .unchangedR lr, .unchangedR rr => do
    let t ← Res.unwrap that
    .ok (.node (.L (LNode.new this.key this.value (.S ⟨t.1, t.2⟩))) (reduce lr rr))
  | .unchangedR lr, .unchangedL rr => do
    let t ← Res.unwrap that
    .ok (.node (.L (LNode.new t.1 t.2 this.next)) (reduce lr rr))
  | .unchangedR lr, .node m rr => do
    let t ← Res.unwrap that
    .ok (.node (.L (LNode.new t.1 t.2 m)) (reduce lr rr))
  | .unchangedR lr, .removed rr => .ok (.unchangedR (reduce lr rr))
  | .transformed lv lr, .unchangedLR rr =>
    .ok (.node (.L (LNode.new this.key lv this.next)) (reduce lr rr))
  | .transformed lv lr, .unchangedL rr =>
    .ok (.node (.L (LNode.new this.key lv this.next)) (reduce lr rr))
  | .transformed _ lr, .unchangedR rr => do
    let t ← Res.unwrap that
    .ok (.node (.L (LNode.new this.key this.value (.S ⟨t.1, t.2⟩))) (reduce lr rr))
  | .transformed lv lr, .node m rr => .ok (.node (.L (LNode.new this.key lv m)) (reduce lr rr))
  | .transformed lv lr, .removed rr => .ok (.node (.S ⟨this.key, lv⟩) (reduce lr rr))
  | .removed lr, .unchangedLR rr => .ok (.node this.next (reduce lr rr))
  | .removed lr, .unchangedL rr => .ok (.node this.next (reduce lr rr))
  | .removed lr, .unchangedR rr => do
    let t ← Res.unwrap that
    .ok (.node (.S ⟨t.1, t.2⟩) (reduce lr rr))
  | .removed lr, .node m rr => .ok (.node m (reduce lr rr))
  | .removed lr, .removed rr => .ok (.removed (reduce lr rr))

/-- `MapTransformResult` of a left entry without partner, as a joint result
    (`/repo/src/node/lnode.rs:415-419`). -/
def MapTransformResult.jointL {V R : Type} : MapTransformResult V R → MapJointTransformResult V R
  | .unchanged r => .unchangedL r
  | .transformed v r => .transformed v r
  | .removed r => .removed r

/-- A transform result of the left operand, as a joint result (`/repo/src/node/lnode.rs:404-408`,
    `/repo/src/node/cnode.rs:506-512`, 870-876, 1258-1264). -/
def TRes.jointL {N R : Type} : TRes N R → JRes N R
  | .unchanged r => .unchangedL r
  | .node m r => .node m r
  | .removed r => .removed r

/-- A transform result of the right operand, as a joint result (`/repo/src/node/cnode.rs:517-523`,
    880-885, 1268-1272). -/
def TRes.jointR {N R : Type} : TRes N R → JRes N R
  | .unchanged r => .unchangedR r
  | .node m r => .node m r
  | .removed r => .removed r

/-- The last node of the left list (`/repo/src/node/lnode.rs:398-410`): its result, `next_node`, and the
    vector afterwards. -/
def SNode.twtLast (s : SNode K V) (rights : List (K × V)) :
    JRes (LNext K V) R × Option (K × V) × List (K × V) :=
  match takeMatch (fun e => s.key == e.1) rights with
  | some (b, rights') => (s.twtImpl reduce ops ⟨b.1, b.2⟩, some b, rights')
  | none => (((s.transform ops.left).map LNext.S).jointL, none, rights)

/-- An entry of the left list (`/repo/src/node/lnode.rs:413-420`). -/
def TwtOps.step (k : K) (v : V) (rights : List (K × V)) : MapJointTransformResult V R × List (K × V) :=
  match takeMatch (fun e => k == e.1) rights with
  | some (b, rights') => (ops.both.call k v b.1 b.2, rights')
  | none => ((ops.left.call k v).jointL, rights)

/-- `lnode::transform_with_transformed_lnode_impl` (`/repo/src/node/lnode.rs:386-423`). -/
def LNode.twtLImpl : LNode K V → List (K × V) → Res (JRes (LNext K V) R × List (K × V))
  | .nextS k v s z, rights => do
    let next := s.twtLast reduce ops rights
    let result := ops.step k v next.2.2
    let res ← LNode.jointThenJoint reduce (.nextS k v s z) result.1 next.2.1 next.1
    .ok (res, result.2)
  | .nextL k v l z, rights => do
    let next ← l.twtLImpl rights
    let result := ops.step k v next.2
    let res ← LNode.jointThenJoint reduce (.nextL k v l z) result.1 none next.1
    .ok (res, result.2)

omit [BEq K] in
/-- One iteration of `for (rk, rv) in rights` (`/repo/src/node/lnode.rs:322-346`). -/
def TwtOps.leftover (this : LNode K V) (next : JRes (LNext K V) R) (b : K × V) :
    Res (JRes (LNext K V) R) :=
  match ops.right.call b.1 b.2, next with
  | .unchanged rr, .unchangedLR rn => .ok (.node (.L (LNode.new b.1 b.2 (.L this))) (reduce rr rn))
  | .unchanged rr, .unchangedL rn => .ok (.node (.L (LNode.new b.1 b.2 (.L this))) (reduce rr rn))
  | .unchanged _, .unchangedR _ => .panic .explicit
  | .unchanged rr, .node m rn => .ok (.node (.L (LNode.new b.1 b.2 m)) (reduce rr rn))
  | .unchanged rr, .removed rn => .ok (.node (.S ⟨b.1, b.2⟩) (reduce rr rn))
  | .transformed rv rr, .unchangedLR rn => .ok (.node (.L (LNode.new b.1 rv (.L this))) (reduce rr rn))
  | .transformed rv rr, .unchangedL rn => .ok (.node (.L (LNode.new b.1 rv (.L this))) (reduce rr rn))
  | .transformed _ _, .unchangedR _ => .panic .explicit
  | .transformed rv rr, .node m rn => .ok (.node (.L (LNode.new b.1 rv m)) (reduce rr rn))
  | .transformed rv rr, .removed rn => .ok (.node (.S ⟨b.1, rv⟩) (reduce rr rn))
  | .removed rr, .unchangedLR rn => .ok (.unchangedL (reduce rr rn))
  | .removed rr, .unchangedL rn => .ok (.unchangedL (reduce rr rn))
  | .removed _, .unchangedR _ => .panic .explicit
  | .removed rr, .node m rn => .ok (.node m (reduce rr rn))
  | .removed rr, .removed rn => .ok (.removed (reduce rr rn))

omit [BEq K] in
/-- The loop `for (rk, rv) in rights` (`/repo/src/node/lnode.rs:322-346`). -/
def TwtOps.leftovers (this : LNode K V) : List (K × V) → JRes (LNext K V) R → Res (JRes (LNext K V) R)
  | [], next => .ok next
  | b :: rights, next => do
    let next ← ops.leftover reduce this next b
    leftovers this rights next

/-- `lnode::transform_with_transformed_lnode` (`/repo/src/node/lnode.rs:292-384`). -/
def LNode.twtL (this right : LNode K V) (depth : Nat) : Res (JRes (Node c.n K V) R) :=
  if hash this.key = hash right.key then do
    let rights ← right.rights
    let next ← this.twtLImpl reduce ops rights
    let next ← ops.leftovers reduce this next.2 next.1
    .ok (next.map LNext.toNode)
  else
    twtApart reduce (.L this) (.L right) (hash this.key) (hash right.key) depth
      (this.transform reduce ops.left) (right.transform reduce ops.right)

end
end HT
