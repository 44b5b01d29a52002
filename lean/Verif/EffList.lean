import Verif.Eff
/-!
# Bulk and joint operations on single nodes and collision lists, with closure calls and addresses

As in `Verif/Transform.lean` and `Verif/JointList.lean`, in the order in which the code calls the closures and
allocates.  The tables that combine answers already given call no closure; they are code of type `Al`.
-/
namespace HT

variable {K V L W S X R : Type}

/-! ### Tables -/

/-- `SNode` of a transform result (`/repo/src/node/snode.rs:79-83`, 297-301). -/
def ASNode.answer (this : ASNode K V) : MapTransformResult V R → Al (TRes (ASNode K V) R)
  | .unchanged r => pure (.unchanged r)
  | .transformed v r => do
    let s ← ASNode.new this.key v
    pure (.node s r)
  | .removed r => pure (.removed r)

/-- `SNode` of a transmute result (`/repo/src/results.rs:421-428`). -/
def ASNode.answerX : MapTransmuteResult S X R → Al (XRes (ASNode S X) R)
  | .transmuted k v r => do
    let s ← ASNode.new k v
    pure (.node s r)
  | .removed r => pure (.removed r)

/-- `lnode::transmute_result` (`/repo/src/node/lnode.rs:1194-1211`). -/
def ALNode.transmuteResult (reduce : R → R → R) (result : MapTransmuteResult S X R)
    (next : XRes (ALNext S X) R) : Al (XRes (ALNext S X) R) :=
  match result, next with
  | .transmuted lk lv lr, .node m rr => do
    let l ← ALNode.new lk lv m
    pure (.node (.L l) (reduce lr rr))
  | .transmuted lk lv lr, .removed rr => do
    let s ← ASNode.new lk lv
    pure (.node (.S s) (reduce lr rr))
  | .removed lr, .node m rr => pure (.node m (reduce lr rr))
  | .removed lr, .removed rr => pure (.removed (reduce lr rr))

/-- The `match left` of `snode::transform_with_transmuted_snode_impl` (`/repo/src/node/snode.rs:303-318`). -/
def ASNode.twmTable (reduce : R → R → R) (this : ASNode K V) (left : MapTransformResult V R)
    (right : MapTransmuteResult K V R) : Al (TRes (ALNext K V) R) :=
  match left, right with
  | .unchanged lr, .transmuted rk rv rr => do
    let l ← ALNode.new rk rv (.S this)
    pure (.node (.L l) (reduce lr rr))
  | .unchanged lr, .removed rr => pure (.unchanged (reduce lr rr))
  | .transformed lv lr, .transmuted rk rv rr => do
    let s ← ASNode.new this.key lv
    let l ← ALNode.new rk rv (.S s)
    pure (.node (.L l) (reduce lr rr))
  | .transformed lv lr, .removed rr => do
    let s ← ASNode.new this.key lv
    pure (.node (.S s) (reduce lr rr))
  | .removed lr, .transmuted rk rv rr => do
    let s ← ASNode.new rk rv
    pure (.node (.S s) (reduce lr rr))
  | .removed lr, .removed rr => pure (.removed (reduce lr rr))

/-- The `match left` of `snode::transmute_with_transformed_snode_impl` (`/repo/src/node/snode.rs:383-398`). -/
def ASNode.mwtTable (reduce : R → R → R) (right : ASNode L W) (left : MapTransmuteResult L W R)
    (r : MapTransformResult W R) : Al (TRes (ALNext L W) R) :=
  match left, r with
  | .transmuted lk lv lr, .unchanged rr => do
    let l ← ALNode.new lk lv (.S right)
    pure (.node (.L l) (reduce lr rr))
  | .transmuted lk lv lr, .transformed rv rr => do
    let s ← ASNode.new right.key rv
    let l ← ALNode.new lk lv (.S s)
    pure (.node (.L l) (reduce lr rr))
  | .transmuted lk lv lr, .removed rr => do
    let s ← ASNode.new lk lv
    pure (.node (.S s) (reduce lr rr))
  | .removed lr, .unchanged rr => pure (.unchanged (reduce lr rr))
  | .removed lr, .transformed rv rr => do
    let s ← ASNode.new right.key rv
    pure (.node (.S s) (reduce lr rr))
  | .removed lr, .removed rr => pure (.removed (reduce lr rr))

/-- The `match left` of `snode::transmute_with_transmuted_values` (`/repo/src/node/snode.rs:492-505`). -/
def ASNode.mwmTable (reduce : R → R → R) (left right : MapTransmuteResult S X R) : Al (XRes (ALNext S X) R) :=
  match left, right with
  | .transmuted lk lv lr, .transmuted rk rv rr => do
    let s ← ASNode.new rk rv
    let l ← ALNode.new lk lv (.S s)
    pure (.node (.L l) (reduce lr rr))
  | .transmuted lk lv lr, .removed rr => do
    let s ← ASNode.new lk lv
    pure (.node (.S s) (reduce lr rr))
  | .removed lr, .transmuted rk rv rr => do
    let s ← ASNode.new rk rv
    pure (.node (.S s) (reduce lr rr))
  | .removed lr, .removed rr => pure (.removed (reduce lr rr))

/-- The `match both_op.call(..)` of `snode::transform_with_transformed_snode_impl`
    (`/repo/src/node/snode.rs:205-211`). -/
def ASNode.answerJ (this : ASNode K V) : MapJointTransformResult V R → Al (JRes (ALNext K V) R)
  | .unchangedLR r => pure (.unchangedLR r)
  | .unchangedL r => pure (.unchangedL r)
  | .unchangedR r => pure (.unchangedR r)
  | .transformed v r => do
    let s ← ASNode.new this.key v
    pure (.node (.S s) r)
  | .removed r => pure (.removed r)

/-- The `match left` of `snode::transform_with_transformed_snode_impl` (`/repo/src/node/snode.rs:217-233`). -/
def ASNode.twtTable (reduce : R → R → R) (this right : ASNode K V) (left r : MapTransformResult V R) :
    Al (JRes (ALNext K V) R) :=
  match left, r with
  | .unchanged lr, .unchanged rr => do
    let l ← ALNode.new right.key right.value (.S this)
    pure (.node (.L l) (reduce lr rr))
  | .unchanged lr, .transformed rv rr => do
    let l ← ALNode.new right.key rv (.S this)
    pure (.node (.L l) (reduce lr rr))
  | .unchanged lr, .removed rr => pure (.unchangedL (reduce lr rr))
  | .transformed lv lr, .unchanged rr => do
    let l ← ALNode.new this.key lv (.S right)
    pure (.node (.L l) (reduce lr rr))
  | .transformed lv lr, .transformed rv rr => do
    let s ← ASNode.new this.key lv
    let l ← ALNode.new right.key rv (.S s)
    pure (.node (.L l) (reduce lr rr))
  | .transformed lv lr, .removed rr => do
    let s ← ASNode.new this.key lv
    pure (.node (.S s) (reduce lr rr))
  | .removed lr, .unchanged rr => pure (.unchangedR (reduce lr rr))
  | .removed lr, .transformed rv rr => do
    let s ← ASNode.new right.key rv
    pure (.node (.S s) (reduce lr rr))
  | .removed lr, .removed rr => pure (.removed (reduce lr rr))

/-- `lnode::transform_with_transmuted_result` (`/repo/src/node/lnode.rs:1119-1141`). -/
def ASNode.withTransmuted (reduce : R → R → R) (this : ASNode K V) (result : MapTransformResult V R)
    (next : XRes (ALNext K V) R) : Al (TRes (ALNext K V) R) :=
  match result, next with
  | .unchanged lr, .node m rr => do
    let l ← ALNode.new this.key this.value m
    pure (.node (.L l) (reduce lr rr))
  | .unchanged lr, .removed rr => do
    let s ← ASNode.new this.key this.value
    pure (.node (.S s) (reduce lr rr))
  | .transformed lv lr, .node m rr => do
    let l ← ALNode.new this.key lv m
    pure (.node (.L l) (reduce lr rr))
  | .transformed lv lr, .removed rr => do
    let s ← ASNode.new this.key lv
    pure (.node (.S s) (reduce lr rr))
  | .removed lr, .node m rr => pure (.node m (reduce lr rr))
  | .removed lr, .removed rr => pure (.removed (reduce lr rr))

/-- `lnode::transmute_with_transformed_result` (`/repo/src/node/lnode.rs:1143-1162`). -/
def ASNode.withTransformed (reduce : R → R → R) (this : ASNode K V) (result : MapTransmuteResult K V R)
    (next : TRes (ALNext K V) R) : Al (TRes (ALNext K V) R) :=
  match result, next with
  | .transmuted lk lv lr, .unchanged rr => do
    let l ← ALNode.new lk lv (.S this)
    pure (.node (.L l) (reduce lr rr))
  | .transmuted lk lv lr, .node m rr => do
    let l ← ALNode.new lk lv m
    pure (.node (.L l) (reduce lr rr))
  | .transmuted lk lv lr, .removed rr => do
    let s ← ASNode.new lk lv
    pure (.node (.S s) (reduce lr rr))
  | .removed lr, .unchanged rr => do
    let s ← ASNode.new this.key this.value
    pure (.node (.S s) (reduce lr rr))
  | .removed lr, .node m rr => pure (.node m (reduce lr rr))
  | .removed lr, .removed rr => pure (.removed (reduce lr rr))

/-- `lnode::joint_transform_with_transformed_result` (`/repo/src/node/lnode.rs:1020-1054`). -/
def ALNode.jointThenPlain (reduce : R → R → R) (this : ALNode K V) (result : MapJointTransformResult V R)
    (that : ASNode K V) (next : TRes (ALNext K V) R) : Al (JRes (ALNext K V) R) :=
  match result, next with
  | .unchangedLR lr, .unchanged rr => pure (.unchangedL (reduce lr rr))
  | .unchangedLR lr, .node m rr => do
    let l ← ALNode.new this.key this.value m
    pure (.node (.L l) (reduce lr rr))
  | .unchangedLR lr, .removed rr => do
    let s ← ASNode.new this.key this.value
    pure (.node (.S s) (reduce lr rr))
  | .unchangedL lr, .unchanged rr => pure (.unchangedL (reduce lr rr))
  | .unchangedL lr, .node m rr => do
    let l ← ALNode.new this.key this.value m
    pure (.node (.L l) (reduce lr rr))
  | .unchangedL lr, .removed rr => do
    let s ← ASNode.new this.key this.value
    pure (.node (.S s) (reduce lr rr))
  | .unchangedR lr, .unchanged rr => do
    let l ← ALNode.new that.key that.value this.next
    pure (.node (.L l) (reduce lr rr))
  | .unchangedR lr, .node m rr => do
    let l ← ALNode.new that.key that.value m
    pure (.node (.L l) (reduce lr rr))
  | .unchangedR lr, .removed rr => pure (.unchangedR (reduce lr rr))
  | .transformed lv lr, .unchanged rr => do
    let l ← ALNode.new this.key lv this.next
    pure (.node (.L l) (reduce lr rr))
  | .transformed lv lr, .node m rr => do
    let l ← ALNode.new this.key lv m
    pure (.node (.L l) (reduce lr rr))
  | .transformed lv lr, .removed rr => do
    let s ← ASNode.new this.key lv
    pure (.node (.S s) (reduce lr rr))
  | .removed lr, .unchanged rr => pure (.node this.next (reduce lr rr))
  | .removed lr, .node m rr => pure (.node m (reduce lr rr))
  | .removed lr, .removed rr => pure (.removed (reduce lr rr))

/-- `lnode::transform_with_joint_transformed_result` (`/repo/src/node/lnode.rs:1086-1117`). -/
def ALNode.plainThenJoint (reduce : R → R → R) (this : ALNode K V) (result : MapTransformResult V R)
    (that : ASNode K V) (next : JRes (ALNext K V) R) : Al (JRes (ALNext K V) R) :=
  match result, next with
  | .unchanged lr, .unchangedLR rr => pure (.unchangedL (reduce lr rr))
  | .unchanged lr, .unchangedL rr => pure (.unchangedL (reduce lr rr))
  | .unchanged lr, .unchangedR rr => do
    let l ← ALNode.new that.key that.value (.L this)
    pure (.node (.L l) (reduce lr rr))
  | .unchanged lr, .node m rr => do
    let l ← ALNode.new this.key this.value m
    pure (.node (.L l) (reduce lr rr))
  | .unchanged lr, .removed rr => do
    let s ← ASNode.new this.key this.value
    pure (.node (.S s) (reduce lr rr))
  | .transformed lv lr, .unchangedLR rr => do
    let l ← ALNode.new this.key lv this.next
    pure (.node (.L l) (reduce lr rr))
  | .transformed lv lr, .unchangedL rr => do
    let l ← ALNode.new this.key lv this.next
    pure (.node (.L l) (reduce lr rr))
  | .transformed lv lr, .unchangedR rr => do
    let l ← ALNode.new this.key lv (.S that)
    pure (.node (.L l) (reduce lr rr))
  | .transformed lv lr, .node m rr => do
    let l ← ALNode.new this.key lv m
    pure (.node (.L l) (reduce lr rr))
  | .transformed lv lr, .removed rr => do
    let s ← ASNode.new this.key lv
    pure (.node (.S s) (reduce lr rr))
  | .removed lr, .unchangedLR rr => pure (.node this.next (reduce lr rr))
  | .removed lr, .unchangedL rr => pure (.node this.next (reduce lr rr))
  | .removed lr, .unchangedR rr => pure (.unchangedR (reduce lr rr))
  | .removed lr, .node m rr => pure (.node m (reduce lr rr))
  | .removed lr, .removed rr => pure (.removed (reduce lr rr))

/-- The rows of `jointThenJoint` that keep `this` and put the matched right entry behind it
    (`/repo/src/node/lnode.rs:985`, 991-992, 1002). -/
def ALNode.beforeThat (this : ALNode K V) (that : Option (K × V)) (r : R) : Al (JRes (ALNext K V) R) := do
  let t ← Al.lift (Res.unwrap that)
  let s ← ASNode.new t.1 t.2
  let l ← ALNode.new this.key this.value (.S s)
  pure (.node (.L l) r)

/-- `lnode::joint_transform_with_joint_transformed_result` (`/repo/src/node/lnode.rs:972-1018`). -/
def ALNode.jointThenJoint (reduce : R → R → R) (this : ALNode K V) (result : MapJointTransformResult V R)
    (that : Option (K × V)) (next : JRes (ALNext K V) R) : Al (JRes (ALNext K V) R) :=
  match result, next with
  | .unchangedLR lr, .unchangedLR rr => pure (.unchangedLR (reduce lr rr))
  | .unchangedLR lr, .unchangedL rr => pure (.unchangedL (reduce lr rr))
  | .unchangedLR lr, .unchangedR rr => pure (.unchangedR (reduce lr rr))
  | .unchangedLR lr, .node m rr => do
    let l ← ALNode.new this.key this.value m
    pure (.node (.L l) (reduce lr rr))
  | .unchangedLR lr, .removed rr => do
    let s ← ASNode.new this.key this.value
    pure (.node (.S s) (reduce lr rr))
  | .unchangedL lr, .unchangedLR rr => pure (.unchangedL (reduce lr rr))
  | .unchangedL lr, .unchangedL rr => pure (.unchangedL (reduce lr rr))
  | .unchangedL lr, .unchangedR rr => this.beforeThat that (reduce lr rr)
  | .unchangedL lr, .node m rr => do
    let l ← ALNode.new this.key this.value m
    pure (.node (.L l) (reduce lr rr))
  | .unchangedL lr, .removed rr => do
    let s ← ASNode.new this.key this.value
    pure (.node (.S s) (reduce lr rr))
  | .unchangedR lr, .unchangedLR rr => this.beforeThat that (reduce lr rr)
  | .unchangedR lr, .unchangedR rr => this.beforeThat that (reduce lr rr)
  | .unchangedR lr, .unchangedL rr => do
    let t ← Al.lift (Res.unwrap that)
    let l ← ALNode.new t.1 t.2 this.next
    pure (.node (.L l) (reduce lr rr))
  | .unchangedR lr, .node m rr => do
    let t ← Al.lift (Res.unwrap that)
    let l ← ALNode.new t.1 t.2 m
    pure (.node (.L l) (reduce lr rr))
  | .unchangedR lr, .removed rr => pure (.unchangedR (reduce lr rr))
  | .transformed lv lr, .unchangedLR rr => do
    let l ← ALNode.new this.key lv this.next
    pure (.node (.L l) (reduce lr rr))
  | .transformed lv lr, .unchangedL rr => do
    let l ← ALNode.new this.key lv this.next
    pure (.node (.L l) (reduce lr rr))
  | .transformed _ lr, .unchangedR rr => this.beforeThat that (reduce lr rr)
  | .transformed lv lr, .node m rr => do
    let l ← ALNode.new this.key lv m
    pure (.node (.L l) (reduce lr rr))
  | .transformed lv lr, .removed rr => do
    let s ← ASNode.new this.key lv
    pure (.node (.S s) (reduce lr rr))
  | .removed lr, .unchangedLR rr => pure (.node this.next (reduce lr rr))
  | .removed lr, .unchangedL rr => pure (.node this.next (reduce lr rr))
  | .removed lr, .unchangedR rr => do
    let t ← Al.lift (Res.unwrap that)
    let s ← ASNode.new t.1 t.2
    pure (.node (.S s) (reduce lr rr))
  | .removed lr, .node m rr => pure (.node m (reduce lr rr))
  | .removed lr, .removed rr => pure (.removed (reduce lr rr))

/-- The `match` of one iteration of `for (rk, rv) in rights` (`/repo/src/node/lnode.rs:461-474`). -/
def ALNode.twmLeftover (reduce : R → R → R) (this : ALNode K V) (result : MapTransmuteResult K V R)
    (next : TRes (ALNext K V) R) : Al (TRes (ALNext K V) R) :=
  match result, next with
  | .transmuted rk rv rr, .unchanged rn => do
    let l ← ALNode.new rk rv (.L this)
    pure (.node (.L l) (reduce rr rn))
  | .transmuted rk rv rr, .node m rn => do
    let l ← ALNode.new rk rv m
    pure (.node (.L l) (reduce rr rn))
  | .transmuted rk rv rr, .removed rn => do
    let s ← ASNode.new rk rv
    pure (.node (.S s) (reduce rr rn))
  | .removed rr, .unchanged rn => pure (.unchanged (reduce rr rn))
  | .removed rr, .node m rn => pure (.node m (reduce rr rn))
  | .removed rr, .removed rn => pure (.removed (reduce rr rn))

/-- The `match` of one iteration of `for (rk, rv) in rights` (`/repo/src/node/lnode.rs:323-345`). -/
def ALNode.twtLeftover (reduce : R → R → R) (this : ALNode K V) (b : K × V) (result : MapTransformResult V R)
    (next : JRes (ALNext K V) R) : Al (JRes (ALNext K V) R) :=
  match result, next with
  | .unchanged rr, .unchangedLR rn => do
    let l ← ALNode.new b.1 b.2 (.L this)
    pure (.node (.L l) (reduce rr rn))
  | .unchanged rr, .unchangedL rn => do
    let l ← ALNode.new b.1 b.2 (.L this)
    pure (.node (.L l) (reduce rr rn))
  | .unchanged _, .unchangedR _ => Al.lift (.panic .explicit)
  | .unchanged rr, .node m rn => do
    let l ← ALNode.new b.1 b.2 m
    pure (.node (.L l) (reduce rr rn))
  | .unchanged rr, .removed rn => do
    let s ← ASNode.new b.1 b.2
    pure (.node (.S s) (reduce rr rn))
  | .transformed rv rr, .unchangedLR rn => do
    let l ← ALNode.new b.1 rv (.L this)
    pure (.node (.L l) (reduce rr rn))
  | .transformed rv rr, .unchangedL rn => do
    let l ← ALNode.new b.1 rv (.L this)
    pure (.node (.L l) (reduce rr rn))
  | .transformed _ _, .unchangedR _ => Al.lift (.panic .explicit)
  | .transformed rv rr, .node m rn => do
    let l ← ALNode.new b.1 rv m
    pure (.node (.L l) (reduce rr rn))
  | .transformed rv rr, .removed rn => do
    let s ← ASNode.new b.1 rv
    pure (.node (.S s) (reduce rr rn))
  | .removed rr, .unchangedLR rn => pure (.unchangedL (reduce rr rn))
  | .removed rr, .unchangedL rn => pure (.unchangedL (reduce rr rn))
  | .removed _, .unchangedR _ => Al.lift (.panic .explicit)
  | .removed rr, .node m rn => pure (.node m (reduce rr rn))
  | .removed rr, .removed rn => pure (.removed (reduce rr rn))

/-! ### Operands with different hashes -/

section
variable {c : Cfg}

/-- As `liftN` (`/repo/src/node/cnode.rs:1615-1630`). -/
def aliftN (l : ALNext K V) (lf : Flag c) (r : ALNext K V) (rf : Flag c) : Al (ANode c.n K V) :=
  aliftC c l.toNode lf r.toNode rf

/-- As `twmApart` (`/repo/src/node/lnode.rs:483-507`, 756-776, `/repo/src/node/snode.rs:261-277`). -/
def atwmApart (reduce : R → R → R) (this : ALNext K V) (thisHash rightHash : BitVec c.w) (depth : Nat)
    (left : TRes (ALNext K V) R) (right : XRes (ALNext K V) R) : Al (TRes (ANode c.n K V) R) := do
  let lf ← Al.lift (flagOf thisHash depth)
  let rf ← Al.lift (flagOf rightHash depth)
  match left, right with
  | .unchanged lr, .node r rr => do
    let m ← aliftN this lf r rf
    pure (.node m (reduce lr rr))
  | .unchanged lr, .removed rr => pure (.unchanged (reduce lr rr))
  | .node l lr, .node r rr => do
    let m ← aliftN l lf r rf
    pure (.node m (reduce lr rr))
  | .node l lr, .removed rr => pure (.node l.toNode (reduce lr rr))
  | .removed lr, .node r rr => pure (.node r.toNode (reduce lr rr))
  | .removed lr, .removed rr => pure (.removed (reduce lr rr))

/-- As `mwtApart` (`/repo/src/node/lnode.rs:834-853`, `/repo/src/node/snode.rs:345-359`). -/
def amwtApart (reduce : R → R → R) (right : ALNext K V) (thisHash rightHash : BitVec c.w) (depth : Nat)
    (left : XRes (ALNext K V) R) (r : TRes (ALNext K V) R) : Al (TRes (ANode c.n K V) R) := do
  let lf ← Al.lift (flagOf thisHash depth)
  let rf ← Al.lift (flagOf rightHash depth)
  match left, r with
  | .node l lr, .unchanged rr => do
    let m ← aliftN l lf right rf
    pure (.node m (reduce lr rr))
  | .node l lr, .node r rr => do
    let m ← aliftN l lf r rf
    pure (.node m (reduce lr rr))
  | .node l lr, .removed rr => pure (.node l.toNode (reduce lr rr))
  | .removed lr, .unchanged rr => pure (.unchanged (reduce lr rr))
  | .removed lr, .node r rr => pure (.node r.toNode (reduce lr rr))
  | .removed lr, .removed rr => pure (.removed (reduce lr rr))

/-- As `mwmApart` (`/repo/src/node/lnode.rs:602-621`, 916-932, `/repo/src/node/snode.rs:456-468`). -/
def amwmApart (reduce : R → R → R) (thisHash rightHash : BitVec c.w) (depth : Nat)
    (left right : XRes (ALNext S X) R) : Al (XRes (ANode c.n S X) R) := do
  let lf ← Al.lift (flagOf thisHash depth)
  let rf ← Al.lift (flagOf rightHash depth)
  match left, right with
  | .node l lr, .node r rr => do
    let m ← aliftN l lf r rf
    pure (.node m (reduce lr rr))
  | .node l lr, .removed rr => pure (.node l.toNode (reduce lr rr))
  | .removed lr, .node r rr => pure (.node r.toNode (reduce lr rr))
  | .removed lr, .removed rr => pure (.removed (reduce lr rr))

/-- As `twtApart` (`/repo/src/node/lnode.rs:354-382`, 678-702, `/repo/src/node/snode.rs:173-192`). -/
def atwtApart (reduce : R → R → R) (this right : ALNext K V) (thisHash rightHash : BitVec c.w) (depth : Nat)
    (left r : TRes (ALNext K V) R) : Al (JRes (ANode c.n K V) R) := do
  let lf ← Al.lift (flagOf thisHash depth)
  let rf ← Al.lift (flagOf rightHash depth)
  match left, r with
  | .unchanged lr, .unchanged rr => do
    let m ← aliftN this lf right rf
    pure (.node m (reduce lr rr))
  | .unchanged lr, .node r rr => do
    let m ← aliftN this lf r rf
    pure (.node m (reduce lr rr))
  | .unchanged lr, .removed rr => pure (.unchangedL (reduce lr rr))
  | .node l lr, .unchanged rr => do
    let m ← aliftN l lf right rf
    pure (.node m (reduce lr rr))
  | .node l lr, .node r rr => do
    let m ← aliftN l lf r rf
    pure (.node m (reduce lr rr))
  | .node l lr, .removed rr => pure (.node l.toNode (reduce lr rr))
  | .removed lr, .unchanged rr => pure (.unchangedR (reduce lr rr))
  | .removed lr, .node r rr => pure (.node r.toNode (reduce lr rr))
  | .removed lr, .removed rr => pure (.removed (reduce lr rr))

end

/-- As `LNode.rights`: the loop collecting the entries of `right` (`/repo/src/node/lnode.rs:305-318`, 443-456,
    564-577). -/
def ALNode.rights (right : ALNode L W) : Res (List (L × W)) :=
  match right.next with
  | .L _ => .diverge
  | .S snode => .ok [(right.key, right.value), (snode.key, snode.value)]

variable {Q : Type} {A : Q → Type}

/-! ### transform and transmute -/

/-- `snode::transform` (`/repo/src/node/snode.rs:74-84`). -/
def ASNode.transformE (op : MapTransform R (K → V → Prog Q A (MapTransformResult V R))) (this : ASNode K V) :
    Prog Q A (TRes (ASNode K V) R) := do
  let r ← op.callM this.key this.value
  Prog.al (this.answer r)

/-- `snode::transmute` (`/repo/src/node/snode.rs:86-94`). -/
def ASNode.transmuteE (op : MapTransmute R (K → V → Prog Q A (MapTransmuteResult S X R))) (this : ASNode K V) :
    Prog Q A (XRes (ASNode S X) R) := do
  let r ← op.callM this.key this.value
  Prog.al (ASNode.answerX r)

/-- `lnode::transform` and `transform_impl` (`/repo/src/node/lnode.rs:151-176`). -/
def ALNode.transformE (reduce : R → R → R) (op : MapTransform R (K → V → Prog Q A (MapTransformResult V R))) :
    ALNode K V → Prog Q A (TRes (ALNext K V) R)
  | .nextS a k v s z =>
    match op with
    | .generic _ => do
      let nx ← s.transformE op
      let r ← op.callM k v
      Prog.al (ALNode.transformResult reduce (.nextS a k v s z) r (nx.map .S))
    | .unchanged r => pure (.unchanged r)
    | .removed r => pure (.removed r)
  | .nextL a k v l z =>
    match op with
    | .generic _ => do
      let nx ← l.transformE reduce op
      let r ← op.callM k v
      Prog.al (ALNode.transformResult reduce (.nextL a k v l z) r nx)
    | .unchanged r => pure (.unchanged r)
    | .removed r => pure (.removed r)

/-- `lnode::transmute` and `transmute_impl` (`/repo/src/node/lnode.rs:178-206`). -/
def ALNode.transmuteE (reduce : R → R → R) (op : MapTransmute R (K → V → Prog Q A (MapTransmuteResult S X R))) :
    ALNode K V → Prog Q A (XRes (ALNext S X) R)
  | .nextS _ k v s _ =>
    match op with
    | .generic _ => do
      let nx ← s.transmuteE op
      let r ← op.callM k v
      Prog.al (ALNode.transmuteResult reduce r (nx.map .S))
    | .removed r => pure (.removed r)
  | .nextL _ k v l _ =>
    match op with
    | .generic _ => do
      let nx ← l.transmuteE reduce op
      let r ← op.callM k v
      Prog.al (ALNode.transmuteResult reduce r nx)
    | .removed r => pure (.removed r)

variable {c : Cfg} (x : Cross c K L) (reduce : R → R → R)

/-! ### transform_with_transmuted -/

section
variable (ops : TwmOpsM Q A K V L W R)

/-- `snode::transform_with_transmuted_snode_impl` (`/repo/src/node/snode.rs:281-319`). -/
def ASNode.twmImpl (this : ASNode K V) (rk : L) (rv : W) : Prog Q A (TRes (ALNext K V) R) :=
  if x.eq this.key rk then do
    let r ← ops.both.call2M this.key this.value rk rv
    let r ← Prog.al (this.answer r)
    pure (r.map .S)
  else do
    let left ← ops.left.callM this.key this.value
    let right ← ops.right.callM rk rv
    Prog.al (this.twmTable reduce left right)

/-- `snode::transform_with_transmuted_snode` (`/repo/src/node/snode.rs:237-279`). -/
def ASNode.twm (this : ASNode K V) (right : ASNode L W) (depth : Nat) : Prog Q A (TRes (ANode c.n K V) R) :=
  if x.hash this.key = x.hash' right.key then do
    let r ← this.twmImpl x reduce ops right.key right.value
    pure (r.map ALNext.toNode)
  else do
    let left ← this.transformE ops.left
    let r ← right.transmuteE ops.right
    Prog.al (atwmApart reduce (.S this) (x.hash this.key) (x.hash' right.key) depth (left.map .S) (r.map .S))

/-- `lnode::transform_with_transmuted_snode_impl` (`/repo/src/node/lnode.rs:780-808`). -/
def ALNode.twmSImpl (right : ASNode L W) : ALNode K V → Prog Q A (TRes (ALNext K V) R)
  | .nextS a k v s z =>
    if x.eq k right.key then do
      let nx ← s.transformE ops.left
      let r ← ops.both.call2M k v right.key right.value
      Prog.al (ALNode.transformResult reduce (.nextS a k v s z) r (nx.map .S))
    else do
      let nx ← s.twmImpl x reduce ops right.key right.value
      let r ← ops.left.callM k v
      Prog.al (ALNode.transformResult reduce (.nextS a k v s z) r nx)
  | .nextL a k v l z =>
    if x.eq k right.key then do
      let nx ← l.transformE reduce ops.left
      let r ← ops.both.call2M k v right.key right.value
      Prog.al (ALNode.transformResult reduce (.nextL a k v l z) r nx)
    else do
      let nx ← l.twmSImpl right
      let r ← ops.left.callM k v
      Prog.al (ALNode.transformResult reduce (.nextL a k v l z) r nx)

/-- `lnode::transform_with_transmuted_snode` (`/repo/src/node/lnode.rs:732-778`). -/
def ALNode.twmS (this : ALNode K V) (right : ASNode L W) (depth : Nat) : Prog Q A (TRes (ANode c.n K V) R) :=
  if x.hash this.key = x.hash' right.key then do
    let r ← this.twmSImpl x reduce ops right
    pure (r.map ALNext.toNode)
  else do
    let left ← this.transformE reduce ops.left
    let r ← right.transmuteE ops.right
    Prog.al (atwmApart reduce (.L this) (x.hash this.key) (x.hash' right.key) depth left (r.map .S))

/-- The last node of the left list against the remaining entries of the right one
    (`/repo/src/node/lnode.rs:525-530`). -/
def ASNode.twmLast (s : ASNode K V) (rights : List (L × W)) : Prog Q A (TRes (ALNext K V) R × List (L × W)) :=
  match takeMatch (fun e => x.eq s.key e.1) rights with
  | some (b, rights') => do
    let r ← s.twmImpl x reduce ops b.1 b.2
    pure (r, rights')
  | none => do
    let r ← s.transformE ops.left
    pure (r.map .S, rights)

/-- An entry of the left list against the remaining entries of the right one
    (`/repo/src/node/lnode.rs:533-536`). -/
def TwmOpsM.step (k : K) (v : V) (rights : List (L × W)) :
    Prog Q A (MapTransformResult V R × List (L × W)) :=
  match takeMatch (fun e => x.eq k e.1) rights with
  | some (b, rights') => do
    let r ← ops.both.call2M k v b.1 b.2
    pure (r, rights')
  | none => do
    let r ← ops.left.callM k v
    pure (r, rights)

/-- `lnode::transform_with_transmuted_lnode_impl` (`/repo/src/node/lnode.rs:511-539`), with the vector
    `rights` afterwards. -/
def ALNode.twmLImpl : ALNode K V → List (L × W) → Prog Q A (TRes (ALNext K V) R × List (L × W))
  | .nextS a k v s z, rights => do
    let next ← s.twmLast x reduce ops rights
    let result ← ops.step x k v next.2
    let r ← Prog.al (ALNode.transformResult reduce (.nextS a k v s z) result.1 next.1)
    pure (r, result.2)
  | .nextL a k v l z, rights => do
    let next ← l.twmLImpl rights
    let result ← ops.step x k v next.2
    let r ← Prog.al (ALNode.transformResult reduce (.nextL a k v l z) result.1 next.1)
    pure (r, result.2)

/-- The loop `for (rk, rv) in rights` (`/repo/src/node/lnode.rs:460-475`). -/
def TwmOpsM.leftovers (this : ALNode K V) :
    List (L × W) → TRes (ALNext K V) R → Prog Q A (TRes (ALNext K V) R)
  | [], next => pure next
  | b :: rights, next => do
    let r ← ops.right.callM b.1 b.2
    let next ← Prog.al (this.twmLeftover reduce r next)
    leftovers this rights next

/-- `lnode::transform_with_transmuted_lnode` (`/repo/src/node/lnode.rs:425-509`). -/
def ALNode.twmL (this : ALNode K V) (right : ALNode L W) (depth : Nat) : Prog Q A (TRes (ANode c.n K V) R) :=
  if x.hash this.key = x.hash' right.key then do
    let rights ← Prog.res right.rights
    let next ← this.twmLImpl x reduce ops rights
    let r ← ops.leftovers reduce this next.2 next.1
    pure (r.map ALNext.toNode)
  else do
    let left ← this.transformE reduce ops.left
    let r ← right.transmuteE reduce ops.right
    Prog.al (atwmApart reduce (.L this) (x.hash this.key) (x.hash' right.key) depth left r)

end

/-! ### transmute_with_transformed -/

section
variable (ops : MwtOpsM Q A K V L W R)

/-- `snode::transmute_with_transformed_snode_impl` (`/repo/src/node/snode.rs:363-399`). -/
def ASNode.mwtImpl (this : ASNode K V) (right : ASNode L W) : Prog Q A (TRes (ALNext L W) R) :=
  if x.eq this.key right.key then do
    let r ← ops.both.call2M this.key this.value right.key right.value
    let r ← Prog.al (right.answer r)
    pure (r.map .S)
  else do
    let left ← ops.left.callM this.key this.value
    let r ← ops.right.callM right.key right.value
    Prog.al (right.mwtTable reduce left r)

/-- `snode::transmute_with_transformed_snode` (`/repo/src/node/snode.rs:321-361`). -/
def ASNode.mwt (this : ASNode K V) (right : ASNode L W) (depth : Nat) : Prog Q A (TRes (ANode c.n L W) R) :=
  if x.hash this.key = x.hash' right.key then do
    let r ← this.mwtImpl x reduce ops right
    pure (r.map ALNext.toNode)
  else do
    let left ← this.transmuteE ops.left
    let r ← right.transformE ops.right
    Prog.al (amwtApart reduce (.S right) (x.hash this.key) (x.hash' right.key) depth (left.map .S) (r.map .S))

/-- `lnode::transmute_with_transformed_snode_impl` (`/repo/src/node/lnode.rs:857-885`). -/
def ALNode.mwtSImpl (right : ASNode L W) : ALNode K V → Prog Q A (TRes (ALNext L W) R)
  | .nextS _ k v s _ =>
    if x.eq k right.key then do
      let nx ← s.transmuteE ops.left
      let r ← ops.both.call2M k v right.key right.value
      Prog.al (right.withTransmuted reduce r (nx.map .S))
    else do
      let nx ← s.mwtImpl x reduce ops right
      let r ← ops.left.callM k v
      Prog.al (right.withTransformed reduce r nx)
  | .nextL _ k v l _ =>
    if x.eq k right.key then do
      let nx ← l.transmuteE reduce ops.left
      let r ← ops.both.call2M k v right.key right.value
      Prog.al (right.withTransmuted reduce r nx)
    else do
      let nx ← l.mwtSImpl right
      let r ← ops.left.callM k v
      Prog.al (right.withTransformed reduce r nx)

/-- `lnode::transmute_with_transformed_snode` (`/repo/src/node/lnode.rs:810-855`). -/
def ALNode.mwtS (this : ALNode K V) (right : ASNode L W) (depth : Nat) : Prog Q A (TRes (ANode c.n L W) R) :=
  if x.hash this.key = x.hash' right.key then do
    let r ← this.mwtSImpl x reduce ops right
    pure (r.map ALNext.toNode)
  else do
    let left ← this.transmuteE reduce ops.left
    let r ← right.transformE ops.right
    Prog.al (amwtApart reduce (.S right) (x.hash this.key) (x.hash' right.key) depth left (r.map .S))

end

/-! ### transmute_with_transmuted -/

section
variable (ops : MwmOpsM Q A K V L W S X R)

/-- `snode::transmute_with_transmuted_values` (`/repo/src/node/snode.rs:472-506`), with the conversion
    `/repo/src/results.rs:352-359`. -/
def ASNode.mwmValues (lk : K) (lv : V) (rk : L) (rv : W) : Prog Q A (XRes (ALNext S X) R) :=
  if x.eq lk rk then do
    let r ← ops.both.call2M lk lv rk rv
    let r ← Prog.al (ASNode.answerX r)
    pure (r.map .S)
  else do
    let left ← ops.left.callM lk lv
    let right ← ops.right.callM rk rv
    Prog.al (ASNode.mwmTable reduce left right)

/-- `snode::transmute_with_transmuted_snode` (`/repo/src/node/snode.rs:427-470`). -/
def ASNode.mwm (this : ASNode K V) (right : ASNode L W) (depth : Nat) : Prog Q A (XRes (ANode c.n S X) R) :=
  if x.hash this.key = x.hash' right.key then do
    let r ← ASNode.mwmValues x reduce ops this.key this.value right.key right.value
    pure (r.map ALNext.toNode)
  else do
    let left ← this.transmuteE ops.left
    let r ← right.transmuteE ops.right
    Prog.al (amwmApart reduce (x.hash this.key) (x.hash' right.key) depth (left.map .S) (r.map .S))

/-- `lnode::transmute_with_transmuted_snode_impl` (`/repo/src/node/lnode.rs:936-970`). -/
def ALNode.mwmSImpl (right : ASNode L W) : ALNode K V → Prog Q A (XRes (ALNext S X) R)
  | .nextS _ k v s _ =>
    if x.eq k right.key then do
      let nx ← s.transmuteE ops.left
      let r ← ops.both.call2M k v right.key right.value
      Prog.al (ALNode.transmuteResult reduce r (nx.map .S))
    else do
      let nx ← ASNode.mwmValues x reduce ops s.key s.value right.key right.value
      let r ← ops.left.callM k v
      Prog.al (ALNode.transmuteResult reduce r nx)
  | .nextL _ k v l _ =>
    if x.eq k right.key then do
      let nx ← l.transmuteE reduce ops.left
      let r ← ops.both.call2M k v right.key right.value
      Prog.al (ALNode.transmuteResult reduce r nx)
    else do
      let nx ← l.mwmSImpl right
      let r ← ops.left.callM k v
      Prog.al (ALNode.transmuteResult reduce r nx)

/-- `lnode::transmute_with_transmuted_snode` (`/repo/src/node/lnode.rs:887-934`). -/
def ALNode.mwmS (this : ALNode K V) (right : ASNode L W) (depth : Nat) : Prog Q A (XRes (ANode c.n S X) R) :=
  if x.hash this.key = x.hash' right.key then do
    let r ← this.mwmSImpl x reduce ops right
    pure (r.map ALNext.toNode)
  else do
    let left ← this.transmuteE reduce ops.left
    let r ← right.transmuteE ops.right
    Prog.al (amwmApart reduce (x.hash this.key) (x.hash' right.key) depth left (r.map .S))

/-- The last node of the left list (`/repo/src/node/lnode.rs:643-648`). -/
def ASNode.mwmLast (s : ASNode K V) (rights : List (L × W)) : Prog Q A (XRes (ALNext S X) R × List (L × W)) :=
  match takeMatch (fun e => x.eq s.key e.1) rights with
  | some (b, rights') => do
    let r ← ASNode.mwmValues x reduce ops s.key s.value b.1 b.2
    pure (r, rights')
  | none => do
    let r ← s.transmuteE ops.left
    pure (r.map .S, rights)

/-- An entry of the left list (`/repo/src/node/lnode.rs:651-654`). -/
def MwmOpsM.step (k : K) (v : V) (rights : List (L × W)) :
    Prog Q A (MapTransmuteResult S X R × List (L × W)) :=
  match takeMatch (fun e => x.eq k e.1) rights with
  | some (b, rights') => do
    let r ← ops.both.call2M k v b.1 b.2
    pure (r, rights')
  | none => do
    let r ← ops.left.callM k v
    pure (r, rights)

/-- `lnode::transmute_with_transmuted_lnode_impl` (`/repo/src/node/lnode.rs:625-657`). -/
def ALNode.mwmLImpl : ALNode K V → List (L × W) → Prog Q A (XRes (ALNext S X) R × List (L × W))
  | .nextS _ k v s _, rights => do
    let next ← s.mwmLast x reduce ops rights
    let result ← ops.step x k v next.2
    let r ← Prog.al (ALNode.transmuteResult reduce result.1 next.1)
    pure (r, result.2)
  | .nextL _ k v l _, rights => do
    let next ← l.mwmLImpl rights
    let result ← ops.step x k v next.2
    let r ← Prog.al (ALNode.transmuteResult reduce result.1 next.1)
    pure (r, result.2)

/-- The loop `for (rk, rv) in rights` (`/repo/src/node/lnode.rs:581-594`); its table is `transmute_result`'s
    (`/repo/src/node/lnode.rs:1194-1211`). -/
def MwmOpsM.leftovers : List (L × W) → XRes (ALNext S X) R → Prog Q A (XRes (ALNext S X) R)
  | [], next => pure next
  | b :: rights, next => do
    let r ← ops.right.callM b.1 b.2
    let next ← Prog.al (ALNode.transmuteResult reduce r next)
    leftovers rights next

/-- `lnode::transmute_with_transmuted_lnode` (`/repo/src/node/lnode.rs:541-623`). -/
def ALNode.mwmL (this : ALNode K V) (right : ALNode L W) (depth : Nat) : Prog Q A (XRes (ANode c.n S X) R) :=
  if x.hash this.key = x.hash' right.key then do
    let rights ← Prog.res right.rights
    let next ← this.mwmLImpl x reduce ops rights
    let r ← ops.leftovers reduce next.2 next.1
    pure (r.map ALNext.toNode)
  else do
    let left ← this.transmuteE reduce ops.left
    let r ← right.transmuteE reduce ops.right
    Prog.al (amwmApart reduce (x.hash this.key) (x.hash' right.key) depth left r)

end

/-! ### transform_with_transformed -/

section
variable [BEq K] (hash : K → BitVec c.w) (ops : TwtOpsM Q A K V R)

/-- `snode::transform_with_transformed_snode_impl` (`/repo/src/node/snode.rs:196-235`). -/
def ASNode.twtImpl (this right : ASNode K V) : Prog Q A (JRes (ALNext K V) R) :=
  if this.key == right.key then do
    let r ← ops.both.callM this.key this.value right.key right.value
    Prog.al (this.answerJ r)
  else do
    let left ← ops.left.callM this.key this.value
    let r ← ops.right.callM right.key right.value
    Prog.al (this.twtTable reduce right left r)

/-- `snode::transform_with_transformed_snode` (`/repo/src/node/snode.rs:154-194`). -/
def ASNode.twt (this right : ASNode K V) (depth : Nat) : Prog Q A (JRes (ANode c.n K V) R) :=
  if hash this.key = hash right.key then do
    let r ← this.twtImpl reduce ops right
    pure (r.map ALNext.toNode)
  else do
    let left ← this.transformE ops.left
    let r ← right.transformE ops.right
    Prog.al (atwtApart reduce (.S this) (.S right) (hash this.key) (hash right.key) depth (left.map .S) (r.map .S))

/-- `lnode::transform_with_transformed_snode_impl` (`/repo/src/node/lnode.rs:706-730`). -/
def ALNode.twtSImpl (right : ASNode K V) : ALNode K V → Prog Q A (JRes (ALNext K V) R)
  | .nextS a k v s z =>
    if k == right.key then do
      let nx ← s.transformE ops.left
      let r ← ops.both.callM k v right.key right.value
      Prog.al (ALNode.jointThenPlain reduce (.nextS a k v s z) r right (nx.map .S))
    else do
      let nx ← s.twtImpl reduce ops right
      let r ← ops.left.callM k v
      Prog.al (ALNode.plainThenJoint reduce (.nextS a k v s z) r right nx)
  | .nextL a k v l z =>
    if k == right.key then do
      let nx ← l.transformE reduce ops.left
      let r ← ops.both.callM k v right.key right.value
      Prog.al (ALNode.jointThenPlain reduce (.nextL a k v l z) r right nx)
    else do
      let nx ← l.twtSImpl right
      let r ← ops.left.callM k v
      Prog.al (ALNode.plainThenJoint reduce (.nextL a k v l z) r right nx)

/-- `lnode::transform_with_transformed_snode` (`/repo/src/node/lnode.rs:659-704`). -/
def ALNode.twtS (this : ALNode K V) (right : ASNode K V) (depth : Nat) : Prog Q A (JRes (ANode c.n K V) R) :=
  if hash this.key = hash right.key then do
    let r ← this.twtSImpl reduce ops right
    pure (r.map ALNext.toNode)
  else do
    let left ← this.transformE reduce ops.left
    let r ← right.transformE ops.right
    Prog.al (atwtApart reduce (.L this) (.S right) (hash this.key) (hash right.key) depth left (r.map .S))

/-- The last node of the left list (`/repo/src/node/lnode.rs:398-410`): its result, `next_node`, and the
    vector afterwards.  The code makes an `SNode` of the right entry, for the time of the call. -/
def ASNode.twtLast (s : ASNode K V) (rights : List (K × V)) :
    Prog Q A (JRes (ALNext K V) R × Option (K × V) × List (K × V)) :=
  match takeMatch (fun e => s.key == e.1) rights with
  | some (b, rights') => do
    let right ← Prog.al (ASNode.new b.1 b.2)
    let r ← s.twtImpl reduce ops right
    pure (r, some b, rights')
  | none => do
    let r ← s.transformE ops.left
    pure ((r.map ALNext.S).jointL, none, rights)

/-- An entry of the left list (`/repo/src/node/lnode.rs:413-420`). -/
def TwtOpsM.step (k : K) (v : V) (rights : List (K × V)) :
    Prog Q A (MapJointTransformResult V R × List (K × V)) :=
  match takeMatch (fun e => k == e.1) rights with
  | some (b, rights') => do
    let r ← ops.both.callM k v b.1 b.2
    pure (r, rights')
  | none => do
    let r ← ops.left.callM k v
    pure (r.jointL, rights)

/-- `lnode::transform_with_transformed_lnode_impl` (`/repo/src/node/lnode.rs:386-423`). -/
def ALNode.twtLImpl : ALNode K V → List (K × V) → Prog Q A (JRes (ALNext K V) R × List (K × V))
  | .nextS a k v s z, rights => do
    let next ← s.twtLast reduce ops rights
    let result ← ops.step k v next.2.2
    let r ← Prog.al (ALNode.jointThenJoint reduce (.nextS a k v s z) result.1 next.2.1 next.1)
    pure (r, result.2)
  | .nextL a k v l z, rights => do
    let next ← l.twtLImpl rights
    let result ← ops.step k v next.2
    let r ← Prog.al (ALNode.jointThenJoint reduce (.nextL a k v l z) result.1 none next.1)
    pure (r, result.2)

omit [BEq K] in
/-- The loop `for (rk, rv) in rights` (`/repo/src/node/lnode.rs:322-346`). -/
def TwtOpsM.leftovers (this : ALNode K V) :
    List (K × V) → JRes (ALNext K V) R → Prog Q A (JRes (ALNext K V) R)
  | [], next => pure next
  | b :: rights, next => do
    let r ← ops.right.callM b.1 b.2
    let next ← Prog.al (this.twtLeftover reduce b r next)
    leftovers this rights next

/-- `lnode::transform_with_transformed_lnode` (`/repo/src/node/lnode.rs:292-384`). -/
def ALNode.twtL (this right : ALNode K V) (depth : Nat) : Prog Q A (JRes (ANode c.n K V) R) :=
  if hash this.key = hash right.key then do
    let rights ← Prog.res right.rights
    let next ← this.twtLImpl reduce ops rights
    let r ← ops.leftovers reduce this next.2 next.1
    pure (r.map ALNext.toNode)
  else do
    let left ← this.transformE reduce ops.left
    let r ← right.transformE reduce ops.right
    Prog.al (atwtApart reduce (.L this) (.L right) (hash this.key) (hash right.key) depth left r)

end
end HT
