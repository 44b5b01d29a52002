import Verif.EffBase
/-! # The tables, with addresses, do what the tables of the model do -/
namespace HT

variable {K V L W S X R : Type} {n : Nat}

section
variable {U : ANode n K V → Prop} {s : Nat} {α β : Type} {P : (ANode n K V → Prop) → α → β → Prop}

theorem Sim.newS {k : K} {v : V} {f : ASNode K V → α} {b : β} (heap : Heap U s)
    (h : ∀ (U' : ANode n K V → Prop) t, InL U' (.S t) (.S ⟨k, v⟩) → P U' (f t) b) :
    Sim U s (do let t ← ASNode.new k v; Pure.pure (f t)) (.ok b) (fun U' _ => P U') :=
  Sim.bindSNew heap fun _ _ h2 h3 => Sim.pure h3 (h _ _ ⟨h2, rfl⟩)

theorem Sim.newL {k : K} {v : V} {m : ALNext K V} {m' : LNext K V} {f : ALNode K V → α} {b : β} (heap : Heap U s)
    (hm : InL U m m')
    (h : ∀ (U' : ANode n K V → Prop) l, InL U' (.L l) (.L (LNode.new k v m')) → P U' (f l) b) :
    Sim U s (do let l ← ALNode.new k v m; Pure.pure (f l)) (.ok b) (fun U' _ => P U') :=
  Sim.bindLNew heap hm.1 fun _ _ _ h2 h3 _ _ _ _ h8 =>
    Sim.pure h3 (h _ _ ⟨h2, congrArg LNext.L (h8.trans (by rw [hm.2]))⟩)

theorem Sim.newSL {k k2 : K} {v v2 : V} {f : ALNode K V → α} {b : β} (heap : Heap U s)
    (h : ∀ (U' : ANode n K V → Prop) l, InL U' (.L l) (.L (LNode.new k v (.S ⟨k2, v2⟩))) → P U' (f l) b) :
    Sim U s (do let t ← ASNode.new k2 v2; let l ← ALNode.new k v (.S t); Pure.pure (f l)) (.ok b) (fun U' _ => P U') :=
  Sim.bindSNew heap fun _ _ h2 h3 => Sim.newL h3 ⟨h2, rfl⟩ h

end

variable {U : ANode n K V → Prop} {s : Nat}

theorem ASNode.answer_sim (this : ASNode K V) (heap : Heap U s) (r : MapTransformResult V R) :
    Sim U s (this.answer r) (.ok (match r with
      | .unchanged r => TRes.unchanged r
      | .transformed v r => .node ⟨this.key, v⟩ r
      | .removed r => .removed r)) (fun U' _ => TP (InS U')) := by
  cases r with
  | unchanged r => exact Sim.pure heap (.unchanged r)
  | transformed v r => exact Sim.bindSNew heap fun _ _ h2 h3 => Sim.pure h3 (.node r ⟨h2, rfl⟩)
  | removed r => exact Sim.pure heap (.removed r)

theorem ASNode.answerX_sim {U : ANode n S X → Prop} (heap : Heap U s) (r : MapTransmuteResult S X R) :
    Sim U s (ASNode.answerX r) (.ok (match r with
      | .transmuted k v r => XRes.node ⟨k, v⟩ r
      | .removed r => .removed r)) (fun U' _ => XP (InS U')) := by
  cases r with
  | transmuted k v r => exact Sim.bindSNew heap fun _ _ h2 h3 => Sim.pure h3 (.node r ⟨h2, rfl⟩)
  | removed r => exact Sim.pure heap (.removed r)

theorem ALNode.transformResult_sim (reduce : R → R → R) (this : ALNode K V) (heap : Heap U s)
    (hn : U this.next.toNode) (res : MapTransformResult V R) {nx : TRes (ALNext K V) R} {nx' : TRes (LNext K V) R}
    (hx : TP (InL U) nx nx') :
    Sim U s (this.transformResult reduce res nx) (.ok (this.erase.transformResult reduce res nx'))
      (fun U' _ => TP (InL U')) := by
  have hn' : InL U this.next this.next.erase := ⟨hn, rfl⟩
  unfold ALNode.transformResult LNode.transformResult
  rw [ALNode.erase_key, ALNode.erase_value, ALNode.erase_next]
  cases res <;> cases hx
  all_goals first
    | exact Sim.pure heap (.unchanged _)
    | exact Sim.pure heap (.removed _)
    | exact Sim.newL heap (by assumption) fun _ _ h => .node _ h
    | exact Sim.newS heap fun _ _ h => .node _ h
    | exact Sim.pure heap (.node _ (by assumption))

theorem ALNode.transmuteResult_sim {U : ANode n S X → Prop} (reduce : R → R → R) (heap : Heap U s)
    (res : MapTransmuteResult S X R) {nx : XRes (ALNext S X) R} {nx' : XRes (LNext S X) R} (hx : XP (InL U) nx nx') :
    Sim U s (ALNode.transmuteResult reduce res nx) (.ok (LNode.transmuteResult reduce res nx'))
      (fun U' _ => XP (InL U')) := by
  unfold ALNode.transmuteResult LNode.transmuteResult
  cases res <;> cases hx
  all_goals first
    | exact Sim.pure heap (.removed _)
    | exact Sim.newL heap (by assumption) fun _ _ h => .node _ h
    | exact Sim.newS heap fun _ _ h => .node _ h
    | exact Sim.pure heap (.node _ (by assumption))

theorem ASNode.twmTable_sim (reduce : R → R → R) (this : ASNode K V) (heap : Heap U s) (hU : U (.S this))
    (left : MapTransformResult V R) (right : MapTransmuteResult K V R) :
    Sim U s (this.twmTable reduce left right) (.ok (match left, right with
      | .unchanged lr, .transmuted rk rv rr => TRes.node (.L (LNode.new rk rv (.S this.erase))) (reduce lr rr)
      | .unchanged lr, .removed rr => .unchanged (reduce lr rr)
      | .transformed lv lr, .transmuted rk rv rr =>
        .node (.L (LNode.new rk rv (.S ⟨this.erase.key, lv⟩))) (reduce lr rr)
      | .transformed lv lr, .removed rr => .node (.S ⟨this.erase.key, lv⟩) (reduce lr rr)
      | .removed lr, .transmuted rk rv rr => .node (.S ⟨rk, rv⟩) (reduce lr rr)
      | .removed lr, .removed rr => .removed (reduce lr rr))) (fun U' _ => TP (InL U')) := by
  have hn' : InL U (.S this) (.S this.erase) := ⟨hU, rfl⟩
  unfold ASNode.twmTable
  cases left <;> cases right
  all_goals first
    | exact Sim.pure heap (.unchanged _)
    | exact Sim.pure heap (.removed _)
    | exact Sim.newL heap (by assumption) fun _ _ h => .node _ h
    | exact Sim.newSL heap fun _ _ h => .node _ h
    | exact Sim.newS heap fun _ _ h => .node _ h

theorem ASNode.mwtTable_sim (reduce : R → R → R) (right : ASNode K V) (heap : Heap U s) (hU : U (.S right))
    (left : MapTransmuteResult K V R) (r : MapTransformResult V R) :
    Sim U s (right.mwtTable reduce left r) (.ok (match left, r with
      | .transmuted lk lv lr, .unchanged rr => TRes.node (.L (LNode.new lk lv (.S right.erase))) (reduce lr rr)
      | .transmuted lk lv lr, .transformed rv rr =>
        .node (.L (LNode.new lk lv (.S ⟨right.erase.key, rv⟩))) (reduce lr rr)
      | .transmuted lk lv lr, .removed rr => .node (.S ⟨lk, lv⟩) (reduce lr rr)
      | .removed lr, .unchanged rr => .unchanged (reduce lr rr)
      | .removed lr, .transformed rv rr => .node (.S ⟨right.erase.key, rv⟩) (reduce lr rr)
      | .removed lr, .removed rr => .removed (reduce lr rr))) (fun U' _ => TP (InL U')) := by
  have hn' : InL U (.S right) (.S right.erase) := ⟨hU, rfl⟩
  unfold ASNode.mwtTable
  cases left <;> cases r
  all_goals first
    | exact Sim.pure heap (.unchanged _)
    | exact Sim.pure heap (.removed _)
    | exact Sim.newL heap (by assumption) fun _ _ h => .node _ h
    | exact Sim.newSL heap fun _ _ h => .node _ h
    | exact Sim.newS heap fun _ _ h => .node _ h

theorem ASNode.mwmTable_sim {U : ANode n S X → Prop} (reduce : R → R → R) (heap : Heap U s)
    (left right : MapTransmuteResult S X R) :
    Sim U s (ASNode.mwmTable reduce left right) (.ok (match left, right with
      | .transmuted lk lv lr, .transmuted rk rv rr =>
        XRes.node (.L (LNode.new lk lv (.S ⟨rk, rv⟩))) (reduce lr rr)
      | .transmuted lk lv lr, .removed rr => .node (.S ⟨lk, lv⟩) (reduce lr rr)
      | .removed lr, .transmuted rk rv rr => .node (.S ⟨rk, rv⟩) (reduce lr rr)
      | .removed lr, .removed rr => .removed (reduce lr rr))) (fun U' _ => XP (InL U')) := by
  unfold ASNode.mwmTable
  cases left <;> cases right
  all_goals first
    | exact Sim.pure heap (.removed _)
    | exact Sim.newSL heap fun _ _ h => .node _ h
    | exact Sim.newS heap fun _ _ h => .node _ h

theorem ASNode.answerJ_sim (this : ASNode K V) (heap : Heap U s) (r : MapJointTransformResult V R) :
    Sim U s (this.answerJ r) (.ok (match r with
      | .unchangedLR r => JRes.unchangedLR r
      | .unchangedL r => .unchangedL r
      | .unchangedR r => .unchangedR r
      | .transformed v r => .node (.S ⟨this.erase.key, v⟩) r
      | .removed r => .removed r)) (fun U' _ => JP (InL U')) := by
  cases r with
  | unchangedLR r => exact Sim.pure heap (.unchangedLR r)
  | unchangedL r => exact Sim.pure heap (.unchangedL r)
  | unchangedR r => exact Sim.pure heap (.unchangedR r)
  | transformed v r => exact Sim.newS heap fun _ _ h => .node _ h
  | removed r => exact Sim.pure heap (.removed r)

theorem ASNode.twtTable_sim (reduce : R → R → R) (this right : ASNode K V) (heap : Heap U s) (hU : U (.S this))
    (hR : U (.S right)) (left r : MapTransformResult V R) :
    Sim U s (this.twtTable reduce right left r) (.ok (match left, r with
      | .unchanged lr, .unchanged rr =>
        JRes.node (.L (LNode.new right.erase.key right.erase.value (.S this.erase))) (reduce lr rr)
      | .unchanged lr, .transformed rv rr => .node (.L (LNode.new right.erase.key rv (.S this.erase))) (reduce lr rr)
      | .unchanged lr, .removed rr => .unchangedL (reduce lr rr)
      | .transformed lv lr, .unchanged rr => .node (.L (LNode.new this.erase.key lv (.S right.erase))) (reduce lr rr)
      | .transformed lv lr, .transformed rv rr =>
        .node (.L (LNode.new right.erase.key rv (.S ⟨this.erase.key, lv⟩))) (reduce lr rr)
      | .transformed lv lr, .removed rr => .node (.S ⟨this.erase.key, lv⟩) (reduce lr rr)
      | .removed lr, .unchanged rr => .unchangedR (reduce lr rr)
      | .removed lr, .transformed rv rr => .node (.S ⟨right.erase.key, rv⟩) (reduce lr rr)
      | .removed lr, .removed rr => .removed (reduce lr rr))) (fun U' _ => JP (InL U')) := by
  have h1 : InL U (.S this) (.S this.erase) := ⟨hU, rfl⟩
  have h2 : InL U (.S right) (.S right.erase) := ⟨hR, rfl⟩
  unfold ASNode.twtTable
  cases left <;> cases r
  all_goals first
    | exact Sim.pure heap (.unchangedL _)
    | exact Sim.pure heap (.unchangedR _)
    | exact Sim.pure heap (.removed _)
    | exact Sim.newL heap h1 fun _ _ h => .node _ h
    | exact Sim.newL heap h2 fun _ _ h => .node _ h
    | exact Sim.newSL heap fun _ _ h => .node _ h
    | exact Sim.newS heap fun _ _ h => .node _ h

theorem ASNode.withTransmuted_sim (reduce : R → R → R) (this : ASNode K V) (heap : Heap U s)
    (res : MapTransformResult V R) {nx : XRes (ALNext K V) R} {nx' : XRes (LNext K V) R} (hx : XP (InL U) nx nx') :
    Sim U s (this.withTransmuted reduce res nx) (.ok (this.erase.withTransmuted reduce res nx'))
      (fun U' _ => TP (InL U')) := by
  unfold ASNode.withTransmuted SNode.withTransmuted
  cases res <;> cases hx
  all_goals first
    | exact Sim.pure heap (.removed _)
    | exact Sim.newL heap (by assumption) fun _ _ h => .node _ h
    | exact Sim.newS heap fun _ _ h => .node _ h
    | exact Sim.pure heap (.node _ (by assumption))

theorem ASNode.withTransformed_sim (reduce : R → R → R) (this : ASNode K V) (heap : Heap U s) (hU : U (.S this))
    (res : MapTransmuteResult K V R) {nx : TRes (ALNext K V) R} {nx' : TRes (LNext K V) R} (hx : TP (InL U) nx nx') :
    Sim U s (this.withTransformed reduce res nx) (.ok (this.erase.withTransformed reduce res nx'))
      (fun U' _ => TP (InL U')) := by
  have h1 : InL U (.S this) (.S this.erase) := ⟨hU, rfl⟩
  unfold ASNode.withTransformed SNode.withTransformed
  cases res <;> cases hx
  all_goals first
    | exact Sim.pure heap (.removed _)
    | exact Sim.newL heap (by assumption) fun _ _ h => .node _ h
    | exact Sim.newS heap fun _ _ h => .node _ h
    | exact Sim.pure heap (.node _ (by assumption))

theorem ALNode.jointThenPlain_sim (reduce : R → R → R) (this : ALNode K V) (that : ASNode K V) (heap : Heap U s)
    (hn : U this.next.toNode) (res : MapJointTransformResult V R) {nx : TRes (ALNext K V) R} {nx' : TRes (LNext K V) R}
    (hx : TP (InL U) nx nx') :
    Sim U s (this.jointThenPlain reduce res that nx) (.ok (this.erase.jointThenPlain reduce res that.erase nx'))
      (fun U' _ => JP (InL U')) := by
  have hn' : InL U this.next this.next.erase := ⟨hn, rfl⟩
  unfold ALNode.jointThenPlain LNode.jointThenPlain
  rw [ALNode.erase_key, ALNode.erase_value, ALNode.erase_next]
  cases res <;> cases hx
  all_goals first
    | exact Sim.pure heap (.unchangedL _)
    | exact Sim.pure heap (.unchangedR _)
    | exact Sim.pure heap (.removed _)
    | exact Sim.newL heap (by assumption) fun _ _ h => .node _ h
    | exact Sim.newS heap fun _ _ h => .node _ h
    | exact Sim.pure heap (.node _ (by assumption))

theorem ALNode.plainThenJoint_sim (reduce : R → R → R) (this : ALNode K V) (that : ASNode K V) (heap : Heap U s)
    (hU : U (.L this)) (hn : U this.next.toNode) (ht : U (.S that)) (res : MapTransformResult V R)
    {nx : JRes (ALNext K V) R} {nx' : JRes (LNext K V) R} (hx : JP (InL U) nx nx') :
    Sim U s (this.plainThenJoint reduce res that nx) (.ok (this.erase.plainThenJoint reduce res that.erase nx'))
      (fun U' _ => JP (InL U')) := by
  have h0 : InL U (.L this) (.L this.erase) := ⟨hU, rfl⟩
  have h1 : InL U this.next this.next.erase := ⟨hn, rfl⟩
  have h2 : InL U (.S that) (.S that.erase) := ⟨ht, rfl⟩
  unfold ALNode.plainThenJoint LNode.plainThenJoint
  rw [ALNode.erase_key, ALNode.erase_value, ALNode.erase_next]
  cases res <;> cases hx
  all_goals first
    | exact Sim.pure heap (.unchangedL _)
    | exact Sim.pure heap (.unchangedR _)
    | exact Sim.pure heap (.removed _)
    | exact Sim.newL heap h0 fun _ _ h => .node _ h
    | exact Sim.newL heap h1 fun _ _ h => .node _ h
    | exact Sim.newL heap h2 fun _ _ h => .node _ h
    | exact Sim.newL heap (by assumption) fun _ _ h => .node _ h
    | exact Sim.newS heap fun _ _ h => .node _ h
    | exact Sim.pure heap (.node _ (by assumption))

theorem ALNode.jointThenJoint_sim (reduce : R → R → R) (this : ALNode K V) (that : Option (K × V)) (heap : Heap U s)
    (hn : U this.next.toNode) (res : MapJointTransformResult V R)
    {nx : JRes (ALNext K V) R} {nx' : JRes (LNext K V) R} (hx : JP (InL U) nx nx') :
    Sim U s (this.jointThenJoint reduce res that nx) (this.erase.jointThenJoint reduce res that nx')
      (fun U' _ => JP (InL U')) := by
  have h1 : InL U this.next this.next.erase := ⟨hn, rfl⟩
  unfold ALNode.jointThenJoint LNode.jointThenJoint ALNode.beforeThat
  rw [ALNode.erase_key, ALNode.erase_value, ALNode.erase_next]
  cases res <;> cases hx
  all_goals first
    | exact Sim.pure heap (.unchangedLR _)
    | exact Sim.pure heap (.unchangedL _)
    | exact Sim.pure heap (.unchangedR _)
    | exact Sim.pure heap (.removed _)
    | exact Sim.newL heap h1 fun _ _ h => .node _ h
    | exact Sim.newL heap (by assumption) fun _ _ h => .node _ h
    | exact Sim.newS heap fun _ _ h => .node _ h
    | exact Sim.pure heap (.node _ (by assumption))
    | exact Sim.bindLift fun _ _ => Sim.newSL heap fun _ _ h => .node _ h
    | exact Sim.bindLift fun _ _ => Sim.newL heap h1 fun _ _ h => .node _ h
    | exact Sim.bindLift fun _ _ => Sim.newL heap (by assumption) fun _ _ h => .node _ h
    | exact Sim.bindLift fun _ _ => Sim.newS heap fun _ _ h => .node _ h

theorem ALNode.twmLeftover_sim (reduce : R → R → R) (this : ALNode K V) (heap : Heap U s) (hU : U (.L this))
    {ops : TwmOps K V L W R} (b : L × W) {nx : TRes (ALNext K V) R} {nx' : TRes (LNext K V) R} (hx : TP (InL U) nx nx') :
    Sim U s (this.twmLeftover reduce (ops.right.call b.1 b.2) nx) (.ok (ops.leftover reduce this.erase nx' b))
      (fun U' _ => TP (InL U')) := by
  have h1 : InL U (.L this) (.L this.erase) := ⟨hU, rfl⟩
  unfold ALNode.twmLeftover TwmOps.leftover
  generalize ops.right.call b.1 b.2 = r
  cases r <;> cases hx
  all_goals first
    | exact Sim.pure heap (.unchanged _)
    | exact Sim.pure heap (.removed _)
    | exact Sim.newL heap (by assumption) fun _ _ h => .node _ h
    | exact Sim.newS heap fun _ _ h => .node _ h
    | exact Sim.pure heap (.node _ (by assumption))

theorem ALNode.twtLeftover_sim (reduce : R → R → R) (this : ALNode K V) (heap : Heap U s) (hU : U (.L this))
    {ops : TwtOps K V R} (b : K × V) {nx : JRes (ALNext K V) R} {nx' : JRes (LNext K V) R} (hx : JP (InL U) nx nx') :
    Sim U s (this.twtLeftover reduce b (ops.right.call b.1 b.2) nx) (ops.leftover reduce this.erase nx' b)
      (fun U' _ => JP (InL U')) := by
  have h1 : InL U (.L this) (.L this.erase) := ⟨hU, rfl⟩
  unfold ALNode.twtLeftover TwtOps.leftover
  generalize ops.right.call b.1 b.2 = r
  cases r <;> cases hx
  all_goals first
    | exact Sim.pure heap (.unchangedL _)
    | exact Sim.pure heap (.removed _)
    | exact Sim.newL heap (by assumption) fun _ _ h => .node _ h
    | exact Sim.newS heap fun _ _ h => .node _ h
    | exact Sim.pure heap (.node _ (by assumption))
    | exact (rfl : Panic.explicit = Panic.explicit)

/-! ### Operands with different hashes -/

section
variable {c : Cfg} {U : ANode c.n K V → Prop} {α β : Type} {P : (ANode c.n K V → Prop) → α → β → Prop}

theorem aliftN_sim (heap : Heap U s) {l r : ALNext K V} {l' r' : LNext K V} (hl : InL U l l') (hr : InL U r r')
    (lf rf : Flag c) {f : ANode c.n K V → α} {g : Node c.n K V → β}
    (h : ∀ (U' : ANode c.n K V → Prop) m m', InN U' m m' → P U' (f m) (g m')) :
    Sim U s (do let m ← aliftN l lf r rf; Pure.pure (f m)) (do let m ← liftN l' lf r' rf; .ok (g m)) (fun U' _ => P U') := by
  obtain ⟨hl1, rfl⟩ := hl
  obtain ⟨hr1, rfl⟩ := hr
  unfold aliftN liftN
  rw [← ALNext.toNode_erase, ← ALNext.toNode_erase]
  refine Sim.bind (aliftC_sim _ _ _ _ _ rfl U s heap hl1 hr1) ?_
  intro U' s' m m' _ _ h3 h4
  exact Sim.pure h3 (h _ _ _ ⟨h4.mem, h4.erase⟩)

theorem atwmApart_sim (reduce : R → R → R) (heap : Heap U s) {this : ALNext K V} {this' : LNext K V}
    (hU : InL U this this') (th rh : BitVec c.w) (depth : Nat) {left : TRes (ALNext K V) R} {left' : TRes (LNext K V) R}
    (hl : TP (InL U) left left') {right : XRes (ALNext K V) R} {right' : XRes (LNext K V) R}
    (hr : XP (InL U) right right') :
    Sim U s (atwmApart reduce this th rh depth left right) (twmApart reduce this' th rh depth left' right')
      (fun U' _ => TP (InN U')) := by
  unfold atwmApart twmApart
  refine Sim.bindLift fun lf _ => Sim.bindLift fun rf _ => ?_
  cases hl <;> cases hr
  all_goals first
    | exact Sim.pure heap (.unchanged _)
    | exact Sim.pure heap (.removed _)
    | exact Sim.pure heap (.node _ (InL.toN (by assumption)))
    | exact aliftN_sim heap hU (by assumption) _ _ fun _ _ _ h => .node _ h
    | exact aliftN_sim heap (by assumption) (by assumption) _ _ fun _ _ _ h => .node _ h

theorem amwtApart_sim (reduce : R → R → R) (heap : Heap U s) {right : ALNext K V} {right' : LNext K V}
    (hU : InL U right right') (th rh : BitVec c.w) (depth : Nat) {left : XRes (ALNext K V) R}
    {left' : XRes (LNext K V) R} (hl : XP (InL U) left left') {r : TRes (ALNext K V) R} {r' : TRes (LNext K V) R}
    (hr : TP (InL U) r r') :
    Sim U s (amwtApart reduce right th rh depth left r) (mwtApart reduce right' th rh depth left' r')
      (fun U' _ => TP (InN U')) := by
  unfold amwtApart mwtApart
  refine Sim.bindLift fun lf _ => Sim.bindLift fun rf _ => ?_
  cases hl <;> cases hr
  all_goals first
    | exact Sim.pure heap (.unchanged _)
    | exact Sim.pure heap (.removed _)
    | exact Sim.pure heap (.node _ (InL.toN (by assumption)))
    | exact aliftN_sim heap (by assumption) hU _ _ fun _ _ _ h => .node _ h
    | exact aliftN_sim heap (by assumption) (by assumption) _ _ fun _ _ _ h => .node _ h

theorem amwmApart_sim (reduce : R → R → R) (heap : Heap U s) (th rh : BitVec c.w) (depth : Nat)
    {left : XRes (ALNext K V) R} {left' : XRes (LNext K V) R} (hl : XP (InL U) left left') {r : XRes (ALNext K V) R}
    {r' : XRes (LNext K V) R} (hr : XP (InL U) r r') :
    Sim U s (amwmApart reduce th rh depth left r) (mwmApart reduce th rh depth left' r')
      (fun U' _ => XP (InN U')) := by
  unfold amwmApart mwmApart
  refine Sim.bindLift fun lf _ => Sim.bindLift fun rf _ => ?_
  cases hl <;> cases hr
  all_goals first
    | exact Sim.pure heap (.removed _)
    | exact Sim.pure heap (.node _ (InL.toN (by assumption)))
    | exact aliftN_sim heap (by assumption) (by assumption) _ _ fun _ _ _ h => .node _ h

theorem atwtApart_sim (reduce : R → R → R) (heap : Heap U s) {this right : ALNext K V} {this' right' : LNext K V}
    (hU : InL U this this') (hR : InL U right right') (th rh : BitVec c.w) (depth : Nat) {left : TRes (ALNext K V) R}
    {left' : TRes (LNext K V) R} (hl : TP (InL U) left left') {r : TRes (ALNext K V) R} {r' : TRes (LNext K V) R}
    (hr : TP (InL U) r r') :
    Sim U s (atwtApart reduce this right th rh depth left r) (twtApart reduce this' right' th rh depth left' r')
      (fun U' _ => JP (InN U')) := by
  unfold atwtApart twtApart
  refine Sim.bindLift fun lf _ => Sim.bindLift fun rf _ => ?_
  cases hl <;> cases hr
  all_goals first
    | exact Sim.pure heap (.unchangedL _)
    | exact Sim.pure heap (.unchangedR _)
    | exact Sim.pure heap (.removed _)
    | exact Sim.pure heap (.node _ (InL.toN (by assumption)))
    | exact aliftN_sim heap hU hR _ _ fun _ _ _ h => .node _ h
    | exact aliftN_sim heap (by assumption) hR _ _ fun _ _ _ h => .node _ h
    | exact aliftN_sim heap hU (by assumption) _ _ fun _ _ _ h => .node _ h
    | exact aliftN_sim heap (by assumption) (by assumption) _ _ fun _ _ _ h => .node _ h

end
end HT
