import Verif.MatchLoop
/-! # transform_with_transformed, whatever `==` and `hash` answer -/
namespace HT

variable {K V R : Type} [BEq K] {c : Cfg}

/-- Everything that may come out has `O`. -/
structure TwtOps.Closed (ops : TwtOps K V R) (as bs : List (K × V)) (O : K × V → Prop) : Prop where
  l : ∀ a ∈ as, O a
  r : ∀ b ∈ bs, O b
  ln : ∀ a ∈ as, ∀ v r, ops.left.call a.1 a.2 = .transformed v r → O (a.1, v)
  rn : ∀ b ∈ bs, ∀ v r, ops.right.call b.1 b.2 = .transformed v r → O (b.1, v)
  bn : ∀ a ∈ as, ∀ b ∈ bs, (a.1 == b.1) = true ∨ (b.1 == a.1) = true → ∀ v r,
    ops.both.call a.1 a.2 b.1 b.2 = .transformed v r → O (a.1, v) ∧ O (b.1, v)

variable {ops : TwtOps K V R} {O : K × V → Prop} {reduce : R → R → R} {e : R} {hash : K → BitVec c.w}

theorem TwtOps.Closed.sub {as as' bs bs' : List (K × V)} (h : ops.Closed as bs O)
    (ha : ∀ a ∈ as', a ∈ as) (hb : ∀ b ∈ bs', b ∈ bs) : ops.Closed as' bs' O where
  l a h' := h.l a (ha a h')
  r b h' := h.r b (hb b h')
  ln a h' := h.ln a (ha a h')
  rn b h' := h.rn b (hb b h')
  bn a h1 b h2 := h.bn a (ha a h1) b (hb b h2)

omit [BEq K] in
theorem MapJointTransform.flip_call_new {op : MapJointTransform R (K → V → K → V → MapJointTransformResult V R)}
    {k l : K} {v w x : V} {r : R} (h : op.flip.call l w k v = .transformed x r) : op.call k v l w = .transformed x r := by
  cases op with
  | generic f flipped =>
    cases flipped <;> simp only [MapJointTransform.flip, MapJointTransform.call, Bool.not_true, Bool.not_false, if_true,
      Bool.false_eq_true, if_false] at h ⊢
    · revert h; cases f k v l w <;> simp [MapJointTransformResult.flip]
    · rw [h]; rfl
  | unchangedLR r => exact h
  | unchangedL r => simp [MapJointTransform.flip, MapJointTransform.call] at h
  | unchangedR r => simp [MapJointTransform.flip, MapJointTransform.call] at h
  | removed r => exact h

theorem TwtOps.Closed.flip {as bs : List (K × V)} (h : ops.Closed as bs O) : ops.flip.Closed bs as O where
  l := h.r
  r := h.l
  ln := h.rn
  rn := h.ln
  bn b hb a ha hs v r he := (h.bn a ha b hb hs.symm v r (MapJointTransform.flip_call_new he)).symm

/-! ### Lists -/

/-- A list or single node with right sizes all of whose entries have `O`. -/
def NFine (O : K × V → Prop) (m : LNext K V) : Prop := m.SizeOk ∧ ∀ a ∈ m.visit, O a

/-- The node of a result, if it is a new one, is fine. -/
def LFine (O : K × V → Prop) (res : JRes (LNext K V) R) : Prop := ∀ m r, res = .node m r → NFine O m

omit [BEq K] in
theorem NFine.S {k : K} {v : V} (h : O (k, v)) : NFine O (.S ⟨k, v⟩) :=
  ⟨trivial, by intro a ha; simp [LNext.visit, SNode.visit] at ha; subst ha; exact h⟩

omit [BEq K] in
theorem NFine.new {k : K} {v : V} {m : LNext K V} (h : O (k, v)) (hm : NFine O m) : NFine O (.L (LNode.new k v m)) := by
  refine ⟨LNode.new_sizeOk hm.1, fun a ha => ?_⟩
  have ha : a ∈ (LNode.new k v m).visit := ha
  rw [LNode.new_visit] at ha
  rcases List.mem_cons.1 ha with rfl | ha
  · exact h
  · exact hm.2 a ha

omit [BEq K] in
theorem NFine.next {l : LNode K V} (h : NFine O (.L l)) : NFine O l.next := by
  refine ⟨?_, fun a ha => h.2 a (by rw [LNext.visit, LNode.visit_eq]; exact List.mem_cons_of_mem _ ha)⟩
  cases l with
  | nextS k v s z => trivial
  | nextL k v l z => exact h.1.2

omit [BEq K] in
theorem NFine.head {l : LNode K V} (h : NFine O (.L l)) : O (l.key, l.value) :=
  h.2 _ (by rw [LNext.visit, LNode.visit_eq]; simp)

omit [BEq K] in
theorem outs_fine {op : MapTransform R (K → V → MapTransformResult V R)} {as : List (K × V)} (h1 : ∀ a ∈ as, O a)
    (h2 : ∀ a ∈ as, ∀ v r, op.call a.1 a.2 = .transformed v r → O (a.1, v)) : ∀ a ∈ op.outs as, O a := by
  intro a ha
  obtain ⟨p, hp, he⟩ := List.mem_filterMap.1 ha
  cases hc : op.call p.1 p.2 with
  | unchanged r => rw [hc] at he; injection he with he; subst he; exact h1 p hp
  | transformed v r => rw [hc] at he; injection he with he; subst he; exact h2 p hp v r hc
  | removed r => rw [hc] at he; cases he

omit [BEq K] in
theorem SNode.transform_fine {op : MapTransform R (K → V → MapTransformResult V R)} {s : SNode K V}
    (h1 : ∀ a ∈ s.visit, O a)
    (h2 : ∀ a ∈ s.visit, ∀ v r, op.call a.1 a.2 = .transformed v r → O (a.1, v)) {m : LNext K V}
    (h : ((s.transform op).map LNext.S).get (.S s) = some m) : NFine O m := by
  obtain ⟨e1, e2, _⟩ := SNode.transform_spec op s
  rw [h] at e1
  refine ⟨e2 m h, fun a ha => ?_⟩
  have ha : a ∈ lvis (some m) := ha
  rw [e1] at ha
  exact outs_fine h1 h2 a ha

omit [BEq K] in
theorem LNode.transform_fine {op : MapTransform R (K → V → MapTransformResult V R)} {l : LNode K V} (hsz : l.SizeOk)
    (h1 : ∀ a ∈ l.visit, O a)
    (h2 : ∀ a ∈ l.visit, ∀ v r, op.call a.1 a.2 = .transformed v r → O (a.1, v)) {m : LNext K V}
    (h : (l.transform reduce op).get (.L l) = some m) : NFine O m := by
  obtain ⟨e1, e2, _⟩ := LNode.transform_spec op reduce l hsz
  rw [h] at e1
  refine ⟨e2 m h, fun a ha => ?_⟩
  have ha : a ∈ lvis (some m) := ha
  rw [e1] at ha
  exact outs_fine h1 h2 a ha

theorem SNode.twtImpl_fine {s right : SNode K V} (h : ops.Closed s.visit right.visit O) :
    LFine O (s.twtImpl reduce ops right) := by
  have hs : (s.key, s.value) ∈ s.visit := by simp [SNode.visit]
  have hr : (right.key, right.value) ∈ right.visit := by simp [SNode.visit]
  intro m r hm
  unfold SNode.twtImpl at hm
  split at hm
  · next he =>
    have := h.bn _ hs _ hr (.inl he)
    cases hc : ops.both.call s.key s.value right.key right.value <;> rw [hc] at hm <;> cases hm
    exact .S (this _ _ hc).1
  · have h1 := h.ln _ hs
    have h2 := h.rn _ hr
    have h3 := h.l _ hs
    have h4 := h.r _ hr
    cases hc : ops.left.call s.key s.value <;> cases hc' : ops.right.call right.key right.value <;>
      rw [hc, hc'] at hm <;> cases hm
    · exact .new h4 (.S h3)
    · exact .new (h2 _ _ hc') (.S h3)
    · exact .new (h1 _ _ hc) (.S h4)
    · exact .new (h2 _ _ hc') (.S (h1 _ _ hc))
    · exact .S (h1 _ _ hc)
    · exact .S (h2 _ _ hc')

omit [BEq K] in
theorem LNode.jointThenPlain_fine {this : LNode K V} {result : MapJointTransformResult V R} {that : SNode K V}
    {next : TRes (LNext K V) R} (h1 : NFine O (.L this)) (h2 : O (that.key, that.value))
    (h3 : ∀ v r, result = .transformed v r → O (this.key, v)) (h4 : ∀ m r, next = .node m r → NFine O m) :
    LFine O (LNode.jointThenPlain reduce this result that next) := by
  intro m r hm
  cases result <;> cases next <;> cases hm <;> first
    | exact .S h1.head
    | exact .S (h3 _ _ rfl)
    | exact .new h1.head (h4 _ _ rfl)
    | exact .new h2 h1.next
    | exact .new h2 (h4 _ _ rfl)
    | exact .new (h3 _ _ rfl) h1.next
    | exact .new (h3 _ _ rfl) (h4 _ _ rfl)
    | exact h1.next
    | exact h4 _ _ rfl

omit [BEq K] in
theorem LNode.plainThenJoint_fine {this : LNode K V} {result : MapTransformResult V R} {that : SNode K V}
    {next : JRes (LNext K V) R} (h1 : NFine O (.L this)) (h2 : O (that.key, that.value))
    (h3 : ∀ v r, result = .transformed v r → O (this.key, v)) (h4 : LFine O next) :
    LFine O (LNode.plainThenJoint reduce this result that next) := by
  intro m r hm
  cases result <;> cases next <;> cases hm <;> first
    | exact .S h1.head
    | exact .S (h3 _ _ rfl)
    | exact .new h2 h1
    | exact .new h1.head (h4 _ _ rfl)
    | exact .new (h3 _ _ rfl) h1.next
    | exact .new (h3 _ _ rfl) (.S h2)
    | exact .new (h3 _ _ rfl) (h4 _ _ rfl)
    | exact h1.next
    | exact h4 _ _ rfl

theorem LNode.twtSImpl_fine {this : LNode K V} {right : SNode K V} (hsz : this.SizeOk)
    (h : ops.Closed this.visit right.visit O) : LFine O (this.twtSImpl reduce ops right) := by
  have hr : (right.key, right.value) ∈ right.visit := by simp [SNode.visit]
  induction this with
  | nextS k v s z =>
    have hk : (k, v) ∈ (LNode.nextS k v s z).visit := by simp [LNode.visit]
    have hsub : ∀ a ∈ s.visit, a ∈ (LNode.nextS k v s z).visit := fun a ha => List.mem_cons_of_mem _ ha
    rw [LNode.twtSImpl]
    split
    · next he =>
      refine LNode.jointThenPlain_fine ⟨hsz, h.l⟩ (h.r _ hr) (fun v' r hc => (h.bn _ hk _ hr (.inl he) _ _ hc).1) ?_
      intro m r hm
      exact SNode.transform_fine (op := ops.left) (s := s) (fun a ha => h.l a (hsub a ha))
        (fun a ha => h.ln a (hsub a ha)) (by rw [hm]; rfl)
    · exact LNode.plainThenJoint_fine ⟨hsz, h.l⟩ (h.r _ hr) (fun v' r hc => h.ln _ hk _ _ hc)
        (SNode.twtImpl_fine (h.sub hsub fun _ h => h))
  | nextL k v l z ih =>
    have hk : (k, v) ∈ (LNode.nextL k v l z).visit := by simp [LNode.visit]
    have hsub : ∀ a ∈ l.visit, a ∈ (LNode.nextL k v l z).visit := fun a ha => List.mem_cons_of_mem _ ha
    rw [LNode.twtSImpl]
    split
    · next he =>
      refine LNode.jointThenPlain_fine ⟨hsz, h.l⟩ (h.r _ hr) (fun v' r hc => (h.bn _ hk _ hr (.inl he) _ _ hc).1) ?_
      intro m r hm
      exact LNode.transform_fine (op := ops.left) (l := l) hsz.2 (fun a ha => h.l a (hsub a ha))
        (fun a ha => h.ln a (hsub a ha)) (by rw [hm]; rfl)
    · exact LNode.plainThenJoint_fine ⟨hsz, h.l⟩ (h.r _ hr) (fun v' r hc => h.ln _ hk _ _ hc)
        (ih hsz.2 (h.sub hsub fun _ h => h))

omit [BEq K] in
theorem LNode.jointThenJoint_fine {this : LNode K V} {result : MapJointTransformResult V R} {that : Option (K × V)}
    {next res : JRes (LNext K V) R} (h1 : NFine O (.L this)) (h2 : ∀ t, that = some t → O t)
    (h3 : ∀ v r, result = .transformed v r → O (this.key, v)) (h4 : LFine O next)
    (h : LNode.jointThenJoint reduce this result that next = .ok res) : LFine O res := by
  intro m r hm
  subst hm
  cases that with
  | none =>
    cases result <;> cases next <;> cases h <;> first
      | exact .S h1.head
      | exact .S (h3 _ _ rfl)
      | exact .new h1.head (h4 _ _ rfl)
      | exact .new (h3 _ _ rfl) h1.next
      | exact .new (h3 _ _ rfl) (h4 _ _ rfl)
      | exact h1.next
      | exact h4 _ _ rfl
  | some t =>
    have h2 : O (t.1, t.2) := h2 t rfl
    cases result <;> cases next <;> cases h <;> first
      | exact .S h1.head
      | exact .S h2
      | exact .S (h3 _ _ rfl)
      | exact .new h1.head (.S h2)
      | exact .new h2 h1.next
      | exact .new h2 (h4 _ _ rfl)
      | exact .new h1.head (h4 _ _ rfl)
      | exact .new (h3 _ _ rfl) h1.next
      | exact .new (h3 _ _ rfl) (h4 _ _ rfl)
      | exact h1.next
      | exact h4 _ _ rfl

theorem SNode.twtLast_fine {s : SNode K V} {bs : List (K × V)} (h : ops.Closed s.visit bs O) :
    LFine O (s.twtLast reduce ops bs).1 ∧ (∀ t, (s.twtLast reduce ops bs).2.1 = some t → O t) ∧
      ∀ b ∈ (s.twtLast reduce ops bs).2.2, b ∈ bs := by
  unfold SNode.twtLast
  cases ht : takeMatch (fun e => s.key == e.1) bs with
  | none =>
    refine ⟨?_, by simp, fun _ h => h⟩
    intro m r hm
    refine SNode.transform_fine (op := ops.left) (s := s) h.l h.ln ?_
    revert hm
    cases (s.transform ops.left) <;> simp [TRes.map, TRes.jointL, TRes.get]
    intro h _; exact h
  | some p =>
    obtain ⟨b, rest⟩ := p
    have hb := takeMatch_some ht
    have hmem : b ∈ bs := hb.2.mem_iff.1 (List.mem_cons_self ..)
    refine ⟨?_, ?_, fun b' h' => hb.2.mem_iff.1 (List.mem_cons_of_mem _ h')⟩
    · refine SNode.twtImpl_fine (h.sub (fun _ h => h) ?_)
      intro b' hb'; simp [SNode.visit] at hb'; subst hb'; exact hmem
    · intro t ht; cases ht; exact h.r _ hmem

theorem TwtOps.step_fine {k : K} {v : V} {bs : List (K × V)} (h : ops.Closed [(k, v)] bs O) :
    (∀ v' r, (ops.step k v bs).1 = .transformed v' r → O (k, v')) ∧ ∀ b ∈ (ops.step k v bs).2, b ∈ bs := by
  unfold TwtOps.step
  cases ht : takeMatch (fun e => k == e.1) bs with
  | none =>
    refine ⟨fun v' r hc => ?_, fun _ h => h⟩
    refine h.ln (k, v) (by simp) v' r ?_
    revert hc
    show (ops.left.call k v).jointL = _ → _
    cases ops.left.call k v <;> simp [MapTransformResult.jointL]
  | some p =>
    obtain ⟨b, rest⟩ := p
    have hb := takeMatch_some ht
    have hmem : b ∈ bs := hb.2.mem_iff.1 (List.mem_cons_self ..)
    exact ⟨fun v' r hc => (h.bn (k, v) (by simp) b hmem (.inl hb.1) v' r hc).1,
      fun b' h' => hb.2.mem_iff.1 (List.mem_cons_of_mem _ h')⟩

theorem LNode.twtLImpl_fine {this : LNode K V} {bs : List (K × V)} (hsz : this.SizeOk)
    (h : ops.Closed this.visit bs O) {res : JRes (LNext K V) R × List (K × V)}
    (hr : this.twtLImpl reduce ops bs = .ok res) : LFine O res.1 ∧ ∀ b ∈ res.2, b ∈ bs := by
  induction this generalizing res with
  | nextS k v s z =>
    have hk : ∀ a ∈ [(k, v)], a ∈ (LNode.nextS k v s z).visit := by
      intro a ha; simp at ha; subst ha; simp [LNode.visit]
    have hsub : ∀ a ∈ s.visit, a ∈ (LNode.nextS k v s z).visit := fun a ha => List.mem_cons_of_mem _ ha
    rw [LNode.twtLImpl] at hr
    obtain ⟨n1, n2, n3⟩ := SNode.twtLast_fine (reduce := reduce) (h.sub (as' := s.visit) hsub fun _ h => h)
    obtain ⟨q1, q2⟩ := TwtOps.step_fine (h.sub hk n3)
    obtain ⟨res', e1, e2⟩ := Res.bind_eq_ok.1 hr
    simp only [Res.ok.injEq] at e2
    subst e2
    exact ⟨LNode.jointThenJoint_fine (this := .nextS k v s z) ⟨hsz, h.l⟩ n2 q1 n1 e1, fun b hb => n3 b (q2 b hb)⟩
  | nextL k v l z ih =>
    have hk : ∀ a ∈ [(k, v)], a ∈ (LNode.nextL k v l z).visit := by
      intro a ha; simp at ha; subst ha; simp [LNode.visit]
    have hsub : ∀ a ∈ l.visit, a ∈ (LNode.nextL k v l z).visit := fun a ha => List.mem_cons_of_mem _ ha
    rw [LNode.twtLImpl] at hr
    obtain ⟨next, e0, hr⟩ := Res.bind_eq_ok.1 hr
    obtain ⟨n1, n3⟩ := ih hsz.2 (h.sub hsub fun _ h => h) e0
    obtain ⟨q1, q2⟩ := TwtOps.step_fine (h.sub hk n3)
    obtain ⟨res', e1, e2⟩ := Res.bind_eq_ok.1 hr
    simp only [Res.ok.injEq] at e2
    subst e2
    exact ⟨LNode.jointThenJoint_fine (this := .nextL k v l z) ⟨hsz, h.l⟩ (by simp) q1 n1 e1, fun b hb => n3 b (q2 b hb)⟩

omit [BEq K] in
theorem TwtOps.leftover_fine {this : LNode K V} {next res : JRes (LNext K V) R} {b : K × V} (h1 : NFine O (.L this))
    (h2 : O b) (h3 : ∀ v r, ops.right.call b.1 b.2 = .transformed v r → O (b.1, v)) (h4 : LFine O next)
    (h : ops.leftover reduce this next b = .ok res) : LFine O res := by
  intro m r hm
  subst hm
  have h2 : O (b.1, b.2) := h2
  unfold TwtOps.leftover at h
  cases hc : ops.right.call b.1 b.2 <;> cases next <;> rw [hc] at h <;> cases h <;> first
    | exact .new h2 h1
    | exact .new h2 (h4 _ _ rfl)
    | exact .S h2
    | exact .new (h3 _ _ hc) h1
    | exact .new (h3 _ _ hc) (h4 _ _ rfl)
    | exact .S (h3 _ _ hc)
    | exact h4 _ _ rfl

omit [BEq K] in
theorem TwtOps.leftovers_fine {this : LNode K V} {next res : JRes (LNext K V) R} {bs : List (K × V)}
    (h1 : NFine O (.L this))
    (h2 : ∀ b ∈ bs, O b) (h3 : ∀ b ∈ bs, ∀ v r, ops.right.call b.1 b.2 = .transformed v r → O (b.1, v))
    (h4 : LFine O next) (h : ops.leftovers reduce this bs next = .ok res) : LFine O res := by
  induction bs generalizing next with
  | nil => simp only [TwtOps.leftovers, Res.ok.injEq] at h; subst h; exact h4
  | cons b bs ih =>
    rw [TwtOps.leftovers] at h
    obtain ⟨next', e1, h⟩ := Res.bind_eq_ok.1 h
    exact ih (fun b' h' => h2 b' (List.mem_cons_of_mem _ h')) (fun b' h' => h3 b' (List.mem_cons_of_mem _ h'))
      (TwtOps.leftover_fine h1 (h2 b (List.mem_cons_self ..)) (h3 b (List.mem_cons_self ..)) h4 e1) h

/-! ### Any depth -/

/-- The node of a result, if it is a new one, is well-shaped, not empty, and all its entries have `O`. -/
def JFine (O : K × V → Prop) (d : Nat) (res : JRes (Node c.n K V) R) : Prop :=
  ∀ m r, res = .node m r → m.Shape d ∧ m.visit ≠ [] ∧ ∀ a ∈ m.visit, O a

omit [BEq K] in
theorem NFine.node {m : LNext K V} (h : NFine O m) (d : Nat) :
    (m.toNode : Node c.n K V).Shape d ∧ (m.toNode : Node c.n K V).visit ≠ [] ∧
      ∀ a ∈ (m.toNode : Node c.n K V).visit, O a := by
  rw [LNext.toNode_visit]
  exact ⟨LNext.shape h.1 d, m.visit_ne_nil, h.2⟩

omit [BEq K] in
theorem LFine.node {res : JRes (LNext K V) R} (h : LFine O res) (d : Nat) :
    JFine (c := c) O d (res.map LNext.toNode) := by
  intro m r hm
  cases res <;> cases hm
  exact (h _ _ rfl).node d

omit [BEq K] in
theorem JFine.flip {d : Nat} {res : JRes (Node c.n K V) R} (h : JFine O d res) : JFine O d res.flip := by
  intro m r hm
  cases res <;> cases hm
  exact h _ _ rfl

omit [BEq K] in
theorem JRes.flipR_inv {a : Res (JRes (Node c.n K V) R)} {res : JRes (Node c.n K V) R} (h : JRes.flipR a = .ok res) :
    ∃ r, a = .ok r ∧ res = r.flip := by
  obtain ⟨r, h1, h2⟩ := Res.bind_eq_ok.1 h
  simp only [Res.ok.injEq] at h2
  exact ⟨r, h1, h2.symm⟩

omit [BEq K] in
theorem liftN_fine {d : Nat} {l r : LNext K V} {hl hr : BitVec c.w} (hd : HasFlags c d) (gl : NFine O l) (gr : NFine O r)
    {m : Node c.n K V} (h : liftN l (flagDeep hl d) r (flagDeep hr d) = .ok m) :
    m.Shape d ∧ m.visit ≠ [] ∧ ∀ a ∈ m.visit, O a := by
  rcases liftC_shape (c := c) hl hr l.toNode r.toNode (fun d => LNext.shape gl.1 d)
    (fun d => LNext.shape gr.1 d) (by rw [LNext.toNode_visit]; exact l.visit_ne_nil)
    (by rw [LNext.toNode_visit]; exact r.visit_ne_nil) d hd with ⟨b, v, z, h1, h2, h3⟩ | h1 | ⟨h1, _⟩
  · simp only [liftN, h1, Res.ok.injEq] at h; subst h
    rw [LNext.toNode_visit, LNext.toNode_visit] at h3
    refine ⟨h2, ?_, ?_⟩
    · intro h0
      rw [h0] at h3
      have := h3.length_eq
      have := List.length_pos_iff.2 l.visit_ne_nil
      simp at *
      omega
    · intro a ha
      rcases List.mem_append.1 (h3.mem_iff.1 ha) with h | h
      · exact gl.2 a h
      · exact gr.2 a h
  · simp [liftN, h1] at h
  · simp [liftN, h1] at h

omit [BEq K] in
theorem twtApart_fine {this right : LNext K V} {h1 h2 : BitVec c.w} {d : Nat} {left r : TRes (LNext K V) R}
    {res : JRes (Node c.n K V) R} (gl : ∀ m, left.get this = some m → NFine O m)
    (gr : ∀ m, r.get right = some m → NFine O m)
    (h : twtApart reduce this right h1 h2 d left r = .ok res) : JFine O d res := by
  unfold twtApart at h
  obtain ⟨f1, e1, h⟩ := Res.bind_eq_ok.1 h
  obtain ⟨f2, e2, h⟩ := Res.bind_eq_ok.1 h
  obtain ⟨hd, rfl⟩ := flagOf_ok e1
  obtain ⟨_, rfl⟩ := flagOf_ok e2
  intro m q hm
  subst hm
  cases left <;> cases r <;> simp only [Res.ok.injEq] at h
  all_goals first
    | (cases h; done)
    | (injection h with h h'; subst h; first | exact (gl _ rfl).node d | exact (gr _ rfl).node d)
    | (obtain ⟨m', hm, h⟩ := Res.bind_eq_ok.1 h
       simp only [Res.ok.injEq] at h
       injection h with h h'
       subst h
       exact liftN_fine hd (gl _ rfl) (gr _ rfl) hm)

theorem SNode.twt_fine {this right : SNode K V} {d : Nat} (hc : ops.Closed this.visit right.visit O)
    {res : JRes (Node c.n K V) R} (h : this.twt reduce hash ops right d = .ok res) : JFine O d res := by
  unfold SNode.twt at h
  split at h
  · simp only [Res.ok.injEq] at h; subst h; exact (SNode.twtImpl_fine hc).node d
  · exact twtApart_fine (fun m hm => SNode.transform_fine hc.l hc.ln hm) (fun m hm => SNode.transform_fine hc.r hc.rn hm) h

theorem LNode.twtS_fine {this : LNode K V} {right : SNode K V} {d : Nat} (hsz : this.SizeOk)
    (hc : ops.Closed this.visit right.visit O)
    {res : JRes (Node c.n K V) R} (h : this.twtS reduce hash ops right d = .ok res) : JFine O d res := by
  unfold LNode.twtS at h
  split at h
  · simp only [Res.ok.injEq] at h; subst h; exact (LNode.twtSImpl_fine hsz hc).node d
  · exact twtApart_fine (fun m hm => LNode.transform_fine hsz hc.l hc.ln hm)
      (fun m hm => SNode.transform_fine hc.r hc.rn hm) h

theorem LNode.twtL_fine {this right : LNode K V} {d : Nat} (hsz : this.SizeOk) (hszr : right.SizeOk)
    (hc : ops.Closed this.visit right.visit O)
    {res : JRes (Node c.n K V) R} (h : this.twtL reduce hash ops right d = .ok res) : JFine O d res := by
  unfold LNode.twtL at h
  split at h
  · obtain ⟨bs, hb, h⟩ := Res.bind_eq_ok.1 h
    have := LNode.rights_eq hb
    subst this
    obtain ⟨next, h1, h⟩ := Res.bind_eq_ok.1 h
    obtain ⟨n1, n2⟩ := LNode.twtLImpl_fine hsz hc h1
    obtain ⟨next', h2, h⟩ := Res.bind_eq_ok.1 h
    simp only [Res.ok.injEq] at h; subst h
    exact (TwtOps.leftovers_fine ⟨hsz, hc.l⟩ (fun b hb => hc.r b (n2 b hb)) (fun b hb => hc.rn b (n2 b hb)) n1 h2).node d
  · exact twtApart_fine (fun m hm => LNode.transform_fine hsz hc.l hc.ln hm)
      (fun m hm => LNode.transform_fine hszr hc.r hc.rn hm) h

/-! ### Loops -/

omit [BEq K] in
theorem Node.transform_fine {op : MapTransform R (K → V → MapTransformResult V R)} {m : Node c.n K V} {d : Nat}
    (wf : m.Shape d) (ne : m.visit ≠ []) (h1 : ∀ a ∈ m.visit, O a)
    (h2 : ∀ a ∈ m.visit, ∀ v r, op.call a.1 a.2 = .transformed v r → O (a.1, v)) {par : Par}
    {res : TRes (Node c.n K V) R} (h : m.transform reduce e op par = .ok res) :
    ∀ m' r, res = .node m' r → m'.Shape d ∧ m'.visit ≠ [] ∧ ∀ a ∈ m'.visit, O a := by
  obtain ⟨res', q, g⟩ := Node.transform_shape op reduce e par wf
  rw [h] at q
  injection q with q
  subst q
  intro m' r hm
  subst hm
  refine ⟨g.wf m' rfl, g.ne ne m' rfl, fun a ha => ?_⟩
  have := g.entries
  have ha : a ∈ vis (some m') := ha
  rw [show vis (some m') = _ from this] at ha
  exact outs_fine h1 h2 a ha

/-- The outcome of an iteration. -/
def IFine (O : K × V → Prop) (d : Nat) (it : Item c.n K V R) : Prop :=
  ∀ m, it.node? = some m → m.Shape (d + 1) ∧ m.visit ≠ [] ∧ ∀ a ∈ m.visit, O a

omit [BEq K] in
theorem JRes.itemOpt_fine {d : Nat} {left? right? : Option (Node c.n K V)} {res : JRes (Node c.n K V) R}
    {it : Item c.n K V R}
    (hl : ∀ m, left? = some m → m.Shape (d + 1) ∧ m.visit ≠ [] ∧ ∀ a ∈ m.visit, O a)
    (hr : ∀ m, right? = some m → m.Shape (d + 1) ∧ m.visit ≠ [] ∧ ∀ a ∈ m.visit, O a)
    (hres : JFine O (d + 1) res) (h : res.itemOpt left? right? = .ok it) : IFine O d it := by
  intro m hm
  cases res with
  | unchangedLR r =>
    cases left? <;> cases h
    cases hm; exact hl _ rfl
  | unchangedL r =>
    cases left? <;> cases h
    cases hm; exact hl _ rfl
  | unchangedR r =>
    cases right? <;> cases h
    cases hm; exact hr _ rfl
  | node m' r => cases h; cases hm; exact hres _ _ rfl
  | removed r => cases h; cases hm

omit [BEq K] in
theorem JRes.finish_fine {d : Nat} (hd : HasFlags c d) {it : Nat → Item c.n K V R} {acc : Acc c.n K V R}
    (G : Acc.Gathered reduce e it acc) (hI : ∀ i, i < c.n → IFine O d (it i)) {res : JRes (Node c.n K V) R}
    (h : JRes.finish acc = .ok res) : JFine O d res := by
  intro m r hm
  subst hm
  unfold JRes.finish at h
  split at h
  · split at h <;> cases h
  · split at h
    · cases h
    · obtain ⟨o, h1, h⟩ := Res.bind_eq_ok.1 h
      obtain ⟨o', q1, q2, q3⟩ := Acc.pack_shape hd G (fun i m hi hm => ⟨(hI i hi m hm).1, (hI i hi m hm).2.1⟩)
      rw [h1] at q1
      injection q1 with q1
      subst q1
      cases o <;> cases h
      refine ⟨(q3 m rfl).1, (q3 m rfl).2, fun a ha => ?_⟩
      have ha : a ∈ vis (some m) := ha
      rw [q2] at ha
      obtain ⟨i, hi, ha⟩ := List.mem_flatMap.1 ha
      have hi := List.mem_range.1 hi
      cases hn : (it i).node? with
      | none => rw [hn] at ha; cases ha
      | some m' => rw [hn] at ha; exact (hI i hi m' hn).2.2 a ha

omit [BEq K] in
theorem Node.transformL_inv {op : MapTransform R (K → V → MapTransformResult V R)} {m : Node c.n K V} {d : Nat}
    (wf : m.Shape d) (ne : m.visit ≠ []) (h1 : ∀ a ∈ m.visit, O a)
    (h2 : ∀ a ∈ m.visit, ∀ v r, op.call a.1 a.2 = .transformed v r → O (a.1, v)) {par : Par}
    {res : JRes (Node c.n K V) R} (h : Node.transformL reduce e par op m = .ok res) : JFine O d res := by
  obtain ⟨r, e1, e2⟩ := Res.bind_eq_ok.1 h
  simp only [Res.ok.injEq] at e2; subst e2
  intro m' q hm
  cases r <;> cases hm
  exact Node.transform_fine wf ne h1 h2 e1 _ _ rfl

omit [BEq K] in
theorem Node.transformR_inv {op : MapTransform R (K → V → MapTransformResult V R)} {m : Node c.n K V} {d : Nat}
    (wf : m.Shape d) (ne : m.visit ≠ []) (h1 : ∀ a ∈ m.visit, O a)
    (h2 : ∀ a ∈ m.visit, ∀ v r, op.call a.1 a.2 = .transformed v r → O (a.1, v)) {par : Par}
    {res : JRes (Node c.n K V) R} (h : Node.transformR reduce e par op m = .ok res) : JFine O d res := by
  obtain ⟨r, e1, e2⟩ := Res.bind_eq_ok.1 h
  simp only [Res.ok.injEq] at e2; subst e2
  intro m' q hm
  cases r <;> cases hm
  exact Node.transform_fine wf ne h1 h2 e1 _ _ rfl

variable {par : Par}

theorem twtFlat_fine {right : LNext K V} {bs : List (K × V)} (hbs : right.visit = bs)
    (wr : right.SizeOk) {hv : BitVec c.w}
    {fS : SNode K V → Nat → Res (JRes (Node c.n K V) R)}
    {fL : LNode K V → Nat → Res (JRes (Node c.n K V) R)} {alone : JRes (Node c.n K V) R}
    (hS : ∀ s d res, ops.Closed s.visit bs O → fS s d = .ok res → JFine O d res)
    (hL : ∀ l d res, l.SizeOk → ops.Closed l.visit bs O → fL l d = .ok res → JFine O d res)
    (hA : ∀ d, JFine O d alone)
    {d : Nat} {m : Node c.n K V} (wf : m.Shape d) (hc : ops.Closed m.visit bs O) {res : JRes (Node c.n K V) R}
    (h : Node.fold fS fL (fun bits left extra depth => do
        let acc ← flatLoop reduce e hv depth ⟨bits, left, extra⟩
          (Node.transformL reduce e par ops.left) alone (fun left? res => res.itemOpt left? (some right.toNode))
        JRes.finish acc) m d = .ok res) : JFine O d res := by
  induction wf generalizing res with
  | S d s => exact hS s d res hc h
  | L d l hl => exact hL l d res hl hc h
  | C d bits values extra hd ok sz ne sub ih =>
    rw [Node.fold, Node.foldAll_eq] at h
    obtain ⟨acc, h1, h2⟩ := Res.bind_eq_ok.1 h
    have hmem : ∀ {i m}, (Bia.mk bits values extra).slot i = some m → ∀ a ∈ m.visit, a ∈ (Node.C bits values extra).visit :=
      fun hm a ha => (slotVisit_sublist hm).subset ha
    have hright : ∀ m, some (right.toNode : Node c.n K V) = some m →
        m.Shape (d + 1) ∧ m.visit ≠ [] ∧ ∀ a ∈ m.visit, O a := by
      intro m hm; cases hm
      exact NFine.node ⟨wr, by rw [hbs]; exact hc.r⟩ (d + 1)
    have hleft : ∀ {i m}, (Bia.mk bits values extra).slot i = some m → ∀ m', some m = some m' →
        m'.Shape (d + 1) ∧ m'.visit ≠ [] ∧ ∀ a ∈ m'.visit, O a := by
      intro i m hm m' he; cases he
      exact ⟨sub _ _ hm, ne _ _ hm, fun a ha => hc.l a (hmem hm a ha)⟩
    obtain ⟨it, G, hI⟩ := flatLoop_inv (P := fun _ it => IFine O d it) ok hd h1
      (by
        intro m hm res it q1 q2
        exact JRes.itemOpt_fine (hleft hm) hright (ih _ m hm (hc.sub (hmem hm) fun _ h => h) q1) q2)
      (by
        intro i m _ hm res it q1 q2
        exact JRes.itemOpt_fine (hleft hm) hright (Node.transformL_inv (sub _ _ hm) (ne _ _ hm)
          (fun a ha => hc.l a (hmem hm a ha)) (fun a ha => hc.ln a (hmem hm a ha)) q1) q2)
      (by
        intro _ it q2
        exact JRes.itemOpt_fine (by simp) hright (hA (d + 1)) q2)
      (by intro i _ _ m hm; cases hm)
    exact JRes.finish_fine hd G hI h2

theorem Node.twtS_fine {right : SNode K V} {d : Nat} {m : Node c.n K V} (wf : m.Shape d)
    (hc : ops.Closed m.visit right.visit O)
    {res : JRes (Node c.n K V) R} (h : m.twtS reduce e hash ops par right d = .ok res) : JFine O d res := by
  refine twtFlat_fine (right := .S right) rfl trivial (hv := hash right.key)
    (alone := ((right.transform ops.right).map Node.S).jointR)
    (fun s d res hc h => SNode.twt_fine hc h) (fun l d res hl hc h => LNode.twtS_fine hl hc h) ?_ wf hc h
  intro d m' r hm
  have := Node.transform_fine (c := c) (reduce := reduce) (e := e) (par := .sequential) (op := ops.right) (Node.Shape.S d right)
    (by simp [Node.visit, SNode.visit]) hc.r hc.rn (res := (right.transform ops.right).map Node.S) rfl
  cases hr : (right.transform ops.right).map (Node.S (n := c.n)) <;> rw [hr] at hm <;> cases hm
  exact this _ _ hr

theorem Node.twtL_fine {right : LNode K V} (wr : right.SizeOk) {d : Nat} {m : Node c.n K V} (wf : m.Shape d)
    (hc : ops.Closed m.visit right.visit O)
    {res : JRes (Node c.n K V) R} (h : m.twtL reduce e hash ops par right d = .ok res) : JFine O d res := by
  refine twtFlat_fine (right := .L right) rfl wr (hv := hash right.key)
    (alone := ((right.transform reduce ops.right).map LNext.toNode).jointR)
    (fun s d res hc h => ?_) (fun l d res hl hc h => LNode.twtL_fine hl wr hc h) ?_ wf hc h
  · obtain ⟨r, h', rfl⟩ := JRes.flipR_inv h
    exact (LNode.twtS_fine wr hc.flip h').flip
  · intro d m' r hm
    have := Node.transform_fine (c := c) (reduce := reduce) (e := e) (par := .sequential) (op := ops.right)
      (Node.Shape.L d right wr)
      right.visit_ne_nil hc.r hc.rn (res := (right.transform reduce ops.right).map LNext.toNode) rfl
    cases hr : (right.transform reduce ops.right).map (LNext.toNode (n := c.n)) <;> rw [hr] at hm <;> cases hm
    exact this _ _ hr

theorem Node.twt_fine {d : Nat} {m : Node c.n K V} (wf : m.Shape d) {r : Node c.n K V} (wr : r.Shape d)
    (hc : ops.Closed m.visit r.visit O)
    {res : JRes (Node c.n K V) R} (h : m.twt reduce e hash ops par r d = .ok res) : JFine O d res := by
  induction wf generalizing r res with
  | S d s =>
    cases wr with
    | S _ r => exact SNode.twt_fine hc h
    | L _ r wr =>
      obtain ⟨q, h', rfl⟩ := JRes.flipR_inv h
      exact (LNode.twtS_fine wr hc.flip h').flip
    | C _ b v z hd ok sz ne sub =>
      obtain ⟨q, h', rfl⟩ := JRes.flipR_inv h
      exact (Node.twtS_fine (.C d b v z hd ok sz ne sub) hc.flip h').flip
  | L d l wl =>
    cases wr with
    | S _ r => exact LNode.twtS_fine wl hc h
    | L _ r wr => exact LNode.twtL_fine wl wr hc h
    | C _ b v z hd ok sz ne sub =>
      obtain ⟨q, h', rfl⟩ := JRes.flipR_inv h
      exact (Node.twtL_fine wl (.C d b v z hd ok sz ne sub) hc.flip h').flip
  | C d bits values extra hd ok sz ne sub ih =>
    have wf : (Node.C bits values extra).Shape d := .C d bits values extra hd ok sz ne sub
    rw [Node.twt, Node.fold] at h
    cases wr with
    | S _ r =>
      simp only [twtC, Node.foldAll_fst] at h
      exact Node.twtS_fine wf hc h
    | L _ r wr =>
      simp only [twtC, Node.foldAll_fst] at h
      exact Node.twtL_fine wr wf hc h
    | C _ b v z hd' ok' sz' ne' sub' =>
      simp only [twtC, twtCC, Node.foldAll_eq] at h
      split at h
      · next res' hs =>
        simp only [Res.ok.injEq] at h; subst h
        intro m q hm
        subst hm
        unfold TwtOps.shortcut at hs
        split at hs <;> cases hs
      · obtain ⟨acc, h1, h2⟩ := Res.bind_eq_ok.1 h
        have hmem : ∀ {i m}, (Bia.mk bits values extra).slot i = some m →
            ∀ a ∈ m.visit, a ∈ (Node.C bits values extra).visit := fun hm a ha => (slotVisit_sublist hm).subset ha
        have hmem' : ∀ {i m}, (Bia.mk b v z).slot i = some m →
            ∀ a ∈ m.visit, a ∈ (Node.C b v z).visit := fun hm a ha => (slotVisit_sublist hm).subset ha
        have hleft : ∀ {i m}, (Bia.mk bits values extra).slot i = some m → ∀ m', some m = some m' →
            m'.Shape (d + 1) ∧ m'.visit ≠ [] ∧ ∀ a ∈ m'.visit, O a := by
          intro i m hm m' he; cases he
          exact ⟨sub _ _ hm, ne _ _ hm, fun a ha => hc.l a (hmem hm a ha)⟩
        have hright : ∀ {i m}, (Bia.mk b v z).slot i = some m → ∀ m', some m = some m' →
            m'.Shape (d + 1) ∧ m'.visit ≠ [] ∧ ∀ a ∈ m'.visit, O a := by
          intro i m hm m' he; cases he
          exact ⟨sub' _ _ hm, ne' _ _ hm, fun a ha => hc.r a (hmem' hm a ha)⟩
        obtain ⟨it, G, hI⟩ := bothLoop_inv (P := fun _ it => IFine O d it)
          (f := fun m r => m.twt reduce e hash ops par r (d + 1)) ok ok' h1
          (by
            intro i m r hm hr res it q1 q2
            exact JRes.itemOpt_fine (hleft hm) (hright hr) (ih _ m hm (sub' i r hr) (hc.sub (hmem hm) (hmem' hr)) q1) q2)
          (by
            intro i m hm _ res it q1 q2
            exact JRes.itemOpt_fine (hleft hm) (by simp) (Node.transformL_inv (sub _ _ hm) (ne _ _ hm)
              (fun a ha => hc.l a (hmem hm a ha)) (fun a ha => hc.ln a (hmem hm a ha)) q1) q2)
          (by
            intro i m _ hm res it q1 q2
            exact JRes.itemOpt_fine (by simp) (hright hm) (Node.transformR_inv (sub' _ _ hm) (ne' _ _ hm)
              (fun a ha => hc.r a (hmem' hm a ha)) (fun a ha => hc.rn a (hmem' hm a ha)) q1) q2)
          (by intro i _ _ m hm; cases hm)
        exact JRes.finish_fine hd G hI h2

theorem TwtOps.made_closed (ops : TwtOps K V R) (as bs : List (K × V)) : ops.Closed as bs (TwtMade ops as bs) where
  l a h := .left h
  r b h := .right h
  ln a h v r hc := .leftNew h (by rw [MapTransform.closure_eq]; exact hc)
  rn b h v r hc := .rightNew h (by rw [MapTransform.closure_eq]; exact hc)
  bn a ha b hb hs v r hc := by
    have hc : ops.both.closure a.1 a.2 b.1 b.2 = .transformed v r := by
      rw [MapJointTransform.closure_eq]; exact hc
    exact ⟨.bothNew ha hb hs (.inl rfl) hc, .bothNew ha hb hs (.inr rfl) hc⟩

theorem Trie.twt_made {t u t' : Trie c K V} {r : R}
    (ht : t.root.Shape 0) (hu : u.root.Shape 0) (h : t.twt reduce e hash ops par u = .ok (t', r)) :
    t'.root.Shape 0 ∧ ∀ a ∈ t'.visit, TwtMade ops t.visit u.visit a := by
  obtain ⟨res, h1, h2⟩ := Res.bind_eq_ok.1 h
  have g := Node.twt_fine ht hu (ops.made_closed t.visit u.visit) h1
  cases res with
  | unchangedLR r => cases h2; exact ⟨ht, fun a ha => .left ha⟩
  | unchangedL r => cases h2; exact ⟨ht, fun a ha => .left ha⟩
  | unchangedR r => cases h2; exact ⟨hu, fun a ha => .right ha⟩
  | node m r => cases h2; exact ⟨(g m _ rfl).1, (g m _ rfl).2.2⟩
  | removed r => cases h2; exact ⟨Trie.new_shape, fun a ha => by cases ha⟩

end HT
