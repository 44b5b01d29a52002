import Verif.StayTables
import Verif.SameList
/-! # Where the objects of the results on single nodes and collision lists come from -/
namespace HT

variable {K V L W S X R : Type} {n : Nat} {Q : Type} {A : Q → Type} {G : (q : Q) → A q → Prop}

/-- The operation does not change entries with keys in `T`; `keep` if it lets one stay. -/
def MapTransform.Good (G : (q : Q) → A q → Prop) (T : K → Prop) (keep : Prop)
    (op : MapTransform R (K → V → Prog Q A (MapTransformResult V R))) : Prop :=
  ∀ k v, T k → (op.callM k v).Gives G (MapTransformResult.Good keep)
/-- The operation makes no entry with a key in `T`. -/
def MapTransmute.Good (G : (q : Q) → A q → Prop) (T : S → Prop)
    (op : MapTransmute R (K → V → Prog Q A (MapTransmuteResult S X R))) : Prop :=
  ∀ k v, (op.callM k v).Gives G (MapTransmuteResult.Good T)

structure TwmOpsM.Good (G : (q : Q) → A q → Prop) (T : K → Prop) (keep : Prop) (ops : TwmOpsM Q A K V L W R) : Prop where
  both : ∀ k v l w, T k → (ops.both.call2M k v l w).Gives G (MapTransformResult.Good keep)
  left : ops.left.Good G T keep
  right : ops.right.Good G T
structure MwtOpsM.Good (G : (q : Q) → A q → Prop) (T : L → Prop) (keep : Prop) (ops : MwtOpsM Q A K V L W R) : Prop where
  both : ∀ k v l w, T l → (ops.both.call2M k v l w).Gives G (MapTransformResult.Good keep)
  left : ops.left.Good G T
  right : ops.right.Good G T keep
structure TwtOpsM.Good (G : (q : Q) → A q → Prop) (T : K → Prop) (left right : Prop) (ops : TwtOpsM Q A K V R) : Prop where
  both : ∀ k v l w, T k → T l → (ops.both.callM k v l w).Gives G (MapJointTransformResult.Good left right)
  both' : ∀ k v l w, T k → T l → (ops.both.flip.callM k v l w).Gives G (MapJointTransformResult.Good right left)
  left : ops.left.Good G T left
  right : ops.right.Good G T right

theorem TwmOpsM.Good.flip {T : K → Prop} {keep : Prop} {ops : TwmOpsM Q A K V L W R} (h : ops.Good G T keep) :
    ops.flip.Good G T keep := by
  refine ⟨fun l w k v ht => ?_, h.right, h.left⟩
  have := h.both k v l w ht
  obtain ⟨b, _, _⟩ := ops
  cases b <;> exact this
theorem MwtOpsM.Good.flip {T : L → Prop} {keep : Prop} {ops : MwtOpsM Q A K V L W R} (h : ops.Good G T keep) :
    ops.flip.Good G T keep := by
  refine ⟨fun l w k v ht => ?_, h.right, h.left⟩
  have := h.both k v l w ht
  obtain ⟨b, _, _⟩ := ops
  cases b <;> exact this

theorem MapJointTransformResult.Good.flip {left right : Prop} {r : MapJointTransformResult V R} (h : r.Good left right) :
    r.flip.Good right left := by
  cases r with
  | unchangedLR r => exact ⟨h.2, h.1⟩
  | unchangedL r => exact h
  | unchangedR r => exact h
  | transformed v r => exact h
  | removed r => trivial

/-! ### transform and transmute -/

section
variable {T : K → Prop} {U : ANode n K V → Prop}

theorem ASNode.transformE_gives {op : MapTransform R (K → V → Prog Q A (MapTransformResult V R))} {this : ASNode K V}
    {keep : Prop} (ho : T this.key → (op.callM this.key this.value).Gives G (MapTransformResult.Good keep))
    (hk : keep → (ANode.S this).Fine T U) :
    (this.transformE op).Gives G (TRes.Fine (fun s => (ANode.S s).Fine T U) ((ANode.S this).Fine T U)) := by
  by_cases ht : T this.key
  · exact Prog.Gives.bind (ho ht) fun r hr => Prog.Gives.al (this.answer_gives r (fun _ => hr) hk)
  · exact Prog.Gives.bind (Prog.Gives.trivial _) fun r _ =>
      Prog.Gives.al (this.answer_gives (keep := False) r (fun h => absurd h ht) False.elim)

theorem ASNode.transformE_loose (op : MapTransform R (K → V → Prog Q A (MapTransformResult V R))) {this : ASNode K V}
    (ht : ¬T this.key) :
    (this.transformE op).Gives G (TRes.Fine (fun s => (ANode.S s).Fine T U) ((ANode.S this).Fine T U)) :=
  ASNode.transformE_gives (keep := False) (fun h => absurd h ht) False.elim

theorem ALNode.transformE_loose (reduce : R → R → R) (op : MapTransform R (K → V → Prog Q A (MapTransformResult V R)))
    {this : ALNode K V} (hl : (ANode.L this : ANode n K V).Loose T) :
    (this.transformE reduce op).Gives G (TRes.Fine (ALNext.Fine T U) ((ANode.L this).Fine T U)) := by
  induction this with
  | nextS a k v s z =>
    cases op with
    | unchanged r => exact Prog.Gives.pure (hl.fine U)
    | removed r => exact Prog.Gives.pure trivial
    | generic F =>
      refine Prog.Gives.bind (ASNode.transformE_loose (U := U) _ hl.next.keyS) fun nx hn => ?_
      refine Prog.Gives.bind (Prog.Gives.trivial _) fun r _ => Prog.Gives.al ?_
      exact ALNode.transformResult_gives reduce hl.key r (hn.map (fun _ h => h) fun h => h)
  | nextL a k v l z ih =>
    cases op with
    | unchanged r => exact Prog.Gives.pure (hl.fine U)
    | removed r => exact Prog.Gives.pure trivial
    | generic F =>
      refine Prog.Gives.bind (ih hl.next) fun nx hn => ?_
      refine Prog.Gives.bind (Prog.Gives.trivial _) fun r _ => Prog.Gives.al ?_
      exact ALNode.transformResult_gives reduce hl.key r hn

/-- An answer that leaves the entry as it is. -/
def MapTransformResult.IsUnchanged (r : MapTransformResult V R) : Prop := ∃ r', r = .unchanged r'

/-- A list all of whose entries stay is kept. -/
theorem ALNode.transformE_kept (reduce : R → R → R) {op : MapTransform R (K → V → Prog Q A (MapTransformResult V R))}
    {this : ALNode K V} (ho : ∀ e ∈ this.erase.visit, (op.callM e.1 e.2).Gives G MapTransformResult.IsUnchanged) :
    (this.transformE reduce op).Gives G fun r => ∃ r', r = .unchanged r' := by
  induction this with
  | nextS a k v s z =>
    cases op with
    | unchanged r => exact Prog.Gives.pure ⟨r, rfl⟩
    | removed r =>
      obtain ⟨r', h⟩ := ho (k, v) (List.mem_cons_self ..) 0
      cases h
    | generic F =>
      refine Prog.Gives.bind (P := fun r => ∃ r', r = .unchanged r') ?_ fun nx hn => ?_
      · refine Prog.Gives.bind (ho (s.key, s.value) (by simp [ALNode.erase, LNode.visit, ASNode.erase, SNode.visit])) fun r hr => ?_
        obtain ⟨r', rfl⟩ := hr
        exact Prog.Gives.pure ⟨r', rfl⟩
      · obtain ⟨r1, rfl⟩ := hn
        refine Prog.Gives.bind (ho (k, v) (List.mem_cons_self ..)) fun r hr => ?_
        obtain ⟨r', rfl⟩ := hr
        exact Prog.Gives.pure ⟨_, rfl⟩
  | nextL a k v l z ih =>
    cases op with
    | unchanged r => exact Prog.Gives.pure ⟨r, rfl⟩
    | removed r =>
      obtain ⟨r', h⟩ := ho (k, v) (List.mem_cons_self ..) 0
      cases h
    | generic F =>
      refine Prog.Gives.bind (ih fun e he => ho e (List.mem_cons_of_mem _ he)) fun nx hn => ?_
      obtain ⟨r1, rfl⟩ := hn
      refine Prog.Gives.bind (ho (k, v) (List.mem_cons_self ..)) fun r hr => ?_
      obtain ⟨r', rfl⟩ := hr
      exact Prog.Gives.pure ⟨_, rfl⟩

end

section
variable {T : S → Prop} {U : ANode n S X → Prop}

theorem ASNode.transmuteE_gives {op : MapTransmute R (K → V → Prog Q A (MapTransmuteResult S X R))} (ho : op.Good G T)
    (this : ASNode K V) : (this.transmuteE op).Gives G (XRes.Fine fun s => (ANode.S s).Fine T U) :=
  Prog.Gives.bind (ho _ _) fun _ hr => Prog.Gives.al (ASNode.answerX_gives hr)

theorem ALNode.transmuteE_gives (reduce : R → R → R) {op : MapTransmute R (K → V → Prog Q A (MapTransmuteResult S X R))}
    (ho : op.Good G T) (this : ALNode K V) : (this.transmuteE reduce op).Gives G (XRes.Fine (ALNext.Fine T U)) := by
  induction this with
  | nextS a k v s z =>
    cases op with
    | removed r => exact Prog.Gives.pure trivial
    | generic F =>
      refine Prog.Gives.bind (s.transmuteE_gives (U := U) ho) fun nx hn => Prog.Gives.bind (ho _ _) fun r hr => Prog.Gives.al ?_
      exact ALNode.transmuteResult_gives reduce hr (hn.map fun _ h => h)
  | nextL a k v l z ih =>
    cases op with
    | removed r => exact Prog.Gives.pure trivial
    | generic F =>
      refine Prog.Gives.bind ih fun nx hn => Prog.Gives.bind (ho _ _) fun r hr => Prog.Gives.al ?_
      exact ALNode.transmuteResult_gives reduce hr hn

end

variable {c : Cfg} (x : Cross c K L) (reduce : R → R → R)

/-! ### transform_with_transmuted -/

section
variable {T : K → Prop} {keep : Prop} {U : ANode c.n K V → Prop} {ops : TwmOpsM Q A K V L W R} (ho : ops.Good G T keep)
include ho

theorem ASNode.twmImpl_gives {this : ASNode K V} (hk : keep → (ANode.S this).Fine T U) (rk : L) (rv : W)
    (hm : T this.key → x.eq this.key rk = true) :
    (this.twmImpl x reduce ops rk rv).Gives G (TRes.Fine (ALNext.Fine T U) ((ANode.S this).Fine T U)) := by
  unfold ASNode.twmImpl
  refine Prog.Gives.ite (fun he => ?_) (fun he => ?_)
  · by_cases ht : T this.key
    · refine Prog.Gives.bind (ho.both _ _ _ _ ht) fun r hr => ?_
      exact Prog.Gives.map (Prog.Gives.al (this.answer_gives r (fun _ => hr) hk)) fun _ h => h.map (fun _ h => h) fun h => h
    · refine Prog.Gives.bind (Prog.Gives.trivial _) fun r _ => ?_
      exact Prog.Gives.map (Prog.Gives.al (this.answer_gives (keep := False) r (fun h => absurd h ht) False.elim))
        fun _ h => h.map (fun _ h => h) fun h => h
  · refine Prog.Gives.bind (Prog.Gives.trivial _) fun r _ => Prog.Gives.bind (ho.right _ _) fun q hq => ?_
    exact Prog.Gives.al (ASNode.twmTable_gives reduce (fun ht => he (hm ht)) r hq)

theorem ASNode.twm_gives {this : ASNode K V} (hk : keep → (ANode.S this).Fine T U) (right : ASNode L W) (depth : Nat)
    (hm : T this.key → x.hash this.key = x.hash' right.key → x.eq this.key right.key = true) :
    (this.twm x reduce ops right depth).Gives G (TRes.Fine (ANode.Fine T U) ((ANode.S this).Fine T U)) := by
  unfold ASNode.twm
  refine Prog.Gives.ite (fun he => ?_) (fun he => ?_)
  · exact Prog.Gives.map (this.twmImpl_gives x reduce ho hk _ _ fun ht => hm ht he) fun _ h => h.map (fun _ h => h) fun h => h
  · refine Prog.Gives.bind (this.transformE_gives (fun ht => ho.left _ _ ht) hk) fun l hl => ?_
    refine Prog.Gives.bind (right.transmuteE_gives (U := U) ho.right) fun r hr => Prog.Gives.al ?_
    exact atwmApart_gives reduce _ _ _ (hl.map (fun _ h => h) fun h => h) (hr.map fun _ h => h)

theorem ALNode.twmSImpl_gives {this : ALNode K V} (hl : (ANode.L this : ANode c.n K V).Loose T) (right : ASNode L W) :
    (this.twmSImpl x reduce ops right).Gives G (TRes.Fine (ALNext.Fine T U) ((ANode.L this).Fine T U)) := by
  induction this with
  | nextS a k v s z =>
    unfold ALNode.twmSImpl
    refine Prog.Gives.ite (fun he => ?_) (fun he => ?_)
    · refine Prog.Gives.bind (ASNode.transformE_loose (U := U) _ hl.next.keyS) fun nx hn => ?_
      refine Prog.Gives.bind (Prog.Gives.trivial _) fun r _ => Prog.Gives.al ?_
      exact ALNode.transformResult_gives reduce hl.key r (hn.map (fun _ h => h) fun h => h)
    · have hs := hl.next.keyS
      refine Prog.Gives.bind (P := TRes.Fine (ALNext.Fine T U) ((ANode.S s).Fine T U)) ?_ fun nx hn => ?_
      · unfold ASNode.twmImpl
        refine Prog.Gives.ite (fun he => ?_) (fun he => ?_)
        · refine Prog.Gives.bind (Prog.Gives.trivial _) fun r _ => ?_
          exact Prog.Gives.map (Prog.Gives.al (s.answer_gives (keep := False) r (fun h => absurd h hs) False.elim))
            fun _ h => h.map (fun _ h => h) fun h => h
        · refine Prog.Gives.bind (Prog.Gives.trivial _) fun r _ => Prog.Gives.bind (ho.right _ _) fun q hq => ?_
          exact Prog.Gives.al (ASNode.twmTable_gives reduce hs r hq)
      · refine Prog.Gives.bind (Prog.Gives.trivial _) fun r _ => Prog.Gives.al ?_
        exact ALNode.transformResult_gives reduce hl.key r hn
  | nextL a k v l z ih =>
    unfold ALNode.twmSImpl
    refine Prog.Gives.ite (fun he => ?_) (fun he => ?_)
    · refine Prog.Gives.bind (ALNode.transformE_loose (U := U) reduce _ hl.next) fun nx hn => ?_
      refine Prog.Gives.bind (Prog.Gives.trivial _) fun r _ => Prog.Gives.al ?_
      exact ALNode.transformResult_gives reduce hl.key r hn
    · refine Prog.Gives.bind (ih hl.next) fun nx hn => ?_
      refine Prog.Gives.bind (Prog.Gives.trivial _) fun r _ => Prog.Gives.al ?_
      exact ALNode.transformResult_gives reduce hl.key r hn

theorem ALNode.twmS_gives {this : ALNode K V} (hl : (ANode.L this : ANode c.n K V).Loose T) (right : ASNode L W) (depth : Nat) :
    (this.twmS x reduce ops right depth).Gives G (TRes.Fine (ANode.Fine T U) ((ANode.L this).Fine T U)) := by
  unfold ALNode.twmS
  refine Prog.Gives.ite (fun he => ?_) (fun he => ?_)
  · exact Prog.Gives.map (ALNode.twmSImpl_gives x reduce ho hl _) fun _ h => h.map (fun _ h => h) fun h => h
  · refine Prog.Gives.bind (ALNode.transformE_loose (U := U) reduce _ hl) fun l hl' => ?_
    refine Prog.Gives.bind (right.transmuteE_gives (U := U) ho.right) fun r hr => Prog.Gives.al ?_
    exact atwmApart_gives (this := .L this) reduce _ _ _ hl' (hr.map fun _ h => h)

theorem ASNode.twmLast_gives {t : ASNode K V} (ht : ¬T t.key) (rights : List (L × W)) :
    (t.twmLast x reduce ops rights).Gives G fun a => a.1.Fine (ALNext.Fine T U) ((ANode.S t).Fine T U) := by
  unfold ASNode.twmLast
  cases takeMatch (fun e : L × W => x.eq t.key e.1) rights with
  | some b =>
    refine Prog.Gives.bind (P := TRes.Fine (ALNext.Fine T U) ((ANode.S t).Fine T U)) ?_ fun r hr => Prog.Gives.pure hr
    unfold ASNode.twmImpl
    refine Prog.Gives.ite (fun he => ?_) (fun he => ?_)
    · refine Prog.Gives.bind (Prog.Gives.trivial _) fun r _ => ?_
      exact Prog.Gives.map (Prog.Gives.al (t.answer_gives (keep := False) r (fun h => absurd h ht) False.elim))
        fun _ h => h.map (fun _ h => h) fun h => h
    · refine Prog.Gives.bind (Prog.Gives.trivial _) fun r _ => Prog.Gives.bind (ho.right _ _) fun q hq => ?_
      exact Prog.Gives.al (ASNode.twmTable_gives reduce ht r hq)
  | none =>
    exact Prog.Gives.bind (ASNode.transformE_loose (U := U) _ ht) fun r hr =>
      Prog.Gives.pure (hr.map (F' := ALNext.Fine T U) (fun _ h => h) fun h => h)

theorem ALNode.twmLImpl_gives {this : ALNode K V} (hl : (ANode.L this : ANode c.n K V).Loose T) (rights : List (L × W)) :
    (this.twmLImpl x reduce ops rights).Gives G fun a => a.1.Fine (ALNext.Fine T U) ((ANode.L this).Fine T U) := by
  induction this generalizing rights with
  | nextS a k v s z =>
    unfold ALNode.twmLImpl
    refine Prog.Gives.bind (ASNode.twmLast_gives (U := U) x reduce ho hl.next.keyS rights) fun nx hn => ?_
    refine Prog.Gives.bind (Prog.Gives.trivial _) fun r _ => ?_
    exact Prog.Gives.map (Prog.Gives.al (ALNode.transformResult_gives reduce hl.key r.1 hn)) fun _ h => h
  | nextL a k v l z ih =>
    unfold ALNode.twmLImpl
    refine Prog.Gives.bind (ih hl.next rights) fun nx hn => ?_
    refine Prog.Gives.bind (Prog.Gives.trivial _) fun r _ => ?_
    exact Prog.Gives.map (Prog.Gives.al (ALNode.transformResult_gives reduce hl.key r.1 hn)) fun _ h => h

theorem TwmOpsM.leftovers_gives {this : ALNode K V} (hl : (ANode.L this : ANode c.n K V).Fine T U) (rights : List (L × W)) :
    ∀ {nx : TRes (ALNext K V) R}, nx.Fine (ALNext.Fine T U) ((ANode.L this).Fine T U) →
      (ops.leftovers reduce this rights nx).Gives G (TRes.Fine (ALNext.Fine T U) ((ANode.L this).Fine T U)) := by
  induction rights with
  | nil => exact fun h => Prog.Gives.pure h
  | cons b rights ih =>
    intro nx hn
    refine Prog.Gives.bind (ho.right _ _) fun r hr => ?_
    exact Prog.Gives.bind (Prog.Gives.al (ALNode.twmLeftover_gives reduce hl hr hn)) fun nx' hn' => ih hn'

theorem ALNode.twmL_gives {this : ALNode K V} (hl : (ANode.L this : ANode c.n K V).Loose T) (right : ALNode L W) (depth : Nat) :
    (this.twmL x reduce ops right depth).Gives G (TRes.Fine (ANode.Fine T U) ((ANode.L this).Fine T U)) := by
  unfold ALNode.twmL
  refine Prog.Gives.ite (fun he => ?_) (fun he => ?_)
  · refine Prog.Gives.bindRes fun rights _ => ?_
    refine Prog.Gives.bind (ALNode.twmLImpl_gives (U := U) x reduce ho hl rights) fun nx hn => ?_
    exact Prog.Gives.map (TwmOpsM.leftovers_gives reduce ho (hl.fine U) _ hn) fun _ h => h.map (fun _ h => h) fun h => h
  · refine Prog.Gives.bind (ALNode.transformE_loose (U := U) reduce _ hl) fun l hl' => ?_
    refine Prog.Gives.bind (right.transmuteE_gives (U := U) reduce ho.right) fun r hr => Prog.Gives.al ?_
    exact atwmApart_gives (this := .L this) reduce _ _ _ hl' hr

end

/-! ### transmute_with_transformed -/

section
variable {T : L → Prop} {keep : Prop} {U : ANode c.n L W → Prop} {ops : MwtOpsM Q A K V L W R} (ho : ops.Good G T keep)
include ho

theorem ASNode.mwtImpl_gives (this : ASNode K V) {right : ASNode L W} (hk : keep → (ANode.S right).Fine T U)
    (hm : T right.key → x.eq this.key right.key = true) :
    (this.mwtImpl x reduce ops right).Gives G (TRes.Fine (ALNext.Fine T U) ((ANode.S right).Fine T U)) := by
  unfold ASNode.mwtImpl
  refine Prog.Gives.ite (fun he => ?_) (fun he => ?_)
  · by_cases ht : T right.key
    · refine Prog.Gives.bind (ho.both _ _ _ _ ht) fun r hr => ?_
      exact Prog.Gives.map (Prog.Gives.al (right.answer_gives r (fun _ => hr) hk)) fun _ h => h.map (fun _ h => h) fun h => h
    · refine Prog.Gives.bind (Prog.Gives.trivial _) fun r _ => ?_
      exact Prog.Gives.map (Prog.Gives.al (right.answer_gives (keep := False) r (fun h => absurd h ht) False.elim))
        fun _ h => h.map (fun _ h => h) fun h => h
  · refine Prog.Gives.bind (ho.left _ _) fun q hq => Prog.Gives.bind (Prog.Gives.trivial _) fun r _ => ?_
    exact Prog.Gives.al (ASNode.mwtTable_gives reduce (fun ht => he (hm ht)) hq r)

theorem ASNode.mwt_gives (this : ASNode K V) {right : ASNode L W} (hk : keep → (ANode.S right).Fine T U) (depth : Nat)
    (hm : T right.key → x.hash this.key = x.hash' right.key → x.eq this.key right.key = true) :
    (this.mwt x reduce ops right depth).Gives G (TRes.Fine (ANode.Fine T U) ((ANode.S right).Fine T U)) := by
  unfold ASNode.mwt
  refine Prog.Gives.ite (fun he => ?_) (fun he => ?_)
  · exact Prog.Gives.map (this.mwtImpl_gives x reduce ho hk fun ht => hm ht he) fun _ h => h.map (fun _ h => h) fun h => h
  · refine Prog.Gives.bind (this.transmuteE_gives (U := U) ho.left) fun r hr => ?_
    refine Prog.Gives.bind (right.transformE_gives (fun ht => ho.right _ _ ht) hk) fun l hl => Prog.Gives.al ?_
    exact amwtApart_gives (right := .S right) reduce _ _ _ (hr.map fun _ h => h) (hl.map (fun _ h => h) fun h => h)

theorem ALNode.mwtSImpl_gives (this : ALNode K V) {right : ASNode L W} (ht : ¬T right.key) :
    (this.mwtSImpl x reduce ops right).Gives G (TRes.Fine (ALNext.Fine T U) ((ANode.S right).Fine T U)) := by
  have hS : (ANode.S right : ANode c.n L W).Fine T U := ANode.Fine.ofS fun h => absurd h ht
  induction this with
  | nextS a k v s z =>
    unfold ALNode.mwtSImpl
    refine Prog.Gives.ite (fun he => ?_) (fun he => ?_)
    · refine Prog.Gives.bind (s.transmuteE_gives (U := U) ho.left) fun nx hn => ?_
      refine Prog.Gives.bind (Prog.Gives.trivial _) fun r _ => Prog.Gives.al ?_
      exact ASNode.withTransmuted_gives (U := U) reduce ht r (XRes.Fine.map (f := ALNext.S) (F' := ALNext.Fine T U) hn fun _ h => h) _
    · refine Prog.Gives.bind (P := TRes.Fine (ALNext.Fine T U) ((ANode.S right).Fine T U)) ?_ fun nx hn => ?_
      · unfold ASNode.mwtImpl
        refine Prog.Gives.ite (fun he => ?_) (fun he => ?_)
        · refine Prog.Gives.bind (Prog.Gives.trivial _) fun r _ => ?_
          exact Prog.Gives.map (Prog.Gives.al (right.answer_gives (keep := False) r (fun h => absurd h ht) False.elim))
            fun _ h => h.map (fun _ h => h) fun h => h
        · refine Prog.Gives.bind (ho.left _ _) fun q hq => Prog.Gives.bind (Prog.Gives.trivial _) fun r _ => ?_
          exact Prog.Gives.al (ASNode.mwtTable_gives reduce ht hq r)
      · refine Prog.Gives.bind (ho.left _ _) fun r hr => Prog.Gives.al ?_
        exact ASNode.withTransformed_gives reduce ht hr hn _
  | nextL a k v l z ih =>
    unfold ALNode.mwtSImpl
    refine Prog.Gives.ite (fun he => ?_) (fun he => ?_)
    · refine Prog.Gives.bind (l.transmuteE_gives (U := U) reduce ho.left) fun nx hn => ?_
      refine Prog.Gives.bind (Prog.Gives.trivial _) fun r _ => Prog.Gives.al ?_
      exact ASNode.withTransmuted_gives reduce ht r hn _
    · refine Prog.Gives.bind ih fun nx hn => ?_
      refine Prog.Gives.bind (ho.left _ _) fun r hr => Prog.Gives.al ?_
      exact ASNode.withTransformed_gives reduce ht hr hn _

theorem ALNode.mwtS_gives (this : ALNode K V) {right : ASNode L W} (hk : keep → (ANode.S right).Fine T U) (depth : Nat)
    (ht : x.hash this.key = x.hash' right.key → ¬T right.key) :
    (this.mwtS x reduce ops right depth).Gives G (TRes.Fine (ANode.Fine T U) ((ANode.S right).Fine T U)) := by
  unfold ALNode.mwtS
  refine Prog.Gives.ite (fun he => ?_) (fun he => ?_)
  · exact Prog.Gives.map (this.mwtSImpl_gives x reduce ho (ht he)) fun _ h => h.map (fun _ h => h) fun h => h
  · refine Prog.Gives.bind (this.transmuteE_gives (U := U) reduce ho.left) fun r hr => ?_
    refine Prog.Gives.bind (right.transformE_gives (fun ht => ho.right _ _ ht) hk) fun l hl => Prog.Gives.al ?_
    exact amwtApart_gives (right := .S right) reduce _ _ _ hr (hl.map (fun _ h => h) fun h => h)

end

/-! ### transform_with_transformed -/

theorem TwtOpsM.Good.flip {T : K → Prop} {left right : Prop} {ops : TwtOpsM Q A K V R} (h : ops.Good G T left right) :
    ops.flip.Good G T right left := by
  refine ⟨h.both', fun k v l w hk hl => ?_, h.right, h.left⟩
  have : ops.both.flip.flip = ops.both := by
    cases ops.both with
    | generic f b => exact congrArg (MapJointTransform.generic f) (Bool.not_not b)
    | _ => rfl
  show (ops.both.flip.flip.callM k v l w).Gives G _
  rw [this]
  exact h.both k v l w hk hl

section
variable {T : K → Prop} {left right : Prop} {U : ANode c.n K V → Prop} [BEq K] {hash : K → BitVec c.w}
variable {ops : TwtOpsM Q A K V R} (ho : ops.Good G T left right) (hT : ∀ k l : K, (k == l) = true → (T k ↔ T l))
include ho hT

theorem ASNode.twtImpl_gives {this that : ASNode K V} (hl : left → (ANode.S this).Fine T U) (hr : right → (ANode.S that).Fine T U)
    (hm : T this.key → (this.key == that.key) = true) (hm' : T that.key → (this.key == that.key) = true) :
    (this.twtImpl reduce ops that).Gives G
      (JRes.Fine (ALNext.Fine T U) ((ANode.S this).Fine T U) ((ANode.S that).Fine T U)) := by
  unfold ASNode.twtImpl
  refine Prog.Gives.ite (fun he => ?_) (fun he => ?_)
  · have hh := hT _ _ he
    by_cases ht : T this.key
    · refine Prog.Gives.bind (ho.both _ _ _ _ ht (hh.1 ht)) fun r hr' => ?_
      exact Prog.Gives.al (this.answerJ_gives r (fun _ => hr') hl hr fun h => absurd ht h)
    · refine Prog.Gives.bind (Prog.Gives.trivial _) fun r _ => ?_
      exact Prog.Gives.al (this.answerJ_gives (left := False) (right := False) r (fun h => absurd h ht) False.elim
        False.elim fun h => ANode.Fine.ofS fun h' => absurd (hh.2 h') h)
  · refine Prog.Gives.bind (Prog.Gives.trivial _) fun r _ => Prog.Gives.bind (Prog.Gives.trivial _) fun q _ => ?_
    exact Prog.Gives.al (ASNode.twtTable_gives reduce (fun ht => he (hm ht)) (fun ht => he (hm' ht)) r q)

theorem ASNode.twt_gives {this that : ASNode K V} (hl : left → (ANode.S this).Fine T U) (hr : right → (ANode.S that).Fine T U) (depth : Nat)
    (hm : T this.key → hash this.key = hash that.key → (this.key == that.key) = true)
    (hm' : T that.key → hash this.key = hash that.key → (this.key == that.key) = true) :
    (this.twt reduce hash ops that depth).Gives G
      (JRes.Fine (ANode.Fine T U) ((ANode.S this).Fine T U) ((ANode.S that).Fine T U)) := by
  unfold ASNode.twt
  refine Prog.Gives.ite (fun he => ?_) (fun he => ?_)
  · exact Prog.Gives.map (this.twtImpl_gives reduce ho hT hl hr (fun ht => hm ht he) fun ht => hm' ht he)
      fun _ h => h.map (fun _ h => h) (fun h => h) fun h => h
  · refine Prog.Gives.bind (this.transformE_gives (fun ht => ho.left _ _ ht) hl) fun l hl => ?_
    refine Prog.Gives.bind (that.transformE_gives (fun ht => ho.right _ _ ht) hr) fun r hr => Prog.Gives.al ?_
    exact atwtApart_gives reduce _ _ _ (hl.map (fun _ h => h) fun h => h) (hr.map (fun _ h => h) fun h => h)

omit ho hT
theorem ASNode.twtImpl_loose {this that : ASNode K V} (hl : ¬T this.key) (hr : ¬T that.key) :
    (this.twtImpl reduce ops that).Gives G
      (JRes.Fine (ALNext.Fine T U) ((ANode.S this).Fine T U) ((ANode.S that).Fine T U)) := by
  unfold ASNode.twtImpl
  refine Prog.Gives.ite (fun he => ?_) (fun he => ?_)
  · refine Prog.Gives.bind (Prog.Gives.trivial _) fun r _ => ?_
    exact Prog.Gives.al (this.answerJ_gives (left := False) (right := False) r (fun h => absurd h hl) False.elim
      False.elim fun h => ANode.Fine.ofS fun h' => absurd h' hr)
  · refine Prog.Gives.bind (Prog.Gives.trivial _) fun r _ => Prog.Gives.bind (Prog.Gives.trivial _) fun q _ => ?_
    exact Prog.Gives.al (ASNode.twtTable_gives reduce hl hr r q)

theorem ALNode.twtSImpl_gives {this : ALNode K V} (hl : (ANode.L this : ANode c.n K V).Loose T) {that : ASNode K V}
    (ht : ¬T that.key) :
    (this.twtSImpl reduce ops that).Gives G
      (JRes.Fine (ALNext.Fine T U) ((ANode.L this).Fine T U) ((ANode.S that).Fine T U)) := by
  induction this with
  | nextS a k v s z =>
    unfold ALNode.twtSImpl
    refine Prog.Gives.ite (fun he => ?_) (fun he => ?_)
    · refine Prog.Gives.bind (ASNode.transformE_loose (U := U) _ hl.next.keyS) fun nx hn => ?_
      refine Prog.Gives.bind (Prog.Gives.trivial _) fun r _ => Prog.Gives.al ?_
      exact ALNode.jointThenPlain_gives reduce hl ht r (P := (ANode.S s : ANode c.n K V).Fine T U) (hn.map (fun _ h => h) fun h => h)
    · refine Prog.Gives.bind (ASNode.twtImpl_loose (U := U) reduce hl.next.keyS ht) fun nx hn => ?_
      refine Prog.Gives.bind (Prog.Gives.trivial _) fun r _ => Prog.Gives.al ?_
      exact ALNode.plainThenJoint_gives reduce hl ht r hn
  | nextL a k v l z ih =>
    unfold ALNode.twtSImpl
    refine Prog.Gives.ite (fun he => ?_) (fun he => ?_)
    · refine Prog.Gives.bind (ALNode.transformE_loose (U := U) reduce _ hl.next) fun nx hn => ?_
      refine Prog.Gives.bind (Prog.Gives.trivial _) fun r _ => Prog.Gives.al ?_
      exact ALNode.jointThenPlain_gives reduce hl ht r hn
    · refine Prog.Gives.bind (ih hl.next) fun nx hn => ?_
      refine Prog.Gives.bind (Prog.Gives.trivial _) fun r _ => Prog.Gives.al ?_
      exact ALNode.plainThenJoint_gives reduce hl ht r hn

include ho in
theorem ALNode.twtS_gives {this : ALNode K V} (hl : (ANode.L this : ANode c.n K V).Loose T) {that : ASNode K V}
    (hr : right → (ANode.S that).Fine T U) (ht : hash this.key = hash that.key → ¬T that.key) (depth : Nat) :
    (this.twtS reduce hash ops that depth).Gives G
      (JRes.Fine (ANode.Fine T U) ((ANode.L this).Fine T U) ((ANode.S that).Fine T U)) := by
  unfold ALNode.twtS
  refine Prog.Gives.ite (fun he => ?_) (fun he => ?_)
  · exact Prog.Gives.map (this.twtSImpl_gives reduce hl (ht he)) fun _ h => h.map (fun _ h => h) (fun h => h) fun h => h
  · refine Prog.Gives.bind (ALNode.transformE_loose (U := U) reduce _ hl) fun l hl' => ?_
    refine Prog.Gives.bind (that.transformE_gives (fun ht => ho.right _ _ ht) hr) fun r hr => Prog.Gives.al ?_
    exact atwtApart_gives (this := .L this) reduce _ _ _ hl' (hr.map (fun _ h => h) fun h => h)

theorem ASNode.twtLast_gives {t : ASNode K V} (ht : ¬T t.key) {rights : List (K × V)} (hr : ∀ e ∈ rights, ¬T e.1) :
    (t.twtLast reduce ops rights).Gives G fun a => a.1.Fine (ALNext.Fine T U) True True ∧ (∀ e ∈ a.2.1, ¬T e.1) ∧
      ∀ e ∈ a.2.2, ¬T e.1 := by
  unfold ASNode.twtLast
  cases hm : takeMatch (fun e : K × V => t.key == e.1) rights with
  | some b =>
    have hs := takeMatch_sub hm
    refine Prog.Gives.bind (P := fun s : ASNode K V => s.key = b.1.1) (Prog.Gives.al ?_) fun s hs' => ?_
    · intro s a s' h; cases h; rfl
    · refine Prog.Gives.bind (ASNode.twtImpl_loose (U := U) reduce ht (hs' ▸ hr _ hs.1)) fun r hr' => Prog.Gives.pure ?_
      refine ⟨?_, fun e he => ?_, fun e he => hr e (hs.2 e he)⟩
      · cases r with
        | unchangedLR r => exact ⟨trivial, trivial⟩
        | node m r => exact hr'
        | _ => exact trivial
      · cases he; exact hr _ hs.1
  | none =>
    refine Prog.Gives.bind (ASNode.transformE_loose (U := U) _ ht) fun r hr' => Prog.Gives.pure ⟨?_, (fun e he => by cases he), hr⟩
    cases r with
    | node m r => exact hr'
    | _ => exact trivial

theorem TwtOpsM.step_gives (k : K) (v : V) {rights : List (K × V)} (hr : ∀ e ∈ rights, ¬T e.1) :
    (ops.step k v rights).Gives G fun a => ∀ e ∈ a.2, ¬T e.1 := by
  unfold TwtOpsM.step
  cases hm : takeMatch (fun e : K × V => k == e.1) rights with
  | some b =>
    exact Prog.Gives.bind (Prog.Gives.trivial _) fun r _ => Prog.Gives.pure fun e he => hr e ((takeMatch_sub hm).2 e he)
  | none => exact Prog.Gives.bind (Prog.Gives.trivial _) fun r _ => Prog.Gives.pure hr

theorem ALNode.twtLImpl_gives {this : ALNode K V} (hl : (ANode.L this : ANode c.n K V).Loose T) {rights : List (K × V)}
    (hr : ∀ e ∈ rights, ¬T e.1) :
    (this.twtLImpl reduce ops rights).Gives G fun a => a.1.Fine (ALNext.Fine T U) ((ANode.L this).Fine T U) True ∧
      ∀ e ∈ a.2, ¬T e.1 := by
  induction this generalizing rights with
  | nextS a k v s z =>
    unfold ALNode.twtLImpl
    refine Prog.Gives.bind (ASNode.twtLast_gives (U := U) reduce hl.next.keyS hr) fun nx hn => ?_
    refine Prog.Gives.bind (TwtOpsM.step_gives (T := T) k v hn.2.2) fun r hr' => ?_
    exact Prog.Gives.map (Prog.Gives.al (ALNode.jointThenJoint_gives (U := U) reduce hl hn.2.1 r.1 hn.1 trivial))
      fun _ h => ⟨h, hr'⟩
  | nextL a k v l z ih =>
    unfold ALNode.twtLImpl
    refine Prog.Gives.bind (ih hl.next hr) fun nx hn => ?_
    refine Prog.Gives.bind (TwtOpsM.step_gives (T := T) k v hn.2) fun r hr' => ?_
    exact Prog.Gives.map (Prog.Gives.al (ALNode.jointThenJoint_gives (U := U) reduce hl (that := none)
      (fun e he => by cases he) r.1 hn.1 trivial)) fun _ h => ⟨h, hr'⟩

omit [BEq K] in
theorem TwtOpsM.leftovers_gives {this : ALNode K V} (hl : (ANode.L this : ANode c.n K V).Fine T U) (rights : List (K × V))
    (hr : ∀ e ∈ rights, ¬T e.1) :
    ∀ {nx : JRes (ALNext K V) R}, nx.Fine (ALNext.Fine T U) ((ANode.L this).Fine T U) True →
      (ops.leftovers reduce this rights nx).Gives G (JRes.Fine (ALNext.Fine T U) ((ANode.L this).Fine T U) True) := by
  induction rights with
  | nil => exact fun h => Prog.Gives.pure h
  | cons b rights ih =>
    intro nx hn
    refine Prog.Gives.bind (Prog.Gives.trivial _) fun r _ => ?_
    exact Prog.Gives.bind (Prog.Gives.al (ALNode.twtLeftover_gives reduce hl (hr b (List.mem_cons_self ..)) r hn))
      fun nx' hn' => ih (fun e he => hr e (List.mem_cons_of_mem _ he)) hn'

theorem ANode.Loose.visit {l : ALNode K V} (h : (ANode.L l : ANode c.n K V).Loose T) : ∀ e ∈ l.erase.visit, ¬T e.1 := by
  induction l with
  | nextS a k v s z =>
    intro e he
    rcases List.mem_cons.1 he with rfl | he
    · exact h.key
    · cases List.mem_singleton.1 he; exact h.next.keyS
  | nextL a k v l z ih =>
    intro e he
    rcases List.mem_cons.1 he with rfl | he
    · exact h.key
    · exact ih h.next e he

theorem ALNode.twtL_gives {this that : ALNode K V} (hl : (ANode.L this : ANode c.n K V).Loose T)
    (hr : (ANode.L that : ANode c.n K V).Loose T) (depth : Nat) :
    (this.twtL reduce hash ops that depth).Gives G
      (JRes.Fine (ANode.Fine T U) ((ANode.L this).Fine T U) ((ANode.L that).Fine T U)) := by
  unfold ALNode.twtL
  refine Prog.Gives.ite (fun he => ?_) (fun he => ?_)
  · refine Prog.Gives.bindRes fun rights hri => ?_
    have hrr : ∀ e ∈ rights, ¬T e.1 := by
      have hv := hr.visit
      cases that with
      | nextL a k v l z => cases hri
      | nextS a k v s z =>
        have hri : [(k, v), (s.key, s.value)] = rights := by injection hri
        subst hri
        exact hv
    refine Prog.Gives.bind (ALNode.twtLImpl_gives (U := U) reduce hl hrr) fun nx hn => ?_
    exact Prog.Gives.map (TwtOpsM.leftovers_gives reduce (hl.fine U) _ hn.2 hn.1) fun _ h =>
      h.map (fun _ h => h) (fun h => h) fun _ => hr.fine U
  · refine Prog.Gives.bind (ALNode.transformE_loose (U := U) reduce _ hl) fun l hl' => ?_
    refine Prog.Gives.bind (ALNode.transformE_loose (U := U) reduce _ hr) fun r hr' => Prog.Gives.al ?_
    exact atwtApart_gives (this := .L this) (right := .L that) reduce _ _ _ hl' hr'

end
end HT
