import Verif.JointPair
/-! # transform_with_transformed on lists and single nodes -/
namespace HT

variable {A B K V R : Type}

/-! ### Exchanging the operands, parts of cases -/

/-- The left entry of a case. -/
def Case.lpart : Case A B → Option A
  | .left a => some a
  | .right _ => none
  | .both a _ => some a

/-- The right entry of a case. -/
def Case.rpart : Case A B → Option B
  | .left _ => none
  | .right b => some b
  | .both _ b => some b

theorem jointCases_lpart (eq : A → B → Bool) (as : List A) (bs : List B) :
    (jointCases eq as bs).filterMap Case.lpart = as := by
  rw [jointCases, List.filterMap_append, List.filterMap_map, List.filterMap_map]
  have h1 : ∀ l : List B, l.filterMap (Case.lpart (A := A) ∘ Case.right) = [] := by
    intro l; rw [List.filterMap_eq_nil_iff]; intro b _; rfl
  rw [h1, List.append_nil]
  refine (List.filterMap_congr (g := some) ?_).trans (by simp)
  intro a _
  simp only [Function.comp]
  cases bs.find? (eq a) <;> rfl

theorem jointCases_rpart {eq : A → B → Bool} {as : List A} {bs : List B} (j : Joinable eq as bs) :
    ((jointCases eq as bs).filterMap Case.rpart).Perm bs := by
  have h := (jointCases_flip j).filterMap Case.lpart
  rw [jointCases_lpart, List.filterMap_map] at h
  have : (Case.lpart ∘ Case.flip : Case A B → Option B) = Case.rpart := by
    funext p; cases p <;> rfl
  rwa [this] at h

theorem MapJointTransform.flip_flip {F : Type} (op : MapJointTransform R F) : op.flip.flip = op := by
  cases op <;> simp [MapJointTransform.flip]

theorem TwtOps.flip_flip (ops : TwtOps K V R) : ops.flip.flip = ops := by
  cases ops; simp [TwtOps.flip, MapJointTransform.flip_flip]

theorem MapJointTransformResult.flip_entry {res : MapJointTransformResult V R} {a b : K × V}
    {o : Option (K × V)} (h : res.flip.Entry b a o) : res.Entry a b o := by
  cases res <;> simp only [MapJointTransformResult.flip, MapJointTransformResult.Entry] at h ⊢ <;>
    first | exact h | exact h.symm

theorem MapJointTransformResult.flip_flip (res : MapJointTransformResult V R) : res.flip.flip = res := by
  cases res <;> rfl

theorem MapJointTransform.flip_entry {op : MapJointTransform R (K → V → K → V → MapJointTransformResult V R)}
    {a b : K × V} {o : Option (K × V)} (h : op.flip.Entry b a o) : op.Entry a b o := by
  cases op with
  | generic f fl =>
    cases fl with
    | true =>
      exact MapJointTransformResult.flip_entry (res := (f b.1 b.2 a.1 a.2).flip)
        (by rw [MapJointTransformResult.flip_flip]; exact h)
    | false => exact MapJointTransformResult.flip_entry (res := f a.1 a.2 b.1 b.2) h
  | removed r => exact h
  | unchangedLR r => exact Or.symm h
  | unchangedL r => exact Or.symm h
  | unchangedR r => exact Or.symm h

theorem MapJointTransformResult.flip_red (res : MapJointTransformResult V R) : res.flip.red = res.red := by
  cases res <;> rfl

theorem MapJointTransform.flip_red (op : MapJointTransform R (K → V → K → V → MapJointTransformResult V R))
    (a b : K × V) : (op.flip.call b.1 b.2 a.1 a.2).red = (op.call a.1 a.2 b.1 b.2).red := by
  cases op with
  | generic f fl =>
    cases fl <;> simp [MapJointTransform.flip, MapJointTransform.call, MapJointTransformResult.flip_red]
  | _ => rfl

theorem TwtOps.flip_out (ops : TwtOps K V R) (p : Case (K × V) (K × V)) (o : Option (K × V))
    (h : ops.flip.Out p.flip o) : ops.Out p o := by
  cases p with
  | left a => exact h
  | right b => exact h
  | both a b => exact MapJointTransform.flip_entry h

theorem TwtOps.flip_red (ops : TwtOps K V R) (p : Case (K × V) (K × V)) : ops.flip.red p.flip = ops.red p := by
  cases p with
  | left a => rfl
  | right b => rfl
  | both a b =>
    simp only [Case.flip, TwtOps.red, TwtOps.flip, MapJointTransform.closure_eq]
    exact MapJointTransform.flip_red ops.both a b

/-- What a bulk operation may do includes what its answer to a call says. -/
theorem MapJointTransform.entry_of_call
    {op : MapJointTransform R (K → V → K → V → MapJointTransformResult V R)} {a b : K × V}
    {o : Option (K × V)} (h : (op.call a.1 a.2 b.1 b.2).Entry a b o) : op.Entry a b o := by
  rw [← MapJointTransform.closure_eq] at h
  cases op with
  | generic f fl => exact h
  | removed r => exact h
  | unchangedLR r => exact h
  | unchangedL r => exact .inl h
  | unchangedR r => exact .inr h

/-! ### The tables -/

/-- All readings of the result are right. -/
def LGoodJ (s : Sem A B (K × V) R) (cs : List (Case A B)) (left right : LNext K V)
    (res : JRes (LNext K V) R) : Prop := ∀ o ∈ res.gives left right, LGood s cs o res.red

theorem LGoodJ.perm {s : Sem A B (K × V) R} {cs cs' : List (Case A B)} {left right : LNext K V}
    {res : JRes (LNext K V) R} (h : LGoodJ s cs left right res) (p : cs.Perm cs') :
    LGoodJ s cs' left right res := fun o ho => (h o ho).perm p

theorem jointThenPlain_good {s : Sem A B (K × V) R} (this : LNode K V) (hsz : this.SizeOk)
    {result : MapJointTransformResult V R} {that : SNode K V}
    {next : TRes (LNext K V) R} {cs : List (Case A B)}
    (G : LGood s cs (next.get this.next) next.red) {p : Case A B}
    (hp : ∀ o, result.Entry (this.key, this.value) (that.key, that.value) o → s.out p o)
    (hr : s.red p = result.red) :
    LGoodJ s (p :: cs) (.L this) (.S that) (LNode.jointThenPlain s.reduce this result that next) := by
  have hns := hsz.next
  have h2 := G.size
  have key : ∀ e : Option (K × V), result.Entry (this.key, this.value) (that.key, that.value) e →
      ∀ o' : Option (LNext K V), lvis o' = e.toList ++ lvis (next.get this.next) →
      (∀ m, o' = some m → m.SizeOk) →
      ∀ r', r' = s.reduce result.red next.red → LGood s (p :: cs) o' r' :=
    fun e he o' h3 h4 r' h5 => G.cons (hp e he) hr (.of_eq h3) h4 h5
  intro o ho
  cases result <;> cases next <;>
    simp only [LNode.jointThenPlain, JRes.gives, JRes.red, List.mem_cons, List.not_mem_nil, or_false] at ho ⊢ <;>
    simp only [TRes.get, Option.some.injEq, forall_eq', reduceCtorEq, false_implies, implies_true] at h2 <;>
    subst ho
  all_goals
    first
    | refine key (some (this.key, this.value)) (by first | exact rfl | exact Or.inl rfl) _ ?_ ?_ _ rfl
    | refine key (some (that.key, that.value)) rfl _ ?_ ?_ _ rfl
    | refine key (some (this.key, _)) (Or.inl rfl) _ ?_ ?_ _ rfl
    | refine key none rfl _ ?_ ?_ _ rfl
  all_goals
    first
    | exact this.visit_eq
    | exact LNode.new_visit ..
    | rfl
    | (intro m hm; injection hm with hm; subst hm
       first
        | exact hsz
        | exact hns
        | exact h2
        | exact LNode.new_sizeOk hns
        | exact LNode.new_sizeOk h2
        | trivial)
    | exact sizeOk_none

theorem plainThenJoint_good {s : Sem A B (K × V) R} (this : LNode K V) (hsz : this.SizeOk)
    {result : MapTransformResult V R} {that : SNode K V}
    {next : JRes (LNext K V) R} {cs : List (Case A B)}
    (G : LGoodJ s cs this.next (.S that) next) {p : Case A B}
    (hp : s.out p (result.entry (this.key, this.value))) (hr : s.red p = result.red)
    (hbad : ∀ lr rr, result = .unchanged lr → next ≠ .unchangedR rr) :
    LGoodJ s (p :: cs) (.L this) (.S that) (LNode.plainThenJoint s.reduce this result that next) := by
  have hns := hsz.next
  have key : ∀ o0 ∈ next.gives this.next (.S that),
      ∀ o' : Option (LNext K V), lvis o' = (result.entry (this.key, this.value)).toList ++ lvis o0 →
      ((∀ m, o0 = some m → m.SizeOk) → ∀ m, o' = some m → m.SizeOk) →
      ∀ r', r' = s.reduce result.red next.red → LGood s (p :: cs) o' r' :=
    fun o0 h0 o' h3 h4 r' h5 => (G o0 h0).cons hp hr (.of_eq h3) (h4 (G o0 h0).size) h5
  intro o ho
  cases result <;> cases next <;>
    simp only [LNode.plainThenJoint, JRes.gives, JRes.red, List.mem_cons, List.not_mem_nil, or_false] at ho ⊢ <;>
    subst ho
  all_goals
    first
    | exact absurd rfl (hbad _ _ rfl)
    | refine key _ (List.mem_cons_self ..) _ ?_ ?_ _ rfl
  all_goals
    first
    | exact this.visit_eq
    | exact LNode.new_visit ..
    | rfl
    | (intro h2 m hm; injection hm with hm; subst hm
       first
        | exact hsz
        | exact hns
        | exact h2 _ rfl
        | exact LNode.new_sizeOk hns
        | exact LNode.new_sizeOk (h2 _ rfl)
        | trivial)
    | exact fun _ => sizeOk_none

/-! ### Single nodes and lists with equal hashes -/

section
variable {c : Cfg} [BEq K] {hash : K → BitVec c.w} (reduce : R → R → R) (e : R) (ops : TwtOps K V R)

theorem SNode.twtImpl_spec (this right : SNode K V) :
    LGoodJ (ops.sem reduce e) (jointCases (fun a b : K × V => a.1 == b.1) this.visit right.visit) (.S this) (.S right)
      (this.twtImpl reduce ops right) := by
  unfold SNode.twtImpl
  cases heq : this.key == right.key with
  | true =>
    have hc : jointCases (fun a b : K × V => a.1 == b.1) this.visit right.visit =
      [.both (this.key, this.value) (right.key, right.value)] := jointCases_single_hit heq
    rw [hc]
    simp only [if_true]
    have key : ∀ res, ops.both.call this.key this.value right.key right.value = res →
        ∀ o, res.Entry (this.key, this.value) (right.key, right.value) o →
        ops.Out (.both (this.key, this.value) (right.key, right.value)) o := by
      rintro res rfl o ho; exact MapJointTransform.entry_of_call ho
    have kred : ∀ res, ops.both.call this.key this.value right.key right.value = res →
        ops.red (.both (this.key, this.value) (right.key, right.value)) = res.red := by
      rintro res rfl; crfl
    intro o ho
    cases hres : ops.both.call this.key this.value right.key right.value <;> rw [hres] at ho <;>
      simp only [JRes.gives, List.mem_cons, List.not_mem_nil, or_false] at ho
    · rcases ho with rfl | rfl
      · exact LGood.single (s := ops.sem reduce e) (key _ hres _ (.inl rfl)) (kred _ hres) rfl sizeOk_S
      · exact LGood.single (s := ops.sem reduce e) (key _ hres _ (.inr rfl)) (kred _ hres) rfl sizeOk_S
    · subst ho
      exact LGood.single (s := ops.sem reduce e) (key _ hres _ rfl) (kred _ hres) rfl sizeOk_S
    · subst ho
      exact LGood.single (s := ops.sem reduce e) (key _ hres _ rfl) (kred _ hres) rfl sizeOk_S
    · subst ho
      exact LGood.single (s := ops.sem reduce e) (key _ hres _ (.inl rfl)) (kred _ hres) rfl sizeOk_S
    · subst ho
      exact LGood.single (s := ops.sem reduce e) (key _ hres _ rfl) (kred _ hres) rfl sizeOk_none
  | false =>
    have hc : jointCases (fun a b : K × V => a.1 == b.1) this.visit right.visit =
      [.left (this.key, this.value), .right (right.key, right.value)] := jointCases_single_miss heq
    rw [hc]
    simp only [Bool.false_eq_true, if_false]
    have hr := (ops.aloneR reduce e).snode right
    intro o ho
    cases hl : ops.left.call this.key this.value <;> cases hr' : ops.right.call right.key right.value <;>
      rw [hl, hr'] at ho <;>
      simp only [JRes.gives, List.mem_cons, List.not_mem_nil, or_false] at ho <;> subst ho <;>
      (refine hr.cons (s := ops.sem reduce e) rfl rfl ?_ ?_ ?_ <;>
        (try simp only [TwtOps.red, SNode.transform, MapTransform.closure_eq, hl, hr']) <;>
        first
          | rfl
          | exact List.Perm.refl _
          | exact List.Perm.swap ..
          | exact sizeOk_S
          | exact sizeOk_none
          | (intro m hm; injection hm with hm; subst hm; rfl))

/-! ### A list against a single node -/

omit [BEq K] in
theorem MapTransform.NoKeep.call {op : MapTransform R (K → V → MapTransformResult V R)} {l : List (K × V)}
    (h : op.NoKeep l) : ∀ a ∈ l, ∀ r, op.call a.1 a.2 ≠ .unchanged r := by
  rw [← MapTransform.closure_eq]; exact h

omit [BEq K] in
theorem MapTransform.NoDrop.call {op : MapTransform R (K → V → MapTransformResult V R)} {l : List (K × V)}
    (h : op.NoDrop l) : ∀ a ∈ l, ∀ r, op.call a.1 a.2 ≠ .removed r := by
  rw [← MapTransform.closure_eq]; exact h

theorem TwtOps.NoR.call {ops : TwtOps K V R} {as bs : List (K × V)} (h : ops.NoR as bs) :
    ∀ a ∈ as, ∀ b ∈ bs, (a.1 == b.1) = true → ∀ r, ops.both.call a.1 a.2 b.1 b.2 ≠ .unchangedR r := by
  rw [← MapJointTransform.closure_eq]; exact h

omit [BEq K] in
theorem MapTransform.NoKeep.mono {op : MapTransform R (K → V → MapTransformResult V R)} {l l' : List (K × V)}
    (h : op.NoKeep l) (hs : l' ⊆ l) : op.NoKeep l' := fun a ha => h a (hs ha)

omit [BEq K] in
theorem MapTransform.NoDrop.mono {op : MapTransform R (K → V → MapTransformResult V R)} {l l' : List (K × V)}
    (h : op.NoDrop l) (hs : l' ⊆ l) : op.NoDrop l' := fun a ha => h a (hs ha)

theorem TwtOps.NoR.mono {ops : TwtOps K V R} {as as' bs bs' : List (K × V)} (h : ops.NoR as bs)
    (ha : as' ⊆ as) (hb : bs' ⊆ bs) : ops.NoR as' bs' := fun a h1 b h2 => h a (ha h1) b (hb h2)

/-- When the comparison of a list with a single entry ends in `UnchangedR`: the pair was answered so, or the entry is
    alone and kept, and the last entry of the list was removed. -/
def TwtOps.EndsR (ops : TwtOps K V R) (as : List (K × V)) (b : K × V) : Prop :=
  (∃ a ∈ as, (a.1 == b.1) = true ∧ ∃ r, ops.both.closure a.1 a.2 b.1 b.2 = .unchangedR r) ∨
  ((∀ a ∈ as, (a.1 == b.1) = false) ∧ (∃ r, ops.right.closure b.1 b.2 = .unchanged r) ∧
    ∃ a ∈ as, ∃ r, ops.left.closure a.1 a.2 = .removed r)

theorem TwtOps.EndsR.cons {ops : TwtOps K V R} {as : List (K × V)} {a b : K × V} (h : ops.EndsR as b)
    (hne : (a.1 == b.1) = false) : ops.EndsR (a :: as) b := by
  rcases h with ⟨a', h1, h2⟩ | ⟨h1, h2, a', h3, h4⟩
  · exact .inl ⟨a', List.mem_cons_of_mem _ h1, h2⟩
  · refine .inr ⟨fun a'' h => ?_, h2, a', List.mem_cons_of_mem _ h3, h4⟩
    rcases List.mem_cons.1 h with rfl | h
    · exact hne
    · exact h1 _ h

theorem SNode.twtImpl_endsR (this right : SNode K V) {r : R} (h : this.twtImpl reduce ops right = .unchangedR r) :
    ops.EndsR this.visit (right.key, right.value) := by
  unfold SNode.twtImpl at h
  cases heq : this.key == right.key with
  | true =>
    rw [heq] at h
    simp only [if_true] at h
    cases hres : ops.both.call this.key this.value right.key right.value <;> rw [hres] at h <;> simp at h
    refine .inl ⟨(this.key, this.value), by simp [SNode.visit], heq, r, ?_⟩
    rw [MapJointTransform.closure_eq, hres, h]
  | false =>
    rw [heq] at h
    simp only [Bool.false_eq_true, if_false] at h
    cases hl : ops.left.call this.key this.value <;> cases hr : ops.right.call right.key right.value <;>
      rw [hl, hr] at h <;> simp at h
    refine .inr ⟨?_, ⟨_, by rw [MapTransform.closure_eq]; exact hr⟩, (this.key, this.value), by simp [SNode.visit],
      _, by rw [MapTransform.closure_eq]; exact hl⟩
    intro a ha
    simp only [SNode.visit, List.mem_cons, List.not_mem_nil, or_false] at ha
    subst ha; exact heq

omit [BEq K] in
theorem jointThenPlain_endsR (this : LNode K V) {result : MapJointTransformResult V R} (that : SNode K V)
    (next : TRes (LNext K V) R) {r : R} (h : LNode.jointThenPlain reduce this result that next = .unchangedR r) :
    ∃ r', result = .unchangedR r' := by
  cases result <;> cases next <;> simp [LNode.jointThenPlain] at h ⊢

omit [BEq K] in
theorem plainThenJoint_endsR (this : LNode K V) (result : MapTransformResult V R) (that : SNode K V)
    {next : JRes (LNext K V) R} {r : R} (h : LNode.plainThenJoint reduce this result that next = .unchangedR r) :
    ∃ r', next = .unchangedR r' := by
  cases result <;> cases next <;> simp [LNode.plainThenJoint] at h ⊢

theorem LNode.twtSImpl_endsR (this : LNode K V) (right : SNode K V) {r : R}
    (h : this.twtSImpl reduce ops right = .unchangedR r) : ops.EndsR this.visit (right.key, right.value) := by
  induction this generalizing r with
  | nextS k v s z =>
    rw [LNode.twtSImpl] at h
    split at h
    · next heq =>
      obtain ⟨r', h'⟩ := jointThenPlain_endsR reduce _ _ _ h
      exact .inl ⟨(k, v), List.mem_cons_self .., heq, r', by rw [MapJointTransform.closure_eq]; exact h'⟩
    · next heq =>
      obtain ⟨r', h'⟩ := plainThenJoint_endsR reduce _ _ _ h
      exact (SNode.twtImpl_endsR reduce ops s right h').cons (a := (k, v)) (by simpa using heq)
  | nextL k v l z ih =>
    rw [LNode.twtSImpl] at h
    split at h
    · next heq =>
      obtain ⟨r', h'⟩ := jointThenPlain_endsR reduce _ _ _ h
      exact .inl ⟨(k, v), List.mem_cons_self .., heq, r', by rw [MapJointTransform.closure_eq]; exact h'⟩
    · next heq =>
      obtain ⟨r', h'⟩ := plainThenJoint_endsR reduce _ _ _ h
      exact (ih h').cons (a := (k, v)) (by simpa using heq)

theorem TwtOps.TameOne.of_noKeep {ops : TwtOps K V R} {as bs : List (K × V)} (h : ops.left.NoKeep as) :
    ops.TameOne as bs :=
  ⟨fun _ _ _ _ _ _ _ a' ha' _ => h a' ha', fun _ _ _ _ _ => .inl h⟩

theorem TwtOps.TameOne.tail {ops : TwtOps K V R} {as : List (K × V)} {a b : K × V}
    (h : ops.TameOne (a :: as) [b]) (hne : (a.1 == b.1) = false) : ops.TameOne as [b] := by
  refine ⟨fun b' hb a' ha hm r hr a'' ha' => h.hit b' hb a' (List.mem_cons_of_mem _ ha) hm r hr a''
    (List.mem_cons_of_mem _ ha'), fun b' hb hm r hr => ?_⟩
  simp only [List.mem_cons, List.not_mem_nil, or_false] at hb
  subst hb
  refine (h.miss b' (List.mem_cons_self ..) (fun a' ha => ?_) r hr).imp
    (·.mono fun _ h => List.mem_cons_of_mem _ h) (·.mono fun _ h => List.mem_cons_of_mem _ h)
  rcases List.mem_cons.1 ha with rfl | ha
  · exact hne
  · exact hm _ ha

/-- With tame answers, no entry that is kept is followed by `UnchangedR`. -/
theorem TwtOps.TameOne.noEnd {ops : TwtOps K V R} {as : List (K × V)} {a b : K × V}
    (h : ops.TameOne (a :: as) [b]) (hne : (a.1 == b.1) = false) {r : R} (hk : ops.left.call a.1 a.2 = .unchanged r) :
    ¬ ops.EndsR as b := by
  rw [← MapTransform.closure_eq] at hk
  rintro (⟨a', h1, h2, r', h3⟩ | ⟨h1, ⟨r', h2⟩, a', h3, r'', h4⟩)
  · exact h.hit b (List.mem_cons_self ..) a' (List.mem_cons_of_mem _ h1) h2 r' h3 a (List.mem_cons_self ..) hne r hk
  · rcases h.miss b (List.mem_cons_self ..) (fun a'' h => by
      rcases List.mem_cons.1 h with rfl | h
      · exact hne
      · exact h1 _ h) r' h2 with h | h
    · exact h a (List.mem_cons_self ..) r hk
    · exact h a' (List.mem_cons_of_mem _ h3) r'' h4

theorem LNode.twtSImpl_spec (laws : KeyLaws hash) (this : LNode K V) (hsz : this.SizeOk)
    (hk : DistinctKeys this.visit) (right : SNode K V) (tame : ops.TameOne this.visit right.visit) :
    LGoodJ (ops.sem reduce e) ((Cross.same hash).cases this.visit right.visit) (.L this) (.S right)
      (this.twtSImpl reduce ops right) := by
  have hb : DistinctKeys right.visit := by simp [SNode.visit, DistinctKeys]
  have j := (CrossLaws.same laws).joinable hk hb
  induction this with
  | nextS k v s z =>
    rw [LNode.twtSImpl]
    cases heq : k == right.key with
    | true =>
      simp only [if_true]
      refine LGoodJ.perm ?_ (jointCases_hit j heq)
      exact jointThenPlain_good (s := ops.sem reduce e) (.nextS k v s z) hsz
        ((ops.aloneL reduce e).snode s) (fun o ho => MapJointTransform.entry_of_call ho) (by crfl)
    | false =>
      simp only [Bool.false_eq_true, if_false]
      have hc : (Cross.same hash).cases (LNode.nextS k v s z).visit right.visit =
        .left (k, v) :: (Cross.same hash).cases s.visit right.visit := jointCases_miss heq
      rw [hc]
      refine plainThenJoint_good (s := ops.sem reduce e) (.nextS k v s z) hsz
        (SNode.twtImpl_spec reduce e ops s right) (by crfl) (by crfl) ?_
      intro lr rr hl hn
      exact tame.noEnd (a := (k, v)) (as := s.visit) heq hl (SNode.twtImpl_endsR reduce ops s right hn)
  | nextL k v l z ih =>
    rw [LNode.twtSImpl]
    cases heq : k == right.key with
    | true =>
      simp only [if_true]
      refine LGoodJ.perm ?_ (jointCases_hit j heq)
      exact jointThenPlain_good (s := ops.sem reduce e) (.nextL k v l z) hsz
        ((ops.aloneL reduce e).lnode l hsz.2) (fun o ho => MapJointTransform.entry_of_call ho) (by crfl)
    | false =>
      simp only [Bool.false_eq_true, if_false]
      have hc : (Cross.same hash).cases (LNode.nextL k v l z).visit right.visit =
        .left (k, v) :: (Cross.same hash).cases l.visit right.visit := jointCases_miss heq
      rw [hc]
      refine plainThenJoint_good (s := ops.sem reduce e) (.nextL k v l z) hsz
        (ih hsz.2 (List.pairwise_cons.1 hk).2 (TwtOps.TameOne.tail (a := (k, v)) tame heq) j.tail) (by crfl) (by crfl) ?_
      intro lr rr hl hn
      exact tame.noEnd (a := (k, v)) (as := l.visit) heq hl (LNode.twtSImpl_endsR reduce ops l right hn)

/-! ### Two lists -/

/-- The left reading of a result. -/
def JRes.getL {N : Type} (left : N) : JRes N R → Option N
  | .unchangedLR _ => some left
  | .unchangedL _ => some left
  | .unchangedR _ => none
  | .node m _ => some m
  | .removed _ => none

/-- The state while the left list is walked: the left reading is right, the result is not `UnchangedR`,
    and for `UnchangedLR` all entries so far were paired, with results that may be the right entries. -/
structure Walk (s : Sem (K × V) (K × V) (K × V) R) (cs : List (Case (K × V) (K × V))) (left : LNext K V)
    (res : JRes (LNext K V) R) : Prop where
  good : LGood s cs (res.getL left) res.red
  noR : ∀ r, res ≠ .unchangedR r
  pairs : ∀ r, res = .unchangedLR r → ∀ p ∈ cs, s.out p p.rpart ∧ p.rpart ≠ none

omit [BEq K] in
theorem jointThenJoint_walk {s : Sem (K × V) (K × V) (K × V) R} (this : LNode K V) (hsz : this.SizeOk)
    {result : MapJointTransformResult V R} (that : Option (K × V))
    {next : JRes (LNext K V) R} {cs : List (Case (K × V) (K × V))}
    (G : Walk s cs this.next next) {p : Case (K × V) (K × V)} {b : K × V}
    (hp : ∀ o, result.Entry (this.key, this.value) b o → s.out p o) (hr : s.red p = result.red)
    (hR : ∀ r, result ≠ .unchangedR r)
    (hLR : ∀ r, result = .unchangedLR r → p.rpart = some b) :
    ∃ res, LNode.jointThenJoint s.reduce this result that next = .ok res ∧ Walk s (p :: cs) (.L this) res := by
  have hns := hsz.next
  have h2 := G.good.size
  have key : ∀ e : Option (K × V), result.Entry (this.key, this.value) b e →
      ∀ o' : Option (LNext K V), lvis o' = e.toList ++ lvis (next.getL this.next) →
      (∀ m, o' = some m → m.SizeOk) →
      ∀ r', r' = s.reduce result.red next.red → LGood s (p :: cs) o' r' :=
    fun e he o' h3 h4 r' h5 => G.good.cons (hp e he) hr (.of_eq h3) h4 h5
  have nR := G.noR
  cases result <;> cases next <;>
    first
      | exact absurd rfl (hR _)
      | exact absurd rfl (nR _)
      | refine ⟨_, rfl, ⟨?_, by simp, ?_⟩⟩
  all_goals try simp only [JRes.getL, Option.some.injEq, forall_eq', reduceCtorEq, false_implies, implies_true] at h2
  all_goals
    first
    | (intro r h; cases h; done)
    | (intro r _ q hq
       rcases List.mem_cons.1 hq with hq | hq
       · subst hq
         rw [hLR _ rfl]
         exact ⟨hp _ (.inr rfl), by simp⟩
       · exact G.pairs _ rfl q hq)
    | (refine key (some (this.key, this.value)) (by first | exact rfl | exact Or.inl rfl) _ ?_ ?_ _ rfl)
    | (refine key (some (this.key, _)) (Or.inl rfl) _ ?_ ?_ _ rfl)
    | (refine key none rfl _ ?_ ?_ _ rfl)
  all_goals
    first
    | exact this.visit_eq
    | exact LNode.new_visit ..
    | rfl
    | (intro m hm; injection hm with hm; subst hm
       first
        | exact hsz
        | exact hns
        | exact h2
        | exact LNode.new_sizeOk hns
        | exact LNode.new_sizeOk h2
        | trivial)
    | exact sizeOk_none

omit [BEq K] in
theorem JRes.getL_mem {N : Type} {left right : N} {res : JRes N R} (h : ∀ r, res ≠ .unchangedR r) :
    res.getL left ∈ res.gives left right := by
  cases res <;> simp [JRes.getL, JRes.gives]
  exact absurd rfl (h _)

omit [BEq K] in
theorem jointL_entry {res : MapTransformResult V R} {a : K × V} {o : Option (K × V)}
    (h : res.jointL.Entry a a o) : o = res.entry a := by
  cases res <;> simp only [MapTransformResult.jointL, MapJointTransformResult.Entry, or_self] at h <;> exact h

omit [BEq K] in
theorem jointL_red (res : MapTransformResult V R) : res.jointL.red = res.red := by cases res <;> rfl

omit [BEq K] in
theorem jointL_noR (res : MapTransformResult V R) (r : R) : res.jointL ≠ .unchangedR r := by
  cases res <;> simp [MapTransformResult.jointL]

omit [BEq K] in
theorem jointL_noLR (res : MapTransformResult V R) (r : R) : res.jointL ≠ .unchangedLR r := by
  cases res <;> simp [MapTransformResult.jointL]

theorem SNode.twtLast_walk (s : SNode K V) (bs : List (K × V))
    (j : Joinable (fun a b : K × V => a.1 == b.1) s.visit bs) (noR : ops.NoR s.visit bs) :
    ∃ cs, Walk (ops.sem reduce e) cs (.S s) (s.twtLast reduce ops bs).1 ∧
      Pending (fun a b : K × V => a.1 == b.1) s.visit bs cs (s.twtLast reduce ops bs).2.2 ∧
      (s.twtLast reduce ops bs).2.2 ⊆ bs := by
  have h0 := Pending.start (eq := fun (a : K × V) (b : K × V) => a.1 == b.1) bs
  unfold SNode.twtLast
  cases ht : takeMatch (fun b : K × V => s.key == b.1) bs with
  | none =>
    refine ⟨_, ?_, h0.miss (a := (s.key, s.value)) j ht, fun _ h => h⟩
    have h1 := (ops.aloneL reduce e).snode s
    cases hr : (s.transform ops.left).map LNext.S <;> rw [hr] at h1 <;>
      exact ⟨h1, by simp [TRes.jointL], by intro r h; cases h⟩
  | some q =>
    obtain ⟨b, rest⟩ := q
    obtain ⟨hb, hperm⟩ := takeMatch_some ht
    refine ⟨[.both (s.key, s.value) b], ?_, h0.hit (a := (s.key, s.value)) j ht,
      fun a ha => hperm.subset (List.mem_cons_of_mem _ ha)⟩
    have hmem : b ∈ bs := hperm.subset (List.mem_cons_self ..)
    have hn := noR.call (s.key, s.value) (by simp [SNode.visit]) b hmem hb
    have hg := SNode.twtImpl_spec reduce e ops s ⟨b.1, b.2⟩
    have hc : jointCases (fun a b : K × V => a.1 == b.1) s.visit (SNode.visit ⟨b.1, b.2⟩) =
      [.both (s.key, s.value) b] := jointCases_single_hit hb
    rw [hc] at hg
    have nR : ∀ r, s.twtImpl reduce ops ⟨b.1, b.2⟩ ≠ .unchangedR r := by
      intro r
      unfold SNode.twtImpl
      rw [hb]
      simp only [if_true]
      cases hres : ops.both.call s.key s.value b.1 b.2 <;> simp
      exact absurd hres (hn _)
    refine ⟨hg _ (JRes.getL_mem nR), nR, ?_⟩
    intro r hr p hp
    simp only [List.mem_cons, List.not_mem_nil, or_false] at hp
    subst hp
    refine ⟨?_, by simp [Case.rpart]⟩
    have hres : ops.both.call s.key s.value b.1 b.2 = .unchangedLR r := by
      have hr : s.twtImpl reduce ops ⟨b.1, b.2⟩ = .unchangedLR r := hr
      unfold SNode.twtImpl at hr
      rw [if_pos (by exact hb)] at hr
      cases hres : ops.both.call s.key s.value b.1 b.2 <;> rw [hres] at hr <;> simp at hr
      rw [hr]
    have h3 : (ops.both.call s.key s.value b.1 b.2).Entry (s.key, s.value) b (some b) := by
      rw [hres]; exact .inr rfl
    exact MapJointTransform.entry_of_call (a := (s.key, s.value)) h3

theorem TwtOps.step_walk (this : LNode K V) (hsz : this.SizeOk) (that : Option (K × V))
    {bs rest : List (K × V)} {tail : List (K × V)} {cs : List (Case (K × V) (K × V))} {next : JRes (LNext K V) R}
    (j : Joinable (fun a b : K × V => a.1 == b.1) ((this.key, this.value) :: tail) bs)
    (noR : ops.NoR [(this.key, this.value)] bs) (hsub : rest ⊆ bs)
    (G : Walk (ops.sem reduce e) cs this.next next)
    (P : Pending (fun a b : K × V => a.1 == b.1) tail bs cs rest) :
    ∃ cs' res, LNode.jointThenJoint reduce this (ops.step this.key this.value rest).1 that next = .ok res ∧
      Walk (ops.sem reduce e) cs' (.L this) res ∧
      Pending (fun a b : K × V => a.1 == b.1) ((this.key, this.value) :: tail) bs cs'
        (ops.step this.key this.value rest).2 ∧ (ops.step this.key this.value rest).2 ⊆ bs := by
  unfold TwtOps.step
  cases ht : takeMatch (fun b : K × V => this.key == b.1) rest with
  | none =>
    obtain ⟨res, h1, h2⟩ := jointThenJoint_walk (s := ops.sem reduce e) this hsz that G
      (p := .left (this.key, this.value)) (result := (ops.left.call this.key this.value).jointL)
      (b := (this.key, this.value)) (fun o ho => by have := jointL_entry ho; rw [← MapTransform.closure_eq] at this; exact this)
      (by rw [jointL_red, ← MapTransform.closure_eq]; rfl) (jointL_noR _)
      (fun r h => absurd h (jointL_noLR _ r))
    exact ⟨_, res, h1, h2, P.miss (a := (this.key, this.value)) j ht, hsub⟩
  | some q =>
    obtain ⟨b, rest'⟩ := q
    obtain ⟨hb, hperm⟩ := takeMatch_some ht
    have hmem : b ∈ bs := hsub (hperm.subset (List.mem_cons_self ..))
    obtain ⟨res, h1, h2⟩ := jointThenJoint_walk (s := ops.sem reduce e) this hsz that G
      (p := .both (this.key, this.value) b) (result := ops.both.call this.key this.value b.1 b.2)
      (b := b) (fun o ho => MapJointTransform.entry_of_call (a := (this.key, this.value)) ho) (by crfl)
      (noR.call (this.key, this.value) (by simp) b hmem hb)
      (fun r h => rfl)
    exact ⟨_, res, h1, h2, P.hit (a := (this.key, this.value)) j ht,
      fun a ha => hsub (hperm.subset (List.mem_cons_of_mem _ ha))⟩

theorem LNode.twtLImpl_walk (this : LNode K V) (hsz : this.SizeOk) (bs : List (K × V))
    (j : Joinable (fun a b : K × V => a.1 == b.1) this.visit bs) (noR : ops.NoR this.visit bs) :
    ∃ cs res, this.twtLImpl reduce ops bs = .ok res ∧ Walk (ops.sem reduce e) cs (.L this) res.1 ∧
      Pending (fun a b : K × V => a.1 == b.1) this.visit bs cs res.2 ∧ res.2 ⊆ bs := by
  induction this with
  | nextS k v s z =>
    have ht : s.visit ⊆ (LNode.nextS k v s z).visit := fun _ h => List.mem_cons_of_mem _ h
    have hh : [(k, v)] ⊆ (LNode.nextS k v s z).visit := by
      intro a ha; simp at ha; subst ha; exact List.mem_cons_self ..
    obtain ⟨cs, h1, h2, h3⟩ := SNode.twtLast_walk reduce e ops s bs j.tail (noR.mono ht fun _ h => h)
    obtain ⟨cs', res, q1, q2, q3, q4⟩ := TwtOps.step_walk reduce e ops (.nextS k v s z) hsz
      (s.twtLast reduce ops bs).2.1 (tail := s.visit) j (noR.mono hh fun _ h => h) h3 h1 h2
    refine ⟨cs', (res, (ops.step k v (s.twtLast reduce ops bs).2.2).2), ?_, q2, q3, q4⟩
    rw [LNode.twtLImpl]
    exact congrArg (fun a => a >>= fun res => Res.ok (res, (ops.step k v (s.twtLast reduce ops bs).2.2).2)) q1
  | nextL k v l z ih =>
    have ht : l.visit ⊆ (LNode.nextL k v l z).visit := fun _ h => List.mem_cons_of_mem _ h
    have hh : [(k, v)] ⊆ (LNode.nextL k v l z).visit := by
      intro a ha; simp at ha; subst ha; exact List.mem_cons_self ..
    obtain ⟨cs, next, h0, h1, h2, h3⟩ := ih hsz.2 j.tail (noR.mono ht fun _ h => h)
    obtain ⟨cs', res, q1, q2, q3, q4⟩ := TwtOps.step_walk reduce e ops (.nextL k v l z) hsz
      none (tail := l.visit) j (noR.mono hh fun _ h => h) h3 h1 h2
    refine ⟨cs', (res, (ops.step k v next.2).2), ?_, q2, q3, q4⟩
    rw [LNode.twtLImpl, h0]
    exact congrArg (fun a => a >>= fun res => Res.ok (res, (ops.step k v next.2).2)) q1

omit [BEq K] in
theorem TwtOps.leftover_walk (this : LNode K V) (hsz : this.SizeOk) (b : K × V)
    (next : JRes (LNext K V) R) {cs : List (Case (K × V) (K × V))}
    (G : Walk (ops.sem reduce e) cs (.L this) next) :
    ∃ res, ops.leftover reduce this next b = .ok res ∧
      Walk (ops.sem reduce e) (.right b :: cs) (.L this) res := by
  have h2 := G.good.size
  have nR := G.noR
  have key : ∀ result, ops.right.call b.1 b.2 = result →
      ∀ o' : Option (LNext K V), lvis o' = (result.entry b).toList ++ lvis (next.getL (.L this)) →
      (∀ m, o' = some m → m.SizeOk) →
      ∀ r', r' = reduce result.red next.red → LGood (ops.sem reduce e) (.right b :: cs) o' r' := by
    rintro result rfl o' h3 h4 r' h5
    exact G.good.cons (s := ops.sem reduce e) (by crfl) (by crfl) (.of_eq h3) h4 h5
  unfold TwtOps.leftover
  cases hres : ops.right.call b.1 b.2 <;> cases next <;>
    first
      | exact absurd rfl (nR _)
      | refine ⟨_, rfl, ⟨?_, by simp, ?_⟩⟩
  all_goals try simp only [JRes.getL, Option.some.injEq, forall_eq', reduceCtorEq, false_implies, implies_true] at h2
  all_goals
    first
    | (intro r h; cases h; done)
    | (refine key _ hres _ ?_ ?_ _ rfl)
  all_goals
    first
    | exact this.visit_eq
    | exact LNode.new_visit ..
    | rfl
    | (intro m hm; injection hm with hm; subst hm
       first
        | exact hsz
        | exact h2
        | exact LNode.new_sizeOk h2
        | trivial)
    | exact sizeOk_none

omit [BEq K] in
/-- After the loop over the remaining right entries, `UnchangedLR` only if there were none. -/
theorem TwtOps.leftovers_walk (this : LNode K V) (hsz : this.SizeOk) (rest : List (K × V))
    (next : JRes (LNext K V) R) {cs : List (Case (K × V) (K × V))}
    (G : Walk (ops.sem reduce e) cs (.L this) next) :
    ∃ res cs', ops.leftovers reduce this rest next = .ok res ∧
      cs'.Perm (cs ++ rest.map Case.right) ∧ Walk (ops.sem reduce e) cs' (.L this) res := by
  induction rest generalizing next cs with
  | nil => exact ⟨next, cs, rfl, by simp, G⟩
  | cons b rest ih =>
    obtain ⟨r1, q1, q2⟩ := TwtOps.leftover_walk reduce e ops this hsz b next G
    obtain ⟨res, cs', h1, h2, h3⟩ := ih r1 q2
    refine ⟨res, cs', ?_, ?_, h3⟩
    · rw [TwtOps.leftovers, q1]; exact h1
    · refine h2.trans ?_
      rw [List.map_cons]
      exact (List.perm_middle (a := Case.right b) (l₁ := cs) (l₂ := rest.map Case.right)).symm

/-- Two collision lists with equal hashes. -/
theorem LNode.twtLs_spec (laws : KeyLaws hash) (this right : LNode K V) (hsz : this.SizeOk)
    (hsr : right.SizeOk) (hk : DistinctKeys this.visit) (hb : DistinctKeys right.visit)
    (noR : ops.NoR this.visit right.visit) :
    ∃ next res, this.twtLImpl reduce ops right.visit = .ok next ∧
      ops.leftovers reduce this next.2 next.1 = .ok res ∧
      LGoodJ (ops.sem reduce e) ((Cross.same hash).cases this.visit right.visit) (.L this) (.L right) res := by
  have j := (CrossLaws.same laws).joinable hk hb
  obtain ⟨cs, next, h1, h2, h3, _⟩ := LNode.twtLImpl_walk reduce e ops this hsz right.visit j noR
  obtain ⟨res, cs', q1, q2, q3⟩ := TwtOps.leftovers_walk reduce e ops this hsz next.2 next.1 h2
  refine ⟨next, res, h1, q1, ?_⟩
  have hperm : cs'.Perm ((Cross.same hash).cases this.visit right.visit) := q2.trans h3.cases
  intro o ho
  have hl := q3.good.perm hperm
  have hcase : ∀ o, o = res.getL (.L this) → LGood (ops.sem reduce e) ((Cross.same hash).cases this.visit right.visit) o res.red := by
    rintro o rfl; exact hl
  cases res with
  | unchangedR r => exact absurd rfl (q3.noR r)
  | unchangedL r => exact hcase o (by simpa [JRes.gives, JRes.getL] using ho)
  | node m r => exact hcase o (by simpa [JRes.gives, JRes.getL] using ho)
  | removed r => exact hcase o (by simpa [JRes.gives, JRes.getL] using ho)
  | unchangedLR r =>
    simp only [JRes.gives, List.mem_cons, List.not_mem_nil, or_false] at ho
    rcases ho with rfl | rfl
    · exact hl
    · have hp := q3.pairs r rfl
      refine ⟨⟨⟨cs'.map fun p => (p, p.rpart), ?_, ?_, ?_⟩, hl.real.red⟩, ?_⟩
      · rw [List.map_map]
        refine List.Perm.trans (.of_eq ?_) hperm
        exact (List.map_congr_left fun _ _ => rfl).trans (List.map_id _)
      · intro q hq
        obtain ⟨p, hp', rfl⟩ := List.mem_map.1 hq
        exact (hp p hp').1
      · rw [List.filterMap_map]
        exact (jointCases_rpart j).symm.trans (hperm.filterMap Case.rpart).symm
      · intro m hm; injection hm with hm; subst hm; exact hsr

end
end HT
