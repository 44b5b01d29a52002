import Verif.JointListLemmas
/-!
# Which comparisons of keys the joint functions depend on: single nodes and collision lists

The joint functions hash the keys of both operands and compare keys of equal hash.  So two ways of hashing and comparing
(`Cross`) that agree to that extent give the same results.
-/
namespace HT

variable {K V L W S X R : Type} {c : Cfg}

/-- `x` and `y` hash the given keys alike and agree on which of them are equal, as far as keys of equal hash are
    concerned. -/
structure Cross.Same (x y : Cross c K L) (P : K → Prop) (Q : L → Prop) : Prop where
  hash : ∀ k, P k → y.hash k = x.hash k
  hash' : ∀ l, Q l → y.hash' l = x.hash' l
  eq : ∀ k l, P k → Q l → x.hash k = x.hash' l → y.eq k l = x.eq k l
  eq' : ∀ k l, P k → Q l → x.hash k = x.hash' l → y.eq' l k = x.eq' l k

theorem Cross.Same.flip {x y : Cross c K L} {P : K → Prop} {Q : L → Prop} (h : x.Same y P Q) :
    x.flip.Same y.flip Q P :=
  ⟨h.hash', h.hash, fun l k hl hk e => h.eq' k l hk hl e.symm, fun l k hl hk e => h.eq k l hk hl e.symm⟩

/-- The keys of a collision list have one hash, and are among the given ones. -/
structure LNode.Grouped (hash : K → BitVec c.w) (P : K → Prop) (l : LNode K V) : Prop where
  key : P l.key
  keys : ∀ e ∈ l.visit, P e.1 ∧ hash e.1 = hash l.key

theorem takeMatch_congr {α : Type} {p q : α → Bool} {l : List α} (h : ∀ a ∈ l, q a = p a) :
    takeMatch q l = takeMatch p l := by
  unfold takeMatch
  have : l.findIdx? q = l.findIdx? p := by
    induction l with
    | nil => rfl
    | cons a l ih =>
      rw [List.findIdx?_cons, List.findIdx?_cons, h a (List.mem_cons_self ..),
        ih fun b hb => h b (List.mem_cons_of_mem _ hb)]
  rw [this]

theorem takeMatch_sub {α : Type} {p : α → Bool} {l rest : List α} {b : α} (h : takeMatch p l = some (b, rest)) :
    b ∈ l ∧ ∀ a ∈ rest, a ∈ l := by
  have h2 := (takeMatch_some h).2
  exact ⟨h2.mem_iff.1 (List.mem_cons_self ..), fun a ha => h2.mem_iff.1 (List.mem_cons_of_mem _ ha)⟩

theorem LNode.rights_sub {right : LNode L W} {l : List (L × W)} (h : right.rights = .ok l) : ∀ b ∈ l, b ∈ right.visit := by
  cases right with
  | nextS k v s z =>
    injection h with h; subst h
    intro b hb; exact hb
  | nextL k v l z => cases h

variable {x y : Cross c K L} {P : K → Prop} {Q : L → Prop} (reduce : R → R → R)

/-- The entries of a list all agree about one key. -/
theorem Cross.Same.all (h : x.Same y P Q) {l : LNode K V} (hl : l.Grouped x.hash P) {r : L} (hr : Q r)
    (e : x.hash l.key = x.hash' r) : ∀ a ∈ l.visit, y.eq a.1 r = x.eq a.1 r :=
  fun a ha => h.eq a.1 r (hl.keys a ha).1 hr ((hl.keys a ha).2.trans e)

/-- The entries of two lists agree about each other. -/
theorem Cross.Same.all2 (h : x.Same y P Q) {l : LNode K V} (hl : l.Grouped x.hash P) {r : LNode L W}
    (hr : r.Grouped x.hash' Q) (e : x.hash l.key = x.hash' r.key) :
    ∀ a ∈ l.visit, ∀ b ∈ r.visit, y.eq a.1 b.1 = x.eq a.1 b.1 :=
  fun a ha b hb => h.eq a.1 b.1 (hl.keys a ha).1 (hr.keys b hb).1
    ((hl.keys a ha).2.trans (e.trans (hr.keys b hb).2.symm))

section
variable (ops : TwmOps K V L W R)

theorem SNode.twmImpl_same {s : SNode K V} {rk : L} {rv : W} (h : y.eq s.key rk = x.eq s.key rk) :
    s.twmImpl y reduce ops rk rv = s.twmImpl x reduce ops rk rv := by
  unfold SNode.twmImpl; rw [h]

theorem SNode.twm_same (h : x.Same y P Q) {s : SNode K V} (hs : P s.key) {r : SNode L W} (hr : Q r.key) (d : Nat) :
    s.twm y reduce ops r d = s.twm x reduce ops r d := by
  unfold SNode.twm
  rw [h.hash _ hs, h.hash' _ hr]
  split
  · rename_i e
    rw [SNode.twmImpl_same reduce ops (h.eq _ _ hs hr e)]
  · rfl

theorem LNode.twmSImpl_same {r : SNode L W} : ∀ {l : LNode K V}, (∀ a ∈ l.visit, y.eq a.1 r.key = x.eq a.1 r.key) →
    l.twmSImpl y reduce ops r = l.twmSImpl x reduce ops r
  | .nextS k v s z, h => by
    rw [LNode.twmSImpl, LNode.twmSImpl, h (k, v) (by simp [LNode.visit]),
      SNode.twmImpl_same reduce ops (h (s.key, s.value) (by simp [LNode.visit, SNode.visit]))]
  | .nextL k v l z, h => by
    rw [LNode.twmSImpl, LNode.twmSImpl, h (k, v) (by simp [LNode.visit]),
      LNode.twmSImpl_same fun a ha => h a (by simp [LNode.visit, ha])]

theorem LNode.twmS_same (h : x.Same y P Q) {l : LNode K V} (hl : l.Grouped x.hash P) {r : SNode L W} (hr : Q r.key)
    (d : Nat) : l.twmS y reduce ops r d = l.twmS x reduce ops r d := by
  unfold LNode.twmS
  rw [h.hash _ hl.key, h.hash' _ hr]
  split
  · rename_i e
    rw [LNode.twmSImpl_same reduce ops (h.all hl hr e)]
  · rfl

theorem SNode.twmLast_same {s : SNode K V} {bs : List (L × W)} (h : ∀ b ∈ bs, y.eq s.key b.1 = x.eq s.key b.1) :
    s.twmLast y reduce ops bs = s.twmLast x reduce ops bs ∧ ∀ b ∈ (s.twmLast x reduce ops bs).2, b ∈ bs := by
  unfold SNode.twmLast
  rw [takeMatch_congr (p := fun e : L × W => x.eq s.key e.1) (fun b hb => h b hb)]
  cases ht : takeMatch (fun e : L × W => x.eq s.key e.1) bs with
  | none => exact ⟨rfl, fun b hb => hb⟩
  | some p =>
    obtain ⟨b, rest⟩ := p
    exact ⟨congrArg (·, rest) (SNode.twmImpl_same reduce ops (h b (takeMatch_sub ht).1)), (takeMatch_sub ht).2⟩

theorem TwmOps.step_same {k : K} {v : V} {bs : List (L × W)} (h : ∀ b ∈ bs, y.eq k b.1 = x.eq k b.1) :
    ops.step y k v bs = ops.step x k v bs ∧ ∀ b ∈ (ops.step x k v bs).2, b ∈ bs := by
  unfold TwmOps.step
  rw [takeMatch_congr (p := fun e : L × W => x.eq k e.1) (fun b hb => h b hb)]
  cases ht : takeMatch (fun e : L × W => x.eq k e.1) bs with
  | none => exact ⟨rfl, fun b hb => hb⟩
  | some p =>
    obtain ⟨b, rest⟩ := p
    exact ⟨rfl, (takeMatch_sub ht).2⟩

theorem LNode.twmLImpl_same : ∀ {l : LNode K V} {bs : List (L × W)},
    (∀ a ∈ l.visit, ∀ b ∈ bs, y.eq a.1 b.1 = x.eq a.1 b.1) →
    l.twmLImpl y reduce ops bs = l.twmLImpl x reduce ops bs ∧ ∀ b ∈ (l.twmLImpl x reduce ops bs).2, b ∈ bs
  | .nextS k v s z, bs, h => by
    obtain ⟨h1, h2⟩ := SNode.twmLast_same reduce ops (h (s.key, s.value) (by simp [LNode.visit, SNode.visit]))
    obtain ⟨h3, h4⟩ := TwmOps.step_same ops (v := v) fun b hb => h (k, v) (by simp [LNode.visit]) b (h2 b hb)
    simp only [LNode.twmLImpl]
    rw [h1, h3]
    exact ⟨rfl, fun b hb => h2 b (h4 b hb)⟩
  | .nextL k v l z, bs, h => by
    obtain ⟨h1, h2⟩ := LNode.twmLImpl_same (l := l) fun a ha => h a (by simp [LNode.visit, ha])
    obtain ⟨h3, h4⟩ := TwmOps.step_same ops (v := v) fun b hb => h (k, v) (by simp [LNode.visit]) b (h2 b hb)
    simp only [LNode.twmLImpl]
    rw [h1, h3]
    exact ⟨rfl, fun b hb => h2 b (h4 b hb)⟩

theorem LNode.twmL_same (h : x.Same y P Q) {l : LNode K V} (hl : l.Grouped x.hash P) {r : LNode L W}
    (hr : r.Grouped x.hash' Q) (d : Nat) : l.twmL y reduce ops r d = l.twmL x reduce ops r d := by
  unfold LNode.twmL
  rw [h.hash _ hl.key, h.hash' _ hr.key]
  split
  · rename_i e
    cases hb : r.rights with
    | panic p => rfl
    | diverge => rfl
    | ok bs =>
      have := (LNode.twmLImpl_same reduce ops fun a ha b hb' => h.all2 hl hr e a ha b (LNode.rights_sub hb b hb')).1
      simp only [Res.ok_bind, this]
  · rfl

end

section
variable (ops : MwtOps K V L W R)

theorem SNode.mwtImpl_same {s : SNode K V} {r : SNode L W} (h : y.eq s.key r.key = x.eq s.key r.key) :
    s.mwtImpl y reduce ops r = s.mwtImpl x reduce ops r := by
  unfold SNode.mwtImpl; rw [h]

theorem SNode.mwt_same (h : x.Same y P Q) {s : SNode K V} (hs : P s.key) {r : SNode L W} (hr : Q r.key) (d : Nat) :
    s.mwt y reduce ops r d = s.mwt x reduce ops r d := by
  unfold SNode.mwt
  rw [h.hash _ hs, h.hash' _ hr]
  split
  · rename_i e
    rw [SNode.mwtImpl_same reduce ops (h.eq _ _ hs hr e)]
  · rfl

theorem LNode.mwtSImpl_same {r : SNode L W} : ∀ {l : LNode K V}, (∀ a ∈ l.visit, y.eq a.1 r.key = x.eq a.1 r.key) →
    l.mwtSImpl y reduce ops r = l.mwtSImpl x reduce ops r
  | .nextS k v s z, h => by
    rw [LNode.mwtSImpl, LNode.mwtSImpl, h (k, v) (by simp [LNode.visit]),
      SNode.mwtImpl_same reduce ops (h (s.key, s.value) (by simp [LNode.visit, SNode.visit]))]
  | .nextL k v l z, h => by
    rw [LNode.mwtSImpl, LNode.mwtSImpl, h (k, v) (by simp [LNode.visit]),
      LNode.mwtSImpl_same fun a ha => h a (by simp [LNode.visit, ha])]

theorem LNode.mwtS_same (h : x.Same y P Q) {l : LNode K V} (hl : l.Grouped x.hash P) {r : SNode L W} (hr : Q r.key)
    (d : Nat) : l.mwtS y reduce ops r d = l.mwtS x reduce ops r d := by
  unfold LNode.mwtS
  rw [h.hash _ hl.key, h.hash' _ hr]
  split
  · rename_i e
    rw [LNode.mwtSImpl_same reduce ops (h.all hl hr e)]
  · rfl

end

section
variable (ops : MwmOps K V L W S X R)

theorem SNode.mwmValues_same {lk : K} {lv : V} {rk : L} {rv : W} (h : y.eq lk rk = x.eq lk rk) :
    SNode.mwmValues y reduce ops lk lv rk rv = SNode.mwmValues x reduce ops lk lv rk rv := by
  unfold SNode.mwmValues; rw [h]

theorem SNode.mwm_same (h : x.Same y P Q) {s : SNode K V} (hs : P s.key) {r : SNode L W} (hr : Q r.key) (d : Nat) :
    s.mwm y reduce ops r d = s.mwm x reduce ops r d := by
  unfold SNode.mwm
  rw [h.hash _ hs, h.hash' _ hr]
  split
  · rename_i e
    rw [SNode.mwmValues_same reduce ops (h.eq _ _ hs hr e)]
  · rfl

theorem LNode.mwmSImpl_same {r : SNode L W} : ∀ {l : LNode K V}, (∀ a ∈ l.visit, y.eq a.1 r.key = x.eq a.1 r.key) →
    l.mwmSImpl y reduce ops r = l.mwmSImpl x reduce ops r
  | .nextS k v s z, h => by
    rw [LNode.mwmSImpl, LNode.mwmSImpl, h (k, v) (by simp [LNode.visit]),
      SNode.mwmValues_same reduce ops (h (s.key, s.value) (by simp [LNode.visit, SNode.visit]))]
  | .nextL k v l z, h => by
    rw [LNode.mwmSImpl, LNode.mwmSImpl, h (k, v) (by simp [LNode.visit]),
      LNode.mwmSImpl_same fun a ha => h a (by simp [LNode.visit, ha])]

theorem LNode.mwmS_same (h : x.Same y P Q) {l : LNode K V} (hl : l.Grouped x.hash P) {r : SNode L W} (hr : Q r.key)
    (d : Nat) : l.mwmS y reduce ops r d = l.mwmS x reduce ops r d := by
  unfold LNode.mwmS
  rw [h.hash _ hl.key, h.hash' _ hr]
  split
  · rename_i e
    rw [LNode.mwmSImpl_same reduce ops (h.all hl hr e)]
  · rfl

theorem SNode.mwmLast_same {s : SNode K V} {bs : List (L × W)} (h : ∀ b ∈ bs, y.eq s.key b.1 = x.eq s.key b.1) :
    s.mwmLast y reduce ops bs = s.mwmLast x reduce ops bs ∧ ∀ b ∈ (s.mwmLast x reduce ops bs).2, b ∈ bs := by
  unfold SNode.mwmLast
  rw [takeMatch_congr (p := fun e : L × W => x.eq s.key e.1) (fun b hb => h b hb)]
  cases ht : takeMatch (fun e : L × W => x.eq s.key e.1) bs with
  | none => exact ⟨rfl, fun b hb => hb⟩
  | some p =>
    obtain ⟨b, rest⟩ := p
    exact ⟨congrArg (·, rest) (SNode.mwmValues_same reduce ops (h b (takeMatch_sub ht).1)), (takeMatch_sub ht).2⟩

theorem MwmOps.step_same {k : K} {v : V} {bs : List (L × W)} (h : ∀ b ∈ bs, y.eq k b.1 = x.eq k b.1) :
    ops.step y k v bs = ops.step x k v bs ∧ ∀ b ∈ (ops.step x k v bs).2, b ∈ bs := by
  unfold MwmOps.step
  rw [takeMatch_congr (p := fun e : L × W => x.eq k e.1) (fun b hb => h b hb)]
  cases ht : takeMatch (fun e : L × W => x.eq k e.1) bs with
  | none => exact ⟨rfl, fun b hb => hb⟩
  | some p =>
    obtain ⟨b, rest⟩ := p
    exact ⟨rfl, (takeMatch_sub ht).2⟩

theorem LNode.mwmLImpl_same : ∀ {l : LNode K V} {bs : List (L × W)},
    (∀ a ∈ l.visit, ∀ b ∈ bs, y.eq a.1 b.1 = x.eq a.1 b.1) →
    l.mwmLImpl y reduce ops bs = l.mwmLImpl x reduce ops bs ∧ ∀ b ∈ (l.mwmLImpl x reduce ops bs).2, b ∈ bs
  | .nextS k v s z, bs, h => by
    obtain ⟨h1, h2⟩ := SNode.mwmLast_same reduce ops (h (s.key, s.value) (by simp [LNode.visit, SNode.visit]))
    obtain ⟨h3, h4⟩ := MwmOps.step_same ops (v := v) fun b hb => h (k, v) (by simp [LNode.visit]) b (h2 b hb)
    simp only [LNode.mwmLImpl]
    rw [h1, h3]
    exact ⟨rfl, fun b hb => h2 b (h4 b hb)⟩
  | .nextL k v l z, bs, h => by
    obtain ⟨h1, h2⟩ := LNode.mwmLImpl_same (l := l) fun a ha => h a (by simp [LNode.visit, ha])
    obtain ⟨h3, h4⟩ := MwmOps.step_same ops (v := v) fun b hb => h (k, v) (by simp [LNode.visit]) b (h2 b hb)
    simp only [LNode.mwmLImpl]
    rw [h1, h3]
    exact ⟨rfl, fun b hb => h2 b (h4 b hb)⟩

theorem LNode.mwmL_same (h : x.Same y P Q) {l : LNode K V} (hl : l.Grouped x.hash P) {r : LNode L W}
    (hr : r.Grouped x.hash' Q) (d : Nat) : l.mwmL y reduce ops r d = l.mwmL x reduce ops r d := by
  unfold LNode.mwmL
  rw [h.hash _ hl.key, h.hash' _ hr.key]
  split
  · rename_i e
    cases hb : r.rights with
    | panic p => rfl
    | diverge => rfl
    | ok bs =>
      have := (LNode.mwmLImpl_same reduce ops fun a ha b hb' => h.all2 hl hr e a ha b (LNode.rights_sub hb b hb')).1
      simp only [Res.ok_bind, this]
  · rfl

end

/-! ### transform_with_transformed: two ways `i`, `j` of comparing keys of one type -/

section
variable {i j : BEq K} {f g : K → BitVec c.w} (ops : TwtOps K V R)

/-- `Cross` of one key type. -/
def Cross.of (i : BEq K) (f : K → BitVec c.w) : Cross c K K := ⟨f, f, i.beq, i.beq⟩

theorem SNode.twtImpl_same {s r : SNode K V} (h : j.beq s.key r.key = i.beq s.key r.key) :
    @SNode.twtImpl K V R reduce j ops s r = @SNode.twtImpl K V R reduce i ops s r := by
  unfold SNode.twtImpl
  rw [show (@BEq.beq _ j s.key r.key) = @BEq.beq _ i s.key r.key from h]

theorem SNode.twt_same {P Q : K → Prop} (h : (Cross.of i f).Same (Cross.of j g) P Q) {s r : SNode K V} (hs : P s.key)
    (hr : Q r.key) (d : Nat) :
    @SNode.twt K V R c reduce j g ops s r d = @SNode.twt K V R c reduce i f ops s r d := by
  unfold SNode.twt
  rw [show g s.key = f s.key from h.hash _ hs, show g r.key = f r.key from h.hash' _ hr]
  split
  · rename_i e
    rw [SNode.twtImpl_same reduce ops (h.eq _ _ hs hr e)]
  · rfl

theorem LNode.twtSImpl_same {r : SNode K V} : ∀ {l : LNode K V},
    (∀ a ∈ l.visit, j.beq a.1 r.key = i.beq a.1 r.key) →
    @LNode.twtSImpl K V R reduce j ops r l = @LNode.twtSImpl K V R reduce i ops r l
  | .nextS k v s z, h => by
    rw [LNode.twtSImpl, LNode.twtSImpl,
      show (@BEq.beq _ j k r.key) = @BEq.beq _ i k r.key from h (k, v) (by simp [LNode.visit]),
      SNode.twtImpl_same reduce ops (h (s.key, s.value) (by simp [LNode.visit, SNode.visit]))]
  | .nextL k v l z, h => by
    rw [LNode.twtSImpl, LNode.twtSImpl,
      show (@BEq.beq _ j k r.key) = @BEq.beq _ i k r.key from h (k, v) (by simp [LNode.visit]),
      LNode.twtSImpl_same fun a ha => h a (by simp [LNode.visit, ha])]

theorem LNode.twtS_same {P Q : K → Prop} (h : (Cross.of i f).Same (Cross.of j g) P Q) {l : LNode K V}
    (hl : l.Grouped f P) {r : SNode K V} (hr : Q r.key) (d : Nat) :
    @LNode.twtS K V R c reduce j g ops l r d = @LNode.twtS K V R c reduce i f ops l r d := by
  unfold LNode.twtS
  rw [show g l.key = f l.key from h.hash _ hl.key, show g r.key = f r.key from h.hash' _ hr]
  split
  · rename_i e
    rw [LNode.twtSImpl_same reduce ops (h.all (x := Cross.of i f) hl hr e)]
  · rfl

theorem SNode.twtLast_same {s : SNode K V} {bs : List (K × V)} (h : ∀ b ∈ bs, j.beq s.key b.1 = i.beq s.key b.1) :
    @SNode.twtLast K V R reduce j ops s bs = @SNode.twtLast K V R reduce i ops s bs ∧
      ∀ b ∈ (@SNode.twtLast K V R reduce i ops s bs).2.2, b ∈ bs := by
  unfold SNode.twtLast
  rw [takeMatch_congr (p := fun e : K × V => @BEq.beq _ i s.key e.1) (fun b hb => h b hb)]
  cases ht : takeMatch (fun e : K × V => @BEq.beq _ i s.key e.1) bs with
  | none => exact ⟨rfl, fun b hb => hb⟩
  | some p =>
    obtain ⟨b, rest⟩ := p
    exact ⟨congrArg (·, some b, rest) (SNode.twtImpl_same reduce ops (h b (takeMatch_sub ht).1)), (takeMatch_sub ht).2⟩

theorem TwtOps.step_same {k : K} {v : V} {bs : List (K × V)} (h : ∀ b ∈ bs, j.beq k b.1 = i.beq k b.1) :
    @TwtOps.step K V R j ops k v bs = @TwtOps.step K V R i ops k v bs ∧
      ∀ b ∈ (@TwtOps.step K V R i ops k v bs).2, b ∈ bs := by
  unfold TwtOps.step
  rw [takeMatch_congr (p := fun e : K × V => @BEq.beq _ i k e.1) (fun b hb => h b hb)]
  cases ht : takeMatch (fun e : K × V => @BEq.beq _ i k e.1) bs with
  | none => exact ⟨rfl, fun b hb => hb⟩
  | some p =>
    obtain ⟨b, rest⟩ := p
    exact ⟨rfl, (takeMatch_sub ht).2⟩

theorem LNode.twtLImpl_same : ∀ {l : LNode K V} {bs : List (K × V)},
    (∀ a ∈ l.visit, ∀ b ∈ bs, j.beq a.1 b.1 = i.beq a.1 b.1) →
    @LNode.twtLImpl K V R reduce j ops l bs = @LNode.twtLImpl K V R reduce i ops l bs ∧
      ∀ res rest, @LNode.twtLImpl K V R reduce i ops l bs = .ok (res, rest) → ∀ b ∈ rest, b ∈ bs
  | .nextS k v s z, bs, h => by
    obtain ⟨h1, h2⟩ := SNode.twtLast_same reduce ops (h (s.key, s.value) (by simp [LNode.visit, SNode.visit]))
    obtain ⟨h3, h4⟩ := TwtOps.step_same ops (v := v) fun b hb => h (k, v) (by simp [LNode.visit]) b (h2 b hb)
    simp only [LNode.twtLImpl]
    rw [h1, h3]
    refine ⟨rfl, fun res rest hr b hb => ?_⟩
    obtain ⟨res', _, hr⟩ := Res.bind_eq_ok.1 hr
    injection hr with hr; injection hr with _ hr; subst hr
    exact h2 b (h4 b hb)
  | .nextL k v l z, bs, h => by
    obtain ⟨h1, h2⟩ := LNode.twtLImpl_same (l := l) fun a ha => h a (by simp [LNode.visit, ha])
    simp only [LNode.twtLImpl]
    rw [h1]
    cases hn : @LNode.twtLImpl K V R reduce i ops l bs with
    | panic p => exact ⟨rfl, fun _ _ h => by cases h⟩
    | diverge => exact ⟨rfl, fun _ _ h => by cases h⟩
    | ok next =>
      obtain ⟨next, rest0⟩ := next
      have h2 := h2 _ _ hn
      obtain ⟨h3, h4⟩ := TwtOps.step_same ops (v := v) fun b hb => h (k, v) (by simp [LNode.visit]) b (h2 b hb)
      simp only [Res.ok_bind]
      rw [h3]
      refine ⟨rfl, fun res rest hr b hb => ?_⟩
      obtain ⟨res', _, hr⟩ := Res.bind_eq_ok.1 hr
      injection hr with hr; injection hr with _ hr; subst hr
      exact h2 b (h4 b hb)

theorem LNode.twtL_same {P Q : K → Prop} (h : (Cross.of i f).Same (Cross.of j g) P Q) {l r : LNode K V}
    (hl : l.Grouped f P) (hr : r.Grouped f Q) (d : Nat) :
    @LNode.twtL K V R c reduce j g ops l r d = @LNode.twtL K V R c reduce i f ops l r d := by
  unfold LNode.twtL
  rw [show g l.key = f l.key from h.hash _ hl.key, show g r.key = f r.key from h.hash' _ hr.key]
  split
  · rename_i e
    cases hb : r.rights with
    | panic p => rfl
    | diverge => rfl
    | ok bs =>
      have := (LNode.twtLImpl_same reduce ops fun a ha b hb' =>
        h.all2 (x := Cross.of i f) hl hr e a ha b (LNode.rights_sub hb b hb')).1
      simp only [Res.ok_bind, this]
  · rfl

end
end HT
