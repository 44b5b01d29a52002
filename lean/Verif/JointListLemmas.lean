import Verif.JointSem
/-! # Joint operations on single nodes and collision lists with equal hashes -/
namespace HT

variable {A B E K V L W S X R : Type}

/-! ### Meaning of the operations -/

/-- `transform_with_transmuted`. -/
abbrev TwmOps.sem (ops : TwmOps K V L W R) (reduce : R → R → R) (e : R) : Sem (K × V) (L × W) (K × V) R :=
  ⟨fun p o => o = ops.out p, ops.red, reduce, e, CMon reduce e ∧ ops.Neutral e, And.left⟩

/-- `transmute_with_transformed`. -/
abbrev MwtOps.sem (ops : MwtOps K V L W R) (reduce : R → R → R) (e : R) : Sem (K × V) (L × W) (L × W) R :=
  ⟨fun p o => o = ops.out p, ops.red, reduce, e, CMon reduce e ∧ ops.Neutral e, And.left⟩

/-- `transmute_with_transmuted`. -/
abbrev MwmOps.sem (ops : MwmOps K V L W S X R) (reduce : R → R → R) (e : R) :
    Sem (K × V) (L × W) (S × X) R :=
  ⟨fun p o => o = ops.out p, ops.red, reduce, e, CMon reduce e ∧ ops.Neutral e, And.left⟩

/-- `transform_with_transformed`. -/
abbrev TwtOps.sem (ops : TwtOps K V R) (reduce : R → R → R) (e : R) : Sem (K × V) (K × V) (K × V) R :=
  ⟨ops.Out, ops.red, reduce, e, CMon reduce e ∧ ops.Neutral e, And.left⟩

/-! ### One operand alone -/

theorem Sem.Real.ofMap {s : Sem A B E R} {C : Type} (as : List C) {f : C → Case A B} {g : C → Option E}
    (ho : ∀ a ∈ as, s.out (f a) (g a)) {r : R}
    (hr : s.hyp → r = total s.reduce s.e (as.map fun a => s.red (f a))) :
    s.Real (as.map f) (as.filterMap g) r := by
  refine ⟨⟨as.map fun a => (f a, g a), ?_, ?_, ?_⟩, fun hy => ?_⟩
  · rw [List.map_map]; exact .refl _
  · intro p hp; obtain ⟨a, ha, rfl⟩ := List.mem_map.1 hp; exact ho a ha
  · rw [List.filterMap_map]; exact .refl _
  · rw [hr hy, List.map_map]; rfl

/-- The operation on the entries of one operand alone is a transformation. -/
structure AloneT (s : Sem A B (K × V) R) (f : K × V → Case A B)
    (op : MapTransform R (K → V → MapTransformResult V R)) : Prop where
  out : ∀ a, s.out (f a) ((op.call a.1 a.2).entry a)
  red : ∀ a, s.red (f a) = (op.call a.1 a.2).red
  neutral : s.hyp → op.Neutral s.e

/-- The operation on the entries of one operand alone is a transmutation. -/
structure AloneX (s : Sem A B (S × X) R) (f : K × V → Case A B)
    (op : MapTransmute R (K → V → MapTransmuteResult S X R)) : Prop where
  out : ∀ a, s.out (f a) (op.call a.1 a.2).entry
  red : ∀ a, s.red (f a) = (op.call a.1 a.2).red
  neutral : s.hyp → op.Neutral s.e

section
variable {s : Sem A B (K × V) R} {f : K × V → Case A B}
  {op : MapTransform R (K → V → MapTransformResult V R)}

theorem AloneT.real (h : AloneT s f op) (as : List (K × V)) {r : R}
    (hr : s.hyp → op.Neutral s.e → r = total s.reduce s.e (op.reds as)) :
    s.Real (as.map f) (op.outs as) r := by
  refine Sem.Real.ofMap as (fun a _ => h.out a) (fun hy => ?_)
  rw [hr hy (h.neutral hy)]
  congr 1
  apply List.map_congr_left
  intro a _; exact (h.red a).symm

theorem AloneT.snode (h : AloneT s f op) (n : SNode K V) :
    LGood s [f (n.key, n.value)] (((n.transform op).map LNext.S).get (.S n))
      ((n.transform op).map LNext.S).red := by
  obtain ⟨h1, h2, h3⟩ := SNode.transform_spec op n
  refine ⟨?_, h2⟩
  rw [h1]
  exact h.real n.visit (fun hy _ => h3 (s.cm hy).toMon)

theorem AloneT.lnode (h : AloneT s f op) (l : LNode K V) (hsz : l.SizeOk) :
    LGood s (l.visit.map f) ((l.transform s.reduce op).get (.L l)) (l.transform s.reduce op).red := by
  obtain ⟨h1, h2, h3⟩ := LNode.transform_spec op s.reduce l hsz
  refine ⟨?_, h2⟩
  rw [h1]
  exact h.real l.visit (fun hy hn => h3 (s.cm hy).toMon hn)

end

section
variable {s : Sem A B (S × X) R} {f : K × V → Case A B}
  {op : MapTransmute R (K → V → MapTransmuteResult S X R)}

theorem AloneX.real (h : AloneX s f op) (as : List (K × V)) {r : R}
    (hr : s.hyp → op.Neutral s.e → r = total s.reduce s.e (op.reds as)) :
    s.Real (as.map f) (op.outs as) r := by
  refine Sem.Real.ofMap as (fun a _ => h.out a) (fun hy => ?_)
  rw [hr hy (h.neutral hy)]
  congr 1
  apply List.map_congr_left
  intro a _; exact (h.red a).symm

theorem AloneX.snode (h : AloneX s f op) (n : SNode K V) :
    LGood s [f (n.key, n.value)] ((n.transmute op).map LNext.S).get
      ((n.transmute op).map LNext.S).red := by
  obtain ⟨h1, h2, h3⟩ := SNode.transmute_spec op n
  refine ⟨?_, h2⟩
  rw [h1]
  exact h.real n.visit (fun hy _ => h3 (s.cm hy).toMon)

theorem AloneX.lnode (h : AloneX s f op) (l : LNode K V) :
    LGood s (l.visit.map f) (l.transmute s.reduce op).get (l.transmute s.reduce op).red := by
  obtain ⟨h1, h2, h3⟩ := LNode.transmute_spec op s.reduce l
  refine ⟨?_, h2⟩
  rw [h1]
  exact h.real l.visit (fun hy hn => h3 (s.cm hy).toMon hn)

end

theorem TwmOps.aloneL (ops : TwmOps K V L W R) (reduce : R → R → R) (e : R) :
    AloneT (ops.sem reduce e) Case.left ops.left := by
  have h := ops.left.closure_eq
  refine ⟨fun a => ?_, fun a => ?_, fun h => h.2.2.1⟩
  · rw [← h]; rfl
  · rw [← h]; rfl

theorem TwmOps.aloneR (ops : TwmOps K V L W R) (reduce : R → R → R) (e : R) :
    AloneX (ops.sem reduce e) Case.right ops.right := by
  have h := ops.right.closure_eq
  refine ⟨fun a => ?_, fun a => ?_, fun h => h.2.2.2⟩
  · rw [← h]; rfl
  · rw [← h]; rfl

theorem MwtOps.aloneL (ops : MwtOps K V L W R) (reduce : R → R → R) (e : R) :
    AloneX (ops.sem reduce e) Case.left ops.left := by
  have h := ops.left.closure_eq
  refine ⟨fun a => ?_, fun a => ?_, fun h => h.2.2.1⟩
  · rw [← h]; rfl
  · rw [← h]; rfl

theorem MwtOps.aloneR (ops : MwtOps K V L W R) (reduce : R → R → R) (e : R) :
    AloneT (ops.sem reduce e) Case.right ops.right := by
  have h := ops.right.closure_eq
  refine ⟨fun a => ?_, fun a => ?_, fun h => h.2.2.2⟩
  · rw [← h]; rfl
  · rw [← h]; rfl

theorem MwmOps.aloneL (ops : MwmOps K V L W S X R) (reduce : R → R → R) (e : R) :
    AloneX (ops.sem reduce e) Case.left ops.left := by
  have h := ops.left.closure_eq
  refine ⟨fun a => ?_, fun a => ?_, fun h => h.2.2.1⟩
  · rw [← h]; rfl
  · rw [← h]; rfl

theorem MwmOps.aloneR (ops : MwmOps K V L W S X R) (reduce : R → R → R) (e : R) :
    AloneX (ops.sem reduce e) Case.right ops.right := by
  have h := ops.right.closure_eq
  refine ⟨fun a => ?_, fun a => ?_, fun h => h.2.2.2⟩
  · rw [← h]; rfl
  · rw [← h]; rfl

theorem TwtOps.aloneL (ops : TwtOps K V R) (reduce : R → R → R) (e : R) :
    AloneT (ops.sem reduce e) Case.left ops.left := by
  have h := ops.left.closure_eq
  refine ⟨fun a => ?_, fun a => ?_, fun h => h.2.2.1⟩
  · rw [← h]; rfl
  · rw [← h]; rfl

theorem TwtOps.aloneR (ops : TwtOps K V R) (reduce : R → R → R) (e : R) :
    AloneT (ops.sem reduce e) Case.right ops.right := by
  have h := ops.right.closure_eq
  refine ⟨fun a => ?_, fun a => ?_, fun h => h.2.2.2⟩
  · rw [← h]; rfl
  · rw [← h]; rfl

/-! ### The tables -/

theorem transformResult_good {s : Sem A B (K × V) R} (this : LNode K V) (hsz : this.SizeOk)
    {result : MapTransformResult V R} {next : TRes (LNext K V) R} {cs : List (Case A B)}
    (G : LGood s cs (next.get this.next) next.red) {p : Case A B}
    (hp : s.out p (result.entry (this.key, this.value))) (hr : s.red p = result.red) :
    LGood s (p :: cs) ((LNode.transformResult s.reduce this result next).get (.L this))
      (LNode.transformResult s.reduce this result next).red := by
  have hns := hsz.next
  have h2 := G.size
  refine G.cons hp hr (List.Perm.of_eq ?_) ?_ ?_
  · cases result <;> cases next <;> first | exact this.visit_eq | exact LNode.new_visit .. | rfl
  · intro m hm
    cases result <;> cases next <;>
      simp only [LNode.transformResult, TRes.get, Option.some.injEq, reduceCtorEq] at hm <;>
      simp only [TRes.get, Option.some.injEq, forall_eq', reduceCtorEq, false_implies, implies_true] at h2 <;>
      subst hm <;>
      first
        | exact hsz
        | exact hns
        | exact h2
        | exact LNode.new_sizeOk hns
        | exact LNode.new_sizeOk h2
        | trivial
  · cases result <;> cases next <;> rfl

theorem transmuteResult_good {s : Sem A B (S × X) R}
    {result : MapTransmuteResult S X R} {next : XRes (LNext S X) R} {cs : List (Case A B)}
    (G : LGood s cs next.get next.red) {p : Case A B}
    (hp : s.out p result.entry) (hr : s.red p = result.red) :
    LGood s (p :: cs) (LNode.transmuteResult s.reduce result next).get
      (LNode.transmuteResult s.reduce result next).red := by
  have h2 := G.size
  refine G.cons hp hr (List.Perm.of_eq ?_) ?_ ?_
  · cases result <;> cases next <;> first | exact LNode.new_visit .. | rfl
  · intro m hm
    cases result <;> cases next <;>
      simp only [LNode.transmuteResult, XRes.get, Option.some.injEq, reduceCtorEq] at hm <;>
      simp only [XRes.get, Option.some.injEq, forall_eq', reduceCtorEq, false_implies, implies_true] at h2 <;>
      subst hm <;>
      first
        | exact h2
        | exact LNode.new_sizeOk h2
        | trivial
  · cases result <;> cases next <;> rfl

theorem withTransmuted_good {s : Sem A B (K × V) R} (this : SNode K V)
    {result : MapTransformResult V R} {next : XRes (LNext K V) R} {cs : List (Case A B)}
    (G : LGood s cs next.get next.red) {p : Case A B}
    (hp : s.out p (result.entry (this.key, this.value))) (hr : s.red p = result.red) :
    LGood s (p :: cs) ((this.withTransmuted s.reduce result next).get (.S this))
      (this.withTransmuted s.reduce result next).red := by
  have h2 := G.size
  refine G.cons hp hr (List.Perm.of_eq ?_) ?_ ?_
  · cases result <;> cases next <;> first | exact LNode.new_visit .. | rfl
  · intro m hm
    cases result <;> cases next <;>
      simp only [SNode.withTransmuted, TRes.get, Option.some.injEq, reduceCtorEq] at hm <;>
      simp only [XRes.get, Option.some.injEq, forall_eq', reduceCtorEq, false_implies, implies_true] at h2 <;>
      subst hm <;>
      first
        | exact h2
        | exact LNode.new_sizeOk h2
        | trivial
  · cases result <;> cases next <;> rfl

theorem withTransformed_good {s : Sem A B (K × V) R} (this : SNode K V)
    {result : MapTransmuteResult K V R} {next : TRes (LNext K V) R} {cs : List (Case A B)}
    (G : LGood s cs (next.get (.S this)) next.red) {p : Case A B}
    (hp : s.out p result.entry) (hr : s.red p = result.red) :
    LGood s (p :: cs) ((this.withTransformed s.reduce result next).get (.S this))
      (this.withTransformed s.reduce result next).red := by
  have h2 := G.size
  refine G.cons hp hr (List.Perm.of_eq ?_) ?_ ?_
  · cases result <;> cases next <;> first | exact LNode.new_visit .. | rfl
  · intro m hm
    cases result <;> cases next <;>
      simp only [SNode.withTransformed, TRes.get, Option.some.injEq, reduceCtorEq] at hm <;>
      simp only [TRes.get, Option.some.injEq, forall_eq', reduceCtorEq, false_implies, implies_true] at h2 <;>
      subst hm <;>
      first
        | exact h2
        | exact LNode.new_sizeOk h2
        | trivial
  · cases result <;> cases next <;> rfl

/-! ### Taking matches from the vector of right entries -/

theorem swapRemove_perm {α : Type} {l : List α} {i : Nat} {a : α} (h : l[i]? = some a) :
    (a :: swapRemove l i).Perm l := by
  rcases List.eq_nil_or_concat l with rfl | ⟨l', z, rfl⟩
  · simp at h
  · rw [List.concat_eq_append] at h ⊢
    have hi : i < (l' ++ [z]).length := by
      rw [List.getElem?_eq_some_iff] at h; exact h.1
    simp only [List.length_append, List.length_cons, List.length_nil, Nat.zero_add] at hi
    simp only [swapRemove, List.getLast?_append, List.getLast?_singleton, Option.some_or]
    by_cases he : i = l'.length
    · subst he
      simp at h
      subst h
      have : (l' ++ [z]).set l'.length z = l' ++ [z] := by simp
      rw [this, List.dropLast_concat]
      exact (List.perm_append_singleton z l').symm
    · have hi' : i < l'.length := by omega
      rw [List.set_append_left _ _ hi', List.dropLast_concat]
      rw [List.getElem?_append_left hi', List.getElem?_eq_getElem hi'] at h
      injection h with h
      subst h
      refine ((List.set_perm_cons_eraseIdx hi' z).cons _).trans ?_
      refine (List.Perm.swap ..).trans ?_
      refine ((List.getElem_cons_eraseIdx_perm hi').cons z).trans ?_
      exact (List.perm_append_singleton z l').symm

theorem takeMatch_none {α : Type} {p : α → Bool} {l : List α} (h : takeMatch p l = none) :
    ∀ a ∈ l, p a = false := by
  unfold takeMatch at h
  cases hf : l.findIdx? p with
  | none => simpa [List.findIdx?_eq_none_iff] using hf
  | some i =>
    rw [hf] at h
    obtain ⟨h1, _⟩ := List.findIdx?_eq_some_iff_getElem.1 hf
    simp [List.getElem?_eq_getElem h1] at h

theorem takeMatch_some {α : Type} {p : α → Bool} {l rest : List α} {b : α}
    (h : takeMatch p l = some (b, rest)) : p b = true ∧ (b :: rest).Perm l := by
  unfold takeMatch at h
  cases hf : l.findIdx? p with
  | none => rw [hf] at h; simp at h
  | some i =>
    rw [hf] at h
    obtain ⟨h1, h2, _⟩ := List.findIdx?_eq_some_iff_getElem.1 hf
    simp only [List.getElem?_eq_getElem h1, Option.some.injEq, Prod.mk.injEq] at h
    obtain ⟨e1, e2⟩ := h
    subst e1; subst e2
    exact ⟨h2, swapRemove_perm (List.getElem?_eq_getElem h1)⟩

/-- The cases `cs` of the left entries `as` are dealt with; the right entries `rest` are left. -/
structure Pending (eq : A → B → Bool) (as : List A) (bs : List B) (cs : List (Case A B)) (rest : List B) :
    Prop where
  cases : (cs ++ rest.map Case.right).Perm (jointCases eq as bs)
  left : ∀ b ∈ bs, b ∈ rest ∨ ∃ a ∈ as, eq a b = true

theorem Pending.start {eq : A → B → Bool} (bs : List B) : Pending eq [] bs [] bs := by
  refine ⟨?_, fun b hb => .inl hb⟩
  rw [jointCases_nil_left]; exact .refl _

theorem Pending.hit {eq : A → B → Bool} {a : A} {as : List A} {bs : List B} {cs : List (Case A B)}
    {rest rest' : List B} {b : B} (j : Joinable eq (a :: as) bs) (h : Pending eq as bs cs rest)
    (ht : takeMatch (eq a) rest = some (b, rest')) :
    Pending eq (a :: as) bs (.both a b :: cs) rest' := by
  obtain ⟨hab, hp⟩ := takeMatch_some ht
  refine ⟨?_, ?_⟩
  · rw [List.cons_append]
    apply jointCases_cons_both j hab (ps := cs ++ rest'.map Case.right)
    refine List.Perm.trans ?_ h.cases
    have := (hp.map Case.right).append_left cs
    refine List.Perm.trans ?_ this
    simpa using (List.perm_middle (a := Case.right b) (l₁ := cs) (l₂ := rest'.map Case.right)).symm
  · intro b' hb'
    rcases h.left b' hb' with h' | ⟨a', ha', he⟩
    · rcases List.mem_cons.1 (hp.mem_iff.2 h') with h' | h'
      · subst h'; exact .inr ⟨a, List.mem_cons_self .., hab⟩
      · exact .inl h'
    · exact .inr ⟨a', List.mem_cons_of_mem _ ha', he⟩

theorem Pending.miss {eq : A → B → Bool} {a : A} {as : List A} {bs : List B} {cs : List (Case A B)}
    {rest : List B} (j : Joinable eq (a :: as) bs) (h : Pending eq as bs cs rest)
    (ht : takeMatch (eq a) rest = none) : Pending eq (a :: as) bs (.left a :: cs) rest := by
  refine ⟨?_, ?_⟩
  · rw [jointCases_cons_left]
    · exact h.cases.cons _
    · intro b hb
      rcases h.left b hb with h' | ⟨a', ha', he⟩
      · exact takeMatch_none ht b h'
      · cases hab : eq a b with
        | false => rfl
        | true =>
          have := j.ul a (List.mem_cons_self ..) a' (List.mem_cons_of_mem _ ha') b hb hab he
          subst this
          exact absurd ha' (List.nodup_cons.1 j.nl).1
  · intro b hb
    rcases h.left b hb with h' | ⟨a', ha', he⟩
    · exact .inl h'
    · exact .inr ⟨a', List.mem_cons_of_mem _ ha', he⟩

theorem Joinable.tail {eq : A → B → Bool} {a : A} {as : List A} {bs : List B}
    (j : Joinable eq (a :: as) bs) : Joinable eq as bs :=
  j.sub (List.nodup_cons.1 j.nl).2 j.nr (fun _ h => List.mem_cons_of_mem _ h) (fun _ h => h)

/-! ### A list against a single entry -/

theorem jointCases_hit {eq : A → B → Bool} {a : A} {as : List A} {b : B}
    (j : Joinable eq (a :: as) [b]) (h : eq a b = true) :
    (Case.both a b :: as.map Case.left).Perm (jointCases eq (a :: as) [b]) := by
  apply jointCases_cons_both j h
  have h0 : ∀ as : List A, (∀ a' ∈ as, eq a' b = false) →
      jointCases eq as [b] = as.map Case.left ++ [Case.right b] := by
    intro as
    induction as with
    | nil => intro _; exact jointCases_nil_left _
    | cons a' as ih =>
      intro h'
      rw [jointCases_cons_left (by simpa using h' a' (List.mem_cons_self ..)),
        ih (fun a'' h'' => h' a'' (List.mem_cons_of_mem _ h''))]
      rfl
  rw [h0]
  · exact (List.perm_append_singleton _ _).symm
  · intro a' ha'
    cases he : eq a' b with
    | false => rfl
    | true =>
      have := j.ul a (List.mem_cons_self ..) a' (List.mem_cons_of_mem _ ha') b (by simp) h he
      subst this
      exact absurd ha' (List.nodup_cons.1 j.nl).1

theorem jointCases_miss {eq : A → B → Bool} {a : A} {as : List A} {b : B} (h : eq a b = false) :
    jointCases eq (a :: as) [b] = .left a :: jointCases eq as [b] :=
  jointCases_cons_left (by simpa using h)

theorem jointCases_single_hit {eq : A → B → Bool} {a : A} {b : B} (h : eq a b = true) :
    jointCases eq [a] [b] = [.both a b] := by
  simp [jointCases, h]

theorem jointCases_single_miss {eq : A → B → Bool} {a : A} {b : B} (h : eq a b = false) :
    jointCases eq [a] [b] = [.left a, .right b] := by
  simp [jointCases, h]

/-! ### transform_with_transmuted -/

section
variable {c : Cfg} (x : Cross c K L) (reduce : R → R → R) (e : R) (ops : TwmOps K V L W R)

theorem SNode.twmImpl_spec (this : SNode K V) (rk : L) (rv : W) :
    LGood (ops.sem reduce e) (x.cases this.visit [(rk, rv)])
      ((this.twmImpl x reduce ops rk rv).get (.S this)) (this.twmImpl x reduce ops rk rv).red := by
  unfold SNode.twmImpl
  cases heq : x.eq this.key rk with
  | true =>
    rw [Cross.cases, SNode.visit, jointCases_single_hit (by exact heq)]
    simp only [if_true]
    refine LGood.single (s := ops.sem reduce e) rfl ?_ ?_ ?_ <;>
      (try simp only [TwmOps.out, TwmOps.red, MapTransform.closure_eq, MapTransform.closure2_eq, MapTransmute.closure_eq, MapTransmute.closure2_eq]) <;>
      cases ops.both.call2 this.key this.value rk rv <;> first | rfl | exact sizeOk_S | exact sizeOk_none
  | false =>
    rw [Cross.cases, SNode.visit, jointCases_single_miss (by exact heq)]
    simp only [Bool.false_eq_true, if_false]
    have hr := (ops.aloneR reduce e).snode ⟨rk, rv⟩
    refine hr.cons (s := ops.sem reduce e) (by crfl) (by crfl) ?_ ?_ ?_ <;>
      (try simp only [TwmOps.out, TwmOps.red, MapTransform.closure_eq, MapTransform.closure2_eq, MapTransmute.closure_eq, MapTransmute.closure2_eq, SNode.transmute]) <;>
      cases ops.left.call this.key this.value <;> cases ops.right.call rk rv <;>
      first
        | rfl
        | exact List.Perm.refl _
        | exact List.Perm.swap ..
        | exact sizeOk_S
        | exact sizeOk_none
        | (intro m hm; injection hm with hm; subst hm; rfl)

variable [BEq K] [BEq L] {x}

theorem LNode.twmSImpl_spec (laws : CrossLaws x) (this : LNode K V) (hsz : this.SizeOk)
    (hk : DistinctKeys this.visit) (right : SNode L W) :
    LGood (ops.sem reduce e) (x.cases this.visit right.visit)
      ((this.twmSImpl x reduce ops right).get (.L this)) (this.twmSImpl x reduce ops right).red := by
  have hb : DistinctKeys right.visit := by simp [SNode.visit, DistinctKeys]
  have j := laws.joinable hk hb
  induction this with
  | nextS k v s z =>
    rw [LNode.twmSImpl]
    cases heq : x.eq k right.key with
    | true =>
      simp only [if_true]
      refine LGood.perm ?_ (jointCases_hit j heq)
      exact transformResult_good (s := ops.sem reduce e) (.nextS k v s z) hsz
        ((ops.aloneL reduce e).snode s) (by crfl) (by crfl)
    | false =>
      simp only [Bool.false_eq_true, if_false]
      have hc : x.cases (LNode.nextS k v s z).visit right.visit =
        .left (k, v) :: x.cases s.visit right.visit := jointCases_miss (by exact heq)
      rw [hc]
      exact transformResult_good (s := ops.sem reduce e) (.nextS k v s z) hsz
        (SNode.twmImpl_spec x reduce e ops s right.key right.value) (by crfl) (by crfl)
  | nextL k v l z ih =>
    rw [LNode.twmSImpl]
    cases heq : x.eq k right.key with
    | true =>
      simp only [if_true]
      refine LGood.perm ?_ (jointCases_hit j heq)
      exact transformResult_good (s := ops.sem reduce e) (.nextL k v l z) hsz
        ((ops.aloneL reduce e).lnode l hsz.2) (by crfl) (by crfl)
    | false =>
      simp only [Bool.false_eq_true, if_false]
      have hc : x.cases (LNode.nextL k v l z).visit right.visit =
        .left (k, v) :: x.cases l.visit right.visit := jointCases_miss (by exact heq)
      rw [hc]
      exact transformResult_good (s := ops.sem reduce e) (.nextL k v l z) hsz
        (ih hsz.2 (List.pairwise_cons.1 hk).2 j.tail) (by crfl) (by crfl)

omit [BEq K] [BEq L] in
theorem SNode.twmLast_spec (s : SNode K V) (bs : List (L × W))
    (j : Joinable (fun a b => x.eq a.1 b.1) s.visit bs) :
    ∃ cs, LGood (ops.sem reduce e) cs ((s.twmLast x reduce ops bs).1.get (.S s))
        (s.twmLast x reduce ops bs).1.red ∧
      Pending (fun a b => x.eq a.1 b.1) s.visit bs cs (s.twmLast x reduce ops bs).2 := by
  have h0 := Pending.start (eq := fun (a : K × V) (b : L × W) => x.eq a.1 b.1) bs
  unfold SNode.twmLast
  cases ht : takeMatch (fun b : L × W => x.eq s.key b.1) bs with
  | none =>
    exact ⟨_, (ops.aloneL reduce e).snode s, h0.miss (a := (s.key, s.value)) j ht⟩
  | some q =>
    obtain ⟨b, rest⟩ := q
    refine ⟨[.both (s.key, s.value) b], ?_, h0.hit (a := (s.key, s.value)) j ht⟩
    have := SNode.twmImpl_spec x reduce e ops s b.1 b.2
    rw [Cross.cases, SNode.visit, jointCases_single_hit (by exact (takeMatch_some ht).1)] at this
    exact this

omit [BEq K] [BEq L] in
theorem LNode.twmLImpl_spec (this : LNode K V) (hsz : this.SizeOk) (bs : List (L × W))
    (j : Joinable (fun a b => x.eq a.1 b.1) this.visit bs) :
    ∃ cs, LGood (ops.sem reduce e) cs ((this.twmLImpl x reduce ops bs).1.get (.L this))
        (this.twmLImpl x reduce ops bs).1.red ∧
      Pending (fun a b => x.eq a.1 b.1) this.visit bs cs (this.twmLImpl x reduce ops bs).2 := by
  induction this with
  | nextS k v s z =>
    obtain ⟨cs, h1, h2⟩ := SNode.twmLast_spec reduce e ops s bs j.tail
    rw [LNode.twmLImpl]
    simp only [TwmOps.step]
    cases ht : takeMatch (fun b : L × W => x.eq k b.1) (s.twmLast x reduce ops bs).2 with
    | none =>
      exact ⟨_, transformResult_good (s := ops.sem reduce e) (p := .left (k, v)) (.nextS k v s z) hsz h1
        (by crfl) (by crfl), h2.miss (a := (k, v)) j ht⟩
    | some q =>
      obtain ⟨b, rest⟩ := q
      exact ⟨_, transformResult_good (s := ops.sem reduce e) (p := .both (k, v) b) (.nextS k v s z) hsz h1
        (by crfl) (by crfl), h2.hit (a := (k, v)) j ht⟩
  | nextL k v l z ih =>
    obtain ⟨cs, h1, h2⟩ := ih hsz.2 j.tail
    rw [LNode.twmLImpl]
    simp only [TwmOps.step]
    cases ht : takeMatch (fun b : L × W => x.eq k b.1) (l.twmLImpl x reduce ops bs).2 with
    | none =>
      exact ⟨_, transformResult_good (s := ops.sem reduce e) (p := .left (k, v)) (.nextL k v l z) hsz h1
        (by crfl) (by crfl), h2.miss (a := (k, v)) j ht⟩
    | some q =>
      obtain ⟨b, rest⟩ := q
      exact ⟨_, transformResult_good (s := ops.sem reduce e) (p := .both (k, v) b) (.nextL k v l z) hsz h1
        (by crfl) (by crfl), h2.hit (a := (k, v)) j ht⟩

omit [BEq K] [BEq L] in
theorem TwmOps.leftover_spec (this : LNode K V) (hsz : this.SizeOk) (rest : List (L × W))
    (next : TRes (LNext K V) R) {cs : List (Case (K × V) (L × W))}
    (G : LGood (ops.sem reduce e) cs (next.get (.L this)) next.red) :
    LGood (ops.sem reduce e) (cs ++ rest.map Case.right)
      ((rest.foldl (ops.leftover reduce this) next).get (.L this))
      (rest.foldl (ops.leftover reduce this) next).red := by
  induction rest generalizing next cs with
  | nil => simpa using G
  | cons b rest ih =>
    rw [List.foldl_cons, List.map_cons]
    refine (ih (ops.leftover reduce this next b) (cs := .right b :: cs) ?_).perm ?_
    · have h2 := G.size
      refine G.cons (s := ops.sem reduce e) (by crfl) (by crfl) ?_ ?_ ?_ <;>
        simp only [TwmOps.out, TwmOps.red, MapTransform.closure_eq, MapTransform.closure2_eq, MapTransmute.closure_eq, MapTransmute.closure2_eq, TwmOps.leftover]
      · refine List.Perm.of_eq ?_
        cases ops.right.call b.1 b.2 <;> cases next <;> first | exact LNode.new_visit .. | rfl
      · intro m hm
        cases hc : ops.right.call b.1 b.2 <;> rw [hc] at hm <;> cases next <;>
          simp only [TRes.get, Option.some.injEq, reduceCtorEq] at hm <;>
          simp only [TRes.get, Option.some.injEq, forall_eq', reduceCtorEq, false_implies, implies_true] at h2 <;>
          subst hm <;>
          first
            | exact h2
            | exact LNode.new_sizeOk h2
            | trivial
      · cases ops.right.call b.1 b.2 <;> cases next <;> rfl
    · exact (List.perm_middle (a := Case.right b) (l₁ := cs) (l₂ := rest.map Case.right)).symm

/-- Two collision lists with equal hashes. -/
theorem LNode.twmLs_spec (laws : CrossLaws x) (this : LNode K V) (hsz : this.SizeOk)
    (hk : DistinctKeys this.visit) (bs : List (L × W)) (hb : DistinctKeys bs) :
    let next := this.twmLImpl x reduce ops bs
    LGood (ops.sem reduce e) (x.cases this.visit bs)
      ((next.2.foldl (ops.leftover reduce this) next.1).get (.L this))
      (next.2.foldl (ops.leftover reduce this) next.1).red := by
  intro next
  obtain ⟨cs, h1, h2⟩ := LNode.twmLImpl_spec reduce e ops this hsz bs (laws.joinable hk hb)
  exact (TwmOps.leftover_spec reduce e ops this hsz _ _ h1).perm h2.cases

end

/-! ### transmute_with_transformed -/

section
variable {c : Cfg} (x : Cross c K L) (reduce : R → R → R) (e : R) (ops : MwtOps K V L W R)

theorem SNode.mwtImpl_spec (this : SNode K V) (right : SNode L W) :
    LGood (ops.sem reduce e) (x.cases this.visit right.visit)
      ((this.mwtImpl x reduce ops right).get (.S right)) (this.mwtImpl x reduce ops right).red := by
  unfold SNode.mwtImpl
  cases heq : x.eq this.key right.key with
  | true =>
    rw [Cross.cases, SNode.visit, SNode.visit, jointCases_single_hit (by exact heq)]
    simp only [if_true]
    refine LGood.single (s := ops.sem reduce e) rfl ?_ ?_ ?_ <;>
      (try simp only [MwtOps.out, MwtOps.red, MapTransform.closure_eq, MapTransform.closure2_eq, MapTransmute.closure_eq, MapTransmute.closure2_eq]) <;>
      cases ops.both.call2 this.key this.value right.key right.value <;>
      first | rfl | exact sizeOk_S | exact sizeOk_none
  | false =>
    rw [Cross.cases, SNode.visit, SNode.visit, jointCases_single_miss (by exact heq)]
    simp only [Bool.false_eq_true, if_false]
    have hr := (ops.aloneR reduce e).snode right
    refine hr.cons (s := ops.sem reduce e) (by crfl) (by crfl) ?_ ?_ ?_ <;>
      (try simp only [MwtOps.out, MwtOps.red, MapTransform.closure_eq, MapTransform.closure2_eq, MapTransmute.closure_eq, MapTransmute.closure2_eq, SNode.transform]) <;>
      cases ops.left.call this.key this.value <;> cases ops.right.call right.key right.value <;>
      first
        | rfl
        | exact List.Perm.refl _
        | exact sizeOk_S
        | exact sizeOk_none
        | (intro m hm; injection hm with hm; subst hm; rfl)

variable [BEq K] [BEq L] {x}

theorem LNode.mwtSImpl_spec (laws : CrossLaws x) (this : LNode K V)
    (hk : DistinctKeys this.visit) (right : SNode L W) :
    LGood (ops.sem reduce e) (x.cases this.visit right.visit)
      ((this.mwtSImpl x reduce ops right).get (.S right)) (this.mwtSImpl x reduce ops right).red := by
  have hb : DistinctKeys right.visit := by simp [SNode.visit, DistinctKeys]
  have j := laws.joinable hk hb
  induction this with
  | nextS k v s z =>
    rw [LNode.mwtSImpl]
    cases heq : x.eq k right.key with
    | true =>
      simp only [if_true]
      refine LGood.perm ?_ (jointCases_hit j heq)
      exact withTransmuted_good (s := ops.sem reduce e) right ((ops.aloneL reduce e).snode s) (by crfl) (by crfl)
    | false =>
      simp only [Bool.false_eq_true, if_false]
      have hc : x.cases (LNode.nextS k v s z).visit right.visit =
        .left (k, v) :: x.cases s.visit right.visit := jointCases_miss (by exact heq)
      rw [hc]
      exact withTransformed_good (s := ops.sem reduce e) right
        (SNode.mwtImpl_spec x reduce e ops s right) (by crfl) (by crfl)
  | nextL k v l z ih =>
    rw [LNode.mwtSImpl]
    cases heq : x.eq k right.key with
    | true =>
      simp only [if_true]
      refine LGood.perm ?_ (jointCases_hit j heq)
      exact withTransmuted_good (s := ops.sem reduce e) right ((ops.aloneL reduce e).lnode l) (by crfl) (by crfl)
    | false =>
      simp only [Bool.false_eq_true, if_false]
      have hc : x.cases (LNode.nextL k v l z).visit right.visit =
        .left (k, v) :: x.cases l.visit right.visit := jointCases_miss (by exact heq)
      rw [hc]
      exact withTransformed_good (s := ops.sem reduce e) right
        (ih (List.pairwise_cons.1 hk).2 j.tail) (by crfl) (by crfl)

end

/-! ### transmute_with_transmuted -/

section
variable {c : Cfg} (x : Cross c K L) (reduce : R → R → R) (e : R) (ops : MwmOps K V L W S X R)

theorem SNode.mwmValues_spec (a : K × V) (b : L × W) :
    LGood (ops.sem reduce e) (x.cases [a] [b])
      (SNode.mwmValues x reduce ops a.1 a.2 b.1 b.2).get (SNode.mwmValues x reduce ops a.1 a.2 b.1 b.2).red := by
  unfold SNode.mwmValues
  cases heq : x.eq a.1 b.1 with
  | true =>
    rw [Cross.cases, jointCases_single_hit (by exact heq)]
    simp only [if_true]
    refine LGood.single (s := ops.sem reduce e) rfl ?_ ?_ ?_ <;>
      (try simp only [MwmOps.out, MwmOps.red, MapTransform.closure_eq, MapTransform.closure2_eq, MapTransmute.closure_eq, MapTransmute.closure2_eq]) <;>
      cases ops.both.call2 a.1 a.2 b.1 b.2 <;> first | rfl | exact sizeOk_S | exact sizeOk_none
  | false =>
    rw [Cross.cases, jointCases_single_miss (by exact heq)]
    simp only [Bool.false_eq_true, if_false]
    have hr := (ops.aloneR reduce e).snode ⟨b.1, b.2⟩
    refine hr.cons (s := ops.sem reduce e) (by crfl) (by crfl) ?_ ?_ ?_ <;>
      (try simp only [MwmOps.out, MwmOps.red, MapTransform.closure_eq, MapTransform.closure2_eq, MapTransmute.closure_eq, MapTransmute.closure2_eq, SNode.transmute]) <;>
      cases ops.left.call a.1 a.2 <;> cases ops.right.call b.1 b.2 <;>
      first
        | rfl
        | exact List.Perm.refl _
        | exact sizeOk_S
        | exact sizeOk_none
        | (intro m hm; injection hm with hm; subst hm; rfl)

variable [BEq K] [BEq L] {x}

theorem LNode.mwmSImpl_spec (laws : CrossLaws x) (this : LNode K V)
    (hk : DistinctKeys this.visit) (right : SNode L W) :
    LGood (ops.sem reduce e) (x.cases this.visit right.visit)
      (this.mwmSImpl x reduce ops right).get (this.mwmSImpl x reduce ops right).red := by
  have hb : DistinctKeys right.visit := by simp [SNode.visit, DistinctKeys]
  have j := laws.joinable hk hb
  induction this with
  | nextS k v s z =>
    rw [LNode.mwmSImpl]
    cases heq : x.eq k right.key with
    | true =>
      simp only [if_true]
      refine LGood.perm ?_ (jointCases_hit j heq)
      exact transmuteResult_good (s := ops.sem reduce e) ((ops.aloneL reduce e).snode s) (by crfl) (by crfl)
    | false =>
      simp only [Bool.false_eq_true, if_false]
      have hc : x.cases (LNode.nextS k v s z).visit right.visit =
        .left (k, v) :: x.cases s.visit right.visit := jointCases_miss (by exact heq)
      rw [hc]
      exact transmuteResult_good (s := ops.sem reduce e)
        (SNode.mwmValues_spec x reduce e ops (s.key, s.value) (right.key, right.value)) (by crfl) (by crfl)
  | nextL k v l z ih =>
    rw [LNode.mwmSImpl]
    cases heq : x.eq k right.key with
    | true =>
      simp only [if_true]
      refine LGood.perm ?_ (jointCases_hit j heq)
      exact transmuteResult_good (s := ops.sem reduce e) ((ops.aloneL reduce e).lnode l) (by crfl) (by crfl)
    | false =>
      simp only [Bool.false_eq_true, if_false]
      have hc : x.cases (LNode.nextL k v l z).visit right.visit =
        .left (k, v) :: x.cases l.visit right.visit := jointCases_miss (by exact heq)
      rw [hc]
      exact transmuteResult_good (s := ops.sem reduce e)
        (ih (List.pairwise_cons.1 hk).2 j.tail) (by crfl) (by crfl)

omit [BEq K] [BEq L] in
theorem SNode.mwmLast_spec (s : SNode K V) (bs : List (L × W))
    (j : Joinable (fun a b => x.eq a.1 b.1) s.visit bs) :
    ∃ cs, LGood (ops.sem reduce e) cs (s.mwmLast x reduce ops bs).1.get
        (s.mwmLast x reduce ops bs).1.red ∧
      Pending (fun a b => x.eq a.1 b.1) s.visit bs cs (s.mwmLast x reduce ops bs).2 := by
  have h0 := Pending.start (eq := fun (a : K × V) (b : L × W) => x.eq a.1 b.1) bs
  unfold SNode.mwmLast
  cases ht : takeMatch (fun b : L × W => x.eq s.key b.1) bs with
  | none =>
    exact ⟨_, (ops.aloneL reduce e).snode s, h0.miss (a := (s.key, s.value)) j ht⟩
  | some q =>
    obtain ⟨b, rest⟩ := q
    refine ⟨[.both (s.key, s.value) b], ?_, h0.hit (a := (s.key, s.value)) j ht⟩
    have := SNode.mwmValues_spec x reduce e ops (s.key, s.value) b
    rw [Cross.cases, jointCases_single_hit (by exact (takeMatch_some ht).1)] at this
    exact this

omit [BEq K] [BEq L] in
theorem LNode.mwmLImpl_spec (this : LNode K V) (bs : List (L × W))
    (j : Joinable (fun a b => x.eq a.1 b.1) this.visit bs) :
    ∃ cs, LGood (ops.sem reduce e) cs (this.mwmLImpl x reduce ops bs).1.get
        (this.mwmLImpl x reduce ops bs).1.red ∧
      Pending (fun a b => x.eq a.1 b.1) this.visit bs cs (this.mwmLImpl x reduce ops bs).2 := by
  induction this with
  | nextS k v s z =>
    obtain ⟨cs, h1, h2⟩ := SNode.mwmLast_spec reduce e ops s bs j.tail
    rw [LNode.mwmLImpl]
    simp only [MwmOps.step]
    cases ht : takeMatch (fun b : L × W => x.eq k b.1) (s.mwmLast x reduce ops bs).2 with
    | none =>
      exact ⟨_, transmuteResult_good (s := ops.sem reduce e) (p := .left (k, v)) h1 (by crfl) (by crfl),
        h2.miss (a := (k, v)) j ht⟩
    | some q =>
      obtain ⟨b, rest⟩ := q
      exact ⟨_, transmuteResult_good (s := ops.sem reduce e) (p := .both (k, v) b) h1 (by crfl) (by crfl),
        h2.hit (a := (k, v)) j ht⟩
  | nextL k v l z ih =>
    obtain ⟨cs, h1, h2⟩ := ih j.tail
    rw [LNode.mwmLImpl]
    simp only [MwmOps.step]
    cases ht : takeMatch (fun b : L × W => x.eq k b.1) (l.mwmLImpl x reduce ops bs).2 with
    | none =>
      exact ⟨_, transmuteResult_good (s := ops.sem reduce e) (p := .left (k, v)) h1 (by crfl) (by crfl),
        h2.miss (a := (k, v)) j ht⟩
    | some q =>
      obtain ⟨b, rest⟩ := q
      exact ⟨_, transmuteResult_good (s := ops.sem reduce e) (p := .both (k, v) b) h1 (by crfl) (by crfl),
        h2.hit (a := (k, v)) j ht⟩

omit [BEq K] [BEq L] in
theorem MwmOps.leftover_spec (rest : List (L × W))
    (next : XRes (LNext S X) R) {cs : List (Case (K × V) (L × W))}
    (G : LGood (ops.sem reduce e) cs next.get next.red) :
    LGood (ops.sem reduce e) (cs ++ rest.map Case.right)
      (rest.foldl (ops.leftover reduce) next).get (rest.foldl (ops.leftover reduce) next).red := by
  induction rest generalizing next cs with
  | nil => simpa using G
  | cons b rest ih =>
    rw [List.foldl_cons, List.map_cons]
    refine (ih (ops.leftover reduce next b) (cs := .right b :: cs) ?_).perm ?_
    · have h2 := G.size
      refine G.cons (s := ops.sem reduce e) (by crfl) (by crfl) ?_ ?_ ?_ <;>
        simp only [MwmOps.out, MwmOps.red, MapTransform.closure_eq, MapTransform.closure2_eq, MapTransmute.closure_eq, MapTransmute.closure2_eq, MwmOps.leftover]
      · refine List.Perm.of_eq ?_
        cases ops.right.call b.1 b.2 <;> cases next <;> first | exact LNode.new_visit .. | rfl
      · intro m hm
        cases hc : ops.right.call b.1 b.2 <;> rw [hc] at hm <;> cases next <;>
          simp only [XRes.get, Option.some.injEq, reduceCtorEq] at hm <;>
          simp only [XRes.get, Option.some.injEq, forall_eq', reduceCtorEq, false_implies, implies_true] at h2 <;>
          subst hm <;>
          first
            | exact h2
            | exact LNode.new_sizeOk h2
            | trivial
      · cases ops.right.call b.1 b.2 <;> cases next <;> rfl
    · exact (List.perm_middle (a := Case.right b) (l₁ := cs) (l₂ := rest.map Case.right)).symm

/-- Two collision lists with equal hashes. -/
theorem LNode.mwmLs_spec (laws : CrossLaws x) (this : LNode K V)
    (hk : DistinctKeys this.visit) (bs : List (L × W)) (hb : DistinctKeys bs) :
    let next := this.mwmLImpl x reduce ops bs
    LGood (ops.sem reduce e) (x.cases this.visit bs)
      (next.2.foldl (ops.leftover reduce) next.1).get
      (next.2.foldl (ops.leftover reduce) next.1).red := by
  intro next
  obtain ⟨cs, h1, h2⟩ := LNode.mwmLImpl_spec reduce e ops this bs (laws.joinable hk hb)
  exact (MwmOps.leftover_spec reduce e ops _ _ h1).perm h2.cases

end
end HT
