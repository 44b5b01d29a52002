import Verif.EffCalls
/-! # Which calls the joint operations on single nodes and collision lists make -/
namespace HT

variable {K V L W S X R : Type} {Q : Type} {A : Q → Type}
variable [BEq K] [BEq L] {c : Cfg} {x : Cross c K L}

/-! ### Cases of single nodes and lists -/

section
variable {qs : Case (K × V) (L × W) → List Q}

omit [BEq K] [BEq L] in
theorem calls_single_hit {a : K × V} {b : L × W} (h : x.eq a.1 b.1 = true) :
    (x.cases [a] [b]).flatMap qs = qs (.both a b) := by
  rw [Cross.cases, jointCases_single_hit (by exact h)]
  simp

omit [BEq K] [BEq L] in
theorem calls_single_miss {a : K × V} {b : L × W} (h : x.eq a.1 b.1 = false) :
    (x.cases [a] [b]).flatMap qs = qs (.left a) ++ qs (.right b) := by
  rw [Cross.cases, jointCases_single_miss (by exact h)]
  simp

omit [BEq K] [BEq L] in
theorem calls_hit {a : K × V} {as : List (K × V)} {b : L × W}
    (j : Joinable (fun a b => x.eq a.1 b.1) (a :: as) [b]) (h : x.eq a.1 b.1 = true) :
    ((as.flatMap fun a => qs (.left a)) ++ qs (.both a b)).Perm ((x.cases (a :: as) [b]).flatMap qs) := by
  refine List.Perm.trans ?_ ((jointCases_hit j h).flatMap_right qs)
  rw [List.flatMap_cons, List.flatMap_map]
  exact List.perm_append_comm

omit [BEq K] [BEq L] in
theorem calls_miss {a : K × V} {as : List (K × V)} {b : L × W} (h : x.eq a.1 b.1 = false) :
    ((x.cases as [b]).flatMap qs ++ qs (.left a)).Perm ((x.cases (a :: as) [b]).flatMap qs) := by
  rw [Cross.cases, Cross.cases, jointCases_miss (by exact h), List.flatMap_cons]
  exact List.perm_append_comm

/-- Operands with different hashes have no keys in common. -/
theorem calls_apart (laws : CrossLaws x) {as : List (K × V)} {bs : List (L × W)} {hl hr : BitVec c.w}
    (h1 : ∀ a ∈ as, x.hash a.1 = hl) (h2 : ∀ b ∈ bs, x.hash' b.1 = hr) (hne : hl ≠ hr) :
    (as.flatMap fun a => qs (.left a)) ++ (bs.flatMap fun b => qs (.right b)) = (x.cases as bs).flatMap qs := by
  rw [cases_apart, List.flatMap_append, List.flatMap_map, List.flatMap_map]
  intro a ha b hb
  cases h : x.eq a.1 b.1 with
  | false => rfl
  | true => exact absurd ((h1 a ha).symm.trans ((laws.hash _ _ h).trans (h2 b hb))) hne

/-- Exchanging the operands. -/
theorem calls_flip (laws : CrossLaws x) {as : List (K × V)} {bs : List (L × W)} (ha : DistinctKeys as)
    (hb : DistinctKeys bs) :
    ((x.flip.cases bs as).flatMap fun p => qs p.flip).Perm ((x.cases as bs).flatMap qs) := by
  refine ((cases_flip_perm laws ha hb).symm.flatMap_right _).trans (.of_eq ?_)
  rw [List.flatMap_map]
  simp only [Case.flip_flip]

end

omit [BEq K] [BEq L] in
theorem ALNode.erase_visit_nextS (a : Nat) (k : K) (v : V) (s : ASNode K V) (z : Nat) :
    (ALNode.nextS a k v s z).erase.visit = (k, v) :: s.erase.visit := rfl

omit [BEq K] [BEq L] in
theorem ALNode.erase_visit_nextL (a : Nat) (k : K) (v : V) (l : ALNode K V) (z : Nat) :
    (ALNode.nextL a k v l z).erase.visit = (k, v) :: l.erase.visit := rfl

omit [BEq K] [BEq L] in
theorem ALNode.rights_ok {right : ALNode L W} {l : List (L × W)} (h : right.rights = .ok l) :
    l = right.erase.visit := by
  cases right with
  | nextS a k v s z => injection h with h; exact h.symm
  | nextL a k v s z => cases h

/-! ### transform_with_transmuted -/

section
variable (laws : CrossLaws x) (reduce : R → R → R) {ops : TwmOpsM Q A K V L W R} {qs : Case (K × V) (L × W) → List Q}
  (ho : ops.Asks qs)
include ho

omit [BEq K] [BEq L] in
theorem ASNode.twmImpl_calls (this : ASNode K V) (rk : L) (rv : W) :
    (this.twmImpl x reduce ops rk rv).CallsT ((x.cases this.erase.visit [(rk, rv)]).flatMap qs) := by
  refine .ite (fun he => ?_) fun he => ?_
  · exact (Prog.Calls.bindEnd (ho.both.call this.key this.value rk rv) fun _ _ => .bindNil .al fun _ _ => .pureT).eq
      (calls_single_hit (a := (this.key, this.value)) (b := (rk, rv)) he).symm
  · exact (Prog.Calls.two (ho.left.call this.key this.value) (ho.right.call rk rv) fun _ _ => .al).eq
      (calls_single_miss (a := (this.key, this.value)) (b := (rk, rv)) (by simpa using he)).symm

include laws

theorem ASNode.twm_calls (this : ASNode K V) (right : ASNode L W) (d : Nat) :
    (this.twm x reduce ops right d).CallsT ((x.cases this.erase.visit right.erase.visit).flatMap qs) := by
  refine .ite (fun he => ?_) fun he => ?_
  · exact .map (this.twmImpl_calls reduce ho right.key right.value)
  · exact (Prog.Calls.two (this.transformE_calls ho.left) (right.transmuteE_calls ho.right) fun _ _ => .al).eq
      (calls_apart laws this.erase.hash_visit right.erase.hash_visit he)

theorem ALNode.twmSImpl_calls (this : ALNode K V) (hk : DistinctKeys this.erase.visit) (right : ASNode L W) :
    (this.twmSImpl x reduce ops right).CallsT ((x.cases this.erase.visit right.erase.visit).flatMap qs) := by
  have hb : DistinctKeys right.erase.visit := by simp [SNode.visit, DistinctKeys]
  have j := laws.joinable hk hb
  induction this with
  | nextS a k v s z =>
    refine .ite (fun he => ?_) fun he => ?_
    · exact (Prog.Calls.two (s.transformE_calls ho.left) (ho.both.call k v right.key right.value) fun _ _ => .al).perm
        (calls_hit j he)
    · exact (Prog.Calls.two (s.twmImpl_calls reduce ho right.key right.value) (ho.left.call k v) fun _ _ => .al).perm
        (calls_miss (a := (k, v)) (b := (right.key, right.value)) (by simpa using he))
  | nextL a k v l z ih =>
    refine .ite (fun he => ?_) fun he => ?_
    · exact (Prog.Calls.two (l.transformE_calls reduce ho.left) (ho.both.call k v right.key right.value) fun _ _ => .al).perm
        (calls_hit j he)
    · exact (Prog.Calls.two (ih (List.pairwise_cons.1 hk).2 j.tail) (ho.left.call k v) fun _ _ => .al).perm
        (calls_miss (a := (k, v)) (b := (right.key, right.value)) (by simpa using he))

theorem ALNode.twmS_calls (this : ALNode K V) (wl : this.erase.WF x.hash) (right : ASNode L W) (d : Nat) :
    (this.twmS x reduce ops right d).CallsT ((x.cases this.erase.visit right.erase.visit).flatMap qs) := by
  have hk := wl.hash
  rw [ALNode.erase_key] at hk
  refine .ite (fun he => ?_) fun he => ?_
  · exact .map (this.twmSImpl_calls laws reduce ho wl.keys right)
  · exact (Prog.Calls.two (this.transformE_calls reduce ho.left) (right.transmuteE_calls ho.right) fun _ _ => .al).eq
      (calls_apart laws hk right.erase.hash_visit he)

omit laws [BEq K] [BEq L] in
theorem ASNode.twmLast_calls (s : ASNode K V) (bs : List (L × W))
    (j : Joinable (fun a b => x.eq a.1 b.1) s.erase.visit bs) :
    ∃ cs rest, (s.twmLast x reduce ops bs).Calls (cs.flatMap qs) (fun r => r.2 = rest) ∧
      Pending (fun a b => x.eq a.1 b.1) s.erase.visit bs cs rest := by
  have h0 := Pending.start (eq := fun (a : K × V) (b : L × W) => x.eq a.1 b.1) bs
  unfold ASNode.twmLast
  cases ht : takeMatch (fun b : L × W => x.eq s.key b.1) bs with
  | none =>
    refine ⟨_, bs, .bindEnd (P := fun _ => True) ?_ fun _ _ => .pure rfl, h0.miss (a := (s.key, s.value)) j ht⟩
    exact (s.transformE_calls ho.left).eq (by simp [ASNode.erase, SNode.visit])
  | some q =>
    obtain ⟨b, rest⟩ := q
    refine ⟨[.both (s.key, s.value) b], rest, ?_, h0.hit (a := (s.key, s.value)) j ht⟩
    have := s.twmImpl_calls (x := x) reduce ho b.1 b.2
    have := this.eq (calls_single_hit (a := (s.key, s.value)) (takeMatch_some ht).1)
    exact .bindEnd (this.eq (by simp)) fun _ _ => .pure rfl

omit laws [BEq K] [BEq L] in
theorem TwmOpsM.step_calls (k : K) (v : V) {as : List (K × V)} {bs rest : List (L × W)} {cs : List (Case (K × V) (L × W))}
    (j : Joinable (fun a b => x.eq a.1 b.1) ((k, v) :: as) bs)
    (h : Pending (fun a b => x.eq a.1 b.1) as bs cs rest) :
    ∃ p rest', (ops.step x k v rest).Calls (qs p) (fun r => r.2 = rest') ∧
      Pending (fun a b => x.eq a.1 b.1) ((k, v) :: as) bs (p :: cs) rest' := by
  unfold TwmOpsM.step
  cases ht : takeMatch (fun b : L × W => x.eq k b.1) rest with
  | none => exact ⟨_, rest, .bindEnd (ho.left.call k v) fun _ _ => .pure rfl, h.miss (a := (k, v)) j ht⟩
  | some q =>
    obtain ⟨b, rest'⟩ := q
    exact ⟨_, rest', .bindEnd (ho.both.call k v b.1 b.2) fun _ _ => .pure rfl, h.hit (a := (k, v)) j ht⟩

omit laws [BEq K] [BEq L] in
theorem ALNode.twmLImpl_calls (this : ALNode K V) (bs : List (L × W))
    (j : Joinable (fun a b => x.eq a.1 b.1) this.erase.visit bs) :
    ∃ cs rest, (this.twmLImpl x reduce ops bs).Calls (cs.flatMap qs) (fun r => r.2 = rest) ∧
      Pending (fun a b => x.eq a.1 b.1) this.erase.visit bs cs rest := by
  induction this with
  | nextS a k v s z =>
    obtain ⟨cs, rest, h1, h2⟩ := s.twmLast_calls reduce ho bs j.tail
    obtain ⟨p, rest', h3, h4⟩ := TwmOpsM.step_calls ho k v j h2
    refine ⟨p :: cs, rest', ?_, h4⟩
    refine Prog.Calls.perm (.bind h1 fun next hn => ?_) List.perm_append_comm
    subst hn
    exact .bindEnd h3 fun r hr => .bindNil .al fun _ _ => .pure hr
  | nextL a k v l z ih =>
    obtain ⟨cs, rest, h1, h2⟩ := ih j.tail
    obtain ⟨p, rest', h3, h4⟩ := TwmOpsM.step_calls ho k v j h2
    refine ⟨p :: cs, rest', ?_, h4⟩
    refine Prog.Calls.perm (.bind h1 fun next hn => ?_) List.perm_append_comm
    subst hn
    exact .bindEnd h3 fun r hr => .bindNil .al fun _ _ => .pure hr

omit laws [BEq K] [BEq L] in
theorem TwmOpsM.leftovers_calls (this : ALNode K V) (rest : List (L × W)) (next : TRes (ALNext K V) R) :
    (ops.leftovers reduce this rest next).CallsT (rest.flatMap fun b => qs (.right b)) := by
  induction rest generalizing next with
  | nil => exact .pureT
  | cons b rest ih =>
    rw [List.flatMap_cons]
    exact .bind (ho.right.call b.1 b.2) fun _ _ => .bindNil .al fun next' _ => ih next'

theorem ALNode.twmL_calls (this : ALNode K V) (wl : this.erase.WF x.hash) (right : ALNode L W)
    (wr : right.erase.WF x.hash') (d : Nat) :
    (this.twmL x reduce ops right d).CallsT ((x.cases this.erase.visit right.erase.visit).flatMap qs) := by
  have hk := wl.hash
  have hk' := wr.hash
  rw [ALNode.erase_key] at hk hk'
  refine .ite (fun he => ?_) fun he => ?_
  · refine .bindNil .res fun bs hbs => ?_
    have hbs := ALNode.rights_ok hbs
    subst hbs
    obtain ⟨cs, rest, h1, h2⟩ := this.twmLImpl_calls reduce ho right.erase.visit (laws.joinable wl.keys wr.keys)
    have hp := h2.cases.flatMap_right qs
    rw [List.flatMap_append, List.flatMap_map] at hp
    refine Prog.Calls.perm (.bind h1 fun next hn => ?_) hp
    subst hn
    exact .map (TwmOpsM.leftovers_calls reduce ho this _ _)
  · exact (Prog.Calls.two (this.transformE_calls reduce ho.left) (right.transmuteE_calls reduce ho.right) fun _ _ => .al).eq
      (calls_apart laws hk hk' he)

end

/-! ### transmute_with_transformed -/

section
variable (laws : CrossLaws x) (reduce : R → R → R) {ops : MwtOpsM Q A K V L W R} {qs : Case (K × V) (L × W) → List Q}
  (ho : ops.Asks qs)
include ho

omit [BEq K] [BEq L] in
theorem ASNode.mwtImpl_calls (this : ASNode K V) (right : ASNode L W) :
    (this.mwtImpl x reduce ops right).CallsT ((x.cases this.erase.visit right.erase.visit).flatMap qs) := by
  refine .ite (fun he => ?_) fun he => ?_
  · exact (Prog.Calls.bindEnd (ho.both.call this.key this.value right.key right.value) fun _ _ =>
      .bindNil .al fun _ _ => .pureT).eq
      (calls_single_hit (a := (this.key, this.value)) (b := (right.key, right.value)) he).symm
  · exact (Prog.Calls.two (ho.left.call this.key this.value) (ho.right.call right.key right.value) fun _ _ => .al).eq
      (calls_single_miss (a := (this.key, this.value)) (b := (right.key, right.value)) (by simpa using he)).symm

include laws

theorem ASNode.mwt_calls (this : ASNode K V) (right : ASNode L W) (d : Nat) :
    (this.mwt x reduce ops right d).CallsT ((x.cases this.erase.visit right.erase.visit).flatMap qs) := by
  refine .ite (fun he => ?_) fun he => ?_
  · exact .map (this.mwtImpl_calls reduce ho right)
  · exact (Prog.Calls.two (this.transmuteE_calls ho.left) (right.transformE_calls ho.right) fun _ _ => .al).eq
      (calls_apart laws this.erase.hash_visit right.erase.hash_visit he)

theorem ALNode.mwtSImpl_calls (this : ALNode K V) (hk : DistinctKeys this.erase.visit) (right : ASNode L W) :
    (this.mwtSImpl x reduce ops right).CallsT ((x.cases this.erase.visit right.erase.visit).flatMap qs) := by
  have hb : DistinctKeys right.erase.visit := by simp [SNode.visit, DistinctKeys]
  have j := laws.joinable hk hb
  induction this with
  | nextS a k v s z =>
    refine .ite (fun he => ?_) fun he => ?_
    · exact (Prog.Calls.two (s.transmuteE_calls ho.left) (ho.both.call k v right.key right.value) fun _ _ => .al).perm
        (calls_hit j he)
    · exact (Prog.Calls.two (s.mwtImpl_calls reduce ho right) (ho.left.call k v) fun _ _ => .al).perm
        (calls_miss (a := (k, v)) (b := (right.key, right.value)) (by simpa using he))
  | nextL a k v l z ih =>
    refine .ite (fun he => ?_) fun he => ?_
    · exact (Prog.Calls.two (l.transmuteE_calls reduce ho.left) (ho.both.call k v right.key right.value) fun _ _ => .al).perm
        (calls_hit j he)
    · exact (Prog.Calls.two (ih (List.pairwise_cons.1 hk).2 j.tail) (ho.left.call k v) fun _ _ => .al).perm
        (calls_miss (a := (k, v)) (b := (right.key, right.value)) (by simpa using he))

theorem ALNode.mwtS_calls (this : ALNode K V) (wl : this.erase.WF x.hash) (right : ASNode L W) (d : Nat) :
    (this.mwtS x reduce ops right d).CallsT ((x.cases this.erase.visit right.erase.visit).flatMap qs) := by
  have hk := wl.hash
  rw [ALNode.erase_key] at hk
  refine .ite (fun he => ?_) fun he => ?_
  · exact .map (this.mwtSImpl_calls laws reduce ho wl.keys right)
  · exact (Prog.Calls.two (this.transmuteE_calls reduce ho.left) (right.transformE_calls ho.right) fun _ _ => .al).eq
      (calls_apart laws hk right.erase.hash_visit he)

end

/-! ### transmute_with_transmuted -/

section
variable (laws : CrossLaws x) (reduce : R → R → R) {ops : MwmOpsM Q A K V L W S X R} {qs : Case (K × V) (L × W) → List Q}
  (ho : ops.Asks qs)
include ho

omit [BEq K] [BEq L] in
theorem ASNode.mwmValues_calls (lk : K) (lv : V) (rk : L) (rv : W) :
    (ASNode.mwmValues x reduce ops lk lv rk rv).CallsT ((x.cases [(lk, lv)] [(rk, rv)]).flatMap qs) := by
  refine .ite (fun he => ?_) fun he => ?_
  · exact (Prog.Calls.bindEnd (ho.both.call lk lv rk rv) fun _ _ => .bindNil .al fun _ _ => .pureT).eq
      (calls_single_hit (a := (lk, lv)) (b := (rk, rv)) he).symm
  · exact (Prog.Calls.two (ho.left.call lk lv) (ho.right.call rk rv) fun _ _ => .al).eq
      (calls_single_miss (a := (lk, lv)) (b := (rk, rv)) (by simpa using he)).symm

include laws

theorem ASNode.mwm_calls (this : ASNode K V) (right : ASNode L W) (d : Nat) :
    (this.mwm x reduce ops right d).CallsT ((x.cases this.erase.visit right.erase.visit).flatMap qs) := by
  refine .ite (fun he => ?_) fun he => ?_
  · exact .map (ASNode.mwmValues_calls reduce ho this.key this.value right.key right.value)
  · exact (Prog.Calls.two (this.transmuteE_calls ho.left) (right.transmuteE_calls ho.right) fun _ _ => .al).eq
      (calls_apart laws this.erase.hash_visit right.erase.hash_visit he)

theorem ALNode.mwmSImpl_calls (this : ALNode K V) (hk : DistinctKeys this.erase.visit) (right : ASNode L W) :
    (this.mwmSImpl x reduce ops right).CallsT ((x.cases this.erase.visit right.erase.visit).flatMap qs) := by
  have hb : DistinctKeys right.erase.visit := by simp [SNode.visit, DistinctKeys]
  have j := laws.joinable hk hb
  induction this with
  | nextS a k v s z =>
    refine .ite (fun he => ?_) fun he => ?_
    · exact (Prog.Calls.two (s.transmuteE_calls ho.left) (ho.both.call k v right.key right.value) fun _ _ => .al).perm
        (calls_hit j he)
    · exact (Prog.Calls.two (ASNode.mwmValues_calls reduce ho s.key s.value right.key right.value) (ho.left.call k v) fun _ _ => .al).perm
        (calls_miss (a := (k, v)) (b := (right.key, right.value)) (by simpa using he))
  | nextL a k v l z ih =>
    refine .ite (fun he => ?_) fun he => ?_
    · exact (Prog.Calls.two (l.transmuteE_calls reduce ho.left) (ho.both.call k v right.key right.value) fun _ _ => .al).perm
        (calls_hit j he)
    · exact (Prog.Calls.two (ih (List.pairwise_cons.1 hk).2 j.tail) (ho.left.call k v) fun _ _ => .al).perm
        (calls_miss (a := (k, v)) (b := (right.key, right.value)) (by simpa using he))

theorem ALNode.mwmS_calls (this : ALNode K V) (wl : this.erase.WF x.hash) (right : ASNode L W) (d : Nat) :
    (this.mwmS x reduce ops right d).CallsT ((x.cases this.erase.visit right.erase.visit).flatMap qs) := by
  have hk := wl.hash
  rw [ALNode.erase_key] at hk
  refine .ite (fun he => ?_) fun he => ?_
  · exact .map (this.mwmSImpl_calls laws reduce ho wl.keys right)
  · exact (Prog.Calls.two (this.transmuteE_calls reduce ho.left) (right.transmuteE_calls ho.right) fun _ _ => .al).eq
      (calls_apart laws hk right.erase.hash_visit he)

omit laws [BEq K] [BEq L] in
theorem ASNode.mwmLast_calls (s : ASNode K V) (bs : List (L × W))
    (j : Joinable (fun a b => x.eq a.1 b.1) s.erase.visit bs) :
    ∃ cs rest, (s.mwmLast x reduce ops bs).Calls (cs.flatMap qs) (fun r => r.2 = rest) ∧
      Pending (fun a b => x.eq a.1 b.1) s.erase.visit bs cs rest := by
  have h0 := Pending.start (eq := fun (a : K × V) (b : L × W) => x.eq a.1 b.1) bs
  unfold ASNode.mwmLast
  cases ht : takeMatch (fun b : L × W => x.eq s.key b.1) bs with
  | none =>
    refine ⟨_, bs, .bindEnd (P := fun _ => True) ?_ fun _ _ => .pure rfl, h0.miss (a := (s.key, s.value)) j ht⟩
    exact (s.transmuteE_calls ho.left).eq (by simp [ASNode.erase, SNode.visit])
  | some q =>
    obtain ⟨b, rest⟩ := q
    refine ⟨[.both (s.key, s.value) b], rest, ?_, h0.hit (a := (s.key, s.value)) j ht⟩
    have := ASNode.mwmValues_calls (x := x) reduce ho s.key s.value b.1 b.2
    have := this.eq (calls_single_hit (a := (s.key, s.value)) (takeMatch_some ht).1)
    exact .bindEnd (this.eq (by simp)) fun _ _ => .pure rfl

omit laws [BEq K] [BEq L] in
theorem MwmOpsM.step_calls (k : K) (v : V) {as : List (K × V)} {bs rest : List (L × W)} {cs : List (Case (K × V) (L × W))}
    (j : Joinable (fun a b => x.eq a.1 b.1) ((k, v) :: as) bs)
    (h : Pending (fun a b => x.eq a.1 b.1) as bs cs rest) :
    ∃ p rest', (ops.step x k v rest).Calls (qs p) (fun r => r.2 = rest') ∧
      Pending (fun a b => x.eq a.1 b.1) ((k, v) :: as) bs (p :: cs) rest' := by
  unfold MwmOpsM.step
  cases ht : takeMatch (fun b : L × W => x.eq k b.1) rest with
  | none => exact ⟨_, rest, .bindEnd (ho.left.call k v) fun _ _ => .pure rfl, h.miss (a := (k, v)) j ht⟩
  | some q =>
    obtain ⟨b, rest'⟩ := q
    exact ⟨_, rest', .bindEnd (ho.both.call k v b.1 b.2) fun _ _ => .pure rfl, h.hit (a := (k, v)) j ht⟩

omit laws [BEq K] [BEq L] in
theorem ALNode.mwmLImpl_calls (this : ALNode K V) (bs : List (L × W))
    (j : Joinable (fun a b => x.eq a.1 b.1) this.erase.visit bs) :
    ∃ cs rest, (this.mwmLImpl x reduce ops bs).Calls (cs.flatMap qs) (fun r => r.2 = rest) ∧
      Pending (fun a b => x.eq a.1 b.1) this.erase.visit bs cs rest := by
  induction this with
  | nextS a k v s z =>
    obtain ⟨cs, rest, h1, h2⟩ := s.mwmLast_calls reduce ho bs j.tail
    obtain ⟨p, rest', h3, h4⟩ := MwmOpsM.step_calls ho k v j h2
    refine ⟨p :: cs, rest', ?_, h4⟩
    refine Prog.Calls.perm (.bind h1 fun next hn => ?_) List.perm_append_comm
    subst hn
    exact .bindEnd h3 fun r hr => .bindNil .al fun _ _ => .pure hr
  | nextL a k v l z ih =>
    obtain ⟨cs, rest, h1, h2⟩ := ih j.tail
    obtain ⟨p, rest', h3, h4⟩ := MwmOpsM.step_calls ho k v j h2
    refine ⟨p :: cs, rest', ?_, h4⟩
    refine Prog.Calls.perm (.bind h1 fun next hn => ?_) List.perm_append_comm
    subst hn
    exact .bindEnd h3 fun r hr => .bindNil .al fun _ _ => .pure hr

omit laws [BEq K] [BEq L] in
theorem MwmOpsM.leftovers_calls (rest : List (L × W)) (next : XRes (ALNext S X) R) :
    (ops.leftovers reduce rest next).CallsT (rest.flatMap fun b => qs (.right b)) := by
  induction rest generalizing next with
  | nil => exact .pureT
  | cons b rest ih =>
    rw [List.flatMap_cons]
    exact .bind (ho.right.call b.1 b.2) fun _ _ => .bindNil .al fun next' _ => ih next'

theorem ALNode.mwmL_calls (this : ALNode K V) (wl : this.erase.WF x.hash) (right : ALNode L W)
    (wr : right.erase.WF x.hash') (d : Nat) :
    (this.mwmL x reduce ops right d).CallsT ((x.cases this.erase.visit right.erase.visit).flatMap qs) := by
  have hk := wl.hash
  have hk' := wr.hash
  rw [ALNode.erase_key] at hk hk'
  refine .ite (fun he => ?_) fun he => ?_
  · refine .bindNil .res fun bs hbs => ?_
    have hbs := ALNode.rights_ok hbs
    subst hbs
    obtain ⟨cs, rest, h1, h2⟩ := this.mwmLImpl_calls reduce ho right.erase.visit (laws.joinable wl.keys wr.keys)
    have hp := h2.cases.flatMap_right qs
    rw [List.flatMap_append, List.flatMap_map] at hp
    refine Prog.Calls.perm (.bind h1 fun next hn => ?_) hp
    subst hn
    exact .map (MwmOpsM.leftovers_calls reduce ho _ _)
  · exact (Prog.Calls.two (this.transmuteE_calls reduce ho.left) (right.transmuteE_calls reduce ho.right) fun _ _ => .al).eq
      (calls_apart laws hk hk' he)

end
end HT
