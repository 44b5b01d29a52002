import Verif.EffCallsList
/-! # Which calls `transform_with_transformed` makes on single nodes and collision lists -/
namespace HT

variable {K V R : Type} {Q : Type} {A : Q → Type} [BEq K] {c : Cfg} {hash : K → BitVec c.w}

section
variable (laws : KeyLaws hash) (reduce : R → R → R) {ops : TwtOpsM Q A K V R} {qs : Case (K × V) (K × V) → List Q}
  (ho : ops.Asks qs)
include ho

theorem ASNode.twtImpl_calls (this right : ASNode K V) :
    (this.twtImpl reduce ops right).CallsT
      (((Cross.same hash).cases this.erase.visit right.erase.visit).flatMap qs) := by
  refine .ite (fun he => ?_) fun he => ?_
  · exact (Prog.Calls.bindEnd (ho.both.call this.key this.value right.key right.value) fun _ _ => .al).eq
      (calls_single_hit (x := Cross.same hash) (a := (this.key, this.value)) (b := (right.key, right.value)) he).symm
  · exact (Prog.Calls.two (ho.left.call this.key this.value) (ho.right.call right.key right.value) fun _ _ => .al).eq
      (calls_single_miss (x := Cross.same hash) (a := (this.key, this.value)) (b := (right.key, right.value))
        (by simpa [Cross.same] using he)).symm

include laws

theorem ASNode.twt_calls (this right : ASNode K V) (d : Nat) :
    (this.twt reduce hash ops right d).CallsT
      (((Cross.same hash).cases this.erase.visit right.erase.visit).flatMap qs) := by
  refine .ite (fun he => ?_) fun he => ?_
  · exact .map (this.twtImpl_calls reduce ho right)
  · exact (Prog.Calls.two (this.transformE_calls ho.left) (right.transformE_calls ho.right) fun _ _ => .al).eq
      (calls_apart (CrossLaws.same laws) this.erase.hash_visit right.erase.hash_visit he)

theorem ALNode.twtSImpl_calls (this : ALNode K V) (hk : DistinctKeys this.erase.visit) (right : ASNode K V) :
    (this.twtSImpl reduce ops right).CallsT
      (((Cross.same hash).cases this.erase.visit right.erase.visit).flatMap qs) := by
  have hb : DistinctKeys right.erase.visit := by simp [SNode.visit, DistinctKeys]
  have j := (CrossLaws.same laws).joinable hk hb
  induction this with
  | nextS a k v s z =>
    refine .ite (fun he => ?_) fun he => ?_
    · exact (Prog.Calls.two (s.transformE_calls ho.left) (ho.both.call k v right.key right.value) fun _ _ => .al).perm
        (calls_hit j he)
    · exact (Prog.Calls.two (s.twtImpl_calls (hash := hash) reduce ho right) (ho.left.call k v) fun _ _ => .al).perm
        (calls_miss (x := Cross.same hash) (a := (k, v)) (b := (right.key, right.value)) (by simpa [Cross.same] using he))
  | nextL a k v l z ih =>
    refine .ite (fun he => ?_) fun he => ?_
    · exact (Prog.Calls.two (l.transformE_calls reduce ho.left) (ho.both.call k v right.key right.value) fun _ _ => .al).perm
        (calls_hit j he)
    · exact (Prog.Calls.two (ih (List.pairwise_cons.1 hk).2 j.tail) (ho.left.call k v) fun _ _ => .al).perm
        (calls_miss (x := Cross.same hash) (a := (k, v)) (b := (right.key, right.value)) (by simpa [Cross.same] using he))

theorem ALNode.twtS_calls (this : ALNode K V) (wl : this.erase.WF hash) (right : ASNode K V) (d : Nat) :
    (this.twtS reduce hash ops right d).CallsT
      (((Cross.same hash).cases this.erase.visit right.erase.visit).flatMap qs) := by
  have hk := wl.hash
  rw [ALNode.erase_key] at hk
  refine .ite (fun he => ?_) fun he => ?_
  · exact .map (this.twtSImpl_calls laws reduce ho wl.keys right)
  · exact (Prog.Calls.two (this.transformE_calls reduce ho.left) (right.transformE_calls ho.right) fun _ _ => .al).eq
      (calls_apart (CrossLaws.same laws) hk right.erase.hash_visit he)

omit laws in
theorem ASNode.twtLast_calls (s : ASNode K V) (bs : List (K × V))
    (j : Joinable (fun a b => (Cross.same hash).eq a.1 b.1) s.erase.visit bs) :
    ∃ cs rest, (s.twtLast reduce ops bs).Calls (cs.flatMap qs) (fun r => r.2.2 = rest) ∧
      Pending (fun a b => (Cross.same hash).eq a.1 b.1) s.erase.visit bs cs rest := by
  have h0 := Pending.start (eq := fun (a : K × V) (b : K × V) => (Cross.same hash).eq a.1 b.1) bs
  unfold ASNode.twtLast
  cases ht : takeMatch (fun b : K × V => s.key == b.1) bs with
  | none =>
    refine ⟨_, bs, .bindEnd (P := fun _ => True) ?_ fun _ _ => .pure rfl, h0.miss (a := (s.key, s.value)) j ht⟩
    exact (s.transformE_calls ho.left).eq (by simp [ASNode.erase, SNode.visit])
  | some q =>
    obtain ⟨b, rest⟩ := q
    refine ⟨[.both (s.key, s.value) b], rest, ?_, h0.hit (a := (s.key, s.value)) j ht⟩
    refine .bindNil (P := fun r => r.key = b.1 ∧ r.value = b.2) ?_ fun r hr => ?_
    · intro s; exact ⟨rfl, rfl, rfl⟩
    · have := s.twtImpl_calls (hash := hash) reduce ho r
      have := this.eq (calls_single_hit (x := Cross.same hash) (a := (s.key, s.value)) (b := (r.key, r.value))
        (by rw [hr.1]; exact (takeMatch_some ht).1))
      rw [hr.1, hr.2] at this
      exact .bindEnd (this.eq (by simp)) fun _ _ => .pure rfl

omit laws in
theorem TwtOpsM.step_calls (k : K) (v : V) {as : List (K × V)} {bs rest : List (K × V)} {cs : List (Case (K × V) (K × V))}
    (j : Joinable (fun a b => (Cross.same hash).eq a.1 b.1) ((k, v) :: as) bs)
    (h : Pending (fun a b => (Cross.same hash).eq a.1 b.1) as bs cs rest) :
    ∃ p rest', (ops.step k v rest).Calls (qs p) (fun r => r.2 = rest') ∧
      Pending (fun a b => (Cross.same hash).eq a.1 b.1) ((k, v) :: as) bs (p :: cs) rest' := by
  unfold TwtOpsM.step
  cases ht : takeMatch (fun b : K × V => k == b.1) rest with
  | none => exact ⟨_, rest, .bindEnd (ho.left.call k v) fun _ _ => .pure rfl, h.miss (a := (k, v)) j ht⟩
  | some q =>
    obtain ⟨b, rest'⟩ := q
    exact ⟨_, rest', .bindEnd (ho.both.call k v b.1 b.2) fun _ _ => .pure rfl, h.hit (a := (k, v)) j ht⟩

omit laws in
theorem ALNode.twtLImpl_calls (this : ALNode K V) (bs : List (K × V))
    (j : Joinable (fun a b => (Cross.same hash).eq a.1 b.1) this.erase.visit bs) :
    ∃ cs rest, (this.twtLImpl reduce ops bs).Calls (cs.flatMap qs) (fun r => r.2 = rest) ∧
      Pending (fun a b => (Cross.same hash).eq a.1 b.1) this.erase.visit bs cs rest := by
  induction this with
  | nextS a k v s z =>
    obtain ⟨cs, rest, h1, h2⟩ := s.twtLast_calls reduce ho bs j.tail
    obtain ⟨p, rest', h3, h4⟩ := TwtOpsM.step_calls ho k v j h2
    refine ⟨p :: cs, rest', ?_, h4⟩
    refine Prog.Calls.perm (.bind h1 fun next hn => ?_) List.perm_append_comm
    subst hn
    exact .bindEnd h3 fun r hr => .bindNil .al fun _ _ => .pure hr
  | nextL a k v l z ih =>
    obtain ⟨cs, rest, h1, h2⟩ := ih j.tail
    obtain ⟨p, rest', h3, h4⟩ := TwtOpsM.step_calls ho k v j h2
    refine ⟨p :: cs, rest', ?_, h4⟩
    refine Prog.Calls.perm (.bind h1 fun next hn => ?_) List.perm_append_comm
    subst hn
    exact .bindEnd h3 fun r hr => .bindNil .al fun _ _ => .pure hr

omit laws [BEq K] in
theorem TwtOpsM.leftovers_calls (this : ALNode K V) (rest : List (K × V)) (next : JRes (ALNext K V) R) :
    (ops.leftovers reduce this rest next).CallsT (rest.flatMap fun b => qs (.right b)) := by
  induction rest generalizing next with
  | nil => exact .pureT
  | cons b rest ih =>
    rw [List.flatMap_cons]
    exact .bind (ho.right.call b.1 b.2) fun _ _ => .bindNil .al fun next' _ => ih next'

theorem ALNode.twtL_calls (this : ALNode K V) (wl : this.erase.WF hash) (right : ALNode K V)
    (wr : right.erase.WF hash) (d : Nat) :
    (this.twtL reduce hash ops right d).CallsT
      (((Cross.same hash).cases this.erase.visit right.erase.visit).flatMap qs) := by
  have hk := wl.hash
  have hk' := wr.hash
  rw [ALNode.erase_key] at hk hk'
  refine .ite (fun he => ?_) fun he => ?_
  · refine .bindNil .res fun bs hbs => ?_
    have hbs := ALNode.rights_ok hbs
    subst hbs
    obtain ⟨cs, rest, h1, h2⟩ := this.twtLImpl_calls (hash := hash) reduce ho right.erase.visit
      ((CrossLaws.same laws).joinable wl.keys wr.keys)
    have hp := h2.cases.flatMap_right qs
    rw [List.flatMap_append, List.flatMap_map] at hp
    refine Prog.Calls.perm (.bind h1 fun next hn => ?_) hp
    subst hn
    exact .map (TwtOpsM.leftovers_calls reduce ho this _ _)
  · exact (Prog.Calls.two (this.transformE_calls reduce ho.left) (right.transformE_calls reduce ho.right) fun _ _ => .al).eq
      (calls_apart (CrossLaws.same laws) hk hk' he)

end
end HT
