import Verif.MatchLemmas
/-! # Joint operations at any depth, whatever `==` and `hash` answer -/
namespace HT

variable {K V L W S X R : Type} {c : Cfg}

/-- The result `o` at depth `d` is that of some pairing, and well-shaped; `N` says when it must not be empty. -/
structure Paired (x : Cross c K L) (s : Sem (K × V) (L × W) (S × X) R) (d : Nat) (N : Prop)
    (as : List (K × V)) (bs : List (L × W)) (o : Option (Node c.n S X)) (r : R) : Prop where
  ex : ∃ cs, Pairing x.Says as bs cs ∧ s.Real cs (vis o) r
  wf : ∀ m, o = some m → m.Shape d
  ne : N → ∀ m, o = some m → m.visit ≠ []

variable {x : Cross c K L} {s : Sem (K × V) (L × W) (S × X) R}

theorem Paired.mono {d : Nat} {N N' : Prop} {as : List (K × V)} {bs : List (L × W)}
    {o : Option (Node c.n S X)} {r : R} (h : Paired x s d N as bs o r) (p : N' → N) : Paired x s d N' as bs o r :=
  ⟨h.ex, h.wf, fun n => h.ne (p n)⟩

/-- From collision lists to nodes. -/
theorem LPaired.node {d : Nat} {as : List (K × V)} {bs : List (L × W)} {o : Option (LNext S X)} {r : R}
    (h : LPaired x s as bs o r) : Paired x s d True as bs (o.map LNext.toNode) r := by
  obtain ⟨cs, h1, h2⟩ := h
  refine ⟨⟨cs, h1, by rw [vis_lvis]; exact h2.real⟩, ?_, ?_⟩
  · intro m hm
    cases o with
    | none => simp at hm
    | some m1 =>
      simp only [Option.map_some, Option.some.injEq] at hm
      subst hm
      exact LNext.shape (h2.size m1 rfl) _
  · intro _ m hm
    cases o with
    | none => simp at hm
    | some m1 =>
      simp only [Option.map_some, Option.some.injEq] at hm
      subst hm
      rw [LNext.toNode_visit]; exact m1.visit_ne_nil

theorem TRes.paired {d : Nat} {res : TRes (LNext S X) R} {base : LNext S X}
    {as : List (K × V)} {bs : List (L × W)} (g : LPaired x s as bs (res.get base) res.red) :
    Paired x s d True as bs ((res.map LNext.toNode).get base.toNode)
      (res.map LNext.toNode : TRes (Node c.n S X) R).red := by
  rw [lres_get, TRes.map_red]; exact g.node

theorem XRes.paired {d : Nat} {res : XRes (LNext S X) R}
    {as : List (K × V)} {bs : List (L × W)} (g : LPaired x s as bs res.get res.red) :
    Paired x s d True as bs (res.map LNext.toNode).get
      (res.map LNext.toNode : XRes (Node c.n S X) R).red := by
  rw [lxres_get, XRes.map_red]; exact g.node

/-! ### Exchanging the operands -/

theorem Paired.flip {s' : Sem (L × W) (K × V) (S × X) R} {as : List (K × V)} {bs : List (L × W)} {d : Nat}
    {N : Prop} {o : Option (Node c.n S X)} {r : R}
    (h : Paired x.flip s' d N bs as o r)
    (ho : ∀ p o, s'.out p.flip o → s.out p o) (hr : ∀ p, s'.red p.flip = s.red p)
    (h1 : s'.reduce = s.reduce) (h2 : s'.e = s.e) (h3 : s.hyp → s'.hyp) :
    Paired x s d N as bs o r := by
  obtain ⟨cs, hp, hreal⟩ := h.ex
  refine ⟨⟨cs.map Case.flip, ?_, ?_⟩, h.wf, h.ne⟩
  · exact hp.flip.mono (fun a b h => h.symm)
  · refine Sem.Real.flip (s' := s') ?_ ho hr h1 h2 h3
    rw [List.map_map]
    have : (Case.flip ∘ Case.flip : Case (L × W) (K × V) → Case (L × W) (K × V)) = id := by
      funext p; exact p.flip_flip
    rw [this, List.map_id]; exact hreal

theorem TwmOps.paired_flip {ops : TwmOps K V L W R} {reduce : R → R → R} {e : R}
    {as : List (K × V)} {bs : List (L × W)} {d : Nat} {N : Prop} {o : Option (Node c.n K V)} {r : R}
    (h : Paired x.flip (ops.flip.sem reduce e) d N bs as o r) : Paired x (ops.sem reduce e) d N as bs o r :=
  h.flip (fun p o h => h.trans (ops.flip_out p)) ops.flip_red rfl rfl
    (fun h => ⟨h.1, flip2_neutral h.2.1, h.2.2.2, h.2.2.1⟩)

theorem MwtOps.paired_flip {ops : MwtOps K V L W R} {reduce : R → R → R} {e : R}
    {as : List (K × V)} {bs : List (L × W)} {d : Nat} {N : Prop} {o : Option (Node c.n L W)} {r : R}
    (h : Paired x.flip (ops.flip.sem reduce e) d N bs as o r) : Paired x (ops.sem reduce e) d N as bs o r :=
  h.flip (fun p o h => h.trans (ops.flip_out p)) ops.flip_red rfl rfl
    (fun h => ⟨h.1, flip2_neutral h.2.1, h.2.2.2, h.2.2.1⟩)

theorem MwmOps.paired_flip {ops : MwmOps K V L W S X R} {reduce : R → R → R} {e : R}
    {as : List (K × V)} {bs : List (L × W)} {d : Nat} {N : Prop} {o : Option (Node c.n S X)} {r : R}
    (h : Paired x.flip (ops.flip.sem reduce e) d N bs as o r) : Paired x (ops.sem reduce e) d N as bs o r :=
  h.flip (fun p o h => h.trans (ops.flip_out p)) ops.flip_red rfl rfl
    (fun h => ⟨h.1, MapTransmute.flip_neutral h.2.1, h.2.2.2, h.2.2.1⟩)

/-! ### Operands with different hashes -/

/-- Where a flag could be made there are flags. -/
theorem flagOf_ok {h : BitVec c.w} {d : Nat} {f : Flag c} (hf : flagOf h d = .ok f) :
    HasFlags c d ∧ f = flagDeep h d := by
  by_cases hd : HasFlags c d
  · simp only [flagOf, Flag.newAtDepth_deep h hd, Res.ok_bind, Res.unwrap_some, Res.ok.injEq] at hf
    exact ⟨hd, hf.symm⟩
  · rcases Flag.newAtDepth_shallow h hd with h1 | ⟨_, h1⟩
    · simp [flagOf, h1, Res.unwrap] at hf
    · simp [flagOf, h1] at hf

theorem joinN_paired {d : Nat} {as : List (K × V)} {bs : List (L × W)} {hl hr : BitVec c.w}
    (hd : HasFlags c d)
    {ol or : Option (LNext S X)} {lr rr : R}
    (gl : LGood s (as.map Case.left) ol lr) (gr : LGood s (bs.map Case.right) or rr) {o : Option (Node c.n S X)}
    (ho : joinN ol or (fun l r => liftN l (flagDeep hl d) r (flagDeep hr d)) = .ok o) :
    Paired x s d True as bs o (s.reduce lr rr) := by
  have hreal : s.Real (as.map Case.left ++ bs.map Case.right) (lvis ol ++ lvis or) (s.reduce lr rr) :=
    gl.real.append gr.real
  have hp : Pairing x.Says as bs (as.map Case.left ++ bs.map Case.right) := .apart as bs
  cases ol with
  | none =>
    cases or with
    | none =>
      simp only [joinN, Res.ok.injEq] at ho; subst ho
      exact ⟨⟨_, hp, hreal⟩, by simp, by simp⟩
    | some r =>
      simp only [joinN, Res.ok.injEq] at ho; subst ho
      refine ⟨⟨_, hp, ?_⟩, ?_, ?_⟩
      · rw [vis_some, LNext.toNode_visit]; exact hreal
      · intro m hm'; injection hm' with hm'; subst hm'; exact LNext.shape (gr.size r rfl) _
      · intro _ m hm'; injection hm' with hm'; subst hm'
        rw [LNext.toNode_visit]; exact r.visit_ne_nil
  | some l =>
    cases or with
    | none =>
      simp only [joinN, Res.ok.injEq] at ho; subst ho
      refine ⟨⟨_, hp, ?_⟩, ?_, ?_⟩
      · rw [vis_some, LNext.toNode_visit]; simpa [lvis] using hreal
      · intro m hm'; injection hm' with hm'; subst hm'; exact LNext.shape (gl.size l rfl) _
      · intro _ m hm'; injection hm' with hm'; subst hm'
        rw [LNext.toNode_visit]; exact l.visit_ne_nil
    | some r =>
      simp only [joinN, liftN] at ho
      rcases liftC_shape (c := c) hl hr l.toNode r.toNode (fun d => LNext.shape (gl.size l rfl) d)
        (fun d => LNext.shape (gr.size r rfl) d) (by rw [LNext.toNode_visit]; exact l.visit_ne_nil)
        (by rw [LNext.toNode_visit]; exact r.visit_ne_nil) d hd with ⟨b, v, z, h1, h2, h3⟩ | h1 | ⟨h1, _⟩
      · simp only [h1, Res.ok_bind, Res.ok.injEq] at ho; subst ho
        refine ⟨⟨_, hp, ?_⟩, ?_, ?_⟩
        · rw [vis_some]
          refine hreal.perm_out (h3.trans ?_)
          rw [LNext.toNode_visit, LNext.toNode_visit]; exact .refl _
        · intro m hm'; injection hm' with hm'; subst hm'; exact h2
        · intro _ m hm'; injection hm' with hm'; subst hm'
          intro h0
          rw [h0] at h3
          have := h3.length_eq
          rw [LNext.toNode_visit, LNext.toNode_visit, List.length_append] at this
          have := List.length_pos_iff.2 l.visit_ne_nil
          simp at *
          omega
      · simp [h1] at ho
      · simp [h1] at ho

theorem twmApart_join {reduce : R → R → R} {this : LNext K V} {h1 h2 : BitVec c.w} {d : Nat}
    {left : TRes (LNext K V) R} {right : XRes (LNext K V) R} {res : TRes (Node c.n K V) R}
    (h : twmApart reduce this h1 h2 d left right = .ok res) :
    HasFlags c d ∧
    joinN (left.get this) right.get (fun l r => liftN l (flagDeep h1 d) r (flagDeep h2 d)) = .ok (res.get this.toNode) ∧
      res.red = reduce left.red right.red := by
  unfold twmApart at h
  obtain ⟨f1, e1, h⟩ := Res.bind_eq_ok.1 h
  obtain ⟨f2, e2, h⟩ := Res.bind_eq_ok.1 h
  obtain ⟨hd, rfl⟩ := flagOf_ok e1
  obtain ⟨_, rfl⟩ := flagOf_ok e2
  refine ⟨hd, ?_⟩
  cases left <;> cases right <;> simp only [Res.ok.injEq] at h
  all_goals first
    | (subst h; exact ⟨rfl, rfl⟩)
    | (obtain ⟨m, hm, h⟩ := Res.bind_eq_ok.1 h
       simp only [Res.ok.injEq] at h
       subst h
       simp only [TRes.get, XRes.get, joinN, hm, Res.ok_bind, TRes.red, XRes.red, and_self])

theorem mwtApart_join {reduce : R → R → R} {right : LNext K V} {h1 h2 : BitVec c.w} {d : Nat}
    {left : XRes (LNext K V) R} {r : TRes (LNext K V) R} {res : TRes (Node c.n K V) R}
    (h : mwtApart reduce right h1 h2 d left r = .ok res) :
    HasFlags c d ∧
    joinN left.get (r.get right) (fun l r => liftN l (flagDeep h1 d) r (flagDeep h2 d)) = .ok (res.get right.toNode) ∧
      res.red = reduce left.red r.red := by
  unfold mwtApart at h
  obtain ⟨f1, e1, h⟩ := Res.bind_eq_ok.1 h
  obtain ⟨f2, e2, h⟩ := Res.bind_eq_ok.1 h
  obtain ⟨hd, rfl⟩ := flagOf_ok e1
  obtain ⟨_, rfl⟩ := flagOf_ok e2
  refine ⟨hd, ?_⟩
  cases left <;> cases r <;> simp only [Res.ok.injEq] at h
  all_goals first
    | (subst h; exact ⟨rfl, rfl⟩)
    | (obtain ⟨m, hm, h⟩ := Res.bind_eq_ok.1 h
       simp only [Res.ok.injEq] at h
       subst h
       simp only [TRes.get, XRes.get, joinN, hm, Res.ok_bind, TRes.red, XRes.red, and_self])

theorem mwmApart_join {reduce : R → R → R} {h1 h2 : BitVec c.w} {d : Nat}
    {left right : XRes (LNext S X) R} {res : XRes (Node c.n S X) R}
    (h : mwmApart reduce h1 h2 d left right = .ok res) :
    HasFlags c d ∧
    joinN left.get right.get (fun l r => liftN l (flagDeep h1 d) r (flagDeep h2 d)) = .ok res.get ∧
      res.red = reduce left.red right.red := by
  unfold mwmApart at h
  obtain ⟨f1, e1, h⟩ := Res.bind_eq_ok.1 h
  obtain ⟨f2, e2, h⟩ := Res.bind_eq_ok.1 h
  obtain ⟨hd, rfl⟩ := flagOf_ok e1
  obtain ⟨_, rfl⟩ := flagOf_ok e2
  refine ⟨hd, ?_⟩
  cases left <;> cases right <;> simp only [Res.ok.injEq] at h
  all_goals first
    | (subst h; exact ⟨rfl, rfl⟩)
    | (obtain ⟨m, hm, h⟩ := Res.bind_eq_ok.1 h
       simp only [Res.ok.injEq] at h
       subst h
       simp only [XRes.get, joinN, hm, Res.ok_bind, XRes.red, and_self])

/-- The loop over the right list ends only if the list has two entries. -/
theorem LNode.rights_eq {right : LNode L W} {bs : List (L × W)} (h : right.rights = .ok bs) : bs = right.visit := by
  cases right with
  | nextS k v s z => simp only [LNode.rights, LNode.next, Res.ok.injEq] at h; rw [← h]; rfl
  | nextL k v l z => simp [LNode.rights, LNode.next] at h

/-! ### Lists and single nodes -/

section
variable {ops : TwmOps K V L W R} {reduce : R → R → R} {e : R}

theorem twmApart_paired {d : Nat} {this : LNext K V} {as : List (K × V)} {bs : List (L × W)}
    {hl hr : BitVec c.w} {left : TRes (LNext K V) R} {right : XRes (LNext K V) R}
    (gl : LGood (ops.sem reduce e) (as.map Case.left) (left.get this) left.red)
    (gr : LGood (ops.sem reduce e) (bs.map Case.right) right.get right.red) {res : TRes (Node c.n K V) R}
    (h : twmApart reduce this hl hr d left right = .ok res) :
      Paired x (ops.sem reduce e) d True as bs (res.get this.toNode) res.red := by
  obtain ⟨hd, h1, h2⟩ := twmApart_join h
  rw [h2]
  exact joinN_paired hd gl gr h1

theorem SNode.twm_paired {this : SNode K V} {right : SNode L W} {d : Nat} {res : TRes (Node c.n K V) R}
    (h : this.twm x reduce ops right d = .ok res) :
    Paired x (ops.sem reduce e) d True this.visit right.visit (res.get (.S this)) res.red := by
  unfold SNode.twm at h
  split at h
  · simp only [Res.ok.injEq] at h; subst h
    exact TRes.paired (base := .S this) (SNode.twmImpl_paired x reduce e ops this right.key right.value)
  · exact twmApart_paired (this := .S this) (as := this.visit) ((ops.aloneL reduce e).snode this) (bs := right.visit) ((ops.aloneR reduce e).snode right) h

theorem LNode.twmS_paired {this : LNode K V} (hsz : this.SizeOk) {right : SNode L W} {d : Nat}
    {res : TRes (Node c.n K V) R} (h : this.twmS x reduce ops right d = .ok res) :
    Paired x (ops.sem reduce e) d True this.visit right.visit (res.get (.L this)) res.red := by
  unfold LNode.twmS at h
  split at h
  · simp only [Res.ok.injEq] at h; subst h
    exact TRes.paired (base := .L this) (LNode.twmSImpl_paired x reduce e ops this hsz right)
  · exact twmApart_paired (this := .L this) ((ops.aloneL reduce e).lnode this hsz) (bs := right.visit) ((ops.aloneR reduce e).snode right) h

theorem LNode.twmL_paired {this : LNode K V} (hsz : this.SizeOk) {right : LNode L W} {d : Nat}
    {res : TRes (Node c.n K V) R} (h : this.twmL x reduce ops right d = .ok res) :
    Paired x (ops.sem reduce e) d True this.visit right.visit (res.get (.L this)) res.red := by
  unfold LNode.twmL at h
  split at h
  · obtain ⟨bs, hb, h⟩ := Res.bind_eq_ok.1 h
    have := LNode.rights_eq hb
    subst this
    simp only [Res.ok.injEq] at h; subst h
    exact TRes.paired (base := .L this) (LNode.twmLs_paired x reduce e ops this hsz _)
  · exact twmApart_paired (this := .L this) ((ops.aloneL reduce e).lnode this hsz) ((ops.aloneR reduce e).lnode right) h

end

section
variable {ops : MwtOps K V L W R} {reduce : R → R → R} {e : R}

theorem mwtApart_paired {d : Nat} {right : LNext L W} {as : List (K × V)} {bs : List (L × W)}
    {hl hr : BitVec c.w} {left : XRes (LNext L W) R} {r : TRes (LNext L W) R}
    (gl : LGood (ops.sem reduce e) (as.map Case.left) left.get left.red)
    (gr : LGood (ops.sem reduce e) (bs.map Case.right) (r.get right) r.red) {res : TRes (Node c.n L W) R}
    (h : mwtApart reduce right hl hr d left r = .ok res) :
      Paired x (ops.sem reduce e) d True as bs (res.get right.toNode) res.red := by
  obtain ⟨hd, h1, h2⟩ := mwtApart_join h
  rw [h2]
  exact joinN_paired hd gl gr h1

theorem SNode.mwt_paired {this : SNode K V} {right : SNode L W} {d : Nat} {res : TRes (Node c.n L W) R}
    (h : this.mwt x reduce ops right d = .ok res) :
    Paired x (ops.sem reduce e) d True this.visit right.visit (res.get (.S right)) res.red := by
  unfold SNode.mwt at h
  split at h
  · simp only [Res.ok.injEq] at h; subst h
    exact TRes.paired (base := .S right) ⟨_, .cases _ _, SNode.mwtImpl_spec x reduce e ops this right⟩
  · exact mwtApart_paired (right := .S right) (as := this.visit) ((ops.aloneL reduce e).snode this) (bs := right.visit) ((ops.aloneR reduce e).snode right) h

theorem LNode.mwtS_paired {this : LNode K V} {right : SNode L W} {d : Nat}
    {res : TRes (Node c.n L W) R} (h : this.mwtS x reduce ops right d = .ok res) :
    Paired x (ops.sem reduce e) d True this.visit right.visit (res.get (.S right)) res.red := by
  unfold LNode.mwtS at h
  split at h
  · simp only [Res.ok.injEq] at h; subst h
    exact TRes.paired (base := .S right) (LNode.mwtSImpl_paired x reduce e ops this right)
  · exact mwtApart_paired (right := .S right) (as := this.visit) ((ops.aloneL reduce e).lnode this) (bs := right.visit) ((ops.aloneR reduce e).snode right) h

end

section
variable {ops : MwmOps K V L W S X R} {reduce : R → R → R} {e : R}

theorem mwmApart_paired {d : Nat} {as : List (K × V)} {bs : List (L × W)}
    {hl hr : BitVec c.w} {left right : XRes (LNext S X) R}
    (gl : LGood (ops.sem reduce e) (as.map Case.left) left.get left.red)
    (gr : LGood (ops.sem reduce e) (bs.map Case.right) right.get right.red) {res : XRes (Node c.n S X) R}
    (h : mwmApart reduce hl hr d left right = .ok res) :
      Paired x (ops.sem reduce e) d True as bs res.get res.red := by
  obtain ⟨hd, h1, h2⟩ := mwmApart_join h
  rw [h2]
  exact joinN_paired hd gl gr h1

theorem SNode.mwm_paired {this : SNode K V} {right : SNode L W} {d : Nat} {res : XRes (Node c.n S X) R}
    (h : this.mwm x reduce ops right d = .ok res) :
    Paired x (ops.sem reduce e) d True this.visit right.visit res.get res.red := by
  unfold SNode.mwm at h
  split at h
  · simp only [Res.ok.injEq] at h; subst h
    exact XRes.paired (SNode.mwmValues_paired x reduce e ops (this.key, this.value) (right.key, right.value))
  · exact mwmApart_paired (as := this.visit) ((ops.aloneL reduce e).snode this) (bs := right.visit) ((ops.aloneR reduce e).snode right) h

theorem LNode.mwmS_paired {this : LNode K V} {right : SNode L W} {d : Nat}
    {res : XRes (Node c.n S X) R} (h : this.mwmS x reduce ops right d = .ok res) :
    Paired x (ops.sem reduce e) d True this.visit right.visit res.get res.red := by
  unfold LNode.mwmS at h
  split at h
  · simp only [Res.ok.injEq] at h; subst h
    exact XRes.paired (LNode.mwmSImpl_paired x reduce e ops this right)
  · exact mwmApart_paired (as := this.visit) ((ops.aloneL reduce e).lnode this) (bs := right.visit) ((ops.aloneR reduce e).snode right) h

theorem LNode.mwmL_paired {this : LNode K V} {right : LNode L W} {d : Nat}
    {res : XRes (Node c.n S X) R} (h : this.mwmL x reduce ops right d = .ok res) :
    Paired x (ops.sem reduce e) d True this.visit right.visit res.get res.red := by
  unfold LNode.mwmL at h
  split at h
  · obtain ⟨bs, hb, h⟩ := Res.bind_eq_ok.1 h
    have := LNode.rights_eq hb
    subst this
    simp only [Res.ok.injEq] at h; subst h
    exact XRes.paired (LNode.mwmLs_paired x reduce e ops this _)
  · exact mwmApart_paired (as := this.visit) ((ops.aloneL reduce e).lnode this) ((ops.aloneR reduce e).lnode right) h

end
end HT
