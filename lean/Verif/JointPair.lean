import Verif.JointFlat
/-! # Joint operations of two lists or single nodes, at any depth -/
namespace HT

variable {K V L W S X R : Type} [BEq K] [BEq L] [BEq S] {c : Cfg}
variable {x : Cross c K L}

/-! ### Exchanging the operands -/

theorem cases_flip_perm (laws : CrossLaws x) {as : List (K × V)} {bs : List (L × W)}
    (ha : DistinctKeys as) (hb : DistinctKeys bs) :
    ((x.cases as bs).map Case.flip).Perm (x.flip.cases bs as) := by
  rw [Cross.flip_cases_eq x laws.sym]
  exact jointCases_flip (laws.joinable ha hb)

theorem Good.flip {s : Sem (K × V) (L × W) (S × X) R} {s' : Sem (L × W) (K × V) (S × X) R}
    {hashS : S → BitVec c.w} (laws : CrossLaws x) {as : List (K × V)} {bs : List (L × W)}
    (ha : DistinctKeys as) (hb : DistinctKeys bs) {d : Nat} {N : Prop} {o : Option (Node c.n S X)} {r : R}
    (h : Good s' hashS d N (x.flip.cases bs as) o r)
    (ho : ∀ p o, s'.out p.flip o → s.out p o) (hr : ∀ p, s'.red p.flip = s.red p)
    (h1 : s'.reduce = s.reduce) (h2 : s'.e = s.e) (h3 : s.hyp → s'.hyp) :
    Good s hashS d N (x.cases as bs) o r := by
  refine ⟨?_, h.wf, h.ne⟩
  exact (h.real.perm (cases_flip_perm laws ha hb).symm).flip ho hr h1 h2 h3

omit [BEq K] [BEq L] in
theorem flip2_call {A : Type} (op : MapTransform R (K → V → L → W → MapTransformResult A R)) (k : K) (v : V)
    (l : L) (w : W) : op.flip2.call2 l w k v = op.call2 k v l w := by
  cases op <;> rfl

omit [BEq K] [BEq L] [BEq S] in
theorem MapTransmute.flip_call (op : MapTransmute R (K → V → L → W → MapTransmuteResult S X R)) (k : K)
    (v : V) (l : L) (w : W) : op.flip.call2 l w k v = op.call2 k v l w := by
  cases op <;> rfl

omit [BEq K] [BEq L] in
theorem flip2_neutral {A : Type} {e : R} {op : MapTransform R (K → V → L → W → MapTransformResult A R)}
    (h : op.Neutral e) : op.flip2.Neutral e := by
  cases op <;> exact h

omit [BEq K] [BEq L] [BEq S] in
theorem MapTransmute.flip_neutral {e : R} {op : MapTransmute R (K → V → L → W → MapTransmuteResult S X R)}
    (h : op.Neutral e) : op.flip.Neutral e := by
  cases op <;> exact h

section
omit [BEq K] [BEq L] [BEq S]

theorem TwmOps.flip_out (ops : TwmOps K V L W R) (p : Case (K × V) (L × W)) : ops.flip.out p.flip = ops.out p := by
  cases p with
  | left a => rfl
  | right b => rfl
  | both a b => simp only [Case.flip, MwtOps.out, TwmOps.out, TwmOps.flip, MapTransform.closure2_eq, flip2_call]

theorem TwmOps.flip_red (ops : TwmOps K V L W R) (p : Case (K × V) (L × W)) : ops.flip.red p.flip = ops.red p := by
  cases p with
  | left a => rfl
  | right b => rfl
  | both a b => simp only [Case.flip, MwtOps.red, TwmOps.red, TwmOps.flip, MapTransform.closure2_eq, flip2_call]

theorem MwtOps.flip_out (ops : MwtOps K V L W R) (p : Case (K × V) (L × W)) : ops.flip.out p.flip = ops.out p := by
  cases p with
  | left a => rfl
  | right b => rfl
  | both a b => simp only [Case.flip, MwtOps.out, TwmOps.out, MwtOps.flip, MapTransform.closure2_eq, flip2_call]

theorem MwtOps.flip_red (ops : MwtOps K V L W R) (p : Case (K × V) (L × W)) : ops.flip.red p.flip = ops.red p := by
  cases p with
  | left a => rfl
  | right b => rfl
  | both a b => simp only [Case.flip, MwtOps.red, TwmOps.red, MwtOps.flip, MapTransform.closure2_eq, flip2_call]

theorem MwmOps.flip_out (ops : MwmOps K V L W S X R) (p : Case (K × V) (L × W)) :
    ops.flip.out p.flip = ops.out p := by
  cases p with
  | left a => rfl
  | right b => rfl
  | both a b => simp only [Case.flip, MwmOps.out, MwmOps.flip, MapTransmute.closure2_eq, MapTransmute.flip_call]

theorem MwmOps.flip_red (ops : MwmOps K V L W S X R) (p : Case (K × V) (L × W)) :
    ops.flip.red p.flip = ops.red p := by
  cases p with
  | left a => rfl
  | right b => rfl
  | both a b => simp only [Case.flip, MwmOps.red, MwmOps.flip, MapTransmute.closure2_eq, MapTransmute.flip_call]

end

theorem TwmOps.good_flip (laws : CrossLaws x) {ops : TwmOps K V L W R} {reduce : R → R → R} {e : R}
    {as : List (K × V)} {bs : List (L × W)} (ha : DistinctKeys as) (hb : DistinctKeys bs) {d : Nat}
    {N : Prop} {o : Option (Node c.n K V)} {r : R}
    (h : Good (ops.flip.sem reduce e) x.hash d N (x.flip.cases bs as) o r) :
    Good (ops.sem reduce e) x.hash d N (x.cases as bs) o r :=
  h.flip laws ha hb (fun p o h => h.trans (ops.flip_out p)) ops.flip_red rfl rfl
    (fun h => ⟨h.1, flip2_neutral h.2.1, h.2.2.2, h.2.2.1⟩)

theorem MwtOps.good_flip (laws : CrossLaws x) {ops : MwtOps K V L W R} {reduce : R → R → R} {e : R}
    {as : List (K × V)} {bs : List (L × W)} (ha : DistinctKeys as) (hb : DistinctKeys bs) {d : Nat}
    {N : Prop} {o : Option (Node c.n L W)} {r : R}
    (h : Good (ops.flip.sem reduce e) x.hash' d N (x.flip.cases bs as) o r) :
    Good (ops.sem reduce e) x.hash' d N (x.cases as bs) o r :=
  h.flip laws ha hb (fun p o h => h.trans (ops.flip_out p)) ops.flip_red rfl rfl
    (fun h => ⟨h.1, flip2_neutral h.2.1, h.2.2.2, h.2.2.1⟩)

theorem MwmOps.good_flip (laws : CrossLaws x) {hashS : S → BitVec c.w} {ops : MwmOps K V L W S X R}
    {reduce : R → R → R} {e : R}
    {as : List (K × V)} {bs : List (L × W)} (ha : DistinctKeys as) (hb : DistinctKeys bs) {d : Nat}
    {N : Prop} {o : Option (Node c.n S X)} {r : R}
    (h : Good (ops.flip.sem reduce e) hashS d N (x.flip.cases bs as) o r) :
    Good (ops.sem reduce e) hashS d N (x.cases as bs) o r :=
  h.flip laws ha hb (fun p o h => h.trans (ops.flip_out p)) ops.flip_red rfl rfl
    (fun h => ⟨h.1, MapTransmute.flip_neutral h.2.1, h.2.2.2, h.2.2.1⟩)

/-! ### Keys from the contracts -/

section
omit [BEq K] [BEq L]

theorem MapTransmuteResult.entry_some {res : MapTransmuteResult K V R} {a : K × V} (h : some a = res.entry) :
    ∃ r, res = .transmuted a.1 a.2 r := by
  cases res with
  | transmuted k v r => injection h with h; subst h; exact ⟨r, rfl⟩
  | removed r => simp [MapTransmuteResult.entry] at h

theorem MapTransformResult.entry_key {res : MapTransformResult V R} {a b : K × V} (h : some a = res.entry b) :
    a.1 = b.1 := by
  cases res with
  | unchanged r => injection h with h; subst h; rfl
  | transformed v r => injection h with h; subst h; rfl
  | removed r => simp [MapTransformResult.entry] at h

end

theorem TwmOps.Contract.flip (laws : CrossLaws x) {ops : TwmOps K V L W R} (h : ops.Contract x) :
    ops.flip.Contract x.flip := by
  intro k v l w r he
  show x.eq' k l = true
  rw [laws.sym]; exact h k v l w r he

theorem MwtOps.Contract.flip (laws : CrossLaws x) {ops : MwtOps K V L W R} (h : ops.Contract x) :
    ops.flip.Contract x.flip := by
  intro k v l w r he
  show x.eq' l k = true
  rw [laws.sym]; exact h k v l w r he

theorem TwmOps.keyed (laws : CrossLaws x) {ops : TwmOps K V L W R} (con : ops.Contract x)
    (reduce : R → R → R) (e : R) : Keyed x (ops.sem reduce e) x.hash := by
  have key : ∀ p a, some a = ops.out p →
      (p.lkey? = some a.1) ∨ (∃ l, p.rkey? = some l ∧ p.lkey? = none ∧ x.eq a.1 l = true) := by
    intro p a h
    cases p with
    | left b => left; rw [MapTransformResult.entry_key h]; rfl
    | both b b' => left; rw [MapTransformResult.entry_key h]; rfl
    | right b =>
      right
      obtain ⟨r, hr⟩ := MapTransmuteResult.entry_some h
      exact ⟨b.1, rfl, rfl, con _ _ _ _ _ hr⟩
  refine ⟨laws, laws.left, ?_, ?_⟩
  · intro p a hm h
    rcases key p a h with h | ⟨l, h1, h2, h3⟩
    · cases p with
      | left b => injection h with h; rw [← h]; rfl
      | both b b' => injection h with h; rw [← h]; rfl
      | right b => simp [Case.lkey?] at h
    · cases p with
      | left b => simp [Case.rkey?] at h1
      | both b b' => simp [Case.lkey?] at h2
      | right b => injection h1 with h1; subst h1; exact laws.hash _ _ h3
  · intro p q a b _ _ ha hb hk
    rcases key p a ha with h1 | ⟨l, h1, _, h2⟩ <;> rcases key q b hb with h3 | ⟨l', h3, _, h4⟩
    · exact .inl ⟨_, _, h1, h3, hk⟩
    · exact .inr (.inr (.inl ⟨_, _, h1, h3, laws.congL _ _ _ (laws.left.symm _ _ hk) h4⟩))
    · exact .inr (.inr (.inr ⟨_, _, h3, h1, laws.congL _ _ _ hk h2⟩))
    · exact .inr (.inl ⟨_, _, h1, h3, laws.uniqR _ _ _ (laws.congL _ _ _ hk h2) h4⟩)

theorem MwtOps.keyed (laws : CrossLaws x) {ops : MwtOps K V L W R} (con : ops.Contract x)
    (reduce : R → R → R) (e : R) : Keyed x (ops.sem reduce e) x.hash' := by
  have key : ∀ p a, some a = ops.out p →
      (p.rkey? = some a.1) ∨ (∃ l, p.lkey? = some l ∧ p.rkey? = none ∧ x.eq l a.1 = true) := by
    intro p a h
    cases p with
    | right b => left; rw [MapTransformResult.entry_key h]; rfl
    | both b b' => left; rw [MapTransformResult.entry_key h]; rfl
    | left b =>
      right
      obtain ⟨r, hr⟩ := MapTransmuteResult.entry_some h
      exact ⟨b.1, rfl, rfl, con _ _ _ _ _ hr⟩
  refine ⟨laws, laws.right, ?_, ?_⟩
  · intro p a hm h
    rcases key p a h with h | ⟨l, h1, h2, h3⟩
    · cases p with
      | right b => injection h with h; rw [← h]; rfl
      | both b b' => injection h with h; rw [← h]; exact (laws.hash _ _ hm).symm
      | left b => simp [Case.rkey?] at h
    · cases p with
      | right b => simp [Case.lkey?] at h1
      | both b b' => simp [Case.rkey?] at h2
      | left b => injection h1 with h1; subst h1; exact (laws.hash _ _ h3).symm
  · intro p q a b _ _ ha hb hk
    rcases key p a ha with h1 | ⟨l, h1, _, h2⟩ <;> rcases key q b hb with h3 | ⟨l', h3, _, h4⟩
    · exact .inr (.inl ⟨_, _, h1, h3, hk⟩)
    · exact .inr (.inr (.inr ⟨_, _, h3, h1, laws.congR _ _ _ (laws.right.symm _ _ hk) h4⟩))
    · exact .inr (.inr (.inl ⟨_, _, h1, h3, laws.congR _ _ _ hk h2⟩))
    · exact .inl ⟨_, _, h1, h3, laws.uniqL _ _ _ (laws.congR _ _ _ hk h2) h4⟩

theorem MwmOps.keyed (laws : CrossLaws x) {hashS : S → BitVec c.w} (lawsS : KeyLaws hashS)
    {ops : MwmOps K V L W S X R} (con : ops.Contract x hashS)
    (reduce : R → R → R) (e : R) : Keyed x (ops.sem reduce e) hashS :=
  ⟨laws, lawsS, fun p a hm h => con.hash p a hm h.symm,
    fun p q a b hp hq ha hb hk => con.inj p q a b hp hq ha.symm hb.symm hk⟩

theorem Matched.flip (laws : CrossLaws x) {p : Case (L × W) (K × V)} (h : Matched x.flip p) :
    Matched x p.flip := by
  cases p with
  | left a => trivial
  | right b => trivial
  | both a b =>
    show x.eq b.1 a.1 = true
    rw [← laws.sym]; exact h

theorem Overlap.flip (laws : CrossLaws x) {p q : Case (L × W) (K × V)} (h : Overlap x p.flip q.flip) :
    Overlap x.flip p q := by
  have e1 : ∀ p : Case (L × W) (K × V), p.flip.lkey? = p.rkey? := by intro p; cases p <;> rfl
  have e2 : ∀ p : Case (L × W) (K × V), p.flip.rkey? = p.lkey? := by intro p; cases p <;> rfl
  simp only [Overlap, e1, e2] at h
  rcases h with ⟨k, k', h1, h2, he⟩ | ⟨l, l', h1, h2, he⟩ | ⟨k, l, h1, h2, he⟩ | ⟨k, l, h1, h2, he⟩
  · exact .inr (.inl ⟨k, k', h1, h2, he⟩)
  · exact .inl ⟨l, l', h1, h2, he⟩
  · exact .inr (.inr (.inr ⟨l, k, h2, h1, (laws.sym _ _).trans he⟩))
  · exact .inr (.inr (.inl ⟨l, k, h2, h1, (laws.sym _ _).trans he⟩))

theorem MwmOps.Contract.flip (laws : CrossLaws x) {hashS : S → BitVec c.w} {ops : MwmOps K V L W S X R}
    (con : ops.Contract x hashS) : ops.flip.Contract x.flip hashS where
  hash := by
    intro p a hm h
    have h' := ops.flip_out p.flip
    rw [Case.flip_flip, h] at h'
    rw [con.hash p.flip a (hm.flip laws) h'.symm]
    cases p with
    | left a => rfl
    | right b => rfl
    | both a b => exact (laws.flip.hash _ _ hm).symm
  inj := by
    intro p q a b hp hq ha hb hk
    have h1 := ops.flip_out p.flip
    have h2 := ops.flip_out q.flip
    rw [Case.flip_flip] at h1 h2
    exact (con.inj p.flip q.flip a b (hp.flip laws) (hq.flip laws) (h1.symm.trans ha) (h2.symm.trans hb) hk).flip laws

/-! ### Equal and different hashes -/

section
variable {s : Sem (K × V) (L × W) (S × X) R} {hashS : S → BitVec c.w}

theorem TRes.same_good (k : Keyed x s hashS) {d : Nat} {res : TRes (LNext S X) R} {base : LNext S X}
    {as : List (K × V)} {bs : List (L × W)} (g : LGood s (x.cases as bs) (res.get base) res.red)
    (ha : DistinctKeys as) (hb : DistinctKeys bs) {hl hr : BitVec c.w}
    (h1 : ∀ a ∈ as, x.hash a.1 = hl) (h2 : ∀ b ∈ bs, x.hash' b.1 = hr) (he : hl = hr) :
    Good s hashS d True (x.cases as bs) ((res.map LNext.toNode).get base.toNode)
      (res.map LNext.toNode : TRes (Node c.n S X) R).red := by
  subst he
  rw [lres_get, TRes.map_red]
  exact LGood.node k g (.refl _) ha hb hl h1 h2

theorem XRes.same_good (k : Keyed x s hashS) {d : Nat} {res : XRes (LNext S X) R}
    {as : List (K × V)} {bs : List (L × W)} (g : LGood s (x.cases as bs) res.get res.red)
    (ha : DistinctKeys as) (hb : DistinctKeys bs) {hl hr : BitVec c.w}
    (h1 : ∀ a ∈ as, x.hash a.1 = hl) (h2 : ∀ b ∈ bs, x.hash' b.1 = hr) (he : hl = hr) :
    Good s hashS d True (x.cases as bs) (res.map LNext.toNode).get
      (res.map LNext.toNode : XRes (Node c.n S X) R).red := by
  subst he
  rw [lxres_get, XRes.map_red]
  exact LGood.node k g (.refl _) ha hb hl h1 h2

end

omit [BEq K] in
theorem SNode.hash_visit {hash : K → BitVec c.w} (s : SNode K V) : ∀ a ∈ s.visit, hash a.1 = hash s.key := by
  intro a ha; simp [SNode.visit] at ha; subst ha; rfl

theorem SNode.distinct (s : SNode K V) : DistinctKeys s.visit := by simp [SNode.visit, DistinctKeys]

omit [BEq K] in
theorem LNode.two_le (l : LNode K V) : 2 ≤ l.visit.length := by
  cases l with
  | nextS k v s z => simp [LNode.visit, SNode.visit]
  | nextL k v l z =>
    have := List.length_pos_iff.2 l.visit_ne_nil
    simp [LNode.visit]; omega

omit [BEq L] in
/-- The loop over the right list ends when the list has two entries. -/
theorem LNode.rights_visit {right : LNode L W} (h : right.visit.length ≤ 2) : right.rights = .ok right.visit := by
  cases right with
  | nextS k v s z => rfl
  | nextL k v l z =>
    have := l.two_le
    rw [LNode.visit, List.length_cons] at h
    omega

omit [BEq K] in
theorem collisions_all {hash : K → BitVec c.w} {l : List (K × V)} {h : BitVec c.w}
    (hl : ∀ a ∈ l, hash a.1 = h) : collisions hash l h = l.length := by
  unfold collisions
  rw [List.countP_eq_length]
  intro a ha; simp [hl a ha]

/-- Without stalling, a collision list meets lists of at most two entries. -/
theorem NoStall.rights {this : LNode K V} {right : LNode L W} (wl : this.WF x.hash) (wr : right.WF x.hash')
    (he : x.hash this.key = x.hash' right.key) (ns : NoStall x this.visit right.visit) :
    right.rights = .ok right.visit := by
  apply LNode.rights_visit
  have h := ns (x.hash this.key)
  rw [collisions_all wl.hash, collisions_all (by rw [he]; exact wr.hash)] at h
  exact h this.two_le

/-! ### transform_with_transmuted -/

section
variable (laws : CrossLaws x) {ops : TwmOps K V L W R} (con : ops.Contract x) (reduce : R → R → R) (e : R)
include laws con

theorem twmApart_good {d : Nat} (this : LNext K V) {as : List (K × V)} {bs : List (L × W)}
    (ha : DistinctKeys as) (hb : DistinctKeys bs) {hl hr : BitVec c.w}
    (h1 : ∀ a ∈ as, x.hash a.1 = hl) (h2 : ∀ b ∈ bs, x.hash' b.1 = hr) (hne : hl ≠ hr)
    (ag : Agree c d hl hr) {left : TRes (LNext K V) R} {right : XRes (LNext K V) R}
    (gl : LGood (ops.sem reduce e) (as.map Case.left) (left.get this) left.red)
    (gr : LGood (ops.sem reduce e) (bs.map Case.right) right.get right.red) :
    ∃ res, twmApart reduce this hl hr d left right = .ok res ∧
      Good (ops.sem reduce e) x.hash d True (x.cases as bs) (res.get this.toNode) res.red := by
  obtain ⟨o, ho, g⟩ := joinN_spec (TwmOps.keyed laws con reduce e) ha hb h1 h2 hne ag gl gr
  obtain ⟨res, e1, e2, e3⟩ := twmApart_eq reduce this (ag.lt_of_ne hne) left right ho
  exact ⟨res, e1, by rw [e2, e3]; exact g⟩

theorem SNode.twm_spec (this : SNode K V) (right : SNode L W) {d : Nat}
    (ag : Agree c d (x.hash this.key) (x.hash' right.key)) :
    ∃ res, this.twm x reduce ops right d = .ok res ∧
      Good (ops.sem reduce e) x.hash d True (x.cases this.visit right.visit) (res.get (.S this)) res.red := by
  unfold SNode.twm
  split
  · next he =>
    exact ⟨_, rfl, TRes.same_good (TwmOps.keyed laws con reduce e) (base := .S this)
      (SNode.twmImpl_spec x reduce e ops this right.key right.value) this.distinct right.distinct
      this.hash_visit right.hash_visit he⟩
  · next he =>
    exact twmApart_good laws con reduce e (.S this) this.distinct right.distinct this.hash_visit
      right.hash_visit he ag ((ops.aloneL reduce e).snode this) ((ops.aloneR reduce e).snode right)

theorem LNode.twmS_spec (this : LNode K V) (wl : this.WF x.hash) (right : SNode L W) {d : Nat}
    (ag : Agree c d (x.hash this.key) (x.hash' right.key)) :
    ∃ res, this.twmS x reduce ops right d = .ok res ∧
      Good (ops.sem reduce e) x.hash d True (x.cases this.visit right.visit) (res.get (.L this)) res.red := by
  unfold LNode.twmS
  split
  · next he =>
    exact ⟨_, rfl, TRes.same_good (TwmOps.keyed laws con reduce e) (base := .L this)
      (LNode.twmSImpl_spec reduce e ops laws this wl.size wl.keys right) wl.keys right.distinct
      wl.hash right.hash_visit he⟩
  · next he =>
    exact twmApart_good laws con reduce e (.L this) wl.keys right.distinct wl.hash
      right.hash_visit he ag ((ops.aloneL reduce e).lnode this wl.size) ((ops.aloneR reduce e).snode right)

theorem LNode.twmL_spec (this : LNode K V) (wl : this.WF x.hash) (right : LNode L W) (wr : right.WF x.hash')
    {d : Nat} (ag : Agree c d (x.hash this.key) (x.hash' right.key))
    (ns : NoStall x this.visit right.visit) :
    ∃ res, this.twmL x reduce ops right d = .ok res ∧
      Good (ops.sem reduce e) x.hash d True (x.cases this.visit right.visit) (res.get (.L this)) res.red := by
  unfold LNode.twmL
  split
  · next he =>
    rw [ns.rights wl wr he]
    exact ⟨_, rfl, TRes.same_good (TwmOps.keyed laws con reduce e) (base := .L this)
      (LNode.twmLs_spec reduce e ops laws this wl.size wl.keys right.visit wr.keys) wl.keys wr.keys
      wl.hash wr.hash he⟩
  · next he =>
    exact twmApart_good laws con reduce e (.L this) wl.keys wr.keys wl.hash
      wr.hash he ag ((ops.aloneL reduce e).lnode this wl.size) ((ops.aloneR reduce e).lnode right)

end

/-! ### transmute_with_transformed -/

section
variable (laws : CrossLaws x) {ops : MwtOps K V L W R} (con : ops.Contract x) (reduce : R → R → R) (e : R)
include laws con

theorem mwtApart_good {d : Nat} (right : LNext L W) {as : List (K × V)} {bs : List (L × W)}
    (ha : DistinctKeys as) (hb : DistinctKeys bs) {hl hr : BitVec c.w}
    (h1 : ∀ a ∈ as, x.hash a.1 = hl) (h2 : ∀ b ∈ bs, x.hash' b.1 = hr) (hne : hl ≠ hr)
    (ag : Agree c d hl hr) {left : XRes (LNext L W) R} {r : TRes (LNext L W) R}
    (gl : LGood (ops.sem reduce e) (as.map Case.left) left.get left.red)
    (gr : LGood (ops.sem reduce e) (bs.map Case.right) (r.get right) r.red) :
    ∃ res, mwtApart reduce right hl hr d left r = .ok res ∧
      Good (ops.sem reduce e) x.hash' d True (x.cases as bs) (res.get right.toNode) res.red := by
  obtain ⟨o, ho, g⟩ := joinN_spec (MwtOps.keyed laws con reduce e) ha hb h1 h2 hne ag gl gr
  obtain ⟨res, e1, e2, e3⟩ := mwtApart_eq reduce right (ag.lt_of_ne hne) left r ho
  exact ⟨res, e1, by rw [e2, e3]; exact g⟩

theorem SNode.mwt_spec (this : SNode K V) (right : SNode L W) {d : Nat}
    (ag : Agree c d (x.hash this.key) (x.hash' right.key)) :
    ∃ res, this.mwt x reduce ops right d = .ok res ∧
      Good (ops.sem reduce e) x.hash' d True (x.cases this.visit right.visit) (res.get (.S right)) res.red := by
  unfold SNode.mwt
  split
  · next he =>
    exact ⟨_, rfl, TRes.same_good (MwtOps.keyed laws con reduce e) (base := .S right)
      (SNode.mwtImpl_spec x reduce e ops this right) this.distinct right.distinct
      this.hash_visit right.hash_visit he⟩
  · next he =>
    exact mwtApart_good laws con reduce e (.S right) this.distinct right.distinct this.hash_visit
      right.hash_visit he ag ((ops.aloneL reduce e).snode this) ((ops.aloneR reduce e).snode right)

theorem LNode.mwtS_spec (this : LNode K V) (wl : this.WF x.hash) (right : SNode L W) {d : Nat}
    (ag : Agree c d (x.hash this.key) (x.hash' right.key)) :
    ∃ res, this.mwtS x reduce ops right d = .ok res ∧
      Good (ops.sem reduce e) x.hash' d True (x.cases this.visit right.visit) (res.get (.S right)) res.red := by
  unfold LNode.mwtS
  split
  · next he =>
    exact ⟨_, rfl, TRes.same_good (MwtOps.keyed laws con reduce e) (base := .S right)
      (LNode.mwtSImpl_spec reduce e ops laws this wl.keys right) wl.keys right.distinct
      wl.hash right.hash_visit he⟩
  · next he =>
    exact mwtApart_good laws con reduce e (.S right) wl.keys right.distinct wl.hash
      right.hash_visit he ag ((ops.aloneL reduce e).lnode this) ((ops.aloneR reduce e).snode right)

end

/-! ### transmute_with_transmuted -/

section
variable (laws : CrossLaws x) {hashS : S → BitVec c.w} (lawsS : KeyLaws hashS) {ops : MwmOps K V L W S X R}
  (con : ops.Contract x hashS) (reduce : R → R → R) (e : R)
include laws lawsS con

theorem mwmApart_good {d : Nat} {as : List (K × V)} {bs : List (L × W)}
    (ha : DistinctKeys as) (hb : DistinctKeys bs) {hl hr : BitVec c.w}
    (h1 : ∀ a ∈ as, x.hash a.1 = hl) (h2 : ∀ b ∈ bs, x.hash' b.1 = hr) (hne : hl ≠ hr)
    (ag : Agree c d hl hr) {left right : XRes (LNext S X) R}
    (gl : LGood (ops.sem reduce e) (as.map Case.left) left.get left.red)
    (gr : LGood (ops.sem reduce e) (bs.map Case.right) right.get right.red) :
    ∃ res, mwmApart reduce hl hr d left right = .ok res ∧
      Good (ops.sem reduce e) hashS d True (x.cases as bs) res.get res.red := by
  obtain ⟨o, ho, g⟩ := joinN_spec (MwmOps.keyed laws lawsS con reduce e) ha hb h1 h2 hne ag gl gr
  obtain ⟨res, e1, e2, e3⟩ := mwmApart_eq reduce (ag.lt_of_ne hne) left right ho
  exact ⟨res, e1, by rw [e2, e3]; exact g⟩

theorem SNode.mwm_spec (this : SNode K V) (right : SNode L W) {d : Nat}
    (ag : Agree c d (x.hash this.key) (x.hash' right.key)) :
    ∃ res, this.mwm x reduce ops right d = .ok res ∧
      Good (ops.sem reduce e) hashS d True (x.cases this.visit right.visit) res.get res.red := by
  unfold SNode.mwm
  split
  · next he =>
    exact ⟨_, rfl, XRes.same_good (MwmOps.keyed laws lawsS con reduce e)
      (SNode.mwmValues_spec x reduce e ops (this.key, this.value) (right.key, right.value))
      this.distinct right.distinct this.hash_visit right.hash_visit he⟩
  · next he =>
    exact mwmApart_good laws lawsS con reduce e this.distinct right.distinct this.hash_visit
      right.hash_visit he ag ((ops.aloneL reduce e).snode this) ((ops.aloneR reduce e).snode right)

theorem LNode.mwmS_spec (this : LNode K V) (wl : this.WF x.hash) (right : SNode L W) {d : Nat}
    (ag : Agree c d (x.hash this.key) (x.hash' right.key)) :
    ∃ res, this.mwmS x reduce ops right d = .ok res ∧
      Good (ops.sem reduce e) hashS d True (x.cases this.visit right.visit) res.get res.red := by
  unfold LNode.mwmS
  split
  · next he =>
    exact ⟨_, rfl, XRes.same_good (MwmOps.keyed laws lawsS con reduce e)
      (LNode.mwmSImpl_spec reduce e ops laws this wl.keys right) wl.keys right.distinct
      wl.hash right.hash_visit he⟩
  · next he =>
    exact mwmApart_good laws lawsS con reduce e wl.keys right.distinct wl.hash
      right.hash_visit he ag ((ops.aloneL reduce e).lnode this) ((ops.aloneR reduce e).snode right)

theorem LNode.mwmL_spec (this : LNode K V) (wl : this.WF x.hash) (right : LNode L W) (wr : right.WF x.hash')
    {d : Nat} (ag : Agree c d (x.hash this.key) (x.hash' right.key))
    (ns : NoStall x this.visit right.visit) :
    ∃ res, this.mwmL x reduce ops right d = .ok res ∧
      Good (ops.sem reduce e) hashS d True (x.cases this.visit right.visit) res.get res.red := by
  unfold LNode.mwmL
  split
  · next he =>
    rw [ns.rights wl wr he]
    exact ⟨_, rfl, XRes.same_good (MwmOps.keyed laws lawsS con reduce e)
      (LNode.mwmLs_spec reduce e ops laws this wl.keys right.visit wr.keys) wl.keys wr.keys
      wl.hash wr.hash he⟩
  · next he =>
    exact mwmApart_good laws lawsS con reduce e wl.keys wr.keys wl.hash
      wr.hash he ag ((ops.aloneL reduce e).lnode this) ((ops.aloneR reduce e).lnode right)

end
end HT
