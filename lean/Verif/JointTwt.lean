import Verif.JointTwtList
import Verif.JointTrie
/-! # transform_with_transformed on nodes -/
namespace HT

variable {K V R : Type} [BEq K] {c : Cfg} {hash : K → BitVec c.w}

/-! ### Keys of the results -/

omit [BEq K] in
theorem TwtOps.out_key {ops : TwtOps K V R} {p : Case (K × V) (K × V)} {a : K × V} (h : ops.Out p (some a)) :
    p.lkey? = some a.1 ∨ p.rkey? = some a.1 := by
  have ent : ∀ {Q : Type} (res : MapJointTransformResult V Q) (l r : K × V), res.Entry l r (some a) → l.1 = a.1 ∨ r.1 = a.1 := by
    intro Q res l r h
    cases res <;> simp only [MapJointTransformResult.Entry, Option.some.injEq, reduceCtorEq] at h
    · rcases h with rfl | rfl
      · exact .inl rfl
      · exact .inr rfl
    · subst h; exact .inl rfl
    · subst h; exact .inr rfl
    · rcases h with rfl | rfl
      · exact .inl rfl
      · exact .inr rfl
  cases p with
  | left b => exact .inl (congrArg some (MapTransformResult.entry_key h).symm)
  | right b => exact .inr (congrArg some (MapTransformResult.entry_key h).symm)
  | both l r =>
    have h : ops.both.Entry l r (some a) := h
    have : l.1 = a.1 ∨ r.1 = a.1 := by
      cases hb : ops.both with
      | generic f fl => rw [hb] at h; exact ent _ l r h
      | removed r => rw [hb] at h; simp [MapJointTransform.Entry] at h
      | unchangedLR _ => rw [hb] at h; exact ent (.unchangedLR ()) l r h
      | unchangedL _ => rw [hb] at h; exact ent (.unchangedLR ()) l r h
      | unchangedR _ => rw [hb] at h; exact ent (.unchangedLR ()) l r h
    rcases this with h | h
    · exact .inl (congrArg some h)
    · exact .inr (congrArg some h)

theorem TwtOps.keyed (laws : KeyLaws hash) (ops : TwtOps K V R) (reduce : R → R → R) (e : R) :
    Keyed (Cross.same hash) (ops.sem reduce e) hash where
  laws := .same laws
  lawsS := laws
  hash := by
    intro p a hm h
    rcases TwtOps.out_key h with h | h
    · cases p <;> simp only [Case.lkey?, Option.some.injEq, reduceCtorEq] at h <;> rw [← h] <;> rfl
    · cases p with
      | left b => simp [Case.rkey?] at h
      | right b => simp only [Case.rkey?, Option.some.injEq] at h; rw [← h]; rfl
      | both l r =>
        simp only [Case.rkey?, Option.some.injEq] at h
        rw [← h]
        exact (laws.hash _ _ hm).symm
  inj := by
    intro p q a b _ _ h1 h2 hab
    rcases TwtOps.out_key h1 with h1 | h1 <;> rcases TwtOps.out_key h2 with h2 | h2
    · exact .inl ⟨_, _, h1, h2, hab⟩
    · exact .inr (.inr (.inl ⟨_, _, h1, h2, hab⟩))
    · exact .inr (.inr (.inr ⟨_, _, h2, h1, laws.symm _ _ hab⟩))
    · exact .inr (.inl ⟨_, _, h1, h2, hab⟩)

/-! ### Results with several readings -/

/-- All readings of the result are right. -/
def JGood (s : Sem (K × V) (K × V) (K × V) R) (hash : K → BitVec c.w) (d : Nat) (N : Prop)
    (cs : List (Case (K × V) (K × V))) (left right : Node c.n K V) (res : JRes (Node c.n K V) R) : Prop :=
  ∀ o ∈ res.gives left right, Good s hash d N cs o res.red

theorem JGood.mono {s : Sem (K × V) (K × V) (K × V) R} {d : Nat} {N N' : Prop}
    {cs : List (Case (K × V) (K × V))} {left right : Node c.n K V} {res : JRes (Node c.n K V) R}
    (h : JGood s hash d N cs left right res) (p : N' → N) : JGood s hash d N' cs left right res :=
  fun o ho => (h o ho).mono p

omit [BEq K] in
theorem JRes.gives_flip {N : Type} {left right : N} {res : JRes N R} {o : Option N}
    (h : o ∈ res.flip.gives left right) : o ∈ res.gives right left := by
  cases res <;> simp only [JRes.flip, JRes.gives, List.mem_cons, List.not_mem_nil, or_false] at h ⊢ <;>
    first | exact h | exact h.symm

omit [BEq K] in
theorem JRes.red_flip {N : Type} (res : JRes N R) : res.flip.red = res.red := by cases res <;> rfl

theorem MapJointTransform.flip_neutral {e : R}
    {op : MapJointTransform R (K → V → K → V → MapJointTransformResult V R)} (h : op.Neutral e) :
    op.flip.Neutral e := by
  cases op <;> exact h

theorem Cross.same_flip (hash : K → BitVec c.w) : (Cross.same hash).flip = Cross.same hash := rfl

theorem JGood.flip (laws : KeyLaws hash) {ops : TwtOps K V R} {reduce : R → R → R} {e : R} {d : Nat} {N : Prop}
    {as bs : List (K × V)} (ha : DistinctKeys as) (hb : DistinctKeys bs)
    {left right : Node c.n K V} {res : JRes (Node c.n K V) R}
    (h : JGood (ops.flip.sem reduce e) hash d N ((Cross.same hash).cases bs as) right left res) :
    JGood (ops.sem reduce e) hash d N ((Cross.same hash).cases as bs) left right res.flip := by
  intro o ho
  rw [JRes.red_flip]
  exact (h o (JRes.gives_flip ho)).flip (CrossLaws.same laws) ha hb ops.flip_out ops.flip_red rfl rfl
    (fun h => ⟨h.1, MapJointTransform.flip_neutral h.2.1, h.2.2.2, h.2.2.1⟩)

omit [BEq K] in
theorem JRes.map_gives {N M : Type} (f : N → M) (left right : N) (res : JRes N R) :
    (res.map f).gives (f left) (f right) = (res.gives left right).map (Option.map f) := by
  cases res <;> rfl

omit [BEq K] in
theorem JRes.map_red {N M : Type} (f : N → M) (res : JRes N R) : (res.map f).red = res.red := by
  cases res <;> rfl

theorem JRes.same_good {s : Sem (K × V) (K × V) (K × V) R} (k : Keyed (Cross.same hash) s hash) {d : Nat}
    {res : JRes (LNext K V) R} {left right : LNext K V} {as bs : List (K × V)}
    (g : LGoodJ s ((Cross.same hash).cases as bs) left right res)
    (ha : DistinctKeys as) (hb : DistinctKeys bs) {hl hr : BitVec c.w}
    (h1 : ∀ a ∈ as, hash a.1 = hl) (h2 : ∀ b ∈ bs, hash b.1 = hr) (he : hl = hr) :
    JGood s hash d True ((Cross.same hash).cases as bs) left.toNode right.toNode (res.map LNext.toNode) := by
  subst he
  intro o ho
  rw [JRes.map_gives] at ho
  obtain ⟨o', ho', rfl⟩ := List.mem_map.1 ho
  rw [JRes.map_red]
  exact LGood.node k (g o' ho') (.refl _) ha hb hl h1 h2

/-! ### Tame answers -/

omit [BEq K] in
theorem withHash_all {l : List (K × V)} {h : BitVec c.w} (hl : ∀ a ∈ l, hash a.1 = h) :
    withHash hash l h = l := by
  unfold withHash
  rw [List.filter_eq_self]
  intro a ha; simp [hl a ha]

theorem TwtOps.TameAt.flip {ops : TwtOps K V R} {as bs : List (K × V)} (h : ops.TameAt as bs) :
    ops.flip.TameAt bs as := by
  refine ⟨fun h1 h2 => h.right h2 h1, fun h1 h2 => ?_, fun h1 h2 => ?_⟩
  · rw [TwtOps.flip_flip]; exact h.left h2 h1
  · obtain ⟨q3, q4⟩ := h.both h2 h1
    exact ⟨q4, by rw [TwtOps.flip_flip]; exact q3⟩

theorem TwtOps.Tame.flip {ops : TwtOps K V R} {as bs : List (K × V)} (h : ops.Tame hash as bs) :
    ops.flip.Tame hash bs as := fun v => (h v).flip

theorem TwtOps.TameAt.nil_left (ops : TwtOps K V R) (bs : List (K × V)) : ops.TameAt [] bs :=
  ⟨by simp, by simp, by simp⟩

theorem TwtOps.TameAt.nil_right (ops : TwtOps K V R) (as : List (K × V)) : ops.TameAt as [] :=
  ⟨by simp, by simp, by simp⟩

omit [BEq K] in
theorem withHash_none {l : List (K × V)} {v : BitVec c.w} (h : ∀ a ∈ l, hash a.1 ≠ v) :
    withHash hash l v = [] := by
  unfold withHash
  rw [List.filter_eq_nil_iff]
  intro a ha; simp [h a ha]

omit [BEq K] in
theorem withHash_slots {d : Nat} {f : Nat → List (K × V)}
    (h : ∀ i, ∀ a ∈ f i, chunk c (hash a.1) d = i) (v : BitVec c.w) :
    withHash hash ((List.range c.n).flatMap f) v = withHash hash (f (chunk c v d)) v := by
  unfold withHash
  rw [List.filter_flatMap]
  have : ∀ i ∈ List.range c.n, (fun a => List.filter (fun e => hash e.1 == v) (f a)) i =
      flatSlot c v d (List.filter (fun a => hash a.1 == v) (f (chunk c v d))) i := by
    intro i _
    simp only [flatSlot]
    split
    · next he => rw [he]
    · next he =>
      rw [List.filter_eq_nil_iff]
      intro a ha hv
      apply he
      rw [← h i a ha, eq_of_beq hv]
  refine (flatMap_congr' _ _ _ this).trans (flatSlot_flatMap ..)

/-- The entries with a given hash are all in one slot. -/
theorem withHash_slot {bits : BitVec c.n} {values : List (Node c.n K V)} {extra d : Nat}
    (wf : (Node.C bits values extra).WF hash c.levels d) {i : Nat} {m : Node c.n K V}
    (hm : (Bia.mk bits values extra).slot i = some m) (v : BitVec c.w) :
    withHash hash m.visit v = if chunk c v d = i then withHash hash (Node.C bits values extra).visit v else [] := by
  cases wf with
  | C _ _ _ _ hd ok sz ne at_ sub =>
    split
    · next he =>
      rw [Node.visit, visit_slots ⟨bits, values, extra⟩ ok, withHash_slots (slotVisit_chunk at_) v, he,
        slotVisit_some hm]
    · next he =>
      apply withHash_none
      intro a ha hv
      apply he
      rw [← at_ i m hm a ha, hv]

theorem TwtOps.Tame.slots {ops : TwtOps K V R} {bits : BitVec c.n} {values : List (Node c.n K V)} {extra d : Nat}
    (wf : (Node.C bits values extra).WF hash c.levels d)
    {rbits : BitVec c.n} {rvalues : List (Node c.n K V)} {rextra : Nat}
    (wr : (Node.C rbits rvalues rextra).WF hash c.levels d)
    (h : ops.Tame hash (Node.C bits values extra).visit (Node.C rbits rvalues rextra).visit)
    {i : Nat} {m r : Node c.n K V} (hm : (Bia.mk bits values extra).slot i = some m)
    (hr : (Bia.mk rbits rvalues rextra).slot i = some r) : ops.Tame hash m.visit r.visit := by
  intro v
  rw [withHash_slot wf hm v, withHash_slot wr hr v]
  split
  · exact h v
  · exact .nil_left ..

theorem TwtOps.Tame.slotL {ops : TwtOps K V R} {bits : BitVec c.n} {values : List (Node c.n K V)} {extra d : Nat}
    (wf : (Node.C bits values extra).WF hash c.levels d) {bs : List (K × V)}
    (h : ops.Tame hash (Node.C bits values extra).visit bs)
    {i : Nat} {m : Node c.n K V} (hm : (Bia.mk bits values extra).slot i = some m) :
    ops.Tame hash m.visit bs := by
  intro v
  rw [withHash_slot wf hm v]
  split
  · exact h v
  · exact .nil_left ..

/-! ### Two lists or single nodes -/

section
variable (laws : KeyLaws hash) (ops : TwtOps K V R) (reduce : R → R → R) (e : R)
include laws

theorem twtApart_good {d : Nat} (this right : LNext K V) {as bs : List (K × V)}
    (ha : DistinctKeys as) (hb : DistinctKeys bs) {hl hr : BitVec c.w}
    (h1 : ∀ a ∈ as, hash a.1 = hl) (h2 : ∀ b ∈ bs, hash b.1 = hr) (hne : hl ≠ hr)
    (ag : Agree c d hl hr) {left r : TRes (LNext K V) R}
    (gl : LGood (ops.sem reduce e) (as.map Case.left) (left.get this) left.red)
    (gr : LGood (ops.sem reduce e) (bs.map Case.right) (r.get right) r.red) :
    ∃ res, twtApart reduce this right hl hr d left r = .ok res ∧
      JGood (ops.sem reduce e) hash d True ((Cross.same hash).cases as bs) this.toNode right.toNode res := by
  obtain ⟨o, ho, g⟩ := joinN_spec (TwtOps.keyed laws ops reduce e) ha hb h1 h2 hne ag gl gr
  obtain ⟨res, e1, e2, e3⟩ := twtApart_eq reduce this right (ag.lt_of_ne hne) left r ho
  refine ⟨res, e1, ?_⟩
  intro o' ho'
  rw [e2, List.mem_singleton] at ho'
  subst ho'
  rw [e3]; exact g

theorem SNode.twt_spec (this right : SNode K V) {d : Nat} (ag : Agree c d (hash this.key) (hash right.key)) :
    ∃ res, this.twt reduce hash ops right d = .ok res ∧
      JGood (ops.sem reduce e) hash d True ((Cross.same hash).cases this.visit right.visit)
        (.S this) (.S right) res := by
  unfold SNode.twt
  split
  · next he =>
    exact ⟨_, rfl, JRes.same_good (TwtOps.keyed laws ops reduce e) (left := .S this) (right := .S right)
      (SNode.twtImpl_spec reduce e ops this right) this.distinct right.distinct
      this.hash_visit right.hash_visit he⟩
  · next he =>
    exact twtApart_good laws ops reduce e (.S this) (.S right) this.distinct right.distinct this.hash_visit
      right.hash_visit he ag ((ops.aloneL reduce e).snode this) ((ops.aloneR reduce e).snode right)

theorem LNode.twtS_spec (this : LNode K V) (wl : this.WF hash) (right : SNode K V) {d : Nat}
    (ag : Agree c d (hash this.key) (hash right.key)) (tame : ops.Tame hash this.visit right.visit) :
    ∃ res, this.twtS reduce hash ops right d = .ok res ∧
      JGood (ops.sem reduce e) hash d True ((Cross.same hash).cases this.visit right.visit)
        (.L this) (.S right) res := by
  unfold LNode.twtS
  split
  · next he =>
    have ht := tame (hash this.key)
    rw [withHash_all wl.hash, withHash_all (by rw [he]; exact right.hash_visit)] at ht
    exact ⟨_, rfl, JRes.same_good (TwtOps.keyed laws ops reduce e) (left := .L this) (right := .S right)
      (LNode.twtSImpl_spec reduce e ops laws this wl.size wl.keys right (ht.left this.two_le rfl)) wl.keys
      right.distinct wl.hash right.hash_visit he⟩
  · next he =>
    exact twtApart_good laws ops reduce e (.L this) (.S right) wl.keys right.distinct wl.hash
      right.hash_visit he ag ((ops.aloneL reduce e).lnode this wl.size) ((ops.aloneR reduce e).snode right)

theorem LNode.twtL_spec (this : LNode K V) (wl : this.WF hash) (right : LNode K V) (wr : right.WF hash)
    {d : Nat} (ag : Agree c d (hash this.key) (hash right.key)) (tame : ops.Tame hash this.visit right.visit)
    (ns : NoStall (Cross.same hash) this.visit right.visit) :
    ∃ res, this.twtL reduce hash ops right d = .ok res ∧
      JGood (ops.sem reduce e) hash d True ((Cross.same hash).cases this.visit right.visit)
        (.L this) (.L right) res := by
  unfold LNode.twtL
  split
  · next he =>
    have ht := tame (hash this.key)
    rw [withHash_all wl.hash, withHash_all (by rw [he]; exact wr.hash)] at ht
    obtain ⟨h3, _⟩ := ht.both this.two_le right.two_le
    rw [NoStall.rights (x := Cross.same hash) wl wr he ns]
    obtain ⟨next, res, q1, q2, q3⟩ := LNode.twtLs_spec reduce e ops laws this right wl.size wr.size wl.keys
      wr.keys h3
    simp only [Res.ok_bind, q1, q2]
    exact ⟨_, rfl, JRes.same_good (TwtOps.keyed laws ops reduce e) (left := .L this) (right := .L right)
      q3 wl.keys wr.keys wl.hash wr.hash he⟩
  · next he =>
    exact twtApart_good laws ops reduce e (.L this) (.L right) wl.keys wr.keys wl.hash
      wr.hash he ag ((ops.aloneL reduce e).lnode this wl.size) ((ops.aloneR reduce e).lnode right wr.size)

end

/-! ### The loops -/

/-- What an iteration says about the old slots. -/
def KeepJ (s : Sem (K × V) (K × V) (K × V) R) (slL slR : Nat → List (K × V)) (i : Nat)
    (cs : List (Case (K × V) (K × V))) (it : Item c.n K V R) : Prop :=
  (it.kl = true → s.Real cs (slL i) (it.red?.getD s.e)) ∧ (it.kr = true → s.Real cs (slR i) (it.red?.getD s.e))

theorem Looped.finishJ {s : Sem (K × V) (K × V) (K × V) R} (k : Keyed (Cross.same hash) s hash) {d : Nat}
    (hd : d < c.levels) {as bs : List (K × V)} {acc : Acc c.n K V R} {left right : Node c.n K V}
    (wl : left.WF hash c.levels d) (wr : right.WF hash c.levels d)
    {slL slR : Nat → List (K × V)} (hsl : (List.range c.n).flatMap slL = left.visit)
    (hsr : (List.range c.n).flatMap slR = right.visit)
    (h : Looped (Cross.same hash) s hash d as bs acc (KeepJ s slL slR)) :
    ∃ res, JRes.finish acc = .ok res ∧
      JGood s hash d (left.visit ≠ [] ∧ right.visit ≠ []) ((Cross.same hash).cases as bs) left right res := by
  obtain ⟨it, csi, G, h1, hc, hp, hq⟩ := h.ex
  have gl : acc.ul = true →
      Good s hash d (left.visit ≠ [] ∧ right.visit ≠ []) ((Cross.same hash).cases as bs) (some left) acc.red := by
    intro hul
    have hk := G.ul
    rw [hul] at hk
    have hk := List.all_eq_true.1 hk.symm
    have hr : s.Real ((List.range c.n).flatMap csi) ((List.range c.n).flatMap slL) acc.red :=
      Sem.Real.flatMap (fun i hi => (hq i (List.mem_range.1 hi)).1 (hk i hi)) (fun hy => G.red (s.cm hy).toMon)
    rw [hsl] at hr
    refine ⟨hr.perm hp, ?_, ?_⟩
    · intro m hm; injection hm with hm; subst hm; exact wl
    · intro hN m hm; injection hm with hm; subst hm; exact hN.1
  have gr : acc.ur = true →
      Good s hash d (left.visit ≠ [] ∧ right.visit ≠ []) ((Cross.same hash).cases as bs) (some right) acc.red := by
    intro hur
    have hk := G.ur
    rw [hur] at hk
    have hk := List.all_eq_true.1 hk.symm
    have hr : s.Real ((List.range c.n).flatMap csi) ((List.range c.n).flatMap slR) acc.red :=
      Sem.Real.flatMap (fun i hi => (hq i (List.mem_range.1 hi)).2 (hk i hi)) (fun hy => G.red (s.cm hy).toMon)
    rw [hsr] at hr
    refine ⟨hr.perm hp, ?_, ?_⟩
    · intro m hm; injection hm with hm; subst hm; exact wr
    · intro hN m hm; injection hm with hm; subst hm; exact hN.2
  unfold JRes.finish
  cases hul : acc.ul with
  | true =>
    cases hur : acc.ur with
    | true =>
      refine ⟨.unchangedLR acc.red, by simp, ?_⟩
      intro o ho
      simp only [JRes.gives, List.mem_cons, List.not_mem_nil, or_false] at ho
      rcases ho with rfl | rfl
      · exact gl hul
      · exact gr hur
    | false =>
      refine ⟨.unchangedL acc.red, by simp, ?_⟩
      intro o ho
      simp only [JRes.gives, List.mem_cons, List.not_mem_nil, or_false] at ho
      subst ho; exact gl hul
  | false =>
    cases hur : acc.ur with
    | true =>
      refine ⟨.unchangedR acc.red, by simp, ?_⟩
      intro o ho
      simp only [JRes.gives, List.mem_cons, List.not_mem_nil, or_false] at ho
      subst ho; exact gr hur
    | false =>
      obtain ⟨o, ho, g⟩ := loop_pack k hd G h1 hc
      simp only [Bool.false_eq_true, if_false, ho, Res.ok_bind]
      refine ⟨_, rfl, ?_⟩
      intro o' ho'
      have : o' = o ∧ (JRes.ofOption o acc.red).red = acc.red := by
        cases o <;> simp only [JRes.ofOption, JRes.gives, List.mem_cons, List.not_mem_nil, or_false] at ho' <;>
          exact ⟨ho', rfl⟩
      rw [this.1, this.2]
      exact (g.perm hp).mono (fun _ => trivial)

/-- The item made of a good result. -/
theorem JGood.itemOpt_good {s : Sem (K × V) (K × V) (K × V) R} {d : Nat} {N : Prop}
    {cs : List (Case (K × V) (K × V))} {left right : Node c.n K V} {res : JRes (Node c.n K V) R}
    (g : JGood s hash (d + 1) N cs left right res) (hN : N) (left? right? : Option (Node c.n K V))
    (hl : ∀ r, res = .unchangedLR r ∨ res = .unchangedL r → left? = some left)
    (hr : ∀ r, res = .unchangedR r → right? = some right)
    {slL slR : Nat → List (K × V)} {i : Nat} (h1 : left? = some left → slL i = left.visit)
    (h2 : ∀ r, res = .unchangedLR r ∨ res = .unchangedR r → slR i = right.visit) :
    ∃ it, res.itemOpt left? right? = .ok it ∧ ItemGood s hash d cs it ∧ KeepJ s slL slR i cs it := by
  have mem : ∀ o, o ∈ res.gives left right → Good s hash (d + 1) N cs o res.red := g
  cases res with
  | unchangedLR r =>
    have hl := hl r (.inl rfl)
    subst hl
    have g1 := mem (some left) (by simp [JRes.gives])
    have g2 := mem (some right) (by simp [JRes.gives])
    refine ⟨_, rfl, .of g1 hN rfl rfl, fun _ => ?_, fun _ => ?_⟩
    · rw [h1 rfl]; exact g1.real
    · rw [h2 r (.inl rfl)]; exact g2.real
  | unchangedL r =>
    have hl := hl r (.inr rfl)
    subst hl
    have g1 := mem (some left) (by simp [JRes.gives])
    refine ⟨_, rfl, .of g1 hN rfl rfl, fun _ => ?_, by simp [Item.kr]⟩
    rw [h1 rfl]; exact g1.real
  | unchangedR r =>
    have hr := hr r rfl
    subst hr
    have g1 := mem (some right) (by simp [JRes.gives])
    refine ⟨_, rfl, .of g1 hN rfl rfl, by simp [Item.kl], fun _ => ?_⟩
    rw [h2 r (.inr rfl)]; exact g1.real
  | node m r =>
    exact ⟨_, rfl, .of (mem (some m) (by simp [JRes.gives])) hN rfl rfl, by simp [Item.kl], by simp [Item.kr]⟩
  | removed r =>
    exact ⟨_, rfl, .of (mem none (by simp [JRes.gives])) hN rfl rfl, by simp [Item.kl], by simp [Item.kr]⟩

/-- The item made of the result on a left child alone. -/
theorem TRes.jointL_good {s : Sem (K × V) (K × V) (K × V) R} {d : Nat} {N : Prop}
    {cs : List (Case (K × V) (K × V))} {m : Node c.n K V} {res : TRes (Node c.n K V) R}
    (g : Good s hash (d + 1) N cs (res.get m) res.red) (hN : N) (right? : Option (Node c.n K V))
    {slL slR : Nat → List (K × V)} {i : Nat} (h1 : slL i = m.visit) :
    ∃ it, res.jointL.itemOpt (some m) right? = .ok it ∧ ItemGood s hash d cs it ∧ KeepJ s slL slR i cs it := by
  have gj : JGood s hash (d + 1) N cs m m res.jointL := by
    intro o ho
    cases res <;> simp only [TRes.jointL, JRes.gives, List.mem_cons, List.not_mem_nil, or_false] at ho <;>
      subst ho <;> exact g
  refine gj.itemOpt_good hN (some m) right? (fun _ _ => rfl) ?_ (fun _ => h1) ?_
  · intro r hr; cases res <;> simp [TRes.jointL] at hr
  · intro r hr; cases res <;> simp [TRes.jointL] at hr

/-- The item made of the result on a right child alone. -/
theorem TRes.jointR_good {s : Sem (K × V) (K × V) (K × V) R} {d : Nat} {N : Prop}
    {cs : List (Case (K × V) (K × V))} {m : Node c.n K V} {res : TRes (Node c.n K V) R}
    (g : Good s hash (d + 1) N cs (res.get m) res.red) (hN : N)
    {slL slR : Nat → List (K × V)} {i : Nat} (h2 : slR i = m.visit) :
    ∃ it, res.jointR.itemOpt none (some m) = .ok it ∧ ItemGood s hash d cs it ∧ KeepJ s slL slR i cs it := by
  have gj : JGood s hash (d + 1) N cs m m res.jointR := by
    intro o ho
    cases res <;> simp only [TRes.jointR, JRes.gives, List.mem_cons, List.not_mem_nil, or_false] at ho <;>
      subst ho <;> exact g
  refine gj.itemOpt_good hN none (some m) ?_ (fun _ _ => rfl) (by simp) (fun _ _ => h2)
  intro r hr; cases res <;> simp [TRes.jointR] at hr

theorem KeepJ.skip {s : Sem (K × V) (K × V) (K × V) R} {slL slR : Nat → List (K × V)} {i : Nat}
    (h1 : slL i = []) (h2 : slR i = []) : KeepJ (c := c) s slL slR i [] .skip := by
  have : s.Real [] [] s.e := ⟨⟨[], .refl _, by simp, .refl _⟩, fun _ => rfl⟩
  exact ⟨fun _ => by rw [h1]; exact this, fun _ => by rw [h2]; exact this⟩

section
variable (laws : KeyLaws hash) {ops : TwtOps K V R} (reduce : R → R → R) (e : R) (par : Par)
include laws

theorem twtFlat_spec (right : LNext K V) (wr : ∀ d, (right.toNode : Node c.n K V).WF hash c.levels d)
    {hv : BitVec c.w} (h2 : ∀ b ∈ right.visit, hash b.1 = hv)
    (fS : SNode K V → Nat → Res (JRes (Node c.n K V) R))
    (fL : LNode K V → Nat → Res (JRes (Node c.n K V) R)) (alone : TRes (Node c.n K V) R)
    (hS : ∀ s d, Agree c d (hash s.key) hv → ops.Tame hash s.visit right.visit → ∃ res, fS s d = .ok res ∧
      JGood (ops.sem reduce e) hash d True ((Cross.same hash).cases s.visit right.visit) (.S s) right.toNode res)
    (hL : ∀ l d, l.WF hash → Agree c d (hash l.key) hv → ops.Tame hash l.visit right.visit →
      NoStall (Cross.same hash) l.visit right.visit → ∃ res, fL l d = .ok res ∧
      JGood (ops.sem reduce e) hash d True ((Cross.same hash).cases l.visit right.visit) (.L l) right.toNode res)
    (hA : ∀ d, Good (ops.sem reduce e) hash d True (right.visit.map Case.right) (alone.get right.toNode) alone.red)
    {d : Nat} {m : Node c.n K V} (wf : m.WF hash c.levels d)
    (ag : ∀ a ∈ m.visit, Agree c d (hash a.1) hv) (tame : ops.Tame hash m.visit right.visit)
    (ns : NoStall (Cross.same hash) m.visit right.visit) :
    ∃ res, Node.fold fS fL (fun bits left extra depth => do
        let acc ← flatLoop reduce e hv depth ⟨bits, left, extra⟩
          (Node.transformL reduce e par ops.left) alone.jointR
          (fun left? res => res.itemOpt left? (some right.toNode))
        JRes.finish acc) m d = .ok res ∧
      JGood (ops.sem reduce e) hash d (m.visit ≠ []) ((Cross.same hash).cases m.visit right.visit) m right.toNode
        res := by
  have hb : DistinctKeys right.visit := by
    have := Node.WF.distinct laws.hash (wr 0)
    rwa [LNext.toNode_visit] at this
  induction wf with
  | S d s =>
    obtain ⟨res, h1, g⟩ := hS s d (ag (s.key, s.value) (by simp [Node.visit, SNode.visit])) tame
    exact ⟨res, h1, g.mono (fun _ => trivial)⟩
  | L d l hl =>
    obtain ⟨res, h1, g⟩ := hL l d hl (ag (l.key, l.value) (by rw [Node.visit, LNode.visit_eq]; simp)) tame ns
    exact ⟨res, h1, g.mono (fun _ => trivial)⟩
  | C d bits values extra hd ok sz ne at_ sub ih =>
    have wf : (Node.C bits values extra).WF hash c.levels d := .C d bits values extra hd ok sz ne at_ sub
    rw [Node.fold, Node.foldAll_eq]
    obtain ⟨acc, h1, h2⟩ := flat_looped (x := Cross.same hash) (s := ops.sem reduce e) (hashS := hash)
      (.same laws) wf hb h2
      (fun m => Node.fold fS fL _ m (d + 1)) (Node.transformL reduce e par ops.left) alone.jointR
      (fun left? res => res.itemOpt left? (some right.toNode))
      (KeepJ (ops.sem reduce e) (slotVisit ⟨bits, values, extra⟩) (flatSlot c hv d right.visit))
      (by
        intro m hm
        obtain ⟨res, q1, g⟩ := ih _ m hm
          (fun a ha => (ag a ((slotVisit_sublist hm).subset ha)).succ (at_ _ m hm a ha))
          (tame.slotL wf hm) (ns.mono (slotVisit_sublist hm) (.refl _))
        obtain ⟨it, i1, i2, i3⟩ := g.itemOpt_good (ne _ _ hm) (some m) (some right.toNode) (fun _ _ => rfl)
          (fun _ _ => rfl) (slL := slotVisit ⟨bits, values, extra⟩) (slR := flatSlot c hv d right.visit)
          (i := chunk c hv d) (fun _ => slotVisit_some hm)
          (fun _ _ => by rw [LNext.toNode_visit]; simp [flatSlot])
        exact ⟨res, it, q1, i1, i2, i3⟩)
      (by
        intro i m hi hm
        obtain ⟨res, q1, g⟩ := (ops.aloneL reduce e).node laws.hash par (sub _ _ hm)
        obtain ⟨it, i1, i2, i3⟩ := TRes.jointL_good g (ne _ _ hm) (some right.toNode)
          (slL := slotVisit ⟨bits, values, extra⟩) (slR := flatSlot c hv d right.visit) (slotVisit_some hm)
        exact ⟨res.jointL, it, by simp only [Node.transformL, q1, Res.ok_bind], i1, i2, i3⟩)
      (by
        intro hm
        exact TRes.jointR_good (hA (d + 1)) trivial
          (by rw [LNext.toNode_visit]; simp [flatSlot]))
      (by
        intro i hi hm
        exact .skip (slotVisit_none hm) (by simp [flatSlot, hi]))
    simp only [h1, Res.ok_bind]
    obtain ⟨res, e1, g⟩ := h2.finishJ (TwtOps.keyed laws ops reduce e) hd wf (wr d)
      (by rw [Node.visit]; exact (visit_slots ⟨bits, values, extra⟩ ok).symm)
      (by rw [flatSlot_flatMap, LNext.toNode_visit])
    exact ⟨res, e1, g.mono (fun h => ⟨h, by rw [LNext.toNode_visit]; exact right.visit_ne_nil⟩)⟩

theorem Node.twtS_spec (right : SNode K V) {d : Nat} {m : Node c.n K V} (wf : m.WF hash c.levels d)
    (ag : ∀ a ∈ m.visit, Agree c d (hash a.1) (hash right.key)) (tame : ops.Tame hash m.visit right.visit) :
    ∃ res, m.twtS reduce e hash ops par right d = .ok res ∧
      JGood (ops.sem reduce e) hash d (m.visit ≠ []) ((Cross.same hash).cases m.visit right.visit) m (.S right)
        res := by
  refine twtFlat_spec laws reduce e par (.S right) (fun d => .S d right) right.hash_visit _ _
    ((right.transform ops.right).map Node.S)
    (fun s d ag _ => SNode.twt_spec laws ops reduce e s right ag)
    (fun l d wl ag tm _ => LNode.twtS_spec laws ops reduce e l wl right ag tm) ?_ wf ag tame
    (.of_right_two (by simp [LNext.visit, SNode.visit]))
  intro d
  obtain ⟨res, h1, g⟩ := (ops.aloneR reduce e).node laws.hash .sequential (Node.WF.S d right)
  simp only [Node.transform, Res.ok.injEq] at h1
  subst h1
  exact g.mono (fun _ => by simp [Node.visit, SNode.visit])

theorem LNode.twtS_flip {d : Nat} (s : SNode K V) (right : LNode K V) (wr : right.WF hash)
    (ag : Agree c d (hash s.key) (hash right.key)) (tame : ops.Tame hash s.visit right.visit) :
    ∃ res, JRes.flipR (right.twtS reduce hash ops.flip s d) = .ok res ∧
      JGood (ops.sem reduce e) hash d True ((Cross.same hash).cases s.visit right.visit) (.S s) (.L right) res := by
  obtain ⟨res, h1, g⟩ := LNode.twtS_spec laws ops.flip reduce e right wr s ag.symm tame.flip
  exact ⟨res.flip, by simp only [JRes.flipR, h1, Res.ok_bind], g.flip laws s.distinct wr.keys⟩

theorem Node.twtL_spec (right : LNode K V) (wr : right.WF hash) {d : Nat} {m : Node c.n K V}
    (wf : m.WF hash c.levels d) (ag : ∀ a ∈ m.visit, Agree c d (hash a.1) (hash right.key))
    (tame : ops.Tame hash m.visit right.visit) (ns : NoStall (Cross.same hash) m.visit right.visit) :
    ∃ res, m.twtL reduce e hash ops par right d = .ok res ∧
      JGood (ops.sem reduce e) hash d (m.visit ≠ []) ((Cross.same hash).cases m.visit right.visit) m (.L right)
        res := by
  refine twtFlat_spec laws reduce e par (.L right) (fun d => .L d right wr) wr.hash _ _
    ((right.transform reduce ops.right).map LNext.toNode)
    (fun s d ag tm => LNode.twtS_flip laws reduce e s right wr ag tm)
    (fun l d wl ag tm ns => LNode.twtL_spec laws ops reduce e l wl right wr ag tm ns) ?_ wf ag tame ns
  intro d
  obtain ⟨res, h1, g⟩ := (ops.aloneR reduce e).node laws.hash .sequential (Node.WF.L d right wr)
  simp only [Node.transform, Res.ok.injEq] at h1
  subst h1
  exact g.mono (fun _ => right.visit_ne_nil)

/-! ### Operands that need not be looked at -/

omit [BEq K] laws in
theorem total_const (mon : Mon reduce e) {l : List R} (h : ∀ r ∈ l, r = e) : total reduce e l = e := by
  unfold total
  induction l with
  | nil => rfl
  | cons r l ih =>
    rw [List.foldl_cons, h r (by simp), mon.left]
    exact ih fun r hr => h r (List.mem_cons_of_mem _ hr)

omit [BEq K] laws in
/-- A function choosing what becomes of each case. -/
theorem Sem.Outs.of_fn (s : Sem (K × V) (K × V) (K × V) R) {cs : List (Case (K × V) (K × V))}
    (f : Case (K × V) (K × V) → Option (K × V)) (h : ∀ p ∈ cs, s.out p (f p)) : s.Outs cs (cs.filterMap f) := by
  refine ⟨cs.map fun p => (p, f p), ?_, ?_, ?_⟩
  · rw [List.map_map]; exact .of_eq (by simp [Function.comp_def])
  · intro q hq
    obtain ⟨p, hp, rfl⟩ := List.mem_map.1 hq
    exact h p hp
  · rw [List.filterMap_map]; exact .of_eq rfl

theorem TwtOps.shortcut_good {d : Nat} {left right : Node c.n K V} (wl : left.WF hash c.levels d)
    (wr : right.WF hash c.levels d) {res : JRes (Node c.n K V) R} (h : ops.shortcut = some res) :
    JGood (ops.sem reduce e) hash d (left.visit ≠ [] ∧ right.visit ≠ [])
      ((Cross.same hash).cases left.visit right.visit) left right res := by
  have dl := Node.WF.distinct laws.hash wl
  have dr := Node.WF.distinct laws.hash wr
  obtain ⟨both, left_op, right_op⟩ := ops
  have lp := jointCases_lpart (fun a b : K × V => (Cross.same hash).eq a.1 b.1) left.visit right.visit
  have rp := jointCases_rpart ((CrossLaws.same laws).joinable dl dr)
  have kl : ∀ {ops : TwtOps K V R}, (∀ p, ops.Out p p.lpart) → ∀ r, (CMon reduce e ∧ ops.Neutral e →
      r = total reduce e (((Cross.same hash).cases left.visit right.visit).map ops.red)) →
      Good (ops.sem reduce e) hash d (left.visit ≠ [] ∧ right.visit ≠ [])
        ((Cross.same hash).cases left.visit right.visit) (some left) r := by
    intro ops ho r hr
    refine ⟨⟨?_, hr⟩, ?_, ?_⟩
    · have := Sem.Outs.of_fn (ops.sem reduce e) (cs := (Cross.same hash).cases left.visit right.visit) Case.lpart
        (fun p _ => ho p)
      rw [Cross.cases, lp] at this
      exact this
    · intro m hm; injection hm with hm; subst hm; exact wl
    · intro hN m hm; injection hm with hm; subst hm; exact hN.1
  have kr : ∀ {ops : TwtOps K V R}, (∀ p, ops.Out p p.rpart) → ∀ r, (CMon reduce e ∧ ops.Neutral e →
      r = total reduce e (((Cross.same hash).cases left.visit right.visit).map ops.red)) →
      Good (ops.sem reduce e) hash d (left.visit ≠ [] ∧ right.visit ≠ [])
        ((Cross.same hash).cases left.visit right.visit) (some right) r := by
    intro ops ho r hr
    refine ⟨⟨?_, hr⟩, ?_, ?_⟩
    · obtain ⟨ps, h1, h2, h3⟩ := Sem.Outs.of_fn (ops.sem reduce e)
        (cs := (Cross.same hash).cases left.visit right.visit) Case.rpart (fun p _ => ho p)
      exact ⟨ps, h1, h2, rp.symm.trans h3⟩
    · intro m hm; injection hm with hm; subst hm; exact wr
    · intro hN m hm; injection hm with hm; subst hm; exact hN.2
  have rd : ∀ {ops : TwtOps K V R} {r : R}, (∀ p, ops.Neutral e → ops.red p = e) → (ops.Neutral e → r = e) →
      CMon reduce e ∧ ops.Neutral e →
      r = total reduce e (((Cross.same hash).cases left.visit right.visit).map ops.red) := by
    intro ops r h1 h2 h
    rw [h2 h.2, total_const reduce e h.1.toMon]
    intro r hr
    obtain ⟨p, _, rfl⟩ := List.mem_map.1 hr
    exact h1 p h.2
  cases both <;> cases left_op <;> cases right_op <;>
    simp only [TwtOps.shortcut, reduceCtorEq, Option.some.injEq] at h <;> subst h <;> intro o ho <;>
    simp only [JRes.gives, List.mem_cons, List.not_mem_nil, or_false] at ho <;> subst ho
  · refine kl ?_ _ (rd ?_ fun h => h.1)
    · intro p; cases p <;> first | exact rfl | exact .inl rfl
    · intro p h; cases p <;> first | exact h.1 | exact h.2.1 | exact h.2.2
  · refine kr ?_ _ (rd ?_ fun h => h.1)
    · intro p; cases p <;> first | exact rfl | exact .inr rfl
    · intro p h; cases p <;> first | exact h.1 | exact h.2.1 | exact h.2.2
  · refine kl ?_ _ (rd ?_ fun h => h.1)
    · intro p; cases p <;> first | exact rfl | exact .inl rfl
    · intro p h; cases p <;> first | exact h.1 | exact h.2.1 | exact h.2.2
  · refine kr ?_ _ (rd ?_ fun h => h.1)
    · intro p; cases p <;> first | exact rfl | exact .inr rfl
    · intro p h; cases p <;> first | exact h.1 | exact h.2.1 | exact h.2.2
  · refine ⟨⟨?_, rd ?_ fun h => h.1⟩, by simp, by simp⟩
    · refine ⟨((Cross.same hash).cases left.visit right.visit).map fun p => (p, none), ?_, ?_, ?_⟩
      · rw [List.map_map]; exact .of_eq (by simp [Function.comp_def])
      · intro q hq
        obtain ⟨p, hp, rfl⟩ := List.mem_map.1 hq
        cases p <;> rfl
      · rw [List.filterMap_map]
        refine .of_eq (Eq.symm ?_)
        rw [vis_none, List.filterMap_eq_nil_iff]; intro _ _; rfl
    · intro p h; cases p <;> first | exact h.1 | exact h.2.1 | exact h.2.2

/-! ### Nodes -/

theorem Node.twt_spec {d : Nat} {m : Node c.n K V} (wf : m.WF hash c.levels d) {r : Node c.n K V}
    (wr : r.WF hash c.levels d)
    (ag : ∀ a ∈ m.visit, ∀ b ∈ r.visit, Agree c d (hash a.1) (hash b.1))
    (tame : ops.Tame hash m.visit r.visit) (ns : NoStall (Cross.same hash) m.visit r.visit)
    (ns' : NoStall (Cross.same hash) r.visit m.visit) :
    ∃ res, m.twt reduce e hash ops par r d = .ok res ∧
      JGood (ops.sem reduce e) hash d (m.visit ≠ [] ∧ r.visit ≠ []) ((Cross.same hash).cases m.visit r.visit) m r
        res := by
  induction wf generalizing r with
  | S d s =>
    cases wr with
    | S _ r =>
      obtain ⟨res, h1, g⟩ := SNode.twt_spec laws ops reduce e s r (ag _ s.mem_visit _ r.mem_visit)
      exact ⟨res, h1, g.mono (fun _ => trivial)⟩
    | L _ r wr =>
      obtain ⟨res, h1, g⟩ := LNode.twtS_flip laws reduce e s r wr (ag _ s.mem_visit _ r.mem_visit) tame
      exact ⟨res, h1, g.mono (fun _ => trivial)⟩
    | C _ b v z hd ok sz ne at_ sub =>
      have wr : (Node.C b v z).WF hash c.levels d := .C d b v z hd ok sz ne at_ sub
      obtain ⟨res, h1, g⟩ := Node.twtS_spec laws (ops := ops.flip) reduce e par s wr
        (fun b hb => (ag _ s.mem_visit b hb).symm) tame.flip
      exact ⟨res.flip, (congrArg JRes.flipR h1).trans rfl,
        (g.flip laws s.distinct (Node.WF.distinct laws.hash wr)).mono (fun h => h.2)⟩
  | L d l wl =>
    cases wr with
    | S _ r =>
      obtain ⟨res, h1, g⟩ := LNode.twtS_spec laws ops reduce e l wl r (ag _ l.mem_visit _ r.mem_visit) tame
      exact ⟨res, h1, g.mono (fun _ => trivial)⟩
    | L _ r wr =>
      obtain ⟨res, h1, g⟩ := LNode.twtL_spec laws ops reduce e l wl r wr (ag _ l.mem_visit _ r.mem_visit) tame ns
      exact ⟨res, h1, g.mono (fun _ => trivial)⟩
    | C _ b v z hd ok sz ne at_ sub =>
      have wr : (Node.C b v z).WF hash c.levels d := .C d b v z hd ok sz ne at_ sub
      obtain ⟨res, h1, g⟩ := Node.twtL_spec laws (ops := ops.flip) reduce e par l wl wr
        (fun b hb => (ag _ l.mem_visit b hb).symm) tame.flip ns'
      exact ⟨res.flip, (congrArg JRes.flipR h1).trans rfl,
        (g.flip laws wl.keys (Node.WF.distinct laws.hash wr)).mono (fun h => h.2)⟩
  | C d bits values extra hd ok sz ne at_ sub ih =>
    have wf : (Node.C bits values extra).WF hash c.levels d := .C d bits values extra hd ok sz ne at_ sub
    rw [Node.twt, Node.fold]
    cases wr with
    | S _ r =>
      simp only [twtC, Node.foldAll_fst]
      obtain ⟨res, h1, g⟩ := Node.twtS_spec laws reduce e par r wf (fun a ha => ag a ha _ r.mem_visit) tame
      exact ⟨res, h1, g.mono (fun h => h.1)⟩
    | L _ r wr =>
      simp only [twtC, Node.foldAll_fst]
      obtain ⟨res, h1, g⟩ := Node.twtL_spec laws reduce e par r wr wf (fun a ha => ag a ha _ r.mem_visit) tame ns
      exact ⟨res, h1, g.mono (fun h => h.1)⟩
    | C _ b v z hd' ok' sz' ne' at_' sub' =>
      have wr : (Node.C b v z).WF hash c.levels d := .C d b v z hd' ok' sz' ne' at_' sub'
      simp only [twtC, twtCC, Node.foldAll_eq]
      cases hsc : (ops.shortcut : Option (JRes (Node c.n K V) R)) with
      | some res => exact ⟨res, rfl, TwtOps.shortcut_good laws reduce e wf wr hsc⟩
      | none =>
        obtain ⟨acc, h1, h2⟩ := both_looped (x := Cross.same hash) (s := ops.sem reduce e) (hashS := hash)
          (.same laws) wf wr par
          (fun m r => m.twt reduce e hash ops par r (d + 1)) (Node.transformL reduce e par ops.left)
          (Node.transformR reduce e par ops.right)
          (fun left? right? res => res.itemOpt left? right?)
          (KeepJ (ops.sem reduce e) (slotVisit ⟨bits, values, extra⟩) (slotVisit ⟨b, v, z⟩))
          (by
            intro i m r hm hr
            obtain ⟨res, q1, g⟩ := ih i m hm (sub' i r hr)
              (fun a ha b hb => (ag a ((slotVisit_sublist hm).subset ha) b ((slotVisit_sublist hr).subset hb)).succ
                ((at_ i m hm a ha).trans (at_' i r hr b hb).symm))
              (tame.slots wf wr hm hr) (ns.mono (slotVisit_sublist hm) (slotVisit_sublist hr))
              (ns'.mono (slotVisit_sublist hr) (slotVisit_sublist hm))
            obtain ⟨it, i1, i2, i3⟩ := g.itemOpt_good ⟨ne _ _ hm, ne' _ _ hr⟩ (some m) (some r) (fun _ _ => rfl)
              (fun _ _ => rfl) (slL := slotVisit ⟨bits, values, extra⟩) (slR := slotVisit ⟨b, v, z⟩)
              (i := i) (fun _ => slotVisit_some hm) (fun _ _ => slotVisit_some hr)
            exact ⟨res, it, q1, i1, i2, i3⟩)
          (by
            intro i m hm _
            obtain ⟨res, q1, g⟩ := (ops.aloneL reduce e).node laws.hash par (sub _ _ hm)
            obtain ⟨it, i1, i2, i3⟩ := TRes.jointL_good g (ne _ _ hm) none
              (slL := slotVisit ⟨bits, values, extra⟩) (slR := slotVisit ⟨b, v, z⟩) (slotVisit_some hm)
            exact ⟨res.jointL, it, by simp only [Node.transformL, q1, Res.ok_bind], i1, i2, i3⟩)
          (by
            intro i r _ hr
            obtain ⟨res, q1, g⟩ := (ops.aloneR reduce e).node laws.hash par (sub' _ _ hr)
            obtain ⟨it, i1, i2, i3⟩ := TRes.jointR_good g (ne' _ _ hr)
              (slL := slotVisit ⟨bits, values, extra⟩) (slR := slotVisit ⟨b, v, z⟩) (slotVisit_some hr)
            exact ⟨res.jointR, it, by simp only [Node.transformR, q1, Res.ok_bind], i1, i2, i3⟩)
          (fun i hm hr => .skip (slotVisit_none hm) (slotVisit_none hr))
        obtain ⟨res, e1, g⟩ := h2.finishJ (TwtOps.keyed laws ops reduce e) hd wf wr
          (by rw [Node.visit]; exact (visit_slots ⟨bits, values, extra⟩ ok).symm)
          (by rw [Node.visit]; exact (visit_slots ⟨b, v, z⟩ ok').symm)
        exact ⟨res, (congrArg (fun a => a >>= JRes.finish) h1).trans e1, g⟩

end
end HT
