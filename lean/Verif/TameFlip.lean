import Verif.TameNeeded
/-! # The condition on colliding keys of transform_with_transformed is needed: lists at different depths -/
namespace HT

variable {K V R : Type} [BEq K] {c : Cfg} {hash : K → BitVec c.w}

/-- The loop over a branch node with a single slot in use, against a list with the hash of that slot. -/
theorem flatLoop_bucket {reduce : R → R → R} {e : R} {h : BitVec c.w}
    {bits : BitVec c.n} {values : List (Node c.n K V)} {extra : Nat} (ok : (Bia.mk bits values extra).Ok)
    {m : Node c.n K V} {right : Node c.n K V}
    (hslot : ∀ j, (Bia.mk bits values extra).slot j = if j = chunk c h 0 then some m else none)
    (f : Node c.n K V → Res (JRes (Node c.n K V) R))
    (elsewhere : Node c.n K V → Res (JRes (Node c.n K V) R)) (alone : JRes (Node c.n K V) R)
    {res : JRes (Node c.n K V) R} (hres : f m = .ok res) {it0 : Item c.n K V R}
    (hit : res.itemOpt (some m) (some right) = .ok it0) :
    ∃ acc : Acc c.n K V R, flatLoop reduce e h 0 ⟨bits, values.map fun m => (m, f m), extra⟩ elsewhere alone
        (fun left? res => res.itemOpt left? (some right)) = .ok acc ∧
      acc.values = it0.node?.toList ∧ acc.ul = it0.kl ∧ acc.ur = it0.kr := by
  have hi := chunk_lt (c := c) h 0
  obtain ⟨it, acc, ha1, G, hP⟩ := flatLoop_spec reduce e h (d := 0) (by rw [Nat.zero_mul]; exact c.wpos) bits values extra ok
    f elsewhere alone (fun left? res => res.itemOpt left? (some right))
    (fun i it => it = if i = chunk c h 0 then it0 else .skip)
    (by
      intro m' hm
      rw [hslot, if_pos rfl] at hm
      injection hm with hm; subst hm
      exact ⟨res, it0, hres, hit, by rw [if_pos rfl]⟩)
    (by
      intro i m' hj hm
      rw [hslot, if_neg hj] at hm; simp at hm)
    (by
      intro hm
      rw [hslot, if_pos rfl] at hm; simp at hm)
    (by
      intro i hj _
      rw [if_neg hj])
  refine ⟨acc, ha1, ?_, ?_, ?_⟩
  · rw [G.values]
    have : ∀ i ∈ List.range c.n, (it i).node? = if i = chunk c h 0 then it0.node? else none := by
      intro i hi
      rw [hP i (List.mem_range.1 hi)]
      split <;> rfl
    rw [List.filterMap_congr this]
    exact filterMap_only hi _
  · rw [G.ul]
    exact all_only hi (fun i hi => by rw [hP i hi]; split <;> rfl)
  · rw [G.ur]
    exact all_only hi (fun i hi => by rw [hP i hi]; split <;> rfl)

/-- A map whose root is a list, against a map with one list: if the call returns, so does the call on the two lists,
    the second one first, and the result lists what that call says. -/
theorem Trie.twt_flat {reduce : R → R → R} {e : R} {par : Par} {ops : TwtOps K V R}
    {h : BitVec c.w} {t u : Trie c K V} {l l' : LNode K V} (hl : hash l.key = h)
    (s : t.root = .L l) (s' : OneSlot h u (some (.L l'))) {t' : Trie c K V} {r : R}
    (hr : Trie.twt reduce e hash ops par t u = .ok (t', r)) :
    ∃ res : JRes (Node c.n K V) R, l'.twtL reduce hash ops.flip l 1 = .ok res ∧
      (∀ (m : LNext K V) r, res = .node m.toNode r → t'.visit = m.visit) ∧
      (∀ r, res = .unchangedR r → t'.visit = l.visit) := by
  obtain ⟨bits, values, extra, hroot, ok, hslot⟩ := s'
  rw [Trie.twt, s, hroot] at hr
  obtain ⟨res0, hn, hr⟩ := Res.bind_eq_ok.1 hr
  rw [Node.twt, Node.fold, LNode.twtN, JRes.flipR] at hn
  obtain ⟨res1, hn, hflip⟩ := Res.bind_eq_ok.1 hn
  injection hflip with hflip
  rw [Node.twtL, Node.fold, Node.foldAll_eq, twtLC, hl] at hn
  obtain ⟨acc, hacc, hfin⟩ := Res.bind_eq_ok.1 hn
  have hacc0 := hacc
  unfold flatLoop at hacc0
  have hd : 0 * c.b < c.w := by rw [Nat.zero_mul]; exact c.wpos
  simp only [flagOf, Flag.newAtDepth_eq h hd, Res.ok_bind, Res.unwrap_some] at hacc0
  have items := Acc.gather_items hacc0
  have okm : (Bia.mk bits (values.map fun m => (m, Node.fold (fun s d => JRes.flipR (l.twtS reduce hash ops.flip.flip s d))
      (fun l' d => l'.twtL reduce hash ops.flip l d) (twtLC reduce e hash ops.flip par l) m (0 + 1))) extra).Ok := by
    simpa [Bia.Ok] using ok
  have hi := chunk_lt (c := c) h 0
  obtain ⟨it0, hit0⟩ := items (chunk c h 0) hi
  simp only [Bia.atBitIndex_eq _ okm, Res.ok_bind, Bia.slot_map, hslot, if_true,
    Option.map_some, flatItem, nthBit_ok hi, Res.unwrapE_ok, flagAt, Res.bind_eq_ok] at hit0
  obtain ⟨res, hres, hit⟩ := hit0
  refine ⟨res, hres, ?_⟩
  obtain ⟨acc', ha1, hvals, hul, hur⟩ := flatLoop_bucket (reduce := reduce) (e := e) (h := h) ok (right := .L l)
    hslot (fun m => Node.fold (fun s d => JRes.flipR (l.twtS reduce hash ops.flip.flip s d))
      (fun l' d => l'.twtL reduce hash ops.flip l d) (twtLC reduce e hash ops.flip par l) m (0 + 1))
    (Node.transformL reduce e par ops.flip.left) ((l.transform reduce ops.flip.right).map LNext.toNode).jointR
    (m := .L l') hres hit
  have hacc' : acc = acc' := by
    have := hacc.symm.trans ha1
    injection this
  subst hacc'
  refine ⟨?_, ?_⟩
  · rintro m r' rfl
    injection hit with hit
    subst hit
    cases m with
    | L n =>
      simp only [JRes.finish, hul, hur, Item.kl, Item.kr, Bool.false_eq_true, if_false, Acc.pack, hvals, Item.node?,
        Option.toList, Res.ok_bind, Res.ok.injEq, JRes.ofOption, LNext.toNode] at hfin
      subst hfin; subst hflip
      simp only [JRes.flip, Res.ok.injEq, Prod.mk.injEq] at hr
      rw [← hr.1]; rfl
    | S n =>
      simp only [JRes.finish, hul, hur, Item.kl, Item.kr, Bool.false_eq_true, if_false, Acc.pack, hvals, Item.node?,
        Option.toList, Res.ok_bind, Res.ok.injEq, JRes.ofOption, LNext.toNode] at hfin
      subst hfin; subst hflip
      simp only [JRes.flip, Res.ok.injEq, Prod.mk.injEq] at hr
      rw [← hr.1]; rfl
  · rintro r' rfl
    injection hit with hit
    subst hit
    simp only [JRes.finish, hul, hur, Item.kl, Item.kr, Bool.false_eq_true, if_false, if_true, Res.ok.injEq] at hfin
    subst hfin; subst hflip
    simp only [JRes.flip, Res.ok.injEq, Prod.mk.injEq] at hr
    rw [← hr.1, Trie.visit, s]; rfl

omit [BEq K] in
/-- A list whose entries are all replaced by themselves is rebuilt. -/
theorem LNode.transform_rebuild (l : LNode K V) :
    ∃ n : LNode K V, l.transform (fun _ _ : Unit => ()) (.generic fun _ v => .transformed v ()) = .node (.L n) () ∧
      n.visit = l.visit := by
  induction l with
  | nextS k v s z => exact ⟨_, rfl, by rw [LNode.new_visit]; rfl⟩
  | nextL k v l z ih =>
    obtain ⟨n, h1, h2⟩ := ih
    refine ⟨LNode.new k v (.L n), ?_, ?_⟩
    · rw [LNode.transform, h1]; rfl
    · rw [LNode.new_visit]
      show (k, v) :: n.visit = (k, v) :: l.visit
      rw [h2]

/-- Any two or more entries with one hash, in any order, are the list at the root of some map. -/
theorem exists_list (laws : KeyLaws hash) (hc : c.checked = false) (h : BitVec c.w) (l : List (K × V))
    (hk : DistinctKeys l) (hh : ∀ a ∈ l, hash a.1 = h) (h2 : 2 ≤ l.length) :
    ∃ (t : Trie c K V) (n : LNode K V), Reach c hash t ∧ t.root = .L n ∧ n.visit = l := by
  obtain ⟨t, o, hr, hs, hv⟩ := exists_bucket laws hc h l hk hh
  obtain ⟨n, rfl, hn⟩ := lvis_list hv h2
  obtain ⟨n', hn', hv'⟩ := n.transform_rebuild
  obtain ⟨bits, values, extra, hroot, ok, hslot⟩ := hs
  have hi := chunk_lt (c := c) h 0
  have okA : (Bia.mk bits (Node.transformAll (fun _ _ : Unit => ()) () (.generic fun _ v => .transformed v ())
      .sequential values) extra).Ok := by
    rw [Node.transformAll_eq']; simpa [Bia.Ok] using ok
  obtain ⟨acc, hacc, G⟩ := Acc.gather_spec (fun _ _ : Unit => ()) () .sequential (fun index => do
    let child ← (Bia.mk bits (Node.transformAll (fun _ _ : Unit => ()) () (.generic fun _ v => .transformed v ())
      .sequential values) extra).atBitIndex index
    TRes.childItem child) (fun i => if i = chunk c h 0 then .put (.L n') () false false else .skip) (by
    intro i hi
    simp only [Bia.atBitIndex_eq _ okA, Res.ok_bind]
    rw [Node.transformAll_eq', Bia.slot_map, hslot]
    by_cases hj : i = chunk c h 0
    · rw [if_pos hj, if_pos hj]
      simp only [Option.map_some, TRes.childItem, LNext.toNode, Node.transform, hn', Res.ok_bind]
      rfl
    · rw [if_neg hj, if_neg hj]; rfl)
  have hvals : acc.values = [.L n'] := by
    rw [G.values]
    refine Eq.trans (List.filterMap_congr fun i _ => ?_) (filterMap_only hi (some (Node.L n')))
    split <;> rfl
  have hul : acc.ul = false := by
    rw [G.ul]
    exact all_only hi (fun i hi => by split <;> rfl)
  have h1 : t.transform (fun _ _ : Unit => ()) () (.generic fun _ v => .transformed v ()) .sequential =
      .ok (⟨.L n'⟩, acc.red) := by
    rw [Trie.transform, hroot, Node.transform]
    simp only [hacc, Res.ok_bind, hul, Bool.false_eq_true, if_false, Acc.pack, hvals, TRes.ofOption]
  exact ⟨_, n', Reach.transform hr h1, rfl, hv'.trans hn⟩

/-- A pair of different entries with equal keys is answered `UnchangedL`. -/
theorem tameBoth_needed_flip (laws : KeyLaws hash) (hc : c.checked = false)
    {f : K → V → K → V → MapJointTransformResult V R}
    {left right : MapTransform R (K → V → MapTransformResult V R)}
    (reduce : R → R → R) (e : R) (par : Par) {as bs : List (K × V)} (hka : DistinctKeys as) (hkb : DistinctKeys bs)
    {h : BitVec c.w} (hha : ∀ a ∈ as, hash a.1 = h) (hhb : ∀ b ∈ bs, hash b.1 = h)
    (la : 2 ≤ as.length) (lb : 2 ≤ bs.length) {a b : K × V} (ha : a ∈ as) (hb : b ∈ bs) (hab : (a.1 == b.1) = true)
    (hne : a ≠ b) {r : R} (hr : f a.1 a.2 b.1 b.2 = .unchangedL r) :
    ∃ t u : Trie c K V, Reach c hash t ∧ Reach c hash u ∧ t.visit = as ∧ u.visit.Perm bs ∧ ∀ t' r,
      Trie.twt reduce e hash ⟨.generic f false, left, right⟩ par t u = .ok (t', r) →
      ¬ TwtOps.Right ⟨.generic f false, left, right⟩ t.visit u.visit t'.visit := by
  obtain ⟨bs', hperm⟩ := perm_front hb
  have hkb' : DistinctKeys (b :: bs') := (haveI := laws.equiv; hkb.perm hperm)
  obtain ⟨u, o, ru, su, vu⟩ := exists_bucket laws hc h (b :: bs') hkb' (fun x hx => hhb x (hperm.mem_iff.2 hx))
  obtain ⟨t, l, rt, hroot, vt⟩ := exists_list laws hc h as hka hha la
  have vt' : t.visit = as := by rw [Trie.visit, hroot]; exact vt
  have vu' := su.visit.trans vu
  refine ⟨t, u, rt, ru, vt', by rw [vu']; exact hperm.symm, ?_⟩
  obtain ⟨l', rfl, hl'⟩ := lvis_list vu (by rw [← hperm.length_eq]; exact lb)
  intro t' r' htwt hright
  rw [vt', vu'] at hright
  have hkey : (l.key, l.value) ∈ l.visit := by
    cases l <;> simp [LNode.visit, LNode.key, LNode.value]
  rw [vt] at hkey
  obtain ⟨res, h1, h2, h3⟩ := Trie.twt_flat (hash := hash) (h := h) (hha _ hkey) hroot su htwt
  have hright' := hright.flip laws hka hkb'
  rcases tameBoth_core laws (ops := TwtOps.flip ⟨.generic f false, left, right⟩) reduce e (fun _ _ _ h => by
      simpa only [TwtOps.flip, MapJointTransform.flip, MapJointTransform.Entry, MapJointTransform.closure_eq] using h)
      hkb' hka (fun x hx => hhb x (hperm.mem_iff.2 hx)) hha la ha (laws.symm _ _ hab) (Ne.symm hne) (r := r)
      (by simp only [TwtOps.flip, MapJointTransform.flip, MapJointTransform.call, Bool.not_false, if_true, hr,
            MapJointTransformResult.flip]) hl' vt h1 with
    ⟨m, r1, e1, bad⟩ | ⟨r1, e1, bad⟩
  · rw [h2 m r1 e1] at hright'; exact bad hright'
  · rw [h3 r1 e1, vt] at hright'; exact bad hright'

end HT
