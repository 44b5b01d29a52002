import Verif.TwtTotal
import Verif.Crowd
import Verif.ReachSize
/-! # The condition on colliding keys of transform_with_transformed is needed -/
namespace HT

variable {K V R : Type} [BEq K] {c : Cfg} {hash : K → BitVec c.w}

/-- The map consists of the list or single node `o` below the root, or is empty. -/
def OneSlot (h : BitVec c.w) (t : Trie c K V) (o : Option (LNext K V)) : Prop :=
  ∃ bits values extra, t.root = .C bits values extra ∧ (Bia.mk bits values extra).Ok ∧
    ∀ j, (Bia.mk bits values extra).slot j = if j = chunk c h 0 then o.map LNext.toNode else none

theorem Reach.ok {t : Trie c K V} (h : Reach c hash t) {a : Bia c.n (Node c.n K V)}
    (e : t.root = Node.ofBia a) : a.Ok := by
  have h := h.valid
  unfold Trie.Valid Trie.ValidAt at h
  rw [e] at h
  cases h with
  | C _ _ _ _ _ ok => exact ok

omit [BEq K] in
theorem OneSlot.visit {h : BitVec c.w} {t : Trie c K V} {o : Option (LNext K V)} (s : OneSlot h t o) :
    t.visit = lvis o := by
  obtain ⟨bits, values, extra, hroot, ok, hslot⟩ := s
  rw [Trie.visit, hroot, Node.visit, visit_slots ⟨bits, values, extra⟩ ok]
  have : ∀ i ∈ List.range c.n, slotVisit ⟨bits, values, extra⟩ i = flatSlot c h 0 (lvis o) i := by
    intro i _
    unfold slotVisit flatSlot
    rw [hslot i]
    by_cases hi : i = chunk c h 0
    · rw [if_pos hi, if_pos hi]
      cases o with
      | none => rfl
      | some n => cases n <;> rfl
    · rw [if_neg hi, if_neg hi]
  exact (flatMap_congr' _ _ _ this).trans (flatSlot_flatMap ..)

/-- `insert` of a fresh key with the hash of the list puts it in front. -/
theorem LNext.insert_front {n : LNext K V} {k : K} {v : V} {q : K → Bool} {nx : Option (Flag c)} {d : Nat}
    (hnx : FlagFor (hash k) d nx) (hn : ∀ a ∈ n.visit, hash a.1 = hash k)
    (hf : n.visit.find? (fun e => q e.1) = none) :
    n.toNode.insert c hash q k v false nx = .ok (.inserted (.L (LNode.new k v n)) (k, v) none) := by
  obtain ⟨f, rfl, hf1, _, _⟩ := hnx
  cases n with
  | S s =>
    have hq : q s.key = false := by
      have := List.find?_eq_none.1 hf (s.key, s.value) (by simp [LNext.visit, SNode.visit])
      simpa using this
    have hs : hash s.key = hash k := hn (s.key, s.value) (by simp [LNext.visit, SNode.visit])
    simp only [LNext.toNode, Node.insert, SNode.insert, hq, Bool.false_eq_true, if_false, Res.unwrap_some, Res.ok_bind,
      liftL, LNext.key, hs, hf1, if_true]
  | L l =>
    have hs : hash l.key = hash k := hn (l.key, l.value) (by cases l <;> simp [LNext.visit, LNode.visit, LNode.key, LNode.value])
    have hf : l.visit.find? (fun e => q e.1) = none := hf
    simp only [LNext.toNode, Node.insert, LNode.insert, LNode.find_eq, hf, Res.unwrap_some, Res.ok_bind,
      liftL, LNext.key, hs, hf1, if_true]

/-- Any entries with one hash, in any order, are the list of some map. -/
theorem exists_bucket (laws : KeyLaws hash) (hc : c.checked = false) (h : BitVec c.w) (l : List (K × V))
    (hk : DistinctKeys l) (hh : ∀ a ∈ l, hash a.1 = h) :
    ∃ (t : Trie c K V) (o : Option (LNext K V)), Reach c hash t ∧ OneSlot h t o ∧ lvis o = l := by
  induction l with
  | nil =>
    refine ⟨Trie.new c, none, .new laws, ⟨_, _, _, rfl, ?_, ?_⟩, rfl⟩
    · exact (Reach.new laws).ok (V := V) rfl
    · intro j; simp [Bia.slot, Bia.default]
  | cons a l ih =>
    have ha : hash a.1 = h := hh a (List.mem_cons_self ..)
    obtain ⟨t, o, hr, hs, hv⟩ := ih (List.pairwise_cons.1 hk).2 (fun b hb => hh b (List.mem_cons_of_mem _ hb))
    have hvis := hs.visit
    have hfresh : t.visit.find? (fun e => e.1 == a.1) = none := by
      rw [hvis, hv, List.find?_eq_none]
      intro b hb
      have hab := (List.pairwise_cons.1 hk).1 b hb
      haveI := laws.equiv
      rw [BEq.comm (a := b.1)]; simp [hab]
    rcases hr.insertQ a.2 false (hr.query a.1) (laws.refl a.1) with ⟨r, h1, good⟩ | ⟨h1, _⟩
    · cases good with
      | err e h2 h3 => rw [hfresh] at h3; simp at h3
      | ok t' prev h2 h3 h4 h5 =>
        have hr' := Reach.insert hr (hr.query a.1) (laws.refl a.1) h1
        obtain ⟨bits, values, extra, hroot, ok, hslot⟩ := hs
        rw [Trie.insertQ, Flag.new_eq, hroot] at h1
        simp only [Res.ok_bind] at h1
        obtain ⟨r, h6, h7⟩ := Res.bind_eq_ok.1 h1
        cases r with
        | found k0 v0 => simp at h7
        | inserted m ptr prev' =>
          simp only [Res.ok.injEq, Except.ok.injEq, Prod.mk.injEq] at h7
          obtain ⟨rfl, rfl, rfl⟩ := h7
          obtain ⟨a', m1', rfl, _, hs', hcase⟩ := Node.insert_C_inv ok h6
          have hm1 : ∃ n, m1' = LNext.toNode n ∧ n.visit = a :: l := by
            rw [ha] at hcase
            rcases hcase with ⟨q1, q2⟩ | ⟨m1, nx, q1, q2, q3⟩
            · refine ⟨.S ⟨a.1, a.2⟩, q2, ?_⟩
              rw [hslot, if_pos rfl] at q1
              cases o with
              | none => rw [← hv]; rfl
              | some n => simp at q1
            · rw [hslot, if_pos rfl] at q1
              cases o with
              | none => simp at q1
              | some n =>
                simp only [Option.map_some, Option.some.injEq] at q1
                subst q1
                have hnv : n.visit = l := hv
                rcases next_cases (c := c) h (d := 0) (by rw [Nat.zero_mul]; exact c.wpos) with ⟨nx', e1, e2⟩ | ⟨e1, _⟩
                · rw [q2] at e1; injection e1 with e1; subst e1
                  rw [← ha] at e2
                  rw [LNext.insert_front (hash := hash) (n := n) e2 (by rw [hnv, ha]; exact fun b hb => hh b (List.mem_cons_of_mem _ hb))
                    (by rw [hvis] at hfresh; exact hfresh)] at q3
                  injection q3 with q3; injection q3 with q3
                  refine ⟨.L (LNode.new a.1 a.2 n), q3.symm, ?_⟩
                  show (LNode.new a.1 a.2 n).visit = _
                  rw [LNode.new_visit]
                  show a :: n.visit = _
                  rw [hnv]
                · rw [hc] at e1; simp at e1
          obtain ⟨n, rfl, hn⟩ := hm1
          refine ⟨_, some n, hr', ⟨a'.bits, a'.values, a'.extra, rfl, hr'.ok rfl, ?_⟩, hn⟩
          intro j
          have := hs' j
          rw [ha] at this
          refine this.trans ?_
          by_cases hj : j = chunk c h 0
          · rw [if_pos hj, if_pos hj]; rfl
          · rw [if_neg hj, if_neg hj, hslot, if_neg hj]
    · rw [hc] at h1; simp at h1

/-! ### The joint operation on two such maps -/

omit [BEq K] in
theorem OneSlot.some_ne {h : BitVec c.w} {t : Trie c K V} {n : LNext K V} (s : OneSlot h t (some n)) :
    t.visit = n.visit := s.visit

omit [BEq K] in
theorem filterMap_only {α : Type} {n i : Nat} (hi : i < n) (o : Option α) :
    (List.range n).filterMap (fun j => if j = i then o else none) = o.toList := by
  have hr : List.range n = List.range' 0 i ++ i :: List.range' (i + 1) (n - (i + 1)) := by
    rw [List.range_eq_range']
    have h1 := List.range'_append_1 (s := 0) (m := i) (n := n - i)
    have h2 : List.range' i (n - i) = i :: List.range' (i + 1) (n - (i + 1)) := by
      have : n - i = (n - (i + 1)) + 1 := by omega
      rw [this, List.range'_succ]
    rw [Nat.zero_add, h2] at h1
    rw [h1]; congr 1; omega
  have e1 : (List.range' 0 i).filterMap (fun j => if j = i then o else none) = [] := by
    rw [List.filterMap_eq_nil_iff]
    intro j hj; rw [List.mem_range'_1] at hj; rw [if_neg (by omega)]
  have e2 : (List.range' (i + 1) (n - (i + 1))).filterMap (fun j => if j = i then o else none) = [] := by
    rw [List.filterMap_eq_nil_iff]
    intro j hj; rw [List.mem_range'_1] at hj; rw [if_neg (by omega)]
  rw [hr, List.filterMap_append, List.filterMap_cons, e1, e2, if_pos rfl]
  cases o <;> rfl

omit [BEq K] in
theorem all_only {n i : Nat} (hi : i < n) {f : Nat → Bool} {b : Bool}
    (h : ∀ j, j < n → f j = if j = i then b else true) : (List.range n).all f = b := by
  cases b with
  | true =>
    rw [List.all_eq_true]
    intro j hj
    rw [h j (List.mem_range.1 hj)]; simp
  | false =>
    rw [List.all_eq_false]
    exact ⟨i, List.mem_range.2 hi, by rw [h i hi]; simp⟩

/-- The loop over two branch nodes with a single slot in use. -/
theorem bothLoop_bucket {reduce : R → R → R} {e : R} {par : Par} {h : BitVec c.w}
    {bits : BitVec c.n} {values : List (Node c.n K V)} {extra : Nat} (ok : (Bia.mk bits values extra).Ok)
    {right : Bia c.n (Node c.n K V)} (ok' : right.Ok) {m m' : Node c.n K V}
    (hslot : ∀ j, (Bia.mk bits values extra).slot j = if j = chunk c h 0 then some m else none)
    (hslot' : ∀ j, right.slot j = if j = chunk c h 0 then some m' else none)
    (f : Node c.n K V → Node c.n K V → Res (JRes (Node c.n K V) R))
    (onlyL onlyR : Node c.n K V → Res (JRes (Node c.n K V) R))
    {res : JRes (Node c.n K V) R} (hres : f m m' = .ok res) {it0 : Item c.n K V R}
    (hit : res.itemOpt (some m) (some m') = .ok it0) :
    ∃ acc : Acc c.n K V R, bothLoop reduce e par ⟨bits, values.map fun m => (m, f m), extra⟩ right onlyL onlyR
        (fun left? right? res => res.itemOpt left? right?) = .ok acc ∧
      acc.values = it0.node?.toList ∧ acc.ul = it0.kl ∧ acc.ur = it0.kr := by
  have hi := chunk_lt (c := c) h 0
  obtain ⟨it, acc, ha1, G, hP⟩ := bothLoop_spec reduce e par bits values extra ok f right ok' onlyL onlyR
    (fun left? right? res => res.itemOpt left? right?)
    (fun i it => it = if i = chunk c h 0 then it0 else .skip)
    (by
      intro i m r hm hm'
      rw [hslot] at hm; rw [hslot'] at hm'
      by_cases hj : i = chunk c h 0
      · rw [if_pos hj] at hm hm' ⊢
        injection hm with hm; injection hm' with hm'
        subst hm; subst hm'
        exact ⟨res, it0, hres, hit, rfl⟩
      · rw [if_neg hj] at hm; simp at hm)
    (by
      intro i m hm hm'
      rw [hslot] at hm; rw [hslot'] at hm'
      by_cases hj : i = chunk c h 0
      · rw [if_pos hj] at hm'; simp at hm'
      · rw [if_neg hj] at hm; simp at hm)
    (by
      intro i m hm hm'
      rw [hslot] at hm; rw [hslot'] at hm'
      by_cases hj : i = chunk c h 0
      · rw [if_pos hj] at hm; simp at hm
      · rw [if_neg hj] at hm'; simp at hm')
    (by
      intro i hm hm'
      rw [hslot] at hm
      by_cases hj : i = chunk c h 0
      · rw [if_pos hj] at hm; simp at hm
      · rw [if_neg hj])
  refine ⟨acc, ha1, ?_, ?_, ?_⟩
  · rw [G.values]
    have : ∀ i ∈ List.range c.n, (it i).node? = if i = chunk c h 0 then it0.node? else none := by
      intro i hi
      rw [hP i (List.mem_range.1 hi)]
      split <;> rfl
    rw [List.filterMap_congr this]
    exact filterMap_only hi _
  · rw [G.ul]
    exact all_only hi (fun i hi => by rw [hP i hi]; split <;> rfl)
  · rw [G.ur]
    exact all_only hi (fun i hi => by rw [hP i hi]; split <;> rfl)

/-- If the call on the two lists returns a list, so does the call. -/
theorem Trie.twt_bucket_ok {reduce : R → R → R} {e : R} {par : Par} {ops : TwtOps K V R}
    (hns : ops.shortcut (c := c) = none) {h : BitVec c.w} {t u : Trie c K V} {n n' : LNext K V}
    (s : OneSlot h t (some n)) (s' : OneSlot h u (some n')) {l : LNode K V} {r0 : R}
    (hres : n.toNode.twt reduce e hash ops par n'.toNode 1 = .ok (.node (.L l) r0)) :
    ∃ (t' : Trie c K V) (r : R), Trie.twt reduce e hash ops par t u = .ok (t', r) ∧ t'.visit = l.visit := by
  obtain ⟨bits, values, extra, hroot, ok, hslot⟩ := s
  obtain ⟨rbits, rvalues, rextra, hroot', ok', hslot'⟩ := s'
  obtain ⟨acc, hacc, hvals, hul, hur⟩ := bothLoop_bucket (reduce := reduce) (e := e) (par := par) (h := h) ok ok'
    hslot hslot' (fun m => Node.fold (fun s d right => s.twtN reduce e hash ops par right d)
      (fun l d right => l.twtN reduce e hash ops par right d) (twtC reduce e hash ops par) m (0 + 1))
    (Node.transformL reduce e par ops.left) (Node.transformR reduce e par ops.right)
    (m := n.toNode) (m' := n'.toNode) hres (it0 := .put (.L l) r0 false false) rfl
  refine ⟨⟨.L l⟩, acc.red, ?_, rfl⟩
  have hfin : JRes.finish acc = .ok (.node (.L l) acc.red) := by
    simp only [JRes.finish, hul, hur, Item.kl, Item.kr, Bool.false_eq_true, if_false, Acc.pack, hvals, Item.node?,
      Option.toList, Res.ok_bind, JRes.ofOption]
  have hn : t.root.twt reduce e hash ops par u.root 0 = .ok (.node (.L l) acc.red) := by
    rw [hroot, hroot', Node.twt, Node.fold, Node.foldAll_eq]
    simp only [twtC, twtCC, hns]
    exact Res.bind_eq_ok.2 ⟨acc, hacc, hfin⟩
  rw [Trie.twt, hn]
  rfl

/-- If the call returns, so does the call on the two lists, and the result lists what that call says. -/
theorem Trie.twt_bucket {reduce : R → R → R} {e : R} {par : Par} {ops : TwtOps K V R}
    (hns : ops.shortcut (c := c) = none) {h : BitVec c.w} {t u : Trie c K V} {n n' : LNext K V}
    (s : OneSlot h t (some n)) (s' : OneSlot h u (some n')) {t' : Trie c K V} {r : R}
    (hr : Trie.twt reduce e hash ops par t u = .ok (t', r)) :
    ∃ res : JRes (Node c.n K V) R, n.toNode.twt reduce e hash ops par n'.toNode 1 = .ok res ∧
      (∀ l r, res = .node (.L l) r → t'.visit = l.visit) ∧
      (∀ s r, res = .node (.S s) r → t'.visit = s.visit) ∧
      (∀ r, res = .unchangedL r → t'.visit = n.visit) ∧
      (∀ r, res = .unchangedR r → t'.visit = n'.visit) := by
  have v1 := s.visit
  have v2 := s'.visit
  obtain ⟨bits, values, extra, hroot, ok, hslot⟩ := s
  obtain ⟨rbits, rvalues, rextra, hroot', ok', hslot'⟩ := s'
  rw [Trie.twt, hroot, hroot'] at hr
  obtain ⟨res0, hn, hr⟩ := Res.bind_eq_ok.1 hr
  rw [Node.twt, Node.fold, Node.foldAll_eq] at hn
  simp only [twtC, twtCC, hns] at hn
  obtain ⟨acc, hacc, hfin⟩ := Res.bind_eq_ok.1 hn
  have items := Acc.gather_items hacc
  have okm : (Bia.mk bits (values.map fun m => (m, Node.fold (fun s d right => s.twtN reduce e hash ops par right d)
      (fun l d right => l.twtN reduce e hash ops par right d) (twtC reduce e hash ops par) m (0 + 1))) extra).Ok := by
    simpa [Bia.Ok] using ok
  have hi := chunk_lt (c := c) h 0
  obtain ⟨it0, hit0⟩ := items (chunk c h 0) hi
  simp only [Bia.atBitIndex_eq _ okm, Bia.atBitIndex_eq _ ok', Res.ok_bind, Bia.slot_map, hslot, hslot', if_true,
    Option.map_some, bothItem, Res.bind_eq_ok] at hit0
  obtain ⟨res, hres, hit⟩ := hit0
  refine ⟨res, hres, ?_⟩
  obtain ⟨acc', ha1, hvals, hul, hur⟩ := bothLoop_bucket (reduce := reduce) (e := e) (par := par) (h := h) ok ok'
    hslot hslot' (fun m => Node.fold (fun s d right => s.twtN reduce e hash ops par right d)
      (fun l d right => l.twtN reduce e hash ops par right d) (twtC reduce e hash ops par) m (0 + 1))
    (Node.transformL reduce e par ops.left) (Node.transformR reduce e par ops.right)
    (m := n.toNode) (m' := n'.toNode) hres hit
  have hacc' : acc = acc' := by
    have := hacc.symm.trans ha1
    injection this
  subst hacc'
  refine ⟨?_, ?_, ?_, ?_⟩
  · rintro l r rfl
    injection hit with hit
    subst hit
    simp only [JRes.finish, hul, hur, Item.kl, Item.kr, Bool.false_eq_true, if_false, Acc.pack, hvals, Item.node?,
      Option.toList, Res.ok_bind, Res.ok.injEq, JRes.ofOption] at hfin
    subst hfin
    simp only [Res.ok.injEq, Prod.mk.injEq] at hr
    rw [← hr.1]; rfl
  · rintro l r rfl
    injection hit with hit
    subst hit
    simp only [JRes.finish, hul, hur, Item.kl, Item.kr, Bool.false_eq_true, if_false, Acc.pack, hvals, Item.node?,
      Option.toList, Res.ok_bind, Res.ok.injEq, JRes.ofOption] at hfin
    subst hfin
    simp only [Res.ok.injEq, Prod.mk.injEq] at hr
    rw [← hr.1]; rfl
  · rintro r rfl
    injection hit with hit
    subst hit
    simp only [JRes.finish, hul, hur, Item.kl, Item.kr, Bool.false_eq_true, if_false, if_true, Res.ok.injEq] at hfin
    subst hfin
    simp only [Res.ok.injEq, Prod.mk.injEq] at hr
    rw [← hr.1]; exact v1
  · rintro r rfl
    injection hit with hit
    subst hit
    simp only [JRes.finish, hul, hur, Item.kl, Item.kr, Bool.false_eq_true, if_false, if_true, Res.ok.injEq] at hfin
    subst hfin
    simp only [Res.ok.injEq, Prod.mk.injEq] at hr
    rw [← hr.1]; exact v2

/-! ### A list against a single entry -/

section
variable (reduce : R → R → R) {ops : TwtOps K V R}

/-- The wrong table entry: an entry that is kept in front of `UnchangedR`. -/
theorem LNode.twtSImpl_wrong (l : LNode K V) (right : SNode K V) {pre : List (K × V)} {a' a : K × V}
    (hv : l.visit = pre ++ [a', a]) (hpre : ∀ p ∈ pre, (p.1 == right.key) = false) (ha' : (a'.1 == right.key) = false)
    {r r' : R} (hk : ops.left.call a'.1 a'.2 = .unchanged r)
    (hs : SNode.twtImpl reduce ops ⟨a.1, a.2⟩ right = .unchangedR r') :
    ∃ m r, l.twtSImpl reduce ops right = .node (.L m) r ∧
      [(right.key, right.value), a', a].Sublist m.visit := by
  induction l generalizing pre with
  | nextS k v s z =>
    have : pre = [] ∧ a' = (k, v) ∧ a = (s.key, s.value) := by
      cases pre with
      | nil =>
        simp only [LNode.visit, SNode.visit, List.nil_append, List.cons.injEq, and_true] at hv
        exact ⟨rfl, hv.1.symm, hv.2.symm⟩
      | cons p pre =>
        simp only [LNode.visit, SNode.visit, List.cons_append, List.cons.injEq] at hv
        have := congrArg List.length hv.2
        simp at this
    obtain ⟨rfl, rfl, rfl⟩ := this
    rw [LNode.twtSImpl, if_neg (by rw [ha']; simp), hk, hs]
    exact ⟨_, _, rfl, by simp [LNode.visit, SNode.visit, LNode.new]⟩
  | nextL k v l z ih =>
    cases pre with
    | nil =>
      simp only [LNode.visit, List.nil_append, List.cons.injEq] at hv
      have := congrArg List.length hv.2
      have h2 := l.two_le
      rw [this] at h2; simp at h2
    | cons p pre =>
      simp only [LNode.visit, List.cons_append, List.cons.injEq] at hv
      obtain ⟨hp, hv⟩ := hv
      subst hp
      have hp := hpre (k, v) (List.mem_cons_self ..)
      obtain ⟨m, r1, h1, h2⟩ := ih hv (fun p hp => hpre p (List.mem_cons_of_mem _ hp))
      rw [LNode.twtSImpl, if_neg (by rw [hp]; simp), h1]
      cases ops.left.call k v with
      | unchanged lr => exact ⟨_, _, rfl, by rw [LNode.new_visit]; exact h2.cons _⟩
      | transformed lv lr => exact ⟨_, _, rfl, by rw [LNode.new_visit]; exact h2.cons _⟩
      | removed lr => exact ⟨_, _, rfl, h2⟩

end

/-! ### Right results -/

theorem TwtOps.Right.distinct (laws : KeyLaws hash) (reduce : R → R → R) (e : R) {ops : TwtOps K V R}
    {as bs l : List (K × V)} (ha : DistinctKeys as) (hb : DistinctKeys bs) (h : ops.Right as bs l) :
    DistinctKeys l :=
  (TwtOps.keyed laws ops reduce e).distinct h ((CrossLaws.same laws).cases_matched ha hb)
    ((CrossLaws.same laws).apart ha hb)

omit [BEq K] in
theorem pairwise_ne {α : Type} {r : α → α → Prop} {l : List α} (h : l.Pairwise r) (sym : ∀ a b, r a b → r b a)
    {a b : α} (ha : a ∈ l) (hb : b ∈ l) (hne : a ≠ b) : r a b := by
  induction l with
  | nil => simp at ha
  | cons x l ih =>
    rw [List.pairwise_cons] at h
    rcases List.mem_cons.1 ha with ea | ha1 <;> rcases List.mem_cons.1 hb with eb | hb1
    · exact absurd (ea.trans eb.symm) hne
    · rw [ea]; exact h.1 _ hb1
    · rw [eb]; exact sym _ _ (h.1 _ ha1)
    · exact ih h.2 ha1 hb1

omit [BEq K] in
theorem perm_front {α : Type} {a : α} {l : List α} (h : a ∈ l) : ∃ l', l.Perm (a :: l') := by
  obtain ⟨s, t, rfl⟩ := List.append_of_mem h
  exact ⟨s ++ t, List.perm_middle⟩

/-- An entry of a right result is an outcome of the case with its key. -/
theorem TwtOps.Right.out (laws : KeyLaws hash) {ops : TwtOps K V R}
    {as bs l : List (K × V)} (ha : DistinctKeys as) (hb : DistinctKeys bs) (h : ops.Right as bs l)
    {x : K × V} (hx : x ∈ l) {p : Case (K × V) (K × V)} (hp : p ∈ (Cross.same hash).cases as bs)
    {k : K} (hk : p.lkey? = some k ∨ p.rkey? = some k) (hkx : (k == x.1) = true) : ops.Out p (some x) := by
  obtain ⟨ps, h1, h2, h3⟩ := h
  obtain ⟨q, hq, hqx⟩ := List.mem_filterMap.1 (h3.mem_iff.1 hx)
  have hout := h2 q hq
  rw [hqx] at hout
  have hqc : q.1 ∈ (Cross.same hash).cases as bs := h1.mem_iff.1 (List.mem_map_of_mem hq)
  have hov : Overlap (Cross.same hash) p q.1 := by
    rcases hk with hk | hk <;> rcases TwtOps.out_key hout with h4 | h4
    · exact .inl ⟨_, _, hk, h4, hkx⟩
    · exact .inr (.inr (.inl ⟨_, _, hk, h4, hkx⟩))
    · exact .inr (.inr (.inr ⟨_, _, h4, hk, laws.symm _ _ hkx⟩))
    · exact .inr (.inl ⟨_, _, hk, h4, hkx⟩)
  have : p = q.1 := by
    rcases Classical.em (p = q.1) with he | hne
    · exact he
    · exact absurd hov (pairwise_ne ((CrossLaws.same laws).apart ha hb)
        (fun p q h h' => h ((CrossLaws.same laws).overlap_symm h')) hp hqc hne)
  rw [this]; exact hout

/-! ### Several entries against one -/

/-- If the answers are not tame, then for some order of the colliding entries the list is wrong. -/
theorem tameOne_core (laws : KeyLaws hash) (ops : TwtOps K V R) (reduce : R → R → R) (e : R)
    {as : List (K × V)} {b : K × V} (hk : DistinctKeys as)
    (hh : ∀ a ∈ as, hash a.1 = hash b.1) (nt : ¬ ops.TameOne as [b]) :
    ∃ as', as.Perm as' ∧ 2 ≤ as'.length ∧ ∀ (l : LNode K V) (s : SNode K V), l.visit = as' → (s.key, s.value) = b →
      ∃ m rm, l.twtS (c := c) reduce hash ops s 1 = .ok (.node (.L m) rm) ∧ ¬ ops.Right as' [b] m.visit := by
  -- the entries that go wrong
  have bad : ∃ a' ∈ as, ∃ a ∈ as, a' ≠ a ∧ (a'.1 == b.1) = false ∧ (∃ r, ops.left.call a'.1 a'.2 = .unchanged r) ∧
      (((a.1 == b.1) = true ∧ ∃ r, ops.both.call a.1 a.2 b.1 b.2 = .unchangedR r) ∨
       ((∀ x ∈ as, (x.1 == b.1) = false) ∧ (∃ r, ops.right.call b.1 b.2 = .unchanged r) ∧
         ∃ r, ops.left.call a.1 a.2 = .removed r)) := by
    apply Classical.byContradiction
    intro hno
    apply nt
    refine ⟨?_, ?_⟩
    · intro b' hb' a ha hab r hr a' ha' hne r' hr'
      simp only [List.mem_cons, List.not_mem_nil, or_false] at hb'
      subst hb'
      rw [MapJointTransform.closure_eq] at hr
      rw [MapTransform.closure_eq] at hr'
      refine hno ⟨a', ha', a, ha, ?_, hne, ⟨r', hr'⟩, .inl ⟨hab, r, hr⟩⟩
      rintro rfl; rw [hab] at hne; simp at hne
    · intro b' hb' hm r hr
      simp only [List.mem_cons, List.not_mem_nil, or_false] at hb'
      subst hb'
      rw [MapTransform.closure_eq] at hr
      refine Classical.or_iff_not_imp_left.2 fun hnk => ?_
      intro a ha r' hr'
      rw [MapTransform.closure_eq] at hr'
      apply hnk
      intro a' ha' r'' hr''
      rw [MapTransform.closure_eq] at hr''
      refine hno ⟨a', ha', a, ha, ?_, hm a' ha', ⟨r'', hr''⟩, .inr ⟨hm, ⟨r, hr⟩, ⟨r', hr'⟩⟩⟩
      rintro rfl; rw [hr'] at hr''; simp at hr''
  obtain ⟨a', ha', a, ha, hne, hm', ⟨r1, hk1⟩, hcase⟩ := bad
  -- that order
  obtain ⟨pre, hperm⟩ : ∃ pre, as.Perm (pre ++ [a', a]) := by
    obtain ⟨l1, h1⟩ := perm_front ha'
    have ha2 : a ∈ l1 := by
      rcases List.mem_cons.1 (h1.mem_iff.1 ha) with h | h
      · exact absurd h.symm hne
      · exact h
    obtain ⟨l2, h2⟩ := perm_front ha2
    exact ⟨l2, h1.trans ((h2.cons a').trans (List.perm_append_comm (l₁ := [a', a])))⟩
  have hd : DistinctKeys (pre ++ [a', a]) := by
    haveI := laws.equiv
    exact (hperm.pairwise_iff (fun {x y} h => by rw [BEq.comm (a := y.1)]; exact h)).1 hk
  refine ⟨_, hperm, by simp, ?_⟩
  intro l s vt hs
  have hpre : ∀ p ∈ pre, (p.1 == s.key) = false := by
    subst hs
    intro p hp
    rcases hcase with ⟨hab, _⟩ | ⟨hm, _⟩
    · have h1 : (p.1 == a.1) = false := by
        have := (List.pairwise_append.1 hd).2.2 p hp a (by simp)
        exact this
      haveI := laws.equiv
      cases h2 : p.1 == s.key with
      | false => rfl
      | true =>
        have : (p.1 == a.1) = true := PartialEquivBEq.trans h2 (PartialEquivBEq.symm hab)
        rw [h1] at this; simp at this
    · exact hm p (hperm.mem_iff.2 (by simp [hp]))
  have himpl : ∃ r', SNode.twtImpl reduce ops ⟨a.1, a.2⟩ s = .unchangedR r' := by
    subst hs
    rcases hcase with ⟨hab, r, hr⟩ | ⟨hm, ⟨r, hr⟩, r', hr'⟩
    · refine ⟨r, ?_⟩
      unfold SNode.twtImpl
      rw [if_pos (by exact hab)]
      simp only [hr]
    · have := hm a ha
      refine ⟨reduce r' r, ?_⟩
      unfold SNode.twtImpl
      rw [if_neg (by show ¬ (a.1 == s.key) = true; rw [this]; simp)]
      simp only [hr, hr']
  obtain ⟨r', himpl⟩ := himpl
  obtain ⟨m, rm, hm1, hm2⟩ := LNode.twtSImpl_wrong reduce l s vt hpre (by rw [← hs] at hm'; exact hm') hk1 himpl
  have hl : hash l.key = hash s.key := by
    have : (l.key, l.value) ∈ pre ++ [a', a] := by
      rw [← vt]; cases l <;> simp [LNode.visit, LNode.key, LNode.value]
    have := hh _ (hperm.mem_iff.2 this)
    rw [← hs] at this; exact this
  refine ⟨m, rm, by rw [LNode.twtS, if_pos hl, hm1]; rfl, ?_⟩
  intro hright
  have hdb : DistinctKeys [b] := by simp [DistinctKeys]
  rw [hs] at hm2
  have ham : a ∈ m.visit := hm2.subset (by simp)
  rcases hcase with ⟨hab, _⟩ | ⟨hm, _, r2, hr2⟩
  · have hdm := hright.distinct laws reduce e hd hdb
    have h3 := List.Pairwise.sublist hm2 hdm
    have : (b.1 == a.1) = false := (List.pairwise_cons.1 h3).1 a (by simp)
    rw [laws.symm _ _ hab] at this; simp at this
  · have hc : Case.left a ∈ (Cross.same hash).cases (pre ++ [a', a]) [b] :=
      (mem_jointCases ((CrossLaws.same laws).joinable hd hdb) _).2 ⟨by simp, fun b' hb' => by
        simp only [List.mem_cons, List.not_mem_nil, or_false] at hb'
        subst hb'
        exact hm a ha⟩
    have := hright.out laws hd hdb ham hc (k := a.1) (.inl rfl) (laws.refl _)
    simp only [TwtOps.Out, MapTransform.closure_eq, hr2, MapTransformResult.entry, reduceCtorEq] at this


omit [BEq K] in
theorem lvis_list {o : Option (LNext K V)} {l : List (K × V)} (h : lvis o = l) (h2 : 2 ≤ l.length) :
    ∃ n, o = some (.L n) ∧ n.visit = l := by
  cases o with
  | none => rw [← h] at h2; simp [lvis] at h2
  | some n =>
    cases n with
    | L n => exact ⟨n, rfl, h⟩
    | S s => rw [← h] at h2; simp [lvis, LNext.visit, SNode.visit] at h2

omit [BEq K] in
theorem lvis_single {o : Option (LNext K V)} {b : K × V} (h : lvis o = [b]) :
    ∃ s : SNode K V, o = some (.S s) ∧ (s.key, s.value) = b := by
  cases o with
  | none => simp [lvis] at h
  | some n =>
    cases n with
    | L l =>
      have := congrArg List.length h
      have h2 := l.two_le
      simp only [lvis, LNext.visit, List.length_cons, List.length_nil] at this
      omega
    | S s =>
      simp only [lvis, LNext.visit, SNode.visit, List.cons.injEq, and_true] at h
      exact ⟨s, rfl, h⟩

/-- Several entries on the left, one on the right. -/
theorem tameOne_needed (laws : KeyLaws hash) (hc : c.checked = false) {ops : TwtOps K V R}
    (hns : ops.shortcut (c := c) = none)
    (reduce : R → R → R) (e : R) (par : Par) {as : List (K × V)} {b : K × V} (hk : DistinctKeys as)
    (hh : ∀ a ∈ as, hash a.1 = hash b.1) (nt : ¬ ops.TameOne as [b]) :
    ∃ (t u t' : Trie c K V) (r : R), Reach c hash t ∧ Reach c hash u ∧ t.visit.Perm as ∧ u.visit = [b] ∧
      Trie.twt reduce e hash ops par t u = .ok (t', r) ∧ ¬ ops.Right t.visit u.visit t'.visit := by
  obtain ⟨as', hperm, h2, core⟩ := tameOne_core (c := c) laws ops reduce e hk hh nt
  obtain ⟨t, o, rt, st, vt⟩ := exists_bucket laws hc (hash b.1) as' ((haveI := laws.equiv; hk.perm hperm))
    (fun x hx => hh x (hperm.mem_iff.2 hx))
  obtain ⟨u, o', ru, su, vu⟩ := exists_bucket laws hc (hash b.1) [b] (by simp [DistinctKeys])
    (fun x hx => by simp at hx; rw [hx])
  have vt' := st.visit.trans vt
  have vu' := su.visit.trans vu
  obtain ⟨l, rfl, hl⟩ := lvis_list vt h2
  obtain ⟨s, rfl, hs⟩ := lvis_single vu
  obtain ⟨m, rm, h3, h4⟩ := core l s hl hs
  obtain ⟨t', r, h5, h6⟩ := Trie.twt_bucket_ok (reduce := reduce) (e := e) (par := par) (hash := hash) hns st su
    (show (LNext.L l).toNode.twt reduce e hash ops par (LNext.S s).toNode 1 = _ from h3)
  exact ⟨t, u, t', r, rt, ru, by rw [vt']; exact hperm.symm, vu', h5, by rw [vt', vu', h6]; exact h4⟩

theorem TwtOps.Right.flip (laws : KeyLaws hash) {ops : TwtOps K V R} {as bs l : List (K × V)} (ha : DistinctKeys as)
    (hb : DistinctKeys bs) (h : ops.Right as bs l) : ops.flip.Right bs as l := by
  obtain ⟨ps, h1, h2, h3⟩ := h
  refine ⟨ps.map fun p => (p.1.flip, p.2), ?_, ?_, ?_⟩
  · rw [List.map_map]
    have j := (CrossLaws.same laws).joinable (x := Cross.same hash) ha hb
    have e1 : (Prod.fst ∘ fun p : Case (K × V) (K × V) × Option (K × V) => (p.1.flip, p.2)) = Case.flip ∘ Prod.fst := rfl
    rw [e1, ← List.map_map]
    refine (h1.map Case.flip).trans ((jointCases_flip j).trans (.of_eq ?_))
    congr 1
    funext b a
    haveI := laws.equiv
    exact BEq.comm (a := a.1)
  · intro p hp
    obtain ⟨q, hq, rfl⟩ := List.mem_map.1 hp
    apply TwtOps.flip_out ops.flip
    rw [TwtOps.flip_flip, Case.flip_flip]
    exact h2 q hq
  · rw [List.filterMap_map]; exact h3

/-- One entry on the left, several on the right. -/
theorem tameOne_needed_flip (laws : KeyLaws hash) (hc : c.checked = false) {ops : TwtOps K V R}
    (hns : ops.shortcut (c := c) = none)
    (reduce : R → R → R) (e : R) (par : Par) {bs : List (K × V)} {a : K × V} (hk : DistinctKeys bs)
    (hh : ∀ b ∈ bs, hash b.1 = hash a.1) (nt : ¬ ops.flip.TameOne bs [a]) :
    ∃ (t u t' : Trie c K V) (r : R), Reach c hash t ∧ Reach c hash u ∧ t.visit = [a] ∧ u.visit.Perm bs ∧
      Trie.twt reduce e hash ops par t u = .ok (t', r) ∧ ¬ ops.Right t.visit u.visit t'.visit := by
  obtain ⟨bs', hperm, h2, core⟩ := tameOne_core (c := c) laws ops.flip reduce e hk hh nt
  have hd := (haveI := laws.equiv; hk.perm hperm)
  obtain ⟨u, o, ru, su, vu⟩ := exists_bucket laws hc (hash a.1) bs' hd
    (fun x hx => hh x (hperm.mem_iff.2 hx))
  have hda : DistinctKeys [a] := by simp [DistinctKeys]
  obtain ⟨t, o', rt, st, vt⟩ := exists_bucket laws hc (hash a.1) [a] hda
    (fun x hx => by simp at hx; rw [hx])
  have vt' := st.visit.trans vt
  have vu' := su.visit.trans vu
  obtain ⟨l, rfl, hl⟩ := lvis_list vu h2
  obtain ⟨s, rfl, hs⟩ := lvis_single vt
  obtain ⟨m, rm, h3, h4⟩ := core l s hl hs
  obtain ⟨t', r, h5, h6⟩ := Trie.twt_bucket_ok (reduce := reduce) (e := e) (par := par) (hash := hash) hns st su
    (show (LNext.S s).toNode.twt reduce e hash ops par (LNext.L l).toNode 1 = .ok (.node (.L m) rm) from
      (congrArg JRes.flipR h3).trans rfl)
  refine ⟨t, u, t', r, rt, ru, vt', by rw [vu']; exact hperm.symm, h5, ?_⟩
  rw [vt', vu', h6]
  exact fun h => h4 (h.flip laws hda hd)

/-! ### Several entries against several -/

section
variable (reduce : R → R → R) {ops : TwtOps K V R}

omit [BEq K] in
/-- The loop over the remaining entries keeps the list it starts with. -/
theorem TwtOps.leftovers_node {this : LNode K V} {rest : List (K × V)} {m : LNext K V} {r : R} {res : JRes (LNext K V) R}
    (h : ops.leftovers reduce this rest (.node m r) = .ok res) :
    ∃ m' r', res = .node m' r' ∧ m.visit.Sublist m'.visit := by
  induction rest generalizing m r with
  | nil => injection h with h; exact ⟨m, r, h.symm, List.Sublist.refl _⟩
  | cons b rest ih =>
    rw [TwtOps.leftovers] at h; unfold TwtOps.leftover at h
    cases hb : ops.right.call b.1 b.2 with
    | unchanged rr =>
      rw [hb] at h
      obtain ⟨m', r', h1, h2⟩ := ih h
      refine ⟨m', r', h1, List.Sublist.trans ?_ h2⟩
      show m.visit.Sublist (LNode.new b.1 b.2 m).visit
      rw [LNode.new_visit]; exact List.sublist_cons_self ..
    | transformed rv rr =>
      rw [hb] at h
      obtain ⟨m', r', h1, h2⟩ := ih h
      refine ⟨m', r', h1, List.Sublist.trans ?_ h2⟩
      show m.visit.Sublist (LNode.new b.1 rv m).visit
      rw [LNode.new_visit]; exact List.sublist_cons_self ..
    | removed rr =>
      rw [hb] at h
      exact ih h

omit [BEq K] in
/-- That loop panics if the right list was to be kept. -/
theorem TwtOps.leftovers_unchangedR {this : LNode K V} {rest : List (K × V)} {r : R} {res : JRes (LNext K V) R}
    (h : ops.leftovers reduce this rest (.unchangedR r) = .ok res) : rest = [] ∧ res = .unchangedR r := by
  cases rest with
  | nil => injection h with h; exact ⟨rfl, h.symm⟩
  | cons b rest =>
    rw [TwtOps.leftovers] at h; unfold TwtOps.leftover at h
    cases hb : ops.right.call b.1 b.2 <;> rw [hb] at h <;> cases h

theorem takeMatch_rest {α : Type} {p : α → Bool} {l rest : List α} {b : α} (h : takeMatch p l = some (b, rest)) :
    p b = true ∧ b ∈ l ∧ ∀ x ∈ l, x = b ∨ x ∈ rest := by
  obtain ⟨h1, h2⟩ := takeMatch_some h
  refine ⟨h1, h2.mem_iff.1 (List.mem_cons_self ..), fun x hx => ?_⟩
  exact List.mem_cons.1 (h2.mem_iff.2 hx)

/-- Right entries that match nothing are left over; if nothing of the left list remains, then an entry that is
    not left over was matched and removed. -/
theorem TwtOps.step_rest {k : K} {v : V} {bs : List (K × V)} {b : K × V} (hb : b ∈ bs) :
    (b ∈ (ops.step k v bs).2) ∨ ((k == b.1) = true ∧ (ops.step k v bs).1 = ops.both.call k v b.1 b.2) := by
  unfold TwtOps.step
  cases ht : takeMatch (fun e : K × V => k == e.1) bs with
  | none => exact .inl hb
  | some q =>
    obtain ⟨b', rest⟩ := q
    obtain ⟨h1, h2, h3⟩ := takeMatch_rest ht
    rcases h3 b hb with rfl | h
    · exact .inr ⟨h1, rfl⟩
    · exact .inl h

theorem LNode.twtLImpl_rest (l : LNode K V) {bs rest : List (K × V)} {res : JRes (LNext K V) R}
    (h : l.twtLImpl reduce ops bs = .ok (res, rest)) {b : K × V} (hb : b ∈ bs) :
    b ∈ rest ∨ ∃ x ∈ l.visit, (x.1 == b.1) = true ∧
      (∀ r, res = .removed r → ∃ r', ops.both.call x.1 x.2 b.1 b.2 = .removed r') := by
  have removed : ∀ (this : LNode K V) a t n r, LNode.jointThenJoint reduce this a t n = .ok (.removed r) →
      (∃ r', a = .removed r') ∧ ∃ r', n = (.removed r' : JRes (LNext K V) R) := by
    intro this a t n r h
    cases a <;> cases n <;> cases t <;>
      first | exact ⟨⟨_, rfl⟩, _, rfl⟩ | (simp only [LNode.jointThenJoint, Res.unwrap_some, Res.ok_bind, Res.unwrap] at h; cases h)
  induction l generalizing res rest with
  | nextS k v s z =>
    rw [LNode.twtLImpl] at h
    obtain ⟨res', h1, h2⟩ := Res.bind_eq_ok.1 h
    injection h2 with h2; injection h2 with h2 h3
    subst h2 h3
    rcases (show b ∈ (s.twtLast reduce ops bs).2.2 ∨ (s.key == b.1) = true ∧
        (s.twtLast reduce ops bs).1 = s.twtImpl reduce ops ⟨b.1, b.2⟩ by
      unfold SNode.twtLast
      cases ht : takeMatch (fun e : K × V => s.key == e.1) bs with
      | none => exact .inl hb
      | some q =>
        obtain ⟨b', rest⟩ := q
        obtain ⟨q1, q2, q3⟩ := takeMatch_rest ht
        rcases q3 b hb with rfl | h
        · exact .inr ⟨q1, rfl⟩
        · exact .inl h) with h3 | ⟨h3, h4⟩
    · rcases TwtOps.step_rest (ops := ops) (k := k) (v := v) h3 with h4 | ⟨h4, h5⟩
      · exact .inl h4
      · refine .inr ⟨(k, v), by simp [LNode.visit], h4, ?_⟩
        rintro r rfl
        rw [h5] at h1
        exact (removed _ _ _ _ _ h1).1
    · refine .inr ⟨(s.key, s.value), by simp [LNode.visit, SNode.visit], h3, ?_⟩
      rintro r rfl
      obtain ⟨_, r', h5⟩ := removed _ _ _ _ _ h1
      rw [h4, SNode.twtImpl, if_pos h3] at h5
      refine ⟨r', ?_⟩
      show ops.both.call s.key s.value b.1 b.2 = _
      generalize ops.both.call s.key s.value b.1 b.2 = x at h5
      cases x <;> simp at h5
      rw [h5]
  | nextL k v l z ih =>
    rw [LNode.twtLImpl] at h
    obtain ⟨⟨n, rest'⟩, h0, h⟩ := Res.bind_eq_ok.1 h
    obtain ⟨res', h1, h2⟩ := Res.bind_eq_ok.1 h
    injection h2 with h2; injection h2 with h2 h3
    subst h2 h3
    rcases ih h0 with h3 | ⟨x, h3, h4, h5⟩
    · rcases TwtOps.step_rest (ops := ops) (k := k) (v := v) h3 with h4 | ⟨h4, h5⟩
      · exact .inl h4
      · refine .inr ⟨(k, v), by simp [LNode.visit], h4, ?_⟩
        rintro r rfl
        rw [h5] at h1
        exact (removed _ _ _ _ _ h1).1
    · refine .inr ⟨x, by simp [LNode.visit, h3], h4, ?_⟩
      rintro r rfl
      obtain ⟨_, r', h6⟩ := removed _ _ _ _ _ h1
      exact h5 r' h6

theorem LNode.twtLImpl_sub (l : LNode K V) {bs rest : List (K × V)} {res : JRes (LNext K V) R}
    (h : l.twtLImpl reduce ops bs = .ok (res, rest)) : ∀ x ∈ rest, x ∈ bs := by
  have step : ∀ k v (bs : List (K × V)), ∀ x ∈ (ops.step k v bs).2, x ∈ bs := by
    intro k v bs x hx
    unfold TwtOps.step at hx
    cases ht : takeMatch (fun e : K × V => k == e.1) bs with
    | none => rw [ht] at hx; exact hx
    | some q => rw [ht] at hx; exact (takeMatch_some ht).2.mem_iff.1 (List.mem_cons_of_mem _ hx)
  induction l generalizing res rest with
  | nextS k v s z =>
    rw [LNode.twtLImpl] at h
    obtain ⟨res', h1, h2⟩ := Res.bind_eq_ok.1 h
    injection h2 with h2; injection h2 with h2 h3
    subst h2 h3
    intro x hx
    have hx := step _ _ _ x hx
    unfold SNode.twtLast at hx
    cases ht : takeMatch (fun e : K × V => s.key == e.1) bs with
    | none => rw [ht] at hx; exact hx
    | some q => rw [ht] at hx; exact (takeMatch_some ht).2.mem_iff.1 (List.mem_cons_of_mem _ hx)
  | nextL k v l z ih =>
    rw [LNode.twtLImpl] at h
    obtain ⟨⟨n, rest'⟩, h0, h⟩ := Res.bind_eq_ok.1 h
    obtain ⟨res', h1, h2⟩ := Res.bind_eq_ok.1 h
    injection h2 with h2; injection h2 with h2 h3
    subst h2 h3
    exact fun x hx => ih h0 x (step _ _ _ x hx)

/-- The first entry of the left list is answered `UnchangedR`: what the list operation can return. -/
theorem LNode.twtLImpl_first (l : LNode K V) {bs rest : List (K × V)} {res : JRes (LNext K V) R}
    (h : l.twtLImpl reduce ops bs = .ok (res, rest)) {a b : K × V} {as : List (K × V)} (hv : l.visit = a :: as)
    (hb : b ∈ bs) (hab : (a.1 == b.1) = true) (hn : ∀ x ∈ as, (x.1 == b.1) = false)
    (hbs : ∀ b' ∈ bs, (a.1 == b'.1) = true → b' = b)
    {r : R} (hr : ops.both.call a.1 a.2 b.1 b.2 = .unchangedR r) :
    (∃ m r', res = .node m r' ∧ (a ∈ m.visit ∨ ∃ k v b', [b', (k, v)].Sublist m.visit ∧ (k == b'.1) = true)) ∨
    ((∃ r', res = .unchangedR r') ∧ ∀ b' ∈ bs, b' = b ∨ b' ∈ rest ∨
      ∃ x ∈ as, (x.1 == b'.1) = true ∧ ∃ r', ops.both.call x.1 x.2 b'.1 b'.2 = .removed r') := by
  have hstep : ∀ {rest}, b ∈ rest → (∀ x ∈ rest, x ∈ bs) → (ops.step a.1 a.2 rest).1 = .unchangedR r := by
    intro rest hb hsub
    unfold TwtOps.step
    cases ht : takeMatch (fun e : K × V => a.1 == e.1) rest with
    | none => have := takeMatch_none ht b hb; rw [hab] at this; simp at this
    | some q =>
      obtain ⟨b', rest'⟩ := q
      obtain ⟨h1, h2, h3⟩ := takeMatch_rest ht
      have := hbs b' (hsub b' h2) h1
      subst this
      exact hr
  cases l with
  | nextS k v s z =>
    simp only [LNode.visit, SNode.visit, List.cons.injEq] at hv
    obtain ⟨rfl, rfl⟩ := hv
    rw [LNode.twtLImpl] at h
    obtain ⟨res', h1, h2⟩ := Res.bind_eq_ok.1 h
    injection h2 with h2; injection h2 with h2 h3
    subst h2 h3
    have hn' := hn (s.key, s.value) (List.mem_cons_self ..)
    cases ht : takeMatch (fun e : K × V => s.key == e.1) bs with
    | none =>
      have e1 : s.twtLast reduce ops bs = (((s.transform ops.left).map LNext.S).jointL, none, bs) := by
        unfold SNode.twtLast; rw [ht]
      rw [e1] at h1 ⊢
      rw [hstep hb (fun _ h => h)] at h1
      cases hnx : ((s.transform ops.left).map LNext.S).jointL <;> rw [hnx] at h1 <;>
        simp only [LNode.jointThenJoint, Res.unwrap, Res.panic_bind, reduceCtorEq] at h1
      injection h1 with h1
      refine .inr ⟨⟨_, h1.symm⟩, fun b' hb' => ?_⟩
      rcases TwtOps.step_rest (ops := ops) (k := k) (v := v) hb' with h4 | ⟨h4, h5⟩
      · exact .inr (.inl h4)
      · exact .inl (hbs b' hb' h4)
    | some q =>
      obtain ⟨b2, rest⟩ := q
      obtain ⟨q1, q2, q3⟩ := takeMatch_rest ht
      have hsub : ∀ x ∈ rest, x ∈ bs := fun x hx => (takeMatch_some ht).2.mem_iff.1 (List.mem_cons_of_mem _ hx)
      have hbr : b ∈ rest := by
        rcases q3 b hb with rfl | h
        · rw [hn'] at q1; simp at q1
        · exact h
      have e1 : s.twtLast reduce ops bs = (s.twtImpl reduce ops ⟨b2.1, b2.2⟩, some b2, rest) := by
        unfold SNode.twtLast; rw [ht]
      rw [e1] at h1 ⊢
      rw [hstep hbr hsub, SNode.twtImpl, if_pos q1] at h1
      generalize hnx : ops.both.call s.key s.value b2.1 b2.2 = nx at h1
      cases nx with
      | unchangedLR r' =>
        injection h1 with h1
        exact .inl ⟨_, _, h1.symm, .inl (by simp [LNext.visit, LNode.new, LNode.visit, LNode.key, LNode.value])⟩
      | unchangedR r' =>
        injection h1 with h1
        exact .inl ⟨_, _, h1.symm, .inl (by simp [LNext.visit, LNode.new, LNode.visit, LNode.key, LNode.value])⟩
      | unchangedL r' =>
        injection h1 with h1
        exact .inl ⟨_, _, h1.symm, .inr ⟨s.key, s.value, b2, by
          simp [LNext.visit, LNode.new, LNode.visit, LNode.next, SNode.visit], q1⟩⟩
      | transformed v' r' =>
        injection h1 with h1
        exact .inl ⟨_, _, h1.symm, .inr ⟨s.key, v', b2, by
          simp [LNext.visit, LNode.new, LNode.visit, SNode.visit], q1⟩⟩
      | removed r' =>
        injection h1 with h1
        refine .inr ⟨⟨_, h1.symm⟩, fun b' hb' => ?_⟩
        rcases q3 b' hb' with rfl | hb'
        · exact .inr (.inr ⟨_, List.mem_cons_self .., q1, r', hnx⟩)
        · rcases TwtOps.step_rest (ops := ops) (k := k) (v := v) hb' with h4 | ⟨h4, h5⟩
          · exact .inr (.inl h4)
          · exact .inl (hbs b' (hsub b' hb') h4)
  | nextL k v l z =>
    simp only [LNode.visit, List.cons.injEq] at hv
    obtain ⟨rfl, rfl⟩ := hv
    rw [LNode.twtLImpl] at h
    obtain ⟨⟨n, rest'⟩, h0, h⟩ := Res.bind_eq_ok.1 h
    obtain ⟨res', h1, h2⟩ := Res.bind_eq_ok.1 h
    injection h2 with h2; injection h2 with h2 h3
    subst h2 h3
    have hsub := LNode.twtLImpl_sub reduce l h0
    have hbr : b ∈ rest' := by
      rcases l.twtLImpl_rest reduce h0 hb with h | ⟨x, h3, h4, _⟩
      · exact h
      · rw [hn x h3] at h4; simp at h4
    rw [hstep hbr hsub] at h1
    cases n <;> simp only [LNode.jointThenJoint, Res.unwrap, Res.panic_bind, reduceCtorEq] at h1
    injection h1 with h1
    refine .inr ⟨⟨_, h1.symm⟩, fun b' hb' => ?_⟩
    rcases l.twtLImpl_rest reduce h0 hb' with h2 | ⟨x, h3, h4, h5⟩
    · rcases TwtOps.step_rest (ops := ops) (k := k) (v := v) h2 with h4 | ⟨h4, h5⟩
      · exact .inr (.inl h4)
      · exact .inl (hbs b' hb' h4)
    · exact .inr (.inr ⟨x, h3, h4, h5 _ rfl⟩)

end

/-- A pair of different entries with equal keys, the left one first in its list, is answered `UnchangedR`: the list
    operation does not return a right result. -/
theorem tameBoth_core (laws : KeyLaws hash) {ops : TwtOps K V R} (reduce : R → R → R) (e : R)
    (hent : ∀ a b o, ops.both.Entry a b o → (ops.both.call a.1 a.2 b.1 b.2).Entry a b o)
    {a b : K × V} {as' bs : List (K × V)} (hka' : DistinctKeys (a :: as')) (hkb : DistinctKeys bs)
    {h : BitVec c.w} (hha : ∀ x ∈ a :: as', hash x.1 = h) (hhb : ∀ b ∈ bs, hash b.1 = h)
    (lb : 2 ≤ bs.length) (hb : b ∈ bs) (hab : (a.1 == b.1) = true) (hne : a ≠ b) {r : R}
    (hr : ops.both.call a.1 a.2 b.1 b.2 = .unchangedR r)
    {l l' : LNode K V} (hl : l.visit = a :: as') (hl' : l'.visit = bs) {d : Nat} {res : JRes (Node c.n K V) R}
    (h1 : l.twtL (c := c) reduce hash ops l' d = .ok res) :
    (∃ (m : LNext K V) (r : R), res = .node m.toNode r ∧ ¬ ops.Right (a :: as') bs m.visit) ∨
    (∃ r : R, res = .unchangedR r ∧ ¬ ops.Right (a :: as') bs bs) := by
  have hkey : ∀ (n : LNode K V), (n.key, n.value) ∈ n.visit := by
    intro n; cases n <;> simp [LNode.visit, LNode.key, LNode.value]
  have e1 : hash l.key = h := by
    have := hkey l; rw [hl] at this; exact hha _ this
  have e2 : hash l'.key = h := by
    have := hkey l'; rw [hl'] at this; exact hhb _ this
  rw [LNode.twtL, if_pos (e1.trans e2.symm)] at h1
  obtain ⟨rights, q1, h1⟩ := Res.bind_eq_ok.1 h1
  obtain ⟨⟨next, rest⟩, q2, h1⟩ := Res.bind_eq_ok.1 h1
  obtain ⟨fin, q3, h1⟩ := Res.bind_eq_ok.1 h1
  injection h1 with h1
  have hrights : rights = bs := by
    rw [← hl']
    cases l' with
    | nextS k v s z => injection q1 with q1; rw [← q1]; rfl
    | nextL k v l z => cases q1
  subst hrights
  have hmb : ∀ b' ∈ rights, (a.1 == b'.1) = true → b' = b := by
    intro b' hb' h6
    refine Classical.byContradiction fun hx => ?_
    haveI := laws.equiv
    have := pairwise_ne hkb (fun x y h => by rw [BEq.comm (a := y.1)]; exact h) hb' hb hx
    have h7 : (b'.1 == b.1) = true := PartialEquivBEq.trans (PartialEquivBEq.symm h6) hab
    rw [this] at h7; simp at h7
  have hn : ∀ x ∈ as', (x.1 == b.1) = false := by
    intro x hx
    have hax := (List.pairwise_cons.1 hka').1 x hx
    haveI := laws.equiv
    cases h6 : x.1 == b.1 with
    | false => rfl
    | true =>
      have h7 : (a.1 == x.1) = true := PartialEquivBEq.trans hab (PartialEquivBEq.symm h6)
      rw [hax] at h7; simp at h7
  have hcase : Case.both a b ∈ (Cross.same hash).cases (a :: as') rights :=
    (mem_jointCases ((CrossLaws.same laws).joinable hka' hkb) _).2 ⟨List.mem_cons_self .., hb, hab⟩
  rcases l.twtLImpl_first reduce q2 hl hb hab hn hmb hr with ⟨m, r1, rfl, hbad⟩ | ⟨⟨r1, rfl⟩, hall⟩
  · obtain ⟨m', r2, rfl, hsub⟩ := TwtOps.leftovers_node reduce q3
    refine .inl ⟨m', r2, h1.symm, fun hright => ?_⟩
    rcases hbad with hbad | ⟨k, v, b', hbad, hkb'⟩
    · have := hright.out laws hka' hkb (hsub.subset hbad) hcase (k := a.1) (.inl rfl) (laws.refl _)
      have := hent _ _ _ this
      rw [hr] at this
      exact hne (by simpa [MapJointTransformResult.Entry] using this)
    · have hd := hright.distinct laws reduce e hka' hkb
      have := List.Pairwise.sublist (hbad.trans hsub) hd
      have := (List.pairwise_cons.1 this).1 (k, v) (by simp)
      rw [laws.symm _ _ hkb'] at this; simp at this
  · obtain ⟨rfl, rfl⟩ := TwtOps.leftovers_unchangedR reduce q3
    refine .inr ⟨r1, h1.symm, fun hright => ?_⟩
    obtain ⟨b', hb', hnb⟩ : ∃ b' ∈ rights, b' ≠ b := by
      match rights, lb, hkb with
      | x :: y :: l, _, hkb =>
        have := (List.pairwise_cons.1 hkb).1 y (by simp)
        refine Classical.byContradiction fun hx => ?_
        have h1 : x = b := Classical.byContradiction fun h => hx ⟨x, by simp, h⟩
        have h2 : y = b := Classical.byContradiction fun h => hx ⟨y, by simp, h⟩
        rw [h1, h2, laws.refl] at this; simp at this
    rcases hall b' hb' with h6 | h6 | ⟨x, h6, h7, r2, h8⟩
    · exact hnb h6
    · simp at h6
    · have hcase' : Case.both x b' ∈ (Cross.same hash).cases (a :: as') rights :=
        (mem_jointCases ((CrossLaws.same laws).joinable hka' hkb) _).2 ⟨List.mem_cons_of_mem _ h6, hb', h7⟩
      have := hright.out laws hka' hkb hb' hcase' (k := x.1) (.inl rfl) h7
      have := hent _ _ _ this
      rw [h8] at this
      simp [MapJointTransformResult.Entry] at this

theorem tameBoth_needed (laws : KeyLaws hash) (hc : c.checked = false)
    {f : K → V → K → V → MapJointTransformResult V R} {sw : Bool}
    {left right : MapTransform R (K → V → MapTransformResult V R)}
    (reduce : R → R → R) (e : R) (par : Par) {as bs : List (K × V)} (hka : DistinctKeys as) (hkb : DistinctKeys bs)
    {h : BitVec c.w} (hha : ∀ a ∈ as, hash a.1 = h) (hhb : ∀ b ∈ bs, hash b.1 = h)
    (la : 2 ≤ as.length) (lb : 2 ≤ bs.length) {a b : K × V} (ha : a ∈ as) (hb : b ∈ bs) (hab : (a.1 == b.1) = true)
    (hne : a ≠ b) {r : R} (hr : (MapJointTransform.generic f sw).closure a.1 a.2 b.1 b.2 = .unchangedR r) :
    ∃ t u : Trie c K V, Reach c hash t ∧ Reach c hash u ∧ t.visit.Perm as ∧ u.visit = bs ∧ ∀ t' r,
      Trie.twt reduce e hash ⟨.generic f sw, left, right⟩ par t u = .ok (t', r) →
      ¬ TwtOps.Right ⟨.generic f sw, left, right⟩ t.visit u.visit t'.visit := by
  obtain ⟨as', hperm⟩ := perm_front ha
  have hka' : DistinctKeys (a :: as') := (haveI := laws.equiv; hka.perm hperm)
  obtain ⟨t, o, rt, st, vt⟩ := exists_bucket laws hc h (a :: as') hka' (fun x hx => hha x (hperm.mem_iff.2 hx))
  obtain ⟨u, o', ru, su, vu⟩ := exists_bucket laws hc h bs hkb hhb
  have vt' := st.visit.trans vt
  have vu' := su.visit.trans vu
  refine ⟨t, u, rt, ru, by rw [vt']; exact hperm.symm, vu', ?_⟩
  obtain ⟨l, rfl, hl⟩ := lvis_list vt (by rw [← hperm.length_eq]; exact la)
  obtain ⟨l', rfl, hl'⟩ := lvis_list vu lb
  intro t' r' htwt hright
  rw [vt', vu'] at hright
  obtain ⟨res, h1, h2, h3, h4, h5⟩ := Trie.twt_bucket (hash := hash) rfl st su htwt
  have h1 : l.twtL (c := c) reduce hash ⟨.generic f sw, left, right⟩ l' 1 = .ok res := h1
  rcases tameBoth_core laws reduce e (fun _ _ _ h => by
      simpa only [MapJointTransform.Entry, MapJointTransform.closure_eq] using h) hka' hkb
      (fun x hx => hha x (hperm.mem_iff.2 hx)) hhb lb hb hab hne (by rw [MapJointTransform.closure_eq] at hr; exact hr) hl hl' h1 with
    ⟨m, r1, e1, bad⟩ | ⟨r1, e1, bad⟩
  · have hvis : t'.visit = m.visit := by
      cases m with
      | L n => exact h2 n r1 e1
      | S n => exact h3 n r1 e1
    rw [hvis] at hright; exact bad hright
  · rw [h5 r1 e1] at hright
    exact bad (by rw [← hl'] at hright ⊢; exact hright)

end HT
