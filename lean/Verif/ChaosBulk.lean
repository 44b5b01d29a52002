import Verif.ChaosInsert
/-! # transform and transmute without any assumption on hashes, `==` or the closures -/
namespace HT

variable {K V S X R : Type} {c : Cfg}

theorem sizes_shape {d : Nat} (ms : List (Node c.n K V))
    (h : ∀ m ∈ ms, m.Shape d) : sizes ms = (Node.visitAll ms).length := by
  induction ms with
  | nil => rfl
  | cons m ms ih =>
    have h1 := (h m (List.mem_cons_self ..)).size_eq
    have h2 := ih (fun m' hm' => h m' (List.mem_cons_of_mem _ hm'))
    simp only [sizes, List.map_cons, List.sum_cons] at h2 ⊢
    rw [h1, h2, Node.visitAll, List.length_append]

/-- Packing the children `g` into a node. -/
theorem Acc.pack_shape {d : Nat} (hd : HasFlags c d)
    {reduce : R → R → R} {e : R} {it : Nat → Item c.n K V R} {acc : Acc c.n K V R}
    (G : Acc.Gathered reduce e it acc)
    (hg : ∀ i m, i < c.n → (it i).node? = some m →
      m.Shape (d + 1) ∧ m.visit ≠ []) :
    ∃ o, acc.pack = .ok o ∧
      vis o = (List.range c.n).flatMap (fun i => vis (it i).node?) ∧
      ∀ m, o = some m → m.Shape d ∧ m.visit ≠ [] := by
  obtain ⟨size, bits, values, ul, ur, red⟩ := acc
  have hval : values = _ := G.values
  have hbits := G.bits
  have hsize : size = sizes values := G.size
  obtain ⟨ok, hslot⟩ := Bia.of_filterMap (fun i => (it i).node?) bits values size hbits hval
  have hslot' : ∀ i m, (Bia.mk bits values size).slot i = some m → i < c.n ∧ (it i).node? = some m := by
    intro i m hm
    have hi := Bia.slot_lt hm
    exact ⟨hi, by rw [← hslot i hi]; exact hm⟩
  have hmem : ∀ m ∈ values, ∃ i, i < c.n ∧ (it i).node? = some m := by
    intro m hm
    rw [hval] at hm
    obtain ⟨i, hi, h⟩ := List.mem_filterMap.1 hm
    exact ⟨i, List.mem_range.1 hi, h⟩
  have hvis : Node.visitAll values = (List.range c.n).flatMap (fun i => vis (it i).node?) := by
    conv => lhs; rw [hval]
    exact visitAll_filterMap _ _
  have wfm : ∀ m ∈ values, m.Shape (d + 1) ∧ m.visit ≠ [] := by
    intro m hm
    obtain ⟨i, hi, h⟩ := hmem m hm
    exact hg i m hi h
  have wfC : (Node.C bits values size).Shape d := by
    refine .C d _ _ _ hd ok ?_ ?_ ?_
    · rw [hsize, sizes_shape values (fun m hm => (wfm m hm).1)]
    · intro i m hm; obtain ⟨hi, h⟩ := hslot' i m hm; exact (hg i m hi h).2
    · intro i m hm; obtain ⟨hi, h⟩ := hslot' i m hm; exact (hg i m hi h).1
  have hne : values ≠ [] → Node.visitAll values ≠ [] := by
    intro h
    cases values with
    | nil => exact absurd rfl h
    | cons m ms =>
      have := (wfm m (List.mem_cons_self ..)).2
      simp [Node.visitAll, this]
  have mkC : values ≠ [] → ∃ o, (do
      let a ← Bia.ofVec bits values size
      let a ← Res.unwrapE a
      Res.ok (some (Node.ofBia a)) : Res (Option (Node c.n K V))) = .ok o ∧
      vis o = (List.range c.n).flatMap (fun i => vis (it i).node?) ∧
      ∀ m, o = some m → m.Shape d ∧ m.visit ≠ [] := by
    intro h
    rw [Bia.ofVec_eq _ _ c.n_le ok]
    refine ⟨_, rfl, ?_, ?_⟩
    · rw [← hvis]; simp [Node.ofBia, Node.visit]
    · intro m hm; injection hm with hm; subst hm
      exact ⟨wfC, by simpa [Node.ofBia, Node.visit] using hne h⟩
  match values, hvis, wfm, mkC with
  | [], hvis, _, _ =>
    refine ⟨none, rfl, ?_, by simp⟩
    rw [← hvis]; rfl
  | [.C b v x], _, _, mkC => exact mkC (by simp)
  | [.L l], hvis, wfm, _ =>
    refine ⟨some (.L l), rfl, ?_, ?_⟩
    · rw [← hvis]; simp [Node.visitAll]
    · intro m hm; injection hm with hm; subst hm
      have := wfm _ (List.mem_cons_self ..)
      refine ⟨?_, this.2⟩
      cases this.1 with
      | L _ _ h => exact .L _ _ h
  | [.S s], hvis, wfm, _ =>
    refine ⟨some (.S s), rfl, ?_, ?_⟩
    · rw [← hvis]; simp [Node.visitAll]
    · intro m hm; injection hm with hm; subst hm
      exact ⟨.S _ _, (wfm _ (List.mem_cons_self ..)).2⟩
  | m1 :: m2 :: ms, _, _, mkC =>
    have := mkC (by simp)
    cases m1 <;> exact this

section
variable (op : MapTransform R (K → V → MapTransformResult V R))

/-- What is guaranteed of the result of transforming node `m` at depth `d`. -/
structure TrShape (d : Nat) (reduce : R → R → R) (e : R)
    (op : MapTransform R (K → V → MapTransformResult V R)) (m : Node c.n K V)
    (res : TRes (Node c.n K V) R) : Prop where
  entries : vis (res.get m) = op.outs m.visit
  wf : ∀ m', res.get m = some m' → m'.Shape d
  ne : m.visit ≠ [] → ∀ m', res.get m = some m' → m'.visit ≠ []
  red : Mon reduce e → op.Neutral e → res.red = total reduce e (op.reds m.visit)

/-- From a result on a collision list (or single node) to one on nodes. -/
theorem TrShape.ofL {d : Nat} {reduce : R → R → R} {e : R} {m : LNext K V} {res : TRes (LNext K V) R}
    (h1 : lvis (res.get m) = op.outs m.visit) (h2 : ∀ m', res.get m = some m' → m'.SizeOk)
    (h3 : Mon reduce e → op.Neutral e → res.red = total reduce e (op.reds m.visit)) :
    TrShape d reduce e op (m.toNode : Node c.n K V) (res.map LNext.toNode) := by
  refine ⟨?_, ?_, ?_, ?_⟩
  · rw [lres_get, vis_lvis, h1, LNext.toNode_visit]
  · intro m' hm'
    rw [lres_get] at hm'
    cases hg : res.get m with
    | none => rw [hg] at hm'; simp at hm'
    | some m1 =>
      rw [hg] at hm' h1
      simp only [Option.map_some, Option.some.injEq] at hm'
      subst hm'
      have h1 : m1.visit = op.outs m.visit := h1
      exact LNext.shape (h2 m1 hg) _
  · intro _ m' hm'
    rw [lres_get] at hm'
    cases hg : res.get m with
    | none => rw [hg] at hm'; simp at hm'
    | some m1 =>
      rw [hg] at hm'
      simp only [Option.map_some, Option.some.injEq] at hm'
      subst hm'
      rw [LNext.toNode_visit]; exact m1.visit_ne_nil
  · intro mon hn
    rw [TRes.map_red, h3 mon hn, LNext.toNode_visit]

theorem Node.transform_shape {d : Nat} (reduce : R → R → R) (e : R) (par : Par)
    {m : Node c.n K V} (wf : m.Shape d) :
    ∃ res, m.transform reduce e op par = .ok res ∧ TrShape d reduce e op m res := by
  induction wf with
  | S d s =>
    obtain ⟨h1, h2, h3⟩ := SNode.transform_spec op s
    refine ⟨_, rfl, ?_⟩
    have : (s.transform op).map (Node.S (n := c.n)) =
        (((s.transform op).map LNext.S).map LNext.toNode) := by
      cases s.transform op <;> rfl
    rw [this]
    exact TrShape.ofL op (m := .S s) h1 h2 (fun mon _ => h3 mon)
  | L d l hl =>
    obtain ⟨h1, h2, h3⟩ := LNode.transform_spec op reduce l hl
    refine ⟨_, rfl, ?_⟩
    exact TrShape.ofL op (m := .L l) h1 h2 h3
  | C d bits values extra hd ok sz ne sub ih =>
    have wfC : (Node.C bits values extra).Shape d := .C d bits values extra hd ok sz ne sub
    cases hop : op with
    | unchanged r =>
      refine ⟨.unchanged r, rfl, ?_, ?_, ?_, ?_⟩
      · rw [MapTransform.outs_unchanged]; rfl
      · intro m' hm'; injection hm' with hm'; subst hm'; exact wfC
      · intro h m' hm'; injection hm' with hm'; subst hm'; exact h
      · intro mon hn; rw [MapTransform.reds_neutral _ mon (by simp) hn]; exact hn
    | removed r =>
      refine ⟨.removed r, rfl, ?_, ?_, ?_, ?_⟩
      · rw [MapTransform.outs_removed]; rfl
      · intro m' hm'; simp [TRes.get] at hm'
      · intro _ m' hm'; simp [TRes.get] at hm'
      · intro mon hn; rw [MapTransform.reds_neutral _ mon (by simp) hn]; exact hn
    | generic f =>
      rw [← hop]
      -- the results of the children
      have hres : ∃ resf : Nat → TRes (Node c.n K V) R, ∀ i m, (Bia.mk bits values extra).slot i = some m →
          m.transform reduce e op par = .ok (resf i) ∧ TrShape (d + 1) reduce e op m (resf i) := by
        refine ⟨fun i => match (Bia.mk bits values extra).slot i with
          | none => .removed e
          | some m => match m.transform reduce e op par with
            | .ok r => r
            | _ => .removed e, ?_⟩
        intro i m hm
        obtain ⟨r, hr, g⟩ := ih i m hm
        simp only [hm, hr]
        exact ⟨trivial, g⟩
      obtain ⟨resf, hresf⟩ := hres
      let it : Nat → Item c.n K V R := fun i => match (Bia.mk bits values extra).slot i with
        | none => .skip
        | some m => (resf i).item m
      have okA : (Bia.mk bits (Node.transformAll reduce e op par values) extra).Ok := by
        rw [Node.transformAll_eq]; simpa [Bia.Ok] using ok
      obtain ⟨acc, hacc, G⟩ := Acc.gather_spec reduce e par (fun index => do
        let child ← (Bia.mk bits (Node.transformAll reduce e op par values) extra).atBitIndex index
        TRes.childItem child) it (by
        intro i hi
        simp only [Bia.atBitIndex_eq _ okA, Res.ok_bind]
        rw [Node.transformAll_eq, Bia.slot_map]
        simp only [it]
        cases hs : (Bia.mk bits values extra).slot i with
        | none => rfl
        | some m =>
          simp only [Option.map_some, (hresf i m hs).1, TRes.childItem, Res.ok_bind])
      have hitnode : ∀ i, vis (it i).node? = op.outs (slotVisit ⟨bits, values, extra⟩ i) := by
        intro i
        simp only [it, slotVisit]
        cases hs : (Bia.mk bits values extra).slot i with
        | none => rfl
        | some m =>
          rw [← (hresf i m hs).2.entries]
          simp only [TRes.item]
          cases resf i <;> rfl
      have hget : ∀ i m m', (Bia.mk bits values extra).slot i = some m → (it i).node? = some m' →
          (resf i).get m = some m' := by
        intro i m m' hs h
        simp only [it, hs] at h
        cases hr : resf i <;> rw [hr] at h <;> exact h
      obtain ⟨o, hpack, hvis, hwf⟩ := Acc.pack_shape (d := d) hd G (by
        intro i m' hi hm'
        cases hs : (Bia.mk bits values extra).slot i with
        | none => simp [it, hs, Item.node?] at hm'
        | some m =>
          obtain ⟨_, g⟩ := hresf i m hs
          have hg := hget i m m' hs hm'
          exact ⟨g.wf _ hg, g.ne (ne i m hs) _ hg⟩)
      have hred : Mon reduce e → op.Neutral e →
          acc.red = total reduce e (op.reds (Node.C bits values extra).visit) := by
        intro mon hn
        rw [G.red mon, Node.visit, visit_slots ⟨bits, values, extra⟩ ok, MapTransform.reds, map_flatMap']
        apply total_slots mon
        intro i _
        simp only [it, slotVisit]
        cases hs : (Bia.mk bits values extra).slot i with
        | none => rfl
        | some m =>
          rw [← (hresf i m hs).2.red mon hn]
          cases resf i <;> rfl
      have houts : (List.range c.n).flatMap (fun i => vis (it i).node?) =
          op.outs (Node.C bits values extra).visit := by
        rw [Node.visit, visit_slots ⟨bits, values, extra⟩ ok, MapTransform.outs, filterMap_flatMap]
        exact flatMap_congr' _ _ _ (fun i _ => hitnode i)
      have heq : (Node.C bits values extra).transform reduce e op par =
          (if acc.ul then .ok (.unchanged acc.red) else do
            let o ← acc.pack
            .ok (TRes.ofOption o acc.red)) := by
        rw [hop] at hacc ⊢
        rw [Node.transform]
        simp only [hacc, Res.ok_bind]
      rw [heq]
      cases hul : acc.ul with
      | true =>
        refine ⟨.unchanged acc.red, by simp, ?_, ?_, ?_, hred⟩
        · rw [← houts]
          show (Node.C bits values extra).visit = _
          rw [Node.visit, visit_slots ⟨bits, values, extra⟩ ok]
          apply flatMap_congr'
          intro i hi
          have hall := G.ul
          rw [hul] at hall
          have hk := List.all_eq_true.1 hall.symm i hi
          simp only [it, slotVisit] at hk ⊢
          cases hs : (Bia.mk bits values extra).slot i with
          | none => rfl
          | some m =>
            simp only [hs] at hk ⊢
            cases hr : resf i <;> rw [hr] at hk <;> simp [TRes.item, Item.kl] at hk
            rfl
        · intro m' hm'; injection hm' with hm'; subst hm'; exact wfC
        · intro h m' hm'; injection hm' with hm'; subst hm'; exact h
      | false =>
        simp only [Bool.false_eq_true, if_false, hpack, Res.ok_bind]
        refine ⟨_, rfl, ?_, ?_, ?_, ?_⟩
        · rw [← houts, ← hvis]; cases o <;> rfl
        · intro m' hm'
          cases o with
          | none => simp [TRes.ofOption, TRes.get] at hm'
          | some m1 => injection hm' with hm'; subst hm'; exact (hwf _ rfl).1
        · intro _ m' hm'
          cases o with
          | none => simp [TRes.ofOption, TRes.get] at hm'
          | some m1 => injection hm' with hm'; subst hm'; exact (hwf _ rfl).2
        · intro mon hn
          rw [← hred mon hn]; cases o <;> rfl

end

section
variable (op : MapTransmute R (K → V → MapTransmuteResult S X R))

/-- What is guaranteed of the result of transmuting node `m` at depth `d`. -/
structure XrShape (d : Nat) (reduce : R → R → R) (e : R)
    (op : MapTransmute R (K → V → MapTransmuteResult S X R)) (m : Node c.n K V)
    (res : XRes (Node c.n S X) R) : Prop where
  entries : vis res.get = op.outs m.visit
  wf : ∀ m', res.get = some m' → m'.Shape d
  ne : m.visit ≠ [] → ∀ m', res.get = some m' → m'.visit ≠ []
  red : Mon reduce e → op.Neutral e → res.red = total reduce e (op.reds m.visit)

theorem XrShape.ofL {d : Nat} {reduce : R → R → R} {e : R}
    {m : LNext K V} {res : XRes (LNext S X) R}
    (h1 : lvis res.get = op.outs m.visit) (h2 : ∀ m', res.get = some m' → m'.SizeOk)
    (h3 : Mon reduce e → op.Neutral e → res.red = total reduce e (op.reds m.visit)) :
    XrShape d reduce e op (m.toNode : Node c.n K V) (res.map LNext.toNode) := by
  refine ⟨?_, ?_, ?_, ?_⟩
  · rw [lxres_get, vis_lvis, h1, LNext.toNode_visit]
  · intro m' hm'
    rw [lxres_get] at hm'
    cases hg : res.get with
    | none => rw [hg] at hm'; simp at hm'
    | some m1 =>
      rw [hg] at hm' h1
      simp only [Option.map_some, Option.some.injEq] at hm'
      subst hm'
      have h1 : m1.visit = op.outs m.visit := h1
      exact LNext.shape (h2 m1 hg) _
  · intro _ m' hm'
    rw [lxres_get] at hm'
    cases hg : res.get with
    | none => rw [hg] at hm'; simp at hm'
    | some m1 =>
      rw [hg] at hm'
      simp only [Option.map_some, Option.some.injEq] at hm'
      subst hm'
      rw [LNext.toNode_visit]; exact m1.visit_ne_nil
  · intro mon hn
    rw [XRes.map_red, h3 mon hn, LNext.toNode_visit]

theorem Node.transmute_shape {d : Nat}
    (reduce : R → R → R) (e : R) {m : Node c.n K V} (wf : m.Shape d) :
    ∃ res, m.transmute reduce e op = .ok res ∧ XrShape d reduce e op m res := by
  induction wf with
  | S d s =>
    obtain ⟨h1, h2, h3⟩ := SNode.transmute_spec op s
    refine ⟨_, rfl, ?_⟩
    have : (s.transmute op).map (Node.S (n := c.n)) =
        (((s.transmute op).map LNext.S).map LNext.toNode) := by
      cases s.transmute op <;> rfl
    rw [this]
    exact XrShape.ofL op (m := .S s) h1 h2 (fun mon _ => h3 mon)
  | L d l hl =>
    obtain ⟨h1, h2, h3⟩ := LNode.transmute_spec op reduce l
    refine ⟨_, rfl, ?_⟩
    exact XrShape.ofL op (m := .L l) h1 h2 h3
  | C d bits values extra hd ok sz ne sub ih =>
    cases hop : op with
    | removed r =>
      refine ⟨.removed r, rfl, ?_, ?_, ?_, ?_⟩
      · rw [MapTransmute.outs_removed]; rfl
      · intro m' hm'; simp [XRes.get] at hm'
      · intro _ m' hm'; simp [XRes.get] at hm'
      · intro mon hn; rw [MapTransmute.reds_neutral _ mon (by simp) hn]; exact hn
    | generic f =>
      rw [← hop]
      have hres : ∃ resf : Nat → XRes (Node c.n S X) R, ∀ i m, (Bia.mk bits values extra).slot i = some m →
          m.transmute reduce e op = .ok (resf i) ∧ XrShape (d + 1) reduce e op m (resf i) := by
        refine ⟨fun i => match (Bia.mk bits values extra).slot i with
          | none => .removed e
          | some m => match m.transmute reduce e op with
            | .ok r => r
            | _ => .removed e, ?_⟩
        intro i m hm
        obtain ⟨r, hr, g⟩ := ih i m hm
        simp only [hm, hr]
        exact ⟨trivial, g⟩
      obtain ⟨resf, hresf⟩ := hres
      let it : Nat → Item c.n S X R := fun i => match (Bia.mk bits values extra).slot i with
        | none => .skip
        | some m => (resf i).item
      have okA : (Bia.mk bits (Node.transmuteAll reduce e op values) extra).Ok := by
        rw [Node.transmuteAll_eq]; simpa [Bia.Ok] using ok
      obtain ⟨acc, hacc, G⟩ := Acc.gather_spec reduce e .sequential (fun index => do
        let child ← (Bia.mk bits (Node.transmuteAll reduce e op values) extra).atBitIndex index
        XRes.childItem child) it (by
        intro i hi
        simp only [Bia.atBitIndex_eq _ okA, Res.ok_bind]
        rw [Node.transmuteAll_eq, Bia.slot_map]
        simp only [it]
        cases hs : (Bia.mk bits values extra).slot i with
        | none => rfl
        | some m =>
          simp only [Option.map_some, (hresf i m hs).1, XRes.childItem, Res.ok_bind])
      have hitnode : ∀ i, vis (it i).node? = op.outs (slotVisit ⟨bits, values, extra⟩ i) := by
        intro i
        simp only [it, slotVisit]
        cases hs : (Bia.mk bits values extra).slot i with
        | none => rfl
        | some m =>
          rw [← (hresf i m hs).2.entries]
          simp only [XRes.item]
          cases resf i <;> rfl
      have hget : ∀ i m m', (Bia.mk bits values extra).slot i = some m → (it i).node? = some m' →
          (resf i).get = some m' := by
        intro i m m' hs h
        simp only [it, hs] at h
        cases hr : resf i <;> rw [hr] at h <;> exact h
      obtain ⟨o, hpack, hvis, hwf⟩ := Acc.pack_shape (d := d) hd G (by
        intro i m' hi hm'
        cases hs : (Bia.mk bits values extra).slot i with
        | none => simp [it, hs, Item.node?] at hm'
        | some m =>
          obtain ⟨_, g⟩ := hresf i m hs
          have hg := hget i m m' hs hm'
          exact ⟨g.wf _ hg, g.ne (ne i m hs) _ hg⟩)
      have hcount : ¬ (acc.values.length ≠ countOnes acc.bits) := by
        have := (Bia.of_filterMap _ acc.bits acc.values 0 G.bits G.values).1
        simp only [Bia.Ok] at this
        rw [this]; simp
      have hred : Mon reduce e → op.Neutral e →
          acc.red = total reduce e (op.reds (Node.C bits values extra).visit) := by
        intro mon hn
        rw [G.red mon, Node.visit, visit_slots ⟨bits, values, extra⟩ ok, MapTransmute.reds, map_flatMap']
        apply total_slots mon
        intro i _
        simp only [it, slotVisit]
        cases hs : (Bia.mk bits values extra).slot i with
        | none => rfl
        | some m =>
          rw [← (hresf i m hs).2.red mon hn]
          cases resf i <;> rfl
      have houts : (List.range c.n).flatMap (fun i => vis (it i).node?) =
          op.outs (Node.C bits values extra).visit := by
        rw [Node.visit, visit_slots ⟨bits, values, extra⟩ ok, MapTransmute.outs, filterMap_flatMap]
        exact flatMap_congr' _ _ _ (fun i _ => hitnode i)
      have heq : (Node.C bits values extra).transmute reduce e op = .ok (XRes.ofOption o acc.red) := by
        rw [hop] at hacc ⊢
        rw [Node.transmute]
        simp only [hacc, Res.ok_bind]
        rw [if_neg hcount, hpack]; rfl
      rw [heq]
      refine ⟨_, rfl, ?_, ?_, ?_, ?_⟩
      · rw [← houts, ← hvis]; cases o <;> rfl
      · intro m' hm'
        cases o with
        | none => simp [XRes.ofOption, XRes.get] at hm'
        | some m1 => injection hm' with hm'; subst hm'; exact (hwf _ rfl).1
      · intro _ m' hm'
        cases o with
        | none => simp [XRes.ofOption, XRes.get] at hm'
        | some m1 => injection hm' with hm'; subst hm'; exact (hwf _ rfl).2
      · intro mon hn
        rw [← hred mon hn]; cases o <;> rfl

end

/-! ### Tries -/

theorem Trie.new_shape : (Trie.new c : Trie c K V).root.Shape 0 :=
  .C 0 _ _ _ deep_zero (by simp [Bia.Ok, Bia.default, countOnes_zero]) rfl
    (by intro i m h; simp [Bia.slot, Bia.default] at h) (by intro i m h; simp [Bia.slot, Bia.default] at h)

theorem Trie.transform_shape {t : Trie c K V} (h : t.root.Shape 0) (reduce : R → R → R) (e : R)
    (op : MapTransform R (K → V → MapTransformResult V R)) (par : Par) :
    ∃ t' r, t.transform reduce e op par = .ok (t', r) ∧ t'.root.Shape 0 ∧ t'.visit = op.outs t.visit ∧
      (Mon reduce e → op.Neutral e → r = total reduce e (op.reds t.visit)) := by
  obtain ⟨res, hr, g⟩ := Node.transform_shape op reduce e par h
  simp only [Trie.transform, hr, Res.ok_bind]
  cases res with
  | unchanged r => exact ⟨_, _, rfl, h, g.entries, g.red⟩
  | node m r => exact ⟨_, _, rfl, g.wf m rfl, g.entries, g.red⟩
  | removed r => exact ⟨_, _, rfl, Trie.new_shape, g.entries, g.red⟩

theorem Trie.transmute_shape {t : Trie c K V} (h : t.root.Shape 0) (reduce : R → R → R) (e : R)
    (op : MapTransmute R (K → V → MapTransmuteResult S X R)) :
    ∃ t' r, t.transmute reduce e op = .ok (t', r) ∧ t'.root.Shape 0 ∧ t'.visit = op.outs t.visit ∧
      (Mon reduce e → op.Neutral e → r = total reduce e (op.reds t.visit)) := by
  obtain ⟨res, hr, g⟩ := Node.transmute_shape op reduce e h
  simp only [Trie.transmute, hr, Res.ok_bind]
  cases res with
  | node m r => exact ⟨_, _, rfl, g.wf m rfl, g.entries, g.red⟩
  | removed r => exact ⟨_, _, rfl, Trie.new_shape, g.entries, g.red⟩

theorem Trie.findK_ask (t : Trie c K V) :
    t.findK = .ask .lookupHash fun (h : BitVec c.w) => t.root.findK c (some (flagDeep h 0)) := by
  refine congrArg (Tree.ask (A := KAns K V c.w) KCall.lookupHash) (funext fun (h : BitVec c.w) => ?_)
  show ((Tree.res (Flag.new h)).bind _) = _
  rw [Flag.new_deep]; rfl

/-- What `remove` makes of the result of the root. -/
def Trie.ofRemove : RemoveResult c.n K V → KTree c K V (Option (Trie c K V × (K × V)))
  | .notFound => .ret none
  | .removed m k v => .ret (some (⟨m⟩, (k, v)))
  | .removedZ k v => .ret (some (Trie.new c, (k, v)))

theorem Trie.removeK_ask (t : Trie c K V) :
    t.removeK = .ask .lookupHash fun (h : BitVec c.w) =>
      (t.root.removeK c (some (flagDeep h 0))).bind Trie.ofRemove := by
  refine congrArg (Tree.ask (A := KAns K V c.w) KCall.lookupHash) (funext fun (h : BitVec c.w) => ?_)
  show ((Tree.res (Flag.new h)).bind _) = _
  rw [Flag.new_deep, Tree.res_ok, Tree.ret_bind]
  refine congrArg (Tree.bind _) (funext fun r => ?_)
  cases r <;> rfl

/-- What `insert` makes of the result of the root. -/
def Trie.ofInsert : InsertResult c.n K V → KTree c K V (Except (K × V) (Trie c K V × (K × V) × Option (K × V)))
  | .found k v => .ret (.error (k, v))
  | .inserted m ptr prev => .ret (.ok (⟨m⟩, ptr, prev))

theorem Trie.insertK_ask (t : Trie c K V) (k : K) (v : V) (replace : Bool) :
    t.insertK k v replace = .ask .lookupHash fun (h : BitVec c.w) =>
      (t.root.insertK c k v replace (some (flagDeep h 0))).bind Trie.ofInsert := by
  refine congrArg (Tree.ask (A := KAns K V c.w) KCall.lookupHash) (funext fun (h : BitVec c.w) => ?_)
  show ((Tree.res (Flag.new h)).bind _) = _
  rw [Flag.new_deep, Tree.res_ok, Tree.ret_bind]
  refine congrArg (Tree.bind _) (funext fun r => ?_)
  cases r <;> rfl

end HT
