import Verif.TransformLemmas
/-! # transmute acts per entry -/
namespace HT

variable {K V S X R : Type}
variable (op : MapTransmute R (K → V → MapTransmuteResult S X R))

/-- What a transmute leaves of a list of entries. -/
abbrev MapTransmute.outs (l : List (K × V)) : List (S × X) :=
  l.filterMap fun x => (op.call x.1 x.2).entry

/-- What a transmute contributes for a list of entries. -/
abbrev MapTransmute.reds (l : List (K × V)) : List R := l.map fun x => (op.call x.1 x.2).red

theorem MapTransmute.outs_removed (r : R) (l : List (K × V)) :
    (MapTransmute.removed r : MapTransmute R (K → V → MapTransmuteResult S X R)).outs l = [] := by
  induction l with
  | nil => rfl
  | cons a l ih => simp [MapTransmute.outs, MapTransmute.call, MapTransmuteResult.entry]

theorem MapTransmute.reds_neutral {reduce : R → R → R} {e : R} (mon : Mon reduce e)
    (hop : ∀ f, op ≠ .generic f) (hn : op.Neutral e) (l : List (K × V)) :
    total reduce e (op.reds l) = e := by
  apply mon.total_neutral
  intro r hr
  obtain ⟨x, _, hx⟩ := List.mem_map.1 hr
  cases op with
  | generic f => exact absurd rfl (hop f)
  | removed r' => rw [← hx]; exact hn

theorem SNode.transmute_spec (s : SNode K V) :
    lvis ((s.transmute op).map LNext.S).get = op.outs s.visit ∧
      (∀ m, ((s.transmute op).map LNext.S).get = some m → m.SizeOk) ∧
      ∀ {reduce : R → R → R} {e : R}, Mon reduce e →
        ((s.transmute op).map LNext.S).red = total reduce e (op.reds s.visit) := by
  simp only [SNode.transmute, MapTransmute.outs, MapTransmute.reds, SNode.visit, List.filterMap_cons,
    List.filterMap_nil, List.map_cons, List.map_nil]
  cases op.call s.key s.value <;>
    refine ⟨rfl, ?_, fun mon => (mon.total_single _).symm⟩ <;>
    intro m hm <;> simp [XRes.map, XRes.get] at hm <;> subst hm <;> trivial

theorem LNode.transmuteResult_spec {reduce : R → R → R} {e : R} (this : LNode K V)
    (next : XRes (LNext S X) R)
    (h1 : lvis next.get = op.outs this.next.visit)
    (h2 : ∀ m, next.get = some m → m.SizeOk) :
    let res := LNode.transmuteResult reduce (op.call this.key this.value) next
    lvis res.get = op.outs this.visit ∧
      (∀ m, res.get = some m → m.SizeOk) ∧
      (Mon reduce e → next.red = total reduce e (op.reds this.next.visit) →
        res.red = total reduce e (op.reds this.visit)) := by
  intro res
  have hv : this.visit = _ := this.visit_eq
  have hred : Mon reduce e → next.red = total reduce e (op.reds this.next.visit) →
      total reduce e (op.reds this.visit) = reduce (op.call this.key this.value).red next.red := by
    intro mon hn
    rw [hv, MapTransmute.reds, List.map_cons, mon.total_cons, hn]
  refine ⟨?_, ?_, fun mon hn => ?_⟩
  · have ho : op.outs this.visit =
        ((op.call this.key this.value).entry).toList ++ lvis next.get := by
      rw [h1, hv]
      simp only [MapTransmute.outs, List.filterMap_cons]
      cases (op.call this.key this.value).entry <;> rfl
    rw [ho]
    simp only [res]
    cases op.call this.key this.value <;> cases next <;>
      first
        | exact LNode.new_visit ..
        | rfl
  · intro m hm
    simp only [res] at hm
    cases hc : op.call this.key this.value <;> rw [hc] at hm <;> cases next <;>
      simp only [LNode.transmuteResult, XRes.get, Option.some.injEq, reduceCtorEq] at hm <;>
      simp only [XRes.get, Option.some.injEq, forall_eq', reduceCtorEq, false_implies, implies_true] at h2 <;>
      subst hm <;>
      first
        | exact h2
        | exact LNode.new_sizeOk h2
        | trivial
  · rw [hred mon hn]
    simp only [res]
    cases op.call this.key this.value <;> cases next <;> rfl

theorem LNode.transmute_spec (reduce : R → R → R) (l : LNode K V) :
    lvis (l.transmute reduce op).get = op.outs l.visit ∧
      (∀ m, (l.transmute reduce op).get = some m → m.SizeOk) ∧
      ∀ {e : R}, Mon reduce e → op.Neutral e →
        (l.transmute reduce op).red = total reduce e (op.reds l.visit) := by
  cases hop : op with
  | removed r =>
    refine ⟨?_, ?_, ?_⟩
    · rw [MapTransmute.outs_removed]; cases l <;> rfl
    · intro m hm; cases l <;> simp [LNode.transmute, XRes.get] at hm
    · intro e mon hn
      rw [MapTransmute.reds_neutral _ mon (by simp) hn]; cases l <;> exact hn
  | generic f =>
    rw [← hop]
    induction l with
    | nextS k v s z =>
      obtain ⟨s1, s2, s3⟩ := SNode.transmute_spec op s
      have := fun e => LNode.transmuteResult_spec op (reduce := reduce) (e := e) (.nextS k v s z)
        ((s.transmute op).map .S) s1 s2
      have heq : (LNode.nextS k v s z).transmute reduce op =
        LNode.transmuteResult reduce (op.call k v) ((s.transmute op).map .S) := by
        rw [hop]; rfl
      rw [heq]
      exact ⟨(this (op.call k v).red).1, (this (op.call k v).red).2.1,
        fun mon _ => (this _).2.2 mon (s3 mon)⟩
    | nextL k v l z ih =>
      obtain ⟨s1, s2, s3⟩ := ih
      have := fun e => LNode.transmuteResult_spec op (reduce := reduce) (e := e) (.nextL k v l z)
        (l.transmute reduce op) s1 s2
      have heq : (LNode.nextL k v l z).transmute reduce op =
        LNode.transmuteResult reduce (op.call k v) (l.transmute reduce op) := by
        rw [hop]; rfl
      rw [heq]
      exact ⟨(this (op.call k v).red).1, (this (op.call k v).red).2.1,
        fun mon hn => (this _).2.2 mon (s3 mon hn)⟩

section
variable [BEq K] [BEq S] {c : Cfg} {hash : K → BitVec c.w} {hash' : S → BitVec c.w}

theorem MapTransmute.mem_outs (km : KeyMap hash hash' op.call) {x : S × X} {l : List (K × V)}
    (h : x ∈ op.outs l) : ∃ y ∈ l, hash' x.1 = hash y.1 := by
  obtain ⟨y, hy, hyx⟩ := List.mem_filterMap.1 h
  refine ⟨y, hy, ?_⟩
  cases hc : op.call y.1 y.2 with
  | transmuted k v r =>
    rw [hc] at hyx; simp only [MapTransmuteResult.entry, Option.some.injEq] at hyx
    subst hyx
    exact km.hash _ _ _ _ _ hc
  | removed r => rw [hc] at hyx; simp [MapTransmuteResult.entry] at hyx

theorem MapTransmute.distinct_outs (km : KeyMap hash hash' op.call) {l : List (K × V)}
    (h : DistinctKeys l) : DistinctKeys (op.outs l) := by
  unfold DistinctKeys at h ⊢
  rw [List.pairwise_filterMap]
  refine h.imp ?_
  intro a b hab x hx y hy
  cases ha : op.call a.1 a.2 with
  | removed r => rw [ha] at hx; simp [MapTransmuteResult.entry] at hx
  | transmuted k v r =>
    cases hb : op.call b.1 b.2 with
    | removed r => rw [hb] at hy; simp [MapTransmuteResult.entry] at hy
    | transmuted k' v' r' =>
      rw [ha] at hx; rw [hb] at hy
      simp only [MapTransmuteResult.entry, Option.some.injEq] at hx hy
      subst hx hy
      cases hkk : (k == k') with
      | false => rfl
      | true => rw [km.inj _ _ _ _ _ _ _ _ _ _ ha hb hkk] at hab; simp at hab

/-- What is guaranteed of the result of transmuting node `m` at depth `d`. -/
structure XrGood (hash' : S → BitVec c.w) (mx d : Nat) (reduce : R → R → R) (e : R)
    (op : MapTransmute R (K → V → MapTransmuteResult S X R)) (m : Node c.n K V)
    (res : XRes (Node c.n S X) R) : Prop where
  entries : vis res.get = op.outs m.visit
  wf : ∀ m', res.get = some m' → m'.WF hash' mx d
  ne : m.visit ≠ [] → ∀ m', res.get = some m' → m'.visit ≠ []
  red : Mon reduce e → op.Neutral e → res.red = total reduce e (op.reds m.visit)

omit [BEq K] [BEq S] in
theorem Node.transmuteAll_eq {n : Nat} (reduce : R → R → R) (e : R) (ms : List (Node n K V)) :
    Node.transmuteAll reduce e op ms = ms.map fun m => m.transmute reduce e op := by
  induction ms with
  | nil => rfl
  | cons m ms ih => rw [Node.transmuteAll, ih]; rfl

omit [BEq S] in
theorem lxres_get {n : Nat} (res : XRes (LNext S X) R) :
    ((res.map LNext.toNode).get : Option (Node n S X)) = res.get.map LNext.toNode := by
  cases res <;> rfl

theorem XRes.map_red {N N' : Type} (f : N → N') (res : XRes N R) : (res.map f).red = res.red := by
  cases res <;> rfl

theorem XrGood.ofL (km : KeyMap hash hash' op.call) {mx d : Nat} {reduce : R → R → R} {e : R}
    {m : LNext K V} {res : XRes (LNext S X) R} (hv : BitVec c.w)
    (hh : ∀ x ∈ m.visit, hash x.1 = hv) (hk : DistinctKeys m.visit)
    (h1 : lvis res.get = op.outs m.visit) (h2 : ∀ m', res.get = some m' → m'.SizeOk)
    (h3 : Mon reduce e → op.Neutral e → res.red = total reduce e (op.reds m.visit)) :
    XrGood hash' mx d reduce e op (m.toNode : Node c.n K V) (res.map LNext.toNode) := by
  refine ⟨?_, ?_, ?_, ?_⟩
  · rw [lxres_get, vis_lvis, h1, LNext.toNode_visit]
  · intro m' hm'
    rw [lxres_get] at hm'
    cases hg : res.get with
    | none => rw [hg] at hm'; simp at hm'
    | some m1 =>
      rw [hg] at hm' h1
      simp only [Option.map_some, Option.some.injEq] at hm'
      subst hm'
      have h1 : m1.visit = op.outs m.visit := h1
      refine LNext.wf (h2 m1 hg) hv ?_ ?_
      · intro x hx
        rw [h1] at hx
        obtain ⟨y, hy, hyx⟩ := op.mem_outs km hx
        rw [hyx]; exact hh y hy
      · rw [h1]; exact op.distinct_outs km hk
  · intro _ m' hm'
    rw [lxres_get] at hm'
    cases hg : res.get with
    | none => rw [hg] at hm'; simp at hm'
    | some m1 =>
      rw [hg] at hm'
      simp only [Option.map_some, Option.some.injEq] at hm'
      subst hm'
      rw [LNext.toNode_visit]; exact m1.visit_ne_nil
  · intro mon hn
    rw [XRes.map_red, h3 mon hn, LNext.toNode_visit]

theorem Node.transmute_spec (km : KeyMap hash hash' op.call) {mx d : Nat}
    (reduce : R → R → R) (e : R) {m : Node c.n K V} (wf : m.WF hash mx d) :
    ∃ res, m.transmute reduce e op = .ok res ∧ XrGood hash' mx d reduce e op m res := by
  induction wf with
  | S d s =>
    obtain ⟨h1, h2, h3⟩ := SNode.transmute_spec op s
    refine ⟨_, rfl, ?_⟩
    have : (s.transmute op).map (Node.S (n := c.n)) =
        (((s.transmute op).map LNext.S).map LNext.toNode) := by
      cases s.transmute op <;> rfl
    rw [this]
    exact XrGood.ofL op km (m := .S s) (hash s.key) (by simp [LNext.visit, SNode.visit])
      (by simp [LNext.visit, SNode.visit, DistinctKeys]) h1 h2 (fun mon _ => h3 mon)
  | L d l hl =>
    obtain ⟨h1, h2, h3⟩ := LNode.transmute_spec op reduce l
    refine ⟨_, rfl, ?_⟩
    exact XrGood.ofL op km (m := .L l) (hash l.key) hl.hash hl.keys h1 h2 h3
  | C d bits values extra hd ok sz ne at_ sub ih =>
    cases hop : op with
    | removed r =>
      refine ⟨.removed r, rfl, ?_, ?_, ?_, ?_⟩
      · rw [MapTransmute.outs_removed]; rfl
      · intro m' hm'; simp [XRes.get] at hm'
      · intro _ m' hm'; simp [XRes.get] at hm'
      · intro mon hn; rw [MapTransmute.reds_neutral _ mon (by simp) hn]; exact hn
    | generic f =>
      rw [← hop]
      have hres : ∃ resf : Nat → XRes (Node c.n S X) R, ∀ i m, (Bia.mk bits values extra).slot i = some m →
          m.transmute reduce e op = .ok (resf i) ∧ XrGood hash' mx (d + 1) reduce e op m (resf i) := by
        refine ⟨fun i => match (Bia.mk bits values extra).slot i with
          | none => .removed e
          | some m => match m.transmute reduce e op with
            | .ok r => r
            | _ => .removed e, ?_⟩
        intro i m hm
        obtain ⟨r, hr, g⟩ := ih i m hm
        simp only [hm, hr]
        exact ⟨trivial, g⟩
      obtain ⟨resf, hresf⟩ := hres
      let it : Nat → Item c.n S X R := fun i => match (Bia.mk bits values extra).slot i with
        | none => .skip
        | some m => (resf i).item
      have okA : (Bia.mk bits (Node.transmuteAll reduce e op values) extra).Ok := by
        rw [Node.transmuteAll_eq]; simpa [Bia.Ok] using ok
      obtain ⟨acc, hacc, G⟩ := Acc.gather_spec reduce e .sequential (fun index => do
        let child ← (Bia.mk bits (Node.transmuteAll reduce e op values) extra).atBitIndex index
        XRes.childItem child) it (by
        intro i hi
        simp only [Bia.atBitIndex_eq _ okA, Res.ok_bind]
        rw [Node.transmuteAll_eq, Bia.slot_map]
        simp only [it]
        cases hs : (Bia.mk bits values extra).slot i with
        | none => rfl
        | some m =>
          simp only [Option.map_some, (hresf i m hs).1, XRes.childItem, Res.ok_bind])
      have hitnode : ∀ i, vis (it i).node? = op.outs (slotVisit ⟨bits, values, extra⟩ i) := by
        intro i
        simp only [it, slotVisit]
        cases hs : (Bia.mk bits values extra).slot i with
        | none => rfl
        | some m =>
          rw [← (hresf i m hs).2.entries]
          simp only [XRes.item]
          cases resf i <;> rfl
      have hget : ∀ i m m', (Bia.mk bits values extra).slot i = some m → (it i).node? = some m' →
          (resf i).get = some m' := by
        intro i m m' hs h
        simp only [it, hs] at h
        cases hr : resf i <;> rw [hr] at h <;> exact h
      obtain ⟨o, hpack, hvis, hwf⟩ := Acc.pack_spec (hash := hash') (mx := mx) (d := d) hd G (by
        intro i m' hi hm'
        cases hs : (Bia.mk bits values extra).slot i with
        | none => simp [it, hs, Item.node?] at hm'
        | some m =>
          obtain ⟨_, g⟩ := hresf i m hs
          have hg := hget i m m' hs hm'
          refine ⟨g.wf _ hg, g.ne (ne i m hs) _ hg, ?_⟩
          intro x hx
          have : x ∈ vis (resf i).get := by rw [hg]; exact hx
          rw [g.entries] at this
          obtain ⟨y, hy, hyx⟩ := op.mem_outs km this
          rw [hyx]; exact at_ i m hs y hy)
      have hcount : ¬ (acc.values.length ≠ countOnes acc.bits) := by
        have := (Bia.of_filterMap _ acc.bits acc.values 0 G.bits G.values).1
        simp only [Bia.Ok] at this
        rw [this]; simp
      have hred : Mon reduce e → op.Neutral e →
          acc.red = total reduce e (op.reds (Node.C bits values extra).visit) := by
        intro mon hn
        rw [G.red mon, Node.visit, visit_slots ⟨bits, values, extra⟩ ok, MapTransmute.reds, map_flatMap']
        apply total_slots mon
        intro i _
        simp only [it, slotVisit]
        cases hs : (Bia.mk bits values extra).slot i with
        | none => rfl
        | some m =>
          rw [← (hresf i m hs).2.red mon hn]
          cases resf i <;> rfl
      have houts : (List.range c.n).flatMap (fun i => vis (it i).node?) =
          op.outs (Node.C bits values extra).visit := by
        rw [Node.visit, visit_slots ⟨bits, values, extra⟩ ok, MapTransmute.outs, filterMap_flatMap]
        exact flatMap_congr' _ _ _ (fun i _ => hitnode i)
      have heq : (Node.C bits values extra).transmute reduce e op = .ok (XRes.ofOption o acc.red) := by
        rw [hop] at hacc ⊢
        rw [Node.transmute]
        simp only [hacc, Res.ok_bind]
        rw [if_neg hcount, hpack]; rfl
      rw [heq]
      refine ⟨_, rfl, ?_, ?_, ?_, ?_⟩
      · rw [← houts, ← hvis]; cases o <;> rfl
      · intro m' hm'
        cases o with
        | none => simp [XRes.ofOption, XRes.get] at hm'
        | some m1 => injection hm' with hm'; subst hm'; exact (hwf _ rfl).1
      · intro _ m' hm'
        cases o with
        | none => simp [XRes.ofOption, XRes.get] at hm'
        | some m1 => injection hm' with hm'; subst hm'; exact (hwf _ rfl).2
      · intro mon hn
        rw [← hred mon hn]; cases o <;> rfl

end
end HT
