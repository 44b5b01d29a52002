import Verif.JointPair
/-! # Joint operations of a branch node with a list or single node, and of two branch nodes -/
namespace HT

variable {K V L W S X R : Type} [BEq K] [BEq L] [BEq S] {c : Cfg}
variable {x : Cross c K L}

omit [BEq K] in
theorem slotVisit_some {a : Bia c.n (Node c.n K V)} {i : Nat} {m : Node c.n K V} (h : a.slot i = some m) :
    slotVisit a i = m.visit := by
  simp [slotVisit, h]

omit [BEq K] in
theorem slotVisit_none {a : Bia c.n (Node c.n K V)} {i : Nat} (h : a.slot i = none) :
    slotVisit a i = [] := by
  simp [slotVisit, h]

omit [BEq K] in
/-- The entries of a slot are among the entries of the node. -/
theorem slotVisit_sublist {bits : BitVec c.n} {values : List (Node c.n K V)} {extra : Nat}
    {i : Nat} {m : Node c.n K V}
    (h : (Bia.mk bits values extra).slot i = some m) :
    m.visit.Sublist (Node.C bits values extra).visit := by
  have hm := Bia.slot_mem h
  rw [Node.visit, Node.visitAll_eq]
  obtain ⟨l, r, hlr⟩ := List.append_of_mem hm
  simp only at hlr
  rw [hlr, List.flatMap_append, List.flatMap_cons]
  exact (List.sublist_append_left _ _).trans (List.sublist_append_right _ _)

/-! ### The loops -/

section
variable {s : Sem (K × V) (L × W) (S × X) R} {hashS : S → BitVec c.w}

/-- What a loop's outcome amounts to. -/
structure Looped (x : Cross c K L) (s : Sem (K × V) (L × W) (S × X) R) (hashS : S → BitVec c.w) (d : Nat)
    (as : List (K × V)) (bs : List (L × W)) (acc : Acc c.n S X R) (Q : Nat → List (Case (K × V) (L × W)) → Item c.n S X R → Prop) : Prop where
  intro ::
  ex : ∃ (it : Nat → Item c.n S X R) (csi : Nat → List (Case (K × V) (L × W))),
    Acc.Gathered s.reduce s.e it acc ∧
    (∀ i, i < c.n → ItemGood s hashS d (csi i) (it i)) ∧
    (∀ i, i < c.n → ∀ p ∈ csi i, Matched x p ∧ chunk c (x.caseHash p) d = i) ∧
    ((List.range c.n).flatMap csi).Perm (x.cases as bs) ∧ ∀ i, i < c.n → Q i (csi i) (it i)

theorem flat_looped (laws : CrossLaws x) {bits : BitVec c.n} {values : List (Node c.n K V)} {extra d : Nat}
    (wf : (Node.C bits values extra).WF x.hash c.levels d) {bs : List (L × W)} (hb : DistinctKeys bs)
    {hv : BitVec c.w} (h2 : ∀ b ∈ bs, x.hash' b.1 = hv) {ρ : Type}
    (f elsewhere : Node c.n K V → Res ρ) (alone : ρ)
    (item : Option (Node c.n K V) → ρ → Res (Item c.n S X R)) (Q : Nat → List (Case (K × V) (L × W)) → Item c.n S X R → Prop)
    (hf : ∀ m, (Bia.mk bits values extra).slot (chunk c hv d) = some m →
      ∃ res it, f m = .ok res ∧ item (some m) res = .ok it ∧
        ItemGood s hashS d (x.cases m.visit bs) it ∧ Q (chunk c hv d) (x.cases m.visit bs) it)
    (hl : ∀ i m, i ≠ chunk c hv d → (Bia.mk bits values extra).slot i = some m →
      ∃ res it, elsewhere m = .ok res ∧ item (some m) res = .ok it ∧
        ItemGood s hashS d (m.visit.map Case.left) it ∧ Q i (m.visit.map Case.left) it)
    (hr : (Bia.mk bits values extra).slot (chunk c hv d) = none →
      ∃ it, item none alone = .ok it ∧ ItemGood s hashS d (bs.map Case.right) it ∧
        Q (chunk c hv d) (bs.map Case.right) it)
    (hn : ∀ i, i ≠ chunk c hv d → (Bia.mk bits values extra).slot i = none → Q i [] .skip) :
    ∃ acc, flatLoop s.reduce s.e hv d ⟨bits, values.map fun m => (m, f m), extra⟩ elsewhere alone item = .ok acc ∧
      Looped x s hashS d (Node.C bits values extra).visit bs acc Q := by
  have hda := Node.WF.distinct laws.left.hash wf
  cases wf with
  | C _ _ _ _ hd ok sz ne at_ sub =>
    let csi : Nat → List (Case (K × V) (L × W)) := fun i =>
      x.cases (slotVisit ⟨bits, values, extra⟩ i) (flatSlot c hv d bs i)
    have hsv : (Node.C bits values extra).visit = (List.range c.n).flatMap (slotVisit ⟨bits, values, extra⟩) := by
      rw [Node.visit]; exact visit_slots ⟨bits, values, extra⟩ ok
    have hfl := flatSlot_flatMap c hv d bs
    have ha : DistinctKeys ((List.range c.n).flatMap (slotVisit ⟨bits, values, extra⟩)) := by
      rw [← hsv]; exact hda
    have hb' : DistinctKeys ((List.range c.n).flatMap (flatSlot c hv d bs)) := by rw [hfl]; exact hb
    have c1 := slotVisit_chunk (a := ⟨bits, values, extra⟩) at_
    have c2 : ∀ i, ∀ b ∈ flatSlot c hv d bs i, chunk c (x.hash' b.1) d = i := by
      intro i b hbb
      simp only [flatSlot] at hbb
      split at hbb
      · next h => rw [h2 b hbb, h]
      · simp at hbb
    obtain ⟨it, acc, e1, e2, e3⟩ := flatLoop_spec s.reduce s.e hv (c.levels_within d hd) bits values extra ok f
      elsewhere alone item (fun i it => ItemGood s hashS d (csi i) it ∧ Q i (csi i) it)
      (by
        intro m hm
        obtain ⟨res, it, q1, q2, q3, q4⟩ := hf m hm
        refine ⟨res, it, q1, q2, ?_⟩
        simp only [csi, slotVisit_some hm, flatSlot, if_true]; exact ⟨q3, q4⟩)
      (by
        intro i m hi hm
        obtain ⟨res, it, q1, q2, q3, q4⟩ := hl i m hi hm
        refine ⟨res, it, q1, q2, ?_⟩
        simp only [csi, slotVisit_some hm, flatSlot, hi, if_false, Cross.cases, jointCases_nil_right]; exact ⟨q3, q4⟩)
      (by
        intro hm
        obtain ⟨it, q2, q3, q4⟩ := hr hm
        refine ⟨it, q2, ?_⟩
        simp only [csi, slotVisit_none hm, flatSlot, if_true, Cross.cases, jointCases_nil_left]; exact ⟨q3, q4⟩)
      (by
        intro i hi hm
        simp only [csi, slotVisit_none hm, flatSlot, hi, if_false, Cross.cases, jointCases_nil_left, List.map_nil]
        exact ⟨ItemGood.skip, hn i hi hm⟩)
    refine ⟨acc, e1, ⟨it, csi, e2, fun i hi => (e3 i hi).1, slot_chunk laws ha hb' c1 c2, ?_,
      fun i hi => (e3 i hi).2⟩⟩
    have := slots_perm laws ha hb' c1 c2
    rw [hsv]
    rwa [hfl] at this

theorem both_looped (laws : CrossLaws x) {bits : BitVec c.n} {values : List (Node c.n K V)} {extra d : Nat}
    (wf : (Node.C bits values extra).WF x.hash c.levels d)
    {rbits : BitVec c.n} {rvalues : List (Node c.n L W)} {rextra : Nat}
    (wr : (Node.C rbits rvalues rextra).WF x.hash' c.levels d) {ρ : Type} (par : Par)
    (f : Node c.n K V → Node c.n L W → Res ρ) (onlyL : Node c.n K V → Res ρ) (onlyR : Node c.n L W → Res ρ)
    (item : Option (Node c.n K V) → Option (Node c.n L W) → ρ → Res (Item c.n S X R))
    (Q : Nat → List (Case (K × V) (L × W)) → Item c.n S X R → Prop)
    (hf : ∀ i m r, (Bia.mk bits values extra).slot i = some m → (Bia.mk rbits rvalues rextra).slot i = some r →
      ∃ res it, f m r = .ok res ∧ item (some m) (some r) res = .ok it ∧
        ItemGood s hashS d (x.cases m.visit r.visit) it ∧ Q i (x.cases m.visit r.visit) it)
    (hl : ∀ i m, (Bia.mk bits values extra).slot i = some m → (Bia.mk rbits rvalues rextra).slot i = none →
      ∃ res it, onlyL m = .ok res ∧ item (some m) none res = .ok it ∧
        ItemGood s hashS d (m.visit.map Case.left) it ∧ Q i (m.visit.map Case.left) it)
    (hr : ∀ i r, (Bia.mk bits values extra).slot i = none → (Bia.mk rbits rvalues rextra).slot i = some r →
      ∃ res it, onlyR r = .ok res ∧ item none (some r) res = .ok it ∧
        ItemGood s hashS d (r.visit.map Case.right) it ∧ Q i (r.visit.map Case.right) it)
    (hn : ∀ i, (Bia.mk bits values extra).slot i = none → (Bia.mk rbits rvalues rextra).slot i = none →
      Q i [] .skip) :
    ∃ acc, bothLoop s.reduce s.e par ⟨bits, values.map fun m => (m, f m), extra⟩ ⟨rbits, rvalues, rextra⟩
        onlyL onlyR item = .ok acc ∧
      Looped x s hashS d (Node.C bits values extra).visit (Node.C rbits rvalues rextra).visit acc Q := by
  have hda := Node.WF.distinct laws.left.hash wf
  have hdb := Node.WF.distinct laws.right.hash wr
  cases wf with
  | C _ _ _ _ hd ok sz ne at_ sub =>
    cases wr with
    | C _ _ _ _ hd' okr szr ner atr subr =>
      let csi : Nat → List (Case (K × V) (L × W)) := fun i =>
        x.cases (slotVisit ⟨bits, values, extra⟩ i) (slotVisit ⟨rbits, rvalues, rextra⟩ i)
      have hsv : (Node.C bits values extra).visit = (List.range c.n).flatMap (slotVisit ⟨bits, values, extra⟩) := by
        rw [Node.visit]; exact visit_slots ⟨bits, values, extra⟩ ok
      have hsr : (Node.C rbits rvalues rextra).visit =
          (List.range c.n).flatMap (slotVisit ⟨rbits, rvalues, rextra⟩) := by
        rw [Node.visit]; exact visit_slots ⟨rbits, rvalues, rextra⟩ okr
      have ha : DistinctKeys ((List.range c.n).flatMap (slotVisit ⟨bits, values, extra⟩)) := by
        rw [← hsv]; exact hda
      have hb : DistinctKeys ((List.range c.n).flatMap (slotVisit ⟨rbits, rvalues, rextra⟩)) := by
        rw [← hsr]; exact hdb
      have c1 := slotVisit_chunk (a := ⟨bits, values, extra⟩) at_
      have c2 := slotVisit_chunk (a := ⟨rbits, rvalues, rextra⟩) atr
      obtain ⟨it, acc, e1, e2, e3⟩ := bothLoop_spec s.reduce s.e par bits values extra ok f
        ⟨rbits, rvalues, rextra⟩ okr onlyL onlyR item (fun i it => ItemGood s hashS d (csi i) it ∧ Q i (csi i) it)
        (by
          intro i m r hm hr
          obtain ⟨res, it, q1, q2, q3, q4⟩ := hf i m r hm hr
          refine ⟨res, it, q1, q2, ?_⟩
          simp only [csi, slotVisit_some hm, slotVisit_some hr]; exact ⟨q3, q4⟩)
        (by
          intro i m hm hr
          obtain ⟨res, it, q1, q2, q3, q4⟩ := hl i m hm hr
          refine ⟨res, it, q1, q2, ?_⟩
          simp only [csi, slotVisit_some hm, slotVisit_none hr, Cross.cases, jointCases_nil_right]; exact ⟨q3, q4⟩)
        (by
          intro i r hm hr'
          obtain ⟨res, it, q1, q2, q3, q4⟩ := hr i r hm hr'
          refine ⟨res, it, q1, q2, ?_⟩
          simp only [csi, slotVisit_none hm, slotVisit_some hr', Cross.cases, jointCases_nil_left]; exact ⟨q3, q4⟩)
        (by
          intro i hm hr
          simp only [csi, slotVisit_none hm, slotVisit_none hr, Cross.cases, jointCases_nil_left, List.map_nil]
          exact ⟨ItemGood.skip, hn i hm hr⟩)
      refine ⟨acc, e1, ⟨it, csi, e2, fun i hi => (e3 i hi).1, slot_chunk laws ha hb c1 c2, ?_,
        fun i hi => (e3 i hi).2⟩⟩
      rw [hsv, hsr]
      exact slots_perm laws ha hb c1 c2

theorem Looped.finishT (k : Keyed x s hashS) {d : Nat} (hd : d < c.levels) {as : List (K × V)}
    {bs : List (L × W)} {acc : Acc c.n S X R} {m0 : Node c.n S X} (wf : m0.WF hashS c.levels d)
    {sl : Nat → List (S × X)} (hsl : (List.range c.n).flatMap sl = m0.visit)
    (h : Looped x s hashS d as bs acc fun i _ it => it.kl = true → vis it.node? = sl i) :
    ∃ res, TRes.finish acc = .ok res ∧
      Good s hashS d (m0.visit ≠ []) (x.cases as bs) (res.get m0) res.red := by
  obtain ⟨it, csi, G, h1, hc, hp, hq⟩ := h.ex
  obtain ⟨res, e1, g⟩ := TRes.finish_spec k hd G h1 hc wf hsl hq
  exact ⟨res, e1, g.perm hp⟩

theorem Looped.finishX (k : Keyed x s hashS) {d : Nat} (hd : d < c.levels) {as : List (K × V)}
    {bs : List (L × W)} {acc : Acc c.n S X R} {Q : Nat → List (Case (K × V) (L × W)) → Item c.n S X R → Prop}
    (h : Looped x s hashS d as bs acc Q) :
    ∃ res, XRes.finish acc = .ok res ∧ Good s hashS d True (x.cases as bs) res.get res.red := by
  obtain ⟨it, csi, G, h1, hc, hp, hq⟩ := h.ex
  obtain ⟨res, e1, g⟩ := XRes.finish_spec k hd G h1 hc
  exact ⟨res, e1, g.perm hp⟩

end

/-! ### transform_with_transmuted against a list or single node -/

theorem NoStall.mono {as as' : List (K × V)} {bs bs' : List (L × W)} (h : NoStall x as bs)
    (ha : as'.Sublist as) (hb : bs'.Sublist bs) : NoStall x as' bs' := by
  intro v hv
  exact Nat.le_trans hb.countP_le (h v (Nat.le_trans hv ha.countP_le))

omit [BEq K] [BEq L] in
theorem NoStall.of_left_one {as : List (K × V)} {bs : List (L × W)} (h : as.length ≤ 1) : NoStall x as bs := by
  intro v hv
  have : collisions x.hash as v ≤ as.length := List.countP_le_length
  omega

omit [BEq K] [BEq L] in
theorem NoStall.of_right_two {as : List (K × V)} {bs : List (L × W)} (h : bs.length ≤ 2) : NoStall x as bs := by
  intro v hv
  have : collisions x.hash' bs v ≤ bs.length := List.countP_le_length
  omega

section
variable (laws : CrossLaws x) {ops : TwmOps K V L W R} (con : ops.Contract x) (reduce : R → R → R) (e : R)
  (par : Par)
include laws con

theorem twmFlat_spec {bs : List (L × W)} (hb : DistinctKeys bs) {hv : BitVec c.w}
    (h2 : ∀ b ∈ bs, x.hash' b.1 = hv) (fS : SNode K V → Nat → Res (TRes (Node c.n K V) R))
    (fL : LNode K V → Nat → Res (TRes (Node c.n K V) R)) (alone : XRes (Node c.n K V) R) (keep : Bool)
    (P : List (K × V) → Prop) (hP : ∀ l l', l'.Sublist l → P l → P l')
    (hS : ∀ s d, Agree c d (x.hash s.key) hv → P s.visit → ∃ res, fS s d = .ok res ∧
      Good (ops.sem reduce e) x.hash d True (x.cases s.visit bs) (res.get (.S s)) res.red)
    (hL : ∀ l d, l.WF x.hash → Agree c d (x.hash l.key) hv → P l.visit → ∃ res, fL l d = .ok res ∧
      Good (ops.sem reduce e) x.hash d True (x.cases l.visit bs) (res.get (.L l)) res.red)
    (hA : ∀ d, Good (ops.sem reduce e) x.hash d True (bs.map Case.right) alone.get alone.red)
    {d : Nat} {m : Node c.n K V} (wf : m.WF x.hash c.levels d)
    (ag : ∀ a ∈ m.visit, Agree c d (x.hash a.1) hv) (hp : P m.visit) :
    ∃ res, Node.fold fS fL (fun bits left extra depth => do
        let acc ← flatLoop reduce e hv depth ⟨bits, left, extra⟩
          (fun m => m.transform reduce e ops.left par) alone.toT (fun left? res => res.itemOpt keep left?)
        TRes.finish acc) m d = .ok res ∧
      Good (ops.sem reduce e) x.hash d (m.visit ≠ []) (x.cases m.visit bs) (res.get m) res.red := by
  induction wf with
  | S d s =>
    obtain ⟨res, h1, g⟩ := hS s d (ag (s.key, s.value) (by simp [Node.visit, SNode.visit])) hp
    exact ⟨res, h1, g.mono (fun _ => trivial)⟩
  | L d l hl =>
    obtain ⟨res, h1, g⟩ := hL l d hl (ag (l.key, l.value) (by rw [Node.visit, LNode.visit_eq]; simp)) hp
    exact ⟨res, h1, g.mono (fun _ => trivial)⟩
  | C d bits values extra hd ok sz ne at_ sub ih =>
    have wf : (Node.C bits values extra).WF x.hash c.levels d := .C d bits values extra hd ok sz ne at_ sub
    rw [Node.fold, Node.foldAll_eq]
    obtain ⟨acc, h1, h2⟩ := flat_looped (s := ops.sem reduce e) (hashS := x.hash) laws wf hb h2
      (fun m => Node.fold fS fL _ m (d + 1)) (fun m => m.transform reduce e ops.left par) alone.toT
      (fun left? res => res.itemOpt keep left?)
      (fun i _ it => it.kl = true → vis it.node? = slotVisit ⟨bits, values, extra⟩ i)
      (by
        intro m hm
        obtain ⟨res, q1, g⟩ := ih _ m hm
          (fun a ha => (ag a ((slotVisit_sublist hm).subset ha)).succ (at_ _ m hm a ha))
          (hP _ _ (slotVisit_sublist hm) hp)
        obtain ⟨it, i1, i2, i3, i4⟩ := TRes.itemOpt_some keep m res
        exact ⟨res, it, q1, i1, .of g (ne _ _ hm) i2 i3, fun hk => by rw [i4 hk, slotVisit_some hm]; rfl⟩)
      (by
        intro i m _ hm
        obtain ⟨res, q1, g⟩ := (ops.aloneL reduce e).node laws.left.hash par (sub _ _ hm)
        obtain ⟨it, i1, i2, i3, i4⟩ := TRes.itemOpt_some keep m res
        exact ⟨res, it, q1, i1, .of g (ne _ _ hm) i2 i3, fun hk => by rw [i4 hk, slotVisit_some hm]; rfl⟩)
      (by
        intro hm
        obtain ⟨it, i1, i2, i3, i4⟩ := XRes.itemOpt_toT keep none alone
        exact ⟨it, i1, .of (hA (d + 1)) trivial i2 i3, fun hk => by simp [i4] at hk⟩)
      (by
        intro i _ hm _
        rw [slotVisit_none hm]; rfl)
    simp only [h1, Res.ok_bind]
    exact h2.finishT (TwmOps.keyed laws con reduce e) hd wf
      (by rw [Node.visit]; exact (visit_slots ⟨bits, values, extra⟩ ok).symm)

theorem Node.twmS_spec (right : SNode L W) {d : Nat} {m : Node c.n K V} (wf : m.WF x.hash c.levels d)
    (ag : ∀ a ∈ m.visit, Agree c d (x.hash a.1) (x.hash' right.key)) :
    ∃ res, m.twmS x reduce e ops par right d = .ok res ∧
      Good (ops.sem reduce e) x.hash d (m.visit ≠ []) (x.cases m.visit right.visit) (res.get m) res.red := by
  refine twmFlat_spec laws con reduce e par right.distinct right.hash_visit _ _
    ((right.transmute ops.right).map Node.S) true (fun _ => True) (fun _ _ _ _ => trivial)
    (fun s d ag _ => SNode.twm_spec laws con reduce e s right ag)
    (fun l d wl ag _ => LNode.twmS_spec laws con reduce e l wl right ag) ?_ wf ag trivial
  intro d
  obtain ⟨res, h1, g⟩ := (ops.aloneR reduce e).node ((ops.aloneR reduce e).keymapR (TwmOps.keyed laws con reduce e))
    (Node.WF.S d right)
  simp only [Node.transmute, Res.ok.injEq] at h1
  subst h1
  exact g.mono (fun _ => by simp [Node.visit, SNode.visit])

theorem Node.twmL_spec (right : LNode L W) (wr : right.WF x.hash') {d : Nat} {m : Node c.n K V}
    (wf : m.WF x.hash c.levels d) (ag : ∀ a ∈ m.visit, Agree c d (x.hash a.1) (x.hash' right.key))
    (ns : NoStall x m.visit right.visit) :
    ∃ res, m.twmL x reduce e ops par right d = .ok res ∧
      Good (ops.sem reduce e) x.hash d (m.visit ≠ []) (x.cases m.visit right.visit) (res.get m) res.red := by
  refine twmFlat_spec laws con reduce e par wr.keys wr.hash _ _
    ((right.transmute reduce ops.right).map LNext.toNode) false (fun l => NoStall x l right.visit)
    (fun _ _ h ns => ns.mono h (.refl _))
    (fun s d ag _ => ?_)
    (fun l d wl ag ns => LNode.twmL_spec laws con reduce e l wl right wr ag ns) ?_ wf ag ns
  · obtain ⟨res, h1, g⟩ := LNode.mwtS_spec laws.flip (con.flip laws) reduce e right wr s ag.symm
    exact ⟨res, h1, TwmOps.good_flip laws s.distinct wr.keys g⟩
  · intro d
    obtain ⟨res, h1, g⟩ := (ops.aloneR reduce e).node ((ops.aloneR reduce e).keymapR (TwmOps.keyed laws con reduce e))
      (Node.WF.L d right wr)
    simp only [Node.transmute, Res.ok.injEq] at h1
    subst h1
    exact g.mono (fun _ => right.visit_ne_nil)

end

/-! ### transmute_with_transformed against a list or single node -/

section
variable (laws : CrossLaws x) {ops : MwtOps K V L W R} (con : ops.Contract x) (reduce : R → R → R) (e : R)
include laws con

theorem mwtFlat_spec (right : LNext L W) (wr : ∀ d, (right.toNode : Node c.n L W).WF x.hash' c.levels d)
    {hv : BitVec c.w}
    (h2 : ∀ b ∈ right.visit, x.hash' b.1 = hv) (fS : SNode K V → Nat → Res (TRes (Node c.n L W) R))
    (fL : LNode K V → Nat → Res (TRes (Node c.n L W) R)) (alone : TRes (Node c.n L W) R) (keep : Bool)
    (P : List (K × V) → Prop) (hP : ∀ l l', l'.Sublist l → P l → P l')
    (hS : ∀ s d, Agree c d (x.hash s.key) hv → P s.visit → ∃ res, fS s d = .ok res ∧
      Good (ops.sem reduce e) x.hash' d True (x.cases s.visit right.visit) (res.get right.toNode) res.red)
    (hL : ∀ l d, l.WF x.hash → Agree c d (x.hash l.key) hv → P l.visit → ∃ res, fL l d = .ok res ∧
      Good (ops.sem reduce e) x.hash' d True (x.cases l.visit right.visit) (res.get right.toNode) res.red)
    (hA : ∀ d, Good (ops.sem reduce e) x.hash' d True (right.visit.map Case.right) (alone.get right.toNode) alone.red)
    {d : Nat} {m : Node c.n K V} (wf : m.WF x.hash c.levels d)
    (ag : ∀ a ∈ m.visit, Agree c d (x.hash a.1) hv) (hp : P m.visit) :
    ∃ res, Node.fold fS fL (fun bits left extra depth => do
        let acc ← flatLoop reduce e hv depth ⟨bits, left, extra⟩
          (fun m => do
            let res ← m.transmute reduce e ops.left
            .ok res.toT) alone (fun _ res => res.itemOpt keep (some right.toNode))
        TRes.finish acc) m d = .ok res ∧
      Good (ops.sem reduce e) x.hash' d True (x.cases m.visit right.visit) (res.get right.toNode) res.red := by
  have hb : DistinctKeys right.visit := by
    have := Node.WF.distinct laws.right.hash (wr 0)
    rwa [LNext.toNode_visit] at this
  induction wf with
  | S d s => exact hS s d (ag (s.key, s.value) (by simp [Node.visit, SNode.visit])) hp
  | L d l hl => exact hL l d hl (ag (l.key, l.value) (by rw [Node.visit, LNode.visit_eq]; simp)) hp
  | C d bits values extra hd ok sz ne at_ sub ih =>
    have wf : (Node.C bits values extra).WF x.hash c.levels d := .C d bits values extra hd ok sz ne at_ sub
    rw [Node.fold, Node.foldAll_eq]
    obtain ⟨acc, h1, h2⟩ := flat_looped (s := ops.sem reduce e) (hashS := x.hash') laws wf hb h2
      (fun m => Node.fold fS fL _ m (d + 1)) (fun m => do
            let res ← m.transmute reduce e ops.left
            .ok res.toT) alone
      (fun _ res => res.itemOpt keep (some right.toNode))
      (fun i _ it => it.kl = true → vis it.node? = flatSlot c hv d right.visit i)
      (by
        intro m hm
        obtain ⟨res, q1, g⟩ := ih _ m hm
          (fun a ha => (ag a ((slotVisit_sublist hm).subset ha)).succ (at_ _ m hm a ha))
          (hP _ _ (slotVisit_sublist hm) hp)
        obtain ⟨it, i1, i2, i3, i4⟩ := TRes.itemOpt_some keep (right.toNode : Node c.n L W) res
        refine ⟨res, it, q1, i1, .of g trivial i2 i3, fun hk => ?_⟩
        rw [i4 hk, vis_some, LNext.toNode_visit]; simp [flatSlot])
      (by
        intro i m _ hm
        obtain ⟨res, q1, g⟩ := (ops.aloneL reduce e).node
          ((ops.aloneL reduce e).keymapL (MwtOps.keyed laws con reduce e)) (sub _ _ hm)
        obtain ⟨it, i1, i2, i3, i4⟩ := XRes.itemOpt_toT keep (some (right.toNode : Node c.n L W)) res
        exact ⟨res.toT, it, by simp only [q1, Res.ok_bind], i1, .of g (ne _ _ hm) i2 i3, fun hk => by simp [i4] at hk⟩)
      (by
        intro hm
        obtain ⟨it, i1, i2, i3, i4⟩ := TRes.itemOpt_some keep (right.toNode : Node c.n L W) alone
        refine ⟨it, i1, .of (hA (d + 1)) trivial i2 i3, fun hk => ?_⟩
        rw [i4 hk, vis_some, LNext.toNode_visit]; simp [flatSlot])
      (by
        intro i hi hm _
        simp [flatSlot, hi, Item.node?])
    simp only [h1, Res.ok_bind]
    obtain ⟨res, e1, g⟩ := h2.finishT (MwtOps.keyed laws con reduce e) hd (wr d)
      (by rw [flatSlot_flatMap, LNext.toNode_visit])
    exact ⟨res, e1, g.mono (fun _ => by rw [LNext.toNode_visit]; exact right.visit_ne_nil)⟩

theorem Node.mwtS_spec (right : SNode L W) {d : Nat} {m : Node c.n K V} (wf : m.WF x.hash c.levels d)
    (ag : ∀ a ∈ m.visit, Agree c d (x.hash a.1) (x.hash' right.key)) :
    ∃ res, m.mwtS x reduce e ops right d = .ok res ∧
      Good (ops.sem reduce e) x.hash' d True (x.cases m.visit right.visit) (res.get (.S right)) res.red := by
  refine mwtFlat_spec laws con reduce e (.S right) (fun d => .S d right) right.hash_visit _ _
    ((right.transform ops.right).map Node.S) true (fun _ => True) (fun _ _ _ _ => trivial)
    (fun s d ag _ => SNode.mwt_spec laws con reduce e s right ag)
    (fun l d wl ag _ => LNode.mwtS_spec laws con reduce e l wl right ag) ?_ wf ag trivial
  intro d
  obtain ⟨res, h1, g⟩ := (ops.aloneR reduce e).node laws.right.hash .sequential (Node.WF.S d right)
  simp only [Node.transform, Res.ok.injEq] at h1
  subst h1
  exact g.mono (fun _ => by simp [Node.visit, SNode.visit])

theorem Node.mwtL_spec (right : LNode L W) (wr : right.WF x.hash') {d : Nat} {m : Node c.n K V}
    (wf : m.WF x.hash c.levels d) (ag : ∀ a ∈ m.visit, Agree c d (x.hash a.1) (x.hash' right.key))
    (ns : NoStall x.flip right.visit m.visit) :
    ∃ res, m.mwtL x reduce e ops right d = .ok res ∧
      Good (ops.sem reduce e) x.hash' d True (x.cases m.visit right.visit) (res.get (.L right)) res.red := by
  refine mwtFlat_spec laws con reduce e (.L right) (fun d => .L d right wr) wr.hash _ _
    ((right.transform reduce ops.right).map LNext.toNode) false (fun l => NoStall x.flip right.visit l)
    (fun _ _ h ns => ns.mono (.refl _) h)
    (fun s d ag _ => ?_)
    (fun l d wl ag ns => ?_) ?_ wf ag ns
  · obtain ⟨res, h1, g⟩ := LNode.twmS_spec laws.flip (con.flip laws) reduce e right wr s ag.symm
    exact ⟨res, h1, MwtOps.good_flip laws s.distinct wr.keys g⟩
  · obtain ⟨res, h1, g⟩ := LNode.twmL_spec laws.flip (con.flip laws) reduce e right wr l wl ag.symm ns
    exact ⟨res, h1, MwtOps.good_flip laws wl.keys wr.keys g⟩
  · intro d
    obtain ⟨res, h1, g⟩ := (ops.aloneR reduce e).node laws.right.hash .sequential (Node.WF.L d right wr)
    simp only [Node.transform, Res.ok.injEq] at h1
    subst h1
    exact g.mono (fun _ => right.visit_ne_nil)

end

/-! ### transmute_with_transmuted against a list or single node -/

section
variable (laws : CrossLaws x) {hashS : S → BitVec c.w} (lawsS : KeyLaws hashS) {ops : MwmOps K V L W S X R}
  (con : ops.Contract x hashS) (reduce : R → R → R) (e : R)
include laws lawsS con

theorem mwmFlat_spec {bs : List (L × W)} (hb : DistinctKeys bs) {hv : BitVec c.w}
    (h2 : ∀ b ∈ bs, x.hash' b.1 = hv) (fS : SNode K V → Nat → Res (XRes (Node c.n S X) R))
    (fL : LNode K V → Nat → Res (XRes (Node c.n S X) R)) (alone : XRes (Node c.n S X) R)
    (P : List (K × V) → Prop) (hP : ∀ l l', l'.Sublist l → P l → P l')
    (hS : ∀ s d, Agree c d (x.hash s.key) hv → P s.visit → ∃ res, fS s d = .ok res ∧
      Good (ops.sem reduce e) hashS d True (x.cases s.visit bs) res.get res.red)
    (hL : ∀ l d, l.WF x.hash → Agree c d (x.hash l.key) hv → P l.visit → ∃ res, fL l d = .ok res ∧
      Good (ops.sem reduce e) hashS d True (x.cases l.visit bs) res.get res.red)
    (hA : ∀ d, Good (ops.sem reduce e) hashS d True (bs.map Case.right) alone.get alone.red)
    {d : Nat} {m : Node c.n K V} (wf : m.WF x.hash c.levels d)
    (ag : ∀ a ∈ m.visit, Agree c d (x.hash a.1) hv) (hp : P m.visit) :
    ∃ res, Node.fold fS fL (fun bits left extra depth => do
        let acc ← flatLoop reduce e hv depth ⟨bits, left, extra⟩
          (fun m => m.transmute reduce e ops.left) alone (fun _ res => .ok res.item)
        XRes.finish acc) m d = .ok res ∧
      Good (ops.sem reduce e) hashS d True (x.cases m.visit bs) res.get res.red := by
  have item : ∀ res : XRes (Node c.n S X) R, res.item.node? = res.get ∧ res.item.red? = some res.red := by
    intro res; cases res <;> exact ⟨rfl, rfl⟩
  induction wf with
  | S d s => exact hS s d (ag (s.key, s.value) (by simp [Node.visit, SNode.visit])) hp
  | L d l hl => exact hL l d hl (ag (l.key, l.value) (by rw [Node.visit, LNode.visit_eq]; simp)) hp
  | C d bits values extra hd ok sz ne at_ sub ih =>
    have wf : (Node.C bits values extra).WF x.hash c.levels d := .C d bits values extra hd ok sz ne at_ sub
    rw [Node.fold, Node.foldAll_eq]
    obtain ⟨acc, h1, h2⟩ := flat_looped (s := ops.sem reduce e) (hashS := hashS) laws wf hb h2
      (fun m => Node.fold fS fL _ m (d + 1)) (fun m => m.transmute reduce e ops.left) alone
      (fun _ res => .ok res.item) (fun _ _ _ => True)
      (by
        intro m hm
        obtain ⟨res, q1, g⟩ := ih _ m hm
          (fun a ha => (ag a ((slotVisit_sublist hm).subset ha)).succ (at_ _ m hm a ha))
          (hP _ _ (slotVisit_sublist hm) hp)
        exact ⟨res, _, q1, rfl, .of g trivial (item res).1 (item res).2, trivial⟩)
      (by
        intro i m _ hm
        obtain ⟨res, q1, g⟩ := (ops.aloneL reduce e).node
          ((ops.aloneL reduce e).keymapL (MwmOps.keyed laws lawsS con reduce e)) (sub _ _ hm)
        exact ⟨res, _, q1, rfl, .of g (ne _ _ hm) (item res).1 (item res).2, trivial⟩)
      (fun hm => ⟨_, rfl, .of (hA (d + 1)) trivial (item alone).1 (item alone).2, trivial⟩)
      (fun _ _ _ => trivial)
    simp only [h1, Res.ok_bind]
    exact h2.finishX (MwmOps.keyed laws lawsS con reduce e) hd

theorem Node.mwmS_spec (right : SNode L W) {d : Nat} {m : Node c.n K V} (wf : m.WF x.hash c.levels d)
    (ag : ∀ a ∈ m.visit, Agree c d (x.hash a.1) (x.hash' right.key)) :
    ∃ res, m.mwmS x reduce e ops right d = .ok res ∧
      Good (ops.sem reduce e) hashS d True (x.cases m.visit right.visit) res.get res.red := by
  refine mwmFlat_spec laws lawsS con reduce e right.distinct right.hash_visit _ _
    ((right.transmute ops.right).map Node.S) (fun _ => True) (fun _ _ _ _ => trivial)
    (fun s d ag _ => SNode.mwm_spec laws lawsS con reduce e s right ag)
    (fun l d wl ag _ => LNode.mwmS_spec laws lawsS con reduce e l wl right ag) ?_ wf ag trivial
  intro d
  obtain ⟨res, h1, g⟩ := (ops.aloneR reduce e).node
    ((ops.aloneR reduce e).keymapR (MwmOps.keyed laws lawsS con reduce e)) (Node.WF.S d right)
  simp only [Node.transmute, Res.ok.injEq] at h1
  subst h1
  exact g.mono (fun _ => by simp [Node.visit, SNode.visit])

theorem Node.mwmL_spec (right : LNode L W) (wr : right.WF x.hash') {d : Nat} {m : Node c.n K V}
    (wf : m.WF x.hash c.levels d) (ag : ∀ a ∈ m.visit, Agree c d (x.hash a.1) (x.hash' right.key))
    (ns : NoStall x m.visit right.visit) :
    ∃ res, m.mwmL x reduce e ops right d = .ok res ∧
      Good (ops.sem reduce e) hashS d True (x.cases m.visit right.visit) res.get res.red := by
  refine mwmFlat_spec laws lawsS con reduce e wr.keys wr.hash _ _
    ((right.transmute reduce ops.right).map LNext.toNode) (fun l => NoStall x l right.visit)
    (fun _ _ h ns => ns.mono h (.refl _))
    (fun s d ag _ => ?_)
    (fun l d wl ag ns => LNode.mwmL_spec laws lawsS con reduce e l wl right wr ag ns) ?_ wf ag ns
  · obtain ⟨res, h1, g⟩ := LNode.mwmS_spec laws.flip lawsS (con.flip laws) reduce e right wr s ag.symm
    exact ⟨res, h1, MwmOps.good_flip laws s.distinct wr.keys g⟩
  · intro d
    obtain ⟨res, h1, g⟩ := (ops.aloneR reduce e).node
      ((ops.aloneR reduce e).keymapR (MwmOps.keyed laws lawsS con reduce e)) (Node.WF.L d right wr)
    simp only [Node.transmute, Res.ok.injEq] at h1
    subst h1
    exact g.mono (fun _ => right.visit_ne_nil)

end
end HT
