import Verif.JointTree
/-! # Joint operations on nodes and tries -/
namespace HT

variable {K V L W S X R : Type} [BEq K] [BEq L] [BEq S] {c : Cfg}
variable {x : Cross c K L}

omit [BEq K] in
theorem SNode.mem_visit {n : Nat} (s : SNode K V) : (s.key, s.value) ∈ (Node.S s : Node n K V).visit := by
  simp [Node.visit, SNode.visit]

omit [BEq K] in
theorem LNode.mem_visit {n : Nat} (l : LNode K V) : (l.key, l.value) ∈ (Node.L l : Node n K V).visit := by
  rw [Node.visit, LNode.visit_eq]; simp

/-! ### transform_with_transmuted -/

section
variable (laws : CrossLaws x) {ops : TwmOps K V L W R} (con : ops.Contract x) (reduce : R → R → R) (e : R)
  (par : Par)
include laws con

theorem Node.twm_spec {d : Nat} {m : Node c.n K V} (wf : m.WF x.hash c.levels d) {r : Node c.n L W}
    (wr : r.WF x.hash' c.levels d)
    (ag : ∀ a ∈ m.visit, ∀ b ∈ r.visit, Agree c d (x.hash a.1) (x.hash' b.1))
    (ns : NoStall x m.visit r.visit) :
    ∃ res, m.twm x reduce e ops par r d = .ok res ∧
      Good (ops.sem reduce e) x.hash d (m.visit ≠ []) (x.cases m.visit r.visit) (res.get m) res.red := by
  induction wf generalizing r with
  | S d s =>
    cases wr with
    | S _ r =>
      obtain ⟨res, h1, g⟩ := SNode.twm_spec laws con reduce e s r (ag _ s.mem_visit _ r.mem_visit)
      exact ⟨res, h1, g.mono (fun _ => trivial)⟩
    | L _ r wr =>
      obtain ⟨res, h1, g⟩ := LNode.mwtS_spec laws.flip (con.flip laws) reduce e r wr s
        (ag _ s.mem_visit _ r.mem_visit).symm
      exact ⟨res, h1, (TwmOps.good_flip laws s.distinct wr.keys g).mono (fun _ => trivial)⟩
    | C _ b v z hd ok sz ne at_ sub =>
      have wr : (Node.C b v z).WF x.hash' c.levels d := .C d b v z hd ok sz ne at_ sub
      obtain ⟨res, h1, g⟩ := Node.mwtS_spec laws.flip (con.flip laws) reduce e s wr
        (fun b hb => (ag _ s.mem_visit b hb).symm)
      exact ⟨res, h1, (TwmOps.good_flip laws s.distinct (Node.WF.distinct laws.right.hash wr) g).mono
        (fun _ => trivial)⟩
  | L d l wl =>
    cases wr with
    | S _ r =>
      obtain ⟨res, h1, g⟩ := LNode.twmS_spec laws con reduce e l wl r (ag _ l.mem_visit _ r.mem_visit)
      exact ⟨res, h1, g.mono (fun _ => trivial)⟩
    | L _ r wr =>
      obtain ⟨res, h1, g⟩ := LNode.twmL_spec laws con reduce e l wl r wr (ag _ l.mem_visit _ r.mem_visit) ns
      exact ⟨res, h1, g.mono (fun _ => trivial)⟩
    | C _ b v z hd ok sz ne at_ sub =>
      have wr : (Node.C b v z).WF x.hash' c.levels d := .C d b v z hd ok sz ne at_ sub
      obtain ⟨res, h1, g⟩ := Node.mwtL_spec laws.flip (con.flip laws) reduce e l wl wr
        (fun b hb => (ag _ l.mem_visit b hb).symm) ns
      exact ⟨res, h1, (TwmOps.good_flip laws wl.keys (Node.WF.distinct laws.right.hash wr) g).mono
        (fun _ => trivial)⟩
  | C d bits values extra hd ok sz ne at_ sub ih =>
    have wf : (Node.C bits values extra).WF x.hash c.levels d := .C d bits values extra hd ok sz ne at_ sub
    rw [Node.twm, Node.fold]
    cases wr with
    | S _ r =>
      simp only [twmC, Node.foldAll_fst]
      exact Node.twmS_spec laws con reduce e par r wf (fun a ha => ag a ha _ r.mem_visit)
    | L _ r wr =>
      simp only [twmC, Node.foldAll_fst]
      exact Node.twmL_spec laws con reduce e par r wr wf (fun a ha => ag a ha _ r.mem_visit) ns
    | C _ b v z hd' ok' sz' ne' at_' sub' =>
      have wr : (Node.C b v z).WF x.hash' c.levels d := .C d b v z hd' ok' sz' ne' at_' sub'
      simp only [twmC, twmCC, Node.foldAll_eq]
      obtain ⟨acc, h1, h2⟩ := both_looped (s := ops.sem reduce e) (hashS := x.hash) laws wf wr .sequential
        (fun m r => m.twm x reduce e ops par r (d + 1)) (fun m => m.transform reduce e ops.left par)
        (fun m => do
          let res ← m.transmute reduce e ops.right
          .ok res.toT)
        (fun left? _ res => res.itemOpt true left?)
        (fun i _ it => it.kl = true → vis it.node? = slotVisit ⟨bits, values, extra⟩ i)
        (by
          intro i m r hm hr
          obtain ⟨res, q1, g⟩ := ih i m hm (sub' i r hr)
            (fun a ha b hb => (ag a ((slotVisit_sublist hm).subset ha) b ((slotVisit_sublist hr).subset hb)).succ
              ((at_ i m hm a ha).trans (at_' i r hr b hb).symm))
            (ns.mono (slotVisit_sublist hm) (slotVisit_sublist hr))
          obtain ⟨it, i1, i2, i3, i4⟩ := TRes.itemOpt_some true m res
          exact ⟨res, it, q1, i1, .of g (ne _ _ hm) i2 i3, fun hk => by rw [i4 hk, slotVisit_some hm]; rfl⟩)
        (by
          intro i m hm _
          obtain ⟨res, q1, g⟩ := (ops.aloneL reduce e).node laws.left.hash par (sub _ _ hm)
          obtain ⟨it, i1, i2, i3, i4⟩ := TRes.itemOpt_some true m res
          exact ⟨res, it, q1, i1, .of g (ne _ _ hm) i2 i3, fun hk => by rw [i4 hk, slotVisit_some hm]; rfl⟩)
        (by
          intro i r _ hr
          obtain ⟨res, q1, g⟩ := (ops.aloneR reduce e).node
            ((ops.aloneR reduce e).keymapR (TwmOps.keyed laws con reduce e)) (sub' _ _ hr)
          obtain ⟨it, i1, i2, i3, i4⟩ := XRes.itemOpt_toT true none res
          exact ⟨res.toT, it, by simp only [q1, Res.ok_bind], i1, .of g (ne' _ _ hr) i2 i3,
            fun hk => by simp [i4] at hk⟩)
        (by
          intro i hm _ _
          rw [slotVisit_none hm]; rfl)
      obtain ⟨res, e1, g⟩ := h2.finishT (TwmOps.keyed laws con reduce e) hd wf
        (by rw [Node.visit]; exact (visit_slots ⟨bits, values, extra⟩ ok).symm)
      exact ⟨res, (congrArg (fun a => a >>= TRes.finish) h1).trans e1, g⟩

end

/-! ### transmute_with_transformed -/

section
variable (laws : CrossLaws x) {ops : MwtOps K V L W R} (con : ops.Contract x) (reduce : R → R → R) (e : R)
  (par : Par)
include laws con

theorem Node.mwt_spec {d : Nat} {m : Node c.n K V} (wf : m.WF x.hash c.levels d) {r : Node c.n L W}
    (wr : r.WF x.hash' c.levels d)
    (ag : ∀ a ∈ m.visit, ∀ b ∈ r.visit, Agree c d (x.hash a.1) (x.hash' b.1))
    (ns : NoStall x.flip r.visit m.visit) :
    ∃ res, m.mwt x reduce e ops par r d = .ok res ∧
      Good (ops.sem reduce e) x.hash' d (r.visit ≠ []) (x.cases m.visit r.visit) (res.get r) res.red := by
  induction wf generalizing r with
  | S d s =>
    cases wr with
    | S _ r =>
      obtain ⟨res, h1, g⟩ := SNode.mwt_spec laws con reduce e s r (ag _ s.mem_visit _ r.mem_visit)
      exact ⟨res, h1, g.mono (fun _ => trivial)⟩
    | L _ r wr =>
      obtain ⟨res, h1, g⟩ := LNode.twmS_spec laws.flip (con.flip laws) reduce e r wr s
        (ag _ s.mem_visit _ r.mem_visit).symm
      exact ⟨res, h1, (MwtOps.good_flip laws s.distinct wr.keys g).mono (fun _ => trivial)⟩
    | C _ b v z hd ok sz ne at_ sub =>
      have wr : (Node.C b v z).WF x.hash' c.levels d := .C d b v z hd ok sz ne at_ sub
      obtain ⟨res, h1, g⟩ := Node.twmS_spec laws.flip (con.flip laws) reduce e par s wr
        (fun b hb => (ag _ s.mem_visit b hb).symm)
      exact ⟨res, h1, MwtOps.good_flip laws s.distinct (Node.WF.distinct laws.right.hash wr) g⟩
  | L d l wl =>
    cases wr with
    | S _ r =>
      obtain ⟨res, h1, g⟩ := LNode.mwtS_spec laws con reduce e l wl r (ag _ l.mem_visit _ r.mem_visit)
      exact ⟨res, h1, g.mono (fun _ => trivial)⟩
    | L _ r wr =>
      obtain ⟨res, h1, g⟩ := LNode.twmL_spec laws.flip (con.flip laws) reduce e r wr l wl
        (ag _ l.mem_visit _ r.mem_visit).symm ns
      exact ⟨res, h1, (MwtOps.good_flip laws wl.keys wr.keys g).mono (fun _ => trivial)⟩
    | C _ b v z hd ok sz ne at_ sub =>
      have wr : (Node.C b v z).WF x.hash' c.levels d := .C d b v z hd ok sz ne at_ sub
      obtain ⟨res, h1, g⟩ := Node.twmL_spec laws.flip (con.flip laws) reduce e par l wl wr
        (fun b hb => (ag _ l.mem_visit b hb).symm) ns
      exact ⟨res, h1, MwtOps.good_flip laws wl.keys (Node.WF.distinct laws.right.hash wr) g⟩
  | C d bits values extra hd ok sz ne at_ sub ih =>
    have wf : (Node.C bits values extra).WF x.hash c.levels d := .C d bits values extra hd ok sz ne at_ sub
    rw [Node.mwt, Node.fold]
    cases wr with
    | S _ r =>
      simp only [mwtC, Node.foldAll_fst]
      obtain ⟨res, h1, g⟩ := Node.mwtS_spec laws con reduce e r wf (fun a ha => ag a ha _ r.mem_visit)
      exact ⟨res, h1, g.mono (fun _ => trivial)⟩
    | L _ r wr =>
      simp only [mwtC, Node.foldAll_fst]
      obtain ⟨res, h1, g⟩ := Node.mwtL_spec laws con reduce e r wr wf (fun a ha => ag a ha _ r.mem_visit) ns
      exact ⟨res, h1, g.mono (fun _ => trivial)⟩
    | C _ b v z hd' ok' sz' ne' at_' sub' =>
      have wr : (Node.C b v z).WF x.hash' c.levels d := .C d b v z hd' ok' sz' ne' at_' sub'
      simp only [mwtC, mwtCC, Node.foldAll_eq]
      obtain ⟨acc, h1, h2⟩ := both_looped (s := ops.sem reduce e) (hashS := x.hash') laws wf wr .sequential
        (fun m r => m.mwt x reduce e ops par r (d + 1))
        (fun m => do
          let res ← m.transmute reduce e ops.left
          .ok res.toT)
        (fun m => m.transform reduce e ops.right par)
        (fun _ right? res => res.itemOpt true right?)
        (fun i _ it => it.kl = true → vis it.node? = slotVisit ⟨b, v, z⟩ i)
        (by
          intro i m r hm hr
          obtain ⟨res, q1, g⟩ := ih i m hm (sub' i r hr)
            (fun a ha b hb => (ag a ((slotVisit_sublist hm).subset ha) b ((slotVisit_sublist hr).subset hb)).succ
              ((at_ i m hm a ha).trans (at_' i r hr b hb).symm))
            (ns.mono (slotVisit_sublist hr) (slotVisit_sublist hm))
          obtain ⟨it, i1, i2, i3, i4⟩ := TRes.itemOpt_some true r res
          exact ⟨res, it, q1, i1, .of g (ne' _ _ hr) i2 i3, fun hk => by rw [i4 hk, slotVisit_some hr]; rfl⟩)
        (by
          intro i m hm _
          obtain ⟨res, q1, g⟩ := (ops.aloneL reduce e).node
            ((ops.aloneL reduce e).keymapL (MwtOps.keyed laws con reduce e)) (sub _ _ hm)
          obtain ⟨it, i1, i2, i3, i4⟩ := XRes.itemOpt_toT true none res
          exact ⟨res.toT, it, by simp only [q1, Res.ok_bind], i1, .of g (ne _ _ hm) i2 i3,
            fun hk => by simp [i4] at hk⟩)
        (by
          intro i r _ hr
          obtain ⟨res, q1, g⟩ := (ops.aloneR reduce e).node laws.right.hash par (sub' _ _ hr)
          obtain ⟨it, i1, i2, i3, i4⟩ := TRes.itemOpt_some true r res
          exact ⟨res, it, q1, i1, .of g (ne' _ _ hr) i2 i3, fun hk => by rw [i4 hk, slotVisit_some hr]; rfl⟩)
        (by
          intro i _ hr _
          rw [slotVisit_none hr]; rfl)
      obtain ⟨res, e1, g⟩ := h2.finishT (MwtOps.keyed laws con reduce e) hd wr
        (by rw [Node.visit]; exact (visit_slots ⟨b, v, z⟩ ok').symm)
      exact ⟨res, (congrArg (fun a => a >>= TRes.finish) h1).trans e1, g⟩

end

/-! ### transmute_with_transmuted -/

section
variable (laws : CrossLaws x) {hashS : S → BitVec c.w} (lawsS : KeyLaws hashS) {ops : MwmOps K V L W S X R}
  (con : ops.Contract x hashS) (reduce : R → R → R) (e : R)
include laws lawsS con

theorem Node.mwm_spec {d : Nat} {m : Node c.n K V} (wf : m.WF x.hash c.levels d) {r : Node c.n L W}
    (wr : r.WF x.hash' c.levels d)
    (ag : ∀ a ∈ m.visit, ∀ b ∈ r.visit, Agree c d (x.hash a.1) (x.hash' b.1))
    (ns : NoStall x m.visit r.visit) (ns' : NoStall x.flip r.visit m.visit) :
    ∃ res, m.mwm x reduce e ops r d = .ok res ∧
      Good (ops.sem reduce e) hashS d True (x.cases m.visit r.visit) res.get res.red := by
  have item : ∀ res : XRes (Node c.n S X) R, res.item.node? = res.get ∧ res.item.red? = some res.red := by
    intro res; cases res <;> exact ⟨rfl, rfl⟩
  induction wf generalizing r with
  | S d s =>
    cases wr with
    | S _ r => exact SNode.mwm_spec laws lawsS con reduce e s r (ag _ s.mem_visit _ r.mem_visit)
    | L _ r wr =>
      obtain ⟨res, h1, g⟩ := LNode.mwmS_spec laws.flip lawsS (con.flip laws) reduce e r wr s
        (ag _ s.mem_visit _ r.mem_visit).symm
      exact ⟨res, h1, MwmOps.good_flip laws s.distinct wr.keys g⟩
    | C _ b v z hd ok sz ne at_ sub =>
      have wr : (Node.C b v z).WF x.hash' c.levels d := .C d b v z hd ok sz ne at_ sub
      obtain ⟨res, h1, g⟩ := Node.mwmS_spec laws.flip lawsS (con.flip laws) reduce e s wr
        (fun b hb => (ag _ s.mem_visit b hb).symm)
      exact ⟨res, h1, MwmOps.good_flip laws s.distinct (Node.WF.distinct laws.right.hash wr) g⟩
  | L d l wl =>
    cases wr with
    | S _ r => exact LNode.mwmS_spec laws lawsS con reduce e l wl r (ag _ l.mem_visit _ r.mem_visit)
    | L _ r wr => exact LNode.mwmL_spec laws lawsS con reduce e l wl r wr (ag _ l.mem_visit _ r.mem_visit) ns
    | C _ b v z hd ok sz ne at_ sub =>
      have wr : (Node.C b v z).WF x.hash' c.levels d := .C d b v z hd ok sz ne at_ sub
      obtain ⟨res, h1, g⟩ := Node.mwmL_spec laws.flip lawsS (con.flip laws) reduce e l wl wr
        (fun b hb => (ag _ l.mem_visit b hb).symm) ns'
      exact ⟨res, h1, MwmOps.good_flip laws wl.keys (Node.WF.distinct laws.right.hash wr) g⟩
  | C d bits values extra hd ok sz ne at_ sub ih =>
    have wf : (Node.C bits values extra).WF x.hash c.levels d := .C d bits values extra hd ok sz ne at_ sub
    rw [Node.mwm, Node.fold]
    cases wr with
    | S _ r =>
      simp only [mwmC, Node.foldAll_fst]
      exact Node.mwmS_spec laws lawsS con reduce e r wf (fun a ha => ag a ha _ r.mem_visit)
    | L _ r wr =>
      simp only [mwmC, Node.foldAll_fst]
      exact Node.mwmL_spec laws lawsS con reduce e r wr wf (fun a ha => ag a ha _ r.mem_visit) ns
    | C _ b v z hd' ok' sz' ne' at_' sub' =>
      have wr : (Node.C b v z).WF x.hash' c.levels d := .C d b v z hd' ok' sz' ne' at_' sub'
      simp only [mwmC, mwmCC, Node.foldAll_eq]
      obtain ⟨acc, h1, h2⟩ := both_looped (s := ops.sem reduce e) (hashS := hashS) laws wf wr .sequential
        (fun m r => m.mwm x reduce e ops r (d + 1))
        (fun m => m.transmute reduce e ops.left)
        (fun m => m.transmute reduce e ops.right)
        (fun _ _ res => .ok res.item) (fun _ _ _ => True)
        (by
          intro i m r hm hr
          obtain ⟨res, q1, g⟩ := ih i m hm (sub' i r hr)
            (fun a ha b hb => (ag a ((slotVisit_sublist hm).subset ha) b ((slotVisit_sublist hr).subset hb)).succ
              ((at_ i m hm a ha).trans (at_' i r hr b hb).symm))
            (ns.mono (slotVisit_sublist hm) (slotVisit_sublist hr))
            (ns'.mono (slotVisit_sublist hr) (slotVisit_sublist hm))
          exact ⟨res, _, q1, rfl, .of g trivial (item res).1 (item res).2, trivial⟩)
        (by
          intro i m hm _
          obtain ⟨res, q1, g⟩ := (ops.aloneL reduce e).node
            ((ops.aloneL reduce e).keymapL (MwmOps.keyed laws lawsS con reduce e)) (sub _ _ hm)
          exact ⟨res, _, q1, rfl, .of g (ne _ _ hm) (item res).1 (item res).2, trivial⟩)
        (by
          intro i r _ hr
          obtain ⟨res, q1, g⟩ := (ops.aloneR reduce e).node
            ((ops.aloneR reduce e).keymapR (MwmOps.keyed laws lawsS con reduce e)) (sub' _ _ hr)
          exact ⟨res, _, q1, rfl, .of g (ne' _ _ hr) (item res).1 (item res).2, trivial⟩)
        (fun _ _ _ => trivial)
      obtain ⟨res, e1, g⟩ := h2.finishX (MwmOps.keyed laws lawsS con reduce e) hd
      exact ⟨res, (congrArg (fun a => a >>= XRes.finish) h1).trans e1, g⟩

end
end HT
