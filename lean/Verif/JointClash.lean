import Verif.JointApi
/-! # Exactly when the symmetric joint operations do not return -/
namespace HT

variable {K V L W S X R : Type}

section
variable {c : Cfg} {x : Cross c K L}

theorem Clash.not_left {as : List (K × V)} {bs : List (L × W)} (h : Clash x as bs) : ¬ NoStall x as bs := by
  obtain ⟨h, h1, h2⟩ := h
  intro ns
  have := ns h (by omega)
  omega

theorem Clash.flip {as : List (K × V)} {bs : List (L × W)} (h : Clash x as bs) : Clash x.flip bs as := by
  obtain ⟨h, h1, h2⟩ := h
  exact ⟨h, h2, h1⟩

theorem Clash.slots [BEq K] [BEq L] {bits : BitVec c.n} {values : List (Node c.n K V)} {extra d : Nat}
    (wf : (Node.C bits values extra).WF x.hash c.levels d)
    {rbits : BitVec c.n} {rvalues : List (Node c.n L W)} {rextra : Nat}
    (wr : (Node.C rbits rvalues rextra).WF x.hash' c.levels d)
    (cl : Clash x (Node.C bits values extra).visit (Node.C rbits rvalues rextra).visit) :
    ∃ i m r, (Bia.mk bits values extra).slot i = some m ∧ (Bia.mk rbits rvalues rextra).slot i = some r ∧
      Clash x m.visit r.visit := by
  obtain ⟨h, h1, h2⟩ := cl
  obtain ⟨m, hm, e1⟩ := collisions_slot wf (h := h) (by omega)
  obtain ⟨r, hr, e2⟩ := collisions_slot wr (h := h) (by omega)
  exact ⟨_, m, r, hm, hr, h, by omega, by omega⟩

theorem Clash.stuck [BEq K] [BEq L] {d : Nat} {m : Node c.n K V} (wf : m.WF x.hash c.levels d) {r : Node c.n L W}
    (wr : r.WF x.hash' c.levels d) (cl : Clash x m.visit r.visit) : Node.Stuck x m r := by
  induction wf generalizing r with
  | S d s => exact absurd (.of_left_one (by simp [Node.visit, SNode.visit])) cl.not_left
  | L d l wl =>
    cases wr with
    | S _ r => exact absurd (.of_right_two (by simp [Node.visit, SNode.visit])) cl.not_left
    | L _ r wr => exact .LL cl.not_left
    | C _ b v z hd ok sz ne at_ sub => exact .LC cl.flip.not_left
  | C d bits values extra hd ok sz ne at_ sub ih =>
    have wf : (Node.C bits values extra).WF x.hash c.levels d := .C d bits values extra hd ok sz ne at_ sub
    cases wr with
    | S _ r => exact absurd (.of_right_two (by simp [Node.visit, SNode.visit])) cl.not_left
    | L _ r wr => exact .CL cl.not_left
    | C _ b v z hd' ok' sz' ne' at_' sub' =>
      have wr : (Node.C b v z).WF x.hash' c.levels d := .C d b v z hd' ok' sz' ne' at_' sub'
      obtain ⟨i, m, r, hm, hr, clm⟩ := cl.slots wf wr
      exact .CC hm hr (ih i m hm (sub' i r hr) clm)

end

/-! ### transmute_with_transmuted -/

section
variable [BEq K] [BEq L] [BEq S] {c : Cfg} {x : Cross c K L}
variable (laws : CrossLaws x) {hashS : S → BitVec c.w} (lawsS : KeyLaws hashS) {ops : MwmOps K V L W S X R}
  (con : ops.Contract x hashS) (reduce : R → R → R) (e : R)
include laws lawsS con

theorem Node.mwm_stuck {d : Nat} {m : Node c.n K V} (wf : m.WF x.hash c.levels d) {r : Node c.n L W}
    (wr : r.WF x.hash' c.levels d)
    (ag : ∀ a ∈ m.visit, ∀ b ∈ r.visit, Agree c d (x.hash a.1) (x.hash' b.1))
    (st : Node.Stuck x m r) : m.mwm x reduce e ops r d = .diverge := by
  induction wf generalizing r with
  | S d s => cases st
  | L d l wl =>
    cases wr with
    | S _ r => cases st
    | L _ r wr =>
      cases st with | LL ns =>
      exact LNode.mwmL_stall laws lawsS con reduce l wl r wr d ns
    | C _ b v z hd ok sz ne at_ sub =>
      have wr : (Node.C b v z).WF x.hash' c.levels d := .C d b v z hd ok sz ne at_ sub
      cases st with | LC ns =>
      exact Node.mwmL_stall laws.flip lawsS (con.flip laws) reduce e l wl wr ns
  | C d bits values extra hd ok sz ne at_ sub ih =>
    have wf : (Node.C bits values extra).WF x.hash c.levels d := .C d bits values extra hd ok sz ne at_ sub
    rw [Node.mwm, Node.fold]
    cases wr with
    | S _ r => cases st
    | L _ r wr =>
      cases st with | CL ns =>
      simp only [mwmC, Node.foldAll_fst]
      exact Node.mwmL_stall laws lawsS con reduce e r wr wf ns
    | C _ b v z hd' ok' sz' ne' at_' sub' =>
      have wr : (Node.C b v z).WF x.hash' c.levels d := .C d b v z hd' ok' sz' ne' at_' sub'
      simp only [mwmC, mwmCC, Node.foldAll_eq]
      have agm : ∀ i m r, (Bia.mk bits values extra).slot i = some m → (Bia.mk b v z).slot i = some r →
          ∀ a ∈ m.visit, ∀ b ∈ r.visit, Agree c (d + 1) (x.hash a.1) (x.hash' b.1) :=
        fun i m r hm hr a ha b hb => (ag a ((slotVisit_sublist hm).subset ha) b
          ((slotVisit_sublist hr).subset hb)).succ ((at_ i m hm a ha).trans (at_' i r hr b hb).symm)
      have := bothLoop_diverge reduce e .sequential bits values extra ok
        (fun m r => m.mwm x reduce e ops r (d + 1)) ⟨b, v, z⟩ ok'
        (fun m => m.transmute reduce e ops.left)
        (fun m => m.transmute reduce e ops.right)
        (fun _ _ res => .ok res.item)
        (by
          intro i m r hm hr
          rcases Node.mwm_total laws lawsS con reduce e (sub i m hm) (sub' i r hr) (agm i m r hm hr) with
            ⟨hd, _⟩ | ⟨res, q1, _⟩
          · exact .inl hd
          · exact .inr ⟨res, _, q1, rfl⟩)
        (by
          intro i m hm _
          obtain ⟨res, q1, _⟩ := (ops.aloneL reduce e).node
            ((ops.aloneL reduce e).keymapL (MwmOps.keyed laws lawsS con reduce e)) (sub i m hm)
          exact ⟨res, _, q1, rfl⟩)
        (by
          intro i r _ hm
          obtain ⟨res, q1, _⟩ := (ops.aloneR reduce e).node
            ((ops.aloneR reduce e).keymapR (MwmOps.keyed laws lawsS con reduce e)) (sub' i r hm)
          exact ⟨res, _, q1, rfl⟩)
        (by
          cases st with | CC hm hr st =>
          rename_i i m r
          exact ⟨i, m, r, hm, hr, ih i m hm (sub' i r hr) (agm i m r hm hr) st⟩)
      exact congrArg (fun a => a >>= XRes.finish) this

theorem Trie.mwm_stuck {t : Trie c K V} (ht : t.Valid x.hash) {u : Trie c L W} (hu : u.Valid x.hash')
    (st : Node.Stuck x t.root u.root) : Trie.mwm x reduce e ops t u = .diverge := by
  rw [Trie.mwm, Node.mwm_stuck laws lawsS con reduce e ht hu agree_root st]; rfl

end

/-! ### transform_with_transformed -/

section
variable [BEq K] {c : Cfg} {hash : K → BitVec c.w} (laws : KeyLaws hash) {ops : TwtOps K V R}
  (reduce : R → R → R) (e : R) (par : Par)
include laws

theorem Node.twt_stuck {d : Nat} {m : Node c.n K V} (wf : m.WF hash c.levels d) {r : Node c.n K V}
    (wr : r.WF hash c.levels d)
    (ag : ∀ a ∈ m.visit, ∀ b ∈ r.visit, Agree c d (hash a.1) (hash b.1))
    (tame : ops.Tame hash m.visit r.visit)
    (look : ops.shortcut (c := c) = none)
    (st : Node.Stuck (Cross.same hash) m r) : m.twt reduce e hash ops par r d = .diverge := by
  induction wf generalizing r with
  | S d s => cases st
  | L d l wl =>
    cases wr with
    | S _ r => cases st
    | L _ r wr =>
      cases st with | LL ns =>
      exact LNode.twtL_stall laws reduce l wl r wr d ns
    | C _ b v z hd ok sz ne at_ sub =>
      have wr : (Node.C b v z).WF hash c.levels d := .C d b v z hd ok sz ne at_ sub
      cases st with | LC ns =>
      exact (congrArg JRes.flipR (Node.twtL_stall laws (ops := ops.flip) reduce e par l wl wr
        ns)).trans rfl
  | C d bits values extra hd ok sz ne at_ sub ih =>
    have wf : (Node.C bits values extra).WF hash c.levels d := .C d bits values extra hd ok sz ne at_ sub
    rw [Node.twt, Node.fold]
    cases wr with
    | S _ r => cases st
    | L _ r wr =>
      cases st with | CL ns =>
      simp only [twtC, Node.foldAll_fst]
      exact Node.twtL_stall laws reduce e par r wr wf ns
    | C _ b v z hd' ok' sz' ne' at_' sub' =>
      have wr : (Node.C b v z).WF hash c.levels d := .C d b v z hd' ok' sz' ne' at_' sub'
      simp only [twtC, twtCC, Node.foldAll_eq, look]
      have agm : ∀ i m r, (Bia.mk bits values extra).slot i = some m → (Bia.mk b v z).slot i = some r →
          ∀ a ∈ m.visit, ∀ b ∈ r.visit, Agree c (d + 1) (hash a.1) (hash b.1) :=
        fun i m r hm hr a ha b hb => (ag a ((slotVisit_sublist hm).subset ha) b
          ((slotVisit_sublist hr).subset hb)).succ ((at_ i m hm a ha).trans (at_' i r hr b hb).symm)
      have := bothLoop_diverge reduce e par bits values extra ok
        (fun m r => m.twt reduce e hash ops par r (d + 1)) ⟨b, v, z⟩ ok'
        (Node.transformL reduce e par ops.left) (Node.transformR reduce e par ops.right)
        (fun left? right? res => res.itemOpt left? right?)
        (by
          intro i m r hm hr
          rcases Node.twt_total laws reduce e par (sub i m hm) (sub' i r hr) (agm i m r hm hr)
              (tame.slots wf wr hm hr) with ⟨hd, _⟩ | ⟨res, q1, g⟩
          · exact .inl hd
          obtain ⟨it, i1, _⟩ := g.itemOpt_good ⟨ne _ _ hm, ne' _ _ hr⟩ (some m) (some r) (fun _ _ => rfl)
            (fun _ _ => rfl) (slL := slotVisit ⟨bits, values, extra⟩) (slR := slotVisit ⟨b, v, z⟩)
            (i := i) (fun _ => slotVisit_some hm) (fun _ _ => slotVisit_some hr)
          exact .inr ⟨res, it, q1, i1⟩)
        (by
          intro i m hm _
          obtain ⟨res, q1, g⟩ := (ops.aloneL reduce e).node laws.hash par (sub _ _ hm)
          obtain ⟨it, i1, _⟩ := TRes.jointL_good g (ne _ _ hm) none
            (slL := slotVisit ⟨bits, values, extra⟩) (slR := slotVisit ⟨b, v, z⟩) (slotVisit_some hm)
          exact ⟨res.jointL, it, by simp only [Node.transformL, q1, Res.ok_bind], i1⟩)
        (by
          intro i r _ hr
          obtain ⟨res, q1, g⟩ := (ops.aloneR reduce e).node laws.hash par (sub' _ _ hr)
          obtain ⟨it, i1, _⟩ := TRes.jointR_good g (ne' _ _ hr)
            (slL := slotVisit ⟨bits, values, extra⟩) (slR := slotVisit ⟨b, v, z⟩) (slotVisit_some hr)
          exact ⟨res.jointR, it, by simp only [Node.transformR, q1, Res.ok_bind], i1⟩)
        (by
          cases st with | CC hm hr st =>
          rename_i i m r
          exact ⟨i, m, r, hm, hr,
            ih i m hm (sub' i r hr) (agm i m r hm hr) (tame.slots wf wr hm hr) st⟩)
      exact congrArg (fun a => a >>= JRes.finish) this

theorem Trie.twt_stuck {t u : Trie c K V} (ht : t.Valid hash) (hu : u.Valid hash)
    (tame : ops.Tame hash t.visit u.visit) (look : ops.shortcut (c := c) = none)
    (st : Node.Stuck (Cross.same hash) t.root u.root) : Trie.twt reduce e hash ops par t u = .diverge := by
  rw [Trie.twt, Node.twt_stuck laws reduce e par ht hu agree_root tame look st]; rfl

end
end HT
