import Verif.JointTwt
/-! # When the joint operations do not return -/
namespace HT

variable {K V L W S X R : Type}

/-! ### Loops one of whose iterations does not end -/

theorem Acc.loop_diverge {n : Nat} (reduce : R → R → R) {item item' : Nat → Res (Item n S X R)} {is : List Nat}
    {acc acc' : Acc n S X R} (h' : Acc.loop reduce item' is acc = .ok acc')
    (h : ∀ i ∈ is, item i = .diverge ∨ item i = item' i) :
    (Acc.loop reduce item is acc = .diverge ∧ ∃ i ∈ is, item i = .diverge) ∨
      (Acc.loop reduce item is acc = .ok acc' ∧ ∀ i ∈ is, item i = item' i) := by
  induction is generalizing acc with
  | nil => exact .inr ⟨h', by simp⟩
  | cons i is ih =>
    rw [Acc.loop] at h' ⊢
    rcases h i (by simp) with hd | he
    · exact .inl ⟨by rw [hd]; rfl, i, by simp, hd⟩
    · rw [he]
      obtain ⟨it, h1, h2⟩ := Res.bind_eq_ok.1 h'
      obtain ⟨acc1, h3, h4⟩ := Res.bind_eq_ok.1 h2
      rw [h1]
      simp only [Res.ok_bind, h3]
      rcases ih h4 (fun j hj => h j (List.mem_cons_of_mem _ hj)) with ⟨q1, j, hj, q2⟩ | ⟨q1, q2⟩
      · exact .inl ⟨q1, j, List.mem_cons_of_mem _ hj, q2⟩
      · refine .inr ⟨q1, ?_⟩
        intro j hj
        rcases List.mem_cons.1 hj with rfl | hj
        · exact he
        · exact q2 j hj

theorem gather_diverge {n : Nat} (reduce : R → R → R) (e : R) (par : Par)
    (item : Nat → Res (Item n S X R)) (h : ∀ i, i < n → item i = .diverge ∨ ∃ it, item i = .ok it)
    (hex : ∃ i, i < n ∧ item i = .diverge) : Acc.gather reduce e par item = .diverge := by
  let item' : Nat → Res (Item n S X R) := fun i => match item i with
    | .ok it => .ok it
    | _ => .ok .skip
  have hi' : ∀ i, ∃ it, item' i = .ok it := by
    intro i; simp only [item']; split <;> exact ⟨_, rfl⟩
  have hii : ∀ i, i < n → item i = .diverge ∨ item i = item' i := by
    intro i hi
    rcases h i hi with hd | ⟨it, ho⟩
    · exact .inl hd
    · right; simp only [item', ho]
  have hne : ∀ i, item i = .diverge → item i ≠ item' i := by
    intro i hd; simp only [item', hd]; simp
  obtain ⟨it, acc, h1, _⟩ := gather_choose reduce e par item' (fun _ _ => True)
    (fun i _ => (hi' i).imp fun it h => ⟨h, trivial⟩)
  obtain ⟨i, hi, hd⟩ := hex
  cases par with
  | sequential =>
    rcases Acc.loop_diverge reduce (item := item) h1 (fun j hj => hii j (by simp at hj; omega)) with
      ⟨q, _⟩ | ⟨_, q⟩
    · exact q
    · exact absurd (q i (by simp; omega)) (hne i hd)
  | middleIndex =>
    simp only [Acc.gather] at h1 ⊢
    obtain ⟨l, hl, h2⟩ := Res.bind_eq_ok.1 h1
    obtain ⟨r, hr, h3⟩ := Res.bind_eq_ok.1 h2
    rcases Acc.loop_diverge reduce (item := item) hl (fun j hj => hii j (by simp at hj; omega)) with
      ⟨q, _⟩ | ⟨ql, q⟩
    · rw [q]; rfl
    · rw [ql]
      rcases Acc.loop_diverge reduce (item := item) hr (fun j hj => hii j (by simp at hj; omega)) with
        ⟨q', _⟩ | ⟨_, q'⟩
      · simp only [Res.ok_bind, q']; rfl
      · by_cases hm : i < n / 2
        · exact absurd (q i (by simp; omega)) (hne i hd)
        · exact absurd (q' i (by simp; omega)) (hne i hd)

theorem bothLoop_diverge {n : Nat} {ρ : Type} (reduce : R → R → R) (e : R) (par : Par)
    (bits : BitVec n) (values : List (Node n K V)) (extra : Nat) (ok : (Bia.mk bits values extra).Ok)
    (f : Node n K V → Node n L W → Res ρ)
    (right : Bia n (Node n L W)) (okr : right.Ok) (onlyL : Node n K V → Res ρ) (onlyR : Node n L W → Res ρ)
    (item : Option (Node n K V) → Option (Node n L W) → ρ → Res (Item n S X R))
    (hb : ∀ i m r, (Bia.mk bits values extra).slot i = some m → right.slot i = some r →
      f m r = .diverge ∨ ∃ res it, f m r = .ok res ∧ item (some m) (some r) res = .ok it)
    (hl : ∀ i m, (Bia.mk bits values extra).slot i = some m → right.slot i = none →
      ∃ res it, onlyL m = .ok res ∧ item (some m) none res = .ok it)
    (hr : ∀ i r, (Bia.mk bits values extra).slot i = none → right.slot i = some r →
      ∃ res it, onlyR r = .ok res ∧ item none (some r) res = .ok it)
    (hex : ∃ i m r, (Bia.mk bits values extra).slot i = some m ∧ right.slot i = some r ∧ f m r = .diverge) :
    bothLoop reduce e par ⟨bits, values.map fun m => (m, f m), extra⟩ right onlyL onlyR item = .diverge := by
  have ok' : (Bia.mk bits (values.map fun m => (m, f m)) extra).Ok := by simpa [Bia.Ok] using ok
  apply gather_diverge
  · intro i hi
    simp only [Bia.atBitIndex_eq _ ok', Bia.atBitIndex_eq _ okr, Res.ok_bind, Bia.slot_map]
    cases h1 : (Bia.mk bits values extra).slot i with
    | none =>
      cases h2 : right.slot i with
      | none => exact .inr ⟨.skip, rfl⟩
      | some r =>
        obtain ⟨res, it, e1, e2⟩ := hr i r h1 h2
        refine .inr ⟨it, ?_⟩
        simp only [Option.map_none, bothItem, e1, Res.ok_bind, e2]
    | some m =>
      cases h2 : right.slot i with
      | none =>
        obtain ⟨res, it, e1, e2⟩ := hl i m h1 h2
        refine .inr ⟨it, ?_⟩
        simp only [Option.map_some, bothItem, e1, Res.ok_bind, e2]
      | some r =>
        rcases hb i m r h1 h2 with hd | ⟨res, it, e1, e2⟩
        · left; simp only [Option.map_some, bothItem, hd, Res.diverge_bind]
        · refine .inr ⟨it, ?_⟩
          simp only [Option.map_some, bothItem, e1, Res.ok_bind, e2]
  · obtain ⟨i, m, r, h1, h2, hd⟩ := hex
    refine ⟨i, Bia.slot_lt h1, ?_⟩
    simp only [Bia.atBitIndex_eq _ ok', Bia.atBitIndex_eq _ okr, Res.ok_bind, Bia.slot_map, h1, h2,
      Option.map_some, bothItem, hd, Res.diverge_bind]

theorem flatLoop_diverge {c : Cfg} {ρ : Type} (reduce : R → R → R) (e : R) (h : BitVec c.w) {d : Nat}
    (hd : d * c.b < c.w) (bits : BitVec c.n) (values : List (Node c.n K V)) (extra : Nat)
    (ok : (Bia.mk bits values extra).Ok)
    (f : Node c.n K V → Res ρ) (elsewhere : Node c.n K V → Res ρ) (alone : ρ)
    (item : Option (Node c.n K V) → ρ → Res (Item c.n S X R))
    (hl : ∀ i m, i ≠ chunk c h d → (Bia.mk bits values extra).slot i = some m →
      ∃ res it, elsewhere m = .ok res ∧ item (some m) res = .ok it)
    (hex : ∃ m, (Bia.mk bits values extra).slot (chunk c h d) = some m ∧ f m = .diverge) :
    flatLoop reduce e h d ⟨bits, values.map fun m => (m, f m), extra⟩ elsewhere alone item = .diverge := by
  have ok' : (Bia.mk bits (values.map fun m => (m, f m)) extra).Ok := by simpa [Bia.Ok] using ok
  simp only [flatLoop, flagOf, Flag.newAtDepth_eq h hd, Res.ok_bind, Res.unwrap_some]
  obtain ⟨m0, hm0, hdv⟩ := hex
  have at0 : ∀ i, i < c.n → i = chunk c h d → (do
      let child ← (Bia.mk bits (values.map fun m => (m, f m)) extra).atBitIndex i
      flatItem (flagAt h d).flag i child elsewhere alone item .skip) = .diverge := by
    intro i hi hc
    subst hc
    simp only [Bia.atBitIndex_eq _ ok', Res.ok_bind, Bia.slot_map, hm0]
    simp only [flatItem, nthBit_ok hi, Res.unwrapE_ok, Res.ok_bind, flagAt, Option.map_some, if_true, hdv,
      Res.diverge_bind]
  apply gather_diverge
  · intro i hi
    by_cases hc : i = chunk c h d
    · exact .inl (at0 i hi hc)
    · simp only [Bia.atBitIndex_eq _ ok', Res.ok_bind, Bia.slot_map]
      simp only [flatItem, nthBit_ok hi, Res.unwrapE_ok, Res.ok_bind, flagAt]
      have hne : ¬ bitAt c.n (chunk c h d) = bitAt c.n i :=
        fun e => hc (bitAt_inj hi e.symm)
      right
      cases h1 : (Bia.mk bits values extra).slot i with
      | none =>
        refine ⟨.skip, ?_⟩
        simp only [Option.map_none, hne, if_false]
      | some m =>
        obtain ⟨res, it, e1, e2⟩ := hl i m hc h1
        refine ⟨it, ?_⟩
        simp only [Option.map_some, hne, if_false, e1, Res.ok_bind, e2]
  · exact ⟨chunk c h d, chunk_lt h d, at0 _ (chunk_lt h d) rfl⟩

/-! ### Stalling is a matter of one slot -/

section
variable [BEq K] [BEq L] [BEq S] {c : Cfg} {x : Cross c K L}

omit [BEq K] in
theorem collisions_withHash {hash : K → BitVec c.w} (l : List (K × V)) (h : BitVec c.w) :
    collisions hash l h = (withHash hash l h).length := by
  rw [collisions, withHash, List.countP_eq_length_filter]

/-- The slot of the colliding entries. -/
theorem collisions_slot {hash : K → BitVec c.w} {bits : BitVec c.n} {values : List (Node c.n K V)} {extra d : Nat}
    (wf : (Node.C bits values extra).WF hash c.levels d) {h : BitVec c.w}
    (hc : collisions hash (Node.C bits values extra).visit h ≠ 0) :
    ∃ m, (Bia.mk bits values extra).slot (chunk c h d) = some m ∧
      collisions hash m.visit h = collisions hash (Node.C bits values extra).visit h := by
  cases hs : (Bia.mk bits values extra).slot (chunk c h d) with
  | some m =>
    refine ⟨m, rfl, ?_⟩
    rw [collisions_withHash, collisions_withHash, withHash_slot wf hs, if_pos rfl]
  | none =>
    exfalso
    apply hc
    cases wf with
    | C _ _ _ _ hd ok sz ne at_ sub =>
      rw [collisions_withHash, Node.visit, visit_slots ⟨bits, values, extra⟩ ok,
        withHash_slots (slotVisit_chunk at_) h, slotVisit_none hs]
      rfl

theorem NoStall.not_slots {bits : BitVec c.n} {values : List (Node c.n K V)} {extra d : Nat}
    (wf : (Node.C bits values extra).WF x.hash c.levels d)
    {rbits : BitVec c.n} {rvalues : List (Node c.n L W)} {rextra : Nat}
    (wr : (Node.C rbits rvalues rextra).WF x.hash' c.levels d)
    (ns : ¬ NoStall x (Node.C bits values extra).visit (Node.C rbits rvalues rextra).visit) :
    ∃ i m r, (Bia.mk bits values extra).slot i = some m ∧ (Bia.mk rbits rvalues rextra).slot i = some r ∧
      ¬ NoStall x m.visit r.visit := by
  simp only [NoStall, Classical.not_forall, Nat.not_le] at ns
  obtain ⟨h, h1, h2⟩ := ns
  obtain ⟨m, hm, e1⟩ := collisions_slot wf (h := h) (by omega)
  obtain ⟨r, hr, e2⟩ := collisions_slot wr (h := h) (by omega)
  refine ⟨_, m, r, hm, hr, ?_⟩
  intro hn
  have := hn h (by omega)
  omega

theorem NoStall.not_slotL {bits : BitVec c.n} {values : List (Node c.n K V)} {extra d : Nat}
    (wf : (Node.C bits values extra).WF x.hash c.levels d) {bs : List (L × W)} {hv : BitVec c.w}
    (hb : ∀ b ∈ bs, x.hash' b.1 = hv)
    (ns : ¬ NoStall x (Node.C bits values extra).visit bs) :
    ∃ m, (Bia.mk bits values extra).slot (chunk c hv d) = some m ∧ ¬ NoStall x m.visit bs := by
  simp only [NoStall, Classical.not_forall, Nat.not_le] at ns
  obtain ⟨h, h1, h2⟩ := ns
  have : h = hv := by
    obtain ⟨b, hb', hh⟩ := List.countP_pos_iff.1 (show 0 < List.countP (fun e : L × W => x.hash' e.1 == h) bs by
      unfold collisions at h2; omega)
    rw [← hb b hb', eq_of_beq hh]
  subst this
  obtain ⟨m, hm, e1⟩ := collisions_slot wf (h := h) (by omega)
  refine ⟨m, hm, ?_⟩
  intro hn
  have := hn h (by omega)
  omega

theorem NoStall.not_slotR {bs : List (K × V)} {hv : BitVec c.w} (hb : ∀ b ∈ bs, x.hash b.1 = hv)
    {bits : BitVec c.n} {values : List (Node c.n L W)} {extra d : Nat}
    (wf : (Node.C bits values extra).WF x.hash' c.levels d)
    (ns : ¬ NoStall x bs (Node.C bits values extra).visit) :
    ∃ m, (Bia.mk bits values extra).slot (chunk c hv d) = some m ∧ ¬ NoStall x bs m.visit := by
  simp only [NoStall, Classical.not_forall, Nat.not_le] at ns
  obtain ⟨h, h1, h2⟩ := ns
  have : h = hv := by
    obtain ⟨b, hb', hh⟩ := List.countP_pos_iff.1 (show 0 < List.countP (fun e : K × V => x.hash e.1 == h) bs by
      unfold collisions at h1; omega)
    rw [← hb b hb', eq_of_beq hh]
  subst this
  obtain ⟨m, hm, e1⟩ := collisions_slot wf (h := h) (by omega)
  refine ⟨m, hm, ?_⟩
  intro hn
  have := hn h (by omega)
  omega

/-- Two lists that stall. -/
theorem NoStall.not_lists {this : LNode K V} {right : LNode L W} (wl : this.WF x.hash) (wr : right.WF x.hash')
    (ns : ¬ NoStall x this.visit right.visit) :
    x.hash this.key = x.hash' right.key ∧ right.rights = .diverge := by
  simp only [NoStall, Classical.not_forall, Nat.not_le] at ns
  obtain ⟨h, h1, h2⟩ := ns
  obtain ⟨a, ha, hh⟩ := List.countP_pos_iff.1 (show 0 < List.countP (fun e : K × V => x.hash e.1 == h) this.visit by
    unfold collisions at h1; omega)
  obtain ⟨b, hb, hh'⟩ := List.countP_pos_iff.1 (show 0 < List.countP (fun e : L × W => x.hash' e.1 == h) right.visit by
    unfold collisions at h2; omega)
  refine ⟨by rw [← wl.hash a ha, ← wr.hash b hb, eq_of_beq hh, eq_of_beq hh'], ?_⟩
  have h3 : collisions x.hash' right.visit h ≤ right.visit.length := List.countP_le_length
  cases right with
  | nextL k v l z => rfl
  | nextS k v s z =>
    have h4 : (LNode.nextS k v s z).visit.length = 2 := by simp [LNode.visit, SNode.visit]
    omega

/-! ### transform_with_transmuted -/

section
variable (laws : CrossLaws x) {ops : TwmOps K V L W R} (con : ops.Contract x) (reduce : R → R → R) (e : R)
  (par : Par)

theorem LNode.twmL_stall (this : LNode K V) (wl : this.WF x.hash) (right : LNode L W) (wr : right.WF x.hash')
    (d : Nat) (ns : ¬ NoStall x this.visit right.visit) : this.twmL x reduce ops right d = .diverge := by
  obtain ⟨h1, h2⟩ := NoStall.not_lists wl wr ns
  rw [LNode.twmL, if_pos h1, h2]; rfl

include laws

theorem Node.twmL_stall (right : LNode L W) (wr : right.WF x.hash') {d : Nat} {m : Node c.n K V}
    (wf : m.WF x.hash c.levels d) (ns : ¬ NoStall x m.visit right.visit) :
    m.twmL x reduce e ops par right d = .diverge := by
  induction wf with
  | S d s => exact absurd (.of_left_one (by simp [Node.visit, SNode.visit])) ns
  | L d l hl => exact LNode.twmL_stall reduce l hl right wr d ns
  | C d bits values extra hd ok sz ne at_ sub ih =>
    have wf : (Node.C bits values extra).WF x.hash c.levels d := .C d bits values extra hd ok sz ne at_ sub
    obtain ⟨m, hm, nsm⟩ := NoStall.not_slotL wf wr.hash ns
    rw [Node.twmL, Node.fold, Node.foldAll_eq]
    have := flatLoop_diverge reduce e (x.hash' right.key) (c.levels_within d hd) bits values extra ok
      (fun m => m.twmL x reduce e ops par right (d + 1)) (fun m => m.transform reduce e ops.left par)
      ((right.transmute reduce ops.right).map LNext.toNode).toT (fun left? res => res.itemOpt false left?)
      (by
        intro i m _ hm
        obtain ⟨res, q1, _⟩ := (ops.aloneL reduce e).node laws.left.hash par (sub _ _ hm)
        obtain ⟨it, i1, _⟩ := TRes.itemOpt_some false m res
        exact ⟨res, it, q1, i1⟩)
      ⟨m, hm, ih _ m hm nsm⟩
    exact congrArg (fun a => a >>= TRes.finish) this

end

/-! ### transmute_with_transformed -/

section
variable (laws : CrossLaws x) {ops : MwtOps K V L W R} (con : ops.Contract x) (reduce : R → R → R) (e : R)
  (par : Par)
include laws con

theorem Node.mwtL_stall (right : LNode L W) (wr : right.WF x.hash') {d : Nat} {m : Node c.n K V}
    (wf : m.WF x.hash c.levels d) (ns : ¬ NoStall x.flip right.visit m.visit) :
    m.mwtL x reduce e ops right d = .diverge := by
  induction wf with
  | S d s => exact absurd (.of_right_two (by simp [Node.visit, SNode.visit])) ns
  | L d l hl => exact LNode.twmL_stall (x := x.flip) reduce right wr l hl d ns
  | C d bits values extra hd ok sz ne at_ sub ih =>
    have wf : (Node.C bits values extra).WF x.hash c.levels d := .C d bits values extra hd ok sz ne at_ sub
    obtain ⟨m, hm, nsm⟩ := NoStall.not_slotR (x := x.flip) wr.hash wf ns
    rw [Node.mwtL, Node.fold, Node.foldAll_eq]
    have := flatLoop_diverge reduce e (x.hash' right.key) (c.levels_within d hd) bits values extra ok
      (fun m => m.mwtL x reduce e ops right (d + 1)) (fun m => do
        let res ← m.transmute reduce e ops.left
        .ok res.toT)
      ((right.transform reduce ops.right).map LNext.toNode)
      (fun _ res => res.itemOpt false (some (.L right)))
      (by
        intro i m _ hm
        obtain ⟨res, q1, g⟩ := (ops.aloneL reduce e).node
          ((ops.aloneL reduce e).keymapL (MwtOps.keyed laws con reduce e)) (sub _ _ hm)
        obtain ⟨it, i1, _⟩ := XRes.itemOpt_toT false (some (.L right : Node c.n L W)) res
        exact ⟨res.toT, it, by simp only [q1, Res.ok_bind], i1⟩)
      ⟨m, hm, ih _ m hm nsm⟩
    exact congrArg (fun a => a >>= TRes.finish) this

end

section
variable (laws : CrossLaws x) {ops : TwmOps K V L W R} (con : ops.Contract x) (reduce : R → R → R) (e : R)
  (par : Par)
include laws con

theorem Node.twm_stall {d : Nat} {m : Node c.n K V} (wf : m.WF x.hash c.levels d) {r : Node c.n L W}
    (wr : r.WF x.hash' c.levels d)
    (ag : ∀ a ∈ m.visit, ∀ b ∈ r.visit, Agree c d (x.hash a.1) (x.hash' b.1))
    (ns : ¬ NoStall x m.visit r.visit) : m.twm x reduce e ops par r d = .diverge := by
  induction wf generalizing r with
  | S d s => exact absurd (.of_left_one (by simp [Node.visit, SNode.visit])) ns
  | L d l wl =>
    cases wr with
    | S _ r => exact absurd (.of_right_two (by simp [Node.visit, SNode.visit])) ns
    | L _ r wr => exact LNode.twmL_stall reduce l wl r wr d ns
    | C _ b v z hd ok sz ne at_ sub =>
      have wr : (Node.C b v z).WF x.hash' c.levels d := .C d b v z hd ok sz ne at_ sub
      exact Node.mwtL_stall laws.flip (con.flip laws) reduce e l wl wr ns
  | C d bits values extra hd ok sz ne at_ sub ih =>
    have wf : (Node.C bits values extra).WF x.hash c.levels d := .C d bits values extra hd ok sz ne at_ sub
    rw [Node.twm, Node.fold]
    cases wr with
    | S _ r => exact absurd (.of_right_two (by simp [Node.visit, SNode.visit])) ns
    | L _ r wr =>
      simp only [twmC, Node.foldAll_fst]
      exact Node.twmL_stall laws reduce e par r wr wf ns
    | C _ b v z hd' ok' sz' ne' at_' sub' =>
      have wr : (Node.C b v z).WF x.hash' c.levels d := .C d b v z hd' ok' sz' ne' at_' sub'
      simp only [twmC, twmCC, Node.foldAll_eq]
      have agm : ∀ i m r, (Bia.mk bits values extra).slot i = some m → (Bia.mk b v z).slot i = some r →
          ∀ a ∈ m.visit, ∀ b ∈ r.visit, Agree c (d + 1) (x.hash a.1) (x.hash' b.1) :=
        fun i m r hm hr a ha b hb => (ag a ((slotVisit_sublist hm).subset ha) b
          ((slotVisit_sublist hr).subset hb)).succ ((at_ i m hm a ha).trans (at_' i r hr b hb).symm)
      have := bothLoop_diverge reduce e .sequential bits values extra ok
        (fun m r => m.twm x reduce e ops par r (d + 1)) ⟨b, v, z⟩ ok'
        (fun m => m.transform reduce e ops.left par)
        (fun m => do
          let res ← m.transmute reduce e ops.right
          .ok res.toT)
        (fun left? _ res => res.itemOpt true left?)
        (by
          intro i m r hm hr
          by_cases nsm : NoStall x m.visit r.visit
          · obtain ⟨res, q1, _⟩ := Node.twm_spec laws con reduce e par (sub _ _ hm) (sub' _ _ hr)
              (agm i m r hm hr) nsm
            obtain ⟨it, i1, _⟩ := TRes.itemOpt_some true m res
            exact .inr ⟨res, it, q1, i1⟩
          · exact .inl (ih i m hm (sub' i r hr) (agm i m r hm hr) nsm))
        (by
          intro i m hm _
          obtain ⟨res, q1, _⟩ := (ops.aloneL reduce e).node laws.left.hash par (sub _ _ hm)
          obtain ⟨it, i1, _⟩ := TRes.itemOpt_some true m res
          exact ⟨res, it, q1, i1⟩)
        (by
          intro i r _ hr
          obtain ⟨res, q1, g⟩ := (ops.aloneR reduce e).node
            ((ops.aloneR reduce e).keymapR (TwmOps.keyed laws con reduce e)) (sub' _ _ hr)
          obtain ⟨it, i1, _⟩ := XRes.itemOpt_toT true none res
          exact ⟨res.toT, it, by simp only [q1, Res.ok_bind], i1⟩)
        (by
          obtain ⟨i, m, r, hm, hr, nsm⟩ := NoStall.not_slots wf wr ns
          exact ⟨i, m, r, hm, hr, ih i m hm (sub' i r hr) (agm i m r hm hr) nsm⟩)
      exact congrArg (fun a => a >>= TRes.finish) this

end

section
variable (laws : CrossLaws x) {ops : MwtOps K V L W R} (con : ops.Contract x) (reduce : R → R → R) (e : R)
  (par : Par)
include laws con

theorem Node.mwt_stall {d : Nat} {m : Node c.n K V} (wf : m.WF x.hash c.levels d) {r : Node c.n L W}
    (wr : r.WF x.hash' c.levels d)
    (ag : ∀ a ∈ m.visit, ∀ b ∈ r.visit, Agree c d (x.hash a.1) (x.hash' b.1))
    (ns : ¬ NoStall x.flip r.visit m.visit) : m.mwt x reduce e ops par r d = .diverge := by
  induction wf generalizing r with
  | S d s => exact absurd (.of_right_two (by simp [Node.visit, SNode.visit])) ns
  | L d l wl =>
    cases wr with
    | S _ r => exact absurd (.of_left_one (by simp [Node.visit, SNode.visit])) ns
    | L _ r wr => exact LNode.twmL_stall (x := x.flip) reduce r wr l wl d ns
    | C _ b v z hd ok sz ne at_ sub =>
      have wr : (Node.C b v z).WF x.hash' c.levels d := .C d b v z hd ok sz ne at_ sub
      exact Node.twmL_stall laws.flip reduce e par l wl wr ns
  | C d bits values extra hd ok sz ne at_ sub ih =>
    have wf : (Node.C bits values extra).WF x.hash c.levels d := .C d bits values extra hd ok sz ne at_ sub
    rw [Node.mwt, Node.fold]
    cases wr with
    | S _ r => exact absurd (.of_left_one (by simp [Node.visit, SNode.visit])) ns
    | L _ r wr =>
      simp only [mwtC, Node.foldAll_fst]
      exact Node.mwtL_stall laws con reduce e r wr wf ns
    | C _ b v z hd' ok' sz' ne' at_' sub' =>
      have wr : (Node.C b v z).WF x.hash' c.levels d := .C d b v z hd' ok' sz' ne' at_' sub'
      simp only [mwtC, mwtCC, Node.foldAll_eq]
      have agm : ∀ i m r, (Bia.mk bits values extra).slot i = some m → (Bia.mk b v z).slot i = some r →
          ∀ a ∈ m.visit, ∀ b ∈ r.visit, Agree c (d + 1) (x.hash a.1) (x.hash' b.1) :=
        fun i m r hm hr a ha b hb => (ag a ((slotVisit_sublist hm).subset ha) b
          ((slotVisit_sublist hr).subset hb)).succ ((at_ i m hm a ha).trans (at_' i r hr b hb).symm)
      have := bothLoop_diverge reduce e .sequential bits values extra ok
        (fun m r => m.mwt x reduce e ops par r (d + 1)) ⟨b, v, z⟩ ok'
        (fun m => do
          let res ← m.transmute reduce e ops.left
          .ok res.toT)
        (fun m => m.transform reduce e ops.right par)
        (fun _ right? res => res.itemOpt true right?)
        (by
          intro i m r hm hr
          by_cases nsm : NoStall x.flip r.visit m.visit
          · obtain ⟨res, q1, _⟩ := Node.mwt_spec laws con reduce e par (sub _ _ hm) (sub' _ _ hr)
              (agm i m r hm hr) nsm
            obtain ⟨it, i1, _⟩ := TRes.itemOpt_some true r res
            exact .inr ⟨res, it, q1, i1⟩
          · exact .inl (ih i m hm (sub' i r hr) (agm i m r hm hr) nsm))
        (by
          intro i m hm _
          obtain ⟨res, q1, g⟩ := (ops.aloneL reduce e).node
            ((ops.aloneL reduce e).keymapL (MwtOps.keyed laws con reduce e)) (sub _ _ hm)
          obtain ⟨it, i1, _⟩ := XRes.itemOpt_toT true none res
          exact ⟨res.toT, it, by simp only [q1, Res.ok_bind], i1⟩)
        (by
          intro i r _ hr
          obtain ⟨res, q1, _⟩ := (ops.aloneR reduce e).node laws.right.hash par (sub' _ _ hr)
          obtain ⟨it, i1, _⟩ := TRes.itemOpt_some true r res
          exact ⟨res, it, q1, i1⟩)
        (by
          obtain ⟨i, r, m, hr, hm, nsm⟩ := NoStall.not_slots (x := x.flip) wr wf ns
          exact ⟨i, m, r, hm, hr, ih i m hm (sub' i r hr) (agm i m r hm hr) nsm⟩)
      exact congrArg (fun a => a >>= TRes.finish) this

end

/-- The operations that treat both sides alike do not return on these tries: descending both along the same slots one
    meets a collision list on one side, and at least three entries with its hash in the operand handed down as the right
    one, which is the left one if it is a list and the right one still branches. -/
inductive Node.Stuck {c : Cfg} (x : Cross c K L) : Node c.n K V → Node c.n L W → Prop
  | LL {l : LNode K V} {r : LNode L W} (h : ¬ NoStall x l.visit r.visit) : Node.Stuck x (.L l) (.L r)
  | LC {l : LNode K V} {b : BitVec c.n} {v : List (Node c.n L W)} {z : Nat}
      (h : ¬ NoStall x.flip (Node.C b v z).visit l.visit) : Node.Stuck x (.L l) (.C b v z)
  | CL {b : BitVec c.n} {v : List (Node c.n K V)} {z : Nat} {r : LNode L W}
      (h : ¬ NoStall x (Node.C b v z).visit r.visit) : Node.Stuck x (.C b v z) (.L r)
  | CC {b : BitVec c.n} {v : List (Node c.n K V)} {z : Nat} {b' : BitVec c.n} {v' : List (Node c.n L W)} {z' : Nat}
      {i : Nat} {m : Node c.n K V} {r : Node c.n L W} (hm : (Bia.mk b v z).slot i = some m)
      (hr : (Bia.mk b' v' z').slot i = some r) (h : Node.Stuck x m r) : Node.Stuck x (.C b v z) (.C b' v' z')

/-! ### transmute_with_transmuted -/

section
variable (laws : CrossLaws x) {hashS : S → BitVec c.w} (lawsS : KeyLaws hashS) {ops : MwmOps K V L W S X R}
  (con : ops.Contract x hashS) (reduce : R → R → R) (e : R)
include laws lawsS con

theorem LNode.mwmL_stall (this : LNode K V) (wl : this.WF x.hash) (right : LNode L W) (wr : right.WF x.hash')
    (d : Nat) (ns : ¬ NoStall x this.visit right.visit) : this.mwmL x reduce ops right d = .diverge := by
  obtain ⟨h1, h2⟩ := NoStall.not_lists wl wr ns
  rw [LNode.mwmL, if_pos h1, h2]; rfl

theorem Node.mwmL_stall (right : LNode L W) (wr : right.WF x.hash') {d : Nat} {m : Node c.n K V}
    (wf : m.WF x.hash c.levels d) (ns : ¬ NoStall x m.visit right.visit) :
    m.mwmL x reduce e ops right d = .diverge := by
  induction wf with
  | S d s => exact absurd (.of_left_one (by simp [Node.visit, SNode.visit])) ns
  | L d l hl => exact LNode.mwmL_stall laws lawsS con reduce l hl right wr d ns
  | C d bits values extra hd ok sz ne at_ sub ih =>
    have wf : (Node.C bits values extra).WF x.hash c.levels d := .C d bits values extra hd ok sz ne at_ sub
    obtain ⟨m, hm, nsm⟩ := NoStall.not_slotL wf wr.hash ns
    rw [Node.mwmL, Node.fold, Node.foldAll_eq]
    have := flatLoop_diverge reduce e (x.hash' right.key) (c.levels_within d hd) bits values extra ok
      (fun m => m.mwmL x reduce e ops right (d + 1)) (fun m => m.transmute reduce e ops.left)
      ((right.transmute reduce ops.right).map LNext.toNode) (fun _ res => .ok res.item)
      (by
        intro i m _ hm
        obtain ⟨res, q1, g⟩ := (ops.aloneL reduce e).node
          ((ops.aloneL reduce e).keymapL (MwmOps.keyed laws lawsS con reduce e)) (sub _ _ hm)
        exact ⟨res, _, q1, rfl⟩)
      ⟨m, hm, ih _ m hm nsm⟩
    exact congrArg (fun a => a >>= XRes.finish) this

/-- The operation is right, or does not return. -/
theorem Node.mwm_total {d : Nat} {m : Node c.n K V} (wf : m.WF x.hash c.levels d) {r : Node c.n L W}
    (wr : r.WF x.hash' c.levels d)
    (ag : ∀ a ∈ m.visit, ∀ b ∈ r.visit, Agree c d (x.hash a.1) (x.hash' b.1)) :
    (m.mwm x reduce e ops r d = .diverge ∧ Node.Stuck x m r) ∨ ∃ res, m.mwm x reduce e ops r d = .ok res ∧
      Good (ops.sem reduce e) hashS d True (x.cases m.visit r.visit) res.get res.red := by
  have item : ∀ res : XRes (Node c.n S X) R, res.item.node? = res.get ∧ res.item.red? = some res.red := by
    intro res; cases res <;> exact ⟨rfl, rfl⟩
  induction wf generalizing r with
  | S d s =>
    exact .inr (Node.mwm_spec laws lawsS con reduce e (.S d s) wr ag
      (.of_left_one (by simp [Node.visit, SNode.visit])) (.of_right_two (by simp [Node.visit, SNode.visit])))
  | L d l wl =>
    cases wr with
    | S _ r => exact .inr (Node.mwm_spec laws lawsS con reduce e (.L d l wl) (.S d r) ag
        (.of_right_two (by simp [Node.visit, SNode.visit])) (.of_left_one (by simp [Node.visit, SNode.visit])))
    | L _ r wr =>
      by_cases ns : NoStall x l.visit r.visit
      · exact .inr (LNode.mwmL_spec laws lawsS con reduce e l wl r wr (ag _ l.mem_visit _ r.mem_visit) ns)
      · exact .inl ⟨LNode.mwmL_stall laws lawsS con reduce l wl r wr d ns, .LL ns⟩
    | C _ b v z hd ok sz ne at_ sub =>
      have wr : (Node.C b v z).WF x.hash' c.levels d := .C d b v z hd ok sz ne at_ sub
      by_cases ns : NoStall x.flip (Node.C b v z).visit l.visit
      · obtain ⟨res, h1, g⟩ := Node.mwmL_spec laws.flip lawsS (con.flip laws) reduce e l wl wr
          (fun b hb => (ag _ l.mem_visit b hb).symm) ns
        exact .inr ⟨res, h1, MwmOps.good_flip laws wl.keys (Node.WF.distinct laws.right.hash wr) g⟩
      · exact .inl ⟨Node.mwmL_stall laws.flip lawsS (con.flip laws) reduce e l wl wr ns, .LC ns⟩
  | C d bits values extra hd ok sz ne at_ sub ih =>
    have wf : (Node.C bits values extra).WF x.hash c.levels d := .C d bits values extra hd ok sz ne at_ sub
    rw [Node.mwm, Node.fold]
    cases wr with
    | S _ r =>
      simp only [mwmC, Node.foldAll_fst]
      exact .inr (Node.mwmS_spec laws lawsS con reduce e r wf (fun a ha => ag a ha _ r.mem_visit))
    | L _ r wr =>
      simp only [mwmC, Node.foldAll_fst]
      by_cases ns : NoStall x (Node.C bits values extra).visit r.visit
      · exact .inr (Node.mwmL_spec laws lawsS con reduce e r wr wf (fun a ha => ag a ha _ r.mem_visit) ns)
      · exact .inl ⟨Node.mwmL_stall laws lawsS con reduce e r wr wf ns, .CL ns⟩
    | C _ b v z hd' ok' sz' ne' at_' sub' =>
      have wr : (Node.C b v z).WF x.hash' c.levels d := .C d b v z hd' ok' sz' ne' at_' sub'
      simp only [mwmC, mwmCC, Node.foldAll_eq]
      have ihm : ∀ i m r, (Bia.mk bits values extra).slot i = some m → (Bia.mk b v z).slot i = some r → _ :=
        fun i m r hm hr => ih i m hm (sub' i r hr)
          (fun a ha b hb => (ag a ((slotVisit_sublist hm).subset ha) b ((slotVisit_sublist hr).subset hb)).succ
              ((at_ i m hm a ha).trans (at_' i r hr b hb).symm))
      have hl : ∀ i m, (Bia.mk bits values extra).slot i = some m → _ := fun i m hm =>
        (ops.aloneL reduce e).node ((ops.aloneL reduce e).keymapL (MwmOps.keyed laws lawsS con reduce e)) (sub i m hm)
      have hr : ∀ i m, (Bia.mk b v z).slot i = some m → _ := fun i m hm =>
        (ops.aloneR reduce e).node ((ops.aloneR reduce e).keymapR (MwmOps.keyed laws lawsS con reduce e)) (sub' i m hm)
      by_cases hex : ∃ i m r, (Bia.mk bits values extra).slot i = some m ∧ (Bia.mk b v z).slot i = some r ∧
          m.mwm x reduce e ops r (d + 1) = .diverge
      · left
        have := bothLoop_diverge reduce e .sequential bits values extra ok
          (fun m r => m.mwm x reduce e ops r (d + 1)) ⟨b, v, z⟩ ok'
          (fun m => m.transmute reduce e ops.left)
          (fun m => m.transmute reduce e ops.right)
          (fun _ _ res => .ok res.item)
          (by
            intro i m r hm hr
            rcases ihm i m r hm hr with ⟨hd, _⟩ | ⟨res, q1, _⟩
            · exact .inl hd
            · exact .inr ⟨res, _, q1, rfl⟩)
          (by
            intro i m hm _
            obtain ⟨res, q1, _⟩ := hl i m hm
            exact ⟨res, _, q1, rfl⟩)
          (by
            intro i r _ hm
            obtain ⟨res, q1, _⟩ := hr i r hm
            exact ⟨res, _, q1, rfl⟩)
          hex
        obtain ⟨i, m, r, hm, hr, hd⟩ := hex
        refine ⟨congrArg (fun a => a >>= XRes.finish) this, .CC hm hr ?_⟩
        rcases ihm i m r hm hr with ⟨_, st⟩ | ⟨res, q1, _⟩
        · exact st
        · rw [q1] at hd; simp at hd
      · right
        obtain ⟨acc, h1, h2⟩ := both_looped (s := ops.sem reduce e) (hashS := hashS) laws wf wr .sequential
          (fun m r => m.mwm x reduce e ops r (d + 1))
          (fun m => m.transmute reduce e ops.left)
          (fun m => m.transmute reduce e ops.right)
          (fun _ _ res => .ok res.item) (fun _ _ _ => True)
          (by
            intro i m r hm hr
            rcases ihm i m r hm hr with ⟨hd, _⟩ | ⟨res, q1, g⟩
            · exact absurd ⟨i, m, r, hm, hr, hd⟩ hex
            · exact ⟨res, _, q1, rfl, .of g trivial (item res).1 (item res).2, trivial⟩)
          (by
            intro i m hm _
            obtain ⟨res, q1, g⟩ := hl i m hm
            exact ⟨res, _, q1, rfl, .of g (ne _ _ hm) (item res).1 (item res).2, trivial⟩)
          (by
            intro i r _ hr'
            obtain ⟨res, q1, g⟩ := hr i r hr'
            exact ⟨res, _, q1, rfl, .of g (ne' _ _ hr') (item res).1 (item res).2, trivial⟩)
          (fun _ _ _ => trivial)
        obtain ⟨res, e1, g⟩ := h2.finishX (MwmOps.keyed laws lawsS con reduce e) hd
        exact ⟨res, (congrArg (fun a => a >>= XRes.finish) h1).trans e1, g⟩

end
end

/-! ### transform_with_transformed -/

section
variable [BEq K] {c : Cfg} {hash : K → BitVec c.w} (laws : KeyLaws hash) {ops : TwtOps K V R}
  (reduce : R → R → R) (e : R) (par : Par)
include laws

theorem LNode.twtL_stall (this : LNode K V) (wl : this.WF hash) (right : LNode K V) (wr : right.WF hash)
    (d : Nat) (ns : ¬ NoStall (Cross.same hash) this.visit right.visit) :
    this.twtL reduce hash ops right d = .diverge := by
  obtain ⟨h1, h2⟩ := NoStall.not_lists (x := Cross.same hash) wl wr ns
  have h1 : hash this.key = hash right.key := h1
  rw [LNode.twtL, if_pos h1, h2]; rfl

theorem Node.twtL_stall (right : LNode K V) (wr : right.WF hash) {d : Nat} {m : Node c.n K V}
    (wf : m.WF hash c.levels d) (ns : ¬ NoStall (Cross.same hash) m.visit right.visit) :
    m.twtL reduce e hash ops par right d = .diverge := by
  induction wf with
  | S d s => exact absurd (.of_left_one (by simp [Node.visit, SNode.visit])) ns
  | L d l hl => exact LNode.twtL_stall laws reduce l hl right wr d ns
  | C d bits values extra hd ok sz ne at_ sub ih =>
    have wf : (Node.C bits values extra).WF hash c.levels d := .C d bits values extra hd ok sz ne at_ sub
    obtain ⟨m, hm, nsm⟩ := NoStall.not_slotL (x := Cross.same hash) wf wr.hash ns
    rw [Node.twtL, Node.fold, Node.foldAll_eq]
    have := flatLoop_diverge reduce e (hash right.key) (c.levels_within d hd) bits values extra ok
      (fun m => m.twtL reduce e hash ops par right (d + 1)) (Node.transformL reduce e par ops.left)
      ((right.transform reduce ops.right).map LNext.toNode).jointR
      (fun left? res => res.itemOpt left? (some (.L right)))
      (by
        intro i m _ hm
        obtain ⟨res, q1, g⟩ := (ops.aloneL reduce e).node laws.hash par (sub _ _ hm)
        obtain ⟨it, i1, _⟩ := TRes.jointL_good g (ne _ _ hm) (some (.L right))
          (slL := slotVisit ⟨bits, values, extra⟩) (slR := slotVisit ⟨bits, values, extra⟩) (slotVisit_some hm)
        exact ⟨res.jointL, it, by simp only [Node.transformL, q1, Res.ok_bind], i1⟩)
      ⟨m, hm, ih _ m hm nsm⟩
    exact congrArg (fun a => a >>= JRes.finish) this

/-- The operation is right, or does not return. -/
theorem Node.twt_total {d : Nat} {m : Node c.n K V} (wf : m.WF hash c.levels d) {r : Node c.n K V}
    (wr : r.WF hash c.levels d)
    (ag : ∀ a ∈ m.visit, ∀ b ∈ r.visit, Agree c d (hash a.1) (hash b.1))
    (tame : ops.Tame hash m.visit r.visit) :
    (m.twt reduce e hash ops par r d = .diverge ∧ Node.Stuck (Cross.same hash) m r) ∨ ∃ res, m.twt reduce e hash ops par r d = .ok res ∧
      JGood (ops.sem reduce e) hash d (m.visit ≠ [] ∧ r.visit ≠ []) ((Cross.same hash).cases m.visit r.visit) m r
        res := by
  induction wf generalizing r with
  | S d s =>
    exact .inr (Node.twt_spec laws reduce e par (.S d s) wr ag tame
      (.of_left_one (by simp [Node.visit, SNode.visit])) (.of_right_two (by simp [Node.visit, SNode.visit])))
  | L d l wl =>
    cases wr with
    | S _ r => exact .inr (Node.twt_spec laws reduce e par (.L d l wl) (.S d r) ag tame
        (.of_right_two (by simp [Node.visit, SNode.visit])) (.of_left_one (by simp [Node.visit, SNode.visit])))
    | L _ r wr =>
      by_cases ns : NoStall (Cross.same hash) l.visit r.visit
      · obtain ⟨res, h1, g⟩ := LNode.twtL_spec laws ops reduce e l wl r wr (ag _ l.mem_visit _ r.mem_visit) tame ns
        exact .inr ⟨res, h1, g.mono (fun _ => trivial)⟩
      · exact .inl ⟨LNode.twtL_stall laws reduce l wl r wr d ns, .LL ns⟩
    | C _ b v z hd ok sz ne at_ sub =>
      have wr : (Node.C b v z).WF hash c.levels d := .C d b v z hd ok sz ne at_ sub
      by_cases ns : NoStall (Cross.same hash) (Node.C b v z).visit l.visit
      · obtain ⟨res, h1, g⟩ := Node.twtL_spec laws (ops := ops.flip) reduce e par l wl wr
          (fun b hb => (ag _ l.mem_visit b hb).symm) tame.flip ns
        exact .inr ⟨res.flip, (congrArg JRes.flipR h1).trans rfl,
          (g.flip laws wl.keys (Node.WF.distinct laws.hash wr)).mono (fun h => h.2)⟩
      · exact .inl ⟨(congrArg JRes.flipR (Node.twtL_stall laws (ops := ops.flip) reduce e par l wl wr ns)).trans rfl, .LC ns⟩
  | C d bits values extra hd ok sz ne at_ sub ih =>
    have wf : (Node.C bits values extra).WF hash c.levels d := .C d bits values extra hd ok sz ne at_ sub
    rw [Node.twt, Node.fold]
    cases wr with
    | S _ r =>
      simp only [twtC, Node.foldAll_fst]
      obtain ⟨res, h1, g⟩ := Node.twtS_spec laws reduce e par r wf (fun a ha => ag a ha _ r.mem_visit) tame
      exact .inr ⟨res, h1, g.mono (fun h => h.1)⟩
    | L _ r wr =>
      simp only [twtC, Node.foldAll_fst]
      by_cases ns : NoStall (Cross.same hash) (Node.C bits values extra).visit r.visit
      · obtain ⟨res, h1, g⟩ := Node.twtL_spec laws reduce e par r wr wf (fun a ha => ag a ha _ r.mem_visit) tame ns
        exact .inr ⟨res, h1, g.mono (fun h => h.1)⟩
      · exact .inl ⟨Node.twtL_stall laws reduce e par r wr wf ns, .CL ns⟩
    | C _ b v z hd' ok' sz' ne' at_' sub' =>
      have wr : (Node.C b v z).WF hash c.levels d := .C d b v z hd' ok' sz' ne' at_' sub'
      simp only [twtC, twtCC, Node.foldAll_eq]
      cases hsc : (ops.shortcut : Option (JRes (Node c.n K V) R)) with
      | some res => exact .inr ⟨res, rfl, TwtOps.shortcut_good laws reduce e wf wr hsc⟩
      | none =>
        have hb : ∀ i m r, (Bia.mk bits values extra).slot i = some m → (Bia.mk b v z).slot i = some r →
            (m.twt reduce e hash ops par r (d + 1) = .diverge ∧ Node.Stuck (Cross.same hash) m r) ∨
            ∃ res it, m.twt reduce e hash ops par r (d + 1) = .ok res ∧ res.itemOpt (some m) (some r) = .ok it ∧
              ItemGood (ops.sem reduce e) hash d ((Cross.same hash).cases m.visit r.visit) it ∧
              KeepJ (ops.sem reduce e) (slotVisit ⟨bits, values, extra⟩) (slotVisit ⟨b, v, z⟩) i
                ((Cross.same hash).cases m.visit r.visit) it := by
          intro i m r hm hr
          rcases ih i m hm (sub' i r hr)
              (fun a ha b hb => (ag a ((slotVisit_sublist hm).subset ha) b ((slotVisit_sublist hr).subset hb)).succ
                ((at_ i m hm a ha).trans (at_' i r hr b hb).symm))
              (tame.slots wf wr hm hr) with hd | ⟨res, q1, g⟩
          · exact .inl hd
          obtain ⟨it, i1, i2, i3⟩ := g.itemOpt_good ⟨ne _ _ hm, ne' _ _ hr⟩ (some m) (some r) (fun _ _ => rfl)
            (fun _ _ => rfl) (slL := slotVisit ⟨bits, values, extra⟩) (slR := slotVisit ⟨b, v, z⟩)
            (i := i) (fun _ => slotVisit_some hm) (fun _ _ => slotVisit_some hr)
          exact .inr ⟨res, it, q1, i1, i2, i3⟩
        have hl : ∀ i m, (Bia.mk bits values extra).slot i = some m → (Bia.mk b v z).slot i = none →
            ∃ res it, Node.transformL reduce e par ops.left m = .ok res ∧ res.itemOpt (some m) none = .ok it ∧
              ItemGood (ops.sem reduce e) hash d (m.visit.map Case.left) it ∧
              KeepJ (ops.sem reduce e) (slotVisit ⟨bits, values, extra⟩) (slotVisit ⟨b, v, z⟩) i
                (m.visit.map Case.left) it := by
          intro i m hm _
          obtain ⟨res, q1, g⟩ := (ops.aloneL reduce e).node laws.hash par (sub _ _ hm)
          obtain ⟨it, i1, i2, i3⟩ := TRes.jointL_good g (ne _ _ hm) none
            (slL := slotVisit ⟨bits, values, extra⟩) (slR := slotVisit ⟨b, v, z⟩) (slotVisit_some hm)
          exact ⟨res.jointL, it, by simp only [Node.transformL, q1, Res.ok_bind], i1, i2, i3⟩
        have hr : ∀ i r, (Bia.mk bits values extra).slot i = none → (Bia.mk b v z).slot i = some r →
            ∃ res it, Node.transformR reduce e par ops.right r = .ok res ∧ res.itemOpt none (some r) = .ok it ∧
              ItemGood (ops.sem reduce e) hash d (r.visit.map Case.right) it ∧
              KeepJ (ops.sem reduce e) (slotVisit ⟨bits, values, extra⟩) (slotVisit ⟨b, v, z⟩) i
                (r.visit.map Case.right) it := by
          intro i r _ hr
          obtain ⟨res, q1, g⟩ := (ops.aloneR reduce e).node laws.hash par (sub' _ _ hr)
          obtain ⟨it, i1, i2, i3⟩ := TRes.jointR_good g (ne' _ _ hr)
            (slL := slotVisit ⟨bits, values, extra⟩) (slR := slotVisit ⟨b, v, z⟩) (slotVisit_some hr)
          exact ⟨res.jointR, it, by simp only [Node.transformR, q1, Res.ok_bind], i1, i2, i3⟩
        by_cases hex : ∃ i m r, (Bia.mk bits values extra).slot i = some m ∧ (Bia.mk b v z).slot i = some r ∧
            m.twt reduce e hash ops par r (d + 1) = .diverge
        · left
          have := bothLoop_diverge reduce e par bits values extra ok
            (fun m r => m.twt reduce e hash ops par r (d + 1)) ⟨b, v, z⟩ ok'
            (Node.transformL reduce e par ops.left) (Node.transformR reduce e par ops.right)
            (fun left? right? res => res.itemOpt left? right?)
            (by
              intro i m r hm hr
              rcases hb i m r hm hr with ⟨hd, _⟩ | ⟨res, it, q1, q2, _⟩
              · exact .inl hd
              · exact .inr ⟨res, it, q1, q2⟩)
            (by
              intro i m hm hr
              obtain ⟨res, it, q1, q2, _⟩ := hl i m hm hr
              exact ⟨res, it, q1, q2⟩)
            (by
              intro i r hm hr'
              obtain ⟨res, it, q1, q2, _⟩ := hr i r hm hr'
              exact ⟨res, it, q1, q2⟩)
            hex
          obtain ⟨i, m, r, hm, hr, hd⟩ := hex
          refine ⟨congrArg (fun a => a >>= JRes.finish) this, .CC hm hr ?_⟩
          rcases hb i m r hm hr with ⟨_, st⟩ | ⟨res, it, q1, _⟩
          · exact st
          · rw [q1] at hd; simp at hd
        · right
          obtain ⟨acc, h1, h2⟩ := both_looped (x := Cross.same hash) (s := ops.sem reduce e) (hashS := hash)
            (.same laws) wf wr par
            (fun m r => m.twt reduce e hash ops par r (d + 1)) (Node.transformL reduce e par ops.left)
            (Node.transformR reduce e par ops.right)
            (fun left? right? res => res.itemOpt left? right?)
            (KeepJ (ops.sem reduce e) (slotVisit ⟨bits, values, extra⟩) (slotVisit ⟨b, v, z⟩))
            (by
              intro i m r hm hr
              rcases hb i m r hm hr with ⟨hd, _⟩ | h
              · exact absurd ⟨i, m, r, hm, hr, hd⟩ hex
              · exact h)
            hl hr
            (fun i hm hr => .skip (slotVisit_none hm) (slotVisit_none hr))
          obtain ⟨res, e1, g⟩ := h2.finishJ (TwtOps.keyed laws ops reduce e) hd wf wr
            (by rw [Node.visit]; exact (visit_slots ⟨bits, values, extra⟩ ok).symm)
            (by rw [Node.visit]; exact (visit_slots ⟨b, v, z⟩ ok').symm)
          exact ⟨res, (congrArg (fun a => a >>= JRes.finish) h1).trans e1, g⟩

end
end HT
