import Verif.JointSem
/-! # The loops of the joint operations -/
namespace HT

variable {A B E K V L W S X R : Type}

theorem Node.foldAll_eq {n : Nat} {β : Type} (fS : SNode K V → Nat → β) (fL : LNode K V → Nat → β)
    (fC : BitVec n → List (Node n K V × β) → Nat → Nat → β) (ms : List (Node n K V)) (d : Nat) :
    Node.foldAll fS fL fC ms d = ms.map fun m => (m, Node.fold fS fL fC m d) := by
  induction ms with
  | nil => rfl
  | cons m ms ih => rw [Node.foldAll, ih]; rfl

theorem Node.foldAll_fst {n : Nat} {β : Type} (fS : SNode K V → Nat → β) (fL : LNode K V → Nat → β)
    (fC : BitVec n → List (Node n K V × β) → Nat → Nat → β) (ms : List (Node n K V)) (d : Nat) :
    (Node.foldAll fS fL fC ms d).map Prod.fst = ms := by
  rw [Node.foldAll_eq, List.map_map]
  exact List.map_id _

/-- Choosing the outcome of each iteration. -/
theorem gather_choose {n : Nat} (reduce : R → R → R) (e : R) (par : Par)
    (item : Nat → Res (Item n S X R)) (P : Nat → Item n S X R → Prop)
    (h : ∀ i, i < n → ∃ it, item i = .ok it ∧ P i it) :
    ∃ it acc, Acc.gather reduce e par item = .ok acc ∧ Acc.Gathered reduce e it acc ∧
      ∀ i, i < n → P i (it i) := by
  let it : Nat → Item n S X R := fun i => match item i with
    | .ok it => it
    | _ => .skip
  have hit : ∀ i, i < n → item i = .ok (it i) ∧ P i (it i) := by
    intro i hi
    obtain ⟨a, h1, h2⟩ := h i hi
    simp only [it, h1]
    exact ⟨trivial, h2⟩
  obtain ⟨acc, h1, h2⟩ := Acc.gather_spec reduce e par item it (fun i hi => (hit i hi).1)
  exact ⟨it, acc, h1, h2, fun i hi => (hit i hi).2⟩

/-- The loop over two branch nodes. -/
theorem bothLoop_spec {n : Nat} {ρ : Type} (reduce : R → R → R) (e : R) (par : Par)
    (bits : BitVec n) (values : List (Node n K V)) (extra : Nat) (ok : (Bia.mk bits values extra).Ok)
    (f : Node n K V → Node n L W → Res ρ)
    (right : Bia n (Node n L W)) (okr : right.Ok) (onlyL : Node n K V → Res ρ) (onlyR : Node n L W → Res ρ)
    (item : Option (Node n K V) → Option (Node n L W) → ρ → Res (Item n S X R))
    (P : Nat → Item n S X R → Prop)
    (hb : ∀ i m r, (Bia.mk bits values extra).slot i = some m → right.slot i = some r →
      ∃ res it, f m r = .ok res ∧ item (some m) (some r) res = .ok it ∧ P i it)
    (hl : ∀ i m, (Bia.mk bits values extra).slot i = some m → right.slot i = none →
      ∃ res it, onlyL m = .ok res ∧ item (some m) none res = .ok it ∧ P i it)
    (hr : ∀ i r, (Bia.mk bits values extra).slot i = none → right.slot i = some r →
      ∃ res it, onlyR r = .ok res ∧ item none (some r) res = .ok it ∧ P i it)
    (hn : ∀ i, (Bia.mk bits values extra).slot i = none → right.slot i = none → P i .skip) :
    ∃ it acc, bothLoop reduce e par ⟨bits, values.map fun m => (m, f m), extra⟩ right onlyL onlyR item = .ok acc ∧
      Acc.Gathered reduce e it acc ∧ ∀ i, i < n → P i (it i) := by
  have ok' : (Bia.mk bits (values.map fun m => (m, f m)) extra).Ok := by simpa [Bia.Ok] using ok
  apply gather_choose
  intro i hi
  simp only [Bia.atBitIndex_eq _ ok', Bia.atBitIndex_eq _ okr, Res.ok_bind, Bia.slot_map]
  cases h1 : (Bia.mk bits values extra).slot i with
  | none =>
    cases h2 : right.slot i with
    | none => exact ⟨.skip, rfl, hn i h1 h2⟩
    | some r =>
      obtain ⟨res, it, e1, e2, p⟩ := hr i r h1 h2
      refine ⟨it, ?_, p⟩
      simp only [Option.map_none, bothItem, e1, Res.ok_bind, e2]
  | some m =>
    cases h2 : right.slot i with
    | none =>
      obtain ⟨res, it, e1, e2, p⟩ := hl i m h1 h2
      refine ⟨it, ?_, p⟩
      simp only [Option.map_some, bothItem, e1, Res.ok_bind, e2]
    | some r =>
      obtain ⟨res, it, e1, e2, p⟩ := hb i m r h1 h2
      refine ⟨it, ?_, p⟩
      simp only [Option.map_some, bothItem, e1, Res.ok_bind, e2]

/-- The loop over a branch node against a list or single node. -/
theorem flatLoop_spec {c : Cfg} {ρ : Type} (reduce : R → R → R) (e : R) (h : BitVec c.w) {d : Nat}
    (hd : d * c.b < c.w) (bits : BitVec c.n) (values : List (Node c.n K V)) (extra : Nat)
    (ok : (Bia.mk bits values extra).Ok)
    (f : Node c.n K V → Res ρ) (elsewhere : Node c.n K V → Res ρ) (alone : ρ)
    (item : Option (Node c.n K V) → ρ → Res (Item c.n S X R))
    (P : Nat → Item c.n S X R → Prop)
    (hb : ∀ m, (Bia.mk bits values extra).slot (chunk c h d) = some m →
      ∃ res it, f m = .ok res ∧ item (some m) res = .ok it ∧ P (chunk c h d) it)
    (hl : ∀ i m, i ≠ chunk c h d → (Bia.mk bits values extra).slot i = some m →
      ∃ res it, elsewhere m = .ok res ∧ item (some m) res = .ok it ∧ P i it)
    (hr : (Bia.mk bits values extra).slot (chunk c h d) = none →
      ∃ it, item none alone = .ok it ∧ P (chunk c h d) it)
    (hn : ∀ i, i ≠ chunk c h d → (Bia.mk bits values extra).slot i = none → P i .skip) :
    ∃ it acc, flatLoop reduce e h d ⟨bits, values.map fun m => (m, f m), extra⟩ elsewhere alone item = .ok acc ∧
      Acc.Gathered reduce e it acc ∧ ∀ i, i < c.n → P i (it i) := by
  have ok' : (Bia.mk bits (values.map fun m => (m, f m)) extra).Ok := by simpa [Bia.Ok] using ok
  simp only [flatLoop, flagOf, Flag.newAtDepth_eq h hd, Res.ok_bind, Res.unwrap_some]
  apply gather_choose
  intro i hi
  simp only [Bia.atBitIndex_eq _ ok', Res.ok_bind, Bia.slot_map]
  simp only [flatItem, nthBit_ok hi, Res.unwrapE_ok, Res.ok_bind, flagAt]
  by_cases hc : i = chunk c h d
  · subst hc
    cases h1 : (Bia.mk bits values extra).slot (chunk c h d) with
    | none =>
      obtain ⟨it, e2, p⟩ := hr h1
      refine ⟨it, ?_, p⟩
      simp only [Option.map_none, e2, if_true]
    | some m =>
      obtain ⟨res, it, e1, e2, p⟩ := hb m h1
      refine ⟨it, ?_, p⟩
      simp only [Option.map_some, if_true, e1, Res.ok_bind, e2]
  · have hne : ¬ bitAt c.n (chunk c h d) = bitAt c.n i :=
      fun e => hc (bitAt_inj hi e.symm)
    cases h1 : (Bia.mk bits values extra).slot i with
    | none =>
      refine ⟨.skip, ?_, hn i hc h1⟩
      simp only [Option.map_none, hne, if_false]
    | some m =>
      obtain ⟨res, it, e1, e2, p⟩ := hl i m hc h1
      refine ⟨it, ?_, p⟩
      simp only [Option.map_some, hne, if_false, e1, Res.ok_bind, e2]

/-! ### The sum over the slots -/

section
variable [BEq K] [BEq L] [BEq S] {c : Cfg}

/-- The outcome of an iteration is the sum of the slot's cases, and well-formed. -/
structure ItemGood (s : Sem (K × V) (L × W) (S × X) R) (hashS : S → BitVec c.w) (d : Nat)
    (cs : List (Case (K × V) (L × W))) (it : Item c.n S X R) : Prop where
  real : s.Real cs (vis it.node?) (it.red?.getD s.e)
  sub : ∀ m, it.node? = some m → m.WF hashS c.levels (d + 1) ∧ m.visit ≠ []

variable {x : Cross c K L} {s : Sem (K × V) (L × W) (S × X) R} {hashS : S → BitVec c.w}

omit [BEq K] [BEq L] in
theorem ItemGood.skip {d : Nat} : ItemGood s hashS d [] (.skip : Item c.n S X R) :=
  ⟨.nil, by simp [Item.node?]⟩

omit [BEq K] [BEq L] in
theorem ItemGood.of {d : Nat} {N : Prop} {cs : List (Case (K × V) (L × W))} {o : Option (Node c.n S X)}
    {r : R} (h : Good s hashS (d + 1) N cs o r) (hN : N) {it : Item c.n S X R} (h1 : it.node? = o)
    (h2 : it.red? = some r) : ItemGood s hashS d cs it := by
  refine ⟨?_, ?_⟩
  · rw [h1, h2]; exact h.real
  · intro m hm; rw [h1] at hm; exact ⟨h.wf m hm, h.ne hN m hm⟩

omit [BEq K] [BEq L] in
theorem loop_real {d : Nat} {it : Nat → Item c.n S X R} {acc : Acc c.n S X R}
    (G : Acc.Gathered s.reduce s.e it acc) {csi : Nat → List (Case (K × V) (L × W))}
    (h : ∀ i, i < c.n → ItemGood s hashS d (csi i) (it i)) :
    s.Real ((List.range c.n).flatMap csi) ((List.range c.n).flatMap fun i => vis (it i).node?) acc.red :=
  Sem.Real.flatMap (fun i hi => (h i (List.mem_range.1 hi)).real) (fun hy => G.red (s.cm hy).toMon)

/-- The node built by the loop. -/
theorem loop_pack (k : Keyed x s hashS) {d : Nat} (hd : d < c.levels) {it : Nat → Item c.n S X R}
    {acc : Acc c.n S X R} (G : Acc.Gathered s.reduce s.e it acc)
    {csi : Nat → List (Case (K × V) (L × W))} (h : ∀ i, i < c.n → ItemGood s hashS d (csi i) (it i))
    (hc : ∀ i, i < c.n → ∀ p ∈ csi i, Matched x p ∧ chunk c (x.caseHash p) d = i) :
    ∃ o, acc.pack = .ok o ∧ Good s hashS d True ((List.range c.n).flatMap csi) o acc.red := by
  obtain ⟨o, h1, h2, h3⟩ := Acc.pack_spec (hash := hashS) hd G (by
    intro i m hi hm
    have hg := h i hi
    refine ⟨(hg.sub m hm).1, (hg.sub m hm).2, ?_⟩
    have hr := hg.real.outs
    rw [hm] at hr
    exact k.hash_of hr (fun p hp => (hc i hi p hp).1) (P := fun h => chunk c h d = i)
      (fun p hp => (hc i hi p hp).2))
  refine ⟨o, h1, ?_, fun m hm => (h3 m hm).1, fun _ m hm => (h3 m hm).2⟩
  rw [h2]; exact loop_real G h

omit [BEq K] [BEq L] in
/-- A node none of whose slots changed. -/
theorem loop_same {d : Nat} {it : Nat → Item c.n S X R}
    {acc : Acc c.n S X R} (G : Acc.Gathered s.reduce s.e it acc)
    {csi : Nat → List (Case (K × V) (L × W))} (h : ∀ i, i < c.n → ItemGood s hashS d (csi i) (it i))
    {bits : BitVec c.n} {values : List (Node c.n S X)} {extra : Nat}
    (wf : (Node.C bits values extra).WF hashS c.levels d)
    (hs : ∀ i, i < c.n → vis (it i).node? = slotVisit ⟨bits, values, extra⟩ i) :
    Good s hashS d ((Node.C bits values extra).visit ≠ []) ((List.range c.n).flatMap csi)
      (some (.C bits values extra)) acc.red := by
  refine ⟨?_, ?_, ?_⟩
  · rw [vis_some, Node.visit]
    cases wf with
    | C _ _ _ _ hd ok sz ne at_ sub =>
      rw [visit_slots ⟨bits, values, extra⟩ ok]
      have := loop_real G h
      rwa [flatMap_congr' _ _ _ (fun i hi => hs i (List.mem_range.1 hi))] at this
  · intro m hm; injection hm with hm; subst hm; exact wf
  · intro hN m hm; injection hm with hm; subst hm; exact hN

/-! ### The cases of two branch nodes, slot by slot -/

omit [BEq K] in
theorem slotVisit_chunk {hash : K → BitVec c.w} {d : Nat} {a : Bia c.n (Node c.n K V)}
    (at_ : ∀ i m, a.slot i = some m → ∀ e ∈ m.visit, chunk c (hash e.1) d = i) (i : Nat) :
    ∀ e ∈ slotVisit a i, chunk c (hash e.1) d = i := by
  intro e he
  simp only [slotVisit] at he
  cases hs : a.slot i with
  | none => rw [hs] at he; simp at he
  | some m => rw [hs] at he; exact at_ i m hs e he

/-- Entries of slot `i`: those of a list all of whose hashes are `h`. -/
def flatSlot {β : Type} (c : Cfg) (h : BitVec c.w) (d : Nat) (l : List β) (i : Nat) : List β :=
  if i = chunk c h d then l else []

theorem flatSlot_flatMap {β : Type} (c : Cfg) (h : BitVec c.w) (d : Nat) (l : List β) :
    (List.range c.n).flatMap (flatSlot c h d l) = l := by
  have key : ∀ (n : Nat), (List.range n).flatMap (flatSlot c h d l) = if chunk c h d < n then l else [] := by
    intro n
    induction n with
    | zero => simp
    | succ n ih =>
      rw [List.range_succ, List.flatMap_append, ih]
      simp only [List.flatMap_cons, List.flatMap_nil, List.append_nil, flatSlot]
      by_cases h1 : n = chunk c h d
      · subst h1; simp
      · by_cases h2 : chunk c h d < n
        · have : chunk c h d < n + 1 := by omega
          simp [h1, h2, this]
        · have : ¬ chunk c h d < n + 1 := by omega
          simp [h1, h2, this]
  rw [key, if_pos (chunk_lt h d)]

theorem slots_perm (laws : CrossLaws x) {d : Nat} {as : Nat → List (K × V)} {bs : Nat → List (L × W)}
    (ha : DistinctKeys ((List.range c.n).flatMap as)) (hb : DistinctKeys ((List.range c.n).flatMap bs))
    (h1 : ∀ i, ∀ a ∈ as i, chunk c (x.hash a.1) d = i) (h2 : ∀ i, ∀ b ∈ bs i, chunk c (x.hash' b.1) d = i) :
    ((List.range c.n).flatMap fun i => x.cases (as i) (bs i)).Perm
      (x.cases ((List.range c.n).flatMap as) ((List.range c.n).flatMap bs)) := by
  apply jointCases_slots (laws.joinable ha hb)
  intro i _ i' _ a haa b hbb he
  have := laws.hash _ _ he
  have e1 := h1 i a haa
  have e2 := h2 i' b hbb
  rw [this] at e1
  exact e1.symm.trans e2

omit [BEq K] in
theorem distinct_slot {as : Nat → List (K × V)} {i n : Nat} [BEq K]
    (ha : DistinctKeys ((List.range n).flatMap as)) (hi : i < n) : DistinctKeys (as i) := by
  unfold DistinctKeys at ha ⊢
  rw [List.pairwise_flatMap] at ha
  exact ha.1 i (List.mem_range.2 hi)

theorem slot_chunk (laws : CrossLaws x) {d : Nat} {as : Nat → List (K × V)} {bs : Nat → List (L × W)}
    (ha : DistinctKeys ((List.range c.n).flatMap as)) (hb : DistinctKeys ((List.range c.n).flatMap bs))
    (h1 : ∀ i, ∀ a ∈ as i, chunk c (x.hash a.1) d = i) (h2 : ∀ i, ∀ b ∈ bs i, chunk c (x.hash' b.1) d = i) :
    ∀ i, i < c.n → ∀ p ∈ x.cases (as i) (bs i), Matched x p ∧ chunk c (x.caseHash p) d = i := by
  intro i hi p hp
  have hA := distinct_slot ha hi
  have hB := distinct_slot hb hi
  exact ⟨laws.cases_matched hA hB p hp,
    laws.caseHash_of hA hB (P := fun h => chunk c h d = i) (h1 i) (h2 i) p hp⟩

end
end HT
