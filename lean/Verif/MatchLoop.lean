import Verif.MatchNode
/-! # The loops of the joint operations, whatever `==` and `hash` answer -/
namespace HT

variable {K V L W S X R : Type} {c : Cfg}

/-- Every iteration of a loop that returned did. -/
theorem gather_inv {n : Nat} {reduce : R → R → R} {e : R} {par : Par}
    {item : Nat → Res (Item n S X R)} {acc : Acc n S X R} (h : Acc.gather reduce e par item = .ok acc)
    {P : Nat → Item n S X R → Prop} (hP : ∀ i, i < n → ∀ it, item i = .ok it → P i it) :
    ∃ it, Acc.Gathered reduce e it acc ∧ ∀ i, i < n → P i (it i) := by
  obtain ⟨it, acc', h1, h2, h3⟩ := gather_choose reduce e par item P (fun i hi => by
    obtain ⟨it, hit⟩ := Acc.gather_items h i hi
    exact ⟨it, hit, hP i hi it hit⟩)
  rw [h] at h1
  injection h1 with h1
  subst h1
  exact ⟨it, h2, h3⟩

theorem bothLoop_inv {n : Nat} {ρ : Type} {reduce : R → R → R} {e : R} {par : Par}
    {bits : BitVec n} {values : List (Node n K V)} {extra : Nat} (ok : (Bia.mk bits values extra).Ok)
    {f : Node n K V → Node n L W → Res ρ}
    {right : Bia n (Node n L W)} (okr : right.Ok) {onlyL : Node n K V → Res ρ} {onlyR : Node n L W → Res ρ}
    {item : Option (Node n K V) → Option (Node n L W) → ρ → Res (Item n S X R)} {acc : Acc n S X R}
    (h : bothLoop reduce e par ⟨bits, values.map fun m => (m, f m), extra⟩ right onlyL onlyR item = .ok acc)
    {P : Nat → Item n S X R → Prop}
    (hb : ∀ i m r, (Bia.mk bits values extra).slot i = some m → right.slot i = some r →
      ∀ res it, f m r = .ok res → item (some m) (some r) res = .ok it → P i it)
    (hl : ∀ i m, (Bia.mk bits values extra).slot i = some m → right.slot i = none →
      ∀ res it, onlyL m = .ok res → item (some m) none res = .ok it → P i it)
    (hr : ∀ i r, (Bia.mk bits values extra).slot i = none → right.slot i = some r →
      ∀ res it, onlyR r = .ok res → item none (some r) res = .ok it → P i it)
    (hn : ∀ i, (Bia.mk bits values extra).slot i = none → right.slot i = none → P i .skip) :
    ∃ it, Acc.Gathered reduce e it acc ∧ ∀ i, i < n → P i (it i) := by
  have ok' : (Bia.mk bits (values.map fun m => (m, f m)) extra).Ok := by simpa [Bia.Ok] using ok
  refine gather_inv h ?_
  intro i hi it hit
  simp only [Bia.atBitIndex_eq _ ok', Bia.atBitIndex_eq _ okr, Res.ok_bind, Bia.slot_map] at hit
  cases h1 : (Bia.mk bits values extra).slot i with
  | none =>
    cases h2 : right.slot i with
    | none =>
      simp only [h1, h2, Option.map_none, bothItem, Res.ok.injEq] at hit
      subst hit; exact hn i h1 h2
    | some r =>
      simp only [h1, h2, Option.map_none, bothItem] at hit
      obtain ⟨res, e1, e2⟩ := Res.bind_eq_ok.1 hit
      exact hr i r h1 h2 res it e1 e2
  | some m =>
    cases h2 : right.slot i with
    | none =>
      simp only [h1, h2, Option.map_some, bothItem] at hit
      obtain ⟨res, e1, e2⟩ := Res.bind_eq_ok.1 hit
      exact hl i m h1 h2 res it e1 e2
    | some r =>
      simp only [h1, h2, Option.map_some, bothItem] at hit
      obtain ⟨res, e1, e2⟩ := Res.bind_eq_ok.1 hit
      exact hb i m r h1 h2 res it e1 e2

theorem flatLoop_inv {ρ : Type} {reduce : R → R → R} {e : R} {hv : BitVec c.w} {d : Nat}
    {bits : BitVec c.n} {values : List (Node c.n K V)} {extra : Nat}
    (ok : (Bia.mk bits values extra).Ok) (hd : HasFlags c d)
    {f : Node c.n K V → Res ρ} {elsewhere : Node c.n K V → Res ρ} {alone : ρ}
    {item : Option (Node c.n K V) → ρ → Res (Item c.n S X R)} {acc : Acc c.n S X R}
    (h : flatLoop reduce e hv d ⟨bits, values.map fun m => (m, f m), extra⟩ elsewhere alone item = .ok acc)
    {P : Nat → Item c.n S X R → Prop}
    (hb : ∀ m, (Bia.mk bits values extra).slot (wrapped c hv d) = some m →
      ∀ res it, f m = .ok res → item (some m) res = .ok it → P (wrapped c hv d) it)
    (hl : ∀ i m, i ≠ wrapped c hv d → (Bia.mk bits values extra).slot i = some m →
      ∀ res it, elsewhere m = .ok res → item (some m) res = .ok it → P i it)
    (hr : (Bia.mk bits values extra).slot (wrapped c hv d) = none →
      ∀ it, item none alone = .ok it → P (wrapped c hv d) it)
    (hn : ∀ i, i ≠ wrapped c hv d → (Bia.mk bits values extra).slot i = none → P i .skip) :
    ∃ it, Acc.Gathered reduce e it acc ∧ ∀ i, i < c.n → P i (it i) := by
  have ok' : (Bia.mk bits (values.map fun m => (m, f m)) extra).Ok := by simpa [Bia.Ok] using ok
  simp only [flatLoop, flagOf, Flag.newAtDepth_deep hv hd, Res.ok_bind, Res.unwrap_some] at h
  refine gather_inv h ?_
  intro i hi it hit
  simp only [Bia.atBitIndex_eq _ ok', Res.ok_bind, Bia.slot_map] at hit
  simp only [flatItem, nthBit_ok hi, Res.unwrapE_ok, Res.ok_bind, flagDeep] at hit
  by_cases hc : i = wrapped c hv d
  · subst hc
    cases h1 : (Bia.mk bits values extra).slot (wrapped c hv d) with
    | none =>
      simp only [h1, Option.map_none, if_true] at hit
      exact hr h1 it hit
    | some m =>
      simp only [h1, Option.map_some, if_true] at hit
      obtain ⟨res, e1, e2⟩ := Res.bind_eq_ok.1 hit
      exact hb m h1 res it e1 e2
  · have hne : ¬ bitAt c.n (wrapped c hv d) = bitAt c.n i :=
      fun e => hc (bitAt_inj hi e.symm)
    cases h1 : (Bia.mk bits values extra).slot i with
    | none =>
      simp only [h1, Option.map_none, hne, if_false, Res.ok.injEq] at hit
      subst hit; exact hn i hc h1
    | some m =>
      simp only [h1, Option.map_some, hne, if_false] at hit
      obtain ⟨res, e1, e2⟩ := Res.bind_eq_ok.1 hit
      exact hl i m hc h1 res it e1 e2

/-! ### The sum over the slots -/

/-- Entries of slot `i`: those of a list at position `j`. -/
def posSlot {β : Type} (j : Nat) (l : List β) (i : Nat) : List β := if i = j then l else []

theorem posSlot_flatMap {β : Type} {j n : Nat} (hj : j < n) (l : List β) :
    (List.range n).flatMap (posSlot j l) = l := by
  have key : ∀ (n : Nat), (List.range n).flatMap (posSlot j l) = if j < n then l else [] := by
    intro n
    induction n with
    | zero => simp
    | succ n ih =>
      rw [List.range_succ, List.flatMap_append, ih]
      simp only [List.flatMap_cons, List.flatMap_nil, List.append_nil, posSlot]
      by_cases h1 : n = j
      · subst h1; simp
      · by_cases h2 : j < n
        · have : j < n + 1 := by omega
          simp [h1, h2, this]
        · have : ¬ j < n + 1 := by omega
          simp [h1, h2, this]
  rw [key, if_pos hj]

/-- The outcome of an iteration is that of some pairing, and well-shaped. -/
structure PItem (x : Cross c K L) (s : Sem (K × V) (L × W) (S × X) R) (d : Nat)
    (as : List (K × V)) (bs : List (L × W)) (it : Item c.n S X R) : Prop where
  ex : ∃ cs, Pairing x.Says as bs cs ∧ s.Real cs (vis it.node?) (it.red?.getD s.e)
  sub : ∀ m, it.node? = some m → m.Shape (d + 1) ∧ m.visit ≠ []

variable {x : Cross c K L} {s : Sem (K × V) (L × W) (S × X) R}

theorem PItem.skip {d : Nat} : PItem x s d [] [] (.skip : Item c.n S X R) :=
  ⟨⟨[], .nil, .nil⟩, by simp [Item.node?]⟩

theorem PItem.of {d : Nat} {N : Prop} {as : List (K × V)} {bs : List (L × W)} {o : Option (Node c.n S X)}
    {r : R} (h : Paired x s (d + 1) N as bs o r) (hN : N) {it : Item c.n S X R} (h1 : it.node? = o)
    (h2 : it.red? = some r) : PItem x s d as bs it := by
  refine ⟨?_, ?_⟩
  · rw [h1, h2]; exact h.ex
  · intro m hm; rw [h1] at hm; exact ⟨h.wf m hm, h.ne hN m hm⟩

/-- What a loop's outcome amounts to. -/
structure PLoop (x : Cross c K L) (s : Sem (K × V) (L × W) (S × X) R) (d : Nat)
    (as : List (K × V)) (bs : List (L × W)) (acc : Acc c.n S X R) (Q : Nat → Item c.n S X R → Prop) : Prop where
  intro ::
  ex : ∃ (it : Nat → Item c.n S X R) (asi : Nat → List (K × V)) (bsi : Nat → List (L × W)),
    Acc.Gathered s.reduce s.e it acc ∧ (List.range c.n).flatMap asi = as ∧ (List.range c.n).flatMap bsi = bs ∧
    (∀ i, i < c.n → PItem x s d (asi i) (bsi i) (it i)) ∧ ∀ i, i < c.n → Q i (it i)

theorem loop_paired {d : Nat} {it : Nat → Item c.n S X R} {acc : Acc c.n S X R}
    (G : Acc.Gathered s.reduce s.e it acc) {asi : Nat → List (K × V)} {bsi : Nat → List (L × W)}
    (h : ∀ i, i < c.n → PItem x s d (asi i) (bsi i) (it i)) :
    ∃ cs, Pairing x.Says ((List.range c.n).flatMap asi) ((List.range c.n).flatMap bsi) cs ∧
      s.Real cs ((List.range c.n).flatMap fun i => vis (it i).node?) acc.red := by
  let csi : Nat → List (Case (K × V) (L × W)) := fun i =>
    if hi : i < c.n then (h i hi).ex.choose else []
  have hc : ∀ i, i < c.n → Pairing x.Says (asi i) (bsi i) (csi i) ∧
      s.Real (csi i) (vis (it i).node?) ((it i).red?.getD s.e) := by
    intro i hi
    simp only [csi, hi, dif_pos]
    exact (h i hi).ex.choose_spec
  refine ⟨(List.range c.n).flatMap csi, .flatMap (fun i hi => (hc i (List.mem_range.1 hi)).1), ?_⟩
  exact Sem.Real.flatMap (fun i hi => (hc i (List.mem_range.1 hi)).2) (fun hy => G.red (s.cm hy).toMon)

theorem PLoop.pack {d : Nat} (hd : HasFlags c d) {as : List (K × V)} {bs : List (L × W)} {acc : Acc c.n S X R}
    {Q : Nat → Item c.n S X R → Prop} (h : PLoop x s d as bs acc Q) {o : Option (Node c.n S X)}
    (ho : acc.pack = .ok o) : Paired x s d True as bs o acc.red := by
  obtain ⟨it, asi, bsi, G, rfl, rfl, hI, _⟩ := h.ex
  obtain ⟨o', h1, h2, h3⟩ := Acc.pack_shape hd G (fun i m hi hm => (hI i hi).sub m hm)
  rw [ho] at h1
  injection h1 with h1
  subst h1
  obtain ⟨cs, hp, hreal⟩ := loop_paired G hI
  exact ⟨⟨cs, hp, by rw [h2]; exact hreal⟩, fun m hm => (h3 m hm).1, fun _ m hm => (h3 m hm).2⟩

theorem PLoop.finishT {d : Nat} (hd : HasFlags c d) {as : List (K × V)} {bs : List (L × W)} {acc : Acc c.n S X R}
    {m0 : Node c.n S X} (wf : m0.Shape d) {sl : Nat → List (S × X)}
    (hsl : (List.range c.n).flatMap sl = m0.visit)
    (h : PLoop x s d as bs acc (fun i it => it.kl = true → vis it.node? = sl i)) {res : TRes (Node c.n S X) R}
    (hr : TRes.finish acc = .ok res) : Paired x s d (m0.visit ≠ []) as bs (res.get m0) res.red := by
  unfold TRes.finish at hr
  cases hul : acc.ul with
  | true =>
    simp only [hul, if_true, Res.ok.injEq] at hr
    subst hr
    obtain ⟨it, asi, bsi, G, rfl, rfl, hI, hQ⟩ := h.ex
    obtain ⟨cs, hp, hreal⟩ := loop_paired G hI
    refine ⟨⟨cs, hp, ?_⟩, ?_, ?_⟩
    · show s.Real cs (vis (some m0)) acc.red
      rw [vis_some, ← hsl]
      rwa [flatMap_congr' _ _ _ (fun i hi => hQ i (List.mem_range.1 hi) (by
        have := G.ul
        rw [hul] at this
        exact List.all_eq_true.1 this.symm i hi))] at hreal
    · intro m hm; injection hm with hm; subst hm; exact wf
    · intro hN m hm; injection hm with hm; subst hm; exact hN
  | false =>
    simp only [hul, Bool.false_eq_true, if_false] at hr
    obtain ⟨o, ho, hr⟩ := Res.bind_eq_ok.1 hr
    simp only [Res.ok.injEq] at hr
    subst hr
    have : (TRes.ofOption o acc.red).get m0 = o ∧ (TRes.ofOption o acc.red).red = acc.red := by
      cases o <;> exact ⟨rfl, rfl⟩
    rw [this.1, this.2]
    exact (h.pack hd ho).mono (fun _ => trivial)

theorem PLoop.finishX {d : Nat} (hd : HasFlags c d) {as : List (K × V)} {bs : List (L × W)} {acc : Acc c.n S X R}
    {Q : Nat → Item c.n S X R → Prop} (h : PLoop x s d as bs acc Q) {res : XRes (Node c.n S X) R}
    (hr : XRes.finish acc = .ok res) : Paired x s d True as bs res.get res.red := by
  unfold XRes.finish at hr
  obtain ⟨o, ho, hr⟩ := Res.bind_eq_ok.1 hr
  simp only [Res.ok.injEq] at hr
  subst hr
  have : (XRes.ofOption o acc.red).get = o ∧ (XRes.ofOption o acc.red).red = acc.red := by
    cases o <;> exact ⟨rfl, rfl⟩
  rw [this.1, this.2]
  exact h.pack hd ho

theorem flat_paired {bits : BitVec c.n} {values : List (Node c.n K V)} {extra d : Nat} (hd : HasFlags c d)
    (ok : (Bia.mk bits values extra).Ok) {bs : List (L × W)}
    {hv : BitVec c.w} {ρ : Type}
    {f elsewhere : Node c.n K V → Res ρ} {alone : ρ}
    {item : Option (Node c.n K V) → ρ → Res (Item c.n S X R)} {Q : Nat → Item c.n S X R → Prop}
    {acc : Acc c.n S X R}
    (h : flatLoop s.reduce s.e hv d ⟨bits, values.map fun m => (m, f m), extra⟩ elsewhere alone item = .ok acc)
    (hf : ∀ m, (Bia.mk bits values extra).slot (wrapped c hv d) = some m →
      ∀ res it, f m = .ok res → item (some m) res = .ok it →
        PItem x s d m.visit bs it ∧ Q (wrapped c hv d) it)
    (hl : ∀ i m, i ≠ wrapped c hv d → (Bia.mk bits values extra).slot i = some m →
      ∀ res it, elsewhere m = .ok res → item (some m) res = .ok it →
        PItem x s d m.visit [] it ∧ Q i it)
    (hr : (Bia.mk bits values extra).slot (wrapped c hv d) = none →
      ∀ it, item none alone = .ok it → PItem x s d [] bs it ∧ Q (wrapped c hv d) it)
    (hn : ∀ i, i ≠ wrapped c hv d → (Bia.mk bits values extra).slot i = none → Q i .skip) :
    PLoop x s d (Node.C bits values extra).visit bs acc Q := by
  obtain ⟨it, G, hP⟩ := flatLoop_inv (P := fun i it => PItem x s d (slotVisit ⟨bits, values, extra⟩ i)
      (posSlot (wrapped c hv d) bs i) it ∧ Q i it) ok hd h
    (by
      intro m hm res it h1 h2
      simp only [slotVisit_some hm, posSlot, if_true]; exact hf m hm res it h1 h2)
    (by
      intro i m hi hm res it h1 h2
      simp only [slotVisit_some hm, posSlot, hi, if_false]; exact hl i m hi hm res it h1 h2)
    (by
      intro hm it h1
      simp only [slotVisit_none hm, posSlot, if_true]; exact hr hm it h1)
    (by
      intro i hi hm
      simp only [slotVisit_none hm, posSlot, hi, if_false]; exact ⟨.skip, hn i hi hm⟩)
  refine ⟨it, _, _, G, ?_, posSlot_flatMap (wrapped_lt hv d) bs, fun i hi => (hP i hi).1, fun i hi => (hP i hi).2⟩
  rw [Node.visit]; exact (visit_slots ⟨bits, values, extra⟩ ok).symm

theorem both_paired {bits : BitVec c.n} {values : List (Node c.n K V)} {extra d : Nat}
    (ok : (Bia.mk bits values extra).Ok)
    {rbits : BitVec c.n} {rvalues : List (Node c.n L W)} {rextra : Nat}
    (okr : (Bia.mk rbits rvalues rextra).Ok) {ρ : Type} {par : Par}
    {f : Node c.n K V → Node c.n L W → Res ρ} {onlyL : Node c.n K V → Res ρ} {onlyR : Node c.n L W → Res ρ}
    {item : Option (Node c.n K V) → Option (Node c.n L W) → ρ → Res (Item c.n S X R)}
    {Q : Nat → Item c.n S X R → Prop} {acc : Acc c.n S X R}
    (h : bothLoop s.reduce s.e par ⟨bits, values.map fun m => (m, f m), extra⟩ ⟨rbits, rvalues, rextra⟩
        onlyL onlyR item = .ok acc)
    (hf : ∀ i m r, (Bia.mk bits values extra).slot i = some m → (Bia.mk rbits rvalues rextra).slot i = some r →
      ∀ res it, f m r = .ok res → item (some m) (some r) res = .ok it →
        PItem x s d m.visit r.visit it ∧ Q i it)
    (hl : ∀ i m, (Bia.mk bits values extra).slot i = some m → (Bia.mk rbits rvalues rextra).slot i = none →
      ∀ res it, onlyL m = .ok res → item (some m) none res = .ok it →
        PItem x s d m.visit [] it ∧ Q i it)
    (hr : ∀ i r, (Bia.mk bits values extra).slot i = none → (Bia.mk rbits rvalues rextra).slot i = some r →
      ∀ res it, onlyR r = .ok res → item none (some r) res = .ok it →
        PItem x s d [] r.visit it ∧ Q i it)
    (hn : ∀ i, (Bia.mk bits values extra).slot i = none → (Bia.mk rbits rvalues rextra).slot i = none →
      Q i .skip) :
    PLoop x s d (Node.C bits values extra).visit (Node.C rbits rvalues rextra).visit acc Q := by
  obtain ⟨it, G, hP⟩ := bothLoop_inv (P := fun i it => PItem x s d (slotVisit ⟨bits, values, extra⟩ i)
      (slotVisit ⟨rbits, rvalues, rextra⟩ i) it ∧ Q i it) ok okr h
    (by
      intro i m r hm hr res it h1 h2
      simp only [slotVisit_some hm, slotVisit_some hr]; exact hf i m r hm hr res it h1 h2)
    (by
      intro i m hm hr res it h1 h2
      simp only [slotVisit_some hm, slotVisit_none hr]; exact hl i m hm hr res it h1 h2)
    (by
      intro i r hm hr' res it h1 h2
      simp only [slotVisit_none hm, slotVisit_some hr']; exact hr i r hm hr' res it h1 h2)
    (by
      intro i hm hr
      simp only [slotVisit_none hm, slotVisit_none hr]; exact ⟨.skip, hn i hm hr⟩)
  refine ⟨it, _, _, G, ?_, ?_, fun i hi => (hP i hi).1, fun i hi => (hP i hi).2⟩
  · rw [Node.visit]; exact (visit_slots ⟨bits, values, extra⟩ ok).symm
  · rw [Node.visit]; exact (visit_slots ⟨rbits, rvalues, rextra⟩ okr).symm

/-! ### One operand alone -/

theorem AloneT.pairedL {op : MapTransform R (K → V → MapTransformResult V R)}
    {s : Sem (K × V) (L × W) (K × V) R} (h : AloneT s Case.left op)
    {par : Par} {d : Nat} {m : Node c.n K V} (wf : m.Shape d) {res : TRes (Node c.n K V) R}
    (hr : m.transform s.reduce s.e op par = .ok res) :
    Paired x s d (m.visit ≠ []) m.visit [] (res.get m) res.red := by
  obtain ⟨res', h1, g⟩ := Node.transform_shape op s.reduce s.e par wf
  rw [hr] at h1
  injection h1 with h1
  subst h1
  refine ⟨⟨_, .allL m.visit, ?_⟩, g.wf, g.ne⟩
  rw [g.entries]
  exact h.real m.visit (fun hy hn => g.red (s.cm hy).toMon hn)

theorem AloneT.pairedR {op : MapTransform R (L → W → MapTransformResult W R)}
    {s : Sem (K × V) (L × W) (L × W) R} (h : AloneT s Case.right op)
    {par : Par} {d : Nat} {m : Node c.n L W} (wf : m.Shape d) {res : TRes (Node c.n L W) R}
    (hr : m.transform s.reduce s.e op par = .ok res) :
    Paired x s d (m.visit ≠ []) [] m.visit (res.get m) res.red := by
  obtain ⟨res', h1, g⟩ := Node.transform_shape op s.reduce s.e par wf
  rw [hr] at h1
  injection h1 with h1
  subst h1
  refine ⟨⟨_, .allR m.visit, ?_⟩, g.wf, g.ne⟩
  rw [g.entries]
  exact h.real m.visit (fun hy hn => g.red (s.cm hy).toMon hn)

theorem AloneX.pairedL {op : MapTransmute R (K → V → MapTransmuteResult S X R)} (h : AloneX s Case.left op)
    {d : Nat} {m : Node c.n K V} (wf : m.Shape d) {res : XRes (Node c.n S X) R}
    (hr : m.transmute s.reduce s.e op = .ok res) :
    Paired x s d (m.visit ≠ []) m.visit [] res.get res.red := by
  obtain ⟨res', h1, g⟩ := Node.transmute_shape op s.reduce s.e wf
  rw [hr] at h1
  injection h1 with h1
  subst h1
  refine ⟨⟨_, .allL m.visit, ?_⟩, g.wf, g.ne⟩
  rw [g.entries]
  exact h.real m.visit (fun hy hn => g.red (s.cm hy).toMon hn)

theorem AloneX.pairedR {op : MapTransmute R (L → W → MapTransmuteResult S X R)} (h : AloneX s Case.right op)
    {d : Nat} {m : Node c.n L W} (wf : m.Shape d) {res : XRes (Node c.n S X) R}
    (hr : m.transmute s.reduce s.e op = .ok res) :
    Paired x s d (m.visit ≠ []) [] m.visit res.get res.red := by
  obtain ⟨res', h1, g⟩ := Node.transmute_shape op s.reduce s.e wf
  rw [hr] at h1
  injection h1 with h1
  subst h1
  refine ⟨⟨_, .allR m.visit, ?_⟩, g.wf, g.ne⟩
  rw [g.entries]
  exact h.real m.visit (fun hy hn => g.red (s.cm hy).toMon hn)

end HT
