import Verif.Transform
import Verif.BulkSpec
import Verif.Insert
/-! # The loop over the children of branch nodes -/
namespace HT

variable {K V R : Type} {n : Nat}

section
variable {reduce : R → R → R} {e : R}

theorem Mon.foldl (h : Mon reduce e) (rs : List R) (x : R) :
    rs.foldl reduce x = reduce x (total reduce e rs) := by
  induction rs generalizing x with
  | nil => exact (h.right x).symm
  | cons r rs ih =>
    simp only [total, List.foldl_cons] at ih ⊢
    rw [ih (reduce x r), ih (reduce e r), h.left, h.assoc]

theorem Mon.total_append (h : Mon reduce e) (rs ss : List R) :
    total reduce e (rs ++ ss) = reduce (total reduce e rs) (total reduce e ss) := by
  rw [total, List.foldl_append, h.foldl]; rfl

theorem Mon.total_cons (h : Mon reduce e) (r : R) (rs : List R) :
    total reduce e (r :: rs) = reduce r (total reduce e rs) := by
  rw [total, List.foldl_cons, h.left, h.foldl]

theorem Mon.total_single (h : Mon reduce e) (r : R) : total reduce e [r] = r := by
  rw [total, List.foldl_cons, h.left]; rfl

theorem Mon.total_neutral (h : Mon reduce e) (rs : List R) (hr : ∀ r ∈ rs, r = e) :
    total reduce e rs = e := by
  induction rs with
  | nil => rfl
  | cons r rs ih =>
    rw [h.total_cons, ih (fun r' h' => hr r' (List.mem_cons_of_mem _ h')), hr r (List.mem_cons_self ..),
      h.left]

theorem Mon.total_flatMap {α : Type} (h : Mon reduce e) (l : List α) (g : α → List R) :
    total reduce e (l.map fun a => total reduce e (g a)) = total reduce e (l.flatMap g) := by
  induction l with
  | nil => rfl
  | cons a l ih =>
    rw [List.map_cons, List.flatMap_cons, h.total_cons, h.total_append, ih]

end

/-- The child pushed. -/
def Item.node? : Item n K V R → Option (Node n K V)
  | .put m _ _ _ => some m
  | _ => none

/-- The reduction folded in. -/
def Item.red? : Item n K V R → Option R
  | .skip => none
  | .put _ r _ _ => some r
  | .drop r _ _ => some r

/-- `unchangedl` is left alone. -/
def Item.kl : Item n K V R → Bool
  | .skip => true
  | .put _ _ b _ => b
  | .drop _ b _ => b

/-- `unchangedr` is left alone. -/
def Item.kr : Item n K V R → Bool
  | .skip => true
  | .put _ _ _ b => b
  | .drop _ _ b => b

/-- Total size of a list of nodes. -/
def sizes (ms : List (Node n K V)) : Nat := (ms.map Node.size).sum

theorem sizes_append (a b : List (Node n K V)) : sizes (a ++ b) = sizes a + sizes b := by
  simp [sizes]

/-- State of the loop after the positions `l`. -/
structure Acc.After (reduce : R → R → R) (it : Nat → Item n K V R) (l : List Nat)
    (acc acc' : Acc n K V R) : Prop where
  bits : ∀ j, acc'.bits.getLsbD j =
    (acc.bits.getLsbD j || (decide (j ∈ l) && (it j).node?.isSome))
  values : acc'.values = acc.values ++ l.filterMap fun i => (it i).node?
  size : acc'.size = acc.size + sizes (l.filterMap fun i => (it i).node?)
  ul : acc'.ul = (acc.ul && l.all fun i => (it i).kl)
  ur : acc'.ur = (acc.ur && l.all fun i => (it i).kr)
  red : acc'.red = (l.filterMap fun i => (it i).red?).foldl reduce acc.red

theorem Acc.loop_spec (reduce : R → R → R) (item : Nat → Res (Item n K V R)) (it : Nat → Item n K V R)
    (l : List Nat) (hn : ∀ i ∈ l, i < n) (hd : l.Nodup) (h : ∀ i ∈ l, item i = .ok (it i))
    (acc : Acc n K V R) (hb : ∀ i ∈ l, acc.bits.getLsbD i = false) :
    ∃ acc', Acc.loop reduce item l acc = .ok acc' ∧ Acc.After reduce it l acc acc' := by
  induction l generalizing acc with
  | nil =>
    refine ⟨acc, rfl, ⟨?_, ?_, ?_, ?_, ?_, ?_⟩⟩ <;> simp [sizes]
  | cons i l ih =>
    have hi : i < n := hn i (List.mem_cons_self ..)
    have hil : i ∉ l := (List.nodup_cons.1 hd).1
    simp only [Acc.loop, h i (List.mem_cons_self ..), Res.ok_bind]
    have go : ∀ acc1 : Acc n K V R, (∀ j, acc1.bits.getLsbD j =
          (acc.bits.getLsbD j || (decide (j = i) && (it i).node?.isSome))) →
        acc1.values = acc.values ++ (it i).node?.toList →
        acc1.size = acc.size + sizes (it i).node?.toList →
        acc1.ul = (acc.ul && (it i).kl) → acc1.ur = (acc.ur && (it i).kr) →
        acc1.red = (it i).red?.toList.foldl reduce acc.red →
        ∃ acc', Acc.loop reduce item l acc1 = .ok acc' ∧
          Acc.After reduce it (i :: l) acc acc' := by
      intro acc1 b1 b2 b3 b4 b5 b6
      obtain ⟨acc', e1, r⟩ := ih (fun j hj => hn j (List.mem_cons_of_mem _ hj)) (List.nodup_cons.1 hd).2
        (fun j hj => h j (List.mem_cons_of_mem _ hj)) acc1 (by
          intro j hj
          have : j ≠ i := fun e => hil (e ▸ hj)
          rw [b1, hb j (List.mem_cons_of_mem _ hj)]; simp [this])
      have hfm : ∀ {α : Type} (g : Nat → Option α),
          (i :: l).filterMap g = (g i).toList ++ l.filterMap g := by
        intro α g
        rw [List.filterMap_cons]
        cases g i <;> rfl
      refine ⟨acc', e1, ⟨?_, ?_, ?_, ?_, ?_, ?_⟩⟩
      · intro j
        rw [r.bits, b1]
        by_cases hj : j = i
        · subst hj; simp [hil]
        · simp [hj]
      · rw [r.values, b2, hfm, List.append_assoc]
      · rw [r.size, b3, hfm, sizes_append]; omega
      · rw [r.ul, b4, List.all_cons, Bool.and_assoc]
      · rw [r.ur, b5, List.all_cons, Bool.and_assoc]
      · rw [r.red, b6, hfm, List.foldl_append]
    cases hit : it i with
    | skip =>
      simp only [Acc.step, Res.ok_bind]
      apply go <;> simp [hit, Item.node?, Item.red?, Item.kl, Item.kr, sizes]
    | put m r kl kr =>
      simp only [Acc.step, nthBit_ok hi, Res.unwrapE_ok, Res.ok_bind, bitInsert_bitAt _ hi,
        hb i (List.mem_cons_self ..), Bool.false_eq_true, if_false]
      apply go
      · intro j
        simp only [hit, Item.node?, Option.isSome_some, getLsbD_or_bitAt, Bool.and_true]
        by_cases hj : j = i
        · subst hj; simp [hi]
        · simp [hj, Ne.symm hj]
      all_goals simp [hit, Item.node?, Item.red?, Item.kl, Item.kr, sizes]
    | drop r kl kr =>
      simp only [Acc.step, Res.ok_bind]
      apply go <;> simp [hit, Item.node?, Item.red?, Item.kl, Item.kr, sizes]

/-- What the whole loop computes, for any parallelism strategy. -/
structure Acc.Gathered (reduce : R → R → R) (e : R) (it : Nat → Item n K V R) (acc : Acc n K V R) :
    Prop where
  bits : ∀ j, acc.bits.getLsbD j = (decide (j < n) && (it j).node?.isSome)
  values : acc.values = (List.range n).filterMap fun i => (it i).node?
  size : acc.size = sizes acc.values
  ul : acc.ul = (List.range n).all fun i => (it i).kl
  ur : acc.ur = (List.range n).all fun i => (it i).kr
  red : Mon reduce e → acc.red = total reduce e ((List.range n).filterMap fun i => (it i).red?)

theorem Acc.gather_spec (reduce : R → R → R) (e : R) (par : Par) (item : Nat → Res (Item n K V R))
    (it : Nat → Item n K V R) (h : ∀ i, i < n → item i = .ok (it i)) :
    ∃ acc, Acc.gather reduce e par item = .ok acc ∧ Acc.Gathered reduce e it acc := by
  cases par with
  | sequential =>
    obtain ⟨acc, e1, r⟩ := Acc.loop_spec reduce item it (List.range' 0 n)
      (by intro i hi; simp at hi; exact hi) (List.nodup_range') (by
        intro i hi; simp at hi; exact h i hi) (Acc.init e) (by simp [Acc.init])
    refine ⟨acc, e1, ?_⟩
    rw [List.range_eq_range'.symm] at r
    have hv := r.values
    refine ⟨?_, ?_, ?_, ?_, ?_, ?_⟩
    · intro j; rw [r.bits]; simp [Acc.init]
    · rw [hv]; simp [Acc.init]
    · rw [r.size, hv]; simp [Acc.init]
    · rw [r.ul]; simp [Acc.init]
    · rw [r.ur]; simp [Acc.init]
    · intro _; rw [r.red]; rfl
  | middleIndex =>
    have hm : n / 2 ≤ n := Nat.div_le_self ..
    obtain ⟨acc1, e1, r1⟩ := Acc.loop_spec reduce item it (List.range' 0 (n / 2))
      (by intro i hi; simp at hi; omega) (List.nodup_range') (by
        intro i hi; simp at hi; exact h i (by omega)) (Acc.init e) (by simp [Acc.init])
    obtain ⟨acc2, e2, r2⟩ := Acc.loop_spec reduce item it (List.range' (n / 2) (n - n / 2))
      (by intro i hi; rw [List.mem_range'_1] at hi; omega) (List.nodup_range') (by
        intro i hi; rw [List.mem_range'_1] at hi; exact h i (by omega)) (Acc.init e) (by simp [Acc.init])
    have hr : List.range n = List.range' 0 (n / 2) ++ List.range' (n / 2) (n - n / 2) := by
      rw [List.range_eq_range']
      have := List.range'_append_1 (s := 0) (m := n / 2) (n := n - n / 2)
      rw [Nat.zero_add] at this
      rw [this]; congr 1; omega
    have hdis : acc1.bits &&& acc2.bits = 0#n := by
      rw [and_eq_zero_iff]
      intro i hi ⟨h1, h2⟩
      rw [r1.bits] at h1; rw [r2.bits] at h2
      simp only [Acc.init, BitVec.getLsbD_zero, Bool.false_or, Bool.and_eq_true, decide_eq_true_eq,
        List.mem_range'_1] at h1 h2
      omega
    simp only [Acc.gather, e1, e2, Res.ok_bind, Acc.merge, bitMerge_eq, hdis, if_true, Res.unwrapE_ok]
    refine ⟨_, rfl, ⟨?_, ?_, ?_, ?_, ?_, ?_⟩⟩
    · intro j
      simp only [BitVec.getLsbD_or, r1.bits, r2.bits, Acc.init, BitVec.getLsbD_zero, Bool.false_or,
        List.mem_range'_1, Nat.zero_add, Nat.zero_le, true_and]
      by_cases hj : j < n
      · by_cases hj2 : j < n / 2
        · have : ¬ n / 2 ≤ j := by omega
          simp [hj, hj2, this]
        · have h1 : n / 2 ≤ j := by omega
          have h2 : j < n / 2 + (n - n / 2) := by omega
          simp [hj, hj2, h1, h2]
      · have h1 : ¬ j < n / 2 := by omega
        have h2 : ¬ j < n / 2 + (n - n / 2) := by omega
        simp [hj, h1, h2]
    · rw [hr, List.filterMap_append]; simp [r1.values, r2.values, Acc.init]
    · simp only [sizes_append]; rw [r1.size, r2.size, r1.values, r2.values]
      simp [Acc.init]
    · rw [hr, List.all_append]; simp [r1.ul, r2.ul, Acc.init]
    · rw [hr, List.all_append]; simp [r1.ur, r2.ur, Acc.init]
    · intro mon
      rw [hr, List.filterMap_append, mon.total_append]
      simp only [r1.red, r2.red]; rfl

/-! ### The array built by the loop -/

theorem onesBelow_filterMap {A : Type} (g : Nat → Option A) (bits : BitVec n)
    (hb : ∀ j, bits.getLsbD j = (decide (j < n) && (g j).isSome)) (m : Nat) (hm : m ≤ n) :
    onesBelow bits m = ((List.range m).filterMap g).length := by
  induction m with
  | zero => simp
  | succ m ih =>
    rw [onesBelow_succ, ih (by omega), List.range_succ, List.filterMap_append, hb m]
    have : m < n := by omega
    cases hg : g m <;> simp [this, hg]

theorem Bia.of_filterMap {A : Type} (g : Nat → Option A) (bits : BitVec n) (values : List A) (x : Nat)
    (hb : ∀ j, bits.getLsbD j = (decide (j < n) && (g j).isSome))
    (hv : values = (List.range n).filterMap g) :
    (Bia.mk bits values x).Ok ∧ ∀ i, i < n → (Bia.mk bits values x).slot i = g i := by
  have ok : (Bia.mk bits values x).Ok := by
    show countOnes bits = values.length
    rw [countOnes_eq_onesBelow, onesBelow_filterMap g bits hb n (Nat.le_refl n), hv]
  refine ⟨ok, ?_⟩
  intro i hi
  simp only [Bia.slot, hb i, hi, decide_true, Bool.true_and]
  cases hg : g i with
  | none => simp
  | some a =>
    simp only [Option.isSome_some, if_true]
    rw [onesBelow_filterMap g bits hb i (by omega), hv]
    have hr : List.range n = List.range' 0 i ++ i :: List.range' (i + 1) (n - (i + 1)) := by
      rw [List.range_eq_range']
      have h1 := List.range'_append_1 (s := 0) (m := i) (n := n - i)
      have h2 : List.range' i (n - i) = i :: List.range' (i + 1) (n - (i + 1)) := by
        have : n - i = (n - (i + 1)) + 1 := by omega
        rw [this, List.range'_succ]
      rw [Nat.zero_add, h2] at h1
      rw [h1]; congr 1; omega
    rw [hr, List.filterMap_append, List.filterMap_cons, hg, List.range_eq_range']
    simp

/-- Entries below an optional node. -/
def vis (o : Option (Node n K V)) : List (K × V) :=
  match o with
  | some m => m.visit
  | none => []

@[simp] theorem vis_none : vis (none : Option (Node n K V)) = [] := rfl
@[simp] theorem vis_some (m : Node n K V) : vis (some m) = m.visit := rfl

theorem visitAll_filterMap (l : List Nat) (g : Nat → Option (Node n K V)) :
    Node.visitAll (l.filterMap g) = l.flatMap fun i => vis (g i) := by
  rw [Node.visitAll_eq]
  induction l with
  | nil => rfl
  | cons i l ih =>
    rw [List.filterMap_cons, List.flatMap_cons, ← ih]
    cases g i <;> simp

theorem sizes_eq [BEq K] {c : Cfg} {hash : K → BitVec c.w} {mx d : Nat} (ms : List (Node c.n K V))
    (h : ∀ m ∈ ms, m.WF hash mx d) : sizes ms = (Node.visitAll ms).length := by
  induction ms with
  | nil => rfl
  | cons m ms ih =>
    have h1 := (h m (List.mem_cons_self ..)).size_eq
    have h2 := ih (fun m' hm' => h m' (List.mem_cons_of_mem _ hm'))
    simp only [sizes, List.map_cons, List.sum_cons] at h2 ⊢
    rw [h1, h2, Node.visitAll, List.length_append]

/-- Packing the children `g` into a node. -/
theorem Acc.pack_spec [BEq K] {c : Cfg} {hash : K → BitVec c.w} {mx d : Nat} (hd : d < mx)
    {reduce : R → R → R} {e : R} {it : Nat → Item c.n K V R} {acc : Acc c.n K V R}
    (G : Acc.Gathered reduce e it acc)
    (hg : ∀ i m, i < c.n → (it i).node? = some m →
      m.WF hash mx (d + 1) ∧ m.visit ≠ [] ∧ ∀ x ∈ m.visit, chunk c (hash x.1) d = i) :
    ∃ o, acc.pack = .ok o ∧
      vis o = (List.range c.n).flatMap (fun i => vis (it i).node?) ∧
      ∀ m, o = some m → m.WF hash mx d ∧ m.visit ≠ [] := by
  obtain ⟨size, bits, values, ul, ur, red⟩ := acc
  have hval : values = _ := G.values
  have hbits := G.bits
  have hsize : size = sizes values := G.size
  obtain ⟨ok, hslot⟩ := Bia.of_filterMap (fun i => (it i).node?) bits values size hbits hval
  have hslot' : ∀ i m, (Bia.mk bits values size).slot i = some m → i < c.n ∧ (it i).node? = some m := by
    intro i m hm
    have hi := Bia.slot_lt hm
    exact ⟨hi, by rw [← hslot i hi]; exact hm⟩
  have hmem : ∀ m ∈ values, ∃ i, i < c.n ∧ (it i).node? = some m := by
    intro m hm
    rw [hval] at hm
    obtain ⟨i, hi, h⟩ := List.mem_filterMap.1 hm
    exact ⟨i, List.mem_range.1 hi, h⟩
  have hvis : Node.visitAll values = (List.range c.n).flatMap (fun i => vis (it i).node?) := by
    conv => lhs; rw [hval]
    exact visitAll_filterMap _ _
  have wfm : ∀ m ∈ values, m.WF hash mx (d + 1) ∧ m.visit ≠ [] := by
    intro m hm
    obtain ⟨i, hi, h⟩ := hmem m hm
    exact ⟨(hg i m hi h).1, (hg i m hi h).2.1⟩
  have wfC : (Node.C bits values size).WF hash mx d := by
    refine .C d _ _ _ hd ok ?_ ?_ ?_ ?_
    · rw [hsize, sizes_eq values (fun m hm => (wfm m hm).1)]
    · intro i m hm; obtain ⟨hi, h⟩ := hslot' i m hm; exact (hg i m hi h).2.1
    · intro i m hm; obtain ⟨hi, h⟩ := hslot' i m hm; exact (hg i m hi h).2.2
    · intro i m hm; obtain ⟨hi, h⟩ := hslot' i m hm; exact (hg i m hi h).1
  have hne : values ≠ [] → Node.visitAll values ≠ [] := by
    intro h
    cases values with
    | nil => exact absurd rfl h
    | cons m ms =>
      have := (wfm m (List.mem_cons_self ..)).2
      simp [Node.visitAll, this]
  have mkC : values ≠ [] → ∃ o, (do
      let a ← Bia.ofVec bits values size
      let a ← Res.unwrapE a
      Res.ok (some (Node.ofBia a)) : Res (Option (Node c.n K V))) = .ok o ∧
      vis o = (List.range c.n).flatMap (fun i => vis (it i).node?) ∧
      ∀ m, o = some m → m.WF hash mx d ∧ m.visit ≠ [] := by
    intro h
    rw [Bia.ofVec_eq _ _ c.n_le ok]
    refine ⟨_, rfl, ?_, ?_⟩
    · rw [← hvis]; simp [Node.ofBia, Node.visit]
    · intro m hm; injection hm with hm; subst hm
      exact ⟨wfC, by simpa [Node.ofBia, Node.visit] using hne h⟩
  match values, hvis, wfm, mkC with
  | [], hvis, _, _ =>
    refine ⟨none, rfl, ?_, by simp⟩
    rw [← hvis]; rfl
  | [.C b v x], _, _, mkC => exact mkC (by simp)
  | [.L l], hvis, wfm, _ =>
    refine ⟨some (.L l), rfl, ?_, ?_⟩
    · rw [← hvis]; simp [Node.visitAll]
    · intro m hm; injection hm with hm; subst hm
      have := wfm _ (List.mem_cons_self ..)
      refine ⟨?_, this.2⟩
      cases this.1 with
      | L _ _ h => exact .L _ _ h
  | [.S s], hvis, wfm, _ =>
    refine ⟨some (.S s), rfl, ?_, ?_⟩
    · rw [← hvis]; simp [Node.visitAll]
    · intro m hm; injection hm with hm; subst hm
      exact ⟨.S _ _, (wfm _ (List.mem_cons_self ..)).2⟩
  | m1 :: m2 :: ms, _, _, mkC =>
    have := mkC (by simp)
    cases m1 <;> exact this

end HT
