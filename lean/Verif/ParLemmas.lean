import Verif.JointNode
import Verif.LoopLemmas
/-! # The parallelism strategy makes no difference for a monoid -/
namespace HT

variable {K V L W S X R : Type}

section
variable {n : Nat}

/-- The combination of two halves that do not overlap. -/
def Acc.plus (reduce : R → R → R) (a b : Acc n K V R) : Acc n K V R :=
  ⟨a.size + b.size, a.bits ||| b.bits, a.values ++ b.values, a.ul && b.ul, a.ur && b.ur, reduce a.red b.red⟩

variable {reduce : R → R → R} {e : R}

theorem Acc.plus_assoc (mon : Mon reduce e) (a b d : Acc n K V R) :
    (a.plus reduce b).plus reduce d = a.plus reduce (b.plus reduce d) := by
  simp [Acc.plus, Nat.add_assoc, BitVec.or_assoc, Bool.and_assoc, mon.assoc]

theorem Acc.plus_init (mon : Mon reduce e) (a : Acc n K V R) : a.plus reduce (Acc.init e) = a := by
  simp [Acc.plus, Acc.init, mon.right]

/-- The step from the initial state. -/
def Acc.unit (e : R) (index : Nat) : Item n K V R → Acc n K V R
  | .skip => Acc.init e
  | .put m r kl kr => ⟨m.size, bitAt n index, [m], kl, kr, r⟩
  | .drop r kl kr => ⟨0, 0#n, [], kl, kr, r⟩

theorem Acc.step_eq (mon : Mon reduce e) {acc : Acc n K V R} {i : Nat} (hi : i < n)
    (hb : acc.bits.getLsbD i = false) (it : Item n K V R) :
    acc.step reduce i it = .ok (acc.plus reduce (Acc.unit e i it)) := by
  cases it with
  | skip => simp [Acc.step, Acc.unit, Acc.plus_init mon]
  | drop r kl kr => simp [Acc.step, Acc.unit, Acc.plus]
  | put m r kl kr =>
    simp only [Acc.step, nthBit_ok hi, Res.unwrapE_ok, Res.ok_bind, bitInsert_bitAt _ hi, hb, Bool.false_eq_true, if_false]
    simp [Acc.unit, Acc.plus]

theorem Acc.unit_bits {e : R} {i j : Nat} (it : Item n K V R) (h : (Acc.unit e i it).bits.getLsbD j = true) :
    j = i := by
  cases it with
  | skip => simp [Acc.unit, Acc.init] at h
  | drop r kl kr => simp [Acc.unit] at h
  | put m r kl kr =>
    simp only [Acc.unit, getLsbD_bitAt] at h
    simp at h; omega

theorem Acc.loop_plus (mon : Mon reduce e) (item : Nat → Res (Item n K V R)) (l : List Nat)
    (hn : ∀ i ∈ l, i < n) (hd : l.Nodup) (acc : Acc n K V R) (hb : ∀ i ∈ l, acc.bits.getLsbD i = false) :
    Acc.loop reduce item l acc = (do
      let b ← Acc.loop reduce item l (Acc.init e)
      .ok (acc.plus reduce b)) := by
  induction l generalizing acc with
  | nil => simp [Acc.loop, Acc.plus_init mon]
  | cons i l ih =>
    have hi := hn i (List.mem_cons_self ..)
    have hil := (List.nodup_cons.1 hd).1
    have hn' : ∀ j ∈ l, j < n := fun j hj => hn j (List.mem_cons_of_mem _ hj)
    have hu : ∀ it : Item n K V R, ∀ j ∈ l, (Acc.unit e i it).bits.getLsbD j = false := by
      intro it j hj
      cases h : (Acc.unit e i it).bits.getLsbD j with
      | false => rfl
      | true => exact absurd hj (Acc.unit_bits it h ▸ hil)
    simp only [Acc.loop]
    cases hit : item i with
    | panic p => rfl
    | diverge => rfl
    | ok it =>
      simp only [Res.ok_bind]
      rw [Acc.step_eq mon hi (hb i (List.mem_cons_self ..)),
        Acc.step_eq mon hi (by simp [Acc.init]) (acc := Acc.init e)]
      simp only [Res.ok_bind]
      have h0 : (Acc.init e).plus reduce (Acc.unit e i it) = Acc.unit e i it := by
        cases it <;> simp [Acc.plus, Acc.unit, Acc.init, mon.left]
      rw [h0, ih hn' (List.nodup_cons.1 hd).2 (Acc.unit e i it) (hu it),
        ih hn' (List.nodup_cons.1 hd).2 (acc.plus reduce (Acc.unit e i it)) (by
          intro j hj
          simp [Acc.plus, hb j (List.mem_cons_of_mem _ hj), hu it j hj])]
      cases Acc.loop reduce item l (Acc.init e) with
      | panic p => rfl
      | diverge => rfl
      | ok b => simp [Acc.plus_assoc mon]

theorem Acc.loop_bits (item : Nat → Res (Item n K V R)) (l : List Nat) (hn : ∀ i ∈ l, i < n)
    (acc acc' : Acc n K V R) (h : Acc.loop reduce item l acc = .ok acc') (j : Nat)
    (hj : acc'.bits.getLsbD j = true) : acc.bits.getLsbD j = true ∨ j ∈ l := by
  induction l generalizing acc with
  | nil => simp only [Acc.loop, Res.ok.injEq] at h; subst h; exact .inl hj
  | cons i l ih =>
    have hi := hn i (List.mem_cons_self ..)
    simp only [Acc.loop, Res.bind_eq_ok] at h
    obtain ⟨it, _, acc1, h1, h2⟩ := h
    rcases ih (fun j hj => hn j (List.mem_cons_of_mem _ hj)) acc1 h2 with h3 | h3
    · cases it with
      | skip => simp only [Acc.step, Res.ok.injEq] at h1; subst h1; exact .inl h3
      | drop r kl kr => simp only [Acc.step, Res.ok.injEq] at h1; subst h1; exact .inl h3
      | put m r kl kr =>
        by_cases hb : acc.bits.getLsbD i = true
        · rw [Acc.step, nthBit_ok hi, Res.unwrapE_ok, Res.ok_bind, bitInsert_bitAt _ hi, if_pos hb] at h1
          simp at h1
        · simp only [Acc.step, nthBit_ok hi, Res.unwrapE_ok, Res.ok_bind, bitInsert_bitAt _ hi, if_neg hb,
            Res.ok.injEq] at h1
          subst h1
          simp only [getLsbD_or_bitAt, Bool.or_eq_true] at h3
          rcases h3 with h3 | h3
          · exact .inl h3
          · simp at h3; exact .inr (by simp [h3])
    · exact .inr (List.mem_cons_of_mem _ h3)

theorem Acc.gather_par (mon : Mon reduce e) (par : Par) (item : Nat → Res (Item n K V R)) :
    Acc.gather reduce e par item = Acc.gather reduce e .sequential item := by
  cases par with
  | sequential => rfl
  | middleIndex =>
    have app : ∀ (l l' : List Nat) (acc : Acc n K V R), Acc.loop reduce item (l ++ l') acc = (do
        let acc ← Acc.loop reduce item l acc
        Acc.loop reduce item l' acc) := by
      intro l l' acc
      induction l generalizing acc with
      | nil => rfl
      | cons i l ih =>
        simp only [List.cons_append, Acc.loop]
        cases item i with
        | panic p => rfl
        | diverge => rfl
        | ok it =>
          simp only [Res.ok_bind]
          cases acc.step reduce i it with
          | panic p => rfl
          | diverge => rfl
          | ok acc1 => simp only [Res.ok_bind]; exact ih acc1
    have hr : List.range' 0 n = List.range' 0 (n / 2) ++ List.range' (n / 2) (n - n / 2) := by
      have := List.range'_append (s := 0) (m := n / 2) (n := n - n / 2) (step := 1)
      rw [Nat.zero_add, Nat.one_mul] at this
      rw [this]; congr 1; omega
    simp only [Acc.gather]
    rw [hr, app]
    cases h1 : Acc.loop reduce item (List.range' 0 (n / 2)) (Acc.init e) with
    | panic p => rfl
    | diverge => rfl
    | ok l =>
      have hl : ∀ j, l.bits.getLsbD j = true → j < n / 2 := by
        intro j hj
        rcases Acc.loop_bits item _ (by intro i hi; rw [List.mem_range'_1] at hi; omega) _ _ h1 j hj with h | h
        · simp [Acc.init] at h
        · rw [List.mem_range'_1] at h; omega
      simp only [Res.ok_bind]
      have hn : ∀ i ∈ List.range' (n / 2) (n - n / 2), i < n := by
        intro i hi; rw [List.mem_range'_1] at hi; omega
      rw [Acc.loop_plus mon item _ hn List.nodup_range' l (by
        intro i hi
        rw [List.mem_range'_1] at hi
        cases h : l.bits.getLsbD i with
        | false => rfl
        | true => have := hl i h; omega)]
      cases h2 : Acc.loop reduce item (List.range' (n / 2) (n - n / 2)) (Acc.init e) with
      | panic p => rfl
      | diverge => rfl
      | ok r =>
        simp only [Res.ok_bind, Acc.merge]
        have : bitMerge l.bits r.bits = .ok (l.bits ||| r.bits) := by
          rw [bitMerge_eq, if_pos]
          rw [and_eq_zero_iff]
          intro j _ h
          have := hl j h.1
          rcases Acc.loop_bits item _ hn _ _ h2 j h.2 with h | h
          · simp [Acc.init] at h
          · rw [List.mem_range'_1] at h; omega
        rw [this]; rfl

end

mutual

theorem Node.transform_par {n : Nat} {reduce : R → R → R} {e : R} (mon : Mon reduce e)
    (op : MapTransform R (K → V → MapTransformResult V R)) (par : Par) :
    ∀ m : Node n K V, m.transform reduce e op par = m.transform reduce e op .sequential
  | .C bits values extra => by
    cases op with
    | unchanged r => simp only [Node.transform]
    | removed r => simp only [Node.transform]
    | generic f =>
      simp only [Node.transform]
      rw [Acc.gather_par mon, Node.transformAll_par mon _ par values]
  | .L l => by simp only [Node.transform]
  | .S s => by simp only [Node.transform]

theorem Node.transformAll_par {n : Nat} {reduce : R → R → R} {e : R} (mon : Mon reduce e)
    (op : MapTransform R (K → V → MapTransformResult V R)) (par : Par) :
    ∀ ms : List (Node n K V), Node.transformAll reduce e op par ms = Node.transformAll reduce e op .sequential ms
  | [] => rfl
  | m :: ms => by
    simp only [Node.transformAll]
    rw [Node.transform_par mon op par m, Node.transformAll_par mon op par ms]

end

variable {c : Cfg} {reduce : R → R → R} {e : R}

theorem Node.transform_par_fun (mon : Mon reduce e) (op : MapTransform R (K → V → MapTransformResult V R))
    (par : Par) : (fun m : Node c.n K V => m.transform reduce e op par) =
      fun m => m.transform reduce e op .sequential := funext (Node.transform_par mon op par)

theorem Node.transformL_par (mon : Mon reduce e) (op : MapTransform R (K → V → MapTransformResult V R))
    (par : Par) : Node.transformL (c := c) reduce e par op = Node.transformL reduce e .sequential op := by
  funext m
  rw [Node.transformL, Node.transformL, Node.transform_par mon]

theorem Node.transformR_par (mon : Mon reduce e) (op : MapTransform R (K → V → MapTransformResult V R))
    (par : Par) : Node.transformR (c := c) reduce e par op = Node.transformR reduce e .sequential op := by
  funext m
  rw [Node.transformR, Node.transformR, Node.transform_par mon]

variable (x : Cross c K L)

theorem Node.twmS_par (mon : Mon reduce e) (ops : TwmOps K V L W R) (par : Par) :
    Node.twmS x reduce e ops par = Node.twmS x reduce e ops .sequential := by
  have : twmSC x reduce e ops par = twmSC x reduce e ops .sequential := by
    funext right bits left extra depth
    simp only [twmSC]; rw [Node.transform_par_fun mon]
  funext m right d
  simp only [Node.twmS, this]

theorem Node.twmL_par (mon : Mon reduce e) (ops : TwmOps K V L W R) (par : Par) :
    Node.twmL x reduce e ops par = Node.twmL x reduce e ops .sequential := by
  have : twmLC x reduce e ops par = twmLC x reduce e ops .sequential := by
    funext right bits left extra depth
    simp only [twmLC]; rw [Node.transform_par_fun mon]
  funext m right d
  simp only [Node.twmL, this]

theorem Node.twm_par (mon : Mon reduce e) (ops : TwmOps K V L W R) (par : Par) :
    Node.twm x reduce e ops par = Node.twm x reduce e ops .sequential := by
  have : twmC x reduce e ops par = twmC x reduce e ops .sequential := by
    funext bits left extra depth right
    cases right with
    | C b v z => simp only [twmC, twmCC]; rw [Node.transform_par_fun mon]
    | L l => simp only [twmC]; rw [Node.twmL_par x mon]
    | S s => simp only [twmC]; rw [Node.twmS_par x mon]
  funext m right d
  simp only [Node.twm, this]

theorem Node.mwt_par (mon : Mon reduce e) (ops : MwtOps K V L W R) (par : Par) :
    Node.mwt x reduce e ops par = Node.mwt x reduce e ops .sequential := by
  have hC : mwtC x reduce e ops par = mwtC x reduce e ops .sequential := by
    funext bits left extra depth right
    cases right with
    | C b v z => simp only [mwtC, mwtCC]; rw [Node.transform_par_fun mon]
    | L l => simp only [mwtC]
    | S s => simp only [mwtC]
  have hS : ∀ (s : SNode K V) (right : Node c.n L W) d,
      s.mwtN x reduce e ops par right d = s.mwtN x reduce e ops .sequential right d := by
    intro s right d
    cases right <;> simp only [SNode.mwtN]
    rw [Node.twmS_par x.flip mon]
  have hL : ∀ (l : LNode K V) (right : Node c.n L W) d,
      l.mwtN x reduce e ops par right d = l.mwtN x reduce e ops .sequential right d := by
    intro s right d
    cases right <;> simp only [LNode.mwtN]
    rw [Node.twmL_par x.flip mon]
  funext m right d
  simp only [Node.mwt, hC, hS, hL]

variable [BEq K] (hash : K → BitVec c.w)

theorem Node.twtS_par (mon : Mon reduce e) (ops : TwtOps K V R) (par : Par) :
    Node.twtS reduce e hash ops par = Node.twtS reduce e hash ops .sequential := by
  have : twtSC reduce e hash ops par = twtSC reduce e hash ops .sequential := by
    funext right bits left extra depth
    simp only [twtSC]; rw [Node.transformL_par mon]
  funext m right d
  simp only [Node.twtS, this]

theorem Node.twtL_par (mon : Mon reduce e) (ops : TwtOps K V R) (par : Par) :
    Node.twtL reduce e hash ops par = Node.twtL reduce e hash ops .sequential := by
  have : twtLC reduce e hash ops par = twtLC reduce e hash ops .sequential := by
    funext right bits left extra depth
    simp only [twtLC]; rw [Node.transformL_par mon]
  funext m right d
  simp only [Node.twtL, this]

theorem Node.twt_par (mon : Mon reduce e) (ops : TwtOps K V R) (par : Par) :
    Node.twt reduce e hash ops par = Node.twt reduce e hash ops .sequential := by
  have hC : twtC reduce e hash ops par = twtC reduce e hash ops .sequential := by
    funext bits left extra depth right
    cases right with
    | C b v z =>
      simp only [twtC, twtCC, bothLoop]
      rw [Node.transformL_par mon, Node.transformR_par mon]
      cases ops.shortcut with
      | some r => rfl
      | none => simp only []; rw [Acc.gather_par mon]
    | L l => simp only [twtC]; rw [Node.twtL_par hash mon]
    | S s => simp only [twtC]; rw [Node.twtS_par hash mon]
  have hS : ∀ (s : SNode K V) (right : Node c.n K V) d,
      s.twtN reduce e hash ops par right d = s.twtN reduce e hash ops .sequential right d := by
    intro s right d
    cases right <;> simp only [SNode.twtN]
    rw [Node.twtS_par hash mon]
  have hL : ∀ (l : LNode K V) (right : Node c.n K V) d,
      l.twtN reduce e hash ops par right d = l.twtN reduce e hash ops .sequential right d := by
    intro s right d
    cases right <;> simp only [LNode.twtN]
    rw [Node.twtL_par hash mon]
  funext m right d
  simp only [Node.twt, hC, hS, hL]

end HT
