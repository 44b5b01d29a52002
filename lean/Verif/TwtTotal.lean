import Verif.TwtRed
/-!
# The reduction of `transform_with_transformed` without restriction on the answers
-/
namespace HT

variable {K V R : Type}

/-! ### Calls that return do not meet a stuck pair -/

theorem Acc.loop_items {n : Nat} {reduce : R → R → R} {item : Nat → Res (Item n K V R)} {l : List Nat}
    {a b : Acc n K V R} (h : Acc.loop reduce item l a = .ok b) : ∀ i ∈ l, ∃ it, item i = .ok it := by
  induction l generalizing a with
  | nil => intro i hi; cases hi
  | cons j l ih =>
    simp only [Acc.loop, Res.bind_eq_ok] at h
    obtain ⟨it, h1, acc, _, h3⟩ := h
    intro i hi
    rcases List.mem_cons.1 hi with rfl | hi
    · exact ⟨it, h1⟩
    · exact ih h3 i hi

theorem Acc.gather_items {n : Nat} {reduce : R → R → R} {e : R} {par : Par} {item : Nat → Res (Item n K V R)}
    {b : Acc n K V R} (h : Acc.gather reduce e par item = .ok b) (i : Nat) (hi : i < n) :
    ∃ it, item i = .ok it := by
  cases par with
  | sequential => exact Acc.loop_items h i (by rw [List.mem_range'_1]; omega)
  | middleIndex =>
    simp only [Acc.gather, Res.bind_eq_ok] at h
    obtain ⟨a1, h1, a2, h2, _⟩ := h
    by_cases hm : i < n / 2
    · exact Acc.loop_items h1 i (by rw [List.mem_range'_1]; omega)
    · exact Acc.loop_items h2 i (by rw [List.mem_range'_1]; omega)

section
variable [BEq K] {c : Cfg} {hash : K → BitVec c.w} (laws : KeyLaws hash) {ops : TwtOps K V R}
  (reduce : R → R → R) (e : R) (par : Par)
include laws

theorem Node.twt_stuck_not_ok {d : Nat} {m : Node c.n K V} (wf : m.WF hash c.levels d) {r : Node c.n K V}
    (wr : r.WF hash c.levels d) (look : ops.shortcut (c := c) = none) (st : Node.Stuck (Cross.same hash) m r)
    (x : JRes (Node c.n K V) R) : m.twt reduce e hash ops par r d ≠ .ok x := by
  induction wf generalizing r x with
  | S d s => cases st
  | L d l wl =>
    cases wr with
    | S _ r => cases st
    | L _ r wr =>
      cases st with | LL ns =>
      rw [show (Node.L l).twt reduce e hash ops par (.L r) d = .diverge from LNode.twtL_stall laws reduce l wl r wr d ns]
      simp
    | C _ b v z hd ok sz ne at_ sub =>
      have wr : (Node.C b v z).WF hash c.levels d := .C d b v z hd ok sz ne at_ sub
      cases st with | LC ns =>
      rw [show (Node.L l).twt reduce e hash ops par (.C b v z) d = .diverge from
        (congrArg JRes.flipR (Node.twtL_stall laws (ops := ops.flip) reduce e par l wl wr ns)).trans rfl]
      simp
  | C d bits values extra hd ok sz ne at_ sub ih =>
    have wf : (Node.C bits values extra).WF hash c.levels d := .C d bits values extra hd ok sz ne at_ sub
    rw [Node.twt, Node.fold]
    cases wr with
    | S _ r => cases st
    | L _ r wr =>
      cases st with | CL ns =>
      simp only [twtC, Node.foldAll_fst]
      rw [Node.twtL_stall laws reduce e par r wr wf ns]
      simp
    | C _ b v z hd' ok' sz' ne' at_' sub' =>
      cases st with | CC hm hr st =>
      rename_i i m r
      simp only [twtC, twtCC, Node.foldAll_eq, look]
      intro hx
      simp only [Res.bind_eq_ok] at hx
      obtain ⟨acc, hacc, _⟩ := hx
      obtain ⟨it, hit⟩ := Acc.gather_items hacc i (Bia.slot_lt hm)
      have okm : (Bia.mk bits (values.map fun m => (m, Node.fold (fun s d right => s.twtN reduce e hash ops par right d)
          (fun l d right => l.twtN reduce e hash ops par right d) (twtC reduce e hash ops par) m (d + 1))) extra).Ok := by
        simpa [Bia.Ok] using ok
      simp only [Bia.atBitIndex_eq _ okm, Bia.atBitIndex_eq _ ok', Res.ok_bind, Bia.slot_map, hm, hr, Option.map_some,
        bothItem, Res.bind_eq_ok] at hit
      obtain ⟨res, h1, _⟩ := hit
      exact ih i m hm (sub' i r hr) st res h1

end

/-! ### The same call with all answers `Transformed` -/

/-- The operations that contribute the same, answering `Transformed` always. -/
def TwtOps.loud (ops : TwtOps K V R) : TwtOps K V R :=
  ⟨.generic (fun k v l w => .transformed v (ops.both.call k v l w).red) false,
   .generic (fun k v => .transformed v (ops.left.call k v).red),
   .generic (fun k v => .transformed v (ops.right.call k v).red)⟩

theorem TwtOps.loud_shortcut {c : Cfg} (ops : TwtOps K V R) : ops.loud.shortcut (c := c) = none := rfl

theorem TwtOps.loud_tame [BEq K] {w : Nat} (ops : TwtOps K V R) (hash : K → BitVec w) (as bs : List (K × V)) :
    ops.loud.Tame hash as bs := by
  intro h
  refine ⟨fun _ _ => .of_noKeep ?_, fun _ _ => .of_noKeep ?_, fun _ _ => ⟨?_, ?_⟩⟩
  · intro a _ r hr; cases hr
  · intro a _ r hr; cases hr
  · intro a _ b _ _ r hr; cases hr
  · intro a _ b _ _ r hr; cases hr

theorem TwtOps.loud_red (ops : TwtOps K V R) (p : Case (K × V) (K × V)) : ops.loud.red p = ops.red p := by
  cases p
  · exact congrArg MapTransformResult.red (by cases ops.left <;> rfl)
  · exact congrArg MapTransformResult.red (by cases ops.right <;> rfl)
  · simp only [TwtOps.red, TwtOps.loud, MapJointTransform.closure_eq]; rfl

section
variable {reduce : R → R → R} {e : R}

/-- Transforming with a neutral operation contributes what its loud version does. -/
theorem MapTransform.rel_loud {n : Nat} (mon : Mon reduce e) (par : Par)
    (op : MapTransform R (K → V → MapTransformResult V R)) (neu : op.Neutral e) :
    op.RRel n (· = ·) reduce e reduce e par (.generic fun k v => .transformed v (op.call k v).red) := by
  have eq : RedRel (fun a b : R => a = b) reduce e reduce e := ⟨fun h h' => by rw [h, h'], rfl⟩
  have one : RedRel (fun _ b : R => e = b) reduce e reduce e := ⟨fun h h' => by rw [← h, ← h', mon.left], rfl⟩
  cases op with
  | generic f =>
    exact ⟨fun _ _ => rfl, fun l =>
      LNode.transform_rel (f := f) (f' := fun k v => .transformed v (f k v).red) eq (fun _ _ => rfl) l, 
      fun m => Node.transform_rel (f := f) (f' := fun k v => .transformed v (f k v).red) eq (fun _ _ => rfl) par m⟩
  | unchanged r =>
    obtain rfl : r = e := neu
    refine ⟨fun _ _ => rfl, fun l => ?_, fun m => ?_⟩
    · have := LNode.transform_rel one (f := fun _ v => .transformed v r) (f' := fun _ v => .transformed v r) (fun _ _ => rfl) l
      refine Eq.trans ?_ this
      cases l <;> rfl
    · have := Node.transform_rel one (f := fun _ v => .transformed v r) (f' := fun _ v => .transformed v r) (fun _ _ => rfl) par m
      intro x y hx hy
      have hx' : x.red = r := by
        cases m with
        | C b v z => simp only [Node.transform, Res.ok.injEq] at hx; subst hx; rfl
        | L l => simp only [Node.transform, Res.ok.injEq] at hx; subst hx; cases l <;> rfl
        | S s => simp only [Node.transform, Res.ok.injEq] at hx; subst hx; rfl
      rw [hx']
      exact this y y hy hy
  | removed r =>
    obtain rfl : r = e := neu
    refine ⟨fun _ _ => rfl, fun l => ?_, fun m => ?_⟩
    · have := LNode.transform_rel one (f := fun _ v => .transformed v r) (f' := fun _ v => .transformed v r) (fun _ _ => rfl) l
      refine Eq.trans ?_ this
      cases l <;> rfl
    · have := Node.transform_rel one (f := fun _ v => .transformed v r) (f' := fun _ v => .transformed v r) (fun _ _ => rfl) par m
      intro x y hx hy
      have hx' : x.red = r := by
        cases m with
        | C b v z => simp only [Node.transform, Res.ok.injEq] at hx; subst hx; rfl
        | L l => simp only [Node.transform, Res.ok.injEq] at hx; subst hx; cases l <;> rfl
        | S s => simp only [Node.transform, Res.ok.injEq] at hx; subst hx; rfl
      rw [hx']
      exact this y y hy hy

/-- Bulk operations contribute the default. -/
theorem MapTransform.rel_bulk {n : Nat} (par : Par) (op : MapTransform R (K → V → MapTransformResult V R))
    (hop : op = .unchanged e ∨ op = .removed e) : op.RRel n (fun a _ => a = e) reduce e reduce e par op := by
  rcases hop with rfl | rfl
  · refine ⟨fun _ _ => rfl, fun l => by cases l <;> rfl, fun m x y hx _ => ?_⟩
    cases m with
    | C b v z => simp only [Node.transform, Res.ok.injEq] at hx; subst hx; rfl
    | L l => simp only [Node.transform, Res.ok.injEq] at hx; subst hx; cases l <;> rfl
    | S s => simp only [Node.transform, Res.ok.injEq] at hx; subst hx; rfl
  · refine ⟨fun _ _ => rfl, fun l => by cases l <;> rfl, fun m x y hx _ => ?_⟩
    cases m with
    | C b v z => simp only [Node.transform, Res.ok.injEq] at hx; subst hx; rfl
    | L l => simp only [Node.transform, Res.ok.injEq] at hx; subst hx; cases l <;> rfl
    | S s => simp only [Node.transform, Res.ok.injEq] at hx; subst hx; rfl

theorem Mon.total_const (mon : Mon reduce e) {α : Type} (l : List α) {f : α → R} (hf : ∀ a ∈ l, f a = e) :
    total reduce e (l.map f) = e := by
  induction l with
  | nil => rfl
  | cons a l ih =>
    rw [List.map_cons, mon.total_cons, hf a (List.mem_cons_self ..), mon.left,
      ih fun b hb => hf b (List.mem_cons_of_mem _ hb)]

theorem Trie.twt_red {c : Cfg} {hash : K → BitVec c.w} {ops : TwtOps K V R} {par : Par} [BEq K] {t u : Trie c K V}
    {t' : Trie c K V} {r : R} (h : Trie.twt reduce e hash ops par t u = .ok (t', r)) :
    ∃ x, t.root.twt reduce e hash ops par u.root 0 = .ok x ∧ x.red = r := by
  simp only [Trie.twt, Res.bind_eq_ok] at h
  obtain ⟨x, h1, h2⟩ := h
  refine ⟨x, h1, ?_⟩
  cases x <;> simp only [Res.ok.injEq, Prod.mk.injEq] at h2 <;> exact h2.2

/-- The reduction of `transform_with_transformed`. -/
theorem Trie.twt_total_red [BEq K] {c : Cfg} {hash : K → BitVec c.w} (laws : KeyLaws hash) {ops : TwtOps K V R}
    (mon : CMon reduce e) (neu : ops.Neutral e) (par : Par) {t u : Trie c K V} (ht : t.Valid hash)
    (hu : u.Valid hash) {t' : Trie c K V} {r : R} (hr : Trie.twt reduce e hash ops par t u = .ok (t', r)) :
    r = total reduce e (((Cross.same hash).cases t.visit u.visit).map ops.red) := by
  obtain ⟨x, hx, rfl⟩ := Trie.twt_red hr
  cases look : ops.shortcut (c := c) with
  | some res =>
    obtain ⟨both, left, right⟩ := ops
    obtain ⟨nb, nl, nr⟩ := neu
    have hl : left = .unchanged e ∨ left = .removed e := by
      cases left with
      | generic f => cases both <;> simp [TwtOps.shortcut] at look
      | unchanged r => left; exact congrArg _ nl
      | removed r => right; exact congrArg _ nl
    have hrt : right = .unchanged e ∨ right = .removed e := by
      cases right with
      | generic f => cases both <;> cases left <;> simp [TwtOps.shortcut] at look
      | unchanged r => left; exact congrArg _ nr
      | removed r => right; exact congrArg _ nr
    have hb : ∀ k v l w, (both.call k v l w).red = e := by
      intro k v l w
      cases both with
      | generic f b => cases left <;> cases right <;> simp [TwtOps.shortcut] at look
      | unchangedLR r => exact nb
      | unchangedL r => exact nb
      | unchangedR r => exact nb
      | removed r => exact nb
    have hres : res.red = e := by
      cases both with
      | generic f b => cases left <;> cases right <;> simp [TwtOps.shortcut] at look
      | unchangedLR r => obtain rfl : r = e := nb; cases left <;> cases right <;> simp [TwtOps.shortcut] at look <;> subst look <;> rfl
      | unchangedL r => obtain rfl : r = e := nb; cases left <;> cases right <;> simp [TwtOps.shortcut] at look <;> subst look <;> rfl
      | unchangedR r => obtain rfl : r = e := nb; cases left <;> cases right <;> simp [TwtOps.shortcut] at look <;> subst look <;> rfl
      | removed r => obtain rfl : r = e := nb; cases left <;> cases right <;> simp [TwtOps.shortcut] at look <;> subst look <;> rfl
    have := Node.twt_rel (ρ := fun a _ : R => a = e) hash (ops := ⟨both, left, right⟩) (ops' := ⟨both, left, right⟩)
      (par := par) (reduce := reduce) (e := e) (reduce' := reduce) (e' := e) ⟨fun h h' => by rw [h, h', mon.left], rfl⟩
      ⟨hb, MapTransform.rel_bulk par left hl, MapTransform.rel_bulk par right hrt⟩
      (.inr ⟨res, res, look, look, hres⟩) t.root u.root 0 x x hx hx
    rw [this, mon.toMon.total_const]
    intro p _
    cases p with
    | left a => rcases hl with rfl | rfl <;> rfl
    | right b => rcases hrt with rfl | rfl <;> rfl
    | both a b => simp only [TwtOps.red, MapJointTransform.closure_eq]; exact hb _ _ _ _
  | none =>
    rcases Node.twt_total laws (ops := ops.loud) reduce e par ht hu agree_root (ops.loud_tame hash _ _) with
      ⟨_, st⟩ | ⟨y, hy, g⟩
    · exact absurd hx (Node.twt_stuck_not_ok laws reduce e par ht hu look st x)
    · have hxy : x.red = y.red := Node.twt_rel (ρ := fun a b : R => a = b) hash (par := par) (reduce := reduce) (e := e) (reduce' := reduce) (e' := e)
        (ops := ops) (ops' := ops.loud) ⟨fun h h' => by rw [h, h'], rfl⟩
        ⟨fun _ _ _ _ => rfl, MapTransform.rel_loud mon.toMon par _ neu.2.1, MapTransform.rel_loud mon.toMon par _ neu.2.2⟩
        (.inl ⟨look, rfl⟩) t.root u.root 0 x y hx hy
      have : ∃ o, o ∈ y.gives t.root u.root := by cases y <;> exact ⟨_, List.mem_cons_self ..⟩
      obtain ⟨o, ho⟩ := this
      rw [hxy, (g o ho).real.red ⟨mon, trivial, trivial, trivial⟩]
      exact congrArg (total reduce e) (List.map_congr_left fun p _ => ops.loud_red p)

end
end HT
