import Verif.MatchLoop
/-! # Joint operations on nodes, whatever `==` and `hash` answer -/
namespace HT

variable {K V L W S X R : Type} {c : Cfg} {x : Cross c K L}

theorem TRes.itemOpt_inv {n : Nat} {keep : Bool} {m : Node n K V} {res : TRes (Node n K V) R} {it : Item n K V R}
    (h : res.itemOpt keep (some m) = .ok it) : it.node? = res.get m ∧ it.red? = some res.red ∧
      (it.kl = true → it.node? = some m) := by
  obtain ⟨it', h1, h2⟩ := TRes.itemOpt_some keep m res
  rw [h] at h1; injection h1 with h1; subst h1; exact h2

theorem XRes.itemOpt_inv {n : Nat} {keep : Bool} {o : Option (Node n K V)} {res : XRes (Node n K V) R} {it : Item n K V R}
    (h : res.toT.itemOpt keep o = .ok it) : it.node? = res.get ∧ it.red? = some res.red ∧ it.kl = false := by
  obtain ⟨it', h1, h2⟩ := XRes.itemOpt_toT keep o res
  rw [h] at h1; injection h1 with h1; subst h1; exact h2

theorem XRes.toT_inv {n : Nat} {a : Res (XRes (Node n K V) R)} {res : TRes (Node n K V) R}
    (h : (do
      let res ← a
      Res.ok res.toT) = .ok res) : ∃ r, a = .ok r ∧ res = r.toT := by
  obtain ⟨r, h1, h2⟩ := Res.bind_eq_ok.1 h
  simp only [Res.ok.injEq] at h2
  exact ⟨r, h1, h2.symm⟩

theorem XRes.item_get {n : Nat} (res : XRes (Node n S X) R) : res.item.node? = res.get ∧ res.item.red? = some res.red := by
  cases res <;> exact ⟨rfl, rfl⟩

/-! ### Against a list or single node -/

section
variable {ops : TwmOps K V L W R} {reduce : R → R → R} {e : R} {par : Par}

theorem twmFlat_paired {bs : List (L × W)} {hv : BitVec c.w}
    {fS : SNode K V → Nat → Res (TRes (Node c.n K V) R)}
    {fL : LNode K V → Nat → Res (TRes (Node c.n K V) R)} {alone : XRes (Node c.n K V) R} {keep : Bool}
    (hS : ∀ s d res, fS s d = .ok res →
      Paired x (ops.sem reduce e) d True s.visit bs (res.get (.S s)) res.red)
    (hL : ∀ l d res, l.SizeOk → fL l d = .ok res →
      Paired x (ops.sem reduce e) d True l.visit bs (res.get (.L l)) res.red)
    (hA : ∀ d, Paired x (ops.sem reduce e) d True [] bs alone.get alone.red)
    {d : Nat} {m : Node c.n K V} (wf : m.Shape d) {res : TRes (Node c.n K V) R}
    (h : Node.fold fS fL (fun bits left extra depth => do
        let acc ← flatLoop reduce e hv depth ⟨bits, left, extra⟩
          (fun m => m.transform reduce e ops.left par) alone.toT (fun left? res => res.itemOpt keep left?)
        TRes.finish acc) m d = .ok res) :
    Paired x (ops.sem reduce e) d (m.visit ≠ []) m.visit bs (res.get m) res.red := by
  induction wf generalizing res with
  | S d s => exact (hS s d res h).mono (fun _ => trivial)
  | L d l hl => exact (hL l d res hl h).mono (fun _ => trivial)
  | C d bits values extra hd ok sz ne sub ih =>
    rw [Node.fold, Node.foldAll_eq] at h
    obtain ⟨acc, h1, h2⟩ := Res.bind_eq_ok.1 h
    refine PLoop.finishT hd (.C d bits values extra hd ok sz ne sub) (sl := slotVisit ⟨bits, values, extra⟩) ?_
      (flat_paired (s := ops.sem reduce e) (bs := bs) hd ok h1 ?_ ?_ ?_ ?_) h2
    · rw [Node.visit]; exact (visit_slots ⟨bits, values, extra⟩ ok).symm
    · intro m hm res it q1 q2
      obtain ⟨i2, i3, i4⟩ := TRes.itemOpt_inv q2
      exact ⟨.of (ih _ m hm q1) (ne _ _ hm) i2 i3, fun hk => by rw [i4 hk, slotVisit_some hm]; rfl⟩
    · intro i m _ hm res it q1 q2
      obtain ⟨i2, i3, i4⟩ := TRes.itemOpt_inv q2
      exact ⟨.of ((ops.aloneL reduce e).pairedL (sub _ _ hm) q1) (ne _ _ hm) i2 i3,
        fun hk => by rw [i4 hk, slotVisit_some hm]; rfl⟩
    · intro hm it q2
      obtain ⟨i2, i3, i4⟩ := XRes.itemOpt_inv q2
      exact ⟨.of (hA (d + 1)) trivial i2 i3, fun hk => by simp [i4] at hk⟩
    · intro i _ hm _
      rw [slotVisit_none hm]; rfl

theorem Node.twmS_paired {right : SNode L W} {d : Nat} {m : Node c.n K V} (wf : m.Shape d)
    {res : TRes (Node c.n K V) R} (h : m.twmS x reduce e ops par right d = .ok res) :
    Paired x (ops.sem reduce e) d (m.visit ≠ []) m.visit right.visit (res.get m) res.red := by
  refine twmFlat_paired (hv := x.hash' right.key) (alone := (right.transmute ops.right).map Node.S) (keep := true)
    (fun s d res h => SNode.twm_paired h) (fun l d res hl h => LNode.twmS_paired hl h) ?_ wf h
  intro d
  exact ((ops.aloneR reduce e).pairedR (Node.Shape.S d right) (res := (right.transmute ops.right).map Node.S) rfl).mono
    (fun _ => by simp [Node.visit, SNode.visit])

theorem Node.twmL_paired {right : LNode L W} (wr : right.SizeOk) {d : Nat} {m : Node c.n K V}
    (wf : m.Shape d) {res : TRes (Node c.n K V) R} (h : m.twmL x reduce e ops par right d = .ok res) :
    Paired x (ops.sem reduce e) d (m.visit ≠ []) m.visit right.visit (res.get m) res.red := by
  refine twmFlat_paired (hv := x.hash' right.key) (alone := (right.transmute reduce ops.right).map LNext.toNode) (keep := false)
    (fun s d res h => TwmOps.paired_flip (LNode.mwtS_paired h)) (fun l d res hl h => LNode.twmL_paired hl h) ?_ wf h
  intro d
  exact ((ops.aloneR reduce e).pairedR (Node.Shape.L d right wr)
    (res := (right.transmute reduce ops.right).map LNext.toNode) rfl).mono (fun _ => right.visit_ne_nil)

end

section
variable {ops : MwtOps K V L W R} {reduce : R → R → R} {e : R}

theorem mwtFlat_paired {right : LNext L W} (wr : ∀ d, (right.toNode : Node c.n L W).Shape d) {hv : BitVec c.w}
    {fS : SNode K V → Nat → Res (TRes (Node c.n L W) R)}
    {fL : LNode K V → Nat → Res (TRes (Node c.n L W) R)} {alone : TRes (Node c.n L W) R} {keep : Bool}
    (hS : ∀ s d res, fS s d = .ok res →
      Paired x (ops.sem reduce e) d True s.visit right.visit (res.get right.toNode) res.red)
    (hL : ∀ l d res, l.SizeOk → fL l d = .ok res →
      Paired x (ops.sem reduce e) d True l.visit right.visit (res.get right.toNode) res.red)
    (hA : ∀ d, Paired x (ops.sem reduce e) d True [] right.visit (alone.get right.toNode) alone.red)
    {d : Nat} {m : Node c.n K V} (wf : m.Shape d) {res : TRes (Node c.n L W) R}
    (h : Node.fold fS fL (fun bits left extra depth => do
        let acc ← flatLoop reduce e hv depth ⟨bits, left, extra⟩
          (fun m => do
            let res ← m.transmute reduce e ops.left
            .ok res.toT) alone (fun _ res => res.itemOpt keep (some right.toNode))
        TRes.finish acc) m d = .ok res) :
    Paired x (ops.sem reduce e) d True m.visit right.visit (res.get right.toNode) res.red := by
  induction wf generalizing res with
  | S d s => exact hS s d res h
  | L d l hl => exact hL l d res hl h
  | C d bits values extra hd ok sz ne sub ih =>
    rw [Node.fold, Node.foldAll_eq] at h
    obtain ⟨acc, h1, h2⟩ := Res.bind_eq_ok.1 h
    refine (PLoop.finishT hd (wr d) (sl := posSlot (wrapped c hv d) right.visit) ?_
      (flat_paired (s := ops.sem reduce e) (bs := right.visit) hd ok h1 ?_ ?_ ?_ ?_) h2).mono
        (fun _ => by rw [LNext.toNode_visit]; exact right.visit_ne_nil)
    · rw [posSlot_flatMap (wrapped_lt hv d), LNext.toNode_visit]
    · intro m hm res it q1 q2
      obtain ⟨i2, i3, i4⟩ := TRes.itemOpt_inv q2
      refine ⟨.of (ih _ m hm q1) trivial i2 i3, fun hk => ?_⟩
      rw [i4 hk, vis_some, LNext.toNode_visit]; simp [posSlot]
    · intro i m _ hm res it q1 q2
      obtain ⟨r1, q3, rfl⟩ := XRes.toT_inv q1
      obtain ⟨i2, i3, i4⟩ := XRes.itemOpt_inv q2
      exact ⟨.of ((ops.aloneL reduce e).pairedL (sub _ _ hm) q3) (ne _ _ hm) i2 i3, fun hk => by simp [i4] at hk⟩
    · intro hm it q2
      obtain ⟨i2, i3, i4⟩ := TRes.itemOpt_inv q2
      refine ⟨.of (hA (d + 1)) trivial i2 i3, fun hk => ?_⟩
      rw [i4 hk, vis_some, LNext.toNode_visit]; simp [posSlot]
    · intro i hi hm _
      simp [posSlot, hi, Item.node?]

theorem Node.mwtS_paired {right : SNode L W} {d : Nat} {m : Node c.n K V} (wf : m.Shape d)
    {res : TRes (Node c.n L W) R} (h : m.mwtS x reduce e ops right d = .ok res) :
    Paired x (ops.sem reduce e) d True m.visit right.visit (res.get (.S right)) res.red := by
  refine mwtFlat_paired (right := .S right) (fun d => .S d right) (hv := x.hash' right.key)
    (alone := (right.transform ops.right).map Node.S) (keep := true)
    (fun s d res h => SNode.mwt_paired h) (fun l d res _ h => LNode.mwtS_paired h) ?_ wf h
  intro d
  exact ((ops.aloneR reduce e).pairedR (par := .sequential) (Node.Shape.S d right)
    (res := (right.transform ops.right).map Node.S) rfl).mono (fun _ => by simp [Node.visit, SNode.visit])

theorem Node.mwtL_paired {right : LNode L W} (wr : right.SizeOk) {d : Nat} {m : Node c.n K V} (wf : m.Shape d)
    {res : TRes (Node c.n L W) R} (h : m.mwtL x reduce e ops right d = .ok res) :
    Paired x (ops.sem reduce e) d True m.visit right.visit (res.get (.L right)) res.red := by
  refine mwtFlat_paired (right := .L right) (fun d => .L d right wr) (hv := x.hash' right.key)
    (alone := (right.transform reduce ops.right).map LNext.toNode) (keep := false)
    (fun s d res h => MwtOps.paired_flip (LNode.twmS_paired wr h))
    (fun l d res _ h => MwtOps.paired_flip (LNode.twmL_paired wr h)) ?_ wf h
  intro d
  exact ((ops.aloneR reduce e).pairedR (par := .sequential) (Node.Shape.L d right wr)
    (res := (right.transform reduce ops.right).map LNext.toNode) rfl).mono (fun _ => right.visit_ne_nil)

end

section
variable {ops : MwmOps K V L W S X R} {reduce : R → R → R} {e : R}

theorem mwmFlat_paired {bs : List (L × W)} {hv : BitVec c.w}
    {fS : SNode K V → Nat → Res (XRes (Node c.n S X) R)}
    {fL : LNode K V → Nat → Res (XRes (Node c.n S X) R)} {alone : XRes (Node c.n S X) R}
    (hS : ∀ s d res, fS s d = .ok res → Paired x (ops.sem reduce e) d True s.visit bs res.get res.red)
    (hL : ∀ l d res, fL l d = .ok res → Paired x (ops.sem reduce e) d True l.visit bs res.get res.red)
    (hA : ∀ d, Paired x (ops.sem reduce e) d True [] bs alone.get alone.red)
    {d : Nat} {m : Node c.n K V} (wf : m.Shape d) {res : XRes (Node c.n S X) R}
    (h : Node.fold fS fL (fun bits left extra depth => do
        let acc ← flatLoop reduce e hv depth ⟨bits, left, extra⟩
          (fun m => m.transmute reduce e ops.left) alone (fun _ res => .ok res.item)
        XRes.finish acc) m d = .ok res) :
    Paired x (ops.sem reduce e) d True m.visit bs res.get res.red := by
  induction wf generalizing res with
  | S d s => exact hS s d res h
  | L d l hl => exact hL l d res h
  | C d bits values extra hd ok sz ne sub ih =>
    rw [Node.fold, Node.foldAll_eq] at h
    obtain ⟨acc, h1, h2⟩ := Res.bind_eq_ok.1 h
    refine PLoop.finishX (Q := fun _ _ => True) hd (flat_paired (s := ops.sem reduce e) (bs := bs) hd ok h1 ?_ ?_ ?_ ?_) h2
    · intro m hm res it q1 q2
      simp only [Res.ok.injEq] at q2; subst q2
      exact ⟨.of (ih _ m hm q1) trivial res.item_get.1 res.item_get.2, trivial⟩
    · intro i m _ hm res it q1 q2
      simp only [Res.ok.injEq] at q2; subst q2
      exact ⟨.of ((ops.aloneL reduce e).pairedL (sub _ _ hm) q1) (ne _ _ hm) res.item_get.1 res.item_get.2, trivial⟩
    · intro hm it q2
      simp only [Res.ok.injEq] at q2; subst q2
      exact ⟨.of (hA (d + 1)) trivial alone.item_get.1 alone.item_get.2, trivial⟩
    · intros; trivial

theorem Node.mwmS_paired {right : SNode L W} {d : Nat} {m : Node c.n K V} (wf : m.Shape d)
    {res : XRes (Node c.n S X) R} (h : m.mwmS x reduce e ops right d = .ok res) :
    Paired x (ops.sem reduce e) d True m.visit right.visit res.get res.red := by
  refine mwmFlat_paired (hv := x.hash' right.key) (alone := (right.transmute ops.right).map Node.S)
    (fun s d res h => SNode.mwm_paired h) (fun l d res h => LNode.mwmS_paired h) ?_ wf h
  intro d
  exact ((ops.aloneR reduce e).pairedR (Node.Shape.S d right) (res := (right.transmute ops.right).map Node.S) rfl).mono
    (fun _ => by simp [Node.visit, SNode.visit])

theorem Node.mwmL_paired {right : LNode L W} (wr : right.SizeOk) {d : Nat} {m : Node c.n K V}
    (wf : m.Shape d) {res : XRes (Node c.n S X) R} (h : m.mwmL x reduce e ops right d = .ok res) :
    Paired x (ops.sem reduce e) d True m.visit right.visit res.get res.red := by
  refine mwmFlat_paired (hv := x.hash' right.key) (alone := (right.transmute reduce ops.right).map LNext.toNode)
    (fun s d res h => MwmOps.paired_flip (LNode.mwmS_paired h)) (fun l d res h => LNode.mwmL_paired h) ?_ wf h
  intro d
  exact ((ops.aloneR reduce e).pairedR (Node.Shape.L d right wr)
    (res := (right.transmute reduce ops.right).map LNext.toNode) rfl).mono (fun _ => right.visit_ne_nil)

end

/-! ### Two nodes -/

theorem Node.twm_paired {ops : TwmOps K V L W R} {reduce : R → R → R} {e : R} {par : Par}
    {d : Nat} {m : Node c.n K V} (wf : m.Shape d) {r : Node c.n L W} (wr : r.Shape d)
    {res : TRes (Node c.n K V) R} (h : m.twm x reduce e ops par r d = .ok res) :
    Paired x (ops.sem reduce e) d (m.visit ≠ []) m.visit r.visit (res.get m) res.red := by
  induction wf generalizing r res with
  | S d s =>
    cases wr with
    | S _ r => exact (SNode.twm_paired (e := e) h).mono (fun _ => trivial)
    | L _ r wr => exact (TwmOps.paired_flip (LNode.mwtS_paired (e := e) h)).mono (fun _ => trivial)
    | C _ b v z hd ok sz ne sub =>
      exact (TwmOps.paired_flip (Node.mwtS_paired (.C d b v z hd ok sz ne sub) h)).mono (fun _ => trivial)
  | L d l wl =>
    cases wr with
    | S _ r => exact (LNode.twmS_paired (e := e) wl h).mono (fun _ => trivial)
    | L _ r wr => exact (LNode.twmL_paired (e := e) wl h).mono (fun _ => trivial)
    | C _ b v z hd ok sz ne sub =>
      exact (TwmOps.paired_flip (Node.mwtL_paired wl (.C d b v z hd ok sz ne sub) h)).mono (fun _ => trivial)
  | C d bits values extra hd ok sz ne sub ih =>
    have wf : (Node.C bits values extra).Shape d := .C d bits values extra hd ok sz ne sub
    rw [Node.twm, Node.fold] at h
    cases wr with
    | S _ r =>
      simp only [twmC, Node.foldAll_fst] at h
      exact Node.twmS_paired wf h
    | L _ r wr =>
      simp only [twmC, Node.foldAll_fst] at h
      exact Node.twmL_paired wr wf h
    | C _ b v z hd' ok' sz' ne' sub' =>
      simp only [twmC, twmCC, Node.foldAll_eq] at h
      obtain ⟨acc, h1, h2⟩ := Res.bind_eq_ok.1 h
      refine PLoop.finishT hd wf (sl := slotVisit ⟨bits, values, extra⟩) ?_
        (both_paired (s := ops.sem reduce e) (f := fun m r => m.twm x reduce e ops par r (d + 1)) ok ok' h1
          ?_ ?_ ?_ ?_) h2
      · rw [Node.visit]; exact (visit_slots ⟨bits, values, extra⟩ ok).symm
      · intro i m r hm hr res it q1 q2
        obtain ⟨i2, i3, i4⟩ := TRes.itemOpt_inv q2
        exact ⟨.of (ih _ m hm (sub' i r hr) q1) (ne _ _ hm) i2 i3, fun hk => by rw [i4 hk, slotVisit_some hm]; rfl⟩
      · intro i m hm _ res it q1 q2
        obtain ⟨i2, i3, i4⟩ := TRes.itemOpt_inv q2
        exact ⟨.of ((ops.aloneL reduce e).pairedL (sub _ _ hm) q1) (ne _ _ hm) i2 i3,
          fun hk => by rw [i4 hk, slotVisit_some hm]; rfl⟩
      · intro i r _ hr res it q1 q2
        obtain ⟨r1, q3, rfl⟩ := XRes.toT_inv q1
        obtain ⟨i2, i3, i4⟩ := XRes.itemOpt_inv q2
        exact ⟨.of ((ops.aloneR reduce e).pairedR (sub' _ _ hr) q3) (ne' _ _ hr) i2 i3, fun hk => by simp [i4] at hk⟩
      · intro i hm _ _
        rw [slotVisit_none hm]; rfl

theorem Node.mwt_paired {ops : MwtOps K V L W R} {reduce : R → R → R} {e : R} {par : Par}
    {d : Nat} {m : Node c.n K V} (wf : m.Shape d) {r : Node c.n L W} (wr : r.Shape d)
    {res : TRes (Node c.n L W) R} (h : m.mwt x reduce e ops par r d = .ok res) :
    Paired x (ops.sem reduce e) d (r.visit ≠ []) m.visit r.visit (res.get r) res.red := by
  induction wf generalizing r res with
  | S d s =>
    cases wr with
    | S _ r => exact (SNode.mwt_paired (e := e) h).mono (fun _ => trivial)
    | L _ r wr => exact (MwtOps.paired_flip (LNode.twmS_paired (e := e) wr h)).mono (fun _ => trivial)
    | C _ b v z hd ok sz ne sub =>
      exact MwtOps.paired_flip (Node.twmS_paired (.C d b v z hd ok sz ne sub) h)
  | L d l wl =>
    cases wr with
    | S _ r => exact (LNode.mwtS_paired (e := e) h).mono (fun _ => trivial)
    | L _ r wr => exact (MwtOps.paired_flip (LNode.twmL_paired (e := e) wr h)).mono (fun _ => trivial)
    | C _ b v z hd ok sz ne sub =>
      exact MwtOps.paired_flip (Node.twmL_paired wl (.C d b v z hd ok sz ne sub) h)
  | C d bits values extra hd ok sz ne sub ih =>
    have wf : (Node.C bits values extra).Shape d := .C d bits values extra hd ok sz ne sub
    rw [Node.mwt, Node.fold] at h
    cases wr with
    | S _ r =>
      simp only [mwtC, Node.foldAll_fst] at h
      exact (Node.mwtS_paired wf h).mono (fun _ => trivial)
    | L _ r wr =>
      simp only [mwtC, Node.foldAll_fst] at h
      exact (Node.mwtL_paired wr wf h).mono (fun _ => trivial)
    | C _ b v z hd' ok' sz' ne' sub' =>
      simp only [mwtC, mwtCC, Node.foldAll_eq] at h
      obtain ⟨acc, h1, h2⟩ := Res.bind_eq_ok.1 h
      refine PLoop.finishT hd (.C d b v z hd' ok' sz' ne' sub') (sl := slotVisit ⟨b, v, z⟩) ?_
        (both_paired (s := ops.sem reduce e) (f := fun m r => m.mwt x reduce e ops par r (d + 1)) ok ok' h1
          ?_ ?_ ?_ ?_) h2
      · rw [Node.visit]; exact (visit_slots ⟨b, v, z⟩ ok').symm
      · intro i m r hm hr res it q1 q2
        obtain ⟨i2, i3, i4⟩ := TRes.itemOpt_inv q2
        exact ⟨.of (ih _ m hm (sub' i r hr) q1) (ne' _ _ hr) i2 i3, fun hk => by rw [i4 hk, slotVisit_some hr]; rfl⟩
      · intro i m hm _ res it q1 q2
        obtain ⟨r1, q3, rfl⟩ := XRes.toT_inv q1
        obtain ⟨i2, i3, i4⟩ := XRes.itemOpt_inv q2
        exact ⟨.of ((ops.aloneL reduce e).pairedL (sub _ _ hm) q3) (ne _ _ hm) i2 i3, fun hk => by simp [i4] at hk⟩
      · intro i r _ hr res it q1 q2
        obtain ⟨i2, i3, i4⟩ := TRes.itemOpt_inv q2
        exact ⟨.of ((ops.aloneR reduce e).pairedR (sub' _ _ hr) q1) (ne' _ _ hr) i2 i3,
          fun hk => by rw [i4 hk, slotVisit_some hr]; rfl⟩
      · intro i _ hr _
        rw [slotVisit_none hr]; rfl

theorem Node.mwm_paired {ops : MwmOps K V L W S X R} {reduce : R → R → R} {e : R}
    {d : Nat} {m : Node c.n K V} (wf : m.Shape d) {r : Node c.n L W} (wr : r.Shape d)
    {res : XRes (Node c.n S X) R} (h : m.mwm x reduce e ops r d = .ok res) :
    Paired x (ops.sem reduce e) d True m.visit r.visit res.get res.red := by
  induction wf generalizing r res with
  | S d s =>
    cases wr with
    | S _ r => exact SNode.mwm_paired (e := e) h
    | L _ r wr => exact MwmOps.paired_flip (LNode.mwmS_paired (e := e) h)
    | C _ b v z hd ok sz ne sub => exact MwmOps.paired_flip (Node.mwmS_paired (.C d b v z hd ok sz ne sub) h)
  | L d l wl =>
    cases wr with
    | S _ r => exact LNode.mwmS_paired (e := e) h
    | L _ r wr => exact LNode.mwmL_paired (e := e) h
    | C _ b v z hd ok sz ne sub => exact MwmOps.paired_flip (Node.mwmL_paired wl (.C d b v z hd ok sz ne sub) h)
  | C d bits values extra hd ok sz ne sub ih =>
    have wf : (Node.C bits values extra).Shape d := .C d bits values extra hd ok sz ne sub
    rw [Node.mwm, Node.fold] at h
    cases wr with
    | S _ r =>
      simp only [mwmC, Node.foldAll_fst] at h
      exact Node.mwmS_paired wf h
    | L _ r wr =>
      simp only [mwmC, Node.foldAll_fst] at h
      exact Node.mwmL_paired wr wf h
    | C _ b v z hd' ok' sz' ne' sub' =>
      simp only [mwmC, mwmCC, Node.foldAll_eq] at h
      obtain ⟨acc, h1, h2⟩ := Res.bind_eq_ok.1 h
      refine PLoop.finishX (Q := fun _ _ => True) hd
        (both_paired (s := ops.sem reduce e) (f := fun m r => m.mwm x reduce e ops r (d + 1)) ok ok' h1
          ?_ ?_ ?_ ?_) h2
      · intro i m r hm hr res it q1 q2
        simp only [Res.ok.injEq] at q2; subst q2
        exact ⟨.of (ih _ m hm (sub' i r hr) q1) trivial res.item_get.1 res.item_get.2, trivial⟩
      · intro i m hm _ res it q1 q2
        simp only [Res.ok.injEq] at q2; subst q2
        exact ⟨.of ((ops.aloneL reduce e).pairedL (sub _ _ hm) q1) (ne _ _ hm) res.item_get.1 res.item_get.2, trivial⟩
      · intro i r _ hr res it q1 q2
        simp only [Res.ok.injEq] at q2; subst q2
        exact ⟨.of ((ops.aloneR reduce e).pairedR (sub' _ _ hr) q1) (ne' _ _ hr) res.item_get.1 res.item_get.2, trivial⟩
      · intros; trivial

end HT
