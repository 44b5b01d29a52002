import Verif.JointTwt
import Verif.ArcTrie
/-! # Joint operations that keep all entries of one operand, when the other operand has no keys of its own -/
namespace HT

variable {K V L W R : Type} {c : Cfg}

/-! ### The entries of the slots -/

theorem Node.visit_slot {n : Nat} {bits : BitVec n} {values : List (Node n K V)} {extra : Nat}
    (ok : (Bia.mk bits values extra).Ok) {a : K × V} (h : a ∈ (Node.C bits values extra).visit) :
    ∃ i m, (Bia.mk bits values extra).slot i = some m ∧ a ∈ m.visit := by
  rw [Node.visit, visit_slots ⟨bits, values, extra⟩ ok, List.mem_flatMap] at h
  obtain ⟨i, _, h⟩ := h
  simp only [slotVisit] at h
  cases hs : (Bia.mk bits values extra).slot i with
  | none => rw [hs] at h; simp at h
  | some m => rw [hs] at h; exact ⟨i, m, hs, h⟩

/-- All hashes are different. -/
def Solo (hash : K → BitVec c.w) (l : List (K × V)) : Prop := l.Pairwise fun a b => hash a.1 ≠ hash b.1

theorem Solo.of_noCollision {hash : K → BitVec c.w} {l : List (K × V)} (h : NoCollision hash l) : Solo hash l := by
  induction l with
  | nil => exact .nil
  | cons a l ih =>
    refine List.pairwise_cons.2 ⟨fun b hb e => ?_, ih fun v => Nat.le_trans ?_ (h v)⟩
    · have h1 := h (hash a.1)
      simp only [collisions, List.countP_cons, beq_self_eq_true, if_true] at h1
      have : 0 < List.countP (fun e => hash e.1 == hash a.1) l :=
        List.countP_pos_iff.2 ⟨b, hb, by simp [e]⟩
      omega
    · simp only [collisions, List.countP_cons]; omega

theorem Solo.noL [BEq K] {hash : K → BitVec c.w} {l : LNode K V} (wf : l.WF hash) (h : Solo hash l.visit) : False := by
  have hh := wf.hash
  cases l with
  | nextS k v s z =>
    simp only [LNode.visit, SNode.visit, Solo, List.pairwise_cons] at h hh
    exact h.1 (s.key, s.value) (by simp) ((hh (k, v) (by simp)).trans (hh (s.key, s.value) (by simp)).symm)
  | nextL k v l z =>
    simp only [LNode.visit, Solo, List.pairwise_cons] at h hh
    cases hl : l.visit with
    | nil => exact l.visit_ne_nil hl
    | cons b bs =>
      rw [hl] at h hh
      exact h.1 b (by simp) ((hh (k, v) (by simp)).trans (hh b (by simp)).symm)

/-- Every entry on the right has an equal key on the left. -/
def Covered (x : Cross c K L) (as : List (K × V)) (bs : List (L × W)) : Prop :=
  ∀ b ∈ bs, ∃ a ∈ as, x.eq a.1 b.1 = true

section
variable [BEq K] [BEq L] {x : Cross c K L}

theorem Solo.covered (laws : CrossLaws x) {as : List (K × V)} {bs : List (L × W)} (h : Solo x.hash as)
    (hb : DistinctKeys bs) (cov : Covered x as bs) : Solo x.hash' bs := by
  have hne : ∀ a ∈ as, ∀ a' ∈ as, x.hash a.1 = x.hash a'.1 → a = a' := by
    clear cov hb
    induction as with
    | nil => simp
    | cons a as ih =>
      have hp := List.pairwise_cons.1 h
      intro p hp1 q hq1 e
      rcases List.mem_cons.1 hp1 with h1 | h1 <;> rcases List.mem_cons.1 hq1 with h2 | h2
      · rw [h1, h2]
      · exact absurd (h1 ▸ e) (hp.1 q h2)
      · exact absurd (h2 ▸ e.symm) (hp.1 p h1)
      · exact ih hp.2 p h1 q h2 e
  refine List.Pairwise.imp_of_mem ?_ hb
  intro b b' hb1 hb2 hk he
  obtain ⟨a, ha, e1⟩ := cov b hb1
  obtain ⟨a', ha', e2⟩ := cov b' hb2
  have := hne a ha a' ha' (by rw [laws.hash _ _ e1, laws.hash _ _ e2, he])
  subst this
  rw [laws.uniqR _ _ _ e1 e2] at hk
  cases hk

/-- The children of two branch nodes. -/
theorem Covered.slot (laws : CrossLaws x) {bits : BitVec c.n} {values : List (Node c.n K V)} {extra d : Nat}
    (ok : (Bia.mk bits values extra).Ok)
    (at_ : ∀ i m, (Bia.mk bits values extra).slot i = some m → ∀ e ∈ m.visit, chunk c (x.hash e.1) d = i)
    {bs bs' : List (L × W)} (cov : Covered x (Node.C bits values extra).visit bs) {i : Nat}
    (hs : ∀ b ∈ bs', b ∈ bs) (hi : ∀ b ∈ bs', chunk c (x.hash' b.1) d = i) (hne : bs' ≠ []) :
    ∃ m, (Bia.mk bits values extra).slot i = some m ∧ Covered x m.visit bs' := by
  have key : ∀ b ∈ bs', ∃ m a, (Bia.mk bits values extra).slot i = some m ∧ a ∈ m.visit ∧ x.eq a.1 b.1 = true := by
    intro b hb
    obtain ⟨a, ha, e⟩ := cov b (hs b hb)
    obtain ⟨j, m, hj, hm⟩ := Node.visit_slot ok ha
    have : j = i := by rw [← at_ j m hj a hm, laws.hash _ _ e, hi b hb]
    exact ⟨m, a, this ▸ hj, hm, e⟩
  obtain ⟨b, hb⟩ := List.exists_mem_of_ne_nil _ hne
  obtain ⟨m, _, hm, _⟩ := key b hb
  refine ⟨m, hm, fun b hb => ?_⟩
  obtain ⟨m', a, hm', ha, e⟩ := key b hb
  rw [hm] at hm'; injection hm' with hm'; subst hm'
  exact ⟨a, ha, e⟩
end

theorem Solo.slot {hash : K → BitVec c.w} {bits : BitVec c.n} {values : List (Node c.n K V)} {extra : Nat} {i : Nat}
    {m : Node c.n K V} (h : Solo hash (Node.C bits values extra).visit)
    (hm : (Bia.mk bits values extra).slot i = some m) : Solo hash m.visit :=
  h.sublist (slotVisit_sublist hm)

/-! ### `transform` -/

/-- The operation keeps every entry. -/
def MapTransform.Keeps : MapTransform R (K → V → MapTransformResult V R) → Prop
  | .unchanged _ => True
  | .removed _ => False
  | .generic f => ∀ k v, ∃ r, f k v = .unchanged r

theorem MapTransform.Keeps.call {op : MapTransform R (K → V → MapTransformResult V R)} (h : op.Keeps) (k : K) (v : V) :
    ∃ r, op.call k v = .unchanged r := by
  cases op with
  | unchanged r => exact ⟨r, rfl⟩
  | removed r => exact h.elim
  | generic f => exact h k v

theorem SNode.transform_keep {op : MapTransform R (K → V → MapTransformResult V R)} (h : op.Keeps) (s : SNode K V) :
    ∃ r, s.transform op = .unchanged r := by
  obtain ⟨r, hr⟩ := h.call s.key s.value
  exact ⟨r, by simp only [SNode.transform, hr]⟩

theorem Node.transform_keep [BEq K] {hash : K → BitVec c.w} (hh : HashOk hash) {d : Nat} (reduce : R → R → R)
    (e : R) (par : Par) {op : MapTransform R (K → V → MapTransformResult V R)} (h : op.Keeps) {m : Node c.n K V}
    (wf : m.WF hash c.levels d) : ∃ r, m.transform reduce e op par = .ok (.unchanged r) := by
  cases op with
  | unchanged r0 =>
    cases m with
    | C => exact ⟨r0, by rw [Node.transform]⟩
    | L l => exact ⟨r0, by rw [Node.transform]; cases l <;> simp [LNode.transform, TRes.map]⟩
    | S s => exact ⟨r0, by rw [Node.transform]; rfl⟩
  | removed r0 => exact h.elim
  | generic f =>
    obtain ⟨res, hr, _⟩ := Node.transform_spec (.generic f) hh reduce e par wf
    have h1 := Node.transform_isUnchanged hh reduce e par f wf hr
    have h2 : (m.visit.all fun x => (f x.1 x.2).isUnchanged) = true := by
      rw [List.all_eq_true]
      intro a _
      obtain ⟨r, hr⟩ := h a.1 a.2
      rw [hr]; rfl
    rw [h2] at h1
    cases res with
    | unchanged r => exact ⟨r, hr⟩
    | node => cases h1
    | removed => cases h1

/-! ### transform_with_transmuted, transmute_with_transformed -/

/-- The two-sided operation keeps every entry. -/
def MapTransform.Keeps2 {A : Type} : MapTransform R (K → V → L → W → MapTransformResult A R) → Prop
  | .unchanged _ => True
  | .removed _ => False
  | .generic f => ∀ k v l w, ∃ r, f k v l w = .unchanged r

theorem MapTransform.Keeps2.call {A : Type} {op : MapTransform R (K → V → L → W → MapTransformResult A R)}
    (h : op.Keeps2) (k : K) (v : V) (l : L) (w : W) : ∃ r, op.call2 k v l w = .unchanged r := by
  cases op with
  | unchanged r => exact ⟨r, rfl⟩
  | removed r => exact h.elim
  | generic f => exact h k v l w

theorem MapTransform.Keeps2.flip {A : Type} {op : MapTransform R (K → V → L → W → MapTransformResult A R)}
    (h : op.Keeps2) : op.flip2.Keeps2 := by
  cases op with
  | unchanged r => exact trivial
  | removed r => exact h.elim
  | generic f => exact fun k v l w => h l w k v

theorem TRes.finish_keep {n : Nat} {reduce : R → R → R} {e : R} {it : Nat → Item n K V R} {acc : Acc n K V R}
    (G : Acc.Gathered reduce e it acc) (h : ∀ i, i < n → (it i).kl = true) :
    TRes.finish acc = .ok (.unchanged acc.red) := by
  have : acc.ul = true := by
    rw [G.ul, List.all_eq_true]
    exact fun i hi => h i (List.mem_range.1 hi)
  rw [TRes.finish, this]; rfl

section
variable [BEq K] [BEq L] {x : Cross c K L} (laws : CrossLaws x) (reduce : R → R → R) (e : R)
include laws

theorem SNode.twm_keep {ops : TwmOps K V L W R} (hb : ops.both.Keeps2) {s : SNode K V} {right : SNode L W} (d : Nat)
    (he : x.eq s.key right.key = true) : ∃ r, s.twm x reduce ops right d = .ok (.unchanged r : TRes (Node c.n K V) R) := by
  obtain ⟨r, hr⟩ := hb.call s.key s.value right.key right.value
  exact ⟨r, by simp only [SNode.twm, laws.hash _ _ he, if_true, SNode.twmImpl, he, hr]; rfl⟩

theorem SNode.mwt_keep {ops : MwtOps K V L W R} (hb : ops.both.Keeps2) {s : SNode K V} {right : SNode L W} (d : Nat)
    (he : x.eq s.key right.key = true) : ∃ r, s.mwt x reduce ops right d = .ok (.unchanged r : TRes (Node c.n L W) R) := by
  obtain ⟨r, hr⟩ := hb.call s.key s.value right.key right.value
  exact ⟨r, by simp only [SNode.mwt, laws.hash _ _ he, if_true, SNode.mwtImpl, he, hr]; rfl⟩

/-- A branch node that holds the key of the single node on the right. -/
theorem Node.twmS_keep (par : Par) {ops : TwmOps K V L W R} (hb : ops.both.Keeps2) (hl : ops.left.Keeps)
    (right : SNode L W) {d : Nat} {m : Node c.n K V} (wf : m.WF x.hash c.levels d) (solo : Solo x.hash m.visit)
    (cov : Covered x m.visit right.visit) : ∃ r, m.twmS x reduce e ops par right d = .ok (.unchanged r) := by
  induction wf with
  | S d s =>
    obtain ⟨a, ha, he⟩ := cov (right.key, right.value) (by simp [SNode.visit])
    simp only [Node.visit, SNode.visit, List.mem_singleton] at ha
    subst ha
    exact SNode.twm_keep laws reduce hb d he
  | L d l wl => exact (solo.noL wl).elim
  | C d bits values extra hd ok sz ne at_ sub ih =>
    rw [Node.twmS, Node.fold, Node.foldAll_eq, twmSC]
    obtain ⟨m0, hm0, cov0⟩ := cov.slot laws ok at_ (bs' := right.visit) (i := chunk c (x.hash' right.key) d)
      (fun _ h => h) (by simp [SNode.visit]) (by simp [SNode.visit])
    obtain ⟨it, acc, h1, G, hk⟩ := flatLoop_spec reduce e (x.hash' right.key) (c.levels_within d hd) bits values extra ok
      (fun m => m.twmS x reduce e ops par right (d + 1)) (fun m => m.transform reduce e ops.left par)
      ((right.transmute ops.right).map Node.S).toT (fun left? res => res.itemOpt true left?)
      (fun _ it => it.kl = true)
      (by
        intro m hm
        rw [hm0] at hm; injection hm with hm; subst hm
        obtain ⟨r, hr⟩ := ih _ _ hm0 (solo.slot hm0) cov0
        exact ⟨_, _, hr, rfl, rfl⟩)
      (by
        intro i m _ hm
        obtain ⟨r, hr⟩ := Node.transform_keep laws.left.hash reduce e par hl (sub i m hm)
        exact ⟨_, _, hr, rfl, rfl⟩)
      (by intro hm; rw [hm0] at hm; cases hm)
      (by intros; rfl)
    simp only [Node.twmS] at h1
    simp only [h1, Res.ok_bind]
    exact ⟨_, TRes.finish_keep G hk⟩

/-- A branch node that holds no keys but that of the single node on the right. -/
theorem Node.mwtS_keep {ops : MwtOps K V L W R} (hb : ops.both.Keeps2) (hr : ops.right.Keeps)
    (right : SNode L W) {d : Nat} {m : Node c.n K V} (wf : m.WF x.hash c.levels d) (solo : Solo x.hash m.visit)
    (cov : ∀ a ∈ m.visit, x.eq a.1 right.key = true) : ∃ r, m.mwtS x reduce e ops right d = .ok (.unchanged r) := by
  induction wf with
  | S d s => exact SNode.mwt_keep laws reduce hb d (cov (s.key, s.value) (by simp [Node.visit, SNode.visit]))
  | L d l wl => exact (solo.noL wl).elim
  | C d bits values extra hd ok sz ne at_ sub ih =>
    rw [Node.mwtS, Node.fold, Node.foldAll_eq, mwtSC]
    obtain ⟨r0, hr0⟩ := SNode.transform_keep hr right
    obtain ⟨it, acc, h1, G, hk⟩ := flatLoop_spec reduce e (x.hash' right.key) (c.levels_within d hd) bits values extra ok
      (fun m => m.mwtS x reduce e ops right (d + 1))
      (fun m => do
        let res ← m.transmute reduce e ops.left
        .ok res.toT) ((right.transform ops.right).map Node.S)
      (fun _ res => res.itemOpt true (some (.S right)))
      (fun _ it => it.kl = true)
      (by
        intro m hm
        obtain ⟨r, hr⟩ := ih _ _ hm (solo.slot hm) fun a ha => cov a ((slotVisit_sublist hm).subset ha)
        exact ⟨_, _, hr, rfl, rfl⟩)
      (by
        intro i m hi hm
        obtain ⟨a, ha⟩ := List.exists_mem_of_ne_nil _ (ne i m hm)
        exact absurd ((at_ i m hm a ha).symm.trans (by rw [laws.hash _ _ (cov a ((slotVisit_sublist hm).subset ha))])) hi)
      (by
        intro _
        rw [hr0]
        exact ⟨_, rfl, rfl⟩)
      (by intros; rfl)
    simp only [Node.mwtS] at h1
    simp only [h1, Res.ok_bind]
    exact ⟨_, TRes.finish_keep G hk⟩

/-- All keys of the right node are keys of the left node, which is kept. -/
theorem Node.twm_keep (par : Par) {ops : TwmOps K V L W R} (hb : ops.both.Keeps2) (hl : ops.left.Keeps)
    {d : Nat} {m : Node c.n K V} (wf : m.WF x.hash c.levels d) (solo : Solo x.hash m.visit) {right : Node c.n L W}
    (wr : right.WF x.hash' c.levels d) (solor : Solo x.hash' right.visit) (cov : Covered x m.visit right.visit) :
    ∃ r, m.twm x reduce e ops par right d = .ok (.unchanged r) := by
  induction wf generalizing right with
  | S d s =>
    have hall : ∀ b ∈ right.visit, x.eq s.key b.1 = true := by
      intro b hb
      obtain ⟨a, ha, he⟩ := cov b hb
      simp only [Node.visit, SNode.visit, List.mem_singleton] at ha
      subst ha; exact he
    cases wr with
    | S _ s' => exact SNode.twm_keep laws reduce hb d (hall (s'.key, s'.value) (by simp [Node.visit, SNode.visit]))
    | L _ l wl => exact (solor.noL wl).elim
    | C _ b v z hd ok sz ne at_ sub =>
      exact Node.mwtS_keep laws.flip reduce e hb.flip hl s (.C _ b v z hd ok sz ne at_ sub) solor
        fun b hb => (laws.sym _ _).trans (hall b hb)
  | L d l wl => exact (solo.noL wl).elim
  | C d bits values extra hd ok sz ne at_ sub ih =>
    rw [Node.twm, Node.fold]
    cases wr with
    | S _ s' =>
      simp only [twmC, Node.foldAll_fst]
      exact Node.twmS_keep laws reduce e par hb hl s' (.C d bits values extra hd ok sz ne at_ sub) solo cov
    | L _ l wl => exact (solor.noL wl).elim
    | C _ b v z hd' okr szr ner atr subr =>
      simp only [twmC, Node.foldAll_eq, twmCC]
      obtain ⟨it, acc, h1, G, hk⟩ := bothLoop_spec reduce e .sequential bits values extra ok
        (fun m right => m.twm x reduce e ops par right (d + 1)) ⟨b, v, z⟩ okr
        (fun m => m.transform reduce e ops.left par)
        (fun m => do
          let res ← m.transmute reduce e ops.right
          .ok res.toT)
        (fun left? _ res => res.itemOpt true left?) (fun _ it => it.kl = true)
        (by
          intro i m r hm hr
          obtain ⟨m', hm', cov'⟩ := cov.slot laws ok at_ (bs' := r.visit) (i := i)
            (fun _ h => (slotVisit_sublist hr).subset h) (atr i r hr) (ner i r hr)
          rw [hm] at hm'; injection hm' with hm'; subst hm'
          obtain ⟨r', hr'⟩ := ih i m hm (solo.slot hm) (subr i r hr) (solor.slot hr) cov'
          exact ⟨_, _, hr', rfl, rfl⟩)
        (by
          intro i m hm _
          obtain ⟨r, hr⟩ := Node.transform_keep laws.left.hash reduce e par hl (sub i m hm)
          exact ⟨_, _, hr, rfl, rfl⟩)
        (by
          intro i r hm hr
          obtain ⟨m', hm', _⟩ := cov.slot laws ok at_ (bs' := r.visit) (i := i)
            (fun _ h => (slotVisit_sublist hr).subset h) (atr i r hr) (ner i r hr)
          rw [hm] at hm'; cases hm')
        (by intros; rfl)
      simp only [Node.twm] at h1
      simp only [h1, Res.ok_bind]
      exact ⟨_, TRes.finish_keep G hk⟩

/-- All keys of the left node are keys of the right node, which is kept. -/
theorem Node.mwt_keep (par : Par) {ops : MwtOps K V L W R} (hb : ops.both.Keeps2) (hr : ops.right.Keeps)
    {d : Nat} {m : Node c.n K V} (wf : m.WF x.hash c.levels d) (solo : Solo x.hash m.visit) {right : Node c.n L W}
    (wr : right.WF x.hash' c.levels d) (solor : Solo x.hash' right.visit)
    (cov : Covered x.flip right.visit m.visit) :
    ∃ r, m.mwt x reduce e ops par right d = .ok (.unchanged r) := by
  induction wf generalizing right with
  | S d s =>
    cases wr with
    | S _ s' =>
      obtain ⟨b, hb', he⟩ := cov (s.key, s.value) (by simp [Node.visit, SNode.visit])
      simp only [Node.visit, SNode.visit, List.mem_singleton] at hb'
      subst hb'
      exact SNode.mwt_keep laws reduce hb d ((laws.sym _ _).symm.trans he)
    | L _ l wl => exact (solor.noL wl).elim
    | C _ b v z hd ok sz ne at_ sub =>
      exact Node.twmS_keep laws.flip reduce e par hb.flip hr s (.C _ b v z hd ok sz ne at_ sub) solor cov
  | L d l wl => exact (solo.noL wl).elim
  | C d bits values extra hd ok sz ne at_ sub ih =>
    rw [Node.mwt, Node.fold]
    cases wr with
    | S _ s' =>
      simp only [mwtC, Node.foldAll_fst]
      refine Node.mwtS_keep laws reduce e hb hr s' (.C d bits values extra hd ok sz ne at_ sub) solo ?_
      intro a ha
      obtain ⟨b, hb', he⟩ := cov a ha
      simp only [Node.visit, SNode.visit, List.mem_singleton] at hb'
      subst hb'
      exact (laws.sym _ _).symm.trans he
    | L _ l wl => exact (solor.noL wl).elim
    | C _ b v z hd' okr szr ner atr subr =>
      simp only [mwtC, Node.foldAll_eq, mwtCC]
      obtain ⟨it, acc, h1, G, hk⟩ := bothLoop_spec reduce e .sequential bits values extra ok
        (fun m right => m.mwt x reduce e ops par right (d + 1)) ⟨b, v, z⟩ okr
        (fun m => do
          let res ← m.transmute reduce e ops.left
          .ok res.toT)
        (fun m => m.transform reduce e ops.right par)
        (fun _ right? res => res.itemOpt true right?) (fun _ it => it.kl = true)
        (by
          intro i m r hm hr
          obtain ⟨r1, hr1, cov'⟩ := cov.slot laws.flip okr atr (bs' := m.visit) (i := i)
            (fun _ h => (slotVisit_sublist hm).subset h) (at_ i m hm) (ne i m hm)
          rw [hr] at hr1; injection hr1 with hr1; subst hr1
          obtain ⟨r', hr'⟩ := ih i m hm (solo.slot hm) (subr i r hr) (solor.slot hr) cov'
          exact ⟨_, _, hr', rfl, rfl⟩)
        (by
          intro i m hm hr
          obtain ⟨r1, hr1, _⟩ := cov.slot laws.flip okr atr (bs' := m.visit) (i := i)
            (fun _ h => (slotVisit_sublist hm).subset h) (at_ i m hm) (ne i m hm)
          rw [hr] at hr1; cases hr1)
        (by
          intro i r _ hr'
          obtain ⟨r', hr''⟩ := Node.transform_keep laws.right.hash reduce e par hr (subr i r hr')
          exact ⟨_, _, hr'', rfl, rfl⟩)
        (by intros; rfl)
      simp only [Node.mwt] at h1
      simp only [h1, Res.ok_bind]
      exact ⟨_, TRes.finish_keep G hk⟩

end

/-! ### transform_with_transformed -/

/-- The left operand is kept. -/
def JRes.KeepsL {N : Type} : JRes N R → Prop
  | .unchangedLR _ => True
  | .unchangedL _ => True
  | _ => False

/-- The right operand is kept. -/
def JRes.KeepsR {N : Type} : JRes N R → Prop
  | .unchangedLR _ => True
  | .unchangedR _ => True
  | _ => False

/-- The answer keeps the left entry. -/
def MapJointTransformResult.KeepsL : MapJointTransformResult V R → Prop
  | .unchangedLR _ => True
  | .unchangedL _ => True
  | _ => False

/-- The answer keeps the right entry. -/
def MapJointTransformResult.KeepsR : MapJointTransformResult V R → Prop
  | .unchangedLR _ => True
  | .unchangedR _ => True
  | _ => False

/-- The two-sided operation keeps every left entry, and is not one of the bulk operations that `flip` confuses. -/
def MapJointTransform.KeepsL (op : MapJointTransform R (K → V → K → V → MapJointTransformResult V R)) : Prop :=
  match op with
  | .generic _ _ => ∀ k v l w, (op.call k v l w).KeepsL
  | .unchangedLR _ => True
  | _ => False

@[inherit_doc MapJointTransform.KeepsL]
def MapJointTransform.KeepsR (op : MapJointTransform R (K → V → K → V → MapJointTransformResult V R)) : Prop :=
  match op with
  | .generic _ _ => ∀ k v l w, (op.call k v l w).KeepsR
  | .unchangedLR _ => True
  | _ => False

section
variable {op : MapJointTransform R (K → V → K → V → MapJointTransformResult V R)}

theorem MapJointTransform.KeepsL.callL (h : op.KeepsL) (k : K) (v : V) (l : K) (w : V) : (op.call k v l w).KeepsL := by
  cases op with
  | generic f b => exact h k v l w
  | unchangedLR r => trivial
  | _ => exact h.elim

theorem MapJointTransform.KeepsR.callR (h : op.KeepsR) (k : K) (v : V) (l : K) (w : V) : (op.call k v l w).KeepsR := by
  cases op with
  | generic f b => exact h k v l w
  | unchangedLR r => trivial
  | _ => exact h.elim

theorem MapJointTransformResult.flip_keepsR (a : MapJointTransformResult V R) (h : a.KeepsL) : a.flip.KeepsR := by
  cases a <;> exact h

theorem MapJointTransformResult.flip_keepsL (a : MapJointTransformResult V R) (h : a.KeepsR) : a.flip.KeepsL := by
  cases a <;> exact h

theorem MapJointTransform.flip_generic_call (f : K → V → K → V → MapJointTransformResult V R) (b : Bool) (k : K) (v : V)
    (l : K) (w : V) : (MapJointTransform.generic (R := R) f b).flip.call k v l w =
      ((MapJointTransform.generic (R := R) f b).call l w k v).flip := by
  cases b
  · rfl
  · exact (MapJointTransformResult.flip_flip _).symm

theorem MapJointTransform.KeepsL.flip (h : op.KeepsL) : op.flip.KeepsR := by
  cases op with
  | generic f b =>
    intro k v l w
    rw [MapJointTransform.flip_generic_call]
    exact MapJointTransformResult.flip_keepsR _ (h l w k v)
  | unchangedLR r => trivial
  | _ => exact h.elim

theorem MapJointTransform.KeepsR.flip (h : op.KeepsR) : op.flip.KeepsL := by
  cases op with
  | generic f b =>
    intro k v l w
    rw [MapJointTransform.flip_generic_call]
    exact MapJointTransformResult.flip_keepsL _ (h l w k v)
  | unchangedLR r => trivial
  | _ => exact h.elim
end

/-- Both operands are kept. -/
def JRes.isLR {N : Type} : JRes N R → Bool
  | .unchangedLR _ => true
  | _ => false

/-- The same keys on both sides, and for all of them the answer that either entry may be kept. -/
def SameLR [BEq K] (op : MapJointTransform R (K → V → K → V → MapJointTransformResult V R)) (as bs : List (K × V)) : Prop :=
  (∀ a ∈ as, ∃ b ∈ bs, (a.1 == b.1) = true ∧ ∃ r, op.call a.1 a.2 b.1 b.2 = .unchangedLR r) ∧
    ∀ b ∈ bs, ∃ a ∈ as, (a.1 == b.1) = true ∧ ∃ r, op.call a.1 a.2 b.1 b.2 = .unchangedLR r

theorem MapJointTransformResult.of_flip_LR {a : MapJointTransformResult V R} {r : R} (h : a.flip = .unchangedLR r) :
    a = .unchangedLR r := by
  cases a <;> first | exact h | cases h

theorem MapJointTransform.call_flip_LR {op : MapJointTransform R (K → V → K → V → MapJointTransformResult V R)}
    {k l : K} {v w : V} {r : R} (h : op.flip.call k v l w = .unchangedLR r) : op.call l w k v = .unchangedLR r := by
  cases op with
  | generic f b =>
    rw [MapJointTransform.flip_generic_call] at h
    exact MapJointTransformResult.of_flip_LR h
  | unchangedLR r => exact h
  | _ => cases h

theorem SameLR.of_flip [BEq K] {hash : K → BitVec c.w} (laws : KeyLaws hash)
    {op : MapJointTransform R (K → V → K → V → MapJointTransformResult V R)} {as bs : List (K × V)}
    (h : SameLR op.flip bs as) : SameLR op as bs := by
  constructor
  · intro a ha
    obtain ⟨b, hb, he, r, hr⟩ := h.2 a ha
    exact ⟨b, hb, ((CrossLaws.same laws).sym _ _).trans he, r, MapJointTransform.call_flip_LR hr⟩
  · intro b hb
    obtain ⟨a, ha, he, r, hr⟩ := h.1 b hb
    exact ⟨a, ha, ((CrossLaws.same laws).sym _ _).trans he, r, MapJointTransform.call_flip_LR hr⟩

theorem SameLR.nil [BEq K] {op : MapJointTransform R (K → V → K → V → MapJointTransformResult V R)} : SameLR op [] [] :=
  ⟨fun _ h => (List.not_mem_nil h).elim, fun _ h => (List.not_mem_nil h).elim⟩

theorem JRes.flip_keepsL {N : Type} {res : Res (JRes N R)} {P P' : Prop}
    (h : ∃ r, res = .ok r ∧ r.KeepsR ∧ (r.isLR = true → P)) (hp : P → P') :
    ∃ r, JRes.flipR res = .ok r ∧ r.KeepsL ∧ (r.isLR = true → P') := by
  obtain ⟨r, rfl, h, h'⟩ := h
  exact ⟨r.flip, rfl, by cases r <;> exact h, fun hi => hp (h' (by cases r <;> first | rfl | cases hi))⟩

theorem JRes.flip_keepsR {N : Type} {res : Res (JRes N R)} {P P' : Prop}
    (h : ∃ r, res = .ok r ∧ r.KeepsL ∧ (r.isLR = true → P)) (hp : P → P') :
    ∃ r, JRes.flipR res = .ok r ∧ r.KeepsR ∧ (r.isLR = true → P') := by
  obtain ⟨r, rfl, h, h'⟩ := h
  exact ⟨r.flip, rfl, by cases r <;> exact h, fun hi => hp (h' (by cases r <;> first | rfl | cases hi))⟩

theorem JRes.finish_keepL {n : Nat} {reduce : R → R → R} {e : R} {it : Nat → Item n K V R} {acc : Acc n K V R}
    {P : Nat → Prop} (G : Acc.Gathered reduce e it acc)
    (h : ∀ i, i < n → (it i).kl = true ∧ ((it i).kr = true → P i)) :
    ∃ r, JRes.finish acc = .ok r ∧ r.KeepsL ∧ (r.isLR = true → ∀ i, i < n → P i) := by
  have : acc.ul = true := by
    rw [G.ul, List.all_eq_true]
    exact fun i hi => (h i (List.mem_range.1 hi)).1
  rw [JRes.finish, this]
  cases hu : acc.ur with
  | false => exact ⟨_, rfl, trivial, fun h => by cases h⟩
  | true =>
    rw [G.ur, List.all_eq_true] at hu
    exact ⟨_, rfl, trivial, fun _ i hi => (h i hi).2 (hu i (List.mem_range.2 hi))⟩

theorem JRes.finish_keepR {n : Nat} {reduce : R → R → R} {e : R} {it : Nat → Item n K V R} {acc : Acc n K V R}
    {P : Nat → Prop} (G : Acc.Gathered reduce e it acc)
    (h : ∀ i, i < n → (it i).kr = true ∧ ((it i).kl = true → P i)) :
    ∃ r, JRes.finish acc = .ok r ∧ r.KeepsR ∧ (r.isLR = true → ∀ i, i < n → P i) := by
  have : acc.ur = true := by
    rw [G.ur, List.all_eq_true]
    exact fun i hi => (h i (List.mem_range.1 hi)).1
  rw [JRes.finish, this]
  cases hu : acc.ul with
  | false => exact ⟨_, rfl, trivial, fun h => by cases h⟩
  | true =>
    rw [G.ul, List.all_eq_true] at hu
    exact ⟨_, rfl, trivial, fun _ i hi => (h i hi).2 (hu i (List.mem_range.2 hi))⟩

theorem JRes.itemOpt_keepL {n : Nat} {m : Node n K V} {right? : Option (Node n K V)} {r : JRes (Node n K V) R}
    {P : Prop} (h : r.KeepsL) (h' : r.isLR = true → P) :
    ∃ it, r.itemOpt (some m) right? = .ok it ∧ it.kl = true ∧ (it.kr = true → P) := by
  cases r with
  | unchangedLR r => exact ⟨_, rfl, rfl, fun _ => h' rfl⟩
  | unchangedL r => exact ⟨_, rfl, rfl, fun h => by cases h⟩
  | _ => exact h.elim

theorem JRes.itemOpt_keepR {n : Nat} {left m : Node n K V} {r : JRes (Node n K V) R}
    {P : Prop} (h : r.KeepsR) (h' : r.isLR = true → P) :
    ∃ it, r.itemOpt (some left) (some m) = .ok it ∧ it.kr = true ∧ (it.kl = true → P) := by
  cases r with
  | unchangedLR r => exact ⟨_, rfl, rfl, fun _ => h' rfl⟩
  | unchangedR r => exact ⟨_, rfl, rfl, fun h => by cases h⟩
  | _ => exact h.elim

/-- The keys of two branch nodes, from those of their children. -/
theorem SameLR.slots [BEq K] {op : MapJointTransform R (K → V → K → V → MapJointTransformResult V R)}
    {bl : BitVec c.n} {vl : List (Node c.n K V)} {zl : Nat} (okl : (Bia.mk bl vl zl).Ok)
    {br : BitVec c.n} {vr : List (Node c.n K V)} {zr : Nat} (okr : (Bia.mk br vr zr).Ok)
    (h : ∀ i, i < c.n → SameLR op (slotVisit ⟨bl, vl, zl⟩ i) (slotVisit ⟨br, vr, zr⟩ i)) :
    SameLR op (Node.C bl vl zl).visit (Node.C br vr zr).visit := by
  rw [Node.visit, Node.visit, visit_slots ⟨bl, vl, zl⟩ okl, visit_slots ⟨br, vr, zr⟩ okr]
  constructor
  · intro a ha
    obtain ⟨i, hi, ha⟩ := List.mem_flatMap.1 ha
    obtain ⟨b, hb, h'⟩ := (h i (List.mem_range.1 hi)).1 a ha
    exact ⟨b, List.mem_flatMap.2 ⟨i, hi, hb⟩, h'⟩
  · intro b hb
    obtain ⟨i, hi, hb⟩ := List.mem_flatMap.1 hb
    obtain ⟨a, ha, h'⟩ := (h i (List.mem_range.1 hi)).2 b hb
    exact ⟨a, List.mem_flatMap.2 ⟨i, hi, ha⟩, h'⟩

/-- The same against a single node, which belongs to one slot. -/
theorem SameLR.slotS [BEq K] {op : MapJointTransform R (K → V → K → V → MapJointTransformResult V R)}
    {bl : BitVec c.n} {vl : List (Node c.n K V)} {zl : Nat} (okl : (Bia.mk bl vl zl).Ok) (right : SNode K V) {j : Nat}
    (hj : j < c.n)
    (h : ∀ i, i < c.n → SameLR op (slotVisit ⟨bl, vl, zl⟩ i) (if i = j then right.visit else [])) :
    SameLR op (Node.C bl vl zl).visit right.visit := by
  rw [Node.visit, visit_slots ⟨bl, vl, zl⟩ okl]
  constructor
  · intro a ha
    obtain ⟨i, hi, ha⟩ := List.mem_flatMap.1 ha
    obtain ⟨b, hb, h'⟩ := (h i (List.mem_range.1 hi)).1 a ha
    by_cases e : i = j
    · rw [if_pos e] at hb; exact ⟨b, hb, h'⟩
    · rw [if_neg e] at hb; cases hb
  · intro b hb
    obtain ⟨a, ha, h'⟩ := (h j hj).2 b (by rw [if_pos rfl]; exact hb)
    exact ⟨a, List.mem_flatMap.2 ⟨j, List.mem_range.2 hj, ha⟩, h'⟩

section
variable [BEq K] {hash : K → BitVec c.w} (laws : KeyLaws hash) (reduce : R → R → R) (e : R)
include laws

theorem SNode.twt_keepL {ops : TwtOps K V R} (hb : ops.both.KeepsL) {s right : SNode K V} (d : Nat)
    (he : (s.key == right.key) = true) :
    ∃ r, (s.twt reduce hash ops right d : Res (JRes (Node c.n K V) R)) = .ok r ∧ r.KeepsL ∧
      (r.isLR = true → SameLR ops.both s.visit right.visit) := by
  have h := hb.callL s.key s.value right.key right.value
  simp only [SNode.twt, laws.hash _ _ he, if_true, SNode.twtImpl, he]
  cases ha : ops.both.call s.key s.value right.key right.value with
  | unchangedLR r =>
    refine ⟨_, rfl, trivial, fun _ => ⟨fun a h1 => ?_, fun b h1 => ?_⟩⟩
    · rw [SNode.visit, List.mem_singleton] at h1; subst h1
      exact ⟨_, right.mem_visit (n := c.n), he, r, ha⟩
    · rw [SNode.visit, List.mem_singleton] at h1; subst h1
      exact ⟨_, s.mem_visit (n := c.n), he, r, ha⟩
  | unchangedL r => exact ⟨_, rfl, trivial, fun h => by cases h⟩
  | _ => rw [ha] at h; exact h.elim

theorem SNode.twt_keepR {ops : TwtOps K V R} (hb : ops.both.KeepsR) {s right : SNode K V} (d : Nat)
    (he : (s.key == right.key) = true) :
    ∃ r, (s.twt reduce hash ops right d : Res (JRes (Node c.n K V) R)) = .ok r ∧ r.KeepsR ∧
      (r.isLR = true → SameLR ops.both s.visit right.visit) := by
  have h := hb.callR s.key s.value right.key right.value
  simp only [SNode.twt, laws.hash _ _ he, if_true, SNode.twtImpl, he]
  cases ha : ops.both.call s.key s.value right.key right.value with
  | unchangedLR r =>
    refine ⟨_, rfl, trivial, fun _ => ⟨fun a h1 => ?_, fun b h1 => ?_⟩⟩
    · rw [SNode.visit, List.mem_singleton] at h1; subst h1
      exact ⟨_, right.mem_visit (n := c.n), he, r, ha⟩
    · rw [SNode.visit, List.mem_singleton] at h1; subst h1
      exact ⟨_, s.mem_visit (n := c.n), he, r, ha⟩
  | unchangedR r => exact ⟨_, rfl, trivial, fun h => by cases h⟩
  | _ => rw [ha] at h; exact h.elim

theorem Node.transformL_keep (par : Par) {op : MapTransform R (K → V → MapTransformResult V R)} (h : op.Keeps) {d : Nat}
    {m : Node c.n K V} (wf : m.WF hash c.levels d) :
    ∃ r, Node.transformL reduce e par op m = .ok (.unchangedL r) := by
  obtain ⟨r, hr⟩ := Node.transform_keep laws.hash reduce e par h wf
  exact ⟨r, by simp only [Node.transformL, hr, Res.ok_bind, TRes.jointL]⟩

theorem Node.transformR_keep (par : Par) {op : MapTransform R (K → V → MapTransformResult V R)} (h : op.Keeps) {d : Nat}
    {m : Node c.n K V} (wf : m.WF hash c.levels d) :
    ∃ r, Node.transformR reduce e par op m = .ok (.unchangedR r) := by
  obtain ⟨r, hr⟩ := Node.transform_keep laws.hash reduce e par h wf
  exact ⟨r, by simp only [Node.transformR, hr, Res.ok_bind, TRes.jointR]⟩

theorem Node.twtS_keepL (par : Par) {ops : TwtOps K V R} (hb : ops.both.KeepsL) (hl : ops.left.Keeps)
    (right : SNode K V) {d : Nat} {m : Node c.n K V} (wf : m.WF hash c.levels d) (solo : Solo hash m.visit)
    (cov : Covered (Cross.same hash) m.visit right.visit) :
    ∃ r, m.twtS reduce e hash ops par right d = .ok r ∧ r.KeepsL ∧
      (r.isLR = true → SameLR ops.both m.visit right.visit) := by
  induction wf with
  | S d s =>
    obtain ⟨a, ha, he⟩ := cov (right.key, right.value) (by simp [SNode.visit])
    simp only [Node.visit, SNode.visit, List.mem_singleton] at ha
    subst ha
    exact SNode.twt_keepL laws reduce hb d he
  | L d l wl => exact (solo.noL wl).elim
  | C d bits values extra hd ok sz ne at_ sub ih =>
    rw [Node.twtS, Node.fold, Node.foldAll_eq, twtSC]
    obtain ⟨m0, hm0, cov0⟩ := cov.slot (.same laws) ok at_ (bs' := right.visit) (i := chunk c (hash right.key) d)
      (fun _ h => h) (by simp [SNode.visit, Cross.same]) (by simp [SNode.visit])
    obtain ⟨it, acc, h1, G, hk⟩ := flatLoop_spec reduce e (hash right.key) (c.levels_within d hd) bits values extra ok
      (fun m => m.twtS reduce e hash ops par right (d + 1)) (Node.transformL reduce e par ops.left)
      ((right.transform ops.right).map Node.S).jointR (fun left? res => res.itemOpt left? (some (.S right)))
      (fun i it => it.kl = true ∧ (it.kr = true → SameLR ops.both (slotVisit ⟨bits, values, extra⟩ i)
        (if i = chunk c (hash right.key) d then right.visit else [])))
      (by
        intro m hm
        rw [hm0] at hm; injection hm with hm; subst hm
        obtain ⟨r, hr, hk, hk'⟩ := ih _ _ hm0 (solo.slot hm0) cov0
        obtain ⟨it, h1, h2⟩ := JRes.itemOpt_keepL (m := m0) (right? := some (.S right)) hk hk'
        refine ⟨_, _, hr, h1, h2.1, fun h => ?_⟩
        rw [if_pos rfl, slotVisit, hm0]
        exact h2.2 h)
      (by
        intro i m _ hm
        obtain ⟨r, hr⟩ := Node.transformL_keep laws reduce e par hl (sub i m hm)
        exact ⟨_, _, hr, rfl, rfl, fun h => by cases h⟩)
      (by intro hm; rw [hm0] at hm; cases hm)
      (by
        intro i hi hm
        refine ⟨rfl, fun _ => ?_⟩
        rw [if_neg hi, slotVisit, hm]
        exact .nil)
    simp only [Node.twtS] at h1
    simp only [h1, Res.ok_bind]
    obtain ⟨r, h2, h3, h4⟩ := JRes.finish_keepL G hk
    exact ⟨r, h2, h3, fun h => .slotS ok right (chunk_lt _ _) (h4 h)⟩

theorem Node.twtS_keepR (par : Par) {ops : TwtOps K V R} (hb : ops.both.KeepsR) (hr : ops.right.Keeps)
    (right : SNode K V) {d : Nat} {m : Node c.n K V} (wf : m.WF hash c.levels d) (solo : Solo hash m.visit)
    (cov : ∀ a ∈ m.visit, (a.1 == right.key) = true) :
    ∃ r, m.twtS reduce e hash ops par right d = .ok r ∧ r.KeepsR ∧
      (r.isLR = true → SameLR ops.both m.visit right.visit) := by
  induction wf with
  | S d s => exact SNode.twt_keepR laws reduce hb d (cov (s.key, s.value) (by simp [Node.visit, SNode.visit]))
  | L d l wl => exact (solo.noL wl).elim
  | C d bits values extra hd ok sz ne at_ sub ih =>
    rw [Node.twtS, Node.fold, Node.foldAll_eq, twtSC]
    obtain ⟨r0, hr0⟩ := SNode.transform_keep hr right
    obtain ⟨it, acc, h1, G, hk⟩ := flatLoop_spec reduce e (hash right.key) (c.levels_within d hd) bits values extra ok
      (fun m => m.twtS reduce e hash ops par right (d + 1)) (Node.transformL reduce e par ops.left)
      ((right.transform ops.right).map Node.S).jointR (fun left? res => res.itemOpt left? (some (.S right)))
      (fun i it => it.kr = true ∧ (it.kl = true → SameLR ops.both (slotVisit ⟨bits, values, extra⟩ i)
        (if i = chunk c (hash right.key) d then right.visit else [])))
      (by
        intro m hm
        obtain ⟨r, hr, hk, hk'⟩ := ih _ _ hm (solo.slot hm) fun a ha => cov a ((slotVisit_sublist hm).subset ha)
        obtain ⟨it, h1, h2⟩ := JRes.itemOpt_keepR (left := m) (m := .S right) hk hk'
        refine ⟨_, _, hr, h1, h2.1, fun h => ?_⟩
        rw [if_pos rfl, slotVisit, hm]
        exact h2.2 h)
      (by
        intro i m hi hm
        obtain ⟨a, ha⟩ := List.exists_mem_of_ne_nil _ (ne i m hm)
        exact absurd ((at_ i m hm a ha).symm.trans (by rw [laws.hash _ _ (cov a ((slotVisit_sublist hm).subset ha))])) hi)
      (by
        intro _
        rw [hr0]
        exact ⟨_, rfl, rfl, fun h => by cases h⟩)
      (by
        intro i hi hm
        refine ⟨rfl, fun _ => ?_⟩
        rw [if_neg hi, slotVisit, hm]
        exact .nil)
    simp only [Node.twtS] at h1
    simp only [h1, Res.ok_bind]
    obtain ⟨r, h2, h3, h4⟩ := JRes.finish_keepR G hk
    exact ⟨r, h2, h3, fun h => .slotS ok right (chunk_lt _ _) (h4 h)⟩

/-- All keys of the right node are keys of the left node, which is kept. -/
theorem Node.twt_keepL (par : Par) {ops : TwtOps K V R} (hb : ops.both.KeepsL) (hl : ops.left.Keeps)
    {d : Nat} {m : Node c.n K V} (wf : m.WF hash c.levels d) (solo : Solo hash m.visit) {right : Node c.n K V}
    (wr : right.WF hash c.levels d) (solor : Solo hash right.visit)
    (cov : Covered (Cross.same hash) m.visit right.visit) :
    ∃ r, m.twt reduce e hash ops par right d = .ok r ∧ r.KeepsL ∧
      (r.isLR = true → SameLR ops.both m.visit right.visit) := by
  induction wf generalizing right with
  | S d s =>
    have hall : ∀ b ∈ right.visit, (s.key == b.1) = true := by
      intro b hb
      obtain ⟨a, ha, he⟩ := cov b hb
      simp only [Node.visit, SNode.visit, List.mem_singleton] at ha
      subst ha; exact he
    cases wr with
    | S _ s' => exact SNode.twt_keepL laws reduce hb d (hall (s'.key, s'.value) (by simp [Node.visit, SNode.visit]))
    | L _ l wl => exact (solor.noL wl).elim
    | C _ b v z hd ok sz ne at_ sub =>
      exact JRes.flip_keepsL (Node.twtS_keepR laws reduce e par (ops := ops.flip) hb.flip hl s
        (.C _ b v z hd ok sz ne at_ sub) solor fun b hb => ((CrossLaws.same laws).sym _ _).trans (hall b hb)) fun h => h.of_flip laws
  | L d l wl => exact (solo.noL wl).elim
  | C d bits values extra hd ok sz ne at_ sub ih =>
    rw [Node.twt, Node.fold]
    cases wr with
    | S _ s' =>
      simp only [twtC, Node.foldAll_fst]
      exact Node.twtS_keepL laws reduce e par hb hl s' (.C d bits values extra hd ok sz ne at_ sub) solo cov
    | L _ l wl => exact (solor.noL wl).elim
    | C _ b v z hd' okr szr ner atr subr =>
      simp only [twtC, twtCC, Node.foldAll_eq]
      cases hsc : (ops.shortcut : Option (JRes (Node c.n K V) R)) with
      | some res =>
        refine ⟨res, rfl, ?_⟩
        obtain ⟨both, left, right⟩ := ops
        cases both <;> cases left <;> cases right <;> simp only [TwtOps.shortcut, Option.some.injEq, reduceCtorEq] at hsc <;>
          first | (subst hsc; exact ⟨trivial, fun h => by cases h⟩) | exact hb.elim | exact hl.elim
      | none =>
        obtain ⟨it, acc, h1, G, hk⟩ := bothLoop_spec reduce e par bits values extra ok
          (fun m right => m.twt reduce e hash ops par right (d + 1)) ⟨b, v, z⟩ okr
          (Node.transformL reduce e par ops.left) (Node.transformR reduce e par ops.right)
          (fun left? right? res => res.itemOpt left? right?) (fun i it => it.kl = true ∧
            (it.kr = true → SameLR ops.both (slotVisit ⟨bits, values, extra⟩ i) (slotVisit ⟨b, v, z⟩ i)))
          (by
            intro i m r hm hr
            obtain ⟨m', hm', cov'⟩ := cov.slot (.same laws) ok at_ (bs' := r.visit) (i := i)
              (fun _ h => (slotVisit_sublist hr).subset h) (atr i r hr) (ner i r hr)
            rw [hm] at hm'; injection hm' with hm'; subst hm'
            obtain ⟨r', hr', hk, hk'⟩ := ih i m hm (solo.slot hm) (subr i r hr) (solor.slot hr) cov'
            obtain ⟨it, h1, h2⟩ := JRes.itemOpt_keepL (m := m) (right? := some r) hk hk'
            refine ⟨_, _, hr', h1, h2.1, fun h => ?_⟩
            rw [slotVisit, slotVisit, hm, hr]
            exact h2.2 h)
          (by
            intro i m hm _
            obtain ⟨r, hr⟩ := Node.transformL_keep laws reduce e par hl (sub i m hm)
            exact ⟨_, _, hr, rfl, rfl, fun h => by cases h⟩)
          (by
            intro i r hm hr
            obtain ⟨m', hm', _⟩ := cov.slot (.same laws) ok at_ (bs' := r.visit) (i := i)
              (fun _ h => (slotVisit_sublist hr).subset h) (atr i r hr) (ner i r hr)
            rw [hm] at hm'; cases hm')
          (by
            intro i hm hm'
            refine ⟨rfl, fun _ => ?_⟩
            rw [slotVisit, slotVisit, hm, hm']
            exact .nil)
        simp only [Node.twt] at h1
        simp only [h1, Res.ok_bind]
        obtain ⟨r, h2, h3, h4⟩ := JRes.finish_keepL G hk
        exact ⟨r, h2, h3, fun h => .slots ok okr (h4 h)⟩

/-- All keys of the left node are keys of the right node, which is kept. -/
theorem Node.twt_keepR (par : Par) {ops : TwtOps K V R} (hb : ops.both.KeepsR) (hr : ops.right.Keeps)
    {d : Nat} {m : Node c.n K V} (wf : m.WF hash c.levels d) (solo : Solo hash m.visit) {right : Node c.n K V}
    (wr : right.WF hash c.levels d) (solor : Solo hash right.visit)
    (cov : Covered (Cross.same hash) right.visit m.visit) :
    ∃ r, m.twt reduce e hash ops par right d = .ok r ∧ r.KeepsR ∧
      (r.isLR = true → SameLR ops.both m.visit right.visit) := by
  induction wf generalizing right with
  | S d s =>
    cases wr with
    | S _ s' =>
      obtain ⟨b, hb', he⟩ := cov (s.key, s.value) (by simp [Node.visit, SNode.visit])
      simp only [Node.visit, SNode.visit, List.mem_singleton] at hb'
      subst hb'
      exact SNode.twt_keepR laws reduce hb d (((CrossLaws.same laws).sym _ _).symm.trans he)
    | L _ l wl => exact (solor.noL wl).elim
    | C _ b v z hd ok sz ne at_ sub =>
      exact JRes.flip_keepsR (Node.twtS_keepL laws reduce e par (ops := ops.flip) hb.flip hr s
        (.C _ b v z hd ok sz ne at_ sub) solor cov) fun h => h.of_flip laws
  | L d l wl => exact (solo.noL wl).elim
  | C d bits values extra hd ok sz ne at_ sub ih =>
    rw [Node.twt, Node.fold]
    cases wr with
    | S _ s' =>
      simp only [twtC, Node.foldAll_fst]
      refine Node.twtS_keepR laws reduce e par hb hr s' (.C d bits values extra hd ok sz ne at_ sub) solo ?_
      intro a ha
      obtain ⟨b, hb', he⟩ := cov a ha
      simp only [Node.visit, SNode.visit, List.mem_singleton] at hb'
      subst hb'
      exact ((CrossLaws.same laws).sym _ _).symm.trans he
    | L _ l wl => exact (solor.noL wl).elim
    | C _ b v z hd' okr szr ner atr subr =>
      simp only [twtC, twtCC, Node.foldAll_eq]
      cases hsc : (ops.shortcut : Option (JRes (Node c.n K V) R)) with
      | some res =>
        refine ⟨res, rfl, ?_⟩
        obtain ⟨both, left, right⟩ := ops
        cases both <;> cases left <;> cases right <;> simp only [TwtOps.shortcut, Option.some.injEq, reduceCtorEq] at hsc <;>
          first | (subst hsc; exact ⟨trivial, fun h => by cases h⟩) | exact hb.elim | exact hr.elim
      | none =>
        obtain ⟨it, acc, h1, G, hk⟩ := bothLoop_spec reduce e par bits values extra ok
          (fun m right => m.twt reduce e hash ops par right (d + 1)) ⟨b, v, z⟩ okr
          (Node.transformL reduce e par ops.left) (Node.transformR reduce e par ops.right)
          (fun left? right? res => res.itemOpt left? right?) (fun i it => it.kr = true ∧
            (it.kl = true → SameLR ops.both (slotVisit ⟨bits, values, extra⟩ i) (slotVisit ⟨b, v, z⟩ i)))
          (by
            intro i m r hm hr
            obtain ⟨r1, hr1, cov'⟩ := cov.slot (.same laws) okr atr (bs' := m.visit) (i := i)
              (fun _ h => (slotVisit_sublist hm).subset h) (at_ i m hm) (ne i m hm)
            rw [hr] at hr1; injection hr1 with hr1; subst hr1
            obtain ⟨r', hr', hk, hk'⟩ := ih i m hm (solo.slot hm) (subr i r hr) (solor.slot hr) cov'
            obtain ⟨it, h1, h2⟩ := JRes.itemOpt_keepR (left := m) (m := r) hk hk'
            refine ⟨_, _, hr', h1, h2.1, fun h => ?_⟩
            rw [slotVisit, slotVisit, hm, hr]
            exact h2.2 h)
          (by
            intro i m hm hr
            obtain ⟨r1, hr1, _⟩ := cov.slot (.same laws) okr atr (bs' := m.visit) (i := i)
              (fun _ h => (slotVisit_sublist hm).subset h) (at_ i m hm) (ne i m hm)
            rw [hr] at hr1; cases hr1)
          (by
            intro i r _ hr'
            obtain ⟨r', hr''⟩ := Node.transformR_keep laws reduce e par hr (subr i r hr')
            exact ⟨_, _, hr'', rfl, rfl, fun h => by cases h⟩)
          (by
            intro i hm hm'
            refine ⟨rfl, fun _ => ?_⟩
            rw [slotVisit, slotVisit, hm, hm']
            exact .nil)
        simp only [Node.twt] at h1
        simp only [h1, Res.ok_bind]
        obtain ⟨r, h2, h3, h4⟩ := JRes.finish_keepR G hk
        exact ⟨r, h2, h3, fun h => .slots ok okr (h4 h)⟩
end

end HT
