import Verif.GrownLemmas
/-!
# Maps made by insertions: the visited sequence determines the trie, the contents determine which calls return
-/
namespace HT

variable {K V L W : Type} {c : Cfg} {hash : K → BitVec c.w}

theorem slotVisit_filter {a : Bia c.n (Node c.n K V)} (ok : a.Ok) {d : Nat}
    (at_ : ∀ i m, a.slot i = some m → ∀ e ∈ m.visit, chunk c (hash e.1) d = i) (i : Nat) :
    slotVisit a i = (Node.visitAll a.values).filter (fun e => decide (chunk c (hash e.1) d = i)) := by
  have hat : ∀ j, ∀ e ∈ slotVisit a j, chunk c (hash e.1) d = j := by
    intro j e he
    unfold slotVisit at he
    cases hs : a.slot j with
    | none => rw [hs] at he; simp at he
    | some m => rw [hs] at he; exact at_ j m hs e he
  rw [visit_slots a ok, List.filter_flatMap, flatMap_only (i := i)]
  · by_cases hi : i < c.n
    · rw [if_pos hi, List.filter_eq_self.2]
      intro e he
      exact decide_eq_true (hat i e he)
    · rw [if_neg hi]
      simp [slotVisit, Bia.slot_ge (Nat.not_lt.1 hi)]
  · intro j hj
    rw [List.filter_eq_nil_iff]
    intro e he hx
    exact hj ((hat j e he).symm.trans (of_decide_eq_true hx))

theorem mem_visit_slot {a : Bia c.n (Node c.n K V)} (ok : a.Ok) {i : Nat} {m : Node c.n K V} (hm : a.slot i = some m)
    {e : K × V} (he : e ∈ m.visit) : e ∈ Node.visitAll a.values := by
  rw [visit_slots a ok]
  exact List.mem_flatMap.2 ⟨i, List.mem_range.2 (Bia.slot_lt hm), by simpa [slotVisit, hm] using he⟩

theorem LNode.eq_of_visit {l : LNode K V} : ∀ {l' : LNode K V}, l.SizeOk → l'.SizeOk → l.visit = l'.visit → l = l' := by
  induction l with
  | nextS k v s z =>
    intro l' h h' e
    cases l' with
    | nextS k' v' s' z' =>
      simp only [LNode.SizeOk] at h h'
      simp only [LNode.visit, SNode.visit, List.cons.injEq, Prod.mk.injEq, and_true] at e
      obtain ⟨⟨rfl, rfl⟩, e1, e2⟩ := e
      cases s; cases s'
      simp only at e1 e2
      subst e1; subst e2; rw [h, h']
    | nextL k' v' l' z' =>
      have := congrArg List.length e
      have h2 := LNode.two_le l'
      simp only [LNode.visit, SNode.visit, List.length_cons, List.length_nil] at this
      omega
  | nextL k v l z ih =>
    intro l' h h' e
    cases l' with
    | nextS k' v' s' z' =>
      have := congrArg List.length e
      have h2 := LNode.two_le l
      simp only [LNode.visit, SNode.visit, List.length_cons, List.length_nil] at this
      omega
    | nextL k' v' l' z' =>
      simp only [LNode.SizeOk] at h h'
      simp only [LNode.visit, List.cons.injEq, Prod.mk.injEq] at e
      obtain ⟨⟨rfl, rfl⟩, e⟩ := e
      have := ih h.2 h'.2 e
      subst this
      rw [h.1, h'.1]

section
variable [BEq K]

theorem Node.WF.tight_unique {mx d : Nat} {m : Node c.n K V} (wf : m.WF hash mx d) : ∀ {m' : Node c.n K V}, m.Tight hash →
    m'.WF hash mx d → m'.Tight hash → m.visit = m'.visit → m = m' := by
  induction wf with
  | S d s =>
    intro m' tm wf' tm' e
    cases tm' with
    | S s' =>
      cases s; cases s'
      simp only [Node.visit, SNode.visit, List.cons.injEq, Prod.mk.injEq, and_true] at e
      obtain ⟨rfl, rfl⟩ := e; rfl
    | L l =>
      have := congrArg List.length e
      have h2 := LNode.two_le l
      simp only [Node.visit, SNode.visit, List.length_cons, List.length_nil] at this
      omega
    | C b v z two _ =>
      obtain ⟨a, ha, b', hb, hne⟩ := two
      simp only [Node.visit, SNode.visit] at e
      rw [← e, List.mem_singleton] at ha hb
      rw [ha, hb] at hne; exact absurd rfl hne
  | L d l wl =>
    intro m' tm wf' tm' e
    cases tm' with
    | S s' =>
      have := congrArg List.length e
      have h2 := LNode.two_le l
      simp only [Node.visit, SNode.visit, List.length_cons, List.length_nil] at this
      omega
    | L l' =>
      cases wf' with
      | L _ _ wl' => rw [LNode.eq_of_visit wl.size wl'.size e]
    | C b v z two _ =>
      obtain ⟨a, ha, b', hb, hne⟩ := two
      simp only [Node.visit] at e
      rw [← e] at ha hb
      rw [wl.hash a ha, wl.hash b' hb] at hne; exact absurd rfl hne
  | C d bits values extra hd ok sz ne at_ sub ih =>
    intro m' tm wf' tm' e
    cases tm with
    | C _ _ _ two tsub =>
    cases wf' with
    | S _ s' =>
      obtain ⟨a, ha, b', hb, hne⟩ := two
      simp only [Node.visit, SNode.visit] at e
      rw [e, List.mem_singleton] at ha hb
      rw [ha, hb] at hne; exact absurd rfl hne
    | L _ l' wl' =>
      obtain ⟨a, ha, b', hb, hne⟩ := two
      simp only [Node.visit] at e
      rw [e] at ha hb
      rw [wl'.hash a ha, wl'.hash b' hb] at hne; exact absurd rfl hne
    | C _ bits' values' extra' hd' ok' sz' ne' at_' sub' =>
      cases tm' with
      | C _ _ _ two' tsub' =>
      simp only [Node.visit] at e
      have hsv : ∀ i, slotVisit ⟨bits, values, extra⟩ i = slotVisit ⟨bits', values', extra'⟩ i := by
        intro i
        rw [slotVisit_filter ok at_ i, slotVisit_filter ok' at_' i, e]
      obtain ⟨h1, h2⟩ := Bia.ext_slot ok ok' fun i => by
        have hi := hsv i
        unfold slotVisit at hi
        cases hs : (Bia.mk bits values extra).slot i with
        | none =>
          cases hs' : (Bia.mk bits' values' extra').slot i with
          | none => rfl
          | some m' => rw [hs, hs'] at hi; exact absurd hi.symm (ne' i m' hs')
        | some m =>
          cases hs' : (Bia.mk bits' values' extra').slot i with
          | none => rw [hs, hs'] at hi; exact absurd hi (ne i m hs)
          | some m' =>
            rw [hs, hs'] at hi
            rw [ih i m hs (tsub _ (Bia.slot_mem hs)) (sub' i m' hs') (tsub' _ (Bia.slot_mem hs')) hi]
      simp only at h1 h2
      subst h1; subst h2
      rw [sz, sz']

theorem Trie.Tight.unique {mx : Nat} {t t' : Trie c K V} (h : t.ValidAt hash mx) (ti : t.Tight hash)
    (h' : t'.ValidAt hash mx) (ti' : t'.Tight hash) (e : t.visit = t'.visit) : t = t' := by
  obtain ⟨⟨⟩⟩ := t
  all_goals obtain ⟨⟨⟩⟩ := t'
  all_goals obtain ⟨b, v, z, r, tsub⟩ := ti
  all_goals obtain ⟨b', v', z', r', tsub'⟩ := ti'
  all_goals try cases r
  all_goals try cases r'
  rename_i bits values extra bits' values' extra'
  cases h with
  | C _ _ _ _ hd ok sz ne at_ sub =>
  cases h' with
  | C _ _ _ _ hd' ok' sz' ne' at_' sub' =>
  simp only [Trie.visit, Node.visit] at e
  have hsv : ∀ i, slotVisit ⟨bits, values, extra⟩ i = slotVisit ⟨bits', values', extra'⟩ i := by
    intro i
    rw [slotVisit_filter ok at_ i, slotVisit_filter ok' at_' i, e]
  obtain ⟨h1, h2⟩ := Bia.ext_slot ok ok' fun i => by
    have hi := hsv i
    unfold slotVisit at hi
    cases hs : (Bia.mk bits values extra).slot i with
    | none =>
      cases hs' : (Bia.mk bits' values' extra').slot i with
      | none => rfl
      | some m' => rw [hs, hs'] at hi; exact absurd hi.symm (ne' i m' hs')
    | some m =>
      cases hs' : (Bia.mk bits' values' extra').slot i with
      | none => rw [hs, hs'] at hi; exact absurd hi (ne i m hs)
      | some m' =>
        rw [hs, hs'] at hi
        rw [(sub i m hs).tight_unique (tsub _ (Bia.slot_mem hs)) (sub' i m' hs') (tsub' _ (Bia.slot_mem hs')) hi]
  simp only at h1 h2
  subst h1; subst h2
  rw [sz, sz']

end

/-! ### When the calls do not return -/

/-- `Nearer`, with at least `d` common groups. -/
def NearerFrom (d : Nat) (x : Cross c K L) (as : List (K × V)) (bs : List (L × W)) (h : BitVec c.w) : Prop :=
  ∃ n, d ≤ n ∧ (∃ b ∈ bs, x.hash' b.1 ≠ h ∧ Agree c n (x.hash' b.1) h) ∧
    ∀ a ∈ as, x.hash a.1 ≠ h → ¬ Agree c n (x.hash a.1) h

def BlockedFrom (d : Nat) (x : Cross c K L) (as : List (K × V)) (bs : List (L × W)) : Prop :=
  ∃ h, (NearerFrom d x as bs h ∧ 3 ≤ collisions x.hash as h ∧ 2 ≤ collisions x.hash' bs h) ∨
    (¬ NearerFrom d x as bs h ∧ 2 ≤ collisions x.hash as h ∧ 3 ≤ collisions x.hash' bs h)

variable {x : Cross c K L}

theorem collisions_pos {w : Nat} {hash : K → BitVec w} {l : List (K × V)} {h : BitVec w} (hp : 1 ≤ collisions hash l h) :
    ∃ e ∈ l, hash e.1 = h := by
  obtain ⟨e, he, h1⟩ := List.countP_pos_iff.1 hp
  exact ⟨e, he, by simpa using h1⟩

theorem collisions_le {w : Nat} {hash : K → BitVec w} {l : List (K × V)} {h : BitVec w} : collisions hash l h ≤ l.length :=
  List.countP_le_length

theorem collisions_filter {h : BitVec c.w} (hash : K → BitVec c.w) (l : List (K × V)) (d : Nat) :
    collisions hash (l.filter fun e => decide (chunk c (hash e.1) d = chunk c h d)) h = collisions hash l h := by
  unfold collisions
  rw [List.countP_filter]
  apply List.countP_congr
  intro e _
  simp only [beq_iff_eq, Bool.and_eq_true, decide_eq_true_eq]
  constructor
  · exact fun h => h.1
  · intro h; exact ⟨h, by rw [h]⟩

theorem BlockedFrom.slots {d : Nat} {as : List (K × V)} {bs : List (L × W)} :
    BlockedFrom (d + 1) x as bs ↔ ∃ i, BlockedFrom (d + 1) x (as.filter fun e => decide (chunk c (x.hash e.1) d = i))
      (bs.filter fun e => decide (chunk c (x.hash' e.1) d = i)) := by
  have near : ∀ h, NearerFrom (d + 1) x (as.filter fun e => decide (chunk c (x.hash e.1) d = chunk c h d))
      (bs.filter fun e => decide (chunk c (x.hash' e.1) d = chunk c h d)) h ↔ NearerFrom (d + 1) x as bs h := by
    intro h
    constructor
    · rintro ⟨n, hn, ⟨b, hb, h1, h2⟩, h3⟩
      refine ⟨n, hn, ⟨b, (List.mem_filter.1 hb).1, h1, h2⟩, fun a ha h4 h5 => ?_⟩
      exact h3 a (List.mem_filter.2 ⟨ha, decide_eq_true (h5 d (by omega))⟩) h4 h5
    · rintro ⟨n, hn, ⟨b, hb, h1, h2⟩, h3⟩
      exact ⟨n, hn, ⟨b, List.mem_filter.2 ⟨hb, decide_eq_true (h2 d (by omega))⟩, h1, h2⟩,
        fun a ha => h3 a (List.mem_filter.1 ha).1⟩
  constructor
  · rintro ⟨h, hb⟩
    refine ⟨chunk c h d, h, ?_⟩
    rw [near h, collisions_filter, collisions_filter]
    exact hb
  · rintro ⟨i, h, hb⟩
    have hp : 1 ≤ collisions x.hash (as.filter fun e => decide (chunk c (x.hash e.1) d = i)) h := by
      rcases hb with hb | hb <;> omega
    obtain ⟨e, he, e1⟩ := collisions_pos hp
    have hi := of_decide_eq_true (List.mem_filter.1 he).2
    rw [e1] at hi
    subst hi
    rw [near h, collisions_filter, collisions_filter] at hb
    exact ⟨h, hb⟩

theorem not_nearer {d : Nat} {as : List (K × V)} {bs : List (L × W)} {h0 h : BitVec c.w}
    (hb : ∀ b ∈ bs, x.hash' b.1 = h0) (hp : 1 ≤ collisions x.hash' bs h) : ¬ NearerFrom d x as bs h := by
  rintro ⟨n, _, ⟨b, hb', h1, _⟩, _⟩
  obtain ⟨e, he, e1⟩ := collisions_pos hp
  exact h1 ((hb b hb').trans ((hb e he).symm.trans e1))

section
variable [BEq K] [BEq L]

theorem noStall_iff_counts {as : List (K × V)} {bs : List (L × W)} :
    ¬ NoStall x as bs ↔ ∃ h, 2 ≤ collisions x.hash as h ∧ 3 ≤ collisions x.hash' bs h := by
  unfold NoStall
  simp only [Classical.not_forall, Nat.not_le, exists_prop]
  rfl

theorem stuck_CC {d : Nat} {b : BitVec c.n} {v : List (Node c.n K V)} {z : Nat} {b' : BitVec c.n}
    {v' : List (Node c.n L W)} {z' : Nat} (ok : (Bia.mk b v z).Ok) (ok' : (Bia.mk b' v' z').Ok)
    (at_ : ∀ i m, (Bia.mk b v z).slot i = some m → ∀ e ∈ m.visit, chunk c (x.hash e.1) d = i)
    (at_' : ∀ i m, (Bia.mk b' v' z').slot i = some m → ∀ e ∈ m.visit, chunk c (x.hash' e.1) d = i)
    (sub : ∀ i m r, (Bia.mk b v z).slot i = some m → (Bia.mk b' v' z').slot i = some r →
      (Node.Stuck x m r ↔ BlockedFrom (d + 1) x m.visit r.visit)) :
    Node.Stuck x (.C b v z) (.C b' v' z') ↔ BlockedFrom (d + 1) x (Node.visitAll v) (Node.visitAll v') := by
  rw [BlockedFrom.slots]
  constructor
  · intro st
    cases st with
    | CC hm hr st =>
      rename_i i m r
      refine ⟨i, ?_⟩
      have e1 := slotVisit_filter ok at_ i
      have e2 := slotVisit_filter ok' at_' i
      simp only at e1 e2
      rw [← e1, ← e2]
      simp only [slotVisit, hm, hr]
      exact (sub i m r hm hr).1 st
  · rintro ⟨i, hb⟩
    have e1 := slotVisit_filter ok at_ i
    have e2 := slotVisit_filter ok' at_' i
    simp only at e1 e2
    rw [← e1, ← e2] at hb
    cases hm : (Bia.mk b v z).slot i with
    | none =>
      obtain ⟨h, hb⟩ := hb
      simp [slotVisit, hm, collisions] at hb
    | some m =>
      cases hr : (Bia.mk b' v' z').slot i with
      | none =>
        obtain ⟨h, hb⟩ := hb
        simp [slotVisit, hr, collisions] at hb
      | some r =>
        simp only [slotVisit, hm, hr] at hb
        exact .CC hm hr ((sub i m r hm hr).2 hb)

theorem stuck_iff {mx d : Nat} {m : Node c.n K V} (wf : m.WF x.hash mx d) : ∀ {r : Node c.n L W}, m.Tight x.hash →
    r.WF x.hash' mx d → r.Tight x.hash' →
    (∀ a ∈ m.visit, ∀ b ∈ r.visit, Agree c d (x.hash a.1) (x.hash' b.1)) →
    (Node.Stuck x m r ↔ BlockedFrom d x m.visit r.visit) := by
  induction wf with
  | S d s =>
    intro r _ _ _ _
    refine ⟨nofun, ?_⟩
    rintro ⟨h, hb⟩
    have := collisions_le (hash := x.hash) (l := (Node.S s : Node c.n K V).visit) (h := h)
    simp only [Node.visit, SNode.visit, List.length_cons, List.length_nil] at this
    rcases hb with hb | hb <;> simp only [Node.visit, SNode.visit] at hb <;> omega
  | L d l wl =>
    intro r tm wr tr ag
    cases wr with
    | S _ s =>
      refine ⟨nofun, ?_⟩
      rintro ⟨h, hb⟩
      have := collisions_le (hash := x.hash') (l := (Node.S s : Node c.n L W).visit) (h := h)
      simp only [Node.visit, SNode.visit, List.length_cons, List.length_nil] at this
      rcases hb with hb | hb <;> simp only [Node.visit, SNode.visit] at hb <;> omega
    | L _ r wr =>
      constructor
      · intro st
        cases st with | LL ns =>
        obtain ⟨h, h1, h2⟩ := noStall_iff_counts.1 ns
        exact ⟨h, .inr ⟨not_nearer (h0 := x.hash' r.key) wr.hash (by simp only [Node.visit]; omega), h1, h2⟩⟩
      · rintro ⟨h, hb | hb⟩
        · exact absurd hb.1 (not_nearer (h0 := x.hash' r.key) wr.hash (by omega))
        · exact .LL (noStall_iff_counts.2 ⟨h, hb.2⟩)
    | C _ b v z hd ok sz ne at_ sub =>
      have near : ∀ h, 1 ≤ collisions x.hash (Node.L l : Node c.n K V).visit h →
          NearerFrom d x (Node.L l : Node c.n K V).visit (Node.C b v z).visit h := by
        intro h hp
        obtain ⟨e, he, e1⟩ := collisions_pos hp
        refine ⟨d, Nat.le_refl _, ?_, fun a ha h1 => absurd ((wl.hash a ha).trans ((wl.hash e he).symm.trans e1)) h1⟩
        cases tr with | C _ _ _ two _ =>
        obtain ⟨a, ha, b', hb, hne⟩ := two
        by_cases h1 : x.hash' a.1 = h
        · exact ⟨b', hb, fun h2 => hne (h1.trans h2.symm), by rw [← e1]; exact (ag e he b' hb).symm⟩
        · exact ⟨a, ha, h1, by rw [← e1]; exact (ag e he a ha).symm⟩
      constructor
      · intro st
        cases st with | LC ns =>
        obtain ⟨h, h1, h2⟩ := noStall_iff_counts.1 ns
        refine ⟨h, .inl ⟨near h ?_, h2, h1⟩⟩
        exact Nat.le_trans (by omega) h2
      · rintro ⟨h, hb | hb⟩
        · exact .LC (noStall_iff_counts.2 ⟨h, hb.2.2, hb.2.1⟩)
        · exact absurd (near h (by omega)) hb.1
  | C d bits values extra hd ok sz ne at_ sub ih =>
    intro r tm wr tr ag
    cases wr with
    | S _ s =>
      refine ⟨nofun, ?_⟩
      rintro ⟨h, hb⟩
      have := collisions_le (hash := x.hash') (l := (Node.S s : Node c.n L W).visit) (h := h)
      simp only [Node.visit, SNode.visit, List.length_cons, List.length_nil] at this
      rcases hb with hb | hb <;> simp only [Node.visit, SNode.visit] at hb <;> omega
    | L _ r wr =>
      constructor
      · intro st
        cases st with | CL ns =>
        obtain ⟨h, h1, h2⟩ := noStall_iff_counts.1 ns
        exact ⟨h, .inr ⟨not_nearer (h0 := x.hash' r.key) wr.hash (by simp only [Node.visit]; omega), h1, h2⟩⟩
      · rintro ⟨h, hb | hb⟩
        · exact absurd hb.1 (not_nearer (h0 := x.hash' r.key) wr.hash (by omega))
        · exact .CL (noStall_iff_counts.2 ⟨h, hb.2⟩)
    | C _ b v z hd' ok' sz' ne' at_' sub' =>
      cases tm with | C _ _ _ two tsub =>
      cases tr with | C _ _ _ two' tsub' =>
      rw [stuck_CC ok ok' at_ at_' fun i m r hm hr => ih i m hm (tsub _ (Bia.slot_mem hm)) (sub' i r hr)
        (tsub' _ (Bia.slot_mem hr)) fun a ha b hb => ?_]
      · have step : ∀ h, 1 ≤ collisions x.hash' (Node.visitAll v) h →
            (NearerFrom (d + 1) x (Node.visitAll values) (Node.visitAll v) h ↔
              NearerFrom d x (Node.visitAll values) (Node.visitAll v) h) := by
          intro h hp
          constructor
          · rintro ⟨n, hn, h1⟩; exact ⟨n, by omega, h1⟩
          · rintro ⟨n, hn, h1, h2⟩
            refine ⟨n, ?_, h1, h2⟩
            rcases Nat.lt_or_ge d n with h3 | h3
            · exact h3
            · exfalso
              have : n = d := by omega
              subst this
              obtain ⟨e, he, e1⟩ := collisions_pos hp
              obtain ⟨a, ha, b', hb, hne⟩ := two
              by_cases h4 : x.hash a.1 = h
              · exact h2 b' hb (fun h5 => hne (h4.trans h5.symm)) (by rw [← e1]; exact ag b' hb e he)
              · exact h2 a ha h4 (by rw [← e1]; exact ag a ha e he)
        constructor
        · rintro ⟨h, hb⟩
          refine ⟨h, ?_⟩
          show (NearerFrom d x (Node.visitAll values) (Node.visitAll v) h ∧ _) ∨ _
          rw [step h (by rcases hb with hb | hb <;> omega)] at hb
          exact hb
        · rintro ⟨h, hb⟩
          refine ⟨h, ?_⟩
          change (NearerFrom d x (Node.visitAll values) (Node.visitAll v) h ∧ 3 ≤ collisions x.hash (Node.visitAll values) h ∧
            2 ≤ collisions x.hash' (Node.visitAll v) h) ∨ (¬ NearerFrom d x (Node.visitAll values) (Node.visitAll v) h ∧
            2 ≤ collisions x.hash (Node.visitAll values) h ∧ 3 ≤ collisions x.hash' (Node.visitAll v) h) at hb
          rw [step h (by rcases hb with hb | hb <;> omega)]
          exact hb
      · refine (ag a ?_ b ?_).succ ((at_ i m hm a ha).trans (at_' i r hr b hb).symm)
        · exact (mem_visit_slot ok hm ha)
        · exact (mem_visit_slot ok' hr hb)

/-- On maps made by insertions the contents decide which joint calls return. -/
theorem Grown.stuck_iff {t : Trie c K V} {u : Trie c L W} (ht : Grown x.hash t) (hu : Grown x.hash' u) :
    Node.Stuck x t.root u.root ↔ Blocked x t.visit u.visit := by
  obtain ⟨b, v, z, e, tsub⟩ := ht.tight
  obtain ⟨b', v', z', e', tsub'⟩ := hu.tight
  have h := ht.reach.valid
  have h' := hu.reach.valid
  unfold Trie.visit
  unfold Trie.Valid Trie.ValidAt at h h'
  rw [e] at h ⊢; rw [e'] at h' ⊢
  cases h with
  | C _ _ _ _ hd ok sz ne at_ sub =>
  cases h' with
  | C _ _ _ _ hd' ok' sz' ne' at_' sub' =>
  exact stuck_CC ok ok' at_ at_' fun i m r hm hr => HT.stuck_iff (sub i m hm) (tsub _ (Bia.slot_mem hm)) (sub' i r hr)
    (tsub' _ (Bia.slot_mem hr)) fun a ha b hb =>
      (Agree.zero _ _).succ ((at_ i m hm a ha).trans (at_' i r hr b hb).symm)

end
end HT
