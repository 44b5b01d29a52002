import Verif.VisitSpec
import Verif.Crowd
import Verif.HistoryLemmas
/-!
# The order of `visit`
-/
namespace HT

variable {K V : Type} {c : Cfg} {hash : K → BitVec c.w}

theorem HashBefore.asymm {h h' : BitVec c.w} (a : HashBefore h h') (b : HashBefore h' h) : False := by
  obtain ⟨d, a1, a2⟩ := a
  obtain ⟨e, b1, b2⟩ := b
  rcases Nat.lt_trichotomy d e with h | h | h
  · have := b1 d h; omega
  · subst h; omega
  · have := a1 e h; omega

theorem HashBefore.trans {h h' h'' : BitVec c.w} (a : HashBefore h h') (b : HashBefore h' h'') : HashBefore h h'' := by
  obtain ⟨d, a1, a2⟩ := a
  obtain ⟨e, b1, b2⟩ := b
  rcases Nat.lt_trichotomy d e with h | h | h
  · exact ⟨d, fun j hj => (a1 j hj).trans (b1 j (by omega)), by rw [← b1 d h]; exact a2⟩
  · subst h; exact ⟨d, fun j hj => (a1 j hj).trans (b1 j hj), by omega⟩
  · exact ⟨e, fun j hj => (a1 j (by omega)).trans (b1 j hj), by rw [a1 e h]; exact b2⟩

theorem HashBefore.total {h h' : BitVec c.w} (hne : h ≠ h') : HashBefore h h' ∨ HashBefore h' h := by
  have key : ∀ n, Agree c n h h' ∨ HashBefore h h' ∨ HashBefore h' h := by
    intro n
    induction n with
    | zero => exact .inl fun e he => absurd he (by omega)
    | succ n ih =>
      rcases ih with ih | ih
      · rcases Nat.lt_trichotomy (chunk c h n) (chunk c h' n) with g | g | g
        · exact .inr (.inl ⟨n, ih, g⟩)
        · exact .inl (ih.succ g)
        · exact .inr (.inr ⟨n, fun j hj => (ih j hj).symm, g⟩)
      · exact .inr ih
  rcases key c.levels with h1 | h1
  · exact absurd (h1.eq c.levels_cover) hne
  · exact h1

/-! ### Groups -/

theorem SameGroups.refl (l : List (K × V)) : SameGroups hash l l := fun _ => rfl
theorem SameGroups.symm {l m : List (K × V)} (h : SameGroups hash l m) : SameGroups hash m l := fun x => (h x).symm
theorem SameGroups.trans {l m n : List (K × V)} (h : SameGroups hash l m) (h' : SameGroups hash m n) :
    SameGroups hash l n := fun x => (h x).trans (h' x)

theorem SameGroups.append {l l' m m' : List (K × V)} (h : SameGroups hash l m) (h' : SameGroups hash l' m') :
    SameGroups hash (l ++ l') (m ++ m') := fun x => by
  rw [List.filter_append, List.filter_append, h x, h' x]

theorem SameGroups.cons {l m : List (K × V)} (e : K × V) (h : SameGroups hash l m) : SameGroups hash (e :: l) (e :: m) :=
  SameGroups.append (SameGroups.refl [e]) h

theorem SameGroups.filter {l m : List (K × V)} (h : SameGroups hash l m) (p : K × V → Bool) :
    SameGroups hash (l.filter p) (m.filter p) := fun x => by
  have hc : ∀ l : List (K × V), (l.filter p).filter (fun e => decide (hash e.1 = x)) =
      (l.filter (fun e => decide (hash e.1 = x))).filter p := by
    intro l; rw [List.filter_filter, List.filter_filter]; congr 1; funext e; exact Bool.and_comm ..
  rw [hc, hc, h x]

/-- Entries of different hashes may be exchanged. -/
theorem SameGroups.swap {l m : List (K × V)} (h : ∀ a ∈ l, ∀ b ∈ m, hash a.1 ≠ hash b.1) :
    SameGroups hash (l ++ m) (m ++ l) := fun x => by
  rw [List.filter_append, List.filter_append]
  by_cases hx : ∃ a ∈ l, hash a.1 = x
  · obtain ⟨a, ha, hax⟩ := hx
    have : m.filter (fun e => decide (hash e.1 = x)) = [] := by
      rw [List.filter_eq_nil_iff]
      intro b hb hbx
      exact h a ha b hb (hax.trans (of_decide_eq_true hbx).symm)
    rw [this]; simp
  · have : l.filter (fun e => decide (hash e.1 = x)) = [] := by
      rw [List.filter_eq_nil_iff]
      intro a ha hax
      exact hx ⟨a, ha, of_decide_eq_true hax⟩
    rw [this]; simp

theorem SameGroups.mem {l m : List (K × V)} (h : SameGroups hash l m) {a : K × V} (ha : a ∈ l) : a ∈ m := by
  have : a ∈ l.filter (fun e => decide (hash e.1 = hash a.1)) := List.mem_filter.2 ⟨ha, by simp⟩
  rw [h] at this
  exact (List.mem_filter.1 this).1

/-- Groups and order determine the list. -/
theorem HashSorted.unique {l : List (K × V)} : ∀ {l' : List (K × V)}, HashSorted hash l → HashSorted hash l' →
    SameGroups hash l l' → l = l' := by
  induction l with
  | nil =>
    intro l' _ _ g
    cases l' with
    | nil => rfl
    | cons b l' => exact absurd (g.symm.mem (List.mem_cons_self ..)) (by simp)
  | cons a l ih =>
    intro l' s s' g
    cases l' with
    | nil => exact absurd (g.mem (List.mem_cons_self ..)) (by simp)
    | cons b l' =>
      have sa := List.pairwise_cons.1 s
      have sb := List.pairwise_cons.1 s'
      have hab : hash a.1 = hash b.1 := by
        have h1 : hash a.1 = hash b.1 ∨ HashBefore (hash a.1) (hash b.1) := by
          rcases List.mem_cons.1 (g.symm.mem (List.mem_cons_self ..)) with h | h
          · exact .inl (by rw [h])
          · exact sa.1 b h
        have h2 : hash b.1 = hash a.1 ∨ HashBefore (hash b.1) (hash a.1) := by
          rcases List.mem_cons.1 (g.mem (List.mem_cons_self ..)) with h | h
          · exact .inl (by rw [h])
          · exact sb.1 a h
        rcases h1 with h1 | h1
        · exact h1
        · rcases h2 with h2 | h2
          · exact h2.symm
          · exact (h1.asymm h2).elim
      have g1 := g (hash a.1)
      rw [List.filter_cons_of_pos (by simp), List.filter_cons_of_pos (by simp [hab])] at g1
      injection g1 with g1 g2
      subst g1
      rw [ih sa.2 sb.2 fun x => ?_]
      have gx := g x
      by_cases hx : hash a.1 = x
      · rw [List.filter_cons_of_pos (by simpa using hx), List.filter_cons_of_pos (by simpa using hx)] at gx
        injection gx
      · rwa [List.filter_cons_of_neg (by simpa using hx), List.filter_cons_of_neg (by simpa using hx)] at gx

theorem Arranged.unique {l l' m : List (K × V)} (h : Arranged hash l m) (h' : Arranged hash l' m) : l = l' :=
  h.1.unique h'.1 (h.2.trans h'.2.symm)

/-! ### Nodes -/

/-- Every node visits its entries in the order of their hashes. -/
theorem Node.WF.sorted [BEq K] {mx d : Nat} {m : Node c.n K V} (h : m.WF hash mx d) :
    (∀ a ∈ m.visit, ∀ b ∈ m.visit, Agree c d (hash a.1) (hash b.1)) → HashSorted hash m.visit := by
  induction h with
  | S d s => intro _; exact List.pairwise_singleton _ _
  | L d l h =>
    intro _
    exact List.Pairwise.imp_of_mem (R := fun _ _ => True)
      (fun ha hb _ => .inl ((h.hash _ ha).trans (h.hash _ hb).symm)) (List.pairwise_of_forall fun _ _ => trivial)
  | C d bits values extra hd ok sz ne at_ sub ih =>
    intro ag
    have hv : (Node.C bits values extra).visit = (List.range c.n).flatMap (slotVisit ⟨bits, values, extra⟩) :=
      visit_slots ⟨bits, values, extra⟩ ok
    have hsub : ∀ i, ∀ e ∈ slotVisit ⟨bits, values, extra⟩ i,
        i < c.n → e ∈ (Node.C bits values extra).visit := by
      intro i e he hi
      rw [hv]; exact List.mem_flatMap.2 ⟨i, List.mem_range.2 hi, he⟩
    have hat : ∀ i, ∀ e ∈ slotVisit ⟨bits, values, extra⟩ i, chunk c (hash e.1) d = i := by
      intro i e he
      unfold slotVisit at he
      cases hs : (Bia.mk bits values extra).slot i with
      | none => rw [hs] at he; simp at he
      | some m => rw [hs] at he; exact at_ i m hs e he
    unfold HashSorted
    rw [hv, List.pairwise_flatMap]
    refine ⟨?_, ?_⟩
    · intro i hi
      unfold slotVisit
      cases hs : (Bia.mk bits values extra).slot i with
      | none => exact List.Pairwise.nil
      | some m =>
        have hsv : slotVisit ⟨bits, values, extra⟩ i = m.visit := by simp [slotVisit, hs]
        refine ih i m hs fun a ha b hb => ?_
        exact (ag a (hsub i a (hsv ▸ ha) (List.mem_range.1 hi)) b (hsub i b (hsv ▸ hb) (List.mem_range.1 hi))).succ
          ((at_ i m hs a ha).trans (at_ i m hs b hb).symm)
    · refine List.Pairwise.imp_of_mem ?_ (List.pairwise_lt_range (n := c.n))
      intro i j hi hj hij a ha b hb
      exact .inr ⟨d, ag a (hsub i a ha (List.mem_range.1 hi)) b (hsub j b hb (List.mem_range.1 hj)),
        by rw [hat i a ha, hat j b hb]; exact hij⟩

/-- Lifting two leaves puts one before the other. -/
theorem liftC_visit (m1 m2 : Node c.n K V) (n : Nat) : ∀ (f1 f2 : Flag c), 8 * c.w - f1.depth < n →
    ∀ {m' : Node c.n K V}, liftC c m1 f1 m2 f2 = .ok m' →
    m'.visit = m1.visit ++ m2.visit ∨ m'.visit = m2.visit ++ m1.visit := by
  induction n with
  | zero => intro f1 f2 h; omega
  | succ n ih =>
    intro f1 f2 hn m' hl
    rw [liftC_unfold] at hl
    split at hl
    · obtain ⟨o, ho, hl⟩ := Res.bind_eq_ok.1 hl
      obtain ⟨tf, htf, hl⟩ := Res.bind_eq_ok.1 hl
      obtain ⟨o', ho', hl⟩ := Res.bind_eq_ok.1 hl
      obtain ⟨rf, hrf, hl⟩ := Res.bind_eq_ok.1 hl
      obtain ⟨inner, hin, hl⟩ := Res.bind_eq_ok.1 hl
      obtain ⟨a, ha, hl⟩ := Res.bind_eq_ok.1 hl
      obtain ⟨a', ha', hl⟩ := Res.bind_eq_ok.1 hl
      have := Bia.ofVec_inv (a := a') c.n_le (l := [inner]) (by rw [ha]; exact ha')
      injection hl with hl
      subst this; subst hl
      have hd : 8 * c.w - tf.depth < n := by
        cases o with
        | none => simp [Res.unwrap] at htf
        | some x =>
          rw [Res.unwrap_some] at htf; injection htf with htf; subst htf
          simp only [Flag.next, Flag.newAtDepth] at ho
          split at ho
          · simp at ho
          · have hb := c.bpos
            simp only [Res.bind_eq_ok] at ho
            obtain ⟨y, _, z, _, hz⟩ := ho
            injection hz with hz; injection hz with hz; subst hz
            have : f1.depth + 1 ≤ (f1.depth + 1) * c.b := Nat.le_mul_of_pos_right _ hb
            show 8 * c.w - (f1.depth + 1) < n
            omega
      have := ih tf rf hd hin
      simpa [Node.ofBia, Node.visit, Node.visitAll] using this
    · obtain ⟨fl, hfl, hl⟩ := Res.bind_eq_ok.1 hl
      obtain ⟨i, hi, hl⟩ := Res.bind_eq_ok.1 hl
      obtain ⟨a, ha, hl⟩ := Res.bind_eq_ok.1 hl
      obtain ⟨a', ha', hl⟩ := Res.bind_eq_ok.1 hl
      have := Bia.ofVec_inv (a := a') c.n_le (l := if i = 0 then [m1, m2] else [m2, m1])
        (by rw [ha]; exact ha')
      injection hl with hl
      subst this; subst hl
      by_cases h0 : i = 0 <;> simp [Node.ofBia, Node.visit, Node.visitAll, h0]

theorem flatMap_only {α : Type} {f : Nat → List α} {i : Nat} (h : ∀ j, j ≠ i → f j = []) :
    ∀ n, (List.range n).flatMap f = if i < n then f i else [] := by
  intro n
  induction n with
  | zero => simp
  | succ n ih =>
    rw [List.range_succ, List.flatMap_append, ih]
    by_cases h1 : i < n
    · rw [if_pos h1, if_pos (by omega)]
      simp [h n (by omega)]
    · rw [if_neg h1]
      by_cases h2 : i = n
      · subst h2; simp
      · rw [if_neg (by omega)]; simp [h n (Ne.symm h2)]

/-- The entries of one hash are all in one slot. -/
theorem slot_group {a : Bia c.n (Node c.n K V)} (ok : a.Ok) {d : Nat}
    (at_ : ∀ i m, a.slot i = some m → ∀ e ∈ m.visit, chunk c (hash e.1) d = i) (x : BitVec c.w) :
    (Node.visitAll a.values).filter (fun e => decide (hash e.1 = x)) =
      (slotVisit a (chunk c x d)).filter (fun e => decide (hash e.1 = x)) := by
  rw [visit_slots a ok, List.filter_flatMap, flatMap_only (i := chunk c x d), if_pos (chunk_lt x d)]
  intro j hj
  rw [List.filter_eq_nil_iff]
  intro e he hx
  unfold slotVisit at he
  cases hs : a.slot j with
  | none => rw [hs] at he; simp at he
  | some m =>
    rw [hs] at he
    have := at_ j m hs e he
    rw [of_decide_eq_true hx] at this
    exact hj this.symm

section
variable [BEq K] {q : K → Bool} {k : K} {v : V} {replace : Bool}

theorem liftL_groups {this : LNext K V} (hs : ∀ e ∈ (this.toNode : Node c.n K V).visit, hash e.1 = hash this.key)
    (hn : ∀ e ∈ (this.toNode : Node c.n K V).visit, q e.1 = false) {f : Flag c} (hf : f.hashValue = hash k)
    {m' : Node c.n K V} {ptr : K × V} {prev : Option (K × V)}
    (hr : liftL c hash this k v f = .ok (.inserted m' ptr prev)) :
    SameGroups hash m'.visit ((k, v) :: (this.toNode : Node c.n K V).visit.filter (fun e => !q e.1)) := by
  rw [List.filter_eq_self.2 (fun e he => by simp [hn e he])]
  unfold liftL at hr
  simp only at hr
  split at hr
  · injection hr with hr; injection hr with hr; subst hr
    cases this <;> exact .refl _
  · rename_i hne
    rw [hf] at hne
    obtain ⟨o, ho, hr⟩ := Res.bind_eq_ok.1 hr
    obtain ⟨tf, htf, hr⟩ := Res.bind_eq_ok.1 hr
    obtain ⟨m, hm, hr⟩ := Res.bind_eq_ok.1 hr
    injection hr with hr; injection hr with hr; subst hr
    rcases liftC_visit _ _ _ _ _ (Nat.lt_succ_self _) hm with h | h
    · rw [h]
      refine SameGroups.swap fun a ha b hb => ?_
      rw [hs a ha]
      have : b = (k, v) := by simpa [Node.visit, SNode.visit] using hb
      rw [this]; exact hne
    · rw [h]; exact .refl _

/-- Insertion puts the entry before the others of its hash and leaves the order of entries of equal hash as it was. -/
theorem Node.insert_groups (hq : Query hash q (hash k)) {mx d : Nat} (lim : ∀ d, d < mx → d * c.b < c.w)
    {m : Node c.n K V} (wf : m.WF hash mx d) {flag : Option (Flag c)} (hf : FlagFor (hash k) d flag)
    {m' : Node c.n K V} {ptr : K × V} {prev : Option (K × V)}
    (hr : m.insert c hash q k v replace flag = .ok (.inserted m' ptr prev)) :
    SameGroups hash m'.visit ((k, v) :: m.visit.filter (fun e => !q e.1)) := by
  induction wf generalizing flag m' with
  | S d s =>
    rw [Node.insert, SNode.insert] at hr
    cases hs : q s.key with
    | true =>
      rw [hs] at hr
      cases replace with
      | true =>
        injection hr with hr; injection hr with hr; subst hr
        simp [Node.visit, SNode.visit, hs, SameGroups]
      | false => simp at hr
    | false =>
      rw [hs] at hr
      obtain ⟨f, hf', hr⟩ := Res.bind_eq_ok.1 hr
      obtain ⟨f', rfl, hf1, _, _⟩ := hf
      rw [Res.unwrap_some] at hf'; injection hf' with hf'; subst hf'
      exact liftL_groups (this := .S s) (by simp [LNext.toNode, Node.visit, SNode.visit, LNext.key])
        (by simp [LNext.toNode, Node.visit, SNode.visit, hs]) hf1 hr
  | L d l wl =>
    rw [Node.insert, LNode.insert] at hr
    rw [LNode.find_eq] at hr
    cases hfd : l.visit.find? (fun e => q e.1) with
    | some e =>
      rw [hfd] at hr
      have hrm := LNode.removeFrom_spec hq l wl.keys wl.size
      cases replace with
      | false => simp at hr
      | true =>
        simp only [if_true] at hr
        cases hrr : l.removeFrom q with
        | notFound => rw [hrr] at hr; simp at hr
        | removedL l' k' v' =>
          rw [hrr] at hr hrm
          injection hr with hr; injection hr with hr; subst hr
          obtain ⟨h1, h2, h3⟩ := hrm
          show SameGroups hash ((k, v) :: l'.visit) _
          rw [h2]; exact .refl _
        | removedS s' k' v' =>
          rw [hrr] at hr hrm
          injection hr with hr; injection hr with hr; subst hr
          obtain ⟨h1, h2⟩ := hrm
          show SameGroups hash ((k, v) :: s'.visit) _
          rw [h2]; exact .refl _
    | none =>
      rw [hfd] at hr
      obtain ⟨f, hf', hr⟩ := Res.bind_eq_ok.1 hr
      obtain ⟨f', rfl, hf1, _, _⟩ := hf
      rw [Res.unwrap_some] at hf'; injection hf' with hf'; subst hf'
      exact liftL_groups (this := .L l) wl.hash
        (fun e he => by simpa using (List.find?_eq_none.1 hfd) e he) hf1 hr
  | C d bits values extra hd ok sz ne at_ sub ih =>
    obtain ⟨f, rfl, hf1, hf2, hf3⟩ := hf
    have hlt := lim d hd
    have hff := hf3 hlt
    subst hff
    obtain ⟨a', m1', rfl, ok', hslot, hcase⟩ := Node.insert_C_inv ok hr
    have hm1 : SameGroups hash m1'.visit
        ((k, v) :: (slotVisit ⟨bits, values, extra⟩ (chunk c (hash k) d)).filter (fun e => !q e.1)) := by
      rcases hcase with ⟨h1, rfl⟩ | ⟨m1, nx, h1, h2, h3⟩
      · simp [slotVisit, h1, Node.visit, SNode.visit, SameGroups]
      · have hnf : FlagFor (hash k) (d + 1) nx := by
          rcases next_cases (hash k) hlt with ⟨nx', hnx, hnf⟩ | ⟨_, _, hnx⟩
          · rw [h2] at hnx; injection hnx with hnx; subst hnx; exact hnf
          · rw [h2] at hnx; simp at hnx
        have := ih _ _ h1 hnf h3
        simpa [slotVisit, h1] using this
    have hat : ∀ i, ∀ e ∈ slotVisit ⟨bits, values, extra⟩ i, chunk c (hash e.1) d = i := by
      intro i e he
      unfold slotVisit at he
      cases hs : (Bia.mk bits values extra).slot i with
      | none => rw [hs] at he; simp at he
      | some m => rw [hs] at he; exact at_ i m hs e he
    have at' : ∀ i m, a'.slot i = some m → ∀ e ∈ m.visit, chunk c (hash e.1) d = i := by
      intro i m hm e he
      rw [hslot] at hm
      by_cases hi : i = chunk c (hash k) d
      · rw [if_pos hi] at hm; injection hm with hm; subst hm
        rcases List.mem_cons.1 (hm1.mem he) with h | h
        · rw [h]; exact hi.symm
        · rw [hi]; exact hat _ e (List.mem_filter.1 h).1
      · rw [if_neg hi] at hm; exact at_ i m hm e he
    intro x
    show (Node.visitAll a'.values).filter _ = ((k, v) :: (Node.visitAll values).filter _).filter _
    rw [slot_group ok' at' x]
    have hcomm : ∀ l : List (K × V), (l.filter (fun e => !q e.1)).filter (fun e => decide (hash e.1 = x)) =
        (l.filter (fun e => decide (hash e.1 = x))).filter (fun e => !q e.1) := by
      intro l; rw [List.filter_filter, List.filter_filter]; congr 1; funext e; exact Bool.and_comm ..
    have hg := slot_group (a := ⟨bits, values, extra⟩) ok at_ x
    by_cases hx : chunk c x d = chunk c (hash k) d
    · have e1 : slotVisit a' (chunk c x d) = m1'.visit := by simp [slotVisit, hslot, hx]
      rw [e1, hm1 x, List.filter_cons, List.filter_cons, hcomm, hcomm, hg, hx]
    · have e1 : slotVisit a' (chunk c x d) = slotVisit ⟨bits, values, extra⟩ (chunk c x d) := by
        simp [slotVisit, hslot, hx]
      rw [e1, List.filter_cons_of_neg (by simp; rintro rfl; exact hx rfl), hcomm, hg]
      symm
      rw [List.filter_eq_self]
      intro e he
      have he' := (List.mem_filter.1 he)
      cases hqe : q e.1 with
      | false => rfl
      | true =>
        exfalso
        apply hx
        rw [← of_decide_eq_true he'.2, hq.hash _ hqe]

theorem Trie.insertQ_groups {t t' : Trie c K V} (h : t.ValidAt hash c.levels) (hq : Query hash q (hash k))
    {ptr : K × V} {prev : Option (K × V)}
    (hr : t.insertQ hash q (hash k) k v replace = .ok (.ok (t', ptr, prev))) :
    SameGroups hash t'.visit ((k, v) :: t.visit.filter (fun e => !q e.1)) := by
  rw [Trie.insertQ, Flag.new_eq] at hr
  simp only [Res.ok_bind] at hr
  obtain ⟨r, hr1, hr⟩ := Res.bind_eq_ok.1 hr
  cases r with
  | found a b => simp at hr
  | inserted m a b =>
    injection hr with hr; injection hr with hr; injection hr with hr _; subst hr
    exact Node.insert_groups hq c.levels_within h (flagFor_flagAt _ _) hr1

theorem Trie.visit_sorted {t : Trie c K V} {mx : Nat} (h : t.ValidAt hash mx) : HashSorted hash t.visit :=
  Node.WF.sorted h fun _ _ _ _ e he => absurd he (Nat.not_lt_zero e)

end

/-- Where an entry goes. -/
theorem HashSorted.place {l : List (K × V)} (hs : HashSorted hash l) (e : K × V) :
    ∃ l1 l2, l = l1 ++ l2 ∧ (∀ a ∈ l1, HashBefore (hash a.1) (hash e.1)) ∧
      (∀ a ∈ l2, hash e.1 = hash a.1 ∨ HashBefore (hash e.1) (hash a.1)) := by
  induction l with
  | nil => exact ⟨[], [], rfl, by simp, by simp⟩
  | cons a l ih =>
    have hs' := List.pairwise_cons.1 hs
    by_cases h : HashBefore (hash a.1) (hash e.1)
    · obtain ⟨l1, l2, h1, h2, h3⟩ := ih hs'.2
      exact ⟨a :: l1, l2, by rw [h1]; rfl, fun b hb => by
        rcases List.mem_cons.1 hb with hb | hb
        · rw [hb]; exact h
        · exact h2 b hb, h3⟩
    · have ha : hash e.1 = hash a.1 ∨ HashBefore (hash e.1) (hash a.1) := by
        by_cases he : hash e.1 = hash a.1
        · exact .inl he
        · rcases HashBefore.total he with h' | h'
          · exact .inr h'
          · exact absurd h' h
      refine ⟨[], a :: l, rfl, by simp, fun b hb => ?_⟩
      rcases List.mem_cons.1 hb with hb | hb
      · rw [hb]; exact ha
      · rcases hs'.1 b hb with h1 | h1
        · rw [← h1]; exact ha
        · rcases ha with h2 | h2
          · rw [h2]; exact .inr h1
          · exact .inr (h2.trans h1)

theorem SameGroups.of_perm {l m : List (K × V)} (hp : l.Perm m)
    (hd : l.Pairwise fun a b => hash a.1 ≠ hash b.1) : SameGroups hash l m := fun x => by
  have h1 := hp.filter (fun e => decide (hash e.1 = x))
  have h2 : (l.filter (fun e => decide (hash e.1 = x))).length ≤ 1 := by
    have hf := hd.filter (fun e => decide (hash e.1 = x))
    generalize hg : l.filter (fun e => decide (hash e.1 = x)) = g at hf ⊢
    match g, hf with
    | [], _ => simp
    | [a], _ => simp
    | a :: b :: g, hf =>
      have ha : a ∈ l.filter (fun e => decide (hash e.1 = x)) := by rw [hg]; simp
      have hb : b ∈ l.filter (fun e => decide (hash e.1 = x)) := by rw [hg]; simp
      have ha := of_decide_eq_true (List.mem_filter.1 ha).2
      have hb := of_decide_eq_true (List.mem_filter.1 hb).2
      exact absurd (ha.trans hb.symm) ((List.pairwise_cons.1 hf).1 b (by simp))
  generalize l.filter (fun e => decide (hash e.1 = x)) = g at h1 h2
  match g, h2 with
  | [], _ => exact (List.nil_perm.1 h1).symm
  | [a], _ => exact List.singleton_perm.1 h1

/-- The sequence of hashes is determined by the contents. -/
theorem HashSorted.hashes {l m : List (K × V)} (hs : HashSorted hash l) (hs' : HashSorted hash m) (hp : l.Perm m) :
    l.map (fun e => hash e.1) = m.map (fun e => hash e.1) := by
  refine List.Perm.eq_of_pairwise (le := fun a b => a = b ∨ HashBefore a b) ?_ ?_ ?_ (hp.map _)
  · intro a b _ _ h1 h2
    rcases h1 with h1 | h1
    · exact h1
    · rcases h2 with h2 | h2
      · exact h2.symm
      · exact (h1.asymm h2).elim
  · exact List.pairwise_map.2 hs
  · exact List.pairwise_map.2 hs'

section
variable [BEq K]

/-- A trie represents a list of entries with its order within each hash. -/
structure RepIn (hash : K → BitVec c.w) (t : Trie c K V) (m : AMap K V) : Prop where
  rep : Rep hash c.levels (fun _ => True) t m
  groups : SameGroups hash t.visit m

theorem Pointwise.imp {α β : Type} {R S : α → β → Prop} (h : ∀ a b, R a b → S a b) {as : List α} {bs : List β}
    (hr : Pointwise R as bs) : Pointwise S as bs := by
  induction as generalizing bs with
  | nil => cases bs <;> first | trivial | exact hr.elim
  | cons a as ih => cases bs with
    | nil => exact hr.elim
    | cons b bs => exact ⟨h _ _ hr.1, ih hr.2⟩

theorem step_order (laws : KeyLaws hash)
    (ts : List (Trie c K V)) (ms : List (AMap K V)) (hr : Pointwise (RepIn hash) ts ms) (op : Op K V) :
    (∃ o ts', Trie.step hash ts op = .ok (o, ts') ∧ o.SameInOrder hash (AMap.step ms op).1 ∧
      Pointwise (RepIn hash) ts' (AMap.step ms op).2) ∨ Trie.step hash ts op = .panic .shiftOverflow := by
  haveI := laws.equiv
  have hh := laws.hash
  cases op with
  | insert src k v replace =>
    simp only [Trie.step, AMap.step]
    rcases hr.get? src with ⟨h1, h2⟩ | ⟨t, m, h1, h2, h3⟩
    · rw [h1, h2]; exact .inl ⟨_, _, rfl, rfl, hr⟩
    · rw [h1, h2]
      simp only
      have hf := h3.rep.find_eq hh k
      have hpf := h3.rep.perm.filter (fun e => !(e.1 == k))
      rcases Trie.insertQ_spec c.levels_within hh h3.rep.valid v replace (Query.ofKey hash hh k) (BEq.rfl (a := k))
        (fun e he ag => ag.eq c.levels_cover) with ⟨r, hr', good⟩ | ⟨_, _, hp⟩
      · rw [Trie.insert, hr']
        simp only [Res.ok_bind]
        cases good with
        | err e g1 g2 =>
          rw [hf] at g2
          simp only [AMap.insert, g2, g1]
          exact .inl ⟨_, _, rfl, rfl, hr⟩
        | ok t' prev g1 g2 g3 g4 =>
          rw [hf] at g1
          have : AMap.insert m k v replace = .ok ((k, v) :: m.without k, prev) := by
            unfold AMap.insert
            rw [← g1]
            cases replace with
            | true => cases prev <;> rfl
            | false => rw [g2 rfl]
          rw [this]
          refine .inl ⟨_, _, rfl, rfl, hr.append ⟨⟨g3, g4.trans (List.Perm.cons _ hpf), fun _ _ => trivial⟩, ?_⟩⟩
          exact (Trie.insertQ_groups h3.rep.valid (Query.ofKey hash hh k) hr').trans
            (SameGroups.cons _ (h3.groups.filter _))
      · right; rw [Trie.insert, hp]; rfl
  | remove src k =>
    simp only [Trie.step, AMap.step]
    rcases hr.get? src with ⟨h1, h2⟩ | ⟨t, m, h1, h2, h3⟩
    · rw [h1, h2]; exact .inl ⟨_, _, rfl, rfl, hr⟩
    · rw [h1, h2]
      simp only
      have hf := h3.rep.find_eq hh k
      have hpf := h3.rep.perm.filter (fun e => !(e.1 == k))
      rcases Trie.removeQ_spec c.levels_pos c.levels_within hh h3.rep.valid (Query.ofKey hash hh k) with
        ⟨r, hr', good⟩ | ⟨_, _, hp⟩
      · rw [Trie.remove, hr']
        simp only [Res.ok_bind]
        cases good with
        | none g1 =>
          rw [hf] at g1
          simp only [AMap.remove, g1]
          exact .inl ⟨_, _, rfl, rfl, hr⟩
        | some t' e g1 g2 g3 =>
          rw [hf] at g1
          simp only [AMap.remove, g1]
          refine .inl ⟨_, _, rfl, rfl, hr.append ⟨⟨g2, ?_, fun _ _ => trivial⟩, ?_⟩⟩
          · rw [g3]; exact hpf
          · rw [g3]; exact h3.groups.filter _
      · right; rw [Trie.remove, hp]; rfl
  | find src k =>
    simp only [Trie.step, AMap.step]
    rcases hr.get? src with ⟨h1, h2⟩ | ⟨t, m, h1, h2, h3⟩
    · rw [h1, h2]; exact .inl ⟨_, _, rfl, rfl, hr⟩
    · rw [h1, h2]
      simp only [Trie.find, Trie.findQ_eq c.levels_within h3.rep.valid (Query.ofKey hash hh k), Res.ok_bind]
      rw [h3.rep.find_eq hh k]
      cases m.find k <;> exact .inl ⟨_, _, rfl, rfl, hr⟩
  | size src =>
    simp only [Trie.step, AMap.step]
    rcases hr.get? src with ⟨h1, h2⟩ | ⟨t, m, h1, h2, h3⟩
    · rw [h1, h2]; exact .inl ⟨_, _, rfl, rfl, hr⟩
    · rw [h1, h2]
      simp only
      rw [h3.rep.valid.size_eq, h3.rep.perm.length_eq]
      exact .inl ⟨_, _, rfl, rfl, hr⟩
  | visit src =>
    simp only [Trie.step, AMap.step]
    rcases hr.get? src with ⟨h1, h2⟩ | ⟨t, m, h1, h2, h3⟩
    · rw [h1, h2]; exact .inl ⟨_, _, rfl, rfl, hr⟩
    · rw [h1, h2]
      exact .inl ⟨_, _, rfl, ⟨Trie.visit_sorted h3.rep.valid, h3.groups⟩, hr⟩

theorem run_order (laws : KeyLaws hash) (ops : List (Op K V))
    (ts : List (Trie c K V)) (ms : List (AMap K V)) (hr : Pointwise (RepIn hash) ts ms) {os : List (Out K V)}
    {ts' : List (Trie c K V)} (h : Trie.run hash ts ops = .ok (os, ts')) :
    Pointwise (Out.SameInOrder hash) os (AMap.run ms ops).1 ∧ Pointwise (RepIn hash) ts' (AMap.run ms ops).2 := by
  induction ops generalizing ts ms os with
  | nil => rw [Trie.run] at h; injection h with h; injection h with h1 h2; subst h1; subst h2; exact ⟨trivial, hr⟩
  | cons op ops ih =>
    rw [Trie.run] at h
    rcases step_order laws ts ms hr op with ⟨o, ts1, h1, h2, h3⟩ | h1
    · rw [h1] at h
      simp only [Res.ok_bind] at h
      obtain ⟨⟨os1, ts2⟩, h4, h⟩ := Res.bind_eq_ok.1 h
      injection h with h; injection h with h5 h6; subst h5; subst h6
      obtain ⟨h5, h6⟩ := ih ts1 _ h3 h4
      exact ⟨⟨h2, h5⟩, h6⟩
    · rw [h1] at h; simp at h

end
end HT
