import Verif.Wf
/-! # insert and remove preserve the invariant and act as on an abstract map -/
namespace HT

variable {K V : Type}

/-! ### List facts -/

theorem filter_not_of_find?_none {α : Type} {l : List α} {p : α → Bool} (h : l.find? p = none) :
    l.filter (fun e => !p e) = l := by
  rw [List.filter_eq_self]
  intro e he
  have := List.find?_eq_none.1 h e he
  simpa using this

theorem filter_flatMap' {α : Type} (l : List Nat) (g : Nat → List α) (p : α → Bool) :
    (l.flatMap g).filter p = l.flatMap (fun i => (g i).filter p) := by
  induction l with
  | nil => rfl
  | cons i l ih => simp [List.flatMap_cons, ih]

theorem flatMap_congr' {α : Type} (l : List Nat) (g g' : Nat → List α) (h : ∀ i ∈ l, g i = g' i) :
    l.flatMap g = l.flatMap g' := by
  induction l with
  | nil => rfl
  | cons i l ih =>
    rw [List.flatMap_cons, List.flatMap_cons, h i (List.mem_cons_self ..),
      ih (fun j hj => h j (List.mem_cons_of_mem _ hj))]

/-- Split off one index. -/
theorem flatMap_split {α : Type} (n i : Nat) (g : Nat → List α) (hi : i < n) :
    ((List.range n).flatMap g).Perm (g i ++ ((List.range n).filter (fun j => j != i)).flatMap g) := by
  have hnd : (List.range n).Nodup := List.nodup_range
  have hp := List.perm_cons_erase (List.mem_range.2 hi)
  have := List.Perm.flatMap_right g hp
  rw [List.flatMap_cons, hnd.erase_eq_filter] at this
  exact this

section
variable [BEq K] {c : Cfg} {hash : K → BitVec c.w}

theorem length_filter_query {q : K → Bool} {h : BitVec c.w} (hq : Query hash q h) {l : List (K × V)}
    (hd : DistinctKeys l) {e : K × V} (hf : l.find? (fun e => q e.1) = some e) :
    (l.filter (fun e => !q e.1)).length + 1 = l.length := by
  induction l with
  | nil => simp at hf
  | cons a l ih =>
    rw [List.find?_cons] at hf
    cases hqa : q a.1 with
    | true =>
      have hall : ∀ b ∈ l, q b.1 = false := by
        intro b hb
        have h1 := List.rel_of_pairwise_cons hd hb
        rw [← hq.cls _ _ hqa] at h1
        exact h1
      have : l.filter (fun e => !q e.1) = l := by
        rw [List.filter_eq_self]; intro b hb; simp [hall b hb]
      simp [hqa, this]
    | false =>
      rw [hqa] at hf
      have := ih (List.Pairwise.of_cons hd) hf
      simp [hqa]; omega

theorem Node.WF.distinct (hh : HashOk hash) {mx d : Nat} {m : Node c.n K V} (wf : m.WF hash mx d) :
    DistinctKeys m.visit := by
  induction wf with
  | S d s => simp [DistinctKeys, Node.visit, SNode.visit]
  | L d l h => exact h.keys
  | C d bits values extra hd ok sz ne at_ sub ih =>
    rw [Node.visit, visit_slots ⟨bits, values, extra⟩ ok]
    unfold DistinctKeys
    rw [List.pairwise_flatMap]
    constructor
    · intro i hi
      simp only [slotVisit]
      cases hs : (Bia.mk bits values extra).slot i with
      | none => simp
      | some m => exact ih i m hs
    · apply List.Pairwise.imp (R := fun a b => a < b) _ List.pairwise_lt_range
      intro i j hij x hx y hy
      cases hxy : x.1 == y.1 with
      | false => rfl
      | true =>
        have he := hh _ _ hxy
        simp only [slotVisit] at hx hy
        cases hsi : (Bia.mk bits values extra).slot i with
        | none => rw [hsi] at hx; simp at hx
        | some mi =>
          cases hsj : (Bia.mk bits values extra).slot j with
          | none => rw [hsj] at hy; simp at hy
          | some mj =>
            rw [hsi] at hx; rw [hsj] at hy
            have h1 := at_ i mi hsi x hx
            have h2 := at_ j mj hsj y hy
            rw [he] at h1; omega

/-! ### Branch nodes rebuilt from slots -/

/-- Entries outside position `i`. -/
def others (a : Bia c.n (Node c.n K V)) (i : Nat) : List (K × V) :=
  ((List.range c.n).filter (fun j => j != i)).flatMap (slotVisit a)

omit [BEq K] in
theorem visit_split (a : Bia c.n (Node c.n K V)) (ok : a.Ok) {i : Nat} (hi : i < c.n) :
    (Node.visitAll a.values).Perm (slotVisit a i ++ others a i) := by
  rw [visit_slots a ok]; exact flatMap_split _ _ _ hi

omit [BEq K] in
theorem others_congr {a a' : Bia c.n (Node c.n K V)} {i : Nat}
    (h : ∀ j, j ≠ i → a'.slot j = a.slot j) : others a' i = others a i := by
  unfold others
  apply flatMap_congr'
  intro j hj
  have : j ≠ i := by simpa using (List.mem_filter.1 hj).2
  simp [slotVisit, h j this]

/-- A branch node with one slot replaced (or filled). -/
theorem wf_set {mx d : Nat} {a a' : Bia c.n (Node c.n K V)} {i : Nat} {m' : Node c.n K V}
    (wf : (Node.ofBia a).WF hash mx d)
    (ok' : a'.Ok) (hs : ∀ j, a'.slot j = if j = i then some m' else a.slot j)
    (hsz : a'.extra = (Node.visitAll a'.values).length)
    (wfm : m'.WF hash mx (d + 1)) (ne : m'.visit ≠ [])
    (at' : ∀ e ∈ m'.visit, chunk c (hash e.1) d = i) :
    (Node.ofBia a').WF hash mx d := by
  unfold Node.ofBia at wf ⊢
  cases wf with
  | C _ _ _ _ hd ok sz ne0 at0 sub =>
    refine .C d _ _ _ hd ok' hsz ?_ ?_ ?_
    · intro j m hj
      rw [hs j] at hj
      split at hj
      · injection hj with hj; subst hj; exact ne
      · exact ne0 j m hj
    · intro j m hj
      rw [hs j] at hj
      split at hj
      · rename_i hji; injection hj with hj; subst hj; subst hji; exact at'
      · exact at0 j m hj
    · intro j m hj
      rw [hs j] at hj
      split at hj
      · injection hj with hj; subst hj; exact wfm
      · exact sub j m hj

/-! ### Lifting two leaves into branch nodes -/

omit [BEq K] in
/-- The recursion equation of `lift_to_cnode_and_insert`. -/
theorem liftC_unfold (m1 m2 : Node c.n K V) (f1 f2 : Flag c) :
    liftC c m1 f1 m2 f2 =
      (if f1.flag = f2.flag then (do
        let tf ← f1.next
        let tf ← Res.unwrap tf
        let rf ← f2.next
        let rf ← Res.unwrap rf
        let inner ← liftC c m1 tf m2 rf
        let a ← Bia.ofVec f1.flag [inner] (m1.size + m2.size)
        let a ← Res.unwrapE a
        Res.ok (Node.ofBia a))
      else (do
        let flags ← Res.unwrapE (bitInsert f1.flag f2.flag)
        let i ← Res.unwrapE (bitIndex flags f1.flag)
        let a ← Bia.ofVec flags (if i = 0 then [m1, m2] else [m2, m1]) (m1.size + m2.size)
        let a ← Res.unwrapE a
        Res.ok (Node.ofBia a))) := by
  rw [liftC]
  split
  · split <;> rename_i h <;> rw [h] <;> rfl
  · rfl

/-- `liftC` puts two groups of entries with different hashes under branch nodes. -/
theorem liftC_spec {mx : Nat} (lim : ∀ d, d < mx → d * c.b < c.w) (k1 k2 : K)
    (sep : Agree c mx (hash k1) (hash k2) → hash k1 = hash k2) (hne : hash k1 ≠ hash k2)
    (m1 m2 : Node c.n K V)
    (wf1 : ∀ d, m1.WF hash mx d) (wf2 : ∀ d, m2.WF hash mx d)
    (ne1 : m1.visit ≠ []) (ne2 : m2.visit ≠ [])
    (h1 : ∀ e ∈ m1.visit, hash e.1 = hash k1) (h2 : ∀ e ∈ m2.visit, hash e.1 = hash k2) (d : Nat)
    (ag : Agree c d (hash k1) (hash k2)) :
    ∃ b v z, liftC c m1 (flagAt (hash k1) d) m2 (flagAt (hash k2) d) = .ok (.C b v z) ∧
      (Node.C b v z).WF hash mx d ∧ (Node.C b v z).visit.Perm (m1.visit ++ m2.visit) := by
  have hdm : ∀ d', Agree c d' (hash k1) (hash k2) → d' < mx := by
    intro d' ag'
    rcases Nat.lt_or_ge d' mx with h | h
    · exact h
    · exact absurd (sep (fun e he => ag' e (by omega))) hne
  have hs1 := (wf1 0).size_eq
  have hs2 := (wf2 0).size_eq
  generalize hfuel : mx - d = fuel
  induction fuel generalizing d with
  | zero => have := hdm d ag; omega
  | succ fuel ih =>
    have hd := hdm d ag
    have hi1 := chunk_lt (hash k1) d
    have hi2 := chunk_lt (hash k2) d
    rw [liftC_unfold]
    by_cases heq : chunk c (hash k1) d = chunk c (hash k2) d
    · have ag' := ag.succ heq
      have hd' := hdm _ ag'
      have n1 := Flag.next_eq (hash k1) (lim _ hd')
      have n2 := Flag.next_eq (hash k2) (lim _ hd')
      simp only [flagAt] at n1 n2
      obtain ⟨b, v, z, e1, e2, e3⟩ := ih (d + 1) ag' (by omega)
      simp only [flagAt] at e1
      have okk : countOnes (bitAt c.n (chunk c (hash k2) d)) = [Node.C b v z].length := by
        rw [countOnes_bitAt hi2]; rfl
      rw [if_pos (show (flagAt (hash k1) d).flag = (flagAt (hash k2) d).flag by simp [flagAt, heq])]
      simp only [flagAt]
      simp only [n1, n2, Res.ok_bind, Res.unwrap_some, e1]
      rw [heq]
      simp only [Bia.ofVec_eq _ _ c.n_le okk, Res.ok_bind, Res.unwrapE_ok, Node.ofBia]
      · skip
        have hslot : ∀ j, (Bia.mk (bitAt c.n (chunk c (hash k2) d)) [Node.C b v z]
            (m1.size + m2.size)).slot j =
            if j = chunk c (hash k2) d then some (Node.C b v z) else none := by
          intro j
          simp only [Bia.slot, getLsbD_bitAt]
          by_cases hj : j = chunk c (hash k2) d
          · subst hj
            have : onesBelow (bitAt c.n (chunk c (hash k2) d)) (chunk c (hash k2) d) = 0 := by
              apply onesBelow_zero_of
              intro j hj
              rw [getLsbD_bitAt]; simp; omega
            simp [hi2, this]
          · have : ¬ chunk c (hash k2) d = j := fun e => hj e.symm
            simp [hj, this]
        refine ⟨_, _, _, rfl, ?_, ?_⟩
        · refine .C d _ _ _ hd okk ?_ ?_ ?_ ?_
          · rw [Node.visitAll, Node.visitAll, List.append_nil, e3.length_eq, List.length_append,
              hs1, hs2]
          · intro i m hm
            rw [hslot] at hm
            split at hm
            · injection hm with hm; subst hm
              intro he
              have := e3.length_eq
              rw [he, List.length_append] at this
              have := List.length_pos_iff.2 ne1
              simp only [List.length_nil] at *; omega
            · simp at hm
          · intro i m hm e he
            rw [hslot] at hm
            split at hm
            · rename_i hi; injection hm with hm; subst hm
              rw [hi]
              rcases List.mem_append.1 (e3.mem_iff.1 he) with h | h
              · rw [h1 e h]; exact heq
              · rw [h2 e h]
            · simp at hm
          · intro i m hm
            rw [hslot] at hm
            split at hm
            · injection hm with hm; subst hm; exact e2
            · simp at hm
        · simpa [Node.visit, Node.visitAll] using e3
    · have hbne : ¬ bitAt c.n (chunk c (hash k1) d) = bitAt c.n (chunk c (hash k2) d) :=
        fun e => heq (bitAt_inj hi1 e)
      have hg : (bitAt c.n (chunk c (hash k1) d)).getLsbD (chunk c (hash k2) d) = false := by
        rw [getLsbD_bitAt]; simp [heq]
      have hins : bitInsert (bitAt c.n (chunk c (hash k1) d)) (bitAt c.n (chunk c (hash k2) d)) =
          .ok (bitAt c.n (chunk c (hash k1) d) ||| bitAt c.n (chunk c (hash k2) d)) := by
        rw [bitInsert_bitAt _ hi2, hg]; rfl
      have hob : ∀ j, onesBelow (bitAt c.n (chunk c (hash k1) d) |||
          bitAt c.n (chunk c (hash k2) d)) j =
          onesBelow (bitAt c.n (chunk c (hash k1) d)) j + if chunk c (hash k2) d < j then 1 else 0 :=
        onesBelow_or hi2 hg
      have hz : ∀ j, j ≤ chunk c (hash k1) d → onesBelow (bitAt c.n (chunk c (hash k1) d)) j = 0 := by
        intro j hj
        apply onesBelow_zero_of
        intro j' hj'
        rw [getLsbD_bitAt]; simp; omega
      have hz1 : ∀ j, chunk c (hash k1) d < j → j ≤ c.n →
          onesBelow (bitAt c.n (chunk c (hash k1) d)) j = 1 := by
        intro j hj hjn
        have a1 := onesBelow_mono (bitAt c.n (chunk c (hash k1) d)) hj
        have a2 := onesBelow_mono (bitAt c.n (chunk c (hash k1) d)) hjn
        rw [← countOnes_eq_onesBelow, countOnes_bitAt hi1] at a2
        rw [onesBelow_succ, getLsbD_bitAt, hz _ (Nat.le_refl _)] at a1
        simp only [decide_true, hi1, Bool.and_self, if_true] at a1
        omega
      have hidx : bitIndex (bitAt c.n (chunk c (hash k1) d) ||| bitAt c.n (chunk c (hash k2) d))
          (bitAt c.n (chunk c (hash k1) d)) =
          .ok (if chunk c (hash k2) d < chunk c (hash k1) d then 1 else 0) := by
        rw [bitIndex_bitAt _ hi1, BitVec.getLsbD_or, hob, hz _ (Nat.le_refl _), getLsbD_bitAt]
        simp [hi1]
      have hcount : countOnes (bitAt c.n (chunk c (hash k1) d) ||| bitAt c.n (chunk c (hash k2) d)) = 2 := by
        rw [countOnes_eq_onesBelow, hob, ← countOnes_eq_onesBelow, countOnes_bitAt hi1]
        simp [hi2]
      rw [if_neg (show ¬ (flagAt (hash k1) d).flag = (flagAt (hash k2) d).flag from hbne)]
      simp only [flagAt, hins, Res.unwrapE_ok, Res.ok_bind, hidx]
      have fin : ∀ vals : List (Node c.n K V),
          vals = (if chunk c (hash k2) d < chunk c (hash k1) d then [m2, m1] else [m1, m2]) →
          ∃ b v z, ((Bia.ofVec (bitAt c.n (chunk c (hash k1) d) ||| bitAt c.n (chunk c (hash k2) d))
              vals (m1.size + m2.size) >>= fun a => Res.unwrapE a >>= fun a => .ok (Node.ofBia a)) =
                .ok (Node.C b v z)) ∧
            (Node.C b v z).WF hash mx d ∧ (Node.C b v z).visit.Perm (m1.visit ++ m2.visit) := by
        intro vals hv
        have okk : countOnes (bitAt c.n (chunk c (hash k1) d) ||| bitAt c.n (chunk c (hash k2) d)) =
            vals.length := by
          rw [hcount, hv]; split <;> rfl
        simp only [Bia.ofVec_eq _ _ c.n_le okk, Res.ok_bind, Res.unwrapE_ok, Node.ofBia]
        have hslot : ∀ j, (Bia.mk (bitAt c.n (chunk c (hash k1) d) |||
              bitAt c.n (chunk c (hash k2) d)) vals (m1.size + m2.size)).slot j =
            if j = chunk c (hash k1) d then some m1
            else if j = chunk c (hash k2) d then some m2 else none := by
          intro j
          simp only [Bia.slot, BitVec.getLsbD_or, getLsbD_bitAt]
          by_cases hj1 : j = chunk c (hash k1) d
          · subst hj1
            simp only [hob, hz _ (Nat.le_refl _), hi1, hv]
            by_cases hlt : chunk c (hash k2) d < chunk c (hash k1) d
            · simp [hlt]
            · simp [hlt]
          · by_cases hj2 : j = chunk c (hash k2) d
            · subst hj2
              have h1' : ¬ chunk c (hash k1) d = chunk c (hash k2) d := heq
              simp only [hob, hi2, hv, h1', hj1]
              by_cases hlt : chunk c (hash k2) d < chunk c (hash k1) d
              · simp [hlt, hz _ (Nat.le_of_lt hlt)]
              · simp [hlt, hz1 _ (show chunk c (hash k1) d < chunk c (hash k2) d by omega)
                  (Nat.le_of_lt hi2)]
            · have h1' : ¬ chunk c (hash k1) d = j := fun e => hj1 e.symm
              have h2' : ¬ chunk c (hash k2) d = j := fun e => hj2 e.symm
              simp [h1', h2', hj1, hj2]
        have hperm : (Node.visitAll vals).Perm (m1.visit ++ m2.visit) := by
          rw [hv]
          split
          · simpa [Node.visitAll] using List.perm_append_comm
          · simp [Node.visitAll]
        refine ⟨_, _, _, rfl, ?_, hperm⟩
        refine .C d _ _ _ hd okk ?_ ?_ ?_ ?_
        · rw [hperm.length_eq, List.length_append, hs1, hs2]
        · intro i m hm
          rw [hslot] at hm
          split at hm
          · injection hm with hm; subst hm; exact ne1
          · split at hm
            · injection hm with hm; subst hm; exact ne2
            · simp at hm
        · intro i m hm e he
          rw [hslot] at hm
          split at hm
          · rename_i hi; injection hm with hm; subst hm; rw [h1 e he, hi]
          · split at hm
            · rename_i hi; injection hm with hm; subst hm; rw [h2 e he, hi]
            · simp at hm
        · intro i m hm
          rw [hslot] at hm
          split at hm
          · injection hm with hm; subst hm; exact wf1 _
          · split at hm
            · injection hm with hm; subst hm; exact wf2 _
            · simp at hm
      by_cases hlt : chunk c (hash k2) d < chunk c (hash k1) d
      · simp only [hlt, if_true] at fin ⊢
        exact fin _ rfl
      · simp only [hlt, if_false] at fin ⊢
        exact fin _ rfl

/-! ### Flags handed down the tree -/

/-- The flag given to a node at depth `d`. -/
def FlagFor (h : BitVec c.w) (d : Nat) (flag : Option (Flag c)) : Prop :=
  ∃ f, flag = some f ∧ f.hashValue = h ∧ f.depth = d ∧ (d * c.b < c.w → f = flagAt h d)

theorem flagFor_flagAt (h : BitVec c.w) (d : Nat) : FlagFor h d (some (flagAt h d)) :=
  ⟨_, rfl, rfl, rfl, fun _ => rfl⟩

/-- `flag.next()` from within the hash word: a flag, or (checked builds, last level) a panic. -/
theorem next_cases (h : BitVec c.w) {d : Nat} (hd : d * c.b < c.w) :
    (∃ nx, (flagAt h d).next = .ok nx ∧ FlagFor h (d + 1) nx) ∨
      (c.checked = true ∧ c.w ≤ (d + 1) * c.b ∧ (flagAt h d).next = .panic .shiftOverflow) := by
  rcases Nat.lt_or_ge ((d + 1) * c.b) c.w with h1 | h1
  · exact .inl ⟨_, Flag.next_eq h h1, flagFor_flagAt _ _⟩
  · cases hc : c.checked with
    | true => exact .inr ⟨rfl, h1, Flag.newAtDepth_checked hc h h1 (next_lt hd)⟩
    | false =>
      obtain ⟨f, hf⟩ := Flag.newAtDepth_release hc h (next_lt hd)
      exact .inl ⟨_, hf, _, rfl, rfl, rfl, fun h2 => by omega⟩

/-! ### Collision lists -/

theorem distinct_all_ne {q : K → Bool} {h : BitVec c.w} (hq : Query hash q h) {a : K × V}
    {l : List (K × V)} (hd : DistinctKeys (a :: l)) (hqa : q a.1 = true) :
    l.filter (fun e => !q e.1) = l ∧ l.find? (fun e => q e.1) = none := by
  have hall : ∀ b ∈ l, q b.1 = false := by
    intro b hb
    have h1 := List.rel_of_pairwise_cons hd hb
    rw [← hq.cls _ _ hqa] at h1
    exact h1
  constructor
  · rw [List.filter_eq_self]; intro b hb; simp [hall b hb]
  · rw [List.find?_eq_none]; intro b hb; simp [hall b hb]

theorem LNode.removeFrom_spec {q : K → Bool} {h : BitVec c.w} (hq : Query hash q h) (l : LNode K V)
    (hd : DistinctKeys l.visit) (hs : l.SizeOk) :
    match l.removeFrom q with
    | .notFound => l.visit.find? (fun e => q e.1) = none
    | .removedL l' k v => l.visit.find? (fun e => q e.1) = some (k, v) ∧
        l'.visit = l.visit.filter (fun e => !q e.1) ∧ l'.SizeOk
    | .removedS s' k v => l.visit.find? (fun e => q e.1) = some (k, v) ∧
        s'.visit = l.visit.filter (fun e => !q e.1) := by
  induction l with
  | nextS k v s z =>
    simp only [LNode.removeFrom, LNode.visit, SNode.visit] at hd ⊢
    cases hk : q k with
    | true =>
      have := distinct_all_ne hq hd hk
      simp only [if_true, List.find?_cons, hk, List.filter_cons (x := (k, v)), this.1]
      simp
    | false =>
      cases hk' : q s.key with
      | true => simp [hk, hk', SNode.visit]
      | false => simp [hk, hk']
  | nextL k v l z ih =>
    simp only [LNode.removeFrom, LNode.visit] at hd ⊢
    simp only [LNode.SizeOk] at hs
    cases hk : q k with
    | true =>
      have := distinct_all_ne hq hd hk
      simp [hk, hs.2, this.1]
    | false =>
      have ih := ih (List.Pairwise.of_cons hd) hs.2
      simp only [Bool.false_eq_true, if_false]
      cases hr : l.removeFrom q with
      | notFound => rw [hr] at ih; simpa [hk] using ih
      | removedL l' k' v' =>
        rw [hr] at ih
        obtain ⟨h1, h2, h3⟩ := ih
        simp only [LNode.new, LNode.visit, LNode.SizeOk]
        simp only [List.find?_cons, hk, h1, h2, h3, List.filter_cons]
        simp
      | removedS s' k' v' =>
        rw [hr] at ih
        obtain ⟨h1, h2⟩ := ih
        simp only [LNode.new, LNode.visit, LNode.SizeOk]
        simp only [List.find?_cons, hk, h1, h2, List.filter_cons]
        simp

/-- Pushing a fresh key onto a collision list or single entry with the same hash. -/
theorem LNode.new_wf {k : K} {v : V} {l : LNode K V} (wf : l.WF hash) (hk : hash k = hash l.key)
    (fresh : ∀ e ∈ l.visit, (k == e.1) = false) : (LNode.new k v (.L l)).WF hash where
  size := by simp [LNode.new, LNode.SizeOk, wf.size]
  hash := by
    intro e he
    simp only [LNode.new, LNode.visit, List.mem_cons, LNode.key] at he ⊢
    rcases he with he | he
    · rw [he]
    · rw [wf.hash e he, hk]
  keys := by
    simp only [LNode.new, LNode.visit, DistinctKeys, List.pairwise_cons]
    exact ⟨fresh, wf.keys⟩

theorem LNode.new_wf_S {k : K} {v : V} {s : SNode K V} (hk : hash k = hash s.key)
    (fresh : (k == s.key) = false) : (LNode.new k v (.S s)).WF hash where
  size := by simp [LNode.new, LNode.SizeOk]
  hash := by
    intro e he
    simp only [LNode.new, LNode.visit, SNode.visit, List.mem_cons, LNode.key] at he ⊢
    rcases he with he | he | he
    · rw [he]
    · rw [he, hk]
    · simp at he
  keys := by
    simp [LNode.new, LNode.visit, SNode.visit, DistinctKeys, fresh]

/-! ### insert -/

/-- Which kinds of node `insert` can turn a node into. -/
def KindOk {n : Nat} (prev : Option (K × V)) : Node n K V → Node n K V → Prop
  | .C .., .C .. => True
  | .L _, .L _ => True
  | .L _, .C .. => prev = none
  | .S _, .S _ => prev ≠ none
  | .S _, .L _ => prev = none
  | .S _, .C .. => prev = none
  | _, _ => False

/-- What `insert` must return. -/
inductive InsGood (hash : K → BitVec c.w) (mx d : Nat) (q : K → Bool) (k : K) (v : V) (replace : Bool)
    (m : Node c.n K V) : InsertResult c.n K V → Prop
  | found (fk : K) (fv : V) : replace = false → m.visit.find? (fun e => q e.1) = some (fk, fv) →
      InsGood hash mx d q k v replace m (.found fk fv)
  | inserted (m' : Node c.n K V) (prev : Option (K × V)) :
      prev = m.visit.find? (fun e => q e.1) → (replace = false → prev = none) →
      m'.WF hash mx d → m'.visit.Perm ((k, v) :: m.visit.filter (fun e => !q e.1)) →
      KindOk prev m m' →
      InsGood hash mx d q k v replace m (.inserted m' (k, v) prev)

theorem InsGood.noprev {mx d : Nat} {q : K → Bool} {k : K} {v : V} {replace : Bool}
    {m m' : Node c.n K V} (hf : m.visit.find? (fun e => q e.1) = none) (wf : m'.WF hash mx d)
    (hp : m'.visit.Perm ((k, v) :: m.visit)) (hk : KindOk none m m') :
    InsGood hash mx d q k v replace m (.inserted m' (k, v) none) := by
  refine .inserted m' none hf.symm (fun _ => rfl) wf ?_ hk
  rw [filter_not_of_find?_none hf]; exact hp

theorem Node.insertAll_eq (q : K → Bool) (k : K) (v : V) (replace : Bool) (ms : List (Node c.n K V)) :
    Node.insertAll c hash q k v replace ms =
      ms.map (fun m nx selfSize => m.insert c hash q k v replace nx >>= m.insertStep selfSize) := by
  induction ms with
  | nil => rfl
  | cons m ms ih => rw [Node.insertAll, ih, List.map_cons]


theorem liftL_spec {mx d : Nat} (lim : ∀ d, d < mx → d * c.b < c.w) {k : K} {v : V} {q : K → Bool}
    {replace : Bool} (this : LNext K V) (m : Node c.n K V) (hm : m = this.toNode)
    (wf : ∀ d, m.WF hash mx d) (hall : ∀ e ∈ m.visit, hash e.1 = hash this.key)
    (hq : q k = true) (hcls : Query hash q (hash k))
    (sep : Agree c mx (hash this.key) (hash k) → hash this.key = hash k)
    (ag : Agree c d (hash this.key) (hash k))
    (hf : m.visit.find? (fun e => q e.1) = none)
    {f : Flag c} (hf1 : f.hashValue = hash k) (hf2 : f.depth = d) (hf3 : d * c.b < c.w → f = flagAt (hash k) d) :
    ∃ r, liftL c hash this k v f = .ok r ∧ InsGood hash mx d q k v replace m r := by
  have fresh : ∀ e ∈ m.visit, (k == e.1) = false := by
    intro e he
    have h1 := List.find?_eq_none.1 hf e he
    rw [← hcls.cls _ _ hq]; simpa using h1
  unfold liftL
  by_cases heq : hash this.key = f.hashValue
  · simp only [heq, if_true]
    refine ⟨_, rfl, ?_⟩
    rw [hf1] at heq
    cases this with
    | L l =>
      subst hm
      refine .noprev hf (.L _ _ (LNode.new_wf ?_ heq.symm fresh)) ?_ ?_
      · cases wf 0 with | L _ _ h => exact h
      · simp [LNode.new, Node.visit, LNode.visit, LNext.toNode]
      · simp [KindOk, LNext.toNode]
    | S s =>
      subst hm
      refine .noprev hf (.L _ _ (LNode.new_wf_S heq.symm (fresh (s.key, s.value) ?_))) ?_ ?_
      · simp [LNext.toNode, Node.visit, SNode.visit]
      · simp [LNode.new, Node.visit, LNode.visit, LNext.toNode]
      · simp [KindOk, LNext.toNode]
  · have hne : hash this.key ≠ hash k := by rw [← hf1]; exact heq
    have hlt := ag.lt_of_ne hne
    have hff := hf3 hlt
    subst hff
    simp only [heq, if_false]
    have hd : (flagAt (hash k) d).depth = d := rfl
    rw [hd, Flag.newAtDepth_eq _ hlt]
    simp only [Res.ok_bind, Res.unwrap_some]
    have nem : m.visit ≠ [] := by
      subst hm
      cases this <;> simp [LNext.toNode, Node.visit, SNode.visit, LNode.visit_ne_nil]
    obtain ⟨b, vs, z, e1, e2, e3⟩ := liftC_spec (hash := hash) lim this.key k sep hne m (.S ⟨k, v⟩) wf
      (fun d => .S d _) nem (by simp [Node.visit, SNode.visit]) hall
      (by simp [Node.visit, SNode.visit]) d ag
    rw [← hm, e1]
    refine ⟨_, rfl, .noprev hf e2 ?_ ?_⟩
    · exact e3.trans List.perm_append_comm
    · subst hm; cases this <;> simp [KindOk, LNext.toNode]

/-- `insert` on a node. -/
theorem Node.insert_spec {mx d : Nat} (lim : ∀ d, d < mx → d * c.b < c.w) (hh : HashOk hash)
    {q : K → Bool} {k : K} (v : V) (replace : Bool) (hq : Query hash q (hash k)) (hqk : q k = true)
    {m : Node c.n K V} (wf : m.WF hash mx d)
    (sep : ∀ e ∈ m.visit, Agree c mx (hash e.1) (hash k) → hash e.1 = hash k)
    (ag : ∀ e ∈ m.visit, Agree c d (hash e.1) (hash k))
    {flag : Option (Flag c)} (hf : FlagFor (hash k) d flag) :
    (∃ r, m.insert c hash q k v replace flag = .ok r ∧ InsGood hash mx d q k v replace m r) ∨
      (c.checked = true ∧ c.w ≤ mx * c.b ∧
        m.insert c hash q k v replace flag = .panic .shiftOverflow) := by
  induction wf generalizing flag with
  | S d s =>
    left
    rw [Node.insert, SNode.insert]
    obtain ⟨f, rfl, hf1, hf2, hf3⟩ := hf
    cases hqs : q s.key with
    | true =>
      cases replace with
      | true =>
        refine ⟨_, rfl, .inserted _ _ ?_ (by simp) (.S _ _) ?_ ?_⟩
        · simp [Node.visit, SNode.visit, hqs]
        · simp [Node.visit, SNode.visit, hqs]
        · simp [KindOk]
      | false =>
        exact ⟨_, rfl, .found _ _ rfl (by simp [Node.visit, SNode.visit, hqs])⟩
    | false =>
      simp only [Bool.false_eq_true, if_false, Res.unwrap_some, Res.ok_bind]
      refine liftL_spec lim (.S s) (.S s) rfl (fun d => .S d s) ?_ hqk hq ?_ ?_ ?_ hf1 hf2 hf3
      · simp [Node.visit, SNode.visit, LNext.key]
      · exact sep (s.key, s.value) (by simp [Node.visit, SNode.visit])
      · exact ag (s.key, s.value) (by simp [Node.visit, SNode.visit])
      · simp [Node.visit, SNode.visit, hqs]
  | L d l wl =>
    left
    rw [Node.insert, LNode.insert]
    obtain ⟨f, rfl, hf1, hf2, hf3⟩ := hf
    have hkey : (l.key, l.value) ∈ l.visit := by cases l <;> simp [LNode.visit, LNode.key, LNode.value]
    rw [LNode.find_eq]
    cases hfd : l.visit.find? (fun e => q e.1) with
    | none =>
      simp only [Res.unwrap_some, Res.ok_bind]
      refine liftL_spec lim (.L l) (.L l) rfl (fun d => .L d l wl) wl.hash hqk hq ?_ ?_ hfd hf1 hf2 hf3
      · exact sep (l.key, l.value) hkey
      · exact ag (l.key, l.value) hkey
    | some e =>
      obtain ⟨fk, fv⟩ := e
      have hqf : q fk = true := by simpa using List.find?_some hfd
      cases replace with
      | false => exact ⟨_, rfl, .found _ _ rfl hfd⟩
      | true =>
        have hr := LNode.removeFrom_spec hq l wl.keys wl.size
        have hlk : hash k = hash l.key := by
          rw [← wl.hash _ (List.mem_of_find?_eq_some hfd), hq.hash _ hqf]
        simp only [if_true]
        have hfresh : ∀ e ∈ l.visit.filter (fun e => !q e.1), (k == e.1) = false := by
          intro e he
          have := (List.mem_filter.1 he).2
          rw [← hq.cls _ _ hqk]; simpa using this
        cases hrr : l.removeFrom q with
        | notFound => rw [hrr] at hr; simp only at hr; rw [hr] at hfd; simp at hfd
        | removedL l' k' v' =>
          rw [hrr] at hr
          obtain ⟨h1, h2, h3⟩ := hr
          refine ⟨_, rfl, .inserted _ _ h1.symm (by simp) (.L _ _ ?_) ?_ ?_⟩
          · have hk'' : hash l'.key = hash l.key := by
              have : (l'.key, l'.value) ∈ l'.visit := by
                cases l' <;> simp [LNode.visit, LNode.key, LNode.value]
              rw [h2] at this
              exact wl.hash _ (List.mem_filter.1 this).1
            refine LNode.new_wf ⟨h3, ?_, ?_⟩ ?_ ?_
            · intro e he
              rw [h2] at he
              rw [hk'', wl.hash _ (List.mem_filter.1 he).1]
            · rw [h2]; exact List.Pairwise.filter _ wl.keys
            · rw [hk'', hlk]
            · rw [h2]; exact hfresh
          · simp only [LNode.new, Node.visit, LNode.visit, h2]; exact List.Perm.refl _
          · simp [KindOk]
        | removedS s' k' v' =>
          rw [hrr] at hr
          obtain ⟨h1, h2⟩ := hr
          have hmem : (s'.key, s'.value) ∈ l.visit.filter (fun e => !q e.1) := by
            rw [← h2]; simp [SNode.visit]
          refine ⟨_, rfl, .inserted _ _ h1.symm (by simp) (.L _ _ ?_) ?_ ?_⟩
          · apply LNode.new_wf_S
            · rw [wl.hash _ (List.mem_filter.1 hmem).1, hlk]
            · exact hfresh _ hmem
          · simp only [LNode.new, Node.visit, LNode.visit, h2]; exact List.Perm.refl _
          · simp [KindOk]
  | C d bits values extra hd ok sz ne at_ sub ih =>
    have wfC : (Node.ofBia ⟨bits, values, extra⟩).WF hash mx d := .C d bits values extra hd ok sz ne at_ sub
    obtain ⟨f, rfl, hf1, hf2, hf3⟩ := hf
    have hlt := lim d hd
    have hff := hf3 hlt
    subst hff
    rw [Node.insert]
    simp only [Res.unwrap_some, Res.ok_bind]
    have hi := chunk_lt (hash k) d
    have ok' : (Bia.mk bits (Node.insertAll c hash q k v replace values) extra).Ok := by
      rw [Node.insertAll_eq]; simpa [Bia.Ok] using ok
    rw [show (flagAt (hash k) d).flag = bitAt c.n (chunk c (hash k) d) from rfl,
      Bia.at'_bitAt _ ok' hi, Node.insertAll_eq, Bia.slot_map]
    have hlook := lookup_C (a := ⟨bits, values, extra⟩) hq ok at_
    have hsplit := visit_split ⟨bits, values, extra⟩ ok hi
    have hoth : (others ⟨bits, values, extra⟩ (chunk c (hash k) d)).filter (fun e => !q e.1) =
        others ⟨bits, values, extra⟩ (chunk c (hash k) d) := by
      rw [List.filter_eq_self]
      intro e he
      unfold others at he
      obtain ⟨j, hj, he⟩ := List.mem_flatMap.1 he
      have hj : j ≠ chunk c (hash k) d := by simpa using (List.mem_filter.1 hj).2
      simp [slot_no_match hq at_ hj e he]
    cases hs : (Bia.mk bits values extra).slot (chunk c (hash k) d) with
    | none =>
      left
      have hnone : slotVisit (Bia.mk bits values extra) (chunk c (hash k) d) = [] := by
        simp [slotVisit, hs]
      simp only [Option.map_none]
      have e1 := Bia.inserted_eq ⟨bits, values, extra⟩ ok c.n_le hi hs (Node.S ⟨k, v⟩) (extra + 1)
      have e2 := Bia.slot_inserted ⟨bits, values, extra⟩ ok hi hs (Node.S ⟨k, v⟩) (extra + 1)
      have e3 := Bia.ok_inserted ⟨bits, values, extra⟩ ok hi hs (Node.S ⟨k, v⟩) (extra + 1)
      simp only [e1, Res.ok_bind, Res.unwrapE_ok]
      refine ⟨_, rfl, ?_⟩
      rw [hnone] at hlook hsplit
      have hp := visit_split _ e3 hi
      rw [others_congr (a := ⟨bits, values, extra⟩) (fun j hj => by rw [e2]; simp [hj]), slotVisit, e2] at hp
      simp only [if_true, Node.visit, SNode.visit] at hp
      have hperm : (Node.visitAll (values.insertIdx (onesBelow bits (chunk c (hash k) d)) (Node.S ⟨k, v⟩))).Perm
          ((k, v) :: Node.visitAll values) := by
        refine hp.trans ?_
        simpa using hsplit.symm
      refine .noprev ?_ (wf_set wfC e3 e2 ?_ (.S _ _) ?_ ?_) ?_ ?_
      · rw [Node.visit]; exact hlook
      · show extra + 1 = _
        rw [hperm.length_eq, sz]; rfl
      · simp [Node.visit, SNode.visit]
      · simp [Node.visit, SNode.visit]
      · simpa [Node.ofBia, Node.visit] using hperm
      · simp [KindOk, Node.ofBia]
    | some m1 =>
      simp only [Option.map_some]
      rcases next_cases (hash k) hlt with ⟨nx, hnx, hnf⟩ | ⟨hc, hw, hnx⟩
      · have hsub : ∀ e ∈ m1.visit, e ∈ (Node.C bits values extra).visit := by
          intro e he
          rw [Node.visit]
          refine hsplit.mem_iff.2 (List.mem_append_left _ ?_)
          simpa [slotVisit, hs] using he
        have hag : ∀ e ∈ m1.visit, Agree c (d + 1) (hash e.1) (hash k) := by
          intro e he
          exact (ag e (hsub e he)).succ (at_ _ _ hs e he)
        simp only [hnx, Res.ok_bind]
        have hsv : slotVisit (Bia.mk bits values extra) (chunk c (hash k) d) = m1.visit := by
          simp [slotVisit, hs]
        rw [hsv] at hlook hsplit
        rcases ih _ _ hs (fun e he => sep e (hsub e he)) hag hnf with ⟨r, hr, good⟩ | ⟨h1, h2, h3⟩
        · left
          rw [hr]
          simp only [Res.ok_bind]
          cases good with
          | found fk fv h1 h2 =>
            refine ⟨_, rfl, .found _ _ h1 ?_⟩
            rw [Node.visit, hlook, h2]
          | inserted m' prev h1 h2 h3 h4 h5 =>
            have hsz1 := (sub _ _ hs).size_eq
            have hsz2 := h3.size_eq
            have hdist := (sub _ _ hs).distinct hh
            have hsl := hsplit.length_eq
            rw [List.length_append] at hsl
            have hsl' : extra = m1.visit.length +
                (others ⟨bits, values, extra⟩ (chunk c (hash k) d)).length := by rw [sz]; exact hsl
            have hfl : prev = none → m'.visit.length = m1.visit.length + 1 := by
              intro hp
              rw [h4.length_eq, List.length_cons, filter_not_of_find?_none (by rw [← h1, hp])]
            have hfl2 : prev ≠ none → m'.visit.length = m1.visit.length := by
              intro hp
              obtain ⟨e, he⟩ := Option.ne_none_iff_exists'.1 hp
              rw [h4.length_eq, List.length_cons]
              exact length_filter_query hq hdist (by rw [← h1, he])
            have hstep : m1.insertStep extra (.inserted m' (k, v) prev) =
                .ok (.inr (m', extra + m'.visit.length - m1.visit.length, (k, v), prev)) := by
              unfold Node.insertStep
              cases m1 <;> cases m' <;> simp only [KindOk] at h5 <;> simp only [hsz1, hsz2]
              · rw [usub, if_pos (by omega)]; rfl
              · have := hfl h5
                rw [show extra + _ - _ = extra + 1 by omega]
              · rw [usub, if_pos (by omega)]; rfl
              · have := hfl h5
                rw [show extra + _ - _ = extra + 1 by omega]
              · have := hfl h5
                rw [show extra + _ - _ = extra + 1 by omega]
              · have := hfl2 h5
                rw [show extra + _ - _ = extra by omega]
            rw [hstep]
            simp only [Res.ok_bind]
            generalize hz : extra + m'.visit.length - m1.visit.length = z
            have e1 := Bia.updated_eq ⟨bits, values, extra⟩ ok c.n_le hs m' z
            have e2 := Bia.slot_updated ⟨bits, values, extra⟩ ok hs m' z
            have e3 := Bia.ok_updated ⟨bits, values, extra⟩ ok (onesBelow bits (chunk c (hash k) d)) m' z
            simp only [e1, Res.ok_bind, Res.unwrapE_ok]
            refine ⟨_, rfl, ?_⟩
            have hp := visit_split _ e3 hi
            rw [others_congr (a := ⟨bits, values, extra⟩) (fun j hj => by rw [e2]; simp [hj]), slotVisit,
              e2] at hp
            simp only [if_true] at hp
            have hm'mem : ∀ e ∈ m'.visit, e = (k, v) ∨ e ∈ m1.visit := by
              intro e he
              have := h4.mem_iff.1 he
              rcases List.mem_cons.1 this with h | h
              · exact .inl h
              · exact .inr (List.mem_filter.1 h).1
            refine .inserted _ _ ?_ h2 (wf_set wfC e3 e2 ?_ h3 ?_ ?_) ?_ ?_
            · rw [h1, Node.visit, hlook]
            · show z = _
              rw [hp.length_eq, List.length_append, ← hz]
              omega
            · intro h
              have := h4.length_eq
              rw [h] at this; simp at this
            · intro e he
              rcases hm'mem e he with h | h
              · rw [h]
              · exact at_ _ _ hs e h
            · show (Node.visitAll _).Perm _
              refine hp.trans ?_
              rw [Node.visit]
              refine (List.Perm.append_right _ h4).trans ?_
              have := List.Perm.filter (fun e : K × V => !q e.1) hsplit
              rw [List.filter_append, hoth] at this
              simpa using this.symm
            · simp [KindOk, Node.ofBia]
        · right
          refine ⟨h1, h2, ?_⟩
          rw [h3]; rfl
      · right
        refine ⟨hc, Nat.le_trans hw (Nat.mul_le_mul_right _ hd), ?_⟩
        rw [hnx]; rfl

end
end HT
