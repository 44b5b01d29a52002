import Verif.BulkLemmas
/-!
# Keys whose equality is unlawful

The operations again, knowing about the test `stored_key == lookup_key` only that it holds of no key
with another hash.  The invariant is that of `Wf.lean` taken with an equality that never holds, which
leaves out of it everything about equality.
-/
namespace HT.Lawless

/-- The equality that never holds. -/
def noEq (K : Type) : BEq K := ⟨fun _ _ => false⟩

/-- A test that holds only of keys with hash `h`. -/
abbrev Sees {K : Type} {w : Nat} (hash : K → BitVec w) (q : K → Bool) (h : BitVec w) : Prop :=
  ∀ x, q x = true → hash x = h

section
variable {K V : Type} {c : Cfg} {hash : K → BitVec c.w}
attribute [local instance] noEq

theorem keys_any (l : List (K × V)) : DistinctKeys l := by
  induction l with
  | nil => exact List.Pairwise.nil
  | cons a l ih => exact List.Pairwise.cons (fun _ _ => rfl) ih

theorem eraseP_none {α : Type} {p : α → Bool} {l : List α} (h : l.find? p = none) :
    l.eraseP p = l := by
  rw [List.eraseP_of_forall_not]
  intro a ha
  simpa using List.find?_eq_none.1 h a ha

theorem length_eraseP {α : Type} {p : α → Bool} {l : List α} {e : α} (h : l.find? p = some e) :
    (l.eraseP p).length + 1 = l.length := by
  have hm := List.mem_of_find?_eq_some h
  have hp := List.find?_some h
  rw [List.length_eraseP_of_mem hm hp]
  have := List.length_pos_of_mem hm
  omega

theorem eraseP_append {α : Type} {p : α → Bool} {l r : List α} (h : ∀ e ∈ r, p e = false) :
    (l ++ r).eraseP p = l.eraseP p ++ r := by
  induction l with
  | nil =>
    rw [List.nil_append, List.eraseP_of_forall_not]
    · rfl
    · intro a ha; simp [h a ha]
  | cons a l ih =>
    rw [List.cons_append, List.eraseP_cons, List.eraseP_cons]
    cases p a <;> simp [ih]

theorem eraseP_flatMap {α : Type} (l : List Nat) (hl : l.Nodup) (g g' : Nat → List α) (p : α → Bool) (i : Nat)
    (h : ∀ j, j ∈ l → j ≠ i → g' j = g j ∧ ∀ e ∈ g j, p e = false) (hi : g' i = (g i).eraseP p) :
    i ∈ l → l.flatMap g' = (l.flatMap g).eraseP p := by
  induction l with
  | nil => intro h; simp at h
  | cons j l ih =>
    intro hm
    rw [List.flatMap_cons, List.flatMap_cons]
    have hl' := List.nodup_cons.1 hl
    by_cases hj : j = i
    · subst hj
      rw [eraseP_append, hi]
      · congr 1
        apply flatMap_congr'
        intro x hx
        exact (h x (List.mem_cons_of_mem _ hx) (fun e => hl'.1 (e ▸ hx))).1
      · intro e he
        obtain ⟨x, hx, he⟩ := List.mem_flatMap.1 he
        exact (h x (List.mem_cons_of_mem _ hx) (fun e => hl'.1 (e ▸ hx))).2 e he
    · have h1 := h j (List.mem_cons_self ..) hj
      rw [List.eraseP_append_right, h1.1]
      · congr 1
        apply ih hl'.2 (fun x hx => h x (List.mem_cons_of_mem _ hx))
        rcases List.mem_cons.1 hm with e | e
        · exact absurd e.symm hj
        · exact e
      · intro e he; simp [h1.2 e he]

theorem lnode_removeFrom_spec {q : K → Bool} (l : LNode K V)
    (hs : l.SizeOk) :
    match l.removeFrom q with
    | .notFound => l.visit.find? (fun e => q e.1) = none
    | .removedL l' k v => l.visit.find? (fun e => q e.1) = some (k, v) ∧
        l'.visit = l.visit.eraseP (fun e => q e.1) ∧ l'.SizeOk
    | .removedS s' k v => l.visit.find? (fun e => q e.1) = some (k, v) ∧
        s'.visit = l.visit.eraseP (fun e => q e.1) := by
  induction l with
  | nextS k v s z =>
    simp only [LNode.removeFrom, LNode.visit, SNode.visit] at ⊢
    cases hk : q k with
    | true =>
      simp [hk, List.eraseP_cons, SNode.visit]
    | false =>
      cases hk' : q s.key with
      | true => simp [hk, hk', SNode.visit]
      | false => simp [hk, hk']
  | nextL k v l z ih =>
    simp only [LNode.removeFrom, LNode.visit] at ⊢
    simp only [LNode.SizeOk] at hs
    cases hk : q k with
    | true =>
      simp [hk, hs.2, List.eraseP_cons]
    | false =>
      have ih := ih hs.2
      simp only [Bool.false_eq_true, if_false]
      cases hr : l.removeFrom q with
      | notFound => rw [hr] at ih; simpa [hk] using ih
      | removedL l' k' v' =>
        rw [hr] at ih
        obtain ⟨h1, h2, h3⟩ := ih
        simp only [LNode.new, LNode.visit, LNode.SizeOk]
        simp only [List.find?_cons, hk, h1, h2, h3, List.eraseP_cons]
        simp
      | removedS s' k' v' =>
        rw [hr] at ih
        obtain ⟨h1, h2⟩ := ih
        simp only [LNode.new, LNode.visit, LNode.SizeOk]
        simp only [List.find?_cons, hk, h1, h2, List.eraseP_cons]
        simp

/-- Erasing below a branch node changes only the slot of the hash. -/
theorem erase_C {q : K → Bool} {h : BitVec c.w} (hq : Sees hash q h) {d : Nat}
    {a a' : Bia c.n (Node c.n K V)} (ok : a.Ok) (ok' : a'.Ok)
    (at_ : ∀ i m, a.slot i = some m → ∀ e ∈ m.visit, chunk c (hash e.1) d = i)
    (hne : ∀ j, j ≠ chunk c h d → a'.slot j = a.slot j)
    (he : slotVisit a' (chunk c h d) = (slotVisit a (chunk c h d)).eraseP (fun e => q e.1)) :
    Node.visitAll a'.values = (Node.visitAll a.values).eraseP (fun e => q e.1) := by
  rw [visit_slots a ok, visit_slots a' ok']
  refine eraseP_flatMap _ List.nodup_range _ _ _ (chunk c h d) ?_ he (List.mem_range.2 (chunk_lt h d))
  intro j _ hj
  exact ⟨by simp [slotVisit, hne j hj], slot_no_match' hq at_ hj⟩

theorem erase_split {q : K → Bool} {h : BitVec c.w} (hq : Sees hash q h) {d : Nat}
    {a : Bia c.n (Node c.n K V)} (ok : a.Ok)
    (at_ : ∀ i m, a.slot i = some m → ∀ e ∈ m.visit, chunk c (hash e.1) d = i) :
    ((Node.visitAll a.values).eraseP (fun e => q e.1)).Perm
      ((slotVisit a (chunk c h d)).eraseP (fun e => q e.1) ++ others a (chunk c h d)) := by
  have hi := chunk_lt h d
  rw [visit_slots a ok]
  let g' : Nat → List (K × V) := fun j =>
    if j = chunk c h d then (slotVisit a j).eraseP (fun e => q e.1) else slotVisit a j
  rw [← eraseP_flatMap (List.range c.n) List.nodup_range (slotVisit a) g' _ (chunk c h d) ?_ (by simp [g'])
    (List.mem_range.2 hi)]
  · refine (flatMap_split _ _ _ hi).trans ?_
    have h1 : g' (chunk c h d) = (slotVisit a (chunk c h d)).eraseP (fun e => q e.1) := by simp [g']
    rw [h1, others, flatMap_congr' _ g' (slotVisit a)]
    intro j hj
    have : j ≠ chunk c h d := by simpa using (List.mem_filter.1 hj).2
    simp [g', this]
  · intro j _ hj
    exact ⟨by simp [g', hj], slot_no_match' hq at_ hj⟩

/-- What `insert` must return. -/
inductive InsGood (hash : K → BitVec c.w) (mx d : Nat) (q : K → Bool) (k : K) (v : V) (replace : Bool)
    (m : Node c.n K V) : InsertResult c.n K V → Prop
  | found (fk : K) (fv : V) : replace = false → m.visit.find? (fun e => q e.1) = some (fk, fv) →
      InsGood hash mx d q k v replace m (.found fk fv)
  | inserted (m' : Node c.n K V) (prev : Option (K × V)) :
      prev = m.visit.find? (fun e => q e.1) → (replace = false → prev = none) →
      m'.WF hash mx d → m'.visit.Perm ((k, v) :: m.visit.eraseP (fun e => q e.1)) →
      KindOk prev m m' →
      InsGood hash mx d q k v replace m (.inserted m' (k, v) prev)

theorem InsGood.noprev {mx d : Nat} {q : K → Bool} {k : K} {v : V} {replace : Bool}
    {m m' : Node c.n K V} (hf : m.visit.find? (fun e => q e.1) = none) (wf : m'.WF hash mx d)
    (hp : m'.visit.Perm ((k, v) :: m.visit)) (hk : KindOk none m m') :
    InsGood hash mx d q k v replace m (.inserted m' (k, v) none) := by
  refine .inserted m' none hf.symm (fun _ => rfl) wf ?_ hk
  rw [eraseP_none hf]; exact hp

theorem liftL_spec {mx d : Nat} (lim : ∀ d, d < mx → d * c.b < c.w) {k : K} {v : V} {q : K → Bool}
    {replace : Bool} (this : LNext K V) (m : Node c.n K V) (hm : m = this.toNode)
    (wf : ∀ d, m.WF hash mx d) (hall : ∀ e ∈ m.visit, hash e.1 = hash this.key)
    (sep : Agree c mx (hash this.key) (hash k) → hash this.key = hash k)
    (ag : Agree c d (hash this.key) (hash k))
    (hf : m.visit.find? (fun e => q e.1) = none)
    {f : Flag c} (hf1 : f.hashValue = hash k) (hf2 : f.depth = d) (hf3 : d * c.b < c.w → f = flagAt (hash k) d) :
    ∃ r, liftL c hash this k v f = .ok r ∧ InsGood hash mx d q k v replace m r := by
  have fresh : ∀ e ∈ m.visit, (k == e.1) = false := fun _ _ => rfl
  unfold liftL
  by_cases heq : hash this.key = f.hashValue
  · simp only [heq, if_true]
    refine ⟨_, rfl, ?_⟩
    rw [hf1] at heq
    cases this with
    | L l =>
      subst hm
      refine .noprev hf (.L _ _ (LNode.new_wf ?_ heq.symm fresh)) ?_ ?_
      · cases wf 0 with | L _ _ h => exact h
      · simp [LNode.new, Node.visit, LNode.visit, LNext.toNode]
      · simp [KindOk, LNext.toNode]
    | S s =>
      subst hm
      refine .noprev hf (.L _ _ (LNode.new_wf_S heq.symm (fresh (s.key, s.value) ?_))) ?_ ?_
      · simp [LNext.toNode, Node.visit, SNode.visit]
      · simp [LNode.new, Node.visit, LNode.visit, LNext.toNode]
      · simp [KindOk, LNext.toNode]
  · have hne : hash this.key ≠ hash k := by rw [← hf1]; exact heq
    have hlt := ag.lt_of_ne hne
    have hff := hf3 hlt
    subst hff
    simp only [heq, if_false]
    have hd : (flagAt (hash k) d).depth = d := rfl
    rw [hd, Flag.newAtDepth_eq _ hlt]
    simp only [Res.ok_bind, Res.unwrap_some]
    have nem : m.visit ≠ [] := by
      subst hm
      cases this <;> simp [LNext.toNode, Node.visit, SNode.visit, LNode.visit_ne_nil]
    obtain ⟨b, vs, z, e1, e2, e3⟩ := liftC_spec (hash := hash) lim this.key k sep hne m (.S ⟨k, v⟩) wf
      (fun d => .S d _) nem (by simp [Node.visit, SNode.visit]) hall
      (by simp [Node.visit, SNode.visit]) d ag
    rw [← hm, e1]
    refine ⟨_, rfl, .noprev hf e2 ?_ ?_⟩
    · exact e3.trans List.perm_append_comm
    · subst hm; cases this <;> simp [KindOk, LNext.toNode]

/-- `insert` on a node. -/
theorem node_insert_spec {mx d : Nat} (lim : ∀ d, d < mx → d * c.b < c.w)
    {q : K → Bool} {k : K} (v : V) (replace : Bool) (hq : Sees hash q (hash k))
    {m : Node c.n K V} (wf : m.WF hash mx d)
    (sep : ∀ e ∈ m.visit, Agree c mx (hash e.1) (hash k) → hash e.1 = hash k)
    (ag : ∀ e ∈ m.visit, Agree c d (hash e.1) (hash k))
    {flag : Option (Flag c)} (hf : FlagFor (hash k) d flag) :
    (∃ r, m.insert c hash q k v replace flag = .ok r ∧ InsGood hash mx d q k v replace m r) ∨
      (c.checked = true ∧ c.w ≤ mx * c.b ∧
        m.insert c hash q k v replace flag = .panic .shiftOverflow) := by
  induction wf generalizing flag with
  | S d s =>
    left
    rw [Node.insert, SNode.insert]
    obtain ⟨f, rfl, hf1, hf2, hf3⟩ := hf
    cases hqs : q s.key with
    | true =>
      cases replace with
      | true =>
        refine ⟨_, rfl, .inserted _ _ ?_ (by simp) (.S _ _) ?_ ?_⟩
        · simp [Node.visit, SNode.visit, hqs]
        · simp [Node.visit, SNode.visit, hqs]
        · simp [KindOk]
      | false =>
        exact ⟨_, rfl, .found _ _ rfl (by simp [Node.visit, SNode.visit, hqs])⟩
    | false =>
      simp only [Bool.false_eq_true, if_false, Res.unwrap_some, Res.ok_bind]
      refine liftL_spec lim (.S s) (.S s) rfl (fun d => .S d s) ?_ ?_ ?_ ?_ hf1 hf2 hf3
      · simp [Node.visit, SNode.visit, LNext.key]
      · exact sep (s.key, s.value) (by simp [Node.visit, SNode.visit])
      · exact ag (s.key, s.value) (by simp [Node.visit, SNode.visit])
      · simp [Node.visit, SNode.visit, hqs]
  | L d l wl =>
    left
    rw [Node.insert, LNode.insert]
    obtain ⟨f, rfl, hf1, hf2, hf3⟩ := hf
    have hkey : (l.key, l.value) ∈ l.visit := by cases l <;> simp [LNode.visit, LNode.key, LNode.value]
    rw [LNode.find_eq]
    cases hfd : l.visit.find? (fun e => q e.1) with
    | none =>
      simp only [Res.unwrap_some, Res.ok_bind]
      refine liftL_spec lim (.L l) (.L l) rfl (fun d => .L d l wl) wl.hash ?_ ?_ hfd hf1 hf2 hf3
      · exact sep (l.key, l.value) hkey
      · exact ag (l.key, l.value) hkey
    | some e =>
      obtain ⟨fk, fv⟩ := e
      have hqf : q fk = true := by simpa using List.find?_some hfd
      cases replace with
      | false => exact ⟨_, rfl, .found _ _ rfl hfd⟩
      | true =>
        have hr := lnode_removeFrom_spec (q := q) l wl.size
        have hlk : hash k = hash l.key := by
          rw [← wl.hash _ (List.mem_of_find?_eq_some hfd), hq _ hqf]
        simp only [if_true]
        have hfresh : ∀ e ∈ l.visit.eraseP (fun e => q e.1), (k == e.1) = false := fun _ _ => rfl
        cases hrr : l.removeFrom q with
        | notFound => rw [hrr] at hr; simp only at hr; rw [hr] at hfd; simp at hfd
        | removedL l' k' v' =>
          rw [hrr] at hr
          obtain ⟨h1, h2, h3⟩ := hr
          refine ⟨_, rfl, .inserted _ _ h1.symm (by simp) (.L _ _ ?_) ?_ ?_⟩
          · have hk'' : hash l'.key = hash l.key := by
              have : (l'.key, l'.value) ∈ l'.visit := by
                cases l' <;> simp [LNode.visit, LNode.key, LNode.value]
              rw [h2] at this
              exact wl.hash _ (List.mem_of_mem_eraseP this)
            refine LNode.new_wf ⟨h3, ?_, ?_⟩ ?_ ?_
            · intro e he
              rw [h2] at he
              rw [hk'', wl.hash _ (List.mem_of_mem_eraseP he)]
            · rw [h2]; exact keys_any _
            · rw [hk'', hlk]
            · rw [h2]; exact hfresh
          · simp only [LNode.new, Node.visit, LNode.visit, h2]; exact List.Perm.refl _
          · simp [KindOk]
        | removedS s' k' v' =>
          rw [hrr] at hr
          obtain ⟨h1, h2⟩ := hr
          have hmem : (s'.key, s'.value) ∈ l.visit.eraseP (fun e => q e.1) := by
            rw [← h2]; simp [SNode.visit]
          refine ⟨_, rfl, .inserted _ _ h1.symm (by simp) (.L _ _ ?_) ?_ ?_⟩
          · apply LNode.new_wf_S
            · rw [wl.hash _ (List.mem_of_mem_eraseP hmem), hlk]
            · exact hfresh _ hmem
          · simp only [LNode.new, Node.visit, LNode.visit, h2]; exact List.Perm.refl _
          · simp [KindOk]
  | C d bits values extra hd ok sz ne at_ sub ih =>
    have wfC : (Node.ofBia ⟨bits, values, extra⟩).WF hash mx d := .C d bits values extra hd ok sz ne at_ sub
    obtain ⟨f, rfl, hf1, hf2, hf3⟩ := hf
    have hlt := lim d hd
    have hff := hf3 hlt
    subst hff
    rw [Node.insert]
    simp only [Res.unwrap_some, Res.ok_bind]
    have hi := chunk_lt (hash k) d
    have ok' : (Bia.mk bits (Node.insertAll c hash q k v replace values) extra).Ok := by
      rw [Node.insertAll_eq]; simpa [Bia.Ok] using ok
    rw [show (flagAt (hash k) d).flag = bitAt c.n (chunk c (hash k) d) from rfl,
      Bia.at'_bitAt _ ok' hi, Node.insertAll_eq, Bia.slot_map]
    have hlook := lookup_C' (a := ⟨bits, values, extra⟩) hq ok at_
    have hsplit := visit_split ⟨bits, values, extra⟩ ok hi
    have hers := erase_split (a := ⟨bits, values, extra⟩) hq ok at_
    cases hs : (Bia.mk bits values extra).slot (chunk c (hash k) d) with
    | none =>
      left
      have hnone : slotVisit (Bia.mk bits values extra) (chunk c (hash k) d) = [] := by
        simp [slotVisit, hs]
      simp only [Option.map_none]
      have e1 := Bia.inserted_eq ⟨bits, values, extra⟩ ok c.n_le hi hs (Node.S ⟨k, v⟩) (extra + 1)
      have e2 := Bia.slot_inserted ⟨bits, values, extra⟩ ok hi hs (Node.S ⟨k, v⟩) (extra + 1)
      have e3 := Bia.ok_inserted ⟨bits, values, extra⟩ ok hi hs (Node.S ⟨k, v⟩) (extra + 1)
      simp only [e1, Res.ok_bind, Res.unwrapE_ok]
      refine ⟨_, rfl, ?_⟩
      rw [hnone] at hlook hsplit
      have hp := visit_split _ e3 hi
      rw [others_congr (a := ⟨bits, values, extra⟩) (fun j hj => by rw [e2]; simp [hj]), slotVisit, e2] at hp
      simp only [if_true, Node.visit, SNode.visit] at hp
      have hperm : (Node.visitAll (values.insertIdx (onesBelow bits (chunk c (hash k) d)) (Node.S ⟨k, v⟩))).Perm
          ((k, v) :: Node.visitAll values) := by
        refine hp.trans ?_
        simpa using hsplit.symm
      refine .noprev ?_ (wf_set wfC e3 e2 ?_ (.S _ _) ?_ ?_) ?_ ?_
      · rw [Node.visit]; exact hlook
      · show extra + 1 = _
        rw [hperm.length_eq, sz]; rfl
      · simp [Node.visit, SNode.visit]
      · simp [Node.visit, SNode.visit]
      · simpa [Node.ofBia, Node.visit] using hperm
      · simp [KindOk, Node.ofBia]
    | some m1 =>
      simp only [Option.map_some]
      rcases next_cases (hash k) hlt with ⟨nx, hnx, hnf⟩ | ⟨hc, hw, hnx⟩
      · have hsub : ∀ e ∈ m1.visit, e ∈ (Node.C bits values extra).visit := by
          intro e he
          rw [Node.visit]
          refine hsplit.mem_iff.2 (List.mem_append_left _ ?_)
          simpa [slotVisit, hs] using he
        have hag : ∀ e ∈ m1.visit, Agree c (d + 1) (hash e.1) (hash k) := by
          intro e he
          exact (ag e (hsub e he)).succ (at_ _ _ hs e he)
        simp only [hnx, Res.ok_bind]
        have hsv : slotVisit (Bia.mk bits values extra) (chunk c (hash k) d) = m1.visit := by
          simp [slotVisit, hs]
        rw [hsv] at hlook hsplit
        rcases ih _ _ hs (fun e he => sep e (hsub e he)) hag hnf with ⟨r, hr, good⟩ | ⟨h1, h2, h3⟩
        · left
          rw [hr]
          simp only [Res.ok_bind]
          cases good with
          | found fk fv h1 h2 =>
            refine ⟨_, rfl, .found _ _ h1 ?_⟩
            rw [Node.visit, hlook, h2]
          | inserted m' prev h1 h2 h3 h4 h5 =>
            have hsz1 := (sub _ _ hs).size_eq
            have hsz2 := h3.size_eq
            have hsl := hsplit.length_eq
            rw [List.length_append] at hsl
            have hsl' : extra = m1.visit.length +
                (others ⟨bits, values, extra⟩ (chunk c (hash k) d)).length := by rw [sz]; exact hsl
            have hfl : prev = none → m'.visit.length = m1.visit.length + 1 := by
              intro hp
              rw [h4.length_eq, List.length_cons, eraseP_none (by rw [← h1, hp])]
            have hfl2 : prev ≠ none → m'.visit.length = m1.visit.length := by
              intro hp
              obtain ⟨e, he⟩ := Option.ne_none_iff_exists'.1 hp
              rw [h4.length_eq, List.length_cons]
              exact length_eraseP (by rw [← h1, he])
            have hstep : m1.insertStep extra (.inserted m' (k, v) prev) =
                .ok (.inr (m', extra + m'.visit.length - m1.visit.length, (k, v), prev)) := by
              unfold Node.insertStep
              cases m1 <;> cases m' <;> simp only [KindOk] at h5 <;> simp only [hsz1, hsz2]
              · rw [usub, if_pos (by omega)]; rfl
              · have := hfl h5
                rw [show extra + _ - _ = extra + 1 by omega]
              · rw [usub, if_pos (by omega)]; rfl
              · have := hfl h5
                rw [show extra + _ - _ = extra + 1 by omega]
              · have := hfl h5
                rw [show extra + _ - _ = extra + 1 by omega]
              · have := hfl2 h5
                rw [show extra + _ - _ = extra by omega]
            rw [hstep]
            simp only [Res.ok_bind]
            generalize hz : extra + m'.visit.length - m1.visit.length = z
            have e1 := Bia.updated_eq ⟨bits, values, extra⟩ ok c.n_le hs m' z
            have e2 := Bia.slot_updated ⟨bits, values, extra⟩ ok hs m' z
            have e3 := Bia.ok_updated ⟨bits, values, extra⟩ ok (onesBelow bits (chunk c (hash k) d)) m' z
            simp only [e1, Res.ok_bind, Res.unwrapE_ok]
            refine ⟨_, rfl, ?_⟩
            have hp := visit_split _ e3 hi
            rw [others_congr (a := ⟨bits, values, extra⟩) (fun j hj => by rw [e2]; simp [hj]), slotVisit,
              e2] at hp
            simp only [if_true] at hp
            have hm'mem : ∀ e ∈ m'.visit, e = (k, v) ∨ e ∈ m1.visit := by
              intro e he
              have := h4.mem_iff.1 he
              rcases List.mem_cons.1 this with h | h
              · exact .inl h
              · exact .inr (List.mem_of_mem_eraseP h)
            refine .inserted _ _ ?_ h2 (wf_set wfC e3 e2 ?_ h3 ?_ ?_) ?_ ?_
            · rw [h1, Node.visit, hlook]
            · show z = _
              rw [hp.length_eq, List.length_append, ← hz]
              omega
            · intro h
              have := h4.length_eq
              rw [h] at this; simp at this
            · intro e he
              rcases hm'mem e he with h | h
              · rw [h]
              · exact at_ _ _ hs e h
            · show (Node.visitAll _).Perm _
              refine hp.trans ?_
              rw [Node.visit]
              refine (List.Perm.append_right _ h4).trans ?_
              rw [hsv] at hers
              exact (List.Perm.cons _ hers).symm
            · simp [KindOk, Node.ofBia]
        · right
          refine ⟨h1, h2, ?_⟩
          rw [h3]; rfl
      · right
        refine ⟨hc, Nat.le_trans hw (Nat.mul_le_mul_right _ hd), ?_⟩
        rw [hnx]; rfl

/-- What `remove` must return. -/
inductive RemGood (hash : K → BitVec c.w) (mx d : Nat) (q : K → Bool) (m : Node c.n K V) :
    RemoveResult c.n K V → Prop
  | notFound : m.visit.find? (fun e => q e.1) = none → RemGood hash mx d q m .notFound
  | removed (m' : Node c.n K V) (k : K) (v : V) : m.visit.find? (fun e => q e.1) = some (k, v) →
      m'.visit = m.visit.eraseP (fun e => q e.1) → m'.visit ≠ [] → m'.WF hash mx d →
      RemGood hash mx d q m (.removed m' k v)
  | removedZ (k : K) (v : V) : m.visit.find? (fun e => q e.1) = some (k, v) →
      m.visit.eraseP (fun e => q e.1) = [] → RemGood hash mx d q m (.removedZ k v)

/-- `remove` on a node. -/
theorem node_remove_spec {mx d : Nat} (lim : ∀ d, d < mx → d * c.b < c.w)
    {q : K → Bool} {h : BitVec c.w} (hq : Sees hash q h)
    {m : Node c.n K V} (wf : m.WF hash mx d) {flag : Option (Flag c)} (hf : FlagFor h d flag) :
    (∃ r, m.remove c q flag = .ok r ∧ RemGood hash mx d q m r) ∨
      (c.checked = true ∧ c.w ≤ mx * c.b ∧ m.remove c q flag = .panic .shiftOverflow) := by
  induction wf generalizing flag with
  | S d s =>
    left
    rw [Node.remove, SNode.remove]
    cases hs : q s.key with
    | true => exact ⟨_, rfl, .removedZ _ _ (by simp [Node.visit, SNode.visit, hs])
        (by simp [Node.visit, SNode.visit, hs])⟩
    | false => exact ⟨_, rfl, .notFound (by simp [Node.visit, SNode.visit, hs])⟩
  | L d l wl =>
    left
    rw [Node.remove, LNode.remove]
    have hr := lnode_removeFrom_spec (q := q) l wl.size
    cases hrr : l.removeFrom q with
    | notFound => rw [hrr] at hr; exact ⟨_, rfl, .notFound hr⟩
    | removedL l' k v =>
      rw [hrr] at hr
      obtain ⟨h1, h2, h3⟩ := hr
      have hk'' : hash l'.key = hash l.key := by
        have : (l'.key, l'.value) ∈ l'.visit := by
          cases l' <;> simp [LNode.visit, LNode.key, LNode.value]
        rw [h2] at this
        exact wl.hash _ (List.mem_of_mem_eraseP this)
      refine ⟨_, rfl, .removed _ _ _ h1 h2 (LNode.visit_ne_nil _) (.L _ _ ⟨h3, ?_, ?_⟩)⟩
      · intro e he
        rw [h2] at he
        rw [hk'', wl.hash _ (List.mem_of_mem_eraseP he)]
      · rw [h2]; exact keys_any _
    | removedS s' k v =>
      rw [hrr] at hr
      obtain ⟨h1, h2⟩ := hr
      exact ⟨_, rfl, .removed _ _ _ h1 h2 (by simp [Node.visit, SNode.visit]) (.S _ _)⟩
  | C d bits values extra hd ok sz ne at_ sub ih =>
    have wfC : (Node.ofBia ⟨bits, values, extra⟩).WF hash mx d :=
      .C d bits values extra hd ok sz ne at_ sub
    obtain ⟨f, rfl, hf1, hf2, hf3⟩ := hf
    have hlt := lim d hd
    have hff := hf3 hlt
    subst hff
    rw [Node.remove]
    simp only [Res.unwrap_some, Res.ok_bind]
    have hi := chunk_lt h d
    have ok' : (Bia.mk bits (Node.removeAll c q values) extra).Ok := by
      rw [Node.removeAll_eq]; simpa [Bia.Ok] using ok
    rw [show (flagAt h d).flag = bitAt c.n (chunk c h d) from rfl,
      Bia.at'_bitAt _ ok' hi, Node.removeAll_eq, Bia.slot_map]
    have hlook := lookup_C' (a := ⟨bits, values, extra⟩) hq ok at_
    have hsplit := visit_split ⟨bits, values, extra⟩ ok hi
    cases hs : (Bia.mk bits values extra).slot (chunk c h d) with
    | none =>
      left
      refine ⟨_, rfl, .notFound ?_⟩
      rw [Node.visit, hlook]
      simp [slotVisit, hs]
    | some m1 =>
      simp only [Option.map_some]
      rcases next_cases h hlt with ⟨nx, hnx, hnf⟩ | ⟨hc, hw, hnx⟩
      · simp only [hnx, Res.ok_bind]
        have hsv : slotVisit (Bia.mk bits values extra) (chunk c h d) = m1.visit := by
          simp [slotVisit, hs]
        rw [hsv] at hlook hsplit
        have hsl := hsplit.length_eq
        rw [List.length_append] at hsl
        have hsl' : extra = m1.visit.length +
            (others ⟨bits, values, extra⟩ (chunk c h d)).length := by rw [sz]; exact hsl
        rcases ih _ _ hs hnf with ⟨r, hr, good⟩ | ⟨h1, h2, h3⟩
        · left
          rw [hr]
          simp only [Res.ok_bind]
          cases good with
          | notFound h1 => exact ⟨_, rfl, .notFound (by rw [Node.visit, hlook, h1])⟩
          | removed m' k v h1 h2 h3 h4 =>
            have hl := length_eraseP h1
            have hsz2 := h4.size_eq
            have hpos : 0 < m'.visit.length := List.length_pos_iff.2 h3
            have hm1 : 1 ≤ extra := by rw [← h2] at hl; omega
            have key : ∀ r : Res (RemoveResult c.n K V), r = (do
                let z ← usub extra 1
                let a ← (Bia.mk bits values extra).updated (bitAt c.n (chunk c h d)) m' z
                let a ← Res.unwrapE a
                .ok (.removed (Node.ofBia a) k v)) →
                ∃ x, r = .ok x ∧ RemGood hash mx d q (.C bits values extra) x := by
              intro r hr
              rw [hr, usub, if_pos hm1]
              have e1 := Bia.updated_eq ⟨bits, values, extra⟩ ok c.n_le hs m' (extra - 1)
              have e2 := Bia.slot_updated ⟨bits, values, extra⟩ ok hs m' (extra - 1)
              have e3 := Bia.ok_updated ⟨bits, values, extra⟩ ok
                (onesBelow bits (chunk c h d)) m' (extra - 1)
              simp only [e1, Res.ok_bind, Res.unwrapE_ok]
              have hv := erase_C (a := ⟨bits, values, extra⟩) hq ok e3 at_
                (fun j hj => by rw [e2]; simp [hj])
                (by rw [hsv]; simp only [slotVisit, e2, if_true]; exact h2)
              have hfind : (Node.C bits values extra).visit.find? (fun e => q e.1) = some (k, v) := by
                rw [Node.visit, hlook, h1]
              have hll := length_eraseP (l := Node.visitAll values) hfind
              refine ⟨_, rfl, .removed _ _ _ hfind hv ?_ (wf_set wfC e3 e2 ?_ h4 h3 ?_)⟩
              · show Node.visitAll _ ≠ []
                have hp := visit_split _ e3 hi
                simp only [slotVisit, e2, if_true] at hp
                intro h
                have h' := hp.length_eq
                simp only [h, List.length_append, List.length_nil] at h'
                omega
              · rw [hv]
                show extra - 1 = (List.eraseP _ (Node.visitAll values)).length
                rw [sz]; omega
              · intro e he
                rw [h2] at he
                exact at_ _ _ hs e (List.mem_of_mem_eraseP he)
            apply key
            cases m' with
            | C b' v' e' =>
              cases e' with
              | zero => simp only [Node.size] at hsz2; omega
              | succ e' => rfl
            | L l => rfl
            | S s => rfl
          | removedZ k v h1 h2 =>
            have hl := length_eraseP h1
            rw [h2] at hl
            simp only [List.length_nil] at hl
            have hfind : (Node.C bits values extra).visit.find? (fun e => q e.1) = some (k, v) := by
              rw [Node.visit, hlook, h1]
            have hll := length_eraseP (l := Node.visitAll values) hfind
            simp only
            by_cases he1 : extra = 1
            · rw [if_pos he1]
              refine ⟨_, rfl, .removedZ _ _ hfind ?_⟩
              rw [← List.length_eq_zero_iff, Node.visit]
              omega
            · rw [if_neg he1, usub, if_pos (by omega)]
              have e1 := Bia.removed_eq ⟨bits, values, extra⟩ ok c.n_le hs (extra - 1)
              have e2 := Bia.slot_removed ⟨bits, values, extra⟩ ok hs (extra - 1)
              have e3 := Bia.ok_removed ⟨bits, values, extra⟩ ok hs (extra - 1)
              simp only [e1, Res.ok_bind, Res.unwrapE_ok]
              have hv := erase_C (a := ⟨bits, values, extra⟩) hq ok e3 at_
                (fun j hj => by rw [e2]; simp [hj])
                (by rw [hsv, h2]; simp [slotVisit, e2])
              refine ⟨_, rfl, .removed _ _ _ hfind hv ?_ ?_⟩
              · show Node.visitAll _ ≠ []
                rw [hv]
                intro h
                have := congrArg List.length h
                simp only [List.length_nil] at this
                have h5 : (List.eraseP (fun e => q e.1) (Node.visitAll values)).length = 0 := this
                omega
              · refine .C d _ _ _ hd e3 ?_ ?_ ?_ ?_
                · show extra - 1 = (Node.visitAll _).length
                  rw [hv, sz]
                  show _ = (List.eraseP _ (Node.visitAll values)).length
                  omega
                · intro j m hj
                  rw [e2] at hj
                  split at hj
                  · simp at hj
                  · exact ne j m hj
                · intro j m hj
                  rw [e2] at hj
                  split at hj
                  · simp at hj
                  · exact at_ j m hj
                · intro j m hj
                  rw [e2] at hj
                  split at hj
                  · simp at hj
                  · exact sub j m hj
        · right
          refine ⟨h1, h2, ?_⟩
          rw [h3]; rfl
      · right
        refine ⟨hc, Nat.le_trans hw (Nat.mul_le_mul_right _ hd), ?_⟩
        rw [hnx]; rfl

/-- What `insert` returns, when it returns. -/
inductive InsOut (hash : K → BitVec c.w) (mx : Nat) (t : Trie c K V) (q : K → Bool) (k : K) (v : V)
    (replace : Bool) : Except (K × V) (Trie c K V × (K × V) × Option (K × V)) → Prop
  | err (e : K × V) : replace = false → t.visit.find? (fun e => q e.1) = some e →
      InsOut hash mx t q k v replace (.error e)
  | ok (t' : Trie c K V) (prev : Option (K × V)) : prev = t.visit.find? (fun e => q e.1) →
      (replace = false → prev = none) → t'.ValidAt hash mx →
      t'.visit.Perm ((k, v) :: t.visit.eraseP (fun e => q e.1)) →
      InsOut hash mx t q k v replace (.ok (t', (k, v), prev))

theorem trie_insertQ_spec {mx : Nat} (lim : ∀ d, d < mx → d * c.b < c.w)
    {t : Trie c K V} (ht : t.ValidAt hash mx) {q : K → Bool} {k : K} (v : V) (replace : Bool)
    (hq : Sees hash q (hash k))
    (sep : ∀ e ∈ t.visit, Agree c mx (hash e.1) (hash k) → hash e.1 = hash k) :
    (∃ r, t.insertQ hash q (hash k) k v replace = .ok r ∧ InsOut hash mx t q k v replace r) ∨
      (c.checked = true ∧ c.w ≤ mx * c.b ∧
        t.insertQ hash q (hash k) k v replace = .panic .shiftOverflow) := by
  rw [Trie.insertQ, Flag.new_eq]
  simp only [Res.ok_bind]
  rcases node_insert_spec lim v replace hq ht sep (fun e _ => Agree.zero _ _)
    (flagFor_flagAt _ _) with ⟨r, hr, good⟩ | ⟨h1, h2, h3⟩
  · left
    rw [hr]
    cases good with
    | found fk fv h1 h2 => exact ⟨_, rfl, .err _ h1 h2⟩
    | inserted m' prev h1 h2 h3 h4 h5 => exact ⟨_, rfl, .ok ⟨m'⟩ prev h1 h2 h3 h4⟩
  · right
    exact ⟨h1, h2, by rw [h3]; rfl⟩

/-- What `remove` returns, when it returns. -/
inductive RemOut (hash : K → BitVec c.w) (mx : Nat) (t : Trie c K V) (q : K → Bool) :
    Option (Trie c K V × (K × V)) → Prop
  | none : t.visit.find? (fun e => q e.1) = .none → RemOut hash mx t q .none
  | some (t' : Trie c K V) (e : K × V) : t.visit.find? (fun e => q e.1) = .some e →
      t'.ValidAt hash mx → t'.visit = t.visit.eraseP (fun e => q e.1) →
      RemOut hash mx t q (.some (t', e))

theorem trie_removeQ_spec {mx : Nat} (pos : 0 < mx) (lim : ∀ d, d < mx → d * c.b < c.w)
    {t : Trie c K V} (ht : t.ValidAt hash mx) {q : K → Bool} {h : BitVec c.w}
    (hq : Sees hash q h) :
    (∃ r, t.removeQ q h = .ok r ∧ RemOut hash mx t q r) ∨
      (c.checked = true ∧ c.w ≤ mx * c.b ∧ t.removeQ q h = .panic .shiftOverflow) := by
  rw [Trie.removeQ, Flag.new_eq]
  simp only [Res.ok_bind]
  rcases node_remove_spec lim hq ht (flagFor_flagAt _ _) with ⟨r, hr, good⟩ | ⟨h1, h2, h3⟩
  · left
    rw [hr]
    cases good with
    | notFound h1 => exact ⟨_, rfl, .none h1⟩
    | removed m' k v h1 h2 h3 h4 => exact ⟨_, rfl, .some ⟨m'⟩ _ h1 h4 h2⟩
    | removedZ k v h1 h2 => exact ⟨_, rfl, .some _ _ h1 (Trie.new_valid pos) h2.symm⟩
  · right
    exact ⟨h1, h2, by rw [h3]; rfl⟩

end
end HT.Lawless
