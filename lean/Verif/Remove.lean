import Verif.Insert
/-! # remove preserves the invariant and deletes exactly the matching entry -/
namespace HT

variable {K V : Type} [BEq K] {c : Cfg} {hash : K → BitVec c.w}

/-- What `remove` must return. -/
inductive RemGood (hash : K → BitVec c.w) (mx d : Nat) (q : K → Bool) (m : Node c.n K V) :
    RemoveResult c.n K V → Prop
  | notFound : m.visit.find? (fun e => q e.1) = none → RemGood hash mx d q m .notFound
  | removed (m' : Node c.n K V) (k : K) (v : V) : m.visit.find? (fun e => q e.1) = some (k, v) →
      m'.visit = m.visit.filter (fun e => !q e.1) → m'.visit ≠ [] → m'.WF hash mx d →
      RemGood hash mx d q m (.removed m' k v)
  | removedZ (k : K) (v : V) : m.visit.find? (fun e => q e.1) = some (k, v) →
      m.visit.filter (fun e => !q e.1) = [] → RemGood hash mx d q m (.removedZ k v)

omit [BEq K] in
theorem Node.removeAll_eq (q : K → Bool) (ms : List (Node c.n K V)) :
    Node.removeAll c q ms = ms.map (fun m nx => m.remove c q nx) := by
  induction ms with
  | nil => rfl
  | cons m ms ih => rw [Node.removeAll, ih, List.map_cons]

/-- Filtering a branch node changes only the slot of the hash. -/
theorem filter_C {q : K → Bool} {h : BitVec c.w} (hq : Query hash q h) {d : Nat}
    {a a' : Bia c.n (Node c.n K V)} (ok : a.Ok) (ok' : a'.Ok)
    (at_ : ∀ i m, a.slot i = some m → ∀ e ∈ m.visit, chunk c (hash e.1) d = i)
    (hne : ∀ j, j ≠ chunk c h d → a'.slot j = a.slot j)
    (he : slotVisit a' (chunk c h d) = (slotVisit a (chunk c h d)).filter (fun e => !q e.1)) :
    Node.visitAll a'.values = (Node.visitAll a.values).filter (fun e => !q e.1) := by
  rw [visit_slots a ok, visit_slots a' ok', filter_flatMap']
  apply flatMap_congr'
  intro j _
  by_cases hj : j = chunk c h d
  · subst hj; exact he
  · rw [show slotVisit a' j = slotVisit a j by simp [slotVisit, hne j hj]]
    symm
    rw [List.filter_eq_self]
    intro e he
    simp [slot_no_match hq at_ hj e he]

/-- `remove` on a node. -/
theorem Node.remove_spec {mx d : Nat} (lim : ∀ d, d < mx → d * c.b < c.w) (hh : HashOk hash)
    {q : K → Bool} {h : BitVec c.w} (hq : Query hash q h)
    {m : Node c.n K V} (wf : m.WF hash mx d) {flag : Option (Flag c)} (hf : FlagFor h d flag) :
    (∃ r, m.remove c q flag = .ok r ∧ RemGood hash mx d q m r) ∨
      (c.checked = true ∧ c.w ≤ mx * c.b ∧ m.remove c q flag = .panic .shiftOverflow) := by
  induction wf generalizing flag with
  | S d s =>
    left
    rw [Node.remove, SNode.remove]
    cases hs : q s.key with
    | true => exact ⟨_, rfl, .removedZ _ _ (by simp [Node.visit, SNode.visit, hs])
        (by simp [Node.visit, SNode.visit, hs])⟩
    | false => exact ⟨_, rfl, .notFound (by simp [Node.visit, SNode.visit, hs])⟩
  | L d l wl =>
    left
    rw [Node.remove, LNode.remove]
    have hr := LNode.removeFrom_spec hq l wl.keys wl.size
    cases hrr : l.removeFrom q with
    | notFound => rw [hrr] at hr; exact ⟨_, rfl, .notFound hr⟩
    | removedL l' k v =>
      rw [hrr] at hr
      obtain ⟨h1, h2, h3⟩ := hr
      have hk'' : hash l'.key = hash l.key := by
        have : (l'.key, l'.value) ∈ l'.visit := by
          cases l' <;> simp [LNode.visit, LNode.key, LNode.value]
        rw [h2] at this
        exact wl.hash _ (List.mem_filter.1 this).1
      refine ⟨_, rfl, .removed _ _ _ h1 h2 (LNode.visit_ne_nil _) (.L _ _ ⟨h3, ?_, ?_⟩)⟩
      · intro e he
        rw [h2] at he
        rw [hk'', wl.hash _ (List.mem_filter.1 he).1]
      · rw [h2]; exact List.Pairwise.filter _ wl.keys
    | removedS s' k v =>
      rw [hrr] at hr
      obtain ⟨h1, h2⟩ := hr
      exact ⟨_, rfl, .removed _ _ _ h1 h2 (by simp [Node.visit, SNode.visit]) (.S _ _)⟩
  | C d bits values extra hd ok sz ne at_ sub ih =>
    have wfC : (Node.ofBia ⟨bits, values, extra⟩).WF hash mx d :=
      .C d bits values extra hd ok sz ne at_ sub
    obtain ⟨f, rfl, hf1, hf2, hf3⟩ := hf
    have hlt := lim d hd
    have hff := hf3 hlt
    subst hff
    rw [Node.remove]
    simp only [Res.unwrap_some, Res.ok_bind]
    have hi := chunk_lt h d
    have ok' : (Bia.mk bits (Node.removeAll c q values) extra).Ok := by
      rw [Node.removeAll_eq]; simpa [Bia.Ok] using ok
    rw [show (flagAt h d).flag = bitAt c.n (chunk c h d) from rfl,
      Bia.at'_bitAt _ ok' hi, Node.removeAll_eq, Bia.slot_map]
    have hlook := lookup_C (a := ⟨bits, values, extra⟩) hq ok at_
    have hsplit := visit_split ⟨bits, values, extra⟩ ok hi
    cases hs : (Bia.mk bits values extra).slot (chunk c h d) with
    | none =>
      left
      refine ⟨_, rfl, .notFound ?_⟩
      rw [Node.visit, hlook]
      simp [slotVisit, hs]
    | some m1 =>
      simp only [Option.map_some]
      rcases next_cases h hlt with ⟨nx, hnx, hnf⟩ | ⟨hc, hw, hnx⟩
      · simp only [hnx, Res.ok_bind]
        have hsv : slotVisit (Bia.mk bits values extra) (chunk c h d) = m1.visit := by
          simp [slotVisit, hs]
        rw [hsv] at hlook hsplit
        have hsl := hsplit.length_eq
        rw [List.length_append] at hsl
        have hsl' : extra = m1.visit.length +
            (others ⟨bits, values, extra⟩ (chunk c h d)).length := by rw [sz]; exact hsl
        have hdist := (sub _ _ hs).distinct hh
        rcases ih _ _ hs hnf with ⟨r, hr, good⟩ | ⟨h1, h2, h3⟩
        · left
          rw [hr]
          simp only [Res.ok_bind]
          cases good with
          | notFound h1 => exact ⟨_, rfl, .notFound (by rw [Node.visit, hlook, h1])⟩
          | removed m' k v h1 h2 h3 h4 =>
            have hl := length_filter_query hq hdist h1
            have hsz2 := h4.size_eq
            have hpos : 0 < m'.visit.length := List.length_pos_iff.2 h3
            have hm1 : 1 ≤ extra := by rw [← h2] at hl; omega
            have key : ∀ r : Res (RemoveResult c.n K V), r = (do
                let z ← usub extra 1
                let a ← (Bia.mk bits values extra).updated (bitAt c.n (chunk c h d)) m' z
                let a ← Res.unwrapE a
                .ok (.removed (Node.ofBia a) k v)) →
                ∃ x, r = .ok x ∧ RemGood hash mx d q (.C bits values extra) x := by
              intro r hr
              rw [hr, usub, if_pos hm1]
              have e1 := Bia.updated_eq ⟨bits, values, extra⟩ ok c.n_le hs m' (extra - 1)
              have e2 := Bia.slot_updated ⟨bits, values, extra⟩ ok hs m' (extra - 1)
              have e3 := Bia.ok_updated ⟨bits, values, extra⟩ ok
                (onesBelow bits (chunk c h d)) m' (extra - 1)
              simp only [e1, Res.ok_bind, Res.unwrapE_ok]
              have hv := filter_C (a := ⟨bits, values, extra⟩) hq ok e3 at_
                (fun j hj => by rw [e2]; simp [hj])
                (by rw [hsv]; simp only [slotVisit, e2, if_true]; exact h2)
              have hfind : (Node.C bits values extra).visit.find? (fun e => q e.1) = some (k, v) := by
                rw [Node.visit, hlook, h1]
              have hll := length_filter_query (l := Node.visitAll values) hq (wfC.distinct hh) hfind
              refine ⟨_, rfl, .removed _ _ _ hfind hv ?_ (wf_set wfC e3 e2 ?_ h4 h3 ?_)⟩
              · show Node.visitAll _ ≠ []
                have hp := visit_split _ e3 hi
                simp only [slotVisit, e2, if_true] at hp
                intro h
                have h' := hp.length_eq
                simp only [h, List.length_append, List.length_nil] at h'
                omega
              · rw [hv]
                show extra - 1 = (List.filter _ (Node.visitAll values)).length
                rw [sz]; omega
              · intro e he
                rw [h2] at he
                exact at_ _ _ hs e (List.mem_filter.1 he).1
            apply key
            cases m' with
            | C b' v' e' =>
              cases e' with
              | zero => simp only [Node.size] at hsz2; omega
              | succ e' => rfl
            | L l => rfl
            | S s => rfl
          | removedZ k v h1 h2 =>
            have hl := length_filter_query hq hdist h1
            rw [h2] at hl
            simp only [List.length_nil] at hl
            have hfind : (Node.C bits values extra).visit.find? (fun e => q e.1) = some (k, v) := by
              rw [Node.visit, hlook, h1]
            have hll := length_filter_query (l := Node.visitAll values) hq (wfC.distinct hh) hfind
            simp only
            by_cases he1 : extra = 1
            · rw [if_pos he1]
              refine ⟨_, rfl, .removedZ _ _ hfind ?_⟩
              rw [← List.length_eq_zero_iff, Node.visit]
              omega
            · rw [if_neg he1, usub, if_pos (by omega)]
              have e1 := Bia.removed_eq ⟨bits, values, extra⟩ ok c.n_le hs (extra - 1)
              have e2 := Bia.slot_removed ⟨bits, values, extra⟩ ok hs (extra - 1)
              have e3 := Bia.ok_removed ⟨bits, values, extra⟩ ok hs (extra - 1)
              simp only [e1, Res.ok_bind, Res.unwrapE_ok]
              have hv := filter_C (a := ⟨bits, values, extra⟩) hq ok e3 at_
                (fun j hj => by rw [e2]; simp [hj])
                (by rw [hsv, h2]; simp [slotVisit, e2])
              refine ⟨_, rfl, .removed _ _ _ hfind hv ?_ ?_⟩
              · show Node.visitAll _ ≠ []
                rw [hv]
                intro h
                have := congrArg List.length h
                simp only [List.length_nil] at this
                have h5 : (List.filter (fun e => !q e.1) (Node.visitAll values)).length = 0 := this
                omega
              · refine .C d _ _ _ hd e3 ?_ ?_ ?_ ?_
                · show extra - 1 = (Node.visitAll _).length
                  rw [hv, sz]
                  show _ = (List.filter _ (Node.visitAll values)).length
                  omega
                · intro j m hj
                  rw [e2] at hj
                  split at hj
                  · simp at hj
                  · exact ne j m hj
                · intro j m hj
                  rw [e2] at hj
                  split at hj
                  · simp at hj
                  · exact at_ j m hj
                · intro j m hj
                  rw [e2] at hj
                  split at hj
                  · simp at hj
                  · exact sub j m hj
        · right
          refine ⟨h1, h2, ?_⟩
          rw [h3]; rfl
      · right
        refine ⟨hc, Nat.le_trans hw (Nat.mul_le_mul_right _ hd), ?_⟩
        rw [hnx]; rfl

end HT
