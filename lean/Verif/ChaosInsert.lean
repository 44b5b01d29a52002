import Verif.ChaosLemmas
/-! # insert, whatever the keys' code answers -/
namespace HT

variable {K V : Type} {c : Cfg}

open Tree

/-- `liftC` puts two groups of entries under branch nodes, or runs out of hash. -/
theorem liftC_shape (h1 h2 : BitVec c.w) (m1 m2 : Node c.n K V)
    (wf1 : ∀ d, m1.Shape d) (wf2 : ∀ d, m2.Shape d) (ne1 : m1.visit ≠ []) (ne2 : m2.visit ≠ []) (d : Nat)
    (hd : HasFlags c d) :
    (∃ b v z, liftC c m1 (flagDeep h1 d) m2 (flagDeep h2 d) = .ok (.C b v z) ∧
      (Node.C b v z).Shape d ∧ (Node.C b v z).visit.Perm (m1.visit ++ m2.visit)) ∨
    liftC c m1 (flagDeep h1 d) m2 (flagDeep h2 d) = .panic .unwrap ∨
    (liftC c m1 (flagDeep h1 d) m2 (flagDeep h2 d) = .panic .shiftOverflow ∧ c.checked = true) := by
  have hs1 := (wf1 0).size_eq
  have hs2 := (wf2 0).size_eq
  have hdm : ∀ d', HasFlags c d' → d' < 8 * c.w := by
    intro d' h
    have := Nat.le_mul_of_pos_right d' c.bpos
    have := h.lt
    omega
  generalize hfuel : 8 * c.w - d = fuel
  induction fuel generalizing d with
  | zero => have := hdm d hd; omega
  | succ fuel ih =>
    have hi1 := wrapped_lt h1 d
    have hi2 := wrapped_lt h2 d
    rw [liftC_unfold]
    by_cases heq : wrapped c h1 d = wrapped c h2 d
    · rw [if_pos (show (flagDeep h1 d).flag = (flagDeep h2 d).flag by simp [flagDeep, heq])]
      by_cases hd' : HasFlags c (d + 1)
      rotate_left
      · rcases Flag.newAtDepth_shallow h1 hd' with n1 | ⟨hc, n1⟩
        · have n1 : (flagDeep h1 d).next = _ := n1
          rw [n1]; exact .inr (.inl rfl)
        · have n1 : (flagDeep h1 d).next = _ := n1
          rw [n1]; exact .inr (.inr ⟨rfl, hc⟩)
      have n1 : (flagDeep h1 d).next = .ok (some (flagDeep h1 (d + 1))) := Flag.newAtDepth_deep h1 hd'
      have n2 : (flagDeep h2 d).next = .ok (some (flagDeep h2 (d + 1))) := Flag.newAtDepth_deep h2 hd'
      simp only [n1, n2, Res.ok_bind, Res.unwrap_some]
      rcases ih (d + 1) hd' (by omega) with ⟨b, v, z, e1, e2, e3⟩ | e1 | ⟨e1, hc⟩
      rotate_left
      · rw [e1]; exact .inr (.inl rfl)
      · rw [e1]; exact .inr (.inr ⟨rfl, hc⟩)
      left
      rw [e1]
      have okk : countOnes (bitAt c.n (wrapped c h2 d)) = [Node.C b v z].length := by
        rw [countOnes_bitAt hi2]; rfl
      have hfl : (flagDeep h1 d).flag = bitAt c.n (wrapped c h2 d) := by rw [← heq]; rfl
      simp only [hfl, Res.ok_bind]
      simp only [Bia.ofVec_eq _ _ c.n_le okk, Res.ok_bind, Res.unwrapE_ok, Node.ofBia]
      · skip
        have hslot : ∀ j, (Bia.mk (bitAt c.n (wrapped c h2 d)) [Node.C b v z]
            (m1.size + m2.size)).slot j =
            if j = wrapped c h2 d then some (Node.C b v z) else none := by
          intro j
          simp only [Bia.slot, getLsbD_bitAt]
          by_cases hj : j = wrapped c h2 d
          · subst hj
            have : onesBelow (bitAt c.n (wrapped c h2 d)) (wrapped c h2 d) = 0 := by
              apply onesBelow_zero_of
              intro j hj
              rw [getLsbD_bitAt]; simp; omega
            simp [hi2, this]
          · have : ¬ wrapped c h2 d = j := fun e => hj e.symm
            simp [hj, this]
        refine ⟨_, _, _, rfl, ?_, ?_⟩
        · refine .C d _ _ _ hd okk ?_ ?_ ?_
          · rw [Node.visitAll, Node.visitAll, List.append_nil, e3.length_eq, List.length_append,
              hs1, hs2]
          · intro i m hm
            rw [hslot] at hm
            split at hm
            · injection hm with hm; subst hm
              intro he
              have := e3.length_eq
              rw [he, List.length_append] at this
              have := List.length_pos_iff.2 ne1
              simp only [List.length_nil] at *; omega
            · simp at hm
          · intro i m hm
            rw [hslot] at hm
            split at hm
            · injection hm with hm; subst hm; exact e2
            · simp at hm
        · simpa [Node.visit, Node.visitAll] using e3
    · left
      have hbne : ¬ bitAt c.n (wrapped c h1 d) = bitAt c.n (wrapped c h2 d) :=
        fun e => heq (bitAt_inj hi1 e)
      have hg : (bitAt c.n (wrapped c h1 d)).getLsbD (wrapped c h2 d) = false := by
        rw [getLsbD_bitAt]; simp [heq]
      have hins : bitInsert (bitAt c.n (wrapped c h1 d)) (bitAt c.n (wrapped c h2 d)) =
          .ok (bitAt c.n (wrapped c h1 d) ||| bitAt c.n (wrapped c h2 d)) := by
        rw [bitInsert_bitAt _ hi2, hg]; rfl
      have hob : ∀ j, onesBelow (bitAt c.n (wrapped c h1 d) |||
          bitAt c.n (wrapped c h2 d)) j =
          onesBelow (bitAt c.n (wrapped c h1 d)) j + if wrapped c h2 d < j then 1 else 0 :=
        onesBelow_or hi2 hg
      have hz : ∀ j, j ≤ wrapped c h1 d → onesBelow (bitAt c.n (wrapped c h1 d)) j = 0 := by
        intro j hj
        apply onesBelow_zero_of
        intro j' hj'
        rw [getLsbD_bitAt]; simp; omega
      have hz1 : ∀ j, wrapped c h1 d < j → j ≤ c.n →
          onesBelow (bitAt c.n (wrapped c h1 d)) j = 1 := by
        intro j hj hjn
        have a1 := onesBelow_mono (bitAt c.n (wrapped c h1 d)) hj
        have a2 := onesBelow_mono (bitAt c.n (wrapped c h1 d)) hjn
        rw [← countOnes_eq_onesBelow, countOnes_bitAt hi1] at a2
        rw [onesBelow_succ, getLsbD_bitAt, hz _ (Nat.le_refl _)] at a1
        simp only [decide_true, hi1, Bool.and_self, if_true] at a1
        omega
      have hidx : bitIndex (bitAt c.n (wrapped c h1 d) ||| bitAt c.n (wrapped c h2 d))
          (bitAt c.n (wrapped c h1 d)) =
          .ok (if wrapped c h2 d < wrapped c h1 d then 1 else 0) := by
        rw [bitIndex_bitAt _ hi1, BitVec.getLsbD_or, hob, hz _ (Nat.le_refl _), getLsbD_bitAt]
        simp [hi1]
      have hcount : countOnes (bitAt c.n (wrapped c h1 d) ||| bitAt c.n (wrapped c h2 d)) = 2 := by
        rw [countOnes_eq_onesBelow, hob, ← countOnes_eq_onesBelow, countOnes_bitAt hi1]
        simp [hi2]
      rw [if_neg (show ¬ (flagDeep h1 d).flag = (flagDeep h2 d).flag from hbne)]
      simp only [flagDeep, hins, Res.unwrapE_ok, Res.ok_bind, hidx]
      have fin : ∀ vals : List (Node c.n K V),
          vals = (if wrapped c h2 d < wrapped c h1 d then [m2, m1] else [m1, m2]) →
          ∃ b v z, ((Bia.ofVec (bitAt c.n (wrapped c h1 d) ||| bitAt c.n (wrapped c h2 d))
              vals (m1.size + m2.size) >>= fun a => Res.unwrapE a >>= fun a => .ok (Node.ofBia a)) =
                .ok (Node.C b v z)) ∧
            (Node.C b v z).Shape d ∧ (Node.C b v z).visit.Perm (m1.visit ++ m2.visit) := by
        intro vals hv
        have okk : countOnes (bitAt c.n (wrapped c h1 d) ||| bitAt c.n (wrapped c h2 d)) =
            vals.length := by
          rw [hcount, hv]; split <;> rfl
        simp only [Bia.ofVec_eq _ _ c.n_le okk, Res.ok_bind, Res.unwrapE_ok, Node.ofBia]
        have hslot : ∀ j, (Bia.mk (bitAt c.n (wrapped c h1 d) |||
              bitAt c.n (wrapped c h2 d)) vals (m1.size + m2.size)).slot j =
            if j = wrapped c h1 d then some m1
            else if j = wrapped c h2 d then some m2 else none := by
          intro j
          simp only [Bia.slot, BitVec.getLsbD_or, getLsbD_bitAt]
          by_cases hj1 : j = wrapped c h1 d
          · subst hj1
            simp only [hob, hz _ (Nat.le_refl _), hi1, hv]
            by_cases hlt : wrapped c h2 d < wrapped c h1 d
            · simp [hlt]
            · simp [hlt]
          · by_cases hj2 : j = wrapped c h2 d
            · subst hj2
              have h1' : ¬ wrapped c h1 d = wrapped c h2 d := heq
              simp only [hob, hi2, hv, h1', hj1]
              by_cases hlt : wrapped c h2 d < wrapped c h1 d
              · simp [hlt, hz _ (Nat.le_of_lt hlt)]
              · simp [hlt, hz1 _ (show wrapped c h1 d < wrapped c h2 d by omega)
                  (Nat.le_of_lt hi2)]
            · have h1' : ¬ wrapped c h1 d = j := fun e => hj1 e.symm
              have h2' : ¬ wrapped c h2 d = j := fun e => hj2 e.symm
              simp [h1', h2', hj1, hj2]
        have hperm : (Node.visitAll vals).Perm (m1.visit ++ m2.visit) := by
          rw [hv]
          split
          · simpa [Node.visitAll] using List.perm_append_comm
          · simp [Node.visitAll]
        refine ⟨_, _, _, rfl, ?_, hperm⟩
        refine .C d _ _ _ hd okk ?_ ?_ ?_
        · rw [hperm.length_eq, List.length_append, hs1, hs2]
        · intro i m hm
          rw [hslot] at hm
          split at hm
          · injection hm with hm; subst hm; exact ne1
          · split at hm
            · injection hm with hm; subst hm; exact ne2
            · simp at hm
        · intro i m hm
          rw [hslot] at hm
          split at hm
          · injection hm with hm; subst hm; exact wf1 _
          · split at hm
            · injection hm with hm; subst hm; exact wf2 _
            · simp at hm
      by_cases hlt : wrapped c h2 d < wrapped c h1 d
      · simp only [hlt, if_true] at fin ⊢
        exact fin _ rfl
      · simp only [hlt, if_false] at fin ⊢
        exact fin _ rfl


/-! ### Results -/

/-- What `insert` returns in node `m`. -/
inductive InsC (d : Nat) (k : K) (v : V) (replace : Bool) (m : Node c.n K V)
    (cs : List (Reply (KCall K V) (KAns K V c.w))) : InsertResult c.n K V → Prop
  | found (e : K × V) (mem : e ∈ m.visit) (keep : replace = false) (yes : SaidYes cs e.1) :
      InsC d k v replace m cs (.found e.1 e.2)
  | fresh (m' : Node c.n K V) (no : ∀ k, ¬ SaidYes cs k) (vis : m'.visit.Perm ((k, v) :: m.visit)) (shape : m'.Shape d)
      (kind : KindOk none m m') : InsC d k v replace m cs (.inserted m' (k, v) none)
  | replaced (m' : Node c.n K V) (p : List (K × V)) (e : K × V) (q : List (K × V)) (eq : m.visit = p ++ e :: q)
      (vis : m'.visit.Perm ((k, v) :: (p ++ q))) (shape : m'.Shape d) (kind : KindOk (some e) m m')
      (repl : replace = true) (yes : SaidYes cs e.1) : InsC d k v replace m cs (.inserted m' (k, v) (some e))

/-- How `insert` panics. -/
inductive InsE (c : Cfg) (replace : Bool) (cs : List (Reply (KCall K V) (KAns K V c.w))) : Panic → Prop
  | confused (repl : replace = true) (k : K) (yes : SaidYes cs k) (no : SaidNo cs k) : InsE c replace cs .explicit
  | bottom (no : ∀ k, ¬ SaidYes cs k) : InsE c replace cs .unwrap
  | overflow (h : c.checked = true) : InsE c replace cs .shiftOverflow

theorem notYes_hash {x : K} {a : BitVec c.w} : ∀ k : K, ¬ SaidYes [(⟨.hash x, some a⟩ : Reply (KCall K V) (KAns K V c.w))] k := by
  intro k hk
  simp only [List.mem_singleton] at hk
  cases (Sigma.mk.inj hk).1

theorem liftLK_ends {d : Nat} (hd : HasFlags c d) {h : BitVec c.w} (k : K) (v : V) (replace : Bool) (this : LNext K V)
    (hs : this.SizeOk) (ne : (this.toNode : Node c.n K V).visit ≠ []) {cs0 : List (Reply (KCall K V) (KAns K V c.w))}
    (no0 : ∀ k, ¬ SaidYes cs0 k) :
    (liftLK c this k v (flagDeep h d)).Ends
      (fun cs r => InsC d k v replace (this.toNode : Node c.n K V) (cs0 ++ cs) r)
      (fun cs p => InsE c replace (cs0 ++ cs) p) := by
  have notYes : ∀ cs : List (Reply (KCall K V) (KAns K V c.w)), (∀ r ∈ cs, ∀ k, r.1 ≠ .eq k) →
      ∀ k, ¬ SaidYes (cs0 ++ cs) k := by
    intro cs h k hk
    rcases List.mem_append.1 hk with hk | hk
    · exact no0 k hk
    · exact h _ hk k rfl
  intro (th : BitVec c.w)
  show (if th = (flagDeep h d).hashValue then _ else _ : KTree c K V _).Ends _ _
  split
  · intro _ _
    refine .fresh _ (notYes _ (by simp)) ?_ (.L _ _ (LNode.new_sizeOk hs)) ?_
    · cases this <;> simp [Node.visit, LNode.new, LNode.visit, LNext.toNode]
    · cases this <;> simp [KindOk, LNext.toNode]
  · have hnx : Flag.newAtDepth th (flagDeep h d).depth = .ok (some (flagDeep th d)) := Flag.newAtDepth_deep th hd
    simp only [hnx, res_ok, bind_def, ret_bind, Res.unwrap_some]
    rcases liftC_shape th h (this.toNode : Node c.n K V) (.S ⟨k, v⟩) (fun d => LNext.shape hs d) (fun d => .S d _) ne
      (by simp [Node.visit, SNode.visit]) d hd with ⟨b, v', z, e1, e2, e3⟩ | e1 | ⟨e1, hc⟩
    · rw [e1]
      intro _ _
      refine .fresh _ (notYes _ (by simp)) (e3.trans ?_) e2 ?_
      · simpa [Node.visit, SNode.visit] using List.perm_append_comm
      · cases this <;> simp [KindOk, LNext.toNode]
    · rw [e1]
      intro _ _
      exact .bottom (notYes _ (by simp))
    · rw [e1]
      intro _ _
      exact .overflow hc

theorem SNode.insertK_ends {d : Nat} {h : BitVec c.w} (k : K) (v : V) (replace : Bool) (s : SNode K V)
    {flag : Option (Flag c)} (hf : FlagK h d flag) :
    (s.insertK c k v replace flag).Ends (InsC d k v replace (.S s)) (InsE c replace) := by
  rw [SNode.insertK, askEq_bind]
  intro (a : Bool)
  cases a with
  | true =>
    cases replace with
    | true =>
      intro _ _
      exact .replaced _ [] (s.key, s.value) [] rfl (.refl _) (.S _ _) (by simp [KindOk]) rfl (List.mem_cons_self ..)
    | false =>
      exact .found (s.key, s.value) (by simp [Node.visit, SNode.visit]) rfl (List.mem_cons_self ..)
  | false =>
    have no0 : ∀ k, ¬ SaidYes [(⟨.eq s.key, some false⟩ : Reply (KCall K V) (KAns K V c.w))] k := by
      intro k hk
      simp only [List.mem_singleton] at hk
      obtain ⟨h1, h2⟩ := Sigma.mk.inj hk
      injection h1 with h1
      subst h1
      have := eq_of_heq h2
      injection this with this
      cases this
    by_cases hd : HasFlags c d
    · rw [hf.some hd]
      exact liftLK_ends hd k v replace (.S s) trivial (by simp [LNext.toNode, Node.visit, SNode.visit]) no0
    · rw [hf.none hd]
      exact .bottom no0

theorem LNode.insertK_ends {d : Nat} {h : BitVec c.w} (k : K) (v : V) (replace : Bool) (l : LNode K V) (hl : l.SizeOk)
    {flag : Option (Flag c)} (hf : FlagK h d flag) :
    (l.insertK c k v replace flag).Ends (InsC d k v replace (.L l)) (InsE c replace) := by
  rw [LNode.insertK, LNode.findK_eq, bind_def, bind_assoc']
  refine (look_ends _).bind (fun _ _ h => h.elim) fun cs r hr => ?_
  cases hr with
  | none no all =>
    by_cases hd : HasFlags c d
    · rw [hf.some hd]
      exact liftLK_ends hd k v replace (.L l) hl (by simpa [LNext.toNode, Node.visit] using LNode.visit_ne_nil l) no
    · rw [hf.none hd]
      refine .bottom ?_
      rw [List.append_nil]; exact no
  | some p e q eq yes =>
    cases replace with
    | false =>
      refine .found e (by simp [Node.visit, eq]) rfl yes.append
    | true =>
      show ((l.removeFromK c).bind _).Ends _ _
      refine (LNode.removeFromK_ends l hl).bind (fun _ _ h => h.elim) fun cs' r hr => ?_
      rcases hr with ⟨rfl, no, all⟩ | ⟨p', e', q', eq', hr, yes'⟩
      · refine .confused rfl e.1 yes.append (List.mem_append_right _ (List.mem_append_left _ (all e (by rw [eq]; simp))))
      · cases hr with
        | L l' h1 h2 =>
          intro _ _
          refine .replaced _ p' e' q' eq' ?_ (.L _ _ (LNode.new_sizeOk (m := .L l') h2)) (by simp [KindOk]) rfl
            (List.mem_append_right _ yes'.append)
          simp [Node.visit, LNode.new, LNode.visit, h1]
        | S s' h1 =>
          intro _ _
          refine .replaced _ p' e' q' eq' ?_ (.L _ _ (LNode.new_sizeOk (m := .S s') trivial)) (by simp [KindOk]) rfl
            (List.mem_append_right _ yes'.append)
          simp [Node.visit, LNode.new, LNode.visit, h1]

theorem Node.afterInsert_shape {d i : Nat} {k : K} {v : V} {replace : Bool} {bits : BitVec c.n}
    {values : List (Node c.n K V)} {extra : Nat} (wfC : (Node.C bits values extra).Shape d) {m1 : Node c.n K V}
    (hi : i < c.n) (hs : (Bia.mk bits values extra).slot i = some m1)
    {cs : List (Reply (KCall K V) (KAns K V c.w))} {r : InsertResult c.n K V}
    (hr : InsC (d + 1) k v replace m1 cs r) :
    ∃ r', Node.afterInsert bits values extra (bitAt c.n i) m1 r = .ok r' ∧
      InsC d k v replace (.C bits values extra) cs r' := by
  have wfC' : (Node.ofBia ⟨bits, values, extra⟩).Shape d := wfC
  cases wfC with
  | C _ _ _ _ hd ok sz ne sub =>
    obtain ⟨A, C, h0, hv⟩ := slot_frame (a := ⟨bits, values, extra⟩) ok hi
    simp only [slotVisit, hs] at h0
    have hex : extra = A.length + m1.visit.length + C.length := by rw [sz, h0]; simp [Nat.add_assoc]
    have hvis : (Node.C bits values extra).visit = A ++ m1.visit ++ C := h0
    have hsz1 := (sub _ _ hs).size_eq
    have main : ∀ (m' : Node c.n K V) (prev : Option (K × V)) (l : List (K × V)), m'.visit.Perm ((k, v) :: l) →
        m'.Shape (d + 1) → KindOk prev m1 m' → (prev = none → l.length = m1.visit.length) →
        (prev ≠ none → l.length + 1 = m1.visit.length) →
        ∃ b' v' z', Node.afterInsert bits values extra (bitAt c.n i) m1 (.inserted m' (k, v) prev) =
            .ok (.inserted (.C b' v' z') (k, v) prev) ∧ (Node.C b' v' z').Shape d ∧
          (Node.C b' v' z').visit.Perm ((k, v) :: (A ++ l ++ C)) := by
      intro m' prev l vis shape h5 hl1 hl2
      have hsz2 := shape.size_eq
      have hlen := vis.length_eq
      simp only [List.length_cons] at hlen
      have hstep : m1.insertStep extra (.inserted m' (k, v) prev) =
          .ok (.inr (m', extra + m'.visit.length - m1.visit.length, (k, v), prev)) := by
        have hl : m1.visit.length ≤ l.length + 1 := by
          by_cases hp : prev = none
          · have := hl1 hp; omega
          · have := hl2 hp; omega
        unfold Node.insertStep
        cases m1 <;> cases m' <;> simp only [KindOk] at h5 <;> simp only [hsz1, hsz2]
        · rw [usub, if_pos (by omega)]; rfl
        · have := hl1 h5
          rw [show extra + _ - _ = extra + 1 by omega]
        · rw [usub, if_pos (by omega)]; rfl
        · have := hl1 h5
          rw [show extra + _ - _ = extra + 1 by omega]
        · have := hl1 h5
          rw [show extra + _ - _ = extra + 1 by omega]
        · have := hl2 h5
          rw [show extra + _ - _ = extra by omega]
      rw [Node.afterInsert, hstep]
      simp only [Res.ok_bind]
      generalize hz : extra + m'.visit.length - m1.visit.length = z
      have e1 := Bia.updated_eq ⟨bits, values, extra⟩ ok c.n_le hs m' z
      have e2 := Bia.slot_updated ⟨bits, values, extra⟩ ok hs m' z
      have e3 := Bia.ok_updated ⟨bits, values, extra⟩ ok (onesBelow bits i) m' z
      simp only [e1, Res.ok_bind, Res.unwrapE_ok]
      have hv' := hv _ e3 (fun j hj => by rw [e2]; simp [hj])
      simp only [slotVisit, e2, if_true] at hv'
      refine ⟨_, _, _, rfl, shape_set wfC' e3 e2 ?_ shape ?_, ?_⟩
      · rw [hv']; simp only [List.length_append]; omega
      · intro h
        rw [h] at hlen; simp at hlen
      · show (Node.visitAll _).Perm _
        rw [hv']
        refine (List.Perm.append_right _ (List.Perm.append_left _ vis)).trans ?_
        exact (List.Perm.append_right C (List.perm_middle (a := (k, v)) (l₁ := A) (l₂ := l)))
    cases hr with
    | found e mem keep yes =>
      exact ⟨_, rfl, .found e (by rw [hvis]; simp [mem]) keep yes⟩
    | fresh m' no vis shape kind =>
      obtain ⟨b', v', z', h1, h2, h3⟩ := main m' none m1.visit vis shape kind (fun _ => rfl) (fun h => absurd rfl h)
      exact ⟨_, h1, .fresh _ no (by rw [hvis]; exact h3) h2 (by simp [KindOk])⟩
    | replaced m' p e q eq vis shape kind repl yes =>
      obtain ⟨b', v', z', h1, h2, h3⟩ := main m' (some e) (p ++ q) vis shape kind (fun h => by simp at h)
        (fun _ => by rw [eq]; simp; omega)
      exact ⟨_, h1, .replaced _ (A ++ p) e (q ++ C) (by rw [hvis, eq]; simp) (by simpa using h3) h2 (by simp [KindOk])
        repl yes⟩

theorem Node.afterInsert_tree {i : Nat} {bits : BitVec c.n} {values : List (Node c.n K V)} {extra : Nat}
    (m1 : Node c.n K V) (r : InsertResult c.n K V) :
    (((Tree.res (m1.insertStep extra r)).bind fun r =>
      match r with
      | .inl (fk, fv) => .ret (.found fk fv)
      | .inr (m, size, ptr, prev) =>
        (Tree.res ((Bia.mk bits values extra).updated (bitAt c.n i) m size)).bind fun a =>
        (Tree.res (Res.unwrapE a)).bind fun a => .ret (.inserted (Node.ofBia a) ptr prev)) :
      KTree c K V (InsertResult c.n K V)) =
      Tree.res (Node.afterInsert bits values extra (bitAt c.n i) m1 r) := by
  unfold Node.afterInsert
  cases m1.insertStep extra r with
  | panic p => rfl
  | diverge => rfl
  | ok r =>
    rcases r with ⟨fk, fv⟩ | ⟨m, size, ptr, prev⟩
    · rfl
    · simp only [res_ok, ret_bind, Res.ok_bind]
      cases (Bia.mk bits values extra).updated (bitAt c.n i) m size with
      | panic p => rfl
      | diverge => rfl
      | ok a =>
        simp only [res_ok, ret_bind, Res.ok_bind]
        cases Res.unwrapE a <;> rfl

theorem Node.insertK_ends {d : Nat} {m : Node c.n K V} (wf : m.Shape d) {h : BitVec c.w} (k : K) (v : V)
    (replace : Bool) {flag : Option (Flag c)} (hf : FlagK h d flag) :
    (m.insertK c k v replace flag).Ends (InsC d k v replace m) (InsE c replace) := by
  induction wf generalizing flag with
  | S d s => rw [Node.insertK]; exact SNode.insertK_ends k v replace s hf
  | L d l hl => rw [Node.insertK]; exact LNode.insertK_ends k v replace l hl hf
  | C d bits values extra hd ok sz ne sub ih =>
    have wfC : (Node.C bits values extra).Shape d := .C d bits values extra hd ok sz ne sub
    have wfC' : (Node.ofBia ⟨bits, values, extra⟩).Shape d := wfC
    have hi := wrapped_lt h d
    have ok' : (Bia.mk bits (Node.insertAllK c k v replace values) extra).Ok := by
      rw [Node.insertAllK_eq]; simpa [Bia.Ok] using ok
    rw [hf.some hd, Node.insertK]
    simp only [Res.unwrap_some, res_ok, bind_def, ret_bind]
    rw [show (flagDeep h d).flag = bitAt c.n (wrapped c h d) from rfl,
      Bia.at'_bitAt _ ok' hi, Node.insertAllK_eq, Bia.slot_map]
    cases hs : (Bia.mk bits values extra).slot (wrapped c h d) with
    | none =>
      obtain ⟨A, C, h0, hv⟩ := slot_frame (a := ⟨bits, values, extra⟩) ok hi
      have e1 := Bia.inserted_eq ⟨bits, values, extra⟩ ok c.n_le hi hs (Node.S ⟨k, v⟩) (extra + 1)
      have e2 := Bia.slot_inserted ⟨bits, values, extra⟩ ok hi hs (Node.S ⟨k, v⟩) (extra + 1)
      have e3 := Bia.ok_inserted ⟨bits, values, extra⟩ ok hi hs (Node.S ⟨k, v⟩) (extra + 1)
      have h0 : Node.visitAll values = A ++ [] ++ C := by simpa only [slotVisit, hs] using h0
      have hv' := hv _ e3 (fun j hj => by rw [e2]; simp [hj])
      simp only [slotVisit, e2, if_true, Node.visit, SNode.visit] at hv'
      have hperm : (A ++ [(k, v)] ++ C).Perm ((k, v) :: Node.visitAll values) := by
        rw [h0]; simp
      simp only [Option.map_none, e1, Res.unwrapE_ok, res_ok, ret_bind]
      intro _ _
      refine .fresh _ ?_ ?_ (shape_set wfC' e3 e2 ?_ (.S _ _) ?_) (by simp [KindOk, Node.ofBia])
      · intro k hk; simp at hk
      · show (Node.visitAll _).Perm _
        rw [hv', Node.visit]; exact hperm
      · show extra + 1 = _
        rw [hv', hperm.length_eq, sz]; rfl
      · simp [Node.visit, SNode.visit]
    | some m1 =>
      simp only [Option.map_some]
      rcases next_deep h d with ⟨nx, hnx, hnf⟩ | ⟨hc, hnx⟩
      · simp only [hnx, res_ok, ret_bind]
        rw [bind_assoc']
        refine (ih _ _ hs hnf).bind (fun _ _ h => h) fun cs r hr => ?_
        refine (congrArg (fun t : KTree c K V (InsertResult c.n K V) => t.Ends _ _) (Node.afterInsert_tree (i := wrapped c h d) (bits := bits)
          (values := values) m1 r)).mpr ?_
        obtain ⟨r', h1, h2⟩ := Node.afterInsert_shape wfC hi hs hr
        rw [h1]
        show InsC _ _ _ _ _ (cs ++ []) r'
        rw [List.append_nil]; exact h2
      · rw [hnx]; exact .overflow hc

end HT
