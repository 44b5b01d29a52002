import Verif.ChaosBase
import Verif.KeyCallsInsert
/-! # find, remove and insert, whatever the keys' code answers -/
namespace HT

variable {K V : Type} {c : Cfg}

open Tree

/-- What `look` finds. -/
inductive Looked (l : List (K × V)) (cs : List (Reply (KCall K V) (KAns K V c.w))) :
    Option (List (K × V) × (K × V) × List (K × V)) → Prop
  | none (no : ∀ k, ¬ SaidYes cs k) (all : ∀ e ∈ l, SaidNo cs e.1) : Looked l cs none
  | some (p : List (K × V)) (e : K × V) (q : List (K × V)) (eq : l = p ++ e :: q) (yes : SaidYes cs e.1) :
      Looked l cs (some (p, e, q))

theorem look_ends (l : List (K × V)) : (look c l).Ends (Looked l) (fun _ _ => False) := by
  induction l with
  | nil => exact .none (by simp) (by simp)
  | cons e b ih =>
    rw [look]
    intro (a : Bool)
    cases a with
    | true =>
      simp only [if_true]
      exact .some [] e b rfl (List.mem_cons_self ..)
    | false =>
      simp only [Bool.false_eq_true, if_false]
      refine ih.bind (fun _ _ h => h) fun cs r hr => ?_
      cases hr with
      | none no all =>
        refine .none ?_ ?_
        · intro k hk
          simp only [List.append_nil, List.mem_cons] at hk
          rcases hk with hk | hk
          · obtain ⟨h1, h2⟩ := Sigma.mk.inj hk
            injection h1 with h1
            subst h1
            have := eq_of_heq h2
            injection this with this
            cases this
          · exact no k hk
        · intro e' he'
          rcases List.mem_cons.1 he' with rfl | he'
          · exact List.mem_cons_self ..
          · simp only [List.append_nil]
            exact List.mem_cons_of_mem _ (all e' he')
      | some p e' q eq yes =>
        refine .some (e :: p) e' q (by rw [eq]; rfl) ?_
        simp only [List.append_nil]
        exact List.mem_cons_of_mem _ yes

theorem copy_ends (l : List (K × V)) :
    (copy c l).Ends (fun cs _ => ∀ k, ¬ SaidYes cs k) (fun _ _ => False) := by
  induction l with
  | nil => intro k; simp
  | cons e b ih =>
    rw [copy]
    refine ih.bind (fun _ _ h => h) fun cs _ h => ?_
    intro _ _ k hk
    simp only [List.mem_append, List.mem_cons, List.not_mem_nil, or_false] at hk
    rcases hk with hk | hk | hk
    · exact h k hk
    · simp at hk
    · simp at hk

/-! ### find -/

/-- What `find` returns. -/
def Found (l : List (K × V)) (cs : List (Reply (KCall K V) (KAns K V c.w))) : Option (K × V) → Prop
  | none => ∀ k, ¬ SaidYes cs k
  | some e => e ∈ l ∧ SaidYes cs e.1

theorem lookFound_ends (l : List (K × V)) :
    ((look c l).bind fun r => Tree.ret (r.map fun (_, e, _) => e)).Ends (Found l) (fun _ _ => False) := by
  refine (look_ends l).bind (fun _ _ h => h) fun cs r hr => ?_
  cases hr with
  | none no all => simpa [Ends, Found] using no
  | some p e q eq yes =>
    refine ⟨by rw [eq]; simp, ?_⟩
    simpa using yes

theorem Found.mono {l l' : List (K × V)} (h : ∀ e ∈ l, e ∈ l') {cs : List (Reply (KCall K V) (KAns K V c.w))}
    {r : Option (K × V)} (hr : Found l cs r) : Found l' cs r := by
  cases r with
  | none => exact hr
  | some e => exact ⟨h _ hr.1, hr.2⟩

theorem Node.findK_ends {d : Nat} {m : Node c.n K V} (wf : m.Shape d) {h : BitVec c.w} (flag : Option (Flag c))
    (hf : HasFlags c d → flag = some (flagDeep h d)) :
    (m.findK c flag).Ends (Found m.visit) (fun _ _ => False) := by
  induction wf generalizing flag with
  | S d s =>
    rw [Node.findK, SNode.findK_eq]; exact lookFound_ends _
  | L d l hl =>
    rw [Node.findK, LNode.findK_eq]; exact lookFound_ends _
  | C d bits values extra hd ok sz ne sub ih =>
    rw [hf hd, Node.findK]
    simp only [Res.unwrap_some, res_ok, bind_def, ret_bind]
    have hi := wrapped_lt h d
    have ok' : (Bia.mk bits (Node.findAllK c values) extra).Ok := by
      rw [Node.findAllK_eq]; simpa [Bia.Ok] using ok
    rw [flagDeep, Bia.at'_bitAt _ ok' hi, Node.findAllK_eq, Bia.slot_map]
    cases hs : (Bia.mk bits values extra).slot (wrapped c h d) with
    | none => intro k; simp
    | some m1 =>
      obtain ⟨A, C, hv, _⟩ := slot_frame (a := ⟨bits, values, extra⟩) ok hi
      have hsub : ∀ e ∈ m1.visit, e ∈ (Node.C bits values extra).visit := by
        intro e he
        show e ∈ Node.visitAll values
        have hv : Node.visitAll values = _ := hv
        rw [hv]; simp [slotVisit, hs, he]
      simp only [Option.map_some]
      have wfm := sub _ _ hs
      cases m1 with
      | S s => rw [Node.childFindK, SNode.findK_eq]; exact (lookFound_ends _).mono (fun _ _ => Found.mono hsub) fun _ _ h => h
      | L l => rw [Node.childFindK, LNode.findK_eq]; exact (lookFound_ends _).mono (fun _ _ => Found.mono hsub) fun _ _ h => h
      | C b' v' e' =>
        cases wfm with
        | C _ _ _ _ hd' _ _ _ _ =>
          have hnx : (⟨h, d, bitAt c.n (wrapped c h d)⟩ : Flag c).next = _ := Flag.newAtDepth_deep h hd'
          simp only [Node.childFindK, hnx, res_ok, bind_def, ret_bind]
          exact (ih _ _ hs _ fun _ => rfl).mono (fun _ _ => Found.mono hsub) fun _ _ h => h

/-! ### Flags -/

/-- The flag handed to a node at depth `d`. -/
structure FlagK (h : BitVec c.w) (d : Nat) (flag : Option (Flag c)) : Prop where
  some : HasFlags c d → flag = .some (flagDeep h d)
  none : ¬ HasFlags c d → flag = .none

theorem next_deep (h : BitVec c.w) (d : Nat) :
    (∃ nx, (flagDeep h d).next = .ok nx ∧ FlagK h (d + 1) nx) ∨
      (c.checked = true ∧ (flagDeep h d).next = .panic .shiftOverflow) := by
  by_cases hd : HasFlags c (d + 1)
  · exact .inl ⟨_, Flag.newAtDepth_deep h hd, fun _ => rfl, fun h => absurd hd h⟩
  · rcases Flag.newAtDepth_shallow h hd with h1 | h1
    · exact .inl ⟨_, h1, fun h => absurd h hd, fun _ => rfl⟩
    · exact .inr h1

/-- The panic of checked builds. -/
def Overflows (c : Cfg) {Q : Type} {A : Q → Type} (_ : List (Reply Q A)) (p : Panic) : Prop :=
  p = .shiftOverflow ∧ c.checked = true

theorem SaidYes.append {cs cs' : List (Reply (KCall K V) (KAns K V c.w))} {k : K} (h : SaidYes cs k) :
    SaidYes (cs ++ cs') k := List.mem_append_left _ h

/-! ### remove -/

/-- What `remove` returns in a node of entries `l`. -/
inductive RemC (d : Nat) (l : List (K × V)) (cs : List (Reply (KCall K V) (KAns K V c.w))) :
    RemoveResult c.n K V → Prop
  | none (no : ∀ k, ¬ SaidYes cs k) : RemC d l cs .notFound
  | removed (m' : Node c.n K V) (p : List (K × V)) (e : K × V) (q : List (K × V)) (eq : l = p ++ e :: q)
      (vis : m'.visit = p ++ q) (ne : p ++ q ≠ []) (shape : m'.Shape d) (yes : SaidYes cs e.1) :
      RemC d l cs (.removed m' e.1 e.2)
  | removedZ (e : K × V) (eq : l = [e]) (yes : SaidYes cs e.1) : RemC d l cs (.removedZ e.1 e.2)

theorem Node.removeStep_shape {d i : Nat} {bits : BitVec c.n} {values : List (Node c.n K V)} {extra : Nat}
    (wfC : (Node.C bits values extra).Shape d) {m1 : Node c.n K V} (hi : i < c.n)
    (hs : (Bia.mk bits values extra).slot i = some m1) {cs : List (Reply (KCall K V) (KAns K V c.w))}
    {r : RemoveResult c.n K V} (hr : RemC (d + 1) m1.visit cs r) :
    ∃ r', Node.removeStep bits values extra (bitAt c.n i) r = .ok r' ∧ RemC d (Node.C bits values extra).visit cs r' := by
  have wfC' : (Node.ofBia ⟨bits, values, extra⟩).Shape d := wfC
  cases wfC with
  | C _ _ _ _ hd ok sz ne sub =>
    obtain ⟨A, C, h0, hv⟩ := slot_frame (a := ⟨bits, values, extra⟩) ok hi
    simp only [slotVisit, hs] at h0
    have hex : extra = A.length + m1.visit.length + C.length := by rw [sz, h0]; simp [Nat.add_assoc]
    have hvis : (Node.C bits values extra).visit = A ++ m1.visit ++ C := h0
    cases hr with
    | none no => exact ⟨_, rfl, .none no⟩
    | removed m' p e q eq vis ne' shape yes =>
      have hlen := congrArg List.length eq
      simp only [List.length_append, List.length_cons] at hlen
      have key : ∀ r : Res (RemoveResult c.n K V), r = (do
          let z ← usub extra 1
          let a ← (Bia.mk bits values extra).updated (bitAt c.n i) m' z
          let a ← Res.unwrapE a
          .ok (.removed (Node.ofBia a) e.1 e.2)) →
          ∃ x, r = .ok x ∧ RemC d (Node.C bits values extra).visit cs x := by
        intro r hr
        rw [hr, usub, if_pos (by omega)]
        have e1 := Bia.updated_eq ⟨bits, values, extra⟩ ok c.n_le hs m' (extra - 1)
        have e2 := Bia.slot_updated ⟨bits, values, extra⟩ ok hs m' (extra - 1)
        have e3 := Bia.ok_updated ⟨bits, values, extra⟩ ok (onesBelow bits i) m' (extra - 1)
        simp only [e1, Res.ok_bind, Res.unwrapE_ok]
        have hv' := hv _ e3 (fun j hj => by rw [e2]; simp [hj])
        simp only [slotVisit, e2, if_true, vis] at hv'
        refine ⟨_, rfl, .removed _ (A ++ p) e (q ++ C) (by rw [hvis, eq]; simp) ?_ ?_ (shape_set wfC' e3 e2 ?_ shape ?_)
          yes⟩
        · refine hv'.trans ?_; simp
        · intro h
          apply ne'
          simp only [List.append_eq_nil_iff] at h ⊢
          exact ⟨h.1.2, h.2.1⟩
        · simp only [hv', List.length_append]; omega
        · rw [vis]; exact ne'
      apply key
      have hsz := shape.size_eq
      cases m' with
      | C b' v' e' =>
        cases e' with
        | zero =>
          simp only [Node.size, vis] at hsz
          exact absurd (List.length_eq_zero_iff.1 hsz.symm) ne'
        | succ e' => rfl
      | L l => rfl
      | S s => rfl
    | removedZ e eq yes =>
      have hlen := congrArg List.length eq
      simp only [List.length_cons, List.length_nil] at hlen
      simp only [Node.removeStep]
      by_cases he1 : extra = 1
      · rw [if_pos he1]
        refine ⟨_, rfl, .removedZ e ?_ yes⟩
        have hA : A = [] := List.length_eq_zero_iff.1 (by omega)
        have hC : C = [] := List.length_eq_zero_iff.1 (by omega)
        rw [hvis, eq]; simp [hA, hC]
      · rw [if_neg he1, usub, if_pos (by omega)]
        have e1 := Bia.removed_eq ⟨bits, values, extra⟩ ok c.n_le hs (extra - 1)
        have e2 := Bia.slot_removed ⟨bits, values, extra⟩ ok hs (extra - 1)
        have e3 := Bia.ok_removed ⟨bits, values, extra⟩ ok hs (extra - 1)
        simp only [e1, Res.ok_bind, Res.unwrapE_ok]
        have hv' := hv _ e3 (fun j hj => by rw [e2]; simp [hj])
        simp only [slotVisit, e2, if_true] at hv'
        refine ⟨_, rfl, .removed _ A e C (by rw [hvis, eq]; simp) ?_ ?_ ?_ yes⟩
        · refine hv'.trans ?_; simp
        · intro h
          have := congrArg List.length h
          simp only [List.length_append, List.length_nil] at this
          omega
        · refine .C d _ _ _ hd e3 ?_ ?_ ?_
          · simp only [hv', List.length_append, List.length_nil]; omega
          · intro j m hj
            rw [e2] at hj
            split at hj
            · simp at hj
            · exact ne j m hj
          · intro j m hj
            rw [e2] at hj
            split at hj
            · simp at hj
            · exact sub j m hj

theorem LNode.removeFromK_ends (l : LNode K V) (hs : l.SizeOk) :
    (l.removeFromK c).Ends (fun cs r =>
      (r = .notFound ∧ (∀ k, ¬ SaidYes cs k) ∧ ∀ e ∈ l.visit, SaidNo cs e.1) ∨
      ∃ p e q, l.visit = p ++ e :: q ∧ LRem (p ++ q) e r ∧ SaidYes cs e.1) (fun _ _ => False) := by
  obtain ⟨g, h1, h2⟩ := LNode.removeFromK_eq (c := c) l hs
  rw [h1]
  refine (look_ends _).bind (fun _ _ h => h) fun cs r hr => ?_
  cases hr with
  | none no all =>
    refine .inl ⟨rfl, ?_⟩
    rw [List.append_nil]
    exact ⟨no, all⟩
  | some p e q eq yes =>
    refine (copy_ends p).bind (fun _ _ h => h) fun cs' _ _ => ?_
    exact .inr ⟨p, e, q, eq, h2 p e q eq, SaidYes.append yes⟩

theorem Node.removeK_ends {d : Nat} {m : Node c.n K V} (wf : m.Shape d) {h : BitVec c.w} {flag : Option (Flag c)}
    (hf : FlagK h d flag) : (m.removeK c flag).Ends (RemC d m.visit) (Overflows c) := by
  induction wf generalizing flag with
  | S d s =>
    rw [Node.removeK, SNode.removeK, askEq_bind]
    intro (a : Bool)
    cases a with
    | true => exact .removedZ (s.key, s.value) rfl (List.mem_cons_self ..)
    | false =>
      refine .none ?_
      intro k hk
      simp only [List.mem_singleton] at hk
      obtain ⟨h1, h2⟩ := Sigma.mk.inj hk
      injection h1 with h1
      subst h1
      have := eq_of_heq h2
      injection this with this
      cases this
  | L d l hl =>
    rw [Node.removeK, LNode.removeK, bind_def]
    refine (LNode.removeFromK_ends l hl).bind (fun _ _ h => h.elim) fun cs r hr => ?_
    rcases hr with ⟨rfl, no, _⟩ | ⟨p, e, q, eq, hr, yes⟩
    · refine .none ?_
      rw [List.append_nil]; exact no
    · have yes' : SaidYes (cs ++ []) e.1 := yes.append
      cases hr with
      | L l' h1 h2 =>
        exact .removed _ p e q eq h1 (by rw [← h1]; exact LNode.visit_ne_nil _) (.L _ _ h2) yes'
      | S s' h1 =>
        exact .removed _ p e q eq h1 (by rw [← h1]; simp [SNode.visit]) (.S _ _) yes'
  | C d bits values extra hd ok sz ne sub ih =>
    have wfC : (Node.C bits values extra).Shape d := .C d bits values extra hd ok sz ne sub
    have hi := wrapped_lt h d
    have ok' : (Bia.mk bits (Node.removeAllK c values) extra).Ok := by
      rw [Node.removeAllK_eq]; simpa [Bia.Ok] using ok
    rw [hf.some hd, Node.removeK]
    simp only [Res.unwrap_some, res_ok, bind_def, ret_bind]
    rw [show (flagDeep h d).flag = bitAt c.n (wrapped c h d) from rfl,
      Bia.at'_bitAt _ ok' hi, Node.removeAllK_eq, Bia.slot_map]
    cases hs : (Bia.mk bits values extra).slot (wrapped c h d) with
    | none => exact .none (by simp)
    | some m1 =>
      simp only [Option.map_some]
      rcases next_deep h d with ⟨nx, hnx, hnf⟩ | ⟨hc, hnx⟩
      · simp only [hnx, res_ok, ret_bind]
        refine (ih _ _ hs hnf).bind (fun _ _ h => h) fun cs r hr => ?_
        obtain ⟨r', h1, h2⟩ := Node.removeStep_shape wfC hi hs hr
        rw [h1]
        show RemC _ _ (cs ++ []) r'
        rw [List.append_nil]; exact h2
      · rw [hnx]; exact ⟨rfl, hc⟩

end HT
