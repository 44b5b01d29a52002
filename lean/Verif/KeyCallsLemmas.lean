import Verif.KeyCallsSpec
import Verif.Lawless
/-! # The operations are the reference programs of `KeyCallsSpec` -/
namespace HT

namespace Tree
variable {Q : Type} {A : Q → Type} {α β γ : Type}

theorem bind_def (x : Tree Q A α) (f : α → Tree Q A β) : (x >>= f) = x.bind f := rfl
theorem pure_def (a : α) : (pure a : Tree Q A α) = .ret a := rfl
theorem ret_bind (a : α) (f : α → Tree Q A β) : (Tree.ret a).bind f = f a := rfl
theorem ask_bind (q : Q) (k : A q → Tree Q A α) (f : α → Tree Q A β) :
    (Tree.ask q k).bind f = .ask q fun a => (k a).bind f := rfl
theorem panic_bind (p : Panic) (f : α → Tree Q A β) : (Tree.panic p).bind f = .panic p := rfl
theorem one_bind (q : Q) (f : A q → Tree Q A β) : (Tree.one q).bind f = .ask q f := rfl
theorem res_ok (a : α) : (Tree.res (.ok a) : Tree Q A α) = .ret a := rfl

theorem bind_assoc' (x : Tree Q A α) (f : α → Tree Q A β) (g : β → Tree Q A γ) :
    (x.bind f).bind g = x.bind fun a => (f a).bind g := by
  induction x with
  | ret a => rfl
  | panic p => rfl
  | diverge => rfl
  | ask q k ih => simp only [ask_bind]; congr 1; funext a; exact ih a

theorem ite_bind {p : Prop} [Decidable p] (x y : Tree Q A α) (f : α → Tree Q A β) :
    (if p then x else y).bind f = if p then x.bind f else y.bind f := by split <;> rfl

end Tree

variable {K V : Type} {c : Cfg} {hash : K → BitVec c.w}

open Tree

theorem ask_eq_congr {α : Type} {k : K} {f g : Bool → KTree c K V α} (ht : f true = g true) (hf : f false = g false) :
    (Tree.ask (A := KAns K V c.w) (.eq k) f : KTree c K V α) = Tree.ask (.eq k) g := by
  congr 1; funext (a : Bool); cases a
  · exact hf
  · exact ht

/-- The continuation of `look` in a list of at least one entry. -/
def lookNext (c : Cfg) (e : K × V) (b : List (K × V)) {α : Type}
    (f : Option (List (K × V) × (K × V) × List (K × V)) → KTree c K V α) (yes : Bool) : KTree c K V α :=
  if yes then f (some ([], e, b))
  else (look c b).bind fun r => f (r.map fun (p, e', q) => (e :: p, e', q))

theorem look_cons (e : K × V) (b : List (K × V)) {α : Type}
    (f : Option (List (K × V) × (K × V) × List (K × V)) → KTree c K V α) :
    (look c (e :: b)).bind f = Tree.ask (A := KAns K V c.w) (.eq e.1) (lookNext c e b f) := by
  refine ask_eq_congr (f := fun yes => (if yes then Tree.ret (some ([], e, b))
    else (look c b).bind fun r => .ret (r.map fun (p, e', q) => (e :: p, e', q))).bind f) ?_ ?_
  · rfl
  · simp only [lookNext, Bool.false_eq_true, if_false, bind_assoc', ret_bind]

theorem askEq_bind {α : Type} (k : K) (f : Bool → KTree c K V α) :
    ((askEq c k : KTree c K V Bool) >>= f) = Tree.ask (.eq k) f := rfl

theorem look_congr {α : Type} {b : List (K × V)}
    {f g : Option (List (K × V) × (K × V) × List (K × V)) → KTree c K V α} (h0 : f none = g none)
    (h1 : ∀ p e q, b = p ++ e :: q → f (some (p, e, q)) = g (some (p, e, q))) :
    (look c b).bind f = (look c b).bind g := by
  induction b generalizing f g with
  | nil => exact h0
  | cons e b ih =>
    rw [look_cons, look_cons]
    refine ask_eq_congr ?_ ?_
    · exact h1 [] e b rfl
    · apply ih
      · exact h0
      · intro p e' q hb
        exact h1 (e :: p) e' q (by rw [hb]; rfl)

theorem askInto_eq : (askInto c : KTree c K V Unit) = convert c := rfl

theorem SNode.findK_eq (s : SNode K V) :
    s.findK c = (look c s.visit).bind fun r => .ret (r.map fun (_, e, _) => e) := by
  rw [SNode.findK, askEq_bind, SNode.visit, look_cons]
  exact ask_eq_congr rfl rfl

theorem LNode.findK_eq (l : LNode K V) :
    l.findK c = (look c l.visit).bind fun r => .ret (r.map fun (_, e, _) => e) := by
  induction l with
  | nextS k v s z =>
    rw [LNode.findK, askEq_bind, LNode.visit, look_cons]
    refine ask_eq_congr rfl ?_
    simp only [lookNext, Bool.false_eq_true, if_false, SNode.findK_eq]
    congr 1; funext r; cases r <;> rfl
  | nextL k v l z ih =>
    rw [LNode.findK, askEq_bind, LNode.visit, look_cons]
    refine ask_eq_congr rfl ?_
    simp only [lookNext, Bool.false_eq_true, if_false, ih]
    congr 1; funext r; cases r <;> rfl

/-- What `remove_from_lnode` returns when the entries before and after the removed one are `p` and `q`. -/
inductive LRem (l : List (K × V)) (e : K × V) : LNodeRemoveResult K V → Prop
  | L (l' : LNode K V) : l'.visit = l → l'.SizeOk → LRem l e (.removedL l' e.1 e.2)
  | S (s' : SNode K V) : s'.visit = l → LRem l e (.removedS s' e.1 e.2)

theorem LNode.removeFromK_eq (l : LNode K V) (hs : l.SizeOk) :
    ∃ g : List (K × V) → K × V → List (K × V) → LNodeRemoveResult K V,
      l.removeFromK c = ((look c l.visit).bind fun
        | none => .ret .notFound
        | some (p, e, q) => (copy c p).bind fun _ => .ret (g p e q)) ∧
      ∀ p e q, l.visit = p ++ e :: q → LRem (p ++ q) e (g p e q) := by
  induction l with
  | nextS k v s z =>
    refine ⟨fun p e q => match p with
      | [] => .removedS s k v
      | _ => .removedS ⟨k, v⟩ s.key s.value, ?_, ?_⟩
    · rw [LNode.removeFromK, askEq_bind, LNode.visit, look_cons]
      refine ask_eq_congr rfl ?_
      simp only [lookNext, Bool.false_eq_true, if_false]
      rw [SNode.visit, look_cons]
      exact ask_eq_congr rfl rfl
    · intro p e q h
      simp only [LNode.visit, SNode.visit] at h
      rcases p with _ | ⟨x, _ | ⟨y, p⟩⟩
      · simp only [List.nil_append, List.cons.injEq] at h
        obtain ⟨rfl, rfl⟩ := h
        exact .S s rfl
      · simp only [List.cons_append, List.nil_append, List.cons.injEq] at h
        obtain ⟨rfl, rfl, rfl⟩ := h
        exact .S ⟨k, v⟩ rfl
      · simp at h
  | nextL k v l z ih =>
    obtain ⟨g, hg, good⟩ := ih hs.2
    refine ⟨fun p e q => match p with
      | [] => .removedL l k v
      | _ :: p => match g p e q with
        | .notFound => .notFound
        | .removedL l' k' v' => .removedL (LNode.new k v (.L l')) k' v'
        | .removedS s' k' v' => .removedL (LNode.new k v (.S s')) k' v', ?_, ?_⟩
    · rw [LNode.removeFromK, askEq_bind, LNode.visit, look_cons]
      refine ask_eq_congr rfl ?_
      · simp only [lookNext, Bool.false_eq_true, if_false, hg, bind_def, bind_assoc']
        apply look_congr
        · rfl
        · intro p e q hb
          simp only [bind_assoc', ret_bind, Option.map_some, copy]
          congr 1
          funext _
          have := good p e q hb
          revert this
          generalize g p e q = r
          intro this
          cases this <;> rfl
    · intro p e q h
      simp only [LNode.visit] at h
      rcases p with _ | ⟨x, p⟩
      · simp only [List.nil_append, List.cons.injEq] at h
        obtain ⟨rfl, rfl⟩ := h
        exact .L l rfl hs.2
      · simp only [List.cons_append, List.cons.injEq] at h
        obtain ⟨rfl, h⟩ := h
        have := good p e q h
        revert this
        simp only
        generalize g p e q = r
        intro this
        cases this with
        | L l' h1 h2 => exact .L _ (by simp [LNode.new, LNode.visit, h1]) (by simp [LNode.new, LNode.SizeOk, h2])
        | S s' h1 => exact .L _ (by simp [LNode.new, LNode.visit, h1]) (by simp [LNode.new, LNode.SizeOk])

/-! ### Buckets -/

theorem Bucket.Of.whole {l : List (K × V)} {h : BitVec c.w}
    (hl : ∀ e ∈ l, ∀ e' ∈ l, hash e'.1 = hash e.1) : Bucket.Of hash l h ⟨[], l, []⟩ :=
  ⟨by simp, hl, by simp, by simp⟩

section
attribute [local instance] Lawless.noEq

theorem Bucket.Of.slot {d : Nat} {h : BitVec c.w} {a : Bia c.n (Node c.n K V)} (ok : a.Ok)
    (at_ : ∀ i m, a.slot i = some m → ∀ e ∈ m.visit, chunk c (hash e.1) d = i) {b : Bucket K V}
    (hb : Bucket.Of hash (slotVisit a (chunk c h d)) h b) :
    ∃ A C, Node.visitAll a.values = A ++ slotVisit a (chunk c h d) ++ C ∧
      (∀ a' : Bia c.n (Node c.n K V), a'.Ok → (∀ j, j ≠ chunk c h d → a'.slot j = a.slot j) →
        Node.visitAll a'.values = A ++ slotVisit a' (chunk c h d) ++ C) ∧
      Bucket.Of hash (Node.visitAll a.values) h ⟨A ++ b.before, b.mid, b.after ++ C⟩ := by
  have hi := chunk_lt h d
  have hin : ∀ j, ∀ e ∈ slotVisit a j, chunk c (hash e.1) d = j := by
    intro j e he
    simp only [slotVisit] at he
    cases hs : a.slot j with
    | none => rw [hs] at he; simp at he
    | some m => rw [hs] at he; exact at_ j m hs e he
  obtain ⟨l1, l2, hl, hl'⟩ : ∃ l1 l2, List.range c.n = l1 ++ chunk c h d :: l2 ∧
      ∀ j ∈ l1 ++ l2, j ≠ chunk c h d := by
    obtain ⟨l1, l2, hl⟩ := List.append_of_mem (List.mem_range.2 hi)
    have hn := List.nodup_range (n := c.n)
    rw [hl] at hn
    refine ⟨l1, l2, hl, ?_⟩
    intro j hj e
    subst e
    have h1 := List.nodup_append.1 hn
    rcases List.mem_append.1 hj with hj | hj
    · exact h1.2.2 _ hj _ (List.mem_cons_self ..) rfl
    · exact (List.nodup_cons.1 h1.2.1).1 hj
  have hv : Node.visitAll a.values =
      l1.flatMap (slotVisit a) ++ slotVisit a (chunk c h d) ++ l2.flatMap (slotVisit a) := by
    rw [visit_slots a ok, hl]; simp
  have hout : ∀ e ∈ l1.flatMap (slotVisit a) ++ l2.flatMap (slotVisit a),
      chunk c (hash e.1) d ≠ chunk c h d := by
    intro e he
    rw [← List.flatMap_append] at he
    obtain ⟨j, hj, he⟩ := List.mem_flatMap.1 he
    rw [hin j e he]; exact hl' j hj
  refine ⟨_, _, hv, ?_, ?_, hb.one, ?_, ?_⟩
  · intro a' ok' hne
    rw [visit_slots a' ok', hl, List.flatMap_append, List.flatMap_cons, ← List.append_assoc]
    congr 1
    · congr 1
      apply flatMap_congr'
      intro j hj
      simp [slotVisit, hne j (hl' j (List.mem_append_left _ hj))]
    · apply flatMap_congr'
      intro j hj
      simp [slotVisit, hne j (hl' j (List.mem_append_right _ hj))]
  · rw [hv, hb.eq]; simp
  · intro e he e' he' hh
    have hee : e ∈ slotVisit a (chunk c h d) := by rw [hb.eq]; simp [he]
    simp only [List.append_assoc, List.mem_append] at he'
    have h1 := hin _ e hee
    rcases he' with he' | he' | he' | he'
    · exact hout e' (List.mem_append_left _ he') (by rw [hh, h1])
    · exact hb.only e he e' (List.mem_append_left _ he') hh
    · exact hb.only e he e' (List.mem_append_right _ he') hh
    · exact hout e' (List.mem_append_right _ he') (by rw [hh, h1])
  · intro e' he' hh
    simp only [List.append_assoc, List.mem_append] at he'
    rcases he' with he' | he' | he' | he'
    · exact hout e' (List.mem_append_left _ he') (by rw [hh])
    · exact hb.all e' (List.mem_append_left _ he') hh
    · exact hb.all e' (List.mem_append_right _ he') hh
    · exact hout e' (List.mem_append_right _ he') (by rw [hh])

/-! ### find -/

/-- `find` in a child. -/
def Node.childFindK (m : Node c.n K V) (f : Flag c) : KTree c K V (Option (K × V)) :=
  match m with
  | .C .. => do
    let nx ← .res f.next
    m.findK c nx
  | .L l => l.findK c
  | .S s => s.findK c

theorem Node.findAllK_eq (ms : List (Node c.n K V)) :
    Node.findAllK c ms = ms.map Node.childFindK := by
  induction ms with
  | nil => rfl
  | cons m ms ih => rw [Node.findAllK, ih, List.map_cons]; rfl

theorem Node.findK_eq {h : BitVec c.w} {mx d : Nat} (lim : ∀ d, d < mx → d * c.b < c.w)
    {m : Node c.n K V} (wf : m.WF hash mx d) (flag : Option (Flag c))
    (hf : d * c.b < c.w → flag = some (flagAt h d)) :
    ∃ b, Bucket.Of hash m.visit h b ∧ m.findK c flag = findRef c b := by
  induction wf generalizing flag with
  | S d s =>
    refine ⟨⟨[], s.visit, []⟩, .whole ?_, ?_⟩
    · simp [Node.visit, SNode.visit]
    · rw [Node.findK, SNode.findK_eq]; rfl
  | L d l hl =>
    refine ⟨⟨[], l.visit, []⟩, .whole ?_, ?_⟩
    · intro e he e' he'; rw [hl.hash e he, hl.hash e' he']
    · rw [Node.findK, LNode.findK_eq]; rfl
  | C d bits values extra hd ok sz ne at_ sub ih =>
    rw [hf (lim d hd), Node.findK]
    simp only [Res.unwrap_some, res_ok, bind_def, ret_bind]
    have ok' : (Bia.mk bits (Node.findAllK c values) extra).Ok := by
      rw [Node.findAllK_eq]; simpa [Bia.Ok] using ok
    rw [flagAt, Bia.at'_bitAt _ ok' (chunk_lt h d), Node.findAllK_eq, Bia.slot_map]
    cases hs : (Bia.mk bits values extra).slot (chunk c h d) with
    | none =>
      have hsv : slotVisit (Bia.mk bits values extra) (chunk c h d) = [] := by simp [slotVisit, hs]
      obtain ⟨A, C, h1, h2, h3⟩ := Bucket.Of.slot (a := ⟨bits, values, extra⟩) (h := h) ok at_
        (b := ⟨[], [], []⟩) (by rw [hsv]; exact .whole (by simp))
      exact ⟨_, h3, rfl⟩
    | some m =>
      have hsv : slotVisit (Bia.mk bits values extra) (chunk c h d) = m.visit := by simp [slotVisit, hs]
      have key : ∃ b, Bucket.Of hash m.visit h b ∧ m.childFindK ⟨h, d, bitAt c.n (chunk c h d)⟩ = findRef c b := by
        have wfm := sub _ _ hs
        have ihm := ih _ _ hs
        cases wfm with
        | S _ s =>
          obtain ⟨b, h1, h2⟩ := ihm (some (flagAt h (d + 1))) (fun _ => rfl)
          exact ⟨b, h1, h2⟩
        | L _ l _ =>
          obtain ⟨b, h1, h2⟩ := ihm (some (flagAt h (d + 1))) (fun _ => rfl)
          exact ⟨b, h1, h2⟩
        | C _ b' v' e' hd' _ _ _ _ _ =>
          obtain ⟨b, h1, h2⟩ := ihm (some (flagAt h (d + 1))) (fun _ => rfl)
          refine ⟨b, h1, ?_⟩
          have hnx := Flag.next_eq h (lim _ hd')
          simp only [flagAt] at hnx
          simp only [Node.childFindK, hnx, res_ok, bind_def, ret_bind]
          exact h2
      obtain ⟨b, h1, h2⟩ := key
      obtain ⟨A, C, h3, h4, h5⟩ := Bucket.Of.slot (a := ⟨bits, values, extra⟩) (h := h) ok at_
        (b := b) (by rw [hsv]; exact h1)
      exact ⟨_, h5, h2⟩

/-! ### remove -/

/-- What `remove` returns in a node when it removes `e` and `l` remains. -/
inductive RemK (hash : K → BitVec c.w) (mx d : Nat) (l : List (K × V)) (e : K × V) : RemoveResult c.n K V → Prop
  | removed (m' : Node c.n K V) : m'.visit = l → l ≠ [] → m'.WF hash mx d → RemK hash mx d l e (.removed m' e.1 e.2)
  | removedZ : l = [] → RemK hash mx d l e (.removedZ e.1 e.2)

/-- `remove` in a node, once the bucket is known. -/
def nodeRemoveRef (c : Cfg) (b : Bucket K V) (g : List (K × V) → K × V → List (K × V) → RemoveResult c.n K V) :
    KTree c K V (RemoveResult c.n K V) :=
  (look c b.mid).bind fun
    | none => .ret .notFound
    | some (p, e, q) => (copy c p).bind fun _ => .ret (g p e q)

theorem Node.removeAllK_eq (ms : List (Node c.n K V)) :
    Node.removeAllK c ms = ms.map (fun m nx => m.removeK c nx) := by
  induction ms with
  | nil => rfl
  | cons m ms ih => rw [Node.removeAllK, ih, List.map_cons]

/-- The result of a computation that returns. -/
def Res.getD {α : Type} (d : α) : Res α → α
  | .ok a => a
  | _ => d

theorem Node.removeStep_ok {mx d : Nat} {h : BitVec c.w} {bits : BitVec c.n} {values : List (Node c.n K V)} {extra : Nat}
    (wfC : (Node.C bits values extra).WF hash mx d) {m1 : Node c.n K V}
    (hs : (Bia.mk bits values extra).slot (chunk c h d) = some m1) {A C l : List (K × V)}
    (hv : ∀ a' : Bia c.n (Node c.n K V), a'.Ok →
      (∀ j, j ≠ chunk c h d → a'.slot j = (Bia.mk bits values extra).slot j) →
        Node.visitAll a'.values = A ++ slotVisit a' (chunk c h d) ++ C) {e : K × V}
    (hl : l.length + 1 = m1.visit.length) (hsub : ∀ x ∈ l, x ∈ m1.visit) {r : RemoveResult c.n K V}
    (hr : RemK hash mx (d + 1) l e r) :
    ∃ r', Node.removeStep bits values extra (bitAt c.n (chunk c h d)) r = .ok r' ∧
      RemK hash mx d (A ++ l ++ C) e r' := by
  have wfC' : (Node.ofBia ⟨bits, values, extra⟩).WF hash mx d := wfC
  cases wfC with
  | C _ _ _ _ hd ok sz ne at_ sub =>
    have h0 := hv ⟨bits, values, extra⟩ ok (fun _ _ => rfl)
    simp only [slotVisit, hs] at h0
    have hex : extra = A.length + m1.visit.length + C.length := by rw [sz, h0]; simp [Nat.add_assoc]
    cases hr with
    | removed m' h1 h2 h3 =>
      have key : ∀ r : Res (RemoveResult c.n K V), r = (do
          let z ← usub extra 1
          let a ← (Bia.mk bits values extra).updated (bitAt c.n (chunk c h d)) m' z
          let a ← Res.unwrapE a
          .ok (.removed (Node.ofBia a) e.1 e.2)) →
          ∃ x, r = .ok x ∧ RemK hash mx d (A ++ l ++ C) e x := by
        intro r hr
        rw [hr, usub, if_pos (by omega)]
        have e1 := Bia.updated_eq ⟨bits, values, extra⟩ ok c.n_le hs m' (extra - 1)
        have e2 := Bia.slot_updated ⟨bits, values, extra⟩ ok hs m' (extra - 1)
        have e3 := Bia.ok_updated ⟨bits, values, extra⟩ ok (onesBelow bits (chunk c h d)) m' (extra - 1)
        simp only [e1, Res.ok_bind, Res.unwrapE_ok]
        have hv' := hv _ e3 (fun j hj => by rw [e2]; simp [hj])
        simp only [slotVisit, e2, if_true, h1] at hv'
        refine ⟨_, rfl, .removed _ hv' ?_ (wf_set wfC' e3 e2 ?_ h3 ?_ ?_)⟩
        · simp [h2]
        · simp only [hv', List.length_append]; omega
        · rw [h1]; exact h2
        · intro x hx
          rw [h1] at hx
          exact at_ _ _ hs x (hsub x hx)
      apply key
      have hsz := h3.size_eq
      cases m' with
      | C b' v' e' =>
        cases e' with
        | zero =>
          simp only [Node.size, h1] at hsz
          exact absurd (List.length_eq_zero_iff.1 hsz.symm) h2
        | succ e' => rfl
      | L l => rfl
      | S s => rfl
    | removedZ h1 =>
      subst h1
      simp only [List.length_nil] at hl
      simp only [Node.removeStep]
      by_cases he1 : extra = 1
      · rw [if_pos he1]
        refine ⟨_, rfl, .removedZ ?_⟩
        have hA : A = [] := List.length_eq_zero_iff.1 (by omega)
        have hC : C = [] := List.length_eq_zero_iff.1 (by omega)
        simp [hA, hC]
      · rw [if_neg he1, usub, if_pos (by omega)]
        have e1 := Bia.removed_eq ⟨bits, values, extra⟩ ok c.n_le hs (extra - 1)
        have e2 := Bia.slot_removed ⟨bits, values, extra⟩ ok hs (extra - 1)
        have e3 := Bia.ok_removed ⟨bits, values, extra⟩ ok hs (extra - 1)
        simp only [e1, Res.ok_bind, Res.unwrapE_ok]
        have hv' := hv _ e3 (fun j hj => by rw [e2]; simp [hj])
        simp only [slotVisit, e2, if_true] at hv'
        refine ⟨_, rfl, .removed _ hv' ?_ ?_⟩
        · intro h
          have := congrArg List.length h
          simp only [List.length_append, List.length_nil] at this
          omega
        · refine .C d _ _ _ hd e3 ?_ ?_ ?_ ?_
          · simp only [hv', List.length_append, List.length_nil]; omega
          · intro j m hj
            rw [e2] at hj
            split at hj
            · simp at hj
            · exact ne j m hj
          · intro j m hj
            rw [e2] at hj
            split at hj
            · simp at hj
            · exact at_ j m hj
          · intro j m hj
            rw [e2] at hj
            split at hj
            · simp at hj
            · exact sub j m hj

theorem Node.removeK_eq {h : BitVec c.w} {mx d : Nat} (lim : ∀ d, d < mx → d * c.b < c.w)
    {m : Node c.n K V} (wf : m.WF hash mx d) {flag : Option (Flag c)} (hf : FlagFor h d flag) :
    ∃ b, Bucket.Of hash m.visit h b ∧
      ((∃ g, m.removeK c flag = nodeRemoveRef c b g ∧ ∀ p e q, b.mid = p ++ e :: q →
        RemK hash mx d (b.before ++ (p ++ q) ++ b.after) e (g p e q)) ∨
      (c.checked = true ∧ m.removeK c flag = .panic .shiftOverflow)) := by
  induction wf generalizing flag with
  | S d s =>
    refine ⟨⟨[], s.visit, []⟩, .whole (by simp [Node.visit, SNode.visit]), .inl
      ⟨fun _ e _ => .removedZ e.1 e.2, ?_, ?_⟩⟩
    · rw [Node.removeK, SNode.removeK, askEq_bind, nodeRemoveRef, SNode.visit, look_cons]
      exact ask_eq_congr rfl rfl
    · intro p e q hb
      simp only [SNode.visit] at hb
      have : p = [] ∧ q = [] := by
        have := congrArg List.length hb
        simp at this
        exact ⟨List.length_eq_zero_iff.1 (by omega), List.length_eq_zero_iff.1 (by omega)⟩
      refine .removedZ ?_
      simp [this.1, this.2]
  | L d l wl =>
    obtain ⟨g, h1, h2⟩ := LNode.removeFromK_eq (c := c) l wl.size
    refine ⟨⟨[], l.visit, []⟩, .whole ?_, .inl ⟨fun p e q => match g p e q with
      | .notFound => .notFound
      | .removedL l k v => .removed (.L l) k v
      | .removedS s k v => .removed (.S s) k v, ?_, ?_⟩⟩
    · intro e he e' he'; rw [wl.hash e he, wl.hash e' he']
    · rw [Node.removeK, LNode.removeK, h1, bind_def, bind_assoc', nodeRemoveRef]
      congr 1; funext r
      rcases r with _ | ⟨p, e, q⟩
      · rfl
      · simp only [bind_assoc', ret_bind]
        congr 1; funext _
        cases g p e q <;> rfl
    · intro p e q hb
      have := h2 p e q hb
      have hb' : l.visit = p ++ e :: q := hb
      revert this
      simp only [List.nil_append, List.append_nil]
      generalize g p e q = r
      intro this
      cases this with
      | L l' h3 h4 =>
        refine .removed _ h3 (by rw [← h3]; exact LNode.visit_ne_nil _) (.L _ _ ⟨h4, ?_, Lawless.keys_any _⟩)
        have hk'' : hash l'.key = hash l.key := by
          have : (l'.key, l'.value) ∈ l'.visit := by
            cases l' <;> simp [LNode.visit, LNode.key, LNode.value]
          rw [h3] at this
          apply wl.hash (l'.key, l'.value)
          rw [hb']
          simp only [List.mem_append, List.mem_cons] at this ⊢
          rcases this with h | h
          · exact .inl h
          · exact .inr (.inr h)
        intro x hx
        rw [h3] at hx
        rw [hk'', wl.hash]
        rw [hb']
        simp only [List.mem_append, List.mem_cons] at hx ⊢
        rcases hx with h | h
        · exact .inl h
        · exact .inr (.inr h)
      | S s' h3 => exact .removed _ h3 (by rw [← h3]; simp [SNode.visit]) (.S _ _)
  | C d bits values extra hd ok sz ne at_ sub ih =>
    have wfC : (Node.C bits values extra).WF hash mx d :=
      .C d bits values extra hd ok sz ne at_ sub
    obtain ⟨f, rfl, hf1, hf2, hf3⟩ := hf
    have hlt := lim d hd
    have hff := hf3 hlt
    subst hff
    rw [Node.removeK]
    simp only [Res.unwrap_some, res_ok, bind_def, ret_bind]
    have hi := chunk_lt h d
    have ok' : (Bia.mk bits (Node.removeAllK c values) extra).Ok := by
      rw [Node.removeAllK_eq]; simpa [Bia.Ok] using ok
    rw [show (flagAt h d).flag = bitAt c.n (chunk c h d) from rfl,
      Bia.at'_bitAt _ ok' hi, Node.removeAllK_eq, Bia.slot_map]
    cases hs : (Bia.mk bits values extra).slot (chunk c h d) with
    | none =>
      have hsv : slotVisit (Bia.mk bits values extra) (chunk c h d) = [] := by simp [slotVisit, hs]
      obtain ⟨A, C, h1, h2, h3⟩ := Bucket.Of.slot (a := ⟨bits, values, extra⟩) (h := h) ok at_
        (b := ⟨[], [], []⟩) (by rw [hsv]; exact .whole (by simp))
      exact ⟨_, h3, .inl ⟨fun _ _ _ => .notFound, rfl, fun p e q hb => by simp at hb⟩⟩
    | some m1 =>
      have hsv : slotVisit (Bia.mk bits values extra) (chunk c h d) = m1.visit := by simp [slotVisit, hs]
      simp only [Option.map_some]
      rcases next_cases h hlt with ⟨nx, hnx, hnf⟩ | ⟨hc, hw, hnx⟩
      · obtain ⟨b, hb, hr⟩ := ih _ _ hs hnf
        obtain ⟨A, C, h3, h4, h5⟩ := Bucket.Of.slot (a := ⟨bits, values, extra⟩) (h := h) ok at_
          (b := b) (by rw [hsv]; exact hb)
        refine ⟨_, h5, ?_⟩
        simp only [hnx, res_ok, ret_bind]
        rcases hr with ⟨g, hg, good⟩ | ⟨hc, hp⟩
        · left
          have step : ∀ p e q, b.mid = p ++ e :: q →
              ∃ r', Node.removeStep bits values extra (bitAt c.n (chunk c h d)) (g p e q) = .ok r' ∧
                RemK hash mx d (A ++ (b.before ++ (p ++ q) ++ b.after) ++ C) e r' := by
            intro p e q hm
            refine Node.removeStep_ok wfC hs h4 ?_ ?_ (good p e q hm)
            · rw [hb.eq, hm]; simp; omega
            · intro x hx
              rw [hb.eq, hm]
              simp only [List.mem_append, List.mem_cons] at hx ⊢
              rcases hx with (h | h | h) | h
              · exact .inl (.inl h)
              · exact .inl (.inr (.inl h))
              · exact .inl (.inr (.inr (.inr h)))
              · exact .inr h
          refine ⟨fun p e q => Res.getD .notFound (Node.removeStep bits values extra (bitAt c.n (chunk c h d)) (g p e q)),
            ?_, ?_⟩
          · rw [hg, nodeRemoveRef, nodeRemoveRef, bind_assoc']
            apply look_congr
            · rfl
            · intro p e q hm
              obtain ⟨r', hr', _⟩ := step p e q hm
              simp only [bind_assoc', ret_bind, hr', res_ok, Res.getD]
          · intro p e q hm
            obtain ⟨r', hr', hk⟩ := step p e q hm
            simp only [hr', Res.getD]
            simpa using hk
        · right
          exact ⟨hc, by rw [hp]; rfl⟩
      · obtain ⟨b, hb, _⟩ := Node.findK_eq (h := h) lim (sub _ _ hs) (some (flagAt h (d + 1))) (fun _ => rfl)
        obtain ⟨A, C, h3, h4, h5⟩ := Bucket.Of.slot (a := ⟨bits, values, extra⟩) (h := h) ok at_
          (b := b) (by rw [hsv]; exact hb)
        refine ⟨_, h5, .inr ⟨hc, ?_⟩⟩
        rw [hnx]; rfl

end
end HT
