import Verif.EffLoop
import Verif.JointTree
/-! # Which calls the code makes, whatever the closures answer -/
namespace HT

variable {K V L W S X R : Type} {Q : Type} {A : Q → Type}

/-- Whatever the closures answer: if the code returns, it has made the calls `l`, in some order, and what it returns
    has `P`; if it stops early, it has made some of them. -/
def Tree.Calls {α : Type} (P : α → Prop) : Tree Q A α → List Q → Prop
  | .ret a, l => l = [] ∧ P a
  | .ask q k, l => ∃ l', l.Perm (q :: l') ∧ ∀ a, (k a).Calls P l'
  | .panic _, _ => True
  | .diverge, _ => True

section
variable {α β : Type}

theorem Tree.Calls.perm {P : α → Prop} {x : Tree Q A α} {l l' : List Q} (h : x.Calls P l) (hl : l.Perm l') :
    x.Calls P l' := by
  cases x with
  | ret a => obtain ⟨rfl, hp⟩ := h; exact ⟨hl.nil_eq.symm, hp⟩
  | ask q k => obtain ⟨l1, h1, h2⟩ := h; exact ⟨l1, hl.symm.trans h1, h2⟩
  | panic p => trivial
  | diverge => trivial

theorem Tree.Calls.bind {P : α → Prop} {P' : β → Prop} {x : Tree Q A α} {f : α → Tree Q A β} {l l' : List Q}
    (h : x.Calls P l) (hf : ∀ a, P a → (f a).Calls P' l') : (x.bind f).Calls P' (l ++ l') := by
  induction x generalizing l with
  | ret a => obtain ⟨rfl, hp⟩ := h; exact hf a hp
  | ask q k ih =>
    obtain ⟨l1, h1, h2⟩ := h
    exact ⟨l1 ++ l', h1.append_right l', fun a => ih a (h2 a)⟩
  | panic p => trivial
  | diverge => trivial

theorem Tree.Calls.mono {P P' : α → Prop} {x : Tree Q A α} {l : List Q} (h : x.Calls P l) (hp : ∀ a, P a → P' a) :
    x.Calls P' l := by
  induction x generalizing l with
  | ret a => exact ⟨h.1, hp a h.2⟩
  | ask q k ih =>
    obtain ⟨l1, h1, h2⟩ := h
    exact ⟨l1, h1, fun a => ih a (h2 a)⟩
  | panic p => trivial
  | diverge => trivial

/-- As `Tree.Calls`, of code that also allocates. -/
def Prog.Calls (x : Prog Q A α) (l : List Q) (P : α → Prop) : Prop := ∀ s, (x s).Calls (fun a => P a.1) l

/-- The calls alone. -/
abbrev Prog.CallsT (x : Prog Q A α) (l : List Q) : Prop := x.Calls l fun _ => True

namespace Prog.Calls

theorem perm {x : Prog Q A α} {P : α → Prop} {l l' : List Q} (h : x.Calls l P) (hl : l.Perm l') : x.Calls l' P :=
  fun s => (h s).perm hl

theorem eq {x : Prog Q A α} {P : α → Prop} {l l' : List Q} (h : x.Calls l P) (hl : l = l') : x.Calls l' P := hl ▸ h

theorem bind {x : Prog Q A α} {f : α → Prog Q A β} {P : α → Prop} {P' : β → Prop} {l l' : List Q}
    (h : x.Calls l P) (hf : ∀ a, P a → (f a).Calls l' P') : (x >>= f).Calls (l ++ l') P' :=
  fun s => (h s).bind fun a hp => hf a.1 hp a.2

theorem mono {x : Prog Q A α} {P P' : α → Prop} {l : List Q} (h : x.Calls l P) (hp : ∀ a, P a → P' a) :
    x.Calls l P' := fun s => (h s).mono fun a => hp a.1

theorem pure {P : α → Prop} {a : α} (h : P a) : Prog.Calls (Pure.pure a : Prog Q A α) [] P := fun _ => ⟨rfl, h⟩

theorem pureT {a : α} : Prog.CallsT (Pure.pure a : Prog Q A α) [] := fun _ => ⟨rfl, trivial⟩

theorem al {x : Al α} : Prog.CallsT (Prog.al x : Prog Q A α) [] := by
  intro s
  unfold Prog.al
  cases x s with
  | ok a => exact ⟨rfl, trivial⟩
  | panic p => trivial
  | diverge => trivial

theorem res {x : Res α} : Prog.Calls (Prog.res x : Prog Q A α) [] (fun a => x = .ok a) := by
  intro s
  cases x with
  | ok a => exact ⟨rfl, rfl⟩
  | panic p => trivial
  | diverge => trivial

theorem ask (q : Q) : Prog.CallsT (Prog.ask q : Prog Q A (A q)) [q] :=
  fun _ => ⟨[], .refl _, fun _ => ⟨rfl, trivial⟩⟩

/-- A step without calls first. -/
theorem bindNil {x : Prog Q A α} {f : α → Prog Q A β} {P : α → Prop} {P' : β → Prop} {l' : List Q}
    (h : x.Calls [] P) (hf : ∀ a, P a → (f a).Calls l' P') : (x >>= f).Calls l' P' := bind h hf

/-- A step without calls last. -/
theorem bindEnd {x : Prog Q A α} {f : α → Prog Q A β} {P : α → Prop} {P' : β → Prop} {l : List Q}
    (h : x.Calls l P) (hf : ∀ a, P a → (f a).Calls [] P') : (x >>= f).Calls l P' :=
  (bind h hf).eq (List.append_nil l)

/-- A step that only repackages. -/
theorem map {x : Prog Q A α} {f : α → β} {P : α → Prop} {l : List Q} (h : x.Calls l P) :
    Prog.CallsT (x >>= fun a => Pure.pure (f a)) l := bindEnd h fun _ _ => pureT

/-- Two steps and one without calls. -/
theorem two {γ : Type} {x : Prog Q A α} {y : Prog Q A β} {z : α → β → Prog Q A γ} {P : α → Prop} {P' : β → Prop}
    {l l' : List Q} (h : x.Calls l P) (h' : y.Calls l' P') (hz : ∀ a b, (z a b).CallsT []) :
    Prog.CallsT (do let a ← x; let b ← y; z a b) (l ++ l') :=
  bind h fun a _ => bindEnd h' fun b _ => hz a b

theorem ite {p : Prop} [Decidable p] {x y : Prog Q A α} {P : α → Prop} {l : List Q} (h : p → x.Calls l P)
    (h' : ¬ p → y.Calls l P) : Prog.Calls (if p then x else y) l P := by
  split
  · exact h ‹_›
  · exact h' ‹_›

end Prog.Calls

/-! ### The loop -/

namespace AAcc
variable {n : Nat}

theorem loopE_calls (reduce : R → R → R) {item : Nat → Prog Q A (AItem n K V R)} (l : Nat → List Q) (is : List Nat)
    (h : ∀ i ∈ is, (item i).CallsT (l i)) (acc : AAcc n K V R) :
    (loopE reduce item is acc).CallsT (is.flatMap l) := by
  induction is generalizing acc with
  | nil => exact .pureT
  | cons i is ih =>
    rw [List.flatMap_cons]
    refine .bind (h i (List.mem_cons_self ..)) fun it _ => .bindNil .res fun acc' _ => ?_
    exact ih (fun j hj => h j (List.mem_cons_of_mem _ hj)) acc'

theorem gatherE_calls (reduce : R → R → R) (e : R) (par : Par) {item : Nat → Prog Q A (AItem n K V R)}
    (l : Nat → List Q) (h : ∀ i, i < n → (item i).CallsT (l i)) :
    (gatherE reduce e par item).CallsT ((List.range n).flatMap l) := by
  cases par with
  | sequential =>
    rw [List.range_eq_range']
    exact loopE_calls reduce l _ (fun i hi => h i (by simpa using hi)) _
  | middleIndex =>
    have hr : List.range n = List.range' 0 (n / 2) ++ List.range' (n / 2) (n - n / 2) := by
      rw [List.range_eq_range']
      have := (List.range'_append (s := 0) (m := n / 2) (n := n - n / 2) (step := 1)).symm
      simp only [Nat.one_mul, Nat.zero_add] at this
      rw [← this]
      congr 1
      omega
    rw [hr, List.flatMap_append]
    refine .bind (loopE_calls reduce l _ (fun i hi => h i ?_) _) fun a _ =>
      .bindEnd (loopE_calls reduce l _ (fun i hi => h i ?_) _) fun b _ => .mono .res fun _ _ => trivial
    · have := List.mem_range'_1.1 hi; omega
    · have := List.mem_range'_1.1 hi; omega

end AAcc
end

/-! ### The operations -/

/-- The closures of the operation make the calls `q`; a bulk operation makes none. -/
inductive MapTransform.Asks {V' : Type} (q : K × V → List Q) :
    MapTransform R (K → V → Prog Q A (MapTransformResult V' R)) → Prop
  | generic {F : K → V → Prog Q A (MapTransformResult V' R)} :
      (∀ k v, (F k v).CallsT (q (k, v))) → Asks q (.generic F)
  | unchanged (r : R) : (∀ a, q a = []) → Asks q (.unchanged r)
  | removed (r : R) : (∀ a, q a = []) → Asks q (.removed r)

inductive MapTransform.Asks2 {V' : Type} (q : K × V → L × W → List Q) :
    MapTransform R (K → V → L → W → Prog Q A (MapTransformResult V' R)) → Prop
  | generic {F : K → V → L → W → Prog Q A (MapTransformResult V' R)} :
      (∀ k v l w, (F k v l w).CallsT (q (k, v) (l, w))) → Asks2 q (.generic F)
  | unchanged (r : R) : (∀ a b, q a b = []) → Asks2 q (.unchanged r)
  | removed (r : R) : (∀ a b, q a b = []) → Asks2 q (.removed r)

inductive MapTransmute.Asks (q : K × V → List Q) :
    MapTransmute R (K → V → Prog Q A (MapTransmuteResult S X R)) → Prop
  | generic {F : K → V → Prog Q A (MapTransmuteResult S X R)} :
      (∀ k v, (F k v).CallsT (q (k, v))) → Asks q (.generic F)
  | removed (r : R) : (∀ a, q a = []) → Asks q (.removed r)

inductive MapTransmute.Asks2 (q : K × V → L × W → List Q) :
    MapTransmute R (K → V → L → W → Prog Q A (MapTransmuteResult S X R)) → Prop
  | generic {F : K → V → L → W → Prog Q A (MapTransmuteResult S X R)} :
      (∀ k v l w, (F k v l w).CallsT (q (k, v) (l, w))) → Asks2 q (.generic F)
  | removed (r : R) : (∀ a b, q a b = []) → Asks2 q (.removed r)

/-- For the joint closure the calls are those of the arguments in the original order. -/
inductive MapJointTransform.Asks (q : K × V → K × V → List Q) :
    MapJointTransform R (K → V → K → V → Prog Q A (MapJointTransformResult V R)) → Prop
  | plain {F : K → V → K → V → Prog Q A (MapJointTransformResult V R)} :
      (∀ k v l w, (F k v l w).CallsT (q (k, v) (l, w))) → Asks q (.generic F false)
  | flipped {F : K → V → K → V → Prog Q A (MapJointTransformResult V R)} :
      (∀ k v l w, (F k v l w).CallsT (q (l, w) (k, v))) → Asks q (.generic F true)
  | unchangedLR (r : R) : (∀ a b, q a b = []) → Asks q (.unchangedLR r)
  | unchangedL (r : R) : (∀ a b, q a b = []) → Asks q (.unchangedL r)
  | unchangedR (r : R) : (∀ a b, q a b = []) → Asks q (.unchangedR r)
  | removed (r : R) : (∀ a b, q a b = []) → Asks q (.removed r)

section

theorem MapTransform.Asks.call {q : K × V → List Q}
    {op : MapTransform R (K → V → Prog Q A (MapTransformResult V R))} (h : op.Asks q) (k : K) (v : V) :
    (op.callM k v).CallsT (q (k, v)) := by
  cases h with
  | generic h => exact h k v
  | unchanged r h => rw [h]; exact .pureT
  | removed r h => rw [h]; exact .pureT

theorem MapTransform.Asks2.call {Y : Type} {q : K × V → L × W → List Q}
    {op : MapTransform R (K → V → L → W → Prog Q A (MapTransformResult Y R))} (h : op.Asks2 q) (k : K) (v : V) (l : L)
    (w : W) : (op.call2M k v l w).CallsT (q (k, v) (l, w)) := by
  cases h with
  | generic h => exact h k v l w
  | unchanged r h => rw [h]; exact .pureT
  | removed r h => rw [h]; exact .pureT

theorem MapTransform.Asks2.flip {Y : Type} {q : K × V → L × W → List Q}
    {op : MapTransform R (K → V → L → W → Prog Q A (MapTransformResult Y R))} (h : op.Asks2 q) :
    op.flip2M.Asks2 (fun b a => q a b) := by
  cases h with
  | generic h => exact .generic fun l w k v => h k v l w
  | unchanged r h => exact .unchanged r fun b a => h a b
  | removed r h => exact .removed r fun b a => h a b

theorem MapTransmute.Asks.call {q : K × V → List Q}
    {op : MapTransmute R (K → V → Prog Q A (MapTransmuteResult S X R))} (h : op.Asks q) (k : K) (v : V) :
    (op.callM k v).CallsT (q (k, v)) := by
  cases h with
  | generic h => exact h k v
  | removed r h => rw [h]; exact .pureT

theorem MapTransmute.Asks2.call {q : K × V → L × W → List Q}
    {op : MapTransmute R (K → V → L → W → Prog Q A (MapTransmuteResult S X R))} (h : op.Asks2 q) (k : K) (v : V) (l : L)
    (w : W) : (op.call2M k v l w).CallsT (q (k, v) (l, w)) := by
  cases h with
  | generic h => exact h k v l w
  | removed r h => rw [h]; exact .pureT

theorem MapTransmute.Asks2.flip {q : K × V → L × W → List Q}
    {op : MapTransmute R (K → V → L → W → Prog Q A (MapTransmuteResult S X R))} (h : op.Asks2 q) :
    op.flipM.Asks2 (fun b a => q a b) := by
  cases h with
  | generic h => exact .generic fun l w k v => h k v l w
  | removed r h => exact .removed r fun b a => h a b

theorem MapJointTransform.Asks.call {q : K × V → K × V → List Q}
    {op : MapJointTransform R (K → V → K → V → Prog Q A (MapJointTransformResult V R))} (h : op.Asks q) (k : K) (v : V)
    (l : K) (w : V) : (op.callM k v l w).CallsT (q (k, v) (l, w)) := by
  cases h with
  | plain h => exact h k v l w
  | flipped h => exact .map (h l w k v)
  | unchangedLR r h => rw [h]; exact .pureT
  | unchangedL r h => rw [h]; exact .pureT
  | unchangedR r h => rw [h]; exact .pureT
  | removed r h => rw [h]; exact .pureT

theorem MapJointTransform.Asks.flip {q : K × V → K × V → List Q}
    {op : MapJointTransform R (K → V → K → V → Prog Q A (MapJointTransformResult V R))} (h : op.Asks q) :
    op.flip.Asks (fun b a => q a b) := by
  cases h with
  | plain h => exact .flipped h
  | flipped h => exact .plain fun k v l w => h k v l w
  | unchangedLR r h => exact .unchangedLR r fun b a => h a b
  | unchangedL r h => exact .unchangedL r fun b a => h a b
  | unchangedR r h => exact .unchangedR r fun b a => h a b
  | removed r h => exact .removed r fun b a => h a b

end

/-- The calls for the cases are `qs`. -/
structure TwmOpsM.Asks (o : TwmOpsM Q A K V L W R) (qs : Case (K × V) (L × W) → List Q) : Prop where
  both : o.both.Asks2 fun a b => qs (.both a b)
  left : o.left.Asks fun a => qs (.left a)
  right : o.right.Asks fun b => qs (.right b)

structure MwtOpsM.Asks (o : MwtOpsM Q A K V L W R) (qs : Case (K × V) (L × W) → List Q) : Prop where
  both : o.both.Asks2 fun a b => qs (.both a b)
  left : o.left.Asks fun a => qs (.left a)
  right : o.right.Asks fun b => qs (.right b)

structure MwmOpsM.Asks (o : MwmOpsM Q A K V L W S X R) (qs : Case (K × V) (L × W) → List Q) : Prop where
  both : o.both.Asks2 fun a b => qs (.both a b)
  left : o.left.Asks fun a => qs (.left a)
  right : o.right.Asks fun b => qs (.right b)

structure TwtOpsM.Asks (o : TwtOpsM Q A K V R) (qs : Case (K × V) (K × V) → List Q) : Prop where
  both : o.both.Asks fun a b => qs (.both a b)
  left : o.left.Asks fun a => qs (.left a)
  right : o.right.Asks fun b => qs (.right b)

theorem TwmOpsM.Asks.flip {o : TwmOpsM Q A K V L W R} {qs : Case (K × V) (L × W) → List Q} (h : o.Asks qs) :
    o.flip.Asks (fun p => qs p.flip) := ⟨h.both.flip, h.right, h.left⟩

theorem MwtOpsM.Asks.flip {o : MwtOpsM Q A K V L W R} {qs : Case (K × V) (L × W) → List Q} (h : o.Asks qs) :
    o.flip.Asks (fun p => qs p.flip) := ⟨h.both.flip, h.right, h.left⟩

theorem MwmOpsM.Asks.flip {o : MwmOpsM Q A K V L W S X R} {qs : Case (K × V) (L × W) → List Q} (h : o.Asks qs) :
    o.flip.Asks (fun p => qs p.flip) := ⟨h.both.flip, h.right, h.left⟩

theorem TwtOpsM.Asks.flip {o : TwtOpsM Q A K V R} {qs : Case (K × V) (K × V) → List Q} (h : o.Asks qs) :
    o.flip.Asks (fun p => qs p.flip) := ⟨h.both.flip, h.right, h.left⟩

/-! ### transform and transmute -/

theorem ASNode.transformE_calls {op : MapTransform R (K → V → Prog Q A (MapTransformResult V R))} {q : K × V → List Q}
    (h : op.Asks q) (s : ASNode K V) : (s.transformE op).CallsT (s.erase.visit.flatMap q) :=
  (Prog.Calls.bindEnd (h.call s.key s.value) fun _ _ => .al).eq (by simp [ASNode.erase, SNode.visit])

theorem ASNode.transmuteE_calls {op : MapTransmute R (K → V → Prog Q A (MapTransmuteResult S X R))} {q : K × V → List Q}
    (h : op.Asks q) (s : ASNode K V) : (s.transmuteE op).CallsT (s.erase.visit.flatMap q) :=
  (Prog.Calls.bindEnd (h.call s.key s.value) fun _ _ => .al).eq (by simp [ASNode.erase, SNode.visit])

theorem flatMap_nil_fun {α β : Type} {q : α → List β} (h : ∀ a, q a = []) (l : List α) : l.flatMap q = [] := by
  induction l with
  | nil => rfl
  | cons a l ih => rw [List.flatMap_cons, h, ih]; rfl

theorem ALNode.transformE_calls (reduce : R → R → R) {op : MapTransform R (K → V → Prog Q A (MapTransformResult V R))}
    {q : K × V → List Q} (h : op.Asks q) (l : ALNode K V) :
    (l.transformE reduce op).CallsT (l.erase.visit.flatMap q) := by
  cases h with
  | unchanged r hq => rw [flatMap_nil_fun hq]; cases l <;> exact .pureT
  | removed r hq => rw [flatMap_nil_fun hq]; cases l <;> exact .pureT
  | generic hf =>
    induction l with
    | nextS a k v s z =>
      exact (Prog.Calls.two (ASNode.transformE_calls (.generic hf) s) (hf k v) fun _ _ => .al).perm List.perm_append_comm
    | nextL a k v l z ih =>
      exact (Prog.Calls.two ih (hf k v) fun _ _ => .al).perm List.perm_append_comm

theorem ALNode.transmuteE_calls (reduce : R → R → R) {op : MapTransmute R (K → V → Prog Q A (MapTransmuteResult S X R))}
    {q : K × V → List Q} (h : op.Asks q) (l : ALNode K V) :
    (l.transmuteE reduce op).CallsT (l.erase.visit.flatMap q) := by
  cases h with
  | removed r hq => rw [flatMap_nil_fun hq]; cases l <;> exact .pureT
  | generic hf =>
    induction l with
    | nextS a k v s z =>
      exact (Prog.Calls.two (ASNode.transmuteE_calls (.generic hf) s) (hf k v) fun _ _ => .al).perm List.perm_append_comm
    | nextL a k v l z ih =>
      exact (Prog.Calls.two ih (hf k v) fun _ _ => .al).perm List.perm_append_comm

/-- The slots of the addressed children. -/
theorem Bia.atBitIndex_erased {c : Cfg} {β : Type} {bits : BitVec c.n} {vs : List (ANode c.n K V)} {extra : Nat}
    (ok : (Bia.mk bits (vs.map ANode.erase) extra).Ok) (f : ANode c.n K V → β) (i : Nat) :
    ((Bia.mk bits (vs.map ANode.erase) extra).slot i = none ∧
      ∃ er, (Bia.mk bits (vs.map f) extra).atBitIndex i = .ok (.error er)) ∨
    ∃ m ∈ vs, (Bia.mk bits (vs.map ANode.erase) extra).slot i = some m.erase ∧
      (Bia.mk bits (vs.map f) extra).atBitIndex i = .ok (.ok (f m)) := by
  have ok' : (Bia.mk bits (vs.map f) extra).Ok := by simpa [Bia.Ok] using ok
  rw [Bia.atBitIndex_eq _ ok', Bia.slot_map, Bia.slot_map]
  cases h : (Bia.mk bits vs extra).slot i with
  | none => exact .inl ⟨rfl, _, rfl⟩
  | some m => exact .inr ⟨m, Bia.slot_mem h, rfl, rfl⟩

section
variable [BEq K] {c : Cfg} {hash : K → BitVec c.w} {mx : Nat}

theorem ANode.transformE_calls (reduce : R → R → R) (e : R)
    {op : MapTransform R (K → V → Prog Q A (MapTransformResult V R))} {q : K × V → List Q} (h : op.Asks q) (par : Par)
    (m : ANode c.n K V) {d : Nat} (wf : m.erase.WF hash mx d) :
    (m.transformE reduce e op par).CallsT (m.erase.visit.flatMap q) := by
  unfold ANode.transformE
  suffices H : ∀ (m : ANode c.n K V) (d' : Nat), ∀ d, m.erase.WF hash mx d →
      (ANode.fold _ _ (transformEC reduce e op par) m d').CallsT (m.erase.visit.flatMap q) from H m 0 d wf
  clear wf m d
  intro m d'
  refine ANode.recDepth (motive := fun m d' => ∀ d, m.erase.WF hash mx d →
      (ANode.fold _ _ (transformEC reduce e op par) m d').CallsT (m.erase.visit.flatMap q)) ?_ ?_ ?_ m d'
  · intro s d' d _
    exact .map (s.transformE_calls h)
  · intro l d' d _
    exact .map (l.transformE_calls reduce h)
  · intro a bits vs extra d' ih d wf
    rw [ANode.erase_C] at wf ⊢
    rw [ANode.fold, ANode.foldAll_eq]
    cases h with
    | unchanged r hq => rw [flatMap_nil_fun hq]; exact .pureT
    | removed r hq => rw [flatMap_nil_fun hq]; exact .pureT
    | generic hf =>
      cases wf with
      | C _ _ _ _ hd ok sz ne at_ sub =>
        refine .bindEnd (P := fun _ => True) ?_ fun _ _ => .al
        have hv : (Node.C bits (vs.map ANode.erase) extra).visit.flatMap q =
            (List.range c.n).flatMap fun i => (slotVisit ⟨bits, vs.map ANode.erase, extra⟩ i).flatMap q := by
          rw [Node.visit, visit_slots ⟨bits, vs.map ANode.erase, extra⟩ ok, List.flatMap_assoc]
        rw [hv]
        refine AAcc.gatherE_calls reduce e par _ fun i _ => ?_
        rcases Bia.atBitIndex_erased (vs := vs) ok (fun m => (m, ANode.fold _ _ _ m (d' + 1))) i with
          ⟨h1, er, h2⟩ | ⟨m, hm, h1, h2⟩
        · rw [h2, slotVisit_none h1]
          exact .pureT
        · rw [h2, slotVisit_some h1]
          exact .map (ih m hm _ (sub _ _ h1))

theorem ANode.transmuteE_calls (reduce : R → R → R) (e : R)
    {op : MapTransmute R (K → V → Prog Q A (MapTransmuteResult S X R))} {q : K × V → List Q} (h : op.Asks q)
    (m : ANode c.n K V) {d : Nat} (wf : m.erase.WF hash mx d) :
    (m.transmuteE reduce e op).CallsT (m.erase.visit.flatMap q) := by
  unfold ANode.transmuteE
  suffices H : ∀ (m : ANode c.n K V) (d' : Nat), ∀ d, m.erase.WF hash mx d →
      (ANode.fold _ _ (transmuteEC reduce e op) m d').CallsT (m.erase.visit.flatMap q) from H m 0 d wf
  clear wf m d
  intro m d'
  refine ANode.recDepth (motive := fun m d' => ∀ d, m.erase.WF hash mx d →
      (ANode.fold _ _ (transmuteEC reduce e op) m d').CallsT (m.erase.visit.flatMap q)) ?_ ?_ ?_ m d'
  · intro s d' d _
    exact .map (s.transmuteE_calls h)
  · intro l d' d _
    exact .map (l.transmuteE_calls reduce h)
  · intro a bits vs extra d' ih d wf
    rw [ANode.erase_C] at wf ⊢
    rw [ANode.fold, ANode.foldAll_eq]
    cases h with
    | removed r hq => rw [flatMap_nil_fun hq]; exact .pureT
    | generic hf =>
      cases wf with
      | C _ _ _ _ hd ok sz ne at_ sub =>
        refine .bindEnd (P := fun _ => True) ?_ fun _ _ => .al
        have hv : (Node.C bits (vs.map ANode.erase) extra).visit.flatMap q =
            (List.range c.n).flatMap fun i => (slotVisit ⟨bits, vs.map ANode.erase, extra⟩ i).flatMap q := by
          rw [Node.visit, visit_slots ⟨bits, vs.map ANode.erase, extra⟩ ok, List.flatMap_assoc]
        rw [hv]
        refine AAcc.gatherE_calls reduce e _ _ fun i _ => ?_
        rcases Bia.atBitIndex_erased (vs := vs) ok (fun m => (m, ANode.fold _ _ _ m (d' + 1))) i with
          ⟨h1, er, h2⟩ | ⟨m, hm, h1, h2⟩
        · rw [h2, slotVisit_none h1]
          exact .pureT
        · rw [h2, slotVisit_some h1]
          exact .map (ih m hm _ (sub _ _ h1))

end

/-! ### The loops of the joint operations -/

section
variable [BEq K] [BEq L] {c : Cfg} {x : Cross c K L}

theorem aflatLoop_calls (laws : CrossLaws x) (reduce : R → R → R) (e : R) {bits : BitVec c.n}
    {vs : List (ANode c.n K V)} {extra d : Nat}
    (wf : (Node.C bits (vs.map ANode.erase) extra).WF x.hash c.levels d) {bs : List (L × W)} (hb : DistinctKeys bs)
    {hv : BitVec c.w} (h2 : ∀ b ∈ bs, x.hash' b.1 = hv) {ρ : Type} {f elsewhere : ANode c.n K V → Prog Q A ρ}
    {alone : Prog Q A ρ} {item : Option (ANode c.n K V) → ρ → Res (AItem c.n S X R)}
    {qs : Case (K × V) (L × W) → List Q}
    (hf : ∀ m ∈ vs, (Bia.mk bits (vs.map ANode.erase) extra).slot (chunk c hv d) = some m.erase →
      (f m).CallsT ((x.cases m.erase.visit bs).flatMap qs))
    (hl : ∀ m ∈ vs, m.erase.WF x.hash c.levels (d + 1) →
      (elsewhere m).CallsT (m.erase.visit.flatMap fun a => qs (.left a)))
    (hr : alone.CallsT (bs.flatMap fun b => qs (.right b))) :
    (aflatLoop reduce e hv d ⟨bits, vs.map fun m => (m, f m), extra⟩ elsewhere alone item).CallsT
      ((x.cases (Node.C bits (vs.map ANode.erase) extra).visit bs).flatMap qs) := by
  have hda := Node.WF.distinct laws.left.hash wf
  cases wf with
  | C _ _ _ _ hd ok sz ne at_ sub =>
    have hsv : (Node.C bits (vs.map ANode.erase) extra).visit =
        (List.range c.n).flatMap (slotVisit ⟨bits, vs.map ANode.erase, extra⟩) := by
      rw [Node.visit]; exact visit_slots ⟨bits, vs.map ANode.erase, extra⟩ ok
    have hfl := flatSlot_flatMap c hv d bs
    have ha : DistinctKeys ((List.range c.n).flatMap (slotVisit ⟨bits, vs.map ANode.erase, extra⟩)) := by
      rw [← hsv]; exact hda
    have hb' : DistinctKeys ((List.range c.n).flatMap (flatSlot c hv d bs)) := by rw [hfl]; exact hb
    have c1 := slotVisit_chunk (a := ⟨bits, vs.map ANode.erase, extra⟩) at_
    have c2 : ∀ i, ∀ b ∈ flatSlot c hv d bs i, chunk c (x.hash' b.1) d = i := by
      intro i b hbb
      simp only [flatSlot] at hbb
      split at hbb
      · next h => rw [h2 b hbb, h]
      · simp at hbb
    have hp := (slots_perm laws ha hb' c1 c2).flatMap_right qs
    rw [hfl, ← hsv, List.flatMap_assoc] at hp
    refine Prog.Calls.perm ?_ hp
    refine .bindNil .res fun fl hfl => ?_
    rw [flagOf, Flag.newAtDepth_eq hv (c.levels_within d hd), Res.ok_bind, Res.unwrap_some] at hfl
    injection hfl with hfl
    subst hfl
    refine AAcc.gatherE_calls reduce e _ _ fun i hi => ?_
    have hbit : Prog.Calls (Prog.res (Res.unwrapE (nthBit c.n i)) : Prog Q A _) [] (fun b => b = bitAt c.n i) := by
      rw [nthBit_ok hi]
      exact .mono .res fun a ha => by simpa using ha.symm
    have skip : ∀ {a : ρ} {o : Option (ANode c.n K V)}, Prog.CallsT (Prog.res (item o a) : Prog Q A _) [] :=
      .mono .res fun _ _ => trivial
    rcases Bia.atBitIndex_erased (vs := vs) ok (fun m => (m, f m)) i with ⟨q1, er, q2⟩ | ⟨m, hm, q1, q2⟩
    · rw [q2, slotVisit_none q1]
      refine .bindNil .res fun ch hch => ?_
      injection hch with hch
      subst hch
      refine .bindNil hbit fun b hb => ?_
      subst hb
      refine .ite (fun hc => ?_) fun hc => ?_
      · have hc := bitAt_inj hi hc.symm
        subst hc
        refine (Prog.Calls.bindEnd hr fun _ _ => skip).eq ?_
        simp only [flatSlot, if_true, Cross.cases, jointCases_nil_left, List.flatMap_map]
      · have hc : i ≠ chunk c hv d := fun e => hc (congrArg (bitAt c.n) e.symm)
        simp only [flatSlot, hc, if_false, Cross.cases, jointCases_nil_left, List.map_nil, List.flatMap_nil]
        exact .pureT
    · rw [q2, slotVisit_some q1]
      refine .bindNil .res fun ch hch => ?_
      injection hch with hch
      subst hch
      refine .bindNil hbit fun b hb => ?_
      subst hb
      refine .ite (fun hc => ?_) fun hc => ?_
      · have hc := bitAt_inj hi hc.symm
        subst hc
        simp only [flatSlot, if_true]
        exact .bindEnd (hf m hm q1) fun _ _ => skip
      · have hc : i ≠ chunk c hv d := fun e => hc (congrArg (bitAt c.n) e.symm)
        refine (Prog.Calls.bindEnd (hl m hm (sub _ _ q1)) fun _ _ => skip).eq ?_
        simp only [flatSlot, hc, if_false, Cross.cases, jointCases_nil_right, List.flatMap_map]

theorem abothLoop_calls (laws : CrossLaws x) (reduce : R → R → R) (e : R) (par : Par) {bits : BitVec c.n}
    {vs : List (ANode c.n K V)} {extra d : Nat}
    (wf : (Node.C bits (vs.map ANode.erase) extra).WF x.hash c.levels d)
    {rbits : BitVec c.n} {rvs : List (ANode c.n L W)} {rextra : Nat}
    (wr : (Node.C rbits (rvs.map ANode.erase) rextra).WF x.hash' c.levels d) {ρ : Type}
    {f : ANode c.n K V → ANode c.n L W → Prog Q A ρ} {onlyL : ANode c.n K V → Prog Q A ρ}
    {onlyR : ANode c.n L W → Prog Q A ρ}
    {item : Option (ANode c.n K V) → Option (ANode c.n L W) → ρ → Res (AItem c.n S X R)}
    {qs : Case (K × V) (L × W) → List Q}
    (hf : ∀ i, ∀ m ∈ vs, ∀ r ∈ rvs, (Bia.mk bits (vs.map ANode.erase) extra).slot i = some m.erase →
      (Bia.mk rbits (rvs.map ANode.erase) rextra).slot i = some r.erase →
      (f m r).CallsT ((x.cases m.erase.visit r.erase.visit).flatMap qs))
    (hl : ∀ m ∈ vs, m.erase.WF x.hash c.levels (d + 1) →
      (onlyL m).CallsT (m.erase.visit.flatMap fun a => qs (.left a)))
    (hr : ∀ r ∈ rvs, r.erase.WF x.hash' c.levels (d + 1) →
      (onlyR r).CallsT (r.erase.visit.flatMap fun b => qs (.right b))) :
    (abothLoop reduce e par ⟨bits, vs.map fun m => (m, f m), extra⟩ ⟨rbits, rvs, rextra⟩ onlyL onlyR item).CallsT
      ((x.cases (Node.C bits (vs.map ANode.erase) extra).visit
        (Node.C rbits (rvs.map ANode.erase) rextra).visit).flatMap qs) := by
  have hda := Node.WF.distinct laws.left.hash wf
  have hdb := Node.WF.distinct laws.right.hash wr
  cases wf with
  | C _ _ _ _ hd ok sz ne at_ sub =>
    cases wr with
    | C _ _ _ _ hd' okr szr ner atr subr =>
      have hsv : (Node.C bits (vs.map ANode.erase) extra).visit =
          (List.range c.n).flatMap (slotVisit ⟨bits, vs.map ANode.erase, extra⟩) := by
        rw [Node.visit]; exact visit_slots ⟨bits, vs.map ANode.erase, extra⟩ ok
      have hsr : (Node.C rbits (rvs.map ANode.erase) rextra).visit =
          (List.range c.n).flatMap (slotVisit ⟨rbits, rvs.map ANode.erase, rextra⟩) := by
        rw [Node.visit]; exact visit_slots ⟨rbits, rvs.map ANode.erase, rextra⟩ okr
      have ha : DistinctKeys ((List.range c.n).flatMap (slotVisit ⟨bits, vs.map ANode.erase, extra⟩)) := by
        rw [← hsv]; exact hda
      have hb : DistinctKeys ((List.range c.n).flatMap (slotVisit ⟨rbits, rvs.map ANode.erase, rextra⟩)) := by
        rw [← hsr]; exact hdb
      have c1 := slotVisit_chunk (a := ⟨bits, vs.map ANode.erase, extra⟩) at_
      have c2 := slotVisit_chunk (a := ⟨rbits, rvs.map ANode.erase, rextra⟩) atr
      have hp := (slots_perm laws ha hb c1 c2).flatMap_right qs
      rw [← hsv, ← hsr, List.flatMap_assoc] at hp
      refine Prog.Calls.perm ?_ hp
      refine AAcc.gatherE_calls reduce e _ _ fun i hi => ?_
      have skip : ∀ {a : ρ} {o : Option (ANode c.n K V)} {o' : Option (ANode c.n L W)},
          Prog.CallsT (Prog.res (item o o' a) : Prog Q A _) [] := .mono .res fun _ _ => trivial
      have hid : Bia.mk rbits rvs rextra = Bia.mk rbits (rvs.map id) rextra := by rw [List.map_id]
      rw [hid]
      rcases Bia.atBitIndex_erased (vs := vs) ok (fun m => (m, f m)) i with ⟨q1, er, q2⟩ | ⟨m, hm, q1, q2⟩ <;>
        rcases Bia.atBitIndex_erased (vs := rvs) okr id i with ⟨p1, er', p2⟩ | ⟨r, hrm, p1, p2⟩
      · rw [q2, p2, slotVisit_none q1, slotVisit_none p1]
        refine .bindNil .res fun ch hch => .bindNil .res fun ch' hch' => ?_
        injection hch with hch
        injection hch' with hch'
        subst hch; subst hch'
        exact .pureT
      · rw [q2, p2, slotVisit_none q1, slotVisit_some p1]
        refine .bindNil .res fun ch hch => .bindNil .res fun ch' hch' => ?_
        injection hch with hch
        injection hch' with hch'
        subst hch; subst hch'
        refine (Prog.Calls.bindEnd (hr r hrm (subr _ _ p1)) fun _ _ => skip).eq ?_
        simp only [Cross.cases, jointCases_nil_left, List.flatMap_map]
      · rw [q2, p2, slotVisit_some q1, slotVisit_none p1]
        refine .bindNil .res fun ch hch => .bindNil .res fun ch' hch' => ?_
        injection hch with hch
        injection hch' with hch'
        subst hch; subst hch'
        refine (Prog.Calls.bindEnd (hl m hm (sub _ _ q1)) fun _ _ => skip).eq ?_
        simp only [Cross.cases, jointCases_nil_right, List.flatMap_map]
      · rw [q2, p2, slotVisit_some q1, slotVisit_some p1]
        refine .bindNil .res fun ch hch => .bindNil .res fun ch' hch' => ?_
        injection hch with hch
        injection hch' with hch'
        subst hch; subst hch'
        exact .bindEnd (hf i m hm r hrm q1 p1) fun _ _ => skip

end
end HT
