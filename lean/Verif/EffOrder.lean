import Verif.EffCallsTrie
import Verif.OrderSpec
/-! # The order in which `transform` and `transmute` call the closure -/
namespace HT

variable {K V L W S X R : Type} {Q : Type} {A : Q → Type} {α β : Type}

/-- Whatever the closures answer: if the code returns, it has made the calls `l` in this order; if it stops early, it has
    made the first of them. -/
def Tree.Order : Tree Q A α → List Q → Prop
  | .ret _, l => l = []
  | .ask q k, l => ∃ l', l = q :: l' ∧ ∀ a, (k a).Order l'
  | .panic _, _ => True
  | .diverge, _ => True

theorem Tree.Order.bind {x : Tree Q A α} {f : α → Tree Q A β} {l l' : List Q}
    (h : x.Order l) (hf : ∀ a, (f a).Order l') : (x.bind f).Order (l ++ l') := by
  induction x generalizing l with
  | ret a => cases h; exact hf a
  | ask q k ih =>
    obtain ⟨l1, rfl, h2⟩ := h
    exact ⟨l1 ++ l', rfl, fun a => ih a (h2 a)⟩
  | panic p => trivial
  | diverge => trivial

/-- A run makes the first calls of the list. -/
theorem Tree.Order.run {σ : Type} {x : Tree Q A α} {l : List Q} (h : x.Order l)
    (env : (q : Q) → σ → Option (A q × σ)) (st : σ) : (x.run env st).2.map Sigma.fst <+: l := by
  induction x generalizing l st with
  | ret a => cases h; exact List.prefix_refl _
  | panic p => exact List.nil_prefix
  | diverge => exact List.nil_prefix
  | ask q k ih =>
    obtain ⟨l', rfl, h2⟩ := h
    rw [Tree.run]
    cases he : env q st with
    | none => exact List.prefix_cons_inj q |>.2 List.nil_prefix
    | some p => exact List.prefix_cons_inj q |>.2 (ih p.1 (h2 p.1) p.2)

/-- As `Tree.Order`, of code that also allocates. -/
def Prog.Order (x : Prog Q A α) (l : List Q) : Prop := ∀ s, (x s).Order l

namespace Prog.Order

theorem eq {x : Prog Q A α} {l l' : List Q} (h : x.Order l) (hl : l = l') : x.Order l' := hl ▸ h

theorem bind {x : Prog Q A α} {f : α → Prog Q A β} {l l' : List Q}
    (h : x.Order l) (hf : ∀ a, (f a).Order l') : (x >>= f).Order (l ++ l') :=
  fun s => (h s).bind fun a => hf a.1 a.2

theorem pure {a : α} : Prog.Order (Pure.pure a : Prog Q A α) [] := fun _ => rfl

theorem al {x : Al α} : Prog.Order (Prog.al x : Prog Q A α) [] := by
  intro s
  unfold Prog.al
  cases x s with
  | ok a => rfl
  | panic p => trivial
  | diverge => trivial

theorem res {x : Res α} : Prog.Order (Prog.res x : Prog Q A α) [] := al

theorem ask (q : Q) : Prog.Order (Prog.ask q : Prog Q A (A q)) [q] := fun _ => ⟨[], rfl, fun _ => rfl⟩

theorem bindNil {x : Prog Q A α} {f : α → Prog Q A β} {l' : List Q}
    (h : x.Order []) (hf : ∀ a, (f a).Order l') : (x >>= f).Order l' := bind h hf

theorem bindEnd {x : Prog Q A α} {f : α → Prog Q A β} {l : List Q}
    (h : x.Order l) (hf : ∀ a, (f a).Order []) : (x >>= f).Order l := (bind h hf).eq (List.append_nil l)

theorem map {x : Prog Q A α} {f : α → β} {l : List Q} (h : x.Order l) :
    Prog.Order (x >>= fun a => Pure.pure (f a)) l := bindEnd h fun _ => pure

theorem two {γ : Type} {x : Prog Q A α} {y : Prog Q A β} {z : α → β → Prog Q A γ} {l l' : List Q} (h : x.Order l)
    (h' : y.Order l') (hz : ∀ a b, (z a b).Order []) : Prog.Order (do let a ← x; let b ← y; z a b) (l ++ l') :=
  bind h fun a => bindEnd h' fun b => hz a b

end Prog.Order

namespace AAcc
variable {n : Nat}

theorem loopE_order (reduce : R → R → R) {item : Nat → Prog Q A (AItem n K V R)} (l : Nat → List Q) (is : List Nat)
    (h : ∀ i ∈ is, (item i).Order (l i)) (acc : AAcc n K V R) : (loopE reduce item is acc).Order (is.flatMap l) := by
  induction is generalizing acc with
  | nil => exact .pure
  | cons i is ih =>
    rw [List.flatMap_cons]
    refine .bind (h i (List.mem_cons_self ..)) fun it => .bindNil .res fun acc' => ?_
    exact ih (fun j hj => h j (List.mem_cons_of_mem _ hj)) acc'

theorem gatherE_order (reduce : R → R → R) (e : R) (par : Par) {item : Nat → Prog Q A (AItem n K V R)}
    (l : Nat → List Q) (h : ∀ i, i < n → (item i).Order (l i)) :
    (gatherE reduce e par item).Order ((List.range n).flatMap l) := by
  cases par with
  | sequential =>
    rw [List.range_eq_range']
    exact loopE_order reduce l _ (fun i hi => h i (by simpa using hi)) _
  | middleIndex =>
    have hr : List.range n = List.range' 0 (n / 2) ++ List.range' (n / 2) (n - n / 2) := by
      rw [List.range_eq_range']
      have := (List.range'_append (s := 0) (m := n / 2) (n := n - n / 2) (step := 1)).symm
      simp only [Nat.one_mul, Nat.zero_add] at this
      rw [← this]
      congr 1
      omega
    rw [hr, List.flatMap_append]
    refine .bind (loopE_order reduce l _ (fun i hi => h i ?_) _) fun a =>
      .bindEnd (loopE_order reduce l _ (fun i hi => h i ?_) _) fun b => .res
    · have := List.mem_range'_1.1 hi; omega
    · have := List.mem_range'_1.1 hi; omega

end AAcc

/-! ### The order, relative to that of `visit` -/

section
variable {B : Type} {hash : K → B}

theorem Reorder.single (a : K × V) : Reorder hash [a] [a] := by
  intro p q h
  have := h.length_le
  simp at this

theorem Reorder.reverse {l : List (K × V)} (h : ∀ p ∈ l, ∀ q ∈ l, hash p.1 = hash q.1) :
    Reorder hash l.reverse l := by
  intro p q hs
  have h1 : [q, p].Sublist l := by
    have := hs.reverse
    rwa [List.reverse_reverse] at this
  have hq := h1.subset (List.mem_cons_self ..)
  have hp := h1.subset (List.mem_cons_of_mem _ (List.mem_cons_self ..))
  exact ⟨fun _ => h1, fun hne => absurd (h p hp q hq) hne⟩

theorem Reorder.append {a a' b b' : List (K × V)} (ha : Reorder hash a a') (hb : Reorder hash b b')
    (ma : ∀ p ∈ a, p ∈ a') (mb : ∀ p ∈ b, p ∈ b')
    (hne : ∀ p ∈ a', ∀ q ∈ b', hash p.1 ≠ hash q.1) : Reorder hash (a ++ b) (a' ++ b') := by
  intro p q hs
  rw [List.sublist_append_iff] at hs
  obtain ⟨l1, l2, h, h1, h2⟩ := hs
  match l1, h with
  | [], h =>
    rw [List.nil_append] at h
    rw [← h] at h2
    obtain ⟨e1, e2⟩ := hb p q h2
    exact ⟨fun h => (e1 h).trans (List.sublist_append_right ..), fun h => (e2 h).trans (List.sublist_append_right ..)⟩
  | [x], h =>
    simp only [List.cons_append, List.nil_append, List.cons.injEq] at h
    obtain ⟨rfl, rfl⟩ := h
    have hp := ma _ (h1.subset (List.mem_cons_self ..))
    have hq := mb _ (h2.subset (List.mem_cons_self ..))
    refine ⟨fun e => absurd e (hne _ hp _ hq), fun _ => ?_⟩
    exact (List.singleton_sublist.2 hp).append (List.singleton_sublist.2 hq)
  | [x, y], h =>
    simp only [List.cons_append, List.nil_append, List.cons.injEq] at h
    obtain ⟨rfl, rfl, rfl⟩ := h
    obtain ⟨e1, e2⟩ := ha _ _ h1
    exact ⟨fun h => (e1 h).trans (List.sublist_append_left ..), fun h => (e2 h).trans (List.sublist_append_left ..)⟩
  | x :: y :: z :: l, h => simp at h

theorem Reorder.flatMap {ι : Type} (is : List ι) (f g : ι → List (K × V)) (hn : is.Nodup)
    (h : ∀ i ∈ is, Reorder hash (f i) (g i)) (hm : ∀ i, ∀ p ∈ f i, p ∈ g i)
    (hne : ∀ i j, i ≠ j → ∀ p ∈ g i, ∀ q ∈ g j, hash p.1 ≠ hash q.1) :
    Reorder hash (is.flatMap f) (is.flatMap g) := by
  induction is with
  | nil => intro p q hs; have := hs.length_le; simp at this
  | cons i is ih =>
    obtain ⟨h1, h2⟩ := List.nodup_cons.1 hn
    rw [List.flatMap_cons, List.flatMap_cons]
    refine .append (h i (List.mem_cons_self ..)) (ih h2 fun j hj => h j (List.mem_cons_of_mem _ hj)) (hm i) ?_ ?_
    · intro p hp
      obtain ⟨j, hj, hp⟩ := List.mem_flatMap.1 hp
      exact List.mem_flatMap.2 ⟨j, hj, hm j p hp⟩
    · intro p hp q hq
      obtain ⟨j, hj, hq⟩ := List.mem_flatMap.1 hq
      exact hne i j (fun e => h1 (e ▸ hj)) p hp q hq

end

/-! ### transform and transmute -/

section
variable {A : K × V → Type}

theorem ALNode.transformE_order (reduce : R → R → R) {F : K → V → Prog (K × V) A (MapTransformResult V R)}
    (hF : ∀ k v, (F k v).Order [(k, v)]) (l : ALNode K V) :
    (l.transformE reduce (.generic F)).Order l.erase.visit.reverse := by
  induction l with
  | nextS a k v s z =>
    refine (Prog.Order.two (.bindEnd (hF s.key s.value) fun _ => .al) (hF k v) fun _ _ => .al).eq ?_
    rw [ALNode.erase, LNode.visit, List.reverse_cons]; rfl
  | nextL a k v l z ih =>
    refine (Prog.Order.two ih (hF k v) fun _ _ => .al).eq ?_
    rw [ALNode.erase, LNode.visit, List.reverse_cons]

theorem ALNode.transmuteE_order (reduce : R → R → R) {F : K → V → Prog (K × V) A (MapTransmuteResult S X R)}
    (hF : ∀ k v, (F k v).Order [(k, v)]) (l : ALNode K V) :
    (l.transmuteE reduce (.generic F)).Order l.erase.visit.reverse := by
  induction l with
  | nextS a k v s z =>
    refine (Prog.Order.two (.bindEnd (hF s.key s.value) fun _ => .al) (hF k v) fun _ _ => .al).eq ?_
    rw [ALNode.erase, LNode.visit, List.reverse_cons]; rfl
  | nextL a k v l z ih =>
    refine (Prog.Order.two ih (hF k v) fun _ _ => .al).eq ?_
    rw [ALNode.erase, LNode.visit, List.reverse_cons]

/-- The calls are ordered as `visit` orders the entries, but for equal hashes. -/
def Prog.Ordered {α B : Type} (hash : K → B) (x : Prog (K × V) A α) (l : List (K × V)) : Prop :=
  ∃ l', x.Order l' ∧ Reorder hash l' l ∧ ∀ p ∈ l', p ∈ l

theorem Prog.Ordered.bindEnd {α β B : Type} {hash : K → B} {x : Prog (K × V) A α} {l : List (K × V)}
    {f : α → Prog (K × V) A β} (h : x.Ordered hash l) (hf : ∀ a, (f a).Order []) : (x >>= f).Ordered hash l := by
  obtain ⟨l', h1, h2⟩ := h
  exact ⟨l', .bindEnd h1 hf, h2⟩

variable [BEq K] {c : Cfg} {hash : K → BitVec c.w} {mx : Nat}

/-- The slots of a branch in order. -/
theorem gatherE_ordered (reduce : R → R → R) (e : R) (par : Par) {bits : BitVec c.n} {vs : List (Node c.n K V)}
    {extra d : Nat} (ok : (Bia.mk bits vs extra).Ok)
    (at_ : ∀ i m, (Bia.mk bits vs extra).slot i = some m → ∀ e ∈ m.visit, chunk c (hash e.1) d = i)
    {item : Nat → Prog (K × V) A (AItem c.n S X R)}
    (h : ∀ i, (item i).Ordered hash (slotVisit ⟨bits, vs, extra⟩ i)) :
    (AAcc.gatherE reduce e par item).Ordered hash (Node.C bits vs extra).visit := by
  obtain ⟨f, hf⟩ := Classical.axiomOfChoice h
  refine ⟨(List.range c.n).flatMap f, AAcc.gatherE_order reduce e par f fun i _ => (hf i).1, ?_, ?_⟩
  · rw [Node.visit, visit_slots ⟨bits, vs, extra⟩ ok]
    refine Reorder.flatMap _ _ _ List.nodup_range (fun i _ => (hf i).2.1) (fun i => (hf i).2.2) ?_
    intro i j hij p hp q hq e
    have h1 := slotVisit_chunk at_ i p hp
    have h2 := slotVisit_chunk at_ j q hq
    rw [e, h2] at h1
    exact hij h1.symm
  · intro p hp
    rw [Node.visit, visit_slots ⟨bits, vs, extra⟩ ok]
    obtain ⟨i, hi, hp⟩ := List.mem_flatMap.1 hp
    exact List.mem_flatMap.2 ⟨i, hi, (hf i).2.2 p hp⟩

theorem ANode.transformE_ordered (reduce : R → R → R) (e : R)
    {F : K → V → Prog (K × V) A (MapTransformResult V R)} (hF : ∀ k v, (F k v).Order [(k, v)]) (par : Par)
    (m : ANode c.n K V) {d : Nat} (wf : m.erase.WF hash mx d) :
    (m.transformE reduce e (.generic F) par).Ordered hash m.erase.visit := by
  unfold ANode.transformE
  suffices H : ∀ (m : ANode c.n K V) (d' : Nat), ∀ d, m.erase.WF hash mx d →
      (ANode.fold _ _ (transformEC reduce e (.generic F) par) m d').Ordered hash m.erase.visit from H m 0 d wf
  clear wf m d
  intro m d'
  refine ANode.recDepth (motive := fun m d' => ∀ d, m.erase.WF hash mx d →
      (ANode.fold _ _ (transformEC reduce e (.generic F) par) m d').Ordered hash m.erase.visit) ?_ ?_ ?_ m d'
  · intro s d' d _
    exact ⟨_, .map (.bindEnd (hF s.key s.value) fun _ => .al), Reorder.single _, fun _ h => h⟩
  · intro l d' d wf
    cases wf with
    | L _ _ hl =>
      exact ⟨_, .map (l.transformE_order reduce hF), .reverse fun p hp q hq => (hl.hash p hp).trans (hl.hash q hq).symm, fun p h => List.mem_reverse.1 h⟩
  · intro a bits vs extra d' ih d wf
    rw [ANode.erase_C] at wf ⊢
    rw [ANode.fold, ANode.foldAll_eq]
    cases wf with
    | C _ _ _ _ hd ok sz ne at_ sub =>
      refine .bindEnd (gatherE_ordered reduce e par ok at_ fun i => ?_) fun _ => .al
      rcases Bia.atBitIndex_erased (vs := vs) ok (fun m => (m, ANode.fold _ _ _ m (d' + 1))) i with
        ⟨h1, er, h2⟩ | ⟨m, hm, h1, h2⟩
      · rw [h2, slotVisit_none h1]
        exact ⟨[], .pure, fun p q h => absurd h.length_le (by simp), fun _ h => h⟩
      · rw [h2, slotVisit_some h1]
        obtain ⟨l', h3, h4⟩ := ih m hm _ (sub _ _ h1)
        exact ⟨l', .map h3, h4⟩

theorem ANode.transmuteE_ordered (reduce : R → R → R) (e : R)
    {F : K → V → Prog (K × V) A (MapTransmuteResult S X R)} (hF : ∀ k v, (F k v).Order [(k, v)])
    (m : ANode c.n K V) {d : Nat} (wf : m.erase.WF hash mx d) :
    (m.transmuteE reduce e (.generic F)).Ordered hash m.erase.visit := by
  unfold ANode.transmuteE
  suffices H : ∀ (m : ANode c.n K V) (d' : Nat), ∀ d, m.erase.WF hash mx d →
      (ANode.fold _ _ (transmuteEC reduce e (.generic F)) m d').Ordered hash m.erase.visit from H m 0 d wf
  clear wf m d
  intro m d'
  refine ANode.recDepth (motive := fun m d' => ∀ d, m.erase.WF hash mx d →
      (ANode.fold _ _ (transmuteEC reduce e (.generic F)) m d').Ordered hash m.erase.visit) ?_ ?_ ?_ m d'
  · intro s d' d _
    exact ⟨_, .map (.bindEnd (hF s.key s.value) fun _ => .al), Reorder.single _, fun _ h => h⟩
  · intro l d' d wf
    cases wf with
    | L _ _ hl =>
      exact ⟨_, .map (l.transmuteE_order reduce hF), .reverse fun p hp q hq => (hl.hash p hp).trans (hl.hash q hq).symm, fun p h => List.mem_reverse.1 h⟩
  · intro a bits vs extra d' ih d wf
    rw [ANode.erase_C] at wf ⊢
    rw [ANode.fold, ANode.foldAll_eq]
    cases wf with
    | C _ _ _ _ hd ok sz ne at_ sub =>
      refine .bindEnd (gatherE_ordered reduce e .sequential ok at_ fun i => ?_) fun _ => .al
      rcases Bia.atBitIndex_erased (vs := vs) ok (fun m => (m, ANode.fold _ _ _ m (d' + 1))) i with
        ⟨h1, er, h2⟩ | ⟨m, hm, h1, h2⟩
      · rw [h2, slotVisit_none h1]
        exact ⟨[], .pure, fun p q h => absurd h.length_le (by simp), fun _ h => h⟩
      · rw [h2, slotVisit_some h1]
        obtain ⟨l', h3, h4⟩ := ih m hm _ (sub _ _ h1)
        exact ⟨l', .map h3, h4⟩

end
end HT
