import Verif.ArcTransform
import Verif.Reach
/-! # The container with addresses; histories and their memory -/
namespace HT

variable {K V R : Type} {n : Nat}

/-! ### Reading off a simulation -/

theorem Sim.ok {α β : Type} {U : ANode n K V → Prop} {s : Nat} {x : Al α} {y : Res β}
    {P : (ANode n K V → Prop) → Nat → α → β → Prop} (h : Sim U s x y P) {a : α} {s' : Nat}
    (hx : x s = .ok (a, s')) :
    ∃ b, y = .ok b ∧ s ≤ s' ∧ ∃ U', (∀ z, U z → U' z) ∧ (∀ z, U' z → U z ∨ s ≤ z.addr) ∧ Heap U' s' ∧
      P U' s' a b := by
  unfold Sim at h
  rw [hx] at h
  cases y with
  | ok b => exact ⟨b, rfl, h⟩
  | panic p => exact h.elim
  | diverge => exact h.elim

theorem Sim.eraseEq {α β γ : Type} {U : ANode n K V → Prop} {s : Nat} {x : Al α} {y : Res β}
    {P : (ANode n K V → Prop) → Nat → α → β → Prop} (h : Sim U s x y P) {f : α → γ} {g : β → γ}
    (hp : ∀ U' s' a b, P U' s' a b → f a = g b) :
    (x s).map (fun r => f r.1) = y.map g := by
  unfold Sim at h
  split at h
  · rename_i a s' b e
    rw [e]
    obtain ⟨_, U', _, _, _, p⟩ := h
    exact congrArg Res.ok (hp _ _ _ _ p)
  · rename_i e; rw [e, h]; rfl
  · rename_i e; rw [e]; rfl
  · exact h.elim

/-! ### Heights of well-formed nodes -/

/-- At most `N` of these entries have the same hash. -/
def MaxCollision {c : Cfg} (hash : K → BitVec c.w) (N : Nat) (l : List (K × V)) : Prop :=
  ∀ h, (l.filter fun x => hash x.1 == h).length ≤ N

theorem filter_all_length {α : Type} {p : α → Bool} {l : List α} (h : ∀ x ∈ l, p x = true) :
    (l.filter p).length = l.length := by
  rw [List.filter_eq_self.2 h]

theorem Node.WF.pathObjs_le [BEq K] {c : Cfg} {hash : K → BitVec c.w} {mx d : Nat} {m : Node c.n K V}
    (wf : m.WF hash mx d) {N : Nat} (hN : MaxCollision hash N m.visit) (h1 : 1 ≤ N) :
    m.pathObjs ≤ (mx - d) + N := by
  induction wf with
  | S d s => rw [Node.pathObjs]; omega
  | L d l h =>
    have := hN (hash l.key)
    rw [Node.visit, filter_all_length (by intro x hx; simp [h.hash x hx])] at this
    rw [Node.pathObjs]; omega
  | C d bits values extra hd ok sz ne at_ sub ih =>
    rw [Node.pathObjs]
    have key : ∀ m ∈ values, m.pathObjs ≤ mx - (d + 1) + N := by
      intro m hm
      have hv := Bia.values_eq _ ok
      simp only at hv
      rw [hv] at hm
      obtain ⟨i, _, hi⟩ := List.mem_filterMap.1 hm
      refine ih i m hi ?_
      intro h
      refine Nat.le_trans (List.Sublist.length_le ?_) (hN h)
      apply List.Sublist.filter
      rw [Node.visit, Node.visitAll_eq]
      have hm' := Bia.slot_mem hi
      simp only at hm'
      obtain ⟨l1, l2, rfl⟩ := List.append_of_mem hm'
      simp only [List.flatMap_append, List.flatMap_cons]
      exact (List.sublist_append_left _ _).trans (List.sublist_append_right _ _)
    have all : ∀ ms : List (Node c.n K V), (∀ m ∈ ms, m.pathObjs ≤ mx - (d + 1) + N) →
        Node.pathObjsAll ms ≤ mx - (d + 1) + N := by
      intro ms h
      induction ms with
      | nil => rw [Node.pathObjsAll]; omega
      | cons m ms ih' =>
        rw [Node.pathObjsAll]
        exact Nat.max_le.2 ⟨h m (List.mem_cons_self ..), ih' fun m' h' => h m' (List.mem_cons_of_mem _ h')⟩
    have := all values key
    omega

/-! ### Containers -/

variable {c : Cfg} [BEq K] {hash : K → BitVec c.w}

/-- What `new` returns. -/
def NewP (s0 : Nat) (U' : ANode c.n K V → Prop) (s' : Nat) (t : ATrie c K V) (t' : Trie c K V) : Prop :=
  U' t.root ∧ t.root.addr = s0 ∧ s' = s0 + 1 ∧ t.erase = t'

omit [BEq K] in
theorem ATrie.new_sim {U : ANode c.n K V → Prop} {s : Nat} (heap : Heap U s) :
    Sim U s (ATrie.new c) (.ok (Trie.new c : Trie c K V)) (NewP s) := by
  unfold ATrie.new ANode.default
  refine Sim.bindCNew heap (by simp [Bia.default]) ?_
  intro U' m h1 h2 h3 h4 h5 h6
  refine Sim.pure h3 ⟨h2, h4, rfl, ?_⟩
  rw [ATrie.erase, h6]; rfl

/-- What `insert` returns. -/
inductive TInsP (s0 : Nat) (U' : ANode c.n K V → Prop) (s' : Nat) :
    Except (K × V) (ATrie c K V × Nat × Option (K × V)) →
    Except (K × V) (Trie c K V × (K × V) × Option (K × V)) → Prop
  | error (e : K × V) : s' = s0 → TInsP s0 U' s' (.error e) (.error e)
  | ok (t : ATrie c K V) (o : ANode c.n K V) (p : K × V) (prev : Option (K × V)) :
      U' t.root → s0 ≤ t.root.addr → s' ≤ s0 + t.erase.root.pathObjs → o.Sub t.root → o.entry = some p →
      s0 ≤ o.addr → TInsP s0 U' s' (.ok (t, o.addr, prev)) (.ok (t.erase, p, prev))

theorem ATrie.insert_sim {U : ANode c.n K V → Prop} {s : Nat} (heap : Heap U s) {t : ATrie c K V}
    (h : U t.root) (k : K) (v : V) (replace : Bool) :
    Sim U s (t.insert hash k v replace) (t.erase.insert hash k v replace) (TInsP s) := by
  unfold ATrie.insert Trie.insert Trie.insertQ
  refine Sim.bindLift fun f hf => ?_
  refine Sim.bind (ANode.insert_sim _ k v replace t.root (some f) U s heap h) ?_
  intro U' s' r r' hle hsub heap' P
  cases P with
  | found k v h => exact Sim.pure heap' (.error _ h)
  | inserted m o p prev h1 h2 h3 h4 h5 h6 =>
    exact Sim.pure heap' (.ok ⟨m⟩ o p prev h1 h2 h3 h4 h5 h6)

/-- What `remove` returns. -/
inductive TRemP (addr s0 : Nat) (U' : ANode c.n K V → Prop) (s' : Nat) :
    Option (ATrie c K V × (K × V)) → Option (Trie c K V × (K × V)) → Prop
  | none : s' = s0 → TRemP addr s0 U' s' none none
  | some (t : ATrie c K V) (e : K × V) : U' t.root → (t.root.addr < addr ∨ s0 ≤ t.root.addr) →
      s' ≤ s0 + t.erase.root.pathObjs → TRemP addr s0 U' s' (some (t, e)) (some (t.erase, e))

theorem ATrie.remove_sim {U : ANode c.n K V → Prop} {s : Nat} (heap : Heap U s) {t : ATrie c K V}
    (h : U t.root) (k : K) :
    Sim U s (t.remove hash k) (t.erase.remove hash k) (TRemP t.root.addr s) := by
  unfold ATrie.remove Trie.remove Trie.removeQ
  refine Sim.bindLift fun f hf => ?_
  refine Sim.bind (ANode.remove_sim _ t.root (some f) U s heap h) ?_
  intro U' s' r r' hle hsub heap' P
  cases P with
  | notFound h => exact Sim.pure heap' (.none h)
  | removed m k v h1 h2 h3 => exact Sim.pure heap' (.some ⟨m⟩ _ h1 h2 h3)
  | removedZ k v h =>
    subst h
    refine Sim.bindOk (ATrie.new_sim heap') ?_
    intro U2 s2 t' hle2 hsub2 heap2 ⟨p1, p2, p3, p4⟩
    simp only
    rw [← p4]
    refine Sim.pure heap2 (.some t' (k, v) p1 (.inr (by omega)) ?_)
    rw [p4, Trie.new, Node.default, Node.ofBia, Node.pathObjs]
    omega

/-- What `transform` returns: a new object or one below the old root; or the clone. -/
def TTrP (t : ATrie c K V) (s0 : Nat) (U' : ANode c.n K V → Prop) (s' : Nat)
    (r : ATrie c K V × R) (r' : Trie c K V × R) : Prop :=
  U' r.1.root ∧ r.1.erase = r'.1 ∧ r.2 = r'.2 ∧
    ((r.1 = t ∧ s' = s0) ∨ r.1.root.addr < t.root.addr ∨ s0 ≤ r.1.root.addr)

omit [BEq K] in
theorem ATrie.transform_sim {U : ANode c.n K V → Prop} {s : Nat} (heap : Heap U s) {t : ATrie c K V}
    (h : U t.root) (reduce : R → R → R) (e : R) (op : MapTransform R (K → V → MapTransformResult V R))
    (par : Par) :
    Sim U s (t.transform reduce e op par) (t.erase.transform reduce e op par)
      (fun U' s' r r' => TTrP t s U' s' r r' ∧
        (r.1 = t ↔ ∃ x, t.erase.root.transform reduce e op par = .ok (.unchanged x))) := by
  unfold ATrie.transform Trie.transform
  have hs := ANode.transform_sim reduce e op par t.root U s heap h
  have e0 : t.erase.root = t.root.erase := rfl
  rw [e0]
  have hs' : Sim U s (t.root.transform reduce e op par) (t.root.erase.transform reduce e op par)
      (fun U' s' a b => TrP t.root.addr s U' s' a b ∧ t.root.erase.transform reduce e op par = .ok b) := by
    unfold Sim at hs ⊢
    split at hs
    · rename_i a s' b ex
      rw [ex]
      obtain ⟨h1, U', h2, hn, h3, h4⟩ := hs
      exact ⟨h1, U', h2, hn, h3, h4, rfl⟩
    · exact hs
    · trivial
    · exact hs.elim
  refine Sim.bind hs' ?_
  intro U' s' r r' hle hsub heap' ⟨P, hr'⟩
  rw [hr']
  cases P with
  | unchanged r h1 =>
    exact Sim.pure heap' ⟨⟨hsub _ h, rfl, rfl, .inl ⟨rfl, h1⟩⟩, by simp [ATrie.clone]⟩
  | node m r h1 =>
    refine Sim.pure heap' ⟨⟨h1.1, rfl, rfl, .inr h1.2⟩, ?_⟩
    constructor
    · intro hm
      have := heap.lt _ h
      have h2 := h1.2
      rw [← hm] at h2 this
      simp only at h2 this
      omega
    · rintro ⟨x, hx⟩; cases hx
  | removed r =>
    refine Sim.bindOk (ATrie.new_sim heap') ?_
    intro U2 s2 t' hle2 hsub2 heap2 ⟨p1, p2, p3, p4⟩
    refine Sim.pure heap2 ⟨⟨p1, p4, rfl, .inr (.inr ?_)⟩, ?_⟩
    · simp only; omega
    · constructor
      · intro hm
        have := heap.lt _ h
        rw [← hm] at this
        simp only at this
        omega
      · rintro ⟨x, hx⟩; cases hx

/-! ### When transform answers Unchanged -/

def MapTransformResult.isUnchanged : MapTransformResult V R → Bool
  | .unchanged _ => true
  | _ => false

def TRes.isUnchanged {N : Type} : TRes N R → Bool
  | .unchanged _ => true
  | _ => false

omit [BEq K] in
theorem LNode.transform_isUnchanged (reduce : R → R → R) (f : K → V → MapTransformResult V R) (l : LNode K V) :
    (l.transform reduce (.generic f)).isUnchanged = l.visit.all fun x => (f x.1 x.2).isUnchanged := by
  induction l with
  | nextS k v s z =>
    simp only [LNode.transform, LNode.visit, SNode.visit, SNode.transform, MapTransform.call, List.all_cons,
      List.all_nil, Bool.and_true]
    cases f k v <;> cases f s.key s.value <;> rfl
  | nextL k v l z ih =>
    simp only [LNode.transform, LNode.visit, MapTransform.call, List.all_cons]
    rw [← ih]
    cases f k v <;> cases l.transform reduce (.generic f) <;> rfl

theorem Node.transform_isUnchanged (hh : HashOk hash) {mx d : Nat} (reduce : R → R → R) (e : R) (par : Par)
    (f : K → V → MapTransformResult V R) {m : Node c.n K V} (wf : m.WF hash mx d)
    {res : TRes (Node c.n K V) R} (hr : m.transform reduce e (.generic f) par = .ok res) :
    res.isUnchanged = m.visit.all fun x => (f x.1 x.2).isUnchanged := by
  induction wf generalizing res with
  | S d s =>
    rw [Node.transform] at hr
    injection hr with hr; subst hr
    simp only [Node.visit, SNode.visit, SNode.transform, MapTransform.call, List.all_cons, List.all_nil, Bool.and_true]
    cases f s.key s.value <;> rfl
  | L d l hl =>
    rw [Node.transform] at hr
    injection hr with hr; subst hr
    rw [Node.visit, ← LNode.transform_isUnchanged reduce]
    cases l.transform reduce (.generic f) <;> rfl
  | C d bits values extra hd ok sz ne at_ sub ih =>
    have hres : ∃ resf : Nat → TRes (Node c.n K V) R, ∀ i m, (Bia.mk bits values extra).slot i = some m →
        m.transform reduce e (.generic f) par = .ok (resf i) := by
      refine ⟨fun i => match (Bia.mk bits values extra).slot i with
        | none => .removed e
        | some m => match m.transform reduce e (.generic f) par with
          | .ok r => r
          | _ => .removed e, ?_⟩
      intro i m hm
      obtain ⟨r, hr, _⟩ := Node.transform_spec (.generic f) hh reduce e par (sub i m hm)
      simp only [hm, hr]
    obtain ⟨resf, hresf⟩ := hres
    have okA : (Bia.mk bits (Node.transformAll reduce e (.generic f) par values) extra).Ok := by
      rw [Node.transformAll_eq]; simpa [Bia.Ok] using ok
    obtain ⟨acc, hacc, G⟩ := Acc.gather_spec reduce e par (fun index => do
      let child ← (Bia.mk bits (Node.transformAll reduce e (.generic f) par values) extra).atBitIndex index
      TRes.childItem child) (fun i => match (Bia.mk bits values extra).slot i with
        | none => .skip
        | some m => (resf i).item m) (by
      intro i hi
      simp only [Bia.atBitIndex_eq _ okA, Res.ok_bind]
      rw [Node.transformAll_eq, Bia.slot_map]
      cases hs : (Bia.mk bits values extra).slot i with
      | none => rfl
      | some m =>
        simp only [Option.map_some, (hresf i m hs), TRes.childItem, Res.ok_bind])
    have hul : acc.ul = (Node.C bits values extra).visit.all fun x => (f x.1 x.2).isUnchanged := by
      rw [G.ul, Node.visit, visit_slots ⟨bits, values, extra⟩ ok, List.all_flatMap]
      congr 1
      funext i
      simp only [slotVisit]
      cases hs : (Bia.mk bits values extra).slot i with
      | none => rfl
      | some m =>
        simp only
        rw [← ih i m hs (hresf i m hs)]
        cases resf i <;> rfl
    rw [← hul]
    rw [Node.transform] at hr
    simp only [hacc, Res.ok_bind] at hr
    cases hu : acc.ul with
    | true =>
      rw [hu] at hr
      simp only [if_true] at hr
      injection hr with hr; subst hr; rfl
    | false =>
      rw [hu] at hr
      simp only [Bool.false_eq_true, if_false] at hr
      rw [Res.bind_eq_ok] at hr
      obtain ⟨o, _, hr⟩ := hr
      injection hr with hr; subst hr
      cases o <;> rfl

/-! ### Histories -/

omit [BEq K] in
/-- The part of memory below one object. -/
theorem Heap.below {U : ANode n K V → Prop} {s : Nat} (h : Heap U s) {m : ANode n K V} (hm : U m) :
    Heap (fun o => o.Sub m) s where
  lt := fun x hx => h.lt x (h.sub hx hm).1
  kids := by
    intro x hx y hy
    refine ⟨?_, (h.kids x (h.sub hx hm).1 y hy).2⟩
    have : y.Sub x := .kid (.refl y) hy
    clear hm
    induction hx with
    | refl => exact this
    | kid _ hk ih => exact .kid ih hk
  inj := fun x y hx hy e => h.inj x y (h.sub hx hm).1 (h.sub hy hm).1 e

omit [BEq K] in
theorem ANode.eq_addr {m m' : ANode n K V} (h : m.eq m' = true) : m.addr = m'.addr := by
  cases m <;> cases m' <;> simp [ANode.eq, ANode.addr] at h ⊢ <;> exact h

omit [BEq K] in
theorem ANode.eq_refl (m : ANode n K V) : m.eq m = true := by
  cases m <;> simp [ANode.eq]

omit [BEq K] in
theorem ANode.ne_of_addr {m m' : ANode n K V} (h : m.addr ≠ m'.addr) : m.eq m' = false := by
  cases he : m.eq m' with
  | false => rfl
  | true => exact absurd (ANode.eq_addr he) h

end HT
