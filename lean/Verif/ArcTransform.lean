import Verif.ArcInsert
import Verif.TransformLemmas
/-! # transform with addresses does what the model does; what it allocates -/
namespace HT

variable {K V R : Type} {n : Nat}

/-- Where a returned node is: in memory, and either older than the node at `addr` or new. -/
def NewOrBelow (addr s0 : Nat) (U' : ANode n K V → Prop) (m : ANode n K V) : Prop :=
  U' m ∧ (m.addr < addr ∨ s0 ≤ m.addr)

/-- What transform of a list node returns. -/
inductive LTrP (addr s0 : Nat) (U' : ANode n K V → Prop) (s' : Nat) :
    TRes (ALNext K V) R → TRes (LNext K V) R → Prop
  | unchanged (r : R) : s' = s0 → LTrP addr s0 U' s' (.unchanged r) (.unchanged r)
  | node (m : ALNext K V) (r : R) : NewOrBelow addr s0 U' m.toNode →
      LTrP addr s0 U' s' (.node m r) (.node m.erase r)
  | removed (r : R) : LTrP addr s0 U' s' (.removed r) (.removed r)

/-- What transform of a node returns. -/
inductive TrP (addr s0 : Nat) (U' : ANode n K V → Prop) (s' : Nat) :
    TRes (ANode n K V) R → TRes (Node n K V) R → Prop
  | unchanged (r : R) : s' = s0 → TrP addr s0 U' s' (.unchanged r) (.unchanged r)
  | node (m : ANode n K V) (r : R) : NewOrBelow addr s0 U' m →
      TrP addr s0 U' s' (.node m r) (.node m.erase r)
  | removed (r : R) : TrP addr s0 U' s' (.removed r) (.removed r)

theorem asnode_transform_sim (op : MapTransform R (K → V → MapTransformResult V R)) (this : ASNode K V)
    (U : ANode n K V → Prop) (s : Nat) (heap : Heap U s) :
    Sim U s (this.transform op) (.ok (this.erase.transform op))
      (fun U' s' a b => LTrP (n := n) this.addr s U' s' (a.map .S) (b.map .S)) := by
  unfold ASNode.transform SNode.transform
  show Sim U s _ (.ok (match op.call this.key this.value with | .unchanged r => _ | .transformed v r => _ | .removed r => _)) _
  cases op.call this.key this.value with
  | unchanged r => exact Sim.pure heap (.unchanged r rfl)
  | removed r => exact Sim.pure heap (.removed r)
  | transformed v r =>
    refine Sim.bindSNew heap ?_
    intro U' hsub hs heap'
    exact Sim.pure heap' (.node (.S ⟨s, this.key, v⟩) r ⟨hs, .inr (Nat.le_refl _)⟩)

theorem transformResult_sim (reduce : R → R → R) (this : ALNode K V) (res : MapTransformResult V R)
    {nx : TRes (ALNext K V) R} {nx' : TRes (LNext K V) R} {s0 a0 : Nat} {U : ANode n K V → Prop} {s : Nat}
    (heap : Heap U s) (hs0 : s0 ≤ s) (hn : NewOrBelow this.addr s0 U this.next.toNode) (ha : a0 < this.addr)
    (P : LTrP (n := n) a0 s0 U s nx nx') :
    Sim U s (this.transformResult reduce res nx) (.ok (this.erase.transformResult reduce res nx'))
      (LTrP this.addr s0) := by
  have newL : ∀ (v : V) (m : ALNext K V) (m' : LNext K V) (r : R), m.erase = m' → U m.toNode →
      Sim U s (do let l ← ALNode.new this.key v m; pure (TRes.node (ALNext.L l) r))
        (.ok (TRes.node (.L (LNode.new this.key v m')) r)) (LTrP this.addr s0) := by
    intro v m m' r he hm
    refine Sim.bindLNew heap hm ?_
    intro U' l hsub hl heap' hal hk hv hkid hle
    rw [← he, ← hle]
    exact Sim.pure heap' (.node (.L l) r ⟨hl, .inr (by simp [ALNext.toNode, ANode.addr]; omega)⟩)
  have newS : ∀ (v : V) (r : R),
      Sim U s (do let t ← ASNode.new this.key v; pure (TRes.node (ALNext.S t) r))
        (.ok (TRes.node (.S ⟨this.key, v⟩) r)) (LTrP this.addr s0) := by
    intro v r
    refine Sim.bindSNew heap ?_
    intro U' hsub hs heap'
    exact Sim.pure heap' (.node (.S ⟨s, this.key, v⟩) r ⟨hs, .inr (by simp [ALNext.toNode, ANode.addr]; omega)⟩)
  have weak : ∀ m : ALNext K V, NewOrBelow (n := n) a0 s0 U m.toNode → NewOrBelow (n := n) this.addr s0 U m.toNode := by
    rintro m ⟨h1, h2⟩
    exact ⟨h1, by omega⟩
  unfold ALNode.transformResult LNode.transformResult
  rw [ALNode.erase_key, ALNode.erase_value, ALNode.erase_next]
  cases res <;> cases P <;> rename_i h
  all_goals first
    | exact Sim.pure heap (.unchanged _ h)
    | exact Sim.pure heap (.removed _)
    | exact newL _ _ _ _ rfl h.1
    | exact newL _ _ _ _ rfl hn.1
    | exact newS _ _
    | exact Sim.pure heap (.node _ _ hn)
    | exact Sim.pure heap (.node _ _ (weak _ h))

theorem alnode_transform_sim (reduce : R → R → R) (op : MapTransform R (K → V → MapTransformResult V R))
    (this : ALNode K V) (U : ANode n K V → Prop) (s : Nat) (heap : Heap U s) (h : U (.L this)) :
    Sim U s (this.transform reduce op) (.ok (this.erase.transform reduce op)) (LTrP this.addr s) := by
  induction this with
  | nextS a k v t z =>
    have ht := heap.kids _ h (.S t) (by simp [ANode.kids])
    cases op with
    | unchanged r => exact Sim.pure heap (.unchanged r rfl)
    | removed r => exact Sim.pure heap (.removed r)
    | generic f =>
      refine Sim.bindOk (asnode_transform_sim (.generic f) t U s heap) ?_
      intro U' s' r hle hsub heap' P
      exact transformResult_sim reduce (.nextS a k v t z) _ heap' hle
        ⟨hsub _ ht.1, .inl ht.2⟩ ht.2 P
  | nextL a k v l z ih =>
    have hl := heap.kids _ h (.L l) (by simp [ANode.kids])
    cases op with
    | unchanged r => exact Sim.pure heap (.unchanged r rfl)
    | removed r => exact Sim.pure heap (.removed r)
    | generic f =>
      refine Sim.bindOk (ih hl.1) ?_
      intro U' s' r hle hsub heap' P
      exact transformResult_sim reduce (.nextL a k v l z) _ heap' hle
        ⟨hsub _ hl.1, .inl hl.2⟩ hl.2 P

/-! ### The loop -/

/-- What an iteration decides. -/
inductive ItemP (addr s0 : Nat) (U' : ANode n K V → Prop) (s' : Nat) :
    AItem n K V R → Item n K V R → Prop
  | skip : s' = s0 → ItemP addr s0 U' s' .skip .skip
  | put (m : ANode n K V) (r : R) (kl kr : Bool) : NewOrBelow addr s0 U' m → (kl = true → s' = s0) →
      ItemP addr s0 U' s' (.put m r kl kr) (.put m.erase r kl kr)
  | drop (r : R) (kl kr : Bool) : (kl = true → s' = s0) → ItemP addr s0 U' s' (.drop r kl kr) (.drop r kl kr)

/-- The variables of the loop. -/
structure AccP (addr s0 : Nat) (U' : ANode n K V → Prop) (s' : Nat) (a : AAcc n K V R) (b : Acc n K V R) :
    Prop where
  size : a.size = b.size
  bits : a.bits = b.bits
  values : a.values.map ANode.erase = b.values
  ul : a.ul = b.ul
  ur : a.ur = b.ur
  red : a.red = b.red
  mem : ∀ m ∈ a.values, NewOrBelow addr s0 U' m
  alloc : a.ul = true → s' = s0

theorem NewOrBelow.mono {addr s0 s1 : Nat} {U U' : ANode n K V → Prop} {m : ANode n K V}
    (h : NewOrBelow addr s1 U m) (hs : s0 ≤ s1) (hsub : ∀ z, U z → U' z) : NewOrBelow addr s0 U' m :=
  ⟨hsub _ h.1, by have := h.2; omega⟩

theorem AAcc.step_sim (reduce : R → R → R) {addr s0 s1 s : Nat} {U1 U : ANode n K V → Prop}
    (heap : Heap U s) (hs : s0 ≤ s1) (hs' : s1 ≤ s) (hsub : ∀ z, U1 z → U z) {a : AAcc n K V R} {b : Acc n K V R}
    (A : AccP addr s0 U1 s1 a b) (i : Nat) {it : AItem n K V R} {it' : Item n K V R}
    (I : ItemP addr s1 U s it it') :
    Sim U s (Al.lift (a.step reduce i it)) (b.step reduce i it') (AccP addr s0) := by
  have old : ∀ m ∈ a.values, NewOrBelow addr s0 U m := fun m hm => (A.mem m hm).mono (Nat.le_refl _) hsub
  cases I with
  | skip h =>
    refine Sim.pure heap ⟨A.size, A.bits, A.values, A.ul, A.ur, A.red, old, fun hu => ?_⟩
    have := A.alloc hu; omega
  | drop r kl kr h =>
    refine Sim.pure heap ⟨A.size, A.bits, A.values, by simp [A.ul], by simp [A.ur], by simp [A.red], old, fun hu => ?_⟩
    simp only [Bool.and_eq_true] at hu
    have := A.alloc hu.1; have := h hu.2; omega
  | put m r kl kr hm h =>
    simp only [AAcc.step, Acc.step, A.bits]
    cases Res.unwrapE (nthBit n i) with
    | panic p => exact rfl
    | diverge => exact trivial
    | ok bit =>
      simp only [Res.ok_bind]
      cases Res.unwrapE (bitInsert b.bits bit) with
      | panic p => exact rfl
      | diverge => exact trivial
      | ok bits =>
        refine Sim.pure heap ⟨by simp [A.size], rfl, by simp [A.values], by simp [A.ul], by simp [A.ur],
          by simp [A.red], ?_, fun hu => ?_⟩
        · intro x hx
          rcases List.mem_append.1 hx with hx | hx
          · exact old x hx
          · rw [List.mem_singleton.1 hx]; exact hm.mono hs (fun _ hz => hz)
        · simp only [Bool.and_eq_true] at hu
          have := A.alloc hu.1; have := h hu.2; omega

theorem AAcc.loop_sim (reduce : R → R → R) {addr s0 : Nat} {U0 : ANode n K V → Prop}
    {item : Nat → Al (AItem n K V R)} {item' : Nat → Res (Item n K V R)}
    (hitem : ∀ i U s, s0 ≤ s → (∀ z, U0 z → U z) → Heap U s → Sim U s (item i) (item' i) (ItemP addr s))
    (is : List Nat) : ∀ (U1 : ANode n K V → Prop) (s1 : Nat) (a : AAcc n K V R) (b : Acc n K V R),
      s0 ≤ s1 → (∀ z, U0 z → U1 z) → Heap U1 s1 → AccP addr s0 U1 s1 a b →
      Sim U1 s1 (AAcc.loop reduce item is a) (Acc.loop reduce item' is b) (AccP addr s0) := by
  induction is with
  | nil => intro U1 s1 a b _ _ heap A; exact Sim.pure heap A
  | cons i is ih =>
    intro U1 s1 a b hs hsub heap A
    refine Sim.bind (hitem i U1 s1 hs hsub heap) ?_
    intro U2 s2 it it' hle hsub2 heap2 I
    refine Sim.bind (AAcc.step_sim reduce heap2 hs hle hsub2 A i I) ?_
    intro U3 s3 a' b' hle3 hsub3 heap3 A'
    exact ih U3 s3 a' b' (by omega) (fun z hz => hsub3 z (hsub2 z (hsub z hz))) heap3 A'

theorem AccP.init (addr s0 : Nat) (U : ANode n K V → Prop) (e : R) :
    AccP addr s0 U s0 (AAcc.init e : AAcc n K V R) (Acc.init e) :=
  ⟨rfl, rfl, rfl, rfl, rfl, rfl, by simp [AAcc.init], fun _ => rfl⟩

theorem AAcc.gather_sim (reduce : R → R → R) (e : R) (par : Par) {addr s0 : Nat} {U0 : ANode n K V → Prop}
    (heap : Heap U0 s0)
    {item : Nat → Al (AItem n K V R)} {item' : Nat → Res (Item n K V R)}
    (hitem : ∀ i U s, s0 ≤ s → (∀ z, U0 z → U z) → Heap U s → Sim U s (item i) (item' i) (ItemP addr s)) :
    Sim U0 s0 (AAcc.gather reduce e par item) (Acc.gather reduce e par item') (AccP addr s0) := by
  cases par with
  | sequential =>
    exact AAcc.loop_sim reduce hitem _ U0 s0 _ _ (Nat.le_refl _) (fun _ h => h) heap (.init ..)
  | middleIndex =>
    refine Sim.bind (AAcc.loop_sim reduce hitem _ U0 s0 _ _ (Nat.le_refl _) (fun _ h => h) heap (.init ..)) ?_
    intro U1 s1 l l' hle1 hsub1 heap1 A1
    refine Sim.bind (AAcc.loop_sim reduce (s0 := s1) (U0 := U1) (addr := addr) (fun i U s h1 h2 h3 =>
      hitem i U s (by omega) (fun z hz => h2 z (hsub1 z hz)) h3) _ U1 s1 _ _ (Nat.le_refl _) (fun _ h => h) heap1
      (.init ..)) ?_
    intro U2 s2 r r' hle2 hsub2 heap2 A2
    simp only [AAcc.merge, Acc.merge, A1.bits, A2.bits]
    cases Res.unwrapE (bitMerge l'.bits r'.bits) with
    | panic p => exact rfl
    | diverge => exact trivial
    | ok bits =>
      refine Sim.pure heap2 ⟨by simp [A1.size, A2.size], rfl, by simp [A1.values, A2.values],
        by simp [A1.ul, A2.ul], by simp [A1.ur, A2.ur], by simp [A1.red, A2.red], ?_, fun hu => ?_⟩
      · intro x hx
        rcases List.mem_append.1 hx with hx | hx
        · exact (A1.mem x hx).mono (Nat.le_refl _) hsub2
        · exact (A2.mem x hx).mono hle1 (fun _ hz => hz)
      · simp only [Bool.and_eq_true] at hu
        have := A1.alloc hu.1; have := A2.alloc hu.2; omega

/-- What packing returns. -/
inductive PackP (addr s0 : Nat) (U' : ANode n K V → Prop) :
    Option (ANode n K V) → Option (Node n K V) → Prop
  | none : PackP addr s0 U' none none
  | some (m : ANode n K V) : NewOrBelow addr s0 U' m → PackP addr s0 U' (some m) (some m.erase)

theorem AAcc.branch_sim {addr s0 s : Nat} {U : ANode n K V → Prop} (heap : Heap U s) (hs : s0 ≤ s)
    {a : AAcc n K V R} {b : Acc n K V R} (A : AccP addr s0 U s a b) :
    Sim U s a.branch (do
      let x ← Bia.ofVec b.bits b.values b.size
      let x ← Res.unwrapE x
      .ok (some (Node.ofBia x))) (fun U' _ x y => PackP addr s0 U' x y) := by
  refine Sim.bia heap (x := Bia.ofVec a.bits a.values a.size) (g := fun m => .ok (some m))
    (by rw [← A.values, A.bits, A.size, Bia.ofVec_map]) ?_ ?_
  · intro x hx z hz
    exact (A.mem z (((Bia.ofVec_ok hx).2.2 z).1 hz)).1
  · intro x U' m hx hsub hm heap' hma hmk hme
    exact Sim.pure heap' (.some m ⟨hm, .inr (by omega)⟩)

theorem AAcc.pack_sim {addr s0 s : Nat} {U : ANode n K V → Prop} (heap : Heap U s) (hs : s0 ≤ s)
    {a : AAcc n K V R} {b : Acc n K V R} (A : AccP addr s0 U s a b) :
    Sim U s a.pack b.pack (fun U' _ x y => PackP addr s0 U' x y) := by
  have main := AAcc.branch_sim heap hs A
  have hv := A.values
  unfold AAcc.pack Acc.pack
  rw [← hv] at main ⊢
  cases hav : a.values with
  | nil => exact Sim.pure heap .none
  | cons m ms =>
    have hm := A.mem m (by rw [hav]; exact List.mem_cons_self ..)
    rw [hav] at main
    cases ms with
    | nil =>
      cases m with
      | L l => exact Sim.pure heap (.some (.L l) hm)
      | S t => exact Sim.pure heap (.some (.S t) hm)
      | C p bits vs x =>
        simp only [List.map_cons, List.map_nil, ANode.erase_C] at main ⊢
        exact main
    | cons m2 ms =>
      cases m <;> exact main

theorem ANode.transformAll_eq (reduce : R → R → R) (e : R)
    (op : MapTransform R (K → V → MapTransformResult V R)) (par : Par) (ms : List (ANode n K V)) :
    ANode.transformAll reduce e op par ms = ms.map fun m => (m, m.transform reduce e op par) := by
  induction ms with
  | nil => rfl
  | cons m ms ih => rw [ANode.transformAll, ih]; rfl

theorem Node.transformAll_eq' (reduce : R → R → R) (e : R)
    (op : MapTransform R (K → V → MapTransformResult V R)) (par : Par) (ms : List (Node n K V)) :
    Node.transformAll reduce e op par ms = ms.map fun m => (m, m.transform reduce e op par) := by
  induction ms with
  | nil => rfl
  | cons m ms ih => rw [Node.transformAll, ih]; rfl

theorem Bia.atBitIndex_mem {W : Type} {a : Bia n W} {i : Nat} {v : W} (h : a.atBitIndex i = .ok (.ok v)) :
    v ∈ a.values := by
  unfold Bia.atBitIndex at h
  split at h
  · injection h with h; cases h
  · split at h
    · rename_i w hw
      injection h with h; injection h with h; subst h
      exact List.mem_of_getElem? hw
    · cases h

theorem ANode.transform_sim (reduce : R → R → R) (e : R)
    (op : MapTransform R (K → V → MapTransformResult V R)) (par : Par) (m : ANode n K V)
    (U : ANode n K V → Prop) (s : Nat) (heap : Heap U s) (h : U m) :
    Sim U s (m.transform reduce e op par) (m.erase.transform reduce e op par) (TrP m.addr s) := by
  match m, h with
  | .L l, h =>
    rw [ANode.transform, ANode.erase, Node.transform]
    refine Sim.bindOk (alnode_transform_sim reduce op l U s heap h) ?_
    intro U' s' r hle hsub heap' P
    generalize l.erase.transform reduce op = r' at P ⊢
    cases P with
    | unchanged r h => exact Sim.pure heap' (.unchanged r h)
    | removed r => exact Sim.pure heap' (.removed r)
    | node m r h =>
      simp only [TRes.map]
      rw [← ALNext.toNode_erase]
      exact Sim.pure heap' (.node m.toNode r h)
  | .S t, h =>
    rw [ANode.transform, ANode.erase, Node.transform]
    refine Sim.bindOk (asnode_transform_sim op t U s heap) ?_
    intro U' s' r hle hsub heap' P
    generalize t.erase.transform op = r' at P ⊢
    cases r <;> cases r' <;> simp only [TRes.map] at P ⊢ <;> cases P
    · rename_i r h; exact Sim.pure heap' (.unchanged r h)
    · rename_i t' r h; exact Sim.pure heap' (.node (.S t') r h)
    · rename_i r; exact Sim.pure heap' (.removed r)
  | .C a bits values extra, h =>
    rw [ANode.erase_C]
    have hvs : ∀ x ∈ values, U x ∧ x.addr < a := fun x hx => heap.kids _ h x hx
    cases op with
    | unchanged r =>
      rw [ANode.transform, Node.transform]
      exact Sim.pure heap (.unchanged r rfl)
    | removed r =>
      rw [ANode.transform, Node.transform]
      exact Sim.pure heap (.removed r)
    | generic f =>
      rw [ANode.transform, Node.transform]
      refine Sim.bind (AAcc.gather_sim reduce e par (addr := a) heap ?_) ?_
      · intro i U1 s1 hs1 hsub1 heap1
        rw [ANode.transformAll_eq, Node.transformAll_eq', List.map_map, Bia.atBitIndex_mapped, Bia.atBitIndex_mapped]
        cases hat : (Bia.mk bits values extra).atBitIndex i with
        | panic p => exact rfl
        | diverge => exact trivial
        | ok child =>
          cases child with
          | error err => exact Sim.pure heap1 (.skip rfl)
          | ok m0 =>
            have hm0 := Bia.atBitIndex_mem hat
            have hlt : sizeOf m0 < 1 + sizeOf a + sizeOf bits + sizeOf values + sizeOf extra := by
              have : sizeOf m0 < sizeOf values := List.sizeOf_lt_of_mem hm0
              omega
            have hU := hvs m0 hm0
            change Sim U1 s1 (ANode.transform reduce e (.generic f) par m0 >>= fun res => pure (res.aitem m0))
              (Node.transform reduce e (.generic f) par m0.erase >>= fun res => .ok (res.item m0.erase)) _
            refine Sim.bind (ANode.transform_sim reduce e (.generic f) par m0 U1 s1 heap1 (hsub1 _ hU.1)) ?_
            intro U2 s2 r r' hle hsub2 heap2 P
            cases P with
            | unchanged r h =>
              exact Sim.pure heap2 (.put m0 r true true ⟨hsub2 _ (hsub1 _ hU.1), .inl hU.2⟩ (fun _ => h))
            | removed r => exact Sim.pure heap2 (.drop r false false (by simp))
            | node m r h =>
              exact Sim.pure heap2 (.put m r false false ⟨h.1, by have := h.2; omega⟩ (by simp))
      · intro U1 s1 acc acc' hle hsub heap1 A
        rw [A.ul, A.red]
        split
        · rename_i hu
          exact Sim.pure heap1 (.unchanged _ (A.alloc (A.ul.trans hu)))
        · refine Sim.bind (AAcc.pack_sim heap1 hle A) ?_
          intro U2 s2 o o' hle2 hsub2 heap2 P
          cases P with
          | none => exact Sim.pure heap2 (.removed _)
          | some m h => exact Sim.pure heap2 (.node m _ h)
termination_by sizeOf m
decreasing_by
  simp only [ANode.C.sizeOf_spec]
  exact hlt

end HT
