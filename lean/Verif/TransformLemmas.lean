import Verif.LoopLemmas
import Verif.TrieLemmas
/-! # transform and transmute act per entry -/
namespace HT

variable {K V S X R : Type}

/-! ### Collision lists -/

/-- Entries of what follows in a collision list. -/
def LNext.visit : LNext K V → List (K × V)
  | .L l => l.visit
  | .S s => s.visit

/-- Sizes are right. -/
def LNext.SizeOk : LNext K V → Prop
  | .L l => l.SizeOk
  | .S _ => True

theorem LNext.toNode_visit {n : Nat} (m : LNext K V) : (m.toNode : Node n K V).visit = m.visit := by
  cases m <;> rfl

theorem LNext.visit_ne_nil (m : LNext K V) : m.visit ≠ [] := by
  cases m with
  | L l => exact l.visit_ne_nil
  | S s => simp [LNext.visit, SNode.visit]

theorem LNode.new_visit (k : K) (v : V) (m : LNext K V) : (LNode.new k v m).visit = (k, v) :: m.visit := by
  cases m <;> rfl

theorem LNode.new_sizeOk {k : K} {v : V} {m : LNext K V} (h : m.SizeOk) : (LNode.new k v m).SizeOk := by
  cases m with
  | L l => exact ⟨rfl, h⟩
  | S s => rfl

theorem LNode.visit_eq (l : LNode K V) : l.visit = (l.key, l.value) :: l.next.visit := by
  cases l <;> rfl

theorem LNode.SizeOk.next {l : LNode K V} (h : l.SizeOk) : l.next.SizeOk := by
  cases l with
  | nextS => trivial
  | nextL => exact h.2

/-- A list or single node with right sizes, one hash and distinct keys is well-formed anywhere. -/
theorem LNext.wf [BEq K] {c : Cfg} {hash : K → BitVec c.w} {mx d : Nat} {m : LNext K V} (sz : m.SizeOk)
    (hv : BitVec c.w) (hh : ∀ x ∈ m.visit, hash x.1 = hv) (hk : DistinctKeys m.visit) :
    (m.toNode : Node c.n K V).WF hash mx d := by
  cases m with
  | S s => exact .S _ _
  | L l =>
    refine .L _ _ ⟨sz, ?_, hk⟩
    intro x hx
    rw [hh x hx]
    have : (l.key, l.value) ∈ l.visit := by rw [l.visit_eq]; exact List.mem_cons_self ..
    exact (hh _ this).symm

/-- The node a transform result stands for. -/
def TRes.get {N : Type} (m : N) : TRes N R → Option N
  | .unchanged _ => some m
  | .node m' _ => some m'
  | .removed _ => none

/-- The reduction of a transform result. -/
def TRes.red {N : Type} : TRes N R → R
  | .unchanged r => r
  | .node _ r => r
  | .removed r => r

/-- The node a transmute result stands for. -/
def XRes.get {N : Type} : XRes N R → Option N
  | .node m' _ => some m'
  | .removed _ => none

/-- The reduction of a transmute result. -/
def XRes.red {N : Type} : XRes N R → R
  | .node _ r => r
  | .removed r => r

/-- Entries of an optional rest of a collision list. -/
def lvis (o : Option (LNext K V)) : List (K × V) :=
  match o with
  | some m => m.visit
  | none => []

variable (op : MapTransform R (K → V → MapTransformResult V R))

/-- What a transform leaves of a list of entries. -/
abbrev MapTransform.outs (l : List (K × V)) : List (K × V) :=
  l.filterMap fun x => (op.call x.1 x.2).entry x

/-- What a transform contributes for a list of entries. -/
abbrev MapTransform.reds (l : List (K × V)) : List R := l.map fun x => (op.call x.1 x.2).red

theorem MapTransform.outs_unchanged (r : R) (l : List (K × V)) :
    (MapTransform.unchanged r : MapTransform R (K → V → MapTransformResult V R)).outs l = l := by
  induction l with
  | nil => rfl
  | cons a l ih => simp [MapTransform.outs, MapTransform.call, MapTransformResult.entry]

theorem MapTransform.outs_removed (r : R) (l : List (K × V)) :
    (MapTransform.removed r : MapTransform R (K → V → MapTransformResult V R)).outs l = [] := by
  induction l with
  | nil => rfl
  | cons a l ih => simp [MapTransform.outs, MapTransform.call, MapTransformResult.entry]

theorem MapTransform.reds_neutral {reduce : R → R → R} {e : R} (mon : Mon reduce e)
    (hop : ∀ f, op ≠ .generic f) (hn : op.Neutral e) (l : List (K × V)) :
    total reduce e (op.reds l) = e := by
  apply mon.total_neutral
  intro r hr
  obtain ⟨x, _, hx⟩ := List.mem_map.1 hr
  cases op with
  | generic f => exact absurd rfl (hop f)
  | unchanged r' => rw [← hx]; exact hn
  | removed r' => rw [← hx]; exact hn

theorem SNode.transform_spec (s : SNode K V) :
    lvis (((s.transform op).map LNext.S).get (.S s)) = op.outs s.visit ∧
      (∀ m, ((s.transform op).map LNext.S).get (.S s) = some m → m.SizeOk) ∧
      ∀ {reduce : R → R → R} {e : R}, Mon reduce e →
        ((s.transform op).map LNext.S).red = total reduce e (op.reds s.visit) := by
  simp only [SNode.transform, MapTransform.outs, MapTransform.reds, SNode.visit, List.filterMap_cons,
    List.filterMap_nil, List.map_cons, List.map_nil]
  cases op.call s.key s.value <;>
    refine ⟨rfl, ?_, fun mon => (mon.total_single _).symm⟩ <;>
    intro m hm <;> simp [TRes.map, TRes.get] at hm <;> subst hm <;> trivial

theorem LNode.transformResult_spec {reduce : R → R → R} {e : R} (this : LNode K V) (hsz : this.SizeOk)
    (next : TRes (LNext K V) R)
    (h1 : lvis (next.get this.next) = op.outs this.next.visit)
    (h2 : ∀ m, next.get this.next = some m → m.SizeOk) :
    let res := LNode.transformResult reduce this (op.call this.key this.value) next
    lvis (res.get (.L this)) = op.outs this.visit ∧
      (∀ m, res.get (.L this) = some m → m.SizeOk) ∧
      (Mon reduce e → next.red = total reduce e (op.reds this.next.visit) →
        res.red = total reduce e (op.reds this.visit)) := by
  intro res
  have hv : this.visit = _ := this.visit_eq
  have hred : Mon reduce e → next.red = total reduce e (op.reds this.next.visit) →
      total reduce e (op.reds this.visit) = reduce (op.call this.key this.value).red next.red := by
    intro mon hn
    rw [hv, MapTransform.reds, List.map_cons, mon.total_cons, hn]
  refine ⟨?_, ?_, fun mon hn => ?_⟩
  · have ho : op.outs this.visit =
        ((op.call this.key this.value).entry (this.key, this.value)).toList ++
          lvis (next.get this.next) := by
      rw [h1, hv]
      simp only [MapTransform.outs, List.filterMap_cons]
      cases (op.call this.key this.value).entry (this.key, this.value) <;> rfl
    rw [ho]
    simp only [res]
    cases op.call this.key this.value <;> cases next <;>
      first
        | exact hv
        | exact LNode.new_visit ..
        | rfl
  · intro m hm
    simp only [res] at hm
    have hns := hsz.next
    cases hc : op.call this.key this.value <;> rw [hc] at hm <;> cases next <;>
      simp only [LNode.transformResult, TRes.get, Option.some.injEq, reduceCtorEq] at hm <;>
      simp only [TRes.get, Option.some.injEq, forall_eq', reduceCtorEq, false_implies, implies_true] at h2 <;>
      subst hm <;>
      first
        | exact hsz
        | exact hns
        | exact h2
        | exact LNode.new_sizeOk hns
        | exact LNode.new_sizeOk h2
        | trivial
  · rw [hred mon hn]
    simp only [res]
    cases op.call this.key this.value <;> cases next <;> rfl

theorem LNode.transform_spec (reduce : R → R → R) (l : LNode K V) (hsz : l.SizeOk) :
    lvis ((l.transform reduce op).get (.L l)) = op.outs l.visit ∧
      (∀ m, (l.transform reduce op).get (.L l) = some m → m.SizeOk) ∧
      ∀ {e : R}, Mon reduce e → op.Neutral e →
        (l.transform reduce op).red = total reduce e (op.reds l.visit) := by
  have bulk : ∀ l : LNode K V, l.SizeOk → (∀ f, op ≠ .generic f) →
      lvis ((l.transform reduce op).get (.L l)) = op.outs l.visit ∧
      (∀ m, (l.transform reduce op).get (.L l) = some m → m.SizeOk) ∧
      ∀ {e : R}, Mon reduce e → op.Neutral e →
        (l.transform reduce op).red = total reduce e (op.reds l.visit) := by
    intro l hl hop
    refine ⟨?_, ?_, ?_⟩
    · cases op with
      | generic f => exact absurd rfl (hop f)
      | unchanged r => rw [MapTransform.outs_unchanged]; cases l <;> rfl
      | removed r => rw [MapTransform.outs_removed]; cases l <;> rfl
    · intro m hm
      cases op with
      | generic f => exact absurd rfl (hop f)
      | unchanged r => cases l <;> (simp [LNode.transform, TRes.get] at hm; subst hm; exact hl)
      | removed r => cases l <;> simp [LNode.transform, TRes.get] at hm
    · intro e mon hn
      rw [op.reds_neutral mon hop hn]
      cases op with
      | generic f => exact absurd rfl (hop f)
      | unchanged r => cases l <;> exact hn
      | removed r => cases l <;> exact hn
  induction l with
  | nextS k v s z =>
    cases hop : op with
    | generic f =>
      obtain ⟨s1, s2, s3⟩ := SNode.transform_spec op s
      have := fun e => LNode.transformResult_spec op (reduce := reduce) (e := e) (.nextS k v s z) hsz
        ((s.transform op).map .S) s1 s2
      rw [← hop]
      have heq : (LNode.nextS k v s z).transform reduce op =
        LNode.transformResult reduce (.nextS k v s z) (op.call k v) ((s.transform op).map .S) := by
        rw [hop]; rfl
      rw [heq]
      exact ⟨(this (op.call k v).red).1, (this (op.call k v).red).2.1,
        fun mon _ => (this _).2.2 mon (s3 mon)⟩
    | unchanged r => rw [← hop]; exact bulk _ hsz (by rw [hop]; simp)
    | removed r => rw [← hop]; exact bulk _ hsz (by rw [hop]; simp)
  | nextL k v l z ih =>
    cases hop : op with
    | generic f =>
      obtain ⟨s1, s2, s3⟩ := ih hsz.2
      have := fun e => LNode.transformResult_spec op (reduce := reduce) (e := e) (.nextL k v l z) hsz
        (l.transform reduce op) s1 s2
      rw [← hop]
      have heq : (LNode.nextL k v l z).transform reduce op =
        LNode.transformResult reduce (.nextL k v l z) (op.call k v) (l.transform reduce op) := by
        rw [hop]; rfl
      rw [heq]
      exact ⟨(this (op.call k v).red).1, (this (op.call k v).red).2.1,
        fun mon hn => (this _).2.2 mon (s3 mon (by rw [hop] at hn ⊢; exact hn))⟩
    | unchanged r => rw [← hop]; exact bulk _ hsz (by rw [hop]; simp)
    | removed r => rw [← hop]; exact bulk _ hsz (by rw [hop]; simp)

/-! ### Keys are kept by transform -/

theorem MapTransform.mem_outs {x : K × V} {l : List (K × V)} (h : x ∈ op.outs l) :
    ∃ y ∈ l, y.1 = x.1 := by
  obtain ⟨y, hy, hyx⟩ := List.mem_filterMap.1 h
  refine ⟨y, hy, ?_⟩
  cases hc : op.call y.1 y.2 <;> rw [hc] at hyx <;> simp [MapTransformResult.entry] at hyx
  · rw [hyx]
  · rw [← hyx]

theorem MapTransform.distinct_outs [BEq K] {l : List (K × V)} (h : DistinctKeys l) :
    DistinctKeys (op.outs l) := by
  unfold DistinctKeys at h ⊢
  rw [List.pairwise_filterMap]
  refine h.imp ?_
  intro a b hab x hx y hy
  have h1 : x.1 = a.1 := by
    cases hc : op.call a.1 a.2 <;> rw [hc] at hx <;> simp [MapTransformResult.entry] at hx
    · rw [hx]
    · rw [← hx]
  have h2 : y.1 = b.1 := by
    cases hc : op.call b.1 b.2 <;> rw [hc] at hy <;> simp [MapTransformResult.entry] at hy
    · rw [hy]
    · rw [← hy]
  rw [h1, h2]; exact hab

/-! ### Nodes -/

section
variable [BEq K] {c : Cfg} {hash : K → BitVec c.w}

/-- What is guaranteed of the result of transforming node `m` at depth `d`. -/
structure TrGood (hash : K → BitVec c.w) (mx d : Nat) (reduce : R → R → R) (e : R)
    (op : MapTransform R (K → V → MapTransformResult V R)) (m : Node c.n K V)
    (res : TRes (Node c.n K V) R) : Prop where
  entries : vis (res.get m) = op.outs m.visit
  wf : ∀ m', res.get m = some m' → m'.WF hash mx d
  ne : m.visit ≠ [] → ∀ m', res.get m = some m' → m'.visit ≠ []
  red : Mon reduce e → op.Neutral e → res.red = total reduce e (op.reds m.visit)

omit [BEq K] in
theorem Node.transformAll_eq {n : Nat} (reduce : R → R → R) (e : R) (par : Par)
    (ms : List (Node n K V)) :
    Node.transformAll reduce e op par ms = ms.map fun m => (m, m.transform reduce e op par) := by
  induction ms with
  | nil => rfl
  | cons m ms ih => rw [Node.transformAll, ih]; rfl

omit [BEq K] in
/-- The result of a node of a collision list, as a node. -/
theorem lres_get {n : Nat} (res : TRes (LNext K V) R) (m : LNext K V) :
    ((res.map LNext.toNode).get (m.toNode : Node n K V)) = (res.get m).map LNext.toNode := by
  cases res <;> rfl

omit [BEq K] in
theorem vis_lvis {n : Nat} (o : Option (LNext K V)) :
    vis (o.map LNext.toNode : Option (Node n K V)) = lvis o := by
  cases o with
  | none => rfl
  | some m => exact m.toNode_visit

theorem TRes.map_red {N N' : Type} (f : N → N') (res : TRes N R) : (res.map f).red = res.red := by
  cases res <;> rfl

/-- From a result on a collision list (or single node) to one on nodes. -/
theorem TrGood.ofL {mx d : Nat} {reduce : R → R → R} {e : R} {m : LNext K V} {res : TRes (LNext K V) R}
    (hv : BitVec c.w)
    (hh : ∀ x ∈ m.visit, hash x.1 = hv) (hk : DistinctKeys m.visit)
    (h1 : lvis (res.get m) = op.outs m.visit) (h2 : ∀ m', res.get m = some m' → m'.SizeOk)
    (h3 : Mon reduce e → op.Neutral e → res.red = total reduce e (op.reds m.visit)) :
    TrGood hash mx d reduce e op (m.toNode : Node c.n K V) (res.map LNext.toNode) := by
  refine ⟨?_, ?_, ?_, ?_⟩
  · rw [lres_get, vis_lvis, h1, LNext.toNode_visit]
  · intro m' hm'
    rw [lres_get] at hm'
    cases hg : res.get m with
    | none => rw [hg] at hm'; simp at hm'
    | some m1 =>
      rw [hg] at hm' h1
      simp only [Option.map_some, Option.some.injEq] at hm'
      subst hm'
      have h1 : m1.visit = op.outs m.visit := h1
      refine LNext.wf (h2 m1 hg) hv ?_ ?_
      · intro x hx
        rw [h1] at hx
        obtain ⟨y, hy, hyx⟩ := op.mem_outs hx
        rw [← hyx]; exact hh y hy
      · rw [h1]; exact op.distinct_outs hk
  · intro _ m' hm'
    rw [lres_get] at hm'
    cases hg : res.get m with
    | none => rw [hg] at hm'; simp at hm'
    | some m1 =>
      rw [hg] at hm'
      simp only [Option.map_some, Option.some.injEq] at hm'
      subst hm'
      rw [LNext.toNode_visit]; exact m1.visit_ne_nil
  · intro mon hn
    rw [TRes.map_red, h3 mon hn, LNext.toNode_visit]

theorem filterMap_eq_self {α : Type} {l : List α} {f : α → Option α} (h : l.length = (l.filterMap f).length)
    (hx : ∀ a ∈ l, ∀ b, f a = some b → b = a) : l.filterMap f = l := by
  induction l with
  | nil => rfl
  | cons a l ih =>
    rw [List.filterMap_cons] at h ⊢
    have hle := List.length_filterMap_le f l
    cases ha : f a with
    | none => rw [ha] at h; simp at h; omega
    | some b =>
      rw [ha] at h; simp at h
      rw [hx a (List.mem_cons_self ..) b ha, ih h (fun a' h' => hx a' (List.mem_cons_of_mem _ h'))]

theorem filterMap_flatMap {α β : Type} (l : List Nat) (g : Nat → List α) (f : α → Option β) :
    (l.flatMap g).filterMap f = l.flatMap fun i => (g i).filterMap f := by
  induction l with
  | nil => rfl
  | cons i l ih => simp [List.flatMap_cons, ih]

theorem map_flatMap' {α β : Type} (l : List Nat) (g : Nat → List α) (f : α → β) :
    (l.flatMap g).map f = l.flatMap fun i => (g i).map f := by
  induction l with
  | nil => rfl
  | cons i l ih => simp [List.flatMap_cons, ih]

/-- Reductions of the children of a branch node. -/
theorem total_slots {reduce : R → R → R} {e : R} (mon : Mon reduce e) {l : List Nat}
    {g : Nat → Option R} {f : Nat → List R}
    (h : ∀ i ∈ l, (g i).getD e = total reduce e (f i)) :
    total reduce e (l.filterMap g) = total reduce e (l.flatMap f) := by
  induction l with
  | nil => rfl
  | cons i l ih =>
    have h1 := h i (List.mem_cons_self ..)
    have h2 := ih (fun j hj => h j (List.mem_cons_of_mem _ hj))
    rw [List.filterMap_cons, List.flatMap_cons, mon.total_append, ← h1, ← h2]
    cases hg : g i with
    | none => exact (mon.left _).symm
    | some r => exact mon.total_cons _ _

theorem Node.transform_spec (hh : HashOk hash) {mx d : Nat} (reduce : R → R → R) (e : R) (par : Par)
    {m : Node c.n K V} (wf : m.WF hash mx d) :
    ∃ res, m.transform reduce e op par = .ok res ∧ TrGood hash mx d reduce e op m res := by
  induction wf with
  | S d s =>
    obtain ⟨h1, h2, h3⟩ := SNode.transform_spec op s
    refine ⟨_, rfl, ?_⟩
    have : (s.transform op).map (Node.S (n := c.n)) =
        (((s.transform op).map LNext.S).map LNext.toNode) := by
      cases s.transform op <;> rfl
    rw [this]
    exact TrGood.ofL op (m := .S s) (hash s.key) (by simp [LNext.visit, SNode.visit])
      (by simp [LNext.visit, SNode.visit, DistinctKeys]) h1 h2 (fun mon _ => h3 mon)
  | L d l hl =>
    obtain ⟨h1, h2, h3⟩ := LNode.transform_spec op reduce l hl.size
    refine ⟨_, rfl, ?_⟩
    exact TrGood.ofL op (m := .L l) (hash l.key) hl.hash hl.keys h1 h2 h3
  | C d bits values extra hd ok sz ne at_ sub ih =>
    have wfC : (Node.C bits values extra).WF hash mx d := .C d bits values extra hd ok sz ne at_ sub
    cases hop : op with
    | unchanged r =>
      refine ⟨.unchanged r, rfl, ?_, ?_, ?_, ?_⟩
      · rw [MapTransform.outs_unchanged]; rfl
      · intro m' hm'; injection hm' with hm'; subst hm'; exact wfC
      · intro h m' hm'; injection hm' with hm'; subst hm'; exact h
      · intro mon hn; rw [MapTransform.reds_neutral _ mon (by simp) hn]; exact hn
    | removed r =>
      refine ⟨.removed r, rfl, ?_, ?_, ?_, ?_⟩
      · rw [MapTransform.outs_removed]; rfl
      · intro m' hm'; simp [TRes.get] at hm'
      · intro _ m' hm'; simp [TRes.get] at hm'
      · intro mon hn; rw [MapTransform.reds_neutral _ mon (by simp) hn]; exact hn
    | generic f =>
      rw [← hop]
      -- the results of the children
      have hres : ∃ resf : Nat → TRes (Node c.n K V) R, ∀ i m, (Bia.mk bits values extra).slot i = some m →
          m.transform reduce e op par = .ok (resf i) ∧ TrGood hash mx (d + 1) reduce e op m (resf i) := by
        refine ⟨fun i => match (Bia.mk bits values extra).slot i with
          | none => .removed e
          | some m => match m.transform reduce e op par with
            | .ok r => r
            | _ => .removed e, ?_⟩
        intro i m hm
        obtain ⟨r, hr, g⟩ := ih i m hm
        simp only [hm, hr]
        exact ⟨trivial, g⟩
      obtain ⟨resf, hresf⟩ := hres
      let it : Nat → Item c.n K V R := fun i => match (Bia.mk bits values extra).slot i with
        | none => .skip
        | some m => (resf i).item m
      have okA : (Bia.mk bits (Node.transformAll reduce e op par values) extra).Ok := by
        rw [Node.transformAll_eq]; simpa [Bia.Ok] using ok
      obtain ⟨acc, hacc, G⟩ := Acc.gather_spec reduce e par (fun index => do
        let child ← (Bia.mk bits (Node.transformAll reduce e op par values) extra).atBitIndex index
        TRes.childItem child) it (by
        intro i hi
        simp only [Bia.atBitIndex_eq _ okA, Res.ok_bind]
        rw [Node.transformAll_eq, Bia.slot_map]
        simp only [it]
        cases hs : (Bia.mk bits values extra).slot i with
        | none => rfl
        | some m =>
          simp only [Option.map_some, (hresf i m hs).1, TRes.childItem, Res.ok_bind])
      have hitnode : ∀ i, vis (it i).node? = op.outs (slotVisit ⟨bits, values, extra⟩ i) := by
        intro i
        simp only [it, slotVisit]
        cases hs : (Bia.mk bits values extra).slot i with
        | none => rfl
        | some m =>
          rw [← (hresf i m hs).2.entries]
          simp only [TRes.item]
          cases resf i <;> rfl
      have hget : ∀ i m m', (Bia.mk bits values extra).slot i = some m → (it i).node? = some m' →
          (resf i).get m = some m' := by
        intro i m m' hs h
        simp only [it, hs] at h
        cases hr : resf i <;> rw [hr] at h <;> exact h
      obtain ⟨o, hpack, hvis, hwf⟩ := Acc.pack_spec (hash := hash) (mx := mx) (d := d) hd G (by
        intro i m' hi hm'
        cases hs : (Bia.mk bits values extra).slot i with
        | none => simp [it, hs, Item.node?] at hm'
        | some m =>
          obtain ⟨_, g⟩ := hresf i m hs
          have hg := hget i m m' hs hm'
          refine ⟨g.wf _ hg, g.ne (ne i m hs) _ hg, ?_⟩
          intro x hx
          have : x ∈ vis ((resf i).get m) := by rw [hg]; exact hx
          rw [g.entries] at this
          obtain ⟨y, hy, hyx⟩ := op.mem_outs this
          rw [← hyx]; exact at_ i m hs y hy)
      have hred : Mon reduce e → op.Neutral e →
          acc.red = total reduce e (op.reds (Node.C bits values extra).visit) := by
        intro mon hn
        rw [G.red mon, Node.visit, visit_slots ⟨bits, values, extra⟩ ok, MapTransform.reds, map_flatMap']
        apply total_slots mon
        intro i _
        simp only [it, slotVisit]
        cases hs : (Bia.mk bits values extra).slot i with
        | none => rfl
        | some m =>
          rw [← (hresf i m hs).2.red mon hn]
          cases resf i <;> rfl
      have houts : (List.range c.n).flatMap (fun i => vis (it i).node?) =
          op.outs (Node.C bits values extra).visit := by
        rw [Node.visit, visit_slots ⟨bits, values, extra⟩ ok, MapTransform.outs, filterMap_flatMap]
        exact flatMap_congr' _ _ _ (fun i _ => hitnode i)
      have heq : (Node.C bits values extra).transform reduce e op par =
          (if acc.ul then .ok (.unchanged acc.red) else do
            let o ← acc.pack
            .ok (TRes.ofOption o acc.red)) := by
        rw [hop] at hacc ⊢
        rw [Node.transform]
        simp only [hacc, Res.ok_bind]
      rw [heq]
      cases hul : acc.ul with
      | true =>
        refine ⟨.unchanged acc.red, by simp, ?_, ?_, ?_, hred⟩
        · rw [← houts]
          show (Node.C bits values extra).visit = _
          rw [Node.visit, visit_slots ⟨bits, values, extra⟩ ok]
          apply flatMap_congr'
          intro i hi
          have hall := G.ul
          rw [hul] at hall
          have hk := List.all_eq_true.1 hall.symm i hi
          simp only [it, slotVisit] at hk ⊢
          cases hs : (Bia.mk bits values extra).slot i with
          | none => rfl
          | some m =>
            simp only [hs] at hk ⊢
            cases hr : resf i <;> rw [hr] at hk <;> simp [TRes.item, Item.kl] at hk
            rfl
        · intro m' hm'; injection hm' with hm'; subst hm'; exact wfC
        · intro h m' hm'; injection hm' with hm'; subst hm'; exact h
      | false =>
        simp only [Bool.false_eq_true, if_false, hpack, Res.ok_bind]
        refine ⟨_, rfl, ?_, ?_, ?_, ?_⟩
        · rw [← houts, ← hvis]; cases o <;> rfl
        · intro m' hm'
          cases o with
          | none => simp [TRes.ofOption, TRes.get] at hm'
          | some m1 => injection hm' with hm'; subst hm'; exact (hwf _ rfl).1
        · intro _ m' hm'
          cases o with
          | none => simp [TRes.ofOption, TRes.get] at hm'
          | some m1 => injection hm' with hm'; subst hm'; exact (hwf _ rfl).2
        · intro mon hn
          rw [← hred mon hn]; cases o <;> rfl

end
end HT
