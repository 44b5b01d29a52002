import Verif.ArcSim
import Verif.Remove
/-! # insert and remove with addresses do what the model does; what they allocate -/
namespace HT

variable {K V : Type} {n : Nat}

/-! ### Heights -/

mutual
/-- The length of the longest path of objects. -/
def Node.pathObjs : Node n K V → Nat
  | .C _ values _ => Node.pathObjsAll values + 1
  | .L l => l.visit.length
  | .S _ => 1
def Node.pathObjsAll : List (Node n K V) → Nat
  | [] => 0
  | m :: ms => max m.pathObjs (Node.pathObjsAll ms)
end

theorem Node.pathObjs_le_all {m : Node n K V} {ms : List (Node n K V)} (h : m ∈ ms) :
    m.pathObjs ≤ Node.pathObjsAll ms := by
  induction ms with
  | nil => cases h
  | cons a ms ih =>
    rw [Node.pathObjsAll]
    rcases List.mem_cons.1 h with rfl | h
    · exact Nat.le_max_left ..
    · exact Nat.le_trans (ih h) (Nat.le_max_right ..)

theorem Node.pathObjs_ofBia {m : Node n K V} {a : Bia n (Node n K V)} (h : m ∈ a.values) :
    m.pathObjs + 1 ≤ (Node.ofBia a).pathObjs := by
  rw [Node.ofBia, Node.pathObjs]
  have := Node.pathObjs_le_all h
  omega

/-! ### Lifting -/

variable {c : Cfg} {hash : K → BitVec c.w}

theorem aliftC_unfold (m1 m2 : ANode c.n K V) (f1 f2 : Flag c) :
    aliftC c m1 f1 m2 f2 =
      (if f1.flag = f2.flag then (do
        let tf ← Al.lift f1.next
        let tf ← Al.lift (Res.unwrap tf)
        let rf ← Al.lift f2.next
        let rf ← Al.lift (Res.unwrap rf)
        let inner ← aliftC c m1 tf m2 rf
        let a ← Al.lift (Bia.ofVec f1.flag [inner] (m1.size + m2.size))
        let a ← Al.lift (Res.unwrapE a)
        let m ← ANode.ofBia a
        pure m)
      else (do
        let flags ← Al.lift (Res.unwrapE (bitInsert f1.flag f2.flag))
        let i ← Al.lift (Res.unwrapE (bitIndex flags f1.flag))
        let a ← Al.lift (Bia.ofVec flags (if i = 0 then [m1, m2] else [m2, m1]) (m1.size + m2.size))
        let a ← Al.lift (Res.unwrapE a)
        let m ← ANode.ofBia a
        pure m)) := by
  rw [aliftC]
  split
  · split <;> rename_i h <;> rw [h] <;> rfl
  · rfl

/-- What lifting returns: the branch node, fresh, above the right node. -/
structure LiftP (s0 : Nat) (r : ANode c.n K V) (U' : ANode c.n K V → Prop) (s' : Nat) (m : ANode c.n K V)
    (m' : Node c.n K V) : Prop where
  erase : m.erase = m'
  mem : U' m
  fresh : s0 ≤ m.addr
  sub : r.Sub m
  count : s' + r.erase.pathObjs ≤ s0 + m'.pathObjs

theorem aliftC_sim (m1 m2 : ANode c.n K V) (d : Nat) :
    ∀ (f1 f2 : Flag c), 8 * c.w - f1.depth = d → ∀ (U : ANode c.n K V → Prop) (s : Nat), Heap U s →
      U m1 → U m2 →
      Sim U s (aliftC c m1 f1 m2 f2) (liftC c m1.erase f1 m2.erase f2) (LiftP s m2) := by
  induction d using Nat.strongRecOn with
  | _ d ih =>
    intro f1 f2 hd U s heap h1 h2
    rw [aliftC_unfold, liftC_unfold]
    split
    · refine Sim.bindLift fun tf htf => ?_
      refine Sim.bindLift fun tf' htf' => ?_
      refine Sim.bindLift fun rf hrf => ?_
      refine Sim.bindLift fun rf' hrf' => ?_
      have hdec : 8 * c.w - tf'.depth < d := by
        cases tf with
        | none => cases htf'
        | some x =>
          injection htf' with htf'; subst htf'
          simp only [Flag.next, Flag.newAtDepth] at htf
          split at htf
          · simp at htf
          · have hb := c.bpos
            simp only [Res.bind_eq_ok] at htf
            obtain ⟨x, _, y, _, hz⟩ := htf
            injection hz with hz
            injection hz with hz
            subst hz
            have : f1.depth + 1 ≤ (f1.depth + 1) * c.b := Nat.le_mul_of_pos_right _ hb
            show 8 * c.w - (f1.depth + 1) < d
            omega
      refine Sim.bind (ih _ hdec tf' rf' rfl U s heap h1 h2) ?_
      intro U' s' inner inner' hle hsub heap' P
      have e : [inner'] = [inner].map ANode.erase := by simp [P.erase]
      refine Sim.bia heap' (by rw [e, ANode.erase_size, ANode.erase_size, Bia.ofVec_map]) ?_ ?_
      · intro a ha z hz
        have := (Bia.ofVec_ok ha).2.2 z
        rw [this, List.mem_singleton] at hz
        rw [hz]; exact P.mem
      · intro a U2 m ha hs2 hm heap2 hma hmk hme
        have hin : inner ∈ a.values := ((Bia.ofVec_ok ha).2.2 inner).2 (by simp)
        refine Sim.pure heap2 ⟨rfl, hm, by omega, .kid P.sub (by rw [hmk]; exact hin), ?_⟩
        have h3 := P.count
        rw [hme]
        have h4 := Node.pathObjs_ofBia (a := a.map ANode.erase) (m := inner.erase)
          (List.mem_map_of_mem hin)
        rw [P.erase] at h4
        omega
    · refine Sim.bindLift fun flags hf => ?_
      refine Sim.bindLift fun i hi => ?_
      have e : (if i = 0 then [m1.erase, m2.erase] else [m2.erase, m1.erase]) =
          (if i = 0 then [m1, m2] else [m2, m1]).map ANode.erase := by split <;> rfl
      refine Sim.bia heap (by rw [e, ANode.erase_size, ANode.erase_size, Bia.ofVec_map]) ?_ ?_
      · intro a ha z hz
        rw [(Bia.ofVec_ok ha).2.2 z] at hz
        split at hz <;> simp only [List.mem_cons, List.not_mem_nil, or_false] at hz <;>
          rcases hz with rfl | rfl <;> assumption
      · intro a U2 m ha hs2 hm heap2 hma hmk hme
        have hin : m2 ∈ a.values := ((Bia.ofVec_ok ha).2.2 m2).2 (by split <;> simp)
        refine Sim.pure heap2 ⟨rfl, hm, by omega, .kid (.refl _) (by rw [hmk]; exact hin), ?_⟩
        rw [hme]
        have h4 := Node.pathObjs_ofBia (a := a.map ANode.erase) (m := m2.erase)
          (List.mem_map_of_mem hin)
        omega

/-! ### insert -/

/-- What insert returns. -/
inductive InsP (s0 : Nat) (U' : ANode n K V → Prop) (s' : Nat) :
    AInsertResult n K V → InsertResult n K V → Prop
  | found (k : K) (v : V) : s' = s0 → InsP s0 U' s' (.found k v) (.found k v)
  | inserted (m : ANode n K V) (o : ANode n K V) (p : K × V) (prev : Option (K × V)) :
      U' m → s0 ≤ m.addr → s' ≤ s0 + m.erase.pathObjs → o.Sub m → o.entry = some p → s0 ≤ o.addr →
      InsP s0 U' s' (.inserted m o.addr prev) (.inserted m.erase p prev)

theorem aliftL_sim (this : ALNext K V) (k : K) (v : V) (f : Flag c) (U : ANode c.n K V → Prop) (s : Nat)
    (heap : Heap U s) (h : U this.toNode) :
    Sim U s (aliftL c hash this k v f) (liftL c hash this.erase k v f) (InsP s) := by
  unfold aliftL liftL
  rw [ALNext.erase_key]
  simp only
  split
  · refine Sim.bindLNew heap h ?_
    intro U' l hsub hl heap' ha hk hv hkid he
    have e : (InsertResult.inserted (.L (LNode.new k v this.erase)) (k, v) none : InsertResult c.n K V) =
        .inserted (ANode.L l).erase (k, v) none := by rw [ANode.erase, he]
    rw [e]
    refine Sim.pure heap' (.inserted (.L l) (.L l) _ _ hl (by simp [ANode.addr, ha]) ?_ (.refl _)
      (by simp [ANode.entry, hk, hv]) (by simp [ANode.addr, ha]))
    rw [ANode.erase, Node.pathObjs]
    have := List.length_pos_iff.2 (LNode.visit_ne_nil l.erase)
    omega
  · refine Sim.bindLift fun tf htf => ?_
    refine Sim.bindLift fun tf' htf' => ?_
    refine Sim.bindSNew heap ?_
    intro U' hsub hs heap'
    have e : (this.erase.toNode : Node c.n K V) = (this.toNode : ANode c.n K V).erase := by simp
    rw [e]
    refine Sim.bind (aliftC_sim _ (.S ⟨s, k, v⟩) _ _ _ rfl U' (s + 1) heap' (hsub _ h) hs) ?_
    intro U2 s2 m m' hle hsub2 heap2 P
    have e2 := P.erase
    subst e2
    refine Sim.pure heap2 (.inserted m (.S ⟨s, k, v⟩) (k, v) none P.mem (by have := P.fresh; omega) ?_ P.sub rfl
      (Nat.le_refl _))
    have := P.count
    simp only [ANode.erase, Node.pathObjs] at this
    omega

theorem asnode_insert_sim (q : K → Bool) (k : K) (v : V) (replace : Bool) (this : ASNode K V)
    (f : Option (Flag c)) (U : ANode c.n K V → Prop) (s : Nat) (heap : Heap U s) (h : U (.S this)) :
    Sim U s (this.insert c hash q k v replace f) (this.erase.insert c hash q k v replace f) (InsP s) := by
  unfold ASNode.insert SNode.insert
  show Sim U s _ (if q this.key then _ else _) _
  split
  · split
    · refine Sim.bindSNew heap ?_
      intro U' hsub hs heap'
      exact Sim.pure heap' (.inserted (.S ⟨s, k, v⟩) (.S ⟨s, k, v⟩) (k, v) _ hs (Nat.le_refl _)
        (by simp [ANode.erase, Node.pathObjs]) (.refl _) rfl (Nat.le_refl _))
    · exact Sim.pure heap (.found _ _ rfl)
  · refine Sim.bindLift fun f' hf => ?_
    exact aliftL_sim (.S this) k v f' U s heap h

/-- What removing from a collision list returns. -/
inductive LRemP (addr s0 : Nat) (U' : ANode n K V → Prop) (s' : Nat) :
    ALNodeRemoveResult K V → LNodeRemoveResult K V → Prop
  | notFound : s' = s0 → LRemP addr s0 U' s' .notFound .notFound
  | removedL (l : ALNode K V) (k : K) (v : V) : U' (.L l) → (l.addr < addr ∨ s0 ≤ l.addr) →
      s' ≤ s0 + l.erase.visit.length → LRemP addr s0 U' s' (.removedL l k v) (.removedL l.erase k v)
  | removedS (t : ASNode K V) (k : K) (v : V) : U' (.S t) → (t.addr < addr ∨ s0 ≤ t.addr) →
      s' ≤ s0 + 1 → LRemP addr s0 U' s' (.removedS t k v) (.removedS t.erase k v)

theorem removeFrom_sim (q : K → Bool) (this : ALNode K V) (U : ANode n K V → Prop) (s : Nat)
    (heap : Heap U s) (h : U (.L this)) :
    Sim U s (this.removeFrom q) (.ok (this.erase.removeFrom q)) (LRemP this.addr s) := by
  induction this with
  | nextS a k v t z =>
    have ht := heap.kids _ h (.S t) (by simp [ANode.kids])
    unfold ALNode.removeFrom
    simp only [ALNode.erase, LNode.removeFrom]
    split
    · exact Sim.pure heap (.removedS t k v ht.1 (.inl ht.2) (by omega))
    · show Sim U s _ (.ok (if q t.key then _ else _)) _
      split
      · refine Sim.bindSNew heap ?_
        intro U' hsub hs heap'
        exact Sim.pure heap' (.removedS ⟨s, k, v⟩ t.key t.value hs (.inr (Nat.le_refl _)) (Nat.le_refl _))
      · exact Sim.pure heap (.notFound rfl)
  | nextL a k v l z ih =>
    have hl := heap.kids _ h (.L l) (by simp [ANode.kids])
    unfold ALNode.removeFrom
    simp only [ALNode.erase, LNode.removeFrom]
    split
    · exact Sim.pure heap (.removedL l k v hl.1 (.inl hl.2) (by omega))
    · refine Sim.bindOk (ih hl.1) ?_
      intro U' s' r hle hsub heap' P
      generalize l.erase.removeFrom q = r' at P ⊢
      cases P with
      | notFound hs => exact Sim.pure heap' (.notFound hs)
      | removedL l' k' v' h1 h2 h3 =>
        refine Sim.bindLNew heap' (nx := .L l') h1 ?_
        intro U2 l2 hsub2 hl2 heap2 ha hk hv hkid he
        simp only
        rw [show LNode.new k v (.L l'.erase) = l2.erase from he.symm]
        refine Sim.pure heap2 (.removedL l2 k' v' hl2 (.inr (by omega)) ?_)
        rw [he]; simp only [ALNext.erase, LNode.new, LNode.visit, List.length_cons]; omega
      | removedS t' k' v' h1 h2 h3 =>
        refine Sim.bindLNew heap' (nx := .S t') h1 ?_
        intro U2 l2 hsub2 hl2 heap2 ha hk hv hkid he
        simp only
        rw [show LNode.new k v (.S t'.erase) = l2.erase from he.symm]
        refine Sim.pure heap2 (.removedL l2 k' v' hl2 (.inr (by omega)) ?_)
        rw [he]; simp only [ALNext.erase, LNode.new, LNode.visit, SNode.visit, List.length_cons, List.length_nil]; omega

theorem alnode_insert_sim (q : K → Bool) (k : K) (v : V) (replace : Bool) (this : ALNode K V)
    (f : Option (Flag c)) (U : ANode c.n K V → Prop) (s : Nat) (heap : Heap U s) (h : U (.L this)) :
    Sim U s (this.insert c hash q k v replace f) (this.erase.insert c hash q k v replace f) (InsP s) := by
  unfold ALNode.insert LNode.insert
  rw [ALNode.erase_find]
  cases this.find q with
  | none =>
    refine Sim.bindLift fun f' hf => ?_
    exact aliftL_sim (.L this) k v f' U s heap h
  | some e =>
    obtain ⟨fk, fv⟩ := e
    simp only
    split
    · refine Sim.bindOk (removeFrom_sim q this U s heap h) ?_
      intro U' s' r hle hsub heap' P
      generalize this.erase.removeFrom q = r' at P ⊢
      cases P with
      | notFound hs => exact rfl
      | removedL l' k' v' h1 h2 h3 =>
        refine Sim.bindLNew heap' (nx := .L l') h1 ?_
        intro U2 l2 hsub2 hl2 heap2 ha hk hv hkid he
        simp only
        rw [show (Node.L (LNode.new k v (.L l'.erase)) : Node c.n K V) = (ANode.L l2).erase by
          rw [ANode.erase, he]; rfl]
        refine Sim.pure heap2 (.inserted (.L l2) (.L l2) (k, v) _ hl2 (by simp [ANode.addr]; omega) ?_ (.refl _)
          (by simp [ANode.entry, hk, hv]) (by simp [ANode.addr]; omega))
        rw [ANode.erase, Node.pathObjs, he]
        simp only [ALNext.erase, LNode.new, LNode.visit, List.length_cons]; omega
      | removedS t' k' v' h1 h2 h3 =>
        refine Sim.bindLNew heap' (nx := .S t') h1 ?_
        intro U2 l2 hsub2 hl2 heap2 ha hk hv hkid he
        simp only
        rw [show (Node.L (LNode.new k v (.S t'.erase)) : Node c.n K V) = (ANode.L l2).erase by
          rw [ANode.erase, he]; rfl]
        refine Sim.pure heap2 (.inserted (.L l2) (.L l2) (k, v) _ hl2 (by simp [ANode.addr]; omega) ?_ (.refl _)
          (by simp [ANode.entry, hk, hv]) (by simp [ANode.addr]; omega))
        rw [ANode.erase, Node.pathObjs, he]
        simp only [ALNext.erase, LNode.new, LNode.visit, SNode.visit, List.length_cons, List.length_nil]; omega
    · exact Sim.pure heap (.found _ _ rfl)

/-- What the arms of `CNode::insert` return. -/
inductive StepP (s0 : Nat) (U' : ANode n K V → Prop) (s' : Nat) :
    (K × V) ⊕ (ANode n K V × Nat × Nat × Option (K × V)) →
    (K × V) ⊕ (Node n K V × Nat × (K × V) × Option (K × V)) → Prop
  | found (e : K × V) : s' = s0 → StepP s0 U' s' (.inl e) (.inl e)
  | inserted (m : ANode n K V) (z : Nat) (o : ANode n K V) (p : K × V) (prev : Option (K × V)) :
      U' m → s0 ≤ m.addr → s' ≤ s0 + m.erase.pathObjs → o.Sub m → o.entry = some p → s0 ≤ o.addr →
      StepP s0 U' s' (.inr (m, z, o.addr, prev)) (.inr (m.erase, z, p, prev))

theorem insertStep_sim (m : ANode n K V) (z : Nat) {U : ANode n K V → Prop} {s0 s : Nat} (heap : Heap U s)
    {r : AInsertResult n K V} {r' : InsertResult n K V} (P : InsP s0 U s r r') :
    Sim U s (Al.lift (m.insertStep z r)) (m.erase.insertStep z r') (StepP s0) := by
  cases P with
  | found k v hs => exact Sim.lift (h := fun _ => .inl (k, v)) rfl heap (fun a ha => by
      injection ha with ha; subst ha; exact .found _ hs)
  | inserted m2 o p prev h1 h2 h3 h4 h5 h6 =>
    have hz1 := ANode.erase_size m
    have hz2 := ANode.erase_size m2
    have key : ∀ z', StepP s0 U s (.inr (m2, z', o.addr, prev)) (.inr (m2.erase, z', p, prev)) :=
      fun z' => .inserted m2 z' o p prev h1 h2 h3 h4 h5 h6
    have usubcase : ∀ x y, Sim U s (Al.lift (do let z ← usub x y; .ok (.inr (m2, z, o.addr, prev))))
        (do let z ← usub x y; .ok (.inr (m2.erase, z, p, prev))) (StepP s0) := by
      intro x y
      cases usub x y with
      | ok a => exact Sim.pure heap (key _)
      | panic p => exact rfl
      | diverge => exact trivial
    cases m <;> cases m2 <;>
      simp only [ANode.erase_C, ANode.erase] at hz1 hz2 usubcase key ⊢ <;>
      simp only [ANode.insertStep, Node.insertStep, hz1, hz2] <;>
      first
        | exact usubcase _ _
        | exact Sim.pure heap (key _)
        | exact rfl

theorem Node.insertAll_eq' (q : K → Bool) (k : K) (v : V) (replace : Bool) (ms : List (Node c.n K V)) :
    Node.insertAll c hash q k v replace ms =
      ms.map (fun m nx selfSize => m.insert c hash q k v replace nx >>= m.insertStep selfSize) := by
  induction ms with
  | nil => rfl
  | cons m ms ih => rw [Node.insertAll, ih, List.map_cons]

theorem Node.removeAll_eq' (q : K → Bool) (ms : List (Node c.n K V)) :
    Node.removeAll c q ms = ms.map (fun m nx => m.remove c q nx) := by
  induction ms with
  | nil => rfl
  | cons m ms ih => rw [Node.removeAll, ih, List.map_cons]

theorem ANode.insertAll_eq (q : K → Bool) (k : K) (v : V) (replace : Bool) (ms : List (ANode c.n K V)) :
    ANode.insertAll c hash q k v replace ms =
      ms.map (fun m nx selfSize => do
        let r ← m.insert c hash q k v replace nx
        Al.lift (m.insertStep selfSize r)) := by
  induction ms with
  | nil => rfl
  | cons m ms ih => rw [ANode.insertAll, ih, List.map_cons]

theorem ANode.insert_sim (q : K → Bool) (k : K) (v : V) (replace : Bool) (m : ANode c.n K V)
    (flag : Option (Flag c)) (U : ANode c.n K V → Prop) (s : Nat) (heap : Heap U s) (h : U m) :
    Sim U s (m.insert c hash q k v replace flag) (m.erase.insert c hash q k v replace flag) (InsP s) := by
  match m, h with
  | .L l, h =>
    rw [ANode.insert, ANode.erase, Node.insert]
    exact alnode_insert_sim q k v replace l flag U s heap h
  | .S t, h =>
    rw [ANode.insert, ANode.erase, Node.insert]
    exact asnode_insert_sim q k v replace t flag U s heap h
  | .C a bits values extra, h =>
    rw [ANode.erase_C, ANode.insert, Node.insert]
    have hvs : ∀ x ∈ values, U x := fun x hx => (heap.kids _ h x hx).1
    refine Sim.bindLift fun f hf => ?_
    rw [ANode.insertAll_eq, Node.insertAll_eq', List.map_map, Bia.at'_map, Bia.at'_map]
    cases hat : (Bia.mk bits values extra).at' f.flag with
    | error err =>
      simp only
      refine Sim.bindSNew heap ?_
      intro U' hsub hs heap'
      refine Sim.bia heap' (x := (Bia.mk bits values extra).inserted f.flag (.S ⟨s, k, v⟩) (extra + 1))
        (g := fun m => .ok (InsertResult.inserted m (k, v) none))
        (Bia.inserted_map ANode.erase (Bia.mk bits values extra) f.flag (.S ⟨s, k, v⟩) (extra + 1)) ?_ ?_
      · intro a' ha z hz
        rcases (Bia.inserted_ok ha).2 z hz with h | rfl
        · exact hsub _ (hvs _ h)
        · exact hs
      · intro a' U2 m ha hs2 hm heap2 hma hmk hme
        have hin := (Bia.inserted_ok ha).1
        refine Sim.pure heap2 (.inserted m (.S ⟨s, k, v⟩) (k, v) none hm (by omega) ?_
          (.kid (.refl _) (by rw [hmk]; exact hin)) rfl (Nat.le_refl _))
        rw [hme]
        have := Node.pathObjs_ofBia (a := a'.map ANode.erase) (m := (ANode.S ⟨s, k, v⟩).erase)
          (List.mem_map_of_mem hin)
        simp only [ANode.erase, Node.pathObjs] at this
        omega
    | ok m0 =>
      simp only
      have hm0 := Bia.at'_mem hat
      have hlt : sizeOf m0 < 1 + sizeOf a + sizeOf bits + sizeOf values + sizeOf extra := by
        have : sizeOf m0 < sizeOf values := List.sizeOf_lt_of_mem hm0
        omega
      refine Sim.bindLift fun nx hnx => ?_
      refine Sim.bind (Sim.bind (ANode.insert_sim q k v replace m0 nx U s heap (hvs _ hm0))
        (Q := StepP s) ?_) ?_
      · intro U' s' r r' hle hsub heap' P
        exact insertStep_sim m0 extra heap' P
      · intro U' s' r r' hle hsub heap' P
        cases P with
        | found e hs => exact Sim.pure heap' (.found _ _ hs)
        | inserted m z o p prev h1 h2 h3 h4 h5 h6 =>
          refine Sim.bia heap' (x := (Bia.mk bits values extra).updated f.flag m z)
            (g := fun m => .ok (InsertResult.inserted m p prev))
            (Bia.updated_map ANode.erase (Bia.mk bits values extra) f.flag m z) ?_ ?_
          · intro a' ha z hz
            rcases (Bia.updated_ok ha).2 z hz with h | rfl
            · exact hsub _ (hvs _ h)
            · exact h1
          · intro a' U2 m' ha hs2 hm heap2 hma hmk hme
            have hin := (Bia.updated_ok ha).1
            refine Sim.pure heap2 (.inserted m' o p prev hm (by omega) ?_
              (.kid h4 (by rw [hmk]; exact hin)) h5 h6)
            rw [hme]
            have := Node.pathObjs_ofBia (a := a'.map ANode.erase) (m := m.erase)
              (List.mem_map_of_mem hin)
            omega
termination_by sizeOf m
decreasing_by
  simp only [ANode.C.sizeOf_spec]
  exact hlt

/-! ### remove -/

/-- What remove returns. -/
inductive RemP (addr s0 : Nat) (U' : ANode n K V → Prop) (s' : Nat) :
    ARemoveResult n K V → RemoveResult n K V → Prop
  | notFound : s' = s0 → RemP addr s0 U' s' .notFound .notFound
  | removed (m : ANode n K V) (k : K) (v : V) : U' m → (m.addr < addr ∨ s0 ≤ m.addr) →
      s' ≤ s0 + m.erase.pathObjs → RemP addr s0 U' s' (.removed m k v) (.removed m.erase k v)
  | removedZ (k : K) (v : V) : s' = s0 → RemP addr s0 U' s' (.removedZ k v) (.removedZ k v)

theorem ANode.removeAll_eq (q : K → Bool) (ms : List (ANode c.n K V)) :
    ANode.removeAll c q ms = ms.map (fun m nx => m.remove c q nx) := by
  induction ms with
  | nil => rfl
  | cons m ms ih => rw [ANode.removeAll, ih, List.map_cons]

theorem ANode.remove_sim (q : K → Bool) (m : ANode c.n K V)
    (flag : Option (Flag c)) (U : ANode c.n K V → Prop) (s : Nat) (heap : Heap U s) (h : U m) :
    Sim U s (m.remove c q flag) (m.erase.remove c q flag) (RemP m.addr s) := by
  match m, h with
  | .L l, h =>
    rw [ANode.remove, ANode.erase, Node.remove]
    unfold ALNode.remove LNode.remove
    refine Sim.bindOk (removeFrom_sim q l U s heap h) ?_
    intro U' s' r hle hsub heap' P
    generalize l.erase.removeFrom q = r' at P ⊢
    cases P with
    | notFound hs => exact Sim.pure heap' (.notFound hs)
    | removedL l' k' v' h1 h2 h3 => exact Sim.pure heap' (.removed (.L l') k' v' h1 h2 h3)
    | removedS t' k' v' h1 h2 h3 => exact Sim.pure heap' (.removed (.S t') k' v' h1 h2 h3)
  | .S t, h =>
    rw [ANode.remove, ANode.erase, Node.remove]
    unfold ASNode.remove SNode.remove
    show Sim U s _ (.ok (if q t.key then _ else _)) _
    split
    · exact Sim.pure heap (.removedZ _ _ rfl)
    · exact Sim.pure heap (.notFound rfl)
  | .C a bits values extra, h =>
    rw [ANode.erase_C, ANode.remove, Node.remove]
    have hvs : ∀ x ∈ values, U x := fun x hx => (heap.kids _ h x hx).1
    refine Sim.bindLift fun f hf => ?_
    rw [ANode.removeAll_eq, Node.removeAll_eq', List.map_map, Bia.at'_map, Bia.at'_map]
    cases hat : (Bia.mk bits values extra).at' f.flag with
    | error err => exact Sim.pure heap (.notFound rfl)
    | ok m0 =>
      simp only
      have hm0 := Bia.at'_mem hat
      have hlt : sizeOf m0 < 1 + sizeOf a + sizeOf bits + sizeOf values + sizeOf extra := by
        have : sizeOf m0 < sizeOf values := List.sizeOf_lt_of_mem hm0
        omega
      refine Sim.bindLift fun nx hnx => ?_
      refine Sim.bind (ANode.remove_sim q m0 nx U s heap (hvs _ hm0)) ?_
      intro U' s' r r' hle hsub heap' P
      cases P with
      | notFound hs => exact Sim.pure heap' (.notFound hs)
      | removedZ k v hs =>
        simp only
        split
        · exact Sim.pure heap' (.removedZ _ _ hs)
        · refine Sim.bindLift fun z hz => ?_
          refine Sim.bia heap' (x := (Bia.mk bits values extra).removed f.flag z)
            (g := fun m => .ok (RemoveResult.removed m k v))
            (Bia.removed_map ANode.erase (Bia.mk bits values extra) f.flag z) ?_ ?_
          · intro a' ha z hz
            exact hsub _ (hvs _ (Bia.removed_ok ha z hz))
          · intro a' U2 m' ha hs2 hm heap2 hma hmk hme
            refine Sim.pure heap2 (.removed m' k v hm (.inr (by omega)) ?_)
            rw [hme, Node.ofBia, Node.pathObjs]; omega
      | removed m k v h1 h2 h3 =>
        have main : Sim U' s' (do
            let z ← Al.lift (usub extra 1)
            let a ← Al.lift ((Bia.mk bits values extra).updated f.flag m z)
            let a ← Al.lift (Res.unwrapE a)
            let m' ← ANode.ofBia a
            pure (.removed m' k v)) (do
            let z ← usub extra 1
            let a ← (Bia.mk bits (values.map ANode.erase) extra).updated f.flag m.erase z
            let a ← Res.unwrapE a
            .ok (.removed (Node.ofBia a) k v)) (RemP a s) := by
          refine Sim.bindLift fun z hz => ?_
          refine Sim.bia heap' (x := (Bia.mk bits values extra).updated f.flag m z)
            (g := fun m => .ok (RemoveResult.removed m k v))
            (Bia.updated_map ANode.erase (Bia.mk bits values extra) f.flag m z) ?_ ?_
          · intro a' ha z hz
            rcases (Bia.updated_ok ha).2 z hz with h | rfl
            · exact hsub _ (hvs _ h)
            · exact h1
          · intro a' U2 m' ha hs2 hm heap2 hma hmk hme
            have hin := (Bia.updated_ok ha).1
            refine Sim.pure heap2 (.removed m' k v hm (.inr (by omega)) ?_)
            rw [hme]
            have := Node.pathObjs_ofBia (a := a'.map ANode.erase) (m := m.erase)
              (List.mem_map_of_mem hin)
            omega
        cases m with
        | L l => exact main
        | S t => exact main
        | C a' b' v' x =>
          rw [ANode.erase_C] at main ⊢
          cases x with
          | zero => exact rfl
          | succ x => exact main
termination_by sizeOf m
decreasing_by
  simp only [ANode.C.sizeOf_spec]
  exact hlt

end HT
