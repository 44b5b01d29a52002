import Verif.StayNode
/-! # Where the objects of a map come from after an insertion or a removal -/
namespace HT

variable {K V : Type} {c : Cfg} {T : K → Prop} {U : ANode c.n K V → Prop}

/-- The new node is fine if nothing was replaced or `P`. -/
def AInsertResult.Fine {n : Nat} (T : K → Prop) (U : ANode n K V → Prop) (P : Prop) : AInsertResult n K V → Prop
  | .found _ _ => True
  | .inserted m _ prev => prev = none ∨ P → m.Fine T U

/-- The new node is fine. -/
def ARemoveResult.Fine {n : Nat} (T : K → Prop) (U : ANode n K V → Prop) : ARemoveResult n K V → Prop
  | .notFound => True
  | .removed m _ _ => m.Fine T U
  | .removedZ _ _ => True

@[inherit_doc ARemoveResult.Fine]
def ALNodeRemoveResult.Fine {n : Nat} (T : K → Prop) (U : ANode n K V → Prop) : ALNodeRemoveResult K V → Prop
  | .notFound => True
  | .removedL l _ _ => (ANode.L l : ANode n K V).Fine T U
  | .removedS s _ _ => (ANode.S s : ANode n K V).Fine T U

/-- Collision lists with a key sought have none of `T`. -/
def ANode.Parted {n : Nat} (q : K → Bool) (T : K → Prop) (m : ANode n K V) : Prop :=
  ∀ l : ALNode K V, (ANode.L l).Sub m → (ANode.L l : ANode n K V).Loose T ∨ ∀ e ∈ l.erase.visit, q e.1 = false

theorem ANode.Parted.sub {n : Nat} {q : K → Bool} {o m : ANode n K V} (h : m.Parted q T) (ho : o.Sub m) : o.Parted q T :=
  fun l hl => h l (hl.trans ho)

theorem ALNode.removeFrom_loose {q : K → Bool} {l : ALNode K V} (hl : (ANode.L l : ANode c.n K V).Loose T) :
    (l.removeFrom q).Gives (ALNodeRemoveResult.Fine T U) := by
  induction l with
  | nextS a k v s z =>
    unfold ALNode.removeFrom
    refine Al.Gives.ite (fun _ => Al.Gives.pure (hl.next.fine U)) fun _ => Al.Gives.ite (fun _ => ?_) fun _ => Al.Gives.pure trivial
    exact Al.Gives.bindS (T := T) (U := U) hl.key fun s _ hs => Al.Gives.pure hs
  | nextL a k v l z ih =>
    unfold ALNode.removeFrom
    refine Al.Gives.ite (fun _ => Al.Gives.pure (hl.next.fine U)) fun _ => ?_
    refine Al.Gives.bind (ih hl.next) fun r hr => ?_
    cases r with
    | notFound => exact Al.Gives.pure trivial
    | removedL l' k' v' => exact Al.Gives.bindL (T := T) (U := U) hl.key hr fun s hs => Al.Gives.pure hs
    | removedS s' k' v' => exact Al.Gives.bindL (T := T) (U := U) hl.key hr fun s hs => Al.Gives.pure hs

theorem ALNode.removeFrom_none {q : K → Bool} {l : ALNode K V} (h : ∀ e ∈ l.erase.visit, q e.1 = false) :
    (l.removeFrom q).Gives fun r => r = .notFound := by
  induction l with
  | nextS a k v s z =>
    have h1 : q k = false := h (k, v) (List.mem_cons_self ..)
    have h2 : q s.key = false := h (s.key, s.value) (List.mem_cons_of_mem _ (List.mem_singleton.2 rfl))
    unfold ALNode.removeFrom
    rw [h1, h2]
    exact Al.Gives.pure rfl
  | nextL a k v l z ih =>
    have h1 : q k = false := h (k, v) (List.mem_cons_self ..)
    unfold ALNode.removeFrom
    rw [h1]
    refine Al.Gives.bind (ih fun e he => h e (List.mem_cons_of_mem _ he)) fun r hr => ?_
    subst hr
    exact Al.Gives.pure rfl

variable {hash : K → BitVec c.w} {k : K} (hk : ¬T k)
include hk

theorem aliftL_gives {this : ALNext K V} (v : V) (f : Flag c) (h : this.Fine T U) (P : Prop) :
    (aliftL c hash this k v f).Gives (AInsertResult.Fine T U P) := by
  unfold aliftL
  refine Al.Gives.ite (fun _ => ?_) fun _ => ?_
  · exact Al.Gives.bindL (T := T) (U := U) hk h fun l hl => Al.Gives.pure fun _ => hl
  · refine Al.Gives.bindLift fun tf _ => Al.Gives.bindLift fun tf _ => ?_
    refine Al.Gives.bindS (T := T) (U := U) hk fun s _ hs => ?_
    exact Al.Gives.bind (aliftC_gives tf f h hs) fun m hm => Al.Gives.pure fun _ => hm

theorem ASNode.insert_gives (q : K → Bool) (v : V) (replace : Bool) {this : ASNode K V} (f : Option (Flag c))
    (h : (ANode.S this).Fine T U) (P : Prop) :
    (this.insert c hash q k v replace f).Gives (AInsertResult.Fine T U P) := by
  unfold ASNode.insert
  refine Al.Gives.ite (fun _ => Al.Gives.ite (fun _ => ?_) fun _ => Al.Gives.pure trivial) fun _ => ?_
  · exact Al.Gives.bindS (T := T) (U := U) hk fun s _ hs => Al.Gives.pure fun _ => hs
  · exact Al.Gives.bindLift fun f _ => aliftL_gives (this := .S this) hk v f h P

theorem ALNode.insert_gives {q : K → Bool} (v : V) (replace : Bool) {this : ALNode K V} (f : Option (Flag c))
    (h : (ANode.L this).Fine T U) {P : Prop} (hP : P → (ANode.L this : ANode c.n K V).Parted q T) :
    (this.insert c hash q k v replace f).Gives (AInsertResult.Fine T U P) := by
  unfold ALNode.insert
  split
  · refine Al.Gives.ite (fun _ => ?_) fun _ => Al.Gives.pure trivial
    by_cases p : P
    · have key : (this.removeFrom q).Gives (ALNodeRemoveResult.Fine T U) := by
        intro s r s' hr
        rcases hP p this (.refl _) with hl | hl
        · exact ALNode.removeFrom_loose (U := U) hl s r s' hr
        · rw [ALNode.removeFrom_none hl s r s' hr]; trivial
      refine Al.Gives.bind key fun r hr => ?_
      cases r with
      | notFound => exact Al.Gives.lift fun _ h => by cases h
      | removedL l' k' v' => exact Al.Gives.bindL (T := T) (U := U) hk hr fun s hs => Al.Gives.pure fun _ => hs
      | removedS s' k' v' => exact Al.Gives.bindL (T := T) (U := U) hk hr fun s hs => Al.Gives.pure fun _ => hs
    · have none : ∀ {α : Type} (x : Al α), x.Gives fun _ => True := fun _ _ _ _ _ => trivial
      refine Al.Gives.bind (none _) fun r _ => ?_
      cases r with
      | notFound => exact Al.Gives.lift fun _ h => by cases h
      | removedL l' k' v' => exact Al.Gives.bind (none _) fun l _ => Al.Gives.pure fun h => h.elim (fun h => by cases h) fun h => absurd h p
      | removedS s' k' v' => exact Al.Gives.bind (none _) fun l _ => Al.Gives.pure fun h => h.elim (fun h => by cases h) fun h => absurd h p
  · exact Al.Gives.bindLift fun f _ => aliftL_gives (this := .L this) hk v f h P

omit hk in
theorem Bia.unwrapped {Y : Type} {n : Nat} {x : Res (Except BitError (Bia n Y))} {a : Except BitError (Bia n Y)} {b : Bia n Y} (h : x = .ok a)
    (h' : Res.unwrapE a = .ok b) : x = .ok (.ok b) := by
  cases a with
  | error e => cases h'
  | ok a => cases h'; exact h

omit hk in
theorem ANode.insertStep_inr {n : Nat} {m m2 : ANode n K V} {size z ptr : Nat} {prev : Option (K × V)} {r : AInsertResult n K V}
    (h : m.insertStep size r = .ok (.inr (m2, z, ptr, prev))) : r = .inserted m2 ptr prev := by
  cases r with
  | found k v => cases h
  | inserted m3 p3 v3 =>
    unfold ANode.insertStep at h
    cases m <;> cases m3 <;> first
      | (obtain ⟨z', _, h⟩ := Res.bind_eq_ok.1 h; cases h; rfl)
      | (cases h; rfl)
      | cases h

theorem ANode.insert_gives {q : K → Bool} (v : V) (replace : Bool) {P : Prop} (this : ANode c.n K V) (f : Option (Flag c))
    (h : this.Fine T U) (hP : P → this.Parted q T) :
    (this.insert c hash q k v replace f).Gives (AInsertResult.Fine T U P) := by
  refine ANode.recDepth (motive := fun m _ => ∀ f : Option (Flag c), m.Fine T U → (P → m.Parted q T) →
    (m.insert c hash q k v replace f).Gives (AInsertResult.Fine T U P)) ?_ ?_ ?_ this 0 f h hP
  · intro s _ f h hP
    rw [ANode.insert]
    exact s.insert_gives hk q v replace f h P
  · intro l _ f h hP
    rw [ANode.insert]
    exact l.insert_gives hk v replace f h hP
  · intro a bits vs extra _ ih f h hP
    have hs := fun m (hm : m ∈ vs) => ANode.child_sub (a := a) (bits := bits) (z := extra) hm
    rw [ANode.insert]
    refine Al.Gives.bindLift fun f _ => ?_
    rw [ANode.insertAll_eq, Bia.at'_map]
    cases hat : (Bia.mk bits vs extra).at' f.flag with
    | error err =>
      refine Al.Gives.bindS (T := T) (U := U) hk fun s _ hS => ?_
      refine Al.Gives.bindLift fun a ha => Al.Gives.bindLift fun b hb => ?_
      have hb := Bia.inserted_ok (Bia.unwrapped ha hb)
      refine Al.Gives.bindC (T := T) (U := U) (fun m hm => ?_) fun m hm => Al.Gives.pure fun _ => hm
      rcases hb.2 m hm with hm | rfl
      · exact h.sub (hs m hm)
      · exact hS
    | ok m0 =>
      have hm0 := Bia.at'_mem hat
      refine Al.Gives.bindLift fun nx _ => ?_
      refine Al.Gives.bind (P := fun r => ∀ m size ptr prev, r = .inr (m, size, ptr, prev) → prev = none ∨ P → m.Fine T U) ?_
        fun r hr => ?_
      · refine Al.Gives.bind (ih m0 hm0 nx (h.sub (hs m0 hm0)) fun p => (hP p).sub (hs m0 hm0)) fun r hr => ?_
        refine Al.Gives.lift fun b hb m size ptr prev he hp => ?_
        subst he
        rw [ANode.insertStep_inr hb] at hr
        exact hr hp
      · cases r with
        | inl e => exact Al.Gives.pure trivial
        | inr e =>
          obtain ⟨m, size, ptr, prev⟩ := e
          refine Al.Gives.bindLift fun a ha => Al.Gives.bindLift fun b hb => ?_
          have hb := Bia.updated_ok (Bia.unwrapped ha hb)
          by_cases hp : prev = none ∨ P
          · refine Al.Gives.bindC (T := T) (U := U) (fun m' hm' => ?_) fun m hm => Al.Gives.pure fun _ => hm
            rcases hb.2 m' hm' with hm' | rfl
            · exact h.sub (hs m' hm')
            · exact hr _ _ _ _ rfl hp
          · exact Al.Gives.bind (P := fun _ => True) (fun _ _ _ _ => trivial) fun m _ => Al.Gives.pure fun h => absurd h hp

omit hk

theorem ALNode.remove_gives {q : K → Bool} {this : ALNode K V} (hP : (ANode.L this : ANode c.n K V).Parted q T) :
    (this.remove q : Al (ARemoveResult c.n K V)).Gives (ARemoveResult.Fine T U) := by
  have key : (this.removeFrom q).Gives (ALNodeRemoveResult.Fine T U) := by
    intro s r s' hr
    rcases hP this (.refl _) with hl | hl
    · exact ALNode.removeFrom_loose (U := U) hl s r s' hr
    · rw [ALNode.removeFrom_none hl s r s' hr]; trivial
  refine Al.Gives.bind key fun r hr => ?_
  cases r with
  | notFound => exact Al.Gives.pure trivial
  | removedL l' k' v' => exact Al.Gives.pure hr
  | removedS s' k' v' => exact Al.Gives.pure hr

theorem ANode.remove_gives {q : K → Bool} (this : ANode c.n K V) (f : Option (Flag c))
    (h : this.Fine T U) (hP : this.Parted q T) :
    (this.remove c q f).Gives (ARemoveResult.Fine T U) := by
  refine ANode.recDepth (motive := fun m _ => ∀ f : Option (Flag c), m.Fine T U → m.Parted q T →
    (m.remove c q f).Gives (ARemoveResult.Fine T U)) ?_ ?_ ?_ this 0 f h hP
  · intro s _ f h hP
    rw [ANode.remove]
    refine Al.Gives.pure ?_
    unfold ASNode.remove
    split <;> trivial
  · intro l _ f h hP
    rw [ANode.remove]
    exact l.remove_gives hP
  · intro a bits vs extra _ ih f h hP
    have hs := fun m (hm : m ∈ vs) => ANode.child_sub (a := a) (bits := bits) (z := extra) hm
    rw [ANode.remove]
    refine Al.Gives.bindLift fun f _ => ?_
    rw [ANode.removeAll_eq, Bia.at'_map]
    cases hat : (Bia.mk bits vs extra).at' f.flag with
    | error err => exact Al.Gives.pure trivial
    | ok m0 =>
      have hm0 := Bia.at'_mem hat
      refine Al.Gives.bindLift fun nx _ => ?_
      refine Al.Gives.bind (ih m0 hm0 nx (h.sub (hs m0 hm0)) (hP.sub (hs m0 hm0))) fun r hr => ?_
      cases r with
      | notFound => exact Al.Gives.pure trivial
      | removed m k v =>
        have upd : (do
            let z ← Al.lift (usub extra 1)
            let a ← Al.lift ((Bia.mk bits vs extra).updated f.flag m z)
            let a ← Al.lift (Res.unwrapE a)
            let m' ← ANode.ofBia a
            pure (.removed m' k v) : Al (ARemoveResult c.n K V)).Gives (ARemoveResult.Fine T U) := by
          refine Al.Gives.bindLift fun z _ => Al.Gives.bindLift fun a ha => Al.Gives.bindLift fun b hb => ?_
          have hb := Bia.updated_ok (Bia.unwrapped ha hb)
          refine Al.Gives.bindC (T := T) (U := U) (fun m' hm' => ?_) fun m hm => Al.Gives.pure hm
          rcases hb.2 m' hm' with hm' | rfl
          · exact h.sub (hs m' hm')
          · exact hr
        dsimp only
        split
        · exact Al.Gives.lift fun _ h => by cases h
        · exact upd
      | removedZ k v =>
        refine Al.Gives.ite (fun _ => Al.Gives.pure trivial) fun _ => ?_
        refine Al.Gives.bindLift fun z _ => Al.Gives.bindLift fun a ha => Al.Gives.bindLift fun b hb => ?_
        have hb := Bia.removed_ok (Bia.unwrapped ha hb)
        exact Al.Gives.bindC (T := T) (U := U) (fun m' hm' => h.sub (hs m' (hb m' hm'))) fun m hm => Al.Gives.pure hm

end HT
