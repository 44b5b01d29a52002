import Verif.StayLoop
/-! # Where the objects of the results of bulk and joint operations come from -/
namespace HT

variable {K V L W S X R : Type} {n : Nat} {Q : Type} {A : Q → Type} {G : (q : Q) → A q → Prop}

/-- Every branch has as many children as bits. -/
def ANode.Whole (m : ANode n K V) : Prop :=
  ∀ (a : Nat) (bits : BitVec n) (vs : List (ANode n K V)) (z : Nat), (ANode.C a bits vs z).Sub m → (Bia.mk bits vs z).Ok

theorem ANode.Whole.sub {o m : ANode n K V} (h : m.Whole) (ho : o.Sub m) : o.Whole :=
  fun a bits vs z hs => h a bits vs z (hs.trans ho)

theorem ANode.child_sub {a : Nat} {bits : BitVec n} {vs : List (ANode n K V)} {z : Nat} {m : ANode n K V} (hm : m ∈ vs) :
    m.Sub (.C a bits vs z) := .kid (.refl _) hm

/-! ### Items -/

section
variable {F : ANode n K V → Prop}

theorem TRes.aitem_fine {res : TRes (ANode n K V) R} {m : ANode n K V} (h : res.Fine F (F m)) :
    (res.aitem m).Fine F (F m) (F m) := by
  cases res with
  | unchanged r => exact ⟨h, fun _ => h, fun _ => h⟩
  | node m r => exact ⟨h, fun h => (by cases h), fun h => (by cases h)⟩
  | removed r => exact ⟨fun h => (by cases h), fun h => (by cases h)⟩

theorem XRes.aitem_fine {res : XRes (ANode n K V) R} (h : res.Fine F) (left right : Prop) : res.aitem.Fine F left right := by
  cases res with
  | node m r => exact ⟨h, fun h => (by cases h), fun h => (by cases h)⟩
  | removed r => exact ⟨fun h => (by cases h), fun h => (by cases h)⟩

theorem TRes.aitemOpt_fine {res : TRes (ANode n K V) R} {p : Prop} (h : res.Fine F p) (keep : Bool) {o : Option (ANode n K V)}
    (ho : ∀ m ∈ o, p → F m) : ∀ it, res.aitemOpt keep o = .ok it → it.Fine F True True := by
  intro it hit
  cases res with
  | unchanged r =>
    cases o with
    | none => cases hit
    | some m => cases hit; exact ⟨ho m rfl h, fun _ => trivial, fun _ => trivial⟩
  | node m r => cases hit; exact ⟨h, fun _ => trivial, fun _ => trivial⟩
  | removed r => cases hit; exact ⟨fun _ => trivial, fun _ => trivial⟩

theorem JRes.aitemOpt_fine {res : JRes (ANode n K V) R} {left right : Prop} (h : res.Fine F left right) {o q : Option (ANode n K V)}
    (ho : ∀ m ∈ o, left → F m) (hq : ∀ m ∈ q, right → F m) :
    ∀ it, res.aitemOpt o q = .ok it → it.Fine F left right := by
  intro it hit
  cases res with
  | unchangedLR r =>
    cases o with
    | none => cases hit
    | some m => cases hit; exact ⟨ho m rfl h.1, fun _ => h.1, fun _ => h.2⟩
  | unchangedL r =>
    cases o with
    | none => cases hit
    | some m => cases hit; exact ⟨ho m rfl h, fun _ => h, fun h => (by cases h)⟩
  | unchangedR r =>
    cases q with
    | none => cases hit
    | some m => cases hit; exact ⟨hq m rfl h, fun h => (by cases h), fun _ => h⟩
  | node m r => cases hit; exact ⟨h, fun h => (by cases h), fun h => (by cases h)⟩
  | removed r => cases hit; exact ⟨fun h => (by cases h), fun h => (by cases h)⟩

end

/-! ### transform and transmute -/

/-- The collision lists with keys in `T` stay as they are. -/
def ANode.Lists (G : (q : Q) → A q → Prop) (T : K → Prop) (U : ANode n K V → Prop)
    (op : MapTransform R (K → V → Prog Q A (MapTransformResult V R))) (m : ANode n K V) : Prop :=
  ∀ l : ALNode K V, (ANode.L l).Sub m → (ANode.L l : ANode n K V).Loose T ∨
    ((ANode.L l).Fine T U ∧ ∀ e ∈ l.erase.visit, (op.callM e.1 e.2).Gives G MapTransformResult.IsUnchanged)

/-- The collision lists have no keys in `T`. -/
def ANode.Thin (T : K → Prop) (m : ANode n K V) : Prop :=
  ∀ l : ALNode K V, (ANode.L l).Sub m → (ANode.L l : ANode n K V).Loose T

theorem ANode.Thin.lists {T : K → Prop} {m : ANode n K V} (h : m.Thin T) (U : ANode n K V → Prop)
    (op : MapTransform R (K → V → Prog Q A (MapTransformResult V R))) : m.Lists G T U op := fun l hl => .inl (h l hl)

theorem ANode.Thin.sub {T : K → Prop} {o m : ANode n K V} (h : m.Thin T) (ho : o.Sub m) : o.Thin T :=
  fun l hl => h l (hl.trans ho)

theorem ANode.transformE_gives (reduce : R → R → R) (e : R)
    {op : MapTransform R (K → V → Prog Q A (MapTransformResult V R))} {T : K → Prop} {U : ANode n K V → Prop} {keep : Prop}
    (ho : op.Good G T keep) (par : Par) (m : ANode n K V) (hm : keep → m.Fine T U) (hw : m.Whole) (hl : m.Lists G T U op) :
    (m.transformE reduce e op par).Gives G (TRes.Fine (ANode.Fine T U) (m.Fine T U)) := by
  unfold ANode.transformE
  suffices H : ∀ (m : ANode n K V) (d : Nat), (keep → m.Fine T U) → m.Whole → m.Lists G T U op →
      (ANode.fold _ _ (transformEC reduce e op par) m d).Gives G (TRes.Fine (ANode.Fine T U) (m.Fine T U)) from H m 0 hm hw hl
  clear hm hw hl m
  intro m d
  refine ANode.recDepth (motive := fun m d => (keep → m.Fine T U) → m.Whole → m.Lists G T U op →
      (ANode.fold _ _ (transformEC reduce e op par) m d).Gives G (TRes.Fine (ANode.Fine T U) (m.Fine T U))) ?_ ?_ ?_ m d
  · intro t d hm hw hl
    rw [ANode.fold]
    exact Prog.Gives.map (t.transformE_gives (fun ht => ho _ _ ht) hm) fun _ h => h.map (fun _ h => h) fun h => h
  · intro l d hm hw hl
    rw [ANode.fold]
    rcases hl l (.refl _) with hl | ⟨hf, hl⟩
    · exact Prog.Gives.map (l.transformE_loose (U := U) reduce op hl) fun _ h => h.map (fun _ h => h) fun h => h
    · refine Prog.Gives.map (ALNode.transformE_kept reduce hl) fun r h => ?_
      obtain ⟨r', rfl⟩ := h
      exact hf
  · intro a bits vs extra d ih hm hw hl
    rw [ANode.fold, ANode.foldAll_eq]
    cases op with
    | unchanged r =>
      refine Prog.Gives.pure ?_
      exact fun o hs en he ht => hm (ho en.1 en.2 ht 0) o hs en he ht
    | removed r => exact Prog.Gives.pure trivial
    | generic F =>
      refine Prog.Gives.bind (AAcc.gatherE_gives (F := ANode.Fine T U)
        (PL := fun i => ∀ m, (Bia.mk bits vs extra).atBitIndex i = .ok (.ok m) → m.Fine T U) (PR := fun _ => True)
        reduce e par fun i => ?_) fun acc q => ?_
      · rw [Bia.atBitIndex_mapped]
        cases hat : (Bia.mk bits vs extra).atBitIndex i with
        | panic p => exact fun s => trivial
        | diverge => exact fun s => trivial
        | ok child =>
          cases child with
          | error err => exact Prog.Gives.pure ⟨(fun m hm => by cases hm), trivial⟩
          | ok m0 =>
            have hm0 := Bia.atBitIndex_mem hat
            have hs := ANode.child_sub (a := a) (bits := bits) (z := extra) hm0
            show Prog.Gives G (ANode.fold _ _ _ m0 (d + 1) >>= fun res => Pure.pure (TRes.aitem m0 res)) _
            refine Prog.Gives.bind (ih m0 hm0 (fun hk => (hm hk).sub hs) (hw.sub hs) fun l h => hl l (h.trans hs)) fun r hr =>
              Prog.Gives.pure ((TRes.aitem_fine hr).imp (fun h m hm => by cases hm; exact h) fun _ => trivial)
      · refine Prog.Gives.al (TRes.afinish_gives q fun h => ANode.Fine.ofC fun m0 hm0 => ?_)
        obtain ⟨i, hi, hat⟩ := Bia.exists_atBitIndex (hw a bits vs extra (.refl _)) hm0
        exact h i hi m0 hat

theorem ANode.transmuteE_gives (reduce : R → R → R) (e : R)
    {op : MapTransmute R (K → V → Prog Q A (MapTransmuteResult S X R))} {T : S → Prop} {U : ANode n S X → Prop}
    (ho : op.Good G T) (m : ANode n K V) :
    (m.transmuteE reduce e op).Gives G (XRes.Fine (ANode.Fine T U)) := by
  unfold ANode.transmuteE
  suffices H : ∀ (m : ANode n K V) (d : Nat),
      (ANode.fold _ _ (transmuteEC reduce e op) m d).Gives G (XRes.Fine (ANode.Fine T U)) from H m 0
  clear m
  intro m d
  refine ANode.recDepth (motive := fun m d =>
      (ANode.fold _ _ (transmuteEC reduce e op) m d).Gives G (XRes.Fine (ANode.Fine T U))) ?_ ?_ ?_ m d
  · intro t d
    rw [ANode.fold]
    exact Prog.Gives.map (t.transmuteE_gives (U := U) ho) fun _ h => h.map fun _ h => h
  · intro l d
    rw [ANode.fold]
    exact Prog.Gives.map (l.transmuteE_gives (U := U) reduce ho) fun _ h => h.map fun _ h => h
  · intro a bits vs extra d ih
    rw [ANode.fold, ANode.foldAll_eq]
    cases op with
    | removed r => exact Prog.Gives.pure trivial
    | generic F =>
      refine Prog.Gives.bind (AAcc.gatherE_gives (F := ANode.Fine T U) (PL := fun _ => True) (PR := fun _ => True)
        reduce e .sequential fun i => ?_) fun acc q => Prog.Gives.al (XRes.afinishAssert_gives q)
      rw [Bia.atBitIndex_mapped]
      cases hat : (Bia.mk bits vs extra).atBitIndex i with
      | panic p => exact fun s => trivial
      | diverge => exact fun s => trivial
      | ok child =>
        cases child with
        | error err => exact Prog.Gives.pure ⟨trivial, trivial⟩
        | ok m0 =>
          show Prog.Gives G (ANode.fold _ _ _ m0 (d + 1) >>= fun res => Pure.pure (XRes.aitem res)) _
          exact Prog.Gives.bind (ih m0 (Bia.atBitIndex_mem hat)) fun r hr => Prog.Gives.pure (XRes.aitem_fine hr _ _)

variable {c : Cfg} (x : Cross c K L) (reduce : R → R → R) (e : R)

/-- Keys in `T` do not meet other keys of their hash. -/
structure Meets (x : Cross c K L) (T : K → Prop) (this : ANode c.n K V) (that : ANode c.n L W) : Prop where
  whole : this.Whole
  thin : this.Thin T
  apart : ∀ r : ALNode L W, (ANode.L r).Sub that → ∀ k, T k → x.hash k ≠ x.hash' r.key
  hit : ∀ (s : ASNode K V) (r : ASNode L W), (ANode.S s).Sub this → (ANode.S r).Sub that → T s.key →
    x.hash s.key = x.hash' r.key → x.eq s.key r.key = true ∧ x.eq' r.key s.key = true

theorem Meets.sub {x : Cross c K L} {T : K → Prop} {this this' : ANode c.n K V} {that that' : ANode c.n L W}
    (h : Meets x T this that) (hl : this'.Sub this) (hr : that'.Sub that) : Meets x T this' that' :=
  ⟨h.whole.sub hl, h.thin.sub hl, fun r hs => h.apart r (hs.trans hr), fun s r h1 h2 => h.hit s r (h1.trans hl) (h2.trans hr)⟩

/-! ### transform_with_transmuted, right operand a list or single node -/

section
variable {T : K → Prop} {U : ANode c.n K V → Prop} {ops : TwmOpsM Q A K V L W R} (ho : ops.Good G T True) (par : Par)
include ho

theorem ANode.twmS_gives (this : ANode c.n K V) (right : ASNode L W) (depth : Nat) (hU : this.Fine T U)
    (hM : Meets x T this (.S right)) :
    (this.twmS x reduce e ops par right depth).Gives G (TRes.Fine (ANode.Fine T U) (this.Fine T U)) := by
  refine ANode.recDepth (motive := fun m d => m.Fine T U → Meets x T m (.S right) →
      (m.twmS x reduce e ops par right d).Gives G (TRes.Fine (ANode.Fine T U) (m.Fine T U))) ?_ ?_ ?_ this depth hU hM
  · intro t d hU hM
    exact t.twm_gives x reduce ho (fun _ => hU) right d fun ht he => (hM.hit _ _ (.refl _) (.refl _) ht he).1
  · intro l d hU hM
    exact l.twmS_gives x reduce ho (hM.thin l (.refl _)) right d
  · intro a bits vs extra d ih hU hM
    have hs := fun m (hm : m ∈ vs) => ANode.child_sub (a := a) (bits := bits) (z := extra) hm
    unfold ANode.twmS
    rw [ANode.fold, ANode.foldAll_eq]
    refine Prog.Gives.bind (aflatLoop_gives (F := ANode.Fine T U) reduce e d bits extra vs (fun _ => True) True ?_ ?_ ?_)
      fun acc q => Prog.Gives.al (TRes.afinish_gives q.choose_spec.2 fun _ => hU)
    · exact fun m hm => (ih m hm (hU.sub (hs m hm)) (hM.sub (hs m hm) (.refl _))).mono fun r hr =>
        TRes.aitemOpt_fine hr true fun m' hm' => by cases hm'; exact fun h => h
    · exact fun m hm => (m.transformE_gives reduce e ho.left par (fun _ => hU.sub (hs m hm)) (hM.whole.sub (hs m hm))
        ((hM.thin.sub (hs m hm)).lists U _)).mono fun r hr =>
          TRes.aitemOpt_fine hr true fun m' hm' => by cases hm'; exact fun h => h
    · exact Prog.Gives.map (right.transmuteE_gives (U := U) ho.right) fun _ hp =>
        TRes.aitemOpt_fine ((hp.map (F' := ANode.Fine T U) fun _ hm => hm).toT True) true fun m hm => by cases hm

theorem ANode.twmL_gives (this : ANode c.n K V) (right : ALNode L W) (depth : Nat) (hU : this.Fine T U)
    (hM : Meets x T this (.L right)) :
    (this.twmL x reduce e ops par right depth).Gives G (TRes.Fine (ANode.Fine T U) (this.Fine T U)) := by
  refine ANode.recDepth (motive := fun m d => m.Fine T U → Meets x T m (.L right) →
      (m.twmL x reduce e ops par right d).Gives G (TRes.Fine (ANode.Fine T U) (m.Fine T U))) ?_ ?_ ?_ this depth hU hM
  · intro t d hU hM
    exact right.mwtS_gives x.flip reduce ho.flip (fun _ => hU) d fun he ht => hM.apart right (.refl _) _ ht he.symm
  · intro l d hU hM
    exact l.twmL_gives x reduce ho (hM.thin l (.refl _)) right d
  · intro a bits vs extra d ih hU hM
    have hs := fun m (hm : m ∈ vs) => ANode.child_sub (a := a) (bits := bits) (z := extra) hm
    unfold ANode.twmL
    rw [ANode.fold, ANode.foldAll_eq]
    refine Prog.Gives.bind (aflatLoop_gives (F := ANode.Fine T U) reduce e d bits extra vs (fun _ => True) True ?_ ?_ ?_)
      fun acc q => Prog.Gives.al (TRes.afinish_gives q.choose_spec.2 fun _ => hU)
    · exact fun m hm => (ih m hm (hU.sub (hs m hm)) (hM.sub (hs m hm) (.refl _))).mono fun r hr =>
        TRes.aitemOpt_fine hr false fun m' hm' => by cases hm'; exact fun h => h
    · exact fun m hm => (m.transformE_gives reduce e ho.left par (fun _ => hU.sub (hs m hm)) (hM.whole.sub (hs m hm))
        ((hM.thin.sub (hs m hm)).lists U _)).mono fun r hr =>
          TRes.aitemOpt_fine hr false fun m' hm' => by cases hm'; exact fun h => h
    · exact Prog.Gives.map (right.transmuteE_gives (U := U) reduce ho.right) fun _ hp =>
        TRes.aitemOpt_fine ((hp.map (F' := ANode.Fine T U) fun _ hm => hm).toT True) false fun m hm => by cases hm

end

/-! ### transmute_with_transformed, right operand a list or single node -/

section
variable {T : L → Prop} {U : ANode c.n L W → Prop} {ops : MwtOpsM Q A K V L W R} (ho : ops.Good G T True)
include ho

theorem ANode.mwtS_gives (this : ANode c.n K V) (right : ASNode L W) (depth : Nat) (hU : (ANode.S right).Fine T U)
    (hM : Meets x.flip T (.S right) this) :
    (this.mwtS x reduce e ops right depth).Gives G (TRes.Fine (ANode.Fine T U) ((ANode.S right).Fine T U)) := by
  refine ANode.recDepth (motive := fun m d => Meets x.flip T (.S right) m →
      (m.mwtS x reduce e ops right d).Gives G (TRes.Fine (ANode.Fine T U) ((ANode.S right).Fine T U))) ?_ ?_ ?_ this depth hM
  · intro t d hM
    exact t.mwt_gives x reduce ho (fun _ => hU) d fun ht he => (hM.hit _ _ (.refl _) (.refl _) ht he.symm).2
  · intro l d hM
    exact l.mwtS_gives x reduce ho (fun _ => hU) d fun he ht => hM.apart l (.refl _) _ ht he.symm
  · intro a bits vs extra d ih hM
    have hs := fun m (hm : m ∈ vs) => ANode.child_sub (a := a) (bits := bits) (z := extra) hm
    unfold ANode.mwtS
    rw [ANode.fold, ANode.foldAll_eq]
    refine Prog.Gives.bind (aflatLoop_gives (F := ANode.Fine T U) reduce e d bits extra vs (fun _ => True) True ?_ ?_ ?_)
      fun acc q => Prog.Gives.al (TRes.afinish_gives q.choose_spec.2 fun _ => hU)
    · exact fun m hm => (ih m hm (hM.sub (.refl _) (hs m hm))).mono fun r hr =>
        TRes.aitemOpt_fine hr true fun m' hm' => by cases hm'; exact fun h => h
    · exact fun m hm => Prog.Gives.map (m.transmuteE_gives (U := U) reduce e ho.left) fun r hr =>
        TRes.aitemOpt_fine (hr.toT True) true fun m' hm' => by cases hm'; exact fun _ => hU
    · exact Prog.Gives.map (right.transformE_gives (U := U) (fun ht => ho.right _ _ ht) fun _ => hU) fun _ hp =>
        TRes.aitemOpt_fine (hp.map (F' := ANode.Fine T U) (fun _ hm => hm) fun h => h) true
          fun m hm => by cases hm; exact fun h => h

theorem ANode.mwtL_gives (this : ANode c.n K V) (right : ALNode L W) (depth : Nat)
    (hM : Meets x.flip T (.L right) this) :
    (this.mwtL x reduce e ops right depth).Gives G (TRes.Fine (ANode.Fine T U) ((ANode.L right).Fine T U)) := by
  have hl := hM.thin right (.refl _)
  refine ANode.recDepth (motive := fun m d =>
      (m.mwtL x reduce e ops right d).Gives G (TRes.Fine (ANode.Fine T U) ((ANode.L right).Fine T U))) ?_ ?_ ?_ this depth
  · intro t d
    exact right.twmS_gives x.flip reduce ho.flip hl t d
  · intro l d
    exact right.twmL_gives x.flip reduce ho.flip hl l d
  · intro a bits vs extra d ih
    unfold ANode.mwtL
    rw [ANode.fold, ANode.foldAll_eq]
    refine Prog.Gives.bind (aflatLoop_gives (F := ANode.Fine T U) reduce e d bits extra vs (fun _ => True) True ?_ ?_ ?_)
      fun acc q => Prog.Gives.al (TRes.afinish_gives q.choose_spec.2 fun _ => hl.fine U)
    · exact fun m hm => (ih m hm).mono fun r hr =>
        TRes.aitemOpt_fine hr false fun m' hm' => by cases hm'; exact fun h => h
    · exact fun m hm => Prog.Gives.map (m.transmuteE_gives (U := U) reduce e ho.left) fun r hr =>
        TRes.aitemOpt_fine (hr.toT True) false fun m' hm' => by cases hm'; exact fun _ => hl.fine U
    · exact Prog.Gives.map (right.transformE_loose (U := U) reduce _ hl) fun _ hp =>
        TRes.aitemOpt_fine (hp.map (F' := ANode.Fine T U) (fun _ hm => hm) fun h => h) false
          fun m hm => by cases hm; exact fun h => h

end

/-! ### transform_with_transmuted -/

section
variable {T : K → Prop} {U : ANode c.n K V → Prop} {ops : TwmOpsM Q A K V L W R} (ho : ops.Good G T True) (par : Par)
include ho

theorem ANode.twm_gives (this : ANode c.n K V) (right : ANode c.n L W) (depth : Nat) (hU : this.Fine T U)
    (hM : Meets x T this right) :
    (this.twm x reduce e ops par right depth).Gives G (TRes.Fine (ANode.Fine T U) (this.Fine T U)) := by
  refine ANode.recDepth (motive := fun m d => ∀ right : ANode c.n L W, m.Fine T U → Meets x T m right →
      (m.twm x reduce e ops par right d).Gives G (TRes.Fine (ANode.Fine T U) (m.Fine T U))) ?_ ?_ ?_ this depth right hU hM
  · intro t d right hU hM
    cases right with
    | S r => exact t.twm_gives x reduce ho (fun _ => hU) r d fun ht he => (hM.hit _ _ (.refl _) (.refl _) ht he).1
    | L r =>
      exact r.mwtS_gives x.flip reduce ho.flip (fun _ => hU) d fun he ht => hM.apart r (.refl _) _ ht he.symm
    | C a b v z => exact (ANode.C a b v z).mwtS_gives x.flip reduce e ho.flip t d hU hM
  · intro l d right hU hM
    cases right with
    | S r => exact l.twmS_gives x reduce ho (hM.thin l (.refl _)) r d
    | L r => exact l.twmL_gives x reduce ho (hM.thin l (.refl _)) r d
    | C a b v z => exact (ANode.C a b v z).mwtL_gives x.flip reduce e ho.flip l d hM
  · intro a bits vs extra d ih right hU hM
    have hs := fun m (hm : m ∈ vs) => ANode.child_sub (a := a) (bits := bits) (z := extra) hm
    unfold ANode.twm
    rw [ANode.fold, ANode.foldAll_eq]
    cases right with
    | S r =>
      show Prog.Gives G ((ANode.C a bits _ extra).twmS x reduce e ops par r d) _
      simp only [List.map_map, Function.comp_def, List.map_id']
      exact ANode.twmS_gives x reduce e ho par _ r d hU hM
    | L r =>
      show Prog.Gives G ((ANode.C a bits _ extra).twmL x reduce e ops par r d) _
      simp only [List.map_map, Function.comp_def, List.map_id']
      exact ANode.twmL_gives x reduce e ho par _ r d hU hM
    | C a2 b2 rs z2 =>
      have hs2 := fun m (hm : m ∈ rs) => ANode.child_sub (a := a2) (bits := b2) (z := z2) hm
      refine Prog.Gives.bind (abothLoop_gives (F := ANode.Fine T U) reduce e .sequential bits extra vs b2 z2 rs
        (fun _ => True) (fun _ => True) ?_ ?_ ?_) fun acc q => Prog.Gives.al (TRes.afinish_gives q fun _ => hU)
      · exact fun m hm r hr => (ih m hm r (hU.sub (hs m hm)) (hM.sub (hs m hm) (hs2 r hr))).mono fun a ha =>
          TRes.aitemOpt_fine ha true fun m' hm' => by cases hm'; exact fun h => h
      · exact fun m hm => (m.transformE_gives reduce e ho.left par (fun _ => hU.sub (hs m hm)) (hM.whole.sub (hs m hm))
          ((hM.thin.sub (hs m hm)).lists U _)).mono fun r hr =>
            TRes.aitemOpt_fine hr true fun m' hm' => by cases hm'; exact fun h => h
      · exact fun r hr => Prog.Gives.map (r.transmuteE_gives (U := U) reduce e ho.right) fun _ hp =>
          TRes.aitemOpt_fine (hp.toT True) true fun m hm => by cases hm

end

/-! ### transmute_with_transformed -/

section
variable {T : L → Prop} {U : ANode c.n L W → Prop} {ops : MwtOpsM Q A K V L W R} (ho : ops.Good G T True) (par : Par)
include ho

theorem ANode.mwt_gives (this : ANode c.n K V) (right : ANode c.n L W) (depth : Nat) (hU : right.Fine T U)
    (hM : Meets x.flip T right this) :
    (this.mwt x reduce e ops par right depth).Gives G (TRes.Fine (ANode.Fine T U) (right.Fine T U)) := by
  refine ANode.recDepth (motive := fun m d => ∀ right : ANode c.n L W, right.Fine T U → Meets x.flip T right m →
      (m.mwt x reduce e ops par right d).Gives G (TRes.Fine (ANode.Fine T U) (right.Fine T U))) ?_ ?_ ?_ this depth right hU hM
  · intro t d right hU hM
    cases right with
    | S r => exact t.mwt_gives x reduce ho (fun _ => hU) d fun ht he => (hM.hit _ _ (.refl _) (.refl _) ht he.symm).2
    | L r => exact r.twmS_gives x.flip reduce ho.flip (hM.thin r (.refl _)) t d
    | C a b v z => exact (ANode.C a b v z).twmS_gives x.flip reduce e ho.flip par t d hU hM
  · intro l d right hU hM
    cases right with
    | S r => exact l.mwtS_gives x reduce ho (fun _ => hU) d fun he ht => hM.apart l (.refl _) _ ht he.symm
    | L r => exact r.twmL_gives x.flip reduce ho.flip (hM.thin r (.refl _)) l d
    | C a b v z => exact (ANode.C a b v z).twmL_gives x.flip reduce e ho.flip par l d hU hM
  · intro a bits vs extra d ih right hU hM
    have hs := fun m (hm : m ∈ vs) => ANode.child_sub (a := a) (bits := bits) (z := extra) hm
    unfold ANode.mwt
    rw [ANode.fold, ANode.foldAll_eq]
    cases right with
    | S r =>
      show Prog.Gives G ((ANode.C a bits _ extra).mwtS x reduce e ops r d) _
      simp only [List.map_map, Function.comp_def, List.map_id']
      exact ANode.mwtS_gives x reduce e ho _ r d hU hM
    | L r =>
      show Prog.Gives G ((ANode.C a bits _ extra).mwtL x reduce e ops r d) _
      simp only [List.map_map, Function.comp_def, List.map_id']
      exact ANode.mwtL_gives x reduce e ho _ r d hM
    | C a2 b2 rs z2 =>
      have hs2 := fun m (hm : m ∈ rs) => ANode.child_sub (a := a2) (bits := b2) (z := z2) hm
      refine Prog.Gives.bind (abothLoop_gives (F := ANode.Fine T U) reduce e .sequential bits extra vs b2 z2 rs
        (fun _ => True) (fun _ => True) ?_ ?_ ?_) fun acc q => Prog.Gives.al (TRes.afinish_gives q fun _ => hU)
      · exact fun m hm r hr => (ih m hm r (hU.sub (hs2 r hr)) (hM.sub (hs2 r hr) (hs m hm))).mono fun a ha =>
          TRes.aitemOpt_fine ha true fun m' hm' => by cases hm'; exact fun h => h
      · exact fun m hm => Prog.Gives.map (m.transmuteE_gives (U := U) reduce e ho.left) fun _ hp =>
          TRes.aitemOpt_fine (hp.toT True) true fun m hm => by cases hm
      · exact fun r hr => (r.transformE_gives reduce e ho.right par (fun _ => hU.sub (hs2 r hr)) (hM.whole.sub (hs2 r hr))
          ((hM.thin.sub (hs2 r hr)).lists U _)).mono fun a ha =>
            TRes.aitemOpt_fine ha true fun m' hm' => by cases hm'; exact fun h => h

end

/-! ### transform_with_transformed -/

section
variable {T : K → Prop} {left right : Prop} {U : ANode c.n K V → Prop} [BEq K] {hash : K → BitVec c.w}
variable {ops : TwtOpsM Q A K V R} (par : Par)

/-- As `Meets`, for keys in `T` of either operand. -/
structure Meets2 (hash : K → BitVec c.w) (T : K → Prop) (this that : ANode c.n K V) : Prop where
  whole : this.Whole
  whole' : that.Whole
  thin : this.Thin T
  thin' : that.Thin T
  hit : ∀ s r : ASNode K V, (ANode.S s).Sub this → (ANode.S r).Sub that → T s.key → hash s.key = hash r.key →
    (s.key == r.key) = true ∧ (r.key == s.key) = true
  same : ∀ k l, hash k = hash l → (T k ↔ T l)
  law : ∀ k l : K, (k == l) = true → hash k = hash l

theorem Meets2.sub {this this' that that' : ANode c.n K V}
    (h : Meets2 hash T this that) (hl : this'.Sub this) (hr : that'.Sub that) : Meets2 hash T this' that' :=
  ⟨h.whole.sub hl, h.whole'.sub hr, h.thin.sub hl, h.thin'.sub hr, fun s r h1 h2 => h.hit s r (h1.trans hl) (h2.trans hr),
    h.same, h.law⟩

theorem Meets2.flip {this that : ANode c.n K V} (h : Meets2 hash T this that) : Meets2 hash T that this :=
  ⟨h.whole', h.whole, h.thin', h.thin, fun s r h1 h2 ht he =>
    (h.hit r s h2 h1 ((h.same _ _ he).1 ht) he.symm).symm, h.same, h.law⟩

theorem Meets2.eq {this that : ANode c.n K V} (h : Meets2 hash T this that) : ∀ k l : K, (k == l) = true → (T k ↔ T l) :=
  fun k l he => h.same k l (h.law k l he)

theorem Meets2.hit' {this that : ANode c.n K V} (h : Meets2 hash T this that) {s r : ASNode K V} (h1 : (ANode.S s).Sub this)
    (h2 : (ANode.S r).Sub that) (ht : T r.key) (he : hash s.key = hash r.key) : (s.key == r.key) = true :=
  (h.hit s r h1 h2 ((h.same _ _ he).2 ht) he).1

theorem Meets2.apart {this that : ANode c.n K V} (h : Meets2 hash T this that) {l : ALNode K V} (hl : (ANode.L l).Sub this)
    {r : ASNode K V} (he : hash l.key = hash r.key) : ¬T r.key :=
  fun ht => (h.thin l hl).key ((h.same _ _ he).2 ht)

theorem JRes.flipE_gives {N : Type} {F : N → Prop} {a : Prog Q A (JRes N R)} (h : a.Gives G (JRes.Fine F left right)) :
    (JRes.flipE a).Gives G (JRes.Fine F right left) :=
  Prog.Gives.map h fun _ hp => hp.flip

variable (ho : ops.Good G T left right)
include ho

theorem ANode.twtS_gives (this : ANode c.n K V) (that : ASNode K V) (depth : Nat) (hl : left → this.Fine T U)
    (hr : right → (ANode.S that).Fine T U) (hM : Meets2 hash T this (.S that)) :
    (this.twtS reduce e hash ops par that depth).Gives G
      (JRes.Fine (ANode.Fine T U) (this.Fine T U) ((ANode.S that).Fine T U)) := by
  refine ANode.recDepth (motive := fun m d => (left → m.Fine T U) → Meets2 hash T m (.S that) →
      (m.twtS reduce e hash ops par that d).Gives G
        (JRes.Fine (ANode.Fine T U) (m.Fine T U) ((ANode.S that).Fine T U))) ?_ ?_ ?_ this depth hl hM
  · intro t d hl hM
    exact t.twt_gives reduce ho hM.eq hl hr d (fun ht he => (hM.hit _ _ (.refl _) (.refl _) ht he).1) fun ht he =>
      hM.hit' (.refl _) (.refl _) ht he
  · intro l d hl hM
    exact l.twtS_gives reduce ho (hM.thin l (.refl _)) hr (fun he => hM.apart (.refl _) he) d
  · intro a bits vs extra d ih hl hM
    have hs := fun m (hm : m ∈ vs) => ANode.child_sub (a := a) (bits := bits) (z := extra) hm
    unfold ANode.twtS
    rw [ANode.fold, ANode.foldAll_eq]
    refine Prog.Gives.bind (aflatLoop_gives (F := ANode.Fine T U) reduce e d bits extra vs (ANode.Fine T U)
      ((ANode.S that).Fine T U) ?_ ?_ ?_) fun acc q => ?_
    · exact fun m hm => (ih m hm (fun h => (hl h).sub (hs m hm)) (hM.sub (hs m hm) (.refl _))).mono fun r hr =>
        JRes.aitemOpt_fine hr (fun m' hm' => by cases hm'; exact fun h => h) fun m' hm' => by cases hm'; exact fun h => h
    · exact fun m hm => Prog.Gives.map (m.transformE_gives reduce e ho.left par (fun h => (hl h).sub (hs m hm))
        (hM.whole.sub (hs m hm)) ((hM.thin.sub (hs m hm)).lists U _)) fun r hr it hit =>
          (JRes.aitemOpt_fine (hr.jointL (right := (ANode.S that).Fine T U)) (fun m' hm' => by cases hm'; exact fun h => h)
            (fun m' hm' => by cases hm'; exact fun h => h) it hit).imp (fun h => h) fun _ => trivial
    · exact Prog.Gives.map (that.transformE_gives (U := U) (fun ht => ho.right _ _ ht) hr) fun _ hp =>
        JRes.aitemOpt_fine (TRes.Fine.jointR (TRes.Fine.map (F' := ANode.Fine T U) hp (fun _ hm => hm) fun h => h))
          (fun m' hm' => by cases hm') fun m' hm' => by cases hm'; exact fun h => h
    · obtain ⟨i0, hi0, q⟩ := q
      refine Prog.Gives.al (JRes.afinish_gives q (fun h => ANode.Fine.ofC fun m0 hm0 => ?_) fun h => h i0 (by simpa using hi0) rfl)
      obtain ⟨i, hi, hat⟩ := Bia.exists_atBitIndex (hM.whole a bits vs extra (.refl _)) hm0
      exact h i hi m0 hat

theorem ANode.twtL_gives (this : ANode c.n K V) (that : ALNode K V) (depth : Nat) (hl : left → this.Fine T U)
    (hM : Meets2 hash T this (.L that)) :
    (this.twtL reduce e hash ops par that depth).Gives G
      (JRes.Fine (ANode.Fine T U) (this.Fine T U) ((ANode.L that).Fine T U)) := by
  have hr := hM.thin' that (.refl _)
  refine ANode.recDepth (motive := fun m d => (left → m.Fine T U) → Meets2 hash T m (.L that) →
      (m.twtL reduce e hash ops par that d).Gives G
        (JRes.Fine (ANode.Fine T U) (m.Fine T U) ((ANode.L that).Fine T U))) ?_ ?_ ?_ this depth hl hM
  · intro t d hl hM
    exact JRes.flipE_gives (that.twtS_gives reduce ho.flip hr hl (fun he => hM.flip.apart (.refl _) he) d)
  · intro l d hl hM
    exact l.twtL_gives reduce (hM.thin l (.refl _)) hr d
  · intro a bits vs extra d ih hl hM
    have hs := fun m (hm : m ∈ vs) => ANode.child_sub (a := a) (bits := bits) (z := extra) hm
    unfold ANode.twtL
    rw [ANode.fold, ANode.foldAll_eq]
    refine Prog.Gives.bind (aflatLoop_gives (F := ANode.Fine T U) reduce e d bits extra vs (ANode.Fine T U)
      ((ANode.L that).Fine T U) ?_ ?_ ?_) fun acc q => ?_
    · exact fun m hm => (ih m hm (fun h => (hl h).sub (hs m hm)) (hM.sub (hs m hm) (.refl _))).mono fun r hr =>
        JRes.aitemOpt_fine hr (fun m' hm' => by cases hm'; exact fun h => h) fun m' hm' => by cases hm'; exact fun h => h
    · exact fun m hm => Prog.Gives.map (m.transformE_gives reduce e ho.left par (fun h => (hl h).sub (hs m hm))
        (hM.whole.sub (hs m hm)) ((hM.thin.sub (hs m hm)).lists U _)) fun r hr it hit =>
          (JRes.aitemOpt_fine (hr.jointL (right := (ANode.L that).Fine T U)) (fun m' hm' => by cases hm'; exact fun h => h)
            (fun m' hm' => by cases hm'; exact fun h => h) it hit).imp (fun h => h) fun _ => trivial
    · exact Prog.Gives.map (that.transformE_loose (U := U) reduce _ hr) fun _ hp =>
        JRes.aitemOpt_fine (TRes.Fine.jointR (TRes.Fine.map (F' := ANode.Fine T U) hp (fun _ hm => hm) fun h => h))
          (fun m' hm' => by cases hm') fun m' hm' => by cases hm'; exact fun h => h
    · obtain ⟨i0, hi0, q⟩ := q
      refine Prog.Gives.al (JRes.afinish_gives q (fun h => ANode.Fine.ofC fun m0 hm0 => ?_) fun h => h i0 (by simpa using hi0) rfl)
      obtain ⟨i, hi, hat⟩ := Bia.exists_atBitIndex (hM.whole a bits vs extra (.refl _)) hm0
      exact h i hi m0 hat

omit [BEq K] in
theorem TwtOpsM.shortcut_gives {r : JRes (ANode c.n K V) R} (hr : ops.shortcut = some r) {this that : ANode c.n K V}
    (hl : left → this.Fine T U) (hr' : right → that.Fine T U) : r.Fine (ANode.Fine T U) (this.Fine T U) (that.Fine T U) := by
  obtain ⟨b, l, q⟩ := ops
  have h1 := ho.left
  have h2 := ho.right
  cases b <;> cases l <;> cases q <;> cases hr <;>
    first
    | exact fun o hs en he ht => hl (h1 en.1 en.2 ht 0) o hs en he ht
    | exact fun o hs en he ht => hr' (h2 en.1 en.2 ht 0) o hs en he ht
    | exact trivial

theorem ANode.twt_gives (this that : ANode c.n K V) (depth : Nat) (hl : left → this.Fine T U)
    (hr : right → that.Fine T U) (hM : Meets2 hash T this that) :
    (this.twt reduce e hash ops par that depth).Gives G
      (JRes.Fine (ANode.Fine T U) (this.Fine T U) (that.Fine T U)) := by
  refine ANode.recDepth (motive := fun m d => ∀ that : ANode c.n K V, (left → m.Fine T U) → (right → that.Fine T U) →
      Meets2 hash T m that → (m.twt reduce e hash ops par that d).Gives G
        (JRes.Fine (ANode.Fine T U) (m.Fine T U) (that.Fine T U))) ?_ ?_ ?_ this depth that hl hr hM
  · intro t d that hl hr hM
    cases that with
    | S r =>
      exact t.twt_gives reduce ho hM.eq hl hr d (fun ht he => (hM.hit _ _ (.refl _) (.refl _) ht he).1) fun ht he =>
        hM.hit' (.refl _) (.refl _) ht he
    | L r =>
      exact JRes.flipE_gives (r.twtS_gives reduce ho.flip (hM.thin' r (.refl _)) hl (fun he => hM.flip.apart (.refl _) he) d)
    | C a b v z =>
      exact JRes.flipE_gives ((ANode.C a b v z).twtS_gives reduce e par ho.flip t d hr hl hM.flip)
  · intro l d that hl hr hM
    cases that with
    | S r => exact l.twtS_gives reduce ho (hM.thin l (.refl _)) hr (fun he => hM.apart (.refl _) he) d
    | L r => exact l.twtL_gives reduce (hM.thin l (.refl _)) (hM.thin' r (.refl _)) d
    | C a b v z =>
      exact JRes.flipE_gives ((ANode.C a b v z).twtL_gives reduce e par ho.flip l d hr hM.flip)
  · intro a bits vs extra d ih that hl hr hM
    have hs := fun m (hm : m ∈ vs) => ANode.child_sub (a := a) (bits := bits) (z := extra) hm
    unfold ANode.twt
    rw [ANode.fold, ANode.foldAll_eq]
    cases that with
    | S r =>
      show Prog.Gives G ((ANode.C a bits _ extra).twtS reduce e hash ops par r d) _
      simp only [List.map_map, Function.comp_def, List.map_id']
      exact ANode.twtS_gives reduce e par ho _ r d hl hr hM
    | L r =>
      show Prog.Gives G ((ANode.C a bits _ extra).twtL reduce e hash ops par r d) _
      simp only [List.map_map, Function.comp_def, List.map_id']
      exact ANode.twtL_gives reduce e par ho _ r d hl hM
    | C a2 b2 rs z2 =>
      have hs2 := fun m (hm : m ∈ rs) => ANode.child_sub (a := a2) (bits := b2) (z := z2) hm
      show Prog.Gives G (atwtCC reduce e ops par bits _ extra ⟨b2, rs, z2⟩) _
      unfold atwtCC
      cases h1 : (ops.shortcut : Option (JRes (ANode c.n K V) R)) with
      | some r => exact Prog.Gives.pure (TwtOpsM.shortcut_gives ho h1 hl hr)
      | none =>
        refine Prog.Gives.bind (abothLoop_gives (F := ANode.Fine T U) reduce e par bits extra vs b2 z2 rs
          (ANode.Fine T U) (ANode.Fine T U) ?_ ?_ ?_) fun acc q => ?_
        · exact fun m hm r hr' => (ih m hm r (fun h => (hl h).sub (hs m hm)) (fun h => (hr h).sub (hs2 r hr'))
            (hM.sub (hs m hm) (hs2 r hr'))).mono fun a ha =>
              JRes.aitemOpt_fine ha (fun m' hm' => by cases hm'; exact fun h => h) fun m' hm' => by cases hm'; exact fun h => h
        · exact fun m hm => Prog.Gives.map (m.transformE_gives reduce e ho.left par (fun h => (hl h).sub (hs m hm))
            (hM.whole.sub (hs m hm)) ((hM.thin.sub (hs m hm)).lists U _)) fun r hr it hit =>
              JRes.aitemOpt_fine (hr.jointL (right := True)) (fun m' hm' => by cases hm'; exact fun h => h)
                (fun m' hm' => by cases hm') it hit
        · exact fun m hm => Prog.Gives.map (m.transformE_gives reduce e ho.right par (fun h => (hr h).sub (hs2 m hm))
            (hM.whole'.sub (hs2 m hm)) ((hM.thin'.sub (hs2 m hm)).lists U _)) fun r hr it hit =>
              JRes.aitemOpt_fine (hr.jointR (left := True)) (fun m' hm' => by cases hm')
                (fun m' hm' => by cases hm'; exact fun h => h) it hit
        · refine Prog.Gives.al (JRes.afinish_gives q (fun h => ANode.Fine.ofC fun m0 hm0 => ?_)
            fun h => ANode.Fine.ofC fun m0 hm0 => ?_)
          · obtain ⟨i, hi, hat⟩ := Bia.exists_atBitIndex (hM.whole a bits vs extra (.refl _)) hm0
            exact h i hi m0 hat
          · obtain ⟨i, hi, hat⟩ := Bia.exists_atBitIndex (hM.whole' a2 b2 rs z2 (.refl _)) hm0
            exact h i hi m0 hat

end
end HT
