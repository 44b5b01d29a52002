import Verif.RenameList
import Verif.EffSameNode
/-! # Addresses are only passed on: nodes and tries -/
namespace HT

variable {K V L W S X R : Type} {n : Nat} {Q : Type} {A : Q → Type} {φ : Shift}

/-! ### The loop -/

def AItem.ren (f : Nat → Nat) : AItem n K V R → AItem n K V R
  | .skip => .skip
  | .put m r kl kr => .put (m.ren f) r kl kr
  | .drop r kl kr => .drop r kl kr

def AAcc.ren (f : Nat → Nat) (a : AAcc n K V R) : AAcc n K V R :=
  ⟨a.size, a.bits, a.values.map (ANode.ren f), a.ul, a.ur, a.red⟩

namespace AAcc
variable {reduce : R → R → R} {e : R}

theorem step_ren (f : Nat → Nat) (acc : AAcc n K V R) (i : Nat) (it : AItem n K V R) :
    (acc.step reduce i it).Rel (Is (AAcc.ren f)) ((acc.ren f).step reduce i (it.ren f)) := by
  cases it with
  | skip => exact .ok rfl
  | drop r kl kr => exact .ok rfl
  | put m r kl kr =>
    simp only [step, AItem.ren, AAcc.ren, ANode.ren_size]
    cases Res.unwrapE (nthBit n i) with
    | panic p => exact .panic p
    | diverge => exact .diverge
    | ok bit =>
      simp only [Res.ok_bind]
      cases Res.unwrapE (bitInsert acc.bits bit) with
      | panic p => exact .panic p
      | diverge => exact .diverge
      | ok bits => exact .ok (by simp [Is, AAcc.ren])

theorem merge_ren (f : Nat → Nat) (a b : AAcc n K V R) :
    (merge reduce a b).Rel (Is (AAcc.ren f)) (merge reduce (a.ren f) (b.ren f)) := by
  simp only [merge, AAcc.ren]
  cases Res.unwrapE (bitMerge a.bits b.bits) with
  | panic p => exact .panic p
  | diverge => exact .diverge
  | ok bits => exact .ok (by simp [Is, AAcc.ren])

theorem loopE_ren {item item' : Nat → Prog Q A (AItem n K V R)} (is : List Nat)
    (h : ∀ i ∈ is, Prog.Ren φ (Is (AItem.ren φ.f)) (item i) (item' i)) (acc : AAcc n K V R) :
    Prog.Ren φ (Is (AAcc.ren φ.f)) (loopE reduce item is acc) (loopE reduce item' is (acc.ren φ.f)) := by
  induction is generalizing acc with
  | nil => exact .pure rfl
  | cons i is ih =>
    exact .then' (h i (List.mem_cons_self ..)) fun it => .then' (.res (acc.step_ren φ.f i it)) fun a =>
      ih (fun j hj => h j (List.mem_cons_of_mem _ hj)) a

theorem gatherE_ren (par : Par) {item item' : Nat → Prog Q A (AItem n K V R)}
    (h : ∀ i, Prog.Ren φ (Is (AItem.ren φ.f)) (item i) (item' i)) :
    Prog.Ren φ (Is (AAcc.ren φ.f)) (gatherE reduce e par item) (gatherE reduce e par item') := by
  cases par with
  | sequential => exact loopE_ren _ (fun i _ => h i) _
  | middleIndex =>
    exact .then' (loopE_ren _ (fun i _ => h i) (init e)) fun l =>
      .then' (loopE_ren _ (fun i _ => h i) (init e)) fun r => .res (merge_ren φ.f l r)

theorem branch_ren (acc : AAcc n K V R) :
    Al.Ren φ (Is (Option.map (ANode.ren φ.f))) acc.branch (acc.ren φ.f).branch :=
  .bia (Bia.ofVec_map (ANode.ren φ.f) acc.bits acc.values acc.size) fun m => .pure rfl

theorem pack_ren (acc : AAcc n K V R) :
    Al.Ren φ (Is (Option.map (ANode.ren φ.f))) acc.pack (acc.ren φ.f).pack := by
  have hb := acc.branch_ren (φ := φ)
  obtain ⟨size, bits, values, ul, ur, red⟩ := acc
  match values with
  | [] => exact .pure rfl
  | [.L l] => exact .pure rfl
  | [.S s] => exact .pure rfl
  | [.C a b v z] =>
    have hr : (AAcc.mk size bits [ANode.C a b v z] ul ur red).ren φ.f =
      ⟨size, bits, [.C (φ.f a) b (v.map (ANode.ren φ.f)) z], ul, ur, red⟩ := by
      simp only [AAcc.ren, List.map, ANode.ren_C]
    rw [hr] at hb ⊢
    exact hb
  | m :: m' :: ms =>
    have hr : (AAcc.mk size bits (m :: m' :: ms) ul ur red).ren φ.f =
      ⟨size, bits, m.ren φ.f :: m'.ren φ.f :: ms.map (ANode.ren φ.f), ul, ur, red⟩ := rfl
    rw [hr] at hb ⊢
    have h1 : (AAcc.mk size bits (m :: m' :: ms) ul ur red).pack = (AAcc.mk size bits (m :: m' :: ms) ul ur red).branch := by
      cases m <;> rfl
    have h2 : ∀ m0 : ANode n K V, (AAcc.mk size bits (m0 :: m'.ren φ.f :: ms.map (ANode.ren φ.f)) ul ur red).pack =
        (AAcc.mk size bits (m0 :: m'.ren φ.f :: ms.map (ANode.ren φ.f)) ul ur red).branch := by
      intro m0; cases m0 <;> rfl
    rw [h1, h2]
    exact hb

end AAcc

theorem TRes.afinish_ren (acc : AAcc n K V R) :
    Al.Ren φ (Is (TRes.renN φ.f)) (TRes.afinish acc) (TRes.afinish (acc.ren φ.f)) :=
  .ite (fun _ => .pure rfl) fun _ => .map acc.pack_ren fun o => by cases o <;> rfl

theorem XRes.afinish_ren (acc : AAcc n K V R) :
    Al.Ren φ (Is (XRes.renN φ.f)) (XRes.afinish acc) (XRes.afinish (acc.ren φ.f)) :=
  .map acc.pack_ren fun o => by cases o <;> rfl

theorem JRes.afinish_ren (acc : AAcc n K V R) :
    Al.Ren φ (Is (JRes.renN φ.f)) (JRes.afinish acc) (JRes.afinish (acc.ren φ.f)) :=
  .ite (fun _ => .ite (fun _ => .pure rfl) fun _ => .pure rfl) fun _ => .ite (fun _ => .pure rfl) fun _ =>
    .map acc.pack_ren fun o => by cases o <;> rfl

theorem XRes.afinishAssert_ren (acc : AAcc n K V R) :
    Al.Ren φ (Is (XRes.renN φ.f)) (XRes.afinishAssert acc) (XRes.afinishAssert (acc.ren φ.f)) := by
  have hl : (acc.ren φ.f).values.length = acc.values.length := by simp [AAcc.ren]
  unfold XRes.afinishAssert
  rw [hl]
  exact .ite (fun _ => .failed _) fun _ => XRes.afinish_ren acc

theorem TRes.aitem_ren (f : Nat → Nat) (m : ANode n K V) (r : TRes (ANode n K V) R) :
    (r.renN f).aitem (m.ren f) = (r.aitem m).ren f := by cases r <;> rfl
theorem XRes.aitem_ren (f : Nat → Nat) (r : XRes (ANode n K V) R) : (r.renN f).aitem = r.aitem.ren f := by cases r <;> rfl

theorem TRes.aitemOpt_ren (f : Nat → Nat) (keep : Bool) (m? : Option (ANode n K V)) (r : TRes (ANode n K V) R) :
    (r.aitemOpt keep m?).Rel (Is (AItem.ren f)) ((r.renN f).aitemOpt keep (m?.map (ANode.ren f))) := by
  cases r <;> cases m? <;> first | exact .ok rfl | exact .panic _

theorem JRes.aitemOpt_ren (f : Nat → Nat) (l? r? : Option (ANode n K V)) (r : JRes (ANode n K V) R) :
    (r.aitemOpt l? r?).Rel (Is (AItem.ren f)) ((r.renN f).aitemOpt (l?.map (ANode.ren f)) (r?.map (ANode.ren f))) := by
  cases r <;> cases l? <;> cases r? <;> first | exact .ok rfl | exact .panic _

theorem TRes.renN_S (f : Nat → Nat) (r : TRes (ASNode K V) R) :
    (TRes.map ANode.S (r.renS f) : TRes (ANode n K V) R) = TRes.renN f (r.map .S) := by cases r <;> rfl
theorem XRes.renN_S (f : Nat → Nat) (r : XRes (ASNode K V) R) :
    (XRes.map ANode.S (r.renS f) : XRes (ANode n K V) R) = XRes.renN f (r.map .S) := by cases r <;> rfl
theorem XRes.renN_toT (f : Nat → Nat) (r : XRes (ANode n K V) R) : (r.renN f).toT = TRes.renN f r.toT := by cases r <;> rfl
theorem TRes.renN_jointL (f : Nat → Nat) (r : TRes (ANode n K V) R) : (r.renN f).jointL = JRes.renN f r.jointL := by
  cases r <;> rfl
theorem TRes.renN_jointR (f : Nat → Nat) (r : TRes (ANode n K V) R) : (r.renN f).jointR = JRes.renN f r.jointR := by
  cases r <;> rfl
theorem JRes.renN_flip (f : Nat → Nat) (r : JRes (ANode n K V) R) : (r.renN f).flip = JRes.renN f r.flip := by
  cases r <;> rfl

/-- Looking up a slot among the children with two functions' results on them. -/
theorem Bia.atBitIndex_ren {ρ : Type} (bits : BitVec n) (vs : List (ANode n K V)) (extra i : Nat)
    (g h : ANode n K V → ρ) :
    Prog.Ren φ (fun a b => (∃ er er', a = Except.error er ∧ b = Except.error er') ∨
        ∃ m ∈ vs, a = .ok (m, g m) ∧ b = .ok (m.ren φ.f, h (m.ren φ.f)))
      (Prog.res ((Bia.mk bits (vs.map fun m => (m, g m)) extra).atBitIndex i) : Prog Q A _)
      (Prog.res ((Bia.mk bits ((vs.map (ANode.ren φ.f)).map fun m => (m, h m)) extra).atBitIndex i) : Prog Q A _) := by
  rw [List.map_map, Bia.atBitIndex_map, Bia.atBitIndex_map]
  refine .res ?_
  cases hm : (Bia.mk bits vs extra).atBitIndex i with
  | panic p => exact .panic p
  | diverge => exact .diverge
  | ok m =>
    cases m with
    | error er => exact .ok (.inl ⟨er, er, rfl, rfl⟩)
    | ok m => exact .ok (.inr ⟨m, Bia.atBitIndex_mem hm, rfl, rfl⟩)

/-- Looking up a slot among the children. -/
theorem Bia.atBitIndex_ren' (bits : BitVec n) (vs : List (ANode n K V)) (extra i : Nat) :
    Prog.Ren φ (fun a b => (∃ er er', a = Except.error er ∧ b = Except.error er') ∨
        ∃ m, a = .ok m ∧ b = .ok (m.ren φ.f))
      (Prog.res ((Bia.mk bits vs extra).atBitIndex i) : Prog Q A _)
      (Prog.res ((Bia.mk bits (vs.map (ANode.ren φ.f)) extra).atBitIndex i) : Prog Q A _) := by
  rw [Bia.atBitIndex_map]
  refine .res ?_
  cases hm : (Bia.mk bits vs extra).atBitIndex i with
  | panic p => exact .panic p
  | diverge => exact .diverge
  | ok m =>
    cases m with
    | error er => exact .ok (.inl ⟨er, er, rfl, rfl⟩)
    | ok m => exact .ok (.inr ⟨m, rfl, rfl⟩)

/-! ### transform and transmute -/

section
variable (reduce : R → R → R) (e : R)

theorem ANode.transformE_ren {op : MapTransform R (K → V → Prog Q A (MapTransformResult V R))} (h : op.Free φ) (par : Par)
    (m : ANode n K V) :
    Prog.Ren φ (Is (TRes.renN φ.f)) (m.transformE reduce e op par) ((m.ren φ.f).transformE reduce e op par) := by
  unfold ANode.transformE
  refine ANode.recDepth (motive := fun m d => Prog.Ren φ (Is (TRes.renN φ.f)) (ANode.fold _ _ (transformEC reduce e op par) m d)
    (ANode.fold _ _ (transformEC reduce e op par) (m.ren φ.f) d)) ?_ ?_ ?_ m 0
  · intro s d
    exact .map (s.transformE_ren h) fun r => TRes.renN_S _ r
  · intro l d
    exact .map (l.transformE_ren reduce h) fun r => TRes.renN_L _ r
  · intro a bits vs extra d ih
    rw [ANode.ren_C, ANode.fold, ANode.foldAll_eq, ANode.fold, ANode.foldAll_eq]
    cases op with
    | unchanged r => exact .pure rfl
    | removed r => exact .pure rfl
    | generic F =>
      refine .endAl (AAcc.gatherE_ren par fun i => .bind (Bia.atBitIndex_ren _ _ _ _ _ _) ?_) TRes.afinish_ren
      rintro a b (⟨er, er', rfl, rfl⟩ | ⟨m, hm, rfl, rfl⟩)
      · exact .pure rfl
      · exact .map (ih m hm) fun r => TRes.aitem_ren _ m r

theorem ANode.transmuteE_ren {op : MapTransmute R (K → V → Prog Q A (MapTransmuteResult S X R))} (h : op.Free φ)
    (m : ANode n K V) :
    Prog.Ren φ (Is (XRes.renN φ.f)) (m.transmuteE reduce e op) ((m.ren φ.f).transmuteE reduce e op) := by
  unfold ANode.transmuteE
  refine ANode.recDepth (motive := fun m d => Prog.Ren φ (Is (XRes.renN φ.f)) (ANode.fold _ _ (transmuteEC reduce e op) m d)
    (ANode.fold _ _ (transmuteEC reduce e op) (m.ren φ.f) d)) ?_ ?_ ?_ m 0
  · intro s d
    exact .map (s.transmuteE_ren h) fun r => XRes.renN_S _ r
  · intro l d
    exact .map (l.transmuteE_ren reduce h) fun r => XRes.renN_L _ r
  · intro a bits vs extra d ih
    rw [ANode.ren_C, ANode.fold, ANode.foldAll_eq, ANode.fold, ANode.foldAll_eq]
    cases op with
    | removed r => exact .pure rfl
    | generic F =>
      refine .endAl (AAcc.gatherE_ren _ fun i => .bind (Bia.atBitIndex_ren _ _ _ _ _ _) ?_) XRes.afinishAssert_ren
      rintro a b (⟨er, er', rfl, rfl⟩ | ⟨m, hm, rfl, rfl⟩)
      · exact .pure rfl
      · exact .map (ih m hm) fun r => XRes.aitem_ren _ r

end

/-! ### The loops of the joint operations -/

section
variable {c : Cfg} {reduce : R → R → R} {e : R} {ρ : Type} {k : ρ → ρ}

theorem aflatLoop_ren {hv : BitVec c.w} {d : Nat} {bits : BitVec c.n} {vs : List (ANode c.n K V)} {extra : Nat}
    {g elsewhere g' elsewhere' : ANode c.n K V → Prog Q A ρ} {alone alone' : Prog Q A ρ}
    {item item' : Option (ANode c.n K V) → ρ → Res (AItem c.n S X R)}
    (hf : ∀ m ∈ vs, Prog.Ren φ (Is k) (g m) (g' (m.ren φ.f)))
    (he : ∀ m, Prog.Ren φ (Is k) (elsewhere m) (elsewhere' (m.ren φ.f))) (ha : Prog.Ren φ (Is k) alone alone')
    (hi : ∀ m? r, (item m? r).Rel (Is (AItem.ren φ.f)) (item' (m?.map (ANode.ren φ.f)) (k r))) :
    Prog.Ren φ (Is (AAcc.ren φ.f))
      (aflatLoop reduce e hv d ⟨bits, vs.map fun m => (m, g m), extra⟩ elsewhere alone item)
      (aflatLoop reduce e hv d ⟨bits, (vs.map (ANode.ren φ.f)).map fun m => (m, g' m), extra⟩ elsewhere' alone' item') := by
  refine .thenEq (.resEq _) fun fl => AAcc.gatherE_ren _ fun i => .bind (Bia.atBitIndex_ren _ _ _ _ _ _) ?_
  rintro a b (⟨er, er', rfl, rfl⟩ | ⟨m, hm, rfl, rfl⟩)
  · exact .thenEq (.resEq _) fun bit => .ite (fun _ => .then' ha fun r => .res (hi none r)) fun _ => .pure rfl
  · exact .thenEq (.resEq _) fun bit => .ite (fun _ => .then' (hf m hm) fun r => .res (hi (some m) r))
      fun _ => .then' (he m) fun r => .res (hi (some m) r)

theorem abothLoop_ren {par : Par} {bits : BitVec c.n} {vs : List (ANode c.n K V)} {extra : Nat}
    {rbits : BitVec c.n} {rvs : List (ANode c.n L W)} {rextra : Nat} {g g' : ANode c.n K V → ANode c.n L W → Prog Q A ρ}
    {onlyL onlyL' : ANode c.n K V → Prog Q A ρ} {onlyR onlyR' : ANode c.n L W → Prog Q A ρ}
    {item item' : Option (ANode c.n K V) → Option (ANode c.n L W) → ρ → Res (AItem c.n S X R)}
    (hf : ∀ m ∈ vs, ∀ r, Prog.Ren φ (Is k) (g m r) (g' (m.ren φ.f) (r.ren φ.f)))
    (hl : ∀ m, Prog.Ren φ (Is k) (onlyL m) (onlyL' (m.ren φ.f)))
    (hr : ∀ m, Prog.Ren φ (Is k) (onlyR m) (onlyR' (m.ren φ.f)))
    (hi : ∀ l? r? r, (item l? r? r).Rel (Is (AItem.ren φ.f))
      (item' (l?.map (ANode.ren φ.f)) (r?.map (ANode.ren φ.f)) (k r))) :
    Prog.Ren φ (Is (AAcc.ren φ.f))
      (abothLoop reduce e par ⟨bits, vs.map fun m => (m, g m), extra⟩ ⟨rbits, rvs, rextra⟩ onlyL onlyR item)
      (abothLoop reduce e par ⟨bits, (vs.map (ANode.ren φ.f)).map fun m => (m, g' m), extra⟩
        ⟨rbits, rvs.map (ANode.ren φ.f), rextra⟩ onlyL' onlyR' item') := by
  refine AAcc.gatherE_ren _ fun i => .bind (Bia.atBitIndex_ren _ _ _ _ _ _) ?_
  rintro a b (⟨er, er', rfl, rfl⟩ | ⟨m, hm, rfl, rfl⟩)
  · refine .bind (Bia.atBitIndex_ren' _ _ _ _) ?_
    rintro a b (⟨er, er', rfl, rfl⟩ | ⟨r, rfl, rfl⟩)
    · exact .pure rfl
    · exact .then' (hr r) fun t => .res (hi none (some r) t)
  · refine .bind (Bia.atBitIndex_ren' _ _ _ _) ?_
    rintro a b (⟨er, er', rfl, rfl⟩ | ⟨r, rfl, rfl⟩)
    · exact .then' (hl m) fun t => .res (hi (some m) none t)
    · exact .then' (hf m hm r) fun t => .res (hi (some m) (some r) t)

end

variable {c : Cfg} (x : Cross c K L) (reduce : R → R → R) (e : R)

/-! ### Right operand a list or single node -/

section
variable {o : TwmOpsM Q A K V L W R} (h : o.Free φ) (par : Par)
include h

theorem ANode.twmS_ren (this : ANode c.n K V) (right : ASNode L W) (depth : Nat) :
    Prog.Ren φ (Is (TRes.renN φ.f)) (this.twmS x reduce e o par right depth)
      ((this.ren φ.f).twmS x reduce e o par (right.ren φ.f) depth) := by
  refine ANode.recDepth (motive := fun m d => Prog.Ren φ (Is (TRes.renN φ.f)) (m.twmS x reduce e o par right d)
    ((m.ren φ.f).twmS x reduce e o par (right.ren φ.f) d)) ?_ ?_ ?_ this depth
  · intro s d; exact s.twm_ren reduce x h right d
  · intro l d; exact l.twmS_ren reduce x h right d
  · intro a bits vs extra d ih
    unfold ANode.twmS
    rw [ANode.ren_C, ANode.fold, ANode.foldAll_eq, ANode.fold, ANode.foldAll_eq]
    exact .endAl (aflatLoop_ren ih (fun m => m.transformE_ren reduce e h.left par)
      (.map (right.transmuteE_ren h.right) fun r => by rw [XRes.renN_S, XRes.renN_toT])
      fun m? r => TRes.aitemOpt_ren _ _ _ _) TRes.afinish_ren

theorem ANode.twmL_ren (this : ANode c.n K V) (right : ALNode L W) (depth : Nat) :
    Prog.Ren φ (Is (TRes.renN φ.f)) (this.twmL x reduce e o par right depth)
      ((this.ren φ.f).twmL x reduce e o par (right.ren φ.f) depth) := by
  refine ANode.recDepth (motive := fun m d => Prog.Ren φ (Is (TRes.renN φ.f)) (m.twmL x reduce e o par right d)
    ((m.ren φ.f).twmL x reduce e o par (right.ren φ.f) d)) ?_ ?_ ?_ this depth
  · intro s d; exact right.mwtS_ren reduce x.flip h.flip s d
  · intro l d; exact l.twmL_ren reduce x h right d
  · intro a bits vs extra d ih
    unfold ANode.twmL at ih ⊢
    rw [ANode.ren_C, ANode.fold, ANode.foldAll_eq, ANode.fold, ANode.foldAll_eq]
    unfold atwmLC at ih ⊢
    rw [ALNode.ren_key] at ih ⊢
    exact .endAl (aflatLoop_ren ih (fun m => m.transformE_ren reduce e h.left par)
      (.map (right.transmuteE_ren reduce h.right) fun r => by rw [XRes.renN_L, XRes.renN_toT])
      fun m? r => TRes.aitemOpt_ren _ _ _ _) TRes.afinish_ren

end

section
variable {o : MwtOpsM Q A K V L W R} (h : o.Free φ)
include h

theorem ANode.mwtS_ren (this : ANode c.n K V) (right : ASNode L W) (depth : Nat) :
    Prog.Ren φ (Is (TRes.renN φ.f)) (this.mwtS x reduce e o right depth)
      ((this.ren φ.f).mwtS x reduce e o (right.ren φ.f) depth) := by
  refine ANode.recDepth (motive := fun m d => Prog.Ren φ (Is (TRes.renN φ.f)) (m.mwtS x reduce e o right d)
    ((m.ren φ.f).mwtS x reduce e o (right.ren φ.f) d)) ?_ ?_ ?_ this depth
  · intro s d; exact s.mwt_ren reduce x h right d
  · intro l d; exact l.mwtS_ren reduce x h right d
  · intro a bits vs extra d ih
    unfold ANode.mwtS
    rw [ANode.ren_C, ANode.fold, ANode.foldAll_eq, ANode.fold, ANode.foldAll_eq]
    exact .endAl (aflatLoop_ren ih (fun m => .map (m.transmuteE_ren reduce e h.left) fun r => XRes.renN_toT _ r)
      (.map (right.transformE_ren h.right) fun r => TRes.renN_S _ r)
      fun m? r => TRes.aitemOpt_ren _ _ (some (.S right)) _) TRes.afinish_ren

theorem ANode.mwtL_ren (this : ANode c.n K V) (right : ALNode L W) (depth : Nat) :
    Prog.Ren φ (Is (TRes.renN φ.f)) (this.mwtL x reduce e o right depth)
      ((this.ren φ.f).mwtL x reduce e o (right.ren φ.f) depth) := by
  refine ANode.recDepth (motive := fun m d => Prog.Ren φ (Is (TRes.renN φ.f)) (m.mwtL x reduce e o right d)
    ((m.ren φ.f).mwtL x reduce e o (right.ren φ.f) d)) ?_ ?_ ?_ this depth
  · intro s d; exact right.twmS_ren reduce x.flip h.flip s d
  · intro l d; exact right.twmL_ren reduce x.flip h.flip l d
  · intro a bits vs extra d ih
    unfold ANode.mwtL at ih ⊢
    rw [ANode.ren_C, ANode.fold, ANode.foldAll_eq, ANode.fold, ANode.foldAll_eq]
    unfold amwtLC at ih ⊢
    rw [ALNode.ren_key] at ih ⊢
    exact .endAl (aflatLoop_ren ih (fun m => .map (m.transmuteE_ren reduce e h.left) fun r => XRes.renN_toT _ r)
      (.map (right.transformE_ren reduce h.right) fun r => TRes.renN_L _ r)
      fun m? r => TRes.aitemOpt_ren _ _ (some (.L right)) _) TRes.afinish_ren

end

section
variable {o : MwmOpsM Q A K V L W S X R} (h : o.Free φ)
include h

theorem ANode.mwmS_ren (this : ANode c.n K V) (right : ASNode L W) (depth : Nat) :
    Prog.Ren φ (Is (XRes.renN φ.f)) (this.mwmS x reduce e o right depth)
      ((this.ren φ.f).mwmS x reduce e o (right.ren φ.f) depth) := by
  refine ANode.recDepth (motive := fun m d => Prog.Ren φ (Is (XRes.renN φ.f)) (m.mwmS x reduce e o right d)
    ((m.ren φ.f).mwmS x reduce e o (right.ren φ.f) d)) ?_ ?_ ?_ this depth
  · intro s d; exact s.mwm_ren reduce x h right d
  · intro l d; exact l.mwmS_ren reduce x h right d
  · intro a bits vs extra d ih
    unfold ANode.mwmS
    rw [ANode.ren_C, ANode.fold, ANode.foldAll_eq, ANode.fold, ANode.foldAll_eq]
    exact .endAl (aflatLoop_ren ih (fun m => m.transmuteE_ren reduce e h.left)
      (.map (right.transmuteE_ren h.right) fun r => XRes.renN_S _ r)
      fun m? r => .ok (XRes.aitem_ren _ r)) XRes.afinish_ren

theorem ANode.mwmL_ren (this : ANode c.n K V) (right : ALNode L W) (depth : Nat) :
    Prog.Ren φ (Is (XRes.renN φ.f)) (this.mwmL x reduce e o right depth)
      ((this.ren φ.f).mwmL x reduce e o (right.ren φ.f) depth) := by
  refine ANode.recDepth (motive := fun m d => Prog.Ren φ (Is (XRes.renN φ.f)) (m.mwmL x reduce e o right d)
    ((m.ren φ.f).mwmL x reduce e o (right.ren φ.f) d)) ?_ ?_ ?_ this depth
  · intro s d; exact right.mwmS_ren reduce x.flip h.flip s d
  · intro l d; exact l.mwmL_ren reduce x h right d
  · intro a bits vs extra d ih
    unfold ANode.mwmL at ih ⊢
    rw [ANode.ren_C, ANode.fold, ANode.foldAll_eq, ANode.fold, ANode.foldAll_eq]
    unfold amwmLC at ih ⊢
    rw [ALNode.ren_key] at ih ⊢
    exact .endAl (aflatLoop_ren ih (fun m => m.transmuteE_ren reduce e h.left)
      (.map (right.transmuteE_ren reduce h.right) fun r => XRes.renN_L _ r)
      fun m? r => .ok (XRes.aitem_ren _ r)) XRes.afinish_ren

theorem ANode.mwm_ren (this : ANode c.n K V) (right : ANode c.n L W) (depth : Nat) :
    Prog.Ren φ (Is (XRes.renN φ.f)) (this.mwm x reduce e o right depth)
      ((this.ren φ.f).mwm x reduce e o (right.ren φ.f) depth) := by
  refine ANode.recDepth (motive := fun m d => ∀ right : ANode c.n L W, Prog.Ren φ (Is (XRes.renN φ.f))
    (m.mwm x reduce e o right d) ((m.ren φ.f).mwm x reduce e o (right.ren φ.f) d)) ?_ ?_ ?_ this depth right
  · intro s d right
    cases right with
    | S r => exact s.mwm_ren reduce x h r d
    | L r => exact r.mwmS_ren reduce x.flip h.flip s d
    | C a b v z =>
      have := (ANode.C a b v z).mwmS_ren x.flip reduce e h.flip s d
      rw [ANode.ren_C] at this ⊢
      exact this
  · intro l d right
    cases right with
    | S r => exact l.mwmS_ren reduce x h r d
    | L r => exact l.mwmL_ren reduce x h r d
    | C a b v z =>
      have := (ANode.C a b v z).mwmL_ren x.flip reduce e h.flip l d
      rw [ANode.ren_C] at this ⊢
      exact this
  · intro a bits vs extra d ih right
    have hS := fun r => (ANode.C a bits vs extra).mwmS_ren x reduce e h r d
    have hL := fun r => (ANode.C a bits vs extra).mwmL_ren x reduce e h r d
    unfold ANode.mwm
    rw [ANode.ren_C] at hS hL ⊢
    rw [ANode.fold, ANode.foldAll_eq, ANode.fold, ANode.foldAll_eq]
    cases right with
    | S r =>
      simp only [ANode.ren]
      unfold amwmC
      rw [ANode.map_fst', ANode.map_fst']
      exact hS r
    | L r =>
      simp only [ANode.ren]
      unfold amwmC
      rw [ANode.map_fst', ANode.map_fst']
      exact hL r
    | C a' b v z =>
      rw [ANode.ren_C]
      exact .endAl (abothLoop_ren ih (fun m => m.transmuteE_ren reduce e h.left)
        (fun m => m.transmuteE_ren reduce e h.right) fun _ _ r => .ok (XRes.aitem_ren _ r)) XRes.afinish_ren

end

section
variable {o : TwmOpsM Q A K V L W R} (h : o.Free φ) (par : Par)
include h

theorem ANode.twm_ren (this : ANode c.n K V) (right : ANode c.n L W) (depth : Nat) :
    Prog.Ren φ (Is (TRes.renN φ.f)) (this.twm x reduce e o par right depth)
      ((this.ren φ.f).twm x reduce e o par (right.ren φ.f) depth) := by
  refine ANode.recDepth (motive := fun m d => ∀ right : ANode c.n L W, Prog.Ren φ (Is (TRes.renN φ.f))
    (m.twm x reduce e o par right d) ((m.ren φ.f).twm x reduce e o par (right.ren φ.f) d)) ?_ ?_ ?_ this depth right
  · intro s d right
    cases right with
    | S r => exact s.twm_ren reduce x h r d
    | L r => exact r.mwtS_ren reduce x.flip h.flip s d
    | C a b v z =>
      have := (ANode.C a b v z).mwtS_ren x.flip reduce e h.flip s d
      rw [ANode.ren_C] at this ⊢
      exact this
  · intro l d right
    cases right with
    | S r => exact l.twmS_ren reduce x h r d
    | L r => exact l.twmL_ren reduce x h r d
    | C a b v z =>
      have := (ANode.C a b v z).mwtL_ren x.flip reduce e h.flip l d
      rw [ANode.ren_C] at this ⊢
      exact this
  · intro a bits vs extra d ih right
    have hS := fun r => (ANode.C a bits vs extra).twmS_ren x reduce e h par r d
    have hL := fun r => (ANode.C a bits vs extra).twmL_ren x reduce e h par r d
    unfold ANode.twm
    rw [ANode.ren_C] at hS hL ⊢
    rw [ANode.fold, ANode.foldAll_eq, ANode.fold, ANode.foldAll_eq]
    cases right with
    | S r =>
      simp only [ANode.ren]
      unfold atwmC
      rw [ANode.map_fst', ANode.map_fst']
      exact hS r
    | L r =>
      simp only [ANode.ren]
      unfold atwmC
      rw [ANode.map_fst', ANode.map_fst']
      exact hL r
    | C a' b v z =>
      rw [ANode.ren_C]
      exact .endAl (abothLoop_ren ih (fun m => m.transformE_ren reduce e h.left par)
        (fun m => .map (m.transmuteE_ren reduce e h.right) fun r => XRes.renN_toT _ r)
        fun _ _ _ => TRes.aitemOpt_ren _ _ _ _) TRes.afinish_ren

end

section
variable {o : MwtOpsM Q A K V L W R} (h : o.Free φ) (par : Par)
include h

theorem ANode.mwt_ren (this : ANode c.n K V) (right : ANode c.n L W) (depth : Nat) :
    Prog.Ren φ (Is (TRes.renN φ.f)) (this.mwt x reduce e o par right depth)
      ((this.ren φ.f).mwt x reduce e o par (right.ren φ.f) depth) := by
  refine ANode.recDepth (motive := fun m d => ∀ right : ANode c.n L W, Prog.Ren φ (Is (TRes.renN φ.f))
    (m.mwt x reduce e o par right d) ((m.ren φ.f).mwt x reduce e o par (right.ren φ.f) d)) ?_ ?_ ?_ this depth right
  · intro s d right
    cases right with
    | S r => exact s.mwt_ren reduce x h r d
    | L r => exact r.twmS_ren reduce x.flip h.flip s d
    | C a b v z =>
      have := (ANode.C a b v z).twmS_ren x.flip reduce e h.flip par s d
      rw [ANode.ren_C] at this ⊢
      exact this
  · intro l d right
    cases right with
    | S r => exact l.mwtS_ren reduce x h r d
    | L r => exact r.twmL_ren reduce x.flip h.flip l d
    | C a b v z =>
      have := (ANode.C a b v z).twmL_ren x.flip reduce e h.flip par l d
      rw [ANode.ren_C] at this ⊢
      exact this
  · intro a bits vs extra d ih right
    have hS := fun r => (ANode.C a bits vs extra).mwtS_ren x reduce e h r d
    have hL := fun r => (ANode.C a bits vs extra).mwtL_ren x reduce e h r d
    unfold ANode.mwt
    rw [ANode.ren_C] at hS hL ⊢
    rw [ANode.fold, ANode.foldAll_eq, ANode.fold, ANode.foldAll_eq]
    cases right with
    | S r =>
      simp only [ANode.ren]
      unfold amwtC
      rw [ANode.map_fst', ANode.map_fst']
      exact hS r
    | L r =>
      simp only [ANode.ren]
      unfold amwtC
      rw [ANode.map_fst', ANode.map_fst']
      exact hL r
    | C a' b v z =>
      rw [ANode.ren_C]
      exact .endAl (abothLoop_ren ih (fun m => .map (m.transmuteE_ren reduce e h.left) fun r => XRes.renN_toT _ r)
        (fun m => m.transformE_ren reduce e h.right par)
        fun _ _ _ => TRes.aitemOpt_ren _ _ _ _) TRes.afinish_ren

end

section
variable [BEq K] (hash : K → BitVec c.w) {o : TwtOpsM Q A K V R} (h : o.Free φ) (par : Par)
include h

theorem ANode.twtS_ren (this : ANode c.n K V) (right : ASNode K V) (depth : Nat) :
    Prog.Ren φ (Is (JRes.renN φ.f)) (this.twtS reduce e hash o par right depth)
      ((this.ren φ.f).twtS reduce e hash o par (right.ren φ.f) depth) := by
  refine ANode.recDepth (motive := fun m d => Prog.Ren φ (Is (JRes.renN φ.f)) (m.twtS reduce e hash o par right d)
    ((m.ren φ.f).twtS reduce e hash o par (right.ren φ.f) d)) ?_ ?_ ?_ this depth
  · intro s d; exact s.twt_ren reduce hash h right d
  · intro l d; exact l.twtS_ren reduce hash h right d
  · intro a bits vs extra d ih
    unfold ANode.twtS
    rw [ANode.ren_C, ANode.fold, ANode.foldAll_eq, ANode.fold, ANode.foldAll_eq]
    exact .endAl (aflatLoop_ren ih (fun m => .map (m.transformE_ren reduce e h.left par) fun r => TRes.renN_jointL _ r)
      (.map (right.transformE_ren h.right) fun r => by rw [TRes.renN_S, TRes.renN_jointR])
      fun m? r => JRes.aitemOpt_ren _ m? (some (.S right)) _) JRes.afinish_ren

theorem ANode.twtL_ren (this : ANode c.n K V) (right : ALNode K V) (depth : Nat) :
    Prog.Ren φ (Is (JRes.renN φ.f)) (this.twtL reduce e hash o par right depth)
      ((this.ren φ.f).twtL reduce e hash o par (right.ren φ.f) depth) := by
  refine ANode.recDepth (motive := fun m d => Prog.Ren φ (Is (JRes.renN φ.f)) (m.twtL reduce e hash o par right d)
    ((m.ren φ.f).twtL reduce e hash o par (right.ren φ.f) d)) ?_ ?_ ?_ this depth
  · intro s d; exact .map (right.twtS_ren reduce hash h.flip s d) fun r => JRes.renN_flip _ r
  · intro l d; exact l.twtL_ren reduce hash h right d
  · intro a bits vs extra d ih
    unfold ANode.twtL at ih ⊢
    rw [ANode.ren_C, ANode.fold, ANode.foldAll_eq, ANode.fold, ANode.foldAll_eq]
    unfold atwtLC at ih ⊢
    rw [ALNode.ren_key] at ih ⊢
    exact .endAl (aflatLoop_ren ih (fun m => .map (m.transformE_ren reduce e h.left par) fun r => TRes.renN_jointL _ r)
      (.map (right.transformE_ren reduce h.right) fun r => by rw [TRes.renN_L, TRes.renN_jointR])
      fun m? r => JRes.aitemOpt_ren _ m? (some (.L right)) _) JRes.afinish_ren

omit [BEq K] h in
theorem TwtOpsM.shortcut_ren (f : Nat → Nat) (r : JRes (ANode c.n K V) R) (hs : o.shortcut = some r) :
    r.renN f = r := by
  unfold TwtOpsM.shortcut at hs
  split at hs <;> first | (injection hs with hs; subst hs; rfl) | cases hs

omit [BEq K] in
theorem atwtCC_ren {bits : BitVec c.n} {vs : List (ANode c.n K V)} {extra : Nat} {rbits : BitVec c.n}
    {rvs : List (ANode c.n K V)} {rextra : Nat}
    {g g' : ANode c.n K V → ANode c.n K V → Prog Q A (JRes (ANode c.n K V) R)}
    (ih : ∀ m ∈ vs, ∀ r, Prog.Ren φ (Is (JRes.renN φ.f)) (g m r) (g' (m.ren φ.f) (r.ren φ.f))) :
    Prog.Ren φ (Is (JRes.renN φ.f)) (atwtCC reduce e o par bits (vs.map fun m => (m, g m)) extra ⟨rbits, rvs, rextra⟩)
      (atwtCC reduce e o par bits ((vs.map (ANode.ren φ.f)).map fun m => (m, g' m)) extra
        ⟨rbits, rvs.map (ANode.ren φ.f), rextra⟩) := by
  unfold atwtCC
  cases hs : (o.shortcut : Option (JRes (ANode c.n K V) R)) with
  | some r => exact .pure (TwtOpsM.shortcut_ren _ r hs).symm
  | none =>
    exact .endAl (abothLoop_ren ih
      (fun m => .map (m.transformE_ren reduce e h.left par) fun r => TRes.renN_jointL _ r)
      (fun m => .map (m.transformE_ren reduce e h.right par) fun r => TRes.renN_jointR _ r)
      fun _ _ _ => JRes.aitemOpt_ren _ _ _ _) JRes.afinish_ren

theorem ANode.twt_ren (this right : ANode c.n K V) (depth : Nat) :
    Prog.Ren φ (Is (JRes.renN φ.f)) (this.twt reduce e hash o par right depth)
      ((this.ren φ.f).twt reduce e hash o par (right.ren φ.f) depth) := by
  refine ANode.recDepth (motive := fun m d => ∀ right : ANode c.n K V, Prog.Ren φ (Is (JRes.renN φ.f))
    (m.twt reduce e hash o par right d) ((m.ren φ.f).twt reduce e hash o par (right.ren φ.f) d)) ?_ ?_ ?_ this depth right
  · intro s d right
    cases right with
    | S r => exact s.twt_ren reduce hash h r d
    | L r => exact .map (r.twtS_ren reduce hash h.flip s d) fun r => JRes.renN_flip _ r
    | C a b v z =>
      have := (ANode.C a b v z).twtS_ren reduce e hash h.flip par s d
      rw [ANode.ren_C] at this ⊢
      exact .map this fun r => JRes.renN_flip _ r
  · intro l d right
    cases right with
    | S r => exact l.twtS_ren reduce hash h r d
    | L r => exact l.twtL_ren reduce hash h r d
    | C a b v z =>
      have := (ANode.C a b v z).twtL_ren reduce e hash h.flip par l d
      rw [ANode.ren_C] at this ⊢
      exact .map this fun r => JRes.renN_flip _ r
  · intro a bits vs extra d ih right
    have hS := fun r => (ANode.C a bits vs extra).twtS_ren reduce e hash h par r d
    have hL := fun r => (ANode.C a bits vs extra).twtL_ren reduce e hash h par r d
    unfold ANode.twt
    rw [ANode.ren_C] at hS hL ⊢
    rw [ANode.fold, ANode.foldAll_eq, ANode.fold, ANode.foldAll_eq]
    cases right with
    | S r =>
      simp only [ANode.ren]
      unfold atwtC
      rw [ANode.map_fst', ANode.map_fst']
      exact hS r
    | L r =>
      simp only [ANode.ren]
      unfold atwtC
      rw [ANode.map_fst', ANode.map_fst']
      exact hL r
    | C a' b v z =>
      rw [ANode.ren_C]
      exact atwtCC_ren reduce e h par ih

end

/-! ### Tries -/

/-- Other addresses in the result of a bulk or joint operation. -/
abbrev ATrie.renR (f : Nat → Nat) (p : ATrie c K V × R) : ATrie c K V × R := (p.1.ren f, p.2)

namespace ATrie

theorem emptied_ren (r : R) :
    Prog.Ren φ (Is (ATrie.renR φ.f)) (do let t' ← Prog.al (new c); pure (t', r) : Prog Q A (ATrie c K V × R))
      (do let t' ← Prog.al (new c); pure (t', r)) := .map (.al ATrie.new_ren) fun _ => rfl

theorem transformE_ren {op : MapTransform R (K → V → Prog Q A (MapTransformResult V R))} (h : op.Free φ) (par : Par)
    (t : ATrie c K V) :
    Prog.Ren φ (Is (ATrie.renR φ.f)) (t.transformE reduce e op par) ((t.ren φ.f).transformE reduce e op par) := by
  refine .then' (t.root.transformE_ren reduce e h par) fun r => ?_
  cases r <;> first | exact .pure rfl | exact emptied_ren _

theorem transmuteE_ren {op : MapTransmute R (K → V → Prog Q A (MapTransmuteResult S X R))} (h : op.Free φ)
    (t : ATrie c K V) :
    Prog.Ren φ (Is (ATrie.renR φ.f)) (t.transmuteE reduce e op) ((t.ren φ.f).transmuteE reduce e op) := by
  refine .then' (t.root.transmuteE_ren reduce e h) fun r => ?_
  cases r <;> first | exact .pure rfl | exact emptied_ren _

theorem twmE_ren {o : TwmOpsM Q A K V L W R} (h : o.Free φ) (par : Par) (t : ATrie c K V) (u : ATrie c L W) :
    Prog.Ren φ (Is (ATrie.renR φ.f)) (twmE x reduce e o par t u) (twmE x reduce e o par (t.ren φ.f) (u.ren φ.f)) := by
  refine .then' (t.root.twm_ren x reduce e h par u.root 0) fun r => ?_
  cases r <;> first | exact .pure rfl | exact emptied_ren _

theorem mwtE_ren {o : MwtOpsM Q A K V L W R} (h : o.Free φ) (par : Par) (t : ATrie c K V) (u : ATrie c L W) :
    Prog.Ren φ (Is (ATrie.renR φ.f)) (mwtE x reduce e o par t u) (mwtE x reduce e o par (t.ren φ.f) (u.ren φ.f)) := by
  refine .then' (t.root.mwt_ren x reduce e h par u.root 0) fun r => ?_
  cases r <;> first | exact .pure rfl | exact emptied_ren _

theorem mwmE_ren {o : MwmOpsM Q A K V L W S X R} (h : o.Free φ) (t : ATrie c K V) (u : ATrie c L W) :
    Prog.Ren φ (Is (ATrie.renR φ.f)) (mwmE x reduce e o t u) (mwmE x reduce e o (t.ren φ.f) (u.ren φ.f)) := by
  refine .then' (t.root.mwm_ren x reduce e h u.root 0) fun r => ?_
  cases r <;> first | exact .pure rfl | exact emptied_ren _

theorem twtE_ren [BEq K] (hash : K → BitVec c.w) {o : TwtOpsM Q A K V R} (h : o.Free φ) (par : Par) (t u : ATrie c K V) :
    Prog.Ren φ (Is (ATrie.renR φ.f)) (twtE reduce e hash o par t u)
      (twtE reduce e hash o par (t.ren φ.f) (u.ren φ.f)) := by
  refine .then' (t.root.twt_ren reduce e hash h par u.root 0) fun r => ?_
  cases r <;> first | exact .pure rfl | exact emptied_ren _

end ATrie
end HT
