import Verif.StayList
import Verif.ChaosBase
/-! # Where the objects of the results of the loops over a branch node's slots come from -/
namespace HT

variable {K V L W S X R : Type} {n : Nat} {Q : Type} {A : Q → Type} {G : (q : Q) → A q → Prop}

/-- The node of the item is `F`; `left`, `right` if it lets the operand stay. -/
def AItem.Fine (F : ANode n K V → Prop) (left right : Prop) : AItem n K V R → Prop
  | .skip => left ∧ right
  | .put m _ kl kr => F m ∧ (kl = true → left) ∧ (kr = true → right)
  | .drop _ kl kr => (kl = true → left) ∧ (kr = true → right)

/-- The values are `F`; the slots looked at are `PL`, `PR` if the operand stays. -/
structure AAcc.Fine (F : ANode n K V → Prop) (PL PR : Nat → Prop) (is : List Nat) (a : AAcc n K V R) : Prop where
  values : ∀ m ∈ a.values, F m
  left : a.ul = true → ∀ i ∈ is, PL i
  right : a.ur = true → ∀ i ∈ is, PR i

variable {F : ANode n K V → Prop} {PL PR : Nat → Prop}

theorem AAcc.step_gives (reduce : R → R → R) {is : List Nat} {a : AAcc n K V R} (h : a.Fine F PL PR is) (i : Nat)
    {it : AItem n K V R} (hi : it.Fine F (PL i) (PR i)) :
    ∀ a', a.step reduce i it = .ok a' → a'.Fine F PL PR (is ++ [i]) := by
  intro a' ha
  have ext : ∀ {P : Nat → Prop}, (∀ j ∈ is, P j) → P i → ∀ j ∈ is ++ [i], P j := by
    intro P h1 h2 j hj
    rcases List.mem_append.1 hj with hj | hj
    · exact h1 j hj
    · cases List.mem_singleton.1 hj; exact h2
  cases it with
  | skip => cases ha; exact ⟨h.values, fun hu => ext (h.left hu) hi.1, fun hu => ext (h.right hu) hi.2⟩
  | drop r kl kr =>
    cases ha
    refine ⟨h.values, fun hu => ?_, fun hu => ?_⟩
    · have hu : (a.ul && kl) = true := hu
      rw [Bool.and_eq_true] at hu
      exact ext (h.left hu.1) (hi.1 hu.2)
    · have hu : (a.ur && kr) = true := hu
      rw [Bool.and_eq_true] at hu
      exact ext (h.right hu.1) (hi.2 hu.2)
  | put m r kl kr =>
    obtain ⟨b1, _, ha⟩ := Res.bind_eq_ok.1 ha
    obtain ⟨b2, _, ha⟩ := Res.bind_eq_ok.1 ha
    cases ha
    refine ⟨fun m' hm' => ?_, fun hu => ?_, fun hu => ?_⟩
    · rcases List.mem_append.1 hm' with hm' | hm'
      · exact h.values m' hm'
      · cases List.mem_singleton.1 hm'; exact hi.1
    · have hu : (a.ul && kl) = true := hu
      rw [Bool.and_eq_true] at hu
      exact ext (h.left hu.1) (hi.2.1 hu.2)
    · have hu : (a.ur && kr) = true := hu
      rw [Bool.and_eq_true] at hu
      exact ext (h.right hu.1) (hi.2.2 hu.2)

theorem AAcc.loopE_gives (reduce : R → R → R) {item : Nat → Prog Q A (AItem n K V R)}
    (hitem : ∀ i, (item i).Gives G (AItem.Fine F (PL i) (PR i))) (is : List Nat) :
    ∀ (js : List Nat) (a : AAcc n K V R), a.Fine F PL PR js →
      (AAcc.loopE reduce item is a).Gives G (AAcc.Fine F PL PR (js ++ is)) := by
  induction is with
  | nil => intro js a h; rw [List.append_nil]; exact Prog.Gives.pure h
  | cons i is ih =>
    intro js a h
    refine Prog.Gives.bind (hitem i) fun it hit => Prog.Gives.bindRes fun a' ha => ?_
    have := ih (js ++ [i]) a' (AAcc.step_gives reduce h i hit a' ha)
    rwa [List.append_assoc] at this

theorem AAcc.Fine.init (e : R) : (AAcc.init e : AAcc n K V R).Fine F PL PR [] :=
  ⟨(fun m hm => by cases hm), (fun _ i hi => by cases hi), (fun _ i hi => by cases hi)⟩

theorem AAcc.gatherE_gives (reduce : R → R → R) (e : R) (par : Par) {item : Nat → Prog Q A (AItem n K V R)}
    (hitem : ∀ i, (item i).Gives G (AItem.Fine F (PL i) (PR i))) :
    (AAcc.gatherE reduce e par item).Gives G (AAcc.Fine F PL PR (List.range' 0 n)) := by
  cases par with
  | sequential => exact AAcc.loopE_gives reduce hitem _ [] _ (.init e)
  | middleIndex =>
    refine Prog.Gives.bind (AAcc.loopE_gives reduce hitem _ [] _ (.init e)) fun l hl => ?_
    refine Prog.Gives.bind (AAcc.loopE_gives reduce hitem _ [] _ (.init e)) fun r hr => Prog.Gives.res fun a ha => ?_
    obtain ⟨b, _, ha⟩ := Res.bind_eq_ok.1 ha
    cases ha
    have split : ∀ {P : Nat → Prop}, (∀ j ∈ [] ++ List.range' 0 (n / 2), P j) →
        (∀ j ∈ [] ++ List.range' (n / 2) (n - n / 2), P j) → ∀ j ∈ List.range' 0 n, P j := by
      intro P h1 h2 j hj
      simp only [List.nil_append, List.mem_range'_1] at h1 h2 hj
      by_cases h : j < n / 2
      · exact h1 j (by omega)
      · exact h2 j (by omega)
    refine ⟨fun m hm => ?_, fun hu => ?_, fun hu => ?_⟩
    · rcases List.mem_append.1 hm with hm | hm
      · exact hl.values m hm
      · exact hr.values m hm
    · have hu : (l.ul && r.ul) = true := hu
      rw [Bool.and_eq_true] at hu
      exact split (hl.left hu.1) (hr.left hu.2)
    · have hu : (l.ur && r.ur) = true := hu
      rw [Bool.and_eq_true] at hu
      exact split (hl.right hu.1) (hr.right hu.2)

/-! ### The nodes made of what was gathered -/

variable {T : K → Prop} {U : ANode n K V → Prop}

theorem AAcc.pack_gives {a : AAcc n K V R} (h : ∀ m ∈ a.values, ANode.Fine T U m) :
    a.pack.Gives fun o => ∀ m ∈ o, ANode.Fine T U m := by
  have hb : a.branch.Gives fun o => ∀ m ∈ o, ANode.Fine T U m := by
    refine Al.Gives.bindLift fun e he => Al.Gives.bindLift fun b hb => ?_
    refine Al.Gives.bindC (T := T) (U := U) (fun m hm => h m (Bia.ofVec_mem he hb m hm)) fun m hm => Al.Gives.pure ?_
    intro m' hm'; cases hm'; exact hm
  unfold AAcc.pack
  split
  · exact Al.Gives.pure fun m hm => by cases hm
  · rename_i l hl
    exact Al.Gives.pure fun m hm => by cases hm; exact h _ (hl ▸ List.mem_singleton.2 rfl)
  · rename_i l hl
    exact Al.Gives.pure fun m hm => by cases hm; exact h _ (hl ▸ List.mem_singleton.2 rfl)
  · exact hb

theorem TRes.afinish_gives {a : AAcc n K V R} {is : List Nat} (h : a.Fine (ANode.Fine T U) PL PR is) {this : Prop}
    (ht : (∀ i ∈ is, PL i) → this) : (TRes.afinish a).Gives (TRes.Fine (ANode.Fine T U) this) := by
  unfold TRes.afinish
  refine Al.Gives.ite (fun hu => Al.Gives.pure (ht (h.left hu))) fun _ => ?_
  refine Al.Gives.bind (AAcc.pack_gives h.values) fun o ho => Al.Gives.pure ?_
  cases o with
  | none => trivial
  | some m => exact ho m rfl

theorem XRes.afinish_gives {a : AAcc n K V R} {is : List Nat} (h : a.Fine (ANode.Fine T U) PL PR is) :
    (XRes.afinish a).Gives (XRes.Fine (ANode.Fine T U)) := by
  refine Al.Gives.bind (AAcc.pack_gives h.values) fun o ho => Al.Gives.pure ?_
  cases o with
  | none => trivial
  | some m => exact ho m rfl

theorem XRes.afinishAssert_gives {a : AAcc n K V R} {is : List Nat} (h : a.Fine (ANode.Fine T U) PL PR is) :
    (XRes.afinishAssert a).Gives (XRes.Fine (ANode.Fine T U)) := by
  unfold XRes.afinishAssert
  exact Al.Gives.ite (fun _ => Al.Gives.lift fun a ha => by cases ha) fun _ => XRes.afinish_gives h

theorem JRes.afinish_gives {a : AAcc n K V R} {is : List Nat} (h : a.Fine (ANode.Fine T U) PL PR is) {left right : Prop}
    (hl : (∀ i ∈ is, PL i) → left) (hr : (∀ i ∈ is, PR i) → right) :
    (JRes.afinish a).Gives (JRes.Fine (ANode.Fine T U) left right) := by
  unfold JRes.afinish
  refine Al.Gives.ite (fun hu => ?_) fun _ => Al.Gives.ite (fun hu => ?_) fun _ => ?_
  · exact Al.Gives.ite (fun hu' => Al.Gives.pure ⟨hl (h.left hu), hr (h.right hu')⟩) fun _ => Al.Gives.pure (hl (h.left hu))
  · exact Al.Gives.pure (hr (h.right hu))
  · refine Al.Gives.bind (AAcc.pack_gives h.values) fun o ho => Al.Gives.pure ?_
    cases o with
    | none => trivial
    | some m => exact ho m rfl

/-! ### A branch node against a list or single node -/

theorem AItem.Fine.imp {it : AItem n K V R} {left right left' right' : Prop} (h : it.Fine F left right) (hl : left → left')
    (hr : right → right') : it.Fine F left' right' := by
  cases it with
  | skip => exact ⟨hl h.1, hr h.2⟩
  | put m r kl kr => exact ⟨h.1, fun k => hl (h.2.1 k), fun k => hr (h.2.2 k)⟩
  | drop r kl kr => exact ⟨fun k => hl (h.1 k), fun k => hr (h.2 k)⟩

theorem flagOf_bit {c : Cfg} {h : BitVec c.w} {d : Nat} {f : Flag c} (hf : flagOf (c := c) h d = .ok f) :
    ∃ i < c.n, f.flag = bitAt c.n i := by
  unfold flagOf at hf
  by_cases hd : HasFlags c d
  · rw [Flag.newAtDepth_deep h hd] at hf
    have hf : flagDeep h d = f := by injection hf
    subst hf
    exact ⟨wrapped c h d, wrapped_lt .., rfl⟩
  · rcases Flag.newAtDepth_shallow h hd with h' | ⟨_, h'⟩ <;> rw [h'] at hf <;> cases hf

theorem aflatLoop_gives {c : Cfg} {F : ANode c.n S X → Prop} {ρ : Type} (reduce : R → R → R) (e : R) {rightHash : BitVec c.w} (depth : Nat)
    (bits : BitVec c.n) (extra : Nat) (vs : List (ANode c.n K V))
    {run : ANode c.n K V → Prog Q A ρ} {elsewhere : ANode c.n K V → Prog Q A ρ} {alone : Prog Q A ρ}
    {item : Option (ANode c.n K V) → ρ → Res (AItem c.n S X R)} (lp : ANode c.n K V → Prop) (rp : Prop)
    (hrun : ∀ m ∈ vs, (run m).Gives G fun r => ∀ it, item (some m) r = .ok it → it.Fine F (lp m) rp)
    (helse : ∀ m ∈ vs, (elsewhere m).Gives G fun r => ∀ it, item (some m) r = .ok it → it.Fine F (lp m) True)
    (halone : alone.Gives G fun r => ∀ it, item none r = .ok it → it.Fine F True rp) :
    (aflatLoop reduce e rightHash depth ⟨bits, vs.map fun m => (m, run m), extra⟩ elsewhere alone item).Gives G
      fun a => ∃ i < c.n, a.Fine F (fun i => ∀ m, (Bia.mk bits vs extra).atBitIndex i = .ok (.ok m) → lp m)
        (fun j => j = i → rp) (List.range' 0 c.n) := by
  unfold aflatLoop
  refine Prog.Gives.bindRes fun flag hf => ?_
  obtain ⟨i0, hi0, hbit⟩ : ∃ i < c.n, flag.flag = bitAt c.n i := flagOf_bit hf
  refine (AAcc.gatherE_gives (PL := fun i => ∀ m, (Bia.mk bits vs extra).atBitIndex i = .ok (.ok m) → lp m)
    (PR := fun j => j = i0 → rp) (F := F) reduce e .sequential fun i => ?_).mono fun a ha => ⟨i0, hi0, ha⟩
  rw [Bia.atBitIndex_mapped]
  cases hat : (Bia.mk bits vs extra).atBitIndex i with
  | panic p => exact fun s => trivial
  | diverge => exact fun s => trivial
  | ok child =>
    show Prog.Gives G (aflatItem _ _ _ _ _ _ _) _
    unfold aflatItem
    refine Prog.Gives.bindRes fun bit hb => ?_
    have hne : flag.flag ≠ bit → i ≠ i0 := by
      rintro h rfl
      rw [nthBit_ok hi0] at hb
      injection hb with hb
      exact h (hbit.trans hb)
    cases child with
    | error err =>
      refine Prog.Gives.ite (fun hfb => ?_) (fun hfb => Prog.Gives.pure ⟨(fun m hm => by cases hm), fun h => absurd h (hne hfb)⟩)
      refine Prog.Gives.bind halone fun r hr => Prog.Gives.res fun it hit => ?_
      exact (hr it hit).imp (fun _ m hm => by cases hm) fun h _ => h
    | ok m =>
      have hm := Bia.atBitIndex_mem hat
      refine Prog.Gives.ite (fun hfb => ?_) (fun hfb => ?_)
      · refine Prog.Gives.bind (hrun m hm) fun r hr => Prog.Gives.res fun it hit => ?_
        exact (hr it hit).imp (fun h m hm => by cases hm; exact h) fun h _ => h
      · refine Prog.Gives.bind (helse m hm) fun r hr => Prog.Gives.res fun it hit => ?_
        exact (hr it hit).imp (fun h m hm => by cases hm; exact h) fun _ h => absurd h (hne hfb)

/-! ### Two branch nodes -/

theorem abothLoop_gives {F : ANode n S X → Prop} {ρ : Type} (reduce : R → R → R) (e : R) (par : Par)
    (bits : BitVec n) (extra : Nat) (vs : List (ANode n K V)) (bits2 : BitVec n) (extra2 : Nat) (rs : List (ANode n L W))
    {run : ANode n K V → ANode n L W → Prog Q A ρ} {onlyL : ANode n K V → Prog Q A ρ} {onlyR : ANode n L W → Prog Q A ρ}
    {item : Option (ANode n K V) → Option (ANode n L W) → ρ → Res (AItem n S X R)}
    (lp : ANode n K V → Prop) (rp : ANode n L W → Prop)
    (hrun : ∀ m ∈ vs, ∀ r ∈ rs, (run m r).Gives G fun a => ∀ it, item (some m) (some r) a = .ok it → it.Fine F (lp m) (rp r))
    (hL : ∀ m ∈ vs, (onlyL m).Gives G fun a => ∀ it, item (some m) none a = .ok it → it.Fine F (lp m) True)
    (hR : ∀ r ∈ rs, (onlyR r).Gives G fun a => ∀ it, item none (some r) a = .ok it → it.Fine F True (rp r)) :
    (abothLoop reduce e par ⟨bits, vs.map fun m => (m, run m), extra⟩ ⟨bits2, rs, extra2⟩ onlyL onlyR item).Gives G
      (AAcc.Fine F (fun i => ∀ m, (Bia.mk bits vs extra).atBitIndex i = .ok (.ok m) → lp m)
        (fun i => ∀ r, (Bia.mk bits2 rs extra2).atBitIndex i = .ok (.ok r) → rp r) (List.range' 0 n)) := by
  unfold abothLoop
  refine AAcc.gatherE_gives reduce e par fun i => ?_
  rw [Bia.atBitIndex_mapped]
  cases hat : (Bia.mk bits vs extra).atBitIndex i with
  | panic p => exact fun s => trivial
  | diverge => exact fun s => trivial
  | ok child =>
    cases hat2 : (Bia.mk bits2 rs extra2).atBitIndex i with
    | panic p => exact fun s => trivial
    | diverge => exact fun s => trivial
    | ok rchild =>
      show Prog.Gives G (abothItem _ _ _ _ _ _) _
      unfold abothItem
      cases child with
      | error err =>
        cases rchild with
        | error err2 => exact Prog.Gives.pure ⟨(fun m hm => by cases hm), (fun m hm => by cases hm)⟩
        | ok r =>
          refine Prog.Gives.bind (hR r (Bia.atBitIndex_mem hat2)) fun a ha => Prog.Gives.res fun it hit => ?_
          exact (ha it hit).imp (fun _ m hm => by cases hm) (fun h m hm => by cases hm; exact h)
      | ok m =>
        have hm := Bia.atBitIndex_mem hat
        cases rchild with
        | error err2 =>
          refine Prog.Gives.bind (hL m hm) fun a ha => Prog.Gives.res fun it hit => ?_
          exact (ha it hit).imp (fun h m hm => by cases hm; exact h) (fun _ m hm => by cases hm)
        | ok r =>
          refine Prog.Gives.bind (hrun m hm r (Bia.atBitIndex_mem hat2)) fun a ha => Prog.Gives.res fun it hit => ?_
          exact (ha it hit).imp (fun h m hm => by cases hm; exact h) (fun h m hm => by cases hm; exact h)

/-- Every child of a branch is in one of its slots. -/
theorem Bia.exists_atBitIndex {Y : Type} {a : Bia n Y} (h : a.Ok) {m : Y} (hm : m ∈ a.values) :
    ∃ i ∈ List.range' 0 n, a.atBitIndex i = .ok (.ok m) := by
  rw [Bia.values_eq a h] at hm
  obtain ⟨i, hi, hs⟩ := List.mem_filterMap.1 hm
  refine ⟨i, by simpa using hi, ?_⟩
  rw [Bia.atBitIndex_eq a h, hs]

end HT
