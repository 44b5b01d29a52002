import Verif.ThreadLemmas
/-! # Threads do not influence each other, and the allocator influences none -/
namespace HT

variable {Thread Var K V R St : Type} {c : Cfg} [BEq K] [DecidableEq Var] [DecidableEq Thread] {hash : K → BitVec c.w}
  {owner : Var → Option Thread}

/-- The thread may read the variable. -/
def Sees (owner : Var → Option Thread) (i : Thread) (x : Var) : Prop := owner x = none ∨ owner x = some i

/-- Two worlds look the same to thread `i`: the maps it may read are the same up to the addresses `π`. -/
structure Looks (owner : Var → Option Thread) (i : Thread) (π : Nat → Nat) (w w' : World c Thread Var K V R St) : Prop where
  told : w.told i = w'.told i
  maps : ∀ x, Sees owner i x → w'.store x = (w.store x).map (ATrie.ren π)
  inj : ∀ x y t u a b, Sees owner i x → Sees owner i y → w.store x = some t → w.store y = some u → a ∈ t.addrs →
    b ∈ u.addrs → π a = π b → a = b

omit [BEq K] [DecidableEq Thread] in
theorem Store.after_other {σ : Store c Var K V} {p : TEffect c Var K V} {y : Var} (h : ∀ x t, p = some (x, t) → x ≠ y) :
    σ.after p y = σ y := by
  unfold Store.after
  split
  · rfl
  · rename_i x t
    show (if y = x then t else σ y) = σ y
    rw [if_neg fun e => h x t rfl e.symm]

omit [BEq K] [DecidableEq Thread] in
theorem Store.after_same {σ : Store c Var K V} {x : Var} {t : Option (ATrie c K V)} : σ.after (some (x, t)) x = t := by
  simp [Store.after]

/-- A step of another thread changes nothing a thread sees. -/
theorem Step.other {code : Thread → Code Var K V R St} {i j : Thread} (hij : j ≠ i) {w w' : World c Thread Var K V R St}
    (h : Step hash owner code j w w') : w'.told i = w.told i ∧ ∀ x, Sees owner i x → w'.store x = w.store x := by
  cases h with
  | step call s g hc hal hlt hp =>
    refine ⟨if_neg fun e => hij e.symm, fun x hx => Store.after_other ?_⟩
    intro y t e he
    subst he
    unfold TEffect.ren at e
    cases hq : (call.eval hash w.store s).2 with
    | none => rw [hq] at e; cases e
    | some q =>
      rw [hq] at e
      injection e with e
      injection e with e1 e2
      have := hal.2 y (e1 ▸ call.eval_writes hash w.store s (t := q.2) hq)
      rcases hx with hx | hx
      · rw [hx] at this; cases this
      · rw [hx] at this; injection this with this; exact hij this.symm

/-- A step of a thread in two worlds that look the same to it leads to worlds that look the same to it. -/
theorem Looks.step {code code' : Thread → Code Var K V R St} {i : Thread} (hcode : code i = code' i)
    {w₁ w₂ w₁' w₂' : World c Thread Var K V R St} {π : Nat → Nat} (h : Looks owner i π w₁ w₂)
    (h₁ : Step hash owner code i w₁ w₁') (h₂ : Step hash owner code' i w₂ w₂') :
    ∃ π', Looks owner i π' w₁' w₂' := by
  classical
  cases h₁ with
  | step call s₁ g₁ hc₁ hal₁ hlt₁ hp₁ =>
  cases h₂ with
  | step call' s₂ g₂ hc₂ hal₂ hlt₂ hp₂ =>
  have : call' = call := by
    rw [← hcode, ← h.told, hc₁] at hc₂
    injection hc₂ with hc₂
    exact hc₂.symm
  subst this
  have reads : ∀ x ∈ call'.reads, Sees owner i x := hal₁.1
  -- the second run is the first with other addresses
  let φ : Shift := ⟨fun a => if a < s₁ then π a else s₂ + (a - s₁), s₁, by
    intro s hs
    rw [if_neg (by omega), if_neg (by omega)]; omega⟩
  have φlt : ∀ a, a < s₁ → φ.f a = π a := fun a ha => if_pos ha
  have φge : ∀ a, s₁ ≤ a → φ.f a = s₂ + (a - s₁) := fun a ha => if_neg (by omega)
  have hs : φ.f s₁ = s₂ := by rw [φge s₁ (Nat.le_refl _)]; omega
  have hread : ∀ x ∈ call'.reads, w₂.store x = w₁.store.ren φ.f x := by
    intro x hx
    rw [h.maps x (reads x hx)]
    unfold Store.ren
    cases ht : w₁.store x with
    | none => rfl
    | some t => exact congrArg some (ATrie.ren_congr.2 fun a ha => (φlt a (hlt₁ x hx t ht a ha)).symm)
  have key := call'.eval_ren φ hash w₁.store (Nat.le_refl s₁) (by
    intro x hx y hy t u ht hu a ha b hb e
    rw [φlt a (hlt₁ x hx t ht a ha), φlt b (hlt₁ y hy u hu b hb)] at e
    exact h.inj x y t u a b (reads x hx) (reads y hy) ht hu ha hb e)
  rw [hs, ← call'.eval_congr hash s₂ hread] at key
  have old₁ := fun a => @TCall.eval_old Var K V R St c _ hash call' w₁.store s₁ a
  -- old addresses of the result
  have oldφ : ∀ a, a < s₁ → (call'.eval hash w₁.store s₁).2.Has a → φ.f a < s₂ ∧ g₂ (φ.f a) = π a := by
    intro a ha hh
    obtain ⟨x, hx, t, ht, hat⟩ := old₁ a ha hh
    have : φ.f a < s₂ := by
      refine hlt₂ x hx (t.ren π) ?_ _ ?_
      · rw [h.maps x (reads x hx), ht]; rfl
      · rw [ATrie.addrs_ren, φlt a ha]; exact List.mem_map_of_mem hat
    exact ⟨this, (hp₂.old _ this).trans (φlt a ha)⟩
  have newφ : ∀ a, s₁ ≤ a → s₂ ≤ φ.f a := fun a ha => by rw [φge a ha]; omega
  generalize hE₁ : call'.eval hash w₁.store s₁ = E₁ at *
  generalize hE₂ : call'.eval hash w₂.store s₂ = E₂ at *
  have hasφ : ∀ a, E₁.2.Has a → E₂.2.Has (φ.f a) := by
    rintro a ⟨x, t, hxt, ha⟩
    refine ⟨x, t.ren φ.f, ?_, ?_⟩
    · rw [key]; show TEffect.ren φ.f E₁.2 = _; rw [hxt]; rfl
    · rw [ATrie.addrs_ren]; exact List.mem_map_of_mem ha
  let IsNew (a b : Nat) : Prop := E₁.2.Has b ∧ s₁ ≤ b ∧ g₁ b = a
  let π' : Nat → Nat := fun a => if hb : ∃ b, IsNew a b then g₂ (φ.f hb.choose) else π a
  have π'new : ∀ b, E₁.2.Has b → s₁ ≤ b → π' (g₁ b) = g₂ (φ.f b) := by
    intro b hb hsb
    have hex : ∃ d, IsNew (g₁ b) d := ⟨b, hb, hsb, rfl⟩
    have : hex.choose = b := hp₁.inj _ _ hex.choose_spec.2.1 hsb hex.choose_spec.1 hb hex.choose_spec.2.2
    show (if hb : ∃ d, IsNew (g₁ b) d then g₂ (φ.f hb.choose) else π (g₁ b)) = _
    rw [dif_pos hex, this]
  have π'used : ∀ a, w₁.store.Used a → π' a = π a := by
    intro a ha
    have : ¬ ∃ b, IsNew a b := by
      rintro ⟨b, hb, hsb, e⟩
      exact hp₁.new b hsb hb (e ▸ ha)
    exact dif_neg this
  have π'res : ∀ b, E₁.2.Has b → π' (g₁ b) = g₂ (φ.f b) := by
    intro b hb
    by_cases hsb : s₁ ≤ b
    · exact π'new b hb hsb
    · have hsb : b < s₁ := by omega
      rw [hp₁.old b hsb, (oldφ b hsb hb).2]
      obtain ⟨x, _, t, ht, hbt⟩ := old₁ b hsb hb
      exact π'used b ⟨x, t, ht, hbt⟩
  -- every address seen afterwards is one seen before or a new one of the result
  have from₁ : ∀ x t a, Sees owner i x → w₁.store.after (E₁.2.ren g₁) x = some t → a ∈ t.addrs →
      (∃ y u, Sees owner i y ∧ w₁.store y = some u ∧ a ∈ u.addrs) ∨ ∃ b, IsNew a b := by
    intro x t a hx ht ha
    cases hq : E₁.2 with
    | none => rw [hq] at ht; exact .inl ⟨x, t, hx, ht, ha⟩
    | some q =>
      obtain ⟨y, u⟩ := q
      rw [hq] at ht
      by_cases e : x = y
      · subst e
        have ht : u.map (ATrie.ren g₁) = some t := by rw [← ht]; exact Store.after_same.symm
        cases u with
        | none => cases ht
        | some u =>
          injection ht with ht
          rw [← ht, ATrie.addrs_ren] at ha
          obtain ⟨b, hb, rfl⟩ := List.mem_map.1 ha
          have hb : E₁.2.Has b := ⟨x, u, hq, hb⟩
          by_cases hsb : s₁ ≤ b
          · exact .inr ⟨b, hb, hsb, rfl⟩
          · have hsb : b < s₁ := by omega
            obtain ⟨z, hz, v, hv, hbv⟩ := old₁ b hsb hb
            exact .inl ⟨z, v, reads z hz, hv, by rw [hp₁.old b hsb]; exact hbv⟩
      · have : w₁.store.after (TEffect.ren g₁ (some (y, u))) x = w₁.store x := Store.after_other (by
          intro z v hz
          injection hz with hz
          injection hz with hz
          exact fun e' => e (by rw [← e', ← hz]))
        rw [this] at ht
        exact .inl ⟨x, t, hx, ht, ha⟩
  have used₂ : ∀ y u a, Sees owner i y → w₁.store y = some u → a ∈ u.addrs → w₂.store.Used (π a) := by
    intro y u a hy hu ha
    refine ⟨y, u.ren π, by rw [h.maps y hy, hu]; rfl, ?_⟩
    rw [ATrie.addrs_ren]; exact List.mem_map_of_mem ha
  refine ⟨π', ?_, ?_, ?_⟩
  · show (if i = i then w₁.told i ++ [E₁.1] else w₁.told i) = if i = i then w₂.told i ++ [E₂.1] else w₂.told i
    rw [if_pos rfl, if_pos rfl, h.told, key]
  · intro x hx
    show w₂.store.after (E₂.2.ren g₂) x = (w₁.store.after (E₁.2.ren g₁) x).map (ATrie.ren π')
    have stay : w₂.store x = (w₁.store x).map (ATrie.ren π') := by
      rw [h.maps x hx]
      cases ht : w₁.store x with
      | none => rfl
      | some t => exact congrArg some (ATrie.ren_congr.2 fun a ha => (π'used a ⟨x, t, ht, ha⟩).symm)
    rw [key]
    cases hq : E₁.2 with
    | none => exact stay
    | some q =>
      obtain ⟨y, u⟩ := q
      by_cases e : x = y
      · subst e
        have e1 : w₂.store.after (TEffect.ren g₂ (TEffect.ren φ.f (some (x, u)))) x =
            (u.map (ATrie.ren φ.f)).map (ATrie.ren g₂) := Store.after_same
        have e2 : w₁.store.after (TEffect.ren g₁ (some (x, u))) x = u.map (ATrie.ren g₁) := Store.after_same
        show w₂.store.after (TEffect.ren g₂ (TEffect.ren φ.f (some (x, u)))) x = _
        rw [e1, e2]
        cases u with
        | none => rfl
        | some u =>
          simp only [Option.map_some, ATrie.ren_ren]
          exact congrArg some (ATrie.ren_congr.2 fun a ha => (π'res a ⟨x, u, hq, ha⟩).symm)
      · have e1 : w₂.store.after (TEffect.ren g₂ (TEffect.ren φ.f (some (y, u)))) x = w₂.store x := Store.after_other (by
          intro z v hz
          injection hz with hz
          injection hz with hz
          exact fun e' => e (by rw [← e', ← hz]))
        have e2 : w₁.store.after (TEffect.ren g₁ (some (y, u))) x = w₁.store x := Store.after_other (by
          intro z v hz
          injection hz with hz
          injection hz with hz
          exact fun e' => e (by rw [← e', ← hz]))
        show w₂.store.after (TEffect.ren g₂ (TEffect.ren φ.f (some (y, u)))) x = _
        rw [e1, e2]
        exact stay
  · intro x y t u a b hx hy ht hu ha hb e
    rcases from₁ x t a hx ht ha with ⟨x', t', hx', ht', ha'⟩ | ⟨a', ha'⟩ <;>
      rcases from₁ y u b hy hu hb with ⟨y', u', hy', hu', hb'⟩ | ⟨b', hb'⟩
    · rw [π'used a ⟨x', t', ht', ha'⟩, π'used b ⟨y', u', hu', hb'⟩] at e
      exact h.inj x' y' t' u' a b hx' hy' ht' hu' ha' hb' e
    · obtain ⟨hb1, hb2, rfl⟩ := hb'
      rw [π'used a ⟨x', t', ht', ha'⟩, π'new b' hb1 hb2] at e
      exact (hp₂.new _ (newφ b' hb2) (hasφ b' hb1) (e ▸ used₂ x' t' a hx' ht' ha')).elim
    · obtain ⟨ha1, ha2, rfl⟩ := ha'
      rw [π'used b ⟨y', u', hu', hb'⟩, π'new a' ha1 ha2] at e
      exact (hp₂.new _ (newφ a' ha2) (hasφ a' ha1) (e ▸ used₂ y' u' b hy' hu' hb')).elim
    · obtain ⟨ha1, ha2, rfl⟩ := ha'
      obtain ⟨hb1, hb2, rfl⟩ := hb'
      rw [π'new a' ha1 ha2, π'new b' hb1 hb2] at e
      have := hp₂.inj _ _ (newφ a' ha2) (newφ b' hb2) (hasφ a' ha1) (hasφ b' hb1) e
      rw [φge a' ha2, φge b' hb2] at this
      have : a' = b' := by omega
      rw [this]

theorem Looks.other₁ {i : Thread} {w₁ w₂ w₁' : World c Thread Var K V R St} {π : Nat → Nat} (h : Looks owner i π w₁ w₂)
    (hs : w₁'.told i = w₁.told i ∧ ∀ x, Sees owner i x → w₁'.store x = w₁.store x) : Looks owner i π w₁' w₂ where
  told := hs.1.trans h.told
  maps x hx := by rw [hs.2 x hx]; exact h.maps x hx
  inj x y t u a b hx hy ht hu := by
    rw [hs.2 x hx] at ht
    rw [hs.2 y hy] at hu
    exact h.inj x y t u a b hx hy ht hu

theorem Looks.other₂ {i : Thread} {w₁ w₂ w₂' : World c Thread Var K V R St} {π : Nat → Nat} (h : Looks owner i π w₁ w₂)
    (hs : w₂'.told i = w₂.told i ∧ ∀ x, Sees owner i x → w₂'.store x = w₂.store x) : Looks owner i π w₁ w₂' where
  told := h.told.trans hs.1.symm
  maps x hx := by rw [hs.2 x hx]; exact h.maps x hx
  inj := h.inj

theorem Looks.exec {code code' : Thread → Code Var K V R St} {i : Thread} (hcode : code i = code' i) (N : Nat) :
    ∀ {sched sched' : List Thread} {w₁ w₂ w₁' w₂' : World c Thread Var K V R St} {π : Nat → Nat},
      sched.length + sched'.length ≤ N → Looks owner i π w₁ w₂ → Exec hash owner code sched w₁ w₁' →
      Exec hash owner code' sched' w₂ w₂' → sched.count i = sched'.count i → ∃ π', Looks owner i π' w₁' w₂' := by
  induction N with
  | zero =>
    intro sched sched' w₁ w₂ w₁' w₂' π hN h h₁ h₂ hc
    cases h₁ with
    | start =>
      cases h₂ with
      | start => exact ⟨π, h⟩
      | step _ _ => simp only [List.length_append, List.length_cons] at hN; omega
    | step _ _ => simp only [List.length_append, List.length_cons] at hN; omega
  | succ N ih =>
    intro sched sched' w₁ w₂ w₁' w₂' π hN h h₁ h₂ hc
    cases h₁ with
    | start =>
      cases h₂ with
      | start => exact ⟨π, h⟩
      | @step sched' _ v₂ _ j' e₂ s₂ =>
        by_cases hj : j' = i
        · subst hj; simp [List.count_append] at hc
        · simp only [List.length_append, List.length_cons, List.length_nil] at hN
          rw [List.count_append, List.count_singleton, if_neg (by simpa using hj)] at hc
          obtain ⟨π', h'⟩ := ih (by simp only [List.length_nil]; omega) h (.start _) e₂ (by simpa using hc)
          exact ⟨π', h'.other₂ (s₂.other hj)⟩
    | @step sched _ v₁ _ j e₁ s₁ =>
      by_cases hj : j = i
      · subst hj
        cases h₂ with
        | start => simp [List.count_append] at hc
        | @step sched' _ v₂ _ j' e₂ s₂ =>
          by_cases hj' : j' = j
          · subst hj'
            simp only [List.count_append, List.length_append, List.length_cons, List.length_nil] at hN hc
            obtain ⟨π', h'⟩ := ih (by omega) h e₁ e₂ (by omega)
            exact h'.step hcode s₁ s₂
          · simp only [List.length_append, List.length_cons, List.length_nil] at hN
            rw [List.count_append (l₁ := sched'), List.count_singleton, if_neg (by simpa using hj')] at hc
            obtain ⟨π', h'⟩ := ih (by simp only [List.length_append, List.length_cons, List.length_nil]; omega) h
              (.step e₁ s₁) e₂ (by simpa using hc)
            exact ⟨π', h'.other₂ (s₂.other hj')⟩
      · simp only [List.length_append, List.length_cons, List.length_nil] at hN
        rw [List.count_append, List.count_singleton, if_neg (by simpa using hj)] at hc
        obtain ⟨π', h'⟩ := ih (by omega) h e₁ h₂ (by simpa using hc)
        exact ⟨π', h'.other₁ (s₁.other hj)⟩

/-- The part of an execution up to some call of a thread. -/
theorem Exec.upTo {code : Thread → Code Var K V R St} {i : Thread} {sched : List Thread} {w w' : World c Thread Var K V R St}
    (h : Exec hash owner code sched w w') {N : Nat} (hN : N ≤ sched.count i) :
    ∃ sched' v, Exec hash owner code sched' w v ∧ sched'.count i = N ∧ v.told i <+: w'.told i := by
  induction h with
  | start w => exact ⟨[], w, .start w, by simp at hN; simp [hN], List.prefix_rfl⟩
  | @step sched w w' w'' j e s ih =>
    have grow : w'.told i <+: w''.told i := by
      cases s with
      | step call s g hc hal hlt hp =>
        show w'.told i <+: if i = j then _ else _
        split
        · exact List.prefix_append _ _
        · exact List.prefix_rfl
    by_cases hle : N ≤ sched.count i
    · obtain ⟨sched', v, h1, h2, h3⟩ := ih hle
      exact ⟨sched', v, h1, h2, h3.trans grow⟩
    · refine ⟨sched ++ [j], w'', .step e s, ?_, List.prefix_rfl⟩
      rw [List.count_append] at hN ⊢
      have : List.count i [j] ≤ 1 := by rw [List.count_singleton]; split <;> omega
      omega

/-! ### The allocator can always go on -/

theorem le_sum_of_mem {a : Nat} {l : List Nat} (h : a ∈ l) : a ≤ l.sum := by
  induction l with
  | nil => cases h
  | cons b l ih =>
    rw [List.sum_cons]
    rcases List.mem_cons.1 h with rfl | h
    · omega
    · have := ih h; omega

/-- Whenever a thread's next call is allowed it can be made, and the allocator can put the new nodes above any bound. -/
theorem exists_step {code : Thread → Code Var K V R St} {i : Thread} {w : World c Thread Var K V R St}
    (hb : w.store.Bounded) {call : TCall Var K V R St} (hc : code i (w.told i) = some call)
    (hal : Allowed owner i call) (B : Nat) :
    ∃ w', Step hash owner code i w w' ∧ w'.store.Bounded ∧ ∀ a, w'.store.Used a → w.store.Used a ∨ B ≤ a := by
  obtain ⟨B', hB'⟩ := hb
  let s := max B B'
  have hlt : ∀ x ∈ call.reads, ∀ t, w.store x = some t → ∀ a ∈ t.addrs, a < s := fun x _ t ht a ha =>
    Nat.lt_of_lt_of_le (hB' a ⟨x, t, ht, ha⟩) (Nat.le_max_right _ _)
  have hpl : Places w.store s (call.eval hash w.store s).2 (fun a => a) :=
    ⟨fun _ _ => rfl, fun a ha _ hu => by have := hB' a hu; have := Nat.le_max_right B B'; omega, fun _ _ _ _ _ _ e => e⟩
  have used : ∀ a, (w.store.after ((call.eval hash w.store s).2.ren fun a => a)).Used a →
      w.store.Used a ∨ (s ≤ a ∧ (call.eval hash w.store s).2.Has a) := by
    rintro a ⟨x, t, ht, ha⟩
    cases hq : (call.eval hash w.store s).2 with
    | none => rw [hq] at ht; exact .inl ⟨x, t, ht, ha⟩
    | some q =>
      obtain ⟨y, u⟩ := q
      rw [hq] at ht
      by_cases e : x = y
      · subst e
        have ht : u.map (ATrie.ren fun a => a) = some t := by rw [← ht]; exact Store.after_same.symm
        cases u with
        | none => cases ht
        | some u =>
          injection ht with ht
          rw [ATrie.ren_id] at ht
          subst ht
          have hh : (call.eval hash w.store s).2.Has a := ⟨x, u, hq, ha⟩
          by_cases hsa : s ≤ a
          · rw [← hq]; exact .inr ⟨hsa, hh⟩
          · obtain ⟨z, _, v, hv, hav⟩ := call.eval_old hash w.store (by omega) hh
            exact .inl ⟨z, v, hv, hav⟩
      · have : w.store.after (TEffect.ren (fun a => a) (some (y, u))) x = w.store x := Store.after_other (by
          intro z v hz
          injection hz with hz
          injection hz with hz
          exact fun e' => e (by rw [← e', ← hz]))
        rw [this] at ht
        exact .inl ⟨x, t, ht, ha⟩
  refine ⟨_, .step w call s (fun a => a) hc hal hlt hpl, ?_, ?_⟩
  · cases hq : (call.eval hash w.store s).2 with
    | none => exact ⟨B', fun a ha => (used a (by rw [hq]; exact ha)).elim (hB' a) fun h => by
        obtain ⟨_, x, t, hx, _⟩ := h; rw [hq] at hx; cases hx⟩
    | some q =>
      obtain ⟨y, u⟩ := q
      let l := match u with
        | some u => u.addrs
        | none => []
      refine ⟨B' + l.sum + 1, fun a ha => ?_⟩
      rcases used a (by rw [hq]; exact ha) with h | ⟨_, x, t, hx, hat⟩
      · have := hB' a h; omega
      · rw [hq] at hx
        injection hx with hx
        injection hx with hx1 hx2
        subst hx2
        have : a ≤ l.sum := le_sum_of_mem hat
        omega
  · intro a ha
    exact (used a ha).imp id fun h => Nat.le_trans (Nat.le_max_left _ _) h.1

/-- Worlds in which a thread sees the same maps look the same to it. -/
theorem Looks.refl {i : Thread} {w w' : World c Thread Var K V R St} (ht : w.told i = w'.told i)
    (hs : ∀ x, Sees owner i x → w'.store x = w.store x) : Looks owner i (fun a => a) w w' where
  told := ht
  maps x hx := by
    rw [hs x hx]
    cases w.store x with
    | none => rfl
    | some t => exact congrArg some t.ren_id.symm
  inj _ _ _ _ _ _ _ _ _ _ _ _ e := e

theorem Exec.alone {code : Thread → Code Var K V R St} (i : Thread) {sched : List Thread} {w w' : World c Thread Var K V R St}
    (hb : w.store.Bounded) (h : Exec hash owner code sched w w') :
    ∃ v, Exec hash owner code (List.replicate (sched.count i) i) w v ∧ v.told i = w'.told i ∧ v.store.Bounded := by
  induction h with
  | start w => exact ⟨w, .start w, rfl, hb⟩
  | @step sched w w' w'' j e s ih =>
    obtain ⟨v, hv, ht, hvb⟩ := ih hb
    by_cases hj : j = i
    · subst hj
      have hs := s
      cases s with
      | step call s g hc hal hlt hp =>
        obtain ⟨v', hs', hb', _⟩ := exists_step (hash := hash) hvb (ht ▸ hc) hal 0
        have hex : Exec hash owner code (List.replicate ((sched ++ [j]).count j) j) w v' := by
          have := Exec.step hv hs'
          rw [← List.replicate_succ'] at this
          rw [List.count_append, List.count_singleton_self]
          exact this
        obtain ⟨π, hl⟩ := Looks.exec (code := code) (code' := code) rfl _ (Nat.le_refl _)
          (Looks.refl (owner := owner) (i := j) (w := w) (w' := w) rfl fun _ _ => rfl) hex (.step e hs) (by simp)
        exact ⟨v', hex, hl.told, hb'⟩
    · refine ⟨v, ?_, ?_, hvb⟩
      · rw [List.count_append, List.count_singleton, if_neg (by simpa using hj)]
        exact hv
      · rw [ht, (s.other (i := i) hj).1]

theorem FreshExec.exec {code : Thread → Code Var K V R St} {sched : List Thread} {w w' : World c Thread Var K V R St}
    {B : Nat} (h : FreshExec hash owner code sched w w' B) : Exec hash owner code sched w w' := by
  induction h with
  | start w B _ => exact .start w
  | step _ s _ _ _ ih => exact .step ih s

theorem Exec.fresh {code : Thread → Code Var K V R St} {sched : List Thread} {w w' : World c Thread Var K V R St}
    (hb : w.store.Bounded) (h : Exec hash owner code sched w w') :
    ∃ v B, FreshExec hash owner code sched w v B ∧ (∀ a, v.store.Used a → a < B) ∧ ∀ i, v.told i = w'.told i := by
  induction h with
  | start w => exact hb.elim fun B hB => ⟨w, B, .start w B hB, hB, fun _ => rfl⟩
  | @step sched w w' w'' j e s ih =>
    obtain ⟨v, B, hv, hvB, ht⟩ := ih hb
    have hs := s
    cases s with
    | step call s g hc hal hlt hp =>
      obtain ⟨v', hs', ⟨B', hb'⟩, hnew⟩ := exists_step (hash := hash) ⟨B, hvB⟩ (ht j ▸ hc) hal B
      have hex : FreshExec hash owner code (sched ++ [j]) w v' (max B B') :=
        .step hv hs' hnew (Nat.le_max_left _ _) fun a ha => Nat.lt_of_lt_of_le (hb' a ha) (Nat.le_max_right _ _)
      refine ⟨v', _, hex, fun a ha => Nat.lt_of_lt_of_le (hb' a ha) (Nat.le_max_right _ _), fun i => ?_⟩
      obtain ⟨π, hl⟩ := Looks.exec (code := code) (code' := code) rfl _ (Nat.le_refl _)
        (Looks.refl (owner := owner) (i := i) (w := w) (w' := w) rfl fun _ _ => rfl) hex.exec (.step e hs) rfl
      exact hl.told

end HT
