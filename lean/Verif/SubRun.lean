import Verif.SubNode
/-!
# Runs of code whose calls are replaced
-/
namespace HT
variable {Q Q' : Type} {A : Q → Type} {A' : Q' → Type} {α σ : Type} (tr : Trans Q A Q' A')

/-- The call in the place of a call; `none` if there is none. -/
def Trans.call (q : Q) : Option Q' :=
  match tr q with
  | .inl _ => none
  | .inr r => some r.1

/-- What the replaced calls do. -/
def Trans.env (env : (q : Q') → σ → Option (A' q × σ)) (q : Q) (st : σ) : Option (A q × σ) :=
  match tr q with
  | .inl a => some (a, st)
  | .inr r => (env r.1 st).map fun p => (r.2 p.1, p.2)

/-- As `Trans.env`, of functions. -/
def Trans.answer (f : (q : Q') → A' q) (q : Q) : A q :=
  match tr q with
  | .inl a => a
  | .inr r => r.2 (f r.1)

/-- The calls of a run before and after the replacement. -/
inductive Replies : List (Reply Q A) → List (Reply Q' A') → Prop
  | nil : Replies [] []
  | known {q : Q} {a : A q} {l : List (Reply Q A)} {l' : List (Reply Q' A')} (hq : tr q = .inl a) (h : Replies l l') :
      Replies (⟨q, some a⟩ :: l) l'
  | call {q : Q} {r : (q' : Q') × (A' q' → A q)} {o : Option (A' r.1)} {l : List (Reply Q A)} {l' : List (Reply Q' A')}
      (hq : tr q = .inr r) (h : Replies l l') : Replies (⟨q, o.map r.2⟩ :: l) (⟨r.1, o⟩ :: l')

/-- How a run ends before and after the replacement. -/
def Ends (x : Outcome Q α) (y : Outcome Q' α) : Prop :=
  match x with
  | .ret a => y = .ret a
  | .panic p => y = .panic p
  | .diverge => y = .diverge
  | .closure q => ∃ r, tr q = .inr r ∧ y = .closure r.1

theorem Tree.run_sub (env : (q : Q') → σ → Option (A' q × σ)) (x : Tree Q A α) (st : σ) :
    Ends tr (x.run (tr.env env) st).1 ((x.sub tr).run env st).1 ∧
      Replies tr (x.run (tr.env env) st).2 ((x.sub tr).run env st).2 := by
  induction x generalizing st with
  | ret a => exact ⟨rfl, .nil⟩
  | panic p => exact ⟨rfl, .nil⟩
  | diverge => exact ⟨rfl, .nil⟩
  | ask q k ih =>
    rw [Tree.sub_ask, Tree.run]
    cases hq : tr q with
    | inl a =>
      have he : tr.env env q st = some (a, st) := by simp [Trans.env, hq]
      rw [he]
      exact ⟨(ih a st).1, .known hq (ih a st).2⟩
    | inr r =>
      simp only [Tree.run]
      cases hr : env r.1 st with
      | none =>
        have he : tr.env env q st = none := by simp [Trans.env, hq, hr]
        rw [he]
        exact ⟨⟨r, hq, rfl⟩, .call (o := none) hq .nil⟩
      | some p =>
        have he : tr.env env q st = some (r.2 p.1, p.2) := by simp [Trans.env, hq, hr]
        rw [he]
        exact ⟨(ih _ _).1, .call (o := some p.1) hq (ih _ _).2⟩

variable {tr}

theorem Replies.calls {l : List (Reply Q A)} {l' : List (Reply Q' A')} (h : Replies tr l l') :
    l'.map Sigma.fst = (l.map Sigma.fst).filterMap tr.call := by
  induction h with
  | nil => rfl
  | known hq _ ih => simp [Trans.call, hq, ih]
  | call hq _ ih => simp [Trans.call, hq, ih]

theorem Replies.answers {l : List (Reply Q A)} {l' : List (Reply Q' A')} (h : Replies tr l l') {f : (q : Q') → A' q}
    (hf : Answers f l') : Answers (tr.answer f) l := by
  induction h with
  | nil => intro q a h; cases h
  | known hq _ ih =>
    intro q a h
    rcases List.mem_cons.1 h with h | h
    · cases h; simp [Trans.answer, hq]
    · exact ih hf q a h
  | call hq _ ih =>
    rename_i q r o l l' _
    intro q a h
    rcases List.mem_cons.1 h with h | h
    · cases o with
      | none => cases h
      | some b =>
        cases h
        simp [Trans.answer, hq, hf r.1 b (List.mem_cons_self ..)]
    · exact ih (fun q a h => hf q a (List.mem_cons_of_mem _ h)) q a h

theorem Replies.isSome {l : List (Reply Q A)} {l' : List (Reply Q' A')} (h : Replies tr l l')
    (hl : ∀ p ∈ l, p.2.isSome) : ∀ p ∈ l', p.2.isSome := by
  induction h with
  | nil => intro p hp; cases hp
  | known _ _ ih => exact ih fun p hp => hl p (List.mem_cons_of_mem _ hp)
  | call hq _ ih =>
    intro p hp
    rcases List.mem_cons.1 hp with rfl | hp
    · have := hl _ (List.mem_cons_self ..)
      simpa using this
    · exact ih (fun p hp => hl p (List.mem_cons_of_mem _ hp)) p hp

theorem Replies.last {before l : List (Reply Q A)} {l' : List (Reply Q' A')} {q : Q} {r : (q' : Q') × (A' q' → A q)}
    (h : Replies tr l l') (hl : l = before ++ [⟨q, none⟩]) (hb : ∀ p ∈ before, p.2.isSome) (hq : tr q = .inr r) :
    ∃ before', l' = before' ++ [⟨r.1, none⟩] ∧ ∀ p ∈ before', p.2.isSome := by
  induction h generalizing before with
  | nil => cases before <;> cases hl
  | known hq' h ih =>
    cases before with
    | nil => cases hl
    | cons p before =>
      obtain ⟨rfl, rfl⟩ := List.cons.inj hl
      exact ih rfl (fun p hp => hb p (List.mem_cons_of_mem _ hp))
  | call hq' h ih =>
    rename_i q' r' o l l'
    cases before with
    | nil =>
      obtain ⟨h1, rfl⟩ := List.cons.inj hl
      have hqq : q' = q := congrArg Sigma.fst h1
      subst hqq
      have hr : r' = r := by rw [hq] at hq'; exact (Sum.inr.inj hq').symm
      subst hr
      cases h
      have ho : o = none := by
        have := eq_of_heq (Sigma.mk.inj h1).2
        simpa using this
      subst ho
      exact ⟨[], rfl, by simp⟩
    | cons p before =>
      obtain ⟨rfl, rfl⟩ := List.cons.inj hl
      obtain ⟨b, hb1, hb2⟩ := ih rfl (fun p hp => hb p (List.mem_cons_of_mem _ hp))
      refine ⟨_ :: b, by rw [hb1]; rfl, fun p hp => ?_⟩
      rcases List.mem_cons.1 hp with rfl | hp
      · have := hb _ (List.mem_cons_self ..)
        simpa using this
      · exact hb2 p hp

/-- Replacing distinct calls by distinct calls. -/
theorem CallsOnce.sub {x : Prog Q A α} {s : Nat} {env : (q : Q') → σ → Option (A' q × σ)} {st : σ} {expected : List Q}
    (inj : ∀ q q' p, tr.call q = some p → tr.call q' = some p → q = q')
    (h : CallsOnce (x.run s (tr.env env) st) expected) :
    CallsOnce ((Prog.sub tr x).run s env st) (expected.filterMap tr.call) := by
  obtain ⟨he, hr⟩ := Tree.run_sub tr env (x s) st
  have hc := hr.calls
  obtain ⟨once, only, all, answered, stops⟩ := h
  unfold Prog.run at once only all answered stops
  refine ⟨?_, ?_, ?_, ?_, ?_⟩
  · show ((((x s).sub tr).run env st).2.map Sigma.fst).Nodup
    rw [hc, List.Nodup, List.pairwise_filterMap]
    refine List.Pairwise.imp ?_ once
    intro a b hne p hp p' hp' hpp
    exact hne (inj _ _ p hp (hpp ▸ hp'))
  · show ∀ q ∈ (((x s).sub tr).run env st).2.map Sigma.fst, _
    rw [hc]
    intro p hp
    obtain ⟨q, hq, hp⟩ := List.mem_filterMap.1 hp
    exact List.mem_filterMap.2 ⟨q, only q hq, hp⟩
  · intro a ha
    show ((((x s).sub tr).run env st).2.map Sigma.fst).Perm _
    rw [hc]
    cases hx : ((x s).run (tr.env env) st).1 with
    | ret b => exact (all b hx).filterMap _
    | panic p => rw [hx] at he; have := he.symm.trans ha; cases this
    | diverge => rw [hx] at he; have := he.symm.trans ha; cases this
    | closure q =>
      rw [hx] at he
      obtain ⟨r, _, he⟩ := he
      have := he.symm.trans ha; cases this
  · intro hn
    refine hr.isSome (answered fun q hq => ?_)
    rw [hq] at he
    obtain ⟨r, _, he⟩ := he
    exact hn _ he
  · intro q' hq'
    cases hx : ((x s).run (tr.env env) st).1 with
    | ret b => rw [hx] at he; have := he.symm.trans hq'; cases this
    | panic p => rw [hx] at he; have := he.symm.trans hq'; cases this
    | diverge => rw [hx] at he; have := he.symm.trans hq'; cases this
    | closure q =>
      rw [hx] at he
      obtain ⟨r, hr', he⟩ := he
      have := he.symm.trans hq'
      cases this
      obtain ⟨before, h1, h2⟩ := stops q hx
      exact hr.last h1 h2 hr'

end HT
