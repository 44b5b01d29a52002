import Verif.SetEffLemmas
import Verif.OrderSpec
/-! # Vocabulary and lemmas for the order in which set functions call closures -/
namespace HT

section
variable {R : Type}

/-! ### Which parts of an operation are closures, forgetting the bulk operations' contributions to the reduction -/

def SetTransform.forget : SetTransform R Unit → SetTransform Unit Unit
  | .generic _ => .generic ()
  | .unchanged _ => .unchanged ()
  | .removed _ => .removed ()
def SetTransmute.forget : SetTransmute R Unit → SetTransmute Unit Unit
  | .generic _ => .generic ()
  | .removed _ => .removed ()
def SetJointTransform.forget : SetJointTransform R Unit → SetJointTransform Unit Unit
  | .generic _ _ => .generic () false
  | .unchangedLR _ => .unchangedLR ()
  | .unchangedL _ => .unchangedL ()
  | .unchangedR _ => .unchangedR ()
  | .removed _ => .removed ()
def STwmKinds.forget (o : STwmKinds R) : STwmKinds Unit := ⟨o.both.forget, o.left.forget, o.right.forget⟩
def SMwtKinds.forget (o : SMwtKinds R) : SMwtKinds Unit := ⟨o.both.forget, o.left.forget, o.right.forget⟩
def SMwmKinds.forget (o : SMwmKinds R) : SMwmKinds Unit := ⟨o.both.forget, o.left.forget, o.right.forget⟩
def STwtKinds.forget (o : STwtKinds R) : STwtKinds Unit := ⟨o.both.forget, o.left.forget, o.right.forget⟩
def TwfKinds.forget (o : TwfKinds R) : TwfKinds Unit := ⟨o.both.forget, o.left.forget, o.right.forget⟩
def FwtKinds.forget (o : FwtKinds R) : FwtKinds Unit := ⟨o.both.forget, o.left.forget, o.right.forget⟩

/-- As `SameReturn`, of sets. -/
def SameReturnSet {c : Cfg} {K Q σ : Type} {A : Q → Type} (same : Prop)
    (run run' : Outcome Q (((AHSet c K × R) × Nat) × σ) × List (Reply Q A)) : Prop :=
  ∀ t r s st, run.1 = .ret (((t, r), s), st) →
    ∃ t' r' s', run'.1 = .ret (((t', r'), s'), st) ∧ run'.2 = run.2 ∧ t'.erase = t.erase ∧ (same → r' = r)

end

section
variable {Q Q' Q₀ : Type} {A : Q → Type} {A' : Q' → Type} {α β σ τ : Type}

/-- The replies to a list of calls. -/
def replay (env : (q : Q) → σ → Option (A q × σ)) : σ → List Q → List (Reply Q A)
  | _, [] => []
  | st, q :: l => match env q st with
    | none => [⟨q, none⟩]
    | some (a, st') => ⟨q, some a⟩ :: replay env st' l

theorem Tree.run_replay (env : (q : Q) → σ → Option (A q × σ)) (x : Tree Q A α) (st : σ) :
    (x.run env st).2 = replay env st ((x.run env st).2.map Sigma.fst) := by
  induction x generalizing st with
  | ret a => rfl
  | panic p => rfl
  | diverge => rfl
  | ask q k ih =>
    simp only [Tree.run]
    cases h : env q st with
    | none => simp [replay, h]
    | some p =>
      simp only [List.map_cons, replay, h]
      exact congrArg _ (ih p.1 p.2)

variable {tr : Trans Q A Q' A'}

theorem Ends.ret_iff {x : Outcome Q α} {y : Outcome Q' α} (h : Ends tr x y) (a : α) : y = .ret a ↔ x = .ret a := by
  cases x with
  | ret b => cases h; constructor <;> intro h <;> cases h <;> rfl
  | panic p => cases h; constructor <;> intro h <;> cases h
  | diverge => cases h; constructor <;> intro h <;> cases h
  | closure q => obtain ⟨r, _, rfl⟩ := h; constructor <;> intro h <;> cases h

theorem List.prefix_filterMap {γ δ : Type} {l l' : List γ} (f : γ → Option δ) (h : l <+: l') :
    l.filterMap f <+: l'.filterMap f := by
  obtain ⟨k, rfl⟩ := h
  rw [List.filterMap_append]
  exact ⟨_, rfl⟩

/-- The calls of two runs after the replacement. -/
theorem SameCalls.sub {A₁ : Q → Type} {A₁' : Q' → Type} {tr₁ : Trans Q A₁ Q' A₁'} {x : Prog Q A α} {y : Prog Q A₁ β}
    {s s' : Nat} {env : (q : Q') → σ → Option (A' q × σ)} {env' : (q : Q') → τ → Option (A₁' q × τ)} {st : σ} {st' : τ}
    (hc : tr.call = tr₁.call) (h : SameCalls (x.run s (tr.env env) st) (y.run s' (tr₁.env env') st')) :
    SameCalls ((Prog.sub tr x).run s env st) ((Prog.sub tr₁ y).run s' env' st') := by
  obtain ⟨e1, r1⟩ := Prog.run_sub (tr := tr) (s := s) (env := env) (st := st) x
  obtain ⟨e2, r2⟩ := Prog.run_sub (tr := tr₁) (s := s') (env := env') (st := st') y
  constructor
  · rw [r1.calls, r2.calls, ← hc]
    exact h.compatible.imp (List.prefix_filterMap _) (List.prefix_filterMap _)
  · rintro ⟨a, ha⟩
    rw [r1.calls, r2.calls, ← hc]
    exact List.prefix_filterMap _ (h.left ⟨a, (e1.ret_iff a).1 ha⟩)
  · rintro ⟨a, ha⟩
    rw [r1.calls, r2.calls, ← hc]
    exact List.prefix_filterMap _ (h.right ⟨a, (e2.ret_iff a).1 ha⟩)

theorem Outcome.map_ret {x : Outcome Q α} {g : α → β} {b : β} (h : x.map g = .ret b) : ∃ a, x = .ret a ∧ g a = b := by
  cases x with
  | ret a => exact ⟨a, rfl, Outcome.ret.inj h⟩
  | panic p => cases h
  | diverge => cases h
  | closure q => cases h

variable {c : Cfg} {K L V R R' : Type}

theorem SameCalls.wrapE {A₁ : Q → Type} {A₁' : Q' → Type} {tr₁ : Trans Q A₁ Q' A₁'}
    {x : Prog Q A (ATrie c K Unit × R)} {y : Prog Q A₁ (ATrie c L Unit × R')}
    {s s' : Nat} {env : (q : Q') → σ → Option (A' q × σ)} {env' : (q : Q') → τ → Option (A₁' q × τ)} {st : σ} {st' : τ}
    (hc : tr.call = tr₁.call) (h : SameCalls (x.run s (tr.env env) st) (y.run s' (tr₁.env env') st')) :
    SameCalls ((AHSet.wrapE (Prog.sub tr x)).run s env st) ((AHSet.wrapE (Prog.sub tr₁ y)).run s' env' st') := by
  have h := h.sub hc
  rw [AHSet.run_wrapE, AHSet.run_wrapE]
  exact ⟨h.compatible, fun ⟨b, hb⟩ => h.left (let ⟨a, ha, _⟩ := Outcome.map_ret hb; ⟨a, ha⟩),
    fun ⟨b, hb⟩ => h.right (let ⟨a, ha, _⟩ := Outcome.map_ret hb; ⟨a, ha⟩)⟩

theorem SameReturn.sub {same : Prop} {x y : Prog Q A (ATrie c K V × R)} {s : Nat}
    {env : (q : Q') → σ → Option (A' q × σ)} {st : σ}
    (h : SameReturn same (x.run s (tr.env env) st) (y.run s (tr.env env) st)) :
    SameReturn same ((Prog.sub tr x).run s env st) ((Prog.sub tr y).run s env st) := by
  obtain ⟨e1, r1⟩ := Prog.run_sub (tr := tr) (s := s) (env := env) (st := st) x
  obtain ⟨e2, r2⟩ := Prog.run_sub (tr := tr) (s := s) (env := env) (st := st) y
  intro t r n st' hr
  obtain ⟨t', r', s', h1, h2, h3, h4⟩ := h t r n st' ((e1.ret_iff _).1 hr)
  refine ⟨t', r', s', (e2.ret_iff _).2 h1, ?_, h3, h4⟩
  have hc : ((Prog.sub tr y).run s env st).2.map Sigma.fst = ((Prog.sub tr x).run s env st).2.map Sigma.fst := by
    rw [r1.calls, r2.calls, h2]
  unfold Prog.run at hc ⊢
  rw [Tree.run_replay, hc, ← Tree.run_replay]

theorem SameReturn.wrapE {same : Prop} {x y : Prog Q A (ATrie c K Unit × R)} {s : Nat}
    {env : (q : Q') → σ → Option (A' q × σ)} {st : σ}
    (h : SameReturn same (x.run s (tr.env env) st) (y.run s (tr.env env) st)) :
    SameReturnSet same ((AHSet.wrapE (Prog.sub tr x)).run s env st) ((AHSet.wrapE (Prog.sub tr y)).run s env st) := by
  have h := h.sub
  rw [AHSet.run_wrapE, AHSet.run_wrapE]
  intro t r n st' hr
  obtain ⟨⟨⟨⟨t0, r0⟩, n0⟩, st0⟩, h1, h2⟩ := Outcome.map_ret hr
  cases h2
  obtain ⟨t', r', s', h3, h4, h5, h6⟩ := h _ _ _ _ h1
  exact ⟨⟨t'⟩, r', s', by rw [h3]; rfl, h4, congrArg HSet.mk h5, h6⟩

end

section
variable {R R' : Type}
theorem SetTransform.forget_kind {o : SetTransform R Unit} {o' : SetTransform R' Unit} (h : o.forget = o'.forget) :
    o.kind.forget = o'.kind.forget := by cases o <;> cases o' <;> first | rfl | cases h
theorem SetTransmute.forget_kind {o : SetTransmute R Unit} {o' : SetTransmute R' Unit} (h : o.forget = o'.forget) :
    o.kind.forget = o'.kind.forget := by cases o <;> cases o' <;> first | rfl | cases h
theorem STwmKinds.forget_kinds {o : STwmKinds R} {o' : STwmKinds R'} (h : o.forget = o'.forget) :
    o.kinds.forget = o'.kinds.forget := by
  injection h with h1 h2 h3
  exact congr (congrArg _ (SetTransform.forget_kind h2)) (SetTransmute.forget_kind h3)
theorem SMwtKinds.forget_kinds {o : SMwtKinds R} {o' : SMwtKinds R'} (h : o.forget = o'.forget) :
    o.kinds.forget = o'.kinds.forget := by
  injection h with h1 h2 h3
  exact congr (congrArg _ (SetTransmute.forget_kind h2)) (SetTransform.forget_kind h3)
theorem SMwmKinds.forget_kinds {o : SMwmKinds R} {o' : SMwmKinds R'} (h : o.forget = o'.forget) :
    o.kinds.forget = o'.kinds.forget := by
  injection h with h1 h2 h3
  exact congr (congrArg _ (SetTransmute.forget_kind h2)) (SetTransmute.forget_kind h3)
theorem STwtKinds.forget_kinds {o : STwtKinds R} {o' : STwtKinds R'} (h : o.forget = o'.forget) :
    o.kinds.forget = o'.kinds.forget := by
  obtain ⟨b, l, r⟩ := o
  obtain ⟨b', l', r'⟩ := o'
  injection h with h1 h2 h3
  cases b <;> cases b' <;> cases l <;> cases l' <;> cases r <;> cases r' <;> first | rfl | (cases h1; done) | (cases h2; done) | (cases h3; done)
theorem TwfKinds.forget_kinds {o : TwfKinds R} {o' : TwfKinds R'} (h : o.forget = o'.forget) :
    o.kinds.forget = o'.kinds.forget := by
  obtain ⟨b, l, r⟩ := o
  obtain ⟨b', l', r'⟩ := o'
  injection h with h1 h2 h3
  cases b <;> cases b' <;> cases l <;> cases l' <;> cases r <;> cases r' <;> first | rfl | (cases h1; done) | (cases h2; done) | (cases h3; done)
theorem FwtKinds.forget_kinds {o : FwtKinds R} {o' : FwtKinds R'} (h : o.forget = o'.forget) :
    o.kinds.forget = o'.kinds.forget := by
  obtain ⟨b, l, r⟩ := o
  obtain ⟨b', l', r'⟩ := o'
  injection h with h1 h2 h3
  cases b <;> cases b' <;> cases l <;> cases l' <;> cases r <;> cases r' <;> first | rfl | (cases h1; done) | (cases h2; done) | (cases h3; done)

variable {K L S : Type}
theorem STwmKinds.call_eq {o : STwmKinds R} {o' : STwmKinds R'} (h : o.forget = o'.forget) :
    (o.trans (K := K) (L := L)).call = o'.trans.call := by
  obtain ⟨b, l, r⟩ := o
  obtain ⟨b', l', r'⟩ := o'
  injection h with h1 h2 h3
  funext q
  cases q <;> cases b <;> cases b' <;> first | rfl | cases h1
theorem SMwtKinds.call_eq {o : SMwtKinds R} {o' : SMwtKinds R'} (h : o.forget = o'.forget) :
    (o.trans (K := K) (L := L)).call = o'.trans.call := by
  obtain ⟨b, l, r⟩ := o
  obtain ⟨b', l', r'⟩ := o'
  injection h with h1 h2 h3
  funext q
  cases q <;> cases b <;> cases b' <;> first | rfl | cases h1
theorem SMwmKinds.call_eq {o : SMwmKinds R} {o' : SMwmKinds R'} (h : o.forget = o'.forget) :
    (o.trans (K := K) (L := L) (S := S)).call = (o'.trans (S := S)).call := by
  obtain ⟨b, l, r⟩ := o
  obtain ⟨b', l', r'⟩ := o'
  injection h with h1 h2 h3
  funext q
  cases q <;> cases b <;> cases b' <;> first | rfl | cases h1
end

theorem order_keys {K B : Type} {hash : K → B} {f : K × Unit → Option K} {l l' : List (K × Unit)} (h : Reorder hash l' l)
    {k k' : K} (hk : [k, k'].Sublist (l'.filterMap f)) (hf : ∀ q, f q = some q.1) :
    (hash k = hash k' → [k', k].Sublist (l.map Prod.fst)) ∧ (hash k ≠ hash k' → [k, k'].Sublist (l.map Prod.fst)) := by
  have : l'.filterMap f = l'.map Prod.fst := by
    rw [show f = fun q => some q.1 from funext hf]
    exact congrFun List.filterMap_eq_map l'
  rw [this] at hk
  have h2 : [(k, ()), (k', ())].Sublist l' := by
    have := hk.map fun k => (k, ())
    rwa [List.map_map, show ((fun k => (k, ())) ∘ Prod.fst : K × Unit → K × Unit) = id from rfl, List.map_id] at this
  exact ⟨fun e => ((h _ _ h2).1 e).map Prod.fst, fun e => ((h _ _ h2).2 e).map Prod.fst⟩

end HT
