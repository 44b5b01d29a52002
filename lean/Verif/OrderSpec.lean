import Verif.EffSpec
/-! # Vocabulary for the order in which closures are called -/
namespace HT

variable {K V R R' : Type}

/-- `l'` has the order of `l`, except that entries of equal hash are in the opposite order. -/
def Reorder {B : Type} (hash : K → B) (l' l : List (K × V)) : Prop :=
  ∀ p q, [p, q].Sublist l' → (hash p.1 = hash q.1 → [q, p].Sublist l) ∧ (hash p.1 ≠ hash q.1 → [p, q].Sublist l)

/-- The calls of two runs: the shorter list of calls is the beginning of the longer, and no run makes more calls than one
    that returned. -/
structure SameCalls {Q α α' : Type} {A A' : Q → Type} (run : Outcome Q α × List (Reply Q A))
    (run' : Outcome Q α' × List (Reply Q A')) : Prop where
  compatible : run.2.map Sigma.fst <+: run'.2.map Sigma.fst ∨ run'.2.map Sigma.fst <+: run.2.map Sigma.fst
  left : (∃ a, run.1 = .ret a) → run'.2.map Sigma.fst <+: run.2.map Sigma.fst
  right : (∃ a, run'.1 = .ret a) → run.2.map Sigma.fst <+: run'.2.map Sigma.fst

/-- If the first run returned, so did the second, with the same replies, leaving the closures' state the same and giving
    a map with the same tree (apart from addresses), and the same reduction if `same`. -/
def SameReturn {c : Cfg} {Q σ : Type} {A : Q → Type} (same : Prop)
    (run run' : Outcome Q (((ATrie c K V × R) × Nat) × σ) × List (Reply Q A)) : Prop :=
  ∀ t r s st, run.1 = .ret (((t, r), s), st) →
    ∃ t' r' s', run'.1 = .ret (((t', r'), s'), st) ∧ run'.2 = run.2 ∧ t'.erase = t.erase ∧ (same → r' = r)

/-! ### Which parts of an operation are closures, forgetting the bulk operations' contributions to the reduction -/

def MapTransform.forget : MapTransform R Unit → MapTransform Unit Unit
  | .generic _ => .generic ()
  | .unchanged _ => .unchanged ()
  | .removed _ => .removed ()
def MapTransmute.forget : MapTransmute R Unit → MapTransmute Unit Unit
  | .generic _ => .generic ()
  | .removed _ => .removed ()
def MapJointTransform.forget : MapJointTransform R Unit → MapJointTransform Unit Unit
  | .generic _ _ => .generic () false
  | .unchangedLR _ => .unchangedLR ()
  | .unchangedL _ => .unchangedL ()
  | .unchangedR _ => .unchangedR ()
  | .removed _ => .removed ()
def TwmKinds.forget (o : TwmKinds R) : TwmKinds Unit := ⟨o.both.forget, o.left.forget, o.right.forget⟩
def MwtKinds.forget (o : MwtKinds R) : MwtKinds Unit := ⟨o.both.forget, o.left.forget, o.right.forget⟩
def MwmKinds.forget (o : MwmKinds R) : MwmKinds Unit := ⟨o.both.forget, o.left.forget, o.right.forget⟩
def TwtKinds.forget (o : TwtKinds R) : TwtKinds Unit := ⟨o.both.forget, o.left.forget, o.right.forget⟩

end HT
