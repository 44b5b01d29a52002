import Verif.EffLoop
import Verif.NatBase
/-!
# The calls of closures do not depend on what is answered

Two pieces of code are *in step* if they make the same calls in the same order, whatever the closures answer to each, until
one of them ends.  The answers' types may differ, as when the reductions do.
-/
namespace HT

variable {K V L W S X R R' : Type} {Q : Type} {A A' : Q → Type} {α β α' β' : Type}

/-- The same calls, until one of the two panics or diverges; results are related by `P`. -/
def Tree.Step (P : α → α' → Prop) : Tree Q A α → Tree Q A' α' → Prop
  | .ret a, .ret b => P a b
  | .ask q k, .ask q' k' => q = q' ∧ ∀ a b, (k a).Step P (k' b)
  | .panic _, _ => True
  | .diverge, _ => True
  | _, .panic _ => True
  | _, .diverge => True
  | .ret _, .ask _ _ => False
  | .ask _ _, .ret _ => False

theorem Tree.Step.bind {P : α → α' → Prop} {P' : β → β' → Prop} {x : Tree Q A α} {y : Tree Q A' α'}
    {f : α → Tree Q A β} {g : α' → Tree Q A' β'} (h : x.Step P y) (hf : ∀ a b, P a b → (f a).Step P' (g b)) :
    (x.bind f).Step P' (y.bind g) := by
  induction x generalizing y with
  | ret a =>
    cases y with
    | ret b => exact hf a b h
    | ask q k => exact h.elim
    | panic p => show ((f a)).Step P' (.panic p); cases f a <;> trivial
    | diverge => show ((f a)).Step P' .diverge; cases f a <;> trivial
  | ask q k ih =>
    cases y with
    | ret b => exact h.elim
    | ask q' k' => exact ⟨h.1, fun a b => ih a (h.2 a b)⟩
    | panic p => trivial
    | diverge => trivial
  | panic p => trivial
  | diverge => trivial

theorem Tree.Step.mono {P P' : α → α' → Prop} {x : Tree Q A α} {y : Tree Q A' α'} (h : x.Step P y)
    (hp : ∀ a b, P a b → P' a b) : x.Step P' y := by
  induction x generalizing y with
  | ret a =>
    cases y with
    | ret b => exact hp a b h
    | ask q k => exact h.elim
    | panic p => trivial
    | diverge => trivial
  | ask q k ih =>
    cases y with
    | ret b => exact h.elim
    | ask q' k' => exact ⟨h.1, fun a b => ih a (h.2 a b)⟩
    | panic p => trivial
    | diverge => trivial
  | panic p => trivial
  | diverge => trivial

theorem Tree.Step.panicR {P : α → α' → Prop} {x : Tree Q A α} {p : Panic} : x.Step P (.panic p : Tree Q A' α') := by
  cases x <;> trivial
theorem Tree.Step.divergeR {P : α → α' → Prop} {x : Tree Q A α} : x.Step P (.diverge : Tree Q A' α') := by
  cases x <;> trivial

/-- As `Tree.Step`, of code that also allocates. -/
def Prog.Step (P : α → α' → Prop) (x : Prog Q A α) (y : Prog Q A' α') : Prop :=
  ∀ s s', (x s).Step (fun a b => P a.1 b.1) (y s')

/-- The calls alone. -/
abbrev Prog.StepT (x : Prog Q A α) (y : Prog Q A' α') : Prop := Prog.Step (fun _ _ => True) x y

namespace Prog.Step

theorem bind {P : α → α' → Prop} {P' : β → β' → Prop} {x : Prog Q A α} {y : Prog Q A' α'}
    {f : α → Prog Q A β} {g : α' → Prog Q A' β'} (h : Prog.Step P x y)
    (hf : ∀ a b, P a b → Prog.Step P' (f a) (g b)) : Prog.Step P' (x >>= f) (y >>= g) :=
  fun s s' => (h s s').bind fun a b hp => hf a.1 b.1 hp a.2 b.2

theorem mono {P P' : α → α' → Prop} {x : Prog Q A α} {y : Prog Q A' α'} (h : Prog.Step P x y)
    (hp : ∀ a b, P a b → P' a b) : Prog.Step P' x y := fun s s' => (h s s').mono fun a b => hp a.1 b.1

theorem t {P : α → α' → Prop} {x : Prog Q A α} {y : Prog Q A' α'} (h : Prog.Step P x y) : x.StepT y :=
  h.mono fun _ _ _ => trivial

theorem pure {P : α → α' → Prop} {a : α} {b : α'} (h : P a b) :
    Prog.Step P (Pure.pure a : Prog Q A α) (Pure.pure b : Prog Q A' α') := fun _ _ => h

theorem pureT {a : α} {b : α'} : Prog.StepT (Pure.pure a : Prog Q A α) (Pure.pure b : Prog Q A' α') :=
  fun _ _ => trivial

theorem al {x : Al α} {y : Al α'} : Prog.StepT (Prog.al x : Prog Q A α) (Prog.al y : Prog Q A' α') := by
  intro s s'
  unfold Prog.al
  cases x s with
  | ok a => cases y s' <;> trivial
  | panic p => trivial
  | diverge => trivial

theorem res {x : Res α} {y : Res α'} :
    Prog.Step (fun a b => x = .ok a ∧ y = .ok b) (Prog.res x : Prog Q A α) (Prog.res y : Prog Q A' α') := by
  intro s s'
  cases x with
  | ok a => cases y with
    | ok b => exact ⟨rfl, rfl⟩
    | panic p => trivial
    | diverge => trivial
  | panic p => trivial
  | diverge => trivial

theorem resT {x : Res α} {y : Res α'} : Prog.StepT (Prog.res x : Prog Q A α) (Prog.res y : Prog Q A' α') := res.t

/-- The same step in both. -/
theorem same {x : Res α} : Prog.Step (fun a b => x = .ok a ∧ a = b) (Prog.res x : Prog Q A α) (Prog.res x : Prog Q A' α) :=
  res.mono fun a b h => ⟨h.1, Res.ok.inj (h.1.symm.trans h.2)⟩

theorem ask (q : Q) : Prog.StepT (Prog.ask q : Prog Q A (A q)) (Prog.ask q : Prog Q A' (A' q)) :=
  fun _ _ => ⟨rfl, fun _ _ => trivial⟩

theorem bindT {x : Prog Q A α} {y : Prog Q A' α'} {f : α → Prog Q A β} {g : α' → Prog Q A' β'} {P' : β → β' → Prop}
    (h : x.StepT y) (hf : ∀ a b, Prog.Step P' (f a) (g b)) : Prog.Step P' (x >>= f) (y >>= g) :=
  bind h fun a b _ => hf a b

/-- A step that only repackages. -/
theorem map {P : α → α' → Prop} {x : Prog Q A α} {y : Prog Q A' α'} {f : α → β} {g : α' → β'} (h : Prog.Step P x y) :
    Prog.StepT (x >>= fun a => Pure.pure (f a)) (y >>= fun a => Pure.pure (g a)) := bind h fun _ _ _ => pureT

/-- A step without calls last. -/
theorem endAl {P : α → α' → Prop} {x : Prog Q A α} {y : Prog Q A' α'} {f : α → Al β} {g : α' → Al β'}
    (h : Prog.Step P x y) :
    Prog.StepT (x >>= fun a => Prog.al (f a)) (y >>= fun a => Prog.al (g a)) := bind h fun _ _ _ => al

theorem two {γ γ' : Type} {x : Prog Q A α} {y : Prog Q A β} {x' : Prog Q A' α'} {y' : Prog Q A' β'}
    {z : α → β → Al γ} {z' : α' → β' → Al γ'} (h : x.StepT x') (h' : y.StepT y') :
    Prog.StepT (do let a ← x; let b ← y; Prog.al (z a b)) (do let a ← x'; let b ← y'; Prog.al (z' a b)) :=
  bindT h fun _ _ => endAl h'

theorem ite {p : Prop} [Decidable p] {x y : Prog Q A α} {x' y' : Prog Q A' α'} {P : α → α' → Prop}
    (h : p → Prog.Step P x x') (h' : ¬ p → Prog.Step P y y') :
    Prog.Step P (if p then x else y) (if p then x' else y') := by
  split
  · exact h ‹_›
  · exact h' ‹_›

/-- A step without calls first, on the left only. -/
theorem bindRight {P : α → α' → Prop} {x : Prog Q A α} {y : Prog Q A' α'} {g : α' → Prog Q A' β'}
    {P' : α → β' → Prop} (h : Prog.Step P x y) (hg : ∀ a b, P a b → Prog.Step P' (Pure.pure a : Prog Q A α) (g b)) :
    Prog.Step P' x (y >>= g) := by
  have hx : x = (x >>= Pure.pure) := by
    funext s
    show x s = (x s).bind fun a => .ret (a.1, a.2)
    induction x s with
    | ret a => rfl
    | ask q k ih => exact congrArg (Tree.ask q) (funext ih)
    | panic p => rfl
    | diverge => rfl
  rw [hx]
  exact bind h hg

theorem symm {P : α → α' → Prop} {x : Prog Q A α} {y : Prog Q A' α'} (h : Prog.Step P x y) :
    Prog.Step (fun b a => P a b) y x := by
  intro s s'
  have key : ∀ (x : Tree Q A (α × Nat)) (y : Tree Q A' (α' × Nat)), x.Step (fun a b => P a.1 b.1) y →
      y.Step (fun b a => P a.1 b.1) x := by
    intro x
    induction x with
    | ret a =>
      intro y h
      cases y with
      | ret b => exact h
      | ask q k => exact h.elim
      | panic p => trivial
      | diverge => trivial
    | ask q k ih =>
      intro y h
      cases y with
      | ret b => exact h.elim
      | ask q' k' => exact ⟨h.1.symm, fun a b => ih b _ (h.2 b a)⟩
      | panic p => trivial
      | diverge => trivial
    | panic p => intro y _; cases y <;> trivial
    | diverge => intro y _; cases y <;> trivial
  exact key _ _ (h s' s)

end Prog.Step

/-- Code that calls no closure. -/
def Prog.Quiet (x : Prog Q A α) : Prop := ∀ s q k, x s ≠ .ask q k

namespace Prog.Quiet

theorem step {x : Prog Q A α} {y : Prog Q A' α'} (h : x.Quiet) (h' : y.Quiet) : x.StepT y := by
  intro s s'
  have h1 := h s
  have h2 := h' s'
  cases hx : x s with
  | ask q k => exact absurd hx (h1 q k)
  | ret a => cases hy : y s' with
    | ask q k => exact absurd hy (h2 q k)
    | _ => trivial
  | panic p => trivial
  | diverge => trivial

theorem pure {a : α} : (Pure.pure a : Prog Q A α).Quiet := fun _ _ _ h => by cases h

theorem al {x : Al α} : (Prog.al x : Prog Q A α).Quiet := by
  intro s q k h
  unfold Prog.al at h
  split at h <;> cases h

theorem bind {x : Prog Q A α} {f : α → Prog Q A β} (h : x.Quiet) (hf : ∀ a, (f a).Quiet) : (x >>= f).Quiet := by
  intro s q k hx
  change (x s).bind (fun a => f a.1 a.2) = _ at hx
  cases hs : x s with
  | ask q k => exact h _ _ _ hs
  | ret a => rw [hs] at hx; exact hf _ _ _ _ hx
  | panic p => rw [hs] at hx; cases hx
  | diverge => rw [hs] at hx; cases hx

end Prog.Quiet

/-! ### The loop -/

namespace AAcc
variable {n : Nat} {reduce : R → R → R} {reduce' : R' → R' → R'} {K' V' : Type}

theorem loopE_step {item : Nat → Prog Q A (AItem n K V R)} {item' : Nat → Prog Q A' (AItem n K' V' R')} (is : List Nat)
    (h : ∀ i ∈ is, (item i).StepT (item' i)) (acc : AAcc n K V R) (acc' : AAcc n K' V' R') :
    (loopE reduce item is acc).StepT (loopE reduce' item' is acc') := by
  induction is generalizing acc acc' with
  | nil => exact .pureT
  | cons i is ih =>
    refine .bindT (h i (List.mem_cons_self ..)) fun it it' => .bindT .resT fun a a' => ?_
    exact ih (fun j hj => h j (List.mem_cons_of_mem _ hj)) a a'

theorem loopE_append (item : Nat → Prog Q A (AItem n K V R)) (is is' : List Nat) (acc : AAcc n K V R) :
    loopE reduce item (is ++ is') acc = (loopE reduce item is acc >>= fun acc => loopE reduce item is' acc) := by
  have assoc : ∀ {α β γ : Type} (x : Prog Q A α) (f : α → Prog Q A β) (g : β → Prog Q A γ),
      (x >>= f) >>= g = x >>= fun a => f a >>= g := by
    intro α β γ x f g
    funext s
    show ((x s).bind fun a => f a.1 a.2).bind (fun a => g a.1 a.2) = (x s).bind fun a => (f a.1 a.2).bind fun a => g a.1 a.2
    induction x s with
    | ret a => rfl
    | ask q k ih => exact congrArg (Tree.ask q) (funext ih)
    | panic p => rfl
    | diverge => rfl
  induction is generalizing acc with
  | nil => rfl
  | cons i is ih =>
    rw [List.cons_append, loopE, loopE, assoc]
    congr 1
    funext it
    rw [assoc]
    congr 1
    funext acc
    exact ih acc

theorem gatherE_step {e : R} {e' : R'} (par par' : Par) {item : Nat → Prog Q A (AItem n K V R)}
    {item' : Nat → Prog Q A' (AItem n K' V' R')} (h : ∀ i, (item i).StepT (item' i)) :
    (gatherE reduce e par item).StepT (gatherE reduce' e' par' item') := by
  have hr : List.range' 0 n = List.range' 0 (n / 2) ++ List.range' (n / 2) (n - n / 2) := by
    have := List.range'_append (s := 0) (m := n / 2) (n := n - n / 2) (step := 1)
    rw [Nat.zero_add, Nat.one_mul] at this
    rw [this]; congr 1; omega
  cases par with
  | sequential =>
    cases par' with
    | sequential => exact loopE_step _ (fun i _ => h i) _ _
    | middleIndex =>
      unfold gatherE
      rw [hr, loopE_append]
      exact .bindT (loopE_step _ (fun i _ => h i) _ _) fun a b =>
        .bindRight (loopE_step _ (fun i _ => h i) _ _) fun a b _ => .resT (x := .ok a)
  | middleIndex =>
    cases par' with
    | sequential =>
      unfold gatherE
      rw [hr, loopE_append item']
      exact .bindT (loopE_step _ (fun i _ => h i) _ _) fun a b =>
        (Prog.Step.bindRight (loopE_step _ (fun i _ => h i) _ _).symm fun a b _ => .resT (x := .ok a)).symm
    | middleIndex =>
      exact .bindT (loopE_step _ (fun i _ => h i) _ _) fun a b =>
        .bindT (loopE_step _ (fun i _ => h i) _ _) fun a b => .resT

end AAcc

/-! ### The operations -/

/-- Closures in step, or the same bulk operation. -/
inductive MapTransform.Step {V' : Type} : MapTransform R (K → V → Prog Q A (MapTransformResult V' R)) →
    MapTransform R' (K → V → Prog Q A' (MapTransformResult V' R')) → Prop
  | generic {F : K → V → Prog Q A (MapTransformResult V' R)} {G : K → V → Prog Q A' (MapTransformResult V' R')} :
      (∀ k v, (F k v).StepT (G k v)) → Step (.generic F) (.generic G)
  | unchanged (r : R) (r' : R') : Step (.unchanged r) (.unchanged r')
  | removed (r : R) (r' : R') : Step (.removed r) (.removed r')

inductive MapTransform.Step2 {V' : Type} : MapTransform R (K → V → L → W → Prog Q A (MapTransformResult V' R)) →
    MapTransform R' (K → V → L → W → Prog Q A' (MapTransformResult V' R')) → Prop
  | generic {F : K → V → L → W → Prog Q A (MapTransformResult V' R)}
      {G : K → V → L → W → Prog Q A' (MapTransformResult V' R')} :
      (∀ k v l w, (F k v l w).StepT (G k v l w)) → Step2 (.generic F) (.generic G)
  | unchanged (r : R) (r' : R') : Step2 (.unchanged r) (.unchanged r')
  | removed (r : R) (r' : R') : Step2 (.removed r) (.removed r')

inductive MapTransmute.Step : MapTransmute R (K → V → Prog Q A (MapTransmuteResult S X R)) →
    MapTransmute R' (K → V → Prog Q A' (MapTransmuteResult S X R')) → Prop
  | generic {F : K → V → Prog Q A (MapTransmuteResult S X R)} {G : K → V → Prog Q A' (MapTransmuteResult S X R')} :
      (∀ k v, (F k v).StepT (G k v)) → Step (.generic F) (.generic G)
  | removed (r : R) (r' : R') : Step (.removed r) (.removed r')

inductive MapTransmute.Step2 : MapTransmute R (K → V → L → W → Prog Q A (MapTransmuteResult S X R)) →
    MapTransmute R' (K → V → L → W → Prog Q A' (MapTransmuteResult S X R')) → Prop
  | generic {F : K → V → L → W → Prog Q A (MapTransmuteResult S X R)}
      {G : K → V → L → W → Prog Q A' (MapTransmuteResult S X R')} :
      (∀ k v l w, (F k v l w).StepT (G k v l w)) → Step2 (.generic F) (.generic G)
  | removed (r : R) (r' : R') : Step2 (.removed r) (.removed r')

inductive MapJointTransform.Step : MapJointTransform R (K → V → K → V → Prog Q A (MapJointTransformResult V R)) →
    MapJointTransform R' (K → V → K → V → Prog Q A' (MapJointTransformResult V R')) → Prop
  | generic {F : K → V → K → V → Prog Q A (MapJointTransformResult V R)}
      {G : K → V → K → V → Prog Q A' (MapJointTransformResult V R')} (b : Bool) :
      (∀ k v l w, (F k v l w).StepT (G k v l w)) → Step (.generic F b) (.generic G b)
  | unchangedLR (r : R) (r' : R') : Step (.unchangedLR r) (.unchangedLR r')
  | unchangedL (r : R) (r' : R') : Step (.unchangedL r) (.unchangedL r')
  | unchangedR (r : R) (r' : R') : Step (.unchangedR r) (.unchangedR r')
  | removed (r : R) (r' : R') : Step (.removed r) (.removed r')

theorem MapTransform.Step.call {op : MapTransform R (K → V → Prog Q A (MapTransformResult V R))}
    {op' : MapTransform R' (K → V → Prog Q A' (MapTransformResult V R'))} (h : op.Step op') (k : K) (v : V) :
    (op.callM k v).StepT (op'.callM k v) := by
  cases h with
  | generic h => exact h k v
  | unchanged r r' => exact .pureT
  | removed r r' => exact .pureT

theorem MapTransform.Step2.call {Y : Type} {op : MapTransform R (K → V → L → W → Prog Q A (MapTransformResult Y R))}
    {op' : MapTransform R' (K → V → L → W → Prog Q A' (MapTransformResult Y R'))} (h : op.Step2 op') (k : K) (v : V)
    (l : L) (w : W) : (op.call2M k v l w).StepT (op'.call2M k v l w) := by
  cases h with
  | generic h => exact h k v l w
  | unchanged r r' => exact .pureT
  | removed r r' => exact .pureT

theorem MapTransform.Step2.flip {Y : Type} {op : MapTransform R (K → V → L → W → Prog Q A (MapTransformResult Y R))}
    {op' : MapTransform R' (K → V → L → W → Prog Q A' (MapTransformResult Y R'))} (h : op.Step2 op') :
    op.flip2M.Step2 op'.flip2M := by
  cases h with
  | generic h => exact .generic fun l w k v => h k v l w
  | unchanged r r' => exact .unchanged r r'
  | removed r r' => exact .removed r r'

theorem MapTransmute.Step.call {op : MapTransmute R (K → V → Prog Q A (MapTransmuteResult S X R))}
    {op' : MapTransmute R' (K → V → Prog Q A' (MapTransmuteResult S X R'))} (h : op.Step op') (k : K) (v : V) :
    (op.callM k v).StepT (op'.callM k v) := by
  cases h with
  | generic h => exact h k v
  | removed r r' => exact .pureT

theorem MapTransmute.Step2.call {op : MapTransmute R (K → V → L → W → Prog Q A (MapTransmuteResult S X R))}
    {op' : MapTransmute R' (K → V → L → W → Prog Q A' (MapTransmuteResult S X R'))} (h : op.Step2 op') (k : K) (v : V)
    (l : L) (w : W) : (op.call2M k v l w).StepT (op'.call2M k v l w) := by
  cases h with
  | generic h => exact h k v l w
  | removed r r' => exact .pureT

theorem MapTransmute.Step2.flip {op : MapTransmute R (K → V → L → W → Prog Q A (MapTransmuteResult S X R))}
    {op' : MapTransmute R' (K → V → L → W → Prog Q A' (MapTransmuteResult S X R'))} (h : op.Step2 op') :
    op.flipM.Step2 op'.flipM := by
  cases h with
  | generic h => exact .generic fun l w k v => h k v l w
  | removed r r' => exact .removed r r'

theorem MapJointTransform.Step.call
    {op : MapJointTransform R (K → V → K → V → Prog Q A (MapJointTransformResult V R))}
    {op' : MapJointTransform R' (K → V → K → V → Prog Q A' (MapJointTransformResult V R'))} (h : op.Step op')
    (k : K) (v : V) (l : K) (w : V) : (op.callM k v l w).StepT (op'.callM k v l w) := by
  cases h with
  | generic b h =>
    cases b with
    | false => exact h k v l w
    | true => exact .map (h l w k v)
  | unchangedLR r r' => exact .pureT
  | unchangedL r r' => exact .pureT
  | unchangedR r r' => exact .pureT
  | removed r r' => exact .pureT

theorem MapJointTransform.Step.flip
    {op : MapJointTransform R (K → V → K → V → Prog Q A (MapJointTransformResult V R))}
    {op' : MapJointTransform R' (K → V → K → V → Prog Q A' (MapJointTransformResult V R'))} (h : op.Step op') :
    op.flip.Step op'.flip := by
  cases h with
  | generic b h => exact .generic _ h
  | unchangedLR r r' => exact .unchangedLR r r'
  | unchangedL r r' => exact .unchangedL r r'
  | unchangedR r r' => exact .unchangedR r r'
  | removed r r' => exact .removed r r'

structure TwmOpsM.Step (o : TwmOpsM Q A K V L W R) (o' : TwmOpsM Q A' K V L W R') : Prop where
  both : o.both.Step2 o'.both
  left : o.left.Step o'.left
  right : o.right.Step o'.right

structure MwtOpsM.Step (o : MwtOpsM Q A K V L W R) (o' : MwtOpsM Q A' K V L W R') : Prop where
  both : o.both.Step2 o'.both
  left : o.left.Step o'.left
  right : o.right.Step o'.right

structure MwmOpsM.Step (o : MwmOpsM Q A K V L W S X R) (o' : MwmOpsM Q A' K V L W S X R') : Prop where
  both : o.both.Step2 o'.both
  left : o.left.Step o'.left
  right : o.right.Step o'.right

structure TwtOpsM.Step (o : TwtOpsM Q A K V R) (o' : TwtOpsM Q A' K V R') : Prop where
  both : o.both.Step o'.both
  left : o.left.Step o'.left
  right : o.right.Step o'.right

theorem TwmOpsM.Step.flip {o : TwmOpsM Q A K V L W R} {o' : TwmOpsM Q A' K V L W R'} (h : o.Step o') :
    o.flip.Step o'.flip := ⟨h.both.flip, h.right, h.left⟩
theorem MwtOpsM.Step.flip {o : MwtOpsM Q A K V L W R} {o' : MwtOpsM Q A' K V L W R'} (h : o.Step o') :
    o.flip.Step o'.flip := ⟨h.both.flip, h.right, h.left⟩
theorem MwmOpsM.Step.flip {o : MwmOpsM Q A K V L W S X R} {o' : MwmOpsM Q A' K V L W S X R'} (h : o.Step o') :
    o.flip.Step o'.flip := ⟨h.both.flip, h.right, h.left⟩
theorem TwtOpsM.Step.flip {o : TwtOpsM Q A K V R} {o' : TwtOpsM Q A' K V R'} (h : o.Step o') :
    o.flip.Step o'.flip := ⟨h.both.flip, h.right, h.left⟩

/-! ### transform and transmute on single nodes and lists -/

variable (reduce : R → R → R) (reduce' : R' → R' → R')

theorem ASNode.transformE_step {op : MapTransform R (K → V → Prog Q A (MapTransformResult V R))}
    {op' : MapTransform R' (K → V → Prog Q A' (MapTransformResult V R'))} (h : op.Step op') (s : ASNode K V) :
    (s.transformE op).StepT (s.transformE op') := .endAl (h.call s.key s.value)

theorem ASNode.transmuteE_step {op : MapTransmute R (K → V → Prog Q A (MapTransmuteResult S X R))}
    {op' : MapTransmute R' (K → V → Prog Q A' (MapTransmuteResult S X R'))} (h : op.Step op') (s : ASNode K V) :
    (s.transmuteE op).StepT (s.transmuteE op') := .endAl (h.call s.key s.value)

theorem ALNode.transformE_step {op : MapTransform R (K → V → Prog Q A (MapTransformResult V R))}
    {op' : MapTransform R' (K → V → Prog Q A' (MapTransformResult V R'))} (h : op.Step op') (l : ALNode K V) :
    (l.transformE reduce op).StepT (l.transformE reduce' op') := by
  cases h with
  | unchanged r r' => cases l <;> exact .pureT
  | removed r r' => cases l <;> exact .pureT
  | generic hf =>
    induction l with
    | nextS a k v s z => exact .two (s.transformE_step (.generic hf)) (hf k v)
    | nextL a k v l z ih => exact .two ih (hf k v)

theorem ALNode.transmuteE_step {op : MapTransmute R (K → V → Prog Q A (MapTransmuteResult S X R))}
    {op' : MapTransmute R' (K → V → Prog Q A' (MapTransmuteResult S X R'))} (h : op.Step op') (l : ALNode K V) :
    (l.transmuteE reduce op).StepT (l.transmuteE reduce' op') := by
  cases h with
  | removed r r' => cases l <;> exact .pureT
  | generic hf =>
    induction l with
    | nextS a k v s z => exact .two (s.transmuteE_step (.generic hf)) (hf k v)
    | nextL a k v l z ih => exact .two ih (hf k v)

end HT
