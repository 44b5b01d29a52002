import Verif.EffSimTrie
import Verif.EffSpec
/-!
# What the objects made by an operation point to, whatever the closures do

`PSim` (`Verif/EffBase.lean`) is about closures that are functions.  Here the closures may answer anything, so there is no
model without addresses to compare with; what remains is where the nodes of the result are: each is one that was in
memory before or is at a new address, and memory stays consistent (`Heap`).
-/
namespace HT

variable {K V L W S X R : Type} {n : Nat} {Q : Type} {A : Q → Type}

/-- All ways the code may return. -/
def Tree.All {α : Type} (P : α → Prop) : Tree Q A α → Prop
  | .ret a => P a
  | .ask _ k => ∀ a, (k a).All P
  | .panic _ => True
  | .diverge => True

theorem Tree.All.mono {α : Type} {P P' : α → Prop} (h : ∀ a, P a → P' a) {x : Tree Q A α} (hx : x.All P) : x.All P' := by
  induction x with
  | ret a => exact h a hx
  | ask q k ih => exact fun a => ih a (hx a)
  | panic p => trivial
  | diverge => trivial

theorem Tree.All.bind {α β : Type} {P : α → Prop} {P' : β → Prop} {x : Tree Q A α} {f : α → Tree Q A β} (hx : x.All P)
    (h : ∀ a, P a → (f a).All P') : (x.bind f).All P' := by
  induction x with
  | ret a => exact h a hx
  | ask q k ih => exact fun a => ih a (hx a)
  | panic p => trivial
  | diverge => trivial

theorem Tree.All.run {α σ : Type} {P : α → Prop} {x : Tree Q A α} (hx : x.All P) (env : (q : Q) → σ → Option (A q × σ))
    (st : σ) {a : α} {st' : σ} (h : (x.run env st).1 = .ret (a, st')) : P a := by
  induction x generalizing st with
  | ret b => cases h; exact hx
  | ask q k ih =>
    rw [Tree.run] at h
    cases he : env q st with
    | none => rw [he] at h; cases h
    | some p => rw [he] at h; exact ih p.1 (hx p.1) p.2 h
  | panic p => cases h
  | diverge => cases h

/-- The memory `U'` with next free address `s'` comes from `U`, `s` by allocating. -/
structure HeapGrown (U : ANode n K V → Prop) (s : Nat) (U' : ANode n K V → Prop) (s' : Nat) : Prop where
  le : s ≤ s'
  old : ∀ z, U z → U' z
  new : ∀ z, U' z → U z ∨ s ≤ z.addr
  heap : Heap U' s'

theorem HeapGrown.refl {U : ANode n K V → Prop} {s : Nat} (heap : Heap U s) : HeapGrown U s U s :=
  ⟨Nat.le_refl _, fun _ h => h, fun _ h => .inl h, heap⟩

theorem HeapGrown.trans {U U' U'' : ANode n K V → Prop} {s s' s'' : Nat} (h : HeapGrown U s U' s') (h' : HeapGrown U' s' U'' s'') :
    HeapGrown U s U'' s'' :=
  ⟨Nat.le_trans h.le h'.le, fun z hz => h'.old z (h.old z hz),
    fun z hz => (h'.new z hz).elim (h.new z) fun hl => .inr (Nat.le_trans h.le hl), h'.heap⟩

/-- Whatever the closures do, if `x` returns then memory has grown and `P` holds of the new memory, the result and
    something. -/
def Fits {α β : Type} (U : ANode n K V → Prop) (s : Nat) (x : Prog Q A α) (P : (ANode n K V → Prop) → α → β → Prop) : Prop :=
  (x s).All fun a => ∃ U', HeapGrown U s U' a.2 ∧ ∃ b, P U' a.1 b

/-- The code does not allocate. -/
def Prog.Still {α : Type} (x : Prog Q A α) : Prop := ∀ s, (x s).All fun a => a.2 = s

namespace Fits
variable {α β γ δ : Type} {U : ANode n K V → Prop} {s : Nat}

theorem pure {a : α} {b : β} {P : (ANode n K V → Prop) → α → β → Prop} (heap : Heap U s)
    (hp : P U a b) : Fits U s (Pure.pure a : Prog Q A α) P := ⟨U, .refl heap, b, hp⟩

theorem bind {x : Prog Q A α} {f : α → Prog Q A γ}
    {P : (ANode n K V → Prop) → α → β → Prop} {P' : (ANode n K V → Prop) → γ → δ → Prop}
    (hx : Fits U s x P)
    (k : ∀ U' s' a b, (∀ z, U z → U' z) → Heap U' s' → P U' a b → Fits U' s' (f a) P') :
    Fits U s (x >>= f) P' :=
  Tree.All.bind hx fun a ⟨U', g, b, hp⟩ => (k U' a.2 a.1 b g.old g.heap hp).mono
    fun _ ⟨U'', g', hp'⟩ => ⟨U'', g.trans g', hp'⟩

/-- A call of a closure. -/
theorem bindQ {x : Prog Q A α} {f : α → Prog Q A γ} {P' : (ANode n K V → Prop) → γ → δ → Prop} (hx : x.Still)
    (k : ∀ a, Fits U s (f a) P') : Fits U s (x >>= f) P' :=
  Tree.All.bind (hx s) fun a e => by rw [e]; exact k a.1

theorem al {x : Al α} {y : Res β} {P : (ANode n K V → Prop) → α → β → Prop}
    (hx : Sim U s x y (fun U' _ => P U')) : Fits U s (Prog.al x : Prog Q A α) P := by
  unfold Fits Prog.al
  unfold Sim at hx
  cases h : x s with
  | ok a =>
    rw [h] at hx
    cases y with
    | ok b => exact ⟨hx.2.choose, ⟨hx.1, hx.2.choose_spec.1, hx.2.choose_spec.2.1, hx.2.choose_spec.2.2.1⟩, b,
        hx.2.choose_spec.2.2.2⟩
    | panic p => exact hx.elim
    | diverge => exact hx.elim
  | panic p => trivial
  | diverge => trivial

theorem bindRes {x : Res α} {f : α → Prog Q A γ} {P' : (ANode n K V → Prop) → γ → δ → Prop}
    (k : ∀ a, x = .ok a → Fits U s (f a) P') : Fits U s (Prog.res x >>= f) P' := by
  cases x with
  | ok a => exact k a rfl
  | panic p => exact trivial
  | diverge => exact trivial

theorem mono {x : Prog Q A α} {P : (ANode n K V → Prop) → α → β → Prop} {P' : (ANode n K V → Prop) → α → δ → Prop}
    (hx : Fits U s x P) (k : ∀ U' a b, P U' a b → ∃ d, P' U' a d) : Fits U s x P' :=
  Tree.All.mono (fun _ ⟨U', g', b, hp⟩ => ⟨U', g', k U' _ b hp⟩) hx

/-- A step that only repackages the result. -/
theorem map {x : Prog Q A α} {f : α → γ}
    {P : (ANode n K V → Prop) → α → β → Prop} {P' : (ANode n K V → Prop) → γ → δ → Prop}
    (hx : Fits U s x P) (k : ∀ U' a b, P U' a b → ∃ d, P' U' (f a) d) :
    Fits U s (do let a ← x; Pure.pure (f a)) P' :=
  bind hx fun U' _ a b _ h3 h4 => (k U' a b h4).elim fun _ hd => pure h3 hd

theorem ite {p : Prop} [Decidable p] {x x' : Prog Q A α} {P : (ANode n K V → Prop) → α → β → Prop}
    (h1 : p → Fits U s x P) (h2 : ¬p → Fits U s x' P) : Fits U s (if p then x else x') P := by
  split
  · exact h1 ‹_›
  · exact h2 ‹_›

end Fits

/-! ### Closures do not allocate maps' nodes -/

theorem Prog.Still.ret {α : Type} (a : α) : (pure a : Prog Q A α).Still := fun _ => rfl
theorem Prog.Still.ask (q : Q) : (Prog.ask q : Prog Q A (A q)).Still := fun _ _ => rfl
theorem Prog.Still.then {α β : Type} {x : Prog Q A α} {f : α → Prog Q A β} (hx : x.Still) (hf : ∀ a, (f a).Still) :
    (x >>= f).Still := fun s => Tree.All.bind (hx s) fun a e => by rw [← e]; exact hf a.1 a.2

def MapTransform.Still {Y : Type} (op : MapTransform R (K → V → Prog Q A (MapTransformResult Y R))) : Prop :=
  ∀ F, op = .generic F → ∀ k v, (F k v).Still
def MapTransform.Still2 {Y : Type} (op : MapTransform R (K → V → L → W → Prog Q A (MapTransformResult Y R))) : Prop :=
  ∀ F, op = .generic F → ∀ k v l w, (F k v l w).Still
def MapTransmute.Still (op : MapTransmute R (K → V → Prog Q A (MapTransmuteResult S X R))) : Prop :=
  ∀ F, op = .generic F → ∀ k v, (F k v).Still
def MapTransmute.Still2 (op : MapTransmute R (K → V → L → W → Prog Q A (MapTransmuteResult S X R))) : Prop :=
  ∀ F, op = .generic F → ∀ k v l w, (F k v l w).Still
def MapJointTransform.Still (op : MapJointTransform R (K → V → K → V → Prog Q A (MapJointTransformResult V R))) : Prop :=
  ∀ F b, op = .generic F b → ∀ k v l w, (F k v l w).Still

structure TwmOpsM.Still (o : TwmOpsM Q A K V L W R) : Prop where
  both : o.both.Still2
  left : o.left.Still
  right : o.right.Still
structure MwtOpsM.Still (o : MwtOpsM Q A K V L W R) : Prop where
  both : o.both.Still2
  left : o.left.Still
  right : o.right.Still
structure MwmOpsM.Still (o : MwmOpsM Q A K V L W S X R) : Prop where
  both : o.both.Still2
  left : o.left.Still
  right : o.right.Still
structure TwtOpsM.Still (o : TwtOpsM Q A K V R) : Prop where
  both : o.both.Still
  left : o.left.Still
  right : o.right.Still

theorem MapTransform.Still.call {op : MapTransform R (K → V → Prog Q A (MapTransformResult V R))} (h : op.Still) (k : K)
    (v : V) : (op.callM k v).Still := by
  cases op with
  | generic F => exact h F rfl k v
  | unchanged r => exact .ret _
  | removed r => exact .ret _
theorem MapTransform.Still2.call {Y : Type} {op : MapTransform R (K → V → L → W → Prog Q A (MapTransformResult Y R))}
    (h : op.Still2) (k : K) (v : V) (l : L) (w : W) : (op.call2M k v l w).Still := by
  cases op with
  | generic F => exact h F rfl k v l w
  | unchanged r => exact .ret _
  | removed r => exact .ret _
theorem MapTransform.Still2.flip {Y : Type} {op : MapTransform R (K → V → L → W → Prog Q A (MapTransformResult Y R))}
    (h : op.Still2) : op.flip2M.Still2 := by
  cases op with
  | generic F => intro G hG l w k v; injection hG with hG; subst hG; exact h F rfl k v l w
  | unchanged r => intro G hG; cases hG
  | removed r => intro G hG; cases hG
theorem MapTransmute.Still.call {op : MapTransmute R (K → V → Prog Q A (MapTransmuteResult S X R))} (h : op.Still) (k : K)
    (v : V) : (op.callM k v).Still := by
  cases op with
  | generic F => exact h F rfl k v
  | removed r => exact .ret _
theorem MapTransmute.Still2.call {op : MapTransmute R (K → V → L → W → Prog Q A (MapTransmuteResult S X R))}
    (h : op.Still2) (k : K) (v : V) (l : L) (w : W) : (op.call2M k v l w).Still := by
  cases op with
  | generic F => exact h F rfl k v l w
  | removed r => exact .ret _
theorem MapTransmute.Still2.flip {op : MapTransmute R (K → V → L → W → Prog Q A (MapTransmuteResult S X R))}
    (h : op.Still2) : op.flipM.Still2 := by
  cases op with
  | generic F => intro G hG l w k v; injection hG with hG; subst hG; exact h F rfl k v l w
  | removed r => intro G hG; cases hG
theorem MapJointTransform.Still.call
    {op : MapJointTransform R (K → V → K → V → Prog Q A (MapJointTransformResult V R))} (h : op.Still)
    (k : K) (v : V) (l : K) (w : V) : (op.callM k v l w).Still := by
  cases op with
  | generic F b =>
    cases b with
    | false => exact h F _ rfl k v l w
    | true => exact .then (h F _ rfl l w k v) fun _ => .ret _
  | unchangedLR r => exact .ret _
  | unchangedL r => exact .ret _
  | unchangedR r => exact .ret _
  | removed r => exact .ret _
theorem MapJointTransform.Still.flip
    {op : MapJointTransform R (K → V → K → V → Prog Q A (MapJointTransformResult V R))} (h : op.Still) :
    op.flip.Still := by
  cases op with
  | generic F b => intro G b' hG; injection hG with hG; subst hG; exact h F _ rfl
  | unchangedLR r => intro G b' hG; cases hG
  | unchangedL r => intro G b' hG; cases hG
  | unchangedR r => intro G b' hG; cases hG
  | removed r => intro G b' hG; cases hG

theorem TwmOpsM.Still.flip {o : TwmOpsM Q A K V L W R} (h : o.Still) : o.flip.Still := ⟨h.both.flip, h.right, h.left⟩
theorem MwtOpsM.Still.flip {o : MwtOpsM Q A K V L W R} (h : o.Still) : o.flip.Still := ⟨h.both.flip, h.right, h.left⟩
theorem MwmOpsM.Still.flip {o : MwmOpsM Q A K V L W S X R} (h : o.Still) : o.flip.Still := ⟨h.both.flip, h.right, h.left⟩
theorem TwtOpsM.Still.flip {o : TwtOpsM Q A K V R} (h : o.Still) : o.flip.Still := ⟨h.both.flip, h.right, h.left⟩

/-! The operations of `Verif/EffSpec.lean` -/

theorem MapTransform.asking_still (o : MapTransform R Unit) :
    (o.asking : MapTransform R (K → V → Prog (K × V) (fun _ => MapTransformResult V R) _)).Still := by
  intro F hF k v
  cases o with
  | generic u => injection hF with hF; subst hF; exact .ask _
  | unchanged r => cases hF
  | removed r => cases hF
theorem MapTransmute.asking_still (o : MapTransmute R Unit) :
    (o.asking : MapTransmute R (K → V → Prog (K × V) (fun _ => MapTransmuteResult S X R) _)).Still := by
  intro F hF k v
  cases o with
  | generic u => injection hF with hF; subst hF; exact .ask _
  | removed r => cases hF

theorem MapTransform.map_still {F : Unit → K → V → Prog Q A (MapTransformResult W R)} (h : ∀ u k v, (F u k v).Still)
    (o : MapTransform R Unit) : (o.map F).Still := by
  intro G hG k v
  cases o with
  | generic u => injection hG with hG; subst hG; exact h u k v
  | unchanged r => cases hG
  | removed r => cases hG
theorem MapTransform.map_still2 {Y : Type} {F : Unit → K → V → L → W → Prog Q A (MapTransformResult Y R)}
    (h : ∀ u k v l w, (F u k v l w).Still) (o : MapTransform R Unit) : (o.map F).Still2 := by
  intro G hG k v l w
  cases o with
  | generic u => injection hG with hG; subst hG; exact h u k v l w
  | unchanged r => cases hG
  | removed r => cases hG
theorem MapTransmute.map_still {F : Unit → K → V → Prog Q A (MapTransmuteResult S X R)} (h : ∀ u k v, (F u k v).Still)
    (o : MapTransmute R Unit) : (o.map F).Still := by
  intro G hG k v
  cases o with
  | generic u => injection hG with hG; subst hG; exact h u k v
  | removed r => cases hG
theorem MapTransmute.map_still2 {F : Unit → K → V → L → W → Prog Q A (MapTransmuteResult S X R)}
    (h : ∀ u k v l w, (F u k v l w).Still) (o : MapTransmute R Unit) : (o.map F).Still2 := by
  intro G hG k v l w
  cases o with
  | generic u => injection hG with hG; subst hG; exact h u k v l w
  | removed r => cases hG
theorem MapJointTransform.map_still {F : Unit → K → V → K → V → Prog Q A (MapJointTransformResult V R)}
    (h : ∀ u k v l w, (F u k v l w).Still) (o : MapJointTransform R Unit) : (o.map F).Still := by
  intro G b hG k v l w
  cases o with
  | generic u => injection hG with hG; subst hG; exact h _ k v l w
  | unchangedLR r => cases hG
  | unchangedL r => cases hG
  | unchangedR r => cases hG
  | removed r => cases hG

theorem TwmKinds.asking_still (o : TwmKinds R) : (o.asking (K := K) (V := V) (L := L) (W := W)).Still :=
  ⟨MapTransform.map_still2 (fun _ _ _ _ _ => .ask _) _, MapTransform.map_still (fun _ _ _ => .ask _) _, MapTransmute.map_still (fun _ _ _ => .ask _) _⟩
theorem MwtKinds.asking_still (o : MwtKinds R) : (o.asking (K := K) (V := V) (L := L) (W := W)).Still :=
  ⟨MapTransform.map_still2 (fun _ _ _ _ _ => .ask _) _, MapTransmute.map_still (fun _ _ _ => .ask _) _, MapTransform.map_still (fun _ _ _ => .ask _) _⟩
theorem MwmKinds.asking_still (o : MwmKinds R) :
    (o.asking (K := K) (V := V) (L := L) (W := W) (S := S) (X := X)).Still :=
  ⟨MapTransmute.map_still2 (fun _ _ _ _ _ => .ask _) _, MapTransmute.map_still (fun _ _ _ => .ask _) _, MapTransmute.map_still (fun _ _ _ => .ask _) _⟩
theorem TwtKinds.asking_still (o : TwtKinds R) : (o.asking (K := K) (V := V)).Still :=
  ⟨MapJointTransform.map_still (fun _ _ _ _ _ => .ask _) _, MapTransform.map_still (fun _ _ _ => .ask _) _, MapTransform.map_still (fun _ _ _ => .ask _) _⟩

end HT
