import Verif.Arc
import Verif.JointNode
/-!
# Calls of the user's closures as effects

In the rest of the model the closures given to the bulk and joint operations are pure total functions.  Here a call of
a closure is a step of its own: code is a tree of such calls, and what a closure answers may depend on anything (state,
earlier calls), or it may panic or never return.  `Verif/EffNode.lean` models the bulk and joint operations once more in
this form, with addresses as in `Verif/Arc.lean`.

`reduce_op` stays a pure total function.
-/
namespace HT

variable {K V L W S X R : Type}

/-- Code calling closures: `ask q k` calls a closure with arguments `q` and continues with `k` of the answer.
    `A q` is the type of answers to `q`. -/
inductive Tree (Q : Type) (A : Q → Type) (α : Type) where
  | ret (a : α)
  | ask (q : Q) (k : A q → Tree Q A α)
  | panic (p : Panic)
  | diverge

/-- How a run of such code ends: it returns, panics, never ends, or ends because the call `q` of a closure panics or
    never returns. -/
inductive Outcome (Q α : Type) where
  | ret (a : α)
  | panic (p : Panic)
  | diverge
  | closure (q : Q)

/-- A call of a closure and what it answered; `none` if it did not return. -/
abbrev Reply (Q : Type) (A : Q → Type) := (q : Q) × Option (A q)

namespace Tree
variable {Q : Type} {A : Q → Type} {α β σ : Type}

/-- Sequencing. -/
def bind (x : Tree Q A α) (f : α → Tree Q A β) : Tree Q A β :=
  match x with
  | .ret a => f a
  | .ask q k => .ask q fun a => (k a).bind f
  | .panic p => .panic p
  | .diverge => .diverge

/-- A run: `env` is the closures, with a state of type `σ` that they may read and change; `env q st = none` is a closure
    that panics or does not return.  The result is how the run ends, and the calls made, in order. -/
def run (env : (q : Q) → σ → Option (A q × σ)) : Tree Q A α → σ → Outcome Q (α × σ) × List (Reply Q A)
  | .ret a, st => (.ret (a, st), [])
  | .ask q k, st =>
    match env q st with
    | none => (.closure q, [⟨q, none⟩])
    | some (a, st') => (((k a).run env st').1, ⟨q, some a⟩ :: ((k a).run env st').2)
  | .panic p, _ => (.panic p, [])
  | .diverge, _ => (.diverge, [])

/-- The outcome when the closures are pure total functions. -/
def eval (h : (q : Q) → A q) : Tree Q A α → Res α
  | .ret a => .ok a
  | .ask q k => (k (h q)).eval h
  | .panic p => .panic p
  | .diverge => .diverge

end Tree

/-- Code that calls closures and allocates: the argument is the next free address. -/
def Prog (Q : Type) (A : Q → Type) (α : Type) := Nat → Tree Q A (α × Nat)

namespace Prog
variable {Q : Type} {A : Q → Type} {α β : Type}

instance : Monad (Prog Q A) where
  pure a := fun s => .ret (a, s)
  bind x f := fun s => (x s).bind fun a => f a.1 a.2

/-- Code that allocates and calls no closure. -/
def al (x : Al α) : Prog Q A α := fun s =>
  match x s with
  | .ok a => .ret a
  | .panic p => .panic p
  | .diverge => .diverge

/-- Code that neither allocates nor calls a closure. -/
def res (x : Res α) : Prog Q A α := Prog.al (Al.lift x)

/-- A call of a closure. -/
def ask (q : Q) : Prog Q A (A q) := fun s => .ask q fun a => .ret (a, s)

/-- What the code does when the closures are pure total functions. -/
def eval (h : (q : Q) → A q) (x : Prog Q A α) : Al α := fun s => (x s).eval h

end Prog

/-! ### Operations whose closures are such code -/

section
variable {Q : Type} {A : Q → Type}

/-- As `MapTransform.call` (`/repo/src/transformations.rs:162-169`). -/
def MapTransform.callM (op : MapTransform R (K → V → Prog Q A (MapTransformResult V R))) (k : K) (v : V) :
    Prog Q A (MapTransformResult V R) :=
  match op with
  | .generic f => f k v
  | .unchanged r => pure (.unchanged r)
  | .removed r => pure (.removed r)

/-- As `MapTransform.call2` (`/repo/src/transformations.rs:172-189`). -/
def MapTransform.call2M {Y : Type} (op : MapTransform R (K → V → L → W → Prog Q A (MapTransformResult Y R)))
    (k : K) (v : V) (l : L) (w : W) : Prog Q A (MapTransformResult Y R) :=
  match op with
  | .generic f => f k v l w
  | .unchanged r => pure (.unchanged r)
  | .removed r => pure (.removed r)

/-- As `MapTransform.flip2` (`/repo/src/transformations.rs:192-216`). -/
def MapTransform.flip2M {Y : Type} (op : MapTransform R (K → V → L → W → Prog Q A (MapTransformResult Y R))) :
    MapTransform R (L → W → K → V → Prog Q A (MapTransformResult Y R)) :=
  match op with
  | .generic f => .generic fun l w k v => f k v l w
  | .unchanged r => .unchanged r
  | .removed r => .removed r

/-- As `MapTransmute.call` (`/repo/src/transformations.rs:353-359`). -/
def MapTransmute.callM (op : MapTransmute R (K → V → Prog Q A (MapTransmuteResult S X R))) (k : K) (v : V) :
    Prog Q A (MapTransmuteResult S X R) :=
  match op with
  | .generic f => f k v
  | .removed r => pure (.removed r)

/-- As `MapTransmute.call2` (`/repo/src/transformations.rs:362-368`). -/
def MapTransmute.call2M (op : MapTransmute R (K → V → L → W → Prog Q A (MapTransmuteResult S X R)))
    (k : K) (v : V) (l : L) (w : W) : Prog Q A (MapTransmuteResult S X R) :=
  match op with
  | .generic f => f k v l w
  | .removed r => pure (.removed r)

/-- As `MapTransmute.flip` (`/repo/src/transformations.rs:371-381`). -/
def MapTransmute.flipM (op : MapTransmute R (K → V → L → W → Prog Q A (MapTransmuteResult S X R))) :
    MapTransmute R (L → W → K → V → Prog Q A (MapTransmuteResult S X R)) :=
  match op with
  | .generic f => .generic fun l w k v => f k v l w
  | .removed r => .removed r

/-- As `MapJointTransform.call` (`/repo/src/transformations.rs:20-36`). -/
def MapJointTransform.callM
    (op : MapJointTransform R (K → V → K → V → Prog Q A (MapJointTransformResult V R)))
    (k : K) (v : V) (l : K) (w : V) : Prog Q A (MapJointTransformResult V R) :=
  match op with
  | .generic f flipped =>
    if flipped then do
      let r ← f l w k v
      pure r.flip
    else f k v l w
  | .unchangedLR r => pure (.unchangedLR r)
  | .unchangedL r => pure (.unchangedL r)
  | .unchangedR r => pure (.unchangedR r)
  | .removed r => pure (.removed r)

/-- As `TwmOps` (`/repo/src/hash_trie.rs:121-135`). -/
structure TwmOpsM (Q : Type) (A : Q → Type) (K V L W R : Type) where
  both : MapTransform R (K → V → L → W → Prog Q A (MapTransformResult V R))
  left : MapTransform R (K → V → Prog Q A (MapTransformResult V R))
  right : MapTransmute R (L → W → Prog Q A (MapTransmuteResult K V R))

/-- As `MwtOps` (`/repo/src/hash_trie.rs:145-159`). -/
structure MwtOpsM (Q : Type) (A : Q → Type) (K V L W R : Type) where
  both : MapTransform R (K → V → L → W → Prog Q A (MapTransformResult W R))
  left : MapTransmute R (K → V → Prog Q A (MapTransmuteResult L W R))
  right : MapTransform R (L → W → Prog Q A (MapTransformResult W R))

/-- As `MwmOps` (`/repo/src/hash_trie.rs:169-188`). -/
structure MwmOpsM (Q : Type) (A : Q → Type) (K V L W S X R : Type) where
  both : MapTransmute R (K → V → L → W → Prog Q A (MapTransmuteResult S X R))
  left : MapTransmute R (K → V → Prog Q A (MapTransmuteResult S X R))
  right : MapTransmute R (L → W → Prog Q A (MapTransmuteResult S X R))

/-- As `TwtOps` (`/repo/src/hash_trie.rs:101-109`). -/
structure TwtOpsM (Q : Type) (A : Q → Type) (K V R : Type) where
  both : MapJointTransform R (K → V → K → V → Prog Q A (MapJointTransformResult V R))
  left : MapTransform R (K → V → Prog Q A (MapTransformResult V R))
  right : MapTransform R (K → V → Prog Q A (MapTransformResult V R))

/-- As `TwmOps.flip` (e.g. `/repo/src/node/lnode.rs:239`). -/
def TwmOpsM.flip (o : TwmOpsM Q A K V L W R) : MwtOpsM Q A L W K V R := ⟨o.both.flip2M, o.right, o.left⟩

/-- As `MwtOps.flip` (e.g. `/repo/src/node/lnode.rs:260`). -/
def MwtOpsM.flip (o : MwtOpsM Q A K V L W R) : TwmOpsM Q A L W K V R := ⟨o.both.flip2M, o.right, o.left⟩

/-- As `MwmOps.flip` (e.g. `/repo/src/node/lnode.rs:286`). -/
def MwmOpsM.flip (o : MwmOpsM Q A K V L W S X R) : MwmOpsM Q A L W K V S X R := ⟨o.both.flipM, o.right, o.left⟩

/-- As `TwtOps.flip` (e.g. `/repo/src/node/lnode.rs:218`). -/
def TwtOpsM.flip (o : TwtOpsM Q A K V R) : TwtOpsM Q A K V R := ⟨o.both.flip, o.right, o.left⟩

end
end HT
