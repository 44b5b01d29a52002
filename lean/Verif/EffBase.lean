import Verif.EffNode
import Verif.ArcInsert
/-! # Code that calls closures, when the closures are pure total functions -/
namespace HT

variable {K V L W S X R : Type} {n : Nat} {Q : Type} {A : Q → Type}

theorem Tree.eval_bind {α β : Type} (h : (q : Q) → A q) (x : Tree Q A α) (f : α → Tree Q A β) :
    (x.bind f).eval h = (x.eval h >>= fun a => (f a).eval h) := by
  induction x with
  | ret a => rfl
  | ask q k ih => exact ih _
  | panic p => rfl
  | diverge => rfl

namespace Prog
variable {α β : Type}

theorem eval_bind (h : (q : Q) → A q) (x : Prog Q A α) (f : α → Prog Q A β) :
    Prog.eval h (x >>= f) = (Prog.eval h x >>= fun a => Prog.eval h (f a)) := by
  funext s
  show ((x s).bind fun a => f a.1 a.2).eval h = Al.bind (Prog.eval h x) (fun a => Prog.eval h (f a)) s
  rw [Tree.eval_bind]
  unfold Al.bind Prog.eval
  cases (x s).eval h with
  | ok a => rfl
  | panic p => rfl
  | diverge => rfl

theorem eval_pure (h : (q : Q) → A q) (a : α) : Prog.eval h (pure a : Prog Q A α) = pure a := rfl

theorem eval_al (h : (q : Q) → A q) (x : Al α) : Prog.eval h (Prog.al x : Prog Q A α) = x := by
  funext s
  unfold Prog.eval Prog.al
  cases x s <;> rfl

theorem eval_res (h : (q : Q) → A q) (x : Res α) : Prog.eval h (Prog.res x : Prog Q A α) = Al.lift x :=
  eval_al h _

theorem eval_ask (h : (q : Q) → A q) (q : Q) : Prog.eval h (Prog.ask q : Prog Q A (A q)) = pure (h q) := rfl

end Prog

/-! ### Simulation -/

/-- `Sim` of code whose closures are the pure total functions `h`. -/
def PSim {α β : Type} (h : (q : Q) → A q) (U : ANode n K V → Prop) (s : Nat) (x : Prog Q A α) (y : Res β)
    (P : (ANode n K V → Prop) → α → β → Prop) : Prop :=
  Sim U s (Prog.eval h x) y (fun U' _ => P U')

namespace PSim
variable {α β γ δ : Type} {h : (q : Q) → A q} {U : ANode n K V → Prop} {s : Nat}

theorem pure {a : α} {b : β} {P : (ANode n K V → Prop) → α → β → Prop} (heap : Heap U s)
    (hp : P U a b) : PSim h U s (Pure.pure a) (.ok b) P := Sim.pure heap hp

theorem bind {x : Prog Q A α} {y : Res β} {f : α → Prog Q A γ} {g : β → Res δ}
    {P : (ANode n K V → Prop) → α → β → Prop} {P' : (ANode n K V → Prop) → γ → δ → Prop}
    (hx : PSim h U s x y P)
    (k : ∀ U' s' a b, (∀ z, U z → U' z) → Heap U' s' → P U' a b → PSim h U' s' (f a) (g b) P') :
    PSim h U s (x >>= f) (y >>= g) P' := by
  unfold PSim
  rw [Prog.eval_bind]
  exact Sim.bind hx fun U' s' a b _ h2 h3 h4 => k U' s' a b h2 h3 h4

theorem bindOk {x : Prog Q A α} {b : β} {f : α → Prog Q A γ} {z : Res δ}
    {P : (ANode n K V → Prop) → α → β → Prop} {P' : (ANode n K V → Prop) → γ → δ → Prop}
    (hx : PSim h U s x (.ok b) P)
    (k : ∀ U' s' a, (∀ z, U z → U' z) → Heap U' s' → P U' a b → PSim h U' s' (f a) z P') :
    PSim h U s (x >>= f) z P' := by
  unfold PSim
  rw [Prog.eval_bind]
  exact Sim.bindOk hx fun U' s' a _ h2 h3 h4 => k U' s' a h2 h3 h4

/-- A step that returns `a` and changes nothing. -/
theorem bindPure {x : Prog Q A α} {a : α} {f : α → Prog Q A γ} {z : Res δ}
    {P' : (ANode n K V → Prop) → γ → δ → Prop} (hx : Prog.eval h x = Pure.pure a)
    (k : PSim h U s (f a) z P') : PSim h U s (x >>= f) z P' := by
  unfold PSim
  rw [Prog.eval_bind, hx]
  exact k

theorem al {x : Al α} {y : Res β} {P : (ANode n K V → Prop) → α → β → Prop}
    (hx : Sim U s x y (fun U' _ => P U')) : PSim h U s (Prog.al x) y P := by
  unfold PSim
  rw [Prog.eval_al]
  exact hx

theorem bindRes {x : Res α} {f : α → Prog Q A γ} {g : α → Res δ}
    {P' : (ANode n K V → Prop) → γ → δ → Prop}
    (k : ∀ a, x = .ok a → PSim h U s (f a) (g a) P') : PSim h U s (Prog.res x >>= f) (x >>= g) P' := by
  unfold PSim
  rw [Prog.eval_bind, Prog.eval_res]
  exact Sim.bindLift k

theorem bindResMap {x : Res α} {g' : α → β} {f : α → Prog Q A γ} {g : β → Res δ}
    {P' : (ANode n K V → Prop) → γ → δ → Prop}
    (k : ∀ a, x = .ok a → PSim h U s (f a) (g (g' a)) P') :
    PSim h U s (Prog.res x >>= f) (x.map g' >>= g) P' := by
  unfold PSim
  rw [Prog.eval_bind, Prog.eval_res]
  exact Sim.bindLiftMap k

theorem mono {x : Prog Q A α} {y : Res β} {P P' : (ANode n K V → Prop) → α → β → Prop}
    (hx : PSim h U s x y P) (k : ∀ U' a b, (∀ z, U z → U' z) → P U' a b → P' U' a b) : PSim h U s x y P' :=
  Sim.mono hx fun U' _ a b _ h2 _ h4 => k U' a b h2 h4

/-- A step that only repackages the result. -/
theorem map {x : Prog Q A α} {y : Res β} {f : α → γ} {g : β → δ}
    {P : (ANode n K V → Prop) → α → β → Prop} {P' : (ANode n K V → Prop) → γ → δ → Prop}
    (hx : PSim h U s x y P) (k : ∀ U' a b, P U' a b → P' U' (f a) (g b)) :
    PSim h U s (do let a ← x; Pure.pure (f a)) (do let b ← y; .ok (g b)) P' :=
  bind hx fun U' _ a b _ h3 h4 => pure h3 (k U' a b h4)

theorem mapOk {x : Prog Q A α} {b : β} {f : α → γ} {g : β → δ}
    {P : (ANode n K V → Prop) → α → β → Prop} {P' : (ANode n K V → Prop) → γ → δ → Prop}
    (hx : PSim h U s x (.ok b) P) (k : ∀ U' a b, P U' a b → P' U' (f a) (g b)) :
    PSim h U s (do let a ← x; Pure.pure (f a)) (.ok (g b)) P' :=
  bindOk hx fun U' _ a _ h3 h4 => pure h3 (k U' a b h4)

end PSim

/-! ### Related results -/

/-- Related transform results. -/
inductive TP {N N' : Type} (P : N → N' → Prop) : TRes N R → TRes N' R → Prop
  | unchanged (r : R) : TP P (.unchanged r) (.unchanged r)
  | node {m : N} {m' : N'} (r : R) : P m m' → TP P (.node m r) (.node m' r)
  | removed (r : R) : TP P (.removed r) (.removed r)

/-- Related transmute results. -/
inductive XP {N N' : Type} (P : N → N' → Prop) : XRes N R → XRes N' R → Prop
  | node {m : N} {m' : N'} (r : R) : P m m' → XP P (.node m r) (.node m' r)
  | removed (r : R) : XP P (.removed r) (.removed r)

/-- Related joint results. -/
inductive JP {N N' : Type} (P : N → N' → Prop) : JRes N R → JRes N' R → Prop
  | unchangedLR (r : R) : JP P (.unchangedLR r) (.unchangedLR r)
  | unchangedL (r : R) : JP P (.unchangedL r) (.unchangedL r)
  | unchangedR (r : R) : JP P (.unchangedR r) (.unchangedR r)
  | node {m : N} {m' : N'} (r : R) : P m m' → JP P (.node m r) (.node m' r)
  | removed (r : R) : JP P (.removed r) (.removed r)

/-- A single node in memory and what it is without address. -/
def InS (U : ANode n K V → Prop) (m : ASNode K V) (m' : SNode K V) : Prop := U (.S m) ∧ m.erase = m'

/-- A list or single node in memory. -/
def InL (U : ANode n K V → Prop) (m : ALNext K V) (m' : LNext K V) : Prop := U m.toNode ∧ m.erase = m'

/-- A node in memory. -/
def InN (U : ANode n K V → Prop) (m : ANode n K V) (m' : Node n K V) : Prop := U m ∧ m.erase = m'

section
variable {N N' M M' : Type} {P : N → N' → Prop} {P' : M → M' → Prop}

theorem TP.map {f : N → M} {g : N' → M'} (hf : ∀ m m', P m m' → P' (f m) (g m')) {a : TRes N R} {b : TRes N' R}
    (h : TP P a b) : TP P' (a.map f) (b.map g) := by
  cases h with
  | unchanged r => exact .unchanged r
  | node r h => exact .node r (hf _ _ h)
  | removed r => exact .removed r

theorem XP.map {f : N → M} {g : N' → M'} (hf : ∀ m m', P m m' → P' (f m) (g m')) {a : XRes N R} {b : XRes N' R}
    (h : XP P a b) : XP P' (a.map f) (b.map g) := by
  cases h with
  | node r h => exact .node r (hf _ _ h)
  | removed r => exact .removed r

theorem JP.map {f : N → M} {g : N' → M'} (hf : ∀ m m', P m m' → P' (f m) (g m')) {a : JRes N R} {b : JRes N' R}
    (h : JP P a b) : JP P' (a.map f) (b.map g) := by
  cases h with
  | unchangedLR r => exact .unchangedLR r
  | unchangedL r => exact .unchangedL r
  | unchangedR r => exact .unchangedR r
  | node r h => exact .node r (hf _ _ h)
  | removed r => exact .removed r

theorem TP.mono {P' : N → N' → Prop} (hf : ∀ m m', P m m' → P' m m') {a : TRes N R} {b : TRes N' R}
    (h : TP P a b) : TP P' a b := by
  cases h with
  | unchanged r => exact .unchanged r
  | node r h => exact .node r (hf _ _ h)
  | removed r => exact .removed r

theorem XP.mono {P' : N → N' → Prop} (hf : ∀ m m', P m m' → P' m m') {a : XRes N R} {b : XRes N' R}
    (h : XP P a b) : XP P' a b := by
  cases h with
  | node r h => exact .node r (hf _ _ h)
  | removed r => exact .removed r

theorem XP.toT {a : XRes N R} {b : XRes N' R} (h : XP P a b) : TP P a.toT b.toT := by
  cases h with
  | node r h => exact .node r h
  | removed r => exact .removed r

theorem TP.jointL {a : TRes N R} {b : TRes N' R} (h : TP P a b) : JP P a.jointL b.jointL := by
  cases h with
  | unchanged r => exact .unchangedL r
  | node r h => exact .node r h
  | removed r => exact .removed r

theorem TP.jointR {a : TRes N R} {b : TRes N' R} (h : TP P a b) : JP P a.jointR b.jointR := by
  cases h with
  | unchanged r => exact .unchangedR r
  | node r h => exact .node r h
  | removed r => exact .removed r

theorem JP.flip {a : JRes N R} {b : JRes N' R} (h : JP P a b) : JP P a.flip b.flip := by
  cases h with
  | unchangedLR r => exact .unchangedLR r
  | unchangedL r => exact .unchangedR r
  | unchangedR r => exact .unchangedL r
  | node r h => exact .node r h
  | removed r => exact .removed r

end

theorem InS.toL {U : ANode n K V → Prop} {m : ASNode K V} {m' : SNode K V} (h : InS U m m') :
    InL U (.S m) (.S m') := ⟨h.1, congrArg LNext.S h.2⟩

theorem InS.toN {U : ANode n K V → Prop} {m : ASNode K V} {m' : SNode K V} (h : InS U m m') :
    InN U (.S m) (.S m') := ⟨h.1, congrArg Node.S h.2⟩

theorem InL.toN {U : ANode n K V → Prop} {m : ALNext K V} {m' : LNext K V} (h : InL U m m') :
    InN U m.toNode m'.toNode := ⟨h.1, by rw [ALNext.toNode_erase, h.2]⟩

theorem InL.mono {U U' : ANode n K V → Prop} (hs : ∀ z, U z → U' z) {m : ALNext K V} {m' : LNext K V}
    (h : InL U m m') : InL U' m m' := ⟨hs _ h.1, h.2⟩

theorem InN.mono {U U' : ANode n K V → Prop} (hs : ∀ z, U z → U' z) {m : ANode n K V} {m' : Node n K V}
    (h : InN U m m') : InN U' m m' := ⟨hs _ h.1, h.2⟩

/-! ### Related operations -/

/-- The operation `F`, with the closures `h`, is the pure operation `f`. -/
inductive MapTransform.Rel {V' : Type} (h : (q : Q) → A q) :
    MapTransform R (K → V → Prog Q A (MapTransformResult V' R)) →
    MapTransform R (K → V → MapTransformResult V' R) → Prop
  | generic {F : K → V → Prog Q A (MapTransformResult V' R)} {f : K → V → MapTransformResult V' R} :
      (∀ k v, Prog.eval h (F k v) = pure (f k v)) → Rel h (.generic F) (.generic f)
  | unchanged (r : R) : Rel h (.unchanged r) (.unchanged r)
  | removed (r : R) : Rel h (.removed r) (.removed r)

/-- As `MapTransform.Rel`, for closures of two entries. -/
inductive MapTransform.Rel2 {V' : Type} (h : (q : Q) → A q) :
    MapTransform R (K → V → L → W → Prog Q A (MapTransformResult V' R)) →
    MapTransform R (K → V → L → W → MapTransformResult V' R) → Prop
  | generic {F : K → V → L → W → Prog Q A (MapTransformResult V' R)} {f : K → V → L → W → MapTransformResult V' R} :
      (∀ k v l w, Prog.eval h (F k v l w) = pure (f k v l w)) → Rel2 h (.generic F) (.generic f)
  | unchanged (r : R) : Rel2 h (.unchanged r) (.unchanged r)
  | removed (r : R) : Rel2 h (.removed r) (.removed r)

inductive MapTransmute.Rel (h : (q : Q) → A q) :
    MapTransmute R (K → V → Prog Q A (MapTransmuteResult S X R)) →
    MapTransmute R (K → V → MapTransmuteResult S X R) → Prop
  | generic {F : K → V → Prog Q A (MapTransmuteResult S X R)} {f : K → V → MapTransmuteResult S X R} :
      (∀ k v, Prog.eval h (F k v) = pure (f k v)) → Rel h (.generic F) (.generic f)
  | removed (r : R) : Rel h (.removed r) (.removed r)

inductive MapTransmute.Rel2 (h : (q : Q) → A q) :
    MapTransmute R (K → V → L → W → Prog Q A (MapTransmuteResult S X R)) →
    MapTransmute R (K → V → L → W → MapTransmuteResult S X R) → Prop
  | generic {F : K → V → L → W → Prog Q A (MapTransmuteResult S X R)} {f : K → V → L → W → MapTransmuteResult S X R} :
      (∀ k v l w, Prog.eval h (F k v l w) = pure (f k v l w)) → Rel2 h (.generic F) (.generic f)
  | removed (r : R) : Rel2 h (.removed r) (.removed r)

inductive MapJointTransform.Rel (h : (q : Q) → A q) :
    MapJointTransform R (K → V → K → V → Prog Q A (MapJointTransformResult V R)) →
    MapJointTransform R (K → V → K → V → MapJointTransformResult V R) → Prop
  | generic {F : K → V → K → V → Prog Q A (MapJointTransformResult V R)}
      {f : K → V → K → V → MapJointTransformResult V R} (b : Bool) :
      (∀ k v l w, Prog.eval h (F k v l w) = pure (f k v l w)) → Rel h (.generic F b) (.generic f b)
  | unchangedLR (r : R) : Rel h (.unchangedLR r) (.unchangedLR r)
  | unchangedL (r : R) : Rel h (.unchangedL r) (.unchangedL r)
  | unchangedR (r : R) : Rel h (.unchangedR r) (.unchangedR r)
  | removed (r : R) : Rel h (.removed r) (.removed r)

section
variable {h : (q : Q) → A q}

theorem MapTransform.Rel.call {op : MapTransform R (K → V → Prog Q A (MapTransformResult V R))}
    {op' : MapTransform R (K → V → MapTransformResult V R)} (r : op.Rel h op') (k : K) (v : V) :
    Prog.eval h (op.callM k v) = pure (op'.call k v) := by
  cases r with
  | generic hf => exact hf k v
  | unchanged r => rfl
  | removed r => rfl

theorem MapTransform.Rel2.call {Y : Type} {op : MapTransform R (K → V → L → W → Prog Q A (MapTransformResult Y R))}
    {op' : MapTransform R (K → V → L → W → MapTransformResult Y R)} (r : op.Rel2 h op') (k : K) (v : V) (l : L) (w : W) :
    Prog.eval h (op.call2M k v l w) = pure (op'.call2 k v l w) := by
  cases r with
  | generic hf => exact hf k v l w
  | unchanged r => rfl
  | removed r => rfl

theorem MapTransform.Rel2.flip {Y : Type} {op : MapTransform R (K → V → L → W → Prog Q A (MapTransformResult Y R))}
    {op' : MapTransform R (K → V → L → W → MapTransformResult Y R)} (r : op.Rel2 h op') :
    op.flip2M.Rel2 h op'.flip2 := by
  cases r with
  | generic hf => exact .generic fun l w k v => hf k v l w
  | unchanged r => exact .unchanged r
  | removed r => exact .removed r

theorem MapTransmute.Rel.call {op : MapTransmute R (K → V → Prog Q A (MapTransmuteResult S X R))}
    {op' : MapTransmute R (K → V → MapTransmuteResult S X R)} (r : op.Rel h op') (k : K) (v : V) :
    Prog.eval h (op.callM k v) = pure (op'.call k v) := by
  cases r with
  | generic hf => exact hf k v
  | removed r => rfl

theorem MapTransmute.Rel2.call {op : MapTransmute R (K → V → L → W → Prog Q A (MapTransmuteResult S X R))}
    {op' : MapTransmute R (K → V → L → W → MapTransmuteResult S X R)} (r : op.Rel2 h op') (k : K) (v : V) (l : L)
    (w : W) : Prog.eval h (op.call2M k v l w) = pure (op'.call2 k v l w) := by
  cases r with
  | generic hf => exact hf k v l w
  | removed r => rfl

theorem MapTransmute.Rel2.flip {op : MapTransmute R (K → V → L → W → Prog Q A (MapTransmuteResult S X R))}
    {op' : MapTransmute R (K → V → L → W → MapTransmuteResult S X R)} (r : op.Rel2 h op') :
    op.flipM.Rel2 h op'.flip := by
  cases r with
  | generic hf => exact .generic fun l w k v => hf k v l w
  | removed r => exact .removed r

theorem MapJointTransform.Rel.call
    {op : MapJointTransform R (K → V → K → V → Prog Q A (MapJointTransformResult V R))}
    {op' : MapJointTransform R (K → V → K → V → MapJointTransformResult V R)} (r : op.Rel h op') (k : K) (v : V) (l : K)
    (w : V) : Prog.eval h (op.callM k v l w) = pure (op'.call k v l w) := by
  cases r with
  | generic b hf =>
    cases b with
    | false => exact hf k v l w
    | true =>
      show Prog.eval h (_ >>= _) = _
      rw [Prog.eval_bind, hf]
      rfl
  | unchangedLR r => rfl
  | unchangedL r => rfl
  | unchangedR r => rfl
  | removed r => rfl

theorem MapJointTransform.Rel.flip
    {op : MapJointTransform R (K → V → K → V → Prog Q A (MapJointTransformResult V R))}
    {op' : MapJointTransform R (K → V → K → V → MapJointTransformResult V R)} (r : op.Rel h op') :
    op.flip.Rel h op'.flip := by
  cases r with
  | generic b hf => exact .generic _ hf
  | unchangedLR r => exact .unchangedLR r
  | unchangedL r => exact .unchangedL r
  | unchangedR r => exact .unchangedR r
  | removed r => exact .removed r

/-- The three operations, related. -/
structure TwmOpsM.Rel (h : (q : Q) → A q) (o : TwmOpsM Q A K V L W R) (o' : TwmOps K V L W R) : Prop where
  both : o.both.Rel2 h o'.both
  left : o.left.Rel h o'.left
  right : o.right.Rel h o'.right

structure MwtOpsM.Rel (h : (q : Q) → A q) (o : MwtOpsM Q A K V L W R) (o' : MwtOps K V L W R) : Prop where
  both : o.both.Rel2 h o'.both
  left : o.left.Rel h o'.left
  right : o.right.Rel h o'.right

structure MwmOpsM.Rel (h : (q : Q) → A q) (o : MwmOpsM Q A K V L W S X R) (o' : MwmOps K V L W S X R) : Prop where
  both : o.both.Rel2 h o'.both
  left : o.left.Rel h o'.left
  right : o.right.Rel h o'.right

structure TwtOpsM.Rel (h : (q : Q) → A q) (o : TwtOpsM Q A K V R) (o' : TwtOps K V R) : Prop where
  both : o.both.Rel h o'.both
  left : o.left.Rel h o'.left
  right : o.right.Rel h o'.right

theorem TwmOpsM.Rel.flip {o : TwmOpsM Q A K V L W R} {o' : TwmOps K V L W R} (r : o.Rel h o') :
    o.flip.Rel h o'.flip := ⟨r.both.flip, r.right, r.left⟩

theorem MwtOpsM.Rel.flip {o : MwtOpsM Q A K V L W R} {o' : MwtOps K V L W R} (r : o.Rel h o') :
    o.flip.Rel h o'.flip := ⟨r.both.flip, r.right, r.left⟩

theorem MwmOpsM.Rel.flip {o : MwmOpsM Q A K V L W S X R} {o' : MwmOps K V L W S X R} (r : o.Rel h o') :
    o.flip.Rel h o'.flip := ⟨r.both.flip, r.right, r.left⟩

theorem TwtOpsM.Rel.flip {o : TwtOpsM Q A K V R} {o' : TwtOps K V R} (r : o.Rel h o') :
    o.flip.Rel h o'.flip := ⟨r.both.flip, r.right, r.left⟩

end
end HT
