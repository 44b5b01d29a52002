import Verif.JointNode
/-!
# Changing the type of the reduction

If `g` maps one kind of reduction to another (`Hom`), then running a bulk operation and applying `g` to its
reduction is the same as running it with the mapped operations.  In particular (`g` to the one-element
type) the map returned does not depend on the reductions.
-/
namespace HT

variable {K V L W S X R R' : Type}

/-- `g` commutes with the reductions. -/
structure Hom (reduce : R → R → R) (e : R) (reduce' : R' → R' → R') (e' : R') (g : R → R') : Prop where
  op : ∀ a b, g (reduce a b) = reduce' (g a) (g b)
  one : g e = e'

/-- Apply a function to the result. -/
def Res.mapOk {α β : Type} (f : α → β) : Res α → Res β
  | .ok a => .ok (f a)
  | .panic p => .panic p
  | .diverge => .diverge

@[simp] theorem Res.mapOk_ok {α β : Type} (f : α → β) (a : α) : (Res.ok a).mapOk f = .ok (f a) := rfl
@[simp] theorem Res.mapOk_panic {α β : Type} (f : α → β) (p : Panic) : (Res.panic p).mapOk f = .panic p := rfl
@[simp] theorem Res.mapOk_diverge {α β : Type} (f : α → β) : (Res.diverge).mapOk f = .diverge := rfl

/-- `bind` and `mapOk`. -/
theorem Res.bind_mapOk {α β γ : Type} (m : Res α) (f : α → Res β) (g : β → γ) :
    (m >>= f).mapOk g = m >>= fun a => (f a).mapOk g := by cases m <;> rfl

theorem Res.mapOk_bind {α β γ : Type} (m : Res α) (f : α → β) (g : β → Res γ) :
    m.mapOk f >>= g = m >>= fun a => g (f a) := by cases m <;> rfl

theorem Res.mapOk_eq_bind {α β : Type} (m : Res α) (f : α → β) :
    m.mapOk f = m >>= fun a => .ok (f a) := by cases m <;> rfl

/-- Mapping a sequence of two computations. -/
theorem Res.bind_nat {α β α' β' : Type} {m : Res α} {m' : Res α'} {k : α → Res β} {k' : α' → Res β'}
    {f : α → α'} {g : β → β'} (hm : m.mapOk f = m') (hk : ∀ a, (k a).mapOk g = k' (f a)) :
    (m >>= k).mapOk g = m' >>= k' := by
  subst hm
  cases m with
  | ok a => exact hk a
  | panic p => rfl
  | diverge => rfl

/-! ### Results -/

def TRes.mapR {N : Type} (g : R → R') : TRes N R → TRes N R'
  | .unchanged r => .unchanged (g r)
  | .node m r => .node m (g r)
  | .removed r => .removed (g r)

def XRes.mapR {N : Type} (g : R → R') : XRes N R → XRes N R'
  | .node m r => .node m (g r)
  | .removed r => .removed (g r)

def JRes.mapR {N : Type} (g : R → R') : JRes N R → JRes N R'
  | .unchangedLR r => .unchangedLR (g r)
  | .unchangedL r => .unchangedL (g r)
  | .unchangedR r => .unchangedR (g r)
  | .node m r => .node m (g r)
  | .removed r => .removed (g r)

def MapTransformResult.mapR (g : R → R') : MapTransformResult V R → MapTransformResult V R'
  | .unchanged r => .unchanged (g r)
  | .transformed v r => .transformed v (g r)
  | .removed r => .removed (g r)

def MapTransmuteResult.mapR (g : R → R') : MapTransmuteResult K V R → MapTransmuteResult K V R'
  | .transmuted k v r => .transmuted k v (g r)
  | .removed r => .removed (g r)

def MapJointTransformResult.mapR (g : R → R') : MapJointTransformResult V R → MapJointTransformResult V R'
  | .unchangedLR r => .unchangedLR (g r)
  | .unchangedL r => .unchangedL (g r)
  | .unchangedR r => .unchangedR (g r)
  | .transformed v r => .transformed v (g r)
  | .removed r => .removed (g r)

/-! ### Operations -/

def MapTransform.mapR (g : R → R') (op : MapTransform R (K → V → MapTransformResult V R)) :
    MapTransform R' (K → V → MapTransformResult V R') :=
  match op with
  | .generic f => .generic fun k v => (f k v).mapR g
  | .unchanged r => .unchanged (g r)
  | .removed r => .removed (g r)

def MapTransform.mapR2 {A : Type} (g : R → R') (op : MapTransform R (K → V → L → W → MapTransformResult A R)) :
    MapTransform R' (K → V → L → W → MapTransformResult A R') :=
  match op with
  | .generic f => .generic fun k v l w => (f k v l w).mapR g
  | .unchanged r => .unchanged (g r)
  | .removed r => .removed (g r)

def MapTransmute.mapR (g : R → R') (op : MapTransmute R (K → V → MapTransmuteResult S X R)) :
    MapTransmute R' (K → V → MapTransmuteResult S X R') :=
  match op with
  | .generic f => .generic fun k v => (f k v).mapR g
  | .removed r => .removed (g r)

def MapTransmute.mapR2 (g : R → R') (op : MapTransmute R (K → V → L → W → MapTransmuteResult S X R)) :
    MapTransmute R' (K → V → L → W → MapTransmuteResult S X R') :=
  match op with
  | .generic f => .generic fun k v l w => (f k v l w).mapR g
  | .removed r => .removed (g r)

def MapJointTransform.mapR (g : R → R') (op : MapJointTransform R (K → V → K → V → MapJointTransformResult V R)) :
    MapJointTransform R' (K → V → K → V → MapJointTransformResult V R') :=
  match op with
  | .generic f b => .generic (fun k v l w => (f k v l w).mapR g) b
  | .unchangedLR r => .unchangedLR (g r)
  | .unchangedL r => .unchangedL (g r)
  | .unchangedR r => .unchangedR (g r)
  | .removed r => .removed (g r)

def TwmOps.mapR (g : R → R') (o : TwmOps K V L W R) : TwmOps K V L W R' :=
  ⟨o.both.mapR2 g, o.left.mapR g, o.right.mapR g⟩
def MwtOps.mapR (g : R → R') (o : MwtOps K V L W R) : MwtOps K V L W R' :=
  ⟨o.both.mapR2 g, o.left.mapR g, o.right.mapR g⟩
def MwmOps.mapR (g : R → R') (o : MwmOps K V L W S X R) : MwmOps K V L W S X R' :=
  ⟨o.both.mapR2 g, o.left.mapR g, o.right.mapR g⟩
def TwtOps.mapR (g : R → R') (o : TwtOps K V R) : TwtOps K V R' :=
  ⟨o.both.mapR g, o.left.mapR g, o.right.mapR g⟩

section
variable (g : R → R')

@[simp] theorem MapTransform.mapR_call (op : MapTransform R (K → V → MapTransformResult V R)) (k : K) (v : V) :
    (op.mapR g).call k v = (op.call k v).mapR g := by cases op <;> rfl
@[simp] theorem MapTransform.mapR2_call {A : Type}
    (op : MapTransform R (K → V → L → W → MapTransformResult A R)) (k : K) (v : V) (l : L) (w : W) :
    (op.mapR2 g).call2 k v l w = (op.call2 k v l w).mapR g := by cases op <;> rfl
@[simp] theorem MapTransmute.mapR_call (op : MapTransmute R (K → V → MapTransmuteResult S X R)) (k : K) (v : V) :
    (op.mapR g).call k v = (op.call k v).mapR g := by cases op <;> rfl
@[simp] theorem MapTransmute.mapR2_call
    (op : MapTransmute R (K → V → L → W → MapTransmuteResult S X R)) (k : K) (v : V) (l : L) (w : W) :
    (op.mapR2 g).call2 k v l w = (op.call2 k v l w).mapR g := by cases op <;> rfl
@[simp] theorem MapJointTransform.mapR_call
    (op : MapJointTransform R (K → V → K → V → MapJointTransformResult V R)) (k : K) (v : V) (l : K) (w : V) :
    (op.mapR g).call k v l w = (op.call k v l w).mapR g := by
  cases op with
  | generic f b =>
    cases b
    · rfl
    · simp only [MapJointTransform.mapR, MapJointTransform.call, if_true]
      cases f l w k v <;> rfl
  | _ => rfl

theorem TwmOps.mapR_flip (o : TwmOps K V L W R) : (o.mapR g).flip = o.flip.mapR g := by
  cases o with
  | mk both left right => cases both <;> rfl
theorem MwtOps.mapR_flip (o : MwtOps K V L W R) : (o.mapR g).flip = o.flip.mapR g := by
  cases o with
  | mk both left right => cases both <;> rfl
theorem MwmOps.mapR_flip (o : MwmOps K V L W S X R) : (o.mapR g).flip = o.flip.mapR g := by
  cases o with
  | mk both left right => cases both <;> rfl
theorem TwtOps.mapR_flip (o : TwtOps K V R) : (o.mapR g).flip = o.flip.mapR g := by
  cases o with
  | mk both left right => cases both <;> rfl

@[simp] theorem TRes.mapR_map {N N' : Type} (f : N → N') (res : TRes N R) :
    (res.map f).mapR g = (res.mapR g).map f := by cases res <;> rfl
@[simp] theorem XRes.mapR_map {N N' : Type} (f : N → N') (res : XRes N R) :
    (res.map f).mapR g = (res.mapR g).map f := by cases res <;> rfl
@[simp] theorem JRes.mapR_map {N N' : Type} (f : N → N') (res : JRes N R) :
    (res.map f).mapR g = (res.mapR g).map f := by cases res <;> rfl
@[simp] theorem XRes.mapR_toT {N : Type} (res : XRes N R) : res.toT.mapR g = (res.mapR g).toT := by
  cases res <;> rfl
@[simp] theorem JRes.mapR_flip {N : Type} (res : JRes N R) : res.flip.mapR g = (res.mapR g).flip := by
  cases res <;> rfl
@[simp] theorem TRes.mapR_jointL {N : Type} (res : TRes N R) : res.jointL.mapR g = (res.mapR g).jointL := by
  cases res <;> rfl
@[simp] theorem TRes.mapR_jointR {N : Type} (res : TRes N R) : res.jointR.mapR g = (res.mapR g).jointR := by
  cases res <;> rfl
@[simp] theorem MapTransformResult.mapR_jointL (res : MapTransformResult V R) :
    res.jointL.mapR g = (res.mapR g).jointL := by
  cases res <;> rfl

end

/-! ### Loops -/

section
variable {n : Nat}

def Item.mapR (g : R → R') : Item n K V R → Item n K V R'
  | .skip => .skip
  | .put m r kl kr => .put m (g r) kl kr
  | .drop r kl kr => .drop (g r) kl kr

def Acc.mapR (g : R → R') (a : Acc n K V R) : Acc n K V R' := ⟨a.size, a.bits, a.values, a.ul, a.ur, g a.red⟩

variable {reduce : R → R → R} {e : R} {reduce' : R' → R' → R'} {e' : R'} {g : R → R'}

theorem Acc.step_nat (h : Hom reduce e reduce' e' g) (acc : Acc n K V R) (i : Nat) (it : Item n K V R) :
    (acc.step reduce i it).mapOk (Acc.mapR g) = (acc.mapR g).step reduce' i (it.mapR g) := by
  cases it with
  | skip => rfl
  | drop r kl kr => simp [Acc.step, Acc.mapR, Item.mapR, h.op]
  | put m r kl kr =>
    simp only [Acc.step, Item.mapR]
    cases nthBit n i with
    | error _ => rfl
    | ok bit =>
      simp only [Res.unwrapE_ok, Res.ok_bind]
      show _ = ((Res.unwrapE (bitInsert acc.bits bit)) >>= _)
      cases bitInsert acc.bits bit with
      | error _ => rfl
      | ok b => simp [Acc.mapR, h.op]

theorem Acc.loop_nat (h : Hom reduce e reduce' e' g) (item : Nat → Res (Item n K V R)) (l : List Nat)
    (acc : Acc n K V R) : (Acc.loop reduce item l acc).mapOk (Acc.mapR g) =
      Acc.loop reduce' (fun i => (item i).mapOk (Item.mapR g)) l (acc.mapR g) := by
  induction l generalizing acc with
  | nil => rfl
  | cons i l ih =>
    simp only [Acc.loop]
    cases item i with
    | panic p => rfl
    | diverge => rfl
    | ok it =>
      simp only [Res.ok_bind, Res.mapOk_ok]
      rw [← Acc.step_nat h]
      cases acc.step reduce i it with
      | panic p => rfl
      | diverge => rfl
      | ok a => exact ih a

theorem Acc.gather_nat (h : Hom reduce e reduce' e' g) (par : Par) (item : Nat → Res (Item n K V R)) :
    (Acc.gather reduce e par item).mapOk (Acc.mapR g) =
      Acc.gather reduce' e' par (fun i => (item i).mapOk (Item.mapR g)) := by
  have h0 : (Acc.init e : Acc n K V R).mapR g = Acc.init e' := by simp [Acc.init, Acc.mapR, h.one]
  cases par with
  | sequential => simp only [Acc.gather]; rw [Acc.loop_nat h, h0]
  | middleIndex =>
    simp only [Acc.gather]
    rw [← h0, ← Acc.loop_nat h, ← Acc.loop_nat h]
    cases Acc.loop reduce item (List.range' 0 (n / 2)) (Acc.init e) with
    | panic p => rfl
    | diverge => rfl
    | ok a =>
      simp only [Res.ok_bind, Res.mapOk_ok]
      cases Acc.loop reduce item (List.range' (n / 2) (n - n / 2)) (Acc.init e) with
      | panic p => rfl
      | diverge => rfl
      | ok b =>
        simp only [Res.ok_bind, Res.mapOk_ok, Acc.merge]
        show _ = ((Res.unwrapE (bitMerge a.bits b.bits)) >>= _)
        cases bitMerge a.bits b.bits with
        | error _ => rfl
        | ok bits => simp [Acc.mapR, h.op]

theorem Acc.pack_nat (g : R → R') (acc : Acc n K V R) : (acc.mapR g).pack = acc.pack := rfl

theorem TRes.finish_nat (g : R → R') (acc : Acc n K V R) :
    (TRes.finish acc).mapOk (TRes.mapR g) = TRes.finish (acc.mapR g) := by
  simp only [TRes.finish, Acc.pack_nat]
  cases h : acc.ul with
  | true => simp [Acc.mapR, h, TRes.mapR]
  | false =>
    simp only [Acc.mapR, h, Bool.false_eq_true, if_false]
    cases acc.pack with
    | panic p => rfl
    | diverge => rfl
    | ok o => cases o <;> rfl

theorem XRes.finish_nat (g : R → R') (acc : Acc n K V R) :
    (XRes.finish acc).mapOk (XRes.mapR g) = XRes.finish (acc.mapR g) := by
  simp only [XRes.finish, Acc.pack_nat]
  cases acc.pack with
  | panic p => rfl
  | diverge => rfl
  | ok o => cases o <;> rfl

theorem JRes.finish_nat (g : R → R') (acc : Acc n K V R) :
    (JRes.finish acc).mapOk (JRes.mapR g) = JRes.finish (acc.mapR g) := by
  simp only [JRes.finish, Acc.pack_nat]
  cases h : acc.ul with
  | true => cases h' : acc.ur <;> simp [Acc.mapR, h, h', JRes.mapR]
  | false =>
    cases h' : acc.ur with
    | true => simp [Acc.mapR, h, h', JRes.mapR]
    | false =>
      simp only [Acc.mapR, h, h', Bool.false_eq_true, if_false]
      cases acc.pack with
      | panic p => rfl
      | diverge => rfl
      | ok o => cases o <;> rfl

/-- Looking up a position in an array of mapped values. -/
theorem Bia.atBitIndex_map {A B : Type} (f : A → B) (bits : BitVec n) (vs : List A) (x i : Nat) :
    (Bia.mk bits (vs.map f) x).atBitIndex i =
      ((Bia.mk bits vs x).atBitIndex i).mapOk (Except.map f) := by
  simp only [Bia.atBitIndex]
  cases (do let bit ← nthBit n i; bitIndex bits bit : Except BitError Nat) with
  | error _ => rfl
  | ok j =>
    simp only [List.getElem?_map]
    cases vs[j]? <;> rfl

mutual

/-- Applying a function to the result of a recursion on nodes. -/
theorem Node.fold_nat {β β' : Type} (h : β → β') {fS : SNode K V → Nat → β} {fL : LNode K V → Nat → β}
    {fC : BitVec n → List (Node n K V × β) → Nat → Nat → β}
    {fS' : SNode K V → Nat → β'} {fL' : LNode K V → Nat → β'}
    {fC' : BitVec n → List (Node n K V × β') → Nat → Nat → β'}
    (hS : ∀ s d, h (fS s d) = fS' s d) (hL : ∀ l d, h (fL l d) = fL' l d)
    (hC : ∀ bits left x d, h (fC bits left x d) = fC' bits (left.map (Prod.map id h)) x d) :
    ∀ (m : Node n K V) (d : Nat), h (Node.fold fS fL fC m d) = Node.fold fS' fL' fC' m d
  | .C bits values x, d => by
    simp only [Node.fold]
    rw [hC, Node.foldAll_nat h hS hL hC values (d + 1)]
  | .L l, d => by simp only [Node.fold]; exact hL l d
  | .S s, d => by simp only [Node.fold]; exact hS s d

theorem Node.foldAll_nat {β β' : Type} (h : β → β') {fS : SNode K V → Nat → β} {fL : LNode K V → Nat → β}
    {fC : BitVec n → List (Node n K V × β) → Nat → Nat → β}
    {fS' : SNode K V → Nat → β'} {fL' : LNode K V → Nat → β'}
    {fC' : BitVec n → List (Node n K V × β') → Nat → Nat → β'}
    (hS : ∀ s d, h (fS s d) = fS' s d) (hL : ∀ l d, h (fL l d) = fL' l d)
    (hC : ∀ bits left x d, h (fC bits left x d) = fC' bits (left.map (Prod.map id h)) x d) :
    ∀ (ms : List (Node n K V)) (d : Nat),
      (Node.foldAll fS fL fC ms d).map (Prod.map id h) = Node.foldAll fS' fL' fC' ms d
  | [], d => rfl
  | m :: ms, d => by
    simp only [Node.foldAll, List.map_cons, Prod.map, id]
    rw [Node.fold_nat h hS hL hC m d, Node.foldAll_nat h hS hL hC ms d]

end

end

/-! ### transform and transmute -/

section
variable {reduce : R → R → R} {e : R} {reduce' : R' → R' → R'} {e' : R'} {g : R → R'}
variable (h : Hom reduce e reduce' e' g)

@[simp] theorem SNode.transform_nat (g : R → R') (op : MapTransform R (K → V → MapTransformResult V R)) (s : SNode K V) :
    s.transform (op.mapR g) = (s.transform op).mapR g := by
  simp only [SNode.transform, MapTransform.mapR_call]
  cases op.call s.key s.value <;> rfl

@[simp] theorem SNode.transmute_nat (g : R → R') (op : MapTransmute R (K → V → MapTransmuteResult S X R)) (s : SNode K V) :
    s.transmute (op.mapR g) = (s.transmute op).mapR g := by
  simp only [SNode.transmute, MapTransmute.mapR_call]
  cases op.call s.key s.value <;> rfl

include h

theorem LNode.transformResult_nat (this : LNode K V) (r : MapTransformResult V R) (next : TRes (LNext K V) R) :
    LNode.transformResult reduce' this (r.mapR g) (next.mapR g) =
      (LNode.transformResult reduce this r next).mapR g := by
  cases r <;> cases next <;>
    simp [LNode.transformResult, MapTransformResult.mapR, TRes.mapR, h.op]

theorem LNode.transmuteResult_nat (r : MapTransmuteResult S X R) (next : XRes (LNext S X) R) :
    LNode.transmuteResult reduce' (r.mapR g) (next.mapR g) = (LNode.transmuteResult reduce r next).mapR g := by
  cases r <;> cases next <;>
    simp [LNode.transmuteResult, MapTransmuteResult.mapR, XRes.mapR, h.op]

theorem LNode.transform_nat (op : MapTransform R (K → V → MapTransformResult V R)) :
    ∀ l : LNode K V, l.transform reduce' (op.mapR g) = (l.transform reduce op).mapR g
  | .nextS k v s z => by
    cases op with
    | generic f =>
      simp only [LNode.transform, MapTransform.mapR]
      rw [← LNode.transformResult_nat h, TRes.mapR_map, ← SNode.transform_nat]
      rfl
    | unchanged r => rfl
    | removed r => rfl
  | .nextL k v l z => by
    cases op with
    | generic f =>
      simp only [LNode.transform, MapTransform.mapR]
      rw [← LNode.transformResult_nat h, ← LNode.transform_nat _ l]
      rfl
    | unchanged r => rfl
    | removed r => rfl

theorem LNode.transmute_nat (op : MapTransmute R (K → V → MapTransmuteResult S X R)) :
    ∀ l : LNode K V, l.transmute reduce' (op.mapR g) = (l.transmute reduce op).mapR g
  | .nextS k v s z => by
    cases op with
    | generic f =>
      simp only [LNode.transmute, MapTransmute.mapR]
      rw [← LNode.transmuteResult_nat h, XRes.mapR_map, ← SNode.transmute_nat]
      rfl
    | removed r => rfl
  | .nextL k v l z => by
    cases op with
    | generic f =>
      simp only [LNode.transmute, MapTransmute.mapR]
      rw [← LNode.transmuteResult_nat h, ← LNode.transmute_nat _ l]
      rfl
    | removed r => rfl

variable {n : Nat}

mutual

theorem Node.transform_nat (op : MapTransform R (K → V → MapTransformResult V R)) (par : Par) :
    ∀ m : Node n K V, m.transform reduce' e' (op.mapR g) par = (m.transform reduce e op par).mapOk (TRes.mapR g)
  | .C bits values x => by
    cases op with
    | unchanged r => simp only [Node.transform, MapTransform.mapR]; rfl
    | removed r => simp only [Node.transform, MapTransform.mapR]; rfl
    | generic f =>
      have ih := Node.transformAll_nat (.generic f) par values
      simp only [MapTransform.mapR] at ih
      simp only [Node.transform, MapTransform.mapR, ih]
      show (Acc.gather reduce' e' par _ >>= TRes.finish) = (Acc.gather reduce e par _ >>= TRes.finish).mapOk _
      refine (Res.bind_nat (f := Acc.mapR g) ?_ (TRes.finish_nat g)).symm
      rw [Acc.gather_nat h]
      congr 1
      funext i
      rw [Bia.atBitIndex_map]
      cases Bia.atBitIndex ⟨bits, Node.transformAll reduce e (.generic f) par values, x⟩ i with
      | panic p => rfl
      | diverge => rfl
      | ok child =>
        cases child with
        | error _ => rfl
        | ok c =>
          obtain ⟨m, run⟩ := c
          cases run with
          | panic p => rfl
          | diverge => rfl
          | ok res => cases res <;> rfl
  | .L l => by
    simp only [Node.transform, Res.mapOk_ok, TRes.mapR_map, LNode.transform_nat h]
  | .S s => by simp only [Node.transform, Res.mapOk_ok, TRes.mapR_map, SNode.transform_nat]

theorem Node.transformAll_nat (op : MapTransform R (K → V → MapTransformResult V R)) (par : Par) :
    ∀ ms : List (Node n K V), Node.transformAll reduce' e' (op.mapR g) par ms =
      (Node.transformAll reduce e op par ms).map (Prod.map id (Res.mapOk (TRes.mapR g)))
  | [] => rfl
  | m :: ms => by
    simp only [Node.transformAll, List.map_cons, Prod.map, id]
    rw [Node.transform_nat op par m, Node.transformAll_nat op par ms]

end

mutual

theorem Node.transmute_nat (op : MapTransmute R (K → V → MapTransmuteResult S X R)) :
    ∀ m : Node n K V, m.transmute reduce' e' (op.mapR g) = (m.transmute reduce e op).mapOk (XRes.mapR g)
  | .C bits values x => by
    cases op with
    | removed r => simp only [Node.transmute, MapTransmute.mapR]; rfl
    | generic f =>
      have ih := Node.transmuteAll_nat (.generic f) values
      simp only [MapTransmute.mapR] at ih
      simp only [Node.transmute, MapTransmute.mapR, ih]
      have : ∀ acc : Acc n S X R, (if acc.values.length ≠ countOnes acc.bits then Res.panic .assertion else do
            let o ← acc.pack
            .ok (XRes.ofOption o acc.red) : Res (XRes (Node n S X) R)).mapOk (XRes.mapR g) =
          (if (acc.mapR g).values.length ≠ countOnes (acc.mapR g).bits then Res.panic .assertion else do
            let o ← (acc.mapR g).pack
            .ok (XRes.ofOption o (acc.mapR g).red)) := by
        intro acc
        rw [← XRes.finish, ← XRes.finish, ← XRes.finish_nat]
        show _ = (if acc.values.length ≠ countOnes acc.bits then _ else _)
        split <;> rfl
      refine (Res.bind_nat (f := Acc.mapR g) ?_ this).symm
      rw [Acc.gather_nat h]
      congr 1
      funext i
      rw [Bia.atBitIndex_map]
      cases Bia.atBitIndex ⟨bits, Node.transmuteAll reduce e (.generic f) values, x⟩ i with
      | panic p => rfl
      | diverge => rfl
      | ok child =>
        cases child with
        | error _ => rfl
        | ok run =>
          cases run with
          | panic p => rfl
          | diverge => rfl
          | ok res => cases res <;> rfl
  | .L l => by
    simp only [Node.transmute, Res.mapOk_ok, XRes.mapR_map, LNode.transmute_nat h]
  | .S s => by simp only [Node.transmute, Res.mapOk_ok, XRes.mapR_map, SNode.transmute_nat]

theorem Node.transmuteAll_nat (op : MapTransmute R (K → V → MapTransmuteResult S X R)) :
    ∀ ms : List (Node n K V), Node.transmuteAll reduce' e' (op.mapR g) ms =
      (Node.transmuteAll reduce e op ms).map (Res.mapOk (XRes.mapR g))
  | [] => rfl
  | m :: ms => by
    simp only [Node.transmuteAll, List.map_cons]
    rw [Node.transmute_nat op m, Node.transmuteAll_nat op ms]

end

end
end HT
