import Verif.JointClash
import Verif.ArcTransform
/-!
# The reduction of `transform_with_transformed` depends only on the contributions

Two runs of `transform_with_transformed` on the same tries whose answers have related contributions have related
reductions, whatever else the answers say: the tables of the code combine the contributions in the same way in
every branch.
-/
namespace HT

variable {K V R R' : Type}

/-- If both computations return then what they return is related. -/
def Res.Both {α β : Type} (P : α → β → Prop) (a : Res α) (b : Res β) : Prop :=
  ∀ x y, a = .ok x → b = .ok y → P x y

namespace Res.Both
variable {α β γ δ : Type} {P : α → β → Prop} {Q : γ → δ → Prop} {a : Res α} {b : Res β}

theorem ok {x : α} {y : β} (h : P x y) : Res.Both P (.ok x) (.ok y) := by
  intro x' y' h1 h2
  cases h1; cases h2; exact h

theorem bind {f : α → Res γ} {g : β → Res δ} (h : Res.Both P a b) (k : ∀ x y, P x y → Res.Both Q (f x) (g y)) :
    Res.Both Q (a >>= f) (b >>= g) := by
  cases a with
  | ok x => cases b with
    | ok y => exact k x y (h x y rfl rfl)
    | panic p => intro _ _ _ h2; cases h2
    | diverge => intro _ _ _ h2; cases h2
  | panic p => intro _ _ h1; cases h1
  | diverge => intro _ _ h1; cases h1

theorem bind_left {f : α → Res γ} {y : Res δ} (k : ∀ x, a = .ok x → Res.Both Q (f x) y) :
    Res.Both Q (a >>= f) y := by
  cases a with
  | ok x => exact k x rfl
  | panic p => intro _ _ h1; cases h1
  | diverge => intro _ _ h1; cases h1

theorem bind_right {x : Res γ} {g : β → Res δ} (k : ∀ y, b = .ok y → Res.Both Q x (g y)) :
    Res.Both Q x (b >>= g) := by
  cases b with
  | ok y => exact k y rfl
  | panic p => intro _ _ _ h1; cases h1
  | diverge => intro _ _ _ h1; cases h1

theorem same {f : α → Res γ} {g : α → Res δ} (k : ∀ x, Res.Both Q (f x) (g x)) : Res.Both Q (a >>= f) (a >>= g) :=
  bind (P := fun x y => x = y) (by intro x y h1 h2; rw [h1] at h2; injection h2) (by rintro x _ rfl; exact k x)

theorem panic_left {p : Panic} : Res.Both P (.panic p) b := by intro _ _ h; cases h
theorem panic_right {p : Panic} : Res.Both P a (.panic p) := by intro _ _ _ h; cases h

end Res.Both

/-- A relation between reductions that both reductions respect. -/
structure RedRel (ρ : R → R' → Prop) (reduce : R → R → R) (e : R) (reduce' : R' → R' → R') (e' : R') : Prop where
  op : ∀ {a b a' b'}, ρ a a' → ρ b b' → ρ (reduce a b) (reduce' a' b')
  one : ρ e e'

variable {ρ : R → R' → Prop} {reduce : R → R → R} {e : R} {reduce' : R' → R' → R'} {e' : R'}

/-- Induction over nodes. -/
theorem Node.ind {n : Nat} {motive : Node n K V → Prop} (hS : ∀ s, motive (.S s)) (hL : ∀ l, motive (.L l))
    (hC : ∀ bits values extra, (∀ m ∈ values, motive m) → motive (.C bits values extra)) (m : Node n K V) :
    motive m := by
  match m with
  | .S s => exact hS s
  | .L l => exact hL l
  | .C bits values extra =>
    exact hC bits values extra fun m hm => Node.ind hS hL hC m
  termination_by sizeOf m
  decreasing_by
    have : sizeOf m < sizeOf values := List.sizeOf_lt_of_mem hm
    simp only [Node.C.sizeOf_spec]; omega

theorem Bia.atBit_both {n : Nat} {A B B' γ δ : Type} {f : A → B} {g : A → B'} {Q : γ → δ → Prop} {bits : BitVec n}
    {values : List A} {e i : Nat} {k : Except BitError B → Res γ} {k' : Except BitError B' → Res δ}
    (hok : ∀ v ∈ values, Res.Both Q (k (.ok (f v))) (k' (.ok (g v))))
    (herr : ∀ err, Res.Both Q (k (.error err)) (k' (.error err))) :
    Res.Both Q ((Bia.mk bits (values.map f) e).atBitIndex i >>= k)
      ((Bia.mk bits (values.map g) e).atBitIndex i >>= k') := by
  rw [Bia.atBitIndex_mapped, Bia.atBitIndex_mapped]
  cases hat : (Bia.mk bits values e).atBitIndex i with
  | panic p => exact .panic_left
  | diverge => intro _ _ h; cases h
  | ok child =>
    cases child with
    | error err => exact herr err
    | ok m => exact hok m (Bia.atBitIndex_mem hat)

/-! ### Loops -/

/-- Both do nothing, or both contribute something related. -/
def Item.Rel {n : Nat} (ρ : R → R' → Prop) (a : Item n K V R) (b : Item n K V R') : Prop :=
  match a.red?, b.red? with
  | none, none => True
  | some r, some r' => ρ r r'
  | _, _ => False

section
variable {n : Nat} (h : RedRel ρ reduce e reduce' e')
include h

theorem Acc.step_rel {a : Acc n K V R} {b : Acc n K V R'} (ab : ρ a.red b.red) (i : Nat) {x : Item n K V R}
    {y : Item n K V R'} (xy : x.Rel ρ y) :
    Res.Both (fun a b => ρ a.red b.red) (a.step reduce i x) (b.step reduce' i y) := by
  cases x <;> cases y <;> simp only [Item.Rel, Item.red?] at xy
  · exact .ok ab
  · refine .bind_left fun _ _ => .bind_left fun _ _ => .bind_right fun _ _ => .bind_right fun _ _ => .ok (h.op ab xy)
  · refine .bind_left fun _ _ => .bind_left fun _ _ => .ok (h.op ab xy)
  · refine .bind_right fun _ _ => .bind_right fun _ _ => .ok (h.op ab xy)
  · exact .ok (h.op ab xy)

theorem Acc.loop_rel {f : Nat → Res (Item n K V R)} {g : Nat → Res (Item n K V R')}
    (fg : ∀ i, Res.Both (Item.Rel ρ) (f i) (g i)) (l : List Nat) {a : Acc n K V R} {b : Acc n K V R'}
    (ab : ρ a.red b.red) :
    Res.Both (fun a b => ρ a.red b.red) (Acc.loop reduce f l a) (Acc.loop reduce' g l b) := by
  induction l generalizing a b with
  | nil => exact .ok ab
  | cons i l ih => exact .bind (fg i) fun x y xy => .bind (Acc.step_rel h ab i xy) fun a b ab => ih ab

theorem Acc.gather_rel (par : Par) {f : Nat → Res (Item n K V R)} {g : Nat → Res (Item n K V R')}
    (fg : ∀ i, Res.Both (Item.Rel ρ) (f i) (g i)) :
    Res.Both (fun a b => ρ a.red b.red) (Acc.gather reduce e par f) (Acc.gather reduce' e' par g) := by
  cases par with
  | sequential => exact Acc.loop_rel h fg _ h.one
  | middleIndex =>
    refine .bind (Acc.loop_rel h fg _ (a := Acc.init e) (b := Acc.init e') h.one) fun a b ab => ?_
    refine .bind (Acc.loop_rel h fg _ (a := Acc.init e) (b := Acc.init e') h.one) fun a' b' ab' => ?_
    exact .bind_left fun _ _ => .bind_right fun _ _ => .ok (h.op ab ab')

end

/-! ### The tables combine the contributions -/

/-- If the computation returns then with this reduction. -/
def JRes.Gives {N : Type} (a : Res (JRes N R)) (r : R) : Prop := ∀ x, a = .ok x → x.red = r

namespace JRes.Gives
variable {N N' : Type} {α : Type} {r : R}

theorem ok {x : JRes N R} (h : x.red = r) : JRes.Gives (.ok x) r := by rintro _ ⟨⟩; exact h
theorem panic {p : Panic} : JRes.Gives (N := N) (.panic p) r := by rintro _ ⟨⟩
theorem bind {a : Res α} {f : α → Res (JRes N R)} (h : ∀ x, JRes.Gives (f x) r) : JRes.Gives (a >>= f) r := by
  cases a with
  | ok x => exact h x
  | panic p => exact panic
  | diverge => rintro _ ⟨⟩

end JRes.Gives

@[simp] theorem JRes.red_map {N N' : Type} (f : N → N') (x : JRes N R) : (x.map f).red = x.red := by cases x <;> rfl
@[simp] theorem TRes.red_jointL {N : Type} (x : TRes N R) : x.jointL.red = x.red := by cases x <;> rfl
@[simp] theorem TRes.red_jointR {N : Type} (x : TRes N R) : x.jointR.red = x.red := by cases x <;> rfl
@[simp] theorem MapTransformResult.red_jointL (x : MapTransformResult V R) : x.jointL.red = x.red := by cases x <;> rfl
@[simp] theorem MapJointTransformResult.red_flip (x : MapJointTransformResult V R) : x.flip.red = x.red := by
  cases x <;> rfl

theorem TRes.red_map' {N N' : Type} (f : N → N') (x : TRes N R) : (x.map f).red = x.red := by cases x <;> rfl

theorem SNode.transform_red (op : MapTransform R (K → V → MapTransformResult V R)) (s : SNode K V) :
    (s.transform op).red = (op.call s.key s.value).red := by
  rw [SNode.transform]; cases op.call s.key s.value <;> rfl

theorem LNode.transformResult_red (this : LNode K V) (a : MapTransformResult V R) (b : TRes (LNext K V) R) :
    (LNode.transformResult reduce this a b).red = reduce a.red b.red := by cases a <;> cases b <;> rfl

theorem twtApart_red {c : Cfg} (this right : LNext K V) (h1 h2 : BitVec c.w) (d : Nat) (a b : TRes (LNext K V) R) :
    JRes.Gives (twtApart reduce this right h1 h2 d a b) (reduce a.red b.red) := by
  refine .bind fun _ => .bind fun _ => ?_
  cases a <;> cases b <;> first | exact .ok rfl | exact .bind fun _ => .ok rfl

theorem LNode.jointThenPlain_red (this : LNode K V) (a : MapJointTransformResult V R) (that : SNode K V)
    (b : TRes (LNext K V) R) : (LNode.jointThenPlain reduce this a that b).red = reduce a.red b.red := by
  cases a <;> cases b <;> rfl

theorem LNode.plainThenJoint_red (this : LNode K V) (a : MapTransformResult V R) (that : SNode K V)
    (b : JRes (LNext K V) R) : (LNode.plainThenJoint reduce this a that b).red = reduce a.red b.red := by
  cases a <;> cases b <;> rfl

theorem LNode.jointThenJoint_red (this : LNode K V) (a : MapJointTransformResult V R) (that : Option (K × V))
    (b : JRes (LNext K V) R) :
    JRes.Gives (LNode.jointThenJoint reduce this a that b) (reduce a.red b.red) := by
  cases a <;> cases b <;> first | exact .ok rfl | exact .bind fun _ => .ok rfl

theorem TwtOps.leftover_red (ops : TwtOps K V R) (this : LNode K V) (next : JRes (LNext K V) R) (b : K × V) :
    JRes.Gives (ops.leftover reduce this next b) (reduce (ops.right.call b.1 b.2).red next.red) := by
  unfold TwtOps.leftover
  cases ops.right.call b.1 b.2 <;> cases next <;> first | exact .ok rfl | exact .panic

theorem JRes.finish_red {n : Nat} (acc : Acc n K V R) : JRes.Gives (JRes.finish acc) acc.red := by
  rw [JRes.finish]
  split
  · split <;> exact .ok rfl
  · split
    · exact .ok rfl
    · refine .bind fun o => .ok ?_
      cases o <;> rfl

theorem TRes.finish_both {n : Nat} {a : Acc n K V R} {b : Acc n K V R'} (ab : ρ a.red b.red) :
    Res.Both (fun x y => ρ x.red y.red) (TRes.finish a) (TRes.finish b) := by
  have key : ∀ {R : Type} (a : Acc n K V R) x, TRes.finish a = .ok x → x.red = a.red := by
    intro R a x hx
    unfold TRes.finish at hx
    split at hx
    · cases hx; rfl
    · cases hp : a.pack with
      | ok o => rw [hp] at hx; cases hx; cases o <;> rfl
      | panic p => rw [hp] at hx; cases hx
      | diverge => rw [hp] at hx; cases hx
  intro x y hx hy
  rw [key a x hx, key b y hy]; exact ab

theorem JRes.Gives.both {N N' : Type} {a : Res (JRes N R)} {b : Res (JRes N' R')} {r : R} {r' : R'}
    (h : JRes.Gives a r) (h' : JRes.Gives b r') (rr : ρ r r') : Res.Both (fun x y => ρ x.red y.red) a b := by
  intro x y hx hy; rw [h x hx, h' y hy]; exact rr

/-! ### transform -/

section
variable (h : RedRel ρ reduce e reduce' e') {f : K → V → MapTransformResult V R} {f' : K → V → MapTransformResult V R'}
  (hf : ∀ k v, ρ (f k v).red (f' k v).red)
include h hf

theorem SNode.transform_rel (s : SNode K V) :
    ρ (s.transform (.generic f)).red (s.transform (.generic f')).red := by
  rw [SNode.transform_red, SNode.transform_red]; exact hf _ _

theorem LNode.transform_rel (l : LNode K V) :
    ρ (l.transform reduce (.generic f)).red (l.transform reduce' (.generic f')).red := by
  induction l with
  | nextS k v s z =>
    rw [LNode.transform, LNode.transform, LNode.transformResult_red, LNode.transformResult_red, TRes.red_map', TRes.red_map']
    exact h.op (hf _ _) (SNode.transform_rel h hf s)
  | nextL k v l z ih =>
    rw [LNode.transform, LNode.transform, LNode.transformResult_red, LNode.transformResult_red]
    exact h.op (hf _ _) ih

theorem Node.transform_rel {n : Nat} (par : Par) (m : Node n K V) :
    Res.Both (fun x y => ρ x.red y.red) (m.transform reduce e (.generic f) par)
      (m.transform reduce' e' (.generic f') par) := by
  induction m using Node.ind with
  | hL l =>
    rw [Node.transform, Node.transform]
    exact .ok (by rw [TRes.red_map', TRes.red_map']; exact LNode.transform_rel h hf l)
  | hS s =>
    rw [Node.transform, Node.transform]
    exact .ok (by rw [TRes.red_map', TRes.red_map']; exact SNode.transform_rel h hf s)
  | hC bits values extra ih =>
    rw [Node.transform, Node.transform, Node.transformAll_eq', Node.transformAll_eq']
    refine .bind (Acc.gather_rel h par fun i => Bia.atBit_both ?_ ?_) fun a b ab => ?_
    · intro m hm
      refine .bind (ih m hm) fun x y xy => .ok ?_
      cases x <;> cases y <;> exact xy
    · intro err; exact .ok trivial
    · refine TRes.finish_both (a := a) (b := b) ab

end

/-! ### transform_with_transformed -/

/-- Two operations on one map with related contributions. -/
structure MapTransform.RRel (n : Nat) (ρ : R → R' → Prop) (reduce : R → R → R) (e : R) (reduce' : R' → R' → R') (e' : R')
    (par : Par) (op : MapTransform R (K → V → MapTransformResult V R))
    (op' : MapTransform R' (K → V → MapTransformResult V R')) : Prop where
  call : ∀ k v, ρ (op.call k v).red (op'.call k v).red
  list : ∀ l : LNode K V, ρ (l.transform reduce op).red (l.transform reduce' op').red
  node : ∀ m : Node n K V, Res.Both (fun x y => ρ x.red y.red) (m.transform reduce e op par) (m.transform reduce' e' op' par)

/-- The operations of two calls of `transform_with_transformed`, with related contributions. -/
structure TwtOps.Rel (n : Nat) (ρ : R → R' → Prop) (reduce : R → R → R) (e : R) (reduce' : R' → R' → R') (e' : R')
    (par : Par) (ops : TwtOps K V R) (ops' : TwtOps K V R') : Prop where
  both : ∀ k v l w, ρ (ops.both.call k v l w).red (ops'.both.call k v l w).red
  left : ops.left.RRel n ρ reduce e reduce' e' par ops'.left
  right : ops.right.RRel n ρ reduce e reduce' e' par ops'.right

theorem MapJointTransform.flip_call_red (op : MapJointTransform R (K → V → K → V → MapJointTransformResult V R))
    (k : K) (v : V) (l : K) (w : V) : (op.flip.call k v l w).red = (op.call l w k v).red := by
  cases op with
  | generic f b => cases b <;> simp [MapJointTransform.flip, MapJointTransform.call]
  | _ => rfl

theorem TwtOps.Rel.flip {n : Nat} {par : Par} {ops : TwtOps K V R} {ops' : TwtOps K V R'}
    (o : ops.Rel n ρ reduce e reduce' e' par ops') : ops.flip.Rel n ρ reduce e reduce' e' par ops'.flip :=
  ⟨fun k v l w => by
    simp only [TwtOps.flip, MapJointTransform.flip_call_red]; exact o.both l w k v, o.right, o.left⟩

section
variable [BEq K] {c : Cfg} (hash : K → BitVec c.w) (h : RedRel ρ reduce e reduce' e') {par : Par}
  {ops : TwtOps K V R} {ops' : TwtOps K V R'} (o : ops.Rel c.n ρ reduce e reduce' e' par ops')
include h o

theorem SNode.twtImpl_rel (s r : SNode K V) : ρ (s.twtImpl reduce ops r).red (s.twtImpl reduce' ops' r).red := by
  have red : ∀ {R : Type} (reduce : R → R → R) (ops : TwtOps K V R), (s.twtImpl reduce ops r).red =
      if s.key == r.key then (ops.both.call s.key s.value r.key r.value).red
      else reduce (ops.left.call s.key s.value).red (ops.right.call r.key r.value).red := by
    intro R reduce ops
    unfold SNode.twtImpl
    split
    · cases ops.both.call s.key s.value r.key r.value <;> rfl
    · cases ops.left.call s.key s.value <;> cases ops.right.call r.key r.value <;> rfl
  rw [red, red]
  split
  · exact o.both _ _ _ _
  · exact h.op (o.left.call _ _) (o.right.call _ _)

theorem SNode.transformS_rel (s : SNode K V) {N N' : Type} (f : SNode K V → N) (f' : SNode K V → N') :
    ρ ((s.transform ops.left).map f).red ((s.transform ops'.left).map f').red ∧
    ρ ((s.transform ops.right).map f).red ((s.transform ops'.right).map f').red := by
  simp only [TRes.red_map', SNode.transform_red]
  exact ⟨o.left.call _ _, o.right.call _ _⟩

theorem SNode.twt_rel (s r : SNode K V) (d : Nat) :
    Res.Both (fun x y => ρ x.red y.red) (s.twt reduce hash ops r d) (s.twt reduce' hash ops' r d) := by
  unfold SNode.twt
  split
  · refine .ok ?_
    rw [JRes.red_map, JRes.red_map]
    exact SNode.twtImpl_rel h o s r
  · exact JRes.Gives.both (twtApart_red _ _ _ _ _ _ _) (twtApart_red _ _ _ _ _ _ _)
      (h.op (SNode.transformS_rel h o s _ _).1 (SNode.transformS_rel h o r _ _).2)

theorem LNode.twtSImpl_rel (r : SNode K V) (l : LNode K V) :
    ρ (l.twtSImpl reduce ops r).red (l.twtSImpl reduce' ops' r).red := by
  induction l with
  | nextS k v s z =>
    unfold LNode.twtSImpl
    split
    · rw [LNode.jointThenPlain_red, LNode.jointThenPlain_red]
      exact h.op (o.both _ _ _ _) (SNode.transformS_rel h o s _ _).1
    · rw [LNode.plainThenJoint_red, LNode.plainThenJoint_red]
      exact h.op (o.left.call _ _) (SNode.twtImpl_rel h o s r)
  | nextL k v l z ih =>
    unfold LNode.twtSImpl
    split
    · rw [LNode.jointThenPlain_red, LNode.jointThenPlain_red]
      exact h.op (o.both _ _ _ _) (o.left.list l)
    · rw [LNode.plainThenJoint_red, LNode.plainThenJoint_red]
      exact h.op (o.left.call _ _) ih

theorem LNode.twtS_rel (l : LNode K V) (r : SNode K V) (d : Nat) :
    Res.Both (fun x y => ρ x.red y.red) (l.twtS reduce hash ops r d) (l.twtS reduce' hash ops' r d) := by
  unfold LNode.twtS
  split
  · refine .ok ?_
    rw [JRes.red_map, JRes.red_map]
    exact LNode.twtSImpl_rel h o r l
  · exact JRes.Gives.both (twtApart_red _ _ _ _ _ _ _) (twtApart_red _ _ _ _ _ _ _)
      (h.op (o.left.list l) (SNode.transformS_rel h o r _ _).2)

theorem TwtOps.step_rel (k : K) (v : V) (rights : List (K × V)) :
    ρ (ops.step k v rights).1.red (ops'.step k v rights).1.red ∧
      (ops.step k v rights).2 = (ops'.step k v rights).2 := by
  unfold TwtOps.step
  cases takeMatch (fun e => k == e.1) rights with
  | none => exact ⟨by simpa using o.left.call k v, rfl⟩
  | some b => exact ⟨o.both _ _ _ _, rfl⟩

theorem SNode.twtLast_rel (s : SNode K V) (rights : List (K × V)) :
    ρ (s.twtLast reduce ops rights).1.red (s.twtLast reduce' ops' rights).1.red ∧
      (s.twtLast reduce ops rights).2 = (s.twtLast reduce' ops' rights).2 := by
  unfold SNode.twtLast
  cases takeMatch (fun e => s.key == e.1) rights with
  | none => exact ⟨by simpa using (SNode.transformS_rel h o s LNext.S LNext.S).1, rfl⟩
  | some b => exact ⟨SNode.twtImpl_rel h o s _, rfl⟩

theorem LNode.twtLImpl_rel (l : LNode K V) (rights : List (K × V)) :
    Res.Both (fun x y => ρ x.1.red y.1.red ∧ x.2 = y.2) (l.twtLImpl reduce ops rights)
      (l.twtLImpl reduce' ops' rights) := by
  induction l with
  | nextS k v s z =>
    unfold LNode.twtLImpl
    obtain ⟨h1, h2⟩ := SNode.twtLast_rel h o s rights
    obtain ⟨h3, h4⟩ := TwtOps.step_rel h o k v (s.twtLast reduce' ops' rights).2.2
    refine .bind (JRes.Gives.both (LNode.jointThenJoint_red _ _ _ _) (LNode.jointThenJoint_red _ _ _ _)
      (h.op ?_ h1)) fun x y xy => .ok ⟨xy, ?_⟩
    · rw [h2]; exact h3
    · rw [h2]; exact h4
  | nextL k v l z ih =>
    unfold LNode.twtLImpl
    refine .bind ih fun n n' nn => ?_
    obtain ⟨h1, h2⟩ := nn
    obtain ⟨h3, h4⟩ := TwtOps.step_rel h o k v n'.2
    refine .bind (JRes.Gives.both (LNode.jointThenJoint_red _ _ _ _) (LNode.jointThenJoint_red _ _ _ _)
      (h.op ?_ h1)) fun x y xy => .ok ⟨xy, ?_⟩
    · rw [h2]; exact h3
    · rw [h2]; exact h4

theorem TwtOps.leftovers_rel (this : LNode K V) (bs : List (K × V)) {x : JRes (LNext K V) R}
    {y : JRes (LNext K V) R'} (xy : ρ x.red y.red) :
    Res.Both (fun x y => ρ x.red y.red) (ops.leftovers reduce this bs x) (ops'.leftovers reduce' this bs y) := by
  induction bs generalizing x y with
  | nil => exact .ok xy
  | cons b bs ih =>
    exact .bind (JRes.Gives.both (TwtOps.leftover_red _ _ _ _) (TwtOps.leftover_red _ _ _ _)
      (h.op (o.right.call _ _) xy)) fun x y xy => ih xy

theorem LNode.twtL_rel (l r : LNode K V) (d : Nat) :
    Res.Both (fun x y => ρ x.red y.red) (l.twtL reduce hash ops r d) (l.twtL reduce' hash ops' r d) := by
  unfold LNode.twtL
  split
  · refine .same fun rights => .bind (LNode.twtLImpl_rel h o l rights) fun x y xy => ?_
    obtain ⟨x1, x2⟩ := x
    obtain ⟨y1, y2⟩ := y
    obtain ⟨h1, rfl⟩ := xy
    refine .bind (TwtOps.leftovers_rel h o l x2 h1) fun x y xy => .ok ?_
    rw [JRes.red_map, JRes.red_map]; exact xy
  · exact JRes.Gives.both (twtApart_red _ _ _ _ _ _ _) (twtApart_red _ _ _ _ _ _ _)
      (h.op (o.left.list l) (o.right.list r))

omit h [BEq K] in
theorem Node.transformLR_rel (m : Node c.n K V) :
    Res.Both (fun x y => ρ x.red y.red) (Node.transformL reduce e par ops.left m)
      (Node.transformL reduce' e' par ops'.left m) ∧
    Res.Both (fun x y => ρ x.red y.red) (Node.transformR reduce e par ops.right m)
      (Node.transformR reduce' e' par ops'.right m) := by
  refine ⟨.bind (o.left.node m) fun x y xy => .ok ?_, .bind (o.right.node m) fun x y xy => .ok ?_⟩
  · simpa using xy
  · simpa using xy

omit h o [BEq K] in
theorem JRes.itemOpt_rel {n : Nat} (l? r? : Option (Node n K V)) {x : JRes (Node n K V) R} {y : JRes (Node n K V) R'}
    (xy : ρ x.red y.red) : Res.Both (Item.Rel ρ) (x.itemOpt l? r?) (y.itemOpt l? r?) := by
  have key : ∀ {R : Type} (x : JRes (Node n K V) R) it, x.itemOpt l? r? = .ok it → it.red? = some x.red := by
    intro R x it hx
    cases x <;> simp only [JRes.itemOpt] at hx
    · cases l? <;> cases hx; rfl
    · cases l? <;> cases hx; rfl
    · cases r? <;> cases hx; rfl
    · cases hx; rfl
    · cases hx; rfl
  intro a b ha hb
  rw [Item.Rel, key _ _ ha, key _ _ hb]; exact xy

omit o [BEq K] in
theorem flatLoop_rel (rh : BitVec c.w) (d : Nat) (bits : BitVec c.n) (values : List (Node c.n K V)) (extra : Nat)
    {f : Node c.n K V → Res (JRes (Node c.n K V) R)} {f' : Node c.n K V → Res (JRes (Node c.n K V) R')}
    (hf : ∀ m ∈ values, Res.Both (fun x y => ρ x.red y.red) (f m) (f' m))
    {g : Node c.n K V → Res (JRes (Node c.n K V) R)} {g' : Node c.n K V → Res (JRes (Node c.n K V) R')}
    (hg : ∀ m ∈ values, Res.Both (fun x y => ρ x.red y.red) (g m) (g' m))
    {a : JRes (Node c.n K V) R} {a' : JRes (Node c.n K V) R'} (ha : ρ a.red a'.red) (r? : Option (Node c.n K V)) :
    Res.Both (fun x y => ρ x.red y.red)
      (flatLoop reduce e rh d ⟨bits, values.map fun m => (m, f m), extra⟩ g a (fun l? res => res.itemOpt l? r?) >>= JRes.finish)
      (flatLoop reduce' e' rh d ⟨bits, values.map fun m => (m, f' m), extra⟩ g' a'
        (fun l? res => res.itemOpt l? r?) >>= JRes.finish) := by
  refine .bind (P := fun x y => ρ x.red y.red) (.same fun flag => Acc.gather_rel h .sequential fun i => Bia.atBit_both ?_ ?_)
    fun x y xy => JRes.Gives.both (JRes.finish_red x) (JRes.finish_red y) xy
  · intro m hm
    refine .same fun bit => ?_
    dsimp only
    split
    · exact .bind (hf m hm) fun x y xy => JRes.itemOpt_rel _ _ xy
    · exact .bind (hg m hm) fun x y xy => JRes.itemOpt_rel _ _ xy
  · intro err
    refine .same fun bit => ?_
    dsimp only
    split
    · exact JRes.itemOpt_rel _ _ ha
    · exact .ok trivial

theorem Node.twtS_rel (r : SNode K V) (m : Node c.n K V) (d : Nat) :
    Res.Both (fun x y => ρ x.red y.red) (m.twtS reduce e hash ops par r d) (m.twtS reduce' e' hash ops' par r d) := by
  induction m using Node.ind generalizing d with
  | hS s => rw [Node.twtS, Node.twtS, Node.fold, Node.fold]; exact SNode.twt_rel hash h o s r d
  | hL l => rw [Node.twtS, Node.twtS, Node.fold, Node.fold]; exact LNode.twtS_rel hash h o l r d
  | hC bits values extra ih =>
    rw [Node.twtS, Node.twtS, Node.fold, Node.fold, Node.foldAll_eq, Node.foldAll_eq]
    refine flatLoop_rel h _ _ _ _ _ (fun m hm => ih m hm (d + 1)) (fun m _ => (Node.transformLR_rel o m).1) ?_ _
    simpa using (SNode.transformS_rel h o r Node.S Node.S).2

omit h o [BEq K] in
theorem JRes.flipR_rel {N N' : Type} {a : Res (JRes N R)} {b : Res (JRes N' R')}
    (ab : Res.Both (fun x y => ρ x.red y.red) a b) :
    Res.Both (fun x y => ρ x.red y.red) (JRes.flipR a) (JRes.flipR b) :=
  .bind ab fun x y xy => .ok (by rw [JRes.red_flip, JRes.red_flip]; exact xy)

theorem Node.twtL_rel (r : LNode K V) (m : Node c.n K V) (d : Nat) :
    Res.Both (fun x y => ρ x.red y.red) (m.twtL reduce e hash ops par r d) (m.twtL reduce' e' hash ops' par r d) := by
  induction m using Node.ind generalizing d with
  | hS s => rw [Node.twtL, Node.twtL, Node.fold, Node.fold]; exact JRes.flipR_rel (LNode.twtS_rel hash h o.flip r s d)
  | hL l => rw [Node.twtL, Node.twtL, Node.fold, Node.fold]; exact LNode.twtL_rel hash h o l r d
  | hC bits values extra ih =>
    rw [Node.twtL, Node.twtL, Node.fold, Node.fold, Node.foldAll_eq, Node.foldAll_eq]
    refine flatLoop_rel h _ _ _ _ _ (fun m hm => ih m hm (d + 1)) (fun m _ => (Node.transformLR_rel o m).1) ?_ _
    simpa [TRes.red_map'] using o.right.list r

/-- Two calls with related contributions on the same nodes reduce to related values. -/
theorem Node.twt_rel
    (hs : (ops.shortcut (c := c) = none ∧ ops'.shortcut (c := c) = none) ∨
      ∃ x y, ops.shortcut (c := c) = some x ∧ ops'.shortcut (c := c) = some y ∧ ρ x.red y.red)
    (m r : Node c.n K V) (d : Nat) :
    Res.Both (fun x y => ρ x.red y.red) (m.twt reduce e hash ops par r d) (m.twt reduce' e' hash ops' par r d) := by
  induction m using Node.ind generalizing r d with
  | hS s =>
    rw [Node.twt, Node.twt, Node.fold, Node.fold]
    cases r with
    | S r => exact SNode.twt_rel hash h o s r d
    | L r => exact JRes.flipR_rel (LNode.twtS_rel hash h o.flip r s d)
    | C b v z => exact JRes.flipR_rel (Node.twtS_rel hash h o.flip s _ d)
  | hL l =>
    rw [Node.twt, Node.twt, Node.fold, Node.fold]
    cases r with
    | S r => exact LNode.twtS_rel hash h o l r d
    | L r => exact LNode.twtL_rel hash h o l r d
    | C b v z => exact JRes.flipR_rel (Node.twtL_rel hash h o.flip l _ d)
  | hC bits values extra ih =>
    rw [Node.twt, Node.twt, Node.fold, Node.fold]
    cases r with
    | S r => simp only [twtC, Node.foldAll_fst]; exact Node.twtS_rel hash h o r _ d
    | L r => simp only [twtC, Node.foldAll_fst]; exact Node.twtL_rel hash h o r _ d
    | C b v z =>
      simp only [twtC, twtCC, Node.foldAll_eq]
      rcases hs with ⟨h1, h2⟩ | ⟨x, y, h1, h2, xy⟩
      · rw [h1, h2]
        refine .bind (P := fun x y => ρ x.red y.red) (Acc.gather_rel h par fun i => Bia.atBit_both ?_ ?_)
          fun x y xy => JRes.Gives.both (JRes.finish_red x) (JRes.finish_red y) xy
        · intro m hm
          refine .same fun rc => ?_
          cases rc with
          | ok r => exact .bind (ih m hm r (d + 1)) fun x y xy => JRes.itemOpt_rel _ _ xy
          | error err => exact .bind (Node.transformLR_rel o m).1 fun x y xy => JRes.itemOpt_rel _ _ xy
        · intro err
          refine .same fun rc => ?_
          cases rc with
          | ok r => exact .bind (Node.transformLR_rel o r).2 fun x y xy => JRes.itemOpt_rel _ _ xy
          | error err => exact .ok trivial
      · rw [h1, h2]; exact .ok xy

end
end HT
