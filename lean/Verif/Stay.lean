import Verif.EffSpec
import Verif.EffLoop
import Verif.Rc
/-!
# Where the objects of a result come from

`ANode.Fine T U m`: the objects of `m` whose key is one of `T` are objects in `U`.  This file follows that through the
code that makes nodes; the closures may answer anything that `G` allows.
-/
namespace HT

variable {K V L W S X R : Type} {n : Nat} {Q : Type} {A : Q → Type}

/-- All ways the code may return, if the closures answer as `G` allows. -/
def Tree.AllG {α : Type} (G : (q : Q) → A q → Prop) (P : α → Prop) : Tree Q A α → Prop
  | .ret a => P a
  | .ask q k => ∀ a, G q a → (k a).AllG G P
  | .panic _ => True
  | .diverge => True

theorem Tree.AllG.bind {α β : Type} {G : (q : Q) → A q → Prop} {P : α → Prop} {P' : β → Prop} {x : Tree Q A α}
    {f : α → Tree Q A β} (hx : x.AllG G P) (h : ∀ a, P a → (f a).AllG G P') : (x.bind f).AllG G P' := by
  induction x with
  | ret a => exact h a hx
  | ask q k ih => exact fun a ha => ih a (hx a ha)
  | panic p => trivial
  | diverge => trivial

theorem Tree.AllG.run {α σ : Type} {G : (q : Q) → A q → Prop} {P : α → Prop} {x : Tree Q A α} (hx : x.AllG G P)
    (env : (q : Q) → σ → Option (A q × σ)) (st : σ) {a : α} {st' : σ} (h : (x.run env st).1 = .ret (a, st'))
    (hG : ∀ q a, ⟨q, some a⟩ ∈ (x.run env st).2 → G q a) : P a := by
  induction x generalizing st with
  | ret b => cases h; exact hx
  | ask q k ih =>
    rw [Tree.run] at h hG
    cases he : env q st with
    | none => rw [he] at h; cases h
    | some p =>
      rw [he] at h hG
      exact ih p.1 (hx p.1 (hG q p.1 (List.mem_cons_self ..))) p.2 h fun q a hm => hG q a (List.mem_cons_of_mem _ hm)
  | panic p => cases h
  | diverge => cases h

/-- If the code returns, `P` holds of what it returns. -/
def Al.Gives {α : Type} (x : Al α) (P : α → Prop) : Prop := ∀ s a s', x s = .ok (a, s') → P a

/-- If the closures answer as `G` allows and the code returns, `P` holds of what it returns. -/
def Prog.Gives {α : Type} (G : (q : Q) → A q → Prop) (x : Prog Q A α) (P : α → Prop) : Prop :=
  ∀ s, (x s).AllG G fun a => P a.1

namespace Al.Gives
variable {α β : Type}

theorem pure {a : α} {P : α → Prop} (h : P a) : (Pure.pure a : Al α).Gives P := by
  intro s b s' hb; cases hb; exact h

theorem bind {x : Al α} {f : α → Al β} {P : α → Prop} {P' : β → Prop} (hx : x.Gives P) (h : ∀ a, P a → (f a).Gives P') :
    (x >>= f).Gives P' := by
  intro s b s' hb
  have hb : Al.bind x f s = .ok (b, s') := hb
  unfold Al.bind at hb
  cases hx' : x s with
  | ok p => rw [hx'] at hb; exact h p.1 (hx s p.1 p.2 hx') p.2 b s' hb
  | panic p => rw [hx'] at hb; cases hb
  | diverge => rw [hx'] at hb; cases hb

theorem lift {x : Res α} {P : α → Prop} (h : ∀ a, x = .ok a → P a) : (Al.lift x).Gives P := by
  intro s a s' ha
  cases x with
  | ok b => cases ha; exact h a rfl
  | panic p => cases ha
  | diverge => cases ha

theorem bindLift {x : Res α} {f : α → Al β} {P : β → Prop} (h : ∀ a, x = .ok a → (f a).Gives P) :
    (Al.lift x >>= f).Gives P := bind (lift fun _ h => h) h

theorem mono {x : Al α} {P P' : α → Prop} (hx : x.Gives P) (h : ∀ a, P a → P' a) : x.Gives P' :=
  fun s a s' ha => h a (hx s a s' ha)

theorem ite {p : Prop} [Decidable p] {x x' : Al α} {P : α → Prop} (h1 : p → x.Gives P) (h2 : ¬p → x'.Gives P) :
    (if p then x else x').Gives P := by
  split
  · exact h1 ‹_›
  · exact h2 ‹_›

end Al.Gives

namespace Prog.Gives
variable {α β : Type} {G : (q : Q) → A q → Prop}

theorem pure {a : α} {P : α → Prop} (h : P a) : (Pure.pure a : Prog Q A α).Gives G P := fun _ => h

theorem bind {x : Prog Q A α} {f : α → Prog Q A β} {P : α → Prop} {P' : β → Prop} (hx : x.Gives G P)
    (h : ∀ a, P a → (f a).Gives G P') : (x >>= f).Gives G P' :=
  fun s => Tree.AllG.bind (hx s) fun a ha => h a.1 ha a.2

theorem al {x : Al α} {P : α → Prop} (hx : x.Gives P) : (Prog.al x : Prog Q A α).Gives G P := by
  intro s
  unfold Prog.al
  cases h : x s with
  | ok a => exact hx s a.1 a.2 h
  | panic p => trivial
  | diverge => trivial

theorem res {x : Res α} {P : α → Prop} (h : ∀ a, x = .ok a → P a) : (Prog.res x : Prog Q A α).Gives G P :=
  al (Al.Gives.lift h)

theorem bindRes {x : Res α} {f : α → Prog Q A β} {P' : β → Prop} (h : ∀ a, x = .ok a → (f a).Gives G P') :
    (Prog.res x >>= f).Gives G P' := bind (res fun _ h => h) h

theorem mono {x : Prog Q A α} {P P' : α → Prop} (hx : x.Gives G P) (h : ∀ a, P a → P' a) : x.Gives G P' := by
  intro s
  have := Tree.AllG.bind (f := Tree.ret) (P' := fun a : α × Nat => P' a.1) (hx s) fun a ha => h a.1 ha
  have hb : ∀ y : Tree Q A (α × Nat), y.bind Tree.ret = y := by
    intro y
    induction y with
    | ret a => rfl
    | ask q k ih => exact congrArg (Tree.ask q) (funext ih)
    | panic p => rfl
    | diverge => rfl
  rwa [hb] at this

theorem map {x : Prog Q A α} {f : α → β} {P : α → Prop} {P' : β → Prop} (hx : x.Gives G P) (h : ∀ a, P a → P' (f a)) :
    (do let a ← x; Pure.pure (f a) : Prog Q A β).Gives G P' := bind hx fun a ha => pure (h a ha)

theorem ite {p : Prop} [Decidable p] {x x' : Prog Q A α} {P : α → Prop} (h1 : p → x.Gives G P) (h2 : ¬p → x'.Gives G P) :
    (if p then x else x').Gives G P := by
  split
  · exact h1 ‹_›
  · exact h2 ‹_›

theorem trivial (x : Prog Q A α) : x.Gives G fun _ => True := by
  intro s
  generalize x s = y
  induction y with
  | ret a => exact True.intro
  | ask q k ih => exact fun a _ => ih a
  | panic p => exact True.intro
  | diverge => exact True.intro

theorem run {σ : Type} {x : Prog Q A α} {P : α → Prop} (hx : x.Gives G P) {s s' : Nat}
    {env : (q : Q) → σ → Option (A q × σ)} {st st' : σ} {a : α} {l : List (Reply Q A)}
    (h : x.run s env st = (.ret ((a, s'), st'), l)) (hG : ∀ q a, ⟨q, some a⟩ ∈ l → G q a) : P a :=
  Tree.AllG.run (hx s) env st (congrArg Prod.fst h) fun q a hm => hG q a (by
    have h : (x s).run env st = _ := h
    rw [h] at hm; exact hm)

end Prog.Gives

/-! ### Nodes -/

/-- The objects of `m` whose key is one of `T` are objects in `U`. -/
def ANode.Fine (T : K → Prop) (U : ANode n K V → Prop) (m : ANode n K V) : Prop :=
  ∀ o : ANode n K V, o.Sub m → ∀ e, o.entry = some e → T e.1 → U o

namespace ANode.Fine
variable {T : K → Prop} {U : ANode n K V → Prop}

theorem sub {o m : ANode n K V} (h : m.Fine T U) (ho : o.Sub m) : o.Fine T U := fun o' ho' => h o' (ho'.trans ho)

theorem kid {o m : ANode n K V} (h : m.Fine T U) (ho : o ∈ m.kids) : o.Fine T U := h.sub (.kid (.refl _) ho)

theorem intro {m : ANode n K V} (h : ∀ e, m.entry = some e → T e.1 → U m) (hk : ∀ o ∈ m.kids, ANode.Fine T U o) :
    m.Fine T U := by
  intro o ho
  rcases ho.cases' with rfl | ⟨k, hk', ho⟩
  · exact h
  · exact hk k hk' o ho

theorem ofS {s : ASNode K V} (h : T s.key → U (.S s)) : (ANode.S s : ANode n K V).Fine T U :=
  intro (fun e he => by cases he; exact h) fun _ ho => by cases ho

theorem ofL {l : ALNode K V} (h : T l.key → U (.L l)) (hn : (l.next.toNode : ANode n K V).Fine T U) :
    (ANode.L l : ANode n K V).Fine T U := by
  refine intro (fun e he => by cases he; exact h) fun o ho => ?_
  cases l <;> simp only [ANode.kids, List.mem_singleton] at ho <;> subst ho <;> exact hn

theorem ofC {a : Nat} {bits : BitVec n} {vs : List (ANode n K V)} {z : Nat} (h : ∀ m ∈ vs, ANode.Fine T U m) :
    (ANode.C a bits vs z : ANode n K V).Fine T U :=
  intro (fun e he => by cases he) h

theorem next {l : ALNode K V} (h : (ANode.L l : ANode n K V).Fine T U) : (l.next.toNode : ANode n K V).Fine T U := by
  cases l <;> exact h.kid (by simp [ANode.kids, ALNode.next, ALNext.toNode])

theorem mono {T' : K → Prop} {U' : ANode n K V → Prop} {m : ANode n K V} (h : m.Fine T U) (hT : ∀ k, T' k → T k)
    (hU : ∀ o, U o → U' o) : m.Fine T' U' := fun o ho e he ht => hU o (h o ho e he (hT _ ht))

end ANode.Fine

/-- No object of `m` has a key in `T`. -/
def ANode.Loose (T : K → Prop) (m : ANode n K V) : Prop := ∀ o : ANode n K V, o.Sub m → ∀ e, o.entry = some e → ¬T e.1

namespace ANode.Loose
variable {T : K → Prop}

theorem fine {m : ANode n K V} (h : m.Loose T) (U : ANode n K V → Prop) : m.Fine T U :=
  fun o ho e he ht => (h o ho e he ht).elim

theorem sub {o m : ANode n K V} (h : m.Loose T) (ho : o.Sub m) : o.Loose T := fun o' ho' => h o' (ho'.trans ho)

theorem key {l : ALNode K V} (h : (ANode.L l : ANode n K V).Loose T) : ¬T l.key := h _ (.refl _) _ rfl

theorem keyS {s : ASNode K V} (h : (ANode.S s : ANode n K V).Loose T) : ¬T s.key := h _ (.refl _) _ rfl

theorem next {l : ALNode K V} (h : (ANode.L l : ANode n K V).Loose T) : (l.next.toNode : ANode n K V).Loose T := by
  cases l <;> exact h.sub (.kid (.refl _) (by simp [ANode.kids, ALNode.next, ALNext.toNode]))

theorem ofS {s : ASNode K V} (h : ¬T s.key) : (ANode.S s : ANode n K V).Loose T := by
  intro o ho e he
  rcases ho.cases' with rfl | ⟨k, hk, _⟩
  · cases he; exact h
  · cases hk

end ANode.Loose

/-! ### What results contain -/

/-- The node of the result is `F`, and if the operand is kept then `this`. -/
def TRes.Fine {N : Type} (F : N → Prop) (this : Prop) : TRes N R → Prop
  | .unchanged _ => this
  | .node m _ => F m
  | .removed _ => True
@[inherit_doc TRes.Fine]
def XRes.Fine {N : Type} (F : N → Prop) : XRes N R → Prop
  | .node m _ => F m
  | .removed _ => True
/-- The node of the result is `F`, and if an operand is kept then `left`, `right`. -/
def JRes.Fine {N : Type} (F : N → Prop) (left right : Prop) : JRes N R → Prop
  | .unchangedLR _ => left ∧ right
  | .unchangedL _ => left
  | .unchangedR _ => right
  | .node m _ => F m
  | .removed _ => True

/-- An answer that does not change the entry; `keep` if it stays. -/
def MapTransformResult.Good (keep : Prop) : MapTransformResult V R → Prop
  | .unchanged _ => keep
  | .transformed _ _ => False
  | .removed _ => True
/-- An answer whose key is not one of `T`. -/
def MapTransmuteResult.Good (T : K → Prop) : MapTransmuteResult K V R → Prop
  | .transmuted k _ _ => ¬T k
  | .removed _ => True
/-- An answer that does not change the entries; `left`, `right` if one stays. -/
def MapJointTransformResult.Good (left right : Prop) : MapJointTransformResult V R → Prop
  | .unchangedLR _ => left ∧ right
  | .unchangedL _ => left
  | .unchangedR _ => right
  | .transformed _ _ => False
  | .removed _ => True

theorem TRes.Fine.map {M N : Type} {f : M → N} {F : M → Prop} {F' : N → Prop} {this this' : Prop} {r : TRes M R}
    (h : r.Fine F this) (hF : ∀ m, F m → F' (f m)) (ht : this → this') : (r.map f).Fine F' this' := by
  cases r with
  | unchanged r => exact ht h
  | node m r => exact hF m h
  | removed r => trivial
theorem XRes.Fine.map {M N : Type} {f : M → N} {F : M → Prop} {F' : N → Prop} {r : XRes M R}
    (h : r.Fine F) (hF : ∀ m, F m → F' (f m)) : (r.map f).Fine F' := by
  cases r with
  | node m r => exact hF m h
  | removed r => trivial
theorem JRes.Fine.map {M N : Type} {f : M → N} {F : M → Prop} {F' : N → Prop} {left right left' right' : Prop}
    {r : JRes M R} (h : r.Fine F left right) (hF : ∀ m, F m → F' (f m)) (hl : left → left') (hr : right → right') :
    (r.map f).Fine F' left' right' := by
  cases r with
  | unchangedLR r => exact ⟨hl h.1, hr h.2⟩
  | unchangedL r => exact hl h
  | unchangedR r => exact hr h
  | node m r => exact hF m h
  | removed r => trivial
theorem JRes.Fine.flip {N : Type} {F : N → Prop} {left right : Prop} {r : JRes N R} (h : r.Fine F left right) :
    r.flip.Fine F right left := by
  cases r with
  | unchangedLR r => exact ⟨h.2, h.1⟩
  | unchangedL r => exact h
  | unchangedR r => exact h
  | node m r => exact h
  | removed r => trivial
theorem XRes.Fine.toT {N : Type} {F : N → Prop} {r : XRes N R} (h : r.Fine F) (this : Prop) : r.toT.Fine F this := by
  cases r with
  | node m r => exact h
  | removed r => trivial
theorem TRes.Fine.jointL {N : Type} {F : N → Prop} {left right : Prop} {r : TRes N R} (h : r.Fine F left) :
    r.jointL.Fine F left right := by
  cases r with
  | unchanged r => exact h
  | node m r => exact h
  | removed r => trivial
theorem TRes.Fine.jointR {N : Type} {F : N → Prop} {left right : Prop} {r : TRes N R} (h : r.Fine F right) :
    r.jointR.Fine F left right := by
  cases r with
  | unchanged r => exact h
  | node m r => exact h
  | removed r => trivial

/-! ### Allocation -/

variable {α : Type} {T : K → Prop} {U : ANode n K V → Prop}

theorem Al.Gives.bindS {k : K} {v : V} {f : ASNode K V → Al α} {P : α → Prop} (hk : ¬T k)
    (h : ∀ s : ASNode K V, s.key = k → (ANode.S s : ANode n K V).Fine T U → (f s).Gives P) : (ASNode.new k v >>= f).Gives P := by
  refine Al.Gives.bind (P := fun s : ASNode K V => s.key = k) ?_ fun s hs =>
    h s hs (ANode.Fine.ofS fun ht => absurd (hs ▸ ht) hk)
  intro s a s' ha
  cases ha; rfl

theorem Al.Gives.bindL {k : K} {v : V} {nx : ALNext K V} {f : ALNode K V → Al α} {P : α → Prop} (hk : ¬T k)
    (hn : (nx.toNode : ANode n K V).Fine T U)
    (h : ∀ l : ALNode K V, (ANode.L l : ANode n K V).Fine T U → (f l).Gives P) : (ALNode.new k v nx >>= f).Gives P := by
  refine Al.Gives.bind (P := fun l : ALNode K V => l.key = k ∧ l.next = nx) ?_ fun l hl =>
    h l (ANode.Fine.ofL (fun ht => absurd (hl.1 ▸ ht) hk) (hl.2 ▸ hn))
  intro s a s' ha
  cases nx <;> cases ha <;> exact ⟨rfl, rfl⟩

theorem Al.Gives.bindC {a : Bia n (ANode n K V)} {f : ANode n K V → Al α} {P : α → Prop}
    (hn : ∀ m ∈ a.values, ANode.Fine T U m)
    (h : ∀ m : ANode n K V, m.Fine T U → (f m).Gives P) : (ANode.ofBia a >>= f).Gives P := by
  refine Al.Gives.bind (P := fun m : ANode n K V => m.Fine T U) ?_ h
  intro s m s' hm
  cases hm; exact ANode.Fine.ofC hn

theorem ANode.ofBia_gives {a : Bia n (ANode n K V)} (hn : ∀ m ∈ a.values, ANode.Fine T U m) :
    (ANode.ofBia a).Gives (ANode.Fine T U) := by
  intro s m s' hm
  cases hm; exact ANode.Fine.ofC hn

end HT
