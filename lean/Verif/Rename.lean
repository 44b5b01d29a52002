import Verif.EffLoop
import Verif.ThreadSpec
/-!
# Addresses are only passed on

The code never looks at the address of a node (only `==` does, which is called by users and not by the code).  So running
it on nodes with other addresses, and with other addresses for the new nodes, gives the same result up to these addresses.
-/
namespace HT

variable {K V L W S X R : Type} {n : Nat}

/-! ### Other addresses -/

def ALNext.ren (f : Nat → Nat) : ALNext K V → ALNext K V
  | .L l => .L (l.ren f)
  | .S s => .S (s.ren f)

theorem ANode.renAll_eq (f : Nat → Nat) (ms : List (ANode n K V)) : ANode.renAll f ms = ms.map (ANode.ren f) := by
  induction ms with
  | nil => rfl
  | cons m ms ih => rw [ANode.renAll, ih]; rfl

theorem ANode.ren_C (f : Nat → Nat) (a : Nat) (bits : BitVec n) (values : List (ANode n K V)) (extra : Nat) :
    (ANode.C a bits values extra).ren f = .C (f a) bits (values.map (ANode.ren f)) extra := by
  rw [ANode.ren, ANode.renAll_eq]

@[simp] theorem ASNode.ren_key (f : Nat → Nat) (s : ASNode K V) : (s.ren f).key = s.key := rfl
@[simp] theorem ASNode.ren_value (f : Nat → Nat) (s : ASNode K V) : (s.ren f).value = s.value := rfl
@[simp] theorem ALNode.ren_size (f : Nat → Nat) (l : ALNode K V) : (l.ren f).size = l.size := by cases l <;> rfl
@[simp] theorem ALNode.ren_key (f : Nat → Nat) (l : ALNode K V) : (l.ren f).key = l.key := by cases l <;> rfl
@[simp] theorem ALNode.ren_value (f : Nat → Nat) (l : ALNode K V) : (l.ren f).value = l.value := by cases l <;> rfl
@[simp] theorem ALNode.ren_next (f : Nat → Nat) (l : ALNode K V) : (l.ren f).next = l.next.ren f := by cases l <;> rfl
@[simp] theorem ALNode.ren_addr (f : Nat → Nat) (l : ALNode K V) : (l.ren f).addr = f l.addr := by cases l <;> rfl
@[simp] theorem ALNext.ren_key (f : Nat → Nat) (l : ALNext K V) : (l.ren f).key = l.key := by
  cases l <;> simp [ren, key]
@[simp] theorem ALNext.toNode_ren (f : Nat → Nat) (l : ALNext K V) :
    ((l.ren f).toNode : ANode n K V) = l.toNode.ren f := by cases l <;> rfl
@[simp] theorem ANode.ren_size (f : Nat → Nat) (m : ANode n K V) : (m.ren f).size = m.size := by
  cases m <;> simp [ren, size]
@[simp] theorem ANode.ren_addr (f : Nat → Nat) (m : ANode n K V) : (m.ren f).addr = f m.addr := by
  cases m <;> simp [ren, addr, ASNode.ren]

theorem ALNode.ren_find (f : Nat → Nat) (q : K → Bool) (l : ALNode K V) : (l.ren f).find q = l.find q := by
  induction l with
  | nextS a k v s z => rfl
  | nextL a k v l z ih => simp only [ALNode.ren, ALNode.find, ih]

theorem ALNode.ren_rights (f : Nat → Nat) (l : ALNode K V) : (l.ren f).rights = l.rights := by
  cases l <;> rfl

/-! ### Code on other addresses -/

/-- A renaming that, from `base` on, takes consecutive addresses to consecutive addresses. -/
structure Shift where
  f : Nat → Nat
  base : Nat
  succ : ∀ s, base ≤ s → f (s + 1) = f s + 1

/-- The same outcome, up to `P`. -/
inductive Res.Rel {α β : Type} (P : α → β → Prop) : Res α → Res β → Prop
  | ok {a : α} {b : β} : P a b → Rel P (.ok a) (.ok b)
  | panic (p : Panic) : Rel P (.panic p) (.panic p)
  | diverge : Rel P .diverge .diverge

/-- The same calls in the same order, and for the same answers the same outcome, up to `P`. -/
inductive Tree.Rel {Q : Type} {A : Q → Type} {α β : Type} (P : α → β → Prop) : Tree Q A α → Tree Q A β → Prop
  | ret {a : α} {b : β} : P a b → Rel P (.ret a) (.ret b)
  | ask (q : Q) {k : A q → Tree Q A α} {k' : A q → Tree Q A β} : (∀ a, Rel P (k a) (k' a)) → Rel P (.ask q k) (.ask q k')
  | panic (p : Panic) : Rel P (.panic p) (.panic p)
  | diverge : Rel P .diverge .diverge

/-- `x` on some addresses and `y` on others do the same, up to addresses. -/
def Al.Ren {α β : Type} (φ : Shift) (P : α → β → Prop) (x : Al α) (y : Al β) : Prop :=
  ∀ s, φ.base ≤ s → (x s).Rel (fun a b => P a.1 b.1 ∧ φ.base ≤ a.2 ∧ b.2 = φ.f a.2) (y (φ.f s))

@[inherit_doc Al.Ren]
def Prog.Ren {Q : Type} {A : Q → Type} {α β : Type} (φ : Shift) (P : α → β → Prop) (x : Prog Q A α) (y : Prog Q A β) :
    Prop :=
  ∀ s, φ.base ≤ s → (x s).Rel (fun a b => P a.1 b.1 ∧ φ.base ≤ a.2 ∧ b.2 = φ.f a.2) (y (φ.f s))

/-- The second value is `g` of the first. -/
abbrev Is {α β : Type} (g : α → β) (a : α) (b : β) : Prop := b = g a

namespace Al.Ren
variable {φ : Shift} {α β γ δ : Type}

theorem pure {P : α → β → Prop} {a : α} {b : β} (h : P a b) : Al.Ren φ P (Pure.pure a) (Pure.pure b) :=
  fun _ hs => .ok ⟨h, hs, rfl⟩

theorem bind {P : α → β → Prop} {P' : γ → δ → Prop} {x : Al α} {y : Al β} {f : α → Al γ} {g : β → Al δ}
    (h : Al.Ren φ P x y) (hf : ∀ a b, P a b → Al.Ren φ P' (f a) (g b)) : Al.Ren φ P' (x >>= f) (y >>= g) := by
  intro s hs
  have hx := h s hs
  show (Al.bind x f s).Rel _ (Al.bind y g (φ.f s))
  unfold Al.bind
  generalize x s = u at hx
  generalize y (φ.f s) = v at hx
  cases hx with
  | @ok a b hp =>
    obtain ⟨a, s1⟩ := a
    obtain ⟨b, s2⟩ := b
    obtain ⟨hp, hb, rfl⟩ := hp
    exact hf a b hp s1 hb
  | panic p => exact .panic p
  | diverge => exact .diverge

/-- The common case of `bind`. -/
theorem then' {k : α → β} {P' : γ → δ → Prop} {x : Al α} {y : Al β} {f : α → Al γ} {g : β → Al δ}
    (h : Al.Ren φ (Is k) x y) (hf : ∀ a, Al.Ren φ P' (f a) (g (k a))) : Al.Ren φ P' (x >>= f) (y >>= g) :=
  bind h fun a b e => e ▸ hf a

theorem lift {P : α → β → Prop} {x : Res α} {y : Res β} (h : x.Rel P y) : Al.Ren φ P (Al.lift x) (Al.lift y) := by
  intro s hs
  unfold Al.lift
  cases h with
  | ok h => exact .ok ⟨h, hs, rfl⟩
  | panic p => exact .panic p
  | diverge => exact .diverge

/-- A step that does not allocate, the same on both sides. -/
theorem same {P' : γ → δ → Prop} {x : Res α} {f : α → Al γ} {g : α → Al δ}
    (hf : ∀ a, x = .ok a → Al.Ren φ P' (f a) (g a)) : Al.Ren φ P' (Al.lift x >>= f) (Al.lift x >>= g) := by
  cases x with
  | ok a => exact hf a rfl
  | panic p => exact fun _ _ => .panic p
  | diverge => exact fun _ _ => .diverge

theorem fresh : Al.Ren φ (Is φ.f) Al.fresh Al.fresh :=
  fun s hs => .ok ⟨rfl, Nat.le_succ_of_le hs, (φ.succ s hs).symm⟩

theorem map {k : α → β} {k' : γ → δ} {x : Al α} {y : Al β} {f : α → γ} {g : β → δ} (h : Al.Ren φ (Is k) x y)
    (hf : ∀ a, g (k a) = k' (f a)) :
    Al.Ren φ (Is k') (x >>= fun a => Pure.pure (f a)) (y >>= fun a => Pure.pure (g a)) :=
  then' h fun a => pure (hf a)

theorem ite {P : α → β → Prop} {p : Prop} [Decidable p] {x y : Al α} {x' y' : Al β} (h : p → Al.Ren φ P x x')
    (h' : ¬ p → Al.Ren φ P y y') : Al.Ren φ P (if p then x else y) (if p then x' else y') := by
  split
  · exact h ‹_›
  · exact h' ‹_›

theorem failed {P : α → β → Prop} (p : Panic) : Al.Ren φ P (Al.lift (.panic p)) (Al.lift (.panic p)) :=
  fun _ _ => .panic p

theorem snew (k : K) (v : V) : Al.Ren φ (Is (ASNode.ren φ.f)) (ASNode.new k v) (ASNode.new k v) :=
  map fresh fun _ => rfl

theorem lnew (k : K) (v : V) (nx : ALNext K V) :
    Al.Ren φ (Is (ALNode.ren φ.f)) (ALNode.new k v nx) (ALNode.new k v (nx.ren φ.f)) := by
  cases nx with
  | L l => exact map fresh fun a => by simp [ALNode.ren]
  | S s => exact map fresh fun a => by simp [ALNode.ren]

theorem ofBia (a : Bia n (ANode n K V)) :
    Al.Ren φ (Is (ANode.ren φ.f)) (ANode.ofBia a) (ANode.ofBia (a.map (ANode.ren φ.f))) :=
  map fresh fun p => (ANode.ren_C _ _ _ _ _).symm

/-- Building a branch node from arrays that differ in addresses. -/
theorem bia {P : γ → δ → Prop} {x y : Res (Except BitError (Bia n (ANode n K V)))} {f : ANode n K V → Al γ}
    {g : ANode n K V → Al δ} (hy : y = Bia.mapR (ANode.ren φ.f) x) (h : ∀ m, Al.Ren φ P (f m) (g (m.ren φ.f))) :
    Al.Ren φ P (do
      let a ← Al.lift x
      let a ← Al.lift (Res.unwrapE a)
      let m ← ANode.ofBia a
      f m) (do
      let a ← Al.lift y
      let a ← Al.lift (Res.unwrapE a)
      let m ← ANode.ofBia a
      g m) := by
  subst hy
  cases x with
  | ok e =>
    cases e with
    | ok a =>
      have : Al.Ren φ P (ANode.ofBia a >>= f) (ANode.ofBia (a.map (ANode.ren φ.f)) >>= g) := then' (ofBia a) h
      exact this
    | error e => exact fun _ _ => .panic _
  | panic p => exact fun _ _ => .panic p
  | diverge => exact fun _ _ => .diverge

end Al.Ren

/-! ### Lifting -/

section
variable {c : Cfg} {hash : K → BitVec c.w} {φ : Shift}

theorem aliftC_ren (m1 m2 : ANode c.n K V) (d : Nat) :
    ∀ (f1 f2 : Flag c), 8 * c.w - f1.depth = d →
      Al.Ren φ (Is (ANode.ren φ.f)) (aliftC c m1 f1 m2 f2) (aliftC c (m1.ren φ.f) f1 (m2.ren φ.f) f2) := by
  induction d using Nat.strongRecOn with
  | _ d ih =>
    intro f1 f2 hd
    rw [aliftC_unfold, aliftC_unfold]
    split
    · refine .same fun tf htf => ?_
      refine .same fun tf' htf' => ?_
      refine .same fun rf hrf => ?_
      refine .same fun rf' hrf' => ?_
      have hdec : 8 * c.w - tf'.depth < d := by
        cases tf with
        | none => cases htf'
        | some x =>
          injection htf' with htf'; subst htf'
          simp only [Flag.next, Flag.newAtDepth] at htf
          split at htf
          · simp at htf
          · have hb := c.bpos
            simp only [Res.bind_eq_ok] at htf
            obtain ⟨x, _, y, _, hz⟩ := htf
            injection hz with hz
            injection hz with hz
            subst hz
            have : f1.depth + 1 ≤ (f1.depth + 1) * c.b := Nat.le_mul_of_pos_right _ hb
            show 8 * c.w - (f1.depth + 1) < d
            omega
      refine .then' (ih _ hdec tf' rf' rfl) fun inner => ?_
      refine .bia (by
        rw [ANode.ren_size, ANode.ren_size, ← Bia.ofVec_map]; rfl) fun m => .pure rfl
    · refine .same fun flags hf => ?_
      refine .same fun i hi => ?_
      refine .bia (by
        rw [ANode.ren_size, ANode.ren_size, ← Bia.ofVec_map]; split <;> rfl) fun m => .pure rfl

theorem aliftN_ren (l r : ALNext K V) (lf rf : Flag c) :
    Al.Ren φ (Is (ANode.ren φ.f)) (aliftN l lf r rf) (aliftN (l.ren φ.f) lf (r.ren φ.f) rf) := by
  unfold aliftN
  rw [ALNext.toNode_ren, ALNext.toNode_ren]
  exact aliftC_ren _ _ _ _ _ rfl

/-! ### insert and remove -/

def AInsertResult.ren (f : Nat → Nat) : AInsertResult n K V → AInsertResult n K V
  | .found k v => .found k v
  | .inserted m ptr prev => .inserted (m.ren f) (f ptr) prev

def ARemoveResult.ren (f : Nat → Nat) : ARemoveResult n K V → ARemoveResult n K V
  | .notFound => .notFound
  | .removed m k v => .removed (m.ren f) k v
  | .removedZ k v => .removedZ k v

def ALNodeRemoveResult.ren (f : Nat → Nat) : ALNodeRemoveResult K V → ALNodeRemoveResult K V
  | .notFound => .notFound
  | .removedL l k v => .removedL (l.ren f) k v
  | .removedS s k v => .removedS (s.ren f) k v

theorem aliftL_ren (this : ALNext K V) (k : K) (v : V) (f : Flag c) :
    Al.Ren φ (Is (AInsertResult.ren φ.f)) (aliftL c hash this k v f) (aliftL c hash (this.ren φ.f) k v f) := by
  unfold aliftL
  rw [ALNext.ren_key]
  simp only
  split
  · exact .map (.lnew k v this) fun l => by simp [AInsertResult.ren, ANode.ren]
  · refine .same fun tf _ => .same fun tf' _ => .then' (.snew k v) fun s => ?_
    refine .map ?_ fun m => rfl
    rw [ALNext.toNode_ren]
    exact aliftC_ren this.toNode (.S s) _ _ _ rfl

theorem ASNode.insert_ren (q : K → Bool) (k : K) (v : V) (replace : Bool) (this : ASNode K V) (f : Option (Flag c)) :
    Al.Ren φ (Is (AInsertResult.ren φ.f)) (this.insert c hash q k v replace f)
      ((this.ren φ.f).insert c hash q k v replace f) := by
  unfold ASNode.insert
  rw [ASNode.ren_key, ASNode.ren_value]
  split
  · split
    · exact .map (.snew k v) fun s => rfl
    · exact .pure rfl
  · exact .same fun f' _ => aliftL_ren (.S this) k v f'

theorem ALNode.removeFrom_ren (q : K → Bool) (this : ALNode K V) :
    Al.Ren φ (Is (ALNodeRemoveResult.ren φ.f)) (this.removeFrom q) ((this.ren φ.f).removeFrom q) := by
  induction this with
  | nextS a k v s z =>
    exact .ite (fun _ => .pure rfl) fun _ => .ite (fun _ => .map (.snew k v) fun s => rfl) fun _ => .pure rfl
  | nextL a k v l z ih =>
    unfold ALNode.removeFrom
    simp only [ALNode.ren]
    split
    · exact .pure rfl
    · refine .then' ih fun r => ?_
      cases r with
      | notFound => exact .pure rfl
      | removedL l' k' v' => exact .map (.lnew k v (.L l')) fun l => rfl
      | removedS s' k' v' => exact .map (.lnew k v (.S s')) fun l => rfl

theorem ALNode.remove_ren (q : K → Bool) (this : ALNode K V) :
    Al.Ren φ (Is (ARemoveResult.ren φ.f)) (this.remove q : Al (ARemoveResult n K V)) ((this.ren φ.f).remove q) := by
  refine .then' (this.removeFrom_ren q) fun r => ?_
  cases r <;> exact .pure rfl

theorem ALNode.insert_ren (q : K → Bool) (k : K) (v : V) (replace : Bool) (this : ALNode K V) (f : Option (Flag c)) :
    Al.Ren φ (Is (AInsertResult.ren φ.f)) (this.insert c hash q k v replace f)
      ((this.ren φ.f).insert c hash q k v replace f) := by
  unfold ALNode.insert
  rw [ALNode.ren_find]
  cases this.find q with
  | none => exact .same fun f' _ => aliftL_ren (.L this) k v f'
  | some e =>
    simp only
    split
    · refine .then' (this.removeFrom_ren q) fun r => ?_
      cases r with
      | notFound => exact .failed _
      | removedL l' k' v' => exact .map (.lnew k v (.L l')) fun l => by simp [AInsertResult.ren, ANode.ren]
      | removedS s' k' v' => exact .map (.lnew k v (.S s')) fun l => by simp [AInsertResult.ren, ANode.ren]
    · exact .pure rfl

/-- Other addresses in the result of an arm of `CNode::insert`. -/
def renArm (f : Nat → Nat) : (K × V) ⊕ (ANode n K V × Nat × Nat × Option (K × V)) →
    (K × V) ⊕ (ANode n K V × Nat × Nat × Option (K × V))
  | .inl e => .inl e
  | .inr (m, z, ptr, prev) => .inr (m.ren f, z, f ptr, prev)

theorem ANode.insertStep_ren (f : Nat → Nat) (m : ANode n K V) (z : Nat) (r : AInsertResult n K V) :
    (m.insertStep z r).Rel (Is (renArm f)) ((m.ren f).insertStep z (r.ren f)) := by
  cases r with
  | found k v => exact .ok rfl
  | inserted m2 ptr prev =>
    have hz1 := ANode.ren_size f m
    have hz2 := ANode.ren_size f m2
    have usubcase : ∀ x y, Res.Rel (Is (renArm f)) (do let z ← usub x y; .ok (.inr (m2, z, ptr, prev)))
        (do let z ← usub x y; .ok (.inr (m2.ren f, z, f ptr, prev))) := by
      intro x y
      cases usub x y with
      | ok a => exact .ok rfl
      | panic p => exact .panic p
      | diverge => exact .diverge
    cases m <;> cases m2 <;>
      simp only [AInsertResult.ren, ANode.ren_C, ANode.ren] at hz1 hz2 usubcase ⊢ <;>
      simp only [ANode.insertStep, hz1, hz2] <;>
      first
        | exact usubcase _ _
        | exact .panic _
        | exact .ok (by simp only [Is, renArm, ANode.ren_C, ANode.ren])

theorem ANode.insert_ren (q : K → Bool) (k : K) (v : V) (replace : Bool) (m : ANode c.n K V)
    (flag : Option (Flag c)) :
    Al.Ren φ (Is (AInsertResult.ren φ.f)) (m.insert c hash q k v replace flag)
      ((m.ren φ.f).insert c hash q k v replace flag) := by
  match m with
  | .L l => exact l.insert_ren q k v replace flag
  | .S t => exact t.insert_ren q k v replace flag
  | .C a bits values extra =>
    rw [ANode.ren_C, ANode.insert, ANode.insert]
    refine .same fun f hf => ?_
    rw [ANode.insertAll_eq, ANode.insertAll_eq, List.map_map, Bia.at'_map, Bia.at'_map]
    cases hat : (Bia.mk bits values extra).at' f.flag with
    | error err =>
      simp only
      refine .then' (.snew k v) fun s => .bia (Bia.inserted_map (ANode.ren φ.f) (Bia.mk bits values extra) f.flag (.S s) _)
        fun m => .pure rfl
    | ok m0 =>
      simp only
      have hm0 := Bia.at'_mem hat
      have hlt : sizeOf m0 < 1 + sizeOf a + sizeOf bits + sizeOf values + sizeOf extra := by
        have : sizeOf m0 < sizeOf values := List.sizeOf_lt_of_mem hm0
        omega
      refine .same fun nx hnx => ?_
      refine .then' (k := renArm φ.f) (.then' (ANode.insert_ren q k v replace m0 nx) fun r =>
        .lift (ANode.insertStep_ren φ.f m0 extra r)) fun r => ?_
      match r with
      | .inl e => exact .pure rfl
      | .inr (m, z, ptr, prev) =>
        exact .bia (Bia.updated_map (ANode.ren φ.f) (Bia.mk bits values extra) f.flag m z) fun m => .pure rfl
termination_by sizeOf m
decreasing_by
  simp only [ANode.C.sizeOf_spec]
  exact hlt

theorem ANode.remove_ren (q : K → Bool) (m : ANode c.n K V) (flag : Option (Flag c)) :
    Al.Ren φ (Is (ARemoveResult.ren φ.f)) (m.remove c q flag) ((m.ren φ.f).remove c q flag) := by
  match m with
  | .L l => exact l.remove_ren q
  | .S t =>
    refine .pure ?_
    unfold ASNode.remove
    rw [ASNode.ren_key, ASNode.ren_value]
    split <;> rfl
  | .C a bits values extra =>
    rw [ANode.ren_C, ANode.remove, ANode.remove]
    refine .same fun f hf => ?_
    rw [ANode.removeAll_eq, ANode.removeAll_eq, List.map_map, Bia.at'_map, Bia.at'_map]
    cases hat : (Bia.mk bits values extra).at' f.flag with
    | error err => exact .pure rfl
    | ok m0 =>
      simp only
      have hm0 := Bia.at'_mem hat
      have hlt : sizeOf m0 < 1 + sizeOf a + sizeOf bits + sizeOf values + sizeOf extra := by
        have : sizeOf m0 < sizeOf values := List.sizeOf_lt_of_mem hm0
        omega
      refine .same fun nx hnx => ?_
      refine .then' (ANode.remove_ren q m0 nx) fun r => ?_
      have main : ∀ (m : ANode c.n K V) (k : K) (v : V), Al.Ren φ (Is (ARemoveResult.ren φ.f)) (do
            let z ← Al.lift (usub extra 1)
            let a ← Al.lift ((Bia.mk bits values extra).updated f.flag m z)
            let a ← Al.lift (Res.unwrapE a)
            let m' ← ANode.ofBia a
            pure (.removed m' k v)) (do
            let z ← Al.lift (usub extra 1)
            let a ← Al.lift ((Bia.mk bits (values.map (ANode.ren φ.f)) extra).updated f.flag (m.ren φ.f) z)
            let a ← Al.lift (Res.unwrapE a)
            let m' ← ANode.ofBia a
            pure (.removed m' k v)) := fun m k v => .same fun z _ =>
          .bia (Bia.updated_map (ANode.ren φ.f) (Bia.mk bits values extra) f.flag m z) fun m => .pure rfl
      cases r with
      | notFound => exact .pure rfl
      | removedZ k v =>
        simp only [ARemoveResult.ren]
        split
        · exact .pure rfl
        · exact .same fun z _ => .bia (Bia.removed_map (ANode.ren φ.f) (Bia.mk bits values extra) f.flag z)
            fun m => .pure rfl
      | removed m k v =>
        simp only [ARemoveResult.ren]
        have := main m k v
        cases m with
        | L l => exact this
        | S t => exact this
        | C a' b' v' x =>
          rw [ANode.ren_C] at this ⊢
          cases x with
          | zero => exact .failed _
          | succ x => exact this
termination_by sizeOf m
decreasing_by
  simp only [ANode.C.sizeOf_spec]
  exact hlt

theorem ATrie.new_ren : Al.Ren φ (Is (ATrie.ren φ.f)) (ATrie.new c : Al (ATrie c K V)) (ATrie.new c) :=
  .map (.ofBia Bia.default) fun _ => rfl

/-- Other addresses in the result of insert. -/
def ATrie.renInserted {c : Cfg} (f : Nat → Nat) : Except (K × V) (ATrie c K V × Nat × Option (K × V)) →
    Except (K × V) (ATrie c K V × Nat × Option (K × V))
  | .error e => .error e
  | .ok (t, ptr, prev) => .ok (t.ren f, f ptr, prev)

theorem ATrie.insert_ren [BEq K] (t : ATrie c K V) (k : K) (v : V) (replace : Bool) :
    Al.Ren φ (Is (ATrie.renInserted φ.f)) (t.insert hash k v replace) ((t.ren φ.f).insert hash k v replace) := by
  refine .same fun f _ => .then' (t.root.insert_ren _ k v replace _) fun r => ?_
  cases r <;> exact .pure rfl

theorem ATrie.remove_ren [BEq K] (t : ATrie c K V) (k : K) :
    Al.Ren φ (Is (Option.map fun r => (r.1.ren φ.f, r.2))) (t.remove hash k) ((t.ren φ.f).remove hash k) := by
  refine .same fun f _ => .then' (t.root.remove_ren _ _) fun r => ?_
  cases r with
  | notFound => exact .pure rfl
  | removed m k v => exact .pure rfl
  | removedZ k v => exact .map ATrie.new_ren fun t => rfl

end
end HT
