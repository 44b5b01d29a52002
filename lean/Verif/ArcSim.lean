import Verif.Arc
import Verif.ArcBia
/-! # Forgetting addresses; consistent memory -/
namespace HT

variable {K V R : Type} {n : Nat}

/-! ### Forgetting addresses -/

def ASNode.erase (s : ASNode K V) : SNode K V := ⟨s.key, s.value⟩

def ALNode.erase : ALNode K V → LNode K V
  | .nextS _ k v s z => .nextS k v s.erase z
  | .nextL _ k v l z => .nextL k v l.erase z

def ALNext.erase : ALNext K V → LNext K V
  | .L l => .L l.erase
  | .S s => .S s.erase

mutual
def ANode.erase : ANode n K V → Node n K V
  | .C _ bits values extra => .C bits (ANode.eraseAll values) extra
  | .L l => .L l.erase
  | .S s => .S s.erase
def ANode.eraseAll : List (ANode n K V) → List (Node n K V)
  | [] => []
  | m :: ms => m.erase :: ANode.eraseAll ms
end

theorem ANode.eraseAll_eq (ms : List (ANode n K V)) : ANode.eraseAll ms = ms.map ANode.erase := by
  induction ms with
  | nil => rfl
  | cons m ms ih => rw [ANode.eraseAll, ih]; rfl

theorem ANode.erase_C (a : Nat) (bits : BitVec n) (values : List (ANode n K V)) (extra : Nat) :
    (ANode.C a bits values extra).erase = .C bits (values.map ANode.erase) extra := by
  rw [ANode.erase, ANode.eraseAll_eq]

def ATrie.erase {c : Cfg} (t : ATrie c K V) : Trie c K V := ⟨t.root.erase⟩

@[simp] theorem ALNode.erase_size (l : ALNode K V) : l.erase.size = l.size := by cases l <;> rfl
@[simp] theorem ALNode.erase_key (l : ALNode K V) : l.erase.key = l.key := by cases l <;> rfl
@[simp] theorem ALNode.erase_value (l : ALNode K V) : l.erase.value = l.value := by cases l <;> rfl
@[simp] theorem ALNode.erase_next (l : ALNode K V) : l.erase.next = l.next.erase := by cases l <;> rfl
@[simp] theorem ALNext.erase_key (l : ALNext K V) : l.erase.key = l.key := by cases l <;> simp [erase, key, LNext.key, ASNode.erase]
@[simp] theorem ALNext.toNode_erase (l : ALNext K V) : (l.toNode : ANode n K V).erase = l.erase.toNode := by cases l <;> rfl
@[simp] theorem ANode.erase_size (m : ANode n K V) : m.erase.size = m.size := by
  cases m <;> simp [erase, size, Node.size]

theorem ALNode.erase_find (q : K → Bool) (l : ALNode K V) : l.erase.find q = l.find q := by
  induction l with
  | nextS a k v s z => rfl
  | nextL a k v l z ih => simp only [ALNode.erase, LNode.find, ALNode.find, ih]

/-! ### Memory -/

/-- The objects a node points to. -/
def ANode.kids : ANode n K V → List (ANode n K V)
  | .C _ _ values _ => values
  | .L (.nextS _ _ _ s _) => [.S s]
  | .L (.nextL _ _ _ l _) => [.L l]
  | .S _ => []

/-- `Sub o m`: the object `o` is reachable from `m`. -/
inductive ANode.Sub : ANode n K V → ANode n K V → Prop
  | refl (m : ANode n K V) : Sub m m
  | kid {o m m' : ANode n K V} : Sub o m → m ∈ m'.kids → Sub o m'

/-- The entry stored in an object itself. -/
def ANode.entry : ANode n K V → Option (K × V)
  | .C .. => none
  | .L l => some (l.key, l.value)
  | .S s => some (s.key, s.value)

/-- The objects in memory, when `s` is the next free address: closed under pointers, which lead to older objects, and
    different objects have different addresses. -/
structure Heap (U : ANode n K V → Prop) (s : Nat) : Prop where
  lt : ∀ x, U x → x.addr < s
  kids : ∀ x, U x → ∀ y ∈ x.kids, U y ∧ y.addr < x.addr
  inj : ∀ x y, U x → U y → x.addr = y.addr → x = y

theorem Heap.alloc {U : ANode n K V → Prop} {s : Nat} (h : Heap U s) {x : ANode n K V} (ha : x.addr = s)
    (hk : ∀ y ∈ x.kids, U y) : Heap (fun z => U z ∨ z = x) (s + 1) where
  lt := by
    rintro y (hy | rfl)
    · have := h.lt y hy; omega
    · omega
  kids := by
    rintro y (hy | rfl) z hz
    · exact ⟨.inl (h.kids y hy z hz).1, (h.kids y hy z hz).2⟩
    · exact ⟨.inl (hk z hz), by rw [ha]; exact h.lt z (hk z hz)⟩
  inj := by
    rintro y z (hy | rfl) (hz | rfl) e
    · exact h.inj y z hy hz e
    · have := h.lt y hy; omega
    · have := h.lt z hz; omega
    · rfl

theorem Heap.sub {U : ANode n K V → Prop} {s : Nat} (h : Heap U s) {o m : ANode n K V} (hs : o.Sub m)
    (hm : U m) : U o ∧ o.addr ≤ m.addr := by
  induction hs with
  | refl => exact ⟨hm, Nat.le_refl _⟩
  | kid _ hk ih =>
    have := h.kids _ hm _ hk
    have := ih this.1
    exact ⟨this.1, by omega⟩

/-! ### Code that allocates behaves like the code of the model -/

/-- `x`, run on a memory `U` with next free address `s`, does what `y` does; when both return, memory has grown by
    objects at new addresses and `P` holds of the new memory, the next free address and the two results. -/
def Sim {α β : Type} (U : ANode n K V → Prop) (s : Nat) (x : Al α) (y : Res β)
    (P : (ANode n K V → Prop) → Nat → α → β → Prop) : Prop :=
  match x s, y with
  | .ok (a, s'), .ok b => s ≤ s' ∧ ∃ U', (∀ z, U z → U' z) ∧ (∀ z, U' z → U z ∨ s ≤ z.addr) ∧ Heap U' s' ∧ P U' s' a b
  | .panic p, .panic p' => p = p'
  | .diverge, .diverge => True
  | _, _ => False

namespace Sim
variable {α β γ δ : Type} {U : ANode n K V → Prop} {s : Nat}

theorem pure {a : α} {b : β} {P : (ANode n K V → Prop) → Nat → α → β → Prop} (h : Heap U s)
    (hp : P U s a b) : Sim U s (Pure.pure a) (.ok b) P :=
  ⟨Nat.le_refl _, U, fun _ hz => hz, fun _ hz => .inl hz, h, hp⟩

theorem bind {x : Al α} {y : Res β} {f : α → Al γ} {g : β → Res δ}
    {P : (ANode n K V → Prop) → Nat → α → β → Prop} {Q : (ANode n K V → Prop) → Nat → γ → δ → Prop}
    (h : Sim U s x y P)
    (k : ∀ U' s' a b, s ≤ s' → (∀ z, U z → U' z) → Heap U' s' → P U' s' a b →
      Sim U' s' (f a) (g b) Q) : Sim U s (x >>= f) (y >>= g) Q := by
  unfold Sim at h ⊢
  show (match Al.bind x f s, y >>= g with
    | .ok (a, s'), .ok b => _ | .panic p, .panic p' => _ | .diverge, .diverge => _ | _, _ => _)
  unfold Al.bind
  cases hx : x s with
  | ok as =>
    obtain ⟨a, s'⟩ := as
    cases y with
    | ok b =>
      rw [hx] at h
      obtain ⟨h1, U', h2, hn, h3, h4⟩ := h
      have := k U' s' a b h1 h2 h3 h4
      unfold Sim at this
      simp only [Res.ok_bind]
      cases hf : f a s' with
      | ok cs =>
        obtain ⟨c, s2⟩ := cs
        cases hg : g b with
        | ok d =>
          rw [hf, hg] at this
          obtain ⟨h5, U2, h6, hn2, h7, h8⟩ := this
          exact ⟨by omega, U2, fun z hz => h6 z (h2 z hz), fun z hz => (hn2 z hz).elim (hn z) (fun h => .inr (by omega)),
            h7, h8⟩
        | panic p => rw [hf, hg] at this; exact this.elim
        | diverge => rw [hf, hg] at this; exact this.elim
      | panic p => rw [hf] at this; cases hg : g b <;> rw [hg] at this <;> exact this
      | diverge => rw [hf] at this; cases hg : g b <;> rw [hg] at this <;> exact this
    | panic p => rw [hx] at h; exact h.elim
    | diverge => rw [hx] at h; exact h.elim
  | panic p => rw [hx] at h; cases y <;> simp_all
  | diverge => rw [hx] at h; cases y <;> simp_all

theorem mono {x : Al α} {y : Res β} {P Q : (ANode n K V → Prop) → Nat → α → β → Prop}
    (h : Sim U s x y P)
    (k : ∀ U' s' a b, s ≤ s' → (∀ z, U z → U' z) → Heap U' s' → P U' s' a b → Q U' s' a b) :
    Sim U s x y Q := by
  unfold Sim at h ⊢
  split
  · rename_i a s' b e
    rw [e] at h
    obtain ⟨h1, U', h2, hn, h3, h4⟩ := h
    exact ⟨h1, U', h2, hn, h3, k U' s' a b h1 h2 h3 h4⟩
  · rename_i e; rw [e] at h; exact h
  · trivial
  · rename_i h1 h2 h3
    split at h
    · rename_i e; exact (h1 _ _ _ e rfl).elim
    · rename_i e; exact (h2 _ _ e rfl).elim
    · rename_i e; exact (h3 e rfl).elim
    · exact h

/-- A step that on the other side is already evaluated. -/
theorem bindOk {x : Al α} {b : β} {f : α → Al γ} {z : Res δ}
    {P : (ANode n K V → Prop) → Nat → α → β → Prop} {Q : (ANode n K V → Prop) → Nat → γ → δ → Prop}
    (h : Sim U s x (.ok b) P)
    (k : ∀ U' s' a, s ≤ s' → (∀ z, U z → U' z) → Heap U' s' → P U' s' a b → Sim U' s' (f a) z Q) :
    Sim U s (x >>= f) z Q := by
  refine bind (y := .ok b) (g := fun _ => z) (P := fun U' s' a b' => P U' s' a b' ∧ b' = b) ?_
    (fun U' s' a b' h1 h2 h3 h4 => k U' s' a h1 h2 h3 (h4.2 ▸ h4.1))
  unfold Sim at h ⊢
  cases hx : x s with
  | ok as =>
    rw [hx] at h
    obtain ⟨h1, U', h2, hn, h3, h4⟩ := h
    exact ⟨h1, U', h2, hn, h3, h4, rfl⟩
  | panic p => rw [hx] at h; exact h
  | diverge => rw [hx] at h; exact h

/-- A step that does not allocate, the same on both sides up to `h`. -/
theorem bindLiftMap {x : Res α} {h : α → β} {f : α → Al γ} {g : β → Res δ}
    {Q : (ANode n K V → Prop) → Nat → γ → δ → Prop}
    (k : ∀ a, x = .ok a → Sim U s (f a) (g (h a)) Q) : Sim U s (Al.lift x >>= f) (x.map h >>= g) Q := by
  cases x with
  | ok a => exact k a rfl
  | panic p => exact rfl
  | diverge => exact trivial

/-- A step that does not allocate, the same on both sides. -/
theorem bindLift {x : Res α} {f : α → Al γ} {g : α → Res δ}
    {Q : (ANode n K V → Prop) → Nat → γ → δ → Prop}
    (k : ∀ a, x = .ok a → Sim U s (f a) (g a) Q) : Sim U s (Al.lift x >>= f) (x >>= g) Q := by
  cases x with
  | ok a => exact k a rfl
  | panic p => exact rfl
  | diverge => exact trivial

theorem lift {x : Res α} {y : Res β} {P : (ANode n K V → Prop) → Nat → α → β → Prop}
    {h : α → β} (hy : y = x.map h) (heap : Heap U s) (k : ∀ a, x = .ok a → P U s a (h a)) :
    Sim U s (Al.lift x) y P := by
  subst hy
  cases x with
  | ok a => exact ⟨Nat.le_refl _, U, fun _ hz => hz, fun _ hz => .inl hz, heap, k a rfl⟩
  | panic p => exact rfl
  | diverge => exact trivial

/-- A step that allocates the object `mk a`, `a` being its address. -/
theorem bindFresh {mk : Nat → ANode n K V} {f : Nat → Al γ} {y : Res δ}
    {Q : (ANode n K V → Prop) → Nat → γ → δ → Prop} (heap : Heap U s)
    (ha : (mk s).addr = s) (hk : ∀ y ∈ (mk s).kids, U y)
    (k : ∀ U', (∀ z, U z → U' z) → U' (mk s) → Heap U' (s + 1) → Sim U' (s + 1) (f s) y Q) :
    Sim U s (Al.fresh >>= f) y Q := by
  have h1 := k _ (fun z hz => .inl hz) (.inr rfl) (heap.alloc ha hk)
  unfold Sim at h1 ⊢
  have e : (Al.fresh >>= f) s = f s (s + 1) := rfl
  rw [e]
  clear k
  cases hf : f s (s + 1) with
  | ok as =>
    rw [hf] at h1
    cases y with
    | ok b =>
      obtain ⟨h2, U', h3, hn, h4, h5⟩ := h1
      refine ⟨by omega, U', fun z hz => h3 z (.inl hz), fun z hz => ?_, h4, h5⟩
      rcases hn z hz with (h | rfl) | h
      · exact .inl h
      · exact .inr (by omega)
      · exact .inr (by omega)
    | panic p => exact h1
    | diverge => exact h1
  | panic p => rw [hf] at h1; cases y <;> exact h1
  | diverge => rw [hf] at h1; cases y <;> exact h1

theorem bindSNew {k : K} {v : V} {f : ASNode K V → Al γ} {y : Res δ}
    {Q : (ANode n K V → Prop) → Nat → γ → δ → Prop} (heap : Heap U s)
    (h : ∀ U', (∀ z, U z → U' z) → U' (.S ⟨s, k, v⟩) → Heap U' (s + 1) →
      Sim U' (s + 1) (f ⟨s, k, v⟩) y Q) : Sim U s (ASNode.new k v >>= f) y Q :=
  bindFresh (mk := fun a => .S ⟨a, k, v⟩) (f := fun a => f ⟨a, k, v⟩) heap rfl (by simp [ANode.kids]) h

theorem bindLNew {k : K} {v : V} {nx : ALNext K V} {f : ALNode K V → Al γ} {y : Res δ}
    {Q : (ANode n K V → Prop) → Nat → γ → δ → Prop} (heap : Heap U s) (hn : U nx.toNode)
    (h : ∀ U' l, (∀ z, U z → U' z) → U' (.L l) → Heap U' (s + 1) → l.addr = s → l.key = k →
      l.value = v → (nx.toNode : ANode n K V) ∈ (ANode.L l).kids → l.erase = LNode.new k v nx.erase →
      Sim U' (s + 1) (f l) y Q) : Sim U s (ALNode.new k v nx >>= f) y Q := by
  cases nx with
  | L l =>
    refine bindFresh (mk := fun a => .L (.nextL a k v l (1 + l.size)))
      (f := fun a => f (.nextL a k v l (1 + l.size))) heap rfl ?_ ?_
    · intro y hy
      have : y = .L l := by simpa [ANode.kids] using hy
      subst this; exact hn
    · intro U' h1 h2 h3
      exact h U' _ h1 h2 h3 rfl rfl rfl (by simp [ANode.kids, ALNext.toNode])
        (by simp [ALNode.erase, LNode.new, ALNext.erase])
  | S t =>
    refine bindFresh (mk := fun a => .L (.nextS a k v t (1 + 1)))
      (f := fun a => f (.nextS a k v t (1 + 1))) heap rfl ?_ ?_
    · intro y hy
      have : y = .S t := by simpa [ANode.kids] using hy
      subst this; exact hn
    · intro U' h1 h2 h3
      exact h U' _ h1 h2 h3 rfl rfl rfl (by simp [ANode.kids, ALNext.toNode])
        (by simp [ALNode.erase, LNode.new, ALNext.erase])

theorem bindCNew {a : Bia n (ANode n K V)} {f : ANode n K V → Al γ} {y : Res δ}
    {Q : (ANode n K V → Prop) → Nat → γ → δ → Prop} (heap : Heap U s) (hv : ∀ x ∈ a.values, U x)
    (h : ∀ U' m, (∀ z, U z → U' z) → U' m → Heap U' (s + 1) → m.addr = s → m.kids = a.values →
      m.erase = Node.ofBia (a.map ANode.erase) → Sim U' (s + 1) (f m) y Q) :
    Sim U s (ANode.ofBia a >>= f) y Q := by
  refine bindFresh (mk := fun p => .C p a.bits a.values a.extra)
    (f := fun p => f (.C p a.bits a.values a.extra)) heap rfl hv ?_
  intro U' h1 h2 h3
  exact h U' _ h1 h2 h3 rfl rfl (ANode.erase_C ..)

end Sim

theorem Al.bind_pure {α : Type} (x : Al α) : (x >>= Pure.pure) = x := by
  funext s
  show Al.bind x _ s = _
  unfold Al.bind
  cases x s with
  | ok a => rfl
  | panic p => rfl
  | diverge => rfl

/-- Building a branch node from an array that both sides build alike. -/
theorem Sim.bia {γ δ : Type} {U : ANode n K V → Prop} {s : Nat}
    {x : Res (Except BitError (Bia n (ANode n K V)))} {y : Res (Except BitError (Bia n (Node n K V)))}
    {f : ANode n K V → Al γ} {g : Node n K V → Res δ}
    {Q : (ANode n K V → Prop) → Nat → γ → δ → Prop} (heap : Heap U s) (hy : y = Bia.mapR ANode.erase x)
    (hv : ∀ a, x = .ok (.ok a) → ∀ z ∈ a.values, U z)
    (h : ∀ a U' m, x = .ok (.ok a) → (∀ z, U z → U' z) → U' m → Heap U' (s + 1) → m.addr = s →
      m.kids = a.values → m.erase = Node.ofBia (a.map ANode.erase) →
      Sim U' (s + 1) (f m) (g m.erase) Q) :
    Sim U s (do
      let a ← Al.lift x
      let a ← Al.lift (Res.unwrapE a)
      let m ← ANode.ofBia a
      f m) (do
      let a ← y
      let a ← Res.unwrapE a
      g (Node.ofBia a)) Q := by
  subst hy
  cases x with
  | ok e =>
    cases e with
    | ok a =>
      refine Sim.bindCNew (a := a) (f := f) heap (hv a rfl) ?_
      intro U' m h1 h2 h3 h4 h5 h6
      have := h a U' m rfl h1 h2 h3 h4 h5 h6
      rw [h6] at this
      exact this
    | error e => exact rfl
  | panic p => exact rfl
  | diverge => exact trivial

end HT
