import Verif.ChaosSpec
import Verif.KeyCallsLemmas
import Verif.BulkLemmas
/-! # Nodes without any assumption on hashes -/
namespace HT

variable {K V : Type} {c : Cfg}

/-! ### Flags at any depth -/

/-- There are flags at depth `d`. -/
structure HasFlags (c : Cfg) (d : Nat) : Prop where
  lt : d * c.b < 8 * c.w
  checked : c.checked = true → d * c.b < c.w

/-- The position of hash `h` at depth `d` (beyond the hash word the shift wraps around). -/
def wrapped (c : Cfg) (h : BitVec c.w) (d : Nat) : Nat := (h >>> (d * c.b % c.w)).toNat % 2 ^ c.b

theorem wrapped_lt (h : BitVec c.w) (d : Nat) : wrapped c h d < c.n := Nat.mod_lt _ (Nat.two_pow_pos _)

/-- The flag of hash `h` at depth `d`. -/
def flagDeep (h : BitVec c.w) (d : Nat) : Flag c := ⟨h, d, bitAt c.n (wrapped c h d)⟩

theorem Flag.newAtDepth_deep (h : BitVec c.w) {d : Nat} (hd : HasFlags c d) :
    Flag.newAtDepth h d = .ok (some (flagDeep h d)) := by
  have h1 : ¬ d * c.b ≥ 8 * c.w := by have := hd.lt; omega
  have h2 : ¬ (c.checked = true ∧ d * c.b ≥ c.w) := by
    rintro ⟨h3, h4⟩; have := hd.checked h3; omega
  simp only [Flag.newAtDepth, h1, if_false, shr, h2, flagBit_eq, Res.ok_bind, flagDeep, wrapped]

theorem Flag.newAtDepth_shallow (h : BitVec c.w) {d : Nat} (hd : ¬ HasFlags c d) :
    Flag.newAtDepth h d = .ok none ∨ (c.checked = true ∧ Flag.newAtDepth h d = .panic .shiftOverflow) := by
  unfold Flag.newAtDepth
  by_cases h1 : d * c.b ≥ 8 * c.w
  · left; rw [if_pos h1]
  · right
    have h2 : c.checked = true ∧ d * c.b ≥ c.w := by
      cases hc : c.checked with
      | false => exact absurd ⟨by omega, fun h => by rw [hc] at h; simp at h⟩ hd
      | true =>
        refine ⟨rfl, ?_⟩
        rcases Nat.lt_or_ge (d * c.b) c.w with h3 | h3
        · exact absurd ⟨by omega, fun _ => h3⟩ hd
        · exact h3
    rw [if_neg h1]
    exact ⟨h2.1, by simp only [shr, if_pos h2, Res.panic_bind]⟩

theorem Flag.new_deep (h : BitVec c.w) : Flag.new h = .ok (flagDeep h 0) := by
  simp [Flag.new, flagBit_eq, flagDeep, wrapped]

theorem deep_zero : HasFlags c 0 := ⟨by have := c.wpos; omega, fun _ => by have := c.wpos; omega⟩

/-! ### The invariant -/

/-- Node at depth `d`: sizes are right, arrays are, no branch is empty, and there are flags for all branch nodes. -/
inductive Node.Shape : Nat → Node c.n K V → Prop
  | S (d : Nat) (s : SNode K V) : Node.Shape d (.S s)
  | L (d : Nat) (l : LNode K V) (h : l.SizeOk) : Node.Shape d (.L l)
  | C (d : Nat) (bits : BitVec c.n) (values : List (Node c.n K V)) (extra : Nat)
      (hd : HasFlags c d)
      (ok : (Bia.mk bits values extra).Ok)
      (sz : extra = (Node.visitAll values).length)
      (ne : ∀ i m, (Bia.mk bits values extra).slot i = some m → m.visit ≠ [])
      (sub : ∀ i m, (Bia.mk bits values extra).slot i = some m → Node.Shape (d + 1) m) :
      Node.Shape d (.C bits values extra)

theorem Node.Shape.size_eq {d : Nat} {m : Node c.n K V} (h : m.Shape d) : m.size = m.visit.length := by
  cases h with
  | S s => rfl
  | L _ _ h => exact LNode.size_eq h
  | C _ bits values extra hd ok sz ne sub => exact sz

theorem LNext.shape {m : LNext K V} (h : m.SizeOk) (d : Nat) : (m.toNode : Node c.n K V).Shape d := by
  cases m with
  | S s => exact .S d s
  | L l => exact .L d l h

/-- The other positions of an array. -/
theorem slot_frame {n : Nat} {a : Bia n (Node n K V)} (ok : a.Ok) {i : Nat} (hi : i < n) :
    ∃ A C, Node.visitAll a.values = A ++ slotVisit a i ++ C ∧
      ∀ a' : Bia n (Node n K V), a'.Ok → (∀ j, j ≠ i → a'.slot j = a.slot j) →
        Node.visitAll a'.values = A ++ slotVisit a' i ++ C := by
  obtain ⟨l1, l2, hl, hl'⟩ : ∃ l1 l2, List.range n = l1 ++ i :: l2 ∧ ∀ j ∈ l1 ++ l2, j ≠ i := by
    obtain ⟨l1, l2, hl⟩ := List.append_of_mem (List.mem_range.2 hi)
    have hn := List.nodup_range (n := n)
    rw [hl] at hn
    refine ⟨l1, l2, hl, ?_⟩
    intro j hj e
    subst e
    have h1 := List.nodup_append.1 hn
    rcases List.mem_append.1 hj with hj | hj
    · exact h1.2.2 _ hj _ (List.mem_cons_self ..) rfl
    · exact (List.nodup_cons.1 h1.2.1).1 hj
  have key : ∀ a' : Bia n (Node n K V), a'.Ok → (∀ j, j ≠ i → a'.slot j = a.slot j) →
      Node.visitAll a'.values = l1.flatMap (slotVisit a) ++ slotVisit a' i ++ l2.flatMap (slotVisit a) := by
    intro a' ok' hne
    rw [visit_slots a' ok', hl, List.flatMap_append, List.flatMap_cons, ← List.append_assoc]
    congr 1
    · congr 1
      apply flatMap_congr'
      intro j hj
      simp [slotVisit, hne j (hl' j (List.mem_append_left _ hj))]
    · apply flatMap_congr'
      intro j hj
      simp [slotVisit, hne j (hl' j (List.mem_append_right _ hj))]
  exact ⟨_, _, key a ok fun _ _ => rfl, key⟩

theorem shape_set {d : Nat} {a a' : Bia c.n (Node c.n K V)} {i : Nat} {m' : Node c.n K V}
    (wf : (Node.ofBia a).Shape d)
    (ok' : a'.Ok) (hs : ∀ j, a'.slot j = if j = i then some m' else a.slot j)
    (hsz : a'.extra = (Node.visitAll a'.values).length)
    (wfm : m'.Shape (d + 1)) (ne : m'.visit ≠ []) : (Node.ofBia a').Shape d := by
  unfold Node.ofBia at wf ⊢
  cases wf with
  | C _ _ _ _ hd ok sz ne0 sub =>
    refine .C d _ _ _ hd ok' hsz ?_ ?_
    · intro j m hj
      rw [hs j] at hj
      split at hj
      · injection hj with hj; subst hj; exact ne
      · exact ne0 j m hj
    · intro j m hj
      rw [hs j] at hj
      split at hj
      · injection hj with hj; subst hj; exact wfm
      · exact sub j m hj

/-! ### What a program does, whatever the answers -/

namespace Tree
variable {Q : Type} {A : Q → Type} {α β : Type}

/-- Every run of the program that returns returns something with `P`, every panic of it (not of the code it calls) is
    one with `E`; it never runs forever. -/
def Ends : Tree Q A α → (List (Reply Q A) → α → Prop) → (List (Reply Q A) → Panic → Prop) → Prop
  | .ret a, P, _ => P [] a
  | .panic p, _, E => E [] p
  | .diverge, _, _ => False
  | .ask q k, P, E => ∀ a, (k a).Ends (fun cs b => P (⟨q, some a⟩ :: cs) b) (fun cs p => E (⟨q, some a⟩ :: cs) p)

theorem Ends.path {x : Tree Q A α} {P : List (Reply Q A) → α → Prop} {E : List (Reply Q A) → Panic → Prop}
    (h : x.Ends P E) {calls : List (Reply Q A)} {o : Outcome Q α} (run : x.Path calls o) :
    (∃ q, o = .closure q) ∨ (∃ a, o = .ret a ∧ P calls a) ∨ ∃ p, o = .panic p ∧ E calls p := by
  induction run generalizing P E with
  | ret a => exact .inr (.inl ⟨_, rfl, h⟩)
  | panic p => exact .inr (.inr ⟨_, rfl, h⟩)
  | diverge => exact h.elim
  | stop q k => exact .inl ⟨_, rfl⟩
  | ask q k a tr o _ ih => exact ih (h a)

theorem Ends.mono {x : Tree Q A α} {P P' : List (Reply Q A) → α → Prop} {E E' : List (Reply Q A) → Panic → Prop}
    (h : x.Ends P E) (hP : ∀ cs a, P cs a → P' cs a) (hE : ∀ cs p, E cs p → E' cs p) : x.Ends P' E' := by
  induction x generalizing P P' E E' with
  | ret a => exact hP _ _ h
  | panic p => exact hE _ _ h
  | diverge => exact h
  | ask q k ih => exact fun a => ih a (h a) (fun cs b => hP _ b) (fun cs p => hE _ p)

theorem Ends.bind {x : Tree Q A α} {f : α → Tree Q A β} {P : List (Reply Q A) → α → Prop}
    {P' : List (Reply Q A) → β → Prop} {E E' : List (Reply Q A) → Panic → Prop}
    (h : x.Ends P E) (hE : ∀ cs p, E cs p → E' cs p)
    (hf : ∀ cs a, P cs a → (f a).Ends (fun cs' b => P' (cs ++ cs') b) (fun cs' p => E' (cs ++ cs') p)) :
    (x.bind f).Ends P' E' := by
  induction x generalizing P P' E E' with
  | ret a => exact hf [] a h
  | panic p => exact hE _ _ h
  | diverge => exact h.elim
  | ask q k ih => exact fun a => ih a (h a) (fun cs p => hE _ p) (fun cs b hb => hf _ b hb)

end Tree

end HT
