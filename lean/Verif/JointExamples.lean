import Verif.JointFind
import Verif.Examples
/-! # Deciding the hypotheses of the joint theorems on concrete maps -/
namespace HT

variable {K V L W : Type} {c : Cfg}

theorem exists_of_collisions {w : Nat} {hash : K → BitVec w} {l : List (K × V)} {h : BitVec w}
    (hc : 0 < collisions hash l h) : ∃ a ∈ l, hash a.1 = h := by
  obtain ⟨a, ha, h1⟩ := List.countP_pos_iff.1 hc
  exact ⟨a, ha, by simpa using h1⟩

/-- It is enough to look at the hashes that occur. -/
theorem noStall_iff (x : Cross c K L) (as : List (K × V)) (bs : List (L × W)) :
    NoStall x as bs ↔ ∀ a ∈ as, 2 ≤ collisions x.hash as (x.hash a.1) → collisions x.hash' bs (x.hash a.1) ≤ 2 := by
  constructor
  · intro h a _; exact h _
  · intro h v hv
    obtain ⟨a, ha, rfl⟩ := exists_of_collisions (Nat.lt_of_lt_of_le (by decide) hv)
    exact h a ha hv

instance (x : Cross c K L) (as : List (K × V)) (bs : List (L × W)) : Decidable (NoStall x as bs) :=
  decidable_of_iff' _ (noStall_iff x as bs)

/-- It is enough to look at the hashes that occur. -/
theorem apart_iff {w : Nat} (hash : K → BitVec w) (as bs : List (K × V)) :
    Apart hash as bs ↔ ∀ a ∈ as, collisions hash as (hash a.1) ≤ 1 ∧ collisions hash bs (hash a.1) ≤ 1 ∨
      collisions hash bs (hash a.1) = 0 := by
  constructor
  · intro h a ha
    rcases h (hash a.1) with h | h | h
    · exact .inl h
    · have : 0 < collisions hash as (hash a.1) := List.countP_pos_iff.2 ⟨a, ha, by simp⟩
      omega
    · exact .inr h
  · intro h v
    rcases Nat.eq_zero_or_pos (collisions hash as v) with h0 | h0
    · exact .inr (.inl h0)
    · obtain ⟨a, ha, rfl⟩ := exists_of_collisions h0
      rcases h a ha with h | h
      · exact .inl h
      · exact .inr (.inr h)

instance {w : Nat} (hash : K → BitVec w) (as bs : List (K × V)) : Decidable (Apart hash as bs) :=
  decidable_of_iff' _ (apart_iff hash as bs)

/-- Two maps built by insertions that pass a test together exist. -/
theorem exists_reach2 [BEq K] [BEq L] {hash : K → BitVec c.w} {hash' : L → BitVec c.w} (laws : KeyLaws hash)
    (laws' : KeyLaws hash') (es : List (K × V)) (es' : List (L × W)) (p : Trie c K V → Trie c L W → Bool)
    (h : (match Trie.insertMany hash true (Trie.new c) es, Trie.insertMany hash' true (Trie.new c) es' with
      | .ok t, .ok u => p t u
      | _, _ => false) = true) : ∃ t u, Reach c hash t ∧ Reach c hash' u ∧ p t u = true := by
  split at h
  · rename_i t u ht hu
    exact ⟨t, u, Reach.insertMany (.new laws) ht, Reach.insertMany (.new laws') hu, h⟩
  · simp at h

/-- The result of a computation, tested. -/
def Res.test {α : Type} (p : α → Bool) : Res α → Bool
  | .ok a => p a
  | _ => false

/-- The computation does not return. -/
def Res.diverges {α : Type} : Res α → Bool
  | .diverge => true
  | _ => false

theorem Res.diverges_iff {α : Type} {r : Res α} : r.diverges = true ↔ r = .diverge := by
  cases r <;> simp [Res.diverges]

/-- The computation panics. -/
def Res.panics {α : Type} : Res α → Bool
  | .panic _ => true
  | _ => false

theorem Res.panics_iff {α : Type} {r : Res α} : r.panics = true ↔ ∃ p, r = .panic p := by
  cases r <;> simp [Res.panics]

theorem Res.test_iff {α : Type} {r : Res α} {p : α → Bool} : r.test p = true ↔ ∃ a, r = .ok a ∧ p a = true := by
  cases r <;> simp [Res.test]

namespace Ex

/-- A second key type: numbers that equal a `Tk` with that id. -/
structure Num where
  n : Nat
  deriving DecidableEq, Repr

instance : BEq Num := ⟨fun a b => a.n == b.n⟩

/-- Keys of type `Tk` against keys of type `Num`. -/
def cross : Cross c8 Tk Num :=
  ⟨exHash, fun l => BitVec.ofNat 8 (l.n / 10), fun k l => k.id == l.n, fun l k => l.n == k.id⟩

theorem numLaws : KeyLaws (fun l : Num => (BitVec.ofNat 8 (l.n / 10) : BitVec c8.w)) where
  refl := by intro x; simp [BEq.beq]
  symm := by intro x y h; simp [BEq.beq] at h ⊢; exact h.symm
  trans := by intro x y z h h'; simp [BEq.beq] at h h' ⊢; exact h.trans h'
  hash := by intro x y h; simp [BEq.beq] at h; simp [h]

theorem crossLaws : CrossLaws cross where
  left := exLaws
  right := numLaws
  hash := by intro k l h; simp only [cross, exHash, beq_iff_eq] at h ⊢; rw [h]
  sym := by intro k l; simp only [cross]; exact BEq.comm
  congL := by intro k k' l h h'; simp [cross, BEq.beq] at h h' ⊢; rw [← h, h']
  congR := by intro k l l' h h'; simp [cross, BEq.beq] at h h' ⊢; rw [h', h]
  uniqL := by intro k k' l h h'; simp [cross, BEq.beq] at h h' ⊢; rw [h, h']
  uniqR := by intro k l l' h h'; simp [cross, BEq.beq] at h h' ⊢; rw [← h, h']

/-- Entries for a right map: two keys in the collision list of `entries`, one of them shared; another
    shared key; new keys. -/
def right : List (Tk × Nat) :=
  [(⟨3, 1⟩, 60), (⟨8, 1⟩, 61), (⟨11, 1⟩, 62), (⟨12, 1⟩, 63), (⟨642, 1⟩, 64), (⟨200, 1⟩, 65)]

def rightNum : List (Num × Nat) := right.map fun e => (⟨e.1.id⟩, e.2)

end Ex
end HT
