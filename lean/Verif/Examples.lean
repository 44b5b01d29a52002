import Verif.Reach
/-!
# Concrete maps, used to show that the hypotheses of the property theorems are met

`Tk` is a key type with distinguishable equal keys.  `exHash` maps the ids 0-9 to one hash (collision
list), 640-649 to a hash that differs from it only in the last chunk (deepest possible branch), etc.
-/
namespace HT

/-- Insert a list of entries one after the other (calls of `HashTrie::insert`,
    `/repo/src/hash_trie.rs:36-49`), ignoring refusals. -/
def Trie.insertMany {K V : Type} [BEq K] {c : Cfg} (hash : K → BitVec c.w) (replace : Bool) :
    Trie c K V → List (K × V) → Res (Trie c K V)
  | t, [] => .ok t
  | t, (k, v) :: es => do
    match ← t.insert hash k v replace with
    | .ok (t', _, _) => Trie.insertMany hash replace t' es
    | .error _ => Trie.insertMany hash replace t es

theorem Reach.insertMany {K V : Type} [BEq K] {c : Cfg} {hash : K → BitVec c.w} {replace : Bool}
    {t t' : Trie c K V} (h : Reach c hash t) {es : List (K × V)}
    (hr : Trie.insertMany hash replace t es = .ok t') : Reach c hash t' := by
  induction es generalizing t with
  | nil => simp [Trie.insertMany] at hr; subst hr; exact h
  | cons e es ih =>
    obtain ⟨k, v⟩ := e
    rw [Trie.insertMany, Res.bind_eq_ok] at hr
    obtain ⟨r, hr1, hr2⟩ := hr
    cases r with
    | error e => exact ih h hr2
    | ok r =>
      obtain ⟨t1, ptr, prev⟩ := r
      exact ih (Reach.insert h (h.query k) (h.laws.refl k) hr1) hr2

/-- A map built by insertions that passes a test exists. -/
theorem exists_reach {K V : Type} [BEq K] {c : Cfg} {hash : K → BitVec c.w} (laws : KeyLaws hash)
    (es : List (K × V)) (p : Trie c K V → Bool)
    (h : (match Trie.insertMany hash true (Trie.new c) es with
      | .ok t => p t
      | _ => false) = true) : ∃ t, Reach c hash t ∧ p t = true := by
  split at h
  · rename_i t ht
    exact ⟨t, Reach.insertMany (.new laws) ht, h⟩
  · simp at h

namespace Ex

/-- A key with an identity and a tag that equality ignores. -/
structure Tk where
  id : Nat
  tag : Nat
  deriving DecidableEq, Repr

instance : BEq Tk := ⟨fun a b => a.id == b.id⟩

/-- 8-bit hashes, 8-way branching (`H = u8`, `F = u8`), release build. -/
def c8 : Cfg := ⟨8, 3, false, by decide, by decide, by decide⟩
/-- The same in an overflow-checked build. -/
def c8d : Cfg := ⟨8, 3, true, by decide, by decide, by decide⟩
/-- 64-bit hashes, 32-way branching (`H = u64`, `F = u32`, the crate's default), release build. -/
def c64 : Cfg := ⟨64, 5, false, by decide, by decide, by decide⟩

def exHash (k : Tk) : BitVec c8.w := BitVec.ofNat 8 (k.id / 10)
def exHashd (k : Tk) : BitVec c8d.w := BitVec.ofNat 8 (k.id / 10)
def exHash64 (k : Tk) : BitVec c64.w := BitVec.ofNat 64 (k.id / 10)

theorem tkLaws {w : Nat} (f : Nat → BitVec w) : KeyLaws (fun k : Tk => f k.id) where
  refl := by intro x; simp [BEq.beq]
  symm := by intro x y h; simp [BEq.beq] at h ⊢; exact h.symm
  trans := by intro x y z h h'; simp [BEq.beq] at h h' ⊢; exact h.trans h'
  hash := by intro x y h; simp [BEq.beq] at h; simp [h]

theorem exLaws : KeyLaws exHash := tkLaws (fun n => BitVec.ofNat 8 (n / 10))
theorem exLawsd : KeyLaws exHashd := tkLaws (fun n => BitVec.ofNat 8 (n / 10))
theorem exLaws64 : KeyLaws exHash64 := tkLaws (fun n => BitVec.ofNat 64 (n / 10))

/-- A collision list of three, a neighbour in the last chunk, and others. -/
def entries : List (Tk × Nat) :=
  [(⟨5, 0⟩, 50), (⟨641, 0⟩, 51), (⟨7, 0⟩, 52), (⟨11, 0⟩, 53), (⟨3, 0⟩, 54), (⟨90, 0⟩, 55)]

end Ex
end HT
