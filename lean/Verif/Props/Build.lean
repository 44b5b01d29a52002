import Verif.Props.Bits
import Verif.BuildLemmas
/-!
# Property C44: arrays are built without exposing uninitialised memory
-/
namespace HT

variable {n : Nat} {V : Type}

/-- A build that is sound: it reports an error before any memory is taken, or hands out an array whose every cell
    was written, each exactly once and in order, and that holds the given bits and values.  It does not unwind
    (dropping cells that were never written), and it does not panic. -/
def MemRes.Sound (res : MemRes n V) (spec : Except BitError (Bia n V)) : Prop :=
  match res with
  | .err e => spec = .error e
  | .panic => False
  | .unwound _ => False
  | .ok bits m extra => ∃ values, spec = .ok ⟨bits, values, extra⟩ ∧ m.cells.length = values.length ∧
      (∀ i, i < values.length → m.cells[i]? = some values[i]?) ∧ m.writes = List.range m.cells.length

theorem MemRes.Sim.sound {res : MemRes n V} {spec : Except BitError (Bia n V)} (h : res.Sim (.ok spec)) :
    res.Sound spec := by
  cases res with
  | err e =>
    cases spec with
    | error e' => exact congrArg _ (Eq.symm h)
    | ok a => exact h.elim
  | panic => cases spec <;> exact h.elim
  | unwound m => cases spec <;> exact h.elim
  | ok bits m extra =>
    cases spec with
    | error e' => exact h.elim
    | ok a =>
      obtain ⟨h1, h2, h3, h4⟩ := h
      refine ⟨a.values, by rw [h1, h2], by rw [h3, List.length_map], fun i hi => ?_, by rw [h3, List.length_map, h4]⟩
      rw [h3, List.getElem?_map, List.getElem?_eq_getElem hi]; rfl

/-- C44: whatever the word, the values and the array at hand (the empty one or one returned by an operation),
    building an array never reads, returns or drops an uninitialised cell and never writes a cell twice; the
    memory-level code returns what the array operations of C29 are stated about. -/
theorem C44_no_uninitialised {a : Bia n V} (h : a.Made) (hn : n ≤ 128) (bits bit : BitVec n) (values : List V)
    (v : V) (e : Nat) :
    (∃ r, Bia.ofVec bits values e = .ok r ∧ (Bia.ofVecMem bits values e).Sound r) ∧
    (∃ r, a.inserted bit v e = .ok r ∧ (a.insertedMem bit v e).Sound r) ∧
    (∃ r, a.updated bit v e = .ok r ∧ (a.updatedMem bit v e).Sound r) ∧
    (∃ r, a.removed bit e = .ok r ∧ (a.removedMem bit e).Sound r) := by
  refine ⟨?_, ?_, ?_, ?_⟩
  · obtain ⟨r, hr⟩ := Bia.ofVec_no_panic bits values e hn
    have := Bia.ofVecMem_sim bits values e
    rw [hr] at this; exact ⟨r, hr, this.sound⟩
  · obtain ⟨r, hr⟩ := a.inserted_no_panic h.ok hn bit v e
    have := a.insertedMem_sim bit v e
    rw [hr] at this; exact ⟨r, hr, this.sound⟩
  · obtain ⟨r, hr⟩ := a.updated_no_panic h.ok hn bit v e
    have := a.updatedMem_sim bit v e
    rw [hr] at this; exact ⟨r, hr, this.sound⟩
  · obtain ⟨r, hr⟩ := a.removed_no_panic h.ok hn bit e
    have := a.removedMem_sim bit e
    rw [hr] at this; exact ⟨r, hr, this.sound⟩

/-- C44, for any array at all (even one whose length disagrees with its bit word): the memory-level building
    unwinds exactly when the operation panics.  So every theorem that an operation on maps does not panic also
    says that none of the arrays it builds is dropped half-initialised. -/
theorem C44_unwinds_iff_panics (a : Bia n V) (bits bit : BitVec n) (values : List V) (v : V) (e : Nat) :
    ((∃ m, Bia.ofVecMem bits values e = .unwound m) ↔ ∃ p, Bia.ofVec bits values e = .panic p) ∧
    ((∃ m, a.insertedMem bit v e = .unwound m) ↔ ∃ p, a.inserted bit v e = .panic p) ∧
    ((∃ m, a.updatedMem bit v e = .unwound m) ↔ ∃ p, a.updated bit v e = .panic p) ∧
    ((∃ m, a.removedMem bit e = .unwound m) ↔ ∃ p, a.removed bit e = .panic p) := by
  have key : ∀ {res : MemRes n V} {r : Res (Except BitError (Bia n V))}, res.Sim r →
      ((∃ m, res = .unwound m) ↔ ∃ p, r = .panic p) := by
    intro res r h
    cases res <;> rcases r with ⟨_ | _⟩ | _ | _ <;> first | exact h.elim | simp
  exact ⟨key (Bia.ofVecMem_sim bits values e), key (a.insertedMem_sim bit v e), key (a.updatedMem_sim bit v e),
    key (a.removedMem_sim bit e)⟩

-- an array of three, an insertion between its values; and an ill-made array, on which building unwinds with
-- the last cell not written
example : (Bia.mk (0b10110#8) [10, 20, 30] 0).insertedMem (0b1000#8) 25 7 =
    .ok (0b11110#8) ⟨[some 10, some 20, some 25, some 30], [0, 1, 2, 3]⟩ 7 := by rfl

example : (Bia.mk (0b10110#8) [10, 20] 0).removedMem (0b10#8) 7 = .err .countNotEqualToOne ∧
    Bia.createMem (0b110#8) (.update [10, 20] 1 none) 7 = .unwound ⟨[some 10, none], [0]⟩ := ⟨rfl, rfl⟩

end HT
