import Verif.ClosureSpec
import Verif.JointSem
/-! # Counting the entries of a result -/
namespace HT

variable {K V R : Type}

theorem Sem.Outs.length_eq {A B E R : Type} {s : Sem A B E R} {cs : List (Case A B)} {l : List E} (h : s.Outs cs l)
    {g : Case A B → Bool} (hg : ∀ p ∈ cs, ∀ o, s.out p o → o.isSome = g p) : l.length = (cs.filter g).length := by
  obtain ⟨ps, h1, h2, h3⟩ := h
  rw [h3.length_eq, ← (h1.filter g).length_eq]
  have hm : ∀ p ∈ ps, p.2.isSome = g p.1 := fun p hp =>
    hg p.1 (h1.subset (List.mem_map_of_mem (f := Prod.fst) hp)) p.2 (h2 p hp)
  clear h1 h2 h3 hg
  induction ps with
  | nil => rfl
  | cons p ps ih =>
    have h1 := hm p (List.mem_cons_self ..)
    have h2 := ih fun q hq => hm q (List.mem_cons_of_mem _ hq)
    obtain ⟨q, o⟩ := p
    cases o with
    | none => simp at h1; simp [← h1, h2]
    | some a => simp at h1; simp [← h1, h2]

/-- Whether an answer of the two-sided closure leaves an entry. -/
def MapJointTransformResult.keeps : MapJointTransformResult V R → Bool
  | .removed _ => false
  | _ => true

theorem MapJointTransform.entry_isSome {op : MapJointTransform R (K → V → K → V → MapJointTransformResult V R)}
    {a b : K × V} {o : Option (K × V)} (h : op.Entry a b o) : o.isSome = (op.closure a.1 a.2 b.1 b.2).keeps := by
  cases op with
  | generic f fl =>
    simp only [MapJointTransform.Entry] at h
    revert h
    cases (MapJointTransform.generic f fl).closure a.1 a.2 b.1 b.2 <;>
      simp only [MapJointTransformResult.Entry, MapJointTransformResult.keeps]
    all_goals intro h; first | (rcases h with h | h <;> rw [h] <;> rfl) | (rw [h]; rfl)
  | removed r => simp only [MapJointTransform.Entry] at h; rw [h]; rfl
  | unchangedLR r => simp only [MapJointTransform.Entry] at h; rcases h with h | h <;> rw [h] <;> rfl
  | unchangedL r => simp only [MapJointTransform.Entry] at h; rcases h with h | h <;> rw [h] <;> rfl
  | unchangedR r => simp only [MapJointTransform.Entry] at h; rcases h with h | h <;> rw [h] <;> rfl

end HT
