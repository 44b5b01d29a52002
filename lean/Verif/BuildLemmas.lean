import Verif.Build
import Verif.BiaLemmas
/-! # The loop of writes builds what `Bia.create` says -/
namespace HT

variable {n : Nat} {V : Type}

/-- Reading positions `i`, `i + 1`, … from the source yields what `f` says. -/
def Source.Agrees (f : Nat → Option V) (P : Nat → Source V → Prop) : Prop :=
  ∀ i s, P i s → (s.atIndex i = none ∧ f i = none) ∨
    ∃ v s', s.atIndex i = some (v, s') ∧ f i = some v ∧ P (i + 1) s'

theorem fill_eq {f : Nat → Option V} {P : Nat → Source V → Prop} (ag : Source.Agrees f P) (todo : Nat) :
    ∀ (s : Source V) (vs : List V), P vs.length s →
    match (List.range' vs.length todo).mapM f with
    | some ws => fill s ⟨vs.map some ++ List.replicate todo none, List.range vs.length⟩ todo vs.length
        = .done ⟨(vs ++ ws).map some, List.range (vs.length + todo)⟩
    | none => ∃ m, fill s ⟨vs.map some ++ List.replicate todo none, List.range vs.length⟩ todo vs.length
        = .unwound m := by
  induction todo with
  | zero => intro s vs _; simp [fill]
  | succ todo ih =>
    intro s vs hP
    rw [List.range'_succ, List.mapM_cons]
    have hlt : vs.length < (vs.map some ++ List.replicate (todo + 1) (none : Option V)).length := by simp
    rw [fill, if_pos hlt]
    rcases ag _ _ hP with ⟨h1, h2⟩ | ⟨v, s', h1, h2, h3⟩
    · rw [h1, h2]; exact ⟨_, rfl⟩
    · rw [h1, h2]
      simp only []
      have hset : (vs.map some ++ List.replicate (todo + 1) (none : Option V)).set vs.length (some v)
          = (vs ++ [v]).map some ++ List.replicate todo none := by
        rw [List.set_append_right _ _ (by simp)]
        simp [List.replicate_succ]
      have hw : List.range vs.length ++ [vs.length] = List.range (vs ++ [v]).length := by
        simp [List.range_succ]
      have hl : vs.length + 1 = (vs ++ [v]).length := by simp
      rw [hset, hw, hl]
      have := ih s' (vs ++ [v]) (by rw [← hl]; exact h3)
      cases hm : (List.range' (vs ++ [v]).length todo).mapM f with
      | none => rw [hm] at this; exact this
      | some ws =>
        rw [hm] at this
        simp only [bind, Option.bind, pure]
        rw [this]
        simp [Nat.add_assoc, Nat.add_comm 1 todo]

/-- The memory-level outcome is the one `Bia.create` and its callers report: same errors, a panic of the value
    source is an unwinding, and an array comes with every cell written once, in order, with its values. -/
def MemRes.Sim : MemRes n V → Res (Except BitError (Bia n V)) → Prop
  | .err e, .ok (.error e') => e = e'
  | .unwound _, .panic _ => True
  | .ok bits m extra, .ok (.ok a) => bits = a.bits ∧ extra = a.extra ∧ m.cells = a.values.map some ∧
      m.writes = List.range a.values.length
  | _, _ => False

theorem mapM_length {f : Nat → Option V} : ∀ (l : List Nat) (vs : List V), l.mapM f = some vs → vs.length = l.length := by
  intro l
  induction l with
  | nil => intro vs h; simp at h; subst h; rfl
  | cons x l ih =>
    intro vs h
    rw [List.mapM_cons] at h
    cases hx : f x with
    | none => rw [hx] at h; simp at h
    | some v =>
      rw [hx] at h
      cases hl : l.mapM f with
      | none => rw [hl] at h; simp at h
      | some ws =>
        rw [hl] at h
        simp at h
        rw [← h, List.length_cons, ih _ hl, List.length_cons]

theorem createMem_sim {f : Nat → Option V} {P : Nat → Source V → Prop} (ag : Source.Agrees f P)
    (bits : BitVec n) (s : Source V) (hs : P 0 s) (extra : Nat) :
    (Bia.createMem bits s extra).Sim (Bia.create bits s.len f extra) := by
  unfold Bia.createMem Bia.create
  by_cases hc : countOnes bits ≠ s.len
  · rw [if_pos hc, if_pos hc]; rfl
  · rw [if_neg hc, if_neg hc]
    by_cases hl : s.len ≤ 128
    · rw [if_pos hl, if_pos hl]
      have hn : ¬ (countOnes bits ≠ s.len ∨ s.len ≠ s.len) := by simpa using hc
      rw [Bia.newImpl, if_neg hn]
      have := fill_eq ag s.len s [] hs
      simp only [List.length_nil, List.map_nil, List.nil_append, List.range_zero, Nat.zero_add] at this
      rw [← List.range_eq_range'] at this
      cases hm : (List.range s.len).mapM f with
      | none =>
        rw [hm] at this
        obtain ⟨m, hm'⟩ := this
        rw [hm']; trivial
      | some vs =>
        rw [hm] at this
        simp only at this
        rw [this]
        have := mapM_length _ _ hm
        rw [List.length_range] at this
        exact ⟨rfl, rfl, rfl, by rw [this]⟩
    · rw [if_neg hl, if_neg hl]; rfl

theorem agrees_vec (values : List V) :
    Source.Agrees (fun i => values[i]?) (fun _ s => s = .vec values) := by
  intro i s hs
  subst hs
  cases h : values[i]? with
  | none => exact .inl ⟨by simp [Source.atIndex, h], h⟩
  | some v => exact .inr ⟨v, _, by simp [Source.atIndex, h], h, rfl⟩

theorem agrees_remove (a : Bia n V) (index : Nat) :
    Source.Agrees (a.removeAt index) (fun _ s => s = .remove a.values index) := by
  intro i s hs
  subst hs
  simp only [Source.atIndex, Bia.removeAt]
  by_cases hi : i < index
  · simp only [if_pos hi]
    cases h : a.values[i]? with
    | none => exact .inl ⟨rfl, rfl⟩
    | some v => exact .inr ⟨v, _, rfl, rfl, rfl⟩
  · simp only [if_neg hi]
    cases h : a.values[i + 1]? with
    | none => exact .inl ⟨rfl, rfl⟩
    | some v => exact .inr ⟨v, _, rfl, rfl, rfl⟩

theorem agrees_insert (a : Bia n V) (index : Nat) (value : V) :
    Source.Agrees (a.insertAt index value) (fun i s =>
      ∃ o, s = .insert a.values index o ∧ (i ≤ index → o = some value)) := by
  rintro i s ⟨o, rfl, ho⟩
  simp only [Source.atIndex, Bia.insertAt]
  by_cases hi : i < index
  · simp only [if_pos hi]
    cases h : a.values[i]? with
    | none => exact .inl ⟨rfl, rfl⟩
    | some v => exact .inr ⟨v, _, rfl, rfl, o, rfl, fun _ => ho (Nat.le_of_lt hi)⟩
  · by_cases he : i = index
    · simp only [if_neg hi, if_pos he]
      rw [ho (Nat.le_of_eq he)]
      exact .inr ⟨value, _, rfl, rfl, none, rfl, fun h => absurd h (by omega)⟩
    · simp only [if_neg hi, if_neg he]
      cases h : a.values[i - 1]? with
      | none => exact .inl ⟨rfl, rfl⟩
      | some v => exact .inr ⟨v, _, rfl, rfl, o, rfl, fun h => absurd h (by omega)⟩

theorem agrees_update (a : Bia n V) (index : Nat) (value : V) :
    Source.Agrees (a.updateAt index value) (fun i s =>
      ∃ o, s = .update a.values index o ∧ (i ≤ index → o = some value)) := by
  rintro i s ⟨o, rfl, ho⟩
  simp only [Source.atIndex, Bia.updateAt]
  by_cases hi : i < index
  · simp only [if_pos hi]
    cases h : a.values[i]? with
    | none => exact .inl ⟨rfl, rfl⟩
    | some v => exact .inr ⟨v, _, rfl, rfl, o, rfl, fun _ => ho (Nat.le_of_lt hi)⟩
  · by_cases he : i = index
    · simp only [if_neg hi, if_pos he]
      rw [ho (Nat.le_of_eq he)]
      exact .inr ⟨value, _, rfl, rfl, none, rfl, fun h => absurd h (by omega)⟩
    · simp only [if_neg hi, if_neg he]
      cases h : a.values[i]? with
      | none => exact .inl ⟨rfl, rfl⟩
      | some v => exact .inr ⟨v, _, rfl, rfl, o, rfl, fun h => absurd h (by omega)⟩

namespace Bia

theorem ofVecMem_sim (bits : BitVec n) (values : List V) (e : Nat) :
    (ofVecMem bits values e).Sim (ofVec bits values e) := createMem_sim (agrees_vec values) bits _ rfl e

theorem insertedMem_sim (a : Bia n V) (bit : BitVec n) (v : V) (e : Nat) :
    (a.insertedMem bit v e).Sim (a.inserted bit v e) := by
  unfold insertedMem inserted
  generalize (do let bits ← bitInsert a.bits bit
                 let index ← bitIndex bits bit
                 pure (bits, index) : Except BitError (BitVec n × Nat)) = r
  rcases r with e' | ⟨bits, index⟩
  · rfl
  · exact createMem_sim (agrees_insert a _ v) _ _ ⟨_, rfl, fun _ => rfl⟩ e

theorem updatedMem_sim (a : Bia n V) (bit : BitVec n) (v : V) (e : Nat) :
    (a.updatedMem bit v e).Sim (a.updated bit v e) := by
  unfold updatedMem updated
  generalize bitIndex a.bits bit = r
  rcases r with e' | index
  · rfl
  · exact createMem_sim (agrees_update a _ v) _ _ ⟨_, rfl, fun _ => rfl⟩ e

theorem removedMem_sim (a : Bia n V) (bit : BitVec n) (e : Nat) :
    (a.removedMem bit e).Sim (a.removed bit e) := by
  unfold removedMem removed
  generalize (do let bits ← bitRemove a.bits bit
                 let index ← bitIndex a.bits bit
                 pure (bits, index) : Except BitError (BitVec n × Nat)) = r
  rcases r with e' | ⟨bits, index⟩
  · rfl
  · exact createMem_sim (agrees_remove a _) _ _ rfl e

/-! ### No panics on arrays that operations return -/

theorem inserted_no_panic (a : Bia n V) (h : a.Ok) (hn : n ≤ 128) (bit : BitVec n) (v : V) (e : Nat) :
    ∃ r, a.inserted bit v e = .ok r := by
  by_cases hb : countOnes bit = 1
  · obtain ⟨i, hi, rfl⟩ := bitAt_of_countOnes_one hb
    cases hx : a.bits.getLsbD i with
    | true => exact ⟨_, by simp [inserted, bitInsert_bitAt _ hi, hx, bind, Except.bind]; rfl⟩
    | false => exact ⟨_, inserted_eq a h hn hi ((slot_eq_none_iff h i).2 hx) v e⟩
  · exact ⟨_, by simp [inserted, bitInsert, bitNotFound, bits_countOne_err hb, bind, Except.bind]; rfl⟩

theorem updated_no_panic (a : Bia n V) (h : a.Ok) (hn : n ≤ 128) (bit : BitVec n) (v : V) (e : Nat) :
    ∃ r, a.updated bit v e = .ok r := by
  by_cases hb : countOnes bit = 1
  · obtain ⟨i, hi, rfl⟩ := bitAt_of_countOnes_one hb
    cases hx : a.slot i with
    | none => exact ⟨_, by simp [updated, bitIndex_bitAt _ hi, (slot_eq_none_iff h i).1 hx]; rfl⟩
    | some v0 => exact ⟨_, updated_eq a h hn hx v e⟩
  · exact ⟨_, by simp [updated, bitIndex, bitFound, bits_countOne_err hb, bind, Except.bind]; rfl⟩

theorem removed_no_panic (a : Bia n V) (h : a.Ok) (hn : n ≤ 128) (bit : BitVec n) (e : Nat) :
    ∃ r, a.removed bit e = .ok r := by
  by_cases hb : countOnes bit = 1
  · obtain ⟨i, hi, rfl⟩ := bitAt_of_countOnes_one hb
    cases hx : a.slot i with
    | none =>
      exact ⟨_, by simp [removed, bitRemove_bitAt _ hi, (slot_eq_none_iff h i).1 hx, bind, Except.bind]; rfl⟩
    | some v0 => exact ⟨_, removed_eq a h hn hx e⟩
  · exact ⟨_, by simp [removed, bitRemove, bitFound, bits_countOne_err hb, bind, Except.bind]; rfl⟩

theorem ofVec_no_panic (bits : BitVec n) (values : List V) (e : Nat) (hn : n ≤ 128) :
    ∃ r, ofVec bits values e = .ok r := by
  by_cases h : countOnes bits = values.length
  · exact ⟨_, ofVec_eq values e hn h⟩
  · exact ⟨_, ofVec_err values e h⟩

end Bia
end HT
