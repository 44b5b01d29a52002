import Verif.BiaLemmas
/-! # Bit-indexed arrays under a function on the values -/
namespace HT

/-- Apply a function to what a computation returns. -/
def Res.map {α β : Type} (f : α → β) (x : Res α) : Res β :=
  match x with
  | .ok a => .ok (f a)
  | .panic p => .panic p
  | .diverge => .diverge

theorem Res.map_eq_bind {α β : Type} (f : α → β) (x : Res α) : x.map f = x >>= fun a => .ok (f a) := by
  cases x <;> rfl

variable {n : Nat} {V W : Type}

theorem mapM_option_map {α : Type} (l : List α) (g : α → Option V) (f : V → W) :
    l.mapM (fun i => (g i).map f) = (l.mapM g).map (List.map f) := by
  induction l with
  | nil => rfl
  | cons a l ih =>
    simp only [List.mapM_cons, ih]
    cases g a with
    | none => rfl
    | some v => cases l.mapM g <;> rfl

theorem mapM_option_mem {α : Type} {l : List α} {g : α → Option V} {vs : List V} (h : l.mapM g = some vs) :
    (∀ x ∈ vs, ∃ i ∈ l, g i = some x) ∧ (∀ i ∈ l, ∃ x ∈ vs, g i = some x) := by
  induction l generalizing vs with
  | nil => simp at h; subst h; simp
  | cons a l ih =>
    rw [List.mapM_cons] at h
    cases hg : g a with
    | none => rw [hg] at h; cases h
    | some v =>
      rw [hg] at h
      cases hl : l.mapM g with
      | none => rw [hl] at h; cases h
      | some ws =>
        rw [hl] at h
        have h : v :: ws = vs := by injection h
        subst h
        obtain ⟨h1, h2⟩ := ih hl
        constructor
        · intro x hx
          rcases List.mem_cons.1 hx with rfl | hx
          · exact ⟨a, List.mem_cons_self .., hg⟩
          · obtain ⟨i, hi, e⟩ := h1 x hx
            exact ⟨i, List.mem_cons_of_mem _ hi, e⟩
        · intro i hi
          rcases List.mem_cons.1 hi with rfl | hi
          · exact ⟨v, List.mem_cons_self .., hg⟩
          · obtain ⟨x, hx, e⟩ := h2 i hi
            exact ⟨x, List.mem_cons_of_mem _ hx, e⟩

namespace Bia

def map (f : V → W) (a : Bia n V) : Bia n W := ⟨a.bits, a.values.map f, a.extra⟩

/-- The function on the results of the operations that build arrays. -/
def mapR (f : V → W) (x : Res (Except BitError (Bia n V))) : Res (Except BitError (Bia n W)) :=
  x.map fun e => match e with
    | .ok a => .ok (a.map f)
    | .error e => .error e

theorem create_map (f : V → W) (bits : BitVec n) (len : Nat) (g : Nat → Option V) (e : Nat) :
    create bits len (fun i => (g i).map f) e = mapR f (create bits len g e) := by
  unfold create mapR Res.map
  split
  · rfl
  · split
    · rw [mapM_option_map]
      cases (List.range len).mapM g <;> rfl
    · rfl

theorem create_congr {bits : BitVec n} {len : Nat} {g g' : Nat → Option V} {e : Nat}
    (h : ∀ i, g i = g' i) : create bits len g e = create bits len g' e := by
  have : g = g' := funext h
  rw [this]

theorem ofVec_map (f : V → W) (bits : BitVec n) (values : List V) (e : Nat) :
    ofVec bits (values.map f) e = mapR f (ofVec bits values e) := by
  unfold ofVec
  rw [← create_map, List.length_map]
  exact create_congr fun i => by simp

theorem updated_map (f : V → W) (a : Bia n V) (bit : BitVec n) (v : V) (e : Nat) :
    (a.map f).updated bit (f v) e = mapR f (a.updated bit v e) := by
  unfold updated
  simp only [map]
  cases bitIndex a.bits bit with
  | error err => rfl
  | ok i =>
    simp only [List.length_map]
    rw [← create_map]
    refine create_congr fun j => ?_
    simp only [updateAt]
    split
    · simp
    · split <;> simp

theorem inserted_map (f : V → W) (a : Bia n V) (bit : BitVec n) (v : V) (e : Nat) :
    (a.map f).inserted bit (f v) e = mapR f (a.inserted bit v e) := by
  unfold inserted
  simp only [map]
  split
  · rfl
  · simp only [List.length_map]
    rw [← create_map]
    refine create_congr fun j => ?_
    simp only [insertAt]
    split
    · simp
    · split <;> simp

theorem removed_map (f : V → W) (a : Bia n V) (bit : BitVec n) (e : Nat) :
    (a.map f).removed bit e = mapR f (a.removed bit e) := by
  unfold removed
  simp only [map]
  split
  · rfl
  · simp only [List.length_map]
    rw [← create_map]
    refine create_congr fun j => ?_
    simp only [removeAt]
    split <;> simp

theorem at'_map (f : V → W) (bits : BitVec n) (values : List V) (e : Nat) (bit : BitVec n) :
    (Bia.mk bits (values.map f) e).at' bit =
      match (Bia.mk bits values e).at' bit with
      | .ok v => .ok (f v)
      | .error e => .error e := by
  unfold at'
  cases bitIndex bits bit with
  | error err => rfl
  | ok i =>
    simp only [bind, Except.bind, List.getElem?_map]
    cases values[i]? <;> rfl

theorem atBitIndex_mapped (f : V → W) (bits : BitVec n) (values : List V) (e : Nat) (i : Nat) :
    (Bia.mk bits (values.map f) e).atBitIndex i =
      ((Bia.mk bits values e).atBitIndex i).map fun x => match x with
        | .ok v => .ok (f v)
        | .error e => .error e := by
  unfold atBitIndex
  cases (do let bit ← nthBit n i; bitIndex bits bit : Except BitError Nat) with
  | error err => rfl
  | ok i =>
    simp only [List.getElem?_map]
    cases values[i]? <;> rfl

theorem at'_mem {a : Bia n V} {bit : BitVec n} {v : V} (h : a.at' bit = .ok v) : v ∈ a.values := by
  unfold at' at h
  cases hb : bitIndex a.bits bit with
  | error e => rw [hb] at h; cases h
  | ok i =>
    rw [hb] at h
    have h : (match a.values[i]? with | some v => .ok v | none => .error BitError.range) = Except.ok v := h
    split at h
    · rename_i w hw
      injection h with h; subst h
      exact List.mem_of_getElem? hw
    · cases h

theorem create_parts {bits : BitVec n} {len : Nat} {g : Nat → Option V} {e : Nat} {a : Bia n V}
    (h : create bits len g e = .ok (.ok a)) :
    a.bits = bits ∧ a.extra = e ∧ countOnes bits = len ∧ (∀ x ∈ a.values, ∃ i, i < len ∧ g i = some x) ∧
      (∀ i, i < len → ∃ x ∈ a.values, g i = some x) := by
  unfold create at h
  split at h
  · cases h
  · rename_i hc
    split at h
    · split at h
      · rename_i vs hvs
        injection h with h; injection h with h; subst h
        obtain ⟨h1, h2⟩ := mapM_option_mem hvs
        refine ⟨rfl, rfl, by omega, ?_, ?_⟩
        · intro x hx
          obtain ⟨i, hi, e⟩ := h1 x hx
          exact ⟨i, List.mem_range.1 hi, e⟩
        · intro i hi
          exact h2 i (List.mem_range.2 hi)
      · cases h
    · cases h

theorem bitIndex_lt {x bit : BitVec n} {i : Nat} (h : bitIndex x bit = .ok i) : i < countOnes x := by
  by_cases hc : countOnes bit = 1
  · obtain ⟨j, hj, rfl⟩ := bitAt_of_countOnes_one hc
    rw [bitIndex_bitAt x hj] at h
    split at h
    · rename_i hx
      injection h with h; subst h
      exact onesBelow_lt_countOnes x hx
    · cases h
  · simp [bitIndex, bitFound, bits_countOne_err hc, bind, Except.bind] at h

theorem ofVec_ok {bits : BitVec n} {values : List V} {e : Nat} {a : Bia n V}
    (h : ofVec bits values e = .ok (.ok a)) :
    a.bits = bits ∧ a.extra = e ∧ ∀ x, x ∈ a.values ↔ x ∈ values := by
  obtain ⟨h1, h2, _, h3, h4⟩ := create_parts h
  refine ⟨h1, h2, fun x => ⟨fun hx => ?_, fun hx => ?_⟩⟩
  · obtain ⟨i, _, e⟩ := h3 x hx
    exact List.mem_of_getElem? e
  · obtain ⟨i, hi, e⟩ := List.mem_iff_getElem.1 hx
    obtain ⟨y, hy, e'⟩ := h4 i hi
    rw [List.getElem?_eq_getElem hi, e] at e'
    injection e' with e'; subst e'; exact hy

theorem updated_ok {a a' : Bia n V} {bit : BitVec n} {v : V} {e : Nat}
    (h : a.updated bit v e = .ok (.ok a')) :
    v ∈ a'.values ∧ ∀ x ∈ a'.values, x ∈ a.values ∨ x = v := by
  unfold updated at h
  split at h
  · cases h
  · rename_i i hi
    obtain ⟨_, _, hc, h3, h4⟩ := create_parts h
    constructor
    · obtain ⟨x, hx, e⟩ := h4 i (hc ▸ bitIndex_lt hi)
      simp [updateAt] at e; subst e; exact hx
    · intro x hx
      obtain ⟨j, _, e⟩ := h3 x hx
      unfold updateAt at e
      split at e
      · exact .inl (List.mem_of_getElem? e)
      · split at e
        · injection e with e; exact .inr e.symm
        · exact .inl (List.mem_of_getElem? e)

theorem inserted_ok {a a' : Bia n V} {bit : BitVec n} {v : V} {e : Nat}
    (h : a.inserted bit v e = .ok (.ok a')) :
    v ∈ a'.values ∧ ∀ x ∈ a'.values, x ∈ a.values ∨ x = v := by
  unfold inserted at h
  split at h
  · cases h
  · rename_i bits i hi
    obtain ⟨_, _, hc, h3, h4⟩ := create_parts h
    have hi : bitIndex bits bit = .ok i := by
      cases hb : bitInsert a.bits bit with
      | error err => rw [hb] at hi; cases hi
      | ok b =>
        rw [hb] at hi
        cases hb2 : bitIndex b bit with
        | error err =>
          have : (Except.error err : Except BitError (BitVec n × Nat)) = .ok (bits, i) := by
            rw [← hi]; show _ = (bitIndex b bit >>= _); rw [hb2]; rfl
          cases this
        | ok j =>
          have : (Except.ok (b, j) : Except BitError (BitVec n × Nat)) = .ok (bits, i) := by
            rw [← hi]; show _ = (bitIndex b bit >>= _); rw [hb2]; rfl
          injection this with this
          injection this with e1 e2
          subst e1; subst e2; exact hb2
    constructor
    · obtain ⟨x, hx, e⟩ := h4 i (hc ▸ bitIndex_lt hi)
      simp [insertAt] at e; subst e; exact hx
    · intro x hx
      obtain ⟨j, _, e⟩ := h3 x hx
      unfold insertAt at e
      split at e
      · exact .inl (List.mem_of_getElem? e)
      · split at e
        · injection e with e; exact .inr e.symm
        · exact .inl (List.mem_of_getElem? e)

theorem removed_ok {a a' : Bia n V} {bit : BitVec n} {e : Nat}
    (h : a.removed bit e = .ok (.ok a')) : ∀ x ∈ a'.values, x ∈ a.values := by
  unfold removed at h
  split at h
  · cases h
  · obtain ⟨_, _, _, h3, _⟩ := create_parts h
    intro x hx
    obtain ⟨j, _, e⟩ := h3 x hx
    unfold removeAt at e
    split at e <;> exact List.mem_of_getElem? e

end Bia
end HT
