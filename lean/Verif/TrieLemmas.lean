import Verif.Remove
/-! # The container: what find, insert and remove return on well-formed tries -/
namespace HT

/-- Number of hash chunks: the greatest possible number of branch nodes on a path. -/
def Cfg.levels (c : Cfg) : Nat := (c.w + c.b - 1) / c.b

theorem Cfg.levels_within (c : Cfg) : ∀ d, d < c.levels → d * c.b < c.w := by
  intro d hd
  have hb := c.bpos
  have h1 : d + 1 ≤ c.levels := hd
  have h2 : (d + 1) * c.b ≤ c.w + c.b - 1 :=
    Nat.le_trans (Nat.mul_le_mul_right _ h1) (Nat.div_mul_le_self _ _)
  rw [Nat.add_mul] at h2; omega

theorem Cfg.levels_cover (c : Cfg) : c.w ≤ c.levels * c.b := by
  have hb := c.bpos
  have h1 := Nat.div_add_mod (c.w + c.b - 1) c.b
  have h2 := Nat.mod_lt (c.w + c.b - 1) hb
  rw [Nat.mul_comm c.b] at h1
  unfold Cfg.levels
  omega

theorem Cfg.levels_pos (c : Cfg) : 0 < c.levels := by
  have h1 := c.levels_cover
  have h2 := c.wpos
  rcases Nat.eq_zero_or_pos c.levels with h | h
  · rw [h] at h1; omega
  · exact h

variable {K V : Type} [BEq K] {c : Cfg} {hash : K → BitVec c.w}

/-- The invariant of a trie whose branch nodes sit above depth `mx`. -/
def Trie.ValidAt (hash : K → BitVec c.w) (mx : Nat) (t : Trie c K V) : Prop := t.root.WF hash mx 0

/-- The invariant of a trie. -/
def Trie.Valid (hash : K → BitVec c.w) (t : Trie c K V) : Prop := t.ValidAt hash c.levels

theorem Node.default_wf {mx : Nat} (h : 0 < mx) (d : Nat) (hd : d < mx) :
    (Node.default : Node c.n K V).WF hash mx d := by
  refine .C d _ _ _ hd ?_ rfl ?_ ?_ ?_
  · simp only [Bia.Ok, Bia.default]; exact countOnes_zero
  all_goals
    intro i m hm
    have := Bia.slot_mem hm
    simp [Bia.default] at this

theorem Trie.new_valid {mx : Nat} (h : 0 < mx) : (Trie.new c : Trie c K V).ValidAt hash mx :=
  Node.default_wf h 0 h

omit [BEq K] in
theorem Trie.new_visit : (Trie.new c : Trie c K V).visit = [] := rfl

theorem Trie.ValidAt.size_eq {mx : Nat} {t : Trie c K V} (h : t.ValidAt hash mx) :
    t.size = t.visit.length := Node.WF.size_eq hash h

theorem Trie.ValidAt.distinct (hh : HashOk hash) {mx : Nat} {t : Trie c K V} (h : t.ValidAt hash mx) :
    DistinctKeys t.visit := Node.WF.distinct hh h

theorem Trie.findQ_eq {mx : Nat} (lim : ∀ d, d < mx → d * c.b < c.w) {t : Trie c K V}
    (ht : t.ValidAt hash mx) {q : K → Bool} {h : BitVec c.w} (hq : Query hash q h) :
    t.findQ q h = .ok (t.visit.find? (fun e => q e.1)) := by
  rw [Trie.findQ, Flag.new_eq]
  exact Node.find_eq hq lim ht _ (fun _ => rfl)

/-- What `insert` returns, when it returns. -/
inductive InsOut (hash : K → BitVec c.w) (mx : Nat) (t : Trie c K V) (q : K → Bool) (k : K) (v : V)
    (replace : Bool) : Except (K × V) (Trie c K V × (K × V) × Option (K × V)) → Prop
  | err (e : K × V) : replace = false → t.visit.find? (fun e => q e.1) = some e →
      InsOut hash mx t q k v replace (.error e)
  | ok (t' : Trie c K V) (prev : Option (K × V)) : prev = t.visit.find? (fun e => q e.1) →
      (replace = false → prev = none) → t'.ValidAt hash mx →
      t'.visit.Perm ((k, v) :: t.visit.filter (fun e => !q e.1)) →
      InsOut hash mx t q k v replace (.ok (t', (k, v), prev))

theorem Trie.insertQ_spec {mx : Nat} (lim : ∀ d, d < mx → d * c.b < c.w) (hh : HashOk hash)
    {t : Trie c K V} (ht : t.ValidAt hash mx) {q : K → Bool} {k : K} (v : V) (replace : Bool)
    (hq : Query hash q (hash k)) (hqk : q k = true)
    (sep : ∀ e ∈ t.visit, Agree c mx (hash e.1) (hash k) → hash e.1 = hash k) :
    (∃ r, t.insertQ hash q (hash k) k v replace = .ok r ∧ InsOut hash mx t q k v replace r) ∨
      (c.checked = true ∧ c.w ≤ mx * c.b ∧
        t.insertQ hash q (hash k) k v replace = .panic .shiftOverflow) := by
  rw [Trie.insertQ, Flag.new_eq]
  simp only [Res.ok_bind]
  rcases Node.insert_spec lim hh v replace hq hqk ht sep (fun e _ => Agree.zero _ _)
    (flagFor_flagAt _ _) with ⟨r, hr, good⟩ | ⟨h1, h2, h3⟩
  · left
    rw [hr]
    cases good with
    | found fk fv h1 h2 => exact ⟨_, rfl, .err _ h1 h2⟩
    | inserted m' prev h1 h2 h3 h4 h5 => exact ⟨_, rfl, .ok ⟨m'⟩ prev h1 h2 h3 h4⟩
  · right
    exact ⟨h1, h2, by rw [h3]; rfl⟩

/-- What `remove` returns, when it returns. -/
inductive RemOut (hash : K → BitVec c.w) (mx : Nat) (t : Trie c K V) (q : K → Bool) :
    Option (Trie c K V × (K × V)) → Prop
  | none : t.visit.find? (fun e => q e.1) = .none → RemOut hash mx t q .none
  | some (t' : Trie c K V) (e : K × V) : t.visit.find? (fun e => q e.1) = .some e →
      t'.ValidAt hash mx → t'.visit = t.visit.filter (fun e => !q e.1) →
      RemOut hash mx t q (.some (t', e))

theorem Trie.removeQ_spec {mx : Nat} (pos : 0 < mx) (lim : ∀ d, d < mx → d * c.b < c.w)
    (hh : HashOk hash) {t : Trie c K V} (ht : t.ValidAt hash mx) {q : K → Bool} {h : BitVec c.w}
    (hq : Query hash q h) :
    (∃ r, t.removeQ q h = .ok r ∧ RemOut hash mx t q r) ∨
      (c.checked = true ∧ c.w ≤ mx * c.b ∧ t.removeQ q h = .panic .shiftOverflow) := by
  rw [Trie.removeQ, Flag.new_eq]
  simp only [Res.ok_bind]
  rcases Node.remove_spec lim hh hq ht (flagFor_flagAt _ _) with ⟨r, hr, good⟩ | ⟨h1, h2, h3⟩
  · left
    rw [hr]
    cases good with
    | notFound h1 => exact ⟨_, rfl, .none h1⟩
    | removed m' k v h1 h2 h3 h4 => exact ⟨_, rfl, .some ⟨m'⟩ _ h1 h4 h2⟩
    | removedZ k v h1 h2 => exact ⟨_, rfl, .some _ _ h1 (Trie.new_valid pos) h2.symm⟩
  · right
    exact ⟨h1, h2, by rw [h3]; rfl⟩

end HT
