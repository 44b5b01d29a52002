import Verif.Lawless
import Verif.LawlessSpec
import Verif.Examples
/-!
# Property C58: keys whose `==` obeys no law

`Eq` is a marker trait: nothing forces `==` to be reflexive, symmetric or transitive (floating-point keys, a
wrong `impl`).  `Made c hash t` (`Verif/LawlessSpec.lean`) says that `t` is a map a program with such keys can
hold; of `==` it only asks that keys that compare equal have the same hash.
-/
namespace HT

variable {K V S X R : Type} {c : Cfg} {hash : K → BitVec c.w}

section
attribute [local instance] Lawless.noEq

theorem Made.valid {K V : Type} {hash : K → BitVec c.w} {t : Trie c K V} (h : Made c hash t) :
    t.ValidAt hash c.levels := by
  induction h with
  | new => exact Trie.new_valid c.levels_pos
  | insert _ hq hr ih =>
    rcases Lawless.trie_insertQ_spec c.levels_within ih _ _ hq (fun e _ ag => ag.eq c.levels_cover) with
      ⟨r, h1, g⟩ | ⟨_, _, h1⟩
    · rw [h1] at hr; injection hr with hr; subst hr
      cases g with
      | ok _ _ _ _ h3 _ => exact h3
    · rw [h1] at hr; simp at hr
  | remove _ hq hr ih =>
    rcases Lawless.trie_removeQ_spec c.levels_pos c.levels_within ih hq with ⟨r, h1, g⟩ | ⟨_, _, h1⟩
    · rw [h1] at hr; injection hr with hr; subst hr
      cases g with
      | some _ _ _ h3 _ => exact h3
    · rw [h1] at hr; simp at hr
  | @transform K V R hash t t' reduce e r op par _ hr ih =>
    obtain ⟨t', r, h1, h2, _⟩ := Trie.transform_spec (fun _ _ h => Bool.noConfusion h)
      c.levels_pos ih reduce e op par
    rw [h1] at hr; injection hr with hr; injection hr with hr; subst hr; exact h2
  | @transmute K V S X R hash hash' t t' reduce e r f _ hf hr ih =>
    obtain ⟨t', r, h1, h2, _⟩ := Trie.transmute_spec (hash := hash) (hash' := hash')
      c.levels_pos ih reduce e (.generic f) ⟨hf, fun _ _ _ _ _ _ _ _ _ _ _ _ h => Bool.noConfusion h⟩
    rw [h1] at hr; injection hr with hr; injection hr with hr; subst hr; exact h2

end

/-! ## C58 -/

namespace Ex

/-- Keys like floating-point numbers: `nan` is not equal to itself. -/
inductive Fk where
  | nan
  | num (n : Nat)
  deriving DecidableEq, Repr

instance (priority := high) : BEq Fk := ⟨fun | .num a, .num b => a == b | _, _ => false⟩

def fkHash : Fk → BitVec c8.w
  | .nan => 7
  | .num n => BitVec.ofNat 8 (n / 10)

theorem fkHashOk : HashOk fkHash := by
  intro x y h
  cases x <;> cases y <;> simp [BEq.beq] at h
  rw [h]

theorem made_many {K V : Type} [BEq K] {c : Cfg} {hash : K → BitVec c.w} (hh : HashOk hash) {replace : Bool}
    {t t' : Trie c K V} (h : Made c hash t) {es : List (K × V)}
    (hr : Trie.insertMany hash replace t es = .ok t') : Made c hash t' := by
  induction es generalizing t with
  | nil => simp [Trie.insertMany] at hr; subst hr; exact h
  | cons e es ih =>
    obtain ⟨k, v⟩ := e
    rw [Trie.insertMany, Res.bind_eq_ok] at hr
    obtain ⟨r, hr1, hr2⟩ := hr
    cases r with
    | error e => exact ih h hr2
    | ok r =>
      obtain ⟨t1, ptr, prev⟩ := r
      exact ih (Made.insert h (fun x hx => hh x k hx) hr1) hr2

end Ex

/-- C58 at work: a key that is not equal to itself can be inserted three times, is then listed three times and
    never found, next to ordinary keys (two of them with the same hash as it). -/
theorem C58_nan : ∃ t : Trie Ex.c8 Ex.Fk Nat, Made Ex.c8 Ex.fkHash t ∧
    t.visit = [(.num 11, 6), (.nan, 5), (.num 71, 4), (.nan, 3), (.num 70, 2), (.nan, 1)] ∧
    t.find Ex.fkHash .nan = .ok none ∧ t.find Ex.fkHash (.num 70) = .ok (some (.num 70, 2)) := by
  have h : ∀ p : Trie Ex.c8 Ex.Fk Nat → Bool, (match Trie.insertMany Ex.fkHash true (Trie.new Ex.c8)
      [(.nan, 1), (.num 70, 2), (.nan, 3), (.num 71, 4), (.nan, 5), (.num 11, 6)] with
      | .ok t => p t
      | _ => false) = true → ∃ t, Made Ex.c8 Ex.fkHash t ∧ p t = true := by
    intro p hp
    split at hp
    · rename_i t ht
      exact ⟨t, Ex.made_many Ex.fkHashOk .new ht, hp⟩
    · simp at hp
  have := h (fun t => decide (t.visit = [(.num 11, 6), (.nan, 5), (.num 71, 4), (.nan, 3), (.num 70, 2), (.nan, 1)]) &&
    decide (t.find Ex.fkHash .nan = .ok none) && decide (t.find Ex.fkHash (.num 70) = .ok (some (.num 70, 2))))
    (by decide +kernel)
  simpa [and_assoc] using this

/-- C58: `size` is the number of entries `visit` lists. -/
theorem C58_size {t : Trie c K V} (h : Made c hash t) : t.size = t.visit.length :=
  @Trie.ValidAt.size_eq K V (Lawless.noEq K) c hash c.levels t h.valid

example : ∃ t : Trie Ex.c8 Ex.Fk Nat, Made Ex.c8 Ex.fkHash t ∧ t.visit.length = 6 :=
  let ⟨t, h, hv, _⟩ := C58_nan
  ⟨t, h, by rw [hv]; rfl⟩

/-- C58: `find` returns, in every build, the first entry in visit order whose key the test accepts. -/
theorem C58_find {t : Trie c K V} (h : Made c hash t) {q : K → Bool} {hv : BitVec c.w}
    (hq : ∀ x, q x = true → hash x = hv) : t.findQ q hv = .ok (t.visit.find? fun e => q e.1) := by
  rw [Trie.findQ, Flag.new_eq]
  exact @Node.find_eq' K V (Lawless.noEq K) c hash q hv hq _ _ c.levels_within _ h.valid _ (fun _ => rfl)

example : ∃ t : Trie Ex.c8 Ex.Fk Nat, Made Ex.c8 Ex.fkHash t ∧ t.visit.length = 6 ∧
    ∀ x : Ex.Fk, (x == .num 70) = true → Ex.fkHash x = Ex.fkHash (.num 70) :=
  let ⟨t, h, hv, _⟩ := C58_nan
  ⟨t, h, by rw [hv]; rfl, fun x hx => Ex.fkHashOk _ _ hx⟩

/-- C58: `insert` does not fail (a build with overflow checks apart, see C14).  It is refused exactly when
    replacing is not allowed and some entry is found, and then reports that entry.  Otherwise the new entry is
    there, the entry found (if any) is reported and gone, and every other entry is kept, as many times as it was
    there. -/
theorem C58_insert {t : Trie c K V} (h : Made c hash t) {q : K → Bool} {k : K} (v : V) (replace : Bool)
    (hq : ∀ x, q x = true → hash x = hash k) :
    (c.checked = false → (t.insertQ hash q (hash k) k v replace).isOk) ∧
    (∀ p, t.insertQ hash q (hash k) k v replace = .panic p → p = .shiftOverflow) ∧
    t.insertQ hash q (hash k) k v replace ≠ .diverge ∧
    ∀ r, t.insertQ hash q (hash k) k v replace = .ok r →
      match r with
      | .error e => replace = false ∧ t.findQ q (hash k) = .ok (some e)
      | .ok (t', ptr, prev) => ptr = (k, v) ∧ t.findQ q (hash k) = .ok prev ∧
          (replace = false → prev = none) ∧
          t'.visit.Perm ((k, v) :: t.visit.eraseP fun e => q e.1) := by
  rw [C58_find h hq]
  rcases Lawless.trie_insertQ_spec c.levels_within h.valid v replace hq (fun e _ ag => ag.eq c.levels_cover) with
    ⟨r, h1, g⟩ | ⟨hc, _, h1⟩
  · rw [h1]
    refine ⟨fun _ => trivial, fun p hp => by simp at hp, by simp, ?_⟩
    intro r' hr; injection hr with hr; subst hr
    cases g with
    | err e g1 g2 => exact ⟨g1, by rw [g2]⟩
    | ok t' prev g1 g2 g3 g4 => exact ⟨rfl, by rw [g1], g2, g4⟩
  · rw [h1]
    refine ⟨fun h => by rw [h] at hc; simp at hc, fun p hp => ?_, by simp, fun r hr => by simp at hr⟩
    injection hp with hp; exact hp.symm

example : ∃ t : Trie Ex.c8 Ex.Fk Nat, Made Ex.c8 Ex.fkHash t ∧ t.visit.length = 6 ∧
    ∀ x : Ex.Fk, (x == .nan) = true → Ex.fkHash x = Ex.fkHash .nan :=
  let ⟨t, h, hv, _⟩ := C58_nan
  ⟨t, h, by rw [hv]; rfl, fun x hx => Ex.fkHashOk _ _ hx⟩

/-- C58: `remove` does not fail either; it removes the entry `find` would return, and only that one. -/
theorem C58_remove {t : Trie c K V} (h : Made c hash t) {q : K → Bool} {hv : BitVec c.w}
    (hq : ∀ x, q x = true → hash x = hv) :
    (c.checked = false → (t.removeQ q hv).isOk) ∧
    (∀ p, t.removeQ q hv = .panic p → p = .shiftOverflow) ∧
    t.removeQ q hv ≠ .diverge ∧
    ∀ r, t.removeQ q hv = .ok r →
      match r with
      | none => t.findQ q hv = .ok none
      | some (t', e) => t.findQ q hv = .ok (some e) ∧ t'.visit = t.visit.eraseP fun e => q e.1 := by
  rw [C58_find h hq]
  rcases Lawless.trie_removeQ_spec c.levels_pos c.levels_within h.valid hq with ⟨r, h1, g⟩ | ⟨hc, _, h1⟩
  · rw [h1]
    refine ⟨fun _ => trivial, fun p hp => by simp at hp, by simp, ?_⟩
    intro r' hr; injection hr with hr; subst hr
    cases g with
    | none g1 => exact congrArg Res.ok g1
    | some t' e g1 g2 g3 => exact ⟨by rw [g1], g3⟩
  · rw [h1]
    refine ⟨fun h => by rw [h] at hc; simp at hc, fun p hp => ?_, by simp, fun r hr => by simp at hr⟩
    injection hp with hp; exact hp.symm

example : ∃ t : Trie Ex.c8 Ex.Fk Nat, Made Ex.c8 Ex.fkHash t ∧ t.visit.length = 6 ∧
    ∀ x : Ex.Fk, (x == .num 70) = true → Ex.fkHash x = Ex.fkHash (.num 70) :=
  let ⟨t, h, hv, _⟩ := C58_nan
  ⟨t, h, by rw [hv]; rfl, fun x hx => Ex.fkHashOk _ _ hx⟩

section
attribute [local instance] Lawless.noEq

/-- C58: `transform` treats every entry on its own, as it does with lawful keys. -/
theorem C58_transform {t : Trie c K V} (h : Made c hash t) (reduce : R → R → R) (e : R)
    (f : K → V → MapTransformResult V R) (par : Par) :
    ∃ t' r, t.transform reduce e (.generic f) par = .ok (t', r) ∧
      t'.visit = t.visit.filterMap (fun x => (f x.1 x.2).entry x) := by
  obtain ⟨t', r, h1, _, h3, _⟩ := Trie.transform_spec (hash := hash) (fun _ _ h => Bool.noConfusion h)
      c.levels_pos h.valid reduce e (.generic f) par
  exact ⟨t', r, h1, h3⟩

example : ∃ t : Trie Ex.c8 Ex.Fk Nat, Made Ex.c8 Ex.fkHash t ∧ t.visit.length = 6 :=
  let ⟨t, h, hv, _⟩ := C58_nan
  ⟨t, h, by rw [hv]; rfl⟩

/-- C58: so does `transmute`, even if it makes equal keys of different ones. -/
theorem C58_transmute {hash' : S → BitVec c.w} {t : Trie c K V} (h : Made c hash t) (reduce : R → R → R) (e : R)
    (f : K → V → MapTransmuteResult S X R)
    (hf : ∀ k v k' v' r, f k v = .transmuted k' v' r → hash' k' = hash k) :
    ∃ t' r, t.transmute reduce e (.generic f) = .ok (t', r) ∧
      t'.visit = t.visit.filterMap (fun x => (f x.1 x.2).entry) := by
  obtain ⟨t', r, h1, _, h3, _⟩ := Trie.transmute_spec (hash := hash) (hash' := hash')
      c.levels_pos h.valid reduce e (.generic f) ⟨hf, fun _ _ _ _ _ _ _ _ _ _ _ _ h => Bool.noConfusion h⟩
  exact ⟨t', r, h1, h3⟩

end

/-- A transmutation that makes all keys with one hash equal. -/
example : ∃ t : Trie Ex.c8 Ex.Fk Nat, Made Ex.c8 Ex.fkHash t ∧ t.visit.length = 6 ∧
    ∀ k v k' v' r, (fun (k : Ex.Fk) (v : Nat) => (.transmuted (Ex.fkHash k) v () :
      MapTransmuteResult (BitVec 8) Nat Unit)) k v = .transmuted k' v' r → (fun x : BitVec Ex.c8.w => x) k' = Ex.fkHash k :=
  let ⟨t, h, hv, _⟩ := C58_nan
  ⟨t, h, by rw [hv]; rfl, by intro k v k' v' r h; injection h with h; exact h.symm⟩

/-- C58 for keys of the map's own type. -/
theorem C58_own_keys [BEq K] (hh : HashOk hash) {t : Trie c K V} (h : Made c hash t) (k : K) :
    t.find hash k = .ok (t.visit.find? fun e => e.1 == k) ∧
    (∀ v replace r, t.insert hash k v replace = .ok r →
      match r with
      | .error e => replace = false ∧ t.find hash k = .ok (some e)
      | .ok (t', ptr, prev) => Made c hash t' ∧ ptr = (k, v) ∧ t.find hash k = .ok prev ∧
          (replace = false → prev = none) ∧
          t'.visit.Perm ((k, v) :: t.visit.eraseP fun e => e.1 == k)) ∧
    (∀ r, t.remove hash k = .ok r →
      match r with
      | none => t.find hash k = .ok none
      | some (t', e) => Made c hash t' ∧ t.find hash k = .ok (some e) ∧
          t'.visit = t.visit.eraseP fun e => e.1 == k) := by
  have hq : ∀ x, (x == k) = true → hash x = hash k := fun x hx => hh x k hx
  refine ⟨C58_find h hq, fun v replace r hr => ?_, fun r hr => ?_⟩
  · have g := (C58_insert h v replace hq).2.2.2 r hr
    match r, hr, g with
    | .error e, _, g => exact g
    | .ok (t', ptr, prev), hr, g => exact ⟨.insert h hq hr, g⟩
  · have g := (C58_remove h hq).2.2.2 r hr
    match r, hr, g with
    | none, _, g => exact g
    | some (t', e), hr, g => exact ⟨.remove h hq hr, g⟩

example : HashOk Ex.fkHash := Ex.fkHashOk

/-- C58 needs that equal keys have the same hash: with keys compared by their first component and hashed by
    their second (a lawful `Eq`), two insertions replace one of two colliding keys by an equal key with another
    hash and a third one tears the entries apart; the key `(2, 0)` is then listed by `visit` but not found. -/
theorem C58_needs_hash : ∃ t : Trie Ex.c8 Ex.Tk Nat,
    Trie.insertMany (fun k : Ex.Tk => BitVec.ofNat 8 k.tag) true (Trie.new Ex.c8)
      [(⟨1, 0⟩, 1), (⟨2, 0⟩, 2), (⟨1, 8⟩, 3), (⟨3, 16⟩, 4)] = .ok t ∧
    t.visit = [(⟨1, 8⟩, 3), (⟨2, 0⟩, 2), (⟨3, 16⟩, 4)] ∧
    t.find (fun k : Ex.Tk => BitVec.ofNat 8 k.tag) ⟨2, 0⟩ = .ok none := by
  have : (match Trie.insertMany (fun k : Ex.Tk => BitVec.ofNat 8 k.tag) true (Trie.new Ex.c8)
      [(⟨1, 0⟩, 1), (⟨2, 0⟩, 2), (⟨1, 8⟩, 3), (⟨3, 16⟩, 4)] with
      | .ok t => decide (t.visit = [(⟨1, 8⟩, 3), (⟨2, 0⟩, 2), (⟨3, 16⟩, 4)]) &&
          decide (t.find (fun k : Ex.Tk => BitVec.ofNat 8 k.tag) ⟨2, 0⟩ = .ok none)
      | _ => false) = true := by decide +kernel
  split at this
  · rename_i t ht
    exact ⟨t, ht, by simpa using this⟩
  · simp at this

end HT
