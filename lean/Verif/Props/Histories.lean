import Verif.Examples
import Verif.Props.Single
/-!
# Properties C09, C10, C12, C13, C14, C32, C37, C38, C39: histories

`Trie.run hash vs ops` performs a list of API calls on a program's collection of versions
(`Verif/History.lean`); `AMap.run` is the specification (`Verif/Spec.lean`).
-/
namespace HT

variable {K V : Type} [BEq K] {c : Cfg} {hash : K → BitVec c.w}

/-- Helper: versions held by a program represent their own lists of entries. -/
theorem rep_of_reach {t : Trie c K V} (h : Reach c hash t) :
    Rep hash c.levels (fun _ => True) t t.visit :=
  ⟨h.valid, List.Perm.refl _, fun _ _ => trivial⟩

theorem pointwise_reach {vs : List (Trie c K V)} (h : ∀ t ∈ vs, Reach c hash t) :
    Pointwise (Rep hash c.levels (fun _ => True)) vs (vs.map Trie.visit) := by
  induction vs with
  | nil => trivial
  | cons t vs ih =>
    exact ⟨rep_of_reach (h t (List.mem_cons_self ..)), ih (fun t' ht' => h t' (List.mem_cons_of_mem _ ht'))⟩

theorem keyIn_true (op : Op K V) : op.KeyIn (fun _ => True) := by cases op <;> trivial

/-! ## C09 -/

/-- C09: in a build without overflow checks every history of calls, on any versions, gives the answers
    of the abstract finite map.  (The version list starts with any maps obtained before; in particular
    with the single version `new()`, see `C09_from_new`.) -/
theorem C09_history (laws : KeyLaws hash) (rel : c.checked = false) (vs : List (Trie c K V))
    (hvs : ∀ t ∈ vs, Reach c hash t) (ops : List (Op K V)) :
    ∃ os vs', Trie.run hash vs ops = .ok (os, vs') ∧
      Pointwise Out.Same os (AMap.run (vs.map Trie.visit) ops).1 ∧
      Pointwise (fun t m => t.visit.Perm m) vs' (AMap.run (vs.map Trie.visit) ops).2 := by
  haveI := laws.equiv
  obtain ⟨os, vs', h1, h2, h3⟩ := run_spec c.levels_pos c.levels_within laws.hash
    (fun k1 k2 _ _ ag => ag.eq c.levels_cover) (.inl rel) ops (fun op _ => keyIn_true op) vs _
    (pointwise_reach hvs)
  refine ⟨os, vs', h1, h2, ?_⟩
  clear h1 h2
  generalize (AMap.run (vs.map Trie.visit) ops).2 = ms at h3
  induction vs' generalizing ms with
  | nil => cases ms <;> first | trivial | exact h3.elim
  | cons t ts ih => cases ms with
    | nil => exact h3.elim
    | cons m ms => exact ⟨h3.1.perm, ih ms h3.2⟩

/-- C09 for a program that starts with `new()`. -/
theorem C09_from_new (laws : KeyLaws hash) (rel : c.checked = false) (ops : List (Op K V)) :
    ∃ os vs', Trie.run hash [Trie.new c] ops = .ok (os, vs') ∧
      Pointwise Out.Same os (AMap.run [[]] ops).1 := by
  obtain ⟨os, vs', h1, h2, _⟩ := C09_history laws rel [Trie.new c]
    (fun t ht => by rw [List.mem_singleton.1 ht]; exact .new laws) ops
  exact ⟨os, vs', h1, h2⟩

/-- A branching history with collisions, deep branches, replacement, refusals and removals. -/
def Ex.ops : List (Op Ex.Tk Nat) :=
  [.insert 0 ⟨5, 0⟩ 50 false, .insert 1 ⟨641, 0⟩ 51 false, .insert 2 ⟨7, 0⟩ 52 false,
   .insert 3 ⟨7, 1⟩ 53 false, .insert 3 ⟨7, 1⟩ 53 true, .remove 4 ⟨5, 0⟩, .find 5 ⟨641, 9⟩,
   .size 5, .size 3, .remove 2 ⟨641, 0⟩, .find 2 ⟨641, 0⟩]

example : (match Trie.run Ex.exHash [Trie.new Ex.c8] Ex.ops with
    | .ok (os, _) => decide (os = (AMap.run [[]] Ex.ops).1)
    | _ => false) = true := by decide +kernel

/-! ## C10 -/

theorem Pointwise.same_trans {as bs cs : List (Out K V)} (h1 : Pointwise Out.Same as bs)
    (h2 : Pointwise Out.Same cs bs) : Pointwise Out.Same as cs := by
  induction as generalizing bs cs with
  | nil => cases bs <;> cases cs <;> first | trivial | exact h1.elim | exact h2.elim
  | cons a as ih =>
    cases bs with
    | nil => exact h1.elim
    | cons b bs => cases cs with
      | nil => exact h2.elim
      | cons d cs =>
        refine ⟨?_, ih h1.2 h2.2⟩
        have e1 := h1.1
        have e2 := h2.1
        cases a <;> cases b <;> cases d <;> simp_all [Out.Same]
        exact e1.trans e2.symm

/-- C10: two hash functions that respect key equality - of any widths, with any branching factors -
    give the same answers in every history (`visit` up to order). -/
theorem C10_hash_independent {c₁ c₂ : Cfg} {hash₁ : K → BitVec c₁.w} {hash₂ : K → BitVec c₂.w}
    (laws₁ : KeyLaws hash₁) (laws₂ : KeyLaws hash₂) (rel₁ : c₁.checked = false)
    (rel₂ : c₂.checked = false) (ops : List (Op K V)) :
    ∃ os₁ vs₁ os₂ vs₂, Trie.run hash₁ [Trie.new c₁] ops = .ok (os₁, vs₁) ∧
      Trie.run hash₂ [Trie.new c₂] ops = .ok (os₂, vs₂) ∧ Pointwise Out.Same os₁ os₂ := by
  obtain ⟨os1, vs1, h1, h2⟩ := C09_from_new laws₁ rel₁ ops
  obtain ⟨os2, vs2, h3, h4⟩ := C09_from_new laws₂ rel₂ ops
  exact ⟨_, _, _, _, h1, h3, h2.same_trans h4⟩

/-- `Same` on answers other than those of `visit` is equality. -/
theorem same_eq {a b : Out K V} (h : a.Same b) (hv : ∀ es, a ≠ .visited es) : a = b := by
  cases a <;> cases b <;> simp_all [Out.Same]

-- a constant hash (everything collides) and a 64-bit hash
example : KeyLaws (fun _ : Ex.Tk => (0 : BitVec Ex.c8.w)) ∧ KeyLaws Ex.exHash64 :=
  ⟨Ex.tkLaws (fun _ => 0), Ex.exLaws64⟩

/-! ## C12 -/

theorem run_extends (vs : List (Trie c K V)) (ops : List (Op K V)) {os : List (Out K V)}
    {vs' : List (Trie c K V)} (h : Trie.run hash vs ops = .ok (os, vs')) :
    ∃ ext, vs' = vs ++ ext := by
  have one : ∀ (vs : List (Trie c K V)) (op : Op K V) (o : Out K V) (vs' : List (Trie c K V)),
      Trie.step hash vs op = .ok (o, vs') → ∃ ext, vs' = vs ++ ext := by
    intro vs op o vs' h
    cases op <;> simp only [Trie.step] at h <;> split at h
    all_goals first
      | (injection h with h; injection h with _ h; exact ⟨[], by simp [h]⟩)
      | skip
    all_goals
      rw [Res.bind_eq_ok] at h
      obtain ⟨r, _, h⟩ := h
      split at h <;> injection h with h <;> injection h with _ h <;>
        first
        | (refine ⟨[], ?_⟩; rw [← h, List.append_nil]; done)
        | exact ⟨_, h.symm⟩
  induction ops generalizing vs os with
  | nil => simp only [Trie.run] at h; injection h with h; injection h with _ h; exact ⟨[], by simp [h]⟩
  | cons op ops ih =>
    rw [Trie.run, Res.bind_eq_ok] at h
    obtain ⟨⟨o, vs1⟩, h1, h2⟩ := h
    rw [Res.bind_eq_ok] at h2
    obtain ⟨⟨os2, vs2⟩, h3, h4⟩ := h2
    injection h4 with h4; injection h4 with _ h4; subst h4
    obtain ⟨e1, he1⟩ := one _ _ _ _ h1
    obtain ⟨e2, he2⟩ := ih _ h3
    exact ⟨e1 ++ e2, by rw [he2, he1, List.append_assoc]⟩

/-- C12: every version answers `find`, `size` and `visit` after any later history, on whatever
    versions, exactly as it did before it. -/
theorem C12_persistence (vs vs' : List (Trie c K V)) (ops : List (Op K V)) (os : List (Out K V))
    (h : Trie.run hash vs ops = .ok (os, vs')) (i : Nat) (hi : i < vs.length) (probe : Op K V)
    (hp : (∃ k, probe = .find i k) ∨ probe = .size i ∨ probe = .visit i) :
    (Trie.step hash vs' probe).isOk = (Trie.step hash vs probe).isOk ∧
    ∀ o w, Trie.step hash vs probe = .ok (o, w) → ∃ w', Trie.step hash vs' probe = .ok (o, w') := by
  obtain ⟨ext, rfl⟩ := run_extends vs ops h
  have hg : (vs ++ ext)[i]? = vs[i]? := by rw [List.getElem?_append_left hi]
  rcases hp with ⟨k, rfl⟩ | rfl | rfl
  · simp only [Trie.step, hg]
    cases hv : vs[i]? with
    | none => exact ⟨rfl, fun o w h => by injection h with h; injection h with h _; exact ⟨_, by rw [h]⟩⟩
    | some t =>
      simp only
      cases hf : t.find hash k with
      | panic p => exact ⟨rfl, fun o w h => by simp at h⟩
      | diverge => exact ⟨rfl, fun o w h => by simp at h⟩
      | ok r => cases r <;>
          exact ⟨rfl, fun o w h => by
            simp only [Res.ok_bind] at h ⊢
            injection h with h; injection h with h _; exact ⟨_, by rw [h]⟩⟩
  · simp only [Trie.step, hg]
    cases hv : vs[i]? <;>
      exact ⟨rfl, fun o w h => by injection h with h; injection h with h _; subst h; exact ⟨_, rfl⟩⟩
  · simp only [Trie.step, hg]
    cases hv : vs[i]? <;>
      exact ⟨rfl, fun o w h => by injection h with h; injection h with h _; subst h; exact ⟨_, rfl⟩⟩

example : (match Trie.run Ex.exHash [Trie.new Ex.c8] Ex.ops with
    | .ok (_, vs) => decide (vs.length = 7)
    | _ => false) = true := by decide +kernel

/-! ## C13 -/

/-- C13: without overflow checks no history panics (or fails to return). -/
theorem C13_no_panic_release (laws : KeyLaws hash) (rel : c.checked = false) (vs : List (Trie c K V))
    (hvs : ∀ t ∈ vs, Reach c hash t) (ops : List (Op K V)) : (Trie.run hash vs ops).isOk := by
  obtain ⟨os, vs', h, _⟩ := C09_history laws rel vs hvs ops
  rw [h]; trivial

/-- C13 for lookup keys of foreign types. -/
theorem C13_no_panic_foreign {t : Trie c K V} (h : Reach c hash t) (rel : c.checked = false)
    (q : K → Bool) (hv : BitVec c.w) (hq : Query hash q hv) :
    (t.findQ q hv).isOk ∧ (t.removeQ q hv).isOk ∧
      ∀ k v replace, q k = true → hv = hash k → (t.insertQ hash q (hash k) k v replace).isOk := by
  refine ⟨?_, ?_, ?_⟩
  · rw [h.findQ hq]; trivial
  · rcases h.removeQ hq with ⟨r, hr, _⟩ | ⟨hc, _⟩
    · rw [hr]; trivial
    · rw [rel] at hc; simp at hc
  · intro k v replace hk he
    subst he
    rcases h.insertQ v replace hq hk with ⟨r, hr, _⟩ | ⟨hc, _⟩
    · rw [hr]; trivial
    · rw [rel] at hc; simp at hc

example : Ex.c8.checked = false ∧ KeyLaws Ex.exHash := ⟨rfl, Ex.exLaws⟩

/-! ## C14 -/

/-- C14 is false of the code: with overflow checks, `H = u8` and 8-way branching, inserting keys with
    hashes 0 and 64 and then removing (or inserting again) the first one panics: `flag.next()` shifts
    an 8-bit hash by 9. -/
theorem C14_no_panic_checked_refuted :
    ¬ ∀ (ops : List (Op Ex.Tk Nat)), (Trie.run Ex.exHashd [Trie.new Ex.c8d] ops).isOk := by
  intro h
  have := h [.insert 0 ⟨5, 0⟩ 50 false, .insert 1 ⟨641, 0⟩ 51 false, .remove 2 ⟨5, 0⟩]
  have e : (match Trie.run Ex.exHashd [Trie.new Ex.c8d]
      [.insert 0 ⟨5, 0⟩ 50 false, .insert 1 ⟨641, 0⟩ 51 false, .remove 2 ⟨5, 0⟩] with
    | .panic .shiftOverflow => true
    | _ => false) = true := by decide +kernel
  revert this e
  generalize Trie.run Ex.exHashd [Trie.new Ex.c8d]
      [.insert 0 ⟨5, 0⟩ 50 false, .insert 1 ⟨641, 0⟩ 51 false, .remove 2 ⟨5, 0⟩] = r
  intro h1 h2
  cases r <;> simp_all [Res.isOk]

/-- C14, the part that holds.  Missing: histories that mention two keys whose (different) hashes agree
    on all of their lowest `mx * c.b` bits, where `mx * c.b` may be any multiple of `log2` of the
    branching factor below the hash width.  For all other histories, in any build, nothing panics and
    all answers are right.  (`Agree c mx` compares the lowest `mx` groups of `c.b` bits.) -/
theorem C14_no_panic_checked_partial (laws : KeyLaws hash) (mx : Nat) (pos : 0 < mx)
    (hmx : mx * c.b < c.w) (ops : List (Op K V)) (used : List K)
    (hused : ∀ op ∈ ops, op.KeyIn (· ∈ used))
    (sep : ∀ k1 ∈ used, ∀ k2 ∈ used, Agree c mx (hash k1) (hash k2) → hash k1 = hash k2) :
    ∃ os vs', Trie.run hash [Trie.new c] ops = .ok (os, vs') ∧
      Pointwise Out.Same os (AMap.run [[]] ops).1 := by
  haveI := laws.equiv
  have lim : ∀ d, d < mx → d * c.b < c.w := by
    intro d hd
    have := Nat.mul_le_mul_right c.b (Nat.le_of_lt hd)
    omega
  obtain ⟨os, vs', h1, h2, _⟩ := run_spec (hash := hash) (P := (· ∈ used)) pos lim laws.hash
    (fun k1 k2 h1 h2 => sep k1 h1 k2 h2) (.inr hmx) ops hused [Trie.new c] [[]]
    ⟨⟨Trie.new_valid pos, List.Perm.refl _, fun e he => by simp at he⟩, trivial⟩
  exact ⟨os, vs', h1, h2⟩

-- checked build; keys 5 and 7 collide, 11 and 90 differ from them within the first two chunks
example : (2 * Ex.c8d.b < Ex.c8d.w) ∧ (∀ op ∈ ([.insert 0 ⟨5, 0⟩ 1 true, .insert 1 ⟨7, 0⟩ 2 true,
      .insert 2 ⟨11, 0⟩ 3 true, .insert 3 ⟨90, 0⟩ 3 true, .remove 4 ⟨7, 0⟩] : List (Op Ex.Tk Nat)),
      op.KeyIn (· ∈ [⟨5, 0⟩, ⟨7, 0⟩, ⟨11, 0⟩, ⟨90, 0⟩])) ∧
    ∀ k1 ∈ ([⟨5, 0⟩, ⟨7, 0⟩, ⟨11, 0⟩, ⟨90, 0⟩] : List Ex.Tk),
      ∀ k2 ∈ ([⟨5, 0⟩, ⟨7, 0⟩, ⟨11, 0⟩, ⟨90, 0⟩] : List Ex.Tk),
        Agree Ex.c8d 2 (Ex.exHashd k1) (Ex.exHashd k2) → Ex.exHashd k1 = Ex.exHashd k2 := by
  refine ⟨by decide, ?_, ?_⟩
  · intro op hop
    simp only [List.mem_cons, List.not_mem_nil, or_false] at hop
    rcases hop with rfl | rfl | rfl | rfl | rfl <;> simp [Op.KeyIn]
  · intro k1 h1 k2 h2 ag
    have a0 := ag 0 (by decide)
    have a1 := ag 1 (by decide)
    clear ag
    simp only [List.mem_cons, List.not_mem_nil, or_false] at h1 h2
    rcases h1 with rfl | rfl | rfl | rfl <;> rcases h2 with rfl | rfl | rfl | rfl <;>
      revert a0 a1 <;> decide +kernel

/-! ## C32 -/

/-- Insertions of absent, different keys add exactly their entries. -/
theorem insertMany_visit {t t₁ : Trie c K V} (h : Reach c hash t) {es : List (K × V)}
    (hd : es.Pairwise (fun a b => (a.1 == b.1) = false)) (absent : ∀ e ∈ es, t.find hash e.1 = .ok none) {r : Bool}
    (h₁ : Trie.insertMany hash r t es = .ok t₁) : t₁.visit.Perm (es ++ t.visit) := by
  haveI := h.laws.equiv
  have gen : ∀ (r : Bool) (es : List (K × V)) (t t₁ : Trie c K V), Reach c hash t →
      es.Pairwise (fun a b => (a.1 == b.1) = false) → (∀ e ∈ es, t.find hash e.1 = .ok none) →
      Trie.insertMany hash r t es = .ok t₁ → t₁.visit.Perm (es ++ t.visit) := by
    intro r es
    induction es with
    | nil =>
      intro t t₁ _ _ _ h4
      simp only [Trie.insertMany] at h4
      injection h4 with h4; subst h4; exact List.Perm.refl _
    | cons e es ih =>
      obtain ⟨k, v⟩ := e
      intro t t₁ h1 h2 h3 h4
      rw [Trie.insertMany, Res.bind_eq_ok] at h4
      obtain ⟨x, hx1, hx2⟩ := h4
      have e0 := h1.find k
      rw [h3 (k, v) (List.mem_cons_self ..)] at e0
      injection e0 with e0
      rcases h1.insertQ v r (h1.query k) (h1.laws.refl k) with ⟨x', hr, good⟩ | ⟨_, hp⟩
      · have : Res.ok x = Res.ok x' := hx1.symm.trans hr
        injection this with this; subst this
        cases good with
        | err e g1 g2 => rw [← e0] at g2; simp at g2
        | ok t' prev g1 g2 g3 g4 =>
          have ht' : Reach c hash t' := Reach.insert h1 (h1.query k) (h1.laws.refl k) hx1
          rw [filter_not_of_find?_none e0.symm] at g4
          refine (ih t' t₁ ht' (List.Pairwise.of_cons h2) ?_ hx2).trans ?_
          · intro e he
            have hne := List.rel_of_pairwise_cons h2 he
            have e1 := h1.find e.1
            rw [h3 e (List.mem_cons_of_mem _ he)] at e1
            injection e1 with e1
            rw [ht'.find, find?_perm (h1.query e.1) ht'.distinct (ht'.distinct.perm g4) g4,
              List.find?_cons]
            simp only at hne
            simp only [hne]
            rw [← e1]
          · refine (List.Perm.append_left _ g4).trans ?_
            exact List.perm_middle
      · have := hx1.symm.trans hp; simp at this
  exact gen r es t t₁ h hd absent h₁

/-- C32, first part: inserting entries with pairwise different keys, none of them present, in any
    order, gives maps that answer every `find` alike and have the same size. -/
theorem C32_insertion_order {t t₁ t₂ : Trie c K V} (h : Reach c hash t) (es es' : List (K × V))
    (hp : es.Perm es') (hd : es.Pairwise (fun a b => (a.1 == b.1) = false))
    (absent : ∀ e ∈ es, t.find hash e.1 = .ok none) (r r' : Bool)
    (h₁ : Trie.insertMany hash r t es = .ok t₁) (h₂ : Trie.insertMany hash r' t es' = .ok t₂) :
    (∀ k, t₁.find hash k = t₂.find hash k) ∧ t₁.size = t₂.size ∧ t₁.size = t.size + es.length := by
  haveI := h.laws.equiv
  have p1 := insertMany_visit h hd absent h₁
  have hd' : es'.Pairwise (fun a b => (a.1 == b.1) = false) := DistinctKeys.perm hd hp
  have p2 := insertMany_visit h hd' (fun e he => absent e (hp.mem_iff.2 he)) h₂
  have r1 := Reach.insertMany h h₁
  have r2 := Reach.insertMany h h₂
  have p3 : t₁.visit.Perm t₂.visit := p1.trans ((List.Perm.append_right _ hp).trans p2.symm)
  refine ⟨?_, ?_, ?_⟩
  · intro k
    rw [r1.find, r2.find, find?_perm (h.query k) r1.distinct r2.distinct p3]
  · rw [r1.size, r2.size, p3.length_eq]
  · rw [r1.size, h.size, p1.length_eq, List.length_append, Nat.add_comm]

/-- In a release build such insertions do return. -/
theorem C32_insertion_returns {t : Trie c K V} (h : Reach c hash t) (rel : c.checked = false)
    (r : Bool) (es : List (K × V)) : (Trie.insertMany hash r t es).isOk := by
  induction es generalizing t with
  | nil => trivial
  | cons e es ih =>
    obtain ⟨k, v⟩ := e
    rw [Trie.insertMany]
    rcases h.insertQ v r (h.query k) (h.laws.refl k) with ⟨x', hr, good⟩ | ⟨hc, _⟩
    · have hr' : t.insert hash k v r = .ok x' := hr
      rw [hr']
      cases x' with
      | error e => exact ih h
      | ok x =>
        obtain ⟨t', p, q⟩ := x
        exact ih (Reach.insert h (h.query k) (h.laws.refl k) hr)
    · rw [rel] at hc; simp at hc

/-- C32, second part: inserting a fresh key and removing it again. -/
theorem C32_insert_remove {t t₁ t₂ : Trie c K V} (h : Reach c hash t) (k : K) (v : V) (r : Bool)
    (absent : t.find hash k = .ok none) {ptr : K × V} {prev : Option (K × V)} {e : K × V}
    (h₁ : t.insert hash k v r = .ok (.ok (t₁, ptr, prev))) (h₂ : t₁.remove hash k = .ok (some (t₂, e))) :
    e = (k, v) ∧ (∀ k', t₂.find hash k' = t.find hash k') ∧ t₂.size = t.size := by
  haveI := h.laws.equiv
  have r1 : Reach c hash t₁ := Reach.insert h (h.query k) (h.laws.refl k) h₁
  have r2 : Reach c hash t₂ := Reach.remove r1 (h.query k) h₂
  have e0 := h.find k
  rw [absent] at e0
  injection e0 with e0
  have p1 : t₁.visit.Perm ((k, v) :: t.visit) := by
    rcases h.insertQ v r (h.query k) (h.laws.refl k) with ⟨x', hr, good⟩ | ⟨_, hp⟩
    · have : Res.ok (Except.ok (t₁, ptr, prev)) = Res.ok x' := h₁.symm.trans hr
      injection this with this; subst this
      cases good with
      | ok _ _ g1 g2 g3 g4 => rw [filter_not_of_find?_none e0.symm] at g4; exact g4
    · have := h₁.symm.trans hp; simp at this
  rcases r1.removeQ (h.query k) with ⟨x', hr, good⟩ | ⟨_, hp⟩
  · have : Res.ok (some (t₂, e)) = Res.ok x' := h₂.symm.trans hr
    injection this with this; subst this
    cases good with
    | some _ _ g1 g2 g3 =>
      have p2 : t₂.visit.Perm t.visit := by
        rw [g3]
        refine (p1.filter _).trans ?_
        rw [List.filter_cons, h.laws.refl]
        simp only [Bool.not_true, Bool.false_eq_true, if_false]
        rw [filter_not_of_find?_none e0.symm]
      refine ⟨?_, ?_, ?_⟩
      · have := (h.query k).no_other r1.distinct |>.2
          ⟨p1.mem_iff.2 (List.mem_cons_self ..), h.laws.refl k⟩
        rw [this] at g1; injection g1 with g1; exact g1.symm
      · intro k'
        rw [r2.find, h.find, find?_perm (h.query k') r2.distinct h.distinct p2]
      · rw [r2.size, h.size, p2.length_eq]
  · have := h₂.symm.trans hp; simp at this

example : ∃ t : Trie Ex.c8 Ex.Tk Nat, Reach Ex.c8 Ex.exHash t ∧ t.size = 6 ∧
    t.find Ex.exHash ⟨8, 1⟩ = .ok none ∧ t.find Ex.exHash ⟨645, 1⟩ = .ok none := by
  simpa [and_assoc] using exists_reach Ex.exLaws Ex.entries
    (fun t => decide (t.size = 6) && decide (t.find Ex.exHash ⟨8, 1⟩ = .ok none) &&
      decide (t.find Ex.exHash ⟨645, 1⟩ = .ok none)) (by decide +kernel)

/-! ## C37 -/

mutual
/-- Number of branch nodes on the longest path. -/
def Node.height {n : Nat} : Node n K V → Nat
  | .C _ values _ => 1 + Node.heightAll values
  | .L _ => 0
  | .S _ => 0
/-- Greatest height among children. -/
def Node.heightAll {n : Nat} : List (Node n K V) → Nat
  | [] => 0
  | m :: ms => max m.height (Node.heightAll ms)
end

omit [BEq K] in
theorem Node.heightAll_le {n : Nat} (ms : List (Node n K V)) (b : Nat) (h : ∀ m ∈ ms, m.height ≤ b) :
    Node.heightAll ms ≤ b := by
  induction ms with
  | nil => exact Nat.zero_le _
  | cons m ms ih =>
    rw [Node.heightAll]
    exact Nat.max_le.2 ⟨h m (List.mem_cons_self ..), ih (fun m' h' => h m' (List.mem_cons_of_mem _ h'))⟩

theorem Node.WF.height_le {mx d : Nat} {m : Node c.n K V} (wf : m.WF hash mx d) :
    m.height = 0 ∨ m.height + d ≤ mx := by
  induction wf with
  | S d s => left; rfl
  | L d l h => left; rfl
  | C d bits values extra hd ok sz ne at_ sub ih =>
    right
    have : Node.heightAll values ≤ mx - d - 1 := by
      apply Node.heightAll_le
      intro m hm
      rw [show values = (Bia.mk bits values extra).values from rfl, Bia.values_eq _ ok] at hm
      obtain ⟨i, _, hi⟩ := List.mem_filterMap.1 hm
      rcases ih i m hi with h | h <;> omega
    rw [Node.height]; omega

/-- C37: at most `ceil (hash width / log2 branching)` branch nodes on any path from the root to an
    entry; below them there is one leaf (`SNode` or `LNode`) by construction of `Node`. -/
theorem C37_depth {t : Trie c K V} (h : Reach c hash t) :
    t.root.height ≤ (c.w + c.b - 1) / c.b := by
  rcases Node.WF.height_le h.valid with h | h
  · rw [h]; exact Nat.zero_le _
  · exact h

-- the bound is attained
example : ∃ t : Trie Ex.c8 Ex.Tk Nat, Reach Ex.c8 Ex.exHash t ∧ t.root.height = 3 ∧
    (Ex.c8.w + Ex.c8.b - 1) / Ex.c8.b = 3 := by
  obtain ⟨t, h1, h2⟩ := exists_reach Ex.exLaws Ex.entries (fun t => decide (t.root.height = 3))
    (by decide +kernel)
  exact ⟨t, h1, by simpa using h2, by decide⟩

/-! ## C38 -/

/-- C38: a lookup key of a foreign type with comparison `q` and hash `hv`, whose owned conversion is
    `k`, behaves like `k`. -/
theorem C38_foreign_keys {t : Trie c K V} (h : Reach c hash t) (q : K → Bool) (hv : BitVec c.w) (k : K)
    (hhash : hv = hash k) (heq : ∀ x, q x = (x == k)) :
    t.findQ q hv = t.find hash k ∧ t.removeQ q hv = t.remove hash k ∧
      ∀ v r, t.insertQ hash q hv k v r = t.insert hash k v r := by
  have hqe : q = (· == k) := funext heq
  subst hhash hqe
  exact ⟨rfl, rfl, fun _ _ => rfl⟩

-- a foreign key: the id alone
example (n : Nat) : (BitVec.ofNat 8 (n / 10) : BitVec Ex.c8.w) = Ex.exHash ⟨n, 77⟩ ∧
    ∀ x : Ex.Tk, (fun x : Ex.Tk => x.id == n) x = (x == ⟨n, 77⟩) := ⟨rfl, fun _ => rfl⟩

/-! ## C39 -/

theorem run_pair {c₁ c₂ : Cfg} {hash₁ : K → BitVec c₁.w} {hash₂ : K → BitVec c₂.w}
    (laws₁ : KeyLaws hash₁) (laws₂ : KeyLaws hash₂) (rel₁ : c₁.checked = false)
    (rel₂ : c₂.checked = false) (ts₁ : List (Trie c₁ K V)) (ts₂ : List (Trie c₂ K V)) (ms : List (AMap K V))
    (h₁ : Pointwise (Rep hash₁ c₁.levels (fun _ => True)) ts₁ ms)
    (h₂ : Pointwise (Rep hash₂ c₂.levels (fun _ => True)) ts₂ ms) (ops : List (Op K V)) :
    ∃ os₁ vs₁ os₂ vs₂, Trie.run hash₁ ts₁ ops = .ok (os₁, vs₁) ∧
      Trie.run hash₂ ts₂ ops = .ok (os₂, vs₂) ∧ Pointwise Out.Same os₁ os₂ := by
  haveI := laws₁.equiv
  obtain ⟨os1, vs1, a1, a2, _⟩ := run_spec c₁.levels_pos c₁.levels_within laws₁.hash
    (fun k1 k2 _ _ ag => ag.eq c₁.levels_cover) (.inl rel₁) ops (fun op _ => keyIn_true op) _ _ h₁
  obtain ⟨os2, vs2, b1, b2, _⟩ := run_spec c₂.levels_pos c₂.levels_within laws₂.hash
    (fun k1 k2 _ _ ag => ag.eq c₂.levels_cover) (.inl rel₂) ops (fun op _ => keyIn_true op) _ _ h₂
  exact ⟨_, _, _, _, a1, b1, a2.same_trans b2⟩

/-- C39: two maps that answer every `find` alike - built in different ways, even with different hash
    functions and branching factors - give the same answers to every further history. -/
theorem C39_interchangeable {c₁ c₂ : Cfg} {hash₁ : K → BitVec c₁.w} {hash₂ : K → BitVec c₂.w}
    (rel₁ : c₁.checked = false) (rel₂ : c₂.checked = false)
    {t₁ : Trie c₁ K V} {t₂ : Trie c₂ K V} (h₁ : Reach c₁ hash₁ t₁) (h₂ : Reach c₂ hash₂ t₂)
    (alike : ∀ k, t₁.find hash₁ k = t₂.find hash₂ k) (ops : List (Op K V)) :
    ∃ os₁ vs₁ os₂ vs₂, Trie.run hash₁ [t₁] ops = .ok (os₁, vs₁) ∧
      Trie.run hash₂ [t₂] ops = .ok (os₂, vs₂) ∧ Pointwise Out.Same os₁ os₂ := by
  have hp : t₂.visit.Perm t₁.visit := by
    refine perm_of_find h₁.laws h₂.distinct h₁.distinct ?_
    intro k
    have := alike k
    rw [h₁.find, h₂.find] at this
    injection this with this
    exact this.symm
  exact run_pair h₁.laws h₂.laws rel₁ rel₂ [t₁] [t₂] [t₁.visit] ⟨rep_of_reach h₁, trivial⟩
    ⟨⟨h₂.valid, hp, fun _ _ => trivial⟩, trivial⟩ ops

-- the six example entries inserted in both orders
example : ∃ t₁ t₂ : Trie Ex.c8 Ex.Tk Nat, Reach Ex.c8 Ex.exHash t₁ ∧ Reach Ex.c8 Ex.exHash t₂ ∧
    (∀ k, t₁.find Ex.exHash k = t₂.find Ex.exHash k) ∧ t₁.size = 6 := by
  have r0 : Reach Ex.c8 Ex.exHash (Trie.new Ex.c8 : Trie Ex.c8 Ex.Tk Nat) := .new Ex.exLaws
  obtain ⟨t₁, h₁⟩ := Res.isOk_iff.1 (C32_insertion_returns r0 rfl true Ex.entries)
  obtain ⟨t₂, h₂⟩ := Res.isOk_iff.1 (C32_insertion_returns r0 rfl true Ex.entries.reverse)
  have := C32_insertion_order r0 Ex.entries Ex.entries.reverse (List.reverse_perm _).symm
    (by decide) (fun e _ => (C01_new_empty Ex.exLaws).2.2 e.1 |>.1) true true h₁ h₂
  exact ⟨t₁, t₂, Reach.insertMany r0 h₁, Reach.insertMany r0 h₂, this.1, this.2.2⟩

end HT
