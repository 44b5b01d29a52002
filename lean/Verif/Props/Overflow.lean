import Verif.Crowd
import Verif.Reach
import Verif.Examples
/-!
# Property C48: exactly when a build with overflow checks panics

The specification is `Verif/CrowdSpec.lean`: `stem` and `Crowd.overflows` mention only the entries a map
holds and their hashes.  `c.b < c.w` holds of every instantiation of the crate (`b ≤ 7`, hash words have
at least 8 bits).
-/
namespace HT

variable {K V : Type} [BEq K] {c : Cfg} {hash : K → BitVec c.w}

/-- C48: with overflow checks, a history of `insert`, `remove`, `find`, `size` and `visit` calls (on any
    versions) panics exactly if the specification says that some call overflows; otherwise all answers
    are those of the finite map. -/
theorem C48_history_exact (laws : KeyLaws hash) (chk : c.checked = true) (hb : c.b < c.w)
    (ops : List (Op K V)) :
    (Crowd.run hash [[]] ops = none → Trie.run hash [Trie.new c] ops = .panic .shiftOverflow) ∧
      ∀ os', Crowd.run hash [[]] ops = some os' →
        os' = (AMap.run [[]] ops).1 ∧
        ∃ os vs, Trie.run hash [Trie.new c] ops = .ok (os, vs) ∧ Pointwise Out.Same os os' := by
  haveI := laws.equiv
  rcases Crowd.run_spec chk hb laws.hash ops [Trie.new c] [[]] ⟨CrowdRep.new hb, trivial⟩ with
    ⟨h1, h2⟩ | ⟨h1, os, ts, h2, h3, _⟩
  · refine ⟨fun _ => h2, fun os' h => ?_⟩
    rw [h1] at h; simp at h
  · refine ⟨fun h => ?_, fun os' h => ?_⟩
    · rw [h1] at h; simp at h
    · rw [h1] at h; injection h with h
      exact ⟨h.symm, os, ts, h2, h ▸ h3⟩

-- hashes 0 (keys 5, 7), 64 (key 641) and 1 (key 11): 0 and 64 have the same stem
example : Ex.c8d.checked = true ∧ Ex.c8d.b < Ex.c8d.w ∧
    (Crowd.run Ex.exHashd [([] : AMap Ex.Tk Nat)] [.insert 0 ⟨5, 0⟩ 50 false, .insert 1 ⟨641, 0⟩ 51 false,
      .insert 2 ⟨11, 0⟩ 52 false, .find 3 ⟨5, 0⟩, .remove 3 ⟨11, 0⟩, .remove 1 ⟨5, 0⟩]).isSome = true ∧
    (Crowd.run Ex.exHashd [([] : AMap Ex.Tk Nat)] [.insert 0 ⟨5, 0⟩ 50 false, .insert 1 ⟨641, 0⟩ 51 false,
      .remove 2 ⟨641, 0⟩]).isSome = false ∧
    (Crowd.run Ex.exHashd [([] : AMap Ex.Tk Nat)] [.insert 0 ⟨5, 0⟩ 50 false, .insert 1 ⟨641, 0⟩ 51 false,
      .insert 2 ⟨7, 0⟩ 3 false]).isSome = false := by decide +kernel

theorem Pointwise.mem_left {α β : Type} {R : α → β → Prop} {as : List α} {bs : List β}
    (h : Pointwise R as bs) {a : α} (ha : a ∈ as) : ∃ b ∈ bs, R a b := by
  induction as generalizing bs with
  | nil => simp at ha
  | cons x as ih => cases bs with
    | nil => exact h.elim
    | cons y bs =>
      rcases List.mem_cons.1 ha with rfl | ha
      · exact ⟨y, List.mem_cons_self .., h.1⟩
      · obtain ⟨b, hb, hr⟩ := ih h.2 ha
        exact ⟨b, List.mem_cons_of_mem _ hb, hr⟩

theorem Crowd.overflows_perm {m m' : AMap K V} (h : m.Perm m') (k : K) :
    Crowd.overflows hash m k = Crowd.overflows hash m' k := by
  have : ∀ p : K × V → Bool, m.any p = m'.any p := by
    intro p
    rw [Bool.eq_iff_iff, List.any_eq_true, List.any_eq_true]
    constructor
    · rintro ⟨e, he, hp⟩; exact ⟨e, h.mem_iff.1 he, hp⟩
    · rintro ⟨e, he, hp⟩; exact ⟨e, h.mem_iff.2 he, hp⟩
  rw [Crowd.overflows, Crowd.overflows, this, this]

/-- C48: the same for each single call, on every version obtained by such a history: `insert` and
    `remove` of `k` panic exactly if the map holds an entry with the hash of `k` and another one whose
    hash differs from it in the last group of bits only (`Crowd.overflows`); otherwise they return, and
    `find` always does. -/
theorem C48_call_exact (laws : KeyLaws hash) (chk : c.checked = true) (hb : c.b < c.w)
    (ops : List (Op K V)) {os : List (Out K V)} {vs : List (Trie c K V)}
    (hr : Trie.run hash [Trie.new c] ops = .ok (os, vs)) {t : Trie c K V} (ht : t ∈ vs) (k : K) :
    (Crowd.overflows hash t.visit k = true → t.remove hash k = .panic .shiftOverflow ∧
      ∀ v replace, t.insert hash k v replace = .panic .shiftOverflow) ∧
    (Crowd.overflows hash t.visit k = false → (t.remove hash k).isOk ∧
      ∀ v replace, (t.insert hash k v replace).isOk) ∧
    (t.find hash k).isOk := by
  haveI := laws.equiv
  rcases Crowd.run_spec chk hb laws.hash ops [Trie.new c] [[]] ⟨CrowdRep.new hb, trivial⟩ with
    ⟨h1, h2⟩ | ⟨h1, os, ts, h2, h3, h4⟩
  · rw [h2] at hr; simp at hr
  · rw [h2] at hr; injection hr with hr; injection hr with _ hr; subst hr
    obtain ⟨m, hm, rep⟩ := h4.mem_left ht
    have hi : ∀ v replace, Trie.step hash [t] (.insert 0 k v replace) =
        (t.insert hash k v replace >>= fun r => match r with
          | .error e => .ok (.occupied e, [t])
          | .ok (t', ptr, prev) => .ok (.inserted ptr prev, [t] ++ [t'])) := fun _ _ => rfl
    have hrm : Trie.step hash [t] (.remove 0 k) =
        (t.remove hash k >>= fun r => match r with
          | none => .ok (.notFound, [t])
          | some (t', e) => .ok (.removed e, [t] ++ [t'])) := rfl
    have pw : Pointwise (CrowdRep hash) [t] [m] := ⟨rep, trivial⟩
    rw [Crowd.overflows_perm rep.rep.perm]
    have si := fun v replace => Crowd.step_spec chk hb laws.hash [t] [m] pw (.insert 0 k v replace)
    have sr := Crowd.step_spec chk hb laws.hash [t] [m] pw (.remove 0 k)
    rw [hrm] at sr
    have e1 : Crowd.opOverflows hash [m] (.remove 0 k : Op K V) = Crowd.overflows hash m k := rfl
    have e2 : ∀ v replace, Crowd.opOverflows hash [m] (.insert 0 k v replace) = Crowd.overflows hash m k :=
      fun _ _ => rfl
    rw [e1] at sr
    refine ⟨fun ho => ⟨?_, fun v replace => ?_⟩, fun ho => ⟨?_, fun v replace => ?_⟩, ?_⟩
    · rcases sr with ⟨_, h⟩ | ⟨h, _⟩
      · rwa [Res.bind_panic_iff] at h
        intro r _; cases r <;> nofun
      · rw [ho] at h; simp at h
    · have si := si v replace
      rw [hi, e2] at si
      rcases si with ⟨_, h⟩ | ⟨h, _⟩
      · rwa [Res.bind_panic_iff] at h
        intro r _; cases r <;> nofun
      · rw [ho] at h; simp at h
    · rcases sr with ⟨h, _⟩ | ⟨_, _, _, h, _⟩
      · rw [ho] at h; simp at h
      · obtain ⟨r, h, _⟩ := Res.bind_eq_ok.1 h
        rw [h]; trivial
    · have si := si v replace
      rw [hi, e2] at si
      rcases si with ⟨h, _⟩ | ⟨_, _, _, h, _⟩
      · rw [ho] at h; simp at h
      · obtain ⟨r, h, _⟩ := Res.bind_eq_ok.1 h
        rw [h]; trivial
    · rw [Trie.find, Trie.findQ_eq c.levels_within rep.rep.valid (Query.ofKey hash laws.hash k)]
      trivial

/-- A map is obtained that has a key that cannot be removed, although it is there. -/
example : ∃ (os : List (Out Ex.Tk Nat)) (vs : List (Trie Ex.c8d Ex.Tk Nat)) (t : Trie Ex.c8d Ex.Tk Nat),
    Trie.run Ex.exHashd [Trie.new Ex.c8d]
      [.insert 0 ⟨5, 0⟩ 50 false, .insert 1 ⟨641, 0⟩ 51 false] = .ok (os, vs) ∧ t ∈ vs ∧
      Crowd.overflows Ex.exHashd t.visit ⟨5, 0⟩ = true ∧
      Crowd.overflows Ex.exHashd t.visit ⟨11, 0⟩ = false := by
  have h : (match Trie.run Ex.exHashd [Trie.new Ex.c8d]
      [.insert 0 ⟨5, 0⟩ 50 false, .insert 1 ⟨641, 0⟩ 51 false] with
    | .ok (_, vs) => match vs[2]? with
      | some (t : Trie Ex.c8d Ex.Tk Nat) => Crowd.overflows Ex.exHashd t.visit ⟨5, 0⟩ &&
          !Crowd.overflows Ex.exHashd t.visit ⟨11, 0⟩
      | none => false
    | _ => false) = true := by decide +kernel
  split at h
  · rename_i os vs hv
    split at h
    · rename_i t ht
      simp only [Bool.and_eq_true, Bool.not_eq_true'] at h
      exact ⟨os, vs, t, hv, List.mem_of_getElem? ht, h.1, h.2⟩
    · simp at h
  · simp at h

/-- C48, every map a program can hold (also those produced by the bulk and two-map functions), and
    lookup keys of any type: with overflow checks `insert` and `remove` do panic if the map holds an
    entry with the lookup key's hash and another one whose hash differs from it in the last group of bits
    only, and they panic only if the map holds an entry with the lookup key's hash. -/
theorem C48_call_bounds {t : Trie c K V} (h : Reach c hash t) (chk : c.checked = true)
    {q : K → Bool} {k : K} (hq : Query hash q (hash k)) (hqk : q k = true) :
    (Crowd.overflows hash t.visit k = true → t.removeQ q (hash k) = .panic .shiftOverflow ∧
      ∀ v replace, t.insertQ hash q (hash k) k v replace = .panic .shiftOverflow) ∧
    ((∀ e ∈ t.visit, hash e.1 ≠ hash k) → (t.removeQ q (hash k)).isOk ∧
      ∀ v replace, (t.insertQ hash q (hash k) k v replace).isOk) := by
  haveI := h.laws.equiv
  have hh := h.laws.hash
  have pr := Node.remove_panics chk (q := q) h.valid (fun e _ => Agree.zero _ _)
    (flagFor_flagAt (hash k) 0)
  have pi := fun v replace => Node.insert_panics chk hh v replace hq hqk h.valid
    (fun e _ => Agree.zero _ _) (flagFor_flagAt (hash k) 0)
  refine ⟨fun ho => ?_, fun hn => ?_⟩
  · have hd : Deep c (hash k) 0 t.root ∧ ∃ e ∈ t.root.visit, hash e.1 = hash k := by
      rw [Crowd.overflows, Bool.and_eq_true, List.any_eq_true, List.any_eq_true] at ho
      obtain ⟨⟨e1, h1, h2⟩, e2, h3, h4⟩ := ho
      rw [Bool.and_eq_true, beq_iff_eq, bne_iff_ne, stem_eq_iff] at h4
      rw [beq_iff_eq] at h2
      exact ⟨Node.WF.deep h.valid h3 h1 (by rw [h2]; exact h4.2) h4.1
        ((stem_eq_iff _ _).1 (by rw [h2])), e1, h1, h2⟩
    refine ⟨?_, fun v replace => ?_⟩
    · rw [Trie.removeQ, Flag.new_eq]
      simp only [Res.ok_bind, pr.2 hd]
      rfl
    · rw [Trie.insertQ, Flag.new_eq]
      simp only [Res.ok_bind, (pi v replace).2 hd]
      rfl
  · refine ⟨?_, fun v replace => ?_⟩
    · rcases Trie.removeQ_spec c.levels_pos c.levels_within hh h.valid hq with ⟨r, hr, _⟩ | ⟨_, _, hr⟩
      · rw [hr]; trivial
      · rw [Trie.removeQ, Flag.new_eq] at hr
        simp only [Res.ok_bind] at hr
        rw [Res.bind_panic_iff] at hr
        · obtain ⟨_, e, he, h2⟩ := pr.1 hr
          exact absurd h2 (hn e he)
        · intro r _; cases r <;> nofun
    · rcases Trie.insertQ_spec c.levels_within hh h.valid v replace hq hqk
        (fun e _ h => h.eq c.levels_cover) with ⟨r, hr, _⟩ | ⟨_, _, hr⟩
      · rw [hr]; trivial
      · rw [Trie.insertQ, Flag.new_eq] at hr
        simp only [Res.ok_bind] at hr
        rw [Res.bind_panic_iff] at hr
        · obtain ⟨_, e, he, h2⟩ := (pi v replace).1 hr
          exact absurd h2 (hn e he)
        · intro r _; cases r <;> nofun

-- a reachable map of a checked build, a key that overflows and one whose hash is not there
example : ∃ t : Trie Ex.c8d Ex.Tk Nat, Reach Ex.c8d Ex.exHashd t ∧
    Crowd.overflows Ex.exHashd t.visit ⟨5, 0⟩ = true ∧
    ∀ e ∈ t.visit, Ex.exHashd e.1 ≠ Ex.exHashd ⟨11, 0⟩ := by
  obtain ⟨t, h1, h2⟩ := exists_reach Ex.exLawsd [(⟨5, 0⟩, 50), (⟨641, 0⟩, 51)]
    (fun t => Crowd.overflows Ex.exHashd t.visit ⟨5, 0⟩ &&
      t.visit.all (fun e => Ex.exHashd e.1 != Ex.exHashd ⟨11, 0⟩)) (by decide +kernel)
  simp only [Bool.and_eq_true, List.all_eq_true, bne_iff_ne] at h2
  exact ⟨t, h1, h2.1, h2.2⟩

end HT
