import Verif.Examples
/-!
# Properties C01-C15: single-map operations

`Reach c hash t` says that `t` is a map a program can hold (`Verif/Reach.lean`); the theorems are about
every configuration `c` (hash width, branching, kind of build) and every hash function.  Where the kind
of build matters the theorem says so: whatever a call returns is as specified in every build, and in a
build without overflow checks (`c.checked = false`) it does return.
-/
namespace HT

variable {K V : Type} [BEq K] {c : Cfg} {hash : K → BitVec c.w}

/-! ## C01 -/

/-- C01: a new map is empty. -/
theorem C01_new_empty (laws : KeyLaws hash) :
    (Trie.new c : Trie c K V).size = 0 ∧ (Trie.new c : Trie c K V).visit = [] ∧
      ∀ k : K, (Trie.new c : Trie c K V).find hash k = .ok none ∧
        (Trie.new c : Trie c K V).remove hash k = .ok none := by
  refine ⟨rfl, rfl, fun k => ⟨?_, ?_⟩⟩
  · rw [(Reach.new laws).find k]; rfl
  · have hz : (0#c.n).getLsbD (chunk c (hash k) 0) = false := by simp
    have hb : bitIndex (0#c.n) (bitAt c.n (chunk c (hash k) 0)) = .error .notFound := by
      rw [bitIndex_bitAt _ (chunk_lt _ _), hz]; rfl
    simp [Trie.remove, Trie.removeQ, Flag.new_eq, Trie.new, Node.default, Node.ofBia, Bia.default,
      Node.remove, Bia.at', flagAt, hb, bind, Except.bind, Res.bind]

example : KeyLaws Ex.exHash := Ex.exLaws

/-! ## C02 -/

/-- C02: inserting a fresh key. -/
theorem C02_insert_fresh {t : Trie c K V} (h : Reach c hash t) (k : K) (v : V) (replace : Bool)
    (absent : t.find hash k = .ok none) :
    (c.checked = false → (t.insert hash k v replace).isOk) ∧
    ∀ r, t.insert hash k v replace = .ok r →
      ∃ t' ptr, r = .ok (t', ptr, none) ∧
        t'.find hash k = .ok (some (k, v)) ∧
        (∀ k', (k' == k) = false → t'.find hash k' = t.find hash k') ∧
        t'.size = t.size + 1 := by
  have e0 := h.find k
  rw [absent] at e0
  injection e0 with e0
  rcases h.insertQ v replace (h.query k) (h.laws.refl k) with ⟨r, hr, good⟩ | ⟨hc, hp⟩
  · have hr' : t.insert hash k v replace = .ok r := hr
    rw [hr']
    refine ⟨fun _ => trivial, ?_⟩
    intro r' hrr; injection hrr with hrr; subst hrr
    cases good with
    | err e h1 h2 => rw [← e0] at h2; simp at h2
    | ok t' prev h1 h2 h3 h4 =>
      have hp : prev = none := by rw [h1, ← e0]
      subst hp
      have ht' : Reach c hash t' := Reach.insert h (h.query k) (h.laws.refl k) hr
      rw [filter_not_of_find?_none e0.symm] at h4
      refine ⟨t', _, rfl, ?_, ?_, ?_⟩
      · rw [ht'.find, (h.query k).no_other ht'.distinct |>.2 ⟨h4.mem_iff.2 (List.mem_cons_self ..), h.laws.refl k⟩]
      · intro k' hk'
        haveI := h.laws.equiv
        rw [ht'.find, h.find]
        have hd := ht'.distinct.perm h4
        rw [find?_perm (h.query k') ht'.distinct hd h4, List.find?_cons]
        have : (k == k') = false := by rw [BEq.comm]; exact hk'
        simp [this]
      · rw [ht'.size, h.size, h4.length_eq]; rfl
  · have hp' : t.insert hash k v replace = .panic .shiftOverflow := hp
    rw [hp']
    refine ⟨fun h => by rw [h] at hc; simp at hc, ?_⟩
    intro r hr; simp at hr

example : ∃ t : Trie Ex.c8 Ex.Tk Nat, Reach Ex.c8 Ex.exHash t ∧ t.find Ex.exHash ⟨9, 1⟩ = .ok none ∧ t.size = 6 := by
  simpa using exists_reach Ex.exLaws Ex.entries
    (fun t => decide (t.find Ex.exHash ⟨9, 1⟩ = .ok none) && decide (t.size = 6)) (by decide +kernel)

/-! ## C03 -/

/-- C03: inserting a present key without replacement is refused with the stored entry. -/
theorem C03_insert_refused {t : Trie c K V} (h : Reach c hash t) (k : K) (v : V) (e : K × V)
    (present : t.find hash k = .ok (some e)) :
    (c.checked = false → (t.insert hash k v false).isOk) ∧
    ∀ r, t.insert hash k v false = .ok r → r = .error e := by
  have e0 := h.find k
  rw [present] at e0
  injection e0 with e0
  rcases h.insertQ v false (h.query k) (h.laws.refl k) with ⟨r, hr, good⟩ | ⟨hc, hp⟩
  · have hr' : t.insert hash k v false = .ok r := hr
    rw [hr']
    refine ⟨fun _ => trivial, ?_⟩
    intro r' hrr; injection hrr with hrr; subst hrr
    cases good with
    | err e h1 h2 => rw [← e0] at h2; injection h2 with h2; rw [h2]
    | ok t' prev h1 h2 h3 h4 =>
      rw [← e0] at h1
      rw [h2 rfl] at h1; simp at h1
  · have hp' : t.insert hash k v false = .panic .shiftOverflow := hp
    rw [hp']
    refine ⟨fun h => by rw [h] at hc; simp at hc, ?_⟩
    intro r hr; simp at hr

example : ∃ t : Trie Ex.c8 Ex.Tk Nat, Reach Ex.c8 Ex.exHash t ∧
    t.find Ex.exHash ⟨7, 1⟩ = .ok (some (⟨7, 0⟩, 52)) := by
  simpa using exists_reach Ex.exLaws Ex.entries
    (fun t => decide (t.find Ex.exHash ⟨7, 1⟩ = .ok (some (⟨7, 0⟩, 52)))) (by decide +kernel)

/-! ## C04 -/

/-- C04: inserting a present key with replacement. -/
theorem C04_insert_replace {t : Trie c K V} (h : Reach c hash t) (k : K) (v : V) (e : K × V)
    (present : t.find hash k = .ok (some e)) :
    (c.checked = false → (t.insert hash k v true).isOk) ∧
    ∀ r, t.insert hash k v true = .ok r →
      ∃ t' ptr, r = .ok (t', ptr, some e) ∧
        t'.find hash k = .ok (some (k, v)) ∧
        (∀ k', (k' == k) = false → t'.find hash k' = t.find hash k') ∧
        t'.size = t.size := by
  have e0 := h.find k
  rw [present] at e0
  injection e0 with e0
  rcases h.insertQ v true (h.query k) (h.laws.refl k) with ⟨r, hr, good⟩ | ⟨hc, hp⟩
  · have hr' : t.insert hash k v true = .ok r := hr
    rw [hr']
    refine ⟨fun _ => trivial, ?_⟩
    intro r' hrr; injection hrr with hrr; subst hrr
    cases good with
    | err e h1 h2 => simp at h1
    | ok t' prev h1 h2 h3 h4 =>
      have hp : prev = some e := by rw [h1, ← e0]
      subst hp
      have ht' : Reach c hash t' := Reach.insert h (h.query k) (h.laws.refl k) hr
      refine ⟨t', _, rfl, ?_, ?_, ?_⟩
      · rw [ht'.find, (h.query k).no_other ht'.distinct |>.2 ⟨h4.mem_iff.2 (List.mem_cons_self ..), h.laws.refl k⟩]
      · intro k' hk'
        haveI := h.laws.equiv
        rw [ht'.find, h.find]
        have hd := ht'.distinct.perm h4
        rw [find?_perm (h.query k') ht'.distinct hd h4, List.find?_cons]
        have hkk : (k == k') = false := by rw [BEq.comm]; exact hk'
        simp only [hkk]
        rw [List.find?_filter]
        congr 2
        funext a
        cases hak : a.1 == k' with
        | false => simp
        | true =>
          cases hak' : a.1 == k with
          | false => simp
          | true =>
            have h1 : (k == a.1) = true := by rw [BEq.comm]; exact hak'
            rw [BEq.trans h1 hak] at hkk; simp at hkk
      · rw [ht'.size, h.size, h4.length_eq, List.length_cons]
        exact length_filter_query (h.query k) h.distinct e0.symm
  · have hp' : t.insert hash k v true = .panic .shiftOverflow := hp
    rw [hp']
    refine ⟨fun h => by rw [h] at hc; simp at hc, ?_⟩
    intro r hr; simp at hr

-- the replacing key ⟨7, 1⟩ is equal to, but distinguishable from, the stored key ⟨7, 0⟩
example : ∃ t : Trie Ex.c8 Ex.Tk Nat, Reach Ex.c8 Ex.exHash t ∧
    t.find Ex.exHash ⟨7, 1⟩ = .ok (some (⟨7, 0⟩, 52)) := by
  simpa using exists_reach Ex.exLaws Ex.entries
    (fun t => decide (t.find Ex.exHash ⟨7, 1⟩ = .ok (some (⟨7, 0⟩, 52)))) (by decide +kernel)

/-! ## C05 -/

/-- C05: the pointers returned by a successful insert denote the entry the new map stores. -/
theorem C05_insert_pointers {t t' : Trie c K V} (h : Reach c hash t) (k : K) (v : V) (replace : Bool)
    (ptr : K × V) (prev : Option (K × V))
    (hr : t.insert hash k v replace = .ok (.ok (t', ptr, prev))) :
    t'.find hash k = .ok (some ptr) ∧ ptr = (k, v) ∧ ptr ∈ t'.visit := by
  have ht' : Reach c hash t' := Reach.insert h (h.query k) (h.laws.refl k) hr
  rcases h.insertQ v replace (h.query k) (h.laws.refl k) with ⟨r, hr', good⟩ | ⟨hc, hp⟩
  · have e : Res.ok (Except.ok (t', ptr, prev)) = Res.ok r := hr.symm.trans hr'
    injection e with e
    subst e
    cases good with
    | ok _ _ h1 h2 h3 h4 =>
      have hm : (k, v) ∈ t'.visit := h4.mem_iff.2 (List.mem_cons_self ..)
      refine ⟨?_, rfl, hm⟩
      rw [ht'.find, (h.query k).no_other ht'.distinct |>.2 ⟨hm, h.laws.refl k⟩]
  · have e := hr.symm.trans hp; simp at e

example : ∃ t : Trie Ex.c8 Ex.Tk Nat, Reach Ex.c8 Ex.exHash t ∧
    (match t.insert Ex.exHash ⟨7, 1⟩ 99 true with
      | .ok (.ok (_, ptr, prev)) => ptr = (⟨7, 1⟩, 99) ∧ prev = some (⟨7, 0⟩, 52)
      | _ => False) := by
  obtain ⟨t, h1, h2⟩ := exists_reach Ex.exLaws Ex.entries
    (fun t => match t.insert Ex.exHash ⟨7, 1⟩ 99 true with
      | .ok (.ok (_, ptr, prev)) => decide (ptr = (⟨7, 1⟩, 99)) && decide (prev = some (⟨7, 0⟩, 52))
      | _ => false) (by decide +kernel)
  refine ⟨t, h1, ?_⟩
  split at h2 <;> simp_all

/-! ## C06 -/

/-- C06: removing a present key. -/
theorem C06_remove_present {t : Trie c K V} (h : Reach c hash t) (k : K) (e : K × V)
    (present : t.find hash k = .ok (some e)) :
    (c.checked = false → (t.remove hash k).isOk) ∧
    ∀ r, t.remove hash k = .ok r →
      ∃ t', r = some (t', e) ∧
        t'.find hash k = .ok none ∧
        (∀ k', (k' == k) = false → t'.find hash k' = t.find hash k') ∧
        t'.size + 1 = t.size := by
  have e0 := h.find k
  rw [present] at e0
  injection e0 with e0
  rcases h.removeQ (h.query k) with ⟨r, hr, good⟩ | ⟨hc, hp⟩
  · have hr' : t.remove hash k = .ok r := hr
    rw [hr']
    refine ⟨fun _ => trivial, ?_⟩
    intro r' hrr; injection hrr with hrr; subst hrr
    cases good with
    | none h1 => rw [← e0] at h1; simp at h1
    | some t' e' h1 h2 h3 =>
      have ht' : Reach c hash t' := Reach.remove h (h.query k) hr
      rw [← e0] at h1; injection h1 with h1; subst h1
      refine ⟨t', rfl, ?_, ?_, ?_⟩
      · rw [ht'.find, h3, List.find?_eq_none.2]
        intro x hx
        have := (List.mem_filter.1 hx).2
        simpa using this
      · intro k' hk'
        haveI := h.laws.equiv
        rw [ht'.find, h.find, h3, List.find?_filter]
        congr 2
        funext a
        cases hak : a.1 == k' with
        | false => simp
        | true =>
          cases hak' : a.1 == k with
          | false => simp
          | true =>
            have h1 : (k' == a.1) = true := by rw [BEq.comm]; exact hak
            rw [BEq.trans h1 hak'] at hk'; simp at hk'
      · rw [ht'.size, h.size, h3]
        exact length_filter_query (h.query k) h.distinct e0.symm
  · have hp' : t.remove hash k = .panic .shiftOverflow := hp
    rw [hp']
    refine ⟨fun h => by rw [h] at hc; simp at hc, ?_⟩
    intro r hr; simp at hr

example : ∃ t : Trie Ex.c8 Ex.Tk Nat, Reach Ex.c8 Ex.exHash t ∧
    t.find Ex.exHash ⟨641, 1⟩ = .ok (some (⟨641, 0⟩, 51)) := by
  simpa using exists_reach Ex.exLaws Ex.entries
    (fun t => decide (t.find Ex.exHash ⟨641, 1⟩ = .ok (some (⟨641, 0⟩, 51)))) (by decide +kernel)

/-! ## C07 -/

/-- C07: removing an absent key. -/
theorem C07_remove_absent {t : Trie c K V} (h : Reach c hash t) (k : K)
    (absent : t.find hash k = .ok none) :
    (c.checked = false → (t.remove hash k).isOk) ∧
    ∀ r, t.remove hash k = .ok r → r = none := by
  have e0 := h.find k
  rw [absent] at e0
  injection e0 with e0
  rcases h.removeQ (h.query k) with ⟨r, hr, good⟩ | ⟨hc, hp⟩
  · have hr' : t.remove hash k = .ok r := hr
    rw [hr']
    refine ⟨fun _ => trivial, ?_⟩
    intro r' hrr; injection hrr with hrr; subst hrr
    cases good with
    | none h1 => rfl
    | some t' e' h1 h2 h3 => rw [← e0] at h1; simp at h1
  · have hp' : t.remove hash k = .panic .shiftOverflow := hp
    rw [hp']
    refine ⟨fun h => by rw [h] at hc; simp at hc, ?_⟩
    intro r hr; simp at hr

example : ∃ t : Trie Ex.c8 Ex.Tk Nat, Reach Ex.c8 Ex.exHash t ∧ t.find Ex.exHash ⟨8, 1⟩ = .ok none ∧ t.size = 6 := by
  simpa using exists_reach Ex.exLaws Ex.entries
    (fun t => decide (t.find Ex.exHash ⟨8, 1⟩ = .ok none) && decide (t.size = 6)) (by decide +kernel)

/-! ## C08 -/

/-- C08: `size` is the number of entries `visit` reports, their keys are pairwise different, and they
    represent every key present: any list of pairwise different present keys has at most `size`
    members, and the visited keys are such a list with exactly `size` members. -/
theorem C08_size {t : Trie c K V} (h : Reach c hash t) :
    t.size = t.visit.length ∧ t.visit.Pairwise (fun a b => (a.1 == b.1) = false) ∧
    (∀ e ∈ t.visit, t.find hash e.1 = .ok (some e)) ∧
    ∀ ks : List K, ks.Pairwise (fun a b => (a == b) = false) →
      (∀ k ∈ ks, t.find hash k ≠ .ok none) → ks.length ≤ t.size := by
  refine ⟨h.size, h.distinct, ?_, ?_⟩
  · intro e he
    rw [h.find, (mem_iff_find h.laws h.distinct e).1 he]
  · intro ks hks hp
    rw [h.size]
    haveI := h.laws.equiv
    have gen : ∀ (l : List (K × V)) (ks : List K), ks.Pairwise (fun a b => (a == b) = false) →
        (∀ k ∈ ks, ∃ e ∈ l, (e.1 == k) = true) → ks.length ≤ l.length := by
      intro l ks
      induction ks generalizing l with
      | nil => intro _ _; exact Nat.zero_le _
      | cons k ks ih =>
        intro hpw hall
        obtain ⟨e, he, hek⟩ := hall k (List.mem_cons_self ..)
        obtain ⟨l1, l2, rfl⟩ := List.append_of_mem he
        have := ih (l1 ++ l2) (List.Pairwise.of_cons hpw) (by
          intro k' hk'
          obtain ⟨e', he', hek'⟩ := hall k' (List.mem_cons_of_mem _ hk')
          refine ⟨e', ?_, hek'⟩
          have hne := List.rel_of_pairwise_cons hpw hk'
          rcases List.mem_append.1 he' with h1 | h1
          · exact List.mem_append_left _ h1
          · rcases List.mem_cons.1 h1 with h1 | h1
            · subst h1
              have h2 : (k == e'.1) = true := by rw [BEq.comm]; exact hek
              rw [BEq.trans h2 hek'] at hne; simp at hne
            · exact List.mem_append_right _ h1)
        simp only [List.length_append, List.length_cons] at this ⊢
        omega
    apply gen _ _ hks
    intro k hk
    have := hp k hk
    rw [h.find] at this
    cases hf : t.visit.find? (fun e => e.1 == k) with
    | none => rw [hf] at this; exact absurd rfl this
    | some e => exact ⟨e, List.mem_of_find?_eq_some hf, by simpa using List.find?_some hf⟩

example : ∃ t : Trie Ex.c8 Ex.Tk Nat, Reach Ex.c8 Ex.exHash t ∧ t.size = 6 := by
  simpa using exists_reach Ex.exLaws Ex.entries (fun t => decide (t.size = 6)) (by decide +kernel)

/-! ## C11 -/

/-- C11: `visit` reports exactly the entries, each once. -/
theorem C11_visit {t : Trie c K V} (h : Reach c hash t) :
    (∀ e, e ∈ t.visit ↔ t.find hash e.1 = .ok (some e)) ∧ t.visit.Nodup ∧
      t.visit.Pairwise (fun a b => (a.1 == b.1) = false) := by
  refine ⟨?_, nodup_of_distinct h.laws h.distinct, h.distinct⟩
  intro e
  rw [h.find, mem_iff_find h.laws h.distinct]
  simp

example : ∃ t : Trie Ex.c8 Ex.Tk Nat, Reach Ex.c8 Ex.exHash t ∧ t.visit.length = 6 := by
  simpa using exists_reach Ex.exLaws Ex.entries (fun t => decide (t.visit.length = 6))
    (by decide +kernel)

/-! ## C15 -/

/-- C15: `find` returns normally on every map in both kinds of build. -/
theorem C15_find_total {t : Trie c K V} (h : Reach c hash t) :
    (∀ k, (t.find hash k).isOk) ∧ ∀ q hv, Query hash q hv → (t.findQ q hv).isOk := by
  refine ⟨fun k => ?_, fun q hv hq => ?_⟩
  · rw [h.find]; trivial
  · rw [h.findQ hq]; trivial

-- an overflow-checked build, a map with a branch node at the last hash chunk
example : ∃ t : Trie Ex.c8d Ex.Tk Nat, Reach Ex.c8d Ex.exHashd t ∧ t.size = 2 ∧
    t.remove Ex.exHashd ⟨5, 0⟩ = .panic .shiftOverflow := by
  obtain ⟨t, h1, h2⟩ := exists_reach Ex.exLawsd [(⟨5, 0⟩, 50), (⟨641, 0⟩, 51)]
    (fun t => decide (t.size = 2) && match t.remove Ex.exHashd ⟨5, 0⟩ with
      | .panic .shiftOverflow => true
      | _ => false) (by decide +kernel)
  refine ⟨t, h1, ?_⟩
  simp only [Bool.and_eq_true, decide_eq_true_eq] at h2
  refine ⟨h2.1, ?_⟩
  have := h2.2
  split at this <;> simp_all

end HT
