import Verif.VisitLemmas
import Verif.Props.Histories
import Verif.JointExamples
/-!
# Property C62: the order of `visit`

`HashBefore`, `HashSorted`, `Arranged` are in `Verif/VisitSpec.lean`; they speak of hashes only, not of nodes.
-/
namespace HT

variable {K V : Type} [BEq K] {c : Cfg} {hash : K → BitVec c.w}

/-- C62: every map, however it was made, is visited in the order of the hashes of its keys (compared group of `b` bits
    by group, the least significant group first). -/
theorem C62_sorted {t : Trie c K V} (h : Reach c hash t) : HashSorted hash t.visit :=
  Trie.visit_sorted h.valid

/-- C62: different hashes are comparable, in one way only; so the order of entries of different hash is fixed. -/
theorem C62_hash_order (h h' : BitVec c.w) :
    (h ≠ h' → HashBefore h h' ∨ HashBefore h' h) ∧ ¬ (HashBefore h h' ∧ HashBefore h' h) ∧ ¬ HashBefore h h ∧
      (∀ h'', HashBefore h h' → HashBefore h' h'' → HashBefore h h'') :=
  ⟨HashBefore.total, fun ⟨a, b⟩ => a.asymm b, fun a => a.asymm a, fun _ => HashBefore.trans⟩

/-- C62: a successful insertion puts the new entry into the sequence of visited entries, from which the entry it
    displaces (if any) is taken out: after all entries of smaller hash and before all others, in particular before the
    other entries of the same hash.  Nothing else moves. -/
theorem C62_insert {t : Trie c K V} (h : Reach c hash t) (k : K) (v : V) (replace : Bool) {t' : Trie c K V}
    {ptr : K × V} {prev : Option (K × V)} (hr : t.insert hash k v replace = .ok (.ok (t', ptr, prev))) :
    ∃ l1 l2, t.visit.filter (fun e => !(e.1 == k)) = l1 ++ l2 ∧ t'.visit = l1 ++ (k, v) :: l2 ∧
      (∀ e ∈ l1, HashBefore (hash e.1) (hash k)) ∧
      (∀ e ∈ l2, hash k = hash e.1 ∨ HashBefore (hash k) (hash e.1)) := by
  have hs : HashSorted hash (t.visit.filter (fun e => !(e.1 == k))) := List.Pairwise.filter _ (C62_sorted h)
  obtain ⟨l1, l2, h1, h2, h3⟩ := hs.place (k, v)
  refine ⟨l1, l2, h1, ?_, h2, h3⟩
  have hg := Trie.insertQ_groups h.valid (h.query k) hr
  have ht' : Reach c hash t' := Reach.insert h (h.query k) (h.laws.refl k) hr
  rw [h1] at hg hs
  obtain ⟨s1, s2, s3⟩ := List.pairwise_append.1 hs
  refine (C62_sorted ht').unique ?_ (hg.trans ?_)
  · refine List.pairwise_append.2 ⟨s1, List.pairwise_cons.2 ⟨h3, s2⟩, ?_⟩
    intro a ha b hb
    rcases List.mem_cons.1 hb with hb | hb
    · rw [hb]; exact .inr (h2 a ha)
    · exact s3 a ha b hb
  · have : SameGroups hash (([(k, v)] ++ l1) ++ l2) ((l1 ++ [(k, v)]) ++ l2) := by
      refine SameGroups.append (SameGroups.swap fun a ha b hb e => ?_) (.refl _)
      rw [List.mem_singleton.1 ha] at e
      have := h2 b hb
      rw [← e] at this
      exact this.asymm this
    simpa using this

/-- C62: a removal takes the entry out of the sequence; nothing moves. -/
theorem C62_remove {t : Trie c K V} (h : Reach c hash t) (k : K) {t' : Trie c K V} {e : K × V}
    (hr : t.remove hash k = .ok (some (t', e))) : t'.visit = t.visit.filter (fun e => !(e.1 == k)) := by
  rcases h.removeQ (h.query k) with ⟨r, h1, g⟩ | ⟨_, h1⟩
  · rw [show t.removeQ (· == k) (hash k) = t.remove hash k from rfl, hr] at h1
    injection h1 with h1; subst h1
    cases g with
    | some _ _ _ _ g3 => exact g3
  · rw [show t.removeQ (· == k) (hash k) = t.remove hash k from rfl, hr] at h1; simp at h1

/-- C62: two maps with the same entries show the same sequence of hashes, however the maps were made; if moreover no two
    keys have the same hash, they are visited in the same order. -/
theorem C62_same_contents {t u : Trie c K V} (ht : Reach c hash t) (hu : Reach c hash u) (hp : t.visit.Perm u.visit) :
    t.visit.map (fun e => hash e.1) = u.visit.map (fun e => hash e.1) ∧
      ((t.visit.Pairwise fun a b => hash a.1 ≠ hash b.1) → t.visit = u.visit) :=
  ⟨(C62_sorted ht).hashes (C62_sorted hu) hp,
    fun hd => (C62_sorted ht).unique (C62_sorted hu) (SameGroups.of_perm hp hd)⟩

/-- C62: the exact answers of `visit` in a history of insertions and removals.  In the specification
    (`AMap.run`, `Verif/Spec.lean`) insertion puts an entry in front of the list and removal takes it out, so the list of
    a version is the list of its entries with the one inserted last first; `visit` shows that list, ordered by hash, with
    entries of equal hash in the order of the list (`Out.SameInOrder`, which for all other answers is equality). -/
theorem C62_history (laws : KeyLaws hash) (ops : List (Op K V)) :
    (c.checked = false → (Trie.run hash [Trie.new c] ops).isOk) ∧
    ∀ os vs', Trie.run hash [Trie.new c] ops = .ok (os, vs') →
      Pointwise (Out.SameInOrder hash) os (AMap.run [[]] ops).1 ∧
      Pointwise (fun t m => Arranged hash t.visit m) vs' (AMap.run [[]] ops).2 := by
  refine ⟨fun rel => ?_, fun os vs' h => ?_⟩
  · obtain ⟨os, vs', h, _⟩ := C09_from_new laws rel ops
    rw [h]; trivial
  · obtain ⟨h2, h3⟩ := run_order laws ops [Trie.new c] [[]] ⟨⟨rep_of_reach (.new laws), .refl _⟩, trivial⟩ h
    exact ⟨h2, h3.imp fun t m h => ⟨Trie.visit_sorted h.rep.valid, h.groups⟩⟩

/-- C62: `Arranged` leaves no freedom: a list has one arrangement. -/
theorem C62_arranged_unique {l l' m : List (K × V)} (h : Arranged hash l m) (h' : Arranged hash l' m) : l = l' :=
  h.unique h'

/-- The order of insertion is visible among keys of equal hash: with keys of equal hash, two maps with the same entries
    need not be visited in the same order (so the second part of `C62_same_contents` needs its hypothesis). -/
theorem C62_collisions_show : ∃ t u : Trie Ex.c8 Ex.Tk Nat, Reach Ex.c8 Ex.exHash t ∧ Reach Ex.c8 Ex.exHash u ∧
    t.visit.Perm u.visit ∧ t.visit ≠ u.visit := by
  obtain ⟨t, ht, h1⟩ := exists_reach Ex.exLaws [(⟨5, 0⟩, 1), (⟨7, 0⟩, 2)]
    (fun t => decide (t.visit = [(⟨7, 0⟩, 2), (⟨5, 0⟩, 1)])) (by decide +kernel)
  obtain ⟨u, hu, h2⟩ := exists_reach Ex.exLaws [(⟨7, 0⟩, 2), (⟨5, 0⟩, 1)]
    (fun t => decide (t.visit = [(⟨5, 0⟩, 1), (⟨7, 0⟩, 2)])) (by decide +kernel)
  have h1 := of_decide_eq_true h1
  have h2 := of_decide_eq_true h2
  refine ⟨t, u, ht, hu, ?_, ?_⟩
  · rw [h1, h2]; exact .swap ..
  · rw [h1, h2]; decide +kernel

-- six entries, three of equal hash, some that part only at a deep level; both calls succeed
example : ∃ t : Trie Ex.c8 Ex.Tk Nat, Reach Ex.c8 Ex.exHash t ∧ t.visit.length = 6 ∧
    (∃ r, t.insert Ex.exHash ⟨7, 1⟩ 53 true = .ok (.ok r)) ∧ ∃ r, t.remove Ex.exHash ⟨5, 0⟩ = .ok (some r) := by
  obtain ⟨t, ht, h⟩ := exists_reach Ex.exLaws Ex.entries
    (fun t => decide (t.visit.length = 6) &&
      ((t.insert Ex.exHash ⟨7, 1⟩ 53 true).test fun r => match r with | .ok _ => true | _ => false) &&
      (t.remove Ex.exHash ⟨5, 0⟩).test Option.isSome) (by decide +kernel)
  simp only [Bool.and_eq_true, Res.test_iff, decide_eq_true_eq] at h
  obtain ⟨⟨h1, r, h2, h3⟩, r', h4, h5⟩ := h
  refine ⟨t, ht, h1, ?_, ?_⟩
  · cases r with
    | ok r => exact ⟨r, h2⟩
    | error e => simp at h3
  · cases r' with
    | some r => exact ⟨r, h4⟩
    | none => simp at h5

-- the branching history of C09, with visits: version 3 holds 7 and 5 (equal hash) and 641
example : (match Trie.run Ex.exHash [Trie.new Ex.c8] (Ex.ops ++ [.visit 3, .visit 4, .visit 5]) with
    | .ok (os, _) => decide (os.drop 11 = [.visited [(⟨7, 0⟩, 52), (⟨5, 0⟩, 50), (⟨641, 0⟩, 51)],
        .visited [(⟨7, 1⟩, 53), (⟨5, 0⟩, 50), (⟨641, 0⟩, 51)], .visited [(⟨7, 1⟩, 53), (⟨641, 0⟩, 51)]])
    | _ => false) = true := by decide +kernel

end HT
