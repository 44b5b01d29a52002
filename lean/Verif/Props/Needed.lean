import Verif.TameFlip
import Verif.Props.Joint
/-!
# Property C21, exactly: the condition on the answers is sufficient and needed

`TwtOps.Right as bs l` (`Verif/JointSpec.lean`) says that the entries `l` are a right result of
`transform_with_transformed` for the entries `as` and `bs`.  `TwtOps.Tame` is the condition on the answers for
colliding keys; nothing else is assumed below.
-/
namespace HT

variable {K V R : Type} [BEq K] {c : Cfg} {hash : K → BitVec c.w}

/-- C21, part: if the answers are tame and `transform_with_transformed` returns, then the entries of the returned
    map are a right result: one allowed outcome for each key of either map, and nothing else. -/
theorem C21_right_partial {t u : Trie c K V} (ht : Reach c hash t) (hu : Reach c hash u) {ops : TwtOps K V R}
    (tame : ops.Tame hash t.visit u.visit) (reduce : R → R → R) (e : R) (par : Par) {t' : Trie c K V} {r : R}
    (hr : Trie.twt reduce e hash ops par t u = .ok (t', r)) : ops.Right t.visit u.visit t'.visit := by
  rcases Trie.twt_total ht.laws reduce e par ht.valid hu.valid tame with ⟨h, _⟩ | ⟨t1, r1, h1, _, ho, _⟩
  · rw [hr] at h; simp at h
  · rw [hr] at h1; injection h1 with h1; injection h1 with h1 _; subst h1
    exact ho

/-- The condition is needed, several keys against one: take any entries `as` and one entry `b`, all with the same
    hash, and answers that are not tame for them.  Then there are maps holding just these entries for which the
    call (in a release build) returns a map whose entries are not a right result. -/
theorem C21_needed_left (laws : KeyLaws hash) (release : c.checked = false)
    (both : K → V → K → V → MapJointTransformResult V R) (left right : K → V → MapTransformResult V R)
    (reduce : R → R → R) (e : R) (par : Par) {as : List (K × V)} {b : K × V} (hk : DistinctKeys as)
    (hh : ∀ a ∈ as, hash a.1 = hash b.1)
    (wild : ¬ TwtOps.TameOne ⟨.generic both false, .generic left, .generic right⟩ as [b]) :
    ∃ (t u t' : Trie c K V) (r : R), Reach c hash t ∧ Reach c hash u ∧ t.visit.Perm as ∧ u.visit = [b] ∧
      Trie.twt reduce e hash ⟨.generic both false, .generic left, .generic right⟩ par t u = .ok (t', r) ∧
      ¬ TwtOps.Right ⟨.generic both false, .generic left, .generic right⟩ t.visit u.visit t'.visit :=
  tameOne_needed laws release rfl reduce e par hk hh wild

/-- As above, one key against several. -/
theorem C21_needed_right (laws : KeyLaws hash) (release : c.checked = false)
    (both : K → V → K → V → MapJointTransformResult V R) (left right : K → V → MapTransformResult V R)
    (reduce : R → R → R) (e : R) (par : Par) {a : K × V} {bs : List (K × V)} (hk : DistinctKeys bs)
    (hh : ∀ b ∈ bs, hash b.1 = hash a.1)
    (wild : ¬ (TwtOps.flip ⟨.generic both false, .generic left, .generic right⟩).TameOne bs [a]) :
    ∃ (t u t' : Trie c K V) (r : R), Reach c hash t ∧ Reach c hash u ∧ t.visit = [a] ∧ u.visit.Perm bs ∧
      Trie.twt reduce e hash ⟨.generic both false, .generic left, .generic right⟩ par t u = .ok (t', r) ∧
      ¬ TwtOps.Right ⟨.generic both false, .generic left, .generic right⟩ t.visit u.visit t'.visit :=
  tameOne_needed_flip laws release rfl reduce e par hk hh wild

/-- As above, several keys against several: a single pair of different entries with equal keys that is answered
    `UnchangedR` is enough.  There are maps holding just these entries for which the call does not return a map
    whose entries are a right result: it loops, panics or returns a wrong map. -/
theorem C21_needed_both (laws : KeyLaws hash) (release : c.checked = false)
    (both : K → V → K → V → MapJointTransformResult V R) (left right : K → V → MapTransformResult V R)
    (reduce : R → R → R) (e : R) (par : Par) {as bs : List (K × V)} (hka : DistinctKeys as) (hkb : DistinctKeys bs)
    {h : BitVec c.w} (hha : ∀ a ∈ as, hash a.1 = h) (hhb : ∀ b ∈ bs, hash b.1 = h)
    (la : 2 ≤ as.length) (lb : 2 ≤ bs.length) {a b : K × V} (ha : a ∈ as) (hb : b ∈ bs) (hab : (a.1 == b.1) = true)
    (hne : a ≠ b) {r : R} (hr : both a.1 a.2 b.1 b.2 = .unchangedR r) :
    ∃ t u : Trie c K V, Reach c hash t ∧ Reach c hash u ∧ t.visit.Perm as ∧ u.visit = bs ∧ ∀ t' r,
      Trie.twt reduce e hash ⟨.generic both false, .generic left, .generic right⟩ par t u = .ok (t', r) →
      ¬ TwtOps.Right ⟨.generic both false, .generic left, .generic right⟩ t.visit u.visit t'.visit :=
  tameBoth_needed laws release reduce e par hka hkb hha hhb la lb ha hb hab hne hr

/-- As above, for a pair that is answered `UnchangedL`.  This needs maps whose lists are at different depths, such as
    one made by insertions and one that went through a transformation. -/
theorem C21_needed_both_flip (laws : KeyLaws hash) (release : c.checked = false)
    (both : K → V → K → V → MapJointTransformResult V R) (left right : K → V → MapTransformResult V R)
    (reduce : R → R → R) (e : R) (par : Par) {as bs : List (K × V)} (hka : DistinctKeys as) (hkb : DistinctKeys bs)
    {h : BitVec c.w} (hha : ∀ a ∈ as, hash a.1 = h) (hhb : ∀ b ∈ bs, hash b.1 = h)
    (la : 2 ≤ as.length) (lb : 2 ≤ bs.length) {a b : K × V} (ha : a ∈ as) (hb : b ∈ bs) (hab : (a.1 == b.1) = true)
    (hne : a ≠ b) {r : R} (hr : both a.1 a.2 b.1 b.2 = .unchangedL r) :
    ∃ t u : Trie c K V, Reach c hash t ∧ Reach c hash u ∧ t.visit = as ∧ u.visit.Perm bs ∧ ∀ t' r,
      Trie.twt reduce e hash ⟨.generic both false, .generic left, .generic right⟩ par t u = .ok (t', r) →
      ¬ TwtOps.Right ⟨.generic both false, .generic left, .generic right⟩ t.visit u.visit t'.visit :=
  tameBoth_needed_flip laws release reduce e par hka hkb hha hhb la lb ha hb hab hne hr

/-- Left: keys 1 and 2, right: key 3, all colliding.  Key 1 is removed, keys 2 and 3 are kept: not tame. -/
example : ¬ TwtOps.TameOne (K := Ex.Tk) (V := Nat) (R := Unit) ⟨.generic (fun _ _ _ _ => .unchangedL ()) false,
    .generic fun k _ => if k.id = 1 then .removed () else .unchanged (), .generic fun _ _ => .unchanged ()⟩
    [(⟨1, 0⟩, 1), (⟨2, 0⟩, 2)] [(⟨3, 1⟩, 3)] := by
  intro h
  rcases h.miss (⟨3, 1⟩, 3) (by simp) (by decide) () rfl with h | h
  · exact h (⟨2, 0⟩, 2) (by simp) () rfl
  · exact h (⟨1, 0⟩, 1) (by simp) () rfl

/-- The other hypotheses of `C21_needed_left` for these entries. -/
example : Ex.c8.checked = false ∧ KeyLaws Ex.exHash ∧
    DistinctKeys [((⟨1, 0⟩ : Ex.Tk), 1), (⟨2, 0⟩, 2)] ∧ Ex.exHash ⟨1, 0⟩ = Ex.exHash ⟨3, 1⟩ ∧
    Ex.exHash ⟨2, 0⟩ = Ex.exHash ⟨3, 1⟩ := by
  refine ⟨rfl, Ex.exLaws, ?_, by decide, by decide⟩
  simp only [DistinctKeys]; decide

/-- A pair for `C21_needed_both`: left 1 and 2, right 1 and 3, where the pair of 1s is answered `UnchangedR`. -/
example : ∃ t u : Trie Ex.c8 Ex.Tk Nat, Reach Ex.c8 Ex.exHash t ∧ Reach Ex.c8 Ex.exHash u ∧
    t.visit.Perm [(⟨1, 0⟩, 1), (⟨2, 0⟩, 2)] ∧ u.visit = [(⟨1, 1⟩, 5), (⟨3, 1⟩, 6)] ∧ ∀ t' r,
      Trie.twt (fun _ _ => ()) () Ex.exHash ⟨.generic (fun _ _ _ _ => .unchangedR ()) false,
        .generic fun _ _ => .removed (), .generic fun _ _ => .unchanged ()⟩ .sequential t u = .ok (t', r) →
      ¬ TwtOps.Right (R := Unit) ⟨.generic (fun _ _ _ _ => .unchangedR ()) false,
        .generic fun _ _ => .removed (), .generic fun _ _ => .unchanged ()⟩ t.visit u.visit t'.visit :=
  C21_needed_both (h := Ex.exHash ⟨1, 0⟩) Ex.exLaws rfl _ _ _ _ _ _ (by simp only [DistinctKeys]; decide) (by simp only [DistinctKeys]; decide)
    (by decide) (by decide) (by decide) (by decide) (a := (⟨1, 0⟩, 1)) (b := (⟨1, 1⟩, 5)) (by simp) (by simp)
    (by decide) (by decide) rfl

/-- The same pair for `C21_needed_both_flip`: the pair of 1s is answered `UnchangedL`. -/
example : ∃ t u : Trie Ex.c8 Ex.Tk Nat, Reach Ex.c8 Ex.exHash t ∧ Reach Ex.c8 Ex.exHash u ∧
    t.visit = [(⟨1, 0⟩, 1), (⟨2, 0⟩, 2)] ∧ u.visit.Perm [(⟨1, 1⟩, 5), (⟨3, 1⟩, 6)] ∧ ∀ t' r,
      Trie.twt (fun _ _ => ()) () Ex.exHash ⟨.generic (fun _ _ _ _ => .unchangedL ()) false,
        .generic fun _ _ => .removed (), .generic fun _ _ => .unchanged ()⟩ .sequential t u = .ok (t', r) →
      ¬ TwtOps.Right (R := Unit) ⟨.generic (fun _ _ _ _ => .unchangedL ()) false,
        .generic fun _ _ => .removed (), .generic fun _ _ => .unchanged ()⟩ t.visit u.visit t'.visit :=
  C21_needed_both_flip (h := Ex.exHash ⟨1, 0⟩) Ex.exLaws rfl _ _ _ _ _ _ (by simp only [DistinctKeys]; decide)
    (by simp only [DistinctKeys]; decide) (by decide) (by decide) (by decide) (by decide) (a := (⟨1, 0⟩, 1))
    (b := (⟨1, 1⟩, 5)) (by simp) (by simp) (by decide) (by decide) rfl

end HT
