import Verif.JointExamples
import Verif.TwtTotal
import Mathlib.Data.Multiset.AddSub
/-!
# Property C34: reductions of the joint operations

`jointCases` (`Verif/JointSpec.lean`) lists, for two maps' entries, each key once: as an entry of the left
map only, of the right map only, or as the pair of entries of both.  `.red` is the contribution of the
operation consulted for a case, `CMon` says that `reduce` is commutative and associative with identity
`e`, `Neutral` that the operations are closures (or bulk operations contributing `e`).
-/
namespace HT

variable {K V L W S X R : Type} [BEq K] [BEq L] [BEq S] {c : Cfg} {x : Cross c K L}

omit [BEq S] in
/-- C34 for `transform_with_transmuted`. -/
theorem C34_transform_with_transmuted (laws : CrossLaws x) {t : Trie c K V} (ht : Reach c x.hash t)
    {u : Trie c L W} (hu : Reach c x.hash' u) {ops : TwmOps K V L W R} (con : ops.Contract x)
    {reduce : R → R → R} {e : R} (mon : CMon reduce e) (neutral : ops.Neutral e) (par : Par)
    {t' : Trie c K V} {r : R} (hr : Trie.twm x reduce e ops par t u = .ok (t', r)) :
    r = total reduce e ((jointCases (fun a b => x.eq a.1 b.1) t.visit u.visit).map fun
      | .left a => (ops.left.closure a.1 a.2).red
      | .right b => (ops.right.closure b.1 b.2).red
      | .both a b => (ops.both.closure2 a.1 a.2 b.1 b.2).red) := by
  by_cases ns : NoStall x t.visit u.visit
  · obtain ⟨t1, r1, h1, _, _, h4⟩ := Trie.twm_spec laws con reduce e par ht.valid hu.valid ns
    rw [hr] at h1; injection h1 with h1; injection h1 with _ h1
    rw [h1, h4 mon neutral]
    exact congrArg (total reduce e) (List.map_congr_left fun p _ => by cases p <;> rfl)
  · rw [Trie.twm_stall laws con reduce e par ht.valid hu.valid ns] at hr; simp at hr

omit [BEq S] in
/-- C34 for `transmute_with_transformed`. -/
theorem C34_transmute_with_transformed (laws : CrossLaws x) {t : Trie c K V} (ht : Reach c x.hash t)
    {u : Trie c L W} (hu : Reach c x.hash' u) {ops : MwtOps K V L W R} (con : ops.Contract x)
    {reduce : R → R → R} {e : R} (mon : CMon reduce e) (neutral : ops.Neutral e) (par : Par)
    {t' : Trie c L W} {r : R} (hr : Trie.mwt x reduce e ops par t u = .ok (t', r)) :
    r = total reduce e ((jointCases (fun a b => x.eq a.1 b.1) t.visit u.visit).map fun
      | .left a => (ops.left.closure a.1 a.2).red
      | .right b => (ops.right.closure b.1 b.2).red
      | .both a b => (ops.both.closure2 a.1 a.2 b.1 b.2).red) := by
  by_cases ns : NoStall x.flip u.visit t.visit
  · obtain ⟨t1, r1, h1, _, _, h4⟩ := Trie.mwt_spec laws con reduce e par ht.valid hu.valid ns
    rw [hr] at h1; injection h1 with h1; injection h1 with _ h1
    rw [h1, h4 mon neutral]
    exact congrArg (total reduce e) (List.map_congr_left fun p _ => by cases p <;> rfl)
  · rw [Trie.mwt_stall laws con reduce e par ht.valid hu.valid ns] at hr; simp at hr

/-- C34 for `transmute_with_transmuted`. -/
theorem C34_transmute_with_transmuted (laws : CrossLaws x) {hashS : S → BitVec c.w} (lawsS : KeyLaws hashS)
    {t : Trie c K V} (ht : Reach c x.hash t) {u : Trie c L W} (hu : Reach c x.hash' u)
    {ops : MwmOps K V L W S X R} (con : ops.Contract x hashS) {reduce : R → R → R} {e : R}
    (mon : CMon reduce e) (neutral : ops.Neutral e)
    {t' : Trie c S X} {r : R} (hr : Trie.mwm x reduce e ops t u = .ok (t', r)) :
    r = total reduce e ((jointCases (fun a b => x.eq a.1 b.1) t.visit u.visit).map fun
      | .left a => (ops.left.closure a.1 a.2).red
      | .right b => (ops.right.closure b.1 b.2).red
      | .both a b => (ops.both.closure2 a.1 a.2 b.1 b.2).red) := by
  rcases Trie.mwm_total laws lawsS con reduce e ht.valid hu.valid with ⟨h, _⟩ | ⟨t1, r1, h1, _, _, h4⟩
  · rw [hr] at h; simp at h
  · rw [hr] at h1; injection h1 with h1; injection h1 with _ h1
    rw [h1, h4 mon neutral]
    exact congrArg (total reduce e) (List.map_congr_left fun p _ => by cases p <;> rfl)

omit [BEq L] [BEq S] in
/-- C34 for `transform_with_transformed`.  This holds for all answers, also for those with which the map returned is
    wrong (`C21_refuted`). -/
theorem C34_transform_with_transformed {hash : K → BitVec c.w} {t u : Trie c K V}
    (ht : Reach c hash t) (hu : Reach c hash u) {ops : TwtOps K V R}
    {reduce : R → R → R} {e : R} (mon : CMon reduce e) (neutral : ops.Neutral e) (par : Par)
    {t' : Trie c K V} {r : R} (hr : Trie.twt reduce e hash ops par t u = .ok (t', r)) :
    r = total reduce e ((jointCases (fun a b => a.1 == b.1) t.visit u.visit).map fun
      | .left a => (ops.left.closure a.1 a.2).red
      | .right b => (ops.right.closure b.1 b.2).red
      | .both a b => (ops.both.closure a.1 a.2 b.1 b.2).red) := by
  rw [Trie.twt_total_red ht.laws mon neutral par ht.valid hu.valid hr]
  exact congrArg (total reduce e) (List.map_congr_left fun p _ => by cases p <;> rfl)

/-! ### Each operation is consulted once per key -/

/-- Bags of cases. -/
theorem cmon_multiset (α : Type) : CMon (R := Multiset α) (· + ·) 0 where
  assoc := Multiset.add_assoc
  left := Multiset.zero_add
  right := fun a => Multiset.add_zero a
  comm := Multiset.add_comm

theorem total_singletons {α : Type} (l : List α) :
    total (R := Multiset α) (· + ·) 0 (l.map fun p => {p}) = (l : Multiset α) := by
  have : ∀ (l : List α) (m : Multiset α), (l.map fun p => ({p} : Multiset α)).foldl (· + ·) m = m + l := by
    intro l
    induction l with
    | nil => intro m; exact (Multiset.add_zero m).symm
    | cons p l ih =>
      intro m
      rw [List.map_cons, List.foldl_cons, ih, Multiset.add_assoc]
      rfl
  rw [total, this]
  exact Multiset.zero_add _

omit [BEq S] in
/-- C34: `transform_with_transmuted` consults exactly one closure for each key, exactly once, with the
    key's entries: when each answer contributes the record of its call, the result is the bag of the cases
    of the two maps. -/
theorem C34_transform_with_transmuted_calls (laws : CrossLaws x) {t : Trie c K V} (ht : Reach c x.hash t)
    {u : Trie c L W} (hu : Reach c x.hash' u)
    (both : K → V → L → W → MapTransformResult V (Multiset (Case (K × V) (L × W))))
    (left : K → V → MapTransformResult V (Multiset (Case (K × V) (L × W))))
    (right : L → W → MapTransmuteResult K V (Multiset (Case (K × V) (L × W))))
    (hb : ∀ k v l w, (both k v l w).red = {.both (k, v) (l, w)}) (hl : ∀ k v, (left k v).red = {.left (k, v)})
    (hrt : ∀ l w, (right l w).red = {.right (l, w)})
    (con : TwmOps.Contract x ⟨.generic both, .generic left, .generic right⟩) (par : Par)
    {t' : Trie c K V} {r : Multiset (Case (K × V) (L × W))}
    (hr : Trie.twm x (· + ·) 0 ⟨.generic both, .generic left, .generic right⟩ par t u = .ok (t', r)) :
    r = (jointCases (fun a b => x.eq a.1 b.1) t.visit u.visit : Multiset (Case (K × V) (L × W))) := by
  rw [C34_transform_with_transmuted laws ht hu con (cmon_multiset _) ⟨trivial, trivial, trivial⟩ par hr,
    ← total_singletons]
  refine congrArg (total _ _) (List.map_congr_left fun p _ => ?_)
  cases p
  · exact hl _ _
  · exact hrt _ _
  · exact hb _ _ _ _

omit [BEq S] in
/-- C34: the same for `transmute_with_transformed`. -/
theorem C34_transmute_with_transformed_calls (laws : CrossLaws x) {t : Trie c K V} (ht : Reach c x.hash t)
    {u : Trie c L W} (hu : Reach c x.hash' u)
    (both : K → V → L → W → MapTransformResult W (Multiset (Case (K × V) (L × W))))
    (left : K → V → MapTransmuteResult L W (Multiset (Case (K × V) (L × W))))
    (right : L → W → MapTransformResult W (Multiset (Case (K × V) (L × W))))
    (hb : ∀ k v l w, (both k v l w).red = {.both (k, v) (l, w)}) (hl : ∀ k v, (left k v).red = {.left (k, v)})
    (hrt : ∀ l w, (right l w).red = {.right (l, w)})
    (con : MwtOps.Contract x ⟨.generic both, .generic left, .generic right⟩) (par : Par)
    {t' : Trie c L W} {r : Multiset (Case (K × V) (L × W))}
    (hr : Trie.mwt x (· + ·) 0 ⟨.generic both, .generic left, .generic right⟩ par t u = .ok (t', r)) :
    r = (jointCases (fun a b => x.eq a.1 b.1) t.visit u.visit : Multiset (Case (K × V) (L × W))) := by
  rw [C34_transmute_with_transformed laws ht hu con (cmon_multiset _) ⟨trivial, trivial, trivial⟩ par hr,
    ← total_singletons]
  refine congrArg (total _ _) (List.map_congr_left fun p _ => ?_)
  cases p
  · exact hl _ _
  · exact hrt _ _
  · exact hb _ _ _ _

/-- C34: the same for `transmute_with_transmuted`. -/
theorem C34_transmute_with_transmuted_calls (laws : CrossLaws x) {hashS : S → BitVec c.w}
    (lawsS : KeyLaws hashS) {t : Trie c K V} (ht : Reach c x.hash t) {u : Trie c L W}
    (hu : Reach c x.hash' u)
    (both : K → V → L → W → MapTransmuteResult S X (Multiset (Case (K × V) (L × W))))
    (left : K → V → MapTransmuteResult S X (Multiset (Case (K × V) (L × W))))
    (right : L → W → MapTransmuteResult S X (Multiset (Case (K × V) (L × W))))
    (hb : ∀ k v l w, (both k v l w).red = {.both (k, v) (l, w)}) (hl : ∀ k v, (left k v).red = {.left (k, v)})
    (hrt : ∀ l w, (right l w).red = {.right (l, w)})
    (con : MwmOps.Contract x hashS ⟨.generic both, .generic left, .generic right⟩)
    {t' : Trie c S X} {r : Multiset (Case (K × V) (L × W))}
    (hr : Trie.mwm x (· + ·) 0 ⟨.generic both, .generic left, .generic right⟩ t u = .ok (t', r)) :
    r = (jointCases (fun a b => x.eq a.1 b.1) t.visit u.visit : Multiset (Case (K × V) (L × W))) := by
  rw [C34_transmute_with_transmuted laws lawsS ht hu con (cmon_multiset _) ⟨trivial, trivial, trivial⟩ hr,
    ← total_singletons]
  refine congrArg (total _ _) (List.map_congr_left fun p _ => ?_)
  cases p
  · exact hl _ _
  · exact hrt _ _
  · exact hb _ _ _ _

omit [BEq L] [BEq S] in
/-- C34: the same for `transform_with_transformed`. -/
theorem C34_transform_with_transformed_calls {hash : K → BitVec c.w} {t u : Trie c K V}
    (ht : Reach c hash t) (hu : Reach c hash u)
    (both : K → V → K → V → MapJointTransformResult V (Multiset (Case (K × V) (K × V))))
    (left right : K → V → MapTransformResult V (Multiset (Case (K × V) (K × V))))
    (hb : ∀ k v l w, (both k v l w).red = {.both (k, v) (l, w)}) (hl : ∀ k v, (left k v).red = {.left (k, v)})
    (hrt : ∀ k v, (right k v).red = {.right (k, v)})
    (par : Par)
    {t' : Trie c K V} {r : Multiset (Case (K × V) (K × V))}
    (hr : Trie.twt (· + ·) 0 hash ⟨.generic both false, .generic left, .generic right⟩ par t u = .ok (t', r)) :
    r = (jointCases (fun a b => a.1 == b.1) t.visit u.visit : Multiset (Case (K × V) (K × V))) := by
  rw [C34_transform_with_transformed ht hu
    (ops := ⟨.generic both false, .generic left, .generic right⟩) (cmon_multiset _) ⟨trivial, trivial, trivial⟩ par hr,
    ← total_singletons]
  refine congrArg (total _ _) (List.map_congr_left fun p _ => ?_)
  cases p
  · exact hl _ _
  · exact hrt _ _
  · exact hb _ _ _ _

/-- The cases of the example maps: two keys in both maps, the others on one side. -/
example : ∃ (t : Trie Ex.c8 Ex.Tk Nat) (u : Trie Ex.c8 Ex.Num Nat), Reach Ex.c8 Ex.cross.hash t ∧
    Reach Ex.c8 Ex.cross.hash' u ∧
    decide ((jointCases (fun a b => Ex.cross.eq a.1 b.1) t.visit u.visit).length = 10 ∧
      ((jointCases (fun a b => Ex.cross.eq a.1 b.1) t.visit u.visit).filterMap fun
        | .both a b => some (a.2 + b.2)
        | _ => none).length = 2) = true :=
  exists_reach2 Ex.exLaws Ex.numLaws Ex.entries Ex.rightNum _ (by decide +kernel)

/-- A call of `transform_with_transformed` that returns a wrong map (key 1 is still there, cf. `C21_refuted`) and the
    right reduction. -/
example : ∃ t u : Trie Ex.c8 Ex.Tk Nat, Reach Ex.c8 Ex.exHash t ∧ Reach Ex.c8 Ex.exHash u ∧
    ((Trie.twt (R := Nat) (· + ·) 0 Ex.exHash
      ⟨.generic (fun _ v _ w => .unchangedL (v * w)) false,
        .generic (fun k v => if k.id = 2 then .unchanged v else .removed v),
        .generic fun _ v => .unchanged v⟩ .sequential t u).test fun (y : Trie Ex.c8 Ex.Tk Nat × Nat) =>
      decide (y.2 = 321) && decide (y.1.find Ex.exHash ⟨1, 0⟩ = .ok (some (⟨1, 0⟩, 1)))) = true :=
  exists_reach2 (c := Ex.c8) Ex.exLaws Ex.exLaws [(⟨1, 0⟩, 1), (⟨2, 0⟩, 20)] [(⟨3, 1⟩, 300)] _ (by decide +kernel)

/-- Operations that record their calls and abide by the contract. -/
example : TwmOps.Contract (R := Multiset (Case (Ex.Tk × Nat) (Ex.Num × Nat))) Ex.cross
    ⟨.generic fun k v l w => .unchanged {.both (k, v) (l, w)}, .generic fun k v => .removed {.left (k, v)},
      .generic fun l w => .transmuted ⟨l.n, 7⟩ w {.right (l, w)}⟩ := by
  intro l w k v r h
  simp only [MapTransmute.closure, MapTransmuteResult.transmuted.injEq] at h
  rw [← h.1]; simp [Ex.cross]

/-- Sums are a commutative monoid. -/
example : CMon (R := Nat) (· + ·) 0 := { assoc := Nat.add_assoc, left := Nat.zero_add, right := Nat.add_zero, comm := Nat.add_comm }

end HT
