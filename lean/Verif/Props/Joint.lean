import Verif.JointExamples
import Verif.JointClash
import Verif.JointVector
/-!
# Properties C21-C26, C34: the joint operations

`Trie.twm`, `Trie.mwt`, `Trie.mwm`, `Trie.twt` are `transform_with_transmuted`,
`transmute_with_transformed`, `transmute_with_transmuted` and `transform_with_transformed`.  The
vocabulary (`jointCases`, `.entry`, `.red`, `Contract`, `NoStall`, `Tame`) is in `Verif/JointSpec.lean` and
`Verif/BulkSpec.lean` and does not refer to nodes.
-/
namespace HT

variable {K V L W S X R : Type} [BEq K] [BEq L] [BEq S] {c : Cfg} {x : Cross c K L}

/-! ## C23: termination -/

/-- C23 is false: two maps of two and three entries, with ordinary operations, on which
    `transform_with_transmuted` (and the other joint operations) loop forever.  Left: two keys with one
    hash; right: three keys with that hash. -/
theorem C23_refuted :
    ∃ (t u : Trie Ex.c8 Ex.Tk Nat), Reach Ex.c8 Ex.exHash t ∧ Reach Ex.c8 Ex.exHash u ∧
      Trie.twm (Cross.same Ex.exHash) (fun _ _ => ()) ()
        ⟨.generic fun _ _ _ _ => .unchanged (), .generic fun _ _ => .unchanged (),
          .generic fun k v => .transmuted k v ()⟩ .sequential t u = .diverge ∧
      Trie.mwt (Cross.same Ex.exHash) (fun _ _ => ()) ()
        ⟨.generic fun _ _ _ _ => .unchanged (), .generic fun k v => .transmuted k v (),
          .generic fun _ _ => .unchanged ()⟩ .sequential u t = .diverge ∧
      Trie.mwm (Cross.same Ex.exHash) (fun _ _ => ()) ()
        ⟨.generic fun k v _ _ => .transmuted k v (), .generic fun k v => .transmuted k v (),
          .generic fun k v => .transmuted k v ()⟩ t u = .diverge ∧
      Trie.twt (fun _ _ => ()) () Ex.exHash
        ⟨.generic (fun _ _ _ _ => .unchangedL ()) false, .generic fun _ _ => .unchanged (),
          .generic fun _ _ => .unchanged ()⟩ .sequential t u = .diverge := by
  obtain ⟨t, u, ht, hu, h⟩ := exists_reach2 (c := Ex.c8) Ex.exLaws Ex.exLaws
    [(⟨1, 0⟩, 1), (⟨2, 0⟩, 2)] [(⟨3, 0⟩, 3), (⟨4, 0⟩, 4), (⟨5, 0⟩, 5)] (fun (t u : Trie Ex.c8 Ex.Tk Nat) =>
      (Trie.twm (Cross.same Ex.exHash) (fun _ _ => ()) ()
        ⟨.generic fun _ _ _ _ => .unchanged (), .generic fun _ _ => .unchanged (),
          .generic fun k v => .transmuted k v ()⟩ .sequential t u).diverges &&
      (Trie.mwt (Cross.same Ex.exHash) (fun _ _ => ()) ()
        ⟨.generic fun _ _ _ _ => .unchanged (), .generic fun k v => .transmuted k v (),
          .generic fun _ _ => .unchanged ()⟩ .sequential u t).diverges &&
      (Trie.mwm (Cross.same Ex.exHash) (fun _ _ => ()) ()
        ⟨.generic fun k v _ _ => .transmuted k v (), .generic fun k v => .transmuted k v (),
          .generic fun k v => .transmuted k v ()⟩ t u).diverges &&
      (Trie.twt (fun _ _ => ()) () Ex.exHash
        ⟨.generic (fun _ _ _ _ => .unchangedL ()) false, .generic fun _ _ => .unchanged (),
          .generic fun _ _ => .unchanged ()⟩ .sequential t u).diverges) (by decide +kernel)
  simp only [Bool.and_eq_true, Res.diverges_iff] at h
  exact ⟨t, u, ht, hu, h.1.1.1, h.1.1.2, h.1.2, h.2⟩

omit [BEq K] [BEq L] [BEq S] in
/-- The loop behind C23, run a turn at a time (`LNode.loopAfter`, `Verif/JointVector.lean`).  A collision list of two
    entries leaves the loop after one turn, with those two.  One of three or more never leaves it: after any number `n`
    of turns the loop is still running, and its vector has grown to `n + 1` references (so that the process runs out of
    memory, if it is not stopped before).  The last two parts say that the outcome used everywhere else in the model,
    `LNode.rights`, is that of this loop. -/
theorem C23_the_loop (right : LNode L W) :
    (right.visit.length = 2 → ∀ n, right.loopAfter (n + 1) = .done right.visit) ∧
    (right.visit.length ≠ 2 → ∀ n, ∃ r rights, right.loopAfter n = .running r rights ∧ rights.length = n + 1) ∧
    (right.rights = .diverge ↔ ∀ n, ∃ r rights, right.loopAfter n = .running r rights) ∧
    (∀ out, right.rights = .ok out ↔ ∃ n, right.loopAfter n = .done out) :=
  ⟨right.loop_outcome.1, right.loop_outcome.2, right.rights_of_loop.1, right.rights_of_loop.2⟩

/-- Both cases occur. -/
example : ((LNode.nextS 1 10 ⟨2, 20⟩ 2 : LNode Nat Nat).visit.length = 2) ∧
    (LNode.nextL 3 30 (.nextS 1 10 ⟨2, 20⟩ 2) 3 : LNode Nat Nat).visit.length = 3 := by decide

omit [BEq S] in
/-- C23 for `transform_with_transmuted`: it returns (and does not panic, in either kind of build) exactly
    when no hash is shared by two keys on the left and three keys on the right, whatever the operations;
    otherwise it loops forever. -/
theorem C23_transform_with_transmuted_partial (laws : CrossLaws x) {t : Trie c K V} (ht : Reach c x.hash t)
    {u : Trie c L W} (hu : Reach c x.hash' u) {ops : TwmOps K V L W R} (con : ops.Contract x)
    (reduce : R → R → R) (e : R) (par : Par) :
    (NoStall x t.visit u.visit → ∃ t' r, Trie.twm x reduce e ops par t u = .ok (t', r)) ∧
    (¬ NoStall x t.visit u.visit → Trie.twm x reduce e ops par t u = .diverge) := by
  refine ⟨fun ns => ?_, Trie.twm_stall laws con reduce e par ht.valid hu.valid⟩
  obtain ⟨t', r, h, _⟩ := Trie.twm_spec laws con reduce e par ht.valid hu.valid ns
  exact ⟨t', r, h⟩

omit [BEq S] in
/-- C23 for `transmute_with_transformed`: the mirror image. -/
theorem C23_transmute_with_transformed_partial (laws : CrossLaws x) {t : Trie c K V} (ht : Reach c x.hash t)
    {u : Trie c L W} (hu : Reach c x.hash' u) {ops : MwtOps K V L W R} (con : ops.Contract x)
    (reduce : R → R → R) (e : R) (par : Par) :
    (NoStall x.flip u.visit t.visit → ∃ t' r, Trie.mwt x reduce e ops par t u = .ok (t', r)) ∧
    (¬ NoStall x.flip u.visit t.visit → Trie.mwt x reduce e ops par t u = .diverge) := by
  refine ⟨fun ns => ?_, Trie.mwt_stall laws con reduce e par ht.valid hu.valid⟩
  obtain ⟨t', r, h, _⟩ := Trie.mwt_spec laws con reduce e par ht.valid hu.valid ns
  exact ⟨t', r, h⟩

/-- C23 for `transmute_with_transmuted`: it returns when no hash is shared by two keys on one side and three
    on the other, and loops forever when one is shared by three keys on each side; in any case it does not
    panic.  (In between, the contents do not decide: `C45_refuted`.) -/
theorem C23_transmute_with_transmuted_partial (laws : CrossLaws x) {hashS : S → BitVec c.w}
    (lawsS : KeyLaws hashS) {t : Trie c K V} (ht : Reach c x.hash t) {u : Trie c L W}
    (hu : Reach c x.hash' u) {ops : MwmOps K V L W S X R} (con : ops.Contract x hashS)
    (reduce : R → R → R) (e : R) :
    (NoStall x t.visit u.visit → NoStall x.flip u.visit t.visit →
      ∃ t' r, Trie.mwm x reduce e ops t u = .ok (t', r)) ∧
    (Clash x t.visit u.visit → Trie.mwm x reduce e ops t u = .diverge) ∧
    ((∃ t' r, Trie.mwm x reduce e ops t u = .ok (t', r)) ∨ Trie.mwm x reduce e ops t u = .diverge) := by
  refine ⟨?_, fun cl => Trie.mwm_stuck laws lawsS con reduce e ht.valid hu.valid
    (cl.stuck ht.valid hu.valid), ?_⟩
  · intro ns ns'
    obtain ⟨t', r, h, _⟩ := Trie.mwm_spec laws lawsS con reduce e ht.valid hu.valid ns ns'
    exact ⟨t', r, h⟩
  · rcases Trie.mwm_total laws lawsS con reduce e ht.valid hu.valid with ⟨h, _⟩ | ⟨t', r, h, _⟩
    · exact .inr h
    · exact .inl ⟨t', r, h⟩

omit [BEq L] [BEq S] in
/-- C23 for `transform_with_transformed`, when the answers are tame (`TwtOps.Tame`, a condition about colliding
    keys only): it returns when no hash is shared by two keys on one side and three on the other, and, with a
    two-sided closure, loops forever when one is shared by three keys on each side; in any case it does not panic. -/
theorem C23_transform_with_transformed_partial {hash : K → BitVec c.w} {t u : Trie c K V}
    (ht : Reach c hash t) (hu : Reach c hash u) {ops : TwtOps K V R} (tame : ops.Tame hash t.visit u.visit)
    (reduce : R → R → R) (e : R) (par : Par) :
    (NoStall (Cross.same hash) t.visit u.visit → NoStall (Cross.same hash) u.visit t.visit →
      ∃ t' r, Trie.twt reduce e hash ops par t u = .ok (t', r)) ∧
    (Clash (Cross.same hash) t.visit u.visit → ∀ f swapped, ops.both = .generic f swapped →
      Trie.twt reduce e hash ops par t u = .diverge) ∧
    ((∃ t' r, Trie.twt reduce e hash ops par t u = .ok (t', r)) ∨
      Trie.twt reduce e hash ops par t u = .diverge) := by
  refine ⟨?_, fun cl f sw hg => Trie.twt_stuck ht.laws reduce e par ht.valid hu.valid tame
    (by simp only [TwtOps.shortcut, hg]) (cl.stuck (x := Cross.same hash) ht.valid hu.valid), ?_⟩
  · intro ns ns'
    obtain ⟨t', r, h, _⟩ := Trie.twt_spec ht.laws reduce e par ht.valid hu.valid tame ns ns'
    exact ⟨t', r, h⟩
  · rcases Trie.twt_total ht.laws reduce e par ht.valid hu.valid tame with ⟨h, _⟩ | ⟨t', r, h, _⟩
    · exact .inr h
    · exact .inl ⟨t', r, h⟩

/-- C23: whether `transmute_with_transmuted` returns does not depend on the operations, the reduction or the types
    of the result, but on the two maps only. -/
theorem C23_any_operations_transmute {S' X' R' : Type} [BEq S'] (laws : CrossLaws x) {hashS : S → BitVec c.w}
    (lawsS : KeyLaws hashS) {hashS' : S' → BitVec c.w} (lawsS' : KeyLaws hashS') {t : Trie c K V}
    (ht : Reach c x.hash t) {u : Trie c L W} (hu : Reach c x.hash' u)
    {ops : MwmOps K V L W S X R} (con : ops.Contract x hashS) (reduce : R → R → R) (e : R)
    {ops' : MwmOps K V L W S' X' R'} (con' : ops'.Contract x hashS') (reduce' : R' → R' → R') (e' : R') :
    Trie.mwm x reduce e ops t u = .diverge ↔ Trie.mwm x reduce' e' ops' t u = .diverge := by
  constructor <;> intro h
  · rcases Trie.mwm_total laws lawsS con reduce e ht.valid hu.valid with ⟨_, st⟩ | ⟨_, _, h1, _⟩
    · exact Trie.mwm_stuck laws lawsS' con' reduce' e' ht.valid hu.valid st
    · rw [h] at h1; simp at h1
  · rcases Trie.mwm_total laws lawsS' con' reduce' e' ht.valid hu.valid with ⟨_, st⟩ | ⟨_, _, h1, _⟩
    · exact Trie.mwm_stuck laws lawsS con reduce e ht.valid hu.valid st
    · rw [h] at h1; simp at h1

omit [BEq L] in
/-- C23: the same for `transform_with_transformed` with tame answers and a two-sided closure, and it returns exactly
    when `transmute_with_transmuted` does on the same maps. -/
theorem C23_any_operations_transform_partial {hash : K → BitVec c.w} {hashS : S → BitVec c.w} (lawsS : KeyLaws hashS)
    {t u : Trie c K V} (ht : Reach c hash t) (hu : Reach c hash u)
    {both : K → V → K → V → MapJointTransformResult V R} {swapped : Bool}
    {left right : MapTransform R (K → V → MapTransformResult V R)}
    (tame : TwtOps.Tame ⟨.generic both swapped, left, right⟩ hash t.visit u.visit)
    (reduce : R → R → R) (e : R) (par : Par)
    {R' : Type} {ops' : MwmOps K V K V S X R'} (con' : ops'.Contract (Cross.same hash) hashS)
    (reduce' : R' → R' → R') (e' : R') :
    Trie.twt reduce e hash ⟨.generic both swapped, left, right⟩ par t u = .diverge ↔
      Trie.mwm (Cross.same hash) reduce' e' ops' t u = .diverge := by
  constructor <;> intro h
  · rcases Trie.twt_total ht.laws reduce e par ht.valid hu.valid tame with ⟨_, st⟩ | ⟨_, _, h1, _⟩
    · exact Trie.mwm_stuck (.same ht.laws) lawsS con' reduce' e' ht.valid hu.valid st
    · rw [h] at h1; simp at h1
  · rcases Trie.mwm_total (.same ht.laws) lawsS con' reduce' e' ht.valid hu.valid with ⟨_, st⟩ | ⟨_, _, h1, _⟩
    · exact Trie.twt_stuck ht.laws reduce e par ht.valid hu.valid tame rfl st
    · rw [h] at h1; simp at h1

omit [BEq L] [BEq S] in
/-- C23 for `transform_with_transformed` on maps in which no key that collides inside one map collides with a key
    of the other: it returns, whatever the operations. -/
theorem C23_transform_with_transformed_apart_partial {hash : K → BitVec c.w} {t u : Trie c K V}
    (ht : Reach c hash t) (hu : Reach c hash u) (apart : Apart hash t.visit u.visit) (ops : TwtOps K V R)
    (reduce : R → R → R) (e : R) (par : Par) :
    ∃ t' r, Trie.twt reduce e hash ops par t u = .ok (t', r) :=
  (C23_transform_with_transformed_partial ht hu (TwtOps.tame_of_apart ops apart) reduce e par).1
    apart.noStall.1 apart.noStall.2

/-- Maps with colliding keys on both sides, one of the colliding keys shared, that do not stall. -/
example : ∃ (t u : Trie Ex.c8 Ex.Tk Nat), Reach Ex.c8 Ex.exHash t ∧ Reach Ex.c8 Ex.exHash u ∧
    (decide (t.size = 6) && decide (u.size = 6) && decide (collisions Ex.exHash t.visit 0#8 = 3) &&
     decide (collisions Ex.exHash u.visit 0#8 = 2) &&
     decide (NoStall (Cross.same Ex.exHash) t.visit u.visit)) = true :=
  exists_reach2 Ex.exLaws Ex.exLaws Ex.entries Ex.right _ (by decide +kernel)

/-- Maps with three colliding keys each. -/
example : ∃ (t u : Trie Ex.c8 Ex.Tk Nat), Reach Ex.c8 Ex.exHash t ∧ Reach Ex.c8 Ex.exHash u ∧
    Clash (Cross.same Ex.exHash) t.visit u.visit ∧ t.size = 6 := by
  obtain ⟨t, u, ht, hu, h⟩ := exists_reach2 (c := Ex.c8) Ex.exLaws Ex.exLaws Ex.entries Ex.entries.reverse
    (fun (t u : Trie Ex.c8 Ex.Tk Nat) => decide (3 ≤ collisions Ex.exHash t.visit 0#8 ∧
      3 ≤ collisions Ex.exHash u.visit 0#8 ∧ t.size = 6)) (by decide +kernel)
  have h := of_decide_eq_true h
  exact ⟨t, u, ht, hu, ⟨0#8, h.1, h.2.1⟩, h.2.2⟩

/-! ## C24-C26: what becomes of each key -/

omit [BEq S] in
/-- C24: whenever `transform_with_transmuted` returns (see C23), the result holds for each key: nothing if
    neither map holds it; what the left operation says if only the left map holds it; the transmuted entry or
    nothing if only the right map holds it; what the two-sided operation says about the left entry if both
    hold it.  Its entries are those of all cases, each once. -/
theorem C24_transform_with_transmuted (laws : CrossLaws x) {t : Trie c K V} (ht : Reach c x.hash t)
    {u : Trie c L W} (hu : Reach c x.hash' u) {ops : TwmOps K V L W R} (con : ops.Contract x)
    (reduce : R → R → R) (e : R) (par : Par) {t' : Trie c K V} {r : R}
    (hr : Trie.twm x reduce e ops par t u = .ok (t', r)) :
    (∀ k a? b?, t.find x.hash k = .ok a? → u.findAcross x k = .ok b? →
      t'.find x.hash k = .ok (match a?, b? with
        | none, none => none
        | some a, none => (ops.left.closure a.1 a.2).entry a
        | none, some b => (ops.right.closure b.1 b.2).entry
        | some a, some b => (ops.both.closure2 a.1 a.2 b.1 b.2).entry a)) ∧
    t'.visit.Perm ((jointCases (fun a b => x.eq a.1 b.1) t.visit u.visit).filterMap ops.out) ∧
    t'.size = ((jointCases (fun a b => x.eq a.1 b.1) t.visit u.visit).filterMap ops.out).length := by
  have ht' : Reach c x.hash t' := .transformWithTransmuted ht hu laws con hr
  by_cases ns : NoStall x t.visit u.visit
  · obtain ⟨t1, r1, h1, _, h3, _⟩ := Trie.twm_spec laws con reduce e par ht.valid hu.valid ns
    rw [hr] at h1; injection h1 with h1; injection h1 with h1 _; subst h1
    refine ⟨fun k a? b? ha hb => ?_, h3, by rw [ht'.size, h3.length_eq]; rfl⟩
    rw [TwmOps.find laws con ht hu ht' h3 ha hb]
    cases a? <;> cases b? <;> rfl
  · rw [Trie.twm_stall laws con reduce e par ht.valid hu.valid ns] at hr; simp at hr

omit [BEq S] in
/-- C25: the same for `transmute_with_transformed`, where the right map's entries are transformed. -/
theorem C25_transmute_with_transformed (laws : CrossLaws x) {t : Trie c K V} (ht : Reach c x.hash t)
    {u : Trie c L W} (hu : Reach c x.hash' u) {ops : MwtOps K V L W R} (con : ops.Contract x)
    (reduce : R → R → R) (e : R) (par : Par) {t' : Trie c L W} {r : R}
    (hr : Trie.mwt x reduce e ops par t u = .ok (t', r)) :
    (∀ l a? b?, t.findAcross x.flip l = .ok a? → u.find x.hash' l = .ok b? →
      t'.find x.hash' l = .ok (match a?, b? with
        | none, none => none
        | some a, none => (ops.left.closure a.1 a.2).entry
        | none, some b => (ops.right.closure b.1 b.2).entry b
        | some a, some b => (ops.both.closure2 a.1 a.2 b.1 b.2).entry b)) ∧
    t'.visit.Perm ((jointCases (fun a b => x.eq a.1 b.1) t.visit u.visit).filterMap ops.out) ∧
    t'.size = ((jointCases (fun a b => x.eq a.1 b.1) t.visit u.visit).filterMap ops.out).length := by
  have ht' : Reach c x.hash' t' := .transmuteWithTransformed ht hu laws con hr
  by_cases ns : NoStall x.flip u.visit t.visit
  · obtain ⟨t1, r1, h1, _, h3, _⟩ := Trie.mwt_spec laws con reduce e par ht.valid hu.valid ns
    rw [hr] at h1; injection h1 with h1; injection h1 with h1 _; subst h1
    refine ⟨fun l a? b? ha hb => ?_, h3, by rw [ht'.size, h3.length_eq]; rfl⟩
    rw [MwtOps.find laws con ht hu ht' h3 ha hb]
    cases a? <;> cases b? <;> rfl
  · rw [Trie.mwt_stall laws con reduce e par ht.valid hu.valid ns] at hr; simp at hr

/-- C26: whenever `transmute_with_transmuted` returns, what the operations produced for a key is found
    under the key they stored it under, and the result holds nothing else. -/
theorem C26_transmute_with_transmuted (laws : CrossLaws x) {hashS : S → BitVec c.w} (lawsS : KeyLaws hashS)
    {t : Trie c K V} (ht : Reach c x.hash t) {u : Trie c L W} (hu : Reach c x.hash' u)
    {ops : MwmOps K V L W S X R} (con : ops.Contract x hashS) (reduce : R → R → R) (e : R)
    {t' : Trie c S X} {r : R} (hr : Trie.mwm x reduce e ops t u = .ok (t', r)) :
    (∀ k a s y r', t.find x.hash k = .ok (some a) → u.findAcross x k = .ok none →
      ops.left.closure a.1 a.2 = .transmuted s y r' → t'.find hashS s = .ok (some (s, y))) ∧
    (∀ k b s y r', t.find x.hash k = .ok none → u.findAcross x k = .ok (some b) →
      ops.right.closure b.1 b.2 = .transmuted s y r' → t'.find hashS s = .ok (some (s, y))) ∧
    (∀ l b s y r', t.findAcross x.flip l = .ok none → u.find x.hash' l = .ok (some b) →
      ops.right.closure b.1 b.2 = .transmuted s y r' → t'.find hashS s = .ok (some (s, y))) ∧
    (∀ k a b s y r', t.find x.hash k = .ok (some a) → u.findAcross x k = .ok (some b) →
      ops.both.closure2 a.1 a.2 b.1 b.2 = .transmuted s y r' → t'.find hashS s = .ok (some (s, y))) ∧
    (∀ s0 s y, t'.find hashS s0 = .ok (some (s, y)) →
      (∃ a r', t.find x.hash a.1 = .ok (some a) ∧ u.findAcross x a.1 = .ok none ∧
        ops.left.closure a.1 a.2 = .transmuted s y r') ∨
      (∃ b r', u.find x.hash' b.1 = .ok (some b) ∧ t.findAcross x.flip b.1 = .ok none ∧
        ops.right.closure b.1 b.2 = .transmuted s y r') ∨
      (∃ a b r', t.find x.hash a.1 = .ok (some a) ∧ u.findAcross x a.1 = .ok (some b) ∧
        ops.both.closure2 a.1 a.2 b.1 b.2 = .transmuted s y r')) ∧
    t'.visit.Perm ((jointCases (fun a b => x.eq a.1 b.1) t.visit u.visit).filterMap ops.out) ∧
    t'.size = ((jointCases (fun a b => x.eq a.1 b.1) t.visit u.visit).filterMap ops.out).length := by
  have ht' : Reach c hashS t' := .transmuteWithTransmuted ht hu laws lawsS con hr
  rcases Trie.mwm_total laws lawsS con reduce e ht.valid hu.valid with ⟨h, _⟩ | ⟨t1, r1, h1, _, h3, _⟩
  · rw [hr] at h; simp at h
  rw [hr] at h1; injection h1 with h1; injection h1 with h1 _; subst h1
  have J := laws.joinable ht.distinct hu.distinct
  have put : ∀ p ∈ x.cases t.visit u.visit, ∀ s y, ops.out p = some (s, y) →
      t'.find hashS s = .ok (some (s, y)) := by
    intro p hp s y ho
    rw [ht'.find, Res.ok.injEq, (ht'.query s).no_other ht'.distinct, h3.mem_iff]
    exact ⟨List.mem_filterMap.2 ⟨p, hp, ho⟩, lawsS.refl s⟩
  have onleft : ∀ a, a ∈ t.visit → t.find x.hash a.1 = .ok (some a) := by
    intro a ha
    rw [ht.find, Res.ok.injEq, (ht.query a.1).no_other ht.distinct]
    exact ⟨ha, laws.left.refl _⟩
  have onright : ∀ b, b ∈ u.visit → u.find x.hash' b.1 = .ok (some b) := by
    intro b hb
    rw [hu.find, Res.ok.injEq, (hu.query b.1).no_other hu.distinct]
    exact ⟨hb, laws.right.refl _⟩
  refine ⟨?_, ?_, ?_, ?_, ?_, h3, by rw [ht'.size, h3.length_eq]; rfl⟩
  · intro k a s y r' ha hb hf
    exact put _ (cases_of_find laws ht hu ha hb).1 s y (by simp [MwmOps.out, hf, MapTransmuteResult.entry])
  · intro k b s y r' ha hb hf
    exact put _ (cases_of_find laws ht hu ha hb).1 s y (by simp [MwmOps.out, hf, MapTransmuteResult.entry])
  · intro l b s y r' ha hb hf
    have := (cases_of_find laws.flip hu ht hb ha).1
    have := (laws.flip.flip_cases hu.distinct ht.distinct).mem_iff.1 (List.mem_map_of_mem this)
    exact put (.right b) this s y (by simp [MwmOps.out, hf, MapTransmuteResult.entry])
  · intro k a b s y r' ha hb hf
    exact put _ (cases_of_find laws ht hu ha hb).1 s y (by simp [MwmOps.out, hf, MapTransmuteResult.entry])
  · intro s0 s y hf
    rw [ht'.find, Res.ok.injEq, (ht'.query s0).no_other ht'.distinct, h3.mem_iff] at hf
    obtain ⟨p, hp, ho⟩ := List.mem_filterMap.1 hf.1
    rw [Cross.cases, mem_jointCases J] at hp
    obtain ⟨r', hr'⟩ : ∃ r', (match p with
      | .left a => ops.left.closure a.1 a.2
      | .right b => ops.right.closure b.1 b.2
      | .both a b => ops.both.closure2 a.1 a.2 b.1 b.2) = .transmuted s y r' := by
      cases p <;> exact MapTransmuteResult.entry_some ho.symm
    cases p with
    | left a =>
      refine .inl ⟨a, r', onleft a hp.1, ?_, hr'⟩
      rw [Trie.findAcross, hu.findQ (laws.query a.1), Res.ok.injEq, List.find?_eq_none]
      intro b hb
      rw [laws.sym]; simpa using hp.2 b hb
    | right b =>
      refine .inr (.inl ⟨b, r', onright b hp.1, ?_, hr'⟩)
      rw [Trie.findAcross, ht.findQ (laws.flip.query b.1), Res.ok.injEq, List.find?_eq_none]
      intro a ha
      show ¬ x.eq a.1 b.1 = true
      have := hp.2 a ha
      simp only at this
      rw [this]; simp
    | both a b =>
      refine .inr (.inr ⟨a, b, r', onleft a hp.1, ?_, hr'⟩)
      rw [Trie.findAcross, hu.findQ (laws.query a.1), Res.ok.injEq, (laws.query a.1).no_other hu.distinct]
      exact ⟨hp.2.1, by rw [laws.sym]; exact hp.2.2⟩

/-- Contract-abiding operations between two key types, with every kind of answer. -/
def Ex.twmOps : TwmOps Ex.Tk Nat Ex.Num Nat (List Nat) where
  both := .generic fun k v _ w =>
    if k.id % 3 = 0 then .removed [v, w] else if k.id % 3 = 1 then .transformed (v + w) [v, w] else .unchanged [w]
  left := .generic fun k v =>
    if k.id % 3 = 0 then .removed [v] else if k.id % 3 = 1 then .transformed (v + 100) [v] else .unchanged [v]
  right := .generic fun l w => if l.n % 2 = 0 then .transmuted ⟨l.n, 9⟩ w [w] else .removed [w]

theorem Ex.twmOps_contract : Ex.twmOps.Contract Ex.cross := by
  intro l w k v r h
  simp only [Ex.twmOps, MapTransmute.closure] at h
  split at h
  · injection h with h1 _ _; subst h1; simp [Ex.cross]
  · simp at h

/-- `transform_with_transmuted` returns on maps of two key types, both with collisions. -/
example : ∃ (t : Trie Ex.c8 Ex.Tk Nat) (u : Trie Ex.c8 Ex.Num Nat), Reach Ex.c8 Ex.cross.hash t ∧
    Reach Ex.c8 Ex.cross.hash' u ∧
    ((Trie.twm Ex.cross (· ++ ·) [] Ex.twmOps .sequential t u).test fun y => decide (y.1.size = 8)) = true :=
  exists_reach2 Ex.exLaws Ex.numLaws Ex.entries Ex.rightNum _ (by decide +kernel)

/-- `transmute_with_transformed` on the same maps, exchanged. -/
example : Ex.twmOps.flip.Contract Ex.cross.flip ∧
    ∃ (t : Trie Ex.c8 Ex.Num Nat) (u : Trie Ex.c8 Ex.Tk Nat), Reach Ex.c8 Ex.cross.flip.hash t ∧
    Reach Ex.c8 Ex.cross.flip.hash' u ∧
    ((Trie.mwt Ex.cross.flip (· ++ ·) [] Ex.twmOps.flip .sequential t u).test
      fun y => decide (y.1.size = 8)) = true :=
  ⟨fun k v l w r h => Ex.twmOps_contract k v l w r h |> fun h => by
      show Ex.cross.eq' k l = true
      rw [Ex.crossLaws.sym]; exact h,
    exists_reach2 Ex.numLaws Ex.exLaws Ex.rightNum Ex.entries _ (by decide +kernel)⟩

/-- Contract-abiding operations into a third key type. -/
def Ex.mwmOps : MwmOps Ex.Tk Nat Ex.Num Nat Ex.Num String (List Nat) where
  both := .generic fun k v _ w => if k.id % 3 = 0 then .removed [v, w] else .transmuted ⟨k.id⟩ "both" [v, w]
  left := .generic fun k v => if k.id % 3 = 1 then .removed [v] else .transmuted ⟨k.id⟩ "left" [v]
  right := .generic fun l w => if l.n % 2 = 0 then .transmuted ⟨l.n⟩ "right" [w] else .removed [w]

theorem Ex.mwmOps_contract : Ex.mwmOps.Contract Ex.cross Ex.cross.hash' := by
  have out : ∀ p e, Matched Ex.cross p → Ex.mwmOps.out p = some e →
      (∀ k, p.lkey? = some k → e.1.n = k.id) ∧ (∀ l, p.rkey? = some l → e.1.n = l.n) ∧
      (∃ k, p.lkey? = some k) ∨ (∀ l, p.rkey? = some l → e.1.n = l.n) ∧ p.lkey? = none ∧
      ∃ l, p.rkey? = some l := by
    intro p e hm he
    cases p with
    | left a =>
      simp only [MwmOps.out, Ex.mwmOps, MapTransmute.closure] at he
      split at he <;> simp [MapTransmuteResult.entry] at he
      simp [Case.lkey?, Case.rkey?, ← he]
    | right b =>
      simp only [MwmOps.out, Ex.mwmOps, MapTransmute.closure] at he
      split at he <;> simp [MapTransmuteResult.entry] at he
      simp [Case.lkey?, Case.rkey?, ← he]
    | both a b =>
      simp only [MwmOps.out, Ex.mwmOps, MapTransmute.closure2] at he
      split at he <;> simp [MapTransmuteResult.entry] at he
      simp only [Matched, Ex.cross, beq_iff_eq] at hm
      simp [Case.lkey?, Case.rkey?, ← he, hm]
  constructor
  · intro p e hm he
    rcases out p e hm he with ⟨h1, h2, k, hk⟩ | ⟨h2, hn, l, hl⟩
    · have := h1 k hk
      cases p with
      | left a => simp only [Case.lkey?, Option.some.injEq] at hk; subst hk; show BitVec.ofNat 8 (e.1.n / 10) = BitVec.ofNat 8 (a.1.id / 10); rw [this]
      | right b => simp [Case.lkey?] at hk
      | both a b => simp only [Case.lkey?, Option.some.injEq] at hk; subst hk; show BitVec.ofNat 8 (e.1.n / 10) = BitVec.ofNat 8 (a.1.id / 10); rw [this]
    · have := h2 l hl
      cases p with
      | left a => simp [Case.lkey?] at hn
      | right b => simp only [Case.rkey?, Option.some.injEq] at hl; subst hl; show BitVec.ofNat 8 (e.1.n / 10) = BitVec.ofNat 8 (b.1.n / 10); rw [this]
      | both a b => simp [Case.lkey?] at hn
  · intro p q e e' hm hm' he he' heq
    have heq : e.1.n = e'.1.n := by simpa [BEq.beq] using heq
    rcases out p e hm he with ⟨h1, h2, k, hk⟩ | ⟨h2, hn, l, hl⟩ <;>
      rcases out q e' hm' he' with ⟨h1', h2', k', hk'⟩ | ⟨h2', hn', l', hl'⟩
    · exact .inl ⟨k, k', hk, hk', by simp [BEq.beq, ← h1 k hk, ← h1' k' hk', heq]⟩
    · exact .inr (.inr (.inl ⟨k, l', hk, hl', by simp [Ex.cross, ← h1 k hk, ← h2' l' hl', heq]⟩))
    · exact .inr (.inr (.inr ⟨k', l, hk', hl, by simp [Ex.cross, ← h1' k' hk', ← h2 l hl, heq]⟩))
    · exact .inr (.inl ⟨l, l', hl, hl', by simp [BEq.beq, ← h2 l hl, ← h2' l' hl', heq]⟩)

/-- `transmute_with_transmuted` returns on two maps without stalling collisions. -/
example : ∃ (t : Trie Ex.c8 Ex.Tk Nat) (u : Trie Ex.c8 Ex.Num Nat), Reach Ex.c8 Ex.cross.hash t ∧
    Reach Ex.c8 Ex.cross.hash' u ∧
    ((Trie.mwm Ex.cross (· ++ ·) [] Ex.mwmOps t u).test fun y => decide (y.1.size = 8)) = true :=
  exists_reach2 Ex.exLaws Ex.numLaws Ex.entries Ex.rightNum _ (by decide +kernel)

/-! ## C21: transform_with_transformed -/

/-- C21 is false, even for closures and without any divergence.  Left: keys 1 and 2 with the same hash;
    right: key 3 with that hash too.  The left operation removes 1 and keeps 2, the right operation keeps 3.
    The result still holds key 1.  With a two-sided closure answering `UnchangedR` the result of
    `{1, 2}` and `{1}` holds key 1 twice. -/
theorem C21_refuted :
    (∃ (t u : Trie Ex.c8 Ex.Tk Nat) (f : Ex.Tk → Nat → MapTransformResult Nat Unit) (t' : Trie Ex.c8 Ex.Tk Nat),
      Reach Ex.c8 Ex.exHash t ∧ Reach Ex.c8 Ex.exHash u ∧
      Trie.twt (fun _ _ => ()) () Ex.exHash
        ⟨.generic (fun _ _ _ _ => .unchangedL ()) false, .generic f, .generic fun _ _ => .unchanged ()⟩
        .sequential t u = .ok (t', ()) ∧
      t.find Ex.exHash ⟨1, 0⟩ = .ok (some (⟨1, 0⟩, 1)) ∧ u.find Ex.exHash ⟨1, 0⟩ = .ok none ∧
      f ⟨1, 0⟩ 1 = .removed () ∧ t'.find Ex.exHash ⟨1, 0⟩ = .ok (some (⟨1, 0⟩, 1))) ∧
    (∃ (t u t' : Trie Ex.c8 Ex.Tk Nat), Reach Ex.c8 Ex.exHash t ∧ Reach Ex.c8 Ex.exHash u ∧
      Trie.twt (fun _ _ => ()) () Ex.exHash
        ⟨.generic (fun _ _ _ _ => .unchangedR ()) false, .generic fun _ _ => .unchanged (),
          .generic fun _ _ => .unchanged ()⟩ .sequential t u = .ok (t', ()) ∧
      t.visit = [(⟨2, 0⟩, 2), (⟨1, 0⟩, 1)] ∧ u.visit = [(⟨1, 1⟩, 3)] ∧
      t'.visit = [(⟨1, 1⟩, 3), (⟨2, 0⟩, 2), (⟨1, 0⟩, 1)] ∧ t'.size = 3) := by
  constructor
  · obtain ⟨t, u, ht, hu, h⟩ := exists_reach2 (c := Ex.c8) Ex.exLaws Ex.exLaws
      [(⟨1, 0⟩, 1), (⟨2, 0⟩, 2)] [(⟨3, 1⟩, 3)] (fun (t u : Trie Ex.c8 Ex.Tk Nat) =>
      ((Trie.twt (fun _ _ => ()) () Ex.exHash
        ⟨.generic (fun _ _ _ _ => .unchangedL ()) false,
          .generic (fun k _ => if k.id = 2 then .unchanged () else .removed ()),
          .generic fun _ _ => .unchanged ()⟩ .sequential t u).test fun (y : Trie Ex.c8 Ex.Tk Nat × Unit) =>
        decide (y.1.find Ex.exHash ⟨1, 0⟩ = .ok (some (⟨1, 0⟩, 1)))) &&
      decide (t.find Ex.exHash ⟨1, 0⟩ = .ok (some (⟨1, 0⟩, 1))) &&
      decide (u.find Ex.exHash ⟨1, 0⟩ = .ok none)) (by decide +kernel)
    simp only [Bool.and_eq_true, Res.test_iff, decide_eq_true_eq] at h
    obtain ⟨⟨⟨⟨t', ⟨⟩⟩, h1, h2⟩, h3⟩, h4⟩ := h
    exact ⟨t, u, _, t', ht, hu, h1, h3, h4, rfl, h2⟩
  · obtain ⟨t, u, ht, hu, h⟩ := exists_reach2 (c := Ex.c8) Ex.exLaws Ex.exLaws
      [(⟨1, 0⟩, 1), (⟨2, 0⟩, 2)] [(⟨1, 1⟩, 3)] (fun (t u : Trie Ex.c8 Ex.Tk Nat) =>
      ((Trie.twt (fun _ _ => ()) () Ex.exHash
        ⟨.generic (fun _ _ _ _ => .unchangedR ()) false, .generic fun _ _ => .unchanged (),
          .generic fun _ _ => .unchanged ()⟩ .sequential t u).test fun (y : Trie Ex.c8 Ex.Tk Nat × Unit) =>
        decide (y.1.visit = [(⟨1, 1⟩, 3), (⟨2, 0⟩, 2), (⟨1, 0⟩, 1)]) && decide (y.1.size = 3)) &&
      decide (t.visit = [(⟨2, 0⟩, 2), (⟨1, 0⟩, 1)]) &&
      decide (u.visit = [(⟨1, 1⟩, 3)])) (by decide +kernel)
    simp only [Bool.and_eq_true, Res.test_iff, decide_eq_true_eq] at h
    obtain ⟨⟨⟨⟨t', ⟨⟩⟩, h1, h2⟩, h3⟩, h4⟩ := h
    exact ⟨t, u, t', ht, hu, h1, h3, h4, h2.1, h2.2⟩

omit [BEq L] [BEq S] in
/-- C21, part: if the answers are tame (`TwtOps.Tame`: a condition about colliding keys only), then, whenever
    `transform_with_transformed` returns (C23), the result holds for each key: nothing if neither map holds it;
    what the left (right) operation says if only the left (right) map holds it; what the two-sided operation
    says (`MapJointTransform.Entry`) if both do.  Missing: answers that are not tame (refuted above), and the
    side kept by the bulk operations `UnchangedL` and `UnchangedR` (C22). -/
theorem C21_transform_with_transformed_partial {hash : K → BitVec c.w} {t u : Trie c K V}
    (ht : Reach c hash t) (hu : Reach c hash u) {ops : TwtOps K V R} (tame : ops.Tame hash t.visit u.visit)
    (reduce : R → R → R) (e : R) (par : Par) {t' : Trie c K V} {r : R}
    (hr : Trie.twt reduce e hash ops par t u = .ok (t', r)) :
    ∀ k a? b?, t.find hash k = .ok a? → u.find hash k = .ok b? →
      ∃ o, t'.find hash k = .ok o ∧ (match a?, b? with
        | none, none => o = none
        | some a, none => o = (ops.left.closure a.1 a.2).entry a
        | none, some b => o = (ops.right.closure b.1 b.2).entry b
        | some a, some b => ops.both.Entry a b o) := by
  have ht' : Reach c hash t' := .transformWithTransformed ht hu tame hr
  intro k a? b? ha hb
  rcases Trie.twt_total ht.laws reduce e par ht.valid hu.valid tame with ⟨h, _⟩ | ⟨t1, r1, h1, _, ho, _⟩
  · rw [hr] at h; simp at h
  rw [hr] at h1; injection h1 with h1; injection h1 with h1 _; subst h1
  have := TwtOps.find ht hu ht' ho ha hb
  cases a? <;> cases b? <;> simp only [Case.of?] at this
  · exact ⟨none, this, rfl⟩
  all_goals obtain ⟨o, h1, h2⟩ := this; exact ⟨o, h2, h1⟩

omit [BEq L] [BEq S] in
/-- C21, part: with closures, for maps in which no key that collides inside one map collides with a key of
    the other (in particular, if no two keys of the two maps collide): `UnchangedL` keeps the left entry,
    `UnchangedR` the right one, `UnchangedLR` one of them, `Transformed` stores the value under one of the two
    equal keys, `Removed` removes. -/
theorem C21_closures_apart_partial {hash : K → BitVec c.w} {t u : Trie c K V}
    (ht : Reach c hash t) (hu : Reach c hash u) (apart : Apart hash t.visit u.visit)
    (both : K → V → K → V → MapJointTransformResult V R) (left right : K → V → MapTransformResult V R)
    (reduce : R → R → R) (e : R) (par : Par) :
    ∃ t' r, Trie.twt reduce e hash ⟨.generic both false, .generic left, .generic right⟩ par t u = .ok (t', r) ∧
      ∀ k a? b?, t.find hash k = .ok a? → u.find hash k = .ok b? →
        ∃ o, t'.find hash k = .ok o ∧ (match a?, b? with
          | none, none => o = none
          | some a, none => o = (left a.1 a.2).entry a
          | none, some b => o = (right b.1 b.2).entry b
          | some a, some b => match both a.1 a.2 b.1 b.2 with
            | .unchangedLR _ => o = some a ∨ o = some b
            | .unchangedL _ => o = some a
            | .unchangedR _ => o = some b
            | .transformed v _ => o = some (a.1, v) ∨ o = some (b.1, v)
            | .removed _ => o = none) := by
  obtain ⟨t', r, h⟩ := C23_transform_with_transformed_apart_partial ht hu apart
    ⟨.generic both false, .generic left, .generic right⟩ reduce e par
  have hk := C21_transform_with_transformed_partial ht hu (TwtOps.tame_of_apart _ apart) reduce e par h
  refine ⟨t', r, h, fun k a? b? ha hb => ?_⟩
  obtain ⟨o, h1, h2⟩ := hk k a? b? ha hb
  refine ⟨o, h1, ?_⟩
  cases a? <;> cases b?
  · exact h2
  · exact h2
  · exact h2
  · rename_i a b
    have h3 : (both a.1 a.2 b.1 b.2).Entry a b o := h2
    show (match both a.1 a.2 b.1 b.2 with
            | .unchangedLR _ => o = some a ∨ o = some b
            | .unchangedL _ => o = some a
            | .unchangedR _ => o = some b
            | .transformed v _ => o = some (a.1, v) ∨ o = some (b.1, v)
            | .removed _ => o = none)
    revert h3
    cases both a.1 a.2 b.1 b.2 <;> exact id

omit [BEq L] [BEq S] in
/-- Without collisions across the maps every answer is tame. -/
theorem C21_apart_is_tame {hash : K → BitVec c.w} (ops : TwtOps K V R) {as bs : List (K × V)}
    (h : Apart hash as bs) : ops.Tame hash as bs := TwtOps.tame_of_apart ops h

/-- Maps with collisions inside each map, shared and unshared keys, and no collisions across. -/
def Ex.apartL : List (Ex.Tk × Nat) := [(⟨1, 0⟩, 1), (⟨2, 0⟩, 2), (⟨81, 0⟩, 3), (⟨30, 0⟩, 4)]
@[inherit_doc Ex.apartL]
def Ex.apartR : List (Ex.Tk × Nat) := [(⟨81, 1⟩, 5), (⟨20, 1⟩, 6), (⟨21, 1⟩, 7), (⟨645, 1⟩, 8)]

example : ∃ (t u : Trie Ex.c8 Ex.Tk Nat), Reach Ex.c8 Ex.exHash t ∧ Reach Ex.c8 Ex.exHash u ∧
    decide (Apart Ex.exHash t.visit u.visit ∧ t.size = 4 ∧ u.size = 4) = true :=
  exists_reach2 Ex.exLaws Ex.exLaws Ex.apartL Ex.apartR _ (by decide +kernel)

/-! ## C22: which side is kept -/

/-- C22 is false: for the maps `{5}` and `{5, 81}` (whose keys do not collide) the bulk operation
    `UnchangedL` keeps the *right* entry of key 5, and `UnchangedR` the *left* one, because
    `MapJointTransform::flip` does not exchange the two. -/
theorem C22_wrong_side :
    ∃ (t u tl tr : Trie Ex.c8 Ex.Tk Nat), Reach Ex.c8 Ex.exHash t ∧ Reach Ex.c8 Ex.exHash u ∧
      Trie.twt (fun _ _ => ()) () Ex.exHash ⟨.unchangedL (), .unchanged (), .unchanged ()⟩ .sequential t u
        = .ok (tl, ()) ∧
      Trie.twt (fun _ _ => ()) () Ex.exHash ⟨.unchangedR (), .unchanged (), .unchanged ()⟩ .sequential t u
        = .ok (tr, ()) ∧
      t.find Ex.exHash ⟨5, 0⟩ = .ok (some (⟨5, 0⟩, 100)) ∧ u.find Ex.exHash ⟨5, 0⟩ = .ok (some (⟨5, 1⟩, 200)) ∧
      tl.find Ex.exHash ⟨5, 0⟩ = .ok (some (⟨5, 1⟩, 200)) ∧
      tr.find Ex.exHash ⟨5, 0⟩ = .ok (some (⟨5, 0⟩, 100)) ∧
      Apart Ex.exHash t.visit u.visit := by
  obtain ⟨t, u, ht, hu, h⟩ := exists_reach2 (c := Ex.c8) Ex.exLaws Ex.exLaws
    [(⟨5, 0⟩, 100)] [(⟨5, 1⟩, 200), (⟨81, 1⟩, 300)] (fun (t u : Trie Ex.c8 Ex.Tk Nat) =>
      ((Trie.twt (fun _ _ => ()) () Ex.exHash ⟨.unchangedL (), .unchanged (), .unchanged ()⟩ .sequential t u).test
        fun (y : Trie Ex.c8 Ex.Tk Nat × Unit) => decide (y.1.find Ex.exHash ⟨5, 0⟩ = .ok (some (⟨5, 1⟩, 200)))) &&
      ((Trie.twt (fun _ _ => ()) () Ex.exHash ⟨.unchangedR (), .unchanged (), .unchanged ()⟩ .sequential t u).test
        fun (y : Trie Ex.c8 Ex.Tk Nat × Unit) => decide (y.1.find Ex.exHash ⟨5, 0⟩ = .ok (some (⟨5, 0⟩, 100)))) &&
      decide (t.find Ex.exHash ⟨5, 0⟩ = .ok (some (⟨5, 0⟩, 100))) &&
      decide (u.find Ex.exHash ⟨5, 0⟩ = .ok (some (⟨5, 1⟩, 200))) &&
      decide (Apart Ex.exHash t.visit u.visit)) (by decide +kernel)
  simp only [Bool.and_eq_true, Res.test_iff, decide_eq_true_eq] at h
  obtain ⟨⟨⟨⟨⟨⟨tl, ⟨⟩⟩, h1, h2⟩, ⟨⟨tr, ⟨⟩⟩, h3, h4⟩⟩, h5⟩, h6⟩, h7⟩ := h
  exact ⟨t, u, tl, tr, ht, hu, h1, h3, h5, h6, h2, h4, h7⟩

omit [BEq L] [BEq S] in
/-- C22, part: a bulk `UnchangedL`, `UnchangedR` or `UnchangedLR` keeps, for each key in both maps, one of the
    two entries.  Missing: that it is the named one (refuted above).  For closures the right side is kept
    (`C21_closures_apart_partial`). -/
theorem C22_one_side_partial {hash : K → BitVec c.w} {t u : Trie c K V}
    (ht : Reach c hash t) (hu : Reach c hash u) {ops : TwtOps K V R} (tame : ops.Tame hash t.visit u.visit)
    (bulk : ∃ r, ops.both = .unchangedL r ∨ ops.both = .unchangedR r ∨ ops.both = .unchangedLR r)
    (reduce : R → R → R) (e : R) (par : Par) {t' : Trie c K V} {r : R}
    (hr : Trie.twt reduce e hash ops par t u = .ok (t', r)) :
    ∀ k a b, t.find hash k = .ok (some a) → u.find hash k = .ok (some b) →
      t'.find hash k = .ok (some a) ∨ t'.find hash k = .ok (some b) := by
  have hk := C21_transform_with_transformed_partial ht hu tame reduce e par hr
  intro k a b ha hb
  obtain ⟨o, h1, h2⟩ := hk k _ _ ha hb
  simp only [MapJointTransform.Entry] at h2
  obtain ⟨r0, h3⟩ := bulk
  rcases h3 with h3 | h3 | h3 <;> rw [h3] at h2 <;> simp only at h2 <;>
    rcases h2 with h2 | h2 <;> rw [h1, h2] <;> simp

end HT
