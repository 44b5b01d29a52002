import Verif.Props.Contents
import Verif.Props.Flip
import Verif.ClosureLemmas
/-!
# Property C46: bulk operations mean constant closures

`op.closure` (`Verif/BulkSpec.lean`, `Verif/ClosureSpec.lean`) is the closure that answers every entry as the bulk
operation says.
-/
namespace HT

variable {K V L W S X R : Type} [BEq K] [BEq L] [BEq S] {c : Cfg} {x : Cross c K L}

omit [BEq L] [BEq S] in
/-- C46: `transform` with a bulk operation gives the entries, in order, and (for a monoid whose identity the
    operation carries) the reduction that the constant closure gives. -/
theorem C46_transform {hash : K → BitVec c.w} {t : Trie c K V} (h : Reach c hash t) (reduce : R → R → R) (e : R)
    (op : MapTransform R (K → V → MapTransformResult V R)) (par : Par) :
    ∃ t₁ r₁ t₂ r₂, t.transform reduce e op par = .ok (t₁, r₁) ∧
      t.transform reduce e (.generic op.closure) par = .ok (t₂, r₂) ∧
      t₁.visit = t₂.visit ∧ Alike hash t₁ t₂ ∧ t₁.size = t₂.size ∧
      (Mon reduce e → op.Neutral e → r₁ = r₂) := by
  obtain ⟨t₁, r₁, e₁, _, v₁, m₁⟩ := Trie.transform_spec h.laws.hash c.levels_pos h.valid reduce e op par
  obtain ⟨t₂, r₂, e₂, _, v₂, m₂⟩ := Trie.transform_spec h.laws.hash c.levels_pos h.valid reduce e
    (.generic op.closure) par
  have hv : t₁.visit = t₂.visit := by
    rw [v₁, v₂]; simp only [MapTransform.outs, MapTransform.closure_eq]; rfl
  have R₁ : Reach c hash t₁ := .transform h e₁
  have R₂ : Reach c hash t₂ := .transform h e₂
  refine ⟨t₁, r₁, t₂, r₂, e₁, e₂, hv, .of_perm R₁ R₂ (by rw [hv]), by rw [R₁.size, R₂.size, hv], fun mon ne => ?_⟩
  rw [m₁ mon ne, m₂ mon trivial]; simp only [MapTransform.reds, MapTransform.closure_eq]; rfl

omit [BEq L] in
/-- C46: the same for `transmute`. -/
theorem C46_transmute {hash : K → BitVec c.w} {t : Trie c K V} (h : Reach c hash t) {hashS : S → BitVec c.w}
    (lawsS : KeyLaws hashS) (reduce : R → R → R) (e : R)
    {op : MapTransmute R (K → V → MapTransmuteResult S X R)} (km : KeyMap hash hashS op.closure) :
    ∃ t₁ r₁ t₂ r₂, t.transmute reduce e op = .ok (t₁, r₁) ∧
      t.transmute reduce e (.generic op.closure) = .ok (t₂, r₂) ∧
      t₁.visit = t₂.visit ∧ Alike hashS t₁ t₂ ∧ t₁.size = t₂.size ∧
      (Mon reduce e → op.Neutral e → r₁ = r₂) := by
  have km' : KeyMap hash hashS op.call := by rw [← MapTransmute.closure_eq]; exact km
  obtain ⟨t₁, r₁, e₁, _, v₁, m₁⟩ := Trie.transmute_spec c.levels_pos h.valid reduce e op km'
  obtain ⟨t₂, r₂, e₂, _, v₂, m₂⟩ := Trie.transmute_spec c.levels_pos h.valid reduce e (.generic op.closure) km
  have hv : t₁.visit = t₂.visit := by
    rw [v₁, v₂]; simp only [MapTransmute.outs, MapTransmute.closure_eq]; rfl
  have R₁ : Reach c hashS t₁ := .transmute h lawsS km e₁
  have R₂ : Reach c hashS t₂ := .transmute h lawsS (op := .generic op.closure) km e₂
  refine ⟨t₁, r₁, t₂, r₂, e₁, e₂, hv, .of_perm R₁ R₂ (by rw [hv]), by rw [R₁.size, R₂.size, hv], fun mon ne => ?_⟩
  rw [m₁ mon ne, m₂ mon trivial]; simp only [MapTransmute.reds, MapTransmute.closure_eq]; rfl

omit [BEq S] in
/-- C46: `transform_with_transmuted` returns with bulk operations exactly when it does with the constant closures, and
    then with the same contents, size and (for a commutative monoid whose identity the bulk operations carry)
    reduction. -/
theorem C46_transform_with_transmuted (laws : CrossLaws x) {t : Trie c K V} (h : Reach c x.hash t) {u : Trie c L W}
    (g : Reach c x.hash' u) {ops : TwmOps K V L W R} (con : ops.Contract x) (reduce : R → R → R) (e : R) (par : Par) :
    ((∃ t' r, Trie.twm x reduce e ops par t u = .ok (t', r)) ↔
      ∃ t' r, Trie.twm x reduce e ops.closures par t u = .ok (t', r)) ∧
    (Trie.twm x reduce e ops par t u = .diverge ↔ Trie.twm x reduce e ops.closures par t u = .diverge) ∧
    (∀ t₁ r₁ t₂ r₂, Trie.twm x reduce e ops par t u = .ok (t₁, r₁) →
      Trie.twm x reduce e ops.closures par t u = .ok (t₂, r₂) →
      Alike x.hash t₁ t₂ ∧ t₁.size = t₂.size ∧ (CMon reduce e → ops.Neutral e → r₁ = r₂)) := by
  have con' := TwmOps.closures_contract.2 con
  have S1 := C23_transform_with_transmuted_partial laws h g con reduce e par
  have S2 := C23_transform_with_transmuted_partial laws h g con' reduce e par
  refine ⟨?_, ?_, ?_⟩
  · by_cases ns : NoStall x t.visit u.visit
    · exact iff_of_true (S1.1 ns) (S2.1 ns)
    · simp [S1.2 ns, S2.2 ns]
  · by_cases ns : NoStall x t.visit u.visit
    · obtain ⟨_, _, e1⟩ := S1.1 ns
      obtain ⟨_, _, e2⟩ := S2.1 ns
      simp [e1, e2]
    · simp [S1.2 ns, S2.2 ns]
  · intro t₁ r₁ t₂ r₂ e₁ e₂
    have P1 := (C24_transform_with_transmuted laws h g con reduce e par e₁).2
    have P2 := (C24_transform_with_transmuted laws h g con' reduce e par e₂).2
    rw [TwmOps.closures_out] at P2
    refine ⟨.of_perm (.transformWithTransmuted h g laws con e₁) (.transformWithTransmuted h g laws con' e₂)
      (P1.1.trans P2.1.symm), by rw [P1.2, P2.2], fun mon ne => ?_⟩
    rw [C34_transform_with_transmuted laws h g con mon ne par e₁,
      C34_transform_with_transmuted laws h g con' mon ⟨trivial, trivial, trivial⟩ par e₂]
    exact congrArg (total reduce e) (List.map_congr_left fun p _ => by cases p <;> rfl)

omit [BEq S] in
/-- C46: the same for `transmute_with_transformed`. -/
theorem C46_transmute_with_transformed (laws : CrossLaws x) {t : Trie c K V} (h : Reach c x.hash t) {u : Trie c L W}
    (g : Reach c x.hash' u) {ops : MwtOps K V L W R} (con : ops.Contract x) (reduce : R → R → R) (e : R) (par : Par) :
    ((∃ t' r, Trie.mwt x reduce e ops par t u = .ok (t', r)) ↔
      ∃ t' r, Trie.mwt x reduce e ops.closures par t u = .ok (t', r)) ∧
    (Trie.mwt x reduce e ops par t u = .diverge ↔ Trie.mwt x reduce e ops.closures par t u = .diverge) ∧
    (∀ t₁ r₁ t₂ r₂, Trie.mwt x reduce e ops par t u = .ok (t₁, r₁) →
      Trie.mwt x reduce e ops.closures par t u = .ok (t₂, r₂) →
      Alike x.hash' t₁ t₂ ∧ t₁.size = t₂.size ∧ (CMon reduce e → ops.Neutral e → r₁ = r₂)) := by
  have con' := MwtOps.closures_contract.2 con
  have S1 := C23_transmute_with_transformed_partial laws h g con reduce e par
  have S2 := C23_transmute_with_transformed_partial laws h g con' reduce e par
  refine ⟨?_, ?_, ?_⟩
  · by_cases ns : NoStall x.flip u.visit t.visit
    · exact iff_of_true (S1.1 ns) (S2.1 ns)
    · simp [S1.2 ns, S2.2 ns]
  · by_cases ns : NoStall x.flip u.visit t.visit
    · obtain ⟨_, _, e1⟩ := S1.1 ns
      obtain ⟨_, _, e2⟩ := S2.1 ns
      simp [e1, e2]
    · simp [S1.2 ns, S2.2 ns]
  · intro t₁ r₁ t₂ r₂ e₁ e₂
    have P1 := (C25_transmute_with_transformed laws h g con reduce e par e₁).2
    have P2 := (C25_transmute_with_transformed laws h g con' reduce e par e₂).2
    rw [MwtOps.closures_out] at P2
    refine ⟨.of_perm (.transmuteWithTransformed h g laws con e₁) (.transmuteWithTransformed h g laws con' e₂)
      (P1.1.trans P2.1.symm), by rw [P1.2, P2.2], fun mon ne => ?_⟩
    rw [C34_transmute_with_transformed laws h g con mon ne par e₁,
      C34_transmute_with_transformed laws h g con' mon ⟨trivial, trivial, trivial⟩ par e₂]
    exact congrArg (total reduce e) (List.map_congr_left fun p _ => by cases p <;> rfl)

/-- C46: the same for `transmute_with_transmuted`. -/
theorem C46_transmute_with_transmuted (laws : CrossLaws x) {hashS : S → BitVec c.w} (lawsS : KeyLaws hashS)
    {t : Trie c K V} (h : Reach c x.hash t) {u : Trie c L W} (g : Reach c x.hash' u) {ops : MwmOps K V L W S X R}
    (con : ops.Contract x hashS) (reduce : R → R → R) (e : R) :
    ((∃ t' r, Trie.mwm x reduce e ops t u = .ok (t', r)) ↔
      ∃ t' r, Trie.mwm x reduce e ops.closures t u = .ok (t', r)) ∧
    (Trie.mwm x reduce e ops t u = .diverge ↔ Trie.mwm x reduce e ops.closures t u = .diverge) ∧
    (∀ t₁ r₁ t₂ r₂, Trie.mwm x reduce e ops t u = .ok (t₁, r₁) →
      Trie.mwm x reduce e ops.closures t u = .ok (t₂, r₂) →
      Alike hashS t₁ t₂ ∧ t₁.size = t₂.size ∧ (CMon reduce e → ops.Neutral e → r₁ = r₂)) := by
  have con' := MwmOps.closures_contract.2 con
  have D := C23_any_operations_transmute laws lawsS lawsS h g con reduce e con' reduce e
  refine ⟨?_, D, ?_⟩
  · rcases Trie.mwm_total laws lawsS con reduce e h.valid g.valid with ⟨d, _⟩ | ⟨t₁, r₁, e₁, _⟩
    · simp [d, D.1 d]
    · rcases Trie.mwm_total laws lawsS con' reduce e h.valid g.valid with ⟨d, _⟩ | ⟨t₂, r₂, e₂, _⟩
      · rw [D.2 d] at e₁; simp at e₁
      · exact iff_of_true ⟨_, _, e₁⟩ ⟨_, _, e₂⟩
  · intro t₁ r₁ t₂ r₂ e₁ e₂
    have P1 := (C26_transmute_with_transmuted laws lawsS h g con reduce e e₁).2.2.2.2.2
    have P2 := (C26_transmute_with_transmuted laws lawsS h g con' reduce e e₂).2.2.2.2.2
    rw [MwmOps.closures_out] at P2
    refine ⟨.of_perm (.transmuteWithTransmuted h g laws lawsS con e₁)
      (.transmuteWithTransmuted h g laws lawsS con' e₂) (P1.1.trans P2.1.symm), by rw [P1.2, P2.2], fun mon ne => ?_⟩
    rw [C34_transmute_with_transmuted laws lawsS h g con mon ne e₁,
      C34_transmute_with_transmuted laws lawsS h g con' mon ⟨trivial, trivial, trivial⟩ e₂]
    exact congrArg (total reduce e) (List.map_congr_left fun p _ => by cases p <;> rfl)

/-- C46 is false of `transform_with_transformed`: the bulk `UnchangedL` and the closure that answers every pair with
    `UnchangedL` keep different entries; and a bulk `UnchangedLR` (with bulk operations on the sides) returns on
    maps on which the same answers, given by closures, do not. -/
theorem C46_refuted :
    (∃ (t u t₁ t₂ : Trie Ex.c8 Ex.Tk Nat), Reach Ex.c8 Ex.exHash t ∧ Reach Ex.c8 Ex.exHash u ∧
      Trie.twt (fun _ _ => ()) () Ex.exHash ⟨.unchangedL (), .unchanged (), .unchanged ()⟩ .sequential t u
        = .ok (t₁, ()) ∧
      Trie.twt (fun _ _ => ()) () Ex.exHash ⟨.generic (fun _ _ _ _ => .unchangedL ()) false,
        .generic fun _ _ => .unchanged (), .generic fun _ _ => .unchanged ()⟩ .sequential t u = .ok (t₂, ()) ∧
      t₁.find Ex.exHash ⟨5, 0⟩ = .ok (some (⟨5, 1⟩, 200)) ∧ t₂.find Ex.exHash ⟨5, 0⟩ = .ok (some (⟨5, 0⟩, 100))) ∧
    (∃ (t u t₁ : Trie Ex.c8 Ex.Tk Nat), Reach Ex.c8 Ex.exHash t ∧ Reach Ex.c8 Ex.exHash u ∧
      Trie.twt (fun _ _ => ()) () Ex.exHash ⟨.unchangedLR (), .unchanged (), .removed ()⟩ .sequential t u
        = .ok (t₁, ()) ∧
      Trie.twt (fun _ _ => ()) () Ex.exHash ⟨.generic (fun _ _ _ _ => .unchangedLR ()) false,
        .generic fun _ _ => .unchanged (), .generic fun _ _ => .removed ()⟩ .sequential t u = .diverge) := by
  constructor
  · obtain ⟨t, u, ht, hu, h⟩ := exists_reach2 (c := Ex.c8) Ex.exLaws Ex.exLaws
      [(⟨5, 0⟩, 100)] [(⟨5, 1⟩, 200), (⟨81, 1⟩, 300)] (fun (t u : Trie Ex.c8 Ex.Tk Nat) =>
        ((Trie.twt (fun _ _ => ()) () Ex.exHash ⟨.unchangedL (), .unchanged (), .unchanged ()⟩ .sequential t u).test
          fun (y : Trie Ex.c8 Ex.Tk Nat × Unit) => decide (y.1.find Ex.exHash ⟨5, 0⟩ = .ok (some (⟨5, 1⟩, 200)))) &&
        ((Trie.twt (fun _ _ => ()) () Ex.exHash ⟨.generic (fun _ _ _ _ => .unchangedL ()) false,
          .generic fun _ _ => .unchanged (), .generic fun _ _ => .unchanged ()⟩ .sequential t u).test
          fun (y : Trie Ex.c8 Ex.Tk Nat × Unit) => decide (y.1.find Ex.exHash ⟨5, 0⟩ = .ok (some (⟨5, 0⟩, 100)))))
      (by decide +kernel)
    simp only [Bool.and_eq_true, Res.test_iff, decide_eq_true_eq] at h
    obtain ⟨⟨⟨t₁, ⟨⟩⟩, h1, h2⟩, ⟨⟨t₂, ⟨⟩⟩, h3, h4⟩⟩ := h
    exact ⟨t, u, t₁, t₂, ht, hu, h1, h3, h2, h4⟩
  · obtain ⟨t, u, ht, hu, h⟩ := exists_reach2 (c := Ex.c8) Ex.exLaws Ex.exLaws
      [(⟨1, 0⟩, 1), (⟨2, 0⟩, 2), (⟨3, 0⟩, 3), (⟨80, 0⟩, 6)]
      [(⟨3, 0⟩, 3), (⟨4, 0⟩, 4), (⟨5, 0⟩, 5), (⟨80, 0⟩, 6)] (fun (t u : Trie Ex.c8 Ex.Tk Nat) =>
        ((Trie.twt (fun _ _ => ()) () Ex.exHash ⟨.unchangedLR (), .unchanged (), .removed ()⟩ .sequential t u).test
          fun (_ : Trie Ex.c8 Ex.Tk Nat × Unit) => true) &&
        (Trie.twt (fun _ _ => ()) () Ex.exHash ⟨.generic (fun _ _ _ _ => .unchangedLR ()) false,
          .generic fun _ _ => .unchanged (), .generic fun _ _ => .removed ()⟩ .sequential t u).diverges)
      (by decide +kernel)
    simp only [Bool.and_eq_true, Res.test_iff, Res.diverges_iff] at h
    obtain ⟨⟨⟨t₁, ⟨⟩⟩, h1, _⟩, h3⟩ := h
    exact ⟨t, u, t₁, ht, hu, h1, h3⟩

omit [BEq L] [BEq S] in
/-- C46: the reductions of `transform_with_transformed` with bulk operations and with the closures that answer as they
    do are the same whenever both calls return (for a commutative monoid whose identity the bulk operations carry). -/
theorem C46_transform_with_transformed_reduction {hash : K → BitVec c.w} {t u : Trie c K V} (h : Reach c hash t)
    (g : Reach c hash u) {ops : TwtOps K V R} {reduce : R → R → R} {e : R} (mon : CMon reduce e) (ne : ops.Neutral e)
    (par par' : Par) {t₁ t₂ : Trie c K V} {r₁ r₂ : R} (e₁ : Trie.twt reduce e hash ops par t u = .ok (t₁, r₁))
    (e₂ : Trie.twt reduce e hash ops.closures par' t u = .ok (t₂, r₂)) : r₁ = r₂ := by
  rw [C34_transform_with_transformed h g mon ne par e₁,
    C34_transform_with_transformed (ops := ops.closures) h g mon ⟨trivial, trivial, trivial⟩ par' e₂]
  exact congrArg (total reduce e) (List.map_congr_left fun p _ => by cases p <;> rfl)

omit [BEq L] [BEq S] in
/-- C46 for `transform_with_transformed`, part: when both calls return and the answers are tame, the same keys are
    found in the results, with the same entries for the keys of one map only; the sizes and (for a commutative
    monoid whose identity the bulk operations carry) the reductions agree.  Missing: that the calls both return,
    and which entry is kept for a key of both maps (refuted above). -/
theorem C46_transform_with_transformed_partial {hash : K → BitVec c.w} {t u : Trie c K V} (h : Reach c hash t)
    (g : Reach c hash u) {ops : TwtOps K V R} (tame : ops.Tame hash t.visit u.visit)
    (tame' : ops.closures.Tame hash t.visit u.visit) (reduce : R → R → R) (e : R) (par : Par) {t₁ t₂ : Trie c K V}
    {r₁ r₂ : R} (e₁ : Trie.twt reduce e hash ops par t u = .ok (t₁, r₁))
    (e₂ : Trie.twt reduce e hash ops.closures par t u = .ok (t₂, r₂)) :
    (∀ k, t₁.find hash k = .ok none ↔ t₂.find hash k = .ok none) ∧
    (∀ k, t.find hash k = .ok none ∨ u.find hash k = .ok none → t₁.find hash k = t₂.find hash k) ∧
    t₁.size = t₂.size ∧ (CMon reduce e → ops.Neutral e → r₁ = r₂) := by
  have P1 := C21_transform_with_transformed_partial h g tame reduce e par e₁
  have P2 := C21_transform_with_transformed_partial h g tame' reduce e par e₂
  have same : ∀ k, (t₁.find hash k = .ok none ↔ t₂.find hash k = .ok none) ∧
      (t.find hash k = .ok none ∨ u.find hash k = .ok none → t₁.find hash k = t₂.find hash k) := by
    intro k
    obtain ⟨o₁, f₁, q₁⟩ := P1 k _ _ (h.find k) (g.find k)
    obtain ⟨o₂, f₂, q₂⟩ := P2 k _ _ (h.find k) (g.find k)
    rw [f₁, f₂, h.find k, g.find k]
    revert q₁ q₂
    cases t.visit.find? (fun e => e.1 == k) <;> cases u.visit.find? (fun e => e.1 == k) <;> intro q₁ q₂
    · simp only at q₁ q₂; simp [q₁, q₂]
    · simp only at q₁ q₂; simp [q₁, q₂, TwtOps.closures, MapTransform.closure]
    · simp only at q₁ q₂; simp [q₁, q₂, TwtOps.closures, MapTransform.closure]
    · have i₁ := MapJointTransform.entry_isSome q₁
      have i₂ := MapJointTransform.entry_isSome q₂
      have : o₁.isSome = o₂.isSome := i₁.trans i₂.symm
      cases o₁ <;> cases o₂ <;> simp at this <;> simp
  have R₁ : Reach c hash t₁ := .transformWithTransformed h g tame e₁
  have R₂ : Reach c hash t₂ := .transformWithTransformed h g tame' e₂
  refine ⟨fun k => (same k).1, fun k => (same k).2, ?_, fun mon ne => ?_⟩
  · rw [R₁.size, R₂.size]
    have count : ∀ {o : TwtOps K V R}, o.Tame hash t.visit u.visit → ∀ {t' r}, Trie.twt reduce e hash o par t u = .ok (t', r) →
        t'.visit.length = (((Cross.same hash).cases t.visit u.visit).filter fun p => match p with
          | .left a => ((o.left.closure a.1 a.2).entry a).isSome
          | .right b => ((o.right.closure b.1 b.2).entry b).isSome
          | .both a b => (o.both.closure a.1 a.2 b.1 b.2).keeps).length := by
      intro o tm t' r hr
      rcases Trie.twt_total h.laws reduce e par h.valid g.valid tm with ⟨d, _⟩ | ⟨t1, r1, h1, _, ho, _⟩
      · rw [hr] at d; simp at d
      · rw [hr] at h1; injection h1 with h1; injection h1 with h1 _; subst h1
        refine ho.length_eq fun p _ o' hp => ?_
        cases p with
        | left a => have hp : o' = _ := hp; rw [hp]
        | right b => have hp : o' = _ := hp; rw [hp]
        | both a b => exact MapJointTransform.entry_isSome hp
    rw [count tame e₁, count tame' e₂]
    congr 1
  · exact C46_transform_with_transformed_reduction h g mon ne par par e₁ e₂

/-- Maps with a collision in each, a bulk operation on both sides and for pairs: all six calls return, with something
    removed and something kept, and the bulk operations carry the identity. -/
example : ∃ (t u : Trie Ex.c8 Ex.Tk Nat), Reach Ex.c8 Ex.exHash t ∧ Reach Ex.c8 Ex.exHash u ∧
    NoStall (Cross.same Ex.exHash) t.visit u.visit ∧ NoStall (Cross.same Ex.exHash) u.visit t.visit ∧
    (∃ y, Trie.twm (Cross.same Ex.exHash) (· + ·) 0
      (⟨.unchanged 0, .removed 0, .generic fun k v => .transmuted k v 1⟩ : TwmOps Ex.Tk Nat Ex.Tk Nat Nat) .sequential t u = .ok y ∧
      decide (0 < y.1.size ∧ y.1.visit ≠ t.visit ∧ 0 < y.2) = true) ∧
    (∃ y, Trie.twt (· + ·) 0 Ex.exHash
      (⟨.removed 0, .unchanged 0, .generic fun _ v => .transformed v 1⟩ : TwtOps Ex.Tk Nat Nat) .sequential t u = .ok y ∧
      decide (0 < y.1.size ∧ 0 < y.2 ∧ y.1.visit ≠ t.visit) = true) := by
  obtain ⟨t, u, h₁, hu, h⟩ := exists_reach2 (c := Ex.c8) Ex.exLaws Ex.exLaws Ex.apartL Ex.apartR
    (fun (t u : Trie Ex.c8 Ex.Tk Nat) => decide
      (NoStall (Cross.same Ex.exHash) t.visit u.visit ∧ NoStall (Cross.same Ex.exHash) u.visit t.visit) &&
      ((Trie.twm (Cross.same Ex.exHash) (· + ·) 0
        (⟨.unchanged 0, .removed 0, .generic fun k v => .transmuted k v 1⟩ : TwmOps Ex.Tk Nat Ex.Tk Nat Nat) .sequential t u).test
        fun (y : Trie Ex.c8 Ex.Tk Nat × Nat) => decide (0 < y.1.size ∧ y.1.visit ≠ t.visit ∧ 0 < y.2)) &&
      ((Trie.twt (· + ·) 0 Ex.exHash
        (⟨.removed 0, .unchanged 0, .generic fun _ v => .transformed v 1⟩ : TwtOps Ex.Tk Nat Nat) .sequential t u).test
        fun (y : Trie Ex.c8 Ex.Tk Nat × Nat) => decide (0 < y.1.size ∧ 0 < y.2 ∧ y.1.visit ≠ t.visit)))
    (by decide +kernel)
  simp only [Bool.and_eq_true, Res.test_iff, decide_eq_true_eq] at h
  obtain ⟨⟨⟨h1, h2⟩, ⟨y, h3, h4⟩⟩, ⟨z, h5, h6⟩⟩ := h
  exact ⟨t, u, h₁, hu, h1, h2, ⟨y, h3, by simpa using h4⟩, ⟨z, h5, by simpa using h6⟩⟩

/-- The answers are tame, for any operations and their closures, on these maps. -/
example (ops : TwtOps Ex.Tk Nat Nat) : ∃ (t u : Trie Ex.c8 Ex.Tk Nat), Reach Ex.c8 Ex.exHash t ∧ Reach Ex.c8 Ex.exHash u ∧
    ops.Tame Ex.exHash t.visit u.visit ∧ ops.closures.Tame Ex.exHash t.visit u.visit ∧ t.size = 4 ∧ u.size = 4 := by
  obtain ⟨t, u, h₁, hu, h⟩ := exists_reach2 (c := Ex.c8) Ex.exLaws Ex.exLaws Ex.apartL Ex.apartR
    (fun (t u : Trie Ex.c8 Ex.Tk Nat) => decide (Apart Ex.exHash t.visit u.visit ∧ t.size = 4 ∧ u.size = 4))
    (by decide +kernel)
  have h := of_decide_eq_true h
  exact ⟨t, u, h₁, hu, ops.tame_of_apart h.1, ops.closures.tame_of_apart h.1, h.2⟩

end HT
