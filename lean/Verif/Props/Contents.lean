import Verif.Props.Joint
import Verif.Props.Reduce
import Verif.Alike
import Verif.Props.Histories
/-!
# Property C45: joint operations see the contents only

Two maps that answer every `find` alike hold the same entries, in tries whose shapes may differ.
-/
namespace HT

variable {K V L W S X R : Type} [BEq K] [BEq L] [BEq S] {c : Cfg} {x : Cross c K L}

/-- C45 is false: two maps holding the same two (colliding) entries, one of them after an insertion and a
    removal, on which `transmute_with_transmuted` and `transform_with_transformed` with the same third map and
    operations return, respectively do not return. -/
theorem C45_refuted :
    ∃ (t₁ t₂ u : Trie Ex.c8 Ex.Tk Nat), Reach Ex.c8 Ex.exHash t₁ ∧ Reach Ex.c8 Ex.exHash t₂ ∧
      Reach Ex.c8 Ex.exHash u ∧ Alike Ex.exHash t₁ t₂ ∧ t₁.visit = t₂.visit ∧
      (∃ t' r, Trie.mwm (Cross.same Ex.exHash) (fun _ _ => ()) ()
        ⟨.generic fun k v _ _ => .transmuted k v (), .generic fun k v => .transmuted k v (),
          .generic fun k v => .transmuted k v ()⟩ t₁ u = .ok (t', r)) ∧
      Trie.mwm (Cross.same Ex.exHash) (fun _ _ => ()) ()
        ⟨.generic fun k v _ _ => .transmuted k v (), .generic fun k v => .transmuted k v (),
          .generic fun k v => .transmuted k v ()⟩ t₂ u = .diverge ∧
      (∃ t' r, Trie.twt (fun _ _ => ()) () Ex.exHash
        ⟨.generic (fun _ _ _ _ => .unchangedL ()) false, .generic fun _ _ => .unchanged (),
          .generic fun _ _ => .unchanged ()⟩ .sequential t₁ u = .ok (t', r)) ∧
      Trie.twt (fun _ _ => ()) () Ex.exHash
        ⟨.generic (fun _ _ _ _ => .unchangedL ()) false, .generic fun _ _ => .unchanged (),
          .generic fun _ _ => .unchanged ()⟩ .sequential t₂ u = .diverge := by
  obtain ⟨t₁, u, h₁, hu, h⟩ := exists_reach2 (c := Ex.c8) Ex.exLaws Ex.exLaws
    [(⟨1, 0⟩, 1), (⟨2, 0⟩, 2)] [(⟨3, 0⟩, 3), (⟨4, 0⟩, 4), (⟨5, 0⟩, 5), (⟨80, 0⟩, 6)]
    (fun (t u : Trie Ex.c8 Ex.Tk Nat) =>
      (match t.insert Ex.exHash ⟨80, 0⟩ 7 false with
      | .ok (.ok (t₁, _, _)) => (match t₁.remove Ex.exHash ⟨80, 0⟩ with
        | .ok (some (t₂, _)) =>
          decide (t.visit = t₂.visit) &&
          (Trie.mwm (Cross.same Ex.exHash) (fun _ _ => ()) ()
            ⟨.generic fun k v _ _ => .transmuted k v (), .generic fun k v => .transmuted k v (),
              .generic fun k v => .transmuted k v ()⟩ t₂ u).diverges &&
          (Trie.twt (fun _ _ => ()) () Ex.exHash
            ⟨.generic (fun _ _ _ _ => .unchangedL ()) false, .generic fun _ _ => .unchanged (),
              .generic fun _ _ => .unchanged ()⟩ .sequential t₂ u).diverges
        | _ => false)
      | _ => false) &&
      ((Trie.mwm (Cross.same Ex.exHash) (fun _ _ => ()) ()
        ⟨.generic fun k v _ _ => .transmuted k v (), .generic fun k v => .transmuted k v (),
          .generic fun k v => .transmuted k v ()⟩ t u).test fun (_ : Trie Ex.c8 Ex.Tk Nat × Unit) => true) &&
      ((Trie.twt (fun _ _ => ()) () Ex.exHash
        ⟨.generic (fun _ _ _ _ => .unchangedL ()) false, .generic fun _ _ => .unchanged (),
          .generic fun _ _ => .unchanged ()⟩ .sequential t u).test
        fun (_ : Trie Ex.c8 Ex.Tk Nat × Unit) => true)) (by decide +kernel)
  simp only [Bool.and_eq_true, Res.test_iff] at h
  obtain ⟨⟨hd, ⟨⟨t', r'⟩, hm, _⟩⟩, ⟨⟨t'', r''⟩, hw, _⟩⟩ := h
  split at hd
  · rename_i t0 _ _ hi
    split at hd
    · rename_i t₂ _ hrm
      simp only [Bool.and_eq_true, decide_eq_true_eq, Res.diverges_iff] at hd
      have h₂ : Reach Ex.c8 Ex.exHash t₂ := by
        have h0 := Reach.insert h₁ (h₁.query _) (h₁.laws.refl _) hi
        exact Reach.remove h0 (h0.query _) hrm
      exact ⟨t₁, t₂, u, h₁, h₂, hu, .of_perm h₁ h₂ (by rw [hd.1.1]), hd.1.1, ⟨t', r', hm⟩, hd.1.2,
        ⟨t'', r'', hw⟩, hd.2⟩
    · simp at hd
  · simp at hd

omit [BEq S] in
/-- C45 for `transform_with_transmuted`: on maps with the same contents the calls both return or both do not;
    the results have the same contents and, for commutative reductions, the reductions are equal. -/
theorem C45_transform_with_transmuted (laws : CrossLaws x) {t₁ t₂ : Trie c K V} (h₁ : Reach c x.hash t₁)
    (h₂ : Reach c x.hash t₂) (al : Alike x.hash t₁ t₂) {u₁ u₂ : Trie c L W} (g₁ : Reach c x.hash' u₁)
    (g₂ : Reach c x.hash' u₂) (al' : Alike x.hash' u₁ u₂) {ops : TwmOps K V L W R} (con : ops.Contract x)
    (reduce : R → R → R) (e : R) (par : Par) :
    (Trie.twm x reduce e ops par t₁ u₁ = .diverge ↔ Trie.twm x reduce e ops par t₂ u₂ = .diverge) ∧
    ((∃ t' r, Trie.twm x reduce e ops par t₁ u₁ = .ok (t', r)) ↔
      ∃ t' r, Trie.twm x reduce e ops par t₂ u₂ = .ok (t', r)) ∧
    (∀ t₁' r₁ t₂' r₂, Trie.twm x reduce e ops par t₁ u₁ = .ok (t₁', r₁) →
      Trie.twm x reduce e ops par t₂ u₂ = .ok (t₂', r₂) →
      Alike x.hash t₁' t₂' ∧ t₁'.size = t₂'.size ∧ (CMon reduce e → ops.Neutral e → r₁ = r₂)) := by
  have p := al.perm h₁ h₂
  have q := al'.perm g₁ g₂
  have S1 := C23_transform_with_transmuted_partial laws h₁ g₁ con reduce e par
  have S2 := C23_transform_with_transmuted_partial laws h₂ g₂ con reduce e par
  have cp := cases_perm laws g₁.distinct g₂.distinct p q
  refine ⟨?_, ?_, ?_⟩
  · by_cases ns : NoStall x t₁.visit u₁.visit
    · obtain ⟨_, _, e1⟩ := S1.1 ns
      obtain ⟨_, _, e2⟩ := S2.1 ((NoStall.perm p q).1 ns)
      simp [e1, e2]
    · simp [S1.2 ns, S2.2 (fun h => ns ((NoStall.perm p q).2 h))]
  · by_cases ns : NoStall x t₁.visit u₁.visit
    · exact iff_of_true (S1.1 ns) (S2.1 ((NoStall.perm p q).1 ns))
    · simp [S1.2 ns, S2.2 (fun h => ns ((NoStall.perm p q).2 h))]
  · intro t₁' r₁ t₂' r₂ e₁ e₂
    have P1 := (C24_transform_with_transmuted laws h₁ g₁ con reduce e par e₁).2
    have P2 := (C24_transform_with_transmuted laws h₂ g₂ con reduce e par e₂).2
    have fp := cp.filterMap ops.out
    refine ⟨.of_perm (.transformWithTransmuted h₁ g₁ laws con e₁) (.transformWithTransmuted h₂ g₂ laws con e₂)
      (P1.1.trans (fp.trans P2.1.symm)), by rw [P1.2, P2.2, fp.length_eq], fun mon ne => ?_⟩
    rw [C34_transform_with_transmuted laws h₁ g₁ con mon ne par e₁,
      C34_transform_with_transmuted laws h₂ g₂ con mon ne par e₂]
    exact mon.total_perm (cp.map _)

omit [BEq S] in
/-- C45 for `transmute_with_transformed`. -/
theorem C45_transmute_with_transformed (laws : CrossLaws x) {t₁ t₂ : Trie c K V} (h₁ : Reach c x.hash t₁)
    (h₂ : Reach c x.hash t₂) (al : Alike x.hash t₁ t₂) {u₁ u₂ : Trie c L W} (g₁ : Reach c x.hash' u₁)
    (g₂ : Reach c x.hash' u₂) (al' : Alike x.hash' u₁ u₂) {ops : MwtOps K V L W R} (con : ops.Contract x)
    (reduce : R → R → R) (e : R) (par : Par) :
    (Trie.mwt x reduce e ops par t₁ u₁ = .diverge ↔ Trie.mwt x reduce e ops par t₂ u₂ = .diverge) ∧
    ((∃ t' r, Trie.mwt x reduce e ops par t₁ u₁ = .ok (t', r)) ↔
      ∃ t' r, Trie.mwt x reduce e ops par t₂ u₂ = .ok (t', r)) ∧
    (∀ t₁' r₁ t₂' r₂, Trie.mwt x reduce e ops par t₁ u₁ = .ok (t₁', r₁) →
      Trie.mwt x reduce e ops par t₂ u₂ = .ok (t₂', r₂) →
      Alike x.hash' t₁' t₂' ∧ t₁'.size = t₂'.size ∧ (CMon reduce e → ops.Neutral e → r₁ = r₂)) := by
  have p := al.perm h₁ h₂
  have q := al'.perm g₁ g₂
  have S1 := C23_transmute_with_transformed_partial laws h₁ g₁ con reduce e par
  have S2 := C23_transmute_with_transformed_partial laws h₂ g₂ con reduce e par
  have cp := cases_perm laws g₁.distinct g₂.distinct p q
  refine ⟨?_, ?_, ?_⟩
  · by_cases ns : NoStall x.flip u₁.visit t₁.visit
    · obtain ⟨_, _, e1⟩ := S1.1 ns
      obtain ⟨_, _, e2⟩ := S2.1 ((NoStall.perm q p).1 ns)
      simp [e1, e2]
    · simp [S1.2 ns, S2.2 (fun h => ns ((NoStall.perm q p).2 h))]
  · by_cases ns : NoStall x.flip u₁.visit t₁.visit
    · exact iff_of_true (S1.1 ns) (S2.1 ((NoStall.perm q p).1 ns))
    · simp [S1.2 ns, S2.2 (fun h => ns ((NoStall.perm q p).2 h))]
  · intro t₁' r₁ t₂' r₂ e₁ e₂
    have P1 := (C25_transmute_with_transformed laws h₁ g₁ con reduce e par e₁).2
    have P2 := (C25_transmute_with_transformed laws h₂ g₂ con reduce e par e₂).2
    have fp := cp.filterMap ops.out
    refine ⟨.of_perm (.transmuteWithTransformed h₁ g₁ laws con e₁) (.transmuteWithTransformed h₂ g₂ laws con e₂)
      (P1.1.trans (fp.trans P2.1.symm)), by rw [P1.2, P2.2, fp.length_eq], fun mon ne => ?_⟩
    rw [C34_transmute_with_transformed laws h₁ g₁ con mon ne par e₁,
      C34_transmute_with_transformed laws h₂ g₂ con mon ne par e₂]
    exact mon.total_perm (cp.map _)

/-- C45 for `transmute_with_transmuted`, part: when both calls return - for sure if no hash is shared by two
    keys of one map and three of the other, and certainly not if one is shared by three of each
    (`C23_transmute_with_transmuted_partial`).  Missing: the calls may return on one pair and not on the other. -/
theorem C45_transmute_with_transmuted_partial (laws : CrossLaws x) {hashS : S → BitVec c.w}
    (lawsS : KeyLaws hashS) {t₁ t₂ : Trie c K V} (h₁ : Reach c x.hash t₁)
    (h₂ : Reach c x.hash t₂) (al : Alike x.hash t₁ t₂) {u₁ u₂ : Trie c L W} (g₁ : Reach c x.hash' u₁)
    (g₂ : Reach c x.hash' u₂) (al' : Alike x.hash' u₁ u₂) {ops : MwmOps K V L W S X R}
    (con : ops.Contract x hashS) (reduce : R → R → R) (e : R)
    {t₁' t₂' : Trie c S X} {r₁ r₂ : R} (e₁ : Trie.mwm x reduce e ops t₁ u₁ = .ok (t₁', r₁))
    (e₂ : Trie.mwm x reduce e ops t₂ u₂ = .ok (t₂', r₂)) :
    Alike hashS t₁' t₂' ∧ t₁'.size = t₂'.size ∧ (CMon reduce e → ops.Neutral e → r₁ = r₂) := by
  have cp := cases_perm laws g₁.distinct g₂.distinct (al.perm h₁ h₂) (al'.perm g₁ g₂)
  have P1 := (C26_transmute_with_transmuted laws lawsS h₁ g₁ con reduce e e₁).2.2.2.2.2
  have P2 := (C26_transmute_with_transmuted laws lawsS h₂ g₂ con reduce e e₂).2.2.2.2.2
  have fp := cp.filterMap ops.out
  refine ⟨.of_perm (.transmuteWithTransmuted h₁ g₁ laws lawsS con e₁)
    (.transmuteWithTransmuted h₂ g₂ laws lawsS con e₂)
    (P1.1.trans (fp.trans P2.1.symm)), by rw [P1.2, P2.2, fp.length_eq], fun mon ne => ?_⟩
  rw [C34_transmute_with_transmuted laws lawsS h₁ g₁ con mon ne e₁,
    C34_transmute_with_transmuted laws lawsS h₂ g₂ con mon ne e₂]
  exact mon.total_perm (cp.map _)

omit [BEq L] [BEq S] in
/-- C45: the reduction of `transform_with_transformed`, for a commutative monoid whose identity the bulk operations
    carry, is the same on maps with the same contents, whenever both calls return. -/
theorem C45_transform_with_transformed_reduction {hash : K → BitVec c.w} {t₁ t₂ u₁ u₂ : Trie c K V}
    (h₁ : Reach c hash t₁) (h₂ : Reach c hash t₂) (al : Alike hash t₁ t₂) (g₁ : Reach c hash u₁)
    (g₂ : Reach c hash u₂) (al' : Alike hash u₁ u₂) {ops : TwtOps K V R} {reduce : R → R → R} {e : R}
    (mon : CMon reduce e) (ne : ops.Neutral e) (par par' : Par) {t₁' t₂' : Trie c K V} {r₁ r₂ : R}
    (e₁ : Trie.twt reduce e hash ops par t₁ u₁ = .ok (t₁', r₁))
    (e₂ : Trie.twt reduce e hash ops par' t₂ u₂ = .ok (t₂', r₂)) : r₁ = r₂ := by
  rw [C34_transform_with_transformed h₁ g₁ mon ne par e₁, C34_transform_with_transformed h₂ g₂ mon ne par' e₂]
  exact mon.total_perm ((cases_perm (x := Cross.same hash) (.same h₁.laws) g₁.distinct g₂.distinct
    (al.perm h₁ h₂) (al'.perm g₁ g₂)).map _)

omit [BEq L] [BEq S] in
/-- C45 for `transform_with_transformed`, part: when both calls return, the answers are tame and the two-sided
    closure names a side or removes (with `UnchangedLR` or `Transformed` the key object stored may be that of
    either side). -/
theorem C45_transform_with_transformed_partial {hash : K → BitVec c.w} {t₁ t₂ u₁ u₂ : Trie c K V}
    (h₁ : Reach c hash t₁) (h₂ : Reach c hash t₂) (al : Alike hash t₁ t₂) (g₁ : Reach c hash u₁)
    (g₂ : Reach c hash u₂) (al' : Alike hash u₁ u₂)
    {both : K → V → K → V → MapJointTransformResult V R} {left right : MapTransform R (K → V → MapTransformResult V R)}
    (named : ∀ k v k' v', match both k v k' v' with
      | .unchangedL _ | .unchangedR _ | .removed _ => True
      | _ => False)
    (tame₁ : TwtOps.Tame ⟨.generic both false, left, right⟩ hash t₁.visit u₁.visit)
    (tame₂ : TwtOps.Tame ⟨.generic both false, left, right⟩ hash t₂.visit u₂.visit)
    (reduce : R → R → R) (e : R) (par : Par) {t₁' t₂' : Trie c K V} {r₁ r₂ : R}
    (e₁ : Trie.twt reduce e hash ⟨.generic both false, left, right⟩ par t₁ u₁ = .ok (t₁', r₁))
    (e₂ : Trie.twt reduce e hash ⟨.generic both false, left, right⟩ par t₂ u₂ = .ok (t₂', r₂)) :
    Alike hash t₁' t₂' ∧ t₁'.size = t₂'.size ∧
      (CMon reduce e → left.Neutral e → right.Neutral e → r₁ = r₂) := by
  have P1 := C21_transform_with_transformed_partial h₁ g₁ tame₁ reduce e par e₁
  have P2 := C21_transform_with_transformed_partial h₂ g₂ tame₂ reduce e par e₂
  have al3 : Alike hash t₁' t₂' := by
    intro k
    obtain ⟨o₁, f₁, q₁⟩ := P1 k _ _ (h₁.find k) (g₁.find k)
    obtain ⟨o₂, f₂, q₂⟩ := P2 k _ _ (by rw [← al k]; exact h₁.find k) (by rw [← al' k]; exact g₁.find k)
    rw [f₁, f₂]
    congr 1
    revert q₁ q₂
    cases t₁.visit.find? (fun e => e.1 == k) <;> cases u₁.visit.find? (fun e => e.1 == k) <;>
      intro q₁ q₂
    · exact q₁.trans q₂.symm
    · exact q₁.trans q₂.symm
    · exact q₁.trans q₂.symm
    · rename_i a b
      have := named a.1 a.2 b.1 b.2
      simp only [MapJointTransform.Entry, MapJointTransform.closure] at q₁ q₂
      revert this q₁ q₂
      cases both a.1 a.2 b.1 b.2 <;> simp only [MapJointTransformResult.Entry] <;> intro q₁ q₂ this <;>
        first | exact this.elim | exact q₁.trans q₂.symm
  have R1 : Reach c hash t₁' := .transformWithTransformed h₁ g₁ tame₁ e₁
  have R2 : Reach c hash t₂' := .transformWithTransformed h₂ g₂ tame₂ e₂
  refine ⟨al3, by rw [R1.size, R2.size, (al3.perm R1 R2).length_eq], fun mon nl nr => ?_⟩
  exact C45_transform_with_transformed_reduction (ops := ⟨.generic both false, left, right⟩) h₁ h₂ al g₁ g₂ al' mon
    ⟨trivial, nl, nr⟩ par par e₁ e₂

/-- Alike maps of different shapes on which all four operations return: four entries, and the same after
    inserting and removing a key that pushes an entry one level down. -/
example : ∃ (t₁ t₂ u : Trie Ex.c8 Ex.Tk Nat), Reach Ex.c8 Ex.exHash t₁ ∧ Reach Ex.c8 Ex.exHash t₂ ∧
    Reach Ex.c8 Ex.exHash u ∧ Alike Ex.exHash t₁ t₂ ∧ t₁.size = 4 ∧ t₁.root.height ≠ t₂.root.height ∧
    NoStall (Cross.same Ex.exHash) t₁.visit u.visit ∧ NoStall (Cross.same Ex.exHash) u.visit t₁.visit := by
  obtain ⟨t₁, u, h₁, hu, h⟩ := exists_reach2 (c := Ex.c8) Ex.exLaws Ex.exLaws Ex.apartL Ex.apartR
    (fun (t u : Trie Ex.c8 Ex.Tk Nat) =>
      (match t.insert Ex.exHash ⟨721, 0⟩ 7 false with
      | .ok (.ok (t₁, _, _)) => (match t₁.remove Ex.exHash ⟨721, 0⟩ with
        | .ok (some (t₂, _)) => decide (t.visit = t₂.visit ∧ t.root.height ≠ t₂.root.height)
        | _ => false)
      | _ => false) && decide (t.size = 4 ∧
        NoStall (Cross.same Ex.exHash) t.visit u.visit ∧ NoStall (Cross.same Ex.exHash) u.visit t.visit))
    (by decide +kernel)
  simp only [Bool.and_eq_true, decide_eq_true_eq] at h
  obtain ⟨hd, hs⟩ := h
  split at hd
  · rename_i t0 _ _ hi
    split at hd
    · rename_i t₂ _ hrm
      have hd := of_decide_eq_true hd
      have h₂ : Reach Ex.c8 Ex.exHash t₂ := by
        have h0 := Reach.insert h₁ (h₁.query _) (h₁.laws.refl _) hi
        exact Reach.remove h0 (h0.query _) hrm
      exact ⟨t₁, t₂, u, h₁, h₂, hu, .of_perm h₁ h₂ (by rw [hd.1]), hs.1, hd.2, hs.2.1, hs.2.2⟩
    · simp at hd
  · simp at hd

end HT
