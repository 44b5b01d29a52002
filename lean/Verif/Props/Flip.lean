import Verif.Props.Joint
import Verif.Props.Reduce
import Verif.ReachSize
import Verif.Api
/-!
# Property C41: flipping an operation, exchanging the maps

The functions `flip`, `flip_transform_transmute`, `flip_transmute_transform`, `flip_transmute` of the operation
types are public and documented to make an operation "respond correctly to arguments in the reverse order".
-/
namespace HT

variable {K V L W S X R : Type} {c : Cfg}

/-! ## The operations -/

/-- C41: the two-sided operations of `transform_with_transmuted`, `transmute_with_transformed` and
    `transmute_with_transmuted`, on maps and on sets: the flipped operation gives the same answer when its
    arguments are exchanged, and flipping twice gives back the operation.  `call2` and `flip2` model
    `call_transform_transmute`, `call_transmute_transform`, `call_transmute` and the matching flips. -/
theorem C41_flip {A : Type} (op : MapTransform R (K → V → L → W → MapTransformResult A R))
    (opm : MapTransmute R (K → V → L → W → MapTransmuteResult S X R))
    (ops : SetTransform R (K → L → SetTransformResult R))
    (opx : SetTransmute R (K → L → SetTransmuteResult S R)) :
    (∀ k v l w, op.flip2.call2 l w k v = op.call2 k v l w) ∧ op.flip2.flip2 = op ∧
    (∀ k v l w, opm.flip.call2 l w k v = opm.call2 k v l w) ∧ opm.flip.flip = opm ∧
    (∀ k l, ops.flip2.call2 l k = ops.call2 k l) ∧ ops.flip2.flip2 = ops ∧
    (∀ k l, opx.flip.call2 l k = opx.call2 k l) ∧ opx.flip.flip = opx := by
  refine ⟨?_, ?_, ?_, ?_, ?_, ?_, ?_, ?_⟩
  · cases op <;> exact fun _ _ _ _ => rfl
  · cases op <;> rfl
  · cases opm <;> exact fun _ _ _ _ => rfl
  · cases opm <;> rfl
  · cases ops <;> exact fun _ _ => rfl
  · cases ops <;> rfl
  · cases opx <;> exact fun _ _ => rfl
  · cases opx <;> rfl

/-- What flipping a joint transformation promises: an answer about exchanged entries names the exchanged side. -/
def MapJointTransform.Mirrors (op : MapJointTransform R (K → V → K → V → MapJointTransformResult V R)) : Prop :=
  ∀ k v l w, match op.call k v l w with
    | .unchangedLR r => op.flip.call l w k v = .unchangedLR r
    | .unchangedL r => op.flip.call l w k v = .unchangedR r
    | .unchangedR r => op.flip.call l w k v = .unchangedL r
    | .transformed y r => op.flip.call l w k v = .transformed y r
    | .removed r => op.flip.call l w k v = .removed r

@[inherit_doc MapJointTransform.Mirrors]
def SetJointTransform.Mirrors (op : SetJointTransform R (K → K → SetJointTransformResult R)) : Prop :=
  ∀ k l, match op.call k l with
    | .unchangedLR r => op.flip.call l k = .unchangedLR r
    | .unchangedL r => op.flip.call l k = .unchangedR r
    | .unchangedR r => op.flip.call l k = .unchangedL r
    | .removed r => op.flip.call l k = .removed r

/-- C41 is false of the joint transformations given as bulk `UnchangedL` or `UnchangedR`, for maps and for
    sets: flipped, they still name the same side, so that they name the other entry. -/
theorem C41_joint_flip_refuted (k : K) (v : V) (r : R) :
    ¬ (MapJointTransform.unchangedL r : MapJointTransform R (K → V → K → V → MapJointTransformResult V R)).Mirrors ∧
    ¬ (MapJointTransform.unchangedR r : MapJointTransform R (K → V → K → V → MapJointTransformResult V R)).Mirrors ∧
    ¬ (SetJointTransform.unchangedL r : SetJointTransform R (K → K → SetJointTransformResult R)).Mirrors ∧
    ¬ (SetJointTransform.unchangedR r : SetJointTransform R (K → K → SetJointTransformResult R)).Mirrors := by
  refine ⟨fun h => ?_, fun h => ?_, fun h => ?_, fun h => ?_⟩
  · exact absurd (h k v k v) (by simp [MapJointTransform.call, MapJointTransform.flip])
  · exact absurd (h k v k v) (by simp [MapJointTransform.call, MapJointTransform.flip])
  · exact absurd (h k k) (by simp [SetJointTransform.call, SetJointTransform.flip])
  · exact absurd (h k k) (by simp [SetJointTransform.call, SetJointTransform.flip])

/-- C41 for joint transformations on maps, part: it holds of closures (flipped or not) and of bulk
    `UnchangedLR` and `Removed`; flipping twice gives back any operation. -/
theorem C41_map_joint_flip_partial (op : MapJointTransform R (K → V → K → V → MapJointTransformResult V R)) :
    op.flip.flip = op ∧
    ((∀ r, op ≠ .unchangedL r) → (∀ r, op ≠ .unchangedR r) → op.Mirrors) := by
  constructor
  · cases op <;> simp [MapJointTransform.flip]
  · intro hl hr k v l w
    cases op with
    | generic f b =>
      cases b
      · simp only [MapJointTransform.call, MapJointTransform.flip]
        cases f k v l w <;> rfl
      · simp only [MapJointTransform.call, MapJointTransform.flip]
        cases f l w k v <;> rfl
    | unchangedLR r => rfl
    | unchangedL r => exact absurd rfl (hl r)
    | unchangedR r => exact absurd rfl (hr r)
    | removed r => rfl

/-- C41 for joint transformations on sets, part: the same. -/
theorem C41_set_joint_flip_partial (op : SetJointTransform R (K → K → SetJointTransformResult R)) :
    op.flip.flip = op ∧
    ((∀ r, op ≠ .unchangedL r) → (∀ r, op ≠ .unchangedR r) → op.Mirrors) := by
  constructor
  · cases op <;> simp [SetJointTransform.flip]
  · intro hl hr k l
    cases op with
    | generic f b =>
      cases b
      · simp only [SetJointTransform.call, SetJointTransform.flip]
        cases f k l <;> rfl
      · simp only [SetJointTransform.call, SetJointTransform.flip]
        cases f l k <;> rfl
    | unchangedLR r => rfl
    | unchangedL r => exact absurd rfl (hl r)
    | unchangedR r => exact absurd rfl (hr r)
    | removed r => rfl

/-! ## The maps -/

variable [BEq K] [BEq L] [BEq S] {x : Cross c K L}

omit [BEq S] in
/-- C41: `transform_with_transmuted` on two maps and `transmute_with_transformed` on the exchanged maps with
    flipped and exchanged operations: one returns exactly when the other does, and then the results find the
    same entry under every key, have the same entries and size and, for a commutative monoid, the same
    reduction. -/
theorem C41_exchange_transform_transmute (laws : CrossLaws x) {t : Trie c K V} (ht : Reach c x.hash t)
    {u : Trie c L W} (hu : Reach c x.hash' u) {ops : TwmOps K V L W R} (con : ops.Contract x)
    (reduce : R → R → R) (e : R) (par par' : Par) :
    ((∃ t' r, Trie.twm x reduce e ops par t u = .ok (t', r)) ↔
      ∃ t' r, Trie.mwt x.flip reduce e ⟨ops.both.flip2, ops.right, ops.left⟩ par' u t = .ok (t', r)) ∧
    ∀ t1 r1 t2 r2, Trie.twm x reduce e ops par t u = .ok (t1, r1) →
      Trie.mwt x.flip reduce e ⟨ops.both.flip2, ops.right, ops.left⟩ par' u t = .ok (t2, r2) →
      (∀ k, t1.find x.hash k = t2.find x.hash k) ∧ t1.visit.Perm t2.visit ∧ t1.size = t2.size ∧
      (CMon reduce e → ops.Neutral e → r1 = r2) := by
  have con' : ops.flip.Contract x.flip := by
    intro k v l w r h
    show x.eq' k l = true
    rw [laws.sym]; exact con _ _ _ _ _ h
  have C1 := C23_transform_with_transmuted_partial laws ht hu con reduce e par
  have C2 := C23_transmute_with_transformed_partial laws.flip hu ht con' reduce e par'
  refine ⟨⟨fun ⟨t', r, h⟩ => ?_, fun ⟨t', r, h⟩ => ?_⟩, fun t1 r1 t2 r2 h1 h2 => ?_⟩
  · refine C2.1 (Classical.byContradiction fun ns => ?_)
    rw [C1.2 ns] at h; simp at h
  · refine C1.1 (Classical.byContradiction fun ns => ?_)
    have := C2.2 ns
    exact absurd (h.symm.trans this) (by simp)
  · have P1 := (C24_transform_with_transmuted laws ht hu con reduce e par h1).2.1
    have P2 := (C25_transmute_with_transformed laws.flip hu ht con' reduce e par' h2).2.1
    have fc := laws.flip_cases ht.distinct hu.distinct
    have P : t1.visit.Perm t2.visit := by
      refine P1.trans (List.Perm.trans ?_ P2.symm)
      refine List.Perm.trans (List.Perm.of_eq ?_) (fc.filterMap _)
      rw [List.filterMap_map]
      exact List.filterMap_congr fun p _ => (ops.flip_out p).symm
    have R1 : Reach c x.hash t1 := .transformWithTransmuted ht hu laws con h1
    have R2 : Reach c x.hash t2 := .transmuteWithTransformed hu ht laws.flip con' h2
    refine ⟨fun k => ?_, P, ?_, fun mon neu => ?_⟩
    · have D := R1.distinct
      rw [R1.find, R2.find, Res.ok.injEq]
      exact find?_perm (R1.query k) D R2.distinct P
    · rw [R1.size, R2.size, P.length_eq]
    · have neu' : ops.flip.Neutral e := by
        refine ⟨?_, neu.2.2, neu.2.1⟩
        have := neu.1
        revert this
        simp only [TwmOps.flip]
        cases ops.both <;> exact id
      rw [C34_transform_with_transmuted laws ht hu con mon neu par h1,
        C34_transmute_with_transformed laws.flip hu ht con' mon neu' par' h2]
      have := mon.total_perm (fc.map ops.flip.red)
      refine Eq.trans ?_ (this.trans ?_)
      · rw [List.map_map]
        refine congrArg _ (List.map_congr_left fun p _ => ?_)
        rw [Function.comp, ops.flip_red]
        cases p <;> rfl
      · refine congrArg _ (List.map_congr_left fun p _ => ?_)
        cases p <;> rfl

/-- C41: `transmute_with_transmuted` on two maps and on the exchanged maps, with flipped and exchanged
    operations: when both return, the results have the same entries and, for a commutative monoid, the same
    reduction. -/
theorem C41_exchange_transmute_transmute (laws : CrossLaws x) {hashS : S → BitVec c.w} (lawsS : KeyLaws hashS)
    {t : Trie c K V} (ht : Reach c x.hash t) {u : Trie c L W} (hu : Reach c x.hash' u)
    {ops : MwmOps K V L W S X R} (con : ops.Contract x hashS) (reduce : R → R → R) (e : R)
    {t1 t2 : Trie c S X} {r1 r2 : R} (h1 : Trie.mwm x reduce e ops t u = .ok (t1, r1))
    (h2 : Trie.mwm x.flip reduce e ⟨ops.both.flip, ops.right, ops.left⟩ u t = .ok (t2, r2)) :
    (∀ s, t1.find hashS s = t2.find hashS s) ∧ t1.visit.Perm t2.visit ∧ t1.size = t2.size ∧
    (CMon reduce e → ops.Neutral e → r1 = r2) := by
  have con' : ops.flip.Contract x.flip hashS := con.flip laws
  have P1 := (C26_transmute_with_transmuted laws lawsS ht hu con reduce e h1).2.2.2.2.2.1
  have P2 := (C26_transmute_with_transmuted laws.flip lawsS hu ht con' reduce e h2).2.2.2.2.2.1
  have fc := laws.flip_cases ht.distinct hu.distinct
  have P : t1.visit.Perm t2.visit := by
    refine P1.trans (List.Perm.trans ?_ P2.symm)
    refine List.Perm.trans (List.Perm.of_eq ?_) (fc.filterMap _)
    rw [List.filterMap_map]
    exact List.filterMap_congr fun p _ => (ops.flip_out p).symm
  have R1 : Reach c hashS t1 := .transmuteWithTransmuted ht hu laws lawsS con h1
  have R2 : Reach c hashS t2 := .transmuteWithTransmuted hu ht laws.flip lawsS con' h2
  refine ⟨fun s => ?_, P, ?_, fun mon neu => ?_⟩
  · rw [R1.find, R2.find, Res.ok.injEq]
    exact find?_perm (R1.query s) R1.distinct R2.distinct P
  · rw [R1.size, R2.size, P.length_eq]
  · have neu' : ops.flip.Neutral e := by
      refine ⟨?_, neu.2.2, neu.2.1⟩
      have := neu.1
      revert this
      simp only [MwmOps.flip]
      cases ops.both <;> exact id
    rw [C34_transmute_with_transmuted laws lawsS ht hu con mon neu h1,
      C34_transmute_with_transmuted laws.flip lawsS hu ht con' mon neu' h2]
    have := mon.total_perm (fc.map ops.flip.red)
    refine Eq.trans ?_ (this.trans ?_)
    · rw [List.map_map]
      refine congrArg _ (List.map_congr_left fun p _ => ?_)
      rw [Function.comp, ops.flip_red]
      cases p <;> rfl
    · refine congrArg _ (List.map_congr_left fun p _ => ?_)
      cases p <;> rfl

omit [BEq L] [BEq S] in
/-- C41: the reduction of `transform_with_transformed` on two maps and on the exchanged maps, with the operations
    flipped and exchanged: whatever the operations are, when both calls return they reduce to the same (for a
    commutative monoid whose identity the bulk operations carry). -/
theorem C41_exchange_transform_transform_reduction {hash : K → BitVec c.w} {t u : Trie c K V}
    (ht : Reach c hash t) (hu : Reach c hash u) {both : MapJointTransform R (K → V → K → V → MapJointTransformResult V R)}
    {left right : MapTransform R (K → V → MapTransformResult V R)} {reduce : R → R → R} {e : R} (mon : CMon reduce e)
    (nb : both.Neutral e) (nl : left.Neutral e) (nr : right.Neutral e) (par par' : Par) {t1 t2 : Trie c K V} {r1 r2 : R}
    (h1 : Trie.twt reduce e hash ⟨both, left, right⟩ par t u = .ok (t1, r1))
    (h2 : Trie.twt reduce e hash ⟨both.flip, right, left⟩ par' u t = .ok (t2, r2)) : r1 = r2 := by
  rw [C34_transform_with_transformed (ops := ⟨both, left, right⟩) ht hu mon ⟨nb, nl, nr⟩ par h1,
    C34_transform_with_transformed (ops := ⟨both.flip, right, left⟩) hu ht mon
      ⟨by cases both <;> exact nb, nr, nl⟩ par' h2]
  have fc := (CrossLaws.same ht.laws).flip_cases ht.distinct hu.distinct
  have := mon.total_perm (fc.map (TwtOps.flip ⟨both, left, right⟩).red)
  refine Eq.trans ?_ (this.trans ?_)
  · rw [List.map_map]
    refine congrArg _ (List.map_congr_left fun p _ => ?_)
    rw [Function.comp, TwtOps.flip_red]
    cases p <;> rfl
  · refine congrArg _ (List.map_congr_left fun p _ => ?_)
    cases p <;> rfl

omit [BEq L] [BEq S] in
/-- C41: `transform_with_transformed` on two maps and on the exchanged maps, with closures flipped and
    exchanged and tame answers (C21), none of them "either side": when both return, the results hold the same
    values under the same keys and have the same size and, for a commutative monoid, the same reduction.  (The
    key objects may differ, since a transformed value may be stored under either of two equal keys.) -/
theorem C41_exchange_transform_transform_partial {hash : K → BitVec c.w} {t u : Trie c K V}
    (ht : Reach c hash t) (hu : Reach c hash u) (both : K → V → K → V → MapJointTransformResult V R)
    (left right : MapTransform R (K → V → MapTransformResult V R))
    (definite : ∀ a ∈ t.visit, ∀ b ∈ u.visit, ∀ r, both a.1 a.2 b.1 b.2 ≠ .unchangedLR r)
    (tame : TwtOps.Tame ⟨.generic both false, left, right⟩ hash t.visit u.visit)
    (reduce : R → R → R) (e : R) (par par' : Par) {t1 t2 : Trie c K V} {r1 r2 : R}
    (h1 : Trie.twt reduce e hash ⟨.generic both false, left, right⟩ par t u = .ok (t1, r1))
    (h2 : Trie.twt reduce e hash ⟨(MapJointTransform.generic both false).flip, right, left⟩ par' u t = .ok (t2, r2)) :
    (∀ k, ∃ o1 o2, t1.find hash k = .ok o1 ∧ t2.find hash k = .ok o2 ∧ o1.map (·.2) = o2.map (·.2)) ∧
    t1.size = t2.size ∧
    (CMon reduce e → left.Neutral e → right.Neutral e → r1 = r2) := by
  have tame' := tame.flip
  have R1 : Reach c hash t1 := .transformWithTransformed ht hu tame h1
  have R2 : Reach c hash t2 := .transformWithTransformed hu ht tame' h2
  have F1 := C21_transform_with_transformed_partial ht hu tame reduce e par h1
  have F2 := C21_transform_with_transformed_partial hu ht tame' reduce e par' h2
  have key : ∀ k, ∃ o1 o2, t1.find hash k = .ok o1 ∧ t2.find hash k = .ok o2 ∧ o1.map (·.2) = o2.map (·.2) := by
    intro k
    obtain ⟨o1, g1, e1⟩ := F1 k _ _ (ht.find k) (hu.find k)
    obtain ⟨o2, g2, e2⟩ := F2 k _ _ (hu.find k) (ht.find k)
    refine ⟨o1, o2, g1, g2, ?_⟩
    cases ha : t.visit.find? (fun e => e.1 == k) with
    | none =>
      cases hb : u.visit.find? (fun e => e.1 == k) with
      | none => rw [ha, hb] at e1 e2; simp only at e1 e2; rw [e1, e2]
      | some b => rw [ha, hb] at e1 e2; simp only [TwtOps.flip] at e1 e2; rw [e1, e2]
    | some a =>
      cases hb : u.visit.find? (fun e => e.1 == k) with
      | none => rw [ha, hb] at e1 e2; simp only [TwtOps.flip] at e1 e2; rw [e1, e2]
      | some b =>
        rw [ha, hb] at e1 e2
        have e2' := TwtOps.flip_out ⟨.generic both false, left, right⟩ (.both a b) o2 e2
        have nd := definite a (List.mem_of_find?_eq_some ha) b (List.mem_of_find?_eq_some hb)
        revert e1 e2' nd
        simp only [TwtOps.Out, MapJointTransform.Entry, MapJointTransform.closure, Bool.false_eq_true, if_false]
        cases both a.1 a.2 b.1 b.2 with
        | unchangedLR r => intro _ _ nd; exact absurd rfl (nd r)
        | unchangedL r => intro e1 e2 _; rw [e1, e2]
        | unchangedR r => intro e1 e2 _; rw [e1, e2]
        | removed r => intro e1 e2 _; rw [e1, e2]
        | transformed v r =>
          intro e1 e2 _
          rcases e1 with e1 | e1 <;> rcases e2 with e2 | e2 <;> rw [e1, e2] <;> rfl
  refine ⟨key, ?_, fun mon nl nr => ?_⟩
  · refine size_of_same_keys R1 R2 fun k => ?_
    obtain ⟨o1, o2, g1, g2, g3⟩ := key k
    rw [g1, g2]
    cases o1 <;> cases o2 <;> simp_all
  · exact C41_exchange_transform_transform_reduction (both := .generic both false) ht hu mon trivial nl nr par par' h1 h2

/-! ## The hypotheses are met -/

-- maps with colliding keys on both sides, on which both exchanged calls return, with entries transformed,
-- transmuted, shared and removed
example : ∃ (t u : Trie Ex.c8 Ex.Tk Nat), Reach Ex.c8 Ex.exHash t ∧ Reach Ex.c8 Ex.exHash u ∧
    ((Trie.twm (Cross.same Ex.exHash) (· + ·) 0
        ⟨.generic fun _ v _ w => .transformed (v * 10 + w) 1, .unchanged 0, .generic fun l w => .transmuted l w 1⟩
        .middleIndex t u).test fun (y : Trie Ex.c8 Ex.Tk Nat × Nat) =>
      (Trie.mwt (Cross.same Ex.exHash).flip (· + ·) 0
        ⟨(MapTransform.generic fun _ v _ w => .transformed (v * 10 + w) 1).flip2,
          .generic fun l w => .transmuted l w 1, .unchanged 0⟩
        .sequential u t).test fun (z : Trie Ex.c8 Ex.Tk Nat × Nat) =>
      decide (y.1.size = 10 ∧ z.1.size = 10 ∧ y.2 = z.2 ∧ y.1.find Ex.exHash ⟨1, 0⟩ = z.1.find Ex.exHash ⟨1, 0⟩)) = true :=
  exists_reach2 Ex.exLaws Ex.exLaws Ex.entries Ex.right _ (by decide +kernel)

example : ∃ (t u : Trie Ex.c8 Ex.Tk Nat), Reach Ex.c8 Ex.exHash t ∧ Reach Ex.c8 Ex.exHash u ∧
    ((Trie.mwm (Cross.same Ex.exHash) (· + ·) 0
        ⟨.generic fun k v _ w => .transmuted k (v * 10 + w) 1, .generic fun k v => .transmuted k v 1, .removed 0⟩
        t u).test fun (y : Trie Ex.c8 Ex.Tk Nat × Nat) =>
      (Trie.mwm (Cross.same Ex.exHash).flip (· + ·) 0
        ⟨(MapTransmute.generic fun k v _ w => .transmuted k (v * 10 + w) 1).flip, .removed 0,
          .generic fun k v => .transmuted k v 1⟩
        u t).test fun (z : Trie Ex.c8 Ex.Tk Nat × Nat) =>
      decide (y.1.size = 4 ∧ z.1.size = 4 ∧ y.2 = z.2)) = true :=
  exists_reach2 Ex.exLaws Ex.exLaws Ex.apartL Ex.apartR _ (by decide +kernel)

-- maps with collisions inside each of them but not across, for which any answers are tame (C21)
example : ∃ (t u : Trie Ex.c8 Ex.Tk Nat), Reach Ex.c8 Ex.exHash t ∧ Reach Ex.c8 Ex.exHash u ∧
    (decide (Apart Ex.exHash t.visit u.visit) &&
    (Trie.twt (· + ·) 0 Ex.exHash
        ⟨.generic (fun _ v _ w => if v < w then .unchangedL 1 else .transformed (v * 10 + w) 1) false, .unchanged 0,
          .generic fun _ w => .transformed (w + 1) 1⟩
        .middleIndex t u).test fun (y : Trie Ex.c8 Ex.Tk Nat × Nat) =>
      (Trie.twt (· + ·) 0 Ex.exHash
        ⟨(MapJointTransform.generic (fun _ v _ w => if v < w then .unchangedL 1 else .transformed (v * 10 + w) 1)
          false).flip, .generic fun _ w => .transformed (w + 1) 1, .unchanged 0⟩
        .sequential u t).test fun (z : Trie Ex.c8 Ex.Tk Nat × Nat) =>
      decide (y.1.size = 7 ∧ z.1.size = 7 ∧ y.2 = z.2 ∧
        y.1.find Ex.exHash ⟨81, 0⟩ = .ok (some (⟨81, 0⟩, 3)) ∧
        z.1.find Ex.exHash ⟨81, 0⟩ = .ok (some (⟨81, 0⟩, 3)))) = true :=
  exists_reach2 Ex.exLaws Ex.exLaws Ex.apartL Ex.apartR _ (by decide +kernel)

end HT
