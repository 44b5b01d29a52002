import Verif.NatTrie
import Verif.JointExamples
/-!
# Properties C19 (joint operations) and C40

An outcome (`Res`) is a returned value, a panic or divergence; `Res.map1` keeps the map of a returned pair
`(map, reduction)` and forgets the reduction, so equality of `.map1` says: both return the very same map,
or both panic in the same way, or neither returns.  No hypothesis restricts the maps or the operations.

`mapR (fun _ => ())` forgets the reductions that operations contribute.
-/
namespace HT

variable {K V L W S X R R' : Type} [BEq K] [BEq L] {c : Cfg}

/-! ## C19 -/

omit [BEq K] in
/-- C19 for `transform`, as equations between outcomes. -/
theorem C19_transform_outcome (reduce : R → R → R) (e : R) (op : MapTransform R (K → V → MapTransformResult V R))
    (par par' : Par) (t : Trie c K V) :
    (t.transform reduce e op par).map1 = (t.transform reduce e op par').map1 ∧
    (Mon reduce e → t.transform reduce e op par = t.transform reduce e op par') :=
  ⟨by rw [Trie.transform_erase, ← Trie.transform_erase reduce e op par'],
    fun mon => by
      simp only [Trie.transform, Node.transform_par mon _ par, Node.transform_par mon _ par']⟩

/-- C19 for `transform_with_transmuted`. -/
theorem C19_transform_with_transmuted (x : Cross c K L) (reduce : R → R → R) (e : R) (ops : TwmOps K V L W R)
    (par par' : Par) (t : Trie c K V) (u : Trie c L W) :
    (Trie.twm x reduce e ops par t u).map1 = (Trie.twm x reduce e ops par' t u).map1 ∧
    (Mon reduce e → Trie.twm x reduce e ops par t u = Trie.twm x reduce e ops par' t u) :=
  ⟨by rw [Trie.twm_erase, ← Trie.twm_erase reduce e x ops par'],
    fun mon => by simp only [Trie.twm, Node.twm_par x mon _ par, Node.twm_par x mon _ par']⟩

/-- C19 for `transmute_with_transformed`. -/
theorem C19_transmute_with_transformed (x : Cross c K L) (reduce : R → R → R) (e : R) (ops : MwtOps K V L W R)
    (par par' : Par) (t : Trie c K V) (u : Trie c L W) :
    (Trie.mwt x reduce e ops par t u).map1 = (Trie.mwt x reduce e ops par' t u).map1 ∧
    (Mon reduce e → Trie.mwt x reduce e ops par t u = Trie.mwt x reduce e ops par' t u) :=
  ⟨by rw [Trie.mwt_erase, ← Trie.mwt_erase reduce e x ops par'],
    fun mon => by simp only [Trie.mwt, Node.mwt_par x mon _ par, Node.mwt_par x mon _ par']⟩

omit [BEq L] in
/-- C19 for `transform_with_transformed`: unlike C21, without any restriction. -/
theorem C19_transform_with_transformed (hash : K → BitVec c.w) (reduce : R → R → R) (e : R) (ops : TwtOps K V R)
    (par par' : Par) (t u : Trie c K V) :
    (Trie.twt reduce e hash ops par t u).map1 = (Trie.twt reduce e hash ops par' t u).map1 ∧
    (Mon reduce e → Trie.twt reduce e hash ops par t u = Trie.twt reduce e hash ops par' t u) :=
  ⟨by rw [Trie.twt_erase, ← Trie.twt_erase reduce e hash ops par'],
    fun mon => by simp only [Trie.twt, Node.twt_par hash mon _ par, Node.twt_par hash mon _ par']⟩

/-- The monoid hypothesis is needed for the reduction: with subtraction the strategies disagree. -/
theorem C19_reduction_needs_monoid : ∃ t : Trie Ex.c8 Ex.Tk Nat, Reach Ex.c8 Ex.exHash t ∧
    ¬ t.transform (R := Int) (· - ·) 0 (.generic fun _ v => .unchanged v) .sequential =
      t.transform (R := Int) (· - ·) 0 (.generic fun _ v => .unchanged v) .middleIndex := by
  obtain ⟨t, ht, h⟩ := exists_reach Ex.exLaws [(⟨10, 0⟩, 1), (⟨50, 0⟩, 2), (⟨60, 0⟩, 4)] (fun (t : Trie Ex.c8 Ex.Tk Nat) =>
    (t.transform (R := Int) (· - ·) 0 (.generic fun _ v => .unchanged v) .sequential).test fun (y : Trie Ex.c8 Ex.Tk Nat × Int) =>
    (t.transform (R := Int) (· - ·) 0 (.generic fun _ v => .unchanged v) .middleIndex).test fun (z : Trie Ex.c8 Ex.Tk Nat × Int) =>
      decide (y.2 ≠ z.2)) (by decide +kernel)
  refine ⟨t, ht, fun eq => ?_⟩
  rw [eq] at h
  obtain ⟨y, h1, h2⟩ := Res.test_iff.1 h
  obtain ⟨z, h3, h4⟩ := Res.test_iff.1 h2
  rw [h1] at h3; injection h3 with h3
  simp [h3] at h4

/-- Maps for which the joint operation returns, changes the left map and reduces to something. -/
example : ∃ t u : Trie Ex.c8 Ex.Tk Nat, Reach Ex.c8 Ex.exHash t ∧ Reach Ex.c8 Ex.exHash u ∧
    ((Trie.twt (R := Nat) (· + ·) 0 Ex.exHash
      ⟨.generic (fun _ v _ w => .transformed (v + w) 1) false, .generic fun _ _ => .removed 10,
        .generic fun _ _ => .unchanged 100⟩ .middleIndex t u).test
      fun (y : Trie Ex.c8 Ex.Tk Nat × Nat) => decide (y.2 ≠ 0 ∧ y.1.size ≠ t.size)) = true :=
  exists_reach2 Ex.exLaws Ex.exLaws [(⟨5, 0⟩, 50), (⟨641, 0⟩, 51), (⟨11, 0⟩, 53)]
    [(⟨11, 1⟩, 62), (⟨12, 1⟩, 63), (⟨642, 1⟩, 64), (⟨200, 1⟩, 65)] _ (by decide +kernel)

/-! ## C40: reductions have no influence on the map

Two runs whose operations differ only in the reductions they contribute, with any reduction types, any
`reduce`, any default and any strategy, return the same map (or panic alike, or both do not return). -/

omit [BEq K] in
/-- C40 for `transform`. -/
theorem C40_transform (reduce : R → R → R) (e : R) (reduce' : R' → R' → R') (e' : R')
    (op : MapTransform R (K → V → MapTransformResult V R)) (op' : MapTransform R' (K → V → MapTransformResult V R'))
    (same : op.mapR (fun _ => ()) = op'.mapR (fun _ => ())) (par par' : Par) (t : Trie c K V) :
    (t.transform reduce e op par).map1 = (t.transform reduce' e' op' par').map1 := by
  rw [Trie.transform_erase, Trie.transform_erase reduce' e' op' par', same]

omit [BEq K] in
/-- C40 for `transmute`. -/
theorem C40_transmute (reduce : R → R → R) (e : R) (reduce' : R' → R' → R') (e' : R')
    (op : MapTransmute R (K → V → MapTransmuteResult S X R))
    (op' : MapTransmute R' (K → V → MapTransmuteResult S X R'))
    (same : op.mapR (fun _ => ()) = op'.mapR (fun _ => ())) (t : Trie c K V) :
    (t.transmute reduce e op).map1 = (t.transmute reduce' e' op').map1 := by
  rw [Trie.transmute_erase, Trie.transmute_erase reduce' e' op', same]

/-- C40 for `transform_with_transmuted`. -/
theorem C40_transform_with_transmuted (x : Cross c K L) (reduce : R → R → R) (e : R) (reduce' : R' → R' → R')
    (e' : R') (ops : TwmOps K V L W R) (ops' : TwmOps K V L W R')
    (same : ops.mapR (fun _ => ()) = ops'.mapR (fun _ => ())) (par par' : Par) (t : Trie c K V)
    (u : Trie c L W) :
    (Trie.twm x reduce e ops par t u).map1 = (Trie.twm x reduce' e' ops' par' t u).map1 := by
  rw [Trie.twm_erase, Trie.twm_erase reduce' e' x ops' par', same]

/-- C40 for `transmute_with_transformed`. -/
theorem C40_transmute_with_transformed (x : Cross c K L) (reduce : R → R → R) (e : R) (reduce' : R' → R' → R')
    (e' : R') (ops : MwtOps K V L W R) (ops' : MwtOps K V L W R')
    (same : ops.mapR (fun _ => ()) = ops'.mapR (fun _ => ())) (par par' : Par) (t : Trie c K V)
    (u : Trie c L W) :
    (Trie.mwt x reduce e ops par t u).map1 = (Trie.mwt x reduce' e' ops' par' t u).map1 := by
  rw [Trie.mwt_erase, Trie.mwt_erase reduce' e' x ops' par', same]

/-- C40 for `transmute_with_transmuted`. -/
theorem C40_transmute_with_transmuted (x : Cross c K L) (reduce : R → R → R) (e : R) (reduce' : R' → R' → R')
    (e' : R') (ops : MwmOps K V L W S X R) (ops' : MwmOps K V L W S X R')
    (same : ops.mapR (fun _ => ()) = ops'.mapR (fun _ => ())) (t : Trie c K V) (u : Trie c L W) :
    (Trie.mwm x reduce e ops t u).map1 = (Trie.mwm x reduce' e' ops' t u).map1 := by
  rw [Trie.mwm_erase, Trie.mwm_erase reduce' e' x ops', same]

omit [BEq L] in
/-- C40 for `transform_with_transformed`. -/
theorem C40_transform_with_transformed (hash : K → BitVec c.w) (reduce : R → R → R) (e : R)
    (reduce' : R' → R' → R') (e' : R') (ops : TwtOps K V R) (ops' : TwtOps K V R')
    (same : ops.mapR (fun _ => ()) = ops'.mapR (fun _ => ())) (par par' : Par) (t u : Trie c K V) :
    (Trie.twt reduce e hash ops par t u).map1 = (Trie.twt reduce' e' hash ops' par' t u).map1 := by
  rw [Trie.twt_erase, Trie.twt_erase reduce' e' hash ops' par', same]

/-- Operations over different reduction types that differ only in their contributions. -/
example : (⟨.generic (fun _ v _ w => .transformed (v + w) v) false, .generic fun _ v => .removed v,
      .generic fun _ v => .unchanged v⟩ : TwtOps Ex.Tk Nat Nat).mapR (fun _ => ()) =
    (⟨.generic (fun _ v _ w => .transformed (v + w) [w]) false, .generic fun k _ => .removed [k.id],
      .generic fun _ _ => .unchanged []⟩ : TwtOps Ex.Tk Nat (List Nat)).mapR (fun _ => ()) := rfl

/-- `transform_with_transformed` followed through a homomorphism of reductions gives the same map and the
    image of the reduction; so, for instance, counting is the length of collecting. -/
theorem C40_reduction_homomorphism (hash : K → BitVec c.w) {reduce : R → R → R} {e : R}
    {reduce' : R' → R' → R'} {e' : R'} {g : R → R'} (op : ∀ a b, g (reduce a b) = reduce' (g a) (g b))
    (one : g e = e') (ops : TwtOps K V R) (par : Par) (t u : Trie c K V) {t' : Trie c K V} {r : R}
    (h : Trie.twt reduce e hash ops par t u = .ok (t', r)) :
    Trie.twt reduce' e' hash (ops.mapR g) par t u = .ok (t', g r) := by
  rw [Trie.twt_nat ⟨op, one⟩ hash ops par t u, h]; rfl

example : ∀ a b : List Nat, (a ++ b).length = a.length + b.length := fun _ _ => List.length_append

end HT
