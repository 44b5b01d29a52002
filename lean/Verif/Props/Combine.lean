import Verif.CombineLemmas
import Verif.Props.Bulk
import Verif.Props.Reduce
/-!
# Property C57: reductions without laws

C18, C20 and C34 describe the reduction of an operation when `reduce_op` is associative (and commutative) with the
default as identity.  Nothing obliges a caller to give such a function.  Whatever it is, the reduction is made from the
closures' contributions, each used once, by `reduce_op` and the default (`Combines`, in `CombineSpec.lean`), in visit
order for `transform` and `transmute`, in some order for joint operations; and whatever `reduce_op` preserves holds of
the reduction.
-/
namespace HT

variable {K V L W S X R : Type} [BEq K] [BEq L] [BEq S] {c : Cfg} {x : Cross c K L} {hash : K → BitVec c.w}

theorem total_leaves {α : Type} (l : List α) : total (R := List α) (· ++ ·) [] (l.map fun a => [a]) = l := by
  have : ∀ (l m : List α), (l.map fun a => [a]).foldl (· ++ ·) m = m ++ l := by
    intro l
    induction l with
    | nil => intro m; simp
    | cons a l ih => intro m; rw [List.map_cons, List.foldl_cons, ih]; simp
  rw [total, this]; rfl

/-- C57 for `transform`. -/
theorem C57_transform {t : Trie c K V} (h : Reach c hash t) (reduce : R → R → R) (e : R)
    (f : K → V → MapTransformResult V R) (par : Par) {t' : Trie c K V} {r : R}
    (hr : t.transform reduce e (.generic f) par = .ok (t', r)) :
    Combines reduce e (t.visit.map fun x => (f x.1 x.2).red) r := by
  obtain ⟨z, hz, rfl⟩ := Res.formal ((congrArg (t.transform reduce e · par)
    (MapTransform.formal_eval reduce e (op := .generic f) trivial).symm).trans
    (Trie.transform_nat (Term.hom_eval reduce e) _ par t)) hr
  have n := Trie.transform_nat Term.hom_leaves (MapTransform.formal (.generic f)) par t
  rw [hz] at n
  have mon : Mon (R := List R) (· ++ ·) [] :=
    ⟨fun _ _ _ => List.append_assoc .., fun _ => List.nil_append _, fun _ => List.append_nil _⟩
  obtain ⟨t1, h1⟩ := C18_transform_reduction h mon (fun k v => ((f k v).mapR Term.one).mapR Term.leaves) par
  have n' := h1.symm.trans n
  injection n' with n'
  injection n' with _ n'
  have hl : z.leaves = t.visit.map fun x => (f x.1 x.2).red := by
    refine n'.symm.trans (Eq.trans ?_ (total_leaves _))
    rw [List.map_map]
    refine congrArg (total _ _) (List.map_congr_left fun x _ => ?_)
    rw [MapTransformResult.mapR_red, MapTransformResult.mapR_red]; rfl
  exact hl ▸ z.combines reduce e

/-- C57 for `transmute`. -/
theorem C57_transmute {hash' : S → BitVec c.w} (laws' : KeyLaws hash') {t : Trie c K V} (h : Reach c hash t)
    (reduce : R → R → R) (e : R) (f : K → V → MapTransmuteResult S X R) (km : KeyMap hash hash' f) {t' : Trie c S X}
    {r : R} (hr : t.transmute reduce e (.generic f) = .ok (t', r)) :
    Combines reduce e (t.visit.map fun x => (f x.1 x.2).red) r := by
  obtain ⟨z, hz, rfl⟩ := Res.formal ((congrArg (t.transmute reduce e ·)
    (MapTransmute.formal_eval reduce e (op := .generic f) trivial).symm).trans
    (Trie.transmute_nat (Term.hom_eval reduce e) _ t)) hr
  have n := Trie.transmute_nat Term.hom_leaves (MapTransmute.formal (.generic f)) t
  rw [hz] at n
  have mon : Mon (R := List R) (· ++ ·) [] :=
    ⟨fun _ _ _ => List.append_assoc .., fun _ => List.nil_append _, fun _ => List.append_nil _⟩
  obtain ⟨t1, r1, h1, _, _, _, _, h2⟩ := C20_transmute_per_entry laws' h (· ++ ·) []
    (fun k v => ((f k v).mapR Term.one).mapR Term.leaves) ((km.mapR _).mapR _)
  have n' := h1.symm.trans n
  injection n' with n'
  injection n' with _ n'
  have hl : z.leaves = t.visit.map fun x => (f x.1 x.2).red := by
    refine n'.symm.trans ((h2 mon).trans (Eq.trans ?_ (total_leaves _)))
    rw [List.map_map]
    refine congrArg (total _ _) (List.map_congr_left fun x _ => ?_)
    rw [MapTransmuteResult.mapR_red, MapTransmuteResult.mapR_red]; rfl
  exact hl ▸ z.combines reduce e

omit [BEq S] in
/-- C57 for `transform_with_transmuted`: bulk operations contributing the default add copies of the default only. -/
theorem C57_transform_with_transmuted (laws : CrossLaws x) {t : Trie c K V} (ht : Reach c x.hash t) {u : Trie c L W}
    (hu : Reach c x.hash' u) {ops : TwmOps K V L W R} (con : ops.Contract x)
    (reduce : R → R → R) (e : R) (neutral : ops.Neutral e) (par : Par) {t' : Trie c K V}
    {r : R} (hr : Trie.twm x reduce e ops par t u = .ok (t', r)) :
    ∃ l, l.Perm ((jointCases (fun a b => x.eq a.1 b.1) t.visit u.visit).flatMap fun
      | .left a => ops.left.said a.1 a.2
      | .right b => ops.right.said b.1 b.2
      | .both a b => ops.both.said2 a.1 a.2 b.1 b.2) ∧ Combines reduce e l r := by
  obtain ⟨z, hz, rfl⟩ := Res.formal ((congrArg (fun o => Trie.twm x reduce e o par t u) (TwmOps.formal_eval reduce e neutral).symm).trans
    (Trie.twm_nat (Term.hom_eval reduce e) x ops.formal par t u)) hr
  have n := Trie.twm_nat Term.hom_bag' x ops.formal par t u
  rw [hz] at n
  have n' := C34_transform_with_transmuted laws ht hu (con.formal.mapR _) (cmon_multiset R)
    ops.formal_neutral par n
  refine ⟨z.leaves, Multiset.coe_eq_coe.1 (n'.trans (Eq.trans ?_ (total_bags _ _))), z.combines reduce e⟩
  refine congrArg (total _ _) (List.map_congr_left fun p _ => ?_)
  cases p with
  | left a => exact MapTransform.formal_bag _ _ _
  | right b => exact MapTransmute.formal_bag _ _ _
  | both a b => exact MapTransform.formal2_bag _ _ _ _ _

omit [BEq S] in
/-- C57 for `transmute_with_transformed`. -/
theorem C57_transmute_with_transformed (laws : CrossLaws x) {t : Trie c K V} (ht : Reach c x.hash t) {u : Trie c L W}
    (hu : Reach c x.hash' u) {ops : MwtOps K V L W R} (con : ops.Contract x)
    (reduce : R → R → R) (e : R) (neutral : ops.Neutral e) (par : Par) {t' : Trie c L W}
    {r : R} (hr : Trie.mwt x reduce e ops par t u = .ok (t', r)) :
    ∃ l, l.Perm ((jointCases (fun a b => x.eq a.1 b.1) t.visit u.visit).flatMap fun
      | .left a => ops.left.said a.1 a.2
      | .right b => ops.right.said b.1 b.2
      | .both a b => ops.both.said2 a.1 a.2 b.1 b.2) ∧ Combines reduce e l r := by
  obtain ⟨z, hz, rfl⟩ := Res.formal ((congrArg (fun o => Trie.mwt x reduce e o par t u) (MwtOps.formal_eval reduce e neutral).symm).trans
    (Trie.mwt_nat (Term.hom_eval reduce e) x ops.formal par t u)) hr
  have n := Trie.mwt_nat Term.hom_bag' x ops.formal par t u
  rw [hz] at n
  have n' := C34_transmute_with_transformed laws ht hu (con.formal.mapR _) (cmon_multiset R)
    ops.formal_neutral par n
  refine ⟨z.leaves, Multiset.coe_eq_coe.1 (n'.trans (Eq.trans ?_ (total_bags _ _))), z.combines reduce e⟩
  refine congrArg (total _ _) (List.map_congr_left fun p _ => ?_)
  cases p with
  | left a => exact MapTransmute.formal_bag _ _ _
  | right b => exact MapTransform.formal_bag _ _ _
  | both a b => exact MapTransform.formal2_bag _ _ _ _ _

/-- C57 for `transmute_with_transmuted`. -/
theorem C57_transmute_with_transmuted (laws : CrossLaws x) {hashS : S → BitVec c.w} (lawsS : KeyLaws hashS) {t : Trie c K V}
    (ht : Reach c x.hash t) {u : Trie c L W} (hu : Reach c x.hash' u) {ops : MwmOps K V L W S X R}
    (con : ops.Contract x hashS)
    (reduce : R → R → R) (e : R) (neutral : ops.Neutral e) {t' : Trie c S X}
    {r : R} (hr : Trie.mwm x reduce e ops t u = .ok (t', r)) :
    ∃ l, l.Perm ((jointCases (fun a b => x.eq a.1 b.1) t.visit u.visit).flatMap fun
      | .left a => ops.left.said a.1 a.2
      | .right b => ops.right.said b.1 b.2
      | .both a b => ops.both.said2 a.1 a.2 b.1 b.2) ∧ Combines reduce e l r := by
  obtain ⟨z, hz, rfl⟩ := Res.formal ((congrArg (fun o => Trie.mwm x reduce e o t u) (MwmOps.formal_eval reduce e neutral).symm).trans
    (Trie.mwm_nat (Term.hom_eval reduce e) x ops.formal t u)) hr
  have n := Trie.mwm_nat Term.hom_bag' x ops.formal t u
  rw [hz] at n
  have n' := C34_transmute_with_transmuted laws lawsS ht hu (con.formal.mapR _) (cmon_multiset R)
    ops.formal_neutral n
  refine ⟨z.leaves, Multiset.coe_eq_coe.1 (n'.trans (Eq.trans ?_ (total_bags _ _))), z.combines reduce e⟩
  refine congrArg (total _ _) (List.map_congr_left fun p _ => ?_)
  cases p with
  | left a => exact MapTransmute.formal_bag _ _ _
  | right b => exact MapTransmute.formal_bag _ _ _
  | both a b => exact MapTransmute.formal2_bag _ _ _ _ _

omit [BEq L] [BEq S] in
/-- C57 for `transform_with_transformed`. -/
theorem C57_transform_with_transformed {t u : Trie c K V} (ht : Reach c hash t) (hu : Reach c hash u) {ops : TwtOps K V R}
    (reduce : R → R → R) (e : R) (neutral : ops.Neutral e) (par : Par) {t' : Trie c K V}
    {r : R} (hr : Trie.twt reduce e hash ops par t u = .ok (t', r)) :
    ∃ l, l.Perm ((jointCases (fun a b => a.1 == b.1) t.visit u.visit).flatMap fun
      | .left a => ops.left.said a.1 a.2
      | .right b => ops.right.said b.1 b.2
      | .both a b => ops.both.said a.1 a.2 b.1 b.2) ∧ Combines reduce e l r := by
  obtain ⟨z, hz, rfl⟩ := Res.formal ((congrArg (fun o => Trie.twt reduce e hash o par t u) (TwtOps.formal_eval reduce e neutral).symm).trans
    (Trie.twt_nat (Term.hom_eval reduce e) hash ops.formal par t u)) hr
  have n := Trie.twt_nat Term.hom_bag' hash ops.formal par t u
  rw [hz] at n
  have n' := C34_transform_with_transformed (ops := ops.formal.mapR Term.bag) ht hu (cmon_multiset R)
    ops.formal_neutral par n
  refine ⟨z.leaves, Multiset.coe_eq_coe.1 (n'.trans (Eq.trans ?_ (total_bags _ _))), z.combines reduce e⟩
  refine congrArg (total _ _) (List.map_congr_left fun p _ => ?_)
  cases p with
  | left a => exact MapTransform.formal_bag _ _ _
  | right b => exact MapTransform.formal_bag _ _ _
  | both a b => exact MapJointTransform.formal_bag _ _ _ _ _

/-! ### Whatever `reduce_op` preserves -/

section
variable {P : R → Prop} {reduce : R → R → R} {e : R}

omit [BEq K] in
/-- C57: if the default and all contributions are `P`, and `reduce_op` makes `P` from `P`, then the reduction is `P`. -/
theorem C57_transform_invariant (pe : P e) (pr : ∀ a b, P a → P b → P (reduce a b))
    {op : MapTransform R (K → V → MapTransformResult V R)} (h : op.Gives P) (par : Par) {t t' : Trie c K V} {r : R}
    (hr : t.transform reduce e op par = .ok (t', r)) : P r := by
  have n := Trie.transform_nat (hom_val reduce e pe pr) (op.mapR (keepP e pe)) par t
  rw [MapTransform.mapR_mapR, MapTransform.keep e pe h, hr] at n
  exact Res.val_holds n

omit [BEq K] [BEq S] in
@[inherit_doc C57_transform_invariant]
theorem C57_transmute_invariant (pe : P e) (pr : ∀ a b, P a → P b → P (reduce a b))
    {op : MapTransmute R (K → V → MapTransmuteResult S X R)} (h : op.Gives P) {t : Trie c K V} {t' : Trie c S X} {r : R}
    (hr : t.transmute reduce e op = .ok (t', r)) : P r := by
  have n := Trie.transmute_nat (hom_val reduce e pe pr) (op.mapR (keepP e pe)) t
  rw [MapTransmute.mapR_mapR, MapTransmute.keep e pe h, hr] at n
  exact Res.val_holds n

omit [BEq S] in
@[inherit_doc C57_transform_invariant]
theorem C57_transform_with_transmuted_invariant (pe : P e) (pr : ∀ a b, P a → P b → P (reduce a b))
    {ops : TwmOps K V L W R} (hb : ops.both.Gives2 P) (hl : ops.left.Gives P) (h : ops.right.Gives P) (par : Par)
    {t t' : Trie c K V} {u : Trie c L W} {r : R} (hr : Trie.twm x reduce e ops par t u = .ok (t', r)) : P r := by
  have n := Trie.twm_nat (hom_val reduce e pe pr) x (ops.mapR (keepP e pe)) par t u
  rw [TwmOps.mapR_mapR, TwmOps.mapR, MapTransform.keep2 e pe hb, MapTransform.keep e pe hl, MapTransmute.keep e pe h, hr] at n
  exact Res.val_holds n

omit [BEq S] in
@[inherit_doc C57_transform_invariant]
theorem C57_transmute_with_transformed_invariant (pe : P e) (pr : ∀ a b, P a → P b → P (reduce a b))
    {ops : MwtOps K V L W R} (hb : ops.both.Gives2 P) (hl : ops.left.Gives P) (h : ops.right.Gives P) (par : Par)
    {t : Trie c K V} {u t' : Trie c L W} {r : R} (hr : Trie.mwt x reduce e ops par t u = .ok (t', r)) : P r := by
  have n := Trie.mwt_nat (hom_val reduce e pe pr) x (ops.mapR (keepP e pe)) par t u
  rw [MwtOps.mapR_mapR, MwtOps.mapR, MapTransform.keep2 e pe hb, MapTransmute.keep e pe hl, MapTransform.keep e pe h, hr] at n
  exact Res.val_holds n

omit [BEq S] in
@[inherit_doc C57_transform_invariant]
theorem C57_transmute_with_transmuted_invariant (pe : P e) (pr : ∀ a b, P a → P b → P (reduce a b))
    {ops : MwmOps K V L W S X R} (hb : ops.both.Gives2 P) (hl : ops.left.Gives P) (h : ops.right.Gives P)
    {t : Trie c K V} {u : Trie c L W} {t' : Trie c S X} {r : R} (hr : Trie.mwm x reduce e ops t u = .ok (t', r)) : P r := by
  have n := Trie.mwm_nat (hom_val reduce e pe pr) x (ops.mapR (keepP e pe)) t u
  rw [MwmOps.mapR_mapR, MwmOps.mapR, MapTransmute.keep2 e pe hb, MapTransmute.keep e pe hl, MapTransmute.keep e pe h, hr] at n
  exact Res.val_holds n

omit [BEq L] [BEq S] in
@[inherit_doc C57_transform_invariant]
theorem C57_transform_with_transformed_invariant (pe : P e) (pr : ∀ a b, P a → P b → P (reduce a b))
    {ops : TwtOps K V R} (hb : ops.both.Gives P) (hl : ops.left.Gives P) (h : ops.right.Gives P) (par : Par)
    {t u t' : Trie c K V} {r : R} (hr : Trie.twt reduce e hash ops par t u = .ok (t', r)) : P r := by
  have n := Trie.twt_nat (hom_val reduce e pe pr) hash (ops.mapR (keepP e pe)) par t u
  rw [TwtOps.mapR_mapR, TwtOps.mapR, MapJointTransform.keep e pe hb, MapTransform.keep e pe hl, MapTransform.keep e pe h, hr] at n
  exact Res.val_holds n

end

/-! ### The hypotheses are met -/

-- a `reduce_op` that is not associative, not commutative, and has no identity: the two strategies give different
-- reductions, both of them combinations of the contributions
example : (Trie.insertMany Ex.exHash true (Trie.new Ex.c8) Ex.entries).test (fun t =>
    (t.transform (fun a b : Nat => 2 * a + b) 1 (.generic fun _ v => .unchanged v) .sequential).test fun (y : _ × Nat) =>
      (t.transform (fun a b : Nat => 2 * a + b) 1 (.generic fun _ v => .unchanged v) .middleIndex).test fun (z : _ × Nat) =>
        decide (y.2 ≠ z.2)) = true := by
  decide +kernel

-- the same for a joint operation on maps with colliding keys, with a bulk operation contributing the default
example : ∃ (t u : Trie Ex.c8 Ex.Tk Nat), Reach Ex.c8 Ex.exHash t ∧ Reach Ex.c8 Ex.exHash u ∧
    (Trie.twt (fun a b : Nat => 2 * a + b) 1 Ex.exHash ⟨.generic (fun _ v _ w => .unchangedL (v + w)) false,
      .generic fun _ v => .unchanged v, .removed 1⟩ .sequential t u).test (fun (_ : Trie Ex.c8 Ex.Tk Nat × Nat) => true)
      = true :=
  exists_reach2 Ex.exLaws Ex.exLaws Ex.entries Ex.right _ (by decide +kernel)

-- `P`: being at most 90, preserved by maximum; entries with larger values contribute nothing
example : ∀ a b : Nat, a ≤ 90 → b ≤ 90 → max a b ≤ 90 := by omega
example : MapTransform.Gives (K := Ex.Tk) (fun r : Nat => r ≤ 90)
    (.generic fun _ v => if v ≤ 90 then .unchanged v else .removed 0) := by
  intro k v; dsimp only; split <;> simp [MapTransformResult.red, *]

end HT
