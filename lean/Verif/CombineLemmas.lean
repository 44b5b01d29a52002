import Verif.CombineSpec
import Verif.NatTrie
import Verif.JointSpec
import Mathlib.Data.Multiset.AddSub
/-!
# Free reductions

Running an operation with *formal* reductions (`Term`), from which both the actual reduction and the list of
contributions can be read.
-/
namespace HT

variable {K V L W S X R R' R'' : Type} {c : Cfg}

/-- Formal combinations of values. -/
inductive Term (R : Type)
  | none
  | one (r : R)
  | both (a b : Term R)

namespace Term

def eval (reduce : R → R → R) (e : R) : Term R → R
  | .none => e
  | .one r => r
  | .both a b => reduce (a.eval reduce e) (b.eval reduce e)

def leaves : Term R → List R
  | .none => []
  | .one r => [r]
  | .both a b => a.leaves ++ b.leaves

theorem combines (reduce : R → R → R) (e : R) : (t : Term R) → Combines reduce e t.leaves (t.eval reduce e)
  | .none => .none
  | .one r => .one r
  | .both a b => .both (a.combines reduce e) (b.combines reduce e)

theorem hom_eval (reduce : R → R → R) (e : R) : Hom Term.both Term.none reduce e (eval reduce e) :=
  ⟨fun _ _ => rfl, rfl⟩

theorem hom_leaves : Hom (R := Term R) Term.both Term.none (· ++ ·) [] leaves := ⟨fun _ _ => rfl, rfl⟩

theorem hom_bag : Hom (R := Term R) (R' := Multiset R) Term.both Term.none (· + ·) 0 (fun t => (t.leaves : Multiset R)) :=
  ⟨fun _ _ => (Multiset.coe_add _ _).symm, rfl⟩

end Term

/-! ### Composition of changes of reduction -/

section
variable (g : R → R') (h : R' → R'')

theorem MapTransformResult.mapR_mapR (x : MapTransformResult V R) : (x.mapR g).mapR h = x.mapR (h ∘ g) := by
  cases x <;> rfl
theorem MapTransmuteResult.mapR_mapR (x : MapTransmuteResult K V R) : (x.mapR g).mapR h = x.mapR (h ∘ g) := by
  cases x <;> rfl
theorem MapJointTransformResult.mapR_mapR (x : MapJointTransformResult V R) :
    (x.mapR g).mapR h = x.mapR (h ∘ g) := by cases x <;> rfl
theorem MapTransformResult.mapR_id (x : MapTransformResult V R) : x.mapR (fun r => r) = x := by cases x <;> rfl
theorem MapTransmuteResult.mapR_id (x : MapTransmuteResult K V R) : x.mapR (fun r => r) = x := by cases x <;> rfl
theorem MapJointTransformResult.mapR_id (x : MapJointTransformResult V R) : x.mapR (fun r => r) = x := by cases x <;> rfl
theorem MapTransformResult.mapR_red (x : MapTransformResult V R) : (x.mapR g).red = g x.red := by cases x <;> rfl
theorem MapTransmuteResult.mapR_red (x : MapTransmuteResult K V R) : (x.mapR g).red = g x.red := by cases x <;> rfl
theorem MapJointTransformResult.mapR_red (x : MapJointTransformResult V R) : (x.mapR g).red = g x.red := by cases x <;> rfl

theorem MapTransform.mapR_mapR (op : MapTransform R (K → V → MapTransformResult V R)) :
    (op.mapR g).mapR h = op.mapR (h ∘ g) := by
  cases op <;> simp only [MapTransform.mapR, MapTransformResult.mapR_mapR, Function.comp]
theorem MapTransform.mapR2_mapR2 {A : Type} (op : MapTransform R (K → V → L → W → MapTransformResult A R)) :
    (op.mapR2 g).mapR2 h = op.mapR2 (h ∘ g) := by
  cases op <;> simp only [MapTransform.mapR2, MapTransformResult.mapR_mapR, Function.comp]
theorem MapTransmute.mapR_mapR (op : MapTransmute R (K → V → MapTransmuteResult S X R)) :
    (op.mapR g).mapR h = op.mapR (h ∘ g) := by
  cases op <;> simp only [MapTransmute.mapR, MapTransmuteResult.mapR_mapR, Function.comp]
theorem MapTransmute.mapR2_mapR2 (op : MapTransmute R (K → V → L → W → MapTransmuteResult S X R)) :
    (op.mapR2 g).mapR2 h = op.mapR2 (h ∘ g) := by
  cases op <;> simp only [MapTransmute.mapR2, MapTransmuteResult.mapR_mapR, Function.comp]
theorem MapJointTransform.mapR_mapR (op : MapJointTransform R (K → V → K → V → MapJointTransformResult V R)) :
    (op.mapR g).mapR h = op.mapR (h ∘ g) := by
  cases op <;> simp only [MapJointTransform.mapR, MapJointTransformResult.mapR_mapR, Function.comp]

theorem MapTransform.mapR_id (op : MapTransform R (K → V → MapTransformResult V R)) : op.mapR (fun r => r) = op := by
  cases op <;> simp only [MapTransform.mapR, MapTransformResult.mapR_id]
theorem MapTransform.mapR2_id {A : Type} (op : MapTransform R (K → V → L → W → MapTransformResult A R)) :
    op.mapR2 (fun r => r) = op := by
  cases op <;> simp only [MapTransform.mapR2, MapTransformResult.mapR_id]
theorem MapTransmute.mapR_id (op : MapTransmute R (K → V → MapTransmuteResult S X R)) : op.mapR (fun r => r) = op := by
  cases op <;> simp only [MapTransmute.mapR, MapTransmuteResult.mapR_id]
theorem MapTransmute.mapR2_id (op : MapTransmute R (K → V → L → W → MapTransmuteResult S X R)) :
    op.mapR2 (fun r => r) = op := by
  cases op <;> simp only [MapTransmute.mapR2, MapTransmuteResult.mapR_id]
theorem MapJointTransform.mapR_id (op : MapJointTransform R (K → V → K → V → MapJointTransformResult V R)) :
    op.mapR (fun r => r) = op := by
  cases op <;> simp only [MapJointTransform.mapR, MapJointTransformResult.mapR_id]

theorem TwmOps.mapR_mapR (o : TwmOps K V L W R) : (o.mapR g).mapR h = o.mapR (h ∘ g) := by
  simp only [TwmOps.mapR, MapTransform.mapR_mapR, MapTransform.mapR2_mapR2, MapTransmute.mapR_mapR]
theorem MwtOps.mapR_mapR (o : MwtOps K V L W R) : (o.mapR g).mapR h = o.mapR (h ∘ g) := by
  simp only [MwtOps.mapR, MapTransform.mapR_mapR, MapTransform.mapR2_mapR2, MapTransmute.mapR_mapR]
theorem MwmOps.mapR_mapR (o : MwmOps K V L W S X R) : (o.mapR g).mapR h = o.mapR (h ∘ g) := by
  simp only [MwmOps.mapR, MapTransmute.mapR2_mapR2, MapTransmute.mapR_mapR]
theorem TwtOps.mapR_mapR (o : TwtOps K V R) : (o.mapR g).mapR h = o.mapR (h ∘ g) := by
  simp only [TwtOps.mapR, MapTransform.mapR_mapR, MapJointTransform.mapR_mapR]

theorem TwmOps.mapR_id (o : TwmOps K V L W R) : o.mapR (fun r => r) = o := by
  simp only [TwmOps.mapR, MapTransform.mapR_id, MapTransform.mapR2_id, MapTransmute.mapR_id]
theorem MwtOps.mapR_id (o : MwtOps K V L W R) : o.mapR (fun r => r) = o := by
  simp only [MwtOps.mapR, MapTransform.mapR_id, MapTransform.mapR2_id, MapTransmute.mapR_id]
theorem MwmOps.mapR_id (o : MwmOps K V L W S X R) : o.mapR (fun r => r) = o := by
  simp only [MwmOps.mapR, MapTransmute.mapR2_id, MapTransmute.mapR_id]
theorem TwtOps.mapR_id (o : TwtOps K V R) : o.mapR (fun r => r) = o := by
  simp only [TwtOps.mapR, MapTransform.mapR_id, MapJointTransform.mapR_id]

end

theorem MapTransmuteResult.mapR_eq (g : R → R') {x : MapTransmuteResult K V R} {k : K} {v : V} {r : R'}
    (h : x.mapR g = .transmuted k v r) : ∃ r', x = .transmuted k v r' := by
  cases x with
  | transmuted k' v' r' => simp only [MapTransmuteResult.mapR] at h; injection h with h1 h2; subst h1; subst h2; exact ⟨r', rfl⟩
  | removed r' => simp [MapTransmuteResult.mapR] at h
theorem MapTransmuteResult.mapR_entry (g : R → R') (x : MapTransmuteResult K V R) : (x.mapR g).entry = x.entry := by
  cases x <;> rfl

theorem KeyMap.mapR [BEq K] [BEq S] {hash : K → BitVec c.w} {hash' : S → BitVec c.w} (g : R → R')
    {f : K → V → MapTransmuteResult S X R} (km : KeyMap hash hash' f) : KeyMap hash hash' fun k v => (f k v).mapR g where
  hash := by
    intro k v k' v' r h
    obtain ⟨r', h⟩ := MapTransmuteResult.mapR_eq g h
    exact km.hash _ _ _ _ _ h
  inj := by
    intro k v k' v' r l w l' w' s h h' e
    obtain ⟨r', h⟩ := MapTransmuteResult.mapR_eq g h
    obtain ⟨s', h'⟩ := MapTransmuteResult.mapR_eq g h'
    exact km.inj _ _ _ _ _ _ _ _ _ _ h h' e

theorem MapTransmute.mapR_closure (g : R → R') (op : MapTransmute R (K → V → MapTransmuteResult S X R)) (k : K) (v : V) :
    (op.mapR g).closure k v = (op.closure k v).mapR g := by cases op <;> rfl
theorem MapTransmute.mapR2_closure (g : R → R') (op : MapTransmute R (K → V → L → W → MapTransmuteResult S X R)) (k : K)
    (v : V) (l : L) (w : W) : (op.mapR2 g).closure2 k v l w = (op.closure2 k v l w).mapR g := by cases op <;> rfl

theorem TwmOps.Contract.mapR {x : Cross c K L} (g : R → R') {o : TwmOps K V L W R} (h : o.Contract x) :
    (o.mapR g).Contract x := by
  intro l w k v r hr
  obtain ⟨r', hr⟩ := MapTransmuteResult.mapR_eq g ((MapTransmute.mapR_closure g o.right l w).symm.trans hr)
  exact h _ _ _ _ _ hr
theorem MwtOps.Contract.mapR {x : Cross c K L} (g : R → R') {o : MwtOps K V L W R} (h : o.Contract x) :
    (o.mapR g).Contract x := by
  intro l w k v r hr
  obtain ⟨r', hr⟩ := MapTransmuteResult.mapR_eq g ((MapTransmute.mapR_closure g o.left l w).symm.trans hr)
  exact h _ _ _ _ _ hr
theorem MwmOps.mapR_out (g : R → R') (o : MwmOps K V L W S X R) : (o.mapR g).out = o.out := by
  funext p
  cases p <;> simp only [MwmOps.out, MwmOps.mapR, MapTransmute.mapR_closure, MapTransmute.mapR2_closure,
    MapTransmuteResult.mapR_entry]
theorem MwmOps.Contract.mapR [BEq K] [BEq L] [BEq S] {x : Cross c K L} {hash : S → BitVec c.w} (g : R → R')
    {o : MwmOps K V L W S X R} (h : o.Contract x hash) : (o.mapR g).Contract x hash := by
  refine ⟨?_, ?_⟩ <;> rw [MwmOps.mapR_out]
  · exact h.hash
  · exact h.inj

theorem Res.mapOk_eq_ok {α β : Type} {f : α → β} {x : Res α} {b : β} (h : x.mapOk f = .ok b) :
    ∃ a, x = .ok a ∧ f a = b := by
  cases x with
  | ok a => exact ⟨a, rfl, by simpa [Res.mapOk] using h⟩
  | _ => simp [Res.mapOk] at h

/-! ### Running formally -/

/-- The operation contributing formally: closures contribute what they say, bulk operations nothing. -/
def MapTransform.formal : MapTransform R (K → V → MapTransformResult V R) →
    MapTransform (Term R) (K → V → MapTransformResult V (Term R))
  | .generic f => .generic fun k v => (f k v).mapR Term.one
  | .unchanged _ => .unchanged .none
  | .removed _ => .removed .none
def MapTransform.formal2 {A : Type} : MapTransform R (K → V → L → W → MapTransformResult A R) →
    MapTransform (Term R) (K → V → L → W → MapTransformResult A (Term R))
  | .generic f => .generic fun k v l w => (f k v l w).mapR Term.one
  | .unchanged _ => .unchanged .none
  | .removed _ => .removed .none
def MapTransmute.formal : MapTransmute R (K → V → MapTransmuteResult S X R) →
    MapTransmute (Term R) (K → V → MapTransmuteResult S X (Term R))
  | .generic f => .generic fun k v => (f k v).mapR Term.one
  | .removed _ => .removed .none
def MapTransmute.formal2 : MapTransmute R (K → V → L → W → MapTransmuteResult S X R) →
    MapTransmute (Term R) (K → V → L → W → MapTransmuteResult S X (Term R))
  | .generic f => .generic fun k v l w => (f k v l w).mapR Term.one
  | .removed _ => .removed .none
def MapJointTransform.formal : MapJointTransform R (K → V → K → V → MapJointTransformResult V R) →
    MapJointTransform (Term R) (K → V → K → V → MapJointTransformResult V (Term R))
  | .generic f b => .generic (fun k v l w => (f k v l w).mapR Term.one) b
  | .unchangedLR _ => .unchangedLR .none
  | .unchangedL _ => .unchangedL .none
  | .unchangedR _ => .unchangedR .none
  | .removed _ => .removed .none
def TwmOps.formal (o : TwmOps K V L W R) : TwmOps K V L W (Term R) := ⟨o.both.formal2, o.left.formal, o.right.formal⟩
def MwtOps.formal (o : MwtOps K V L W R) : MwtOps K V L W (Term R) := ⟨o.both.formal2, o.left.formal, o.right.formal⟩
def MwmOps.formal (o : MwmOps K V L W S X R) : MwmOps K V L W S X (Term R) := ⟨o.both.formal2, o.left.formal, o.right.formal⟩
def TwtOps.formal (o : TwtOps K V R) : TwtOps K V (Term R) := ⟨o.both.formal, o.left.formal, o.right.formal⟩

section
variable (reduce : R → R → R) (e : R)

theorem MapTransform.formal_eval {op : MapTransform R (K → V → MapTransformResult V R)} (h : op.Neutral e) :
    op.formal.mapR (Term.eval reduce e) = op := by
  cases op with
  | generic f =>
    simp only [MapTransform.formal, MapTransform.mapR, MapTransformResult.mapR_mapR]
    exact congrArg MapTransform.generic (funext fun k => funext fun v => MapTransformResult.mapR_id _)
  | unchanged r => exact congrArg MapTransform.unchanged (Eq.symm h)
  | removed r => exact congrArg MapTransform.removed (Eq.symm h)
theorem MapTransform.formal2_eval {A : Type} {op : MapTransform R (K → V → L → W → MapTransformResult A R)}
    (h : op.Neutral e) : op.formal2.mapR2 (Term.eval reduce e) = op := by
  cases op with
  | generic f =>
    simp only [MapTransform.formal2, MapTransform.mapR2, MapTransformResult.mapR_mapR]
    exact congrArg MapTransform.generic (funext fun k => funext fun v => funext fun l => funext fun w =>
      MapTransformResult.mapR_id _)
  | unchanged r => exact congrArg MapTransform.unchanged (Eq.symm h)
  | removed r => exact congrArg MapTransform.removed (Eq.symm h)
theorem MapTransmute.formal_eval {op : MapTransmute R (K → V → MapTransmuteResult S X R)} (h : op.Neutral e) :
    op.formal.mapR (Term.eval reduce e) = op := by
  cases op with
  | generic f =>
    simp only [MapTransmute.formal, MapTransmute.mapR, MapTransmuteResult.mapR_mapR]
    exact congrArg MapTransmute.generic (funext fun k => funext fun v => MapTransmuteResult.mapR_id _)
  | removed r => exact congrArg MapTransmute.removed (Eq.symm h)
theorem MapTransmute.formal2_eval {op : MapTransmute R (K → V → L → W → MapTransmuteResult S X R)} (h : op.Neutral e) :
    op.formal2.mapR2 (Term.eval reduce e) = op := by
  cases op with
  | generic f =>
    simp only [MapTransmute.formal2, MapTransmute.mapR2, MapTransmuteResult.mapR_mapR]
    exact congrArg MapTransmute.generic (funext fun k => funext fun v => funext fun l => funext fun w =>
      MapTransmuteResult.mapR_id _)
  | removed r => exact congrArg MapTransmute.removed (Eq.symm h)
theorem MapJointTransform.formal_eval {op : MapJointTransform R (K → V → K → V → MapJointTransformResult V R)}
    (h : op.Neutral e) : op.formal.mapR (Term.eval reduce e) = op := by
  cases op with
  | generic f b =>
    simp only [MapJointTransform.formal, MapJointTransform.mapR, MapJointTransformResult.mapR_mapR]
    exact congrArg (MapJointTransform.generic · b) (funext fun k => funext fun v => funext fun l => funext fun w =>
      MapJointTransformResult.mapR_id _)
  | unchangedLR r => exact congrArg MapJointTransform.unchangedLR (Eq.symm h)
  | unchangedL r => exact congrArg MapJointTransform.unchangedL (Eq.symm h)
  | unchangedR r => exact congrArg MapJointTransform.unchangedR (Eq.symm h)
  | removed r => exact congrArg MapJointTransform.removed (Eq.symm h)

theorem TwmOps.formal_eval {o : TwmOps K V L W R} (h : o.Neutral e) : o.formal.mapR (Term.eval reduce e) = o := by
  simp only [TwmOps.formal, TwmOps.mapR, MapTransform.formal2_eval reduce e h.1, MapTransform.formal_eval reduce e h.2.1,
    MapTransmute.formal_eval reduce e h.2.2]
theorem MwtOps.formal_eval {o : MwtOps K V L W R} (h : o.Neutral e) : o.formal.mapR (Term.eval reduce e) = o := by
  simp only [MwtOps.formal, MwtOps.mapR, MapTransform.formal2_eval reduce e h.1, MapTransmute.formal_eval reduce e h.2.1,
    MapTransform.formal_eval reduce e h.2.2]
theorem MwmOps.formal_eval {o : MwmOps K V L W S X R} (h : o.Neutral e) : o.formal.mapR (Term.eval reduce e) = o := by
  simp only [MwmOps.formal, MwmOps.mapR, MapTransmute.formal2_eval reduce e h.1, MapTransmute.formal_eval reduce e h.2.1,
    MapTransmute.formal_eval reduce e h.2.2]
theorem TwtOps.formal_eval {o : TwtOps K V R} (h : o.Neutral e) : o.formal.mapR (Term.eval reduce e) = o := by
  simp only [TwtOps.formal, TwtOps.mapR, MapJointTransform.formal_eval reduce e h.1, MapTransform.formal_eval reduce e h.2.1,
    MapTransform.formal_eval reduce e h.2.2]

end

/-- The leaves of a term, as a bag. -/
def Term.bag (t : Term R) : Multiset R := t.leaves

theorem MapTransform.formal_bag (op : MapTransform R (K → V → MapTransformResult V R)) (k : K) (v : V) :
    ((op.formal.mapR Term.bag).closure k v).red = (op.said k v : Multiset R) := by
  cases op with
  | generic f => exact (MapTransformResult.mapR_red _ _).trans (congrArg Term.bag (MapTransformResult.mapR_red _ _))
  | _ => rfl
theorem MapTransform.formal2_bag {A : Type} (op : MapTransform R (K → V → L → W → MapTransformResult A R)) (k : K) (v : V)
    (l : L) (w : W) : ((op.formal2.mapR2 Term.bag).closure2 k v l w).red = (op.said2 k v l w : Multiset R) := by
  cases op with
  | generic f => exact (MapTransformResult.mapR_red _ _).trans (congrArg Term.bag (MapTransformResult.mapR_red _ _))
  | _ => rfl
theorem MapTransmute.formal_bag (op : MapTransmute R (K → V → MapTransmuteResult S X R)) (k : K) (v : V) :
    ((op.formal.mapR Term.bag).closure k v).red = (op.said k v : Multiset R) := by
  cases op with
  | generic f => exact (MapTransmuteResult.mapR_red _ _).trans (congrArg Term.bag (MapTransmuteResult.mapR_red _ _))
  | _ => rfl
theorem MapTransmute.formal2_bag (op : MapTransmute R (K → V → L → W → MapTransmuteResult S X R)) (k : K) (v : V)
    (l : L) (w : W) : ((op.formal2.mapR2 Term.bag).closure2 k v l w).red = (op.said2 k v l w : Multiset R) := by
  cases op with
  | generic f => exact (MapTransmuteResult.mapR_red _ _).trans (congrArg Term.bag (MapTransmuteResult.mapR_red _ _))
  | _ => rfl
theorem MapJointTransform.formal_bag (op : MapJointTransform R (K → V → K → V → MapJointTransformResult V R)) (k : K)
    (v : V) (l : K) (w : V) : ((op.formal.mapR Term.bag).closure k v l w).red = (op.said k v l w : Multiset R) := by
  cases op with
  | generic f b =>
    cases b
    · exact (MapJointTransformResult.mapR_red _ _).trans (congrArg Term.bag (MapJointTransformResult.mapR_red _ _))
    · simp only [MapJointTransform.formal, MapJointTransform.mapR, MapJointTransform.closure, MapJointTransform.said]
      cases f l w k v <;> rfl
  | _ => rfl

theorem Term.hom_bag' : Hom (R := Term R) (R' := Multiset R) Term.both Term.none (· + ·) 0 Term.bag := Term.hom_bag

theorem total_bags {α : Type} (l : List α) (f : α → List R) :
    total (R := Multiset R) (· + ·) 0 (l.map fun p => (f p : Multiset R)) = (l.flatMap f : Multiset R) := by
  have : ∀ (l : List α) (m : Multiset R), (l.map fun p => (f p : Multiset R)).foldl (· + ·) m = m + (l.flatMap f : Multiset R) := by
    intro l
    induction l with
    | nil => intro m; exact (Multiset.add_zero m).symm
    | cons p l ih =>
      intro m
      rw [List.map_cons, List.foldl_cons, ih, Multiset.add_assoc, List.flatMap_cons, ← Multiset.coe_add]
  rw [total, this]
  exact Multiset.zero_add _

theorem MapTransmute.formal_closure {op : MapTransmute R (K → V → MapTransmuteResult S X R)} {k : K} {v : V} {s : S} {y : X}
    {r : Term R} (h : op.formal.closure k v = .transmuted s y r) : ∃ r', op.closure k v = .transmuted s y r' := by
  cases op with
  | generic f => exact MapTransmuteResult.mapR_eq Term.one h
  | removed r => simp [MapTransmute.formal, MapTransmute.closure] at h

theorem TwmOps.Contract.formal {x : Cross c K L} {o : TwmOps K V L W R} (h : o.Contract x) : o.formal.Contract x := by
  intro l w k v r hr
  obtain ⟨r', hr⟩ := MapTransmute.formal_closure hr
  exact h _ _ _ _ _ hr
theorem MwtOps.Contract.formal {x : Cross c K L} {o : MwtOps K V L W R} (h : o.Contract x) : o.formal.Contract x := by
  intro l w k v r hr
  obtain ⟨r', hr⟩ := MapTransmute.formal_closure hr
  exact h _ _ _ _ _ hr
theorem MwmOps.formal_out (o : MwmOps K V L W S X R) : o.formal.out = o.out := by
  obtain ⟨both, left, right⟩ := o
  funext p
  cases p with
  | left a => cases left <;> first | rfl | exact MapTransmuteResult.mapR_entry _ _
  | right a => cases right <;> first | rfl | exact MapTransmuteResult.mapR_entry _ _
  | both a b => cases both <;> first | rfl | exact MapTransmuteResult.mapR_entry _ _
theorem MwmOps.Contract.formal [BEq K] [BEq L] [BEq S] {x : Cross c K L} {hash : S → BitVec c.w}
    {o : MwmOps K V L W S X R} (h : o.Contract x hash) : o.formal.Contract x hash := by
  refine ⟨?_, ?_⟩ <;> rw [MwmOps.formal_out]
  · exact h.hash
  · exact h.inj

theorem TwmOps.formal_neutral (o : TwmOps K V L W R) : (o.formal.mapR Term.bag).Neutral 0 := by
  obtain ⟨both, left, right⟩ := o
  exact ⟨by cases both <;> first | trivial | rfl, by cases left <;> first | trivial | rfl,
    by cases right <;> first | trivial | rfl⟩
theorem MwtOps.formal_neutral (o : MwtOps K V L W R) : (o.formal.mapR Term.bag).Neutral 0 := by
  obtain ⟨both, left, right⟩ := o
  exact ⟨by cases both <;> first | trivial | rfl, by cases left <;> first | trivial | rfl,
    by cases right <;> first | trivial | rfl⟩
theorem MwmOps.formal_neutral (o : MwmOps K V L W S X R) : (o.formal.mapR Term.bag).Neutral 0 := by
  obtain ⟨both, left, right⟩ := o
  exact ⟨by cases both <;> first | trivial | rfl, by cases left <;> first | trivial | rfl,
    by cases right <;> first | trivial | rfl⟩
theorem TwtOps.formal_neutral (o : TwtOps K V R) : (o.formal.mapR Term.bag).Neutral 0 := by
  obtain ⟨both, left, right⟩ := o
  exact ⟨by cases both <;> first | trivial | rfl, by cases left <;> first | trivial | rfl,
    by cases right <;> first | trivial | rfl⟩

/-! What `mapOk` says about the two runs. -/

/-- A run with actual reductions is one with formal reductions. -/
theorem Res.formal {α : Type} {reduce : R → R → R} {e : R} {x : Res (α × Term R)} {y : Res (α × R)}
    (h : y = x.mapOk (Prod.map id (Term.eval reduce e))) {a : α} {r : R} (hr : y = .ok (a, r)) :
    ∃ z : Term R, x = .ok (a, z) ∧ r = z.eval reduce e := by
  obtain ⟨⟨a1, z⟩, h1, h2⟩ := Res.mapOk_eq_ok (h.symm.trans hr)
  injection h2 with h2 h3
  cases h2
  exact ⟨z, h1, h3.symm⟩

/-! ### Invariants of the reduction -/

section
variable (reduce : R → R → R) (e : R) {P : R → Prop}

open Classical in
/-- Keep what is `P`. -/
noncomputable def keepP (pe : P e) (r : R) : { r // P r } := if h : P r then ⟨r, h⟩ else ⟨e, pe⟩

theorem keepP_val (pe : P e) {r : R} (h : P r) : (keepP e pe r).val = r := by rw [keepP, dif_pos h]

theorem MapTransformResult.keep (pe : P e) {x : MapTransformResult V R} (h : P x.red) :
    x.mapR (Subtype.val ∘ keepP e pe) = x := by
  cases x <;> simp only [MapTransformResult.mapR, MapTransformResult.red, Function.comp] at h ⊢ <;> rw [keepP_val e pe h]
theorem MapTransmuteResult.keep (pe : P e) {x : MapTransmuteResult K V R} (h : P x.red) :
    x.mapR (Subtype.val ∘ keepP e pe) = x := by
  cases x <;> simp only [MapTransmuteResult.mapR, MapTransmuteResult.red, Function.comp] at h ⊢ <;> rw [keepP_val e pe h]
theorem MapJointTransformResult.keep (pe : P e) {x : MapJointTransformResult V R} (h : P x.red) :
    x.mapR (Subtype.val ∘ keepP e pe) = x := by
  cases x <;> simp only [MapJointTransformResult.mapR, MapJointTransformResult.red, Function.comp] at h ⊢ <;> rw [keepP_val e pe h]

theorem MapTransform.keep (pe : P e) {op : MapTransform R (K → V → MapTransformResult V R)} (h : op.Gives P) :
    op.mapR (Subtype.val ∘ keepP e pe) = op := by
  cases op with
  | generic f => exact congrArg MapTransform.generic (funext fun k => funext fun v => MapTransformResult.keep e pe (h k v))
  | unchanged r => exact congrArg MapTransform.unchanged (keepP_val e pe h)
  | removed r => exact congrArg MapTransform.removed (keepP_val e pe h)
theorem MapTransform.keep2 {A : Type} (pe : P e) {op : MapTransform R (K → V → L → W → MapTransformResult A R)}
    (h : op.Gives2 P) : op.mapR2 (Subtype.val ∘ keepP e pe) = op := by
  cases op with
  | generic f =>
    exact congrArg MapTransform.generic (funext fun k => funext fun v => funext fun l => funext fun w =>
      MapTransformResult.keep e pe (h k v l w))
  | unchanged r => exact congrArg MapTransform.unchanged (keepP_val e pe h)
  | removed r => exact congrArg MapTransform.removed (keepP_val e pe h)
theorem MapTransmute.keep (pe : P e) {op : MapTransmute R (K → V → MapTransmuteResult S X R)} (h : op.Gives P) :
    op.mapR (Subtype.val ∘ keepP e pe) = op := by
  cases op with
  | generic f => exact congrArg MapTransmute.generic (funext fun k => funext fun v => MapTransmuteResult.keep e pe (h k v))
  | removed r => exact congrArg MapTransmute.removed (keepP_val e pe h)
theorem MapTransmute.keep2 (pe : P e) {op : MapTransmute R (K → V → L → W → MapTransmuteResult S X R)}
    (h : op.Gives2 P) : op.mapR2 (Subtype.val ∘ keepP e pe) = op := by
  cases op with
  | generic f =>
    exact congrArg MapTransmute.generic (funext fun k => funext fun v => funext fun l => funext fun w =>
      MapTransmuteResult.keep e pe (h k v l w))
  | removed r => exact congrArg MapTransmute.removed (keepP_val e pe h)
theorem MapJointTransform.keep (pe : P e) {op : MapJointTransform R (K → V → K → V → MapJointTransformResult V R)}
    (h : op.Gives P) : op.mapR (Subtype.val ∘ keepP e pe) = op := by
  cases op with
  | generic f b =>
    exact congrArg (MapJointTransform.generic · b) (funext fun k => funext fun v => funext fun l => funext fun w =>
      MapJointTransformResult.keep e pe (h k v l w))
  | unchangedLR r => exact congrArg MapJointTransform.unchangedLR (keepP_val e pe h)
  | unchangedL r => exact congrArg MapJointTransform.unchangedL (keepP_val e pe h)
  | unchangedR r => exact congrArg MapJointTransform.unchangedR (keepP_val e pe h)
  | removed r => exact congrArg MapJointTransform.removed (keepP_val e pe h)

variable (pe : P e) (pr : ∀ a b, P a → P b → P (reduce a b))

theorem hom_val : Hom (fun a b : { r // P r } => ⟨reduce a.1 b.1, pr _ _ a.2 b.2⟩) ⟨e, pe⟩ reduce e Subtype.val :=
  ⟨fun _ _ => rfl, rfl⟩

theorem Res.val_holds {α : Type} {x : Res (α × { r // P r })} {a : α} {r : R}
    (h : Res.ok (a, r) = x.mapOk (Prod.map id Subtype.val)) : P r := by
  obtain ⟨⟨a1, z⟩, _, h2⟩ := Res.mapOk_eq_ok h.symm
  injection h2 with h2 h3
  exact h3 ▸ z.2

end

end HT
