import Verif.JointSpec
/-!
# Pairings: what a joint operation does to two maps when `==` obeys no law

Nothing here refers to nodes.
-/
namespace HT

variable {A B K V L W : Type}

/-- The entry of the left map a case is about. -/
def Case.left? : Case A B → Option A
  | .left a => some a
  | .right _ => none
  | .both a _ => some a

/-- The entry of the right map a case is about. -/
def Case.right? : Case A B → Option B
  | .left _ => none
  | .right b => some b
  | .both _ b => some b

/-- Every entry of either list occurs in exactly one of the cases (as often as it is listed), and nothing else does;
    `said` holds of all pairs. -/
structure Pairing (said : A → B → Prop) (as : List A) (bs : List B) (cs : List (Case A B)) : Prop where
  lefts : (cs.filterMap Case.left?).Perm as
  rights : (cs.filterMap Case.right?).Perm bs
  said : ∀ a b, Case.both a b ∈ cs → said a b

/-- `==` says yes to two keys, asked from one side or the other. -/
def Cross.Says {c : Cfg} (x : Cross c K L) (a : K × V) (b : L × W) : Prop :=
  x.eq a.1 b.1 = true ∨ x.eq' b.1 a.1 = true

/-- What `transform_with_transformed` may put into its result, given the entries of the two maps: entries of theirs, and
    keys of theirs with a value made by a closure for them (a closure for pairs is called on entries whose keys `==`). -/
inductive TwtMade {R : Type} [BEq K] (ops : TwtOps K V R) (as bs : List (K × V)) : K × V → Prop
  | left {a : K × V} (h : a ∈ as) : TwtMade ops as bs a
  | right {b : K × V} (h : b ∈ bs) : TwtMade ops as bs b
  | leftNew {a : K × V} {v : V} {r : R} (h : a ∈ as) (hc : ops.left.closure a.1 a.2 = .transformed v r) :
      TwtMade ops as bs (a.1, v)
  | rightNew {b : K × V} {v : V} {r : R} (h : b ∈ bs) (hc : ops.right.closure b.1 b.2 = .transformed v r) :
      TwtMade ops as bs (b.1, v)
  | bothNew {a b : K × V} {k : K} {v : V} {r : R} (ha : a ∈ as) (hb : b ∈ bs)
      (hs : (a.1 == b.1) = true ∨ (b.1 == a.1) = true) (hk : k = a.1 ∨ k = b.1)
      (hc : ops.both.closure a.1 a.2 b.1 b.2 = .transformed v r) : TwtMade ops as bs (k, v)

end HT
