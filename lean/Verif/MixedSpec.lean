import Verif.Spec
import Verif.JointSpec
/-!
# Specification of histories that mix all operations

All maps have keys `K` and values `V`, all reductions have type `R`.  Abstract maps are lists of entries in no
particular order (`AMap`), so the entries of a new version are given up to order.
-/
namespace HT

variable {K V R : Type}

/-- One API call; `src`, `left`, `right` are indices of versions. -/
inductive MOp (K V R : Type) where
  /-- insert, remove, find, size, visit -/
  | one (op : Op K V)
  | transform (src : Nat) (op : MapTransform R (K → V → MapTransformResult V R)) (par : Par)
  | transmute (src : Nat) (op : MapTransmute R (K → V → MapTransmuteResult K V R))
  | transformWithTransformed (left right : Nat) (ops : TwtOps K V R) (par : Par)
  | transformWithTransmuted (left right : Nat) (ops : TwmOps K V K V R) (par : Par)
  | transmuteWithTransformed (left right : Nat) (ops : MwtOps K V K V R) (par : Par)
  | transmuteWithTransmuted (left right : Nat) (ops : MwmOps K V K V K V R)

/-- The versions a bulk or joint operation reads. -/
def MOp.sources : MOp K V R → List Nat
  | .one _ => []
  | .transform src _ _ => [src]
  | .transmute src _ => [src]
  | .transformWithTransformed l r _ _ => [l, r]
  | .transformWithTransmuted l r _ _ => [l, r]
  | .transmuteWithTransformed l r _ _ => [l, r]
  | .transmuteWithTransmuted l r _ => [l, r]

/-- What the caller sees. -/
inductive MOut (K V R : Type) where
  | one (o : Out K V)
  /-- a bulk or joint operation returned a map and this reduction -/
  | reduced (r : R)
  /-- the call names a version that does not exist -/
  | noSuchVersion

variable [BEq K]

/-- The contract of the caller for one call, on the abstract maps `ms`. -/
def MOp.Legal {c : Cfg} (hash : K → BitVec c.w) (ms : List (AMap K V)) : MOp K V R → Prop
  | .one _ => True
  | .transform .. => True
  | .transmute _ op => KeyMap hash hash op.closure
  | .transformWithTransformed l r ops _ => ∀ m m', ms[l]? = some m → ms[r]? = some m' → ops.Tame hash m m'
  | .transformWithTransmuted _ _ ops _ => ops.Contract (Cross.same hash)
  | .transmuteWithTransformed _ _ ops _ => ops.Contract (Cross.same hash)
  | .transmuteWithTransmuted _ _ ops => ops.Contract (Cross.same hash) hash

/-- `transform_with_transformed`: what may be found under a key, given what is found in the operands. -/
def TwtOps.Key (ops : TwtOps K V R) : Option (K × V) → Option (K × V) → Option (K × V) → Prop
  | none, none, o => o = none
  | some a, none, o => o = (ops.left.closure a.1 a.2).entry a
  | none, some b, o => o = (ops.right.closure b.1 b.2).entry b
  | some a, some b, o => ops.both.Entry a b o

/-- The cases of two abstract maps. -/
def AMap.cases (m m' : AMap K V) : List (Case (K × V) (K × V)) := jointCases (fun a b => a.1 == b.1) m m'

namespace AMap

/-- One call on the abstract maps `ms`: the answers and new versions allowed.  `reduce`, `e` are the functions used for
    reductions. -/
inductive MStep (reduce : R → R → R) (e : R) (ms : List (AMap K V)) :
    MOp K V R → MOut K V R → List (AMap K V) → Prop
  /-- as in `AMap.step`; a new version is given up to order -/
  | one (op : Op K V) (o : Out K V) (ext : List (AMap K V)) :
      o.Same (AMap.step ms op).1 → Pointwise List.Perm (ms ++ ext) (AMap.step ms op).2 →
      MStep reduce e ms (.one op) (.one o) (ms ++ ext)
  | transform (src : Nat) (m m' : AMap K V) (op : MapTransform R (K → V → MapTransformResult V R)) (par : Par) (r : R) :
      ms[src]? = some m → m'.Perm (List.filterMap (fun x => (op.closure x.1 x.2).entry x) m) →
      (Mon reduce e → op.Neutral e → ∃ l : AMap K V, l.Perm m ∧
        r = total reduce e (l.map fun x => (op.closure x.1 x.2).red)) →
      MStep reduce e ms (.transform src op par) (.reduced r) (ms ++ [m'])
  | transmute (src : Nat) (m m' : AMap K V) (op : MapTransmute R (K → V → MapTransmuteResult K V R)) (r : R) :
      ms[src]? = some m → m'.Perm (List.filterMap (fun x => (op.closure x.1 x.2).entry) m) →
      (Mon reduce e → op.Neutral e → ∃ l : AMap K V, l.Perm m ∧
        r = total reduce e (l.map fun x => (op.closure x.1 x.2).red)) →
      MStep reduce e ms (.transmute src op) (.reduced r) (ms ++ [m'])
  | transformWithTransformed (i j : Nat) (m n m' : AMap K V) (ops : TwtOps K V R) (par : Par) (r : R) :
      ms[i]? = some m → ms[j]? = some n → DistinctKeys m' →
      (∀ k, ops.Key (m.find k) (n.find k) (m'.find k)) →
      (CMon reduce e → ops.Neutral e → r = total reduce e ((m.cases n).map ops.red)) →
      MStep reduce e ms (.transformWithTransformed i j ops par) (.reduced r) (ms ++ [m'])
  | transformWithTransmuted (i j : Nat) (m n m' : AMap K V) (ops : TwmOps K V K V R) (par : Par) (r : R) :
      ms[i]? = some m → ms[j]? = some n → m'.Perm ((m.cases n).filterMap ops.out) →
      (CMon reduce e → ops.Neutral e → r = total reduce e ((m.cases n).map ops.red)) →
      MStep reduce e ms (.transformWithTransmuted i j ops par) (.reduced r) (ms ++ [m'])
  | transmuteWithTransformed (i j : Nat) (m n m' : AMap K V) (ops : MwtOps K V K V R) (par : Par) (r : R) :
      ms[i]? = some m → ms[j]? = some n → m'.Perm ((m.cases n).filterMap ops.out) →
      (CMon reduce e → ops.Neutral e → r = total reduce e ((m.cases n).map ops.red)) →
      MStep reduce e ms (.transmuteWithTransformed i j ops par) (.reduced r) (ms ++ [m'])
  | transmuteWithTransmuted (i j : Nat) (m n m' : AMap K V) (ops : MwmOps K V K V K V R) (r : R) :
      ms[i]? = some m → ms[j]? = some n → m'.Perm ((m.cases n).filterMap ops.out) →
      (CMon reduce e → ops.Neutral e → r = total reduce e ((m.cases n).map ops.red)) →
      MStep reduce e ms (.transmuteWithTransmuted i j ops) (.reduced r) (ms ++ [m'])
  /-- a bulk or joint operation on a version that does not exist -/
  | missing (op : MOp K V R) : (∀ o, op ≠ .one o) → (∃ i ∈ op.sources, ms[i]? = none) →
      MStep reduce e ms op .noSuchVersion ms

/-- A history. -/
inductive MRun (reduce : R → R → R) (e : R) :
    List (AMap K V) → List (MOp K V R) → List (MOut K V R) → List (AMap K V) → Prop
  | nil (ms : List (AMap K V)) : MRun reduce e ms [] [] ms
  | cons {ms ms' ms'' : List (AMap K V)} {op : MOp K V R} {ops : List (MOp K V R)} {o : MOut K V R}
      {os : List (MOut K V R)} : MStep reduce e ms op o ms' → MRun reduce e ms' ops os ms'' →
      MRun reduce e ms (op :: ops) (o :: os) ms''

end AMap
end HT
