import Verif.History
import Verif.MixedSpec
import Verif.JointNode
/-!
# Histories that mix all operations, on the modelled container

The driver is not part of the crate; each call is the modelled API function.
-/
namespace HT
namespace Trie
variable {K V R : Type} [BEq K] {c : Cfg} (reduce : R → R → R) (e : R) (hash : K → BitVec c.w)

/-- Append the map a bulk or joint operation returned. -/
def keep (vs : List (Trie c K V)) (x : Res (Trie c K V × R)) : Res (MOut K V R × List (Trie c K V)) := do
  let r ← x
  .ok (.reduced r.2, vs ++ [r.1])

/-- Apply a binary operation to two versions. -/
def pick2 (vs : List (Trie c K V)) (i j : Nat) (f : Trie c K V → Trie c K V → Res (Trie c K V × R)) :
    Res (MOut K V R × List (Trie c K V)) :=
  match vs[i]?, vs[j]? with
  | some t, some u => keep vs (f t u)
  | _, _ => .ok (.noSuchVersion, vs)

/-- One call (`/repo/src/hash_trie.rs:25-192`). -/
def mstep (vs : List (Trie c K V)) : MOp K V R → Res (MOut K V R × List (Trie c K V))
  | .one op => do
    let r ← step hash vs op
    .ok (.one r.1, r.2)
  | .transform src op par =>
    match vs[src]? with
    | none => .ok (.noSuchVersion, vs)
    | some t => keep vs (t.transform reduce e op par)
  | .transmute src op =>
    match vs[src]? with
    | none => .ok (.noSuchVersion, vs)
    | some t => keep vs (t.transmute reduce e op)
  | .transformWithTransformed i j ops par => pick2 vs i j fun t u => Trie.twt reduce e hash ops par t u
  | .transformWithTransmuted i j ops par => pick2 vs i j fun t u => Trie.twm (Cross.same hash) reduce e ops par t u
  | .transmuteWithTransformed i j ops par => pick2 vs i j fun t u => Trie.mwt (Cross.same hash) reduce e ops par t u
  | .transmuteWithTransmuted i j ops => pick2 vs i j fun t u => Trie.mwm (Cross.same hash) reduce e ops t u

/-- A history of calls, each on any versions obtained so far. -/
def mrun (vs : List (Trie c K V)) : List (MOp K V R) → Res (List (MOut K V R) × List (Trie c K V))
  | [] => .ok ([], vs)
  | op :: ops => do
    let r ← mstep reduce e hash vs op
    let r' ← mrun r.2 ops
    .ok (r.1 :: r'.1, r'.2)

/-- Every call of the history obeys the caller's contract when it is made. -/
def MLegal (vs : List (Trie c K V)) : List (MOp K V R) → Prop
  | [] => True
  | op :: ops => op.Legal hash (vs.map Trie.visit) ∧
      ∀ o vs', mstep reduce e hash vs op = .ok (o, vs') → MLegal vs' ops

end Trie
end HT
