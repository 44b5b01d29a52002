import Verif.Trie
import Verif.Spec
/-!
# Histories of API calls on the modelled container

The driver (a list of versions and calls on them) is not part of the crate; each call is the modelled
API function of `/repo/src/hash_trie.rs:11-63`.
-/
namespace HT
namespace Trie
variable {K V : Type} [BEq K] {c : Cfg} (hash : K → BitVec c.w)

/-- One call of `find`, `insert`, `remove`, `size` or `visit` (`/repo/src/hash_trie.rs:25-63`). -/
def step (vs : List (Trie c K V)) : Op K V → Res (Out K V × List (Trie c K V))
  | .insert src k v replace =>
    match vs[src]? with
    | none => .ok (.noSuchVersion, vs)
    | some t => do
      match ← t.insert hash k v replace with
      | .error e => .ok (.occupied e, vs)
      | .ok (t', ptr, prev) => .ok (.inserted ptr prev, vs ++ [t'])
  | .remove src k =>
    match vs[src]? with
    | none => .ok (.noSuchVersion, vs)
    | some t => do
      match ← t.remove hash k with
      | none => .ok (.notFound, vs)
      | some (t', e) => .ok (.removed e, vs ++ [t'])
  | .find src k =>
    match vs[src]? with
    | none => .ok (.noSuchVersion, vs)
    | some t => do
      match ← t.find hash k with
      | none => .ok (.notFound, vs)
      | some e => .ok (.found e, vs)
  | .size src =>
    match vs[src]? with
    | none => .ok (.noSuchVersion, vs)
    | some t => .ok (.size t.size, vs)
  | .visit src =>
    match vs[src]? with
    | none => .ok (.noSuchVersion, vs)
    | some t => .ok (.visited t.visit, vs)

/-- A history of calls, each on any version obtained so far. -/
def run (vs : List (Trie c K V)) : List (Op K V) → Res (List (Out K V) × List (Trie c K V))
  | [] => .ok ([], vs)
  | op :: ops => do
    let (o, vs') ← step hash vs op
    let (os, vs'') ← run vs' ops
    .ok (o :: os, vs'')

end Trie
end HT
