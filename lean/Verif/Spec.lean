/-!
# Specification

What the container is supposed to be, without reference to nodes, hashes, flags or depths.  Keys are
compared with `==`; equal keys may be distinguishable, so an entry remembers which key object it holds.
-/
namespace HT

/-- A finite map: the list of its entries (in no particular order), one per key. -/
abbrev AMap (K V : Type) := List (K × V)

namespace AMap
variable {K V : Type} [BEq K]

/-- The entry stored under (a key equal to) `k`. -/
def find (m : AMap K V) (k : K) : Option (K × V) := List.find? (fun e => e.1 == k) m

/-- The entries not stored under `k`. -/
def without (m : AMap K V) (k : K) : AMap K V := List.filter (fun e => !(e.1 == k)) m

/-- Insert: refused with the blocking entry if the key is present and `replace` is not given; otherwise
    the new map and the displaced entry. -/
def insert (m : AMap K V) (k : K) (v : V) (replace : Bool) :
    Except (K × V) (AMap K V × Option (K × V)) :=
  match m.find k, replace with
  | some e, false => .error e
  | prev, _ => .ok ((k, v) :: m.without k, prev)

/-- Remove: the new map and the removed entry, if the key is present. -/
def remove (m : AMap K V) (k : K) : Option (AMap K V × (K × V)) :=
  (m.find k).map fun e => (m.without k, e)

end AMap

/-! ## Histories

A program holds any number of versions of the map and applies operations to any of them.  Version 0 is
`new()`; each successful insert or remove appends a version, nothing changes an existing one. -/

/-- One API call; `src` is the index of the version it is applied to. -/
inductive Op (K V : Type) where
  | insert (src : Nat) (k : K) (v : V) (replace : Bool)
  | remove (src : Nat) (k : K)
  | find (src : Nat) (k : K)
  | size (src : Nat)
  | visit (src : Nat)

/-- What the caller sees. -/
inductive Out (K V : Type) where
  /-- insert succeeded; the entry the returned pointers denote and the displaced entry -/
  | inserted (ptr : K × V) (prev : Option (K × V))
  /-- insert was refused -/
  | occupied (e : K × V)
  | removed (e : K × V)
  | found (e : K × V)
  | notFound
  | size (n : Nat)
  /-- the callback calls, in order -/
  | visited (es : List (K × V))
  /-- the call names a version that does not exist -/
  | noSuchVersion
  deriving DecidableEq

/-- The same answer, up to the order in which `visit` reports entries. -/
def Out.Same {K V : Type} : Out K V → Out K V → Prop
  | .visited es, .visited es' => es.Perm es'
  | a, b => a = b

/-- Two lists of the same length whose elements are related position by position. -/
def Pointwise {α β : Type} (R : α → β → Prop) : List α → List β → Prop
  | [], [] => True
  | a :: as, b :: bs => R a b ∧ Pointwise R as bs
  | _, _ => False

namespace AMap
variable {K V : Type} [BEq K]

/-- One call on abstract maps: the answer and the new list of versions. -/
def step (vs : List (AMap K V)) : Op K V → Out K V × List (AMap K V)
  | .insert src k v replace =>
    match vs[src]? with
    | none => (.noSuchVersion, vs)
    | some m => match m.insert k v replace with
      | .error e => (.occupied e, vs)
      | .ok (m', prev) => (.inserted (k, v) prev, vs ++ [m'])
  | .remove src k =>
    match vs[src]? with
    | none => (.noSuchVersion, vs)
    | some m => match m.remove k with
      | none => (.notFound, vs)
      | some (m', e) => (.removed e, vs ++ [m'])
  | .find src k =>
    match vs[src]? with
    | none => (.noSuchVersion, vs)
    | some m => match m.find k with
      | none => (.notFound, vs)
      | some e => (.found e, vs)
  | .size src =>
    match vs[src]? with
    | none => (.noSuchVersion, vs)
    | some m => (.size (List.length m), vs)
  | .visit src =>
    match vs[src]? with
    | none => (.noSuchVersion, vs)
    | some m => (.visited m, vs)

/-- A whole history: the answers and the final list of versions. -/
def run (vs : List (AMap K V)) : List (Op K V) → List (Out K V) × List (AMap K V)
  | [] => ([], vs)
  | op :: ops =>
    let r := step vs op
    let r' := run r.2 ops
    (r.1 :: r'.1, r'.2)

end AMap
end HT
