import Verif.Spec
import Verif.Flag
/-!
# Specification of when a build with overflow checks panics (C48)

No nodes, flags or depths: only the entries a map holds and the hashes of their keys.
The *stem* of a hash word is the word without its last group of `b` bits (`b` is `log2` of the branching
factor; the groups are counted from the least significant bit, so for 8-bit hashes and `b = 3` the stem
is the low 6 bits).
-/
namespace HT

/-- The hash word without its last group of `b` bits. -/
def stem (c : Cfg) (h : BitVec c.w) : Nat := h.toNat % 2 ^ ((c.w - 1) / c.b * c.b)

namespace Crowd
variable {K V : Type} [BEq K] {c : Cfg} (hash : K → BitVec c.w)

/-- Does inserting or removing `k` overflow?  Exactly if the map holds an entry with the hash of `k`
    and another one whose hash differs from it in the last group of bits only. -/
def overflows (m : AMap K V) (k : K) : Bool :=
  m.any (fun e => hash e.1 == hash k) &&
  m.any (fun e => stem c (hash e.1) == stem c (hash k) && hash e.1 != hash k)

/-- Does the call overflow?  (Calls on versions that do not exist do nothing.) -/
def opOverflows (vs : List (AMap K V)) : Op K V → Bool
  | .insert src k _ _ => (vs[src]?).any (overflows hash · k)
  | .remove src k => (vs[src]?).any (overflows hash · k)
  | _ => false

/-- A whole history: `none` when some call panics, otherwise the answers of the finite map. -/
def run (vs : List (AMap K V)) : List (Op K V) → Option (List (Out K V))
  | [] => some []
  | op :: ops =>
    if opOverflows hash vs op then none
    else (run (AMap.step vs op).2 ops).map ((AMap.step vs op).1 :: ·)

end Crowd
end HT
