import Verif.FlagLemmas
import Verif.Spec
/-!
# Vocabulary: the order of `visit`
-/
namespace HT

/-- A hash comes before another: at the first group of `b` bits (least significant group first) in which they differ,
    it has the smaller number there.  (`chunk c h d` is `h / 2^(d*b) % 2^b`.) -/
def HashBefore {c : Cfg} (h h' : BitVec c.w) : Prop :=
  ∃ d, (∀ j, j < d → chunk c h j = chunk c h' j) ∧ chunk c h d < chunk c h' d

/-- Entries ordered by the hashes of their keys. -/
def HashSorted {c : Cfg} {K V : Type} (hash : K → BitVec c.w) (l : List (K × V)) : Prop :=
  l.Pairwise fun a b => hash a.1 = hash b.1 ∨ HashBefore (hash a.1) (hash b.1)

/-- Two lists that hold, for each hash, the same entries in the same order. -/
def SameGroups {c : Cfg} {K V : Type} (hash : K → BitVec c.w) (l m : List (K × V)) : Prop :=
  ∀ h, l.filter (fun e => decide (hash e.1 = h)) = m.filter (fun e => decide (hash e.1 = h))

/-- `l` is `m`, ordered by hash; entries of equal hash stay in the order in which they are in `m`. -/
def Arranged {c : Cfg} {K V : Type} (hash : K → BitVec c.w) (l m : List (K × V)) : Prop :=
  HashSorted hash l ∧ SameGroups hash l m

/-- The same answer; a visit reports the entries of the list ordered by hash, those of equal hash in the order of the list. -/
def Out.SameInOrder {c : Cfg} {K V : Type} (hash : K → BitVec c.w) : Out K V → Out K V → Prop
  | .visited es, .visited es' => Arranged hash es es'
  | a, b => a = b

end HT
