import Verif.KeyCallsSpec
import Verif.JointNode
/-!
# The maps a program can hold when nothing at all is known about the keys' code
-/
namespace HT

/-- The maps made by `new`, `insert`, `remove`, `transform`, `transmute` and the joint operations when hashing and `==` of
    the keys answer anything whenever they are called: hashes may contradict `==`, each other and earlier hashes of the
    same key.  (Within one call of a joint operation the answers are functions of the keys asked about, any functions, and
    other ones in the next call.)  The closures of `transmute` need not keep the contract of that function either. -/
inductive Chaotic (c : Cfg) : {K V : Type} → Trie c K V → Prop
  | new {K V : Type} : Chaotic c (Trie.new c : Trie c K V)
  | insert {K V : Type} {t t' : Trie c K V} {k : K} {v : V} {replace : Bool} {ptr : K × V} {prev : Option (K × V)}
      {calls : List (Reply (KCall K V) (KAns K V c.w))} (h : Chaotic c t)
      (run : (t.insertK k v replace).Path calls (.ret (.ok (t', ptr, prev)))) : Chaotic c t'
  | remove {K V : Type} {t t' : Trie c K V} {e : K × V}
      {calls : List (Reply (KCall K V) (KAns K V c.w))} (h : Chaotic c t)
      (run : t.removeK.Path calls (.ret (some (t', e)))) : Chaotic c t'
  | transform {K V R : Type} {t t' : Trie c K V} {reduce : R → R → R} {e r : R}
      {op : MapTransform R (K → V → MapTransformResult V R)} {par : Par} (h : Chaotic c t)
      (hr : t.transform reduce e op par = .ok (t', r)) : Chaotic c t'
  | transmute {K V S X R : Type} {t : Trie c K V} {t' : Trie c S X} {reduce : R → R → R} {e r : R}
      {op : MapTransmute R (K → V → MapTransmuteResult S X R)} (h : Chaotic c t)
      (hr : t.transmute reduce e op = .ok (t', r)) : Chaotic c t'
  | twm {K V L W R : Type} {t t' : Trie c K V} {u : Trie c L W} {x : Cross c K L} {reduce : R → R → R} {e r : R}
      {ops : TwmOps K V L W R} {par : Par} (h : Chaotic c t) (hu : Chaotic c u)
      (hr : t.twm x reduce e ops par u = .ok (t', r)) : Chaotic c t'
  | mwt {K V L W R : Type} {t : Trie c K V} {u t' : Trie c L W} {x : Cross c K L} {reduce : R → R → R} {e r : R}
      {ops : MwtOps K V L W R} {par : Par} (h : Chaotic c t) (hu : Chaotic c u)
      (hr : t.mwt x reduce e ops par u = .ok (t', r)) : Chaotic c t'
  | mwm {K V L W S X R : Type} {t : Trie c K V} {u : Trie c L W} {t' : Trie c S X} {x : Cross c K L}
      {reduce : R → R → R} {e r : R} {ops : MwmOps K V L W S X R} (h : Chaotic c t) (hu : Chaotic c u)
      (hr : t.mwm x reduce e ops u = .ok (t', r)) : Chaotic c t'
  | twt {K V R : Type} [BEq K] {t u t' : Trie c K V} {hash : K → BitVec c.w} {reduce : R → R → R} {e r : R}
      {ops : TwtOps K V R} {par : Par} (h : Chaotic c t) (hu : Chaotic c u)
      (hr : t.twt reduce e hash ops par u = .ok (t', r)) : Chaotic c t'

/-! ### What was answered -/

variable {K V : Type} {c : Cfg}

/-- During the call `==` was asked about stored key `k` and said yes. -/
abbrev SaidYes (cs : List (Reply (KCall K V) (KAns K V c.w))) (k : K) : Prop := ⟨.eq k, some true⟩ ∈ cs

/-- During the call `==` was asked about stored key `k` and said no. -/
abbrev SaidNo (cs : List (Reply (KCall K V) (KAns K V c.w))) (k : K) : Prop := ⟨.eq k, some false⟩ ∈ cs

end HT
