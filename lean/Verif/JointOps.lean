import Verif.Ops
import Verif.Flag
/-!
# Arguments of the four joint operations

`twm` = `transform_with_transmuted`, `mwt` = `transmute_with_transformed`,
`mwm` = `transmute_with_transmuted`, `twt` = `transform_with_transformed`.

The code passes `both_op`, `left_op`, `right_op` as separate arguments everywhere; here each operation's
three arguments are bundled in a structure, and exchanging them when the operands are exchanged is
`flip`.  This is only a matter of notation.
-/
namespace HT

variable {c : Cfg} {K V L W S X R : Type}

/-- The trait bounds `K: PartialEq<L>`, `L: PartialEq<K>`, `M: HasherBv<H, K>`, `M: HasherBv<H, L>` of the
    joint operations (`/repo/src/hash_trie.rs:123-135`): both key types have a hash, and `==` between them
    in both directions. -/
structure Cross (c : Cfg) (K L : Type) where
  hash : K → BitVec c.w
  hash' : L → BitVec c.w
  eq : K → L → Bool
  eq' : L → K → Bool

/-- The same with the roles of the key types exchanged. -/
def Cross.flip (x : Cross c K L) : Cross c L K := ⟨x.hash', x.hash, x.eq', x.eq⟩

/-- Operations of `transform_with_transmuted` (`/repo/src/hash_trie.rs:121-135`). -/
structure TwmOps (K V L W R : Type) where
  both : MapTransform R (K → V → L → W → MapTransformResult V R)
  left : MapTransform R (K → V → MapTransformResult V R)
  right : MapTransmute R (L → W → MapTransmuteResult K V R)

/-- Operations of `transmute_with_transformed` (`/repo/src/hash_trie.rs:145-159`). -/
structure MwtOps (K V L W R : Type) where
  both : MapTransform R (K → V → L → W → MapTransformResult W R)
  left : MapTransmute R (K → V → MapTransmuteResult L W R)
  right : MapTransform R (L → W → MapTransformResult W R)

/-- Operations of `transmute_with_transmuted` (`/repo/src/hash_trie.rs:169-188`). -/
structure MwmOps (K V L W S X R : Type) where
  both : MapTransmute R (K → V → L → W → MapTransmuteResult S X R)
  left : MapTransmute R (K → V → MapTransmuteResult S X R)
  right : MapTransmute R (L → W → MapTransmuteResult S X R)

/-- Operations of `transform_with_transformed` (`/repo/src/hash_trie.rs:101-109`). -/
structure TwtOps (K V R : Type) where
  both : MapJointTransform R (K → V → K → V → MapJointTransformResult V R)
  left : MapTransform R (K → V → MapTransformResult V R)
  right : MapTransform R (K → V → MapTransformResult V R)

/-- `both_op.flip_transform_transmute(), right_op, left_op` (e.g. `/repo/src/node/lnode.rs:239`). -/
def TwmOps.flip (o : TwmOps K V L W R) : MwtOps L W K V R := ⟨o.both.flip2, o.right, o.left⟩

/-- `both_op.flip_transmute_transform(), right_op, left_op` (e.g. `/repo/src/node/lnode.rs:260`). -/
def MwtOps.flip (o : MwtOps K V L W R) : TwmOps L W K V R := ⟨o.both.flip2, o.right, o.left⟩

/-- `both_op.flip(), right_op, left_op` (e.g. `/repo/src/node/lnode.rs:286`). -/
def MwmOps.flip (o : MwmOps K V L W S X R) : MwmOps L W K V S X R := ⟨o.both.flip, o.right, o.left⟩

/-- `both_op.flip(), right_op, left_op` (e.g. `/repo/src/node/lnode.rs:218`). -/
def TwtOps.flip (o : TwtOps K V R) : TwtOps K V R := ⟨o.both.flip, o.right, o.left⟩

end HT
