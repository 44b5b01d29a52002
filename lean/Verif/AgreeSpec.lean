import Verif.JointSpec
/-!
# The same instructions given to different functions

Answers of `MapTransformResult` translated to the answer types of the other functions: to keep an entry is to
transmute it to its own key and value.  Nothing here refers to nodes.
-/
namespace HT

variable {K V L W R : Type}

/-- The same instruction about entry `e`, for a transmuting function. -/
def MapTransformResult.asTransmute (e : K × V) : MapTransformResult V R → MapTransmuteResult K V R
  | .unchanged r => .transmuted e.1 e.2 r
  | .transformed v r => .transmuted e.1 v r
  | .removed r => .removed r

/-- The same instruction about a pair of entries with equal keys, to keep the left one, for
    `transform_with_transformed`. -/
def MapTransformResult.asJoint : MapTransformResult V R → MapJointTransformResult V R
  | .unchanged r => .unchangedL r
  | .transformed v r => .transformed v r
  | .removed r => .removed r

/-- The same instruction about a pair of entries with equal keys, to keep the value `v` of the left one, for
    `transmute_with_transformed` (where to keep means to keep the right one). -/
def MapTransformResult.asRight (v : V) : MapTransformResult V R → MapTransformResult V R
  | .unchanged r => .transformed v r
  | .transformed v' r => .transformed v' r
  | .removed r => .removed r

/-- The operations of `transform_with_transmuted` for `transmute_with_transmuted`. -/
def TwmOps.asMwm (both : K → V → L → W → MapTransformResult V R) (left : K → V → MapTransformResult V R)
    (right : L → W → MapTransmuteResult K V R) : MwmOps K V L W K V R :=
  ⟨.generic fun k v l w => (both k v l w).asTransmute (k, v), .generic fun k v => (left k v).asTransmute (k, v),
    .generic right⟩

/-- The operations of `transmute_with_transformed` for `transmute_with_transmuted`. -/
def MwtOps.asMwm (both : K → V → L → W → MapTransformResult W R) (left : K → V → MapTransmuteResult L W R)
    (right : L → W → MapTransformResult W R) : MwmOps K V L W L W R :=
  ⟨.generic fun k v l w => (both k v l w).asTransmute (l, w), .generic left,
    .generic fun l w => (right l w).asTransmute (l, w)⟩

/-! ### One set of instructions for all four joint functions

`both` says what becomes of the left entry of a key in both maps, `left` and `right` what becomes of the entry of a
key in one map only. -/

/-- For `transform_with_transformed`. -/
def instrTwt (both : K → V → K → V → MapTransformResult V R) (left right : K → V → MapTransformResult V R) :
    TwtOps K V R :=
  ⟨.generic (fun k v l w => (both k v l w).asJoint) false, .generic left, .generic right⟩

/-- For `transform_with_transmuted`. -/
def instrTwm (both : K → V → K → V → MapTransformResult V R) (left right : K → V → MapTransformResult V R) :
    TwmOps K V K V R :=
  ⟨.generic both, .generic left, .generic fun k v => (right k v).asTransmute (k, v)⟩

/-- For `transmute_with_transformed`. -/
def instrMwt (both : K → V → K → V → MapTransformResult V R) (left right : K → V → MapTransformResult V R) :
    MwtOps K V K V R :=
  ⟨.generic fun k v l w => (both k v l w).asRight v, .generic fun k v => (left k v).asTransmute (k, v), .generic right⟩

/-- For `transmute_with_transmuted`. -/
def instrMwm (both : K → V → K → V → MapTransformResult V R) (left right : K → V → MapTransformResult V R) :
    MwmOps K V K V K V R :=
  ⟨.generic fun k v l w => (both k v l w).asTransmute (k, v), .generic fun k v => (left k v).asTransmute (k, v),
    .generic fun k v => (right k v).asTransmute (k, v)⟩

end HT
