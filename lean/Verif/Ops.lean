import Verif.Res
/-!
# Operations passed to the bulk functions (`/repo/src/transformations.rs`, `/repo/src/results.rs`)

In this module and the ones built on it (`Transform`, `JointOps`, ...) user closures are total pure
functions.  `Fn` closures with interior mutability, and closures that panic, are modelled in
`Verif/Eff.lean`, `EffList.lean` and `EffNode.lean`; `EffPure.lean` proves that the two models agree
on pure closures.
-/
namespace HT

variable {K V L W S X R : Type}

/-- `enum ParallelismStrategy` (`/repo/src/enums.rs:3-8`). -/
inductive Par where
  | sequential
  | middleIndex
  deriving DecidableEq, Repr

/-- `ParallelismStrategy::default_par` (`/repo/src/enums.rs:12-14`). -/
def Par.defaultPar : Par := .middleIndex

/-- `ParallelismStrategy::default` (`/repo/src/enums.rs:19-21`). -/
def Par.default : Par := .sequential

/-- `enum MapTransformResult` (`/repo/src/results.rs:155-163`). -/
inductive MapTransformResult (V R : Type) where
  | unchanged (r : R)
  | transformed (v : V) (r : R)
  | removed (r : R)
  deriving DecidableEq, Repr

/-- `enum MapJointTransformResult` (`/repo/src/results.rs:175-187`). -/
inductive MapJointTransformResult (V R : Type) where
  | unchangedLR (r : R)
  | unchangedL (r : R)
  | unchangedR (r : R)
  | transformed (v : V) (r : R)
  | removed (r : R)
  deriving DecidableEq, Repr

/-- `MapJointTransformResult::flip` (`/repo/src/results.rs:190-198`). -/
def MapJointTransformResult.flip : MapJointTransformResult V R → MapJointTransformResult V R
  | .unchangedLR r => .unchangedLR r
  | .unchangedL r => .unchangedR r
  | .unchangedR r => .unchangedL r
  | .transformed v r => .transformed v r
  | .removed r => .removed r

/-- `enum MapTransmuteResult` (`/repo/src/results.rs:213-219`). -/
inductive MapTransmuteResult (K V R : Type) where
  | transmuted (k : K) (v : V) (r : R)
  | removed (r : R)
  deriving DecidableEq, Repr

/-- `enum MapTransform` (`/repo/src/transformations.rs:149-158`). -/
inductive MapTransform (R F : Type) where
  | generic (f : F)
  | unchanged (r : R)
  | removed (r : R)

/-- `MapTransform::call` (`/repo/src/transformations.rs:162-169`). -/
def MapTransform.call (op : MapTransform R (K → V → MapTransformResult V R)) (k : K) (v : V) :
    MapTransformResult V R :=
  match op with
  | .generic f => f k v
  | .unchanged r => .unchanged r
  | .removed r => .removed r

/-- `MapTransform::call_transform_transmute` and `call_transmute_transform`
    (`/repo/src/transformations.rs:172-189`): the two differ only in the value type of the result. -/
def MapTransform.call2 {A : Type} (op : MapTransform R (K → V → L → W → MapTransformResult A R))
    (k : K) (v : V) (l : L) (w : W) : MapTransformResult A R :=
  match op with
  | .generic f => f k v l w
  | .unchanged r => .unchanged r
  | .removed r => .removed r

/-- `MapTransform::flip_transform_transmute` and `flip_transmute_transform`
    (`/repo/src/transformations.rs:192-216`). -/
def MapTransform.flip2 {A : Type} (op : MapTransform R (K → V → L → W → MapTransformResult A R)) :
    MapTransform R (L → W → K → V → MapTransformResult A R) :=
  match op with
  | .generic f => .generic fun l w k v => f k v l w
  | .unchanged r => .unchanged r
  | .removed r => .removed r

/-- `enum MapTransmute` (`/repo/src/transformations.rs:344-349`). -/
inductive MapTransmute (R F : Type) where
  | generic (f : F)
  | removed (r : R)

/-- `MapTransmute::call` (`/repo/src/transformations.rs:353-359`). -/
def MapTransmute.call (op : MapTransmute R (K → V → MapTransmuteResult S X R)) (k : K) (v : V) :
    MapTransmuteResult S X R :=
  match op with
  | .generic f => f k v
  | .removed r => .removed r

/-- `MapTransmute::call_transmute` (`/repo/src/transformations.rs:362-368`). -/
def MapTransmute.call2 (op : MapTransmute R (K → V → L → W → MapTransmuteResult S X R))
    (k : K) (v : V) (l : L) (w : W) : MapTransmuteResult S X R :=
  match op with
  | .generic f => f k v l w
  | .removed r => .removed r

/-- `MapTransmute::flip` (`/repo/src/transformations.rs:371-381`). -/
def MapTransmute.flip (op : MapTransmute R (K → V → L → W → MapTransmuteResult S X R)) :
    MapTransmute R (L → W → K → V → MapTransmuteResult S X R) :=
  match op with
  | .generic f => .generic fun l w k v => f k v l w
  | .removed r => .removed r

/-- `enum MapJointTransform` (`/repo/src/transformations.rs:5-16`). -/
inductive MapJointTransform (R F : Type) where
  | generic (f : F) (flipped : Bool)
  | unchangedLR (r : R)
  | unchangedL (r : R)
  | unchangedR (r : R)
  | removed (r : R)

/-- `MapJointTransform::call` (`/repo/src/transformations.rs:20-36`). -/
def MapJointTransform.call
    (op : MapJointTransform R (K → V → K → V → MapJointTransformResult V R))
    (k : K) (v : V) (l : K) (w : V) : MapJointTransformResult V R :=
  match op with
  | .generic f flipped => if flipped then (f l w k v).flip else f k v l w
  | .unchangedLR r => .unchangedLR r
  | .unchangedL r => .unchangedL r
  | .unchangedR r => .unchangedR r
  | .removed r => .removed r

/-- `MapJointTransform::flip` (`/repo/src/transformations.rs:39-48`): as in the code, only the
    generic operation is flipped; `UnchangedL` and `UnchangedR` are not exchanged. -/
def MapJointTransform.flip {F : Type} (op : MapJointTransform R F) : MapJointTransform R F :=
  match op with
  | .generic f flipped => .generic f (!flipped)
  | .unchangedLR r => .unchangedLR r
  | .unchangedL r => .unchangedL r
  | .unchangedR r => .unchangedR r
  | .removed r => .removed r

/-! ### Results of the node-level functions -/

/-- `MNodeTransformResult` (`/repo/src/results.rs:221-228`, constructors `C/L/S` are `node`),
    `LNodeTransformResult` (`results.rs:274-280`) and `SNodeTransformResult` (`results.rs:361-366`):
    `N` is the type of the new node. -/
inductive TRes (N R : Type) where
  | unchanged (r : R)
  | node (m : N) (r : R)
  | removed (r : R)
  deriving DecidableEq, Repr

/-- `MNodeTransmuteResult` (`/repo/src/results.rs:255-261`), `LNodeTransmuteResult` (316-321),
    `SNodeTransmuteResult` (388-392). -/
inductive XRes (N R : Type) where
  | node (m : N) (r : R)
  | removed (r : R)
  deriving DecidableEq, Repr

/-- `MNodeJointTransformResult` (`/repo/src/results.rs:230-239`), `LNodeJointTransformResult` (293-301). -/
inductive JRes (N R : Type) where
  | unchangedLR (r : R)
  | unchangedL (r : R)
  | unchangedR (r : R)
  | node (m : N) (r : R)
  | removed (r : R)
  deriving DecidableEq, Repr

/-- The `From` conversions between transform results of different node kinds
    (`/repo/src/results.rs:282-291`, 368-386). -/
def TRes.map {N N' : Type} (f : N → N') : TRes N R → TRes N' R
  | .unchanged r => .unchanged r
  | .node m r => .node (f m) r
  | .removed r => .removed r

/-- As `TRes.map`, for transmute results. -/
def XRes.map {N N' : Type} (f : N → N') : XRes N R → XRes N' R
  | .node m r => .node (f m) r
  | .removed r => .removed r

/-- As `TRes.map`, for joint transform results. -/
def JRes.map {N N' : Type} (f : N → N') : JRes N R → JRes N' R
  | .unchangedLR r => .unchangedLR r
  | .unchangedL r => .unchangedL r
  | .unchangedR r => .unchangedR r
  | .node m r => .node (f m) r
  | .removed r => .removed r

/-- `From<MNodeTransmuteResult> for MNodeTransformResult` (`/repo/src/results.rs:263-272`). -/
def XRes.toT {N : Type} : XRes N R → TRes N R
  | .node m r => .node m r
  | .removed r => .removed r

/-- `MNodeJointTransformResult::flip` (`/repo/src/results.rs:242-252`). -/
def JRes.flip {N : Type} : JRes N R → JRes N R
  | .unchangedLR r => .unchangedLR r
  | .unchangedL r => .unchangedR r
  | .unchangedR r => .unchangedL r
  | .node m r => .node m r
  | .removed r => .removed r

end HT
