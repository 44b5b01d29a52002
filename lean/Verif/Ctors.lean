import Verif.Api
/-!
# The constructors of operations (`/repo/src/transformations.rs`)

In Rust a bulk operation built by one of these functions carries the type of a function pointer, which is never
called; here the type of the closure it could have carried.
-/
namespace HT

variable {K V L W S X R : Type}

/-- `new_map_joint_transform_generic` (`/repo/src/transformations.rs:52-54`). -/
def newMapJointTransformGeneric (f : K → V → K → V → MapJointTransformResult V R) : MapJointTransform R (K → V → K → V → MapJointTransformResult V R) := .generic f false

/-- `new_map_joint_transform_unchangedlr` (`/repo/src/transformations.rs:57-59`). -/
def newMapJointTransformUnchangedLR (r : R) : MapJointTransform R (K → V → K → V → MapJointTransformResult V R) := .unchangedLR r

/-- `new_map_joint_transform_unchangedl` (`/repo/src/transformations.rs:62-64`). -/
def newMapJointTransformUnchangedL (r : R) : MapJointTransform R (K → V → K → V → MapJointTransformResult V R) := .unchangedL r

/-- `new_map_joint_transform_unchangedr` (`/repo/src/transformations.rs:67-69`). -/
def newMapJointTransformUnchangedR (r : R) : MapJointTransform R (K → V → K → V → MapJointTransformResult V R) := .unchangedR r

/-- `new_map_joint_transform_removed` (`/repo/src/transformations.rs:72-74`). -/
def newMapJointTransformRemoved (r : R) : MapJointTransform R (K → V → K → V → MapJointTransformResult V R) := .removed r

/-- `new_set_joint_transform_generic` (`/repo/src/transformations.rs:125-127`). -/
def newSetJointTransformGeneric (f : K → K → SetJointTransformResult R) : SetJointTransform R (K → K → SetJointTransformResult R) := .generic f false

/-- `new_set_joint_transform_unchangedlr` (`/repo/src/transformations.rs:130-132`). -/
def newSetJointTransformUnchangedLR (r : R) : SetJointTransform R (K → K → SetJointTransformResult R) := .unchangedLR r

/-- `new_set_joint_transform_unchangedl` (`/repo/src/transformations.rs:135-137`). -/
def newSetJointTransformUnchangedL (r : R) : SetJointTransform R (K → K → SetJointTransformResult R) := .unchangedL r

/-- `new_set_joint_transform_unchangedr` (`/repo/src/transformations.rs:140-142`). -/
def newSetJointTransformUnchangedR (r : R) : SetJointTransform R (K → K → SetJointTransformResult R) := .unchangedR r

/-- `new_set_joint_transform_removed` (`/repo/src/transformations.rs:145-147`). -/
def newSetJointTransformRemoved (r : R) : SetJointTransform R (K → K → SetJointTransformResult R) := .removed r

/-- `new_map_transform_generic` (`/repo/src/transformations.rs:221-223`). -/
def newMapTransformGeneric (f : K → V → MapTransformResult V R) : MapTransform R (K → V → MapTransformResult V R) := .generic f

/-- `new_map_transform_unchanged` (`/repo/src/transformations.rs:226-228`). -/
def newMapTransformUnchanged (r : R) : MapTransform R (K → V → MapTransformResult V R) := .unchanged r

/-- `new_map_transform_removed` (`/repo/src/transformations.rs:231-233`). -/
def newMapTransformRemoved (r : R) : MapTransform R (K → V → MapTransformResult V R) := .removed r

/-- `new_map_transform_transmute_generic` (`/repo/src/transformations.rs:236-238`). -/
def newMapTransformTransmuteGeneric (f : K → V → L → W → MapTransformResult V R) : MapTransform R (K → V → L → W → MapTransformResult V R) := .generic f

/-- `new_map_transform_transmute_unchanged` (`/repo/src/transformations.rs:241-243`). -/
def newMapTransformTransmuteUnchanged (r : R) : MapTransform R (K → V → L → W → MapTransformResult V R) := .unchanged r

/-- `new_map_transform_transmute_removed` (`/repo/src/transformations.rs:246-248`). -/
def newMapTransformTransmuteRemoved (r : R) : MapTransform R (K → V → L → W → MapTransformResult V R) := .removed r

/-- `new_map_transmute_transform_generic` (`/repo/src/transformations.rs:251-253`). -/
def newMapTransmuteTransformGeneric (f : K → V → L → W → MapTransformResult W R) : MapTransform R (K → V → L → W → MapTransformResult W R) := .generic f

/-- `new_map_transmute_transform_unchanged` (`/repo/src/transformations.rs:256-258`). -/
def newMapTransmuteTransformUnchanged (r : R) : MapTransform R (K → V → L → W → MapTransformResult W R) := .unchanged r

/-- `new_map_transmute_transform_removed` (`/repo/src/transformations.rs:261-263`). -/
def newMapTransmuteTransformRemoved (r : R) : MapTransform R (K → V → L → W → MapTransformResult W R) := .removed r

/-- `new_set_transform_generic` (`/repo/src/transformations.rs:313-315`). -/
def newSetTransformGeneric (f : K → SetTransformResult R) : SetTransform R (K → SetTransformResult R) := .generic f

/-- `new_set_transform_unchanged` (`/repo/src/transformations.rs:318-320`). -/
def newSetTransformUnchanged (r : R) : SetTransform R (K → SetTransformResult R) := .unchanged r

/-- `new_set_transform_removed` (`/repo/src/transformations.rs:323-325`). -/
def newSetTransformRemoved (r : R) : SetTransform R (K → SetTransformResult R) := .removed r

/-- `new_set_transform_transmute_generic` (`/repo/src/transformations.rs:328-330`). -/
def newSetTransformTransmuteGeneric (f : K → L → SetTransformResult R) : SetTransform R (K → L → SetTransformResult R) := .generic f

/-- `new_set_transform_transmute_unchanged` (`/repo/src/transformations.rs:333-335`). -/
def newSetTransformTransmuteUnchanged (r : R) : SetTransform R (K → L → SetTransformResult R) := .unchanged r

/-- `new_set_transform_transmute_removed` (`/repo/src/transformations.rs:338-340`). -/
def newSetTransformTransmuteRemoved (r : R) : SetTransform R (K → L → SetTransformResult R) := .removed r

/-- `new_map_transmute_generic` (`/repo/src/transformations.rs:385-387`). -/
def newMapTransmuteGeneric (f : K → V → MapTransmuteResult S X R) : MapTransmute R (K → V → MapTransmuteResult S X R) := .generic f

/-- `new_map_transmute_removed` (`/repo/src/transformations.rs:390-392`). -/
def newMapTransmuteRemoved (r : R) : MapTransmute R (K → V → MapTransmuteResult S X R) := .removed r

/-- `new_map_transmute_transmute_generic` (`/repo/src/transformations.rs:395-397`). -/
def newMapTransmuteTransmuteGeneric (f : K → V → L → W → MapTransmuteResult S X R) : MapTransmute R (K → V → L → W → MapTransmuteResult S X R) := .generic f

/-- `new_map_transmute_transmute_removed` (`/repo/src/transformations.rs:400-402`). -/
def newMapTransmuteTransmuteRemoved (r : R) : MapTransmute R (K → V → L → W → MapTransmuteResult S X R) := .removed r

/-- `new_set_transmute_generic` (`/repo/src/transformations.rs:447-449`). -/
def newSetTransmuteGeneric (f : K → SetTransmuteResult S R) : SetTransmute R (K → SetTransmuteResult S R) := .generic f

/-- `new_set_transmute_removed` (`/repo/src/transformations.rs:452-454`). -/
def newSetTransmuteRemoved (r : R) : SetTransmute R (K → SetTransmuteResult S R) := .removed r

/-- `new_set_transmute_transmute_generic` (`/repo/src/transformations.rs:457-459`). -/
def newSetTransmuteTransmuteGeneric (f : K → L → SetTransmuteResult S R) : SetTransmute R (K → L → SetTransmuteResult S R) := .generic f

/-- `new_set_transmute_transmute_removed` (`/repo/src/transformations.rs:462-464`). -/
def newSetTransmuteTransmuteRemoved (r : R) : SetTransmute R (K → L → SetTransmuteResult S R) := .removed r

end HT
