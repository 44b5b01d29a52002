import Verif.JointSpec
/-!
# Bulk operations as closures

What the documentation of `/repo/src/transformations.rs:146-156` (and the like) says about bulk operations.
Nothing here refers to the functions that call operations.
-/
namespace HT

variable {K V L W S X R A : Type}

/-- The operations with all bulk operations replaced by closures. -/
def TwmOps.closures (o : TwmOps K V L W R) : TwmOps K V L W R :=
  ⟨.generic o.both.closure2, .generic o.left.closure, .generic o.right.closure⟩
@[inherit_doc TwmOps.closures]
def MwtOps.closures (o : MwtOps K V L W R) : MwtOps K V L W R :=
  ⟨.generic o.both.closure2, .generic o.left.closure, .generic o.right.closure⟩
@[inherit_doc TwmOps.closures]
def MwmOps.closures (o : MwmOps K V L W S X R) : MwmOps K V L W S X R :=
  ⟨.generic o.both.closure2, .generic o.left.closure, .generic o.right.closure⟩
@[inherit_doc TwmOps.closures]
def TwtOps.closures (o : TwtOps K V R) : TwtOps K V R :=
  ⟨.generic o.both.closure false, .generic o.left.closure, .generic o.right.closure⟩

theorem TwmOps.closures_out (o : TwmOps K V L W R) : o.closures.out = o.out := by
  funext p
  cases p <;> simp only [closures, out, MapTransform.closure_eq, MapTransform.closure2_eq, MapTransmute.closure_eq] <;> rfl

theorem MwtOps.closures_out (o : MwtOps K V L W R) : o.closures.out = o.out := by
  funext p
  cases p <;> simp only [closures, out, MapTransform.closure_eq, MapTransform.closure2_eq, MapTransmute.closure_eq] <;> rfl

theorem MwmOps.closures_out (o : MwmOps K V L W S X R) : o.closures.out = o.out := by
  funext p
  cases p <;> simp only [closures, out, MapTransmute.closure_eq, MapTransmute.closure2_eq] <;> rfl

theorem TwmOps.closures_contract {c : Cfg} {x : Cross c K L} {o : TwmOps K V L W R} :
    o.closures.Contract x ↔ o.Contract x := by
  simp only [Contract, closures, MapTransmute.closure_eq]; rfl

theorem MwtOps.closures_contract {c : Cfg} {x : Cross c K L} {o : MwtOps K V L W R} :
    o.closures.Contract x ↔ o.Contract x := by
  simp only [Contract, closures, MapTransmute.closure_eq]; rfl

theorem MwmOps.closures_contract [BEq K] [BEq L] [BEq S] {c : Cfg} {x : Cross c K L} {hash : S → BitVec c.w}
    {o : MwmOps K V L W S X R} : o.closures.Contract x hash ↔ o.Contract x hash := by
  constructor <;> intro h
  · exact ⟨by simpa only [closures_out] using h.hash, by simpa only [closures_out] using h.inj⟩
  · exact ⟨by simpa only [closures_out] using h.hash, by simpa only [closures_out] using h.inj⟩

end HT
