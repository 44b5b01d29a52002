import Verif.SubList
/-!
# Replacing the calls of the bulk and joint operations on nodes and tries
-/
namespace HT
variable {K V L W S X R : Type} {Q Q' : Type} {A : Q → Type} {A' : Q' → Type} (tr : Trans Q A Q' A')

/-- Applying a function to the result of a recursion on nodes. -/
theorem ANode.fold_nat {n : Nat} {β β' : Type} (h : β → β') {fS : ASNode K V → Nat → β} {fL : ALNode K V → Nat → β}
    {fC : Nat → BitVec n → List (ANode n K V × β) → Nat → Nat → β}
    {fS' : ASNode K V → Nat → β'} {fL' : ALNode K V → Nat → β'}
    {fC' : Nat → BitVec n → List (ANode n K V × β') → Nat → Nat → β'}
    (hS : ∀ s d, fS' s d = h (fS s d)) (hL : ∀ l d, fL' l d = h (fL l d))
    (hC : ∀ a bits vs z d, fC' a bits (vs.map (Prod.map id h)) z d = h (fC a bits vs z d)) (m : ANode n K V) (d : Nat) :
    ANode.fold fS' fL' fC' m d = h (ANode.fold fS fL fC m d) := by
  induction m, d using ANode.recDepth with
  | hS s d => exact hS s d
  | hL l d => exact hL l d
  | hC a bits vs extra d ih =>
    rw [ANode.fold, ANode.foldAll_eq, ANode.fold, ANode.foldAll_eq, ← hC, List.map_map]
    congr 1
    exact List.map_congr_left fun m hm => by simp [ih m hm]

theorem List.map_fst_map_id {A B B' : Type} (h : B → B') (vs : List (A × B)) :
    (vs.map (Prod.map id h)).map Prod.fst = vs.map Prod.fst := by simp

theorem Prog.res_bind_mapOk {α β γ : Type} (f : α → β) (x : Res α) (k : β → Prog Q A γ) :
    (Prog.res (x.mapOk f) >>= k) = (Prog.res x >>= fun a => k (f a)) := by cases x <;> rfl

theorem AAcc.loopE_sub {n : Nat} (reduce : R → R → R) (item : Nat → Prog Q A (AItem n K V R)) (is : List Nat)
    (acc : AAcc n K V R) :
    AAcc.loopE reduce (fun i => Prog.sub tr (item i)) is acc = Prog.sub tr (AAcc.loopE reduce item is acc) := by
  induction is generalizing acc with
  | nil => rfl
  | cons i is ih => simp only [AAcc.loopE, Prog.sub_bind, Prog.sub_res, ih]

theorem AAcc.gatherE_sub {n : Nat} (reduce : R → R → R) (e : R) (par : Par) (item : Nat → Prog Q A (AItem n K V R)) :
    AAcc.gatherE reduce e par (fun i => Prog.sub tr (item i)) = Prog.sub tr (AAcc.gatherE reduce e par item) := by
  cases par <;> simp only [AAcc.gatherE, Prog.sub_bind, Prog.sub_res, AAcc.loopE_sub]

theorem aflatItem_sub {n : Nat} {ρ ι ε : Type} (flag : BitVec n) (index : Nat)
    (child : Except ε (ANode n K V × Prog Q A ρ)) (elsewhere : ANode n K V → Prog Q A ρ) (alone : Prog Q A ρ)
    (item : Option (ANode n K V) → ρ → Res ι) (skip : ι) :
    aflatItem flag index (Except.map (Prod.map id (Prog.sub tr)) child) (fun m => Prog.sub tr (elsewhere m))
      (Prog.sub tr alone) item skip = Prog.sub tr (aflatItem flag index child elsewhere alone item skip) := by
  unfold aflatItem
  rw [Prog.sub_bind, Prog.sub_res]
  congr 1; funext bit
  cases child with
  | error _ => simp only [Except.map]; split <;> simp
  | ok p => simp only [Except.map, Prod.map]; split <;> simp

theorem aflatLoop_sub {c : Cfg} {ρ : Type} (reduce : R → R → R) (e : R) (rightHash : BitVec c.w) (depth : Nat)
    (bits : BitVec c.n) (vs : List (ANode c.n K V × Prog Q A ρ)) (z : Nat)
    (elsewhere : ANode c.n K V → Prog Q A ρ) (alone : Prog Q A ρ)
    (item : Option (ANode c.n K V) → ρ → Res (AItem c.n S X R)) :
    aflatLoop reduce e rightHash depth ⟨bits, vs.map (Prod.map id (Prog.sub tr)), z⟩ (fun m => Prog.sub tr (elsewhere m))
      (Prog.sub tr alone) item =
    Prog.sub tr (aflatLoop reduce e rightHash depth ⟨bits, vs, z⟩ elsewhere alone item) := by
  simp only [aflatLoop, Prog.sub_bind, Prog.sub_res, ← AAcc.gatherE_sub, Bia.atBitIndex_map, Prog.res_bind_mapOk,
    aflatItem_sub]

/-- As `Prog.sub`, with an argument. -/
def Prog.subF {B α : Type} (g : B → Prog Q A α) (b : B) : Prog Q' A' α := Prog.sub tr (g b)

theorem abothItem_sub {n : Nat} {ρ ι ε ε' : Type} (child : Except ε (ANode n K V × (ANode n L W → Prog Q A ρ)))
    (rchild : Except ε' (ANode n L W)) (onlyL : ANode n K V → Prog Q A ρ) (onlyR : ANode n L W → Prog Q A ρ)
    (item : Option (ANode n K V) → Option (ANode n L W) → ρ → Res ι) (skip : ι) :
    abothItem (Except.map (Prod.map id (Prog.subF tr)) child) rchild (fun m => Prog.sub tr (onlyL m))
      (fun m => Prog.sub tr (onlyR m)) item skip = Prog.sub tr (abothItem child rchild onlyL onlyR item skip) := by
  cases child <;> cases rchild <;> simp [abothItem, Except.map, Prog.subF]

theorem abothLoop_sub {n : Nat} {ρ : Type} (reduce : R → R → R) (e : R) (par : Par)
    (bits : BitVec n) (vs : List (ANode n K V × (ANode n L W → Prog Q A ρ))) (z : Nat) (right : Bia n (ANode n L W))
    (onlyL : ANode n K V → Prog Q A ρ) (onlyR : ANode n L W → Prog Q A ρ)
    (item : Option (ANode n K V) → Option (ANode n L W) → ρ → Res (AItem n S X R)) :
    abothLoop reduce e par ⟨bits, vs.map (Prod.map id (Prog.subF tr)), z⟩ right
      (fun m => Prog.sub tr (onlyL m)) (fun m => Prog.sub tr (onlyR m)) item =
    Prog.sub tr (abothLoop reduce e par ⟨bits, vs, z⟩ right onlyL onlyR item) := by
  simp only [abothLoop, Prog.sub_bind, Prog.sub_res, ← AAcc.gatherE_sub, Bia.atBitIndex_map, Prog.res_bind_mapOk,
    abothItem_sub]

/-! ### transform and transmute -/

theorem TRes.achildItemE_sub {n : Nat} {ε : Type} (child : Except ε (ANode n K V × Prog Q A (TRes (ANode n K V) R))) :
    TRes.achildItemE (Except.map (Prod.map id (Prog.sub tr)) child) = Prog.sub tr (TRes.achildItemE child) := by
  cases child <;> simp [TRes.achildItemE, Except.map]

theorem XRes.achildItemE_sub {n : Nat} {ε : Type} (child : Except ε (ANode n K V × Prog Q A (XRes (ANode n S X) R))) :
    XRes.achildItemE (Except.map (Prod.map id (Prog.sub tr)) child) = Prog.sub tr (XRes.achildItemE child) := by
  cases child <;> simp [XRes.achildItemE, Except.map]

section
variable {n : Nat} (reduce : R → R → R) (e : R)

theorem ANode.transformE_sub (op : MapTransform R (K → V → Prog Q A (MapTransformResult V R))) (par : Par)
    (this : ANode n K V) :
    this.transformE reduce e (op.sub tr) par = Prog.sub tr (this.transformE reduce e op par) := by
  refine ANode.fold_nat (Prog.sub tr) (fun s d => by simp) (fun l d => by simp) (fun a bits vs z d => ?_) this 0
  cases op with
  | unchanged r => rfl
  | removed r => rfl
  | generic f =>
    simp only [MapTransform.sub, MapTransform.map, transformEC, Prog.sub_bind, Prog.sub_al, Bia.atBitIndex_map,
      Prog.res_bind_mapOk, TRes.achildItemE_sub, ← AAcc.gatherE_sub, Prog.sub_res]

theorem ANode.transmuteE_sub (op : MapTransmute R (K → V → Prog Q A (MapTransmuteResult S X R)))
    (this : ANode n K V) :
    this.transmuteE reduce e (op.sub tr) = Prog.sub tr (this.transmuteE reduce e op) := by
  refine ANode.fold_nat (Prog.sub tr) (fun s d => by simp) (fun l d => by simp) (fun a bits vs z d => ?_) this 0
  cases op with
  | removed r => rfl
  | generic f =>
    simp only [MapTransmute.sub, MapTransmute.map, transmuteEC, Prog.sub_bind, Prog.sub_al, Bia.atBitIndex_map,
      Prog.res_bind_mapOk, XRes.achildItemE_sub, ← AAcc.gatherE_sub, Prog.sub_res]

end

variable {c : Cfg} (x : Cross c K L) (reduce : R → R → R) (e : R)

/-! ### transform_with_transmuted and transmute_with_transformed -/

theorem ANode.twmS_sub (ops : TwmOpsM Q A K V L W R) (par : Par) (this : ANode c.n K V) (right : ASNode L W) (depth : Nat) :
    this.twmS x reduce e (ops.sub tr) par right depth = Prog.sub tr (this.twmS x reduce e ops par right depth) := by
  refine ANode.fold_nat (Prog.sub tr) (fun s d => by simp) (fun l d => by simp) (fun a bits vs z d => ?_) this depth
  simp only [atwmSC, Prog.sub_bind, Prog.sub_al, ← aflatLoop_sub, Prog.sub_pure, TwmOpsM.sub, ANode.transformE_sub,
    ASNode.transmuteE_sub]

theorem ALNode.mwtS_flip_sub (ops : TwmOpsM Q A K V L W R) (this : ASNode K V) (right : ALNode L W) (depth : Nat) :
    right.mwtS x.flip reduce (ops.sub tr).flip this depth = Prog.sub tr (right.mwtS x.flip reduce ops.flip this depth (c := c)) := by
  rw [TwmOpsM.sub_flip, ALNode.mwtS_sub]

theorem ANode.twmL_sub (ops : TwmOpsM Q A K V L W R) (par : Par) (this : ANode c.n K V) (right : ALNode L W) (depth : Nat) :
    this.twmL x reduce e (ops.sub tr) par right depth = Prog.sub tr (this.twmL x reduce e ops par right depth) := by
  refine ANode.fold_nat (Prog.sub tr) (fun s d => ALNode.mwtS_flip_sub ..) (fun l d => by simp) (fun a bits vs z d => ?_) this depth
  simp only [atwmLC, Prog.sub_bind, Prog.sub_al, ← aflatLoop_sub, Prog.sub_pure, TwmOpsM.sub, ANode.transformE_sub,
    ALNode.transmuteE_sub]

theorem ANode.mwtS_sub (ops : MwtOpsM Q A K V L W R) (this : ANode c.n K V) (right : ASNode L W) (depth : Nat) :
    this.mwtS x reduce e (ops.sub tr) right depth = Prog.sub tr (this.mwtS x reduce e ops right depth) := by
  refine ANode.fold_nat (Prog.sub tr) (fun s d => by simp) (fun l d => by simp) (fun a bits vs z d => ?_) this depth
  simp only [amwtSC, Prog.sub_bind, Prog.sub_al, ← aflatLoop_sub, Prog.sub_pure, MwtOpsM.sub, ANode.transmuteE_sub,
    ASNode.transformE_sub]

theorem ANode.mwtL_sub (ops : MwtOpsM Q A K V L W R) (this : ANode c.n K V) (right : ALNode L W) (depth : Nat) :
    this.mwtL x reduce e (ops.sub tr) right depth = Prog.sub tr (this.mwtL x reduce e ops right depth) := by
  refine ANode.fold_nat (Prog.sub tr) (fun s d => by rw [MwtOpsM.sub_flip, ALNode.twmS_sub])
    (fun l d => by rw [MwtOpsM.sub_flip, ALNode.twmL_sub]) (fun a bits vs z d => ?_) this depth
  simp only [amwtLC, Prog.sub_bind, Prog.sub_al, ← aflatLoop_sub, Prog.sub_pure, MwtOpsM.sub, ANode.transmuteE_sub,
    ALNode.transformE_sub]

theorem ASNode.twmN_sub (ops : TwmOpsM Q A K V L W R) (this : ASNode K V) (right : ANode c.n L W) (depth : Nat) :
    this.twmN x reduce e (ops.sub tr) right depth = Prog.sub tr (this.twmN x reduce e ops right depth) := by
  cases right with
  | C a b v z => simp only [ASNode.twmN, TwmOpsM.sub_flip, ANode.mwtS_sub]
  | L l => exact ALNode.mwtS_flip_sub ..
  | S s => simp [ASNode.twmN]

theorem ALNode.twmN_sub (ops : TwmOpsM Q A K V L W R) (this : ALNode K V) (right : ANode c.n L W) (depth : Nat) :
    this.twmN x reduce e (ops.sub tr) right depth = Prog.sub tr (this.twmN x reduce e ops right depth) := by
  cases right with
  | C a b v z => simp only [ALNode.twmN, TwmOpsM.sub_flip, ANode.mwtL_sub]
  | L l => simp [ALNode.twmN]
  | S s => simp [ALNode.twmN]

theorem ANode.twm_sub (ops : TwmOpsM Q A K V L W R) (par : Par) (this : ANode c.n K V) (right : ANode c.n L W) (depth : Nat) :
    this.twm x reduce e (ops.sub tr) par right depth = Prog.sub tr (this.twm x reduce e ops par right depth) := by
  show _ = Prog.subF tr (ANode.fold _ _ _ this depth) right
  refine congrFun (ANode.fold_nat (Prog.subF tr) (fun s d => funext fun _ => ASNode.twmN_sub ..)
    (fun l d => funext fun _ => ALNode.twmN_sub ..) (fun a bits vs z d => funext fun right => ?_) this depth) right
  simp only [Prog.subF]
  cases right with
  | L l => simp only [atwmC, List.map_fst_map_id, ANode.twmL_sub]
  | S s => simp only [atwmC, List.map_fst_map_id, ANode.twmS_sub]
  | C a' b v z' =>
    simp only [atwmC, atwmCC, Prog.sub_bind, Prog.sub_al, ← abothLoop_sub, Prog.sub_pure, TwmOpsM.sub, ANode.transformE_sub,
      ANode.transmuteE_sub]

theorem ASNode.mwtN_sub (ops : MwtOpsM Q A K V L W R) (par : Par) (this : ASNode K V) (right : ANode c.n L W) (depth : Nat) :
    this.mwtN x reduce e (ops.sub tr) par right depth = Prog.sub tr (this.mwtN x reduce e ops par right depth) := by
  cases right with
  | C a b v z => simp only [ASNode.mwtN, MwtOpsM.sub_flip, ANode.twmS_sub]
  | L l => simp only [ASNode.mwtN, MwtOpsM.sub_flip, ALNode.twmS_sub]
  | S s => simp [ASNode.mwtN]

theorem ALNode.mwtN_sub (ops : MwtOpsM Q A K V L W R) (par : Par) (this : ALNode K V) (right : ANode c.n L W) (depth : Nat) :
    this.mwtN x reduce e (ops.sub tr) par right depth = Prog.sub tr (this.mwtN x reduce e ops par right depth) := by
  cases right with
  | C a b v z => simp only [ALNode.mwtN, MwtOpsM.sub_flip, ANode.twmL_sub]
  | L l => simp only [ALNode.mwtN, MwtOpsM.sub_flip, ALNode.twmL_sub]
  | S s => simp [ALNode.mwtN]

theorem ANode.mwt_sub (ops : MwtOpsM Q A K V L W R) (par : Par) (this : ANode c.n K V) (right : ANode c.n L W) (depth : Nat) :
    this.mwt x reduce e (ops.sub tr) par right depth = Prog.sub tr (this.mwt x reduce e ops par right depth) := by
  show _ = Prog.subF tr (ANode.fold _ _ _ this depth) right
  refine congrFun (ANode.fold_nat (Prog.subF tr) (fun s d => funext fun _ => ASNode.mwtN_sub ..)
    (fun l d => funext fun _ => ALNode.mwtN_sub ..) (fun a bits vs z d => funext fun right => ?_) this depth) right
  simp only [Prog.subF]
  cases right with
  | L l => simp only [amwtC, List.map_fst_map_id, ANode.mwtL_sub]
  | S s => simp only [amwtC, List.map_fst_map_id, ANode.mwtS_sub]
  | C a' b v z' =>
    simp only [amwtC, amwtCC, Prog.sub_bind, Prog.sub_al, ← abothLoop_sub, Prog.sub_pure, MwtOpsM.sub, ANode.transformE_sub,
      ANode.transmuteE_sub]

/-! ### transmute_with_transmuted -/

theorem ANode.mwmS_sub (ops : MwmOpsM Q A K V L W S X R) (this : ANode c.n K V) (right : ASNode L W) (depth : Nat) :
    this.mwmS x reduce e (ops.sub tr) right depth = Prog.sub tr (this.mwmS x reduce e ops right depth) := by
  refine ANode.fold_nat (Prog.sub tr) (fun s d => by simp) (fun l d => by simp) (fun a bits vs z d => ?_) this depth
  simp only [amwmSC, Prog.sub_bind, Prog.sub_al, ← aflatLoop_sub, Prog.sub_pure, MwmOpsM.sub, ANode.transmuteE_sub,
    ASNode.transmuteE_sub]

theorem ANode.mwmL_sub (ops : MwmOpsM Q A K V L W S X R) (this : ANode c.n K V) (right : ALNode L W) (depth : Nat) :
    this.mwmL x reduce e (ops.sub tr) right depth = Prog.sub tr (this.mwmL x reduce e ops right depth) := by
  refine ANode.fold_nat (Prog.sub tr) (fun s d => by rw [MwmOpsM.sub_flip, ALNode.mwmS_sub])
    (fun l d => by simp) (fun a bits vs z d => ?_) this depth
  simp only [amwmLC, Prog.sub_bind, Prog.sub_al, ← aflatLoop_sub, Prog.sub_pure, MwmOpsM.sub, ANode.transmuteE_sub,
    ALNode.transmuteE_sub]

theorem ASNode.mwmN_sub (ops : MwmOpsM Q A K V L W S X R) (this : ASNode K V) (right : ANode c.n L W) (depth : Nat) :
    this.mwmN x reduce e (ops.sub tr) right depth = Prog.sub tr (this.mwmN x reduce e ops right depth) := by
  cases right with
  | C a b v z => simp only [ASNode.mwmN, MwmOpsM.sub_flip, ANode.mwmS_sub]
  | L l => simp only [ASNode.mwmN, MwmOpsM.sub_flip, ALNode.mwmS_sub]
  | S s => simp [ASNode.mwmN]

theorem ALNode.mwmN_sub (ops : MwmOpsM Q A K V L W S X R) (this : ALNode K V) (right : ANode c.n L W) (depth : Nat) :
    this.mwmN x reduce e (ops.sub tr) right depth = Prog.sub tr (this.mwmN x reduce e ops right depth) := by
  cases right with
  | C a b v z => simp only [ALNode.mwmN, MwmOpsM.sub_flip, ANode.mwmL_sub]
  | L l => simp [ALNode.mwmN]
  | S s => simp [ALNode.mwmN]

theorem ANode.mwm_sub (ops : MwmOpsM Q A K V L W S X R) (this : ANode c.n K V) (right : ANode c.n L W) (depth : Nat) :
    this.mwm x reduce e (ops.sub tr) right depth = Prog.sub tr (this.mwm x reduce e ops right depth) := by
  show _ = Prog.subF tr (ANode.fold _ _ _ this depth) right
  refine congrFun (ANode.fold_nat (Prog.subF tr) (fun s d => funext fun _ => ASNode.mwmN_sub ..)
    (fun l d => funext fun _ => ALNode.mwmN_sub ..) (fun a bits vs z d => funext fun right => ?_) this depth) right
  simp only [Prog.subF]
  cases right with
  | L l => simp only [amwmC, List.map_fst_map_id, ANode.mwmL_sub]
  | S s => simp only [amwmC, List.map_fst_map_id, ANode.mwmS_sub]
  | C a' b v z' =>
    simp only [amwmC, amwmCC, Prog.sub_bind, Prog.sub_al, ← abothLoop_sub, Prog.sub_pure, MwmOpsM.sub, ANode.transmuteE_sub]

/-! ### transform_with_transformed -/

section
variable [BEq K] (hash : K → BitVec c.w) (ops : TwtOpsM Q A K V R) (par : Par)

omit [BEq K] in
theorem ANode.transformL_sub (op : MapTransform R (K → V → Prog Q A (MapTransformResult V R))) (m : ANode c.n K V) :
    ANode.transformL reduce e par (op.sub tr) m = Prog.sub tr (ANode.transformL reduce e par op m) := by
  simp only [ANode.transformL, ANode.transformE_sub, Prog.sub_bind, Prog.sub_pure]

omit [BEq K] in
theorem ANode.transformR_sub (op : MapTransform R (K → V → Prog Q A (MapTransformResult V R))) (m : ANode c.n K V) :
    ANode.transformR reduce e par (op.sub tr) m = Prog.sub tr (ANode.transformR reduce e par op m) := by
  simp only [ANode.transformR, ANode.transformE_sub, Prog.sub_bind, Prog.sub_pure]

theorem JRes.flipE_sub {N : Type} (res : Prog Q A (JRes N R)) :
    JRes.flipE (Prog.sub tr res) = Prog.sub tr (JRes.flipE res) := by simp [JRes.flipE]

theorem ANode.twtS_sub (this : ANode c.n K V) (right : ASNode K V) (depth : Nat) :
    this.twtS reduce e hash (ops.sub tr) par right depth = Prog.sub tr (this.twtS reduce e hash ops par right depth) := by
  refine ANode.fold_nat (Prog.sub tr) (fun s d => by simp) (fun l d => by simp) (fun a bits vs z d => ?_) this depth
  simp only [atwtSC, Prog.sub_bind, Prog.sub_al, ← aflatLoop_sub, Prog.sub_pure, TwtOpsM.sub, ← ANode.transformL_sub,
    ASNode.transformE_sub]

theorem ANode.twtL_sub (this : ANode c.n K V) (right : ALNode K V) (depth : Nat) :
    this.twtL reduce e hash (ops.sub tr) par right depth = Prog.sub tr (this.twtL reduce e hash ops par right depth) := by
  refine ANode.fold_nat (Prog.sub tr) (fun s d => by rw [TwtOpsM.sub_flip, ALNode.twtS_sub, JRes.flipE_sub])
    (fun l d => by simp) (fun a bits vs z d => ?_) this depth
  simp only [atwtLC, Prog.sub_bind, Prog.sub_al, ← aflatLoop_sub, Prog.sub_pure, TwtOpsM.sub, ← ANode.transformL_sub,
    ALNode.transformE_sub]

theorem ASNode.twtN_sub (this : ASNode K V) (right : ANode c.n K V) (depth : Nat) :
    this.twtN reduce e hash (ops.sub tr) par right depth = Prog.sub tr (this.twtN reduce e hash ops par right depth) := by
  cases right with
  | C a b v z => simp only [ASNode.twtN, TwtOpsM.sub_flip, ANode.twtS_sub, JRes.flipE_sub]
  | L l => simp only [ASNode.twtN, TwtOpsM.sub_flip, ALNode.twtS_sub, JRes.flipE_sub]
  | S s => simp [ASNode.twtN]

theorem ALNode.twtN_sub (this : ALNode K V) (right : ANode c.n K V) (depth : Nat) :
    this.twtN reduce e hash (ops.sub tr) par right depth = Prog.sub tr (this.twtN reduce e hash ops par right depth) := by
  cases right with
  | C a b v z => simp only [ALNode.twtN, TwtOpsM.sub_flip, ANode.twtL_sub, JRes.flipE_sub]
  | L l => simp [ALNode.twtN]
  | S s => simp [ALNode.twtN]

omit [BEq K] in
theorem TwtOpsM.shortcut_sub : (ops.sub tr).shortcut (c := c) = ops.shortcut := by
  obtain ⟨b, l, r⟩ := ops
  cases b <;> cases l <;> cases r <;> rfl

theorem ANode.twt_sub (this right : ANode c.n K V) (depth : Nat) :
    this.twt reduce e hash (ops.sub tr) par right depth = Prog.sub tr (this.twt reduce e hash ops par right depth) := by
  show _ = Prog.subF tr (ANode.fold _ _ _ this depth) right
  refine congrFun (ANode.fold_nat (Prog.subF tr) (fun s d => funext fun _ => ASNode.twtN_sub ..)
    (fun l d => funext fun _ => ALNode.twtN_sub ..) (fun a bits vs z d => funext fun right => ?_) this depth) right
  simp only [Prog.subF]
  cases right with
  | L l => simp only [atwtC, List.map_fst_map_id, ANode.twtL_sub]
  | S s => simp only [atwtC, List.map_fst_map_id, ANode.twtS_sub]
  | C a' b v z' =>
    simp only [atwtC, atwtCC, TwtOpsM.shortcut_sub]
    cases ops.shortcut (c := c) with
    | some r => rfl
    | none =>
      simp only [Prog.sub_bind, Prog.sub_al, ← abothLoop_sub, Prog.sub_pure, TwtOpsM.sub, ← ANode.transformL_sub,
        ← ANode.transformR_sub]

end

/-! ### Tries -/

namespace ATrie

theorem transformE_sub (t : ATrie c K V) (op : MapTransform R (K → V → Prog Q A (MapTransformResult V R))) (par : Par) :
    t.transformE reduce e (op.sub tr) par = Prog.sub tr (t.transformE reduce e op par) := by
  simp only [transformE, ANode.transformE_sub, Prog.sub_bind]
  congr 1; funext res; cases res <;> simp

theorem transmuteE_sub (t : ATrie c K V) (op : MapTransmute R (K → V → Prog Q A (MapTransmuteResult S X R))) :
    t.transmuteE reduce e (op.sub tr) = Prog.sub tr (t.transmuteE reduce e op) := by
  simp only [transmuteE, ANode.transmuteE_sub, Prog.sub_bind]
  congr 1; funext res; cases res <;> simp

theorem twmE_sub (ops : TwmOpsM Q A K V L W R) (par : Par) (t : ATrie c K V) (u : ATrie c L W) :
    twmE x reduce e (ops.sub tr) par t u = Prog.sub tr (twmE x reduce e ops par t u) := by
  simp only [twmE, ANode.twm_sub, Prog.sub_bind]
  congr 1; funext res; cases res <;> simp

theorem mwtE_sub (ops : MwtOpsM Q A K V L W R) (par : Par) (t : ATrie c K V) (u : ATrie c L W) :
    mwtE x reduce e (ops.sub tr) par t u = Prog.sub tr (mwtE x reduce e ops par t u) := by
  simp only [mwtE, ANode.mwt_sub, Prog.sub_bind]
  congr 1; funext res; cases res <;> simp

theorem mwmE_sub (ops : MwmOpsM Q A K V L W S X R) (t : ATrie c K V) (u : ATrie c L W) :
    mwmE x reduce e (ops.sub tr) t u = Prog.sub tr (mwmE x reduce e ops t u) := by
  simp only [mwmE, ANode.mwm_sub, Prog.sub_bind]
  congr 1; funext res; cases res <;> simp

theorem twtE_sub [BEq K] (hash : K → BitVec c.w) (ops : TwtOpsM Q A K V R) (par : Par) (t u : ATrie c K V) :
    twtE reduce e hash (ops.sub tr) par t u = Prog.sub tr (twtE reduce e hash ops par t u) := by
  simp only [twtE, ANode.twt_sub, Prog.sub_bind]
  congr 1; funext res; cases res <;> simp

end ATrie
end HT
