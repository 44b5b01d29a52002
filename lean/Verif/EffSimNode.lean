import Verif.EffLoop
/-! # Bulk and joint operations on nodes with closure calls and addresses simulate those without -/
namespace HT

variable {K V L W S X R : Type} {n : Nat} {Q : Type} {A : Q → Type} {h : (q : Q) → A q}

theorem Heap.child {U : ANode n K V → Prop} {s : Nat} (heap : Heap U s) {a : Nat} {bits : BitVec n}
    {vs : List (ANode n K V)} {extra : Nat} (hU : U (.C a bits vs extra)) : ∀ m ∈ vs, U m :=
  fun m hm => (heap.kids _ hU m hm).1

/-! ### transform and transmute -/

theorem Node.transmuteAll_eq' (reduce : R → R → R) (e : R)
    (op : MapTransmute R (K → V → MapTransmuteResult S X R)) (ms : List (Node n K V)) :
    Node.transmuteAll reduce e op ms = ms.map fun m => m.transmute reduce e op := by
  induction ms with
  | nil => rfl
  | cons m ms ih => rw [Node.transmuteAll, ih]; rfl

theorem ANode.transformE_sim (reduce : R → R → R) (e : R)
    {op : MapTransform R (K → V → Prog Q A (MapTransformResult V R))}
    {op' : MapTransform R (K → V → MapTransformResult V R)} (ho : op.Rel h op') (par : Par) (m : ANode n K V)
    {U : ANode n K V → Prop} {s : Nat} (heap : Heap U s) (hU : U m) :
    PSim h U s (m.transformE reduce e op par) (m.erase.transform reduce e op' par) (fun U' => TP (InN U')) := by
  unfold ANode.transformE
  suffices H : ∀ (m : ANode n K V) (d : Nat) U s, Heap U s → U m →
      PSim h U s (ANode.fold _ _ (transformEC reduce e op par) m d) (m.erase.transform reduce e op' par)
        (fun U' => TP (InN U')) from H m 0 U s heap hU
  clear heap hU m
  intro m d
  refine ANode.recDepth (motive := fun m d => ∀ U s, Heap U s → U m →
      PSim h U s (ANode.fold _ _ (transformEC reduce e op par) m d) (m.erase.transform reduce e op' par)
        (fun U' => TP (InN U'))) ?_ ?_ ?_ m d
  · intro t d U s heap hU
    rw [ANode.fold, ANode.erase, Node.transform]
    exact PSim.mapOk (t.transformE_sim ho heap) fun _ _ _ hp => hp.map fun _ _ hm => hm.toN
  · intro l d U s heap hU
    rw [ANode.fold, ANode.erase, Node.transform]
    exact PSim.mapOk (l.transformE_sim reduce ho heap hU) fun _ _ _ hp => hp.map fun _ _ hm => hm.toN
  · intro a bits vs extra d ih U s heap hU
    have hvs := heap.child hU
    rw [ANode.fold, ANode.foldAll_eq, ANode.erase_C]
    cases ho with
    | unchanged r => rw [Node.transform]; exact PSim.pure heap (.unchanged r)
    | removed r => rw [Node.transform]; exact PSim.pure heap (.removed r)
    | generic hf =>
      rw [Node.transform]
      refine PSim.bind (AAcc.gatherE_sim reduce e par heap fun i U1 s1 hsub1 heap1 => ?_) fun U1 s1 acc acc' hsub1 heap1 q => ?_
      · rw [Node.transformAll_eq', List.map_map, Bia.atBitIndex_mapped, Bia.atBitIndex_mapped]
        cases hat : (Bia.mk bits vs extra).atBitIndex i with
        | panic p => exact rfl
        | diverge => exact trivial
        | ok child =>
          cases child with
          | error err => exact PSim.pure heap1 .skip
          | ok m0 =>
            have hm0 := Bia.atBitIndex_mem hat
            show PSim h U1 s1 (ANode.fold _ _ _ m0 (d + 1) >>= fun res => Pure.pure (TRes.aitem m0 res))
              (Node.transform reduce e _ par m0.erase >>= fun res => .ok (res.item m0.erase)) _
            refine PSim.bind (ih m0 hm0 U1 s1 heap1 (hsub1 _ (hvs m0 hm0))) fun U2 s2 r r' hsub2 heap2 hr => ?_
            cases hr with
            | unchanged r => exact PSim.pure heap2 (.put r _ _ ⟨hsub2 _ (hsub1 _ (hvs m0 hm0)), rfl⟩)
            | node r hm => exact PSim.pure heap2 (.put r _ _ hm)
            | removed r => exact PSim.pure heap2 (.drop r _ _)
      · exact PSim.al (TRes.afinish_sim heap1 q)

theorem ANode.transmuteE_sim (reduce : R → R → R) (e : R)
    {op : MapTransmute R (K → V → Prog Q A (MapTransmuteResult S X R))}
    {op' : MapTransmute R (K → V → MapTransmuteResult S X R)} (ho : op.Rel h op') (m : ANode n K V)
    {U : ANode n S X → Prop} {s : Nat} (heap : Heap U s) :
    PSim h U s (m.transmuteE reduce e op) (m.erase.transmute reduce e op') (fun U' => XP (InN U')) := by
  unfold ANode.transmuteE
  suffices H : ∀ (m : ANode n K V) (d : Nat) (U : ANode n S X → Prop) s, Heap U s →
      PSim h U s (ANode.fold _ _ (transmuteEC reduce e op) m d) (m.erase.transmute reduce e op')
        (fun U' => XP (InN U')) from H m 0 U s heap
  clear heap m
  intro m d
  refine ANode.recDepth (motive := fun m d => ∀ (U : ANode n S X → Prop) s, Heap U s →
      PSim h U s (ANode.fold _ _ (transmuteEC reduce e op) m d) (m.erase.transmute reduce e op')
        (fun U' => XP (InN U'))) ?_ ?_ ?_ m d
  · intro t d U s heap
    rw [ANode.fold, ANode.erase, Node.transmute]
    exact PSim.mapOk (t.transmuteE_sim ho heap) fun _ _ _ hp => hp.map fun _ _ hm => hm.toN
  · intro l d U s heap
    rw [ANode.fold, ANode.erase, Node.transmute]
    exact PSim.mapOk (l.transmuteE_sim reduce ho heap) fun _ _ _ hp => hp.map fun _ _ hm => hm.toN
  · intro a bits vs extra d ih U s heap
    rw [ANode.fold, ANode.foldAll_eq, ANode.erase_C]
    cases ho with
    | removed r => rw [Node.transmute]; exact PSim.pure heap (.removed r)
    | generic hf =>
      rw [Node.transmute]
      refine PSim.bind (AAcc.gatherE_sim reduce e .sequential heap fun i U1 s1 hsub1 heap1 => ?_)
        fun U1 s1 acc acc' hsub1 heap1 q => ?_
      · rw [Node.transmuteAll_eq', List.map_map, Bia.atBitIndex_mapped, Bia.atBitIndex_mapped]
        cases hat : (Bia.mk bits vs extra).atBitIndex i with
        | panic p => exact rfl
        | diverge => exact trivial
        | ok child =>
          cases child with
          | error err => exact PSim.pure heap1 .skip
          | ok m0 =>
            have hm0 := Bia.atBitIndex_mem hat
            show PSim h U1 s1 (ANode.fold _ _ _ m0 (d + 1) >>= fun res => Pure.pure (XRes.aitem res))
              (Node.transmute reduce e _ m0.erase >>= fun res => .ok res.item) _
            refine PSim.bind (ih m0 hm0 U1 s1 heap1) fun U2 s2 r r' hsub2 heap2 hr => ?_
            cases hr with
            | node r hm => exact PSim.pure heap2 (.put r _ _ hm)
            | removed r => exact PSim.pure heap2 (.drop r _ _)
      · exact PSim.al (XRes.afinishAssert_sim heap1 q)

variable {c : Cfg} (x : Cross c K L) (reduce : R → R → R) (e : R)

/-! ### transform_with_transmuted, right operand a list or single node -/

section
variable {U : ANode c.n K V → Prop} {s : Nat} {ops : TwmOpsM Q A K V L W R} {ops' : TwmOps K V L W R}
  (ho : ops.Rel h ops') (par : Par)
include ho

theorem ANode.twmS_sim (this : ANode c.n K V) (right : ASNode L W) (depth : Nat) (heap : Heap U s) (hU : U this) :
    PSim h U s (this.twmS x reduce e ops par right depth) (this.erase.twmS x reduce e ops' par right.erase depth)
      (fun U' => TP (InN U')) := by
  refine ANode.recDepth (motive := fun m d => ∀ U s, Heap U s → U m →
      PSim h U s (m.twmS x reduce e ops par right d) (m.erase.twmS x reduce e ops' par right.erase d)
        (fun U' => TP (InN U'))) ?_ ?_ ?_ this depth U s heap hU
  · intro t d U s heap hU
    exact t.twm_sim x reduce ho right d heap hU
  · intro l d U s heap hU
    exact l.twmS_sim x reduce ho right d heap hU
  · intro a bits vs extra d ih U s heap hU
    have hvs := heap.child hU
    unfold ANode.twmS Node.twmS
    rw [ANode.fold, ANode.foldAll_eq, ANode.erase_C, Node.fold, Node.foldAll_eq]
    refine PSim.bind (aflatLoop_sim reduce e rfl d bits extra vs heap (fun U' => TP (InN U')) ?_ ?_ ?_ ?_)
      fun U1 s1 acc acc' hsub1 heap1 q => PSim.al (TRes.afinish_sim heap1 q)
    · exact fun m hm U' s' hsub heap' => ih m hm U' s' heap' (hsub _ (hvs m hm))
    · exact fun m hm U' s' hsub heap' => m.transformE_sim reduce e ho.left par heap' (hsub _ (hvs m hm))
    · exact fun U' s' hsub heap' => PSim.mapOk (g := fun (y : XRes (SNode K V) R) => (y.map Node.S).toT)
        (right.transmuteE_sim ho.right heap') fun _ _ _ hp =>
        (hp.map (P' := InN _) fun _ _ hm => hm.toN).toT
    · exact fun o U' s' a b ho' hsub heap' hab =>
        TRes.aitemOpt_sim heap' true ⟨fun m hm => hsub _ (hvs m (ho' m hm)), rfl⟩ hab

theorem ANode.twmL_sim (this : ANode c.n K V) (right : ALNode L W) (depth : Nat) (heap : Heap U s) (hU : U this) :
    PSim h U s (this.twmL x reduce e ops par right depth) (this.erase.twmL x reduce e ops' par right.erase depth)
      (fun U' => TP (InN U')) := by
  refine ANode.recDepth (motive := fun m d => ∀ U s, Heap U s → U m →
      PSim h U s (m.twmL x reduce e ops par right d) (m.erase.twmL x reduce e ops' par right.erase d)
        (fun U' => TP (InN U'))) ?_ ?_ ?_ this depth U s heap hU
  · intro t d U s heap hU
    exact right.mwtS_sim x.flip reduce ho.flip t d heap hU
  · intro l d U s heap hU
    exact l.twmL_sim x reduce ho right d heap hU
  · intro a bits vs extra d ih U s heap hU
    have hvs := heap.child hU
    unfold ANode.twmL Node.twmL
    rw [ANode.fold, ANode.foldAll_eq, ANode.erase_C, Node.fold, Node.foldAll_eq]
    refine PSim.bind (aflatLoop_sim reduce e (by rw [ALNode.erase_key]) d bits extra vs heap (fun U' => TP (InN U')) ?_ ?_ ?_ ?_)
      fun U1 s1 acc acc' hsub1 heap1 q => PSim.al (TRes.afinish_sim heap1 q)
    · exact fun m hm U' s' hsub heap' => ih m hm U' s' heap' (hsub _ (hvs m hm))
    · exact fun m hm U' s' hsub heap' => m.transformE_sim reduce e ho.left par heap' (hsub _ (hvs m hm))
    · exact fun U' s' hsub heap' => PSim.mapOk (g := fun (y : XRes (LNext K V) R) => (y.map LNext.toNode).toT)
        (right.transmuteE_sim reduce ho.right heap') fun _ _ _ hp =>
        (hp.map (P' := InN _) fun _ _ hm => hm.toN).toT
    · exact fun o U' s' a b ho' hsub heap' hab =>
        TRes.aitemOpt_sim heap' false ⟨fun m hm => hsub _ (hvs m (ho' m hm)), rfl⟩ hab

end

/-! ### transmute_with_transformed, right operand a list or single node -/

section
variable {U : ANode c.n L W → Prop} {s : Nat} {ops : MwtOpsM Q A K V L W R} {ops' : MwtOps K V L W R}
  (ho : ops.Rel h ops')
include ho

theorem ANode.mwtS_sim (this : ANode c.n K V) (right : ASNode L W) (depth : Nat) (heap : Heap U s)
    (hU : U (.S right)) :
    PSim h U s (this.mwtS x reduce e ops right depth) (this.erase.mwtS x reduce e ops' right.erase depth)
      (fun U' => TP (InN U')) := by
  refine ANode.recDepth (motive := fun m d => ∀ U s, Heap U s → U (.S right) →
      PSim h U s (m.mwtS x reduce e ops right d) (m.erase.mwtS x reduce e ops' right.erase d)
        (fun U' => TP (InN U'))) ?_ ?_ ?_ this depth U s heap hU
  · intro t d U s heap hU
    exact t.mwt_sim x reduce ho right d heap hU
  · intro l d U s heap hU
    exact l.mwtS_sim x reduce ho right d heap hU
  · intro a bits vs extra d ih U s heap hU
    unfold ANode.mwtS Node.mwtS
    rw [ANode.fold, ANode.foldAll_eq, ANode.erase_C, Node.fold, Node.foldAll_eq]
    refine PSim.bind (aflatLoop_sim reduce e rfl d bits extra vs heap (fun U' => TP (InN U')) ?_ ?_ ?_ ?_)
      fun U1 s1 acc acc' hsub1 heap1 q => PSim.al (TRes.afinish_sim heap1 q)
    · exact fun m hm U' s' hsub heap' => ih m hm U' s' heap' (hsub _ hU)
    · exact fun m hm U' s' hsub heap' => PSim.map (m.transmuteE_sim reduce e ho.left heap') fun _ _ _ hp => hp.toT
    · exact fun U' s' hsub heap' => PSim.mapOk (g := fun (y : TRes (SNode L W) R) => y.map Node.S)
        (right.transformE_sim ho.right heap') fun _ _ _ hp => hp.map (P' := InN _) fun _ _ hm => hm.toN
    · exact fun o U' s' a b ho' hsub heap' hab =>
        TRes.aitemOpt_sim heap' true (.some (hsub _ hU)) hab

theorem ANode.mwtL_sim (this : ANode c.n K V) (right : ALNode L W) (depth : Nat) (heap : Heap U s)
    (hU : U (.L right)) :
    PSim h U s (this.mwtL x reduce e ops right depth) (this.erase.mwtL x reduce e ops' right.erase depth)
      (fun U' => TP (InN U')) := by
  refine ANode.recDepth (motive := fun m d => ∀ U s, Heap U s → U (.L right) →
      PSim h U s (m.mwtL x reduce e ops right d) (m.erase.mwtL x reduce e ops' right.erase d)
        (fun U' => TP (InN U'))) ?_ ?_ ?_ this depth U s heap hU
  · intro t d U s heap hU
    exact right.twmS_sim x.flip reduce ho.flip t d heap hU
  · intro l d U s heap hU
    exact right.twmL_sim x.flip reduce ho.flip l d heap hU
  · intro a bits vs extra d ih U s heap hU
    unfold ANode.mwtL Node.mwtL
    rw [ANode.fold, ANode.foldAll_eq, ANode.erase_C, Node.fold, Node.foldAll_eq]
    refine PSim.bind (aflatLoop_sim reduce e (by rw [ALNode.erase_key]) d bits extra vs heap (fun U' => TP (InN U')) ?_ ?_ ?_ ?_)
      fun U1 s1 acc acc' hsub1 heap1 q => PSim.al (TRes.afinish_sim heap1 q)
    · exact fun m hm U' s' hsub heap' => ih m hm U' s' heap' (hsub _ hU)
    · exact fun m hm U' s' hsub heap' => PSim.map (m.transmuteE_sim reduce e ho.left heap') fun _ _ _ hp => hp.toT
    · exact fun U' s' hsub heap' => PSim.mapOk (g := fun (y : TRes (LNext L W) R) => y.map LNext.toNode)
        (right.transformE_sim reduce ho.right heap' (hsub _ hU)) fun _ _ _ hp => hp.map (P' := InN _) fun _ _ hm => hm.toN
    · exact fun o U' s' a b ho' hsub heap' hab =>
        TRes.aitemOpt_sim heap' false (.some (hsub _ hU)) hab

end

/-! ### transform_with_transmuted -/

section
variable {U : ANode c.n K V → Prop} {s : Nat} {ops : TwmOpsM Q A K V L W R} {ops' : TwmOps K V L W R}
  (ho : ops.Rel h ops') (par : Par)
include ho

theorem ANode.twm_sim (this : ANode c.n K V) (right : ANode c.n L W) (depth : Nat) (heap : Heap U s) (hU : U this) :
    PSim h U s (this.twm x reduce e ops par right depth) (this.erase.twm x reduce e ops' par right.erase depth)
      (fun U' => TP (InN U')) := by
  refine ANode.recDepth (motive := fun m d => ∀ (right : ANode c.n L W) U s, Heap U s → U m →
      PSim h U s (m.twm x reduce e ops par right d) (m.erase.twm x reduce e ops' par right.erase d)
        (fun U' => TP (InN U'))) ?_ ?_ ?_ this depth right U s heap hU
  · intro t d right U s heap hU
    cases right with
    | S r => exact t.twm_sim x reduce ho r d heap hU
    | L r => exact r.mwtS_sim x.flip reduce ho.flip t d heap hU
    | C a b v z =>
      rw [ANode.erase_C]
      exact ANode.erase_C a b v z ▸ (ANode.C a b v z).mwtS_sim x.flip reduce e ho.flip t d heap hU
  · intro l d right U s heap hU
    cases right with
    | S r => exact l.twmS_sim x reduce ho r d heap hU
    | L r => exact l.twmL_sim x reduce ho r d heap hU
    | C a b v z =>
      rw [ANode.erase_C]
      exact ANode.erase_C a b v z ▸ (ANode.C a b v z).mwtL_sim x.flip reduce e ho.flip l d heap hU
  · intro a bits vs extra d ih right U s heap hU
    have hvs := heap.child hU
    unfold ANode.twm Node.twm
    rw [ANode.fold, ANode.foldAll_eq, ANode.erase_C, Node.fold, Node.foldAll_eq]
    cases right with
    | S r =>
      show PSim h U s ((ANode.C a bits _ extra).twmS x reduce e ops par r d) ((Node.C bits _ extra).twmS x reduce e ops' par r.erase d) _
      simp only [List.map_map, Function.comp_def, List.map_id']
      rw [← ANode.erase_C a]
      exact ANode.twmS_sim x reduce e ho par _ r d heap hU
    | L r =>
      show PSim h U s ((ANode.C a bits _ extra).twmL x reduce e ops par r d) ((Node.C bits _ extra).twmL x reduce e ops' par r.erase d) _
      simp only [List.map_map, Function.comp_def, List.map_id']
      rw [← ANode.erase_C a]
      exact ANode.twmL_sim x reduce e ho par _ r d heap hU
    | C a2 b2 rs z2 =>
      rw [ANode.erase_C]
      refine PSim.bind (abothLoop_sim reduce e .sequential bits extra vs b2 z2 rs heap (fun U' => TP (InN U')) ?_ ?_ ?_ ?_)
        fun U1 s1 acc acc' hsub1 heap1 q => PSim.al (TRes.afinish_sim heap1 q)
      · exact fun m hm r hr U' s' hsub heap' => ih m hm r U' s' heap' (hsub _ (hvs m hm))
      · exact fun m hm U' s' hsub heap' => m.transformE_sim reduce e ho.left par heap' (hsub _ (hvs m hm))
      · exact fun r hr U' s' hsub heap' => PSim.map (r.transmuteE_sim reduce e ho.right heap') fun _ _ _ hp => hp.toT
      · exact fun o p U' s' a b ho' hp' hsub heap' hab =>
          TRes.aitemOpt_sim heap' true ⟨fun m hm => hsub _ (hvs m (ho' m hm)), rfl⟩ hab

end

/-! ### transmute_with_transformed -/

section
variable {U : ANode c.n L W → Prop} {s : Nat} {ops : MwtOpsM Q A K V L W R} {ops' : MwtOps K V L W R}
  (ho : ops.Rel h ops') (par : Par)
include ho

theorem ANode.mwt_sim (this : ANode c.n K V) (right : ANode c.n L W) (depth : Nat) (heap : Heap U s) (hU : U right) :
    PSim h U s (this.mwt x reduce e ops par right depth) (this.erase.mwt x reduce e ops' par right.erase depth)
      (fun U' => TP (InN U')) := by
  refine ANode.recDepth (motive := fun m d => ∀ (right : ANode c.n L W) U s, Heap U s → U right →
      PSim h U s (m.mwt x reduce e ops par right d) (m.erase.mwt x reduce e ops' par right.erase d)
        (fun U' => TP (InN U'))) ?_ ?_ ?_ this depth right U s heap hU
  · intro t d right U s heap hU
    cases right with
    | S r => exact t.mwt_sim x reduce ho r d heap hU
    | L r => exact r.twmS_sim x.flip reduce ho.flip t d heap hU
    | C a b v z =>
      rw [ANode.erase_C]
      exact ANode.erase_C a b v z ▸ (ANode.C a b v z).twmS_sim x.flip reduce e ho.flip par t d heap hU
  · intro l d right U s heap hU
    cases right with
    | S r => exact l.mwtS_sim x reduce ho r d heap hU
    | L r => exact r.twmL_sim x.flip reduce ho.flip l d heap hU
    | C a b v z =>
      rw [ANode.erase_C]
      exact ANode.erase_C a b v z ▸ (ANode.C a b v z).twmL_sim x.flip reduce e ho.flip par l d heap hU
  · intro a bits vs extra d ih right U s heap hU
    unfold ANode.mwt Node.mwt
    rw [ANode.fold, ANode.foldAll_eq, ANode.erase_C, Node.fold, Node.foldAll_eq]
    cases right with
    | S r =>
      show PSim h U s ((ANode.C a bits _ extra).mwtS x reduce e ops r d) ((Node.C bits _ extra).mwtS x reduce e ops' r.erase d) _
      simp only [List.map_map, Function.comp_def, List.map_id']
      rw [← ANode.erase_C a]
      exact ANode.mwtS_sim x reduce e ho _ r d heap hU
    | L r =>
      show PSim h U s ((ANode.C a bits _ extra).mwtL x reduce e ops r d) ((Node.C bits _ extra).mwtL x reduce e ops' r.erase d) _
      simp only [List.map_map, Function.comp_def, List.map_id']
      rw [← ANode.erase_C a]
      exact ANode.mwtL_sim x reduce e ho _ r d heap hU
    | C a2 b2 rs z2 =>
      have hrs := heap.child hU
      rw [ANode.erase_C]
      refine PSim.bind (abothLoop_sim reduce e .sequential bits extra vs b2 z2 rs heap (fun U' => TP (InN U')) ?_ ?_ ?_ ?_)
        fun U1 s1 acc acc' hsub1 heap1 q => PSim.al (TRes.afinish_sim heap1 q)
      · exact fun m hm r hr U' s' hsub heap' => ih m hm r U' s' heap' (hsub _ (hrs r hr))
      · exact fun m hm U' s' hsub heap' => PSim.map (m.transmuteE_sim reduce e ho.left heap') fun _ _ _ hp => hp.toT
      · exact fun r hr U' s' hsub heap' => r.transformE_sim reduce e ho.right par heap' (hsub _ (hrs r hr))
      · exact fun o p U' s' a b ho' hp' hsub heap' hab =>
          TRes.aitemOpt_sim heap' true ⟨fun m hm => hsub _ (hrs m (hp' m hm)), rfl⟩ hab

end

/-! ### transmute_with_transmuted -/

section
variable {U : ANode c.n S X → Prop} {s : Nat} {ops : MwmOpsM Q A K V L W S X R} {ops' : MwmOps K V L W S X R}
  (ho : ops.Rel h ops')
include ho

theorem ANode.mwmS_sim (this : ANode c.n K V) (right : ASNode L W) (depth : Nat) (heap : Heap U s) :
    PSim h U s (this.mwmS x reduce e ops right depth) (this.erase.mwmS x reduce e ops' right.erase depth)
      (fun U' => XP (InN U')) := by
  refine ANode.recDepth (motive := fun m d => ∀ (U : ANode c.n S X → Prop) s, Heap U s →
      PSim h U s (m.mwmS x reduce e ops right d) (m.erase.mwmS x reduce e ops' right.erase d)
        (fun U' => XP (InN U'))) ?_ ?_ ?_ this depth U s heap
  · intro t d U s heap
    exact t.mwm_sim x reduce ho right d heap
  · intro l d U s heap
    exact l.mwmS_sim x reduce ho right d heap
  · intro a bits vs extra d ih U s heap
    unfold ANode.mwmS Node.mwmS
    rw [ANode.fold, ANode.foldAll_eq, ANode.erase_C, Node.fold, Node.foldAll_eq]
    refine PSim.bind (aflatLoop_sim reduce e rfl d bits extra vs heap (fun U' => XP (InN U')) ?_ ?_ ?_ ?_)
      fun U1 s1 acc acc' hsub1 heap1 q => PSim.al (XRes.afinish_sim heap1 q)
    · exact fun m hm U' s' hsub heap' => ih m hm U' s' heap'
    · exact fun m hm U' s' hsub heap' => m.transmuteE_sim reduce e ho.left heap'
    · exact fun U' s' hsub heap' => PSim.mapOk (g := fun (y : XRes (SNode S X) R) => y.map Node.S)
        (right.transmuteE_sim ho.right heap') fun _ _ _ hp => hp.map (P' := InN _) fun _ _ hm => hm.toN
    · exact fun o U' s' a b ho' hsub heap' hab => XRes.aitem_sim heap' hab

theorem ANode.mwmL_sim (this : ANode c.n K V) (right : ALNode L W) (depth : Nat) (heap : Heap U s) :
    PSim h U s (this.mwmL x reduce e ops right depth) (this.erase.mwmL x reduce e ops' right.erase depth)
      (fun U' => XP (InN U')) := by
  refine ANode.recDepth (motive := fun m d => ∀ (U : ANode c.n S X → Prop) s, Heap U s →
      PSim h U s (m.mwmL x reduce e ops right d) (m.erase.mwmL x reduce e ops' right.erase d)
        (fun U' => XP (InN U'))) ?_ ?_ ?_ this depth U s heap
  · intro t d U s heap
    exact right.mwmS_sim x.flip reduce ho.flip t d heap
  · intro l d U s heap
    exact l.mwmL_sim x reduce ho right d heap
  · intro a bits vs extra d ih U s heap
    unfold ANode.mwmL Node.mwmL
    rw [ANode.fold, ANode.foldAll_eq, ANode.erase_C, Node.fold, Node.foldAll_eq]
    refine PSim.bind (aflatLoop_sim reduce e (by rw [ALNode.erase_key]) d bits extra vs heap (fun U' => XP (InN U')) ?_ ?_ ?_ ?_)
      fun U1 s1 acc acc' hsub1 heap1 q => PSim.al (XRes.afinish_sim heap1 q)
    · exact fun m hm U' s' hsub heap' => ih m hm U' s' heap'
    · exact fun m hm U' s' hsub heap' => m.transmuteE_sim reduce e ho.left heap'
    · exact fun U' s' hsub heap' => PSim.mapOk (g := fun (y : XRes (LNext S X) R) => y.map LNext.toNode)
        (right.transmuteE_sim reduce ho.right heap') fun _ _ _ hp => hp.map (P' := InN _) fun _ _ hm => hm.toN
    · exact fun o U' s' a b ho' hsub heap' hab => XRes.aitem_sim heap' hab

theorem ANode.mwm_sim (this : ANode c.n K V) (right : ANode c.n L W) (depth : Nat) (heap : Heap U s) :
    PSim h U s (this.mwm x reduce e ops right depth) (this.erase.mwm x reduce e ops' right.erase depth)
      (fun U' => XP (InN U')) := by
  refine ANode.recDepth (motive := fun m d => ∀ (right : ANode c.n L W) (U : ANode c.n S X → Prop) s, Heap U s →
      PSim h U s (m.mwm x reduce e ops right d) (m.erase.mwm x reduce e ops' right.erase d)
        (fun U' => XP (InN U'))) ?_ ?_ ?_ this depth right U s heap
  · intro t d right U s heap
    cases right with
    | S r => exact t.mwm_sim x reduce ho r d heap
    | L r => exact r.mwmS_sim x.flip reduce ho.flip t d heap
    | C a b v z =>
      rw [ANode.erase_C]
      exact ANode.erase_C a b v z ▸ (ANode.C a b v z).mwmS_sim x.flip reduce e ho.flip t d heap
  · intro l d right U s heap
    cases right with
    | S r => exact l.mwmS_sim x reduce ho r d heap
    | L r => exact l.mwmL_sim x reduce ho r d heap
    | C a b v z =>
      rw [ANode.erase_C]
      exact ANode.erase_C a b v z ▸ (ANode.C a b v z).mwmL_sim x.flip reduce e ho.flip l d heap
  · intro a bits vs extra d ih right U s heap
    unfold ANode.mwm Node.mwm
    rw [ANode.fold, ANode.foldAll_eq, ANode.erase_C, Node.fold, Node.foldAll_eq]
    cases right with
    | S r =>
      show PSim h U s ((ANode.C a bits _ extra).mwmS x reduce e ops r d) ((Node.C bits _ extra).mwmS x reduce e ops' r.erase d) _
      simp only [List.map_map, Function.comp_def, List.map_id']
      rw [← ANode.erase_C a]
      exact ANode.mwmS_sim x reduce e ho _ r d heap
    | L r =>
      show PSim h U s ((ANode.C a bits _ extra).mwmL x reduce e ops r d) ((Node.C bits _ extra).mwmL x reduce e ops' r.erase d) _
      simp only [List.map_map, Function.comp_def, List.map_id']
      rw [← ANode.erase_C a]
      exact ANode.mwmL_sim x reduce e ho _ r d heap
    | C a2 b2 rs z2 =>
      rw [ANode.erase_C]
      refine PSim.bind (abothLoop_sim reduce e .sequential bits extra vs b2 z2 rs heap (fun U' => XP (InN U')) ?_ ?_ ?_ ?_)
        fun U1 s1 acc acc' hsub1 heap1 q => PSim.al (XRes.afinish_sim heap1 q)
      · exact fun m hm r hr U' s' hsub heap' => ih m hm r U' s' heap'
      · exact fun m hm U' s' hsub heap' => m.transmuteE_sim reduce e ho.left heap'
      · exact fun r hr U' s' hsub heap' => r.transmuteE_sim reduce e ho.right heap'
      · exact fun o p U' s' a b ho' hp' hsub heap' hab => XRes.aitem_sim heap' hab

end

/-! ### transform_with_transformed -/

section
variable [BEq K] (hash : K → BitVec c.w) {U : ANode c.n K V → Prop} {s : Nat} {ops : TwtOpsM Q A K V R}
  {ops' : TwtOps K V R} (ho : ops.Rel h ops') (par : Par)

theorem ANode.transformL_sim {op : MapTransform R (K → V → Prog Q A (MapTransformResult V R))}
    {op' : MapTransform R (K → V → MapTransformResult V R)} (ho : op.Rel h op') (par : Par) (m : ANode c.n K V)
    (heap : Heap U s) (hU : U m) :
    PSim h U s (ANode.transformL reduce e par op m) (Node.transformL reduce e par op' m.erase) (fun U' => JP (InN U')) :=
  PSim.map (m.transformE_sim reduce e ho par heap hU) fun _ _ _ hp => hp.jointL

theorem ANode.transformR_sim {op : MapTransform R (K → V → Prog Q A (MapTransformResult V R))}
    {op' : MapTransform R (K → V → MapTransformResult V R)} (ho : op.Rel h op') (par : Par) (m : ANode c.n K V)
    (heap : Heap U s) (hU : U m) :
    PSim h U s (ANode.transformR reduce e par op m) (Node.transformR reduce e par op' m.erase) (fun U' => JP (InN U')) :=
  PSim.map (m.transformE_sim reduce e ho par heap hU) fun _ _ _ hp => hp.jointR

theorem JRes.flipE_sim {a : Prog Q A (JRes (ANode c.n K V) R)} {b : Res (JRes (Node c.n K V) R)}
    (hab : PSim h U s a b (fun U' => JP (InN U'))) : PSim h U s (JRes.flipE a) (JRes.flipR b) (fun U' => JP (InN U')) :=
  PSim.map hab fun _ _ _ hp => hp.flip

include ho

theorem ANode.twtS_sim (this : ANode c.n K V) (right : ASNode K V) (depth : Nat) (heap : Heap U s) (hU : U this)
    (hR : U (.S right)) :
    PSim h U s (this.twtS reduce e hash ops par right depth) (this.erase.twtS reduce e hash ops' par right.erase depth)
      (fun U' => JP (InN U')) := by
  refine ANode.recDepth (motive := fun m d => ∀ U s, Heap U s → U m → U (.S right) →
      PSim h U s (m.twtS reduce e hash ops par right d) (m.erase.twtS reduce e hash ops' par right.erase d)
        (fun U' => JP (InN U'))) ?_ ?_ ?_ this depth U s heap hU hR
  · intro t d U s heap hU hR
    exact t.twt_sim reduce hash ho right d heap hU hR
  · intro l d U s heap hU hR
    exact l.twtS_sim reduce hash ho right d heap hU hR
  · intro a bits vs extra d ih U s heap hU hR
    have hvs := heap.child hU
    unfold ANode.twtS Node.twtS
    rw [ANode.fold, ANode.foldAll_eq, ANode.erase_C, Node.fold, Node.foldAll_eq]
    refine PSim.bind (aflatLoop_sim reduce e rfl d bits extra vs heap (fun U' => JP (InN U')) ?_ ?_ ?_ ?_)
      fun U1 s1 acc acc' hsub1 heap1 q => PSim.al (JRes.afinish_sim heap1 q)
    · exact fun m hm U' s' hsub heap' => ih m hm U' s' heap' (hsub _ (hvs m hm)) (hsub _ hR)
    · exact fun m hm U' s' hsub heap' => m.transformL_sim reduce e ho.left par heap' (hsub _ (hvs m hm))
    · exact fun U' s' hsub heap' => PSim.mapOk (g := fun (y : TRes (SNode K V) R) => (y.map Node.S).jointR)
        (right.transformE_sim ho.right heap') fun _ _ _ hp =>
        (hp.map (P' := InN _) fun _ _ hm => hm.toN).jointR
    · exact fun o U' s' a b ho' hsub heap' hab =>
        JRes.aitemOpt_sim heap' ⟨fun m hm => hsub _ (hvs m (ho' m hm)), rfl⟩ (.some (hsub _ hR)) hab

theorem ANode.twtL_sim (this : ANode c.n K V) (right : ALNode K V) (depth : Nat) (heap : Heap U s) (hU : U this)
    (hR : U (.L right)) :
    PSim h U s (this.twtL reduce e hash ops par right depth) (this.erase.twtL reduce e hash ops' par right.erase depth)
      (fun U' => JP (InN U')) := by
  refine ANode.recDepth (motive := fun m d => ∀ U s, Heap U s → U m → U (.L right) →
      PSim h U s (m.twtL reduce e hash ops par right d) (m.erase.twtL reduce e hash ops' par right.erase d)
        (fun U' => JP (InN U'))) ?_ ?_ ?_ this depth U s heap hU hR
  · intro t d U s heap hU hR
    exact JRes.flipE_sim (right.twtS_sim reduce hash ho.flip t d heap hR hU)
  · intro l d U s heap hU hR
    exact l.twtL_sim reduce hash ho right d heap hU hR
  · intro a bits vs extra d ih U s heap hU hR
    have hvs := heap.child hU
    unfold ANode.twtL Node.twtL
    rw [ANode.fold, ANode.foldAll_eq, ANode.erase_C, Node.fold, Node.foldAll_eq]
    refine PSim.bind (aflatLoop_sim reduce e (by rw [ALNode.erase_key]) d bits extra vs heap (fun U' => JP (InN U')) ?_ ?_ ?_ ?_)
      fun U1 s1 acc acc' hsub1 heap1 q => PSim.al (JRes.afinish_sim heap1 q)
    · exact fun m hm U' s' hsub heap' => ih m hm U' s' heap' (hsub _ (hvs m hm)) (hsub _ hR)
    · exact fun m hm U' s' hsub heap' => m.transformL_sim reduce e ho.left par heap' (hsub _ (hvs m hm))
    · exact fun U' s' hsub heap' => PSim.mapOk (g := fun (y : TRes (LNext K V) R) => (y.map LNext.toNode).jointR)
        (right.transformE_sim reduce ho.right heap' (hsub _ hR)) fun _ _ _ hp =>
        (hp.map (P' := InN _) fun _ _ hm => hm.toN).jointR
    · exact fun o U' s' a b ho' hsub heap' hab =>
        JRes.aitemOpt_sim heap' ⟨fun m hm => hsub _ (hvs m (ho' m hm)), rfl⟩ (.some (hsub _ hR)) hab

omit [BEq K] in
theorem TwtOpsM.shortcut_sim :
    (∃ r r', ops.shortcut = some r ∧ ops'.shortcut = some r' ∧ ∀ U : ANode c.n K V → Prop, JP (InN U) r r') ∨
    ((ops.shortcut : Option (JRes (ANode c.n K V) R)) = none ∧ (ops'.shortcut : Option (JRes (Node c.n K V) R)) = none) := by
  obtain ⟨b, l, r⟩ := ops
  obtain ⟨b', l', r'⟩ := ops'
  obtain ⟨hb, hl, hr⟩ := ho
  simp only at hb hl hr
  cases hb <;> cases hl <;> cases hr <;>
    first
    | exact .inr ⟨rfl, rfl⟩
    | exact .inl ⟨_, _, rfl, rfl, fun _ => .unchangedL _⟩
    | exact .inl ⟨_, _, rfl, rfl, fun _ => .unchangedR _⟩
    | exact .inl ⟨_, _, rfl, rfl, fun _ => .removed _⟩

theorem ANode.twt_sim (this right : ANode c.n K V) (depth : Nat) (heap : Heap U s) (hU : U this) (hR : U right) :
    PSim h U s (this.twt reduce e hash ops par right depth) (this.erase.twt reduce e hash ops' par right.erase depth)
      (fun U' => JP (InN U')) := by
  refine ANode.recDepth (motive := fun m d => ∀ (right : ANode c.n K V) U s, Heap U s → U m → U right →
      PSim h U s (m.twt reduce e hash ops par right d) (m.erase.twt reduce e hash ops' par right.erase d)
        (fun U' => JP (InN U'))) ?_ ?_ ?_ this depth right U s heap hU hR
  · intro t d right U s heap hU hR
    cases right with
    | S r => exact t.twt_sim reduce hash ho r d heap hU hR
    | L r => exact JRes.flipE_sim (r.twtS_sim reduce hash ho.flip t d heap hR hU)
    | C a b v z =>
      rw [ANode.erase_C]
      exact ANode.erase_C a b v z ▸ JRes.flipE_sim ((ANode.C a b v z).twtS_sim reduce e hash ho.flip par t d heap hR hU)
  · intro l d right U s heap hU hR
    cases right with
    | S r => exact l.twtS_sim reduce hash ho r d heap hU hR
    | L r => exact l.twtL_sim reduce hash ho r d heap hU hR
    | C a b v z =>
      rw [ANode.erase_C]
      exact ANode.erase_C a b v z ▸ JRes.flipE_sim ((ANode.C a b v z).twtL_sim reduce e hash ho.flip par l d heap hR hU)
  · intro a bits vs extra d ih right U s heap hU hR
    have hvs := heap.child hU
    unfold ANode.twt Node.twt
    rw [ANode.fold, ANode.foldAll_eq, ANode.erase_C, Node.fold, Node.foldAll_eq]
    cases right with
    | S r =>
      show PSim h U s ((ANode.C a bits _ extra).twtS reduce e hash ops par r d)
        ((Node.C bits _ extra).twtS reduce e hash ops' par r.erase d) _
      simp only [List.map_map, Function.comp_def, List.map_id']
      rw [← ANode.erase_C a]
      exact ANode.twtS_sim reduce e hash ho par _ r d heap hU hR
    | L r =>
      show PSim h U s ((ANode.C a bits _ extra).twtL reduce e hash ops par r d)
        ((Node.C bits _ extra).twtL reduce e hash ops' par r.erase d) _
      simp only [List.map_map, Function.comp_def, List.map_id']
      rw [← ANode.erase_C a]
      exact ANode.twtL_sim reduce e hash ho par _ r d heap hU hR
    | C a2 b2 rs z2 =>
      have hrs := heap.child hR
      rw [ANode.erase_C]
      show PSim h U s (atwtCC reduce e ops par bits _ extra ⟨b2, rs, z2⟩)
        (twtCC reduce e ops' par bits _ extra ⟨b2, rs.map ANode.erase, z2⟩) _
      unfold atwtCC twtCC
      rcases TwtOpsM.shortcut_sim (c := c) ho with ⟨r, r', h1, h2, hr⟩ | ⟨h1, h2⟩
      · rw [h1, h2]; exact PSim.pure heap (hr U)
      · rw [h1, h2]
        refine PSim.bind (abothLoop_sim reduce e par bits extra vs b2 z2 rs heap (fun U' => JP (InN U')) ?_ ?_ ?_ ?_)
          fun U1 s1 acc acc' hsub1 heap1 q => PSim.al (JRes.afinish_sim heap1 q)
        · exact fun m hm r hr U' s' hsub heap' => ih m hm r U' s' heap' (hsub _ (hvs m hm)) (hsub _ (hrs r hr))
        · exact fun m hm U' s' hsub heap' => m.transformL_sim reduce e ho.left par heap' (hsub _ (hvs m hm))
        · exact fun r hr U' s' hsub heap' => r.transformR_sim reduce e ho.right par heap' (hsub _ (hrs r hr))
        · exact fun o p U' s' a b ho' hp' hsub heap' hab =>
            JRes.aitemOpt_sim heap' ⟨fun m hm => hsub _ (hvs m (ho' m hm)), rfl⟩
              ⟨fun m hm => hsub _ (hrs m (hp' m hm)), rfl⟩ hab

end
end HT
