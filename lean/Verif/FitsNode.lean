import Verif.FitsLoop
/-! # What bulk and joint operations on nodes point to, whatever the closures do -/
namespace HT

variable {K V L W S X R : Type} {n : Nat} {Q : Type} {A : Q → Type}

/-! ### transform and transmute -/

theorem ANode.transformE_fits (reduce : R → R → R) (e : R)
    {op : MapTransform R (K → V → Prog Q A (MapTransformResult V R))}
    (ho : op.Still) (par : Par) (m : ANode n K V)
    {U : ANode n K V → Prop} {s : Nat} (heap : Heap U s) (hU : U m) :
    Fits U s (m.transformE reduce e op par) (fun U' => TP (InN U')) := by
  unfold ANode.transformE
  suffices H : ∀ (m : ANode n K V) (d : Nat) U s, Heap U s → U m →
      Fits U s (ANode.fold _ _ (transformEC reduce e op par) m d)
        (fun U' => TP (InN U')) from H m 0 U s heap hU
  clear heap hU m
  intro m d
  refine ANode.recDepth (motive := fun m d => ∀ U s, Heap U s → U m →
      Fits U s (ANode.fold _ _ (transformEC reduce e op par) m d)
        (fun U' => TP (InN U'))) ?_ ?_ ?_ m d
  · intro t d U s heap hU
    rw [ANode.fold]
    exact Fits.map (t.transformE_fits ho heap) fun _ _ _ hp => ⟨_, hp.map fun _ _ hm => hm.toN⟩
  · intro l d U s heap hU
    rw [ANode.fold]
    exact Fits.map (l.transformE_fits reduce ho heap hU) fun _ _ _ hp => ⟨_, hp.map fun _ _ hm => hm.toN⟩
  · intro a bits vs extra d ih U s heap hU
    have hvs := heap.child hU
    rw [ANode.fold, ANode.foldAll_eq]
    cases op with
    | unchanged r => exact Fits.pure heap (.unchanged r)
    | removed r => exact Fits.pure heap (.removed r)
    | generic F =>
      refine Fits.bind (AAcc.gatherE_fits reduce e par heap fun i U1 s1 hsub1 heap1 => ?_) fun U1 s1 acc acc' hsub1 heap1 q => ?_
      · rw [Bia.atBitIndex_mapped]
        cases hat : (Bia.mk bits vs extra).atBitIndex i with
        | panic p => exact trivial
        | diverge => exact trivial
        | ok child =>
          cases child with
          | error err => exact Fits.pure heap1 .skip
          | ok m0 =>
            have hm0 := Bia.atBitIndex_mem hat
            show Fits U1 s1 (ANode.fold _ _ _ m0 (d + 1) >>= fun res => Pure.pure (TRes.aitem m0 res)) _
            refine Fits.bind (ih m0 hm0 U1 s1 heap1 (hsub1 _ (hvs m0 hm0))) fun U2 s2 r r' hsub2 heap2 hr => ?_
            cases hr with
            | unchanged r => exact Fits.pure heap2 (.put r _ _ ⟨hsub2 _ (hsub1 _ (hvs m0 hm0)), rfl⟩)
            | node r hm => exact Fits.pure heap2 (.put r _ _ hm)
            | removed r => exact Fits.pure heap2 (.drop r _ _)
      · exact Fits.al (TRes.afinish_sim heap1 q)

theorem ANode.transmuteE_fits (reduce : R → R → R) (e : R)
    {op : MapTransmute R (K → V → Prog Q A (MapTransmuteResult S X R))}
    (ho : op.Still) (m : ANode n K V)
    {U : ANode n S X → Prop} {s : Nat} (heap : Heap U s) :
    Fits U s (m.transmuteE reduce e op) (fun U' => XP (InN U')) := by
  unfold ANode.transmuteE
  suffices H : ∀ (m : ANode n K V) (d : Nat) (U : ANode n S X → Prop) s, Heap U s →
      Fits U s (ANode.fold _ _ (transmuteEC reduce e op) m d)
        (fun U' => XP (InN U')) from H m 0 U s heap
  clear heap m
  intro m d
  refine ANode.recDepth (motive := fun m d => ∀ (U : ANode n S X → Prop) s, Heap U s →
      Fits U s (ANode.fold _ _ (transmuteEC reduce e op) m d)
        (fun U' => XP (InN U'))) ?_ ?_ ?_ m d
  · intro t d U s heap
    rw [ANode.fold]
    exact Fits.map (t.transmuteE_fits ho heap) fun _ _ _ hp => ⟨_, hp.map fun _ _ hm => hm.toN⟩
  · intro l d U s heap
    rw [ANode.fold]
    exact Fits.map (l.transmuteE_fits reduce ho heap) fun _ _ _ hp => ⟨_, hp.map fun _ _ hm => hm.toN⟩
  · intro a bits vs extra d ih U s heap
    rw [ANode.fold, ANode.foldAll_eq]
    cases op with
    | removed r => exact Fits.pure heap (.removed r)
    | generic F =>
      refine Fits.bind (AAcc.gatherE_fits reduce e .sequential heap fun i U1 s1 hsub1 heap1 => ?_)
        fun U1 s1 acc acc' hsub1 heap1 q => ?_
      · rw [Bia.atBitIndex_mapped]
        cases hat : (Bia.mk bits vs extra).atBitIndex i with
        | panic p => exact trivial
        | diverge => exact trivial
        | ok child =>
          cases child with
          | error err => exact Fits.pure heap1 .skip
          | ok m0 =>
            have hm0 := Bia.atBitIndex_mem hat
            show Fits U1 s1 (ANode.fold _ _ _ m0 (d + 1) >>= fun res => Pure.pure (XRes.aitem res)) _
            refine Fits.bind (ih m0 hm0 U1 s1 heap1) fun U2 s2 r r' hsub2 heap2 hr => ?_
            cases hr with
            | node r hm => exact Fits.pure heap2 (.put r _ _ hm)
            | removed r => exact Fits.pure heap2 (.drop r _ _)
      · exact Fits.al (XRes.afinishAssert_sim heap1 q)

variable {c : Cfg} (x : Cross c K L) (reduce : R → R → R) (e : R)

/-! ### transform_with_transmuted, right operand a list or single node -/

section
variable {U : ANode c.n K V → Prop} {s : Nat} {ops : TwmOpsM Q A K V L W R}
  (ho : ops.Still) (par : Par)
include ho

theorem ANode.twmS_fits (this : ANode c.n K V) (right : ASNode L W) (depth : Nat) (heap : Heap U s) (hU : U this) :
    Fits U s (this.twmS x reduce e ops par right depth)
      (fun U' => TP (InN U')) := by
  refine ANode.recDepth (motive := fun m d => ∀ U s, Heap U s → U m →
      Fits U s (m.twmS x reduce e ops par right d)
        (fun U' => TP (InN U'))) ?_ ?_ ?_ this depth U s heap hU
  · intro t d U s heap hU
    exact t.twm_fits x reduce ho right d heap hU
  · intro l d U s heap hU
    exact l.twmS_fits x reduce ho right d heap hU
  · intro a bits vs extra d ih U s heap hU
    have hvs := heap.child hU
    unfold ANode.twmS
    rw [ANode.fold, ANode.foldAll_eq]
    refine Fits.bind (aflatLoop_fits reduce e d bits extra vs heap (fun U' => TP (InN U')) ?_ ?_ ?_ ?_)
      fun U1 s1 acc acc' hsub1 heap1 q => Fits.al (TRes.afinish_sim heap1 q)
    · exact fun m hm U' s' hsub heap' => ih m hm U' s' heap' (hsub _ (hvs m hm))
    · exact fun m hm U' s' hsub heap' => m.transformE_fits reduce e ho.left par heap' (hsub _ (hvs m hm))
    · exact fun U' s' hsub heap' => Fits.map 
        (right.transmuteE_fits ho.right heap') fun _ _ _ hp =>
        ⟨_, (hp.map (P' := InN _) fun _ _ hm => hm.toN).toT⟩
    · exact fun o U' s' a b ho' hsub heap' hab =>
        ⟨_, TRes.aitemOpt_sim heap' true ⟨fun m hm => hsub _ (hvs m (ho' m hm)), rfl⟩ hab⟩

theorem ANode.twmL_fits (this : ANode c.n K V) (right : ALNode L W) (depth : Nat) (heap : Heap U s) (hU : U this) :
    Fits U s (this.twmL x reduce e ops par right depth)
      (fun U' => TP (InN U')) := by
  refine ANode.recDepth (motive := fun m d => ∀ U s, Heap U s → U m →
      Fits U s (m.twmL x reduce e ops par right d)
        (fun U' => TP (InN U'))) ?_ ?_ ?_ this depth U s heap hU
  · intro t d U s heap hU
    exact right.mwtS_fits x.flip reduce ho.flip t d heap hU
  · intro l d U s heap hU
    exact l.twmL_fits x reduce ho right d heap hU
  · intro a bits vs extra d ih U s heap hU
    have hvs := heap.child hU
    unfold ANode.twmL
    rw [ANode.fold, ANode.foldAll_eq]
    refine Fits.bind (aflatLoop_fits reduce e d bits extra vs heap (fun U' => TP (InN U')) ?_ ?_ ?_ ?_)
      fun U1 s1 acc acc' hsub1 heap1 q => Fits.al (TRes.afinish_sim heap1 q)
    · exact fun m hm U' s' hsub heap' => ih m hm U' s' heap' (hsub _ (hvs m hm))
    · exact fun m hm U' s' hsub heap' => m.transformE_fits reduce e ho.left par heap' (hsub _ (hvs m hm))
    · exact fun U' s' hsub heap' => Fits.map 
        (right.transmuteE_fits reduce ho.right heap') fun _ _ _ hp =>
        ⟨_, (hp.map (P' := InN _) fun _ _ hm => hm.toN).toT⟩
    · exact fun o U' s' a b ho' hsub heap' hab =>
        ⟨_, TRes.aitemOpt_sim heap' false ⟨fun m hm => hsub _ (hvs m (ho' m hm)), rfl⟩ hab⟩

end

/-! ### transmute_with_transformed, right operand a list or single node -/

section
variable {U : ANode c.n L W → Prop} {s : Nat} {ops : MwtOpsM Q A K V L W R}
  (ho : ops.Still)
include ho

theorem ANode.mwtS_fits (this : ANode c.n K V) (right : ASNode L W) (depth : Nat) (heap : Heap U s)
    (hU : U (.S right)) :
    Fits U s (this.mwtS x reduce e ops right depth)
      (fun U' => TP (InN U')) := by
  refine ANode.recDepth (motive := fun m d => ∀ U s, Heap U s → U (.S right) →
      Fits U s (m.mwtS x reduce e ops right d)
        (fun U' => TP (InN U'))) ?_ ?_ ?_ this depth U s heap hU
  · intro t d U s heap hU
    exact t.mwt_fits x reduce ho right d heap hU
  · intro l d U s heap hU
    exact l.mwtS_fits x reduce ho right d heap hU
  · intro a bits vs extra d ih U s heap hU
    unfold ANode.mwtS
    rw [ANode.fold, ANode.foldAll_eq]
    refine Fits.bind (aflatLoop_fits reduce e d bits extra vs heap (fun U' => TP (InN U')) ?_ ?_ ?_ ?_)
      fun U1 s1 acc acc' hsub1 heap1 q => Fits.al (TRes.afinish_sim heap1 q)
    · exact fun m hm U' s' hsub heap' => ih m hm U' s' heap' (hsub _ hU)
    · exact fun m hm U' s' hsub heap' => Fits.map (m.transmuteE_fits reduce e ho.left heap') fun _ _ _ hp => ⟨_, hp.toT⟩
    · exact fun U' s' hsub heap' => Fits.map 
        (right.transformE_fits ho.right heap') fun _ _ _ hp => ⟨_, hp.map (P' := InN _) fun _ _ hm => hm.toN⟩
    · exact fun o U' s' a b ho' hsub heap' hab =>
        ⟨_, TRes.aitemOpt_sim heap' true (.some (hsub _ hU)) hab⟩

theorem ANode.mwtL_fits (this : ANode c.n K V) (right : ALNode L W) (depth : Nat) (heap : Heap U s)
    (hU : U (.L right)) :
    Fits U s (this.mwtL x reduce e ops right depth)
      (fun U' => TP (InN U')) := by
  refine ANode.recDepth (motive := fun m d => ∀ U s, Heap U s → U (.L right) →
      Fits U s (m.mwtL x reduce e ops right d)
        (fun U' => TP (InN U'))) ?_ ?_ ?_ this depth U s heap hU
  · intro t d U s heap hU
    exact right.twmS_fits x.flip reduce ho.flip t d heap hU
  · intro l d U s heap hU
    exact right.twmL_fits x.flip reduce ho.flip l d heap hU
  · intro a bits vs extra d ih U s heap hU
    unfold ANode.mwtL
    rw [ANode.fold, ANode.foldAll_eq]
    refine Fits.bind (aflatLoop_fits reduce e d bits extra vs heap (fun U' => TP (InN U')) ?_ ?_ ?_ ?_)
      fun U1 s1 acc acc' hsub1 heap1 q => Fits.al (TRes.afinish_sim heap1 q)
    · exact fun m hm U' s' hsub heap' => ih m hm U' s' heap' (hsub _ hU)
    · exact fun m hm U' s' hsub heap' => Fits.map (m.transmuteE_fits reduce e ho.left heap') fun _ _ _ hp => ⟨_, hp.toT⟩
    · exact fun U' s' hsub heap' => Fits.map 
        (right.transformE_fits reduce ho.right heap' (hsub _ hU)) fun _ _ _ hp => ⟨_, hp.map (P' := InN _) fun _ _ hm => hm.toN⟩
    · exact fun o U' s' a b ho' hsub heap' hab =>
        ⟨_, TRes.aitemOpt_sim heap' false (.some (hsub _ hU)) hab⟩

end

/-! ### transform_with_transmuted -/

section
variable {U : ANode c.n K V → Prop} {s : Nat} {ops : TwmOpsM Q A K V L W R}
  (ho : ops.Still) (par : Par)
include ho

theorem ANode.twm_fits (this : ANode c.n K V) (right : ANode c.n L W) (depth : Nat) (heap : Heap U s) (hU : U this) :
    Fits U s (this.twm x reduce e ops par right depth)
      (fun U' => TP (InN U')) := by
  refine ANode.recDepth (motive := fun m d => ∀ (right : ANode c.n L W) U s, Heap U s → U m →
      Fits U s (m.twm x reduce e ops par right d)
        (fun U' => TP (InN U'))) ?_ ?_ ?_ this depth right U s heap hU
  · intro t d right U s heap hU
    cases right with
    | S r => exact t.twm_fits x reduce ho r d heap hU
    | L r => exact r.mwtS_fits x.flip reduce ho.flip t d heap hU
    | C a b v z =>
      exact (ANode.C a b v z).mwtS_fits x.flip reduce e ho.flip t d heap hU
  · intro l d right U s heap hU
    cases right with
    | S r => exact l.twmS_fits x reduce ho r d heap hU
    | L r => exact l.twmL_fits x reduce ho r d heap hU
    | C a b v z =>
      exact (ANode.C a b v z).mwtL_fits x.flip reduce e ho.flip l d heap hU
  · intro a bits vs extra d ih right U s heap hU
    have hvs := heap.child hU
    unfold ANode.twm
    rw [ANode.fold, ANode.foldAll_eq]
    cases right with
    | S r =>
      show Fits U s ((ANode.C a bits _ extra).twmS x reduce e ops par r d) _
      simp only [List.map_map, Function.comp_def, List.map_id']
      exact ANode.twmS_fits x reduce e ho par _ r d heap hU
    | L r =>
      show Fits U s ((ANode.C a bits _ extra).twmL x reduce e ops par r d) _
      simp only [List.map_map, Function.comp_def, List.map_id']
      exact ANode.twmL_fits x reduce e ho par _ r d heap hU
    | C a2 b2 rs z2 =>
      refine Fits.bind (abothLoop_fits reduce e .sequential bits extra vs b2 z2 rs heap (fun U' => TP (InN U')) ?_ ?_ ?_ ?_)
        fun U1 s1 acc acc' hsub1 heap1 q => Fits.al (TRes.afinish_sim heap1 q)
      · exact fun m hm r hr U' s' hsub heap' => ih m hm r U' s' heap' (hsub _ (hvs m hm))
      · exact fun m hm U' s' hsub heap' => m.transformE_fits reduce e ho.left par heap' (hsub _ (hvs m hm))
      · exact fun r hr U' s' hsub heap' => Fits.map (r.transmuteE_fits reduce e ho.right heap') fun _ _ _ hp => ⟨_, hp.toT⟩
      · exact fun o p U' s' a b ho' hp' hsub heap' hab =>
          ⟨_, TRes.aitemOpt_sim heap' true ⟨fun m hm => hsub _ (hvs m (ho' m hm)), rfl⟩ hab⟩

end

/-! ### transmute_with_transformed -/

section
variable {U : ANode c.n L W → Prop} {s : Nat} {ops : MwtOpsM Q A K V L W R}
  (ho : ops.Still) (par : Par)
include ho

theorem ANode.mwt_fits (this : ANode c.n K V) (right : ANode c.n L W) (depth : Nat) (heap : Heap U s) (hU : U right) :
    Fits U s (this.mwt x reduce e ops par right depth)
      (fun U' => TP (InN U')) := by
  refine ANode.recDepth (motive := fun m d => ∀ (right : ANode c.n L W) U s, Heap U s → U right →
      Fits U s (m.mwt x reduce e ops par right d)
        (fun U' => TP (InN U'))) ?_ ?_ ?_ this depth right U s heap hU
  · intro t d right U s heap hU
    cases right with
    | S r => exact t.mwt_fits x reduce ho r d heap hU
    | L r => exact r.twmS_fits x.flip reduce ho.flip t d heap hU
    | C a b v z =>
      exact (ANode.C a b v z).twmS_fits x.flip reduce e ho.flip par t d heap hU
  · intro l d right U s heap hU
    cases right with
    | S r => exact l.mwtS_fits x reduce ho r d heap hU
    | L r => exact r.twmL_fits x.flip reduce ho.flip l d heap hU
    | C a b v z =>
      exact (ANode.C a b v z).twmL_fits x.flip reduce e ho.flip par l d heap hU
  · intro a bits vs extra d ih right U s heap hU
    unfold ANode.mwt
    rw [ANode.fold, ANode.foldAll_eq]
    cases right with
    | S r =>
      show Fits U s ((ANode.C a bits _ extra).mwtS x reduce e ops r d) _
      simp only [List.map_map, Function.comp_def, List.map_id']
      exact ANode.mwtS_fits x reduce e ho _ r d heap hU
    | L r =>
      show Fits U s ((ANode.C a bits _ extra).mwtL x reduce e ops r d) _
      simp only [List.map_map, Function.comp_def, List.map_id']
      exact ANode.mwtL_fits x reduce e ho _ r d heap hU
    | C a2 b2 rs z2 =>
      have hrs := heap.child hU
      refine Fits.bind (abothLoop_fits reduce e .sequential bits extra vs b2 z2 rs heap (fun U' => TP (InN U')) ?_ ?_ ?_ ?_)
        fun U1 s1 acc acc' hsub1 heap1 q => Fits.al (TRes.afinish_sim heap1 q)
      · exact fun m hm r hr U' s' hsub heap' => ih m hm r U' s' heap' (hsub _ (hrs r hr))
      · exact fun m hm U' s' hsub heap' => Fits.map (m.transmuteE_fits reduce e ho.left heap') fun _ _ _ hp => ⟨_, hp.toT⟩
      · exact fun r hr U' s' hsub heap' => r.transformE_fits reduce e ho.right par heap' (hsub _ (hrs r hr))
      · exact fun o p U' s' a b ho' hp' hsub heap' hab =>
          ⟨_, TRes.aitemOpt_sim heap' true ⟨fun m hm => hsub _ (hrs m (hp' m hm)), rfl⟩ hab⟩

end

/-! ### transmute_with_transmuted -/

section
variable {U : ANode c.n S X → Prop} {s : Nat} {ops : MwmOpsM Q A K V L W S X R}
  (ho : ops.Still)
include ho

theorem ANode.mwmS_fits (this : ANode c.n K V) (right : ASNode L W) (depth : Nat) (heap : Heap U s) :
    Fits U s (this.mwmS x reduce e ops right depth)
      (fun U' => XP (InN U')) := by
  refine ANode.recDepth (motive := fun m d => ∀ (U : ANode c.n S X → Prop) s, Heap U s →
      Fits U s (m.mwmS x reduce e ops right d)
        (fun U' => XP (InN U'))) ?_ ?_ ?_ this depth U s heap
  · intro t d U s heap
    exact t.mwm_fits x reduce ho right d heap
  · intro l d U s heap
    exact l.mwmS_fits x reduce ho right d heap
  · intro a bits vs extra d ih U s heap
    unfold ANode.mwmS
    rw [ANode.fold, ANode.foldAll_eq]
    refine Fits.bind (aflatLoop_fits reduce e d bits extra vs heap (fun U' => XP (InN U')) ?_ ?_ ?_ ?_)
      fun U1 s1 acc acc' hsub1 heap1 q => Fits.al (XRes.afinish_sim heap1 q)
    · exact fun m hm U' s' hsub heap' => ih m hm U' s' heap'
    · exact fun m hm U' s' hsub heap' => m.transmuteE_fits reduce e ho.left heap'
    · exact fun U' s' hsub heap' => Fits.map 
        (right.transmuteE_fits ho.right heap') fun _ _ _ hp => ⟨_, hp.map (P' := InN _) fun _ _ hm => hm.toN⟩
    · exact fun o U' s' a b ho' hsub heap' hab => ⟨_, XRes.aitem_sim heap' hab⟩

theorem ANode.mwmL_fits (this : ANode c.n K V) (right : ALNode L W) (depth : Nat) (heap : Heap U s) :
    Fits U s (this.mwmL x reduce e ops right depth)
      (fun U' => XP (InN U')) := by
  refine ANode.recDepth (motive := fun m d => ∀ (U : ANode c.n S X → Prop) s, Heap U s →
      Fits U s (m.mwmL x reduce e ops right d)
        (fun U' => XP (InN U'))) ?_ ?_ ?_ this depth U s heap
  · intro t d U s heap
    exact right.mwmS_fits x.flip reduce ho.flip t d heap
  · intro l d U s heap
    exact l.mwmL_fits x reduce ho right d heap
  · intro a bits vs extra d ih U s heap
    unfold ANode.mwmL
    rw [ANode.fold, ANode.foldAll_eq]
    refine Fits.bind (aflatLoop_fits reduce e d bits extra vs heap (fun U' => XP (InN U')) ?_ ?_ ?_ ?_)
      fun U1 s1 acc acc' hsub1 heap1 q => Fits.al (XRes.afinish_sim heap1 q)
    · exact fun m hm U' s' hsub heap' => ih m hm U' s' heap'
    · exact fun m hm U' s' hsub heap' => m.transmuteE_fits reduce e ho.left heap'
    · exact fun U' s' hsub heap' => Fits.map 
        (right.transmuteE_fits reduce ho.right heap') fun _ _ _ hp => ⟨_, hp.map (P' := InN _) fun _ _ hm => hm.toN⟩
    · exact fun o U' s' a b ho' hsub heap' hab => ⟨_, XRes.aitem_sim heap' hab⟩

theorem ANode.mwm_fits (this : ANode c.n K V) (right : ANode c.n L W) (depth : Nat) (heap : Heap U s) :
    Fits U s (this.mwm x reduce e ops right depth)
      (fun U' => XP (InN U')) := by
  refine ANode.recDepth (motive := fun m d => ∀ (right : ANode c.n L W) (U : ANode c.n S X → Prop) s, Heap U s →
      Fits U s (m.mwm x reduce e ops right d)
        (fun U' => XP (InN U'))) ?_ ?_ ?_ this depth right U s heap
  · intro t d right U s heap
    cases right with
    | S r => exact t.mwm_fits x reduce ho r d heap
    | L r => exact r.mwmS_fits x.flip reduce ho.flip t d heap
    | C a b v z =>
      exact (ANode.C a b v z).mwmS_fits x.flip reduce e ho.flip t d heap
  · intro l d right U s heap
    cases right with
    | S r => exact l.mwmS_fits x reduce ho r d heap
    | L r => exact l.mwmL_fits x reduce ho r d heap
    | C a b v z =>
      exact (ANode.C a b v z).mwmL_fits x.flip reduce e ho.flip l d heap
  · intro a bits vs extra d ih right U s heap
    unfold ANode.mwm
    rw [ANode.fold, ANode.foldAll_eq]
    cases right with
    | S r =>
      show Fits U s ((ANode.C a bits _ extra).mwmS x reduce e ops r d) _
      simp only [List.map_map, Function.comp_def, List.map_id']
      exact ANode.mwmS_fits x reduce e ho _ r d heap
    | L r =>
      show Fits U s ((ANode.C a bits _ extra).mwmL x reduce e ops r d) _
      simp only [List.map_map, Function.comp_def, List.map_id']
      exact ANode.mwmL_fits x reduce e ho _ r d heap
    | C a2 b2 rs z2 =>
      refine Fits.bind (abothLoop_fits reduce e .sequential bits extra vs b2 z2 rs heap (fun U' => XP (InN U')) ?_ ?_ ?_ ?_)
        fun U1 s1 acc acc' hsub1 heap1 q => Fits.al (XRes.afinish_sim heap1 q)
      · exact fun m hm r hr U' s' hsub heap' => ih m hm r U' s' heap'
      · exact fun m hm U' s' hsub heap' => m.transmuteE_fits reduce e ho.left heap'
      · exact fun r hr U' s' hsub heap' => r.transmuteE_fits reduce e ho.right heap'
      · exact fun o p U' s' a b ho' hp' hsub heap' hab => ⟨_, XRes.aitem_sim heap' hab⟩

end

/-! ### transform_with_transformed -/

section
variable [BEq K] (hash : K → BitVec c.w) {U : ANode c.n K V → Prop} {s : Nat} {ops : TwtOpsM Q A K V R}
  (ho : ops.Still) (par : Par)

theorem ANode.transformL_fits {op : MapTransform R (K → V → Prog Q A (MapTransformResult V R))}
    (ho : op.Still) (par : Par) (m : ANode c.n K V)
    (heap : Heap U s) (hU : U m) :
    Fits U s (ANode.transformL reduce e par op m) (fun U' => JP (InN U')) :=
  Fits.map (m.transformE_fits reduce e ho par heap hU) fun _ _ _ hp => ⟨_, hp.jointL⟩

theorem ANode.transformR_fits {op : MapTransform R (K → V → Prog Q A (MapTransformResult V R))}
    (ho : op.Still) (par : Par) (m : ANode c.n K V)
    (heap : Heap U s) (hU : U m) :
    Fits U s (ANode.transformR reduce e par op m) (fun U' => JP (InN U')) :=
  Fits.map (m.transformE_fits reduce e ho par heap hU) fun _ _ _ hp => ⟨_, hp.jointR⟩

theorem JRes.flipE_fits {a : Prog Q A (JRes (ANode c.n K V) R)}
    (hab : Fits U s a (fun U' => JP (InN U'))) : Fits U s (JRes.flipE a) (fun U' => JP (InN U')) :=
  Fits.map hab fun _ _ _ hp => ⟨_, hp.flip⟩

include ho

theorem ANode.twtS_fits (this : ANode c.n K V) (right : ASNode K V) (depth : Nat) (heap : Heap U s) (hU : U this)
    (hR : U (.S right)) :
    Fits U s (this.twtS reduce e hash ops par right depth)
      (fun U' => JP (InN U')) := by
  refine ANode.recDepth (motive := fun m d => ∀ U s, Heap U s → U m → U (.S right) →
      Fits U s (m.twtS reduce e hash ops par right d)
        (fun U' => JP (InN U'))) ?_ ?_ ?_ this depth U s heap hU hR
  · intro t d U s heap hU hR
    exact t.twt_fits reduce hash ho right d heap hU hR
  · intro l d U s heap hU hR
    exact l.twtS_fits reduce hash ho right d heap hU hR
  · intro a bits vs extra d ih U s heap hU hR
    have hvs := heap.child hU
    unfold ANode.twtS
    rw [ANode.fold, ANode.foldAll_eq]
    refine Fits.bind (aflatLoop_fits reduce e d bits extra vs heap (fun U' => JP (InN U')) ?_ ?_ ?_ ?_)
      fun U1 s1 acc acc' hsub1 heap1 q => Fits.al (JRes.afinish_sim heap1 q)
    · exact fun m hm U' s' hsub heap' => ih m hm U' s' heap' (hsub _ (hvs m hm)) (hsub _ hR)
    · exact fun m hm U' s' hsub heap' => m.transformL_fits reduce e ho.left par heap' (hsub _ (hvs m hm))
    · exact fun U' s' hsub heap' => Fits.map 
        (right.transformE_fits ho.right heap') fun _ _ _ hp =>
        ⟨_, (hp.map (P' := InN _) fun _ _ hm => hm.toN).jointR⟩
    · exact fun o U' s' a b ho' hsub heap' hab =>
        ⟨_, JRes.aitemOpt_sim heap' ⟨fun m hm => hsub _ (hvs m (ho' m hm)), rfl⟩ (.some (hsub _ hR)) hab⟩

theorem ANode.twtL_fits (this : ANode c.n K V) (right : ALNode K V) (depth : Nat) (heap : Heap U s) (hU : U this)
    (hR : U (.L right)) :
    Fits U s (this.twtL reduce e hash ops par right depth)
      (fun U' => JP (InN U')) := by
  refine ANode.recDepth (motive := fun m d => ∀ U s, Heap U s → U m → U (.L right) →
      Fits U s (m.twtL reduce e hash ops par right d)
        (fun U' => JP (InN U'))) ?_ ?_ ?_ this depth U s heap hU hR
  · intro t d U s heap hU hR
    exact JRes.flipE_fits (right.twtS_fits reduce hash ho.flip t d heap hR hU)
  · intro l d U s heap hU hR
    exact l.twtL_fits reduce hash ho right d heap hU hR
  · intro a bits vs extra d ih U s heap hU hR
    have hvs := heap.child hU
    unfold ANode.twtL
    rw [ANode.fold, ANode.foldAll_eq]
    refine Fits.bind (aflatLoop_fits reduce e d bits extra vs heap (fun U' => JP (InN U')) ?_ ?_ ?_ ?_)
      fun U1 s1 acc acc' hsub1 heap1 q => Fits.al (JRes.afinish_sim heap1 q)
    · exact fun m hm U' s' hsub heap' => ih m hm U' s' heap' (hsub _ (hvs m hm)) (hsub _ hR)
    · exact fun m hm U' s' hsub heap' => m.transformL_fits reduce e ho.left par heap' (hsub _ (hvs m hm))
    · exact fun U' s' hsub heap' => Fits.map 
        (right.transformE_fits reduce ho.right heap' (hsub _ hR)) fun _ _ _ hp =>
        ⟨_, (hp.map (P' := InN _) fun _ _ hm => hm.toN).jointR⟩
    · exact fun o U' s' a b ho' hsub heap' hab =>
        ⟨_, JRes.aitemOpt_sim heap' ⟨fun m hm => hsub _ (hvs m (ho' m hm)), rfl⟩ (.some (hsub _ hR)) hab⟩

omit [BEq K] ho in
theorem TwtOpsM.shortcut_fits {r : JRes (ANode c.n K V) R} (hr : ops.shortcut = some r) :
    ∃ r' : JRes (Node c.n K V) R, ∀ U : ANode c.n K V → Prop, JP (InN U) r r' := by
  obtain ⟨b, l, q⟩ := ops
  cases b <;> cases l <;> cases q <;> cases hr <;>
    first
    | exact ⟨_, fun _ => .unchangedL _⟩
    | exact ⟨_, fun _ => .unchangedR _⟩
    | exact ⟨_, fun _ => .removed _⟩

theorem ANode.twt_fits (this right : ANode c.n K V) (depth : Nat) (heap : Heap U s) (hU : U this) (hR : U right) :
    Fits U s (this.twt reduce e hash ops par right depth)
      (fun U' => JP (InN U')) := by
  refine ANode.recDepth (motive := fun m d => ∀ (right : ANode c.n K V) U s, Heap U s → U m → U right →
      Fits U s (m.twt reduce e hash ops par right d)
        (fun U' => JP (InN U'))) ?_ ?_ ?_ this depth right U s heap hU hR
  · intro t d right U s heap hU hR
    cases right with
    | S r => exact t.twt_fits reduce hash ho r d heap hU hR
    | L r => exact JRes.flipE_fits (r.twtS_fits reduce hash ho.flip t d heap hR hU)
    | C a b v z =>
      exact JRes.flipE_fits ((ANode.C a b v z).twtS_fits reduce e hash ho.flip par t d heap hR hU)
  · intro l d right U s heap hU hR
    cases right with
    | S r => exact l.twtS_fits reduce hash ho r d heap hU hR
    | L r => exact l.twtL_fits reduce hash ho r d heap hU hR
    | C a b v z =>
      exact JRes.flipE_fits ((ANode.C a b v z).twtL_fits reduce e hash ho.flip par l d heap hR hU)
  · intro a bits vs extra d ih right U s heap hU hR
    have hvs := heap.child hU
    unfold ANode.twt
    rw [ANode.fold, ANode.foldAll_eq]
    cases right with
    | S r =>
      show Fits U s ((ANode.C a bits _ extra).twtS reduce e hash ops par r d) _
      simp only [List.map_map, Function.comp_def, List.map_id']
      exact ANode.twtS_fits reduce e hash ho par _ r d heap hU hR
    | L r =>
      show Fits U s ((ANode.C a bits _ extra).twtL reduce e hash ops par r d) _
      simp only [List.map_map, Function.comp_def, List.map_id']
      exact ANode.twtL_fits reduce e hash ho par _ r d heap hU hR
    | C a2 b2 rs z2 =>
      have hrs := heap.child hR
      show Fits U s (atwtCC reduce e ops par bits _ extra ⟨b2, rs, z2⟩) _
      unfold atwtCC
      cases h1 : (ops.shortcut : Option (JRes (ANode c.n K V) R)) with
      | some r =>
        obtain ⟨r', hr⟩ := TwtOpsM.shortcut_fits h1
        exact Fits.pure heap (hr U)
      | none =>
        refine Fits.bind (abothLoop_fits reduce e par bits extra vs b2 z2 rs heap (fun U' => JP (InN U')) ?_ ?_ ?_ ?_)
          fun U1 s1 acc acc' hsub1 heap1 q => Fits.al (JRes.afinish_sim heap1 q)
        · exact fun m hm r hr U' s' hsub heap' => ih m hm r U' s' heap' (hsub _ (hvs m hm)) (hsub _ (hrs r hr))
        · exact fun m hm U' s' hsub heap' => m.transformL_fits reduce e ho.left par heap' (hsub _ (hvs m hm))
        · exact fun r hr U' s' hsub heap' => r.transformR_fits reduce e ho.right par heap' (hsub _ (hrs r hr))
        · exact fun o p U' s' a b ho' hp' hsub heap' hab =>
            ⟨_, JRes.aitemOpt_sim heap' ⟨fun m hm => hsub _ (hvs m (ho' m hm)), rfl⟩
              ⟨fun m hm => hsub _ (hrs m (hp' m hm)), rfl⟩ hab⟩

end
end HT
