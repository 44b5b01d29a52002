import Verif.EffCallsTwt
/-! # Which calls the joint operations make on nodes and tries -/
namespace HT

variable {K V L W S X R : Type} {Q : Type} {A : Q → Type} [BEq K] [BEq L] {c : Cfg} {x : Cross c K L}

omit [BEq L] in
theorem SNode.distinct_visit (s : SNode K V) : DistinctKeys s.visit := by simp [SNode.visit, DistinctKeys]

omit [BEq K] [BEq L] in
theorem ANode.map_fst {ρ : Type} (vs : List (ANode c.n K V)) (f : ANode c.n K V → ρ) :
    (vs.map fun m => (m, f m)).map Prod.fst = vs := by
  rw [List.map_map]; exact List.map_id _

omit [BEq L] in
theorem ANode.wf_list {hash : K → BitVec c.w} {l : ALNode K V} {mx d : Nat}
    (h : (ANode.L l : ANode c.n K V).erase.WF hash mx d) : l.erase.WF hash := by
  rw [ANode.erase] at h
  cases h with
  | L _ _ h => exact h


/-! ### transform_with_transmuted, right operand a list or single node -/

section
variable (laws : CrossLaws x) (reduce : R → R → R) (e : R) {ops : TwmOpsM Q A K V L W R}
  {qs : Case (K × V) (L × W) → List Q} (ho : ops.Asks qs) (par : Par)
include laws ho

theorem ANode.twmS_calls (this : ANode c.n K V) (right : ASNode L W) (depth : Nat)
    (wf : this.erase.WF x.hash c.levels depth) :
    (this.twmS x reduce e ops par right depth).CallsT
      ((x.cases this.erase.visit right.erase.visit).flatMap qs) := by
  refine ANode.recDepth (motive := fun m d => m.erase.WF x.hash c.levels d →
      (m.twmS x reduce e ops par right d).CallsT ((x.cases m.erase.visit right.erase.visit).flatMap qs))
      ?_ ?_ ?_ this depth wf
  · intro t d _
    exact t.twm_calls laws reduce ho right d
  · intro l d wf
    exact l.twmS_calls laws reduce ho (ANode.wf_list wf) right d
  · intro a bits vs extra d ih wf
    rw [ANode.erase_C] at wf ⊢
    unfold ANode.twmS
    rw [ANode.fold, ANode.foldAll_eq]
    refine .bindEnd (P := fun _ => True) (aflatLoop_calls laws reduce e wf right.erase.distinct_visit
      right.erase.hash_visit ?_ ?_ ?_) fun _ _ => .al
    · intro m hm hs
      cases wf with
      | C _ _ _ _ hd ok sz ne at_ sub => exact ih m hm (sub _ _ hs)
    · exact fun m hm wm => m.transformE_calls reduce e ho.left par wm
    · exact .map (right.transmuteE_calls ho.right)

theorem ANode.twmL_calls (this : ANode c.n K V) (right : ALNode L W) (wr : right.erase.WF x.hash') (depth : Nat)
    (wf : this.erase.WF x.hash c.levels depth) :
    (this.twmL x reduce e ops par right depth).CallsT
      ((x.cases this.erase.visit right.erase.visit).flatMap qs) := by
  refine ANode.recDepth (motive := fun m d => m.erase.WF x.hash c.levels d →
      (m.twmL x reduce e ops par right d).CallsT ((x.cases m.erase.visit right.erase.visit).flatMap qs))
      ?_ ?_ ?_ this depth wf
  · intro t d _
    exact (right.mwtS_calls laws.flip reduce ho.flip wr t d).perm (calls_flip laws t.erase.distinct_visit wr.keys)
  · intro l d wf
    exact l.twmL_calls laws reduce ho (ANode.wf_list wf) right wr d
  · intro a bits vs extra d ih wf
    have hk := wr.hash
    rw [ALNode.erase_key] at hk
    rw [ANode.erase_C] at wf ⊢
    unfold ANode.twmL
    rw [ANode.fold, ANode.foldAll_eq]
    refine .bindEnd (P := fun _ => True) (aflatLoop_calls laws reduce e wf wr.keys hk ?_ ?_ ?_) fun _ _ => .al
    · intro m hm hs
      cases wf with
      | C _ _ _ _ hd ok sz ne at_ sub => exact ih m hm (sub _ _ hs)
    · exact fun m hm wm => m.transformE_calls reduce e ho.left par wm
    · exact .map (right.transmuteE_calls reduce ho.right)

end


/-! ### transmute_with_transformed, right operand a list or single node -/

section
variable (laws : CrossLaws x) (reduce : R → R → R) (e : R) {ops : MwtOpsM Q A K V L W R}
  {qs : Case (K × V) (L × W) → List Q} (ho : ops.Asks qs)
include laws ho

theorem ANode.mwtS_calls (this : ANode c.n K V) (right : ASNode L W) (depth : Nat)
    (wf : this.erase.WF x.hash c.levels depth) :
    (this.mwtS x reduce e ops right depth).CallsT
      ((x.cases this.erase.visit right.erase.visit).flatMap qs) := by
  refine ANode.recDepth (motive := fun m d => m.erase.WF x.hash c.levels d →
      (m.mwtS x reduce e ops right d).CallsT ((x.cases m.erase.visit right.erase.visit).flatMap qs))
      ?_ ?_ ?_ this depth wf
  · intro t d _
    exact t.mwt_calls laws reduce ho right d
  · intro l d wf
    exact l.mwtS_calls laws reduce ho (ANode.wf_list wf) right d
  · intro a bits vs extra d ih wf
    rw [ANode.erase_C] at wf ⊢
    unfold ANode.mwtS
    rw [ANode.fold, ANode.foldAll_eq]
    refine .bindEnd (P := fun _ => True) (aflatLoop_calls laws reduce e wf right.erase.distinct_visit
      right.erase.hash_visit ?_ ?_ ?_) fun _ _ => .al
    · intro m hm hs
      cases wf with
      | C _ _ _ _ hd ok sz ne at_ sub => exact ih m hm (sub _ _ hs)
    · exact fun m hm wm => .map (m.transmuteE_calls reduce e ho.left wm)
    · exact .map (right.transformE_calls ho.right)

theorem ANode.mwtL_calls (this : ANode c.n K V) (right : ALNode L W) (wr : right.erase.WF x.hash') (depth : Nat)
    (wf : this.erase.WF x.hash c.levels depth) :
    (this.mwtL x reduce e ops right depth).CallsT
      ((x.cases this.erase.visit right.erase.visit).flatMap qs) := by
  refine ANode.recDepth (motive := fun m d => m.erase.WF x.hash c.levels d →
      (m.mwtL x reduce e ops right d).CallsT ((x.cases m.erase.visit right.erase.visit).flatMap qs))
      ?_ ?_ ?_ this depth wf
  · intro t d _
    exact (right.twmS_calls laws.flip reduce ho.flip wr t d).perm (calls_flip laws t.erase.distinct_visit wr.keys)
  · intro l d wf
    exact (right.twmL_calls laws.flip reduce ho.flip wr l (ANode.wf_list wf) d).perm (calls_flip laws (ANode.wf_list wf).keys wr.keys)
  · intro a bits vs extra d ih wf
    have hk := wr.hash
    rw [ALNode.erase_key] at hk
    rw [ANode.erase_C] at wf ⊢
    unfold ANode.mwtL
    rw [ANode.fold, ANode.foldAll_eq]
    refine .bindEnd (P := fun _ => True) (aflatLoop_calls laws reduce e wf wr.keys hk ?_ ?_ ?_) fun _ _ => .al
    · intro m hm hs
      cases wf with
      | C _ _ _ _ hd ok sz ne at_ sub => exact ih m hm (sub _ _ hs)
    · exact fun m hm wm => .map (m.transmuteE_calls reduce e ho.left wm)
    · exact .map (right.transformE_calls reduce ho.right)

end


/-! ### transmute_with_transmuted, right operand a list or single node -/

section
variable (laws : CrossLaws x) (reduce : R → R → R) (e : R) {ops : MwmOpsM Q A K V L W S X R}
  {qs : Case (K × V) (L × W) → List Q} (ho : ops.Asks qs)
include laws ho

theorem ANode.mwmS_calls (this : ANode c.n K V) (right : ASNode L W) (depth : Nat)
    (wf : this.erase.WF x.hash c.levels depth) :
    (this.mwmS x reduce e ops right depth).CallsT
      ((x.cases this.erase.visit right.erase.visit).flatMap qs) := by
  refine ANode.recDepth (motive := fun m d => m.erase.WF x.hash c.levels d →
      (m.mwmS x reduce e ops right d).CallsT ((x.cases m.erase.visit right.erase.visit).flatMap qs))
      ?_ ?_ ?_ this depth wf
  · intro t d _
    exact t.mwm_calls laws reduce ho right d
  · intro l d wf
    exact l.mwmS_calls laws reduce ho (ANode.wf_list wf) right d
  · intro a bits vs extra d ih wf
    rw [ANode.erase_C] at wf ⊢
    unfold ANode.mwmS
    rw [ANode.fold, ANode.foldAll_eq]
    refine .bindEnd (P := fun _ => True) (aflatLoop_calls laws reduce e wf right.erase.distinct_visit
      right.erase.hash_visit ?_ ?_ ?_) fun _ _ => .al
    · intro m hm hs
      cases wf with
      | C _ _ _ _ hd ok sz ne at_ sub => exact ih m hm (sub _ _ hs)
    · exact fun m hm wm => m.transmuteE_calls reduce e ho.left wm
    · exact .map (right.transmuteE_calls ho.right)

theorem ANode.mwmL_calls (this : ANode c.n K V) (right : ALNode L W) (wr : right.erase.WF x.hash') (depth : Nat)
    (wf : this.erase.WF x.hash c.levels depth) :
    (this.mwmL x reduce e ops right depth).CallsT
      ((x.cases this.erase.visit right.erase.visit).flatMap qs) := by
  refine ANode.recDepth (motive := fun m d => m.erase.WF x.hash c.levels d →
      (m.mwmL x reduce e ops right d).CallsT ((x.cases m.erase.visit right.erase.visit).flatMap qs))
      ?_ ?_ ?_ this depth wf
  · intro t d _
    exact (right.mwmS_calls laws.flip reduce ho.flip wr t d).perm (calls_flip laws t.erase.distinct_visit wr.keys)
  · intro l d wf
    exact l.mwmL_calls laws reduce ho (ANode.wf_list wf) right wr d
  · intro a bits vs extra d ih wf
    have hk := wr.hash
    rw [ALNode.erase_key] at hk
    rw [ANode.erase_C] at wf ⊢
    unfold ANode.mwmL
    rw [ANode.fold, ANode.foldAll_eq]
    refine .bindEnd (P := fun _ => True) (aflatLoop_calls laws reduce e wf wr.keys hk ?_ ?_ ?_) fun _ _ => .al
    · intro m hm hs
      cases wf with
      | C _ _ _ _ hd ok sz ne at_ sub => exact ih m hm (sub _ _ hs)
    · exact fun m hm wm => m.transmuteE_calls reduce e ho.left wm
    · exact .map (right.transmuteE_calls reduce ho.right)

end


/-! ### transform_with_transmuted -/

section
variable (laws : CrossLaws x) (reduce : R → R → R) (e : R) {ops : TwmOpsM Q A K V L W R}
  {qs : Case (K × V) (L × W) → List Q} (ho : ops.Asks qs) (par : Par)
include laws ho

theorem ANode.twm_calls (this : ANode c.n K V) (right : ANode c.n L W) (depth : Nat)
    (wf : this.erase.WF x.hash c.levels depth) (wr : right.erase.WF x.hash' c.levels depth) :
    (this.twm x reduce e ops par right depth).CallsT
      ((x.cases this.erase.visit right.erase.visit).flatMap qs) := by
  refine ANode.recDepth (motive := fun m d => ∀ right : ANode c.n L W, m.erase.WF x.hash c.levels d →
      right.erase.WF x.hash' c.levels d →
      (m.twm x reduce e ops par right d).CallsT ((x.cases m.erase.visit right.erase.visit).flatMap qs))
      ?_ ?_ ?_ this depth right wf wr
  · intro t d right wf wr
    have ha := Node.WF.distinct laws.left.hash wf
    have hb := Node.WF.distinct laws.right.hash wr
    cases right with
    | S r => exact t.twm_calls laws reduce ho r d
    | L r => exact (r.mwtS_calls laws.flip reduce ho.flip (ANode.wf_list wr) t d).perm (calls_flip laws ha hb)
    | C a b v z => exact ((ANode.C a b v z).mwtS_calls laws.flip reduce e ho.flip t d wr).perm (calls_flip laws ha hb)
  · intro l d right wf wr
    have ha := Node.WF.distinct laws.left.hash wf
    have hb := Node.WF.distinct laws.right.hash wr
    cases right with
    | S r => exact l.twmS_calls laws reduce ho (ANode.wf_list wf) r d
    | L r => exact l.twmL_calls laws reduce ho (ANode.wf_list wf) r (ANode.wf_list wr) d
    | C a b v z => exact ((ANode.C a b v z).mwtL_calls laws.flip reduce e ho.flip l (ANode.wf_list wf) d wr).perm (calls_flip laws ha hb)
  · intro a bits vs extra d ih right wf wr
    unfold ANode.twm
    rw [ANode.fold, ANode.foldAll_eq]
    cases right with
    | S r =>
      unfold atwmC
      rw [ANode.map_fst]
      exact (ANode.C a bits vs extra).twmS_calls laws reduce e ho par r d wf
    | L r =>
      unfold atwmC
      rw [ANode.map_fst]
      exact (ANode.C a bits vs extra).twmL_calls laws reduce e ho par r (ANode.wf_list wr) d wf
    | C a' b v z =>
      rw [ANode.erase_C] at wf wr ⊢
      rw [ANode.erase_C]
      refine .bindEnd (P := fun _ => True) (abothLoop_calls laws reduce e _ wf wr ?_ ?_ ?_) fun _ _ => .al
      · intro i m hm r hr hs hs'
        cases wf with
        | C _ _ _ _ hd ok sz ne at_ sub =>
          cases wr with
          | C _ _ _ _ hd' ok' sz' ne' at' sub' => exact ih m hm r (sub _ _ hs) (sub' _ _ hs')
      · exact fun m hm wm => m.transformE_calls reduce e ho.left par wm
      · exact fun r hr wr => .map (r.transmuteE_calls reduce e ho.right wr)

end


/-! ### transmute_with_transformed -/

section
variable (laws : CrossLaws x) (reduce : R → R → R) (e : R) {ops : MwtOpsM Q A K V L W R}
  {qs : Case (K × V) (L × W) → List Q} (ho : ops.Asks qs) (par : Par)
include laws ho

theorem ANode.mwt_calls (this : ANode c.n K V) (right : ANode c.n L W) (depth : Nat)
    (wf : this.erase.WF x.hash c.levels depth) (wr : right.erase.WF x.hash' c.levels depth) :
    (this.mwt x reduce e ops par right depth).CallsT
      ((x.cases this.erase.visit right.erase.visit).flatMap qs) := by
  refine ANode.recDepth (motive := fun m d => ∀ right : ANode c.n L W, m.erase.WF x.hash c.levels d →
      right.erase.WF x.hash' c.levels d →
      (m.mwt x reduce e ops par right d).CallsT ((x.cases m.erase.visit right.erase.visit).flatMap qs))
      ?_ ?_ ?_ this depth right wf wr
  · intro t d right wf wr
    have ha := Node.WF.distinct laws.left.hash wf
    have hb := Node.WF.distinct laws.right.hash wr
    cases right with
    | S r => exact t.mwt_calls laws reduce ho r d
    | L r => exact (r.twmS_calls laws.flip reduce ho.flip (ANode.wf_list wr) t d).perm (calls_flip laws ha hb)
    | C a b v z => exact ((ANode.C a b v z).twmS_calls laws.flip reduce e ho.flip par t d wr).perm (calls_flip laws ha hb)
  · intro l d right wf wr
    have ha := Node.WF.distinct laws.left.hash wf
    have hb := Node.WF.distinct laws.right.hash wr
    cases right with
    | S r => exact l.mwtS_calls laws reduce ho (ANode.wf_list wf) r d
    | L r => exact (r.twmL_calls laws.flip reduce ho.flip (ANode.wf_list wr) l (ANode.wf_list wf) d).perm (calls_flip laws (ANode.wf_list wf).keys (ANode.wf_list wr).keys)
    | C a b v z => exact ((ANode.C a b v z).twmL_calls laws.flip reduce e ho.flip par l (ANode.wf_list wf) d wr).perm (calls_flip laws ha hb)
  · intro a bits vs extra d ih right wf wr
    unfold ANode.mwt
    rw [ANode.fold, ANode.foldAll_eq]
    cases right with
    | S r =>
      unfold amwtC
      rw [ANode.map_fst]
      exact (ANode.C a bits vs extra).mwtS_calls laws reduce e ho r d wf
    | L r =>
      unfold amwtC
      rw [ANode.map_fst]
      exact (ANode.C a bits vs extra).mwtL_calls laws reduce e ho r (ANode.wf_list wr) d wf
    | C a' b v z =>
      rw [ANode.erase_C] at wf wr ⊢
      rw [ANode.erase_C]
      refine .bindEnd (P := fun _ => True) (abothLoop_calls laws reduce e _ wf wr ?_ ?_ ?_) fun _ _ => .al
      · intro i m hm r hr hs hs'
        cases wf with
        | C _ _ _ _ hd ok sz ne at_ sub =>
          cases wr with
          | C _ _ _ _ hd' ok' sz' ne' at' sub' => exact ih m hm r (sub _ _ hs) (sub' _ _ hs')
      · exact fun m hm wm => .map (m.transmuteE_calls reduce e ho.left wm)
      · exact fun r hr wr => r.transformE_calls reduce e ho.right par wr

end


/-! ### transmute_with_transmuted -/

section
variable (laws : CrossLaws x) (reduce : R → R → R) (e : R) {ops : MwmOpsM Q A K V L W S X R}
  {qs : Case (K × V) (L × W) → List Q} (ho : ops.Asks qs)
include laws ho

theorem ANode.mwm_calls (this : ANode c.n K V) (right : ANode c.n L W) (depth : Nat)
    (wf : this.erase.WF x.hash c.levels depth) (wr : right.erase.WF x.hash' c.levels depth) :
    (this.mwm x reduce e ops right depth).CallsT
      ((x.cases this.erase.visit right.erase.visit).flatMap qs) := by
  refine ANode.recDepth (motive := fun m d => ∀ right : ANode c.n L W, m.erase.WF x.hash c.levels d →
      right.erase.WF x.hash' c.levels d →
      (m.mwm x reduce e ops right d).CallsT ((x.cases m.erase.visit right.erase.visit).flatMap qs))
      ?_ ?_ ?_ this depth right wf wr
  · intro t d right wf wr
    have ha := Node.WF.distinct laws.left.hash wf
    have hb := Node.WF.distinct laws.right.hash wr
    cases right with
    | S r => exact t.mwm_calls laws reduce ho r d
    | L r => exact (r.mwmS_calls laws.flip reduce ho.flip (ANode.wf_list wr) t d).perm (calls_flip laws ha hb)
    | C a b v z => exact ((ANode.C a b v z).mwmS_calls laws.flip reduce e ho.flip t d wr).perm (calls_flip laws ha hb)
  · intro l d right wf wr
    have ha := Node.WF.distinct laws.left.hash wf
    have hb := Node.WF.distinct laws.right.hash wr
    cases right with
    | S r => exact l.mwmS_calls laws reduce ho (ANode.wf_list wf) r d
    | L r => exact l.mwmL_calls laws reduce ho (ANode.wf_list wf) r (ANode.wf_list wr) d
    | C a b v z => exact ((ANode.C a b v z).mwmL_calls laws.flip reduce e ho.flip l (ANode.wf_list wf) d wr).perm (calls_flip laws ha hb)
  · intro a bits vs extra d ih right wf wr
    unfold ANode.mwm
    rw [ANode.fold, ANode.foldAll_eq]
    cases right with
    | S r =>
      unfold amwmC
      rw [ANode.map_fst]
      exact (ANode.C a bits vs extra).mwmS_calls laws reduce e ho r d wf
    | L r =>
      unfold amwmC
      rw [ANode.map_fst]
      exact (ANode.C a bits vs extra).mwmL_calls laws reduce e ho r (ANode.wf_list wr) d wf
    | C a' b v z =>
      rw [ANode.erase_C] at wf wr ⊢
      rw [ANode.erase_C]
      refine .bindEnd (P := fun _ => True) (abothLoop_calls laws reduce e _ wf wr ?_ ?_ ?_) fun _ _ => .al
      · intro i m hm r hr hs hs'
        cases wf with
        | C _ _ _ _ hd ok sz ne at_ sub =>
          cases wr with
          | C _ _ _ _ hd' ok' sz' ne' at' sub' => exact ih m hm r (sub _ _ hs) (sub' _ _ hs')
      · exact fun m hm wm => m.transmuteE_calls reduce e ho.left wm
      · exact fun r hr wr => r.transmuteE_calls reduce e ho.right wr

end

end HT
