import Verif.EffCallsNode
/-! # Which calls `transform_with_transformed` makes on nodes, and the operations on tries -/
namespace HT

variable {K V L W S X R : Type} {Q : Type} {A : Q → Type} [BEq K] {c : Cfg}

/-! ### transform_with_transformed -/

section
variable {hash : K → BitVec c.w} (laws : KeyLaws hash) (reduce : R → R → R) (e : R) {ops : TwtOpsM Q A K V R}
  {qs : Case (K × V) (K × V) → List Q} (ho : ops.Asks qs) (par : Par)
include laws ho

theorem ANode.twtS_calls (this : ANode c.n K V) (right : ASNode K V) (depth : Nat)
    (wf : this.erase.WF hash c.levels depth) :
    (this.twtS reduce e hash ops par right depth).CallsT
      (((Cross.same hash).cases this.erase.visit right.erase.visit).flatMap qs) := by
  refine ANode.recDepth (motive := fun m d => m.erase.WF hash c.levels d →
      (m.twtS reduce e hash ops par right d).CallsT
        (((Cross.same hash).cases m.erase.visit right.erase.visit).flatMap qs)) ?_ ?_ ?_ this depth wf
  · intro t d _
    exact t.twt_calls laws reduce ho right d
  · intro l d wf
    exact l.twtS_calls laws reduce ho (ANode.wf_list wf) right d
  · intro a bits vs extra d ih wf
    rw [ANode.erase_C] at wf ⊢
    unfold ANode.twtS
    rw [ANode.fold, ANode.foldAll_eq]
    refine .bindEnd (P := fun _ => True) (aflatLoop_calls (x := Cross.same hash) (CrossLaws.same laws) reduce e wf
      right.erase.distinct_visit right.erase.hash_visit ?_ ?_ ?_) fun _ _ => .al
    · intro m hm hs
      cases wf with
      | C _ _ _ _ hd ok sz ne at_ sub => exact ih m hm (sub _ _ hs)
    · exact fun m hm wm => .map (m.transformE_calls reduce e ho.left par wm)
    · exact .map (right.transformE_calls ho.right)

theorem ANode.twtL_calls (this : ANode c.n K V) (right : ALNode K V) (wr : right.erase.WF hash) (depth : Nat)
    (wf : this.erase.WF hash c.levels depth) :
    (this.twtL reduce e hash ops par right depth).CallsT
      (((Cross.same hash).cases this.erase.visit right.erase.visit).flatMap qs) := by
  refine ANode.recDepth (motive := fun m d => m.erase.WF hash c.levels d →
      (m.twtL reduce e hash ops par right d).CallsT
        (((Cross.same hash).cases m.erase.visit right.erase.visit).flatMap qs)) ?_ ?_ ?_ this depth wf
  · intro t d _
    exact (Prog.Calls.map (right.twtS_calls laws reduce ho.flip wr t d)).perm
      (calls_flip (CrossLaws.same laws) t.erase.distinct_visit wr.keys)
  · intro l d wf
    exact l.twtL_calls laws reduce ho (ANode.wf_list wf) right wr d
  · intro a bits vs extra d ih wf
    have hk := wr.hash
    rw [ALNode.erase_key] at hk
    rw [ANode.erase_C] at wf ⊢
    unfold ANode.twtL
    rw [ANode.fold, ANode.foldAll_eq]
    refine .bindEnd (P := fun _ => True) (aflatLoop_calls (x := Cross.same hash) (CrossLaws.same laws) reduce e wf
      wr.keys hk ?_ ?_ ?_) fun _ _ => .al
    · intro m hm hs
      cases wf with
      | C _ _ _ _ hd ok sz ne at_ sub => exact ih m hm (sub _ _ hs)
    · exact fun m hm wm => .map (m.transformE_calls reduce e ho.left par wm)
    · exact .map (right.transformE_calls reduce ho.right)

omit laws [BEq K] in
/-- The operations that need not look at the tries call no closure. -/
theorem TwtOpsM.Asks.shortcut {res : JRes (ANode c.n K V) R} (h : ops.shortcut = some res) (p : Case (K × V) (K × V)) :
    qs p = [] := by
  obtain ⟨hb, hl, hr⟩ := ho
  obtain ⟨b, l, r⟩ := ops
  dsimp only at hb hl hr
  unfold TwtOpsM.shortcut at h
  dsimp only at h
  cases hb with
  | plain _ => simp at h
  | flipped _ => simp at h
  | unchangedLR _ hb =>
    cases hl <;> cases hr <;> cases p <;> simp_all
  | unchangedL _ hb => cases hl <;> cases hr <;> cases p <;> simp_all
  | unchangedR _ hb => cases hl <;> cases hr <;> cases p <;> simp_all
  | removed _ hb => cases hl <;> cases hr <;> cases p <;> simp_all

omit laws ho [BEq K] in
theorem atwtCC_some {res : JRes (ANode c.n K V) R} (h : ops.shortcut = some res) (bits : BitVec c.n)
    (left : List (ANode c.n K V × (ANode c.n K V → Prog Q A (JRes (ANode c.n K V) R)))) (extra : Nat)
    (right : Bia c.n (ANode c.n K V)) : atwtCC reduce e ops par bits left extra right = pure res := by
  rw [atwtCC, h]

omit laws ho [BEq K] in
theorem atwtCC_none (h : (ops.shortcut : Option (JRes (ANode c.n K V) R)) = none) (bits : BitVec c.n)
    (left : List (ANode c.n K V × (ANode c.n K V → Prog Q A (JRes (ANode c.n K V) R)))) (extra : Nat)
    (right : Bia c.n (ANode c.n K V)) : atwtCC reduce e ops par bits left extra right = (do
      let acc ← abothLoop reduce e par ⟨bits, left, extra⟩ right
        (ANode.transformL reduce e par ops.left)
        (ANode.transformR reduce e par ops.right)
        (fun left? right? res => res.aitemOpt left? right?)
      Prog.al (JRes.afinish acc)) := by
  rw [atwtCC, h]

theorem ANode.twt_calls (this right : ANode c.n K V) (depth : Nat)
    (wf : this.erase.WF hash c.levels depth) (wr : right.erase.WF hash c.levels depth) :
    (this.twt reduce e hash ops par right depth).CallsT
      (((Cross.same hash).cases this.erase.visit right.erase.visit).flatMap qs) := by
  have cl := CrossLaws.same laws
  refine ANode.recDepth (motive := fun m d => ∀ right : ANode c.n K V, m.erase.WF hash c.levels d →
      right.erase.WF hash c.levels d →
      (m.twt reduce e hash ops par right d).CallsT
        (((Cross.same hash).cases m.erase.visit right.erase.visit).flatMap qs)) ?_ ?_ ?_ this depth right wf wr
  · intro t d right wf wr
    have ha := Node.WF.distinct laws.hash wf
    have hb := Node.WF.distinct laws.hash wr
    cases right with
    | S r => exact t.twt_calls laws reduce ho r d
    | L r =>
      exact (Prog.Calls.map (r.twtS_calls laws reduce ho.flip (ANode.wf_list wr) t d)).perm (calls_flip cl ha hb)
    | C a b v z =>
      exact (Prog.Calls.map ((ANode.C a b v z).twtS_calls laws reduce e ho.flip par t d wr)).perm (calls_flip cl ha hb)
  · intro l d right wf wr
    have ha := Node.WF.distinct laws.hash wf
    have hb := Node.WF.distinct laws.hash wr
    cases right with
    | S r => exact l.twtS_calls laws reduce ho (ANode.wf_list wf) r d
    | L r => exact l.twtL_calls laws reduce ho (ANode.wf_list wf) r (ANode.wf_list wr) d
    | C a b v z =>
      exact (Prog.Calls.map ((ANode.C a b v z).twtL_calls laws reduce e ho.flip par l (ANode.wf_list wf) d wr)).perm
        (calls_flip cl ha hb)
  · intro a bits vs extra d ih right wf wr
    unfold ANode.twt
    rw [ANode.fold, ANode.foldAll_eq]
    cases right with
    | S r =>
      unfold atwtC
      rw [ANode.map_fst]
      exact (ANode.C a bits vs extra).twtS_calls laws reduce e ho par r d wf
    | L r =>
      unfold atwtC
      rw [ANode.map_fst]
      exact (ANode.C a bits vs extra).twtL_calls laws reduce e ho par r (ANode.wf_list wr) d wf
    | C a' b v z =>
      rw [ANode.erase_C] at wf wr ⊢
      rw [ANode.erase_C]
      show (atwtCC reduce e ops par bits _ extra ⟨b, v, z⟩).CallsT _
      cases hs : (ops.shortcut : Option (JRes (ANode c.n K V) R)) with
      | some res => rw [atwtCC_some reduce e par hs, flatMap_nil_fun (ho.shortcut hs)]; exact .pureT
      | none =>
        rw [atwtCC_none reduce e par hs]
        refine .bindEnd (P := fun _ => True) (abothLoop_calls (x := Cross.same hash) cl reduce e _ wf wr ?_ ?_ ?_)
          fun _ _ => .al
        · intro i m hm r hr hs hs'
          cases wf with
          | C _ _ _ _ hd ok sz ne at_ sub =>
            cases wr with
            | C _ _ _ _ hd' ok' sz' ne' at' sub' => exact ih m hm r (sub _ _ hs) (sub' _ _ hs')
        · exact fun m hm wm => .map (m.transformE_calls reduce e ho.left par wm)
        · exact fun r hr wr => .map (r.transformE_calls reduce e ho.right par wr)

end
end HT
