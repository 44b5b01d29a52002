import Verif.Stay
/-! # Where the objects of the results of the tables come from -/
namespace HT

variable {K V L W S X R : Type} {n : Nat} {T : K → Prop} {U : ANode n K V → Prop}

/-- The node a list rest stands for is fine. -/
def ALNext.Fine (T : K → Prop) (U : ANode n K V → Prop) (m : ALNext K V) : Prop := (m.toNode : ANode n K V).Fine T U

/-- Walks through code that allocates. -/
macro "gives" : tactic => `(tactic| repeat' first
  | (with_reducible exact True.intro)
  | assumption
  | (refine Al.Gives.pure ?_; simp only [TRes.Fine, XRes.Fine, JRes.Fine, ALNext.Fine, ALNext.toNode] at *)
  | refine Al.Gives.bindLift fun _ _ => ?_
  | refine Al.Gives.bindS (T := T) (U := U) ?_ fun _ _ _ => ?_
  | refine Al.Gives.bindL (T := T) (U := U) ?_ ?_ fun _ _ => ?_)

theorem ASNode.answer_gives (this : ASNode K V) (r : MapTransformResult V R) {keep : Prop}
    (hr : T this.key → r.Good keep) (hk : keep → (ANode.S this : ANode n K V).Fine T U) :
    (this.answer r).Gives (TRes.Fine (fun s => (ANode.S s).Fine T U) ((ANode.S this).Fine T U)) := by
  cases r with
  | unchanged r => exact Al.Gives.pure (ANode.Fine.ofS fun ht => hk (hr ht) _ (.refl _) _ rfl ht)
  | transformed v r => exact Al.Gives.bindS (T := T) (U := U) hr fun s _ hs => Al.Gives.pure hs
  | removed r => exact Al.Gives.pure trivial

theorem ASNode.answerX_gives {r : MapTransmuteResult K V R} (hr : r.Good T) :
    (ASNode.answerX r).Gives (XRes.Fine fun s => (ANode.S s).Fine T U) := by
  cases r with
  | transmuted k v r => exact Al.Gives.bindS (T := T) (U := U) hr fun s _ hs => Al.Gives.pure hs
  | removed r => exact Al.Gives.pure trivial

theorem ASNode.answerJ_gives (this : ASNode K V) (r : MapJointTransformResult V R) {left right : Prop}
    (hr : T this.key → r.Good left right) {right' : Prop} (hl : left → (ANode.S this : ANode n K V).Fine T U) (hr' : right → right')
    (hT : ¬T this.key → right') :
    (this.answerJ r).Gives (JRes.Fine (ALNext.Fine T U) ((ANode.S this).Fine T U) right') := by
  have h : ¬T this.key ∨ r.Good left right := by
    by_cases ht : T this.key
    · exact .inr (hr ht)
    · exact .inl ht
  cases r with
  | unchangedLR r =>
    exact Al.Gives.pure ⟨ANode.Fine.ofS fun ht => hl (hr ht).1 _ (.refl _) _ rfl ht, h.elim hT fun h => hr' h.2⟩
  | unchangedL r => exact Al.Gives.pure (ANode.Fine.ofS fun ht => hl (hr ht) _ (.refl _) _ rfl ht)
  | unchangedR r => exact Al.Gives.pure (h.elim hT hr')
  | transformed v r => exact Al.Gives.bindS (T := T) (U := U) hr fun s _ hs => Al.Gives.pure hs
  | removed r => exact Al.Gives.pure trivial

section
variable (reduce : R → R → R)

theorem ALNode.transformResult_gives {this : ALNode K V} (hk : ¬T this.key) (r : MapTransformResult V R)
    {next : TRes (ALNext K V) R} (hn : next.Fine (ALNext.Fine T U) (this.next.Fine T U)) :
    (ALNode.transformResult reduce this r next).Gives
      (TRes.Fine (ALNext.Fine T U) ((ANode.L this).Fine T U)) := by
  have hL : this.next.Fine T U → (ANode.L this).Fine T U := fun h => ANode.Fine.ofL (fun ht => absurd ht hk) h
  cases r <;> cases next <;> first | exact Al.Gives.pure (hL hn) | gives

theorem ALNode.transmuteResult_gives {r : MapTransmuteResult K V R} (hr : r.Good T) {next : XRes (ALNext K V) R}
    (hn : next.Fine (ALNext.Fine T U)) :
    (ALNode.transmuteResult reduce r next).Gives (XRes.Fine (ALNext.Fine T U)) := by
  cases r <;> cases next <;> gives

theorem ASNode.twmTable_gives {this : ASNode K V} (hk : ¬T this.key) (r : MapTransformResult V R)
    {q : MapTransmuteResult K V R} (hq : q.Good T) :
    (this.twmTable reduce r q).Gives (TRes.Fine (ALNext.Fine T U) ((ANode.S this).Fine T U)) := by
  have hS : (ANode.S this : ANode n K V).Fine T U := ANode.Fine.ofS fun ht => absurd ht hk
  cases r <;> cases q <;> gives

theorem ASNode.mwtTable_gives {this : ASNode K V} (hk : ¬T this.key) {q : MapTransmuteResult K V R} (hq : q.Good T)
    (r : MapTransformResult V R) :
    (this.mwtTable reduce q r).Gives (TRes.Fine (ALNext.Fine T U) ((ANode.S this).Fine T U)) := by
  have hS : (ANode.S this : ANode n K V).Fine T U := ANode.Fine.ofS fun ht => absurd ht hk
  cases r <;> cases q <;> gives

theorem ASNode.twtTable_gives {this right : ASNode K V} (hk : ¬T this.key) (hr : ¬T right.key)
    (a b : MapTransformResult V R) :
    (this.twtTable reduce right a b).Gives
      (JRes.Fine (ALNext.Fine T U) ((ANode.S this).Fine T U) ((ANode.S right).Fine T U)) := by
  have hS : (ANode.S this : ANode n K V).Fine T U := ANode.Fine.ofS fun ht => absurd ht hk
  have hR : (ANode.S right : ANode n K V).Fine T U := ANode.Fine.ofS fun ht => absurd ht hr
  cases a <;> cases b <;> gives

theorem ASNode.withTransmuted_gives {this : ASNode K V} (hk : ¬T this.key) (r : MapTransformResult V R)
    {next : XRes (ALNext K V) R} (hn : next.Fine (ALNext.Fine T U)) (P : Prop) :
    (this.withTransmuted reduce r next).Gives (TRes.Fine (ALNext.Fine T U) P) := by
  cases r <;> cases next <;> gives

theorem ASNode.withTransformed_gives {this : ASNode K V} (hk : ¬T this.key) {r : MapTransmuteResult K V R}
    (hr : r.Good T) {P : Prop} {next : TRes (ALNext K V) R} (hn : next.Fine (ALNext.Fine T U) P) (P' : Prop) :
    (this.withTransformed reduce r next).Gives (TRes.Fine (ALNext.Fine T U) P') := by
  have hS : (ANode.S this : ANode n K V).Fine T U := ANode.Fine.ofS fun ht => absurd ht hk
  cases r <;> cases next <;> gives

theorem ALNode.jointThenPlain_gives {this : ALNode K V} (hk : (ANode.L this : ANode n K V).Loose T) {that : ASNode K V}
    (ht : ¬T that.key) (r : MapJointTransformResult V R) {P : Prop} {next : TRes (ALNext K V) R}
    (hn : next.Fine (ALNext.Fine T U) P) :
    (this.jointThenPlain reduce r that next).Gives
      (JRes.Fine (ALNext.Fine T U) ((ANode.L this).Fine T U) ((ANode.S that).Fine T U)) := by
  have hS : (ANode.S that : ANode n K V).Fine T U := ANode.Fine.ofS fun h => absurd h ht
  have hL : (ANode.L this : ANode n K V).Fine T U := hk.fine U
  have hN : (this.next.toNode : ANode n K V).Fine T U := hL.next
  have hK := hk.key
  cases r <;> cases next <;> gives

theorem ALNode.plainThenJoint_gives {this : ALNode K V} (hk : (ANode.L this : ANode n K V).Loose T) {that : ASNode K V}
    (ht : ¬T that.key) (r : MapTransformResult V R) {P P' : Prop} {next : JRes (ALNext K V) R}
    (hn : next.Fine (ALNext.Fine T U) P P') :
    (this.plainThenJoint reduce r that next).Gives
      (JRes.Fine (ALNext.Fine T U) ((ANode.L this).Fine T U) ((ANode.S that).Fine T U)) := by
  have hS : (ANode.S that : ANode n K V).Fine T U := ANode.Fine.ofS fun h => absurd h ht
  have hL : (ANode.L this : ANode n K V).Fine T U := hk.fine U
  have hN : (this.next.toNode : ANode n K V).Fine T U := hL.next
  have hK := hk.key
  cases r <;> cases next <;> gives

theorem ALNode.jointThenJoint_gives {this : ALNode K V} (hk : (ANode.L this : ANode n K V).Loose T) {that : Option (K × V)}
    (ht : ∀ e ∈ that, ¬T e.1) (r : MapJointTransformResult V R) {P P' : Prop} {next : JRes (ALNext K V) R}
    (hn : next.Fine (ALNext.Fine T U) P P') {right : Prop} (hright : right) :
    (this.jointThenJoint reduce r that next).Gives
      (JRes.Fine (ALNext.Fine T U) ((ANode.L this).Fine T U) right) := by
  have hL : (ANode.L this : ANode n K V).Fine T U := hk.fine U
  have hN : (this.next.toNode : ANode n K V).Fine T U := hL.next
  have hK := hk.key
  cases that with
  | none =>
    cases r <;> cases next <;> first
      | exact Al.Gives.pure ⟨hL, hright⟩
      | (gives; done)
      | (refine Al.Gives.bindLift fun _ h => ?_; cases h; done)
  | some e =>
    have hE := ht e rfl
    cases r <;> cases next <;> first
      | exact Al.Gives.pure ⟨hL, hright⟩
      | (gives; done)
      | (refine Al.Gives.bindLift fun _ h => ?_; cases h; gives; done)

theorem ALNode.twmLeftover_gives {this : ALNode K V} (hL : (ANode.L this : ANode n K V).Fine T U) {r : MapTransmuteResult K V R}
    (hr : r.Good T) {next : TRes (ALNext K V) R} (hn : next.Fine (ALNext.Fine T U) ((ANode.L this).Fine T U)) :
    (this.twmLeftover reduce r next).Gives (TRes.Fine (ALNext.Fine T U) ((ANode.L this).Fine T U)) := by
  cases r <;> cases next <;> gives

theorem ALNode.twtLeftover_gives {this : ALNode K V} (hL : (ANode.L this : ANode n K V).Fine T U) {b : K × V} (hb : ¬T b.1)
    (r : MapTransformResult V R) {right : Prop} {next : JRes (ALNext K V) R}
    (hn : next.Fine (ALNext.Fine T U) ((ANode.L this).Fine T U) right) :
    (this.twtLeftover reduce b r next).Gives (JRes.Fine (ALNext.Fine T U) ((ANode.L this).Fine T U) right) := by
  cases r <;> cases next <;> first
    | (gives; done)
    | exact fun s a s' h => by cases h

end

/-! ### Operands with different hashes -/

theorem Bia.ofVec_mem {Y : Type} {bits : BitVec n} {vs : List Y} {z : Nat} {e : Except BitError (Bia n Y)} {a : Bia n Y}
    (h : Bia.ofVec bits vs z = .ok e) (he : Res.unwrapE e = .ok a) : ∀ m ∈ a.values, m ∈ vs := by
  cases e with
  | error e => cases he
  | ok a' =>
    have he : a' = a := by injection he
    subst he
    intro m hm
    exact ((Bia.ofVec_ok h).2.2 m).1 hm

theorem aliftC_gives {c : Cfg} {U : ANode c.n K V → Prop} {this right : ANode c.n K V} (tf rf : Flag c)
    (h : this.Fine T U) (hr : right.Fine T U) : (aliftC c this tf right rf).Gives (ANode.Fine T U) := by
  induction tf, rf using aliftC.induct c this right with
  | case1 tf rf hf p h1 =>
    rw [aliftC, if_pos hf]
    split
    all_goals rename_i h2
    all_goals rw [h1] at h2
    all_goals cases h2
    exact fun s a s' ha => by cases ha
  | case2 tf rf hf h1 =>
    rw [aliftC, if_pos hf]
    split
    all_goals rename_i h2
    all_goals rw [h1] at h2
    all_goals cases h2
    exact fun s a s' ha => by cases ha
  | case3 tf rf hf h1 =>
    rw [aliftC, if_pos hf]
    split
    all_goals rename_i h2
    all_goals rw [h1] at h2
    all_goals cases h2
    exact fun s a s' ha => by cases ha
  | case4 tf rf hf tf' h1 ih =>
    rw [aliftC, if_pos hf]
    split
    all_goals rename_i h2
    all_goals rw [h1] at h2
    all_goals cases h2
    refine Al.Gives.bindLift fun rf' _ => Al.Gives.bindLift fun rf'' _ => ?_
    refine Al.Gives.bind (ih _) fun inner hi => ?_
    refine Al.Gives.bindLift fun a ha => Al.Gives.bindLift fun a' ha' => ANode.ofBia_gives fun m hm => ?_
    have := Bia.ofVec_mem ha ha' m hm
    rw [List.mem_singleton.1 this]; exact hi
  | case5 tf rf hf =>
    rw [aliftC, if_neg hf]
    refine Al.Gives.bindLift fun flags _ => Al.Gives.bindLift fun i _ => ?_
    refine Al.Gives.bindLift fun a ha => Al.Gives.bindLift fun a' ha' => ANode.ofBia_gives fun m hm => ?_
    have := Bia.ofVec_mem ha ha' m hm
    split at this <;> (rcases List.mem_cons.1 this with rfl | this <;>
      first | assumption | (rw [List.mem_singleton.1 this]; assumption))

section
variable {c : Cfg} {U : ANode c.n K V → Prop} (reduce : R → R → R)

theorem atwmApart_gives {this : ALNext K V} (th rh : BitVec c.w) (depth : Nat) {left : TRes (ALNext K V) R}
    {right : XRes (ALNext K V) R} (hl : left.Fine (ALNext.Fine T U) (this.Fine T U)) (hr : right.Fine (ALNext.Fine T U)) :
    (atwmApart reduce this th rh depth left right).Gives (TRes.Fine (ANode.Fine T U) (this.Fine T U)) := by
  refine Al.Gives.bindLift fun lf _ => Al.Gives.bindLift fun rf _ => ?_
  cases left <;> cases right <;> first
    | exact Al.Gives.pure hl
    | exact Al.Gives.pure hr
    | exact Al.Gives.pure True.intro
    | exact Al.Gives.bind (aliftC_gives lf rf hl hr) fun m hm => Al.Gives.pure hm

theorem amwtApart_gives {right : ALNext K V} (th rh : BitVec c.w) (depth : Nat) {left : XRes (ALNext K V) R}
    {r : TRes (ALNext K V) R} (hl : left.Fine (ALNext.Fine T U)) (hr : r.Fine (ALNext.Fine T U) (right.Fine T U)) :
    (amwtApart reduce right th rh depth left r).Gives (TRes.Fine (ANode.Fine T U) (right.Fine T U)) := by
  refine Al.Gives.bindLift fun lf _ => Al.Gives.bindLift fun rf _ => ?_
  cases left <;> cases r <;> first
    | exact Al.Gives.pure hl
    | exact Al.Gives.pure hr
    | exact Al.Gives.pure True.intro
    | exact Al.Gives.bind (aliftC_gives lf rf hl hr) fun m hm => Al.Gives.pure hm

theorem atwtApart_gives {this right : ALNext K V} (th rh : BitVec c.w) (depth : Nat) {left r : TRes (ALNext K V) R}
    (hl : left.Fine (ALNext.Fine T U) (this.Fine T U)) (hr : r.Fine (ALNext.Fine T U) (right.Fine T U)) :
    (atwtApart reduce this right th rh depth left r).Gives
      (JRes.Fine (ANode.Fine T U) (this.Fine T U) (right.Fine T U)) := by
  refine Al.Gives.bindLift fun lf _ => Al.Gives.bindLift fun rf _ => ?_
  cases left <;> cases r <;> first
    | exact Al.Gives.pure hl
    | exact Al.Gives.pure hr
    | exact Al.Gives.pure True.intro
    | exact Al.Gives.bind (aliftC_gives lf rf hl hr) fun m hm => Al.Gives.pure hm

end
end HT
