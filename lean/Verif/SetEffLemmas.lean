import Verif.SubRun
import Verif.SetEffSpec
import Verif.SetReach
import Verif.EffApi
/-!
# Runs of the set operations and transfute functions are runs of the map operations
-/
namespace HT
variable {K V L W S X R : Type} {Q Q' : Type} {A : Q → Type} {A' : Q' → Type} {α β σ : Type} {c : Cfg}

/-! ### Changing what is returned -/

/-- The end of a run with another result. -/
def Outcome.map (g : α → β) : Outcome Q α → Outcome Q β
  | .ret a => .ret (g a)
  | .panic p => .panic p
  | .diverge => .diverge
  | .closure q => .closure q

theorem Tree.run_bind_ret (env : (q : Q) → σ → Option (A q × σ)) (g : α → β) (x : Tree Q A α) (st : σ) :
    (x.bind fun a => .ret (g a)).run env st =
      ((x.run env st).1.map fun p => (g p.1, p.2), (x.run env st).2) := by
  induction x generalizing st with
  | ret a => rfl
  | panic p => rfl
  | diverge => rfl
  | ask q k ih =>
    show Tree.run env (.ask q fun a => (k a).bind _) st = _
    rw [Tree.run, Tree.run]
    cases env q st with
    | none => rfl
    | some p => simp only [ih]

theorem CallsOnce.map {run : Outcome Q α × List (Reply Q A)} {expected : List Q} (h : CallsOnce run expected)
    (g : α → β) : CallsOnce (run.1.map g, run.2) expected := by
  obtain ⟨o, l⟩ := run
  obtain ⟨h1, h2, h3, h4, h5⟩ := h
  refine ⟨h1, h2, fun a ha => ?_, fun hn => h4 fun q hq => ?_, fun q hq => h5 q ?_⟩
  · cases o with
    | ret b => exact h3 b rfl
    | panic p => cases ha
    | diverge => cases ha
    | closure q => cases ha
  · exact hn q (by rw [show o = _ from hq]; rfl)
  · cases o with
    | closure q' => cases hq; rfl
    | ret b => cases hq
    | panic p => cases hq
    | diverge => cases hq

/-- What a set function returns. -/
def AHSet.of (p : ((ATrie c K Unit × R) × Nat) × σ) : ((AHSet c K × R) × Nat) × σ := (((⟨p.1.1.1⟩, p.1.1.2), p.1.2), p.2)

theorem AHSet.run_wrapE (x : Prog Q A (ATrie c K Unit × R)) (s : Nat) (env : (q : Q) → σ → Option (A q × σ)) (st : σ) :
    (AHSet.wrapE x).run s env st = ((x.run s env st).1.map AHSet.of, (x.run s env st).2) :=
  Tree.run_bind_ret env (fun a : (ATrie c K Unit × R) × Nat => (((⟨a.1.1⟩ : AHSet c K), a.1.2), a.2)) (x s) st

section
variable {tr : Trans Q A Q' A'} {s : Nat} {env : (q : Q') → σ → Option (A' q × σ)} {st : σ} {expected : List Q}

theorem Prog.run_sub (x : Prog Q A α) :
    Ends tr (x.run s (tr.env env) st).1 ((Prog.sub tr x).run s env st).1 ∧
      Replies tr (x.run s (tr.env env) st).2 ((Prog.sub tr x).run s env st).2 := Tree.run_sub tr env (x s) st

theorem CallsOnce.wrapE {x : Prog Q A (ATrie c K Unit × R)}
    (inj : ∀ q q' p, tr.call q = some p → tr.call q' = some p → q = q')
    (h : CallsOnce (x.run s (tr.env env) st) expected) :
    CallsOnce ((AHSet.wrapE (Prog.sub tr x)).run s env st) (expected.filterMap tr.call) := by
  rw [AHSet.run_wrapE]
  exact (h.sub inj).map _

/-- A run that returns. -/
theorem AHSet.wrapE_ret {x : Prog Q A (ATrie c K Unit × R)} {t : AHSet c K} {r : R} {n : Nat} {st' : σ}
    {l : List (Reply Q' A')} (h : (AHSet.wrapE (Prog.sub tr x)).run s env st = (.ret (((t, r), n), st'), l)) :
    ∃ l₀, x.run s (tr.env env) st = (.ret (((t.set, r), n), st'), l₀) ∧ Replies tr l₀ l := by
  rw [AHSet.run_wrapE] at h
  obtain ⟨h1, h2⟩ := Prod.mk.inj h
  obtain ⟨he, hr⟩ := Prog.run_sub (tr := tr) (s := s) (env := env) (st := st) x
  rw [h2] at hr
  refine ⟨_, ?_, hr⟩
  cases hx : (x.run s (tr.env env) st).1 with
  | ret a =>
    rw [hx] at he
    rw [he] at h1
    obtain ⟨⟨⟨t0, r0⟩, n0⟩, st0⟩ := a
    simp only [Outcome.map, AHSet.of, Outcome.ret.injEq, Prod.mk.injEq] at h1
    obtain ⟨⟨⟨h3, h4⟩, h5⟩, h6⟩ := h1
    subst h3 h4 h5 h6
    exact Prod.ext hx rfl
  | panic p => rw [hx] at he; rw [he] at h1; cases h1
  | diverge => rw [hx] at he; rw [he] at h1; cases h1
  | closure q =>
    rw [hx] at he
    obtain ⟨_, _, he⟩ := he
    rw [he] at h1; cases h1

theorem Prog.sub_ret {x : Prog Q A α} {a : (α × Nat) × σ}
    {l : List (Reply Q' A')} (h : (Prog.sub tr x).run s env st = (.ret a, l)) :
    ∃ l₀, x.run s (tr.env env) st = (.ret a, l₀) ∧ Replies tr l₀ l := by
  obtain ⟨he, hr⟩ := Prog.run_sub (tr := tr) (s := s) (env := env) (st := st) x
  rw [h] at he hr
  refine ⟨_, Prod.ext ?_ rfl, hr⟩
  cases hx : (x.run s (tr.env env) st).1 with
  | ret b => rw [hx] at he; exact congrArg _ (Outcome.ret.inj he).symm
  | panic p => rw [hx] at he; cases he
  | diverge => rw [hx] at he; cases he
  | closure q =>
    rw [hx] at he
    obtain ⟨_, _, he⟩ := he
    cases he

theorem LikeSet.of {x : Prog Q A (ATrie c K Unit × R)} {res : ((q : Q) → A q) → Res (Trie c K Unit × R)}
    {expected : List Q'} (once : CallsOnce ((AHSet.wrapE (Prog.sub tr x)).run s env st) expected)
    (like : ∀ f, Answers f (x.run s (tr.env env) st).2 → Outcome.Like (x.run s (tr.env env) st) (res f))
    {f : (q : Q') → A' q} (hf : Answers f ((AHSet.wrapE (Prog.sub tr x)).run s env st).2) :
    Outcome.LikeSet ((AHSet.wrapE (Prog.sub tr x)).run s env st) (HSet.wrap (res (tr.answer f))) := by
  have hc := once.stops
  rw [AHSet.run_wrapE] at hf hc ⊢
  obtain ⟨he, hr⟩ := Prog.run_sub (tr := tr) (s := s) (env := env) (st := st) x
  have hl := like _ (hr.answers hf)
  unfold Outcome.Like at hl
  unfold Outcome.LikeSet
  cases hx : (x.run s (tr.env env) st).1 with
  | ret a => rw [hx] at he hl; rw [he, hl]; rfl
  | panic p => rw [hx] at he hl; rw [he, hl]; rfl
  | diverge => rw [hx] at he hl; rw [he, hl]; rfl
  | closure q =>
    rw [hx] at he
    obtain ⟨r, _, he⟩ := he
    have hc := hc r.1
    rw [he] at hc ⊢
    obtain ⟨b, hb, _⟩ := hc rfl
    exact ⟨b, hb⟩

theorem Like.of {x : Prog Q A (ATrie c K V × R)} {res : ((q : Q) → A q) → Res (Trie c K V × R)}
    {expected : List Q'} (once : CallsOnce ((Prog.sub tr x).run s env st) expected)
    (like : ∀ f, Answers f (x.run s (tr.env env) st).2 → Outcome.Like (x.run s (tr.env env) st) (res f))
    {f : (q : Q') → A' q} (hf : Answers f ((Prog.sub tr x).run s env st).2) :
    Outcome.Like ((Prog.sub tr x).run s env st) (res (tr.answer f)) := by
  have hc := once.stops
  obtain ⟨he, hr⟩ := Prog.run_sub (tr := tr) (s := s) (env := env) (st := st) x
  have hl := like _ (hr.answers hf)
  unfold Outcome.Like at hl ⊢
  cases hx : (x.run s (tr.env env) st).1 with
  | ret a => rw [hx] at he hl; rw [he, hl]
  | panic p => rw [hx] at he hl; rw [he, hl]
  | diverge => rw [hx] at he hl; rw [he, hl]
  | closure q =>
    rw [hx] at he
    obtain ⟨r, _, he⟩ := he
    have hc := hc r.1
    rw [he] at hc ⊢
    obtain ⟨b, hb, _⟩ := hc rfl
    exact ⟨b, hb⟩

end

/-! ### Cases of keys -/

theorem Cross.cases_keys (x : Cross c K L) (as : List (K × Unit)) (bs : List (L × Unit)) :
    (x.cases as bs).map Case.keys = jointCases x.eq (as.map Prod.fst) (bs.map Prod.fst) := by
  simp only [Cross.cases, jointCases, List.map_append, List.map_map, List.filter_map, List.any_map, List.find?_map]
  congr 1
  refine List.map_congr_left fun a _ => ?_
  have hg : (x.eq a.1 ∘ Prod.fst : L × Unit → Bool) = fun b => x.eq a.1 b.1 := rfl
  simp only [Function.comp_apply, hg]
  cases List.find? (fun b : L × Unit => x.eq a.1 b.1) bs <;> rfl

theorem filterMap_keys {l : List (Case (K × Unit) (L × Unit))} {p : Case (K × Unit) (L × Unit) → Bool}
    {q : Case K L → Bool} {g : Case (K × Unit) (L × Unit) → Option (Case K L)}
    (h : ∀ a, (if p a then g a else none) = if q a.keys then some a.keys else none) :
    (l.filter p).filterMap g = (l.map Case.keys).filter q := by
  rw [List.filterMap_filter, List.filter_map]
  induction l with
  | nil => rfl
  | cons a l ih =>
    have ha := h a
    rw [List.filterMap_cons, List.filter_cons, ha, ih]
    cases hq : q a.keys <;> simp [hq]

/-! ### transform and transmute -/

/-- The map operation of the same kind. -/
def SetTransform.kind : SetTransform R Unit → MapTransform R Unit
  | .generic _ => .generic ()
  | .unchanged r => .unchanged r
  | .removed r => .removed r
@[inherit_doc SetTransform.kind]
def SetTransmute.kind : SetTransmute R Unit → MapTransmute R Unit
  | .generic _ => .generic ()
  | .removed r => .removed r
@[inherit_doc SetTransform.kind]
def SetJointTransform.kind : SetJointTransform R Unit → MapJointTransform R Unit
  | .generic _ b => .generic () b
  | .unchangedLR r => .unchangedLR r
  | .unchangedL r => .unchangedL r
  | .unchangedR r => .unchangedR r
  | .removed r => .removed r

/-- The set closure's call for the map closure's. -/
def transTransform : Trans (K × Unit) (fun _ => MapTransformResult Unit R) K (fun _ => SetTransformResult R) :=
  fun q => .inr ⟨q.1, SetTransformResult.toMap⟩
@[inherit_doc transTransform]
def transTransmute : Trans (K × Unit) (fun _ => MapTransmuteResult S Unit R) K (fun _ => SetTransmuteResult S R) :=
  fun q => .inr ⟨q.1, SetTransmuteResult.toMap⟩

theorem AHSet.transformE_eq (reduce : R → R → R) (e : R) (o : SetTransform R Unit) (par : Par) (s : AHSet c K) :
    s.transformE reduce e o.asking par = AHSet.wrapE (Prog.sub transTransform (s.set.transformE reduce e o.kind.asking par)) := by
  rw [AHSet.transformE, ← ATrie.transformE_sub]
  cases o <;> rfl

theorem AHSet.transmuteE_eq (reduce : R → R → R) (e : R) (o : SetTransmute R Unit) (s : AHSet c K) :
    s.transmuteE reduce e (o.asking (S := S)) =
      AHSet.wrapE (Prog.sub transTransmute (s.set.transmuteE reduce e o.kind.asking)) := by
  rw [AHSet.transmuteE, ← ATrie.transmuteE_sub]
  cases o <;> rfl

theorem SetTransform.answering_toMap (o : SetTransform R Unit) (f : K → SetTransformResult R) :
    (o.answering f).toMap = o.kind.answering (transTransform.answer f) := by cases o <;> rfl
theorem SetTransmute.answering_toMap (o : SetTransmute R Unit) (f : K → SetTransmuteResult S R) :
    (o.answering f).toMap = o.kind.answering (transTransmute.answer f) := by cases o <;> rfl

theorem SetTransform.expected_kind (o : SetTransform R Unit) (l : List (K × Unit)) :
    (o.kind.expected l).filterMap (transTransform (R := R)).call = o.expected (l.map Prod.fst) := by
  cases o with
  | generic => exact congrFun (List.filterMap_eq_map (f := Prod.fst)) l
  | _ => rfl
theorem SetTransmute.expected_kind (o : SetTransmute R Unit) (l : List (K × Unit)) :
    (o.kind.expected l).filterMap (transTransmute (S := S) (R := R)).call = o.expected (l.map Prod.fst) := by
  cases o with
  | generic => exact congrFun (List.filterMap_eq_map (f := Prod.fst)) l
  | _ => rfl

theorem transTransform_inj (q q' : K × Unit) (p : K) (h : (transTransform (R := R)).call q = some p)
    (h' : (transTransform (R := R)).call q' = some p) : q = q' := by
  cases q; cases q'; cases h; cases h'; rfl
theorem transTransmute_inj (q q' : K × Unit) (p : K) (h : (transTransmute (S := S) (R := R)).call q = some p)
    (h' : (transTransmute (S := S) (R := R)).call q' = some p) : q = q' := by
  cases q; cases q'; cases h; cases h'; rfl

/-! ### Joint operations -/

/-- The map operation's kinds; a set function makes a closure of its `both`. -/
def STwmKinds.kinds (o : STwmKinds R) : TwmKinds R := ⟨.generic (), o.left.kind, o.right.kind⟩
@[inherit_doc STwmKinds.kinds]
def SMwtKinds.kinds (o : SMwtKinds R) : MwtKinds R := ⟨.generic (), o.left.kind, o.right.kind⟩
@[inherit_doc STwmKinds.kinds]
def SMwmKinds.kinds (o : SMwmKinds R) : MwmKinds R := ⟨.generic (), o.left.kind, o.right.kind⟩
/-- The map operation's kinds. -/
def STwtKinds.kinds (o : STwtKinds R) : TwtKinds R := ⟨o.both.kind, o.left.kind, o.right.kind⟩
@[inherit_doc STwtKinds.kinds]
def TwfKinds.kinds (o : TwfKinds R) : TwmKinds R := ⟨o.both, o.left, o.right.kind⟩
@[inherit_doc STwtKinds.kinds]
def FwtKinds.kinds (o : FwtKinds R) : MwtKinds R := ⟨o.both, o.left.kind, o.right⟩

/-- The set closures' calls for the map closures'. -/
def STwmKinds.trans (o : STwmKinds R) :
    Trans (Case (K × Unit) (L × Unit)) (TwmAnswer K Unit L Unit R) (Case K L) (STwmAnswer K L R)
  | .left a => .inr ⟨.left a.1, SetTransformResult.toMap⟩
  | .right b => .inr ⟨.right b.1, SetTransmuteResult.toMap⟩
  | .both a b =>
    match o.both with
    | .generic _ => .inr ⟨.both a.1 b.1, SetTransformResult.toMap⟩
    | .unchanged r => .inl (MapTransformResult.unchanged r)
    | .removed r => .inl (MapTransformResult.removed r)
@[inherit_doc STwmKinds.trans]
def SMwtKinds.trans (o : SMwtKinds R) :
    Trans (Case (K × Unit) (L × Unit)) (MwtAnswer K Unit L Unit R) (Case K L) (SMwtAnswer K L R)
  | .left a => .inr ⟨.left a.1, SetTransmuteResult.toMap⟩
  | .right b => .inr ⟨.right b.1, SetTransformResult.toMap⟩
  | .both a b =>
    match o.both with
    | .generic _ => .inr ⟨.both a.1 b.1, SetTransformResult.toMap⟩
    | .unchanged r => .inl (MapTransformResult.unchanged r)
    | .removed r => .inl (MapTransformResult.removed r)
@[inherit_doc STwmKinds.trans]
def SMwmKinds.trans (o : SMwmKinds R) :
    Trans (Case (K × Unit) (L × Unit)) (MwmAnswer K Unit L Unit S Unit R) (Case K L) (SMwmAnswer K L S R)
  | .left a => .inr ⟨.left a.1, SetTransmuteResult.toMap⟩
  | .right b => .inr ⟨.right b.1, SetTransmuteResult.toMap⟩
  | .both a b =>
    match o.both with
    | .generic _ => .inr ⟨.both a.1 b.1, SetTransmuteResult.toMap⟩
    | .removed r => .inl (MapTransmuteResult.removed r)
@[inherit_doc STwmKinds.trans]
def transTwt : Trans (Case (K × Unit) (K × Unit)) (TwtAnswer K Unit R) (Case K K) (STwtAnswer K R)
  | .left a => .inr ⟨.left a.1, SetTransformResult.toMap⟩
  | .right b => .inr ⟨.right b.1, SetTransformResult.toMap⟩
  | .both a b => .inr ⟨.both a.1 b.1, SetJointTransformResult.toMap⟩
/-- The calls of the transfute function's closures for those of the map function's. -/
def transTwf : Trans (Case (K × V) (K × W)) (TwmAnswer K V K W R) (Case (K × V) (K × W)) (TwfAnswer K V W R)
  | .left a => .inr ⟨.left a, fun y => y⟩
  | .right b => .inr ⟨.right b, SetTransmuteResult.at b.1⟩
  | .both a b => .inr ⟨.both a b, fun y => y⟩
@[inherit_doc transTwf]
def transFwt : Trans (Case (K × V) (K × W)) (MwtAnswer K V K W R) (Case (K × V) (K × W)) (FwtAnswer K V W R)
  | .left a => .inr ⟨.left a, SetTransmuteResult.at a.1⟩
  | .right b => .inr ⟨.right b, fun y => y⟩
  | .both a b => .inr ⟨.both a b, fun y => y⟩

section
variable (reduce : R → R → R) (e : R)

theorem AHSet.twmAsk_eq (x : Cross c K L) (o : STwmKinds R) (par : Par) (s : AHSet c K) (t : AHSet c L) :
    AHSet.twmAsk reduce e x o par s t =
      AHSet.wrapE (Prog.sub o.trans (ATrie.twmE x reduce e o.kinds.asking par s.set t.set)) := by
  rw [AHSet.twmAsk, AHSet.twmE, ← ATrie.twmE_sub]
  obtain ⟨b, l, r⟩ := o
  cases b <;> cases l <;> cases r <;> rfl

theorem AHSet.mwtAsk_eq (x : Cross c K L) (o : SMwtKinds R) (par : Par) (s : AHSet c K) (t : AHSet c L) :
    AHSet.mwtAsk reduce e x o par s t =
      AHSet.wrapE (Prog.sub o.trans (ATrie.mwtE x reduce e o.kinds.asking par s.set t.set)) := by
  rw [AHSet.mwtAsk, AHSet.mwtE, ← ATrie.mwtE_sub]
  obtain ⟨b, l, r⟩ := o
  cases b <;> cases l <;> cases r <;> rfl

theorem AHSet.mwmAsk_eq (x : Cross c K L) (o : SMwmKinds R) (s : AHSet c K) (t : AHSet c L) :
    AHSet.mwmAsk (S := S) reduce e x o s t =
      AHSet.wrapE (Prog.sub o.trans (ATrie.mwmE x reduce e o.kinds.asking s.set t.set)) := by
  rw [AHSet.mwmAsk, AHSet.mwmE, ← ATrie.mwmE_sub]
  obtain ⟨b, l, r⟩ := o
  cases b <;> cases l <;> cases r <;> rfl

theorem AHSet.twtAsk_eq [BEq K] (hash : K → BitVec c.w) (o : STwtKinds R) (par : Par) (s t : AHSet c K) :
    AHSet.twtAsk reduce e hash o par s t =
      AHSet.wrapE (Prog.sub transTwt (ATrie.twtE reduce e hash o.kinds.asking par s.set t.set)) := by
  rw [AHSet.twtAsk, AHSet.twtE, ← ATrie.twtE_sub]
  obtain ⟨b, l, r⟩ := o
  cases b <;> cases l <;> cases r <;> rfl

theorem ATrie.twfAsk_eq [BEq K] (hash : K → BitVec c.w) (o : TwfKinds R) (par : Par) (t : ATrie c K V) (u : ATrie c K W) :
    ATrie.twfAsk reduce e hash o par t u =
      Prog.sub transTwf (ATrie.twmE (Cross.one hash) reduce e o.kinds.asking par t u) := by
  rw [ATrie.twfAsk, ATrie.twfE, ← ATrie.twmE_sub]
  obtain ⟨b, l, r⟩ := o
  cases b <;> cases l <;> cases r <;> rfl

theorem ATrie.fwtAsk_eq [BEq K] (hash : K → BitVec c.w) (o : FwtKinds R) (par : Par) (t : ATrie c K V) (u : ATrie c K W) :
    ATrie.fwtAsk reduce e hash o par t u =
      Prog.sub transFwt (ATrie.mwtE (Cross.one hash) reduce e o.kinds.asking par t u) := by
  rw [ATrie.fwtAsk, ATrie.fwtE, ← ATrie.mwtE_sub]
  obtain ⟨b, l, r⟩ := o
  cases b <;> cases l <;> cases r <;> rfl

theorem HSet.twmWith_eq (x : Cross c K L) (o : STwmKinds R) (f : (p : Case K L) → STwmAnswer K L R p) (par : Par)
    (s : HSet c K) (t : HSet c L) : HSet.twmWith reduce e x o f par s t =
      HSet.wrap (Trie.twm x reduce e (o.kinds.answering (o.trans.answer f)) par s.set t.set) := by
  obtain ⟨b, l, r⟩ := o
  cases b <;> cases l <;> cases r <;> rfl

theorem HSet.mwtWith_eq (x : Cross c K L) (o : SMwtKinds R) (f : (p : Case K L) → SMwtAnswer K L R p) (par : Par)
    (s : HSet c K) (t : HSet c L) : HSet.mwtWith reduce e x o f par s t =
      HSet.wrap (Trie.mwt x reduce e (o.kinds.answering (o.trans.answer f)) par s.set t.set) := by
  obtain ⟨b, l, r⟩ := o
  cases b <;> cases l <;> cases r <;> rfl

theorem HSet.mwmWith_eq (x : Cross c K L) (o : SMwmKinds R) (f : (p : Case K L) → SMwmAnswer K L S R p)
    (s : HSet c K) (t : HSet c L) : HSet.mwmWith reduce e x o f s t =
      HSet.wrap (Trie.mwm x reduce e (o.kinds.answering (o.trans.answer f)) s.set t.set) := by
  obtain ⟨b, l, r⟩ := o
  cases b <;> cases l <;> cases r <;> rfl

theorem HSet.twtWith_eq [BEq K] (hash : K → BitVec c.w) (o : STwtKinds R) (f : (p : Case K K) → STwtAnswer K R p)
    (par : Par) (s t : HSet c K) : HSet.twtWith reduce e hash o f par s t =
      HSet.wrap (Trie.twt reduce e hash (o.kinds.answering (transTwt.answer f)) par s.set t.set) := by
  obtain ⟨b, l, r⟩ := o
  cases b <;> cases l <;> cases r <;> rfl

theorem Trie.twfWith_eq [BEq K] (hash : K → BitVec c.w) (o : TwfKinds R)
    (f : (p : Case (K × V) (K × W)) → TwfAnswer K V W R p) (par : Par) (t : Trie c K V) (u : Trie c K W) :
    Trie.twfWith reduce e hash o f par t u =
      Trie.twm (Cross.one hash) reduce e (o.kinds.answering (transTwf.answer f)) par t u := by
  have : ∀ k w, (match f (.right (k, w)) with
      | SetTransmuteResult.transmuted v r => MapTransmuteResult.transmuted k v r
      | SetTransmuteResult.removed r => .removed r) = SetTransmuteResult.at k (f (.right (k, w))) := by
    intro k w; cases f (.right (k, w)) <;> rfl
  obtain ⟨b, l, r⟩ := o
  cases b <;> cases l <;> cases r <;>
    simp only [Trie.twfWith, Trie.twf, SetTransmute.map, SetTransmute.withKey, this] <;> rfl

theorem Trie.fwtWith_eq [BEq K] (hash : K → BitVec c.w) (o : FwtKinds R)
    (f : (p : Case (K × V) (K × W)) → FwtAnswer K V W R p) (par : Par) (t : Trie c K V) (u : Trie c K W) :
    Trie.fwtWith reduce e hash o f par t u =
      Trie.mwt (Cross.one hash) reduce e (o.kinds.answering (transFwt.answer f)) par t u := by
  have : ∀ k v, (match f (.left (k, v)) with
      | SetTransmuteResult.transmuted w r => MapTransmuteResult.transmuted k w r
      | SetTransmuteResult.removed r => .removed r) = SetTransmuteResult.at k (f (.left (k, v))) := by
    intro k v; cases f (.left (k, v)) <;> rfl
  obtain ⟨b, l, r⟩ := o
  cases b <;> cases l <;> cases r <;>
    simp only [Trie.fwtWith, Trie.fwt, SetTransmute.map, SetTransmute.withKey, this] <;> rfl

end

theorem STwmKinds.trans_inj (o : STwmKinds R) (q q' : Case (K × Unit) (L × Unit)) (p : Case K L)
    (h : (o.trans (K := K) (L := L)).call q = some p) (h' : (o.trans (K := K) (L := L)).call q' = some p) : q = q' := by
  have key : ∀ q : Case (K × Unit) (L × Unit), (o.trans (K := K) (L := L)).call q = some p → q.keys = p := by
    intro q h
    obtain ⟨b, l, r⟩ := o
    cases q <;> cases b <;> simp [Trans.call, STwmKinds.trans, Case.keys] at h ⊢ <;> exact h
  rw [← q.keys_unit, ← q'.keys_unit, key q h, key q' h']
theorem SMwtKinds.trans_inj (o : SMwtKinds R) (q q' : Case (K × Unit) (L × Unit)) (p : Case K L)
    (h : (o.trans (K := K) (L := L)).call q = some p) (h' : (o.trans (K := K) (L := L)).call q' = some p) : q = q' := by
  have key : ∀ q : Case (K × Unit) (L × Unit), (o.trans (K := K) (L := L)).call q = some p → q.keys = p := by
    intro q h
    obtain ⟨b, l, r⟩ := o
    cases q <;> cases b <;> simp [Trans.call, SMwtKinds.trans, Case.keys] at h ⊢ <;> exact h
  rw [← q.keys_unit, ← q'.keys_unit, key q h, key q' h']
theorem SMwmKinds.trans_inj (o : SMwmKinds R) (q q' : Case (K × Unit) (L × Unit)) (p : Case K L)
    (h : (o.trans (S := S)).call q = some p) (h' : (o.trans (S := S)).call q' = some p) : q = q' := by
  have key : ∀ q : Case (K × Unit) (L × Unit), (o.trans (S := S)).call q = some p → q.keys = p := by
    intro q h
    obtain ⟨b, l, r⟩ := o
    cases q <;> cases b <;> simp [Trans.call, SMwmKinds.trans, Case.keys] at h ⊢ <;> exact h
  rw [← q.keys_unit, ← q'.keys_unit, key q h, key q' h']
theorem transTwt_inj (q q' : Case (K × Unit) (K × Unit)) (p : Case K K)
    (h : (transTwt (R := R)).call q = some p) (h' : (transTwt (R := R)).call q' = some p) : q = q' := by
  have key : ∀ q : Case (K × Unit) (K × Unit), (transTwt (R := R)).call q = some p → q.keys = p := by
    intro q h
    cases q <;> exact Option.some.inj h
  rw [← q.keys_unit, ← q'.keys_unit, key q h, key q' h']
theorem transTwf_call (q : Case (K × V) (K × W)) : (transTwf (R := R)).call q = some q := by cases q <;> rfl
theorem transFwt_call (q : Case (K × V) (K × W)) : (transFwt (R := R)).call q = some q := by cases q <;> rfl

theorem STwmKinds.expected (o : STwmKinds R) (x : Cross c K L) (as : List (K × Unit)) (bs : List (L × Unit)) :
    ((x.cases as bs).filter o.kinds.asks).filterMap o.trans.call =
      (jointCases x.eq (as.map Prod.fst) (bs.map Prod.fst)).filter o.asks := by
  rw [← x.cases_keys]
  refine filterMap_keys fun a => ?_
  obtain ⟨b, l, r⟩ := o
  cases a <;> cases b <;> cases l <;> cases r <;> rfl
theorem SMwtKinds.expected (o : SMwtKinds R) (x : Cross c K L) (as : List (K × Unit)) (bs : List (L × Unit)) :
    ((x.cases as bs).filter o.kinds.asks).filterMap o.trans.call =
      (jointCases x.eq (as.map Prod.fst) (bs.map Prod.fst)).filter o.asks := by
  rw [← x.cases_keys]
  refine filterMap_keys fun a => ?_
  obtain ⟨b, l, r⟩ := o
  cases a <;> cases b <;> cases l <;> cases r <;> rfl
theorem SMwmKinds.expected (o : SMwmKinds R) (x : Cross c K L) (as : List (K × Unit)) (bs : List (L × Unit)) :
    ((x.cases as bs).filter o.kinds.asks).filterMap (o.trans (S := S)).call =
      (jointCases x.eq (as.map Prod.fst) (bs.map Prod.fst)).filter o.asks := by
  rw [← x.cases_keys]
  refine filterMap_keys fun a => ?_
  obtain ⟨b, l, r⟩ := o
  cases a <;> cases b <;> cases l <;> cases r <;> rfl
theorem STwtKinds.expected (o : STwtKinds R) (x : Cross c K K) (as bs : List (K × Unit)) :
    ((x.cases as bs).filter o.kinds.asks).filterMap (transTwt (R := R)).call =
      (jointCases x.eq (as.map Prod.fst) (bs.map Prod.fst)).filter o.asks := by
  rw [← x.cases_keys]
  refine filterMap_keys fun a => ?_
  obtain ⟨b, l, r⟩ := o
  cases a <;> cases b <;> cases l <;> cases r <;> rfl
theorem TwfKinds.expected (o : TwfKinds R) (l : List (Case (K × V) (K × W))) :
    (l.filter o.kinds.asks).filterMap (transTwf (R := R)).call = l.filter o.asks := by
  have h1 : (transTwf (R := R) : Trans _ (TwmAnswer K V K W R) _ _).call = some := funext fun q => transTwf_call q
  have h2 : o.kinds.asks = (o.asks : Case (K × V) (K × W) → Bool) := by
    funext a
    obtain ⟨b, l, r⟩ := o
    cases a <;> cases b <;> cases l <;> cases r <;> rfl
  rw [h1, h2, List.filterMap_some]
theorem FwtKinds.expected (o : FwtKinds R) (l : List (Case (K × V) (K × W))) :
    (l.filter o.kinds.asks).filterMap (transFwt (R := R)).call = l.filter o.asks := by
  have h1 : (transFwt (R := R) : Trans _ (MwtAnswer K V K W R) _ _).call = some := funext fun q => transFwt_call q
  have h2 : o.kinds.asks = (o.asks : Case (K × V) (K × W) → Bool) := by
    funext a
    obtain ⟨b, l, r⟩ := o
    cases a <;> cases b <;> cases l <;> cases r <;> rfl
  rw [h1, h2, List.filterMap_some]

end HT
