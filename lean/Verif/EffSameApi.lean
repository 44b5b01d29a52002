import Verif.OrderSpec
import Verif.EffApi
import Verif.EffSameNode
import Verif.EffOrder
import Verif.EffMem
import Verif.NatTrie
/-! # Runs: the calls do not depend on the answers -/
namespace HT

variable {K V L W S X R R' : Type} {Q : Type} {A A' : Q → Type} {α α' σ σ' : Type}

theorem Tree.Step.sameCalls {P : α → α' → Prop} {x : Tree Q A α} {y : Tree Q A' α'} (h : x.Step P y)
    (env : (q : Q) → σ → Option (A q × σ)) (env' : (q : Q) → σ' → Option (A' q × σ')) (st : σ) (st' : σ') :
    SameCalls (x.run env st) (y.run env' st') := by
  induction x generalizing y st st' with
  | ret a =>
    cases y with
    | ret b => exact ⟨.inl (List.prefix_refl _), fun _ => List.prefix_refl _, fun _ => List.prefix_refl _⟩
    | ask q k => exact h.elim
    | panic p => exact ⟨.inl (List.prefix_refl _), fun _ => List.prefix_refl _, fun _ => List.prefix_refl _⟩
    | diverge => exact ⟨.inl (List.prefix_refl _), fun _ => List.prefix_refl _, fun _ => List.prefix_refl _⟩
  | panic p => exact ⟨.inl List.nil_prefix, fun ⟨_, h⟩ => (by cases h), fun _ => List.nil_prefix⟩
  | diverge => exact ⟨.inl List.nil_prefix, fun ⟨_, h⟩ => (by cases h), fun _ => List.nil_prefix⟩
  | ask q k ih =>
    cases y with
    | ret b => exact h.elim
    | panic p => exact ⟨.inr List.nil_prefix, fun _ => List.nil_prefix, fun ⟨_, h⟩ => (by cases h)⟩
    | diverge => exact ⟨.inr List.nil_prefix, fun _ => List.nil_prefix, fun ⟨_, h⟩ => (by cases h)⟩
    | ask q' k' =>
      obtain ⟨rfl, h⟩ := h
      rw [Tree.run, Tree.run]
      cases he : env q st with
      | none =>
        refine ⟨.inl ?_, fun ⟨_, h⟩ => (by cases h), fun _ => ?_⟩
        all_goals
          cases env' q st' with
          | none => exact List.prefix_refl _
          | some p => exact (List.prefix_cons_inj q).2 List.nil_prefix
      | some p =>
        obtain ⟨a, s1⟩ := p
        cases he' : env' q st' with
        | none =>
          exact ⟨.inr ((List.prefix_cons_inj q).2 List.nil_prefix), fun _ => (List.prefix_cons_inj q).2 List.nil_prefix,
            fun ⟨_, h⟩ => (by cases h)⟩
        | some p' =>
          obtain ⟨b, s2⟩ := p'
          obtain ⟨h1, h2, h3⟩ := ih a (h a b) s1 s2
          exact ⟨h1.imp (List.prefix_cons_inj q).2 (List.prefix_cons_inj q).2,
            fun hr => (List.prefix_cons_inj q).2 (h2 hr), fun hr => (List.prefix_cons_inj q).2 (h3 hr)⟩

theorem Prog.Step.sameCalls {P : α → α' → Prop} {x : Prog Q A α} {y : Prog Q A' α'} (h : x.Step P y) (s s' : Nat)
    (env : (q : Q) → σ → Option (A q × σ)) (env' : (q : Q) → σ' → Option (A' q × σ')) (st : σ) (st' : σ') :
    SameCalls (x.run s env st) (y.run s' env' st') := Tree.Step.sameCalls (h s s') env env' st st'

/-- With the same closures: a run that returned, and one that returns with functions that answer as they did. -/
theorem Tree.Step.returns {P : α → α' → Prop} {x : Tree Q A α} {y : Tree Q A α'} (h : x.Step P y)
    (env : (q : Q) → σ → Option (A q × σ)) {st st1 : σ} {a : α} (hx : (x.run env st).1 = .ret (a, st1))
    {f : (q : Q) → A q} (hf : Answers f (x.run env st).2) {b : α'} (hy : y.eval f = .ok b) :
    y.run env st = (.ret (b, st1), (x.run env st).2) := by
  induction x generalizing y st with
  | ret a =>
    cases y with
    | ret b' => cases hx; cases hy; rfl
    | ask q k => exact h.elim
    | panic p => cases hy
    | diverge => cases hy
  | panic p => cases hx
  | diverge => cases hx
  | ask q k ih =>
    cases y with
    | ret b => exact h.elim
    | panic p => cases hy
    | diverge => cases hy
    | ask q' k' =>
      obtain ⟨rfl, h⟩ := h
      rw [Tree.run] at hx hf ⊢
      rw [Tree.run]
      cases he : env q st with
      | none => rw [he] at hx; cases hx
      | some p =>
        obtain ⟨a', s1⟩ := p
        rw [he] at hx hf
        dsimp only at hx hf ⊢
        have hq : f q = a' := hf q a' (List.mem_cons_self ..)
        rw [Tree.eval, hq] at hy
        have := ih a' (h a' a') hx (fun q' a'' hm => hf q' a'' (List.mem_cons_of_mem _ hm)) hy
        rw [this]

/-- The code with pure functions, from the plain model. -/
theorem PSim.eval_ok {c : Cfg} {U : ANode c.n K V → Prop} {s : Nat} {f : (q : Q) → A q} {x : Prog Q A (ATrie c K V × R)}
    {y : Res (Trie c K V × R)} (sim : PSim f U s x y OutP) {t : Trie c K V} {r : R} (hy : y = .ok (t, r)) :
    ∃ t' s', Prog.eval f x s = .ok ((t', r), s') ∧ t'.erase = t := by
  have hsim : (Prog.eval f x s).map (fun r => (r.1.1.erase, r.1.2)) = y := by
    have := Sim.eraseEq (f := fun r => (r.1.erase, r.2)) (g := id) sim (by
      intro U' s' a b P
      exact Prod.ext P.2.1 P.2.2)
    rw [this]
    cases y <;> rfl
  rw [hy] at hsim
  cases he : Prog.eval f x s with
  | panic p => rw [he] at hsim; cases hsim
  | diverge => rw [he] at hsim; cases hsim
  | ok a =>
    obtain ⟨⟨t', r'⟩, s'⟩ := a
    rw [he] at hsim
    injection hsim with hsim
    injection hsim with h1 h2
    cases h2
    exact ⟨t', s', rfl, h1⟩

/-- Two runs in step, of the code of two computations with the same map (and reduction). -/
theorem sameReturn {c : Cfg} {U : ANode c.n K V → Prop} {s : Nat} {x x' : Prog Q A (ATrie c K V × R)}
    (step : x.StepT x') (env : (q : Q) → σ → Option (A q × σ)) (st : σ) {y y' : ((q : Q) → A q) → Res (Trie c K V × R)}
    (sim : ∀ f, PSim f U s x (y f) OutP) (sim' : ∀ f, PSim f U s x' (y' f) OutP)
    (ans : ∃ f, Answers f (x.run s env st).2) {same : Prop}
    (eq : ∀ f, (y f).map1 = (y' f).map1 ∧ (same → y f = y' f)) :
    SameReturn same (x.run s env st) (x'.run s env st) := by
  intro t r s1 st1 hr
  obtain ⟨f, hf⟩ := ans
  have h1 := (sim f).like env st hf
  unfold Outcome.Like at h1
  rw [hr] at h1
  dsimp only at h1
  obtain ⟨e1, e2⟩ := eq f
  cases hy' : y' f with
  | panic p => rw [h1, hy'] at e1; cases e1
  | diverge => rw [h1, hy'] at e1; cases e1
  | ok b =>
    obtain ⟨t', r'⟩ := b
    obtain ⟨t2, s2, h2, h3⟩ := (sim' f).eval_ok hy'
    have h4 := Tree.Step.returns (step s s) env hr hf h2
    refine ⟨t2, r', s2, (by have := congrArg Prod.fst h4; exact this), (by have := congrArg Prod.snd h4; exact this), ?_, ?_⟩
    · rw [h1, hy'] at e1
      injection e1 with e1
      rw [h3]; exact e1.symm
    · intro hs
      have := e2 hs
      rw [h1, hy'] at this
      injection this with this
      injection this with _ this
      exact this.symm

/-! ### The operations -/

theorem MapTransform.asking_step {o : MapTransform R Unit} {o' : MapTransform R' Unit} (h : o.forget = o'.forget) :
    (o.asking : MapTransform R (K → V → Prog (K × V) _ _)).Step o'.asking := by
  cases o <;> cases o' <;> first | cases h | skip
  · exact .generic fun k v => .ask _
  · exact .unchanged _ _
  · exact .removed _ _

theorem MapTransmute.asking_step {o : MapTransmute R Unit} {o' : MapTransmute R' Unit} (h : o.forget = o'.forget) :
    (o.asking : MapTransmute R (K → V → Prog (K × V) _ (MapTransmuteResult S X R))).Step o'.asking := by
  cases o <;> cases o' <;> first | cases h | skip
  · exact .generic fun k v => .ask _
  · exact .removed _ _

theorem TwmKinds.asking_step {o : TwmKinds R} {o' : TwmKinds R'} (h : o.forget = o'.forget) :
    (o.asking : TwmOpsM _ (TwmAnswer K V L W R) K V L W R).Step (o'.asking : TwmOpsM _ (TwmAnswer K V L W R') K V L W R') := by
  obtain ⟨b, l, r⟩ := o
  obtain ⟨b', l', r'⟩ := o'
  injection h with hb hl hr
  refine ⟨?_, ?_, ?_⟩
  · cases b <;> cases b' <;> first | cases hb | skip
    · exact .generic fun k v l w => Prog.Step.ask (Case.both (k, v) (l, w))
    · exact .unchanged _ _
    · exact .removed _ _
  · cases l <;> cases l' <;> first | cases hl | skip
    · exact .generic fun k v => Prog.Step.ask (Case.left (k, v))
    · exact .unchanged _ _
    · exact .removed _ _
  · cases r <;> cases r' <;> first | cases hr | skip
    · exact .generic fun k v => Prog.Step.ask (Case.right (k, v))
    · exact .removed _ _

theorem MwtKinds.asking_step {o : MwtKinds R} {o' : MwtKinds R'} (h : o.forget = o'.forget) :
    (o.asking : MwtOpsM _ (MwtAnswer K V L W R) K V L W R).Step (o'.asking : MwtOpsM _ (MwtAnswer K V L W R') K V L W R') := by
  obtain ⟨b, l, r⟩ := o
  obtain ⟨b', l', r'⟩ := o'
  injection h with hb hl hr
  refine ⟨?_, ?_, ?_⟩
  · cases b <;> cases b' <;> first | cases hb | skip
    · exact .generic fun k v l w => Prog.Step.ask (Case.both (k, v) (l, w))
    · exact .unchanged _ _
    · exact .removed _ _
  · cases l <;> cases l' <;> first | cases hl | skip
    · exact .generic fun k v => Prog.Step.ask (Case.left (k, v))
    · exact .removed _ _
  · cases r <;> cases r' <;> first | cases hr | skip
    · exact .generic fun k v => Prog.Step.ask (Case.right (k, v))
    · exact .unchanged _ _
    · exact .removed _ _

theorem MwmKinds.asking_step {o : MwmKinds R} {o' : MwmKinds R'} (h : o.forget = o'.forget) :
    (o.asking : MwmOpsM _ (MwmAnswer K V L W S X R) K V L W S X R).Step
      (o'.asking : MwmOpsM _ (MwmAnswer K V L W S X R') K V L W S X R') := by
  obtain ⟨b, l, r⟩ := o
  obtain ⟨b', l', r'⟩ := o'
  injection h with hb hl hr
  refine ⟨?_, ?_, ?_⟩
  · cases b <;> cases b' <;> first | cases hb | skip
    · exact .generic fun k v l w => Prog.Step.ask (Case.both (k, v) (l, w))
    · exact .removed _ _
  · cases l <;> cases l' <;> first | cases hl | skip
    · exact .generic fun k v => Prog.Step.ask (Case.left (k, v))
    · exact .removed _ _
  · cases r <;> cases r' <;> first | cases hr | skip
    · exact .generic fun k v => Prog.Step.ask (Case.right (k, v))
    · exact .removed _ _

theorem TwtKinds.asking_step {o : TwtKinds R} {o' : TwtKinds R'} (h : o.forget = o'.forget) :
    (o.asking : TwtOpsM _ (TwtAnswer K V R) K V R).Step (o'.asking : TwtOpsM _ (TwtAnswer K V R') K V R') := by
  obtain ⟨b, l, r⟩ := o
  obtain ⟨b', l', r'⟩ := o'
  injection h with hb hl hr
  refine ⟨?_, ?_, ?_⟩
  · cases b <;> cases b' <;> first | cases hb | skip
    · exact .generic _ fun k v l w => Prog.Step.ask (Case.both (k, v) (l, w))
    · exact .unchangedLR _ _
    · exact .unchangedL _ _
    · exact .unchangedR _ _
    · exact .removed _ _
  · cases l <;> cases l' <;> first | cases hl | skip
    · exact .generic fun k v => Prog.Step.ask (Case.left (k, v))
    · exact .unchanged _ _
    · exact .removed _ _
  · cases r <;> cases r' <;> first | cases hr | skip
    · exact .generic fun k v => Prog.Step.ask (Case.right (k, v))
    · exact .unchanged _ _
    · exact .removed _ _

/-! ### The order -/

theorem sublist_swap_eq {α : Type} {l : List α} (hn : l.Nodup) {p q : α} (h1 : [p, q].Sublist l)
    (h2 : [q, p].Sublist l) : p = q := by
  induction l with
  | nil => cases h1
  | cons a l ih =>
    obtain ⟨ha, hn⟩ := List.nodup_cons.1 hn
    cases h1 with
    | cons _ h1 =>
      cases h2 with
      | cons _ h2 => exact ih hn h1 h2
      | cons_cons _ h2 => exact absurd (h1.subset (by simp)) ha
    | cons_cons _ h1 =>
      cases h2 with
      | cons _ h2 => exact absurd (h2.subset (by simp)) ha
      | cons_cons _ h2 => rfl

section
variable [BEq K] {c : Cfg} {hash : K → BitVec c.w}

theorem Reorder.prefix {B : Type} {hash : K → B} {a b l : List (K × V)} (h : Reorder hash b l) (hp : a <+: b) :
    Reorder hash a l := fun p q hs => h p q (hs.trans hp.sublist)

theorem ATrie.transformE_reorder (reduce : R → R → R) (e : R) (o : MapTransform R Unit) (par : Par) {t : ATrie c K V}
    (h : Reach c hash t.erase) (s : Nat) (env : (p : K × V) → σ → Option (MapTransformResult V R × σ)) (st : σ) :
    Reorder hash (((t.transformE reduce e o.asking par).run s env st).2.map Sigma.fst) t.erase.visit := by
  have quiet : ∀ {o' : MapTransform R Unit}, o'.isClosure = false →
      ((t.transformE reduce e (o'.asking : MapTransform R (K → V → Prog (K × V) _ _)) par).run s env st).2 = [] := by
    intro o' ho
    have := (ATrie.transformE_once reduce e o' par h s env st).only
    simp only [MapTransform.expected, ho, Bool.false_eq_true, if_false, List.not_mem_nil, imp_false] at this
    cases hr : ((t.transformE reduce e (o'.asking : MapTransform R (K → V → Prog (K × V) _ _)) par).run s env st).2 with
    | nil => rfl
    | cons p l => rw [hr] at this; exact absurd (List.mem_cons_self ..) (this p.1)
  have nil : Reorder hash ([] : List (K × V)) t.erase.visit := fun p q hs => absurd hs.length_le (by simp)
  cases o with
  | unchanged r => rw [quiet rfl]; exact nil
  | removed r => rw [quiet rfl]; exact nil
  | generic u =>
    obtain ⟨l', h1, h2, _⟩ := ANode.transformE_ordered reduce e
      (F := fun k v => Prog.ask (Q := K × V) (A := fun _ => MapTransformResult V R) (k, v))
      (fun k v => Prog.Order.ask (k, v)) par t.root h.valid
    have h3 : (t.transformE reduce e (MapTransform.asking (.generic u)) par).Order l' := by
      refine .bindEnd h1 fun r => ?_
      cases r with
      | unchanged r => exact .pure
      | node m r => exact .pure
      | removed r => exact .bindNil .al fun _ => .pure
    exact h2.prefix ((h3 s).run env st)

theorem ATrie.transmuteE_reorder (reduce : R → R → R) (e : R) (o : MapTransmute R Unit) {t : ATrie c K V}
    (h : Reach c hash t.erase) (s : Nat) (env : (p : K × V) → σ → Option (MapTransmuteResult S X R × σ)) (st : σ) :
    Reorder hash (((t.transmuteE reduce e o.asking).run s env st).2.map Sigma.fst) t.erase.visit := by
  cases o with
  | removed r =>
    have := (ATrie.transmuteE_once reduce e (.removed r) h s env st).only
    simp only [MapTransmute.expected, MapTransmute.isClosure, Bool.false_eq_true, if_false, List.not_mem_nil,
      imp_false] at this
    cases hr : ((t.transmuteE reduce e (MapTransmute.asking (.removed r))).run s env st).2 with
    | nil => exact fun p q hs => absurd hs.length_le (by simp)
    | cons p l => rw [hr] at this; exact absurd (List.mem_cons_self ..) (this p.1)
  | generic u =>
    obtain ⟨l', h1, h2, _⟩ := ANode.transmuteE_ordered reduce e
      (F := fun k v => Prog.ask (Q := K × V) (A := fun _ => MapTransmuteResult S X R) (k, v))
      (fun k v => Prog.Order.ask (k, v)) t.root h.valid
    have h3 : (t.transmuteE reduce e (MapTransmute.asking (S := S) (X := X) (.generic u))).Order l' := by
      refine .bindEnd h1 fun r => ?_
      cases r with
      | node m r => exact .pure
      | removed r => exact .bindNil .al fun _ => .pure
    exact h2.prefix ((h3 s).run env st)

end
end HT
