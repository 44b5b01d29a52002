import Verif.SetEffLemmas
import Verif.EffMem
/-!
# The sets in memory

As `Mem` (`Verif/EffMem.lean`), of sets, whose functions may be given closures with state.
-/
namespace HT
variable {K : Type} [BEq K] {c : Cfg} {hash : K → BitVec c.w}

/-- `SMem hash s vs`: after some calls of the set functions the next free address is `s` and the sets made so far, with
    this type of keys, are `vs`.  Calls that make sets or maps of other types are `other`; operands of other types are
    described by `SReach`.  The contracts are those of `SReach`, of any functions that answer as the closures did. -/
inductive SMem (hash : K → BitVec c.w) : Nat → List (AHSet c K) → Prop
  | start (s : Nat) : SMem hash s []
  | new {s s' : Nat} {vs : List (AHSet c K)} {t : AHSet c K} (h : SMem hash s vs)
      (hr : AHSet.new c s = .ok (t, s')) : SMem hash s' (vs ++ [t])
  | clone {s : Nat} {vs : List (AHSet c K)} {t : AHSet c K} (h : SMem hash s vs) (ht : t ∈ vs) :
      SMem hash s (vs ++ [t.clone])
  | insert {s s' : Nat} {vs : List (AHSet c K)} {t t' : AHSet c K} {k : K} {replace : Bool}
      {ptr : Nat} {prev : Option K} (h : SMem hash s vs) (ht : t ∈ vs)
      (hr : t.insert hash k replace s = .ok (.ok (t', ptr, prev), s')) : SMem hash s' (vs ++ [t'])
  | remove {s s' : Nat} {vs : List (AHSet c K)} {t t' : AHSet c K} {k e : K}
      (h : SMem hash s vs) (ht : t ∈ vs)
      (hr : t.remove hash k s = .ok (some (t', e), s')) : SMem hash s' (vs ++ [t'])
  | transform {s s' : Nat} {vs : List (AHSet c K)} {t t' : AHSet c K} {R σ : Type} {reduce : R → R → R} {e r : R}
      {o : SetTransform R Unit} {par : Par} {env : K → σ → Option (SetTransformResult R × σ)} {st st' : σ}
      {l : List (Reply K fun _ => SetTransformResult R)} {f : K → SetTransformResult R}
      (h : SMem hash s vs) (ht : t ∈ vs) (hf : Answers f l)
      (hr : (t.transformE reduce e o.asking par).run s env st = (.ret (((t', r), s'), st'), l)) : SMem hash s' (vs ++ [t'])
  | transmute {s s' : Nat} {vs : List (AHSet c K)} {t' : AHSet c K} {L R σ : Type} [BEq L]
      {hash₀ : L → BitVec c.w} {t : AHSet c L} {reduce : R → R → R} {e r : R} {o : SetTransmute R Unit}
      {env : L → σ → Option (SetTransmuteResult K R × σ)} {st st' : σ}
      {l : List (Reply L fun _ => SetTransmuteResult K R)} {f : L → SetTransmuteResult K R}
      (h : SMem hash s vs) (ht : SReach c hash₀ t.erase) (hf : Answers f l) (km : (o.answering f).KeyMap hash₀ hash)
      (hr : (t.transmuteE reduce e o.asking).run s env st = (.ret (((t', r), s'), st'), l)) : SMem hash s' (vs ++ [t'])
  | transformWithTransmuted {s s' : Nat} {vs : List (AHSet c K)} {t t' : AHSet c K} {L R σ : Type} [BEq L]
      {x : Cross c K L} {u : AHSet c L} {reduce : R → R → R} {e r : R} {o : STwmKinds R} {par : Par}
      {env : (p : Case K L) → σ → Option (STwmAnswer K L R p × σ)} {st st' : σ}
      {l : List (Reply _ (STwmAnswer K L R))} {f : (p : Case K L) → STwmAnswer K L R p}
      (h : SMem hash s vs) (ht : t ∈ vs) (hx : x.hash = hash) (hu : SReach c x.hash' u.erase) (laws : CrossLaws x)
      (hf : Answers f l) (con : (o.right.map fun _ l => f (.right l)).Right x)
      (hr : (AHSet.twmAsk reduce e x o par t u).run s env st = (.ret (((t', r), s'), st'), l)) :
      SMem hash s' (vs ++ [t'])
  | transmuteWithTransformed {s s' : Nat} {vs : List (AHSet c K)} {u t' : AHSet c K} {L R σ : Type} [BEq L]
      {x : Cross c L K} {t : AHSet c L} {reduce : R → R → R} {e r : R} {o : SMwtKinds R} {par : Par}
      {env : (p : Case L K) → σ → Option (SMwtAnswer L K R p × σ)} {st st' : σ}
      {l : List (Reply _ (SMwtAnswer L K R))} {f : (p : Case L K) → SMwtAnswer L K R p}
      (h : SMem hash s vs) (ht : SReach c x.hash t.erase) (hu : u ∈ vs) (hx : x.hash' = hash) (laws : CrossLaws x)
      (hf : Answers f l) (con : (o.left.map fun _ k => f (.left k)).Left x)
      (hr : (AHSet.mwtAsk reduce e x o par t u).run s env st = (.ret (((t', r), s'), st'), l)) :
      SMem hash s' (vs ++ [t'])
  | transmuteWithTransmuted {s s' : Nat} {vs : List (AHSet c K)} {t' : AHSet c K} {L S R σ : Type} [BEq L] [BEq S]
      {x : Cross c L S} {t : AHSet c L} {u : AHSet c S} {reduce : R → R → R} {e r : R} {o : SMwmKinds R}
      {env : (p : Case L S) → σ → Option (SMwmAnswer L S K R p × σ)} {st st' : σ}
      {l : List (Reply _ (SMwmAnswer L S K R))} {f : (p : Case L S) → SMwmAnswer L S K R p}
      (h : SMem hash s vs) (ht : SReach c x.hash t.erase) (hu : SReach c x.hash' u.erase) (laws : CrossLaws x)
      (hf : Answers f l)
      (con : SetMwmContract x hash (o.both.map fun _ k l => f (.both k l)) (o.left.map fun _ k => f (.left k))
        (o.right.map fun _ l => f (.right l)))
      (hr : (AHSet.mwmAsk reduce e x o t u).run s env st = (.ret (((t', r), s'), st'), l)) :
      SMem hash s' (vs ++ [t'])
  | transformWithTransformed {s s' : Nat} {vs : List (AHSet c K)} {t u t' : AHSet c K} {R σ : Type}
      {reduce : R → R → R} {e r : R} {o : STwtKinds R} {par : Par}
      {env : (p : Case K K) → σ → Option (STwtAnswer K R p × σ)} {st st' : σ}
      {l : List (Reply _ (STwtAnswer K R))} {f : (p : Case K K) → STwtAnswer K R p}
      (h : SMem hash s vs) (ht : t ∈ vs) (hu : u ∈ vs) (hf : Answers f l)
      (tame : TwtOps.Tame ⟨(o.both.map fun _ k l => f (.both k l)).toMap, (o.left.map fun _ k => f (.left k)).toMap,
        (o.right.map fun _ l => f (.right l)).toMap⟩ hash t.erase.set.visit u.erase.set.visit)
      (hr : (AHSet.twtAsk reduce e hash o par t u).run s env st = (.ret (((t', r), s'), st'), l)) :
      SMem hash s' (vs ++ [t'])
  | other {s s' : Nat} {vs : List (AHSet c K)} (h : SMem hash s vs) (hs : s ≤ s') : SMem hash s' vs

section
variable {L S R : Type}
theorem STwmKinds.ops_eq (o : STwmKinds R) (f : (p : Case K L) → STwmAnswer K L R p) :
    (⟨(o.both.map fun _ k l => f (.both k l)).toMap2, (o.left.map fun _ k => f (.left k)).toMap,
      (o.right.map fun _ l => f (.right l)).toMap⟩ : TwmOps K Unit L Unit R) = o.kinds.answering (o.trans.answer f) := by
  obtain ⟨b, l, r⟩ := o
  cases b <;> cases l <;> cases r <;> rfl
theorem SMwtKinds.ops_eq (o : SMwtKinds R) (f : (p : Case K L) → SMwtAnswer K L R p) :
    (⟨(o.both.map fun _ k l => f (.both k l)).toMap2, (o.left.map fun _ k => f (.left k)).toMap,
      (o.right.map fun _ l => f (.right l)).toMap⟩ : MwtOps K Unit L Unit R) = o.kinds.answering (o.trans.answer f) := by
  obtain ⟨b, l, r⟩ := o
  cases b <;> cases l <;> cases r <;> rfl
theorem SMwmKinds.ops_eq (o : SMwmKinds R) (f : (p : Case K L) → SMwmAnswer K L S R p) :
    (⟨(o.both.map fun _ k l => f (.both k l)).toMap2, (o.left.map fun _ k => f (.left k)).toMap,
      (o.right.map fun _ l => f (.right l)).toMap⟩ : MwmOps K Unit L Unit S Unit R) =
      o.kinds.answering (o.trans.answer f) := by
  obtain ⟨b, l, r⟩ := o
  cases b <;> cases l <;> cases r <;> rfl
theorem STwtKinds.ops_eq (o : STwtKinds R) (f : (p : Case K K) → STwtAnswer K R p) :
    (⟨(o.both.map fun _ k l => f (.both k l)).toMap, (o.left.map fun _ k => f (.left k)).toMap,
      (o.right.map fun _ l => f (.right l)).toMap⟩ : TwtOps K Unit R) = o.kinds.answering (transTwt.answer f) := by
  obtain ⟨b, l, r⟩ := o
  cases b <;> cases l <;> cases r <;> rfl
end

theorem Al.bind_ok {α β : Type} {x : Al α} {f : α → Al β} {s : Nat} {p : β × Nat} (h : (x >>= f) s = .ok p) :
    ∃ q, x s = .ok q ∧ f q.1 q.2 = .ok p := by
  replace h : Al.bind x f s = .ok p := h
  unfold Al.bind at h
  cases hx : x s with
  | ok q => rw [hx] at h; exact ⟨q, rfl, h⟩
  | panic q => rw [hx] at h; cases h
  | diverge => rw [hx] at h; cases h

theorem AHSet.new_ok {s s' : Nat} {t : AHSet c K} (h : AHSet.new c s = .ok (t, s')) :
    ATrie.new c s = .ok (t.set, s') := by
  obtain ⟨⟨t0, s0⟩, h1, h2⟩ := Al.bind_ok h
  cases h2
  exact h1

theorem AHSet.insert_ok {s s' : Nat} {t t' : AHSet c K} {k : K} {replace : Bool} {ptr : Nat} {prev : Option K}
    (h : t.insert hash k replace s = .ok (.ok (t', ptr, prev), s')) :
    ∃ prev₀, t.set.insert hash k () replace s = .ok (.ok (t'.set, ptr, prev₀), s') ∧ prev = prev₀.map Prod.fst := by
  obtain ⟨⟨r, s0⟩, h1, h2⟩ := Al.bind_ok h
  cases r with
  | error p => cases h2
  | ok p =>
    obtain ⟨t0, ptr0, prev0⟩ := p
    cases h2
    exact ⟨_, h1, rfl⟩

theorem AHSet.remove_ok {s s' : Nat} {t t' : AHSet c K} {k e : K}
    (h : t.remove hash k s = .ok (some (t', e), s')) : t.set.remove hash k s = .ok (some (t'.set, (e, ())), s') := by
  obtain ⟨⟨r, s0⟩, h1, h2⟩ := Al.bind_ok h
  cases r with
  | none => cases h2
  | some p =>
    obtain ⟨t0, k0, u⟩ := p
    cases h2
    exact h1

theorem SMem.mem {s : Nat} {vs : List (AHSet c K)} (h : SMem hash s vs) : Mem hash s (vs.map AHSet.set) := by
  have at' : ∀ {vs : List (AHSet c K)} {t : AHSet c K}, t ∈ vs → t.set ∈ vs.map AHSet.set :=
    fun h => List.mem_map.2 ⟨_, h, rfl⟩
  induction h with
  | start s => exact .start s
  | new _ hr ih => rw [List.map_append]; exact .new ih (AHSet.new_ok hr)
  | clone _ ht ih => rw [List.map_append]; exact .clone ih (at' ht)
  | insert _ ht hr ih =>
    rw [List.map_append]
    obtain ⟨_, h1, _⟩ := AHSet.insert_ok hr
    exact .insert ih (at' ht) h1
  | remove _ ht hr ih => rw [List.map_append]; exact .remove ih (at' ht) (AHSet.remove_ok hr)
  | transform _ ht hf hr ih =>
    rw [List.map_append]
    rw [AHSet.transformE_eq] at hr
    obtain ⟨l₀, h1, h2⟩ := AHSet.wrapE_ret hr
    exact .transformE ih (at' ht) (h2.answers hf) h1
  | transmute _ ht hf km hr ih =>
    rw [List.map_append]
    rw [AHSet.transmuteE_eq] at hr
    obtain ⟨l₀, h1, h2⟩ := AHSet.wrapE_ret hr
    exact .transmuteE ih ht.map (h2.answers hf) (by rw [← SetTransmute.answering_toMap]; exact km.map) h1
  | transformWithTransmuted _ ht hx hu laws hf con hr ih =>
    rw [List.map_append]
    rw [AHSet.twmAsk_eq] at hr
    obtain ⟨l₀, h1, h2⟩ := AHSet.wrapE_ret hr
    exact .transformWithTransmutedE ih (at' ht) hx hu.map laws (h2.answers hf)
      (by rw [← STwmKinds.ops_eq]; exact con.map) h1
  | transmuteWithTransformed _ ht hu hx laws hf con hr ih =>
    rw [List.map_append]
    rw [AHSet.mwtAsk_eq] at hr
    obtain ⟨l₀, h1, h2⟩ := AHSet.wrapE_ret hr
    exact .transmuteWithTransformedE ih ht.map (at' hu) hx laws (h2.answers hf)
      (by rw [← SMwtKinds.ops_eq]; exact con.map) h1
  | transmuteWithTransmuted _ ht hu laws hf con hr ih =>
    rw [List.map_append]
    rw [AHSet.mwmAsk_eq] at hr
    obtain ⟨l₀, h1, h2⟩ := AHSet.wrapE_ret hr
    exact .transmuteWithTransmutedE ih ht.map hu.map laws (h2.answers hf)
      (by rw [← SMwmKinds.ops_eq]; exact con.map) h1
  | transformWithTransformed _ ht hu hf tame hr ih =>
    rw [List.map_append]
    rw [AHSet.twtAsk_eq] at hr
    obtain ⟨l₀, h1, h2⟩ := AHSet.wrapE_ret hr
    exact .transformWithTransformedE ih (at' ht) (at' hu) (h2.answers hf)
      (by rw [← STwtKinds.ops_eq]; exact tame) h1
  | other _ hs ih => exact .other ih hs

theorem SMem.reach (laws : KeyLaws hash) {s : Nat} {vs : List (AHSet c K)} (h : SMem hash s vs) :
    ∀ t ∈ vs, SReach c hash t.erase := by
  have add : ∀ {vs : List (AHSet c K)} {t : AHSet c K}, (∀ t ∈ vs, SReach c hash t.erase) →
      SReach c hash t.erase → ∀ u ∈ vs ++ [t], SReach c hash u.erase := by
    intro vs t h1 h2 u hu
    rcases List.mem_append.1 hu with hu | hu
    · exact h1 u hu
    · rw [List.mem_singleton.1 hu]; exact h2
  have at' : ∀ {vs : List (AHSet c K)} {t : AHSet c K}, t ∈ vs → t.set ∈ vs.map AHSet.set :=
    fun h => List.mem_map.2 ⟨_, h, rfl⟩
  induction h with
  | start s => simp
  | new h hr ih =>
    obtain ⟨U, heap, hU⟩ := h.mem.heap
    obtain ⟨b, hb, _, U', h1, _, h2, h3⟩ := (ATrie.new_sim heap).ok (AHSet.new_ok hr)
    injection hb with hb
    refine add ih ?_
    unfold AHSet.erase
    rw [h3.2.2.2, ← hb]
    exact .new laws
  | clone _ ht ih => exact add ih (ih _ ht)
  | insert h ht hr ih =>
    obtain ⟨U, heap, hU⟩ := h.mem.heap
    obtain ⟨p0, hr, _⟩ := AHSet.insert_ok hr
    obtain ⟨b, hb, _, U', h1, _, h2, h3⟩ := (ATrie.insert_sim heap (hU _ (at' ht)) _ _ _).ok hr
    refine add ih ?_
    cases h3 with
    | ok _ _ _ _ _ => exact .insert (ih _ ht) ((ih _ ht).map.query _) (laws.refl _) (Res.bind_eq_ok.2 ⟨_, hb, rfl⟩)
  | remove h ht hr ih =>
    obtain ⟨U, heap, hU⟩ := h.mem.heap
    obtain ⟨b, hb, _, U', h1, _, h2, h3⟩ := (ATrie.remove_sim heap (hU _ (at' ht)) _).ok (AHSet.remove_ok hr)
    refine add ih ?_
    cases h3 with
    | some _ _ _ => exact .remove (ih _ ht) ((ih _ ht).map.query _) (Res.bind_eq_ok.2 ⟨_, hb, rfl⟩)
  | transform h ht hf hr ih =>
    obtain ⟨U, heap, hU⟩ := h.mem.heap
    rw [AHSet.transformE_eq] at hr
    obtain ⟨l₀, hr, ha⟩ := AHSet.wrapE_ret hr
    obtain ⟨b, hb, _, U', h1, _, h2, h3⟩ :=
      (ATrie.transformE_sim _ _ (MapTransform.asking_rel _ _) _ _ heap (hU _ (at' ht))).ok
        (Prog.eval_of_run hr (ha.answers hf))
    rw [← SetTransform.answering_toMap] at hb
    refine add ih (.transform (r := b.2) (ih _ ht) (HSet.wrap_ok.2 (hb.trans ?_)))
    exact congrArg Res.ok (Prod.ext h3.2.1.symm rfl)
  | transmute h ht hf km hr ih =>
    obtain ⟨U, heap, hU⟩ := h.mem.heap
    rw [AHSet.transmuteE_eq] at hr
    obtain ⟨l₀, hr, ha⟩ := AHSet.wrapE_ret hr
    obtain ⟨b, hb, _, U', h1, _, h2, h3⟩ :=
      (ATrie.transmuteE_sim _ _ (MapTransmute.asking_rel _ _) _ heap).ok (Prog.eval_of_run hr (ha.answers hf))
    rw [← SetTransmute.answering_toMap] at hb
    refine add ih (.transmute (r := b.2) ht laws km (HSet.wrap_ok.2 (hb.trans ?_)))
    exact congrArg Res.ok (Prod.ext h3.2.1.symm rfl)
  | transformWithTransmuted h ht hx hu cl hf con hr ih =>
    obtain ⟨U, heap, hU⟩ := h.mem.heap
    rw [AHSet.twmAsk_eq] at hr
    obtain ⟨l₀, hr, ha⟩ := AHSet.wrapE_ret hr
    obtain ⟨b, hb, _, U', h1, _, h2, h3⟩ :=
      (ATrie.twmE_sim _ _ _ (TwmKinds.asking_rel _ _) _ _ _ heap (hU _ (at' ht))).ok
        (Prog.eval_of_run hr (ha.answers hf))
    rw [← STwmKinds.ops_eq] at hb
    subst hx
    refine add ih (.transformWithTransmuted (r := b.2) (ih _ ht) hu cl con (HSet.wrap_ok.2 (hb.trans ?_)))
    exact congrArg Res.ok (Prod.ext h3.2.1.symm rfl)
  | transmuteWithTransformed h ht hu hx cl hf con hr ih =>
    obtain ⟨U, heap, hU⟩ := h.mem.heap
    rw [AHSet.mwtAsk_eq] at hr
    obtain ⟨l₀, hr, ha⟩ := AHSet.wrapE_ret hr
    obtain ⟨b, hb, _, U', h1, _, h2, h3⟩ :=
      (ATrie.mwtE_sim _ _ _ (MwtKinds.asking_rel _ _) _ _ _ heap (hU _ (at' hu))).ok
        (Prog.eval_of_run hr (ha.answers hf))
    rw [← SMwtKinds.ops_eq] at hb
    subst hx
    refine add ih (.transmuteWithTransformed (r := b.2) ht (ih _ hu) cl con (HSet.wrap_ok.2 (hb.trans ?_)))
    exact congrArg Res.ok (Prod.ext h3.2.1.symm rfl)
  | transmuteWithTransmuted h ht hu cl hf con hr ih =>
    obtain ⟨U, heap, hU⟩ := h.mem.heap
    rw [AHSet.mwmAsk_eq] at hr
    obtain ⟨l₀, hr, ha⟩ := AHSet.wrapE_ret hr
    obtain ⟨b, hb, _, U', h1, _, h2, h3⟩ :=
      (ATrie.mwmE_sim _ _ _ (MwmKinds.asking_rel _ _) _ _ heap).ok (Prog.eval_of_run hr (ha.answers hf))
    rw [← SMwmKinds.ops_eq] at hb
    refine add ih (.transmuteWithTransmuted (r := b.2) ht hu cl laws con (HSet.wrap_ok.2 (hb.trans ?_)))
    exact congrArg Res.ok (Prod.ext h3.2.1.symm rfl)
  | transformWithTransformed h ht hu hf tame hr ih =>
    obtain ⟨U, heap, hU⟩ := h.mem.heap
    rw [AHSet.twtAsk_eq] at hr
    obtain ⟨l₀, hr, ha⟩ := AHSet.wrapE_ret hr
    obtain ⟨b, hb, _, U', h1, _, h2, h3⟩ :=
      (ATrie.twtE_sim _ _ _ (TwtKinds.asking_rel _ _) _ _ _ heap (hU _ (at' ht)) (hU _ (at' hu))).ok
        (Prog.eval_of_run hr (ha.answers hf))
    rw [← STwtKinds.ops_eq] at hb
    refine add ih (.transformWithTransformed (r := b.2) (ih _ ht) (ih _ hu) tame (HSet.wrap_ok.2 (hb.trans ?_)))
    exact congrArg Res.ok (Prod.ext h3.2.1.symm rfl)
  | other _ _ ih => exact ih

/-! ### The transfute functions -/

section
variable {V W R σ : Type} {reduce : R → R → R} {e r : R} {s s' : Nat} {par : Par} {st st' : σ}

omit [BEq K] in
theorem SetTransmuteResult.at_key {k k' : K} {y : SetTransmuteResult W R} {w : W} {r : R}
    (h : y.at k = .transmuted k' w r) : k' = k := by
  cases y with
  | transmuted w' r' => cases h; rfl
  | removed r' => cases h

theorem TwfKinds.contract (laws : KeyLaws hash) (o : TwfKinds R) (f : (p : Case (K × V) (K × W)) → TwfAnswer K V W R p) :
    (o.kinds.answering (transTwf.answer f)).Contract (Cross.one hash) := by
  obtain ⟨b, l, right⟩ := o
  intro l w k v r h
  cases right with
  | generic =>
    have : k = l := SetTransmuteResult.at_key (y := f (.right (l, w))) h
    subst this
    exact laws.refl k
  | removed => cases h

theorem FwtKinds.contract (laws : KeyLaws hash) (o : FwtKinds R) (f : (p : Case (K × V) (K × W)) → FwtAnswer K V W R p) :
    (o.kinds.answering (transFwt.answer f)).Contract (Cross.one hash) := by
  obtain ⟨b, left, r⟩ := o
  intro k v l w r h
  cases left with
  | generic =>
    have : l = k := SetTransmuteResult.at_key (y := f (.left (k, v))) h
    subst this
    exact laws.refl l
  | removed => cases h

theorem Mem.transfuted (laws : KeyLaws hash) {vs : List (ATrie c K V)} {t t' : ATrie c K V}
    {u : ATrie c K W} {o : TwfKinds R}
    {env : (p : Case (K × V) (K × W)) → σ → Option (TwfAnswer K V W R p × σ)}
    {l : List (Reply _ (TwfAnswer K V W R))} {f : (p : Case (K × V) (K × W)) → TwfAnswer K V W R p}
    (h : Mem hash s vs) (ht : t ∈ vs) (hu : Reach c hash u.erase) (hf : Answers f l)
    (hr : (ATrie.twfAsk reduce e hash o par t u).run s env st = (.ret (((t', r), s'), st'), l)) :
    Mem hash s' (vs ++ [t']) := by
  rw [ATrie.twfAsk_eq] at hr
  obtain ⟨l₀, h1, h2⟩ := Prog.sub_ret hr
  exact .transformWithTransmutedE (x := Cross.one hash) h ht rfl hu (CrossLaws.same laws) (h2.answers hf)
    (o.contract laws f) h1

theorem Mem.transfuting (laws : KeyLaws hash) {vs : List (ATrie c K W)} {t : ATrie c K V}
    {u t' : ATrie c K W} {o : FwtKinds R}
    {env : (p : Case (K × V) (K × W)) → σ → Option (FwtAnswer K V W R p × σ)}
    {l : List (Reply _ (FwtAnswer K V W R))} {f : (p : Case (K × V) (K × W)) → FwtAnswer K V W R p}
    (h : Mem hash s vs) (ht : Reach c hash t.erase) (hu : u ∈ vs) (hf : Answers f l)
    (hr : (ATrie.fwtAsk reduce e hash o par t u).run s env st = (.ret (((t', r), s'), st'), l)) :
    Mem hash s' (vs ++ [t']) := by
  rw [ATrie.fwtAsk_eq] at hr
  obtain ⟨l₀, h1, h2⟩ := Prog.sub_ret hr
  exact .transmuteWithTransformedE (x := Cross.one hash) h ht hu rfl (CrossLaws.same laws) (h2.answers hf)
    (o.contract laws f) h1

end
end HT
