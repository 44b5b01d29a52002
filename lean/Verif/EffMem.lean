import Verif.EffApi
/-! # Histories of calls, in memory -/
namespace HT

variable {K V : Type} {c : Cfg} [BEq K] {hash : K → BitVec c.w}

/-- The next free address and the maps (of one type) a program holds after a history of calls, each on any maps obtained
    before: `new`, `clone`, `insert`, `remove`, `transform`, and the six bulk and joint operations with closures that
    may have state, panic or not return (`env` is what the closures do in that call, `l` their calls and replies, `f` a
    function that answers as they did; such a function always exists, `C50`).  A map that is given to a call and
    is of another type is any map that can be obtained (`Reach`).  As in `Reach`, where the unsafe functions have a
    contract the answers given by the closures obey it, and for `transform_with_transformed` they are tame.  `other` is
    anything else that allocates: calls on maps of other types, calls that do not return because a closure panics. -/
inductive Mem (hash : K → BitVec c.w) : Nat → List (ATrie c K V) → Prop
  | start (s : Nat) : Mem hash s []
  | new {s s' : Nat} {vs : List (ATrie c K V)} {t : ATrie c K V} (h : Mem hash s vs)
      (hr : ATrie.new c s = .ok (t, s')) : Mem hash s' (vs ++ [t])
  | clone {s : Nat} {vs : List (ATrie c K V)} {t : ATrie c K V} (h : Mem hash s vs) (ht : t ∈ vs) :
      Mem hash s (vs ++ [t.clone])
  | insert {s s' : Nat} {vs : List (ATrie c K V)} {t t' : ATrie c K V} {k : K} {v : V} {replace : Bool}
      {ptr : Nat} {prev : Option (K × V)} (h : Mem hash s vs) (ht : t ∈ vs)
      (hr : t.insert hash k v replace s = .ok (.ok (t', ptr, prev), s')) : Mem hash s' (vs ++ [t'])
  | remove {s s' : Nat} {vs : List (ATrie c K V)} {t t' : ATrie c K V} {k : K} {e : K × V}
      (h : Mem hash s vs) (ht : t ∈ vs)
      (hr : t.remove hash k s = .ok (some (t', e), s')) : Mem hash s' (vs ++ [t'])
  | transform {s s' : Nat} {vs : List (ATrie c K V)} {t t' : ATrie c K V} {R : Type} {reduce : R → R → R}
      {e r : R} {op : MapTransform R (K → V → MapTransformResult V R)} {par : Par}
      (h : Mem hash s vs) (ht : t ∈ vs)
      (hr : t.transform reduce e op par s = .ok ((t', r), s')) : Mem hash s' (vs ++ [t'])
  | transformE {s s' : Nat} {vs : List (ATrie c K V)} {t t' : ATrie c K V} {R σ : Type} {reduce : R → R → R} {e r : R}
      {o : MapTransform R Unit} {par : Par} {env : (p : K × V) → σ → Option (MapTransformResult V R × σ)} {st st' : σ}
      {l : List (Reply (K × V) fun _ => MapTransformResult V R)} {f : K × V → MapTransformResult V R}
      (h : Mem hash s vs) (ht : t ∈ vs) (hf : Answers f l)
      (hr : (t.transformE reduce e o.asking par).run s env st = (.ret (((t', r), s'), st'), l)) : Mem hash s' (vs ++ [t'])
  | transmuteE {s s' : Nat} {vs : List (ATrie c K V)} {t' : ATrie c K V} {L W R σ : Type} [BEq L]
      {hash₀ : L → BitVec c.w} {t : ATrie c L W} {reduce : R → R → R} {e r : R} {o : MapTransmute R Unit}
      {env : (p : L × W) → σ → Option (MapTransmuteResult K V R × σ)} {st st' : σ}
      {l : List (Reply (L × W) fun _ => MapTransmuteResult K V R)} {f : L × W → MapTransmuteResult K V R}
      (h : Mem hash s vs) (ht : Reach c hash₀ t.erase) (hf : Answers f l)
      (km : KeyMap hash₀ hash (o.answering f).closure)
      (hr : (t.transmuteE reduce e o.asking).run s env st = (.ret (((t', r), s'), st'), l)) : Mem hash s' (vs ++ [t'])
  | transformWithTransmutedE {s s' : Nat} {vs : List (ATrie c K V)} {t t' : ATrie c K V} {L W R σ : Type} [BEq L]
      {x : Cross c K L} {u : ATrie c L W} {reduce : R → R → R} {e r : R} {o : TwmKinds R} {par : Par}
      {env : (p : Case (K × V) (L × W)) → σ → Option (TwmAnswer K V L W R p × σ)} {st st' : σ}
      {l : List (Reply _ (TwmAnswer K V L W R))} {f : (p : Case (K × V) (L × W)) → TwmAnswer K V L W R p}
      (h : Mem hash s vs) (ht : t ∈ vs) (hx : x.hash = hash) (hu : Reach c x.hash' u.erase) (laws : CrossLaws x)
      (hf : Answers f l) (con : (o.answering f).Contract x)
      (hr : (ATrie.twmE x reduce e o.asking par t u).run s env st = (.ret (((t', r), s'), st'), l)) :
      Mem hash s' (vs ++ [t'])
  | transmuteWithTransformedE {s s' : Nat} {vs : List (ATrie c K V)} {u t' : ATrie c K V} {L W R σ : Type} [BEq L]
      {x : Cross c L K} {t : ATrie c L W} {reduce : R → R → R} {e r : R} {o : MwtKinds R} {par : Par}
      {env : (p : Case (L × W) (K × V)) → σ → Option (MwtAnswer L W K V R p × σ)} {st st' : σ}
      {l : List (Reply _ (MwtAnswer L W K V R))} {f : (p : Case (L × W) (K × V)) → MwtAnswer L W K V R p}
      (h : Mem hash s vs) (ht : Reach c x.hash t.erase) (hu : u ∈ vs) (hx : x.hash' = hash) (laws : CrossLaws x)
      (hf : Answers f l) (con : (o.answering f).Contract x)
      (hr : (ATrie.mwtE x reduce e o.asking par t u).run s env st = (.ret (((t', r), s'), st'), l)) :
      Mem hash s' (vs ++ [t'])
  | transmuteWithTransmutedE {s s' : Nat} {vs : List (ATrie c K V)} {t' : ATrie c K V} {L W S X R σ : Type} [BEq L] [BEq S]
      {x : Cross c L S} {t : ATrie c L W} {u : ATrie c S X} {reduce : R → R → R} {e r : R} {o : MwmKinds R}
      {env : (p : Case (L × W) (S × X)) → σ → Option (MwmAnswer L W S X K V R p × σ)} {st st' : σ}
      {l : List (Reply _ (MwmAnswer L W S X K V R))} {f : (p : Case (L × W) (S × X)) → MwmAnswer L W S X K V R p}
      (h : Mem hash s vs) (ht : Reach c x.hash t.erase) (hu : Reach c x.hash' u.erase) (laws : CrossLaws x)
      (hf : Answers f l) (con : (o.answering f).Contract x hash)
      (hr : (ATrie.mwmE x reduce e o.asking t u).run s env st = (.ret (((t', r), s'), st'), l)) :
      Mem hash s' (vs ++ [t'])
  | transformWithTransformedE {s s' : Nat} {vs : List (ATrie c K V)} {t u t' : ATrie c K V} {R σ : Type}
      {reduce : R → R → R} {e r : R} {o : TwtKinds R} {par : Par}
      {env : (p : Case (K × V) (K × V)) → σ → Option (TwtAnswer K V R p × σ)} {st st' : σ}
      {l : List (Reply _ (TwtAnswer K V R))} {f : (p : Case (K × V) (K × V)) → TwtAnswer K V R p}
      (h : Mem hash s vs) (ht : t ∈ vs) (hu : u ∈ vs) (hf : Answers f l)
      (tame : (o.answering f).Tame hash t.erase.visit u.erase.visit)
      (hr : (ATrie.twtE reduce e hash o.asking par t u).run s env st = (.ret (((t', r), s'), st'), l)) :
      Mem hash s' (vs ++ [t'])
  | other {s s' : Nat} {vs : List (ATrie c K V)} (h : Mem hash s vs) (hs : s ≤ s') : Mem hash s' vs

theorem Mem.heap {s : Nat} {vs : List (ATrie c K V)} (h : Mem hash s vs) :
    ∃ U, Heap U s ∧ ∀ t ∈ vs, U t.root := by
  have add : ∀ {U U' : ANode c.n K V → Prop} {vs : List (ATrie c K V)} {t : ATrie c K V},
      (∀ z, U z → U' z) → (∀ t ∈ vs, U t.root) → U' t.root → ∀ u ∈ vs ++ [t], U' u.root := by
    intro U U' vs t hs h1 h2 u hu
    rcases List.mem_append.1 hu with hu | hu
    · exact hs _ (h1 u hu)
    · rw [List.mem_singleton.1 hu]; exact h2
  induction h with
  | start s => exact ⟨fun _ => False, ⟨by simp, by simp, by simp⟩, by simp⟩
  | new _ hr ih =>
    obtain ⟨U, heap, hU⟩ := ih
    obtain ⟨_, _, _, U', h1, _, h2, h3⟩ := (ATrie.new_sim heap).ok hr
    exact ⟨U', h2, add h1 hU h3.1⟩
  | clone _ ht ih =>
    obtain ⟨U, heap, hU⟩ := ih
    exact ⟨U, heap, add (fun _ h => h) hU (hU _ ht)⟩
  | insert _ ht hr ih =>
    obtain ⟨U, heap, hU⟩ := ih
    obtain ⟨_, _, _, U', h1, _, h2, h3⟩ := (ATrie.insert_sim heap (hU _ ht) _ _ _).ok hr
    refine ⟨U', h2, add h1 hU ?_⟩
    cases h3 with
    | ok _ _ _ _ h => exact h
  | remove _ ht hr ih =>
    obtain ⟨U, heap, hU⟩ := ih
    obtain ⟨_, _, _, U', h1, _, h2, h3⟩ := (ATrie.remove_sim heap (hU _ ht) _).ok hr
    refine ⟨U', h2, add h1 hU ?_⟩
    cases h3 with
    | some _ _ h => exact h
  | transform _ ht hr ih =>
    obtain ⟨U, heap, hU⟩ := ih
    obtain ⟨_, _, _, U', h1, _, h2, h3⟩ := (ATrie.transform_sim heap (hU _ ht) _ _ _ _).ok hr
    exact ⟨U', h2, add h1 hU h3.1.1⟩
  | transformE _ ht hf hr ih =>
    obtain ⟨U, heap, hU⟩ := ih
    obtain ⟨_, _, _, U', h1, _, h2, h3⟩ :=
      (ATrie.transformE_sim _ _ (MapTransform.asking_rel _ _) _ _ heap (hU _ ht)).ok (Prog.eval_of_run hr hf)
    exact ⟨U', h2, add h1 hU h3.1⟩
  | transmuteE _ _ hf _ hr ih =>
    obtain ⟨U, heap, hU⟩ := ih
    obtain ⟨_, _, _, U', h1, _, h2, h3⟩ :=
      (ATrie.transmuteE_sim _ _ (MapTransmute.asking_rel _ _) _ heap).ok (Prog.eval_of_run hr hf)
    exact ⟨U', h2, add h1 hU h3.1⟩
  | transformWithTransmutedE _ ht _ _ _ hf _ hr ih =>
    obtain ⟨U, heap, hU⟩ := ih
    obtain ⟨_, _, _, U', h1, _, h2, h3⟩ :=
      (ATrie.twmE_sim _ _ _ (TwmKinds.asking_rel _ _) _ _ _ heap (hU _ ht)).ok (Prog.eval_of_run hr hf)
    exact ⟨U', h2, add h1 hU h3.1⟩
  | transmuteWithTransformedE _ _ hu _ _ hf _ hr ih =>
    obtain ⟨U, heap, hU⟩ := ih
    obtain ⟨_, _, _, U', h1, _, h2, h3⟩ :=
      (ATrie.mwtE_sim _ _ _ (MwtKinds.asking_rel _ _) _ _ _ heap (hU _ hu)).ok (Prog.eval_of_run hr hf)
    exact ⟨U', h2, add h1 hU h3.1⟩
  | transmuteWithTransmutedE _ _ _ _ hf _ hr ih =>
    obtain ⟨U, heap, hU⟩ := ih
    obtain ⟨_, _, _, U', h1, _, h2, h3⟩ :=
      (ATrie.mwmE_sim _ _ _ (MwmKinds.asking_rel _ _) _ _ heap).ok (Prog.eval_of_run hr hf)
    exact ⟨U', h2, add h1 hU h3.1⟩
  | transformWithTransformedE _ ht hu hf _ hr ih =>
    obtain ⟨U, heap, hU⟩ := ih
    obtain ⟨_, _, _, U', h1, _, h2, h3⟩ :=
      (ATrie.twtE_sim _ _ _ (TwtKinds.asking_rel _ _) _ _ _ heap (hU _ ht) (hU _ hu)).ok (Prog.eval_of_run hr hf)
    exact ⟨U', h2, add h1 hU h3.1⟩
  | other _ hs ih =>
    obtain ⟨U, heap, hU⟩ := ih
    exact ⟨U, ⟨fun x hx => Nat.lt_of_lt_of_le (heap.lt x hx) hs, heap.kids, heap.inj⟩, hU⟩

theorem Mem.reach (laws : KeyLaws hash) {s : Nat} {vs : List (ATrie c K V)} (h : Mem hash s vs) :
    ∀ t ∈ vs, Reach c hash t.erase := by
  have add : ∀ {vs : List (ATrie c K V)} {t : ATrie c K V}, (∀ t ∈ vs, Reach c hash t.erase) →
      Reach c hash t.erase → ∀ u ∈ vs ++ [t], Reach c hash u.erase := by
    intro vs t h1 h2 u hu
    rcases List.mem_append.1 hu with hu | hu
    · exact h1 u hu
    · rw [List.mem_singleton.1 hu]; exact h2
  induction h with
  | start s => simp
  | new h hr ih =>
    obtain ⟨U, heap, hU⟩ := h.heap
    obtain ⟨b, hb, _, U', h1, _, h2, h3⟩ := (ATrie.new_sim heap).ok hr
    injection hb with hb
    refine add ih ?_
    rw [h3.2.2.2, ← hb]
    exact .new laws
  | clone _ ht ih => exact add ih (ih _ ht)
  | insert h ht hr ih =>
    obtain ⟨U, heap, hU⟩ := h.heap
    obtain ⟨b, hb, _, U', h1, _, h2, h3⟩ := (ATrie.insert_sim heap (hU _ ht) _ _ _).ok hr
    refine add ih ?_
    cases h3 with
    | ok _ o p prev _ => exact .insert (ih _ ht) ((ih _ ht).query _) (laws.refl _) hb
  | remove h ht hr ih =>
    obtain ⟨U, heap, hU⟩ := h.heap
    obtain ⟨b, hb, _, U', h1, _, h2, h3⟩ := (ATrie.remove_sim heap (hU _ ht) _).ok hr
    refine add ih ?_
    cases h3 with
    | some _ _ _ => exact .remove (ih _ ht) ((ih _ ht).query _) hb
  | transform h ht hr ih =>
    obtain ⟨U, heap, hU⟩ := h.heap
    obtain ⟨b, hb, _, U', h1, _, h2, h3⟩ := (ATrie.transform_sim heap (hU _ ht) _ _ _ _).ok hr
    refine add ih ?_
    rw [h3.1.2.1]
    exact .transform (ih _ ht) hb
  | transformE h ht hf hr ih =>
    obtain ⟨U, heap, hU⟩ := h.heap
    obtain ⟨b, hb, _, U', h1, _, h2, h3⟩ :=
      (ATrie.transformE_sim _ _ (MapTransform.asking_rel _ _) _ _ heap (hU _ ht)).ok (Prog.eval_of_run hr hf)
    refine add ih ?_
    rw [h3.2.1]
    exact .transform (ih _ ht) hb
  | transmuteE h ht hf km hr ih =>
    obtain ⟨U, heap, hU⟩ := h.heap
    obtain ⟨b, hb, _, U', h1, _, h2, h3⟩ :=
      (ATrie.transmuteE_sim _ _ (MapTransmute.asking_rel _ _) _ heap).ok (Prog.eval_of_run hr hf)
    refine add ih ?_
    rw [h3.2.1]
    exact .transmute ht laws km hb
  | transformWithTransmutedE h ht hx hu cl hf con hr ih =>
    obtain ⟨U, heap, hU⟩ := h.heap
    obtain ⟨b, hb, _, U', h1, _, h2, h3⟩ :=
      (ATrie.twmE_sim _ _ _ (TwmKinds.asking_rel _ _) _ _ _ heap (hU _ ht)).ok (Prog.eval_of_run hr hf)
    refine add ih ?_
    rw [h3.2.1]
    exact (by subst hx; exact .transformWithTransmuted (ih _ ht) hu cl con hb)
  | transmuteWithTransformedE h ht hu hx cl hf con hr ih =>
    obtain ⟨U, heap, hU⟩ := h.heap
    obtain ⟨b, hb, _, U', h1, _, h2, h3⟩ :=
      (ATrie.mwtE_sim _ _ _ (MwtKinds.asking_rel _ _) _ _ _ heap (hU _ hu)).ok (Prog.eval_of_run hr hf)
    refine add ih ?_
    rw [h3.2.1]
    exact (by subst hx; exact .transmuteWithTransformed ht (ih _ hu) cl con hb)
  | transmuteWithTransmutedE h ht hu cl hf con hr ih =>
    obtain ⟨U, heap, hU⟩ := h.heap
    obtain ⟨b, hb, _, U', h1, _, h2, h3⟩ :=
      (ATrie.mwmE_sim _ _ _ (MwmKinds.asking_rel _ _) _ _ heap).ok (Prog.eval_of_run hr hf)
    refine add ih ?_
    rw [h3.2.1]
    exact .transmuteWithTransmuted ht hu cl laws con hb
  | transformWithTransformedE h ht hu hf tame hr ih =>
    obtain ⟨U, heap, hU⟩ := h.heap
    obtain ⟨b, hb, _, U', h1, _, h2, h3⟩ :=
      (ATrie.twtE_sim _ _ _ (TwtKinds.asking_rel _ _) _ _ _ heap (hU _ ht) (hU _ hu)).ok (Prog.eval_of_run hr hf)
    refine add ih ?_
    rw [h3.2.1]
    exact .transformWithTransformed (ih _ ht) (ih _ hu) tame hb
  | other _ _ ih => exact ih

end HT
