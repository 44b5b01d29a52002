import Verif.FitsTrie
import Verif.ThreadLemmas
/-! # What the map stored by a call points to -/
namespace HT

variable {Var K V R St : Type} {c : Cfg}

theorem bulk_fits {Q : Type} {A : Q → Type} {dst : Var} {mk : Outcome Q (R × St) → List (Reply Q A) → TObs K V R St}
    {x : Prog Q A (ATrie c K V × R)} {U : ANode c.n K V → Prop} {s : Nat} (hx : Fits U s x (fun U' => OutP U'))
    {env : (q : Q) → St → Option (A q × St)} {st : St} {d : Var} {t : ATrie c K V}
    (h : (bulk dst mk (x.run s env st)).2 = some (d, some t)) : ∃ U' s', HeapGrown U s U' s' ∧ U' t.root := by
  unfold bulk Outcome.kept at h
  unfold Prog.run at h
  cases hr : (Tree.run env (x s) st).1 with
  | ret a =>
    simp only [hr, Option.some.injEq, Prod.mk.injEq] at h
    obtain ⟨U', g, _, hp⟩ := Tree.All.run hx env st hr
    exact ⟨U', _, g, h.2 ▸ hp.1⟩
  | panic p => simp [hr] at h
  | diverge => simp [hr] at h
  | closure q => simp [hr] at h

variable [BEq K] (hash : K → BitVec c.w)

/-- The map that a call stores consists of nodes that were there before and of nodes at new addresses, and different
    nodes have different addresses. -/
theorem TCall.eval_fits (call : TCall Var K V R St) (σ : Store c Var K V) {U : ANode c.n K V → Prop} {s : Nat}
    (heap : Heap U s) (hU : ∀ x ∈ call.reads, ∀ t, σ x = some t → U t.root) {d : Var} {t : ATrie c K V}
    (h : (call.eval hash σ s).2 = some (d, some t)) : ∃ U' s', HeapGrown U s U' s' ∧ U' t.root := by
  have o1 : ∀ {o : Option (ATrie c K V)} {F : ATrie c K V → TObs K V R St × TEffect c Var K V},
      (on1 o F).2 = some (d, some t) → ∃ u, o = some u ∧ (F u).2 = some (d, some t) := by
    intro o F h
    cases o with
    | none => simp [on1] at h
    | some u => exact ⟨u, rfl, h⟩
  have o2 : ∀ {o p : Option (ATrie c K V)} {F : ATrie c K V → ATrie c K V → TObs K V R St × TEffect c Var K V},
      (on2 o p F).2 = some (d, some t) → ∃ u v, o = some u ∧ p = some v ∧ (F u v).2 = some (d, some t) := by
    intro o p F h
    cases o with
    | none => simp [on2] at h
    | some u =>
      cases p with
      | none => simp [on2] at h
      | some v => exact ⟨u, v, rfl, rfl, h⟩
  cases call with
  | new d' =>
    have h := (show (newOut d' (ATrie.new c s) : TObs K V R St × TEffect c Var K V).2 = _ from h)
    cases hr : (ATrie.new c s : Res (ATrie c K V × Nat)) with
    | ok p =>
      obtain ⟨t', s'⟩ := p
      simp only [hr, newOut, Option.some.injEq, Prod.mk.injEq] at h
      obtain ⟨_, _, le, U', h1, h1', h2, h3⟩ := (ATrie.new_sim heap).ok hr
      exact ⟨U', _, ⟨le, h1, h1', h2⟩, h.2 ▸ h3.1⟩
    | panic p => simp [hr, newOut] at h
    | diverge => simp [hr, newOut] at h
  | clone x d' =>
    obtain ⟨u, hu, h⟩ := o1 h
    simp only [Option.some.injEq, Prod.mk.injEq] at h
    exact ⟨U, s, .refl heap, h.2 ▸ hU x (by simp [TCall.reads]) u hu⟩
  | drop x =>
    obtain ⟨u, hu, h⟩ := o1 h
    simp at h
  | insert x k v replace d' =>
    obtain ⟨u, hu, h⟩ := o1 h
    have hu := hU x (by simp [TCall.reads]) u hu
    cases hr : u.insert hash k v replace s with
    | ok p =>
      obtain ⟨q, s'⟩ := p
      cases q with
      | error e => simp [hr, insertOut] at h
      | ok q =>
        obtain ⟨t', ptr, prev⟩ := q
        simp only [hr, insertOut, Option.some.injEq, Prod.mk.injEq] at h
        obtain ⟨_, _, le, U', h1, h1', h2, h3⟩ := (ATrie.insert_sim heap hu _ _ _).ok hr
        refine ⟨U', _, ⟨le, h1, h1', h2⟩, ?_⟩
        rw [← h.2]
        cases h3 with
        | ok _ _ _ _ h => exact h
    | panic p => simp [hr, insertOut] at h
    | diverge => simp [hr, insertOut] at h
  | remove x k d' =>
    obtain ⟨u, hu, h⟩ := o1 h
    have hu := hU x (by simp [TCall.reads]) u hu
    cases hr : u.remove hash k s with
    | ok p =>
      obtain ⟨q, s'⟩ := p
      cases q with
      | none => simp [hr, removeOut] at h
      | some q =>
        obtain ⟨t', e⟩ := q
        simp only [hr, removeOut, Option.some.injEq, Prod.mk.injEq] at h
        obtain ⟨_, _, le, U', h1, h1', h2, h3⟩ := (ATrie.remove_sim heap hu _).ok hr
        refine ⟨U', _, ⟨le, h1, h1', h2⟩, ?_⟩
        rw [← h.2]
        cases h3 with
        | some _ _ h => exact h
    | panic p => simp [hr, removeOut] at h
    | diverge => simp [hr, removeOut] at h
  | find x k => obtain ⟨u, hu, h⟩ := o1 h; simp at h
  | size x => obtain ⟨u, hu, h⟩ := o1 h; simp at h
  | visit x => obtain ⟨u, hu, h⟩ := o1 h; simp at h
  | eq x y => obtain ⟨u, v, hu, hv, h⟩ := o2 h; simp at h
  | transform x reduce e o par env st d' =>
    obtain ⟨u, hu, h⟩ := o1 h
    exact bulk_fits (ATrie.transformE_fits reduce e o.asking_still par u heap (hU x (by simp [TCall.reads]) u hu)) h
  | transmute x reduce e o env st d' =>
    obtain ⟨u, hu, h⟩ := o1 h
    exact bulk_fits (ATrie.transmuteE_fits reduce e o.asking_still u heap) h
  | transformWithTransformed x y reduce e o par env st d' =>
    obtain ⟨u, v, hu, hv, h⟩ := o2 h
    exact bulk_fits (ATrie.twtE_fits reduce e hash o.asking_still par u v heap (hU x (by simp [TCall.reads]) u hu)
      (hU y (by simp [TCall.reads]) v hv)) h
  | transformWithTransmuted x y reduce e o par env st d' =>
    obtain ⟨u, v, hu, hv, h⟩ := o2 h
    exact bulk_fits (ATrie.twmE_fits (Cross.same hash) reduce e o.asking_still par u v heap
      (hU x (by simp [TCall.reads]) u hu)) h
  | transmuteWithTransformed x y reduce e o par env st d' =>
    obtain ⟨u, v, hu, hv, h⟩ := o2 h
    exact bulk_fits (ATrie.mwtE_fits (Cross.same hash) reduce e o.asking_still par u v heap
      (hU y (by simp [TCall.reads]) v hv)) h
  | transmuteWithTransmuted x y reduce e o env st d' =>
    obtain ⟨u, v, hu, hv, h⟩ := o2 h
    exact bulk_fits (ATrie.mwmE_fits (Cross.same hash) reduce e o.asking_still u v heap) h

end HT
