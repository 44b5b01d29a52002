import Verif.Mixed
import Verif.JointFind
import Verif.JointExamples
import Verif.Props.Histories
/-!
# Property C17: histories that mix all operations

The specification is `Verif/MixedSpec.lean`.  `Trie.mrun` performs a list of API calls on a program's collection of
versions; `AMap.MRun` says which answers and versions are right.
-/
namespace HT

variable {K V R : Type} [BEq K] {c : Cfg} {hash : K → BitVec c.w}

theorem reach_append {vs : List (Trie c K V)} {t : Trie c K V} (h : ∀ t ∈ vs, Reach c hash t)
    (ht : Reach c hash t) : ∀ u ∈ vs ++ [t], Reach c hash u := by
  intro u hu
  rcases List.mem_append.1 hu with hu | hu
  · exact h u hu
  · rw [List.mem_singleton.1 hu]; exact ht

theorem Trie.step_reach {vs vs' : List (Trie c K V)} (h : ∀ t ∈ vs, Reach c hash t) {op : Op K V} {o : Out K V}
    (hr : Trie.step hash vs op = .ok (o, vs')) : ∃ ext, vs' = vs ++ ext ∧ ∀ t ∈ vs', Reach c hash t := by
  have nil : vs = vs' → ∃ ext, vs' = vs ++ ext ∧ ∀ t ∈ vs', Reach c hash t := by
    rintro rfl; exact ⟨[], by simp, h⟩
  cases op <;> simp only [Trie.step] at hr <;> split at hr
  all_goals first
    | (injection hr with hr; injection hr with _ hr; exact nil hr)
    | skip
  all_goals
    rename_i t hv
    have ht := h t (List.mem_of_getElem? hv)
    rw [Res.bind_eq_ok] at hr
    obtain ⟨r, h1, hr⟩ := hr
    split at hr <;> injection hr with hr <;> injection hr with _ hr <;> first
      | exact nil hr
      | skip
  · subst hr
    exact ⟨_, rfl, reach_append h (.insert ht (ht.query _) (ht.laws.refl _) h1)⟩
  · subst hr
    exact ⟨_, rfl, reach_append h (.remove ht (ht.query _) h1)⟩

/-- The abstract step of one of the single-map operations does not depend on anything but the entries. -/
theorem Trie.step_right (laws : KeyLaws hash) {vs vs' : List (Trie c K V)} (h : ∀ t ∈ vs, Reach c hash t)
    {op : Op K V} {o : Out K V} (hr : Trie.step hash vs op = .ok (o, vs')) :
    o.Same (AMap.step (vs.map Trie.visit) op).1 ∧
      Pointwise List.Perm (vs'.map Trie.visit) (AMap.step (vs.map Trie.visit) op).2 := by
  have selfp : ∀ l : List (AMap K V), Pointwise List.Perm l l := by
    intro l
    induction l with
    | nil => trivial
    | cons a l ih => exact ⟨List.Perm.refl _, ih⟩
  have grow : ∀ (l : List (AMap K V)) {m m' : AMap K V}, m.Perm m' →
      Pointwise List.Perm (l ++ [m]) (l ++ [m']) := by
    intro l m m' hp
    exact (selfp l).append hp
  cases op with
  | insert src k v replace =>
    simp only [Trie.step, AMap.step, List.getElem?_map] at hr ⊢
    cases hv : vs[src]? with
    | none => rw [hv] at hr; injection hr with hr; injection hr with h1 h2; subst h1 h2; exact ⟨rfl, selfp _⟩
    | some t =>
      rw [hv] at hr
      simp only [Option.map_some] at hr ⊢
      have ht := h t (List.mem_of_getElem? hv)
      rw [Res.bind_eq_ok] at hr
      obtain ⟨r, h1, hr⟩ := hr
      rcases ht.insertQ v replace (ht.query k) (laws.refl k) with ⟨r', h2, good⟩ | ⟨_, h2⟩
      · have e1 : Res.ok r = Res.ok r' := h1.symm.trans h2
        injection e1 with e1; subst e1
        cases good with
        | err e h3 h4 =>
          injection hr with hr; injection hr with h5 h6; subst h5 h6
          subst h3
          have hf : AMap.find t.visit k = some e := h4
          simp only [AMap.insert, hf]
          exact ⟨rfl, selfp _⟩
        | ok t' prev h3 h4 h5 h6 =>
          injection hr with hr; injection hr with h7 h8; subst h7 h8
          have hf : AMap.find t.visit k = prev := h3.symm
          simp only [AMap.insert, hf]
          have hp : t'.visit.Perm ((k, v) :: AMap.without t.visit k) := h6
          cases prev with
          | none => exact ⟨rfl, by rw [List.map_append]; exact grow _ hp⟩
          | some e =>
            have : replace = true := by simpa using h4
            subst this
            exact ⟨rfl, by rw [List.map_append]; exact grow _ hp⟩
      · have e1 := h1.symm.trans h2; simp at e1
  | remove src k =>
    simp only [Trie.step, AMap.step, List.getElem?_map] at hr ⊢
    cases hv : vs[src]? with
    | none => rw [hv] at hr; injection hr with hr; injection hr with h1 h2; subst h1 h2; exact ⟨rfl, selfp _⟩
    | some t =>
      rw [hv] at hr
      simp only [Option.map_some] at hr ⊢
      have ht := h t (List.mem_of_getElem? hv)
      rw [Res.bind_eq_ok] at hr
      obtain ⟨r, h1, hr⟩ := hr
      rcases ht.removeQ (ht.query k) with ⟨r', h2, good⟩ | ⟨_, h2⟩
      · have e1 : Res.ok r = Res.ok r' := h1.symm.trans h2
        injection e1 with e1; subst e1
        cases good with
        | none h3 =>
          injection hr with hr; injection hr with h5 h6; subst h5 h6
          have hf : AMap.find t.visit k = none := h3
          simp only [AMap.remove, hf, Option.map_none]
          exact ⟨rfl, selfp _⟩
        | some t' e h3 h4 h5 =>
          injection hr with hr; injection hr with h7 h8; subst h7 h8
          have hf : AMap.find t.visit k = some e := h3
          simp only [AMap.remove, hf, Option.map_some]
          exact ⟨rfl, by rw [List.map_append]; exact grow _ (h5 ▸ List.Perm.refl _)⟩
      · have e1 := h1.symm.trans h2; simp at e1
  | find src k =>
    simp only [Trie.step, AMap.step, List.getElem?_map] at hr ⊢
    cases hv : vs[src]? with
    | none => rw [hv] at hr; injection hr with hr; injection hr with h1 h2; subst h1 h2; exact ⟨rfl, selfp _⟩
    | some t =>
      rw [hv] at hr
      simp only [Option.map_some] at hr ⊢
      have ht := h t (List.mem_of_getElem? hv)
      rw [ht.find k] at hr
      simp only [Res.ok_bind] at hr
      simp only [AMap.find]
      split at hr <;> rename_i hf <;> injection hr with hr <;> injection hr with h1 h2 <;> subst h1 h2 <;>
        rw [hf] <;> exact ⟨rfl, selfp _⟩
  | size src =>
    simp only [Trie.step, AMap.step, List.getElem?_map] at hr ⊢
    cases hv : vs[src]? with
    | none => rw [hv] at hr; injection hr with hr; injection hr with h1 h2; subst h1 h2; exact ⟨rfl, selfp _⟩
    | some t =>
      rw [hv] at hr
      have ht := h t (List.mem_of_getElem? hv)
      injection hr with hr; injection hr with h1 h2; subst h1 h2
      exact ⟨congrArg Out.size ht.size, selfp _⟩
  | visit src =>
    simp only [Trie.step, AMap.step, List.getElem?_map] at hr ⊢
    cases hv : vs[src]? with
    | none => rw [hv] at hr; injection hr with hr; injection hr with h1 h2; subst h1 h2; exact ⟨rfl, selfp _⟩
    | some t =>
      rw [hv] at hr
      injection hr with hr; injection hr with h1 h2; subst h1 h2
      exact ⟨List.Perm.refl _, selfp _⟩

/-- The outcome of a call. -/
def GoodStep (hash : K → BitVec c.w) (reduce : R → R → R) (e : R) (vs : List (Trie c K V)) (op : MOp K V R)
    (x : Res (MOut K V R × List (Trie c K V))) : Prop :=
  (c.checked = false → ∀ p, x ≠ .panic p) ∧
  ∀ o vs', x = .ok (o, vs') → (∀ t ∈ vs', Reach c hash t) ∧
    AMap.MStep reduce e (vs.map Trie.visit) op o (vs'.map Trie.visit)

theorem good_keep {reduce : R → R → R} {e : R} {vs : List (Trie c K V)} {op : MOp K V R}
    {x : Res (Trie c K V × R)} (h : ∀ t ∈ vs, Reach c hash t) (np : ∀ p, x ≠ .panic p)
    (hx : ∀ t r, x = .ok (t, r) → Reach c hash t ∧
      AMap.MStep reduce e (vs.map Trie.visit) op (.reduced r) (vs.map Trie.visit ++ [t.visit])) :
    GoodStep hash reduce e vs op (Trie.keep vs x) := by
  unfold Trie.keep
  cases x with
  | ok r =>
    obtain ⟨t, r⟩ := r
    refine ⟨fun _ _ => by simp, ?_⟩
    intro o vs' hr
    injection hr with hr; injection hr with h1 h2; subst h1 h2
    obtain ⟨h3, h4⟩ := hx t r rfl
    exact ⟨reach_append h h3, by rw [List.map_append]; exact h4⟩
  | panic p => exact absurd rfl (np p)
  | diverge => exact ⟨fun _ _ => by simp, by simp⟩

theorem good_pick2 {reduce : R → R → R} {e : R} {vs : List (Trie c K V)} {op : MOp K V R}
    (hop : ∀ o, op ≠ .one o) {i j : Nat} (hs : op.sources = [i, j]) {f : Trie c K V → Trie c K V → Res (Trie c K V × R)}
    (h : ∀ t ∈ vs, Reach c hash t)
    (hx : ∀ t u, vs[i]? = some t → vs[j]? = some u → Reach c hash t → Reach c hash u →
      (∀ p, f t u ≠ .panic p) ∧ ∀ t' r, f t u = .ok (t', r) → Reach c hash t' ∧
      AMap.MStep reduce e (vs.map Trie.visit) op (.reduced r) (vs.map Trie.visit ++ [t'.visit])) :
    GoodStep hash reduce e vs op (Trie.pick2 vs i j f) := by
  have missing : (∃ i ∈ op.sources, vs[i]? = none) → GoodStep hash reduce e vs op (.ok (.noSuchVersion, vs)) := by
    intro ⟨i, hm, hi⟩
    refine ⟨fun _ _ => by simp, ?_⟩
    intro o vs' hr
    injection hr with hr; injection hr with h1 h2; subst h1 h2
    exact ⟨h, .missing op hop ⟨i, hm, by rw [List.getElem?_map, hi]; rfl⟩⟩
  unfold Trie.pick2
  cases hi : vs[i]? with
  | none => exact missing ⟨i, by simp [hs], hi⟩
  | some t =>
    cases hj : vs[j]? with
    | none => exact missing ⟨j, by simp [hs], hj⟩
    | some u =>
      have h1 := h t (List.mem_of_getElem? hi)
      have h2 := h u (List.mem_of_getElem? hj)
      have := hx t u hi hj h1 h2
      exact good_keep h this.1 this.2

theorem mstep_good (laws : KeyLaws hash) (reduce : R → R → R) (e : R) (vs : List (Trie c K V))
    (hvs : ∀ t ∈ vs, Reach c hash t) (op : MOp K V R) (legal : op.Legal hash (vs.map Trie.visit)) :
    GoodStep hash reduce e vs op (Trie.mstep reduce e hash vs op) := by
  have one : ∀ {src : Nat} {f : Trie c K V → Res (Trie c K V × R)}, (∀ o, op ≠ .one o) → op.sources = [src] →
      (∀ t, vs[src]? = some t → Reach c hash t → ∃ t' r, f t = .ok (t', r) ∧ Reach c hash t' ∧
        AMap.MStep reduce e (vs.map Trie.visit) op (.reduced r) (vs.map Trie.visit ++ [t'.visit])) →
      GoodStep hash reduce e vs op (match vs[src]? with
        | none => .ok (.noSuchVersion, vs)
        | some t => Trie.keep vs (f t)) := by
    intro src f hop hs hf
    cases hv : vs[src]? with
    | none =>
      refine ⟨fun _ _ => by simp, ?_⟩
      intro o vs' hr
      injection hr with hr; injection hr with h1 h2; subst h1 h2
      exact ⟨hvs, .missing op hop ⟨src, by simp [hs], by rw [List.getElem?_map, hv]; rfl⟩⟩
    | some t =>
      obtain ⟨t', r, h1, h2, h3⟩ := hf t hv (hvs t (List.mem_of_getElem? hv))
      simp only [h1]
      refine good_keep hvs (by simp) ?_
      intro t1 r1 h4
      injection h4 with h4; injection h4 with h4 h5; subst h4 h5
      exact ⟨h2, h3⟩
  have getm : ∀ {i : Nat} {t : Trie c K V}, vs[i]? = some t → (vs.map Trie.visit)[i]? = some t.visit := by
    intro i t h; rw [List.getElem?_map, h]; rfl
  cases op with
  | one op =>
    unfold Trie.mstep
    constructor
    · intro rel p hp
      obtain ⟨os, vs', h1, _⟩ := C09_history laws rel vs hvs [op]
      rw [Trie.run, Res.bind_eq_ok] at h1
      obtain ⟨r, h1, _⟩ := h1
      simp only [h1, Res.ok_bind] at hp
      cases hp
    · intro o vs' hr
      rw [Res.bind_eq_ok] at hr
      obtain ⟨r, h1, hr⟩ := hr
      injection hr with hr; injection hr with h2 h3; subst h2 h3
      obtain ⟨ext, h4, h5⟩ := Trie.step_reach hvs h1
      have h6 := Trie.step_right laws hvs h1
      refine ⟨h5, ?_⟩
      rw [h4, List.map_append] at h6 ⊢
      exact .one op _ _ h6.1 h6.2
  | transform src op par =>
    refine one (by simp) rfl ?_
    intro t hv ht
    obtain ⟨t', r, h1, h2, h3, h4⟩ := Trie.transform_spec ht.laws.hash c.levels_pos ht.valid reduce e op par
    exact ⟨t', r, h1, .transform ht h1, .transform src _ _ op par r (getm hv)
      (by rw [h3, MapTransform.closure_eq])
      fun mon nu => ⟨_, List.Perm.refl _, by rw [MapTransform.closure_eq]; exact h4 mon nu⟩⟩
  | transmute src op =>
    refine one (by simp) rfl ?_
    intro t hv ht
    obtain ⟨t', r, h1, h2, h3, h4⟩ := Trie.transmute_spec c.levels_pos ht.valid reduce e op
      (by rw [← MapTransmute.closure_eq]; exact legal)
    exact ⟨t', r, h1, .transmute ht laws legal h1, .transmute src _ _ op r (getm hv)
      (by rw [h3, MapTransmute.closure_eq]) fun mon nu =>
        ⟨_, List.Perm.refl _, by rw [MapTransmute.closure_eq]; exact h4 mon nu⟩⟩
  | transformWithTransformed i j ops par =>
    refine good_pick2 (by simp) rfl hvs ?_
    intro t u hi hj ht hu
    have tame : ops.Tame hash t.visit u.visit := legal _ _ (getm hi) (getm hj)
    have tot := Trie.twt_total laws reduce e par ht.valid hu.valid tame
    refine ⟨?_, ?_⟩
    · intro p hp
      rcases tot with ⟨h, _⟩ | ⟨_, _, h, _⟩ <;> rw [hp] at h <;> simp at h
    · intro t' r hr
      rcases tot with ⟨h, _⟩ | ⟨t1, r1, h1, _, ho, hred⟩
      · rw [hr] at h; simp at h
      rw [hr] at h1; injection h1 with h1; injection h1 with h1 h2; subst h1 h2
      have ht' : Reach c hash t' := .transformWithTransformed ht hu tame hr
      refine ⟨ht', .transformWithTransformed i j _ _ _ ops par r (getm hi) (getm hj) ht'.distinct ?_ hred⟩
      intro k
      have := TwtOps.find ht hu ht' ho (ht.find k) (hu.find k)
      unfold AMap.find
      have hf := ht'.find k
      cases ha : t.visit.find? (fun e => e.1 == k) <;> cases hb : u.visit.find? (fun e => e.1 == k) <;>
        rw [ha, hb] at this <;> simp only [Case.of?] at this
      · rw [hf] at this; injection this
      all_goals
        obtain ⟨o, h1, h2⟩ := this
        rw [hf] at h2; injection h2 with h2; rw [h2]
        exact h1
  | transformWithTransmuted i j ops par =>
    refine good_pick2 (by simp) rfl hvs ?_
    intro t u hi hj ht hu
    by_cases ns : NoStall (Cross.same hash) t.visit u.visit
    · obtain ⟨t1, r1, h1, _, h3, h4⟩ := Trie.twm_spec (CrossLaws.same laws) legal reduce e par ht.valid hu.valid ns
      refine ⟨by intro p hp; rw [hp] at h1; simp at h1, ?_⟩
      intro t' r hr
      rw [hr] at h1; injection h1 with h1; injection h1 with h1 h2; subst h1 h2
      exact ⟨.transformWithTransmuted (x := Cross.same hash) ht hu (CrossLaws.same laws) legal hr,
        .transformWithTransmuted i j _ _ _ ops par r (getm hi) (getm hj) h3 h4⟩
    · have h1 := Trie.twm_stall (CrossLaws.same laws) legal reduce e par ht.valid hu.valid ns
      exact ⟨by intro p hp; rw [hp] at h1; simp at h1, by intro t' r hr; rw [hr] at h1; simp at h1⟩
  | transmuteWithTransformed i j ops par =>
    refine good_pick2 (by simp) rfl hvs ?_
    intro t u hi hj ht hu
    by_cases ns : NoStall (Cross.same hash).flip u.visit t.visit
    · obtain ⟨t1, r1, h1, _, h3, h4⟩ := Trie.mwt_spec (CrossLaws.same laws) legal reduce e par ht.valid hu.valid ns
      refine ⟨by intro p hp; rw [hp] at h1; simp at h1, ?_⟩
      intro t' r hr
      rw [hr] at h1; injection h1 with h1; injection h1 with h1 h2; subst h1 h2
      exact ⟨.transmuteWithTransformed (x := Cross.same hash) ht hu (CrossLaws.same laws) legal hr,
        .transmuteWithTransformed i j _ _ _ ops par r (getm hi) (getm hj) h3 h4⟩
    · have h1 := Trie.mwt_stall (CrossLaws.same laws) legal reduce e par ht.valid hu.valid ns
      exact ⟨by intro p hp; rw [hp] at h1; simp at h1, by intro t' r hr; rw [hr] at h1; simp at h1⟩
  | transmuteWithTransmuted i j ops =>
    refine good_pick2 (by simp) rfl hvs ?_
    intro t u hi hj ht hu
    have tot := Trie.mwm_total (CrossLaws.same laws) laws legal reduce e ht.valid hu.valid
    refine ⟨?_, ?_⟩
    · intro p hp
      rcases tot with ⟨h, _⟩ | ⟨_, _, h, _⟩ <;> rw [hp] at h <;> simp at h
    · intro t' r hr
      rcases tot with ⟨h, _⟩ | ⟨t1, r1, h1, _, h3, h4⟩
      · rw [hr] at h; simp at h
      rw [hr] at h1; injection h1 with h1; injection h1 with h1 h2; subst h1 h2
      exact ⟨.transmuteWithTransmuted (x := Cross.same hash) ht hu (CrossLaws.same laws) laws legal hr,
        .transmuteWithTransmuted i j _ _ _ ops r (getm hi) (getm hj) h3 h4⟩

/-! ## C17 -/

/-- C17: in every history mixing all operations, on any versions obtained so far, every answer and every new version is
    what the specification says, in every build; and in a build without overflow checks no call panics.  (The version
    list may start with any maps obtained before; in particular with `new()` alone.  Whether joint operations return
    is C23.) -/
theorem C17_mixed_history (laws : KeyLaws hash) (reduce : R → R → R) (e : R) (vs : List (Trie c K V))
    (hvs : ∀ t ∈ vs, Reach c hash t) (ops : List (MOp K V R)) (legal : Trie.MLegal reduce e hash vs ops) :
    (c.checked = false → ∀ p, Trie.mrun reduce e hash vs ops ≠ .panic p) ∧
    ∀ os vs', Trie.mrun reduce e hash vs ops = .ok (os, vs') →
      (∀ t ∈ vs', Reach c hash t) ∧ AMap.MRun reduce e (vs.map Trie.visit) ops os (vs'.map Trie.visit) := by
  induction ops generalizing vs with
  | nil =>
    refine ⟨fun _ _ => by simp [Trie.mrun], ?_⟩
    intro os vs' hr
    injection hr with hr; injection hr with h1 h2; subst h1 h2
    exact ⟨hvs, .nil _⟩
  | cons op ops ih =>
    have g := mstep_good laws reduce e vs hvs op legal.1
    cases hs : Trie.mstep reduce e hash vs op with
    | ok r =>
      obtain ⟨o, vs1⟩ := r
      obtain ⟨h1, h2⟩ := g.2 o vs1 hs
      have ih := ih vs1 h1 (legal.2 o vs1 hs)
      rw [Trie.mrun, hs]
      simp only [Res.ok_bind]
      cases hm : Trie.mrun reduce e hash vs1 ops with
      | ok r =>
        obtain ⟨os, vs2⟩ := r
        refine ⟨fun _ _ => by simp, ?_⟩
        intro os' vs' hr
        injection hr with hr; injection hr with h3 h4; subst h3 h4
        obtain ⟨h5, h6⟩ := ih.2 os vs2 hm
        exact ⟨h5, .cons h2 h6⟩
      | panic p =>
        exact ⟨fun rel _ => absurd hm (ih.1 rel p), by simp⟩
      | diverge => exact ⟨fun _ _ => by simp, by simp⟩
    | panic p =>
      rw [Trie.mrun, hs]
      exact ⟨fun rel _ => absurd hs (g.1 rel p), by simp⟩
    | diverge =>
      rw [Trie.mrun, hs]
      exact ⟨fun _ _ => by simp, by simp⟩

/-- No joint operation is called. -/
def MOp.NoJoint : MOp K V R → Prop
  | .one _ => True
  | .transform .. => True
  | .transmute .. => True
  | _ => False

/-- C17: a history without joint operations always returns, in a build without overflow checks. -/
theorem C17_returns (laws : KeyLaws hash) (rel : c.checked = false) (reduce : R → R → R) (e : R)
    (vs : List (Trie c K V)) (hvs : ∀ t ∈ vs, Reach c hash t) (ops : List (MOp K V R))
    (nj : ∀ op ∈ ops, op.NoJoint) (legal : Trie.MLegal reduce e hash vs ops) :
    ∃ os vs', Trie.mrun reduce e hash vs ops = .ok (os, vs') := by
  induction ops generalizing vs with
  | nil => exact ⟨_, _, rfl⟩
  | cons op ops ih =>
    have g := mstep_good laws reduce e vs hvs op legal.1
    have hs : ∃ o vs1, Trie.mstep reduce e hash vs op = .ok (o, vs1) := by
      have hn := nj op (List.mem_cons_self ..)
      cases op with
      | one op =>
        obtain ⟨os, vs', h1, _⟩ := C09_history laws rel vs hvs [op]
        rw [Trie.run, Res.bind_eq_ok] at h1
        obtain ⟨r, h1, _⟩ := h1
        exact ⟨_, _, by rw [Trie.mstep, h1]; rfl⟩
      | transform src op par =>
        unfold Trie.mstep
        simp only
        cases hv : vs[src]? with
        | none => exact ⟨_, _, rfl⟩
        | some t =>
          have ht := hvs t (List.mem_of_getElem? hv)
          obtain ⟨t', r, h1, _⟩ := Trie.transform_spec ht.laws.hash c.levels_pos ht.valid reduce e op par
          exact ⟨_, _, by simp only [Trie.keep, h1]; rfl⟩
      | transmute src op =>
        unfold Trie.mstep
        simp only
        cases hv : vs[src]? with
        | none => exact ⟨_, _, rfl⟩
        | some t =>
          have ht := hvs t (List.mem_of_getElem? hv)
          obtain ⟨t', r, h1, _⟩ := Trie.transmute_spec c.levels_pos ht.valid reduce e op (by rw [← MapTransmute.closure_eq]; exact legal.1)
          exact ⟨_, _, by simp only [Trie.keep, h1]; rfl⟩
      | _ => exact hn.elim
    obtain ⟨o, vs1, hs⟩ := hs
    obtain ⟨os, vs2, h2⟩ := ih vs1 (g.2 o vs1 hs).1 (fun op h => nj op (List.mem_cons_of_mem _ h)) (legal.2 o vs1 hs)
    exact ⟨_, _, by rw [Trie.mrun, hs]; simp only [Res.ok_bind]; rw [h2]; rfl⟩

/-- A legal history: insertions with a collision, a transformation that leaves a single entry, a joint operation on its
    result, and lookups and removals on the results of both. -/
def Ex.mops : List (MOp Ex.Tk Nat Nat) :=
  [.one (.insert 0 ⟨5, 0⟩ 50 false), .one (.insert 1 ⟨7, 0⟩ 51 false), .one (.insert 2 ⟨641, 0⟩ 52 false),
   .transform 3 (.generic fun k v => if k.id = 641 then .transformed (v + 1) v else .removed v) .middleIndex,
   .transformWithTransmuted 3 4 ⟨.generic fun _ v _ w => .transformed (v + w) 1, .generic fun _ _ => .unchanged 2,
     .generic fun k v => .transmuted k v 3⟩ .sequential,
   .one (.find 5 ⟨641, 0⟩), .one (.remove 5 ⟨7, 0⟩), .one (.size 6), .one (.insert 4 ⟨8, 0⟩ 60 false), .one (.size 7)]

example : (Trie.mrun (· + ·) 0 Ex.exHash [Trie.new Ex.c8] Ex.mops).test (fun r =>
    decide (r.2.length = 8) && match r.1[3]?, r.1[4]?, r.1[5]?, r.1[7]?, r.1[9]? with
      | some (.reduced 153), some (.reduced 5), some (.one (.found (⟨641, 0⟩, 105))), some (.one (.size 2)),
        some (.one (.size 2)) => true
      | _, _, _, _, _ => false) = true := by decide +kernel

example (vs : List (Trie Ex.c8 Ex.Tk Nat)) : Trie.MLegal (· + ·) 0 Ex.exHash vs Ex.mops := by
  unfold Ex.mops
  refine ⟨trivial, fun _ _ _ => ⟨trivial, fun _ _ _ => ⟨trivial, fun _ _ _ => ⟨trivial, fun _ _ _ => ⟨?_, fun _ _ _ =>
    ⟨trivial, fun _ _ _ => ⟨trivial, fun _ _ _ => ⟨trivial, fun _ _ _ => ⟨trivial, fun _ _ _ => ⟨trivial, fun _ _ _ =>
      trivial⟩⟩⟩⟩⟩⟩⟩⟩⟩⟩
  intro l w k v r h
  simp only [MapTransmute.closure, MapTransmuteResult.transmuted.injEq] at h
  rw [h.1]
  exact Ex.exLaws.refl k

end HT
