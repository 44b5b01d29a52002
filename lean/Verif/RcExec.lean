import Verif.Rc
/-! # Reference counts along executions -/
namespace HT

variable {Var K V R St : Type} {c : Cfg} {n : Nat}

/-! ### The map stored by a call -/

section
variable [BEq K] (hash : K → BitVec c.w)

/-- In the map that a call stores different nodes have different addresses, and the nodes at old addresses are those that
    were there. -/
theorem TCall.eval_tied (call : TCall Var K V R St) (σ : Store c Var K V) {s : Nat} {tree : Nat → ANode c.n K V}
    (hs : ∀ x ∈ call.reads, ∀ t, σ x = some t → ∀ a ∈ t.addrs, a < s)
    (hT : ∀ x ∈ call.reads, ∀ t, σ x = some t → Tied tree t.root) {d : Var} {t : ATrie c K V}
    (h : (call.eval hash σ s).2 = some (d, some t)) :
    (∀ o o', ANode.Sub o t.root → ANode.Sub o' t.root → o.addr = o'.addr → o = o') ∧
    ∀ o, ANode.Sub o t.root → o.addr < s → ∃ x ∈ call.reads, ∃ u, σ x = some u ∧ ANode.Sub o u.root := by
  let rank : Nat → Nat := fun a => (tree a).addrs.length
  let S := ((List.range s).map rank).sum
  let M := (S + 1) * s
  let f : Nat → Nat := fun a => if a < s then rank a * s + a else M + (a - s)
  have fold : ∀ a, a < s → f a = rank a * s + a := fun a ha => if_pos ha
  have fnew : ∀ a, s ≤ a → f a = M + (a - s) := fun a ha => if_neg (by omega)
  have flt : ∀ a, a < s → f a < M := by
    intro a ha
    rw [fold a ha]
    have h1 : rank a ≤ S := le_sum_of_mem (List.mem_map.2 ⟨a, List.mem_range.2 ha, rfl⟩)
    have h2 : (rank a + 1) * s ≤ M := Nat.mul_le_mul_right s (by omega)
    rw [Nat.add_mul] at h2
    omega
  have finj : ∀ a b, f a = f b → a = b := by
    intro a b e
    by_cases ha : a < s
    · by_cases hb : b < s
      · rw [fold a ha, fold b hb] at e
        have := congrArg (· % s) e
        simpa [Nat.mul_add_mod, Nat.mod_eq_of_lt, ha, hb, Nat.add_comm, Nat.add_mul_mod_self_right] using this
      · have := flt a ha; rw [e, fnew b (by omega)] at this; omega
    · by_cases hb : b < s
      · have := flt b hb; rw [← e, fnew a (by omega)] at this; omega
      · rw [fnew a (by omega), fnew b (by omega)] at e; omega
  let φ : Shift := ⟨f, s, fun a ha => by rw [fnew a ha, fnew (a + 1) (by omega)]; omega⟩
  have hφ : φ.f = f := rfl
  have fs : f s = M := by rw [fnew s (Nat.le_refl s)]; omega
  have run := call.eval_ren hash (φ := φ) σ (s := s) (Nat.le_refl s) fun _ _ _ _ _ _ _ _ _ _ _ _ e => finj _ _ e
  rw [hφ, fs, h] at run
  let U : ANode c.n K V → Prop := fun z => ∃ x ∈ call.reads, ∃ u, σ x = some u ∧ ∃ y, ANode.Sub y u.root ∧ z = y.ren f
  have heap : Heap U M := by
    have small : ∀ x ∈ call.reads, ∀ u, σ x = some u → ∀ y, ANode.Sub y u.root → y.addr < s :=
      fun x hx u hu y hy => hs x hx u hu _ (ANode.mem_addrs.2 ⟨y, hy, rfl⟩)
    refine ⟨?_, ?_, ?_⟩
    · rintro z ⟨x, hx, u, hu, y, hy, rfl⟩
      rw [ANode.addr_ren]
      exact flt _ (small x hx u hu y hy)
    · rintro z ⟨x, hx, u, hu, y, hy, rfl⟩ k hk
      rw [ANode.kids_ren] at hk
      obtain ⟨k, hkm, rfl⟩ := List.mem_map.1 hk
      have hks : ANode.Sub k u.root := (ANode.Sub.kid (.refl k) hkm).trans hy
      refine ⟨⟨x, hx, u, hu, k, hks, rfl⟩, ?_⟩
      have h1 := small x hx u hu k hks
      have h2 := small x hx u hu y hy
      have h3 : rank k.addr < rank y.addr := by
        show (tree k.addr).addrs.length < (tree y.addr).addrs.length
        rw [hT x hx u hu k hks, hT x hx u hu y hy]
        exact ANode.kid_lt hkm
      rw [ANode.addr_ren, ANode.addr_ren, fold _ h1, fold _ h2]
      have h4 : (rank k.addr + 1) * s ≤ rank y.addr * s := Nat.mul_le_mul_right s h3
      rw [Nat.add_mul] at h4
      omega
    · rintro z z' ⟨x, hx, u, hu, y, hy, rfl⟩ ⟨x', hx', u', hu', y', hy', rfl⟩ e
      rw [ANode.addr_ren, ANode.addr_ren] at e
      have e := finj _ _ e
      rw [← hT x hx u hu y hy, ← hT x' hx' u' hu' y' hy', e]
  obtain ⟨U', s', g, hr⟩ := call.eval_fits hash (σ.ren f) (U := U) (s := M) heap (by
    intro x hx t' ht'
    obtain ⟨u, hu, rfl⟩ := Option.map_eq_some_iff.1 ht'
    exact ⟨x, hx, u, hu, u.root, .refl _, rfl⟩) (d := d) (t := t.ren f) (by rw [run]; rfl)
  have inU : ∀ o, ANode.Sub o t.root → U' (o.ren f) := fun o ho => (g.heap.sub (ho.ren f) hr).1
  refine ⟨fun o o' ho ho' e => ?_, fun o ho hlt => ?_⟩
  · exact ANode.ren_inj finj (g.heap.inj _ _ (inU o ho) (inU o' ho') (by rw [ANode.addr_ren, ANode.addr_ren, e]))
  · rcases g.new _ (inU o ho) with ⟨x, hx, u, hu, y, hy, e⟩ | hM
    · exact ⟨x, hx, u, hu, ANode.ren_inj finj e ▸ hy⟩
    · rw [ANode.addr_ren] at hM
      have := flt _ hlt
      omega

end

/-! ### There is one way to make and drop -/

theorem Acquire.unique {new : Nat → Prop} {h h1 h2 : Memory n K V} {ms : List (ANode n K V)} (a : Acquire new h ms h1)
    (b : Acquire new h ms h2) : h1 = h2 := by
  induction a generalizing h2 with
  | none h => cases b; rfl
  | clone hp _ ih =>
    cases b with
    | clone hp' b => rw [hp] at hp'; cases hp'; exact ih b
    | make _ hm => rw [hp] at hm; cases hm
  | make _ hm _ _ _ ih1 ih2 =>
    cases b with
    | clone hp => rw [hm] at hp; cases hp
    | make _ _ b1 _ b2 => have := ih1 b1; subst this; exact ih2 b2

theorem Release.unique {h h1 h2 : Memory n K V} {as : List Nat} (a : Release h as h1) (b : Release h as h2) :
    h1 = h2 := by
  induction a generalizing h2 with
  | none h => cases b; rfl
  | keep hp hc _ ih =>
    cases b with
    | keep hp' _ b => rw [hp] at hp'; cases hp'; exact ih b
    | free hp' hc' => rw [hp] at hp'; cases hp'; omega
  | free hp hc _ ih =>
    cases b with
    | keep hp' hc' => rw [hp] at hp'; cases hp'; omega
    | free hp' _ b => rw [hp] at hp'; cases hp'; exact ih b

theorem Update.unique {σ : Store c Var K V} {h h1 h2 : Memory c.n K V} {p : TEffect c Var K V} {new : Nat → Prop}
    (a : Update σ new h p h1) (b : Update σ new h p h2) : h1 = h2 := by
  cases a with
  | none => cases b; rfl
  | store a r => cases b with | store b q => have := a.unique b; subst this; exact r.unique q
  | drop r => cases b with | drop q => exact r.unique q

/-! ### Nodes do not change -/

theorem Release.content {h h' : Memory n K V} {as : List Nat} (r : Release h as h') {b : Nat} {p' : Counted n K V}
    (hb : h' b = some p') : ∃ p, h b = some p ∧ p'.content = p.content ∧ p'.count ≤ p.count := by
  induction r generalizing p' with
  | none h => exact ⟨p', hb, rfl, Nat.le_refl _⟩
  | @keep h h' a as q hq _ _ ih =>
    obtain ⟨p, h1, h2, h3⟩ := ih hb
    by_cases e : b = a
    · subst e
      rw [Memory.set_same] at h1; cases h1
      exact ⟨q, hq, h2, by simp only at h3; omega⟩
    · rw [Memory.set_other _ e] at h1; exact ⟨p, h1, h2, h3⟩
  | @free h h' a as q hq _ _ ih =>
    obtain ⟨p, h1, h2, h3⟩ := ih hb
    by_cases e : b = a
    · subst e; rw [Memory.set_same] at h1; cases h1
    · rw [Memory.set_other _ e] at h1; exact ⟨p, h1, h2, h3⟩

theorem Update.content {σ : Store c Var K V} {h h' : Memory c.n K V} {q : TEffect c Var K V} {new : Nat → Prop}
    (u : Update σ new h q h') {b : Nat} {p p' : Counted c.n K V} (hb : h b = some p) (hb' : h' b = some p') : p'.content = p.content := by
  cases u with
  | none => rw [hb] at hb'; cases hb'; rfl
  | store a r =>
    obtain ⟨p1, h1, h2, _⟩ := a.content hb
    obtain ⟨p2, h3, h4, _⟩ := r.content hb'
    rw [h1] at h3; cases h3
    exact h4.trans h2
  | drop r =>
    obtain ⟨p2, h3, h4, _⟩ := r.content hb'
    rw [hb] at h3; cases h3
    exact h4

/-! ### The invariant -/

/-- The `Arc`s of the maps in some variables. -/
def Store.roots (σ : Store c Var K V) (live : List Var) : List Nat := live.flatMap fun x => arcs (σ x)

/-- Memory is as it should be for the maps in the variables. -/
def Accounted (σ : Store c Var K V) (h : Memory c.n K V) : Prop :=
  ∃ tree live cells, live.Nodup ∧ (∀ x, x ∈ live ↔ σ x ≠ none) ∧ Exact tree cells (σ.roots live) h ∧
    ∀ x t, σ x = some t → tree t.root.addr = t.root

theorem Store.roots_mem {σ : Store c Var K V} {live : List Var} {x : Var} {t : ATrie c K V} (hx : σ x = some t)
    (hl : x ∈ live) : t.root.addr ∈ σ.roots live :=
  List.mem_flatMap.2 ⟨x, hl, by rw [hx]; exact List.mem_singleton.2 rfl⟩

theorem Accounted.empty : Accounted (fun _ => none : Store c Var K V) Memory.empty :=
  ⟨fun a => .C a 0 [] 0, [], [], List.nodup_nil, fun x => by simp,
    ⟨List.nodup_nil, fun a => ⟨fun h => (by cases h), fun ⟨_, h⟩ => (by cases h)⟩, fun a => rfl,
      fun a p h => by (cases h), fun a p h => by (cases h)⟩, fun x t h => by cases h⟩

theorem Accounted.holds {σ : Store c Var K V} {h : Memory c.n K V} (g : Accounted σ h) {x : Var} {t : ATrie c K V}
    (hx : σ x = some t) : h.Holds t.root := by
  obtain ⟨tree, live, cells, _, hl, e, ht⟩ := g
  exact (e.holds (e.allocated (Store.roots_mem hx ((hl x).2 (by rw [hx]; simp)))) (ht x t hx)).2

theorem Accounted.used {σ : Store c Var K V} {h : Memory c.n K V} (g : Accounted σ h) (a : Nat) :
    h.Allocated a ↔ σ.Used a := by
  constructor
  · intro ha
    obtain ⟨tree, live, cells, _, hl, e, ht⟩ := g
    obtain ⟨r, hr, har⟩ := e.reachable ha
    obtain ⟨x, hx, hrx⟩ := List.mem_flatMap.1 hr
    cases hσ : σ x with
    | none => rw [hσ] at hrx; cases hrx
    | some t =>
      rw [hσ] at hrx
      have hrx := List.mem_singleton.1 hrx
      subst hrx
      exact ⟨x, t, hσ, by rwa [ht x t hσ] at har⟩
  · rintro ⟨x, t, hx, ha⟩
    obtain ⟨o, ho, rfl⟩ := ANode.mem_addrs.1 ha
    obtain ⟨k, _, hk⟩ := g.holds hx o ho
    exact ⟨_, hk⟩

variable [DecidableEq Var]

theorem Store.roots_split {σ : Store c Var K V} {live : List Var} (hnd : live.Nodup) (hl : ∀ x, x ∈ live ↔ σ x ≠ none)
    (x : Var) : (σ.roots live).Perm (arcs (σ x) ++ σ.roots (live.erase x)) := by
  by_cases hx : x ∈ live
  · exact (List.perm_cons_erase hx).flatMap_right _
  · rw [List.erase_of_not_mem hx]
    have : σ x = none := Classical.byContradiction fun h => hx ((hl x).2 h)
    rw [this]
    exact List.Perm.refl _

theorem Store.roots_after {σ : Store c Var K V} {live : List Var} {x : Var} {t : Option (ATrie c K V)} (hx : x ∉ live) :
    (σ.after (some (x, t))).roots live = σ.roots live :=
  List.flatMap_congr fun y hy => by
    rw [Store.after_other]
    intro z u e
    injection e with e
    injection e with e
    exact fun e' => hx (by rw [e, e']; exact hy)

theorem exact_release {tree : Nat → ANode n K V} {cells as held : List Nat} {h : Memory n K V}
    (e : Exact tree cells (as ++ held) h) : ∃ h' cells', Release h as h' ∧ Exact tree cells' held h' :=
  exists_release _ rfl e

/-- A map is dropped. -/
theorem Accounted.drop {σ : Store c Var K V} {h : Memory c.n K V} (g : Accounted σ h) (x : Var) :
    ∃ h', Release h (arcs (σ x)) h' ∧ Accounted (σ.after (some (x, none))) h' := by
  obtain ⟨tree, live, cells, hnd, hl, e, ht⟩ := g
  obtain ⟨h', c', r, e'⟩ := exact_release (e.perm (Store.roots_split hnd hl x))
  have hx : x ∉ live.erase x := fun h => ((hnd.mem_erase_iff).1 h).1 rfl
  refine ⟨h', r, tree, live.erase x, c', hnd.erase x, fun y => ?_, ?_, fun y t hy => ?_⟩
  · rw [hnd.mem_erase_iff, hl]
    by_cases hy : y = x
    · subst hy; rw [Store.after_same]; simp
    · rw [Store.after_other (by rintro z u ⟨⟩; exact fun e => hy e.symm)]; simp [hy]
  · rwa [Store.roots_after hx]
  · by_cases e : y = x
    · subst e; rw [Store.after_same] at hy; cases hy
    · rw [Store.after_other (by rintro z u ⟨⟩; exact fun e' => e e'.symm)] at hy
      exact ht y t hy

/-- A map is made and stored. -/
theorem Accounted.store {new : Nat → Prop} {σ : Store c Var K V} {h : Memory c.n K V} (x : Var) (t : ATrie c K V)
    (g : ∃ tree live cells, live.Nodup ∧ (∀ x, x ∈ live ↔ σ x ≠ none) ∧ Exact tree cells (σ.roots live) h ∧
      (∀ x t, σ x = some t → tree t.root.addr = t.root) ∧ Tied tree t.root)
    (hnew : ∀ o, ANode.Sub o t.root → h o.addr = none → new o.addr) :
    ∃ h' h'', Acquire new h [t.root] h' ∧ Release h' (arcs (σ x)) h'' ∧ Accounted (σ.after (some (x, some t))) h'' := by
  obtain ⟨tree, live, cells, hnd, hl, e, ht, hT⟩ := g
  obtain ⟨h1, c1, a1, e1, _⟩ := exists_acquire hT e hnew
  have hp : (t.root.addr :: σ.roots live).Perm (arcs (σ x) ++ (t.root.addr :: σ.roots (live.erase x))) :=
    ((Store.roots_split hnd hl x).cons _).trans List.perm_middle.symm
  obtain ⟨h2, c2, r, e2⟩ := exact_release (e1.perm hp)
  have hx : x ∉ live.erase x := fun h => ((hnd.mem_erase_iff).1 h).1 rfl
  refine ⟨h1, h2, a1, r, tree, x :: live.erase x, c2, List.nodup_cons.2 ⟨hx, hnd.erase x⟩, fun y => ?_, ?_, fun y u hy => ?_⟩
  · rw [List.mem_cons, hnd.mem_erase_iff, hl]
    by_cases hy : y = x
    · subst hy; rw [Store.after_same]; simp
    · rw [Store.after_other (by rintro z u ⟨⟩; exact fun e => hy e.symm)]; simp [hy]
  · have : (σ.after (some (x, some t))).roots (x :: live.erase x) = t.root.addr :: σ.roots (live.erase x) := by
      show arcs (σ.after (some (x, some t)) x) ++ (σ.after (some (x, some t))).roots (live.erase x) = _
      rw [Store.after_same, Store.roots_after hx]
      rfl
    rwa [this]
  · by_cases e : y = x
    · subst e; rw [Store.after_same] at hy; cases hy
      exact hT _ (.refl _)
    · rw [Store.after_other (by rintro z u ⟨⟩; exact fun e' => e e'.symm)] at hy
      exact ht y u hy

section
variable [BEq K] (hash : K → BitVec c.w)

/-- Whatever a call does and wherever the allocator puts new nodes, the call and the assignment of its result never get
    stuck, and leave memory as it should be. -/
theorem Accounted.update {σ : Store c Var K V} {h : Memory c.n K V} (g : Accounted σ h) (call : TCall Var K V R St)
    {s : Nat} {f : Nat → Nat} (hs : ∀ x ∈ call.reads, ∀ t, σ x = some t → ∀ a ∈ t.addrs, a < s)
    (hf : Allocates h s (call.eval hash σ s).2 f) :
    ∃ h', Update σ (placed s (call.eval hash σ s).2 f) h ((call.eval hash σ s).2.ren f) h' ∧
      Accounted (σ.after ((call.eval hash σ s).2.ren f)) h' := by
  generalize hq : (call.eval hash σ s).2 = q at hf
  match q, hf with
  | none, hf => exact ⟨h, .none h, g⟩
  | some (x, none), hf =>
    obtain ⟨h', r, g'⟩ := g.drop x
    exact ⟨h', .drop r, g'⟩
  | some (x, some t), hf =>
    have used := g.used
    have holds := fun y u hy => g.holds (x := y) (t := u) hy
    obtain ⟨tree, live, cells, hnd, hl, e, ht⟩ := g
    have tied : ∀ y u, σ y = some u → Tied tree u.root := fun y u hy =>
      (e.holds (e.allocated (Store.roots_mem hy ((hl y).2 (by rw [hy]; simp)))) (ht y u hy)).1
    obtain ⟨inj, old⟩ := call.eval_tied hash σ hs (fun y _ u hy => tied y u hy) hq
    -- nodes at old addresses stay where they are and are allocated
    have stay : ∀ o, ANode.Sub o t.root → o.addr < s → o.ren f = o ∧ tree o.addr = o ∧ h.Allocated o.addr := by
      intro o ho hlt
      obtain ⟨y, hy, u, hu, hou⟩ := old o ho hlt
      refine ⟨?_, tied y u hu o hou, ?_⟩
      · have : ∀ a ∈ o.addrs, f a = a := by
          intro a ha
          obtain ⟨p, hp, rfl⟩ := ANode.mem_addrs.1 ha
          exact hf.old _ (hs y hy u hu _ (ANode.mem_addrs.2 ⟨p, hp.trans hou, rfl⟩))
        exact (ANode.ren_congr.2 this).trans o.ren_id
      · exact (used _).2 ⟨y, u, hu, ANode.mem_addrs.2 ⟨o, hou, rfl⟩⟩
    have has : ∀ o, ANode.Sub o t.root → TEffect.Has (some (x, some t)) o.addr := fun o ho =>
      ⟨x, t, rfl, ANode.mem_addrs.2 ⟨o, ho, rfl⟩⟩
    classical
    let tree' : Nat → ANode c.n K V := fun a =>
      if h.Allocated a then tree a
      else if hx : ∃ o, ANode.Sub o (t.root.ren f) ∧ o.addr = a then hx.choose else tree a
    have same : ∀ a, h.Allocated a → tree' a = tree a := fun a ha => if_pos ha
    have hT : Tied tree' (t.ren f).root := by
      intro o ho
      obtain ⟨o', ho', rfl⟩ := ANode.sub_ren (m := t.root) ho
      by_cases hlt : o'.addr < s
      · obtain ⟨h1, h2, h3⟩ := stay o' ho' hlt
        rw [h1, same _ h3, h2]
      · have hna := hf.new o'.addr (by omega) (has o' ho')
        rw [ANode.addr_ren]
        have hx : ∃ o, ANode.Sub o (t.root.ren f) ∧ o.addr = f o'.addr := ⟨_, ho, ANode.addr_ren f o'⟩
        have : tree' (f o'.addr) = hx.choose := by
          show (if _ then _ else _) = _
          rw [if_neg hna, dif_pos hx]
        rw [this]
        obtain ⟨c1, c2⟩ := hx.choose_spec
        generalize hx.choose = p at c1 c2
        obtain ⟨p', hp', rfl⟩ := ANode.sub_ren c1
        rw [ANode.addr_ren] at c2
        have hp's : s ≤ p'.addr := Classical.byContradiction fun hc => by
          obtain ⟨h1, h2, h3⟩ := stay p' hp' (by omega)
          rw [hf.old _ (by omega)] at c2
          exact hna (c2 ▸ h3)
        have := hf.inj p'.addr o'.addr hp's (by omega) (has p' hp') (has o' ho') c2
        rw [inj p' o' hp' ho' this]
    obtain ⟨h1, h2, a, r, g'⟩ := Accounted.store (σ := σ) (h := h) x (t.ren f) ⟨tree', live, cells, hnd, hl, e.retree same,
      fun y u hy => by rw [same _ ((used _).2 ⟨y, u, hy, u.root.addr_mem⟩), ht y u hy], hT⟩
      (new := placed s (some (x, some t)) f) (by
        intro o ho hn
        obtain ⟨o', ho', rfl⟩ := ANode.sub_ren (m := t.root) ho
        by_cases hlt : o'.addr < s
        · obtain ⟨h1, h2, p, h3⟩ := stay o' ho' hlt
          rw [h1, h3] at hn
          cases hn
        · exact ⟨o'.addr, by omega, has o' ho', (ANode.addr_ren f o').symm⟩)
    exact ⟨h2, .store a r, g'⟩

variable {Thread : Type} [DecidableEq Thread] {hash}

theorem Allocates.places {σ : Store c Var K V} {h : Memory c.n K V} (g : Accounted σ h) {s : Nat} {p : TEffect c Var K V}
    {f : Nat → Nat} : Allocates h s p f ↔ Places σ s p f :=
  ⟨fun a => ⟨a.old, fun b hb hp hu => a.new b hb hp ((g.used _).2 hu), a.inj⟩,
    fun a => ⟨a.old, fun b hb hp hu => a.new b hb hp ((g.used _).1 hu), a.inj⟩⟩

theorem MemExec.accounted {owner : Var → Option Thread} {code : Thread → Code Var K V R St} {sched : List Thread}
    {w w' : World c Thread Var K V R St} {h h' : Memory c.n K V} (m : MemExec hash owner code sched w h w' h')
    (g : Accounted w.store h) : Accounted w'.store h' := by
  induction m with
  | start w h => exact g
  | step i call s f _ hc hal hs hf hu ih =>
    obtain ⟨h2, u, g2⟩ := (ih g).update hash call hs hf
    rw [hu.unique u]
    exact g2

theorem MemExec.exec {owner : Var → Option Thread} {code : Thread → Code Var K V R St} {sched : List Thread}
    {w w' : World c Thread Var K V R St} {h h' : Memory c.n K V} (m : MemExec hash owner code sched w h w' h')
    (g : Accounted w.store h) : Exec hash owner code sched w w' := by
  induction m with
  | start w h => exact .start w
  | step i call s f m hc hal hs hf hu ih =>
    exact .step (ih g) (.step _ call s f hc hal hs ((Allocates.places (m.accounted g)).1 hf))

theorem Exec.memExec {owner : Var → Option Thread} {code : Thread → Code Var K V R St} {sched : List Thread}
    {w w' : World c Thread Var K V R St} (m : Exec hash owner code sched w w') {h : Memory c.n K V}
    (g : Accounted w.store h) : ∃ h', MemExec hash owner code sched w h w' h' := by
  induction m with
  | start w => exact ⟨h, .start w h⟩
  | step m st ih =>
    obtain ⟨h', m'⟩ := ih g
    have g' := m'.accounted g
    cases st with
    | step call s f hc hal hs hf =>
      have hf' := (Allocates.places g').2 hf
      obtain ⟨h2, u, g2⟩ := g'.update hash call hs hf'
      exact ⟨h2, .step _ call s f m' hc hal hs hf' u⟩

theorem Lives.accounted {σ : Store c Var K V} {h : Memory c.n K V} (l : Lives hash Thread R St σ h) : Accounted σ h := by
  induction l with
  | start => exact Accounted.empty
  | run _ m ih => exact m.accounted ih

end
end HT
