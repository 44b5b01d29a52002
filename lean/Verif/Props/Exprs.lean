import Verif.ExprLemmas
import Verif.Props.Algebra
import Verif.Props.Recipes
/-!
# Property C70: expressions over sets obey Boolean algebra; maps laid over one another

Programs combine more than two sets, and use intermediate results again.  `SetExpr` (`Verif/ExprSpec.lean`) is such a
program: nested calls of `transform_with_transformed`, each with arguments of its own (bulk operations or closures,
either strategy).
-/
namespace HT
variable {K V R : Type} [BEq K] {c : Cfg} {hash : K → BitVec c.w}

/-- C70: if the nested calls return, the result contains a key exactly if the expression, read as a statement about
    which of the sets contain the key, is true. -/
theorem C70_expression {sets : Nat → HSet c K} (hs : ∀ i, SReach c hash (sets i)) {reduce : R → R → R} {e : R}
    {x : SetExpr K R} (proper : x.Proper) {s' : HSet c K} (h : x.eval reduce e hash sets = .ok s') :
    SReach c hash s' ∧ ∀ k, s'.Has hash k ↔ x.means fun i => (sets i).Has hash k := by
  induction x generalizing s' with
  | var i =>
    simp only [SetExpr.eval, Res.ok.injEq] at h
    subst h
    exact ⟨hs i, fun k => Iff.rfl⟩
  | op o call a b iha ihb =>
    obtain ⟨p1, p2, p3⟩ := proper
    rw [SetExpr.eval] at h
    obtain ⟨s, h1, h⟩ := Res.bind_eq_ok.1 h
    obtain ⟨t, h2, h⟩ := Res.bind_eq_ok.1 h
    obtain ⟨⟨s1, r⟩, h3, h⟩ := Res.bind_eq_ok.1 h
    simp only [Res.ok.injEq] at h
    subst h
    obtain ⟨rs, ms⟩ := iha p2 h1
    obtain ⟨rt, mt⟩ := ihb p3 h2
    obtain ⟨rs', ms'⟩ := SetCall.has p1 rs rt h3
    exact ⟨rs', fun k => (ms' k).trans (SetAlgebra.means_congr (ms k) (mt k) o)⟩

/-- C70: two expressions that are equal by Boolean algebra yield sets with the same keys and the same size. -/
theorem C70_laws {sets : Nat → HSet c K} (hs : ∀ i, SReach c hash (sets i)) {reduce : R → R → R} {e : R}
    {x y : SetExpr K R} (hx : x.Proper) (hy : y.Proper) (same : ∀ has, x.means has ↔ y.means has) {s t : HSet c K}
    (h : x.eval reduce e hash sets = .ok s) (h' : y.eval reduce e hash sets = .ok t) :
    (∀ k, s.Has hash k ↔ t.Has hash k) ∧ s.size = t.size := by
  obtain ⟨rs, ms⟩ := C70_expression hs hx h
  obtain ⟨rt, mt⟩ := C70_expression hs hy h'
  have eq : ∀ k, s.Has hash k ↔ t.Has hash k := fun k => (ms k).trans ((same _).trans (mt k).symm)
  refine ⟨eq, ?_⟩
  rw [rt.size]
  exact rs.size_eq rt.distinct fun k => (rt.has_iff k).symm.trans (eq k).symm

section
open Classical

/-- C70: the size of the result is the number of keys of which the expression is true, out of any list without two
    equal keys that covers all the sets. -/
theorem C70_size {sets : Nat → HSet c K} (hs : ∀ i, SReach c hash (sets i)) {reduce : R → R → R} {e : R}
    {x : SetExpr K R} (proper : x.Proper) {s' : HSet c K} (h : x.eval reduce e hash sets = .ok s')
    {all : List K} (distinct : all.Pairwise fun a b => (a == b) = false)
    (cover : ∀ i k, (sets i).Has hash k → ∃ a ∈ all, (a == k) = true) :
    s'.size = all.countP fun a => decide (x.means fun i => (sets i).Has hash a) := by
  obtain ⟨rs, ms⟩ := C70_expression hs proper h
  have laws := rs.laws
  have move : ∀ {a k : K}, (a == k) = true → s'.Has hash k → s'.Has hash a := by
    intro a k hak hk
    obtain ⟨b, hb, hbk⟩ := (rs.has_iff k).1 hk
    exact (rs.has_iff a).2 ⟨b, hb, laws.trans _ _ _ hbk (laws.symm _ _ hak)⟩
  rw [List.countP_eq_length_filter]
  refine rs.size_eq (distinct.filter _) fun k => ⟨?_, fun hk => ?_⟩
  · rintro ⟨a, ha, hak⟩
    rw [List.mem_filter, decide_eq_true_iff, ← ms] at ha
    exact move (laws.symm _ _ hak) ha.2
  · obtain ⟨i, hi⟩ := SetExpr.means_some ((ms k).1 hk)
    obtain ⟨a, ha, hak⟩ := cover i k hi
    refine ⟨a, List.mem_filter.2 ⟨ha, ?_⟩, hak⟩
    rw [decide_eq_true_iff, ← ms]
    exact move hak hk

end

/-- C70: inclusion and exclusion.  Each of the four results is obtained with arguments of its own. -/
theorem C70_inclusion_exclusion {s t : HSet c K} (hs : SReach c hash s) (ht : SReach c hash t) {reduce : R → R → R}
    {e : R} {cu ci cd cx : SetCall K R} (hu : cu.Performs .union) (hi : ci.Performs .intersection)
    (hd : cd.Performs .difference) (hx : cx.Performs .symmetricDifference) {u i d x : HSet c K} {ru ri rd rx : R}
    (eu : HSet.twt reduce e hash cu.both cu.left cu.right cu.par s t = .ok (u, ru))
    (ei : HSet.twt reduce e hash ci.both ci.left ci.right ci.par s t = .ok (i, ri))
    (ed : HSet.twt reduce e hash cd.both cd.left cd.right cd.par s t = .ok (d, rd))
    (ex : HSet.twt reduce e hash cx.both cx.left cx.right cx.par s t = .ok (x, rx)) :
    u.size + i.size = s.size + t.size ∧ d.size + i.size = s.size ∧ x.size + 2 * i.size = s.size + t.size := by
  have laws := hs.laws
  obtain ⟨r1, m1⟩ := SetCall.has hu hs ht eu
  obtain ⟨r2, m2⟩ := SetCall.has hi hs ht ei
  obtain ⟨r3, m3⟩ := SetCall.has hd hs ht ed
  obtain ⟨r4, m4⟩ := SetCall.has hx hs ht ex
  have moves : ∀ {z : HSet c K}, SReach c hash z → ∀ {a k : K}, (a == k) = true → (z.Has hash k ↔ z.Has hash a) := by
    intro z rz a k hak
    rw [rz.has_iff, rz.has_iff]
    constructor
    · rintro ⟨b, hb, hbk⟩
      exact ⟨b, hb, laws.trans _ _ _ hbk (laws.symm _ _ hak)⟩
    · rintro ⟨b, hb, hbk⟩
      exact ⟨b, hb, laws.trans _ _ _ hbk hak⟩
  classical
  -- the keys of `s` inside and outside `t`, and those of `t` outside `s`
  have part : ∀ {z y : HSet c K} (ry : SReach c hash y) (rz : SReach c hash z) (b : Bool) (k : K),
      (∃ a ∈ z.visit.filter (fun a => decide (y.Has hash a) == b), (a == k) = true) ↔
        (z.Has hash k ∧ (decide (y.Has hash k) = b)) := by
    intro z y ry rz b k
    constructor
    · rintro ⟨a, ha, hak⟩
      rw [List.mem_filter, beq_iff_eq] at ha
      refine ⟨(rz.has_iff k).2 ⟨a, ha.1, hak⟩, ?_⟩
      rw [← ha.2, decide_eq_decide]; exact moves ry hak
    · rintro ⟨hk, hb⟩
      obtain ⟨a, ha, hak⟩ := (rz.has_iff k).1 hk
      refine ⟨a, List.mem_filter.2 ⟨ha, ?_⟩, hak⟩
      rw [beq_iff_eq, ← hb, decide_eq_decide]; exact (moves ry hak).symm
  have si : i.size = (s.visit.filter fun a => decide (t.Has hash a) == true).length :=
    r2.size_eq (hs.distinct.filter _) fun k => by
      rw [part ht hs, m2]; simp [SetAlgebra.means]
  have sd : d.size = (s.visit.filter fun a => decide (t.Has hash a) == false).length :=
    r3.size_eq (hs.distinct.filter _) fun k => by
      rw [part ht hs, m3]; simp [SetAlgebra.means]
  have si' : i.size = (t.visit.filter fun a => decide (s.Has hash a) == true).length :=
    r2.size_eq (ht.distinct.filter _) fun k => by
      rw [part hs ht, m2]; simp [SetAlgebra.means, and_comm]
  have apart : ∀ {l l' : List K}, l.Pairwise (fun a b => (a == b) = false) → l'.Pairwise (fun a b => (a == b) = false) →
      (∀ a ∈ l, ∀ b ∈ l', (a == b) = false) → (l ++ l').Pairwise (fun a b => (a == b) = false) := by
    intro l l' h1 h2 h3
    exact List.pairwise_append.2 ⟨h1, h2, h3⟩
  have su : u.size = (s.visit ++ t.visit.filter fun a => decide (s.Has hash a) == false).length := by
    refine r1.size_eq (apart hs.distinct (ht.distinct.filter _) fun a ha b hb => ?_) fun k => ?_
    · cases hab : a == b with
      | false => rfl
      | true =>
        have := (List.mem_filter.1 hb).2
        have hsb : s.Has hash b := (hs.has_iff b).2 ⟨a, ha, hab⟩
        simp [hsb] at this
    · simp only [List.mem_append, or_and_right, exists_or]
      rw [part hs ht, ← hs.has_iff, m1]
      by_cases hk : s.Has hash k <;> simp [SetAlgebra.means, hk]
  have sx : x.size = ((s.visit.filter fun a => decide (t.Has hash a) == false) ++
      t.visit.filter fun a => decide (s.Has hash a) == false).length := by
    refine r4.size_eq (apart (hs.distinct.filter _) (ht.distinct.filter _) fun a ha b hb => ?_) fun k => ?_
    · cases hab : a == b with
      | false => rfl
      | true =>
        have := (List.mem_filter.1 hb).2
        have hsb : s.Has hash b := (hs.has_iff b).2 ⟨a, (List.mem_filter.1 ha).1, hab⟩
        simp [hsb] at this
    · simp only [List.mem_append, or_and_right, exists_or]
      rw [part hs ht, part ht hs, m4]
      by_cases hk : s.Has hash k <;> by_cases hk' : t.Has hash k <;> simp [SetAlgebra.means, hk, hk']
  have split : ∀ (l : List K) (p : K → Bool),
      (l.filter fun a => p a == true).length + (l.filter fun a => p a == false).length = l.length := by
    intro l p
    induction l with
    | nil => rfl
    | cons a l ih => cases h : p a <;> simp [h] at ih ⊢ <;> omega
  have e1 := split s.visit fun a => decide (t.Has hash a)
  have e2 := split t.visit fun a => decide (s.Has hash a)
  rw [List.length_append] at su sx
  rw [hs.size, ht.size]
  omega

/-- C70: the nested calls do not panic; and they return if no two different keys of the sets share a hash. -/
theorem C70_returns {sets : Nat → HSet c K} (hs : ∀ i, SReach c hash (sets i)) (reduce : R → R → R) (e : R)
    {x : SetExpr K R} (proper : x.Proper) :
    (∀ cause, x.eval reduce e hash sets ≠ .panic cause) ∧
    ((∀ i j k k', (sets i).Has hash k → (sets j).Has hash k' → hash k = hash k' → (k == k') = true) →
      ∃ s', x.eval reduce e hash sets = .ok s') := by
  induction x with
  | var i => exact ⟨fun cause h => by simp [SetExpr.eval] at h, fun _ => ⟨sets i, rfl⟩⟩
  | op o call a b iha ihb =>
    obtain ⟨p1, p2, p3⟩ := proper
    obtain ⟨a1, a2⟩ := iha p2
    obtain ⟨b1, b2⟩ := ihb p3
    obtain ⟨u1, u2, u3⟩ := SetCall.uniform p1
    constructor
    · intro cause h
      rw [SetExpr.eval] at h
      cases ha : a.eval reduce e hash sets with
      | panic z => exact a1 z ha
      | diverge => rw [ha] at h; cases h
      | ok s =>
        rw [ha] at h; simp only [Res.ok_bind] at h
        cases hb : b.eval reduce e hash sets with
        | panic z => exact b1 z hb
        | diverge => rw [hb] at h; cases h
        | ok t =>
          rw [hb] at h; simp only [Res.ok_bind] at h
          rcases (C27_returns_partial (reduce := reduce) (e := e) (par := call.par) (C70_expression hs p2 ha).1
            (C70_expression hs p3 hb).1 u1 u2 u3).2 with ⟨s', r, h'⟩ | h'
          · rw [h'] at h; cases h
          · rw [h'] at h; cases h
    · intro apart
      obtain ⟨s, ha⟩ := a2 apart
      obtain ⟨t, hb⟩ := b2 apart
      obtain ⟨rs, ms⟩ := C70_expression hs p2 ha
      obtain ⟨rt, mt⟩ := C70_expression hs p3 hb
      have ns : ∀ b, collisions hash s.set.visit b ≤ 1 := rs.noCollision fun k k' hk hk' => by
        obtain ⟨i, hi⟩ := SetExpr.means_some ((ms k).1 hk)
        obtain ⟨j, hj⟩ := SetExpr.means_some ((ms k').1 hk')
        exact apart i j k k' hi hj
      have nt : ∀ b, collisions hash t.set.visit b ≤ 1 := rt.noCollision fun k k' hk hk' => by
        obtain ⟨i, hi⟩ := SetExpr.means_some ((mt k).1 hk)
        obtain ⟨j, hj⟩ := SetExpr.means_some ((mt k').1 hk')
        exact apart i j k k' hi hj
      obtain ⟨s', r, h'⟩ := (C27_returns_partial (reduce := reduce) (e := e) (par := call.par) rs rt u1 u2 u3).1
        (fun b _ => Nat.le_succ_of_le (nt b)) (fun b _ => Nat.le_succ_of_le (ns b))
      refine ⟨s', ?_⟩
      rw [SetExpr.eval, ha]; simp only [Res.ok_bind]
      rw [hb]; simp only [Res.ok_bind]
      rw [h']; rfl

/-! ## Laws of Boolean algebra, as instances of `C70_laws` -/

section
variable {cu ci cd cx : SetCall K R} {a b d : SetExpr K R} {has : Nat → Prop}

omit [BEq K] in
/-- Union, intersection and symmetric difference are commutative and associative, union and intersection are idempotent,
    absorb and distribute over each other, and difference follows De Morgan's laws. -/
theorem SetExpr.boolean_algebra :
    (SetExpr.op .union cu a b).means has = (SetExpr.op .union cu b a).means has ∧
    (SetExpr.op .intersection ci a b).means has = (SetExpr.op .intersection ci b a).means has ∧
    (SetExpr.op .symmetricDifference cx a b).means has = (SetExpr.op .symmetricDifference cx b a).means has ∧
    (SetExpr.op .union cu a (.op .union cu b d)).means has = (SetExpr.op .union cu (.op .union cu a b) d).means has ∧
    (SetExpr.op .intersection ci a (.op .intersection ci b d)).means has =
      (SetExpr.op .intersection ci (.op .intersection ci a b) d).means has ∧
    (SetExpr.op .symmetricDifference cx a (.op .symmetricDifference cx b d)).means has =
      (SetExpr.op .symmetricDifference cx (.op .symmetricDifference cx a b) d).means has ∧
    (SetExpr.op .union cu a a).means has = a.means has ∧ (SetExpr.op .intersection ci a a).means has = a.means has ∧
    (SetExpr.op .union cu a (.op .intersection ci a b)).means has = a.means has ∧
    (SetExpr.op .intersection ci a (.op .union cu a b)).means has = a.means has ∧
    (SetExpr.op .union cu a (.op .intersection ci b d)).means has =
      (SetExpr.op .intersection ci (.op .union cu a b) (.op .union cu a d)).means has ∧
    (SetExpr.op .intersection ci a (.op .union cu b d)).means has =
      (SetExpr.op .union cu (.op .intersection ci a b) (.op .intersection ci a d)).means has ∧
    (SetExpr.op .difference cd a (.op .union cu b d)).means has =
      (SetExpr.op .intersection ci (.op .difference cd a b) (.op .difference cd a d)).means has ∧
    (SetExpr.op .difference cd a (.op .intersection ci b d)).means has =
      (SetExpr.op .union cu (.op .difference cd a b) (.op .difference cd a d)).means has ∧
    (SetExpr.op .symmetricDifference cx a b).means has =
      (SetExpr.op .difference cd (.op .union cu a b) (.op .intersection ci a b)).means has := by
  simp only [SetExpr.means, SetAlgebra.means, eq_iff_iff]
  by_cases a.means has <;> by_cases b.means has <;> by_cases d.means has <;> simp [*]

end

/-! ## Layers -/

/-- The entries of the right map win. -/
theorem overrideOps_tame {as bs : List (K × V)} (rb rl rr : R) : (overrideOps rb rl rr : TwtOps K V R).Tame hash as bs := by
  refine TwtOps.tame_uniform ?_ ?_ (.inr ?_) (.inr ?_)
  · intro as bs a _ b _ _ r h
    simp [overrideOps, MapJointTransform.closure] at h
  · intro as bs a _ b _ _ r h
    simp [overrideOps, TwtOps.flip, MapJointTransform.flip, MapJointTransform.closure] at h
  · intro l a _ r h
    simp [overrideOps, MapTransform.closure] at h
  · intro l a _ r h
    simp [overrideOps, MapTransform.closure] at h

/-- The value lookup finds. -/
def Trie.value? (hash : K → BitVec c.w) (k : K) (t : Trie c K V) : Option V :=
  match t.find hash k with
  | .ok (some e) => some e.2
  | _ => none

/-- C70: maps merged one after another, the later winning: the value of a key is that of the last map that holds the
    key.  No call panics. -/
theorem C70_layers {t : Trie c K V} (ht : Reach c hash t) {us : List (Trie c K V)} (hus : ∀ u ∈ us, Reach c hash u)
    (reduce : R → R → R) (e rb rl rr : R) (par : Par) :
    (∀ cause, Trie.layers reduce e hash rb rl rr par t us ≠ .panic cause) ∧
    ∀ t', Trie.layers reduce e hash rb rl rr par t us = .ok t' → Reach c hash t' ∧
      ∀ k, t'.value? hash k = ((t :: us).filterMap (Trie.value? hash k)).getLast? := by
  induction us generalizing t with
  | nil =>
    refine ⟨fun cause h => (by simp [Trie.layers] at h), fun t' h => ?_⟩
    simp only [Trie.layers, Res.ok.injEq] at h
    subst h
    refine ⟨ht, fun k => ?_⟩
    cases h : t.value? hash k <;> simp [h]
  | cons u us ih =>
    have M := C69_merge ht (hus u (by simp)) (fun _ _ _ w => w) reduce e rb rl rr par
    change _ ∧ (∀ cause, Trie.twt reduce e hash (overrideOps rb rl rr) par t u ≠ .panic cause) ∧
      ∀ t' r, Trie.twt reduce e hash (overrideOps rb rl rr) par t u = .ok (t', r) → _ at M
    cases h1 : Trie.twt reduce e hash (overrideOps rb rl rr) par t u with
    | panic z => exact absurd h1 (M.2.1 z)
    | diverge =>
      refine ⟨fun cause h => ?_, fun t' h => ?_⟩ <;> rw [Trie.layers, h1] at h <;> cases h
    | ok p =>
      obtain ⟨t1, r1⟩ := p
      have r1' : Reach c hash t1 := .transformWithTransformed ht (hus u (by simp)) (overrideOps_tame rb rl rr) h1
      obtain ⟨i1, i2⟩ := ih r1' fun u hu => hus u (by simp [hu])
      have step : Trie.layers reduce e hash rb rl rr par t (u :: us) = Trie.layers reduce e hash rb rl rr par t1 us := by
        rw [Trie.layers, h1]; rfl
      refine ⟨fun cause h => i1 cause (step ▸ h), fun t' h => ?_⟩
      obtain ⟨j1, j2⟩ := i2 t' (step ▸ h)
      refine ⟨j1, fun k => ?_⟩
      rw [j2 k]
      have hv : t1.value? hash k = match u.value? hash k with
          | some w => some w
          | none => t.value? hash k := by
        have hu := (hus u (by simp)).find k
        have hf := ht.find k
        generalize t.visit.find? (fun e => e.1 == k) = a? at hf
        generalize u.visit.find? (fun e => e.1 == k) = b? at hu
        obtain ⟨o, ho, hm⟩ := M.2.2 t1 r1 h1 k a? b? hf hu
        simp only [Trie.value?, hf, hu, ho]
        cases a? <;> cases b? <;> simp only at hm
        · subst hm; rfl
        · subst hm; rfl
        · subst hm; rfl
        · rcases hm with rfl | rfl <;> rfl
      simp only [List.filterMap_cons, hv]
      cases u.value? hash k <;> cases t.value? hash k <;> simp [List.getLast?_cons]

/-- C70: these merges return if no two different keys of the maps share a hash. -/
theorem C70_layers_return {t : Trie c K V} (ht : Reach c hash t) {us : List (Trie c K V)} (hus : ∀ u ∈ us, Reach c hash u)
    (apart : ∀ t₁ ∈ t :: us, ∀ t₂ ∈ t :: us, ∀ a ∈ t₁.visit, ∀ b ∈ t₂.visit, hash a.1 = hash b.1 → (a.1 == b.1) = true)
    (reduce : R → R → R) (e rb rl rr : R) (par : Par) :
    ∃ t', Trie.layers reduce e hash rb rl rr par t us = .ok t' := by
  have laws := ht.laws
  induction us generalizing t with
  | nil => exact ⟨t, rfl⟩
  | cons u us ih =>
    have hu := hus u (by simp)
    have one : ∀ t₁ ∈ t :: u :: us, Reach c hash t₁ → ∀ b, collisions hash t₁.visit b ≤ 1 := by
      intro t₁ h₁ r₁ b
      refine countP_le_one (r₁.distinct.imp_of_mem fun {x y} hx hy hxy h1 h2 => ?_)
      have := apart t₁ h₁ t₁ h₁ x hx y hy ((beq_iff_eq.1 h1).trans (beq_iff_eq.1 h2).symm)
      rw [hxy] at this; cases this
    have M := C69_merge ht hu (fun _ _ _ w => w) reduce e rb rl rr par
    obtain ⟨t1, r1, h1⟩ := M.1 (fun b _ => Nat.le_succ_of_le (one u (by simp) hu b))
      (fun b _ => Nat.le_succ_of_le (one t (by simp) ht b))
    have h1 : Trie.twt reduce e hash (overrideOps rb rl rr) par t u = .ok (t1, r1) := h1
    have r1' : Reach c hash t1 := .transformWithTransformed ht hu (overrideOps_tame rb rl rr) h1
    -- every key of the merged map is a key of one of the two
    have from' : ∀ t₁ ∈ t1 :: us, ∀ a ∈ t₁.visit, ∃ t₂ ∈ t :: u :: us, ∃ b ∈ t₂.visit, (b.1 == a.1) = true := by
      intro t₁ h₁ a ha
      rcases List.mem_cons.1 h₁ with rfl | h₁
      · have hf : t₁.find hash a.1 = .ok (some a) := by
          rw [r1'.find, Res.ok.injEq, (r1'.query a.1).no_other r1'.distinct]; exact ⟨ha, laws.refl _⟩
        obtain ⟨o, ho, hm⟩ := M.2.2 t₁ r1 h1 a.1 _ _ (ht.find a.1) (hu.find a.1)
        rw [hf, Res.ok.injEq] at ho
        subst ho
        cases hb : u.visit.find? (fun e => e.1 == a.1) with
        | some b =>
          have h2 := List.mem_of_find?_eq_some hb
          have h3 := List.find?_some hb
          exact ⟨u, by simp, b, h2, h3⟩
        | none =>
          cases hc : t.visit.find? (fun e => e.1 == a.1) with
          | some b =>
            have h2 := List.mem_of_find?_eq_some hc
            have h3 := List.find?_some hc
            exact ⟨t, by simp, b, h2, h3⟩
          | none => rw [hb, hc] at hm; cases hm
      · exact ⟨t₁, by simp [h₁], a, ha, laws.refl _⟩
    obtain ⟨t', h'⟩ := ih r1' (fun u hu => hus u (by simp [hu])) (fun t₁ h₁ t₂ h₂ a ha b hb hab => by
      obtain ⟨t₃, h₃, a', ha', ea⟩ := from' t₁ h₁ a ha
      obtain ⟨t₄, h₄, b', hb', eb⟩ := from' t₂ h₂ b hb
      have := apart t₃ h₃ t₄ h₄ a' ha' b' hb' (by rw [laws.hash _ _ ea, laws.hash _ _ eb, hab])
      exact laws.trans _ _ _ (laws.symm _ _ ea) (laws.trans _ _ _ this eb))
    refine ⟨t', ?_⟩
    rw [Trie.layers, h1]; exact h'

/-! ## Examples -/

namespace Ex

/-- Arguments for each of the four operations: bulk operations, closures, both strategies. -/
def cu : SetCall Tk Unit := ⟨.unchangedLR (), .unchanged (), .generic fun _ => .unchanged (), .sequential⟩
@[inherit_doc cu] def ci : SetCall Tk Unit := ⟨.generic (fun _ _ => .unchangedLR ()) false, .removed (), .removed (), .middleIndex⟩
@[inherit_doc cu] def cd : SetCall Tk Unit := ⟨.removed (), .unchanged (), .removed (), .sequential⟩
@[inherit_doc cu] def cx : SetCall Tk Unit := ⟨.generic (fun _ _ => .removed ()) false, .generic fun _ => .unchanged (), .unchanged (), .middleIndex⟩

theorem performs : cu.Performs .union ∧ ci.Performs .intersection ∧ cd.Performs .difference ∧
    cx.Performs .symmetricDifference :=
  ⟨⟨.inl fun _ _ => ⟨(), rfl⟩, fun _ => ⟨(), rfl⟩, fun _ => ⟨(), rfl⟩⟩,
   ⟨.inl fun _ _ => ⟨(), rfl⟩, fun _ => ⟨(), rfl⟩, fun _ => ⟨(), rfl⟩⟩,
   ⟨fun _ _ => ⟨(), rfl⟩, fun _ => ⟨(), rfl⟩, fun _ => ⟨(), rfl⟩⟩,
   ⟨fun _ _ => ⟨(), rfl⟩, fun _ => ⟨(), rfl⟩, fun _ => ⟨(), rfl⟩⟩⟩

/-- `(s ∪ t) ∖ (s ∩ t)` and `s △ t`. -/
def expr : SetExpr Tk Unit := .op .difference cd (.op .union cu (.var 0) (.var 1)) (.op .intersection ci (.var 0) (.var 1))
@[inherit_doc expr] def expr' : SetExpr Tk Unit := .op .symmetricDifference cx (.var 0) (.var 1)

end Ex

/-- Two sets with collisions on which two nested expressions that mean the same return. -/
example : Ex.expr.Proper ∧ Ex.expr'.Proper ∧ (∀ has, Ex.expr.means has ↔ Ex.expr'.means has) ∧
    ∃ s t : HSet Ex.c8 Ex.Tk, SReach Ex.c8 Ex.exHash s ∧ SReach Ex.c8 Ex.exHash t ∧
    ((Ex.expr.eval (fun _ _ => ()) () Ex.exHash fun i => if i = 0 then s else t).test (fun y => decide (y.size = 8)) &&
     (Ex.expr'.eval (fun _ _ => ()) () Ex.exHash fun i => if i = 0 then s else t).test (fun y => decide (y.size = 8))) = true := by
  refine ⟨⟨Ex.performs.2.2.1, ⟨Ex.performs.1, trivial, trivial⟩, ⟨Ex.performs.2.1, trivial, trivial⟩⟩,
    ⟨Ex.performs.2.2.2, trivial, trivial⟩, fun has => ?_, ?_⟩
  · simp only [Ex.expr, Ex.expr', SetExpr.means, SetAlgebra.means]
    by_cases has 0 <;> by_cases has 1 <;> simp [*]
  · exact exists_sreach2 Ex.exLaws Ex.exLaws (Ex.entries.map Prod.fst) (Ex.right.map Prod.fst) _ (by decide +kernel)

/-- Sets of which no two different keys share a hash, for `C70_returns`. -/
example : ∃ s t : HSet Ex.c8 Ex.Tk, SReach Ex.c8 Ex.exHash s ∧ SReach Ex.c8 Ex.exHash t ∧
    (decide (s.size = 2) && decide (t.size = 2) && s.visit.all fun k => t.visit.all fun k' =>
      !(decide (Ex.exHash k = Ex.exHash k')) || k == k') = true :=
  exists_sreach2 Ex.exLaws Ex.exLaws [⟨5, 0⟩, ⟨641, 0⟩] [⟨5, 1⟩, ⟨90, 0⟩] _ (by decide +kernel)

/-- Two layers that share keys. -/
example : ∃ t u : Trie Ex.c8 Ex.Tk Nat, Reach Ex.c8 Ex.exHash t ∧ Reach Ex.c8 Ex.exHash u ∧
    (Trie.layers (fun _ _ => ()) () Ex.exHash () () () .sequential t [u]).test
      (fun y => decide (y.size = 10)) = true :=
  exists_reach2 Ex.exLaws Ex.exLaws Ex.entries Ex.right _ (by decide +kernel)

end HT
