import Verif.JointExamples
/-!
# Properties C16, C18, C19 (transform), C20, C33: transform and transmute

`MapTransformResult.entry`, `.red`, `Mon` and `total` are defined in `Verif/BulkSpec.lean`: what an
answer of the user's operation means for an entry, its contribution to the reduction, "`reduce` is a
monoid with identity `e`", and the reduction of a list of contributions.
-/
namespace HT

variable {K V S X R : Type} [BEq K] {c : Cfg} {hash : K → BitVec c.w}

/-! ## C16 -/

/-- C16: `transform` returns, in every build and for every strategy, a map whose entries are those of the
    original, in order, each as the operation says; so each key is found as the operation says. -/
theorem C16_transform_per_entry {t : Trie c K V} (h : Reach c hash t) (reduce : R → R → R) (e : R)
    (f : K → V → MapTransformResult V R) (par : Par) :
    ∃ t' r, t.transform reduce e (.generic f) par = .ok (t', r) ∧
      t'.visit = t.visit.filterMap (fun x => (f x.1 x.2).entry x) ∧
      t'.size = (t.visit.filterMap (fun x => (f x.1 x.2).entry x)).length ∧
      (∀ k, t.find hash k = .ok none → t'.find hash k = .ok none) ∧
      (∀ k k0 v0, t.find hash k = .ok (some (k0, v0)) →
        t'.find hash k = .ok ((f k0 v0).entry (k0, v0))) := by
  obtain ⟨t', r, h1, h2, h3, _⟩ := Trie.transform_spec h.laws.hash c.levels_pos h.valid reduce e
    (.generic f) par
  have ht' : Reach c hash t' := .transform h h1
  have hv : t'.visit = t.visit.filterMap (fun x => (f x.1 x.2).entry x) := h3
  have keep : ∀ x y : K × V, (f x.1 x.2).entry x = some y → y.1 = x.1 := by
    intro x y hxy
    cases hf : f x.1 x.2 <;> rw [hf] at hxy <;> simp [MapTransformResult.entry] at hxy <;> rw [← hxy]
  refine ⟨t', r, h1, hv, by rw [ht'.size, hv], ?_, ?_⟩
  · intro k hk
    rw [h.find, Res.ok.injEq, List.find?_eq_none] at hk
    rw [ht'.find, Res.ok.injEq, List.find?_eq_none, hv]
    intro y hy
    obtain ⟨x, hx, hxy⟩ := List.mem_filterMap.1 hy
    rw [keep x y hxy]; exact hk x hx
  · intro k k0 v0 hk
    rw [h.find, Res.ok.injEq, (h.query k).no_other h.distinct] at hk
    rw [ht'.find, Res.ok.injEq]
    cases hf : (f k0 v0).entry (k0, v0) with
    | some y =>
      rw [(h.query k).no_other ht'.distinct, hv]
      exact ⟨List.mem_filterMap.2 ⟨_, hk.1, hf⟩, by rw [keep _ _ hf]; exact hk.2⟩
    | none =>
      rw [List.find?_eq_none, hv]
      intro y hy hyk
      obtain ⟨x, hx, hxy⟩ := List.mem_filterMap.1 hy
      rw [keep x y hxy] at hyk
      have h4 := (h.query k).no_other h.distinct (e := x) |>.2 ⟨hx, hyk⟩
      have h5 := (h.query k).no_other h.distinct (e := (k0, v0)) |>.2 hk
      rw [h4] at h5; injection h5 with h5
      rw [h5] at hxy; rw [hf] at hxy; simp at hxy

/-- A map with a collision list, of which some entries are kept, some changed, some removed. -/
example : ∃ t : Trie Ex.c8 Ex.Tk Nat, Reach Ex.c8 Ex.exHash t ∧ (decide (t.size = 6)) = true :=
  exists_reach Ex.exLaws Ex.entries _ (by decide +kernel)

/-- The operation used in examples. -/
def Ex.trf (k : Ex.Tk) (v : Nat) : MapTransformResult Nat (List Nat) :=
  if k.id % 3 = 0 then .removed [v] else if k.id % 3 = 1 then .transformed (v + 100) [v] else .unchanged [v]

example : (Trie.insertMany Ex.exHash true (Trie.new Ex.c8) Ex.entries).test (fun t =>
    (t.transform (· ++ ·) [] (.generic Ex.trf) .middleIndex).test fun (t', r) =>
      decide (t'.visit ≠ t.visit) && decide (t'.size = 4) && decide (r.length = 6)) = true := by
  decide +kernel

/-! ## C18 -/

/-- C18: for a monoid, the second result of `transform` with a closure is the reduction, in visit order,
    of the contributions of the entries. -/
theorem C18_transform_reduction {t : Trie c K V} (h : Reach c hash t) {reduce : R → R → R} {e : R}
    (mon : Mon reduce e) (f : K → V → MapTransformResult V R) (par : Par) :
    ∃ t', t.transform reduce e (.generic f) par =
      .ok (t', total reduce e (t.visit.map fun x => (f x.1 x.2).red)) := by
  obtain ⟨t', r, h1, _, _, h4⟩ := Trie.transform_spec h.laws.hash c.levels_pos h.valid reduce e
    (.generic f) par
  exact ⟨t', by rw [h1, h4 mon trivial]; rfl⟩

/-- C18: the operation is consulted exactly once for each entry, in visit order: when each answer
    contributes the record `[(k, v)]` of its call, the reduction is the list of entries. -/
theorem C18_transform_calls {t : Trie c K V} (h : Reach c hash t)
    (f : K → V → MapTransformResult V (List (K × V))) (hf : ∀ k v, (f k v).red = [(k, v)]) (par : Par) :
    ∃ t', t.transform (· ++ ·) [] (.generic f) par = .ok (t', t.visit) := by
  have mon : Mon (R := List (K × V)) (· ++ ·) [] :=
    ⟨fun _ _ _ => List.append_assoc .., fun _ => List.nil_append _, fun _ => List.append_nil _⟩
  obtain ⟨t', h1⟩ := C18_transform_reduction h mon f par
  refine ⟨t', ?_⟩
  rw [h1]; congr 2
  have : ∀ l : List (K × V), total (· ++ ·) [] (l.map fun x => (f x.1 x.2).red) = l := by
    intro l
    induction l with
    | nil => rfl
    | cons x l ih => rw [List.map_cons, mon.total_cons, ih, hf]; rfl
  exact this _

example : Mon (R := Nat) (· + ·) 0 := ⟨Nat.add_assoc, Nat.zero_add, Nat.add_zero⟩
example : ∀ k v, ((fun k v => .removed [(k, v)] : Ex.Tk → Nat → MapTransformResult Nat (List (Ex.Tk × Nat)))
    k v).red = [(k, v)] := fun _ _ => rfl

/-! ## C19 for transform -/

/-- C19 for `transform`: any two strategies give maps with the same entries in the same order, and for a
    monoid the same reduction. -/
theorem C19_transform_parallelism {t : Trie c K V} (h : Reach c hash t) (reduce : R → R → R) (e : R)
    (op : MapTransform R (K → V → MapTransformResult V R)) (par par' : Par) :
    ∃ t1 r1 t2 r2, t.transform reduce e op par = .ok (t1, r1) ∧ t.transform reduce e op par' = .ok (t2, r2) ∧
      t1.visit = t2.visit ∧ t1.size = t2.size ∧ (∀ k, t1.find hash k = t2.find hash k) ∧
      (Mon reduce e → r1 = r2) := by
  obtain ⟨t1, r1, h1, _, h3, h4⟩ := Trie.transform_spec h.laws.hash c.levels_pos h.valid reduce e op par
  obtain ⟨t2, r2, h1', _, h3', h4'⟩ := Trie.transform_spec h.laws.hash c.levels_pos h.valid reduce e op par'
  have g1 : Reach c hash t1 := .transform h h1
  have g2 : Reach c hash t2 := .transform h h1'
  have hv : t1.visit = t2.visit := by rw [h3, h3']
  refine ⟨t1, r1, t2, r2, h1, h1', hv, by rw [g1.size, g2.size, hv],
    fun k => by rw [g1.find, g2.find, hv], fun mon => ?_⟩
  cases op with
  | generic f => rw [h4 mon trivial, h4' mon trivial]
  | unchanged r =>
    have bulk : ∀ p, (t.root.transform reduce e (.unchanged r) p) = .ok (.unchanged r) := by
      intro p
      cases hm : t.root with
      | C b v x => rw [Node.transform]
      | L l => rw [Node.transform]; cases l <;> rfl
      | S s => rw [Node.transform]; rfl
    simp only [Trie.transform, bulk, Res.ok_bind] at h1 h1'
    injection h1 with h1; injection h1 with _ h1
    injection h1' with h1'; injection h1' with _ h1'
    rw [← h1, ← h1']
  | removed r =>
    have bulk : ∀ p, (t.root.transform reduce e (.removed r) p) = .ok (.removed r) := by
      intro p
      cases hm : t.root with
      | C b v x => rw [Node.transform]
      | L l => rw [Node.transform]; cases l <;> rfl
      | S s => rw [Node.transform]; rfl
    simp only [Trie.transform, bulk, Res.ok_bind] at h1 h1'
    injection h1 with h1; injection h1 with _ h1
    injection h1' with h1'; injection h1' with _ h1'
    rw [← h1, ← h1']

example : Par.sequential ≠ Par.middleIndex := by decide

/-! ## C20 -/

/-- C20: a contract-abiding `transmute` returns, in every build, the map of exactly the transmuted
    entries, in the same order, under the new keys (of the new key type, with its own hash and equality);
    and for a monoid the reduction of the contributions in visit order. -/
theorem C20_transmute_per_entry [BEq S] {hash' : S → BitVec c.w} (laws' : KeyLaws hash')
    {t : Trie c K V} (h : Reach c hash t) (reduce : R → R → R) (e : R)
    (f : K → V → MapTransmuteResult S X R) (km : KeyMap hash hash' f) :
    ∃ t' r, t.transmute reduce e (.generic f) = .ok (t', r) ∧
      t'.visit = t.visit.filterMap (fun x => (f x.1 x.2).entry) ∧
      t'.size = (t.visit.filterMap (fun x => (f x.1 x.2).entry)).length ∧
      (∀ k k0 v0 k' v' s, t.find hash k = .ok (some (k0, v0)) → f k0 v0 = .transmuted k' v' s →
        t'.find hash' k' = .ok (some (k', v'))) ∧
      (∀ k1 k' v', t'.find hash' k1 = .ok (some (k', v')) →
        ∃ k0 v0 s, t.find hash k0 = .ok (some (k0, v0)) ∧ f k0 v0 = .transmuted k' v' s) ∧
      (Mon reduce e → r = total reduce e (t.visit.map fun x => (f x.1 x.2).red)) := by
  obtain ⟨t', r, h1, h2, h3, h4⟩ := Trie.transmute_spec c.levels_pos h.valid reduce e (.generic f) km
  have ht' : Reach c hash' t' := .transmute (op := .generic f) h laws' km h1
  have hv : t'.visit = t.visit.filterMap (fun x => (f x.1 x.2).entry) := h3
  refine ⟨t', r, h1, hv, by rw [ht'.size, hv], ?_, ?_, fun mon => h4 mon trivial⟩
  · intro k k0 v0 k' v' s hk hf
    rw [h.find, Res.ok.injEq, (h.query k).no_other h.distinct] at hk
    rw [ht'.find, Res.ok.injEq, (ht'.query k').no_other ht'.distinct, hv]
    exact ⟨List.mem_filterMap.2 ⟨_, hk.1, by simp [hf, MapTransmuteResult.entry]⟩, laws'.refl k'⟩
  · intro k1 k' v' hk
    rw [ht'.find, Res.ok.injEq, (ht'.query k1).no_other ht'.distinct, hv] at hk
    obtain ⟨⟨k0, v0⟩, hx, hxy⟩ := List.mem_filterMap.1 hk.1
    cases hf : f k0 v0 with
    | removed s => simp [hf, MapTransmuteResult.entry] at hxy
    | transmuted k2 v2 s =>
      simp [hf, MapTransmuteResult.entry] at hxy
      refine ⟨k0, v0, s, ?_, by rw [hf, hxy.1, hxy.2]⟩
      rw [h.find, Res.ok.injEq, (h.query k0).no_other h.distinct]
      exact ⟨hx, h.laws.refl k0⟩

/-- A contract-abiding transmutation that changes the key type and drops entries. -/
def Ex.tmf (k : Ex.Tk) (v : Nat) : MapTransmuteResult Nat String Nat :=
  if k.id % 3 = 0 then .removed v else .transmuted k.id "x" v

example : KeyMap Ex.exHash (fun i : Nat => BitVec.ofNat 8 (i / 10)) Ex.tmf where
  hash := by
    intro k v k' v' r hf
    simp only [Ex.tmf] at hf; split at hf <;> simp at hf
    rw [← hf.1]; rfl
  inj := by
    intro k v k' v' r l w l' w' s hf hg heq
    simp only [Ex.tmf] at hf hg; split at hf <;> simp at hf; split at hg <;> simp at hg
    rw [← hf.1, ← hg.1] at heq
    simpa [BEq.beq] using heq

example : (Trie.insertMany Ex.exHash true (Trie.new Ex.c8) Ex.entries).test (fun t =>
    (t.transmute (· + ·) 0 (.generic Ex.tmf)).test fun (t', _) => decide (t'.size = 4)) = true := by
  decide +kernel

/-! ## C33 -/

omit [BEq K] in
/-- C33: bulk `Unchanged(r)` returns the same map and `r`, for every strategy, in every build. -/
theorem C33_bulk_unchanged (t : Trie c K V) (reduce : R → R → R) (e r : R) (par : Par) :
    t.transform reduce e (.unchanged r) par = .ok (t, r) := by
  have bulk : (t.root.transform reduce e (.unchanged r) par) = .ok (.unchanged r) := by
    cases hm : t.root with
    | C b v x => rw [Node.transform]
    | L l => rw [Node.transform]; cases l <;> rfl
    | S s => rw [Node.transform]; rfl
  simp only [Trie.transform, bulk, Res.ok_bind]

omit [BEq K] in
/-- C33: bulk `Removed(r)` returns an empty map and `r`. -/
theorem C33_bulk_removed (t : Trie c K V) (reduce : R → R → R) (e r : R) (par : Par) :
    ∃ t', t.transform reduce e (.removed r) par = .ok (t', r) ∧ t'.visit = [] ∧ t'.size = 0 := by
  have bulk : (t.root.transform reduce e (.removed r) par) = .ok (.removed r) := by
    cases hm : t.root with
    | C b v x => rw [Node.transform]
    | L l => rw [Node.transform]; cases l <;> rfl
    | S s => rw [Node.transform]; rfl
  refine ⟨Trie.new c, ?_, rfl, rfl⟩
  simp only [Trie.transform, bulk, Res.ok_bind]

omit [BEq K] in
/-- C33: transmute with bulk `Removed(r)` likewise. -/
theorem C33_bulk_transmute_removed (t : Trie c K V) (reduce : R → R → R) (e r : R) :
    ∃ t' : Trie c S X, t.transmute reduce e (.removed r) = .ok (t', r) ∧ t'.visit = [] ∧ t'.size = 0 := by
  have bulk : (t.root.transmute (S := S) (X := X) reduce e (.removed r)) = .ok (.removed r) := by
    cases hm : t.root with
    | C b v x => rw [Node.transmute]
    | L l => rw [Node.transmute]; cases l <;> rfl
    | S s => rw [Node.transmute]; rfl
  refine ⟨Trie.new c, ?_, rfl, rfl⟩
  simp only [Trie.transmute, bulk, Res.ok_bind]

end HT
