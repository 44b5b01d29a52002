import Verif.GrownShape
import Verif.Props.Contents
import Verif.Props.VisitOrder
/-!
# Properties C63 and C64: maps made by insertions only

`Grown hash t`: `t` was made from `new()` by insertions.  `Blocked` (`Verif/GrownSpec.lean`) is about the two lists of
entries and the hashes of their keys.
-/
namespace HT

variable {K V L W S X R : Type} [BEq K] [BEq L] [BEq S] {c : Cfg} {x : Cross c K L} {hash : K → BitVec c.w}

/-! ## C63 -/

/-- C63: `transmute_with_transmuted` on maps made by insertions does not return if the contents are `Blocked`, and
    otherwise returns. -/
theorem C63_transmute_with_transmuted (laws : CrossLaws x) {hashS : S → BitVec c.w} (lawsS : KeyLaws hashS)
    {t : Trie c K V} {u : Trie c L W} (ht : Grown x.hash t) (hu : Grown x.hash' u) {ops : MwmOps K V L W S X R}
    (con : ops.Contract x hashS) (reduce : R → R → R) (e : R) :
    (Blocked x t.visit u.visit → Trie.mwm x reduce e ops t u = .diverge) ∧
    (¬ Blocked x t.visit u.visit → ∃ t' r, Trie.mwm x reduce e ops t u = .ok (t', r)) := by
  refine ⟨fun b => Trie.mwm_stuck laws lawsS con reduce e ht.reach.valid hu.reach.valid ((ht.stuck_iff hu).2 b),
    fun nb => ?_⟩
  rcases Trie.mwm_total laws lawsS con reduce e ht.reach.valid hu.reach.valid with ⟨_, st⟩ | ⟨t', r, h, _⟩
  · exact absurd ((ht.stuck_iff hu).1 st) nb
  · exact ⟨t', r, h⟩

omit [BEq L] [BEq S] in
/-- C63: `transform_with_transformed` with tame answers (C21) and a two-sided closure: the same condition.  Without the
    closure (bulk operations, which may answer whole subtrees at once) it returns at least when the contents are not
    `Blocked`. -/
theorem C63_transform_with_transformed {t u : Trie c K V} (ht : Grown hash t) (hu : Grown hash u) {ops : TwtOps K V R}
    (tame : ops.Tame hash t.visit u.visit) (reduce : R → R → R) (e : R) (par : Par) :
    (Blocked (Cross.same hash) t.visit u.visit → (∃ f swapped, ops.both = .generic f swapped) →
      Trie.twt reduce e hash ops par t u = .diverge) ∧
    (¬ Blocked (Cross.same hash) t.visit u.visit → ∃ t' r, Trie.twt reduce e hash ops par t u = .ok (t', r)) := by
  have hs := Grown.stuck_iff (x := Cross.same hash) ht hu
  refine ⟨fun b ⟨f, sw, hg⟩ => Trie.twt_stuck ht.reach.laws reduce e par ht.reach.valid hu.reach.valid tame
      (by simp only [TwtOps.shortcut, hg]) (hs.2 b), fun nb => ?_⟩
  rcases Trie.twt_total ht.reach.laws reduce e par ht.reach.valid hu.reach.valid tame with ⟨_, st⟩ | ⟨t', r, h, _⟩
  · exact absurd (hs.1 st) nb
  · exact ⟨t', r, h⟩

omit [BEq L] [BEq S] in
/-- C63: with a two-sided closure, whatever the answers, `transform_with_transformed` never returns on maps whose
    contents are `Blocked`. -/
theorem C63_blocked_never_returns {t u : Trie c K V} (ht : Grown hash t) (hu : Grown hash u)
    (b : Blocked (Cross.same hash) t.visit u.visit) {f : K → V → K → V → MapJointTransformResult V R} {swapped : Bool}
    (left right : MapTransform R (K → V → MapTransformResult V R)) (reduce : R → R → R) (e : R) (par : Par)
    (t' : Trie c K V) (r : R) : Trie.twt reduce e hash ⟨.generic f swapped, left, right⟩ par t u ≠ .ok (t', r) := by
  intro h
  obtain ⟨y, hy, _⟩ := Trie.twt_red h
  exact Node.twt_stuck_not_ok ht.reach.laws reduce e par ht.reach.valid hu.reach.valid rfl
    ((Grown.stuck_iff (x := Cross.same hash) ht hu).2 b) y hy

theorem Nearer.perm {as as' : List (K × V)} {bs bs' : List (L × W)} (p : as.Perm as') (q : bs.Perm bs') (h : BitVec c.w) :
    Nearer x as bs h ↔ Nearer x as' bs' h := by
  unfold Nearer
  simp only [p.mem_iff, q.mem_iff]

theorem Blocked.perm {as as' : List (K × V)} {bs bs' : List (L × W)} (p : as.Perm as') (q : bs.Perm bs') :
    Blocked x as bs ↔ Blocked x as' bs' := by
  unfold Blocked collisions
  simp only [Nearer.perm p q, p.countP_eq, q.countP_eq]

/-- C63 (C45 in full, for maps made by insertions): on maps with the same contents the calls of
    `transmute_with_transmuted` both return or both do not; the results have the same contents and, for commutative
    reductions, the reductions are equal. -/
theorem C63_contents_only (laws : CrossLaws x) {hashS : S → BitVec c.w} (lawsS : KeyLaws hashS)
    {t₁ t₂ : Trie c K V} (h₁ : Grown x.hash t₁) (h₂ : Grown x.hash t₂) (al : Alike x.hash t₁ t₂)
    {u₁ u₂ : Trie c L W} (g₁ : Grown x.hash' u₁) (g₂ : Grown x.hash' u₂) (al' : Alike x.hash' u₁ u₂)
    {ops : MwmOps K V L W S X R} (con : ops.Contract x hashS) (reduce : R → R → R) (e : R) :
    (Trie.mwm x reduce e ops t₁ u₁ = .diverge ↔ Trie.mwm x reduce e ops t₂ u₂ = .diverge) ∧
    ((∃ t' r, Trie.mwm x reduce e ops t₁ u₁ = .ok (t', r)) ↔ ∃ t' r, Trie.mwm x reduce e ops t₂ u₂ = .ok (t', r)) ∧
    (∀ t₁' r₁ t₂' r₂, Trie.mwm x reduce e ops t₁ u₁ = .ok (t₁', r₁) → Trie.mwm x reduce e ops t₂ u₂ = .ok (t₂', r₂) →
      Alike hashS t₁' t₂' ∧ t₁'.size = t₂'.size ∧ (CMon reduce e → ops.Neutral e → r₁ = r₂)) := by
  have S1 := C63_transmute_with_transmuted laws lawsS h₁ g₁ con reduce e
  have S2 := C63_transmute_with_transmuted laws lawsS h₂ g₂ con reduce e
  rw [Blocked.perm (al.perm h₁.reach h₂.reach) (al'.perm g₁.reach g₂.reach)] at S1
  refine ⟨?_, ?_, fun t₁' r₁ t₂' r₂ e₁ e₂ => C45_transmute_with_transmuted_partial laws lawsS h₁.reach h₂.reach al
    g₁.reach g₂.reach al' con reduce e e₁ e₂⟩
  · by_cases b : Blocked x t₂.visit u₂.visit
    · simp [S1.1 b, S2.1 b]
    · obtain ⟨_, _, e1⟩ := S1.2 b
      obtain ⟨_, _, e2⟩ := S2.2 b
      simp [e1, e2]
  · by_cases b : Blocked x t₂.visit u₂.visit
    · simp [S1.1 b, S2.1 b]
    · exact ⟨fun _ => S2.2 b, fun _ => S1.2 b⟩

theorem Grown.insertMany {replace : Bool} {t t' : Trie c K V} (h : Grown hash t) {es : List (K × V)}
    (hr : Trie.insertMany hash replace t es = .ok t') : Grown hash t' := by
  induction es generalizing t with
  | nil => simp [Trie.insertMany] at hr; subst hr; exact h
  | cons e es ih =>
    obtain ⟨k, v⟩ := e
    rw [Trie.insertMany, Res.bind_eq_ok] at hr
    obtain ⟨r, hr1, hr2⟩ := hr
    cases r with
    | error e => exact ih h hr2
    | ok r =>
      obtain ⟨t1, ptr, prev⟩ := r
      exact ih (Grown.insert h (h.reach.query k) (h.reach.laws.refl k) hr1) hr2

theorem exists_grown2 {hash' : L → BitVec c.w} (laws : KeyLaws hash)
    (laws' : KeyLaws hash') (es : List (K × V)) (es' : List (L × W)) (p : Trie c K V → Trie c L W → Bool)
    (h : (match Trie.insertMany hash true (Trie.new c) es, Trie.insertMany hash' true (Trie.new c) es' with
      | .ok t, .ok u => p t u
      | _, _ => false) = true) : ∃ t u, Grown hash t ∧ Grown hash' u ∧ p t u = true := by
  split at h
  · rename_i t u ht hu
    exact ⟨t, u, Grown.insertMany (.new laws) ht, Grown.insertMany (.new laws') hu, h⟩
  · simp at h

/-- Two keys of hash 0 on the left, three on the right, none nearer on the right: blocked.  (Nothing is said about the
    answers; `transmute_with_transmuted` and `transform_with_transformed` do not return.) -/
example : ∃ (t u : Trie Ex.c8 Ex.Tk Nat), Grown Ex.exHash t ∧ Grown Ex.exHash u ∧
    Blocked (Cross.same Ex.exHash) t.visit u.visit ∧ t.size = 3 := by
  obtain ⟨t, u, ht, hu, h⟩ := exists_grown2 (c := Ex.c8) Ex.exLaws Ex.exLaws
    [(⟨1, 0⟩, 1), (⟨2, 0⟩, 2), (⟨80, 0⟩, 7)] [(⟨3, 0⟩, 3), (⟨4, 0⟩, 4), (⟨5, 0⟩, 5)]
    (fun (t u : Trie Ex.c8 Ex.Tk Nat) => decide (2 ≤ collisions Ex.exHash t.visit 0#_ ∧
      3 ≤ collisions Ex.exHash u.visit 0#_ ∧ t.size = 3 ∧ ∀ b ∈ u.visit, Ex.exHash b.1 = 0#_)) (by decide +kernel)
  have h := of_decide_eq_true h
  refine ⟨t, u, ht, hu, ⟨0#_, .inr ⟨?_, h.1, h.2.1⟩⟩, h.2.2.1⟩
  rintro ⟨n, _, ⟨b, hb, h1, _⟩, _⟩
  exact h1 (h.2.2.2 b hb)

/-- The same numbers of colliding keys, but with a nearer key on the right: not blocked, the calls return. -/
example : ∃ (t u : Trie Ex.c8 Ex.Tk Nat), Grown Ex.exHash t ∧ Grown Ex.exHash u ∧
    ¬ Blocked (Cross.same Ex.exHash) t.visit u.visit ∧ ¬ NoStall (Cross.same Ex.exHash) t.visit u.visit := by
  obtain ⟨t, u, ht, hu, h⟩ := exists_grown2 (c := Ex.c8) Ex.exLaws Ex.exLaws
    [(⟨1, 0⟩, 1), (⟨2, 0⟩, 2)] [(⟨3, 0⟩, 3), (⟨4, 0⟩, 4), (⟨5, 0⟩, 5), (⟨80, 0⟩, 6)]
    (fun (t u : Trie Ex.c8 Ex.Tk Nat) => decide (t.visit.length ≤ 2 ∧ 2 ≤ collisions Ex.exHash t.visit 0#_ ∧
      3 ≤ collisions Ex.exHash u.visit 0#_ ∧ (∀ a ∈ t.visit, Ex.exHash a.1 = 0#_) ∧
      (∃ b ∈ u.visit, Ex.exHash b.1 ≠ 0#_ ∧ chunk Ex.c8 (Ex.exHash b.1) 0 = chunk Ex.c8 0#_ 0))) (by decide +kernel)
  obtain ⟨h1, h2, h3, h4, b, hb, h5, h6⟩ := of_decide_eq_true h
  refine ⟨t, u, ht, hu, ?_, noStall_iff_counts.2 ⟨0#_, h2, h3⟩⟩
  rintro ⟨h', hb' | hb'⟩
  · have := collisions_le (hash := Ex.exHash) (l := t.visit) (h := h')
    have h7 := hb'.2.1
    simp only [Cross.same] at h7
    omega
  · have h0 : h' = 0#_ := by
      obtain ⟨a, ha, ha'⟩ := collisions_pos (Nat.le_trans (by omega) hb'.2.1)
      exact ha'.symm.trans (h4 a ha)
    subst h0
    refine hb'.1 ⟨1, Nat.le_refl _, ⟨b, hb, h5, fun j hj => ?_⟩, fun a ha h8 => absurd (h4 a ha) h8⟩
    obtain rfl : j = 0 := by omega
    exact h6

/-! ## C64 -/

omit [BEq L] [BEq S] in
/-- C64: a map made by insertions is determined by what `visit` shows: two such maps showing the same sequence are the
    same, so that every call on them, with any operations, does the same (returns the same, asks the same questions in
    the same order, panics alike). -/
theorem C64_visit_determines {t u : Trie c K V} (ht : Grown hash t) (hu : Grown hash u) (h : t.visit = u.visit) : t = u :=
  Trie.Tight.unique ht.reach.valid ht.tight hu.reach.valid hu.tight h

omit [BEq L] [BEq S] in
/-- C64: if no two keys have the same hash, the contents determine the map: neither the order of insertion nor
    replacements leave a trace. -/
theorem C64_contents_determine {t u : Trie c K V} (ht : Grown hash t) (hu : Grown hash u) (al : Alike hash t u)
    (hd : t.visit.Pairwise fun a b => hash a.1 ≠ hash b.1) : t = u :=
  C64_visit_determines ht hu ((C62_same_contents ht.reach hu.reach (al.perm ht.reach hu.reach)).2 hd)

omit [BEq L] [BEq S] in
/-- C64: inserting the same entries (different keys, no two of equal hash, none of the hash of a present key) in two
    orders gives the same map. -/
theorem C64_insertion_order {t t₁ t₂ : Trie c K V} (h : Grown hash t) (es es' : List (K × V)) (hp : es.Perm es')
    (hd : (es ++ t.visit).Pairwise (fun a b => hash a.1 ≠ hash b.1)) (r r' : Bool)
    (h₁ : Trie.insertMany hash r t es = .ok t₁) (h₂ : Trie.insertMany hash r' t es' = .ok t₂) : t₁ = t₂ := by
  haveI := h.reach.laws.equiv
  obtain ⟨hd1, hd2, hd3⟩ := List.pairwise_append.1 hd
  have hk : es.Pairwise (fun a b => (a.1 == b.1) = false) := hd1.imp fun {a b} hne => by
    cases hab : (a.1 == b.1) with
    | false => rfl
    | true => exact absurd (h.reach.laws.hash _ _ hab) hne
  have absent : ∀ e ∈ es, t.find hash e.1 = .ok none := by
    intro e he
    rw [h.reach.find e.1]
    congr 1
    rw [List.find?_eq_none]
    intro y hy hye
    exact hd3 e he y hy (h.reach.laws.hash _ _ (by simpa using hye)).symm
  have g₁ := h.insertMany h₁
  have g₂ := h.insertMany h₂
  refine C64_contents_determine g₁ g₂ (C32_insertion_order h.reach es es' hp hk absent r r' h₁ h₂).1 ?_
  have p := insertMany_visit h.reach hk absent h₁
  exact (p.pairwise_iff (fun {a b} hne => Ne.symm hne)).2 hd

/-- C64 needs the maps to be made by insertions: after a removal two maps may show the same and behave differently
    (`C45_refuted` has such a pair), and needs the hashes to differ (`C62_collisions_show`). -/
theorem C64_not_after_removal : ∃ t₁ t₂ : Trie Ex.c8 Ex.Tk Nat, Reach Ex.c8 Ex.exHash t₁ ∧ Reach Ex.c8 Ex.exHash t₂ ∧
    t₁.visit = t₂.visit ∧ t₁ ≠ t₂ := by
  obtain ⟨t₁, t₂, u, h₁, h₂, _, _, hv, ⟨t', r, h3⟩, h4, _⟩ := C45_refuted
  refine ⟨t₁, t₂, h₁, h₂, hv, ?_⟩
  rintro rfl
  rw [h3] at h4; simp at h4

-- four entries without equal hashes, in two orders, the second time with a replacement
example : ∃ (t u : Trie Ex.c8 Ex.Tk Nat), Grown Ex.exHash t ∧ Grown Ex.exHash u ∧ t.visit.Perm u.visit ∧ t.size = 4 ∧
    t.visit.Pairwise (fun a b => Ex.exHash a.1 ≠ Ex.exHash b.1) := by
  obtain ⟨t, u, ht, hu, h⟩ := exists_grown2 (c := Ex.c8) Ex.exLaws Ex.exLaws
    [(⟨5, 0⟩, 1), (⟨641, 0⟩, 2), (⟨80, 0⟩, 3), (⟨90, 0⟩, 4)]
    [(⟨90, 0⟩, 4), (⟨80, 0⟩, 3), (⟨641, 0⟩, 9), (⟨5, 0⟩, 1), (⟨641, 0⟩, 2)]
    (fun (t u : Trie Ex.c8 Ex.Tk Nat) => decide (t.visit = u.visit ∧ t.size = 4 ∧
      t.visit.Pairwise (fun a b => Ex.exHash a.1 ≠ Ex.exHash b.1))) (by decide +kernel)
  have h := of_decide_eq_true h
  exact ⟨t, u, ht, hu, by rw [h.1], h.2⟩

end HT
