import Verif.Reach
/-! # Looking up keys in the result of a joint operation -/
namespace HT

variable {A B K V L W S X R : Type}

theorem Sem.Outs.of_perm (s : Sem A B S R) {cs : List (Case A B)} {f : Case A B → Option S}
    (hf : ∀ p, s.out p (f p)) {l : List S} (h : l.Perm (cs.filterMap f)) : s.Outs cs l := by
  refine ⟨cs.map fun p => (p, f p), ?_, ?_, ?_⟩
  · rw [List.map_map]; exact .of_eq (by simp [Function.comp_def])
  · intro q hq
    obtain ⟨p, hp, rfl⟩ := List.mem_map.1 hq
    exact hf p
  · rw [List.filterMap_map]; exact h

/-- Looking up in the list of what the cases produced. -/
theorem Sem.Outs.find [BEq S] {c : Cfg} {hash : S → BitVec c.w} {s : Sem A B (S × X) R}
    {cs : List (Case A B)} {l : List (S × X)} (h : s.Outs cs l) (nd : cs.Nodup) (dl : DistinctKeys l)
    {q : S → Bool} {hv : BitVec c.w} (hq : Query hash q hv) (About : Case A B → Prop)
    (hab : ∀ p ∈ cs, ∀ e, s.out p (some e) → (q e.1 = true ↔ About p))
    (uniq : ∀ p ∈ cs, ∀ p' ∈ cs, About p → About p' → p = p') :
    (∀ p ∈ cs, About p → ∃ o, s.out p o ∧ l.find? (fun e => q e.1) = o) ∧
      ((∀ p ∈ cs, ¬ About p) → l.find? (fun e => q e.1) = none) := by
  obtain ⟨ps, h1, h2, h3⟩ := h
  have nps : (ps.map Prod.fst).Nodup := h1.nodup_iff.2 nd
  constructor
  · intro p hp hpa
    obtain ⟨⟨p', o⟩, ho, hpe⟩ := List.mem_map.1 (h1.mem_iff.2 hp)
    simp only at hpe; subst hpe
    refine ⟨o, h2 _ ho, ?_⟩
    cases o with
    | some e =>
      rw [hq.no_other dl]
      exact ⟨h3.mem_iff.2 (List.mem_filterMap.2 ⟨_, ho, rfl⟩), (hab _ hp e (h2 _ ho)).2 hpa⟩
    | none =>
      rw [List.find?_eq_none]
      intro e he hqe
      obtain ⟨⟨p2, o2⟩, ho2, hpe⟩ := List.mem_filterMap.1 (h3.mem_iff.1 he)
      simp only at hpe; subst hpe
      have hp2 : p2 ∈ cs := h1.mem_iff.1 (List.mem_map_of_mem (f := Prod.fst) ho2)
      have := uniq _ hp2 _ hp ((hab _ hp2 e (h2 _ ho2)).1 hqe) hpa
      subst this
      have := List.inj_on_of_nodup_map nps ho ho2 rfl
      simp at this
  · intro hn
    rw [List.find?_eq_none]
    intro e he hqe
    obtain ⟨⟨p2, o2⟩, ho2, hpe⟩ := List.mem_filterMap.1 (h3.mem_iff.1 he)
    simp only at hpe; subst hpe
    have hp2 : p2 ∈ cs := h1.mem_iff.1 (List.mem_map_of_mem (f := Prod.fst) ho2)
    exact hn _ hp2 ((hab _ hp2 e (h2 _ ho2)).1 hqe)

section
variable [BEq K] [BEq L] {c : Cfg} {x : Cross c K L}

theorem CrossLaws.query (laws : CrossLaws x) (k : K) : Query x.hash' (fun l => x.eq' l k) (x.hash k) where
  hash := fun l h => (laws.hash k l (by rw [← laws.sym]; exact h)).symm
  cls := by
    intro l l' h
    rw [laws.sym] at h ⊢
    cases hl : l == l' with
    | true => exact laws.congR k l l' hl h
    | false =>
      cases he : x.eq k l' with
      | false => rfl
      | true => rw [laws.uniqR k l l' h he] at hl; simp at hl

/-- The case is about the key `k` of the left type. -/
def AboutL (x : Cross c K L) (k : K) : Case (K × V) (L × W) → Prop
  | .left a => (a.1 == k) = true
  | .right b => x.eq k b.1 = true
  | .both a _ => (a.1 == k) = true

theorem CrossLaws.aboutL_uniq (laws : CrossLaws x) {as : List (K × V)} {bs : List (L × W)}
    (da : DistinctKeys as) (db : DistinctKeys bs) (k : K) :
    ∀ p ∈ x.cases as bs, ∀ p' ∈ x.cases as bs, AboutL x k p → AboutL x k p' → p = p' := by
  have J := laws.joinable da db
  have key : ∀ {a a' : K × V}, a ∈ as → a' ∈ as → (a.1 == k) = true → (a'.1 == k) = true → a = a' :=
    fun ha ha' h h' => distinct_eq laws.left da ha ha' (laws.left.trans _ _ _ h (laws.left.symm _ _ h'))
  have key' : ∀ {b b' : L × W}, b ∈ bs → b' ∈ bs → x.eq k b.1 = true → x.eq k b'.1 = true → b = b' :=
    fun hb hb' h h' => distinct_eq laws.right db hb hb' (laws.uniqR _ _ _ h h')
  have lr : ∀ {a : K × V} {b : L × W}, (a.1 == k) = true → x.eq k b.1 = true → x.eq a.1 b.1 = true :=
    fun h h' => laws.congL _ _ _ (laws.left.symm _ _ h) h'
  intro p hp p' hp' h h'
  rw [Cross.cases, mem_jointCases J] at hp hp'
  cases p with
  | left a =>
    cases p' with
    | left a' => rw [key hp.1 hp'.1 h h']
    | right b' => exact absurd (lr h h') (by simpa using hp'.2 a hp.1)
    | both a' b' =>
      have := key hp.1 hp'.1 h h'
      subst this
      exact absurd (hp'.2.2) (by simpa using hp.2 b' hp'.2.1)
  | right b =>
    cases p' with
    | left a' => exact absurd (lr h' h) (by simpa using hp.2 a' hp'.1)
    | right b' => rw [key' hp.1 hp'.1 h h']
    | both a' b' => exact absurd (lr h' h) (by simpa using hp.2 a' hp'.1)
  | both a b =>
    cases p' with
    | left a' =>
      have := key hp.1 hp'.1 h h'
      subst this
      exact absurd (hp.2.2) (by simpa using hp'.2 b hp.2.1)
    | right b' => exact absurd (lr h h') (by simpa using hp'.2 a hp.1)
    | both a' b' =>
      have := key hp.1 hp'.1 h h'
      subst this
      rw [J.ur a hp.1 b hp.2.1 b' hp'.2.1 hp.2.2 hp'.2.2]

/-- What is found on both sides describes the case about the key. -/
theorem cases_of_find {t : Trie c K V} {u : Trie c L W} (laws : CrossLaws x) (ht : Reach c x.hash t)
    (hu : Reach c x.hash' u) {k : K} {a? : Option (K × V)} {b? : Option (L × W)}
    (ha : t.find x.hash k = .ok a?) (hb : u.findAcross x k = .ok b?) :
    match Case.of? a? b? with
    | some p => p ∈ x.cases t.visit u.visit ∧ AboutL x k p
    | none => ∀ p ∈ x.cases t.visit u.visit, ¬ AboutL x k p := by
  have J := laws.joinable ht.distinct hu.distinct
  rw [ht.find, Res.ok.injEq] at ha
  rw [Trie.findAcross, hu.findQ (laws.query k), Res.ok.injEq] at hb
  have hmem := fun p => mem_jointCases J p
  have sa : ∀ a, a? = some a → a ∈ t.visit ∧ (a.1 == k) = true := by
    rintro a rfl; exact ((ht.query k).no_other ht.distinct).1 ha
  have sb : ∀ b, b? = some b → b ∈ u.visit ∧ x.eq k b.1 = true := by
    rintro b rfl
    have := ((laws.query k).no_other hu.distinct).1 hb
    exact ⟨this.1, by rw [← laws.sym]; exact this.2⟩
  have na : a? = none → ∀ a ∈ t.visit, ¬ (a.1 == k) = true := by
    rintro rfl; exact List.find?_eq_none.1 ha
  have nb : b? = none → ∀ b ∈ u.visit, ¬ x.eq k b.1 = true := by
    rintro rfl b hb'
    have := List.find?_eq_none.1 hb b hb'
    rw [laws.sym] at this; exact this
  cases a? with
  | none =>
    cases b? with
    | none =>
      intro p hp hab
      rw [Cross.cases, hmem] at hp
      cases p with
      | left a => exact na rfl a hp.1 hab
      | right b => exact nb rfl b hp.1 hab
      | both a b => exact na rfl a hp.1 hab
    | some b =>
      obtain ⟨h1, h2⟩ := sb b rfl
      refine ⟨(hmem _).2 ⟨h1, fun a ha' => ?_⟩, h2⟩
      cases he : x.eq a.1 b.1 with
      | false => exact he
      | true => exact absurd (laws.left.symm _ _ (laws.uniqL _ _ _ h2 he)) (na rfl a ha')
  | some a =>
    obtain ⟨h1, h2⟩ := sa a rfl
    cases b? with
    | none =>
      refine ⟨(hmem _).2 ⟨h1, fun b hb' => ?_⟩, h2⟩
      cases he : x.eq a.1 b.1 with
      | false => exact he
      | true => exact absurd (laws.congL _ _ _ h2 he) (nb rfl b hb')
    | some b =>
      obtain ⟨h3, h4⟩ := sb b rfl
      exact ⟨(hmem _).2 ⟨h1, h3, laws.congL _ _ _ (laws.left.symm _ _ h2) h4⟩, h2⟩

/-- Lookup with a left key in a result whose entries keep the (left) key of their case. -/
theorem outs_find_left {t t' : Trie c K V} {u : Trie c L W} (laws : CrossLaws x) (ht : Reach c x.hash t)
    (hu : Reach c x.hash' u) (ht' : Reach c x.hash t') {s : Sem (K × V) (L × W) (K × V) R}
    (ho : s.Outs (x.cases t.visit u.visit) t'.visit)
    (keys : ∀ p ∈ x.cases t.visit u.visit, ∀ e, s.out p (some e) → AboutL x e.1 p)
    {k : K} {a? : Option (K × V)} {b? : Option (L × W)}
    (ha : t.find x.hash k = .ok a?) (hb : u.findAcross x k = .ok b?) :
    match Case.of? a? b? with
    | some p => ∃ o, s.out p o ∧ t'.find x.hash k = .ok o
    | none => t'.find x.hash k = .ok none := by
  have J := laws.joinable ht.distinct hu.distinct
  have hc := cases_of_find laws ht hu ha hb
  have hf := ho.find (nodup_jointCases J.nl J.nr) ht'.distinct (ht'.query k) (AboutL x k) (by
      intro p hp e he
      have := keys p hp e he
      cases p with
      | left a =>
        exact ⟨fun h => laws.left.trans _ _ _ this h,
          fun h => laws.left.trans _ _ _ (laws.left.symm _ _ this) h⟩
      | right b =>
        exact ⟨fun h => laws.congL _ _ _ h this, fun h => laws.uniqL _ _ _ this h⟩
      | both a b =>
        exact ⟨fun h => laws.left.trans _ _ _ this h,
          fun h => laws.left.trans _ _ _ (laws.left.symm _ _ this) h⟩)
    (laws.aboutL_uniq ht.distinct hu.distinct k)
  rw [ht'.find]
  cases h : Case.of? a? b? with
  | none => rw [h] at hc; simp only; rw [hf.2 hc]
  | some p =>
    rw [h] at hc
    obtain ⟨o, h1, h2⟩ := hf.1 p hc.1 hc.2
    exact ⟨o, h1, by rw [h2]⟩

/-- The cases seen from the other side. -/
theorem CrossLaws.flip_cases (laws : CrossLaws x) {as : List (K × V)} {bs : List (L × W)}
    (da : DistinctKeys as) (db : DistinctKeys bs) :
    ((x.cases as bs).map Case.flip).Perm (x.flip.cases bs as) := by
  rw [x.flip_cases_eq laws.sym]
  exact jointCases_flip (laws.joinable da db)


/-! ### The keys of the outputs -/

theorem Cross.matched_of_mem (laws : CrossLaws x) {as : List (K × V)} {bs : List (L × W)}
    (da : DistinctKeys as) (db : DistinctKeys bs) : ∀ p ∈ x.cases as bs, Matched x p := by
  intro p hp
  rw [Cross.cases, mem_jointCases (laws.joinable da db)] at hp
  cases p with
  | left a => trivial
  | right b => trivial
  | both a b => exact hp.2.2

theorem TwmOps.aboutL (laws : CrossLaws x) {ops : TwmOps K V L W R} (con : ops.Contract x)
    {p : Case (K × V) (L × W)} {e : K × V} (h : ops.out p = some e) : AboutL x e.1 p := by
  cases p with
  | left a => show (a.1 == e.1) = true; rw [MapTransformResult.entry_key h.symm]; exact laws.left.refl _
  | right b =>
    obtain ⟨s, hs⟩ := MapTransmuteResult.entry_some h.symm
    exact con _ _ _ _ _ hs
  | both a b => show (a.1 == e.1) = true; rw [MapTransformResult.entry_key h.symm]; exact laws.left.refl _

/-- `transform_with_transmuted`, key by key. -/
theorem TwmOps.find (laws : CrossLaws x) {ops : TwmOps K V L W R} (con : ops.Contract x)
    {t t' : Trie c K V} {u : Trie c L W} (ht : Reach c x.hash t) (hu : Reach c x.hash' u)
    (ht' : Reach c x.hash t') (hp : t'.visit.Perm ((x.cases t.visit u.visit).filterMap ops.out))
    {k : K} {a? : Option (K × V)} {b? : Option (L × W)}
    (ha : t.find x.hash k = .ok a?) (hb : u.findAcross x k = .ok b?) :
    t'.find x.hash k = .ok ((Case.of? a? b?).bind ops.out) := by
  let s : Sem (K × V) (L × W) (K × V) Unit :=
    ⟨fun p o => o = ops.out p, fun _ => (), fun _ _ => (), (), False, fun h => h.elim⟩
  have ho : s.Outs (x.cases t.visit u.visit) t'.visit := Sem.Outs.of_perm s (f := ops.out) (fun _ => rfl) hp
  have := outs_find_left laws ht hu ht' ho (fun p _ e he => TwmOps.aboutL laws con he.symm) ha hb
  cases h : Case.of? a? b? with
  | none => rw [h] at this; exact this
  | some p => rw [h] at this; obtain ⟨o, h1, h2⟩ := this; rw [h2, h1]; rfl

theorem MwtOps.flip_contract (laws : CrossLaws x) {ops : MwtOps K V L W R} (con : ops.Contract x) :
    ops.flip.Contract x.flip := by
  intro k v l w r h
  show x.eq' l k = true
  rw [laws.sym]; exact con _ _ _ _ _ h

/-- `transmute_with_transformed`, key by key. -/
theorem MwtOps.find (laws : CrossLaws x) {ops : MwtOps K V L W R} (con : ops.Contract x)
    {t : Trie c K V} {u t' : Trie c L W} (ht : Reach c x.hash t) (hu : Reach c x.hash' u)
    (ht' : Reach c x.hash' t') (hp : t'.visit.Perm ((x.cases t.visit u.visit).filterMap ops.out))
    {l : L} {a? : Option (K × V)} {b? : Option (L × W)}
    (ha : t.findAcross x.flip l = .ok a?) (hb : u.find x.hash' l = .ok b?) :
    t'.find x.hash' l = .ok ((Case.of? a? b?).bind ops.out) := by
  have hp' : t'.visit.Perm ((x.flip.cases u.visit t.visit).filterMap ops.flip.out) := by
    refine hp.trans ?_
    refine List.Perm.trans (List.Perm.of_eq ?_) ((laws.flip_cases ht.distinct hu.distinct).filterMap _)
    rw [List.filterMap_map]
    exact List.filterMap_congr fun p _ => (ops.flip_out p).symm
  refine (TwmOps.find laws.flip (MwtOps.flip_contract laws con) hu ht ht' hp' hb ha).trans ?_
  congr 1
  cases a? <;> cases b? <;> simp only [Case.of?, Option.bind]
  · exact ops.flip_out (.right _)
  · exact ops.flip_out (.left _)
  · exact ops.flip_out (.both _ _)

/-- `transform_with_transformed`, key by key. -/
theorem TwtOps.find {hash : K → BitVec c.w} {ops : TwtOps K V R} {reduce : R → R → R} {e : R}
    {t u t' : Trie c K V} (ht : Reach c hash t) (hu : Reach c hash u)
    (ht' : Reach c hash t')
    (ho : (ops.sem reduce e).Outs ((Cross.same hash).cases t.visit u.visit) t'.visit)
    {k : K} {a? b? : Option (K × V)}
    (ha : t.find hash k = .ok a?) (hb : u.find hash k = .ok b?) :
    match Case.of? a? b? with
    | some p => ∃ o, ops.Out p o ∧ t'.find hash k = .ok o
    | none => t'.find hash k = .ok none := by
  have laws := CrossLaws.same ht.laws
  have := outs_find_left (x := Cross.same hash) laws ht hu ht' ho ?_ ha hb
  · cases h : Case.of? a? b? with
    | none => rw [h] at this; exact this
    | some p => rw [h] at this; exact this
  intro p hp e he
  have hm := Cross.matched_of_mem laws ht.distinct hu.distinct p hp
  have he' : ops.Out p (some e) := he
  cases p with
  | left a =>
    show (a.1 == e.1) = true
    rw [MapTransformResult.entry_key he']; exact ht.laws.refl _
  | right b =>
    show (e.1 == b.1) = true
    rw [MapTransformResult.entry_key he']; exact ht.laws.refl _
  | both a b =>
    show (a.1 == e.1) = true
    have hm : (a.1 == b.1) = true := hm
    have aa := ht.laws.refl a.1
    simp only [TwtOps.Out, MapJointTransform.Entry] at he'
    split at he'
    · revert he'
      cases ops.both.closure a.1 a.2 b.1 b.2 <;> simp only [MapJointTransformResult.Entry, Option.some.injEq] <;> intro he'
      · rcases he' with rfl | rfl <;> assumption
      · subst he'; exact aa
      · subst he'; exact hm
      · rcases he' with rfl | rfl <;> assumption
      · simp at he'
    · simp at he'
    · simp only [Option.some.injEq] at he'
      rcases he' with rfl | rfl <;> assumption

end
end HT
