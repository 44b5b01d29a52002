import Verif.JointSpec
import Verif.Insert
import Verif.HistoryLemmas
import Mathlib.Data.List.Perm.Basic
import Mathlib.Data.List.Nodup
import Mathlib.Data.List.Flatten
/-! # The cases of two lists of entries -/
namespace HT

variable {A B : Type} {eq : A → B → Bool}

/-- What it means to be a case of the two lists. -/
def IsCase (eq : A → B → Bool) (as : List A) (bs : List B) : Case A B → Prop
  | .left a => a ∈ as ∧ ∀ b ∈ bs, eq a b = false
  | .right b => b ∈ bs ∧ ∀ a ∈ as, eq a b = false
  | .both a b => a ∈ as ∧ b ∈ bs ∧ eq a b = true

/-- No repetitions, and each entry has at most one partner. -/
structure Joinable (eq : A → B → Bool) (as : List A) (bs : List B) : Prop where
  nl : as.Nodup
  nr : bs.Nodup
  ul : ∀ a ∈ as, ∀ a' ∈ as, ∀ b ∈ bs, eq a b = true → eq a' b = true → a = a'
  ur : ∀ a ∈ as, ∀ b ∈ bs, ∀ b' ∈ bs, eq a b = true → eq a b' = true → b = b'

theorem Joinable.flip {as : List A} {bs : List B} (j : Joinable eq as bs) :
    Joinable (fun b a => eq a b) bs as :=
  ⟨j.nr, j.nl, fun b hb b' hb' a ha => j.ur a ha b hb b' hb', fun b hb a ha a' ha' => j.ul a ha a' ha' b hb⟩

theorem Joinable.sub {as as' : List A} {bs bs' : List B} (j : Joinable eq as bs) (na : as'.Nodup)
    (nb : bs'.Nodup) (ha : ∀ a ∈ as', a ∈ as) (hb : ∀ b ∈ bs', b ∈ bs) : Joinable eq as' bs' :=
  ⟨na, nb, fun a h a' h' b h'' => j.ul a (ha a h) a' (ha a' h') b (hb b h''),
    fun a h b h' b' h'' => j.ur a (ha a h) b (hb b h') b' (hb b' h'')⟩

theorem mem_jointCases {as : List A} {bs : List B} (j : Joinable eq as bs) (p : Case A B) :
    p ∈ jointCases eq as bs ↔ IsCase eq as bs p := by
  simp only [jointCases, List.mem_append, List.mem_map, List.mem_filter]
  constructor
  · rintro (⟨a, ha, h⟩ | ⟨b, ⟨hb, hn⟩, h⟩)
    · cases hf : bs.find? (eq a) with
      | none =>
        rw [hf] at h; subst h
        refine ⟨ha, fun b hb => ?_⟩
        have := List.find?_eq_none.1 hf b hb
        simpa using this
      | some b =>
        rw [hf] at h; subst h
        exact ⟨ha, List.mem_of_find?_eq_some hf, List.find?_some hf⟩
    · subst h
      refine ⟨hb, fun a ha => ?_⟩
      simp at hn
      exact hn a ha
  · intro h
    cases p with
    | left a =>
      left
      refine ⟨a, h.1, ?_⟩
      have : bs.find? (eq a) = none := List.find?_eq_none.2 (by intro b hb; simp [h.2 b hb])
      rw [this]
    | right b =>
      right
      refine ⟨b, ⟨h.1, ?_⟩, rfl⟩
      simp
      exact h.2
    | both a b =>
      left
      refine ⟨a, h.1, ?_⟩
      cases hf : bs.find? (eq a) with
      | none =>
        have := List.find?_eq_none.1 hf b h.2.1
        simp [h.2.2] at this
      | some b' =>
        have := j.ur a h.1 b h.2.1 b' (List.mem_of_find?_eq_some hf) h.2.2 (List.find?_some hf)
        rw [this]

theorem nodup_jointCases {as : List A} {bs : List B} (na : as.Nodup) (nb : bs.Nodup) :
    (jointCases eq as bs).Nodup := by
  rw [jointCases, List.nodup_append]
  refine ⟨?_, ?_, ?_⟩
  · rw [List.Nodup, List.pairwise_map]
    refine List.Pairwise.imp ?_ na
    intro a a' h heq
    apply h
    cases h1 : bs.find? (eq a) <;> cases h2 : bs.find? (eq a') <;> rw [h1, h2] at heq <;>
      injection heq
  · rw [List.Nodup, List.pairwise_map]
    refine List.Pairwise.imp ?_ (nb.filter _)
    intro b b' h heq
    injection heq with heq
    exact h heq
  · intro p hp q hq heq
    subst heq
    obtain ⟨a, _, h⟩ := List.mem_map.1 hp
    obtain ⟨b, _, h'⟩ := List.mem_map.1 hq
    rw [← h'] at h
    cases h1 : bs.find? (eq a) <;> rw [h1] at h <;> simp at h

theorem perm_jointCases {as : List A} {bs : List B} (j : Joinable eq as bs) {ps : List (Case A B)}
    (hn : ps.Nodup) (hm : ∀ p, p ∈ ps ↔ IsCase eq as bs p) : ps.Perm (jointCases eq as bs) := by
  rw [List.perm_ext_iff_of_nodup hn (nodup_jointCases j.nl j.nr)]
  intro p; rw [hm, mem_jointCases j]

theorem jointCases_nil_left (bs : List B) : jointCases eq [] bs = bs.map Case.right := by
  simp [jointCases]

theorem jointCases_nil_right (as : List A) : jointCases eq as [] = as.map Case.left := by
  simp [jointCases]

theorem jointCases_cons_left {a : A} {as : List A} {bs : List B} (h : ∀ b ∈ bs, eq a b = false) :
    jointCases eq (a :: as) bs = .left a :: jointCases eq as bs := by
  have h1 : bs.find? (eq a) = none := List.find?_eq_none.2 (by intro b hb; simp [h b hb])
  simp only [jointCases, List.map_cons, h1, List.cons_append]
  congr 3
  apply List.filter_congr
  intro b hb
  simp [h b hb]

theorem Case.flip_flip (p : Case A B) : p.flip.flip = p := by cases p <;> rfl

theorem Case.flip_inj {p q : Case A B} (h : p.flip = q.flip) : p = q := by
  rw [← p.flip_flip, h, q.flip_flip]

theorem isCase_flip {as : List A} {bs : List B} (p : Case A B) :
    IsCase (fun b a => eq a b) bs as p.flip ↔ IsCase eq as bs p := by
  cases p with
  | left a => exact Iff.rfl
  | right b => exact Iff.rfl
  | both a b => exact ⟨fun h => ⟨h.2.1, h.1, h.2.2⟩, fun h => ⟨h.2.1, h.1, h.2.2⟩⟩

/-- Exchanging the lists exchanges left and right in every case. -/
theorem jointCases_flip {as : List A} {bs : List B} (j : Joinable eq as bs) :
    ((jointCases eq as bs).map Case.flip).Perm (jointCases (fun b a => eq a b) bs as) := by
  apply perm_jointCases j.flip
  · exact List.Nodup.map (fun _ _ h => Case.flip_inj h) (nodup_jointCases j.nl j.nr)
  · intro p
    rw [List.mem_map]
    constructor
    · rintro ⟨q, hq, rfl⟩
      rw [isCase_flip]; exact (mem_jointCases j q).1 hq
    · intro h
      refine ⟨p.flip, ?_, p.flip_flip⟩
      rw [mem_jointCases j, ← isCase_flip, p.flip_flip]; exact h

/-- A new left entry takes its partner from the right-only cases. -/
theorem jointCases_cons_both {a : A} {b : B} {as : List A} {bs : List B} (j : Joinable eq (a :: as) bs)
    (hab : eq a b = true) {ps : List (Case A B)} (h : (Case.right b :: ps).Perm (jointCases eq as bs)) :
    (Case.both a b :: ps).Perm (jointCases eq (a :: as) bs) := by
  have hn := List.nodup_cons.1 j.nl
  have j' : Joinable eq as bs := j.sub hn.2 j.nr (fun _ h => List.mem_cons_of_mem _ h) (fun _ h => h)
  have nps : (Case.right b :: ps).Nodup := h.nodup_iff.2 (nodup_jointCases j'.nl j'.nr)
  have mps : ∀ p, p ∈ (Case.right b :: ps) ↔ IsCase eq as bs p := fun p => by
    rw [h.mem_iff, mem_jointCases j']
  have nps' := List.nodup_cons.1 nps
  have hb : IsCase eq as bs (.right b) := (mps _).1 (List.mem_cons_self ..)
  have mem : ∀ p, p ∈ ps ↔ IsCase eq as bs p ∧ p ≠ .right b := by
    intro p
    rw [← mps]
    constructor
    · intro hp; exact ⟨List.mem_cons_of_mem _ hp, fun e => nps'.1 (e ▸ hp)⟩
    · rintro ⟨hp, hne⟩
      rcases List.mem_cons.1 hp with h | h
      · exact absurd h hne
      · exact h
  apply perm_jointCases j
  · rw [List.nodup_cons]
    refine ⟨fun hp => ?_, nps'.2⟩
    exact hn.1 ((mem _).1 hp).1.1
  · intro p
    rw [List.mem_cons, mem]
    constructor
    · rintro (rfl | ⟨hp, hne⟩)
      · exact ⟨List.mem_cons_self .., hb.1, hab⟩
      · cases p with
        | left a' => exact ⟨List.mem_cons_of_mem _ hp.1, hp.2⟩
        | right b' =>
          refine ⟨hp.1, fun a' ha' => ?_⟩
          rcases List.mem_cons.1 ha' with rfl | ha'
          · cases he : eq a' b' with
            | false => rfl
            | true =>
              exact absurd (congrArg Case.right
                (j.ur a' (List.mem_cons_self ..) b' hp.1 b hb.1 he hab)) hne
          · exact hp.2 a' ha'
        | both a' b' => exact ⟨List.mem_cons_of_mem _ hp.1, hp.2⟩
    · intro hp
      cases p with
      | left a' =>
        right
        refine ⟨⟨?_, hp.2⟩, by simp⟩
        rcases List.mem_cons.1 hp.1 with rfl | h
        · have := hp.2 b hb.1; rw [hab] at this; simp at this
        · exact h
      | right b' =>
        right
        refine ⟨⟨hp.1, fun a' ha' => hp.2 a' (List.mem_cons_of_mem _ ha')⟩, ?_⟩
        intro e; injection e with e; subst e
        have := hp.2 a (List.mem_cons_self ..); rw [hab] at this; simp at this
      | both a' b' =>
        rcases List.mem_cons.1 hp.1 with rfl | h
        · left
          rw [j.ur a' hp.1 b' hp.2.1 b hb.1 hp.2.2 hab]
        · right
          exact ⟨⟨h, hp.2⟩, by simp⟩

/-- Entries that can only meet entries of the same slot: the cases, slot by slot. -/
theorem jointCases_slots {l : List Nat} {as : Nat → List A} {bs : Nat → List B}
    (j : Joinable eq (l.flatMap as) (l.flatMap bs))
    (h : ∀ i ∈ l, ∀ i' ∈ l, ∀ a ∈ as i, ∀ b ∈ bs i', eq a b = true → i = i') :
    (l.flatMap fun i => jointCases eq (as i) (bs i)).Perm
      (jointCases eq (l.flatMap as) (l.flatMap bs)) := by
  have na := List.nodup_flatMap.1 j.nl
  have nb := List.nodup_flatMap.1 j.nr
  have sub : ∀ i ∈ l, Joinable eq (as i) (bs i) := fun i hi =>
    j.sub (na.1 i hi) (nb.1 i hi) (fun a ha => List.mem_flatMap.2 ⟨i, hi, ha⟩)
      (fun b hb => List.mem_flatMap.2 ⟨i, hi, hb⟩)
  apply perm_jointCases j
  · rw [List.nodup_flatMap]
    refine ⟨fun i hi => nodup_jointCases (sub i hi).nl (sub i hi).nr, ?_⟩
    have := na.2.and nb.2
    refine List.Pairwise.imp_of_mem ?_ this
    intro i i' hi hi' ⟨h1, h2⟩ p hp hp'
    rw [mem_jointCases (sub i hi)] at hp
    rw [mem_jointCases (sub i' hi')] at hp'
    cases p with
    | left a => exact h1 hp.1 hp'.1
    | right b => exact h2 hp.1 hp'.1
    | both a b => exact h1 hp.1 hp'.1
  · intro p
    rw [List.mem_flatMap]
    constructor
    · rintro ⟨i, hi, hp⟩
      rw [mem_jointCases (sub i hi)] at hp
      cases p with
      | left a =>
        refine ⟨List.mem_flatMap.2 ⟨i, hi, hp.1⟩, fun b hb => ?_⟩
        obtain ⟨i', hi', hb⟩ := List.mem_flatMap.1 hb
        cases he : eq a b with
        | false => rfl
        | true =>
          have := h i hi i' hi' a hp.1 b hb he
          subst this
          rw [hp.2 b hb] at he; simp at he
      | right b =>
        refine ⟨List.mem_flatMap.2 ⟨i, hi, hp.1⟩, fun a ha => ?_⟩
        obtain ⟨i', hi', ha⟩ := List.mem_flatMap.1 ha
        cases he : eq a b with
        | false => rfl
        | true =>
          have := h i' hi' i hi a ha b hp.1 he
          subst this
          rw [hp.2 a ha] at he; simp at he
      | both a b =>
        exact ⟨List.mem_flatMap.2 ⟨i, hi, hp.1⟩, List.mem_flatMap.2 ⟨i, hi, hp.2.1⟩, hp.2.2⟩
    · intro hp
      cases p with
      | left a =>
        obtain ⟨i, hi, ha⟩ := List.mem_flatMap.1 hp.1
        refine ⟨i, hi, (mem_jointCases (sub i hi) _).2 ⟨ha, fun b hb => ?_⟩⟩
        exact hp.2 b (List.mem_flatMap.2 ⟨i, hi, hb⟩)
      | right b =>
        obtain ⟨i, hi, hb⟩ := List.mem_flatMap.1 hp.1
        refine ⟨i, hi, (mem_jointCases (sub i hi) _).2 ⟨hb, fun a ha => ?_⟩⟩
        exact hp.2 a (List.mem_flatMap.2 ⟨i, hi, ha⟩)
      | both a b =>
        obtain ⟨i, hi, ha⟩ := List.mem_flatMap.1 hp.1
        obtain ⟨i', hi', hb⟩ := List.mem_flatMap.1 hp.2.1
        have := h i hi i' hi' a ha b hb hp.2.2
        subst this
        exact ⟨i, hi, (mem_jointCases (sub i hi) _).2 ⟨ha, hb, hp.2.2⟩⟩

/-! ### Entries with keys -/

section
variable {K V L W : Type} [BEq K] [BEq L] {c : Cfg} {x : Cross c K L}

omit [BEq K] [BEq L] in
theorem Cross.flip_cases_eq (x : Cross c K L) (h : ∀ k l, x.eq' l k = x.eq k l) (as : List (K × V))
    (bs : List (L × W)) :
    x.flip.cases bs as = jointCases (fun b a => x.eq a.1 b.1) bs as := by
  simp only [Cross.cases, Cross.flip, h]

theorem CrossLaws.flip (laws : CrossLaws x) : CrossLaws x.flip where
  left := laws.right
  right := laws.left
  hash := fun l k h => (laws.hash k l (by rw [← laws.sym]; exact h)).symm
  sym := fun l k => (laws.sym k l).symm
  congL := fun l l' k h h' => by
    show x.eq' l' k = true
    rw [laws.sym]; exact laws.congR k l l' h (by rw [← laws.sym]; exact h')
  congR := fun l k k' h h' => by
    show x.eq' l k' = true
    rw [laws.sym]; exact laws.congL k k' l h (by rw [← laws.sym]; exact h')
  uniqL := fun l l' k h h' => laws.uniqR k l l' (by rw [← laws.sym]; exact h) (by rw [← laws.sym]; exact h')
  uniqR := fun l k k' h h' => laws.uniqL k k' l (by rw [← laws.sym]; exact h) (by rw [← laws.sym]; exact h')

theorem CrossLaws.same {hash : K → BitVec c.w} (laws : KeyLaws hash) : CrossLaws (Cross.same hash) where
  left := laws
  right := laws
  hash := laws.hash
  sym := fun k l => by
    show (l == k) = (k == l)
    haveI := laws.equiv
    exact BEq.comm
  congL := fun k k' l h h' => laws.trans _ _ _ (laws.symm _ _ h) h'
  congR := fun k l l' h h' => laws.trans _ _ _ h' h
  uniqL := fun k k' l h h' => laws.trans _ _ _ h (laws.symm _ _ h')
  uniqR := fun k l l' h h' => laws.trans _ _ _ (laws.symm _ _ h) h'

theorem distinct_nodup {w : Nat} {hash : K → BitVec w} (laws : KeyLaws hash) {l : List (K × V)}
    (h : DistinctKeys l) : l.Nodup := by
  refine List.Pairwise.imp ?_ h
  intro a b hab heq
  subst heq
  rw [laws.refl] at hab; simp at hab

theorem distinct_eq {w : Nat} {hash : K → BitVec w} (laws : KeyLaws hash) {l : List (K × V)}
    (h : DistinctKeys l) {a b : K × V} (ha : a ∈ l) (hb : b ∈ l) (hab : (a.1 == b.1) = true) : a = b := by
  induction l with
  | nil => simp at ha
  | cons z l ih =>
    obtain ⟨h1, h2⟩ := List.pairwise_cons.1 h
    rcases List.mem_cons.1 ha with e1 | ha' <;> rcases List.mem_cons.1 hb with e2 | hb'
    · rw [e1, e2]
    · subst e1; rw [h1 b hb'] at hab; simp at hab
    · subst e2
      have := h1 a ha'
      rw [laws.symm _ _ hab] at this; simp at this
    · exact ih h2 ha' hb'

theorem CrossLaws.joinable (laws : CrossLaws x) {as : List (K × V)} {bs : List (L × W)}
    (ha : DistinctKeys as) (hb : DistinctKeys bs) : Joinable (fun a b => x.eq a.1 b.1) as bs where
  nl := distinct_nodup laws.left ha
  nr := distinct_nodup laws.right hb
  ul := fun _ h _ h' _ _ e e' => distinct_eq laws.left ha h h' (laws.uniqL _ _ _ e e')
  ur := fun _ _ _ h _ h' e e' => distinct_eq laws.right hb h h' (laws.uniqR _ _ _ e e')

theorem matched_of_mem {as : List (K × V)} {bs : List (L × W)} {p : Case (K × V) (L × W)}
    (h : IsCase (fun a b => x.eq a.1 b.1) as bs p) : Matched x p := by
  cases p with
  | left a => trivial
  | right b => trivial
  | both a b => exact h.2.2

/-- Different cases are about different keys. -/
theorem CrossLaws.apart (laws : CrossLaws x) {as : List (K × V)} {bs : List (L × W)}
    (ha : DistinctKeys as) (hb : DistinctKeys bs) :
    (x.cases as bs).Pairwise fun p q => ¬ Overlap x p q := by
  have j := laws.joinable ha hb
  refine List.Nodup.pairwise_of_forall_ne (nodup_jointCases j.nl j.nr) ?_
  intro p hp q hq hne hov
  have hp : IsCase (fun a b => x.eq a.1 b.1) as bs p := (mem_jointCases j p).1 hp
  have hq : IsCase (fun a b => x.eq a.1 b.1) as bs q := (mem_jointCases j q).1 hq
  apply hne
  -- a case is determined by its left entry and by its right entry
  have byL : ∀ (p q : Case (K × V) (L × W)) (a : K × V), IsCase (fun a b => x.eq a.1 b.1) as bs p →
      IsCase (fun a b => x.eq a.1 b.1) as bs q → (p = .left a ∨ ∃ b, p = .both a b) →
      (q = .left a ∨ ∃ b, q = .both a b) → p = q := by
    intro p q a hp hq h1 h2
    rcases h1 with rfl | ⟨b, rfl⟩ <;> rcases h2 with rfl | ⟨b', rfl⟩
    · rfl
    · have := hp.2 b' hq.2.1; rw [hq.2.2] at this; simp at this
    · have := hq.2 b hp.2.1; rw [hp.2.2] at this; simp at this
    · rw [j.ur a hp.1 b hp.2.1 b' hq.2.1 hp.2.2 hq.2.2]
  have byR : ∀ (p q : Case (K × V) (L × W)) (b : L × W), IsCase (fun a b => x.eq a.1 b.1) as bs p →
      IsCase (fun a b => x.eq a.1 b.1) as bs q → (p = .right b ∨ ∃ a, p = .both a b) →
      (q = .right b ∨ ∃ a, q = .both a b) → p = q := by
    intro p q b hp hq h1 h2
    rcases h1 with rfl | ⟨a, rfl⟩ <;> rcases h2 with rfl | ⟨a', rfl⟩
    · rfl
    · have := hp.2 a' hq.1; rw [hq.2.2] at this; simp at this
    · have := hq.2 a hp.1; rw [hp.2.2] at this; simp at this
    · rw [j.ul a hp.1 a' hq.1 b hp.2.1 hp.2.2 hq.2.2]
  have isL : ∀ (p : Case (K × V) (L × W)) k, IsCase (fun a b => x.eq a.1 b.1) as bs p → p.lkey? = some k →
      ∃ a ∈ as, a.1 = k ∧ (p = .left a ∨ ∃ b, p = .both a b) := by
    intro p k hp h
    cases p with
    | left a => injection h with h; exact ⟨a, hp.1, h, .inl rfl⟩
    | right b => simp [Case.lkey?] at h
    | both a b => injection h with h; exact ⟨a, hp.1, h, .inr ⟨b, rfl⟩⟩
  have isR : ∀ (p : Case (K × V) (L × W)) k, IsCase (fun a b => x.eq a.1 b.1) as bs p → p.rkey? = some k →
      ∃ b ∈ bs, b.1 = k ∧ (p = .right b ∨ ∃ a, p = .both a b) := by
    intro p k hp h
    cases p with
    | left a => simp [Case.rkey?] at h
    | right b => injection h with h; exact ⟨b, hp.1, h, .inl rfl⟩
    | both a b => injection h with h; exact ⟨b, hp.2.1, h, .inr ⟨a, rfl⟩⟩
  have lr : ∀ (p q : Case (K × V) (L × W)) k l, IsCase (fun a b => x.eq a.1 b.1) as bs p →
      IsCase (fun a b => x.eq a.1 b.1) as bs q → p.lkey? = some k → q.rkey? = some l →
      x.eq k l = true → p = q := by
    intro p q k l hp hq h1 h2 he
    obtain ⟨a, ha, hak, h1⟩ := isL p k hp h1
    obtain ⟨b, hb, hbl, h2⟩ := isR q l hq h2
    rw [← hak, ← hbl] at he
    have hm : IsCase (fun a b => x.eq a.1 b.1) as bs (.both a b) := ⟨ha, hb, he⟩
    rw [byL p (.both a b) a hp hm h1 (.inr ⟨b, rfl⟩), byR q (.both a b) b hq hm h2 (.inr ⟨a, rfl⟩)]
  rcases hov with ⟨k, k', h1, h2, he⟩ | ⟨l, l', h1, h2, he⟩ | ⟨k, l, h1, h2, he⟩ | ⟨k, l, h1, h2, he⟩
  · obtain ⟨a, hm, hak, h1⟩ := isL p k hp h1
    obtain ⟨a', hm', hak', h2⟩ := isL q k' hq h2
    rw [← hak, ← hak'] at he
    have := distinct_eq laws.left ha hm hm' he
    subst this
    exact byL p q a hp hq h1 h2
  · obtain ⟨b, hm, hbl, h1⟩ := isR p l hp h1
    obtain ⟨b', hm', hbl', h2⟩ := isR q l' hq h2
    rw [← hbl, ← hbl'] at he
    have := distinct_eq laws.right hb hm hm' he
    subst this
    exact byR p q b hp hq h1 h2
  · exact lr p q k l hp hq h1 h2 he
  · exact (lr q p k l hq hp h1 h2 he).symm

theorem CrossLaws.cases_matched (laws : CrossLaws x) {as : List (K × V)} {bs : List (L × W)}
    (ha : DistinctKeys as) (hb : DistinctKeys bs) : ∀ p ∈ x.cases as bs, Matched x p := by
  intro p hp
  exact matched_of_mem ((mem_jointCases (laws.joinable ha hb) p).1 hp)

/-- The hash of a case is the hash of its entries. -/
theorem CrossLaws.caseHash_of (laws : CrossLaws x) {as : List (K × V)} {bs : List (L × W)}
    (ha : DistinctKeys as) (hb : DistinctKeys bs) {P : BitVec c.w → Prop}
    (h1 : ∀ a ∈ as, P (x.hash a.1)) (h2 : ∀ b ∈ bs, P (x.hash' b.1)) :
    ∀ p ∈ x.cases as bs, P (x.caseHash p) := by
  intro p hp
  have hp := (mem_jointCases (laws.joinable ha hb) p).1 hp
  cases p with
  | left a => exact h1 a hp.1
  | right b => exact h2 b hp.1
  | both a b => exact h1 a hp.1

end
end HT
