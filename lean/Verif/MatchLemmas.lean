import Verif.MatchSpec
import Verif.ChaosBulk
import Verif.JointPair
import Verif.TwtTotal
/-! # Pairings -/
namespace HT

variable {A B K V L W S X R : Type} {c : Cfg}

namespace Pairing
variable {said : A → B → Prop} {as as' : List A} {bs bs' : List B} {cs cs' : List (Case A B)}

theorem nil : Pairing said [] [] [] := ⟨.nil, .nil, by simp⟩

theorem append (h : Pairing said as bs cs) (h' : Pairing said as' bs' cs') :
    Pairing said (as ++ as') (bs ++ bs') (cs ++ cs') := by
  refine ⟨?_, ?_, ?_⟩
  · rw [List.filterMap_append]; exact h.lefts.append h'.lefts
  · rw [List.filterMap_append]; exact h.rights.append h'.rights
  · intro a b hm
    rcases List.mem_append.1 hm with hm | hm
    · exact h.said a b hm
    · exact h'.said a b hm

theorem left (a : A) : Pairing said [a] [] [.left a] := ⟨.refl _, .refl _, by simp⟩
theorem right (b : B) : Pairing said [] [b] [.right b] := ⟨.refl _, .refl _, by simp⟩
theorem both {a : A} {b : B} (h : said a b) : Pairing said [a] [b] [.both a b] :=
  ⟨.refl _, .refl _, by simp only [List.mem_singleton, Case.both.injEq]; rintro _ _ ⟨rfl, rfl⟩; exact h⟩

theorem consL (h : Pairing said as bs cs) (a : A) : Pairing said (a :: as) bs (.left a :: cs) :=
  (left a).append h

theorem consB (h : Pairing said as bs cs) {a : A} {b : B} (hs : said a b) :
    Pairing said (a :: as) (b :: bs) (.both a b :: cs) := (both hs).append h

theorem allL (as : List A) : Pairing said as ([] : List B) (as.map .left) := by
  induction as with
  | nil => exact nil
  | cons a as ih => exact ih.consL a

theorem allR (bs : List B) : Pairing said ([] : List A) bs (bs.map .right) := by
  induction bs with
  | nil => exact nil
  | cons b bs ih => exact (right b).append ih

theorem apart (as : List A) (bs : List B) : Pairing said as bs (as.map .left ++ bs.map .right) := by
  have := (allL (said := said) as).append (allR bs)
  simpa using this

theorem permR (h : Pairing said as bs cs) (p : bs.Perm bs') : Pairing said as bs' cs :=
  ⟨h.lefts, h.rights.trans p, h.said⟩

theorem flatMap {ls : List Nat} {f : Nat → List A} {g : Nat → List B} {csi : Nat → List (Case A B)}
    (h : ∀ i ∈ ls, Pairing said (f i) (g i) (csi i)) :
    Pairing said (ls.flatMap f) (ls.flatMap g) (ls.flatMap csi) := by
  induction ls with
  | nil => exact nil
  | cons i ls ih =>
    simp only [List.flatMap_cons]
    exact (h i (List.mem_cons_self ..)).append (ih fun j hj => h j (List.mem_cons_of_mem _ hj))

theorem flip (h : Pairing said as bs cs) : Pairing (fun b a => said a b) bs as (cs.map Case.flip) := by
  have h1 : ∀ cs : List (Case A B), (cs.map Case.flip).filterMap Case.left? = cs.filterMap Case.right? := by
    intro cs; rw [List.filterMap_map]; congr 1; funext p; cases p <;> rfl
  have h2 : ∀ cs : List (Case A B), (cs.map Case.flip).filterMap Case.right? = cs.filterMap Case.left? := by
    intro cs; rw [List.filterMap_map]; congr 1; funext p; cases p <;> rfl
  refine ⟨by rw [h1]; exact h.rights, by rw [h2]; exact h.lefts, ?_⟩
  intro b a hm
  obtain ⟨p, hp, he⟩ := List.mem_map.1 hm
  cases p with
  | left a => cases he
  | right b => cases he
  | both a' b' => cases he; exact h.said _ _ hp

theorem mono {said' : A → B → Prop} (h : Pairing said as bs cs) (hm : ∀ a b, said a b → said' a b) :
    Pairing said' as bs cs := ⟨h.lefts, h.rights, fun a b hab => hm a b (h.said a b hab)⟩

end Pairing

/-- The result `o` on lists is that of some pairing. -/
def LPaired (x : Cross c K L) (s : Sem (K × V) (L × W) (S × X) R) (as : List (K × V)) (bs : List (L × W))
    (o : Option (LNext S X)) (r : R) : Prop :=
  ∃ cs, Pairing x.Says as bs cs ∧ LGood s cs o r

theorem Pairing.cases {x : Cross c K L} (a : K × V) (b : L × W) :
    Pairing x.Says [a] [b] (x.cases [a] [b]) := by
  cases h : x.eq a.1 b.1 with
  | true => rw [Cross.cases, jointCases_single_hit (by exact h)]; exact .both (.inl h)
  | false => rw [Cross.cases, jointCases_single_miss (by exact h)]; exact .apart [a] [b]

/-! ### transform_with_transmuted -/

section
variable (x : Cross c K L) (reduce : R → R → R) (e : R) (ops : TwmOps K V L W R)

theorem SNode.twmImpl_paired (this : SNode K V) (rk : L) (rv : W) :
    LPaired x (ops.sem reduce e) this.visit [(rk, rv)]
      ((this.twmImpl x reduce ops rk rv).get (.S this)) (this.twmImpl x reduce ops rk rv).red :=
  ⟨_, .cases _ _, SNode.twmImpl_spec x reduce e ops this rk rv⟩

theorem LNode.twmSImpl_paired (this : LNode K V) (hsz : this.SizeOk) (right : SNode L W) :
    LPaired x (ops.sem reduce e) this.visit right.visit
      ((this.twmSImpl x reduce ops right).get (.L this)) (this.twmSImpl x reduce ops right).red := by
  induction this with
  | nextS k v s z =>
    rw [LNode.twmSImpl]
    cases heq : x.eq k right.key with
    | true =>
      simp only [if_true]
      exact ⟨_, (Pairing.allL s.visit).consB (a := (k, v)) (b := (right.key, right.value)) (.inl heq),
        transformResult_good (s := ops.sem reduce e) (.nextS k v s z) hsz
          ((ops.aloneL reduce e).snode s) (by crfl) (by crfl)⟩
    | false =>
      simp only [Bool.false_eq_true, if_false]
      obtain ⟨cs, h1, h2⟩ := SNode.twmImpl_paired x reduce e ops s right.key right.value
      exact ⟨_, h1.consL (k, v), transformResult_good (s := ops.sem reduce e) (.nextS k v s z) hsz h2 (by crfl) (by crfl)⟩
  | nextL k v l z ih =>
    rw [LNode.twmSImpl]
    cases heq : x.eq k right.key with
    | true =>
      simp only [if_true]
      exact ⟨_, (Pairing.allL l.visit).consB (a := (k, v)) (b := (right.key, right.value)) (.inl heq),
        transformResult_good (s := ops.sem reduce e) (.nextL k v l z) hsz
          ((ops.aloneL reduce e).lnode l hsz.2) (by crfl) (by crfl)⟩
    | false =>
      simp only [Bool.false_eq_true, if_false]
      obtain ⟨cs, h1, h2⟩ := ih hsz.2
      exact ⟨_, h1.consL (k, v), transformResult_good (s := ops.sem reduce e) (.nextL k v l z) hsz h2 (by crfl) (by crfl)⟩

theorem SNode.twmLast_paired (s : SNode K V) (bs : List (L × W)) :
    ∃ used, (used ++ (s.twmLast x reduce ops bs).2).Perm bs ∧
      LPaired x (ops.sem reduce e) s.visit used ((s.twmLast x reduce ops bs).1.get (.S s))
        (s.twmLast x reduce ops bs).1.red := by
  unfold SNode.twmLast
  cases ht : takeMatch (fun b : L × W => x.eq s.key b.1) bs with
  | none => exact ⟨[], .refl _, _, .allL _, (ops.aloneL reduce e).snode s⟩
  | some q =>
    obtain ⟨b, rest⟩ := q
    exact ⟨[b], (takeMatch_some ht).2, SNode.twmImpl_paired x reduce e ops s b.1 b.2⟩

theorem LNode.twmLImpl_paired (this : LNode K V) (hsz : this.SizeOk) (bs : List (L × W)) :
    ∃ used, (used ++ (this.twmLImpl x reduce ops bs).2).Perm bs ∧
      LPaired x (ops.sem reduce e) this.visit used ((this.twmLImpl x reduce ops bs).1.get (.L this))
        (this.twmLImpl x reduce ops bs).1.red := by
  induction this with
  | nextS k v s z =>
    obtain ⟨used, hp, cs, h1, h2⟩ := SNode.twmLast_paired x reduce e ops s bs
    rw [LNode.twmLImpl]
    simp only [TwmOps.step]
    cases ht : takeMatch (fun b : L × W => x.eq k b.1) (s.twmLast x reduce ops bs).2 with
    | none =>
      exact ⟨used, hp, _, h1.consL (k, v), transformResult_good (s := ops.sem reduce e) (p := .left (k, v))
        (.nextS k v s z) hsz h2 (by crfl) (by crfl)⟩
    | some q =>
      obtain ⟨b, rest⟩ := q
      have hb := takeMatch_some ht
      refine ⟨b :: used, ?_, _, h1.consB (a := (k, v)) (b := b) (.inl hb.1), transformResult_good (s := ops.sem reduce e)
        (p := .both (k, v) b) (.nextS k v s z) hsz h2 (by crfl) (by crfl)⟩
      exact (List.perm_middle.symm.trans (List.Perm.append_left _ hb.2)).trans hp
  | nextL k v l z ih =>
    obtain ⟨used, hp, cs, h1, h2⟩ := ih hsz.2
    rw [LNode.twmLImpl]
    simp only [TwmOps.step]
    cases ht : takeMatch (fun b : L × W => x.eq k b.1) (l.twmLImpl x reduce ops bs).2 with
    | none =>
      exact ⟨used, hp, _, h1.consL (k, v), transformResult_good (s := ops.sem reduce e) (p := .left (k, v))
        (.nextL k v l z) hsz h2 (by crfl) (by crfl)⟩
    | some q =>
      obtain ⟨b, rest⟩ := q
      have hb := takeMatch_some ht
      refine ⟨b :: used, ?_, _, h1.consB (a := (k, v)) (b := b) (.inl hb.1), transformResult_good (s := ops.sem reduce e)
        (p := .both (k, v) b) (.nextL k v l z) hsz h2 (by crfl) (by crfl)⟩
      exact (List.perm_middle.symm.trans (List.Perm.append_left _ hb.2)).trans hp

/-- The entries of the right list that no entry of the left list was paired with come last. -/
theorem Pairing.rest {x : Cross c K L} {as : List (K × V)} {used rest bs : List (L × W)} {cs : List (Case (K × V) (L × W))}
    (h : Pairing x.Says as used cs) (p : (used ++ rest).Perm bs) :
    Pairing x.Says as bs (cs ++ rest.map .right) := by
  have := h.append (Pairing.allR (said := x.Says) rest)
  rw [List.append_nil] at this
  exact this.permR p

theorem LNode.twmLs_paired (this : LNode K V) (hsz : this.SizeOk) (bs : List (L × W)) :
    let next := this.twmLImpl x reduce ops bs
    LPaired x (ops.sem reduce e) this.visit bs
      ((next.2.foldl (ops.leftover reduce this) next.1).get (.L this))
      (next.2.foldl (ops.leftover reduce this) next.1).red := by
  intro next
  obtain ⟨used, hp, cs, h1, h2⟩ := LNode.twmLImpl_paired x reduce e ops this hsz bs
  exact ⟨_, h1.rest hp, TwmOps.leftover_spec reduce e ops this hsz _ _ h2⟩

end

/-! ### transmute_with_transformed -/

section
variable (x : Cross c K L) (reduce : R → R → R) (e : R) (ops : MwtOps K V L W R)

theorem LNode.mwtSImpl_paired (this : LNode K V) (right : SNode L W) :
    LPaired x (ops.sem reduce e) this.visit right.visit
      ((this.mwtSImpl x reduce ops right).get (.S right)) (this.mwtSImpl x reduce ops right).red := by
  induction this with
  | nextS k v s z =>
    rw [LNode.mwtSImpl]
    cases heq : x.eq k right.key with
    | true =>
      simp only [if_true]
      exact ⟨_, (Pairing.allL s.visit).consB (a := (k, v)) (b := (right.key, right.value)) (.inl heq),
        withTransmuted_good (s := ops.sem reduce e) right ((ops.aloneL reduce e).snode s) (by crfl) (by crfl)⟩
    | false =>
      simp only [Bool.false_eq_true, if_false]
      exact ⟨_, (Pairing.cases (x := x) (s.key, s.value) (right.key, right.value)).consL (k, v),
        withTransformed_good (s := ops.sem reduce e) right (SNode.mwtImpl_spec x reduce e ops s right) (by crfl) (by crfl)⟩
  | nextL k v l z ih =>
    rw [LNode.mwtSImpl]
    cases heq : x.eq k right.key with
    | true =>
      simp only [if_true]
      exact ⟨_, (Pairing.allL l.visit).consB (a := (k, v)) (b := (right.key, right.value)) (.inl heq),
        withTransmuted_good (s := ops.sem reduce e) right ((ops.aloneL reduce e).lnode l) (by crfl) (by crfl)⟩
    | false =>
      simp only [Bool.false_eq_true, if_false]
      obtain ⟨cs, h1, h2⟩ := ih
      exact ⟨_, h1.consL (k, v), withTransformed_good (s := ops.sem reduce e) right h2 (by crfl) (by crfl)⟩

end

/-! ### transmute_with_transmuted -/

section
variable (x : Cross c K L) (reduce : R → R → R) (e : R) (ops : MwmOps K V L W S X R)

theorem SNode.mwmValues_paired (a : K × V) (b : L × W) :
    LPaired x (ops.sem reduce e) [a] [b] (SNode.mwmValues x reduce ops a.1 a.2 b.1 b.2).get
      (SNode.mwmValues x reduce ops a.1 a.2 b.1 b.2).red :=
  ⟨_, .cases a b, SNode.mwmValues_spec x reduce e ops a b⟩

theorem LNode.mwmSImpl_paired (this : LNode K V) (right : SNode L W) :
    LPaired x (ops.sem reduce e) this.visit right.visit
      (this.mwmSImpl x reduce ops right).get (this.mwmSImpl x reduce ops right).red := by
  induction this with
  | nextS k v s z =>
    rw [LNode.mwmSImpl]
    cases heq : x.eq k right.key with
    | true =>
      simp only [if_true]
      exact ⟨_, (Pairing.allL s.visit).consB (a := (k, v)) (b := (right.key, right.value)) (.inl heq),
        transmuteResult_good (s := ops.sem reduce e) ((ops.aloneL reduce e).snode s) (by crfl) (by crfl)⟩
    | false =>
      simp only [Bool.false_eq_true, if_false]
      obtain ⟨cs, h1, h2⟩ := SNode.mwmValues_paired x reduce e ops (s.key, s.value) (right.key, right.value)
      exact ⟨_, h1.consL (k, v), transmuteResult_good (s := ops.sem reduce e) h2 (by crfl) (by crfl)⟩
  | nextL k v l z ih =>
    rw [LNode.mwmSImpl]
    cases heq : x.eq k right.key with
    | true =>
      simp only [if_true]
      exact ⟨_, (Pairing.allL l.visit).consB (a := (k, v)) (b := (right.key, right.value)) (.inl heq),
        transmuteResult_good (s := ops.sem reduce e) ((ops.aloneL reduce e).lnode l) (by crfl) (by crfl)⟩
    | false =>
      simp only [Bool.false_eq_true, if_false]
      obtain ⟨cs, h1, h2⟩ := ih
      exact ⟨_, h1.consL (k, v), transmuteResult_good (s := ops.sem reduce e) h2 (by crfl) (by crfl)⟩

theorem SNode.mwmLast_paired (s : SNode K V) (bs : List (L × W)) :
    ∃ used, (used ++ (s.mwmLast x reduce ops bs).2).Perm bs ∧
      LPaired x (ops.sem reduce e) s.visit used (s.mwmLast x reduce ops bs).1.get
        (s.mwmLast x reduce ops bs).1.red := by
  unfold SNode.mwmLast
  cases ht : takeMatch (fun b : L × W => x.eq s.key b.1) bs with
  | none => exact ⟨[], .refl _, _, .allL _, (ops.aloneL reduce e).snode s⟩
  | some q =>
    obtain ⟨b, rest⟩ := q
    exact ⟨[b], (takeMatch_some ht).2, SNode.mwmValues_paired x reduce e ops (s.key, s.value) b⟩

theorem LNode.mwmLImpl_paired (this : LNode K V) (bs : List (L × W)) :
    ∃ used, (used ++ (this.mwmLImpl x reduce ops bs).2).Perm bs ∧
      LPaired x (ops.sem reduce e) this.visit used (this.mwmLImpl x reduce ops bs).1.get
        (this.mwmLImpl x reduce ops bs).1.red := by
  induction this with
  | nextS k v s z =>
    obtain ⟨used, hp, cs, h1, h2⟩ := SNode.mwmLast_paired x reduce e ops s bs
    rw [LNode.mwmLImpl]
    simp only [MwmOps.step]
    cases ht : takeMatch (fun b : L × W => x.eq k b.1) (s.mwmLast x reduce ops bs).2 with
    | none =>
      exact ⟨used, hp, _, h1.consL (k, v), transmuteResult_good (s := ops.sem reduce e) (p := .left (k, v)) h2
        (by crfl) (by crfl)⟩
    | some q =>
      obtain ⟨b, rest⟩ := q
      have hb := takeMatch_some ht
      refine ⟨b :: used, ?_, _, h1.consB (a := (k, v)) (b := b) (.inl hb.1), transmuteResult_good (s := ops.sem reduce e)
        (p := .both (k, v) b) h2 (by crfl) (by crfl)⟩
      exact (List.perm_middle.symm.trans (List.Perm.append_left _ hb.2)).trans hp
  | nextL k v l z ih =>
    obtain ⟨used, hp, cs, h1, h2⟩ := ih
    rw [LNode.mwmLImpl]
    simp only [MwmOps.step]
    cases ht : takeMatch (fun b : L × W => x.eq k b.1) (l.mwmLImpl x reduce ops bs).2 with
    | none =>
      exact ⟨used, hp, _, h1.consL (k, v), transmuteResult_good (s := ops.sem reduce e) (p := .left (k, v)) h2
        (by crfl) (by crfl)⟩
    | some q =>
      obtain ⟨b, rest⟩ := q
      have hb := takeMatch_some ht
      refine ⟨b :: used, ?_, _, h1.consB (a := (k, v)) (b := b) (.inl hb.1), transmuteResult_good (s := ops.sem reduce e)
        (p := .both (k, v) b) h2 (by crfl) (by crfl)⟩
      exact (List.perm_middle.symm.trans (List.Perm.append_left _ hb.2)).trans hp

theorem LNode.mwmLs_paired (this : LNode K V) (bs : List (L × W)) :
    let next := this.mwmLImpl x reduce ops bs
    LPaired x (ops.sem reduce e) this.visit bs
      (next.2.foldl (ops.leftover reduce) next.1).get (next.2.foldl (ops.leftover reduce) next.1).red := by
  intro next
  obtain ⟨used, hp, cs, h1, h2⟩ := LNode.mwmLImpl_paired x reduce e ops this bs
  exact ⟨_, h1.rest hp, MwmOps.leftover_spec reduce e ops _ _ h2⟩

end
end HT
