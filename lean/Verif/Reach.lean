import Verif.HistoryLemmas
import Verif.BulkLemmas
import Verif.JointApi
/-! # The maps a program can hold -/
namespace HT

/-- The maps that can be obtained from the API: `new`, and every map a call returns when applied to
    maps obtained before, in any order and mixture.  Every key type involved obeys the contract of `Eq` and
    `Hash`, and every operation given to the unsafe functions obeys their contract.  Calls of
    `transform_with_transformed` are included when the answers are tame (`TwtOps.Tame`); for the others the
    result can be malformed (`C21_refuted`). -/
inductive Reach (c : Cfg) : {K V : Type} → [BEq K] → (K → BitVec c.w) → Trie c K V → Prop
  | new {K V : Type} [BEq K] {hash : K → BitVec c.w} (laws : KeyLaws hash) :
      Reach c hash (Trie.new c : Trie c K V)
  | insert {K V : Type} [BEq K] {hash : K → BitVec c.w} {t t' : Trie c K V} {q : K → Bool} {k : K}
      {v : V} {replace : Bool} {ptr : K × V} {prev : Option (K × V)}
      (h : Reach c hash t) (hq : Query hash q (hash k)) (hk : q k = true)
      (hr : t.insertQ hash q (hash k) k v replace = .ok (.ok (t', ptr, prev))) : Reach c hash t'
  | remove {K V : Type} [BEq K] {hash : K → BitVec c.w} {t t' : Trie c K V} {q : K → Bool}
      {h : BitVec c.w} {e : K × V}
      (ht : Reach c hash t) (hq : Query hash q h)
      (hr : t.removeQ q h = .ok (some (t', e))) : Reach c hash t'
  | transform {K V R : Type} [BEq K] {hash : K → BitVec c.w} {t t' : Trie c K V} {reduce : R → R → R}
      {e r : R} {op : MapTransform R (K → V → MapTransformResult V R)} {par : Par}
      (h : Reach c hash t) (hr : t.transform reduce e op par = .ok (t', r)) : Reach c hash t'
  | transmute {K V S X R : Type} [BEq K] [BEq S] {hash : K → BitVec c.w} {hash' : S → BitVec c.w}
      {t : Trie c K V} {t' : Trie c S X} {reduce : R → R → R} {e r : R}
      {op : MapTransmute R (K → V → MapTransmuteResult S X R)}
      (h : Reach c hash t) (laws : KeyLaws hash') (km : KeyMap hash hash' op.closure)
      (hr : t.transmute reduce e op = .ok (t', r)) : Reach c hash' t'
  | transformWithTransmuted {K V L W R : Type} [BEq K] [BEq L] {x : Cross c K L} {t t' : Trie c K V}
      {u : Trie c L W} {reduce : R → R → R} {e r : R} {ops : TwmOps K V L W R} {par : Par}
      (ht : Reach c x.hash t) (hu : Reach c x.hash' u) (laws : CrossLaws x) (con : ops.Contract x)
      (hr : Trie.twm x reduce e ops par t u = .ok (t', r)) : Reach c x.hash t'
  | transmuteWithTransformed {K V L W R : Type} [BEq K] [BEq L] {x : Cross c K L} {t : Trie c K V}
      {u t' : Trie c L W} {reduce : R → R → R} {e r : R} {ops : MwtOps K V L W R} {par : Par}
      (ht : Reach c x.hash t) (hu : Reach c x.hash' u) (laws : CrossLaws x) (con : ops.Contract x)
      (hr : Trie.mwt x reduce e ops par t u = .ok (t', r)) : Reach c x.hash' t'
  | transmuteWithTransmuted {K V L W S X R : Type} [BEq K] [BEq L] [BEq S] {x : Cross c K L}
      {hash' : S → BitVec c.w} {t : Trie c K V} {u : Trie c L W} {t' : Trie c S X} {reduce : R → R → R}
      {e r : R} {ops : MwmOps K V L W S X R}
      (ht : Reach c x.hash t) (hu : Reach c x.hash' u) (laws : CrossLaws x) (laws' : KeyLaws hash')
      (con : ops.Contract x hash')
      (hr : Trie.mwm x reduce e ops t u = .ok (t', r)) : Reach c hash' t'
  | transformWithTransformed {K V R : Type} [BEq K] {hash : K → BitVec c.w} {t u t' : Trie c K V}
      {reduce : R → R → R} {e r : R} {ops : TwtOps K V R} {par : Par}
      (ht : Reach c hash t) (hu : Reach c hash u) (tame : ops.Tame hash t.visit u.visit)
      (hr : Trie.twt reduce e hash ops par t u = .ok (t', r)) : Reach c hash t'

variable {c : Cfg}

theorem Reach.laws {K V : Type} [BEq K] {hash : K → BitVec c.w} {t : Trie c K V}
    (h : Reach c hash t) : KeyLaws hash := by
  induction h with
  | new laws => exact laws
  | insert _ _ _ _ ih => exact ih
  | remove _ _ _ ih => exact ih
  | transform _ _ ih => exact ih
  | transmute _ laws _ _ _ => exact laws
  | transformWithTransmuted _ _ _ _ _ ih _ => exact ih
  | transmuteWithTransformed _ _ _ _ _ _ ih => exact ih
  | transmuteWithTransmuted _ _ _ laws' _ _ _ _ => exact laws'
  | transformWithTransformed _ _ _ _ ih _ => exact ih

theorem Reach.valid {K V : Type} [BEq K] {hash : K → BitVec c.w} {t : Trie c K V}
    (h : Reach c hash t) : t.Valid hash := by
  induction h with
  | new laws => exact Trie.new_valid c.levels_pos
  | insert h hq hk hr ih =>
    rcases Trie.insertQ_spec c.levels_within h.laws.hash ih _ _ hq hk
      (fun e _ ag => ag.eq c.levels_cover) with ⟨r, hr', good⟩ | ⟨_, _, hp⟩
    · rw [hr] at hr'; injection hr' with hr'; subst hr'
      cases good with
      | ok _ _ _ _ h3 _ => exact h3
    · rw [hr] at hp; simp at hp
  | remove h hq hr ih =>
    rcases Trie.removeQ_spec c.levels_pos c.levels_within h.laws.hash ih hq with
      ⟨r, hr', good⟩ | ⟨_, _, hp⟩
    · rw [hr] at hr'; injection hr' with hr'; subst hr'
      cases good with
      | some _ _ _ h2 _ => exact h2
    · rw [hr] at hp; simp at hp
  | transform h hr ih =>
    obtain ⟨t1, r1, h1, h2, _⟩ := Trie.transform_spec h.laws.hash c.levels_pos ih _ _ _ _
    rw [hr] at h1; injection h1 with h1; injection h1 with h1 _; subst h1
    exact h2
  | transmute h laws km hr ih =>
    obtain ⟨t1, r1, h1, h2, _⟩ := Trie.transmute_spec c.levels_pos ih _ _ _ (by rw [← MapTransmute.closure_eq]; exact km)
    rw [hr] at h1; injection h1 with h1; injection h1 with h1 _; subst h1
    exact h2
  | @transformWithTransmuted K V L W R _ _ x t t' u reduce e r ops par ht hu laws con hr ih ih' =>
    by_cases ns : NoStall x t.visit u.visit
    · obtain ⟨t1, r1, h1, h2, _⟩ := Trie.twm_spec laws con reduce e par ih ih' ns
      rw [hr] at h1; injection h1 with h1; injection h1 with h1 _; subst h1
      exact h2
    · rw [Trie.twm_stall laws con reduce e par ih ih' ns] at hr; simp at hr
  | @transmuteWithTransformed K V L W R _ _ x t u t' reduce e r ops par ht hu laws con hr ih ih' =>
    by_cases ns : NoStall x.flip u.visit t.visit
    · obtain ⟨t1, r1, h1, h2, _⟩ := Trie.mwt_spec laws con reduce e par ih ih' ns
      rw [hr] at h1; injection h1 with h1; injection h1 with h1 _; subst h1
      exact h2
    · rw [Trie.mwt_stall laws con reduce e par ih ih' ns] at hr; simp at hr
  | transmuteWithTransmuted ht hu laws laws' con hr ih ih' =>
    rcases Trie.mwm_total laws laws' con _ _ ih ih' with ⟨h, _⟩ | ⟨t1, r1, h1, h2, _⟩
    · rw [hr] at h; simp at h
    · rw [hr] at h1; injection h1 with h1; injection h1 with h1 _; subst h1
      exact h2
  | transformWithTransformed ht hu tame hr ih ih' =>
    rcases Trie.twt_total ht.laws _ _ _ ih ih' tame with ⟨h, _⟩ | ⟨t1, r1, h1, h2, _⟩
    · rw [hr] at h; simp at h
    · rw [hr] at h1; injection h1 with h1; injection h1 with h1 _; subst h1
      exact h2

/-! ### Consequences used by the property theorems -/

section
variable {K V : Type} [BEq K] {hash : K → BitVec c.w} {t : Trie c K V}

theorem Reach.findQ (h : Reach c hash t) {q : K → Bool} {hv : BitVec c.w} (hq : Query hash q hv) :
    t.findQ q hv = .ok (t.visit.find? (fun e => q e.1)) :=
  Trie.findQ_eq c.levels_within h.valid hq

theorem Reach.query (h : Reach c hash t) (k : K) : Query hash (· == k) (hash k) :=
  haveI := h.laws.equiv
  Query.ofKey hash h.laws.hash k

theorem Reach.find (h : Reach c hash t) (k : K) :
    t.find hash k = .ok (t.visit.find? (fun e => e.1 == k)) := h.findQ (h.query k)

theorem Reach.distinct (h : Reach c hash t) : DistinctKeys t.visit :=
  Trie.ValidAt.distinct h.laws.hash h.valid

theorem Reach.size (h : Reach c hash t) : t.size = t.visit.length := Trie.ValidAt.size_eq h.valid

theorem Reach.insertQ (h : Reach c hash t) {q : K → Bool} {k : K} (v : V) (replace : Bool)
    (hq : Query hash q (hash k)) (hqk : q k = true) :
    (∃ r, t.insertQ hash q (hash k) k v replace = .ok r ∧ InsOut hash c.levels t q k v replace r) ∨
      (c.checked = true ∧ t.insertQ hash q (hash k) k v replace = .panic .shiftOverflow) := by
  rcases Trie.insertQ_spec c.levels_within h.laws.hash h.valid v replace hq hqk
      (fun e _ ag => ag.eq c.levels_cover) with h | ⟨h1, _, h2⟩
  · exact .inl h
  · exact .inr ⟨h1, h2⟩

theorem Reach.removeQ (h : Reach c hash t) {q : K → Bool} {hv : BitVec c.w} (hq : Query hash q hv) :
    (∃ r, t.removeQ q hv = .ok r ∧ RemOut hash c.levels t q r) ∨
      (c.checked = true ∧ t.removeQ q hv = .panic .shiftOverflow) := by
  rcases Trie.removeQ_spec c.levels_pos c.levels_within h.laws.hash h.valid hq with h | ⟨h1, _, h2⟩
  · exact .inl h
  · exact .inr ⟨h1, h2⟩

theorem nodup_of_distinct (laws : KeyLaws hash) {l : List (K × V)} (h : DistinctKeys l) : l.Nodup := by
  refine List.Pairwise.imp ?_ h
  intro a b hab heq
  subst heq
  rw [laws.refl] at hab; simp at hab

theorem mem_iff_find (laws : KeyLaws hash) {l : List (K × V)} (h : DistinctKeys l) (e : K × V) :
    e ∈ l ↔ l.find? (fun x => x.1 == e.1) = some e := by
  haveI := laws.equiv
  rw [(Query.ofKey hash laws.hash e.1).no_other h]
  simp

/-- Maps that answer alike have the same entries. -/
theorem perm_of_find (laws : KeyLaws hash) {l l' : List (K × V)} (h : DistinctKeys l)
    (h' : DistinctKeys l') (hf : ∀ k, l.find? (fun x => x.1 == k) = l'.find? (fun x => x.1 == k)) :
    l.Perm l' := by
  rw [List.perm_ext_iff_of_nodup (nodup_of_distinct laws h) (nodup_of_distinct laws h')]
  intro e
  rw [mem_iff_find laws h, mem_iff_find laws h', hf]

end
end HT
