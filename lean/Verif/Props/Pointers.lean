import Verif.StayTrie
import Verif.Props.Equality
import Verif.Props.Single
import Verif.Props.Bulk
import Verif.Props.Joint
import Verif.Props.Sharing
/-!
# C66: entries stay where they are

`find` returns references into the map. `ATrie.findP` is `find` with the address they point to. An operation leaves the
entry of a key where it was if no other key with the same hash is affected; of keys that share a hash, the entries may be
copied to a new place (`C66_moves`).
-/
namespace HT
variable {K V L W R σ : Type} [BEq K] [BEq L] {c : Cfg} {hash : K → BitVec c.w}

/-- `findP` is `find`, with the address of the object of the map that holds the entry. -/
theorem C66_find {t : ATrie c K V} (h : Reach c hash t.erase) (k : K) :
    (t.findP hash k = .ok none ∧ t.erase.find hash k = .ok none) ∨
    ∃ o : ANode c.n K V, ∃ e, o.Sub t.root ∧ o.entry = some e ∧
      t.findP hash k = .ok (some (o.addr, e)) ∧ t.erase.find hash k = .ok (some e) := by
  obtain ⟨r, h1, h2⟩ := ATrie.findP_ok h k
  have h3 := h.find k
  rw [← h2] at h3
  cases r with
  | none => exact .inl ⟨h1, h3⟩
  | some r =>
    obtain ⟨o, h4, h5, h6, _⟩ := ATrie.findP_obj h1
    exact .inr ⟨o, r.2, h4, h6, by rw [h5]; exact h1, h3⟩

/-- C66: an insertion returns the address at which lookup of the inserted key now finds it; of every key with another
    hash, lookup finds the same entry at the same address as before; and, if nothing was replaced, of every other key. -/
theorem C66_insert {s s' : Nat} {vs : List (ATrie c K V)} (laws : KeyLaws hash) (h : Mem hash s vs)
    {t t' : ATrie c K V} (ht : t ∈ vs) {k : K} {v : V} {replace : Bool} {ptr : Nat} {prev : Option (K × V)}
    (hr : t.insert hash k v replace s = .ok (.ok (t', ptr, prev), s')) :
    t'.findP hash k = .ok (some (ptr, k, v)) ∧
    (∀ k', hash k' ≠ hash k → t'.findP hash k' = t.findP hash k') ∧
    (prev = none → ∀ k', (k' == k) = false → t'.findP hash k' = t.findP hash k') := by
  have reach := h.reach laws t ht
  have reach' := (Mem.insert h ht hr).reach laws t' (by simp)
  obtain ⟨o, h1, h2, h3, _, _⟩ := C43_insert_pointer laws h ht hr
  have finds : ∀ k', (k' == k) = false → t'.erase.find hash k' = t.erase.find hash k' := by
    obtain ⟨U, heap, hU⟩ := h.heap
    obtain ⟨b, hb, hle, U', hsub, hnew, heap', P⟩ := (ATrie.insert_sim heap (hU t ht) k v replace).ok hr
    cases P with
    | ok _ o p prev h1 h2 h3 h4 h5 h6 =>
      have hb : t.erase.insert hash k v replace = .ok (.ok (t'.erase, p, prev)) := hb
      cases hf : t.erase.visit.find? (fun e => e.1 == k) with
      | none =>
        obtain ⟨t1, ptr1, e1, _, e2, _⟩ := (C02_insert_fresh reach k v replace ((reach.find k).trans (congrArg _ hf))).2 _ hb
        injection e1 with e1; injection e1 with e1 _; subst e1
        exact e2
      | some en =>
        cases replace with
        | false =>
          have := (C03_insert_refused reach k v en ((reach.find k).trans (congrArg _ hf))).2 _ hb
          cases this
        | true =>
          obtain ⟨t1, ptr1, e1, _, e2, _⟩ := (C04_insert_replace reach k v en ((reach.find k).trans (congrArg _ hf))).2 _ hb
          injection e1 with e1; injection e1 with e1 _; subst e1
          exact e2
  refine ⟨?_, fun k' hk' => ?_, fun hp k' hk' => ?_⟩
  · rw [← h2]; exact ATrie.findP_of_obj reach' h1 h3 (laws.refl k)
  · have fine := ATrie.insert_fine (T := fun x => hash x = hash k') (P := True) (fun h => hk' h.symm) (fun _ l hl => by
      refine (ANode.loose_or reach.valid (hash k') hl).imp id fun hall e he => ?_
      cases hq : e.1 == k with
      | false => exact hq
      | true => exact absurd ((hall e he).symm.trans (laws.hash _ _ hq)) hk') hr (.inr trivial)
    refine ATrie.findP_fine reach reach' fine (fun x hx => laws.hash _ _ hx) (finds k' ?_)
    cases hq : k' == k with
    | false => rfl
    | true => exact absurd (laws.hash _ _ hq) hk'
  · have fine := ATrie.insert_fine (T := fun x => ¬(x == k) = true) (P := False) (fun h => h (laws.refl k)) False.elim
      hr (.inl hp)
    refine ATrie.findP_fine reach reach' fine (fun x hx hxk => ?_) (finds k' hk')
    have := laws.trans _ _ _ (laws.symm _ _ hx) hxk
    rw [hk'] at this; cases this

/-- C66: after a removal, lookup of the removed key finds nothing, and lookup of every key with another hash finds the same entry at the same address as before. -/
theorem C66_remove {s s' : Nat} {vs : List (ATrie c K V)} (laws : KeyLaws hash) (h : Mem hash s vs)
    {t t' : ATrie c K V} (ht : t ∈ vs) {k : K} {e : K × V} (hr : t.remove hash k s = .ok (some (t', e), s')) :
    t'.findP hash k = .ok none ∧ ∀ k', hash k' ≠ hash k → t'.findP hash k' = t.findP hash k' := by
  have reach := h.reach laws t ht
  have reach' := (Mem.remove h ht hr).reach laws t' (by simp)
  have finds : t'.erase.find hash k = .ok none ∧
      ∀ k', (k' == k) = false → t'.erase.find hash k' = t.erase.find hash k' := by
    obtain ⟨U, heap, hU⟩ := h.heap
    obtain ⟨b, hb, hle, U', hsub, hnew, heap', P⟩ := (ATrie.remove_sim heap (hU t ht) k).ok hr
    cases P with
    | some _ e h1 h2 h3 =>
      have hb : t.erase.remove hash k = .ok (some (t'.erase, e)) := hb
      cases hf : t.erase.visit.find? (fun e => e.1 == k) with
      | none =>
        have := (C07_remove_absent reach k ((reach.find k).trans (congrArg _ hf))).2 _ hb
        cases this
      | some en =>
        obtain ⟨t1, e1, e3, e2, _⟩ := (C06_remove_present reach k en ((reach.find k).trans (congrArg _ hf))).2 _ hb
        injection e1 with e1; injection e1 with e1 _; subst e1
        exact ⟨e3, e2⟩
  refine ⟨?_, fun k' hk' => ?_⟩
  · rcases C66_find reach' k with h1 | ⟨o, e, _, _, _, h1⟩
    · exact h1.1
    · rw [finds.1] at h1; cases h1
  have fine := ATrie.remove_fine (T := fun x => hash x = hash k') (fun l hl => by
      refine (ANode.loose_or reach.valid (hash k') hl).imp id fun hall e he => ?_
      cases hq : e.1 == k with
      | false => exact hq
      | true => exact absurd ((hall e he).symm.trans (laws.hash _ _ hq)) hk') hr
  refine ATrie.findP_fine reach reach' fine (fun x hx => laws.hash _ _ hx) (finds.2 k' ?_)
  cases hq : k' == k with
  | false => rfl
  | true => exact absurd (laws.hash _ _ hq) hk'

/-! ## Bulk operations -/

section
variable {Q : Type} {A : Q → Type} {α β : Type}

theorem Prog.Gives.ask {G : (q : Q) → A q → Prop} {q : Q} {P : A q → Prop} (h : ∀ a, G q a → P a) :
    (Prog.ask q : Prog Q A (A q)).Gives G P := fun _ a ha => h a ha

end

/-- C66: if the closure of `transform` answered `Unchanged` for every entry with the hash of `k` (so for the entry of `k`
    itself, if there is one), lookup of `k` in the result finds what it finds in the map it was called on, at the same
    address. -/
theorem C66_transform {s s' : Nat} {vs : List (ATrie c K V)} (laws : KeyLaws hash) (h : Mem hash s vs)
    {t t' : ATrie c K V} (ht : t ∈ vs) {reduce : R → R → R} {e r : R} {o : MapTransform R Unit} (no : ∀ r, o ≠ .removed r)
    {par : Par} {env : (p : K × V) → σ → Option (MapTransformResult V R × σ)} {st st' : σ}
    {l : List (Reply (K × V) fun _ => MapTransformResult V R)}
    (hr : (t.transformE reduce e o.asking par).run s env st = (.ret (((t', r), s'), st'), l))
    {k : K} (keep : ∀ p a, ⟨p, some a⟩ ∈ l → hash p.1 = hash k → ∃ r, a = .unchanged r) :
    t'.findP hash k = t.findP hash k := by
  have reach := h.reach laws t ht
  obtain ⟨f, hf⟩ := (C50_transform laws h ht reduce e o par env st).1
  have like := (C50_transform laws h ht reduce e o par env st).2 f hf
  have once := C49_transform reduce e o par reach s env st
  rw [hr] at hf like once
  have like : t.erase.transform reduce e (o.answering f) par = .ok (t'.erase, r) := like
  have reach' : Reach c hash t'.erase := .transform reach like
  have calls : ∀ v k', hash k' = hash k → (o.asking.callM k' v).Gives (fun q a => ⟨q, some a⟩ ∈ l)
      (MapTransformResult.IsUnchanged (V := V) (R := R)) := by
    intro v k' hk'
    cases o with
    | generic u => exact Prog.Gives.ask fun a ha => by exact keep _ a ha hk'
    | unchanged r => exact Prog.Gives.pure ⟨r, rfl⟩
    | removed r => exact absurd rfl (no r)
  have fine := (ATrie.transformE_fine (c := c) (reduce := reduce) (e := e) (par := par) (G := fun q a => ⟨q, some a⟩ ∈ l)
    (op := o.asking) (T := fun x => hash x = hash k) (t := t)
    (fun k' v hk' => (calls v k' hk').mono fun a ha => by obtain ⟨r, rfl⟩ := ha; trivial)
    (ANode.whole reach.valid) (fun l' hl' => (ANode.loose_or reach.valid (hash k) hl').imp id fun hall =>
      ⟨(t.self_fine _).sub hl', fun e he => calls e.2 e.1 (hall e he)⟩)).run hr fun q a hm => hm
  refine ATrie.findP_fine reach reach' fine (fun x hx => laws.hash _ _ hx) ?_
  cases o with
  | removed r => exact absurd rfl (no r)
  | unchanged r =>
    obtain ⟨t1, r1, h1, _, h3, _⟩ := Trie.transform_spec laws.hash c.levels_pos reach.valid reduce e
      ((MapTransform.unchanged r).answering f) par
    rw [like] at h1; injection h1 with h1; injection h1 with h1 _
    subst h1
    rw [reach.find, reach'.find, h3]
    have : ((MapTransform.unchanged r).answering f).outs t.erase.visit = t.erase.visit :=
      List.filterMap_some
    rw [this]
  | generic u =>
    obtain ⟨t1, r1, h1, _, _, h2, h3⟩ := C16_transform_per_entry reach reduce e (fun k v => f (k, v)) par
    have h1 : t.erase.transform reduce e ((MapTransform.generic u).answering f) par = .ok (t1, r1) := h1
    rw [like] at h1; injection h1 with h1; injection h1 with h1 _
    subst h1
    cases hfd : t.erase.visit.find? (fun e => e.1 == k) with
    | none =>
      have e0 := (reach.find k).trans (congrArg _ hfd)
      rw [e0]; exact h2 k e0
    | some en =>
      have e0 := (reach.find k).trans (congrArg _ hfd)
      rw [e0, h3 k en.1 en.2 e0]
      have hen := List.mem_of_find?_eq_some hfd
      have hk := laws.hash _ _ (by simpa using List.find?_some hfd : (en.1 == k) = true)
      have hmem := (once.all _ rfl).mem_iff.2 hen
      obtain ⟨p, hp, hpe⟩ := List.mem_map.1 hmem
      obtain ⟨q, a?⟩ := p
      cases hpe
      have := once.answered (fun q hq => by cases hq) _ hp
      cases a? with
      | none => cases this
      | some a =>
        obtain ⟨r, rfl⟩ := keep _ a hp hk
        rw [hf _ _ hp]; rfl

/-! ## Joint operations -/

section
variable {Q : Type} {A : Q → Type} {α : Type}

/-- A call that was to be made was answered. -/
theorem CallsOnce.answer {run : Outcome Q α × List (Reply Q A)} {expected : List Q} (once : CallsOnce run expected) {a : α}
    (hr : run.1 = .ret a) {q : Q} (hq : q ∈ expected) : ∃ ans, ⟨q, some ans⟩ ∈ run.2 := by
  have hmem := (once.all _ hr).mem_iff.2 hq
  obtain ⟨⟨q', a?⟩, hp, hpe⟩ := List.mem_map.1 hmem
  cases hpe
  have := once.answered (fun q hq => by rw [hr] at hq; cases hq) _ hp
  cases a? with
  | none => cases this
  | some a => exact ⟨a, hp⟩

end

section
variable {x : Cross c K L} (laws : CrossLaws x)
include laws

/-- C66: if the entry that `k` finds in the left map is kept by `transform_with_transmuted` (the answer for it is
    `Unchanged`), and neither map has another key with its hash, `k` finds it in the result at the same address. -/
theorem C66_transform_with_transmuted {s s' : Nat} {vs : List (ATrie c K V)} (h : Mem x.hash s vs)
    {t t' : ATrie c K V} (ht : t ∈ vs) {u : ATrie c L W} (hu : Reach c x.hash' u.erase) {reduce : R → R → R} {e r : R}
    {o : TwmKinds R} (ob : ∀ r, o.both ≠ .removed r) (ol : ∀ r, o.left ≠ .removed r) {par : Par}
    {env : (p : Case (K × V) (L × W)) → σ → Option (TwmAnswer K V L W R p × σ)}
    {st st' : σ} {l : List (Reply _ (TwmAnswer K V L W R))}
    (hr : (ATrie.twmE x reduce e o.asking par t u).run s env st = (.ret (((t', r), s'), st'), l))
    {f : (p : Case (K × V) (L × W)) → TwmAnswer K V L W R p} (hf : Answers f l) (con : (o.answering f).Contract x)
    {k : K} {p : Nat} {a : K × V} (hk : t.findP x.hash k = .ok (some (p, a)))
    (solo : ∀ a ∈ t.erase.visit, x.hash a.1 = x.hash k → (a.1 == k) = true)
    (solo' : ∀ b ∈ u.erase.visit, x.hash' b.1 = x.hash k → x.eq k b.1 = true)
    (keepL : ∀ ans : MapTransformResult V R, ⟨.left a, some ans⟩ ∈ l → ∃ r, ans = .unchanged r)
    (keepB : ∀ b, ∀ ans : MapTransformResult V R, ⟨.both a b, some ans⟩ ∈ l → ∃ r, ans = .unchanged r) :
    t'.findP x.hash k = .ok (some (p, a)) := by
  have reach := h.reach laws.left t ht
  obtain ⟨a0, m1, m2, m3, m4⟩ := ATrie.findP_obj hk
  have ha : a ∈ t.erase.visit := m1.entry_mem m3
  have m4 : (a.1 == k) = true := m4
  have uniq : ∀ a' ∈ t.erase.visit, x.hash a'.1 = x.hash k → a' = a := by
    intro a' ha' hh
    obtain ⟨o', h1, h2⟩ := ANode.entry_sub ha'
    have := ANode.entry_inj laws.left.symm reach.distinct h1 m1 h2 m3
      (laws.left.trans _ _ _ (solo a' ha' hh) (laws.left.symm _ _ m4))
    subst this
    rw [m3] at h2; injection h2 with h2; exact h2.symm
  have once := C49_transform_with_transmuted laws reduce e o par reach hu s env st
  have like := (C50_transform_with_transmuted laws reduce e h ht hu o par env st).2 f (by rw [hr]; exact hf)
  rw [hr] at once like
  have like : Trie.twm x reduce e (o.answering f) par t.erase u.erase = .ok (t'.erase, r) := like
  have reach' : Reach c x.hash t'.erase := .transformWithTransmuted reach hu laws con like
  have jn := laws.joinable reach.distinct hu.distinct
  have only : ∀ q ans, ⟨q, some ans⟩ ∈ l → IsCase (fun a b => x.eq a.1 b.1) t.erase.visit u.erase.visit q := by
    intro q ans hq
    have := once.only q (List.mem_map.2 ⟨_, hq, rfl⟩)
    exact (mem_jointCases jn q).1 (List.mem_filter.1 this).1
  have good : o.asking.Good (fun q ans => ⟨q, some ans⟩ ∈ l) (fun k' => x.hash k' = x.hash k) True := by
    refine ⟨fun k' v l' w hT => ?_, fun k' v hT => ?_, fun l' w => ?_⟩
    · cases hb : o.both with
      | removed r => exact absurd hb (ob r)
      | unchanged r => simp only [TwmKinds.asking, hb]; exact Prog.Gives.pure trivial
      | generic g =>
        simp only [TwmKinds.asking, hb]
        refine Prog.Gives.ask fun ans hans => ?_
        obtain ⟨h1, h2, h3⟩ := only _ _ hans
        have e1 := uniq _ h1 hT
        rw [e1] at hans
        obtain ⟨r, rfl⟩ := keepB _ _ hans; trivial
    · cases hb : o.left with
      | removed r => exact absurd hb (ol r)
      | unchanged r => simp only [TwmKinds.asking, hb]; exact Prog.Gives.pure trivial
      | generic g =>
        simp only [TwmKinds.asking, hb]
        refine Prog.Gives.ask fun ans hans => ?_
        obtain ⟨h1, _⟩ := only _ _ hans
        have e1 := uniq _ h1 hT
        rw [e1] at hans
        obtain ⟨r, rfl⟩ := keepL _ hans; trivial
    · cases hb : o.right with
      | removed r => simp only [TwmKinds.asking, hb]; exact Prog.Gives.pure trivial
      | generic g =>
        simp only [TwmKinds.asking, hb]
        refine Prog.Gives.ask fun ans hans => ?_
        obtain ⟨h1, h2⟩ := only _ _ hans
        have hans' : f (.right (l', w)) = ans := hf _ _ hans
        have key : ∀ ans : MapTransmuteResult K V R, f (.right (l', w)) = ans →
            MapTransmuteResult.Good (fun k' => x.hash k' = x.hash k) ans := by
          intro ans hans'
          cases ans with
          | removed r => trivial
          | transmuted k1 v1 r1 =>
            intro hT
            have h3 : x.eq k1 l' = true := con l' w k1 v1 r1 (by simp only [TwmKinds.answering, hb]; exact hans')
            have h4 := solo' _ h1 ((laws.hash _ _ h3).symm.trans hT)
            have h5 := laws.congL _ _ _ (laws.left.symm _ _ m4) h4
            have h6 : x.eq a.1 l' = false := h2 a ha
            rw [h5] at h6; cases h6
        exact key ans hans'
  have fine := (ATrie.twmE_fine (reduce := reduce) (e := e) (par := par) good
    (Meets.of_solo laws reach hu solo solo')).run hr fun q a hm => hm
  have perm := (C24_transform_with_transmuted laws reach hu con reduce e par like).2.1
  have hin : a ∈ t'.erase.visit := by
    refine perm.mem_iff.2 ?_
    rcases exists_case (x := x) (bs := u.erase.visit) ha with hc | ⟨b, hc⟩
    · refine List.mem_filterMap.2 ⟨_, hc, ?_⟩
      cases hb : o.left with
      | removed r => exact absurd hb (ol r)
      | unchanged r => simp only [TwmOps.out, TwmKinds.answering, hb]; rfl
      | generic g =>
        obtain ⟨ans, hans⟩ := once.answer rfl (List.mem_filter.2 ⟨hc, by simp [TwmKinds.asks, hb, MapTransform.isClosure]⟩)
        obtain ⟨r, rfl⟩ := keepL _ hans
        have := hf _ _ hans
        simp only [TwmOps.out, TwmKinds.answering, hb, MapTransform.map, MapTransform.closure]
        rw [this]; rfl
    · refine List.mem_filterMap.2 ⟨_, hc, ?_⟩
      cases hb : o.both with
      | removed r => exact absurd hb (ob r)
      | unchanged r => simp only [TwmOps.out, TwmKinds.answering, hb]; rfl
      | generic g =>
        obtain ⟨ans, hans⟩ := once.answer rfl (List.mem_filter.2 ⟨hc, by simp [TwmKinds.asks, hb, MapTransform.isClosure]⟩)
        obtain ⟨r, rfl⟩ := keepB _ _ hans
        have := hf _ _ hans
        simp only [TwmOps.out, TwmKinds.answering, hb, MapTransform.map, MapTransform.closure2]
        rw [this]; rfl
  obtain ⟨o', h1, h2, h3⟩ := ATrie.findP_kept reach' fine hin m4 (laws.left.hash _ _ m4)
  rw [ATrie.findP_of_obj reach h1 h2 m4] at hk
  rw [h3, hk]

/-- C66: if the entry that `k` finds in the right map is kept by `transmute_with_transformed` (the answer for it is
    `Unchanged`), and neither map has another key with its hash, `k` finds it in the result at the same address. -/
theorem C66_transmute_with_transformed {s s' : Nat} {vs : List (ATrie c L W)} (h : Mem x.hash' s vs)
    {t : ATrie c K V} (ht : Reach c x.hash t.erase) {u t' : ATrie c L W} (hu : u ∈ vs) {reduce : R → R → R} {e r : R}
    {o : MwtKinds R} (ob : ∀ r, o.both ≠ .removed r) (or : ∀ r, o.right ≠ .removed r) {par : Par}
    {env : (p : Case (K × V) (L × W)) → σ → Option (MwtAnswer K V L W R p × σ)}
    {st st' : σ} {l : List (Reply _ (MwtAnswer K V L W R))}
    (hr : (ATrie.mwtE x reduce e o.asking par t u).run s env st = (.ret (((t', r), s'), st'), l))
    {f : (p : Case (K × V) (L × W)) → MwtAnswer K V L W R p} (hf : Answers f l) (con : (o.answering f).Contract x)
    {k : L} {p : Nat} {b : L × W} (hk : u.findP x.hash' k = .ok (some (p, b)))
    (solo : ∀ a ∈ t.erase.visit, x.hash a.1 = x.hash' k → x.eq a.1 k = true)
    (solo' : ∀ b ∈ u.erase.visit, x.hash' b.1 = x.hash' k → (b.1 == k) = true)
    (keepR : ∀ ans : MapTransformResult W R, ⟨.right b, some ans⟩ ∈ l → ∃ r, ans = .unchanged r)
    (keepB : ∀ a, ∀ ans : MapTransformResult W R, ⟨.both a b, some ans⟩ ∈ l → ∃ r, ans = .unchanged r) :
    t'.findP x.hash' k = .ok (some (p, b)) := by
  have reach := h.reach laws.right u hu
  obtain ⟨a0, m1, m2, m3, m4⟩ := ATrie.findP_obj hk
  have hb : b ∈ u.erase.visit := m1.entry_mem m3
  have m4 : (b.1 == k) = true := m4
  have uniq : ∀ a' ∈ u.erase.visit, x.hash' a'.1 = x.hash' k → a' = b := by
    intro a' ha' hh
    obtain ⟨o', h1, h2⟩ := ANode.entry_sub ha'
    have := ANode.entry_inj laws.right.symm reach.distinct h1 m1 h2 m3
      (laws.right.trans _ _ _ (solo' a' ha' hh) (laws.right.symm _ _ m4))
    subst this
    rw [m3] at h2; injection h2 with h2; exact h2.symm
  have once := C49_transmute_with_transformed laws reduce e o par ht reach s env st
  have like := (C50_transmute_with_transformed laws reduce e h ht hu o par env st).2 f (by rw [hr]; exact hf)
  rw [hr] at once like
  have like : Trie.mwt x reduce e (o.answering f) par t.erase u.erase = .ok (t'.erase, r) := like
  have reach' : Reach c x.hash' t'.erase := .transmuteWithTransformed ht reach laws con like
  have jn := laws.joinable ht.distinct reach.distinct
  have only : ∀ q ans, ⟨q, some ans⟩ ∈ l → IsCase (fun a b => x.eq a.1 b.1) t.erase.visit u.erase.visit q := by
    intro q ans hq
    have := once.only q (List.mem_map.2 ⟨_, hq, rfl⟩)
    exact (mem_jointCases jn q).1 (List.mem_filter.1 this).1
  have good : o.asking.Good (fun q ans => ⟨q, some ans⟩ ∈ l) (fun k' => x.hash' k' = x.hash' k) True := by
    refine ⟨fun k' v l' w hT => ?_, fun k' v => ?_, fun l' w hT => ?_⟩
    · cases hb : o.both with
      | removed r => exact absurd hb (ob r)
      | unchanged r => simp only [MwtKinds.asking, hb]; exact Prog.Gives.pure trivial
      | generic g =>
        simp only [MwtKinds.asking, hb]
        refine Prog.Gives.ask fun ans hans => ?_
        obtain ⟨h1, h2, h3⟩ := only _ _ hans
        have e1 := uniq _ h2 hT
        rw [e1] at hans
        obtain ⟨r, rfl⟩ := keepB _ _ hans; trivial
    · cases hl : o.left with
      | removed r => simp only [MwtKinds.asking, hl]; exact Prog.Gives.pure trivial
      | generic g =>
        simp only [MwtKinds.asking, hl]
        refine Prog.Gives.ask fun ans hans => ?_
        obtain ⟨h1, h2⟩ := only _ _ hans
        have hans' : f (.left (k', v)) = ans := hf _ _ hans
        have key : ∀ ans : MapTransmuteResult L W R, f (.left (k', v)) = ans →
            MapTransmuteResult.Good (fun k' => x.hash' k' = x.hash' k) ans := by
          intro ans hans'
          cases ans with
          | removed r => trivial
          | transmuted k1 v1 r1 =>
            intro hT
            have h3 : x.eq k' k1 = true := con k' v k1 v1 r1 (by simp only [MwtKinds.answering, hl]; exact hans')
            have h4 := solo _ h1 ((laws.hash _ _ h3).trans hT)
            have h5 := laws.congR _ _ _ (laws.right.symm _ _ m4) h4
            have h6 : x.eq k' b.1 = false := h2 b hb
            rw [h5] at h6; cases h6
        exact key ans hans'
    · cases hb : o.right with
      | removed r => exact absurd hb (or r)
      | unchanged r => simp only [MwtKinds.asking, hb]; exact Prog.Gives.pure trivial
      | generic g =>
        simp only [MwtKinds.asking, hb]
        refine Prog.Gives.ask fun ans hans => ?_
        obtain ⟨h1, _⟩ := only _ _ hans
        have e1 := uniq _ h1 hT
        rw [e1] at hans
        obtain ⟨r, rfl⟩ := keepR _ hans; trivial
  have fine := (ATrie.mwtE_fine (reduce := reduce) (e := e) (par := par) good
    (Meets.of_solo laws.flip reach ht solo' fun a ha hh => by
      show x.eq' k a.1 = true
      rw [laws.sym]; exact solo a ha hh)).run hr fun q a hm => hm
  have perm := (C25_transmute_with_transformed laws ht reach con reduce e par like).2.1
  have hin : b ∈ t'.erase.visit := by
    refine perm.mem_iff.2 ?_
    by_cases hab : ∃ a ∈ t.erase.visit, x.eq a.1 b.1 = true
    · obtain ⟨a, ha, hab⟩ := hab
      have hc : Case.both a b ∈ x.cases t.erase.visit u.erase.visit := (mem_jointCases jn _).2 ⟨ha, hb, hab⟩
      refine List.mem_filterMap.2 ⟨_, hc, ?_⟩
      cases hb : o.both with
      | removed r => exact absurd hb (ob r)
      | unchanged r => simp only [MwtOps.out, MwtKinds.answering, hb]; rfl
      | generic g =>
        obtain ⟨ans, hans⟩ := once.answer rfl (List.mem_filter.2 ⟨hc, by simp [MwtKinds.asks, hb, MapTransform.isClosure]⟩)
        obtain ⟨r, rfl⟩ := keepB _ _ hans
        have := hf _ _ hans
        simp only [MwtOps.out, MwtKinds.answering, hb, MapTransform.map, MapTransform.closure2]
        rw [this]; rfl
    · have hc : Case.right b ∈ x.cases t.erase.visit u.erase.visit := (mem_jointCases jn _).2 ⟨hb, fun a ha => by
        cases hq : x.eq a.1 b.1 with
        | false => exact hq
        | true => exact absurd ⟨a, ha, hq⟩ hab⟩
      refine List.mem_filterMap.2 ⟨_, hc, ?_⟩
      cases hb : o.right with
      | removed r => exact absurd hb (or r)
      | unchanged r => simp only [MwtOps.out, MwtKinds.answering, hb]; rfl
      | generic g =>
        obtain ⟨ans, hans⟩ := once.answer rfl (List.mem_filter.2 ⟨hc, by simp [MwtKinds.asks, hb, MapTransform.isClosure]⟩)
        obtain ⟨r, rfl⟩ := keepR _ hans
        have := hf _ _ hans
        simp only [MwtOps.out, MwtKinds.answering, hb, MapTransform.map, MapTransform.closure]
        rw [this]; rfl
  obtain ⟨o', h1, h2, h3⟩ := ATrie.findP_kept reach' fine hin m4 (laws.right.hash _ _ m4)
  rw [ATrie.findP_of_obj reach h1 h2 m4] at hk
  rw [h3, hk]

end

/-- The lookups of a key in a map that holds `a` under it. -/
theorem ATrie.findP_some {t : ATrie c K V} (reach : Reach c hash t.erase) {k : K} {p : Nat} {a : K × V}
    (hk : t.findP hash k = .ok (some (p, a))) :
    a ∈ t.erase.visit ∧ (a.1 == k) = true ∧ t.erase.find hash k = .ok (some a) ∧
      ∀ a' ∈ t.erase.visit, (a'.1 == k) = true → a' = a := by
  obtain ⟨a0, m1, m2, m3, m4⟩ := ATrie.findP_obj hk
  have m4 : (a.1 == k) = true := m4
  refine ⟨m1.entry_mem m3, m4, by rw [ATrie.findP_erase, hk]; rfl, fun a' ha' hh => ?_⟩
  obtain ⟨o', h1, h2⟩ := ANode.entry_sub ha'
  have := ANode.entry_inj reach.laws.symm reach.distinct h1 m1 h2 m3
    (reach.laws.trans _ _ _ hh (reach.laws.symm _ _ m4))
  subst this
  rw [m3] at h2; injection h2 with h2; exact h2.symm

/-- C66: if the entry that `k` finds in the left map is kept by `transform_with_transformed` (the answer for it is
    `Unchanged`, or `UnchangedL` if the right map has the key too), and neither map has another key with its hash, `k`
    finds it in the result at the same address. (If the right map has the key too, the operation for such pairs is to be a
    closure, and the one for the right map's other entries not the bulk `Unchanged`.) -/
theorem C66_transform_with_transformed_left {s s' : Nat} {vs : List (ATrie c K V)} (laws : KeyLaws hash)
    (h : Mem hash s vs) {t u t' : ATrie c K V} (ht : t ∈ vs) (hu : u ∈ vs) {reduce : R → R → R} {e r : R}
    {o : TwtKinds R} {par : Par} {env : (p : Case (K × V) (K × V)) → σ → Option (TwtAnswer K V R p × σ)}
    {st st' : σ} {l : List (Reply _ (TwtAnswer K V R))}
    (hr : (ATrie.twtE reduce e hash o.asking par t u).run s env st = (.ret (((t', r), s'), st'), l))
    {f : (p : Case (K × V) (K × V)) → TwtAnswer K V R p} (hf : Answers f l)
    (tame : (o.answering f).Tame hash t.erase.visit u.erase.visit)
    {k : K} {p : Nat} {a : K × V} (hk : t.findP hash k = .ok (some (p, a)))
    (solo : ∀ a ∈ t.erase.visit, hash a.1 = hash k → (a.1 == k) = true)
    (solo' : ∀ b ∈ u.erase.visit, hash b.1 = hash k → (b.1 == k) = true)
    (ol : ∀ r, o.left ≠ .removed r)
    (side : ∀ b ∈ u.erase.visit, hash b.1 = hash k → o.both.isClosure = true ∧ ∀ r, o.right ≠ .unchanged r)
    (keepL : ∀ ans : MapTransformResult V R, ⟨.left a, some ans⟩ ∈ l → ∃ r, ans = .unchanged r)
    (keepB : ∀ b, ∀ ans : MapJointTransformResult V R, ⟨.both a b, some ans⟩ ∈ l → ∃ r, ans = .unchangedL r) :
    t'.findP hash k = .ok (some (p, a)) := by
  have reach := h.reach laws t ht
  have reachU := h.reach laws u hu
  obtain ⟨ha, m4, hfind, uniq⟩ := ATrie.findP_some reach hk
  have once := C49_transform_with_transformed reduce e o par reach reachU s env st
  have like := (C50_transform_with_transformed laws h ht hu reduce e o par env st).2 f (by rw [hr]; exact hf)
  rw [hr] at once like
  have like : Trie.twt reduce e hash (o.answering f) par t.erase u.erase = .ok (t'.erase, r) := like
  have reach' : Reach c hash t'.erase := .transformWithTransformed reach reachU tame like
  have jn := (CrossLaws.same laws).joinable reach.distinct reachU.distinct
  have only : ∀ q ans, ⟨q, some ans⟩ ∈ l → IsCase (fun a b => a.1 == b.1) t.erase.visit u.erase.visit q := by
    intro q ans hq
    have := once.only q (List.mem_map.2 ⟨_, hq, rfl⟩)
    exact (mem_jointCases jn q).1 (List.mem_filter.1 this).1
  have good : o.asking.Good (fun q ans => ⟨q, some ans⟩ ∈ l) (fun k' => hash k' = hash k) True
      (∀ b ∈ u.erase.visit, hash b.1 ≠ hash k) := by
    have bulk : o.both.isClosure = false → ∀ b ∈ u.erase.visit, hash b.1 ≠ hash k := fun hc b hb hh => by
      rw [(side b hb hh).1] at hc; cases hc
    refine ⟨fun k' v l' w hT hT' => ?_, fun k' v l' w hT hT' => ?_, fun k' v hT => ?_, fun l' w hT => ?_⟩
    · cases hb : o.both with
      | generic g fl =>
        simp only [TwtKinds.asking, hb]
        refine Prog.Gives.ask fun ans hans => ?_
        obtain ⟨h1, h2, h3⟩ := only _ _ hans
        rw [uniq _ h1 (solo _ h1 hT)] at hans
        obtain ⟨r, rfl⟩ := keepB _ _ hans; trivial
      | unchangedLR r => simp only [TwtKinds.asking, hb]; exact Prog.Gives.pure ⟨trivial, bulk (by rw [hb]; rfl)⟩
      | unchangedL r => simp only [TwtKinds.asking, hb]; exact Prog.Gives.pure trivial
      | unchangedR r => simp only [TwtKinds.asking, hb]; exact Prog.Gives.pure (bulk (by rw [hb]; rfl))
      | removed r => simp only [TwtKinds.asking, hb]; exact Prog.Gives.pure trivial
    · cases hb : o.both with
      | generic g fl =>
        simp only [TwtKinds.asking, hb]
        refine Prog.Gives.bind (P := MapJointTransformResult.Good True _) (Prog.Gives.ask fun ans hans => ?_)
          fun ans hans => Prog.Gives.pure hans.flip
        obtain ⟨h1, h2, h3⟩ := only _ _ hans
        rw [uniq _ h1 (solo _ h1 hT')] at hans
        obtain ⟨r, rfl⟩ := keepB _ _ hans; trivial
      | unchangedLR r => simp only [TwtKinds.asking, hb]; exact Prog.Gives.pure ⟨bulk (by rw [hb]; rfl), trivial⟩
      | unchangedL r => simp only [TwtKinds.asking, hb]; exact Prog.Gives.pure (bulk (by rw [hb]; rfl))
      | unchangedR r => simp only [TwtKinds.asking, hb]; exact Prog.Gives.pure trivial
      | removed r => simp only [TwtKinds.asking, hb]; exact Prog.Gives.pure trivial
    · cases hb : o.left with
      | removed r => exact absurd hb (ol r)
      | unchanged r => simp only [TwtKinds.asking, hb]; exact Prog.Gives.pure trivial
      | generic g =>
        simp only [TwtKinds.asking, hb]
        refine Prog.Gives.ask fun ans hans => ?_
        obtain ⟨h1, _⟩ := only _ _ hans
        rw [uniq _ h1 (solo _ h1 hT)] at hans
        obtain ⟨r, rfl⟩ := keepL _ hans; trivial
    · cases hb : o.right with
      | removed r => simp only [TwtKinds.asking, hb]; exact Prog.Gives.pure trivial
      | unchanged r =>
        simp only [TwtKinds.asking, hb]
        exact Prog.Gives.pure fun b hb' hh => (side b hb' hh).2 r hb
      | generic g =>
        simp only [TwtKinds.asking, hb]
        refine Prog.Gives.ask fun ans hans => ?_
        obtain ⟨h1, h2⟩ := only _ _ hans
        have h3 : (a.1 == l') = false := h2 a ha
        rw [laws.trans _ _ _ m4 (laws.symm _ _ (solo' _ h1 hT))] at h3; cases h3
  have fine := (ATrie.twtE_fine (reduce := reduce) (e := e) (par := par) (U := fun o => o.Sub t.root) good
    (fun _ => t.self_fine _) (fun hn o ho en he hT => absurd hT (hn en (ho.entry_mem he)))
    (Meets2.of_solo reach reachU solo solo')).run hr fun q a hm => hm
  have hin : t'.erase.find hash k = .ok (some a) := by
    obtain ⟨rb, h1, h2⟩ := ATrie.findP_ok reachU k
    have hfindU : u.erase.find hash k = .ok (rb.map Prod.snd) := by rw [ATrie.findP_erase, h1]; rfl
    obtain ⟨en, h3, h4⟩ := C21_transform_with_transformed_partial reach reachU tame reduce e par like k _ _ hfind hfindU
    rw [h3]
    cases rb with
    | none =>
      simp only [Option.map_none] at h4
      subst h4
      cases hb : o.left with
      | removed r => exact absurd hb (ol r)
      | unchanged r => simp only [TwtKinds.answering, hb]; rfl
      | generic g =>
        have hc : Case.left a ∈ (Cross.same hash).cases t.erase.visit u.erase.visit := (mem_jointCases jn _).2 ⟨ha, by
          intro b hb
          have := List.find?_eq_none.1 h2.symm b hb
          cases hq : a.1 == b.1 with
          | false => exact hq
          | true => exact absurd (laws.trans _ _ _ (laws.symm _ _ hq) m4) this⟩
        obtain ⟨ans, hans⟩ := once.answer rfl (List.mem_filter.2 ⟨hc, by simp [TwtKinds.asks, hb, MapTransform.isClosure]⟩)
        obtain ⟨r, rfl⟩ := keepL _ hans
        simp only [TwtKinds.answering, hb, MapTransform.map, MapTransform.closure]
        rw [hf _ _ hans]; rfl
    | some rb =>
      obtain ⟨hbm, hbk, _, _⟩ := ATrie.findP_some reachU h1
      have hcl := (side rb.2 hbm (laws.hash _ _ hbk)).1
      have hc : Case.both a rb.2 ∈ (Cross.same hash).cases t.erase.visit u.erase.visit :=
        (mem_jointCases jn _).2 ⟨ha, hbm, laws.trans _ _ _ m4 (laws.symm _ _ hbk)⟩
      simp only [Option.map_some] at h4
      cases hb : o.both with
      | generic g fl =>
        obtain ⟨ans, hans⟩ := once.answer rfl (List.mem_filter.2 ⟨hc, by simp [TwtKinds.asks, hcl]⟩)
        obtain ⟨r, rfl⟩ := keepB _ _ hans
        simp only [TwtKinds.answering, hb, MapJointTransform.map, MapJointTransform.Entry, MapJointTransform.closure] at h4
        have h5 := hf _ _ hans
        rw [h5] at h4
        rw [show en = some a from h4]
      | _ => rw [hb] at hcl; cases hcl
  have hin : a ∈ t'.erase.visit := by
    rw [reach'.find] at hin
    injection hin with hin
    exact List.mem_of_find?_eq_some hin
  obtain ⟨o', h1, h2, h3⟩ := ATrie.findP_kept reach' fine hin m4 (laws.hash _ _ m4)
  rw [ATrie.findP_of_obj reach h1 h2 m4] at hk
  rw [h3, hk]

/-- C66: if the entry that `k` finds in the right map is kept by `transform_with_transformed` (the answer for it is
    `Unchanged`, or `UnchangedR` if the left map has the key too), and neither map has another key with its hash, `k`
    finds it in the result at the same address. (If the left map has the key too, the operation for such pairs is to be a
    closure, and the one for the left map's other entries not the bulk `Unchanged`.) -/
theorem C66_transform_with_transformed_right {s s' : Nat} {vs : List (ATrie c K V)} (laws : KeyLaws hash)
    (h : Mem hash s vs) {t u t' : ATrie c K V} (ht : t ∈ vs) (hu : u ∈ vs) {reduce : R → R → R} {e r : R}
    {o : TwtKinds R} {par : Par} {env : (p : Case (K × V) (K × V)) → σ → Option (TwtAnswer K V R p × σ)}
    {st st' : σ} {l : List (Reply _ (TwtAnswer K V R))}
    (hr : (ATrie.twtE reduce e hash o.asking par t u).run s env st = (.ret (((t', r), s'), st'), l))
    {f : (p : Case (K × V) (K × V)) → TwtAnswer K V R p} (hf : Answers f l)
    (tame : (o.answering f).Tame hash t.erase.visit u.erase.visit)
    {k : K} {p : Nat} {b : K × V} (hk : u.findP hash k = .ok (some (p, b)))
    (solo : ∀ a ∈ t.erase.visit, hash a.1 = hash k → (a.1 == k) = true)
    (solo' : ∀ b ∈ u.erase.visit, hash b.1 = hash k → (b.1 == k) = true)
    (or : ∀ r, o.right ≠ .removed r)
    (side : ∀ a ∈ t.erase.visit, hash a.1 = hash k → o.both.isClosure = true ∧ ∀ r, o.left ≠ .unchanged r)
    (keepR : ∀ ans : MapTransformResult V R, ⟨.right b, some ans⟩ ∈ l → ∃ r, ans = .unchanged r)
    (keepB : ∀ a, ∀ ans : MapJointTransformResult V R, ⟨.both a b, some ans⟩ ∈ l → ∃ r, ans = .unchangedR r) :
    t'.findP hash k = .ok (some (p, b)) := by
  have reach := h.reach laws t ht
  have reachU := h.reach laws u hu
  obtain ⟨hbm, m4, hfindU, uniq⟩ := ATrie.findP_some reachU hk
  have once := C49_transform_with_transformed reduce e o par reach reachU s env st
  have like := (C50_transform_with_transformed laws h ht hu reduce e o par env st).2 f (by rw [hr]; exact hf)
  rw [hr] at once like
  have like : Trie.twt reduce e hash (o.answering f) par t.erase u.erase = .ok (t'.erase, r) := like
  have reach' : Reach c hash t'.erase := .transformWithTransformed reach reachU tame like
  have jn := (CrossLaws.same laws).joinable reach.distinct reachU.distinct
  have only : ∀ q ans, ⟨q, some ans⟩ ∈ l → IsCase (fun a b => a.1 == b.1) t.erase.visit u.erase.visit q := by
    intro q ans hq
    have := once.only q (List.mem_map.2 ⟨_, hq, rfl⟩)
    exact (mem_jointCases jn q).1 (List.mem_filter.1 this).1
  have good : o.asking.Good (fun q ans => ⟨q, some ans⟩ ∈ l) (fun k' => hash k' = hash k)
      (∀ a ∈ t.erase.visit, hash a.1 ≠ hash k) True := by
    have bulk : o.both.isClosure = false → ∀ a ∈ t.erase.visit, hash a.1 ≠ hash k := fun hc a ha hh => by
      rw [(side a ha hh).1] at hc; cases hc
    refine ⟨fun k' v l' w hT hT' => ?_, fun k' v l' w hT hT' => ?_, fun k' v hT => ?_, fun l' w hT => ?_⟩
    · cases hb : o.both with
      | generic g fl =>
        simp only [TwtKinds.asking, hb]
        refine Prog.Gives.ask fun ans hans => ?_
        obtain ⟨h1, h2, h3⟩ := only _ _ hans
        rw [uniq _ h2 (solo' _ h2 hT')] at hans
        obtain ⟨r, rfl⟩ := keepB _ _ hans; trivial
      | unchangedLR r => simp only [TwtKinds.asking, hb]; exact Prog.Gives.pure ⟨bulk (by rw [hb]; rfl), trivial⟩
      | unchangedL r => simp only [TwtKinds.asking, hb]; exact Prog.Gives.pure (bulk (by rw [hb]; rfl))
      | unchangedR r => simp only [TwtKinds.asking, hb]; exact Prog.Gives.pure trivial
      | removed r => simp only [TwtKinds.asking, hb]; exact Prog.Gives.pure trivial
    · cases hb : o.both with
      | generic g fl =>
        simp only [TwtKinds.asking, hb]
        refine Prog.Gives.bind (P := MapJointTransformResult.Good _ True) (Prog.Gives.ask fun ans hans => ?_)
          fun ans hans => Prog.Gives.pure hans.flip
        obtain ⟨h1, h2, h3⟩ := only _ _ hans
        rw [uniq _ h2 (solo' _ h2 hT)] at hans
        obtain ⟨r, rfl⟩ := keepB _ _ hans; trivial
      | unchangedLR r => simp only [TwtKinds.asking, hb]; exact Prog.Gives.pure ⟨trivial, bulk (by rw [hb]; rfl)⟩
      | unchangedL r => simp only [TwtKinds.asking, hb]; exact Prog.Gives.pure trivial
      | unchangedR r => simp only [TwtKinds.asking, hb]; exact Prog.Gives.pure (bulk (by rw [hb]; rfl))
      | removed r => simp only [TwtKinds.asking, hb]; exact Prog.Gives.pure trivial
    · cases hb : o.left with
      | removed r => simp only [TwtKinds.asking, hb]; exact Prog.Gives.pure trivial
      | unchanged r =>
        simp only [TwtKinds.asking, hb]
        exact Prog.Gives.pure fun a ha hh => (side a ha hh).2 r hb
      | generic g =>
        simp only [TwtKinds.asking, hb]
        refine Prog.Gives.ask fun ans hans => ?_
        obtain ⟨h1, h2⟩ := only _ _ hans
        have h3 : (k' == b.1) = false := h2 b hbm
        rw [laws.trans _ _ _ (solo _ h1 hT) (laws.symm _ _ m4)] at h3; cases h3
    · cases hb : o.right with
      | removed r => exact absurd hb (or r)
      | unchanged r => simp only [TwtKinds.asking, hb]; exact Prog.Gives.pure trivial
      | generic g =>
        simp only [TwtKinds.asking, hb]
        refine Prog.Gives.ask fun ans hans => ?_
        obtain ⟨h1, _⟩ := only _ _ hans
        rw [uniq _ h1 (solo' _ h1 hT)] at hans
        obtain ⟨r, rfl⟩ := keepR _ hans; trivial
  have fine := (ATrie.twtE_fine (reduce := reduce) (e := e) (par := par) (U := fun o => o.Sub u.root) good
    (fun hn o ho en he hT => absurd hT (hn en (ho.entry_mem he))) (fun _ => u.self_fine _)
    (Meets2.of_solo reach reachU solo solo')).run hr fun q a hm => hm
  have hin : t'.erase.find hash k = .ok (some b) := by
    obtain ⟨ra, h1, h2⟩ := ATrie.findP_ok reach k
    have hfind : t.erase.find hash k = .ok (ra.map Prod.snd) := by rw [ATrie.findP_erase, h1]; rfl
    obtain ⟨en, h3, h4⟩ := C21_transform_with_transformed_partial reach reachU tame reduce e par like k _ _ hfind hfindU
    rw [h3]
    cases ra with
    | none =>
      simp only [Option.map_none] at h4
      subst h4
      cases hb : o.right with
      | removed r => exact absurd hb (or r)
      | unchanged r => simp only [TwtKinds.answering, hb]; rfl
      | generic g =>
        have hc : Case.right b ∈ (Cross.same hash).cases t.erase.visit u.erase.visit := (mem_jointCases jn _).2 ⟨hbm, by
          intro a ha
          have := List.find?_eq_none.1 h2.symm a ha
          cases hq : a.1 == b.1 with
          | false => exact hq
          | true => exact absurd (laws.trans _ _ _ hq m4) this⟩
        obtain ⟨ans, hans⟩ := once.answer rfl (List.mem_filter.2 ⟨hc, by simp [TwtKinds.asks, hb, MapTransform.isClosure]⟩)
        obtain ⟨r, rfl⟩ := keepR _ hans
        simp only [TwtKinds.answering, hb, MapTransform.map, MapTransform.closure]
        rw [hf _ _ hans]; rfl
    | some ra =>
      obtain ⟨ham, hak, _, _⟩ := ATrie.findP_some reach h1
      have hcl := (side ra.2 ham (laws.hash _ _ hak)).1
      have hc : Case.both ra.2 b ∈ (Cross.same hash).cases t.erase.visit u.erase.visit :=
        (mem_jointCases jn _).2 ⟨ham, hbm, laws.trans _ _ _ hak (laws.symm _ _ m4)⟩
      simp only [Option.map_some] at h4
      cases hb : o.both with
      | generic g fl =>
        obtain ⟨ans, hans⟩ := once.answer rfl (List.mem_filter.2 ⟨hc, by simp [TwtKinds.asks, hcl]⟩)
        obtain ⟨r, rfl⟩ := keepB _ _ hans
        simp only [TwtKinds.answering, hb, MapJointTransform.map, MapJointTransform.Entry, MapJointTransform.closure] at h4
        have h5 := hf _ _ hans
        rw [h5] at h4
        rw [show en = some b from h4]
      | _ => rw [hb] at hcl; cases hcl
  have hin : b ∈ t'.erase.visit := by
    rw [reach'.find] at hin
    injection hin with hin
    exact List.mem_of_find?_eq_some hin
  obtain ⟨o', h1, h2, h3⟩ := ATrie.findP_kept reach' fine hin m4 (laws.hash _ _ m4)
  rw [ATrie.findP_of_obj reachU h1 h2 m4] at hk
  rw [h3, hk]

/-- C66: if neither map has another key with the hash of `k`, and what `transform_with_transformed` does to the entries
    that `k` finds in the two maps keeps one of them (no answer for them is `Transformed` or `Removed`, and they are not
    removed in bulk), then `k` finds in the result what it finds in one of the two maps, at the same address. -/
theorem C66_transform_with_transformed {s s' : Nat} {vs : List (ATrie c K V)} (laws : KeyLaws hash)
    (h : Mem hash s vs) {t u t' : ATrie c K V} (ht : t ∈ vs) (hu : u ∈ vs) {reduce : R → R → R} {e r : R}
    {o : TwtKinds R} {par : Par} {env : (p : Case (K × V) (K × V)) → σ → Option (TwtAnswer K V R p × σ)}
    {st st' : σ} {l : List (Reply _ (TwtAnswer K V R))}
    (hr : (ATrie.twtE reduce e hash o.asking par t u).run s env st = (.ret (((t', r), s'), st'), l))
    {f : (p : Case (K × V) (K × V)) → TwtAnswer K V R p} (hf : Answers f l)
    (tame : (o.answering f).Tame hash t.erase.visit u.erase.visit) {k : K}
    (solo : ∀ a ∈ t.erase.visit, hash a.1 = hash k → (a.1 == k) = true)
    (solo' : ∀ b ∈ u.erase.visit, hash b.1 = hash k → (b.1 == k) = true)
    (ob : ∀ r, o.both ≠ .removed r) (ol : ∀ r, o.left ≠ .removed r) (or : ∀ r, o.right ≠ .removed r)
    (keepL : ∀ a, (a.1 == k) = true → ∀ ans : MapTransformResult V R, ⟨.left a, some ans⟩ ∈ l → ∃ r, ans = .unchanged r)
    (keepR : ∀ b, (b.1 == k) = true → ∀ ans : MapTransformResult V R, ⟨.right b, some ans⟩ ∈ l → ∃ r, ans = .unchanged r)
    (keepB : ∀ a b, (a.1 == k) = true → ∀ ans : MapJointTransformResult V R, ⟨.both a b, some ans⟩ ∈ l →
      ∃ r, ans = .unchangedL r ∨ ans = .unchangedR r ∨ ans = .unchangedLR r) :
    t'.findP hash k = t.findP hash k ∨ t'.findP hash k = u.findP hash k := by
  have reach := h.reach laws t ht
  have reachU := h.reach laws u hu
  have once := C49_transform_with_transformed reduce e o par reach reachU s env st
  have like := (C50_transform_with_transformed laws h ht hu reduce e o par env st).2 f (by rw [hr]; exact hf)
  rw [hr] at once like
  have like : Trie.twt reduce e hash (o.answering f) par t.erase u.erase = .ok (t'.erase, r) := like
  have reach' : Reach c hash t'.erase := .transformWithTransformed reach reachU tame like
  have jn := (CrossLaws.same laws).joinable reach.distinct reachU.distinct
  have only : ∀ q ans, ⟨q, some ans⟩ ∈ l → IsCase (fun a b => a.1 == b.1) t.erase.visit u.erase.visit q := by
    intro q ans hq
    have := once.only q (List.mem_map.2 ⟨_, hq, rfl⟩)
    exact (mem_jointCases jn q).1 (List.mem_filter.1 this).1
  have good : o.asking.Good (fun q ans => ⟨q, some ans⟩ ∈ l) (fun k' => hash k' = hash k) True True := by
    refine ⟨fun k' v l' w hT hT' => ?_, fun k' v l' w hT hT' => ?_, fun k' v hT => ?_, fun l' w hT => ?_⟩
    · cases hb : o.both with
      | generic g fl =>
        simp only [TwtKinds.asking, hb]
        refine Prog.Gives.ask fun ans hans => ?_
        obtain ⟨h1, h2, h3⟩ := only _ _ hans
        obtain ⟨r, rfl | rfl | rfl⟩ := keepB _ _ (solo _ h1 hT) _ hans <;> first | trivial | exact ⟨trivial, trivial⟩
      | unchangedLR r => simp only [TwtKinds.asking, hb]; exact Prog.Gives.pure ⟨trivial, trivial⟩
      | removed r => exact absurd hb (ob r)
      | _ => simp only [TwtKinds.asking, hb]; exact Prog.Gives.pure trivial
    · cases hb : o.both with
      | generic g fl =>
        simp only [TwtKinds.asking, hb]
        refine Prog.Gives.bind (P := MapJointTransformResult.Good True True) (Prog.Gives.ask fun ans hans => ?_)
          fun ans hans => Prog.Gives.pure hans.flip
        obtain ⟨h1, h2, h3⟩ := only _ _ hans
        obtain ⟨r, rfl | rfl | rfl⟩ := keepB _ _ (solo _ h1 hT') _ hans <;> first | trivial | exact ⟨trivial, trivial⟩
      | unchangedLR r => simp only [TwtKinds.asking, hb]; exact Prog.Gives.pure ⟨trivial, trivial⟩
      | removed r => exact absurd hb (ob r)
      | _ => simp only [TwtKinds.asking, hb]; exact Prog.Gives.pure trivial
    · cases hb : o.left with
      | removed r => exact absurd hb (ol r)
      | unchanged r => simp only [TwtKinds.asking, hb]; exact Prog.Gives.pure trivial
      | generic g =>
        simp only [TwtKinds.asking, hb]
        refine Prog.Gives.ask fun ans hans => ?_
        obtain ⟨h1, _⟩ := only _ _ hans
        obtain ⟨r, rfl⟩ := keepL _ (solo _ h1 hT) _ hans; trivial
    · cases hb : o.right with
      | removed r => exact absurd hb (or r)
      | unchanged r => simp only [TwtKinds.asking, hb]; exact Prog.Gives.pure trivial
      | generic g =>
        simp only [TwtKinds.asking, hb]
        refine Prog.Gives.ask fun ans hans => ?_
        obtain ⟨h1, _⟩ := only _ _ hans
        obtain ⟨r, rfl⟩ := keepR _ (solo' _ h1 hT) _ hans; trivial
  have fine := (ATrie.twtE_fine (reduce := reduce) (e := e) (par := par) (U := fun o => o.Sub t.root ∨ o.Sub u.root) good
    (fun _ => (t.self_fine _).mono (fun _ h => h) fun _ h => .inl h)
    (fun _ => (u.self_fine _).mono (fun _ h => h) fun _ h => .inr h)
    (Meets2.of_solo reach reachU solo solo')).run hr fun q a hm => hm
  obtain ⟨ra, h1, h1'⟩ := ATrie.findP_ok reach k
  obtain ⟨rb, h2, h2'⟩ := ATrie.findP_ok reachU k
  obtain ⟨rc, h3, h3'⟩ := ATrie.findP_ok reach' k
  cases rc with
  | some rc =>
    obtain ⟨o', m1, m2, m3, m4⟩ := ATrie.findP_obj h3
    rcases fine o' m1 _ m3 (laws.hash _ _ m4) with hs | hs
    · left; rw [ATrie.findP_of_obj reach hs m3 m4, h3, m2]
    · right; rw [ATrie.findP_of_obj reachU hs m3 m4, h3, m2]
  | none =>
    cases ra with
    | none => left; rw [h1, h3]
    | some ra =>
      cases rb with
      | none => right; rw [h2, h3]
      | some rb =>
        exfalso
        obtain ⟨ham, hak, hfa, _⟩ := ATrie.findP_some reach h1
        obtain ⟨hbm, hbk, hfb, _⟩ := ATrie.findP_some reachU h2
        obtain ⟨en, h5, h6⟩ := C21_transform_with_transformed_partial reach reachU tame reduce e par like k _ _ hfa hfb
        have hc : Case.both ra.2 rb.2 ∈ (Cross.same hash).cases t.erase.visit u.erase.visit :=
          (mem_jointCases jn _).2 ⟨ham, hbm, laws.trans _ _ _ hak (laws.symm _ _ hbk)⟩
        have hen : en = none := by
          rw [ATrie.findP_erase, h3] at h5
          injection h5 with h5
          exact h5.symm
        subst hen
        simp only at h6
        cases hb : o.both with
        | generic g fl =>
          obtain ⟨ans, hans⟩ := once.answer rfl (List.mem_filter.2 ⟨hc, by simp [TwtKinds.asks, hb, MapJointTransform.isClosure]⟩)
          simp only [TwtKinds.answering, hb, MapJointTransform.map, MapJointTransform.Entry, MapJointTransform.closure] at h6
          have h7 := hf _ _ hans
          rw [h7] at h6
          obtain ⟨r, rfl | rfl | rfl⟩ := keepB _ _ hak _ hans <;>
            simp [MapJointTransformResult.Entry] at h6
        | removed r => exact absurd hb (ob r)
        | _ => simp [TwtKinds.answering, hb, MapJointTransform.map, MapJointTransform.Entry] at h6


/-! ## What the conditions leave out, and that they can be met -/

/-- Both maps have an entry of `k`, with the same key and value; is it at the same address? -/
def Ex.movedTo (t t' : ATrie Ex.c8 Ex.Tk Nat) (k : Ex.Tk) : Option Bool :=
  match t.findP Ex.exHash k, t'.findP Ex.exHash k with
  | .ok (some x), .ok (some y) => if x.2 = y.2 then some (decide (x.1 ≠ y.1)) else none
  | _, _ => none

theorem Ex.movedTo_iff {t t' : ATrie Ex.c8 Ex.Tk Nat} {k : Ex.Tk} (h : Ex.movedTo t t' k = some true) :
    ∃ p p' a, t.findP Ex.exHash k = .ok (some (p, a)) ∧ t'.findP Ex.exHash k = .ok (some (p', a)) ∧ p ≠ p' := by
  unfold Ex.movedTo at h
  split at h
  · rename_i x y hx hy
    split at h
    · rename_i e
      injection h with h
      exact ⟨x.1, y.1, x.2, hx, by rw [hy, e], of_decide_eq_true h⟩
    · cases h
  · cases h

/-- Entries of keys that share a hash do move: removing a key, and replacing the value of a key, each put the entry of
    another key with the same hash (unchanged, and still found) at another address. -/
theorem C66_moves : ∃ s vs, Mem Ex.exHash (c := Ex.c8) (V := Nat) s vs ∧ ∃ t ∈ vs,
    (∃ k k' t' e s', t.remove Ex.exHash k s = .ok (some (t', e), s') ∧ (k' == k) = false ∧
      ∃ p p' a, t.findP Ex.exHash k' = .ok (some (p, a)) ∧ t'.findP Ex.exHash k' = .ok (some (p', a)) ∧ p ≠ p') ∧
    (∃ k v k' t' ptr e s', t.insert Ex.exHash k v true s = .ok (.ok (t', ptr, some e), s') ∧ (k' == k) = false ∧
      ∃ p p' a, t.findP Ex.exHash k' = .ok (some (p, a)) ∧ t'.findP Ex.exHash k' = .ok (some (p', a)) ∧ p ≠ p') := by
  obtain ⟨s, vs, mem, h⟩ := exists_mem (c := Ex.c8) (V := Nat) Ex.exHash Ex.entries (fun s vs =>
    match vs[6]? with
    | some t =>
      ((t.remove Ex.exHash ⟨5, 0⟩ s).test fun r => match r.1 with
        | some (t', _) => Ex.movedTo t t' ⟨3, 0⟩ == some true
        | none => false) &&
      ((t.insert Ex.exHash ⟨5, 0⟩ 100 true s).test fun r => match r.1 with
        | .ok (t', _, some _) => Ex.movedTo t t' ⟨3, 0⟩ == some true
        | _ => false)
    | none => false) (by decide +kernel)
  cases ht : vs[6]? with
  | none => rw [ht] at h; cases h
  | some t =>
    rw [ht] at h
    simp only [Bool.and_eq_true, Res.test_iff] at h
    obtain ⟨⟨⟨r, s1⟩, h1, h1'⟩, ⟨⟨r2, s2⟩, h2, h2'⟩⟩ := h
    refine ⟨s, vs, mem, t, List.mem_of_getElem? ht, ?_, ?_⟩
    · cases r with
      | none => cases h1'
      | some x => exact ⟨⟨5, 0⟩, ⟨3, 0⟩, x.1, x.2, s1, h1, by decide, Ex.movedTo_iff (of_decide_eq_true (by simpa using h1'))⟩
    · split at h2'
      · rename_i t' ptr e he
        have he : r2 = _ := he
        subst he
        exact ⟨⟨5, 0⟩, 100, ⟨3, 0⟩, t', ptr, e, s2, h2, by decide, Ex.movedTo_iff (of_decide_eq_true (by simpa using h2'))⟩
      · cases h2'

/-- No key of the map but those equal to `k` has the hash of `k`. -/
def Ex.alone (t : ATrie Ex.c8 Ex.Tk Nat) (k : Ex.Tk) : Bool :=
  t.erase.visit.all fun a => !decide (Ex.exHash a.1 = Ex.exHash k) || a.1 == k

/-- The hypotheses can be met: in the map with the keys 5, 641, 7, 11, 3 and 90, of which 5, 7 and 3 share a hash, a new
    key is inserted and 5 replaced and removed, and 641 and 90 stay in place; a transformation removes 90 and keeps the
    colliding keys, which stay; and the joint operations with the map of the keys 5 and 641 remove 5 and keep 641, which
    stays where it was in the left map, in the right map, or in one of them. -/
example : ∃ s vs, Mem Ex.exHash (c := Ex.c8) (V := Nat) s vs ∧ (
    match vs[6]?, vs[2]? with
    | some t, some u =>
        let stays : List Ex.Tk → ATrie Ex.c8 Ex.Tk Nat → ATrie Ex.c8 Ex.Tk Nat → Bool := fun ks t t' =>
          ks.all fun k => Ex.movedTo t t' k == some false
        let envM : (p : Case (Ex.Tk × Nat) (Ex.Tk × Nat)) → Option (TwmAnswer Ex.Tk Nat Ex.Tk Nat Unit p) := fun p =>
          match p with
          | .left a => some (if a.1.id = 90 then .removed () else .unchanged ())
          | .right _ => none
          | .both a _ => some (if a.1.id = 641 then .unchanged () else .removed ())
        let envW : (p : Case (Ex.Tk × Nat) (Ex.Tk × Nat)) → Option (MwtAnswer Ex.Tk Nat Ex.Tk Nat Unit p) := fun p =>
          match p with
          | .left _ => some (.removed ())
          | .right _ => none
          | .both a _ => some (if a.1.id = 641 then .unchanged () else .removed ())
        let envT : Bool → (p : Case (Ex.Tk × Nat) (Ex.Tk × Nat)) → Option (TwtAnswer Ex.Tk Nat Unit p) := fun b p =>
          match p with
          | .left a => some (if a.1.id = 90 then .removed () else .unchanged ())
          | .right _ => none
          | .both a _ => some (if a.1.id = 641 then (if b then .unchangedL () else .unchangedR ()) else .removed ())
        Ex.alone t ⟨641, 0⟩ && Ex.alone u ⟨641, 0⟩ && Ex.alone t ⟨90, 0⟩ && !Ex.alone t ⟨3, 0⟩ &&
        ((t.insert Ex.exHash ⟨9, 0⟩ 100 false s).test fun r => match r.1 with
          | .ok (t', _, none) => stays [⟨5, 0⟩, ⟨641, 0⟩, ⟨7, 0⟩, ⟨11, 0⟩, ⟨3, 0⟩, ⟨90, 0⟩] t t'
          | _ => false) &&
        ((t.insert Ex.exHash ⟨5, 0⟩ 100 true s).test fun r => match r.1 with
          | .ok (t', _, some _) => stays [⟨641, 0⟩, ⟨11, 0⟩, ⟨90, 0⟩] t t'
          | _ => false) &&
        ((t.remove Ex.exHash ⟨5, 0⟩ s).test fun r => match r.1 with
          | some (t', _) => stays [⟨641, 0⟩, ⟨11, 0⟩, ⟨90, 0⟩] t t'
          | none => false) &&
        Outcome.trie (fun t' _ => stays [⟨5, 0⟩, ⟨7, 0⟩, ⟨3, 0⟩, ⟨641, 0⟩] t t' && !t'.eq t)
          ((t.transformE (fun _ _ => ()) () (.asking (.generic ())) .sequential).run s
            (Prog.stateless fun p => some (if p.1.id = 90 then .removed () else .unchanged ())) ()) &&
        Outcome.trie (fun t' _ => stays [⟨641, 0⟩, ⟨11, 0⟩] t t' && decide (t'.erase.visit.length = 4))
          ((ATrie.twmE (Cross.same Ex.exHash) (fun _ _ => ()) ()
            (TwmKinds.asking ⟨.generic (), .generic (), .generic ()⟩) .sequential t u).run s (Prog.stateless envM) ()) &&
        Outcome.trie (fun t' _ => stays [⟨641, 0⟩] u t' && decide (t'.erase.visit.length = 1))
          ((ATrie.mwtE (Cross.same Ex.exHash) (fun _ _ => ()) ()
            (MwtKinds.asking ⟨.generic (), .generic (), .generic ()⟩) .sequential t u).run s (Prog.stateless envW) ()) &&
        Outcome.trie (fun t' _ => stays [⟨641, 0⟩, ⟨11, 0⟩] t t' && decide (t'.erase.visit.length = 4))
          ((ATrie.twtE (fun _ _ => ()) () Ex.exHash
            (TwtKinds.asking ⟨.generic () false, .generic (), .generic ()⟩) .sequential t u).run s
            (Prog.stateless (envT true)) ()) &&
        Outcome.trie (fun t' _ => stays [⟨641, 0⟩] u t' && stays [⟨11, 0⟩] t t' && decide (t'.erase.visit.length = 4))
          ((ATrie.twtE (fun _ _ => ()) () Ex.exHash
            (TwtKinds.asking ⟨.generic () false, .generic (), .generic ()⟩) .sequential t u).run s
            (Prog.stateless (envT false)) ())
    | _, _ => false) = true :=
  exists_mem Ex.exHash Ex.entries _ (by decide +kernel)

end HT
