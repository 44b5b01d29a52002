import Verif.StayFind
import Verif.EffMem
import Verif.GrownLemmas
/-! # Where the objects of a result come from: maps -/
namespace HT
variable {K V L W R σ : Type} {c : Cfg} {Q : Type} {A : Q → Type} {G : (q : Q) → A q → Prop}

/-! ### What the invariant says of the objects -/

section
variable [BEq K] {hash : K → BitVec c.w}

theorem ANode.whole {mx d : Nat} {m : ANode c.n K V} (h : m.erase.WF hash mx d) : m.Whole := by
  induction m using ANode.ind generalizing d with
  | hS s =>
    intro a bits vs z hs
    rcases hs.cases' with e | ⟨k, hk, _⟩
    · cases e
    · simp [ANode.kids] at hk
  | hL l =>
    clear h
    intro a bits vs z hs
    induction l with
    | nextS a' k v s y =>
      rcases hs.cases' with e | ⟨k, hk, hs⟩
      · cases e
      · simp only [ANode.kids, List.mem_singleton] at hk
        subst hk
        rcases hs.cases' with e | ⟨k, hk, _⟩
        · cases e
        · simp [ANode.kids] at hk
    | nextL a' k v l y ih =>
      rcases hs.cases' with e | ⟨k, hk, hs⟩
      · cases e
      · simp only [ANode.kids, List.mem_singleton] at hk
        subst hk
        exact ih hs
  | hC a bits values extra ih =>
    rw [ANode.erase_C] at h
    cases h with
    | C _ _ _ _ hd ok sz ne at_ sub =>
      have ok' : (Bia.mk bits values extra).Ok := by
        unfold Bia.Ok at ok ⊢
        simpa using ok
      intro a' bits' vs' z' hs
      rcases hs.cases' with e | ⟨k, hk, hs⟩
      · cases e; exact ok'
      · obtain ⟨i, hi⟩ := Bia.mem_slot ok' hk
        exact ih k hk (sub i k.erase (by rw [Bia.slot_map, hi]; rfl)) a' bits' vs' z' hs

/-- A collision list: one hash, different keys. -/
theorem ANode.list_wf {mx d : Nat} {m : ANode c.n K V} (h : m.erase.WF hash mx d) {l : ALNode K V}
    (hl : (ANode.L l).Sub m) : (∀ e ∈ l.erase.visit, hash e.1 = hash l.key) ∧ DistinctKeys l.erase.visit := by
  induction m using ANode.ind generalizing d with
  | hS s =>
    rcases hl.cases' with e | ⟨k, hk, _⟩
    · cases e
    · simp [ANode.kids] at hk
  | hL l' =>
    rw [ANode.erase] at h
    have hw : (∀ e ∈ l'.erase.visit, hash e.1 = hash l'.key) ∧ DistinctKeys l'.erase.visit := by
      cases h with
      | L _ _ h => exact ⟨fun e he => by rw [h.hash e he, ALNode.erase_key], h.keys⟩
    clear h
    induction l' with
    | nextS a' k v s y =>
      rcases hl.cases' with e | ⟨k, hk, hs⟩
      · cases e; exact hw
      · simp only [ANode.kids, List.mem_singleton] at hk
        subst hk
        rcases hs.cases' with e | ⟨k, hk, _⟩
        · cases e
        · simp [ANode.kids] at hk
    | nextL a' k v l1 y ih =>
      rcases hl.cases' with e | ⟨k, hk, hs⟩
      · cases e; exact hw
      · simp only [ANode.kids, List.mem_singleton] at hk
        subst hk
        simp only [ALNode.erase, LNode.visit] at hw
        refine ih hs ⟨fun e he => ?_, hw.2.of_cons⟩
        rw [hw.1 e (List.mem_cons_of_mem _ he)]
        refine (hw.1 (l1.key, l1.value) (List.mem_cons_of_mem _ ?_)).symm
        cases l1 <;> simp [ALNode.erase, LNode.visit, ALNode.key, ALNode.value]
  | hC a bits values extra ih =>
    rw [ANode.erase_C] at h
    cases h with
    | C _ _ _ _ hd ok sz ne at_ sub =>
      have ok' : (Bia.mk bits values extra).Ok := by
        unfold Bia.Ok at ok ⊢
        simpa using ok
      rcases hl.cases' with e | ⟨k, hk, hs⟩
      · cases e
      · obtain ⟨i, hi⟩ := Bia.mem_slot ok' hk
        exact ih k hk (sub i k.erase (by rw [Bia.slot_map, hi]; rfl)) hs

/-- A collision list has the keys of one hash. -/
theorem ANode.loose_or {mx d : Nat} {m : ANode c.n K V} (h : m.erase.WF hash mx d) (hv : BitVec c.w) {l : ALNode K V}
    (hl : (ANode.L l).Sub m) :
    (ANode.L l : ANode c.n K V).Loose (fun k => hash k = hv) ∨ ∀ e ∈ l.erase.visit, hash e.1 = hv := by
  have hw := (ANode.list_wf h hl).1
  by_cases hk : hash l.key = hv
  · exact .inr fun e he => (hw e he).trans hk
  · refine .inl fun o ho e he ht => hk ?_
    rw [← hw e (ho.entry_mem he)]; exact ht

/-- Two entries of a collision list. -/
theorem ALNode.two (l : ALNode K V) : ∃ a b rest, l.erase.visit = a :: b :: rest := by
  cases l with
  | nextS a k v s z => exact ⟨_, _, [], rfl⟩
  | nextL a k v l z =>
    cases l with
    | nextS a k v s z => exact ⟨_, _, _, rfl⟩
    | nextL a k v l z => exact ⟨_, _, _, rfl⟩

/-- If all keys of a hash are equal, no collision list has that hash. -/
theorem ANode.thin {mx d : Nat} {m : ANode c.n K V} (h : m.erase.WF hash mx d) {hv : BitVec c.w}
    (solo : ∀ a ∈ m.erase.visit, ∀ b ∈ m.erase.visit, hash a.1 = hv → hash b.1 = hv → (a.1 == b.1) = true) :
    m.Thin fun k => hash k = hv := by
  intro l hl
  refine (ANode.loose_or h hv hl).resolve_right fun hall => ?_
  obtain ⟨a, b, rest, e⟩ := l.two
  have hd := (ANode.list_wf h hl).2
  have mem : ∀ x ∈ l.erase.visit, x ∈ m.erase.visit := by
    intro x hx
    obtain ⟨o, h1, h2⟩ := ANode.entry_sub (m := .L l) (n := c.n) hx
    exact (h1.trans hl).entry_mem h2
  rw [e] at hd hall mem
  have h1 := (List.pairwise_cons.1 hd).1 b (by simp)
  have h2 := solo a (mem a (by simp)) b (mem b (by simp)) (hall a (by simp)) (hall b (by simp))
  rw [h1] at h2; cases h2

end

/-! ### Maps -/

theorem ATrie.new_gives (T : K → Prop) (U : ANode c.n K V → Prop) :
    (ATrie.new c : Al (ATrie c K V)).Gives fun t => t.root.Fine T U := by
  refine Al.Gives.bind (P := fun m => m.Fine T U) ?_ fun m hm => Al.Gives.pure hm
  exact ANode.ofBia_gives (by simp [Bia.default])

theorem ATrie.self_fine (t : ATrie c K V) (T : K → Prop) : t.root.Fine T fun o => o.Sub t.root :=
  fun o ho _ _ _ => ho

section
variable [BEq K] {hash : K → BitVec c.w}

theorem ATrie.insert_fine {t t' : ATrie c K V} {T : K → Prop} {k : K} (hk : ¬T k) {v : V} {replace : Bool} {P : Prop}
    (hP : P → t.root.Parted (· == k) T) {s s' ptr : Nat} {prev : Option (K × V)}
    (hr : t.insert hash k v replace s = .ok (.ok (t', ptr, prev), s')) (hp : prev = none ∨ P) :
    t'.root.Fine T fun o => o.Sub t.root := by
  have key : (t.insert hash k v replace).Gives fun r => ∀ t' ptr prev, r = .ok (t', ptr, prev) → (prev = none ∨ P) →
      t'.root.Fine T fun o => o.Sub t.root := by
    refine Al.Gives.bindLift fun f _ => ?_
    refine Al.Gives.bind (ANode.insert_gives hk v replace t.root (some f) (t.self_fine T) hP) fun r hr => ?_
    cases r with
    | found k0 v0 => exact Al.Gives.pure fun _ _ _ h => (by cases h)
    | inserted m ptr prev =>
      refine Al.Gives.pure fun t' ptr' prev' h hp => ?_
      injection h with h; injection h with h1 h2; injection h2 with h2 h3
      subst h1 h2 h3
      exact hr hp
  exact key s _ s' hr t' ptr prev rfl hp

theorem ATrie.remove_fine {t t' : ATrie c K V} {T : K → Prop} {k : K} (hP : t.root.Parted (· == k) T) {s s' : Nat}
    {e : K × V} (hr : t.remove hash k s = .ok (some (t', e), s')) : t'.root.Fine T fun o => o.Sub t.root := by
  have key : (t.remove hash k).Gives fun r => ∀ t' e, r = some (t', e) → t'.root.Fine T fun o => o.Sub t.root := by
    refine Al.Gives.bindLift fun f _ => ?_
    refine Al.Gives.bind (ANode.remove_gives t.root (some f) (t.self_fine T) hP) fun r hr => ?_
    cases r with
    | notFound => exact Al.Gives.pure fun _ _ h => (by cases h)
    | removed m k v =>
      refine Al.Gives.pure fun t' e h => ?_
      injection h with h; injection h with h1 h2
      subst h1
      exact hr
    | removedZ k v =>
      refine Al.Gives.bind (ATrie.new_gives T fun o => o.Sub t.root) fun t0 h0 => Al.Gives.pure fun t' e h => ?_
      injection h with h; injection h with h1 h2
      subst h1
      exact h0
  exact key s _ s' hr t' e rfl

end

/-- What a bulk operation on maps makes of a result on nodes. -/
theorem ATrie.result_fine {T : K → Prop} {U : ANode c.n K V → Prop} {t : ATrie c K V} {x : Prog Q A (TRes (ANode c.n K V) R)}
    (h : x.Gives G (TRes.Fine (ANode.Fine T U) (t.root.Fine T U))) :
    (x >>= fun res => match res with
      | .unchanged r => pure (t.clone, r)
      | .node m r => pure (⟨m⟩, r)
      | .removed r => do
        let t' ← Prog.al (ATrie.new c)
        pure (t', r) : Prog Q A (ATrie c K V × R)).Gives G fun p => p.1.root.Fine T U := by
  refine Prog.Gives.bind h fun res hr => ?_
  cases res with
  | unchanged r => exact Prog.Gives.pure hr
  | node m r => exact Prog.Gives.pure hr
  | removed r => exact Prog.Gives.bind (Prog.Gives.al (ATrie.new_gives T U)) fun t' ht' => Prog.Gives.pure ht'

theorem ATrie.transformE_fine {reduce : R → R → R} {e : R}
    {op : MapTransform R (K → V → Prog Q A (MapTransformResult V R))} {par : Par} {T : K → Prop} {t : ATrie c K V}
    (ho : op.Good G T True) (hw : t.root.Whole) (hl : t.root.Lists G T (fun o => o.Sub t.root) op) :
    (t.transformE reduce e op par).Gives G fun p => p.1.root.Fine T fun o => o.Sub t.root :=
  ATrie.result_fine (ANode.transformE_gives reduce e ho par t.root (fun _ => t.self_fine T) hw hl)

theorem ATrie.twmE_fine {x : Cross c K L} {reduce : R → R → R} {e : R} {ops : TwmOpsM Q A K V L W R} {par : Par}
    {T : K → Prop} {t : ATrie c K V} {u : ATrie c L W} (ho : ops.Good G T True) (hM : Meets x T t.root u.root) :
    (ATrie.twmE x reduce e ops par t u).Gives G fun p => p.1.root.Fine T fun o => o.Sub t.root :=
  ATrie.result_fine (ANode.twm_gives x reduce e ho par t.root u.root 0 (t.self_fine T) hM)

theorem ATrie.mwtE_fine {x : Cross c K L} {reduce : R → R → R} {e : R} {ops : MwtOpsM Q A K V L W R} {par : Par}
    {T : L → Prop} {t : ATrie c K V} {u : ATrie c L W} (ho : ops.Good G T True) (hM : Meets x.flip T u.root t.root) :
    (ATrie.mwtE x reduce e ops par t u).Gives G fun p => p.1.root.Fine T fun o => o.Sub u.root :=
  ATrie.result_fine (ANode.mwt_gives x reduce e ho par t.root u.root 0 (u.self_fine T) hM)

theorem ATrie.twtE_fine [BEq K] {hash : K → BitVec c.w} {reduce : R → R → R} {e : R} {ops : TwtOpsM Q A K V R} {par : Par}
    {T : K → Prop} {left right : Prop} {U : ANode c.n K V → Prop} {t u : ATrie c K V} (ho : ops.Good G T left right)
    (hl : left → t.root.Fine T U) (hr : right → u.root.Fine T U) (hM : Meets2 hash T t.root u.root) :
    (ATrie.twtE reduce e hash ops par t u).Gives G fun p => p.1.root.Fine T U := by
  refine Prog.Gives.bind (ANode.twt_gives reduce e par ho t.root u.root 0 hl hr hM) fun res hr => ?_
  cases res with
  | unchangedLR r => exact Prog.Gives.pure hr.1
  | unchangedL r => exact Prog.Gives.pure hr
  | unchangedR r => exact Prog.Gives.pure hr
  | node m r => exact Prog.Gives.pure hr
  | removed r => exact Prog.Gives.bind (Prog.Gives.al (ATrie.new_gives T U)) fun t' ht' => Prog.Gives.pure ht'

/-! ### Maps that meet at one key -/

section
variable [BEq K] [BEq L] {x : Cross c K L}

theorem Meets.of_solo (laws : CrossLaws x) {t : ATrie c K V} {u : ATrie c L W} (ht : Reach c x.hash t.erase)
    (hu : Reach c x.hash' u.erase) {k : K} (solo : ∀ a ∈ t.erase.visit, x.hash a.1 = x.hash k → (a.1 == k) = true)
    (solo' : ∀ b ∈ u.erase.visit, x.hash' b.1 = x.hash k → x.eq k b.1 = true) :
    Meets x (fun k' => x.hash k' = x.hash k) t.root u.root where
  whole := ANode.whole ht.valid
  thin := ANode.thin ht.valid fun a ha b hb h1 h2 =>
    laws.left.trans _ _ _ (solo a ha h1) (laws.left.symm _ _ (solo b hb h2))
  apart := by
    intro r hr k' hk' he
    have thin : u.root.Thin fun l => x.hash' l = x.hash k := ANode.thin hu.valid fun a ha b hb h1 h2 =>
      laws.uniqR k _ _ (solo' a ha h1) (solo' b hb h2)
    exact (thin r hr).key (he.symm.trans hk')
  hit := by
    intro s r hs hr hk' he
    have h1 := solo (s.key, s.value) (hs.entry_mem rfl) hk'
    have h2 := solo' (r.key, r.value) (hr.entry_mem rfl) (he.symm.trans hk')
    have h3 := laws.congL _ _ _ (laws.left.symm _ _ h1) h2
    exact ⟨h3, by rw [laws.sym]; exact h3⟩

theorem Meets2.of_solo {hash : K → BitVec c.w} {t u : ATrie c K V} (ht : Reach c hash t.erase)
    (hu : Reach c hash u.erase) {k : K} (solo : ∀ a ∈ t.erase.visit, hash a.1 = hash k → (a.1 == k) = true)
    (solo' : ∀ b ∈ u.erase.visit, hash b.1 = hash k → (b.1 == k) = true) :
    Meets2 hash (fun k' => hash k' = hash k) t.root u.root where
  whole := ANode.whole ht.valid
  whole' := ANode.whole hu.valid
  thin := ANode.thin ht.valid fun a ha b hb h1 h2 =>
    ht.laws.trans _ _ _ (solo a ha h1) (ht.laws.symm _ _ (solo b hb h2))
  thin' := ANode.thin hu.valid fun a ha b hb h1 h2 =>
    ht.laws.trans _ _ _ (solo' a ha h1) (ht.laws.symm _ _ (solo' b hb h2))
  hit := by
    intro s r hs hr hk' he
    have h1 := solo (s.key, s.value) (hs.entry_mem rfl) hk'
    have h2 := solo' (r.key, r.value) (hr.entry_mem rfl) (he.symm.trans hk')
    have h3 := ht.laws.trans _ _ _ h1 (ht.laws.symm _ _ h2)
    exact ⟨h3, ht.laws.symm _ _ h3⟩
  same := fun a b h => by simp only [h]
  law := ht.laws.hash

omit [BEq L] in
/-- An entry of the result with a key in `T` is found at an object of `U`. -/
theorem ATrie.findP_kept {hash : K → BitVec c.w} {t' : ATrie c K V} (reach' : Reach c hash t'.erase) {T : K → Prop}
    {U : ANode c.n K V → Prop} (fine : t'.root.Fine T U) {k : K} {e : K × V} (he : e ∈ t'.erase.visit)
    (hk : (e.1 == k) = true) (hT : T e.1) :
    ∃ o, U o ∧ o.entry = some e ∧ t'.findP hash k = .ok (some (o.addr, e)) := by
  obtain ⟨o, h1, h2⟩ := ANode.entry_sub he
  exact ⟨o, fine o h1 e h2 hT, h2, ATrie.findP_of_obj reach' h1 h2 hk⟩

omit [BEq L] [BEq K] in
theorem exists_case {x : Cross c K L} {as : List (K × V)} {bs : List (L × W)} {a : K × V} (ha : a ∈ as) :
    Case.left a ∈ x.cases as bs ∨ ∃ b, Case.both a b ∈ x.cases as bs := by
  unfold Cross.cases jointCases
  cases hf : bs.find? (fun b => x.eq a.1 b.1) with
  | none => exact .inl (List.mem_append.2 (.inl (List.mem_map.2 ⟨a, ha, by rw [hf]⟩)))
  | some b => exact .inr ⟨b, List.mem_append.2 (.inl (List.mem_map.2 ⟨a, ha, by rw [hf]⟩))⟩

end
end HT
