import Verif.ArcFind
import Verif.Rc
import Verif.StayInsert
/-! # Lookup and the objects of a map -/
namespace HT
variable {K V : Type}

theorem ALNode.findP_erase (q : K → Bool) (l : ALNode K V) : (l.findP q).map Prod.snd = l.erase.find q := by
  induction l with
  | nextS a k v s z =>
    simp only [ALNode.findP, ALNode.erase, LNode.find, ASNode.findP, ASNode.erase, SNode.find]
    cases q k <;> cases q s.key <;> rfl
  | nextL a k v l z ih =>
    simp only [ALNode.findP, ALNode.erase, LNode.find]
    cases q k
    · exact ih
    · rfl

theorem ASNode.findP_erase (q : K → Bool) (s : ASNode K V) : (s.findP q).map Prod.snd = s.erase.find q := by
  simp only [ASNode.findP, ASNode.erase, SNode.find]
  by_cases h : q s.key = true <;> simp [h]

/-- The lookup in a child. -/
def ANode.findIn {c : Cfg} (q : K → Bool) (m : ANode c.n K V) (f : Flag c) : Res (Option (Nat × K × V)) :=
  match m with
  | .C .. => do
    let nx ← f.next
    m.findP q nx
  | .L l => .ok (l.findP q)
  | .S s => .ok (s.findP q)

theorem ANode.findAllP_eq {c : Cfg} (q : K → Bool) (ms : List (ANode c.n K V)) :
    ANode.findAllP q ms = ms.map (ANode.findIn q) := by
  induction ms with
  | nil => rfl
  | cons m ms ih => rw [ANode.findAllP, ih, List.map_cons]; rfl

theorem ANode.findIn_eq {c : Cfg} (q : K → Bool) (m : ANode c.n K V) (f : Flag c) :
    m.findIn q f = (match m with | .C .. => f.next >>= fun nx => m.findP q nx | _ => m.findP q none) := by
  cases m <;> rw [ANode.findIn] <;> first | rfl | (rw [ANode.findP])

theorem ANode.findP_erase {c : Cfg} (q : K → Bool) (m : ANode c.n K V) (f : Option (Flag c)) :
    m.erase.find c q f = (m.findP q f >>= fun r => .ok (r.map Prod.snd)) := by
  induction m using ANode.ind generalizing f with
  | hS s => rw [ANode.findP, ANode.erase, Node.find, Res.ok_bind, ASNode.findP_erase]
  | hL l => rw [ANode.findP, ANode.erase, Node.find, Res.ok_bind, ALNode.findP_erase]
  | hC a bits values extra ih =>
    rw [ANode.findP, ANode.erase_C, Node.find]
    cases f with
    | none => rfl
    | some f =>
      show (match (Bia.mk bits (Node.findAll c q (values.map ANode.erase)) extra).at' f.flag with
          | .ok run => run f | .error _ => .ok none)
        = ((match (Bia.mk bits (ANode.findAllP q values) extra).at' f.flag with
          | .ok run => run f | .error _ => .ok none) >>= fun r => Res.ok (r.map Prod.snd))
      rw [ANode.findAllP_eq, Node.findAll_eq, List.map_map, Bia.at'_map, Bia.at'_map]
      cases hat : (Bia.mk bits values extra).at' f.flag with
      | error e => rfl
      | ok m =>
        have hm := ih m (Bia.at'_mem hat)
        simp only [Function.comp]
        cases m with
        | S s => exact congrArg Res.ok (ASNode.findP_erase q s).symm
        | L l => exact congrArg Res.ok (ALNode.findP_erase q l).symm
        | C a' bits' values' extra' =>
          rw [ANode.findIn]
          rw [ANode.erase_C] at hm ⊢
          simp only [Bind.bind] at hm ⊢
          cases f.next with
          | ok nx => exact hm nx
          | panic p => rfl
          | diverge => rfl

theorem ALNode.findP_obj {n : Nat} {q : K → Bool} {l : ALNode K V} {r : Nat × K × V} (h : l.findP q = some r) :
    ∃ o : ANode n K V, o.Sub (.L l) ∧ o.addr = r.1 ∧ o.entry = some r.2 ∧ q r.2.1 = true := by
  induction l with
  | nextS a k v s z =>
    rw [ALNode.findP] at h
    split at h
    · injection h with h; subst h; exact ⟨_, .refl _, rfl, rfl, by assumption⟩
    · rw [ASNode.findP] at h
      split at h
      · injection h with h; subst h
        exact ⟨.S s, .kid (.refl _) (by simp [ANode.kids]), rfl, rfl, by assumption⟩
      · cases h
  | nextL a k v l z ih =>
    rw [ALNode.findP] at h
    split at h
    · injection h with h; subst h; exact ⟨_, .refl _, rfl, rfl, by assumption⟩
    · obtain ⟨o, h1, h2⟩ := ih h
      exact ⟨o, .kid h1 (by simp [ANode.kids]), h2⟩

theorem ANode.findP_obj {c : Cfg} {q : K → Bool} {m : ANode c.n K V} {f : Option (Flag c)} {r : Nat × K × V}
    (h : m.findP q f = .ok (some r)) :
    ∃ o : ANode c.n K V, o.Sub m ∧ o.addr = r.1 ∧ o.entry = some r.2 ∧ q r.2.1 = true := by
  induction m using ANode.ind generalizing f with
  | hS s =>
    rw [ANode.findP] at h
    injection h with h
    rw [ASNode.findP] at h
    split at h
    · injection h with h; subst h; exact ⟨_, .refl _, rfl, rfl, by assumption⟩
    · cases h
  | hL l =>
    rw [ANode.findP] at h
    injection h with h
    exact ALNode.findP_obj h
  | hC a bits values extra ih =>
    rw [ANode.findP] at h
    cases f with
    | none => cases h
    | some f =>
      have h : (match (Bia.mk bits (ANode.findAllP q values) extra).at' f.flag with
          | .ok run => run f | .error _ => .ok none) = .ok (some r) := h
      rw [ANode.findAllP_eq, Bia.at'_map] at h
      cases hat : (Bia.mk bits values extra).at' f.flag with
      | error e => rw [hat] at h; cases h
      | ok m =>
        rw [hat] at h
        have h : m.findIn q f = .ok (some r) := h
        have hm := Bia.at'_mem hat
        rw [ANode.findIn_eq] at h
        have ⟨f', hf⟩ : ∃ f', m.findP q f' = .ok (some r) := by
          cases m with
          | S s => exact ⟨_, h⟩
          | L s => exact ⟨_, h⟩
          | C a' b' v' e' =>
            obtain ⟨nx, _, h⟩ := Res.bind_eq_ok.1 h
            exact ⟨_, h⟩
        obtain ⟨o, h1, h2⟩ := ih m hm hf
        exact ⟨o, .kid h1 hm, h2⟩

/-! ### Objects and entries -/

theorem ANode.erase_visit {n : Nat} (m : ANode n K V) :
    m.erase.visit = m.entry.toList ++ m.kids.flatMap fun o => o.erase.visit := by
  cases m with
  | S s => simp [ANode.erase, Node.visit, SNode.visit, ANode.entry, ANode.kids, ASNode.erase]
  | L l =>
    cases l <;> simp [ANode.erase, Node.visit, LNode.visit, ANode.entry, ANode.kids, ALNode.erase, ALNode.key, ALNode.value,
      SNode.visit, ASNode.erase]
  | C a bits values extra =>
    rw [ANode.erase_C, Node.visit, Node.visitAll_eq, List.flatMap_map]
    rfl

theorem ANode.Sub.entry_mem {n : Nat} {o m : ANode n K V} (h : o.Sub m) {e : K × V} (he : o.entry = some e) :
    e ∈ m.erase.visit := by
  induction h with
  | refl => rw [ANode.erase_visit, he]; simp
  | kid _ hk ih =>
    rw [ANode.erase_visit]
    exact List.mem_append.2 (.inr (List.mem_flatMap.2 ⟨_, hk, ih⟩))

theorem ANode.entry_sub {n : Nat} {m : ANode n K V} {e : K × V} (h : e ∈ m.erase.visit) :
    ∃ o : ANode n K V, o.Sub m ∧ o.entry = some e := by
  induction m using ANode.indKids with
  | h m ih =>
    rw [ANode.erase_visit] at h
    rcases List.mem_append.1 h with h | h
    · exact ⟨m, .refl _, by simpa using h⟩
    · obtain ⟨k, hk, h⟩ := List.mem_flatMap.1 h
      obtain ⟨o, h1, h2⟩ := ih k hk h
      exact ⟨o, .kid h1 hk, h2⟩

theorem ANode.entry_inj {n : Nat} [BEq K] (symm : ∀ x y : K, (x == y) = true → (y == x) = true) {m : ANode n K V}
    (hd : DistinctKeys m.erase.visit) {o o' : ANode n K V} (h : o.Sub m) (h' : o'.Sub m) {e e' : K × V}
    (he : o.entry = some e) (he' : o'.entry = some e') (hk : (e.1 == e'.1) = true) : o = o' := by
  induction m using ANode.indKids with
  | h m ih =>
    rw [ANode.erase_visit] at hd
    obtain ⟨d1, d2, d3⟩ := List.pairwise_append.1 hd
    obtain ⟨d4, d5⟩ := List.pairwise_flatMap.1 d2
    rcases h.cases' with rfl | ⟨k1, hk1, h1⟩ <;> rcases h'.cases' with e0 | ⟨k2, hk2, h2⟩
    · exact e0.symm
    · have := d3 e (by simp [he]) e' (List.mem_flatMap.2 ⟨k2, hk2, h2.entry_mem he'⟩)
      rw [hk] at this; cases this
    · subst e0
      have := d3 e' (by simp [he']) e (List.mem_flatMap.2 ⟨k1, hk1, h1.entry_mem he⟩)
      rw [symm _ _ hk] at this; cases this
    · by_cases hkk : k1 = k2
      · subst hkk
        exact ih k1 hk1 (d4 k1 hk1) h1 h2
      · have hp : (∀ x ∈ k1.erase.visit, ∀ y ∈ k2.erase.visit, (x.1 == y.1) = false) ∨
            (∀ x ∈ k2.erase.visit, ∀ y ∈ k1.erase.visit, (x.1 == y.1) = false) := by
          obtain ⟨i, hi, rfl⟩ := List.getElem_of_mem hk1
          obtain ⟨j, hj, rfl⟩ := List.getElem_of_mem hk2
          rcases Nat.lt_trichotomy i j with h | h | h
          · exact .inl (List.pairwise_iff_getElem.1 d5 i j hi hj h)
          · subst h; exact absurd rfl hkk
          · exact .inr (List.pairwise_iff_getElem.1 d5 j i hj hi h)
        rcases hp with hp | hp
        · have := hp e (h1.entry_mem he) e' (h2.entry_mem he')
          rw [hk] at this; cases this
        · have := hp e' (h2.entry_mem he') e (h1.entry_mem he)
          rw [symm _ _ hk] at this; cases this

/-! ### Lookup in maps in memory -/

variable {c : Cfg} [BEq K] {hash : K → BitVec c.w}

theorem ATrie.findP_erase (t : ATrie c K V) (k : K) :
    t.erase.find hash k = (t.findP hash k >>= fun r => .ok (r.map Prod.snd)) := by
  unfold Trie.find Trie.findQ ATrie.findP
  cases Flag.new (hash k) with
  | ok f => exact ANode.findP_erase _ _ _
  | panic p => rfl
  | diverge => rfl

theorem ATrie.findP_obj {t : ATrie c K V} {k : K} {r : Nat × K × V} (h : t.findP hash k = .ok (some r)) :
    ∃ o : ANode c.n K V, o.Sub t.root ∧ o.addr = r.1 ∧ o.entry = some r.2 ∧ (r.2.1 == k) = true := by
  obtain ⟨f, _, h⟩ := Res.bind_eq_ok.1 h
  exact ANode.findP_obj h

/-- Lookup in a reachable map returns. -/
theorem ATrie.findP_ok {t : ATrie c K V} (h : Reach c hash t.erase) (k : K) :
    ∃ r, t.findP hash k = .ok r ∧ r.map Prod.snd = t.erase.visit.find? fun e => e.1 == k := by
  have h1 := h.find k
  rw [ATrie.findP_erase] at h1
  obtain ⟨r, h2, h3⟩ := Res.bind_eq_ok.1 h1
  exact ⟨r, h2, by injection h3⟩

/-- What lookup finds is the object with a key equal to the one sought. -/
theorem ATrie.findP_of_obj {t : ATrie c K V} (h : Reach c hash t.erase) {k : K} {o : ANode c.n K V} (ho : o.Sub t.root)
    {e : K × V} (he : o.entry = some e) (hk : (e.1 == k) = true) : t.findP hash k = .ok (some (o.addr, e)) := by
  obtain ⟨r, h1, h2⟩ := ATrie.findP_ok h k
  cases r with
  | none =>
    have := List.find?_eq_none.1 h2.symm e (ho.entry_mem he)
    exact absurd hk this
  | some r =>
    obtain ⟨o', h3, h4, h5, h6⟩ := ATrie.findP_obj h1
    have laws := h.laws
    have := ANode.entry_inj laws.symm h.distinct h3 ho h5 he (laws.trans _ _ _ h6 (laws.symm _ _ hk))
    subst this
    rw [he] at h5
    injection h5 with h5
    rw [h1, h4, h5]

/-- Where the objects with keys in `T` are objects of `t`, lookups of such keys that find the same entry find it at the
    same place. -/
theorem ATrie.findP_fine {t t' : ATrie c K V} (h : Reach c hash t.erase) (h' : Reach c hash t'.erase) {T : K → Prop}
    (hf : t'.root.Fine T fun o => o.Sub t.root) {k : K} (hT : ∀ k', (k' == k) = true → T k')
    (hfind : t'.erase.find hash k = t.erase.find hash k) : t'.findP hash k = t.findP hash k := by
  obtain ⟨r', h1', h2'⟩ := ATrie.findP_ok h' k
  cases r' with
  | some r' =>
    obtain ⟨o, h3, h4, h5, h6⟩ := ATrie.findP_obj h1'
    have := hf o h3 _ h5 (hT _ h6)
    rw [ATrie.findP_of_obj h this h5 h6, h1', h4]
  | none =>
    obtain ⟨r, h1, h2⟩ := ATrie.findP_ok h k
    rw [ATrie.findP_erase, ATrie.findP_erase, h1, h1'] at hfind
    cases r with
    | none => rw [h1, h1']
    | some r => simp only [Res.ok_bind] at hfind; injection hfind with hfind; cases hfind

end HT
