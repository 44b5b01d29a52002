import Verif.TrieLemmas
import Verif.History
/-! # Histories refine the specification -/
namespace HT

variable {α β : Type}

theorem Pointwise.get? {R : α → β → Prop} {as : List α} {bs : List β} (h : Pointwise R as bs) (i : Nat) :
    (as[i]? = none ∧ bs[i]? = none) ∨ ∃ a b, as[i]? = some a ∧ bs[i]? = some b ∧ R a b := by
  induction as generalizing bs i with
  | nil => cases bs with
    | nil => left; simp
    | cons b bs => exact h.elim
  | cons a as ih => cases bs with
    | nil => exact h.elim
    | cons b bs =>
      cases i with
      | zero => right; exact ⟨a, b, rfl, rfl, h.1⟩
      | succ i => simpa using ih h.2 i

theorem Pointwise.append {R : α → β → Prop} {as : List α} {bs : List β} (h : Pointwise R as bs)
    {a : α} {b : β} (h' : R a b) : Pointwise R (as ++ [a]) (bs ++ [b]) := by
  induction as generalizing bs with
  | nil => cases bs with
    | nil => exact ⟨h', trivial⟩
    | cons b bs => exact h.elim
  | cons a as ih => cases bs with
    | nil => exact h.elim
    | cons b bs => exact ⟨h.1, ih h.2⟩

variable {K V : Type} [BEq K] {c : Cfg} {hash : K → BitVec c.w}

theorem Query.no_other {q : K → Bool} {h : BitVec c.w} (hq : Query hash q h) {l : List (K × V)}
    (hd : DistinctKeys l) {e : K × V} : l.find? (fun e => q e.1) = some e ↔ e ∈ l ∧ q e.1 = true := by
  constructor
  · intro h
    exact ⟨List.mem_of_find?_eq_some h, by simpa using List.find?_some h⟩
  · intro ⟨hm, hqe⟩
    induction l with
    | nil => simp at hm
    | cons a l ih =>
      rw [List.find?_cons]
      cases hqa : q a.1 with
      | true =>
        rcases List.mem_cons.1 hm with h | h
        · rw [h]
        · have := List.rel_of_pairwise_cons hd h
          rw [← hq.cls _ _ hqa, hqe] at this
          simp at this
      | false =>
        rcases List.mem_cons.1 hm with h | h
        · rw [h, hqa] at hqe; simp at hqe
        · exact ih (List.Pairwise.of_cons hd) h

theorem find?_perm {q : K → Bool} {h : BitVec c.w} (hq : Query hash q h) {l l' : List (K × V)}
    (hd : DistinctKeys l) (hd' : DistinctKeys l') (hp : l.Perm l') :
    l.find? (fun e => q e.1) = l'.find? (fun e => q e.1) := by
  apply Option.ext
  intro e
  rw [hq.no_other hd, hq.no_other hd', hp.mem_iff]

theorem DistinctKeys.perm [EquivBEq K] {l l' : List (K × V)} (hd : DistinctKeys l) (hp : l.Perm l') :
    DistinctKeys l' :=
  (hp.pairwise_iff (fun {a b} h => by rw [BEq.comm]; exact h)).1 hd

/-- A trie represents an abstract map. -/
structure Rep (hash : K → BitVec c.w) (mx : Nat) (P : K → Prop) (t : Trie c K V) (m : AMap K V) :
    Prop where
  valid : t.ValidAt hash mx
  perm : t.visit.Perm m
  keys : ∀ e ∈ m, P e.1

/-- The keys a call mentions. -/
def Op.KeyIn (P : K → Prop) : Op K V → Prop
  | .insert _ k _ _ => P k
  | .remove _ k => P k
  | .find _ k => P k
  | _ => True

variable [EquivBEq K]

theorem Rep.find_eq {mx : Nat} {P : K → Prop} (hh : HashOk hash) {t : Trie c K V} {m : AMap K V}
    (r : Rep hash mx P t m) (k : K) : t.visit.find? (fun e => e.1 == k) = m.find k :=
  find?_perm (Query.ofKey hash hh k) (r.valid.distinct hh) ((r.valid.distinct hh).perm r.perm) r.perm

theorem step_spec {mx : Nat} {P : K → Prop} (pos : 0 < mx) (lim : ∀ d, d < mx → d * c.b < c.w)
    (hh : HashOk hash) (sep : ∀ k1 k2, P k1 → P k2 → Agree c mx (hash k1) (hash k2) → hash k1 = hash k2)
    (np : c.checked = false ∨ mx * c.b < c.w)
    (ts : List (Trie c K V)) (ms : List (AMap K V)) (hr : Pointwise (Rep hash mx P) ts ms)
    (op : Op K V) (hop : op.KeyIn P) :
    ∃ o ts', Trie.step hash ts op = .ok (o, ts') ∧ o.Same (AMap.step ms op).1 ∧
      Pointwise (Rep hash mx P) ts' (AMap.step ms op).2 := by
  have np' : ¬ (c.checked = true ∧ c.w ≤ mx * c.b) := by
    rcases np with h | h
    · simp [h]
    · omega
  cases op with
  | insert src k v replace =>
    simp only [Trie.step, AMap.step]
    rcases hr.get? src with ⟨h1, h2⟩ | ⟨t, m, h1, h2, h3⟩
    · rw [h1, h2]; exact ⟨_, _, rfl, rfl, hr⟩
    · rw [h1, h2]
      simp only
      have hf := h3.find_eq hh k
      have hpf := h3.perm.filter (fun e => !(e.1 == k))
      rcases Trie.insertQ_spec lim hh h3.valid v replace (Query.ofKey hash hh k) (BEq.rfl (a := k))
        (fun e he => sep _ _ (h3.keys e (h3.perm.mem_iff.1 he)) hop) with ⟨r, hr', good⟩ | ⟨a, b, _⟩
      · rw [Trie.insert, hr']
        simp only [Res.ok_bind]
        cases good with
        | err e g1 g2 =>
          rw [hf] at g2
          simp only [AMap.insert, g2, g1]
          exact ⟨_, _, rfl, rfl, hr⟩
        | ok t' prev g1 g2 g3 g4 =>
          rw [hf] at g1
          have : AMap.insert m k v replace = .ok ((k, v) :: m.without k, prev) := by
            unfold AMap.insert
            rw [← g1]
            cases replace with
            | true => cases prev <;> rfl
            | false => rw [g2 rfl]
          rw [this]
          refine ⟨_, _, rfl, rfl, hr.append ⟨g3, g4.trans (List.Perm.cons _ hpf), ?_⟩⟩
          intro e he
          rcases List.mem_cons.1 he with he | he
          · rw [he]; exact hop
          · exact h3.keys e (List.mem_filter.1 he).1
      · exact absurd ⟨a, b⟩ np'
  | remove src k =>
    simp only [Trie.step, AMap.step]
    rcases hr.get? src with ⟨h1, h2⟩ | ⟨t, m, h1, h2, h3⟩
    · rw [h1, h2]; exact ⟨_, _, rfl, rfl, hr⟩
    · rw [h1, h2]
      simp only
      have hf := h3.find_eq hh k
      have hpf := h3.perm.filter (fun e => !(e.1 == k))
      rcases Trie.removeQ_spec pos lim hh h3.valid (Query.ofKey hash hh k) with
        ⟨r, hr', good⟩ | ⟨a, b, _⟩
      · rw [Trie.remove, hr']
        simp only [Res.ok_bind]
        cases good with
        | none g1 =>
          rw [hf] at g1
          simp only [AMap.remove, g1]
          exact ⟨_, _, rfl, rfl, hr⟩
        | some t' e g1 g2 g3 =>
          rw [hf] at g1
          simp only [AMap.remove, g1]
          refine ⟨_, _, rfl, rfl, hr.append ⟨g2, ?_, ?_⟩⟩
          · rw [g3]; exact hpf
          · intro e he
            exact h3.keys e (List.mem_filter.1 he).1
      · exact absurd ⟨a, b⟩ np'
  | find src k =>
    simp only [Trie.step, AMap.step]
    rcases hr.get? src with ⟨h1, h2⟩ | ⟨t, m, h1, h2, h3⟩
    · rw [h1, h2]; exact ⟨_, _, rfl, rfl, hr⟩
    · rw [h1, h2]
      simp only [Trie.find, Trie.findQ_eq lim h3.valid (Query.ofKey hash hh k), Res.ok_bind]
      rw [h3.find_eq hh k]
      cases m.find k <;> exact ⟨_, _, rfl, rfl, hr⟩
  | size src =>
    simp only [Trie.step, AMap.step]
    rcases hr.get? src with ⟨h1, h2⟩ | ⟨t, m, h1, h2, h3⟩
    · rw [h1, h2]; exact ⟨_, _, rfl, rfl, hr⟩
    · rw [h1, h2]
      simp only
      rw [h3.valid.size_eq, h3.perm.length_eq]
      exact ⟨_, _, rfl, rfl, hr⟩
  | visit src =>
    simp only [Trie.step, AMap.step]
    rcases hr.get? src with ⟨h1, h2⟩ | ⟨t, m, h1, h2, h3⟩
    · rw [h1, h2]; exact ⟨_, _, rfl, rfl, hr⟩
    · rw [h1, h2]
      exact ⟨_, _, rfl, h3.perm, hr⟩

theorem run_spec {mx : Nat} {P : K → Prop} (pos : 0 < mx) (lim : ∀ d, d < mx → d * c.b < c.w)
    (hh : HashOk hash) (sep : ∀ k1 k2, P k1 → P k2 → Agree c mx (hash k1) (hash k2) → hash k1 = hash k2)
    (np : c.checked = false ∨ mx * c.b < c.w)
    (ops : List (Op K V)) (hops : ∀ op ∈ ops, op.KeyIn P)
    (ts : List (Trie c K V)) (ms : List (AMap K V)) (hr : Pointwise (Rep hash mx P) ts ms) :
    ∃ os ts', Trie.run hash ts ops = .ok (os, ts') ∧ Pointwise Out.Same os (AMap.run ms ops).1 ∧
      Pointwise (Rep hash mx P) ts' (AMap.run ms ops).2 := by
  induction ops generalizing ts ms with
  | nil => exact ⟨_, _, rfl, trivial, hr⟩
  | cons op ops ih =>
    obtain ⟨o, ts1, h1, h2, h3⟩ := step_spec pos lim hh sep np ts ms hr op (hops op (List.mem_cons_self ..))
    obtain ⟨os, ts2, h4, h5, h6⟩ := ih (fun op' h => hops op' (List.mem_cons_of_mem _ h)) ts1 _ h3
    refine ⟨o :: os, ts2, ?_, ⟨h2, h5⟩, h6⟩
    rw [Trie.run, h1]
    simp only [Res.ok_bind]
    rw [h4]; rfl

end HT
