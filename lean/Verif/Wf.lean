import Verif.Trie
import Verif.Contract
import Verif.BiaLemmas
import Verif.FlagLemmas
/-! # The representation invariant and lookup -/
namespace HT

variable {K V : Type}

/-! ### Entries in visit order -/

theorem Node.visitAll_eq {n : Nat} (ms : List (Node n K V)) :
    Node.visitAll ms = ms.flatMap Node.visit := by
  induction ms with
  | nil => rfl
  | cons m ms ih => simp [Node.visitAll, ih]

/-- Entries below position `i` of an array of nodes. -/
def slotVisit {n : Nat} (a : Bia n (Node n K V)) (i : Nat) : List (K × V) :=
  match a.slot i with
  | some m => m.visit
  | none => []

theorem visit_slots {n : Nat} (a : Bia n (Node n K V)) (h : a.Ok) :
    Node.visitAll a.values = (List.range n).flatMap (slotVisit a) := by
  rw [Node.visitAll_eq]
  conv => lhs; rw [Bia.values_eq a h]
  generalize List.range n = l
  induction l with
  | nil => rfl
  | cons i l ih =>
    simp only [List.filterMap_cons, List.flatMap_cons, slotVisit]
    cases a.slot i with
    | none => simpa [slotVisit] using ih
    | some m => simp only [List.flatMap_cons]; rw [ih]

/-! ### The invariant -/

/-- Cached sizes of a collision list are right. -/
def LNode.SizeOk : LNode K V → Prop
  | .nextS _ _ _ z => z = 2
  | .nextL _ _ l z => z = 1 + l.size ∧ l.SizeOk

theorem LNode.size_eq {l : LNode K V} (h : l.SizeOk) : l.size = l.visit.length := by
  induction l with
  | nextS k v s z => simp [LNode.SizeOk] at h; subst h; rfl
  | nextL k v l z ih =>
    simp [LNode.SizeOk] at h
    obtain ⟨h1, h2⟩ := h
    simp only [LNode.size, LNode.visit, List.length_cons]
    rw [h1, ih h2]; omega

theorem LNode.visit_ne_nil (l : LNode K V) : l.visit ≠ [] := by
  cases l <;> simp [LNode.visit]

theorem LNode.find_eq (q : K → Bool) (l : LNode K V) :
    l.find q = l.visit.find? (fun e => q e.1) := by
  induction l with
  | nextS k v s z =>
    simp only [LNode.find, LNode.visit, List.find?_cons, SNode.visit, SNode.find]
    cases q k <;> cases q s.key <;> rfl
  | nextL k v l z ih =>
    simp only [LNode.find, LNode.visit, List.find?_cons]
    cases q k <;> simp [ih]

theorem SNode.find_eq (q : K → Bool) (s : SNode K V) :
    s.find q = s.visit.find? (fun e => q e.1) := by
  simp only [SNode.visit, SNode.find, List.find?_cons]
  cases q s.key <;> rfl

theorem Node.findAll_eq {c : Cfg} (q : K → Bool) (ms : List (Node c.n K V)) :
    Node.findAll c q ms = ms.map (fun m f => match m with
      | .C .. => do
        let nx ← f.next
        m.find c q nx
      | .L l => .ok (l.find q)
      | .S s => .ok (s.find q)) := by
  induction ms with
  | nil => rfl
  | cons m ms ih => rw [Node.findAll, ih, List.map_cons]; rfl

theorem find?_flatMap_ne {α : Type} (l : List Nat) (g : Nat → List α) (p : α → Bool) (i : Nat)
    (h : ∀ j, j ∈ l → j ≠ i → ∀ e ∈ g j, p e = false) (hi : i ∈ l) :
    (l.flatMap g).find? p = (g i).find? p := by
  induction l with
  | nil => simp at hi
  | cons j l ih =>
    rw [List.flatMap_cons, List.find?_append]
    by_cases hj : j = i
    · subst hj
      cases hg : (g j).find? p with
      | some e => rfl
      | none =>
        simp only [Option.none_or]
        by_cases hm : j ∈ l
        · rw [ih (fun j' hj' => h j' (List.mem_cons_of_mem _ hj')) hm, hg]
        · rw [List.find?_eq_none]
          intro e he
          obtain ⟨j', hj', he'⟩ := List.mem_flatMap.1 he
          have : j' ≠ j := fun e => hm (e ▸ hj')
          simp [h j' (List.mem_cons_of_mem _ hj') this e he']
    · have : (g j).find? p = none := by
        rw [List.find?_eq_none]
        intro e he
        simp [h j (List.mem_cons_self ..) hj e he]
      rw [this, Option.none_or]
      have hm : i ∈ l := by
        rcases List.mem_cons.1 hi with e | e
        · exact absurd e.symm hj
        · exact e
      exact ih (fun j' hj' => h j' (List.mem_cons_of_mem _ hj')) hm

variable [BEq K] {c : Cfg} (hash : K → BitVec c.w)

/-- Invariant of a collision list: sizes, one common hash, distinct keys. -/
structure LNode.WF (l : LNode K V) : Prop where
  size : l.SizeOk
  hash : ∀ e ∈ l.visit, hash e.1 = hash l.key
  keys : DistinctKeys l.visit

/-- Invariant of a node at depth `d`; `mx` bounds the depth of branch nodes. -/
inductive Node.WF (mx : Nat) : Nat → Node c.n K V → Prop
  | S (d : Nat) (s : SNode K V) : Node.WF mx d (.S s)
  | L (d : Nat) (l : LNode K V) (h : l.WF hash) : Node.WF mx d (.L l)
  | C (d : Nat) (bits : BitVec c.n) (values : List (Node c.n K V)) (extra : Nat)
      (hd : d < mx)
      (ok : (Bia.mk bits values extra).Ok)
      (sz : extra = (Node.visitAll values).length)
      (ne : ∀ i m, (Bia.mk bits values extra).slot i = some m → m.visit ≠ [])
      (at_ : ∀ i m, (Bia.mk bits values extra).slot i = some m →
        ∀ e ∈ m.visit, chunk c (hash e.1) d = i)
      (sub : ∀ i m, (Bia.mk bits values extra).slot i = some m → Node.WF mx (d + 1) m) :
      Node.WF mx d (.C bits values extra)

theorem Node.WF.size_eq {mx d : Nat} {m : Node c.n K V} (h : m.WF hash mx d) :
    m.size = m.visit.length := by
  cases h with
  | S s => rfl
  | L _ _ h => exact LNode.size_eq h.size
  | C _ bits values extra hd ok sz ne at_ sub => exact sz

/-! ### Lookup keys -/

theorem Query.ofKey [EquivBEq K] (hh : HashOk hash) (k : K) :
    Query hash (· == k) (hash k) where
  hash := fun x hx => hh x k hx
  cls := by
    intro x y hx
    have hx : (x == k) = true := hx
    show (y == k) = (x == y)
    cases hy : y == k with
    | true =>
      have h1 : (k == y) = true := by rw [BEq.comm]; exact hy
      exact (BEq.trans hx h1).symm
    | false =>
      cases hxy : x == y with
      | false => rfl
      | true =>
        have h1 : (y == x) = true := by rw [BEq.comm]; exact hxy
        have := BEq.trans h1 hx
        rw [hy] at this; simp at this

variable {hash}

/-! ### find -/

omit [BEq K] in
/-- In a branch node only the slot of the hash can hold a matching entry. -/
theorem slot_no_match' {q : K → Bool} {h : BitVec c.w} (hq : ∀ x, q x = true → hash x = h) {d : Nat}
    {a : Bia c.n (Node c.n K V)}
    (at_ : ∀ i m, a.slot i = some m → ∀ e ∈ m.visit, chunk c (hash e.1) d = i)
    {j : Nat} (hj : j ≠ chunk c h d) : ∀ e ∈ slotVisit a j, q e.1 = false := by
  intro e he
  simp only [slotVisit] at he
  cases hs : a.slot j with
  | none => rw [hs] at he; simp at he
  | some m =>
    rw [hs] at he
    cases hqe : q e.1 with
    | false => rfl
    | true =>
      have h1 := at_ j m hs e he
      have h2 := hq _ hqe
      rw [h2] at h1
      exact absurd h1.symm hj

omit [BEq K] in
theorem lookup_C' {q : K → Bool} {h : BitVec c.w} (hq : ∀ x, q x = true → hash x = h) {d : Nat}
    {a : Bia c.n (Node c.n K V)} (ok : a.Ok)
    (at_ : ∀ i m, a.slot i = some m → ∀ e ∈ m.visit, chunk c (hash e.1) d = i) :
    (Node.visitAll a.values).find? (fun e => q e.1) =
      (slotVisit a (chunk c h d)).find? (fun e => q e.1) := by
  rw [visit_slots a ok]
  apply find?_flatMap_ne
  · intro j _ hj e he
    exact slot_no_match' hq at_ hj e he
  · exact List.mem_range.2 (chunk_lt h d)

/-- `find` returns the first entry matching the key, if only keys with the right hash match. -/
theorem Node.find_eq' {q : K → Bool} {h : BitVec c.w} (hq : ∀ x, q x = true → hash x = h) {mx d : Nat}
    (lim : ∀ d, d < mx → d * c.b < c.w)
    {m : Node c.n K V} (wf : m.WF hash mx d) (flag : Option (Flag c))
    (hf : d * c.b < c.w → flag = some (flagAt h d)) :
    m.find c q flag = .ok (m.visit.find? (fun e => q e.1)) := by
  induction wf generalizing flag with
  | S d s => rw [Node.find, SNode.find_eq]; rfl
  | L d l hl => rw [Node.find, LNode.find_eq]; rfl
  | C d bits values extra hd ok sz ne at_ sub ih =>
    rw [hf (lim d hd), Node.find]
    simp only [Res.unwrap_some, Res.ok_bind]
    have ok' : (Bia.mk bits (Node.findAll c q values) extra).Ok := by
      rw [Node.findAll_eq]; simpa [Bia.Ok] using ok
    rw [flagAt, Bia.at'_bitAt _ ok' (chunk_lt h d), Node.findAll_eq, Bia.slot_map]
    rw [Node.visit, lookup_C' (a := ⟨bits, values, extra⟩) hq ok at_, slotVisit]
    cases hs : (Bia.mk bits values extra).slot (chunk c h d) with
    | none => rfl
    | some m =>
      simp only [Option.map_some]
      have wfm := sub _ _ hs
      have ihm := ih _ _ hs
      cases m with
      | S s => simp [SNode.find_eq, Node.visit]
      | L l => simp [LNode.find_eq, Node.visit]
      | C b' v' e' =>
        cases wfm with
        | C _ _ _ _ hd' _ _ _ _ _ =>
          have hnx := Flag.next_eq h (lim _ hd')
          simp only [flagAt] at hnx
          simp only [hnx, Res.ok_bind]
          exact ihm _ (fun _ => rfl)

theorem slot_no_match {q : K → Bool} {h : BitVec c.w} (hq : Query hash q h) {d : Nat}
    {a : Bia c.n (Node c.n K V)}
    (at_ : ∀ i m, a.slot i = some m → ∀ e ∈ m.visit, chunk c (hash e.1) d = i)
    {j : Nat} (hj : j ≠ chunk c h d) : ∀ e ∈ slotVisit a j, q e.1 = false := slot_no_match' hq.hash at_ hj

theorem lookup_C {q : K → Bool} {h : BitVec c.w} (hq : Query hash q h) {d : Nat}
    {a : Bia c.n (Node c.n K V)} (ok : a.Ok)
    (at_ : ∀ i m, a.slot i = some m → ∀ e ∈ m.visit, chunk c (hash e.1) d = i) :
    (Node.visitAll a.values).find? (fun e => q e.1) =
      (slotVisit a (chunk c h d)).find? (fun e => q e.1) := lookup_C' hq.hash ok at_

/-- `find` returns the first (in fact only) entry matching the key. -/
theorem Node.find_eq {q : K → Bool} {h : BitVec c.w} (hq : Query hash q h) {mx d : Nat}
    (lim : ∀ d, d < mx → d * c.b < c.w)
    {m : Node c.n K V} (wf : m.WF hash mx d) (flag : Option (Flag c))
    (hf : d * c.b < c.w → flag = some (flagAt h d)) :
    m.find c q flag = .ok (m.visit.find? (fun e => q e.1)) := Node.find_eq' hq.hash lim wf flag hf

end HT
