import Verif.JointCases
import Verif.JointNode
import Verif.TransmuteLemmas
import Mathlib.Data.List.Perm.Lattice
/-! # What it means for a result to be the sum of its cases -/
namespace HT

variable {A B E K V L W S X R : Type}

/-! ### Commutative reductions -/

theorem CMon.total_perm {reduce : R → R → R} {e : R} (h : CMon reduce e) {l l' : List R} (p : l.Perm l') :
    total reduce e l = total reduce e l' := by
  induction p with
  | nil => rfl
  | cons x _ ih => rw [h.toMon.total_cons, h.toMon.total_cons, ih]
  | swap x y l =>
    rw [h.toMon.total_cons, h.toMon.total_cons, h.toMon.total_cons, h.toMon.total_cons, ← h.assoc,
      ← h.assoc, h.comm x y]
  | trans _ _ ih1 ih2 => rw [ih1, ih2]

/-! ### Semantics of an operation -/

/-- What an operation may produce and contributes for each case.  `hyp` is the condition under which the
    contributions are accounted for. -/
structure Sem (A B E R : Type) where
  out : Case A B → Option E → Prop
  red : Case A B → R
  reduce : R → R → R
  e : R
  hyp : Prop
  cm : hyp → CMon reduce e

/-- `l` lists what the cases may produce. -/
def Sem.Outs (s : Sem A B E R) (cs : List (Case A B)) (l : List E) : Prop :=
  ∃ ps : List (Case A B × Option E), (ps.map Prod.fst).Perm cs ∧ (∀ p ∈ ps, s.out p.1 p.2) ∧
    l.Perm (ps.filterMap Prod.snd)

/-- `l` lists what the cases may produce, and `r` is their total contribution. -/
structure Sem.Real (s : Sem A B E R) (cs : List (Case A B)) (l : List E) (r : R) : Prop where
  outs : s.Outs cs l
  red : s.hyp → r = total s.reduce s.e (cs.map s.red)

namespace Sem.Real
variable {s : Sem A B E R} {cs cs' : List (Case A B)} {l l' : List E} {r r' : R}

theorem perm (h : s.Real cs l r) (p : cs.Perm cs') : s.Real cs' l r := by
  obtain ⟨ps, h1, h2, h3⟩ := h.outs
  refine ⟨⟨ps, h1.trans p, h2, h3⟩, fun hy => ?_⟩
  rw [h.red hy]
  exact (s.cm hy).total_perm (p.map _)

theorem perm_out (h : s.Real cs l r) (p : l'.Perm l) : s.Real cs l' r := by
  obtain ⟨ps, h1, h2, h3⟩ := h.outs
  exact ⟨⟨ps, h1, h2, p.trans h3⟩, h.red⟩

theorem nil : s.Real [] [] s.e := ⟨⟨[], .nil, by simp, .nil⟩, fun _ => rfl⟩

theorem append (h : s.Real cs l r) (h' : s.Real cs' l' r') :
    s.Real (cs ++ cs') (l ++ l') (s.reduce r r') := by
  obtain ⟨ps, h1, h2, h3⟩ := h.outs
  obtain ⟨ps', h1', h2', h3'⟩ := h'.outs
  refine ⟨⟨ps ++ ps', ?_, ?_, ?_⟩, fun hy => ?_⟩
  · rw [List.map_append]; exact h1.append h1'
  · intro p hp
    rcases List.mem_append.1 hp with hp | hp
    · exact h2 p hp
    · exact h2' p hp
  · rw [List.filterMap_append]; exact h3.append h3'
  · rw [h.red hy, h'.red hy, List.map_append, (s.cm hy).toMon.total_append]

theorem single {p : Case A B} {o : Option E} (h : s.out p o) : s.Real [p] o.toList (s.red p) := by
  refine ⟨⟨[(p, o)], .refl _, by simpa using h, ?_⟩, fun hy => ?_⟩
  · cases o <;> simp
  · exact ((s.cm hy).toMon.total_single _).symm

/-- One more case. -/
theorem cons {p : Case A B} {o : Option E} (hp : s.out p o) {rp : R} (hr : s.red p = rp)
    (h : s.Real cs l r) : s.Real (p :: cs) (o.toList ++ l) (s.reduce rp r) := by
  subst hr; exact (single hp).append h

/-- The contribution only matters under the hypothesis. -/
theorem congr_red (h : s.Real cs l r) (hr : s.hyp → r' = r) : s.Real cs l r' :=
  ⟨h.outs, fun hy => (hr hy).trans (h.red hy)⟩

/-- Slot by slot. -/
theorem flatMap {ls : List Nat} {cs : Nat → List (Case A B)} {l : Nat → List E} {r : Nat → Option R}
    (h : ∀ i ∈ ls, s.Real (cs i) (l i) ((r i).getD s.e)) {q : R}
    (hq : s.hyp → q = total s.reduce s.e (ls.filterMap r)) : s.Real (ls.flatMap cs) (ls.flatMap l) q := by
  constructor
  · clear hq
    induction ls with
    | nil => exact nil.outs
    | cons i ls ih =>
      have h1 := (h i (List.mem_cons_self ..)).outs
      obtain ⟨ps, h1, h2, h3⟩ := h1
      obtain ⟨ps', h1', h2', h3'⟩ := ih (fun j hj => h j (List.mem_cons_of_mem _ hj))
      refine ⟨ps ++ ps', ?_, ?_, ?_⟩
      · rw [List.map_append, List.flatMap_cons]; exact h1.append h1'
      · intro p hp
        rcases List.mem_append.1 hp with hp | hp
        · exact h2 p hp
        · exact h2' p hp
      · rw [List.filterMap_append, List.flatMap_cons]; exact h3.append h3'
  · intro hy
    rw [hq hy, map_flatMap']
    exact total_slots (s.cm hy).toMon (fun i hi => (h i hi).red hy)

/-- Left and right exchanged. -/
theorem flip {s' : Sem B A E R} (h : s'.Real (cs.map Case.flip) l r)
    (ho : ∀ p o, s'.out p.flip o → s.out p o) (hr : ∀ p, s'.red p.flip = s.red p)
    (h1 : s'.reduce = s.reduce) (h2 : s'.e = s.e) (h3 : s.hyp → s'.hyp) : s.Real cs l r := by
  obtain ⟨ps, p1, p2, p3⟩ := h.outs
  refine ⟨⟨ps.map fun q => (q.1.flip, q.2), ?_, ?_, ?_⟩, fun hy => ?_⟩
  · have := p1.map Case.flip
    simp only [List.map_map] at this ⊢
    have e1 : (Case.flip ∘ Case.flip : Case A B → Case A B) = id := by
      funext p; exact p.flip_flip
    rw [e1, List.map_id] at this
    exact this
  · intro p hp
    obtain ⟨q, hq, rfl⟩ := List.mem_map.1 hp
    apply ho
    rw [Case.flip_flip]; exact p2 q hq
  · rw [List.filterMap_map]; exact p3
  · rw [h.red (h3 hy), h1, h2, List.map_map]
    congr 1
    apply List.map_congr_left
    intro p _; exact hr p

end Sem.Real

/-- Outputs of an operation that produces one thing for each case. -/
theorem Sem.Outs.fn {s : Sem A B E R} {f : Case A B → Option E} (hf : ∀ p o, s.out p o → o = f p)
    {cs : List (Case A B)} {l : List E} (h : s.Outs cs l) : l.Perm (cs.filterMap f) := by
  obtain ⟨ps, h1, h2, h3⟩ := h
  refine h3.trans ?_
  refine List.Perm.trans (List.Perm.of_eq ?_) (h1.filterMap f)
  rw [List.filterMap_map]
  apply List.filterMap_congr
  intro p hp
  exact hf p.1 p.2 (h2 p hp)

/-- An entry of the output is the output of a case. -/
theorem Sem.Outs.mem {s : Sem A B E R} {cs : List (Case A B)} {l : List E} (h : s.Outs cs l) {a : E}
    (ha : a ∈ l) : ∃ p ∈ cs, s.out p (some a) := by
  obtain ⟨ps, h1, h2, h3⟩ := h
  obtain ⟨p, hp, hpa⟩ := List.mem_filterMap.1 (h3.mem_iff.1 ha)
  refine ⟨p.1, h1.mem_iff.1 (List.mem_map_of_mem hp), ?_⟩
  have := h2 p hp
  rw [hpa] at this; exact this

/-! ### Results on collision lists -/

/-- The result `o` on a collision list or single node is the sum of the cases, and has right sizes. -/
structure LGood (s : Sem A B (S × X) R) (cs : List (Case A B)) (o : Option (LNext S X)) (r : R) : Prop where
  real : s.Real cs (lvis o) r
  size : ∀ m, o = some m → m.SizeOk

theorem LGood.perm {s : Sem A B (S × X) R} {cs cs' : List (Case A B)} {o : Option (LNext S X)} {r : R}
    (h : LGood s cs o r) (p : cs.Perm cs') : LGood s cs' o r := ⟨h.real.perm p, h.size⟩

theorem LGood.cons {s : Sem A B (S × X) R} {cs : List (Case A B)} {o o' : Option (LNext S X)} {r r' : R}
    (h : LGood s cs o r) {p : Case A B} {e : Option (S × X)} (hp : s.out p e) {rp : R} (hr : s.red p = rp)
    (hv : (lvis o').Perm (e.toList ++ lvis o)) (hs : ∀ m, o' = some m → m.SizeOk)
    (hr' : r' = s.reduce rp r) : LGood s (p :: cs) o' r' := by
  subst hr'
  exact ⟨(h.real.cons hp hr).perm_out hv, hs⟩

/-- As `cons`, the contributions combined in the other order. -/
theorem LGood.snoc {s : Sem A B (S × X) R} {cs : List (Case A B)} {o o' : Option (LNext S X)} {r r' : R}
    (h : LGood s cs o r) {p : Case A B} {e : Option (S × X)} (hp : s.out p e) {rp : R} (hr : s.red p = rp)
    (hv : (lvis o').Perm (e.toList ++ lvis o)) (hs : ∀ m, o' = some m → m.SizeOk)
    (hr' : r' = s.reduce r rp) : LGood s (p :: cs) o' r' := by
  subst hr'
  refine ⟨((h.real.cons hp hr).perm_out hv).congr_red (fun hy => (s.cm hy).comm _ _), hs⟩

theorem LGood.single {s : Sem A B (S × X) R} {p : Case A B} {e : Option (S × X)} (hp : s.out p e) {rp : R}
    (hr : s.red p = rp) {o : Option (LNext S X)} (hv : lvis o = e.toList)
    (hs : ∀ m, o = some m → m.SizeOk) : LGood s [p] o rp := by
  subst hr
  refine ⟨?_, hs⟩
  rw [hv]; exact Sem.Real.single hp

theorem sizeOk_S {s : SNode S X} : ∀ m, some (LNext.S s) = some m → m.SizeOk := by
  intro m h; injection h with h; subst h; trivial

theorem sizeOk_none : ∀ m : LNext S X, none = some m → m.SizeOk := by simp

/-! ### Keys of the outputs -/

section
variable [BEq K] [BEq L] [BEq S] {c : Cfg}

/-- The operation stores what it produces under keys with the right hash, different for different keys. -/
structure Keyed (x : Cross c K L) (s : Sem (K × V) (L × W) (S × X) R) (hashS : S → BitVec c.w) : Prop where
  laws : CrossLaws x
  lawsS : KeyLaws hashS
  hash : ∀ p e, Matched x p → s.out p (some e) → hashS e.1 = x.caseHash p
  inj : ∀ p q e e', Matched x p → Matched x q → s.out p (some e) → s.out q (some e') →
    (e.1 == e'.1) = true → Overlap x p q

variable {x : Cross c K L} {s : Sem (K × V) (L × W) (S × X) R} {hashS : S → BitVec c.w}

theorem CrossLaws.overlap_symm (laws : CrossLaws x) {p q : Case (K × V) (L × W)} (h : Overlap x p q) :
    Overlap x q p := by
  rcases h with ⟨k, k', h1, h2, he⟩ | ⟨l, l', h1, h2, he⟩ | h | h
  · exact .inl ⟨k', k, h2, h1, laws.left.symm _ _ he⟩
  · exact .inr (.inl ⟨l', l, h2, h1, laws.right.symm _ _ he⟩)
  · exact .inr (.inr (.inr h))
  · exact .inr (.inr (.inl h))

theorem Keyed.hash_of (k : Keyed x s hashS) {cs : List (Case (K × V) (L × W))} {l : List (S × X)}
    (h : s.Outs cs l) (hm : ∀ p ∈ cs, Matched x p) {P : BitVec c.w → Prop}
    (hP : ∀ p ∈ cs, P (x.caseHash p)) : ∀ a ∈ l, P (hashS a.1) := by
  intro a ha
  obtain ⟨p, hp, ho⟩ := h.mem ha
  rw [k.hash p a (hm p hp) ho]
  exact hP p hp

theorem Keyed.distinct (k : Keyed x s hashS) {cs : List (Case (K × V) (L × W))} {l : List (S × X)}
    (h : s.Outs cs l) (hm : ∀ p ∈ cs, Matched x p) (ha : cs.Pairwise fun p q => ¬ Overlap x p q) :
    DistinctKeys l := by
  obtain ⟨ps, h1, h2, h3⟩ := h
  have hps : (ps.map Prod.fst).Pairwise fun p q => ¬ Overlap x p q :=
    (h1.pairwise_iff (fun h h' => h (k.laws.overlap_symm h'))).2 ha
  have : DistinctKeys (ps.filterMap Prod.snd) := by
    unfold DistinctKeys
    rw [List.pairwise_filterMap]
    rw [List.pairwise_map] at hps
    refine List.Pairwise.imp_of_mem ?_ hps
    intro p q hp hq hov a haa b hbb
    cases hab : a.1 == b.1 with
    | false => rfl
    | true =>
      exfalso; apply hov
      have m1 := hm p.1 (h1.mem_iff.1 (List.mem_map_of_mem hp))
      have m2 := hm q.1 (h1.mem_iff.1 (List.mem_map_of_mem hq))
      have o1 := h2 p hp
      have o2 := h2 q hq
      rw [haa] at o1
      rw [hbb] at o2
      exact k.inj _ _ a b m1 m2 o1 o2 hab
  refine (h3.pairwise_iff ?_).2 this
  intro a b h
  cases hab : b.1 == a.1 with
  | false => rfl
  | true => rw [k.lawsS.symm _ _ hab] at h; simp at h

end

/-! ### Results on nodes -/

section
variable [BEq K] [BEq L] [BEq S] {c : Cfg}

/-- The result `o` at depth `d` is the sum of the cases and well-formed; `N` says when it must not be
    empty. -/
structure Good (s : Sem (K × V) (L × W) (S × X) R) (hashS : S → BitVec c.w) (d : Nat) (N : Prop)
    (cs : List (Case (K × V) (L × W))) (o : Option (Node c.n S X)) (r : R) : Prop where
  real : s.Real cs (vis o) r
  wf : ∀ m, o = some m → m.WF hashS c.levels d
  ne : N → ∀ m, o = some m → m.visit ≠ []

variable {x : Cross c K L} {s : Sem (K × V) (L × W) (S × X) R} {hashS : S → BitVec c.w}

omit [BEq K] [BEq L] in
theorem Good.perm {d : Nat} {N : Prop} {cs cs' : List (Case (K × V) (L × W))} {o : Option (Node c.n S X)}
    {r : R} (h : Good s hashS d N cs o r) (p : cs.Perm cs') : Good s hashS d N cs' o r :=
  ⟨h.real.perm p, h.wf, h.ne⟩

omit [BEq K] [BEq L] in
theorem Good.mono {d : Nat} {N N' : Prop} {cs : List (Case (K × V) (L × W))} {o : Option (Node c.n S X)}
    {r : R} (h : Good s hashS d N cs o r) (p : N' → N) : Good s hashS d N' cs o r :=
  ⟨h.real, h.wf, fun n => h.ne (p n)⟩

/-- From collision lists to nodes, all hashes being equal. -/
theorem LGood.node (k : Keyed x s hashS) {d : Nat} {cs : List (Case (K × V) (L × W))}
    {o : Option (LNext S X)} {r : R} (h : LGood s cs o r) {as : List (K × V)} {bs : List (L × W)}
    (p : cs.Perm (x.cases as bs)) (ha : DistinctKeys as) (hb : DistinctKeys bs) (hv : BitVec c.w)
    (h1 : ∀ a ∈ as, x.hash a.1 = hv) (h2 : ∀ b ∈ bs, x.hash' b.1 = hv) :
    Good s hashS d True (x.cases as bs) (o.map LNext.toNode) r := by
  have hr := h.real.perm p
  have hm := k.laws.cases_matched ha hb
  refine ⟨?_, ?_, ?_⟩
  · rw [vis_lvis]; exact hr
  · intro m hm'
    cases o with
    | none => simp at hm'
    | some m1 =>
      simp only [Option.map_some, Option.some.injEq] at hm'
      subst hm'
      refine LNext.wf (h.size m1 rfl) hv ?_ ?_
      · exact k.hash_of hr.outs hm (P := fun h => h = hv) (k.laws.caseHash_of ha hb (P := fun h => h = hv) h1 h2)
      · exact k.distinct hr.outs hm (k.laws.apart ha hb)
  · intro _ m hm'
    cases o with
    | none => simp at hm'
    | some m1 =>
      simp only [Option.map_some, Option.some.injEq] at hm'
      subst hm'
      rw [LNext.toNode_visit]; exact m1.visit_ne_nil

/-! ### Operands with different hashes -/

/-- What all tables for different hashes do. -/
def joinN {n : Nat} (l r : Option (LNext S X)) (lift : LNext S X → LNext S X → Res (Node n S X)) :
    Res (Option (Node n S X)) :=
  match l, r with
  | some l, some r => do
    let m ← lift l r
    .ok (some m)
  | some l, none => .ok (some l.toNode)
  | none, some r => .ok (some r.toNode)
  | none, none => .ok none

omit [BEq K] [BEq L] in
theorem cases_apart {as : List (K × V)} {bs : List (L × W)}
    (h : ∀ a ∈ as, ∀ b ∈ bs, x.eq a.1 b.1 = false) :
    x.cases as bs = as.map Case.left ++ bs.map Case.right := by
  induction as with
  | nil => exact jointCases_nil_left _
  | cons a as ih =>
    rw [Cross.cases, jointCases_cons_left (h a (List.mem_cons_self ..))]
    rw [List.map_cons, List.cons_append, ← ih (fun a' h' => h a' (List.mem_cons_of_mem _ h'))]
    rfl

theorem joinN_spec (k : Keyed x s hashS) {d : Nat} {as : List (K × V)} {bs : List (L × W)}
    (ha : DistinctKeys as) (hb : DistinctKeys bs) {hl hr : BitVec c.w}
    (h1 : ∀ a ∈ as, x.hash a.1 = hl) (h2 : ∀ b ∈ bs, x.hash' b.1 = hr) (hne : hl ≠ hr)
    (ag : Agree c d hl hr) {ol or : Option (LNext S X)} {lr rr : R}
    (gl : LGood s (as.map Case.left) ol lr) (gr : LGood s (bs.map Case.right) or rr) :
    ∃ o, joinN ol or (fun l r => liftN l (flagAt hl d) r (flagAt hr d)) = .ok o ∧
      Good s hashS d True (x.cases as bs) o (s.reduce lr rr) := by
  have hca : x.cases as bs = as.map Case.left ++ bs.map Case.right := by
    apply cases_apart
    intro a haa b hbb
    cases he : x.eq a.1 b.1 with
    | false => rfl
    | true =>
      have := k.laws.hash _ _ he
      rw [h1 a haa, h2 b hbb] at this
      exact absurd this hne
  have hm := k.laws.cases_matched ha hb
  have hreal : s.Real (x.cases as bs) (lvis ol ++ lvis or) (s.reduce lr rr) := by
    rw [hca]; exact gl.real.append gr.real
  have hdis : DistinctKeys (lvis ol ++ lvis or) := k.distinct hreal.outs hm (k.laws.apart ha hb)
  have hdl : DistinctKeys (lvis ol) := (List.pairwise_append.1 hdis).1
  have hdr : DistinctKeys (lvis or) := (List.pairwise_append.1 hdis).2.1
  have hhl : ∀ e ∈ lvis ol, hashS e.1 = hl := by
    refine k.hash_of gl.real.outs ?_ (P := fun h => h = hl) ?_
    · intro p hp; obtain ⟨a, _, rfl⟩ := List.mem_map.1 hp; trivial
    · intro p hp; obtain ⟨a, haa, rfl⟩ := List.mem_map.1 hp; exact h1 a haa
  have hhr : ∀ e ∈ lvis or, hashS e.1 = hr := by
    refine k.hash_of gr.real.outs ?_ (P := fun h => h = hr) ?_
    · intro p hp; obtain ⟨a, _, rfl⟩ := List.mem_map.1 hp; trivial
    · intro p hp; obtain ⟨a, haa, rfl⟩ := List.mem_map.1 hp; exact h2 a haa
  have wfl : ∀ l, ol = some l → ∀ d, (l.toNode : Node c.n S X).WF hashS c.levels d := by
    intro l hl' d; subst hl'
    exact LNext.wf (gl.size l rfl) hl hhl hdl
  have wfr : ∀ l, or = some l → ∀ d, (l.toNode : Node c.n S X).WF hashS c.levels d := by
    intro l hl' d; subst hl'
    exact LNext.wf (gr.size l rfl) hr hhr hdr
  cases ol with
  | none =>
    cases or with
    | none => exact ⟨none, rfl, hreal, by simp, by simp⟩
    | some r =>
      refine ⟨some r.toNode, rfl, ?_, ?_, ?_⟩
      · rw [vis_some, LNext.toNode_visit]; exact hreal
      · intro m hm'; injection hm' with hm'; subst hm'; exact wfr r rfl d
      · intro _ m hm'; injection hm' with hm'; subst hm'
        rw [LNext.toNode_visit]; exact r.visit_ne_nil
  | some l =>
    cases or with
    | none =>
      refine ⟨some l.toNode, rfl, ?_, ?_, ?_⟩
      · rw [vis_some, LNext.toNode_visit]; simpa [lvis] using hreal
      · intro m hm'; injection hm' with hm'; subst hm'; exact wfl l rfl d
      · intro _ m hm'; injection hm' with hm'; subst hm'
        rw [LNext.toNode_visit]; exact l.visit_ne_nil
    | some r =>
      obtain ⟨e1, he1⟩ := List.exists_mem_of_ne_nil _ l.visit_ne_nil
      obtain ⟨e2, he2⟩ := List.exists_mem_of_ne_nil _ r.visit_ne_nil
      have q1 : hashS e1.1 = hl := hhl e1 he1
      have q2 : hashS e2.1 = hr := hhr e2 he2
      have hne' : hashS e1.1 ≠ hashS e2.1 := by rw [q1, q2]; exact hne
      obtain ⟨b, v, z, hlift, hwf, hperm⟩ := liftC_spec (c := c) (hash := hashS) (mx := c.levels)
        c.levels_within e1.1 e2.1 (fun h => h.eq c.levels_cover) hne'
        (l.toNode) (r.toNode) (wfl l rfl) (wfr r rfl)
        (by rw [LNext.toNode_visit]; exact l.visit_ne_nil)
        (by rw [LNext.toNode_visit]; exact r.visit_ne_nil)
        (by rw [LNext.toNode_visit, q1]; exact hhl) (by rw [LNext.toNode_visit, q2]; exact hhr) d
        (by rw [q1, q2]; exact ag)
      rw [q1, q2] at hlift
      refine ⟨some (.C b v z), ?_, ?_, ?_, ?_⟩
      · simp only [joinN, liftN, hlift, Res.ok_bind]
      · rw [vis_some]
        refine hreal.perm_out (hperm.trans ?_)
        rw [LNext.toNode_visit, LNext.toNode_visit]; exact .refl _
      · intro m hm'; injection hm' with hm'; subst hm'; exact hwf
      · intro _ m hm'; injection hm' with hm'; subst hm'
        intro h0
        rw [h0] at hperm
        have := hperm.length_eq
        rw [LNext.toNode_visit, LNext.toNode_visit, List.length_append] at this
        have := List.length_pos_iff.2 l.visit_ne_nil
        simp at *
        omega

end
end HT
