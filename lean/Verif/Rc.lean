import Verif.RcSpec
import Verif.FitsCall
import Verif.Threads
/-! # Reference counts are exact -/
namespace HT

variable {Var K V R St : Type} {c : Cfg} {n : Nat}

/-! ### Nodes -/

theorem ANode.addrs_kids (m : ANode n K V) : m.addrs = m.addr :: m.kids.flatMap ANode.addrs := by
  cases m with
  | C a b v z => rw [ANode.addrs_C]; rfl
  | L l => cases l <;> simp [ANode.addrs, ANode.addr, ANode.kids, ALNode.addrs, ALNode.addr]
  | S s => rfl

theorem ANode.content_arcs (m : ANode n K V) : m.content.arcs = m.kids.map ANode.addr := by
  cases m with
  | C a b v z => rfl
  | L l => cases l <;> rfl
  | S s => rfl

theorem ANode.kids_ren (f : Nat → Nat) (m : ANode n K V) : (m.ren f).kids = m.kids.map (ANode.ren f) := by
  cases m with
  | C a b v z => rw [ANode.ren_C]; rfl
  | L l => cases l <;> rfl
  | S s => rfl

theorem ANode.addr_ren (f : Nat → Nat) (m : ANode n K V) : (m.ren f).addr = f m.addr := by
  cases m with
  | C a b v z => rw [ANode.ren_C]; rfl
  | L l => cases l <;> rfl
  | S s => rfl

theorem ANode.kid_lt {k m : ANode n K V} (hk : k ∈ m.kids) : k.addrs.length < m.addrs.length := by
  rw [m.addrs_kids, List.length_cons, List.length_flatMap]
  have := le_sum_of_mem (l := m.kids.map fun k => k.addrs.length) (a := k.addrs.length)
    (List.mem_map.2 ⟨k, hk, rfl⟩)
  omega

theorem ANode.indKids {motive : ANode n K V → Prop} (h : ∀ m, (∀ k ∈ m.kids, motive k) → motive m) (m : ANode n K V) :
    motive m := by
  generalize hN : m.addrs.length = N
  induction N using Nat.strongRecOn generalizing m with
  | _ N ih => exact h m fun k hk => ih _ (hN ▸ ANode.kid_lt hk) k rfl

theorem ANode.Sub.trans {a b d : ANode n K V} (h : a.Sub b) (h' : b.Sub d) : a.Sub d := by
  induction h' with
  | refl => exact h
  | kid _ hk ih => exact .kid ih hk

theorem ANode.Sub.cases' {o m : ANode n K V} (h : o.Sub m) : o = m ∨ ∃ k ∈ m.kids, o.Sub k := by
  cases h with
  | refl => exact .inl rfl
  | kid h hk => exact .inr ⟨_, hk, h⟩

theorem ANode.Sub.le {o m : ANode n K V} (h : o.Sub m) : o.addrs.length ≤ m.addrs.length := by
  induction h with
  | refl => exact Nat.le_refl _
  | kid _ hk ih => have := ANode.kid_lt hk; omega

theorem ANode.mem_addrs {a : Nat} {m : ANode n K V} : a ∈ m.addrs ↔ ∃ o : ANode n K V, o.Sub m ∧ o.addr = a := by
  induction m using ANode.indKids with
  | h m ih =>
    rw [m.addrs_kids]
    simp only [List.mem_cons, List.mem_flatMap]
    constructor
    · rintro (rfl | ⟨k, hk, ha⟩)
      · exact ⟨m, .refl m, rfl⟩
      · obtain ⟨o, ho, e⟩ := (ih k hk).1 ha
        exact ⟨o, .kid ho hk, e⟩
    · rintro ⟨o, ho, rfl⟩
      rcases ho.cases' with rfl | ⟨k, hk, ho⟩
      · exact .inl rfl
      · exact .inr ⟨k, hk, (ih k hk).2 ⟨o, ho, rfl⟩⟩

theorem ANode.Sub.ren (f : Nat → Nat) {o m : ANode n K V} (h : o.Sub m) : (o.ren f).Sub (m.ren f) := by
  induction h with
  | refl => exact .refl _
  | kid _ hk ih => exact .kid ih (by rw [ANode.kids_ren]; exact List.mem_map.2 ⟨_, hk, rfl⟩)

theorem ANode.sub_ren {f : Nat → Nat} {o m : ANode n K V} (h : o.Sub (m.ren f)) : ∃ o' : ANode n K V, o'.Sub m ∧ o = o'.ren f := by
  induction m using ANode.indKids with
  | h m ih =>
    rcases h.cases' with rfl | ⟨k, hk, ho⟩
    · exact ⟨m, .refl m, rfl⟩
    · rw [ANode.kids_ren] at hk
      obtain ⟨k', hk', rfl⟩ := List.mem_map.1 hk
      obtain ⟨o', ho', e⟩ := ih k' hk' ho
      exact ⟨o', .kid ho' hk', e⟩

theorem ANode.ren_inj {f : Nat → Nat} (hf : ∀ a b, f a = f b → a = b) {m m' : ANode n K V} (h : m.ren f = m'.ren f) :
    m = m' := by
  classical
  let g : Nat → Nat := fun b => if hb : ∃ a, f a = b then hb.choose else 0
  have hg : ∀ a, g (f a) = a := by
    intro a
    have hb : ∃ x, f x = f a := ⟨a, rfl⟩
    simp only [g, dif_pos hb]
    exact hf _ _ hb.choose_spec
  have e := congrArg (ANode.ren g) h
  rw [ANode.ren_ren, ANode.ren_ren] at e
  simpa only [hg, ANode.ren_id] using e

/-- The objects of a node are those that `tree` gives for their addresses. -/
def Tied (tree : Nat → ANode n K V) (m : ANode n K V) : Prop := ∀ o, ANode.Sub o m → tree o.addr = o

theorem Tied.sub {tree : Nat → ANode n K V} {o m : ANode n K V} (h : Tied tree m) (ho : o.Sub m) : Tied tree o :=
  fun p hp => h p (hp.trans ho)

/-- An object is not below itself. -/
theorem Tied.addr_not_mem {tree : Nat → ANode n K V} {m : ANode n K V} (h : Tied tree m) :
    m.addr ∉ m.kids.flatMap ANode.addrs := by
  intro ha
  obtain ⟨k, hk, ha⟩ := List.mem_flatMap.1 ha
  obtain ⟨o, ho, e⟩ := ANode.mem_addrs.1 ha
  have h1 := h o (.kid ho hk)
  rw [e, h m (.refl m)] at h1
  have := ho.le
  have := ANode.kid_lt hk
  rw [← h1] at *
  omega

/-! ### Counts -/

/-- The count at an address. -/
def Memory.cnt (h : Memory n K V) (a : Nat) : Nat :=
  match h a with
  | some p => p.count
  | none => 0

/-- Memory is as it should be when `held` are the `Arc`s outside of memory: the counts are the numbers of `Arc`s. -/
structure Exact (tree : Nat → ANode n K V) (cells : List Nat) (held : List Nat) (h : Memory n K V) : Prop where
  nodup : cells.Nodup
  mem : ∀ a, a ∈ cells ↔ h.Allocated a
  count : ∀ a, h.cnt a = held.count a + (cells.flatMap h.arcsAt).count a
  pos : ∀ a p, h a = some p → 0 < p.count
  tree : ∀ a p, h a = some p → (tree a).addr = a ∧ p.content = (tree a).content ∧ ∀ k ∈ (tree a).kids, tree k.addr = k

section
variable {tree : Nat → ANode n K V} {cells held held' : List Nat} {h : Memory n K V}

theorem Memory.set_same (h : Memory n K V) (a : Nat) (m : Option (Counted n K V)) : h.set a m a = m := by
  simp [Memory.set]

theorem Memory.set_other (h : Memory n K V) {a b : Nat} (hb : b ≠ a) (m : Option (Counted n K V)) : h.set a m b = h b := by
  simp [Memory.set, hb]

theorem Exact.perm (e : Exact tree cells held h) (hp : held.Perm held') : Exact tree cells held' h :=
  ⟨e.nodup, e.mem, fun a => by rw [e.count, hp.count_eq], e.pos, e.tree⟩

theorem Exact.allocated (e : Exact tree cells held h) {a : Nat} (ha : a ∈ held) : h.Allocated a := by
  have h1 := e.count a
  have h2 : 0 < held.count a := List.count_pos_iff.2 ha
  unfold Memory.cnt at h1
  cases hh : h a with
  | none => rw [hh] at h1; simp only at h1; omega
  | some p => exact ⟨p, hh⟩

theorem Exact.arc_allocated (e : Exact tree cells held h) {a b : Nat} {p : Counted n K V} (hb : h b = some p)
    (ha : a ∈ p.content.arcs) : h.Allocated a := by
  have h1 := e.count a
  have h2 : 0 < (cells.flatMap h.arcsAt).count a :=
    List.count_pos_iff.2 (List.mem_flatMap.2 ⟨b, (e.mem b).2 ⟨p, hb⟩, by unfold Memory.arcsAt; rw [hb]; exact ha⟩)
  unfold Memory.cnt at h1
  cases hh : h a with
  | none => rw [hh] at h1; simp only at h1; omega
  | some p => exact ⟨p, hh⟩

/-- The ghost trees matter only where memory is allocated. -/
theorem Exact.retree (e : Exact tree cells held h) {tree' : Nat → ANode n K V}
    (ht : ∀ a, h.Allocated a → tree' a = tree a) : Exact tree' cells held h := by
  refine ⟨e.nodup, e.mem, e.count, e.pos, fun a p hp => ?_⟩
  obtain ⟨h1, h2, h3⟩ := e.tree a p hp
  rw [ht a ⟨p, hp⟩]
  refine ⟨h1, h2, fun k hk => ?_⟩
  rw [ht k.addr (e.arc_allocated hp (by rw [h2, ANode.content_arcs]; exact List.mem_map.2 ⟨k, hk, rfl⟩)), h3 k hk]

/-- Change a count. -/
theorem Exact.recount (e : Exact tree cells held h) {a : Nat} {p : Counted n K V} (hp : h a = some p) {cnt : Nat}
    (hpos : 0 < cnt) (hc : ∀ b, (if b = a then cnt else h.cnt b) + held.count b = held'.count b + h.cnt b) :
    Exact tree cells held' (h.set a (some ⟨cnt, p.content⟩)) := by
  have harcs : ∀ b, (h.set a (some ⟨cnt, p.content⟩)).arcsAt b = h.arcsAt b := by
    intro b
    unfold Memory.arcsAt
    by_cases hb : b = a
    · subst hb; rw [Memory.set_same, hp]
    · rw [Memory.set_other _ hb]
  refine ⟨e.nodup, fun b => ?_, fun b => ?_, fun b q hq => ?_, fun b q hq => ?_⟩
  · rw [e.mem]
    unfold Memory.Allocated
    by_cases hb : b = a
    · subst hb; rw [Memory.set_same, hp]; simp
    · rw [Memory.set_other _ hb]
  · rw [show (h.set a (some ⟨cnt, p.content⟩)).arcsAt = h.arcsAt from funext harcs]
    have h1 := e.count b
    have h2 := hc b
    have h3 : (h.set a (some ⟨cnt, p.content⟩)).cnt b = if b = a then cnt else h.cnt b := by
      unfold Memory.cnt
      by_cases hb : b = a
      · subst hb; rw [Memory.set_same, if_pos rfl]
      · rw [Memory.set_other _ hb, if_neg hb]
    omega
  · by_cases hb : b = a
    · subst hb; rw [Memory.set_same] at hq; cases hq; exact hpos
    · rw [Memory.set_other _ hb] at hq; exact e.pos b q hq
  · by_cases hb : b = a
    · subst hb; rw [Memory.set_same] at hq; cases hq; exact e.tree b p hp
    · rw [Memory.set_other _ hb] at hq; exact e.tree b q hq

theorem Exact.clone (e : Exact tree cells held h) {a : Nat} {p : Counted n K V} (hp : h a = some p) :
    Exact tree cells (a :: held) (h.set a (some ⟨p.count + 1, p.content⟩)) := by
  refine e.recount hp (Nat.succ_pos _) fun b => ?_
  rw [List.count_cons]
  by_cases hb : b = a
  · subst hb; simp [Memory.cnt, hp]; omega
  · rw [if_neg hb, if_neg (by simpa using fun h => hb h.symm)]; omega

theorem Exact.keep (e : Exact tree cells (a :: held) h) {p : Counted n K V} (hp : h a = some p) (h2 : 2 ≤ p.count) :
    Exact tree cells held (h.set a (some ⟨p.count - 1, p.content⟩)) := by
  refine e.recount hp (by omega) fun b => ?_
  rw [List.count_cons]
  by_cases hb : b = a
  · subst hb; simp [Memory.cnt, hp]; omega
  · rw [if_neg hb, if_neg (by simpa using fun h => hb h.symm)]; omega

theorem count_flatMap_erase {cells : List Nat} {a : Nat} (ha : a ∈ cells) (f : Nat → List Nat) (b : Nat) :
    (cells.flatMap f).count b = (f a).count b + ((cells.erase a).flatMap f).count b := by
  rw [((List.perm_cons_erase ha).flatMap_right f).count_eq, List.flatMap_cons, List.count_append]

theorem Exact.free (e : Exact tree cells (a :: held) h) {p : Counted n K V} (hp : h a = some p) (h1 : p.count = 1) :
    Exact tree (cells.erase a) (p.content.arcs ++ held) (h.set a none) := by
  have hne : ∀ b ∈ cells.erase a, b ≠ a := fun b hb => ((e.nodup.mem_erase_iff).1 hb).1
  have ha : a ∈ cells := (e.mem a).2 ⟨p, hp⟩
  refine ⟨e.nodup.erase a, fun b => ?_, fun b => ?_, fun b q hq => ?_, fun b q hq => ?_⟩
  · rw [e.nodup.mem_erase_iff, e.mem]
    unfold Memory.Allocated
    by_cases hb : b = a
    · subst hb; rw [Memory.set_same]; simp
    · rw [Memory.set_other _ hb]; simp [hb]
  · have e1 := e.count b
    rw [count_flatMap_erase ha, List.count_cons] at e1
    rw [List.flatMap_congr (g := h.arcsAt) (fun d hd => by unfold Memory.arcsAt; rw [Memory.set_other _ (hne d hd)]),
      List.count_append]
    have e2 : h.arcsAt a = p.content.arcs := by unfold Memory.arcsAt; rw [hp]
    rw [e2] at e1
    unfold Memory.cnt at e1 ⊢
    by_cases hb : b = a
    · subst hb
      rw [Memory.set_same]
      rw [hp] at e1
      simp only [beq_self_eq_true, if_true] at e1 ⊢
      omega
    · rw [Memory.set_other _ hb, e1, if_neg (by simpa using fun h => hb h.symm)]
      omega
  · by_cases hb : b = a
    · subst hb; rw [Memory.set_same] at hq; cases hq
    · rw [Memory.set_other _ hb] at hq; exact e.pos b q hq
  · by_cases hb : b = a
    · subst hb; rw [Memory.set_same] at hq; cases hq
    · rw [Memory.set_other _ hb] at hq; exact e.tree b q hq

theorem Exact.make {m : ANode n K V} (e : Exact tree cells (m.kids.map ANode.addr ++ held) h) (hm : h m.addr = none)
    (ht : Tied tree m) : Exact tree (m.addr :: cells) (m.addr :: held) (h.set m.addr (some ⟨1, m.content⟩)) := by
  have hnot : m.addr ∉ cells := fun hc => by
    obtain ⟨p, hp⟩ := (e.mem _).1 hc
    rw [hm] at hp; cases hp
  have hne : ∀ b ∈ cells, b ≠ m.addr := fun b hb he => hnot (he ▸ hb)
  refine ⟨List.nodup_cons.2 ⟨hnot, e.nodup⟩, fun b => ?_, fun b => ?_, fun b q hq => ?_, fun b q hq => ?_⟩
  · rw [List.mem_cons, e.mem]
    unfold Memory.Allocated
    by_cases hb : b = m.addr
    · subst hb; rw [Memory.set_same]; simp
    · rw [Memory.set_other _ hb]; simp [hb]
  · have e1 := e.count b
    rw [List.count_append] at e1
    rw [List.flatMap_cons, List.flatMap_congr (l := cells) (g := h.arcsAt)
      (fun d hd => by unfold Memory.arcsAt; rw [Memory.set_other _ (hne d hd)]), List.count_append, List.count_cons]
    have e2 : (h.set m.addr (some ⟨1, m.content⟩)).arcsAt m.addr = m.kids.map ANode.addr := by
      unfold Memory.arcsAt; rw [Memory.set_same]; exact m.content_arcs
    rw [e2]
    unfold Memory.cnt at e1 ⊢
    by_cases hb : b = m.addr
    · subst hb
      rw [Memory.set_same]
      rw [hm] at e1
      simp only [beq_self_eq_true, if_true] at e1 ⊢
      omega
    · rw [Memory.set_other _ hb, e1, if_neg (by simpa using fun h => hb h.symm)]
      omega
  · by_cases hb : b = m.addr
    · subst hb; rw [Memory.set_same] at hq; cases hq; exact Nat.one_pos
    · rw [Memory.set_other _ hb] at hq; exact e.pos b q hq
  · by_cases hb : b = m.addr
    · subst hb
      rw [Memory.set_same] at hq
      cases hq
      rw [ht m (.refl m)]
      exact ⟨rfl, rfl, fun k hk => ht k (.kid (.refl k) hk)⟩
    · rw [Memory.set_other _ hb] at hq; exact e.tree b q hq

end

/-! ### Making and dropping -/

theorem Acquire.cons {new : Nat → Prop} {h h1 h' : Memory n K V} {m : ANode n K V} {ms : List (ANode n K V)}
    (a : Acquire new h [m] h1) (b : Acquire new h1 ms h') : Acquire new h (m :: ms) h' := by
  cases a with
  | clone hp hn => cases hn; exact .clone hp b
  | make hw hm hk h1 hn => cases hn; exact .make hw hm hk h1 b

theorem Acquire.content {new : Nat → Prop} {h h' : Memory n K V} {ms : List (ANode n K V)} (a : Acquire new h ms h')
    {b : Nat} {p : Counted n K V} (hb : h b = some p) :
    ∃ p', h' b = some p' ∧ p'.content = p.content ∧ p.count ≤ p'.count := by
  induction a generalizing p with
  | none h => exact ⟨p, hb, rfl, Nat.le_refl _⟩
  | @clone h h' m ms q hq _ ih =>
    by_cases e : b = m.addr
    · subst e
      rw [hb] at hq; cases hq
      obtain ⟨p', h1, h2, h3⟩ := ih (Memory.set_same _ _ _)
      exact ⟨p', h1, h2, by simp only at h3; omega⟩
    · exact ih (by rw [Memory.set_other _ e]; exact hb)
  | @make h h1 h' m ms hw hm _ hm1 _ ih1 ih2 =>
    obtain ⟨p', e1, e2, e3⟩ := ih1 hb
    have e : b ≠ m.addr := fun e => by subst e; rw [e1] at hm1; cases hm1
    obtain ⟨p'', f1, f2, f3⟩ := ih2 (p := p') (by rw [Memory.set_other _ e]; exact e1)
    exact ⟨p'', f1, f2.trans e2, Nat.le_trans e3 f3⟩

theorem exists_acquire {new : Nat → Prop} {tree : Nat → ANode n K V} {m : ANode n K V} (ht : Tied tree m) :
    ∀ {cells held : List Nat} {h : Memory n K V}, Exact tree cells held h →
      (∀ o, ANode.Sub o m → h o.addr = none → new o.addr) →
      ∃ h' cells', Acquire new h [m] h' ∧ Exact tree cells' (m.addr :: held) h' ∧
        ∀ a, a ∉ m.addrs → h a = none → h' a = none := by
  induction m using ANode.indKids with
  | h m ih =>
    intro cells held h e hnew
    cases hm : h m.addr with
    | some p =>
      refine ⟨_, cells, .clone hm (.none _), e.clone hm, fun a ha hn => ?_⟩
      rw [Memory.set_other _ (fun hb => by rw [hb, hm] at hn; cases hn)]
      exact hn
    | none =>
      have all : ∀ ms : List (ANode n K V), (∀ k ∈ ms, k ∈ m.kids) →
          ∀ {cells held : List Nat} {h : Memory n K V}, Exact tree cells held h →
          (∀ k ∈ ms, ∀ o, ANode.Sub o k → h o.addr = none → new o.addr) →
          ∃ h' cells', Acquire new h ms h' ∧ Exact tree cells' (ms.map ANode.addr ++ held) h' ∧
            ∀ a, a ∉ ms.flatMap ANode.addrs → h a = none → h' a = none := by
        intro ms
        induction ms with
        | nil => intro _ cells held h e _; exact ⟨h, cells, .none h, e, fun _ _ hn => hn⟩
        | cons k ms ih' =>
          intro hk cells held h e hnew
          obtain ⟨h1, c1, a1, e1, n1⟩ := ih k (hk k (by simp)) (ht.sub (.kid (.refl k) (hk k (by simp)))) e
            (hnew k (by simp))
          obtain ⟨h2, c2, a2, e2, n2⟩ := ih' (fun k' hk' => hk k' (by simp [hk'])) e1 (by
            intro k' hk' o ho hn
            refine hnew k' (by simp [hk']) o ho ?_
            cases hh : h o.addr with
            | none => rfl
            | some p =>
              obtain ⟨p', e', _⟩ := a1.content hh
              rw [hn] at e'; cases e')
          refine ⟨h2, c2, a1.cons a2, e2.perm ?_, fun a ha hn => ?_⟩
          · simpa using List.perm_middle
          · rw [List.flatMap_cons, List.mem_append] at ha
            exact n2 a (fun h' => ha (.inr h')) (n1 a (fun h' => ha (.inl h')) hn)
      obtain ⟨h1, c1, a1, e1, n1⟩ := all m.kids (fun _ hk => hk) e fun k hk o ho => hnew o (.kid ho hk)
      have hm1 : h1 m.addr = none := n1 _ ht.addr_not_mem hm
      refine ⟨_, _, .make (hnew m (.refl m) hm) hm a1 hm1 (.none _), e1.make hm1 ht, fun a ha hn => ?_⟩
      rw [m.addrs_kids, List.mem_cons] at ha
      rw [Memory.set_other _ (fun hb => ha (.inl hb))]
      exact n1 a (fun h' => ha (.inr h')) hn

theorem sum_map_erase {cells : List Nat} {a : Nat} (ha : a ∈ cells) (f : Nat → Nat) :
    (cells.map f).sum = f a + ((cells.erase a).map f).sum := by
  induction cells with
  | nil => cases ha
  | cons b l ih =>
    by_cases hb : b = a
    · subst hb; simp
    · rw [List.erase_cons_tail (by simpa using hb), List.map_cons, List.map_cons, List.sum_cons, List.sum_cons,
        ih ((List.mem_cons.1 ha).resolve_left fun h => hb h.symm)]
      omega

theorem exists_release {tree : Nat → ANode n K V} (N : Nat) :
    ∀ {cells as held : List Nat} {h : Memory n K V}, (cells.map h.cnt).sum = N → Exact tree cells (as ++ held) h →
      ∃ h' cells', Release h as h' ∧ Exact tree cells' held h' := by
  induction N with
  | zero =>
    intro cells as held h hN e
    cases as with
    | nil => exact ⟨h, cells, .none h, e⟩
    | cons a as =>
      obtain ⟨p, hp⟩ := e.allocated (a := a) (by simp)
      have ha : a ∈ cells := (e.mem a).2 ⟨p, hp⟩
      have := e.pos a p hp
      rw [sum_map_erase ha] at hN
      have e1 : h.cnt a = p.count := by unfold Memory.cnt; rw [hp]
      omega
  | succ N ih =>
    intro cells as held h hN e
    cases as with
    | nil => exact ⟨h, cells, .none h, e⟩
    | cons a as =>
      obtain ⟨p, hp⟩ := e.allocated (a := a) (by simp)
      have ha : a ∈ cells := (e.mem a).2 ⟨p, hp⟩
      have hpos := e.pos a p hp
      have e1 : h.cnt a = p.count := by unfold Memory.cnt; rw [hp]
      have hne : ∀ b ∈ cells.erase a, b ≠ a := fun b hb => ((e.nodup.mem_erase_iff).1 hb).1
      rw [sum_map_erase ha] at hN
      have same : ∀ (q : Option (Counted n K V)), (cells.erase a).map (h.set a q).cnt = (cells.erase a).map h.cnt :=
        fun q => List.map_congr_left fun b hb => by unfold Memory.cnt; rw [Memory.set_other _ (hne b hb)]
      by_cases h1 : p.count = 1
      · obtain ⟨h', c', r, e'⟩ := ih (by rw [same none]; omega) (by
          have := e.free (held := as ++ held) hp h1
          rwa [← List.append_assoc] at this)
        exact ⟨h', c', .free hp h1 r, e'⟩
      · obtain ⟨h', c', r, e'⟩ := ih (by
          rw [sum_map_erase ha, same]
          have : (h.set a (some ⟨p.count - 1, p.content⟩)).cnt a = p.count - 1 := by
            unfold Memory.cnt; rw [Memory.set_same]
          omega) (e.keep hp (by omega))
        exact ⟨h', c', .keep hp (by omega) r, e'⟩

/-! ### What is allocated -/

theorem Exact.holds {tree : Nat → ANode n K V} {cells held : List Nat} {h : Memory n K V} (e : Exact tree cells held h)
    {a : Nat} (ha : h.Allocated a) {m : ANode n K V} (hm : tree a = m) : Tied tree m ∧ h.Holds m := by
  induction m using ANode.indKids generalizing a with
  | h m ih =>
    obtain ⟨p, hp⟩ := ha
    obtain ⟨h1, h2, h3⟩ := e.tree a p hp
    rw [hm] at h1 h2 h3
    have kid : ∀ k ∈ m.kids, Tied tree k ∧ h.Holds k := fun k hk =>
      ih k hk (e.arc_allocated hp (by rw [h2, ANode.content_arcs]; exact List.mem_map.2 ⟨k, hk, rfl⟩)) (h3 k hk)
    constructor
    · intro o ho
      rcases ho.cases' with rfl | ⟨k, hk, ho⟩
      · rw [h1, hm]
      · exact (kid k hk).1 o ho
    · intro o ho
      rcases ho.cases' with rfl | ⟨k, hk, ho⟩
      · exact ⟨p.count, e.pos a p hp, by rw [h1, hp, ← h2]⟩
      · exact (kid k hk).2 o ho

theorem Exact.reachable {tree : Nat → ANode n K V} {cells held : List Nat} {h : Memory n K V} (e : Exact tree cells held h)
    {a : Nat} (ha : h.Allocated a) : ∃ r ∈ held, a ∈ (tree r).addrs := by
  have bound : ∀ b ∈ cells, (tree b).addrs.length ≤ (cells.map fun b => (tree b).addrs.length).sum := fun b hb =>
    le_sum_of_mem (List.mem_map.2 ⟨b, hb, rfl⟩)
  generalize (cells.map fun b => (tree b).addrs.length).sum = B at bound
  generalize hd : B - (tree a).addrs.length = d
  induction d using Nat.strongRecOn generalizing a with
  | _ d ih =>
    obtain ⟨p, hp⟩ := ha
    have e1 := e.count a
    have hpos := e.pos a p hp
    have e2 : h.cnt a = p.count := by unfold Memory.cnt; rw [hp]
    by_cases hr : a ∈ held
    · refine ⟨a, hr, ?_⟩
      have := (tree a).addr_mem
      rwa [(e.tree a p hp).1] at this
    · have h0 := List.count_eq_zero.2 hr
      have : 0 < (cells.flatMap h.arcsAt).count a := by omega
      obtain ⟨b, hb, hab⟩ := List.mem_flatMap.1 (List.count_pos_iff.1 this)
      obtain ⟨q, hq⟩ := (e.mem b).1 hb
      unfold Memory.arcsAt at hab
      rw [hq] at hab
      obtain ⟨h1, h2, h3⟩ := e.tree b q hq
      simp only [h2, ANode.content_arcs] at hab
      obtain ⟨k, hk, rfl⟩ := List.mem_map.1 hab
      have hlt := ANode.kid_lt hk
      rw [← h3 k hk] at hlt
      have hB := bound b hb
      obtain ⟨r, hr, hbr⟩ := ih (B - (tree b).addrs.length) (by omega) ⟨q, hq⟩ rfl
      refine ⟨r, hr, ?_⟩
      obtain ⟨o, ho, eo⟩ := ANode.mem_addrs.1 hbr
      have hto : tree b = o := by rw [← eo]; exact (e.holds (e.allocated hr) rfl).1 o ho
      rw [hto] at hk
      exact ANode.mem_addrs.2 ⟨k, (ANode.Sub.kid (.refl k) hk).trans ho, rfl⟩

end HT
