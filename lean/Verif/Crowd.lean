import Verif.CrowdSpec
import Verif.HistoryLemmas
/-! # When a build with overflow checks panics: branch nodes at the last level -/
namespace HT

variable {K V : Type} {c : Cfg}

/-- The path of `h`, from depth `d` on, leads through branch nodes down to one at the last level. -/
inductive Deep (c : Cfg) (h : BitVec c.w) : Nat → Node c.n K V → Prop
  | here (d : Nat) (bits : BitVec c.n) (values : List (Node c.n K V)) (extra : Nat)
      (last : d + 1 = c.levels) : Deep c h d (.C bits values extra)
  | via (d : Nat) (bits : BitVec c.n) (values : List (Node c.n K V)) (extra : Nat)
      (m : Node c.n K V) (hs : (Bia.mk bits values extra).slot (chunk c h d) = some m)
      (sub : Deep c h (d + 1) m) : Deep c h d (.C bits values extra)

theorem Deep.S {h : BitVec c.w} {d : Nat} {s : SNode K V} : ¬ Deep c h d (.S s) := nofun

theorem Deep.L {h : BitVec c.w} {d : Nat} {l : LNode K V} : ¬ Deep c h d (.L l) := nofun

theorem Deep.iff {h : BitVec c.w} {d : Nat} {a : Bia c.n (Node c.n K V)} :
    Deep c h d (.ofBia a) ↔
      d + 1 = c.levels ∨ ∃ m, a.slot (chunk c h d) = some m ∧ Deep c h (d + 1) m := by
  constructor
  · intro hd
    cases hd with
    | here _ _ _ _ l => exact .inl l
    | via _ _ _ _ m hs sub => exact .inr ⟨m, hs, sub⟩
  · rintro (l | ⟨m, hs, sub⟩)
    · exact .here _ _ _ _ l
    · exact .via _ _ _ _ m hs sub

/-- The number of levels is one more than the number of groups in a stem. -/
theorem Cfg.levels_pred (c : Cfg) : c.levels - 1 = (c.w - 1) / c.b := by
  have hb := c.bpos
  have hw := c.wpos
  unfold Cfg.levels
  rw [show c.w + c.b - 1 = (c.w - 1) + c.b by omega, Nat.add_div_right _ hb]
  rfl

/-- `Agree` as a congruence. -/
theorem agree_iff_mod (d : Nat) (h1 h2 : BitVec c.w) :
    Agree c d h1 h2 ↔ h1.toNat % 2 ^ (d * c.b) = h2.toNat % 2 ^ (d * c.b) := by
  induction d with
  | zero => simp [Agree, Nat.mod_one]
  | succ d ih =>
    rw [Nat.add_mul, Nat.one_mul, Nat.pow_add, Nat.mod_mul, Nat.mod_mul]
    constructor
    · intro ag
      have h0 := ih.1 (fun e he => ag e (by omega))
      have h1 := ag d (by omega)
      simp only [chunk] at h1
      rw [h0, h1]
    · intro e
      have hp := Nat.two_pow_pos (d * c.b)
      have l1 := Nat.mod_lt h1.toNat hp
      have l2 := Nat.mod_lt h2.toNat hp
      have e0 : h1.toNat % 2 ^ (d * c.b) = h2.toNat % 2 ^ (d * c.b) := by
        have := congrArg (· % 2 ^ (d * c.b)) e
        simpa [Nat.add_mul_mod_self_left, Nat.mod_eq_of_lt l1, Nat.mod_eq_of_lt l2] using this
      refine (ih.2 e0).succ ?_
      rw [e0] at e
      have := Nat.eq_of_mul_eq_mul_left hp (Nat.add_left_cancel e)
      exact this

theorem stem_eq_iff (h1 h2 : BitVec c.w) :
    stem c h1 = stem c h2 ↔ Agree c (c.levels - 1) h1 h2 := by
  rw [agree_iff_mod, Cfg.levels_pred]; rfl

variable [BEq K] {hash : K → BitVec c.w}

/-! ### Panics -/

/-- `flag.next()` panics exactly at the last level. -/
theorem next_panics_iff (hc : c.checked = true) (h : BitVec c.w) {d : Nat} (hd : d < c.levels) :
    (d + 1 = c.levels ∧ (flagAt h d).next = .panic .shiftOverflow) ∨
      (d + 1 < c.levels ∧ (flagAt h d).next = .ok (some (flagAt h (d + 1)))) := by
  rcases Nat.lt_or_ge (d + 1) c.levels with h1 | h1
  · exact .inr ⟨h1, Flag.next_eq h (c.levels_within _ h1)⟩
  · left
    have e : d + 1 = c.levels := by omega
    refine ⟨e, Flag.newAtDepth_checked hc h ?_ (next_lt (c.levels_within _ hd))⟩
    show c.w ≤ (d + 1) * c.b
    rw [e]; exact c.levels_cover

/-- Entries in the slot of `h` at the last level have hash `h`. -/
theorem last_slot {d : Nat} {h : BitVec c.w} (hd : d + 1 = c.levels) {l : List (K × V)}
    (ag : ∀ e ∈ l, Agree c d (hash e.1) h) (at_ : ∀ e ∈ l, chunk c (hash e.1) d = chunk c h d) :
    ∀ e ∈ l, hash e.1 = h := by
  intro e he
  have := (ag e he).succ (at_ e he)
  rw [hd] at this
  exact this.eq c.levels_cover

/-- Entries with hash `h` are in the slot of `h`. -/
theorem exists_slot {d : Nat} {h : BitVec c.w} {a : Bia c.n (Node c.n K V)} (ok : a.Ok)
    (at_ : ∀ i m, a.slot i = some m → ∀ e ∈ m.visit, chunk c (hash e.1) d = i)
    {P : K × V → Prop} (hP : ∀ e, P e → chunk c (hash e.1) d = chunk c h d) :
    (∃ e ∈ Node.visitAll a.values, P e) ↔
      ∃ m, a.slot (chunk c h d) = some m ∧ ∃ e ∈ m.visit, P e := by
  constructor
  · rintro ⟨e, he, hp⟩
    rw [visit_slots a ok] at he
    obtain ⟨i, _, he⟩ := List.mem_flatMap.1 he
    simp only [slotVisit] at he
    cases hs : a.slot i with
    | none => rw [hs] at he; simp at he
    | some m =>
      rw [hs] at he
      have h1 := at_ i m hs e he
      rw [hP e hp] at h1
      exact ⟨m, by rw [h1]; exact hs, e, he, hp⟩
  · rintro ⟨m, hs, e, he, hp⟩
    refine ⟨e, ?_, hp⟩
    rw [visit_slots a ok]
    refine List.mem_flatMap.2 ⟨_, List.mem_range.2 (chunk_lt h d), ?_⟩
    simpa [slotVisit, hs] using he

/-- One step of the panic condition. -/
theorem panic_step {d : Nat} {h : BitVec c.w} {bits : BitVec c.n} {values : List (Node c.n K V)}
    {extra : Nat} (ok : (Bia.mk bits values extra).Ok)
    (at_ : ∀ i m, (Bia.mk bits values extra).slot i = some m → ∀ e ∈ m.visit, chunk c (hash e.1) d = i)
    (hd : d + 1 < c.levels) :
    (Deep c h d (.C bits values extra) ∧ ∃ e ∈ (Node.C bits values extra).visit, hash e.1 = h) ↔
      ∃ m, (Bia.mk bits values extra).slot (chunk c h d) = some m ∧ Deep c h (d + 1) m ∧
        ∃ e ∈ m.visit, hash e.1 = h := by
  have h1 := exists_slot (a := ⟨bits, values, extra⟩) (h := h) (P := fun e => hash e.1 = h) ok at_
    (fun e he => by rw [he])
  have h2 := Deep.iff (h := h) (d := d) (a := ⟨bits, values, extra⟩)
  simp only [Node.visit, Node.ofBia] at h1 h2 ⊢
  rw [h1, h2]
  constructor
  · rintro ⟨h3 | ⟨m, h4, h5⟩, m', h6, h7⟩
    · omega
    · rw [h4] at h6; injection h6 with h6; subst h6
      exact ⟨m, h4, h5, h7⟩
  · rintro ⟨m, h4, h5, h6⟩
    exact ⟨.inr ⟨m, h4, h5⟩, m, h4, h6⟩

omit [BEq K] in
theorem Res.bind_panic_iff {α β : Type} {x : Res α} {f : α → Res β} {p : Panic} (hf : ∀ a, x = .ok a → f a ≠ .panic p) :
    (x >>= f) = .panic p ↔ x = .panic p := by
  cases x with
  | ok a => simp [Res.ok_bind, hf a rfl]
  | panic q =>
    have : (Res.panic q >>= f) = .panic q := rfl
    rw [this]; simp
  | diverge => exact ⟨nofun, nofun⟩

theorem Node.insertStep_ne {n : Nat} (m : Node n K V) (z : Nat) (r : InsertResult n K V) :
    m.insertStep z r ≠ .panic .shiftOverflow := by
  cases r with
  | found fk fv => nofun
  | inserted m2 ptr prev =>
    have h : ∀ a b : Nat, (usub a b >>= fun z => Res.ok (Sum.inr (m2, z, ptr, prev)) :
        Res ((K × V) ⊕ (Node n K V × Nat × (K × V) × Option (K × V)))) ≠ .panic .shiftOverflow := by
      intro a b
      unfold usub
      split <;> nofun
    cases m <;> cases m2 <;> first | exact h _ _ | nofun

/-- Inserting into a leaf never panics. -/
theorem Node.insert_leaf (hh : HashOk hash)
    {q : K → Bool} {k : K} (v : V) (replace : Bool) (hq : Query hash q (hash k)) (hqk : q k = true)
    {d : Nat} (this : LNext K V) (wf : (this.toNode : Node c.n K V).WF hash c.levels d)
    (ag : ∀ e ∈ (this.toNode : Node c.n K V).visit, Agree c d (hash e.1) (hash k))
    {flag : Option (Flag c)} (hf : FlagFor (hash k) d flag) :
    ∃ r, (this.toNode : Node c.n K V).insert c hash q k v replace flag = .ok r := by
  obtain ⟨f, rfl, hf1, hf2, hf3⟩ := hf
  have sep : ∀ h : BitVec c.w, Agree c c.levels h (hash k) → h = hash k :=
    fun e h => h.eq c.levels_cover
  cases this with
  | S s =>
    show ∃ r, (Node.S s).insert c hash q k v replace (some f) = .ok r
    rw [Node.insert, SNode.insert]
    cases hqs : q s.key with
    | true => cases replace <;> exact ⟨_, rfl⟩
    | false =>
      simp only [Bool.false_eq_true, if_false, Res.unwrap_some, Res.ok_bind]
      obtain ⟨r, h, _⟩ := liftL_spec (replace := replace) c.levels_within (.S s) (.S s) rfl (fun d => .S d s)
        (by simp [Node.visit, SNode.visit, LNext.key]) hqk hq (sep _)
        (ag (s.key, s.value) (by simp [LNext.toNode, Node.visit, SNode.visit]))
        (by simp [Node.visit, SNode.visit, hqs]) (v := v) hf1 hf2 hf3
      exact ⟨r, h⟩
  | L l =>
    show ∃ r, (Node.L l).insert c hash q k v replace (some f) = .ok r
    cases wf with
    | L _ _ wl =>
      rw [Node.insert, LNode.insert]
      have hkey : (l.key, l.value) ∈ l.visit := by cases l <;> simp [LNode.visit, LNode.key, LNode.value]
      rw [LNode.find_eq]
      cases hfd : l.visit.find? (fun e => q e.1) with
      | none =>
        simp only [Res.unwrap_some, Res.ok_bind]
        obtain ⟨r, h, _⟩ := liftL_spec (replace := replace) c.levels_within (.L l) (.L l) rfl
          (fun d => .L d l wl) wl.hash hqk hq (sep _) (ag (l.key, l.value) hkey) hfd (v := v) hf1 hf2 hf3
        exact ⟨r, h⟩
      | some e =>
        cases replace with
        | false => exact ⟨_, rfl⟩
        | true =>
          have hr := LNode.removeFrom_spec hq l wl.keys wl.size
          simp only [if_true]
          cases hrr : l.removeFrom q with
          | notFound => rw [hrr] at hr; simp only at hr; rw [hr] at hfd; simp at hfd
          | removedL l' k' v' => exact ⟨_, rfl⟩
          | removedS l' k' v' => exact ⟨_, rfl⟩

/-- `insert` on a branch node, in terms of the slot of the hash. -/
theorem Node.insert_C {q : K → Bool} {k : K} (v : V) (replace : Bool) {d : Nat}
    {bits : BitVec c.n} {values : List (Node c.n K V)} {extra : Nat}
    (ok : (Bia.mk bits values extra).Ok) :
    (Node.C bits values extra).insert c hash q k v replace (some (flagAt (hash k) d)) =
      match (Bia.mk bits values extra).slot (chunk c (hash k) d) with
      | none => (Bia.mk bits values extra).inserted (bitAt c.n (chunk c (hash k) d)) (.S ⟨k, v⟩)
          (extra + 1) >>= fun a => Res.unwrapE a >>= fun a => .ok (.inserted (Node.ofBia a) (k, v) none)
      | some m1 => (flagAt (hash k) d).next >>= fun nx =>
          (m1.insert c hash q k v replace nx >>= m1.insertStep extra) >>= fun r =>
          match r with
          | .inl (fk, fv) => .ok (.found fk fv)
          | .inr (m, size, ptr, prev) =>
            (Bia.mk bits values extra).updated (bitAt c.n (chunk c (hash k) d)) m size >>= fun a =>
            Res.unwrapE a >>= fun a => .ok (.inserted (Node.ofBia a) ptr prev) := by
  rw [Node.insert]
  simp only [Res.unwrap_some, Res.ok_bind]
  have hi := chunk_lt (hash k) d
  have ok' : (Bia.mk bits (Node.insertAll c hash q k v replace values) extra).Ok := by
    rw [Node.insertAll_eq]; simpa [Bia.Ok] using ok
  rw [show (flagAt (hash k) d).flag = bitAt c.n (chunk c (hash k) d) from rfl,
    Bia.at'_bitAt _ ok' hi, Node.insertAll_eq, Bia.slot_map]
  cases (Bia.mk bits values extra).slot (chunk c (hash k) d) <;> rfl

/-- With overflow checks, `insert` panics exactly if the path leads to the last level and an entry with
    the same hash is there. -/
theorem Node.insert_panics (hc : c.checked = true) (hh : HashOk hash)
    {q : K → Bool} {k : K} (v : V) (replace : Bool) (hq : Query hash q (hash k)) (hqk : q k = true)
    {d : Nat} {m : Node c.n K V} (wf : m.WF hash c.levels d)
    (ag : ∀ e ∈ m.visit, Agree c d (hash e.1) (hash k))
    {flag : Option (Flag c)} (hf : FlagFor (hash k) d flag) :
    m.insert c hash q k v replace flag = .panic .shiftOverflow ↔
      Deep c (hash k) d m ∧ ∃ e ∈ m.visit, hash e.1 = hash k := by
  induction wf generalizing flag with
  | S d s =>
    have : ¬ Deep c (hash k) d (.S s : Node c.n K V) := Deep.S
    obtain ⟨r, hr⟩ := Node.insert_leaf hh v replace hq hqk (.S s) (.S d s) ag hf
    simp only [LNext.toNode] at hr
    simp [this, hr]
  | L d l wl =>
    have : ¬ Deep c (hash k) d (.L l : Node c.n K V) := Deep.L
    obtain ⟨r, hr⟩ := Node.insert_leaf hh v replace hq hqk (.L l) (.L d l wl) ag hf
    simp only [LNext.toNode] at hr
    simp [this, hr]
  | C d bits values extra hd ok sz ne at_ sub ih =>
    obtain ⟨f, rfl, hf1, hf2, hf3⟩ := hf
    have hff := hf3 (c.levels_within _ hd)
    subst hff
    rw [Node.insert_C v replace ok]
    have hi := chunk_lt (hash k) d
    have hsub : ∀ m1, (Bia.mk bits values extra).slot (chunk c (hash k) d) = some m1 →
        ∀ e ∈ m1.visit, e ∈ (Node.C bits values extra).visit := by
      intro m1 hs e he
      refine (visit_split ⟨bits, values, extra⟩ ok hi).mem_iff.2 (List.mem_append_left _ ?_)
      simpa [slotVisit, hs] using he
    cases hs : (Bia.mk bits values extra).slot (chunk c (hash k) d) with
    | none =>
      have e1 := Bia.inserted_eq ⟨bits, values, extra⟩ ok c.n_le hi hs (Node.S ⟨k, v⟩) (extra + 1)
      simp only [e1, Res.ok_bind, Res.unwrapE_ok]
      constructor
      · nofun
      · rintro ⟨_, he⟩
        obtain ⟨m, h1, _⟩ := (exists_slot (a := ⟨bits, values, extra⟩) (h := hash k) ok at_
          (fun e he => by rw [he])).1 he
        rw [hs] at h1; simp at h1
    | some m1 =>
      rcases next_panics_iff hc (hash k) hd with ⟨h1, h2⟩ | ⟨h1, h2⟩
      · simp only [h2]
        refine ⟨fun _ => ⟨.here _ _ _ _ h1, ?_⟩, fun _ => rfl⟩
        obtain ⟨e, he⟩ := List.exists_mem_of_ne_nil _ (ne _ _ hs)
        exact ⟨e, hsub _ hs e he, last_slot h1 (l := m1.visit) (fun e he => ag e (hsub _ hs e he))
          (fun e he => at_ _ _ hs e he) e he⟩
      · simp only [h2, Res.ok_bind]
        rw [panic_step ok at_ h1, Res.bind_panic_iff, Res.bind_panic_iff,
          ih _ _ hs (fun e he => (ag e (hsub _ hs e he)).succ (at_ _ _ hs e he)) (flagFor_flagAt _ _)]
        · simp [hs]
        · intro r _; exact Node.insertStep_ne _ _ _
        · intro r _
          cases r with
          | inl p => nofun
          | inr p =>
            obtain ⟨m2, z, ptr, prev⟩ := p
            have e1 := Bia.updated_eq ⟨bits, values, extra⟩ ok c.n_le hs m2 z
            simp only [e1, Res.ok_bind, Res.unwrapE_ok]
            nofun

/-- `remove` on a branch node, in terms of the slot of the hash. -/
theorem Node.remove_C {q : K → Bool} {h : BitVec c.w} {d : Nat}
    {bits : BitVec c.n} {values : List (Node c.n K V)} {extra : Nat}
    (ok : (Bia.mk bits values extra).Ok) :
    (Node.C bits values extra).remove c q (some (flagAt h d)) =
      match (Bia.mk bits values extra).slot (chunk c h d) with
      | none => .ok .notFound
      | some m1 => (flagAt h d).next >>= fun nx => m1.remove c q nx >>= fun r =>
        match r with
        | .notFound => .ok .notFound
        | .removed m k v =>
          match m with
          | .C _ _ 0 => .panic .explicit
          | _ => usub extra 1 >>= fun z =>
            (Bia.mk bits values extra).updated (bitAt c.n (chunk c h d)) m z >>= fun a =>
            Res.unwrapE a >>= fun a => .ok (.removed (Node.ofBia a) k v)
        | .removedZ k v =>
          if extra = 1 then .ok (.removedZ k v)
          else usub extra 1 >>= fun z =>
            (Bia.mk bits values extra).removed (bitAt c.n (chunk c h d)) z >>= fun a =>
            Res.unwrapE a >>= fun a => .ok (.removed (Node.ofBia a) k v) := by
  rw [Node.remove]
  simp only [Res.unwrap_some, Res.ok_bind]
  have hi := chunk_lt h d
  have ok' : (Bia.mk bits (Node.removeAll c q values) extra).Ok := by
    rw [Node.removeAll_eq]; simpa [Bia.Ok] using ok
  rw [show (flagAt h d).flag = bitAt c.n (chunk c h d) from rfl,
    Bia.at'_bitAt _ ok' hi, Node.removeAll_eq, Bia.slot_map]
  cases (Bia.mk bits values extra).slot (chunk c h d) <;> rfl

theorem usub_bind_ne {β : Type} (a b : Nat) (f : Nat → Res β) (hf : ∀ z, f z ≠ .panic .shiftOverflow) :
    (usub a b >>= f) ≠ .panic .shiftOverflow := by
  unfold usub
  split
  · exact hf _
  · nofun

/-- With overflow checks, `remove` panics exactly if the path leads to the last level and an entry with
    the same hash is there. -/
theorem Node.remove_panics (hc : c.checked = true) {q : K → Bool} {h : BitVec c.w}
    {d : Nat} {m : Node c.n K V} (wf : m.WF hash c.levels d)
    (ag : ∀ e ∈ m.visit, Agree c d (hash e.1) h)
    {flag : Option (Flag c)} (hf : FlagFor h d flag) :
    m.remove c q flag = .panic .shiftOverflow ↔ Deep c h d m ∧ ∃ e ∈ m.visit, hash e.1 = h := by
  induction wf generalizing flag with
  | S d s =>
    have : ¬ Deep c h d (.S s : Node c.n K V) := Deep.S
    simp [this, Node.remove]
  | L d l wl =>
    have : ¬ Deep c h d (.L l : Node c.n K V) := Deep.L
    simp [this, Node.remove]
  | C d bits values extra hd ok sz ne at_ sub ih =>
    obtain ⟨f, rfl, hf1, hf2, hf3⟩ := hf
    have hff := hf3 (c.levels_within _ hd)
    subst hff
    rw [Node.remove_C ok]
    have hi := chunk_lt h d
    have hsub : ∀ m1, (Bia.mk bits values extra).slot (chunk c h d) = some m1 →
        ∀ e ∈ m1.visit, e ∈ (Node.C bits values extra).visit := by
      intro m1 hs e he
      refine (visit_split ⟨bits, values, extra⟩ ok hi).mem_iff.2 (List.mem_append_left _ ?_)
      simpa [slotVisit, hs] using he
    cases hs : (Bia.mk bits values extra).slot (chunk c h d) with
    | none =>
      constructor
      · nofun
      · rintro ⟨_, he⟩
        obtain ⟨m, h1, _⟩ := (exists_slot (a := ⟨bits, values, extra⟩) (h := h) ok at_
          (fun e he => by rw [he])).1 he
        rw [hs] at h1; simp at h1
    | some m1 =>
      rcases next_panics_iff hc h hd with ⟨h1, h2⟩ | ⟨h1, h2⟩
      · simp only [h2]
        refine ⟨fun _ => ⟨.here _ _ _ _ h1, ?_⟩, fun _ => rfl⟩
        obtain ⟨e, he⟩ := List.exists_mem_of_ne_nil _ (ne _ _ hs)
        exact ⟨e, hsub _ hs e he, last_slot h1 (l := m1.visit) (fun e he => ag e (hsub _ hs e he))
          (fun e he => at_ _ _ hs e he) e he⟩
      · simp only [h2, Res.ok_bind]
        rw [panic_step ok at_ h1, Res.bind_panic_iff,
          ih _ _ hs (fun e he => (ag e (hsub _ hs e he)).succ (at_ _ _ hs e he)) (flagFor_flagAt _ _)]
        · simp [hs]
        · intro r _
          have upd : ∀ (m2 : Node c.n K V) (z : Nat) (k : K) (v : V),
              ((Bia.mk bits values extra).updated (bitAt c.n (chunk c h d)) m2 z >>= fun a =>
                Res.unwrapE a >>= fun a => .ok (.removed (Node.ofBia a) k v) :
                Res (RemoveResult c.n K V)) ≠ .panic .shiftOverflow := by
            intro m2 z k v
            have e1 := Bia.updated_eq ⟨bits, values, extra⟩ ok c.n_le hs m2 z
            simp only [e1, Res.ok_bind, Res.unwrapE_ok]
            nofun
          cases r with
          | notFound => nofun
          | removed m2 k v =>
            simp only
            split
            · nofun
            · exact usub_bind_ne _ _ _ (fun z => upd _ _ _ _)
          | removedZ k v =>
            simp only
            split
            · nofun
            · refine usub_bind_ne _ _ _ (fun z => ?_)
              have e1 := Bia.removed_eq ⟨bits, values, extra⟩ ok c.n_le hs z
              simp only [e1, Res.ok_bind, Res.unwrapE_ok]
              nofun

/-! ### What makes a path deep -/

/-- Two entries with different hashes and a common stem share a branch node at the last level. -/
theorem Node.WF.deep {d : Nat} {m : Node c.n K V} (wf : m.WF hash c.levels d) {h : BitVec c.w}
    {e1 e2 : K × V} (m1 : e1 ∈ m.visit) (m2 : e2 ∈ m.visit) (hne : hash e1.1 ≠ hash e2.1)
    (a1 : Agree c (c.levels - 1) (hash e1.1) h) (a2 : Agree c (c.levels - 1) (hash e2.1) h) :
    Deep c h d m := by
  induction wf with
  | S d s =>
    simp only [Node.visit, SNode.visit, List.mem_singleton] at m1 m2
    rw [m1, m2] at hne; exact absurd rfl hne
  | L d l wl => rw [wl.hash _ m1, wl.hash _ m2] at hne; exact absurd rfl hne
  | C d bits values extra hd ok sz ne at_ sub ih =>
    rcases Nat.lt_or_ge (d + 1) c.levels with h1 | h1
    · obtain ⟨x1, s1, e, he, rfl⟩ := (exists_slot (a := ⟨bits, values, extra⟩) (h := h)
        (P := fun e => e = e1) ok at_ (fun e he => by rw [he]; exact a1 d (by omega))).1 ⟨e1, m1, rfl⟩
      obtain ⟨x2, s2, e', he', rfl⟩ := (exists_slot (a := ⟨bits, values, extra⟩) (h := h)
        (P := fun e => e = e2) ok at_ (fun e he => by rw [he]; exact a2 d (by omega))).1 ⟨e2, m2, rfl⟩
      rw [s1] at s2; injection s2 with s2; subst s2
      exact .via _ _ _ _ x1 s1 (ih _ _ s1 he he')
    · exact .here _ _ _ _ (by omega)

/-- A deep path in a non-empty tree leads to an entry. -/
theorem Deep.entry {d : Nat} {m : Node c.n K V} (wf : m.WF hash c.levels d) {h : BitVec c.w}
    (nem : m.visit ≠ []) (ag : ∀ e ∈ m.visit, Agree c d (hash e.1) h) (dp : Deep c h d m) :
    ∃ e ∈ m.visit, Agree c (c.levels - 1) (hash e.1) h := by
  induction wf with
  | S d s => exact absurd dp Deep.S
  | L d l wl => exact absurd dp Deep.L
  | C d bits values extra hd ok sz ne at_ sub ih =>
    cases dp with
    | here _ _ _ _ l =>
      obtain ⟨e, he⟩ := List.exists_mem_of_ne_nil _ nem
      refine ⟨e, he, ?_⟩
      have := ag e he
      rwa [show c.levels - 1 = d by omega]
    | via _ _ _ _ m1 hs dp1 =>
      have hsub : ∀ e ∈ m1.visit, e ∈ (Node.C bits values extra).visit := by
        intro e he
        refine (visit_split ⟨bits, values, extra⟩ ok (chunk_lt h d)).mem_iff.2
          (List.mem_append_left _ ?_)
        simpa [slotVisit, hs] using he
      obtain ⟨e, he, hag⟩ := ih _ _ hs (ne _ _ hs)
        (fun e he => (ag e (hsub e he)).succ (at_ _ _ hs e he)) dp1
      exact ⟨e, hsub e he, hag⟩

omit [BEq K] in
theorem Bia.ofVec_inv {n : Nat} {bits : BitVec n} (hn : n ≤ 128) {l : List V} {e : Nat} {a : Bia n V}
    (h : (Bia.ofVec bits l e >>= fun a => Res.unwrapE a) = .ok a) : a = ⟨bits, l, e⟩ := by
  by_cases hc : countOnes bits = l.length
  · rw [Bia.ofVec_eq l e hn hc] at h
    simp only [Res.ok_bind, Res.unwrapE_ok] at h
    injection h with h; exact h.symm
  · rw [Bia.ofVec_err l e hc] at h
    simp [Res.ok_bind] at h

omit [BEq K] in
/-- Lifting two leaves makes a path deep only if the whole stem is shared. -/
theorem liftC_deep (m1 m2 : Node c.n K V) (lf1 : ∀ (h : BitVec c.w) d, ¬ Deep c h d m1)
    (lf2 : ∀ (h : BitVec c.w) d, ¬ Deep c h d m2)
    {h1 h2 h : BitVec c.w} (hne : h1 ≠ h2) {d : Nat} (ag : Agree c d h1 h2) (ag' : Agree c d h h2)
    {m' : Node c.n K V} (hl : liftC c m1 (flagAt h1 d) m2 (flagAt h2 d) = .ok m')
    (dp : Deep c h d m') : Agree c (c.levels - 1) h h2 ∧ Agree c (c.levels - 1) h1 h2 := by
  have hdm : ∀ d', Agree c d' h1 h2 → d' < c.levels := by
    intro d' ag'
    rcases Nat.lt_or_ge d' c.levels with h | h
    · exact h
    · exact absurd (Agree.eq (fun e he => ag' e (by omega)) c.levels_cover) hne
  generalize hfuel : c.levels - d = fuel
  induction fuel generalizing d m' with
  | zero => have := hdm d ag; omega
  | succ fuel ih =>
    have hi1 := chunk_lt h1 d
    have hi2 := chunk_lt h2 d
    rw [liftC_unfold] at hl
    by_cases heq : chunk c h1 d = chunk c h2 d
    · have ag1 := ag.succ heq
      have hd' := hdm _ ag1
      have n1 := Flag.next_eq h1 (c.levels_within _ hd')
      have n2 := Flag.next_eq h2 (c.levels_within _ hd')
      rw [if_pos (show (flagAt h1 d).flag = (flagAt h2 d).flag by simp [flagAt, heq])] at hl
      simp only [n1, n2, Res.ok_bind, Res.unwrap_some] at hl
      obtain ⟨inner, hin, hl⟩ := Res.bind_eq_ok.1 hl
      obtain ⟨a, ha, hl⟩ := Res.bind_eq_ok.1 hl
      obtain ⟨a', ha', hl⟩ := Res.bind_eq_ok.1 hl
      have := Bia.ofVec_inv (a := a') c.n_le (l := [inner]) (by rw [ha]; exact ha')
      injection hl with hl
      subst this; subst hl
      rcases Deep.iff.1 dp with h3 | ⟨m, hs, h3⟩
      · omega
      · have hm := Bia.slot_mem hs
        simp only [List.mem_singleton] at hm
        subst hm
        have hb : chunk c h d = chunk c h2 d := by
          simp only [Bia.slot] at hs
          split at hs
          · rename_i hb
            simp only [flagAt, getLsbD_bitAt, Bool.and_eq_true, decide_eq_true_eq] at hb
            omega
          · simp at hs
        exact ih ag1 (ag'.succ hb) hin h3 (by omega)
    · rw [if_neg (show ¬ (flagAt h1 d).flag = (flagAt h2 d).flag from
        fun e => heq (bitAt_inj hi1 e))] at hl
      obtain ⟨fl, hfl, hl⟩ := Res.bind_eq_ok.1 hl
      obtain ⟨i, hi, hl⟩ := Res.bind_eq_ok.1 hl
      obtain ⟨a, ha, hl⟩ := Res.bind_eq_ok.1 hl
      obtain ⟨a', ha', hl⟩ := Res.bind_eq_ok.1 hl
      have := Bia.ofVec_inv (a := a') c.n_le (l := if i = 0 then [m1, m2] else [m2, m1])
        (by rw [ha]; exact ha')
      injection hl with hl
      subst this; subst hl
      rcases Deep.iff.1 dp with h3 | ⟨m, hs, h3⟩
      · rw [show c.levels - 1 = d by omega]; exact ⟨ag', ag⟩
      · have hm := Bia.slot_mem hs
        have : m = m1 ∨ m = m2 := by
          simp only at hm
          split at hm
          · simpa using hm
          · simp only [List.mem_cons, List.not_mem_nil, or_false] at hm; exact hm.symm
        rcases this with rfl | rfl
        · exact absurd h3 (lf1 _ _)
        · exact absurd h3 (lf2 _ _)

theorem liftL_deep {k : K} {v : V} (this : LNext K V) {d : Nat}
    (ag : Agree c d (hash this.key) (hash k)) {h : BitVec c.w} (ag' : Agree c d h (hash k))
    {f : Flag c} (hf1 : f.hashValue = hash k) (hf2 : f.depth = d)
    (hf3 : d * c.b < c.w → f = flagAt (hash k) d) {m' : Node c.n K V} {ptr : K × V} {prev}
    (hl : liftL c hash this k v f = .ok (.inserted m' ptr prev)) (dp : Deep c h d m') :
    Agree c (c.levels - 1) h (hash k) ∧ Agree c (c.levels - 1) (hash this.key) (hash k) ∧
      hash this.key ≠ hash k := by
  unfold liftL at hl
  by_cases heq : hash this.key = f.hashValue
  · simp only [heq, if_true] at hl
    injection hl with hl; injection hl with hl; subst hl
    exact absurd dp Deep.L
  · have hne : hash this.key ≠ hash k := by rw [← hf1]; exact heq
    have hlt := ag.lt_of_ne hne
    have hff := hf3 hlt
    subst hff
    simp only [heq, if_false] at hl
    have hd : (flagAt (hash k) d).depth = d := rfl
    rw [hd, Flag.newAtDepth_eq _ hlt] at hl
    simp only [Res.ok_bind, Res.unwrap_some] at hl
    obtain ⟨m2, h1, h2⟩ := Res.bind_eq_ok.1 hl
    injection h2 with h2; injection h2 with h2; subst h2
    have := liftC_deep (c := c) this.toNode (.S ⟨k, v⟩)
      (fun h d => by cases this with | L l => exact Deep.L | S s => exact Deep.S) (fun _ _ => Deep.S) hne ag ag' h1 dp
    exact ⟨this.1, this.2, hne⟩

/-- A successful `insert` into a branch node sets the slot of the hash. -/
theorem Node.insert_C_inv {q : K → Bool} {k : K} {v : V} {replace : Bool} {d : Nat}
    {bits : BitVec c.n} {values : List (Node c.n K V)} {extra : Nat}
    (ok : (Bia.mk bits values extra).Ok) {m' : Node c.n K V} {ptr : K × V} {prev : Option (K × V)}
    (h : (Node.C bits values extra).insert c hash q k v replace (some (flagAt (hash k) d)) =
      .ok (.inserted m' ptr prev)) :
    ∃ a' m1', m' = Node.ofBia a' ∧ a'.Ok ∧
      (∀ j, a'.slot j = if j = chunk c (hash k) d then some m1'
        else (Bia.mk bits values extra).slot j) ∧
      (((Bia.mk bits values extra).slot (chunk c (hash k) d) = none ∧ m1' = .S ⟨k, v⟩) ∨
        ∃ m1 nx, (Bia.mk bits values extra).slot (chunk c (hash k) d) = some m1 ∧
          (flagAt (hash k) d).next = .ok nx ∧
          m1.insert c hash q k v replace nx = .ok (.inserted m1' ptr prev)) := by
  rw [Node.insert_C v replace ok] at h
  have hi := chunk_lt (hash k) d
  cases hs : (Bia.mk bits values extra).slot (chunk c (hash k) d) with
  | none =>
    rw [hs] at h
    have e1 := Bia.inserted_eq ⟨bits, values, extra⟩ ok c.n_le hi hs (Node.S ⟨k, v⟩) (extra + 1)
    have e2 := Bia.slot_inserted ⟨bits, values, extra⟩ ok hi hs (Node.S ⟨k, v⟩) (extra + 1)
    simp only [e1, Res.ok_bind, Res.unwrapE_ok] at h
    injection h with h; injection h with h
    exact ⟨_, _, h.symm, Bia.ok_inserted ⟨bits, values, extra⟩ ok hi hs _ _, e2, .inl ⟨rfl, rfl⟩⟩
  | some m1 =>
    rw [hs] at h
    obtain ⟨nx, hnx, h⟩ := Res.bind_eq_ok.1 h
    obtain ⟨r, hr, h⟩ := Res.bind_eq_ok.1 h
    obtain ⟨r1, hr1, hr⟩ := Res.bind_eq_ok.1 hr
    cases r with
    | inl p => injection h with h; injection h
    | inr p =>
      obtain ⟨m2, z, ptr', prev'⟩ := p
      have e1 := Bia.updated_eq ⟨bits, values, extra⟩ ok c.n_le hs m2 z
      have e2 := Bia.slot_updated ⟨bits, values, extra⟩ ok hs m2 z
      simp only [e1, Res.ok_bind, Res.unwrapE_ok] at h
      injection h with h; injection h with hfin hp hq
      subst hp; subst hq
      refine ⟨_, _, hfin.symm, Bia.ok_updated ⟨bits, values, extra⟩ ok _ _ _, e2, .inr ⟨m1, nx, rfl, hnx, ?_⟩⟩
      cases r1 with
      | found fk fv => injection hr with hr; injection hr
      | inserted m3 ptr3 prev3 =>
        have key : ∀ a b : Nat, (usub a b >>= fun z => Res.ok (Sum.inr (m3, z, ptr3, prev3)) :
            Res ((K × V) ⊕ (Node c.n K V × Nat × (K × V) × Option (K × V)))) =
              .ok (.inr (m2, z, ptr', prev')) → m3 = m2 ∧ ptr3 = ptr' ∧ prev3 = prev' := by
          intro a b hab
          obtain ⟨_, _, hab⟩ := Res.bind_eq_ok.1 hab
          injection hab with hab; injection hab with hab
          simp only [Prod.mk.injEq] at hab
          exact ⟨hab.1, hab.2.2.1, hab.2.2.2⟩
        have key2 : ∀ a : Nat, (Res.ok (Sum.inr (m3, a, ptr3, prev3)) :
            Res ((K × V) ⊕ (Node c.n K V × Nat × (K × V) × Option (K × V)))) =
              .ok (.inr (m2, z, ptr', prev')) → m3 = m2 ∧ ptr3 = ptr' ∧ prev3 = prev' := by
          intro a hab
          injection hab with hab; injection hab with hab
          simp only [Prod.mk.injEq] at hab
          exact ⟨hab.1, hab.2.2.1, hab.2.2.2⟩
        have : m3 = m2 ∧ ptr3 = ptr' ∧ prev3 = prev' := by
          cases m1 <;> cases m3 <;> first | exact key _ _ hr | exact key2 _ hr | (simp [Node.insertStep] at hr)
        obtain ⟨rfl, rfl, rfl⟩ := this
        exact hr1

/-- Which paths are deep after a successful `insert`. -/
theorem Node.insert_deep (hh : HashOk hash)
    {q : K → Bool} {k : K} {v : V} {replace : Bool} (hq : Query hash q (hash k)) (hqk : q k = true)
    {d : Nat} {m : Node c.n K V} (wf : m.WF hash c.levels d)
    (ag : ∀ e ∈ m.visit, Agree c d (hash e.1) (hash k)) {h : BitVec c.w} (ag' : Agree c d h (hash k))
    {flag : Option (Flag c)} (hf : FlagFor (hash k) d flag) {m' : Node c.n K V} {ptr prev}
    (hr : m.insert c hash q k v replace flag = .ok (.inserted m' ptr prev)) :
    Deep c h d m' ↔ Deep c h d m ∨ (Agree c (c.levels - 1) h (hash k) ∧
      ∃ e ∈ m.visit, Agree c (c.levels - 1) (hash e.1) (hash k) ∧ hash e.1 ≠ hash k) := by
  have back : (Agree c (c.levels - 1) h (hash k) ∧
      ∃ e ∈ m.visit, Agree c (c.levels - 1) (hash e.1) (hash k) ∧ hash e.1 ≠ hash k) → Deep c h d m' := by
    rintro ⟨h1, e, he, h2, h3⟩
    rcases Node.insert_spec c.levels_within hh v replace hq hqk wf
      (fun e _ h => h.eq c.levels_cover) ag hf with ⟨r, hr', good⟩ | ⟨_, _, h4⟩
    · rw [hr] at hr'; injection hr' with hr'; subst hr'
      cases good with
      | inserted _ _ g1 g2 g3 g4 g5 =>
        refine g3.deep (e1 := e) (e2 := (k, v)) (g4.mem_iff.2 (List.mem_cons_of_mem _ ?_))
          (g4.mem_iff.2 (List.mem_cons_self ..)) h3 (h2.trans h1.symm) h1.symm
        refine List.mem_filter.2 ⟨he, ?_⟩
        cases hqe : q e.1 with
        | false => rfl
        | true => exact absurd (hq.hash _ hqe) h3
    · rw [hr] at h4; simp at h4
  suffices hs : (Deep c h d m' → Deep c h d m ∨ (Agree c (c.levels - 1) h (hash k) ∧
      ∃ e ∈ m.visit, Agree c (c.levels - 1) (hash e.1) (hash k) ∧ hash e.1 ≠ hash k)) ∧
      (Deep c h d m → Deep c h d m') from ⟨hs.1, fun h => h.elim hs.2 back⟩
  clear back
  induction wf generalizing flag m' with
  | S d s =>
    refine ⟨fun dp => .inr ?_, fun dp => absurd dp Deep.S⟩
    obtain ⟨f, rfl, hf1, hf2, hf3⟩ := hf
    rw [Node.insert, SNode.insert] at hr
    cases hqs : q s.key with
    | true =>
      rw [hqs] at hr
      cases replace with
      | true =>
        simp only [if_true] at hr
        injection hr with hr; injection hr with hr; subst hr
        exact absurd dp Deep.S
      | false => simp at hr
    | false =>
      rw [hqs] at hr
      simp only [Bool.false_eq_true, if_false, Res.unwrap_some, Res.ok_bind] at hr
      obtain ⟨h1, h2, h3⟩ := liftL_deep (.S s)
        (ag (s.key, s.value) (by simp [Node.visit, SNode.visit])) ag' hf1 hf2 hf3 hr dp
      exact ⟨h1, (s.key, s.value), by simp [Node.visit, SNode.visit], h2, h3⟩
  | L d l wl =>
    refine ⟨fun dp => .inr ?_, fun dp => absurd dp Deep.L⟩
    obtain ⟨f, rfl, hf1, hf2, hf3⟩ := hf
    have hkey : (l.key, l.value) ∈ l.visit := by cases l <;> simp [LNode.visit, LNode.key, LNode.value]
    rw [Node.insert, LNode.insert] at hr
    cases hfd : l.find q with
    | none =>
      rw [hfd] at hr
      simp only [Res.unwrap_some, Res.ok_bind] at hr
      obtain ⟨h1, h2, h3⟩ := liftL_deep (.L l) (ag (l.key, l.value) hkey) ag' hf1 hf2 hf3 hr dp
      exact ⟨h1, (l.key, l.value), hkey, h2, h3⟩
    | some e =>
      rw [hfd] at hr
      cases replace with
      | false => simp at hr
      | true =>
        simp only [if_true] at hr
        cases hrr : l.removeFrom q with
        | notFound => rw [hrr] at hr; simp at hr
        | removedL l' k' v' =>
          rw [hrr] at hr
          injection hr with hr; injection hr with hr; subst hr
          exact absurd dp Deep.L
        | removedS l' k' v' =>
          rw [hrr] at hr
          injection hr with hr; injection hr with hr; subst hr
          exact absurd dp Deep.L
  | C d bits values extra hd ok sz ne at_ sub ih =>
    obtain ⟨f, rfl, hf1, hf2, hf3⟩ := hf
    have hff := hf3 (c.levels_within _ hd)
    subst hff
    have hi := chunk_lt (hash k) d
    have hsub : ∀ m1, (Bia.mk bits values extra).slot (chunk c (hash k) d) = some m1 →
        ∀ e ∈ m1.visit, e ∈ (Node.C bits values extra).visit := by
      intro m1 hs e he
      refine (visit_split ⟨bits, values, extra⟩ ok hi).mem_iff.2 (List.mem_append_left _ ?_)
      simpa [slotVisit, hs] using he
    obtain ⟨a', m1', rfl, _, hsl, hcase⟩ := Node.insert_C_inv ok hr
    have hD := Deep.iff (h := h) (d := d) (a := ⟨bits, values, extra⟩)
    simp only [Node.ofBia] at hD
    rw [hD, Deep.iff, hsl]
    by_cases hck : chunk c h d = chunk c (hash k) d
    · rw [if_pos hck, hck]
      rcases hcase with ⟨h1, rfl⟩ | ⟨m1, nx, h1, h2, h3⟩
      · rw [h1]
        refine ⟨?_, ?_⟩
        · rintro (h3 | ⟨m, h3, h4⟩)
          · exact .inl (.inl h3)
          · injection h3 with h3; subst h3; exact absurd h4 Deep.S
        · rintro (h3 | ⟨m, h3, h4⟩)
          · exact .inl h3
          · simp at h3
      · rw [h1]
        have hnf : FlagFor (hash k) (d + 1) nx := by
          rcases next_cases (hash k) (c.levels_within _ hd) with ⟨nx', hnx, hnf⟩ | ⟨_, _, hnx⟩
          · rw [h2] at hnx; injection hnx with hnx; subst hnx; exact hnf
          · rw [h2] at hnx; simp at hnx
        have := ih _ _ h1 (fun e he => (ag e (hsub _ h1 e he)).succ (at_ _ _ h1 e he)) (ag'.succ hck) hnf h3
        refine ⟨?_, ?_⟩
        · rintro (h4 | ⟨m, h4, h5⟩)
          · exact .inl (.inl h4)
          · injection h4 with h4; subst h4
            rcases this.1 h5 with h6 | ⟨h6, e, he, h7⟩
            · exact .inl (.inr ⟨m1, rfl, h6⟩)
            · exact .inr ⟨h6, e, hsub _ h1 e he, h7⟩
        · rintro (h4 | ⟨m, h4, h5⟩)
          · exact .inl h4
          · injection h4 with h4; subst h4
            exact .inr ⟨m1', rfl, this.2 h5⟩
    · rw [if_neg hck]
      exact ⟨.inl, id⟩

/-- A successful `remove` that leaves entries in a branch node. -/
theorem Node.remove_C_inv {q : K → Bool} {hk : BitVec c.w} {d : Nat}
    {bits : BitVec c.n} {values : List (Node c.n K V)} {extra : Nat}
    (ok : (Bia.mk bits values extra).Ok) {m' : Node c.n K V} {k : K} {v : V}
    (h : (Node.C bits values extra).remove c q (some (flagAt hk d)) = .ok (.removed m' k v)) :
    ∃ a' s' m1 nx, m' = Node.ofBia a' ∧
      (∀ j, a'.slot j = if j = chunk c hk d then s' else (Bia.mk bits values extra).slot j) ∧
      (Bia.mk bits values extra).slot (chunk c hk d) = some m1 ∧ (flagAt hk d).next = .ok nx ∧
      ((∃ m1', s' = some m1' ∧ m1.remove c q nx = .ok (.removed m1' k v)) ∨
        (s' = none ∧ m1.remove c q nx = .ok (.removedZ k v))) := by
  rw [Node.remove_C ok] at h
  cases hs : (Bia.mk bits values extra).slot (chunk c hk d) with
  | none => rw [hs] at h; simp at h
  | some m1 =>
    rw [hs] at h
    obtain ⟨nx, hnx, h⟩ := Res.bind_eq_ok.1 h
    obtain ⟨r, hr, h⟩ := Res.bind_eq_ok.1 h
    cases r with
    | notFound => simp at h
    | removed m2 k2 v2 =>
      have h' : (usub extra 1 >>= fun z =>
            (Bia.mk bits values extra).updated (bitAt c.n (chunk c hk d)) m2 z >>= fun a =>
            Res.unwrapE a >>= fun a => .ok (.removed (Node.ofBia a) k2 v2)) =
          (.ok (.removed m' k v) : Res (RemoveResult c.n K V)) := by
        simp only at h
        split at h
        · simp at h
        · exact h
      obtain ⟨z, _, h'⟩ := Res.bind_eq_ok.1 h'
      have e1 := Bia.updated_eq ⟨bits, values, extra⟩ ok c.n_le hs m2 z
      have e2 := Bia.slot_updated ⟨bits, values, extra⟩ ok hs m2 z
      simp only [e1, Res.ok_bind, Res.unwrapE_ok] at h'
      injection h' with h'; injection h' with hfin hp hq
      subst hp; subst hq
      exact ⟨_, _, m1, nx, hfin.symm, e2, rfl, hnx, .inl ⟨m2, rfl, hr⟩⟩
    | removedZ k2 v2 =>
      simp only at h
      split at h
      · simp at h
      · obtain ⟨z, _, h'⟩ := Res.bind_eq_ok.1 h
        have e1 := Bia.removed_eq ⟨bits, values, extra⟩ ok c.n_le hs z
        have e2 := Bia.slot_removed ⟨bits, values, extra⟩ ok hs z
        simp only [e1, Res.ok_bind, Res.unwrapE_ok] at h'
        injection h' with h'; injection h' with hfin hp hq
        subst hp; subst hq
        exact ⟨_, _, m1, nx, hfin.symm, e2, rfl, hnx, .inr ⟨rfl, hr⟩⟩

/-- Which paths are deep after a `remove` that leaves entries. -/
theorem Node.remove_deep (hh : HashOk hash)
    {q : K → Bool} {hk : BitVec c.w} (hq : Query hash q hk)
    {d : Nat} {m : Node c.n K V} (wf : m.WF hash c.levels d)
    (ag : ∀ e ∈ m.visit, Agree c d (hash e.1) hk) {h : BitVec c.w} (ag' : Agree c d h hk)
    {flag : Option (Flag c)} (hf : FlagFor hk d flag) {m' : Node c.n K V} {k : K} {v : V}
    (hr : m.remove c q flag = .ok (.removed m' k v)) :
    Deep c h d m' ↔ Deep c h d m ∧ (¬ Agree c (c.levels - 1) h hk ∨
      ∃ e ∈ m'.visit, Agree c (c.levels - 1) (hash e.1) h) := by
  induction wf generalizing flag m' with
  | S d s =>
    rw [Node.remove, SNode.remove] at hr
    split at hr <;> simp at hr
  | L d l wl =>
    have h1 : ¬ Deep c h d (.L l : Node c.n K V) := Deep.L
    simp only [h1, false_and, iff_false]
    rw [Node.remove, LNode.remove] at hr
    cases hrr : l.removeFrom q with
    | notFound => rw [hrr] at hr; simp at hr
    | removedL l' k' v' =>
      rw [hrr] at hr
      injection hr with hr; injection hr with hr; subst hr
      exact Deep.L
    | removedS l' k' v' =>
      rw [hrr] at hr
      injection hr with hr; injection hr with hr; subst hr
      exact Deep.S
  | C d bits values extra hd ok sz ne at_ sub ih =>
    have wfC : (Node.C bits values extra).WF hash c.levels d := .C d bits values extra hd ok sz ne at_ sub
    have good : ∃ k v, RemGood hash c.levels d q (.C bits values extra) (.removed m' k v) := by
      rcases Node.remove_spec c.levels_within hh hq wfC hf with ⟨r, hr', good⟩ | ⟨_, _, h4⟩
      · rw [hr] at hr'; injection hr' with hr'; subst hr'; exact ⟨_, _, good⟩
      · rw [hr] at h4; simp at h4
    obtain ⟨_, _, good⟩ := good
    cases good with
    | removed _ _ _ g1 g2 g3 g4 =>
    obtain ⟨f, rfl, hf1, hf2, hf3⟩ := hf
    have hff := hf3 (c.levels_within _ hd)
    subst hff
    have hi := chunk_lt hk d
    have hsub : ∀ m1, (Bia.mk bits values extra).slot (chunk c hk d) = some m1 →
        ∀ e ∈ m1.visit, e ∈ (Node.C bits values extra).visit := by
      intro m1 hs e he
      refine (visit_split ⟨bits, values, extra⟩ ok hi).mem_iff.2 (List.mem_append_left _ ?_)
      simpa [slotVisit, hs] using he
    obtain ⟨a', s', m1, nx, rfl, hsl, h1, h2, h3⟩ := Node.remove_C_inv ok hr
    have hD := Deep.iff (h := h) (d := d) (a := ⟨bits, values, extra⟩)
    simp only [Node.ofBia] at hD
    have ag2 : ∀ e ∈ (Node.ofBia a').visit, Agree c d (hash e.1) h := by
      intro e he
      rw [g2] at he
      exact (ag e (List.mem_filter.1 he).1).trans ag'.symm
    rw [hD, Deep.iff, hsl]
    by_cases hlast : d + 1 = c.levels
    · simp only [hlast, true_or, true_and, true_iff]
      right
      obtain ⟨e, he⟩ := List.exists_mem_of_ne_nil _ g3
      refine ⟨e, he, ?_⟩
      rw [show c.levels - 1 = d by omega]; exact ag2 e he
    simp only [hlast, false_or]
    have hlt : d < c.levels - 1 := by omega
    by_cases hck : chunk c h d = chunk c hk d
    · rw [if_pos hck, hck, h1]
      have ok' : a'.Ok := by unfold Node.ofBia at g4; cases g4 with | C _ _ _ _ _ o _ _ _ _ => exact o
      have at' : ∀ i m, a'.slot i = some m → ∀ e ∈ m.visit, chunk c (hash e.1) d = i := by
        unfold Node.ofBia at g4; cases g4 with | C _ _ _ _ _ _ _ _ o _ => exact o
      have hex := exists_slot (a := a') (h := h) (P := fun e => Agree c (c.levels - 1) (hash e.1) h)
        ok' at' (fun e he => he d hlt)
      have hv : (Node.ofBia a').visit = Node.visitAll a'.values := rfl
      rw [hv, hex, hsl, if_pos hck]
      have hnf : FlagFor hk (d + 1) nx := by
        rcases next_cases hk (c.levels_within _ hd) with ⟨nx', hnx, hnf⟩ | ⟨_, _, hnx⟩
        · rw [h2] at hnx; injection hnx with hnx; subst hnx; exact hnf
        · rw [h2] at hnx; simp at hnx
      have hag1 : ∀ e ∈ m1.visit, Agree c (d + 1) (hash e.1) hk :=
        fun e he => (ag e (hsub _ h1 e he)).succ (at_ _ _ h1 e he)
      rcases h3 with ⟨m1', rfl, h3⟩ | ⟨rfl, h3⟩
      · have := ih _ _ h1 hag1 (ag'.succ hck) hnf h3
        simp only [Option.some.injEq, exists_eq_left', this]
      · simp only [reduceCtorEq, false_and, exists_false, or_false, Option.some.injEq, exists_eq_left',
          false_iff, not_and, Classical.not_not]
        intro dp
        rcases Node.remove_spec c.levels_within hh hq (sub _ _ h1) hnf with ⟨r, hr', good⟩ | ⟨_, _, h4⟩
        · rw [h3] at hr'; injection hr' with hr'; subst hr'
          cases good with
          | removedZ _ _ z1 z2 =>
            obtain ⟨e, he, hag⟩ := dp.entry (sub _ _ h1) (ne _ _ h1)
              (fun e he => (hag1 e he).trans (ag'.succ hck).symm)
            have hqe : q e.1 = true := by
              cases hqe : q e.1 with
              | true => rfl
              | false =>
                have : e ∈ m1.visit.filter (fun e => !q e.1) := List.mem_filter.2 ⟨he, by simp [hqe]⟩
                rw [z2] at this; simp at this
            rw [hq.hash _ hqe] at hag
            exact hag.symm
        · rw [h3] at h4; simp at h4
    · rw [if_neg hck]
      have : ¬ Agree c (c.levels - 1) h hk := fun hag => hck (hag d hlt)
      simp [this]

/-! ### Histories -/

/-- A trie represents a map, and every deep path is forced by two entries. -/
structure CrowdRep (hash : K → BitVec c.w) (t : Trie c K V) (m : AMap K V) : Prop where
  rep : Rep hash c.levels (fun _ => True) t m
  deep : ∀ h : BitVec c.w, Deep c h 0 t.root → ∃ e1 ∈ m, ∃ e2 ∈ m, hash e1.1 ≠ hash e2.1 ∧
    stem c (hash e1.1) = stem c h ∧ stem c (hash e2.1) = stem c h

theorem Deep.new_not (hb : c.b < c.w) (h : BitVec c.w) :
    ¬ Deep c h 0 (Trie.new c : Trie c K V).root := by
  intro dp
  rcases Deep.iff.1 dp with h1 | ⟨m, h1, _⟩
  · have := c.levels_cover
    rw [← h1] at this; omega
  · have := Bia.slot_mem h1
    simp [Bia.default] at this

theorem CrowdRep.new (hb : c.b < c.w) : CrowdRep hash (Trie.new c : Trie c K V) [] where
  rep := ⟨Trie.new_valid c.levels_pos, List.Perm.refl _, fun _ _ => trivial⟩
  deep := fun h dp => absurd dp (Deep.new_not hb h)

theorem Crowd.overflows_true {m : AMap K V} {k : K} {e1 e2 : K × V} (h1 : e1 ∈ m) (h2 : e2 ∈ m)
    (h3 : hash e1.1 = hash k) (h4 : stem c (hash e2.1) = stem c (hash k)) (h5 : hash e2.1 ≠ hash k) :
    Crowd.overflows hash m k = true := by
  rw [Crowd.overflows, Bool.and_eq_true, List.any_eq_true, List.any_eq_true]
  exact ⟨⟨e1, h1, by simpa using h3⟩, e2, h2, by simp [h4, h5]⟩

theorem CrowdRep.overflows_iff {t : Trie c K V} {m : AMap K V} (r : CrowdRep hash t m) (k : K) :
    Crowd.overflows hash m k = true ↔
      Deep c (hash k) 0 t.root ∧ ∃ e ∈ t.root.visit, hash e.1 = hash k := by
  constructor
  · intro h
    rw [Crowd.overflows, Bool.and_eq_true, List.any_eq_true, List.any_eq_true] at h
    obtain ⟨⟨e1, h1, h2⟩, e2, h3, h4⟩ := h
    rw [Bool.and_eq_true, beq_iff_eq, bne_iff_ne, stem_eq_iff] at h4
    rw [beq_iff_eq] at h2
    have m1 := r.rep.perm.mem_iff.2 h1
    have m2 := r.rep.perm.mem_iff.2 h3
    exact ⟨Node.WF.deep r.rep.valid m2 m1 (by rw [h2]; exact h4.2) h4.1
      ((stem_eq_iff _ _).1 (by rw [h2])), e1, m1, h2⟩
  · rintro ⟨dp, e, he, heq⟩
    obtain ⟨e1, h1, e2, h2, h3, h4, h5⟩ := r.deep _ dp
    by_cases hx : hash e1.1 = hash k
    · exact Crowd.overflows_true h1 h2 hx h5 (fun h => h3 (hx.trans h.symm))
    · exact Crowd.overflows_true (r.rep.perm.mem_iff.1 he) h1 heq h4 hx

variable [EquivBEq K]

theorem Crowd.step_spec (hc : c.checked = true) (hb : c.b < c.w) (hh : HashOk hash)
    (ts : List (Trie c K V)) (ms : List (AMap K V)) (hr : Pointwise (CrowdRep hash) ts ms)
    (op : Op K V) :
    (Crowd.opOverflows hash ms op = true ∧ Trie.step hash ts op = .panic .shiftOverflow) ∨
      (Crowd.opOverflows hash ms op = false ∧ ∃ o ts', Trie.step hash ts op = .ok (o, ts') ∧
        o.Same (AMap.step ms op).1 ∧ Pointwise (CrowdRep hash) ts' (AMap.step ms op).2) := by
  cases op with
  | insert src k v replace =>
    simp only [Trie.step, Crowd.opOverflows, AMap.step]
    rcases hr.get? src with ⟨h1, h2⟩ | ⟨t, m, h1, h2, h3⟩
    · rw [h1, h2]; exact .inr ⟨rfl, _, _, rfl, rfl, hr⟩
    · rw [h1, h2]
      have hq := Query.ofKey hash hh k
      have hqk : (k == k) = true := BEq.rfl
      have hov := h3.overflows_iff k
      have hpan := Node.insert_panics hc hh v replace hq hqk h3.rep.valid (fun e _ => Agree.zero _ _)
        (flagFor_flagAt _ _)
      rw [← hov] at hpan
      simp only [Option.any_some]
      cases hovk : Crowd.overflows hash m k with
      | true =>
        left
        rw [hovk] at hpan
        refine ⟨rfl, ?_⟩
        rw [Trie.insert, Trie.insertQ, Flag.new_eq]
        simp only [Res.ok_bind, hpan.2 rfl]
        rfl
      | false =>
        right
        refine ⟨rfl, ?_⟩
        rw [hovk] at hpan
        have hf := h3.rep.find_eq hh k
        have hpf := h3.rep.perm.filter (fun e => !(e.1 == k))
        rcases Node.insert_spec c.levels_within hh v replace hq hqk h3.rep.valid
          (fun e _ h => h.eq c.levels_cover) (fun e _ => Agree.zero _ _) (flagFor_flagAt _ _) with
          ⟨r, hr', good⟩ | ⟨_, _, h4⟩
        · rw [Trie.insert, Trie.insertQ, Flag.new_eq]
          simp only [Res.ok_bind, hr']
          cases good with
          | found fk fv g1 g2 =>
            have g2 : t.visit.find? (fun e => e.1 == k) = some (fk, fv) := g2
            rw [hf] at g2
            simp only [AMap.insert, g2, g1]
            exact ⟨_, _, rfl, rfl, hr⟩
          | inserted m' prev g1 g2 g3 g4 g5 =>
            have g1 : prev = t.visit.find? (fun e => e.1 == k) := g1
            rw [hf] at g1
            have : AMap.insert m k v replace = .ok ((k, v) :: m.without k, prev) := by
              unfold AMap.insert
              rw [← g1]
              cases replace with
              | true => cases prev <;> rfl
              | false => rw [g2 rfl]
            rw [this]
            refine ⟨_, _, rfl, rfl,
              hr.append ⟨⟨g3, g4.trans (List.Perm.cons _ hpf), fun _ _ => trivial⟩, ?_⟩⟩
            intro h dp
            have keep : ∀ e1 ∈ m, ∀ e2 ∈ m, hash e1.1 ≠ hash e2.1 →
                stem c (hash e1.1) = stem c (hash e2.1) → e1 ∈ m.without k := by
              intro e1 h1 e2 h2 hne hst
              refine List.mem_filter.2 ⟨h1, ?_⟩
              cases hek : e1.1 == k with
              | false => rfl
              | true =>
                have hx := hh _ _ hek
                have := Crowd.overflows_true h1 h2 hx (hst.symm.trans (by rw [hx]))
                  (fun h => hne (hx.trans h.symm))
                rw [hovk] at this; simp at this
            rcases (Node.insert_deep hh hq hqk h3.rep.valid (fun e _ => Agree.zero _ _)
              (Agree.zero h (hash k)) (flagFor_flagAt _ _) hr').1 dp with dp | ⟨hag, e, he, he1, he2⟩
            · obtain ⟨e1, x1, e2, x2, x3, x4, x5⟩ := h3.deep h dp
              exact ⟨e1, List.mem_cons_of_mem _ (keep e1 x1 e2 x2 x3 (x4.trans x5.symm)), e2,
                List.mem_cons_of_mem _ (keep e2 x2 e1 x1 (fun h => x3 h.symm) (x5.trans x4.symm)), x3, x4, x5⟩
            · rw [← stem_eq_iff] at hag he1
              refine ⟨e, List.mem_cons_of_mem _ (List.mem_filter.2 ⟨h3.rep.perm.mem_iff.1 he, ?_⟩),
                (k, v), List.mem_cons_self .., he2, he1.trans hag.symm, hag.symm⟩
              cases hek : e.1 == k with
              | false => rfl
              | true => exact absurd (hh _ _ hek) he2
        · rw [hpan] at h4; simp at h4
  | remove src k =>
    simp only [Trie.step, Crowd.opOverflows, AMap.step]
    rcases hr.get? src with ⟨h1, h2⟩ | ⟨t, m, h1, h2, h3⟩
    · rw [h1, h2]; exact .inr ⟨rfl, _, _, rfl, rfl, hr⟩
    · rw [h1, h2]
      have hq := Query.ofKey hash hh k
      have hov := h3.overflows_iff k
      have hpan := Node.remove_panics hc (q := (· == k)) h3.rep.valid (fun e _ => Agree.zero _ _)
        (flagFor_flagAt (hash k) 0)
      rw [← hov] at hpan
      simp only [Option.any_some]
      cases hovk : Crowd.overflows hash m k with
      | true =>
        left
        rw [hovk] at hpan
        refine ⟨rfl, ?_⟩
        rw [Trie.remove, Trie.removeQ, Flag.new_eq]
        simp only [Res.ok_bind, hpan.2 rfl]
        rfl
      | false =>
        right
        refine ⟨rfl, ?_⟩
        rw [hovk] at hpan
        have hf := h3.rep.find_eq hh k
        have hpf := h3.rep.perm.filter (fun e => !(e.1 == k))
        rcases Node.remove_spec c.levels_within hh hq h3.rep.valid (flagFor_flagAt _ _) with
          ⟨r, hr', good⟩ | ⟨_, _, h4⟩
        · rw [Trie.remove, Trie.removeQ, Flag.new_eq]
          simp only [Res.ok_bind, hr']
          cases good with
          | notFound g1 =>
            have g1 : t.visit.find? (fun e => e.1 == k) = none := g1
            rw [hf] at g1
            simp only [AMap.remove, g1]
            exact ⟨_, _, rfl, rfl, hr⟩
          | removed m' k0 v0 g1 g2 g3 g4 =>
            have g1 : t.visit.find? (fun e => e.1 == k) = some (k0, v0) := g1
            rw [hf] at g1
            simp only [AMap.remove, g1, Option.map_some]
            have hperm : m'.visit.Perm (m.without k) := by rw [g2]; exact hpf
            refine ⟨_, _, rfl, rfl, hr.append ⟨⟨g4, hperm, fun _ _ => trivial⟩, ?_⟩⟩
            intro h dp
            have keep : ∀ e1 ∈ m, ∀ e2 ∈ m, hash e1.1 ≠ hash e2.1 →
                stem c (hash e1.1) = stem c (hash e2.1) → e1 ∈ m.without k := by
              intro e1 h1 e2 h2 hne hst
              refine List.mem_filter.2 ⟨h1, ?_⟩
              cases hek : e1.1 == k with
              | false => rfl
              | true =>
                have hx := hh _ _ hek
                have := Crowd.overflows_true h1 h2 hx (hst.symm.trans (by rw [hx]))
                  (fun h => hne (hx.trans h.symm))
                rw [hovk] at this; simp at this
            obtain ⟨e1, x1, e2, x2, x3, x4, x5⟩ := h3.deep h
              ((Node.remove_deep hh hq h3.rep.valid (fun e _ => Agree.zero _ _)
                (Agree.zero h (hash k)) (flagFor_flagAt _ _) hr').1 dp).1
            exact ⟨e1, keep e1 x1 e2 x2 x3 (x4.trans x5.symm), e2,
              keep e2 x2 e1 x1 (fun h => x3 h.symm) (x5.trans x4.symm), x3, x4, x5⟩
          | removedZ k0 v0 g1 g2 =>
            have g1 : t.visit.find? (fun e => e.1 == k) = some (k0, v0) := g1
            rw [hf] at g1
            simp only [AMap.remove, g1, Option.map_some]
            have hnil : m.without k = [] := by
              have : (t.visit.filter (fun e => !(e.1 == k))) = [] := g2
              rw [this] at hpf
              exact hpf.nil_eq.symm
            refine ⟨_, _, rfl, rfl, hr.append ?_⟩
            rw [hnil]; exact CrowdRep.new hb
        · rw [hpan] at h4; simp at h4
  | find src k =>
    right
    refine ⟨rfl, ?_⟩
    simp only [Trie.step, AMap.step]
    rcases hr.get? src with ⟨h1, h2⟩ | ⟨t, m, h1, h2, h3⟩
    · rw [h1, h2]; exact ⟨_, _, rfl, rfl, hr⟩
    · rw [h1, h2]
      simp only [Trie.find, Trie.findQ_eq c.levels_within h3.rep.valid (Query.ofKey hash hh k), Res.ok_bind]
      rw [h3.rep.find_eq hh k]
      cases m.find k <;> exact ⟨_, _, rfl, rfl, hr⟩
  | size src =>
    right
    refine ⟨rfl, ?_⟩
    simp only [Trie.step, AMap.step]
    rcases hr.get? src with ⟨h1, h2⟩ | ⟨t, m, h1, h2, h3⟩
    · rw [h1, h2]; exact ⟨_, _, rfl, rfl, hr⟩
    · rw [h1, h2]
      refine ⟨_, _, rfl, ?_, hr⟩
      rw [h3.rep.valid.size_eq, h3.rep.perm.length_eq]
      rfl
  | visit src =>
    right
    refine ⟨rfl, ?_⟩
    simp only [Trie.step, AMap.step]
    rcases hr.get? src with ⟨h1, h2⟩ | ⟨t, m, h1, h2, h3⟩
    · rw [h1, h2]; exact ⟨_, _, rfl, rfl, hr⟩
    · rw [h1, h2]
      exact ⟨_, _, rfl, h3.rep.perm, hr⟩

theorem Crowd.run_spec (hc : c.checked = true) (hb : c.b < c.w) (hh : HashOk hash) (ops : List (Op K V))
    (ts : List (Trie c K V)) (ms : List (AMap K V)) (hr : Pointwise (CrowdRep hash) ts ms) :
    (Crowd.run hash ms ops = none ∧ Trie.run hash ts ops = .panic .shiftOverflow) ∨
      (Crowd.run hash ms ops = some (AMap.run ms ops).1 ∧ ∃ os ts', Trie.run hash ts ops = .ok (os, ts') ∧
        Pointwise Out.Same os (AMap.run ms ops).1 ∧
        Pointwise (CrowdRep hash) ts' (AMap.run ms ops).2) := by
  induction ops generalizing ts ms with
  | nil => exact .inr ⟨rfl, _, _, rfl, trivial, hr⟩
  | cons op ops ih =>
    rcases Crowd.step_spec hc hb hh ts ms hr op with ⟨h1, h2⟩ | ⟨h1, o, ts', h2, h3, h4⟩
    · left
      rw [Crowd.run, Trie.run, h1, h2]; exact ⟨rfl, rfl⟩
    · rw [Crowd.run, Trie.run, h1, h2, AMap.run]
      simp only [Res.ok_bind, Bool.false_eq_true, if_false]
      rcases ih ts' _ h4 with ⟨e1, e2⟩ | ⟨e1, os, ts2, e2, e3, e4⟩
      · left; rw [e1, e2]; exact ⟨rfl, rfl⟩
      · right; rw [e1, e2]; exact ⟨rfl, _, _, rfl, ⟨h3, e3⟩, e4⟩

end HT
