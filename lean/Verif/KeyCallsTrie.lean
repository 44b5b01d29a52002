import Verif.KeyCallsInsert
import Verif.TransmuteLemmas
import Verif.EffBase
/-! # Runs of `find`, `insert` and `remove` on whole maps -/
namespace HT

namespace Tree
variable {Q : Type} {A : Q → Type} {α β : Type}

/-- A run of one program followed by another. -/
theorem Path.bind_cases {x : Tree Q A α} {f : α → Tree Q A β} {calls : List (Reply Q A)} {o : Outcome Q β}
    (h : (x.bind f).Path calls o) :
    (∃ a c1 c2, x.Path c1 (.ret a) ∧ (f a).Path c2 o ∧ calls = c1 ++ c2) ∨
    (∃ p, o = .panic p ∧ x.Path calls (.panic p)) ∨ (o = .diverge ∧ x.Path calls .diverge) ∨
    (∃ q, o = .closure q ∧ x.Path calls (.closure q)) := by
  induction x generalizing calls with
  | ret a => exact .inl ⟨a, [], calls, .ret a, h, rfl⟩
  | panic p => cases h; exact .inr (.inl ⟨p, rfl, .panic p⟩)
  | diverge => cases h; exact .inr (.inr (.inl ⟨rfl, .diverge⟩))
  | ask q k ih =>
    rw [ask_bind] at h
    cases h with
    | stop => exact .inr (.inr (.inr ⟨q, rfl, .stop q k⟩))
    | ask _ _ a tr _ h =>
      rcases ih a h with ⟨b, c1, c2, h1, h2, h3⟩ | ⟨p, h1, h2⟩ | ⟨h1, h2⟩ | ⟨q', h1, h2⟩
      · exact .inl ⟨b, _ :: c1, c2, .ask q k a _ _ h1, h2, by rw [h3]; rfl⟩
      · exact .inr (.inl ⟨p, h1, .ask q k a _ _ h2⟩)
      · exact .inr (.inr (.inl ⟨h1, .ask q k a _ _ h2⟩))
      · exact .inr (.inr (.inr ⟨q', h1, .ask q k a _ _ h2⟩))

theorem Path.bind {x : Tree Q A α} {f : α → Tree Q A β} {a : α} {c1 c2 : List (Reply Q A)} {o : Outcome Q β}
    (h1 : x.Path c1 (.ret a)) (h2 : (f a).Path c2 o) : (x.bind f).Path (c1 ++ c2) o := by
  generalize ho : Outcome.ret a = o1 at h1
  induction h1 with
  | ret b => cases ho; exact h2
  | panic p => cases ho
  | diverge => cases ho
  | stop q k => cases ho
  | ask q k b tr o1 h ih =>
    subst ho
    exact .ask q _ b _ _ (ih rfl)

theorem Path.bind_stop {x : Tree Q A α} {f : α → Tree Q A β} {q : Q} {calls : List (Reply Q A)}
    (h : x.Path calls (.closure q)) : (x.bind f).Path calls (.closure q) := by
  generalize ho : Outcome.closure (α := α) q = o1 at h
  induction h with
  | ret b => cases ho
  | panic p => cases ho
  | diverge => cases ho
  | stop q k => cases ho; exact .stop _ _
  | ask q k b tr o1 h ih =>
    subst ho
    exact .ask _ _ b _ _ (ih rfl)

/-- How a run ends, without the state it leaves. -/
def Outcome.fst {σ : Type} : Outcome Q (α × σ) → Outcome Q α
  | .ret a => .ret a.1
  | .panic p => .panic p
  | .diverge => .diverge
  | .closure q => .closure q

/-- Every run with some closures is a path. -/
theorem path_run {σ : Type} (env : (q : Q) → σ → Option (A q × σ)) (x : Tree Q A α) (st : σ) :
    x.Path (x.run env st).2 (Outcome.fst (x.run env st).1) := by
  induction x generalizing st with
  | ret a => exact .ret a
  | panic p => exact .panic p
  | diverge => exact .diverge
  | ask q k ih =>
    rw [run]
    cases h : env q st with
    | none => exact .stop q k
    | some r => exact .ask q k r.1 _ _ (ih r.1 r.2)

open Classical in
/-- The closures that answer what is listed. -/
noncomputable def replay : (q : Q) → List (Reply Q A) → Option (A q × List (Reply Q A))
  | _, [] => none
  | q, ⟨q', a⟩ :: tr => if h : q' = q then a.map fun a => (h ▸ a, tr) else none

theorem Path.run_replay {x : Tree Q A α} {calls : List (Reply Q A)} {o : Outcome Q α} (h : x.Path calls o) :
    Outcome.fst (x.run replay calls).1 = o ∧ (x.run replay calls).2 = calls := by
  induction h with
  | ret a => exact ⟨rfl, rfl⟩
  | panic p => exact ⟨rfl, rfl⟩
  | diverge => exact ⟨rfl, rfl⟩
  | stop q k => simp [run, replay, Outcome.fst]
  | ask q k a tr o h ih => simp [run, replay, ih]

end Tree

variable {K V : Type} {c : Cfg} {hash : K → BitVec c.w}
open Tree

/-- A run with right hashes. -/
theorem path_resolve {α : Type} {x : KTree c K V α} {calls : List (Reply (KCall K V) (KAns K V c.w))}
    {o : Outcome (KCall K V) α} (hh : ∀ k a, ⟨.hash k, some a⟩ ∈ calls → a = hash k) :
    (resolve hash x).Path calls o ↔ x.Path calls o := by
  induction x generalizing calls with
  | ret a => rfl
  | panic p => rfl
  | diverge => rfl
  | ask q k ih =>
    cases q with
    | hash k' =>
      constructor
      · intro h
        cases h with
        | stop => exact .stop _ _
        | ask _ _ a tr _ h =>
          have := hh k' a (List.mem_cons_self ..)
          subst this
          exact .ask _ _ _ _ _ ((ih _ fun k a h => hh k a (List.mem_cons_of_mem _ h)).1 h)
      · intro h
        cases h with
        | stop => exact .stop _ _
        | ask _ _ a tr _ h =>
          have := hh k' a (List.mem_cons_self ..)
          subst this
          exact .ask (A := KAns K V c.w) (.hash k') _ _ _ _
            ((ih _ fun k a h => hh k a (List.mem_cons_of_mem _ h)).2 h)
    | _ =>
      constructor
      · intro h
        cases h with
        | stop => exact .stop _ _
        | ask _ _ a tr _ h =>
          exact .ask _ _ _ _ _ ((ih _ fun k a h => hh k a (List.mem_cons_of_mem _ h)).1 h)
      · intro h
        cases h with
        | stop => exact .stop _ _
        | ask _ _ a tr _ h =>
          exact .ask (A := KAns K V c.w) _ _ _ _ _
            ((ih _ fun k a h => hh k a (List.mem_cons_of_mem _ h)).2 h)

/-- The call `k == key`, answered `a`. -/
abbrev eqCall (c : Cfg) (a : Bool) (e : K × V) : Reply (KCall K V) (KAns K V c.w) := ⟨.eq e.1, some (a : Bool)⟩

/-- The calls of `look`, if it returns `r`. -/
def lookCalls (c : Cfg) (b : List (K × V)) :
    Option (List (K × V) × (K × V) × List (K × V)) → List (Reply (KCall K V) (KAns K V c.w))
  | none => b.map (eqCall c false)
  | some (p, e, _) => p.map (eqCall c false) ++ [eqCall c true e]

/-- How `look` may end. -/
inductive LookEnds (c : Cfg) (b : List (K × V)) : List (Reply (KCall K V) (KAns K V c.w)) →
    Outcome (KCall K V) (Option (List (K × V) × (K × V) × List (K × V))) → Prop
  | none : LookEnds c b (b.map (eqCall c false)) (.ret none)
  | some (p : List (K × V)) (e : K × V) (q : List (K × V)) : b = p ++ e :: q →
      LookEnds c b (p.map (eqCall c false) ++ [eqCall c true e]) (.ret (some (p, e, q)))
  | stop (p : List (K × V)) (e : K × V) (q : List (K × V)) : b = p ++ e :: q →
      LookEnds c b (p.map (eqCall c false) ++ [⟨.eq e.1, none⟩]) (.closure (.eq e.1))

theorem look_path {b : List (K × V)} {calls : List (Reply (KCall K V) (KAns K V c.w))}
    {o : Outcome (KCall K V) (Option (List (K × V) × (K × V) × List (K × V)))} :
    (look c b).Path calls o ↔ LookEnds c b calls o := by
  constructor
  · intro h
    induction b generalizing calls o with
    | nil => cases h; exact .none
    | cons e b ih =>
      rw [look] at h
      cases h with
      | stop => exact .stop [] e b rfl
      | ask _ _ a tr _ h =>
        cases a with
        | true => cases h; exact .some [] e b rfl
        | false =>
          rcases Path.bind_cases h with ⟨r, c1, c2, h1, h2, h3⟩ | ⟨p, _, h2⟩ | ⟨_, h2⟩ | ⟨q, h1, h2⟩
          · cases h2
            subst h3
            rw [List.append_nil]
            have := ih h1
            generalize ho : Outcome.ret r = o1 at this
            cases this with
            | none => cases ho; exact .none
            | some p' e' q' hb => cases ho; exact .some (e :: p') e' q' (by rw [hb]; rfl)
            | stop => cases ho
          · have := ih h2; cases this
          · have := ih h2; cases this
          · subst h1
            have := ih h2
            cases this with
            | stop p' e' q' hb => exact .stop (e :: p') e' q' (by rw [hb]; rfl)
  · intro h
    induction b generalizing calls o with
    | nil =>
      cases h with
      | none => exact .ret _
      | some p e q hb => simp at hb
      | stop p e q hb => simp at hb
    | cons e b ih =>
      rw [look]
      cases h with
      | none =>
        refine .ask (A := KAns K V c.w) (.eq e.1) _ false _ _ ?_
        have := Path.bind (f := fun r => Tree.ret (r.map fun (p, e', q) => (e :: p, e', q))) (ih .none) (.ret _)
        rw [List.append_nil] at this
        exact this
      | some p e' q hb =>
        cases p with
        | nil =>
          simp only [List.nil_append, List.cons.injEq] at hb
          obtain ⟨rfl, rfl⟩ := hb
          exact .ask (A := KAns K V c.w) (.eq e.1) _ true _ _ (.ret _)
        | cons x p =>
          simp only [List.cons_append, List.cons.injEq] at hb
          obtain ⟨rfl, rfl⟩ := hb
          refine .ask (A := KAns K V c.w) (.eq e.1) _ false _ _ ?_
          have := Path.bind (f := fun r => Tree.ret (r.map fun (p, e', q) => (e :: p, e', q)))
            (ih (.some p e' q rfl)) (.ret _)
          rw [List.append_nil] at this
          exact this
      | stop p e' q hb =>
        cases p with
        | nil =>
          simp only [List.nil_append, List.cons.injEq] at hb
          obtain ⟨rfl, rfl⟩ := hb
          exact .stop _ _
        | cons x p =>
          simp only [List.cons_append, List.cons.injEq] at hb
          obtain ⟨rfl, rfl⟩ := hb
          refine .ask (A := KAns K V c.w) (.eq e.1) _ false _ _ ?_
          exact Path.bind_stop (ih (.stop p e' q rfl))

theorem copy_path {b : List (K × V)} {calls : List (Reply (KCall K V) (KAns K V c.w))}
    {o : Outcome (KCall K V) Unit} (h : (copy c b).Path calls o) :
    (o = .ret () ∨ ∃ q, o = .closure q) ∧ calls.length ≤ 2 * b.length ∧
      ∀ x ∈ calls, (∃ e ∈ b, x.1 = .cloneKey e.1) ∨ ∃ e ∈ b, x.1 = .cloneValue e.2 := by
  induction b generalizing calls o with
  | nil => cases h; exact ⟨.inl rfl, by simp, by simp⟩
  | cons e b ih =>
    rw [copy] at h
    have up : ∀ {x : Reply (KCall K V) (KAns K V c.w)},
        ((∃ e ∈ b, x.1 = .cloneKey e.1) ∨ ∃ e ∈ b, x.1 = .cloneValue e.2) →
        (∃ e' ∈ e :: b, x.1 = .cloneKey e'.1) ∨ ∃ e' ∈ e :: b, x.1 = .cloneValue e'.2 := by
      rintro x (⟨e', h1, h2⟩ | ⟨e', h1, h2⟩)
      · exact .inl ⟨e', List.mem_cons_of_mem _ h1, h2⟩
      · exact .inr ⟨e', List.mem_cons_of_mem _ h1, h2⟩
    rcases Path.bind_cases h with ⟨r, c1, c2, h1, h2, h3⟩ | ⟨p, _, h2⟩ | ⟨_, h2⟩ | ⟨q, h1, h2⟩
    · subst h3
      obtain ⟨_, i2, i3⟩ := ih h1
      have k2 : (o = .ret () ∨ ∃ q, o = .closure q) ∧ c2.length ≤ 2 ∧
          ∀ x ∈ c2, x.1 = .cloneKey e.1 ∨ x.1 = .cloneValue e.2 := by
        cases h2 with
        | stop => exact ⟨.inr ⟨_, rfl⟩, by simp, by simp⟩
        | ask _ _ a tr _ h =>
          cases h with
          | stop => exact ⟨.inr ⟨_, rfl⟩, by simp, by simp⟩
          | ask _ _ a tr _ h => cases h; exact ⟨.inl rfl, by simp, by simp⟩
      refine ⟨k2.1, by simp only [List.length_append, List.length_cons]; omega, ?_⟩
      intro x hx
      rcases List.mem_append.1 hx with hx | hx
      · exact up (i3 x hx)
      · rcases k2.2.2 x hx with h | h
        · exact .inl ⟨e, List.mem_cons_self .., h⟩
        · exact .inr ⟨e, List.mem_cons_self .., h⟩
    · rcases (ih h2).1 with h | ⟨_, h⟩ <;> cases h
    · rcases (ih h2).1 with h | ⟨_, h⟩ <;> cases h
    · subst h1
      obtain ⟨_, i2, i3⟩ := ih h2
      exact ⟨.inr ⟨q, rfl⟩, by simp only [List.length_cons]; omega, fun x hx => up (i3 x hx)⟩

theorem convert_path {calls : List (Reply (KCall K V) (KAns K V c.w))}
    {o : Outcome (KCall K V) Unit} (h : (convert c).Path calls o) :
    (o = .ret () ∨ ∃ q, o = .closure q) ∧ calls.length ≤ 2 ∧
      ∀ x ∈ calls, x.1 = .intoKey ∨ x.1 = .intoValue := by
  cases h with
  | stop => exact ⟨.inr ⟨_, rfl⟩, by simp, by simp⟩
  | ask _ _ a tr _ h =>
    cases h with
    | stop => exact ⟨.inr ⟨_, rfl⟩, by simp, by simp⟩
    | ask _ _ a tr _ h => cases h; exact ⟨.inl rfl, by simp, by simp⟩

section
attribute [local instance] Lawless.noEq

/-- `find` after hashing the key. -/
theorem Trie.findK_spec {t : Trie c K V} (ht : t.ValidAt hash c.levels) :
    ∃ T : BitVec c.w → KTree c K V (Option (K × V)), t.findK = .ask .lookupHash T ∧
      ∀ h, ∃ b, Bucket.Of hash t.visit h b ∧ T h = findRef c b := by
  refine ⟨fun h => (Tree.res (Flag.new h)).bind fun f => t.root.findK c (some f), rfl, fun h => ?_⟩
  obtain ⟨b, h1, h2⟩ := Node.findK_eq (h := h) c.levels_within ht (some (flagAt h 0)) (fun _ => rfl)
  exact ⟨b, h1, by simpa only [Flag.new_eq, res_ok, ret_bind] using h2⟩

/-- `remove` after hashing the key. -/
theorem Trie.removeK_spec {t : Trie c K V} (ht : t.ValidAt hash c.levels) :
    ∃ T : BitVec c.w → KTree c K V (Option (Trie c K V × (K × V))), t.removeK = .ask .lookupHash T ∧
      ∀ h, ∃ b, Bucket.Of hash t.visit h b ∧
        ((∃ g, T h = removeRef c b g ∧ ∀ p e q, b.mid = p ++ e :: q →
          (g p e q).visit = b.before ++ (p ++ q) ++ b.after ∧ (g p e q).ValidAt hash c.levels) ∨
        (c.checked = true ∧ T h = .panic .shiftOverflow)) := by
  refine ⟨fun h => (Tree.res (Flag.new h)).bind fun f => (t.root.removeK c (some f)).bind fun r => match r with
    | .notFound => .ret none
    | .removed m k v => .ret (some (⟨m⟩, (k, v)))
    | .removedZ k v => .ret (some (new c, (k, v))), rfl, fun h => ?_⟩
  obtain ⟨b, h1, h2⟩ := Node.removeK_eq (h := h) c.levels_within ht (flagFor_flagAt h 0)
  refine ⟨b, h1, ?_⟩
  simp only [ret_bind, Flag.new_eq, res_ok]
  rcases h2 with ⟨g, h2, h3⟩ | ⟨h2, h3⟩
  · refine .inl ⟨fun p e q => match g p e q with
      | .removed m _ _ => ⟨m⟩
      | _ => Trie.new c, ?_, ?_⟩
    · rw [h2, nodeRemoveRef, removeRef, bind_assoc']
      apply look_congr
      · rfl
      · intro p e q hb
        have := h3 p e q hb
        simp only [bind_assoc', ret_bind]
        congr 1; funext _
        revert this
        generalize g p e q = r
        intro this
        cases this <;> rfl
    · intro p e q hb
      have := h3 p e q hb
      revert this
      simp only
      generalize g p e q = r
      intro this
      cases this with
      | removed m h4 h5 h6 => exact ⟨h4, h6⟩
      | removedZ h4 => exact ⟨h4.symm, Trie.new_valid c.levels_pos⟩
  · exact .inr ⟨h2, by rw [h3]; rfl⟩

/-- `insert` after hashing the key. -/
theorem Trie.insertK_spec {t : Trie c K V} (ht : t.ValidAt hash c.levels) (k : K) (v : V) (replace : Bool) :
    ∃ T : BitVec c.w → KTree c K V (Except (K × V) (Trie c K V × (K × V) × Option (K × V))),
      t.insertK k v replace = .ask .lookupHash T ∧
      ∃ b, Bucket.Of hash t.visit (hash k) b ∧
        ((∃ new g, resolve hash (T (hash k)) = insertRef c k v replace b new g ∧
          (new.visit.Perm ((k, v) :: t.visit) ∧ new.ValidAt hash c.levels) ∧
          ∀ p e q, b.mid = p ++ e :: q →
            (g p e q).visit.Perm ((k, v) :: (b.before ++ (p ++ q) ++ b.after)) ∧
            (g p e q).size = (g p e q).visit.length ∧ (hash e.1 = hash k → (g p e q).ValidAt hash c.levels)) ∨
        (c.checked = true ∧ T (hash k) = .panic .shiftOverflow)) := by
  refine ⟨fun h => (Tree.res (Flag.new h)).bind fun f => (t.root.insertK c k v replace (some f)).bind fun r =>
    match r with
    | .found k0 v0 => .ret (.error (k0, v0))
    | .inserted m ptr prev => .ret (.ok (⟨m⟩, ptr, prev)), rfl, ?_⟩
  obtain ⟨b, h1, h2⟩ := Node.insertK_eq c.levels_within (k := k) v replace ht
    (fun e _ ag => ag.eq c.levels_cover) (fun e _ => Agree.zero _ _) (flagFor_flagAt (hash k) 0)
  refine ⟨b, h1, ?_⟩
  simp only [ret_bind, Flag.new_eq, res_ok]
  rcases h2 with ⟨new, g, h2, h3, h4⟩ | ⟨h2, h3⟩
  · refine .inl ⟨⟨new⟩, fun p e q => ⟨g p e q⟩, ?_, ⟨h3.visit, h3.wf trivial⟩, ?_⟩
    · rw [resolve_bind, h2, insertRef_eq]
      refine insRef_bind rfl (fun p e q _ => rfl) (fun e => rfl)
    · intro p e q hb
      have := h4 p e q hb
      exact ⟨this.visit, this.size, this.wf⟩
  · exact .inr ⟨h2, by rw [h3]; rfl⟩

/-- How `insert` may end. -/
inductive InsEnds (c : Cfg) (k : K) (v : V) (replace : Bool) (b : Bucket K V) (new : Trie c K V)
    (g : List (K × V) → K × V → List (K × V) → Trie c K V) (calls : List (Reply (KCall K V) (KAns K V c.w))) :
    Outcome (KCall K V) (Except (K × V) (Trie c K V × (K × V) × Option (K × V))) → Prop
  | closure (q : KCall K V) : InsEnds c k v replace b new g calls (.closure q)
  | new : InsEnds c k v replace b new g calls (.ret (.ok (new, (k, v), none)))
  | found (p : List (K × V)) (e : K × V) (q : List (K × V)) : b.mid = p ++ e :: q → eqCall c true e ∈ calls →
      replace = false → InsEnds c k v replace b new g calls (.ret (.error e))
  | replaced (p : List (K × V)) (e : K × V) (q : List (K × V)) : b.mid = p ++ e :: q → eqCall c true e ∈ calls →
      replace = true → InsEnds c k v replace b new g calls (.ret (.ok (g p e q, (k, v), some e)))
  | confused (e : K × V) : e ∈ b.mid → eqCall c true e ∈ calls → eqCall c false e ∈ calls → replace = true →
      InsEnds c k v replace b new g calls (.panic .explicit)

/-- Bounds on the numbers of calls. -/
structure Cost (calls : List (Reply (KCall K V) (KAns K V c.w))) (e h i l : Nat) : Prop where
  eq : callsOf .eq calls ≤ e
  hash : callsOf .hash calls ≤ h
  into : callsOf .into calls ≤ i
  clone : callsOf .clone calls ≤ l
  lookup : callsOf .lookupHash calls = 0

theorem Cost.nil : Cost ([] : List (Reply (KCall K V) (KAns K V c.w))) 0 0 0 0 := by
  constructor <;> simp [callsOf]

theorem Cost.append {c1 c2 : List (Reply (KCall K V) (KAns K V c.w))} {e1 h1 i1 l1 e2 h2 i2 l2 : Nat}
    (a : Cost c1 e1 h1 i1 l1) (b : Cost c2 e2 h2 i2 l2) :
    Cost (c1 ++ c2) (e1 + e2) (h1 + h2) (i1 + i2) (l1 + l2) := by
  obtain ⟨a1, a2, a3, a4, a5⟩ := a
  obtain ⟨b1, b2, b3, b4, b5⟩ := b
  constructor <;> simp only [callsOf, List.countP_append] at * <;> omega

theorem Cost.mono {calls : List (Reply (KCall K V) (KAns K V c.w))} {e1 h1 i1 l1 e2 h2 i2 l2 : Nat}
    (a : Cost calls e1 h1 i1 l1) (he : e1 ≤ e2) (hh : h1 ≤ h2) (hi : i1 ≤ i2) (hl : l1 ≤ l2) :
    Cost calls e2 h2 i2 l2 :=
  ⟨Nat.le_trans a.1 he, Nat.le_trans a.2 hh, Nat.le_trans a.3 hi, Nat.le_trans a.4 hl, a.5⟩

theorem callsOf_kind {κ : KKind} {calls : List (Reply (KCall K V) (KAns K V c.w))}
    (hk : ∀ x ∈ calls, x.1.kind = κ) (κ' : KKind) : callsOf κ' calls = if κ' = κ then calls.length else 0 := by
  unfold callsOf
  split
  · rename_i h; subst h
    rw [List.countP_eq_length]
    intro x hx; simp [hk x hx]
  · rename_i h
    rw [List.countP_eq_zero]
    intro x hx; simp [hk x hx]; exact fun h' => h h'.symm

theorem cost_eq {calls : List (Reply (KCall K V) (KAns K V c.w))} {n : Nat} (hl : calls.length ≤ n)
    (hk : ∀ x ∈ calls, x.1.kind = .eq) : Cost calls n 0 0 0 := by
  constructor <;> simp [callsOf_kind hk, hl]

theorem cost_hash {calls : List (Reply (KCall K V) (KAns K V c.w))} {n : Nat} (hl : calls.length ≤ n)
    (hk : ∀ x ∈ calls, x.1.kind = .hash) : Cost calls 0 n 0 0 := by
  constructor <;> simp [callsOf_kind hk, hl]

theorem cost_into {calls : List (Reply (KCall K V) (KAns K V c.w))} {n : Nat} (hl : calls.length ≤ n)
    (hk : ∀ x ∈ calls, x.1.kind = .into) : Cost calls 0 0 n 0 := by
  constructor <;> simp [callsOf_kind hk, hl]

theorem cost_clone {calls : List (Reply (KCall K V) (KAns K V c.w))} {n : Nat} (hl : calls.length ≤ n)
    (hk : ∀ x ∈ calls, x.1.kind = .clone) : Cost calls 0 0 0 n := by
  constructor <;> simp [callsOf_kind hk, hl]

theorem kind_map (b : List (K × V)) : ∀ x ∈ b.map (eqCall c false), x.1.kind = .eq := by
  intro x hx
  obtain ⟨e, _, rfl⟩ := List.mem_map.1 hx
  rfl

theorem kind_snoc (b : List (K × V)) {y : Reply (KCall K V) (KAns K V c.w)} (hy : y.1.kind = .eq) :
    ∀ x ∈ b.map (eqCall c false) ++ [y], x.1.kind = .eq := by
  intro x hx
  rcases List.mem_append.1 hx with h | h
  · exact kind_map b x h
  · rw [List.mem_singleton.1 h]; exact hy

theorem LookEnds.cost {b : List (K × V)} {calls : List (Reply (KCall K V) (KAns K V c.w))}
    {o : Outcome (KCall K V) (Option (List (K × V) × (K × V) × List (K × V)))} (h : LookEnds c b calls o) :
    Cost calls b.length 0 0 0 := by
  cases h with
  | none => exact cost_eq (by simp) (kind_map _)
  | some p e q hb => exact cost_eq (by rw [hb]; simp) (kind_snoc _ rfl)
  | stop p e q hb => exact cost_eq (by rw [hb]; simp) (kind_snoc _ rfl)

theorem copy_cost {b : List (K × V)} {calls : List (Reply (KCall K V) (KAns K V c.w))}
    {o : Outcome (KCall K V) Unit} (h : (copy c b).Path calls o) : Cost calls 0 0 0 (2 * b.length) := by
  obtain ⟨_, h2, h3⟩ := copy_path h
  refine cost_clone h2 fun x hx => ?_
  rcases h3 x hx with ⟨e, _, h⟩ | ⟨e, _, h⟩ <;> rw [h] <;> rfl

theorem convert_cost {calls : List (Reply (KCall K V) (KAns K V c.w))}
    {o : Outcome (KCall K V) Unit} (h : (convert c).Path calls o) : Cost calls 0 0 2 0 := by
  obtain ⟨_, h2, h3⟩ := convert_path h
  refine cost_into h2 fun x hx => ?_
  rcases h3 x hx with h | h <;> rw [h] <;> rfl

theorem LookEnds.ok {b : List (K × V)} {calls : List (Reply (KCall K V) (KAns K V c.w))}
    {o : Outcome (KCall K V) (Option (List (K × V) × (K × V) × List (K × V)))} (h : LookEnds c b calls o) :
    (∃ a, o = .ret a) ∨ ∃ q, o = .closure q := by
  cases h
  · exact .inl ⟨_, rfl⟩
  · exact .inl ⟨_, rfl⟩
  · exact .inr ⟨_, rfl⟩

/-- How a program starting with `look` may go on. -/
theorem look_bind_path {β : Type} {b : List (K × V)}
    {f : Option (List (K × V) × (K × V) × List (K × V)) → KTree c K V β}
    {calls : List (Reply (KCall K V) (KAns K V c.w))} {o : Outcome (KCall K V) β} (h : ((look c b).bind f).Path calls o) :
    (∃ q, o = .closure q ∧ Cost calls b.length 0 0 0) ∨
    (∃ c2, calls = b.map (eqCall c false) ++ c2 ∧ (f none).Path c2 o) ∨
    (∃ p e q c2, b = p ++ e :: q ∧ calls = p.map (eqCall c false) ++ [eqCall c true e] ++ c2 ∧
      (f (some (p, e, q))).Path c2 o) := by
  rcases Path.bind_cases h with ⟨r, c1, c2, h1, h2, h3⟩ | ⟨p, _, h2⟩ | ⟨_, h2⟩ | ⟨q, h1, h2⟩
  · subst h3
    have := look_path.1 h1
    generalize ho : Outcome.ret r = o1 at this
    cases this with
    | none => cases ho; exact .inr (.inl ⟨c2, rfl, h2⟩)
    | some p e q hb => cases ho; exact .inr (.inr ⟨p, e, q, c2, hb, rfl, h2⟩)
    | stop => cases ho
  · have := look_path.1 h2; cases this
  · have := look_path.1 h2; cases this
  · exact .inl ⟨q, h1, (look_path.1 h2).cost⟩

theorem convert_bind_path {β : Type} {f : Unit → KTree c K V β}
    {calls : List (Reply (KCall K V) (KAns K V c.w))} {o : Outcome (KCall K V) β} (h : ((convert c).bind f).Path calls o) :
    (∃ q, o = .closure q ∧ Cost calls 0 0 2 0) ∨
    (∃ c1 c2, calls = c1 ++ c2 ∧ Cost c1 0 0 2 0 ∧ (f ()).Path c2 o) := by
  rcases Path.bind_cases h with ⟨r, c1, c2, h1, h2, h3⟩ | ⟨p, _, h2⟩ | ⟨_, h2⟩ | ⟨q, h1, h2⟩
  · exact .inr ⟨c1, c2, h3, convert_cost h1, h2⟩
  · rcases (convert_path h2).1 with h | ⟨_, h⟩ <;> cases h
  · rcases (convert_path h2).1 with h | ⟨_, h⟩ <;> cases h
  · exact .inl ⟨q, h1, convert_cost h2⟩

theorem copy_bind_path {β : Type} {b : List (K × V)} {f : Unit → KTree c K V β}
    {calls : List (Reply (KCall K V) (KAns K V c.w))} {o : Outcome (KCall K V) β} (h : ((copy c b).bind f).Path calls o) :
    (∃ q, o = .closure q ∧ Cost calls 0 0 0 (2 * b.length)) ∨
    (∃ c1 c2, calls = c1 ++ c2 ∧ Cost c1 0 0 0 (2 * b.length) ∧ (f ()).Path c2 o) := by
  rcases Path.bind_cases h with ⟨r, c1, c2, h1, h2, h3⟩ | ⟨p, _, h2⟩ | ⟨_, h2⟩ | ⟨q, h1, h2⟩
  · exact .inr ⟨c1, c2, h3, copy_cost h1, h2⟩
  · rcases (copy_path h2).1 with h | ⟨_, h⟩ <;> cases h
  · rcases (copy_path h2).1 with h | ⟨_, h⟩ <;> cases h
  · exact .inl ⟨q, h1, copy_cost h2⟩

theorem no_cost (b : List (K × V)) : Cost (b.map (eqCall c false)) b.length 0 0 0 :=
  cost_eq (by simp) (kind_map _)

theorem yes_cost {b p q : List (K × V)} {e : K × V} (hb : b = p ++ e :: q) :
    Cost (p.map (eqCall c false) ++ [eqCall c true e]) b.length 0 0 0 :=
  cost_eq (by rw [hb]; simp) (kind_snoc _ rfl)

theorem findRef_path {b : Bucket K V} {calls : List (Reply (KCall K V) (KAns K V c.w))}
    {o : Outcome (KCall K V) (Option (K × V))} (h : (findRef c b).Path calls o) :
    Cost calls b.mid.length 0 0 0 ∧ ((∃ q, o = .closure q) ∨
      (o = .ret none ∧ calls = b.mid.map (eqCall c false)) ∨
      ∃ p e q, b.mid = p ++ e :: q ∧ o = .ret (some e) ∧ calls = p.map (eqCall c false) ++ [eqCall c true e]) := by
  rcases look_bind_path h with ⟨q, h1, h2⟩ | ⟨c2, h1, h2⟩ | ⟨p, e, q, c2, hb, h1, h2⟩
  · exact ⟨h2, .inl ⟨q, h1⟩⟩
  · cases h2; rw [List.append_nil] at h1; subst h1
    exact ⟨no_cost _, .inr (.inl ⟨rfl, rfl⟩)⟩
  · cases h2; rw [List.append_nil] at h1; subst h1
    exact ⟨yes_cost hb, .inr (.inr ⟨p, e, q, hb, rfl, rfl⟩)⟩

theorem removeRef_path {b : Bucket K V} {g : List (K × V) → K × V → List (K × V) → Trie c K V}
    {calls : List (Reply (KCall K V) (KAns K V c.w))}
    {o : Outcome (KCall K V) (Option (Trie c K V × (K × V)))} (h : (removeRef c b g).Path calls o) :
    Cost calls b.mid.length 0 0 (2 * (b.mid.length - 1)) ∧ ((∃ q, o = .closure q) ∨
      (o = .ret none ∧ calls = b.mid.map (eqCall c false)) ∨
      ∃ p e q, b.mid = p ++ e :: q ∧ o = .ret (some (g p e q, e)) ∧ eqCall c true e ∈ calls ∧
        ∀ x ∈ p, eqCall c false x ∈ calls) := by
  rcases look_bind_path h with ⟨q, h1, h2⟩ | ⟨c2, h1, h2⟩ | ⟨p, e, q, c2, hb, h1, h2⟩
  · exact ⟨h2.mono (Nat.le_refl _) (Nat.le_refl _) (Nat.le_refl _) (Nat.zero_le _), .inl ⟨q, h1⟩⟩
  · cases h2; rw [List.append_nil] at h1; subst h1
    exact ⟨(no_cost _).mono (Nat.le_refl _) (Nat.le_refl _) (Nat.le_refl _) (Nat.zero_le _), .inr (.inl ⟨rfl, rfl⟩)⟩
  · have hp : 2 * p.length ≤ 2 * (b.mid.length - 1) := by rw [hb]; simp; omega
    rcases copy_bind_path h2 with ⟨q', h3, h4⟩ | ⟨d1, d2, h3, h4, h5⟩
    · subst h1
      exact ⟨((yes_cost hb).append h4).mono (by omega) (by omega) (by omega) (by omega), .inl ⟨q', h3⟩⟩
    · cases h5; rw [List.append_nil] at h3; subst h3
      subst h1
      refine ⟨((yes_cost hb).append h4).mono (by omega) (by omega) (by omega) (by omega),
        .inr (.inr ⟨p, e, q, hb, rfl, by simp, fun x hx => ?_⟩)⟩
      exact List.mem_append_left _ (List.mem_append_left _ (List.mem_map_of_mem hx))

theorem insertRef_path {k : K} {v : V} {replace : Bool} {b : Bucket K V} {new : Trie c K V}
    {g : List (K × V) → K × V → List (K × V) → Trie c K V} {calls : List (Reply (KCall K V) (KAns K V c.w))}
    {o : Outcome (KCall K V) (Except (K × V) (Trie c K V × (K × V) × Option (K × V)))}
    (h : (insertRef c k v replace b new g).Path calls o) :
    Cost calls (2 * b.mid.length) 1 2 (2 * (b.mid.length - 1)) ∧ InsEnds c k v replace b new g calls o := by
  rw [insertRef_eq] at h
  rcases look_bind_path h with ⟨q, h1, h2⟩ | ⟨c2, h1, h2⟩ | ⟨p, e, q, c2, hb, h1, h2⟩
  · subst h1
    exact ⟨h2.mono (by omega) (by omega) (by omega) (by omega), .closure q⟩
  · have fin : ∀ {c3 : List (Reply (KCall K V) (KAns K V c.w))}, ((convert c).bind fun _ =>
        (.ret (.ok (new, (k, v), none)) : KTree c K V (Except (K × V) (Trie c K V × (K × V) × Option (K × V))))).Path c3 o →
        Cost c3 0 0 2 0 ∧ ∀ calls, InsEnds c k v replace b new g calls o := by
      intro c3 h
      rcases convert_bind_path h with ⟨q, h8, h9⟩ | ⟨d1, d2, h3, h4, h5⟩
      · subst h8; exact ⟨h9, fun _ => .closure q⟩
      · cases h5; rw [List.append_nil] at h3; subst h3; exact ⟨h4, fun _ => .new⟩
    subst h1
    generalize hm : b.mid = l at *
    cases l with
    | nil =>
      obtain ⟨h3, h4⟩ := fin h2
      exact ⟨((no_cost _).append h3).mono (by simp) (by simp) (by simp) (by simp), h4 _⟩
    | cons x l =>
      cases h2 with
      | stop =>
        exact ⟨((no_cost _).append (cost_hash (n := 1) (calls := [⟨.hash x.1, none⟩]) (by simp) (by simp [KCall.kind]))).mono
          (by omega) (by simp) (by simp) (by simp), .closure _⟩
      | ask _ _ a tr _ h2 =>
        obtain ⟨h3, h4⟩ := fin h2
        exact ⟨((no_cost _).append ((cost_hash (n := 1) (calls := [⟨.hash x.1, some a⟩]) (by simp) (by simp [KCall.kind])).append h3)).mono
          (by omega) (by simp) (by simp) (by simp), h4 _⟩
  · have fin : ∀ {c3 : List (Reply (KCall K V) (KAns K V c.w))} (p e q), ((convert c).bind fun _ =>
        (.ret (.ok (g p e q, (k, v), some e)) : KTree c K V (Except (K × V) (Trie c K V × (K × V) × Option (K × V))))).Path c3 o →
        Cost c3 0 0 2 0 ∧ ∀ calls, b.mid = p ++ e :: q → eqCall c true e ∈ calls → replace = true →
          InsEnds c k v replace b new g calls o := by
      intro c3 p e q h
      rcases convert_bind_path h with ⟨q', h8, h9⟩ | ⟨d1, d2, h3, h4, h5⟩
      · subst h8; exact ⟨h9, fun _ _ _ _ => .closure q'⟩
      · cases h5; rw [List.append_nil] at h3; subst h3; exact ⟨h4, fun _ h1 h2 h3 => .replaced p e q h1 h2 h3⟩
    cases replace with
    | false =>
      cases h2; rw [List.append_nil] at h1; subst h1
      exact ⟨(yes_cost hb).mono (by omega) (by omega) (by omega) (by omega), .found p e q hb (by simp) rfl⟩
    | true =>
      have twice : ∀ {c3 : List (Reply (KCall K V) (KAns K V c.w))}, ((look c b.mid).bind fun x =>
          match (motive := _ → KTree c K V (Except (K × V) (Trie c K V × (K × V) × Option (K × V)))) x with
          | none => .panic .explicit
          | some (p, e, q) => (copy c p).bind fun _ => (convert c).bind fun _ =>
            .ret (.ok (g p e q, (k, v), some e))).Path c3 o →
          Cost c3 b.mid.length 0 2 (2 * (b.mid.length - 1)) ∧
            InsEnds c k v true b new g (p.map (eqCall c false) ++ [eqCall c true e] ++ c3) o := by
        intro c3 h
        rcases look_bind_path h with ⟨q, h8, h9⟩ | ⟨c4, h1, h2⟩ | ⟨p', e', q', c4, hb', h1, h2⟩
        · subst h8; exact ⟨h9.mono (by omega) (by omega) (by omega) (by omega), .closure q⟩
        · cases h2; rw [List.append_nil] at h1; subst h1
          refine ⟨(no_cost _).mono (by omega) (by omega) (by omega) (by omega),
            .confused e (by rw [hb]; simp) (by simp) ?_ rfl⟩
          exact List.mem_append_right _ (List.mem_map_of_mem (by rw [hb]; simp))
        · have hp : 2 * p'.length ≤ 2 * (b.mid.length - 1) := by rw [hb']; simp; omega
          rcases copy_bind_path h2 with ⟨q, h3, h4⟩ | ⟨d1, d2, h3, h4, h5⟩
          · subst h3
            subst h1
            exact ⟨((yes_cost hb').append h4).mono (by omega) (by omega) (by omega) (by omega), .closure q⟩
          · obtain ⟨h6, h7⟩ := fin p' e' q' h5
            subst h3
            subst h1
            refine ⟨((yes_cost hb').append (h4.append h6)).mono (by omega) (by omega) (by omega) (by omega),
              h7 _ hb' ?_ rfl⟩
            simp
      subst h1
      have hlen : b.mid ≠ [] := by rw [hb]; simp
      have : (Cost c2 b.mid.length 0 2 (2 * (b.mid.length - 1)) ∧
            InsEnds c k v true b new g (p.map (eqCall c false) ++ [eqCall c true e] ++ c2) o) := by
        rcases hm : b.mid with _ | ⟨x, _ | ⟨y, l⟩⟩
        · exact absurd hm hlen
        · rw [hm] at h2
          obtain ⟨h3, h4⟩ := fin p e q h2
          exact ⟨h3.mono (by omega) (by omega) (by omega) (by omega), h4 _ hb (by simp) rfl⟩
        · rw [← hm]
          apply twice
          rw [hm] at h2 ⊢
          exact h2
      exact ⟨((yes_cost hb).append this.1).mono (by omega) (by omega) (by omega) (by omega), this.2⟩

/-- The runs of `insert` with right hashes. -/
theorem Trie.insertK_path {t : Trie c K V} (ht : t.ValidAt hash c.levels) (k : K) (v : V) (replace : Bool) :
    ∃ b, Bucket.Of hash t.visit (hash k) b ∧
      ((∃ new g, (∀ calls o, HonestHash hash (hash k) calls →
          ((t.insertK k v replace).Path calls o ↔
            (Tree.ask .lookupHash fun _ => insertRef c k v replace b new g : KTree c K V _).Path calls o)) ∧
          (new.visit.Perm ((k, v) :: t.visit) ∧ new.ValidAt hash c.levels) ∧
          ∀ p e q, b.mid = p ++ e :: q →
            (g p e q).visit.Perm ((k, v) :: (b.before ++ (p ++ q) ++ b.after)) ∧
            (g p e q).size = (g p e q).visit.length ∧ (hash e.1 = hash k → (g p e q).ValidAt hash c.levels)) ∨
      (c.checked = true ∧ ∀ calls o, HonestHash hash (hash k) calls →
        ((t.insertK k v replace).Path calls o ↔
            (Tree.ask .lookupHash fun _ => .panic .shiftOverflow : KTree c K V _).Path calls o))) := by
  obtain ⟨T, hT, b, hb, h⟩ := Trie.insertK_spec ht k v replace
  have key : ∀ (x : KTree c K V _), resolve hash (T (hash k)) = x → ∀ calls o, HonestHash hash (hash k) calls →
      ((t.insertK k v replace).Path calls o ↔ (Tree.ask .lookupHash fun _ => x : KTree c K V _).Path calls o) := by
    intro x hx calls o hh
    rw [hT]
    constructor
    · intro h
      cases h with
      | stop => exact .stop _ _
      | ask _ _ a tr _ h =>
        have := hh.1 a (List.mem_cons_self ..)
        subst this
        refine .ask (A := KAns K V c.w) .lookupHash _ _ _ _ ?_
        rw [← hx]
        exact (path_resolve fun k a h => hh.2 k a (List.mem_cons_of_mem _ h)).2 h
    · intro h
      cases h with
      | stop => exact .stop _ _
      | ask _ _ a tr _ h =>
        have := hh.1 a (List.mem_cons_self ..)
        subst this
        refine .ask (A := KAns K V c.w) .lookupHash _ _ _ _ ?_
        rw [← hx] at h
        exact (path_resolve fun k a h => hh.2 k a (List.mem_cons_of_mem _ h)).1 h
  refine ⟨b, hb, ?_⟩
  rcases h with ⟨new, g, h1, h2, h3⟩ | ⟨h1, h2⟩
  · exact .inl ⟨new, g, key _ h1, h2, h3⟩
  · exact .inr ⟨h1, key _ (by rw [h2]; rfl)⟩

theorem InsEnds.more {k : K} {v : V} {replace : Bool} {b : Bucket K V} {new : Trie c K V}
    {g : List (K × V) → K × V → List (K × V) → Trie c K V} {calls : List (Reply (KCall K V) (KAns K V c.w))}
    {o : Outcome (KCall K V) (Except (K × V) (Trie c K V × (K × V) × Option (K × V)))}
    (h : InsEnds c k v replace b new g calls o) (x : Reply (KCall K V) (KAns K V c.w)) :
    InsEnds c k v replace b new g (x :: calls) o := by
  cases h with
  | closure q => exact .closure q
  | new => exact .new
  | found p e q h1 h2 h3 => exact .found p e q h1 (List.mem_cons_of_mem _ h2) h3
  | replaced p e q h1 h2 h3 => exact .replaced p e q h1 (List.mem_cons_of_mem _ h2) h3
  | confused e h1 h2 h3 h4 => exact .confused e h1 (List.mem_cons_of_mem _ h2) (List.mem_cons_of_mem _ h3) h4

theorem Held.valid {K V : Type} {hash : K → BitVec c.w} {t : Trie c K V} (h : Held c hash t) :
    t.ValidAt hash c.levels := by
  induction h with
  | new => exact Trie.new_valid c.levels_pos
  | @insert K V hash t t' k v replace ptr prev calls _ run hh he ih =>
    obtain ⟨b, hb, h | ⟨_, h⟩⟩ := Trie.insertK_path ih k v replace
    · obtain ⟨new, g, h1, h2, h3⟩ := h
      have := (h1 _ _ hh).1 run
      cases this with
      | ask _ _ a tr _ h =>
        have h4 := (insertRef_path h).2.more ⟨.lookupHash, some a⟩
        generalize ho : Outcome.ret (Except.ok (t', ptr, prev)) = o at h4
        cases h4 with
        | closure => cases ho
        | new => cases ho; exact h2.2
        | found => cases ho
        | replaced p e q h5 h6 h7 => cases ho; exact (h3 p e q h5).2.2 (he _ h6)
        | confused => cases ho
    · have := (h _ _ hh).1 run
      cases this with
      | ask _ _ a tr _ h => cases h
  | @remove K V hash t t' e calls _ run ih =>
    obtain ⟨T, hT, h⟩ := Trie.removeK_spec ih
    rw [hT] at run
    cases run with
    | ask _ _ a tr _ run =>
      obtain ⟨b, hb, h | ⟨_, h⟩⟩ := h a
      · obtain ⟨g, h1, h2⟩ := h
        rw [h1] at run
        rcases (removeRef_path run).2 with ⟨_, h⟩ | ⟨h, _⟩ | ⟨p, e', q, h3, h4, _⟩
        · cases h
        · cases h
        · cases h4; exact (h2 p _ q h3).2
      · rw [h] at run; cases run
  | @transform K V R hash t t' reduce e r op par _ hr ih =>
    obtain ⟨t', r, h1, h2, _⟩ := Trie.transform_spec (fun _ _ h => Bool.noConfusion h)
      c.levels_pos ih reduce e op par
    rw [h1] at hr; injection hr with hr; injection hr with hr; subst hr; exact h2
  | @transmute K V S X R hash hash' t t' reduce e r f _ hf hr ih =>
    obtain ⟨t', r, h1, h2, _⟩ := Trie.transmute_spec (hash := hash) (hash' := hash')
      c.levels_pos ih reduce e (.generic f) ⟨hf, fun _ _ _ _ _ _ _ _ _ _ _ _ h => Bool.noConfusion h⟩
    rw [h1] at hr; injection hr with hr; injection hr with hr; subst hr; exact h2

theorem callsOf_lookup (κ : KKind) (a : Option (KAns K V c.w .lookupHash)) (tr : List (Reply (KCall K V) (KAns K V c.w))) :
    callsOf κ ((⟨.lookupHash, a⟩ : Reply (KCall K V) (KAns K V c.w)) :: tr) =
      callsOf κ tr + if κ = .lookupHash then 1 else 0 := by
  rw [callsOf, List.countP_cons, callsOf]
  simp only [KCall.kind, decide_eq_true_eq, @eq_comm _ KKind.lookupHash κ]

theorem Bucket.Of.bound {l : List (K × V)} {h : BitVec c.w} {b : Bucket K V} (hb : b.Of hash l h) {n : Nat}
    (hn : ∀ x, (l.filter fun e => decide (hash e.1 = x)).length ≤ n) : b.mid.length ≤ n := by
  cases hm : b.mid with
  | nil => exact Nat.zero_le _
  | cons e m =>
    refine Nat.le_trans ?_ (hn (hash e.1))
    rw [hb.eq, List.filter_append, List.filter_append]
    have : b.mid.filter (fun x => decide (hash x.1 = hash e.1)) = b.mid := by
      rw [List.filter_eq_self]
      intro x hx
      simpa using hb.one e (by rw [hm]; simp) x hx
    rw [this, hm]
    simp only [List.length_append]
    omega

end
end HT
