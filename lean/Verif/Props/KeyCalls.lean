import Verif.KeyCallsTrie
import Verif.KeyCallsPure
import Verif.Props.Lawless
/-!
# Property C59: what the operations ask of the keys

`Trie.findK`, `Trie.insertK` and `Trie.removeK` (`Verif/KeyCalls.lean`) are the operations with every call of code that
belongs to the key and value types as a step: hashing, `==`, `into`, `clone`.  These calls may answer anything (and
something else each time), panic, or never return.  `Held c hash t` (`Verif/KeyCallsSpec.lean`) says that `t` is a map a
program with such keys can hold; `findRef`, `removeRef` and `insertRef` there say, over plain lists, what is asked.
-/
namespace HT

variable {K V : Type} {c : Cfg} {hash : K → BitVec c.w}
open Tree

/-! ### The runs -/

/-- C59: the runs (`Path`) are what one gets when the keys' code is any code with a state of its own: every execution
    with such code is a run, … -/
theorem C59_runs {α σ : Type} (x : KTree c K V α)
    (env : (q : KCall K V) → σ → Option (KAns K V c.w q × σ)) (st : σ) :
    x.Path (x.run env st).2 (Outcome.fst (x.run env st).1) := path_run env x st

/-- C59: … and every run is an execution with some such code. -/
theorem C59_runs_only {α : Type} {x : KTree c K V α} {calls : List (Reply (KCall K V) (KAns K V c.w))}
    {o : Outcome (KCall K V) α} (h : x.Path calls o) :
    ∃ (σ : Type) (env : (q : KCall K V) → σ → Option (KAns K V c.w q × σ)) (st : σ),
      Outcome.fst (x.run env st).1 = o ∧ (x.run env st).2 = calls :=
  ⟨_, replay, calls, h.run_replay⟩

/-- C59: with pure total code for the keys the operations are those of the rest of the model. -/
theorem C59_pure (t : Trie c K V) (q : K → Bool) (h : BitVec c.w) (k : K) (v : V) (replace : Bool) :
    t.findK.eval (pureKeys hash q h) = t.findQ q h ∧
    t.removeK.eval (pureKeys hash q h) = t.removeQ q h ∧
    (t.insertK k v replace).eval (pureKeys hash q h) = t.insertQ hash q h k v replace :=
  ⟨Trie.findK_eval .., Trie.removeK_eval .., Trie.insertK_eval ..⟩

theorem Tree.eval_path {Q : Type} {A : Q → Type} {α : Type} {x : Tree Q A α} {h : (q : Q) → A q} {a : α}
    (hx : x.eval h = .ok a) : ∃ calls, x.Path calls (.ret a) ∧ ∀ q b, ⟨q, some b⟩ ∈ calls → b = h q := by
  induction x with
  | ret b => injection hx with hx; subst hx; exact ⟨[], .ret _, by simp⟩
  | panic p => cases hx
  | diverge => cases hx
  | ask q k ih =>
    obtain ⟨calls, h1, h2⟩ := ih _ hx
    refine ⟨_, .ask q k _ _ _ h1, ?_⟩
    intro q' b hb
    rcases List.mem_cons.1 hb with hb | hb
    · cases hb; rfl
    · exact h2 q' b hb

/-- C59: `Held` covers the maps of C58 (and so all maps of the rest of the model). -/
theorem C59_held {K V : Type} {hash : K → BitVec c.w} {t : Trie c K V} (h : Made c hash t) : Held c hash t := by
  induction h with
  | new => exact .new
  | @insert K V hash t t' q k v replace ptr prev _ hq hr ih =>
    rw [← Trie.insertK_eval] at hr
    obtain ⟨calls, h1, h2⟩ := eval_path hr
    exact .insert ih h1 ⟨fun a ha => h2 _ _ ha, fun k a ha => h2 _ _ ha⟩ fun x hx => hq x (h2 _ _ hx).symm
  | @remove K V hash t t' q h e _ hq hr ih =>
    rw [← Trie.removeK_eval hash] at hr
    obtain ⟨calls, h1, h2⟩ := eval_path hr
    exact .remove ih h1
  | transform _ hr ih => exact .transform ih hr
  | transmute _ hf hr ih => exact .transmute ih hf hr

example : ∃ t : Trie Ex.c8 Ex.Fk Nat, Made Ex.c8 Ex.fkHash t ∧ t.visit.length = 6 :=
  let ⟨t, h, hv, _⟩ := C58_nan
  ⟨t, h, by rw [hv]; rfl⟩

/-- A map to try things on: it lists 11, nan, 71, nan, 70, nan; all but 11 collide. -/
theorem Ex.held : ∃ t : Trie Ex.c8 Ex.Fk Nat, Held Ex.c8 Ex.fkHash t ∧
    t.visit = [(.num 11, 6), (.nan, 5), (.num 71, 4), (.nan, 3), (.num 70, 2), (.nan, 1)] :=
  let ⟨t, h, hv, _⟩ := C58_nan
  ⟨t, C59_held h, hv⟩

/-- The same map, with a `remove`, an `insert` that replaces and an `insert` that does not, all on entries that collide. -/
theorem Ex.heldRuns : ∃ t : Trie Ex.c8 Ex.Fk Nat, Held Ex.c8 Ex.fkHash t ∧ t.visit.length = 6 ∧
    (∀ x, (t.visit.filter fun e => decide (Ex.fkHash e.1 = x)).length ≤ 5) ∧
    (∃ calls r, t.removeK.Path calls (.ret (some r))) ∧
    (∃ calls r, (t.insertK (.num 70) 9 true).Path calls (.ret (.ok r)) ∧
      HonestHash Ex.fkHash (Ex.fkHash (.num 70)) calls ∧ Steady calls) ∧
    ∃ calls e, (t.insertK (.num 70) 9 false).Path calls (.ret (.error e)) ∧
      HonestHash Ex.fkHash (Ex.fkHash (.num 70)) calls ∧ Steady calls := by
  have h : ∀ p : Trie Ex.c8 Ex.Fk Nat → Bool, (match Trie.insertMany Ex.fkHash true (Trie.new Ex.c8)
      [(.nan, 1), (.num 70, 2), (.nan, 3), (.num 71, 4), (.nan, 5), (.num 11, 6)] with
      | .ok t => p t
      | _ => false) = true → ∃ t, Held Ex.c8 Ex.fkHash t ∧ p t = true := by
    intro p hp
    split at hp
    · rename_i t ht
      exact ⟨t, C59_held (Ex.made_many Ex.fkHashOk .new ht), hp⟩
    · simp at hp
  obtain ⟨t, h1, h2⟩ := h (fun t => decide (t.visit = [(.num 11, 6), (.nan, 5), (.num 71, 4), (.nan, 3), (.num 70, 2), (.nan, 1)]) &&
    (match t.removeQ (· == .num 70) (Ex.fkHash (.num 70)) with | .ok (some _) => true | _ => false) &&
    (match t.insertQ Ex.fkHash (· == .num 70) (Ex.fkHash (.num 70)) (.num 70) 9 true with | .ok (.ok _) => true | _ => false) &&
    (match t.insertQ Ex.fkHash (· == .num 70) (Ex.fkHash (.num 70)) (.num 70) 9 false with | .ok (.error _) => true | _ => false))
    (by decide +kernel)
  simp only [Bool.and_eq_true, decide_eq_true_eq] at h2
  obtain ⟨⟨⟨hv, h3⟩, h4⟩, h5⟩ := h2
  have run : ∀ {α : Type} {x : KTree Ex.c8 Ex.Fk Nat α} {a : α},
      x.eval (pureKeys Ex.fkHash (· == .num 70) (Ex.fkHash (.num 70))) = .ok a →
      ∃ calls, x.Path calls (.ret a) ∧ HonestHash Ex.fkHash (Ex.fkHash (.num 70)) calls ∧ Steady calls := by
    intro α x a hx
    obtain ⟨calls, h6, h7⟩ := eval_path hx
    refine ⟨calls, h6, ⟨fun a ha => h7 _ _ ha, fun k a ha => h7 _ _ ha⟩, fun k hk hk' => ?_⟩
    have := (h7 _ _ hk).trans (h7 _ _ hk').symm
    cases this
  refine ⟨t, h1, by rw [hv]; rfl, ?_, ?_, ?_, ?_⟩
  · rw [hv]
    show ∀ x : BitVec 8, _
    decide +kernel
  · rw [← Trie.removeK_eval Ex.fkHash] at h3
    split at h3
    · rename_i r hr; obtain ⟨calls, h6, _⟩ := run hr; exact ⟨calls, r, h6⟩
    · cases h3
  · rw [← Trie.insertK_eval] at h4
    split at h4
    · rename_i r hr; obtain ⟨calls, h6⟩ := run hr; exact ⟨calls, r, h6⟩
    · cases h4
  · rw [← Trie.insertK_eval] at h5
    split at h5
    · rename_i r hr; obtain ⟨calls, h6⟩ := run hr; exact ⟨calls, r, h6⟩
    · cases h5

/-! ### The programs -/

/-- C59: `find` hashes the lookup key and then asks `==` about the entries of one bucket, in the order of `visit`, until
    it says yes; that entry is the answer.  It asks nothing else, whatever the answers are. -/
theorem C59_find {t : Trie c K V} (h : Held c hash t) :
    ∃ B : BitVec c.w → Bucket K V, (∀ hv, (B hv).Of hash t.visit hv) ∧
      t.findK = .ask .lookupHash fun (hv : BitVec c.w) => findRef c (B hv) := by
  obtain ⟨T, hT, hs⟩ := Trie.findK_spec h.valid
  refine ⟨fun hv => (hs hv).choose, fun hv => (hs hv).choose_spec.1, ?_⟩
  rw [hT]
  exact congrArg (Tree.ask (A := KAns K V c.w) KCall.lookupHash) (funext fun hv => (hs hv).choose_spec.2)

example : ∃ t : Trie Ex.c8 Ex.Fk Nat, Held Ex.c8 Ex.fkHash t ∧ t.visit.length = 6 :=
  let ⟨t, h, hv⟩ := Ex.held
  ⟨t, h, by rw [hv]; rfl⟩

/-- C59: `remove` hashes the lookup key, asks `==` about the entries of one bucket, in the order of `visit`, until it
    says yes, and then copies the entries of the bucket before that one (`SharedPtr`s to all others are shared).  The
    new map lists what the old one lists, without the entry.  With overflow checks it may panic instead (C48). -/
theorem C59_remove {t : Trie c K V} (h : Held c hash t) :
    ∃ T : BitVec c.w → KTree c K V (Option (Trie c K V × (K × V))), t.removeK = .ask .lookupHash T ∧
      ∀ hv, ∃ b : Bucket K V, b.Of hash t.visit hv ∧
        ((∃ g, T hv = removeRef c b g ∧ ∀ p e q, b.mid = p ++ e :: q →
          (g p e q).visit = b.before ++ (p ++ q) ++ b.after) ∨
        (c.checked = true ∧ T hv = .panic .shiftOverflow)) := by
  obtain ⟨T, hT, hs⟩ := Trie.removeK_spec h.valid
  refine ⟨T, hT, fun hv => ?_⟩
  obtain ⟨b, h1, h2⟩ := hs hv
  refine ⟨b, h1, ?_⟩
  rcases h2 with ⟨g, h2, h3⟩ | h2
  · exact .inl ⟨g, h2, fun p e q hb => (h3 p e q hb).1⟩
  · exact .inr h2

example : ∃ t : Trie Ex.c8 Ex.Fk Nat, Held Ex.c8 Ex.fkHash t ∧ t.visit.length = 6 :=
  let ⟨t, h, hv⟩ := Ex.held
  ⟨t, h, by rw [hv]; rfl⟩

/-- C59: if hashes are right, `insert` hashes the lookup key, asks `==` about the entries of one bucket, in the order of
    `visit`, until it says yes, and goes on as in `insertRef`: the new map has the new entry, and not the one that `==`
    picked (the second time, in a bucket of several entries).  With overflow checks it may panic instead (C48). -/
theorem C59_insert {t : Trie c K V} (h : Held c hash t) (k : K) (v : V) (replace : Bool) :
    ∃ b : Bucket K V, b.Of hash t.visit (hash k) ∧
      ((∃ new g, (∀ calls o, HonestHash hash (hash k) calls →
          ((t.insertK k v replace).Path calls o ↔
            (Tree.ask .lookupHash fun _ => insertRef c k v replace b new g : KTree c K V _).Path calls o)) ∧
          new.visit.Perm ((k, v) :: t.visit) ∧
          ∀ p e q, b.mid = p ++ e :: q →
            (g p e q).visit.Perm ((k, v) :: (b.before ++ (p ++ q) ++ b.after)) ∧
            (g p e q).size = (g p e q).visit.length) ∨
      (c.checked = true ∧ ∀ calls o, HonestHash hash (hash k) calls →
        ((t.insertK k v replace).Path calls o ↔
            (Tree.ask .lookupHash fun _ => .panic .shiftOverflow : KTree c K V _).Path calls o))) := by
  obtain ⟨b, hb, h | h⟩ := Trie.insertK_path h.valid k v replace
  · obtain ⟨new, g, h1, h2, h3⟩ := h
    exact ⟨b, hb, .inl ⟨new, g, h1, h2.1, fun p e q hm => ⟨(h3 p e q hm).1, (h3 p e q hm).2.1⟩⟩⟩
  · exact ⟨b, hb, .inr h⟩

example : ∃ t : Trie Ex.c8 Ex.Fk Nat, Held Ex.c8 Ex.fkHash t ∧ t.visit.length = 6 :=
  let ⟨t, h, hv⟩ := Ex.held
  ⟨t, h, by rw [hv]; rfl⟩

/-! ### Whatever the keys' code does, the operations do not panic -/

/-- C59: `find` returns unless a call of the keys' code does not; what it returns is an entry of the map of which `==`
    said yes, in the last call. -/
theorem C59_find_safe {t : Trie c K V} (h : Held c hash t) {calls : List (Reply (KCall K V) (KAns K V c.w))}
    {o : Outcome (KCall K V) (Option (K × V))} (run : t.findK.Path calls o) :
    (∃ q, o = .closure q) ∨
      (o = .ret none ∧ ∀ k, ⟨.eq k, some true⟩ ∉ calls) ∨
      ∃ e ∈ t.visit, o = .ret (some e) ∧ calls.getLast? = some ⟨.eq e.1, some true⟩ := by
  obtain ⟨B, hB, hT⟩ := C59_find h
  rw [hT] at run
  cases run with
  | stop => exact .inl ⟨_, rfl⟩
  | ask _ _ a tr _ run =>
    rcases (findRef_path run).2 with h1 | ⟨h1, h2⟩ | ⟨p, e, q, h1, h2, h3⟩
    · exact .inl h1
    · refine .inr (.inl ⟨h1, ?_⟩)
      intro k hk
      rw [h2] at hk
      rcases List.mem_cons.1 hk with hk | hk
      · cases hk
      · obtain ⟨e, _, he⟩ := List.mem_map.1 hk
        cases he
    · refine .inr (.inr ⟨e, ?_, h2, ?_⟩)
      · rw [(hB a).eq, h1]; simp
      · rw [h3, ← List.cons_append, List.getLast?_concat]

example : ∃ t : Trie Ex.c8 Ex.Fk Nat, Held Ex.c8 Ex.fkHash t ∧ ∃ calls e,
    t.findK.Path calls (.ret (some e)) :=
  let ⟨t, h, _, _, hf⟩ := C58_nan
  ⟨t, C59_held h, by
    rw [Trie.find, ← Trie.findK_eval Ex.fkHash] at hf
    obtain ⟨calls, h1, _⟩ := eval_path hf
    exact ⟨calls, _, h1⟩⟩

/-- C59: without overflow checks `remove` returns unless a call of the keys' code does not; it removes just one entry,
    of which `==` said yes, and the new map is again one a program can hold. -/
theorem C59_remove_safe {t : Trie c K V} (h : Held c hash t) (hc : c.checked = false)
    {calls : List (Reply (KCall K V) (KAns K V c.w))}
    {o : Outcome (KCall K V) (Option (Trie c K V × (K × V)))} (run : t.removeK.Path calls o) :
    (∃ q, o = .closure q) ∨
      (o = .ret none ∧ ∀ k, ⟨.eq k, some true⟩ ∉ calls) ∨
      ∃ t' e l r, o = .ret (some (t', e)) ∧ Held c hash t' ∧ t.visit = l ++ e :: r ∧ t'.visit = l ++ r ∧
        ⟨.eq e.1, some true⟩ ∈ calls := by
  have run0 := run
  obtain ⟨T, hT, hs⟩ := C59_remove h
  rw [hT] at run
  cases run with
  | stop => exact .inl ⟨_, rfl⟩
  | ask _ _ a tr _ run =>
    obtain ⟨b, hb, ⟨g, h1, h2⟩ | ⟨h1, _⟩⟩ := hs a
    · rw [h1] at run
      rcases (removeRef_path run).2 with h1 | ⟨h1, h2⟩ | ⟨p, e, q, h3, h4, h5, _⟩
      · exact .inl h1
      · refine .inr (.inl ⟨h1, ?_⟩)
        intro k hk
        rw [h2] at hk
        rcases List.mem_cons.1 hk with hk | hk
        · cases hk
        · obtain ⟨e, _, he⟩ := List.mem_map.1 hk
          cases he
      · subst h4
        refine .inr (.inr ⟨_, e, b.before ++ p, q ++ b.after, rfl, .remove h run0, ?_, ?_, List.mem_cons_of_mem _ h5⟩)
        · rw [hb.eq, h3]; simp
        · rw [h2 p e q h3]; simp
    · rw [hc] at h1; cases h1

example : ∃ t : Trie Ex.c8 Ex.Fk Nat, Held Ex.c8 Ex.fkHash t ∧ Ex.c8.checked = false ∧
    ∃ calls r, t.removeK.Path calls (.ret (some r)) :=
  let ⟨t, h, _, _, hr, _⟩ := Ex.heldRuns
  ⟨t, h, rfl, hr⟩

/-- C59: without overflow checks, and when hashes are right, `insert` returns unless a call of the keys' code does not;
    except that it panics in one case: when it is to replace an entry and `==` says first yes and then no of that
    entry.  What it returns is as it should be, given what `==` said. -/
theorem C59_insert_safe {t : Trie c K V} (h : Held c hash t) (hc : c.checked = false) {k : K} {v : V} {replace : Bool}
    {calls : List (Reply (KCall K V) (KAns K V c.w))}
    {o : Outcome (KCall K V) (Except (K × V) (Trie c K V × (K × V) × Option (K × V)))}
    (run : (t.insertK k v replace).Path calls o) (hh : HonestHash hash (hash k) calls) :
    (∃ q, o = .closure q) ∨
    (o = .panic .explicit ∧ replace = true ∧ ∃ e ∈ t.visit, ⟨.eq e.1, some true⟩ ∈ calls ∧ ⟨.eq e.1, some false⟩ ∈ calls) ∨
    (∃ e ∈ t.visit, o = .ret (.error e) ∧ replace = false ∧ ⟨.eq e.1, some true⟩ ∈ calls) ∨
    (∃ t', o = .ret (.ok (t', (k, v), none)) ∧ t'.visit.Perm ((k, v) :: t.visit)) ∨
    (∃ t' e l r, o = .ret (.ok (t', (k, v), some e)) ∧ replace = true ∧ ⟨.eq e.1, some true⟩ ∈ calls ∧
      t.visit = l ++ e :: r ∧ t'.visit.Perm ((k, v) :: (l ++ r)) ∧ t'.size = t'.visit.length) := by
  obtain ⟨b, hb, h1 | ⟨h1, _⟩⟩ := C59_insert h k v replace
  · obtain ⟨new, g, h1, h2, h3⟩ := h1
    have := (h1 _ _ hh).1 run
    cases this with
    | stop => exact .inl ⟨_, rfl⟩
    | ask _ _ a tr _ h4 =>
      have h5 := (insertRef_path h4).2.more ⟨.lookupHash, some a⟩
      cases h5 with
      | closure q => exact .inl ⟨q, rfl⟩
      | new => exact .inr (.inr (.inr (.inl ⟨new, rfl, h2⟩)))
      | found p e q h6 h7 h8 => exact .inr (.inr (.inl ⟨e, by rw [hb.eq, h6]; simp, rfl, h8, h7⟩))
      | replaced p e q h6 h7 h8 =>
        refine .inr (.inr (.inr (.inr ⟨_, e, b.before ++ p, q ++ b.after, rfl, h8, h7, ?_, ?_, (h3 p e q h6).2⟩)))
        · rw [hb.eq, h6]; simp
        · have := (h3 p e q h6).1
          simpa using this
      | confused e h6 h7 h8 h9 => exact .inr (.inl ⟨rfl, h9, e, by rw [hb.eq]; simp [h6], h7, h8⟩)
  · rw [hc] at h1; cases h1

example : ∃ t : Trie Ex.c8 Ex.Fk Nat, Held Ex.c8 Ex.fkHash t ∧ Ex.c8.checked = false ∧
    ∃ calls r, (t.insertK (.num 70) 9 true).Path calls (.ret (.ok r)) ∧
      HonestHash Ex.fkHash (Ex.fkHash (.num 70)) calls ∧ Steady calls :=
  let ⟨t, h, _, _, _, hr, _⟩ := Ex.heldRuns
  ⟨t, h, rfl, hr⟩

/-- C59: so if `==` does not change its mind during the call, `insert` does not panic. -/
theorem C59_insert_steady {t : Trie c K V} (h : Held c hash t) (hc : c.checked = false) {k : K} {v : V} {replace : Bool}
    {calls : List (Reply (KCall K V) (KAns K V c.w))}
    {o : Outcome (KCall K V) (Except (K × V) (Trie c K V × (K × V) × Option (K × V)))}
    (run : (t.insertK k v replace).Path calls o) (hh : HonestHash hash (hash k) calls) (hs : Steady calls) :
    (∃ q, o = .closure q) ∨ ∃ r, o = .ret r := by
  rcases C59_insert_safe h hc run hh with h1 | ⟨_, _, e, _, h1, h2⟩ | ⟨e, _, h1, _⟩ | ⟨t', h1, _⟩ | ⟨t', e, l, r, h1, _⟩
  · exact .inl h1
  · exact absurd h2 (hs _ h1)
  · exact .inr ⟨_, h1⟩
  · exact .inr ⟨_, h1⟩
  · exact .inr ⟨_, h1⟩

example : ∃ t : Trie Ex.c8 Ex.Fk Nat, Held Ex.c8 Ex.fkHash t ∧ Ex.c8.checked = false ∧
    ∃ calls r, (t.insertK (.num 70) 9 true).Path calls (.ret (.ok r)) ∧
      HonestHash Ex.fkHash (Ex.fkHash (.num 70)) calls ∧ Steady calls :=
  let ⟨t, h, _, _, _, hr, _⟩ := Ex.heldRuns
  ⟨t, h, rfl, hr⟩

/-! ### How much is asked -/

/-- C59: `find` makes one hash call and asks `==` at most as often as there are entries with one hash. -/
theorem C59_find_calls {t : Trie c K V} (h : Held c hash t) {n : Nat}
    (hn : ∀ x, (t.visit.filter fun e => decide (hash e.1 = x)).length ≤ n)
    {calls : List (Reply (KCall K V) (KAns K V c.w))} {o : Outcome (KCall K V) (Option (K × V))}
    (run : t.findK.Path calls o) :
    callsOf .lookupHash calls = 1 ∧ callsOf .eq calls ≤ n ∧ callsOf .hash calls = 0 ∧ callsOf .into calls = 0 ∧
      callsOf .clone calls = 0 := by
  obtain ⟨B, hB, hT⟩ := C59_find h
  rw [hT] at run
  cases run with
  | stop => simp [callsOf, KCall.kind]
  | ask _ _ a tr _ run =>
    obtain ⟨c1, c2, c3, c4, c5⟩ := (findRef_path run).1
    have := (hB a).bound hn
    simp only [callsOf_lookup, if_true, reduceCtorEq, if_false]
    omega

example : ∃ t : Trie Ex.c8 Ex.Fk Nat, Held Ex.c8 Ex.fkHash t ∧ t.visit.length = 6 ∧
    ∀ x, (t.visit.filter fun e => decide (Ex.fkHash e.1 = x)).length ≤ 5 :=
  let ⟨t, h, hv, hn, _⟩ := Ex.heldRuns
  ⟨t, h, hv, hn⟩

/-- C59: `remove` makes one hash call, asks `==` at most as often as there are entries with one hash, and copies fewer
    entries than that. -/
theorem C59_remove_calls {t : Trie c K V} (h : Held c hash t) {n : Nat}
    (hn : ∀ x, (t.visit.filter fun e => decide (hash e.1 = x)).length ≤ n)
    {calls : List (Reply (KCall K V) (KAns K V c.w))} {o : Outcome (KCall K V) (Option (Trie c K V × (K × V)))}
    (run : t.removeK.Path calls o) :
    callsOf .lookupHash calls = 1 ∧ callsOf .eq calls ≤ n ∧ callsOf .hash calls = 0 ∧ callsOf .into calls = 0 ∧
      callsOf .clone calls ≤ 2 * (n - 1) := by
  obtain ⟨T, hT, hs⟩ := C59_remove h
  rw [hT] at run
  cases run with
  | stop => simp [callsOf, KCall.kind]
  | ask _ _ a tr _ run =>
    obtain ⟨b, hb, ⟨g, h1, h2⟩ | ⟨_, h1⟩⟩ := hs a
    · rw [h1] at run
      obtain ⟨c1, c2, c3, c4, c5⟩ := (removeRef_path run).1
      have := hb.bound hn
      simp only [callsOf_lookup, if_true, reduceCtorEq, if_false]
      omega
    · rw [h1] at run
      cases run
      simp [callsOf, KCall.kind]

example : ∃ t : Trie Ex.c8 Ex.Fk Nat, Held Ex.c8 Ex.fkHash t ∧ t.visit.length = 6 ∧
    ∀ x, (t.visit.filter fun e => decide (Ex.fkHash e.1 = x)).length ≤ 5 :=
  let ⟨t, h, hv, hn, _⟩ := Ex.heldRuns
  ⟨t, h, hv, hn⟩

/-- C59: `insert` makes at most two hash calls, asks `==` at most twice as often as there are entries with one hash,
    converts the key and the value at most once, and copies fewer entries than have one hash. -/
theorem C59_insert_calls {t : Trie c K V} (h : Held c hash t) {n : Nat}
    (hn : ∀ x, (t.visit.filter fun e => decide (hash e.1 = x)).length ≤ n) {k : K} {v : V} {replace : Bool}
    {calls : List (Reply (KCall K V) (KAns K V c.w))}
    {o : Outcome (KCall K V) (Except (K × V) (Trie c K V × (K × V) × Option (K × V)))}
    (run : (t.insertK k v replace).Path calls o) (hh : HonestHash hash (hash k) calls) :
    callsOf .lookupHash calls = 1 ∧ callsOf .eq calls ≤ 2 * n ∧ callsOf .hash calls ≤ 1 ∧ callsOf .into calls ≤ 2 ∧
      callsOf .clone calls ≤ 2 * (n - 1) := by
  obtain ⟨b, hb, h1 | ⟨_, h1⟩⟩ := C59_insert h k v replace
  · obtain ⟨new, g, h1, h2, h3⟩ := h1
    have := (h1 _ _ hh).1 run
    cases this with
    | stop => simp [callsOf, KCall.kind]
    | ask _ _ a tr _ h4 =>
      obtain ⟨c1, c2, c3, c4, c5⟩ := (insertRef_path h4).1
      have := hb.bound hn
      simp only [callsOf_lookup, if_true, reduceCtorEq, if_false]
      omega
  · have := (h1 _ _ hh).1 run
    cases this with
    | stop => simp [callsOf, KCall.kind]
    | ask _ _ a tr _ h4 => cases h4; simp [callsOf, KCall.kind]

example : ∃ t : Trie Ex.c8 Ex.Fk Nat, Held Ex.c8 Ex.fkHash t ∧ t.visit.length = 6 ∧
    ∀ x, (t.visit.filter fun e => decide (Ex.fkHash e.1 = x)).length ≤ 5 :=
  let ⟨t, h, hv, hn, _⟩ := Ex.heldRuns
  ⟨t, h, hv, hn⟩

/-- `==` that says yes the first time it is called and no from then on; hashes are right. -/
def Ex.fickle : (q : KCall Ex.Fk Nat) → Nat → Option (KAns Ex.Fk Nat Ex.c8.w q × Nat)
  | .lookupHash, n => some (Ex.fkHash (.num 70), n)
  | .hash k, n => some (Ex.fkHash k, n)
  | .eq _, n => some (decide (n = 0), n + 1)
  | .intoKey, n => some ((), n)
  | .intoValue, n => some ((), n)
  | .cloneKey _, n => some ((), n)
  | .cloneValue _, n => some ((), n)

/-- C59: the panic of `C59_insert_safe` does happen (in a build without overflow checks): a bucket of several entries
    is searched twice, and the second search may find nothing. -/
theorem C59_confused : ∃ t : Trie Ex.c8 Ex.Fk Nat, Held Ex.c8 Ex.fkHash t ∧ Ex.c8.checked = false ∧
    ∃ calls, (t.insertK (.num 70) 9 true).Path calls (.panic .explicit) ∧
      HonestHash Ex.fkHash (Ex.fkHash (.num 70)) calls := by
  obtain ⟨t, h, ht⟩ : ∃ t, Held Ex.c8 Ex.fkHash t ∧ (match ((t.insertK (.num 70) 9 true).run Ex.fickle 0).1 with
      | .panic .explicit => true
      | _ => false) = true := by
    have h : ∀ p : Trie Ex.c8 Ex.Fk Nat → Bool, (match Trie.insertMany Ex.fkHash true (Trie.new Ex.c8)
        [(.nan, 1), (.num 70, 2), (.nan, 3), (.num 71, 4), (.nan, 5), (.num 11, 6)] with
        | .ok t => p t
        | _ => false) = true → ∃ t, Held Ex.c8 Ex.fkHash t ∧ p t = true := by
      intro p hp
      split at hp
      · rename_i t ht
        exact ⟨t, C59_held (Ex.made_many Ex.fkHashOk .new ht), hp⟩
      · simp at hp
    exact h _ (by decide +kernel)
  refine ⟨t, h, rfl, ((t.insertK (.num 70) 9 true).run Ex.fickle 0).2, ?_, ?_⟩
  · have := C59_runs (t.insertK (.num 70) 9 true) Ex.fickle 0
    split at ht
    · rename_i h1
      rw [h1] at this
      exact this
    · cases ht
  · have gen : ∀ {α : Type} (x : KTree Ex.c8 Ex.Fk Nat α) (n : Nat),
        HonestHash Ex.fkHash (Ex.fkHash (.num 70)) (x.run Ex.fickle n).2 := by
      intro α x
      induction x with
      | ret a => intro n; simp [run, HonestHash]
      | panic a => intro n; simp [run, HonestHash]
      | diverge => intro n; simp [run, HonestHash]
      | ask q k ih =>
        intro n
        have step : ∀ a m, Ex.fickle q n = some (a, m) → (∀ x, q = .lookupHash → HEq a x → x = Ex.fkHash (.num 70)) →
            (∀ k' x, q = .hash k' → HEq a x → x = Ex.fkHash k') → HonestHash Ex.fkHash (Ex.fkHash (.num 70))
            ((Tree.ask q k).run Ex.fickle n).2 := by
          intro a m ha h1 h2
          rw [run, ha]
          have := ih a m
          refine ⟨fun x hx => ?_, fun k' x hx => ?_⟩
          · rcases List.mem_cons.1 hx with hx | hx
            · cases hx; exact h1 _ rfl HEq.rfl
            · exact this.1 x hx
          · rcases List.mem_cons.1 hx with hx | hx
            · cases hx; exact h2 _ _ rfl HEq.rfl
            · exact this.2 k' x hx
        cases q
        · exact step _ _ rfl (fun x _ h => (eq_of_heq h).symm) (fun _ _ h => by cases h)
        · exact step _ _ rfl (fun _ h => by cases h) (fun k' x h h' => by cases h; exact (eq_of_heq h').symm)
        all_goals exact step _ _ rfl (fun _ h => by cases h) (fun _ _ h => by cases h)
    exact gen _ 0

end HT
