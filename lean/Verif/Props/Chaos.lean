import Verif.ChaosBulk
import Verif.MatchTrie
import Verif.MatchTwt
import Verif.Props.KeyCalls
/-!
# Property C65: keys whose code answers anything

`Chaotic c t` (`Verif/ChaosSpec.lean`): `t` was made by `new`, `insert`, `remove`, `transform`, `transmute` and the four
joint operations (about which see C71) with keys whose hashes and `==` may answer anything at any time (hashes may contradict `==`, each other and earlier hashes of the
same key; a lookup type may hash differently from the key it stands for), and with closures for `transmute` that keep no
contract.  `Trie.findK`, `Trie.insertK`, `Trie.removeK` (`Verif/KeyCalls.lean`) are the operations with every call of the
keys' code as a step, `Path calls outcome` (`Verif/Eff.lean`) one run with the answers it got.
-/
namespace HT

variable {K V : Type} {c : Cfg}
open Tree

theorem Chaotic.shape {K V : Type} {t : Trie c K V} (h : Chaotic c t) : t.root.Shape 0 := by
  induction h with
  | new => exact Trie.new_shape
  | @insert K V t t' k v replace ptr prev calls _ run ih =>
    have key : (t.insertK k v replace).Ends (fun _ r => ∀ t' p q, r = .ok (t', p, q) → t'.root.Shape 0) (fun _ _ => True) := by
      rw [Trie.insertK_ask]
      intro (hv : BitVec c.w)
      refine (Node.insertK_ends ih k v replace (flag := some (flagDeep hv 0))
        ⟨fun _ => rfl, fun h => absurd deep_zero h⟩).bind (fun _ _ _ => trivial) fun cs r hr => ?_
      cases hr with
      | found => intro t' p q h; cases h
      | fresh m' _ _ shape => intro t' p q h; cases h; exact shape
      | replaced m' _ _ _ _ _ shape => intro t' p q h; cases h; exact shape
    rcases key.path run with ⟨q, h⟩ | ⟨a, h, h'⟩ | ⟨p, h, _⟩
    · cases h
    · injection h with h; exact h' _ _ _ h.symm
    · cases h
  | @remove K V t t' e calls _ run ih =>
    have key : t.removeK.Ends (fun _ r => ∀ t' e, r = some (t', e) → t'.root.Shape 0) (fun _ _ => True) := by
      rw [Trie.removeK_ask]
      intro (hv : BitVec c.w)
      refine (Node.removeK_ends ih (flag := some (flagDeep hv 0))
        ⟨fun _ => rfl, fun h => absurd deep_zero h⟩).bind (fun _ _ _ => trivial) fun cs r hr => ?_
      cases hr with
      | none => intro t' e h; cases h
      | removed m' _ _ _ _ _ _ shape => intro t' e h; cases h; exact shape
      | removedZ => intro t' e h; cases h; exact Trie.new_shape
    rcases key.path run with ⟨q, h⟩ | ⟨a, h, h'⟩ | ⟨p, h, _⟩
    · cases h
    · injection h with h; exact h' _ _ h.symm
    · cases h
  | @transform K V R t t' reduce e r op par _ hr ih =>
    obtain ⟨t1, r1, h1, h2, _⟩ := Trie.transform_shape ih reduce e op par
    rw [hr] at h1; injection h1 with h1; cases h1; exact h2
  | @transmute K V S X R t t' reduce e r op _ hr ih =>
    obtain ⟨t1, r1, h1, h2, _⟩ := Trie.transmute_shape ih reduce e op
    rw [hr] at h1; injection h1 with h1; cases h1; exact h2
  | twm _ _ hr ih ih' => exact (Trie.twm_paired ih ih' hr).1
  | mwt _ _ hr ih ih' => exact (Trie.mwt_paired ih ih' hr).1
  | mwm _ _ hr ih ih' => exact (Trie.mwm_paired ih ih' hr).1
  | twt _ _ hr ih ih' => exact (Trie.twt_made ih ih' hr).1

/-! ### Such maps -/

/-- Keys that hash to `lookup` when they are looked up and to `stored` once they are in the map; `==` always says `eq`. -/
def Ex.says (lookup stored : BitVec 8) (eq : Bool) : (q : KCall Nat Nat) → KAns Nat Nat Ex.c8.w q
  | .lookupHash => lookup
  | .hash _ => stored
  | .eq _ => eq
  | .intoKey => ()
  | .intoValue => ()
  | .cloneKey _ => ()
  | .cloneValue _ => ()

/-- Insert one key after the other. -/
def Ex.insertAll (t : Trie Ex.c8 Nat Nat) : List Nat → Res (Trie Ex.c8 Nat Nat)
  | [] => .ok t
  | k :: ks => do
    match ← (t.insertK k k true).eval (Ex.says 0#8 1#8 false) with
    | .ok (t', _, _) => Ex.insertAll t' ks
    | .error _ => .ok t

theorem Ex.insertAll_chaotic {t t' : Trie Ex.c8 Nat Nat} (h : Chaotic Ex.c8 t) {ks : List Nat}
    (hr : Ex.insertAll t ks = .ok t') : Chaotic Ex.c8 t' := by
  induction ks generalizing t with
  | nil => injection hr with hr; subst hr; exact h
  | cons k ks ih =>
    simp only [Ex.insertAll] at hr
    obtain ⟨r, h1, hr⟩ := Res.bind_eq_ok.1 hr
    rcases r with e | ⟨t1, p, q⟩
    · injection hr with hr; subst hr; exact h
    · obtain ⟨calls, h2, _⟩ := eval_path h1
      exact ih (.insert h h2) hr

theorem Ex.exists_chaotic (ks : List Nat) (p : Trie Ex.c8 Nat Nat → Bool)
    (hp : (match Ex.insertAll (Trie.new Ex.c8) ks with | .ok t => p t | _ => false) = true) :
    ∃ t : Trie Ex.c8 Nat Nat, Chaotic Ex.c8 t ∧ p t = true := by
  split at hp
  · rename_i t ht; exact ⟨t, Ex.insertAll_chaotic .new ht, hp⟩
  · cases hp

theorem Tree.eval_path_panic {Q : Type} {A : Q → Type} {α : Type} {x : Tree Q A α} {h : (q : Q) → A q} {p : Panic}
    (hx : x.eval h = .panic p) : ∃ calls, x.Path calls (.panic p) := by
  induction x with
  | ret b => cases hx
  | panic p' => injection hx with hx; subst hx; exact ⟨[], .panic _⟩
  | diverge => cases hx
  | ask q k ih =>
    obtain ⟨calls, h1⟩ := ih _ hx
    exact ⟨_, .ask q k _ _ _ h1⟩

/-- C65: every map of C59 (and so of the rest of the model) is among them, … -/
theorem C65_held {K V : Type} {hash : K → BitVec c.w} {t : Trie c K V} (h : Held c hash t) : Chaotic c t := by
  induction h with
  | new => exact .new
  | insert _ run _ _ ih => exact .insert ih run
  | remove _ run ih => exact .remove ih run
  | transform _ hr ih => exact .transform ih hr
  | transmute _ _ hr ih => exact .transmute ih hr

example : ∃ t : Trie Ex.c8 Ex.Fk Nat, Chaotic Ex.c8 t ∧ t.visit.length = 6 :=
  let ⟨t, h, hv⟩ := Ex.held
  ⟨t, C65_held h, by rw [hv]; rfl⟩

/-- C65: … and others: with keys that hash differently when they are looked up, a map of three keys shows all of them in
    `visit`, and `find` finds none of them although `==` would say yes to every key it is asked about. -/
theorem C65_lost : ∃ t : Trie Ex.c8 Nat Nat, Chaotic Ex.c8 t ∧ t.size = 3 ∧ t.visit.length = 3 ∧
    ∃ calls, t.findK.Path calls (.ret none) := by
  obtain ⟨t, h, hp⟩ := Ex.exists_chaotic [10, 20, 30] (fun t => decide (t.size = 3) && decide (t.visit.length = 3) &&
    (match t.findK.eval (Ex.says 2#8 0#8 true) with | .ok none => true | _ => false)) (by decide +kernel)
  simp only [Bool.and_eq_true, decide_eq_true_eq] at hp
  obtain ⟨⟨h1, h2⟩, h3⟩ := hp
  split at h3
  · rename_i hr
    obtain ⟨calls, h4, _⟩ := eval_path hr
    exact ⟨t, h, h1, h2, calls, h4⟩
  · cases h3

/-! ### The properties -/

/-- C65: `size` is the number of entries `visit` shows. -/
theorem C65_size {t : Trie c K V} (h : Chaotic c t) : t.size = t.visit.length := h.shape.size_eq

/-- C65: `find` ends, unless the keys' code panics or does not return.  If it returns nothing then `==` did not say yes
    during the call; if it returns an entry, that is one of the map and `==` said yes to it during the call.  It does not
    panic, in any build. -/
theorem C65_find {t : Trie c K V} (h : Chaotic c t) {calls : List (Reply (KCall K V) (KAns K V c.w))}
    {o : Outcome (KCall K V) (Option (K × V))} (run : t.findK.Path calls o) :
    (∃ q, o = .closure q) ∨
    (o = .ret none ∧ ∀ k, ¬ SaidYes calls k) ∨
    ∃ e, o = .ret (some e) ∧ e ∈ t.visit ∧ SaidYes calls e.1 := by
  have key : t.findK.Ends (Found t.visit) (fun _ _ => False) := by
    rw [Trie.findK_ask]
    intro (hv : BitVec c.w)
    refine (Node.findK_ends h.shape (some (flagDeep hv 0)) fun _ => rfl).mono (fun cs r hr => ?_) fun _ _ h => h
    cases r with
    | none =>
      intro k hk
      rcases List.mem_cons.1 hk with hk | hk
      · cases (Sigma.mk.inj hk).1
      · exact hr k hk
    | some e => exact ⟨hr.1, List.mem_cons_of_mem _ hr.2⟩
  rcases key.path run with h | ⟨a, h, h'⟩ | ⟨_, _, h⟩
  · exact .inl h
  · cases a with
    | none => exact .inr (.inl ⟨h, h'⟩)
    | some e => exact .inr (.inr ⟨e, h, h'.1, h'.2⟩)
  · exact h.elim

example : ∃ t : Trie Ex.c8 Nat Nat, Chaotic Ex.c8 t ∧ ∃ calls, t.findK.Path calls (.ret none) :=
  let ⟨t, h, _, _, calls, h'⟩ := C65_lost
  ⟨t, h, calls, h'⟩

/-- C65: `remove` ends, unless the keys' code panics or does not return.  If it returns nothing then `==` did not say
    yes during the call; otherwise the new map shows, in the old order, what the old map shows without one entry, and
    that entry is returned and `==` said yes to it.  It can only panic in an overflow-checked build (shift overflow). -/
theorem C65_remove {t : Trie c K V} (h : Chaotic c t) {calls : List (Reply (KCall K V) (KAns K V c.w))}
    {o : Outcome (KCall K V) (Option (Trie c K V × (K × V)))} (run : t.removeK.Path calls o) :
    (∃ q, o = .closure q) ∨
    (o = .ret none ∧ ∀ k, ¬ SaidYes calls k) ∨
    (∃ t' e l r, o = .ret (some (t', e)) ∧ SaidYes calls e.1 ∧ t.visit = l ++ e :: r ∧ t'.visit = l ++ r) ∨
    (o = .panic .shiftOverflow ∧ c.checked = true) := by
  have key : t.removeK.Ends (fun cs r => (r = none ∧ ∀ k, ¬ SaidYes cs k) ∨
      ∃ t' e l q, r = some (t', e) ∧ SaidYes cs e.1 ∧ t.visit = l ++ e :: q ∧ t'.visit = l ++ q) (Overflows c) := by
    rw [Trie.removeK_ask]
    intro (hv : BitVec c.w)
    refine (Node.removeK_ends h.shape (flag := some (flagDeep hv 0))
      ⟨fun _ => rfl, fun h => absurd deep_zero h⟩).bind (fun _ _ h => h) fun cs r hr => ?_
    cases hr with
    | none no =>
      refine .inl ⟨rfl, fun k hk => ?_⟩
      rcases List.mem_cons.1 hk with hk | hk
      · cases (Sigma.mk.inj hk).1
      · rw [List.append_nil] at hk
        exact no k hk
    | removed m' p e q eq vis _ _ yes =>
      exact .inr ⟨_, e, p, q, rfl, List.mem_cons_of_mem _ yes.append, eq, vis⟩
    | removedZ e eq yes =>
      exact .inr ⟨_, e, [], [], rfl, List.mem_cons_of_mem _ yes.append, eq, Trie.new_visit⟩
  rcases key.path run with h | ⟨a, h, h'⟩ | ⟨p, h, h'⟩
  · exact .inl h
  · subst h
    rcases h' with ⟨rfl, h'⟩ | ⟨t', e, l, q, rfl, h1, h2, h3⟩
    · exact .inr (.inl ⟨rfl, h'⟩)
    · exact .inr (.inr (.inl ⟨t', e, l, q, rfl, h1, h2, h3⟩))
  · rw [h, h'.1]; exact .inr (.inr (.inr ⟨rfl, h'.2⟩))

example : ∃ t : Trie Ex.c8 Nat Nat, Chaotic Ex.c8 t ∧ t.size = 3 ∧ ∃ calls r, t.removeK.Path calls (.ret (some r)) := by
  obtain ⟨t, h, hp⟩ := Ex.exists_chaotic [10, 20, 30] (fun t => decide (t.size = 3) &&
    (match t.removeK.eval (Ex.says 0#8 1#8 true) with | .ok (some _) => true | _ => false)) (by decide +kernel)
  simp only [Bool.and_eq_true, decide_eq_true_eq] at hp
  obtain ⟨h1, h3⟩ := hp
  split at h3
  · rename_i r hr
    obtain ⟨calls, h4, _⟩ := eval_path hr
    exact ⟨t, h, h1, calls, r, h4⟩
  · cases h3

/-- C65: `insert` ends, unless the keys' code panics or does not return, in one of these ways.
    * It returns an entry of the map as already there; then it was not to replace, and `==` said yes to that entry.
    * It returns a map that shows the new entry and all of the old ones; then `==` did not say yes during the call.
    * It returns a map that shows the new entry and all of the old ones but one, and returns that one; then it was to
      replace, and `==` said yes to that entry.
    * It panics: because `==` said both yes and no to the same key (only if it was to replace), or because it could not
      tell two keys apart although `==` had never said yes (`unwrap`), or on a shift overflow in a checked build. -/
theorem C65_insert {t : Trie c K V} (h : Chaotic c t) {k : K} {v : V} {replace : Bool}
    {calls : List (Reply (KCall K V) (KAns K V c.w))}
    {o : Outcome (KCall K V) (Except (K × V) (Trie c K V × (K × V) × Option (K × V)))}
    (run : (t.insertK k v replace).Path calls o) :
    (∃ q, o = .closure q) ∨
    (∃ e, o = .ret (.error e) ∧ replace = false ∧ e ∈ t.visit ∧ SaidYes calls e.1) ∨
    (∃ t', o = .ret (.ok (t', (k, v), none)) ∧ (∀ k, ¬ SaidYes calls k) ∧ t'.visit.Perm ((k, v) :: t.visit)) ∨
    (∃ t' e l r, o = .ret (.ok (t', (k, v), some e)) ∧ replace = true ∧ SaidYes calls e.1 ∧
      t.visit = l ++ e :: r ∧ t'.visit.Perm ((k, v) :: (l ++ r))) ∨
    (o = .panic .explicit ∧ replace = true ∧ ∃ k, SaidYes calls k ∧ SaidNo calls k) ∨
    (o = .panic .unwrap ∧ ∀ k, ¬ SaidYes calls k) ∨
    (o = .panic .shiftOverflow ∧ c.checked = true) := by
  have key : (t.insertK k v replace).Ends (fun cs r =>
      (∃ e, r = .error e ∧ replace = false ∧ e ∈ t.visit ∧ SaidYes cs e.1) ∨
      (∃ t' : Trie c K V, r = .ok (t', (k, v), none) ∧ (∀ k, ¬ SaidYes cs k) ∧ t'.visit.Perm ((k, v) :: t.visit)) ∨
      ∃ (t' : Trie c K V) (e : K × V) (l q : List (K × V)), r = .ok (t', (k, v), some e) ∧ replace = true ∧
        SaidYes cs e.1 ∧ t.visit = l ++ e :: q ∧ t'.visit.Perm ((k, v) :: (l ++ q))) (InsE c replace) := by
    rw [Trie.insertK_ask]
    intro (hv : BitVec c.w)
    have noMore : ∀ cs : List (Reply (KCall K V) (KAns K V c.w)), (∀ k, ¬ SaidYes cs k) →
        ∀ k, ¬ SaidYes (⟨.lookupHash, some hv⟩ :: cs) k := by
      intro cs no k hk
      rcases List.mem_cons.1 hk with hk | hk
      · cases (Sigma.mk.inj hk).1
      · exact no k hk
    refine (Node.insertK_ends h.shape k v replace (flag := some (flagDeep hv 0))
      ⟨fun _ => rfl, fun h => absurd deep_zero h⟩).bind (fun cs p h => ?_) fun cs r hr => ?_
    · cases h with
      | confused repl k yes no => exact .confused repl k (List.mem_cons_of_mem _ yes) (List.mem_cons_of_mem _ no)
      | bottom no => exact .bottom (noMore _ no)
      | overflow h => exact .overflow h
    · cases hr with
      | found e mem keep yes => exact .inl ⟨e, rfl, keep, mem, List.mem_cons_of_mem _ yes.append⟩
      | fresh m' no vis _ _ =>
        exact .inr (.inl ⟨_, rfl, noMore _ (by rw [List.append_nil]; exact no), vis⟩)
      | replaced m' p e q eq vis _ _ repl yes =>
        exact .inr (.inr ⟨_, e, p, q, rfl, repl, List.mem_cons_of_mem _ yes.append, eq, vis⟩)
  rcases key.path run with h | ⟨a, h, h'⟩ | ⟨p, h, h'⟩
  · exact .inl h
  · subst h
    rcases h' with ⟨e, rfl, h'⟩ | ⟨t', rfl, h'⟩ | ⟨t', e, l, q, rfl, h'⟩
    · exact .inr (.inl ⟨e, rfl, h'⟩)
    · exact .inr (.inr (.inl ⟨t', rfl, h'⟩))
    · exact .inr (.inr (.inr (.inl ⟨t', e, l, q, rfl, h'⟩)))
  · subst h
    cases h' with
    | confused repl k yes no => exact .inr (.inr (.inr (.inr (.inl ⟨rfl, repl, k, yes, no⟩))))
    | bottom no => exact .inr (.inr (.inr (.inr (.inr (.inl ⟨rfl, no⟩)))))
    | overflow h => exact .inr (.inr (.inr (.inr (.inr (.inr ⟨rfl, h⟩)))))

example : ∃ t : Trie Ex.c8 Nat Nat, Chaotic Ex.c8 t ∧ t.size = 3 ∧
    ∃ calls r, (t.insertK 40 40 true).Path calls (.ret (.ok r)) ∧ r.2.2.isSome := by
  obtain ⟨t, h, hp⟩ := Ex.exists_chaotic [10, 20, 30] (fun t => decide (t.size = 3) &&
    (match (t.insertK 40 40 true).eval (Ex.says 0#8 1#8 true) with | .ok (.ok r) => r.2.2.isSome | _ => false))
    (by decide +kernel)
  simp only [Bool.and_eq_true, decide_eq_true_eq] at hp
  obtain ⟨h1, h3⟩ := hp
  split at h3
  · rename_i r hr
    obtain ⟨calls, h4, _⟩ := eval_path hr
    exact ⟨t, h, h1, calls, r, h4, h3⟩
  · cases h3

/-- C65: the `unwrap` panic happens, in a build without overflow checks too: four insertions of keys that hash to 0 when
    they are looked up and to 1 when they are stored are enough (8-bit hashes). -/
theorem C65_bottom : ∃ t : Trie Ex.c8 Nat Nat, Chaotic Ex.c8 t ∧ t.size = 3 ∧
    ∃ calls, (t.insertK 40 40 true).Path calls (.panic .unwrap) := by
  obtain ⟨t, h, hp⟩ := Ex.exists_chaotic [10, 20, 30] (fun t => decide (t.size = 3) &&
    (match (t.insertK 40 40 true).eval (Ex.says 0#8 1#8 false) with | .panic .unwrap => true | _ => false)) (by decide +kernel)
  simp only [Bool.and_eq_true, decide_eq_true_eq] at hp
  obtain ⟨h1, h3⟩ := hp
  split at h3
  · rename_i hr
    obtain ⟨calls, h4⟩ := Tree.eval_path_panic hr
    exact ⟨t, h, h1, calls, h4⟩
  · cases h3

/-- C65: `transform` returns, whatever the map and the closure are; the new map shows what the closure makes of the
    entries of the old one, in their order. -/
theorem C65_transform {R : Type} {t : Trie c K V} (h : Chaotic c t) (reduce : R → R → R) (e : R)
    (op : MapTransform R (K → V → MapTransformResult V R)) (par : Par) :
    ∃ t' r, t.transform reduce e op par = .ok (t', r) ∧ Chaotic c t' ∧
      t'.visit = t.visit.filterMap (fun x => (op.call x.1 x.2).entry x) ∧
      (Mon reduce e → op.Neutral e → r = total reduce e (t.visit.map fun x => (op.call x.1 x.2).red)) := by
  obtain ⟨t', r, h1, _, h2, h3⟩ := Trie.transform_shape h.shape reduce e op par
  exact ⟨t', r, h1, .transform h h1, h2, h3⟩

/-- C65: `transmute` returns, whatever the map is and whether or not the closure keeps the contract of `transmute`; the
    new map shows what the closure makes of the entries of the old one, in their order. -/
theorem C65_transmute {S X R : Type} {t : Trie c K V} (h : Chaotic c t) (reduce : R → R → R) (e : R)
    (op : MapTransmute R (K → V → MapTransmuteResult S X R)) :
    ∃ t' r, t.transmute reduce e op = .ok (t', r) ∧ Chaotic c t' ∧
      t'.visit = t.visit.filterMap (fun x => (op.call x.1 x.2).entry) ∧
      (Mon reduce e → op.Neutral e → r = total reduce e (t.visit.map fun x => (op.call x.1 x.2).red)) := by
  obtain ⟨t', r, h1, _, h2, h3⟩ := Trie.transmute_shape h.shape reduce e op
  exact ⟨t', r, h1, .transmute h h1, h2, h3⟩

/-- A closure of `transmute` without any contract: it sends every entry to key 7. -/
example : ∃ t : Trie Ex.c8 Nat Nat, Chaotic Ex.c8 t ∧ ∃ t' : Trie Ex.c8 Nat Nat, Chaotic Ex.c8 t' ∧
    t'.visit.map (·.1) = [7, 7, 7] := by
  obtain ⟨t, h, hp⟩ := Ex.exists_chaotic [10, 20, 30] (fun t => decide (t.visit.length = 3)) (by decide +kernel)
  obtain ⟨t', r, _, h2, h3, _⟩ := C65_transmute h (fun a _ => a) () (.generic fun _ v => .transmuted 7 v ())
  have hp := of_decide_eq_true hp
  refine ⟨t, h, t', h2, ?_⟩
  rw [h3]
  generalize t.visit = l at hp
  match l, hp with
  | [a, b, c], _ => rfl

end HT
