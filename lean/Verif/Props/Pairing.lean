import Verif.Props.Chaos
import Verif.JointExamples
/-!
# Property C71: joint operations pair entries one to one, whatever `==` and the hashes answer

`Chaotic c t` (`Verif/ChaosSpec.lean`): `t` was made by any history of operations with keys whose hashes and `==` may answer
anything.  `Cross` gives the hashes and the `==` of the keys during the joint operation: arbitrary functions, that need
have nothing to do with each other or with what was answered when the two maps were made; none of the laws the rest of the
model assumes (`CrossLaws`) is assumed here, nor any contract of the closures.  `Pairing said as bs cs`
(`Verif/MatchSpec.lean`): the cases `cs` use up the entries `as` of the left map and `bs` of the right map, each exactly
once, and `said` holds of those that are paired.
-/
namespace HT

variable {K V L W S X R : Type} {c : Cfg} {x : Cross c K L} {reduce : R → R → R} {e : R}

theorem Pairing.length_le {A B : Type} {said : A → B → Prop} {as : List A} {bs : List B} {cs : List (Case A B)}
    (h : Pairing said as bs cs) : cs.length ≤ as.length + bs.length := by
  rw [← h.lefts.length_eq, ← h.rights.length_eq]
  clear h
  induction cs with
  | nil => simp
  | cons p cs ih => cases p <;> simp only [List.filterMap_cons, Case.left?, Case.right?, List.length_cons] <;> omega

/-- C71 for `transform_with_transmuted`: if it returns, there is a way to pair some entries of the left map with entries of
    the right map, such that no entry is in two pairs and `==` said yes to each pair, and the result has exactly what the
    closures made of the pairs and of the entries in no pair; the map again shows as many entries as its size says.  The
    reduction is that of the same cases. -/
theorem C71_transform_with_transmuted {t : Trie c K V} (ht : Chaotic c t) {u : Trie c L W} (hu : Chaotic c u)
    {ops : TwmOps K V L W R} {par : Par} {t' : Trie c K V} {r : R} (hr : t.twm x reduce e ops par u = .ok (t', r)) :
    (∃ cs : List (Case (K × V) (L × W)),
      Pairing (fun a b => x.eq a.1 b.1 = true ∨ x.eq' b.1 a.1 = true) t.visit u.visit cs ∧
      t'.visit.Perm (cs.filterMap fun
        | .left a => (ops.left.closure a.1 a.2).entry a
        | .right b => (ops.right.closure b.1 b.2).entry
        | .both a b => (ops.both.closure2 a.1 a.2 b.1 b.2).entry a) ∧
      (CMon reduce e → ops.Neutral e → r = total reduce e (cs.map fun
        | .left a => (ops.left.closure a.1 a.2).red
        | .right b => (ops.right.closure b.1 b.2).red
        | .both a b => (ops.both.closure2 a.1 a.2 b.1 b.2).red))) ∧
    t'.size = t'.visit.length ∧ t'.size ≤ t.size + u.size := by
  obtain ⟨_, cs, h1, h2⟩ := Trie.twm_paired ht.shape hu.shape hr
  have h3 : t'.visit.Perm (cs.filterMap ops.out) := Sem.Outs.fn (fun p o h => h) h2.outs
  have sz : t'.size = t'.visit.length := C65_size (.twm ht hu hr)
  refine ⟨⟨cs, h1, ?_, fun mon neu => ?_⟩, sz, ?_⟩
  · rw [List.filterMap_congr (g := ops.out) fun p _ => by cases p <;> rfl]; exact h3
  · rw [h2.red ⟨mon, neu⟩]
    exact congrArg (total reduce e) (List.map_congr_left fun p _ => by cases p <;> rfl)
  · rw [sz, C65_size ht, C65_size hu]
    exact h3.length_eq ▸ Nat.le_trans (List.length_filterMap_le ..) h1.length_le

/-- C71 for `transmute_with_transformed`: likewise. -/
theorem C71_transmute_with_transformed {t : Trie c K V} (ht : Chaotic c t) {u : Trie c L W} (hu : Chaotic c u)
    {ops : MwtOps K V L W R} {par : Par} {t' : Trie c L W} {r : R} (hr : t.mwt x reduce e ops par u = .ok (t', r)) :
    (∃ cs : List (Case (K × V) (L × W)),
      Pairing (fun a b => x.eq a.1 b.1 = true ∨ x.eq' b.1 a.1 = true) t.visit u.visit cs ∧
      t'.visit.Perm (cs.filterMap fun
        | .left a => (ops.left.closure a.1 a.2).entry
        | .right b => (ops.right.closure b.1 b.2).entry b
        | .both a b => (ops.both.closure2 a.1 a.2 b.1 b.2).entry b) ∧
      (CMon reduce e → ops.Neutral e → r = total reduce e (cs.map fun
        | .left a => (ops.left.closure a.1 a.2).red
        | .right b => (ops.right.closure b.1 b.2).red
        | .both a b => (ops.both.closure2 a.1 a.2 b.1 b.2).red))) ∧
    t'.size = t'.visit.length ∧ t'.size ≤ t.size + u.size := by
  obtain ⟨_, cs, h1, h2⟩ := Trie.mwt_paired ht.shape hu.shape hr
  have h3 : t'.visit.Perm (cs.filterMap ops.out) := Sem.Outs.fn (fun p o h => h) h2.outs
  have sz : t'.size = t'.visit.length := C65_size (.mwt ht hu hr)
  refine ⟨⟨cs, h1, ?_, fun mon neu => ?_⟩, sz, ?_⟩
  · rw [List.filterMap_congr (g := ops.out) fun p _ => by cases p <;> rfl]; exact h3
  · rw [h2.red ⟨mon, neu⟩]
    exact congrArg (total reduce e) (List.map_congr_left fun p _ => by cases p <;> rfl)
  · rw [sz, C65_size ht, C65_size hu]
    exact h3.length_eq ▸ Nat.le_trans (List.length_filterMap_le ..) h1.length_le

/-- C71 for `transmute_with_transmuted`: likewise. -/
theorem C71_transmute_with_transmuted {t : Trie c K V} (ht : Chaotic c t) {u : Trie c L W} (hu : Chaotic c u)
    {ops : MwmOps K V L W S X R} {t' : Trie c S X} {r : R} (hr : t.mwm x reduce e ops u = .ok (t', r)) :
    (∃ cs : List (Case (K × V) (L × W)),
      Pairing (fun a b => x.eq a.1 b.1 = true ∨ x.eq' b.1 a.1 = true) t.visit u.visit cs ∧
      t'.visit.Perm (cs.filterMap fun
        | .left a => (ops.left.closure a.1 a.2).entry
        | .right b => (ops.right.closure b.1 b.2).entry
        | .both a b => (ops.both.closure2 a.1 a.2 b.1 b.2).entry) ∧
      (CMon reduce e → ops.Neutral e → r = total reduce e (cs.map fun
        | .left a => (ops.left.closure a.1 a.2).red
        | .right b => (ops.right.closure b.1 b.2).red
        | .both a b => (ops.both.closure2 a.1 a.2 b.1 b.2).red))) ∧
    t'.size = t'.visit.length ∧ t'.size ≤ t.size + u.size := by
  obtain ⟨_, cs, h1, h2⟩ := Trie.mwm_paired ht.shape hu.shape hr
  have h3 : t'.visit.Perm (cs.filterMap ops.out) := Sem.Outs.fn (fun p o h => h) h2.outs
  have sz : t'.size = t'.visit.length := C65_size (.mwm ht hu hr)
  refine ⟨⟨cs, h1, ?_, fun mon neu => ?_⟩, sz, ?_⟩
  · rw [List.filterMap_congr (g := ops.out) fun p _ => by cases p <;> rfl]; exact h3
  · rw [h2.red ⟨mon, neu⟩]
    exact congrArg (total reduce e) (List.map_congr_left fun p _ => by cases p <;> rfl)
  · rw [sz, C65_size ht, C65_size hu]
    exact h3.length_eq ▸ Nat.le_trans (List.length_filterMap_le ..) h1.length_le

/-- C71 for `transform_with_transformed`, which makes up nothing: every entry of the result is one of either map, or a key
    of either map with a value that a closure made for it, and a closure for pairs made such a value only for two entries
    to whose keys `==` said yes. -/
theorem C71_transform_with_transformed [BEq K] {t u : Trie c K V} (ht : Chaotic c t) (hu : Chaotic c u)
    {hash : K → BitVec c.w} {ops : TwtOps K V R} {par : Par} {t' : Trie c K V} {r : R}
    (hr : t.twt reduce e hash ops par u = .ok (t', r)) :
    (∀ k v, (k, v) ∈ t'.visit →
      (k, v) ∈ t.visit ∨ (k, v) ∈ u.visit ∨
      (∃ v₀ r₀, (k, v₀) ∈ t.visit ∧ ops.left.closure k v₀ = .transformed v r₀) ∨
      (∃ v₀ r₀, (k, v₀) ∈ u.visit ∧ ops.right.closure k v₀ = .transformed v r₀) ∨
      (∃ a ∈ t.visit, ∃ b ∈ u.visit, ((a.1 == b.1) = true ∨ (b.1 == a.1) = true) ∧ (k = a.1 ∨ k = b.1) ∧
        ∃ r₀, ops.both.closure a.1 a.2 b.1 b.2 = .transformed v r₀)) ∧
    t'.size = t'.visit.length := by
  refine ⟨fun k v hk => ?_, C65_size (.twt ht hu hr)⟩
  generalize hp : (k, v) = p at hk
  cases (Trie.twt_made ht.shape hu.shape hr).2 p hk with
  | left h => subst hp; exact .inl h
  | right h => subst hp; exact .inr (.inl h)
  | leftNew h hc => cases hp; exact .inr (.inr (.inl ⟨_, _, h, hc⟩))
  | rightNew h hc => cases hp; exact .inr (.inr (.inr (.inl ⟨_, _, h, hc⟩)))
  | bothNew ha hb hs hk' hc => cases hp; exact .inr (.inr (.inr (.inr ⟨_, ha, _, hb, hs, hk', _, hc⟩)))

/-! ### Such calls -/

/-- Insert one key after the other; all hash alike, and `==` always says no. -/
def Ex.pileUp (t : Trie Ex.c8 Nat Nat) : List Nat → Res (Trie Ex.c8 Nat Nat)
  | [] => .ok t
  | k :: ks => do
    match ← (t.insertK k k true).eval (Ex.says 1#8 1#8 false) with
    | .ok (t', _, _) => Ex.pileUp t' ks
    | .error _ => .ok t

theorem Ex.pileUp_chaotic {t t' : Trie Ex.c8 Nat Nat} (h : Chaotic Ex.c8 t) {ks : List Nat}
    (hr : Ex.pileUp t ks = .ok t') : Chaotic Ex.c8 t' := by
  induction ks generalizing t with
  | nil => injection hr with hr; subst hr; exact h
  | cons k ks ih =>
    simp only [Ex.pileUp] at hr
    obtain ⟨r, h1, hr⟩ := Res.bind_eq_ok.1 hr
    rcases r with e | ⟨t1, p, q⟩
    · injection hr with hr; subst hr; exact h
    · obtain ⟨calls, h2, _⟩ := Tree.eval_path h1
      exact ih (.insert h h2) hr

theorem Ex.exists_chaotic2 (ks ks' ls ls' : List Nat) (p : Trie Ex.c8 Nat Nat → Trie Ex.c8 Nat Nat → Bool)
    (hp : (match Ex.pileUp (Trie.new Ex.c8) ks >>= (Ex.insertAll · ks'),
        Ex.pileUp (Trie.new Ex.c8) ls >>= (Ex.insertAll · ls') with
      | .ok t, .ok u => p t u
      | _, _ => false) = true) :
    ∃ t u : Trie Ex.c8 Nat Nat, Chaotic Ex.c8 t ∧ Chaotic Ex.c8 u ∧ p t u = true := by
  split at hp
  · rename_i t u ht hu
    obtain ⟨t1, h1, h2⟩ := Res.bind_eq_ok.1 ht
    obtain ⟨u1, h3, h4⟩ := Res.bind_eq_ok.1 hu
    exact ⟨t, u, Ex.insertAll_chaotic (Ex.pileUp_chaotic .new h1) h2, Ex.insertAll_chaotic (Ex.pileUp_chaotic .new h3) h4, hp⟩
  · cases hp

/-- Keys of which `==` says yes to every two of equal parity, asked from one side, and no, asked from the other; their hash
    does not depend on the key. -/
def Ex.liar : Cross Ex.c8 Nat Nat where
  hash _ := 1#8
  hash' _ := 1#8
  eq a b := a % 2 == b % 2
  eq' _ _ := false

def Ex.liarTwm : TwmOps Nat Nat Nat Nat Nat :=
  ⟨.generic fun _ v _ w => .transformed (v + w) 1, .generic fun _ _ => .unchanged 10,
    .generic fun l w => .transmuted l w 100⟩
def Ex.liarMwm : MwmOps Nat Nat Nat Nat Nat Nat Nat :=
  ⟨.generic fun k v _ w => .transmuted k (v + w) 1, .generic fun k v => .transmuted k v 10,
    .generic fun l w => .transmuted l w 100⟩
def Ex.liarTwt : TwtOps Nat Nat Nat :=
  ⟨.generic (fun _ v _ w => .transformed (v + w) 1) false, .generic fun _ _ => .unchanged 10,
    .generic fun _ _ => .unchanged 100⟩

/-- `==` of one key type that says yes to every two keys of equal parity. -/
def Ex.parity : BEq Nat := ⟨fun a b => a % 2 == b % 2⟩

/-- Of 2, 1, 31, 20, 10 and 42, 51, 60, 70 the operation pairs 2 with 70, 31 with 51 and 10 with 42; 20, which `==` says
    is equal to 42, 60 and 70, is in no pair. -/
example : ∃ t u : Trie Ex.c8 Nat Nat, Chaotic Ex.c8 t ∧ Chaotic Ex.c8 u ∧
    ((t.twm Ex.liar (· + ·) 0 Ex.liarTwm .sequential u).test fun y => decide (y.1.visit =
      [(2, 72), (60, 60), (1, 1), (31, 82), (20, 20), (10, 52)]) && decide (y.2 = 123)) = true :=
  Ex.exists_chaotic2 [10, 20, 31] [1, 2] [42, 51] [60, 70] _ (by decide +kernel)

/-- 60 with 4. -/
example : ∃ t u : Trie Ex.c8 Nat Nat, Chaotic Ex.c8 t ∧ Chaotic Ex.c8 u ∧
    ((t.mwt Ex.liar (· + ·) 0 Ex.liarTwm.flip .sequential u).test fun y => decide (y.1.visit =
      [(7, 7), (60, 64), (10, 10), (20, 20), (51, 51), (42, 42)]) && decide (y.2 = 321)) = true :=
  Ex.exists_chaotic2 [10, 20] [4, 7] [42, 51] [60] _ (by decide +kernel)

example : ∃ t u : Trie Ex.c8 Nat Nat, Chaotic Ex.c8 t ∧ Chaotic Ex.c8 u ∧
    ((t.mwm Ex.liar (· + ·) 0 Ex.liarMwm u).test fun y => decide (y.1.visit =
      [(2, 72), (1, 1), (60, 60), (31, 82), (20, 20), (10, 52)]) && decide (y.2 = 123)) = true :=
  Ex.exists_chaotic2 [10, 20, 31] [1, 2] [42, 51] [60, 70] _ (by decide +kernel)

example : ∃ t u : Trie Ex.c8 Nat Nat, Chaotic Ex.c8 t ∧ Chaotic Ex.c8 u ∧
    ((@Trie.twt Nat Nat Nat Ex.c8 (· + ·) 0 Ex.parity (fun _ => 1#8) Ex.liarTwt .sequential t u).test fun y =>
      decide (y.1.visit = [(2, 72), (60, 60), (1, 1), (31, 82), (20, 20), (10, 52)]) && decide (y.2 = 123)) = true :=
  Ex.exists_chaotic2 [10, 20, 31] [1, 2] [42, 51] [60, 70] _ (by decide +kernel)

/-- `reduce` and the operations of these examples meet the conditions for the reduction. -/
example : CMon (· + · : Nat → Nat → Nat) 0 ∧ Ex.liarTwm.Neutral 0 ∧ Ex.liarTwm.flip.Neutral 0 ∧ Ex.liarMwm.Neutral 0 :=
  ⟨{ assoc := Nat.add_assoc, left := Nat.zero_add, right := Nat.add_zero, comm := Nat.add_comm },
    by simp [TwmOps.Neutral, Ex.liarTwm, MapTransform.Neutral, MapTransmute.Neutral],
    by simp [MwtOps.Neutral, TwmOps.flip, Ex.liarTwm, MapTransform.Neutral, MapTransmute.Neutral, MapTransform.flip2],
    by simp [MwmOps.Neutral, Ex.liarMwm, MapTransmute.Neutral]⟩

/-! ### It need not return -/

/-- `==` always says yes; the keys of the two maps have different hashes, which agree in all bits but the lowest. -/
def Ex.liarHash : Cross Ex.c8 Nat Nat where
  hash _ := 0#8
  hash' _ := 1#8
  eq _ _ := true
  eq' _ _ := true

def Ex.panics {α : Type} : Res α → Bool
  | .panic _ => true
  | _ => false

/-- C71: "if it returns" is needed: with hashes that differ from those the maps were made with, two entries found at the
    same place can have different hashes that cannot be told apart from there on, and then each of the three operations
    panics. -/
theorem C71_may_panic : ∃ t u : Trie Ex.c8 Nat Nat, Chaotic Ex.c8 t ∧ Chaotic Ex.c8 u ∧
    (Ex.panics (t.twm Ex.liarHash (· + ·) 0 Ex.liarTwm .sequential u) &&
     Ex.panics (t.mwt Ex.liarHash (· + ·) 0 Ex.liarTwm.flip .sequential u) &&
     Ex.panics (t.mwm Ex.liarHash (· + ·) 0 Ex.liarMwm u)) = true :=
  Ex.exists_chaotic2 [] [10, 20, 31] [] [42, 51] _ (by decide +kernel)

end HT
