import Verif.JointList
/-!
# The loop that collects the entries of the right list, turn by turn

(`/repo/src/node/lnode.rs:305-318`, 443-456, 564-577.)  `LNode.rights` of `Verif/JointList.lean` is the outcome of this
loop; here the loop itself is run one turn at a time, without a bound, and the outcome is shown to be that one.
-/
namespace HT

variable {L W : Type}

/-- What the loop is doing: at the top of a turn, with `r` and the vector `rights`; or past the `break`. -/
inductive LoopState (L W : Type) where
  | running (r : LNode L W) (rights : List (L × W))
  | done (rights : List (L × W))

/-- Before the loop (`/repo/src/node/lnode.rs:305-306`, 443-444, 564-565). -/
def LNode.loopStart (right : LNode L W) : LoopState L W := .running right [(right.key, right.value)]

/-- One turn (`/repo/src/node/lnode.rs:308-317`, 446-455, 567-576).  The `r = right` of the code is the `right` here. -/
def LNode.loopTurn (right : LNode L W) : LoopState L W → LoopState L W
  | .running r rights =>
    match r.next with
    | .L lnode => .running right (rights ++ [(lnode.key, lnode.value)])
    | .S snode => .done (rights ++ [(snode.key, snode.value)])
  | .done rights => .done rights

/-- The state after `n` turns. -/
def LNode.loopAfter (right : LNode L W) : Nat → LoopState L W
  | 0 => right.loopStart
  | n + 1 => right.loopTurn (right.loopAfter n)

theorem LNode.loopAfter_L {right l : LNode L W} (h : right.next = .L l) (n : Nat) :
    right.loopAfter n =
      .running right ((right.key, right.value) :: List.replicate n (l.key, l.value)) := by
  induction n with
  | zero => rfl
  | succ n ih => simp [LNode.loopAfter, ih, LNode.loopTurn, h, ← List.replicate_succ', List.replicate_succ]

theorem LNode.loopAfter_S {right : LNode L W} {s : SNode L W} (h : right.next = .S s) (n : Nat) :
    right.loopAfter (n + 1) = .done [(right.key, right.value), (s.key, s.value)] := by
  induction n with
  | zero => simp [LNode.loopAfter, LNode.loopStart, LNode.loopTurn, h]
  | succ n ih => rw [LNode.loopAfter, ih, LNode.loopTurn]

theorem LNode.visit_length_pos (l : LNode L W) : 2 ≤ l.visit.length := by
  cases l with
  | nextS k v s z => simp [LNode.visit, SNode.visit]
  | nextL k v l z => simp [LNode.visit]; exact Nat.succ_le_of_lt (Nat.lt_of_lt_of_le (by decide) (LNode.visit_length_pos l))

/-- The number of entries is what decides: with two the loop ends with them after one turn; with more it never ends,
    and after `n` turns the vector holds `n + 1` references. -/
theorem LNode.loop_outcome (right : LNode L W) :
    (right.visit.length = 2 → ∀ n, right.loopAfter (n + 1) = .done right.visit) ∧
    (right.visit.length ≠ 2 → ∀ n, ∃ r rights, right.loopAfter n = .running r rights ∧ rights.length = n + 1) := by
  cases right with
  | nextS k v s z =>
    have hn : (LNode.nextS k v s z).next = .S s := rfl
    refine ⟨fun _ n => ?_, fun h => absurd (by simp [LNode.visit, SNode.visit]) h⟩
    rw [LNode.loopAfter_S hn]; rfl
  | nextL k v l z =>
    have hn : (LNode.nextL k v l z).next = .L l := rfl
    refine ⟨fun h => ?_, fun _ n => ⟨_, _, LNode.loopAfter_L hn n, by simp⟩⟩
    have := l.visit_length_pos
    simp [LNode.visit] at h; omega

/-- The model of the outcome is right: the loop is `.diverge` exactly if it is still running after every number of
    turns, and `.ok` exactly of what it ends with. -/
theorem LNode.rights_of_loop (right : LNode L W) :
    (right.rights = .diverge ↔ ∀ n, ∃ r rights, right.loopAfter n = .running r rights) ∧
    (∀ out, right.rights = .ok out ↔ ∃ n, right.loopAfter n = .done out) := by
  cases h : right.next with
  | L l =>
    constructor
    · simp [LNode.rights, h, LNode.loopAfter_L h]
    · intro out; simp [LNode.rights, h, LNode.loopAfter_L h]
  | S s =>
    constructor
    · simp only [LNode.rights, h]
      constructor
      · intro h; cases h
      · intro hn
        obtain ⟨r, rights, hr⟩ := hn 1
        rw [LNode.loopAfter_S h 0] at hr; cases hr
    · intro out
      simp only [LNode.rights, h]
      constructor
      · intro ho; injection ho with ho; subst ho; exact ⟨1, LNode.loopAfter_S h 0⟩
      · rintro ⟨n, hn⟩
        cases n with
        | zero => cases hn
        | succ n => rw [LNode.loopAfter_S h n] at hn; injection hn with hn; rw [hn]

end HT
