import Verif.Threads
import Verif.Examples
/-! # Concrete executions of threads, used to show that the hypotheses of C56 are met -/
namespace HT.Ex

variable {Thread Var K V R St : Type} {c : Cfg} [BEq K] [DecidableEq Var] [DecidableEq Thread]

/-- The addresses of the map that is stored. -/
def newAddrs : TEffect c Var K V → List Nat
  | some (_, some t) => t.addrs
  | _ => []

theorem newAddrs_iff {p : TEffect c Var K V} {a : Nat} : p.Has a ↔ a ∈ newAddrs p := by
  constructor
  · rintro ⟨x, t, rfl, h⟩; exact h
  · intro h
    match p, h with
    | some (x, some t), h => exact ⟨x, t, rfl, h⟩

/-- The addresses of the maps in some variables. -/
def usedAddrs (vars : List Var) (σ : Store c Var K V) : List Nat :=
  vars.flatMap fun x => match σ x with
    | some t => t.addrs
    | none => []

/-- One step, with the allocator's choice `s`, `g`; `none` if it is not allowed. -/
def step (hash : K → BitVec c.w) (owner : Var → Option Thread) (code : Thread → Code Var K V R St) (vars : List Var)
    (i : Thread) (s : Nat) (g : Nat → Nat) (w : World c Thread Var K V R St) : Option (World c Thread Var K V R St) :=
  match code i (w.told i) with
  | none => none
  | some call =>
    let r := call.eval hash w.store s
    let new := (newAddrs r.2).filter (s ≤ ·)
    if (call.reads.all fun x => (owner x == none) || owner x == some i) && (call.writes.all fun x => owner x == some i) &&
      ((usedAddrs call.reads w.store).all (· < s)) && (new.all fun a => !(usedAddrs vars w.store).contains (g a)) &&
      (new.all fun a => new.all fun b => (g a != g b) || a == b) then
      let g' := fun a => if a < s then a else g a
      some ⟨w.store.after (r.2.ren g'), fun j => if j = i then w.told j ++ [r.1] else w.told j⟩
    else none

theorem step_step {hash : K → BitVec c.w} {owner : Var → Option Thread} {code : Thread → Code Var K V R St}
    {vars : List Var} (hv : ∀ x, x ∈ vars) {i : Thread} {s : Nat} {g : Nat → Nat} {w w' : World c Thread Var K V R St}
    (h : step hash owner code vars i s g w = some w') : Step hash owner code i w w' := by
  unfold step at h
  split at h
  · cases h
  · rename_i call hc
    simp only at h
    split at h
    · rename_i hcond
      injection h with h
      subst h
      simp only [Bool.and_eq_true, List.all_eq_true, Bool.or_eq_true, beq_iff_eq, decide_eq_true_eq, Bool.not_eq_true',
        bne_iff_ne, List.mem_filter, and_imp] at hcond
      obtain ⟨⟨⟨⟨h1, h2⟩, h3⟩, h4⟩, h5⟩ := hcond
      refine .step w call s (fun a => if a < s then a else g a) hc ⟨h1, h2⟩ ?_ ⟨?_, ?_, ?_⟩
      · intro x hx t ht a ha
        refine h3 a (List.mem_flatMap.2 ⟨x, hx, ?_⟩)
        rw [ht]; exact ha
      · intro a ha; exact if_pos ha
      · rintro a ha hh ⟨x, t, ht, hat⟩
        rw [if_neg (by omega)] at hat
        have := h4 a (newAddrs_iff.1 hh) ha
        have hm : g a ∈ usedAddrs vars w.store := List.mem_flatMap.2 ⟨x, hv x, by rw [ht]; exact hat⟩
        rw [List.contains_iff_mem.2 hm] at this
        cases this
      · intro a b ha hb hha hhb e
        simp only [if_neg (show ¬ a < s by omega), if_neg (show ¬ b < s by omega)] at e
        exact (h5 a (newAddrs_iff.1 hha) ha b (newAddrs_iff.1 hhb) hb).resolve_left (fun h => h e)
    · cases h

/-- An execution, with the allocator's choices. -/
def exec (hash : K → BitVec c.w) (owner : Var → Option Thread) (code : Thread → Code Var K V R St) (vars : List Var) :
    List (Thread × Nat × (Nat → Nat)) → World c Thread Var K V R St → Option (World c Thread Var K V R St)
  | [], w => some w
  | (i, s, g) :: rest, w => (step hash owner code vars i s g w).bind (exec hash owner code vars rest)

theorem exec_exec {hash : K → BitVec c.w} {owner : Var → Option Thread} {code : Thread → Code Var K V R St}
    {vars : List Var} (hv : ∀ x, x ∈ vars) {w : World c Thread Var K V R St} (choices : List (Thread × Nat × (Nat → Nat))) :
    ∀ {sched : List Thread} {w' w'' : World c Thread Var K V R St}, Exec hash owner code sched w w' →
      exec hash owner code vars choices w' = some w'' → Exec hash owner code (sched ++ choices.map Prod.fst) w w'' := by
  induction choices with
  | nil =>
    intro sched w' w'' h e
    injection e with e
    subst e
    simpa using h
  | cons ch rest ih =>
    obtain ⟨i, s, g⟩ := ch
    intro sched w' w'' h e
    rw [exec] at e
    cases hs : step hash owner code vars i s g w' with
    | none => rw [hs] at e; cases e
    | some v =>
      rw [hs] at e
      have := ih (.step h (step_step hv hs)) e
      simpa using this

/-- An execution whose last world passes a test exists. -/
theorem exists_exec {hash : K → BitVec c.w} {owner : Var → Option Thread} {code : Thread → Code Var K V R St}
    (vars : List Var) (hv : ∀ x, x ∈ vars) (choices : List (Thread × Nat × (Nat → Nat)))
    (w : World c Thread Var K V R St) (p : World c Thread Var K V R St → Bool)
    (h : (match exec hash owner code vars choices w with
      | some w' => p w'
      | none => false) = true) :
    ∃ w', Exec hash owner code (choices.map Prod.fst) w w' ∧ p w' = true := by
  split at h
  · rename_i w' hw
    exact ⟨w', by simpa using exec_exec hv choices (.start w) hw, h⟩
  · cases h

/-! ### Two threads -/

/-- A shared map with the keys 5 and 11. -/
def sharedMap : Option (ATrie c8 Tk Nat) :=
  match (do
    let t ← ATrie.new c8
    match ← t.insert exHash ⟨5, 0⟩ 50 true with
    | .ok (t, _, _) => t.insert exHash ⟨11, 0⟩ 110 true
    | .error e => pure (.error e) : Al (Except (Tk × Nat) (ATrie c8 Tk Nat × Nat × Option (Tk × Nat)))) 0 with
  | .ok (.ok (t, _, _), _) => some t
  | _ => none

/-- Variable 3 is shared; 0 and 1 belong to thread `false` and 2 to thread `true`. -/
def owner : Fin 4 → Option Bool
  | 0 => some false
  | 1 => some false
  | 2 => some true
  | 3 => none

/-- Before the threads start. -/
def world : World c8 Bool (Fin 4) Tk Nat Nat Nat := ⟨fun x => if x = 3 then sharedMap else none, fun _ => []⟩

/-- Closures that count their calls: they add the number of the call to the value. -/
def counting : (p : Tk × Nat) → Nat → Option (MapTransformResult Nat Nat × Nat) :=
  fun p st => some (.transformed (p.2 + st) 1, st + 1)

/-- Thread `false`: insert 7, which collides with 5; compare; transform with closures that count; compare; look up.
    Thread `true`: insert 90 into the shared map; drop the result; again. -/
def code : Bool → Code (Fin 4) Tk Nat Nat Nat
  | false, l =>
    match l.length with
    | 0 => some (.insert 3 ⟨7, 0⟩ 70 true 0)
    | 1 => some (.eq 3 0)
    | 2 => some (.transform 0 (· + ·) 0 (.generic ()) .middleIndex counting 0 1)
    | 3 => some (.eq 0 1)
    | 4 => some (.visit 1)
    | _ => none
  | true, l =>
    match l.length with
    | 0 => some (.insert 3 ⟨90, 0⟩ 900 true 2)
    | 1 => some (.drop 2)
    | 2 => some (.insert 3 ⟨3, 0⟩ 30 true 2)
    | _ => none

end HT.Ex
