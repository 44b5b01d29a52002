import Verif.ThreadExamples
/-!
# Property C56: threads do not influence each other, and the allocator influences none

`Verif/ThreadSpec.lean` says what threads are and how they run: `Exec hash owner code sched w w'` is an execution in
which the threads make calls in the order `sched`, each thread running its own program on its own and the shared
variables, and new nodes are placed at any addresses not in use.  `w.told i` is all that thread `i` was told by its calls.
-/
namespace HT

variable {Thread Var K V R St : Type} {c : Cfg} [BEq K] [DecidableEq Var] [DecidableEq Thread] {hash : K → BitVec c.w}
  {owner : Var → Option Thread}

/-- C56: take any two executions that start with the same maps in the variables thread `i` may read, in which thread `i`
    has the same program and makes the same number of calls.  Then thread `i` is told the same in both, whatever the
    other threads (which may have other programs, and other maps) do, however the calls are interleaved, and wherever
    the allocator puts the nodes. -/
theorem C56_told {code code' : Thread → Code Var K V R St} {sched sched' : List Thread} {i : Thread}
    {w w' v v' : World c Thread Var K V R St} (hcode : code i = code' i) (htold : w.told i = v.told i)
    (hmaps : ∀ x, owner x = none ∨ owner x = some i → w.store x = v.store x)
    (h : Exec hash owner code sched w w') (h' : Exec hash owner code' sched' v v') (hn : sched.count i = sched'.count i) :
    w'.told i = v'.told i :=
  (Looks.exec hcode _ (Nat.le_refl _) (Looks.refl htold fun x hx => (hmaps x hx).symm) h h' hn).elim fun _ l => l.told

/-- C56: … and in the end the maps in the variables it may read are the same, up to the addresses of their nodes. -/
theorem C56_maps {code code' : Thread → Code Var K V R St} {sched sched' : List Thread} {i : Thread}
    {w w' v v' : World c Thread Var K V R St} (hcode : code i = code' i) (htold : w.told i = v.told i)
    (hmaps : ∀ x, owner x = none ∨ owner x = some i → w.store x = v.store x)
    (h : Exec hash owner code sched w w') (h' : Exec hash owner code' sched' v v') (hn : sched.count i = sched'.count i)
    (x : Var) (hx : owner x = none ∨ owner x = some i) :
    (w'.store x).map ATrie.erase = (v'.store x).map ATrie.erase := by
  obtain ⟨π, l⟩ := Looks.exec hcode _ (Nat.le_refl _) (Looks.refl htold fun x hx => (hmaps x hx).symm) h h' hn
  rw [l.maps x hx]
  cases w'.store x with
  | none => rfl
  | some t => exact congrArg some (t.ren_erase π).symm

/-- C56: in an execution in which thread `i` makes fewer calls it is told the first part of what it is told in the other. -/
theorem C56_prefix {code code' : Thread → Code Var K V R St} {sched sched' : List Thread} {i : Thread}
    {w w' v v' : World c Thread Var K V R St} (hcode : code i = code' i) (htold : w.told i = v.told i)
    (hmaps : ∀ x, owner x = none ∨ owner x = some i → w.store x = v.store x)
    (h : Exec hash owner code sched w w') (h' : Exec hash owner code' sched' v v') (hn : sched.count i ≤ sched'.count i) :
    w'.told i <+: v'.told i := by
  obtain ⟨sched'', u, h1, h2, h3⟩ := h'.upTo hn
  rw [C56_told hcode htold hmaps h h1 h2.symm]
  exact h3

/-- C56: whatever a thread is told in an execution with other threads it is also told when it runs alone. -/
theorem C56_alone {code : Thread → Code Var K V R St} {sched : List Thread} (i : Thread)
    {w w' : World c Thread Var K V R St} (hb : w.store.Bounded) (h : Exec hash owner code sched w w') :
    ∃ v, Exec hash owner code (List.replicate (sched.count i) i) w v ∧ v.told i = w'.told i :=
  (h.alone i hb).elim fun v hv => ⟨v, hv.1, hv.2.1⟩

/-- C56: whatever the threads are told in an execution in which addresses are reused they are also told in one, with the
    calls in the same order, in which no address is ever reused. -/
theorem C56_allocator {code : Thread → Code Var K V R St} {sched : List Thread}
    {w w' : World c Thread Var K V R St} (hb : w.store.Bounded) (h : Exec hash owner code sched w w') :
    ∃ v B, FreshExec hash owner code sched w v B ∧ ∀ i, v.told i = w'.told i :=
  (h.fresh hb).elim fun v hv => hv.elim fun B hB => ⟨v, B, hB.1, hB.2.2⟩

/-- C56: no thread has to wait: whenever a thread's next call is one it may make, it can be made, whatever the other
    threads did. -/
theorem C56_no_waiting {code : Thread → Code Var K V R St} {i : Thread} {w : World c Thread Var K V R St}
    (hb : w.store.Bounded) {call : TCall Var K V R St} (hc : code i (w.told i) = some call)
    (hal : (∀ x ∈ call.reads, owner x = none ∨ owner x = some i) ∧ ∀ x ∈ call.writes, owner x = some i) :
    ∃ w', Step hash owner code i w w' ∧ w'.store.Bounded :=
  (exists_step (hash := hash) hb hc hal 0).elim fun w' h => ⟨w', h.1, h.2.1⟩

/-- C56: a call of another thread leaves all maps a thread may read where they are. -/
theorem C56_others_keep {code : Thread → Code Var K V R St} {i j : Thread} (hij : j ≠ i)
    {w w' : World c Thread Var K V R St} (h : Step hash owner code j w w') :
    w'.told i = w.told i ∧ ∀ x, owner x = none ∨ owner x = some i → w'.store x = w.store x := h.other hij

/-! ### The hypotheses are met -/

/-- What thread `false` of the example is told: inserted; not equal; transformed with three calls, which return;
    not equal; the entries. -/
def Ex.toldRight (w : World Ex.c8 Bool (Fin 4) Ex.Tk Nat Nat Nat) : Bool :=
  match w.told false with
  | [.inserted (.ok (.ok none)), .equal false, .transformed (.ret (3, 3)) l, .equal false, .visited l'] =>
    l.length == 3 && l' == [(⟨7, 0⟩, 71), (⟨5, 0⟩, 50), (⟨11, 0⟩, 112)]
  | _ => false

/-- Thread `false` alone, with addresses from a counter. -/
example : ∃ w', Exec Ex.exHash Ex.owner Ex.code [false, false, false, false, false] Ex.world w' ∧
    Ex.toldRight w' = true :=
  Ex.exists_exec [0, 1, 2, 3] (by decide)
    [(false, 10, id), (false, 100, id), (false, 20, id), (false, 100, id), (false, 100, id)] Ex.world _
    (by decide +kernel)

/-- Both threads.  The second call of thread `true` drops a map; the next call of thread `false` puts its two new nodes
    where nodes of that map were, and after that the other thread takes addresses below those. -/
example : ∃ w', Exec Ex.exHash Ex.owner Ex.code [true, true, false, false, true, false, false, false] Ex.world w' ∧
    (Ex.toldRight w' && (w'.told true).length == 3) = true :=
  Ex.exists_exec [0, 1, 2, 3] (by decide)
    [(true, 10, fun a => 2 * a), (true, 100, id), (false, 10, fun a => 42 - 2 * a), (false, 100, id),
      (true, 10, fun a => a - 10 + 5), (false, 50, fun a => 100 - a), (false, 100, id), (false, 100, id)] Ex.world _
    (by decide +kernel)

/-- Memory in use is finite at the start. -/
example : Ex.world.store.Bounded := by
  refine ⟨10, ?_⟩
  rintro a ⟨x, t, ht, ha⟩
  have : ∀ x : Fin 4, (match Ex.world.store x with
    | some t => t.addrs
    | none => []).all (· < 10) = true := by decide +kernel
  have h := this x
  rw [ht] at h
  simpa using List.all_eq_true.1 h a ha

end HT
