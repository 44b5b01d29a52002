import Verif.RcExec
import Verif.ThreadExamples
/-!
# Property C60: reference counts keep exactly the nodes of the maps that are alive

`Verif/RcSpec.lean` says what memory is and what making, cloning and dropping `Arc`s does to it.  `Lives hash … σ h`
says that `σ` can be the maps in the variables and `h` memory at some time, after any calls of any threads, any
ownership of the variables, any interleaving and any choices of the allocator (which only knows what is allocated).
-/
namespace HT

variable {Thread Var K V R St : Type} {c : Cfg} [BEq K] [DecidableEq Var] [DecidableEq Thread] {hash : K → BitVec c.w}
  {σ : Store c Var K V} {h : Memory c.n K V}

/-- C60 (no use after free): all nodes of all maps in variables are in memory, with a count of at least one, and with the
    content they were made with; whatever was dropped, overwritten and made since. -/
theorem C60_intact (l : Lives hash Thread R St σ h) {x : Var} {t : ATrie c K V} (hx : σ x = some t) :
    ∀ o, ANode.Sub o t.root → ∃ count, 0 < count ∧ h o.addr = some ⟨count, o.content⟩ :=
  l.accounted.holds hx

/-- C60 (no leak, no early release): what is allocated is exactly the nodes of the maps in variables. -/
theorem C60_allocated (l : Lives hash Thread R St σ h) (a : Nat) :
    (∃ p, h a = some p) ↔ ∃ x t, σ x = some t ∧ a ∈ t.addrs :=
  l.accounted.used a

/-- C60: when there is no map left no memory is allocated. -/
theorem C60_all_freed (l : Lives hash Thread R St σ h) (hσ : ∀ x, σ x = none) : h = Memory.empty := by
  funext a
  cases ha : h a with
  | none => rfl
  | some p =>
    obtain ⟨x, t, hx, _⟩ := (C60_allocated l a).1 ⟨p, ha⟩
    rw [hσ x] at hx
    cases hx

/-- C60: memory is finite. -/
theorem C60_finite (l : Lives hash Thread R St σ h) : ∃ cells : List Nat, cells.Nodup ∧ ∀ a, a ∈ cells ↔ h.Allocated a := by
  obtain ⟨_, _, cells, _, _, e, _⟩ := l.accounted
  exact ⟨cells, e.nodup, e.mem⟩

/-- C60: the count of a node is the number of variables whose map has it as its root, plus the number of `Arc`s to it in
    nodes in memory (`vars` are the variables with maps, `cells` the allocated addresses). -/
theorem C60_counts (l : Lives hash Thread R St σ h) {vars : List Var} (hv : vars.Nodup)
    (hv' : ∀ x, x ∈ vars ↔ σ x ≠ none) {cells : List Nat} (hc : cells.Nodup) (hc' : ∀ a, a ∈ cells ↔ h.Allocated a)
    {a : Nat} {p : Counted c.n K V} (ha : h a = some p) :
    p.count = vars.countP (fun x => (σ x).any fun t => t.root.addr == a) + (cells.flatMap h.arcsAt).count a := by
  obtain ⟨_, live, cells', hnd, hl, e, _⟩ := l.accounted
  have e1 := e.count a
  have e2 : h.cnt a = p.count := by unfold Memory.cnt; rw [ha]
  have p1 : live.Perm vars := (List.perm_ext_iff_of_nodup hnd hv).2 fun x => by rw [hl, hv']
  have p2 : cells'.Perm cells := (List.perm_ext_iff_of_nodup e.nodup hc).2 fun x => by rw [e.mem, hc']
  have e3 : (σ.roots vars).count a = vars.countP (fun x => (σ x).any fun t => t.root.addr == a) := by
    clear hv hv' p1
    induction vars with
    | nil => rfl
    | cons x vars ih =>
      rw [List.countP_cons, ← ih]
      show (arcs (σ x) ++ σ.roots vars).count a = _
      rw [List.count_append, Nat.add_comm]
      congr 1
      cases hx : σ x with
      | none => rfl
      | some t => simp [arcs, List.count_singleton]
  have e4 : (σ.roots live).count a = (σ.roots vars).count a := (p1.flatMap_right fun x => arcs (σ x)).count_eq a
  rw [← e2, e1, ← e3, e4, (p2.flatMap_right h.arcsAt).count_eq a]

/-- C60 (no double free): whatever call is made on the maps, wherever the allocator puts new nodes: making the new map
    and dropping the map that was in the variable is possible (no `Arc` to memory that is not allocated is cloned or
    dropped, and only new nodes are made) and has one outcome. -/
theorem C60_never_stuck (l : Lives hash Thread R St σ h) (call : TCall Var K V R St) {s : Nat} {g : Nat → Nat}
    (hs : ∀ x ∈ call.reads, ∀ t, σ x = some t → ∀ a ∈ t.addrs, a < s) (hg : Allocates h s (call.eval hash σ s).2 g) :
    ∃ h', Update σ (placed s (call.eval hash σ s).2 g) h ((call.eval hash σ s).2.ren g) h' ∧
      ∀ h'', Update σ (placed s (call.eval hash σ s).2 g) h ((call.eval hash σ s).2.ren g) h'' → h'' = h' :=
  (l.accounted.update hash call hs hg).elim fun h' u => ⟨h', u.1, fun _ u' => u'.unique u.1⟩

/-- C60: nodes are never changed: as long as a node is allocated its content stays the same. -/
theorem C60_immutable {new : Nat → Prop} {p : TEffect c Var K V} {h' : Memory c.n K V} (u : Update σ new h p h') {a : Nat}
    {m m' : Counted c.n K V} (ha : h a = some m) (ha' : h' a = some m') : m'.content = m.content :=
  u.content ha ha'

/-- C60: dropping a map frees exactly the nodes that are in no other map. -/
theorem C60_drop (l : Lives hash Thread R St σ h) {x : Var} {new : Nat → Prop} {h' : Memory c.n K V}
    (u : Update σ new h (some (x, none)) h') (a : Nat) : h'.Allocated a ↔ ∃ y, y ≠ x ∧ ∃ t, σ y = some t ∧ a ∈ t.addrs := by
  obtain ⟨h2, r, g⟩ := l.accounted.drop x
  rw [u.unique (.drop r), g.used]
  constructor
  · rintro ⟨y, t, hy, ha⟩
    by_cases e : y = x
    · subst e; rw [Store.after_same] at hy; cases hy
    · rw [Store.after_other (by rintro z u ⟨⟩; exact fun e' => e e'.symm)] at hy
      exact ⟨y, e, t, hy, ha⟩
  · rintro ⟨y, e, t, hy, ha⟩
    exact ⟨y, t, by rw [Store.after_other (by rintro z u ⟨⟩; exact fun e' => e e'.symm)]; exact hy, ha⟩

/-- C60: an allocator that only knows what is allocated gives the executions of C56, in which new nodes are placed at
    addresses not in use. -/
theorem C60_executions {owner : Var → Option Thread} {code : Thread → Code Var K V R St} {sched : List Thread}
    {w w' : World c Thread Var K V R St} (l : Lives hash Thread R St w.store h) :
    (∃ h', MemExec hash owner code sched w h w' h') ↔ Exec hash owner code sched w w' :=
  ⟨fun ⟨_, m⟩ => m.exec l.accounted, fun m => m.memExec l.accounted⟩

/-! ### The hypotheses are met -/

/-- A main thread makes a map with the keys 5 and 11 in variable 3 (the maps it overwrites are dropped). -/
def Ex.setUp : Bool → Code (Fin 4) Ex.Tk Nat Nat Nat
  | false, l =>
    match l.length with
    | 0 => some (.new 3)
    | 1 => some (.insert 3 ⟨5, 0⟩ 50 true 3)
    | 2 => some (.insert 3 ⟨11, 0⟩ 110 true 3)
    | _ => none
  | true, _ => none

/-- After that variable 3 is shared and the two threads of C56 run; addresses of dropped nodes are used again.  In the
    end there are four maps, three of which share a node. -/
example : ∃ (σ : Store Ex.c8 (Fin 4) Ex.Tk Nat) (h : Memory Ex.c8.n Ex.Tk Nat), Lives Ex.exHash Bool Nat Nat σ h ∧
    ((σ 0).any fun t => (σ 1).any fun t1 => (σ 2).any fun t2 => (σ 3).any fun t3 =>
      t3.addrs.any fun a => t.addrs.contains a && t2.addrs.contains a && !t1.addrs.contains a) = true := by
  obtain ⟨w, m, hw⟩ := Ex.exists_exec (hash := Ex.exHash) (owner := fun _ => some false) (code := Ex.setUp) [0, 1, 2, 3]
    (by decide) [(false, 0, fun a => a + 7), (false, 10, fun a => a - 5), (false, 20, id)]
    (⟨fun _ => none, fun _ => []⟩ : World Ex.c8 Bool (Fin 4) Ex.Tk Nat Nat Nat)
    (fun w => match Ex.exec Ex.exHash Ex.owner Ex.code [0, 1, 2, 3]
        [(true, 30, fun a => a - 20), (true, 100, id), (false, 40, fun a => a - 28), (false, 100, id),
          (true, 70, fun a => a - 69), (false, 80, id), (false, 100, id), (false, 100, id)] ⟨w.store, fun _ => []⟩ with
      | some w' => ((w'.store 0).any fun t => (w'.store 1).any fun t1 => (w'.store 2).any fun t2 =>
        (w'.store 3).any fun t3 =>
          t3.addrs.any fun a => t.addrs.contains a && t2.addrs.contains a && !t1.addrs.contains a)
      | none => false) (by decide +kernel)
  obtain ⟨h, m⟩ := (C60_executions .start).2 m
  have l : Lives Ex.exHash Bool Nat Nat w.store h := .run (w := ⟨fun _ => none, fun _ => []⟩) .start m
  split at hw
  · rename_i w' hw'
    have m' := Ex.exec_exec (vars := [0, 1, 2, 3]) (by decide) _ (.start _) hw'
    obtain ⟨h', m'⟩ := (C60_executions (w := ⟨w.store, fun _ => []⟩) l).2 m'
    exact ⟨w'.store, h', .run (w := ⟨w.store, fun _ => []⟩) l m', hw⟩
  · cases hw

end HT
