import Verif.ThreadSpec
import Verif.ArcSim
/-!
# Reference counts

Every node is in an `Arc`: it is allocated with a count of one, cloning the `Arc` adds one, dropping it takes one away,
and when the count reaches zero the node is dropped (so are the `Arc`s in it) and its memory is freed.

Here is memory with counts, and what a call and the assignment of its result do to it.  What happens to the counts
while a call runs is reduced to the net effect: the code makes and drops further `Arc`s that are not in the result
(clones of children in arrays that are thrown away, parts of results of closures that are combined away, everything made
by a call that panics); those it drops again itself, as Rust's ownership makes sure.  Counts are natural numbers
(`Arc` aborts the program when a count overflows).
-/
namespace HT

variable {Var K V R St : Type} {c : Cfg} {n : Nat}

/-! ### Memory -/

/-- What is in a node's memory itself: its fields, with addresses for the `Arc`s (`/repo/src/node/cnode.rs:8-11` with
    `/repo/src/bit_indexed_array.rs:5-9`, `lnode.rs:6-9, 30-35`, `snode.rs:5-9`).  The tags of the enums `MNode` and `LNodeNext` beside the
    `Arc`s are left out. -/
inductive Content (n : Nat) (K V : Type) where
  | C (bits : BitVec n) (values : List Nat) (extra : Nat)
  | L (key : K) (value : V) (next : Nat) (extra : Nat)
  | S (key : K) (value : V)

/-- The `Arc`s in a node. -/
def Content.arcs : Content n K V → List Nat
  | .C _ values _ => values
  | .L _ _ next _ => [next]
  | .S _ _ => []

/-- What is in the memory of a node. -/
def ANode.content : ANode n K V → Content n K V
  | .C _ bits values extra => .C bits (values.map ANode.addr) extra
  | .L (.nextS _ k v s z) => .L k v s.addr z
  | .L (.nextL _ k v l z) => .L k v l.addr z
  | .S s => .S s.key s.value

/-- An allocated node: its count and its content. -/
structure Counted (n : Nat) (K V : Type) where
  count : Nat
  content : Content n K V

/-- Memory: which addresses are allocated, and what is there. -/
abbrev Memory (n : Nat) (K V : Type) := Nat → Option (Counted n K V)

/-- No memory is allocated. -/
def Memory.empty : Memory n K V := fun _ => none

/-- Something is allocated at the address. -/
def Memory.Allocated (h : Memory n K V) (a : Nat) : Prop := ∃ m, h a = some m

/-- The `Arc`s at an address. -/
def Memory.arcsAt (h : Memory n K V) (a : Nat) : List Nat :=
  match h a with
  | some p => p.content.arcs
  | none => []

/-- Write (or free) an address. -/
def Memory.set (h : Memory n K V) (a : Nat) (m : Option (Counted n K V)) : Memory n K V := fun b => if b = a then m else h b

/-- A node that is in memory is there with all the nodes it leads to. -/
def Memory.Holds (h : Memory n K V) (m : ANode n K V) : Prop :=
  ∀ o, ANode.Sub o m → ∃ count, 0 < count ∧ h o.addr = some ⟨count, o.content⟩

/-! ### Making and dropping `Arc`s -/

/-- Get `Arc`s to the given nodes, where `new` are the addresses of the nodes the call made: a node that is there is
    cloned (the derived `Clone` of the `Arc`s, `/repo/src/node/mnode.rs:8-9`); a new one is made, after what is in it
    (`Arc::new`: `/repo/src/node/snode.rs:23-25`, `lnode.rs:49-61`; the `Arc` of a branch:
    `/repo/src/bit_indexed_array.rs:144-257`).  There is no rule for a node that is not there and not new. -/
inductive Acquire (new : Nat → Prop) : Memory n K V → List (ANode n K V) → Memory n K V → Prop
  | none (h : Memory n K V) : Acquire new h [] h
  | clone {h h' : Memory n K V} {m : ANode n K V} {ms : List (ANode n K V)} {p : Counted n K V} :
      h m.addr = some p → Acquire new (h.set m.addr (some ⟨p.count + 1, p.content⟩)) ms h' → Acquire new h (m :: ms) h'
  | make {h h1 h' : Memory n K V} {m : ANode n K V} {ms : List (ANode n K V)} :
      new m.addr → h m.addr = .none → Acquire new h m.kids h1 → h1 m.addr = .none →
      Acquire new (h1.set m.addr (some ⟨1, m.content⟩)) ms h' → Acquire new h (m :: ms) h'

/-- Drop the given `Arc`s, one after the other (the compiler's drop glue; `/repo` has no `Drop` of its own for nodes).
    There is no rule for an `Arc` to an address that is not allocated. -/
inductive Release : Memory n K V → List Nat → Memory n K V → Prop
  | none (h : Memory n K V) : Release h [] h
  | keep {h h' : Memory n K V} {a : Nat} {as : List Nat} {p : Counted n K V} :
      h a = some p → 2 ≤ p.count → Release (h.set a (some ⟨p.count - 1, p.content⟩)) as h' → Release h (a :: as) h'
  | free {h h' : Memory n K V} {a : Nat} {as : List Nat} {p : Counted n K V} :
      h a = some p → p.count = 1 → Release (h.set a .none) (p.content.arcs ++ as) h' → Release h (a :: as) h'

/-- The `Arc` of a map. -/
def arcs (t : Option (ATrie c K V)) : List Nat :=
  match t with
  | some t => [t.root.addr]
  | none => []

/-- What a call does to memory, if its effect on the variables is `p`: the new map is made (the variable it is stored
    in is still as it was), then the map that was in the variable is dropped.  `new` are the addresses of new nodes. -/
inductive Update (σ : Store c Var K V) (new : Nat → Prop) : Memory c.n K V → TEffect c Var K V → Memory c.n K V → Prop
  | none (h : Memory c.n K V) : Update σ new h .none h
  | store {h h1 h' : Memory c.n K V} {x : Var} {t : ATrie c K V} :
      Acquire new h [t.root] h1 → Release h1 (arcs (σ x)) h' → Update σ new h (some (x, some t)) h'
  | drop {h h' : Memory c.n K V} {x : Var} : Release h (arcs (σ x)) h' → Update σ new h (some (x, .none)) h'

/-! ### Executions -/

/-- The allocator puts the new nodes (those with addresses from `s` on) of the result somewhere: at different addresses,
    which are not allocated. -/
structure Allocates (h : Memory c.n K V) (s : Nat) (p : TEffect c Var K V) (g : Nat → Nat) : Prop where
  old : ∀ a, a < s → g a = a
  new : ∀ a, s ≤ a → p.Has a → ¬ h.Allocated (g a)
  inj : ∀ a b, s ≤ a → s ≤ b → p.Has a → p.Has b → g a = g b → a = b

/-- The addresses the allocator gives to new nodes. -/
def placed (s : Nat) (p : TEffect c Var K V) (g : Nat → Nat) : Nat → Prop := fun b => ∃ a, s ≤ a ∧ p.Has a ∧ g a = b

variable {Thread : Type} [BEq K] [DecidableEq Var] [DecidableEq Thread]

/-- An execution as in `Exec` (`Verif/ThreadSpec.lean`), with memory: the allocator only knows which addresses are
    allocated (and not which are in use). -/
inductive MemExec (hash : K → BitVec c.w) (owner : Var → Option Thread) (code : Thread → Code Var K V R St) :
    List Thread → World c Thread Var K V R St → Memory c.n K V →
    World c Thread Var K V R St → Memory c.n K V → Prop
  | start (w : World c Thread Var K V R St) (h : Memory c.n K V) : MemExec hash owner code [] w h w h
  | step {sched : List Thread} {w w' : World c Thread Var K V R St} {h h' h'' : Memory c.n K V} (i : Thread)
      (call : TCall Var K V R St) (s : Nat) (g : Nat → Nat) :
      MemExec hash owner code sched w h w' h' →
      code i (w'.told i) = some call → Allowed owner i call →
      (∀ x ∈ call.reads, ∀ t, w'.store x = some t → ∀ a ∈ t.addrs, a < s) →
      Allocates h' s (call.eval hash w'.store s).2 g →
      Update w'.store (placed s (call.eval hash w'.store s).2 g) h' ((call.eval hash w'.store s).2.ren g) h'' →
      MemExec hash owner code (sched ++ [i]) w h
        ⟨w'.store.after ((call.eval hash w'.store s).2.ren g),
          fun j => if j = i then w'.told j ++ [(call.eval hash w'.store s).1] else w'.told j⟩ h''

/-- The variables and memory at some time: at first there is no map and no memory is allocated; then threads run, with
    some owners of the variables; then threads run with other owners (variables are moved or lent to other threads), and
    so on. -/
inductive Lives (hash : K → BitVec c.w) (Thread R St : Type) [DecidableEq Thread] :
    Store c Var K V → Memory c.n K V → Prop
  | start : Lives hash Thread R St (fun _ => none) Memory.empty
  | run {w w' : World c Thread Var K V R St} {h h' : Memory c.n K V} {owner : Var → Option Thread}
      {code : Thread → Code Var K V R St} {sched : List Thread} :
      Lives hash Thread R St w.store h → MemExec hash owner code sched w h w' h' → Lives hash Thread R St w'.store h'

end HT
