import Verif.EffSpec
/-!
# Threads and the allocator

Threads call the functions of the library on maps held in variables.  A variable is owned by one thread, which alone may
read and write it, or is shared, and then every thread may read it and none may write it (what Rust enforces for values
without interior mutability: `&HashTrieMap` is `Sync`).  The calls of the threads are interleaved in any order, and the
nodes made by a call are placed at any addresses that no node of any map in a variable has; in particular at addresses
of nodes of maps that were dropped or overwritten.

A call is one step: while it runs other threads may allocate and free, but no node it reads is changed or freed (the
variables it reads are borrowed), so all that others can influence is where the new nodes are placed, and when it
returns these are distinct from all other nodes in use.

What a call tells its caller is an observation (`TObs`): all that it returns except addresses.

Simplifications: all maps have the same type, and so have reductions and closures' states; variables do not change
owners.  Closures belong to the thread whose call they are given to (they share no state with other threads).
-/
namespace HT

variable {Var K V R St : Type} {c : Cfg}

/-! ### Addresses of a map -/

/-- The addresses of the objects of a chain. -/
def ALNode.addrs : ALNode K V → List Nat
  | .nextS a _ _ s _ => [a, s.addr]
  | .nextL a _ _ l _ => a :: l.addrs

mutual
/-- The addresses of the objects of a node. -/
def ANode.addrs {n : Nat} : ANode n K V → List Nat
  | .C a _ values _ => a :: ANode.addrsAll values
  | .L l => l.addrs
  | .S s => [s.addr]
def ANode.addrsAll {n : Nat} : List (ANode n K V) → List Nat
  | [] => []
  | m :: ms => m.addrs ++ ANode.addrsAll ms
end

/-- The addresses of the objects of a map. -/
def ATrie.addrs (t : ATrie c K V) : List Nat := t.root.addrs

/-! ### Other addresses -/

/-- The same object, at another address. -/
def ASNode.ren (f : Nat → Nat) (s : ASNode K V) : ASNode K V := ⟨f s.addr, s.key, s.value⟩

@[inherit_doc ASNode.ren]
def ALNode.ren (f : Nat → Nat) : ALNode K V → ALNode K V
  | .nextS a k v s z => .nextS (f a) k v (s.ren f) z
  | .nextL a k v l z => .nextL (f a) k v (l.ren f) z

mutual
/-- The node with the address `f a` for each address `a`. -/
def ANode.ren {n : Nat} (f : Nat → Nat) : ANode n K V → ANode n K V
  | .C a bits values extra => .C (f a) bits (ANode.renAll f values) extra
  | .L l => .L (l.ren f)
  | .S s => .S (s.ren f)
def ANode.renAll {n : Nat} (f : Nat → Nat) : List (ANode n K V) → List (ANode n K V)
  | [] => []
  | m :: ms => m.ren f :: ANode.renAll f ms
end

/-- The map with the address `f a` for each address `a`. -/
def ATrie.ren (f : Nat → Nat) (t : ATrie c K V) : ATrie c K V := ⟨t.root.ren f⟩

/-! ### Calls and what they tell the caller -/

/-- A call, by a thread: `src`, `left`, `right` are the variables of the maps it is called on, `dst` is the variable the
    map it returns (if any) is stored in.  Closures are given as in `Verif/EffSpec.lean`: `o` says which parts of the
    operation are closures, `env` what they do, `st` is their state. -/
inductive TCall (Var K V R St : Type) where
  | new (dst : Var)
  | clone (src dst : Var)
  | drop (src : Var)
  | insert (src : Var) (k : K) (v : V) (replace : Bool) (dst : Var)
  | remove (src : Var) (k : K) (dst : Var)
  | find (src : Var) (k : K)
  | size (src : Var)
  | visit (src : Var)
  | eq (left right : Var)
  | transform (src : Var) (reduce : R → R → R) (e : R) (o : MapTransform R Unit) (par : Par)
      (env : (p : K × V) → St → Option (MapTransformResult V R × St)) (st : St) (dst : Var)
  | transmute (src : Var) (reduce : R → R → R) (e : R) (o : MapTransmute R Unit)
      (env : (p : K × V) → St → Option (MapTransmuteResult K V R × St)) (st : St) (dst : Var)
  | transformWithTransformed (left right : Var) (reduce : R → R → R) (e : R) (o : TwtKinds R) (par : Par)
      (env : (p : Case (K × V) (K × V)) → St → Option (TwtAnswer K V R p × St)) (st : St) (dst : Var)
  | transformWithTransmuted (left right : Var) (reduce : R → R → R) (e : R) (o : TwmKinds R) (par : Par)
      (env : (p : Case (K × V) (K × V)) → St → Option (TwmAnswer K V K V R p × St)) (st : St) (dst : Var)
  | transmuteWithTransformed (left right : Var) (reduce : R → R → R) (e : R) (o : MwtKinds R) (par : Par)
      (env : (p : Case (K × V) (K × V)) → St → Option (MwtAnswer K V K V R p × St)) (st : St) (dst : Var)
  | transmuteWithTransmuted (left right : Var) (reduce : R → R → R) (e : R) (o : MwmKinds R)
      (env : (p : Case (K × V) (K × V)) → St → Option (MwmAnswer K V K V K V R p × St)) (st : St) (dst : Var)

/-- The variables a call reads. -/
def TCall.reads : TCall Var K V R St → List Var
  | .new _ => []
  | .clone x _ | .drop x | .insert x _ _ _ _ | .remove x _ _ | .find x _ | .size x | .visit x
  | .transform x _ _ _ _ _ _ _ | .transmute x _ _ _ _ _ _ => [x]
  | .eq x y | .transformWithTransformed x y _ _ _ _ _ _ _ | .transformWithTransmuted x y _ _ _ _ _ _ _
  | .transmuteWithTransformed x y _ _ _ _ _ _ _ | .transmuteWithTransmuted x y _ _ _ _ _ _ => [x, y]

/-- The variables a call writes. -/
def TCall.writes : TCall Var K V R St → List Var
  | .new d | .clone _ d | .drop d | .insert _ _ _ _ d | .remove _ _ d
  | .transform _ _ _ _ _ _ _ d | .transmute _ _ _ _ _ _ d
  | .transformWithTransformed _ _ _ _ _ _ _ _ d | .transformWithTransmuted _ _ _ _ _ _ _ _ d
  | .transmuteWithTransformed _ _ _ _ _ _ _ _ d | .transmuteWithTransmuted _ _ _ _ _ _ _ d => [d]
  | .find _ _ | .size _ | .visit _ | .eq _ _ => []

/-- What a call tells the caller.  For bulk and joint operations: how it ends (with the reduction and the closures' last
    state if it returns), and the calls of the closures with what they answered. -/
inductive TObs (K V R St : Type) where
  /-- the map is missing -/
  | noMap
  /-- `new`, `clone`, `drop` have nothing to tell -/
  | done
  /-- refused with this entry, or inserted and what was replaced -/
  | inserted (r : Res (Except (K × V) (Option (K × V))))
  | removed (r : Res (Option (K × V)))
  | found (r : Res (Option (K × V)))
  | sized (n : Nat)
  | visited (l : List (K × V))
  | equal (b : Bool)
  | transformed (o : Outcome (K × V) (R × St)) (l : List (Reply (K × V) fun _ => MapTransformResult V R))
  | transmuted (o : Outcome (K × V) (R × St)) (l : List (Reply (K × V) fun _ => MapTransmuteResult K V R))
  | twt (o : Outcome (Case (K × V) (K × V)) (R × St)) (l : List (Reply _ (TwtAnswer K V R)))
  | twm (o : Outcome (Case (K × V) (K × V)) (R × St)) (l : List (Reply _ (TwmAnswer K V K V R)))
  | mwt (o : Outcome (Case (K × V) (K × V)) (R × St)) (l : List (Reply _ (MwtAnswer K V K V R)))
  | mwm (o : Outcome (Case (K × V) (K × V)) (R × St)) (l : List (Reply _ (MwmAnswer K V K V K V R)))

/-- What a call does to the variables: nothing, or a variable gets a map, or loses its map. -/
abbrev TEffect (c : Cfg) (Var K V : Type) := Option (Var × Option (ATrie c K V))

/-- The maps in the variables. -/
abbrev Store (c : Cfg) (Var K V : Type) := Var → Option (ATrie c K V)

/-- A call on a map. -/
def on1 (t : Option (ATrie c K V)) (f : ATrie c K V → TObs K V R St × TEffect c Var K V) :
    TObs K V R St × TEffect c Var K V :=
  match t with
  | some t => f t
  | none => (.noMap, none)

/-- A call on two maps. -/
def on2 (t u : Option (ATrie c K V)) (f : ATrie c K V → ATrie c K V → TObs K V R St × TEffect c Var K V) :
    TObs K V R St × TEffect c Var K V :=
  match t, u with
  | some t, some u => f t u
  | _, _ => (.noMap, none)

/-- The part of an outcome that is told. -/
def Outcome.told {Q T : Type} : Outcome Q (((T × R) × Nat) × St) → Outcome Q (R × St)
  | .ret x => .ret (x.1.1.2, x.2)
  | .panic p => .panic p
  | .diverge => .diverge
  | .closure q => .closure q

/-- The map that is stored. -/
def Outcome.kept {Q : Type} (dst : Var) : Outcome Q (((ATrie c K V × R) × Nat) × St) → TEffect c Var K V
  | .ret x => some (dst, some x.1.1.1)
  | _ => none

/-- A run of a bulk or joint operation. -/
def bulk {Q : Type} {A : Q → Type} (dst : Var) (mk : Outcome Q (R × St) → List (Reply Q A) → TObs K V R St)
    (run : Outcome Q (((ATrie c K V × R) × Nat) × St) × List (Reply Q A)) : TObs K V R St × TEffect c Var K V :=
  (mk run.1.told run.2, run.1.kept dst)

/-- The answer of `insert`. -/
def insertOut (dst : Var) :
    Res (Except (K × V) (ATrie c K V × Nat × Option (K × V)) × Nat) → TObs K V R St × TEffect c Var K V
  | .ok (.ok (t, _, prev), _) => (.inserted (.ok (.ok prev)), some (dst, some t))
  | .ok (.error e, _) => (.inserted (.ok (.error e)), none)
  | .panic p => (.inserted (.panic p), none)
  | .diverge => (.inserted .diverge, none)

/-- The answer of `remove`. -/
def removeOut (dst : Var) : Res (Option (ATrie c K V × (K × V)) × Nat) → TObs K V R St × TEffect c Var K V
  | .ok (some (t, e), _) => (.removed (.ok (some e)), some (dst, some t))
  | .ok (none, _) => (.removed (.ok none), none)
  | .panic p => (.removed (.panic p), none)
  | .diverge => (.removed .diverge, none)

/-- The answer of `new`. -/
def newOut (dst : Var) : Res (ATrie c K V × Nat) → TObs K V R St × TEffect c Var K V
  | .ok (t, _) => (.done, some (dst, some t))
  | _ => (.done, none)

section
variable [BEq K] (hash : K → BitVec c.w)

/-- What the call tells and does when the maps are `σ` and new nodes get the addresses `s`, `s + 1`, … -/
def TCall.eval (σ : Store c Var K V) (s : Nat) : TCall Var K V R St → TObs K V R St × TEffect c Var K V
  | .new d => newOut d (ATrie.new c s)
  | .clone x d => on1 (σ x) fun t => (.done, some (d, some t.clone))
  | .drop x => on1 (σ x) fun _ => (.done, some (x, none))
  | .insert x k v replace d => on1 (σ x) fun t => insertOut d (t.insert hash k v replace s)
  | .remove x k d => on1 (σ x) fun t => removeOut d (t.remove hash k s)
  | .find x k => on1 (σ x) fun t => (.found (t.erase.find hash k), none)
  | .size x => on1 (σ x) fun t => (.sized t.erase.size, none)
  | .visit x => on1 (σ x) fun t => (.visited t.erase.visit, none)
  | .eq x y => on2 (σ x) (σ y) fun t u => (.equal (t.eq u), none)
  | .transform x reduce e o par env st d =>
    on1 (σ x) fun t => bulk d .transformed ((t.transformE reduce e o.asking par).run s env st)
  | .transmute x reduce e o env st d =>
    on1 (σ x) fun t => bulk d .transmuted ((t.transmuteE reduce e o.asking).run s env st)
  | .transformWithTransformed x y reduce e o par env st d =>
    on2 (σ x) (σ y) fun t u => bulk d .twt ((ATrie.twtE reduce e hash o.asking par t u).run s env st)
  | .transformWithTransmuted x y reduce e o par env st d =>
    on2 (σ x) (σ y) fun t u => bulk d .twm ((ATrie.twmE (Cross.same hash) reduce e o.asking par t u).run s env st)
  | .transmuteWithTransformed x y reduce e o par env st d =>
    on2 (σ x) (σ y) fun t u => bulk d .mwt ((ATrie.mwtE (Cross.same hash) reduce e o.asking par t u).run s env st)
  | .transmuteWithTransmuted x y reduce e o env st d =>
    on2 (σ x) (σ y) fun t u => bulk d .mwm ((ATrie.mwmE (Cross.same hash) reduce e o.asking t u).run s env st)

end

/-! ### Steps and executions -/

/-- The address is in use: some map in a variable has a node there. -/
def Store.Used (σ : Store c Var K V) (a : Nat) : Prop := ∃ x t, σ x = some t ∧ a ∈ t.addrs

/-- The effect of a call, with the nodes of the new map at other addresses. -/
def TEffect.ren (f : Nat → Nat) (p : TEffect c Var K V) : TEffect c Var K V := p.map fun q => (q.1, q.2.map (ATrie.ren f))

/-- The address occurs in the map that is stored. -/
def TEffect.Has (p : TEffect c Var K V) (a : Nat) : Prop := ∃ x t, p = some (x, some t) ∧ a ∈ t.addrs

/-- The variables after a call. -/
def Store.after [DecidableEq Var] (σ : Store c Var K V) (p : TEffect c Var K V) : Store c Var K V :=
  match p with
  | none => σ
  | some (x, t) => fun y => if y = x then t else σ y

/-- The allocator puts the new nodes (those with addresses from `s` on) of the result somewhere: at different addresses,
    and at no address that is in use. -/
structure Places (σ : Store c Var K V) (s : Nat) (p : TEffect c Var K V) (g : Nat → Nat) : Prop where
  old : ∀ a, a < s → g a = a
  new : ∀ a, s ≤ a → p.Has a → ¬ σ.Used (g a)
  inj : ∀ a b, s ≤ a → s ≤ b → p.Has a → p.Has b → g a = g b → a = b

/-- The maps, and what each thread has been told so far (latest last). -/
structure World (c : Cfg) (Thread Var K V R St : Type) where
  store : Store c Var K V
  told : Thread → List (TObs K V R St)

variable {Thread : Type}

/-- A thread may make a call: it reads its own and shared variables and writes its own. -/
def Allowed (owner : Var → Option Thread) (i : Thread) (call : TCall Var K V R St) : Prop :=
  (∀ x ∈ call.reads, owner x = none ∨ owner x = some i) ∧ ∀ x ∈ call.writes, owner x = some i

/-- The program of a thread: the next call (`none` if there is none), which may depend on all it was told. -/
abbrev Code (Var K V R St : Type) := List (TObs K V R St) → Option (TCall Var K V R St)

variable [BEq K] [DecidableEq Var] [DecidableEq Thread]

/-- Thread `i` makes its next call.  The call runs as if new nodes got the addresses `s`, `s + 1`, …, all above those of
    the maps it reads; then the allocator's choice `g` is applied. -/
inductive Step (hash : K → BitVec c.w) (owner : Var → Option Thread) (code : Thread → Code Var K V R St) (i : Thread) :
    World c Thread Var K V R St → World c Thread Var K V R St → Prop
  | step (w : World c Thread Var K V R St) (call : TCall Var K V R St) (s : Nat) (g : Nat → Nat) :
      code i (w.told i) = some call → Allowed owner i call →
      (∀ x ∈ call.reads, ∀ t, w.store x = some t → ∀ a ∈ t.addrs, a < s) →
      Places w.store s (call.eval hash w.store s).2 g →
      Step hash owner code i w
        ⟨w.store.after ((call.eval hash w.store s).2.ren g),
          fun j => if j = i then w.told j ++ [(call.eval hash w.store s).1] else w.told j⟩

/-- An execution: the threads make calls in the order `sched`. -/
inductive Exec (hash : K → BitVec c.w) (owner : Var → Option Thread) (code : Thread → Code Var K V R St) :
    List Thread → World c Thread Var K V R St → World c Thread Var K V R St → Prop
  | start (w : World c Thread Var K V R St) : Exec hash owner code [] w w
  | step {sched : List Thread} {w w' w'' : World c Thread Var K V R St} {i : Thread} :
      Exec hash owner code sched w w' → Step hash owner code i w' w'' → Exec hash owner code (sched ++ [i]) w w''

/-- An execution in which no address is ever reused: each call puts its new nodes at addresses from `B` on, where `B` is
    above all addresses used so far. -/
inductive FreshExec (hash : K → BitVec c.w) (owner : Var → Option Thread) (code : Thread → Code Var K V R St) :
    List Thread → World c Thread Var K V R St → World c Thread Var K V R St → Nat → Prop
  | start (w : World c Thread Var K V R St) (B : Nat) : (∀ a, w.store.Used a → a < B) →
      FreshExec hash owner code [] w w B
  | step {sched : List Thread} {w w' w'' : World c Thread Var K V R St} {i : Thread} {B B' : Nat} :
      FreshExec hash owner code sched w w' B → Step hash owner code i w' w'' →
      (∀ a, w''.store.Used a → w'.store.Used a ∨ B ≤ a) → B ≤ B' → (∀ a, w''.store.Used a → a < B') →
      FreshExec hash owner code (sched ++ [i]) w w'' B'

/-- All addresses in use are below a bound (memory in use is finite). -/
def Store.Bounded (σ : Store c Var K V) : Prop := ∃ B, ∀ a, σ.Used a → a < B

end HT
