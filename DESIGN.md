# A Lean 4 model of bazald/hash-trie

Everything is under `lean/Verif`; `lake build` in `lean/` checks all proofs.  `properties.jsonl` states the
properties in English, `MANIFEST.json` maps each to its theorems, `seeded/LOG.jsonl` records the wrong
programs the theorems were tested against.

## How to read it

* `Verif/Props/*.lean` hold the theorems that state properties (`Cxx_...`), each followed by an `example` that a
  concrete, non-trivial case meets its hypotheses.
* `Contract`, `Spec`, `BulkSpec`, `JointSpec`, `ClosureSpec`, `AgreeSpec`, `CrowdSpec`, `VisitSpec`, `GrownSpec`, `ChaosSpec`, `MatchSpec`, `SetChaosSpec`, `ExprSpec`, `EffSpec`, `SetEffSpec`, `LawlessSpec`, `KeyCallsSpec`, `ThreadSpec`, `RcSpec`, `SetSpec`, `MixedSpec`,
  `History` are the specification
  vocabulary: association lists, callers' contracts, abstract finite maps, "cases" of two maps.  None of
  them mentions nodes, flags or depths.
* The model proper (with citations of `/repo` lines on each definition) is in the modules of the next table.
* `Wf`, `*Lemmas`, `Insert`, `Remove`, `Joint*`, `Arc{Bia,Sim,Insert,Transform,Trie}`, `Nat*`, `Par*`, `Mixed`,
  `Crowd`, `Set{Reach,Alg}`, `Eff{Base,Tables,Sim*,Loop,Calls*,Api,Pure}`, `Rename*`, `Thread{s,Lemmas,Examples}`, `Fits*`, `Chaos{Base,Lemmas,Insert,Bulk}`, `Match*`, `Rc`, `RcExec`, `Lawless`, `KeyCalls{Lemmas,Insert,Trie,Pure}` hold the proofs.
* `Reach c hash t` (module `Reach`) says that `t` is the result of *some* history of any of the modelled
  operations, starting from `new`; theorems about "every map" quantify over it.  `Mem hash s vs` (module `EffMem`) is
  the same with addresses: the maps `vs` a program holds and the next free address `s`.

## The model

| module | models | notes |
|---|---|---|
| `Res` | return / panic / non-termination | every partial function of the code returns `Res` |
| `Word` | `src/traits.rs` bit operations | words are `BitVec n`, any `n` |
| `Bia` | `src/bit_indexed_array.rs` | array as list plus bit word plus cached size |
| `Build` | `src/bit_indexed_array.rs:11-27,144-257` | the same once more at the level of memory cells: `mem::uninitialized`, the `ptr::write` loop, `Option::take` in the sources, unwinding |
| `Flag` | `src/flag.rs` | hash words are `BitVec w`; shifts panic or wrap according to the kind of build |
| `Hasher` | `src/traits.rs` `HasherBv` | the `try_into().unwrap()` from 64 bits |
| `Node` | `src/node/{snode,lnode,cnode,mnode}.rs`: find, insert, remove, visit, size | structural recursion; depth explicit |
| `Trie` | `src/hash_trie.rs`: new, find, insert, remove, visit, size | |
| `Ops`, `JointOps` | `src/transformations.rs`, `src/results.rs` | operations, answers, `call`, `flip` |
| `Transform` | transform and transmute on nodes and tries | both parallelism strategies |
| `JointList`, `JointNode` | the four joint operations on all pairs of node kinds, and on tries | |
| `Api` | `src/set.rs` (all functions), the two transfute functions of `src/map.rs` | the other functions of `src/map.rs` forward |
| `Arc` | new, insert, remove, transform and `==` once more, with an address on every `Arc` | related to `Node`/`Trie` by an erasure theorem |
| `KeyCalls` | find, insert and remove once more, with every call of the keys' and values' own code (hash, `==`, `into`, `clone`) as a step | pure keys give back `Trie` (C59_pure) |
| `ThreadSpec` | threads calling all of these on own and shared maps; an arbitrary allocator | calls are steps; one map type |
| `RcSpec` | reference counts and freeing, on top of `ThreadSpec` | net effect of a call: `Arc`s the code makes and drops itself are left out |
| `Eff`, `EffList`, `EffNode` | transform, transmute and the four joint operations once more, with addresses and with every call of a user closure as a step (`Tree.ask`) | related to `Transform`/`JointNode` by `PSim` (C50) |

The model keeps what is observable: results, contents, order of visits, panics (which kind) and divergence.  It
keeps the code's quirks: the eager `flag.next()`, the non-advancing loop of the list/list joint
operations, `MapJointTransform::flip` not exchanging `UnchangedL` and `UnchangedR`, operands being exchanged
in some pairs of node kinds, cached sizes.

### Simplifications

* Keys, values and reductions are values of arbitrary types.  `==` on keys and the hash are arbitrary
  functions; that they are lawful (`KeyLaws`, `CrossLaws`, `Query`) is a hypothesis, as is the unsafe contract
  of the transmute functions (`Contract`).
* In most of the model user closures are total pure functions.  In the `Eff*` modules they are arbitrary: they may keep
  state, panic or not return; C49 says which calls are made, C50 that the outcome is that of pure functions with the
  same answers, so that the other theorems apply.  `reduce_op` stays pure and total
  throughout, `==` and the hash everywhere but in `KeyCalls` (C59: find, insert and remove with arbitrary code for keys).
* An operation given to the `Eff*` modules is described by its *kind* (which parts are closures).  A joint `Generic`
  operation carries the flag users give it (not flipped); the code's own flips are in the model.
* `ParallelismStrategy` / `async`: joined futures never wait, so the first runs to its end before the second
  starts.  C19 shows that the strategy (which
  changes how reductions are associated) is not observable; the code does not spawn.  Users' threads are modelled in `ThreadSpec`: calls are
  interleaved, and new nodes are placed at any addresses not in use (C56 justifies the counter of `Arc`).
* A pointer returned by `insert`/`find` is modelled by what it points at (C05) and, in the address model, by
  the address of the object (C43).
* Addresses (module `Arc`) come from a counter and are not reused; C56 and C60 show that nothing changes when freed
  addresses are reused.
* `usize` counters of sizes do not overflow.
* The 129 arms of `new_bit_indexed_array` are one arm with the test `≤ 128`.

### Not modelled

`Arc`s that a call makes and drops again itself (only the net effect on the counts is modelled), `Debug` output, allocation failure, `Send`/`Sync`, `no_std` features, iterator
types, the examples.

## Properties, method, status

*Status* is of the English property; "false" means that a negation is proved of the model (`*_refuted`,
`*_wrong_side`) next to a `_partial` theorem with the extra hypothesis under which the property holds.

| id | method | status |
|---|---|---|
| C01-C08, C11 | invariant `WF` (slots dictated by hash chunks, right cached sizes, list entries share a hash and have distinct keys), preserved by insert and remove; refinement of find/insert/remove to the association list | proved |
| C09, C10, C12, C13, C32, C38, C39 | induction over histories (lists of calls on any earlier version), two maps in lockstep for C10/C39 | proved |
| C14 | concrete panicking history in the checked build; partial theorem for hashes separated above the last chunk | false, partial |
| C15, C37 | depth bound from the invariant | proved |
| C16, C18, C20, C33 | structural induction; entries of the result are the filter-map of the entries, reductions are folds | proved |
| C17 | histories mixing all operations | proved (callers' contracts, tame answers) |
| C19, C40 | simulation between runs with different strategies / reduction types | proved |
| C21 | counterexample; partial theorem for *tame* answers (`TwtOps.Tame`, a condition on colliding keys only); the condition is needed (`TameNeeded`, `TameFlip`, `Props/Needed`): for any colliding entries and closures that violate a clause of it, maps holding just these entries are built by insertions (for the clause about `UnchangedL`, by insertions and a transformation) for which the call does not return a right map | false, partial |
| C22 | counterexample; one of the two entries is kept | false, partial |
| C23 | counterexample; the loop behind it run a turn at a time (`JointVector`, `C23_the_loop`); exact characterisation for two of the functions, for the others up to hashes shared by 2 keys here and 3 there | false, partial |
| C24-C26, C34 | structural induction over both tries with the cases of the two entry lists; for transform_with_transformed, whose map may be wrong (C21), the reduction is parametric in what the closures put into the map (`TwtRed`), so it is that of a run with answers for which C21 holds (`TwtTotal`) | proved |
| C27 | instances for sets; counterexamples | false, partial |
| C28, C29 | bit-level lemmas over `BitVec n`; refinement of the array to a partial function | proved |
| C30 | counterexample for 8, 16, 32 bits, exact condition, proof for 64 bits | false, partial |
| C31, C42, C43 | address model, ownership invariant of the objects of all live maps | proved |
| C35 | from C24/C25 | proved |
| C36 | sets as maps to `Unit`, histories and bulk operations | proved |
| C41 | case analysis; exchange of maps from C24-C26 and the symmetry of cases | false for two bulk operations, partial |
| C45 | from C23-C26, C34: contents are compared up to order | false, partial |
| C46 | from C16-C26, C34: both calls have the contents the specification gives, which sees the closure only | false for transform_with_transformed, partial |
| C47 | from C16-C26, C34 on translated instructions | proved for transform/transmute; false for the joint functions, partial |
| C48 | `CrowdSpec.lean` states the panic condition on entries and hashes; invariant: a branch node at the last level on the path of a hash exists only if two stored entries share that stem and differ (`Crowd.lean`) | proved |
| C49 | `Tree.Calls`: the calls of a program whatever is answered, compositionally, by induction over both tries | proved |
| C50 | simulation `PSim` of the effectful, addressed code by the plain model, for any functions that agree with the replies | proved |
| C51 | ownership invariant carried by the same simulation | proved |
| C52 | transform: from C31 by evaluation; joint operations: induction on nodes that the result is `Unchanged` when the kept map has no collisions and the other map no keys of its own (JointKeep, EffKeep); counterexamples without either condition | false for joint operations in general, partial |
| C53 | `Tree.Step`: two programs ask the same questions whatever is answered, compositionally over both tries | proved |
| C54 | C53, C50 and C19: the functions that answer as the closures did | proved |
| C55 | `Tree.Order`: the ordered calls of a program; the slots are in order, a collision list is in the opposite order | proved |
| C56 | naturality of all code in addresses (`Rename*`: running it on renamed nodes gives the renamed result), from which a bisimulation up to renaming of what a thread sees | proved |
| C57 | the run is the image of a run with formal reductions (free terms), whose leaves are given by C18/C20/C34 in the monoid of lists/bags (`CombineLemmas`); invariants by the same naturality on the subtype | proved |
| C58 | the invariant with the equality that never holds says nothing about equality; insert and remove re-proved with `eraseP` in place of `filter` (`Lawless`) | proved |
| C59 | find, insert and remove once more as trees of calls of the keys' code (`KeyCalls`); each tree is proved equal to a short reference program over the list of entries (`KeyCallsSpec`), whose runs are then classified; pure keys give back the plain model (`KeyCallsPure`) | proved |
| C60 | memory with counts (`RcSpec`); what the code returns consists of nodes it was given and new ones whatever closures answer (`Fits*`), transferred to reused addresses by naturality (`Rename*`); ghost trees per address; counts = number of `Arc`s is kept by making, cloning and dropping (`Rc`, `RcExec`) | proved |
| C61 | the list and node functions give the same for two comparisons that agree on keys of equal hash, since every comparison is behind a test of the hashes and a collision list has one hash (`SameList`, `SameNode`); consequence for C24-C26 with `==` restricted to equal hashes | proved |
| C62 | order of hashes and order within a hash specified without nodes (`VisitSpec`); every well-formed node visits in hash order; insertion and removal keep the order within each hash, so the visited sequence is determined (`VisitLemmas`); histories as in C09 with the exact sequences | proved |
| C63 | `Blocked` is stated about the two lists of entries (`GrownSpec`); insertions keep nodes tight (no branch node with a single leaf child below the root, `GrownLemmas`), in tight tries the depth of a hash's list is given by the entries, so `Stuck` (C47) and `Blocked` coincide (`GrownShape`) | proved |
| C64 | tight well-formed tries with the same visited sequence are equal, by induction (`GrownShape`); with C62 for the second part | proved |
| C65 | over the programs of `KeyCalls`, with no assumption on any answer: an invariant of nodes that does not mention hashes (sizes, arrays, no empty branch, flags exist at every branch node: `ChaosBase`), and for each operation what every run ends with (`Tree.Ends`: `ChaosLemmas`, `ChaosInsert`, `ChaosBulk`), by induction on the node | proved |
| C66 | lookup over nodes with addresses (`ArcFind`); `Fine T P` says every object of the new root holding an entry with key in `T` is an object of an old one; proved for each operation by induction on the node (`Stay*`), then lookup of a key finds the same object (`StayFind`, `StayTrie`). Finding: of keys sharing a hash, `remove` and a replacing `insert` copy entries, so they move (`C66_moves`) | proved, for `transform_with_transformed` on a key of both maps with a closure for pairs and without the bulk `Unchanged` on the other side (without these conditions: at one of the two old addresses) |
| C67 | the wrapper closures of `set.rs`/`map.rs` over programs (`SetEff`); a set call is the map call with its questions translated (`Sub*`: every function commutes with translating the questions of its closures), so C49 and C50 carry over (`SetEffLemmas`); the sets in memory are `SMem` (`SetEffMem`) | proved |
| C68 | C53, C54 and C55 carried over to the set functions by the translation of C67: translating the questions of two runs that ask alike gives runs that ask alike (`SetOrder`) | proved |
| C69 | the constructors modelled one by one (`Ctors`); recipes from C16, C18, C33 (one map) and C21, C23, C24, C26 (two maps) | proved |
| C70 | expressions as trees of calls (`ExprSpec`), induction from C27 and C69; sizes by covering lists of inequivalent keys | proved |
| C71 | an invariant of nodes without hashes (as for C65) and of the accumulator of the loops; each leaf function, list loop and branch loop keeps a list of cases that uses up every entry once (`MatchSpec`–`MatchTrie`), `transform_with_transformed` a predicate closed under its closures (`MatchTwt`). Within one joint call the answers of the keys' code are functions of the keys asked about | proved |
| C72 | such a set is such a map (induction on histories), so C65 and C71 carry over | proved |
| C44 | the write loop refines `Bia.create` | proved |

## Findings (defects of the code, each proved of the model)

1. In overflow-checked builds `flag.next()` is evaluated eagerly below the last hash chunk and panics (C14).
2. The list/list joint operations advance one cursor only; with at least 2 colliding keys on one side and
   3 on the other the call never returns (C23, C27).
3. `MapJointTransform::flip` / `SetJointTransform::flip` do not exchange `UnchangedL` and `UnchangedR`, so that bulk
   `UnchangedL` may keep the right entry (C22, C41), unlike the closure that answers `UnchangedL` (C46).
4. `transform_with_transformed` on a collision list and a single entry may keep removed entries or duplicate a
   key (C21).
5. The same on two lists with `UnchangedR` unwraps a missing entry: panic (C27).
6. Whether `transmute_with_transmuted` and `transform_with_transformed` return can depend on how the maps were built,
   not only on what they hold (C45).
7. A joint operation told to keep all entries of one map and to drop the others returns a rebuilt map that is not `==` to
   it (C52).
8. `HasherBv` for words narrower than 64 bits panics when the 64-bit hash does not fit (C30).

## Trusted base

* Lean's kernel.  Every theorem depends on no axioms but `propext`, `Classical.choice`, `Quot.sound` (`#print axioms`);
  no axiom is added, no compiled code is trusted; concrete witnesses use `decide +kernel`, which is evaluated
  by the kernel.
* The reading of the Rust code: the model was written by hand from `/repo`, and its correspondence with the code
  is not checked by machine.
* The simplifications listed above.
