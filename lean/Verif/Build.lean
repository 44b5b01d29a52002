import Verif.Bia
/-!
# Building an array in uninitialised memory (`/repo/src/bit_indexed_array.rs:11-27`, 144-257)

`Bia.create` says what array is built.  Here the building itself is modelled: the memory
`mem::uninitialized()` hands out, the loop of `ptr::write`s, and the sources of values, whose `at_index` may
change them (`Option::take`) and may panic.  A panic during the loop unwinds through `building`, whose cells
are then dropped whether or not they were written; so what the cells held at that moment is part of the
outcome.
-/
namespace HT

variable {n : Nat} {V : Type}

/-- The implementations of `BitIndexedArrayValues` (`/repo/src/bit_indexed_array.rs:151-257`).  An existing
    array is given by its values. -/
inductive Source (V : Type) where
  /-- `BitIndexedArrayVec` (151-155). -/
  | vec (values : List V)
  /-- `BitIndexedArrayInsert` (174-178). -/
  | insert (existing : List V) (index : Nat) (value : Option V)
  /-- `BitIndexedArrayUpdate` (203-207). -/
  | update (existing : List V) (index : Nat) (value : Option V)
  /-- `BitIndexedArrayRemove` (232-235). -/
  | remove (existing : List V) (index : Nat)

/-- `BitIndexedArrayValues::len` (`/repo/src/bit_indexed_array.rs:164-166`, 189-191, 218-220, 246-248). -/
def Source.len : Source V → Nat
  | .vec values => values.length
  | .insert existing _ _ => existing.length + 1
  | .update existing _ _ => existing.length
  | .remove existing _ => existing.length - 1

/-- `BitIndexedArrayValues::at_index` (`/repo/src/bit_indexed_array.rs:169-171`, 194-200, 223-229, 251-256): the
    value and what becomes of the source, or `none` if an `unwrap` panics.  Cloning a value (an `Arc`) does not
    panic. -/
def Source.atIndex (s : Source V) (i : Nat) : Option (V × Source V) :=
  match s with
  | .vec values => (values[i]?).map fun v => (v, s)
  | .insert existing index value =>
    if i < index then (existing[i]?).map fun v => (v, s)
    else if i = index then value.map fun v => (v, .insert existing index none)
    else (existing[i - 1]?).map fun v => (v, s)
  | .update existing index value =>
    if i < index then (existing[i]?).map fun v => (v, s)
    else if i = index then value.map fun v => (v, .update existing index none)
    else (existing[i]?).map fun v => (v, s)
  | .remove existing index =>
    if i < index then (existing[i]?).map fun v => (v, s)
    else (existing[i + 1]?).map fun v => (v, s)

/-- The memory of an array under construction: `none` is an uninitialised cell.  `writes` records the cells
    written, in order. -/
structure Cells (V : Type) where
  cells : List (Option V)
  writes : List Nat

/-- How building ends. -/
inductive Built (V : Type) where
  /-- The loop ran to its end: `building` is used as an array from here on. -/
  | done (m : Cells V)
  /-- A panic inside the loop: `building` is dropped as it is. -/
  | unwound (m : Cells V)

/-- The loop `for i in 0..SIZE { ptr::write(&mut building[i], values.at_index(i)) }`
    (`/repo/src/bit_indexed_array.rs:20-22`), with `todo` rounds left from `i`.  `building[i]` panics out of
    bounds. -/
def fill (s : Source V) (m : Cells V) : Nat → Nat → Built V
  | 0, _ => .done m
  | todo + 1, i =>
    if i < m.cells.length then
      match s.atIndex i with
      | none => .unwound m
      | some (v, s') => fill s' ⟨m.cells.set i (some v), m.writes ++ [i]⟩ todo (i + 1)
    else .unwound m

/-- The ways `new_bit_indexed_array` may end. -/
inductive MemRes (n : Nat) (V : Type) where
  /-- `Err(e)`. -/
  | err (e : BitError)
  /-- A panic when no array is under construction. -/
  | panic
  /-- A panic when `m` is under construction. -/
  | unwound (m : Cells V)
  /-- `Ok`: the array with its memory. -/
  | ok (bits : BitVec n) (m : Cells V) (extra : Nat)

/-- `BitIndexedArrayImpl::<_, _, _, SIZE>::new` (`/repo/src/bit_indexed_array.rs:12-26`), `Err(())` being the
    first case of the result. -/
def Bia.newImpl (size : Nat) (bits : BitVec n) (s : Source V) (extra : Nat) : Option (MemRes n V) :=
  if countOnes bits ≠ size ∨ s.len ≠ size then none
  else match fill s ⟨List.replicate size none, []⟩ size 0 with
    | .done m => some (.ok bits m extra)
    | .unwound m => some (.unwound m)

/-- `new_bit_indexed_array` (`/repo/src/bit_indexed_array.rs:263-398`): the 129 arms `SIZE => …::<SIZE>::new(…)
    .unwrap()` are one. -/
def Bia.createMem (bits : BitVec n) (s : Source V) (extra : Nat) : MemRes n V :=
  if countOnes bits ≠ s.len then .err .countNotEqualToOne
  else if s.len ≤ 128 then
    match Bia.newImpl s.len bits s extra with
    | none => .panic
    | some r => r
  else .err .range

/-- `new_bit_indexed_array(bits, BitIndexedArrayVec::new(&values), extra)`. -/
def Bia.ofVecMem (bits : BitVec n) (values : List V) (extra : Nat) : MemRes n V :=
  Bia.createMem bits (.vec values) extra

/-- `inserted` (`/repo/src/bit_indexed_array.rs:98-102`). -/
def Bia.insertedMem (a : Bia n V) (bit : BitVec n) (value : V) (extra : Nat) : MemRes n V :=
  match (do let bits ← bitInsert a.bits bit
            let index ← bitIndex bits bit
            pure (bits, index) : Except BitError _) with
  | .error e => .err e
  | .ok (bits, index) => Bia.createMem bits (.insert a.values index (some value)) extra

/-- `updated` (`/repo/src/bit_indexed_array.rs:108-111`). -/
def Bia.updatedMem (a : Bia n V) (bit : BitVec n) (value : V) (extra : Nat) : MemRes n V :=
  match bitIndex a.bits bit with
  | .error e => .err e
  | .ok index => Bia.createMem a.bits (.update a.values index (some value)) extra

/-- `removed` (`/repo/src/bit_indexed_array.rs:117-121`). -/
def Bia.removedMem (a : Bia n V) (bit : BitVec n) (extra : Nat) : MemRes n V :=
  match (do let bits ← bitRemove a.bits bit
            let index ← bitIndex a.bits bit
            pure (bits, index) : Except BitError _) with
  | .error e => .err e
  | .ok (bits, index) => Bia.createMem bits (.remove a.values index) extra

end HT
