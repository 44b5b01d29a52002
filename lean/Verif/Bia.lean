import Verif.Word
/-!
# Bit-indexed arrays (`/repo/src/bit_indexed_array.rs`)
-/
namespace HT

/-- `BitIndexedArrayImpl<B, V, E, SIZE>` (`/repo/src/bit_indexed_array.rs:5-9`).  The `SIZE`-element
    array is a list; `SIZE` is its length.  `E` is always `usize` in the crate. -/
structure Bia (n : Nat) (V : Type) where
  bits : BitVec n
  values : List V
  extra : Nat

namespace Bia
variable {n : Nat} {V : Type}

/-- `new_bit_indexed_array` (`/repo/src/bit_indexed_array.rs:263-398`) together with
    `BitIndexedArrayImpl::new` (11-27).  `len` / `atIndex` are the two methods of the
    `BitIndexedArrayValues` argument (144-149); each position is read once, in order, and reading
    may panic (the `unwrap`s in lines 170, 196-199, 225-228, 253-255), which is `none`.
    The 129 arms `0 .. 128` of the `match` are the test `len ≤ 128`. -/
def create (bits : BitVec n) (len : Nat) (atIndex : Nat → Option V) (extra : Nat) :
    Res (Except BitError (Bia n V)) :=
  if countOnes bits ≠ len then .ok (.error .countNotEqualToOne)
  else if len ≤ 128 then
    match (List.range len).mapM atIndex with
    | some vs => .ok (.ok ⟨bits, vs, extra⟩)
    | none => .panic .unwrap
  else .ok (.error .range)

/-- `new_bit_indexed_array(bits, BitIndexedArrayVec::new(&values), extra)`
    (`/repo/src/bit_indexed_array.rs:151-172`, 263-398). -/
def ofVec (bits : BitVec n) (values : List V) (extra : Nat) : Res (Except BitError (Bia n V)) :=
  create bits values.length (fun i => values[i]?) extra

/-- `at` (`/repo/src/bit_indexed_array.rs:75-83`). -/
def at' (a : Bia n V) (bit : BitVec n) : Except BitError V := do
  let index ← bitIndex a.bits bit
  match a.values[index]? with
  | some v => .ok v
  | none => .error .range

/-- `at_bit_index` (`/repo/src/bit_indexed_array.rs:85-87`); slice indexing out of range panics. -/
def atBitIndex (a : Bia n V) (index : Nat) : Res (Except BitError V) :=
  match (do let bit ← nthBit n index; bitIndex a.bits bit) with
  | .error e => .ok (.error e)
  | .ok i => match a.values[i]? with
    | some v => .ok (.ok v)
    | none => .panic .unwrap

/-- `at_index` (`/repo/src/bit_indexed_array.rs:89-96`). -/
def atIndex (a : Bia n V) (index : Nat) : Except BitError V :=
  match a.values[index]? with
  | some v => .ok v
  | none => .error .range

/-- `BitIndexedArrayInsert::at_index` (`/repo/src/bit_indexed_array.rs:194-200`). -/
def insertAt (a : Bia n V) (index : Nat) (value : V) (i : Nat) : Option V :=
  if i < index then a.values[i]? else if i = index then some value else a.values[i - 1]?

/-- `BitIndexedArrayUpdate::at_index` (`/repo/src/bit_indexed_array.rs:223-229`). -/
def updateAt (a : Bia n V) (index : Nat) (value : V) (i : Nat) : Option V :=
  if i < index then a.values[i]? else if i = index then some value else a.values[i]?

/-- `BitIndexedArrayRemove::at_index` (`/repo/src/bit_indexed_array.rs:251-256`). -/
def removeAt (a : Bia n V) (index : Nat) (i : Nat) : Option V :=
  if i < index then a.values[i]? else a.values[i + 1]?

/-- `inserted` (`/repo/src/bit_indexed_array.rs:98-102`); the length is line 190. -/
def inserted (a : Bia n V) (bit : BitVec n) (value : V) (extra : Nat) :
    Res (Except BitError (Bia n V)) :=
  match (do let bits ← bitInsert a.bits bit
            let index ← bitIndex bits bit
            pure (bits, index) : Except BitError _) with
  | .error e => .ok (.error e)
  | .ok (bits, index) => create bits (a.values.length + 1) (a.insertAt index value) extra

/-- `updated` (`/repo/src/bit_indexed_array.rs:108-111`); the length is line 219. -/
def updated (a : Bia n V) (bit : BitVec n) (value : V) (extra : Nat) :
    Res (Except BitError (Bia n V)) :=
  match bitIndex a.bits bit with
  | .error e => .ok (.error e)
  | .ok index => create a.bits a.values.length (a.updateAt index value) extra

/-- `removed` (`/repo/src/bit_indexed_array.rs:117-121`); the length is line 247 (the array is
    nonempty there because the bit is present). -/
def removed (a : Bia n V) (bit : BitVec n) (extra : Nat) :
    Res (Except BitError (Bia n V)) :=
  match (do let bits ← bitRemove a.bits bit
            let index ← bitIndex a.bits bit
            pure (bits, index) : Except BitError _) with
  | .error e => .ok (.error e)
  | .ok (bits, index) => create bits (a.values.length - 1) (a.removeAt index) extra

/-- `inserted_bit_index` (`/repo/src/bit_indexed_array.rs:104-106`). -/
def insertedBitIndex (a : Bia n V) (index : Nat) (value : V) (extra : Nat) :
    Res (Except BitError (Bia n V)) :=
  match nthBit n index with
  | .error e => .ok (.error e)
  | .ok bit => a.inserted bit value extra

/-- `updated_bit_index` (`/repo/src/bit_indexed_array.rs:113-115`). -/
def updatedBitIndex (a : Bia n V) (index : Nat) (value : V) (extra : Nat) :
    Res (Except BitError (Bia n V)) :=
  match nthBit n index with
  | .error e => .ok (.error e)
  | .ok bit => a.updated bit value extra

/-- `removed_bit_index` (`/repo/src/bit_indexed_array.rs:123-125`). -/
def removedBitIndex (a : Bia n V) (index : Nat) (extra : Nat) :
    Res (Except BitError (Bia n V)) :=
  match nthBit n index with
  | .error e => .ok (.error e)
  | .ok bit => a.removed bit extra

/-- `default_bit_indexed_array` (`/repo/src/bit_indexed_array.rs:259-261`, 417-425). -/
def default : Bia n V := ⟨0#n, [], 0⟩

/-- `iter` (`/repo/src/bit_indexed_array.rs:135-137`): the values in storage order.  The four `into_iter`s
    (455-483) are the same iteration; `iter_mut` (139-141) is used nowhere in the crate. -/
def iter (a : Bia n V) : List V := a.values

/-- `clone_impl`, `clone` (`/repo/src/bit_indexed_array.rs:127-133`, 401-415). -/
def clone (a : Bia n V) : Bia n V := ⟨a.bits, a.values, a.extra⟩

/-- The loop of `eq` for arrays of one size (`/repo/src/bit_indexed_array.rs:436-441`): the indices still to
    be compared; an index outside the other array panics. -/
def eqLoop [BEq V] (xs ys : List V) : List Nat → Res Bool
  | [] => .ok true
  | i :: is =>
    match xs[i]?, ys[i]? with
    | some x, some y => if x != y then .ok false else eqLoop xs ys is
    | _, _ => .panic .unwrap

/-- `PartialEq for BitIndexedArrayImpl` (`/repo/src/bit_indexed_array.rs:431-443`).  The type makes the sizes
    equal. -/
def eqSized [BEq V] (a b : Bia n V) : Res Bool :=
  if a.bits != b.bits || a.extra != b.extra then .ok false
  else eqLoop a.values b.values (List.range a.values.length)

/-- `PartialEq for dyn BitIndexedArray` (`/repo/src/bit_indexed_array.rs:445-449`); the slices are compared by
    length and then element by element. -/
def eqDyn [BEq V] (a b : Bia n V) : Bool :=
  a.bits == b.bits && a.values == b.values && a.extra == b.extra

end Bia
end HT
