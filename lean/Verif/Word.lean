import Verif.Res
/-!
# Word operations (`/repo/src/traits.rs`)

A flag word of any of the types `u8 .. u128, usize` is a `BitVec n`.
-/
namespace HT

/-- `/repo/src/results.rs:7-16`  (`enum BitError`). -/
inductive BitError where
  | countNotEqualToOne
  | found
  | notFound
  | range
  deriving DecidableEq, Repr

variable {n : Nat}

/-- `count_ones()` of the primitive integer types, as used through `CountOnes::count_ones_t`
    (`/repo/src/traits.rs:129-141`): the number of set bits. -/
def countOnes (x : BitVec n) : Nat := ((List.range n).filter fun i => x.getLsbD i).length

/-- `MaxOnes::max_ones` (`/repo/src/traits.rs:196-208`): the width of the word in bits. -/
def maxOnes (_ : BitVec n) : Nat := n

/-- `NthBit::nth_bit` (`/repo/src/traits.rs:211-222`, with macro `bit_in_range`, lines 37-43). -/
def nthBit (n : Nat) (i : Nat) : Except BitError (BitVec n) :=
  if i ≥ n then .error .range else .ok (1#n <<< i)

/-- macro `bit_count_one` (`/repo/src/traits.rs:5-11`). -/
def bitCountOne (bit : BitVec n) : Except BitError Unit :=
  if countOnes bit ≠ 1 then .error .countNotEqualToOne else .ok ()

/-- macro `bit_found` (`/repo/src/traits.rs:13-20`). -/
def bitFound (self bit : BitVec n) : Except BitError Unit := do
  bitCountOne bit
  if self &&& bit = 0#n then .error .notFound else .ok ()

/-- macro `bits_not_found` (`/repo/src/traits.rs:22-28`). -/
def bitsNotFound (self bit : BitVec n) : Except BitError Unit :=
  if self &&& bit ≠ 0#n then .error .found else .ok ()

/-- macro `bit_not_found` (`/repo/src/traits.rs:30-35`). -/
def bitNotFound (self bit : BitVec n) : Except BitError Unit := do
  bitCountOne bit
  bitsNotFound self bit

/-- `BitContains::bit_contains` (`/repo/src/traits.rs:59-70`). -/
def bitContains (self bit : BitVec n) : Except BitError Bool := do
  bitCountOne bit
  .ok (self &&& bit != 0#n)

/-- `BitIndex::bit_index` (`/repo/src/traits.rs:73-84`).  `bit - 1` cannot underflow since
    `bit_found!` has already required `bit` to have one bit. -/
def bitIndex (self bit : BitVec n) : Except BitError Nat := do
  bitFound self bit
  .ok (countOnes (self &&& (bit - 1#n)))

/-- `BitInsert::bit_insert` (`/repo/src/traits.rs:87-98`). -/
def bitInsert (self bit : BitVec n) : Except BitError (BitVec n) := do
  bitNotFound self bit
  .ok (self ||| bit)

/-- `BitMerge::bit_merge` (`/repo/src/traits.rs:101-112`). -/
def bitMerge (self bits : BitVec n) : Except BitError (BitVec n) := do
  bitsNotFound self bits
  .ok (self ||| bits)

/-- `BitRemove::bit_remove` (`/repo/src/traits.rs:115-126`). -/
def bitRemove (self bit : BitVec n) : Except BitError (BitVec n) := do
  bitFound self bit
  .ok (self ^^^ bit)

end HT
