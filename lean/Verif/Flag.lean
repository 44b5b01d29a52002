import Verif.Word
/-!
# Configuration and `Flag` (`/repo/src/flag.rs`)
-/
namespace HT

/-- The instantiation of the generic parameters and the kind of build.
    * `w`: width of the hash word `H` (`/repo/src/traits.rs:196-208`, `H::max_ones()`);
    * `b`: `F::log_b()` (`/repo/src/traits.rs:144-168`: 3, 4, 5, 6, 7 for the supported flag words),
      the flag word `F` itself is `BitVec (2^b)`;
    * `checked`: whether the crate is compiled with arithmetic overflow checks (debug profile).
    The bounds hold for every pair `(H, F)` the trait bounds of the crate allow
    (`MaskLogB<H>` at `/repo/src/traits.rs:170-193` needs `H: From<u8>` resp. `From<u16>`). -/
structure Cfg where
  w : Nat
  b : Nat
  checked : Bool
  bpos : 0 < b
  ble : b ≤ 7
  bw : b ≤ w

/-- Width of the flag word, `F::max_ones()`. -/
abbrev Cfg.n (c : Cfg) : Nat := 2 ^ c.b

/-- `struct Flag` (`/repo/src/flag.rs:4-9`). -/
structure Flag (c : Cfg) where
  hashValue : BitVec c.w
  depth : Nat
  flag : BitVec c.n

/-- `F::mask_log_b()` (`/repo/src/traits.rs:170-193`): `log_b` one bits. -/
def maskLogB (c : Cfg) : BitVec c.w := BitVec.ofNat c.w (2 ^ c.b - 1)

/-- `H >> usize` (`Shr<usize>`, used at `/repo/src/flag.rs:31`).  With overflow checks a shift by at
    least the width panics; without them the shift amount is taken modulo the width
    (for the power-of-two widths of the primitive types this is the masking Rust performs). -/
def shr (c : Cfg) (h : BitVec c.w) (s : Nat) : Res (BitVec c.w) :=
  if c.checked ∧ s ≥ c.w then .panic .shiftOverflow else .ok (h >>> (s % c.w))

/-- `F::nth_bit(F::try_from(x.bitand(F::mask_log_b())).unwrap().as_usize()).unwrap()`
    (`/repo/src/flag.rs:16` and `:31`).  The masked value is below `2^log_b ≤ 128`, so the `try_from`
    never fails for any flag word and is not modelled as a failure. -/
def flagBit (c : Cfg) (x : BitVec c.w) : Res (BitVec c.n) :=
  Res.unwrapE (nthBit c.n (x &&& maskLogB c).toNat)

namespace Flag
variable {c : Cfg}

/-- `Flag::new` (`/repo/src/flag.rs:13-19`); also `From<H>` (56-59). -/
def new (hash : BitVec c.w) : Res (Flag c) := do
  let f ← flagBit c hash
  .ok ⟨hash, 0, f⟩

/-- `Flag::new_at_depth` (`/repo/src/flag.rs:22-33`).  The bound really is `8 * max_ones()`. -/
def newAtDepth (hash : BitVec c.w) (depth : Nat) : Res (Option (Flag c)) :=
  if depth * c.b ≥ 8 * c.w then .ok none
  else do
    let x ← shr c hash (depth * c.b)
    let f ← flagBit c x
    .ok (some ⟨hash, depth, f⟩)

/-- `Flag::next` (`/repo/src/flag.rs:51-53`). -/
def next (f : Flag c) : Res (Option (Flag c)) := newAtDepth f.hashValue (f.depth + 1)

end Flag
end HT
