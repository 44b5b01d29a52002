import Verif.Flag
import Verif.WordLemmas
/-! # Facts about flags: hash chunks -/
namespace HT

variable {c : Cfg}

theorem Cfg.wpos (c : Cfg) : 0 < c.w := Nat.lt_of_lt_of_le c.bpos c.bw

theorem Cfg.n_le (c : Cfg) : c.n ≤ 128 := by
  have h := Nat.pow_le_pow_right (n := 2) (by omega) c.ble
  exact h

/-- The `d`-th group of `b` bits of a hash word, least significant group first. -/
def chunk (c : Cfg) (h : BitVec c.w) (d : Nat) : Nat := h.toNat / 2 ^ (d * c.b) % 2 ^ c.b

theorem chunk_lt (h : BitVec c.w) (d : Nat) : chunk c h d < c.n := Nat.mod_lt _ (Nat.two_pow_pos _)

theorem toNat_and_mask (x : BitVec c.w) : (x &&& maskLogB c).toNat = x.toNat % 2 ^ c.b := by
  have h1 : (2 ^ c.b - 1) % 2 ^ c.w = 2 ^ c.b - 1 := by
    apply Nat.mod_eq_of_lt
    have := Nat.pow_le_pow_right (n := 2) (by omega) c.bw
    have := Nat.two_pow_pos c.b
    omega
  rw [BitVec.toNat_and, maskLogB, BitVec.toNat_ofNat, h1, Nat.and_two_pow_sub_one_eq_mod]

theorem flagBit_eq (x : BitVec c.w) : flagBit c x = .ok (bitAt c.n (x.toNat % 2 ^ c.b)) := by
  rw [flagBit, toNat_and_mask, nthBit_ok (Nat.mod_lt _ (Nat.two_pow_pos _))]; rfl

/-- The flag of hash `h` at depth `d` (when the depth is within the hash word). -/
def flagAt (h : BitVec c.w) (d : Nat) : Flag c := ⟨h, d, bitAt c.n (chunk c h d)⟩

theorem Flag.new_eq (h : BitVec c.w) : Flag.new h = .ok (flagAt h 0) := by
  simp [Flag.new, flagBit_eq, flagAt, chunk]

theorem Flag.newAtDepth_eq (h : BitVec c.w) {d : Nat} (hd : d * c.b < c.w) :
    Flag.newAtDepth h d = .ok (some (flagAt h d)) := by
  have hw := c.wpos
  have h1 : ¬ d * c.b ≥ 8 * c.w := by omega
  have h2 : ¬ (c.checked = true ∧ d * c.b ≥ c.w) := by omega
  simp only [Flag.newAtDepth, h1, if_false, shr, h2, flagBit_eq, Res.ok_bind, flagAt, chunk,
    Nat.mod_eq_of_lt hd, BitVec.toNat_ushiftRight, Nat.shiftRight_eq_div_pow]

/-- In a build without overflow checks a flag beyond the hash word exists (its bit is meaningless). -/
theorem Flag.newAtDepth_release (hc : c.checked = false) (h : BitVec c.w) {d : Nat}
    (hd : d * c.b < 8 * c.w) : ∃ f, Flag.newAtDepth h d = .ok (some ⟨h, d, f⟩) := by
  have h1 : ¬ d * c.b ≥ 8 * c.w := by omega
  simp [Flag.newAtDepth, h1, shr, hc, flagBit_eq]

/-- In a build with overflow checks it panics. -/
theorem Flag.newAtDepth_checked (hc : c.checked = true) (h : BitVec c.w) {d : Nat}
    (hd : c.w ≤ d * c.b) (hd' : d * c.b < 8 * c.w) :
    Flag.newAtDepth h d = .panic .shiftOverflow := by
  have h1 : ¬ d * c.b ≥ 8 * c.w := by omega
  simp [Flag.newAtDepth, h1, shr, hc, hd]

theorem Flag.next_eq (h : BitVec c.w) {d : Nat} (hd : (d + 1) * c.b < c.w) :
    (flagAt h d).next = .ok (some (flagAt h (d + 1))) := Flag.newAtDepth_eq h hd

theorem next_lt {d : Nat} (hd : d * c.b < c.w) : (d + 1) * c.b < 8 * c.w := by
  have := c.bw
  rw [Nat.add_mul]; omega

/-- All chunks within the word agree: the hashes are equal. -/
theorem chunk_ext {h1 h2 : BitVec c.w} (h : ∀ d, d * c.b < c.w → chunk c h1 d = chunk c h2 d) :
    h1 = h2 := by
  apply BitVec.eq_of_toNat_eq
  have key : ∀ d, h1.toNat % 2 ^ (d * c.b) = h2.toNat % 2 ^ (d * c.b) := by
    intro d
    induction d with
    | zero => simp [Nat.mod_one]
    | succ d ih =>
      rw [Nat.add_mul, Nat.one_mul, Nat.pow_add, Nat.mod_mul, Nat.mod_mul, ih]
      rcases Nat.lt_or_ge (d * c.b) c.w with hd | hd
      · have := h d hd
        simp only [chunk] at this
        rw [this]
      · have hp := Nat.pow_le_pow_right (n := 2) (by omega) hd
        have l1 := h1.isLt
        have l2 := h2.isLt
        rw [Nat.div_eq_of_lt (by omega), Nat.div_eq_of_lt (by omega)]
  have hw : c.w ≤ c.w * c.b := Nat.le_mul_of_pos_right _ c.bpos
  have hp := Nat.pow_le_pow_right (n := 2) (by omega) hw
  have := key c.w
  rw [Nat.mod_eq_of_lt (by have := h1.isLt; omega), Nat.mod_eq_of_lt (by have := h2.isLt; omega)] at this
  exact this

/-- `h1` and `h2` agree on all chunks below depth `d`. -/
def Agree (c : Cfg) (d : Nat) (h1 h2 : BitVec c.w) : Prop := ∀ e, e < d → chunk c h1 e = chunk c h2 e

theorem Agree.symm {d : Nat} {h1 h2 : BitVec c.w} (h : Agree c d h1 h2) : Agree c d h2 h1 :=
  fun e he => (h e he).symm

theorem Agree.trans {d : Nat} {h1 h2 h3 : BitVec c.w} (h : Agree c d h1 h2) (h' : Agree c d h2 h3) :
    Agree c d h1 h3 := fun e he => (h e he).trans (h' e he)

theorem Agree.succ {d : Nat} {h1 h2 : BitVec c.w} (h : Agree c d h1 h2)
    (h' : chunk c h1 d = chunk c h2 d) : Agree c (d + 1) h1 h2 := by
  intro e he
  rcases Nat.lt_or_ge e d with h1 | h1
  · exact h e h1
  · have : e = d := by omega
    subst this; exact h'

theorem Agree.zero (h1 h2 : BitVec c.w) : Agree c 0 h1 h2 := fun _ h => absurd h (Nat.not_lt_zero _)

theorem Agree.eq {d : Nat} {h1 h2 : BitVec c.w} (h : Agree c d h1 h2) (hd : c.w ≤ d * c.b) :
    h1 = h2 := by
  apply chunk_ext
  intro e he
  apply h
  rcases Nat.lt_or_ge e d with h' | h'
  · exact h'
  · have := Nat.mul_le_mul_right c.b h'
    omega

theorem Agree.lt_of_ne {d : Nat} {h1 h2 : BitVec c.w} (h : Agree c d h1 h2) (hne : h1 ≠ h2) :
    d * c.b < c.w := by
  rcases Nat.lt_or_ge (d * c.b) c.w with h' | h'
  · exact h'
  · exact absurd (h.eq h') hne

end HT
