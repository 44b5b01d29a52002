import Verif.Hasher
/-! # Hashes that fit -/
namespace HT

theorem lowBits_toNat {K : Type} {w : Nat} {finish : K → BitVec 64} {k : K}
    (fits : (finish k).toNat < 2 ^ w) : (lowBits w finish k).toNat = (finish k).toNat := by
  rw [lowBits, BitVec.toNat_setWidth, Nat.mod_eq_of_lt fits]

theorem hasherBv_fits {K : Type} {w : Nat} {finish : K → BitVec 64} {k : K}
    (fits : (finish k).toNat < 2 ^ w) : hasherBv w finish k = .ok (lowBits w finish k) := by
  simp [hasherBv, fits, lowBits]

theorem hasherBv_ok {K : Type} {w : Nat} {finish : K → BitVec 64} {k : K} {h : BitVec w}
    (hr : hasherBv w finish k = .ok h) : (finish k).toNat < 2 ^ w ∧ h = lowBits w finish k := by
  by_cases fits : (finish k).toNat < 2 ^ w
  · rw [hasherBv_fits fits] at hr; injection hr with hr; exact ⟨fits, hr.symm⟩
  · simp [hasherBv, fits] at hr

end HT
