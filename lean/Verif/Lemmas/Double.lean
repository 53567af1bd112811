import Verif.Model.Double

set_option backward.isDefEq.respectTransparency false

/-!
Rounding to 53 bits: exact for numbers of 53 bits, otherwise off by at most half a unit in the last
place, and monotone.
-/

namespace Verif.Double
open Verif Verif.Format

theorem log2_bounds {n : Nat} (h : 2 ^ 53 ≤ n) :
    2 ^ (52 + (n.log2 - 52)) ≤ n ∧ n < 2 ^ (53 + (n.log2 - 52)) := by
  have h0 : n ≠ 0 := by
    have : 0 < 2 ^ 53 := Nat.two_pow_pos 53
    omega
  have h1 : 53 ≤ n.log2 := (Nat.le_log2 h0).mpr h
  have h2 := Nat.log2_self_le h0
  have h3 := @Nat.lt_log2_self n
  rw [show 52 + (n.log2 - 52) = n.log2 by omega, show 53 + (n.log2 - 52) = n.log2 + 1 by omega]
  exact ⟨h2, h3⟩

/-- The two candidates between which a number is rounded. -/
theorem rnd_cases {n : Nat} (h : 2 ^ 53 ≤ n) :
    (rnd n = n / 2 ^ (n.log2 - 52) * 2 ^ (n.log2 - 52) ∧
        2 * (n % 2 ^ (n.log2 - 52)) ≤ 2 ^ (n.log2 - 52)) ∨
      (rnd n = n / 2 ^ (n.log2 - 52) * 2 ^ (n.log2 - 52) + 2 ^ (n.log2 - 52) ∧
        2 ^ (n.log2 - 52) ≤ 2 * (n % 2 ^ (n.log2 - 52))) := by
  unfold rnd
  rw [if_neg (by omega)]
  simp only
  generalize n % 2 ^ (n.log2 - 52) = r
  generalize 2 ^ (n.log2 - 52) = t
  split
  · left; exact ⟨rfl, by omega⟩
  · right; exact ⟨by rw [Nat.add_mul, Nat.one_mul], by omega⟩

theorem rnd_err {n k : Nat} (h : n < 2 ^ (53 + k)) :
    2 * rnd n ≤ 2 * n + 2 ^ k ∧ 2 * n ≤ 2 * rnd n + 2 ^ k := by
  by_cases h53 : n < 2 ^ 53
  · have := Nat.two_pow_pos k
    unfold rnd; rw [if_pos h53]; omega
  · have hb := log2_bounds (by omega : 2 ^ 53 ≤ n)
    have hj : n.log2 - 52 ≤ k := by
      have : 2 ^ (52 + (n.log2 - 52)) < 2 ^ (53 + k) := by omega
      have := (Nat.pow_lt_pow_iff_right (a := 2) (by omega)).mp this
      omega
    have ht : 2 ^ (n.log2 - 52) ≤ 2 ^ k := Nat.pow_le_pow_right (by omega) hj
    have hc := rnd_cases (by omega : 2 ^ 53 ≤ n)
    have hd := Nat.div_add_mod n (2 ^ (n.log2 - 52))
    rw [Nat.mul_comm] at hd
    have hr := Nat.mod_lt n (Nat.two_pow_pos (n.log2 - 52))
    generalize 2 ^ (n.log2 - 52) = t at *
    omega

theorem rnd_exact {m k : Nat} (h : m < 2 ^ 53) : rnd (m * 2 ^ k) = m * 2 ^ k := by
  by_cases h53 : m * 2 ^ k < 2 ^ 53
  · unfold rnd; rw [if_pos h53]
  · have hb := log2_bounds (by omega : 2 ^ 53 ≤ m * 2 ^ k)
    have hlt : m * 2 ^ k < 2 ^ (53 + k) := by
      rw [Nat.pow_add]; exact Nat.mul_lt_mul_of_pos_right h (Nat.two_pow_pos k)
    have hj : (m * 2 ^ k).log2 - 52 ≤ k := by
      have : 2 ^ (52 + ((m * 2 ^ k).log2 - 52)) < 2 ^ (53 + k) := by omega
      have := (Nat.pow_lt_pow_iff_right (a := 2) (by omega)).mp this
      omega
    have hc := rnd_cases (by omega : 2 ^ 53 ≤ m * 2 ^ k)
    have hdv : 2 ^ ((m * 2 ^ k).log2 - 52) ∣ m * 2 ^ k :=
      Nat.dvd_trans (Nat.pow_dvd_pow 2 hj) (Nat.dvd_mul_left _ _)
    have hz := Nat.mod_eq_zero_of_dvd hdv
    have hd := Nat.div_add_mod (m * 2 ^ k) (2 ^ ((m * 2 ^ k).log2 - 52))
    rw [Nat.mul_comm] at hd
    have ht := Nat.two_pow_pos ((m * 2 ^ k).log2 - 52)
    generalize 2 ^ ((m * 2 ^ k).log2 - 52) = t at *
    omega

theorem rnd_mono {a b : Nat} (h : a ≤ b) : rnd a ≤ rnd b := by
  by_cases hb : b < 2 ^ 53
  · unfold rnd; rw [if_pos hb, if_pos (by omega)]; exact h
  · have hbb := log2_bounds (by omega : 2 ^ 53 ≤ b)
    have hcb := rnd_cases (by omega : 2 ^ 53 ≤ b)
    have htb := Nat.two_pow_pos (b.log2 - 52)
    have hdb := Nat.div_add_mod b (2 ^ (b.log2 - 52))
    rw [Nat.mul_comm] at hdb
    have lowb : 2 ^ (52 + (b.log2 - 52)) ≤ b / 2 ^ (b.log2 - 52) * 2 ^ (b.log2 - 52) := by
      rw [Nat.pow_add]
      refine Nat.mul_le_mul_right _ ?_
      rw [Nat.le_div_iff_mul_le htb, ← Nat.pow_add]
      exact hbb.1
    by_cases ha : a < 2 ^ 53
    · have e : rnd a = a := by unfold rnd; rw [if_pos ha]
      by_cases hz : b.log2 - 52 = 0
      · rw [hz] at hcb hdb
        rw [e]
        simp only [Nat.pow_zero, Nat.div_one, Nat.mul_one, Nat.mod_one] at hcb
        omega
      · have : 2 ^ 53 ≤ 2 ^ (52 + (b.log2 - 52)) := Nat.pow_le_pow_right (by omega) (by omega)
        omega
    · have hba := log2_bounds (by omega : 2 ^ 53 ≤ a)
      have hca := rnd_cases (by omega : 2 ^ 53 ≤ a)
      have hta := Nat.two_pow_pos (a.log2 - 52)
      have hda := Nat.div_add_mod a (2 ^ (a.log2 - 52))
      rw [Nat.mul_comm] at hda
      have hra := Nat.mod_lt a hta
      have upa : a / 2 ^ (a.log2 - 52) * 2 ^ (a.log2 - 52) + 2 ^ (a.log2 - 52) ≤ 2 ^ (53 + (a.log2 - 52)) := by
        have : a / 2 ^ (a.log2 - 52) < 2 ^ 53 := by
          rw [Nat.div_lt_iff_lt_mul hta, ← Nat.pow_add]; exact hba.2
        rw [Nat.pow_add, ← Nat.succ_mul]
        exact Nat.mul_le_mul_right _ this
      have hle : a.log2 - 52 ≤ b.log2 - 52 := by
        have : 2 ^ (52 + (a.log2 - 52)) < 2 ^ (53 + (b.log2 - 52)) := by omega
        have := (Nat.pow_lt_pow_iff_right (a := 2) (by omega)).mp this
        omega
      by_cases heq : a.log2 - 52 = b.log2 - 52
      · rw [heq] at hca hda hra
        have hq : a / 2 ^ (b.log2 - 52) ≤ b / 2 ^ (b.log2 - 52) := Nat.div_le_div_right h
        rcases Nat.lt_or_eq_of_le hq with hq | hq
        · have : a / 2 ^ (b.log2 - 52) * 2 ^ (b.log2 - 52) + 2 ^ (b.log2 - 52) ≤
              b / 2 ^ (b.log2 - 52) * 2 ^ (b.log2 - 52) := by
            rw [← Nat.succ_mul]; exact Nat.mul_le_mul_right _ hq
          omega
        · have e1 : rnd a = if 2 * (a % 2 ^ (b.log2 - 52)) < 2 ^ (b.log2 - 52) ∨
              (2 * (a % 2 ^ (b.log2 - 52)) = 2 ^ (b.log2 - 52) ∧ a / 2 ^ (b.log2 - 52) % 2 = 0) then
              a / 2 ^ (b.log2 - 52) * 2 ^ (b.log2 - 52)
              else (a / 2 ^ (b.log2 - 52) + 1) * 2 ^ (b.log2 - 52) := by
            unfold rnd; rw [if_neg ha]; simp only [heq]
          have e2 : rnd b = if 2 * (b % 2 ^ (b.log2 - 52)) < 2 ^ (b.log2 - 52) ∨
              (2 * (b % 2 ^ (b.log2 - 52)) = 2 ^ (b.log2 - 52) ∧ b / 2 ^ (b.log2 - 52) % 2 = 0) then
              b / 2 ^ (b.log2 - 52) * 2 ^ (b.log2 - 52)
              else (b / 2 ^ (b.log2 - 52) + 1) * 2 ^ (b.log2 - 52) := by
            unfold rnd; rw [if_neg hb]
          rw [e1, e2, hq]
          rw [hq] at hda
          rw [Nat.add_mul, Nat.one_mul]
          split <;> split <;> omega
      · have : 2 ^ (53 + (a.log2 - 52)) ≤ 2 ^ (52 + (b.log2 - 52)) :=
          Nat.pow_le_pow_right (by omega) (by omega)
        omega

/-- Every finite `double` is an integer of 53 bits times a power of two. -/
theorem mag_form (b : BitVec 64) : ∃ m k, m < 2 ^ 53 ∧ mag b = m * 2 ^ k := by
  have hm : mant b < 2 ^ 52 := Nat.mod_lt _ (Nat.two_pow_pos 52)
  unfold mag
  split
  · exact ⟨mant b, 0, by omega, by simp⟩
  · exact ⟨2 ^ 52 + mant b, expo b - 1, by omega, rfl⟩

theorem one_pos : 0 < one := Nat.two_pow_pos 1074

theorem one_half : one = 2 * half := by
  unfold one half
  rw [show (1074 : Nat) = 1073 + 1 from rfl, Nat.pow_succ, Nat.mul_comm]

/-- The integer part and the fraction of a `double` are `double`s. -/
theorem parts_exact {a m k : Nat} (hm : m < 2 ^ 53) (ha : a = m * 2 ^ k) :
    rnd (a / one * one) = a / one * one ∧ rnd (a % one) = a % one := by
  by_cases hk : 1074 ≤ k
  · have e : a = m * 2 ^ (k - 1074) * one := by
      unfold one; rw [ha, Nat.mul_assoc, ← Nat.pow_add, Nat.sub_add_cancel hk]
    have e1 : a / one * one = a := by
      rw [Nat.div_mul_cancel]; exact ⟨m * 2 ^ (k - 1074), by rw [e, Nat.mul_comm]⟩
    have e2 : a % one = 0 := Nat.mod_eq_zero_of_dvd ⟨m * 2 ^ (k - 1074), by rw [e, Nat.mul_comm]⟩
    rw [e1, e2]
    exact ⟨by rw [ha]; exact rnd_exact hm, by unfold rnd; rw [if_pos (Nat.two_pow_pos 53)]⟩
  · have eo : one = 2 ^ (1074 - k) * 2 ^ k := by
      unfold one; rw [← Nat.pow_add, Nat.sub_add_cancel (by omega)]
    have e1 : a / one = m / 2 ^ (1074 - k) := by
      rw [ha, eo]; exact Nat.mul_div_mul_right _ _ (Nat.two_pow_pos k)
    have e2 : a % one = m % 2 ^ (1074 - k) * 2 ^ k := by
      rw [ha, eo]; exact Nat.mul_mod_mul_right _ _ _
    refine ⟨?_, ?_⟩
    · rw [e1]; exact rnd_exact (k := 1074) (Nat.lt_of_le_of_lt (Nat.div_le_self _ _) hm)
    · rw [e2]; exact rnd_exact (Nat.lt_of_le_of_lt (Nat.mod_le _ _) hm)

/-- The fraction computed by the code. -/
theorem fracOf_eq {a : Nat} (hf : ∃ m k, m < 2 ^ 53 ∧ a = m * 2 ^ k) (hlt : a / one < 2 ^ 63)
    (scale : BitVec 32) :
    fracOf a (BitVec.ofNat 64 (a / one)) scale =
      toUint64 (rnd (rnd (a % one * scale.toNat) + half)) := by
  obtain ⟨m, k, hm, ha⟩ := hf
  have hp := parts_exact hm ha
  have e : ofUint64 (BitVec.ofNat 64 (a / one)) = a / one * one := by
    unfold ofUint64
    rw [BitVec.toNat_ofNat, Nat.mod_eq_of_lt (by omega), hp.1]
  have hd := Nat.div_add_mod a one
  rw [Nat.mul_comm] at hd
  unfold fracOf
  rw [e, if_pos (by omega), show a - a / one * one = a % one by omega]
  simp only [hp.2]

/-- The number the code converts to the digits after the point, for a fraction `d` and a factor `s`
below `2^k`. -/
theorem frac_bounds {d s k : Nat} (hd : d < one) (hs : s < 2 ^ k) (hk : k ≤ 51) :
    2 * rnd (rnd (d * s) + half) ≤ 2 * (d * s) + one + 2 * 2 ^ (1021 + k) ∧
    2 * (d * s) + one ≤ 2 * rnd (rnd (d * s) + half) + 2 * 2 ^ (1021 + k) ∧
    rnd (rnd (d * s) + half) ≤ s * one + half := by
  have hk53 : 2 ^ k ≤ 2 ^ 51 := Nat.pow_le_pow_right (by omega) hk
  have hpow : 2 ^ k * one = 2 ^ (53 + (1021 + k)) := by
    unfold one; rw [← Nat.pow_add]; congr 1; omega
  have hds : d * s ≤ s * one := by
    rw [Nat.mul_comm]; exact Nat.mul_le_mul_left _ (by omega)
  have hso : s * one + one ≤ 2 ^ k * one := by
    rw [← Nat.succ_mul]; exact Nat.mul_le_mul_right _ hs
  have hp : rnd (d * s) ≤ s * one := by
    have e : rnd (s * one) = s * one := rnd_exact (k := 1074) (by omega)
    rw [← e]; exact rnd_mono hds
  have h1 : one = 2 * half := one_half
  have hx : rnd (s * one + half) = s * one + half := by
    have e : s * one + half = (2 * s + 1) * half := by
      rw [h1, Nat.add_mul, Nat.one_mul, Nat.mul_comm 2 s, Nat.mul_assoc]
    rw [e]; exact rnd_exact (k := 1073) (by omega)
  have o := one_pos
  have e1 := rnd_err (n := d * s) (k := 1021 + k) (by rw [← hpow]; omega)
  have e2 := rnd_err (n := rnd (d * s) + half) (k := 1021 + k) (by rw [← hpow]; omega)
  have e3 : rnd (rnd (d * s) + half) ≤ s * one + half := by
    rw [← hx]; exact rnd_mono (by omega)
  generalize 2 ^ (1021 + k) = u at *
  generalize rnd (rnd (d * s) + half) = x at *
  generalize rnd (d * s) = p at *
  generalize d * s = y at *
  generalize s * one = z at *
  generalize one = o at *
  omega

/-- Products that are integers or halves are rounded as expected. -/
theorem frac_exact {y j : Nat} (hj : 2 * j + 1 < 2 ^ 53) :
    (y = j * one → rnd (rnd y + half) / one = j) ∧
    (2 * y = (2 * j + 1) * one → rnd (rnd y + half) / one = j + 1) := by
  have h1 : one = 2 * half := one_half
  have hh : 0 < half := Nat.two_pow_pos 1073
  constructor
  · intro h
    have e1 : rnd y = y := by rw [h]; exact rnd_exact (k := 1074) (by omega)
    have e : y + half = (2 * j + 1) * half := by
      rw [h, h1, Nat.add_mul, Nat.one_mul, Nat.mul_comm 2 j, Nat.mul_assoc]
    have e2 : rnd (y + half) = y + half := by rw [e]; exact rnd_exact (k := 1073) (by omega)
    rw [e1, e2, h, Nat.mul_comm, Nat.mul_add_div one_pos, Nat.div_eq_of_lt (by omega), Nat.add_zero]
  · intro h
    have ey : y = (2 * j + 1) * half := by
      rw [h1, Nat.mul_left_comm] at h
      exact Nat.eq_of_mul_eq_mul_left (by omega) h
    have e1 : rnd y = y := by rw [ey]; exact rnd_exact (k := 1073) (by omega)
    have e : y + half = (j + 1) * one := by
      rw [ey, h1, ← Nat.succ_mul, ← Nat.mul_assoc, show (2 * j + 1).succ = (j + 1) * 2 by omega]
    have e2 : rnd (y + half) = y + half := by rw [e]; exact rnd_exact (k := 1074) (by omega)
    rw [e1, e2, e, Nat.mul_div_cancel _ one_pos]

end Verif.Double
