import Verif.Lemmas.Double
import Verif.Props.Format

set_option backward.isDefEq.respectTransparency false

/-!
Property C91: the text printed for a `double` with `%<width>.<digits>f`.

A `double` is given by its 64-bit representation. Its absolute value is `absUnits b / 2^1074`, a
natural number of units of the smallest positive `double`.
-/

namespace Verif.Props
open Verif Verif.Spec.Printf Verif.Format Verif.Double

/-- Absolute value of the `double` with representation `b`, in units of `2^-1074` (IEEE 754). -/
def absUnits (b : BitVec 64) : Nat :=
  let e := (b.extractLsb' 52 11).toNat
  let f := (b.extractLsb' 0 52).toNat
  if e = 0 then f else (2 ^ 52 + f) * 2 ^ (e - 1)

/-- Neither infinite nor NaN. -/
def IsFinite (b : BitVec 64) : Prop := b.extractLsb' 52 11 ≠ 0x7ff#11

instance (b : BitVec 64) : Decidable (IsFinite b) := inferInstanceAs (Decidable (_ ≠ _))

/-- `snprintf(buf, max, "%<wd>.<ws>f", b)` succeeds and leaves in the buffer the terminated text: an
optional `-`, the decimal digits of `I` padded to the width, a point, and `F` as decimal digits padded
with zeros to the number of digits asked for. -/
def Prints (m : Mem) (buf max : Nat) (wd ws : List UInt8) (b : BitVec 64) (I F : Nat) : Prop :=
  ∃ st out, out = (if b.msb = true ∧ absUnits b ≠ 0 then [45] else []) ++
      padTo (numVal wd % 2 ^ 32) (if wd.head? = some 48 then 48 else 32) (dec I) ++
      46 :: padTo (numVal ws % 2 ^ 32) 48 (dec F) ∧
    snprintf buf max (37 :: (wd ++ 46 :: ws ++ [102]) ++ [0]) [.dbl (ofBits b)] ⟨m, []⟩ =
      (.ok (buf + out.length + 1), st) ∧
    (∀ i (h : i < out.length), st.mem (buf + i) = some out[i]) ∧
    st.mem (buf + out.length) = some 0

theorem mag_eq (b : BitVec 64) : mag b = absUnits b := by
  unfold mag absUnits expo mant
  simp only [BitVec.extractLsb'_toNat, Nat.shiftRight_eq_div_pow, Nat.pow_zero, Nat.div_one]

theorem finite_iff (b : BitVec 64) : expo b = 2047 ↔ ¬ IsFinite b := by
  unfold expo IsFinite
  rw [Decidable.not_not, ← BitVec.toNat_inj]
  simp only [BitVec.extractLsb'_toNat, Nat.shiftRight_eq_div_pow]
  exact Iff.rfl

theorem parse_frac (wd ws : List UInt8) (hw : ∀ x ∈ wd, isDigit x = true)
    (hs : ∀ x ∈ ws, isDigit x = true) :
    parseDir (wd ++ 46 :: ws ++ [102]) = some (⟨if wd.head? = some 48 then 48 else 32,
      numVal wd % 2 ^ 32, [], numVal ws % 2 ^ 32, 102⟩, []) := by
  have e : wd ++ 46 :: ws ++ [102] = wd ++ 46 :: (ws ++ [102]) := by simp
  have h46 : isDigit 46 = false ∧ isFlag 46 = false ∧ isDigit 102 = false := by decide
  have ht : (wd ++ 46 :: (ws ++ [102])).takeWhile isDigit = wd := by
    rw [List.takeWhile_append_of_pos hw]; simp [h46.1]
  have hd : (wd ++ 46 :: (ws ++ [102])).dropWhile isDigit = 46 :: (ws ++ [102]) := by
    rw [List.dropWhile_append_of_pos hw]; simp [h46.1]
  have ht2 : (46 :: (ws ++ [102])).takeWhile isFlag = [] := by simp [h46.2.1]
  have hd2 : (46 :: (ws ++ [102])).dropWhile isFlag = 46 :: (ws ++ [102]) := by simp [h46.2.1]
  have ht3 : (ws ++ [102]).takeWhile isDigit = ws := by
    rw [List.takeWhile_append_of_pos hs]; simp [h46.2.2]
  have hd3 : (ws ++ [102]).dropWhile isDigit = [102] := by
    rw [List.dropWhile_append_of_pos hs]; simp [h46.2.2]
  have hh : (wd ++ 46 :: (ws ++ [102])).head? = some 48 ↔ wd.head? = some 48 := by
    cases wd with
    | cons x wd => simp
    | nil => simp
  rw [e]
  unfold parseDir
  simp only [ht, hd, ht2, hd2, if_true, hd3, ht3, hh]

theorem ofMag_eq {neg : Bool} {a : Nat} (hf : ∃ m k, m < 2 ^ 53 ∧ a = m * 2 ^ k)
    (hlt : a < 2 ^ 63 * one) :
    ∃ f, ofMag neg a = f ∧ f.neg = (neg && (a ≠ 0 : Bool)) ∧
      f.int = some (BitVec.ofNat 64 (a / one)) ∧
      ∀ scale : BitVec 32, f.frac scale =
        toUint64 (rnd (rnd (a % one * scale.toNat) + half)) := by
  have hd : a / one < 2 ^ 63 := by rwa [Nat.div_lt_iff_lt_mul one_pos]
  have ht : toInt64 a = some (BitVec.ofNat 64 (a / one)) := by
    unfold toInt64; rw [if_pos hd]
  refine ⟨_, rfl, ?_⟩
  unfold ofMag
  refine ⟨rfl, ht, fun scale => ?_⟩
  simp only [ht]
  exact fracOf_eq hf hd scale

theorem ofBits_finite {b : BitVec 64} (hf : IsFinite b) : ofBits b = ofMag b.msb (absUnits b) := by
  unfold ofBits
  rw [if_neg (fun h => (finite_iff b).mp h hf), mag_eq]

theorem absUnits_form (b : BitVec 64) : ∃ m k, m < 2 ^ 53 ∧ absUnits b = m * 2 ^ k := by
  obtain ⟨m, k, h1, h2⟩ := mag_form b
  exact ⟨m, k, h1, by rw [← mag_eq]; exact h2⟩

/-- The text of a `double` with digits after the point: `q` is what the code computes, `s` its
factor. -/
theorem conv_frac (m : Mem) (lo hi : Nat) (z : UInt8) (W N : Nat) {neg : Bool} {a : Nat}
    (hf : ∃ m k, m < 2 ^ 53 ∧ a = m * 2 ^ k) (hlt : a < 2 ^ 63 * one) (s q : Nat) (h0 : N ≠ 0)
    (hsc : s = 10 ^ N % 2 ^ 32)
    (hq : q = rnd (rnd (a % one * s) + half) / one) (hqs : q ≤ s) (args : List Arg) :
    Conv m lo hi ⟨z, W, [], N, 102⟩ none (.dbl (ofMag neg a) :: args)
      ((if neg = true ∧ a ≠ 0 then [45] else []) ++
        padTo W z (dec (if q = s then a / one + 1 else a / one)) ++
        46 :: padTo N 48 (dec (if q = s then 0 else q))) args := by
  have hd : a / one < 2 ^ 63 := by rwa [Nat.div_lt_iff_lt_mul one_pos]
  obtain ⟨f, hfe, hneg, hint, hfrac⟩ := ofMag_eq (neg := neg) hf hlt
  have hs32 : s < 2 ^ 32 := by rw [hsc]; exact Nat.mod_lt _ (Nat.two_pow_pos 32)
  have hfr : f.frac (BitVec.ofNat 32 (10 ^ N)) = some (BitVec.ofNat 64 q) := by
    rw [hfrac, BitVec.toNat_ofNat, ← hsc]
    unfold toUint64
    rw [← hq, if_pos (by omega)]
  have hc := Conv.dbl (m := m) (lo := lo) (hi := hi)
    (d := ⟨z, W, [], N, 102⟩) (slen := none) (f := f) (args := args) rfl hint (fun _ => hfr)
  have htext : dblText ⟨z, W, [], N, 102⟩ f
      (BitVec.ofNat 64 (a / one)) (BitVec.ofNat 64 q) =
      (if neg = true ∧ a ≠ 0 then [45] else []) ++
      padTo W z (dec (if q = s then a / one + 1 else a / one)) ++
      46 :: padTo N 48 (dec (if q = s then 0 else q)) := by
    unfold dblText
    have hcar : (BitVec.ofNat 64 q = BitVec.ofNat 64 (10 ^ N % 2 ^ 32)) ↔ q = s := by
      rw [← hsc, ← BitVec.toNat_inj, BitVec.toNat_ofNat, BitVec.toNat_ofNat,
        Nat.mod_eq_of_lt (by omega), Nat.mod_eq_of_lt (by omega)]
    have hn : (if f.neg = true then [45] else ([] : List UInt8)) =
        if neg = true ∧ a ≠ 0 then [45] else [] := by
      rw [hneg]; simp only [Bool.and_eq_true, decide_eq_true_eq]
    simp only [hn, if_neg h0, hcar, decide_eq_true_eq, List.append_assoc]
    have t1 : (BitVec.ofNat 64 (a / one)).toNat = a / one := by
      rw [BitVec.toNat_ofNat, Nat.mod_eq_of_lt (by omega)]
    have t2 : (BitVec.ofNat 64 q).toNat = q := by
      rw [BitVec.toNat_ofNat, Nat.mod_eq_of_lt (by omega)]
    have t3 : (BitVec.ofNat 64 (a / one) + 1).toNat = a / one + 1 := by
      rw [BitVec.toNat_add, t1, show (1 : BitVec 64).toNat = 1 from rfl, Nat.mod_eq_of_lt (by omega)]
    by_cases hqe : q = s
    · simp only [if_pos hqe, t3]
    · simp only [if_neg hqe, t1, t2]
  rw [htext, ← hfe] at hc
  exact hc

/-- Digits after the point: `q` is what the code computes, `s` its factor. -/
theorem prints_frac (m : Mem) (buf max : Nat) (hb : buf ≠ 0) (hacc : m.Acc buf max)
    (wd ws : List UInt8) (hw : ∀ x ∈ wd, isDigit x = true) (hs : ∀ x ∈ ws, isDigit x = true)
    (b : BitVec 64) (hf : IsFinite b) (hlt : absUnits b < 2 ^ 63 * one) (N s q : Nat)
    (hN : N = numVal ws % 2 ^ 32) (h0 : N ≠ 0) (hmax : numVal wd % 2 ^ 32 + N + 32 ≤ max)
    (hsc : s = 10 ^ N % 2 ^ 32)
    (hq : q = rnd (rnd (absUnits b % one * s) + half) / one) (hqs : q ≤ s) :
    Prints m buf max wd ws b (if q = s then absUnits b / one + 1 else absUnits b / one)
      (if q = s then 0 else q) := by
  have hd : absUnits b / one < 2 ^ 63 := by rwa [Nat.div_lt_iff_lt_mul one_pos]
  have hs32 : s < 2 ^ 32 := by rw [hsc]; exact Nat.mod_lt _ (Nat.two_pow_pos 32)
  have hc := conv_frac m buf (buf + max) (if wd.head? = some 48 then 48 else 32) (numVal wd % 2 ^ 32) N
    (neg := b.msb) (absUnits_form b) hlt s q h0 hsc hq hqs []
  rw [← ofBits_finite hf, hN] at hc
  have hl1 : (dec (if q = s then absUnits b / one + 1 else absUnits b / one)).length ≤ 20 :=
    ((C08_decimal_roundtrip _ 0).2.2.1 20 (by omega)).mpr (by split <;> omega)
  have hl2 : (dec (if q = s then 0 else q)).length ≤ 10 :=
    ((C08_decimal_roundtrip _ 0).2.2.1 10 (by omega)).mpr (by split <;> omega)
  obtain ⟨st, h1, h2, h3⟩ := one_directive hb hacc (parse_frac wd ws hw hs) (by simp) hc (by
    simp only [List.length_append, List.length_cons, padTo, List.length_replicate, ← hN]
    have : (if b.msb = true ∧ absUnits b ≠ 0 then [45] else ([] : List UInt8)).length ≤ 1 := by
      split <;> simp
    omega)
  exact ⟨st, _, rfl, h1, h2, h3⟩

/-- The integer `P = I * s + F` printed without the point, by the integer part and `q`. -/
theorem printed_value {ip s q : Nat} (h : q ≤ s) :
    (if q = s then ip + 1 else ip) * s + (if q = s then 0 else q) = ip * s + q := by
  split
  · rw [Nat.add_mul]; omega
  · rfl

theorem split_units (a s : Nat) : a * s = a / one * s * one + a % one * s := by
  have hd := Nat.div_add_mod a one
  calc a * s = (one * (a / one) + a % one) * s := by rw [hd]
    _ = a / one * s * one + a % one * s := by
      rw [Nat.add_mul, Nat.mul_comm one, Nat.mul_right_comm]

theorem frac_le {d s k : Nat} (hd : d < one) (hs : s < 2 ^ k) (hk : k ≤ 51) :
    rnd (rnd (d * s) + half) / one ≤ s := by
  have h := (frac_bounds hd hs hk).2.2
  have h1 : one = 2 * half := one_half
  have hh : 0 < half := Nat.two_pow_pos 1073
  have : rnd (rnd (d * s) + half) / one < s + 1 := by
    rw [Nat.div_lt_iff_lt_mul one_pos, Nat.add_mul, Nat.one_mul]
    omega
  omega

theorem pow_small {N : Nat} (h : N ≤ 9) : 10 ^ N < 2 ^ 30 ∧ 10 ^ N % 2 ^ 32 = 10 ^ N ∧ 0 < 10 ^ N := by
  have h1 : 10 ^ N ≤ 10 ^ 9 := Nat.pow_le_pow_right (by omega) h
  have h2 : 0 < 10 ^ N := Nat.pow_pos (by omega)
  exact ⟨by omega, Nat.mod_eq_of_lt (by omega), h2⟩

/-- C91 for 1 to 9 digits after the point and a value below `2^63`: the text denotes a decimal
`P / 10^N` that differs from the value by at most `(1/2 + 2^-23) / 10^N`; a value with at most `N`
decimal digits is printed exactly, and a value half way between two such decimals is rounded away from
zero. -/
theorem C91_rounded_partial (m : Mem) (buf max : Nat) (hb : buf ≠ 0) (hacc : m.Acc buf max)
    (wd ws : List UInt8) (hw : ∀ x ∈ wd, isDigit x = true) (hs : ∀ x ∈ ws, isDigit x = true)
    (b : BitVec 64) (hf : IsFinite b) (hlt : absUnits b < 2 ^ 63 * 2 ^ 1074) (N : Nat)
    (hN : N = numVal ws % 2 ^ 32) (h0 : 1 ≤ N) (h9 : N ≤ 9)
    (hmax : numVal wd % 2 ^ 32 + N + 32 ≤ max) :
    ∃ I F, Prints m buf max wd ws b I F ∧ F < 10 ^ N ∧
      (I * 10 ^ N + F) * 2 ^ 1074 * 2 ^ 23 ≤ absUnits b * 10 ^ N * 2 ^ 23 + (2 ^ 22 + 1) * 2 ^ 1074 ∧
      absUnits b * 10 ^ N * 2 ^ 23 ≤ (I * 10 ^ N + F) * 2 ^ 1074 * 2 ^ 23 + (2 ^ 22 + 1) * 2 ^ 1074 ∧
      (∀ k, absUnits b * 10 ^ N = k * 2 ^ 1074 → I * 10 ^ N + F = k) ∧
      (∀ k, 2 * (absUnits b * 10 ^ N) = (2 * k + 1) * 2 ^ 1074 → I * 10 ^ N + F = k + 1) := by
  have eo : (2 : Nat) ^ 1074 = one := rfl
  rw [eo] at hlt ⊢
  obtain ⟨p1, p2, p3⟩ := pow_small h9
  have hdl : absUnits b % one < one := Nat.mod_lt _ one_pos
  have hqs := frac_le hdl p1 (by omega)
  refine ⟨_, _, prints_frac m buf max hb hacc wd ws hw hs b hf hlt N (10 ^ N) _ hN (by omega) hmax
    p2.symm rfl hqs, ?_, ?_⟩
  · split <;> omega
  · rw [printed_value hqs, split_units (absUnits b) (10 ^ N)]
    have hbd := frac_bounds hdl p1 (by omega)
    have hex := @frac_exact (absUnits b % one * 10 ^ N)
    have hdm := Nat.div_add_mod (rnd (rnd (absUnits b % one * 10 ^ N) + half)) one
    have hml := Nat.mod_lt (rnd (rnd (absUnits b % one * 10 ^ N) + half)) one_pos
    have hu : one = 2 ^ 23 * 2 ^ (1021 + 30) := by
      unfold one; rw [← Nat.pow_add]
    have hyl : absUnits b % one * 10 ^ N < 2 ^ 30 * one := by
      refine Nat.lt_of_le_of_lt (Nat.mul_le_mul_right _ (Nat.le_of_lt hdl)) ?_
      rw [Nat.mul_comm]; exact Nat.mul_lt_mul_of_pos_right p1 one_pos
    generalize 2 ^ (1021 + 30) = u at *
    generalize rnd (rnd (absUnits b % one * 10 ^ N) + half) = x at *
    generalize absUnits b % one * 10 ^ N = y at *
    generalize absUnits b / one * 10 ^ N = z at *
    rw [Nat.add_mul z]
    rw [Nat.mul_comm one] at hdm
    refine ⟨?_, ?_, ?_, ?_⟩
    · omega
    · omega
    · intro k hk
      have hzk : z ≤ k := by
        have : z * one ≤ k * one := by omega
        exact Nat.le_of_mul_le_mul_right this one_pos
      have hy : y = (k - z) * one := by rw [Nat.sub_mul]; omega
      have hj : k - z < 2 ^ 30 := by
        rw [hy] at hyl; exact Nat.lt_of_mul_lt_mul_right hyl
      rw [(hex (j := k - z) (by omega)).1 hy]
      omega
    · intro k hk
      have hzk : z ≤ k := by
        have h1 : 2 * z * one < (2 * k + 2) * one := by
          have h2 : 2 * z * one ≤ (2 * k + 1) * one := by rw [Nat.mul_assoc]; omega
          refine Nat.lt_of_le_of_lt h2 (Nat.mul_lt_mul_of_pos_right (by omega) one_pos)
        have := Nat.lt_of_mul_lt_mul_right h1
        omega
      have hy : 2 * y = (2 * (k - z) + 1) * one := by
        have e : 2 * k + 1 = 2 * z + (2 * (k - z) + 1) := by omega
        rw [e, Nat.add_mul, Nat.mul_assoc 2 z] at hk
        omega
      have hj : k - z < 2 ^ 30 := by
        have h1 : (k - z) * one < 2 ^ 30 * one := by
          have : (2 * (k - z) + 1) * one = 2 * ((k - z) * one) + one := by
            rw [Nat.add_mul, Nat.mul_assoc, Nat.one_mul]
          omega
        exact Nat.lt_of_mul_lt_mul_right h1
      rw [(hex (j := k - z) (by omega)).2 hy]
      omega

/-- C91, for every number of digits after the point: of two `double`s of the same sign, the one with
the larger absolute value is never printed as a smaller number. -/
theorem C91_order (m : Mem) (buf max : Nat) (hb : buf ≠ 0) (hacc : m.Acc buf max)
    (wd ws : List UInt8) (hw : ∀ x ∈ wd, isDigit x = true) (hs : ∀ x ∈ ws, isDigit x = true)
    (b1 b2 : BitVec 64) (hf1 : IsFinite b1) (hf2 : IsFinite b2) (hle : absUnits b1 ≤ absUnits b2)
    (hlt : absUnits b2 < 2 ^ 63 * 2 ^ 1074) (N : Nat) (hN : N = numVal ws % 2 ^ 32) (h0 : 1 ≤ N)
    (hmax : numVal wd % 2 ^ 32 + N + 32 ≤ max) :
    ∃ I1 F1 I2 F2, Prints m buf max wd ws b1 I1 F1 ∧ Prints m buf max wd ws b2 I2 F2 ∧
      F1 < 10 ^ N ∧ F2 < 10 ^ N ∧ I1 * 10 ^ N + F1 ≤ I2 * 10 ^ N + F2 := by
  have eo : (2 : Nat) ^ 1074 = one := rfl
  rw [eo] at hlt
  have p1 : 10 ^ N % 2 ^ 32 < 2 ^ 32 := Nat.mod_lt _ (Nat.two_pow_pos 32)
  have p2 : 10 ^ N % 2 ^ 32 ≤ 10 ^ N := Nat.mod_le _ _
  have p3 : 0 < 10 ^ N := Nat.pow_pos (by omega)
  have hq1 := frac_le (d := absUnits b1 % one) (Nat.mod_lt _ one_pos) p1 (by omega)
  have hq2 := frac_le (d := absUnits b2 % one) (Nat.mod_lt _ one_pos) p1 (by omega)
  refine ⟨_, _, _, _, prints_frac m buf max hb hacc wd ws hw hs b1 hf1 (by omega) N _ _ hN (by omega)
    hmax rfl rfl hq1, prints_frac m buf max hb hacc wd ws hw hs b2 hf2 hlt N _ _ hN (by omega) hmax
    rfl rfl hq2, ?_, ?_, ?_⟩
  · split <;> omega
  · split <;> omega
  · have hi : absUnits b1 / one ≤ absUnits b2 / one := Nat.div_le_div_right hle
    have hq : absUnits b1 / one = absUnits b2 / one →
        rnd (rnd (absUnits b1 % one * (10 ^ N % 2 ^ 32)) + half) / one ≤
          rnd (rnd (absUnits b2 % one * (10 ^ N % 2 ^ 32)) + half) / one := by
      intro e
      have d1 := Nat.div_add_mod (absUnits b1) one
      have d2 := Nat.div_add_mod (absUnits b2) one
      rw [e] at d1
      refine Nat.div_le_div_right (rnd_mono (Nat.add_le_add_right (rnd_mono
        (Nat.mul_le_mul_right _ (by omega))) _))
    generalize rnd (rnd (absUnits b1 % one * (10 ^ N % 2 ^ 32)) + half) / one = q1 at *
    generalize rnd (rnd (absUnits b2 % one * (10 ^ N % 2 ^ 32)) + half) / one = q2 at *
    generalize 10 ^ N % 2 ^ 32 = s at *
    generalize absUnits b1 / one = i1 at *
    generalize absUnits b2 / one = i2 at *
    rcases Nat.lt_or_eq_of_le hi with hi | hi
    · have h1 : i1 * 10 ^ N + 10 ^ N ≤ i2 * 10 ^ N := by
        rw [← Nat.succ_mul]; exact Nat.mul_le_mul_right _ hi
      split <;> split <;> (try simp only [Nat.add_mul, Nat.one_mul]) <;> omega
    · have hq := hq hi
      subst hi
      split <;> split <;> (try simp only [Nat.add_mul, Nat.one_mul]) <;> omega

/-- C91 fails for 10 and more digits after the point: then every value with a fraction from 0.5 to 0.9
is printed as a number that differs from it by more than 0.05. -/
theorem C91_many_digits_violated (m : Mem) (buf max : Nat) (hb : buf ≠ 0) (hacc : m.Acc buf max)
    (wd ws : List UInt8) (hw : ∀ x ∈ wd, isDigit x = true) (hs : ∀ x ∈ ws, isDigit x = true)
    (b : BitVec 64) (hf : IsFinite b) (hlt : absUnits b < 2 ^ 63 * 2 ^ 1074) (N : Nat)
    (hN : N = numVal ws % 2 ^ 32) (h10 : 10 ≤ N)
    (hmax : numVal wd % 2 ^ 32 + N + 32 ≤ max)
    (hlo : 2 ^ 1074 ≤ 2 * (absUnits b % 2 ^ 1074))
    (hhi : 10 * (absUnits b % 2 ^ 1074) ≤ 9 * 2 ^ 1074) :
    ∃ I F, Prints m buf max wd ws b I F ∧ F < 10 ^ N ∧
      (20 * ((I * 10 ^ N + F) * 2 ^ 1074) > 20 * (absUnits b * 10 ^ N) + 2 ^ 1074 * 10 ^ N ∨
       20 * (absUnits b * 10 ^ N) > 20 * ((I * 10 ^ N + F) * 2 ^ 1074) + 2 ^ 1074 * 10 ^ N) := by
  have eo : (2 : Nat) ^ 1074 = one := rfl
  rw [eo] at hlt hlo hhi ⊢
  have p1 : 10 ^ N % 2 ^ 32 < 2 ^ 32 := Nat.mod_lt _ (Nat.two_pow_pos 32)
  have p2 : 10 ^ 10 ≤ 10 ^ N := Nat.pow_le_pow_right (by omega) h10
  have hqs := frac_le (d := absUnits b % one) (Nat.mod_lt _ one_pos) p1 (by omega)
  refine ⟨_, _, prints_frac m buf max hb hacc wd ws hw hs b hf hlt N _ _ hN (by omega) hmax rfl rfl hqs,
    ?_, ?_⟩
  · split <;> omega
  · rw [split_units (absUnits b) (10 ^ N)]
    generalize rnd (rnd (absUnits b % one * (10 ^ N % 2 ^ 32)) + half) / one = q at *
    generalize 10 ^ N % 2 ^ 32 = s at *
    have ho : 0 < one * 10 ^ N := Nat.mul_pos one_pos (by omega)
    have hlo' : one * 10 ^ N ≤ 2 * (absUnits b % one * 10 ^ N) := by
      rw [← Nat.mul_assoc]; exact Nat.mul_le_mul_right _ hlo
    have hhi' : 10 * (absUnits b % one * 10 ^ N) ≤ 9 * (one * 10 ^ N) := by
      rw [← Nat.mul_assoc, ← Nat.mul_assoc]; exact Nat.mul_le_mul_right _ hhi
    have hc : 10 ^ N * one = one * 10 ^ N := Nat.mul_comm _ _
    split
    · left
      simp only [Nat.add_mul, Nat.one_mul, Nat.add_zero, Nat.zero_mul, hc]
      omega
    · right
      have hq : 10 ^ 10 * (q * one) ≤ 2 ^ 32 * (one * 10 ^ N) := by
        have : 10 ^ 10 * q ≤ 2 ^ 32 * 10 ^ N := by omega
        calc 10 ^ 10 * (q * one) = 10 ^ 10 * q * one := by rw [Nat.mul_assoc]
          _ ≤ 2 ^ 32 * 10 ^ N * one := Nat.mul_le_mul_right _ this
          _ = 2 ^ 32 * (one * 10 ^ N) := by rw [Nat.mul_assoc, hc]
      simp only [Nat.add_mul]
      omega

/-- Without a number of digits the text is the integer part: the value is cut off, not rounded. -/
theorem C91_cut_off (m : Mem) (buf max : Nat) (hb : buf ≠ 0) (hacc : m.Acc buf max)
    (wd : List UInt8) (hw : ∀ x ∈ wd, isDigit x = true) (b : BitVec 64) (hf : IsFinite b)
    (hlt : absUnits b < 2 ^ 63 * 2 ^ 1074) (hmax : numVal wd % 2 ^ 32 + 32 ≤ max) :
    ∃ I st out, I * 2 ^ 1074 ≤ absUnits b ∧ absUnits b < (I + 1) * 2 ^ 1074 ∧
      out = (if b.msb = true ∧ absUnits b ≠ 0 then [45] else []) ++
        padTo (numVal wd % 2 ^ 32) (if wd.head? = some 48 then 48 else 32) (dec I) ∧
      snprintf buf max (37 :: (wd ++ [102]) ++ [0]) [.dbl (ofBits b)] ⟨m, []⟩ =
        (.ok (buf + out.length + 1), st) ∧
      (∀ i (h : i < out.length), st.mem (buf + i) = some out[i]) ∧
      st.mem (buf + out.length) = some 0 := by
  have eo : (2 : Nat) ^ 1074 = one := rfl
  rw [eo] at hlt ⊢
  have hd : absUnits b / one < 2 ^ 63 := by rwa [Nat.div_lt_iff_lt_mul one_pos]
  obtain ⟨f, hfe, hneg, hint, hfrac⟩ := ofMag_eq (neg := b.msb) (absUnits_form b) hlt
  rw [← ofBits_finite hf] at hfe
  have hc := Conv.dbl (m := m) (lo := buf) (hi := buf + max)
    (d := ⟨if wd.head? = some 48 then 48 else 32, numVal wd % 2 ^ 32, [], 0, 102⟩) (slen := none)
    (f := f) (fr := 0#64) (args := []) rfl hint (fun h => absurd rfl h)
  have htext : dblText ⟨if wd.head? = some 48 then 48 else 32, numVal wd % 2 ^ 32, [], 0, 102⟩ f
      (BitVec.ofNat 64 (absUnits b / one)) 0#64 =
      (if b.msb = true ∧ absUnits b ≠ 0 then [45] else []) ++
      padTo (numVal wd % 2 ^ 32) (if wd.head? = some 48 then 48 else 32) (dec (absUnits b / one)) := by
    unfold dblText
    have hn : (if f.neg = true then [45] else ([] : List UInt8)) =
        if b.msb = true ∧ absUnits b ≠ 0 then [45] else [] := by
      rw [hneg]; simp only [Bool.and_eq_true, decide_eq_true_eq]
    have t1 : (BitVec.ofNat 64 (absUnits b / one)).toNat = absUnits b / one := by
      rw [BitVec.toNat_ofNat, Nat.mod_eq_of_lt (by omega)]
    simp only [hn, t1, if_true]
  rw [htext, ← hfe] at hc
  have hl1 : (dec (absUnits b / one)).length ≤ 20 :=
    ((C08_decimal_roundtrip _ 0).2.2.1 20 (by omega)).mpr (by omega)
  have hp := parse_simple wd [] 102 hw (by simp) (by decide) (by decide) (by decide)
  rw [List.append_nil] at hp
  obtain ⟨st, h1, h2, h3⟩ := one_directive hb hacc hp (by simp) hc (by
    simp only [List.length_append, padTo, List.length_replicate]
    have : (if b.msb = true ∧ absUnits b ≠ 0 then [45] else ([] : List UInt8)).length ≤ 1 := by
      split <;> simp
    omega)
  have hdm := Nat.div_add_mod (absUnits b) one
  have hml := Nat.mod_lt (absUnits b) one_pos
  rw [Nat.mul_comm] at hdm
  exact ⟨_, st, _, by omega, by rw [Nat.add_mul, Nat.one_mul]; omega, rfl, h1, h2, h3⟩

theorem ub_bind {α β : Type} {x : FM α} {f : α → FM β} {s : LSt} (h : (x s).1 = .ub) :
    ((x >>= f) s).1 = .ub := by
  rw [FM.bind_def]
  generalize x s = r at h
  obtain ⟨r, s'⟩ := r
  cases h
  rfl

/-- C91 fails for infinities, NaNs and values of `2^63` and more: the conversion to an integer is
undefined. -/
theorem C91_large_violated (m : Mem) (buf max : Nat) (hmax : 0 < max) (hacc : m.Acc buf max)
    (wd ws : List UInt8) (hw : ∀ x ∈ wd, isDigit x = true) (hs : ∀ x ∈ ws, isDigit x = true)
    (b : BitVec 64) (hf : ¬ IsFinite b ∨ 2 ^ 63 * 2 ^ 1074 ≤ absUnits b) :
    (snprintf buf max (37 :: (wd ++ 46 :: ws ++ [102]) ++ [0]) [.dbl (ofBits b)] ⟨m, []⟩).1 = .ub := by
  have eo : (2 : Nat) ^ 1074 = one := rfl
  rw [eo] at hf
  have hint : (ofBits b).int = none := by
    unfold ofBits
    by_cases h : expo b = 2047
    · rw [if_pos h]
    · have h2 : 2 ^ 63 * one ≤ absUnits b := by
        rcases hf with hf | hf
        · exact absurd ((finite_iff b).mpr hf) h
        · exact hf
      rw [if_neg h, mag_eq]
      show toInt64 (absUnits b) = none
      unfold toInt64
      rw [if_neg]
      rw [Nat.div_lt_iff_lt_mul one_pos]; omega
  generalize ofBits b = f at hint
  have h0 := hacc 0 hmax
  rw [Nat.add_zero] at h0
  obtain ⟨c, hc⟩ := Option.isSome_iff_exists.mp h0
  have h46 : isDigit 46 = false ∧ isFlag 46 = false ∧ isDigit 102 = false := by decide
  have e : wd ++ 46 :: ws ++ [102] = wd ++ 46 :: (ws ++ [102]) := by simp
  have hd : (wd ++ 46 :: (ws ++ [102])).dropWhile isDigit = 46 :: (ws ++ [102]) := by
    rw [List.dropWhile_append_of_pos hw]; simp [h46.1]
  have hd3 : (ws ++ [102]).dropWhile isDigit = [102] := by
    rw [List.dropWhile_append_of_pos hs]; simp [h46.2.2]
  have hpk : ∃ c, peek (wd ++ 46 :: (ws ++ [102]) ++ [0]) = .ok c := by
    cases wd with
    | nil => exact ⟨46, rfl⟩
    | cons c r => exact ⟨c, rfl⟩
  obtain ⟨c0, hc0⟩ := hpk
  have hpn := parseNum_eq (wd ++ 46 :: (ws ++ [102])) 0#32
  rw [hd] at hpn
  have hpf : ∀ fl : Flags, fl.slen = none → ∃ fl', parseFlags fl (46 :: (ws ++ [102]) ++ [0]) [.dbl f] =
      .ok (fl', [102, 0], [.dbl f]) := by
    intro fl hsl
    have := parseFlags_eq (46 :: (ws ++ [102])) fl [.dbl f] [.dbl f] none (by simp [h46.2.1, stars, hsl])
    have hd2 : (46 :: (ws ++ [102])).dropWhile isFlag = 46 :: (ws ++ [102]) := by simp [h46.2.1]
    rw [hd2] at this
    simp only [if_true, hd3] at this
    exact ⟨_, this⟩
  rw [e]
  generalize BitVec.ofNat 32 (List.foldl _ _ _) = W at hpn
  obtain ⟨fl', hfl⟩ := hpf ⟨if c0 = 48 then 48 else 32, W, true, 0, false, 0#32, none⟩ rfl
  have hcv : (convF buf (buf + max) fl' f ⟨m, []⟩).1 = .ub := by
    unfold convF
    simp only [hint]
    split <;> simp [FM.bind_def, FM.put, Mem.store, hc, FM.ub]
  have hdir : (directive buf (buf + max) (wd ++ 46 :: (ws ++ [102]) ++ [0]) [.dbl f] ⟨m, []⟩).1 = .ub := by
    unfold directive
    rw [hc0, FM.lift_ok_bind]
    rw [hpn, FM.lift_ok_bind]
    simp only
    rw [hfl, FM.lift_ok_bind]
    show ((FM.lift (.ok (102 : UInt8)) >>= _ : FM _) _).1 = _
    rw [FM.lift_ok_bind]
    refine ub_bind ?_
    unfold convert
    repeat rw [if_neg (by decide)]
    rw [if_pos rfl]
    show ((FM.lift (.ok (f, ([] : List Arg))) >>= _ : FM _) _).1 = _
    rw [FM.lift_ok_bind]
    exact ub_bind hcv
  unfold snprintf vslprintf
  refine ub_bind ?_
  simp only [List.cons_append, List.length_cons]
  unfold vslLoop
  show ((FM.lift (.ok 37) >>= _ : FM _) _).1 = _
  rw [FM.lift_ok_bind, if_pos ⟨by decide, by omega⟩, if_pos rfl]
  exact ub_bind hdir

/-- Memory for the examples: 64 accessible bytes at 1000. -/
private def dblMem : Mem := fun a => if 1000 ≤ a ∧ a < 1064 then some 0xAA else none

private theorem dblMem_acc : dblMem.Acc 1000 64 := by
  intro i hi
  have : 1000 ≤ 1000 + i ∧ 1000 + i < 1064 := by omega
  simp [dblMem, this]

/-- C91 fails next to a tie: the largest `double` below 0.05 is printed by `%.1f` as `0.1`, although
`0.0` is nearer. -/
theorem C91_nearest_violated (m : Mem) (buf max : Nat) (hb : buf ≠ 0) (hacc : m.Acc buf max)
    (hmax : 33 ≤ max) :
    Prints m buf max [] [49] 0x3fa9999999999999#64 0 1 ∧
    2 * (1 * 2 ^ 1074) > 2 * (absUnits 0x3fa9999999999999#64 * 10) + 2 ^ 1074 := by
  refine ⟨?_, by decide +kernel⟩
  have h := prints_frac m buf max hb hacc [] [49] (by decide) (by decide) 0x3fa9999999999999#64
    (by decide) (by decide +kernel) 1 10 1 (by decide) (by decide) (by
      rw [show numVal [] % 2 ^ 32 = 0 from rfl]; omega) (by decide) (by decide +kernel) (by decide)
  rw [if_neg (by decide), if_neg (by decide),
    show absUnits 0x3fa9999999999999#64 / one = 0 by decide +kernel] at h
  exact h

/-- `%08.5f` of -0.999996 is `-00000001.00000`: the carry reaches the integer part -/
example : Prints dblMem 1000 64 [48, 56] [53] 0xbfeffff79c842fa5#64 1 0 := by
  have h := prints_frac dblMem 1000 64 (by decide) dblMem_acc [48, 56] [53] (by decide) (by decide)
    0xbfeffff79c842fa5#64 (by decide) (by decide +kernel) 5 100000 100000 (by decide) (by decide)
    (by decide) (by decide) (by decide +kernel) (by decide)
  rw [if_pos rfl, if_pos rfl, show absUnits 0xbfeffff79c842fa5#64 / one = 0 by decide +kernel] at h
  exact h

/-- `%.1f` of 1.2 satisfies the hypotheses of `C91_rounded_partial` -/
example : ∃ I F, Prints dblMem 1000 64 [] [49] 0x3ff3333333333333#64 I F ∧ F < 10 ^ 1 :=
  let ⟨I, F, h, h2, _⟩ := C91_rounded_partial dblMem 1000 64 (by decide) dblMem_acc [] [49] (by decide)
    (by decide) 0x3ff3333333333333#64 (by decide) (by decide +kernel) 1 (by decide) (by decide)
    (by decide) (by decide)
  ⟨I, F, h, h2⟩

/-- 1.2 and 2.5 in order -/
example : ∃ I1 F1 I2 F2, Prints dblMem 1000 64 [] [49] 0x3ff3333333333333#64 I1 F1 ∧
    Prints dblMem 1000 64 [] [49] 0x4004000000000000#64 I2 F2 ∧ I1 * 10 ^ 1 + F1 ≤ I2 * 10 ^ 1 + F2 :=
  let ⟨I1, F1, I2, F2, h1, h2, _, _, h⟩ := C91_order dblMem 1000 64 (by decide) dblMem_acc [] [49]
    (by decide) (by decide) 0x3ff3333333333333#64 0x4004000000000000#64 (by decide) (by decide)
    (by decide +kernel) (by decide +kernel) 1 (by decide) (by decide) (by decide)
  ⟨I1, F1, I2, F2, h1, h2, h⟩

/-- `%.10f` of 0.75 -/
example : Prints dblMem 1000 64 [] [49, 48] 0x3fe8000000000000#64 0 1057549056 := by
  have h := prints_frac dblMem 1000 64 (by decide) dblMem_acc [] [49, 48] (by decide) (by decide)
    0x3fe8000000000000#64 (by decide) (by decide +kernel) 10 1410065408 1057549056 (by decide)
    (by decide) (by decide) (by decide) (by decide +kernel) (by decide)
  rw [if_neg (by decide), if_neg (by decide),
    show absUnits 0x3fe8000000000000#64 / one = 0 by decide +kernel] at h
  exact h

/-- `%.32f` of 0.75 is `1.000…` -/
example : IsFinite 0x3fe8000000000000#64 ∧ absUnits 0x3fe8000000000000#64 < 2 ^ 63 * 2 ^ 1074 ∧
    2 ^ 1074 ≤ 2 * (absUnits 0x3fe8000000000000#64 % 2 ^ 1074) ∧
    10 * (absUnits 0x3fe8000000000000#64 % 2 ^ 1074) ≤ 9 * 2 ^ 1074 ∧ 10 ≤ numVal [51, 50] ∧
    10 ^ 32 % 2 ^ 32 = 0 := ⟨by decide, by decide +kernel, by decide +kernel, by decide +kernel,
      by decide, by decide +kernel⟩

/-- `%f` of 0.75 prints `0` -/
example : absUnits 0x3fe8000000000000#64 / 2 ^ 1074 = 0 ∧ dec 0 = [48] := ⟨by decide +kernel, by decide⟩

/-- `2^63` -/
example : 2 ^ 63 * 2 ^ 1074 ≤ absUnits 0x43e0000000000000#64 := by decide +kernel

end Verif.Props
