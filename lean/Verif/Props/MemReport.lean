import Verif.Model.MemReport
import Verif.Props.Double
import Verif.Props.Printf

set_option backward.isDefEq.respectTransparency false

/-! Property C92: what `memory::init` prints about the memory of the machine. -/

namespace Verif.MemReport
open Verif Verif.Format Verif.Spec Verif.Spec.Printf Verif.Printf Verif.Double

/-- `"Address:<high>,<low>\tLength:<high>,<low>\tType:<type>\n"` in decimal. -/
def lineText (e : Entry) : List UInt8 :=
  [65, 100, 100, 114, 101, 115, 115, 58] ++ dec e.address2.toNat ++ [44] ++ dec e.address1.toNat ++
  [9, 76, 101, 110, 103, 116, 104, 58] ++ dec e.length2.toNat ++ [44] ++ dec e.length1.toNat ++
  [9, 84, 121, 112, 101, 58] ++ dec e.type.toNat ++ [10]

/-- The entries printed: those before the first with a type above 4, at most 16. -/
def shown (table : Nat → Entry) : List Entry :=
  ((List.range 16).map table).takeWhile (fun e => decide (e.type.toNat ≤ 4))

/-- Bytes of RAM (type 1) in a list of entries. -/
def ramBytes (es : List Entry) : Nat :=
  ((es.filter (fun e => e.type.toNat = 1)).map (fun e => e.length2.toNat * 2 ^ 32 + e.length1.toNat)).sum

/-- `"TotalMem = <megabytes with five decimals> MB\n"`, `r` being the number of units of 10^-5 MB. -/
def totalText (r : Nat) : List UInt8 :=
  [84, 111, 116, 97, 108, 77, 101, 109, 32, 61, 32] ++ dec (r / 10 ^ 5) ++ [46] ++
  padTo 5 48 (dec (r % 10 ^ 5)) ++ [32, 77, 66, 10]

/-! ### The texts of the formats -/

theorem renders_lit {m : Mem} {lo hi : Nat} {fmt out : List UInt8} {args : List Arg} (l : List UInt8)
    (h0 : (0 : UInt8) ∉ l) (h37 : (37 : UInt8) ∉ l) (hr : Renders m lo hi fmt args out) :
    Renders m lo hi (l ++ fmt) args (l ++ out) := by
  induction l with
  | nil => exact hr
  | cons c r ih =>
    simp only [List.mem_cons, not_or] at h0 h37
    exact .lit (fun e => h0.1 e.symm) (fun e => h37.1 e.symm) (ih h0.2 h37.2)

theorem renders_ud {m : Mem} {lo hi : Nat} {fmt out : List UInt8} {args : List Arg} (v : BitVec 32)
    (hr : Renders m lo hi fmt args out) :
    Renders m lo hi (37 :: 117 :: 100 :: fmt) (.i32 v :: args) (dec v.toNat ++ out) := by
  refine .dir (d := ⟨32, 0, [117], 0, 100⟩) (rest := fmt) (slen := none) (args1 := .i32 v :: args)
    (args2 := args) (by rfl) (by rfl) ?_ hr
  have := Conv.uint32 (m := m) (lo := lo) (hi := hi) (d := ⟨32, 0, [117], 0, 100⟩) (slen := none)
    (v := v) (args := args) (by decide) (by decide)
  have e : intText 32 (Dir.hex ⟨32, 0, [117], 0, 100⟩) 0 (v.toNat : Int) = dec v.toNat := by
    unfold intText
    rw [if_neg (by omega), Int.natAbs_natCast]
    simp [Dir.hex, numText, padTo]
  rw [← e]
  exact this

theorem renders_line (m : Mem) (lo hi : Nat) (e : Entry) :
    Renders m lo hi fmtLine (lineArgs e) (lineText e) := by
  have h := renders_lit (m := m) (lo := lo) (hi := hi) [65, 100, 100, 114, 101, 115, 115, 58] (by decide)
    (by decide) (renders_ud e.address2 (renders_lit [44] (by decide) (by decide)
    (renders_ud e.address1 (renders_lit [9, 76, 101, 110, 103, 116, 104, 58] (by decide) (by decide)
    (renders_ud e.length2 (renders_lit [44] (by decide) (by decide)
    (renders_ud e.length1 (renders_lit [9, 84, 121, 112, 101, 58] (by decide) (by decide)
    (renders_ud e.type (renders_lit [10] (by decide) (by decide) (.done (args := []))))))))))))
  have e1 : lineText e = [65, 100, 100, 114, 101, 115, 115, 58] ++ (dec e.address2.toNat ++ ([44] ++
      (dec e.address1.toNat ++ ([9, 76, 101, 110, 103, 116, 104, 58] ++ (dec e.length2.toNat ++ ([44] ++
      (dec e.length1.toNat ++ ([9, 84, 121, 112, 101, 58] ++ (dec e.type.toNat ++ ([10] ++ [])))))))))) := by
    simp only [lineText, List.append_assoc, List.append_nil]
  rw [e1]
  exact h

theorem dec_no_nul (n : Nat) : (0 : UInt8) ∉ dec n := fun h =>
  absurd ((Props.C08_decimal_roundtrip n 0).2.2.2 0 h) (by decide)

theorem dec_length32 (v : BitVec 32) : (dec v.toNat).length ≤ 10 :=
  ((Props.C08_decimal_roundtrip v.toNat 0).2.2.1 10 (by omega)).mpr (by have := v.isLt; omega)

theorem line_ok (e : Entry) : (lineText e).length < 1024 ∧ (0 : UInt8) ∉ lineText e := by
  have h1 := dec_length32 e.address2
  have h2 := dec_length32 e.address1
  have h3 := dec_length32 e.length2
  have h4 := dec_length32 e.length1
  have h5 := dec_length32 e.type
  refine ⟨?_, ?_⟩
  · simp only [lineText, List.length_append, List.length_cons, List.length_nil]; omega
  · simp only [lineText, List.mem_append, not_or]
    simp only [dec_no_nul, not_false_eq_true, true_and]
    decide

/-! ### One call of printf -/

theorem printf_step (font : Vesa.Font) (buf : Nat) (hb : buf ≠ 0) (s : St) (hacc : s.mem.Acc buf bufSize)
    (fmt : List UInt8) (args : List Arg) (out : List UInt8)
    (hr : Renders s.mem buf (buf + bufSize) fmt args out) (hlen : out.length < 1024)
    (h0 : (0 : UInt8) ∉ out) :
    ∃ n s', (∀ fuel, n ≤ fuel → printf font buf fuel (fmt ++ [0]) args s = .ok s') ∧
      s'.scr = Vesa.colorPrint font white (out.map (·.toBitVec)) s.scr ∧
      IrqGuard.ifSet s'.flags = IrqGuard.ifSet s.flags ∧ s'.mem.Acc buf bufSize ∧
      ∀ a, ¬ (buf ≤ a ∧ a < buf + 1024) → s'.mem a = s.mem a := by
  obtain ⟨l, h1, h2, h3⟩ := Props.C06_nul_terminated_partial s.mem buf bufSize fmt args out hb hacc hr hlen
  have hm := (Props.C05_snprintf_bounds s.mem buf bufSize _ _ _ _ h1).2.1
  obtain ⟨log, hv⟩ := vslprintf_run (m := s.mem) (buf := buf) (last := buf + bufSize)
    (by rwa [Nat.add_sub_cancel_left]) hb (by omega) hr []
  have hl : l = ⟨wr s.mem buf ((out ++ [0]).take (buf + bufSize - buf)), log⟩ := by
    have h1' : vslprintf buf (buf + bufSize) (fmt ++ [0]) args ⟨s.mem, []⟩ = _ := h1
    rw [hv] at h1'
    exact (Prod.mk.inj h1').2.symm
  obtain ⟨n, s', k1, k2, k3, k4⟩ := printf_of_mem' font buf (fmt ++ [0]) args s _ l h1 out (by omega) h0 h2 h3
  refine ⟨n, s', k1, k3, k4, ?_, fun a ha => by rw [k2]; exact hm a ha⟩
  intro i hi
  rw [k2, hl]
  exact wr_isSome (hacc i hi)

theorem colorPrint_append (font : Vesa.Font) (c : Vesa.Color) (a b : List (BitVec 8)) (s : Vesa.Screen) :
    Vesa.colorPrint font c (a ++ b) s = Vesa.colorPrint font c b (Vesa.colorPrint font c a s) := by
  unfold Vesa.colorPrint; rw [List.foldl_append]

/-! ### The sum -/

/-- A sum of less than `2^53` bytes is exact. -/
theorem addRam_eq {T : Nat} {e : Entry} (h : T + ramBytes [e] < 2 ^ 53) :
    addRam (T * one) e = (T + ramBytes [e]) * one := by
  unfold addRam
  by_cases ht : e.type = 1#32
  · have h1 : e.type.toNat = 1 := by rw [ht]; rfl
    have hr : ramBytes [e] = e.length2.toNat * 2 ^ 32 + e.length1.toNat := by
      simp [ramBytes, h1]
    rw [hr] at h ⊢
    have hsh : ((e.length2.setWidth 64 : BitVec 64) <<< 32).toNat = e.length2.toNat * 2 ^ 32 := by
      have := e.length2.isLt
      rw [BitVec.toNat_shiftLeft, BitVec.toNat_setWidth, Nat.shiftLeft_eq]
      omega
    rw [if_pos ht]
    simp only [hsh]
    rw [← Nat.add_mul, show rnd ((T + e.length1.toNat) * one) = (T + e.length1.toNat) * one from
      rnd_exact (k := 1074) (by omega), ← Nat.add_mul]
    rw [show T + e.length1.toNat + e.length2.toNat * 2 ^ 32 =
      T + (e.length2.toNat * 2 ^ 32 + e.length1.toNat) by omega]
    exact rnd_exact (k := 1074) (by omega)
  · have h1 : ¬ e.type.toNat = 1 := fun h1 => ht (BitVec.eq_of_toNat_eq h1)
    have hr : ramBytes [e] = 0 := by simp [ramBytes, h1]
    rw [if_neg ht, hr, Nat.add_zero]

theorem ramBytes_cons (e : Entry) (es : List Entry) : ramBytes (e :: es) = ramBytes [e] + ramBytes es := by
  unfold ramBytes
  by_cases h : e.type.toNat = 1 <;> simp [h]

/-- The entries that `n` iterations from entry `i` print. -/
def shownFrom (table : Nat → Entry) (i n : Nat) : List Entry :=
  ((List.range' i n).map table).takeWhile (fun e => decide (e.type.toNat ≤ 4))

theorem shownFrom_succ (table : Nat → Entry) (i n : Nat) : shownFrom table i (n + 1) =
    if (table i).type.toNat ≤ 4 then table i :: shownFrom table (i + 1) n else [] := by
  unfold shownFrom
  rw [List.range'_succ, List.map_cons, List.takeWhile_cons]
  simp only [decide_eq_true_eq]

theorem loop_ok (font : Vesa.Font) (buf : Nat) (hb : buf ≠ 0) (table : Nat → Entry) (n : Nat) :
    ∀ (i T : Nat) (s : St), s.mem.Acc buf bufSize → T + ramBytes (shownFrom table i n) < 2 ^ 53 →
    ∃ k s', (∀ fuel, k ≤ fuel → loop font buf fuel table n i (T * one) s =
        .ok ((T + ramBytes (shownFrom table i n)) * one, s')) ∧
      s'.scr = Vesa.colorPrint font white
        (((shownFrom table i n).flatMap lineText).map (·.toBitVec)) s.scr ∧
      IrqGuard.ifSet s'.flags = IrqGuard.ifSet s.flags ∧ s'.mem.Acc buf bufSize ∧
      ∀ a, ¬ (buf ≤ a ∧ a < buf + 1024) → s'.mem a = s.mem a := by
  induction n with
  | zero =>
    intro i T s hacc h
    exact ⟨0, s, fun _ _ => rfl, rfl, rfl, hacc, fun _ _ => rfl⟩
  | succ n ih =>
    intro i T s hacc h
    rw [shownFrom_succ] at h ⊢
    by_cases ht : (table i).type.toNat ≤ 4
    · have hnt : ¬ 4#32 < (table i).type := by
        rw [BitVec.lt_def]; show ¬ 4 < _; omega
      rw [if_pos ht] at h ⊢
      rw [ramBytes_cons] at h ⊢
      obtain ⟨n1, s1, a1, a2, a3, a4, a5⟩ := printf_step font buf hb s hacc fmtLine (lineArgs (table i))
        (lineText (table i)) (renders_line _ _ _ _) (line_ok _).1 (line_ok _).2
      obtain ⟨n2, s2, b1, b2, b3, b4, b5⟩ := ih (i + 1) (T + ramBytes [table i]) s1 a4 (by omega)
      refine ⟨n1 + n2, s2, ?_, ?_, by rw [b3, a3], b4, fun a ha => by rw [b5 a ha, a5 a ha]⟩
      · intro fuel hf
        unfold loop
        rw [if_neg hnt, a1 fuel (by omega), Res.ok_bind, addRam_eq (by omega), b1 fuel (by omega),
          Nat.add_assoc]
      · rw [b2, a2, List.flatMap_cons, List.map_append, colorPrint_append]
    · have hnt : 4#32 < (table i).type := by
        rw [BitVec.lt_def]; show 4 < _; omega
      rw [if_neg ht]
      refine ⟨0, s, fun fuel _ => ?_, rfl, rfl, hacc, fun _ _ => rfl⟩
      unfold loop
      rw [if_pos hnt]
      rfl

/-! ### The total -/

theorem carry_split {i q : Nat} (h : q ≤ 10 ^ 5) :
    (if q = 10 ^ 5 then i + 1 else i) = (i * 10 ^ 5 + q) / 10 ^ 5 ∧
    (if q = 10 ^ 5 then 0 else q) = (i * 10 ^ 5 + q) % 10 ^ 5 := by
  constructor <;> split <;> omega

/-- The fixed text around the number of the total. -/
theorem renders_total_of {m : Mem} {lo hi : Nat} {a : Arg} {t : List UInt8}
    (hc : Conv m lo hi ⟨32, 0, [], 5, 102⟩ none [a] t []) :
    Renders m lo hi fmtTotal [a]
      ([84, 111, 116, 97, 108, 77, 101, 109, 32, 61, 32] ++ (t ++ ([32, 77, 66, 10] ++ []))) :=
  renders_lit [84, 111, 116, 97, 108, 77, 101, 109, 32, 61, 32] (by decide) (by decide)
    (Renders.dir (fmt := [46, 53, 102, 32, 77, 66, 10]) (rest := [32, 77, 66, 10]) (slen := none) (by rfl) (by rfl) hc
      (renders_lit (m := m) (lo := lo) (hi := hi) [32, 77, 66, 10] (by decide) (by decide)
        (.done (args := []))))

theorem totalText_eq (n : Nat) (p : Prop) [Decidable p] :
    totalText n =
      [84, 111, 116, 97, 108, 77, 101, 109, 32, 61, 32] ++
      (((if false = true ∧ p then [45] else []) ++
        padTo 0 32 (dec (n / 10 ^ 5)) ++
        46 :: padTo 5 48 (dec (n % 10 ^ 5))) ++ ([32, 77, 66, 10] ++ [])) := by
  rw [if_neg (by simp)]
  simp only [totalText, padTo, Nat.zero_sub, List.replicate_zero, List.nil_append, List.append_assoc,
    List.append_nil, List.cons_append]

/-- The megabytes are exact, and so is their product with 10^5. -/
theorem renders_total (m : Mem) (lo hi : Nat) {T : Nat} (hT : T < 2 ^ 53) :
    Renders m lo hi fmtTotal [.dbl (ofMag false (rnd (rnd (T * one / 1024) / 1024)))]
      (totalText ((T * 10 ^ 5 + 2 ^ 19) / 2 ^ 20)) := by
  have e1 : T * one / 1024 = T * 2 ^ 1064 := by
    rw [show one = 2 ^ 1064 * 1024 by unfold one; rw [show (1024 : Nat) = 2 ^ 10 from rfl, ← Nat.pow_add],
      ← Nat.mul_assoc, Nat.mul_div_cancel _ (by omega)]
  have e2 : T * 2 ^ 1064 / 1024 = T * 2 ^ 1054 := by
    rw [show (2 : Nat) ^ 1064 = 2 ^ 1054 * 1024 by rw [show (1024 : Nat) = 2 ^ 10 from rfl, ← Nat.pow_add],
      ← Nat.mul_assoc, Nat.mul_div_cancel _ (by omega)]
  have e3 : rnd (rnd (T * one / 1024) / 1024) = T * 2 ^ 1054 := by
    rw [e1, rnd_exact hT, e2, rnd_exact hT]
  have eo : one = 2 ^ 20 * 2 ^ 1054 := by unfold one; rw [← Nat.pow_add]
  have eh : half = 2 ^ 19 * 2 ^ 1054 := by unfold half; rw [← Nat.pow_add]
  have ediv : T * 2 ^ 1054 / one = T / 2 ^ 20 := by
    rw [eo]; exact Nat.mul_div_mul_right _ _ (Nat.two_pow_pos 1054)
  have emod : T * 2 ^ 1054 % one = T % 2 ^ 20 * 2 ^ 1054 := by
    rw [eo]; exact Nat.mul_mod_mul_right _ _ _
  have hq : (T % 2 ^ 20 * 10 ^ 5 + 2 ^ 19) / 2 ^ 20 =
      rnd (rnd (T * 2 ^ 1054 % one * 10 ^ 5) + half) / one := by
    rw [emod, Nat.mul_right_comm, rnd_exact (by omega), eh, ← Nat.add_mul, rnd_exact (by omega), eo]
    exact (Nat.mul_div_mul_right _ _ (Nat.two_pow_pos 1054)).symm
  have hlt : T * 2 ^ 1054 < 2 ^ 63 * one := by
    have h1 : T * 2 ^ 1054 < 2 ^ 53 * 2 ^ 1054 := Nat.mul_lt_mul_of_pos_right hT (Nat.two_pow_pos 1054)
    have h2 : 2 ^ 53 * 2 ^ 1054 ≤ 2 ^ 63 * one := by
      rw [eo, ← Nat.mul_assoc]; exact Nat.mul_le_mul_right _ (by omega)
    omega
  rw [e3]
  have hc := Props.conv_frac m lo hi 32 0 5 (neg := false) ⟨T, 1054, hT, rfl⟩ hlt (10 ^ 5) _ (by omega)
    (by decide) hq (by omega) []
  rw [ediv] at hc
  have hR : (T * 10 ^ 5 + 2 ^ 19) / 2 ^ 20 =
      T / 2 ^ 20 * 10 ^ 5 + (T % 2 ^ 20 * 10 ^ 5 + 2 ^ 19) / 2 ^ 20 := by
    have hd := Nat.div_add_mod T (2 ^ 20)
    calc (T * 10 ^ 5 + 2 ^ 19) / 2 ^ 20
        = ((2 ^ 20 * (T / 2 ^ 20) + T % 2 ^ 20) * 10 ^ 5 + 2 ^ 19) / 2 ^ 20 := by rw [hd]
      _ = (2 ^ 20 * (T / 2 ^ 20 * 10 ^ 5) + (T % 2 ^ 20 * 10 ^ 5 + 2 ^ 19)) / 2 ^ 20 := by
        rw [Nat.add_mul, Nat.mul_assoc, Nat.add_assoc]
      _ = _ := Nat.mul_add_div (Nat.two_pow_pos 20) _ _
  have hqle : (T % 2 ^ 20 * 10 ^ 5 + 2 ^ 19) / 2 ^ 20 ≤ 10 ^ 5 := by omega
  have hI : (if (T % 2 ^ 20 * 10 ^ 5 + 2 ^ 19) / 2 ^ 20 = 10 ^ 5 then T / 2 ^ 20 + 1 else T / 2 ^ 20) =
      (T * 10 ^ 5 + 2 ^ 19) / 2 ^ 20 / 10 ^ 5 := by
    rw [hR]; exact (carry_split hqle).1
  have hF : (if (T % 2 ^ 20 * 10 ^ 5 + 2 ^ 19) / 2 ^ 20 = 10 ^ 5 then 0 else
      (T % 2 ^ 20 * 10 ^ 5 + 2 ^ 19) / 2 ^ 20) = (T * 10 ^ 5 + 2 ^ 19) / 2 ^ 20 % 10 ^ 5 := by
    rw [hR]; exact (carry_split hqle).2
  rw [hI, hF] at hc
  rw [totalText_eq _ (T * 2 ^ 1054 ≠ 0)]
  exact renders_total_of hc

theorem total_ok {r : Nat} (h : r < 10 ^ 20) :
    (totalText r).length < 1024 ∧ (0 : UInt8) ∉ totalText r := by
  have h1 : (dec (r / 10 ^ 5)).length ≤ 20 :=
    ((Props.C08_decimal_roundtrip _ 0).2.2.1 20 (by omega)).mpr (by omega)
  have h2 : (dec (r % 10 ^ 5)).length ≤ 20 :=
    ((Props.C08_decimal_roundtrip _ 0).2.2.1 20 (by omega)).mpr (by omega)
  refine ⟨?_, ?_⟩
  · simp only [totalText, padTo, List.length_append, List.length_cons, List.length_nil,
      List.length_replicate]
    omega
  · simp only [totalText, padTo, List.mem_append, not_or, List.mem_replicate]
    simp only [dec_no_nul, not_false_eq_true, true_and]
    simp

/-- C92, for less than `2^53` bytes of RAM: `memory::init` prints the heading, one line for each entry
before the first with a type above 4, and the RAM in these entries in megabytes, correctly rounded to
five decimals (a half is rounded up). The interrupt flag is unchanged, and so is memory outside the
buffer of `printf`. -/
theorem C92_report_partial (font : Vesa.Font) (buf : Nat) (hb : buf ≠ 0) (table : Nat → Entry) (s : St)
    (hacc : s.mem.Acc buf bufSize) (hT : ramBytes (shown table) < 2 ^ 53) :
    ∃ n s', (∀ fuel, n ≤ fuel → init font buf fuel table s = .ok s') ∧
      s'.scr = Vesa.colorPrint font white ((fmtHead ++ (shown table).flatMap lineText ++
        totalText ((ramBytes (shown table) * 10 ^ 5 + 2 ^ 19) / 2 ^ 20)).map (·.toBitVec)) s.scr ∧
      IrqGuard.ifSet s'.flags = IrqGuard.ifSet s.flags ∧
      ∀ a, ¬ (buf ≤ a ∧ a < buf + 1024) → s'.mem a = s.mem a := by
  have hsh : shownFrom table 0 16 = shown table := by
    unfold shownFrom shown; rw [List.range_eq_range']
  obtain ⟨n1, s1, a1, a2, a3, a4, a5⟩ := printf_step font buf hb s hacc fmtHead [] fmtHead
    (renders_literal _ _ _ _ _ (by decide) (by decide)) (by decide) (by decide)
  obtain ⟨n2, s2, b1, b2, b3, b4, b5⟩ := loop_ok font buf hb table 16 0 0 s1 a4 (by rw [hsh]; omega)
  have htot := total_ok (r := (ramBytes (shown table) * 10 ^ 5 + 2 ^ 19) / 2 ^ 20) (by omega)
  obtain ⟨n3, s3, c1, c2, c3, c4, c5⟩ := printf_step font buf hb s2 b4 fmtTotal _ _
    (renders_total _ _ _ hT) htot.1 htot.2
  rw [hsh, Nat.zero_mul, Nat.zero_add] at b1
  rw [hsh] at b2
  refine ⟨n1 + n2 + n3, s3, ?_, ?_, by rw [c3, b3, a3], fun a ha => by rw [c5 a ha, b5 a ha, a5 a ha]⟩
  · intro fuel hf
    unfold init
    rw [a1 fuel (by omega), Res.ok_bind, b1 fuel (by omega), Res.ok_bind]
    exact c1 fuel (by omega)
  · rw [c2, b2, a2, List.map_append, List.map_append, colorPrint_append, colorPrint_append]

theorem takeWhile_all {α : Type} {p : α → Bool} {l : List α} (h : ∀ x ∈ l, p x = true) :
    l.takeWhile p = l := by
  have := List.takeWhile_append_of_pos (l₂ := []) h
  simpa using this

/-- C92 fails, the end of the table: an entry with type 0, such as the zeros behind the last entry of
the BIOS, does not end the loop; 16 lines are printed whenever no type is above 4. -/
theorem C92_end_violated (table : Nat → Entry) (k : Nat) (hk : k < 16)
    (hle : ∀ i, i < k → (table i).type.toNat ≤ 4)
    (hz : ∀ i, k ≤ i → i < 16 → table i = ⟨0, 0, 0, 0, 0⟩) :
    (shown table).length = 16 ∧ ∀ i (h : i < (shown table).length), k ≤ i →
      lineText (shown table)[i] = lineText ⟨0, 0, 0, 0, 0⟩ := by
  have hall : shown table = (List.range 16).map table := by
    unfold shown
    refine takeWhile_all ?_
    intro e he
    obtain ⟨i, hi, rfl⟩ := List.mem_map.1 he
    rw [List.mem_range] at hi
    by_cases h : i < k
    · exact decide_eq_true (hle i h)
    · rw [hz i (by omega) hi]; decide
  refine ⟨by rw [hall]; simp, ?_⟩
  intro i h hki
  have h16 : i < 16 := by rw [hall] at h; simpa using h
  have : (shown table)[i] = table i := by simp [hall]
  rw [this, hz i hki h16]

/-- 640 KB minus 1 KB and 127 MB of RAM, a reserved area between them. -/
def exTable : Nat → Entry := fun i =>
  if i = 0 then ⟨0, 0, 0x9fc00, 0, 1⟩ else if i = 1 then ⟨0x9fc00, 0, 0x60400, 0, 2⟩
  else if i = 2 then ⟨0x100000, 0, 0x7ee0000, 0, 1⟩ else ⟨0, 0, 0, 0, 0⟩

/-- `TotalMem = 127.49902 MB` -/
example : ramBytes (shown exTable) = 133692416 ∧
    totalText ((ramBytes (shown exTable) * 10 ^ 5 + 2 ^ 19) / 2 ^ 20) =
    [84, 111, 116, 97, 108, 77, 101, 109, 32, 61, 32, 49, 50, 55, 46, 52, 57, 57, 48, 50, 32, 77, 66, 10] := by
  decide +kernel

/-- the same on a console -/
example (font : Vesa.Font) : ∃ n s', (∀ fuel, n ≤ fuel → init font 4096 fuel exTable (exSt []) = .ok s') ∧
    s'.scr = Vesa.colorPrint font white ((fmtHead ++ (shown exTable).flatMap lineText ++
      totalText ((ramBytes (shown exTable) * 10 ^ 5 + 2 ^ 19) / 2 ^ 20)).map (·.toBitVec)) (exSt []).scr :=
  let ⟨n, s', h1, h2, _⟩ := C92_report_partial font 4096 (by decide) exTable (exSt []) (exSt_acc [])
    (by decide +kernel)
  ⟨n, s', h1, h2⟩

/-- 13 lines of zeros behind the three entries -/
example : (shown exTable).length = 16 :=
  (C92_end_violated exTable 3 (by decide) (by decide) (fun i h _ => by
    unfold exTable; rw [if_neg (by omega), if_neg (by omega), if_neg (by omega)])).1

end Verif.MemReport
