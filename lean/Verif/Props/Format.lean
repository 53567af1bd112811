import Verif.Lemmas.FormatSafe
import Verif.Lemmas.FormatRead

/-!
Properties C05–C09: the formatting functions `vslprintf` and `snprintf`.

A run is `snprintf buf max fmt args ⟨m, []⟩`: from memory `m` with an empty write
log; it yields an outcome and the final memory and log (also when the outcome
is undefined behaviour). The format is a byte list that includes its NUL.
-/

namespace Verif.Props
open Verif Verif.Spec.Printf Verif.Format

/-- A memory for the examples: 64 accessible bytes at 1000, all 0xAA, and the C
string "hi" at 2000. -/
private def fmtMem : Mem := fun a =>
  if 1000 ≤ a ∧ a < 1064 then some 0xAA
  else if a = 2000 then some 104 else if a = 2001 then some 105 else if a = 2002 then some 0
  else none

private theorem fmtMem_acc (n : Nat) (h : n ≤ 64) : fmtMem.Acc 1000 n := by
  intro i hi
  have : 1000 ≤ 1000 + i ∧ 1000 + i < 1064 := by omega
  simp [fmtMem, this]

/-- `"n=%05d %s"` with `-42` and `"hi"` stands for `"n=-00042 hi"`. -/
private theorem exRenders (n : Nat) (hn : n ≤ 64) : Renders fmtMem 1000 (1000 + n)
    [110, 61, 37, 48, 53, 100, 32, 37, 115]
    [.i32 (-42#32), .ptr 2000] [110, 61, 45, 48, 48, 48, 52, 50, 32, 104, 105] := by
  refine .lit (by decide) (by decide) (.lit (by decide) (by decide) ?_)
  refine .dir (d := ⟨48, 5, [], 0, 100⟩) (rest := [32, 37, 115]) (slen := none)
    (args1 := [.i32 (-42#32), .ptr 2000]) (args2 := [.ptr 2000])
    (piece := [45, 48, 48, 48, 52, 50]) (out := [32, 104, 105]) (by rfl) (by rfl) ?_ ?_
  · have := Conv.int32 (m := fmtMem) (lo := 1000) (hi := 1000 + n) (d := ⟨48, 5, [], 0, 100⟩)
      (slen := none) (v := -42#32) (args := [.ptr 2000]) (by decide) (by decide)
    exact this
  · refine .lit (by decide) (by decide) ?_
    refine .dir (d := ⟨32, 0, [], 0, 115⟩) (rest := []) (slen := none)
      (args1 := [.ptr 2000]) (args2 := [])
      (piece := [104, 105]) (out := []) (by rfl) (by rfl) ?_ .done
    refine .str rfl rfl (by decide) ⟨?_, by decide, ?_⟩
    · decide
    · intro i hi
      simp only [List.length_cons, List.length_nil] at hi
      omega

/-! ### C05 -/

/-- C05: whatever the format, the arguments and the memory, and whatever the
outcome, `vslprintf` attempts no write outside `[buf, last)`, leaves memory
outside unchanged, terminates, and returns a position in the buffer. -/
theorem C05_vslprintf_bounds (m : Mem) (buf last : Nat) (hle : buf ≤ last) (fmt : List UInt8)
    (args : List Arg) (r : Res Nat) (st : LSt)
    (hrun : vslprintf buf last fmt args ⟨m, []⟩ = (r, st)) :
    (∀ a ∈ st.log, buf ≤ a ∧ a < last) ∧ (∀ a, ¬ (buf ≤ a ∧ a < last) → st.mem a = m a) ∧
    r ≠ .oof ∧ ∀ p, r = .ok p → buf ≤ p ∧ p ≤ last := by
  have h := vslprintf_safe fmt args buf hle ⟨m, []⟩ (by simp)
  have h2 := vslprintf_noOof buf last fmt args ⟨m, []⟩
  rw [hrun] at h h2
  exact ⟨fun a ha => h.1 a ha, fun a ha => h.2.2 a ha, h2, fun p hp => h.2.1 p hp⟩

/-- C05 for `snprintf`. -/
theorem C05_snprintf_bounds (m : Mem) (buf max : Nat) (fmt : List UInt8)
    (args : List Arg) (r : Res Nat) (st : LSt)
    (hrun : snprintf buf max fmt args ⟨m, []⟩ = (r, st)) :
    (∀ a ∈ st.log, buf ≤ a ∧ a < buf + max) ∧
    (∀ a, ¬ (buf ≤ a ∧ a < buf + max) → st.mem a = m a) ∧
    r ≠ .oof ∧ ∀ p, r = .ok p → buf ≤ p ∧ p ≤ buf + max :=
  C05_vslprintf_bounds m buf (buf + max) (by omega) fmt args r st hrun

/-- a run that fills a 3-byte buffer: three writes -/
example : (snprintf 1000 3 [37, 53, 100, 0] [.i32 7#32] ⟨fmtMem, []⟩).2.log = [1002, 1001, 1000] := by
  decide

/-! ### C06 -/

/-- C06 fails: formatting "abc" into a buffer of 3 bytes succeeds and leaves no
NUL in the buffer. -/
theorem C06_nul_terminated_violated :
    ∃ (m : Mem) (buf max : Nat) (fmt : List UInt8) (p : Nat) (st : LSt),
      0 < max ∧ m.Acc buf max ∧ snprintf buf max fmt [] ⟨m, []⟩ = (.ok p, st) ∧
      ∀ i, i < max → st.mem (buf + i) ≠ some 0 := by
  refine ⟨fmtMem, 1000, 3, [97, 98, 99, 0], 1003, _, by decide, fmtMem_acc 3 (by omega), rfl, ?_⟩
  decide

/-- C06, the part that holds: if the text the format stands for is shorter than
the buffer, the buffer holds exactly that text followed by a NUL. (Missing: texts
of at least `max` bytes, see `C06_terminated_iff`.) -/
theorem C06_nul_terminated_partial (m : Mem) (buf max : Nat) (fmt : List UInt8) (args : List Arg)
    (out : List UInt8) (hb : buf ≠ 0) (hacc : m.Acc buf max)
    (hr : Renders m buf (buf + max) fmt args out) (hlen : out.length < max) :
    ∃ st, snprintf buf max (fmt ++ [0]) args ⟨m, []⟩ = (.ok (buf + out.length + 1), st) ∧
      (∀ i (h : i < out.length), st.mem (buf + i) = some out[i]) ∧
      st.mem (buf + out.length) = some 0 := by
  obtain ⟨log', h⟩ := vslprintf_run (m := m) (buf := buf) (last := buf + max)
    (by rwa [Nat.add_sub_cancel_left]) hb (by omega) hr []
  refine ⟨_, by rw [snprintf, h, Nat.add_sub_cancel_left, Nat.min_eq_left (by omega)]; rfl, ?_, ?_⟩
  · intro i hi
    simp only [wr, Nat.add_sub_cancel_left]
    rw [List.take_of_length_le (by simp; omega), if_pos (by simp; omega),
      List.getElem?_append_left hi, List.getElem?_eq_getElem hi]
  · simp only [wr, Nat.add_sub_cancel_left]
    rw [List.take_of_length_le (by simp; omega), if_pos (by simp)]
    simp

/-- hypotheses of `C06_nul_terminated_partial` -/
example : fmtMem.Acc 1000 20 ∧ ∃ out, Renders fmtMem 1000 (1000 + 20)
    [110, 61, 37, 48, 53, 100, 32, 37, 115] [.i32 (-42#32), .ptr 2000] out ∧ out.length < 20 :=
  ⟨fmtMem_acc 20 (by omega), _, exRenders 20 (by omega), by decide⟩

/-- Exactly when the result is terminated: for a text without embedded NUL, the
buffer contains a NUL afterwards if and only if the text is shorter than the
buffer. -/
theorem C06_terminated_iff (m : Mem) (buf max : Nat) (fmt : List UInt8) (args : List Arg)
    (out : List UInt8) (hb : buf ≠ 0) (hacc : m.Acc buf max)
    (hr : Renders m buf (buf + max) fmt args out) (hz : (0 : UInt8) ∉ out) (p : Nat) (st : LSt)
    (hrun : snprintf buf max (fmt ++ [0]) args ⟨m, []⟩ = (.ok p, st)) :
    (∃ i, i < max ∧ st.mem (buf + i) = some 0) ↔ out.length < max := by
  constructor
  · intro ⟨i, hi, h0⟩
    refine Nat.lt_of_not_le (fun hle => ?_)
    obtain ⟨log', h⟩ := vslprintf_run (m := m) (buf := buf) (last := buf + max)
      (by rwa [Nat.add_sub_cancel_left]) hb (by omega) hr []
    rw [snprintf, h] at hrun
    cases hrun
    simp only [wr, Nat.add_sub_cancel_left] at h0
    rw [if_pos (by simp; omega), List.getElem?_take_of_lt hi,
      List.getElem?_append_left (by omega)] at h0
    exact hz (List.mem_of_getElem? h0)
  · intro hlt
    obtain ⟨st', h, _, h0⟩ := C06_nul_terminated_partial m buf max fmt args out hb hacc hr hlt
    rw [h] at hrun
    cases hrun
    exact ⟨_, hlt, h0⟩

/-! ### C07 -/

/-- C07 fails: a format ending in a lone `%` makes the result depend on the
bytes after its NUL. -/
theorem C07_no_overread_violated :
    ∃ (m : Mem) (buf max : Nat) (fmt j1 j2 : List UInt8), m.Acc buf max ∧ (0 : UInt8) ∉ fmt ∧
      snprintf buf max (fmt ++ 0 :: j1) [] ⟨m, []⟩ ≠ snprintf buf max (fmt ++ 0 :: j2) [] ⟨m, []⟩ ∧
      (snprintf buf max (fmt ++ [0]) [] ⟨m, []⟩).1 = .ub := by
  refine ⟨fmtMem, 1000, 8, [37], [65, 0], [0], fmtMem_acc 8 (by omega), by decide, ?_, rfl⟩
  intro h
  have : (snprintf 1000 8 ([37] ++ 0 :: [65, 0]) [] ⟨fmtMem, []⟩).1 =
    (snprintf 1000 8 ([37] ++ 0 :: [0]) [] ⟨fmtMem, []⟩).1 := by rw [h]
  exact absurd this (by decide)

/-- C07, the part that holds: for a format in which every `%` starts a complete
directive, the whole behaviour (outcome, memory, writes) is independent of what
follows the NUL, for all arguments and memories. (Missing: formats with an
incomplete directive at the end.) -/
theorem C07_no_overread_partial (fmt junk : List UInt8) (hc : Complete fmt) (buf max : Nat)
    (args : List Arg) (s : LSt) :
    snprintf buf max (fmt ++ 0 :: junk) args s = snprintf buf max (fmt ++ [0]) args s :=
  vslprintf_junk junk hc buf (buf + max) args s

/-- `"x%08.3ld!"` is complete -/
example : Complete [120, 37, 48, 56, 46, 51, 108, 100, 33] :=
  .lit (by decide) (.dir (d := ⟨48, 8, [], 3, 108⟩) (rest := [100, 33]) (by rfl)
    (.lit (by decide) (.lit (by decide) .done)))

/-! ### C08 -/

/-- The text of `snprintf` for a single directive whose text fits. -/
theorem one_directive {m : Mem} {buf max : Nat} {t : List UInt8} {d : Dir} {args args2 : List Arg}
    {piece : List UInt8} (hb : buf ≠ 0) (hacc : m.Acc buf max) (hp : parseDir t = some (d, []))
    (h42 : 42 ∉ d.flags) (hc : Conv m buf (buf + max) d none args piece args2)
    (hlen : piece.length < max) :
    ∃ st, snprintf buf max (37 :: t ++ [0]) args ⟨m, []⟩ = (.ok (buf + piece.length + 1), st) ∧
      (∀ i (h : i < piece.length), st.mem (buf + i) = some piece[i]) ∧
      st.mem (buf + piece.length) = some 0 := by
  have hr : Renders m buf (buf + max) (37 :: t) args (piece ++ []) :=
    .dir hp (by rw [List.count_eq_zero_of_not_mem h42]; rfl) hc .done
  rw [List.append_nil] at hr
  exact C06_nul_terminated_partial m buf max (37 :: t) args piece hb hacc hr hlen

theorem parse_simple (wd F : List UInt8) (c : UInt8) (hw : ∀ x ∈ wd, isDigit x = true)
    (hF : ∀ x ∈ F, isFlag x = true) (hcd : isDigit c = false) (hcf : isFlag c = false)
    (h46 : c ≠ 46) :
    parseDir (wd ++ F ++ [c]) =
      some (⟨if wd.head? = some 48 then 48 else 32, numVal wd % 2 ^ 32, F, 0, c⟩, []) := by
  have hFd : ∀ x, isFlag x = true → isDigit x = false := by
    intro x hx
    simp only [isFlag, decide_eq_true_eq] at hx
    rcases hx with rfl | rfl | rfl | rfl | rfl <;> decide
  have h1 : (F ++ [c]).takeWhile isDigit = [] ∧ (F ++ [c]).dropWhile isDigit = F ++ [c] := by
    cases F with
    | nil => simp [hcd]
    | cons x F => simp [hFd x (hF x (by simp))]
  have ht : (wd ++ F ++ [c]).takeWhile isDigit = wd := by
    rw [List.append_assoc, List.takeWhile_append_of_pos hw, h1.1, List.append_nil]
  have hd : (wd ++ F ++ [c]).dropWhile isDigit = F ++ [c] := by
    rw [List.append_assoc, List.dropWhile_append_of_pos hw, h1.2]
  have ht2 : (F ++ [c]).takeWhile isFlag = F := by
    rw [List.takeWhile_append_of_pos hF]; simp [hcf]
  have hd2 : (F ++ [c]).dropWhile isFlag = [c] := by
    rw [List.dropWhile_append_of_pos hF]; simp [hcf]
  have hh : (wd ++ F ++ [c]).head? = some 48 ↔ wd.head? = some 48 := by
    cases wd with
    | cons x wd => simp
    | nil =>
      cases F with
      | nil => simp; rintro rfl; exact absurd hcd (by decide)
      | cons x F =>
        simp; rintro rfl; exact absurd (hF 48 (by simp)) (by decide)
  unfold parseDir
  simp only [ht, hd, ht2, hd2, if_neg h46, hh]

/-- C08, unsigned 64-bit: for every value and every width text `wd` (a string of
digits), `%<wd>ul`, `%<wd>xl` and `%<wd>Xl` print the decimal / lower / upper case
hexadecimal form padded on the left to that width, with zeros if the width text
starts with `0` and blanks otherwise. -/
theorem C08_unsigned64 (m : Mem) (buf max : Nat) (hb : buf ≠ 0) (hacc : m.Acc buf max)
    (wd : List UInt8) (hw : ∀ x ∈ wd, isDigit x = true) (v : BitVec 64)
    (flag : UInt8) (text : List UInt8)
    (hft : (flag = 117 ∧ text = dec v.toNat) ∨ (flag = 120 ∧ text = hexa false v.toNat) ∨
      (flag = 88 ∧ text = hexa true v.toNat))
    (out : List UInt8)
    (hout : out = padTo (numVal wd % 2 ^ 32) (if wd.head? = some 48 then 48 else 32) text)
    (hlen : out.length < max) :
    ∃ st, snprintf buf max (37 :: (wd ++ [flag] ++ [108]) ++ [0]) [.i64 v] ⟨m, []⟩ =
        (.ok (buf + out.length + 1), st) ∧
      (∀ i (h : i < out.length), st.mem (buf + i) = some out[i]) ∧
      st.mem (buf + out.length) = some 0 := by
  have hfl : isFlag flag = true ∧ 42 ∉ [flag] := by
    rcases hft with ⟨rfl, _⟩ | ⟨rfl, _⟩ | ⟨rfl, _⟩ <;> decide
  refine one_directive (args2 := []) hb hacc
    (parse_simple wd [flag] 108 hw (by simpa using hfl.1) rfl rfl (by decide)) hfl.2 ?_ hlen
  have hc := Conv.uint64 (m := m) (lo := buf) (hi := buf + max)
    (d := ⟨if wd.head? = some 48 then 48 else 32, numVal wd % 2 ^ 32, [flag], 0, 108⟩)
    (slen := none) (v := v) (args := []) (by simp)
    (by rcases hft with ⟨rfl, _⟩ | ⟨rfl, _⟩ | ⟨rfl, _⟩ <;> simp [Dir.signed])
  have e : intText (if wd.head? = some 48 then 48 else 32)
      (Dir.hex ⟨if wd.head? = some 48 then 48 else 32, numVal wd % 2 ^ 32, [flag], 0, 108⟩)
      (numVal wd % 2 ^ 32) v.toNat = out := by
    subst hout
    unfold intText
    rw [if_neg (by omega), Int.natAbs_natCast]
    rcases hft with ⟨rfl, rfl⟩ | ⟨rfl, rfl⟩ | ⟨rfl, rfl⟩ <;> simp [Dir.hex, numText]
  rw [← e]
  exact hc

/-- `%8xl` of 255 -/
example : padTo (numVal [56] % 2 ^ 32) (if [(56 : UInt8)].head? = some 48 then 48 else 32)
    (hexa false (255#64).toNat) = [32, 32, 32, 32, 32, 32, 102, 102] := by decide

/-- C08, unsigned 32-bit: the same for `%ud`, `%xd`, `%Xd`. -/
theorem C08_unsigned32 (m : Mem) (buf max : Nat) (hb : buf ≠ 0) (hacc : m.Acc buf max)
    (wd : List UInt8) (hw : ∀ x ∈ wd, isDigit x = true) (v : BitVec 32)
    (flag : UInt8) (text : List UInt8)
    (hft : (flag = 117 ∧ text = dec v.toNat) ∨ (flag = 120 ∧ text = hexa false v.toNat) ∨
      (flag = 88 ∧ text = hexa true v.toNat))
    (out : List UInt8)
    (hout : out = padTo (numVal wd % 2 ^ 32) (if wd.head? = some 48 then 48 else 32) text)
    (hlen : out.length < max) :
    ∃ st, snprintf buf max (37 :: (wd ++ [flag] ++ [100]) ++ [0]) [.i32 v] ⟨m, []⟩ =
        (.ok (buf + out.length + 1), st) ∧
      (∀ i (h : i < out.length), st.mem (buf + i) = some out[i]) ∧
      st.mem (buf + out.length) = some 0 := by
  have hfl : isFlag flag = true ∧ 42 ∉ [flag] := by
    rcases hft with ⟨rfl, _⟩ | ⟨rfl, _⟩ | ⟨rfl, _⟩ <;> decide
  refine one_directive (args2 := []) hb hacc
    (parse_simple wd [flag] 100 hw (by simpa using hfl.1) rfl rfl (by decide)) hfl.2 ?_ hlen
  have hc := Conv.uint32 (m := m) (lo := buf) (hi := buf + max)
    (d := ⟨if wd.head? = some 48 then 48 else 32, numVal wd % 2 ^ 32, [flag], 0, 100⟩)
    (slen := none) (v := v) (args := []) (by simp)
    (by rcases hft with ⟨rfl, _⟩ | ⟨rfl, _⟩ | ⟨rfl, _⟩ <;> simp [Dir.signed])
  have e : intText (if wd.head? = some 48 then 48 else 32)
      (Dir.hex ⟨if wd.head? = some 48 then 48 else 32, numVal wd % 2 ^ 32, [flag], 0, 100⟩)
      (numVal wd % 2 ^ 32) v.toNat = out := by
    subst hout
    unfold intText
    rw [if_neg (by omega), Int.natAbs_natCast]
    rcases hft with ⟨rfl, rfl⟩ | ⟨rfl, rfl⟩ | ⟨rfl, rfl⟩ <;> simp [Dir.hex, numText]
  rw [← e]
  exact hc

/-- C08, signed 32-bit: `%<wd>d` prints an optional `-` and then the absolute
value padded to the width; for every value, including the most negative one. -/
theorem C08_signed32 (m : Mem) (buf max : Nat) (hb : buf ≠ 0) (hacc : m.Acc buf max)
    (wd : List UInt8) (hw : ∀ x ∈ wd, isDigit x = true) (v : BitVec 32) (out : List UInt8)
    (hout : out = (if v.toInt < 0 then [45] else []) ++
      padTo (numVal wd % 2 ^ 32) (if wd.head? = some 48 then 48 else 32) (dec v.toInt.natAbs))
    (hlen : out.length < max) :
    ∃ st, snprintf buf max (37 :: (wd ++ [] ++ [100]) ++ [0]) [.i32 v] ⟨m, []⟩ =
        (.ok (buf + out.length + 1), st) ∧
      (∀ i (h : i < out.length), st.mem (buf + i) = some out[i]) ∧
      st.mem (buf + out.length) = some 0 := by
  refine one_directive (args2 := []) hb hacc
    (parse_simple wd [] 100 hw (by simp) rfl rfl (by decide)) (by simp) ?_ hlen
  have hc := Conv.int32 (m := m) (lo := buf) (hi := buf + max)
    (d := ⟨if wd.head? = some 48 then 48 else 32, numVal wd % 2 ^ 32, [], 0, 100⟩)
    (slen := none) (v := v) (args := []) (by simp) (by simp [Dir.signed])
  have e : intText (if wd.head? = some 48 then 48 else 32)
      (Dir.hex ⟨if wd.head? = some 48 then 48 else 32, numVal wd % 2 ^ 32, [], 0, 100⟩)
      (numVal wd % 2 ^ 32) v.toInt = out := by
    subst hout
    unfold intText
    split <;> simp [Dir.hex, numText]
  rw [← e]
  exact hc

/-- `%05d` of -42: the sign precedes the padding -/
example : (if (-42#32).toInt < 0 then [45] else []) ++
      padTo (numVal [48, 53] % 2 ^ 32) (if [(48 : UInt8), 53].head? = some 48 then 48 else 32)
        (dec (-42#32).toInt.natAbs) = [45, 48, 48, 48, 52, 50] := by decide

/-- C08, signed 64-bit (`%<wd>l`): every value except the most negative one, whose
negation on string.cpp:363 is signed overflow (`C08_int64_min_violated`). -/
theorem C08_signed64_partial (m : Mem) (buf max : Nat) (hb : buf ≠ 0) (hacc : m.Acc buf max)
    (wd : List UInt8) (hw : ∀ x ∈ wd, isDigit x = true) (v : BitVec 64)
    (hv : v.toInt ≠ -2 ^ 63) (out : List UInt8)
    (hout : out = (if v.toInt < 0 then [45] else []) ++
      padTo (numVal wd % 2 ^ 32) (if wd.head? = some 48 then 48 else 32) (dec v.toInt.natAbs))
    (hlen : out.length < max) :
    ∃ st, snprintf buf max (37 :: (wd ++ [] ++ [108]) ++ [0]) [.i64 v] ⟨m, []⟩ =
        (.ok (buf + out.length + 1), st) ∧
      (∀ i (h : i < out.length), st.mem (buf + i) = some out[i]) ∧
      st.mem (buf + out.length) = some 0 := by
  refine one_directive (args2 := []) hb hacc
    (parse_simple wd [] 108 hw (by simp) rfl rfl (by decide)) (by simp) ?_ hlen
  have hc := Conv.int64 (m := m) (lo := buf) (hi := buf + max)
    (d := ⟨if wd.head? = some 48 then 48 else 32, numVal wd % 2 ^ 32, [], 0, 108⟩)
    (slen := none) (v := v) (args := []) (by simp) (by simp [Dir.signed])
    (by rintro rfl; exact hv (by decide))
  have e : intText (if wd.head? = some 48 then 48 else 32)
      (Dir.hex ⟨if wd.head? = some 48 then 48 else 32, numVal wd % 2 ^ 32, [], 0, 108⟩)
      (numVal wd % 2 ^ 32) v.toInt = out := by
    subst hout
    unfold intText
    split <;> simp [Dir.hex, numText]
  rw [← e]
  exact hc

/-- C08 fails for the most negative 64-bit value: undefined behaviour. -/
theorem C08_int64_min_violated (m : Mem) (buf max : Nat) (hmax : 0 < max)
    (hacc : m.Acc buf max) :
    (snprintf buf max [37, 108, 0] [.i64 (BitVec.intMin 64)] ⟨m, []⟩).1 = .ub := by
  have h0 := hacc 0 hmax
  rw [Nat.add_zero] at h0
  obtain ⟨b, hb⟩ := Option.isSome_iff_exists.mp h0
  have hc : (BitVec.intMin 64).toInt < 0 := by decide
  simp [snprintf, vslprintf, vslLoop, FM.bind_def, FM.lift, peek, directive, parseNum, parseFlags,
    convert, va64, convInt, hc, FM.put, Mem.store, hb, FM.ub, hmax]

/-- C08: the decimal text determines the value, also with zero padding, and it
is the shortest decimal text. -/
theorem C08_decimal_roundtrip (n k : Nat) :
    numVal (dec n) = n ∧ numVal (padTo k 48 (dec n)) = n ∧
    (∀ j, 0 < j → ((dec n).length ≤ j ↔ n < 10 ^ j)) ∧ (∀ c ∈ dec n, isDigit c = true) := by
  have key : ∀ n a, (dec n).foldl (fun a c => a * 10 + (c.toNat - 48)) a =
      a * 10 ^ (dec n).length + n := by
    intro n
    induction n using Nat.strongRecOn with
    | _ n ih =>
      intro a
      have hd : ∀ k, k < 10 → (byteOf (Nat.digitChar k)).toNat - 48 = k := by decide
      by_cases h : n < 10
      · simp only [dec, Nat.toDigits_of_lt_base h, List.map_cons, List.map_nil, List.foldl_cons,
          List.foldl_nil, hd n h, List.length_cons, List.length_nil]
      · have e : dec n = dec (n / 10) ++ [byteOf (Nat.digitChar (n % 10))] := by
          rw [dec, dec, Nat.toDigits_of_base_le (b := 10) (n := n) (by omega) (by omega)]; simp
        rw [e, List.foldl_append, ih (n / 10) (by omega)]
        simp only [List.foldl_cons, List.foldl_nil, hd (n % 10) (Nat.mod_lt _ (by omega)),
          List.length_append, List.length_cons, List.length_nil, Nat.zero_add, Nat.pow_add, Nat.pow_one]
        rw [Nat.add_mul, Nat.mul_assoc]
        omega
  have hz : ∀ k, (List.replicate k (48 : UInt8)).foldl (fun a c => a * 10 + (c.toNat - 48)) 0 = 0 := by
    intro k
    induction k with
    | zero => rfl
    | succ k ih => rw [List.replicate_succ, List.foldl_cons]; exact ih
  refine ⟨?_, ?_, ?_, ?_⟩
  · rw [numVal, key]; omega
  · rw [numVal, padTo, List.foldl_append, hz, key]; omega
  · intro j hj
    rw [dec, List.length_map]
    exact Nat.length_toDigits_le_iff (by omega) hj
  · have : ∀ n, ∀ c ∈ dec n, isDigit c = true := by
      intro n
      induction n using Nat.strongRecOn with
      | _ n ih =>
        have hd : ∀ k, k < 10 → isDigit (byteOf (Nat.digitChar k)) = true := by decide
        intro c hc
        by_cases h : n < 10
        · simp only [dec, Nat.toDigits_of_lt_base h, List.map_cons, List.map_nil,
            List.mem_singleton] at hc
          subst hc; exact hd n h
        · have e : dec n = dec (n / 10) ++ [byteOf (Nat.digitChar (n % 10))] := by
            rw [dec, dec, Nat.toDigits_of_base_le (b := 10) (n := n) (by omega) (by omega)]; simp
          rw [e, List.mem_append, List.mem_singleton] at hc
          rcases hc with hc | rfl
          · exact ih (n / 10) (by omega) c hc
          · exact hd _ (Nat.mod_lt _ (by omega))
    exact this n

/-- C08: the same for hexadecimal, either case. -/
theorem C08_hex_roundtrip (upper : Bool) (n k : Nat) :
    hexVal (hexa upper n) = n ∧ hexVal (padTo k 48 (hexa upper n)) = n ∧
    (∀ j, 0 < j → ((hexa upper n).length ≤ j ↔ n < 16 ^ j)) := by
  have key : ∀ n a, (hexa upper n).foldl (fun a c => a * 16 + hexDigit c) a =
      a * 16 ^ (hexa upper n).length + n := by
    intro n
    induction n using Nat.strongRecOn with
    | _ n ih =>
      intro a
      have hd : ∀ k, k < 16 → hexDigit (byteOf (if upper then (Nat.digitChar k).toUpper
          else Nat.digitChar k)) = k := by cases upper <;> decide
      by_cases h : n < 16
      · simp only [hexa, Nat.toDigits_of_lt_base h, List.map_cons, List.map_nil, List.foldl_cons,
          List.foldl_nil, hd n h, List.length_cons, List.length_nil]
      · have e : hexa upper n = hexa upper (n / 16) ++ [byteOf (if upper then
            (Nat.digitChar (n % 16)).toUpper else Nat.digitChar (n % 16))] := by
          rw [hexa, hexa, Nat.toDigits_of_base_le (b := 16) (n := n) (by omega) (by omega)]; simp
        rw [e, List.foldl_append, ih (n / 16) (by omega)]
        simp only [List.foldl_cons, List.foldl_nil, hd (n % 16) (Nat.mod_lt _ (by omega)),
          List.length_append, List.length_cons, List.length_nil, Nat.zero_add, Nat.pow_add, Nat.pow_one]
        rw [Nat.add_mul, Nat.mul_assoc]
        omega
  have hz : ∀ k, (List.replicate k (48 : UInt8)).foldl (fun a c => a * 16 + hexDigit c) 0 = 0 := by
    intro k
    induction k with
    | zero => rfl
    | succ k ih => rw [List.replicate_succ, List.foldl_cons]; exact ih
  refine ⟨?_, ?_, ?_⟩
  · rw [hexVal, key]; omega
  · rw [hexVal, padTo, List.foldl_append, hz, key]; omega
  · intro j hj
    rw [hexa, List.length_map]
    exact Nat.length_toDigits_le_iff (by omega) hj

/-- a value with a leading-digit boundary -/
example : dec 18446744073709551615 =
    [49, 56, 52, 52, 54, 55, 52, 52, 48, 55, 51, 55, 48, 57, 53, 53, 49, 54, 49, 53] := by decide

/-! ### C09 -/

private theorem renders_shrink {m : Mem} {lo hi1 hi2 : Nat} (h : hi1 ≤ hi2) {fmt : List UInt8}
    {args : List Arg} {out : List UInt8} (hr : Renders m lo hi2 fmt args out) :
    Renders m lo hi1 fmt args out := by
  induction hr with
  | done => exact .done
  | lit h1 h2 _ ih => exact .lit h1 h2 ih
  | dir h1 h2 h3 _ ih =>
    refine .dir h1 h2 ?_ ih
    cases h3 with
    | str a b c d => exact .str a b c ⟨d.1, d.2.1, fun i hi hh => d.2.2 i hi (by omega)⟩
    | strn a b c d e => exact .strn a b c d ⟨e.1, by have := e.2; omega⟩
    | int32 a b => exact .int32 a b
    | uint32 a b => exact .uint32 a b
    | int64 a b c => exact .int64 a b c
    | uint64 a b => exact .uint64 a b
    | dbl a b c => exact .dbl a b c
    | ptr a b => exact .ptr a b
    | chr a => exact .chr a
    | other a b => exact .other a b

/-- C09: formatting into `n1` bytes gives the same bytes as formatting into
`n2 ≥ n1` bytes, cut off after `n1`. -/
theorem C09_truncation_is_prefix (m : Mem) (buf n1 n2 : Nat) (hle : n1 ≤ n2) (hb : buf ≠ 0)
    (hacc : m.Acc buf n2) (fmt : List UInt8) (args : List Arg) (out : List UInt8)
    (hr : Renders m buf (buf + n2) fmt args out) :
    ∃ p1 p2 st1 st2, snprintf buf n1 (fmt ++ [0]) args ⟨m, []⟩ = (.ok p1, st1) ∧
      snprintf buf n2 (fmt ++ [0]) args ⟨m, []⟩ = (.ok p2, st2) ∧
      p1 = min p2 (buf + n1) ∧ (∀ a, buf ≤ a → a < p1 → st1.mem a = st2.mem a) := by
  obtain ⟨l2, h2⟩ := vslprintf_run (m := m) (buf := buf) (last := buf + n2)
    (by rwa [Nat.add_sub_cancel_left]) hb (by omega) hr []
  obtain ⟨l1, h1⟩ := vslprintf_run (m := m) (buf := buf) (last := buf + n1)
    (by rw [Nat.add_sub_cancel_left]; exact fun i hi => hacc i (by omega)) hb (by omega)
    (renders_shrink (hi1 := buf + n1) (by omega) hr) []
  refine ⟨_, _, _, _, h1, h2, ?_, ?_⟩
  · simp only [Nat.add_sub_cancel_left]; omega
  · intro a ha hlt
    simp only [Nat.add_sub_cancel_left] at hlt ⊢
    unfold wr
    rw [if_pos (by simp only [List.length_take, List.length_append, List.length_singleton]; omega),
      if_pos (by simp only [List.length_take, List.length_append, List.length_singleton]; omega),
      List.getElem?_take_of_lt (by omega), List.getElem?_take_of_lt (by omega)]

/-- cut in the middle of the number -/
example : fmtMem.Acc 1000 20 ∧ ∃ out, Renders fmtMem 1000 (1000 + 20)
    [110, 61, 37, 48, 53, 100, 32, 37, 115] [.i32 (-42#32), .ptr 2000] out ∧ 5 < out.length :=
  ⟨fmtMem_acc 20 (by omega), _, exRenders 20 (by omega), by decide⟩

/-- C09: text without `%` is copied verbatim (as far as it fits), ignoring the arguments. -/
theorem C09_literal (m : Mem) (buf max : Nat) (hb : buf ≠ 0) (hacc : m.Acc buf max)
    (fmt : List UInt8) (args : List Arg) (h0 : (0 : UInt8) ∉ fmt) (h37 : (37 : UInt8) ∉ fmt) :
    ∃ p st, snprintf buf max (fmt ++ [0]) args ⟨m, []⟩ = (.ok p, st) ∧
      p = buf + min (fmt.length + 1) max ∧
      ∀ i, i < max → ∀ (h : i < fmt.length), st.mem (buf + i) = some fmt[i] := by
  have hr : Renders m buf (buf + max) fmt args fmt := by
    clear hacc
    induction fmt with
    | nil => exact .done
    | cons c r ih =>
      simp only [List.mem_cons, not_or] at h0 h37
      exact .lit (fun e => h0.1 e.symm) (fun e => h37.1 e.symm) (ih h0.2 h37.2)
  obtain ⟨l, h⟩ := vslprintf_run (m := m) (buf := buf) (last := buf + max)
    (by rwa [Nat.add_sub_cancel_left]) hb (by omega) hr []
  refine ⟨_, _, h, by rw [Nat.add_sub_cancel_left], ?_⟩
  intro i hi hlt
  simp only [Nat.add_sub_cancel_left, wr]
  rw [if_pos (by simp only [List.length_take, List.length_append, List.length_singleton]; omega),
    List.getElem?_take_of_lt hi, List.getElem?_append_left hlt, List.getElem?_eq_getElem hlt]

/-- "ab" into 2 bytes -/
example : (0 : UInt8) ∉ [97, 98] ∧ (37 : UInt8) ∉ [97, 98] := by decide

end Verif.Props
