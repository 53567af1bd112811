import Verif.Model.Printf
import Verif.Props.Format
import Verif.Props.StringMem
import Verif.Props.Vesa
import Verif.Props.IrqGuard

/-! Property C77: `io::printf` from the call to the pixels. -/

set_option backward.isDefEq.respectTransparency false

namespace Verif.Printf
open Verif Verif.Spec Verif.Spec.Printf

theorem chars_ok (m : Mem) (p : Nat) (cs : List UInt8) (h : ∀ i (hi : i < cs.length), m (p + i) = some cs[i]) :
    chars m p cs.length = .ok (cs.map (·.toBitVec)) := by
  induction cs generalizing p with
  | nil => rfl
  | cons c cs ih =>
    have h0 := h 0 (by simp)
    simp only [Nat.add_zero, List.getElem_cons_zero] at h0
    have h1 := ih (p + 1) (fun i hi => by
      have := h (i + 1) (by simpa using hi)
      simp only [List.getElem_cons_succ] at this
      rw [← this]; congr 1; omega)
    simp only [List.length_cons, chars, Mem.load, h0, Res.ok_bind, h1, List.map_cons]

/-- Both guards together leave the interrupt flag as it was. -/
theorem flags_restored (f : IrqGuard.RFlags) :
    IrqGuard.ifSet (IrqGuard.enableHwint (IrqGuard.disableHwint f).1) = IrqGuard.ifSet f :=
  (IrqGuard.C54_guard (.guard .skip) trivial f).1

/-- What the buffer must hold, behind `buf`, for the text `cs` to be printed. -/
theorem printf_of_mem' (font : Vesa.Font) (buf : Nat) (fmt : List UInt8) (args : List Format.Arg) (s : St)
    (p : Nat) (l : LSt) (hv : Format.vslprintf buf (buf + bufSize) fmt args ⟨s.mem, []⟩ = (.ok p, l))
    (cs : List UInt8) (h64 : cs.length < 2 ^ 64) (h0 : (0 : UInt8) ∉ cs)
    (hm : ∀ i (hi : i < cs.length), l.mem (buf + i) = some cs[i]) (hz : l.mem (buf + cs.length) = some 0) :
    ∃ n s', (∀ fuel, n ≤ fuel → printf font buf fuel fmt args s = .ok s') ∧ s'.mem = l.mem ∧
      s'.scr = Vesa.colorPrint font white (cs.map (·.toBitVec)) s.scr ∧
      IrqGuard.ifSet s'.flags = IrqGuard.ifSet s.flags := by
  have hstr : CStr l.mem buf cs.length := ⟨fun i hi => ⟨cs[i], hm i hi, fun h => h0 (h ▸ List.getElem_mem hi)⟩, hz⟩
  obtain ⟨n, hn⟩ := Props.C03_strlen _ _ _ hstr
  have h2 : (BitVec.ofNat 64 cs.length).toNat = cs.length := by rw [BitVec.toNat_ofNat]; omega
  have hc := chars_ok l.mem buf cs hm
  obtain ⟨s', hs', e1, e2, e3⟩ : ∃ s', colorPrint font ⟨buf, BitVec.ofNat 64 cs.length⟩
      { s with mem := l.mem, flags := (IrqGuard.disableHwint s.flags).2 } = .ok s' ∧ s'.mem = l.mem ∧
      s'.scr = Vesa.colorPrint font white (cs.map (·.toBitVec)) s.scr ∧ True := by
    refine ⟨⟨l.mem, Vesa.colorPrint font white (cs.map (·.toBitVec)) s.scr,
      IrqGuard.enableHwint (IrqGuard.disableHwint (IrqGuard.disableHwint s.flags).2).1⟩, ?_, rfl, rfl, trivial⟩
    simp only [colorPrint, h2, hc, Res.ok_bind]
  refine ⟨n, { s' with flags := IrqGuard.enableHwint (IrqGuard.disableHwint s.flags).1 }, ?_, e1, e2,
    flags_restored s.flags⟩
  intro fuel hf
  have h1 := (hn fuel hf).2
  have : printf font buf fuel fmt args s = (StringMem.cstrlen fuel l.mem buf >>= fun n =>
      colorPrint font ⟨buf, BitVec.ofNat 64 n⟩ { s with mem := l.mem, flags := (IrqGuard.disableHwint s.flags).2 } >>=
        fun s' => .ok { s' with flags := IrqGuard.enableHwint (IrqGuard.disableHwint s.flags).1 }) := by
    unfold printf
    rw [hv]
  rw [this, h1, Res.ok_bind, hs', Res.ok_bind]

theorem printf_of_mem (font : Vesa.Font) (buf : Nat) (fmt : List UInt8) (args : List Format.Arg) (s : St)
    (p : Nat) (l : LSt) (hv : Format.vslprintf buf (buf + bufSize) fmt args ⟨s.mem, []⟩ = (.ok p, l))
    (cs : List UInt8) (h64 : cs.length < 2 ^ 64) (h0 : (0 : UInt8) ∉ cs)
    (hm : ∀ i (hi : i < cs.length), l.mem (buf + i) = some cs[i]) (hz : l.mem (buf + cs.length) = some 0) :
    ∃ n, ∀ fuel, n ≤ fuel → ∃ s', printf font buf fuel fmt args s = .ok s' ∧ s'.mem = l.mem ∧
      s'.scr = Vesa.colorPrint font white (cs.map (·.toBitVec)) s.scr ∧
      IrqGuard.ifSet s'.flags = IrqGuard.ifSet s.flags := by
  obtain ⟨n, s', h1, h2⟩ := printf_of_mem' font buf fmt args s p l hv cs h64 h0 hm hz
  exact ⟨n, fun fuel hf => ⟨s', h1 fuel hf, h2⟩⟩

/-- C77, the text: whenever the format and its arguments stand for a text of less than 1024
bytes without NUL, `printf` prints exactly this text at the cursor, in white, and leaves the
interrupt flag as it was; outside the buffer memory does not change. -/
theorem C77_text_partial (font : Vesa.Font) (buf : Nat) (hb : buf ≠ 0) (s : St) (hacc : s.mem.Acc buf bufSize)
    (fmt : List UInt8) (args : List Format.Arg) (out : List UInt8)
    (hr : Renders s.mem buf (buf + bufSize) fmt args out) (hlen : out.length < 1024) (h0 : (0 : UInt8) ∉ out) :
    ∃ n, ∀ fuel, n ≤ fuel → ∃ s', printf font buf fuel (fmt ++ [0]) args s = .ok s' ∧
      s'.scr = Vesa.colorPrint font white (out.map (·.toBitVec)) s.scr ∧
      IrqGuard.ifSet s'.flags = IrqGuard.ifSet s.flags ∧
      ∀ a, ¬ (buf ≤ a ∧ a < buf + 1024) → s'.mem a = s.mem a := by
  obtain ⟨l, h1, h2, h3⟩ := Props.C06_nul_terminated_partial s.mem buf bufSize fmt args out hb hacc hr hlen
  have hm := (Props.C05_snprintf_bounds s.mem buf bufSize _ _ _ _ h1).2.1
  obtain ⟨n, hn⟩ := printf_of_mem font buf (fmt ++ [0]) args s _ l h1 out (by omega) h0 h2 h3
  refine ⟨n, fun fuel hf => ?_⟩
  obtain ⟨s', k1, k2, k3, k4⟩ := hn fuel hf
  exact ⟨s', k1, k3, k4, fun a ha => by rw [k2]; exact hm a ha⟩

/-- C77, the pixels: if moreover the text has no line feed or tab and fits between the cursor
and the last cell, and the cells are blank, then afterwards cell number `k` from the cursor
shows the glyph of character `k` of the text. -/
theorem C77_pixels_partial (font : Vesa.Font) (buf : Nat) (hb : buf ≠ 0) (s : St) (hacc : s.mem.Acc buf bufSize)
    (fmt : List UInt8) (args : List Format.Arg) (out : List UInt8)
    (hr : Renders s.mem buf (buf + bufSize) fmt args out) (hlen : out.length < 1024) (h0 : (0 : UInt8) ∉ out)
    (h : Vesa.Ok s.scr) (hplain : (10 : UInt8) ∉ out ∧ (9 : UInt8) ∉ out)
    (hroom : Vesa.cursor s.scr + out.length < s.scr.height / 16 * (s.scr.width / 8))
    (k : Nat) (hk : k < out.length) (p : Nat) (hin : Vesa.inColumns s.scr p)
    (hcell : Vesa.cellOf s.scr p = Vesa.cursor s.scr + k) (hblank : s.scr.pix p = Vesa.black) :
    ∃ n, ∀ fuel, n ≤ fuel → ∃ s', printf font buf fuel (fmt ++ [0]) args s = .ok s' ∧
      s'.scr.pix p = if Vesa.glyphBit font s.scr out[k].toBitVec p = true then 0xffffff else Vesa.black := by
  obtain ⟨n, hn⟩ := C77_text_partial font buf hb s hacc fmt args out hr hlen h0
  refine ⟨n, fun fuel hf => ?_⟩
  obtain ⟨s', k1, k2, _, _⟩ := hn fuel hf
  refine ⟨s', k1, ?_⟩
  have := Vesa.C58_exact_glyph font white (out.map (·.toBitVec)) s.scr h
    (by intro c hc
        obtain ⟨u, hu, rfl⟩ := List.mem_map.1 hc
        refine ⟨fun e => hplain.1 ?_, fun e => hplain.2 ?_⟩
        · have : u = 10 := UInt8.toBitVec_inj.1 e
          exact this ▸ hu
        · have : u = 9 := UInt8.toBitVec_inj.1 e
          exact this ▸ hu)
    (by simpa using hroom) k (by simpa using hk) p hin hcell hblank
  rw [k2, this, List.getElem_map]
  rfl

/-- C77 fails, embedded NUL: what follows a NUL in the text (from `%c`, or a counted string) is
not printed. -/
theorem C77_nul_violated (font : Vesa.Font) (buf : Nat) (hb : buf ≠ 0) (s : St) (hacc : s.mem.Acc buf bufSize)
    (fmt : List UInt8) (args : List Format.Arg) (a b : List UInt8)
    (hr : Renders s.mem buf (buf + bufSize) fmt args (a ++ 0 :: b)) (hlen : a.length < 1024) (h0 : (0 : UInt8) ∉ a) :
    ∃ n, ∀ fuel, n ≤ fuel → ∃ s', printf font buf fuel (fmt ++ [0]) args s = .ok s' ∧
      s'.scr = Vesa.colorPrint font white (a.map (·.toBitVec)) s.scr := by
  obtain ⟨log', h⟩ := Format.vslprintf_run (m := s.mem) (buf := buf) (last := buf + bufSize)
    (by rwa [Nat.add_sub_cancel_left]) hb (by omega) hr []
  have hat : ∀ i, i < bufSize → i < (a ++ 0 :: b ++ [0]).length →
      wr s.mem buf ((a ++ 0 :: b ++ [0]).take (buf + bufSize - buf)) (buf + i) = (a ++ 0 :: b ++ [0])[i]? := by
    intro i hi hi'
    simp only [wr, Nat.add_sub_cancel_left]
    rw [if_pos (by rw [List.length_take]; omega), List.getElem?_take_of_lt hi]
  obtain ⟨n, hn⟩ := printf_of_mem font buf (fmt ++ [0]) args s _ _ h a (by omega) h0
    (by intro i hi
        show wr _ _ _ _ = _
        rw [hat i (by simp only [bufSize]; omega) (by simp; omega), List.append_assoc, List.getElem?_append_left hi,
          List.getElem?_eq_getElem hi])
    (by show wr _ _ _ _ = _
        rw [hat a.length (by simp only [bufSize]; omega) (by simp), List.append_assoc,
          List.getElem?_append_right (by omega)]
        simp)
  refine ⟨n, fun fuel hf => ?_⟩
  obtain ⟨s', k1, _, k3, _⟩ := hn fuel hf
  exact ⟨s', k1, k3⟩

/-- The buffer after a text that does not fit. -/
theorem long_mem (buf : Nat) (hb : buf ≠ 0) (m : Mem) (hacc : m.Acc buf bufSize)
    (fmt : List UInt8) (args : List Format.Arg) (out : List UInt8)
    (hr : Renders m buf (buf + bufSize) fmt args out) (hlen : 1024 ≤ out.length) :
    ∃ p l, Format.vslprintf buf (buf + bufSize) (fmt ++ [0]) args ⟨m, []⟩ = (.ok p, l) ∧
      (∀ i (hi : i < 1024), l.mem (buf + i) = some out[i]) ∧ ∀ a, buf + 1024 ≤ a → l.mem a = m a := by
  obtain ⟨log', h⟩ := Format.vslprintf_run (m := m) (buf := buf) (last := buf + bufSize)
    (by rwa [Nat.add_sub_cancel_left]) hb (by omega) hr []
  refine ⟨_, _, h, ?_, ?_⟩
  · intro i hi
    simp only [wr, Nat.add_sub_cancel_left]
    rw [if_pos (by rw [List.length_take]; simp [bufSize]; omega), List.getElem?_take_of_lt (show i < bufSize from hi),
      List.getElem?_append_left (by omega), List.getElem?_eq_getElem (by omega)]
  · intro a ha
    simp only [wr, Nat.add_sub_cancel_left]
    rw [if_neg (by rw [List.length_take]; simp [bufSize]; omega)]

/-- C77 fails, long text: the buffer is then not terminated; the first 1024 bytes are printed
and after them whatever follows the buffer in memory, up to a NUL. -/
theorem C77_long_violated (font : Vesa.Font) (buf : Nat) (hb : buf ≠ 0) (s : St) (hacc : s.mem.Acc buf bufSize)
    (fmt : List UInt8) (args : List Format.Arg) (out : List UInt8)
    (hr : Renders s.mem buf (buf + bufSize) fmt args out) (hlen : 1024 ≤ out.length) (h0 : (0 : UInt8) ∉ out)
    (junk : List UInt8) (hj0 : (0 : UInt8) ∉ junk) (hj : ∀ i (hi : i < junk.length), s.mem (buf + 1024 + i) = some junk[i])
    (hz : s.mem (buf + 1024 + junk.length) = some 0) (h64 : junk.length < 2 ^ 63) :
    ∃ n, ∀ fuel, n ≤ fuel → ∃ s', printf font buf fuel (fmt ++ [0]) args s = .ok s' ∧
      s'.scr = Vesa.colorPrint font white ((out.take 1024 ++ junk).map (·.toBitVec)) s.scr := by
  obtain ⟨p, l, h1, h2, h3⟩ := long_mem buf hb s.mem hacc fmt args out hr hlen
  have hlt : (out.take 1024).length = 1024 := by rw [List.length_take]; omega
  obtain ⟨n, hn⟩ := printf_of_mem font buf (fmt ++ [0]) args s _ _ h1 (out.take 1024 ++ junk)
    (by rw [List.length_append]; omega)
    (by intro h
        rcases List.mem_append.1 h with h | h
        · exact h0 (List.mem_of_mem_take h)
        · exact hj0 h)
    (by intro i hi
        rw [List.length_append, hlt] at hi
        by_cases c : i < 1024
        · rw [h2 i c, List.getElem_append_left (by omega), List.getElem_take]
        · rw [h3 _ (by omega), List.getElem_append_right (by omega)]
          have := hj (i - 1024) (by omega)
          rw [show buf + 1024 + (i - 1024) = buf + i by omega] at this
          rw [this]
          simp only [hlt])
    (by rw [List.length_append, hlt, h3 _ (by omega), ← Nat.add_assoc]
        exact hz)
  refine ⟨n, fun fuel hf => ?_⟩
  obtain ⟨s', k1, _, k3, _⟩ := hn fuel hf
  exact ⟨s', k1, k3⟩

theorem cstrlen_end (m : Mem) (n s k fuel : Nat) (h : ∀ i, i < n → ∃ b, m (s + i) = some b ∧ b ≠ 0)
    (hn : m (s + n) = none) (hf : n < fuel) : StringMem.cstrlenLoop fuel m s k = .ub := by
  induction n generalizing s k fuel with
  | zero =>
    cases fuel with
    | zero => omega
    | succ fuel =>
      rw [Nat.add_zero] at hn
      simp [StringMem.cstrlenLoop, Mem.load, hn]
  | succ n ih =>
    cases fuel with
    | zero => omega
    | succ fuel =>
      obtain ⟨b, h1, h2⟩ := h 0 (by omega)
      rw [Nat.add_zero] at h1
      simp only [StringMem.cstrlenLoop, Mem.load, h1, Res.ok_bind, h2, if_false]
      refine ih (s + 1) (k + 1) fuel (fun i hi => ?_) ?_ (by omega)
      · rw [show s + 1 + i = s + (i + 1) by omega]; exact h (i + 1) (by omega)
      · rw [show s + 1 + n = s + (n + 1) by omega]; exact hn

/-- C77 fails, long text: if nothing may be read behind the buffer, the behaviour is
undefined. -/
theorem C77_overread_violated (font : Vesa.Font) (buf : Nat) (hb : buf ≠ 0) (s : St) (hacc : s.mem.Acc buf bufSize)
    (fmt : List UInt8) (args : List Format.Arg) (out : List UInt8)
    (hr : Renders s.mem buf (buf + bufSize) fmt args out) (hlen : 1024 ≤ out.length) (h0 : (0 : UInt8) ∉ out)
    (hend : s.mem (buf + 1024) = none) (fuel : Nat) (hf : 1024 < fuel) :
    printf font buf fuel (fmt ++ [0]) args s = .ub := by
  obtain ⟨p, l, h1, h2, h3⟩ := long_mem buf hb s.mem hacc fmt args out hr hlen
  have : StringMem.cstrlen fuel l.mem buf = .ub :=
    cstrlen_end l.mem 1024 buf 0 fuel
      (fun i hi => ⟨_, h2 i hi, fun h => h0 (h ▸ List.getElem_mem _)⟩) (by rw [h3 _ (by omega)]; exact hend) hf
  unfold printf
  rw [h1]
  simp only [this, Res.ub_bind]

/-! Examples: the buffer is at 4096, something follows it at 5120. -/

def exSt (after : List UInt8) : St :=
  { mem := fun a => if 4096 ≤ a ∧ a < 5120 then some 0xAA else if 5120 ≤ a then after[a - 5120]? else none
    scr := ⟨fun _ => Vesa.black, [], 1440, 900, 8, 16, 0, 0⟩
    flags := 0x202 }

theorem exSt_acc (after : List UInt8) : (exSt after).mem.Acc 4096 bufSize := by
  intro i hi
  simp only [bufSize] at hi
  show (if _ then _ else _ : Option UInt8).isSome = true
  rw [if_pos (by omega)]
  rfl

/-- A text without directives stands for itself. -/
theorem renders_literal (m : Mem) (lo hi : Nat) (fmt : List UInt8) (args : List Format.Arg) (h0 : (0 : UInt8) ∉ fmt)
    (h37 : (37 : UInt8) ∉ fmt) : Renders m lo hi fmt args fmt := by
  induction fmt with
  | nil => exact .done
  | cons c r ih =>
    simp only [List.mem_cons, not_or] at h0 h37
    exact .lit (fun e => h0.1 e.symm) (fun e => h37.1 e.symm) (ih h0.2 h37.2)

/-- `printf("n=%c")` with `'7'`: the third cell shows the 7. -/
theorem exRenders (c : BitVec 32) : Renders (exSt []).mem 4096 (4096 + bufSize) [110, 61, 37, 99] [.i32 c]
    [110, 61, UInt8.ofNat (c.toNat % 256)] :=
  .lit (by decide) (by decide) (.lit (by decide) (by decide)
    (.dir (d := ⟨32, 0, [], 0, 99⟩) (rest := []) (by rfl) (by rfl) (.chr (by rfl)) .done))

theorem exSt_scr (after : List UInt8) : Vesa.Ok (exSt after).scr ∧ Vesa.cursor (exSt after).scr = 0 ∧
    (exSt after).scr.width = 1440 ∧ (exSt after).scr.height = 900 ∧
    ∀ p, p < 900 * 1440 → (exSt after).scr.pix p = Vesa.black := by
  exact ⟨⟨rfl, rfl, show 0 < 1440 / 8 by decide⟩, show 0 * (1440 / 8) + 0 = 0 by decide, rfl, rfl, fun _ _ => rfl⟩

/-- `printf("n=%c", '7')` on the cleared console: pixel 16, the corner of cell 2, is white with
a font that sets this pixel for `7` only. -/
example : ∃ n, ∀ fuel, n ≤ fuel → ∃ s', printf (fun c i => if c = 0x37 ∧ i = 0 then 0x80 else 0) 4096 fuel
      [110, 61, 37, 99, 0] [.i32 0x37] (exSt []) = .ok s' ∧ s'.scr.pix 16 = 0xffffff := by
  obtain ⟨h1, h2, h3, h4, h5⟩ := exSt_scr []
  obtain ⟨n, hn⟩ := C77_pixels_partial (fun c i => if c = 0x37 ∧ i = 0 then 0x80 else 0) 4096 (by decide) (exSt [])
    (exSt_acc []) [110, 61, 37, 99] [.i32 0x37] [110, 61, 0x37] (exRenders 0x37) (by decide) (by decide) h1
    (by decide) (by rw [h2, h3, h4]; decide) 2 (by decide) 16 (by unfold Vesa.inColumns; rw [h3]; decide)
    (by unfold Vesa.cellOf; rw [h2, h3]) (h5 16 (by decide))
  refine ⟨n, fun fuel hf => ?_⟩
  obtain ⟨s', k1, k2⟩ := hn fuel hf
  refine ⟨s', k1, ?_⟩
  rw [k2]
  unfold Vesa.glyphBit
  rw [h3]
  decide

/-- `printf("n=%c", 0)`: only `n=` is printed. -/
example (font : Vesa.Font) : ∃ n, ∀ fuel, n ≤ fuel → ∃ s', printf font 4096 fuel
      [110, 61, 37, 99, 0] [.i32 0] (exSt []) = .ok s' ∧
      s'.scr = Vesa.colorPrint font white [110, 61] (exSt []).scr :=
  C77_nul_violated font 4096 (by decide) (exSt []) (exSt_acc []) [110, 61, 37, 99] [.i32 0] [110, 61] []
    (exRenders 0) (by decide) (by decide)

/-- `n` letters. -/
def exText (n : Nat) : List UInt8 := List.replicate n 65

theorem exText_length (n : Nat) : (exText n).length = n := List.length_replicate

theorem exText_mem (n : Nat) (c : UInt8) (h : c ≠ 65) : c ∉ exText n := fun hm => h (List.eq_of_mem_replicate hm)

/-- 1024 letters, and `bad` behind the buffer. -/
example (font : Vesa.Font) : ∃ n, ∀ fuel, n ≤ fuel → ∃ s', printf font 4096 fuel
      (exText 1024 ++ [0]) [] (exSt [98, 97, 100, 0]) = .ok s' ∧
      s'.scr = Vesa.colorPrint font white (((exText 1024).take 1024 ++ [98, 97, 100]).map UInt8.toBitVec)
        (exSt [98, 97, 100, 0]).scr :=
  C77_long_violated font 4096 (by decide) (exSt [98, 97, 100, 0]) (exSt_acc _) (exText 1024) []
    (exText 1024) (renders_literal _ _ _ _ _ (exText_mem _ _ (by decide)) (exText_mem _ _ (by decide)))
    (by rw [exText_length]; decide) (exText_mem _ _ (by decide)) [98, 97, 100] (by decide)
    (by intro i hi
        have : i = 0 ∨ i = 1 ∨ i = 2 := by simp at hi; omega
        rcases this with rfl | rfl | rfl <;> rfl)
    rfl (by decide)

example (font : Vesa.Font) : printf font 4096 1025 (exText 1030 ++ [0]) [] (exSt []) = .ub :=
  C77_overread_violated font 4096 (by decide) (exSt []) (exSt_acc _) (exText 1030) []
    (exText 1030) (renders_literal _ _ _ _ _ (exText_mem _ _ (by decide)) (exText_mem _ _ (by decide)))
    (by rw [exText_length]; decide) (exText_mem _ _ (by decide)) rfl 1025 (by decide)

end Verif.Printf
