import Verif.Model.Format
import Verif.Model.StringMem
import Verif.Model.StringView
import Verif.Model.Vesa
import Verif.Model.IrqGuard

/-!
Model of `io::printf`, kernel/src/io/veas.cpp:320-332: formatting into a static buffer, a
`string_view` over it, and the console. Built from the models of the parts.
-/

namespace Verif.Printf
open Verif

/-- `Color::WHITE`, kernel/include/io/vesa.hpp:7. -/
def white : Vesa.Color := 0x00ffffff

/-- `sizeof(buf)`, kernel/src/io/veas.cpp:323. -/
def bufSize : Nat := 1024

/-- The characters of a `string_view`, read one by one by the loop of `ColorPrint`
(kernel/src/io/veas.cpp:379; estl/string_view.hpp:31-37). -/
def chars (m : Mem) : Nat → Nat → Res (List (BitVec 8))
  | _, 0 => .ok []
  | p, n + 1 => do
    let b ← m.load p
    let r ← chars m (p + 1) n
    .ok (b.toBitVec :: r)

/-- What `printf` works on: memory, the console and the flags register
(kernel/src/io/veas.cpp:320-332). -/
structure St where
  mem : Mem
  scr : Vesa.Screen
  flags : IrqGuard.RFlags

/-- `vesa.ColorPrint(WHITE, BLACK, str)` with its guard, kernel/src/io/veas.cpp:362-393. -/
def colorPrint (font : Vesa.Font) (v : StringView.View) (s : St) : Res St := do
  let (saved, f) := IrqGuard.disableHwint s.flags
  let cs ← chars s.mem v.data v.size.toNat
  .ok { s with scr := Vesa.colorPrint font white cs s.scr, flags := IrqGuard.enableHwint saved, mem := s.mem }

/-- `printf`, kernel/src/io/veas.cpp:325-332; `buf` is the address of the buffer (:323).
`string_view(const char*)` is estl/string_view.hpp:22-23. -/
def printf (font : Vesa.Font) (buf : Nat) (fuel : Nat) (fmt : List UInt8) (args : List Format.Arg) (s : St) :
    Res St := do
  let (saved, f) := IrqGuard.disableHwint s.flags
  match Format.vslprintf buf (buf + bufSize) fmt args ⟨s.mem, []⟩ with
  | (.ok _, l) => do
    let n ← StringMem.cstrlen fuel l.mem buf
    let s ← colorPrint font ⟨buf, BitVec.ofNat 64 n⟩ { s with mem := l.mem, flags := f }
    .ok { s with flags := IrqGuard.enableHwint saved }
  | (.ub, _) => .ub
  | (.oof, _) => .oof

end Verif.Printf
