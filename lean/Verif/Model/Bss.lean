import Verif.Model.Interrupt

/-!
The interrupt descriptor table as bytes in memory. `interrupts_` is a static member without an
initialiser (kernel/include/core/interrupt.hpp:117), so it is placed in `.bss`, behind the part of
the kernel that is in the file (kernel/Eospp.lds:28-33; `objcopy -O binary`, kernel/Makefile:13).
No code clears `.bss`; what the table holds before `Interrupt::Init` is what memory holds.
-/

namespace Verif.Interrupt
open Verif

/-- `IDT_FLAGS` from its byte, kernel/include/core/interrupt.hpp:8-13. -/
def Flags.ofImage (b : BitVec 8) : Flags :=
  ⟨b.extractLsb' 0 4, b.extractLsb' 4 1, b.extractLsb' 5 2, b.extractLsb' 7 1⟩

/-- `IDT_DSC` from its 16 bytes, kernel/include/core/interrupt.hpp:17-25. -/
def Gate.ofImage (b : BitVec 128) : Gate where
  lowOffset := b.extractLsb' 0 16
  selector := b.extractLsb' 16 16
  zero := b.extractLsb' 32 8
  flags := Flags.ofImage (b.extractLsb' 40 8)
  middleOffset := b.extractLsb' 48 16
  highOffset := b.extractLsb' 64 32
  reserved := b.extractLsb' 96 32

/-- The 16 bytes of memory at an address as a little-endian number
(layout of kernel/include/core/interrupt.hpp:17-25). -/
def bytes16 (m : Nat → BitVec 8) (a : Nat) : BitVec 128 :=
  m (a + 15) ++ m (a + 14) ++ m (a + 13) ++ m (a + 12) ++ m (a + 11) ++ m (a + 10) ++ m (a + 9) ++ m (a + 8) ++
  m (a + 7) ++ m (a + 6) ++ m (a + 5) ++ m (a + 4) ++ m (a + 3) ++ m (a + 2) ++ m (a + 1) ++ m a

/-- `interrupts_` at address `a`, before anything is stored into it,
kernel/include/core/interrupt.hpp:114-117 (256 descriptors). -/
def idtAt (m : Nat → BitVec 8) (a : Nat) : Arr Gate := ⟨256, fun v => Gate.ofImage (bytes16 m (a + 16 * v))⟩

end Verif.Interrupt
