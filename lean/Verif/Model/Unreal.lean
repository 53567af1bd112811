import Verif.Model.Mode
import Verif.Model.Boot

/-!
Model of how `loader.asm` reaches memory above 1 MiB from real mode: the A20 gate and the 4 GiB limit that
`fs` keeps from a short visit to protected mode (bootloader/loader.asm:85-103), and the copy of a sector
through it (bootloader/loader.asm:274-292) with segment limits, A20 and interrupts. `Verif.Boot.movKernel` is the same
loop on flat memory.

BIOS services and interrupt handlers may load `fs` in real mode as they like; handlers restore it. They are
assumed not to visit protected mode themselves.
-/

namespace Verif.Unreal
open Verif.Mode

/-- `in al, 92H`, `or al, 2`, `out 92H, al`, bootloader/loader.asm:86-88: the new state of the A20 gate (bit 1), or
nothing if a rising bit 0 resets the machine. -/
def openA20 (p92 : BitVec 8) : Option Bool :=
  let v := p92 ||| 0b00000010#8
  if bit v 0 && !bit p92 0 then none else some (bit v 1)

/-- The visit to protected mode, bootloader/loader.asm:90-103; the prefix at line 91 gives `lgdt` all 32 bits of the
base. The limit is `GdtEnd - GdtStart - 1` (line 20), the selector `SelectorData32` (line 23). -/
def visit : List Instr :=
  [.cli, .lgdt (8 * gdt32.length - 1) gdt32,
   .eaxFromCr0, .orEax 1#32, .cr0FromEax,
   .movAx 0x10#16, .movSeg .fs,
   .eaxFromCr0, .andAl 0b11111110#8, .cr0FromEax,
   .sti]

/-- Loading a segment register in real mode, bootloader/loader.asm:280, 300 (and inside the BIOS). -/
def realLoad (g : Seg) (sel : BitVec 16) : Seg := ⟨sel, realDesc g.desc sel⟩

/-- An interrupt during the loop of bootloader/loader.asm:287-292 whose handler loads `fs` with these selectors and restores it. -/
def interrupted (l : List (BitVec 16)) (g : Seg) : Seg :=
  if l = [] then g else realLoad (l.foldl realLoad g) g.sel

/-- The physical address of a linear one (hardware; the gate of bootloader/loader.asm:86-88): without A20 bit 20 is masked. -/
def gate (a20 : Bool) (x : Nat) : Nat := if a20 then x else x - x / 2 ^ 20 % 2 * 2 ^ 20

/-- The physical address of an access through a segment, or a fault beyond its limit
(hardware, for bootloader/loader.asm:288-289). -/
def reach (a20 : Bool) (g : Seg) (off : BitVec 32) : Option Nat :=
  if off.toNat ≤ limit g.desc then some (gate a20 ((base g.desc + off.toNat) % 2 ^ 32)) else none

/-- `Mov_Kernel`, bootloader/loader.asm:287-292: `n` is `cx`; `irq n` are the selectors handlers load into
`fs` during this iteration. -/
def copy (a20 : Bool) (irq : Nat → List (BitVec 16)) (ds : Seg) :
    Nat → Seg → BitVec 32 → BitVec 32 → (Nat → BitVec 8) → Option ((Nat → BitVec 8) × BitVec 32)
  | 0, _, edi, _, m => some (m, edi)
  | n + 1, fs, edi, esi, m => do
    let fs := interrupted (irq n) fs
    let src ← reach a20 ds esi
    let dst ← reach a20 fs edi
    copy a20 irq ds n fs (edi + 1) (esi + 1) (fun a => if a = dst then m src else m a)

/-- The copy of a sector with its segment loads, bootloader/loader.asm:278-292 (`KernelBaseAddr` and
`KernelTmpBaseAddr` are 0, lines 6 and 8). -/
def copySector (a20 : Bool) (irq : Nat → List (BitVec 16)) (fs ds : Seg) (off : BitVec 32) (m : Nat → BitVec 8) :
    Option ((Nat → BitVec 8) × BitVec 32) :=
  copy a20 irq (realLoad ds 0) 0x200 (realLoad fs 0) off 0x7E00 m

end Verif.Unreal
