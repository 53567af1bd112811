import Verif.Model.Boot

/-!
Model of the boot sector as the assembler lays it out: the jump at its beginning, the table of
`bootloader/fat12.inc` (the "BIOS parameter block", by which every other system reads the
floppy), the variables and messages, the code, the padding and the signature. What the code does
is in `Verif.Boot`; its machine code is any list of bytes here.
-/

namespace Verif.Bpb
open Verif

/-- The data directives `db`, `dw`, `dd` and `db '...'` of bootloader/fat12.inc:5-26. -/
inductive Item where
  | db (v : Nat)
  | dw (v : Nat)
  | dd (v : Nat)
  | str (s : String)

/-- Little endian, `n` bytes; directives of bootloader/fat12.inc:5-26. -/
def le (v : Nat) : Nat → List (BitVec 8)
  | 0 => []
  | n + 1 => BitVec.ofNat 8 v :: le (v / 256) n

/-- The bytes of a directive; bootloader/fat12.inc:5-26. -/
def Item.bytes : Item → List (BitVec 8)
  | .db v => le v 1
  | .dw v => le v 2
  | .dd v => le v 4
  | .str s => s.toList.map fun c => BitVec.ofNat 8 c.toNat

/-- `RootDirSectors`, bootloader/fat12.inc:1. -/
def rootDirSectors : Nat := 14

/-- The labels and directives of bootloader/fat12.inc:5-26. -/
def fat12 : List (String × Item) :=
  [("BS_OEMName", .str "MINEboot"),
   ("BPB_BytesPerSec", .dw 512),
   ("BPB_SecPerClus", .db 1),
   ("BPB_RsvdSecCnt", .dw 1),
   ("BPB_NumFATs", .db 2),
   ("BPB_RootEntCnt", .dw 224),
   ("BPB_TotSec16", .dw 2880),
   ("BPB_Media", .db 0xf0),
   ("BPB_FATSz16", .dw 9),
   ("BPB_SecPerTrk", .dw 18),
   ("BPB_NumHeads", .dw 2),
   ("BPB_HiddSec", .dd 0),
   ("BPB_TotSec32", .dd 0),
   ("BS_DrvNum", .db 0),
   ("BS_Reserved1", .db 0),
   ("BS_BootSig", .db 0x29),
   ("BS_VolID", .dd 0),
   ("BS_VolLab", .str "boot loader"),
   ("BS_FileSysType", .str "FAT12   "),
   ("SectorNo", .dw 0),
   ("Odd", .db 0),
   ("RootDirSizeForLoop", .dw rootDirSectors)]

/-- The messages and the name behind the table, bootloader/boot.asm:15-17. -/
def messages : List (String × Item) :=
  [("StartEosppBootMsg", .str "Start Eospp boot"),
   ("NoEosppLoaderMsg", .str "Eospp loader don't exist"),
   ("LoaderFileName", .str "LOADER  BIN"),
   ("", .db 1)]

/-- The bytes of a sequence of directives; bootloader/fat12.inc:5-26. -/
def emit (l : List (String × Item)) : List (BitVec 8) := l.flatMap fun p => p.2.bytes

/-- The place of a label; bootloader/fat12.inc:5-26. -/
def offset (n : String) : List (String × Item) → Nat
  | [] => 0
  | (m, i) :: l => if m = n then 0 else i.bytes.length + offset n l

/-- `jmp short Start` and `nop`, bootloader/boot.asm:10-11: the operand of the jump counts from
the instruction behind it. -/
def jump : List (String × Item) :=
  [("", .db 0xEB), ("", .db (3 + (emit fat12).length + (emit messages).length - 2)), ("", .db 0x90)]

/-- The boot sector up to `Start`, bootloader/boot.asm:10-17. -/
def headItems : List (String × Item) := jump ++ fat12 ++ messages

/-- See `headItems`; bootloader/boot.asm:10-17. -/
def head : List (BitVec 8) := emit headItems

/-- The whole boot sector, bootloader/boot.asm:10-236, around the machine code of
bootloader/boot.asm:18-232; `times` with a negative number is an error of the assembler
(bootloader/boot.asm:235). -/
def sector (code : List (BitVec 8)) : Option (List (BitVec 8)) :=
  if (head ++ code).length ≤ 510 then
    some (head ++ code ++ List.replicate (510 - (head ++ code).length) 0 ++ le 0xaa55 2)
  else none

/-- `org`, bootloader/boot.asm:1. -/
def org : Nat := 0x7c00

/-- The address of a label in the data segment of the boot code, bootloader/boot.asm:1,17. -/
def addr (n : String) : BitVec 16 := BitVec.ofNat 16 (org + offset n headItems)

/-- The name of the kernel, bootloader/loader.asm:40. -/
def kernelName : List (BitVec 8) := (Item.str "EOSPP   BIN").bytes

end Verif.Bpb
