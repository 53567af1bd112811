/-!
Model of what the boot sector and the loader write on the text screen (`bootloader/boot.asm`, `bootloader/loader.asm`), up to the
entry of the kernel. The answers of disk, BIOS and CPU are parameters; finding and loading files is C65 and C66, the memory map
C75. The screen is page 0 of an 80 by 25 text mode. Simplified: the BIOS keeps the registers the code relies on.
-/

namespace Verif.LoadMsg

/-- Character and attribute at every place (row times 80 plus column) and the cursor, as changed by bootloader/boot.asm:25-43,
98-107, 128-131, bootloader/loader.asm:162-170. -/
structure Scr where
  cells : Nat → Nat × Nat
  cursor : Nat

/-- INT 10h AX=0600h, BH=7, CX=0, DX=184fh: all of the window is blank. bootloader/boot.asm:25-29. -/
def clear (s : Scr) : Scr := { s with cells := fun _ => (32, 7) }

/-- INT 10h AH=02h, bootloader/boot.asm:31-34. -/
def setCursor (row col : Nat) (s : Scr) : Scr := { s with cursor := row * 80 + col }

/-- INT 10h AX=1301h, bootloader/boot.asm:38-43, 98-107, bootloader/loader.asm:167-170: characters from `row`, `col` on, all
with the same attribute; the cursor moves behind them. `none`: the text would scroll (not modelled). -/
def writeString (bytes : List Nat) (attr row col : Nat) (s : Scr) : Option Scr :=
  let p := row * 80 + col
  if p + bytes.length < 2000 then
    some { cells := fun x => if p ≤ x ∧ x < p + bytes.length then (bytes[x - p]!, attr) else s.cells x
           cursor := p + bytes.length }
  else none

/-- INT 10h AH=0Eh, bootloader/boot.asm:128-131: a character at the cursor, the attribute stays. -/
def teletype (c : Nat) (s : Scr) : Option Scr :=
  if s.cursor + 1 < 2000 then
    some { cells := fun x => if x = s.cursor then (c, (s.cells x).2) else s.cells x, cursor := s.cursor + 1 }
  else none

/-- The answers of the machine. `loader`: number of clusters of LOADER.BIN, if it exists (bootloader/boot.asm:77, 96, 139);
`bhPage`: INT 10h AH=0Eh writes on page BH and not on the visible one (bootloader/boot.asm:127-131); `kernel`: EOSPP.BIN exists
(bootloader/loader.asm:118, 139); `e820`: carry and "EBX is not 0" of each call (338-341); `vbeInfo`, `vbeMode`: AX is 004fh
(366-367, 382-383); `maxLeaf`, `features`: EAX and EDX of CPUID (473-481). -/
structure Machine where
  loader : Option Nat
  bhPage : Bool
  kernel : Bool
  e820 : List (Bool × Bool)
  vbeInfo : Bool
  vbeMode : Bool
  maxLeaf : Nat
  features : Nat

/-- How booting ends: stopped on purpose (`jmp $`, bootloader/boot.asm:108, bootloader/loader.asm:252, 348, 372), in the kernel
(471), in code that is not what was written (see `report`), or in a list of answers that has no end (341). -/
inductive End where
  | stopped | kernel | astray | busy
  deriving DecidableEq

/-- `StartEosppBootMsg`, bootloader/boot.asm:15. -/
def StartEosppBootMsg : List Nat := [83, 116, 97, 114, 116, 32, 69, 111, 115, 112, 112, 32, 98, 111, 111, 116]

/-- `NoEosppLoaderMsg`, bootloader/boot.asm:16. -/
def NoEosppLoaderMsg : List Nat := [69, 111, 115, 112, 112, 32, 108, 111, 97, 100, 101, 114, 32, 100, 111, 110, 39, 116, 32, 101, 120, 105, 115, 116]

/-- `LoaderFileName`, bootloader/boot.asm:17, the bytes behind the messages. -/
def LoaderFileName : List Nat := [76, 79, 65, 68, 69, 82, 32, 32, 66, 73, 78, 1]

/-- The data of the boot sector from `StartEosppBootMsg` on, bootloader/boot.asm:15-17. -/
def bootData : List Nat := StartEosppBootMsg ++ NoEosppLoaderMsg ++ LoaderFileName

/-- The `n` bytes at offset `a` of the data, as read by INT 10h AX=1301h at ES:BP, bootloader/boot.asm:41-43, 101-107,
bootloader/loader.asm:163-170. -/
def bytesAt (d : List Nat) (a n : Nat) : List Nat := (d.drop a).take n

/-- The dots written while the loader is read, one per cluster, bootloader/boot.asm:125-146: BX, whose upper half is the page, is
512 more for each cluster. -/
def dots (m : Machine) : Nat → Nat → Scr → Option Scr
  | _, 0, s => some s
  | i, n + 1, s => do
    let bx := (512 * i) % 65536
    let s ← if m.bhPage && bx / 256 ≠ 0 then some s else teletype 46 s
    dots m (i + 1) n s

/-- The boot sector, bootloader/boot.asm:18-150; `none` as the end: the loader is entered. -/
def boot (m : Machine) (s : Scr) : Option (Scr × Option End) := do
  let s := setCursor 0 0 (clear s)
  let s ← writeString (bytesAt bootData 0 16) 0x0f 0 0 s
  match m.loader with
  | none => do
    let s ← writeString (bytesAt bootData 16 24) 0x8c 1 0 s
    return (s, some .stopped)
  | some n => do
    let s ← dots m 0 n s
    return (s, none)

/-- `EosppBinName`, bootloader/loader.asm:40. -/
def EosppBinName : List Nat := [69, 79, 83, 80, 80, 32, 32, 32, 66, 73, 78, 0]

/-- `NoEosppBinMsg`, bootloader/loader.asm:41. -/
def NoEosppBinMsg : List Nat := [69, 111, 115, 112, 112, 46, 98, 105, 110, 32, 100, 111, 110, 39, 116, 32, 101, 120, 105, 115, 116]

/-- `GetMemoryMsg`, bootloader/loader.asm:42. -/
def GetMemoryMsg : List Nat := [83, 116, 97, 114, 116, 32, 116, 111, 32, 103, 101, 116, 32, 104, 97, 114, 100, 119, 97, 114, 101, 32, 109, 101, 109, 111, 114, 121]

/-- `FailedGetMemoryMsg`, bootloader/loader.asm:43. -/
def FailedGetMemoryMsg : List Nat := [102, 97, 105, 108, 101, 100, 32, 116, 111, 32, 103, 101, 116, 32, 104, 97, 114, 100, 119, 97, 114, 101, 32, 109, 101, 109, 111, 114, 121]

/-- `SuccessGetMemoryMsg`, bootloader/loader.asm:44. -/
def SuccessGetMemoryMsg : List Nat := [71, 101, 116, 32, 104, 97, 114, 100, 119, 97, 114, 101, 32, 109, 101, 109, 111, 114, 121, 32, 115, 117, 99, 99, 101, 115, 115, 102, 117, 108]

/-- `StartEosppLoaderMsg`, bootloader/loader.asm:45. -/
def StartEosppLoaderMsg : List Nat := [83, 116, 97, 114, 116, 32, 69, 111, 115, 112, 112, 32, 76, 111, 97, 100, 101, 114]

/-- `GetSVGAMsg`, bootloader/loader.asm:46. -/
def GetSVGAMsg : List Nat := [83, 116, 97, 114, 116, 32, 116, 111, 32, 103, 101, 116, 32, 83, 86, 71, 65]

/-- `FailedGetSVGAMsg`, bootloader/loader.asm:47. -/
def FailedGetSVGAMsg : List Nat := [102, 97, 105, 108, 101, 100, 32, 116, 111, 32, 103, 101, 116, 32, 83, 86, 71, 65]

/-- `NoSupportLongModeMsg`, bootloader/loader.asm:48. -/
def NoSupportLongModeMsg : List Nat := [110, 111, 32, 115, 117, 112, 112, 111, 114, 116, 32, 108, 111, 110, 103, 32, 109, 111, 100, 101]

/-- `FinishLoadEosppBinMsg`, bootloader/loader.asm:49. -/
def FinishLoadEosppBinMsg : List Nat := [76, 111, 97, 100, 32, 69, 111, 115, 112, 112, 46, 98, 105, 110, 32, 115, 117, 99, 99, 101, 115, 115, 102, 117, 108]

/-- `FailSetSVGAModeMsg`, bootloader/loader.asm:50. -/
def FailSetSVGAModeMsg : List Nat := [102, 97, 105, 108, 101, 100, 32, 116, 111, 32, 115, 101, 116, 32, 83, 86, 71, 65, 32, 109, 111, 100, 101]

/-- `GetSVGAMsgSuccessMsg`, bootloader/loader.asm:51. -/
def GetSVGAMsgSuccessMsg : List Nat := [71, 101, 116, 32, 83, 86, 71, 65, 32, 105, 110, 102, 111, 32, 115, 117, 99, 99, 101, 115, 115, 102, 117, 108]

/-- The data of the section `OutMsg`, bootloader/loader.asm:39-51. -/
def loaderData : List Nat := EosppBinName ++ NoEosppBinMsg ++ GetMemoryMsg ++ FailedGetMemoryMsg ++ SuccessGetMemoryMsg ++ StartEosppLoaderMsg ++ GetSVGAMsg ++ FailedGetSVGAMsg ++ NoSupportLongModeMsg ++ FinishLoadEosppBinMsg ++ FailSetSVGAModeMsg ++ GetSVGAMsgSuccessMsg

/-- A message: offset in the section and the length given for it, bootloader/loader.asm:40-65. -/
structure Msg where
  off : Nat
  len : Nat

/-- The label `NoEosppBinMsg` and its length, bootloader/loader.asm:41, 58. -/
def mNoEosppBinMsg : Msg := ⟨12, 21⟩

/-- The label `GetMemoryMsg` and its length, bootloader/loader.asm:42, 61. -/
def mGetMemoryMsg : Msg := ⟨33, 28⟩

/-- The label `FailedGetMemoryMsg` and its length, bootloader/loader.asm:43, 59. -/
def mFailedGetMemoryMsg : Msg := ⟨61, 29⟩

/-- The label `SuccessGetMemoryMsg` and its length, bootloader/loader.asm:44, 60. -/
def mSuccessGetMemoryMsg : Msg := ⟨90, 30⟩

/-- The label `StartEosppLoaderMsg` and its length, bootloader/loader.asm:45, 62. -/
def mStartEosppLoaderMsg : Msg := ⟨120, 18⟩

/-- The label `GetSVGAMsg` and its length, bootloader/loader.asm:46, 56. -/
def mGetSVGAMsg : Msg := ⟨138, 17⟩

/-- The label `FailedGetSVGAMsg` and its length, bootloader/loader.asm:47, 55. -/
def mFailedGetSVGAMsg : Msg := ⟨155, 18⟩

/-- The label `NoSupportLongModeMsg` and its length, bootloader/loader.asm:48, 54. -/
def mNoSupportLongModeMsg : Msg := ⟨173, 20⟩

/-- The label `FinishLoadEosppBinMsg` and its length, bootloader/loader.asm:49, 63. -/
def mFinishLoadEosppBinMsg : Msg := ⟨193, 25⟩

/-- The label `FailSetSVGAModeMsg` and its length, bootloader/loader.asm:50, 64. -/
def mFailSetSVGAModeMsg : Msg := ⟨218, 23⟩

/-- The label `GetSVGAMsgSuccessMsg` and its length, bootloader/loader.asm:51, 65. -/
def mGetSVGAMsgSuccessMsg : Msg := ⟨241, 24⟩

/-- The loader: screen and the variable `OutLine` (bootloader/loader.asm:52). -/
structure St where
  scr : Scr
  line : Nat

/-- `Printf`, bootloader/loader.asm:162-172: DX is the variable, row in the upper and column in the lower half. The variable lies
behind the messages (line 52). -/
def printf (msg : Msg) (s : St) : Option St := do
  let scr ← writeString (bytesAt (loaderData ++ [s.line % 256, s.line / 256]) msg.off msg.len) 0x0f (s.line / 256) (s.line % 256) s.scr
  return ⟨scr, (s.line + 0x200) % 65536⟩

/-- The calls for the memory map, bootloader/loader.asm:333-343: `true` if the last entry came without carry, `none` if the
answers do not end. -/
def getMemory : List (Bool × Bool) → Option Bool
  | [] => none
  | (true, _) :: _ => some false
  | (false, false) :: _ => some true
  | (false, true) :: rest => getMemory rest

/-- `Support_Long_Mode`, bootloader/loader.asm:472-485. -/
def supportLongMode (m : Machine) : Bool :=
  if m.maxLeaf < 0x80000001 then false else m.features.testBit 29

/-- What code was assembled for, bootloader/loader.asm:69, 398, and what the CPU runs. -/
inductive Bits where
  | b16 | b32
  deriving DecidableEq

/-- A message followed by `jmp $`, as in bootloader/loader.asm:248-252, 343-348, 368-372, 487-497. It does what is written only if
the block (`blk`) and `Printf` (`.b16`, line 69) are assembled for the mode the CPU is in; the BIOS that `Printf` calls works in
16-bit mode. -/
def report (blk cpu : Bits) (msg : Msg) (s : St) : Option (Scr × End) :=
  if blk = cpu && cpu = .b16 then do
    let s ← printf msg s
    return (s.scr, .stopped)
  else some (s.scr, .astray)

/-- The loader, bootloader/loader.asm:70-497. -/
def loader (m : Machine) (scr : Scr) : Option (Scr × End) := do
  let s ← printf mStartEosppLoaderMsg ⟨scr, 0x200⟩
  if !m.kernel then report .b16 .b16 mNoEosppBinMsg s
  else do
    let s ← printf mFinishLoadEosppBinMsg s
    let s ← printf mGetMemoryMsg s
    match getMemory m.e820 with
    | none => return (s.scr, .busy)
    | some false => report .b16 .b16 mFailedGetMemoryMsg s
    | some true => do
      let s ← printf mSuccessGetMemoryMsg s
      let s ← printf mGetSVGAMsg s
      if !m.vbeInfo then report .b16 .b16 mFailedGetSVGAMsg s
      else do
        let s ← printf mGetSVGAMsgSuccessMsg s
        if !m.vbeMode then report .b32 .b16 mFailSetSVGAModeMsg s
        else if !supportLongMode m then report .b32 .b32 mNoSupportLongModeMsg s
        else return (s.scr, .kernel)

/-- The way from power on, bootloader/boot.asm:18-150, bootloader/loader.asm:70-497. -/
def start (m : Machine) (s : Scr) : Option (Scr × End) := do
  match ← boot m s with
  | (s, some e) => return (s, e)
  | (s, none) => loader m s

/-- The bytes of `Set_Svga_Mode_Failed`, bootloader/loader.asm:494-497, assembled for 32 bits (line 398): `mov ax, len`,
`mov bx, msg`, `call Printf`, `jmp $`. `base` is the address of the block. -/
def svgaBlock (base len msg prt : BitVec 32) : List (BitVec 8) :=
  let rel := prt - (base + 13)
  [0x66, 0xB8, len.extractLsb' 0 8, len.extractLsb' 8 8, 0x66, 0xBB, msg.extractLsb' 0 8, msg.extractLsb' 8 8,
   0xE8, rel.extractLsb' 0 8, rel.extractLsb' 8 8, rel.extractLsb' 16 8, rel.extractLsb' 24 8, 0xEB, 0xFE]

/-- The block as it is assembled when bootloader/loader.asm:494-497 is moved below the `[BITS 16]` of line 69: the repair. -/
def svgaBlock16 (base len msg prt : BitVec 16) : List (BitVec 8) :=
  let rel := prt - (base + 9)
  [0xB8, len.extractLsb' 0 8, len.extractLsb' 8 8, 0xBB, msg.extractLsb' 0 8, msg.extractLsb' 8 8,
   0xE8, rel.extractLsb' 0 8, rel.extractLsb' 8 8, 0xEB, 0xFE]

/-- Instructions of the block, as decoded; the forms that occur in bootloader/loader.asm:494-497. -/
inductive Instr where
  | movAx (v : BitVec 16)
  | movBx (v : BitVec 16)
  | movEax (v : BitVec 32)
  | call16 (rel : BitVec 16)
  | call32 (rel : BitVec 32)
  | jmp8 (rel : BitVec 8)
  deriving DecidableEq

/-- The first instruction and its length, in 16-bit mode (as in bootloader/loader.asm:383): the prefix 66h means 32-bit operands. -/
def decode16 : List (BitVec 8) → Option (Instr × Nat)
  | 0x66#8 :: 0xB8#8 :: a :: b :: c :: d :: _ => some (.movEax (d ++ c ++ b ++ a), 6)
  | 0xB8#8 :: a :: b :: _ => some (.movAx (b ++ a), 3)
  | 0xBB#8 :: a :: b :: _ => some (.movBx (b ++ a), 3)
  | 0xE8#8 :: a :: b :: _ => some (.call16 (b ++ a), 3)
  | 0xEB#8 :: a :: _ => some (.jmp8 a, 2)
  | _ => none

/-- The first instruction and its length, in 32-bit mode: the prefix 66h means 16-bit operands. bootloader/loader.asm:398. -/
def decode32 : List (BitVec 8) → Option (Instr × Nat)
  | 0x66#8 :: 0xB8#8 :: a :: b :: _ => some (.movAx (b ++ a), 4)
  | 0x66#8 :: 0xBB#8 :: a :: b :: _ => some (.movBx (b ++ a), 4)
  | 0xB8#8 :: a :: b :: c :: d :: _ => some (.movEax (d ++ c ++ b ++ a), 5)
  | 0xE8#8 :: a :: b :: c :: d :: _ => some (.call32 (d ++ c ++ b ++ a), 5)
  | 0xEB#8 :: a :: _ => some (.jmp8 a, 2)
  | _ => none

end Verif.LoadMsg
