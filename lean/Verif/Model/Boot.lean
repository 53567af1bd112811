import Verif.Base.Res

/-!
Model of the floppy part of the boot code: bootloader/boot.asm and bootloader/loader.asm
(real mode, 16-bit registers), on a 1.44 MB floppy behind the BIOS service `int 13h`.

Memory is physical, byte by byte. Simplifications: the stack (below 0x7c00) and the
variables of the boot code are not part of this memory (values pushed and popped are Lean
variables; `SectorNo` and `KernelOffset` are fields); the counters `cx`, `dx` of the
search loops, which only run from a constant down to 0, are natural numbers; screen
output (`int 10h`) is left out.
-/

namespace Verif.Boot
open Verif

/-- Registers, memory, the variables `SectorNo` (bootloader/fat12.inc:24) and
`KernelOffset` (bootloader/loader.asm:24), the number of BIOS disk calls so far, and
the (cylinder, head, sector) each of them was made for, most recent first. -/
structure M where
  ax : BitVec 16
  bx : BitVec 16
  cx : BitVec 16
  dx : BitVec 16
  si : BitVec 16
  di : BitVec 16
  es : BitVec 16
  sectorNo : BitVec 16
  kernelOffset : BitVec 32
  mem : Nat → BitVec 8
  calls : Nat
  log : List (Nat × Nat × Nat)

/-- The environment: the bytes of the disk; for every BIOS call whether it fails for
some transient reason (and then what it leaves in the buffer); the bytes of the data
segment that hold the name looked for, and where (bootloader/boot.asm:17,
bootloader/loader.asm:40). -/
structure Env where
  disk : Nat → BitVec 8
  flaky : Nat → Option (Nat → BitVec 8)
  data : BitVec 16 → BitVec 8
  name : BitVec 16

/-- High and low halves of a register (`ah`, `al`, ...; bootloader/boot.asm:171-177). -/
def hi8 (x : BitVec 16) : BitVec 8 := (x >>> 8).setWidth 8
/-- See `hi8`; bootloader/boot.asm:171-177. -/
def lo8 (x : BitVec 16) : BitVec 8 := x.setWidth 8

/-- A register from its halves; bootloader/boot.asm:171-177. -/
def pack (h l : BitVec 8) : BitVec 16 := h ++ l

/-- Real mode address (`es:bx`, `es:di`; bootloader/boot.asm:81,116,183,223). -/
def phys (seg off : BitVec 16) : Nat := seg.toNat * 16 + off.toNat

/-- `int 13h`, function 2 (bootloader/boot.asm:183): reads `al` sectors from cylinder
`ch` (and bits 6,7 of `cl`), sector `cl`, head `dh` to `es:bx`. It fails for addresses
that do not exist, for reads beyond the end of the track, for buffers that cross a 64 KiB
boundary, and transiently. Result: the state and the carry flag. -/
def int13 (e : Env) (s : M) : M × Bool :=
  let cnt := (lo8 s.ax).toNat
  let cyl := (hi8 s.cx).toNat + (lo8 s.cx).toNat / 64 * 256
  let sec := (lo8 s.cx).toNat % 64
  let head := (hi8 s.dx).toNat
  let buf := phys s.es s.bx
  if cyl < 80 ∧ head < 2 ∧ 1 ≤ sec ∧ sec - 1 + cnt ≤ 18 ∧ 1 ≤ cnt ∧ buf / 65536 = (buf + cnt * 512 - 1) / 65536
      ∧ (e.flaky s.calls).isNone then
    let lba := (cyl * 2 + head) * 18 + (sec - 1)
    ({ s with
        ax := pack 0 (lo8 s.ax)
        calls := s.calls + 1
        log := (cyl, head, sec) :: s.log
        mem := fun a => if buf ≤ a ∧ a < buf + cnt * 512 then e.disk (lba * 512 + (a - buf)) else s.mem a }, false)
  else
    ({ s with
        ax := pack 1 0
        calls := s.calls + 1
        log := (cyl, head, sec) :: s.log
        mem := fun a =>
          match e.flaky s.calls with
          | some junk => if buf ≤ a ∧ a < buf + cnt * 512 then junk a else s.mem a
          | none => s.mem a }, true)

/-- `Go_On_Reading`, bootloader/boot.asm:180-184, bootloader/loader.asm:201-205: try until the
carry flag is clear. -/
def goOnReading (e : Env) (cnt : BitVec 8) : Nat → M → Res M
  | 0, _ => .oof
  | f + 1, s =>
    let r := int13 e { s with ax := pack 2 cnt }
    if r.2 then goOnReading e cnt f r.1 else .ok r.1

/-- `Read_One_Sector`, bootloader/boot.asm:163-187, bootloader/loader.asm:184-208. `div` by the
byte 18 (bootloader/fat12.inc:14) traps if the quotient does not fit into `al`. -/
def readSector (e : Env) (f : Nat) (s : M) : Res M := do
  let cnt := lo8 s.cx
  Res.require (s.ax.toNat / 18 < 256)
  let al := BitVec.ofNat 8 (s.ax.toNat / 18)
  let ah := BitVec.ofNat 8 (s.ax.toNat % 18)
  let ah := ah + 1
  let cl := ah
  let dh := al
  let al := al >>> 1
  let ch := al
  let dh := dh &&& 1
  goOnReading e cnt f { s with ax := pack ah al, cx := pack ch cl, dx := pack dh 0 }

/-- A word at `seg:off` (bootloader/boot.asm:116,223). -/
def word (s : M) (seg off : BitVec 16) : BitVec 16 := pack (s.mem (phys seg (off + 1))) (s.mem (phys seg off))

/-- `mov cl, n` (bootloader/boot.asm:60,135,217). -/
def setCl (x : BitVec 16) (n : BitVec 8) : BitVec 16 := pack (hi8 x) n

/-- `Get_FAT_Entry`, bootloader/boot.asm:193-232, bootloader/loader.asm:210-247: `ax` is the cluster
number and the result. `es` and `bx` are saved and restored. The 16-bit `div`s trap if
the quotient does not fit. -/
def getFatEntry (e : Env) (f : Nat) (s : M) : Res M := do
  let es0 := s.es
  let bx0 := s.bx
  let s := { s with es := 0 }
  let prod := s.ax.toNat * 3
  Res.require (prod / 2 < 65536)
  let odd : Bool := prod % 2 ≠ 0
  let ax := BitVec.ofNat 16 (prod / 2)
  let q := ax.toNat / 512
  let r := BitVec.ofNat 16 (ax.toNat % 512)
  let s := { s with bx := 0x8000, ax := BitVec.ofNat 16 q + 1, cx := setCl s.cx 2 }
  let s ← readSector e f s
  let bx := s.bx + r
  let ax := word s s.es bx
  let ax := if odd then ax >>> 4 else ax
  let ax := ax &&& 0xfff
  .ok { s with ax := ax, dx := r, bx := bx0, es := es0 }

/-- `Cmp_File_Name` and `Cmp_Next`, bootloader/boot.asm:74-87, bootloader/loader.asm:137-148; `n` is `cx`. -/
def cmpFileName (e : Env) : Nat → M → M × Bool
  | 0, s => (s, true)
  | n + 1, s =>
    let al := e.data s.si
    let s := { s with si := s.si + 1, ax := pack (hi8 s.ax) al }
    if al = s.mem (phys s.es s.di) then cmpFileName e n { s with di := s.di + 1 } else (s, false)

/-- `Search_For_LoaderBin` and `File_Different`, bootloader/boot.asm:67-94,
bootloader/loader.asm:131-155; `n` is `dx`. -/
def searchSector (e : Env) : Nat → M → M × Bool
  | 0, s => (s, false)
  | n + 1, s =>
    let r := cmpFileName e 11 s
    if r.2 then (r.1, true)
    else searchSector e n { r.1 with di := (r.1.di &&& 0xFFE0) + 0x20, si := e.name }

/-- `Search_In_Root_Dir_Begin` and `Goto_Next_Sector_In_Root_Dir`,
bootloader/boot.asm:51-65,152-155, bootloader/loader.asm:116-129,173-176; `n` is `RootDirSizeForLoop`. -/
def searchRootDir (e : Env) (f : Nat) : Nat → M → Res (M × Bool)
  | 0, s => .ok (s, false)
  | n + 1, s => do
    let s := { s with es := 0, bx := 0x8000, ax := s.sectorNo, cx := setCl s.cx 1 }
    let s ← readSector e f s
    let s := { s with si := e.name, di := 0x8000 }
    let r := searchSector e 16 s
    if r.2 then .ok (r.1, true)
    else searchRootDir e f n { r.1 with sectorNo := r.1.sectorNo + 1 }

/-- The search with its start values, bootloader/boot.asm:49-51, bootloader/loader.asm:114-116,
bootloader/fat12.inc:1-2,26, up to reading the start cluster at `Loader_Found`,
bootloader/boot.asm:111-117, bootloader/loader.asm:255-260. The result is that cluster. -/
def search (e : Env) (f : Nat) (s : M) : Res (M × Option (BitVec 16)) := do
  let r ← searchRootDir e f 14 { s with sectorNo := 19 }
  if r.2 then
    let s := { r.1 with di := (r.1.di &&& 0xFFE0) + 0x1A }
    .ok (s, some (word s s.es s.di))
  else .ok (r.1, none)

/-- `Go_On_Loading_File`, bootloader/boot.asm:125-146; `c` is the cluster on the stack. -/
def loadFile (e : Env) (f : Nat) : Nat → BitVec 16 → M → Res M
  | 0, _, _ => .oof
  | n + 1, c, s => do
    let s ← readSector e f { s with cx := setCl s.cx 1 }
    let s ← getFatEntry e f { s with ax := c }
    if s.ax = 0xFFF then .ok s
    else
      let c := s.ax
      loadFile e f n c { s with ax := s.ax + 14 + 17, bx := s.bx + 512 }

/-- `boot.asm` from the search to the jump to the loader, bootloader/boot.asm:49-150;
`none` is the endless loop after "Eospp loader don't exist". -/
def boot (e : Env) (f : Nat) (s : M) : Res (Option M) := do
  let r ← search e f s
  match r.2 with
  | none => .ok none
  | some c => do
    let s ← loadFile e f f c { r.1 with es := 0x1000, bx := 0, ax := c + 14 + 17 }
    .ok (some s)

/-- `Mov_Kernel`, bootloader/loader.asm:278-292: `n` is `cx`; `ds` and `fs` have base 0
(`fs` keeps its 4 GiB limit, and A20 is open; see C90). -/
def movKernel : Nat → BitVec 32 → BitVec 32 → (Nat → BitVec 8) → (Nat → BitVec 8) × BitVec 32
  | 0, edi, _, m => (m, edi)
  | n + 1, edi, esi, m =>
    movKernel n (edi + 1) (esi + 1) (fun a => if a = edi.toNat then m esi.toNat else m a)

/-- `Loading_EosppBin`, bootloader/loader.asm:268-311; `c` is the cluster on the stack. -/
def loadKernel (e : Env) (f : Nat) : Nat → BitVec 16 → M → Res M
  | 0, _, _ => .oof
  | n + 1, c, s => do
    let s ← readSector e f { s with cx := setCl s.cx 1 }
    let r := movKernel 0x200 s.kernelOffset 0x7E00 s.mem
    let s := { s with mem := r.1, kernelOffset := r.2 }
    let s ← getFatEntry e f { s with ax := c }
    if s.ax = 0xFFF then .ok s
    else
      let c := s.ax
      loadKernel e f n c { s with ax := s.ax + 14 + 17 }

/-- `loader.asm` from the search to `Kernel_Loaded`, bootloader/loader.asm:114-313. -/
def loader (e : Env) (f : Nat) (s : M) : Res (Option M) := do
  let r ← search e f { s with kernelOffset := 0x100000 }
  match r.2 with
  | none => .ok none
  | some c => do
    let s ← loadKernel e f f c { r.1 with es := 0, bx := 0x7E00, ax := c + 14 + 17 }
    .ok (some s)

end Verif.Boot
