import Verif.Model.Boot
import Verif.Model.E820
import Verif.Model.Paging

/-!
Model of the second half of `bootloader/loader.asm`, between `Kernel_Loaded` and the jump to
the kernel: the memory map is fetched from the BIOS, the graphics information is fetched, and
the temporary page tables are written. Memory is physical memory byte by byte (as in
`Verif.Boot`). Messages and the graphics mode switch are not modelled; descriptor tables and the
switch of the processor mode are in `Verif.Mode`.
-/

namespace Verif.Loader
open Verif

/-- Physical memory (the memory of `Boot.M`; the buffers of bootloader/loader.asm:6-10). -/
abbrev Phys := Nat → BitVec 8

/-- The BIOS function `int 15h`, `eax = 0xE820`, `ecx = 20` (called at
bootloader/loader.asm:333-337): for the continuation value in `ebx`, either carry, or the bytes
stored at `es:di` and the new `ebx`. -/
abbrev Bios := BitVec 32 → Option (List UInt8 × BitVec 32)

/-- Stores of the BIOS at `es:di` with `es = 0` (set up at bootloader/loader.asm:328-331); the
offset has 16 bits. -/
def put (m : Phys) (di : BitVec 16) : List UInt8 → Phys
  | [] => m
  | b :: bs => put (fun a => if a = di.toNat then b.toBitVec else m a) (di + 1) bs

/-- `Get_Memory`, bootloader/loader.asm:333-342; `none` is `Fail_Get_Memory`
(bootloader/loader.asm:343-348), which stops the machine. -/
def getMemory (bios : Bios) : Nat → BitVec 32 → BitVec 16 → Phys → Res (Option Phys)
  | 0, _, _, _ => .oof
  | f + 1, ebx, di, m =>
    match bios ebx with
    | none => .ok none
    | some (bs, ebx') =>
      let m := put m di bs
      if ebx' = 0 then .ok (some m)
      else getMemory bios f ebx' (di + 20) m

/-- `Get_SVGA`, bootloader/loader.asm:355-367: `int 10h`, `ax = 0x4F00` stores its information
block at 0000:8000; `none` is the failure of the call (bootloader/loader.asm:368-372). -/
def getSvga (info : Option (List UInt8)) (m : Phys) : Option Phys := info.map (put m 0x8000)

/-- `mov dword [a], v`. bootloader/loader.asm:414-438. -/
def movDword (m : Phys) (a v : Nat) : Phys := fun b =>
  if a ≤ b ∧ b < a + 4 then BitVec.ofNat 8 (v / 256 ^ (b - a)) else m b

/-- The stores of the temporary page tables, bootloader/loader.asm:414-438. -/
def tables : List (Nat × Nat) :=
  [(0x90000, 0x91007), (0x90004, 0), (0x90800, 0x91007), (0x90804, 0),
   (0x91000, 0x92007), (0x91004, 0),
   (0x92000, 0x000083), (0x92004, 0),
   (0x92008, 0x200083), (0x9200c, 0),
   (0x92010, 0x400083), (0x92014, 0),
   (0x92018, 0x600083), (0x9201c, 0),
   (0x92020, 0x800083), (0x92024, 0),
   (0x92028, 0xa00083), (0x9202c, 0)]

/-- bootloader/loader.asm:414-438. -/
def writeTables (m : Phys) : Phys := tables.foldl (fun m p => movDword m p.1 p.2) m

/-- The value loaded into CR3, bootloader/loader.asm:454-455. -/
def tmpCr3 : Nat := 0x90000

/-- From `Kernel_Loaded` to the temporary page tables, bootloader/loader.asm:313-455. -/
def setup (bios : Bios) (svga : Option (List UInt8)) (f : Nat) (m : Phys) : Res (Option Phys) := do
  let r ← getMemory bios f 0 0x7E00 m
  match r with
  | none => .ok none
  | some m => .ok ((getSvga svga m).map writeTables)

/-- The loader from the search for the kernel to the temporary page tables,
bootloader/loader.asm:114-455; the first part is `Boot.loader`. -/
def start (e : Boot.Env) (bios : Bios) (svga : Option (List UInt8)) (f : Nat) (s : Boot.M) : Res (Option Phys) := do
  let r ← Boot.loader e f s
  match r with
  | none => .ok none
  | some s => setup bios svga f s.mem

/-- `Support_Long_Mode`, bootloader/loader.asm:472-485: `cpuid` gives `eax` and `edx` for a
leaf; the result is `eax`. -/
def supportLongMode (cpuid : BitVec 32 → BitVec 32 × BitVec 32) : BitVec 32 :=
  let a := (cpuid 0x80000000).1
  let al : Bool := !decide (a < 0x80000001)
  if a < 0x80000001 then (if al then 1 else 0)
  else
    let d := (cpuid 0x80000001).2
    let al : Bool := d.getLsbD 29
    if al then 1 else 0

/-- The 8-byte word at a physical address, as the page walk reads it (little endian; tables
of bootloader/loader.asm:414-438 and kernel/head.S:52-82). -/
def word (m : Phys) (a : Nat) : Nat :=
  (m a).toNat + 256 * ((m (a + 1)).toNat + 256 * ((m (a + 2)).toNat + 256 * ((m (a + 3)).toNat +
    256 * ((m (a + 4)).toNat + 256 * ((m (a + 5)).toNat + 256 * ((m (a + 6)).toNat + 256 * (m (a + 7)).toNat))))))

/-- Memory as the processor sees it through the page tables at `cr3`
(bootloader/loader.asm:454-455, kernel/head.S:23-24). -/
def view (m : Phys) (cr3 : Nat) : Mem := fun va =>
  (Paging.walk (word m) cr3 va).map fun p => UInt8.ofBitVec (m p.1)

end Verif.Loader
