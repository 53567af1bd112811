/-!
Model of the way from real mode to the kernel's `main` in 64-bit mode:
bootloader/loader.asm:385-471 (without the test for long mode and the stores of the page
tables, which are in `Verif.Loader`), kernel/head.S:4-48, the descriptor tables of both files,
and `_arch_enable_sse` (kernel/src/core/arch.s).

The processor is modelled with its control registers, the EFER register, the descriptor table
register, the segment registers with their cached descriptors, and the checks the processor makes
on loading them. A failed check is an exception; since no interrupt descriptor table
for the mode is set up on this path, it ends the machine, and is `none` here. The page walk of
instruction fetches, the reserved bits of CR4 and EFER, local descriptor tables (none is ever
loaded) and returns to outer privilege levels are not modelled; the last two count as failed.
-/

namespace Verif.Mode

/-- Bit `i` of a descriptor or register
(hardware; used on the constants of bootloader/loader.asm:14-35, kernel/head.S:90-98). -/
def bit {n : Nat} (v : BitVec n) (i : Nat) : Bool := v.getLsbD i

/-! Fields of a segment descriptor. -/

/-- Code or data (not a system descriptor); hardware, for kernel/head.S:90-98. -/
def isSeg (d : BitVec 64) : Bool := bit d 44
/-- Code segment; hardware, for kernel/head.S:90-98. -/
def isCode (d : BitVec 64) : Bool := bit d 43
/-- Conforming (code); hardware, for kernel/head.S:90-98. -/
def conforming (d : BitVec 64) : Bool := bit d 42
/-- Readable (code) or writable (data); hardware, for kernel/head.S:90-98. -/
def rw (d : BitVec 64) : Bool := bit d 41
/-- Descriptor privilege level; hardware, for kernel/head.S:90-98. -/
def dpl (d : BitVec 64) : Nat := (d.extractLsb' 45 2).toNat
/-- Present; hardware, for kernel/head.S:90-98. -/
def isPresent (d : BitVec 64) : Bool := bit d 47
/-- 64-bit code; hardware, for kernel/head.S:90-98. -/
def long (d : BitVec 64) : Bool := bit d 53
/-- 32-bit code; hardware, for kernel/head.S:90-98. -/
def big (d : BitVec 64) : Bool := bit d 54
/-- Segment base; hardware, for bootloader/loader.asm:16-18. -/
def base (d : BitVec 64) : Nat :=
  (d.extractLsb' 16 24).toNat + (d.extractLsb' 56 8).toNat * 2 ^ 24
/-- Segment limit in bytes (inclusive); hardware, for bootloader/loader.asm:16-18. -/
def limit (d : BitVec 64) : Nat :=
  let l := (d.extractLsb' 0 16).toNat + (d.extractLsb' 48 4).toNat * 2 ^ 16
  if bit d 55 then l * 4096 + 4095 else l

/-- A segment register: selector and cached descriptor
(hardware, as loaded at kernel/head.S:6-9, 16-20, 35-38). -/
structure Seg where
  sel : BitVec 16
  desc : BitVec 64
  deriving DecidableEq

/-- The segment registers loaded by `mov` (kernel/head.S:6-9, 16-20, 35-38). -/
inductive SegReg where
  | ds | es | fs | gs | ss
  deriving DecidableEq

/-- Processor state (hardware). CR0 and CR4 have 32 bits, their upper halves being reserved;
`gdtLimit` and `gdt` are the descriptor table register and the table it points to; `mem` is the
stack memory by words, as in `Verif.Stubs`. Registers of bootloader/loader.asm:385-471,
kernel/head.S:4-48, kernel/src/core/arch.s:6-23. -/
structure Cpu where
  cr0 : BitVec 32
  cr3 : BitVec 64
  cr4 : BitVec 32
  efer : BitVec 64
  gdtLimit : Nat
  gdt : List (BitVec 64)
  cs : Seg
  seg : SegReg → Seg
  ie : Bool
  rip : BitVec 64
  rsp : BitVec 64
  rax : BitVec 64
  rbx : BitVec 64
  rcx : BitVec 64
  rdx : BitVec 64
  mem : BitVec 64 → BitVec 64

/-- Protection enabled: CR0 bit 0 (hardware, set at bootloader/loader.asm:392). -/
def Cpu.pe (s : Cpu) : Bool := bit s.cr0 0
/-- Paging enabled: CR0 bit 31 (hardware, set at bootloader/loader.asm:464). -/
def Cpu.pg (s : Cpu) : Bool := bit s.cr0 31
/-- Physical address extension: CR4 bit 5 (hardware, set at bootloader/loader.asm:451). -/
def Cpu.pae (s : Cpu) : Bool := bit s.cr4 5
/-- Long mode enabled: EFER bit 8 (hardware, set at bootloader/loader.asm:459). -/
def Cpu.lme (s : Cpu) : Bool := bit s.efer 8
/-- Long mode active: EFER bit 10 (hardware, follows bootloader/loader.asm:466). -/
def Cpu.lma (s : Cpu) : Bool := bit s.efer 10
/-- 64-bit mode: long mode active and a 64-bit code segment
(hardware, after bootloader/loader.asm:471). -/
def Cpu.mode64 (s : Cpu) : Bool := s.lma && long s.cs.desc
/-- Current privilege level (hardware, during bootloader/loader.asm:385-471). -/
def Cpu.cpl (s : Cpu) : Nat := if s.pe then (s.cs.sel.extractLsb' 0 2).toNat else 0

/-- `mov cr0, …` (hardware, as used at bootloader/loader.asm:393, 466, kernel/src/core/arch.s:16):
paging needs protection; NW without CD is illegal; enabling paging with LME activates long mode,
which needs PAE and a code segment that is not a 64-bit one; paging cannot be switched off in
64-bit mode. -/
def Cpu.setCr0 (s : Cpu) (v : BitVec 32) : Option Cpu :=
  if s.cpl ≠ 0 then none
  else if bit v 31 && !bit v 0 then none
  else if bit v 29 && !bit v 30 then none
  else if bit v 31 && !s.pg && s.lme && (!s.pae || long s.cs.desc) then none
  else if !bit v 31 && s.pg && s.mode64 then none
  else some { s with
    cr0 := v
    efer := if bit v 31 && s.lme then s.efer ||| (1#64 <<< 10) else s.efer &&& ~~~(1#64 <<< 10) }

/-- `mov cr4, …` (hardware, as used at bootloader/loader.asm:452, kernel/src/core/arch.s:19):
PAE cannot be cleared in long mode. -/
def Cpu.setCr4 (s : Cpu) (v : BitVec 32) : Option Cpu :=
  if s.cpl ≠ 0 then none
  else if s.lma && !bit v 5 then none
  else some { s with cr4 := v }

/-- `wrmsr` to EFER (hardware, as used at bootloader/loader.asm:460): LME cannot be changed while
paging is on; LMA is not changed by it. -/
def Cpu.setEfer (s : Cpu) (v : BitVec 64) : Option Cpu :=
  if s.cpl ≠ 0 then none
  else if s.pg && (bit v 8 != s.lme) then none
  else some { s with efer := (v &&& ~~~(1#64 <<< 10)) ||| (s.efer &&& (1#64 <<< 10)) }

/-- The descriptor of a selector, if the selector is not null, designates the global table and
lies within its limit (hardware, for the selectors of bootloader/loader.asm:395-471,
kernel/head.S:5-44). -/
def Cpu.lookup (s : Cpu) (sel : BitVec 16) : Option (BitVec 64) :=
  let i := (sel >>> 3).toNat
  if i = 0 || bit sel 2 then none
  else if 8 * i + 7 ≤ s.gdtLimit then s.gdt[i]? else none

/-- Requested privilege level (hardware, for the selectors of kernel/head.S:5-44). -/
def rpl (sel : BitVec 16) : Nat := (sel.extractLsb' 0 2).toNat

/-- The cached descriptor after a load in real mode: the base becomes sixteen times the selector, the limit and the
rest stay (hardware, as used at bootloader/loader.asm:280, 300). -/
def realDesc (d : BitVec 64) (sel : BitVec 16) : BitVec 64 :=
  (d &&& ~~~0xFF0000FFFFFF0000#64) ||| (sel.setWidth 64 <<< 20)

/-- `mov ds/es/fs/gs/ss, ax` (hardware, as used at bootloader/loader.asm:99, 280, 402-405,
443-447, kernel/head.S:6-9, 16-20, 35-38). In real mode no check is made. -/
def Cpu.loadSeg (s : Cpu) (r : SegReg) (sel : BitVec 16) : Option Cpu :=
  let put (d : BitVec 64) : Cpu := { s with seg := fun x => if x = r then ⟨sel, d⟩ else s.seg x }
  if !s.pe then some (put (realDesc (s.seg r).desc sel))
  else if (sel >>> 2 : BitVec 16) = 0 then
    if r = .ss then
      if s.mode64 && decide (s.cpl < 3) && decide (rpl sel = s.cpl) then some (put 0#64) else none
    else some (put 0#64)
  else match s.lookup sel with
    | none => none
    | some d =>
      if !isPresent d || !isSeg d then none
      else if r = .ss then
        if isCode d || !rw d || decide (rpl sel ≠ s.cpl) || decide (dpl d ≠ s.cpl) then none else some (put d)
      else if isCode d && !rw d then none
      else if !(isCode d && conforming d) && decide (dpl d < max s.cpl (rpl sel)) then none
      else some (put d)

/-- The checks on the code segment of a far jump or return, same privilege
(hardware, as used at bootloader/loader.asm:395, 471, kernel/head.S:28, 45). -/
def Cpu.codeSeg (s : Cpu) (sel : BitVec 16) (off : BitVec 64) : Option Cpu :=
  match s.lookup sel with
  | none => none
  | some d =>
    if !isPresent d || !isSeg d || !isCode d then none
    else if s.lma && long d && big d then none
    else if conforming d && decide (s.cpl < dpl d) then none
    else if !conforming d && decide (dpl d ≠ s.cpl) then none
    else if !(s.lma && long d) && decide (limit d < off.toNat) then none
    else if s.lma && long d && decide (off.extractLsb' 47 17 ≠ 0 ∧ off.extractLsb' 47 17 ≠ -1) then none
    else some { s with cs := ⟨(sel &&& ~~~3#16) ||| BitVec.ofNat 16 s.cpl, d⟩, rip := off }

/-- Far jump (hardware, as used at bootloader/loader.asm:395, 471). -/
def Cpu.farJmp (s : Cpu) (sel : BitVec 16) (off : BitVec 64) : Option Cpu :=
  if !s.pe then none
  else match s.lookup sel with
    | none => none
    | some d => if !conforming d && decide (s.cpl < rpl sel) then none else s.codeSeg sel off

/-- `pushq` (hardware, as used at kernel/head.S:26-27, 43-44). -/
def Cpu.push (s : Cpu) (v : BitVec 64) : Cpu :=
  { s with rsp := s.rsp - 8, mem := fun a => if a = s.rsp - 8 then v else s.mem a }

/-- `lretq` (hardware, as used at kernel/head.S:28, 45); only the return to the same level. -/
def Cpu.lret (s : Cpu) : Option Cpu :=
  let sel := (s.mem (s.rsp + 8)).setWidth 16
  if !s.mode64 then none
  else if rpl sel ≠ s.cpl then none
  else ({ s with rsp := s.rsp + 16 } : Cpu).codeSeg sel (s.mem s.rsp)

/-- The instructions on the way (bootloader/loader.asm:90-103, 385-471, kernel/head.S:4-48,
kernel/src/core/arch.s:6-23). `mov32` and `mov64` give the register `rax` a constant. -/
inductive Instr where
  | cli | sti
  | lgdt (limit : Nat) (table : List (BitVec 64))
  | movAx (v : BitVec 16)
  | mov32 (v : BitVec 32)
  | mov64 (v : BitVec 64)
  | movEcx (v : BitVec 32)
  | movEsp (v : BitVec 32)
  | movRsp (v : BitVec 64)
  | eaxFromCr0 | cr0FromEax | eaxFromCr4 | cr4FromEax | cr3FromRax
  | raxFromCr0 | cr0FromRax | raxFromCr4 | cr4FromRax
  | orEax (v : BitVec 32)
  | btsEax (i : Nat)
  | andAx (v : BitVec 16)
  | andAl (v : BitVec 8)
  | orAx (v : BitVec 16)
  | rdmsr | wrmsr
  | movSeg (r : SegReg)
  | farJmp (sel : BitVec 16) (off : BitVec 64)
  | pushImm (v : BitVec 64)
  | pushRax
  | lretq

/-- The low half of a register (hardware, for bootloader/loader.asm:391-466). -/
abbrev lo (v : BitVec 64) : BitVec 32 := v.setWidth 32

/-- `ax` replaced (hardware, for bootloader/loader.asm:401, kernel/src/core/arch.s:14-18). -/
def setAx (v : BitVec 64) (x : BitVec 16) : BitVec 64 := (v &&& ~~~0xFFFF#64) ||| x.setWidth 64

/-- A 64-bit value for a register whose upper half is reserved
(hardware, as used at kernel/src/core/arch.s:16, 19). -/
def narrow (v : BitVec 64) : Option (BitVec 32) := if v >>> 32 = 0#64 then some (lo v) else none

/-- The effect of an instruction; `none` is an exception. A write to `eax` clears the upper half of
`rax` (hardware; instructions of bootloader/loader.asm:385-471, kernel/head.S:4-48,
kernel/src/core/arch.s:6-23). The only model-specific register accessed is EFER, as `ecx` says. -/
def step (s : Cpu) : Instr → Option Cpu
  | .cli => if s.cpl = 0 then some { s with ie := false } else none
  | .sti => if s.cpl = 0 then some { s with ie := true } else none
  | .lgdt l t => if s.cpl = 0 then some { s with gdtLimit := l, gdt := t } else none
  | .movAx v => some { s with rax := setAx s.rax v }
  | .mov32 v => some { s with rax := v.setWidth 64 }
  | .mov64 v => some { s with rax := v }
  | .movEcx v => some { s with rcx := v.setWidth 64 }
  | .movEsp v => some { s with rsp := v.setWidth 64 }
  | .movRsp v => some { s with rsp := v }
  | .eaxFromCr0 | .raxFromCr0 => if s.cpl = 0 then some { s with rax := s.cr0.setWidth 64 } else none
  | .eaxFromCr4 | .raxFromCr4 => if s.cpl = 0 then some { s with rax := s.cr4.setWidth 64 } else none
  | .cr0FromEax => s.setCr0 (lo s.rax)
  | .cr4FromEax => s.setCr4 (lo s.rax)
  | .cr0FromRax => (narrow s.rax).bind s.setCr0
  | .cr4FromRax => (narrow s.rax).bind s.setCr4
  | .cr3FromRax => if s.cpl = 0 then some { s with cr3 := s.rax } else none
  | .orEax v => some { s with rax := (lo s.rax ||| v).setWidth 64 }
  | .btsEax i => some { s with rax := (lo s.rax ||| (1#32 <<< i)).setWidth 64 }
  | .andAx v => some { s with rax := setAx s.rax (s.rax.setWidth 16 &&& v) }
  | .andAl v => some { s with rax := (s.rax &&& ~~~0xFF#64) ||| (s.rax.setWidth 8 &&& v).setWidth 64 }
  | .orAx v => some { s with rax := setAx s.rax (s.rax.setWidth 16 ||| v) }
  | .rdmsr =>
    if s.cpl = 0 ∧ lo s.rcx = 0xC0000080#32 then
      some { s with rax := (lo s.efer).setWidth 64, rdx := (lo (s.efer >>> 32)).setWidth 64 }
    else none
  | .wrmsr =>
    if lo s.rcx = 0xC0000080#32 then s.setEfer ((lo s.rdx).setWidth 64 <<< 32 ||| (lo s.rax).setWidth 64) else none
  | .movSeg r => s.loadSeg r (s.rax.setWidth 16)
  | .farJmp sel off => s.farJmp sel off
  | .pushImm v => some (s.push v)
  | .pushRax => some (s.push s.rax)
  | .lretq => s.lret

/-- Straight-line code (hardware; code of bootloader/loader.asm:385-471, kernel/head.S:4-48). -/
def exec : List Instr → Cpu → Option Cpu
  | [], s => some s
  | i :: l, s => (step s i).bind (exec l)

/-- The table at `GdtStart`, bootloader/loader.asm:15-19 (`dd low,high`). -/
def gdt32 : List (BitVec 64) := [0#64, 0x00CF9A000000FFFF#64, 0x00CF92000000FFFF#64]

/-- The table at `Gdt64Start`, bootloader/loader.asm:27-31. -/
def gdt64 : List (BitVec 64) := [0x0000000000000000#64, 0x0020980000000000#64, 0x0000920000000000#64]

/-- `SelectorCode32`, bootloader/loader.asm:22. -/
def selectorCode32 : BitVec 16 := 0x08

/-- `SelectorCode64`, bootloader/loader.asm:34. -/
def selectorCode64 : BitVec 16 := 0x08

/-- `GDT_TABLE`, kernel/head.S:90-98. -/
def kernelGdt : List (BitVec 64) :=
  [0x0000000000000000#64, 0x0020980000000000#64, 0x0000920000000000#64, 0x0020f80000000000#64,
   0x0000f20000000000#64, 0x00cf9a000000ffff#64, 0x00cf92000000ffff#64] ++ List.replicate 10 0#64

/-- From real mode to 32-bit protected mode, bootloader/loader.asm:385-406; `target` is the address
of `Switch_Protect`. The limit is `GdtEnd - GdtStart - 1` (bootloader/loader.asm:20). -/
def toProtected (target : BitVec 64) : List Instr :=
  [.cli, .lgdt (8 * gdt32.length - 1) gdt32,
   .eaxFromCr0, .orEax 1#32, .cr0FromEax,
   .farJmp selectorCode32 target,
   .movAx 0x10#16, .movSeg .ds, .movSeg .es, .movSeg .fs, .movSeg .ss, .movEsp 0x7E00#32]

/-- From protected mode to the kernel, bootloader/loader.asm:441-471. The limit is
`Gdt64End - Gdt64Start - 1` (bootloader/loader.asm:32), the target `KernelOffsetAddr`
(bootloader/loader.asm:7). -/
def toLong : List Instr :=
  [.lgdt (8 * gdt64.length - 1) gdt64,
   .movAx 0x10#16, .movSeg .ds, .movSeg .es, .movSeg .fs, .movSeg .gs, .movSeg .ss,
   .movEsp 0x7E00#32,
   .eaxFromCr4, .btsEax 5, .cr4FromEax,
   .mov32 0x90000#32, .cr3FromRax,
   .movEcx 0xC0000080#32, .rdmsr, .btsEax 8, .wrmsr,
   .eaxFromCr0, .btsEax 0, .btsEax 31, .btsEax 16, .cr0FromEax,
   .farJmp selectorCode64 0x100000#64]

/-- `_start`, kernel/head.S:5-28; `entry64` is the address stored at `SwitchSeg`. The interrupt
descriptor table loaded at kernel/head.S:13 is not modelled. -/
def start (entry64 : BitVec 64) : List Instr :=
  [.movAx 0x10#16, .movSeg .ds, .movSeg .es, .movSeg .fs, .movSeg .ss, .movEsp 0x7E00#32,
   .lgdt (8 * kernelGdt.length - 1) kernelGdt,
   .movAx 0x10#16, .movSeg .ds, .movSeg .es, .movSeg .fs, .movSeg .gs, .movSeg .ss,
   .movRsp 0x7E00#64, .mov64 0x101000#64, .cr3FromRax,
   .mov64 entry64, .pushImm 0x08#64, .pushRax, .lretq]

/-- `Entry64`, kernel/head.S:34-45; `main` is the address stored at `StartKernel`. -/
def entry (main : BitVec 64) : List Instr :=
  [.mov64 0x10#64, .movSeg .ds, .movSeg .es, .movSeg .gs, .movSeg .ss,
   .movRsp 0xFFFF800000007E00#64, .mov64 main, .pushImm 0x08#64, .pushRax, .lretq]

/-- The result of `cpuid`: `eax`, `ebx`, `ecx`, `edx`
(hardware, as used at kernel/src/core/arch.s:8). -/
structure CpuidOut where
  eax : BitVec 32
  ebx : BitVec 32
  ecx : BitVec 32
  edx : BitVec 32

/-- `cpuid`: writes four registers (hardware, as used at kernel/src/core/arch.s:8). -/
def Cpu.doCpuid (s : Cpu) (cpuid : BitVec 32 → CpuidOut) : Cpu :=
  let o := cpuid (lo s.rax)
  { s with rax := o.eax.setWidth 64, rbx := o.ebx.setWidth 64, rcx := o.ecx.setWidth 64, rdx := o.edx.setWidth 64 }

/-- `_arch_enable_sse` up to the `ret`, kernel/src/core/arch.s:6-23. -/
def enableSse (cpuid : BitVec 32 → CpuidOut) (s : Cpu) : Option Cpu :=
  (exec [.mov32 0x1#32] s).bind fun s =>
  let s := s.doCpuid cpuid
  if lo s.rdx &&& (1#32 <<< 25) = 0#32 then some s
  else exec [.mov64 0#64, .raxFromCr0, .andAx 0xFFFB#16, .orAx 0x2#16, .cr0FromRax,
    .raxFromCr4, .orAx (3#16 <<< 9), .cr4FromRax] s

end Verif.Mode
