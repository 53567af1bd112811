import Verif.Base.Arr

/-!
Model of `kernel/src/core/interrupt.cpp`, `kernel/include/core/interrupt.hpp`:
the IDT, the handler registries, the port writes to the two 8259A interrupt
controllers and the C++ halves of the interrupt entry points. Calls of `printf` are
left out. Function pointers and data pointers are numbers; 0 is the null pointer.
-/

namespace Verif.Interrupt
open Verif

/-! ## Handler registries -/

/-- One slot of `irqs_`: `tuple<IrqHandler, void*>`, kernel/include/core/interrupt.hpp:84. -/
structure IrqEntry where
  handler : Nat
  data : Nat
  deriving DecidableEq

/-- Something observable: a byte written to a port, or a handler call
(the handler's address, the code in the register frame, and for IRQs the data)
(the effects of kernel/src/core/interrupt.cpp:105-198). -/
inductive Event where
  | out (port value : Nat)
  | callIrq (handler code data : Nat)
  | callSys (handler code : Nat)
  deriving DecidableEq

/-- The static members `irqs_` and `syscalls_`, kernel/include/core/interrupt.hpp:118-119. -/
structure Tables where
  irqs : Arr IrqEntry
  syscalls : Arr Nat

/-- The tables after `InstallIdt`: `fill`, kernel/src/core/interrupt.cpp:20-21; sizes
from kernel/include/core/interrupt.hpp:115-116. -/
def Tables.init : Tables := ⟨Arr.fill 16 ⟨0, 0⟩, Arr.fill 10 0⟩

/-- `RegisterIrqHandler`, kernel/src/core/interrupt.cpp:129-139. -/
def registerIrq (s : Tables) (irq handler data : Nat) : Res (Tables × Bool) := do
  if irq ≥ s.irqs.n then .ok (s, false)
  else do
    let e ← s.irqs.get irq
    if e.handler ≠ 0 then .ok (s, false)
    else do
      let a ← s.irqs.set irq ⟨handler, data⟩
      .ok ({ s with irqs := a }, true)

/-- `RegisterSysCall`, kernel/src/core/interrupt.cpp:140-150. -/
def registerSys (s : Tables) (num handler : Nat) : Res (Tables × Bool) := do
  if num ≥ s.syscalls.n then .ok (s, false)
  else do
    let e ← s.syscalls.get num
    if e ≠ 0 then .ok (s, false)
    else do
      let a ← s.syscalls.set num handler
      .ok ({ s with syscalls := a }, true)

/-- `UnRegisterIrqHandler`, kernel/src/core/interrupt.cpp:152-160. -/
def unregisterIrq (s : Tables) (irq handler : Nat) : Res (Tables × Bool) := do
  if irq ≥ s.irqs.n then .ok (s, false)
  else do
    let e ← s.irqs.get irq
    if e.handler ≠ handler then .ok (s, false)
    else do
      let a ← s.irqs.set irq ⟨0, 0⟩
      .ok ({ s with irqs := a }, true)

/-- `UnRegisterSysCall`, kernel/src/core/interrupt.cpp:162-170. -/
def unregisterSys (s : Tables) (num handler : Nat) : Res (Tables × Bool) := do
  if num ≥ s.syscalls.n then .ok (s, false)
  else do
    let e ← s.syscalls.get num
    if e ≠ handler then .ok (s, false)
    else do
      let a ← s.syscalls.set num 0
      .ok ({ s with syscalls := a }, true)

/-- `TriggerIrq`, kernel/src/core/interrupt.cpp:178-192. There is no bounds check on
`regs->code`. What the handler does is not modelled here; since the call is the last
thing that happens, operations it performs are simply the next ones of the history. -/
def triggerIrq (s : Tables) (code : Nat) : Res (List Event) := do
  let e ← s.irqs.get code
  if e.handler ≠ 0 then .ok [.callIrq e.handler code e.data] else .ok []

/-- `TriggerSyscall`, kernel/src/core/interrupt.cpp:194-198. -/
def triggerSys (s : Tables) (code : Nat) : Res (List Event) := do
  let e ← s.syscalls.get code
  if e ≠ 0 then .ok [.callSys e code] else .ok []

/-- `_irq_handler`, kernel/src/core/interrupt.cpp:244-255 (the guard is modelled in
`Verif.Model.IrqGuard`). -/
def irqHandler (s : Tables) (code : Nat) : Res (List Event) := do
  let slave := if code ≥ 8 then [Event.out 0xA0 0x20] else []
  let call ← triggerIrq s code
  .ok (slave ++ [.out 0x20 0x20] ++ call)

/-- `_syscall_handler`, kernel/src/core/interrupt.cpp:257-259. -/
def syscallHandler (s : Tables) (code : Nat) : Res (List Event) := triggerSys s code

/-! ## The interrupt descriptor table -/

/-- `IDT_FLAGS`, kernel/include/core/interrupt.hpp:8-13: bit fields, least significant first. -/
structure Flags where
  type : BitVec 4
  zero : BitVec 1
  dpl : BitVec 2
  present : BitVec 1
  deriving DecidableEq

/-- `IDT_DSC`, kernel/include/core/interrupt.hpp:17-25. -/
structure Gate where
  lowOffset : BitVec 16
  selector : BitVec 16
  zero : BitVec 8
  flags : Flags
  middleOffset : BitVec 16
  highOffset : BitVec 32
  reserved : BitVec 32
  deriving DecidableEq

/-- The byte of an `IDT_FLAGS`, kernel/include/core/interrupt.hpp:8-13. -/
def Flags.image (f : Flags) : BitVec 8 := f.present ++ f.dpl ++ f.zero ++ f.type

/-- The 16 bytes of an `IDT_DSC` as one little-endian number: the fields of the packed
struct from the lowest address (least significant) up, kernel/include/core/interrupt.hpp:17-25. -/
def Gate.image (g : Gate) : BitVec 128 :=
  g.reserved ++ g.highOffset ++ g.middleOffset ++ g.flags.image ++ g.zero ++ g.selector ++ g.lowOffset

/-- `setGate`, kernel/src/core/interrupt.cpp:27-36. -/
def setGate (idt : Arr Gate) (gate : Nat) (handler : BitVec 64) (selector : BitVec 16) (flags : Flags) :
    Res (Arr Gate) := do
  let g ← idt.get gate
  let g := { g with selector := selector }
  let g := { g with flags := flags }
  let g := { g with reserved := 0 }
  let g := { g with zero := 0 }
  let g := { g with lowOffset := (handler &&& 0xFFFF).setWidth 16 }
  let g := { g with middleOffset := ((handler >>> 16) &&& 0xFFFF).setWidth 16 }
  let g := { g with highOffset := (handler >>> 32).setWidth 32 }
  idt.set gate g

/-- Addresses of the assembly entry points `_isrN`, `_irqN`, `_syscallN`,
kernel/include/core/interrupt.hpp:139-202. -/
structure Stubs where
  isr : Nat → BitVec 64
  irq : Nat → BitVec 64
  sys : Nat → BitVec 64

/-- The calls made by `InstallISrs`, kernel/src/core/interrupt.cpp:38-71. -/
def isrGates (h : Stubs) : List (Nat × BitVec 64 × BitVec 16 × Flags) :=
  [
   (0, h.isr 0, 8, ⟨14, 0, 0, 1⟩),
   (1, h.isr 1, 8, ⟨14, 0, 0, 1⟩),
   (2, h.isr 2, 8, ⟨14, 0, 0, 1⟩),
   (3, h.isr 3, 8, ⟨14, 0, 0, 1⟩),
   (4, h.isr 4, 8, ⟨14, 0, 0, 1⟩),
   (5, h.isr 5, 8, ⟨14, 0, 0, 1⟩),
   (6, h.isr 6, 8, ⟨14, 0, 0, 1⟩),
   (7, h.isr 7, 8, ⟨14, 0, 0, 1⟩),
   (8, h.isr 8, 8, ⟨14, 0, 0, 1⟩),
   (9, h.isr 9, 8, ⟨14, 0, 0, 1⟩),
   (10, h.isr 10, 8, ⟨14, 0, 0, 1⟩),
   (11, h.isr 11, 8, ⟨14, 0, 0, 1⟩),
   (12, h.isr 12, 8, ⟨14, 0, 0, 1⟩),
   (13, h.isr 13, 8, ⟨14, 0, 0, 1⟩),
   (14, h.isr 14, 8, ⟨14, 0, 0, 1⟩),
   (15, h.isr 15, 8, ⟨14, 0, 0, 1⟩),
   (16, h.isr 16, 8, ⟨14, 0, 0, 1⟩),
   (17, h.isr 17, 8, ⟨14, 0, 0, 1⟩),
   (18, h.isr 18, 8, ⟨14, 0, 0, 1⟩),
   (19, h.isr 19, 8, ⟨14, 0, 0, 1⟩),
   (20, h.isr 20, 8, ⟨14, 0, 0, 1⟩),
   (21, h.isr 21, 8, ⟨14, 0, 0, 1⟩),
   (22, h.isr 22, 8, ⟨14, 0, 0, 1⟩),
   (23, h.isr 23, 8, ⟨14, 0, 0, 1⟩),
   (24, h.isr 24, 8, ⟨14, 0, 0, 1⟩),
   (25, h.isr 25, 8, ⟨14, 0, 0, 1⟩),
   (26, h.isr 26, 8, ⟨14, 0, 0, 1⟩),
   (27, h.isr 27, 8, ⟨14, 0, 0, 1⟩),
   (28, h.isr 28, 8, ⟨14, 0, 0, 1⟩),
   (29, h.isr 29, 8, ⟨14, 0, 0, 1⟩),
   (30, h.isr 30, 8, ⟨14, 0, 0, 1⟩),
   (31, h.isr 31, 8, ⟨14, 0, 0, 1⟩)]

/-- The calls made by `InstallIrqs`, kernel/src/core/interrupt.cpp:73-90. -/
def irqGates (h : Stubs) : List (Nat × BitVec 64 × BitVec 16 × Flags) :=
  [
   (32, h.irq 0, 8, ⟨14, 0, 0, 1⟩),
   (33, h.irq 1, 8, ⟨14, 0, 0, 1⟩),
   (34, h.irq 2, 8, ⟨14, 0, 0, 1⟩),
   (35, h.irq 3, 8, ⟨14, 0, 0, 1⟩),
   (36, h.irq 4, 8, ⟨14, 0, 0, 1⟩),
   (37, h.irq 5, 8, ⟨14, 0, 0, 1⟩),
   (38, h.irq 6, 8, ⟨14, 0, 0, 1⟩),
   (39, h.irq 7, 8, ⟨14, 0, 0, 1⟩),
   (40, h.irq 8, 8, ⟨14, 0, 0, 1⟩),
   (41, h.irq 9, 8, ⟨14, 0, 0, 1⟩),
   (42, h.irq 10, 8, ⟨14, 0, 0, 1⟩),
   (43, h.irq 11, 8, ⟨14, 0, 0, 1⟩),
   (44, h.irq 12, 8, ⟨14, 0, 0, 1⟩),
   (45, h.irq 13, 8, ⟨14, 0, 0, 1⟩),
   (46, h.irq 14, 8, ⟨14, 0, 0, 1⟩),
   (47, h.irq 15, 8, ⟨14, 0, 0, 1⟩)]

/-- The calls made by `InstallSysCalls`, kernel/src/core/interrupt.cpp:92-103. -/
def sysGates (h : Stubs) : List (Nat × BitVec 64 × BitVec 16 × Flags) :=
  [
   (50, h.sys 0, 8, ⟨14, 0, 3, 1⟩),
   (51, h.sys 1, 8, ⟨14, 0, 3, 1⟩),
   (52, h.sys 2, 8, ⟨14, 0, 3, 1⟩),
   (53, h.sys 3, 8, ⟨14, 0, 3, 1⟩),
   (54, h.sys 4, 8, ⟨14, 0, 3, 1⟩),
   (55, h.sys 5, 8, ⟨14, 0, 3, 1⟩),
   (56, h.sys 6, 8, ⟨14, 0, 3, 1⟩),
   (57, h.sys 7, 8, ⟨14, 0, 3, 1⟩),
   (58, h.sys 8, 8, ⟨14, 0, 3, 1⟩),
   (59, h.sys 9, 8, ⟨14, 0, 3, 1⟩)]

/-- A sequence of `setGate` calls, kernel/src/core/interrupt.cpp:38-103. -/
def setGates (idt : Arr Gate) : List (Nat × BitVec 64 × BitVec 16 × Flags) → Res (Arr Gate)
  | [] => .ok idt
  | (g, a, s, f) :: l => do
    let idt ← setGate idt g a s f
    setGates idt l

/-- `IDT.LIMIT` as set by `InstallIdt`, kernel/src/core/interrupt.cpp:17
(`size` = 256, `sizeof(IDT_DSC)` = 16; stored into 16 bits). -/
def idtLimit : Nat := (256 * 16 - 1) % 2 ^ 16

/-- The part of `Interrupt::Init` that fills the IDT, kernel/src/core/interrupt.cpp:6-14
(`InstallIdt` does not touch the gates). -/
def initGates (idt : Arr Gate) (h : Stubs) : Res (Arr Gate) := do
  let idt ← setGates idt (isrGates h)
  let idt ← setGates idt (irqGates h)
  setGates idt (sysGates h)

/-- `RemapIrqs`, kernel/src/core/interrupt.cpp:105-127: the bytes written, in order. -/
def remapIrqs : List (Nat × Nat) :=
  [(0x20, 0x11), (0xA0, 0x11),
   (0x21, 0x20), (0xA1, 0x28),
   (0x21, 0x04), (0xA1, 0x02),
   (0x21, 0x01), (0xA1, 0x01),
   (0x21, 0x00), (0xA1, 0x00)]

end Verif.Interrupt
