import Verif.Model.BootLog
import Verif.Model.Interrupt
import Verif.Model.Stubs

/-!
Model of the messages of kernel/src/core/interrupt.cpp: the functions of `Verif.Model.Interrupt` with their
calls of `printf`, on the register structures that the assembly stubs (`Verif.Model.Stubs`) leave on the stack.

The stacks (words) and the memory of `printf` (bytes) are separate: `printf` does not write into the saved registers.
What a registered handler does is not part of the model.
-/

namespace Verif.IntLog
open Verif Verif.Format

/-- `"register %ul irq\n"`, kernel/src/core/interrupt.cpp:136. -/
def fmtRegIrq : List UInt8 :=
  [114, 101, 103, 105, 115, 116, 101, 114, 32, 37, 117, 108, 32, 105, 114, 113, 10]

/-- `"register %ul syscall\n"`, kernel/src/core/interrupt.cpp:147. -/
def fmtRegSys : List UInt8 :=
  [114, 101, 103, 105, 115, 116, 101, 114, 32, 37, 117, 108, 32, 115, 121, 115, 99, 97, 108, 108, 10]

/-- `"failed to unregister irq idx = %ud\n"`, kernel/src/core/interrupt.cpp:154. -/
def fmtUnIrq : List UInt8 :=
  [102, 97, 105, 108, 101, 100, 32, 116, 111, 32, 117, 110, 114, 101, 103, 105, 115, 116, 101, 114, 32, 105, 114, 113, 32, 105, 100, 120, 32, 61, 32, 37, 117, 100, 10]

/-- `"failed to unregister syscall idx = %ud\n"`, kernel/src/core/interrupt.cpp:164. -/
def fmtUnSys : List UInt8 :=
  [102, 97, 105, 108, 101, 100, 32, 116, 111, 32, 117, 110, 114, 101, 103, 105, 115, 116, 101, 114, 32, 115, 121, 115, 99, 97, 108, 108, 32, 105, 100, 120, 32, 61, 32, 37, 117, 100, 10]

/-- `"regs->rflags = %xl\t"`, kernel/src/core/interrupt.cpp:183. -/
def fmtRflags : List UInt8 :=
  [114, 101, 103, 115, 45, 62, 114, 102, 108, 97, 103, 115, 32, 61, 32, 37, 120, 108, 9]

/-- `"regs->cs = %ul\t"`, kernel/src/core/interrupt.cpp:184. -/
def fmtCs : List UInt8 :=
  [114, 101, 103, 115, 45, 62, 99, 115, 32, 61, 32, 37, 117, 108, 9]

/-- `"regs->rip = %xl\t"`, kernel/src/core/interrupt.cpp:185. -/
def fmtRip : List UInt8 :=
  [114, 101, 103, 115, 45, 62, 114, 105, 112, 32, 61, 32, 37, 120, 108, 9]

/-- `"regs->code = %ul\t"`, kernel/src/core/interrupt.cpp:186. -/
def fmtCode : List UInt8 :=
  [114, 101, 103, 115, 45, 62, 99, 111, 100, 101, 32, 61, 32, 37, 117, 108, 9]

/-- `"regs->rbp = %xl\t"`, kernel/src/core/interrupt.cpp:187. -/
def fmtRbp : List UInt8 :=
  [114, 101, 103, 115, 45, 62, 114, 98, 112, 32, 61, 32, 37, 120, 108, 9]

/-- `"regs->rax = %xl\t"`, kernel/src/core/interrupt.cpp:188. -/
def fmtRax : List UInt8 :=
  [114, 101, 103, 115, 45, 62, 114, 97, 120, 32, 61, 32, 37, 120, 108, 9]

/-- `fault_regs` on the stack: eight words from address `p` on, in the order of
kernel/include/core/interrupt.hpp:40-49. -/
def faultRegs (m : Stubs.W → Stubs.W) (p : Stubs.W) : BootLog.Regs where
  error_no := m (p + 8)
  error_code := m (p + 16)
  rip := m (p + 24)
  cs := m (p + 32)
  rflags := m (p + 40)
  rsp := m (p + 48)
  ss := m (p + 56)

/-- An exception: the stub of vector `n` (kernel/src/core/isrs.s:25-59) and the handler it calls
(kernel/src/core/interrupt.cpp:236-242), whose argument lies above the return address. -/
def exception (font : Vesa.Font) (buf fuel : Nat) (exceptions : List Nat) (c : Stubs.Cpu) (e : Stubs.Entry) (n : Nat)
    (ra : Stubs.W) (s : Printf.St) : Res Printf.St :=
  let c := Stubs.fault c e n ra
  BootLog.faultHandler font buf fuel exceptions (faultRegs c.mem (c.rsp + 8)) { s with flags := c.rflags }

/-- `RegisterIrqHandler`, kernel/src/core/interrupt.cpp:129-139. -/
def registerIrq (font : Vesa.Font) (buf fuel : Nat) (t : Interrupt.Tables) (irq : BitVec 64) (handler data : Nat)
    (s : Printf.St) : Res (Interrupt.Tables × Bool × Printf.St) := do
  let (t, b) ← Interrupt.registerIrq t irq.toNat handler data
  if b then do
    let s ← Printf.printf font buf fuel (fmtRegIrq ++ [0]) [.i64 irq] s
    .ok (t, b, s)
  else .ok (t, b, s)

/-- `RegisterSysCall`, kernel/src/core/interrupt.cpp:140-150. -/
def registerSys (font : Vesa.Font) (buf fuel : Nat) (t : Interrupt.Tables) (num : BitVec 64) (handler : Nat)
    (s : Printf.St) : Res (Interrupt.Tables × Bool × Printf.St) := do
  let (t, b) ← Interrupt.registerSys t num.toNat handler
  if b then do
    let s ← Printf.printf font buf fuel (fmtRegSys ++ [0]) [.i64 num] s
    .ok (t, b, s)
  else .ok (t, b, s)

/-- `UnRegisterIrqHandler`, kernel/src/core/interrupt.cpp:152-160. -/
def unregisterIrq (font : Vesa.Font) (buf fuel : Nat) (t : Interrupt.Tables) (irq : BitVec 64) (handler : Nat)
    (s : Printf.St) : Res (Interrupt.Tables × Bool × Printf.St) := do
  let (t, b) ← Interrupt.unregisterIrq t irq.toNat handler
  if b then .ok (t, b, s)
  else do
    let s ← Printf.printf font buf fuel (fmtUnIrq ++ [0]) [.i64 irq] s
    .ok (t, b, s)

/-- `UnRegisterSysCall`, kernel/src/core/interrupt.cpp:162-170. -/
def unregisterSys (font : Vesa.Font) (buf fuel : Nat) (t : Interrupt.Tables) (num : BitVec 64) (handler : Nat)
    (s : Printf.St) : Res (Interrupt.Tables × Bool × Printf.St) := do
  let (t, b) ← Interrupt.unregisterSys t num.toNat handler
  if b then .ok (t, b, s)
  else do
    let s ← Printf.printf font buf fuel (fmtUnSys ++ [0]) [.i64 num] s
    .ok (t, b, s)

/-- `TriggerIrq`, kernel/src/core/interrupt.cpp:178-192; the offsets of the members of `syscall_regs` are
those of kernel/include/core/interrupt.hpp:51-77. -/
def triggerIrq (font : Vesa.Font) (buf fuel : Nat) (t : Interrupt.Tables) (m : Stubs.W → Stubs.W) (regs : Stubs.W)
    (s : Printf.St) : Res (List Interrupt.Event × Printf.St) := do
  let s ← Printf.printf font buf fuel (fmtRflags ++ [0]) [.i64 (m (regs + 144))] s
  let s ← Printf.printf font buf fuel (fmtCs ++ [0]) [.i64 (m (regs + 136))] s
  let s ← Printf.printf font buf fuel (fmtRip ++ [0]) [.i64 (m (regs + 128))] s
  let s ← Printf.printf font buf fuel (fmtCode ++ [0]) [.i64 (m (regs + 120))] s
  let s ← Printf.printf font buf fuel (fmtRbp ++ [0]) [.i64 (m (regs + 112))] s
  let s ← Printf.printf font buf fuel (fmtRax ++ [0]) [.i64 (m regs)] s
  let call ← Interrupt.triggerIrq t (m (regs + 120)).toNat
  .ok (call, s)

/-- `_irq_handler`, kernel/src/core/interrupt.cpp:244-255, with its guard. -/
def irqHandler (font : Vesa.Font) (buf fuel : Nat) (t : Interrupt.Tables) (m : Stubs.W → Stubs.W) (regs : Stubs.W)
    (s : Printf.St) : Res (List Interrupt.Event × Printf.St) := do
  let (saved, f) := IrqGuard.disableHwint s.flags
  let slave := if (m (regs + 120)).toNat ≥ 8 then [Interrupt.Event.out 0xA0 0x20] else []
  let (call, s) ← triggerIrq font buf fuel t m regs { s with flags := f }
  .ok (slave ++ [.out 0x20 0x20] ++ call, { s with flags := IrqGuard.enableHwint saved })

/-- A hardware interrupt on line `n`: the stub (kernel/src/core/irqs.s:5-48) passes the address of the saved registers
in `rdi`. The result is the state at the return of `_irq_handler`. -/
def irq (font : Vesa.Font) (buf fuel : Nat) (t : Interrupt.Tables) (c : Stubs.Cpu) (e : Stubs.Entry) (n : Nat)
    (ra : Stubs.W) (s : Printf.St) : Res (List Interrupt.Event × Printf.St) :=
  let x := Stubs.push (Stubs.exec (Stubs.deliver c e) (Stubs.irqBefore n)) ra
  irqHandler font buf fuel t x.mem (x.gpr .rdi) { s with flags := x.rflags }

/-- The uses of the interrupt subsystem that print (kernel/include/core/interrupt.hpp:84-112), with the numbers as the
`size_t` they are. -/
inductive Op where
  | regIrq (line : BitVec 64) (handler data : Nat)
  | unregIrq (line : BitVec 64) (handler : Nat)
  | regSys (num : BitVec 64) (handler : Nat)
  | unregSys (num : BitVec 64) (handler : Nat)
  | irq (c : Stubs.Cpu) (e : Stubs.Entry) (line : Nat) (ra : Stubs.W)

/-- One use (kernel/src/core/interrupt.cpp:129-170, 244-255); the `iretq` at the end of an interrupt restores the flags
(kernel/src/core/irqs.s:43). -/
def step (font : Vesa.Font) (buf fuel : Nat) (t : Interrupt.Tables) (s : Printf.St) :
    Op → Res (Interrupt.Tables × Printf.St × (Bool ⊕ List Interrupt.Event))
  | .regIrq i h d => do let (t, b, s) ← registerIrq font buf fuel t i h d s; .ok (t, s, .inl b)
  | .unregIrq i h => do let (t, b, s) ← unregisterIrq font buf fuel t i h s; .ok (t, s, .inl b)
  | .regSys i h => do let (t, b, s) ← registerSys font buf fuel t i h s; .ok (t, s, .inl b)
  | .unregSys i h => do let (t, b, s) ← unregisterSys font buf fuel t i h s; .ok (t, s, .inl b)
  | .irq c e n ra => do let f := s.flags; let (ev, s) ← irq font buf fuel t c e n ra s; .ok (t, { s with flags := f }, .inr ev)

/-- A history (kernel/src/core/interrupt.cpp:129-170, 244-255). -/
def run (font : Vesa.Font) (buf fuel : Nat) (t : Interrupt.Tables) (s : Printf.St) :
    List Op → Res (Interrupt.Tables × Printf.St × List (Bool ⊕ List Interrupt.Event))
  | [] => .ok (t, s, [])
  | o :: os => do
    let (t, s, r) ← step font buf fuel t s o
    let (t, s, rs) ← run font buf fuel t s os
    .ok (t, s, r :: rs)

/-- `exceptions`, kernel/src/core/interrupt.cpp:202-234: the texts the 32 pointers point to. -/
def names : List (List UInt8) :=
  [[68, 105, 118, 105, 115, 105, 111, 110, 32, 98, 121, 32, 122, 101, 114, 111],
   [68, 101, 98, 117, 103, 103, 101, 114],
   [78, 77, 73],
   [66, 114, 101, 97, 107, 112, 111, 105, 110, 116],
   [79, 118, 101, 114, 102, 108, 111, 119],
   [66, 111, 117, 110, 100, 115],
   [73, 110, 118, 97, 108, 105, 100, 32, 79, 112, 99, 111, 100, 101],
   [67, 111, 112, 114, 111, 99, 101, 115, 115, 111, 114, 32, 110, 111, 116, 32, 97, 118, 97, 105, 108, 97, 98, 108, 101],
   [68, 111, 117, 98, 108, 101, 32, 102, 97, 117, 108, 116],
   [67, 111, 112, 114, 111, 99, 101, 115, 115, 111, 114, 32, 115, 101, 103, 109, 101, 110, 116, 32, 111, 118, 101, 114, 114, 117, 110],
   [73, 110, 118, 97, 108, 105, 100, 32, 84, 97, 115, 107, 32, 83, 116, 97, 116, 101, 32, 83, 101, 103, 109, 101, 110, 116],
   [83, 101, 103, 109, 101, 110, 116, 32, 110, 111, 116, 32, 112, 114, 101, 115, 101, 110, 116],
   [83, 116, 97, 99, 107, 32, 70, 97, 117, 108, 116],
   [71, 101, 110, 101, 114, 97, 108, 32, 112, 114, 111, 116, 101, 99, 116, 105, 111, 110, 32, 102, 97, 117, 108, 116],
   [80, 97, 103, 101, 32, 70, 97, 117, 108, 116],
   [82, 101, 115, 101, 114, 118, 101, 100],
   [77, 97, 116, 104, 32, 70, 97, 117, 108, 116],
   [65, 108, 105, 103, 110, 109, 101, 110, 116, 32, 67, 104, 101, 99, 107],
   [77, 97, 99, 104, 105, 110, 101, 32, 67, 104, 101, 99, 107],
   [83, 73, 77, 68, 32, 70, 108, 111, 97, 116, 105, 110, 103, 32, 80, 111, 105, 110, 116, 32, 69, 120, 99, 101, 112, 116, 105, 111, 110]] ++
  List.replicate 12 [82, 101, 115, 101, 114, 118, 101, 100]

end Verif.IntLog
