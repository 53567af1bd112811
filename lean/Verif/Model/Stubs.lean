/-!
Model of the assembly interrupt entry points: kernel/src/core/store_ctx.s, irqs.s,
syscall.s, isrs.s, and of the CPU's interrupt delivery and `iretq` in 64-bit mode.

Memory is a map from addresses of 8-byte words; the stack pointer is only ever moved by
multiples of 8, so words overlap only if they are equal. Faults during delivery or on
the pushes (missing stack pages) are not modelled.
-/

namespace Verif.Stubs

/-- A machine word, kernel/include/core/interrupt.hpp:40-77. -/
abbrev W := BitVec 64

/-- General purpose registers except `rsp` (kernel/include/core/interrupt.hpp:51-77). -/
inductive Reg where
  | rax | rbx | rcx | rdx | rsi | rdi | r8 | r9 | r10 | r11 | r12 | r13 | r14 | r15 | rbp
  deriving DecidableEq

/-- Processor state (selectors as zero-extended words; `xmm` are the SSE registers, which
kernel/src/core/arch.s:7-24 makes usable)
(hardware, as used by kernel/src/core/store_ctx.s). -/
structure Cpu where
  gpr : Reg → W
  rsp : W
  rip : W
  cs : W
  ss : W
  rflags : W
  ds : W
  es : W
  fs : W
  gs : W
  xmm : Nat → BitVec 128
  mem : W → W

/-- One word written (hardware, as used by kernel/src/core/store_ctx.s:4-76). -/
def upd (m : W → W) (a v : W) : W → W := fun x => if x = a then v else m x

/-- `push` (hardware, as used by kernel/src/core/store_ctx.s:23-37). -/
def push (s : Cpu) (v : W) : Cpu := { s with rsp := s.rsp - 8, mem := upd s.mem (s.rsp - 8) v }

/-- A register written (hardware, as used by kernel/src/core/store_ctx.s:5, 38). -/
def setReg (s : Cpu) (r : Reg) (v : W) : Cpu := { s with gpr := fun x => if x = r then v else s.gpr x }

/-- `pop` (hardware, as used by kernel/src/core/store_ctx.s:43-76). -/
def pop (s : Cpu) (r : Reg) : Cpu := { setReg s r (s.mem s.rsp) with rsp := s.rsp + 8 }

/-- The instructions used by the stubs (jumps are resolved by concatenation; `call` and
`iretq` are separate) (kernel/src/core/store_ctx.s, irqs.s, syscall.s, isrs.s). -/
inductive Instr where
  | push (r : Reg)
  | pushImm (n : W)
  | pop (r : Reg)
  | movRdiRsp
  | movEax (n : BitVec 32)
  | movDs | movEs | movGs
  | addRsp (n : W)
  | cli | sti

/-- The effect of an instruction (hardware; instructions of kernel/src/core/store_ctx.s, irqs.s, syscall.s, isrs.s). -/
def step (s : Cpu) : Instr → Cpu
  | .push r => Stubs.push s (s.gpr r)
  | .pushImm n => Stubs.push s n
  | .pop r => Stubs.pop s r
  | .movRdiRsp => setReg s .rdi s.rsp
  | .movEax n => setReg s .rax (n.setWidth 64)
  | .movDs => { s with ds := s.gpr .rax &&& 0xFFFF }
  | .movEs => { s with es := s.gpr .rax &&& 0xFFFF }
  | .movGs => { s with gs := s.gpr .rax &&& 0xFFFF }
  | .addRsp n => { s with rsp := s.rsp + n }
  | .cli => { s with rflags := s.rflags &&& ~~~0x200 }
  | .sti => { s with rflags := s.rflags ||| 0x200 }

/-- Straight-line code (hardware; code of kernel/src/core/store_ctx.s, irqs.s, syscall.s, isrs.s). -/
def exec (s : Cpu) (l : List Instr) : Cpu := l.foldl step s

/-- `restore_kernel_segments`, kernel/src/core/store_ctx.s:3-11. -/
def restoreKernelSegments : List Instr :=
  [.push .rax, .movEax 0x10, .movDs, .movEs, .movEs, .movGs, .pop .rax]

/-- `save_context`, kernel/src/core/store_ctx.s:21-39. -/
def saveContext : List Instr :=
  [.push .rbp, .push .r15, .push .r14, .push .r13, .push .r12, .push .r11, .push .r10, .push .r9, .push .r8,
   .push .rdi, .push .rsi, .push .rdx, .push .rcx, .push .rbx, .push .rax]

/-- `restore_context`, kernel/src/core/store_ctx.s:41-58. -/
def restoreContext : List Instr :=
  [.pop .rax, .pop .rbx, .pop .rcx, .pop .rdx, .pop .rsi, .pop .rdi, .pop .r8, .pop .r9, .pop .r10, .pop .r11,
   .pop .r12, .pop .r13, .pop .r14, .pop .r15, .pop .rbp]

/-- `_irqN` and `irq_common_handler` up to the call, kernel/src/core/irqs.s:5-11,31-36. -/
def irqBefore (n : Nat) : List Instr :=
  [.cli, .pushImm (BitVec.ofNat 64 n)] ++ saveContext ++ restoreKernelSegments ++ [.movRdiRsp]

/-- `irq_common_handler` after the call, before `iretq`, kernel/src/core/irqs.s:39-42. -/
def irqAfter : List Instr := restoreContext ++ [.addRsp 8, .sti]

/-- `_syscallN` and `syscall_common_handler` up to the call, kernel/src/core/syscall.s:4-11,24-29. -/
def sysBefore (n : Nat) : List Instr :=
  [.sti, .pushImm (BitVec.ofNat 64 n)] ++ saveContext ++ restoreKernelSegments ++ [.movRdiRsp]

/-- `syscall_common_handler` after the call, kernel/src/core/syscall.s:33-35. -/
def sysAfter : List Instr := restoreContext ++ [.addRsp 8]

/-- `create_isr` (the CPU pushes an error code), kernel/src/core/isrs.s:4-12. -/
def createIsr (n : Nat) : List Instr := [.cli, .pushImm (BitVec.ofNat 64 n), .push .rbp]

/-- `create_isr_dummy`, kernel/src/core/isrs.s:14-23. -/
def createIsrDummy (n : Nat) : List Instr := [.cli, .pushImm 0, .pushImm (BitVec.ofNat 64 n), .push .rbp]

/-- `_isrN` up to the call of `_fault_handler`, kernel/src/core/isrs.s:25-56: which of
the two macros is used for each of the 32 vectors. -/
def isrBefore (n : Nat) : List Instr :=
  match n with
  | 8 => createIsr 8
  | 10 => createIsr 10
  | 11 => createIsr 11
  | 12 => createIsr 12
  | 13 => createIsr 13
  | 14 => createIsr 14
  | n => createIsrDummy n

/-- `call`: pushes the return address `ra`. The callee is any function from the state at
its entry to the state after its `ret` (kernel/src/core/irqs.s:37, kernel/src/core/syscall.s:31, kernel/src/core/isrs.s:59). -/
def call (s : Cpu) (ra : W) (callee : Cpu → Cpu) : Cpu := callee (push s ra)

/-- `iretq` in 64-bit mode. Flags: the value on the stack is loaded (reserved bits are
assumed to have been pushed by the CPU)
(hardware, as used by kernel/src/core/irqs.s:43, kernel/src/core/syscall.s:37, kernel/src/core/isrs.s:63). -/
def iretq (s : Cpu) : Cpu :=
  { s with
    rip := s.mem s.rsp
    cs := s.mem (s.rsp + 8)
    rflags := s.mem (s.rsp + 16)
    rsp := s.mem (s.rsp + 24)
    ss := s.mem (s.rsp + 32) }

/-- How the CPU enters a handler: the stack it switches to (the current one aligned down
to 16, the TSS stack or an IST stack), the new `ss`, the handler's address, and the error
code if the vector has one
(hardware; the gates are those of kernel/src/core/interrupt.cpp:38-103). -/
structure Entry where
  top : W
  ss : W
  rip : W
  errorCode : Option W

/-- Interrupt delivery in 64-bit mode: SS, RSP, RFLAGS, CS, RIP and possibly the error
code are pushed; IF is cleared (interrupt gate); execution goes on in segment 8
(kernel/src/core/interrupt.cpp:38-103). -/
def deliver (s : Cpu) (e : Entry) : Cpu :=
  let s1 := { s with rsp := e.top, ss := e.ss, cs := 8, rip := e.rip, rflags := s.rflags &&& ~~~0x200 }
  let s1 := push s1 s.ss
  let s1 := push s1 s.rsp
  let s1 := push s1 s.rflags
  let s1 := push s1 s.cs
  let s1 := push s1 s.rip
  match e.errorCode with
  | some c => push s1 c
  | none => s1

/-- A hardware interrupt on line `n`, kernel/src/core/irqs.s; `callee` is `_irq_handler`. -/
def irq (s : Cpu) (e : Entry) (n : Nat) (ra : W) (callee : Cpu → Cpu) : Cpu :=
  iretq (exec (call (exec (deliver s e) (irqBefore n)) ra callee) irqAfter)

/-- A system call with number `n`, kernel/src/core/syscall.s; `callee` is `_syscall_handler`. -/
def syscall (s : Cpu) (e : Entry) (n : Nat) (ra : W) (callee : Cpu → Cpu) : Cpu :=
  iretq (exec (call (exec (deliver s e) (sysBefore n)) ra callee) sysAfter)

/-- The state in which `_fault_handler` is entered for exception `n`, kernel/src/core/isrs.s. -/
def fault (s : Cpu) (e : Entry) (n : Nat) (ra : W) : Cpu :=
  push (exec (deliver s e) (isrBefore n)) ra

end Verif.Stubs
