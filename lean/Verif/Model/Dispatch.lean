import Verif.Props.Interrupt
import Verif.Props.Stubs

/-!
Model of an interrupt from its cause to the return to the interrupted program: the interrupt
controllers (`Verif.Props.Interrupt`, C56), the gate in the IDT (kernel/src/core/interrupt.cpp:38-103), the
assembly entry point it leads to (`Verif.Model.Stubs`), the C++ handler that reads the code from the saved
registers (kernel/src/core/interrupt.cpp:244-259) and the registries. The machine code of the C++ handlers,
including the registered functions they call, is any function from processor states to
processor states; what it does to the tables are later steps of the history.
-/

set_option backward.isDefEq.respectTransparency false

namespace Verif.Dispatch
open Verif Verif.Interrupt
open Verif.Stubs (Cpu W Entry irqEntry sysEntry)

/-- What begins at an address of the kernel image, kernel/include/core/interrupt.hpp:139-202. -/
inductive EntryPoint where
  | isr (n : Nat)
  | irq (n : Nat)
  | sys (n : Nat)
  deriving DecidableEq

/-- The state that decides what an interrupt does: the IDT, the registries
(kernel/include/core/interrupt.hpp:117-121), the interrupt controllers and the code in memory. -/
structure Sys where
  idt : Arr Gate
  tables : Tables
  pics : Pics
  code : BitVec 64 → Option EntryPoint

/-- The circumstances of one interrupt: the interrupted processor state, the stack the CPU switches to and its
`ss`, the return address of the call and the machine code of the C++ handler
(kernel/src/core/irqs.s:37, kernel/src/core/syscall.s:31). -/
structure Ctx where
  cpu : Cpu
  top : W
  ss : W
  ra : W
  G : Cpu → Cpu

/-- `regs->code` (a `size_t`, the 16th field) in the C++ handler, whose argument is in `rdi`,
kernel/include/core/interrupt.hpp:51-73, kernel/src/core/interrupt.cpp:179, 195, 247. -/
def codeOf (x : Cpu) : Nat := (x.mem (x.gpr .rdi + 120)).toNat

/-- How an attempt to go through a gate ends: the handler has run and the program continues in a state, with
the port writes and handler calls in between; or the CPU refuses (general protection or segment not present);
or it goes to an exception handler or to code that is none of the stubs
(kernel/src/core/interrupt.cpp:38-103). -/
inductive Outcome where
  | handled (cpu : Cpu) (ev : List Event)
  | protection
  | notPresent
  | other

/-- The port writes and handler calls, kernel/src/core/interrupt.cpp:244-259. -/
def Outcome.events : Outcome → List Event
  | .handled _ ev => ev
  | _ => []

/-- The CPU goes through gate `v`; `soft`: because of the instruction `int v`, for which the privilege level in `cs`
must not be greater than that of the gate. The gates are those of kernel/src/core/interrupt.cpp:38-103, the code
behind them kernel/src/core/irqs.s:5-43, kernel/src/core/syscall.s:4-37 and kernel/src/core/interrupt.cpp:244-259. -/
def takes (s : Sys) (c : Ctx) (v : Nat) (soft : Bool) : Res Outcome := do
  let g ← s.idt.get v
  let d := cpuDecode g.image
  if soft = true ∧ d.dpl.toNat < (c.cpu.cs &&& 3).toNat then .ok .protection
  else if d.present = false then .ok .notPresent
  else if d.selector ≠ 8 ∨ d.type ≠ 14 ∨ d.ist ≠ 0 then .ok .other
  else
    let e : Entry := ⟨c.top, c.ss, d.offset, none⟩
    match s.code d.offset with
    | some (.irq n) => do
      let ev ← irqHandler s.tables (codeOf (irqEntry c.cpu e n c.ra))
      .ok (.handled (Stubs.irq c.cpu e n c.ra c.G) ev)
    | some (.sys n) => do
      let ev ← syscallHandler s.tables (codeOf (sysEntry c.cpu e n c.ra))
      .ok (.handled (Stubs.syscall c.cpu e n c.ra c.G) ev)
    | _ => .ok .other

/-- A spurious interrupt of the master (line 7) or the slave (line 15): the CPU gets the vector, but the line
is not marked as in service (hardware; the vectors are set in kernel/src/core/interrupt.cpp:105-127). -/
def spurious (p : Pics) (n : Nat) : Pics :=
  if n < 8 then p else { p with master := { p.master with inService := fun j => j = 2 || p.master.inService j } }

/-- What happens in a running system: kernel code uses the registries (kernel/src/core/interrupt.cpp:129-170), a device
raises line `n`, a line goes away before it is acknowledged, or a program executes `int v`. -/
inductive Step where
  | use (o : Op)
  | irq (n : Nat) (c : Ctx)
  | spurious (n : Nat) (c : Ctx)
  | int (v : Nat) (c : Ctx)

/-- What is seen of a step (kernel/src/core/interrupt.cpp:129-198). -/
inductive Seen where
  | ret (o : Out)
  | int (o : Outcome)

/-- One step (kernel/src/core/interrupt.cpp:105-259). -/
def step (s : Sys) : Step → Res (Sys × Seen)
  | .use o => do
    let (t, r) ← Interrupt.step s.tables o
    .ok ({ s with tables := t }, .ret r)
  | .irq n c => do
    let o ← takes s c (s.pics.vector n) false
    .ok ({ s with pics := (s.pics.deliver n).outs (portWrites o.events) }, .int o)
  | .spurious n c => do
    let o ← takes s c (s.pics.vector n) false
    .ok ({ s with pics := (Dispatch.spurious s.pics n).outs (portWrites o.events) }, .int o)
  | .int v c => do
    let o ← takes s c v true
    .ok ({ s with pics := s.pics.outs (portWrites o.events) }, .int o)

/-- A history (kernel/src/core/interrupt.cpp:105-259). -/
def run (s : Sys) : List Step → Res (Sys × List Seen)
  | [] => .ok (s, [])
  | x :: xs => do
    let (s, o) ← step s x
    let (s, os) ← run s xs
    .ok (s, o :: os)

/-- The system after `Interrupt::Init` (kernel/src/core/interrupt.cpp:6-25): the gates set in a table that is
zero before (but see C84), the registries empty, the controllers initialised. -/
def init (h : Interrupt.Stubs) (p : Pics) (code : BitVec 64 → Option EntryPoint) : Res Sys := do
  let idt ← initGates (Arr.fill 256 zeroGate) h
  .ok ⟨idt, Tables.init, p.outs remapIrqs, code⟩

end Verif.Dispatch
