import Verif.Model.E820
import Verif.Model.Printf
import Verif.Model.Tlb

/-!
Model of `main`, kernel/main.cpp:21-49, with the parts of `Interrupt::Init`, `e820::Manager::Init`, the
constructor of the global object and the exception handler that print.

The memory of `printf` and the E820 table (bytes) and the memory of the last part (words, with page tables and TLB) are
separate: `printf` stores to neither the tables nor the page of `p` (C86, `Between`). What the CPU and
`printf` do to the TLB and the rest of that memory between the steps of `main` is a list of actions
for each gap. The CPU may set the accessed and dirty bits of the entry that `main` prints (`ad`).
The descriptor tables, the ports and `mm_struct` are not modelled here; `Vesa` and `Manager` have
no dynamic initialisation, so that the constructor of `obj` is the only one.
-/

namespace Verif.BootLog
open Verif Verif.Format

/-- `"init Interrupt\n"`, kernel/src/core/interrupt.cpp:7. -/
def fmtInt : List UInt8 :=
  [105, 110, 105, 116, 32, 73, 110, 116, 101, 114, 114, 117, 112, 116, 10]

/-- `"e820 size = %ul total avalible memory = %ulMB\n"`, kernel/src/core/e820.cpp:44. -/
def fmtE820 : List UInt8 :=
  [101, 56, 50, 48, 32, 115, 105, 122, 101, 32, 61, 32, 37, 117, 108, 32, 116, 111, 116, 97, 108,
   32, 97, 118, 97, 108, 105, 98, 108, 101, 32, 109, 101, 109, 111, 114, 121, 32, 61, 32, 37, 117,
   108, 77, 66, 10]

/-- `"A::A()\n"`, kernel/main.cpp:14. -/
def fmtCtor : List UInt8 :=
  [65, 58, 58, 65, 40, 41, 10]

/-- `"*(&PDE + 2) = %xl\n"`, kernel/main.cpp:39. -/
def fmtPde : List UInt8 :=
  [42, 40, 38, 80, 68, 69, 32, 43, 32, 50, 41, 32, 61, 32, 37, 120, 108, 10]

/-- `"page read only\n"`, kernel/main.cpp:40. -/
def fmtRo : List UInt8 :=
  [112, 97, 103, 101, 32, 114, 101, 97, 100, 32, 111, 110, 108, 121, 10]

/-- `"*p = %ul\n"`, kernel/main.cpp:45. -/
def fmtP : List UInt8 :=
  [42, 112, 32, 61, 32, 37, 117, 108, 10]

/-- `"Exception %ul %s occured\n"`, kernel/src/core/interrupt.cpp:237. -/
def fmtExc : List UInt8 :=
  [69, 120, 99, 101, 112, 116, 105, 111, 110, 32, 37, 117, 108, 32, 37, 115, 32, 111, 99, 99, 117,
   114, 101, 100, 10]

/-- `"error_code = %ul rip = %xl rflags = %ul cs = %ul rsp = %xl ss = %ul\n"`, kernel/src/core/interrupt.cpp:238. -/
def fmtRegs : List UInt8 :=
  [101, 114, 114, 111, 114, 95, 99, 111, 100, 101, 32, 61, 32, 37, 117, 108, 32, 114, 105, 112, 32,
   61, 32, 37, 120, 108, 32, 114, 102, 108, 97, 103, 115, 32, 61, 32, 37, 117, 108, 32, 99, 115, 32,
   61, 32, 37, 117, 108, 32, 114, 115, 112, 32, 61, 32, 37, 120, 108, 32, 115, 115, 32, 61, 32, 37,
   117, 108, 10]

/-- The members of `fault_regs` the handler uses, kernel/include/core/interrupt.hpp:40-49. -/
structure Regs where
  error_no : BitVec 64
  error_code : BitVec 64
  rip : BitVec 64
  cs : BitVec 64
  rflags : BitVec 64
  rsp : BitVec 64
  ss : BitVec 64

/-- `_fault_handler`, kernel/src/core/interrupt.cpp:236-242; `exceptions` (kernel/src/core/interrupt.cpp:202)
is the table of addresses of names. The endless loop at the end is the end of the model. -/
def faultHandler (font : Vesa.Font) (buf fuel : Nat) (exceptions : List Nat) (r : Regs) (s : Printf.St) :
    Res Printf.St :=
  match exceptions[r.error_no.toNat]? with
  | none => .ub
  | some name => do
    let s ← Printf.printf font buf fuel (fmtExc ++ [0]) [.i64 r.error_no, .ptr name] s
    Printf.printf font buf fuel (fmtRegs ++ [0])
      [.i64 r.error_code, .i64 r.rip, .i64 r.rflags, .i64 r.cs, .i64 r.rsp, .i64 r.ss] s

/-- `Manager::Init`, kernel/src/core/e820.cpp:25-45; `1_MB` is kernel/include/core/memory_literals.hpp:9-11. -/
def e820Init (font : Vesa.Font) (buf fuel : Nat) (mg : E820.Manager) (s : Printf.St) :
    Res (E820.Manager × Printf.St) := do
  let mg ← E820.init s.mem mg
  let s ← Printf.printf font buf fuel (fmtE820 ++ [0]) [.i64 mg.length, .i64 (mg.available / (1#64 <<< 20))] s
  .ok (mg, s)

/-- A word read (hardware, for kernel/main.cpp:39, 45). -/
def load (t : Tlb.St) (va : Nat) : Option Nat := (Tlb.look t va).map fun x => t.mem x.1

/-- What is not decided by the code: the actions before the first store, before and after the change of
the entry, between the two messages and before the second store, and after it; the accessed and dirty bits;
the registers saved by a page fault (the vector is pushed by kernel/src/core/isrs.s:40) (hardware, for
kernel/main.cpp:36-45). -/
structure Env where
  acts1 : List Tlb.Act
  acts2 : List Tlb.Act
  acts3 : List Tlb.Act
  acts4 : List Tlb.Act
  acts5 : List Tlb.Act
  ad : BitVec 64
  regs : Regs

/-- An exception: `_isr14` disables interrupts and calls the handler, kernel/src/core/isrs.s:4-12, 40. -/
def pageFault (font : Vesa.Font) (buf fuel : Nat) (exceptions : List Nat) (e : Env) (s : Printf.St) : Res Printf.St :=
  faultHandler font buf fuel exceptions { e.regs with error_no := 14#64 } { s with flags := IrqGuard.cli s.flags }

/-- The end of `main`, kernel/main.cpp:36-45; the second component tells whether the endless loop of
kernel/main.cpp:46 is reached. -/
def lastPart (font : Vesa.Font) (buf fuel : Nat) (exceptions : List Nat) (e : Env) (t : Tlb.St) (s : Printf.St) :
    Res (Printf.St × Bool) := do
  match Tlb.act (Tlb.acts t e.acts1) (.store Tlb.p 2) with
  | (_, false) => do
    let s ← pageFault font buf fuel exceptions e s
    .ok (s, false)
  | (t, true) =>
    match Tlb.act (Tlb.acts t e.acts2) (.clear Tlb.entry 2) with
    | (_, false) => do
      let s ← pageFault font buf fuel exceptions e s
      .ok (s, false)
    | (t, true) =>
      let t := Tlb.acts t e.acts3
      match load t Tlb.entry with
      | none => do
        let s ← pageFault font buf fuel exceptions e s
        .ok (s, false)
      | some v => do
        let s ← Printf.printf font buf fuel (fmtPde ++ [0]) [.i64 (BitVec.ofNat 64 v ||| e.ad)] s
        let s ← Printf.printf font buf fuel (fmtRo ++ [0]) [] s
        match Tlb.act (Tlb.acts t e.acts4) (.store Tlb.p 2) with
        | (_, false) => do
          let s ← pageFault font buf fuel exceptions e s
          .ok (s, false)
        | (t, true) =>
          match load (Tlb.acts t e.acts5) Tlb.p with
          | none => do
            let s ← pageFault font buf fuel exceptions e s
            .ok (s, false)
          | some v => do
            let s ← Printf.printf font buf fuel (fmtP ++ [0]) [.i64 (BitVec.ofNat 64 v)] s
            .ok (s, true)

/-- `main`, kernel/main.cpp:21-49, with `Vesa::Init` (kernel/src/io/veas.cpp:334-343),
`Interrupt::Init` (kernel/src/core/interrupt.cpp:6-14) and `global_obj::Init` (kernel/include/core/global_obj.hpp:8-11),
which calls the constructor of `obj` (kernel/main.cpp:13-17). -/
def main (font : Vesa.Font) (buf fuel : Nat) (exceptions : List Nat) (mg : E820.Manager) (e : Env) (t : Tlb.St)
    (s : Printf.St) : Res (E820.Manager × Printf.St × Bool) := do
  let s := { s with scr := s.scr.init }
  let s ← Printf.printf font buf fuel (fmtInt ++ [0]) [] s
  let (mg, s) ← e820Init font buf fuel mg s
  let s ← Printf.printf font buf fuel (fmtCtor ++ [0]) [] s
  let r ← lastPart font buf fuel exceptions e t s
  .ok (mg, r)

end Verif.BootLog
