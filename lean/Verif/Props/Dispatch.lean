import Verif.Model.Dispatch
import Verif.Props.Bss

/-! Property C85: from the interrupt line, or the instruction `int`, to the registered handler and back. -/

set_option backward.isDefEq.respectTransparency false

namespace Verif.Dispatch
open Verif Verif.Interrupt
open Verif.Stubs (Cpu W Entry irqEntry sysEntry fields Cpu.context ofFrame)

/-- The privilege level a program runs at. -/
def cpl (c : Ctx) : Nat := (c.cpu.cs &&& 3).toNat

/-- The C++ handler returns to the stub. -/
def returns (x : Cpu) (G : Cpu → Cpu) : Prop := (G x).rsp = x.rsp + 8

/-- The C++ handler does not change the saved registers. -/
def spares (x : Cpu) (G : Cpu → Cpu) : Prop :=
  fields (G x).mem (x.gpr .rdi) 21 = fields x.mem (x.gpr .rdi) 21

/-- The linker has placed the entry points at `h`. -/
def Linked (code : BitVec 64 → Option EntryPoint) (h : Interrupt.Stubs) : Prop :=
  (∀ n, n < 32 → code (h.isr n) = some (.isr n)) ∧ (∀ n, n < 16 → code (h.irq n) = some (.irq n)) ∧
    (∀ n, n < 10 → code (h.sys n) = some (.sys n))

/-- The state of the CPU when `_irq_handler` starts for line `n`. -/
def irqIn (h : Interrupt.Stubs) (c : Ctx) (n : Nat) : Cpu := irqEntry c.cpu ⟨c.top, c.ss, h.irq n, none⟩ n c.ra

/-- The state of the CPU when `_syscall_handler` starts for call `n`. -/
def sysIn (h : Interrupt.Stubs) (c : Ctx) (n : Nat) : Cpu := sysEntry c.cpu ⟨c.top, c.ss, h.sys n, none⟩ n c.ra

/-- The steps considered: devices raise lines that exist (2 is the cascade); handlers return, those of IRQs
without changing the saved registers; `int v` is a system call or is not executed by the kernel itself. -/
def Fits (h : Interrupt.Stubs) : Step → Prop
  | .use o => o.InRange
  | .irq n c => n < 16 ∧ n ≠ 2 ∧ returns (irqIn h c n) c.G ∧ spares (irqIn h c n) c.G
  | .spurious n c => (n = 7 ∨ n = 15) ∧ returns (irqIn h c n) c.G ∧ spares (irqIn h c n) c.G
  | .int v c => v < 256 ∧ (50 ≤ v ∧ v < 60 → returns (sysIn h c (v - 50)) c.G) ∧ ((50 ≤ v ∧ v < 60) ∨ cpl c ≠ 0)

/-- The registry after a step. -/
def next (r : Reg) : Step → Reg
  | .use o => (r.step o).1
  | _ => r

/-- The handler registered for a line is called, with the line and its data. -/
def call (r : Reg) (n : Nat) : List Event := (r.irq n).elim [] fun (h, d) => [.callIrq h n d]

/-- What is expected of a step when the registry is `r`. -/
def Meets (h : Interrupt.Stubs) (r : Reg) : Step → Seen → Prop
  | .use o, x => x = .ret (r.step o).2
  | .irq n c, x => ∃ cpu eoi, x = .int (.handled cpu (eoi ++ call r n)) ∧ cpu.context = c.cpu.context ∧
      eoi.countP (isEoi 0x20) = 1 ∧ eoi.countP (isEoi 0xA0) = (if n ≥ 8 then 1 else 0) ∧ (∀ e ∈ eoi, isOut e = true)
  | .spurious n c, x => ∃ cpu eoi, x = .int (.handled cpu (eoi ++ call r n)) ∧ cpu.context = c.cpu.context ∧
      (∀ e ∈ eoi, isOut e = true)
  | .int v c, x =>
    if 50 ≤ v ∧ v < 60 then
      ∃ cpu, x = .int (.handled cpu ((r.sys (v - 50)).elim [] fun f => [.callSys f (v - 50)])) ∧
        cpu.context = ofFrame (fields (c.G (sysIn h c (v - 50))).mem ((sysIn h c (v - 50)).gpr .rdi) 21)
    else x = .int .protection

/-- All steps of a history meet the expectation. -/
def Meetss (h : Interrupt.Stubs) (r : Reg) : List Step → List Seen → Prop
  | [], [] => True
  | x :: xs, y :: ys => Meets h r x y ∧ Meetss h (next r x) xs ys
  | _, _ => False

/-- The state between two steps. -/
structure Inv (h : Interrupt.Stubs) (s : Sys) (r : Reg) : Prop where
  n : s.idt.n = 256
  irq : ∀ i, i < 16 → cpuDecode (s.idt.at_ (32 + i)).image = ⟨h.irq i, 8, 0, 14, 0, true⟩
  sys : ∀ i, i < 10 → cpuDecode (s.idt.at_ (50 + i)).image = ⟨h.sys i, 8, 0, 14, 3, true⟩
  dpl : ∀ v, v < 256 → ¬ (50 ≤ v ∧ v < 60) → (cpuDecode (s.idt.at_ v).image).dpl = 0
  code : Linked s.code h
  sim : Sim s.tables r
  vec : ∀ n, n < 16 → s.pics.vector n = 32 + n
  calm : ∀ k, s.pics.master.inService k = false ∧ s.pics.slave.inService k = false

theorem frame_code {m : W → W} {p : W} {s : Cpu} {n : Nat} (hn : n < 2 ^ 64) (h : fields m p 21 = Stubs.frame s n) :
    (m (p + 120)).toNat = n := by
  have := congrArg (fun l => l[15]?) h
  simp only [fields, Stubs.frame, List.getElem?_map] at this
  rw [show (List.range 21)[15]? = some 15 from rfl] at this
  simp only [Option.map_some, List.getElem?_cons_succ, List.getElem?_cons_zero, Option.some.injEq] at this
  rw [show BitVec.ofNat 64 (8 * 15) = (120 : W) from rfl] at this
  rw [this, BitVec.toNat_ofNat, Nat.mod_eq_of_lt hn]

theorem irqIn_code (h : Interrupt.Stubs) (c : Ctx) (n : Nat) (hn : n < 16) : codeOf (irqIn h c n) = n :=
  frame_code (by omega) (Stubs.C55_irq_sees c.cpu ⟨c.top, c.ss, h.irq n, none⟩ n c.ra rfl).1

theorem sysIn_code (h : Interrupt.Stubs) (c : Ctx) (n : Nat) (hn : n < 10) : codeOf (sysIn h c n) = n :=
  frame_code (by omega) (Stubs.C55_syscall_sees c.cpu ⟨c.top, c.ss, h.sys n, none⟩ n c.ra rfl).1

/-- The port writes of `_irq_handler`. -/
def eois (n : Nat) : List Event := (if n ≥ 8 then [Event.out 0xA0 0x20] else []) ++ [.out 0x20 0x20]

theorem irqHandler_eq {t : Tables} {r : Reg} (hs : Sim t r) (n : Nat) (hn : n < 16) :
    irqHandler t n = .ok (eois n ++ call r n) := by
  obtain ⟨n1, n2, hi, hy⟩ := hs
  simp only [irqHandler, triggerIrq, Arr.get, n1, hn, if_true, Res.ok_bind, call, hi n hn, eois]
  by_cases c : (t.irqs.at_ n).handler = 0 <;> simp [c]

theorem syscallHandler_eq {t : Tables} {r : Reg} (hs : Sim t r) (n : Nat) (hn : n < 10) :
    syscallHandler t n = .ok ((r.sys n).elim [] fun f => [.callSys f n]) := by
  obtain ⟨n1, n2, hi, hy⟩ := hs
  simp only [syscallHandler, triggerSys, Arr.get, n2, hn, if_true, Res.ok_bind, hy n hn]
  by_cases c : t.syscalls.at_ n = 0 <;> simp [c]

theorem takes_irq {h : Interrupt.Stubs} {s : Sys} {r : Reg} (i : Inv h s r) (c : Ctx) (n : Nat) (hn : n < 16) :
    takes s c (32 + n) false =
      .ok (.handled (Stubs.irq c.cpu ⟨c.top, c.ss, h.irq n, none⟩ n c.ra c.G) (eois n ++ call r n)) := by
  have e := irqIn_code h c n hn
  simp only [irqIn] at e
  simp only [takes, Arr.get, i.n, show 32 + n < 256 by omega, if_true, Res.ok_bind, i.irq n hn, Bool.false_eq_true,
    false_and, if_false, i.code.2.1 n hn, e, irqHandler_eq i.sim n hn, ne_eq, not_true, or_self,
    Bool.true_eq_false]

theorem takes_sys {h : Interrupt.Stubs} {s : Sys} {r : Reg} (i : Inv h s r) (c : Ctx) (n : Nat) (hn : n < 10) :
    takes s c (50 + n) true =
      .ok (.handled (Stubs.syscall c.cpu ⟨c.top, c.ss, h.sys n, none⟩ n c.ra c.G)
        ((r.sys n).elim [] fun f => [.callSys f n])) := by
  have e := sysIn_code h c n hn
  simp only [sysIn] at e
  have hc : ¬ (3 < (c.cpu.cs &&& 3).toNat) := by
    have : (c.cpu.cs &&& 3).toNat ≤ 3 := by
      rw [BitVec.toNat_and]; exact Nat.and_le_right
    omega
  simp only [takes, Arr.get, i.n, show 50 + n < 256 by omega, if_true, Res.ok_bind, i.sys n hn, Bool.true_eq_false,
    show (3 : BitVec 2).toNat = 3 from rfl, hc, and_false, if_false, i.code.2.2 n hn, e, syscallHandler_eq i.sim n hn,
    ne_eq, not_true, or_self]

theorem takes_refused {h : Interrupt.Stubs} {s : Sys} {r : Reg} (i : Inv h s r) (c : Ctx) (v : Nat) (hv : v < 256)
    (hu : ¬ (50 ≤ v ∧ v < 60)) (hc : cpl c ≠ 0) : takes s c v true = .ok .protection := by
  simp only [takes, Arr.get, i.n, hv, if_true, Res.ok_bind, i.dpl v hv hu, true_and]
  rw [if_pos]
  show 0 < (c.cpu.cs &&& 3).toNat
  exact Nat.pos_of_ne_zero hc

theorem portWrites_append (a b : List Event) : portWrites (a ++ b) = portWrites a ++ portWrites b := by
  simp [portWrites]

theorem portWrites_call (r : Reg) (n : Nat) : portWrites (call r n) = [] := by
  unfold call
  cases r.irq n <;> rfl

/-- A non-specific end of interrupt for a controller with nothing in service does nothing. -/
theorem eoi_none (p : Pic) (h : ∀ k, p.inService k = false) : p.command 0x20 = p := by
  have : p.top = none := by
    unfold Pic.top
    rw [List.find?_eq_none]
    intro x _; simp [h x]
  simp only [Pic.command, this, show Nat.testBit 0x20 4 = false by decide, show Nat.testBit 0x20 3 = false by decide,
    Bool.false_eq_true, if_false, show 0x20 / 32 = 1 from rfl, if_true]

theorem pics_irq {t : Tables} {r : Reg} (hs : Sim t r) (p : Pics)
    (calm : ∀ k, p.master.inService k = false ∧ p.slave.inService k = false) (n : Nat) (hn : n < 16) (h2 : n ≠ 2) :
    (p.deliver n).outs (portWrites (eois n ++ call r n)) = p := by
  have hd : p.Deliverable n := by
    unfold Pics.Deliverable
    split
    · exact ⟨h2, fun k _ => (calm k).1⟩
    · exact ⟨hn, fun k _ => (calm k).1, fun k _ => (calm k).2⟩
  obtain ⟨ev, e1, e2⟩ := C56_in_service t hs.n1 p n hn hd
  rw [irqHandler_eq hs n hn, Res.ok.injEq] at e1
  rw [e1]; exact e2

theorem pics_spurious (r : Reg) (p : Pics)
    (calm : ∀ k, p.master.inService k = false ∧ p.slave.inService k = false) (n : Nat) (hn : n = 7 ∨ n = 15) :
    (spurious p n).outs (portWrites (eois n ++ call r n)) = p := by
  rw [portWrites_append, portWrites_call, List.append_nil]
  have e1 := eoi_none p.master (fun k => (calm k).1)
  have e2 := eoi_none p.slave (fun k => (calm k).2)
  rcases hn with rfl | rfl
  · have : portWrites (eois 7) = [(0x20, 0x20)] := rfl
    rw [this]
    simp only [spurious, show (7 : Nat) < 8 by decide, if_true, Pics.outs, List.foldl_cons, List.foldl_nil, Pics.out, e1]
  · have : portWrites (eois 15) = [(0xA0, 0x20), (0x20, 0x20)] := rfl
    rw [this]
    simp only [spurious, show ¬ (15 : Nat) < 8 by decide, if_true, if_false, Pics.outs, List.foldl_cons, List.foldl_nil,
      Pics.out, show ¬ (0xA0 = 0x20) by decide, show ¬ (0xA0 = 0x21) by decide, e2]
    rw [eoi_clears _ 2 (by decide) (fun k _ => (calm k).1)]

/-- One step. -/
theorem step_ok {h : Interrupt.Stubs} {s : Sys} {r : Reg} (i : Inv h s r) (x : Step) (hx : Fits h x) :
    ∃ s' y, step s x = .ok (s', y) ∧ Meets h r x y ∧ Inv h s' (next r x) := by
  cases x with
  | use o =>
    obtain ⟨t, e, hs⟩ := sim_step i.sim o hx
    refine ⟨{ s with tables := t }, _, by simp only [step, e, Res.ok_bind], rfl, ?_⟩
    exact ⟨i.n, i.irq, i.sys, i.dpl, i.code, hs, i.vec, i.calm⟩
  | irq n c =>
    obtain ⟨hn, h2, hr, hf⟩ := hx
    refine ⟨s, .int (.handled (Stubs.irq c.cpu ⟨c.top, c.ss, h.irq n, none⟩ n c.ra c.G) (eois n ++ call r n)),
      ?_, ?_, i⟩
    · simp only [step, i.vec n hn, takes_irq i c n hn, Res.ok_bind, Outcome.events,
        pics_irq i.sim s.pics i.calm n hn h2]
    · refine ⟨_, eois n, rfl, Stubs.C55_irq_restores c.cpu ⟨c.top, c.ss, h.irq n, none⟩ n c.ra rfl c.G hr hf, ?_, ?_, ?_⟩
      · by_cases q : n ≥ 8 <;> simp [eois, q, isEoi, List.countP_cons, show Nat.testBit 32 4 = false by decide,
          show Nat.testBit 32 3 = false by decide]
      · by_cases q : n ≥ 8 <;> simp [eois, q, isEoi, List.countP_cons, show Nat.testBit 32 4 = false by decide,
          show Nat.testBit 32 3 = false by decide]
      · by_cases q : n ≥ 8 <;> simp [eois, q, isOut]
  | spurious n c =>
    obtain ⟨hn, hr, hf⟩ := hx
    have hn' : n < 16 := by omega
    refine ⟨s, .int (.handled (Stubs.irq c.cpu ⟨c.top, c.ss, h.irq n, none⟩ n c.ra c.G) (eois n ++ call r n)),
      ?_, ?_, i⟩
    · simp only [step, i.vec n hn', takes_irq i c n hn', Res.ok_bind, Outcome.events,
        pics_spurious r s.pics i.calm n hn]
    · refine ⟨_, eois n, rfl, Stubs.C55_irq_restores c.cpu ⟨c.top, c.ss, h.irq n, none⟩ n c.ra rfl c.G hr hf, ?_⟩
      by_cases q : n ≥ 8 <;> simp [eois, q, isOut]
  | int v c =>
    obtain ⟨hv, hr, hk⟩ := hx
    by_cases q : 50 ≤ v ∧ v < 60
    · have e := takes_sys i c (v - 50) (by omega)
      rw [show 50 + (v - 50) = v by omega] at e
      have hp : portWrites ((r.sys (v - 50)).elim [] fun f => [.callSys f (v - 50)]) = [] := by
        cases r.sys (v - 50) <;> rfl
      refine ⟨s, .int (.handled (Stubs.syscall c.cpu ⟨c.top, c.ss, h.sys (v - 50), none⟩ (v - 50) c.ra c.G)
          ((r.sys (v - 50)).elim [] fun f => [.callSys f (v - 50)])), ?_, ?_, i⟩
      · simp only [step, e, Res.ok_bind, Outcome.events, hp, Pics.outs, List.foldl_nil]
      · simp only [Meets, q, and_self, if_true]
        exact ⟨_, rfl, (Stubs.C55_syscall_resume c.cpu ⟨c.top, c.ss, h.sys (v - 50), none⟩ (v - 50) c.ra rfl c.G (hr q)).1⟩
    · have e := takes_refused i c v hv q (hk.resolve_left q)
      refine ⟨s, .int .protection, ?_, ?_, i⟩
      · simp only [step, e, Res.ok_bind, Outcome.events, portWrites, List.filterMap_nil, Pics.outs, List.foldl_nil]
      · simp only [Meets, q, if_false]

theorem run_ok {h : Interrupt.Stubs} {s : Sys} {r : Reg} (i : Inv h s r) (l : List Step) (hl : ∀ x ∈ l, Fits h x) :
    ∃ s' ys, run s l = .ok (s', ys) ∧ Meetss h r l ys ∧ ∃ r', Inv h s' r' := by
  induction l generalizing s r with
  | nil => exact ⟨s, [], rfl, trivial, r, i⟩
  | cons x l ih =>
    obtain ⟨s1, y, e1, m1, i1⟩ := step_ok i x (hl x (by simp))
    obtain ⟨s2, ys, e2, m2, i2⟩ := ih i1 (fun x hx => hl x (by simp [hx]))
    exact ⟨s2, y :: ys, by simp only [run, e1, e2, Res.ok_bind], ⟨m1, m2⟩, i2⟩

theorem setGates_n (l : List (Nat × BitVec 64 × BitVec 16 × Flags)) (a b : Arr Gate) (h : setGates a l = .ok b) :
    b.n = a.n := by
  induction l generalizing a with
  | nil => simp only [setGates, Res.ok.injEq] at h; rw [h]
  | cons x l ih =>
    obtain ⟨g, ad, sl, f⟩ := x
    by_cases c : g < a.n
    · obtain ⟨i1, e1, n1, _⟩ := setGate_ok a g ad sl f c
      simp only [setGates, e1, Res.ok_bind] at h
      rw [ih i1 h, n1]
    · simp only [setGates, setGate, Arr.get, c, if_false, Res.ub_bind] at h
      cases h

theorem init_ok (h : Interrupt.Stubs) (p : Pics) (code : BitVec 64 → Option EntryPoint) (hc : Linked code h) :
    ∃ s, init h p code = .ok s ∧ Inv h s Reg.empty := by
  obtain ⟨idt, e, a1, a2, a3, a4⟩ := initGates_any (Arr.fill 256 zeroGate) rfl h
  have hn : idt.n = 256 := by
    simp only [initGates] at e
    obtain ⟨i1, e1, e⟩ := Res.bind_eq_ok.1 e
    obtain ⟨i2, e2, e⟩ := Res.bind_eq_ok.1 e
    rw [setGates_n _ _ _ e, setGates_n _ _ _ e2, setGates_n _ _ _ e1]; rfl
  have hv : ∀ n, n < 16 → (p.outs remapIrqs).vector n = 32 + n := (C56_remap p).1
  have hq : ∀ k, (p.outs remapIrqs).master.inService k = false ∧ (p.outs remapIrqs).slave.inService k = false :=
    (C56_remap p).2.2.2.2.2.2.2.2.2
  have hs : Sim Tables.init Reg.empty := by
    refine ⟨rfl, rfl, ?_, ?_⟩
    · intro k _; simp [Tables.init, Arr.fill, Reg.empty]
    · intro k _; simp [Tables.init, Arr.fill, Reg.empty]
  generalize hp : p.outs remapIrqs = p' at *
  refine ⟨⟨idt, Tables.init, p', code⟩, by simp only [init, e, Res.ok_bind, hp], ⟨hn, a2, a3, ?_, hc, hs, hv, hq⟩⟩
  · intro v hv hu
    show (cpuDecode (idt.at_ v).image).dpl = 0
    by_cases c1 : v < 32
    · rw [a1 v c1]
    · by_cases c2 : v < 48
      · have := a2 (v - 32) (by omega)
        rw [show 32 + (v - 32) = v by omega] at this
        rw [this]
      · rw [a4 v (by omega)]
        show (cpuDecode zeroGate.image).dpl = 0
        rw [zero_decode]

/-- C85. From `Init` on, in every history of uses of the registries, device interrupts, spurious interrupts and
`int` instructions: an interrupt on line `n` calls exactly the handler registered for this line at that time,
with `n` and its data, after one end of interrupt for every controller involved, and the interrupted
program continues with all its registers; a spurious interrupt differs only in that the line is not in service;
`int 50+k` calls exactly the handler registered for system call `k` at any privilege level and the program continues
with the registers the handler left in the frame; every other `int` outside the kernel is refused by the CPU
before any code of the kernel's handlers runs. After every step no line is in service, so that the next interrupt
is delivered. -/
theorem C85_history (h : Interrupt.Stubs) (p : Pics) (code : BitVec 64 → Option EntryPoint) (hc : Linked code h)
    (l : List Step) (hl : ∀ x ∈ l, Fits h x) :
    ∃ s s' ys, init h p code = .ok s ∧ run s l = .ok (s', ys) ∧ Meetss h Reg.empty l ys ∧
      ∀ n, n < 16 → n ≠ 2 → s'.pics.Deliverable n := by
  obtain ⟨s, e, i⟩ := init_ok h p code hc
  obtain ⟨s', ys, e2, m, r', i'⟩ := run_ok i l hl
  refine ⟨s, s', ys, e, e2, m, ?_⟩
  intro n hn h2
  unfold Pics.Deliverable
  split
  · exact ⟨h2, fun k _ => (i'.calm k).1⟩
  · exact ⟨hn, fun k _ => (i'.calm k).1, fun k _ => (i'.calm k).2⟩

/-! ### An example: register a handler for the keyboard and for system call 4; a key; a program in user mode makes
the call, tries `int 33` and `int 200`. -/

/-- Entry points 16 bytes apart. -/
def exStubs : Interrupt.Stubs where
  isr := fun n => BitVec.ofNat 64 (0x1000 + n)
  irq := fun n => BitVec.ofNat 64 (0x2000 + n)
  sys := fun n => BitVec.ofNat 64 (0x3000 + n)

/-- What is at an address. -/
def exCode (a : BitVec 64) : Option EntryPoint :=
  if a.toNat < 0x1000 then none else if a.toNat < 0x1020 then some (.isr (a.toNat - 0x1000))
  else if a.toNat < 0x2000 then none else if a.toNat < 0x2010 then some (.irq (a.toNat - 0x2000))
  else if a.toNat < 0x3000 then none else if a.toNat < 0x300A then some (.sys (a.toNat - 0x3000)) else none

theorem exLinked : Linked exCode exStubs := by
  refine ⟨by decide, by decide, by decide⟩

/-- Interrupted in the kernel; the handler destroys all registers. -/
def exK : Ctx := ⟨Stubs.exCpu, 0xFFFF800000200000, 0x10, 0x5555, Stubs.trash⟩

/-- Interrupted in user mode; the handler returns 42 in the frame. -/
def exU : Ctx := ⟨{ Stubs.exCpu with cs := 0x1B }, 0xFFFF800000200000, 0x10, 0x5555, Stubs.ret42⟩

/-- The BIOS' setup of the controllers, with an interrupt in service. -/
def exPics : Pics := ⟨⟨.ready, true, false, 8, 0xB8, 4, 1, fun k => k = 1⟩, ⟨.ready, true, false, 0x70, 0xFF, 2, 1, fun _ => false⟩⟩

example : ∃ s s' ys, init exStubs exPics exCode = .ok s ∧
    run s [.use (.regIrq 1 100 7), .use (.regSys 4 50), .irq 1 exK, .int 54 exU, .int 33 exU, .int 200 exU,
      .spurious 15 exK] = .ok (s', ys) ∧ Meetss exStubs Reg.empty [.use (.regIrq 1 100 7), .use (.regSys 4 50), .irq 1 exK,
      .int 54 exU, .int 33 exU, .int 200 exU, .spurious 15 exK] ys := by
  obtain ⟨s, s', ys, e1, e2, m, _⟩ := C85_history exStubs exPics exCode exLinked
    [.use (.regIrq 1 100 7), .use (.regSys 4 50), .irq 1 exK, .int 54 exU, .int 33 exU, .int 200 exU, .spurious 15 exK] (by
      intro x hx
      simp only [List.mem_cons, List.not_mem_nil, or_false] at hx
      rcases hx with rfl | rfl | rfl | rfl | rfl | rfl | rfl
      · trivial
      · trivial
      · exact ⟨by decide, by decide, rfl, rfl⟩
      · exact ⟨by decide, fun _ => rfl, Or.inl (by decide)⟩
      · exact ⟨by decide, fun _ => by omega, Or.inr (by decide)⟩
      · exact ⟨by decide, fun _ => by omega, Or.inr (by decide)⟩
      · exact ⟨Or.inr rfl, rfl, rfl⟩)
  exact ⟨s, s', ys, e1, e2, m⟩

end Verif.Dispatch
