import Verif.Lemmas.Stubs

/-! Property C55: saving and restoring the interrupted context. -/

set_option backward.isDefEq.respectTransparency false

namespace Verif.Stubs

/-- `syscall_regs` (kernel/include/core/interrupt.hpp:51-73) in field order, as it should
look for interrupted state `s` and code `n`. -/
def frame (s : Cpu) (n : Nat) : List W :=
  [s.gpr .rax, s.gpr .rbx, s.gpr .rcx, s.gpr .rdx, s.gpr .rsi, s.gpr .rdi, s.gpr .r8, s.gpr .r9, s.gpr .r10,
   s.gpr .r11, s.gpr .r12, s.gpr .r13, s.gpr .r14, s.gpr .r15, s.gpr .rbp, BitVec.ofNat 64 n,
   s.rip, s.cs, s.rflags, s.rsp, s.ss]

/-- `fault_regs` (kernel/include/core/interrupt.hpp:40-49) in field order. -/
def faultFrame (s : Cpu) (n : Nat) (code : W) : List W :=
  [s.gpr .rbp, BitVec.ofNat 64 n, code, s.rip, s.cs, s.rflags, s.rsp, s.ss]

/-- The structure of 8-byte fields at address `p`. -/
def fields (m : W → W) (p : W) (n : Nat) : List W := (List.range n).map fun i => m (p + BitVec.ofNat 64 (8 * i))

/-- The interrupted program's view: the part of the state that must survive. -/
structure Context where
  gpr : Reg → W
  rip : W
  cs : W
  rflags : W
  rsp : W
  ss : W

def Cpu.context (s : Cpu) : Context := ⟨s.gpr, s.rip, s.cs, s.rflags, s.rsp, s.ss⟩

/-- Reading a context back from 21 words in `syscall_regs` order. -/
def ofFrame (l : List W) : Context where
  gpr := fun
    | .rax => l.getD 0 0 | .rbx => l.getD 1 0 | .rcx => l.getD 2 0 | .rdx => l.getD 3 0 | .rsi => l.getD 4 0
    | .rdi => l.getD 5 0 | .r8 => l.getD 6 0 | .r9 => l.getD 7 0 | .r10 => l.getD 8 0 | .r11 => l.getD 9 0
    | .r12 => l.getD 10 0 | .r13 => l.getD 11 0 | .r14 => l.getD 12 0 | .r15 => l.getD 13 0 | .rbp => l.getD 14 0
  rip := l.getD 16 0
  cs := l.getD 17 0
  rflags := l.getD 18 0
  rsp := l.getD 19 0
  ss := l.getD 20 0

theorem ofFrame_frame (s : Cpu) (n : Nat) : ofFrame (frame s n) = s.context := by
  unfold ofFrame frame Cpu.context
  congr 1
  funext r
  cases r <;> rfl

/-- State in which the handler is entered for an IRQ. -/
def irqEntry (s : Cpu) (e : Entry) (n : Nat) (ra : W) : Cpu := push (exec (deliver s e) (irqBefore n)) ra

/-- State in which the handler is entered for a system call. -/
def sysEntry (s : Cpu) (e : Entry) (n : Nat) (ra : W) : Cpu := push (exec (deliver s e) (sysBefore n)) ra

/-- The start of delivery: the new stack, nothing pushed yet. -/
def start (s : Cpu) (e : Entry) : Cpu := { s with rsp := e.top }

/-- Everything the CPU and the stub push, in order. -/
def pushed (s : Cpu) (n : Nat) : List W :=
  [s.ss, s.rsp, s.rflags, s.cs, s.rip, BitVec.ofNat 64 n, s.gpr .rbp, s.gpr .r15, s.gpr .r14, s.gpr .r13,
   s.gpr .r12, s.gpr .r11, s.gpr .r10, s.gpr .r9, s.gpr .r8, s.gpr .rdi, s.gpr .rsi, s.gpr .rdx, s.gpr .rcx,
   s.gpr .rbx, s.gpr .rax]

theorem pushed_length (s : Cpu) (n : Nat) : (pushed s n).length = 21 := rfl

/-- The flags in the stub: `deliver` clears IF, then `cli` or `sti`. -/
def stubStart (s : Cpu) (e : Entry) : Cpu :=
  { s with rsp := e.top, ss := e.ss, cs := 8, rip := e.rip, rflags := s.rflags &&& ~~~0x200 }

/-- The registers in the order in which `save_context` pushes them. -/
def saveOrder : List Reg :=
  [.rbp, .r15, .r14, .r13, .r12, .r11, .r10, .r9, .r8, .rdi, .rsi, .rdx, .rcx, .rbx, .rax]

/-- Both stubs, generically: `pre` is `cli` or `sti`. -/
theorem entry_state (s : Cpu) (e : Entry) (n : Nat) (he : e.errorCode = none) (pre : Instr)
    (g : W → W) (hpre : ∀ s, step s pre = { s with rflags := g s.rflags }) :
    exec (deliver s e) ([pre, .pushImm (BitVec.ofNat 64 n)] ++ saveContext ++ restoreKernelSegments ++ [.movRdiRsp]) =
      let p := pushes (stubStart s e) (pushed s n)
      setReg { p with ds := 0x10, es := 0x10, gs := 0x10, rflags := g p.rflags,
                      mem := upd p.mem (p.rsp - 8) (s.gpr .rax) } .rdi p.rsp := by
  rw [exec_append, exec_append, exec_append]
  have h1 : exec (deliver s e) [pre, .pushImm (BitVec.ofNat 64 n)] =
      { pushes (stubStart s e) [s.ss, s.rsp, s.rflags, s.cs, s.rip, BitVec.ofNat 64 n] with
          rflags := g (s.rflags &&& ~~~0x200) } := by
    show step (step (deliver s e) pre) (.pushImm (BitVec.ofNat 64 n)) = _
    rw [hpre]
    simp only [deliver, he]
    rfl
  rw [h1]
  have h2 : ∀ x : Cpu, exec x saveContext = pushes x (saveOrder.map x.gpr) := fun x => exec_pushes saveOrder x
  rw [h2, exec_segments]
  have h3 : pushed s n = [s.ss, s.rsp, s.rflags, s.cs, s.rip, BitVec.ofNat 64 n] ++ saveOrder.map s.gpr := rfl
  have hg : ∀ (x : Cpu) (f : W) (vs : List W), pushes { x with rflags := f } vs = { pushes x vs with rflags := f } := by
    intro x f vs
    induction vs generalizing x with
    | nil => rfl
    | cons v vs ih => exact ih (push x v)
  have hf : ∀ (x : Cpu) (vs : List W), (pushes x vs).rflags = x.rflags := by
    intro x vs
    induction vs generalizing x with
    | nil => rfl
    | cons v vs ih => exact ih (push x v)
  have hP1 := pushes_gpr (stubStart s e) [s.ss, s.rsp, s.rflags, s.cs, s.rip, BitVec.ofNat 64 n]
  rw [h3, pushes_append, hg]
  have hP2 := hf (stubStart s e) [s.ss, s.rsp, s.rflags, s.cs, s.rip, BitVec.ofNat 64 n]
  generalize pushes (stubStart s e) [s.ss, s.rsp, s.rflags, s.cs, s.rip, BitVec.ofNat 64 n] = P at *
  have hP3 : P.gpr = s.gpr := hP1
  have hP4 : P.rflags = s.rflags &&& ~~~0x200 := hP2
  simp only [hP3]
  have hQ1 := pushes_gpr P (saveOrder.map s.gpr)
  have hQ2 := hf P (saveOrder.map s.gpr)
  generalize pushes P (saveOrder.map s.gpr) = Q at *
  rw [hP3] at hQ1
  rw [hP4] at hQ2
  simp only [exec, List.foldl_cons, List.foldl_nil, step, hQ1, hQ2]

/-- The frame the handler receives, and the stack pointer. -/
theorem entry_frame (s : Cpu) (e : Entry) (n : Nat) (ra : W) (g : W → W) (x : Cpu)
    (hx : x = push (let p := pushes (stubStart s e) (pushed s n)
      setReg { p with ds := 0x10, es := 0x10, gs := 0x10, rflags := g p.rflags,
                      mem := upd p.mem (p.rsp - 8) (s.gpr .rax) } .rdi p.rsp) ra) :
    x.gpr .rdi = slot e.top 21 ∧ x.rsp = slot e.top 22 ∧ fields x.mem (slot e.top 21) 21 = frame s n ∧
    (∀ a, (∀ j, 0 < j → j ≤ 22 → a ≠ slot e.top j) → x.mem a = s.mem a) := by
  obtain ⟨a1, a2, _, a4⟩ := pushes_spec e.top (pushed s n) (stubStart s e) 0 (slot_zero _).symm (by rw [pushed_length]; decide)
  rw [pushed_length] at a1 a4
  simp only [Nat.zero_add] at a1 a4
  subst hx
  have hm : (push (let p := pushes (stubStart s e) (pushed s n)
      setReg { p with ds := 0x10, es := 0x10, gs := 0x10, rflags := g p.rflags,
                      mem := upd p.mem (p.rsp - 8) (s.gpr .rax) } .rdi p.rsp) ra).mem =
      upd (upd (pushes (stubStart s e) (pushed s n)).mem (slot e.top 22) (s.gpr .rax)) (slot e.top 22) ra := by
    simp only [push, setReg, a1, slot_down]
  refine ⟨?_, ?_, ?_, ?_⟩
  · simp only [push, setReg, if_true, a1]
  · simp only [push, setReg, a1, slot_down]
  · rw [hm]
    apply List.ext_getElem
    · simp [fields, frame]
    · intro i hi hj
      simp only [fields, List.length_map, List.length_range] at hi
      simp only [fields, List.getElem_map, List.getElem_range]
      rw [slot_up _ _ _ (by omega)]
      have hne : slot e.top (21 - i) ≠ slot e.top 22 := fun h => by
        have := slot_inj (by omega) (by omega) h; omega
      simp only [upd, hne, if_false]
      have := a2 (20 - i) (by rw [pushed_length]; omega)
      rw [show 0 + 1 + (20 - i) = 21 - i by omega] at this
      rw [this]
      have hr : frame s n = (pushed s n).reverse := rfl
      simp only [hr, List.getElem_reverse, pushed_length]
  · intro a ha
    rw [hm]
    simp only [upd, ha 22 (by decide) (by decide), if_false]
    rw [a4 a (fun j h1 h2 => ha j h1 (by omega))]
    rfl

/-- C55, what the handler sees: in the structure its argument (`rdi`) points to, every
register of the interrupted program and the line number; interrupts are off; all memory
except the 22 words below the new stack top is as it was. -/
theorem C55_irq_sees (s : Cpu) (e : Entry) (n : Nat) (ra : W) (he : e.errorCode = none) :
    fields (irqEntry s e n ra).mem ((irqEntry s e n ra).gpr .rdi) 21 = frame s n ∧
      (irqEntry s e n ra).rflags.getLsbD 9 = false ∧
      (∀ a, (∀ j, 0 < j → j ≤ 22 → a ≠ e.top - BitVec.ofNat 64 (8 * j)) → (irqEntry s e n ra).mem a = s.mem a) := by
  have h := entry_state s e n he .cli (· &&& ~~~0x200) (fun _ => rfl)
  have hx : irqEntry s e n ra = _ := congrArg (push · ra) h
  obtain ⟨h1, h2, h3, h4⟩ := entry_frame s e n ra (· &&& ~~~0x200) _ hx
  refine ⟨by rw [h1]; exact h3, ?_, h4⟩
  have hf : (irqEntry s e n ra).rflags = (pushes (stubStart s e) (pushed s n)).rflags &&& ~~~0x200 := by
    rw [hx]; rfl
  rw [hf, BitVec.getLsbD_and, show (~~~0x200 : W).getLsbD 9 = false by decide, Bool.and_false]

/-- The same for system calls, which run with interrupts enabled. -/
theorem C55_syscall_sees (s : Cpu) (e : Entry) (n : Nat) (ra : W) (he : e.errorCode = none) :
    fields (sysEntry s e n ra).mem ((sysEntry s e n ra).gpr .rdi) 21 = frame s n ∧
      (sysEntry s e n ra).rflags.getLsbD 9 = true ∧
      (∀ a, (∀ j, 0 < j → j ≤ 22 → a ≠ e.top - BitVec.ofNat 64 (8 * j)) → (sysEntry s e n ra).mem a = s.mem a) := by
  have h := entry_state s e n he .sti (· ||| 0x200) (fun _ => rfl)
  have hx : sysEntry s e n ra = _ := congrArg (push · ra) h
  obtain ⟨h1, h2, h3, h4⟩ := entry_frame s e n ra (· ||| 0x200) _ hx
  refine ⟨by rw [h1]; exact h3, ?_, h4⟩
  have hf : (sysEntry s e n ra).rflags = (pushes (stubStart s e) (pushed s n)).rflags ||| 0x200 := by
    rw [hx]; rfl
  rw [hf, BitVec.getLsbD_or, show (0x200 : W).getLsbD 9 = true by decide, Bool.or_true]

/-- The registers in the order in which `restore_context` pops them. -/
def restoreOrder : List Reg :=
  [.rax, .rbx, .rcx, .rdx, .rsi, .rdi, .r8, .r9, .r10, .r11, .r12, .r13, .r14, .r15, .rbp]

/-- The way back: from any state whose stack pointer is at the frame. -/
theorem exit_state (t : W) (x : Cpu) (hx : x.rsp = slot t 21) (post : List Instr)
    (hpost : ∀ s, (exec s post).gpr = s.gpr ∧ (exec s post).mem = s.mem ∧ (exec s post).rsp = s.rsp + 8 ∧
      (exec s post).ds = s.ds ∧ (exec s post).es = s.es ∧ (exec s post).fs = s.fs ∧ (exec s post).gs = s.gs) :
    let r := iretq (exec x (restoreContext ++ post))
    r.context = ofFrame (fields x.mem (slot t 21) 21) ∧ r.mem = x.mem ∧
      r.ds = x.ds ∧ r.es = x.es ∧ r.fs = x.fs ∧ r.gs = x.gs := by
  intro r
  obtain ⟨b1, b2, _, b4, b5, b6, b7, b8⟩ := pops_spec t restoreOrder (by decide) x 6 hx
  have hr : r = iretq (exec (exec x (restoreOrder.map .pop)) post) := by
    show iretq (exec x (restoreContext ++ post)) = _
    rw [show restoreContext = restoreOrder.map .pop from rfl, exec_append]
  obtain ⟨c1, c2, c3, c4, c5, c6, c7⟩ := hpost (exec x (restoreOrder.map .pop))
  have hrsp : (exec (exec x (restoreOrder.map .pop)) post).rsp = slot t 5 := by
    rw [c3, b1, slot_up1 _ _ (by decide)]
  have hf : ∀ i, i < 21 → (fields x.mem (slot t 21) 21).getD i 0 = x.mem (slot t (21 - i)) := by
    intro i hi
    simp only [fields, List.getD_eq_getElem?_getD]
    rw [List.getElem?_eq_getElem (by simpa using hi)]
    simp only [List.getElem_map, List.getElem_range, Option.getD_some]
    rw [slot_up _ _ _ (by omega)]
  generalize exec (exec x (restoreOrder.map .pop)) post = z at *
  generalize exec x (restoreOrder.map .pop) = y at *
  refine ⟨?_, ?_, ?_, ?_, ?_, ?_⟩
  · rw [hr]
    unfold Cpu.context ofFrame
    simp only [iretq, hrsp, c1, c2, b4]
    have u : ∀ i, i ≤ 5 → slot t 5 + BitVec.ofNat 64 (8 * i) = slot t (5 - i) := fun i hi => slot_up t 5 i hi
    have u1 : slot t 5 + 8 = slot t 4 := u 1 (by decide)
    have u2 : slot t 5 + 16 = slot t 3 := u 2 (by decide)
    have u3 : slot t 5 + 24 = slot t 2 := u 3 (by decide)
    have u4 : slot t 5 + 32 = slot t 1 := u 4 (by decide)
    rw [u1, u2, u3, u4]
    congr 1
    · funext q
      have key : ∀ i (h : i < restoreOrder.length),
          y.gpr restoreOrder[i] = (fields x.mem (slot t 21) 21).getD i 0 := by
        intro i h
        have : i < 15 := h
        rw [hf i (by omega), b2 i h]
        have : 6 + restoreOrder.length - i = 21 - i := rfl
        rw [this]
      cases q
      · exact key 0 (by decide)
      · exact key 1 (by decide)
      · exact key 2 (by decide)
      · exact key 3 (by decide)
      · exact key 4 (by decide)
      · exact key 5 (by decide)
      · exact key 6 (by decide)
      · exact key 7 (by decide)
      · exact key 8 (by decide)
      · exact key 9 (by decide)
      · exact key 10 (by decide)
      · exact key 11 (by decide)
      · exact key 12 (by decide)
      · exact key 13 (by decide)
      · exact key 14 (by decide)
    · rw [hf 16 (by decide)]
    · rw [hf 17 (by decide)]
    · rw [hf 18 (by decide)]
    · rw [hf 19 (by decide)]
    · rw [hf 20 (by decide)]
  · rw [hr]; simp only [iretq, c2, b4]
  · rw [hr]; simp only [iretq, c4, b5]
  · rw [hr]; simp only [iretq, c5, b6]
  · rw [hr]; simp only [iretq, c6, b7]
  · rw [hr]; simp only [iretq, c7, b8]

/-- C55, IRQs, with any handler that returns normally (`rsp` after its `ret` is what it was
before the call), whatever else it does to registers, flags and memory: the interrupted
program continues in the context described by the frame as the handler left it. -/
theorem C55_irq_resume (s : Cpu) (e : Entry) (n : Nat) (ra : W) (he : e.errorCode = none) (H : Cpu → Cpu)
    (hret : (H (irqEntry s e n ra)).rsp = (irqEntry s e n ra).rsp + 8) :
    let r := irq s e n ra H
    r.context = ofFrame (fields (H (irqEntry s e n ra)).mem ((irqEntry s e n ra).gpr .rdi) 21) ∧
      r.mem = (H (irqEntry s e n ra)).mem := by
  intro r
  have hx : irqEntry s e n ra = _ := congrArg (push · ra) (entry_state s e n he .cli (· &&& ~~~0x200) (fun _ => rfl))
  obtain ⟨h1, h2, _, _⟩ := entry_frame s e n ra (· &&& ~~~0x200) _ hx
  rw [h2, slot_up1 _ _ (by decide)] at hret
  obtain ⟨k1, k2, _⟩ := exit_state e.top _ hret [.addRsp 8, .sti] (fun _ => ⟨rfl, rfl, rfl, rfl, rfl, rfl, rfl⟩)
  rw [h1]
  exact ⟨k1, k2⟩

/-- C55, system calls, likewise; here handlers do write to the frame (return values). -/
theorem C55_syscall_resume (s : Cpu) (e : Entry) (n : Nat) (ra : W) (he : e.errorCode = none) (H : Cpu → Cpu)
    (hret : (H (sysEntry s e n ra)).rsp = (sysEntry s e n ra).rsp + 8) :
    let r := syscall s e n ra H
    r.context = ofFrame (fields (H (sysEntry s e n ra)).mem ((sysEntry s e n ra).gpr .rdi) 21) ∧
      r.mem = (H (sysEntry s e n ra)).mem := by
  intro r
  have hx : sysEntry s e n ra = _ := congrArg (push · ra) (entry_state s e n he .sti (· ||| 0x200) (fun _ => rfl))
  obtain ⟨h1, h2, _, _⟩ := entry_frame s e n ra (· ||| 0x200) _ hx
  rw [h2, slot_up1 _ _ (by decide)] at hret
  obtain ⟨k1, k2, _⟩ := exit_state e.top _ hret [.addRsp 8] (fun _ => ⟨rfl, rfl, rfl, rfl, rfl, rfl, rfl⟩)
  rw [h1]
  exact ⟨k1, k2⟩

/-- C55, the property proper: if the handler returns and leaves the saved frame alone,
every general register, rip, cs, rflags, rsp and ss have their old values again. -/
theorem C55_irq_restores (s : Cpu) (e : Entry) (n : Nat) (ra : W) (he : e.errorCode = none) (H : Cpu → Cpu)
    (hret : (H (irqEntry s e n ra)).rsp = (irqEntry s e n ra).rsp + 8)
    (hframe : fields (H (irqEntry s e n ra)).mem ((irqEntry s e n ra).gpr .rdi) 21 =
      fields (irqEntry s e n ra).mem ((irqEntry s e n ra).gpr .rdi) 21) :
    (irq s e n ra H).context = s.context := by
  rw [(C55_irq_resume s e n ra he H hret).1, hframe, (C55_irq_sees s e n ra he).1, ofFrame_frame]

theorem C55_syscall_restores (s : Cpu) (e : Entry) (n : Nat) (ra : W) (he : e.errorCode = none) (H : Cpu → Cpu)
    (hret : (H (sysEntry s e n ra)).rsp = (sysEntry s e n ra).rsp + 8)
    (hframe : fields (H (sysEntry s e n ra)).mem ((sysEntry s e n ra).gpr .rdi) 21 =
      fields (sysEntry s e n ra).mem ((sysEntry s e n ra).gpr .rdi) 21) :
    (syscall s e n ra H).context = s.context := by
  rw [(C55_syscall_resume s e n ra he H hret).1, hframe, (C55_syscall_sees s e n ra he).1, ofFrame_frame]

/-- An interrupted program with recognisable register contents. -/
def exCpu : Cpu where
  gpr := fun | .rax => 1 | .rbx => 2 | .rcx => 3 | .rdx => 4 | .rsi => 5 | .rdi => 6 | .r8 => 7 | .r9 => 8
             | .r10 => 9 | .r11 => 10 | .r12 => 11 | .r13 => 12 | .r14 => 13 | .r15 => 14 | .rbp => 15
  rsp := 0xFFFF800000200008
  rip := 0xFFFF800000101234
  cs := 8
  ss := 0x10
  rflags := 0x246
  ds := 0x10
  es := 0x10
  fs := 0
  gs := 0x10
  xmm := fun k => BitVec.ofNat 128 (100 + k)
  mem := fun _ => 0

def exEntry : Entry := ⟨0xFFFF800000200000, 0x10, 0xFFFF800000100100, none⟩

/-- A handler that destroys all registers and the flags (but not the frame). -/
def trash (s : Cpu) : Cpu := { s with gpr := fun _ => 0xDEAD, rflags := 0, rsp := s.rsp + 8 }

example : (irq exCpu exEntry 12 0x5555 trash).context = exCpu.context :=
  C55_irq_restores exCpu exEntry 12 0x5555 rfl trash rfl rfl

example : (syscall exCpu exEntry 3 0x5555 trash).context = exCpu.context :=
  C55_syscall_restores exCpu exEntry 3 0x5555 rfl trash rfl rfl

/-- What the handlers see: the interrupted rdi in field 5, the line in field 15. -/
example : (fields (irqEntry exCpu exEntry 12 0x5555).mem ((irqEntry exCpu exEntry 12 0x5555).gpr .rdi) 21)[5]? = some 6 ∧
    (fields (sysEntry exCpu exEntry 3 0x5555).mem ((sysEntry exCpu exEntry 3 0x5555).gpr .rdi) 21)[15]? = some 3 := by
  rw [(C55_irq_sees exCpu exEntry 12 0x5555 rfl).1, (C55_syscall_sees exCpu exEntry 3 0x5555 rfl).1]
  exact ⟨rfl, rfl⟩

/-- A system call handler that returns 42 in the saved rax. -/
def ret42 (s : Cpu) : Cpu := { s with mem := upd s.mem (s.gpr .rdi) 42, rsp := s.rsp + 8 }

example : (syscall exCpu exEntry 3 0x5555 ret42).context.gpr .rax = 42 ∧
    (irq exCpu exEntry 3 0x5555 ret42).context.gpr .rax = 42 := by
  rw [(C55_syscall_resume exCpu exEntry 3 0x5555 rfl ret42 rfl).1, (C55_irq_resume exCpu exEntry 3 0x5555 rfl ret42 rfl).1]
  have h : ∀ (m : W → W) (p : W), (ofFrame (fields m p 21)).gpr .rax = m p := by
    intro m p; simp [ofFrame, fields, List.range_succ]
  rw [h, h]
  simp only [ret42, upd, if_true, and_self]

/-- Vectors for which the CPU pushes an error code (Intel SDM vol. 3, table 6-1, and AMD APM
for 29 and 30). -/
def hasErrorCode (n : Nat) : Bool := n ∈ [8, 10, 11, 12, 13, 14, 17, 21, 29, 30]

theorem fault_state_code (s : Cpu) (e : Entry) (n : Nat) (ra : W) (c : W) (he : e.errorCode = some c) :
    (push (exec (deliver s e) (createIsr n)) ra).mem =
        (pushes (stubStart s e) [s.ss, s.rsp, s.rflags, s.cs, s.rip, c, BitVec.ofNat 64 n, s.gpr .rbp, ra]).mem ∧
      (push (exec (deliver s e) (createIsr n)) ra).rsp =
        (pushes (stubStart s e) [s.ss, s.rsp, s.rflags, s.cs, s.rip, c, BitVec.ofNat 64 n, s.gpr .rbp, ra]).rsp := by
  simp only [deliver, he]
  exact ⟨rfl, rfl⟩

theorem fault_state_dummy (s : Cpu) (e : Entry) (n : Nat) (ra : W) (he : e.errorCode = none) :
    (push (exec (deliver s e) (createIsrDummy n)) ra).mem =
        (pushes (stubStart s e) [s.ss, s.rsp, s.rflags, s.cs, s.rip, 0, BitVec.ofNat 64 n, s.gpr .rbp, ra]).mem ∧
      (push (exec (deliver s e) (createIsrDummy n)) ra).rsp =
        (pushes (stubStart s e) [s.ss, s.rsp, s.rflags, s.cs, s.rip, 0, BitVec.ofNat 64 n, s.gpr .rbp, ra]).rsp := by
  simp only [deliver, he]
  exact ⟨rfl, rfl⟩

theorem fault_state_bad (s : Cpu) (e : Entry) (n : Nat) (ra : W) (c : W) (he : e.errorCode = some c) :
    (push (exec (deliver s e) (createIsrDummy n)) ra).mem =
        (pushes (stubStart s e) [s.ss, s.rsp, s.rflags, s.cs, s.rip, c, 0, BitVec.ofNat 64 n, s.gpr .rbp, ra]).mem ∧
      (push (exec (deliver s e) (createIsrDummy n)) ra).rsp =
        (pushes (stubStart s e) [s.ss, s.rsp, s.rflags, s.cs, s.rip, c, 0, BitVec.ofNat 64 n, s.gpr .rbp, ra]).rsp := by
  simp only [deliver, he]
  exact ⟨rfl, rfl⟩

/-- The by-value argument of `_fault_handler` lies just above the return address. -/
theorem fault_fields (t : W) (s0 : Cpu) (h0 : s0.rsp = t) (l : List W) (ra : W) (m : Nat) (hm : m ≤ l.length)
    (hl : l.length < 100) :
    fields (pushes s0 (l ++ [ra])).mem ((pushes s0 (l ++ [ra])).rsp + 8) m = l.reverse.take m := by
  obtain ⟨a1, a2, _, _⟩ := pushes_spec t (l ++ [ra]) s0 0 (by rw [slot_zero, h0]) (by simp; omega)
  simp only [List.length_append, List.length_cons, List.length_nil, Nat.zero_add] at a1 a2
  rw [a1, slot_up1 _ _ (by omega)]
  apply List.ext_getElem
  · simp [fields]; omega
  · intro i hi hj
    simp only [fields, List.length_map, List.length_range] at hi
    simp only [fields, List.getElem_map, List.getElem_range]
    rw [slot_up _ _ _ (by omega)]
    have := a2 (l.length - 1 - i) (by omega)
    rw [show 1 + (l.length - 1 - i) = l.length + 1 - 1 - i by omega] at this
    rw [this, List.getElem_append_left (by omega)]
    simp only [List.getElem_take, List.getElem_reverse]

/-- C55, exceptions (all vectors but 17, 21, 29 and 30): `_fault_handler` receives in its
structure the vector number, the error code the CPU delivered (0 if the vector has none),
and rbp, rip, cs, rflags, rsp, ss of the interrupted program. -/
theorem C55_fault_partial (s : Cpu) (e : Entry) (n : Nat) (ra : W)
    (he : e.errorCode.isSome = hasErrorCode n) (hx : n ∉ [17, 21, 29, 30]) :
    fields (fault s e n ra).mem ((fault s e n ra).rsp + 8) 8 = faultFrame s n (e.errorCode.getD 0) := by
  simp only [List.mem_cons, List.not_mem_nil, or_false, not_or] at hx
  by_cases c : n ∈ [8, 10, 11, 12, 13, 14]
  · have hb : isrBefore n = createIsr n := by
      simp only [List.mem_cons, List.not_mem_nil, or_false] at c
      rcases c with rfl | rfl | rfl | rfl | rfl | rfl <;> rfl
    have hh : hasErrorCode n = true := by
      simp only [List.mem_cons, List.not_mem_nil, or_false] at c
      rcases c with rfl | rfl | rfl | rfl | rfl | rfl <;> rfl
    rw [hh] at he
    obtain ⟨code, hc⟩ := Option.isSome_iff_exists.1 he
    obtain ⟨e1, e2⟩ := fault_state_code s e n ra code hc
    simp only [fault, hb]
    rw [e1, e2, hc]
    exact fault_fields e.top (stubStart s e) rfl
      [s.ss, s.rsp, s.rflags, s.cs, s.rip, code, BitVec.ofNat 64 n, s.gpr .rbp] ra 8 (by simp) (by simp)
  · have hh : hasErrorCode n = false := by
      simp only [List.mem_cons, List.not_mem_nil, or_false] at c
      simp only [hasErrorCode, List.mem_cons, List.not_mem_nil, or_false, decide_eq_false_iff_not]
      omega
    have hb : isrBefore n = createIsrDummy n := by
      simp only [List.mem_cons, List.not_mem_nil, or_false] at c
      unfold isrBefore
      split <;> first | omega | rfl
    rw [hh] at he
    have hc : e.errorCode = none := by
      cases h : e.errorCode with
      | none => rfl
      | some _ => rw [h] at he; exact absurd he (by simp)
    obtain ⟨e1, e2⟩ := fault_state_dummy s e n ra hc
    simp only [fault, hb]
    rw [e1, e2, hc]
    exact fault_fields e.top (stubStart s e) rfl
      [s.ss, s.rsp, s.rflags, s.cs, s.rip, 0, BitVec.ofNat 64 n, s.gpr .rbp] ra 8 (by simp) (by simp)

/-- A page fault (error code 2), and a division by zero. -/
example : fields (fault exCpu { exEntry with errorCode := some 2 } 14 0x7777).mem
      ((fault exCpu { exEntry with errorCode := some 2 } 14 0x7777).rsp + 8) 8 =
    [15, 14, 2, 0xFFFF800000101234, 8, 0x246, 0xFFFF800000200008, 0x10] :=
  C55_fault_partial exCpu { exEntry with errorCode := some 2 } 14 0x7777 rfl (by decide)

example : fields (fault exCpu exEntry 0 0x7777).mem ((fault exCpu exEntry 0 0x7777).rsp + 8) 8 =
    [15, 0, 0, 0xFFFF800000101234, 8, 0x246, 0xFFFF800000200008, 0x10] :=
  C55_fault_partial exCpu exEntry 0 0x7777 rfl (by decide)

/-- C55 fails for vectors 17, 21, 29 and 30: the CPU delivers an error code but the stub
pushes a dummy one on top, so for every program and every error code the handler sees
error code 0, the error code as `rip`, `rip` as `cs` and so on. -/
theorem C55_violated_fault (s : Cpu) (e : Entry) (n : Nat) (ra : W) (c : W) (he : e.errorCode = some c)
    (hn : n ∈ [17, 21, 29, 30]) :
    fields (fault s e n ra).mem ((fault s e n ra).rsp + 8) 8 =
      [s.gpr .rbp, BitVec.ofNat 64 n, 0, c, s.rip, s.cs, s.rflags, s.rsp] ∧
    (c ≠ 0 → fields (fault s e n ra).mem ((fault s e n ra).rsp + 8) 8 ≠ faultFrame s n c) := by
  have hb : isrBefore n = createIsrDummy n := by
    simp only [List.mem_cons, List.not_mem_nil, or_false] at hn
    rcases hn with rfl | rfl | rfl | rfl <;> rfl
  obtain ⟨e1, e2⟩ := fault_state_bad s e n ra c he
  have h : fields (fault s e n ra).mem ((fault s e n ra).rsp + 8) 8 =
      [s.gpr .rbp, BitVec.ofNat 64 n, 0, c, s.rip, s.cs, s.rflags, s.rsp] := by
    simp only [fault, hb]
    rw [e1, e2]
    exact fault_fields e.top (stubStart s e) rfl
      [s.ss, s.rsp, s.rflags, s.cs, s.rip, c, 0, BitVec.ofNat 64 n, s.gpr .rbp] ra 8 (by simp) (by simp)
  refine ⟨h, fun hc heq => ?_⟩
  rw [h] at heq
  simp only [faultFrame, List.cons.injEq] at heq
  exact hc heq.2.2.1.symm

example : fields (fault exCpu { exEntry with errorCode := some 9 } 17 0x7777).mem
      ((fault exCpu { exEntry with errorCode := some 9 } 17 0x7777).rsp + 8) 8 ≠ faultFrame exCpu 17 9 :=
  (C55_violated_fault exCpu { exEntry with errorCode := some 9 } 17 0x7777 9 rfl (by decide)).2 (by decide)

end Verif.Stubs
