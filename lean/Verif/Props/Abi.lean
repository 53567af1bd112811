import Verif.Props.Stubs

/-!
Properties C79 and C80: interrupts and the calling convention.

The C++ parts of the kernel are compiled with the System V x86-64 convention: kernel/Makefile:1
has no `-mno-red-zone`, no `-mno-sse`, no `-mgeneral-regs-only`, no `-mstackrealign`. At the
entry of a function `rsp + 8` is a multiple of 16 and the direction flag is clear; the 128 bytes
below `rsp` belong to the running function.
-/

set_option backward.isDefEq.respectTransparency false

namespace Verif.Stubs

/-! ## C79: state at the entry of the C++ handlers -/

/-- The direction flag, bit 10 of `rflags`. -/
def df (s : Cpu) : Bool := s.rflags.getLsbD 10

/-- What the convention demands at the first instruction of a function. -/
def AbiEntry (s : Cpu) : Prop := (s.rsp + 8).toNat % 16 = 0 ∧ df s = false

theorem slot_mod (t : W) (k : Nat) (ht : t.toNat % 16 = 0) (hk : k < 2 ^ 32) : (slot t k).toNat % 16 = (8 * k) % 16 := by
  have := t.isLt
  simp only [slot, BitVec.toNat_sub, BitVec.toNat_ofNat]
  omega

theorem pushes_flags (x : Cpu) (vs : List W) : (pushes x vs).rflags = x.rflags := by
  induction vs generalizing x with
  | nil => rfl
  | cons v vs ih => exact ih (push x v)

theorem df_and (f : W) : (f &&& ~~~0x200).getLsbD 10 = f.getLsbD 10 := by
  rw [BitVec.getLsbD_and, show (~~~0x200 : W).getLsbD 10 = true by decide, Bool.and_true]

theorem df_or (f : W) : (f ||| 0x200).getLsbD 10 = f.getLsbD 10 := by
  rw [BitVec.getLsbD_or, show (0x200 : W).getLsbD 10 = false by decide, Bool.or_false]

theorem irqEntry_regs (s : Cpu) (e : Entry) (n : Nat) (ra : W) (he : e.errorCode = none) :
    (irqEntry s e n ra).rsp = slot e.top 22 ∧ df (irqEntry s e n ra) = df s := by
  have hx : irqEntry s e n ra = _ := congrArg (push · ra) (entry_state s e n he .cli (· &&& ~~~0x200) (fun _ => rfl))
  refine ⟨(entry_frame s e n ra (· &&& ~~~0x200) _ hx).2.1, ?_⟩
  have hf : (irqEntry s e n ra).rflags = (pushes (stubStart s e) (pushed s n)).rflags &&& ~~~0x200 := by rw [hx]; rfl
  simp only [df, hf, pushes_flags, stubStart, df_and]

theorem sysEntry_regs (s : Cpu) (e : Entry) (n : Nat) (ra : W) (he : e.errorCode = none) :
    (sysEntry s e n ra).rsp = slot e.top 22 ∧ df (sysEntry s e n ra) = df s := by
  have hx : sysEntry s e n ra = _ := congrArg (push · ra) (entry_state s e n he .sti (· ||| 0x200) (fun _ => rfl))
  refine ⟨(entry_frame s e n ra (· ||| 0x200) _ hx).2.1, ?_⟩
  have hf : (sysEntry s e n ra).rflags = (pushes (stubStart s e) (pushed s n)).rflags ||| 0x200 := by rw [hx]; rfl
  simp only [df, hf, pushes_flags, stubStart, df_and, df_or]

/-- C79 fails for every hardware interrupt and every system call: the CPU aligns the stack to
16 bytes, pushes five words, the stub sixteen more, so the stack is off by 8 at the call of
`_irq_handler` and `_syscall_handler`, whatever the interrupted program. -/
theorem C79_alignment_violated (s : Cpu) (e : Entry) (n : Nat) (ra : W) (he : e.errorCode = none) (ht : e.top.toNat % 16 = 0) :
    ((irqEntry s e n ra).rsp + 8).toNat % 16 = 8 ∧ ((sysEntry s e n ra).rsp + 8).toNat % 16 = 8 ∧
      ¬ AbiEntry (irqEntry s e n ra) ∧ ¬ AbiEntry (sysEntry s e n ra) := by
  have key : ((slot e.top 22) + 8).toNat % 16 = 8 := by
    rw [slot_up1 _ _ (by decide), slot_mod _ _ ht (by decide)]
  simp only [AbiEntry, (irqEntry_regs s e n ra he).1, (sysEntry_regs s e n ra he).1, key]
  simp

example : ((irqEntry exCpu exEntry 12 0x5555).rsp + 8).toNat % 16 = 8 :=
  (C79_alignment_violated exCpu exEntry 12 0x5555 rfl (by decide)).1

/-- The flags at the entry of `_fault_handler`. -/
theorem fault_df (s : Cpu) (e : Entry) (n : Nat) (ra : W) : df (fault s e n ra) = df s := by
  have hd : (deliver s e).rflags = s.rflags &&& ~~~0x200 := by
    simp only [deliver]; split <;> rfl
  have h : (fault s e n ra).rflags = (s.rflags &&& ~~~0x200) &&& ~~~0x200 := by
    rw [← hd]
    simp only [fault]
    unfold isrBefore
    split <;> rfl
  simp only [df, h, df_and]

/-- C79 also fails for the direction flag: no stub clears it, so every handler is entered with
the direction flag of the interrupted program. -/
theorem C79_direction_violated (s : Cpu) (e : Entry) (n : Nat) (ra : W) (hd : df s = true) :
    (e.errorCode = none → df (irqEntry s e n ra) = true ∧ df (sysEntry s e n ra) = true) ∧ df (fault s e n ra) = true ∧
      ¬ AbiEntry (fault s e n ra) := by
  refine ⟨fun he => ⟨by rw [(irqEntry_regs s e n ra he).2, hd], by rw [(sysEntry_regs s e n ra he).2, hd]⟩, by rw [fault_df, hd], ?_⟩
  intro h
  have := h.2
  rw [fault_df, hd] at this
  cases this

/-- A program interrupted in a backward copy. -/
example : df { exCpu with rflags := 0x646 } = true := by decide

/-- C79 holds for the exceptions (all but 17, 21, 29 and 30) if the interrupted program had the
direction flag clear. -/
theorem C79_fault_partial (s : Cpu) (e : Entry) (n : Nat) (ra : W) (he : e.errorCode.isSome = hasErrorCode n) (hx : n ∉ [17, 21, 29, 30])
    (ht : e.top.toNat % 16 = 0) (hd : df s = false) : AbiEntry (fault s e n ra) := by
  refine ⟨?_, by rw [fault_df, hd]⟩
  have hr : (fault s e n ra).rsp = slot e.top 9 := by
    simp only [List.mem_cons, List.not_mem_nil, or_false, not_or] at hx
    by_cases c : n ∈ [8, 10, 11, 12, 13, 14]
    · have hb : isrBefore n = createIsr n := by
        simp only [List.mem_cons, List.not_mem_nil, or_false] at c
        rcases c with rfl | rfl | rfl | rfl | rfl | rfl <;> rfl
      have hh : hasErrorCode n = true := by
        simp only [List.mem_cons, List.not_mem_nil, or_false] at c
        rcases c with rfl | rfl | rfl | rfl | rfl | rfl <;> rfl
      rw [hh] at he
      obtain ⟨code, hc⟩ := Option.isSome_iff_exists.1 he
      simp only [fault, hb]
      rw [(fault_state_code s e n ra code hc).2]
      exact (pushes_spec e.top _ (stubStart s e) 0 (slot_zero _).symm (by simp)).1
    · have hh : hasErrorCode n = false := by
        simp only [List.mem_cons, List.not_mem_nil, or_false] at c
        simp only [hasErrorCode, List.mem_cons, List.not_mem_nil, or_false, decide_eq_false_iff_not]
        omega
      have hb : isrBefore n = createIsrDummy n := by
        simp only [List.mem_cons, List.not_mem_nil, or_false] at c
        unfold isrBefore
        split <;> first | omega | rfl
      rw [hh] at he
      have hc : e.errorCode = none := by
        cases h : e.errorCode with
        | none => rfl
        | some _ => rw [h] at he; exact absurd he (by simp)
      simp only [fault, hb]
      rw [(fault_state_dummy s e n ra hc).2]
      exact (pushes_spec e.top _ (stubStart s e) 0 (slot_zero _).symm (by simp)).1
  rw [hr, slot_up1 _ _ (by decide), slot_mod _ _ ht (by decide)]

example : AbiEntry (fault exCpu { exEntry with errorCode := some 2 } 14 0x7777) ∧ AbiEntry (fault exCpu exEntry 0 0x7777) :=
  ⟨C79_fault_partial _ _ 14 _ rfl (by decide) (by decide) (by decide), C79_fault_partial _ _ 0 _ rfl (by decide) (by decide) (by decide)⟩

/-- C79 fails for exceptions 17, 21, 29 and 30, where the stub pushes one word too many. -/
theorem C79_fault_violated (s : Cpu) (e : Entry) (n : Nat) (ra : W) (he : e.errorCode.isSome = true) (hn : n ∈ [17, 21, 29, 30])
    (ht : e.top.toNat % 16 = 0) : ((fault s e n ra).rsp + 8).toNat % 16 = 8 := by
  obtain ⟨c, hc⟩ := Option.isSome_iff_exists.1 he
  have hb : isrBefore n = createIsrDummy n := by
    simp only [List.mem_cons, List.not_mem_nil, or_false] at hn
    rcases hn with rfl | rfl | rfl | rfl <;> rfl
  have hr : (fault s e n ra).rsp = slot e.top 10 := by
    simp only [fault, hb]
    rw [(fault_state_bad s e n ra c hc).2]
    exact (pushes_spec e.top _ (stubStart s e) 0 (slot_zero _).symm (by simp)).1
  rw [hr, slot_up1 _ _ (by decide), slot_mod _ _ ht (by decide)]

example : ((fault exCpu { exEntry with errorCode := some 9 } 17 0x7777).rsp + 8).toNat % 16 = 8 :=
  C79_fault_violated _ _ 17 _ rfl (by decide) (by decide)

/-! ## C80: what the interrupted code can notice -/

theorem step_rest (s : Cpu) (i : Instr) : (step s i).xmm = s.xmm ∧ (step s i).fs = s.fs := by cases i <;> exact ⟨rfl, rfl⟩

theorem exec_rest (s : Cpu) (l : List Instr) : (exec s l).xmm = s.xmm ∧ (exec s l).fs = s.fs := by
  induction l generalizing s with
  | nil => exact ⟨rfl, rfl⟩
  | cons i l ih =>
    have := ih (step s i)
    rw [(step_rest s i).1, (step_rest s i).2] at this
    exact this

theorem push_rest (s : Cpu) (v : W) : (push s v).xmm = s.xmm ∧ (push s v).fs = s.fs := ⟨rfl, rfl⟩

theorem iretq_rest (s : Cpu) : (iretq s).xmm = s.xmm ∧ (iretq s).fs = s.fs := ⟨rfl, rfl⟩

theorem deliver_rest (s : Cpu) (e : Entry) : (deliver s e).xmm = s.xmm ∧ (deliver s e).fs = s.fs := by
  simp only [deliver]; split <;> exact ⟨rfl, rfl⟩

/-- The stack onto which the CPU pushes when kernel code is interrupted: no stack switch, the
current stack aligned down to 16 bytes. -/
def kernelEntry (s : Cpu) (rip : W) : Entry := ⟨s.rsp &&& ~~~15#64, s.ss, rip, none⟩

theorem align_toNat (x : W) : (x &&& ~~~15#64).toNat = x.toNat / 16 * 16 := by
  have h : x &&& ~~~15#64 = (x >>> 4) <<< 4 := by
    apply BitVec.eq_of_getLsbD_eq
    intro i hi
    have h15 : (~~~15#64).getLsbD i = decide (4 ≤ i) := by
      rw [BitVec.getLsbD_not]
      rcases Nat.lt_or_ge i 4 with h | h
      · rcases (by omega : i = 0 ∨ i = 1 ∨ i = 2 ∨ i = 3) with rfl | rfl | rfl | rfl <;> decide
      · have : (15#64).getLsbD i = false := by
          rw [← BitVec.testBit_toNat]
          exact Nat.testBit_lt_two_pow (Nat.lt_of_lt_of_le (by decide : 15 < 2 ^ 4) (Nat.pow_le_pow_right (by decide) h))
        rw [this]; simp [hi, h]
    rw [BitVec.getLsbD_and, h15, BitVec.getLsbD_shiftLeft, BitVec.getLsbD_ushiftRight]
    by_cases c : 4 ≤ i
    · simp [c, hi, Nat.not_lt.2 c, show 4 + (i - 4) = i by omega]
    · simp [c, Nat.lt_of_not_le c]
  rw [h, BitVec.toNat_shiftLeft, BitVec.toNat_ushiftRight, Nat.shiftRight_eq_div_pow, Nat.shiftLeft_eq]
  have := x.isLt
  omega

/-- C80, the part that holds. Whatever the handler does in the memory it may use, every word at
or above the interrupted stack pointer that it leaves alone is unchanged afterwards, for IRQs and
system calls in kernel mode; `fs` and the SSE registers are as the handler leaves them. Missing:
the red zone, the segment registers and the SSE registers, see below. -/
theorem C80_memory_partial (s : Cpu) (rip ra : W) (n : Nat) (H : Cpu → Cpu) (hr : s.rsp.toNat ≥ 256)
    (h1 : (H (irqEntry s (kernelEntry s rip) n ra)).rsp = (irqEntry s (kernelEntry s rip) n ra).rsp + 8)
    (h2 : (H (sysEntry s (kernelEntry s rip) n ra)).rsp = (sysEntry s (kernelEntry s rip) n ra).rsp + 8) :
    (∀ a : W, s.rsp.toNat ≤ a.toNat → (H (irqEntry s (kernelEntry s rip) n ra)).mem a = (irqEntry s (kernelEntry s rip) n ra).mem a →
      (irq s (kernelEntry s rip) n ra H).mem a = s.mem a) ∧
    (∀ a : W, s.rsp.toNat ≤ a.toNat → (H (sysEntry s (kernelEntry s rip) n ra)).mem a = (sysEntry s (kernelEntry s rip) n ra).mem a →
      (syscall s (kernelEntry s rip) n ra H).mem a = s.mem a) := by
  have key : ∀ a : W, s.rsp.toNat ≤ a.toNat → ∀ j, 0 < j → j ≤ 22 → a ≠ (kernelEntry s rip).top - BitVec.ofNat 64 (8 * j) := by
    intro a ha j h0 h22 hc
    have := congrArg BitVec.toNat hc
    have hal := align_toNat s.rsp
    simp only [kernelEntry, BitVec.toNat_sub, BitVec.toNat_ofNat] at this
    rw [hal] at this
    have := s.rsp.isLt
    omega
  constructor
  · intro a ha hH
    rw [(C55_irq_resume s _ n ra rfl H h1).2, hH]
    exact (C55_irq_sees s (kernelEntry s rip) n ra rfl).2.2 a (key a ha)
  · intro a ha hH
    rw [(C55_syscall_resume s _ n ra rfl H h2).2, hH]
    exact (C55_syscall_sees s (kernelEntry s rip) n ra rfl).2.2 a (key a ha)

example : exCpu.rsp.toNat ≥ 256 ∧ (trash (irqEntry exCpu (kernelEntry exCpu 7) 3 9)).rsp = (irqEntry exCpu (kernelEntry exCpu 7) 3 9).rsp + 8 ∧
    (trash (sysEntry exCpu (kernelEntry exCpu 7) 3 9)).rsp = (sysEntry exCpu (kernelEntry exCpu 7) 3 9).rsp + 8 := ⟨by decide, rfl, rfl⟩

/-- C80 fails: the word below the interrupted stack pointer (the first of the red zone, which
kernel functions compiled by the Makefile use) is overwritten with `ss`, by every interrupt of
kernel code with an aligned stack, whatever the handler; the four below it with `rsp`, `rflags`,
`cs` and `rip`. -/
theorem C80_red_zone_violated (s : Cpu) (rip ra : W) (n : Nat) (H : Cpu → Cpu) (ha : s.rsp.toNat % 16 = 0)
    (h1 : (H (irqEntry s (kernelEntry s rip) n ra)).rsp = (irqEntry s (kernelEntry s rip) n ra).rsp + 8)
    (hm : fields (H (irqEntry s (kernelEntry s rip) n ra)).mem ((irqEntry s (kernelEntry s rip) n ra).gpr .rdi) 21 =
      fields (irqEntry s (kernelEntry s rip) n ra).mem ((irqEntry s (kernelEntry s rip) n ra).gpr .rdi) 21) :
    let r := irq s (kernelEntry s rip) n ra H
    r.mem (s.rsp - 8) = s.ss ∧ r.mem (s.rsp - 16) = s.rsp ∧ r.mem (s.rsp - 24) = s.rflags ∧ r.mem (s.rsp - 32) = s.cs ∧
      r.mem (s.rsp - 40) = s.rip := by
  intro r
  have htop : (kernelEntry s rip).top = s.rsp := by
    apply BitVec.eq_of_toNat_eq
    show (s.rsp &&& ~~~15#64).toNat = _
    rw [align_toNat]; omega
  have hx : irqEntry s (kernelEntry s rip) n ra = _ :=
    congrArg (push · ra) (entry_state s (kernelEntry s rip) n rfl .cli (· &&& ~~~0x200) (fun _ => rfl))
  obtain ⟨g1, _, g3, _⟩ := entry_frame s (kernelEntry s rip) n ra (· &&& ~~~0x200) _ hx
  have hmem : r.mem = (H (irqEntry s (kernelEntry s rip) n ra)).mem := (C55_irq_resume s _ n ra rfl H h1).2
  rw [g1, g3, htop] at hm
  have get : ∀ i (hi : i < 21), r.mem (slot s.rsp (21 - i)) = (frame s n)[i]'hi := by
    intro i hi
    have : (fields (H (irqEntry s (kernelEntry s rip) n ra)).mem (slot s.rsp 21) 21)[i]? = (frame s n)[i]? := by rw [hm]
    rw [List.getElem?_eq_getElem (by simpa [fields] using hi), List.getElem?_eq_getElem hi] at this
    simp only [fields, List.getElem_map, List.getElem_range, Option.some.injEq] at this
    rw [slot_up _ _ _ (by omega)] at this
    rw [hmem, this]
  exact ⟨get 20 (by decide), get 19 (by decide), get 18 (by decide), get 17 (by decide), get 16 (by decide)⟩

/-- Code that keeps a local variable in its red zone loses it. -/
example : let s := { exCpu with rsp := 0xFFFF800000200010, mem := fun a => if a = 0xFFFF800000200008 then 77 else 0 }
    s.mem (s.rsp - 8) = 77 ∧ (irq s (kernelEntry s 7) 3 9 trash).mem (s.rsp - 8) = 0x10 := by
  intro s
  refine ⟨by decide, (C80_red_zone_violated s 7 9 3 trash (by decide) rfl rfl).1⟩

/-- C80 fails for the segment registers: after every IRQ and system call whose handler leaves
them alone `ds`, `es` and `gs` are 0x10, whatever they were. -/
theorem C80_segments_violated (s : Cpu) (e : Entry) (n : Nat) (ra : W) (he : e.errorCode = none) (H : Cpu → Cpu)
    (h1 : (H (irqEntry s e n ra)).rsp = (irqEntry s e n ra).rsp + 8) (h2 : (H (sysEntry s e n ra)).rsp = (sysEntry s e n ra).rsp + 8)
    (hs : ∀ x, (H x).ds = x.ds ∧ (H x).es = x.es ∧ (H x).gs = x.gs) :
    ((irq s e n ra H).ds = 0x10 ∧ (irq s e n ra H).es = 0x10 ∧ (irq s e n ra H).gs = 0x10) ∧
      ((syscall s e n ra H).ds = 0x10 ∧ (syscall s e n ra H).es = 0x10 ∧ (syscall s e n ra H).gs = 0x10) := by
  have hx : irqEntry s e n ra = _ := congrArg (push · ra) (entry_state s e n he .cli (· &&& ~~~0x200) (fun _ => rfl))
  have hy : sysEntry s e n ra = _ := congrArg (push · ra) (entry_state s e n he .sti (· ||| 0x200) (fun _ => rfl))
  have sx : (irqEntry s e n ra).ds = 0x10 ∧ (irqEntry s e n ra).es = 0x10 ∧ (irqEntry s e n ra).gs = 0x10 := by rw [hx]; exact ⟨rfl, rfl, rfl⟩
  have sy : (sysEntry s e n ra).ds = 0x10 ∧ (sysEntry s e n ra).es = 0x10 ∧ (sysEntry s e n ra).gs = 0x10 := by rw [hy]; exact ⟨rfl, rfl, rfl⟩
  rw [(irqEntry_regs s e n ra he).1, slot_up1 _ _ (by decide)] at h1
  rw [(sysEntry_regs s e n ra he).1, slot_up1 _ _ (by decide)] at h2
  obtain ⟨_, _, k3, k4, _, k6⟩ := exit_state e.top _ h1 [.addRsp 8, .sti] (fun _ => ⟨rfl, rfl, rfl, rfl, rfl, rfl, rfl⟩)
  obtain ⟨_, _, l3, l4, _, l6⟩ := exit_state e.top _ h2 [.addRsp 8] (fun _ => ⟨rfl, rfl, rfl, rfl, rfl, rfl, rfl⟩)
  refine ⟨⟨k3.trans ?_, k4.trans ?_, k6.trans ?_⟩, l3.trans ?_, l4.trans ?_, l6.trans ?_⟩
  · rw [(hs _).1, sx.1]
  · rw [(hs _).2.1, sx.2.1]
  · rw [(hs _).2.2, sx.2.2]
  · rw [(hs _).1, sy.1]
  · rw [(hs _).2.1, sy.2.1]
  · rw [(hs _).2.2, sy.2.2]

/-- A user program with its own data segment. -/
example : let s := { exCpu with ds := 0x23, cs := 0x1B }
    s.ds = 0x23 ∧ (irq s exEntry 3 9 trash).ds = 0x10 :=
  ⟨rfl, (C80_segments_violated _ exEntry 3 9 rfl trash rfl rfl (fun _ => ⟨rfl, rfl, rfl⟩)).1.1⟩

/-- C80 fails for the SSE registers: the stubs neither save nor restore them, so the interrupted
program continues with those of the handler, which by the calling convention may change all of
them. -/
theorem C80_sse_violated (s : Cpu) (e : Entry) (n : Nat) (ra : W) (H : Cpu → Cpu) :
    (irqEntry s e n ra).xmm = s.xmm ∧ (irq s e n ra H).xmm = (H (irqEntry s e n ra)).xmm ∧
      (syscall s e n ra H).xmm = (H (sysEntry s e n ra)).xmm ∧ (irq s e n ra H).fs = (H (irqEntry s e n ra)).fs := by
  simp only [irq, syscall, irqEntry, sysEntry, call, (iretq_rest _).1, (iretq_rest _).2, (exec_rest _ _).1, (exec_rest _ _).2, (push_rest _ _).1,
    (deliver_rest _ _).1]
  exact ⟨trivial, trivial, trivial, trivial⟩

/-- A handler that uses `xmm0`. -/
example : let H : Cpu → Cpu := fun x => { x with xmm := fun _ => 0, rsp := x.rsp + 8 }
    exCpu.xmm 0 = 100 ∧ (irq exCpu exEntry 3 9 H).xmm 0 = 0 := by
  intro H
  exact ⟨rfl, by rw [(C80_sse_violated exCpu exEntry 3 9 H).2.1]⟩

end Verif.Stubs
