import Verif.Lemmas.Mode

/-! Properties C82 and C83: the way into 64-bit mode, and switching on SSE. -/

set_option backward.isDefEq.respectTransparency false

namespace Verif.Mode

/-- An address with equal bits 47 to 63. -/
def Canonical (a : BitVec 64) : Prop := a.extractLsb' 47 17 = 0 ∨ a.extractLsb' 47 17 = -1

/-- The machine in real mode, as the loader finds it after its last BIOS call: no
protection, no paging, a legal setting of the cache bits, code segment 0x1000 (boot.asm:150);
everything else is arbitrary. -/
structure RealMode (s : Cpu) : Prop where
  pe : bit s.cr0 0 = false
  pg : bit s.cr0 31 = false
  cache : bit s.cr0 29 = true → bit s.cr0 30 = true
  cs : s.cs.sel = 0x1000#16

/-- All instructions from the `cli` of the loader to the entry of `main`. -/
def boot (prot entry64 main : BitVec 64) : List Instr :=
  toProtected prot ++ (toLong ++ (start entry64 ++ entry main))

/-- A segment through which all 32-bit addresses mean themselves. -/
def Flat (d : BitVec 64) : Prop := base d = 0 ∧ limit d = 2 ^ 32 - 1

/-- C82. From every state in real mode the loader reaches 32-bit protected mode without an exception,
with interrupts off, in ring 0, and with the code, data, extra and stack segments flat, so that
the addresses in its stores of the page tables mean physical addresses. -/
theorem C82_protected (s : Cpu) (h : RealMode s) (prot : BitVec 64) (hp : prot.toNat < 2 ^ 32) :
    ∃ s', exec (toProtected prot) s = some s' ∧ s'.pe = true ∧ s'.pg = false ∧ s'.cpl = 0 ∧ s'.ie = false ∧
      s'.rip = prot ∧ big s'.cs.desc = true ∧ long s'.cs.desc = false ∧ Flat s'.cs.desc ∧
      ∀ r, r ≠ .gs → Flat (s'.seg r).desc ∧ rw (s'.seg r).desc = true ∧ isCode (s'.seg r).desc = false := by
  refine ⟨_, real_entry s prot h.pe h.pg (by rw [h.cs]; decide) h.cache hp, or_one _, ?_, ?_, rfl, rfl, ?_⟩
  · exact (or_one' _ _ (by decide)).trans h.pg
  · exact cpl_zero fun _ => sel8
  · dsimp only
    refine ⟨by decide, by decide, by constructor <;> decide, fun r hr => ?_⟩
    rw [if_neg hr]
    exact ⟨by constructor <;> decide, by decide, by decide⟩

/-- C82. From every state in real mode, whatever the other contents of the registers, the
loader and `head.S` reach `main` without an exception, in 64-bit mode with paging through the
kernel's tables, in ring 0, with interrupts off and kernel data segments everywhere; of the control
registers exactly the bits meant are set, and of the memory only the four words below the two
stack tops have changed. -/
theorem C82_main (s : Cpu) (h : RealMode s) (prot entry64 main : BitVec 64) (hp : prot.toNat < 2 ^ 32)
    (he : Canonical entry64) (hm : Canonical main) :
    ∃ s', exec (boot prot entry64 main) s = some s' ∧ s'.rip = main ∧ s'.mode64 = true ∧ s'.cpl = 0 ∧ s'.ie = false ∧
      s'.cr3 = 0x101000#64 ∧ s'.gdt = kernelGdt ∧ s'.rsp = 0xFFFF800000007E00#64 ∧
      (∀ i, bit s'.cr0 i = (bit s.cr0 i || decide (i = 0 ∨ i = 16 ∨ i = 31))) ∧
      (∀ i, bit s'.cr4 i = (bit s.cr4 i || decide (i = 5))) ∧
      (∀ i, bit s'.efer i = (bit s.efer i || decide (i = 8 ∨ i = 10))) ∧
      s'.cs.sel = 8#16 ∧
      (∀ r, (s'.seg r).sel = 0x10#16 ∧ isPresent (s'.seg r).desc = true ∧ isSeg (s'.seg r).desc = true ∧
        isCode (s'.seg r).desc = false ∧ rw (s'.seg r).desc = true ∧ dpl (s'.seg r).desc = 0) ∧
      ∀ a, a ≠ 0x7DF0#64 → a ≠ 0x7DF8#64 → a ≠ 0xFFFF800000007DF0#64 → a ≠ 0xFFFF800000007DF8#64 →
        s'.mem a = s.mem a := by
  have h1 := real_entry s prot h.pe h.pg (by rw [h.cs]; decide) h.cache hp
  unfold boot
  rw [exec_append, h1, Option.bind_some, exec_append]
  rw [long_entry _ (by unfold Cpu.pe; exact or_one _)
    (by unfold Cpu.pg; exact (or_one' _ _ (by decide)).trans h.pg) (by dsimp only; exact sel8) (by dsimp only; decide)
    (fun h2 => by
      dsimp only at h2 ⊢
      rw [or_one' _ _ (by decide)] at h2 ⊢
      exact h.cache h2), Option.bind_some, exec_append]
  dsimp only
  have hpe : ∀ v : BitVec 32, bit (v ||| 1#32 ||| 1#32 <<< 31 ||| 1#32 <<< 16) 0 = true := fun v => by
    simp only [bit_or, show bit 1#32 0 = true by decide, Bool.or_true, Bool.true_or]
  have hlma : ∀ v : BitVec 64, bit (v ||| 256#64 ||| 1#64 <<< 10) 10 = true := fun v => by
    simp only [bit_or, show bit (1#64 <<< 10) 10 = true by decide, Bool.or_true]
  rw [start_run _ entry64 (by unfold Cpu.pe; exact hpe _) (by dsimp only; exact sel8) (by unfold Cpu.lma; exact hlma _) (by dsimp only; decide) ⟨rfl, rfl⟩ he, Option.bind_some]
  dsimp only
  rw [entry_run _ main (by unfold Cpu.pe; exact hpe _) (by dsimp only; exact sel8) (by unfold Cpu.lma; exact hlma _) (by dsimp only; decide) ⟨rfl, rfl⟩ hm]
  dsimp only
  refine ⟨_, rfl, rfl, ?_, cpl_zero fun _ => sel8, rfl, rfl, rfl, rfl, fun i => ?_, fun i => ?_, fun i => ?_, rfl,
    fun r => ?_, fun a a1 a2 a3 a4 => ?_⟩
  · unfold Cpu.mode64 Cpu.lma
    dsimp only
    rw [hlma]
    decide
  · simp only [bit_or, bit_shl_one 32 31 _ (by decide), bit_shl_one 32 16 _ (by decide), bit_one 32 _ (by decide)]
    exact bits_cr0 _ i
  · simp only [bit_or, bit_shl_one 32 5 _ (by decide)]
  · rw [show (256#64) = 1#64 <<< 8 by decide]
    simp only [bit_or, bit_shl_one 64 8 _ (by decide), bit_shl_one 64 10 _ (by decide)]
    rw [show bit (s.efer &&& ~~~(1#64 <<< 10)) i = (bit s.efer i && (decide (i < 64) && !decide (i = 10))) by
      rw [← bit_shl_one 64 10 i (by decide)]
      exact (BitVec.getLsbD_and ..).trans (congrArg _ (BitVec.getLsbD_not ..))]
    by_cases h64 : i < 64
    · exact bits_efer _ i h64
    · rw [show bit s.efer i = false from BitVec.getLsbD_of_ge _ _ (by omega)]
      exact bits_efer' i
  · dsimp only
    rw [ite_self]
    decide
  · simp only [pushed]
    rw [if_neg (by simpa using a3), if_neg (by simpa using a4), if_neg (by simpa using a1), if_neg (by simpa using a2)]

/-- C82. The kernel's descriptor table separates the rings: for every selector and address, a
program in ring 3 that loads its code segment stays in ring 3 and in the user code segment, and
its stack and data segments can only be the user's. -/
theorem C82_user (s s' : Cpu) (hg : s.gdt = kernelGdt) (h3 : s.cpl = 3) (hpe : s.pe = true) (sel : BitVec 16) :
    (∀ off, s.codeSeg sel off = some s' → s'.cs.desc = 0x0020f80000000000#64 ∧ s'.cpl = 3) ∧
    (∀ r, s.loadSeg r sel = some s' →
      (s'.seg r).desc = 0x0000f20000000000#64 ∨ r ≠ .ss ∧ (s'.seg r).desc = 0#64) := by
  have key : ∀ d, s.lookup sel = some d → d ∈ kernelGdt := by
    intro d hd
    unfold Cpu.lookup at hd
    simp only at hd
    split at hd
    · cases hd
    · split at hd
      · rw [hg] at hd
        exact List.mem_of_getElem? hd
      · cases hd
  constructor
  · intro off h
    unfold Cpu.codeSeg at h
    cases hl : s.lookup sel with
    | none => rw [hl] at h; cases h
    | some d =>
      rw [hl] at h
      simp only at h
      have hk := key d hl
      split at h; · cases h
      rename_i c1
      split at h; · cases h
      split at h; · cases h
      split at h; · cases h
      rename_i c4
      split at h; · cases h
      split at h; · cases h
      cases h
      simp only [Bool.or_eq_true, Bool.not_eq_true', not_or, Bool.not_eq_false] at c1
      refine ⟨user_code d hk c1.1.1 c1.1.2 c1.2 (fun hc => ?_), ?_⟩
      · rw [hc, h3] at c4
        simp at c4
        exact c4
      · rw [h3]
        unfold Cpu.cpl Cpu.pe
        dsimp only
        rw [if_pos (show bit s.cr0 0 = true from hpe), ring3]
        rfl
  · intro r h
    unfold Cpu.loadSeg at h
    simp only [hpe, Bool.not_true, Bool.false_eq_true, if_false] at h
    split at h
    · split at h
      · rw [h3] at h
        simp at h
      · rename_i hr
        cases h
        right
        simp [hr]
    · cases hl : s.lookup sel with
      | none => rw [hl] at h; cases h
      | some d =>
        rw [hl] at h
        simp only at h
        have hk := key d hl
        split at h; · cases h
        rename_i c1
        simp only [Bool.or_eq_true, Bool.not_eq_true', not_or, Bool.not_eq_false] at c1
        left
        split at h
        · split at h
          · cases h
          · rename_i c2
            cases h
            simp only [if_true]
            simp only [Bool.or_eq_true, Bool.not_eq_true', not_or, Bool.not_eq_false, decide_eq_true_eq,
              Decidable.not_not] at c2
            exact user_data d hk c1.1 (by rw [c2.2, h3]; exact Nat.le_refl _) (fun _ => c2.1.1.2)
        · split at h; · cases h
          rename_i c2
          split at h; · cases h
          rename_i c3
          cases h
          simp only [if_true]
          rw [noConf d hk, h3] at c3
          simp only [Bool.not_false, Bool.true_and, decide_eq_true_eq] at c3
          refine user_data d hk c1.1 (by omega) (fun hc => ?_)
          rw [hc] at c2
          simpa using c2

/-- A machine after the BIOS: caching off, long mode never entered. -/
def exReal : Cpu where
  cr0 := 0x60000010
  cr3 := 0
  cr4 := 0
  efer := 0
  gdtLimit := 0xFFFF
  gdt := []
  cs := ⟨0x1000#16, 0⟩
  seg := fun _ => ⟨0, 0⟩
  ie := true
  rip := 0x3A0
  rsp := 0x7C00
  rax := 0x4F
  rbx := 0x4180
  rcx := 7
  rdx := 9
  mem := fun _ => 0

theorem exReal_ok : RealMode exReal := by
  constructor <;> decide

/-- A user program in ring 3. -/
def exUser : Cpu :=
  { exReal with cr0 := 0x80010011, efer := 0x500, gdt := kernelGdt, gdtLimit := 135, cs := ⟨0x1B#16, 0x0020f80000000000#64⟩ }

example : ∃ s', exec (toProtected 0x10500) exReal = some s' ∧ s'.pe = true ∧ s'.rip = 0x10500 := by
  obtain ⟨s', h, h1, _, _, _, h2, _⟩ := C82_protected exReal exReal_ok 0x10500 (by decide)
  exact ⟨s', h, h1, h2⟩

example : ∃ s', exec (boot 0x10500 0xFFFF800000100060 0xFFFF800000104000) exReal = some s' ∧ s'.mode64 = true ∧
    s'.rip = 0xFFFF800000104000 ∧ bit s'.cr0 31 = true ∧ bit s'.cr0 30 = true := by
  obtain ⟨s', h, h1, h2, _, _, _, _, _, h3, _⟩ :=
    C82_main exReal exReal_ok 0x10500 0xFFFF800000100060 0xFFFF800000104000 (by decide) (by right; decide) (by right; decide)
  refine ⟨s', h, h2, h1, (h3 31).trans ?_, (h3 30).trans ?_⟩ <;> decide

-- A jump to the user's own segment succeeds, one to the kernel's does not.
example : (exUser.codeSeg 0x1B 0x400000).isSome = true ∧ (exUser.codeSeg 0x08 0x400000).isSome = false ∧
    (exUser.loadSeg .ss 0x23).isSome = true ∧ (exUser.loadSeg .ds 0x10).isSome = false := by decide

example (s' : Cpu) (off : BitVec 64) (h : exUser.codeSeg 0x0B off = some s') : s'.cpl = 3 :=
  (C82_user exUser s' rfl (by decide) (by decide) 0x0B).1 off h |>.2

/-! ## C83 -/

/-- SSE instructions execute: no emulation (CR0.EM), no task switch pending (CR0.TS),
`fxsave` support announced (CR4.OSFXSR). -/
def sseUsable (s : Cpu) : Bool := !bit s.cr0 2 && !bit s.cr0 3 && bit s.cr4 9

/-- Kernel code in 64-bit mode, as `main` is entered (`C82_main`). -/
structure Kernel64 (s : Cpu) : Prop where
  pe : s.pe = true
  pg : s.pg = true
  pae : s.pae = true
  lme : s.lme = true
  lma : s.lma = true
  cpl : s.cpl = 0
  cache : bit s.cr0 29 = true → bit s.cr0 30 = true

/-- The processor reports SSE: bit 25 of `edx` for leaf 1. -/
def hasSse (cpuid : BitVec 32 → CpuidOut) : Bool := bit (cpuid 1#32).edx 25

/-- C83. On every processor and from every kernel state, `EnableSse` raises no exception. If the
processor reports SSE it clears CR0.EM and sets CR0.MP, CR4.OSFXSR and CR4.OSXMMEXCPT; every
other bit of the control registers, and both control registers if there is no SSE, keep their
values; so do paging, segments, stack and memory. -/
theorem C83_bits_partial (cpuid : BitVec 32 → CpuidOut) (s : Cpu) (h : Kernel64 s) :
    ∃ s', enableSse cpuid s = some s' ∧
      (∀ i, i < 32 → bit s'.cr0 i =
        if hasSse cpuid ∧ i = 2 then false else if hasSse cpuid ∧ i = 1 then true else bit s.cr0 i) ∧
      (∀ i, bit s'.cr4 i = (bit s.cr4 i || (hasSse cpuid && decide (i = 9 ∨ i = 10)))) ∧
      (∀ i, bit s'.efer i = bit s.efer i) ∧ s'.cr3 = s.cr3 ∧ s'.gdt = s.gdt ∧ s'.gdtLimit = s.gdtLimit ∧
      s'.cs = s.cs ∧ s'.seg = s.seg ∧ s'.rsp = s.rsp ∧ s'.mem = s.mem ∧ s'.ie = s.ie := by
  cases hf : hasSse cpuid with
  | false =>
    refine ⟨_, enableSse_off cpuid s hf, ?_⟩
    simp
  | true =>
    refine ⟨_, enableSse_on cpuid s h.cpl h.pe h.pg h.pae h.lme h.cache hf, ?_⟩
    dsimp only
    refine ⟨fun i hi => ?_, fun i => ?_, fun i => ?_, rfl, rfl, rfl, rfl, rfl, rfl, rfl, rfl⟩
    · rw [bit_sse _ _ hi]
      simp only [true_and]
    · rw [show (0x600#32) = 1#32 <<< 9 ||| 1#32 <<< 10 by decide]
      simp only [bit_or, bit_shl_one 32 9 _ (by decide), bit_shl_one 32 10 _ (by decide), Bool.true_and]
      by_cases h9 : i = 9 <;> by_cases h10 : i = 10 <;> simp [h9, h10]
    · rw [bit_or, bit_shl_one 64 10 _ (by decide)]
      by_cases h10 : i = 10
      · subst h10
        rw [show bit s.efer 10 = true from h.lma, Bool.true_or]
      · simp [h10]

/-- C83. After `EnableSse`, SSE instructions execute exactly if the processor has SSE and no
task switch is pending (a processor without SSE is left as it was). -/
theorem C83_usable_partial (cpuid : BitVec 32 → CpuidOut) (s : Cpu) (h : Kernel64 s) :
    ∃ s', enableSse cpuid s = some s' ∧
      sseUsable s' = if hasSse cpuid then !bit s.cr0 3 else sseUsable s := by
  obtain ⟨s', h1, h2, h3, _⟩ := C83_bits_partial cpuid s h
  refine ⟨s', h1, ?_⟩
  unfold sseUsable
  rw [h2 2 (by decide), h2 3 (by decide), h3 9]
  cases hasSse cpuid <;> simp

/-- C83, end to end. From real mode with CR0.TS clear (its state after a reset) to `main` and
through its call of `EnableSse`: SSE instructions execute on every processor that has them. -/
theorem C83_boot_partial (s : Cpu) (h : RealMode s) (hts : bit s.cr0 3 = false) (prot entry64 main : BitVec 64)
    (hp : prot.toNat < 2 ^ 32) (he : Canonical entry64) (hm : Canonical main)
    (cpuid : BitVec 32 → CpuidOut) (hf : hasSse cpuid = true) :
    ∃ s1 s2, exec (boot prot entry64 main) s = some s1 ∧ enableSse cpuid s1 = some s2 ∧ sseUsable s2 = true ∧
      s2.mode64 = true := by
  obtain ⟨s1, h1, _, h2, h3, _, _, _, _, h4, h5, h6, _⟩ := C82_main s h prot entry64 main hp he hm
  have k : Kernel64 s1 :=
    ⟨(h4 0).trans (by simp), (h4 31).trans (by simp), (h5 5).trans (by simp), (h6 8).trans (by simp),
      (h6 10).trans (by simp), h3, fun h29 => by
        rw [h4] at h29 ⊢
        simp only [show decide (29 = 0 ∨ 29 = 16 ∨ 29 = 31) = false by decide, Bool.or_false,
          show decide (30 = 0 ∨ 30 = 16 ∨ 30 = 31) = false by decide] at h29 ⊢
        exact h.cache h29⟩
  obtain ⟨s2, g1, _, _, g2, _, _, _, g3, _⟩ := C83_bits_partial cpuid s1 k
  obtain ⟨s2', g4, g5⟩ := C83_usable_partial cpuid s1 k
  cases g1.symm.trans g4
  refine ⟨s1, s2, h1, g1, ?_, ?_⟩
  · rw [g5, hf, if_pos rfl, h4, hts]
    decide
  · unfold Cpu.mode64 Cpu.lma at h2 ⊢
    rw [g2, g3]
    exact h2

/-- C83, violated. `EnableSse` is called from C++, where `rbx` belongs to the caller; `cpuid`
overwrites it and nothing restores it: whatever the processor and the state, the caller's `rbx` is
replaced by the `ebx` that leaf 1 reports. -/
theorem C83_rbx_violated (cpuid : BitVec 32 → CpuidOut) (s : Cpu) (h : Kernel64 s)
    (hb : s.rbx ≠ (cpuid 1#32).ebx.setWidth 64) :
    ∃ s', enableSse cpuid s = some s' ∧ s'.rbx = (cpuid 1#32).ebx.setWidth 64 ∧ s'.rbx ≠ s.rbx := by
  cases hf : hasSse cpuid with
  | false => exact ⟨_, enableSse_off cpuid s hf, rfl, fun h => hb h.symm⟩
  | true =>
    exact ⟨_, enableSse_on cpuid s h.cpl h.pe h.pg h.pae h.lme h.cache hf, rfl, fun h => hb h.symm⟩

/-- A processor with SSE. -/
def exCpuid (_ : BitVec 32) : CpuidOut := ⟨0x000306A9, 0x00010800, 0x80202001, 0x078BFBFD⟩

/-- The state at `main`. -/
def exMain : Cpu := { exReal with cr0 := 0x80010015, cr4 := 0x20, efer := 0x500, cs := ⟨8, 0x0020980000000000#64⟩ }

theorem exMain_ok : Kernel64 exMain := by constructor <;> decide

example : ∃ s', enableSse exCpuid exMain = some s' ∧ bit s'.cr0 2 = false ∧ bit s'.cr4 9 = true := by
  obtain ⟨s', h, h1, h2, _⟩ := C83_bits_partial exCpuid exMain exMain_ok
  exact ⟨s', h, (h1 2 (by decide)).trans (by decide), (h2 9).trans (by decide)⟩

example : sseUsable exMain = false ∧ ∃ s', enableSse exCpuid exMain = some s' ∧ sseUsable s' = true := by
  obtain ⟨s', h, h1⟩ := C83_usable_partial exCpuid exMain exMain_ok
  exact ⟨by decide, s', h, h1.trans (by decide)⟩

example : ∃ s1 s2, exec (boot 0x10500 0xFFFF800000100060 0xFFFF800000104000) exReal = some s1 ∧
    enableSse exCpuid s1 = some s2 ∧ sseUsable s2 = true ∧ s2.mode64 = true :=
  C83_boot_partial exReal exReal_ok (by decide) 0x10500 0xFFFF800000100060 0xFFFF800000104000 (by decide)
    (by right; decide) (by right; decide) exCpuid (by decide)

example : ∃ s', enableSse exCpuid exMain = some s' ∧ s'.rbx = 0x10800 ∧ s'.rbx ≠ exMain.rbx := by
  obtain ⟨s', h, h1, h2⟩ := C83_rbx_violated exCpuid exMain exMain_ok (by decide)
  exact ⟨s', h, h1.trans (by decide), h2⟩

end Verif.Mode
