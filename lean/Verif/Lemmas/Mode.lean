import Verif.Model.Mode

/-! Lemmas about the switch to 64-bit mode. -/

set_option backward.isDefEq.respectTransparency false
namespace Verif.Mode

theorem exec_append (l k : List Instr) (s : Cpu) : exec (l ++ k) s = (exec l s).bind (exec k) := by
  induction l generalizing s with
  | nil => rfl
  | cons i l ih =>
    simp only [List.cons_append, exec]
    cases step s i with
    | none => rfl
    | some s' => exact ih s'

theorem setAx_low (v : BitVec 64) (x : BitVec 16) : (setAx v x).setWidth 16 = x := by
  unfold setAx
  ext i hi
  simp

/-- Loading a writable ring 0 data segment in ring 0. -/
theorem load_data (s : Cpu) (r : SegReg) (sel : BitVec 16) (d : BitVec 64) (hp : bit s.cr0 0 = true)
    (hc : s.cs.sel.extractLsb' 0 2 = 0#2) (hl : s.lookup sel = some d) (hs : rpl sel = 0) (h0 : (sel >>> 2 : BitVec 16) ≠ 0)
    (hd : isPresent d = true ∧ isSeg d = true ∧ isCode d = false ∧ rw d = true ∧ dpl d = 0) :
    s.loadSeg r sel = some { s with seg := fun x => if x = r then ⟨sel, d⟩ else s.seg x } := by
  obtain ⟨h1, h2, h3, h4, h5⟩ := hd
  have hcpl : s.cpl = 0 := by simp [Cpu.cpl, hc]
  unfold Cpu.loadSeg
  simp only [Cpu.pe, hp, hl, h0, h1, h2, h3, h4, h5, hs, hcpl]
  cases r <;> simp

theorem jump_code (s : Cpu) (sel : BitVec 16) (d off : BitVec 64) (hp : bit s.cr0 0 = true)
    (hc : s.cs.sel.extractLsb' 0 2 = 0#2) (hl : s.lookup sel = some d) (hs : rpl sel = 0)
    (hd : isPresent d = true ∧ isSeg d = true ∧ isCode d = true ∧ conforming d = false ∧ dpl d = 0)
    (hb : s.lma = true → long d = true → big d = false)
    (hm : if s.lma && long d then off.extractLsb' 47 17 = 0 ∨ off.extractLsb' 47 17 = -1 else off.toNat ≤ limit d) :
    s.codeSeg sel off = some { s with cs := ⟨sel &&& ~~~3#16, d⟩, rip := off } ∧
    s.farJmp sel off = some { s with cs := ⟨sel &&& ~~~3#16, d⟩, rip := off } := by
  obtain ⟨h1, h2, h3, h4, h5⟩ := hd
  have hcpl : s.cpl = 0 := by simp [Cpu.cpl, hc]
  have : s.codeSeg sel off = some { s with cs := ⟨sel &&& ~~~3#16, d⟩, rip := off } := by
    unfold Cpu.codeSeg
    simp only [hl, h1, h2, h3, h4, h5, hcpl]
    by_cases c : (s.lma && long d) = true
    · rw [if_pos c] at hm
      simp only [Bool.and_eq_true] at c
      rcases hm with hm | hm <;> simp [c.1, c.2, hb c.1 c.2, hm]
    · rw [if_neg c] at hm
      simp [c]
      simp at c
      omega
  refine ⟨this, ?_⟩
  unfold Cpu.farJmp
  simp [Cpu.pe, hp, hl, hs, h4, hcpl, this]


theorem ex_seg (s : Cpu) (r : SegReg) (l : List Instr) (d : BitVec 64) (hax : s.rax.setWidth 16 = 0x10#16)
    (hp : bit s.cr0 0 = true) (hc : s.cs.sel.extractLsb' 0 2 = 0#2) (hl : s.lookup 0x10#16 = some d)
    (hd : isPresent d = true ∧ isSeg d = true ∧ isCode d = false ∧ rw d = true ∧ dpl d = 0) :
    exec (.movSeg r :: l) s = exec l { s with seg := fun x => if x = r then ⟨0x10#16, d⟩ else s.seg x } := by
  simp only [exec, step, hax]
  rw [load_data s r 0x10#16 d hp hc hl (by decide) (by decide) hd]
  rfl

theorem ex_cr0 (s : Cpu) (l : List Instr) (v : BitVec 32) (hv : lo s.rax = v) (hc : s.cpl = 0)
    (h1 : bit v 31 = true → bit v 0 = true) (h2 : bit v 29 = true → bit v 30 = true)
    (h3 : bit v 31 = true → s.pg = false → s.lme = true → s.pae = true ∧ long s.cs.desc = false)
    (h4 : bit v 31 = false → s.pg = true → s.mode64 = false) :
    exec (.cr0FromEax :: l) s = exec l { s with
      cr0 := v
      efer := if bit v 31 && s.lme then s.efer ||| (1#64 <<< 10) else s.efer &&& ~~~(1#64 <<< 10) } := by
  simp only [exec, step, hv, Cpu.setCr0, hc, ne_eq, not_true, if_false]
  generalize bit v 31 = a at *
  generalize bit v 0 = b at *
  generalize bit v 29 = c at *
  generalize bit v 30 = d at *
  generalize s.pg = p at *
  generalize s.lme = q at *
  generalize s.pae = r at *
  generalize long s.cs.desc = u at *
  generalize s.mode64 = w at *
  cases a <;> cases b <;> cases c <;> cases d <;> cases p <;> cases q <;> cases r <;> cases u <;> cases w <;>
    first | rfl | simp at h1 h2 h3 h4

theorem ex_jmp (s : Cpu) (l : List Instr) (d off : BitVec 64) (hp : bit s.cr0 0 = true)
    (hc : s.cs.sel.extractLsb' 0 2 = 0#2) (hl : s.lookup 0x8#16 = some d)
    (hd : isPresent d = true ∧ isSeg d = true ∧ isCode d = true ∧ conforming d = false ∧ dpl d = 0)
    (hb : s.lma = true → long d = true → big d = false)
    (hm : if s.lma && long d then off.extractLsb' 47 17 = 0 ∨ off.extractLsb' 47 17 = -1 else off.toNat ≤ limit d) :
    exec (.farJmp 0x8#16 off :: l) s = exec l { s with cs := ⟨0x8#16, d⟩, rip := off } := by
  simp only [exec, step]
  rw [(jump_code s 0x8#16 d off hp hc hl (by decide) hd hb hm).2]
  rfl

theorem ex_lret (s : Cpu) (l : List Instr) (d : BitVec 64) (hp : bit s.cr0 0 = true)
    (hc : s.cs.sel.extractLsb' 0 2 = 0#2) (hm : s.mode64 = true) (hcs : s.mem (s.rsp + 8) = 8#64)
    (hl : s.lookup 0x8#16 = some d)
    (hd : isPresent d = true ∧ isSeg d = true ∧ isCode d = true ∧ conforming d = false ∧ dpl d = 0 ∧ long d = true ∧ big d = false)
    (ho : (s.mem s.rsp).extractLsb' 47 17 = 0 ∨ (s.mem s.rsp).extractLsb' 47 17 = -1) :
    exec (.lretq :: l) s = exec l { s with cs := ⟨0x8#16, d⟩, rip := s.mem s.rsp, rsp := s.rsp + 16 } := by
  obtain ⟨h1, h2, h3, h4, h5, h6, h7⟩ := hd
  have hcpl : s.cpl = 0 := by simp [Cpu.cpl, hc]
  have hlma : s.lma = true := by simp [Cpu.mode64] at hm; exact hm.1
  simp only [exec, step, Cpu.lret, hm, hcs, hcpl, Bool.not_true, Bool.false_eq_true, if_false,
    show BitVec.setWidth 16 8#64 = 8#16 by decide, ne_eq]
  rw [(jump_code { s with rsp := s.rsp + 16 } 0x8#16 d (s.mem s.rsp) hp hc hl (by decide) ⟨h1, h2, h3, h4, h5⟩
    (fun _ _ => h7) (by
      have : ({ s with rsp := s.rsp + 16 } : Cpu).lma = true := hlma
      rw [this, h6]; exact ho)).1]
  rfl

theorem lo_or (a b : BitVec 32) : lo (((lo (a.setWidth 64)) ||| b).setWidth 64) = a ||| b := by
  ext i hi
  simp


theorem exec_cons {s s' : Cpu} {i : Instr} (l : List Instr) (h : step s i = some s') :
    exec (i :: l) s = exec l s' := by
  simp only [exec, h, Option.bind_some]

theorem cpl_zero {s : Cpu} (h : s.pe = true → s.cs.sel.extractLsb' 0 2 = 0#2) : s.cpl = 0 := by
  unfold Cpu.cpl
  split
  · rw [h (by assumption)]; rfl
  · rfl

theorem bit_or {n : Nat} (a b : BitVec n) (i : Nat) : bit (a ||| b) i = (bit a i || bit b i) := BitVec.getLsbD_or ..

theorem or_one (v : BitVec 32) : bit (v ||| 1#32) 0 = true := by
  rw [bit_or]; exact Bool.or_true _

theorem or_one' (v : BitVec 32) (i : Nat) (h : bit 1#32 i = false) : bit (v ||| 1#32) i = bit v i := by
  rw [bit_or, h, Bool.or_false]

theorem sel8 : (8#16).extractLsb' 0 2 = 0#2 := by decide

theorem lo_wide (a : BitVec 32) : lo (a.setWidth 64) = a := by
  ext i hi
  simp

theorem real_entry (s : Cpu) (t : BitVec 64) (hpe : s.pe = false) (hpg : s.pg = false)
    (hcs : s.cs.sel.extractLsb' 0 2 = 0#2)
    (hcd : bit s.cr0 29 = true → bit s.cr0 30 = true) (ht : t.toNat < 2 ^ 32) :
    exec (toProtected t) s = some { s with
      cr0 := s.cr0 ||| 1#32, efer := s.efer &&& ~~~(1#64 <<< 10), gdtLimit := 23, gdt := gdt32,
      cs := ⟨0x08#16, 0x00CF9A000000FFFF#64⟩
      seg := fun r => if r = .gs then s.seg .gs else ⟨0x10#16, 0x00CF92000000FFFF#64⟩
      ie := false, rip := t, rsp := 0x7E00#64
      rax := setAx ((s.cr0 ||| 1#32).setWidth 64) 0x10#16 } := by
  obtain ⟨cr0, cr3, cr4, efer, gl, g, cs, seg, ie, rip, rsp, rax, rbx, rcx, rdx, mem⟩ := s
  simp only [Cpu.pe, Cpu.pg] at hpe hpg hcd hcs
  have c0 : ∀ {s : Cpu}, s.cr0 = cr0 → s.cpl = 0 := fun h => by simp [Cpu.cpl, Cpu.pe, h, hpe]
  simp only [toProtected]
  rw [exec_cons _ (by simp only [step, c0, if_true]; rfl), exec_cons _ (by simp only [step, c0, if_true]; rfl),
    exec_cons _ (by simp only [step, c0, if_true]; rfl), exec_cons _ (by simp only [step]; rfl),
    ex_cr0 _ _ (cr0 ||| 1#32) (lo_or _ _) (c0 rfl) (fun _ => or_one _)
      (fun h => by rw [or_one' _ _ (by decide)] at h ⊢; exact hcd h)
      (fun h => by rw [or_one' _ _ (by decide), hpg] at h; cases h) (fun _ h => by simp [Cpu.pg, hpg] at h)]
  rw [show bit (cr0 ||| 1#32) 31 = false from (or_one' _ _ (by decide)).trans hpg]
  simp only [Bool.false_and, Bool.false_eq_true, if_false]
  rw [show selectorCode32 = 0x8#16 from rfl,
    ex_jmp _ _ 0x00CF9A000000FFFF#64 t (or_one _) hcs rfl (by decide)
      (fun _ h => absurd h (by decide))
      (by
        rw [show long 0x00CF9A000000FFFF#64 = false by decide]
        simp only [Bool.and_false, Bool.false_eq_true, if_false]
        rw [show limit 0x00CF9A000000FFFF#64 = 2 ^ 32 - 1 by decide]
        omega)]
  rw [exec_cons _ (by simp only [step]; rfl)]
  rw [ex_seg _ _ _ 0x00CF92000000FFFF#64 (setAx_low _ _) (or_one _) sel8 rfl (by decide),
   ex_seg _ _ _ 0x00CF92000000FFFF#64 (setAx_low _ _) (or_one _) sel8 rfl (by decide),
   ex_seg _ _ _ 0x00CF92000000FFFF#64 (setAx_low _ _) (or_one _) sel8 rfl (by decide),
   ex_seg _ _ _ 0x00CF92000000FFFF#64 (setAx_low _ _) (or_one _) sel8 rfl (by decide)]
  simp only [exec, step, Option.bind_some]
  congr 2
  · funext r; cases r <;> rfl
  · rw [lo_wide]

theorem ex_cr4 (s : Cpu) (l : List Instr) (v : BitVec 32) (hv : lo s.rax = v) (hc : s.cpl = 0) (h : bit v 5 = true) :
    exec (.cr4FromEax :: l) s = exec l { s with cr4 := v } := by
  simp only [exec, step, hv, Cpu.setCr4, hc, h, ne_eq, not_true, if_false, Bool.not_true, Bool.and_false,
    Bool.false_eq_true, Option.bind_some]

theorem ex_efer (s : Cpu) (l : List Instr) (v : BitVec 64) (hc : s.cpl = 0) (hr : lo s.rcx = 0xC0000080#32)
    (hv : (lo s.rdx).setWidth 64 <<< 32 ||| (lo s.rax).setWidth 64 = v) (hp : s.pg = false) :
    exec (.wrmsr :: l) s = exec l { s with efer := (v &&& ~~~(1#64 <<< 10)) ||| (s.efer &&& (1#64 <<< 10)) } := by
  simp only [exec, step, hv, Cpu.setEfer, hc, hp, hr, ne_eq, not_true, if_false, if_true, Bool.false_and,
    Bool.false_eq_true, Option.bind_some]

/-- The steps that need ring 0 and nothing else. -/
theorem ex_lgdt (s : Cpu) (l : List Instr) (n : Nat) (t : List (BitVec 64)) (hc : s.cpl = 0) :
    exec (.lgdt n t :: l) s = exec l { s with gdtLimit := n, gdt := t } := exec_cons _ (by simp only [step, hc, if_true])

theorem ex_getCr0 (s : Cpu) (l : List Instr) (hc : s.cpl = 0) :
    exec (.eaxFromCr0 :: l) s = exec l { s with rax := s.cr0.setWidth 64 } := exec_cons _ (by simp only [step, hc, if_true])

theorem ex_getCr4 (s : Cpu) (l : List Instr) (hc : s.cpl = 0) :
    exec (.eaxFromCr4 :: l) s = exec l { s with rax := s.cr4.setWidth 64 } := exec_cons _ (by simp only [step, hc, if_true])

theorem ex_cr3 (s : Cpu) (l : List Instr) (hc : s.cpl = 0) :
    exec (.cr3FromRax :: l) s = exec l { s with cr3 := s.rax } := exec_cons _ (by simp only [step, hc, if_true])

theorem ex_rdmsr (s : Cpu) (l : List Instr) (hc : s.cpl = 0) (hr : lo s.rcx = 0xC0000080#32) :
    exec (.rdmsr :: l) s =
      exec l { s with rax := (lo s.efer).setWidth 64, rdx := (lo (s.efer >>> 32)).setWidth 64 } :=
  exec_cons _ (by simp only [step, hc, hr, and_self, if_true])

theorem efer_lme (v : BitVec 64) :
    (lo ((lo (v >>> 32)).setWidth 64)).setWidth 64 <<< 32 |||
      (lo (((lo ((lo v).setWidth 64)) ||| (1#32 <<< 8)).setWidth 64)).setWidth 64 = v ||| 256#64 := by
  apply BitVec.eq_of_getLsbD_eq
  intro i hi
  have key : ∀ j : Fin 64, (decide (j.val < 32) && (1#32 <<< 8).getLsbD j.val) = (256#64).getLsbD j.val := by decide
  have key := key ⟨i, hi⟩
  simp only [lo, BitVec.getLsbD_or, BitVec.getLsbD_shiftLeft, BitVec.getLsbD_setWidth, BitVec.getLsbD_ushiftRight] at key ⊢
  rw [← key]
  by_cases h : i < 32
  · simp only [hi, h, decide_true, Bool.not_true, Bool.true_and, Bool.and_false, Bool.false_and, Bool.false_or]
  · simp only [hi, h, decide_true, decide_false, Bool.not_false, Bool.true_and, Bool.and_false, Bool.false_and,
      Bool.or_false, show i - 32 < 64 by omega, show i - 32 < 32 by omega, show 32 + (i - 32) = i by omega]

theorem efer_keep (v : BitVec 64) :
    ((v ||| 256#64) &&& ~~~(1#64 <<< 10)) ||| (v &&& (1#64 <<< 10)) = v ||| 256#64 := by
  apply BitVec.eq_of_getLsbD_eq
  intro i hi
  have key : ∀ j : Fin 64, ∀ b : Bool,
      (((b || (256#64).getLsbD j.val) && (~~~(1#64 <<< 10)).getLsbD j.val) || (b && (1#64 <<< 10).getLsbD j.val)) =
        (b || (256#64).getLsbD j.val) := by decide
  have key := key ⟨i, hi⟩ (v.getLsbD i)
  simp only [BitVec.getLsbD_or, BitVec.getLsbD_and] at key ⊢
  exact key

/-- From protected mode to the kernel. -/
theorem long_entry (s : Cpu) (hpe : s.pe = true) (hpg : s.pg = false) (hcs : s.cs.sel.extractLsb' 0 2 = 0#2)
    (hl : long s.cs.desc = false) (hcd : bit s.cr0 29 = true → bit s.cr0 30 = true) :
    exec toLong s = some { s with
      cr0 := s.cr0 ||| 1#32 ||| 1#32 <<< 31 ||| 1#32 <<< 16, cr3 := 0x90000#64, cr4 := s.cr4 ||| 1#32 <<< 5
      efer := s.efer ||| 256#64 ||| 1#64 <<< 10, gdtLimit := 23, gdt := gdt64
      cs := ⟨0x08#16, 0x0020980000000000#64⟩
      seg := fun _ => ⟨0x10#16, 0x0000920000000000#64⟩
      rip := 0x100000#64, rsp := 0x7E00#64
      rax := (s.cr0 ||| 1#32 ||| 1#32 <<< 31 ||| 1#32 <<< 16).setWidth 64
      rcx := 0xC0000080#64
      rdx := (lo (s.efer >>> 32)).setWidth 64 } := by
  obtain ⟨cr0, cr3, cr4, efer, gl, g, cs, seg, ie, rip, rsp, rax, rbx, rcx, rdx, mem⟩ := s
  simp only [Cpu.pe, Cpu.pg] at hpe hpg hcd hcs hl
  have c0 : ∀ {s : Cpu}, s.cs = cs → s.cpl = 0 := fun h => by simp only [Cpu.cpl, h, hcs]; split <;> rfl
  simp only [toLong]
  rw [ex_lgdt _ _ _ _ (c0 rfl), exec_cons _ (by simp only [step]; rfl)]
  rw [ex_seg _ _ _ 0x0000920000000000#64 (setAx_low _ _) hpe hcs rfl (by decide),
    ex_seg _ _ _ 0x0000920000000000#64 (setAx_low _ _) hpe hcs rfl (by decide),
    ex_seg _ _ _ 0x0000920000000000#64 (setAx_low _ _) hpe hcs rfl (by decide),
    ex_seg _ _ _ 0x0000920000000000#64 (setAx_low _ _) hpe hcs rfl (by decide),
    ex_seg _ _ _ 0x0000920000000000#64 (setAx_low _ _) hpe hcs rfl (by decide)]
  rw [exec_cons _ (by simp only [step]; rfl), ex_getCr4 _ _ (c0 rfl), exec_cons _ (by simp only [step]; rfl),
    ex_cr4 _ _ (cr4 ||| 1#32 <<< 5) (lo_or _ _) (c0 rfl) (by rw [bit_or, show bit (1#32 <<< 5) 5 = true by decide, Bool.or_true]),
    exec_cons _ (by simp only [step]; rfl), ex_cr3 _ _ (c0 rfl), exec_cons _ (by simp only [step]; rfl),
    ex_rdmsr _ _ (c0 rfl) (lo_wide _), exec_cons _ (by simp only [step]; rfl),
    ex_efer _ _ (efer ||| 256#64) (c0 rfl) (by dsimp only; exact lo_wide _) (by dsimp only; exact efer_lme efer) (by unfold Cpu.pg; exact hpg)]
  rw [efer_keep, ex_getCr0 _ _ (c0 rfl), exec_cons _ (by simp only [step]; rfl), exec_cons _ (by simp only [step]; rfl),
    exec_cons _ (by simp only [step]; rfl)]
  simp only [lo_wide]
  rw [ex_cr0 _ _ (cr0 ||| 1#32 ||| 1#32 <<< 31 ||| 1#32 <<< 16) (lo_wide _) (c0 rfl)
    (fun _ => by simp only [bit_or, show bit 1#32 0 = true by decide, Bool.or_true, Bool.true_or])
    (fun h => by
      simp only [bit_or, show bit 1#32 29 = false by decide, show bit 1#32 30 = false by decide,
        show bit (1#32 <<< 31) 29 = false by decide, show bit (1#32 <<< 31) 30 = false by decide,
        show bit (1#32 <<< 16) 29 = false by decide, show bit (1#32 <<< 16) 30 = false by decide, Bool.or_false] at h ⊢
      exact hcd h)
    (fun _ _ _ => ⟨by
      unfold Cpu.pae
      rw [bit_or, show bit (1#32 <<< 5) 5 = true by decide, Bool.or_true], by dsimp only; exact hl⟩)
    (fun h => by
      simp only [bit_or, show bit (1#32 <<< 31) 31 = true by decide, Bool.or_true, Bool.true_or] at h
      cases h)]
  rw [show bit (cr0 ||| 1#32 ||| 1#32 <<< 31 ||| 1#32 <<< 16) 31 = true by
    simp only [bit_or, show bit (1#32 <<< 31) 31 = true by decide, Bool.or_true, Bool.true_or],
    Cpu.lme]
  simp only [bit_or, show bit 256#64 8 = true by decide, Bool.or_true, Bool.and_true, if_true]
  rw [show selectorCode64 = 0x8#16 from rfl,
    ex_jmp _ _ 0x0020980000000000#64 _ (by
      simp only [bit_or, show bit 1#32 0 = true by decide, Bool.or_true, Bool.true_or]) hcs rfl (by decide)
      (fun _ _ => by decide) (by
        rw [Cpu.lma]
        simp only [bit_or, show bit (1#64 <<< 10) 10 = true by decide, Bool.or_true]
        decide)]
  simp only [exec]
  congr 2
  · funext r; cases r <;> rfl

/-- The two words `pushq $0x08; pushq %rax` leave below `a`. -/
def pushed (m : BitVec 64 → BitVec 64) (a rip : BitVec 64) : BitVec 64 → BitVec 64 := fun x =>
  if x = a - 16#64 then rip else if x = a - 8#64 then 8#64 else m x

theorem pushed_eq (m : BitVec 64 → BitVec 64) (a v : BitVec 64) :
    (fun x => if x = a - 8 - 8 then v else if x = a - 8 then 8#64 else m x) = pushed m a v := by
  have : a - 8 - 8 = a - 16#64 := by rw [BitVec.sub_sub]; rfl
  rw [this]
  rfl

/-- `_start`. -/
theorem start_run (s : Cpu) (e : BitVec 64) (hpe : s.pe = true) (hcs : s.cs.sel.extractLsb' 0 2 = 0#2)
    (hlma : s.lma = true) (hl : long s.cs.desc = true) (hg : s.gdtLimit = 23 ∧ s.gdt = gdt64)
    (he : e.extractLsb' 47 17 = 0 ∨ e.extractLsb' 47 17 = -1) :
    exec (start e) s = some { s with
      cr3 := 0x101000#64, gdtLimit := 135, gdt := kernelGdt
      cs := ⟨0x08#16, 0x0020980000000000#64⟩
      seg := fun _ => ⟨0x10#16, 0x0000920000000000#64⟩
      rip := e, rsp := 0x7E00#64, rax := e, mem := pushed s.mem 0x7E00#64 e } := by
  obtain ⟨cr0, cr3, cr4, efer, gl, g, cs, seg, ie, rip, rsp, rax, rbx, rcx, rdx, mem⟩ := s
  simp only [Cpu.pe, Cpu.lma] at hpe hlma hcs hl hg
  obtain ⟨rfl, rfl⟩ := hg
  have c0 : ∀ {s : Cpu}, s.cs = cs → s.cpl = 0 := fun h => by simp only [Cpu.cpl, h, hcs]; split <;> rfl
  simp only [start]
  rw [exec_cons _ (by simp only [step]; rfl),
    ex_seg _ _ _ 0x0000920000000000#64 (setAx_low _ _) hpe hcs rfl (by decide),
    ex_seg _ _ _ 0x0000920000000000#64 (setAx_low _ _) hpe hcs rfl (by decide),
    ex_seg _ _ _ 0x0000920000000000#64 (setAx_low _ _) hpe hcs rfl (by decide),
    ex_seg _ _ _ 0x0000920000000000#64 (setAx_low _ _) hpe hcs rfl (by decide),
    exec_cons _ (by simp only [step]; rfl), ex_lgdt _ _ _ _ (c0 rfl), exec_cons _ (by simp only [step]; rfl),
    ex_seg _ _ _ 0x0000920000000000#64 (setAx_low _ _) hpe hcs rfl (by decide),
    ex_seg _ _ _ 0x0000920000000000#64 (setAx_low _ _) hpe hcs rfl (by decide),
    ex_seg _ _ _ 0x0000920000000000#64 (setAx_low _ _) hpe hcs rfl (by decide),
    ex_seg _ _ _ 0x0000920000000000#64 (setAx_low _ _) hpe hcs rfl (by decide),
    ex_seg _ _ _ 0x0000920000000000#64 (setAx_low _ _) hpe hcs rfl (by decide),
    exec_cons _ (by simp only [step]; rfl), exec_cons _ (by simp only [step]; rfl), ex_cr3 _ _ (c0 rfl),
    exec_cons _ (by simp only [step]; rfl), exec_cons _ (by simp only [step]; rfl),
    exec_cons _ (by simp only [step]; rfl)]
  simp only [Cpu.push]
  have hm := pushed_eq mem 0x7E00#64 e
  rw [ex_lret _ _ 0x0020980000000000#64 hpe hcs (by simp only [Cpu.mode64, Cpu.lma, hlma, hl, Bool.and_true])
    (by dsimp only; rw [if_neg (by decide), if_pos (by decide)]) rfl (by decide) (by dsimp only; rw [if_pos rfl]; exact he)]
  simp only [exec, hm, if_true]
  congr 2
  · funext r; cases r <;> rfl

/-- `Entry64`. -/
theorem entry_run (s : Cpu) (e : BitVec 64) (hpe : s.pe = true) (hcs : s.cs.sel.extractLsb' 0 2 = 0#2)
    (hlma : s.lma = true) (hl : long s.cs.desc = true) (hg : s.gdtLimit = 135 ∧ s.gdt = kernelGdt)
    (he : e.extractLsb' 47 17 = 0 ∨ e.extractLsb' 47 17 = -1) :
    exec (entry e) s = some { s with
      cs := ⟨0x08#16, 0x0020980000000000#64⟩
      seg := fun r => if r = .fs then s.seg .fs else ⟨0x10#16, 0x0000920000000000#64⟩
      rip := e, rsp := 0xFFFF800000007E00#64, rax := e, mem := pushed s.mem 0xFFFF800000007E00#64 e } := by
  obtain ⟨cr0, cr3, cr4, efer, gl, g, cs, seg, ie, rip, rsp, rax, rbx, rcx, rdx, mem⟩ := s
  simp only [Cpu.pe, Cpu.lma] at hpe hlma hcs hl hg
  obtain ⟨rfl, rfl⟩ := hg
  simp only [entry]
  rw [exec_cons _ (by simp only [step]; rfl),
    ex_seg _ _ _ 0x0000920000000000#64 (by dsimp only; decide) hpe hcs rfl (by decide),
    ex_seg _ _ _ 0x0000920000000000#64 (by dsimp only; decide) hpe hcs rfl (by decide),
    ex_seg _ _ _ 0x0000920000000000#64 (by dsimp only; decide) hpe hcs rfl (by decide),
    ex_seg _ _ _ 0x0000920000000000#64 (by dsimp only; decide) hpe hcs rfl (by decide),
    exec_cons _ (by simp only [step]; rfl), exec_cons _ (by simp only [step]; rfl),
    exec_cons _ (by simp only [step]; rfl), exec_cons _ (by simp only [step]; rfl)]
  simp only [Cpu.push]
  have hm := pushed_eq mem 0xFFFF800000007E00#64 e
  rw [ex_lret _ _ 0x0020980000000000#64 hpe hcs (by simp only [Cpu.mode64, Cpu.lma, hlma, hl, Bool.and_true])
    (by dsimp only; rw [if_neg (by decide), if_pos (by decide)]) rfl (by decide) (by dsimp only; rw [if_pos rfl]; exact he)]
  simp only [exec, hm, if_true]
  congr 2
  · funext r; cases r <;> rfl

theorem bit_shl_one (n k i : Nat) (h : k < n) : bit (1#n <<< k) i = decide (i = k) := by
  simp only [bit, BitVec.getLsbD_shiftLeft, BitVec.getLsbD_one]
  by_cases e : i = k
  · subst e
    simp [h]
    omega
  · simp [e]
    omega

theorem bit_one (n i : Nat) (h : 0 < n) : bit 1#n i = decide (i = 0) := by
  simp only [bit, BitVec.getLsbD_one]
  by_cases e : i = 0 <;> simp [e, h]

theorem bits_cr0 (b : Bool) (i : Nat) :
    (b || decide (i = 0) || decide (i = 0) || decide (i = 31) || decide (i = 16)) =
      (b || decide (i = 0 ∨ i = 16 ∨ i = 31)) := by
  by_cases h0 : i = 0 <;> by_cases h1 : i = 16 <;> by_cases h2 : i = 31 <;> cases b <;> simp [h0, h1, h2]

theorem bits_efer (b : Bool) (i : Nat) (h : i < 64) :
    (b && (decide (i < 64) && !decide (i = 10)) || decide (i = 8) || decide (i = 10)) =
      (b || decide (i = 8 ∨ i = 10)) := by
  by_cases h0 : i = 8 <;> by_cases h1 : i = 10 <;> cases b <;> simp [h, h0, h1]
theorem bits_efer' (i : Nat)  :
    (false && (decide (i < 64) && !decide (i = 10)) || decide (i = 8) || decide (i = 10)) =
      (false || decide (i = 8 ∨ i = 10)) := by
  by_cases h0 : i = 8 <;> by_cases h1 : i = 10 <;> simp [h0, h1]

theorem mem_kernelGdt {d : BitVec 64} (h : d ∈ kernelGdt) : d = 0#64 ∨ d = 0x0020980000000000#64 ∨
    d = 0x0000920000000000#64 ∨ d = 0x0020f80000000000#64 ∨ d = 0x0000f20000000000#64 ∨
    d = 0x00cf9a000000ffff#64 ∨ d = 0x00cf92000000ffff#64 := by
  unfold kernelGdt at h
  simp only [List.mem_append, List.mem_cons, List.not_mem_nil, List.mem_replicate, or_false] at h
  grind

theorem user_code (d : BitVec 64) (h : d ∈ kernelGdt) (h1 : isPresent d = true) (h2 : isSeg d = true) (h3 : isCode d = true)
    (h4 : conforming d = false → dpl d = 3) : d = 0x0020f80000000000#64 := by
  have e1 : isPresent 0#64 = false := by decide
  have e2 : conforming 0x0020980000000000#64 = false ∧ dpl 0x0020980000000000#64 = 0 := by decide
  have e3 : isCode 0x0000920000000000#64 = false := by decide
  have e4 : isCode 0x0000f20000000000#64 = false := by decide
  have e5 : conforming 0x00cf9a000000ffff#64 = false ∧ dpl 0x00cf9a000000ffff#64 = 0 := by decide
  have e6 : isCode 0x00cf92000000ffff#64 = false := by decide
  rcases mem_kernelGdt h with rfl | rfl | rfl | rfl | rfl | rfl | rfl
  · rw [e1] at h1; cases h1
  · have := h4 e2.1; rw [e2.2] at this; cases this
  · rw [e3] at h3; cases h3
  · rfl
  · rw [e4] at h3; cases h3
  · have := h4 e5.1; rw [e5.2] at this; cases this
  · rw [e6] at h3; cases h3

theorem user_data (d : BitVec 64) (h : d ∈ kernelGdt) (h1 : isPresent d = true) (h2 : 3 ≤ dpl d)
    (h3 : isCode d = true → rw d = true) : d = 0x0000f20000000000#64 := by
  have e1 : isPresent 0#64 = false := by decide
  have e2 : dpl 0x0020980000000000#64 = 0 := by decide
  have e3 : dpl 0x0000920000000000#64 = 0 := by decide
  have e4 : isCode 0x0020f80000000000#64 = true ∧ rw 0x0020f80000000000#64 = false := by decide
  have e5 : dpl 0x00cf9a000000ffff#64 = 0 := by decide
  have e6 : dpl 0x00cf92000000ffff#64 = 0 := by decide
  rcases mem_kernelGdt h with rfl | rfl | rfl | rfl | rfl | rfl | rfl
  · rw [e1] at h1; cases h1
  · rw [e2] at h2; omega
  · rw [e3] at h2; omega
  · have := h3 e4.1; rw [e4.2] at this; cases this
  · rfl
  · rw [e5] at h2; omega
  · rw [e6] at h2; omega

theorem noConf (d : BitVec 64) (h : d ∈ kernelGdt) : (isCode d && conforming d) = false := by
  rcases mem_kernelGdt h with rfl | rfl | rfl | rfl | rfl | rfl | rfl <;> decide

theorem ring3 (sel : BitVec 16) : (sel &&& ~~~3#16 ||| 3#16).extractLsb' 0 2 = 3#2 := by
  apply BitVec.eq_of_getLsbD_eq
  intro i hi
  have : i = 0 ∨ i = 1 := by omega
  rcases this with rfl | rfl <;> simp

theorem ax_low (v : BitVec 32) (m : BitVec 16) (i : Nat) (hi : i < 64) :
    (setAx (v.setWidth 64) m).getLsbD i = if i < 16 then m.getLsbD i else (decide (i < 32) && v.getLsbD i) := by
  have key : ∀ j : Fin 64, (~~~0xFFFF#64).getLsbD j.val = decide (16 ≤ j.val) := by decide
  have key := key ⟨i, hi⟩
  simp only at key
  unfold setAx
  rw [BitVec.getLsbD_or, BitVec.getLsbD_and, key, BitVec.getLsbD_setWidth, BitVec.getLsbD_setWidth]
  by_cases h : i < 16
  · simp [h, hi, show ¬ 16 ≤ i by omega]
  · rw [BitVec.getLsbD_of_ge m i (by omega)]
    by_cases h32 : i < 32
    · simp [h, hi, h32, show 16 ≤ i by omega]
    · rw [BitVec.getLsbD_of_ge v i (by omega)]
      simp [h, h32]

theorem ax_and (v : BitVec 32) (m : BitVec 16) :
    setAx (v.setWidth 64) ((v.setWidth 64).setWidth 16 &&& m) = (v &&& (m.setWidth 32 ||| 0xFFFF0000#32)).setWidth 64 := by
  apply BitVec.eq_of_getLsbD_eq
  intro i hi
  rw [ax_low _ _ _ hi]
  have key : ∀ j : Fin 64, (0xFFFF0000#32).getLsbD j.val = (decide (16 ≤ j.val) && decide (j.val < 32)) := by decide
  have key := key ⟨i, hi⟩
  simp only at key
  simp only [BitVec.getLsbD_setWidth, BitVec.getLsbD_and, BitVec.getLsbD_or, key]
  by_cases h : i < 16
  · simp [h, hi, show ¬ 16 ≤ i by omega, show i < 32 by omega]
  · rw [BitVec.getLsbD_of_ge m i (by omega)]
    by_cases h32 : i < 32
    · simp [h, hi, h32, show 16 ≤ i by omega]
    · simp [h, h32]

theorem ax_or (v : BitVec 32) (m : BitVec 16) :
    setAx (v.setWidth 64) ((v.setWidth 64).setWidth 16 ||| m) = (v ||| m.setWidth 32).setWidth 64 := by
  apply BitVec.eq_of_getLsbD_eq
  intro i hi
  rw [ax_low _ _ _ hi]
  simp only [BitVec.getLsbD_setWidth, BitVec.getLsbD_or]
  by_cases h : i < 16
  · simp [h, hi, show i < 32 by omega]
  · rw [BitVec.getLsbD_of_ge m i (by omega)]
    by_cases h32 : i < 32
    · simp [h, hi, h32]
    · rw [BitVec.getLsbD_of_ge v i (by omega)]
      simp [h, h32]

theorem narrow_wide (v : BitVec 32) : narrow (v.setWidth 64) = some v := by
  unfold narrow
  rw [if_pos, lo_wide]
  apply BitVec.eq_of_getLsbD_eq
  intro i hi
  rw [BitVec.getLsbD_ushiftRight, BitVec.getLsbD_setWidth, BitVec.getLsbD_of_ge v _ (by omega)]
  simp

theorem test_bit (v : BitVec 32) : (v &&& (1#32 <<< 25) = 0#32) ↔ bit v 25 = false := by
  constructor
  · intro h
    have := congrArg (fun x => bit x 25) h
    simp only [bit, BitVec.getLsbD_and, show (1#32 <<< 25).getLsbD 25 = true by decide, Bool.and_true] at this
    rw [bit, this]
    decide
  · intro h
    apply BitVec.eq_of_getLsbD_eq
    intro i hi
    rw [BitVec.getLsbD_and, show (1#32 <<< 25).getLsbD i = decide (i = 25) from bit_shl_one 32 25 i (by decide)]
    by_cases e : i = 25
    · subst e
      rw [show v.getLsbD 25 = false from h]
      decide
    · simp [e]

theorem ex_cr0_64 (s : Cpu) (l : List Instr) (h : narrow s.rax = some (lo s.rax)) :
    exec (.cr0FromRax :: l) s = exec (.cr0FromEax :: l) s := by
  simp only [exec, step, h, Option.bind_some]

theorem ex_cr4_64 (s : Cpu) (l : List Instr) (h : narrow s.rax = some (lo s.rax)) :
    exec (.cr4FromRax :: l) s = exec (.cr4FromEax :: l) s := by
  simp only [exec, step, h, Option.bind_some]

theorem ex_getCr0_64 (s : Cpu) (l : List Instr) (hc : s.cpl = 0) :
    exec (.raxFromCr0 :: l) s = exec l { s with rax := s.cr0.setWidth 64 } := exec_cons _ (by simp only [step, hc, if_true])

theorem ex_getCr4_64 (s : Cpu) (l : List Instr) (hc : s.cpl = 0) :
    exec (.raxFromCr4 :: l) s = exec l { s with rax := s.cr4.setWidth 64 } := exec_cons _ (by simp only [step, hc, if_true])

theorem bit_sse (v : BitVec 32) (i : Nat) (hi : i < 32) :
    bit (v &&& 0xFFFFFFFB#32 ||| 2#32) i = if i = 2 then false else if i = 1 then true else bit v i := by
  have key : ∀ j : Fin 32, ∀ b : Bool, (b && (0xFFFFFFFB#32).getLsbD j.val || (2#32).getLsbD j.val) =
    if j.val = 2 then false else if j.val = 1 then true else b := by decide
  have := key ⟨i, hi⟩ (v.getLsbD i)
  rw [bit, BitVec.getLsbD_or, BitVec.getLsbD_and]
  exact this

theorem enableSse_eq (cpuid : BitVec 32 → CpuidOut) (s : Cpu) :
    enableSse cpuid s =
      if bit (cpuid 1#32).edx 25 = false then some { s with
        rax := (cpuid 1#32).eax.setWidth 64, rbx := (cpuid 1#32).ebx.setWidth 64, rcx := (cpuid 1#32).ecx.setWidth 64
        rdx := (cpuid 1#32).edx.setWidth 64 }
      else exec [.mov64 0#64, .raxFromCr0, .andAx 0xFFFB#16, .orAx 0x2#16, .cr0FromRax,
        .raxFromCr4, .orAx (3#16 <<< 9), .cr4FromRax] { s with
        rax := (cpuid 1#32).eax.setWidth 64, rbx := (cpuid 1#32).ebx.setWidth 64, rcx := (cpuid 1#32).ecx.setWidth 64
        rdx := (cpuid 1#32).edx.setWidth 64 } := by
  unfold enableSse
  rw [exec_cons [] (s' := { s with rax := (1#32).setWidth 64 }) rfl]
  simp only [show ∀ s, exec [] s = some s from fun _ => rfl, Option.bind_some, Cpu.doCpuid, lo_wide, test_bit]

/-- The state `_arch_enable_sse` leaves if the processor has SSE. -/
theorem enableSse_on (cpuid : BitVec 32 → CpuidOut) (s : Cpu) (hc : s.cpl = 0) (hpe : s.pe = true)
    (hpg : s.pg = true) (hpae : s.pae = true) (hlme : s.lme = true) (hcd : bit s.cr0 29 = true → bit s.cr0 30 = true)
    (hf : bit (cpuid 1#32).edx 25 = true) :
    enableSse cpuid s = some { s with
      cr0 := s.cr0 &&& 0xFFFFFFFB#32 ||| 2#32, cr4 := s.cr4 ||| 0x600#32
      efer := s.efer ||| 1#64 <<< 10
      rax := (s.cr4 ||| 0x600#32).setWidth 64
      rbx := (cpuid 1#32).ebx.setWidth 64, rcx := (cpuid 1#32).ecx.setWidth 64
      rdx := (cpuid 1#32).edx.setWidth 64 } := by
  obtain ⟨cr0, cr3, cr4, efer, gl, g, cs, seg, ie, rip, rsp, rax, rbx, rcx, rdx, mem⟩ := s
  simp only [Cpu.pe, Cpu.pg, Cpu.pae, Cpu.lme] at hpe hpg hpae hlme hcd
  have hcs : cs.sel.extractLsb' 0 2 = 0#2 := by
    unfold Cpu.cpl Cpu.pe at hc
    dsimp only at hc
    rw [if_pos hpe] at hc
    exact BitVec.eq_of_toNat_eq hc
  have c0 : ∀ {s : Cpu}, s.cs = cs → s.cpl = 0 := fun h => by simp only [Cpu.cpl, h, hcs]; split <;> rfl
  rw [enableSse_eq, hf, if_neg (by decide)]
  rw [exec_cons _ (by simp only [step]; rfl), ex_getCr0_64 _ _ (c0 rfl), exec_cons _ (by simp only [step]; rfl)]
  dsimp only
  rw [ax_and, exec_cons _ (by simp only [step]; rfl)]
  rw [ax_or, ex_cr0_64 _ _ (by dsimp only; rw [narrow_wide, lo_wide])]
  rw [show (0xFFFB#16).setWidth 32 ||| 0xFFFF0000#32 = 0xFFFFFFFB#32 by decide,
    show (2#16).setWidth 32 = 2#32 by decide]
  rw [ex_cr0 _ _ (cr0 &&& 0xFFFFFFFB#32 ||| 2#32) (lo_wide _) (c0 rfl)
    (fun _ => by rw [bit_sse _ _ (by decide)]; exact hpe)
    (fun h => by rw [bit_sse _ _ (by decide)] at h ⊢; exact hcd h)
    (fun _ h => by unfold Cpu.pg at h; rw [hpg] at h; cases h)
    (fun h => by rw [bit_sse _ _ (by decide)] at h; exact absurd (hpg.symm.trans h) (by decide))]
  rw [bit_sse _ _ (by decide)]
  rw [show (if 31 = 2 then false else if 31 = 1 then true else bit cr0 31) = true from hpg, Cpu.lme]
  dsimp only
  rw [hlme, Bool.true_and, if_pos rfl, ex_getCr4_64 _ _ (c0 rfl), exec_cons _ (by simp only [step]; rfl)]
  rw [ax_or, show (3#16 <<< 9).setWidth 32 = 0x600#32 by decide,
    ex_cr4_64 _ _ (by dsimp only; rw [narrow_wide, lo_wide]),
    ex_cr4 _ _ (cr4 ||| 0x600#32) (lo_wide _) (c0 rfl) (by rw [bit_or, hpae, Bool.true_or])]
  rfl

/-- The state it leaves if the processor has no SSE. -/
theorem enableSse_off (cpuid : BitVec 32 → CpuidOut) (s : Cpu) (hf : bit (cpuid 1#32).edx 25 = false) :
    enableSse cpuid s = some { s with
      rax := (cpuid 1#32).eax.setWidth 64, rbx := (cpuid 1#32).ebx.setWidth 64, rcx := (cpuid 1#32).ecx.setWidth 64
      rdx := (cpuid 1#32).edx.setWidth 64 } := by
  rw [enableSse_eq, if_pos hf]

end Verif.Mode
