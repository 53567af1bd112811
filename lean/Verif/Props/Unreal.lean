import Verif.Model.Unreal
import Verif.Lemmas.Mode
import Verif.Props.Mode

/-! Property C90: the loader's copies above 1 MiB arrive where they should. -/

set_option backward.isDefEq.respectTransparency false

namespace Verif.Unreal
open Verif.Mode

theorem limit_real (d : BitVec 64) (sel : BitVec 16) : limit (realDesc d sel) = limit d := by
  have h1 : (realDesc d sel).extractLsb' 0 16 = d.extractLsb' 0 16 := by
    apply BitVec.eq_of_getLsbD_eq; intro i hi
    have : i < 16 := hi
    simp only [realDesc, BitVec.getLsbD_extractLsb', BitVec.getLsbD_or, BitVec.getLsbD_and, BitVec.getLsbD_shiftLeft]
    have : i = 0 ∨ i = 1 ∨ i = 2 ∨ i = 3 ∨ i = 4 ∨ i = 5 ∨ i = 6 ∨ i = 7 ∨ i = 8 ∨ i = 9 ∨ i = 10 ∨ i = 11 ∨ i = 12 ∨ i = 13 ∨ i = 14 ∨ i = 15 := by omega
    rcases this with rfl | rfl | rfl | rfl | rfl | rfl | rfl | rfl | rfl | rfl | rfl | rfl | rfl | rfl | rfl | rfl <;> simp
  have h2 : (realDesc d sel).extractLsb' 48 4 = d.extractLsb' 48 4 := by
    apply BitVec.eq_of_getLsbD_eq; intro i hi
    have : i < 4 := hi
    simp only [realDesc, BitVec.getLsbD_extractLsb', BitVec.getLsbD_or, BitVec.getLsbD_and, BitVec.getLsbD_shiftLeft, BitVec.getLsbD_setWidth]
    have : i = 0 ∨ i = 1 ∨ i = 2 ∨ i = 3 := by omega
    rcases this with rfl | rfl | rfl | rfl <;> simp
  have h3 : bit (realDesc d sel) 55 = bit d 55 := by
    simp [bit, realDesc]
  unfold limit
  rw [h1, h2, h3]

theorem base_real (d : BitVec 64) (sel : BitVec 16) : base (realDesc d sel) = 16 * sel.toNat := by
  have h1 : (realDesc d sel).extractLsb' 16 24 = sel.setWidth 24 <<< 4 := by
    apply BitVec.eq_of_getLsbD_eq; intro i hi
    have : i < 24 := hi
    simp only [realDesc, BitVec.getLsbD_extractLsb', BitVec.getLsbD_or, BitVec.getLsbD_and, BitVec.getLsbD_shiftLeft, BitVec.getLsbD_setWidth]
    have : i = 0 ∨ i = 1 ∨ i = 2 ∨ i = 3 ∨ i = 4 ∨ i = 5 ∨ i = 6 ∨ i = 7 ∨ i = 8 ∨ i = 9 ∨ i = 10 ∨ i = 11 ∨ i = 12 ∨ i = 13 ∨ i = 14 ∨ i = 15 ∨ i = 16 ∨ i = 17 ∨ i = 18 ∨ i = 19 ∨ i = 20 ∨ i = 21 ∨ i = 22 ∨ i = 23 := by omega
    rcases this with rfl | rfl | rfl | rfl | rfl | rfl | rfl | rfl | rfl | rfl | rfl | rfl | rfl | rfl | rfl | rfl | rfl | rfl | rfl | rfl | rfl | rfl | rfl | rfl <;> simp
  have h2 : (realDesc d sel).extractLsb' 56 8 = 0#8 := by
    apply BitVec.eq_of_getLsbD_eq; intro i hi
    have : i < 8 := hi
    simp only [realDesc, BitVec.getLsbD_extractLsb', BitVec.getLsbD_or, BitVec.getLsbD_and, BitVec.getLsbD_shiftLeft, BitVec.getLsbD_setWidth]
    have : i = 0 ∨ i = 1 ∨ i = 2 ∨ i = 3 ∨ i = 4 ∨ i = 5 ∨ i = 6 ∨ i = 7 := by omega
    rcases this with rfl | rfl | rfl | rfl | rfl | rfl | rfl | rfl <;> simp
  unfold base
  rw [h1, h2]
  have : (sel.setWidth 24 <<< 4).toNat = 16 * sel.toNat := by
    have := sel.isLt
    rw [BitVec.toNat_shiftLeft, BitVec.toNat_setWidth, Nat.shiftLeft_eq]
    omega
  rw [this]
  simp

theorem limit_loads (l : List (BitVec 16)) (g : Seg) : limit (l.foldl realLoad g).desc = limit g.desc := by
  induction l generalizing g with
  | nil => rfl
  | cons x l ih => rw [List.foldl_cons, ih]; exact limit_real _ _

/-- Handlers leave the limit alone, and the base once it is that of the selector. -/
theorem interrupted_ok (l : List (BitVec 16)) (g : Seg) (hb : base g.desc = 16 * g.sel.toNat) :
    limit (interrupted l g).desc = limit g.desc ∧ base (interrupted l g).desc = 16 * g.sel.toNat ∧
      (interrupted l g).sel = g.sel := by
  unfold interrupted
  by_cases h : l = []
  · rw [if_pos h]; exact ⟨rfl, hb, rfl⟩
  · rw [if_neg h]
    refine ⟨?_, base_real _ _, rfl⟩
    show limit (realDesc _ _) = _
    rw [limit_real, limit_loads]

theorem and_al (v : BitVec 32) (h : bit v 0 = false) :
    lo (((v ||| 1#32).setWidth 64 &&& ~~~0xFF#64) ||| ((((v ||| 1#32).setWidth 64).setWidth 8 &&& 0b11111110#8).setWidth 64)) = v := by
  apply BitVec.eq_of_getLsbD_eq; intro i hi
  simp only [lo, BitVec.getLsbD_setWidth, BitVec.getLsbD_or, BitVec.getLsbD_and, BitVec.getLsbD_not]
  by_cases c : i < 8
  · have : i = 0 ∨ i = 1 ∨ i = 2 ∨ i = 3 ∨ i = 4 ∨ i = 5 ∨ i = 6 ∨ i = 7 := by omega
    have h0 : v.getLsbD 0 = false := h
    rcases this with rfl | rfl | rfl | rfl | rfl | rfl | rfl | rfl <;> simp [h0, ← BitVec.getLsbD_eq_getElem]
  · have h1 : (0xFF#64).getLsbD i = false := by
      rw [BitVec.getLsbD_ofNat]
      have : Nat.testBit 0xFF i = false := Nat.testBit_lt_two_pow (Nat.lt_of_lt_of_le (by decide) (Nat.pow_le_pow_right (by decide) (show 8 ≤ i by omega)))
      rw [this, Bool.and_false]
    have h2 : (1#32).getLsbD i = false := by
      rw [BitVec.getLsbD_ofNat]
      have : Nat.testBit 1 i = false := Nat.testBit_lt_two_pow (Nat.lt_of_lt_of_le (by decide) (Nat.pow_le_pow_right (by decide) (show 8 ≤ i by omega)))
      rw [this, Bool.and_false]
    simp only [h1, h2, c, show i < 64 by omega, hi, decide_true, decide_false, Bool.false_and, Bool.and_false, Bool.or_false, Bool.not_false, Bool.and_true, Bool.true_and]

/-- The visit to protected mode. -/
theorem visit_run (s : Cpu) (h : RealMode s) :
    ∃ s', exec visit s = some s' ∧ s'.cr0 = s.cr0 ∧ s'.seg .fs = ⟨0x10#16, 0x00CF92000000FFFF#64⟩ ∧
      (∀ r, r ≠ .fs → s'.seg r = s.seg r) ∧ s'.cs = s.cs ∧ s'.ie = true ∧ s'.mem = s.mem ∧ s'.rsp = s.rsp := by
  obtain ⟨hpe, hpg, hcd, hcs⟩ := h
  obtain ⟨cr0, cr3, cr4, efer, gl, g, cs, seg, ie, rip, rsp, rax, rbx, rcx, rdx, mem⟩ := s
  simp only at hpe hpg hcd hcs
  have hcs2 : cs.sel.extractLsb' 0 2 = 0#2 := by rw [hcs]; decide
  have c0 : ∀ {s : Cpu}, s.cr0 = cr0 → s.cpl = 0 := fun h => by simp [Cpu.cpl, Cpu.pe, h, hpe]
  have c1 : ∀ {s : Cpu}, s.cs = cs → s.cpl = 0 := fun h => cpl_zero fun _ => by rw [h]; exact hcs2
  simp only [visit]
  rw [exec_cons _ (by simp only [step, c0, if_true]; rfl), exec_cons _ (by simp only [step, c0, if_true]; rfl),
    exec_cons _ (by simp only [step, c0, if_true]; rfl), exec_cons _ (by simp only [step]; rfl),
    ex_cr0 _ _ (cr0 ||| 1#32) (lo_or _ _) (c0 rfl) (fun _ => or_one _)
      (fun h => by rw [or_one' _ _ (by decide)] at h ⊢; exact hcd h)
      (fun h => by rw [or_one' _ _ (by decide), hpg] at h; cases h) (fun _ h => by simp [Cpu.pg, hpg] at h)]
  rw [show bit (cr0 ||| 1#32) 31 = false from (or_one' _ _ (by decide)).trans hpg]
  simp only [Bool.false_and, Bool.false_eq_true, if_false]
  rw [exec_cons _ (by simp only [step]; rfl)]
  rw [ex_seg _ _ _ 0x00CF92000000FFFF#64 (setAx_low _ _) (or_one _) hcs2 rfl (by decide)]
  rw [exec_cons _ (by simp only [step, c1, if_true]; rfl), exec_cons _ (by simp only [step]; rfl)]
  rw [ex_cr0 _ _ cr0 (and_al cr0 hpe) (c1 rfl) (fun h => by rw [hpg] at h; cases h) hcd
    (fun h => by rw [hpg] at h; cases h)
    (fun _ h => by
      have : bit (cr0 ||| 1#32) 31 = true := h
      rw [or_one' _ _ (by decide), hpg] at this; cases this)]
  rw [exec_cons _ (by simp only [step, c0, if_true]; rfl)]
  refine ⟨_, rfl, rfl, ?_, ?_, rfl, rfl, rfl, rfl⟩
  · simp
  · intro r hr
    simp [hr]

theorem reach_ok {g : Seg} {off : BitVec 32} (hb : base g.desc = 0) (hl : off.toNat ≤ limit g.desc) :
    reach true g off = some off.toNat := by
  have := off.isLt
  unfold reach gate
  rw [if_pos hl, hb, if_pos rfl]
  exact congrArg some (by omega)

/-- The loop, if the limits suffice. -/
theorem copy_ok (irq : Nat → List (BitVec 16)) (ds : Seg) (hd : base ds.desc = 0) (n : Nat) (fs : Seg) (hs : fs.sel = 0#16)
    (hb : base fs.desc = 0) (edi esi : BitVec 32) (m : Nat → BitVec 8) (he : edi.toNat + n ≤ 2 ^ 32)
    (hl : n ≠ 0 → edi.toNat + n ≤ limit fs.desc + 1) (hsrc : n ≠ 0 → esi.toNat + n ≤ limit ds.desc + 1) (hsi : esi.toNat + n ≤ 2 ^ 32) :
    copy true irq ds n fs edi esi m = some (Boot.movKernel n edi esi m) := by
  induction n generalizing fs edi esi m with
  | zero => rfl
  | succ n ih =>
    obtain ⟨i1, i2, i3⟩ := interrupted_ok (irq n) fs (by rw [hb, hs]; rfl)
    rw [hs] at i2
    have i2 : base (interrupted (irq n) fs).desc = 0 := i2
    have h1 := hl (by omega)
    have h2 := hsrc (by omega)
    simp only [copy, Boot.movKernel]
    rw [reach_ok hd (by omega), reach_ok i2 (by rw [i1]; omega)]
    simp only [Option.bind_eq_bind, Option.bind_some]
    by_cases hn : n = 0
    · subst hn; rfl
    · have e1 : (edi + 1).toNat = edi.toNat + 1 := by rw [BitVec.toNat_add]; simp; omega
      have e2 : (esi + 1).toNat = esi.toNat + 1 := by rw [BitVec.toNat_add]; simp; omega
      exact ih _ (i3.trans hs) i2 _ _ _ (by omega) (by rw [i1]; omega) (by omega) (by omega)

/-- The loop faults if the limit does not suffice. -/
theorem copy_fault (a20 : Bool) (irq : Nat → List (BitVec 16)) (ds : Seg) (n : Nat) (fs : Seg) (hs : fs.sel = 0#16)
    (hb : base fs.desc = 0) (edi esi : BitVec 32) (m : Nat → BitVec 8) (hn : n ≠ 0) (he : edi.toNat + n ≤ 2 ^ 32)
    (hl : limit fs.desc + 1 < edi.toNat + n) : copy a20 irq ds n fs edi esi m = none := by
  induction n generalizing fs edi esi m with
  | zero => exact absurd rfl hn
  | succ n ih =>
    obtain ⟨i1, i2, i3⟩ := interrupted_ok (irq n) fs (by rw [hb, hs]; rfl)
    rw [hs] at i2
    have i2 : base (interrupted (irq n) fs).desc = 0 := i2
    simp only [copy, Option.bind_eq_bind]
    cases reach a20 ds esi with
    | none => rfl
    | some src =>
      simp only [Option.bind_some]
      by_cases c : edi.toNat ≤ limit fs.desc
      · unfold reach
        rw [if_pos (by rw [i1]; exact c)]
        simp only [Option.bind_some]
        have e1 : (edi + 1).toNat = edi.toNat + 1 := by rw [BitVec.toNat_add]; simp; omega
        exact ih _ (i3.trans hs) i2 _ _ _ (by omega) (by omega) (by rw [i1]; omega)
      · unfold reach
        rw [if_neg (by rw [i1]; exact c)]
        rfl

theorem base_zero (g : Seg) : base (realLoad g 0#16).desc = 0 := (base_real _ _).trans (by decide)

theorem sector_ok (irq : Nat → List (BitVec 16)) (fs ds : Seg) (hd : 0xFFFF ≤ limit ds.desc) (off : BitVec 32) (n : Nat) (hn : n ≤ 0x200)
    (ho : off.toNat + n ≤ 2 ^ 32) (m : Nat → BitVec 8) (hf : off.toNat + n ≤ limit fs.desc + 1) :
    copy true irq (realLoad ds 0#16) n (realLoad fs 0#16) off 0x7E00#32 m = some (Boot.movKernel n off 0x7E00#32 m) := by
  have hl : limit (realLoad fs 0#16).desc = limit fs.desc := limit_real _ _
  have hl2 : limit (realLoad ds 0#16).desc = limit ds.desc := limit_real _ _
  have e : (0x7E00#32).toNat = 0x7E00 := by decide
  exact copy_ok irq _ (base_zero _) n _ rfl (base_zero _) _ _ _ ho (fun _ => by rw [hl]; exact hf)
    (fun _ => by rw [hl2, e]; omega) (by rw [e]; omega)

theorem sector_fault (irq : Nat → List (BitVec 16)) (fs ds : Seg) (off : BitVec 32) (n : Nat) (hn : n ≠ 0)
    (ho : off.toNat + n ≤ 2 ^ 32) (m : Nat → BitVec 8) (hf : limit fs.desc + 1 < off.toNat + n) :
    copy true irq (realLoad ds 0#16) n (realLoad fs 0#16) off 0x7E00#32 m = none := by
  have hl : limit (realLoad fs 0#16).desc = limit fs.desc := limit_real _ _
  exact copy_fault true irq _ n _ rfl (base_zero _) _ _ _ hn ho (by rw [hl]; exact hf)

/-- C90. Opening A20 never resets the machine. The visit to protected mode runs without an exception from every
state in real mode, and afterwards the machine is in real mode again as before, with interrupts on and
a 4 GiB limit in `fs` as the only difference. Whatever BIOS services and handlers then load
into `fs` (`pre`, and `irq` during the loop), the copy of a sector arrives byte by byte at the physical address `KernelOffset`. -/
theorem C90_copy (s : Cpu) (h : RealMode s) (p92 : BitVec 8) :
    openA20 p92 = some true ∧
    ∃ s', exec visit s = some s' ∧ RealMode s' ∧ s'.cr0 = s.cr0 ∧ s'.cs = s.cs ∧ s'.ie = true ∧ s'.mem = s.mem ∧ s'.rsp = s.rsp ∧
      (∀ r, r ≠ .fs → s'.seg r = s.seg r) ∧
      ∀ (pre : List (BitVec 16)) (irq : Nat → List (BitVec 16)) (ds : Seg) (off : BitVec 32) (m : Nat → BitVec 8),
        0xFFFF ≤ limit ds.desc → off.toNat + 0x200 ≤ 2 ^ 32 →
        copySector true irq (pre.foldl realLoad (s'.seg .fs)) ds off m = some (Boot.movKernel 0x200 off 0x7E00 m) := by
  refine ⟨?_, ?_⟩
  · unfold openA20
    simp [bit]
  · obtain ⟨s', e, e1, e2, e3, e4, e5, e6, e7⟩ := visit_run s h
    refine ⟨s', e, ⟨by rw [e1]; exact h.pe, by rw [e1]; exact h.pg, by rw [e1]; exact h.cache, by rw [e4]; exact h.cs⟩,
      e1, e4, e5, e6, e7, e3, ?_⟩
    intro pre irq ds off m hd ho
    have hl : limit (pre.foldl realLoad (s'.seg .fs)).desc = 2 ^ 32 - 1 := by
      rw [limit_loads, e2]
      decide
    exact sector_ok irq _ ds hd off 0x200 (Nat.le_refl _) ho m (by rw [hl]; omega)

/-- C90, the dependence on the BIOS: whatever is in `fs` when the copy of a sector starts, it succeeds if and only if the
limit reaches to the end of the sector, and then it is right. -/
theorem C90_exact (irq : Nat → List (BitVec 16)) (fs ds : Seg) (hd : 0xFFFF ≤ limit ds.desc) (off : BitVec 32)
    (ho : off.toNat + 0x200 ≤ 2 ^ 32) (m : Nat → BitVec 8) :
    copySector true irq fs ds off m =
      if off.toNat + 0x1FF ≤ limit fs.desc then some (Boot.movKernel 0x200 off 0x7E00 m) else none := by
  by_cases c : off.toNat + 0x1FF ≤ limit fs.desc
  · rw [if_pos c]
    exact sector_ok irq _ ds hd off 0x200 (Nat.le_refl _) ho m (by omega)
  · rw [if_neg c]
    exact sector_fault irq _ ds off 0x200 (by decide) ho m (by omega)

/-- A machine in real mode as after the BIOS, all limits 64 KiB. -/
def exReal : Cpu where
  cr0 := 0x60000010#32
  cr3 := 0
  cr4 := 0
  efer := 0
  gdtLimit := 0
  gdt := []
  cs := ⟨0x1000#16, 0x0000930100000FFFF#64⟩
  seg := fun _ => ⟨0x1000#16, 0x000093010000FFFF#64⟩
  ie := true
  rip := 0
  rsp := 0x7c00
  rax := 0x5a5a
  rbx := 0
  rcx := 0
  rdx := 0
  mem := fun _ => 0

theorem exReal_ok : RealMode exReal := ⟨by decide, by decide, by decide, by decide⟩

/-- The first sector arrives although the timer interrupt and the BIOS use `fs`; before the visit the first store would fault. -/
example : (∃ s', exec visit exReal = some s' ∧
      copySector true (fun n => if n = 7 then [0x40#16, 0xF000#16] else []) ([0xF000#16, 0x10#16].foldl realLoad (s'.seg .fs))
        (exReal.seg .ds) 0x100000 (fun a => BitVec.ofNat 8 a) =
        some (Boot.movKernel 0x200 0x100000 0x7E00 fun a => BitVec.ofNat 8 a)) ∧
    copySector true (fun _ => []) (exReal.seg .fs) (exReal.seg .ds) 0x100000 (fun a => BitVec.ofNat 8 a) = none := by
  obtain ⟨_, s', e, _, _, _, _, _, _, _, h⟩ := C90_copy exReal exReal_ok 0x24
  refine ⟨⟨s', e, h _ _ _ _ _ (by decide) (by decide)⟩, ?_⟩
  rw [C90_exact _ _ _ (by decide) _ (by decide), if_neg (by decide)]

end Verif.Unreal
