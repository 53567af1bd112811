import Verif.Model.Paging

/-! Property C60: the initial address space. -/

set_option backward.isDefEq.respectTransparency false

namespace Verif.Paging

/-- The start of the higher half. -/
def high : Nat := 0xFFFF800000000000

/-- What offset `off` of either half must translate to: the low 10 MiB identically, the
next 16 MiB to the frame buffer at 0xE0000000. -/
def window (off : Nat) : Option Nat :=
  if off < 0xA00000 then some off
  else if off < 0x1A00000 then some (0xE0000000 + (off - 0xA00000))
  else none

/-- What an address must translate to. -/
def expected (va : Nat) : Option Nat :=
  if va < high then window va else window (va - high)

theorem some_pair {a b : Nat} (h : a = b) (w : Bool) : some (a, w) = some (b, w) := by rw [h]

theorem pml4_entries : ∀ i, i < 512 → pml4.getD i 0 = if i = 0 ∨ i = 256 then 0x102007 else 0 := by
  have : ∀ i : Fin 512, pml4.getD i.val 0 = if i.val = 0 ∨ i.val = 256 then 0x102007 else 0 := by decide +kernel
  exact fun i hi => this ⟨i, hi⟩

theorem pdpte_entries : ∀ i, i < 512 → pdpte.getD i 0 = if i = 0 then 0x103003 else 0 := by
  have : ∀ i : Fin 512, pdpte.getD i.val 0 = if i.val = 0 then 0x103003 else 0 := by decide +kernel
  exact fun i hi => this ⟨i, hi⟩

theorem pde_entries : ∀ i, i < 512 → pde.getD i 0 =
    if i < 5 then 0x200000 * i + 0x83 else if i < 13 then 0xE0000000 + 0x200000 * (i - 5) + 0x83 else 0 := by
  have : ∀ i : Fin 512, pde.getD i.val 0 =
    if i.val < 5 then 0x200000 * i.val + 0x83
    else if i.val < 13 then 0xE0000000 + 0x200000 * (i.val - 5) + 0x83 else 0 := by decide +kernel
  exact fun i hi => this ⟨i, hi⟩

theorem protect_entries : ∀ i, i < 512 → (protect pde).getD i 0 =
    if i = 2 then 0x400081 else
    if i < 5 then 0x200000 * i + 0x83 else if i < 13 then 0xE0000000 + 0x200000 * (i - 5) + 0x83 else 0 := by
  have : ∀ i : Fin 512, (protect pde).getD i.val 0 =
    if i.val = 2 then 0x400081 else
    if i.val < 5 then 0x200000 * i.val + 0x83
    else if i.val < 13 then 0xE0000000 + 0x200000 * (i.val - 5) + 0x83 else 0 := by decide +kernel
  exact fun i hi => this ⟨i, hi⟩

/-- The walk through the two upper levels; of the top level only the entry of the address matters. -/
theorem walk_upper_at {m : Nat → Nat} {d : List Nat} (va : Nat)
    (h4 : m (0x101000 + 8 * (va / 2 ^ 39 % 512)) = pml4.getD (va / 2 ^ 39 % 512) 0)
    (hl3 : ∀ i, i < 512 → m (0x102000 + 8 * i) = pdpte.getD i 0)
    (hl2 : ∀ i, i < 512 → m (0x103000 + 8 * i) = d.getD i 0) :
    walk m cr3 va =
      if canonical va = true ∧ (va / 2 ^ 39 % 512 = 0 ∨ va / 2 ^ 39 % 512 = 256) ∧ va / 2 ^ 30 % 512 = 0 then
        if present (d.getD (va / 2 ^ 21 % 512) 0) then
          if large (d.getD (va / 2 ^ 21 % 512) 0) then
            some (d.getD (va / 2 ^ 21 % 512) 0 / 2 ^ 21 % 2 ^ 31 * 2 ^ 21 + va % 2 ^ 21,
              writableBit (d.getD (va / 2 ^ 21 % 512) 0))
          else walk m cr3 va
        else none
      else none := by
  have h3 := hl3 (va / 2 ^ 30 % 512) (Nat.mod_lt _ (by decide))
  have h2 := hl2 (va / 2 ^ 21 % 512) (Nat.mod_lt _ (by decide))
  rw [pml4_entries _ (Nat.mod_lt _ (by decide))] at h4
  rw [pdpte_entries _ (Nat.mod_lt _ (by decide))] at h3
  by_cases c1 : canonical va = true
  · by_cases c2 : va / 2 ^ 39 % 512 = 0 ∨ va / 2 ^ 39 % 512 = 256
    · rw [if_pos c2] at h4
      by_cases c3 : va / 2 ^ 30 % 512 = 0
      · rw [if_pos c3] at h3
        rw [if_pos ⟨c1, c2, c3⟩]
        have t4 : table 0x102007 = 0x102000 := by decide
        have t3 : table 0x103003 = 0x103000 := by decide
        have p4 : present 0x102007 = true := by decide
        have p3 : present 0x103003 = true := by decide
        have l3 : large 0x103003 = false := by decide
        have w4 : writableBit 0x102007 = true := by decide
        have w3 : writableBit 0x103003 = true := by decide
        unfold walk
        simp only [c1, if_true, show cr3 = 0x101000 from rfl, h4, p4, t4, h3, p3, l3, t3, h2, w4, w3, Bool.and_true,
          Bool.true_and, Bool.false_eq_true, if_false]
        cases present (d.getD (va / 2 ^ 21 % 512) 0) <;> cases large (d.getD (va / 2 ^ 21 % 512) 0) <;> simp
      · rw [if_neg c3] at h3
        rw [if_neg (fun h => c3 h.2.2)]
        have t4 : table 0x102007 = 0x102000 := by decide
        have p4 : present 0x102007 = true := by decide
        have p3 : present 0 = false := by decide
        unfold walk
        simp only [c1, if_true, show cr3 = 0x101000 from rfl, h4, p4, t4, h3, p3, Bool.false_eq_true, if_false]
    · rw [if_neg c2] at h4
      rw [if_neg (fun h => c2 h.2.1)]
      have p4 : present 0 = false := by decide
      unfold walk
      simp only [c1, if_true, show cr3 = 0x101000 from rfl, h4, p4, Bool.false_eq_true, if_false]
  · rw [if_neg (fun h => c1 h.1)]
    unfold walk
    simp only [c1, Bool.false_eq_true, if_false]

/-- The walk through the two upper levels. -/
theorem walk_upper {m : Nat → Nat} {d : List Nat} (h : Loaded m pml4 pdpte d) (va : Nat) :
    walk m cr3 va =
      if canonical va = true ∧ (va / 2 ^ 39 % 512 = 0 ∨ va / 2 ^ 39 % 512 = 256) ∧ va / 2 ^ 30 % 512 = 0 then
        if present (d.getD (va / 2 ^ 21 % 512) 0) then
          if large (d.getD (va / 2 ^ 21 % 512) 0) then
            some (d.getD (va / 2 ^ 21 % 512) 0 / 2 ^ 21 % 2 ^ 31 * 2 ^ 21 + va % 2 ^ 21,
              writableBit (d.getD (va / 2 ^ 21 % 512) 0))
          else walk m cr3 va
        else none
      else none :=
  walk_upper_at va (h.l4 _ (Nat.mod_lt _ (by decide))) h.l3 h.l2

/-- The addresses that get past the two upper levels. -/
theorem upper_iff (va : Nat) (hva : va < 2 ^ 64) :
    (canonical va = true ∧ (va / 2 ^ 39 % 512 = 0 ∨ va / 2 ^ 39 % 512 = 256) ∧ va / 2 ^ 30 % 512 = 0) ↔
      (va < 2 ^ 30 ∨ high ≤ va ∧ va - high < 2 ^ 30) := by
  simp only [canonical, decide_eq_true_eq, high]
  omega

theorem translate_at (m : Nat → Nat) (va : Nat) (hva : va < 2 ^ 64)
    (h4 : m (0x101000 + 8 * (va / 2 ^ 39 % 512)) = pml4.getD (va / 2 ^ 39 % 512) 0)
    (h3 : ∀ i, i < 512 → m (0x102000 + 8 * i) = pdpte.getD i 0)
    (h2 : ∀ i, i < 512 → m (0x103000 + 8 * i) = pde.getD i 0) :
    walk m cr3 va = (expected va).map fun pa => (pa, true) := by
  have hu := upper_iff va hva
  have hd := pde_entries (va / 2 ^ 21 % 512) (Nat.mod_lt _ (by decide))
  by_cases c : va < 2 ^ 30 ∨ high ≤ va ∧ va - high < 2 ^ 30
  · rw [walk_upper_at va h4 h3 h2, if_pos (hu.2 c)]
    have hm : va / 2 ^ 21 % 512 = (if va < high then va else va - high) / 2 ^ 21 ∧
        (if va < high then va else va - high) % 2 ^ 21 = va % 2 ^ 21 ∧
        (if va < high then va else va - high) < 2 ^ 30 ∧
        expected va = window (if va < high then va else va - high) := by
      simp only [high] at c ⊢
      by_cases c0 : va < 0xFFFF800000000000
      · simp only [expected, high, if_pos c0]
        exact ⟨by omega, trivial, by omega, trivial⟩
      · simp only [expected, high, if_neg c0]
        exact ⟨by omega, by omega, by omega, trivial⟩
    obtain ⟨m1, m2, m3, m4⟩ := hm
    rw [m4]
    generalize (if va < high then va else va - high) = off at *
    rw [m1] at hd ⊢
    rw [← m2]
    have hoff := Nat.div_add_mod off (2 ^ 21)
    have hlt := Nat.mod_lt off (show 0 < 2 ^ 21 by decide)
    by_cases c1 : off / 2 ^ 21 < 5
    · rw [if_pos c1] at hd
      have k : off < 0xA00000 := by omega
      rw [hd]
      have e1 : present (0x200000 * (off / 2 ^ 21) + 0x83) = true := by simp only [present, decide_eq_true_eq]; omega
      have e2 : large (0x200000 * (off / 2 ^ 21) + 0x83) = true := by simp only [large, decide_eq_true_eq]; omega
      have e3 : writableBit (0x200000 * (off / 2 ^ 21) + 0x83) = true := by simp only [writableBit, decide_eq_true_eq]; omega
      rw [if_pos e1, if_pos e2, e3]
      simp only [window, if_pos k, Option.map_some]
      refine some_pair ?_ _
      omega
    · rw [if_neg c1] at hd
      by_cases c2 : off / 2 ^ 21 < 13
      · rw [if_pos c2] at hd
        have k : ¬ off < 0xA00000 := by omega
        have k2 : off < 0x1A00000 := by omega
        rw [hd]
        have e1 : present (0xE0000000 + 0x200000 * (off / 2 ^ 21 - 5) + 0x83) = true := by
          simp only [present, decide_eq_true_eq]; omega
        have e2 : large (0xE0000000 + 0x200000 * (off / 2 ^ 21 - 5) + 0x83) = true := by
          simp only [large, decide_eq_true_eq]; omega
        have e3 : writableBit (0xE0000000 + 0x200000 * (off / 2 ^ 21 - 5) + 0x83) = true := by
          simp only [writableBit, decide_eq_true_eq]; omega
        rw [if_pos e1, if_pos e2, e3]
        simp only [window, if_neg k, if_pos k2, Option.map_some]
        exact some_pair (by omega) _
      · rw [if_neg c2] at hd
        have k : ¬ off < 0xA00000 := by omega
        have k2 : ¬ off < 0x1A00000 := by omega
        rw [hd, if_neg (by decide)]
        simp only [window, if_neg k, if_neg k2, Option.map_none]
  · rw [walk_upper_at va h4 h3 h2, if_neg (fun hh => c (hu.1 hh))]
    have : expected va = none := by
      simp only [high, not_or, not_and] at c
      unfold expected window
      by_cases c0 : va < high
      · rw [if_pos c0, if_neg (by omega), if_neg (by omega)]
      · rw [if_neg c0, if_neg (by simp only [high] at c0 ⊢; omega), if_neg (by simp only [high] at c0 ⊢; omega)]
    rw [this]; rfl

/-- C60. For every virtual address: the walk through the tables of `head.S` gives exactly
the expected physical address, present and writable, or faults outside the windows.
(The other contents of memory do not matter.) -/
theorem C60_translate (m : Nat → Nat) (h : Loaded m pml4 pdpte pde) (va : Nat) (hva : va < 2 ^ 64) :
    walk m cr3 va = (expected va).map fun pa => (pa, true) :=
  translate_at m va hva (h.l4 _ (Nat.mod_lt _ (by decide))) h.l3 h.l2

/-- A memory that holds the tables and nothing else. -/
def exMem (d : List Nat) : Nat → Nat := fun a =>
  if 0x101000 ≤ a ∧ a < 0x102000 then pml4.getD ((a - 0x101000) / 8) 0
  else if 0x102000 ≤ a ∧ a < 0x103000 then pdpte.getD ((a - 0x102000) / 8) 0
  else if 0x103000 ≤ a ∧ a < 0x104000 then d.getD ((a - 0x103000) / 8) 0
  else 0

theorem exMem_loaded (d : List Nat) : Loaded (exMem d) pml4 pdpte d := by
  refine ⟨fun i hi => ?_, fun i hi => ?_, fun i hi => ?_⟩
  · unfold exMem
    rw [if_pos (by omega), show (0x101000 + 8 * i - 0x101000) / 8 = i by omega]
  · unfold exMem
    rw [if_neg (by omega), if_pos (by omega), show (0x102000 + 8 * i - 0x102000) / 8 = i by omega]
  · unfold exMem
    rw [if_neg (by omega), if_neg (by omega), if_pos (by omega), show (0x103000 + 8 * i - 0x103000) / 8 = i by omega]

/-- The kernel's first byte, the frame buffer, and two faults. -/
example : walk (exMem pde) cr3 0xFFFF800000100000 = some (0x100000, true) ∧
    walk (exMem pde) cr3 0xFFFF800000A00004 = some (0xE0000004, true) ∧
    walk (exMem pde) cr3 0x1A00000 = none ∧ walk (exMem pde) cr3 0x0000800000000000 = none := by
  refine ⟨?_, ?_, ?_, ?_⟩ <;> rw [C60_translate _ (exMem_loaded pde) _ (by decide)] <;> decide

/-- C60, the console: every byte of the 1440 × 900 × 4 byte frame buffer at `screen_`
(kernel/src/io/veas.cpp:335) translates to the physical frame buffer, and so does every
byte written by a console whose writes are in bounds. -/
theorem C60_framebuffer (m : Nat → Nat) (h : Loaded m pml4 pdpte pde) (k : Nat) (hk : k < 1440 * 900 * 4) :
    walk m cr3 (0xffff800000a00000 + k) = some (0xE0000000 + k, true) := by
  rw [C60_translate m h _ (by omega)]
  unfold expected window high
  rw [if_neg (by omega), if_neg (by omega), if_pos (by omega)]
  simp only [Option.map_some]
  refine some_pair ?_ _
  omega

example : walk (exMem pde) cr3 (0xffff800000a00000 + 5183999) = some (0xE0000000 + 5183999, true) :=
  C60_framebuffer _ (exMem_loaded pde) _ (by decide)

/-- C60, after `main` has cleared a bit: the translation is the same, and exactly the
third 2 MiB of both halves are no longer writable. -/
theorem C60_protect (m : Nat → Nat) (h : Loaded m pml4 pdpte (protect pde)) (va : Nat) (hva : va < 2 ^ 64) :
    walk m cr3 va = (expected va).map fun pa => (pa, !decide (0x400000 ≤ pa ∧ pa < 0x600000)) := by
  have hu := upper_iff va hva
  have hd := protect_entries (va / 2 ^ 21 % 512) (Nat.mod_lt _ (by decide))
  by_cases c : va < 2 ^ 30 ∨ high ≤ va ∧ va - high < 2 ^ 30
  · rw [walk_upper h, if_pos (hu.2 c)]
    have hm : va / 2 ^ 21 % 512 = (if va < high then va else va - high) / 2 ^ 21 ∧
        (if va < high then va else va - high) % 2 ^ 21 = va % 2 ^ 21 ∧
        (if va < high then va else va - high) < 2 ^ 30 ∧
        expected va = window (if va < high then va else va - high) := by
      simp only [high] at c ⊢
      by_cases c0 : va < 0xFFFF800000000000
      · simp only [expected, high, if_pos c0]
        exact ⟨by omega, trivial, by omega, trivial⟩
      · simp only [expected, high, if_neg c0]
        exact ⟨by omega, by omega, by omega, trivial⟩
    obtain ⟨m1, m2, m3, m4⟩ := hm
    rw [m4]
    generalize (if va < high then va else va - high) = off at *
    rw [m1] at hd ⊢
    rw [← m2]
    have hoff := Nat.div_add_mod off (2 ^ 21)
    have hlt := Nat.mod_lt off (show 0 < 2 ^ 21 by decide)
    by_cases c0 : off / 2 ^ 21 = 2
    · rw [if_pos c0] at hd
      have k : off < 0xA00000 := by omega
      rw [hd, if_pos (by decide), if_pos (by decide), show writableBit 0x400081 = false by decide]
      simp only [window, if_pos k, Option.map_some]
      have e : (decide (0x400000 ≤ off ∧ off < 0x600000)) = true := by simp only [decide_eq_true_eq]; omega
      rw [e]
      refine some_pair ?_ _
      omega
    · rw [if_neg c0] at hd
      by_cases c1 : off / 2 ^ 21 < 5
      · rw [if_pos c1] at hd
        have k : off < 0xA00000 := by omega
        rw [hd]
        have e1 : present (0x200000 * (off / 2 ^ 21) + 0x83) = true := by simp only [present, decide_eq_true_eq]; omega
        have e2 : large (0x200000 * (off / 2 ^ 21) + 0x83) = true := by simp only [large, decide_eq_true_eq]; omega
        have e3 : writableBit (0x200000 * (off / 2 ^ 21) + 0x83) = true := by simp only [writableBit, decide_eq_true_eq]; omega
        rw [if_pos e1, if_pos e2, e3]
        simp only [window, if_pos k, Option.map_some]
        have e : (decide (0x400000 ≤ off ∧ off < 0x600000)) = false := by simp only [decide_eq_false_iff_not]; omega
        rw [e]
        exact some_pair (by omega) _
      · rw [if_neg c1] at hd
        by_cases c2 : off / 2 ^ 21 < 13
        · rw [if_pos c2] at hd
          have k : ¬ off < 0xA00000 := by omega
          have k2 : off < 0x1A00000 := by omega
          rw [hd]
          have e1 : present (0xE0000000 + 0x200000 * (off / 2 ^ 21 - 5) + 0x83) = true := by
            simp only [present, decide_eq_true_eq]; omega
          have e2 : large (0xE0000000 + 0x200000 * (off / 2 ^ 21 - 5) + 0x83) = true := by
            simp only [large, decide_eq_true_eq]; omega
          have e3 : writableBit (0xE0000000 + 0x200000 * (off / 2 ^ 21 - 5) + 0x83) = true := by
            simp only [writableBit, decide_eq_true_eq]; omega
          rw [if_pos e1, if_pos e2, e3]
          simp only [window, if_neg k, if_pos k2, Option.map_some]
          have e : (decide (0x400000 ≤ 0xE0000000 + (off - 0xA00000) ∧ 0xE0000000 + (off - 0xA00000) < 0x600000)) = false := by
            simp only [decide_eq_false_iff_not]; omega
          rw [e]
          refine some_pair ?_ _
          omega
        · rw [if_neg c2] at hd
          have k : ¬ off < 0xA00000 := by omega
          have k2 : ¬ off < 0x1A00000 := by omega
          rw [hd, if_neg (by decide)]
          simp only [window, if_neg k, if_neg k2, Option.map_none]
  · rw [walk_upper h, if_neg (fun hh => c (hu.1 hh))]
    have : expected va = none := by
      simp only [high, not_or, not_and] at c
      unfold expected window
      by_cases c0 : va < high
      · rw [if_pos c0, if_neg (by omega), if_neg (by omega)]
      · rw [if_neg c0, if_neg (by simp only [high] at c0 ⊢; omega), if_neg (by simp only [high] at c0 ⊢; omega)]
    rw [this]; rfl

/-- The page `main` writes to (kernel/main.cpp:36). -/
example : walk (exMem (protect pde)) cr3 0xFFFF800000400100 = some (0x400100, false) := by
  rw [C60_protect _ (exMem_loaded _) _ (by decide)]; decide

end Verif.Paging
