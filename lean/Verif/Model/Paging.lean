/-!
Model of the initial page tables, kernel/head.S:50-82 (loaded at physical 0x100000, so the
tables are at 0x101000, 0x102000 and 0x103000), of the change made by kernel/main.cpp:38,
and of the x86-64 4-level page walk. TLBs are not modelled; `writable` is the conjunction
of the R/W bits on the way (what is enforced for user writes, and for kernel writes if
CR0.WP is set).
-/

namespace Verif.Paging

/-- `PML4`, kernel/head.S:54-58. -/
def pml4 : List Nat := [0x00102007] ++ List.replicate 255 0 ++ [0x00102007] ++ List.replicate 255 0

/-- `PDPTE`, kernel/head.S:62-64. -/
def pdpte : List Nat := [0x103003] ++ List.replicate 511 0

/-- `PDE`, kernel/head.S:68-82. -/
def pde : List Nat :=
  [0x00000083, 0x00200083, 0x00400083, 0x00600083, 0x00800083,
   0xe0000083, 0xe0200083, 0xe0400083, 0xe0600083, 0xe0800083, 0xe0a00083, 0xe0c00083, 0xe0e00083]
  ++ List.replicate 499 0

/-- The value loaded into CR3, kernel/head.S:23-24. -/
def cr3 : Nat := 0x101000

/-- Physical memory holds the tables; everything else is arbitrary. A word of 8 bytes per
(aligned) address. kernel/head.S:52,60,66. -/
structure Loaded (m : Nat → Nat) (pml4 pdpte pde : List Nat) : Prop where
  l4 : ∀ i, i < 512 → m (0x101000 + 8 * i) = pml4.getD i 0
  l3 : ∀ i, i < 512 → m (0x102000 + 8 * i) = pdpte.getD i 0
  l2 : ∀ i, i < 512 → m (0x103000 + 8 * i) = pde.getD i 0

/-- `*(&PDE + 2) &= ~2ul`, kernel/main.cpp:38. -/
def protect (pde : List Nat) : List Nat := pde.set 2 (pde.getD 2 0 &&& (2 ^ 64 - 1 - 2))

/-- Bits of a table entry (x86-64 paging)
(read by the hardware from the tables of kernel/head.S:52-82). -/
def present (e : Nat) : Bool := e % 2 = 1
/-- The writable bit of a table entry, kernel/head.S:52-82. -/
def writableBit (e : Nat) : Bool := e / 2 % 2 = 1
/-- The bit for 2 MiB pages of a table entry, kernel/head.S:52-82. -/
def large (e : Nat) : Bool := e / 128 % 2 = 1
/-- Physical address in bits 51:12 of an entry (tables of kernel/head.S:52-82). -/
def table (e : Nat) : Nat := e / 2 ^ 12 % 2 ^ 40 * 2 ^ 12

/-- Bits 47 to 63 are equal (hardware, for kernel/head.S:52-82). -/
def canonical (va : Nat) : Bool := va / 2 ^ 47 = 0 ∨ va / 2 ^ 47 = 2 ^ 17 - 1

/-- The page walk: physical address and writability, or a fault
(hardware, on the tables of kernel/head.S:52-82). -/
def walk (m : Nat → Nat) (cr3 va : Nat) : Option (Nat × Bool) :=
  if canonical va then
    let e4 := m (cr3 + 8 * (va / 2 ^ 39 % 512))
    if present e4 then
      let e3 := m (table e4 + 8 * (va / 2 ^ 30 % 512))
      if present e3 then
        if large e3 then
          some (e3 / 2 ^ 30 % 2 ^ 22 * 2 ^ 30 + va % 2 ^ 30, writableBit e4 && writableBit e3)
        else
          let e2 := m (table e3 + 8 * (va / 2 ^ 21 % 512))
          if present e2 then
            if large e2 then
              some (e2 / 2 ^ 21 % 2 ^ 31 * 2 ^ 21 + va % 2 ^ 21, writableBit e4 && writableBit e3 && writableBit e2)
            else
              let e1 := m (table e2 + 8 * (va / 2 ^ 12 % 512))
              if present e1 then
                some (table e1 + va % 2 ^ 12,
                  writableBit e4 && writableBit e3 && writableBit e2 && writableBit e1)
              else none
          else none
      else none
    else none
  else none

end Verif.Paging
