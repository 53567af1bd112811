import Verif.Model.Tlb

/-!
Model of the end of `init_memory`, kernel/src/core/physical_allocator.cpp:253-262: the first ten
entries of the top-level page table are cleared, then the cached translations are dropped. The CPU
of `Model/Tlb.lean` may cache and drop translations at any time in between.

`core/physical_allocator.hpp` is not in the repository. `Get_gdt` is taken to return CR3 (its result is
called `Global_CR3`), `Phy_To_Virt` to add 0xFFFF800000000000 and yield a pointer to 8-byte
words (it is added to an index and dereferenced as an entry), and `flush_tlb` to reload CR3, which drops all
cached translations (no entry of kernel/head.S:52-82 is global).
-/

namespace Verif.Tlb
open Verif.Paging

/-- `Phy_To_Virt(Global_CR3) + i`, kernel/src/core/physical_allocator.cpp:260. -/
def top (i : Nat) : Nat := 0xFFFF800000000000 + cr3 + 8 * i

/-- `flush_tlb()`, kernel/src/core/physical_allocator.cpp:262. -/
def flush (s : St) : St := { s with tlb := fun _ => none }

/-- The loop, kernel/src/core/physical_allocator.cpp:259-260, `n` iterations from `i`, with what the CPU does to
its cache before each of them; the flag says whether no store faulted. -/
def cutLoop (cpu : Nat → List Act) : Nat → Nat → St → St × Bool
  | 0, _, s => (s, true)
  | n + 1, i, s =>
    let (s, ok) := act (acts s (cpu i)) (.store (top i) 0)
    let (s, oks) := cutLoop cpu n (i + 1) s
    (s, ok && oks)

/-- The end of `init_memory`, kernel/src/core/physical_allocator.cpp:253-262; `cpu 10` is what the CPU does between the
loop and the flush. -/
def dropLow (cpu : Nat → List Act) (s : St) : St × Bool :=
  let (s, ok) := cutLoop cpu 10 0 s
  (flush (acts s (cpu 10)), ok)

end Verif.Tlb
