import Verif.Model.Paging

/-!
Model of the end of `main`, kernel/main.cpp:36-45: a store through a page, the change of its
page table entry and a second store, on a CPU that caches translations (TLB). The CPU may fill and drop
cached translations at any time; it uses a cached one without looking at the tables. Writes of the kernel respect
the write permission (CR0.WP is set, C82). Memory is 8-byte words. The accessed and dirty bits the
CPU sets in the entries are not modelled (no translation depends on them).
-/

namespace Verif.Tlb
open Verif.Paging

/-- Physical memory and the cached translations: for a 4 KiB page its frame and whether it may be written
(hardware, for kernel/main.cpp:36-45). -/
structure St where
  mem : Nat → Nat
  tlb : Nat → Option (Nat × Bool)

/-- What happens: the CPU caches the translation of an address or drops that of a page; code stores a word,
or clears bits of a word (kernel/main.cpp:36-45). -/
inductive Act where
  | fill (va : Nat)
  | evict (page : Nat)
  | store (va v : Nat)
  | clear (va bits : Nat)

/-- The translation an access uses (hardware, for kernel/main.cpp:36-45). -/
def look (s : St) (va : Nat) : Option (Nat × Bool) :=
  match s.tlb (va / 4096) with
  | some (f, w) => some (f * 4096 + va % 4096, w)
  | none => walk s.mem cr3 va

/-- A write access: the new memory, or a page fault, which drops the cached translation
(hardware, for kernel/main.cpp:37-38, 41). -/
def access (s : St) (va : Nat) (f : Nat → Nat) : St × Bool :=
  match look s va with
  | some (pa, true) => ({ s with mem := fun a => if a = pa then f (s.mem pa) else s.mem a }, true)
  | _ => ({ s with tlb := fun k => if k = va / 4096 then none else s.tlb k }, false)

/-- One action, and whether it went without a fault (kernel/main.cpp:36-45). -/
def act (s : St) : Act → St × Bool
  | .fill va =>
    match walk s.mem cr3 va with
    | some (pa, w) => ({ s with tlb := fun k => if k = va / 4096 then some (pa / 4096, w) else s.tlb k }, true)
    | none => (s, true)
  | .evict p => ({ s with tlb := fun k => if k = p then none else s.tlb k }, true)
  | .store va v => access s va fun _ => v
  | .clear va bits => access s va fun x => x &&& (2 ^ 64 - 1 - bits)

/-- Several actions (kernel/main.cpp:36-45). -/
def acts (s : St) (l : List Act) : St := l.foldl (fun s a => (act s a).1) s

/-- `p`, kernel/main.cpp:36. -/
def p : Nat := 0xFFFF800000400100

/-- `&PDE + 2`: `PDE` is at offset 0x3000 of the image, which is linked at 0xFFFF800000100000
(kernel/head.S:66-68, kernel/Eospp.lds:5-9, kernel/main.cpp:38). -/
def entry : Nat := 0xFFFF800000100000 + 0x3000 + 8 * 2

end Verif.Tlb
