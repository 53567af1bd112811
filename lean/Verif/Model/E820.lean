import Verif.Base.Arr

/-!
Model of `kernel/src/core/e820.cpp` and `kernel/include/core/e820.hpp`: reading the
BIOS memory map. Addresses of the table are virtual addresses as naturals. The
`printf` at the end is not modelled.
-/

namespace Verif.E820
open Verif

/-- `struct Entry` (packed), kernel/include/core/e820.hpp:6-10. -/
structure Entry where
  address : BitVec 64
  length : BitVec 64
  type : BitVec 32
  deriving DecidableEq, Inhabited

/-- `e820_addr`, kernel/include/core/e820.hpp:25. -/
def e820Addr : Nat := 0xFFFF800000007E00

/-- `max_size`, kernel/include/core/e820.hpp:24. -/
def maxSize : Nat := 20

/-- Little-endian load of `n` bytes (the CPU's memory access)
(used for the members of kernel/include/core/e820.hpp:6-10). -/
def loadLE (m : Mem) (a : Nat) : Nat → Res Nat
  | 0 => .ok 0
  | n + 1 => do
    let b ← m.load a
    let r ← loadLE m (a + 1) n
    .ok (b.toNat + 256 * r)

/-- `entry->address`: offset 0 of the packed struct, kernel/include/core/e820.hpp:7. -/
def ldAddress (m : Mem) (p : Nat) : Res (BitVec 64) := do let v ← loadLE m p 8; .ok (BitVec.ofNat 64 v)

/-- `entry->length`: offset 8, kernel/include/core/e820.hpp:8. -/
def ldLength (m : Mem) (p : Nat) : Res (BitVec 64) := do
  let v ← loadLE m (p + 8) 8
  .ok (BitVec.ofNat 64 v)

/-- `entry->type`: offset 16, kernel/include/core/e820.hpp:9. -/
def ldType (m : Mem) (p : Nat) : Res (BitVec 32) := do
  let v ← loadLE m (p + 16) 4
  .ok (BitVec.ofNat 32 v)

/-- Data members of `Manager`, kernel/include/core/e820.hpp:41-43. -/
structure Manager where
  entrys : Arr Entry
  length : BitVec 64
  available : BitVec 64

/-- The loop of `Init`, kernel/src/core/e820.cpp:29-43; `k` iterations are left,
`p` is `entry` (20 bytes per entry). -/
def loop (m : Mem) : Nat → Nat → Manager → Res Manager
  | 0, _, s => .ok s
  | k + 1, p, s => do
    let t ← ldType m p
    if t > 4 then .ok s
    else do
      let l ← ldLength m p
      if l = 0 ∨ t < 1 then .ok s
      else do
        let s := if t = 1 then { s with available := s.available + l } else s
        let a ← ldAddress m p
        let arr ← s.entrys.set s.length.toNat ⟨a, l, t⟩
        loop m k (p + 20) { s with entrys := arr, length := s.length + 1 }

/-- `Manager::Init`, kernel/src/core/e820.cpp:25-45. -/
def init (m : Mem) (s : Manager) : Res Manager :=
  loop m maxSize e820Addr { s with length := 0, available := 0 }

/-- `Size`, kernel/include/core/e820.hpp:34-36. -/
def size (s : Manager) : Nat := s.length.toNat

/-- `operator[]`, kernel/include/core/e820.hpp:37-39. -/
def nth (s : Manager) (i : Nat) : Res Entry := s.entrys.get i

end Verif.E820
