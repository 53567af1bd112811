import Verif.Base.Mem

/-!
Model of `kernel/src/util/string.cpp` (memory and C-string primitives) and of
`cstrlen` in `estl/algorithm.hpp`.

Simplifications: addresses are natural numbers, so ranges that wrap around the
64-bit address space are not modelled; alignment and strict-aliasing rules for
the `uint64_t*` accesses are not modelled (the kernel target is x86-64).
-/

namespace Verif.StringMem
open Verif

/-- One 64-bit copy `*(uint64_t*)d = *(uint64_t*)s`: the eight bytes are read
before any is written. kernel/src/util/string.cpp:25 and :62. -/
def copyWord (m : Mem) (d s : Nat) : Res Mem :=
  if m.Acc s 8 ∧ m.Acc d 8 then
    .ok (fun a => if d ≤ a ∧ a < d + 8 then m (s + (a - d)) else m a)
  else .ub

/-- One byte copy `*d = *s`. kernel/src/util/string.cpp:34 and :70. -/
def copyByte (m : Mem) (d s : Nat) : Res Mem := do
  let b ← m.load s
  m.store d b

/-- `memcpy`, kernel/src/util/string.cpp:8-38. Returns (returned pointer, memory). -/
def memcpy (m : Mem) (dest src n : Nat) : Res (Nat × Mem) :=
  if dest = 0 ∨ src = 0 ∨ n = 0 then .ok (dest, m)
  else if dest = src then .ok (dest + n, m)
  else if n ≥ 8 then do
    let loop := n / 8
    let m ← forUp loop (fun i m => copyWord m (dest + 8 * i) (src + 8 * i)) m
    let d8 := dest + loop * 8
    let s8 := src + loop * 8
    let n := n - loop * 8
    let m ← forUp n (fun i m => copyByte m (d8 + i) (s8 + i)) m
    .ok (d8 + n, m)
  else do
    let m ← forUp n (fun i m => copyByte m (dest + i) (src + i)) m
    .ok (dest + n, m)

/-- `memmove`, kernel/src/util/string.cpp:40-74. Returns (returned pointer,
memory). The pointers `dest8 + n - 1` computed on line 66 for `n = 0` are only
formed, not used; natural subtraction is harmless there. -/
def memmove (m : Mem) (dest src n : Nat) : Res (Nat × Mem) :=
  if dest = 0 ∨ src = 0 ∨ n = 0 then .ok (dest, m)
  else if dest = src then .ok (dest + n, m)
  else if dest < src then memcpy m dest src n
  else do
    let d64 := dest + n
    let s64 := src + n
    let loop := if n ≥ 8 then n / 8 else 0
    let m ← forUp loop (fun i m => copyWord m (d64 - 8 * i - 8) (s64 - 8 * i - 8)) m
    let n := n - loop * 8
    let d8 := dest + n - 1
    let s8 := src + n - 1
    let m ← forUp n (fun i m => copyByte m (d8 - i) (s8 - i)) m
    .ok (d64, m)

/-- Loop of `strcpy`, kernel/src/util/string.cpp:85-87. -/
def strcpyLoop : Nat → Mem → Nat → Nat → Res Mem
  | 0, _, _, _ => .oof
  | fuel + 1, m, d, s => do
    let b ← m.load s
    let m ← m.store d b
    let c ← m.load d
    if c = 0 then .ok m else strcpyLoop fuel m (d + 1) (s + 1)

/-- `strcpy`, kernel/src/util/string.cpp:76-90. -/
def strcpy (fuel : Nat) (m : Mem) (dest src : Nat) : Res (Nat × Mem) :=
  if dest = 0 ∨ src = 0 then .ok (dest, m)
  else if dest = src then .ok (dest, m)
  else do
    let m ← strcpyLoop fuel m dest src
    .ok (dest, m)

/-- Loop of `strlen`, kernel/src/util/string.cpp:94-95 (`while (*(str++)) n++`). -/
def strlenLoop : Nat → Mem → Nat → Nat → Res Nat
  | 0, _, _, _ => .oof
  | fuel + 1, m, s, n => do
    let b ← m.load s
    if b = 0 then .ok n else strlenLoop fuel m (s + 1) (n + 1)

/-- `strlen`, kernel/src/util/string.cpp:92-97. -/
def strlen (fuel : Nat) (m : Mem) (s : Nat) : Res Nat := strlenLoop fuel m s 0

/-- Loop of `cstrlen`, estl/algorithm.hpp:17-18. -/
def cstrlenLoop : Nat → Mem → Nat → Nat → Res Nat
  | 0, _, _, _ => .oof
  | fuel + 1, m, s, n => do
    let b ← m.load s
    if b = 0 then .ok n else cstrlenLoop fuel m (s + 1) (n + 1)

/-- `cstrlen`, estl/algorithm.hpp:15-20; the length of a `string_view` built
from a C string, estl/string_view.hpp:22-23. -/
def cstrlen (fuel : Nat) (m : Mem) (s : Nat) : Res Nat := cstrlenLoop fuel m s 0

end Verif.StringMem
