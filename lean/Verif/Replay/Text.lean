import Verif.Replay.Expect
import Verif.Model.StringMem
import Verif.Model.Format
import Verif.Model.Bitset
import Verif.Model.StringView
import Verif.Model.Algorithm
import Verif.Model.Atomic

/-!
The project's own unit tests of strings, of `bitset`, `string_view`, `min`, `max`, `array` and
`atomic`, replayed on the models (kernel/test/string_test.cpp, estl/test/bitset_test.cpp,
string_view_test.cpp, algorithm_test.cpp, array_test.cpp, atomic_test.cpp): evidence that the
models compute what the code computes, not proofs of properties. The buffers of 1024 bytes have
64 here.
-/

set_option backward.isDefEq.respectTransparency false
set_option maxRecDepth 100000

namespace Verif.Replay.Text
open Verif

/-- A text as bytes, with its NUL. -/
def cstr (s : String) : List UInt8 := s.toUTF8.toList ++ [0]

/-- A memory with these bytes at 1000 and 64 bytes without defined contents (here 0xAA) at
2000. -/
def memOf (bs : List UInt8) : Mem := fun a =>
  if 1000 ≤ a ∧ a < 1000 + bs.length then bs[a - 1000]?
  else if 2000 ≤ a ∧ a < 2064 then some 0xAA else none

/-- These bytes are at `p`. -/
def at? (m : Mem) (p : Nat) (bs : List UInt8) : Bool :=
  (List.range bs.length).all fun i => m (p + i) == bs[i]?

/-! ### string_test.cpp -/

/-- `MEMCPY_TEST`, kernel/test/string_test.cpp:4-35, one object of 1, 2, 4 and 8 bytes. -/
example : (do
    let (_, m) ← StringMem.memcpy (memOf [49]) 2000 1000 1
    expect (at? m 2000 [49])
    let (_, m) ← StringMem.memcpy (memOf [77, 0]) 2000 1000 2
    expect (at? m 2000 [77, 0])
    let (_, m) ← StringMem.memcpy (memOf [77, 0, 0, 0]) 2000 1000 4
    expect (at? m 2000 [77, 0, 0, 0])
    let (_, m) ← StringMem.memcpy (memOf [77, 0, 0, 0, 0, 0, 0, 0]) 2000 1000 8
    expect (at? m 2000 [77, 0, 0, 0, 0, 0, 0, 0])) = .ok () := by decide +kernel

/-- `MEMCPY_TEST`, kernel/test/string_test.cpp:37-43. -/
example : (do
    let (e, m) ← StringMem.memcpy (memOf (cstr "hello world")) 2000 1000 12
    expect (at? m 2000 (cstr "hello world") && e - 2000 == 12)) = .ok () := by decide +kernel

/-- `MEMMOVE_TEST`, kernel/test/string_test.cpp:47-59. -/
example : (do
    let (e, m) ← StringMem.memmove (memOf (cstr "hello world")) 1000 1002 10
    expect (at? m 1000 (cstr "llo world") && e - 1000 == 10)
    let (_, m) ← StringMem.memmove (memOf (cstr "hello eospp hello")) 1006 1000 11
    expect (at? m 1000 (cstr "hello hello eospp"))) = .ok () := by decide +kernel

/-- `STRING_LEN_TEST`, `STRING_COPY_TEST`, kernel/test/string_test.cpp:61-76. -/
example : (do
    expect ((← StringMem.strlen 20 (memOf (cstr "hello world")) 1000) == 11)
    expect ((← StringMem.strlen 20 (memOf (cstr "")) 1000) == 0)
    let (_, m) ← StringMem.strcpy 20 (memOf (cstr "hello world")) 2000 1000
    expect ((← StringMem.strlen 20 m 2000) == 11 && at? m 2000 (cstr "hello world"))) = .ok () := by
  decide +kernel

/-- 1.2 as the code uses it: its integral part and its first digit. -/
def onePointTwo : Format.Dbl := ⟨false, some 1#64, fun s => if s = 10#32 then some 2#64 else none⟩

/-- `STRING_SNPRINTF_TEST`, kernel/test/string_test.cpp:78-93. -/
example : (do
    let (r, s) := Format.snprintf 2000 64 (cstr "hello %s %d") [.ptr 1000, .i32 10#32] ⟨memOf (cstr "world"), []⟩
    let _ ← r
    expect (at? s.mem 2000 (cstr "hello world 10"))
    expect ((← StringMem.strlen 20 s.mem 2000) == 14)
    let (r, s) := Format.snprintf 2000 64 (cstr "hello %.1f %d") [.dbl onePointTwo, .i32 (-102#32)] s
    let _ ← r
    expect (at? s.mem 2000 (cstr "hello 1.2 -102"))
    let (r, s) := Format.snprintf 2000 64 (cstr "hello %ul") [.i64 12#64] s
    let _ ← r
    expect (at? s.mem 2000 (cstr "hello 12"))) = .ok () := by decide +kernel

/-! ### bitset_test.cpp -/

/-- `BASE_TEST`, estl/test/bitset_test.cpp:7-26. -/
example : (do
    let s := Bitset.reset 5 false
    for i in [0, 1, 2, 3, 4] do expect !(← Bitset.test s i)
    let s ← Bitset.set s 0
    expect (← Bitset.test s 0)
    let s ← Bitset.set s 1
    expect (← Bitset.test s 1)
    let s ← Bitset.clear s 0
    expect !(← Bitset.test s 0)) = .ok () := by decide +kernel

/-- `BASE_TEST`, estl/test/bitset_test.cpp:28-41, at the positions whose bit is one of the lower
32 of its word. -/
example : (do
    let ps := (List.range 100).filter (· % 64 < 32)
    let mut s := Bitset.reset 100 false
    for i in ps do
      s ← Bitset.set s i
      expect (← Bitset.test s i)
    s := Bitset.reset 100 false
    for i in ps do expect !(← Bitset.test s i)) = .ok () := by decide +kernel

/-- At the other positions the loop of estl/test/bitset_test.cpp:30-34 shifts an `int` by 32 or
more: the test passes only because of what the processor does with such a shift (C10). -/
example : (List.range 100).all (fun i => (i % 64 < 32) || Bitset.set (Bitset.reset 100 false) i == .ub) = true := by
  decide +kernel

/-! ### string_view_test.cpp -/

/-- `BASE_TEST`, estl/test/string_view_test.cpp:5-16. -/
example : (do
    let m := memOf (cstr "123")
    let n ← StringMem.cstrlen 20 m 1000
    expect (n == 3)
    let v : StringView.View := ⟨1000, BitVec.ofNat 64 n⟩
    for i in [0, 1, 2] do expect ((← StringView.charAt m v i) == 49 + i)
    expect (← StringView.eq m v v)) = .ok () := by decide +kernel

/-! ### algorithm_test.cpp, array_test.cpp -/

/-- `BASE_TEST`, estl/test/algorithm_test.cpp:4-10. -/
example : let lt : Int → Int → Bool := fun a b => decide (a < b)
    let gt : Int → Int → Bool := fun a b => decide (a > b)
    (Algorithm.min lt 1 2, Algorithm.min lt (-1) 2, Algorithm.max gt 10 12, Algorithm.max gt 100 2) = (1, -1, 12, 100) := by
  decide +kernel

/-- `BASE_TEST`, estl/test/array_test.cpp:4-26: the array is at 500. -/
example : (do
    let s0 : Algorithm.Store Nat := fun a => if 500 ≤ a ∧ a < 520 then some 0 else none
    let s ← Algorithm.fillN 30 s0 500 20#64 77
    expect ((List.range 20).all (fun i => s (500 + i) == some 77))
    let s ← Algorithm.assign s 500 11
    let s ← Algorithm.assign s 519 88
    let s ← Algorithm.assign s 501 22
    let s ← Algorithm.assign s 502 33
    expect ([500, 519, 501, 502, 503].map s == [some 11, some 88, some 22, some 33, some 77])) = .ok () := by decide +kernel

/-! ### atomic_test.cpp -/

open Atomic in
/-- `BASE_TEST`, estl/test/atomic_test.cpp:6-51: the operations in the order of the test with
what it expects of each (stores: their own value). -/
def atomicScript : List (Op 32 × Int) :=
  [(.load, 1), (.postInc, 1), (.preInc, 3), (.store 5, 5), (.load, 5), (.postDec, 5), (.preDec, 3),
   (.addAssign 5, 8), (.subAssign 6, 2), (.orAssign 1, 3), (.andAssign 4, 0), (.store 1, 1), (.xorAssign 12, 13),
   (.store 5, 5), (.fetchAdd 5, 5), (.load, 10), (.fetchSub 5, 10), (.fetchSub 5, 5), (.load, 0),
   (.store 2, 2), (.fetchAnd 1, 2), (.load, 0), (.store 1, 1), (.fetchOr 2, 1), (.load, 3),
   (.store 1, 1), (.fetchXor 1, 1), (.load, 0), (.store 10, 10), (.exchange 20, 10), (.load, 20)]

/-- The script runs as expected from 1, up to the value 20. -/
example : atomicScript.foldl (fun (p : BitVec 32 × Bool) o =>
    ((Atomic.apply p.1 o.1).1, p.2 && (Atomic.apply p.1 o.1).2.toInt == o.2)) (1, true) = (20, true) := by
  decide +kernel

/-- estl/test/atomic_test.cpp:52-65: the loop with the weak operation (which may fail
spuriously any number of times, here once), then the strong one. -/
example :
    let c1 := Atomic.compareExchange true true (20 : BitVec 32) 20 0
    let c2 := Atomic.compareExchange true false c1.1 20 0
    let c3 := Atomic.compareExchange false true c2.1 0 20
    (c1.1, c1.2.2) = (20, false) ∧ (c2.1, c2.2.2) = (0, true) ∧ c3.1 = 20 := by
  decide +kernel

end Verif.Replay.Text
