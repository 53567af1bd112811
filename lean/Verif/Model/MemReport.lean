import Verif.Model.Double
import Verif.Model.Printf

/-!
Model of `memory::init`, kernel/src/core/physical_allocator.cpp:6-32: it prints the memory map of the
BIOS and the amount of RAM.

The header that declares `Memory_E820_Formate` is missing from the repository; its members are taken as
32-bit unsigned integers, as the formats and the shift by 32 require. The table itself is a function from
the index of an entry.
-/

namespace Verif.MemReport
open Verif Verif.Format

/-- `Memory_E820_Formate`, as used in kernel/src/core/physical_allocator.cpp:16-25. -/
structure Entry where
  address1 : BitVec 32
  address2 : BitVec 32
  length1 : BitVec 32
  length2 : BitVec 32
  type : BitVec 32

/-- `"Display Physics Address MAP,…\n"`, kernel/src/core/physical_allocator.cpp:11. -/
def fmtHead : List UInt8 :=
  [68, 105, 115, 112, 108, 97, 121, 32, 80, 104, 121, 115, 105, 99, 115, 32, 65, 100, 100, 114,
   101, 115, 115, 32, 77, 65, 80, 44, 84, 121, 112, 101, 40, 49, 58, 82, 65, 77, 44, 50, 58, 82,
   79, 77, 32, 111, 114, 32, 82, 101, 115, 101, 114, 118, 101, 100, 44, 51, 58, 65, 67, 80, 73,
   32, 82, 101, 99, 108, 97, 105, 109, 32, 77, 101, 109, 111, 114, 121, 44, 52, 58, 65, 67, 80,
   73, 32, 78, 86, 83, 32, 77, 101, 109, 111, 114, 121, 44, 79, 116, 104, 101, 114, 115, 58, 85,
   110, 100, 101, 102, 105, 110, 101, 41, 10]

/-- `"Address:%ud,%ud\tLength:%ud,%ud\tType:%ud\n"`, kernel/src/core/physical_allocator.cpp:18. -/
def fmtLine : List UInt8 :=
  [65, 100, 100, 114, 101, 115, 115, 58, 37, 117, 100, 44, 37, 117, 100, 9, 76, 101, 110, 103,
   116, 104, 58, 37, 117, 100, 44, 37, 117, 100, 9, 84, 121, 112, 101, 58, 37, 117, 100, 10]

/-- `"TotalMem = %.5f MB\n"`, kernel/src/core/physical_allocator.cpp:31. -/
def fmtTotal : List UInt8 :=
  [84, 111, 116, 97, 108, 77, 101, 109, 32, 61, 32, 37, 46, 53, 102, 32, 77, 66, 10]

/-- The arguments of the line for an entry, kernel/src/core/physical_allocator.cpp:18. -/
def lineArgs (e : Entry) : List Arg :=
  [.i32 e.address2, .i32 e.address1, .i32 e.length2, .i32 e.length1, .i32 e.type]

/-- `TotalMem += p->length1; TotalMem += tmp << 32;`, kernel/src/core/physical_allocator.cpp:19-24. The
converted integers have at most 32 significant bits, so the conversions are exact; the sums are
rounded. -/
def addRam (t : Nat) (e : Entry) : Nat :=
  if e.type = 1#32 then
    let tmp : BitVec 64 := e.length2.setWidth 64
    let t := Double.rnd (t + e.length1.toNat * Double.one)
    Double.rnd (t + (tmp <<< 32).toNat * Double.one)
  else t

/-- The loop, kernel/src/core/physical_allocator.cpp:14-29: `n` iterations are left; returns `TotalMem`. -/
def loop (font : Vesa.Font) (buf fuel : Nat) (table : Nat → Entry) :
    Nat → Nat → Nat → Printf.St → Res (Nat × Printf.St)
  | 0, _, t, s => .ok (t, s)
  | n + 1, i, t, s =>
    if 4#32 < (table i).type then .ok (t, s)
    else do
      let s ← Printf.printf font buf fuel (fmtLine ++ [0]) (lineArgs (table i)) s
      loop font buf fuel table n (i + 1) (addRam t (table i)) s

/-- `memory::init`, kernel/src/core/physical_allocator.cpp:6-32. Dividing by 1024 only changes the
exponent. -/
def init (font : Vesa.Font) (buf fuel : Nat) (table : Nat → Entry) (s : Printf.St) : Res Printf.St := do
  let s ← Printf.printf font buf fuel (fmtHead ++ [0]) [] s
  let (t, s) ← loop font buf fuel table 16 0 0 s
  let usage := Double.rnd (Double.rnd (t / 1024) / 1024)
  Printf.printf font buf fuel (fmtTotal ++ [0]) [.dbl (Double.ofMag false usage)] s

end Verif.MemReport
