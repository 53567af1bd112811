import Verif.Model.Format

/-!
Model of the floating point arithmetic in `vslprintf` (kernel/src/util/string.cpp:294-316): IEEE
binary64 numbers, rounding to nearest with ties to even, every operation rounded on its own (the
kernel is compiled for plain x86-64 without optimisation, kernel/Makefile:1, so the operations are
SSE2 instructions and nothing is contracted).

The absolute value of a finite `double` is a natural number that counts units of `2^-1074`, the
smallest positive `double`. All intermediate results of the code are far below the overflow
threshold, and since one factor of the only product is an integer, none of them has bits below the
unit.
-/

namespace Verif.Double
open Verif Verif.Format

/-- The number 1.0 in units of `2^-1074` (kernel/src/util/string.cpp:295). -/
def one : Nat := 2 ^ 1074

/-- The number 0.5, kernel/src/util/string.cpp:311. -/
def half : Nat := 2 ^ 1073

/-- The exponent field of a `double` (kernel/src/util/string.cpp:295). -/
def expo (b : BitVec 64) : Nat := (b.toNat / 2 ^ 52) % 2 ^ 11

/-- The fraction field of a `double` (kernel/src/util/string.cpp:295). -/
def mant (b : BitVec 64) : Nat := b.toNat % 2 ^ 52

/-- The absolute value of a finite `double`: `f = -f` for negative ones,
kernel/src/util/string.cpp:297-300. -/
def mag (b : BitVec 64) : Nat :=
  if expo b = 0 then mant b else (2 ^ 52 + mant b) * 2 ^ (expo b - 1)

/-- Rounding of a result to a significand of 53 bits, to nearest, ties to even
(kernel/src/util/string.cpp:311). -/
def rnd (n : Nat) : Nat :=
  if n < 2 ^ 53 then n
  else
    let k := n.log2 - 52
    let q := n / 2 ^ k
    let r := n % 2 ^ k
    if 2 * r < 2 ^ k ∨ (2 * r = 2 ^ k ∧ q % 2 = 0) then q * 2 ^ k else (q + 1) * 2 ^ k

/-- `(int64_t)f` for `f` not negative, kernel/src/util/string.cpp:302: undefined if the integer part does
not fit. -/
def toInt64 (a : Nat) : Option (BitVec 64) :=
  if a / one < 2 ^ 63 then some (BitVec.ofNat 64 (a / one)) else none

/-- `(uint64_t)` of a number that is not negative, kernel/src/util/string.cpp:311. -/
def toUint64 (a : Nat) : Option (BitVec 64) :=
  if a / one < 2 ^ 64 then some (BitVec.ofNat 64 (a / one)) else none

/-- `(double)ui64`, kernel/src/util/string.cpp:311. -/
def ofUint64 (v : BitVec 64) : Nat := rnd (v.toNat * one)

/-- `(uint64_t)((f - (double)ui64) * scale + 0.5)`, kernel/src/util/string.cpp:311. The conversion of
the 32-bit `scale` is exact. A negative difference does not occur; it counts as undefined. -/
def fracOf (a : Nat) (ui64 : BitVec 64) (scale : BitVec 32) : Option (BitVec 64) :=
  if ofUint64 ui64 ≤ a then
    let d := rnd (a - ofUint64 ui64)
    let p := rnd (d * scale.toNat)
    toUint64 (rnd (p + half))
  else none

/-- What the code computes from the finite `double` with the absolute value `a` and the sign bit `neg`,
kernel/src/util/string.cpp:297-311. -/
def ofMag (neg : Bool) (a : Nat) : Dbl :=
  ⟨neg && (a ≠ 0 : Bool), toInt64 a, fun scale =>
    match toInt64 a with
    | none => none
    | some ui64 => fracOf a ui64 scale⟩

/-- What the code computes from the `double` with the representation `b`,
kernel/src/util/string.cpp:295-311. Comparing a NaN with 0 gives false; converting an infinity or a NaN
to an integer is undefined. -/
def ofBits (b : BitVec 64) : Dbl :=
  if expo b = 2047 then ⟨b.msb && (mant b = 0 : Bool), none, fun _ => none⟩
  else ofMag b.msb (mag b)

end Verif.Double
