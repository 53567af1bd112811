import Verif.Base.Mem

/-!
Model of `estl/string_view.hpp` for `char` (signed on the x86-64 target).
-/

namespace Verif.StringView
open Verif

/-- A `string_view`: `data_` and `size_`, estl/string_view.hpp:100-101. -/
structure View where
  data : Nat
  size : BitVec 64

/-- `at(i)` / `operator[]`, estl/string_view.hpp:50-56, as a signed `char` value. -/
def charAt (m : Mem) (v : View) (i : Nat) : Res Int := do
  let b ← m.load (v.data + i)
  .ok (BitVec.ofNat 8 b.toNat).toInt

/-- The comparison loop, estl/string_view.hpp:85-93; `n` is the number of
iterations left, `i` the index. -/
def compareLoop (m : Mem) (x y : View) : Nat → Nat → Res Int
  | 0, _ => .ok 0
  | n + 1, i => do
    let a ← charAt m x i
    let b ← charAt m y i
    if a < b then .ok (-1)
    else if a > b then .ok 1
    else compareLoop m x y n (i + 1)

/-- `compare`, estl/string_view.hpp:78-94. -/
def compare (m : Mem) (x y : View) : Res Int :=
  if x.size < y.size then .ok (-1)
  else if x.size > y.size then .ok 1
  else compareLoop m x y x.size.toNat 0

/-- `operator==`, estl/string_view.hpp:106-109. -/
def eq (m : Mem) (x y : View) : Res Bool := do .ok ((← compare m x y) == 0)
/-- `operator!=`, estl/string_view.hpp:111-114. -/
def ne (m : Mem) (x y : View) : Res Bool := do .ok ((← compare m x y) != 0)
/-- `operator<`, estl/string_view.hpp:116-119. -/
def lt (m : Mem) (x y : View) : Res Bool := do .ok (decide ((← compare m x y) < 0))
/-- `operator>`, estl/string_view.hpp:121-124. -/
def gt (m : Mem) (x y : View) : Res Bool := do .ok (decide ((← compare m x y) > 0))
/-- `operator<=`, estl/string_view.hpp:126-129. -/
def le (m : Mem) (x y : View) : Res Bool := do .ok (decide ((← compare m x y) ≤ 0))
/-- `operator>=`, estl/string_view.hpp:131-134. -/
def ge (m : Mem) (x y : View) : Res Bool := do .ok (decide ((← compare m x y) ≥ 0))

/-- `estd::min` on `size_t`, estl/algorithm.hpp:6-8. -/
def minSz (a b : BitVec 64) : BitVec 64 := if a < b then a else b

/-- `substr`, estl/string_view.hpp:69-71; `size_ - pos` is unsigned 64-bit
arithmetic. -/
def substr (v : View) (pos len : BitVec 64) : View :=
  ⟨v.data + pos.toNat, minSz (v.size - pos) len⟩

/-- `npos`, estl/string_view.hpp:97. -/
def npos : BitVec 64 := -1#64

end Verif.StringView
