import Verif.Base.Mem

/-! Fixed-size arrays: indexing outside is undefined. Models `estl::array::operator[]`,
estl/array.hpp:68-74, and plain C arrays. -/

namespace Verif

/-- An array of `n` elements; entries at or beyond `n` do not exist. -/
structure Arr (α : Type) where
  n : Nat
  at_ : Nat → α

namespace Arr
variable {α : Type}

/-- `a[i]` as a value, estl/array.hpp:68-74. -/
def get (a : Arr α) (i : Nat) : Res α := if i < a.n then .ok (a.at_ i) else .ub

/-- `a[i] = v`, estl/array.hpp:68-70. -/
def set (a : Arr α) (i : Nat) (v : α) : Res (Arr α) :=
  if i < a.n then .ok { a with at_ := fun j => if j = i then v else a.at_ j } else .ub

/-- `fill`, estl/array.hpp:25-27. -/
def fill (n : Nat) (v : α) : Arr α := ⟨n, fun _ => v⟩

end Arr
end Verif
