import Verif.Base.Mem

/-!
Specification of block copies and C strings: what the final memory must be,
address by address. Independent of the model.
-/

namespace Verif.Spec

/-- Memory `m` after an ideal copy of the `n` bytes at `s` to `d`: the
destination range holds the *old* source bytes, everything else is unchanged. -/
def copied (m : Mem) (d s n : Nat) : Mem := fun a =>
  if d ≤ a ∧ a < d + n then m (s + (a - d)) else m a

/-- At `s` there is a C string of length `len`: `len` accessible non-NUL bytes
followed by an accessible NUL. -/
def CStr (m : Mem) (s len : Nat) : Prop :=
  (∀ i, i < len → ∃ b, m (s + i) = some b ∧ b ≠ 0) ∧ m (s + len) = some 0

end Verif.Spec
