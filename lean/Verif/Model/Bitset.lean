import Verif.Base.Res

/-!
Model of `estl/bitset.hpp`.

`data_` is a list of 64-bit words; an index outside it is undefined behaviour.
`1 << k` is a shift of the 32-bit `int` 1: undefined for `k ≥ 32`; `1 << 31` is
`INT_MIN` (defined since C++20, implementation-defined result before), and the
conversion to `uint64_t` sign-extends.
-/

namespace Verif.Bitset
open Verif

/-- Number of words `n`, estl/bitset.hpp:12-13. -/
def words (N : Nat) : Nat := (N + 64 - 1) / 64

/-- `type_offset`, estl/bitset.hpp:39-41. -/
def typeOffset (pos : Nat) : Nat := pos / 64

/-- `bit_mask`, estl/bitset.hpp:43-45. -/
def bitMask (pos : Nat) : Res (BitVec 64) :=
  if pos % 64 < 32 then .ok ((1#32 <<< (pos % 64)).signExtend 64) else .ub

/-- `data_[k]` (estl/bitset.hpp:28, 32, 36, 48, 56). -/
def word (d : List (BitVec 64)) (k : Nat) : Res (BitVec 64) :=
  match d[k]? with
  | some w => .ok w
  | none => .ub

/-- `reset`, estl/bitset.hpp:21-25, and the constructor, estl/bitset.hpp:17-19. -/
def reset (N : Nat) (flag : Bool) : List (BitVec 64) :=
  List.replicate (words N) (if flag then BitVec.allOnes 64 else 0#64)

/-- `set`, estl/bitset.hpp:27-29. -/
def set (d : List (BitVec 64)) (pos : Nat) : Res (List (BitVec 64)) := do
  let w ← word d (typeOffset pos)
  let b ← bitMask pos
  .ok (d.set (typeOffset pos) (w ||| b))

/-- `clear`, estl/bitset.hpp:31-33. -/
def clear (d : List (BitVec 64)) (pos : Nat) : Res (List (BitVec 64)) := do
  let w ← word d (typeOffset pos)
  let b ← bitMask pos
  .ok (d.set (typeOffset pos) (w &&& ~~~ b))

/-- `test`, estl/bitset.hpp:35-37, and `operator[]`, estl/bitset.hpp:47-49. -/
def test (d : List (BitVec 64)) (pos : Nat) : Res Bool := do
  let w ← word d (typeOffset pos)
  let b ← bitMask pos
  .ok (w &&& b != 0#64)

/-- The mutating operations of the class (estl/bitset.hpp:21-33). -/
inductive Op where
  | set (p : Nat)
  | clear (p : Nat)
  | reset (b : Bool)

/-- One operation on a `bitset<N>` (estl/bitset.hpp:21-33). -/
def step (N : Nat) (d : List (BitVec 64)) : Op → Res (List (BitVec 64))
  | .set p => set d p
  | .clear p => clear d p
  | .reset b => .ok (reset N b)

/-- A history of operations (estl/bitset.hpp:21-33). -/
def run (N : Nat) : List (BitVec 64) → List Op → Res (List (BitVec 64))
  | d, [] => .ok d
  | d, op :: ops => do run N (← step N d op) ops

end Verif.Bitset
