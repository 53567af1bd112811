import Verif.Model.Vector
import Verif.Model.Deque

/-!
Model of `stack<T, vector<T>>` and `queue<T, vector<T>>` (estl/stack.hpp, estl/queue.hpp with `C = vector<T>`): what each
member function does with the vectors inside. The adaptor `k` holds the vector `k + 2`; vector 0 is that of a parameter
by value, vector 1 the `tmp` of `estd::swap`.
-/

namespace Verif.VecAdapt
open Verif Verif.OH Verif.Vector

variable {α : Type}

/-- The swap of two vectors in the adaptors: the member function (estl/stack.hpp:24), or `estd::swap` (estl/queue.hpp:30),
which is the overload of estl/vector.hpp:347-350 if that is declared before the template (`own`), else
estl/utility.hpp:36-41. -/
def swapOps (lifo own : Bool) (x y : Nat) : List (Op α) :=
  if lifo || own then [.swap x y] else [.ctorMove 1 x, .assignMove x y, .assignMove y 1, .dtor 1]

/-- The calls made on the vectors by one call on a stack (`lifo`; estl/stack.hpp:15-63) or queue (estl/queue.hpp:16-47).
Assignment takes its operand by value, swaps and destroys it (stack.hpp:27-30, queue.hpp:24-27). -/
def ops (lifo own : Bool) : Deque.AOp α → List (Op α)
  | .make k => [.ctor (k + 2)]
  | .copy k j => [.ctorCopy (k + 2) (j + 2)]
  | .move k j => [.ctorMove (k + 2) (j + 2)]
  | .destroy k => [.dtor (k + 2)]
  | .assignCopy k j => .ctorCopy 0 (j + 2) :: (swapOps lifo own 0 (k + 2) ++ [.dtor 0])
  | .assignMove k j => .ctorMove 0 (j + 2) :: (swapOps lifo own 0 (k + 2) ++ [.dtor 0])
  | .swap k j => swapOps lifo own (k + 2) (j + 2)
  | .push k v => [.pushBack (k + 2) v]
  | .pop k => [if lifo then .popBack (k + 2) else .popFront (k + 2)]

/-- A program that uses stacks or queues over vectors (callers of estl/stack.hpp:15-63, estl/queue.hpp:16-61). -/
def run (E : Elem α) (lifo own : Bool) (os : List (Deque.AOp α)) : Res (St α) :=
  Vector.run E St.init (os.flatMap (ops lifo own))

/-- `size()`, estl/stack.hpp:56-58, queue.hpp:57-59. -/
def size (s : St α) (k : Nat) : Res Nat := do
  let v ← var s (k + 2)
  .ok v.size

/-- `top()`, estl/stack.hpp:40-42 (`back()`), or `front()`, queue.hpp:49-51, and a read of the element. -/
def first (lifo : Bool) (s : St α) (k : Nat) : Res (Option α) := do
  let v ← var s (k + 2)
  get s.heap v (if lifo then v.size - 1 else 0)

end Verif.VecAdapt
