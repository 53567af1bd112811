import Verif.Replay.Expect
import Verif.Model.Vector
import Verif.Model.EList
import Verif.Model.Deque

/-!
The project's own unit tests of the sequences, replayed on the models: evidence that the
models compute what the code computes, not proofs of properties. Each example runs the calls
of one test in order and compares what the test compares (estl/test/vector_test.cpp,
list_test.cpp, deque_test.cpp, queue_test.cpp, stack_test.cpp). The loops of the tests run
1000 to 100000 times; here they run 20 to 40 times, enough for several reallocations (for the
deque: several blocks of 16 elements on both sides). Leaving the scope destroys all objects, as
at the end of a test: nothing may remain allocated (estl/test/CMakeLists.txt:61-66 runs these
tests under valgrind with leak checking).
-/

set_option backward.isDefEq.respectTransparency false
set_option maxRecDepth 100000

namespace Verif.Replay
open Verif

/-! ### vector_test.cpp -/

namespace Vec
open Verif.OH Verif.Vector

/-- The element type `int`: the default value is 0, and `x = move(x)` keeps the value. -/
def int : Elem Nat := ⟨0, true⟩

/-- `size`, `capacity` and the elements of the vector named `x`. -/
def seen (s : St Nat) (x : Nat) : Res (Nat × Nat × List (Option Nat)) := do
  let v ← var s x
  let xs ← (List.range v.size).mapM (fun i => get s.heap v i)
  .ok (v.size, v.capacity, xs)

/-- Check what is seen of a vector. -/
def has (s : St Nat) (x cap : Nat) (xs : List Nat) : Res Unit := do
  expect ((← seen s x) == (xs.length, cap, xs.map some))

/-- Check the elements only. -/
def elems (s : St Nat) (x : Nat) (xs : List Nat) : Res Unit := do
  expect ((← seen s x).2.2 == xs.map some)

/-- How many of the blocks ever allocated are still allocated. -/
def leaked (h : Heap Nat) : Nat := ((List.range h.next).filter (fun b => (h.blocks b).isSome)).length

/-- `CONSTRUTOR_TEST`, estl/test/vector_test.cpp:6-91. -/
example : (do
    let s ← run int St.init [.ctor 1, .ctorDefault 2 5]
    has s 1 0 []; has s 2 5 [0, 0, 0, 0, 0]
    let s ← run int s [.put 2 0 0, .put 2 1 1, .put 2 2 2, .put 2 3 3, .put 2 4 4, .ctorMove 3 2]
    has s 2 0 []; has s 3 5 [0, 1, 2, 3, 4]; expect ((← var s 2).start == none)
    let s ← run int s [.ctorCopy 4 3]
    has s 4 5 [0, 1, 2, 3, 4]
    let s ← run int s [.ctor 5, .assignCopy 5 4]
    has s 5 5 [0, 1, 2, 3, 4]
    let s ← run int s [.ctor 6, .assignMove 6 5]
    has s 5 0 []; has s 6 5 [0, 1, 2, 3, 4]
    let s ← run int s [.ctorDefault 7 10, .ctorFill 8 10 7, .ctorList 9 [1, 2, 3, 4, 5, 6, 7]]
    elems s 7 (List.replicate 10 0); elems s 8 (List.replicate 10 7); elems s 9 [1, 2, 3, 4, 5, 6, 7]
    let s ← run int s (([9, 8, 7, 6, 5, 4, 3, 2, 1] : List Nat).map .dtor)
    expect (leaked s.heap == 0)) = .ok () := by
  decide +kernel

/-- `INTERFACE_TEST`, estl/test/vector_test.cpp:93-143 (`vector<int>().swap(v)` is a
construction, a swap and a destruction). -/
example : (do
    let anew : List (Op Nat) := [Op.ctor 1, Op.swap 1 0, Op.dtor 1]
    let s ← run int St.init (Op.ctor 0 :: (List.range 40).map (Op.pushBack 0))
    elems s 0 (List.range 40)
    let s ← run int s (anew ++ (List.range 20).map (Op.pushFront 0))
    elems s 0 (List.range 20).reverse
    let s ← run int s (anew ++ (List.range 10).map (Op.pushBack 0) ++ List.replicate 5 (Op.popBack 0))
    elems s 0 (List.range 5)
    let s ← run int s (List.replicate 3 (.popFront 0))
    elems s 0 [3, 4]
    let s ← run int s [.dtor 0]
    expect (leaked s.heap == 0)) = .ok () := by
  decide +kernel

/-- `ITERATOR_TEST`, estl/test/vector_test.cpp:207-238, with the positions the iterators
returned denote. -/
example : (do
    let s ← run int St.init [.ctorDefault 0 5, .put 0 0 1, .put 0 1 2, .put 0 2 3, .put 0 3 4, .put 0 4 5]
    elems s 0 [1, 2, 3, 4, 5]
    let s ← run int s [.insert 0 0 5]
    elems s 0 [5, 1, 2, 3, 4, 5]
    let (h, v, i) ← erase int s.heap (← var s 0) 0
    expect ((← get h v 0) == some 1); expect ((← get h v i) == some 1)
    let (h, v, i) ← eraseRange int h v 0 2
    expect ((← get h v i) == some 3)
    let (h, v, _) ← eraseRange int h v 0 v.size
    expect (v.size == 0)
    let (h, v) ← emplace int h v 0 (.ext 77)
    expect ((← get h v 0) == some 77)
    let h ← dtor h v
    expect (leaked h == 0)) = .ok () := by
  decide +kernel

end Vec

/-! ### list_test.cpp -/

namespace Lst
open Verif.EList

/-- Check `size()` and the elements of the list named `l`, from both ends. -/
def has (s : St Nat) (l : Nat) (xs : List Nat) : Res Unit := do
  expect ((← getSize s (.user l)) == xs.length)
  expect ((← forward true 60 s (.user l)) == xs)
  expect ((← backward true 60 s (.user l)) == xs.reverse)

/-- `CONSTRUCTOR_TEST`, estl/test/list_test.cpp:5-71. -/
example : (do
    let (s, _) ← run true 60 (St.init : St Nat) [.ctor 0, .init 1 [1, 2, 3, 4, 5], .copy 2 1]
    has s 0 []; has s 1 [1, 2, 3, 4, 5]; has s 2 [1, 2, 3, 4, 5]
    let (s, _) ← run true 60 s [.move 3 1]
    has s 3 [1, 2, 3, 4, 5]; has s 1 []
    let (s, _) ← run true 60 s [.ctor 4, .asgCopy 4 3]
    has s 4 [1, 2, 3, 4, 5]; has s 3 [1, 2, 3, 4, 5]
    let (s, _) ← run true 60 s [.ctor 5, .asgMove 5 3]
    has s 5 [1, 2, 3, 4, 5]; has s 3 []
    let (s, _) ← run true 60 s (([5, 4, 3, 2, 1, 0] : List Nat).map .dtor)
    expect (s.freed.length == s.next)) = .ok () := by
  decide +kernel

/-- `INTERFACE_TEST`, estl/test/list_test.cpp:106-159: `push_front`, `push_back` (and the
`emplace_` forms), `clear`, `pop_back`, `pop_front`. -/
example : (do
    let (s, _) ← run true 60 (St.init : St Nat) (Op.ctor 0 :: (List.range 30).map (Op.pushFront 0))
    has s 0 (List.range 30).reverse
    let (s, _) ← run true 60 s [.clear 0]
    has s 0 []; expect ((← begin true s (.user 0)) == Addr.sent (.user 0))
    let (s, _) ← run true 60 s ((List.range 30).map (.pushBack 0))
    has s 0 (List.range 30)
    let (s, _) ← run true 60 s (List.replicate 29 (.popBack 0))
    has s 0 [0]
    let (s, _) ← run true 60 s (Op.popBack 0 :: (List.range 30).map (Op.pushBack 0) ++ List.replicate 29 (Op.popFront 0))
    has s 0 [29]
    let (s, _) ← run true 60 s [.clear 0, .dtor 0]
    expect (s.freed.length == s.next)) = .ok () := by
  decide +kernel

/-- `INTERFACE_TEST`, estl/test/list_test.cpp:160-193: `insert` and `erase` with the
iterators they return. -/
example : (do
    let (s, _) ← run true 60 (St.init : St Nat) [.ctor 0, .pushBack 0 1]
    let (s, it) ← insert s (.user 0) (← begin true s (.user 0)) 2
    expect ((← deref s it) == 2); has s 0 [2, 1]
    let (s, it) ← insert s (.user 0) (.sent (.user 0)) 3
    expect ((← deref s it) == 3); has s 0 [2, 1, 3]
    let (s, it) ← erase true s (.user 0) it
    has s 0 [2, 1]; expect (it == Addr.sent (.user 0))
    let (s, it) ← erase true s (.user 0) (← begin true s (.user 0))
    expect ((← deref s it) == 1)
    let (s, _) ← run true 60 s (Op.clear 0 :: (List.range 9).map (Op.pushBack 0))
    let first ← incr true s (← begin true s (.user 0))
    let last ← decr true s (.sent (.user 0))
    let (s, _) ← eraseRange true 60 s (.user 0) first last
    has s 0 [0, 8]
    let (s, _) ← eraseRange true 60 s (.user 0) (← begin true s (.user 0)) (.sent (.user 0))
    has s 0 []
    let (s, _) ← run true 60 s [.dtor 0]
    expect (s.freed.length == s.next)) = .ok () := by
  decide +kernel

/-- `INTERFACE_TEST`, estl/test/list_test.cpp:195-201: `operator==` and `!=`. -/
example : (do
    let (s, _) ← run true 60 (St.init : St Nat) [.init 1 [1, 2, 3, 4], .init 2 [1, 2, 3, 4], .init 3 [1, 3]]
    expect (← eq true (· != ·) 60 s (.user 1) (.user 2))
    expect (← neq true (· != ·) 60 s (.user 1) (.user 3))
    expect (← neq true (· != ·) 60 s (.user 2) (.user 3))) = .ok () := by
  decide +kernel

end Lst

/-! ### deque_test.cpp, queue_test.cpp, stack_test.cpp -/

namespace Deq
open Verif.Deque

/-- Check `size()` and `empty()` of the deque named `k`. -/
def count (s : St Nat) (k n : Nat) : Res Unit := do
  expect ((← size s (.user k)) == n)
  expect ((← empty s (.user k)) == decide (n = 0))

/-- Check the elements as well, by iterators and by `operator[]`. Where the tests do not
iterate or index, `count` is used: iterating over an empty deque and indexing after
`push_front` do not give what the test would expect (C21, C22). -/
def has (s : St Nat) (k : Nat) (xs : List Nat) : Res Unit := do
  count s k xs.length
  expect ((← toList s (.user k)) == xs)
  expect ((← (List.range xs.length).mapM (fun i => index s (.user k) i)) == xs)

/-- Nothing is allocated. -/
def clean (s : St Nat) : Res Unit := do
  expect ((List.range s.nextA).all (fun x => (s.arr x).isNone))
  expect ((List.range s.nextB).all (fun b => (s.blk b).isNone))

/-- `CONSTRUCTOR_TEST`, estl/test/deque_test.cpp:5-59. -/
example : (do
    let s ← run true (St.init : St Nat) (Op.make 0 :: (List.range 40).map (Op.pushBack 0) ++ [Op.copy 1 0])
    has s 0 (List.range 40); has s 1 (List.range 40)
    let s ← run true s [.move 2 1]
    has s 2 (List.range 40); count s 1 0
    let s ← run true s [.make 3, .assignCopy 3 2]
    has s 2 (List.range 40); has s 3 (List.range 40)
    let s ← run true s [.make 4, .assignMove 4 3]
    has s 4 (List.range 40); count s 3 0
    clean (← run true s (([4, 3, 2, 1, 0] : List Nat).map .destroy))) = .ok () := by
  decide +kernel

/-- `OBJECT_TEST`, estl/test/deque_test.cpp:61-158: elements with a destructor, added at both
ends; `deque().swap(d)` in between. -/
example : (do
    let anew : List (Op Nat) := [Op.make 1, Op.swap 1 0, Op.destroy 1]
    let s ← run false (St.init : St Nat) [.make 0, .pushBack 0 10]
    expect ((← back s (.user 0)) == 10); has s 0 [10]
    let s ← run false s [.pushBack 0 77]
    expect ((← back s (.user 0)) == 77); has s 0 [10, 77]
    let s ← run false s [.pushBack 0 88]
    expect ((← back s (.user 0)) == 88); has s 0 [10, 77, 88]
    let s ← run false s anew
    count s 0 0
    let s ← run false s [.pushFront 0 10]
    expect ((← front s (.user 0)) == 10); count s 0 1
    let s ← run false s [.pushFront 0 77]
    expect ((← front s (.user 0)) == 77); count s 0 2
    let s ← run false s [.pushFront 0 88]
    expect ((← front s (.user 0)) == 88); count s 0 3
    clean (← run false s (anew ++ [Op.destroy 0]))) = .ok () := by
  decide +kernel

/-- `INTERFACE_TEST`, estl/test/deque_test.cpp:160-237; iterators are offsets. -/
example : (do
    let s ← run true (St.init : St Nat) (Op.make 0 :: (List.range 10).map (Op.pushBack 0))
    has s 0 (List.range 10)
    let s ← run true s [.clear 0]
    count s 0 0
    let s ← run true s ((List.range 10).map (.pushBack 0))
    has s 0 (List.range 10)
    let i ← begin' s (.user 0)
    expect ((← load s (← derefIt s (.user 0) i)) == 0)
    expect ((← load s (← derefIt s (.user 0) (i + 1))) == 1)
    expect ((← load s (← derefIt s (.user 0) (i + 2))) == 2)
    expect ((← end' s (.user 0)) - i == 10)
    let s ← run true s [.initList 1 [4, 5, 6], .initList 2 [1, 2, 3]]
    has s 1 [4, 5, 6]; has s 2 [1, 2, 3]
    let s ← run true s [.swap 1 2]
    has s 1 [1, 2, 3]; has s 2 [4, 5, 6]
    clean (← run true s [.destroy 2, .destroy 1, .destroy 0])) = .ok () := by
  decide +kernel

/-- Take all elements off a queue, checking each. -/
def drain (s : St Nat) (k : Nat) : List Nat → Res (St Nat)
  | [] => .ok s
  | x :: xs => do
    expect ((← queueFront s k) == x)
    drain (← queueStep true s (.pop k)) k xs

/-- `BASE_TEST`, estl/test/queue_test.cpp:4-92. -/
example : (do
    let all := List.range 20
    let s ← queueRun true (St.init : St Nat) (AOp.make 0 :: all.map (AOp.push 0))
    let s ← drain s 0 all
    count s 0 0
    let s ← queueRun true s (all.map (AOp.push 0) ++ [AOp.copy 1 0])
    count s 0 20; count s 1 20
    let s ← drain s 1 all
    let s ← queueRun true s [.move 2 0]
    count s 2 20; count s 0 0
    let s ← queueRun true s (all.map (.push 0))
    let s ← drain s 2 all
    let s ← queueRun true s [.make 3, .assignCopy 3 0]
    count s 3 20; count s 0 20
    let s ← drain s 3 all
    let s ← queueRun true s [.make 4, .assignMove 4 0]
    count s 4 20; count s 0 0
    let s ← queueRun true s [.make 5, .swap 5 4]
    count s 4 0; count s 5 20
    clean (← queueRun true s (([5, 4, 3, 2, 1, 0] : List Nat).map .destroy))) = .ok () := by
  decide +kernel

/-- Take all elements off a stack, checking each. -/
def unwind (s : St Nat) (k : Nat) : List Nat → Res (St Nat)
  | [] => .ok s
  | x :: xs => do
    expect ((← top s k) == x)
    unwind (← stackStep true s (.pop k)) k xs

/-- `BASE_TEST`, estl/test/stack_test.cpp:4-78. -/
example : (do
    let all := List.range 20
    let s ← stackRun true (St.init : St Nat) (AOp.make 0 :: all.map (AOp.push 0))
    let s ← unwind s 0 all.reverse
    let s ← stackRun true s (all.map (AOp.push 0) ++ [AOp.copy 1 0])
    count s 0 20; count s 1 20
    let s ← unwind s 1 all.reverse
    let s ← stackRun true s [.move 2 0, .make 3, .assignCopy 3 2]
    count s 0 0; count s 2 20
    let s ← unwind s 2 all.reverse
    count s 2 0; count s 3 20
    let s ← unwind s 3 all.reverse
    let s ← stackRun true s (all.map (.push 0))
    count s 0 20
    let s ← stackRun true s [.make 4, .assignMove 4 0]
    count s 0 0; count s 4 20
    let s ← unwind s 4 all.reverse
    clean (← stackRun true s (([4, 3, 2, 1, 0] : List Nat).map .destroy))) = .ok () := by
  decide +kernel

end Deq

end Verif.Replay
