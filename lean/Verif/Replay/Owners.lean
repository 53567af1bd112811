import Verif.Replay.Expect
import Verif.Model.SmartPtr
import Verif.Model.Any
import Verif.Model.Function
import Verif.Model.Defer

/-!
The project's own unit tests of the smart pointers, of `any`, `function` and `defer`, replayed on
the models (estl/test/memory_test.cpp, any_test.cpp, functional_test.cpp, defer_test.cpp):
evidence that the models compute what the code computes, not proofs of properties. Objects are
numbered in the order of their creation; where a test reads the value pointed to, the replay
checks which object the pointer denotes. The parts of the tests about deleters of the user and
about threads are not replayed.
-/

set_option backward.isDefEq.respectTransparency false
set_option maxRecDepth 100000

namespace Verif.Replay

/-! ### memory_test.cpp -/

namespace Ptr
open Verif Verif.SmartPtr

/-- The pointer at `i` is this one (`==` with `nullptr` or a value). -/
def points (s : State) (i : Nat) (p : Option Nat) : Res Unit := do expect ((← getPtr s i) == p)

/-- `use_count()`. -/
def count (s : State) (i : Nat) (n : Nat) : Res Unit := do expect ((← useCount s i) == BitVec.ofNat 64 n)

/-- Everything created has been deleted, once. -/
def clean (s : State) : Res Unit := do
  expect (s.deleted.length == s.nobj && (List.range s.nobj).all (fun o => s.deleted.contains o))
  expect (s.freed.length == s.nblk && (List.range s.nblk).all (fun b => s.freed.contains b))

/-- `UNIQUE_PTR_TEST`, estl/test/memory_test.cpp:15-42: construction, moving. -/
example : (do
    let s ← calls 60 init [.newObj [], .uNew 0 (some 0), .newObj [], .uNew 1 (some 1), .newObj [], .uNew 2 (some 2)]
    points s 0 (some 0); points s 1 (some 1)
    let s ← calls 60 s [.uMove 3 0]
    points s 0 none; points s 3 (some 0)
    clean (← calls 60 s [.destroy 3, .destroy 2, .destroy 1, .destroy 0])) = .ok () := by
  decide +kernel

/-- `UNIQUE_PTR_TEST, INTERFACE_TEST`, estl/test/memory_test.cpp:44-74. -/
example : (do
    let s ← calls 60 init [.newObj [], .uNew 0 (some 0)]
    let p2 ← getPtr s 0
    let s ← calls 60 s [.uRelease 0]
    points s 0 none; expect (p2 == some 0)
    let s ← calls 60 s [.delObj 0, .newObj [], .uReset 0 (some 1)]
    points s 0 (some 1)
    let s ← calls 60 s [.uReset 0 none]
    points s 0 none
    let s ← calls 60 s [.newObj [], .uNew 3 (some 2)]
    expect ((← getPtr s 3) != (← getPtr s 0))
    let s ← calls 60 s [.uSwap 0 3]
    points s 3 none; points s 0 (some 2)
    clean (← calls 60 s [.destroy 3, .destroy 0])) = .ok () := by
  decide +kernel

/-- `SHARED_PTR_TEST`, estl/test/memory_test.cpp:88-91, 112-154: construction, copying, moving,
assignment. -/
example : (do
    let s ← calls 60 init [.newObj [], .sNew 0 (some 0) none, .sNull 1]
    points s 0 (some 0); points s 1 none
    let s ← calls 60 s [.sCopy 2 0]
    points s 2 (some 0)
    let s ← calls 60 s [.sMove 3 0]
    points s 0 none; points s 3 (some 0)
    let s ← calls 60 s [.sNull 4, .sNull 5, .sAssign 5 4]
    points s 4 none; points s 5 none
    let s ← calls 60 s [.newObj [], .sNew 6 (some 1) none, .sAssignMove 4 6, .destroy 6]
    points s 4 (some 1)
    let s ← calls 60 s [.sAssign 5 4]
    points s 5 (some 1)
    clean (← calls 60 s [.destroy 5, .destroy 4, .destroy 3, .destroy 2, .destroy 1, .destroy 0])) = .ok () := by
  decide +kernel

/-- `SHARED_PTR_TEST, INTERFACE_TEST`, estl/test/memory_test.cpp:167-189, 231-235. -/
example : (do
    let s ← calls 60 init [.newObj [], .sNew 0 (some 0) none, .newObj [], .sNew 1 (some 1) none, .sSwap 1 0]
    points s 0 (some 1); points s 1 (some 0); count s 0 1; count s 1 1
    let s ← calls 60 s [.sAssign 1 0]
    count s 0 2; points s 1 (some 1)
    let s ← calls 60 s [.sReset 1]
    points s 1 none; count s 0 1
    let s ← calls 60 s [.sNull 4, .newObj [], .sNew 5 (some 2) none, .sConv 4 5]
    points s 4 (some 2); count s 4 2
    clean (← calls 60 s [.destroy 5, .destroy 4, .destroy 1, .destroy 0])) = .ok () := by
  decide +kernel

/-- `p2.reset(ptr)` twice, estl/test/memory_test.cpp:191-202 (without the deleter). -/
example : (do
    let s ← calls 60 init [.sNull 2, .newObj [], .sResetTo 2 (some 0), .newObj [], .sResetTo 2 (some 1)]
    points s 2 (some 1); expect (s.deleted == [0])
    clean (← calls 60 s [.destroy 2])) = .ok () := by
  decide +kernel

/-- `WEAK_PTR_TEST, CONSTRUCTOR_TEST`, estl/test/memory_test.cpp:240-284. -/
example : (do
    let s ← calls 60 init [.wNull 0]
    expect (← expired s 0); count s 0 0
    let s ← calls 60 s [.sLock 1 0]
    points s 1 none
    let s ← calls 60 s [.newObj [], .sNew 10 (some 0) none, .wAssignS 0 10]
    expect !(← expired s 0); count s 0 1
    let s ← calls 60 s [.sLock 2 0]
    points s 2 (some 0); count s 2 2
    let s ← calls 60 s [.wCopy 3 0]
    count s 3 2
    let s ← calls 60 s [.wMove 4 0]
    expect (← expired s 0); count s 0 0; count s 4 2
    let s ← calls 60 s [.wMove 5 4]
    expect (← expired s 4); count s 4 0; count s 5 2
    let s ← calls 60 s [.sNull 11, .wOfS 6 11, .destroy 11]
    expect (← expired s 6)
    let s ← calls 60 s [.newObj [], .sNew 7 (some 1) none, .wOfS 8 7]
    expect !(← expired s 8)
    let s ← calls 60 s [.sLock 9 8]
    points s 9 (some 1); count s 9 2
    clean (← calls 60 s [.destroy 9, .destroy 8, .destroy 7, .destroy 6, .destroy 5, .destroy 4, .destroy 3,
      .destroy 2, .destroy 10, .destroy 1, .destroy 0])) = .ok () := by
  decide +kernel

/-- `SHARED_FRON_THIS_TEST`, estl/test/memory_test.cpp:286-307: every object has a `weak_ptr`
to itself (slots 100 and 101). -/
example : (do
    let s ← calls 60 init [.newObj [(100, .w)], .sNew 0 (some 0) (some 100), .sLock 1 100]
    points s 1 (some 0); count s 1 2
    let s ← calls 60 s [.newObj [(101, .w)], .sNew 2 (some 1) (some 101), .sLock 3 101]
    points s 3 (some 1); count s 3 2
    let s ← calls 60 s [.sCopy 4 3, .sLock 5 101]
    points s 5 (some 1)
    let s ← calls 60 s [.sMove 6 5, .sLock 7 101, .sAssignMove 5 7, .destroy 7]
    points s 5 (some 1)
    clean (← calls 60 s [.destroy 6, .destroy 5, .destroy 4, .destroy 3, .destroy 2, .destroy 1, .destroy 0])) = .ok () := by
  decide +kernel

end Ptr

/-! ### any_test.cpp -/

namespace AnyT
open Verif Verif.Any Verif.Box

/-- The values: an `int` or an `A` is a number, `2.2` is 22 (the model does not compute with
them). -/
def E : Types Nat := ⟨fun _ => 0, fun _ v => v⟩

/-- `int`, `double` and the class `A` of the test. -/
def int : Any.Ty := .base 0
/-- `double`. -/
def dbl : Any.Ty := .base 1
/-- The class of estl/test/any_test.cpp:4-8. -/
def A : Any.Ty := .base 2

/-- `any_cast<t>` is not null and denotes `v`. -/
def holds (s : Any.St Nat) (k : Nat) (t : Any.Ty) (v : Nat) : Res Unit := do
  expect ((← anyCast s (.user k) t).isSome)
  expect ((← castRead s (.user k) t) == v)

/-- `BASE_TEST`, estl/test/any_test.cpp:10-64. -/
example : (do
    let s ← run E Any.St.init [.value 0 int 1]
    holds s 0 int 1; expect ((← anyCast s (.user 0) dbl) == none); expect !(← empty s (.user 0))
    let s ← run E s [.clear 0]
    expect (← empty s (.user 0))
    let s ← run E s [.asgValue 0 dbl 22]
    holds s 0 dbl 22
    let s ← run E s [.emplace 0 A 3]
    holds s 0 A 3
    let s ← run E s [.make 1 A 5]
    holds s 1 A 5
    let s ← run E s [.swap 0 1]
    holds s 0 A 5
    let s ← run E s [.value 2 int 2, .copy 3 2]
    holds s 3 int 2
    let s ← run E s [.move 4 3]
    expect (← empty s (.user 3)); holds s 4 int 2
    let s ← run E s [.copy 5 4]
    holds s 5 int 2; expect !(← empty s (.user 4))
    let s ← run E s [.move 6 5]
    expect (← empty s (.user 5)); holds s 6 int 2
    let s ← run E s [.dtor 6, .dtor 5, .dtor 4, .dtor 3, .dtor 2, .dtor 1, .dtor 0]
    expect ((List.range s.box.next).all (fun p => (s.box.obj p).isNone))) = .ok () := by
  decide +kernel

end AnyT

/-! ### functional_test.cpp -/

namespace Fun
open Verif Verif.Function Verif.Box

/-- The callables of the test: the function `func` and the lambda that calls `A::sub`
(estl/test/functional_test.cpp:5-20, 60). -/
inductive Callee where
  | func
  | sub
  deriving DecidableEq

/-- What they do (estl/test/functional_test.cpp:5-13). -/
def apply (f : Callee) (x : Int × Int) : Callee × Int :=
  match f with
  | .func => (f, x.1 + x.2)
  | .sub => (f, x.1 - x.2)

/-- The result of a call. -/
def gives (s : Function.St Callee) (k : Nat) (x : Int × Int) (r : Int) : Res Unit := do
  expect ((← call apply s (.user k) x).2 == r)

/-- `FUNCTION_TEST`, estl/test/functional_test.cpp:48-72. -/
example : (do
    let (s, _) ← run apply Function.St.init [.target 0 .func]
    gives s 0 (1, 2) 3
    let (s, _) ← run apply s [.copy 1 0]
    gives s 1 (10, 5) 15
    let (s, _) ← run apply s [.move 2 0]
    expect !(← toBool s (.user 0)); gives s 2 (1, 2) 3
    let (s, _) ← run apply s [.asgTarget 0 .sub]
    gives s 0 (5, 2) 3
    let (s, _) ← run apply s [.asgCopy 2 0]
    expect (← toBool s (.user 0)); expect (← toBool s (.user 2)); gives s 0 (5, 2) 3; gives s 2 (5, 2) 3
    let (s, _) ← run apply s [.asgMove 2 0]
    expect !(← toBool s (.user 0)); expect (← toBool s (.user 2)); gives s 2 (5, 2) 3
    let (s, _) ← run apply s [.dtor 2, .dtor 1, .dtor 0]
    expect ((List.range s.box.next).all (fun p => (s.box.obj p).isNone))) = .ok () := by
  decide +kernel

end Fun

/-! ### defer_test.cpp -/

/-- `BAST_TEST`, estl/test/defer_test.cpp:5-35: three scopes, each with one deferred action. -/
example : (do
    let s ← Defer.run Defer.St.init [.make 0 10]
    expect (s.ran == [])
    let s ← Defer.run s [.dtor 0]
    expect (s.ran == [10])
    let s ← Defer.run s [.make 0 11, .dtor 0, .make 0 12, .dtor 0]
    expect (s.ran == [12, 11, 10])) = .ok () := by
  decide +kernel

end Verif.Replay
