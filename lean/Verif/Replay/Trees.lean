import Verif.Replay.Expect
import Verif.Model.RbTree

/-!
The project's own unit tests of `rb_tree`, `set` and `multiset`, replayed on the model
(estl/test/rb_tree_test.cpp, set_test.cpp): evidence that the model computes what the code
computes, not proofs of properties. The loops of the tests run 100 to 100000 times; here they
run 5 to 40 times. At the end all objects are destroyed and nothing may remain allocated.
-/

set_option backward.isDefEq.respectTransparency false
set_option maxRecDepth 100000

namespace Verif.Replay.Tree
open Verif Verif.Replay Verif.Rb

/-- `estd::less<int>` (estl/utility.hpp) as the comparator. -/
def less : Int → Int → Bool := fun a b => decide (a < b)

/-- Enough fuel for the loops. -/
def F : Nat := 200

/-- `size()`, `empty()` and the elements in order of iteration of the tree named `k`. -/
def has (s : St Int) (k : Nat) (xs : List Int) : Res Unit := do
  expect ((← size s (.user k)) == xs.length)
  expect ((← empty s (.user k)) == xs.isEmpty)
  expect ((← walk F s (.user k)).map Prod.snd == xs)

/-- An iterator is `end()`. -/
def atEnd (s : St Int) (k : Nat) (it : Option Nat) : Res Unit := do
  expect (it == (← end' s (.user k)))

/-- An iterator is not `end()` and denotes `x`. -/
def at' (s : St Int) (k : Nat) (it : Option Nat) (x : Int) : Res Unit := do
  expect (it != (← end' s (.user k)))
  expect ((← getKey s it) == x)

/-- Every node and header ever allocated has been released. -/
def clean (s : St Int) : Res Unit := expect ((List.range s.next).all (fun p => (s.heap p).isNone))

/-- `0, 1, …, n - 1`. -/
def up (n : Nat) : List Int := (List.range n).map Int.ofNat

/-- `CONSTRUCTOR_TEST` of the trees (estl/test/rb_tree_test.cpp:4-62) and of `set` and `multiset`
(estl/test/set_test.cpp:29-95, 239-304): list, copy and move construction, copy and move
assignment. -/
def ctors (multi : Bool) (xs : List Int) : Res Unit := do
  let (s, _) ← run less multi F St.init [.initList 0 xs, .copy 1 0]
  has s 0 xs; has s 1 xs
  let (s, _) ← run less multi F s [.move 2 1]
  has s 2 xs; has s 1 []
  let (s, _) ← run less multi F s [.make 3, .assignCopy 3 2]
  has s 3 xs; has s 2 xs
  let (s, _) ← run less multi F s [.make 4, .assignMove 4 3]
  has s 4 xs; has s 3 []
  let (s, _) ← run less multi F s [.destroy 4, .destroy 3, .destroy 2, .destroy 1, .destroy 0]
  clean s

example : ctors true [1, 2, 3, 4, 5] = .ok () := by decide +kernel
example : ctors false [1, 2, 3, 4] = .ok () := by decide +kernel
example : ctors true [1, 2, 3, 4] = .ok () := by decide +kernel

/-- The range constructors with `{3, 2, 1}`, estl/test/set_test.cpp:19-25, 229-235. -/
example : (do
    let (s, _) ← run less false F St.init [.make 0, .insertAll 0 [3, 2, 1]]
    has s 0 [1, 2, 3]
    let (s, _) ← run less true F St.init [.make 0, .insertAll 0 [3, 2, 1]]
    has s 0 [1, 2, 3]) = .ok () := by
  decide +kernel

/-- `INTERFACE_TEST`, estl/test/rb_tree_test.cpp:64-82: ascending and descending order. -/
example : (do
    let (s, _) ← run less true F St.init [.initList 0 [1, 2, 3, 4, 5, 6]]
    has s 0 [1, 2, 3, 4, 5, 6]
    let (s, _) ← run (fun a b => less b a) true F St.init [.initList 0 [1, 2, 3, 4, 5, 6]]
    has s 0 [6, 5, 4, 3, 2, 1]) = .ok () := by
  decide +kernel

/-- `INTERFACE_TEST`, estl/test/rb_tree_test.cpp:84-108: `insert_unique`, `insert_multi`,
`clear`. -/
example : (do
    let s ← make (St.init : St Int) (.user 0)
    let (s, pos, flag) ← emplaceUnique less F s (.user 0) 1
    expect flag; at' s 0 pos 1
    let (s, _, flag) ← emplaceUnique less F s (.user 0) 1
    expect !flag
    let s ← insertAll less true F s (.user 0) [1, 1, 1, 1, 1]
    has s 0 [1, 1, 1, 1, 1, 1]
    let s ← clear F s (.user 0)
    has s 0 []
    clean (← destroy F s (.user 0))) = .ok () := by
  decide +kernel

/-- `INTERFACE_TEST`, estl/test/rb_tree_test.cpp:110-210, with the even numbers below 40
instead of 100000: `find`, the bounds, the ranges, `erase_unique`, `erase_multi`, `count_`. -/
example : (do
    let evens := (up 20).map (2 * ·)
    let s ← insertAll less false F (← make (St.init : St Int) (.user 0)) (.user 0) evens
    at' s 0 (← find less F s (.user 0) 0) 0
    atEnd s 0 (← find less F s (.user 0) 1)
    evens.forM (fun i => do at' s 0 (← find less F s (.user 0) i) i)
    at' s 0 (← lowerBound less F s (.user 0) 2) 2
    at' s 0 (← upperBound less F s (.user 0) 2) 4
    at' s 0 (← lowerBound less F s (.user 0) (-1)) 0
    at' s 0 (← upperBound less F s (.user 0) (-1)) 0
    atEnd s 0 (← lowerBound less F s (.user 0) 40)
    atEnd s 0 (← upperBound less F s (.user 0) 40)
    let (a, b) ← equalRangeUnique less F s (.user 0) 2
    at' s 0 a 2; expect (b != (← end' s (.user 0)))
    let (a, b) ← equalRangeUnique less F s (.user 0) 1
    atEnd s 0 a; atEnd s 0 b
    let s ← insertAll less true F s (.user 0) (List.replicate 10 11)
    let (a, b) ← equalRangeMulti less F s (.user 0) 11
    expect (a != (← end' s (.user 0)))
    expect ((← collect F F s a b).map Prod.snd == List.replicate 10 11)
    let (s, n) ← eraseUnique less F s (.user 0) 2
    expect (n == 1); atEnd s 0 (← find less F s (.user 0) 2)
    let (s, n) ← eraseUnique less F s (.user 0) 1
    expect (n == 0)
    expect ((← countUnique less F s (.user 0) 2) == 0)
    expect ((← countUnique less F s (.user 0) 6) == 1)
    let s ← insertAll less true F s (.user 0) (List.replicate 10 2)
    expect ((← countMulti less F s (.user 0) 2) == 10)
    let (s, n) ← eraseMulti less F s (.user 0) 2
    expect (n == 10); atEnd s 0 (← find less F s (.user 0) 2)
    let (s, n) ← eraseUnique less F s (.user 0) 12
    expect (n == 1)
    clean (← destroy F s (.user 0))) = .ok () := by
  decide +kernel

/-- Erase `i`, `i + 1`, … from a tree holding `i, …, n - 1`, checking the tree each time. -/
def peel (n : Nat) : Nat → Nat → St Int → Res (St Int)
  | 0, _, s => .ok s
  | m + 1, i, s => do
    let (s, k) ← eraseUnique less F s (.user 0) i
    expect (k == 1)
    has s 0 ((up n).drop (i + 1))
    peel n m (i + 1) s

/-- `INTERFACE_TEST`, estl/test/rb_tree_test.cpp:212-227, with 30 elements of which 20 are
erased instead of 10000 and 100. -/
example : (do
    let s ← insertAll less false F (← make (St.init : St Int) (.user 0)) (.user 0) (up 30)
    has s 0 (up 30)
    let s ← peel 30 20 0 s
    clean (← destroy F s (.user 0))) = .ok () := by
  decide +kernel

/-- `OBJECT_TEST`, estl/test/rb_tree_test.cpp:232-271 (the elements are compared by the value
they point to; what becomes of the argument is not part of this model). -/
example : (do
    let s ← make (St.init : St Int) (.user 0)
    let (s, pos, flag) ← emplaceUnique less F s (.user 0) 0
    expect flag; at' s 0 pos 0
    let (s, pos, flag) ← emplaceUnique less F s (.user 0) 1
    expect flag; at' s 0 pos 1
    at' s 0 (← find less F s (.user 0) 0) 0
    let s ← clear F s (.user 0)
    has s 0 []
    let (s, _, _) ← emplaceUnique less F s (.user 0) 100
    at' s 0 (← find less F s (.user 0) 100) 100
    let (s, _) ← emplaceMulti less F s (.user 0) 100
    expect ((← countMulti less F s (.user 0) 100) == 2)
    clean (← destroy F s (.user 0))) = .ok () := by
  decide +kernel

/-- `INTERFACE_TEST` of `set`, estl/test/set_test.cpp:97-196, with 20 elements instead of
1000. -/
example : (do
    let s ← make (St.init : St Int) (.user 0)
    let (s, pos, flag) ← insert less false F s (.user 0) 1
    expect flag; at' s 0 pos 1
    let (s, _, flag) ← insert less false F s (.user 0) 1
    expect !flag; has s 0 [1]
    let s ← insertAll less false F s (.user 0) [2, 3, 4]
    has s 0 [1, 2, 3, 4]
    let s ← clear F s (.user 0)
    has s 0 []
    let s ← insertAll less false F s (.user 0) (up 20)
    has s 0 (up 20)
    at' s 0 (← find less F s (.user 0) 5) 5
    atEnd s 0 (← find less F s (.user 0) (-1))
    at' s 0 (← lowerBound less F s (.user 0) 12) 12
    atEnd s 0 (← lowerBound less F s (.user 0) 100000)
    at' s 0 (← upperBound less F s (.user 0) 12) 13
    atEnd s 0 (← upperBound less F s (.user 0) 100000)
    let (a, _) ← equalRangeUnique less F s (.user 0) 2
    at' s 0 a 2
    let (a, b) ← equalRangeUnique less F s (.user 0) 200000
    atEnd s 0 a; atEnd s 0 b
    expect ((← countUnique less F s (.user 0) 1) == 1)
    expect ((← countUnique less F s (.user 0) (-1)) == 0)
    let it ← begin s (.user 0)
    at' s 0 it 0
    let it1 ← increment F s it
    at' s 0 it1 1
    let it2 ← increment F s it1
    at' s 0 it2 2
    let it ← decrement F s it2
    at' s 0 it 1
    let it ← decrement F s it
    at' s 0 it 0
    let it3 ← increment F s it2
    let s ← eraseRange F s (.user 0) it it3
    at' s 0 (← begin s (.user 0)) 3
    let s ← eraseRange F s (.user 0) (← begin s (.user 0)) (← end' s (.user 0))
    has s 0 []
    clean (← destroy F s (.user 0))) = .ok () := by
  decide +kernel

/-- `INTERFACE_TEST` of `multiset`, estl/test/set_test.cpp:307-335, with 30 elements instead of
100. -/
example : (do
    let s ← make (St.init : St Int) (.user 0)
    let s ← insertAll less true F s (.user 0) (List.replicate 30 1)
    expect ((← size s (.user 0)) == 30)
    expect ((← countMulti less F s (.user 0) 1) == 30)
    let (a, b) ← equalRangeMulti less F s (.user 0) 1
    atEnd s 0 b
    expect ((← collect F F s a b).map Prod.snd == List.replicate 30 1)
    let (s, n) ← eraseMulti less F s (.user 0) 1
    expect (n == 30); has s 0 []
    clean (← destroy F s (.user 0))) = .ok () := by
  decide +kernel

end Verif.Replay.Tree
