import Verif.Base.ObjHeap

/-!
Model of `estl/vector.hpp` on the object heap of `Verif.Base.ObjHeap`.

Simplifications: the pointers `M_finish_` and `M_end_of_storage_` are kept as
offsets from `M_start_`; sizes are natural numbers (no overflow of `size_t`,
i.e. fewer than 2^63 elements); element constructors and assignments do not
throw. The overloads taking `const T&` and `T&&` share one definition: they
differ only in what happens to the caller's object.
-/

namespace Verif.Vector
open Verif Verif.OH

variable {α : Type}

/-- The data members, estl/vector.hpp:342-344. -/
structure Vec where
  start : Option Nat
  finish : Nat
  endS : Nat
  deriving DecidableEq

/-- `vector()`, estl/vector.hpp:23-24. -/
def Vec.null : Vec := ⟨none, 0, 0⟩

/-- `size()`, estl/vector.hpp:301-303. -/
def Vec.size (v : Vec) : Nat := v.finish

/-- `capacity()`, estl/vector.hpp:305-307. -/
def Vec.capacity (v : Vec) : Nat := v.endS

/-- `allocate`, estl/vector.hpp:318-322. -/
def allocate (h : Heap α) (capacity : Nat) : Heap α × Vec :=
  let (b, h) := alloc h capacity
  (h, ⟨some b, 0, capacity⟩)

/-- `~vector`, estl/vector.hpp:65-73. -/
def dtor (h : Heap α) (v : Vec) : Res (Heap α) := do
  let h ← (if v.size ≠ 0 then destroyRange h v.start 0 v.finish else .ok h : Res (Heap α))
  if v.capacity ≠ 0 then dealloc h v.start else .ok h

/-- The growth loop, estl/vector.hpp:336-338: `push_back(move(it))` for each element of
the old vector `o` into `v`. The `ensure_capacity` inside this `push_back`
returns at once because there is room; the model requires that (otherwise `ub`). -/
def growLoop (o : Vec) (n : Nat) (h : Heap α) (v : Vec) : Res (Heap α × Vec) :=
  forUp n (fun i (s : Heap α × Vec) => do
    let (h, v) := s
    Res.require (decide (v.capacity ≥ v.size + 1))
    let x ← read h o.start i
    let h ← assign h o.start i none
    let h ← construct h v.start v.finish x
    .ok (h, { v with finish := v.finish + 1 })) (h, v)

/-- `ensure_capacity`, estl/vector.hpp:324-339. -/
def ensureCapacity (h : Heap α) (v : Vec) (size : Nat) : Res (Heap α × Vec) :=
  if v.capacity ≥ size then .ok (h, v)
  else do
    let newCap := if v.capacity * 2 > size then v.capacity * 2 else size
    let old := v
    let (h, v) := allocate h newCap
    let (h, v) ← growLoop old old.size h v
    let h ← dtor h old
    .ok (h, v)

/-- `push_back`, estl/vector.hpp:75-83; also `emplace_back`, estl/vector.hpp:196-201. -/
def pushBack (h : Heap α) (v : Vec) (r : Ref α) : Res (Heap α × Vec) := do
  let (h, v) ← ensureCapacity h v (v.size + 1)
  let x ← r.get h
  let h ← construct h v.start v.finish x
  .ok (h, { v with finish := v.finish + 1 })

/-- `push_front`, estl/vector.hpp:85-107. -/
def pushFront (E : Elem α) (h : Heap α) (v : Vec) (r : Ref α) : Res (Heap α × Vec) := do
  let (h, v) ← ensureCapacity h v (v.size + 1)
  let h ← construct h v.start v.finish (some E.dflt)
  let h ← forUp v.size (fun i h =>
    moveAssign E h v.start (v.size - i) v.start (v.size - i - 1)) h
  let x ← r.get h
  let h ← assign h v.start 0 x
  .ok (h, { v with finish := v.finish + 1 })

/-- `insert`, estl/vector.hpp:109-136; `index` is `pos - begin()`. -/
def insert (E : Elem α) (h : Heap α) (v : Vec) (index : Nat) (r : Ref α) : Res (Heap α × Vec) := do
  let (h, v) ← ensureCapacity h v (v.size + 1)
  let h ← construct h v.start v.finish (some E.dflt)
  let h ← forUp (v.size - index) (fun k h =>
    moveAssign E h v.start (v.size - k) v.start (v.size - k - 1)) h
  let x ← r.get h
  let h ← assign h v.start index x
  .ok (h, { v with finish := v.finish + 1 })

/-- `emplace`, estl/vector.hpp:138-156. -/
def emplace (E : Elem α) (h : Heap α) (v : Vec) (index : Nat) (r : Ref α) : Res (Heap α × Vec) := do
  let (h, v) ← ensureCapacity h v (v.size + 1)
  let h ← construct h v.start v.finish (some E.dflt)
  let h ← forUp (v.size - index) (fun k h =>
    moveAssign E h v.start (v.size - k) v.start (v.size - k - 1)) h
  let h ← destroy h v.start index
  let x ← r.get h
  let h ← construct h v.start index x
  .ok (h, { v with finish := v.finish + 1 })

/-- `erase(pos)`, estl/vector.hpp:158-168. On an empty vector `size() - 1` wraps
around and the loop (or the final `destory`) leaves the storage: `ub`. Returns the
index of the returned iterator as well. -/
def erase (E : Elem α) (h : Heap α) (v : Vec) (index : Nat) : Res (Heap α × Vec × Nat) :=
  if v.size = 0 then .ub
  else do
    let h ← forUp (v.size - 1 - index) (fun k h =>
      moveAssign E h v.start (index + k) v.start (index + k + 1)) h
    let h ← destroy h v.start (v.finish - 1)
    .ok (h, { v with finish := v.finish - 1 }, index)

/-- `erase(first, last)`, estl/vector.hpp:170-186. If `last` lies beyond `end()`,
`end() - last` wraps around and the loop leaves the storage: `ub`. -/
def eraseRange (E : Elem α) (h : Heap α) (v : Vec) (des src : Nat) : Res (Heap α × Vec × Nat) := do
  Res.require (decide (src ≤ v.size))
  let n := v.size - src
  let h ← forUp n (fun i h => moveAssign E h v.start (des + i) v.start (i + src)) h
  let h ← forUp (v.size - (des + n)) (fun i h => destroy h v.start (des + n + i)) h
  .ok (h, { v with finish := des + n }, des)

/-- `pop_back`, estl/vector.hpp:188-190. -/
def popBack (E : Elem α) (h : Heap α) (v : Vec) : Res (Heap α × Vec) :=
  if v.size = 0 then .ub
  else do
    let (h, v, _) ← erase E h v (v.size - 1)
    .ok (h, v)

/-- `pop_front`, estl/vector.hpp:192-194. -/
def popFront (E : Elem α) (h : Heap α) (v : Vec) : Res (Heap α × Vec) := do
  let (h, v, _) ← erase E h v 0
  .ok (h, v)

/-- `resize`, estl/vector.hpp:254-274. -/
def resize (E : Elem α) (h : Heap α) (v : Vec) (newSize : Nat) : Res (Heap α × Vec) :=
  if newSize > v.size then do
    let (h, v) ← ensureCapacity h v newSize
    let n := newSize - v.size
    let h ← forUp n (fun i h => construct h v.start (v.finish + i) (some E.dflt)) h
    .ok (h, { v with finish := v.finish + n })
  else if newSize < v.size then do
    let n := v.size - newSize
    let h ← forUp n (fun i h => destroy h v.start (v.finish - i - 1)) h
    .ok (h, { v with finish := v.finish - n })
  else .ok (h, v)

/-- `clear`, estl/vector.hpp:276-279. -/
def clear (h : Heap α) (v : Vec) : Res (Heap α × Vec) := do
  let h ← destroyRange h v.start 0 v.finish
  .ok (h, { v with finish := 0 })

/-- `reserve`, estl/vector.hpp:281-283. -/
def reserve (h : Heap α) (v : Vec) (n : Nat) : Res (Heap α × Vec) := ensureCapacity h v n

/-- `vector(size, v)`, estl/vector.hpp:31-38, and `vector(size)`, estl/vector.hpp:40-47
(with the default value). -/
def ctorFill (h : Heap α) (size : Nat) (x : α) : Res (Heap α × Vec) := do
  let (h, v) := allocate h size
  let h ← forUp size (fun i h => construct h v.start i (some x)) h
  .ok (h, { v with finish := size })

/-- `vector(initializer_list)`, estl/vector.hpp:25-30. -/
def pushAll (h : Heap α) (v : Vec) : List α → Res (Heap α × Vec)
  | [] => .ok (h, v)
  | x :: xs => do
    let (h, v) ← pushBack h v (.ext x)
    pushAll h v xs

/-- `vector(initializer_list)`, estl/vector.hpp:25-30. -/
def ctorList (h : Heap α) (xs : List α) : Res (Heap α × Vec) :=
  let (h, v) := allocate h xs.length
  pushAll h v xs

/-- Copy constructor, estl/vector.hpp:49-58. -/
def ctorCopy (h : Heap α) (rhs : Vec) : Res (Heap α × Vec) :=
  if rhs.size ≠ 0 then do
    let (h, v) := allocate h rhs.size
    forUp rhs.size (fun i (s : Heap α × Vec) => do
      let (h, v) := s
      let x ← read h rhs.start i
      let h ← construct h v.start v.finish x
      .ok (h, { v with finish := v.finish + 1 })) (h, v)
  else .ok (h, Vec.null)

/-- `operator[]` as an rvalue, estl/vector.hpp:309-315; `front()` is index 0
(estl/vector.hpp:228-234), `back()` is index `size() - 1` (estl/vector.hpp:236-242). -/
def get (h : Heap α) (v : Vec) (i : Nat) : Res (Option α) := read h v.start i

/-- `v[i] = x`, estl/vector.hpp:309-311. -/
def put (h : Heap α) (v : Vec) (i : Nat) (x : α) : Res (Heap α) := assign h v.start i (some x)

/-- The loop of `operator==`, estl/vector.hpp:212-215 (`int i` is assumed not to
overflow). Comparing unspecified values is undefined here. -/
def eqLoop [DecidableEq α] (h : Heap α) (v w : Vec) : Nat → Nat → Res Bool
  | 0, _ => .ok true
  | n + 1, i => do
    let x ← read h v.start i
    let y ← read h w.start i
    match x, y with
    | some x, some y => if x ≠ y then .ok false else eqLoop h v w n (i + 1)
    | _, _ => .ub

/-- `operator==`, estl/vector.hpp:208-218. -/
def eq [DecidableEq α] (h : Heap α) (v w : Vec) : Res Bool :=
  if v.size ≠ w.size then .ok false else eqLoop h v w v.size 0

/-! ### Programs: several named vectors sharing the heap -/

/-- The operations of a client program; vectors are named by numbers (estl/vector.hpp:30-352). -/
inductive Op (α : Type) where
  | ctor (x : Nat)
  | ctorFill (x n : Nat) (v : α)
  | ctorDefault (x n : Nat)
  | ctorList (x : Nat) (vs : List α)
  | ctorCopy (x y : Nat)
  | ctorMove (x y : Nat)
  | dtor (x : Nat)
  | assignCopy (x y : Nat)
  | assignMove (x y : Nat)
  | swap (x y : Nat)
  | pushBack (x : Nat) (v : α)
  | pushFront (x : Nat) (v : α)
  | insert (x i : Nat) (v : α)
  | emplace (x i : Nat) (v : α)
  | erase (x i : Nat)
  | eraseRange (x i j : Nat)
  | popBack (x : Nat)
  | popFront (x : Nat)
  | resize (x n : Nat)
  | clear (x : Nat)
  | reserve (x n : Nat)
  | put (x i : Nat) (v : α)

/-- State of a client program (programs using estl/vector.hpp). -/
structure St (α : Type) where
  heap : Heap α
  vars : Nat → Option Vec

/-- Nothing exists (no code; start of a program using estl/vector.hpp). -/
def St.init : St α := ⟨Heap.empty, fun _ => none⟩

/-- The named object; using a name that is not alive is undefined
(programs using estl/vector.hpp). -/
def var (s : St α) (x : Nat) : Res Vec :=
  match s.vars x with
  | some v => .ok v
  | none => .ub

/-- A name is bound (no code; programs using estl/vector.hpp). -/
def setVar (f : Nat → Option Vec) (x : Nat) (v : Option Vec) : Nat → Option Vec :=
  fun y => if y = x then v else f y

/-- Store the result of a mutating member function (programs using estl/vector.hpp). -/
def upd1 (s : St α) (x : Nat) (r : Res (Heap α × Vec)) : Res (St α) := do
  let (h, v) ← r
  .ok ⟨h, setVar s.vars x (some v)⟩

/-- A declaration `vector x = ...`: the name must be unused (programs using estl/vector.hpp). -/
def fresh (s : St α) (x : Nat) : Res Unit := Res.require (s.vars x).isNone

/-- One step of a client program. Copy/move assignment is
`operator=(vector rhs) { rhs.swap(*this); }`, estl/vector.hpp:203-206: the
parameter is copy- or move-constructed, swapped with `*this`, and destroyed.
The move constructor swaps with a null vector, estl/vector.hpp:60-63; `swap`
exchanges the three pointers, estl/vector.hpp:248-252. -/
def step (E : Elem α) (s : St α) : Op α → Res (St α)
  | .ctor x => do fresh s x; .ok { s with vars := setVar s.vars x (some Vec.null) }
  | .ctorFill x n v => do fresh s x; upd1 s x (ctorFill s.heap n v)
  | .ctorDefault x n => do fresh s x; upd1 s x (ctorFill s.heap n E.dflt)
  | .ctorList x vs => do fresh s x; upd1 s x (ctorList s.heap vs)
  | .ctorCopy x y => do let w ← var s y; fresh s x; upd1 s x (ctorCopy s.heap w)
  | .ctorMove x y => do
    let w ← var s y
    fresh s x
    .ok { s with vars := setVar (setVar s.vars y (some Vec.null)) x (some w) }
  | .dtor x => do
    let v ← var s x
    let h ← dtor s.heap v
    .ok ⟨h, setVar s.vars x none⟩
  | .assignCopy x y => do
    let v ← var s x
    let w ← var s y
    let (h, rhs) ← ctorCopy s.heap w
    let h ← dtor h v
    .ok ⟨h, setVar s.vars x (some rhs)⟩
  | .assignMove x y => do
    let w ← var s y
    let vars := setVar s.vars y (some Vec.null)
    match vars x with
    | none => .ub
    | some v => do
      let h ← dtor s.heap v
      .ok ⟨h, setVar vars x (some w)⟩
  | .swap x y => do
    let v ← var s x
    let w ← var s y
    .ok { s with vars := setVar (setVar s.vars x (some w)) y (some v) }
  | .pushBack x a => do let v ← var s x; upd1 s x (pushBack s.heap v (.ext a))
  | .pushFront x a => do let v ← var s x; upd1 s x (pushFront E s.heap v (.ext a))
  | .insert x i a => do let v ← var s x; upd1 s x (insert E s.heap v i (.ext a))
  | .emplace x i a => do let v ← var s x; upd1 s x (emplace E s.heap v i (.ext a))
  | .erase x i => do
    let v ← var s x
    let (h, v, _) ← erase E s.heap v i
    .ok ⟨h, setVar s.vars x (some v)⟩
  | .eraseRange x i j => do
    let v ← var s x
    let (h, v, _) ← eraseRange E s.heap v i j
    .ok ⟨h, setVar s.vars x (some v)⟩
  | .popBack x => do let v ← var s x; upd1 s x (popBack E s.heap v)
  | .popFront x => do let v ← var s x; upd1 s x (popFront E s.heap v)
  | .resize x n => do let v ← var s x; upd1 s x (resize E s.heap v n)
  | .clear x => do let v ← var s x; upd1 s x (clear s.heap v)
  | .reserve x n => do let v ← var s x; upd1 s x (reserve s.heap v n)
  | .put x i a => do
    let v ← var s x
    let h ← put s.heap v i a
    .ok { s with heap := h }

/-- A whole program (programs using estl/vector.hpp). -/
def run (E : Elem α) (s : St α) : List (Op α) → Res (St α)
  | [] => .ok s
  | op :: ops => do
    let s ← step E s op
    run E s ops

end Verif.Vector
