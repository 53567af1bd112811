import Verif.Base.Box

/-!
Model of `estl/deque.hpp`, `estl/stack.hpp` and `estl/queue.hpp`: several deque objects over
one heap of control arrays and 16-element blocks.

The parameter `triv` says whether the element type is trivially destructible: then
`estd::destory` (estl/allocator.hpp:11-25) does nothing, and a "destroyed" element keeps its
bytes. Otherwise element lifetimes are strict: constructing over a live object, destroying raw
storage and releasing a block that still holds objects are all `ub`.

Simplifications: `new` succeeds and hands out fresh addresses; element copies and moves do not
throw and give the same value (a moved-from argument is not tracked); `size_t` sums do not
overflow (fewer than 2^60 elements) and the `int` loop counters (lines 138, 280, 306) do not
either (fewer than 2^31 blocks); decrements below zero wrap to `2^64 - 1` as in C++.
-/

set_option backward.isDefEq.respectTransparency false

namespace Verif.Deque
open Verif
open Verif.Box (upd)

/-- Where a deque lives: an object of the program (alone, or as `container_` of a stack or
queue), the by-value parameter of `deque::operator=` (estl/deque.hpp:144), the local `tmp` of
`estd::swap` (estl/utility.hpp:38), or the by-value parameter of `stack::operator=` or
`queue::operator=` (estl/stack.hpp:27, estl/queue.hpp:24). -/
inductive Slot where
  | user (n : Nat)
  | par
  | loc
  | apar
  deriving DecidableEq, Repr

/-- The data members, estl/deque.hpp:344-348. `blocks` is the address of the control array
(`none` for a null pointer). -/
structure Dq where
  blocks : Option Nat
  bsz : Nat
  size : Nat
  first : Nat
  last : Nat
  deriving DecidableEq, Repr

/-- `arr x`: the live control array at `x`, `new pointer[size]` (estl/deque.hpp:316); an entry
not yet assigned is `none`. `blk b`: the live block at `b`, `alloc::allocate(block_elements)`
(estl/deque.hpp:319); cell `o < 16` is raw storage (`none`) or holds a value. `dq k`: the live
deque objects. -/
structure St (α : Type) where
  arr : Nat → Option (List (Option Nat))
  blk : Nat → Option (Nat → Option α)
  nextA : Nat
  nextB : Nat
  dq : Slot → Option Dq

variable {α : Type}

/-- No objects, nothing allocated (program start)
(no code; start of a program using estl/deque.hpp). -/
def St.init : St α := ⟨fun _ => none, fun _ => none, 0, 0, fun _ => none⟩

/-- The members of the live deque at `k` (access through `this`, all of
estl/deque.hpp:116-348). -/
def getD (s : St α) (k : Slot) : Res Dq :=
  match s.dq k with
  | some d => .ok d
  | none => .ub

/-- Store the members of the deque at `k` (estl/deque.hpp:344-348). -/
def setD (s : St α) (k : Slot) (d : Dq) : St α := { s with dq := upd s.dq k (some d) }

/-- `--` on a `size_t` (estl/deque.hpp:195, 255, 338). -/
def dec (n : Nat) : Nat := if n = 0 then 2 ^ 64 - 1 else n - 1

/-- `blocks_[i]` read (estl/deque.hpp:139, 281, 307, 334): the array must be live, `i` inside
it and the entry assigned. -/
def arrRd (s : St α) (a : Option Nat) (i : Nat) : Res Nat :=
  match a with
  | none => .ub
  | some x =>
    match s.arr x with
    | none => .ub
    | some L =>
      match L[i]? with
      | some (some b) => .ok b
      | _ => .ub

/-- `new_blocks[i] = p` (estl/deque.hpp:281, 307, 319). -/
def arrWr (s : St α) (x : Nat) (i : Nat) (p : Nat) : Res (St α) :=
  match s.arr x with
  | none => .ub
  | some L => if i < L.length then .ok { s with arr := upd s.arr x (some (L.set i (some p))) } else .ub

/-- `get_obj_pointer(n)`, estl/deque.hpp:333-335: block address and offset. -/
def getObj (s : St α) (d : Dq) (n : Nat) : Res (Nat × Nat) := do
  let b ← arrRd s d.blocks (n / 16)
  .ok (b, n % 16)

/-- Reading the object behind an element pointer or reference (use of the reference returned by
estl/deque.hpp:149-171). -/
def load (s : St α) (p : Nat × Nat) : Res α :=
  match s.blk p.1 with
  | none => .ub
  | some f =>
    match f p.2 with
    | some v => .ok v
    | none => .ub

/-- Overwrite one cell of a block (effect of the constructor call in estl/allocator.hpp:8 or the
destructor call in estl/allocator.hpp:14). -/
def setCell (s : St α) (p : Nat × Nat) (c : Option α) : St α :=
  { s with blk := upd s.blk p.1 ((s.blk p.1).map fun f => upd f p.2 c) }

/-- `construct(p, v)`, estl/allocator.hpp:6-9. -/
def construct (triv : Bool) (s : St α) (p : Nat × Nat) (v : α) : Res (St α) :=
  match s.blk p.1 with
  | none => .ub
  | some f => if triv || (f p.2).isNone then .ok (setCell s p (some v)) else .ub

/-- `destory(p)`, estl/allocator.hpp:11-16. -/
def destory (triv : Bool) (s : St α) (p : Nat × Nat) : Res (St α) :=
  if triv then .ok s
  else
    match s.blk p.1 with
    | none => .ub
    | some f => if (f p.2).isSome then .ok (setCell s p none) else .ub

/-- An argument of `emplace_*`/`push_*`: a value, or a reference to an element of some deque,
read only when the new element is constructed (estl/deque.hpp:246, 259). -/
inductive Arg (α : Type) where
  | val (v : α)
  | ref (p : Nat × Nat)

/-- Evaluating the argument in the constructor call, estl/allocator.hpp:8. -/
def Arg.eval (s : St α) : Arg α → Res α
  | .val v => .ok v
  | .ref p => load s p

/-- The loop of `alloc_control_blocks`, estl/deque.hpp:318-320, `n` iterations. -/
def allocLoop (s : St α) (x : Nat) : Nat → Nat → Res (St α)
  | 0, _ => .ok s
  | n + 1, start => do
    let s ← arrWr { s with blk := upd s.blk s.nextB (some fun _ => none), nextB := s.nextB + 1 } x start s.nextB
    allocLoop s x n (start + 1)

/-- `alloc_control_blocks(size, start, end)`, estl/deque.hpp:315-322; all calls have
`start ≤ end`. -/
def allocControl (s : St α) (size start end' : Nat) : Res (St α × Nat) := do
  let x := s.nextA
  let s ← allocLoop { s with arr := upd s.arr x (some (List.replicate size none)), nextA := x + 1 } x (end' - start) start
  .ok (s, x)

/-- The loops `new_blocks_pointer[i + off] = blocks_[i]`, estl/deque.hpp:280-282 (`off` is
`block_size_`) and 306-308 (`off` is 0); `n` iterations from `i`. -/
def moveLoop (s : St α) (a : Option Nat) (x off : Nat) : Nat → Nat → Res (St α)
  | 0, _ => .ok s
  | n + 1, i => do
    let b ← arrRd s a i
    let s ← arrWr s x (i + off) b
    moveLoop s a x off n (i + 1)

/-- `destory_control_blocks`, estl/deque.hpp:323-327. -/
def destroyControl (s : St α) (a : Option Nat) : Res (St α) :=
  match a with
  | none => .ok s
  | some x =>
    match s.arr x with
    | none => .ub
    | some _ => .ok { s with arr := upd s.arr x none }

/-- `ensure_capacity_front(n)`, estl/deque.hpp:265-289. -/
def ensureFront (s : St α) (d : Dq) (n : Nat) : Res (St α × Dq) :=
  if d.first ≥ n then .ok (s, d)
  else do
    let nb := (n + 16 - 1) / 16
    let (s, x) ← allocControl s (nb + d.bsz) 0 nb
    let (s, d1) ← (if d.bsz = 0 then .ok (s, { d with first := 16 * nb - 1, last := 16 * nb - 1 })
      else do
        let s ← moveLoop s d.blocks x d.bsz d.bsz 0
        .ok (s, { d with first := d.first + 16 * nb, last := d.last + 16 * nb }) : Res (St α × Dq))
    let s ← destroyControl s d.blocks
    .ok (s, { d1 with blocks := some x, bsz := d.bsz + nb })

/-- `back_capacity`, estl/deque.hpp:292, with the wrap-around of `size_t`. -/
def backCapacity (d : Dq) : Nat :=
  if d.bsz = 0 then 0
  else if d.last + 1 ≤ 16 * d.bsz then 16 * d.bsz - (d.last + 1) else 16 * d.bsz + 2 ^ 64 - (d.last + 1)

/-- `ensure_capacity_back(n)`, estl/deque.hpp:291-313. -/
def ensureBack (s : St α) (d : Dq) (n : Nat) : Res (St α × Dq) :=
  if backCapacity d ≥ n then .ok (s, d)
  else do
    let nb := (n + 16 - 1) / 16
    let (s, x) ← allocControl s (nb + d.bsz) d.bsz (nb + d.bsz)
    let (s, d1) ← (if d.bsz = 0 then .ok (s, { d with first := 0, last := 0 })
      else do
        let s ← moveLoop s d.blocks x 0 d.bsz 0
        .ok (s, d) : Res (St α × Dq))
    let s ← destroyControl s d.blocks
    .ok (s, { d1 with blocks := some x, bsz := d.bsz + nb })

/-- `emplace_back`, estl/deque.hpp:238-249; also `push_back`, 173-179. -/
def emplaceBack (triv : Bool) (s : St α) (k : Slot) (x : Arg α) : Res (St α) := do
  let d ← getD s k
  let (s, d) ← ensureBack s d 1
  let d := { d with size := d.size + 1, last := if d.size = 0 then d.last else d.last + 1 }
  let p ← getObj s d d.last
  let v ← x.eval s
  let s ← construct triv s p v
  .ok (setD s k d)

/-- `emplace_front`, estl/deque.hpp:251-262; also `push_front`, 181-187. -/
def emplaceFront (triv : Bool) (s : St α) (k : Slot) (x : Arg α) : Res (St α) := do
  let d ← getD s k
  let (s, d) ← ensureFront s d 1
  let d := { d with size := d.size + 1, first := if d.size = 0 then d.first else dec d.first }
  let p ← getObj s d d.first
  let v ← x.eval s
  let s ← construct triv s p v
  .ok (setD s k d)

/-- `decrease_element`, estl/deque.hpp:337-341. -/
def decrease (d : Dq) : Dq :=
  if dec d.size = 0 then { d with size := dec d.size, first := d.bsz / 2 * 16, last := d.bsz / 2 * 16 }
  else { d with size := dec d.size }

/-- `pop_front`, estl/deque.hpp:189-192. -/
def popFront (triv : Bool) (s : St α) (k : Slot) : Res (St α) := do
  let d ← getD s k
  let p ← getObj s d d.first
  let s ← destory triv s p
  .ok (setD s k (decrease { d with first := d.first + 1 }))

/-- `pop_back`, estl/deque.hpp:194-197. -/
def popBack (triv : Bool) (s : St α) (k : Slot) : Res (St α) := do
  let d ← getD s k
  let p ← getObj s d d.last
  let s ← destory triv s p
  .ok (setD s k (decrease { d with last := dec d.last }))

/-- `size()`, estl/deque.hpp:198-200. -/
def size (s : St α) (k : Slot) : Res Nat := do
  let d ← getD s k
  .ok d.size

/-- `empty()`, estl/deque.hpp:202-204. -/
def empty (s : St α) (k : Slot) : Res Bool := do
  let d ← getD s k
  .ok (d.size == 0)

/-- `operator[](pos)` and a read of the element, estl/deque.hpp:149-155. -/
def index (s : St α) (k : Slot) (pos : Nat) : Res α := do
  let d ← getD s k
  let p ← getObj s d pos
  load s p

/-- `front()` and a read of the element, estl/deque.hpp:157-163. -/
def front (s : St α) (k : Slot) : Res α := do
  let d ← getD s k
  index s k d.first

/-- `back()` and a read of the element, estl/deque.hpp:165-171. -/
def back (s : St α) (k : Slot) : Res α := do
  let d ← getD s k
  index s k d.last

/-- The index held by `begin()`, estl/deque.hpp:206-212. -/
def begin' (s : St α) (k : Slot) : Res Nat := do
  let d ← getD s k
  .ok d.first

/-- The index held by `end()`, estl/deque.hpp:214-220. -/
def end' (s : St α) (k : Slot) : Res Nat := do
  let d ← getD s k
  .ok (d.last + 1)

/-- The element reference `*it` of an iterator with index `i`, estl/deque.hpp:27-32. -/
def derefIt (s : St α) (k : Slot) (i : Nat) : Res (Nat × Nat) := do
  let d ← getD s k
  getObj s d i

/-- `for (auto& x : d)` collecting the elements: iterators from index `i` (`++`,
estl/deque.hpp:46-55) until equal to the end iterator (`==`, 87-93), `n` steps away. -/
def collect (s : St α) (k : Slot) : Nat → Nat → Res (List α)
  | 0, _ => .ok []
  | n + 1, i => do
    let p ← derefIt s k i
    let v ← load s p
    let vs ← collect s k n (i + 1)
    .ok (v :: vs)

/-- Iteration over the whole deque, `begin()` to `end()` (estl/deque.hpp:206-220). An end index
below the begin index would never be met: `ub`. -/
def toList (s : St α) (k : Slot) : Res (List α) := do
  let b ← begin' s k
  let e ← end' s k
  if b ≤ e then collect s k (e - b) b else .ub

/-- The loop of `destory(begin(), end())`, estl/allocator.hpp:21-23, `n` iterations from index
`i`. -/
def destroyLoop (triv : Bool) (s : St α) (d : Dq) : Nat → Nat → Res (St α)
  | 0, _ => .ok s
  | n + 1, i => do
    let p ← getObj s d i
    let s ← destory triv s p
    destroyLoop triv s d n (i + 1)

/-- `clear()`, estl/deque.hpp:221-228, with `destory(begin, end)` of
estl/allocator.hpp:18-25. -/
def clear (triv : Bool) (s : St α) (k : Slot) : Res (St α) := do
  let d ← getD s k
  if d.size = 0 then .ok s
  else do
    let s ← (if triv then .ok s
      else if d.first ≤ d.last + 1 then destroyLoop triv s d (d.last + 1 - d.first) d.first
      else .ub : Res (St α))
    .ok (setD s k { d with size := 0, first := d.bsz / 2 * 16, last := d.bsz / 2 * 16 })

/-- `alloc::deallocate(p)`, estl/allocator.hpp:37-39; with strict lifetimes the block must not
hold objects any more. -/
def dealloc (triv : Bool) (s : St α) (b : Nat) : Res (St α) :=
  match s.blk b with
  | none => .ub
  | some f =>
    if triv || (List.range 16).all (fun o => (f o).isNone) then .ok { s with blk := upd s.blk b none } else .ub

/-- The loop of the destructor, estl/deque.hpp:138-140, `n` iterations from `i`. -/
def deallocLoop (triv : Bool) (s : St α) (a : Option Nat) : Nat → Nat → Res (St α)
  | 0, _ => .ok s
  | n + 1, i => do
    let b ← arrRd s a i
    let s ← dealloc triv s b
    deallocLoop triv s a n (i + 1)

/-- `deque()`, estl/deque.hpp:116-117, constructing the object at `k`. -/
def make (s : St α) (k : Slot) : Res (St α) :=
  match s.dq k with
  | some _ => .ub
  | none => .ok (setD s k ⟨none, 0, 0, 0, 0⟩)

/-- `~deque()`, estl/deque.hpp:135-142. -/
def destroy (triv : Bool) (s : St α) (k : Slot) : Res (St α) := do
  let s ← clear triv s k
  let d ← getD s k
  let s ← deallocLoop triv s d.blocks d.bsz 0
  let s ← destroyControl s d.blocks
  .ok { s with dq := upd s.dq k none }

/-- `swap`, estl/deque.hpp:230-236: every member is exchanged. -/
def swap (s : St α) (k j : Slot) : Res (St α) := do
  let d ← getD s k
  let e ← getD s j
  .ok (setD (setD s k e) j d)

/-- The loop of the copy constructor, estl/deque.hpp:121-122, `n` iterations from index `i` of
the deque at `j`. -/
def copyLoop (triv : Bool) (k j : Slot) : Nat → Nat → St α → Res (St α)
  | 0, _, s => .ok s
  | n + 1, i, s => do
    let p ← derefIt s j i
    let s ← emplaceBack triv s k (.ref p)
    copyLoop triv k j n (i + 1) s

/-- `deque(const deque&)`, estl/deque.hpp:119-123. -/
def copy (triv : Bool) (s : St α) (k j : Slot) : Res (St α) := do
  let s ← make s k
  let b ← begin' s j
  let e ← end' s j
  if b ≤ e then copyLoop triv k j (e - b) b s else .ub

/-- `deque(deque&&)`, estl/deque.hpp:125-128. -/
def move (s : St α) (k j : Slot) : Res (St α) := do
  let s ← make s k
  swap s j k

/-- The loop of the initializer-list constructor, estl/deque.hpp:132-133. -/
def pushAll (triv : Bool) (k : Slot) : List α → St α → Res (St α)
  | [], s => .ok s
  | v :: vs, s => do
    let s ← emplaceBack triv s k (.val v)
    pushAll triv k vs s

/-- `deque(std::initializer_list<T>)`, estl/deque.hpp:130-134. -/
def initList (triv : Bool) (s : St α) (k : Slot) (vs : List α) : Res (St α) := do
  let s ← make s k
  pushAll triv k vs s

/-- `operator=(deque rhs)`, estl/deque.hpp:144-147, with the parameter built at `par`:
`rhs.swap(*this)`, then the parameter is destroyed. -/
def assignPar (triv : Bool) (s : St α) (par k : Slot) : Res (St α) := do
  let s ← swap s par k
  destroy triv s par

/-- `d = e` for an lvalue `e`: the parameter is copy-constructed (estl/deque.hpp:119-123,
144-147). -/
def assignCopy (triv : Bool) (s : St α) (k j : Slot) : Res (St α) := do
  let s ← copy triv s .par j
  assignPar triv s .par k

/-- `d = estd::move(e)`: the parameter is move-constructed (estl/deque.hpp:125-128, 144-147). -/
def assignMove (triv : Bool) (s : St α) (k j : Slot) : Res (St α) := do
  let s ← move s .par j
  assignPar triv s .par k

/-- `estd::swap` on two deques, estl/utility.hpp:36-41: three moves through a local. -/
def genericSwap (triv : Bool) (s : St α) (k j : Slot) : Res (St α) := do
  let s ← move s .loc k
  let s ← assignMove triv s k j
  let s ← assignMove triv s j .loc
  destroy triv s .loc

/-- `stack::operator=(stack)` for an lvalue, estl/stack.hpp:17-18, 23-30. -/
def stackAssignCopy (triv : Bool) (s : St α) (k j : Slot) : Res (St α) := do
  let s ← copy triv s .apar j
  let s ← swap s .apar k
  destroy triv s .apar

/-- `stack::operator=(stack)` for an rvalue, estl/stack.hpp:20-21, 23-30. -/
def stackAssignMove (triv : Bool) (s : St α) (k j : Slot) : Res (St α) := do
  let s ← move s .apar j
  let s ← swap s .apar k
  destroy triv s .apar

/-- `queue::operator=(queue)` for an lvalue, estl/queue.hpp:18-19, 24-31. -/
def queueAssignCopy (triv : Bool) (s : St α) (k j : Slot) : Res (St α) := do
  let s ← copy triv s .apar j
  let s ← genericSwap triv s .apar k
  destroy triv s .apar

/-- `queue::operator=(queue)` for an rvalue, estl/queue.hpp:21-22, 24-31. -/
def queueAssignMove (triv : Bool) (s : St α) (k j : Slot) : Res (St α) := do
  let s ← move s .apar j
  let s ← genericSwap triv s .apar k
  destroy triv s .apar

/-- A use of the public interface of deques named by numbers. `pushBackElem k j i` is
`dk.push_back(*(begin + i))` for an element of `dj` (possibly `dk` itself), and likewise at the
front (estl/deque.hpp:97-350). -/
inductive Op (α : Type) where
  | make (k : Nat)
  | initList (k : Nat) (vs : List α)
  | copy (k j : Nat)
  | move (k j : Nat)
  | destroy (k : Nat)
  | assignCopy (k j : Nat)
  | assignMove (k j : Nat)
  | swap (k j : Nat)
  | pushBack (k : Nat) (v : α)
  | pushFront (k : Nat) (v : α)
  | pushBackElem (k j i : Nat)
  | pushFrontElem (k j i : Nat)
  | popBack (k : Nat)
  | popFront (k : Nat)
  | clear (k : Nat)

/-- A reference to the element `i` steps after `begin()` of the deque at `j`
(estl/deque.hpp:27-55, 206-212). -/
def elemRef (s : St α) (j : Slot) (i : Nat) : Res (Arg α) := do
  let b ← begin' s j
  let p ← derefIt s j (b + i)
  .ok (.ref p)

/-- One call, estl/deque.hpp:116-262. -/
def step (triv : Bool) (s : St α) : Op α → Res (St α)
  | .make k => Deque.make s (.user k)
  | .initList k vs => Deque.initList triv s (.user k) vs
  | .copy k j => Deque.copy triv s (.user k) (.user j)
  | .move k j => Deque.move s (.user k) (.user j)
  | .destroy k => Deque.destroy triv s (.user k)
  | .assignCopy k j => Deque.assignCopy triv s (.user k) (.user j)
  | .assignMove k j => Deque.assignMove triv s (.user k) (.user j)
  | .swap k j => Deque.swap s (.user k) (.user j)
  | .pushBack k v => emplaceBack triv s (.user k) (.val v)
  | .pushFront k v => emplaceFront triv s (.user k) (.val v)
  | .pushBackElem k j i => do
    let x ← elemRef s (.user j) i
    emplaceBack triv s (.user k) x
  | .pushFrontElem k j i => do
    let x ← elemRef s (.user j) i
    emplaceFront triv s (.user k) x
  | .popBack k => Deque.popBack triv s (.user k)
  | .popFront k => Deque.popFront triv s (.user k)
  | .clear k => Deque.clear triv s (.user k)

/-- A sequence of calls (any caller of estl/deque.hpp). -/
def run (triv : Bool) (s : St α) : List (Op α) → Res (St α)
  | [] => .ok s
  | o :: os => do
    let s ← step triv s o
    run triv s os

/-- A use of the public interface of stacks (or queues) named by numbers
(estl/stack.hpp, estl/queue.hpp). -/
inductive AOp (α : Type) where
  | make (k : Nat)
  | copy (k j : Nat)
  | move (k j : Nat)
  | destroy (k : Nat)
  | assignCopy (k j : Nat)
  | assignMove (k j : Nat)
  | swap (k j : Nat)
  | push (k : Nat) (v : α)
  | pop (k : Nat)

/-- One call on stacks, estl/stack.hpp:15-63. -/
def stackStep (triv : Bool) (s : St α) : AOp α → Res (St α)
  | .make k => Deque.make s (.user k)
  | .copy k j => Deque.copy triv s (.user k) (.user j)
  | .move k j => Deque.move s (.user k) (.user j)
  | .destroy k => Deque.destroy triv s (.user k)
  | .assignCopy k j => stackAssignCopy triv s (.user k) (.user j)
  | .assignMove k j => stackAssignMove triv s (.user k) (.user j)
  | .swap k j => Deque.swap s (.user k) (.user j)
  | .push k v => emplaceBack triv s (.user k) (.val v)
  | .pop k => popBack triv s (.user k)

/-- A sequence of calls on stacks (any caller of estl/stack.hpp). -/
def stackRun (triv : Bool) (s : St α) : List (AOp α) → Res (St α)
  | [] => .ok s
  | o :: os => do
    let s ← stackStep triv s o
    stackRun triv s os

/-- `stack::top()` and a read of the element, estl/stack.hpp:40-42. -/
def top (s : St α) (k : Nat) : Res α := back s (.user k)

/-- One call on queues, estl/queue.hpp:16-47. -/
def queueStep (triv : Bool) (s : St α) : AOp α → Res (St α)
  | .make k => Deque.make s (.user k)
  | .copy k j => Deque.copy triv s (.user k) (.user j)
  | .move k j => Deque.move s (.user k) (.user j)
  | .destroy k => Deque.destroy triv s (.user k)
  | .assignCopy k j => queueAssignCopy triv s (.user k) (.user j)
  | .assignMove k j => queueAssignMove triv s (.user k) (.user j)
  | .swap k j => genericSwap triv s (.user k) (.user j)
  | .push k v => emplaceBack triv s (.user k) (.val v)
  | .pop k => popFront triv s (.user k)

/-- A sequence of calls on queues (any caller of estl/queue.hpp). -/
def queueRun (triv : Bool) (s : St α) : List (AOp α) → Res (St α)
  | [] => .ok s
  | o :: os => do
    let s ← queueStep triv s o
    queueRun triv s os

/-- `queue::front()` and a read of the element, estl/queue.hpp:49-51. -/
def queueFront (s : St α) (k : Nat) : Res α := front s (.user k)

end Verif.Deque
