import Verif.Base.Box

/-!
Model of `estl/list.hpp`: nodes with `next_` and `prv_` on a heap, one sentinel
(`node_`) inside each list object.

Simplifications.
* `cast_to_driver` (estl/list.hpp:52-58), a `static_cast` between a node and its base class at
  offset 0, is the identity, also for the sentinel, which is not a `list_node` (formally
  undefined). `get_next` and `get_prv` (60-72) call it through `next_` or `prv_`; if that is null
  the call is undefined by the standard although it returns null when compiled naively. The
  parameter `lax` chooses: `true` returns null, `false` is undefined behaviour.
* Constructing, copying and destroying an element touches nothing but the element.
* `list_size_` does not overflow (it would need `2^64` nodes).
-/

set_option backward.isDefEq.respectTransparency false

namespace Verif.EList
open Verif Verif.Box

/-- Address of a node: the sentinel of a list object, or a node on the heap (numbered in the
order of allocation). Also an iterator: `current_` (estl/list.hpp:168). -/
inductive Addr where
  | sent (l : Slot)
  | node (n : Nat)
  deriving DecidableEq, Repr

/-- Nodes: `next_`, `prv_` (estl/list.hpp:74-76; null is `none`), `value_` (113), whether they
exist; `next`: next address to be allocated; `freed`: nodes deleted so far, newest first;
`size`: `list_size_` of each list object (477). -/
structure St (α : Type) where
  nxt : Addr → Option Addr
  prv : Addr → Option Addr
  val : Addr → Option α
  live : Addr → Bool
  next : Nat
  freed : List Nat
  size : Slot → Nat

variable {α : Type}

/-- Nothing exists (no code; start of a program using estl/list.hpp). -/
def St.init : St α := ⟨fun _ => none, fun _ => none, fun _ => none, fun _ => false, 0, [], fun _ => 0⟩

/-- `p->next_` (estl/list.hpp:8-77). -/
def rdNext (s : St α) (p : Addr) : Res (Option Addr) := if s.live p then .ok (s.nxt p) else .ub
/-- `p->prv_` (estl/list.hpp:8-77). -/
def rdPrv (s : St α) (p : Addr) : Res (Option Addr) := if s.live p then .ok (s.prv p) else .ub
/-- `p->next_ = q` (estl/list.hpp:8-77). -/
def wrNext (s : St α) (p : Addr) (q : Option Addr) : Res (St α) := if s.live p then .ok { s with nxt := upd s.nxt p q } else .ub
/-- `p->prv_ = q` (estl/list.hpp:8-77). -/
def wrPrv (s : St α) (p : Addr) (q : Option Addr) : Res (St α) := if s.live p then .ok { s with prv := upd s.prv p q } else .ub

/-- `link_next`, estl/list.hpp:10-18. -/
def linkNext (s : St α) (this rhs : Addr) : Res (St α) := do
  let n ← rdNext s this
  let s ← (match n with
    | some q => do
      let s ← wrPrv s q (some rhs)
      let n ← rdNext s this
      wrNext s rhs n
    | none => .ok s : Res (St α))
  let s ← wrNext s this (some rhs)
  wrPrv s rhs (some this)

/-- `link_prv`, estl/list.hpp:19-27. -/
def linkPrv (s : St α) (this rhs : Addr) : Res (St α) := do
  let p ← rdPrv s this
  let s ← (match p with
    | some q => do
      let s ← wrNext s q (some rhs)
      let p ← rdPrv s this
      wrPrv s rhs p
    | none => .ok s : Res (St α))
  let s ← wrNext s rhs (some this)
  wrPrv s this (some rhs)

/-- `unlink_next`, estl/list.hpp:28-33. -/
def unlinkNext (s : St α) (this : Addr) : Res (St α) := do
  let n ← rdNext s this
  let s ← (match n with
    | some q => wrPrv s q none
    | none => .ok s : Res (St α))
  wrNext s this none

/-- `unlink_prv`, estl/list.hpp:34-39. -/
def unlinkPrv (s : St α) (this : Addr) : Res (St α) := do
  let p ← rdPrv s this
  let s ← (match p with
    | some q => wrNext s q none
    | none => .ok s : Res (St α))
  wrPrv s this none

/-- `unlink`, estl/list.hpp:40-50. -/
def unlink (s : St α) (this : Addr) : Res (St α) := do
  let n ← rdNext s this
  let s ← (match n with
    | some q => do
      let p ← rdPrv s this
      wrPrv s q p
    | none => .ok s : Res (St α))
  let p ← rdPrv s this
  let s ← (match p with
    | some q => do
      let n ← rdNext s this
      wrNext s q n
    | none => .ok s : Res (St α))
  let s ← wrNext s this none
  wrPrv s this none

/-- `get_next`, estl/list.hpp:60-66. -/
def getNext (lax : Bool) (s : St α) (p : Addr) : Res (Option Addr) := do
  let n ← rdNext s p
  match n with
  | some q => .ok (some q)
  | none => if lax then .ok none else .ub

/-- `get_prv`, estl/list.hpp:67-72. -/
def getPrv (lax : Bool) (s : St α) (p : Addr) : Res (Option Addr) := do
  let n ← rdPrv s p
  match n with
  | some q => .ok (some q)
  | none => if lax then .ok none else .ub

/-- Use of a pointer that must not be null (as `this` or dereferenced)
(used for estl/list.hpp:8-77). -/
def nonNull (p : Option Addr) : Res Addr :=
  match p with
  | some q => .ok q
  | none => .ub

/-- `create_node`, estl/list.hpp:467-470, with the constructors of `list_node` (86-94). -/
def createNode (s : St α) (v : α) : Addr × St α :=
  (.node s.next, { s with nxt := upd s.nxt (.node s.next) none, prv := upd s.prv (.node s.next) none,
                          val := upd s.val (.node s.next) (some v), live := upd s.live (.node s.next) true, next := s.next + 1 })

/-- `destory_node`, estl/list.hpp:472-474; deleting a sentinel or a deleted node is undefined. -/
def destroyNode (s : St α) (p : Addr) : Res (St α) :=
  match p with
  | .node n => if s.live (.node n) then .ok { s with live := upd s.live (.node n) false, freed := n :: s.freed } else .ub
  | .sent _ => .ub

/-- Set `list_size_` (estl/list.hpp:477). -/
def setSize (s : St α) (l : Slot) (n : Nat) : St α := { s with size := upd s.size l n }

/-- `list()`, estl/list.hpp:242-245. -/
def ctor (s : St α) (l : Slot) : Res (St α) :=
  if s.live (.sent l) then .ub
  else
    let s := { s with nxt := upd s.nxt (.sent l) none, prv := upd s.prv (.sent l) none, live := upd s.live (.sent l) true,
                      size := upd s.size l 0 }
    linkNext s (.sent l) (.sent l)

/-- `list_size_` of an existing list (estl/list.hpp:410-412, 477). -/
def getSize (s : St α) (l : Slot) : Res Nat := if s.live (.sent l) then .ok (s.size l) else .ub

/-- `emplace_back`, estl/list.hpp:360-366; `push_back` (297-303) calls it. -/
def emplaceBack (s : St α) (l : Slot) (v : α) : Res (St α) := do
  let n ← getSize s l
  let (p, s) := createNode s v
  let s ← linkPrv s (.sent l) p
  .ok (setSize s l (n + 1))

/-- `emplace_front`, estl/list.hpp:368-374; `push_front` (290-295) calls it. -/
def emplaceFront (s : St α) (l : Slot) (v : α) : Res (St α) := do
  let n ← getSize s l
  let (p, s) := createNode s v
  let s ← linkNext s (.sent l) p
  .ok (setSize s l (n + 1))

/-- `insert`, estl/list.hpp:305-317; returns the new position. -/
def insert (s : St α) (l : Slot) (pos : Addr) (v : α) : Res (St α × Addr) := do
  let n ← getSize s l
  let (p, s) := createNode s v
  let s ← linkPrv s pos p
  .ok (setSize s l (n + 1), p)

/-- `erase(pos)`, estl/list.hpp:319-325; returns the next position. -/
def erase (lax : Bool) (s : St α) (l : Slot) (pos : Addr) : Res (St α × Addr) := do
  let n ← getSize s l
  let next ← getNext lax s pos
  let s ← unlink s pos
  let s := setSize s l (n - 1)
  let s ← destroyNode s pos
  let next ← nonNull next
  .ok (s, next)

/-- The loop of `erase(first, last)`, estl/list.hpp:331-336; returns the number of nodes
deleted. -/
def eraseLoop (lax : Bool) : Nat → St α → Option Addr → Addr → Nat → Res (St α × Nat)
  | 0, _, _, _, _ => .oof
  | fuel + 1, s, cur, last, n =>
    if cur = some last then .ok (s, n)
    else do
      let c ← nonNull cur
      let tmp ← getNext lax s c
      let s ← destroyNode s c
      eraseLoop lax fuel s tmp last (n + 1)

/-- `erase(first, last)`, estl/list.hpp:327-340. -/
def eraseRange (lax : Bool) (fuel : Nat) (s : St α) (l : Slot) (first last : Addr) : Res (St α × Addr) := do
  let size ← getSize s l
  let prv ← getPrv lax s first
  let prv ← nonNull prv
  let s ← unlinkNext s prv
  let (s, n) ← eraseLoop lax fuel s (some first) last 0
  let s ← linkNext s prv last
  .ok (setSize s l (size - n), last)

/-- `pop_back`, estl/list.hpp:342-349. -/
def popBack (lax : Bool) (s : St α) (l : Slot) : Res (St α) := do
  let n ← getSize s l
  if n = 0 then .ok s
  else do
    let p ← getPrv lax s (.sent l)
    let p ← nonNull p
    let s ← unlink s p
    let s ← destroyNode s p
    .ok (setSize s l (n - 1))

/-- `pop_front`, estl/list.hpp:351-358. -/
def popFront (lax : Bool) (s : St α) (l : Slot) : Res (St α) := do
  let n ← getSize s l
  if n = 0 then .ok s
  else do
    let p ← getNext lax s (.sent l)
    let p ← nonNull p
    let s ← unlink s p
    let s ← destroyNode s p
    .ok (setSize s l (n - 1))

/-- `swap`, estl/list.hpp:414-441. -/
def swap (lax : Bool) (s : St α) (this rhs : Slot) : Res (St α) := do
  let rhsNext ← getNext lax s (.sent rhs)
  let rhsPrv ← getPrv lax s (.sent rhs)
  let lhsNext ← getNext lax s (.sent this)
  let lhsPrv ← getPrv lax s (.sent this)
  let s ← unlinkNext s (.sent rhs)
  let s ← unlinkPrv s (.sent rhs)
  let s ← unlinkNext s (.sent this)
  let s ← unlinkPrv s (.sent this)
  let n ← getSize s rhs
  let s ← (if n ≠ 0 then do
      let q ← nonNull rhsNext
      let s ← linkNext s (.sent this) q
      let q ← nonNull rhsPrv
      linkPrv s (.sent this) q
    else linkNext s (.sent this) (.sent this) : Res (St α))
  let m ← getSize s this
  let s ← (if m ≠ 0 then do
      let q ← nonNull lhsNext
      let s ← linkNext s (.sent rhs) q
      let q ← nonNull lhsPrv
      linkPrv s (.sent rhs) q
    else linkNext s (.sent rhs) (.sent rhs) : Res (St α))
  .ok (setSize (setSize s this n) rhs m)

/-- The loop of `clear`, estl/list.hpp:454-458. -/
def clearLoop (lax : Bool) : Nat → St α → Option Addr → Res (St α)
  | 0, _, _ => .oof
  | fuel + 1, s, cur =>
    match cur with
    | none => .ok s
    | some c => do
      let tmp ← getNext lax s c
      let s ← destroyNode s c
      clearLoop lax fuel s tmp

/-- `clear`, estl/list.hpp:443-460. -/
def clear (lax : Bool) (fuel : Nat) (s : St α) (l : Slot) : Res (St α) := do
  let n ← getSize s l
  if n = 0 then .ok s
  else do
    let first ← getNext lax s (.sent l)
    let _last ← getPrv lax s (.sent l)
    let s ← unlinkPrv s (.sent l)
    let s ← unlinkNext s (.sent l)
    let s ← linkNext s (.sent l) (.sent l)
    let s ← linkPrv s (.sent l) (.sent l)
    let s ← clearLoop lax fuel s first
    .ok (setSize s l 0)

/-- `~list()`, estl/list.hpp:462-464, and the end of the lifetime of the sentinel. -/
def dtor (lax : Bool) (fuel : Nat) (s : St α) (l : Slot) : Res (St α) := do
  let s ← clear lax fuel s l
  .ok { s with live := upd s.live (.sent l) false }

/-- `push_back` of a sequence of values, as in `list(initializer_list)`, estl/list.hpp:253-258. -/
def pushAll (s : St α) (l : Slot) : List α → Res (St α)
  | [] => .ok s
  | v :: vs => do
    let s ← emplaceBack s l v
    pushAll s l vs

/-- `list(initializer_list)`, estl/list.hpp:253-258. -/
def initCtor (s : St α) (l : Slot) (vs : List α) : Res (St α) := do
  let s ← ctor s l
  pushAll s l vs

/-- `*it`, estl/list.hpp:128-134. -/
def deref (s : St α) (it : Addr) : Res α :=
  if s.live it then
    match s.val it with
    | some v => .ok v
    | none => .ub
  else .ub

/-- `begin()`, estl/list.hpp:390-396. -/
def begin (lax : Bool) (s : St α) (l : Slot) : Res Addr := do
  let n ← getNext lax s (.sent l)
  nonNull n

/-- `++it`, estl/list.hpp:140-148. -/
def incr (lax : Bool) (s : St α) (it : Addr) : Res Addr := do
  let n ← getNext lax s it
  nonNull n

/-- `--it`, estl/list.hpp:150-159. -/
def decr (lax : Bool) (s : St α) (it : Addr) : Res Addr := do
  let n ← getPrv lax s it
  nonNull n

/-- The range-for loop of `list(const list&)`, estl/list.hpp:249-251. -/
def copyLoop (lax : Bool) (l rhs : Slot) : Nat → St α → Addr → Res (St α)
  | 0, _, _ => .oof
  | fuel + 1, s, it =>
    if it = .sent rhs then .ok s
    else do
      let v ← deref s it
      let s ← emplaceBack s l v
      let it ← incr lax s it
      copyLoop lax l rhs fuel s it

/-- `list(const list&)`, estl/list.hpp:247-252. -/
def copyCtor (lax : Bool) (fuel : Nat) (s : St α) (l rhs : Slot) : Res (St α) := do
  let s ← ctor s l
  let it ← begin lax s rhs
  copyLoop lax l rhs fuel s it

/-- `list(list&&)`, estl/list.hpp:259-262. -/
def moveCtor (lax : Bool) (s : St α) (l rhs : Slot) : Res (St α) := do
  let s ← ctor s l
  swap lax s rhs l

/-- `operator=` from an lvalue, estl/list.hpp:264-267. -/
def assignCopy (lax : Bool) (fuel : Nat) (s : St α) (l rhs : Slot) : Res (St α) := do
  let s ← copyCtor lax fuel s .temp rhs
  let s ← swap lax s .temp l
  dtor lax fuel s .temp

/-- `operator=` from an rvalue, estl/list.hpp:264-267. -/
def assignMove (lax : Bool) (fuel : Nat) (s : St α) (l rhs : Slot) : Res (St α) := do
  let s ← moveCtor lax s .temp rhs
  let s ← swap lax s .temp l
  dtor lax fuel s .temp

/-- `*it = v` in the program, `operator*`, estl/list.hpp:128-130. -/
def write (s : St α) (it : Addr) (v : α) : Res (St α) := do
  let _ ← deref s it
  .ok { s with val := upd s.val it (some v) }

/-- What a program can do with its lists (numbered). In `write` the list is the one that `it`
points into, which the code does not use (estl/list.hpp:228-475). -/
inductive Op (α : Type) where
  | ctor (l : Nat)
  | init (l : Nat) (vs : List α)
  | copy (l r : Nat)
  | move (l r : Nat)
  | dtor (l : Nat)
  | asgCopy (l r : Nat)
  | asgMove (l r : Nat)
  | pushBack (l : Nat) (v : α)
  | pushFront (l : Nat) (v : α)
  | insert (l : Nat) (pos : Addr) (v : α)
  | erase (l : Nat) (pos : Addr)
  | eraseRange (l : Nat) (first last : Addr)
  | popBack (l : Nat)
  | popFront (l : Nat)
  | clear (l : Nat)
  | swap (l r : Nat)
  | write (l : Nat) (it : Addr) (v : α)

/-- No result (no code; used for estl/list.hpp). -/
def quiet (r : Res (St α)) : Res (St α × Option Addr) := do
  let s ← r
  .ok (s, none)

/-- The iterator returned is the result (no code; used for estl/list.hpp). -/
def loud (r : Res (St α × Addr)) : Res (St α × Option Addr) := do
  let (s, it) ← r
  .ok (s, some it)

/-- One call and the iterator it returns, if any; the line numbers are at the functions
called (estl/list.hpp:228-475). -/
def step (lax : Bool) (fuel : Nat) (s : St α) : Op α → Res (St α × Option Addr)
  | .ctor l => quiet (EList.ctor s (.user l))
  | .init l vs => quiet (initCtor s (.user l) vs)
  | .copy l r => quiet (copyCtor lax fuel s (.user l) (.user r))
  | .move l r => quiet (moveCtor lax s (.user l) (.user r))
  | .dtor l => quiet (EList.dtor lax fuel s (.user l))
  | .asgCopy l r => quiet (assignCopy lax fuel s (.user l) (.user r))
  | .asgMove l r => quiet (assignMove lax fuel s (.user l) (.user r))
  | .pushBack l v => quiet (emplaceBack s (.user l) v)
  | .pushFront l v => quiet (emplaceFront s (.user l) v)
  | .insert l pos v => loud (EList.insert s (.user l) pos v)
  | .erase l pos => loud (EList.erase lax s (.user l) pos)
  | .eraseRange l first last => loud (EList.eraseRange lax fuel s (.user l) first last)
  | .popBack l => quiet (EList.popBack lax s (.user l))
  | .popFront l => quiet (EList.popFront lax s (.user l))
  | .clear l => quiet (EList.clear lax fuel s (.user l))
  | .swap l r => quiet (EList.swap lax s (.user l) (.user r))
  | .write _ it v => quiet (EList.write s it v)

/-- A history of calls and the iterators returned (no code) (estl/list.hpp). -/
def run (lax : Bool) (fuel : Nat) (s : St α) : List (Op α) → Res (St α × List Addr)
  | [] => .ok (s, [])
  | o :: os => do
    let (s, r) ← step lax fuel s o
    let (s, rs) ← run lax fuel s os
    .ok (s, r.toList ++ rs)

/-- Forward iteration by the program: `for (it = begin; it != end; ++it)` collecting `*it`
(estl/list.hpp:128-166, 390-404). -/
def forwardFrom (lax : Bool) (l : Slot) : Nat → St α → Addr → Res (List α)
  | 0, _, _ => .oof
  | fuel + 1, s, it =>
    if it = .sent l then .ok []
    else do
      let v ← deref s it
      let it ← incr lax s it
      let vs ← forwardFrom lax l fuel s it
      .ok (v :: vs)

/-- Forward iteration from `begin()` (estl/list.hpp:128-166, 390-404). -/
def forward (lax : Bool) (fuel : Nat) (s : St α) (l : Slot) : Res (List α) := do
  let it ← begin lax s l
  forwardFrom lax l fuel s it

/-- Backward iteration by the program: `for (it = end; it != begin;) { --it; ... *it }`
(estl/list.hpp:128-166, 390-404). -/
def backwardFrom (lax : Bool) (l : Slot) : Nat → St α → Addr → Res (List α)
  | 0, _, _ => .oof
  | fuel + 1, s, it => do
    let b ← begin lax s l
    if it = b then .ok []
    else do
      let it ← decr lax s it
      let v ← deref s it
      let vs ← backwardFrom lax l fuel s it
      .ok (v :: vs)

/-- Backward iteration from `end()` (estl/list.hpp:128-166, 390-404). -/
def backward (lax : Bool) (fuel : Nat) (s : St α) (l : Slot) : Res (List α) :=
  if s.live (.sent l) then backwardFrom lax l fuel s (.sent l) else .ub

/-- `i++` of an `int`: undefined at the greatest value (used at estl/list.hpp:276). -/
def intSucc (i : Nat) : Res Nat := if i + 1 < 2 ^ 31 then .ok (i + 1) else .ub

/-- The loop of `operator==`, estl/list.hpp:276-283; `ne` is the `!=` of the elements. The
counter is not negative, so that the comparison of `int` with `size_t` is the one of numbers. -/
def eqLoop (lax : Bool) (ne : α → α → Bool) (s : St α) (this : Slot) : Nat → Nat → Addr → Addr → Res Bool
  | 0, _, _, _ => .oof
  | fuel + 1, i, a, b => do
    let n ← getSize s this
    if i < n then do
      let v ← deref s a
      let w ← deref s b
      if ne v w then .ok false
      else do
        let a ← incr lax s a
        let b ← incr lax s b
        let i ← intSucc i
        eqLoop lax ne s this fuel i a b
    else .ok true

/-- `operator==`, estl/list.hpp:269-284. -/
def eq (lax : Bool) (ne : α → α → Bool) (fuel : Nat) (s : St α) (this rhs : Slot) : Res Bool := do
  let n ← getSize s this
  let m ← getSize s rhs
  if n ≠ m then .ok false
  else do
    let a ← begin lax s this
    let b ← begin lax s rhs
    eqLoop lax ne s this fuel 0 a b

/-- `operator!=`, estl/list.hpp:286-288. -/
def neq (lax : Bool) (ne : α → α → Bool) (fuel : Nat) (s : St α) (this rhs : Slot) : Res Bool := do
  let b ← eq lax ne fuel s this rhs
  .ok (!b)

end Verif.EList
