import Verif.Base.Res

/-!
Model of the smart pointers of `estl/memory.hpp`: `unique_ptr`, `shared_ptr`,
`weak_ptr`, `enable_shared_from_this`, with `shared_count`, `weak_count`,
`count_base`, `count_impl` and `default_deleter`.

A state holds all pointer objects ("slots": variables and data members alike), all
objects made with `new` (with the list of their pointer members) and all control
blocks. Destroying an object destroys its pointer members, which may release further
objects, and so on: pending calls are a stack of `Work` items, so that the same
semantics serves for one thread (one stack) and for the interleaving of many.

Simplifications: `default_deleter` only (stateless); `new` never fails; objects and
control blocks get fresh identities (addresses are not reused); a destructor of a
managed object does nothing but destroy its pointer members; the accesses of one
operation to slots happen together with its atomic read-modify-write (a slot is used by
one thread at a time, memory orders are those of the code: all read-modify-writes used
here are sequentially consistent, estl/atomic.hpp:141-161).
-/

set_option backward.isDefEq.respectTransparency false

namespace Verif.SmartPtr

/-- Identity of an object made with `new`, estl/memory.hpp:268, 782. -/
scoped macro "Obj" : term => `(Nat)
/-- Identity of a control block made with `new count_impl`, estl/memory.hpp:418. -/
scoped macro "Blk" : term => `(Nat)
/-- Identity of a pointer object (a variable or a member). Not in the source: the storage
of `unique_ptr`/`shared_ptr`/`weak_ptr` objects, estl/memory.hpp:91, 547, 672. -/
scoped macro "Slot" : term => `(Nat)

/-- Contents of a pointer object. `uniq none` is an indeterminate pointer value:
`unique_ptr() {}` (estl/memory.hpp:97) default-initialises the tuple, whose
`tuple_value() = default` leaves the pointer without a value (estl/tuple.hpp:39, 58).
`unique_ptr_impl`: estl/memory.hpp:87; `shared_ptr::ptr_, refcount_`: 667-668;
`weak_ptr::ptr_, refcount_`: 726-727. -/
inductive Ptr where
  | uniq (p : Option (Option Obj))
  | shared (p : Option Obj) (c : Option Blk)
  | weak (p : Option Obj) (c : Option Blk)
  deriving DecidableEq, Repr

/-- A control block: `count_base::shared_count_, weak_count_` (estl/memory.hpp:371-372)
and `count_impl::ptr_` (399). -/
structure Ctrl where
  shared : BitVec 64
  weak : BitVec 64
  ptr : Option Obj
  deriving DecidableEq, Repr

/-- The memory: live pointer objects, live objects with their pointer members, live
control blocks (estl/memory.hpp:91-728). `raw`, `managed`, `deleted`, `freed` are ghost
fields: raw pointers nobody adopted yet, the object each control block was made for, and
the log of deletions. -/
structure State where
  slot : Slot → Option Ptr
  obj : Obj → Option (List Slot)
  ctrl : Blk → Option Ctrl
  nobj : Nat
  nblk : Nat
  raw : Obj → Bool
  managed : Blk → Option Obj
  deleted : List Obj
  freed : List Blk

/-- Program start: no pointer, no object (no code; start state of histories over
estl/memory.hpp). -/
def init : State where
  slot _ := none
  obj _ := none
  ctrl _ := none
  nobj := 0
  nblk := 0
  raw _ := false
  managed _ := none
  deleted := []
  freed := []

/-- Update of a map at one point; used for every assignment to a member of
estl/memory.hpp:91-728. -/
def upd {α : Type} (f : Nat → α) (i : Nat) (v : α) : Nat → α := fun j => if j = i then v else f j

/-- Assignment to a pointer object (e.g. estl/memory.hpp:157-158, 561, 607-608). -/
def setSlot (s : State) (i : Slot) (v : Option Ptr) : State := { s with slot := upd s.slot i v }

/-- Assignment to a control block's counters (estl/memory.hpp:341-346, 360-365). -/
def setCtrl (s : State) (b : Blk) (c : Option Ctrl) : State := { s with ctrl := upd s.ctrl b c }

/-- A pending call.
* `relS b`: `shared_count::release` with `impl_ == b` (estl/memory.hpp:449-458);
* `disp b`: the rest of it after the count reached 0: `impl_->dispose()` and what follows
  (450-456);
* `relW b`: `weak_release() == 0` and `distory()` (453-455 in `shared_count::release`,
  511-516 in `weak_count::release`);
* `del o`: `delete ptr` (default_deleter, 23);
* `dtor i`: the destructor of pointer object `i` (116-121, 460-462, 526-528);
* `resetFin i p`: line 618 of `reset(ptr)`, after the old object was released;
* `conv i p c`: lines 596-597 and the end of the converting `operator=`, whose by-value
  parameter holds `p` and `c`. -/
inductive Work where
  | relS (b : Blk)
  | relW (b : Blk)
  | disp (b : Blk)
  | del (o : Obj)
  | dtor (i : Slot)
  | resetFin (i : Slot) (p : Option Obj)
  | conv (i : Slot) (p : Option Obj) (c : Option Blk)
  deriving DecidableEq, Repr

/-- The destructor of a `shared_count` with this `impl_`: nothing if null,
estl/memory.hpp:450, 460-462. -/
def relOpt : Option Blk → List Work
  | none => []
  | some b => [.relS b]

/-- The destructor of a `weak_count` with this `impl_`, estl/memory.hpp:512, 526-528. -/
def relWOpt : Option Blk → List Work
  | none => []
  | some b => [.relW b]

/-- `if (p != pointer()) get_deleter()(p)`, estl/memory.hpp:118-119, 164-165. -/
def delOpt : Option Obj → List Work
  | none => []
  | some o => [.del o]

/-- Read a `shared_ptr` object; `ub` if there is none at `i` (it was destroyed),
estl/memory.hpp:667-668. -/
def getS (s : State) (i : Slot) : Res (Option Obj × Option Blk) :=
  match s.slot i with
  | some (.shared p c) => .ok (p, c)
  | _ => .ub

/-- Read a `weak_ptr` object, estl/memory.hpp:726-727. -/
def getW (s : State) (i : Slot) : Res (Option Obj × Option Blk) :=
  match s.slot i with
  | some (.weak p c) => .ok (p, c)
  | _ => .ub

/-- Read the pointer of a `unique_ptr` (`impl_.ptr()`), estl/memory.hpp:73-78; `ub` if the
value is indeterminate. -/
def getU (s : State) (i : Slot) : Res (Option Obj) :=
  match s.slot i with
  | some (.uniq (some p)) => .ok p
  | _ => .ub

/-- `if (impl_) impl_->copy_shared_ref()`, estl/memory.hpp:344-346, 420-425; an atomic
increment modulo 2^64. Access to a freed control block is undefined. -/
def incS (s : State) : Option Blk → Res State
  | none => .ok s
  | some b =>
    match s.ctrl b with
    | none => .ub
    | some c => .ok (setCtrl s b (some { c with shared := c.shared + 1 }))

/-- `if (impl_) impl_->copy_weak_ref()`, estl/memory.hpp:341-343, 483-488, 495-500. -/
def incW (s : State) : Option Blk → Res State
  | none => .ok s
  | some b =>
    match s.ctrl b with
    | none => .ub
    | some c => .ok (setCtrl s b (some { c with weak := c.weak + 1 }))

/-- `new count_impl<T, D>(ptr, d)`: both counts 1 (estl/memory.hpp:330-331, 382-386,
416-418). The ghost `raw` mark of the adopted object is removed. -/
def newBlk (s : State) (p : Option Obj) : State :=
  { s with
    ctrl := upd s.ctrl s.nblk (some ⟨1, 1, p⟩)
    managed := upd s.managed s.nblk p
    nblk := s.nblk + 1
    raw := fun o => if p = some o then false else s.raw o }

/-- One step of a pending call: the new state and the calls it makes, in order
(estl/memory.hpp:330-470). -/
def micro (s : State) : Work → Res (State × List Work)
  /- estl/memory.hpp:450: `--shared_count_` is one atomic operation; its result decides. -/
  | .relS b =>
    match s.ctrl b with
    | none => .ub
    | some c =>
      let n := c.shared - 1
      .ok (setCtrl s b (some { c with shared := n }), if n = 0 then [.disp b] else [])
  /- estl/memory.hpp:451, 388-392: `if (ptr_) deleter_(ptr_)`, then 453. -/
  | .disp b =>
    match s.ctrl b with
    | none => .ub
    | some c => .ok (s, delOpt c.ptr ++ [.relW b])
  /- estl/memory.hpp:453-455, 512-514, 394-396: `delete this` when the count reaches 0. -/
  | .relW b =>
    match s.ctrl b with
    | none => .ub
    | some c =>
      let n := c.weak - 1
      if n = 0 then .ok ({ setCtrl s b none with freed := b :: s.freed }, [])
      else .ok (setCtrl s b (some { c with weak := n }), [])
  /- estl/memory.hpp:23: `delete ptr`; deleting twice is undefined. The members are
  destroyed in reverse order. -/
  | .del o =>
    match s.obj o with
    | none => .ub
    | some ms => .ok ({ s with obj := upd s.obj o none, deleted := o :: s.deleted }, ms.reverse.map .dtor)
  /- estl/memory.hpp:116-121, 460-462, 526-528. -/
  | .dtor i =>
    match s.slot i with
    | none => .ub
    | some (.uniq none) => .ub
    | some (.uniq (some p)) => .ok (setSlot s i none, delOpt p)
    | some (.shared _ c) => .ok (setSlot s i none, relOpt c)
    | some (.weak _ c) => .ok (setSlot s i none, relWOpt c)
  /- estl/memory.hpp:618: `ptr_ = ptr`. -/
  | .resetFin i p => do
    let (_, c) ← getS s i
    .ok (setSlot s i (some (.shared p c)), [])
  /- estl/memory.hpp:596-597: `ptr_ = rhs.ptr_; refcount_ = rhs.refcount_;` (the latter
  copies and swaps, 436-439), then the parameter is destroyed. -/
  | .conv i p c => do
    let (_, a) ← getS s i
    let s1 ← incS s c
    .ok (setSlot s1 i (some (.shared p c)), relOpt a ++ relOpt c)

/-- `count_base::lock`, the loop of estl/memory.hpp:351-357, run without interference:
`cell` is `shared_count_`, `count` the local variable. A successful
`compare_exchange_weak` continues the loop (the condition is not negated), a failing one
loads `cell` into `count` and leaves it. -/
def lockLoop : Nat → BitVec 64 → BitVec 64 → Res (BitVec 64 × Bool)
  | 0, _, _ => .oof
  | f + 1, count, cell =>
    if count = 0 then .ok (cell, false)
    else if cell = count then lockLoop f count (count + 1)
    else .ok (cell, true)

/-- Kind of a pointer member of a class, estl/memory.hpp:91, 547, 672. -/
inductive Kind where
  | u | s | w
  deriving DecidableEq, Repr

/-- A null pointer object of the given kind: `unique_ptr(nullptr)` (estl/memory.hpp:99-100),
`shared_ptr()` (553-554), `weak_ptr()` (678-679). -/
def Kind.null : Kind → Ptr
  | .u => .uniq (some none)
  | .s => .shared none none
  | .w => .weak none none

/-- What a program can do with smart pointers (estl/memory.hpp:91-728). -/
inductive Op where
  | newObj (ms : List (Slot × Kind))
  | delObj (o : Obj)
  | uDefault (i : Slot)
  | uNew (i : Slot) (p : Option Obj)
  | uMove (i j : Slot)
  | uAssign (i j : Slot)
  | uReset (i : Slot) (p : Option Obj)
  | uRelease (i : Slot)
  | uSwap (i j : Slot)
  | sNull (i : Slot)
  | sNew (i : Slot) (p : Option Obj) (weakThis : Option Slot)
  | sCopy (i j : Slot)
  | sMove (i j : Slot)
  | sAssign (i j : Slot)
  | sAssignMove (i j : Slot)
  | sConv (i j : Slot)
  | sReset (i : Slot)
  | sResetTo (i : Slot) (p : Option Obj)
  | sSwap (i j : Slot)
  | wNull (i : Slot)
  | wCopy (i j : Slot)
  | wOfS (i j : Slot)
  | wMove (i j : Slot)
  | wAssign (i j : Slot)
  | wAssignMove (i j : Slot)
  | wAssignS (i j : Slot)
  | wSwap (i j : Slot)
  | sLock (i w : Slot)
  | destroy (i : Slot)
  deriving DecidableEq, Repr

/-- The ghost mark of an adopted raw pointer is removed (no code) (used for estl/memory.hpp). -/
def unraw (s : State) (p : Option Obj) : State :=
  { s with raw := fun o => if p = some o then false else s.raw o }

/-- Ghost mark of a pointer handed out by `release` (no code) (used for estl/memory.hpp). -/
def mkraw (s : State) (p : Option Obj) : State :=
  { s with raw := fun o => if p = some o then true else s.raw o }

/-- Member pointers of a new object start as null pointers, estl/memory.hpp:553, 678. -/
def setMembers (slot : Slot → Option Ptr) : List (Slot × Kind) → Slot → Option Ptr
  | [] => slot
  | (i, k) :: ms => upd (setMembers slot ms) i (some k.null)

/-- An operation up to (and excluding) the calls that release old values, which are
returned. `f` is fuel for the loop in `lock` (estl/memory.hpp:60-809). -/
def exec (f : Nat) (s : State) : Op → Res (State × List Work)
  /- `new T(...)`, estl/memory.hpp:268, 782 -/
  | .newObj ms =>
    .ok ({ s with slot := setMembers s.slot ms
                  obj := upd s.obj s.nobj (some (ms.map (·.1)))
                  raw := upd s.raw s.nobj true
                  nobj := s.nobj + 1 }, [])
  /- `delete p` in the client -/
  | .delObj o => .ok ({ s with raw := upd s.raw o false }, [.del o])
  /- `unique_ptr()`, estl/memory.hpp:97 -/
  | .uDefault i => .ok (setSlot s i (some (.uniq none)), [])
  /- `unique_ptr(pointer)`, estl/memory.hpp:66-68, 99-100 -/
  | .uNew i p => .ok (setSlot (unraw s p) i (some (.uniq (some p))), [])
  /- `unique_ptr(unique_ptr&&)`, estl/memory.hpp:113-114, 156-160 -/
  | .uMove i j => do
    let p ← getU s j
    .ok (setSlot (setSlot s j (some (.uniq (some none)))) i (some (.uniq (some p))), [])
  /- `operator=(unique_ptr&&)`, estl/memory.hpp:123-127: `reset(p.release())`. The
  assignment of the (empty) deleter afterwards touches no memory. -/
  | .uAssign i j => do
    let p ← getU s j
    let s1 := setSlot s j (some (.uniq (some none)))
    let old ← getU s1 i
    .ok (setSlot s1 i (some (.uniq (some p))), delOpt old)
  /- `reset(p)`, estl/memory.hpp:162-166 -/
  | .uReset i p => do
    let old ← getU s i
    .ok (setSlot (unraw s p) i (some (.uniq (some p))), delOpt old)
  /- `release()`, estl/memory.hpp:156-160 -/
  | .uRelease i => do
    let p ← getU s i
    .ok (mkraw (setSlot s i (some (.uniq (some none)))) p, [])
  /- `swap`, estl/memory.hpp:168-170 (tuple swap, see Model/Traits) -/
  | .uSwap i j => do
    let p ← getU s i
    let q ← getU s j
    .ok (setSlot (setSlot s i (some (.uniq (some q)))) j (some (.uniq (some p))), [])
  /- `shared_ptr()`, estl/memory.hpp:553-554 -/
  | .sNull i => .ok (setSlot s i (some (.shared none none)), [])
  /- `shared_ptr(T*)`, estl/memory.hpp:564-568, with `construct_shared_from_this`
  (657-664): `M_weak_this_ = *this` if the class has one. -/
  | .sNew i p wt => do
    let b := s.nblk
    let s1 := setSlot (newBlk s p) i (some (.shared p (some b)))
    match p, wt with
    | some o, some w =>
      let s2 ← incW s1 (some b)
      let (_, a) ← getW s2 w
      .ok (setSlot s2 w (some (.weak (some o) (some b))), relWOpt a)
    | _, _ => .ok (s1, [])
  /- copy constructor, estl/memory.hpp:556-557, 420-425 -/
  | .sCopy i j => do
    let (p, c) ← getS s j
    let s1 ← incS s c
    .ok (setSlot s1 i (some (.shared p c)), [])
  /- move constructor, estl/memory.hpp:559-562, 431-434 -/
  | .sMove i j => do
    let (p, c) ← getS s j
    .ok (setSlot (setSlot s j (some (.shared none none))) i (some (.shared p c)), [])
  /- `i = j`, estl/memory.hpp:588-591: copy into the parameter, swap, destroy it -/
  | .sAssign i j => do
    let (p, c) ← getS s j
    let s1 ← incS s c
    let (_, a) ← getS s1 i
    .ok (setSlot s1 i (some (.shared p c)), relOpt a)
  /- `i = move(j)`, estl/memory.hpp:588-591 -/
  | .sAssignMove i j => do
    let (p, c) ← getS s j
    let s1 := setSlot s j (some (.shared none none))
    let (_, a) ← getS s1 i
    .ok (setSlot s1 i (some (.shared p c)), relOpt a)
  /- `i = j` with `j` a `shared_ptr<U>`, estl/memory.hpp:593-599: `reset()` first -/
  | .sConv i j => do
    let (p, c) ← getS s j
    let s1 ← incS s c
    let (_, a) ← getS s1 i
    .ok (setSlot s1 i (some (.shared none none)), relOpt a ++ [.conv i p c])
  /- `reset()`, estl/memory.hpp:621-624; `= nullptr` (601-604) is the same -/
  | .sReset i => do
    let (_, a) ← getS s i
    .ok (setSlot s i (some (.shared none none)), relOpt a)
  /- `reset(ptr)`, estl/memory.hpp:615-619: the temporary `shared_count` is destroyed before
  `ptr_` is set -/
  | .sResetTo i p => do
    let (q, a) ← getS s i
    .ok (setSlot (newBlk s p) i (some (.shared q (some s.nblk))), relOpt a ++ [.resetFin i p])
  /- `swap`, estl/memory.hpp:606-609 -/
  | .sSwap i j => do
    let (p, c) ← getS s i
    let (q, d) ← getS s j
    .ok (setSlot (setSlot s i (some (.shared q d))) j (some (.shared p c)), [])
  /- `weak_ptr()`, estl/memory.hpp:678-679 -/
  | .wNull i => .ok (setSlot s i (some (.weak none none)), [])
  /- copy constructor, estl/memory.hpp:681-682, 483-488 -/
  | .wCopy i j => do
    let (p, c) ← getW s j
    let s1 ← incW s c
    .ok (setSlot s1 i (some (.weak p c)), [])
  /- `weak_ptr(const shared_ptr&)`, estl/memory.hpp:689-695, 495-500 -/
  | .wOfS i j => do
    let (p, c) ← getS s j
    let s1 ← incW s c
    .ok (setSlot s1 i (some (.weak p c)), [])
  /- move constructor, estl/memory.hpp:684-687, 490-493 -/
  | .wMove i j => do
    let (p, c) ← getW s j
    .ok (setSlot (setSlot s j (some (.weak none none))) i (some (.weak p c)), [])
  /- `i = j`, estl/memory.hpp:709-712 -/
  | .wAssign i j => do
    let (p, c) ← getW s j
    let s1 ← incW s c
    let (_, a) ← getW s1 i
    .ok (setSlot s1 i (some (.weak p c)), relWOpt a)
  /- `i = move(j)`, estl/memory.hpp:709-712 -/
  | .wAssignMove i j => do
    let (p, c) ← getW s j
    let s1 := setSlot s j (some (.weak none none))
    let (_, a) ← getW s1 i
    .ok (setSlot s1 i (some (.weak p c)), relWOpt a)
  /- `i = j` with `j` a `shared_ptr`: converted first, estl/memory.hpp:689, 709-712 -/
  | .wAssignS i j => do
    let (p, c) ← getS s j
    let s1 ← incW s c
    let (_, a) ← getW s1 i
    .ok (setSlot s1 i (some (.weak p c)), relWOpt a)
  /- `swap`, estl/memory.hpp:714-717 -/
  | .wSwap i j => do
    let (p, c) ← getW s i
    let (q, d) ← getW s j
    .ok (setSlot (setSlot s i (some (.weak q d))) j (some (.weak p c)), [])
  /- `shared_ptr<T> i = w.lock()`, estl/memory.hpp:705-707, 522-524, 348-358. On success
  the new pointer takes over the count added by `lock` (427-429, 653-655); otherwise
  `nullptr` is converted by `shared_ptr(T*)` (564-568), which makes a control block. -/
  | .sLock i w => do
    let (p, c) ← getW s w
    match c with
    | none => .ok (setSlot (newBlk s none) i (some (.shared none (some s.nblk))), [])
    | some b =>
      match s.ctrl b with
      | none => .ub
      | some k =>
        let (cell, r) ← lockLoop f k.shared k.shared
        let s1 := setCtrl s b (some { k with shared := cell })
        if r then .ok (setSlot s1 i (some (.shared p (some b))), [])
        else .ok (setSlot (newBlk s1 none) i (some (.shared none (some s1.nblk))), [])
  /- end of lifetime of a variable -/
  | .destroy i => .ok (s, [.dtor i])

/-- `use_count()` of a `shared_ptr` or `weak_ptr`, estl/memory.hpp:445-447, 476-478, 611-613,
701-703. -/
def useCount (s : State) (i : Slot) : Res (BitVec 64) :=
  let cnt : Option Blk → Res (BitVec 64)
    | none => .ok 0
    | some b => match s.ctrl b with
      | none => .ub
      | some c => .ok c.shared
  match s.slot i with
  | some (.shared _ c) => cnt c
  | some (.weak _ c) => cnt c
  | _ => .ub

/-- `get()`, estl/memory.hpp:140-142, 630-632. -/
def getPtr (s : State) (i : Slot) : Res (Option Obj) :=
  match s.slot i with
  | some (.shared p _) => .ok p
  | some (.uniq (some p)) => .ok p
  | _ => .ub

/-- A single thread executes its pending calls to the end (no code: the call stack of
estl/memory.hpp:91-728). `f` is fuel. -/
def drain : Nat → State → List Work → Res State
  | _, s, [] => .ok s
  | 0, _, _ :: _ => .oof
  | f + 1, s, w :: W => do
    let (s', push) ← micro s w
    drain f s' (push ++ W)

/-- A complete operation of a single-threaded program: `exec` and the calls it makes
(estl/memory.hpp:91-728). -/
def call (f : Nat) (s : State) (o : Op) : Res State := do
  let (s', push) ← exec f s o
  drain f s' push

/-- A sequence of operations of a single-threaded program (no code) (estl/memory.hpp). -/
def calls (f : Nat) (s : State) : List Op → Res State
  | [] => .ok s
  | o :: os => do
    let s' ← call f s o
    calls f s' os

/-- `expired()`, estl/memory.hpp:697-699. -/
def expired (s : State) (i : Slot) : Res Bool := do
  let n ← useCount s i
  .ok (n == 0)

/-- The pending call `w` concerns the pointer object `i`: it is being destroyed or is in
the middle of an assignment (estl/memory.hpp:116, 460, 526, 593-619). -/
def Work.busy (i : Slot) : Work → Bool
  | .dtor j => i == j
  | .resetFin j _ => i == j
  | .conv j _ _ => i == j
  | _ => false

/-- `i` is not being destroyed and in no unfinished assignment (a client rule, no code)
(users of estl/memory.hpp). -/
def Idle (W : List Work) (i : Slot) : Prop := ∀ w ∈ W, w.busy i = false

/-- `i` is a usable `unique_ptr` object (client rule, estl/memory.hpp:91). -/
def IsU (s : State) (W : List Work) (i : Slot) : Prop := (∃ p, s.slot i = some (.uniq p)) ∧ Idle W i
/-- `i` is a usable `shared_ptr` object (client rule, estl/memory.hpp:547). -/
def IsS (s : State) (W : List Work) (i : Slot) : Prop := (∃ p c, s.slot i = some (.shared p c)) ∧ Idle W i
/-- `i` is a usable `weak_ptr` object (client rule, estl/memory.hpp:672). -/
def IsW (s : State) (W : List Work) (i : Slot) : Prop := (∃ p c, s.slot i = some (.weak p c)) ∧ Idle W i
/-- No pointer object exists at `i`, one can be constructed there (client rule)
(users of estl/memory.hpp). -/
def Free (N : Nat) (s : State) (i : Slot) : Prop := i < N ∧ s.slot i = none
/-- `p` is null or a pointer to an object nobody owns (client rule: what a raw pointer
given to a smart pointer must be, estl/memory.hpp:99, 565). -/
def Raw (s : State) (p : Option Obj) : Prop := ∀ o, p = some o → s.raw o = true
/-- `i` is not a member of an existing object (client rule, no code) (users of estl/memory.hpp). -/
def Plain (s : State) (i : Slot) : Prop := ∀ o ms, s.obj o = some ms → i ∉ ms

/-- The rules a correct client keeps when it starts an operation while the calls `W` are
pending (in its own or other threads): pointer objects are used only while they exist
and are constructed only where there is none, raw pointers are adopted once, members are
destroyed only with their object. `uDefault` (whose result has no value), and `sConv`
and `sResetTo` on a member of an object, are treated apart (users of estl/memory.hpp). -/
def Legal (N : Nat) (s : State) (W : List Work) : Op → Prop
  | .newObj ms => (ms.map (·.1)).Nodup ∧ ∀ m ∈ ms, Free N s m.1
  | .delObj o => s.raw o = true
  | .uDefault _ => False
  | .uNew i p => Free N s i ∧ Raw s p
  | .uMove i j => Free N s i ∧ IsU s W j
  | .uAssign i j => IsU s W i ∧ IsU s W j
  | .uReset i p => IsU s W i ∧ Raw s p
  | .uRelease i => IsU s W i
  | .uSwap i j => IsU s W i ∧ IsU s W j
  | .sNull i => Free N s i
  | .sNew i p wt => Free N s i ∧ Raw s p ∧ ∀ w, wt = some w → IsW s W w
  | .sCopy i j => Free N s i ∧ IsS s W j
  | .sMove i j => Free N s i ∧ IsS s W j
  | .sAssign i j => IsS s W i ∧ IsS s W j
  | .sAssignMove i j => IsS s W i ∧ IsS s W j
  | .sConv i j => IsS s W i ∧ IsS s W j ∧ Plain s i
  | .sReset i => IsS s W i
  | .sResetTo i p => IsS s W i ∧ Raw s p ∧ Plain s i
  | .sSwap i j => IsS s W i ∧ IsS s W j
  | .wNull i => Free N s i
  | .wCopy i j => Free N s i ∧ IsW s W j
  | .wOfS i j => Free N s i ∧ IsS s W j
  | .wMove i j => Free N s i ∧ IsW s W j
  | .wAssign i j => IsW s W i ∧ IsW s W j
  | .wAssignMove i j => IsW s W i ∧ IsW s W j
  | .wAssignS i j => IsW s W i ∧ IsS s W j
  | .wSwap i j => IsW s W i ∧ IsW s W j
  | .sLock i w => Free N s i ∧ IsW s W w
  | .destroy i => (s.slot i).isSome ∧ Idle W i ∧ Plain s i

/-- A program with threads: the memory and each thread's stack of pending calls (no code:
interleaving of the calls of estl/memory.hpp:91-728). -/
structure Machine where
  s : State
  th : List (List Work)

/-- All pending calls of all threads (no code) (users of estl/memory.hpp). -/
def Machine.pending (m : Machine) : List Work := m.th.flatten

/-- The `N` pointer objects and the pending calls (each has a stack frame) fit into the
64-bit address space (no code) (users of estl/memory.hpp). -/
def Fits (N : Nat) (W : List Work) : Prop := N + W.length + 2 < 2 ^ 64

/-- One step of some thread in an interleaving (no code; see `Machine`):
* `work`: a thread executes the topmost pending call;
* `op`: a thread with no pending call starts an operation that keeps the client rules.
An operation `lock` runs here without interruption; see Model/LockRace for its
interleavings (users of estl/memory.hpp). -/
inductive Step (N : Nat) : Machine → Machine → Prop
  | work {s th t w rest s' push} (hfit : Fits N th.flatten) (hw : th[t]? = some (w :: rest))
      (hm : micro s w = .ok (s', push)) : Step N ⟨s, th⟩ ⟨s', th.set t (push ++ rest)⟩
  | op {s th t o f s' push} (hfit : Fits N th.flatten) (hi : th[t]? = some []) (hl : Legal N s th.flatten o)
      (he : exec f s o = .ok (s', push)) :
      Step N ⟨s, th⟩ ⟨s', th.set t push⟩

/-- The states a program of `T` threads with at most `N` pointer objects can reach (no
code; see `Step`) (users of estl/memory.hpp). -/
inductive Reach (N T : Nat) : Machine → Prop
  | start : Reach N T ⟨init, List.replicate T []⟩
  | step {m m'} : Reach N T m → Step N m m' → Reach N T m'

end Verif.SmartPtr
