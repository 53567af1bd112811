/-!
Model of concurrent use of one control block of `estl/memory.hpp` in the memory model of C++: every thread has the set of
the events that happen before its next one (sequenced before or synchronised with), every count carries what its
modifications have released.

All modifications of a count are atomic read-modify-write operations, so each reads the one before it in modification
order; they are sequentially consistent, and the order of execution here is their total order. A relaxed load
(`use_count()`) may return any value, also stale ones or later ones. `lock()` is not part of this model (see
`Verif.Model.LockRace`). A pointer reaches another thread by some means of the program that synchronises the two threads.
-/

namespace Verif.RefOrder

/-- `memory_order`, estl/atomic.hpp:5-12. -/
inductive Order where
  | relaxed | consume | acquire | release | acq_rel | seq_cst
  deriving DecidableEq, Repr

/-- Does an operation with this order acquire? (C++, for estl/atomic.hpp:5-12; `consume` is treated as `acquire` by
compilers.) -/
def Order.acquires : Order → Bool
  | .consume | .acquire | .acq_rel | .seq_cst => true
  | _ => false

/-- Does an operation with this order release? (C++, for estl/atomic.hpp:5-12.) -/
def Order.releases : Order → Bool
  | .release | .acq_rel | .seq_cst => true
  | _ => false

/-- The order of `operator++`, estl/atomic.hpp:141-143. -/
def incOrder : Order := .seq_cst

/-- The order of `operator--`, estl/atomic.hpp:157-159. -/
def decOrder : Order := .seq_cst

/-- An atomic count (estl/memory.hpp:371-372): its last value, and the events released by the release sequence that ends
with it. -/
structure Cell where
  val : BitVec 64
  rel : List Nat
  deriving DecidableEq, Repr

/-- Where a thread is in `release()` (estl/memory.hpp:449-458, 511-516). -/
inductive Pc where
  | idle
  /-- before `impl_->dispose()`, 451 -/
  | dispose
  /-- before `impl_->weak_release()`, 453 -/
  | weakRel
  /-- before `impl_->distory()`, 454, 513 -/
  | distory
  deriving DecidableEq, Repr

/-- A thread: how many `shared_ptr`s and `weak_ptr`s to the object it has (estl/memory.hpp:547, 672), where it is, and
(ghost) which events happen before its next one. -/
structure Thread where
  holds : Nat
  weaks : Nat
  pc : Pc
  view : List Nat
  deriving DecidableEq, Repr

/-- What events are: making object and block (estl/memory.hpp:415-418), a use of the object, `dispose()` (388-392), an
atomic operation on a count (333-365), `distory()` (394-396). -/
inductive Kind where
  | make | use | dispose | count | free
  deriving DecidableEq, Repr

/-- An event, with the numbers of the events that happen before it (estl/memory.hpp:326-373). -/
structure Event where
  kind : Kind
  view : List Nat
  deriving DecidableEq, Repr

/-- One control block, its object and the threads; the number of an event is its position in the log
(estl/memory.hpp:326-373). -/
structure St where
  shared : Cell
  weak : Cell
  th : List Thread
  log : List Event
  deriving DecidableEq, Repr

/-- An atomic read-modify-write operation that is event `id` of a thread: the new cell, the events that happen before it,
and the view of the thread after it. It continues the release sequence it reads from
(C++, for estl/atomic.hpp:141-159). -/
def rmw (o : Order) (f : BitVec 64 → BitVec 64) (c : Cell) (id : Nat) (view : List Nat) : Cell × List Nat × List Nat :=
  let before := if o.acquires then view ++ c.rel else view
  let after := id :: before
  (⟨f c.val, if o.releases then after ++ c.rel else c.rel⟩, before, after)

/-- What a thread can do next (uses of estl/memory.hpp:420-516). -/
inductive Act where
  /-- copy a `shared_ptr`, 420-425 -/
  | copyShared
  /-- destroy one, 449-458 -/
  | dropShared
  /-- make a `weak_ptr` of a pointer, 483-488, 495-500 -/
  | copyWeak
  /-- destroy one, 511-516 -/
  | dropWeak
  /-- use the object -/
  | use
  /-- `use_count()`, 445-447, 476-478 -/
  | useCount
  /-- go on in `release()` -/
  | cont
  /-- hand a `shared_ptr` over to thread `u` -/
  | giveShared (u : Nat)
  /-- hand a `weak_ptr` over to thread `u` -/
  | giveWeak (u : Nat)
  /-- synchronise with thread `u` -/
  | sync (u : Nat)
  deriving DecidableEq, Repr

/-- One step of thread `t`; `none` if it cannot do this (estl/memory.hpp:420-516). -/
def step (s : St) (t : Nat) (a : Act) : Option St :=
  match s.th[t]? with
  | none => none
  | some x =>
    let id := s.log.length
    match a, x.pc with
    /- `++shared_count_`, estl/memory.hpp:344-346 -/
    | .copyShared, .idle =>
      if x.holds = 0 then none
      else
        let (c, before, after) := rmw incOrder (· + 1) s.shared id x.view
        some { s with shared := c, th := s.th.set t { x with holds := x.holds + 1, view := after },
                      log := s.log ++ [⟨.count, before⟩] }
    /- `if (--shared_count_ == 0)`, estl/memory.hpp:360-362, 450 -/
    | .dropShared, .idle =>
      if x.holds = 0 then none
      else
        let (c, before, after) := rmw decOrder (· - 1) s.shared id x.view
        some { s with shared := c, log := s.log ++ [⟨.count, before⟩],
                      th := s.th.set t
                        { x with holds := x.holds - 1, view := after, pc := if c.val = 0 then .dispose else .idle } }
    /- `++weak_count_`, estl/memory.hpp:341-343 -/
    | .copyWeak, .idle =>
      if x.holds = 0 ∧ x.weaks = 0 then none
      else
        let (c, before, after) := rmw incOrder (· + 1) s.weak id x.view
        some { s with weak := c, th := s.th.set t { x with weaks := x.weaks + 1, view := after },
                      log := s.log ++ [⟨.count, before⟩] }
    /- `if (--weak_count_ == 0)`, estl/memory.hpp:363-365, 512 -/
    | .dropWeak, .idle =>
      if x.weaks = 0 then none
      else
        let (c, before, after) := rmw decOrder (· - 1) s.weak id x.view
        some { s with weak := c, log := s.log ++ [⟨.count, before⟩],
                      th := s.th.set t
                        { x with weaks := x.weaks - 1, view := after, pc := if c.val = 0 then .distory else .idle } }
    /- `*p`, estl/memory.hpp:634-640 -/
    | .use, .idle =>
      if x.holds = 0 then none
      else some { s with th := s.th.set t { x with view := id :: x.view }, log := s.log ++ [⟨.use, x.view⟩] }
    /- a relaxed load, estl/memory.hpp:333-335 -/
    | .useCount, .idle =>
      if x.holds = 0 ∧ x.weaks = 0 then none
      else some { s with th := s.th.set t { x with view := id :: x.view }, log := s.log ++ [⟨.count, x.view⟩] }
    /- `impl_->dispose()`, estl/memory.hpp:451 -/
    | .cont, .dispose =>
      some { s with th := s.th.set t { x with view := id :: x.view, pc := .weakRel }, log := s.log ++ [⟨.dispose, x.view⟩] }
    /- `if (impl_->weak_release() == 0)`, estl/memory.hpp:453 -/
    | .cont, .weakRel =>
      let (c, before, after) := rmw decOrder (· - 1) s.weak id x.view
      some { s with weak := c, log := s.log ++ [⟨.count, before⟩],
                    th := s.th.set t { x with view := after, pc := if c.val = 0 then .distory else .idle } }
    /- `impl_->distory()`, estl/memory.hpp:454, 513 -/
    | .cont, .distory =>
      some { s with th := s.th.set t { x with view := id :: x.view, pc := .idle }, log := s.log ++ [⟨.free, x.view⟩] }
    /- hand-over of a pointer (move, 431-434), by means of the program -/
    | .giveShared u, .idle =>
      match s.th[u]? with
      | none => none
      | some y =>
        if x.holds = 0 ∨ t = u then none
        else some { s with th := (s.th.set t { x with holds := x.holds - 1 }).set u
                                   { y with holds := y.holds + 1, view := y.view ++ x.view } }
    | .giveWeak u, .idle =>
      match s.th[u]? with
      | none => none
      | some y =>
        if x.weaks = 0 ∨ t = u then none
        else some { s with th := (s.th.set t { x with weaks := x.weaks - 1 }).set u
                                   { y with weaks := y.weaks + 1, view := y.view ++ x.view } }
    /- any other synchronisation in the program -/
    | .sync u, _ =>
      match s.th[u]? with
      | none => none
      | some y => some { s with th := s.th.set u { y with view := y.view ++ x.view } }
    | _, _ => none

/-- An execution: which thread does what, in order (uses of estl/memory.hpp:420-516). -/
def run (s : St) : List (Nat × Act) → Option St
  | [] => some s
  | (t, a) :: as => (step s t a).bind fun s' => run s' as

/-- Thread 0 has just made the object and holds the only `shared_ptr`; `n` other threads (estl/memory.hpp:330-331). -/
def start (n : Nat) : St :=
  ⟨⟨1, []⟩, ⟨1, []⟩, ⟨1, 0, .idle, [0]⟩ :: List.replicate n ⟨0, 0, .idle, []⟩, [⟨.make, []⟩]⟩

end Verif.RefOrder
