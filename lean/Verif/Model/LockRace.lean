/-!
Model of concurrent use of one control block of `estl/memory.hpp`: any number of threads
copy, drop and lock pointers to one object. Every access to `shared_count_` is a step of
its own.

Simplifications: each thread holds a `weak_ptr`, so the control block stays; the weak
count is left out; `shared_count_` accesses are sequentially consistent (the code asks for
less in `lock`, which allows more behaviours, not fewer).
-/

set_option backward.isDefEq.respectTransparency false

namespace Verif.LockRace

/-- A thread: how many `shared_ptr`s to the object it holds (estl/memory.hpp:547), and, if
it is inside `lock()` (348-358), the value of `count` and (ghost) how often its
compare-exchange succeeded. -/
structure Thread where
  holds : Nat
  pc : Option (BitVec 64 × Nat)
  deriving DecidableEq, Repr

/-- `shared_count_` (estl/memory.hpp:371), whether `dispose()` ran (388-392), and the
threads. Ghost `adds`: for each `lock()` that returned true, the number of its successful
compare-exchanges, i.e. of the references it added. -/
structure St where
  cell : BitVec 64
  disposed : Bool
  th : List Thread
  adds : List Nat
  deriving DecidableEq, Repr

/-- What a thread can do next: copy a pointer (estl/memory.hpp:420-425), drop one (449-458),
start `lock()` with the load (349), or go through the loop of `lock()` once (351-355);
`compare_exchange_weak` may fail spuriously. -/
inductive Act where
  | copy
  | drop
  | load
  | cas (spurious : Bool)
  deriving DecidableEq, Repr

/-- One step of thread `t`; `none` if it cannot do this (estl/memory.hpp:344-362, 450-451). -/
def step (s : St) (t : Nat) (a : Act) : Option St :=
  match s.th[t]? with
  | none => none
  | some x =>
    match a, x.pc with
    /- `++shared_count_`, estl/memory.hpp:344-346; needs a pointer to copy -/
    | .copy, none =>
      if x.holds = 0 then none
      else some { s with cell := s.cell + 1, th := s.th.set t { x with holds := x.holds + 1 } }
    /- `if (--shared_count_ == 0) dispose()`, estl/memory.hpp:450-451 -/
    | .drop, none =>
      if x.holds = 0 then none
      else
        let n := s.cell - 1
        some { s with cell := n, disposed := s.disposed || n == 0, th := s.th.set t { x with holds := x.holds - 1 } }
    /- `count = shared_count_.load()`, estl/memory.hpp:349 -/
    | .load, none => some { s with th := s.th.set t { x with pc := some (s.cell, 0) } }
    /- estl/memory.hpp:351-357: return false on 0; loop again if the exchange succeeded;
    return true (making a `shared_ptr`, 653-655) if it failed -/
    | .cas sp, some (c, k) =>
      if c = 0 then some { s with th := s.th.set t { x with pc := none } }
      else if s.cell = c ∧ sp = false then
        some { s with cell := c + 1, th := s.th.set t { x with pc := some (c, k + 1) } }
      else some { s with th := s.th.set t { holds := x.holds + 1, pc := none }, adds := k :: s.adds }
    | _, _ => none

/-- An interleaving: which thread does what, in order (no code) (estl/memory.hpp). -/
def run (s : St) : List (Nat × Act) → Option St
  | [] => some s
  | (t, a) :: as => (step s t a).bind fun s' => run s' as

/-- The object has just been made and thread 0 holds the only `shared_ptr`; the other `n`
threads have `weak_ptr`s (estl/memory.hpp:330-331). -/
def start (n : Nat) : St := ⟨1, false, ⟨1, none⟩ :: List.replicate n ⟨0, none⟩, []⟩

/-- How many `shared_ptr`s exist (no code) (estl/memory.hpp). -/
def total (s : St) : Nat := (s.th.map (·.holds)).sum

end Verif.LockRace
