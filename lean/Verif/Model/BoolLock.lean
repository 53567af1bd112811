import Verif.Model.RefOrder

/-!
Model of `atomic<bool>` (estl/atomic.hpp:268-339) in the memory model of C++: the member functions down to the builtins of
the compiler, and execution graphs over the events the builtins make (C++20 [intro.races], [atomics.order], without
fences). An execution says what each thread did, with the results it got, the modification order of the flag and
which write each read got its value from; nothing is said about timing.

Simplifications: one flag; its constructor happens before everything else; `consume` is treated as `acquire`, as compilers
do; the initial value of data is 0 and written before everything else; executions are finite (prefixes of others).
The plain and the `volatile` overload of a member function have the same body.
-/

namespace Verif.BoolLock

open Verif.RefOrder (Order)

/-- `static_cast<int>(m)`: enumerators count from 0 (estl/atomic.hpp:5-12). -/
def orderInt : Order → Nat
  | .relaxed => 0
  | .consume => 1
  | .acquire => 2
  | .release => 3
  | .acq_rel => 4
  | .seq_cst => 5

/-- `__ATOMIC_RELAXED`, … of the compiler: what an order given to a builtin means (compiler, for estl/atomic.hpp:33-82). -/
def builtinOrder : Nat → Option Order
  | 0 => some .relaxed
  | 1 => some .consume
  | 2 => some .acquire
  | 3 => some .release
  | 4 => some .acq_rel
  | 5 => some .seq_cst
  | _ => none

/-- A call of a builtin, without the address (estl/atomic.hpp:33-82): orders as numbers. -/
inductive Builtin where
  | loadN (o : Nat)
  | storeN (v : Bool) (o : Nat)
  | exchangeN (v : Bool) (o : Nat)
  | casN (expect v weak : Bool) (succ fail : Nat)
  deriving DecidableEq, Repr

/-- A call of a member of `atomic_impl<bool>` (estl/atomic.hpp:33-82, 131-139). -/
inductive Impl where
  | load (m : Order)
  | store (v : Bool) (m : Order)
  | exchange (v : Bool) (m : Order)
  | casWeak (expect v : Bool) (m1 m2 : Order)
  | casStrong (expect v : Bool) (m1 m2 : Order)
  | assign (v : Bool)
  deriving DecidableEq, Repr

/-- A call of a member of `atomic<bool>`; `none` is a defaulted order (estl/atomic.hpp:276-335). -/
inductive Call where
  | assign (v : Bool)
  | conv
  | store (v : Bool) (m : Option Order)
  | load (m : Option Order)
  | exchange (v : Bool) (m : Option Order)
  | casWeak (expect v : Bool) (m1 m2 : Order)
  | casStrong (expect v : Bool) (m1 m2 : Order)
  deriving DecidableEq, Repr

/-- The default argument of every member (estl/atomic.hpp:33-48, 291-311). -/
def order (m : Option Order) : Order := m.getD .seq_cst

/-- What a member of `atomic_impl<bool>` calls (lines given). -/
def Impl.builtin : Impl → Builtin
  /- estl/atomic.hpp:33-38 -/
  | .load m => .loadN (orderInt m)
  /- estl/atomic.hpp:39-44 -/
  | .store v m => .storeN v (orderInt m)
  /- estl/atomic.hpp:45-50 -/
  | .exchange v m => .exchangeN v (orderInt m)
  /- estl/atomic.hpp:52-66 -/
  | .casWeak e v m1 m2 => .casN e v true (orderInt m1) (orderInt m2)
  /- estl/atomic.hpp:68-82 -/
  | .casStrong e v m1 m2 => .casN e v false (orderInt m1) (orderInt m2)
  /- estl/atomic.hpp:131-139: `store(v)` -/
  | .assign v => .storeN v (orderInt (order none))

/-- What a member of `atomic<bool>` calls (lines given). -/
def Call.impl : Call → Impl
  /- estl/atomic.hpp:276-282 -/
  | .assign v => .assign v
  /- estl/atomic.hpp:284-289: `value_.load()` -/
  | .conv => .load (order none)
  /- estl/atomic.hpp:291-297 -/
  | .store v m => .store v (order m)
  /- estl/atomic.hpp:299-305 -/
  | .load m => .load (order m)
  /- estl/atomic.hpp:307-313 -/
  | .exchange v m => .exchange v (order m)
  /- estl/atomic.hpp:315-324 -/
  | .casWeak e v m1 m2 => .casWeak e v m1 m2
  /- estl/atomic.hpp:326-335 -/
  | .casStrong e v m1 m2 => .casStrong e v m1 m2

/-- What a call returns; for a compare-exchange also the value of `expect` after it (estl/atomic.hpp:276-335). -/
inductive Ret where
  | unit
  | bool (v : Bool)
  | cas (ok expect : Bool)
  deriving DecidableEq, Repr

/-- What happens to the flag (C++; made by the builtins of estl/atomic.hpp:33-82). -/
inductive Label where
  | read (o : Order) (v : Bool)
  | write (o : Order) (v : Bool)
  | rmw (o : Order) (old new : Bool)
  deriving DecidableEq, Repr

/-- Orders allowed for a load and for a failed compare-exchange (compiler, for estl/atomic.hpp:33-38, 52-82). -/
def loadOk : Order → Bool
  | .release | .acq_rel => false
  | _ => true

/-- Orders allowed for a store (compiler, for estl/atomic.hpp:39-44). -/
def storeOk : Order → Bool
  | .relaxed | .release | .seq_cst => true
  | _ => false

/-- The event made by a builtin that returned `r`; `none` if it cannot return that, or if the order is not allowed
(compiler, for estl/atomic.hpp:33-82). -/
def Builtin.label : Builtin → Ret → Option Label
  | .loadN o, .bool v => do
    let o ← builtinOrder o
    if loadOk o then some (.read o v) else none
  | .storeN v o, .unit => do
    let o ← builtinOrder o
    if storeOk o then some (.write o v) else none
  | .exchangeN v o, .bool old => do
    let o ← builtinOrder o
    some (.rmw o old v)
  | .casN e v weak s f, .cas ok e' => do
    let s ← builtinOrder s
    let f ← builtinOrder f
    if loadOk f = false then none
    else if ok then (if e' = e then some (.rmw s e v) else none)
    else if weak ∨ e' ≠ e then some (.read f e') else none
  | _, _ => none

/-- The event made by a call that returned `r`: members return what the builtin returns, `operator=` its argument
(estl/atomic.hpp:131-139, 276-335). -/
def Call.label (c : Call) (r : Ret) : Option Label :=
  match c with
  | .assign v => if r = .bool v then c.impl.builtin.label .unit else none
  | _ => c.impl.builtin.label r

/-- What a thread does: a call for the flag, or an access to plain data at `x` (users of estl/atomic.hpp:268-339). -/
inductive Act where
  | flag (c : Call) (r : Ret)
  | read (x v : Nat)
  | write (x v : Nat)
  deriving DecidableEq, Repr

/-- An event: the constructor of the flag (estl/atomic.hpp:273-274), or number `i` of thread `t`. -/
abbrev Id := Option (Nat × Nat)

/-- An execution: the argument of the constructor, what each thread did, the modification order of the flag, and where
reads of the flag and of data get their values from (users of estl/atomic.hpp:268-339). -/
structure Exec where
  init : Bool
  prog : List (List Act)
  mo : List Id
  rf : Id → Id
  rfd : Id → Id

/-- What event `x` is (users of estl/atomic.hpp:268-339). -/
def Exec.act (e : Exec) : Id → Option Act
  | none => none
  | some (t, i) => (e.prog[t]?).bind (·[i]?)

/-- What event `x` does to the flag (estl/atomic.hpp:273-335). -/
def Exec.lab (e : Exec) : Id → Option Label
  | none => some (.write .relaxed e.init)
  | some p => match e.act (some p) with
    | some (.flag c r) => c.label r
    | _ => none

/-- The value an event reads from the flag (estl/atomic.hpp:33-82). -/
def Label.reads : Label → Option Bool
  | .read _ v => some v
  | .rmw _ old _ => some old
  | .write .. => none

/-- The value an event writes to the flag (estl/atomic.hpp:33-82). -/
def Label.writes : Label → Option Bool
  | .write _ v => some v
  | .rmw _ _ new => some new
  | .read .. => none

/-- The order of an event (estl/atomic.hpp:33-82). -/
def Label.order : Label → Order
  | .write o _ | .rmw o _ _ | .read o _ => o

/-- Is it a read-modify-write operation? (estl/atomic.hpp:45-82) -/
def Label.isRmw : Label → Bool
  | .rmw .. => true
  | _ => false

/-- The value event `x` reads from the flag (estl/atomic.hpp:33-82). -/
def Exec.reads (e : Exec) (x : Id) : Option Bool := (e.lab x).bind Label.reads
/-- The value event `x` writes to the flag (estl/atomic.hpp:33-82). -/
def Exec.writes (e : Exec) (x : Id) : Option Bool := (e.lab x).bind Label.writes

/-- The release sequence headed by `a`: read-modify-write operations that follow it (C++20 [intro.races] 5, for
estl/atomic.hpp:45-82). -/
inductive RelSeq (e : Exec) (a : Id) : Id → Prop
  | head : RelSeq e a a
  | rmw {b c : Id} {l : Label} : RelSeq e a b → e.lab c = some l → l.isRmw = true → e.rf c = b → RelSeq e a c

/-- `a` synchronises with `r` (C++20 [atomics.order] 2, for estl/atomic.hpp:33-82). -/
def Sync (e : Exec) (a r : Id) : Prop :=
  ∃ la lr, e.lab a = some la ∧ la.writes.isSome ∧ la.order.releases = true ∧
    e.lab r = some lr ∧ lr.reads.isSome ∧ lr.order.acquires = true ∧ RelSeq e a (e.rf r)

/-- Happens before (C++20 [intro.races] 10, for users of estl/atomic.hpp:268-339). -/
inductive Hb (e : Exec) : Id → Id → Prop
  | init {p : Nat × Nat} {a : Act} : e.act (some p) = some a → Hb e none (some p)
  | sb {t i j : Nat} {a b : Act} : i < j → e.act (some (t, i)) = some a → e.act (some (t, j)) = some b →
      Hb e (some (t, i)) (some (t, j))
  | sync {a b : Id} : Sync e a b → Hb e a b
  | trans {a b c : Id} : Hb e a b → Hb e b c → Hb e a c

/-- `a` is before `b` in a list (orders of estl/atomic.hpp:5-12 are about such orders). -/
def Prec {α : Type} (l : List α) (a b : α) : Prop := ∃ p q r, l = p ++ a :: (q ++ b :: r)

/-- Coherence-ordered before (C++20 [atomics.order] 3, for estl/atomic.hpp:33-82). -/
inductive Cob (e : Exec) : Id → Id → Prop
  | rf {r : Id} {v : Bool} : e.reads r = some v → Cob e (e.rf r) r
  | mo {a b : Id} : Prec e.mo a b → Cob e a b
  | fr {r b : Id} {v : Bool} : e.reads r = some v → r ≠ b → Prec e.mo (e.rf r) b → Cob e r b
  | trans {a b c : Id} : Cob e a b → Cob e b c → Cob e a c

/-- The executions C++ allows (C++20 [intro.races] 14-18, [atomics.order] 4, 10, for estl/atomic.hpp:268-339). -/
structure Consistent (e : Exec) : Prop where
  legal : ∀ p c r, e.act (some p) = some (.flag c r) → (e.lab (some p)).isSome
  nodup : e.mo.Nodup
  mem : ∀ x, x ∈ e.mo ↔ (e.writes x).isSome
  value : ∀ r v, e.reads r = some v → e.writes (e.rf r) = some v
  atomic : ∀ u l, e.lab u = some l → l.isRmw = true → ∃ p q, e.mo = p ++ e.rf u :: u :: q
  irrefl : ∀ x, ¬ Hb e x x
  ww : ∀ a b, a ∈ e.mo → b ∈ e.mo → Hb e a b → Prec e.mo a b
  rr : ∀ a b, (e.reads a).isSome → (e.reads b).isSome → Hb e a b → e.rf a = e.rf b ∨ Prec e.mo (e.rf a) (e.rf b)
  rw : ∀ a b, (e.reads a).isSome → b ∈ e.mo → Hb e a b → Prec e.mo (e.rf a) b
  wr : ∀ a b, a ∈ e.mo → (e.reads b).isSome → Hb e a b → a = e.rf b ∨ Prec e.mo a (e.rf b)
  sc : ∃ s : List Id, s.Nodup ∧ (∀ x, x ∈ s ↔ ∃ l, e.lab x = some l ∧ l.order = .seq_cst) ∧
    ∀ a b, a ∈ s → b ∈ s → Hb e a b ∨ Cob e a b → Prec s a b

/-- The data accessed by an event, and whether it is written (users of estl/atomic.hpp:268-339). -/
def Exec.access (e : Exec) (x : Id) : Option (Nat × Bool) :=
  match e.act x with
  | some (.read d _) => some (d, false)
  | some (.write d _) => some (d, true)
  | _ => none

/-- A data race: two accesses to the same data, one of them a write, neither before the other
(C++20 [intro.races] 21, for users of estl/atomic.hpp:268-339). -/
def Racy (e : Exec) : Prop :=
  ∃ a b d wa wb, a ≠ b ∧ e.access a = some (d, wa) ∧ e.access b = some (d, wb) ∧ (wa || wb) = true ∧ ¬ Hb e a b ∧ ¬ Hb e b a

/-- Reads of data return the value of a visible side effect, or the initial 0 if no write happens before them
(C++20 [intro.races] 13, for users of estl/atomic.hpp:268-339). -/
def Visible (e : Exec) : Prop :=
  ∀ r d v, e.act r = some (.read d v) →
    (e.rfd r = none ∧ v = 0 ∧ ∀ w u, e.act w = some (.write d u) → ¬ Hb e w r) ∨
    (e.act (e.rfd r) = some (.write d v) ∧ Hb e (e.rfd r) r ∧
      ∀ w u, e.act w = some (.write d u) → Hb e (e.rfd r) w → ¬ Hb e w r)

/-- A thread that uses the flag as a lock and touches data only while it holds the lock: is it inside after `a`? `A` and
`R` are the orders it uses to take and to release the lock. Waiting is by failed attempts and by loads
(users of estl/atomic.hpp:268-339). -/
def lockStep (A R : Order → Bool) : Bool → Act → Option Bool
  | false, .flag (.exchange true m) (.bool old) => if old then some false else if A (order m) then some true else none
  | false, .flag (.casWeak false true m1 _) (.cas ok _) =>
    if ok then (if A m1 then some true else none) else some false
  | false, .flag (.casStrong false true m1 _) (.cas ok _) =>
    if ok then (if A m1 then some true else none) else some false
  | b, .flag (.load _) _ => some b
  | b, .flag .conv _ => some b
  | true, .flag (.store false m) _ => if R (order m) then some false else none
  | true, .flag (.assign false) _ => if R (order none) then some false else none
  | true, .read _ _ => some true
  | true, .write _ _ => some true
  | _, _ => none

/-- Is the thread inside after these actions? `none` if it does not keep to the rules (users of estl/atomic.hpp:268-339). -/
def lockRun (A R : Order → Bool) : Bool → List Act → Option Bool
  | b, [] => some b
  | b, a :: l => (lockStep A R b a).bind fun b => lockRun A R b l

/-- All threads keep to the rules, and the lock is free at first (users of estl/atomic.hpp:268-339). -/
def Locking (A R : Order → Bool) (e : Exec) : Prop :=
  e.init = false ∧ ∀ l ∈ e.prog, (lockRun A R false l).isSome

end Verif.BoolLock
