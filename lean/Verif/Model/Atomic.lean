/-!
Model of `estl/atomic.hpp`: one `atomic<T>` of width `w` used by any number of threads.

Simplifications: each `__atomic_*` builtin is one indivisible step on the value (that is
its specification); all operations are sequentially consistent (the default of every
member function; `++`, `--`, `+=`, ... always are). Signed types wrap like unsigned ones,
as the builtins specify.
-/

set_option backward.isDefEq.respectTransparency false

namespace Verif.Atomic

/-- The operations of `atomic_impl<T>` with their operand; both the plain and the `volatile`
overload, whose bodies are the same. The line of each is given at `apply`
(estl/atomic.hpp:33-212). -/
inductive Op (w : Nat) where
  | load
  | store (v : BitVec w)
  | exchange (v : BitVec w)
  | fetchAdd (v : BitVec w)
  | fetchSub (v : BitVec w)
  | fetchAnd (v : BitVec w)
  | fetchOr (v : BitVec w)
  | fetchXor (v : BitVec w)
  | preInc
  | postInc
  | preDec
  | postDec
  | addAssign (v : BitVec w)
  | subAssign (v : BitVec w)
  | andAssign (v : BitVec w)
  | orAssign (v : BitVec w)
  | xorAssign (v : BitVec w)
  deriving DecidableEq, Repr

/-- The new value and the value returned (estl/atomic.hpp:33-212). -/
def apply {w : Nat} (x : BitVec w) : Op w → BitVec w × BitVec w
  /- estl/atomic.hpp:33-38, 124-129 -/
  | .load => (x, x)
  /- estl/atomic.hpp:39-44; `operator=` (131-139) returns its operand -/
  | .store v => (v, v)
  /- estl/atomic.hpp:45-50 -/
  | .exchange v => (v, x)
  /- estl/atomic.hpp:84-90 -/
  | .fetchAdd v => (x + v, x)
  /- estl/atomic.hpp:92-98 -/
  | .fetchSub v => (x - v, x)
  /- estl/atomic.hpp:100-106 -/
  | .fetchAnd v => (x &&& v, x)
  /- estl/atomic.hpp:108-114 -/
  | .fetchOr v => (x ||| v, x)
  /- estl/atomic.hpp:116-122 -/
  | .fetchXor v => (x ^^^ v, x)
  /- estl/atomic.hpp:141-147: `__atomic_add_fetch` -/
  | .preInc => (x + 1, x + 1)
  /- estl/atomic.hpp:149-155: `fetch_add(1)` -/
  | .postInc => (x + 1, x)
  /- estl/atomic.hpp:157-163 -/
  | .preDec => (x - 1, x - 1)
  /- estl/atomic.hpp:165-171 -/
  | .postDec => (x - 1, x)
  /- estl/atomic.hpp:173-179 -/
  | .addAssign v => (x + v, x + v)
  /- estl/atomic.hpp:181-187 -/
  | .subAssign v => (x - v, x - v)
  /- estl/atomic.hpp:189-195 -/
  | .andAssign v => (x &&& v, x &&& v)
  /- estl/atomic.hpp:197-203 -/
  | .orAssign v => (x ||| v, x ||| v)
  /- estl/atomic.hpp:205-211 -/
  | .xorAssign v => (x ^^^ v, x ^^^ v)

/-- `compare_exchange_weak` (estl/atomic.hpp:52-66, `weak = true`) and
`compare_exchange_strong` (68-82): the new value, the new value of `expect`, and the
result. A weak one may fail spuriously (`spur`). -/
def compareExchange {w : Nat} (weak spur : Bool) (x expect v : BitVec w) : BitVec w × BitVec w × Bool :=
  if x = expect ∧ (weak && spur) = false then (v, expect, true) else (x, x, false)

/-- The atomic, what each thread still has to do, and the log of what was done, newest
first: thread, operation, value returned (no code: interleaving of the calls)
(an `atomic`, estl/atomic.hpp:22-215). -/
structure St (w : Nat) where
  cell : BitVec w
  prog : List (List (Op w))
  log : List (Nat × Op w × BitVec w)
  deriving DecidableEq, Repr

/-- One step of some thread (no code) (calls of estl/atomic.hpp:33-212). -/
inductive Step {w : Nat} : St w → St w → Prop
  | step {s : St w} {t : Nat} {o : Op w} {rest : List (Op w)} (h : s.prog[t]? = some (o :: rest)) :
      Step s ⟨(apply s.cell o).1, s.prog.set t rest, (t, o, (apply s.cell o).2) :: s.log⟩

/-- What the threads with programs `prog` can reach from the initial value `x` (no code)
(calls of estl/atomic.hpp:33-212). -/
inductive Reach {w : Nat} (x : BitVec w) (prog : List (List (Op w))) : St w → Prop
  | start : Reach x prog ⟨x, prog, []⟩
  | step {s s' : St w} : Reach x prog s → Step s s' → Reach x prog s'

end Verif.Atomic
