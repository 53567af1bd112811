import Verif.Base.Box

/-!
Model of `function`, `function_helper` and `interface` of `estl/functional.hpp`.

Simplifications: copying, moving and destroying a target touches nothing but the target; a
call changes nothing but the target (its effects elsewhere are not modelled). `delete
impl_` through `interface*`, which has no virtual destructor, is formally undefined; the model
does what compilers generate: the storage is released and the destructor of the target is
not run.

A target given as an lvalue does not compile: `function_helper<F&, ...>` would declare the
constructor `function_helper(F&)` twice (estl/functional.hpp:81-85, 114). So targets are
rvalues.
-/

set_option backward.isDefEq.respectTransparency false

namespace Verif.Function
open Verif Verif.Box

/-- The function objects with their `function_helper`s (whose member `f_` is a target in
`τ`), and the targets whose destructor has been run (estl/functional.hpp:78-157). -/
structure St (τ : Type) where
  box : Box.St τ
  gone : List Nat

variable {τ A R : Type}

/-- Nothing exists (no code; start of a program using estl/functional.hpp). -/
def St.init : St τ := ⟨.init, []⟩

/-- Run a step of the heap part (no code; used for estl/functional.hpp). -/
def lift (s : St τ) (r : Res (Box.St τ)) : Res (St τ) := do
  let b ← r
  .ok { s with box := b }

/-- `function()`, estl/functional.hpp:110, 154. -/
def ctor (s : St τ) (k : Slot) : Res (St τ) := lift s (create s.box k none)

/-- `function(Fn&&)`, estl/functional.hpp:112-115, with `function_helper(Fn&&)` (84-85). -/
def targetCtor (s : St τ) (k : Slot) (f : τ) : Res (St τ) :=
  let (q, b) := alloc s.box f
  lift s (create b k (some q))

/-- `function(const function&)`, estl/functional.hpp:117-118: `rhs.impl_->clone()` whether or
not `rhs` is empty; `clone` is at 97-99. -/
def copyCtor (s : St τ) (k j : Slot) : Res (St τ) := do
  let c ← ptr s.box j
  let f ← deref s.box c
  let (q, b) := alloc s.box f
  lift s (create b k (some q))

/-- `function(function&&)`, estl/functional.hpp:120-123. -/
def moveCtor (s : St τ) (k j : Slot) : Res (St τ) := do
  let c ← ptr s.box j
  let b ← create s.box k c
  lift s (setPtr b j none)

/-- `~function()`, estl/functional.hpp:148-151; `interface` (70-76) has no virtual
destructor, so the destructor of the target is not run (`gone` stays). -/
def dtor (s : St τ) (k : Slot) : Res (St τ) := do
  let c ← ptr s.box k
  let b ← deleteIf s.box c
  lift s (destroy b k)

/-- `swap`, estl/functional.hpp:140-142. -/
def swap (s : St τ) (k j : Slot) : Res (St τ) := lift s (Box.swap s.box k j)

/-- `operator=(Fn&&)` with a new target, estl/functional.hpp:130-134. -/
def assignTarget (s : St τ) (k : Slot) (f : τ) : Res (St τ) := do
  let s ← targetCtor s .temp f
  let s ← swap s .temp k
  dtor s .temp

/-- `operator=(function)` from an lvalue, estl/functional.hpp:136-139. -/
def assignCopy (s : St τ) (k j : Slot) : Res (St τ) := do
  let s ← copyCtor s .temp j
  let s ← swap s .temp k
  dtor s .temp

/-- `operator=(function)` from an rvalue, estl/functional.hpp:136-139. -/
def assignMove (s : St τ) (k j : Slot) : Res (St τ) := do
  let s ← moveCtor s .temp j
  let s ← swap s .temp k
  dtor s .temp

/-- `operator()`, estl/functional.hpp:125-128, through `invoke` (53-55, 14-19) to the virtual
`operator()` (93-95), which calls the target. Undefined if empty. -/
def call (f : τ → A → τ × R) (s : St τ) (k : Slot) (x : A) : Res (St τ × R) := do
  let c ← ptr s.box k
  let t ← deref s.box c
  let (t', r) := f t x
  let s ← lift s (write s.box c t')
  .ok (s, r)

/-- `operator bool`, estl/functional.hpp:144-146. -/
def toBool (s : St τ) (k : Slot) : Res Bool := do
  let c ← ptr s.box k
  .ok (c != none)

/-- What a program can do with its function objects (numbered) (estl/functional.hpp:108-155). -/
inductive Op (τ A : Type) where
  | ctor (k : Nat)
  | target (k : Nat) (f : τ)
  | copy (k j : Nat)
  | move (k j : Nat)
  | dtor (k : Nat)
  | swap (k j : Nat)
  | asgTarget (k : Nat) (f : τ)
  | asgCopy (k j : Nat)
  | asgMove (k j : Nat)
  | call (k : Nat) (x : A)

/-- No result (no code; used for estl/functional.hpp). -/
def quiet (r : Res (St τ)) : Res (St τ × Option R) := do
  let s ← r
  .ok (s, none)

/-- One call and its result; the line numbers are at the functions called
(estl/functional.hpp:108-155). -/
def step (f : τ → A → τ × R) (s : St τ) : Op τ A → Res (St τ × Option R)
  | .ctor k => quiet (Function.ctor s (.user k))
  | .target k t => quiet (targetCtor s (.user k) t)
  | .copy k j => quiet (copyCtor s (.user k) (.user j))
  | .move k j => quiet (moveCtor s (.user k) (.user j))
  | .dtor k => quiet (Function.dtor s (.user k))
  | .swap k j => quiet (Function.swap s (.user k) (.user j))
  | .asgTarget k t => quiet (assignTarget s (.user k) t)
  | .asgCopy k j => quiet (assignCopy s (.user k) (.user j))
  | .asgMove k j => quiet (assignMove s (.user k) (.user j))
  | .call k x => do
    let (s, r) ← Function.call f s (.user k) x
    .ok (s, some r)

/-- A history of calls; the results of the function calls in order (no code)
(estl/functional.hpp). -/
def run (f : τ → A → τ × R) (s : St τ) : List (Op τ A) → Res (St τ × List R)
  | [] => .ok (s, [])
  | o :: os => do
    let (s, r) ← step f s o
    let (s, rs) ← run f s os
    .ok (s, r.toList ++ rs)

end Verif.Function
