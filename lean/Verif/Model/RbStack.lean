import Verif.Model.RbTree

/-!
How deep the calls of `erase_since` are nested (estl/rb_tree.hpp:799-806), which is the only function of
the tree that calls itself: the functions of `Model/RbTree` that reach it, which also return the greatest
number of calls of `erase_since` active at once. The compiler may not turn the call into a loop: it is
followed by the rest of the loop body.
-/

namespace Verif.Rb
open Verif
open Verif.Box (Slot)

variable {α : Type}

/-- `erase_since`, estl/rb_tree.hpp:799-806, and the greatest number of calls active at once above this
one: the call in line 801 adds itself, the rounds of the loop follow each other. -/
def eraseSinceN : Nat → St α → Option Nat → Res (St α × Nat)
  | 0, _, _ => .oof
  | f + 1, s, node =>
    match node with
    | none => .ok (s, 0)
    | some a => do
      let r ← right s (some a)
      let (s, n) ← eraseSinceN f s r
      let l ← left s (some a)
      let s ← destroyNode s (some a)
      let (s, m) ← eraseSinceN f s l
      .ok (s, max (n + 1) m)

/-- `clear`, estl/rb_tree.hpp:669-677: no call at all if the set is empty, else that of line 671 and those
above it. -/
def clearN (fuel : Nat) (s : St α) (k : Slot) : Res (St α × Nat) := do
  let (h, n) ← getT s k
  if n = 0 then .ok (s, 0)
  else do
    let root ← parent s (some h)
    let (s, m) ← eraseSinceN fuel s root
    let s ← setLeft s (some h) (some h)
    let s ← setRight s (some h) (some h)
    let s ← setParent s (some h) none
    let s ← setCount s k 0
    .ok (s, m + 1)

end Verif.Rb
