import Verif.Model.RbTree

/-!
The functions of `set` and `multiset` that take a key, when the key is passed as what it is: a `const key_type&`
(estl/rb_tree.hpp:678-902, estl/set.hpp:80-147, 228-296). It may refer to an element of a set, the set of the call included;
it is read anew at every comparison. `Verif.Model.RbTree` passes the value.
-/

namespace Verif.Rb
open Verif
open Verif.Box (Slot)

variable {α : Type}

/-- What a `const key_type&` is bound to: an object of the caller with a value, or the element in a node
(parameters of estl/rb_tree.hpp:678-902). -/
inductive Key (α : Type) where
  | val (v : α)
  | elem (n : Nat)

/-- The value at this moment; undefined if the element has been destroyed (parameters of estl/rb_tree.hpp:678-902). -/
def Key.read (s : St α) : Key α → Res α
  | .val v => .ok v
  | .elem n => getKey s (some n)

/-- The loop of `find` and `lower_bound`, estl/rb_tree.hpp:681-688, 695-702, 849-856, 864-871. -/
def lowerLoopK (lt : α → α → Bool) : Nat → St α → Key α → Option Nat → Option Nat → Res (Option Nat)
  | 0, _, _, _, _ => .oof
  | f + 1, s, key, node, cur =>
    match cur with
    | none => .ok node
    | some a => do
      let v ← getKey s (some a)
      let x ← key.read s
      if !lt v x then do
        let l ← left s (some a)
        lowerLoopK lt f s key (some a) l
      else do
        let r ← right s (some a)
        lowerLoopK lt f s key node r

/-- The loop of `upper_bound`, estl/rb_tree.hpp:879-886, 893-900. -/
def upperLoopK (lt : α → α → Bool) : Nat → St α → Key α → Option Nat → Option Nat → Res (Option Nat)
  | 0, _, _, _, _ => .oof
  | f + 1, s, key, node, cur =>
    match cur with
    | none => .ok node
    | some a => do
      let x ← key.read s
      let v ← getKey s (some a)
      if lt x v then do
        let l ← left s (some a)
        upperLoopK lt f s key (some a) l
      else do
        let r ← right s (some a)
        upperLoopK lt f s key node r

/-- `lower_bound`, estl/rb_tree.hpp:845-873. -/
def lowerBoundK (lt : α → α → Bool) (fuel : Nat) (s : St α) (k : Slot) (key : Key α) : Res (Option Nat) := do
  let (h, _) ← getT s k
  let root ← parent s (some h)
  lowerLoopK lt fuel s key (some h) root

/-- `upper_bound`, estl/rb_tree.hpp:875-902. -/
def upperBoundK (lt : α → α → Bool) (fuel : Nat) (s : St α) (k : Slot) (key : Key α) : Res (Option Nat) := do
  let (h, _) ← getT s k
  let root ← parent s (some h)
  upperLoopK lt fuel s key (some h) root

/-- `find`, estl/rb_tree.hpp:678-705. -/
def findK (lt : α → α → Bool) (fuel : Nat) (s : St α) (k : Slot) (key : Key α) : Res (Option Nat) := do
  let (h, _) ← getT s k
  let root ← parent s (some h)
  let node ← lowerLoopK lt fuel s key (some h) root
  if node = some h then .ok (some h)
  else do
    let x ← key.read s
    let v ← getKey s node
    if lt x v then .ok (some h) else .ok node

/-- `equal_range_multi`, estl/rb_tree.hpp:766-771. -/
def equalRangeMultiK (lt : α → α → Bool) (fuel : Nat) (s : St α) (k : Slot) (key : Key α) : Res (Option Nat × Option Nat) := do
  let a ← lowerBoundK lt fuel s k key
  let b ← upperBoundK lt fuel s k key
  .ok (a, b)

/-- `equal_range_unique`, estl/rb_tree.hpp:773-780. -/
def equalRangeUniqueK (lt : α → α → Bool) (fuel : Nat) (s : St α) (k : Slot) (key : Key α) : Res (Option Nat × Option Nat) := do
  let it ← findK lt fuel s k key
  let e ← end' s k
  if it = e then .ok (it, it)
  else do
    let it' ← increment fuel s it
    .ok (it, it')

/-- `count_unique`, estl/rb_tree.hpp:710-712. -/
def countUniqueK (lt : α → α → Bool) (fuel : Nat) (s : St α) (k : Slot) (key : Key α) : Res Nat := do
  let it ← findK lt fuel s k key
  let e ← end' s k
  .ok (if it ≠ e then 1 else 0)

/-- `count_multi`, estl/rb_tree.hpp:706-709. -/
def countMultiK (lt : α → α → Bool) (fuel : Nat) (s : St α) (k : Slot) (key : Key α) : Res Nat := do
  let (a, b) ← equalRangeMultiK lt fuel s k key
  distance fuel fuel s a b 0

/-- `erase_multi`, estl/rb_tree.hpp:808-813: the range is found and counted before anything is erased. -/
def eraseMultiK (lt : α → α → Bool) (fuel : Nat) (s : St α) (k : Slot) (key : Key α) : Res (St α × Nat) := do
  let (a, b) ← equalRangeMultiK lt fuel s k key
  let n ← distance fuel fuel s a b 0
  let s ← eraseRange fuel s k a b
  .ok (s, n)

/-- `erase_unique`, estl/rb_tree.hpp:815-823. -/
def eraseUniqueK (lt : α → α → Bool) (fuel : Nat) (s : St α) (k : Slot) (key : Key α) : Res (St α × Nat) := do
  let it ← findK lt fuel s k key
  let e ← end' s k
  if it = e then .ok (s, 0)
  else do
    let (s, _) ← erase fuel s k it
    .ok (s, 1)

/-- `erase(key)` of `set` (estl/set.hpp:101-103) and `multiset` (estl/set.hpp:249-251). -/
def eraseKeyK (lt : α → α → Bool) (multi : Bool) (fuel : Nat) (s : St α) (k : Slot) (key : Key α) : Res (St α × Nat) :=
  if multi then eraseMultiK lt fuel s k key else eraseUniqueK lt fuel s k key

/-- The loop of `insert_multi_pos` and `insert_unique_pos`, estl/rb_tree.hpp:928-932, 941-945. -/
def posLoopK (lt : α → α → Bool) : Nat → St α → Key α → Option Nat → Option Nat → Bool → Res (Option Nat × Bool)
  | 0, _, _, _, _, _ => .oof
  | f + 1, s, key, node, child, onLeft =>
    match child with
    | none => .ok (node, onLeft)
    | some a => do
      let x ← key.read s
      let v ← getKey s (some a)
      let onLeft := lt x v
      let child ← (if onLeft then left s (some a) else right s (some a) : Res (Option Nat))
      posLoopK lt f s key (some a) child onLeft

/-- `insert_multi_pos`, estl/rb_tree.hpp:923-935. -/
def insertMultiPosK (lt : α → α → Bool) (fuel : Nat) (s : St α) (k : Slot) (key : Key α) : Res (Option Nat × Bool) := do
  let (h, _) ← getT s k
  let root ← parent s (some h)
  posLoopK lt fuel s key (some h) root true

/-- `insert_unique_pos`, estl/rb_tree.hpp:936-962. -/
def insertUniquePosK (lt : α → α → Bool) (fuel : Nat) (s : St α) (k : Slot) (key : Key α) : Res ((Option Nat × Bool) × Bool) := do
  let (h, _) ← getT s k
  let root ← parent s (some h)
  let (node, onLeft) ← posLoopK lt fuel s key (some h) root true
  if onLeft then do
    let b ← begin s k
    if node = some h ∨ node = b then .ok ((node, onLeft), true)
    else do
      let it ← decrement fuel s node
      let v ← getKey s it
      let x ← key.read s
      .ok ((node, onLeft), lt v x)
  else do
    let v ← getKey s node
    let x ← key.read s
    .ok ((node, onLeft), lt v x)

/-- `insert` of `set` (estl/set.hpp:80-91) and `multiset` (estl/set.hpp:228-239), by `emplace_unique` and `emplace_multi`
(estl/rb_tree.hpp:714-732): the node is created from the argument, then a reference to the value in it is the key. -/
def insertK (lt : α → α → Bool) (multi : Bool) (fuel : Nat) (s : St α) (k : Slot) (arg : Key α) : Res (St α × Option Nat × Bool) := do
  let x ← arg.read s
  let n := s.next
  let (s, node) := createNode s x
  if multi then do
    let (pos, onLeft) ← insertMultiPosK lt fuel s k (.elem n)
    let (s, it) ← insertNodeAt fuel s k pos node onLeft
    .ok (s, it, true)
  else do
    let ((pos, onLeft), success) ← insertUniquePosK lt fuel s k (.elem n)
    if success then do
      let (s, it) ← insertNodeAt fuel s k pos node onLeft
      .ok (s, it, success)
    else do
      let s ← destroyNode s node
      .ok (s, pos, false)

end Verif.Rb
