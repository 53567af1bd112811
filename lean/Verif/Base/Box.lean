import Verif.Base.Res

/-!
Vocabulary for classes whose only member is an owning pointer to a polymorphic heap
object (`any`, `function`): the pointer members, the heap objects and the objects deleted
so far. This file models no code of the repository by itself.
-/

set_option backward.isDefEq.respectTransparency false

namespace Verif.Box
open Verif

/-- Where a pointer member lives: in an object of the program, or in the temporary or
parameter of the member function being executed. -/
inductive Slot where
  | user (n : Nat)
  | temp
  deriving DecidableEq, Repr

/-- `slot k`: `none` if no object lives there, otherwise the value of the pointer member.
`obj p`: the live heap object at address `p`. `next`: the next address handed out by
`new`. `dead`: the addresses deleted so far, newest first. -/
structure St (β : Type) where
  slot : Slot → Option (Option Nat)
  obj : Nat → Option β
  next : Nat
  dead : List Nat

variable {β : Type}

/-- No objects. -/
def St.init : St β := ⟨fun _ => none, fun _ => none, 0, []⟩

/-- Functional update. -/
def upd {α γ : Type} [DecidableEq α] (f : α → γ) (a : α) (c : γ) : α → γ := fun x => if x = a then c else f x

/-- Begin the lifetime of the object at `k` with pointer member `c`; there must be none. -/
def create (s : St β) (k : Slot) (c : Option Nat) : Res (St β) :=
  match s.slot k with
  | none => .ok { s with slot := upd s.slot k (some c) }
  | some _ => .ub

/-- The pointer member of the live object at `k`. -/
def ptr (s : St β) (k : Slot) : Res (Option Nat) :=
  match s.slot k with
  | some c => .ok c
  | none => .ub

/-- Assign the pointer member of the live object at `k`. -/
def setPtr (s : St β) (k : Slot) (c : Option Nat) : Res (St β) :=
  match s.slot k with
  | some _ => .ok { s with slot := upd s.slot k (some c) }
  | none => .ub

/-- End the lifetime of the object at `k`. -/
def destroy (s : St β) (k : Slot) : Res (St β) :=
  match s.slot k with
  | some _ => .ok { s with slot := upd s.slot k none }
  | none => .ub

/-- `new` of a heap object. -/
def alloc (s : St β) (o : β) : Nat × St β := (s.next, { s with obj := upd s.obj s.next (some o), next := s.next + 1 })

/-- The heap object behind a pointer; undefined for null or a deleted object. -/
def deref (s : St β) (c : Option Nat) : Res β :=
  match c with
  | none => .ub
  | some p =>
    match s.obj p with
    | some o => .ok o
    | none => .ub

/-- Replace the heap object behind a pointer (assignment to it, or a call that changes
it). -/
def write (s : St β) (c : Option Nat) (o : β) : Res (St β) :=
  match c with
  | none => .ub
  | some p =>
    match s.obj p with
    | some _ => .ok { s with obj := upd s.obj p (some o) }
    | none => .ub

/-- `delete` of a heap object; undefined if it is not alive. -/
def delete (s : St β) (p : Nat) : Res (St β) :=
  match s.obj p with
  | some _ => .ok { s with obj := upd s.obj p none, dead := p :: s.dead }
  | none => .ub

/-- `if (ptr) delete ptr`. -/
def deleteIf (s : St β) (c : Option Nat) : Res (St β) :=
  match c with
  | none => .ok s
  | some p => delete s p

/-- `estd::swap` of two pointer members, estl/utility.hpp:36-41. -/
def swap (s : St β) (k j : Slot) : Res (St β) := do
  let tmp ← ptr s k
  let c ← ptr s j
  let s ← setPtr s k c
  setPtr s j tmp

end Verif.Box
