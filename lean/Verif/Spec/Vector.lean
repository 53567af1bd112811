import Verif.Model.Vector

/-!
Specification of a client program over vectors: every vector is a mathematical
sequence (a list), nothing else. `none`: the operation is outside its
precondition. Shares only the type `Op` with the model.
-/

namespace Verif.Spec.Vector
open Verif Verif.Vector

variable {α : Type}

/-- Names and the sequences they stand for; `none`: not alive. -/
abbrev Env (α : Type) := Nat → Option (List α)

def set (e : Env α) (x : Nat) (v : Option (List α)) : Env α := fun y => if y = x then v else e y

/-- Declaring a new name. -/
def decl (e : Env α) (x : Nat) (l : List α) : Option (Env α) :=
  match e x with
  | none => some (set e x (some l))
  | some _ => none

/-- Changing the sequence of a live name, if `p` holds of it. -/
def modify (e : Env α) (x : Nat) (p : List α → Bool) (f : List α → List α) : Option (Env α) :=
  match e x with
  | some l => if p l then some (set e x (some (f l))) else none
  | none => none

/-- Meaning of each operation. `selfMoveOk` says whether the element type keeps
its value when move-assigned to itself; without it, erasing an empty range in
front of remaining elements is excluded. -/
def step (dflt : α) (selfMoveOk : Bool) (e : Env α) : Op α → Option (Env α)
  | .ctor x => decl e x []
  | .ctorFill x n v => decl e x (List.replicate n v)
  | .ctorDefault x n => decl e x (List.replicate n dflt)
  | .ctorList x vs => decl e x vs
  | .ctorCopy x y => (e y).bind (fun l => decl e x l)
  | .ctorMove x y => (e y).bind (fun l => (decl e x l).map (fun e => set e y (some [])))
  | .dtor x => (e x).map (fun _ => set e x none)
  | .assignCopy x y => (e x).bind (fun _ => (e y).map (fun l => set e x (some l)))
  | .assignMove x y => (e x).bind (fun _ => (e y).map (fun l => set (set e y (some [])) x (some l)))
  | .swap x y => (e x).bind (fun k => (e y).map (fun l => set (set e x (some l)) y (some k)))
  | .pushBack x a => modify e x (fun _ => true) (fun l => l ++ [a])
  | .pushFront x a => modify e x (fun _ => true) (fun l => a :: l)
  | .insert x i a => modify e x (fun l => i ≤ l.length) (fun l => l.take i ++ a :: l.drop i)
  | .emplace x i a => modify e x (fun l => i ≤ l.length) (fun l => l.take i ++ a :: l.drop i)
  | .erase x i => modify e x (fun l => i < l.length) (fun l => l.take i ++ l.drop (i + 1))
  | .eraseRange x i j =>
    modify e x (fun l => i ≤ j ∧ j ≤ l.length ∧ (selfMoveOk ∨ i < j ∨ j = l.length))
      (fun l => l.take i ++ l.drop j)
  | .popBack x => modify e x (fun l => 0 < l.length) (fun l => l.dropLast)
  | .popFront x => modify e x (fun l => 0 < l.length) (fun l => l.tail)
  | .resize x n =>
    modify e x (fun _ => true) (fun l => l.take n ++ List.replicate (n - l.length) dflt)
  | .clear x => modify e x (fun _ => true) (fun _ => [])
  | .reserve x _ => modify e x (fun _ => true) (fun l => l)
  | .put x i a => modify e x (fun l => i < l.length) (fun l => l.set i a)

/-- Meaning of a program, starting with no vectors. -/
def run (dflt : α) (selfMoveOk : Bool) (e : Env α) : List (Op α) → Option (Env α)
  | [] => some e
  | op :: ops => (step dflt selfMoveOk e op).bind (fun e => run dflt selfMoveOk e ops)

end Verif.Spec.Vector
