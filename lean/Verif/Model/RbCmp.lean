import Verif.Model.RbTree

/-!
Model of the comparators of `set` and `multiset` (estl/set.hpp, member `compare_` of
estl/rb_tree.hpp:1004). `Verif.Model.RbTree` has one comparison for all trees; here every tree
object has a comparator of its own, a value of the type `C` (a function pointer or an object
with state), which constructors, `swap` and assignments copy and exchange.

`ap c` is the comparison a comparator `c` makes. `dflt` is the value a comparator has after
default initialisation: `none` (indeterminate) for function pointers and other types without an
initialising constructor. Reading an indeterminate comparator is undefined, and so is calling it;
it is called by a search or an insertion exactly if the tree has a root.

Simplifications.
* As in `Verif.Model.RbTree`; comparing two elements changes nothing, and copying a comparator
  yields an equal one.
* A default argument is an argument (estl/set.hpp:36-37, 184-185): the constructor from a range always gets its
  comparator from the caller.
-/

set_option backward.isDefEq.respectTransparency false

namespace Verif.RbCmp
open Verif
open Verif.Box (Slot upd)
open Verif.Rb (St Ret)

/-- The trees and, for each tree object, `compare_` (estl/rb_tree.hpp:1004), `none` while it is
indeterminate. -/
structure CSt (α C : Type) where
  t : St α
  cmp : Slot → Option C

variable {α C : Type}

/-- Nothing exists (no code) (start of a program using estl/set.hpp). -/
def CSt.init : CSt α C := ⟨St.init, fun _ => none⟩

/-- Reading `compare_` to copy it: `compare()`, estl/rb_tree.hpp:665-667 and `key_comp()`,
estl/set.hpp:55-57, 203-205; the argument in estl/rb_tree.hpp:613; `swap` (642). -/
def keyComp (s : CSt α C) (k : Slot) : Res C :=
  match s.cmp k with
  | some c => .ok c
  | none => .ub

/-- The comparison made by the searches and insertions of a tree, the calls of `compare_` in
estl/rb_tree.hpp:678-962. An empty tree makes none, so any will do. -/
def useCmp (ap : C → α → α → Bool) (s : CSt α C) (k : Slot) : Res (α → α → Bool) :=
  match s.cmp k with
  | some c => .ok (ap c)
  | none => do
    let e ← Rb.empty s.t k
    if e then .ok (fun _ _ => false) else .ub

/-- `set() = default`, estl/set.hpp:21; 169: `rb_tree()`, estl/rb_tree.hpp:594-598, leaves `compare_`
to default initialisation. -/
def make (dflt : Option C) (s : CSt α C) (k : Slot) : Res (CSt α C) := do
  let t ← Rb.make s.t k
  .ok ⟨t, upd s.cmp k dflt⟩

/-- `set(const key_compare&)`, estl/set.hpp:23-24, 171-172; estl/rb_tree.hpp:600-604. -/
def makeWith (s : CSt α C) (k : Slot) (c : C) : Res (CSt α C) := do
  let t ← Rb.make s.t k
  .ok ⟨t, upd s.cmp k (some c)⟩

/-- `insert`, estl/set.hpp:80-91, 228-239. -/
def insert (ap : C → α → α → Bool) (multi : Bool) (fuel : Nat) (s : CSt α C) (k : Slot) (v : α) : Res (CSt α C × Option Nat × Bool) := do
  let lt ← useCmp ap s k
  let (t, it, b) ← Rb.insert lt multi fuel s.t k v
  .ok (⟨t, s.cmp⟩, it, b)

/-- `insert(first, last)`, estl/rb_tree.hpp:742-748, 758-764. -/
def insertAll (ap : C → α → α → Bool) (multi : Bool) (fuel : Nat) (s : CSt α C) (k : Slot) : List α → Res (CSt α C)
  | [] => .ok s
  | v :: vs => do
    let (s, _) ← insert ap multi fuel s k v
    insertAll ap multi fuel s k vs

/-- `set(initializer_list)`, estl/set.hpp:32-34, 180-182: the comparator is the default one. -/
def initList (ap : C → α → α → Bool) (dflt : Option C) (multi : Bool) (fuel : Nat) (s : CSt α C) (k : Slot) (vs : List α) : Res (CSt α C) := do
  let s ← make dflt s k
  insertAll ap multi fuel s k vs

/-- `set(first, last, compare)`, estl/set.hpp:36-40, 184-188. -/
def initRange (ap : C → α → α → Bool) (multi : Bool) (fuel : Nat) (s : CSt α C) (k : Slot) (vs : List α) (c : C) : Res (CSt α C) := do
  let s ← makeWith s k c
  insertAll ap multi fuel s k vs

/-- `set(const set&)`, estl/set.hpp:26-27, 174-175; estl/rb_tree.hpp:612-617: the comparator of the
right-hand side, which also places the elements. -/
def copy (ap : C → α → α → Bool) (fuel : Nat) (s : CSt α C) (k j : Slot) : Res (CSt α C) := do
  let c ← keyComp s j
  let t ← Rb.copy (ap c) fuel s.t k j
  .ok ⟨t, upd s.cmp k (some c)⟩

/-- `swap`, estl/rb_tree.hpp:639-643; estl/set.hpp:51-53, 199-201. -/
def swap (s : CSt α C) (k j : Slot) : Res (CSt α C) := do
  let t ← Rb.swap s.t k j
  let c ← keyComp s k
  let d ← keyComp s j
  .ok ⟨t, upd (upd s.cmp k (some d)) j (some c)⟩

/-- `set(set&&)`, estl/set.hpp:29-30, 177-178; estl/rb_tree.hpp:619-622: default initialisation,
then `swap`. -/
def move (dflt : Option C) (s : CSt α C) (k j : Slot) : Res (CSt α C) := do
  let s ← make dflt s k
  swap s j k

/-- `~rb_tree()`, estl/rb_tree.hpp:634-637. -/
def destroy (fuel : Nat) (s : CSt α C) (k : Slot) : Res (CSt α C) := do
  let t ← Rb.destroy fuel s.t k
  .ok ⟨t, s.cmp⟩

/-- `operator=(set rhs)` from an lvalue, estl/set.hpp:42-45, 190-193. -/
def assignCopy (ap : C → α → α → Bool) (fuel : Nat) (s : CSt α C) (k j : Slot) : Res (CSt α C) := do
  let s ← copy ap fuel s .temp j
  let s ← swap s .temp k
  destroy fuel s .temp

/-- `operator=(set rhs)` from an rvalue, estl/set.hpp:42-45, 190-193. -/
def assignMove (dflt : Option C) (fuel : Nat) (s : CSt α C) (k j : Slot) : Res (CSt α C) := do
  let s ← move dflt s .temp j
  let s ← swap s .temp k
  destroy fuel s .temp

/-- `operator=(initializer_list)`, estl/set.hpp:47-50, 195-198: a set constructed from the list is
swapped in, with its comparator. -/
def assignList (ap : C → α → α → Bool) (dflt : Option C) (multi : Bool) (fuel : Nat) (s : CSt α C) (k : Slot) (vs : List α) : Res (CSt α C) := do
  let s ← initList ap dflt multi fuel s .temp vs
  let s ← swap s .temp k
  destroy fuel s .temp

/-- `erase(it)`, estl/set.hpp:98-100, 246-248. -/
def eraseIt (fuel : Nat) (s : CSt α C) (k : Slot) (it : Option Nat) : Res (CSt α C × Option Nat) := do
  let (t, it) ← Rb.erase fuel s.t k it
  .ok (⟨t, s.cmp⟩, it)

/-- `erase(first, last)`, estl/set.hpp:105-107, 253-255; estl/rb_tree.hpp:825-843. -/
def eraseRange (fuel : Nat) (s : CSt α C) (k : Slot) (first last : Option Nat) : Res (CSt α C) := do
  let t ← Rb.eraseRange fuel s.t k first last
  .ok ⟨t, s.cmp⟩

/-- `erase(key)`, estl/set.hpp:101-103, 249-251; estl/rb_tree.hpp:807-823. -/
def eraseKey (ap : C → α → α → Bool) (multi : Bool) (fuel : Nat) (s : CSt α C) (k : Slot) (v : α) : Res (CSt α C × Nat) := do
  let lt ← useCmp ap s k
  let (t, n) ← (if multi then Rb.eraseMulti lt fuel s.t k v else Rb.eraseUnique lt fuel s.t k v : Res (St α × Nat))
  .ok (⟨t, s.cmp⟩, n)

/-- `clear()`, estl/rb_tree.hpp:669-676. -/
def clear (fuel : Nat) (s : CSt α C) (k : Slot) : Res (CSt α C) := do
  let t ← Rb.clear fuel s.t k
  .ok ⟨t, s.cmp⟩

/-- `lower_bound`, estl/rb_tree.hpp:845-873. -/
def lowerBound (ap : C → α → α → Bool) (fuel : Nat) (s : CSt α C) (k : Slot) (key : α) : Res (Option Nat) := do
  let lt ← useCmp ap s k
  Rb.lowerBound lt fuel s.t k key

/-- `upper_bound`, estl/rb_tree.hpp:875-903. -/
def upperBound (ap : C → α → α → Bool) (fuel : Nat) (s : CSt α C) (k : Slot) (key : α) : Res (Option Nat) := do
  let lt ← useCmp ap s k
  Rb.upperBound lt fuel s.t k key

/-- `find`, estl/rb_tree.hpp:678-705. -/
def find (ap : C → α → α → Bool) (fuel : Nat) (s : CSt α C) (k : Slot) (key : α) : Res (Option Nat) := do
  let lt ← useCmp ap s k
  Rb.find lt fuel s.t k key

/-- What a program can do with its sets (or multisets), as in `Verif.Model.RbTree`, with the
constructors that take a comparator (estl/set.hpp:21-147, 169-296). -/
inductive Op (α C : Type) where
  | make (k : Nat)
  | makeWith (k : Nat) (c : C)
  | initList (k : Nat) (vs : List α)
  | initRange (k : Nat) (vs : List α) (c : C)
  | copy (k j : Nat)
  | move (k j : Nat)
  | destroy (k : Nat)
  | assignCopy (k j : Nat)
  | assignMove (k j : Nat)
  | assignList (k : Nat) (vs : List α)
  | swap (k j : Nat)
  | insert (k : Nat) (v : α)
  | insertAll (k : Nat) (vs : List α)
  | eraseIt (k : Nat) (it : Nat)
  | eraseRange (k : Nat) (first last : Nat)
  | eraseKey (k : Nat) (v : α)
  | clear (k : Nat)

/-- No result (no code) (used for estl/set.hpp). -/
def quiet (r : Res (CSt α C)) : Res (CSt α C × Ret) := do
  let s ← r
  .ok (s, .unit)

/-- One call and its result (estl/set.hpp); the line numbers are at the functions called. -/
def step (ap : C → α → α → Bool) (dflt : Option C) (multi : Bool) (fuel : Nat) (s : CSt α C) : Op α C → Res (CSt α C × Ret)
  | .make k => quiet (make dflt s (.user k))
  | .makeWith k c => quiet (makeWith s (.user k) c)
  | .initList k vs => quiet (initList ap dflt multi fuel s (.user k) vs)
  | .initRange k vs c => quiet (initRange ap multi fuel s (.user k) vs c)
  | .copy k j => quiet (copy ap fuel s (.user k) (.user j))
  | .move k j => quiet (move dflt s (.user k) (.user j))
  | .destroy k => quiet (destroy fuel s (.user k))
  | .assignCopy k j => quiet (assignCopy ap fuel s (.user k) (.user j))
  | .assignMove k j => quiet (assignMove dflt fuel s (.user k) (.user j))
  | .assignList k vs => quiet (assignList ap dflt multi fuel s (.user k) vs)
  | .swap k j => quiet (swap s (.user k) (.user j))
  | .insert k v => do
    let (s, it, b) ← insert ap multi fuel s (.user k) v
    .ok (s, .iter it b)
  | .insertAll k vs => quiet (insertAll ap multi fuel s (.user k) vs)
  | .eraseIt k it => do
    let (s, it) ← eraseIt fuel s (.user k) (some it)
    .ok (s, .iter it false)
  | .eraseRange k first last => quiet (eraseRange fuel s (.user k) (some first) (some last))
  | .eraseKey k v => do
    let (s, n) ← eraseKey ap multi fuel s (.user k) v
    .ok (s, .num n)
  | .clear k => quiet (clear fuel s (.user k))

/-- A history of calls and their results (no code) (estl/set.hpp). -/
def run (ap : C → α → α → Bool) (dflt : Option C) (multi : Bool) (fuel : Nat) (s : CSt α C) : List (Op α C) → Res (CSt α C × List Ret)
  | [] => .ok (s, [])
  | o :: os => do
    let (s, r) ← step ap dflt multi fuel s o
    let (s, rs) ← run ap dflt multi fuel s os
    .ok (s, r :: rs)

end Verif.RbCmp
