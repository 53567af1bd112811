import Verif.Base.Mem

/-!
Heap of element storage with object lifetimes. Vocabulary for the container
models; the only repository code it models is `estl/allocator.hpp`.

A block is raw storage for `cap` elements. Each slot is raw or holds an object.
The outcome `ub` also covers lifetime violations that a destructor-less element
type would not notice: constructing over a live object, destroying or assigning
raw storage, releasing a block that still holds objects.
-/

namespace Verif.OH
open Verif

/-- A slot: raw storage, or an object whose value is known (`some v`) or
unspecified (`none`, e.g. moved-from). -/
inductive Slot (α : Type) where
  | raw
  | obj (v : Option α)

/-- A storage block. Slots at or beyond `cap` do not exist. -/
structure Block (α : Type) where
  cap : Nat
  slot : Nat → Slot α

/-- The heap: allocated blocks and the next unused block address. -/
structure Heap (α : Type) where
  blocks : Nat → Option (Block α)
  next : Nat

variable {α : Type}

/-- Element type: its default value, and whether `x = move(x)` keeps the value of `x`. -/
structure Elem (α : Type) where
  dflt : α
  selfMoveOk : Bool

def Heap.empty : Heap α := ⟨fun _ => none, 0⟩

def upd (h : Heap α) (b : Nat) (i : Nat) (s : Slot α) : Heap α :=
  { h with blocks := fun x => if x = b then
      (h.blocks b).map (fun B => { B with slot := fun j => if j = i then s else B.slot j })
    else h.blocks x }

/-- The slot at `p[i]`; `none` if the pointer is null, the block is not allocated
or `i` is outside. -/
def look (h : Heap α) (p : Option Nat) (i : Nat) : Option (Nat × Slot α) :=
  match p with
  | none => none
  | some b =>
    match h.blocks b with
    | none => none
    | some B => if i < B.cap then some (b, B.slot i) else none

/-- Reading the object `p[i]`. -/
def read (h : Heap α) (p : Option Nat) (i : Nat) : Res (Option α) :=
  match look h p i with
  | some (_, .obj v) => .ok v
  | _ => .ub

/-- Assigning to the object `p[i]`. -/
def assign (h : Heap α) (p : Option Nat) (i : Nat) (v : Option α) : Res (Heap α) :=
  match look h p i with
  | some (b, .obj _) => .ok (upd h b i (.obj v))
  | _ => .ub

/-- `construct(p + i, ...)`, estl/allocator.hpp:6-9. -/
def construct (h : Heap α) (p : Option Nat) (i : Nat) (v : Option α) : Res (Heap α) :=
  match look h p i with
  | some (b, .raw) => .ok (upd h b i (.obj v))
  | _ => .ub

/-- `destory(p + i)`, estl/allocator.hpp:11-16. -/
def destroy (h : Heap α) (p : Option Nat) (i : Nat) : Res (Heap α) :=
  match look h p i with
  | some (b, .obj _) => .ok (upd h b i .raw)
  | _ => .ub

/-- `destory(p + i, p + j)`, estl/allocator.hpp:18-25. -/
def destroyRange (h : Heap α) (p : Option Nat) (i j : Nat) : Res (Heap α) :=
  forUp (j - i) (fun k h => destroy h p (i + k)) h

/-- `p[i] = move(q[j])`: the source keeps an unspecified value. -/
def moveAssign (E : Elem α) (h : Heap α) (p : Option Nat) (i : Nat) (q : Option Nat) (j : Nat) :
    Res (Heap α) := do
  let v ← read h q j
  if p = q ∧ i = j then assign h p i (if E.selfMoveOk then v else none)
  else do
    let h ← assign h q j none
    assign h p i v

/-- `allocate(n)`, estl/allocator.hpp:33-35. Addresses are never reused. -/
def alloc (h : Heap α) (n : Nat) : Nat × Heap α :=
  (h.next, ⟨fun x => if x = h.next then some ⟨n, fun _ => .raw⟩ else h.blocks x, h.next + 1⟩)

/-- No object lives in the block. -/
def Block.AllRaw (B : Block α) : Prop := ∀ i, i < B.cap → B.slot i = .raw

def isRaw : Slot α → Bool
  | .raw => true
  | .obj _ => false

def allRawB (B : Block α) : Bool := (List.range B.cap).all (fun i => isRaw (B.slot i))

/-- `deallocate(p)`, estl/allocator.hpp:37-39: the block must be allocated and hold
no objects any more. Deallocating null is a no-op (`delete[] nullptr`). -/
def dealloc (h : Heap α) (p : Option Nat) : Res (Heap α) :=
  match p with
  | none => .ok h
  | some b =>
    match h.blocks b with
    | none => .ub
    | some B =>
      if allRawB B then .ok { h with blocks := fun x => if x = b then none else h.blocks x }
      else .ub

/-- A reference argument: a temporary outside the container, or an element `p[i]`
of a container. -/
inductive Ref (α : Type) where
  | ext (v : α)
  | elem (p : Option Nat) (i : Nat)

/-- Reading through a reference. -/
def Ref.get (h : Heap α) : Ref α → Res (Option α)
  | .ext v => .ok (some v)
  | .elem p i => read h p i

end Verif.OH
