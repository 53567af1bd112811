import Verif.Base.Res

/-!
Model of the random access iterators of estl: `normal_iterator` (the iterators of `vector`, and
pointers in disguise), `reverse_iterator` over it, and `deque_iterator`. Every operation is
modelled as written, on pointers into arrays or on indices; programs that use them are in a small
language with variables, output, branches and loops.

A pointer is an array and an offset; arithmetic that leaves the array (or the place behind its last
element), comparison and subtraction across arrays, and dereferencing the place behind the last
element are undefined. Elements are numbers. Containers do not change their size here.
-/

namespace Verif.Iter
open Verif

/-- A pointer into an array (`Iterator` of estl/iterator.hpp:72,84-86,148). -/
structure Ptr where
  arr : Nat
  off : Nat
deriving DecidableEq

/-- `p + n`, as in estl/iterator.hpp:125-141. -/
def padd (len : Nat → Nat) (p : Ptr) (n : Int) : Res Ptr := do
  Res.require (0 ≤ (p.off : Int) + n ∧ (p.off : Int) + n ≤ len p.arr)
  .ok ⟨p.arr, ((p.off : Int) + n).toNat⟩

/-- `*p`: the place; estl/iterator.hpp:95-97. -/
def pderef (len : Nat → Nat) (p : Ptr) : Res (Nat × Nat) := do
  Res.require (p.off < len p.arr)
  .ok (p.arr, p.off)

/-- `p - q`; estl/iterator.hpp:187-191. -/
def pdiff (p q : Ptr) : Res Int := do
  Res.require (p.arr = q.arr)
  .ok ((p.off : Int) - q.off)

/-- The six comparisons; estl/iterator.hpp:151-185. -/
inductive Cmp where
  | eq | ne | lt | le | gt | ge
deriving DecidableEq

/-- Comparison of numbers, for pointers into one array; estl/iterator.hpp:151-185. -/
def Cmp.on : Cmp → Int → Int → Bool
  | .eq, a, b => a = b
  | .ne, a, b => a ≠ b
  | .lt, a, b => a < b
  | .le, a, b => a ≤ b
  | .gt, a, b => a > b
  | .ge, a, b => a ≥ b

/-- Comparison of pointers; estl/iterator.hpp:151-185. Pointers into different arrays are not compared
(`==` on them would be defined, but says nothing about positions). -/
def pcmp (c : Cmp) (p q : Ptr) : Res Bool := do
  Res.require (p.arr = q.arr)
  .ok (c.on p.off q.off)

/-- The operations of an iterator class with objects `I`; `none` where there is no such
operation. Prefix operators give the object after the operation; postfix operators the result and
the object. A reference is the place of the element (array and offset).
estl/iterator.hpp:72-198,200-369, estl/deque.hpp:12-98. -/
structure Ops (I : Type) where
  first : Nat → I
  past : Nat → I
  deref : I → Res (Nat × Nat)
  index : Option (I → Int → Res (Nat × Nat))
  preInc : I → Res I
  preDec : I → Res I
  postInc : I → Res (I × I)
  postDec : I → Res (I × I)
  addEq : I → Int → Res I
  subEq : I → Int → Res I
  add : I → Int → Res I
  sub : I → Int → Res I
  addLeft : Option (I → Int → Res I)
  diff : Option (I → I → Res Int)
  cmp : Cmp → Option (I → I → Res Bool)

/-- `normal_iterator`, estl/iterator.hpp:72-198; `begin()` and `end()` are as in
estl/vector.hpp (pointers to the first element and behind the last). -/
def normal (len : Nat → Nat) : Ops Ptr where
  first a := ⟨a, 0⟩
  past a := ⟨a, len a⟩
  deref p := pderef len p
  index := some fun p n => do
    let q ← padd len p n
    pderef len q
  preInc p := padd len p 1
  preDec p := padd len p (-1)
  postInc p := do
    let q ← padd len p 1
    .ok (p, q)
  postDec p := do
    let q ← padd len p (-1)
    .ok (p, q)
  addEq p n := padd len p n
  subEq p n := padd len p (-n)
  add p n := padd len p n
  sub p n := padd len p (-n)
  addLeft := some fun p n => padd len p n
  diff := some pdiff
  cmp c := some (pcmp c)

/-- `reverse_iterator<normal_iterator>`, estl/iterator.hpp:200-296: the object is `current_`.
`rbegin()` holds `end()`. There is no difference and no `n + it`; the comparisons are those of
the base (estl/iterator.hpp:298-369). -/
def reverse (len : Nat → Nat) : Ops Ptr where
  first a := (normal len).past a
  past a := (normal len).first a
  deref p := do
    let tmp := p
    let tmp ← (normal len).preDec tmp
    (normal len).deref tmp
  index := some fun p n => do
    let t ← (normal len).sub p n
    let tmp ← (normal len).preDec t
    (normal len).deref tmp
  preInc p := (normal len).preDec p
  preDec p := (normal len).preInc p
  postInc p := do
    let tmp := p
    let q ← (normal len).preDec p
    .ok (tmp, q)
  postDec p := do
    let tmp := p
    let q ← (normal len).preInc p
    .ok (tmp, q)
  addEq p n := (normal len).subEq p n
  subEq p n := (normal len).addEq p n
  add p n := (normal len).sub p n
  sub p n := (normal len).add p n
  addLeft := none
  diff := none
  cmp c := (normal len).cmp c

/-- A `deque_iterator`: the deque and `index_`, estl/deque.hpp:95-98. -/
structure DIt where
  deque : Nat
  index : BitVec 64
deriving DecidableEq

/-- `index_++` and `index_--` and the difference on `int64_t`, estl/deque.hpp:42-65: overflow is undefined. -/
def step (i : BitVec 64) (n : Int) : Res (BitVec 64) := do
  Res.require (-2 ^ 63 ≤ i.toInt + n ∧ i.toInt + n < 2 ^ 63)
  .ok (BitVec.ofInt 64 (i.toInt + n))

/-- `(*deque_)[index_]`, estl/deque.hpp:27-32,149-155: the index is converted to
`size_type`; the elements have the indices from `start` on (see C20 and C21 for the blocks). The place is
the number of the element. -/
def dderef (len start : Nat → Nat) (i : DIt) : Res (Nat × Nat) := do
  Res.require (start i.deque ≤ i.index.toNat ∧ i.index.toNat < start i.deque + len i.deque)
  .ok (i.deque, i.index.toNat - start i.deque)

/-- `deque_iterator`, estl/deque.hpp:12-98, of deques whose first element has index `start`;
`begin()` and `end()` are estl/deque.hpp:206-220 (`last_` is the index of the last element, and
`first_` in an empty deque). The numbers added are converted to `size_type`, and the sum to
`int64_t`. There are no `[]`, `<`, `<=`, `>`, `>=` and `n + it`. -/
def deque (len start : Nat → Nat) : Ops DIt where
  first a := ⟨a, BitVec.ofNat 64 (start a)⟩
  past a := ⟨a, BitVec.ofNat 64 (start a + (len a - 1) + 1)⟩
  deref i := dderef len start i
  index := none
  preInc i := do
    let x ← step i.index 1
    .ok ⟨i.deque, x⟩
  preDec i := do
    let x ← step i.index (-1)
    .ok ⟨i.deque, x⟩
  postInc i := do
    let it := i
    let x ← step i.index 1
    .ok (it, ⟨i.deque, x⟩)
  postDec i := do
    let it := i
    let x ← step i.index (-1)
    .ok (it, ⟨i.deque, x⟩)
  addEq i n := .ok ⟨i.deque, i.index + BitVec.ofInt 64 n⟩
  subEq i n := .ok ⟨i.deque, i.index - BitVec.ofInt 64 n⟩
  add i n := do
    let it := i
    .ok ⟨it.deque, it.index + BitVec.ofInt 64 n⟩
  sub i n := do
    let it := i
    .ok ⟨it.deque, it.index - BitVec.ofInt 64 n⟩
  addLeft := none
  diff := some fun i j => step i.index (-j.index.toInt) >>= fun x => .ok x.toInt
  cmp
    | .eq => some fun i j => .ok (i.deque = j.deque ∧ i.index = j.index)
    | .ne => some fun i j => .ok (!decide (i.deque = j.deque ∧ i.index = j.index))
    | _ => none

/-! ### Programs -/

/-- Programs that use iterators (all operators of estl/iterator.hpp:72-198). -/
inductive Prog where
  | skip
  | seq (p q : Prog)
  /-- `x = c.begin()`, `x = c.end()`, `y = x` -/
  | first (x a : Nat)
  | past (x a : Nat)
  | copy (y x : Nat)
  /-- `++x`, `--x`, `y = x++`, `y = x--` -/
  | preInc (x : Nat)
  | preDec (x : Nat)
  | postInc (y x : Nat)
  | postDec (y x : Nat)
  /-- `x += n`, `x -= n`, `y = x + n`, `y = x - n`, `y = n + x` -/
  | addEq (x : Nat) (n : Int)
  | subEq (x : Nat) (n : Int)
  | add (y x : Nat) (n : Int)
  | sub (y x : Nat) (n : Int)
  | addLeft (y : Nat) (n : Int) (x : Nat)
  /-- output of `*x`, `x[n]`, `x - y`; `*x = *y`; `x[n] = *y` -/
  | load (x : Nat)
  | loadAt (x : Nat) (n : Int)
  | diff (x y : Nat)
  | store (x y : Nat)
  | storeAt (x : Nat) (n : Int) (y : Nat)
  /-- `if (x < y) p else q`, `while (x != y) p` and so on -/
  | ite (c : Cmp) (x y : Nat) (p q : Prog)
  | loop (c : Cmp) (x y : Nat) (p : Prog)

/-- The variables, the elements of the containers, and the output so far (most recent first), for
programs with the iterators of estl/iterator.hpp:72-369, estl/deque.hpp:12-98. -/
structure St (I : Type) where
  var : Nat → I
  mem : Nat → Nat → Int
  out : List Int

/-- Assignment to a variable; estl/iterator.hpp:72-93. -/
def St.set {I : Type} (s : St I) (x : Nat) (i : I) : St I :=
  { s with var := fun y => if y = x then i else s.var y }

/-- Running a program; an operator that does not exist (`none`) makes the program ill-formed, see
`Prog.Compiles`. estl/iterator.hpp:72-369, estl/deque.hpp:12-98. -/
def run {I : Type} (O : Ops I) : Nat → Prog → St I → Res (St I)
  | 0, _, _ => .oof
  | f + 1, p, s =>
    match p with
    | .skip => .ok s
    | .seq p q => do
      let s ← run O f p s
      run O f q s
    | .first x a => .ok (s.set x (O.first a))
    | .past x a => .ok (s.set x (O.past a))
    | .copy y x => .ok (s.set y (s.var x))
    | .preInc x => do
      let i ← O.preInc (s.var x)
      .ok (s.set x i)
    | .preDec x => do
      let i ← O.preDec (s.var x)
      .ok (s.set x i)
    | .postInc y x => do
      let r ← O.postInc (s.var x)
      .ok ((s.set x r.2).set y r.1)
    | .postDec y x => do
      let r ← O.postDec (s.var x)
      .ok ((s.set x r.2).set y r.1)
    | .addEq x n => do
      let i ← O.addEq (s.var x) n
      .ok (s.set x i)
    | .subEq x n => do
      let i ← O.subEq (s.var x) n
      .ok (s.set x i)
    | .add y x n => do
      let i ← O.add (s.var x) n
      .ok (s.set y i)
    | .sub y x n => do
      let i ← O.sub (s.var x) n
      .ok (s.set y i)
    | .addLeft y n x =>
      match O.addLeft with
      | none => .ub
      | some g => do
        let i ← g (s.var x) n
        .ok (s.set y i)
    | .load x => do
      let r ← O.deref (s.var x)
      .ok { s with out := s.mem r.1 r.2 :: s.out }
    | .loadAt x n =>
      match O.index with
      | none => .ub
      | some g => do
        let r ← g (s.var x) n
        .ok { s with out := s.mem r.1 r.2 :: s.out }
    | .diff x y =>
      match O.diff with
      | none => .ub
      | some g => do
        let d ← g (s.var x) (s.var y)
        .ok { s with out := d :: s.out }
    | .store x y => do
      let r ← O.deref (s.var y)
      let w ← O.deref (s.var x)
      .ok { s with mem := fun a i => if a = w.1 ∧ i = w.2 then s.mem r.1 r.2 else s.mem a i }
    | .storeAt x n y =>
      match O.index with
      | none => .ub
      | some g => do
        let r ← O.deref (s.var y)
        let w ← g (s.var x) n
        .ok { s with mem := fun a i => if a = w.1 ∧ i = w.2 then s.mem r.1 r.2 else s.mem a i }
    | .ite c x y p q =>
      match O.cmp c with
      | none => .ub
      | some g => do
        let b ← g (s.var x) (s.var y)
        if b then run O f p s else run O f q s
    | .loop c x y p =>
      match O.cmp c with
      | none => .ub
      | some g => do
        let b ← g (s.var x) (s.var y)
        if b then do
          let s ← run O f p s
          run O f (.loop c x y p) s
        else .ok s

/-- All operators of the program exist; estl/iterator.hpp:72-369, estl/deque.hpp:12-98. -/
def Prog.Compiles {I : Type} (O : Ops I) : Prog → Prop
  | .seq p q => p.Compiles O ∧ q.Compiles O
  | .addLeft .. => O.addLeft.isSome
  | .loadAt .. => O.index.isSome
  | .storeAt .. => O.index.isSome
  | .diff .. => O.diff.isSome
  | .ite c _ _ p q => (O.cmp c).isSome ∧ p.Compiles O ∧ q.Compiles O
  | .loop c _ _ p => (O.cmp c).isSome ∧ p.Compiles O
  | _ => True

end Verif.Iter
