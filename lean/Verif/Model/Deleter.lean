import Verif.Model.Value
import Verif.Model.SmartPtr

/-!
Model of `unique_ptr` and `shared_ptr` with a deleter of any class (`estl/memory.hpp`), on top of the models of tuples
(`Model/Value.lean`) and of shared ownership (`Model/SmartPtr.lean`). A deleter has a value, and what it does to an object
is recorded by the pair of both. Simplified: deleters do not throw and do not use the pointer that calls them; `get_deleter`
is not used to write; the deleter of a pointer of another type is not converted.
-/

namespace Verif.Deleter

open Verif.Value

/-! ### `unique_ptr<T, D>` and `unique_ptr<T[], D>` -/

/-- The class `pointer`, `T*` unless the deleter says otherwise: a number, 0 is null. estl/memory.hpp:50-58, 63. -/
def ptrCls : Cls := ⟨.ptr false false (.base false false (.cls 0)), true, false, fun v => v, fun v => v⟩

/-- Number of the pointer of `unique_ptr` `i`, element 0 of `data_`, estl/memory.hpp:87. Numbers below 8 are parameters and
temporaries. -/
def P (i : Nat) : Nat := 8 + 2 * i

/-- Number of the deleter of `unique_ptr` `i`, element 1 of `data_`, estl/memory.hpp:87. -/
def D (i : Nat) : Nat := 9 + 2 * i

/-- `data_`, estl/memory.hpp:87, for deleters of class `k`. -/
def data (k : Cls) (i : Nat) : List Obj := [⟨ptrCls, P i⟩, ⟨k, D i⟩]

/-- The `unique_ptr`s of a program: values of their members, which exist, the calls of deleters (value of the deleter and
object) and what `release` returned. estl/memory.hpp:90-177. -/
structure US where
  σ : Store
  live : Nat → Bool
  log : List (Nat × Nat)
  out : List Nat

/-- `if (p != nullptr) get_deleter()(p)`, estl/memory.hpp:118-119, 164-165. -/
def callIf (s : US) (i p : Nat) : US :=
  if p ≠ 0 then { s with log := s.log ++ [(s.σ (D i), p)] } else s

/-- `unique_ptr_impl(p, d)`, estl/memory.hpp:69-71: `p` is a parameter (number 0), `d` is forwarded. -/
def impl2 (k : Cls) (i src : Nat) (cat : Cat) (σ : Store) : Option Store := do
  let c ← forward (deduce k.ty cat)
  tuple_make (data k i) [0, src] [.lvalue, c] σ

/-- `release`, estl/memory.hpp:156-160; the pointer returned is number 0. -/
def release (s : US) (i : Nat) : US := { s with σ := set (set s.σ 0 (s.σ (P i))) (P i) 0 }

/-- `reset(p)`, estl/memory.hpp:162-166, 241-245; `p` is number 0, `tmp` of `swap` number 1. -/
def reset (s : US) (i : Nat) : Option US := do
  let σ ← swap 1 ⟨ptrCls, P i⟩ 0 s.σ
  return callIf { s with σ := σ } i (σ 0)

/-- What a program does with its `unique_ptr`s. estl/memory.hpp:102-171, 191-249. -/
inductive UOp where
  | make (i p d : Nat) (cat : Cat)
  | move (i j : Nat)
  | assign (i j : Nat)
  | reset (i p : Nat)
  | release (i : Nat)
  | swap (i j : Nat)
  | destroy (i : Nat)
  deriving DecidableEq

/-- One operation; `none` if the program is ill-formed. estl/memory.hpp:102-171, 191-249. -/
def ustep (k : Cls) (s : US) : UOp → Option US
  /- lines 102-107: the deleter given is number 7; `d` is a constant lvalue, `estd::move(d)` an rvalue -/
  | .make i p d cat => do
    let c ← resolve [⟨.clref, 0, false⟩, ⟨.rref, 0, false⟩] [cat]
    let σ ← impl2 k i 7 (part c.par) (set (set s.σ 0 p) 7 d)
    return { s with σ := σ, live := fun x => if x = i then true else s.live x }
  /- lines 113-114 -/
  | .move i j => do
    let s1 := release s j
    let σ ← impl2 k i (D j) (← forward k.ty) s1.σ
    return { s1 with σ := σ, live := fun x => if x = i then true else s.live x }
  /- lines 123-127 -/
  | .assign i j => do
    let s1 ← reset (release s j) i
    let σ ← assign ⟨k, D i⟩ (D j) (← forward k.ty) s1.σ
    return { s1 with σ := σ }
  /- lines 162-166 -/
  | .reset i p => reset { s with σ := set s.σ 0 p } i
  /- lines 156-160 -/
  | .release i => let s1 := release s i; some { s1 with out := s1.out ++ [s1.σ 0] }
  /- lines 168-170, estl/utility.hpp:36-41: `tmp` has the members 2 and 3, the temporary in the assignment of tuples 4 and 5 -/
  | .swap i j => do
    let σ ← tuple_from (at' (data k i) [2, 3]) [P i, D i] .xvalue s.σ
    let σ ← tuple_assign (data k i) [P j, D j] .xvalue [4, 5] 6 σ
    let σ ← tuple_assign (data k j) [2, 3] .xvalue [4, 5] 6 σ
    return { s with σ := σ }
  /- lines 116-121 -/
  | .destroy i =>
    let s1 := callIf s i (s.σ (P i))
    some { s1 with σ := set s1.σ (P i) 0, live := fun x => if x = i then false else s.live x }

/-- A program; `none` also if the class `tuple<pointer, D>` is ill-formed. estl/memory.hpp:60-177. -/
def urun (k : Cls) (s : US) : List UOp → Option US
  | [] => if tupleElement k.ty then some s else none
  | op :: ops => do
    if !tupleElement k.ty then none
    urun k (← ustep k s op) ops

/-- No `unique_ptr` yet (no code; the start of users of estl/memory.hpp:90-177). -/
def uinit : US := ⟨fun _ => 0, fun _ => false, [], []⟩

/-! ### `shared_ptr<T>` -/

/-- A deleter: one given by the user, with its value, or `default_deleter<C>`, which deletes the object as a `C` (classes are
numbered). estl/memory.hpp:8-25. -/
inductive Del where
  | user (v : Nat)
  | dflt (cls : Nat)
  deriving DecidableEq

/-- The types and the deleter in a call that adopts an object: a `shared_ptr<T>` gets a `U*`. estl/memory.hpp:565-577,
615-619. -/
structure Adopt where
  T : Nat
  U : Nat
  deleter : Option Nat

/-- The constructors: the deleter is `default_deleter<U>` if none is given. estl/memory.hpp:564-577. -/
def ctorDel (a : Adopt) : Del :=
  match a.deleter with
  | some v => .user v
  | none => .dflt a.U

/-- `reset(U*)`: the deleter is `default_deleter<T>` if none is given. estl/memory.hpp:615-619. -/
def resetDel (a : Adopt) : Del :=
  match a.deleter with
  | some v => .user v
  | none => .dflt a.T

/-- `deleter_` of a new `count_impl`, made from the argument `d` of `shared_count`: the value given in number 1 is put in
number 0. estl/memory.hpp:382-386, 416-418. -/
def storeDel (k : Cls) (cat : Cat) (σ : Store) : Option Store := do
  let c ← forward (deduce k.ty cat)
  let f ← resolve [⟨.clref, 0, false⟩, ⟨.rref, 0, false⟩] [c]
  construct ⟨k, 0⟩ 1 (part f.par) σ

/-- Threads with `shared_ptr`s, the deleter of every control block and the calls of deleters. estl/memory.hpp:375-403. -/
structure DM where
  m : SmartPtr.Machine
  del : Nat → Del
  log : List (Del × Nat)

/-- Call of the deleter in `dispose`, estl/memory.hpp:388-392. -/
def calls (x : DM) : SmartPtr.Work → List (Del × Nat)
  | .disp b =>
    match x.m.s.ctrl b with
    | some c => match c.ptr with
      | some o => [(x.del b, o)]
      | none => []
    | none => []
  | _ => []

/-- Deleters after the first step of an operation: the new control block gets one. estl/memory.hpp:416-418, 565-577, 615-619;
a failed `lock` makes a block without object, line 721. -/
def newDel (x : DM) (a : Adopt) : SmartPtr.Op → Nat → Del
  | .sNew _ _ _ => SmartPtr.upd x.del x.m.s.nblk (ctorDel a)
  | .sResetTo _ _ => SmartPtr.upd x.del x.m.s.nblk (resetDel a)
  | .sLock _ _ => SmartPtr.upd x.del x.m.s.nblk (ctorDel a)
  | _ => x.del

/-- Steps of the threads (`SmartPtr.Step`) with deleters; the last argument is the adoption made, if any.
estl/memory.hpp:375-470. -/
inductive DStep (N : Nat) : DM → DM → Option (SmartPtr.Op × Adopt) → Prop
  | work {s th t w rest s' push del log} (hfit : SmartPtr.Fits N th.flatten) (hw : th[t]? = some (w :: rest))
      (hm : SmartPtr.micro s w = .ok (s', push)) :
      DStep N ⟨⟨s, th⟩, del, log⟩ ⟨⟨s', th.set t (push ++ rest)⟩, del, log ++ calls ⟨⟨s, th⟩, del, log⟩ w⟩ none
  | op {s th t o f s' push del log} (a : Adopt) (hfit : SmartPtr.Fits N th.flatten) (hi : th[t]? = some [])
      (hl : SmartPtr.Legal N s th.flatten o) (he : SmartPtr.exec f s o = .ok (s', push)) :
      DStep N ⟨⟨s, th⟩, del, log⟩ ⟨⟨s', th.set t push⟩, newDel ⟨⟨s, th⟩, del, log⟩ a o, log⟩ (some (o, a))

/-- The states that `T` threads can reach, with the operations that led there (no code; users of
estl/memory.hpp:520-640). -/
inductive DReach (N T : Nat) : DM → List (SmartPtr.Op × Adopt) → Prop
  | start (del) : DReach N T ⟨⟨SmartPtr.init, List.replicate T []⟩, del, []⟩ []
  | step {x x' h e} : DReach N T x h → DStep N x x' e → DReach N T x' (h ++ e.toList)

end Verif.Deleter
