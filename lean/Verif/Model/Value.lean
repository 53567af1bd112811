import Verif.Model.CxxType

/-!
Model of `pair` and `tuple` as values: construction, `make_pair`, `make_tuple`, assignment and `swap`, with the overload
resolution that decides between copying and moving (`estl/pair.hpp`, `estl/tuple.hpp`, `estl/utility.hpp`). Objects are
numbered; a store gives the value of each. Simplified: arguments have the types of the elements (no conversions except in
`pair` from another `pair`), classes do not throw, elements are swapped by the general `swap`, and destructors of
temporaries are left out. `none` is an ill-formed program.
-/

namespace Verif.Value

open Verif.Cxx

/-- Value of every object (no code; the members of estl/pair.hpp:42-43 and estl/tuple.hpp:59). -/
abbrev Store := Nat → Nat

/-- Store with one value replaced (no code; the effect of the initialisers of estl/pair.hpp:15 and so on). -/
def set (σ : Store) (a v : Nat) : Store := fun x => if x = a then v else σ x

/-- An expression is a modifiable lvalue, a constant lvalue or an rvalue: the cases told apart by the overloads of
estl/pair.hpp:12-35 and estl/tuple.hpp:41-46. -/
inductive Cat where
  | lvalue | clvalue | xvalue
  deriving DecidableEq

/-- An element type, parameter `T` of estl/tuple.hpp:36 and estl/pair.hpp:5: can it be copied, does it have move operations
of its own, what do they leave in the source, what does an assignment of an object, moved, to itself leave. -/
structure Cls where
  ty : Ty
  copy : Bool
  move : Bool
  left : Nat → Nat
  self : Nat → Nat

/-- An object: class and number. The members of estl/pair.hpp:42-43, estl/tuple.hpp:59. -/
structure Obj where
  cls : Cls
  addr : Nat

/-- Initialisation of a `T` with an expression of type `T`, as in estl/pair.hpp:15, 18, 21, estl/tuple.hpp:41, 43,
46, estl/utility.hpp:38. -/
def construct (dst : Obj) (src : Nat) (cat : Cat) (σ : Store) : Option Store :=
  if cat = .xvalue && dst.cls.move then some (set (set σ src (dst.cls.left (σ src))) dst.addr (σ src))
  else if dst.cls.copy then some (set σ dst.addr (σ src))
  else none

/-- Assignment to a `T`, as in estl/pair.hpp:25-26, 32-33, estl/utility.hpp:39-40. -/
def assign (dst : Obj) (src : Nat) (cat : Cat) (σ : Store) : Option Store :=
  if cat = .xvalue && dst.cls.move then
    if src = dst.addr then some (set σ src (dst.cls.self (σ src)))
    else some (set (set σ src (dst.cls.left (σ src))) dst.addr (σ src))
  else if dst.cls.copy then some (set σ dst.addr (σ src))
  else none

/-- Parameters: `const T&`, `T&&` and the forwarding reference `Args&&`, estl/pair.hpp:15-31, estl/tuple.hpp:41-46. -/
inductive Par where
  | clref | rref | fwd
  deriving DecidableEq

/-- A candidate: its parameters (all alike), 0 if it is no template, else 1 for a template for `pair<U1, U2>` or
`tuple<Args...>` and 2 for one for any type, and whether it is deleted. estl/pair.hpp:12-31, estl/tuple.hpp:39-49, 90-102,
122-135. -/
structure Cand where
  par : Par
  gen : Nat
  deleted : Bool := false
  deriving DecidableEq

/-- How an argument binds to a parameter: not at all, exactly (0) or with a worse conversion (1). Language rule used with
estl/pair.hpp:12-31, estl/tuple.hpp:41-46, 122-135. -/
def rank : Par → Cat → Option Nat
  | .clref, .clvalue => some 0
  | .clref, _ => some 1
  | .rref, .xvalue => some 0
  | .rref, _ => none
  | .fwd, _ => some 0

/-- Is candidate `a` better than `b` for these arguments? Language rule, see `rank` (estl/pair.hpp:12-31). -/
def better (cats : List Cat) (a b : Cand) : Bool :=
  cats.all (fun c => (rank a.par c).getD 9 ≤ (rank b.par c).getD 9) &&
    (cats.any (fun c => (rank a.par c).getD 9 < (rank b.par c).getD 9) || a.gen < b.gen)

/-- Overload resolution: the one best viable candidate, if it is not deleted. Language rule, see `rank`
(estl/pair.hpp:12-31). -/
def resolve (cands : List Cand) (cats : List Cat) : Option Cand :=
  let viable := cands.filter fun c => cats.all fun k => (rank c.par k).isSome
  match viable.filter fun c => viable.all fun d => c = d || better cats c d with
  | [c] => if c.deleted then none else some c
  | _ => none

/-- The argument deduced for `Args&&` from an expression of type `t`, estl/tuple.hpp:46, 96, 129, 183,
estl/pair.hpp:76. -/
def deduce (t : Ty) : Cat → Ty
  | .lvalue => .lref t
  | .clvalue => .lref t.mkConst
  | .xvalue => t

/-- What kind of expression `forward<T>(x)` is, estl/utility.hpp:6-17: its type is `T&&`. -/
def forward (t : Ty) : Option Cat :=
  match t.mkRref with
  | some (.lref u) => some (if is_const u then .clvalue else .lvalue)
  | some (.rref _) => some .xvalue
  | _ => none

/-- What the chosen function makes of its argument of class `t`: `values...` of a `const T&` stays a constant lvalue,
`T&&` is moved on, `Args&&` is forwarded. estl/tuple.hpp:41-46, 97, 125, 129. -/
def pass (t : Ty) (p : Par) (c : Cat) : Option Cat :=
  match p with
  | .clref => some .clvalue
  | .rref => some .xvalue
  | .fwd => forward (deduce t c)

/-- `is_constructible_v<Arg, T>` for an `Arg` deduced from an expression of type `T` (estl/tuple.hpp:95 asks this and not
`<T, Arg>`): may an `Arg` be initialised with an rvalue of type `T`? -/
def argFromElement (k : Cls) (arg : Ty) : Bool :=
  match arg with
  | .lref u => is_const u
  | _ => k.move || k.copy

/-- Are all arguments fit for `tuple_impl(Args&&...)`? estl/tuple.hpp:93-96. -/
def implViable (ts : List Obj) (cats : List Cat) : Bool :=
  cats.length = ts.length && (ts.zip cats).all fun (t, c) => argFromElement t.cls (deduce t.cls.ty c)

/-- `tuple_value<I, T>(x)`, estl/tuple.hpp:41-46. -/
def tuple_value (dst : Obj) (src : Nat) (cat : Cat) (σ : Store) : Option Store := do
  let c ← resolve [⟨.clref, 0, false⟩, ⟨.rref, 0, false⟩, ⟨.fwd, 2, false⟩] [cat]
  let k ← pass dst.cls.ty c.par cat
  construct dst src k σ

/-- The base classes initialised in turn, estl/tuple.hpp:97. -/
def tuple_values : List Obj → List Nat → List Cat → Store → Option Store
  | t :: ts, s :: ss, c :: cs, σ => do tuple_values ts ss cs (← tuple_value t s c σ)
  | [], [], [], σ => some σ
  | _, _, _, _ => none

/-- Arguments passed on by the chosen constructor, estl/tuple.hpp:97, 125, 129. -/
def passAll (p : Par) : List Obj → List Cat → Option (List Cat)
  | t :: ts, c :: cs => do return (← pass t.cls.ty p c) :: (← passAll p ts cs)
  | [], [] => some []
  | _, _ => none

/-- `tuple_impl(Args&&...)` with the elements, estl/tuple.hpp:93-97. -/
def tuple_impl (ts : List Obj) (srcs : List Nat) (cats : List Cat) (σ : Store) : Option Store := do
  let cs ← if implViable ts cats then passAll .fwd ts cats else none
  tuple_values ts srcs cs σ

/-- `tuple(x...)` with one expression per element, estl/tuple.hpp:125-129. Without elements the constructors of lines 124 and
125 have the same parameters and the class is ill-formed. -/
def tuple_make (ts : List Obj) (srcs : List Nat) (cats : List Cat) (σ : Store) : Option Store := do
  if ts.isEmpty then none
  let c ← resolve (⟨.clref, 0, false⟩ :: if implViable ts cats then [⟨.fwd, 2, false⟩] else []) cats
  tuple_impl ts srcs (← passAll c.par ts cats) σ

/-- Elements copied or moved one by one by the defaulted constructors, estl/tuple.hpp:48-49, 90-91, 122-123, or with
`get<I>` by those of lines 98-103; estl/pair.hpp:12-13, 18, 21. -/
def constructAll (cat : Cat) : List Obj → List Nat → Store → Option Store
  | t :: ts, s :: ss, σ => do constructAll cat ts ss (← construct t s cat σ)
  | [], [], σ => some σ
  | _, _, _ => none

/-- What a constructor from a whole tuple or pair does with the elements of its argument: `Args&&` for the type itself is
chosen for modifiable lvalues only and hands them to a `const tuple<Args...>&`. estl/tuple.hpp:98-103, 122-135,
estl/pair.hpp:12-21. -/
def part : Par → Cat
  | .rref => .xvalue
  | _ => .clvalue

/-- `tuple(t)` for a `t` of the same type, estl/tuple.hpp:122-135. -/
def tuple_from (ts : List Obj) (srcs : List Nat) (cat : Cat) (σ : Store) : Option Store := do
  let c ← resolve [⟨.clref, 0, false⟩, ⟨.rref, 0, false⟩, ⟨.fwd, 2, false⟩, ⟨.clref, 1, false⟩, ⟨.rref, 1, false⟩] [cat]
  constructAll (part c.par) ts srcs σ

/-- `swap`, estl/utility.hpp:36-41, with the number of the object `tmp`. -/
def swap (tmp : Nat) (l : Obj) (r : Nat) (σ : Store) : Option Store := do
  let σ ← construct ⟨l.cls, tmp⟩ l.addr .xvalue σ
  let σ ← assign l r .xvalue σ
  assign ⟨l.cls, r⟩ tmp .xvalue σ

/-- `swap_impl`, estl/tuple.hpp:187-190, and `pair::swap`, estl/pair.hpp:36-39. -/
def swapAll (tmp : Nat) : List Obj → List Nat → Store → Option Store
  | t :: ts, s :: ss, σ => do swapAll tmp ts ss (← swap tmp t s σ)
  | [], [], σ => some σ
  | _, _, _ => none

/-- The elements of a second tuple of the same type (no code; the types of the temporary in estl/tuple.hpp:141, 145). -/
def at' (ts : List Obj) (addrs : List Nat) : List Obj := List.zipWith (fun t a => ⟨t.cls, a⟩) ts addrs

/-- `tuple::operator=`, estl/tuple.hpp:140-147: a temporary with elements `tmps` is made from the argument and swapped with
`*this`; `tmp` is the object of `swap`. -/
def tuple_assign (ts : List Obj) (srcs : List Nat) (cat : Cat) (tmps : List Nat) (tmp : Nat) (σ : Store) : Option Store := do
  let c ← resolve [⟨.clref, 0, false⟩, ⟨.rref, 0, false⟩] [cat]
  let σ ← tuple_from (at' ts tmps) srcs (part c.par) σ
  swapAll tmp (at' ts tmps) (ts.map Obj.addr) σ

/-- `pair(a, b)`, estl/pair.hpp:15, the only constructor with two parameters. -/
def pair_make (f s : Obj) (a b : Nat) (ca cb : Cat) (σ : Store) : Option Store := do
  let c ← resolve [⟨.clref, 0, false⟩] [ca, cb]
  let σ ← construct f a (part c.par) σ
  construct s b (part c.par) σ

/-- `make_pair(a, b)`, estl/pair.hpp:75-78. -/
def make_pair (f s : Obj) (a b : Nat) (ca cb : Cat) (σ : Store) : Option Store := do
  let ca ← forward (deduce f.cls.ty ca)
  let cb ← forward (deduce s.cls.ty cb)
  pair_make f s a b ca cb σ

/-- `pair(p)`, estl/pair.hpp:12-21, for a `p` of the same (`same`) or another type; the elements fit. -/
def pair_from (same : Bool) (f s : Obj) (p : Nat × Nat) (cat : Cat) (σ : Store) : Option Store := do
  let c ← resolve ((if same then [⟨.clref, 0, false⟩, ⟨.rref, 0, false⟩] else []) ++
    [⟨.clref, 1, false⟩, ⟨.rref, 1, false⟩]) [cat]
  constructAll (part c.par) [f, s] [p.1, p.2] σ

/-- `operator=` of `pair`, estl/pair.hpp:23-35. A template is never the copy assignment, and the implicit copy assignment is
deleted because a move constructor is declared (line 13); there is no implicit move assignment. -/
def pair_assign (same : Bool) (f s : Obj) (p : Nat × Nat) (cat : Cat) (σ : Store) : Option Store := do
  let c ← resolve ((if same then [⟨.clref, 0, true⟩] else []) ++ [⟨.clref, 1, false⟩, ⟨.rref, 1, false⟩]) [cat]
  let σ ← assign f p.1 (part c.par) σ
  assign s p.2 (part c.par) σ

/-- `swap` of two pairs, estl/pair.hpp:36-39, 80-83. -/
def pair_swap (tmp : Nat) (f s : Obj) (p : Nat × Nat) (σ : Store) : Option Store :=
  swapAll tmp [f, s] [p.1, p.2] σ

/-- Can `tuple_value<I, T>` be instantiated, estl/tuple.hpp:36-60? The constructors of lines 41 and 43 must differ in their
parameters, and `value` must be something that one value initialises. -/
def tupleElement (t : Ty) : Bool :=
  match (add_const t).mkLref, t.mkRref with
  | some a, some b => a ≠ b && !is_array t && !is_function t
  | _, _ => false

/-- Type of `make_tuple(x...)`: its element types, given those deduced for `Args`. estl/tuple.hpp:182-185. -/
def make_tuple_type (args : List Ty) : Option (List Ty) :=
  if args.isEmpty then none else if args.all tupleElement then some args else none

/-- Type of `make_pair(a, b)`: the element types, given those deduced for `T1` and `T2`. estl/pair.hpp:75-78. -/
def make_pair_type (t1 t2 : Ty) : Option (Ty × Ty) := do return (← decay t1, ← decay t2)

/-- `make_tuple(x...)`, estl/tuple.hpp:182-185: elements of the deduced types, initialised with the arguments forwarded. -/
def make_tuple (ts : List Obj) (srcs : List Nat) (cats : List Cat) (σ : Store) : Option Store := do
  let _ ← make_tuple_type (List.zipWith (fun t c => deduce t.cls.ty c) ts cats)
  tuple_make ts srcs (← passAll .fwd ts cats) σ

end Verif.Value
