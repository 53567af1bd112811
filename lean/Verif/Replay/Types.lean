import Verif.Replay.Expect
import Verif.Model.CxxType
import Verif.Model.Apply
import Verif.Model.Value
import Verif.Model.Pair
import Verif.Model.Traits
import Verif.Model.Compare

/-!
The project's own unit tests of the type traits, of `utility.hpp`, `pair`, `tuple` and `invoke`,
replayed on the models (estl/test/type_traits_test.cpp, utility_test.cpp, pair_test.cpp,
tuple_test.cpp, functional_test.cpp): evidence that the models compute what the code computes,
not proofs of properties. Not replayed: traits that ask the compiler (`is_final`, `is_abstract`,
`is_assignable`, `is_empty`, `HasMember`) and `is_convertible` for constructors.
-/

set_option backward.isDefEq.respectTransparency false
set_option maxRecDepth 100000

namespace Verif.Replay.Types
open Verif

/-! ### type_traits_test.cpp -/

section
open Cxx

/-- `int`, and so on; `A`, `B`, `C` are the class, the union and the enumeration of
estl/test/type_traits_test.cpp:53-63, 92, 101. -/
abbrev b (t : Base) : Cxx.Ty := .base false false t
/-- `t*` (the operands of estl/test/type_traits_test.cpp:11-12). -/
abbrev p (t : Cxx.Ty) : Cxx.Ty := .ptr false false t
/-- `int`. -/
abbrev int : Cxx.Ty := b .int
/-- `int const volatile` with the qualifiers given. -/
abbrev cv (c v : Bool) : Cxx.Ty := .base c v .int
/-- `void(int, int)`. -/
abbrev fn : Cxx.Ty := .fn (b .void) 0 false false .none false

/-- `IS_TEST`, estl/test/type_traits_test.cpp:9-37: pointers, arrays, qualifiers, references. -/
example : ([int, p int, p (p int)].map is_pointer = [false, true, true] ∧
    [int, p int, .arr int (some 5), .arr (.arr int (some 5)) (some 2)].map is_array = [false, false, true, true]) ∧
    ([cv false true, int, cv true false, cv true true].map is_const = [false, false, true, true] ∧
    [int, cv true false, cv false true, cv true true].map is_volatile = [false, false, true, true]) ∧
    [int, .lref int, .rref int].map is_reference = [false, true, true] ∧
    [int, .lref int, .rref int].map is_rvalue_reference = [false, false, true] ∧
    [int, .rref int, .lref int].map is_lvalue_reference = [false, false, true] := by
  decide +kernel

/-- `IS_TEST`, estl/test/type_traits_test.cpp:38-68: `is_same`, functions, pointers to members. -/
example : ([b .double, cv true false, p int, .lref int, int].map (fun t => decide (int = t)) = [false, false, false, false, true]) ∧
    [p int, b (.cls 1), b (.cls 2)].map is_function = [false, false, false] ∧
    [p int, .mem false false int 0].map is_member_pointer = [false, true] ∧
    [p fn, .mem false false fn 0, .mem false false (.fn (b .void) 1 false false .none false) 0].map
      is_member_function_pointer = [false, true, true] := by
  decide +kernel

/-- `IS_TEST`, estl/test/type_traits_test.cpp:76-105: fundamental types, unions, classes, enumerations. `uint64_t` is
`unsigned long long`. -/
example : [int, b .void, .base true false .void, .base true true .void].map is_void = [false, true, true, true] ∧
    [int, cv true false, b .ullong, b .double, b (.cls 0)].map is_integral = [true, true, true, false, false] ∧
    [b .float, .base true false .double, b (.cls 0)].map is_float = [true, true, false] ∧
    [int, b .double, b (.union 0)].map is_union = [false, false, true] ∧
    [int, b (.union 0), b (.cls 0)].map is_class = [false, false, true] ∧
    [int, b (.cls 0), b (.union 0), b (.enum 0)].map is_enum = [false, false, false, true] := by
  decide +kernel

/-- `ADD_TYPE_TEST`, estl/test/type_traits_test.cpp:129-138. -/
example : add_const int = cv true false ∧ add_volatile int = cv false true ∧ add_cv int = cv true true ∧
    add_lvalue_reference int = some (.lref int) ∧ add_rvalue_reference int = some (.rref int) ∧ add_pointer int = some (p int) ∧
    Traits.conditional true int (b .double) = int ∧ Traits.conditional false int (b .double) = b .double := by
  decide +kernel

/-- `REMOVE_TYPE_TEST`, estl/test/type_traits_test.cpp:145-158. -/
example : (remove_const (cv true false) = int ∧ remove_volatile (cv false true) = int ∧ remove_cv (cv true true) = int) ∧
    (remove_reference (.lref int) = int ∧ remove_reference (.rref int) = int) ∧
    (remove_extent (.arr int (some 5)) = int ∧ remove_extent (.arr (.arr int (some 5)) (some 2)) = .arr int (some 5) ∧
    remove_all_extent (.arr (.arr (.arr int (some 5)) (some 3)) (some 2)) = int) ∧
    decay (.arr int (some 2)) = some (p int) ∧ decay (cv true true) = some int ∧
    decay (.fn int 0 false false .none false) = some (p (.fn int 0 false false .none false)) := by
  decide +kernel

/-! ### functional_test.cpp -/

/-- The class `A` has `operator()` (estl/test/functional_test.cpp:18-20), the lambda of line 40 is
class 1 with a constant one. -/
def classes : Classes := fun k =>
  if k = 0 then some (.fn int 0 false false .none false) else if k = 1 then some (.fn int 0 true false .none false) else none

/-- `INVOKE_TEST`, estl/test/functional_test.cpp:29-42: `&func`, `&A::sub` with an object and a pointer, `&A::add`, a pointer
to an object with `operator()`, a lambda. -/
example :
    let f : Cxx.Ty := .fn int 0 false false .none false
    let a : Cxx.Ty := b (.cls 0)
    invoke classes (p f) [int, int] = some .function ∧
    invoke classes (.mem false false f 0) [.lref a, int, int] = some (.member 0 false) ∧
    invoke classes (.mem false false f 0) [p a, int, int] = some (.member 0 true) ∧
    invoke classes (p a) [int, int] = some (.functor 0) ∧ invoke classes (p f) [] = some .function ∧
    invoke classes (.lref (b (.cls 1))) [int, int] = some (.functor 1) := by
  decide +kernel

/-- `INVOKE_TEST`, estl/test/functional_test.cpp:44-45: `apply(func, t)`. -/
example : apply classes (.lref (.fn int 0 false false .none false)) ⟨[int, int], false, true⟩ =
    some (.function, [(0, .lref int), (1, .lref int)]) := by
  decide +kernel

end

/-! ### utility_test.cpp -/

/-- `BASE_TEST`, estl/test/utility_test.cpp:18-19. -/
example : (Traits.makeIndexSequence 5).length = 5 ∧ (Traits.makeIndexSequence 10).length = 10 := by decide +kernel

open Compare in
/-- `BASE_TEST`, estl/test/utility_test.cpp:21-29: the function objects. -/
example : (do
    expect ((← Arith.call .plus .i32 2#32 1#32) == 3#32)
    expect ((← Arith.call .minus .i32 2#32 1#32) == 1#32)
    expect ((← Arith.call .multiplies .i32 2#32 1#32) == 2#32)
    expect ((← Arith.call .divides .i32 2#32 1#32) == 2#32)
    for (f, x, y) in [(Fn.greater, 2#32, 1#32), (Fn.greaterEqual, 2#32, 1#32), (Fn.less, 1#32, 2#32), (Fn.lessEqual, 1#32, 2#32)] do
      match f.call (.int .i32) with
      | some g => expect (← g x y)
      | none => .ub) = .ok () := by
  decide +kernel

/-! ### pair_test.cpp, tuple_test.cpp -/

/-- An object of type `int` (estl/test/pair_test.cpp:5, tuple_test.cpp:6). -/
def intAt (a : Nat) : Value.Obj := ⟨⟨int, true, false, id, id⟩, a⟩

/-- An object of the class `A` of estl/test/tuple_test.cpp:27-51: moving takes the pointer away (the value 0 stands for
`nullptr`). -/
def clsAt (a : Nat) : Value.Obj := ⟨⟨b (.cls 0), true, true, fun _ => 0, id⟩, a⟩

/-- `expect` on the stores of programs that may be ill-formed. -/
def holds (o : Option Value.Store) (vs : List (Nat × Nat)) : Bool :=
  match o with
  | some σ => vs.all fun (a, v) => σ a == v
  | none => false

/-- `BAST_TEST`, estl/test/pair_test.cpp:4-11, 30-36: `make_pair`, copying, `swap`. -/
example :
    holds (do
      let σ ← Value.make_pair (intAt 10) (intAt 11) 1 2 .xvalue .xvalue id
      Value.pair_from true (intAt 20) (intAt 21) (10, 11) .lvalue σ) [(10, 1), (11, 2), (20, 1), (21, 2)] = true ∧
    holds (do
      let σ ← Value.make_pair (intAt 30) (intAt 31) 1 3 .xvalue .xvalue id
      let σ ← Value.make_pair (intAt 50) (intAt 51) 66 88 .xvalue .xvalue σ
      Value.pair_swap 99 (intAt 30) (intAt 31) (50, 51) σ) [(30, 66), (31, 88), (50, 1), (51, 3)] = true := by
  decide +kernel

/-- `BAST_TEST`, estl/test/pair_test.cpp:13-28: comparison. -/
example :
    let N : Pair.Ops Nat := ⟨fun a b => decide (a < b), fun a b => a == b⟩
    Pair.eq N N (1, 2) (1, 2) = true ∧
    (let x := (1, 3); let y := (2, 3)
     [Pair.eq N N x y, Pair.lt N N x y, Pair.le N N x y, Pair.gt N N x y, Pair.ge N N x y] = [false, true, true, false, false]) ∧
    (let x := (1, 2); let y := (1, 3)
     [Pair.eq N N x y, Pair.lt N N x y, Pair.le N N x y, Pair.gt N N x y, Pair.ge N N x y] = [false, true, true, false, false]) := by
  decide +kernel

/-- `BASE_TEST`, estl/test/tuple_test.cpp:5-25. -/
example :
    let t := Traits.mk [1, 2]
    let t5 := Traits.put 1 10 (Traits.put 0 5 t)
    let t1 := Traits.mk [100, 200]
    (Traits.tget 0 t, Traits.tget 1 t, Traits.tget 0 t5, Traits.tget 1 t5) = (some 1, some 2, some 5, some 10) ∧
    (Traits.tget 0 t1, Traits.tget 1 t1) = (some 100, some 200) ∧
    (let s := Traits.swap 2 t1 t5
     (Traits.tget 0 s.1, Traits.tget 1 s.1) = (some 5, some 10)) := by
  decide +kernel

/-- `CONSTRUCT_TEST`, estl/test/tuple_test.cpp:53-80: the elements of `t`, `t1`, ... are 10, 11, ...; the arguments of type
`A` are 5 (the value 5) and 0 (`nullptr`). -/
example :
    let t := Value.make_tuple [clsAt 10] [5] [.xvalue] id
    let t1 := t.bind (Value.tuple_from [clsAt 11] [10] .lvalue)
    let t2 := t1.bind (Value.tuple_from [clsAt 12] [10] .xvalue)
    let t3 := (t2.bind (Value.make_tuple [clsAt 13] [0] [.xvalue])).bind (Value.tuple_assign [clsAt 13] [12] .lvalue [90] 91)
    let t4 := (t3.bind (Value.make_tuple [clsAt 14] [0] [.xvalue])).bind (Value.tuple_assign [clsAt 14] [13] .xvalue [92] 93)
    holds t [(10, 5)] = true ∧ holds t1 [(10, 5), (11, 5)] = true ∧ holds t2 [(10, 0), (12, 5)] = true ∧
    holds t3 [(13, 5), (12, 5)] = true ∧ holds t4 [(13, 0), (14, 5)] = true := by
  decide +kernel

end Verif.Replay.Types
