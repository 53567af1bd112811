import Verif.Model.CxxType
/-!
Model of access to the elements of the containers of `estl`: the member functions of containers and iterators
that lead to elements, with their declared types and the expressions they return, and the part of the type system
of C++17 (kernel/Makefile:2) that decides whether such an expression compiles and whether its result can be
written to: overload resolution by the constness of the object, qualification conversions, binding of references.
`none` is an ill-formed program. Members of templates are only instantiated when they are called, so a call is
checked together with the body of the member called, down to a depth of `n` nested calls.

Simplifications: the element type `T` is a type of `Verif.Cxx`; numbers (positions, `bool`) have one type `num`;
arguments other than the object are left out (`c[i]`, `it + n`, `it == jt`, `c.find(k)` have the object only);
a member that sets fields before it returns is a sequence of assignments.
-/

namespace Verif.Access

open Verif.Cxx (Ty)

/-- The class templates, all for one element type `T`; `normIt c`, `revIt c` and `deqIt c` are the iterators for `T`
(`c = false`) and for `const T` (estl/array.hpp:6-16, vector.hpp:8-21, deque.hpp:12-22, 100-111, list.hpp:7-8, 79-84,
115-122, 171-178, 227-239, stack.hpp:6-13, queue.hpp:7-14, set.hpp:5-18, 153-166, string_view.hpp:7-17,
rb_tree.hpp:11-13, 50-58, 156-159, 206-213, 253-262, 571-590, iterator.hpp:72-82, 200-213). -/
inductive Cls where
  | array | vector | deque | list | stack | queue | set | multiset | view | tree
  | normIt (c : Bool) | revIt (c : Bool) | deqIt (c : Bool) | listIt | listCIt | treeIt | treeCIt
  | nodeBase | listNode | treeBase | treeNode
  deriving DecidableEq

/-- Names of members: functions and operators of the headers cited at `methods`. `incP`, `decP` are `it++`, `it--`;
`plus`, `minus` are `it + n`, `it - n`; `uppperBound` is the misspelt member of estl/set.hpp:133-135, 281-283. -/
inductive Meth where
  | begin | «end» | data | front | back | index | at | top | find | lowerBound | upperBound | uppperBound
  | deref | arrow | inc | incP | dec | decP | plus | minus | eq | base
  | getNext | getPrv | castDriver | getValue | objPointer | minNode | driver
  deriving DecidableEq

/-- Names of data members (estl/array.hpp:77 and the others cited at `fieldType`). -/
inductive Fld where
  | data_ | M_start_ | M_finish_ | blocks_ | container_ | node_ | tree_ | header_
  | M_current_ | current_ | deque_ | node | next_ | prv_ | value_ | left | right | parent | value
  deriving DecidableEq

/-- Types of expressions: `T` or `const T`, an instance of a class template, a pointer, an array (of the fields
estl/array.hpp:77, memory is otherwise reached by pointers), numbers. -/
inductive X where
  | elem (t : Ty)
  | obj (c : Bool) (k : Cls)
  | ptr (c : Bool) (x : X)
  | arr (x : X)
  | num
  deriving DecidableEq

/-- `const X`: the type of a member of type `X` in a `const` object (e.g. `data_` in estl/array.hpp:21-23). -/
def X.konst : X → X
  | .elem t => .elem t.mkConst
  | .obj _ k => .obj true k
  | .ptr _ x => .ptr true x
  | .arr x => .arr x.konst
  | .num => .num

/-- Is the outermost `const` there? (the qualifier compared in estl/array.hpp:45-51 and the like) -/
def X.isConst : X → Bool
  | .elem t => Cxx.is_const t
  | .obj c _ => c
  | .ptr c _ => c
  | .arr x => x.isConst
  | .num => false

/-- Without the outermost `const` (the type of a prvalue, e.g. of `const pointer` in estl/vector.hpp:224). -/
def X.bare : X → X
  | .elem t => .elem (Cxx.remove_const t)
  | .obj _ k => .obj false k
  | .ptr _ x => .ptr false x
  | .arr x => .arr x.bare
  | .num => .num

/-- An expression: lvalue or prvalue of a type (results of estl/vector.hpp:220-226). -/
structure Val where
  lv : Bool
  x : X
  deriving DecidableEq

/-- The declared result of a member function, by value or by reference (estl/vector.hpp:220-230). -/
inductive Ret where
  | val (x : X)
  | ref (x : X)
  deriving DecidableEq

/-- The expression that a call of a function with this result is (estl/vector.hpp:220-230). -/
def Ret.toVal : Ret → Val
  | .val x => ⟨false, x.bare⟩
  | .ref x => ⟨true, x⟩

/-- A type of `Verif.Cxx` as the result of a function: only references and pointers to elements occur
(estl/deque.hpp:19-21, 104-107). -/
def toRet : Ty → Option Ret
  | .lref t => some (.ref (.elem t))
  | .ptr c _ t => some (.val (.ptr c (.elem t)))
  | _ => none

/-- `T&` (estl/array.hpp:10). -/
def R (t : Ty) : Option Ret := t.mkLref.bind toRet
/-- `T*` (estl/array.hpp:12). -/
def P (t : Ty) : Option Ret := t.mkPtr.bind toRet

/-- `T` or `const T`: the argument of the iterators (estl/vector.hpp:16-17, deque.hpp:109-110). -/
@[reducible] def arg (T : Ty) : Bool → Ty
  | true => T.mkConst
  | false => T

/-- Qualification conversion of what a pointer points to ([conv.qual]): no `const` is lost, and one may only be added
below others that are there in the result (needed by estl/array.hpp:45-51, list.hpp:196-198). `k`: all levels above are
`const`. -/
def qual : Bool → X → X → Bool
  | k, .ptr c x, .ptr d y => (!c || d) && (c == d || k) && qual (k && d) x y
  | k, a, b => a.bare == b.bare && (!a.isConst || b.isConst) && (a.isConst == b.isConst || k)

/-- Array-to-pointer conversion (estl/array.hpp:18-20). -/
def decay : X → X
  | .arr x => .ptr false x
  | x => x

/-- Implicit conversions between classes by converting constructors: estl/iterator.hpp:88-93 (from
`Container::pointer` only), 221-222 (whose body converts the base); rb_tree.hpp:265-266. There are none between the
iterators of `list` (list.hpp:125-126, 181-182) and of `deque` (deque.hpp:24-25). -/
def convClass : Cls → Cls → Bool
  | .normIt false, .normIt true => true
  | .revIt false, .revIt true => true
  | .treeIt, .treeCIt => true
  | k, k' => k == k'

/-- Copyable classes are the iterators here (their copy constructors are implicit or estl/iterator.hpp:217,
rb_tree.hpp:165); the copy of a container has other elements and is not an access. -/
def isIter : Cls → Bool
  | .normIt _ | .revIt _ | .deqIt _ | .listIt | .listCIt | .treeIt | .treeCIt => true
  | _ => false

/-- Does the expression initialise an object of the type? Copies of pointers and iterators, the conversions above and
the implicit constructor of iterators from nodes, estl/rb_tree.hpp:161-162, 212, 261 (used in lines 646-657). -/
def initable (v : Val) : X → Bool
  | .ptr _ y => match decay v.x with
    | .ptr _ x => qual true x y
    | _ => false
  | .obj _ k' => match v.x with
    | .obj _ k => isIter k && convClass k k'
    | .ptr _ (.obj false .treeBase) => k' == .treeIt || k' == .treeCIt
    | _ => false
  | .num => v.x == .num
  | _ => false

/-- Does the expression in `return` fit the result? References bind to lvalues of the same type with no less `const`
(C++17, [dcl.init.ref]; a `const` reference to a converted temporary does not occur: estl/array.hpp:53-67). -/
def fits (v : Val) : Ret → Bool
  | .val x => initable v x
  | .ref x => v.lv && v.x.bare == x.bare && (!v.x.isConst || x.isConst)

/-- Expressions: of users (`var` is a variable of the program) and of the bodies of members, estl/array.hpp:18-74
and the others cited at `methods`. `call` is a member call or an operator, `konst` is the access by a reference to const,
`copy` is a variable initialised by the expression, `mk` the explicit construction of an iterator, `cast` a
`static_cast` between pointers. -/
inductive Expr where
  | self
  | var (i : Nat)
  | field (e : Expr) (f : Fld)
  | call (e : Expr) (m : Meth)
  | addr (e : Expr)
  | konst (e : Expr)
  | copy (e : Expr)
  | conv (e : Expr) (k : Cls)
  | mk (k : Cls) (e : Expr)
  | cast (x : X) (e : Expr)
  | assign (a b : Expr)
  | seq (a b : Expr)
  deriving DecidableEq

/-- `*e` and `e->`, as in estl/list.hpp:128-138. -/
abbrev Expr.deref (e : Expr) : Expr := .call e .deref

/-- A member function: name, is it `const`, declared result, expression returned (estl/array.hpp:18-74). -/
structure Member where
  name : Meth
  cst : Bool
  ret : Option Ret
  body : Expr

/-- Types of the data members: estl/array.hpp:77; vector.hpp:342-343; deque.hpp:15-16, 96, 344; stack.hpp:66;
queue.hpp:66; list.hpp:75-76, 112, 168, 224, 478; set.hpp:150, 298; string_view.hpp:100; rb_tree.hpp:45-47, 82, 203, 1002;
iterator.hpp:148, 295. A `deque_iterator<const T>` points to a `const deque<remove_cv_t<const T>>`. -/
def fieldType (T : Ty) : Cls → Fld → Option X
  | .array, .data_ => some (.arr (.elem T))
  | .vector, .M_start_ => some (.ptr false (.elem T))
  | .vector, .M_finish_ => some (.ptr false (.elem T))
  | .deque, .blocks_ => some (.ptr false (.ptr false (.elem T)))
  | .stack, .container_ => some (.obj false .deque)
  | .queue, .container_ => some (.obj false .deque)
  | .list, .node_ => some (.obj false .nodeBase)
  | .nodeBase, .next_ => some (.ptr false (.obj false .nodeBase))
  | .nodeBase, .prv_ => some (.ptr false (.obj false .nodeBase))
  | .listNode, .value_ => some (.elem T)
  | .listIt, .current_ => some (.ptr false (.obj false .listNode))
  | .listCIt, .current_ => some (.ptr false (.obj true .listNode))
  | .set, .tree_ => some (.obj false .tree)
  | .multiset, .tree_ => some (.obj false .tree)
  | .view, .data_ => some (.ptr false (.elem T.mkConst))
  | .tree, .header_ => some (.ptr false (.obj false .treeBase))
  | .treeBase, .left => some (.ptr false (.obj false .treeBase))
  | .treeBase, .right => some (.ptr false (.obj false .treeBase))
  | .treeBase, .parent => some (.ptr false (.obj false .treeBase))
  | .treeNode, .value => some (.elem T)
  | .treeIt, .node => some (.ptr false (.obj false .treeBase))
  | .treeCIt, .node => some (.ptr false (.obj false .treeBase))
  | .normIt c, .M_current_ => some (.ptr false (.elem (arg T c)))
  | .revIt c, .current_ => some (.obj false (.normIt c))
  | .deqIt c, .deque_ =>
    if Cxx.remove_cv (arg T c) = T then some (.ptr false (.obj (Cxx.is_const (arg T c)) .deque)) else none
  | _, _ => none

/-- Parameters of the constructors of iterators: estl/iterator.hpp:86, 215; deque.hpp:24; list.hpp:125, 181;
rb_tree.hpp:161. -/
def ctorParam (T : Ty) : Cls → Option X
  | .normIt c => some (.ptr false (.elem (arg T c)))
  | .revIt c => some (.obj false (.normIt c))
  | .deqIt c => fieldType T (.deqIt c) .deque_
  | .listIt => fieldType T .listIt .current_
  | .listCIt => fieldType T .listCIt .current_
  | .treeIt => fieldType T .treeIt .node
  | .treeCIt => fieldType T .treeCIt .node
  | _ => none

/-- A field of the object itself (`data_` for `this->data_`, estl/array.hpp:19). -/
abbrev me (f : Fld) : Expr := .field .self f

/-- `const_reference` (`const T&`, estl/array.hpp:11). -/
def CR (T : Ty) : Option Ret := R T.mkConst
/-- `const_pointer` (`const T*`, estl/array.hpp:15). -/
def CP (T : Ty) : Option Ret := P T.mkConst
/-- An iterator by value, as in estl/vector.hpp:285-299. -/
def it (k : Cls) : Option Ret := some (.val (.obj false k))
/-- `iterator&`, the result of `++it` (estl/iterator.hpp:103-106). -/
def itRef (k : Cls) : Option Ret := some (.ref (.obj false k))
/-- `bool`, the result of `it == jt` (estl/list.hpp:161-163). -/
def bool : Option Ret := some (.val .num)

/-- Post-increment and -decrement: `It it = *this; step; return it`, as in estl/list.hpp:144-148. -/
abbrev post (step : Expr) : Expr := .seq step (.copy .self)
/-- Pre-increment and -decrement: `step; return *this`, as in estl/list.hpp:140-143. -/
abbrev pre (step : Expr) : Expr := .seq step .self

/-- `array`, estl/array.hpp:18-74. -/
def arrayMembers (T : Ty) : List Member :=
  [⟨.begin, false, P T, me .data_⟩,                                    -- 18-20
   ⟨.begin, true, CP T, me .data_⟩,                                    -- 21-23
   ⟨.end, false, P T, .call (me .data_) .plus⟩,                        -- 29-31
   ⟨.end, true, CP T, .call (me .data_) .plus⟩,                        -- 33-35
   ⟨.data, true, P T, me .data_⟩,                                      -- 45-47
   ⟨.data, false, CP T, me .data_⟩,                                    -- 49-51
   ⟨.front, false, R T, .call (me .data_) .index⟩,                     -- 53-55
   ⟨.front, true, CR T, .call (me .data_) .index⟩,                     -- 57-59
   ⟨.back, false, R T, .call (me .data_) .index⟩,                      -- 61-63
   ⟨.back, true, CR T, .call (me .data_) .index⟩,                      -- 64-66
   ⟨.index, false, R T, .call (me .data_) .index⟩,                     -- 68-70
   ⟨.index, true, CR T, .call (me .data_) .index⟩]                     -- 72-74

/-- `vector`, estl/vector.hpp:220-242, 285-299, 309-315; `data() const` returns `const pointer`, which is `T* const`. -/
def vectorMembers (T : Ty) : List Member :=
  [⟨.data, false, P T, me .M_start_⟩,                                   -- 220-222
   ⟨.data, true, some (.val (.ptr true (.elem T))), me .M_start_⟩,      -- 224-226
   ⟨.front, false, R T, (me .M_start_).deref⟩,                          -- 228-230
   ⟨.front, true, CR T, (me .M_start_).deref⟩,                          -- 232-234
   ⟨.back, false, R T, (Expr.call (.call .self .end) .minus).deref⟩,    -- 236-238
   ⟨.back, true, CR T, (Expr.call (.call .self .end) .minus).deref⟩,    -- 240-242
   ⟨.begin, false, it (.normIt false), .mk (.normIt false) (me .M_start_)⟩,  -- 285-287
   ⟨.end, false, it (.normIt false), .mk (.normIt false) (me .M_finish_)⟩,  -- 289-291
   ⟨.begin, true, it (.normIt true), .mk (.normIt true) (me .M_start_)⟩,  -- 293-295
   ⟨.end, true, it (.normIt true), .mk (.normIt true) (me .M_finish_)⟩,  -- 297-299
   ⟨.index, false, R T, (Expr.call (me .M_start_) .plus).deref⟩,        -- 309-311
   ⟨.index, true, CR T, (Expr.call (me .M_start_) .plus).deref⟩]        -- 313-315

/-- `normal_iterator<T*>` and `normal_iterator<const T*>`, estl/iterator.hpp:95-155; its types are those of
`iterator_traits`, lines 54-70. -/
def normMembers (T : Ty) (c : Bool) : List Member :=
  [⟨.deref, true, R (arg T c), (me .M_current_).deref⟩,                 -- 95-97
   ⟨.arrow, true, P (arg T c), me .M_current_⟩,                         -- 99-101
   ⟨.inc, false, itRef (.normIt c), pre (.call (me .M_current_) .inc)⟩,  -- 103-106
   ⟨.incP, false, it (.normIt c), .mk (.normIt c) (.call (me .M_current_) .incP)⟩,  -- 108-110
   ⟨.dec, false, itRef (.normIt c), pre (.call (me .M_current_) .dec)⟩,  -- 112-115
   ⟨.decP, false, it (.normIt c), .mk (.normIt c) (.call (me .M_current_) .decP)⟩,  -- 117-119
   ⟨.index, true, R (arg T c), .call (me .M_current_) .index⟩,          -- 121-123
   ⟨.plus, true, it (.normIt c), .mk (.normIt c) (.call (me .M_current_) .plus)⟩,  -- 130-132
   ⟨.minus, true, it (.normIt c), .mk (.normIt c) (.call (me .M_current_) .minus)⟩,  -- 139-141
   ⟨.base, true, some (.ref (.ptr true (.elem (arg T c)))), me .M_current_⟩,  -- 143-145
   ⟨.eq, true, bool, .call (.call .self .base) .eq⟩]                    -- 151-155

/-- `reverse_iterator` of the iterators of `vector`, estl/iterator.hpp:224-302. -/
def revMembers (T : Ty) (c : Bool) : List Member :=
  [⟨.base, true, it (.normIt c), me .current_⟩,                        -- 224-226
   ⟨.deref, true, R (arg T c), (Expr.call (.copy (me .current_)) .dec).deref⟩,  -- 228-231
   ⟨.arrow, true, P (arg T c), .call (.call (.copy (me .current_)) .dec) .arrow⟩,   -- 232-237
   ⟨.inc, false, itRef (.revIt c), pre (.call (me .current_) .dec)⟩,   -- 239-242
   ⟨.incP, false, it (.revIt c), post (.call (me .current_) .dec)⟩,    -- 244-248
   ⟨.decP, false, it (.revIt c), post (.call (me .current_) .inc)⟩,    -- 250-254
   ⟨.dec, false, itRef (.revIt c), pre (.call (me .current_) .inc)⟩,   -- 256-259
   ⟨.plus, true, it (.revIt c), .mk (.revIt c) (.call (me .current_) .minus)⟩,  -- 261-263
   ⟨.minus, true, it (.revIt c), .mk (.revIt c) (.call (me .current_) .plus)⟩,  -- 269-271
   ⟨.index, true, R (arg T c), (Expr.call .self .plus).deref⟩,         -- 278-280
   ⟨.eq, true, bool, .call (.call .self .base) .eq⟩]                   -- 298-302

/-- `list_node_base`, estl/list.hpp:52-72. -/
def nodeBaseMembers : List Member :=
  [⟨.castDriver, false, some (.val (.ptr false (.obj false .listNode))),
      .cast (.obj false .listNode) (.addr .self)⟩,                      -- 52-54
   ⟨.castDriver, true, some (.val (.ptr false (.obj true .listNode))),
      .cast (.obj true .listNode) (.addr .self)⟩,                       -- 56-58
   ⟨.getNext, false, some (.val (.ptr false (.obj false .listNode))), .call (me .next_).deref .castDriver⟩,  -- 60-62
   ⟨.getNext, true, some (.val (.ptr false (.obj true .listNode))), .call (me .next_).deref .castDriver⟩,  -- 64-66
   ⟨.getPrv, false, some (.val (.ptr false (.obj false .listNode))), .call (me .prv_).deref .castDriver⟩,  -- 67-69
   ⟨.getPrv, true, some (.val (.ptr false (.obj true .listNode))), .call (me .prv_).deref .castDriver⟩]  -- 70-72

/-- `list_node`, estl/list.hpp:97-102. -/
def listNodeMembers (T : Ty) : List Member :=
  [⟨.getValue, false, R T, me .value_⟩,                                 -- 97-99
   ⟨.getValue, true, CR T, me .value_⟩]                                 -- 100-102

/-- `list_iterator` and `const_list_iterator` have the same operators up to the type of `*it`, estl/list.hpp:128-163,
184-219; `->` returns `value_type*` in both. `r` is the type of `*it` of an iterator that is not const. -/
def listItMembers (T : Ty) (k : Cls) (r : Option Ret) : List Member :=
  [⟨.deref, false, r, .call (me .current_).deref .getValue⟩,            -- 128-130, 184-186
   ⟨.deref, true, CR T, .call (me .current_).deref .getValue⟩,          -- 132-134, 188-190
   ⟨.arrow, true, P T, .addr (.call (me .current_).deref .getValue)⟩,   -- 136-138, 192-194
   ⟨.inc, false, itRef k, pre (.assign (me .current_) (.call (me .current_).deref .getNext))⟩,  -- 140-143, 196-199
   ⟨.incP, false, it k, post (.assign (me .current_) (.call (me .current_).deref .getNext))⟩,  -- 144-148, 200-204
   ⟨.dec, false, itRef k, pre (.assign (me .current_) (.call (me .current_).deref .getPrv))⟩,  -- 150-153, 206-209
   ⟨.decP, false, it k, post (.assign (me .current_) (.call (me .current_).deref .getPrv))⟩,  -- 155-159, 211-215
   ⟨.eq, false, bool, .call (me .current_) .eq⟩]                        -- 161-163, 217-219

/-- `list`, estl/list.hpp:376-404. -/
def listMembers (T : Ty) : List Member :=
  [⟨.front, false, R T, (Expr.call .self .begin).deref⟩,               -- 376-378
   ⟨.front, true, CR T, (Expr.call .self .begin).deref⟩,               -- 379-381
   ⟨.back, false, R T, (Expr.call (.call .self .end) .dec).deref⟩,     -- 383-385
   ⟨.back, true, CR T, (Expr.call (.call .self .end) .dec).deref⟩,     -- 386-388
   ⟨.begin, false, it .listIt, .mk .listIt (.call (me .node_) .getNext)⟩,       -- 390-392
   ⟨.begin, true, it .listCIt, .mk .listCIt (.call (me .node_) .getNext)⟩,      -- 394-396
   ⟨.end, false, it .listIt, .mk .listIt (.call (me .node_) .castDriver)⟩,      -- 398-400
   ⟨.end, true, it .listCIt, .mk .listCIt (.call (me .node_) .castDriver)⟩]     -- 402-404

/-- `deque`, estl/deque.hpp:149-171, 206-220, 333-335. -/
def dequeMembers (T : Ty) : List Member :=
  [⟨.index, false, (Cxx.add_lvalue_reference T).bind toRet, (Expr.call .self .objPointer).deref⟩,  -- 149-151
   ⟨.index, true, CR T, (Expr.call .self .objPointer).deref⟩,           -- 153-155
   ⟨.front, false, (Cxx.add_lvalue_reference T).bind toRet, .call .self .index⟩,  -- 157-159
   ⟨.front, true, CR T, .call .self .index⟩,                            -- 161-163
   ⟨.back, false, (Cxx.add_lvalue_reference T).bind toRet, .call .self .index⟩,  -- 165-167
   ⟨.back, true, CR T, .call .self .index⟩,                             -- 169-171
   ⟨.begin, false, it (.deqIt false), .mk (.deqIt false) (.addr .self)⟩,  -- 206-208
   ⟨.begin, true, it (.deqIt true), .mk (.deqIt true) (.addr .self)⟩,   -- 210-212
   ⟨.end, false, it (.deqIt false), .mk (.deqIt false) (.addr .self)⟩,  -- 214-216
   ⟨.end, true, it (.deqIt true), .mk (.deqIt true) (.addr .self)⟩,     -- 218-220
   ⟨.objPointer, true, (Cxx.add_pointer T).bind toRet, .addr (.call (.call (me .blocks_) .index) .index)⟩]  -- 333-335

/-- `deque_iterator<T>` and `deque_iterator<const T>`, estl/deque.hpp:19-21, 27-89; the position `index_` is a number and
left out. `const_reference` is `add_const_t` of a reference. -/
def deqItMembers (T : Ty) (c : Bool) : List Member :=
  [⟨.deref, false, (Cxx.add_lvalue_reference (arg T c)).bind toRet, .call (me .deque_).deref .index⟩,  -- 27-29
   ⟨.deref, true, ((Cxx.add_lvalue_reference (arg T c)).map Cxx.add_const).bind toRet,
      .call (me .deque_).deref .index⟩,                                 -- 30-32
   ⟨.arrow, false, (Cxx.add_pointer (arg T c)).bind toRet, .addr (.call (me .deque_).deref .index)⟩,  -- 34-36
   ⟨.arrow, true, (((Cxx.add_pointer (arg T c)).map Ty.mkConst).bind toRet),
      .addr (.call (me .deque_).deref .index)⟩,                         -- 38-40
   ⟨.inc, false, itRef (.deqIt c), .self⟩,                              -- 46-49
   ⟨.incP, false, it (.deqIt c), .copy .self⟩,                          -- 51-55
   ⟨.dec, false, itRef (.deqIt c), .self⟩,                              -- 57-60
   ⟨.decP, false, it (.deqIt c), .copy .self⟩,                          -- 61-65
   ⟨.plus, false, it (.deqIt c), .copy .self⟩,                          -- 76-80
   ⟨.minus, false, it (.deqIt c), .copy .self⟩,                         -- 81-85
   ⟨.eq, false, bool, .call (me .deque_) .eq⟩]                          -- 87-89

/-- `stack`, estl/stack.hpp:40-46. -/
def stackMembers (T : Ty) : List Member :=
  [⟨.top, false, R T, .call (me .container_) .back⟩,                    -- 40-42
   ⟨.top, true, R T, .call (me .container_) .back⟩]                     -- 44-46

/-- `queue`, estl/queue.hpp:49-55. -/
def queueMembers (T : Ty) : List Member :=
  [⟨.front, false, R T, .call (me .container_) .front⟩,                 -- 49-51
   ⟨.front, true, R T, .call (me .container_) .front⟩]                  -- 53-55

/-- `basic_string_view`, estl/string_view.hpp:31-37, 50-67. -/
def viewMembers (T : Ty) : List Member :=
  [⟨.begin, true, CP T, me .data_⟩,                                     -- 31-33
   ⟨.end, true, CP T, .call (me .data_) .plus⟩,                         -- 35-37
   ⟨.index, true, CR T, .call (me .data_) .index⟩,                      -- 50-52
   ⟨.at, true, CR T, .call (me .data_) .index⟩,                         -- 54-56
   ⟨.front, true, CR T, .call (me .data_) .index⟩,                      -- 57-59
   ⟨.back, true, CR T, .call (me .data_) .index⟩,                       -- 61-63
   ⟨.data, true, CP T, me .data_⟩]                                      -- 65-67

/-- `rb_tree_node_base`, estl/rb_tree.hpp:15-21. -/
def treeBaseMembers : List Member :=
  [⟨.driver, false, some (.val (.ptr false (.obj false .treeNode))), .cast (.obj false .treeNode) (.addr .self)⟩,  -- 15-17
   ⟨.driver, true, some (.val (.ptr false (.obj true .treeNode))), .cast (.obj true .treeNode) (.addr .self)⟩]  -- 19-21

/-- `node->get_driver_ptr()->value`, estl/rb_tree.hpp:216, 220, 269, 273. -/
abbrev nodeValue : Expr := .field (Expr.call (me .node).deref .driver).deref .value

/-- `increment()` and `decrement()`, estl/rb_tree.hpp:166-200, set `node` to one of the links of a node. -/
abbrev stepNode (f : Fld) : Expr := .assign (me .node) (.field (me .node).deref f)

/-- `rb_tree_iterator` and `rb_tree_const_iterator`, estl/rb_tree.hpp:215-250, 268-304: the same but for the results of `*`
and `->` and the `const` of the comparison. -/
def treeItMembers (k : Cls) (r p : Option Ret) (eqConst : Bool) : List Member :=
  [⟨.arrow, false, p, .addr nodeValue⟩,                                 -- 215-217, 268-270
   ⟨.deref, false, r, nodeValue⟩,                                       -- 219-221, 272-274
   ⟨.inc, false, itRef k, pre (.seq (stepNode .right) (.seq (stepNode .left) (stepNode .parent)))⟩,  -- 223-226, 276-279
   ⟨.incP, false, it k, post (.seq (stepNode .right) (.seq (stepNode .left) (stepNode .parent)))⟩,  -- 228-232, 281-285
   ⟨.dec, false, itRef k, pre (.seq (stepNode .right) (.seq (stepNode .left) (stepNode .parent)))⟩,  -- 234-237, 287-290
   ⟨.decP, false, it k, post (.seq (stepNode .right) (.seq (stepNode .left) (stepNode .parent)))⟩,  -- 239-243, 292-296
   ⟨.eq, eqConst, bool, .call (me .node) .eq⟩]                          -- 245-247, 298-300

/-- The loops of `find`, `lower_bound` and `upper_bound` in a tree, estl/rb_tree.hpp:678-705, 845-902: local pointers to
nodes, `header_` and links below `root()` (lines 905-907). Comparing keys is left out (for a `pair` it does not compile). -/
abbrev descend : Expr := .seq (.copy (me .header_)) (.copy (.field (me .header_).deref .parent))

/-- `rb_tree`, estl/rb_tree.hpp:646-657, 678-705, 845-902, 908-913. -/
def treeMembers : List Member :=
  [⟨.begin, false, it .treeIt, .call .self .minNode⟩,                   -- 646-648
   ⟨.begin, true, it .treeCIt, .call .self .minNode⟩,                   -- 649-651
   ⟨.end, false, it .treeIt, me .header_⟩,                              -- 652-654
   ⟨.end, true, it .treeCIt, me .header_⟩,                              -- 655-657
   ⟨.find, true, it .treeCIt,
      .seq descend (.seq (.call (.mk .treeCIt (me .header_)) .eq) (.call .self .end))⟩,  -- 678-691
   ⟨.find, false, it .treeIt,
      .seq descend (.seq (.call (.mk .treeIt (me .header_)) .eq) (.call .self .end))⟩,  -- 692-705
   ⟨.lowerBound, false, it .treeIt, descend⟩,                           -- 845-858
   ⟨.lowerBound, true, it .treeCIt, descend⟩,                           -- 860-873
   ⟨.upperBound, false, it .treeIt, descend⟩,                           -- 875-888
   ⟨.upperBound, true, it .treeCIt, descend⟩,                           -- 889-902
   ⟨.minNode, false, some (.ref (.ptr false (.obj false .treeBase))), .field (me .header_).deref .left⟩,  -- 908-910
   ⟨.minNode, true, some (.ref (.ptr true (.obj false .treeBase))), .field (me .header_).deref .left⟩]  -- 911-913

/-- `set` and `multiset`, estl/set.hpp:59-70, 113-139, 207-218, 261-287: all iterators are `rb_tree_const_iterator`. -/
def setMembers : List Member :=
  [⟨.begin, false, it .treeCIt, .call (me .tree_) .begin⟩,              -- 59-61, 207-209
   ⟨.begin, true, it .treeCIt, .call (me .tree_) .begin⟩,               -- 62-64, 210-212
   ⟨.end, false, it .treeCIt, .call (me .tree_) .end⟩,                  -- 65-67, 213-215
   ⟨.end, true, it .treeCIt, .call (me .tree_) .end⟩,                   -- 68-70, 216-218
   ⟨.find, false, it .treeCIt, .call (me .tree_) .find⟩,                -- 113-115, 261-263
   ⟨.find, true, it .treeCIt, .call (me .tree_) .find⟩,                 -- 117-119, 265-267
   ⟨.lowerBound, false, it .treeCIt, .call (me .tree_) .lowerBound⟩,    -- 125-127, 273-275
   ⟨.lowerBound, true, it .treeCIt, .call (me .tree_) .lowerBound⟩,     -- 129-131, 277-279
   ⟨.uppperBound, false, it .treeCIt, .call (me .tree_) .upperBound⟩,   -- 133-135, 281-283
   ⟨.upperBound, true, it .treeCIt, .call (me .tree_) .upperBound⟩]     -- 137-139, 285-287

/-- The members of a class (estl/array.hpp:18-75 and the other headers as cited at the lists). -/
def methods (T : Ty) : Cls → List Member
  | .array => arrayMembers T
  | .vector => vectorMembers T
  | .deque => dequeMembers T
  | .list => listMembers T
  | .stack => stackMembers T
  | .queue => queueMembers T
  | .set => setMembers
  | .multiset => setMembers
  | .view => viewMembers T
  | .tree => treeMembers
  | .normIt c => normMembers T c
  | .revIt c => revMembers T c
  | .deqIt c => deqItMembers T c
  | .listIt => listItMembers T .listIt (R T)
  | .listCIt => listItMembers T .listCIt (CR T)
  | .treeIt => treeItMembers .treeIt (R T) (P T) true
  | .treeCIt => treeItMembers .treeCIt (CR T) (CP T) false
  | .nodeBase => nodeBaseMembers
  | .listNode => listNodeMembers T
  | .treeBase => treeBaseMembers
  | .treeNode => []

/-- Base classes: estl/list.hpp:80, rb_tree.hpp:51. -/
def super : Cls → Option Cls
  | .listNode => some .nodeBase
  | .treeNode => some .treeBase
  | _ => none

/-- Overload resolution among members of one name ([over.match]): a `const` object has the `const` member only, for
another the one without `const` is better (the pairs of estl/array.hpp:18-74). -/
def pick (ms : List Member) (c : Bool) (m : Meth) : Option Member :=
  if c then ms.find? fun M => M.name == m && M.cst
  else (ms.find? fun M => M.name == m && !M.cst).or (ms.find? fun M => M.name == m && M.cst)

/-- Lookup of a member: in the class, then in its base (a name in the class hides those of the base; estl/list.hpp:80). -/
def resolve (T : Ty) (k : Cls) (c : Bool) (m : Meth) : Option (Cls × Member) :=
  if (methods T k).any fun M => M.name == m then (pick (methods T k) c m).map (k, ·)
  else (super k).bind fun k' => (pick (methods T k') c m).map (k', ·)

/-- The built-in operators on pointers, arrays and numbers (used e.g. in estl/iterator.hpp:95-141). -/
def builtin (m : Meth) (v : Val) : Option Val :=
  match m, decay v.x with
  | .deref, .ptr _ x => some ⟨true, x⟩
  | .index, .ptr _ x => some ⟨true, x⟩
  | .arrow, .ptr _ x => some ⟨false, .ptr false x⟩
  | .plus, .ptr _ x => some ⟨false, .ptr false x⟩
  | .minus, .ptr _ x => some ⟨false, .ptr false x⟩
  | .inc, .ptr c x => if v.lv && !c then some ⟨true, .ptr false x⟩ else none
  | .dec, .ptr c x => if v.lv && !c then some ⟨true, .ptr false x⟩ else none
  | .incP, .ptr c x => if v.lv && !c then some ⟨false, .ptr false x⟩ else none
  | .decP, .ptr c x => if v.lv && !c then some ⟨false, .ptr false x⟩ else none
  | .eq, .ptr _ _ => some ⟨false, .num⟩
  | _, _ => none

/-- `static_cast` between pointers (estl/list.hpp:52-58, rb_tree.hpp:15-21): to the derived class, not losing `const`. -/
def castable : X → X → Bool
  | .ptr _ (.obj c .nodeBase), .obj d .listNode => !c || d
  | .ptr _ (.obj c .treeBase), .obj d .treeNode => !c || d
  | _, _ => false

/-- Can it be assigned to? (estl/list.hpp:141, rb_tree.hpp:168) Pointers, iterators and elements that are not const. -/
def assignable (v : Val) : Bool :=
  v.lv && !v.x.isConst && match v.x with
    | .elem _ => true
    | .ptr _ _ => true
    | .obj _ k => isIter k
    | _ => false

/-- Does the expression on the right of `=` fit? An element takes elements of the same type (used on pointers in
estl/list.hpp:141, rb_tree.hpp:168; by users on elements). -/
def takes (v : Val) : X → Bool
  | .elem t => v.x.bare == (X.elem t).bare
  | x => initable v x

/-- The type of an expression; `body` checks the body of a member that is called (see `ty`). Operands as in
estl/array.hpp:18-74 and the others cited at `methods`. -/
def check (T : Ty) (Γ : Nat → Option X) (body : Cls → Member → Option Val) (self : Option X) : Expr → Option Val
  | .self => self.map (⟨true, ·⟩)
  | .var i => (Γ i).map (⟨true, ·⟩)
  | .field e f => (check T Γ body self e).bind fun v => match v.x with
    | .obj c k => (fieldType T k f).map fun x => ⟨true, if c then x.konst else x⟩
    | _ => none
  | .call e m => (check T Γ body self e).bind fun v => match v.x with
    | .obj c k => (resolve T k c m).bind fun kM => kM.2.ret.bind fun r => (body kM.1 kM.2).bind fun b =>
        if fits b r then some r.toVal else none
    | _ => builtin m v
  | .addr e => (check T Γ body self e).bind fun v => if v.lv then some ⟨false, .ptr false v.x⟩ else none
  | .konst e => (check T Γ body self e).map fun v => ⟨true, v.x.konst⟩
  | .copy e => (check T Γ body self e).bind fun v => match v.x with
    | .obj _ k => if isIter k then some ⟨true, .obj false k⟩ else none
    | .ptr _ x => some ⟨true, .ptr false x⟩
    | _ => none
  | .conv e k => (check T Γ body self e).bind fun v => if initable v (.obj false k) then some ⟨true, .obj false k⟩ else none
  | .mk k e => (check T Γ body self e).bind fun v => (ctorParam T k).bind fun x =>
      if initable v x then some ⟨false, .obj false k⟩ else none
  | .cast x e => (check T Γ body self e).bind fun v => if castable v.x x then some ⟨false, .ptr false x⟩ else none
  | .assign a b => (check T Γ body self a).bind fun v => (check T Γ body self b).bind fun w =>
      if assignable v && takes w v.x then some v else none
  | .seq a b => (check T Γ body self a).bind fun _ => check T Γ body self b

/-- The type of the body of a member, in which calls nest at most `n` deep; `*this` is `const` in a `const` member
(estl/array.hpp:18-74). -/
def bodyTy (T : Ty) : Nat → Cls → Member → Option Val
  | 0, _, _ => none
  | n + 1, k, M => check T (fun _ => none) (bodyTy T n) (some (.obj M.cst k)) M.body

/-- The type of an expression of a user with variables `Γ`, whose calls nest at most `n` deep (e.g. the loop of
estl/test/array_test.cpp:13). -/
def ty (T : Ty) (n : Nat) (Γ : Nat → Option X) (e : Expr) : Option Val := check T Γ (bodyTy T n) none e

end Verif.Access
