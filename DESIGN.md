# Formal model of Eospp/Eospp in Lean 4 — design

Everything lives in `lean/` (a Lake project; `lake build`). The C++/assembly in
`/repo` is only read as text; it is neither built nor run.

## Layout

* `lean/Verif/Base/*`   – shared vocabulary: outcome type with undefined
  behaviour and non-termination, byte memory, pointer heaps.
* `lean/Verif/Model/*`  – the model of the code, function by function. Every
  definition cites the file and lines it models and says where it simplifies.
* `lean/Verif/Spec/*`   – small specifications independent of the model.
* `lean/Verif/Lemmas/*` – helper lemmas (no property is claimed here).
* `lean/Verif/Props/*`  – the property theorems, one file per area, named after
  the property (`C01_...`), each followed by an `example` meeting its hypotheses.

## Outcomes

`Res α = ok a | ub | oof`. `ub` is C++ undefined behaviour (null or dangling
dereference, out-of-bounds access, over-wide shift, use of raw storage, ...).
`oof` ("out of fuel") means that a loop did not finish within the fuel given;
termination is stated as "some fuel suffices", divergence as "no fuel does".
Fuel never appears in a spec other than in this way.

## Code that violates its property

Reading the code turned up real defects (listed below). For such a property the
full statement stays in `properties.jsonl`; in Lean we prove (a) its negation
with a concrete execution of the model (`..._violated`), and (b) the strongest
statement that does hold, named `..._partial`. MANIFEST status is `partial`.

## Plan per property

| id | modelled | how proved |
|----|----------|-----------|
| C01,C02 | byte memory `Nat → UInt8`; memcpy/memmove loops word by word, each word read before it is written | loop invariants, induction on the number of words/bytes; spec is a pointwise description of the final memory |
| C03,C04 | byte memory; strlen/cstrlen/strcpy loops with fuel | induction on distance to the first NUL; negation of termination without NUL; strcpy with bad overlap diverges (witness) |
| C05–C09 | vslprintf as recursion over the format bytes and a typed argument list, writing through a checked memory; the `double` conversions are arbitrary results here, IEEE arithmetic in C91 | invariant "all writes in [buf,last), buf ≤ last", output-list semantics, prefix lemma; C06/C07 are violated: witnesses + partial |
| C10 | words `BitVec 64`, C `int` shift semantics with UB | refinement to a set of positions for positions with p % 64 < 32; violated in general (UB) |
| C11–C13 | views as byte lists plus pointer/length arithmetic for substr | order laws by induction; C12 violated (shortlex) |
| C14 | pair operators over any `<` | violated; partial |
| C15 | trait lists as Bool lists | induction; conjunction violated |
| C16–C19 | vector storage as slots raw/live in allocated blocks, with explicit construct/destroy/assign | refinement to `List`; ghost counters; aliasing violated |
| C20–C25 | deque with block table, absolute indices, OOB/uninitialised checks | simulation relation to `List`; C20, C21, C22, C25 violated in general, exact partial statements |
| C26–C29 | list nodes in a pointer heap with alive set | representation predicate; self-swap violated |
| C30–C38 | rb_tree nodes in a pointer heap, header sentinel, all pointer code incl. rebalancing | representation predicate relating heap and an addressed tree, zipper contexts for rebalancing; C32, C35, C36 violated |
| C39 | unique_ptr objects over an object heap | invariant over histories |
| C40–C43 | shared/weak pointers and control blocks | invariant over histories (counts = numbers of handles) |
| C44,C45,C46 | small-step interleaving semantics of atomic operations | invariants over all interleavings; C44 violated (schedule witness) |
| C47–C50 | any/function/defer state machines with ghost lifetimes | invariants over histories; C48, C49, C50 violated in part |
| C51 | raw table entries, Init loop | induction |
| C52,C53,C56 | handler tables, gate encoding in `BitVec`, port log | case analysis, bit-vector extensionality, invariants over histories |
| C54 | guards as nested programs over the IF flag | structural induction |
| C55 | CPU stack and stub instructions as functions on a register file and memory | symbolic execution for all register values |
| C57–C59 | framebuffer writes as a list of addresses | cursor invariants; C57 violated (newlines) |
| C60 | page-table words as written in head.S, x86-64 4-level walk with 2 MiB pages | arithmetic for all 48-bit addresses |
| C61,C62 | zones/pages/bitmap | violated: witnesses + partial (`core/physical_allocator.hpp` is missing from the repository; its constants are taken from the code's use) |
| C74 | memory map to tables | loop invariants over the entries; violated for maps with holes |
| C75 | memory map from the BIOS to the kernel | composition of loader, BIOS loop, page walk and `Init`; violated in four ways |
| C76 | temporary page tables, long mode check | page walk on arbitrary old memory; violated for the uncleared entries |
| C77 | `printf` from format to pixels | composition of C06, C03, C58, C54; violated for texts of 1024 bytes or more |
| C78 | `==` and `!=` of lists | loop invariant over the two rings (Lemmas/EListEq.lean); violated for 2^31 elements and more |
| C79 | alignment and direction flag at the entry of the C++ handlers | stack arithmetic on the stub model; violated for all IRQs and system calls |
| C80 | what the stubs change besides the saved registers | stub model with SSE registers; violated for red zone, segments, SSE registers |
| C81 | layout of texts with line feeds and tabs | induction over the text with a layout function; violated for tabs and the last cell |
| C82 | real mode to 64-bit mode, descriptor tables | symbolic execution on a model of the mode bits, descriptors and their checks |
| C83 | `EnableSse` | bitwise effect on the control registers; violated for `rbx` |
| C84 | `.bss` at the start of `main` | frame of the loader through the page tables; violated for memory that was not zero |
| C85 | interrupts from cause to return | composition of C52, C53, C55, C56 over histories; invariant: gates as installed, nothing in service |
| C86 | read-only page in `main` | page walk of C60 with a nondeterministic TLB; violated for a cached translation |
| C87–C88 | addresses and indices of deque elements | the block lists of the C20 simulation are related call by call; iterators follow the deque object, not the element |
| C89 | clearing the low entries of the top-level page table | page walk of C60 and TLB of C86; invariant: cached translations agree with the original tables, after the flush they are all in the upper half |
| C90 | A20, big real mode, copy through `fs` | processor model of C82 with real mode segment loads; refinement of the flat copy of C66 |
| C91 | binary64 arithmetic as natural numbers of units of 2^-1074, each operation rounded to 53 bits, ties to even | rounding lemmas (exactness, error, monotonicity), then the text via the format semantics of C05–C09; violated for ≥ 10 digits, no digits, large values, next to ties |
| C92 | `memory::init` on top of printf (C77) and C91 | the sums and the scaling are exact below 2^53 bytes; violated: no end of table |
| C93 | placement of the allocator's tables | arithmetic of the roundings, then the reservation invariant of C61/C74; violated: frame buffer in the way |
| C94 | C++ types as terms, specialisations as equations | structural induction over types; violated: missing integral types, noexcept, void |
| C95 | `invoke` on the types of C94 | case analysis against INVOKE; sound for all calls, violated for completeness |
| C96 | `main` with printf, E820 and TLB models together | composition of C51, C77, C81, C86 |
| C97 | `pair` and `tuple` with overload resolution, elements with any copy and move operations | induction over the elements |
| C98 | text screen with the BIOS calls that write on it, paths of boot sector and loader by the answers of the machine | induction over the dots, invariant "the screen shows these lines"; bytes of a misassembled block |
| C99 | unique_ptr with a deleter on top of the tuple model, control blocks with deleters on top of the shared ownership machine | refinement of pairs (object, deleter), conservation of objects; invariant over all interleavings relating calls of deleters to deletions |
| C100 | declared types and bodies of all accessors, and the rules of C++ for const: overloads, qualification conversions, binding of references | type soundness by induction over user expressions; exhaustive typing of accessors for an arbitrary element type |
| C101 | the messages of `interrupt.cpp` on top of C52, C55 and `printf` (C92, C96) | the frames of C55 give the arguments; texts by rendering; histories by simulation with the registry of C52; reports are injective |
| C102 | inline assembly from the text: scanner, operand substitution, AT&T rules, effect of the instructions on registers and bytes | the text is evaluated once, the operands stay symbolic; frame conditions by byte |
| C103 | reference counts in the memory model of C++: events, happens-before as views, release sequences; relaxed loads return anything | every use is known to the release sequence of the count or to an owner; invariants by induction over executions; happens-before is shown to be a strict order |
| C104 | the trees of C30 with a comparator per set, which may be indeterminate | the structural invariant of C30 for the order that relates nothing, and per set the order of its own comparator |
| C105 | class hierarchies as lists, subobjects named by ways, the language's conversions of pointers, casts and `delete`; the guards and initialisations of all converting constructors | unique subobject of a base class, seen from any subobject; induction over chains of conversions |
| C106 | the directives of `fat12.inc` and `boot.asm` laid out by the assembler, any machine code; the FAT12 format from the bytes of the disk alone | the parameter block gives the constants of the code; then C64–C66 |
| C107 | every operator of the three iterator classes on pointers or 64-bit indices; programs with variables, output, branches and loops, for any class of iterators | the operators simulate moves of positions; induction over runs |
| C108 | the directives of head.S, two passes of an assembler, the linker script with sections of other objects as any bytes, `global_obj::Init` on 64-bit addresses | lengths of what is laid out; decomposition of the image; page walk of C60 on the words of the image |
| C109 | the models of C64–C66, C74, C82 and C108 run one after another | frame lemmas (what boot code and loader leave alone), the file of the kernel as the linked image |
| C110 | members of `atomic<bool>` down to the builtins; execution graphs (happens-before, modification order, reads-from, order of seq_cst operations) | invariant over prefixes of the modification order: who holds the lock, which releases happen before; witness executions for all other orders |
| C111, C112 | operators as functions of type, operator and constness of the operands (`none`: does not compile), over an inductive universe of types; integral promotion | induction over types: exact characterisation of the types for which equality and order are right; sets through C104 |
| C113 | C109 and C96 composed; the state `main` starts with agrees with the memory seen through the page tables at the CR3 of C109 | the run of the loader is deterministic, so that C109 and the memory of C75 are about the same memory; pixels by C96 |
| C114 | `getExpr` for every kind of tuple expression, `apply` as `invoke` on the index sequence; the standard's `apply` on INVOKE of C95 | index sequence and types by C70, calls by C95 |
| C115 | `relocations`: per step of a program, the size of the vector if its block changed | potential argument on C16's invariant |
| C116 | `Rounds g n a`: the call returns `a` given more than `n` rounds and not otherwise; `pathL`, `pathU`: nodes on the way down | induction over the tree under C30's invariant; the fuel bounds the rounds of each loop, also those of insertion and erasure |
| C117 | `Forth`, `Back`: the loop over a range with the rounds of all its `++` or `--` added up | potential (`slope`): ancestors behind an element minus ancestors before it; a step takes one round plus the change of the potential |
| C118 | `copies`: per step of a program, the entries of the old block table if the table is another one | every call grows the table by at most one block, so the entries add up to a triangular number |
| C119 | `Steps` of a machine with a stack of activations; a step of the running one, an interrupt if IF is set, or `iretq`; `out`: the calls of `printf` that have ended | only the running activation can be within the guarded part of `printf`, and then IF is clear; the phases of the call say what buffer and screen hold |
| C120 | the functions with a key, which is a value or the element in a node and is read anew at each comparison (`Model/RbOwn`) | a search writes nothing, so that the key reads the same throughout; all reading precedes the first erasure |
| C121 | `erase_since` and `clear`, which also return the greatest number of calls active at once (`Model/RbStack`) | equal to the steps to the right on a path of the tree, by induction on the tree; counting changes nothing |
| C122 | `alloc_pages` and the zone indices of C61, C62, C74, over the same histories | number, borders and indices of the zones stay as `init_memory` leaves them; a page found is not below its zone |
| C123 | the vectors of C16–C19 | addresses are a block and a position in it; the rules of the language standard for references (`after`) say, from `size()`, `capacity()` and the call, where an address is afterwards; released blocks are not reused in the model, so an address that dangles is undefined to read also if the real allocator would hand it out again |
| C124 | the font table, with the console of C57–C59 | the rows of the glyphs 33–126 are copied from the source, those of the others are zero there; what is proved is about which pixels are set, not about whether a glyph looks like its letter |
| C125 | `forward`, `move`, `declval` on expressions (type and value category), with deduction, collapsing of references and binding; chains of function templates | induction over the chain; references bind to exactly the type they refer to; the constructor of `any` from a value, which moves, is C48 |
| C126 | the way of one argument through `function::operator()`, on the expressions of C125 | violated for values and rvalue references; partial |
| C127 | the adaptors with a `vector` inside, as the calls they make on vectors; their storage and its bound | simulation; then C16, C18; invariant on the capacity |
| C63–C66 | 16-bit register arithmetic of the boot code, disk as sectors | arithmetic and induction |
| C67,C68,C69,C70 | direct | induction/case analysis; C67 comparison violated |

## Trusted base

* Lean 4.33.0 kernel; theorems depend at most on `propext`,
  `Classical.choice`, `Quot.sound` (checked for every theorem named in
  `MANIFEST.json` with `#print axioms`). No added axioms, no `sorry`, no
  `native_decide`/`bv_decide`. Examples are evaluated by `decide`, `rfl` or
  `cbv`, in the kernel.
* The model being a faithful reading of the C++/assembly (each definition cites
  its source). Simplifications are stated at each definition and summarised
  below.
* The rules by which the model calls an execution `ub`: the C++ standard for the
  parts of the language used (null/dangling/out-of-bounds access, use of raw
  storage, over-wide shifts, signed overflow, double destruction). Where
  compilers commonly do something sensible the model has a parameter or a
  second theorem (list `lax`, null member calls).
* For assembly: the effect of the instructions used, as described at the
  definitions; the BIOS and the hardware (PIC, disk, page walk) as specified
  there.

## What is modelled, what is not

| source | modelled | not modelled |
|--------|----------|--------------|
| `kernel/src/util/string.cpp` | memcpy, memmove, strcpy, strlen, cstrlen (C01–C04); sprintf_num, vslprintf, snprintf (C05–C09); the arithmetic on `double` (C91) | other rounding modes and excess precision (`-m64` without optimisation: SSE2, round to nearest); locale |
| `estl/bitset.hpp`, `string_view.hpp`, `pair.hpp`, `tuple.hpp`, `array.hpp`, `algorithm.hpp`, `iterator.hpp` | the members named by C10–C15, C67–C70, C97, C107 | constructors without semantics; `constexpr`/`noexcept` |
| `estl/vector.hpp`, `allocator.hpp` | all members (C16–C19), cost of growth (C115), references to elements (C123) | exceptions (the kernel has none); allocation failure |
| `estl/deque.hpp`, `stack.hpp`, `queue.hpp` | all members (C20–C25, C71, C87, C88, C107); adaptors over `vector` (C127) | same; `size_t`/`int` sums do not overflow |
| `estl/list.hpp` | all members (C26–C29) | same |
| `estl/rb_tree.hpp`, `set.hpp` | all members instantiated by set and multiset (C30–C38, C72, C73, C116, C117, C120, C121), comparators with state (C104) | same; `const` duplicates of searches are one definition |
| `estl/memory.hpp`, `atomic.hpp` | unique_ptr, shared_ptr, weak_ptr, control blocks, atomic<T> (C39–C46), deleters (C99), happens-before of reference counts (C103), conversions between types (C105), `atomic<bool>` (C110) | conversion of user-defined deleters; writing through `get_deleter`; memory orders of `lock()` |
| `estl/any.hpp`, `functional.hpp` (function), `defer.hpp` | all members that compile (C47–C50); `invoke` (C95; arguments fit the parameters, no inheritance, one `operator()` per class); arguments of calls through `function` (C126) | (`apply` is C114) |
| `estl/utility.hpp` | function objects (C111, C112), `make_index_sequence` (C70), `move`, `forward` (C125), `swap` where used | argument types of `binary_function` |
| `estl/type_traits.hpp` | traits of one type (C94), `conjunction`/`disjunction` (C15), `is_base_of` and `is_convertible` of pointers (C105), `declval` (C125) | `is_same`, `enable_if`, `conditional` on types, constructibility; `is_convertible` of other types |
| `kernel/include/core/e820.hpp`, `src/core/e820.cpp` | Init, traversal (C51) | output |
| `kernel/src/core/interrupt.cpp`, `isrs.s`, `irqs.s`, `syscall.s`, `store_ctx.s`, `arch.*` | registration, gates, PIC, stubs, IrqGuard (C52–C56), EnableSse (C83), messages (C101), inline assembly (C102, also of `io.hpp`), printing under interrupts (C119) | timing; status flags; that the compiler keeps to the constraints is assumed |
| `kernel/src/io/veas.cpp` | Clear, print, cursor, printf (C57–C59, C77), layout (C81), the font table (C124; a parameter elsewhere) | that glyphs look like their letters |
| `kernel/head.S`, `kernel/main.cpp`, `kernel/Eospp.lds` | layout of the image (C108), page tables, translation, write bit change (C60), global constructors (C69), descriptor table and segment reload (C82), stores around the change of a page table entry with a TLB (C86), all of `main` (C96) | accessed and dirty bits |
| `kernel/src/core/physical_allocator.cpp` | page_init, page_clean, init_memory (C74, C89, C93), alloc_pages (C61, C62, C122), `init` (C92) | other output |
| `bootloader/boot.asm`, `loader.asm` | sector reading, FAT decoding, directory search, file loading (C63–C66), E820 loop, SVGA information block, temporary page tables, `Support_Long_Mode` (C75, C76), descriptor tables, control registers and far jumps (C82), A20 and the limit of `fs` (C90), messages (C98), layout of the boot sector and the parameter block (C106) | machine code of the instructions, what SVGA modes look like, the A20 gate itself |

## Simplifications

* Identities (addresses of nodes, blocks, objects) are fresh natural numbers; an
  identity is never reused, so "freed at most once" is a statement about
  identities. Address arithmetic is modelled only where the code does it (byte
  memory, framebuffer, tables).
* Containers are polymorphic in the element; construction, destruction and
  assignment of elements are explicit only where their number matters.
* Smart pointers: the pointer objects are confined to their thread, so reading
  and writing them is atomic with the read-modify-write of the counter next to
  it; counters are shared. `lock()` is uninterrupted in `SmartPtr` and
  interleaved in `LockRace`. Only the default deleter. `Fits` bounds the
  recursion by the stack.
* Atomics: each `__atomic` builtin is one indivisible, sequentially consistent
  step.
* any/function/defer: `any(const T&)` does not compile; a pointer argument
  selects `any(T*, Args...)` by partial ordering; lvalue targets of `function`
  do not compile; `delete` through `interface*` without virtual destructor is
  modelled as release of the storage without destroying the target.
* list: `cast_to_driver` on the sentinel is formally undefined but harmless; it
  is a no-op here. A member call on null is `ub` unless `lax`.
* rb_tree: `make_pair(it++, it)` yields (old, incremented) because its parameters
  are references. `set` spells two members `uppper_bound` and `euqal_range`.
* `core/physical_allocator.hpp` is missing from the repository: flags are
  parameters, counters 64-bit, `PAGE_2M_SHIFT` is 21; a read of the bitmap
  outside the table gives an arbitrary word.
* Mode switch (C82, C83): the checks of descriptor loads and far transfers and of writes to the
  control registers are modelled as far as the instructions used can fail; instruction fetch is not
  (an instruction list is executed in order), nor are reserved bits and the hidden state of the
  fs/gs bases. Memory is addressed by linear address, translation is C60 and C76.

## Defects found

Each is proved in the model (theorems `..._violated...` of the property named).

* C06 snprintf: no terminator when the text fills the buffer.
* C07 vslprintf reads behind a format ending in an incomplete directive.
* C08 printing INT64_MIN negates with signed overflow.
* C10 bitset shifts an `int` 1 by up to 63.
* C12 string_view: shorter is less; characters above 127 are negative.
* C14 pair `operator<` is `a.first < b.first || a.second < b.second`-like: not asymmetric.
* C15 conjunction computes a disjunction.
* C18 empty vectors built with a count or list leak their zero-size block.
* C19 vector insert/push_back of an own element: dangling or shifted.
* C20 deque push_front writes outside the new control array (line 281) when there
  are two or more blocks and none free in front.
* C21 deque `operator[]` takes an absolute slot number.
* C22 an empty deque has `end() == begin() + 1`; copying it is undefined.
* C25 a queue never reuses the blocks in front.
* C26–C28 list clear() calls a member function through null.
* C29 swapping a non-empty list with itself breaks it.
* C32 set insert of a duplicate returns the next greater element if the node has
  a right child (rb_tree.hpp:936-957).
* C35, C36 rb_tree rebalancing colours the parent instead of the grandparent
  (rb_tree.hpp:399-400): descending insertions degenerate, and a later erase
  does not return. An insertion into a red-black tree leaves a red-black tree
  exactly if it does not pass these lines; an erase fails to return exactly if
  its loop meets a node without the other child.
* C39 a default constructed unique_ptr is uninitialised.
* C40 shared_ptr reset(ptr)/converting assignment writes to itself after
  releasing the object it may be a member of.
* C43 weak_ptr lock() of an expired object: null, but use_count 1.
* C44 weak_ptr lock() reads and increments in two steps.
* C47 any of a pointer default constructs the pointee instead; emplace from the value the any holds
  reads it after destroying it.
* C48 any from an lvalue moves from it.
* C49 copying an empty function dereferences null; targets are never destroyed.
* C50 copies, moves and assignments of defer run the action twice.
* C52 registration and trigger do not check the vector.
* C55 stubs of vectors 17, 21, 29, 30 treat the error code wrongly.
* C57 line feeds move the cursor below the screen.
* C61 the bit of a counted page stays set after the last release; flags 0 make the
  counters drift; page 0 is accounted to zone 0 without belonging to it.
* C62 alloc_pages: undefined shifts for zones starting at a multiple of 64 and
  behind the first 64 pages; wrong page (the same twice) for others; pages behind the end
  of the zone if another zone touches it.
* C66 boot.asm wraps at 64 KiB; end-of-chain marks 0xFF8..0xFFE are not
  recognised.
* C67 ordering of reverse iterators is reversed.
* C74 tables sized by the amount of RAM but indexed by page number.
* C75 the loader puts no end mark behind the memory map; the buffer still holds the last sector
  of the kernel file, which can be read as further entries. Unknown types and empty entries cut
  the map, more than 20 entries are dropped, an end signalled by carry stops the machine.
* C76 entries of the temporary page tables that are not used are not cleared.
* C77 `printf` does not terminate a text of 1024 bytes or more; whatever follows the buffer is
  printed as well.
* C78 `list::operator==` counts with an `int`, which overflows for lists of 2^31 elements.
* C79 the stubs for IRQs and system calls call C++ code with a misaligned stack; none clears the
  direction flag.
* C80 the kernel is compiled with a red zone, which interrupts of kernel code overwrite; `ds`,
  `es`, `gs` and the SSE registers are not restored.
* C81 a tab prints eight blanks and then the glyph of the tab, nine columns; printing into the last
  cell clears the screen at once.
* C83 `EnableSse` clobbers `rbx`, which its C++ caller may rely on, and does not clear CR0.TS.
* C88 after `swap` no iterator into either deque denotes its element; a front insertion at index 0 renumbers all elements.
* C86 `main` changes a page table entry without `invlpg`: stores through a cached translation still succeed.
* C84 neither the loader nor the kernel clears `.bss`, and the interrupt table lies there: unused
  vectors hold old memory.
* C91 `%.Nf` computes 10^N in 32 bits: wrong digits from N = 10 on; `%f` cuts off; values from 2^63 on,
  infinities and NaNs are converted with undefined behaviour; next to a tie the wrong neighbour may be
  printed.
* C92 `memory::init` does not stop at the end of the memory map.
* C93 the page entries may extend into the frame buffer window at 10 MiB.
* C94 `is_integral` misses `bool`, `signed char`, `long`, `unsigned long`, `wchar_t`, `char16_t`, `char32_t`;
  `noexcept` functions are in no category and do not decay; references to `void` are ill-formed.
* C95 `invoke` rejects data members, member function pointers held in variables, `noexcept` member functions,
  mutable lambdas as rvalues, and any call whose first argument is an rvalue pointer to a data member.
* C97 `pair(a, b)` and `make_pair` take `const` references only (`estl/pair.hpp:15`): rvalues are copied, and a pair of a
  type that can only be moved cannot be made from values. `pair` declares a move constructor and no copy assignment
  (`estl/pair.hpp:13, 23-35`; templates do not count), so `p = q` for lvalue `q` of the same type is deleted.
  `make_tuple` keeps references (`estl/tuple.hpp:182-185`), for which the two constructors of `tuple_value`
  (lines 41, 43) are the same: with an lvalue argument it does not compile; nor does `tuple<>` (lines 124-125). The
  condition in `estl/tuple.hpp:95` has its arguments exchanged, so one modifiable lvalue among the arguments of a tuple
  makes it copy the others.
* C98 `Set_Svga_Mode_Failed` is assembled for 32 bits (`bootloader/loader.asm:398, 493-497`) but reached in 16-bit mode
  (line 383); `No_Support_Long_Mode` calls the 16-bit `Printf` and the BIOS in protected mode (lines 408-410, 487-491).
  Neither message can appear.
* C99 `unique_ptr_impl` passes its parameter `p` as an lvalue to the tuple (`estl/memory.hpp:71`), so the forwarding
  constructor of `tuple` is not viable (`estl/tuple.hpp:95`) and the deleter is always copied: deleters that can only be moved
  do not compile, nor do reference deleters (constructors of `tuple_value` coincide). `shared_ptr<T>::reset(U*)` uses
  `default_deleter<T>` (`estl/memory.hpp:615`), the constructor `default_deleter<U>` (line 571).
* C100 `array::data` has its two overloads mixed up: the `const` one does not compile, the other gives a pointer to const
  (`estl/array.hpp:45-51`). `vector::data() const` returns `T* const` (`estl/vector.hpp:224`), so a const vector can be written.
  `stack::top() const` and `queue::front() const` return `reference` and do not compile (`estl/stack.hpp:44`,
  `queue.hpp:53`). `const_list_iterator::operator->` returns `T*` and does not compile (`estl/list.hpp:192`). `*` on a const
  `list_iterator` gives `const T&`. `*` and `->` of the iterators of sets, `+` and `-` of those of deques and `==` of those of lists,
  deques and sets are not `const` members. The iterators of sets have the public member `node`, through which elements of a const
  set can be written (`estl/rb_tree.hpp:203, 262`). Iterators of lists and deques do not convert to const_iterators.
* C101 The reports about vectors 17, 21, 29 and 30 show the error code as `rip`, `rip` as `cs` and so on (see C55). The messages
  about refused unregistrations use `%ud` for a `size_t` (`kernel/src/core/interrupt.cpp:154, 164`), which is undefined. (Not part
  of a theorem: the four registration functions are private and `Interrupt` has no friends, so that no other code can call them,
  `kernel/include/core/interrupt.hpp:106-112`; the table calls vectors 20, 21 and 28-30 "Reserved".)
* C102 `in_byte`, `in_word`, `out_word`, `in_dword` and `out_dword` lack the comma between their operands
  (`kernel/include/io/io.hpp:7, 22, 30, 37, 45`): no program that uses them can be assembled. (With a comma the three `in`
  functions would still have source and destination exchanged, and `in_word` would read a byte.) `pushfq; pop` and `push; popfq`
  overwrite the word below the stack pointer, which belongs to the red zone. `andq $-16, %rsp` in `main` is not declared.
* C104 `operator=(initializer_list)` of `set` and `multiset` exchanges the comparator for a default-initialised one
  (`estl/set.hpp:47-50, 195-198`): a descending set becomes ascending. The move constructor starts from `rb_tree()`, which does not
  initialise `compare_` (`estl/rb_tree.hpp:594-598, 619-622`), and swaps it: for function pointers every move and every assignment
  from an rvalue or a list reads an indeterminate value, and the moved-from set has lost its comparator. (Not part of a theorem: with a
  comparator without default constructor, such as a lambda with captures, these do not compile. A `set` of pairs does not compile
  either, since the tree takes pairs for map entries, `estl/rb_tree.hpp:84-135, 917-922`.)
* C105 `is_convertible<A, B>` asks whether a cast from `B` to `A` compiles (`estl/type_traits.hpp:470-474`); the guards of
  `default_deleter` (`estl/memory.hpp:17, 40, 43`) mean an implicit conversion the other way. So the deleters of unrelated types convert,
  and `unique_ptr<Derived>` does not convert to `unique_ptr<Base>` if `Base` is a virtual base class. The guards by `is_base_of` refuse
  `shared_ptr<int>` to `shared_ptr<const int>`, and let conversions through that do not compile (const to non-const, private or
  ambiguous bases). `weak_ptr` has no converting constructor. `construct_shared_from_this<U>` looks for `M_weak_this_` in `T`
  (`estl/memory.hpp:657-664`): `shared_ptr<Base>(new Derived)` and `shared_ptr<const Derived>(new Derived)` do not compile if only
  `Derived` has `enable_shared_from_this`. `unique_ptr<Base[]>` takes a `Derived*`.
* C106 the directory search compares 11 bytes and nothing else: attributes (byte 11) and the end of the directory (first byte 0) are
  ignored (`bootloader/boot.asm:67-94`). An empty `LOADER.BIN` (start cluster 0) makes the boot code ask forever for a sector behind the
  end of the disk.
* C107 `reverse_iterator` compares with the order of its base (`estl/iterator.hpp:310-332, 347-369`): `for (r = rbegin(); r < rend(); ++r)`
  does nothing. It has no difference and no `n + r`; `deque_iterator` has no `[]`, no order and no `n + it`.
* C108 `start_ctors = .` is not aligned (`kernel/Eospp.lds:21`), but the `.init_array` behind it is. If the initialised data end at an
  odd place, the linker pads between the two, and `global_obj::Init` calls through padding and steps over `end_ctors`. In the kernel
  as it is, the font in veas.o (the last initialised data) hides this.
* C46 `a = v` does not compile for atomic integers: the implicitly declared (deleted) copy assignment of `atomic<int64_t>` etc.
  (`estl/atomic.hpp:220-266`) hides `atomic_impl<T>::operator=`. What C46 says about assignment holds for
  `a.atomic_impl<T>::operator=(v)`, and for `atomic<bool>`, which has an assignment of its own.
* C126 `function` hands arguments on by name through `operator()(const Args&...)` (functional.hpp:74, 93-94, 127): a parameter `T`
  of the signature reaches the target as a `const` lvalue and `T&&` as an lvalue, so `function<void(unique_ptr<int>)>` with a
  target that takes a `unique_ptr<int>`, or `function<void(T&&)>` with one that takes `T&&`, does not compile.
* C111 `any` and `function` have an `operator bool` that is not `explicit` (`estl/any.hpp:51`, `estl/functional.hpp:144`), so `==`
  and `<` compile and compare "is not empty": `any(1) == any(2)`, and a `set<any>` has at most two elements. The operators of
  `shared_ptr` take references to non-const (`estl/memory.hpp:750-778`): no `set<shared_ptr<T>>`, no `==` for `vector<shared_ptr<T>>`.
  `list::operator==` is not const (`estl/list.hpp:269`): const lists cannot be compared, though const vectors of lists can
  (`vector::data() const` gives access to non-const elements). `vector` has no `!=` (C++17), so vectors of vectors have no `==`.
  The loops over `int i` in both are undefined from 2^31 elements on. `estd::less` on pointers is the built-in `<`, which the
  standard leaves unspecified for pointers to different objects; the model compares addresses.
* C112 `multiplies<uint16_t>` multiplies as `int`: undefined from 2^31 on (65535 * 65535, say).

* C114 `apply` and `get` of tuples: `get` of a non-const rvalue makes a `tuple_value<I, T&&>` from the whole tuple
  (tuple.hpp:179), which never compiles; `apply` passes `t` and `fn` on as lvalues (functional.hpp:61), so elements of rvalue
  tuples are copied, and pointers to members, which `invoke` takes as rvalues only (C95), cannot be applied.

* C116 cost of sets: as the rebalancing of C36 is wrong, a set filled in descending order is a list from the second element on,
  and finding its greatest element visits all but one.

* C118 cost of deques: the table of blocks grows by one entry at a time and is copied each time, so appending is not amortised
  constant; passing elements through a queue makes it grow too.
* C121: `erase_since` recurses to the right (rb_tree.hpp:801), where descending insertions leave a path of all elements, so that
  destroying a set of n elements has n calls on the stack at once; the stack of the kernel has no guard (C36 is the cause).
* C122 `ZONE_DMA_INDEX` and `ZONE_NORMAL_INDEX` are 0, so requests for DMA and mapped memory look at the first zone only;
  `ZONE_UNMAPED_INDEX` stays 0 unless a zone starts at exactly 4 GiB, so requests for memory that is not mapped get mapped memory;
  with such a zone they shift by 64 bits.

## Replayed unit tests

`lean/Verif/Replay` runs the project's own unit tests (`estl/test`, `kernel/test/string_test.cpp`) on the models: every call in
order, every expectation as a check, and at the end of a scope every object destroyed and nothing left allocated. This is
evidence that the models compute what the code computes; it proves no property and no claim rests on it. All expectations hold
on the models, with these limits:

* Loops of 1000 to 100000 rounds run 20 to 40 rounds, buffers of 1024 bytes have 64.
* The loop of `bitset_test.cpp` over positions 0 to 99 is replayed at the positions whose bit is among the lower 32 of its word.
  At the others the model says undefined behaviour: the shift by 32 or more that C10 is about. The test passes because
  of how the processor masks shift counts.
* Not replayed: tests with threads, deleters of the user, conversions in constructors (`is_convertible`, `make_tuple<A>(5)`),
  traits computed by the compiler, `unique_ptr<T[]>`, `literals_test.cpp`.

## Mutation tests

`seeded/LOG.jsonl` lists edits of the model (wrong programs, and corrected ones
for the defects) made in a scratch copy, with the theorems that fail to build.
