{"id": "C01", "title": "memmove is correct for every overlap", "statement": "memmove(dest, src, n) leaves at dest..dest+n-1 exactly the bytes that were at src..src+n-1 before the call, changes no other byte of memory, and returns dest+n, whatever the relative position of the two ranges.", "quantifier": "for all memory contents, all dest, src (non-null, ranges not wrapping the address space) and all n", "why_tests_cant": "The word-wise loops behave differently for each distance modulo 8, each length and each direction; a test suite can only sample these combinations and memory contents.", "anchors": ["kernel/src/util/string.cpp: memmove, memcpy"]}
{"id": "C02", "title": "memcpy copies exactly n bytes", "statement": "For non-overlapping ranges (and also whenever dest lies below src) memcpy(dest, src, n) puts the n source bytes at dest, changes nothing else and returns dest+n; with a null pointer or n = 0 it changes nothing and returns dest.", "quantifier": "for all memory contents, addresses and lengths", "why_tests_cant": "Depends on all alignments and tail lengths and on the absence of any stray write anywhere in memory.", "anchors": ["kernel/src/util/string.cpp: memcpy"]}
{"id": "C03", "title": "strlen returns the index of the first NUL", "statement": "strlen(s) terminates exactly when there is a NUL at or after s, returns the distance to the first one and reads no byte beyond it. The same holds for the length a string_view takes from a C string.", "quantifier": "for all memory contents and start addresses", "why_tests_cant": "Quantifies over all string contents, and over the absence of reads after the terminator.", "anchors": ["kernel/src/util/string.cpp: strlen", "estl/algorithm.hpp: cstrlen", "estl/string_view.hpp: basic_string_view(const T*)"]}
{"id": "C04", "title": "strcpy copies the string with its terminator and nothing more", "statement": "If src is NUL-terminated with length len and dest does not lie in (src, src+len], strcpy(dest, src) terminates, dest..dest+len holds the string and its NUL, no other byte changes and dest is returned.", "quantifier": "for all memory contents and all src/dest positions", "why_tests_cant": "Every relative position of the two strings matters (an overlap can erase the terminator and make the loop endless).", "anchors": ["kernel/src/util/string.cpp: strcpy"]}
{"id": "C05", "title": "Formatting never writes outside the caller's buffer", "statement": "vslprintf(buf, last, fmt, args) and snprintf(buf, max, fmt, ...) only write bytes in [buf, last) (resp. [buf, buf+max)) and the returned position never exceeds the end, whatever the format and the arguments.", "quantifier": "for all formats, argument lists, widths and buffer sizes", "why_tests_cant": "The set of (format, width, value, remaining space) combinations is unbounded; one unguarded write suffices for memory corruption in the kernel.", "anchors": ["kernel/src/util/string.cpp: vslprintf, sprintf_num, snprintf"]}
{"id": "C06", "title": "snprintf output is NUL-terminated", "statement": "After snprintf(buf, max, ...) with max > 0 the buffer contains a terminating NUL, so that it can be read as a C string.", "quantifier": "for all formats, arguments and max > 0", "why_tests_cant": "Only outputs whose length hits the buffer size exactly or exceeds it show the difference.", "anchors": ["kernel/src/util/string.cpp: vslprintf, snprintf", "kernel/src/io/veas.cpp: printf"]}
{"id": "C07", "title": "Formatting never reads past the end of the format string", "statement": "vslprintf examines no byte of the format string after its terminating NUL.", "quantifier": "for all format strings and arguments", "why_tests_cant": "Needs a statement about every format, including malformed ones such as a trailing '%'; over-reads are not observable in ordinary tests.", "anchors": ["kernel/src/util/string.cpp: vslprintf"]}
{"id": "C08", "title": "Integer conversions print the exact value", "statement": "For every 64-bit unsigned value %ul prints its shortest decimal form, %xl / %Xl its shortest hexadecimal form, %l (signed) an optional '-' followed by the decimal form of the absolute value; the same for the 32-bit conversions; a width w pads on the left with blanks (or zeros) to at least w digits. Parsing the output gives the value back.", "quantifier": "for all 2^64 values, all widths, both pad characters", "why_tests_cant": "2^64 values times widths; the digit loop must terminate and fit its 21-byte scratch buffer for all of them.", "anchors": ["kernel/src/util/string.cpp: sprintf_num, vslprintf"]}
{"id": "C09", "title": "Truncated output is a prefix of the full output", "statement": "Formatting into a shorter buffer produces exactly the prefix of what formatting into a longer buffer produces; text without '%' is copied verbatim.", "quantifier": "for all formats, arguments and pairs of buffer sizes", "why_tests_cant": "Relates two executions for every format and every pair of sizes.", "anchors": ["kernel/src/util/string.cpp: vslprintf, sprintf_num"]}
{"id": "C10", "title": "bitset behaves as a set of positions", "statement": "After any sequence of set/clear/reset on a bitset<N>, test(p) (and operator[]) is true exactly if the last operation affecting p set it; operations on one position never change another; positions p < N never touch memory outside the bitset.", "quantifier": "for all N, all operation sequences and positions p < N", "why_tests_cant": "Interference between positions depends on all pairs of positions and on histories.", "anchors": ["estl/bitset.hpp: bitset::set, clear, test, reset, bit_mask, type_offset"]}
{"id": "C11", "title": "string_view comparison is consistent", "statement": "== holds exactly for equal contents; < is a strict total order (irreflexive, transitive, trichotomous) and <=, >, >=, != and compare() agree with it.", "quantifier": "for all pairs and triples of views", "why_tests_cant": "Order laws quantify over all pairs/triples of strings of unbounded length.", "anchors": ["estl/string_view.hpp: compare, operator==, operator<, operator<=, operator>, operator>="]}
{"id": "C12", "title": "string_view ordering is lexicographic", "statement": "a < b holds exactly when a precedes b in dictionary (lexicographic) order, as for std::string_view.", "quantifier": "for all pairs of views", "why_tests_cant": "Statement about all pairs of strings.", "anchors": ["estl/string_view.hpp: compare, operator<"]}
{"id": "C13", "title": "string_view::substr yields the requested slice", "statement": "substr(pos, len) with pos <= size() denotes the characters pos .. min(pos+len, size())-1 of the view; it never denotes characters outside the original view.", "quantifier": "for all views, pos and len (including npos)", "why_tests_cant": "All positions and lengths including wrap-around of the unsigned arithmetic.", "anchors": ["estl/string_view.hpp: substr"]}
{"id": "C14", "title": "pair comparison is a strict weak order", "statement": "operator< on pairs orders lexicographically by first then second when the components are strictly ordered; in particular a<b and b<a never both hold, and >, <=, >= are consistent with <.", "quantifier": "for all component types with a strict total order, all pairs", "why_tests_cant": "Order laws over all values; sorted containers of pairs rely on them.", "anchors": ["estl/pair.hpp: operator<, operator<=, operator>, operator>="]}
{"id": "C15", "title": "Compile-time conjunction and disjunction compute and / or", "statement": "conjunction_v<Ts...> is true exactly if every Ts::value is true; disconjunction_v<Ts...> exactly if some Ts::value is true; not_ negates.", "quantifier": "for all (finite, unbounded) lists of traits", "why_tests_cant": "Variadic: lists of any length.", "anchors": ["estl/type_traits.hpp: or_, and_, not_, conjunction, disconjunction"]}
{"id": "C16", "title": "vector is a sequence", "statement": "After any history of push_back, push_front, insert, emplace, erase (one element or range), pop_back, resize, clear, reserve, copy, the contents, size and element order of a vector equal those of the mathematical sequence with the same history, and no operation within its precondition reads or writes outside the live storage.", "quantifier": "for all element values and all operation histories", "why_tests_cant": "Histories are unbounded; growth points, positions and interactions cannot be enumerated.", "anchors": ["estl/vector.hpp: push_back, push_front, insert, emplace, erase, pop_back, resize, clear, reserve, ensure_capacity"]}
{"id": "C17", "title": "vector capacity discipline", "statement": "size() <= capacity() always; reserve(n) makes capacity >= n, and as long as size() does not exceed the capacity no operation reallocates (pointers and iterators before the change stay valid); growth at least doubles, so n push_backs make O(log n) reallocations.", "quantifier": "for all histories", "why_tests_cant": "Invariant over unbounded histories, including the amortised growth bound.", "anchors": ["estl/vector.hpp: ensure_capacity, reserve, allocate, capacity"]}
{"id": "C18", "title": "vector constructs and destroys every element exactly once", "statement": "Every slot is constructed before it is used or assigned, every constructed element is destroyed exactly once, raw storage is never assigned or destroyed, and when the vector is destroyed nothing remains alive; storage blocks are freed exactly once.", "quantifier": "for all histories ending in destruction", "why_tests_cant": "Leaks and double destruction depend on histories and are invisible for trivial element types.", "anchors": ["estl/vector.hpp: construct, destory, allocate, ~vector, insert, emplace, erase, resize"]}
{"id": "C19", "title": "vector operations accept references to own elements", "statement": "v.push_back(v[i]), v.insert(p, v[i]) and v.push_front(v[i]) insert the value v[i] had at the time of the call.", "quantifier": "for all vectors, i < size() and positions", "why_tests_cant": "Failure depends on capacity at the call; reads of freed memory usually go unnoticed in tests.", "anchors": ["estl/vector.hpp: push_back, push_front, insert, ensure_capacity"]}
{"id": "C20", "title": "deque is a double-ended sequence", "statement": "After any history of push/emplace_front, push/emplace_back, pop_front, pop_back and clear, iterating the deque yields exactly the mathematical sequence with the same history, front()/back() are its ends and size() its length, with no access outside its blocks.", "quantifier": "for all element values and all histories that only pop non-empty deques", "why_tests_cant": "Block boundary crossings at either end depend on the whole history.", "anchors": ["estl/deque.hpp: emplace_back, emplace_front, pop_back, pop_front, ensure_capacity_back, ensure_capacity_front, begin, end, clear"]}
{"id": "C21", "title": "deque operator[] indexes from the front", "statement": "d[i] is the i-th element counted from front().", "quantifier": "for all histories and i < size()", "why_tests_cant": "Tests that only push_back never see a non-zero front offset.", "anchors": ["estl/deque.hpp: operator[], get_obj_pointer"]}
{"id": "C22", "title": "an empty deque iterates over nothing and can be copied", "statement": "For an empty deque begin() == end(), and copying an empty deque (or a stack or queue over it) is defined and gives an empty deque.", "quantifier": "for all histories leading to an empty deque", "why_tests_cant": "Emptiness is reached by many histories, each leaving different internal offsets.", "anchors": ["estl/deque.hpp: begin, end, deque(const deque&), decrease_element, clear"]}
{"id": "C23", "title": "stack is LIFO", "statement": "pop/top return elements in reverse order of push for any interleaving of pushes and pops that never pops an empty stack.", "quantifier": "for all interleavings", "why_tests_cant": "Unbounded histories crossing block boundaries.", "anchors": ["estl/stack.hpp", "estl/deque.hpp: emplace_back, pop_back, back"]}
{"id": "C24", "title": "queue is FIFO", "statement": "pop/front return elements in the order of push for any interleaving of pushes and pops that never pops an empty queue.", "quantifier": "for all interleavings", "why_tests_cant": "Unbounded histories crossing block boundaries.", "anchors": ["estl/queue.hpp", "estl/deque.hpp: emplace_back, pop_front, front"]}
{"id": "C25", "title": "queue memory is bounded by the number of live elements", "statement": "A queue whose size never exceeds n uses an amount of block storage bounded by a function of n.", "quantifier": "for all histories with at most n live elements", "why_tests_cant": "Only arbitrarily long histories show unbounded growth.", "anchors": ["estl/deque.hpp: ensure_capacity_back, pop_front, decrease_element"]}
{"id": "C26", "title": "list is a sequence under pointer surgery", "statement": "After any history of push/emplace/pop at both ends, insert at a position, erase of an element or a range and clear, forward iteration of a list yields the mathematical sequence with the same history and size() its length; no freed node is accessed.", "quantifier": "for all element values, positions and histories", "why_tests_cant": "Unbounded histories; corrupted links may only show up many operations later.", "anchors": ["estl/list.hpp: list_node_base, insert, erase, emplace_back, emplace_front, pop_back, pop_front, clear"]}
{"id": "C27", "title": "list links are consistent and iterators stay valid", "statement": "Backward iteration of a list always visits the elements in the reverse of forward order, and insertion or erasure of other elements never changes which element an iterator denotes.", "quantifier": "for all histories and iterators", "why_tests_cant": "Relates two traversals and node identity over unbounded histories.", "anchors": ["estl/list.hpp: link_next, link_prv, unlink, iterator"]}
{"id": "C28", "title": "list nodes are freed exactly once", "statement": "Every node allocated by a list is freed exactly once: when its element is erased or popped, on clear or on destruction; nothing is leaked and nothing is freed twice.", "quantifier": "for all histories ending in destruction", "why_tests_cant": "Leaks and double frees depend on the history.", "anchors": ["estl/list.hpp: erase, clear, ~list, pop_back, pop_front"]}
{"id": "C29", "title": "list swap exchanges contents", "statement": "a.swap(b) exchanges the element sequences of a and b (whether or not either is empty), leaves both well linked and moves no element; a.swap(a) leaves a unchanged.", "quantifier": "for all pairs of lists including a list with itself", "why_tests_cant": "Four emptiness combinations and self-swap, for every list length.", "anchors": ["estl/list.hpp: swap"]}
{"id": "C30", "title": "set contents are the distinct inserted keys in increasing order", "statement": "After any history of insertions into a set, iteration from begin() to end() visits exactly the distinct inserted keys in strictly increasing order, size() is their number and begin() is the minimum; insertion reports true exactly for new keys.", "quantifier": "for all key types with a strict total order and all insertion histories", "why_tests_cant": "All insertion orders and sizes; rebalancing rearranges the tree differently for each.", "anchors": ["estl/rb_tree.hpp: emplace_unique, insert_unique_pos, insert_node_at, rb_tree_insert_rebalance", "estl/set.hpp"]}
{"id": "C31", "title": "ordered search is exact", "statement": "find, count, lower_bound, upper_bound and equal_range of a set or multiset return exactly the positions given by the sorted sequence of its elements (end() if absent), without modifying it.", "quantifier": "for all trees and all keys", "why_tests_cant": "All contents, shapes and keys, including absent keys between any two elements.", "anchors": ["estl/rb_tree.hpp: find, lower_bound, upper_bound, equal_range_unique, equal_range_multi, count_unique, count_multi"]}
{"id": "C32", "title": "inserting a duplicate returns the existing element", "statement": "set::insert / emplace of a key already present inserts nothing and returns an iterator to the existing equal element.", "quantifier": "for all sets and all present keys", "why_tests_cant": "Depends on where in the tree the existing key sits.", "anchors": ["estl/rb_tree.hpp: emplace_unique, insert_unique_pos"]}
{"id": "C33", "title": "multiset insertion keeps all elements sorted and stable", "statement": "Inserting into a multiset adds exactly one element, after all existing elements that are not greater; iteration is sorted and equal elements appear in insertion order.", "quantifier": "for all insertion histories", "why_tests_cant": "All orders with repeated keys.", "anchors": ["estl/rb_tree.hpp: emplace_multi, insert_multi_pos, insert_node_at", "estl/set.hpp: multiset"]}
{"id": "C34", "title": "erase removes exactly the designated elements", "statement": "Whenever erase (iterator, key or range) of a set/multiset returns, the remaining elements are exactly the others in the same order, size() is adjusted, begin()/end() are right and the returned iterator denotes the successor.", "quantifier": "for all trees, keys and iterators", "why_tests_cant": "All tree shapes and colourings; the rebalancing has many cases.", "anchors": ["estl/rb_tree.hpp: erase, rb_tree_erase_rebalance, erase_unique, erase_multi"]}
{"id": "C35", "title": "set operations terminate", "statement": "Every insert, find, iteration step and erase on a set or multiset terminates.", "quantifier": "for all histories", "why_tests_cant": "Non-termination arises only in particular histories.", "anchors": ["estl/rb_tree.hpp: rb_tree_erase_rebalance, rb_tree_insert_rebalance"]}
{"id": "C36", "title": "the search tree stays balanced", "statement": "After any history the underlying search tree is a red-black tree: no red node has a red child and all root-to-leaf paths contain the same number of black nodes, so searches take O(log n) steps.", "quantifier": "for all histories", "why_tests_cant": "Balance is not observable through the API other than by running time.", "anchors": ["estl/rb_tree.hpp: rb_tree_insert_rebalance, rb_tree_erase_rebalance"]}
{"id": "C37", "title": "set iterators step through the sorted sequence", "statement": "++ on an iterator to the i-th element gives the (i+1)-th (end() after the last) and -- is its inverse, also from end() to the last element.", "quantifier": "for all trees and positions", "why_tests_cant": "All shapes; the header sentinel is recognised by colour, so correctness depends on an invariant of the root.", "anchors": ["estl/rb_tree.hpp: increment, decrement, begin, end"]}
{"id": "C38", "title": "tree nodes are freed exactly once", "statement": "clear() and destruction of a set/multiset free every node exactly once, and erase frees exactly the nodes of the erased elements.", "quantifier": "for all trees", "why_tests_cant": "Leaks depend on shape and history.", "anchors": ["estl/rb_tree.hpp: clear, erase_since, erase, ~rb_tree"]}
{"id": "C39", "title": "unique_ptr deletes its object exactly once", "statement": "In any history of construction, move, swap, reset, release and destruction of unique_ptrs every adopted object has at most one owner at any time and is deleted exactly once unless released; get() of a moved-from or released pointer is null. A default-constructed unique_ptr is null.", "quantifier": "for all histories over any number of pointers, including self-move", "why_tests_cant": "Ownership errors depend on the history.", "anchors": ["estl/memory.hpp: unique_ptr"]}
{"id": "C40", "title": "use_count equals the number of owners", "statement": "For shared_ptr, use_count() always equals the number of shared_ptr objects sharing ownership.", "quantifier": "for all histories of construct, copy, move, assign, reset, swap, destroy over any number of shared_ptr/weak_ptr objects", "why_tests_cant": "Unbounded histories over unbounded numbers of pointers.", "anchors": ["estl/memory.hpp: shared_ptr, shared_count, count_base"]}
{"id": "C41", "title": "the shared object is destroyed exactly when the last owner goes", "statement": "A managed object is disposed exactly once, at the moment its last shared_ptr releases it, never earlier; an object with an owner is never disposed.", "quantifier": "for all histories", "why_tests_cant": "Same.", "anchors": ["estl/memory.hpp: shared_count::release, count_impl::dispose"]}
{"id": "C42", "title": "the control block outlives all weak_ptrs and is freed once", "statement": "The control block is freed exactly once, when neither shared nor weak references remain, and never accessed afterwards.", "quantifier": "for all histories mixing shared and weak pointers", "why_tests_cant": "Same; use after free is invisible in tests.", "anchors": ["estl/memory.hpp: count_base, weak_count, shared_count::release, weak_count::release"]}
{"id": "C43", "title": "weak_ptr::lock (single thread)", "statement": "Without concurrency and without spurious CAS failure, lock() gives a new owner of the object exactly if it is still alive (expired() is false), and an empty pointer with no owners otherwise.", "quantifier": "for all histories", "why_tests_cant": "The loop in lock has an inverted exit test; only reasoning over all counts shows what it does.", "anchors": ["estl/memory.hpp: count_base::lock, weak_count::lock, weak_ptr::lock, weak_ptr::expired"]}
{"id": "C44", "title": "weak_ptr::lock is thread safe", "statement": "When several threads copy, destroy and lock pointers to the same object in any interleaving, lock() returns true only after having added exactly one owner; hence no object is disposed while a locked pointer to it exists.", "quantifier": "for all interleavings, with any spurious failures of compare_exchange_weak", "why_tests_cant": "Depends on a particular schedule between two atomic operations.", "anchors": ["estl/memory.hpp: count_base::lock", "estl/atomic.hpp: compare_exchange_weak"]}
{"id": "C45", "title": "concurrent copies and destructions release exactly once", "statement": "When threads that each hold a reference concurrently copy and drop shared_ptrs and weak_ptrs, in every interleaving the object is disposed exactly once, after the last drop, and the control block freed exactly once.", "quantifier": "for all numbers of threads, programs and interleavings", "why_tests_cant": "Exponentially many schedules.", "anchors": ["estl/memory.hpp: shared_count::release, weak_count::release, add_shared_count, shared_release, weak_release", "estl/atomic.hpp"]}
{"id": "C46", "title": "atomic read-modify-write operations lose no update", "statement": "With any number of threads performing fetch_add/fetch_sub/++/-- on one atomic, in every interleaving the final value is the initial value plus the sum of the operands modulo 2^w, and the values returned by each operation are those of a sequential order.", "quantifier": "for all thread programs, interleavings and widths", "why_tests_cant": "Exponentially many schedules.", "anchors": ["estl/atomic.hpp: fetch_add, fetch_sub, operator++, operator--, compare_exchange"]}
{"id": "C47", "title": "any holds an independent copy of one typed value", "statement": "any_cast<T> returns a pointer to the value exactly if the any currently holds a T; copying makes an independent value, moving transfers it and empties the source, swap exchanges, clear empties; every held value is destroyed exactly once.", "quantifier": "for all histories, types and values", "why_tests_cant": "Aliasing between copies depends on histories.", "anchors": ["estl/any.hpp: any, any_cast"]}
{"id": "C48", "title": "constructing an any from an lvalue leaves the lvalue unchanged", "statement": "any a(x) and a = x for a non-const lvalue x copy x; x keeps its value.", "quantifier": "for all types and values", "why_tests_cant": "Types whose move empties the source are needed to observe it, for all values.", "anchors": ["estl/any.hpp: any(T&&), operator=(T&&)"]}
{"id": "C49", "title": "function objects copy and assign safely", "statement": "A copied function calls an independent copy of the target and the source stays usable; moving empties the source; copying an empty function gives an empty function; every stored target is destroyed exactly once.", "quantifier": "for all histories", "why_tests_cant": "Requires tracking target lifetime over histories including empty functions.", "anchors": ["estl/functional.hpp: function, function_helper, interface"]}
{"id": "C50", "title": "a deferred action runs exactly once", "statement": "The action given to defer runs exactly once, when the scope (the last of the objects it was moved to) ends, and not at all if dismissed.", "quantifier": "for all uses including move and dismiss", "why_tests_cant": "Number of runs depends on how the object was moved or copied.", "anchors": ["estl/defer.hpp: defer"]}
{"id": "C51", "title": "the E820 memory map is read faithfully", "statement": "After Init the manager holds exactly the leading valid entries (type 1..4 and non-zero length) of the BIOS table, at most 20 and in order, and the available size is the sum of the lengths of the free entries among them; no entry beyond the first invalid one is used.", "quantifier": "for all memory contents of the BIOS table", "why_tests_cant": "All tables, including full, empty and malformed ones.", "anchors": ["kernel/src/core/e820.cpp: Manager::Init", "kernel/include/core/e820.hpp"]}
{"id": "C52", "title": "interrupt and syscall registration is exclusive", "statement": "At most one handler is registered per line; registering on an occupied line fails and leaves the registration alone; only the registered handler can be unregistered; a triggered interrupt calls exactly the currently registered handler with its data; nothing outside the tables is read or written.", "quantifier": "for all histories of register/unregister/trigger with all line numbers", "why_tests_cant": "Histories are unbounded and line numbers arbitrary 64-bit values.", "anchors": ["kernel/src/core/interrupt.cpp: RegisterIrqHandler, RegisterSysCall, UnRegisterIrqHandler, UnRegisterSysCall, TriggerIrq, TriggerSyscall"]}
{"id": "C53", "title": "IDT gates encode the handler address exactly", "statement": "The 16-byte gate written for a handler decodes (by the rules of the CPU) to exactly that 64-bit address, the given selector, type and privilege level, present, and setting one gate leaves all others unchanged; after Init the exceptions 0-31, IRQs 32-47 and system calls 50-59 have present gates and only the system calls are reachable from user mode.", "quantifier": "for all 2^64 addresses, gate numbers and attribute values", "why_tests_cant": "All 64-bit addresses; the split into three fields must be lossless.", "anchors": ["kernel/src/core/interrupt.cpp: setGate, InstallISrs, InstallIrqs, InstallSysCalls", "kernel/include/core/interrupt.hpp: idt_entry"]}
{"id": "C54", "title": "IrqGuard restores the interrupt flag under nesting", "statement": "Between construction and destruction of an IrqGuard interrupts are disabled, and after any properly nested use the interrupt-enable flag is what it was before the outermost guard.", "quantifier": "for all nesting structures and initial flags", "why_tests_cant": "All nestings.", "anchors": ["kernel/include/core/interrupt.hpp: IrqGuard"]}
{"id": "C55", "title": "interrupt entry and exit preserve the interrupted context", "statement": "If the C++ handler does not modify the saved frame, after an IRQ or system-call stub returns every general purpose register, rip, cs, rflags, rsp and ss have the value they had at the interrupt, and the handler sees exactly these values in the fields of its register structure; for exceptions the handler sees the right vector number and error code.", "quantifier": "for all register contents and all vectors", "why_tests_cant": "All 2^64 register values and all vectors, with and without CPU error code.", "anchors": ["kernel/src/core/store_ctx.s", "kernel/src/core/irqs.s", "kernel/src/core/syscall.s", "kernel/src/core/isrs.s", "kernel/include/core/interrupt.hpp: syscall_regs, fault_regs"]}
{"id": "C56", "title": "each IRQ is acknowledged at the right controllers", "statement": "After the PIC remapping IRQ n arrives as vector 32+n, and handling IRQ n sends exactly one end-of-interrupt to the master and one to the slave exactly if n >= 8.", "quantifier": "for all IRQ numbers", "why_tests_cant": "Port traffic is not observable in unit tests.", "anchors": ["kernel/src/core/interrupt.cpp: RemapIrqs, _irq_handler"]}
{"id": "C57", "title": "console output never writes outside the framebuffer", "statement": "Printing any string at any time writes only pixels inside the 1440x900 frame buffer.", "quantifier": "for all strings and all print histories", "why_tests_cant": "Depends on the cursor after unbounded histories.", "anchors": ["kernel/src/io/veas.cpp: ColorPrint, PutChar"]}
{"id": "C58", "title": "console text goes to consecutive cells", "statement": "Printing text without control characters fills character cells left to right and row by row, the cell of a character contains exactly its glyph in the given foreground colour, and other cells keep their contents (until the screen wraps).", "quantifier": "for all strings, cursor positions and glyph tables", "why_tests_cant": "All strings and positions.", "anchors": ["kernel/src/io/veas.cpp: ColorPrint, PutChar"]}
{"id": "C59", "title": "Clear blanks the whole screen and nothing else", "statement": "Vesa::Clear sets every pixel of the frame buffer to black, resets the cursor, and writes nothing outside.", "quantifier": "for all prior screen contents and screen sizes with an even number of pixels", "why_tests_cant": "Every pixel and the absence of other writes.", "anchors": ["kernel/src/io/veas.cpp: Clear"]}
{"id": "C60", "title": "boot page tables map what the kernel uses", "statement": "Under the page tables of head.S every virtual address of the low 10 MiB (identity and higher half) translates to the physical address the kernel expects and every byte of the console frame buffer at its virtual address translates to the physical frame buffer, all present and writable; addresses outside the mapped windows fault.", "quantifier": "for all 48-bit virtual addresses", "why_tests_cant": "2^48 addresses.", "anchors": ["kernel/head.S: __PML4E, __PDPTE, __PDE", "kernel/src/io/veas.cpp: Vesa::Init", "kernel/main.cpp"]}
{"id": "C61", "title": "physical page accounting is consistent", "statement": "In every history of page_init/page_clean the zone counters agree with the pages: using + free = total, a page's bitmap bit is set exactly while it is referenced, and reference counts return to zero.", "quantifier": "for all histories", "why_tests_cant": "Invariant over unbounded histories.", "anchors": ["kernel/src/core/physical_allocator.cpp: page_init, page_clean"]}
{"id": "C62", "title": "alloc_pages never hands out a page that is in use", "statement": "A successful alloc_pages(zone, n) returns n consecutive pages of the zone that were free before, and marks exactly these.", "quantifier": "for all bitmaps, zones and n", "why_tests_cant": "All bitmaps.", "anchors": ["kernel/src/core/physical_allocator.cpp: alloc_pages"]}
{"id": "C63", "title": "FAT12 table entries are decoded correctly", "statement": "Get_FAT_Entry returns for every cluster number exactly the 12-bit entry that the FAT12 format defines for it, also when it straddles a sector boundary.", "quantifier": "for all FAT contents and all cluster numbers of a floppy image", "why_tests_cant": "All clusters, both parities, all straddling positions.", "anchors": ["bootloader/boot.asm: Get_FAT_Entry", "bootloader/loader.asm: Get_FAT_Entry"]}
{"id": "C64", "title": "LBA to CHS conversion addresses every sector exactly once", "statement": "Read_One_Sector maps logical sector numbers 0..2879 one-to-one onto (cylinder 0..79, head 0..1, sector 1..18) in disk order.", "quantifier": "for all logical sectors", "why_tests_cant": "All sectors; the 8-bit division must not overflow for any of them.", "anchors": ["bootloader/boot.asm: Read_One_Sector", "bootloader/fat12.inc"]}
{"id": "C65", "title": "the boot loader finds the file in the root directory", "statement": "The directory search loads the start cluster of the first root directory entry whose 11-byte name equals the wanted name, and reports 'not found' exactly if none of the 224 entries has it.", "quantifier": "for all root directory contents", "why_tests_cant": "All directory contents and positions.", "anchors": ["bootloader/boot.asm: Search_In_Root_Dir_Begin", "bootloader/loader.asm"]}
{"id": "C66", "title": "the boot loader loads the whole file", "statement": "Following the cluster chain puts the sectors of the file consecutively into memory in chain order and stops at the end-of-chain mark.", "quantifier": "for all acyclic cluster chains terminated by an end-of-chain mark", "why_tests_cant": "All chains.", "anchors": ["bootloader/boot.asm: Go_On_Loading_File", "bootloader/loader.asm"]}
{"id": "C67", "title": "reverse iterators are ordered by traversal", "statement": "For reverse iterators r, s over the same container r < s holds exactly if r is reached before s when counting from rbegin(), and *(rbegin()+i) is the i-th element from the back.", "quantifier": "for all sequences and positions", "why_tests_cant": "All positions.", "anchors": ["estl/iterator.hpp: reverse_iterator and its comparison operators"]}
{"id": "C68", "title": "min, max and fill", "statement": "min/max return one of their arguments that bounds both (with respect to the given order); fill/fill_n assign exactly the designated elements and no others.", "quantifier": "for all ordered types, values and ranges", "why_tests_cant": "All values and ranges.", "anchors": ["estl/algorithm.hpp: min, max, fill, fill_n"]}
{"id": "C69", "title": "global constructors run exactly once in order", "statement": "Init calls every function pointer between the start and end symbols exactly once, in increasing address order, and nothing else.", "quantifier": "for all constructor tables", "why_tests_cant": "Any number of constructors.", "anchors": ["kernel/include/core/global_obj.hpp"]}
{"id": "C70", "title": "index sequences and tuple access", "statement": "make_index_sequence<N> is 0,1,..,N-1 for every N, nth_type_t selects the N-th type, and get<I> of a tuple returns the I-th component; swapping tuples exchanges all components.", "quantifier": "for all N, I and component lists", "why_tests_cant": "Variadic: all lengths.", "anchors": ["estl/utility.hpp: make_integer_sequence", "estl/tuple.hpp: get, swap", "estl/type_traits.hpp: nth_type"]}
{"id": "C71", "title": "deque, stack and queue storage released exactly once", "statement": "Every control array and block that a deque (also inside a stack or queue) allocates is released exactly once: after all deques of a history are destroyed nothing remains allocated, and nothing is released twice or used after its release.", "quantifier": "for all histories of construction, copy, move, assignment, swap, insertion, removal and destruction over any number of deques", "why_tests_cant": "A leak or double release depends on the order of growth, moves and swaps; all orders cannot be tested and leaks are invisible to the caller.", "anchors": ["estl/deque.hpp: clear, ensure_capacity_front, ensure_capacity_back, destory_control_blocks", "estl/stack.hpp", "estl/queue.hpp"]}
{"id": "C72", "title": "Iterators of sets follow their elements through swap and move", "statement": "swap() of two sets or multisets, move construction and move assignment transfer the elements without relocating them: an iterator keeps denoting the same element, which afterwards is visited, in the same order, by iterating over the other container; the source of a move is left empty and usable, and no third container changes. This also holds when a container is swapped with or move-assigned to itself.", "quantifier": "for all reachable states of any number of containers, all element types and strict weak orders, all pairs of containers", "why_tests_cant": "The header node holds pointers into the tree and the tree points back to the header; a wrong fix-up is only visible for particular shapes and later operations, and the number of states is unbounded.", "anchors": ["estl/rb_tree.hpp", "estl/set.hpp"]}
{"id": "C73", "title": "Copies of sets are equal and independent", "statement": "Copy construction and copy assignment of a set or multiset yield a container with the same values in the same order in new nodes and leave the source and every other container unchanged; construction and assignment from a list of values yield what inserting the values one by one into an empty container yields. Assigning a container to itself keeps its values.", "quantifier": "for all reachable states, all source and target containers, all lists of values", "why_tests_cant": "Sharing of nodes between copies and wrong results for particular shapes are only visible for some of unboundedly many histories.", "anchors": ["estl/rb_tree.hpp", "estl/set.hpp"]}
{"id": "C74", "title": "init_memory describes the memory map within its tables", "statement": "For every memory map delivered by the boot loader, init_memory stays within the tables it sized and leaves one zone per RAM entry consisting of the entry's whole 2 MB pages, one page descriptor per RAM page with its address and zone, and a bitmap in which exactly the RAM pages behind the kernel are free.", "quantifier": "for all memory maps, all previous contents of the tables, all kernel sizes", "why_tests_cant": "The tables are sized by the amount of RAM and indexed by page number; whether they suffice depends on holes in the memory map of the machine, of which a test sees one.", "anchors": ["kernel/src/core/physical_allocator.cpp: init_memory"]}
{"id": "C75", "title": "The kernel's memory map is the BIOS's memory map", "statement": "Booting from a floppy that holds the kernel, on a machine whose BIOS reports a memory map through int 15h/E820, ends with an e820 Manager in the kernel that holds exactly the reported entries in the reported order, and whose available size is the total of the free ones.", "quantifier": "for all floppies, all BIOS memory maps, all previous contents of memory, all transient disk errors", "why_tests_cant": "The map passes through the loader's buffer, which still holds other data, through the page tables and through the kernel's parser; a test sees the map of one machine and one kernel binary.", "anchors": ["bootloader/loader.asm: Get_Memory", "kernel/head.S", "kernel/src/core/e820.cpp: Init"]}
{"id": "C76", "title": "The loader's temporary address space is safe to enter", "statement": "Long mode is entered only on processors that support it, and with the loader's temporary page tables the first 12 MiB of both halves of the address space, and so every byte of the loaded kernel, translate to the same physical address and are writable; every other address faults.", "quantifier": "for all virtual addresses, all previous contents of memory, all kernels on the floppy, all answers of cpuid", "why_tests_cant": "The tables are built in memory with unknown contents; whether unused entries are harmless cannot be seen from runs on one machine.", "anchors": ["bootloader/loader.asm: temporary page table", "bootloader/loader.asm: Support_Long_Mode"]}
{"id": "C77", "title": "printf shows exactly the formatted text", "statement": "io::printf(fmt, ...) prints exactly the text that fmt and its arguments stand for, at the cursor of the console in white, reads and writes no memory outside its buffer, and leaves interrupts enabled or disabled as they were.", "quantifier": "for all formats and arguments (texts of any length), all contents of memory, all cursor positions, both states of the interrupt flag", "why_tests_cant": "The text passes through a fixed buffer whose termination depends on its length, and what is read beyond it depends on the memory layout.", "anchors": ["kernel/src/io/veas.cpp: printf, ColorPrint", "kernel/src/util/string.cpp: vslprintf", "estl/string_view.hpp"]}
{"id": "C78", "title": "Two lists compare equal exactly when they hold the same sequence", "statement": "For any two list objects reachable by any sequence of public operations, `a == b` terminates without undefined behaviour and is true exactly if a and b hold the same number of elements and the elements at each place do not differ by the element type's `!=`; `a != b` is the negation of `a == b`; a list equals its copy.", "quantifier": "all histories of list operations on any number of lists, all element types and element `!=` functions, all pairs of lists including a list with itself, all lengths", "why_tests_cant": "the result depends on the link structure left behind by every earlier insertion, erasure, swap and assignment, and the failure for lists longer than an int can count needs more than 2^31 elements", "anchors": ["estl/list.hpp:269-288"]}
{"id": "C79", "title": "C++ interrupt handlers are entered as the calling convention demands", "statement": "Whenever _irq_handler, _syscall_handler or _fault_handler is called by its stub, the stack pointer plus 8 is a multiple of 16 and the direction flag is clear, as the System V x86-64 convention (with which the Makefile compiles them) demands.", "quantifier": "all interrupted programs and register contents, all stacks, all vectors", "why_tests_cant": "whether misalignment or a set direction flag does harm depends on the code the compiler generates and on the instruction that is interrupted", "anchors": ["kernel/src/core/irqs.s", "kernel/src/core/syscall.s", "kernel/src/core/isrs.s", "kernel/src/core/store_ctx.s", "kernel/Makefile"]}
{"id": "C80", "title": "an interrupted program notices nothing", "statement": "After an IRQ or a system call whose handler is ordinary compiled code that leaves the saved frame alone, everything the interrupted program owns is as it was: the memory at and above its stack pointer, the 128 bytes below it (the red zone, for kernel code), the segment registers and the SSE registers.", "quantifier": "all interrupted states, all lines and call numbers, all handlers that obey the calling convention", "why_tests_cant": "the loss shows only if the interrupt hits an instruction where the red zone, a segment or an SSE register is in use", "anchors": ["kernel/src/core/irqs.s", "kernel/src/core/syscall.s", "kernel/src/core/store_ctx.s", "kernel/src/core/arch.s", "kernel/Makefile"]}
{"id": "C81", "title": "a text of several lines is laid out as on a terminal", "statement": "Printing a text shows each of its lines in its own row: a line feed continues in the first column of the next row, a tab continues at the next multiple of 8 columns, every other character occupies the next cell; row r + i shows exactly line i of a text printed from the start of row r, nothing printed before is changed, and the text just printed is visible afterwards.", "quantifier": "all texts, all cursor positions, all fonts, all screen contents", "why_tests_cant": "every pixel of every cell for texts of arbitrary length and shape", "anchors": ["kernel/src/io/veas.cpp: ColorPrint, PutChar, Clear"]}
{"id": "C82", "title": "main starts in 64-bit kernel mode with its own segments", "statement": "From any real-mode state the loader and head.S reach main without an exception, in 64-bit mode, ring 0, interrupts off, paging through the kernel's tables and kernel data segments in all segment registers; no control bits other than the intended ones change and no memory other than four stack words is written. User code can load none of the kernel's segments.", "quantifier": "all register and memory contents in real mode; all addresses of the entry points; all selectors tried by user code", "why_tests_cant": "a wrong descriptor bit shows only in the privilege level or mode that uses it, and bits left by the firmware differ between machines", "anchors": ["bootloader/loader.asm: Kernel_Loaded, GO_TO_TMP_Protect, GO_TO_TMP_Long", "kernel/head.S: _start, entry64, GDT_Table"]}
{"id": "C83", "title": "EnableSse makes SSE usable and disturbs nothing else", "statement": "On a processor with SSE, after EnableSse SSE instructions execute without an exception; on one without SSE nothing is enabled; in both cases all other control bits, memory, segments and the registers a caller may rely on are unchanged.", "quantifier": "all processor states in 64-bit kernel mode, all answers of cpuid", "why_tests_cant": "the caller notices a lost register only if its compiled code holds a value there; control bits left by the firmware vary", "anchors": ["kernel/src/core/arch.s: EnableSse", "kernel/main.cpp"]}
{"id": "C84", "title": "variables without an initialiser are zero when the kernel starts", "statement": "When main starts, every byte of memory that belongs to the kernel but not to its file (variables without initialiser, .bss) is zero, as C++ demands of static variables; in particular after Interrupt::Init every interrupt vector the kernel does not use is marked absent.", "quantifier": "all floppies with a kernel, all memory maps, all contents of memory before the kernel is loaded, all places of the interrupt table", "why_tests_cant": "emulators start with cleared memory; real machines and warm starts do not", "anchors": ["bootloader/loader.asm", "kernel/head.S", "kernel/Eospp.lds", "kernel/Makefile", "kernel/include/core/interrupt.hpp: interrupts_", "kernel/src/core/interrupt.cpp: InstallIdt"]}
{"id": "C85", "title": "an interrupt reaches the handler registered for it and nothing else", "statement": "After Interrupt::Init, whenever a device raises line n, exactly the handler registered for line n at that time is called, once, with line n and its data, after one end of interrupt for each controller involved, and the interrupted program continues with all its registers unchanged; int 50+k from any privilege level calls exactly the handler registered for system call k and the program continues with the registers the handler leaves in the saved frame; any other int from a program outside the kernel is refused before a handler runs. A line that was raised spuriously leaves the controllers as they were. After every step all lines can be delivered again.", "quantifier": "all histories of registrations, unregistrations, interrupts, spurious interrupts and int instructions; all interrupted processor states, stacks and handler code that returns; all placements of the entry points; all states of the controllers before", "why_tests_cant": "the path runs through hardware tables, assembly stubs, two registries and two interrupt controllers; tests see single deliveries on an emulator, not all histories and register contents", "anchors": ["kernel/src/core/interrupt.cpp: Init, InstallIrqs, RemapIrqs, InstallSysCalls, TriggerIrq, TriggerSyscall, _irq_handler, _syscall_handler", "kernel/src/core/irqs.s", "kernel/src/core/syscall.s", "kernel/include/core/interrupt.hpp"]}
{"id": "C86", "title": "a page the kernel makes read-only cannot be written any more", "statement": "After main has cleared the write permission of the 2 MiB page at 0xFFFF800000400000, a store to that page faults and leaves memory unchanged.", "quantifier": "all behaviours of the translation cache (fills and evictions at any time), all other stores in between, all contents of memory besides the page tables", "why_tests_cant": "whether the CPU still has the old translation cached depends on timing, cache size and everything executed in between; emulators differ from hardware here", "anchors": ["kernel/main.cpp: main (the stores around *(&PDE + 2) &= ~2ul)", "kernel/head.S: PML4, PDPTE, PDE"]}
{"id": "C87", "title": "references to deque elements stay valid", "statement": "A reference or pointer to an element of a deque stays valid, and denotes the same element, until a call removes that element: through insertions at both ends (also those that add blocks and replace the block table), removals of other elements, swaps, moves, assignments, and any calls on other deques. Distinct elements never share an address.", "quantifier": "all histories of calls on any number of deques, all elements, all element types", "why_tests_cant": "whether a later call moves or overwrites an element depends on the layout the whole history left behind; a test sees a few layouts", "anchors": ["estl/deque.hpp: emplace_back, emplace_front, ensure_capacity_back, ensure_capacity_front, pop_back, pop_front, swap, deque(deque&&), operator=, get_obj_pointer"]}
{"id": "C88", "title": "iterators into a deque keep denoting their element", "statement": "An iterator to an element of a deque keeps denoting that element while the element exists: through insertions, removals of other elements and the exchange of the deque with another.", "quantifier": "all histories of calls on any number of deques, all elements, all element types", "why_tests_cant": "iterators hold indices that are renumbered depending on the layout the whole history left behind", "anchors": ["estl/deque.hpp: deque_iterator, begin, swap, emplace_front, ensure_capacity_front"]}
{"id": "C89", "title": "the low half of the address space is taken away at the end of init_memory, and only it", "statement": "After the end of init_memory every access to an address below 0xFFFF800000000000, the null pointer included, faults; accesses to addresses of the upper half reach the same physical addresses as before at every moment of the change, which itself never faults and changes nothing but the ten table entries.", "quantifier": "all virtual addresses, all translations cached before, all fills and drops of cached translations by the CPU in between and later", "why_tests_cant": "which translations the CPU has cached when the entries are cleared is not under the control of a test", "anchors": ["kernel/src/core/physical_allocator.cpp:253-262: init_memory, flush_tlb", "kernel/head.S: PML4, PDPTE, PDE"]}
{"id": "C90", "title": "the loader's copies above 1 MiB arrive at their physical address", "statement": "After the loader has opened A20 and visited protected mode, the machine is back in real mode with nothing changed but the limit of fs; every sector of the kernel is then copied byte by byte to the physical address in KernelOffset, above 1 MiB, without a fault, whatever the BIOS and interrupt handlers load into fs in real mode meanwhile.", "quantifier": "all real mode states, all values of port 92h, all addresses below 4 GiB, all real mode loads of fs by BIOS services and handlers at any moment", "why_tests_cant": "the hidden limit of fs survives or not depending on what the firmware does between the copies and at which byte an interrupt arrives; an emulator shows one firmware", "anchors": ["bootloader/loader.asm:85-103", "bootloader/loader.asm:274-300: Mov_Kernel"]}
{"id": "C91", "title": "%.Nf prints the nearest decimal", "statement": "For every double, %<width>.<N>f prints the sign, the value rounded to N decimal digits after the point (the nearest such decimal, halves away from zero), with exactly N digits after the point and the integer part padded to the width; larger values are never printed as smaller numbers.", "quantifier": "all 2^64 doubles, all widths, all numbers of digits", "why_tests_cant": "2^64 values times digit counts; the result depends on two roundings of binary floating point arithmetic and errors show only next to ties or for particular digit counts", "anchors": ["kernel/src/util/string.cpp:294-331: vslprintf"]}
{"id": "C92", "title": "memory::init reports the memory of the machine", "statement": "memory::init prints a heading, one line with address, length and type for each entry of the BIOS memory map and no others, and the amount of RAM (entries of type 1) in megabytes, correctly rounded to five decimals; it leaves the interrupt flag and memory outside printf's buffer unchanged.", "quantifier": "all memory maps, all contents of memory and of the screen", "why_tests_cant": "the sum and its printing involve floating point roundings that depend on all lengths together; a test machine has one memory map", "anchors": ["kernel/src/core/physical_allocator.cpp:6-32: memory::init", "kernel/src/io/veas.cpp:325-332: printf"]}
{"id": "C93", "title": "the tables of the page allocator have memory of their own", "statement": "The bitmap, the page entries and the zone entries init_memory sets up behind the kernel are pairwise disjoint and apart from the kernel image, lie below end_of_struct, and every page they occupy is reserved before the first allocation, so that alloc_pages never hands out memory of its own tables; no other data of the kernel shares memory with them.", "quantifier": "all memory maps, all kernel sizes, all table indices", "why_tests_cant": "the placement depends on the memory size through several roundings; overlap shows only for particular sizes and indices, and a 512 GiB machine is needed for others", "anchors": ["kernel/src/core/physical_allocator.cpp:124-158, 221, 241-251: init_memory"]}
{"id": "C94", "title": "type traits agree with the language, for all types", "statement": "For every C++ type exactly the is_* predicate of its category holds; remove_cv yields the type without its qualifiers; add_*_reference follow reference collapsing and leave types that cannot be referenced unchanged; decay yields the type of a variable initialised by value; remove_extent and remove_all_extent strip one and all dimensions.", "quantifier": "all C++ types (built from fundamental, class, enum and union types by cv, pointers, references, arrays, functions and member pointers)", "why_tests_cant": "there are infinitely many types; a trait is only instantiated for the types a test names", "anchors": ["estl/type_traits.hpp:26-426, 506-585"]}
{"id": "C95", "title": "invoke calls what INVOKE calls", "statement": "invoke(f, args...) calls functions, pointers to functions and function objects with the arguments, calls pointers to member functions on the object or through the pointer given as first argument, and reads data members, for lvalue and rvalue callees alike, as the C++ standard's INVOKE.", "quantifier": "all types of callee and arguments, all value categories", "why_tests_cant": "dispatch happens at compile time by the types; a combination that does not compile cannot even be written into a test suite", "anchors": ["estl/functional.hpp:7-57: invoke"]}
{"id": "C96", "title": "The screen after booting shows the log", "statement": "When main has come to rest on a machine with a blank screen, the screen shows exactly this, line by line: 'init Interrupt'; the number of valid entries at the start of the BIOS memory map and the RAM in them in whole megabytes; the constructor's line; the page table entry without its write bit; 'page read only'; and then the report of page fault 14 with the registers saved, or '*p = 2' exactly if the CPU still used the old translation. The rest of the text area is black; nothing but printf's buffer is written.", "quantifier": "all memory maps, all previous contents of memory, all behaviours of the TLB, all register values, all fonts", "why_tests_cant": "the text depends on the memory map of the machine and on what the CPU has cached; a test sees one of them", "anchors": ["kernel/main.cpp:21-49: main", "kernel/src/core/e820.cpp:25-45: Manager::Init", "kernel/src/core/interrupt.cpp:236-242: _fault_handler", "kernel/src/io/veas.cpp:325-343: printf, Vesa::Init"]}
{"id": "C97", "title": "Pairs and tuples are values", "statement": "Constructing a pair or tuple from expressions (directly or with make_pair/make_tuple), constructing it from another pair or tuple and assigning it treat every element as the element type itself would be treated: copied from an lvalue, which keeps its value, and moved from an rvalue. Types that can only be moved are allowed when rvalues are given. Assigning a tuple to itself, even moved, changes nothing; swap exchanges all elements, also of an object with itself. make_pair and make_tuple accept lvalues and rvalues and hold decayed types.", "quantifier": "all numbers of elements, all element types with any combination of copy and move operations and any moved-from values, all value categories of the arguments, all stores", "why_tests_cant": "Which constructor is called depends on the value categories of all arguments together and on the operations of all element types; the tests use int and one class, and calls that do not compile cannot be in a test at all.", "anchors": ["estl/pair.hpp:11-39", "estl/pair.hpp:75-83", "estl/tuple.hpp:31-150", "estl/tuple.hpp:182-190", "estl/utility.hpp:6-41"]}
{"id": "C98", "title": "The boot messages tell how far booting got", "statement": "On every machine the screen shows, when the boot sector or the loader stops, exactly these lines and nothing else: 'Start Eospp boot' followed by a dot per cluster of the loader, then in every second row the messages of the steps done so far, each complete, and last the message for what is missing (loader, kernel, memory map, SVGA information, SVGA mode, long mode). If nothing is missing, the kernel is entered.", "quantifier": "all previous contents of the screen, all combinations of missing things, all sequences of answers for the memory map, loaders of any size up to 64 KiB, BIOSes that honour or ignore the page in the teletype call", "why_tests_cant": "The failing machines are not at hand, and what a wrong path does depends on bytes assembled for another mode; the lengths of the messages are written by hand beside the texts.", "anchors": ["bootloader/boot.asm:15-47", "bootloader/boot.asm:96-131", "bootloader/loader.asm:39-82", "bootloader/loader.asm:162-172", "bootloader/loader.asm:248-252", "bootloader/loader.asm:313-383", "bootloader/loader.asm:472-497"]}
{"id": "C99", "title": "Objects are disposed of by the deleter they came with", "statement": "An object handed to a unique_ptr or shared_ptr is given to a deleter exactly once, when its last owner goes (or never, if release() returned it), and that deleter is equal to the one it was handed over with, whatever copies, moves, assignments, swaps and resets happen in between; without a deleter it is deleted as an object of the type it was handed over as. Deleters that can only be moved and, for unique_ptr, deleters held by reference can be used.", "quantifier": "all programs, all classes of deleters (copyable or not, with any effect of moving), all values of deleters, any number of threads for shared_ptr and all interleavings", "why_tests_cant": "With the stateless default deleter every mix-up is invisible; which deleter an object meets depends on the history of all pointers it went through and on overload resolution for the deleter class.", "anchors": ["estl/memory.hpp:7-58", "estl/memory.hpp:60-177", "estl/memory.hpp:179-257", "estl/memory.hpp:375-418", "estl/memory.hpp:564-577", "estl/memory.hpp:615-619", "estl/tuple.hpp:93-129"]}
{"id": "C100", "title": "Access to elements respects const", "statement": "Every accessor of a container, string_view or iterator (begin, end, data, front, back, [], at, top, find, lower_bound, upper_bound, *, ->, ++, --, + and -) compiles on const and other objects alike (++ and -- not on const iterators) and leads to an element that can be written exactly if the container is not const, is not a set or view, and the iterator is not a const_iterator. A program that only has const containers, sets, views, const_iterators and pointers to const cannot assign to an element, whatever it writes. Iterators can be compared also when they are const.", "quantifier": "all element types (also arrays and pointers), all classes, const or not, all accessors, all expressions and programs of users, any nesting", "why_tests_cant": "Templates are only checked for what is called: an overload nobody calls may not compile, and what must not compile cannot be written in a test at all. That no expression whatever gives write access is a statement about all programs.", "anchors": ["estl/array.hpp:18-74", "estl/vector.hpp:220-242", "estl/vector.hpp:285-315", "estl/deque.hpp:27-93", "estl/deque.hpp:149-220", "estl/list.hpp:128-222", "estl/list.hpp:376-404", "estl/stack.hpp:40-46", "estl/queue.hpp:49-55", "estl/set.hpp:59-139", "estl/rb_tree.hpp:215-304", "estl/rb_tree.hpp:646-705", "estl/iterator.hpp:95-155", "estl/iterator.hpp:224-302", "estl/string_view.hpp:31-67"]}
{"id": "C101", "title": "Exceptions, interrupts and registrations are reported truthfully", "statement": "When an exception occurs, the screen shows its number and name, the error code the CPU delivered (0 if there is none) and rip, rflags, cs, rsp and ss of the program in which it happened. On every hardware interrupt the screen shows rflags, cs, rip, rbp and rax of the interrupted program and the number of the line, before the registered handler is called. Every accepted registration of an interrupt or system call handler is reported with its number, a refused one prints nothing, and a refused unregistration prints that it failed. In any history the text on the screen is exactly these messages in order, and nothing but the print buffer and the screen changes.", "quantifier": "all vectors, error codes, register contents, stacks, lines, handlers and numbers, all states of screen and memory, all histories", "why_tests_cant": "The report is the only thing left after a crash; it depends on the exact layout that the CPU, an assembly stub and a C++ structure agree on, for 32 vectors and all register values, and exceptions such as alignment checks or control protection faults hardly occur in tests.", "anchors": ["kernel/src/core/interrupt.cpp:129-192", "kernel/src/core/interrupt.cpp:202-255", "kernel/include/core/interrupt.hpp:40-73", "kernel/src/core/isrs.s:4-56", "kernel/src/core/irqs.s:5-43"]}
{"id": "C102", "title": "Inline assembly does what its function promises, for every choice of operands", "statement": "Each function that consists of inline assembly does its work for every register, memory location or constant that its constraints allow the compiler to choose: in_byte, out_byte, in_word, out_word, in_dword and out_dword transfer exactly the one value of their size between the processor and the port; getRflags, DisableHwint, EnableHwint and EnabledIrq read, save and restore the flags; Enable and Disable set and clear only the interrupt flag; lidt loads the limit and base in the structure; main aligns the stack. Nothing changes that the statement does not declare: no other register, no other byte of memory.", "quantifier": "all operands allowed by the constraints (including memory relative to the stack pointer), all register, flag and memory contents, all ports and values", "why_tests_cant": "The text of an asm statement is checked by the assembler only if the function is used, and then only for the operands chosen in that build; another optimisation level or compiler chooses others. Undeclared effects damage a variable only when the compiler happens to keep one there.", "anchors": ["kernel/include/io/io.hpp:5-48", "kernel/include/core/arch.hpp:12-33", "kernel/src/core/interrupt.cpp:23-25", "kernel/src/core/interrupt.cpp:171-177", "kernel/main.cpp:25", "kernel/Makefile:2"]}
{"id": "C103", "title": "No use of a shared object races with its destruction (C++ memory model)", "statement": "When any number of threads copy, hand over, use and destroy shared_ptrs and weak_ptrs to one object, then in the sense of happens-before of the C++ memory model: making the object and its block happens before everything else; every use of the object through an owner happens before dispose(); every operation on the counts, every use and dispose() happen before distory(); there is at most one dispose() and one distory(), and one of each once all pointers are gone. use_count() and unique() order nothing: a thread that sees it is the only owner may still race with the uses by a former owner.", "quantifier": "all numbers of threads, all programs (fewer than 2^64 - 2 steps) and interleavings, all further synchronisation between the threads, all values a relaxed load may return", "why_tests_cant": "A missing release or acquire shows only with reordering by the compiler or the processor, in exponentially many schedules; x86 hides most of them.", "anchors": ["estl/memory.hpp:326-373", "estl/memory.hpp:420-516", "estl/memory.hpp:626-628", "estl/atomic.hpp:5-12", "estl/atomic.hpp:141-159"]}
{"id": "C104", "title": "Every set keeps to its own comparator", "statement": "Sets and multisets whose comparators have state (function pointers, objects) are each ordered and searched by the comparator they were given: at every time iteration follows the set's own comparator; searches and insertions use it; copying, moving, swapping and assigning a set take its comparator along with its elements; key_comp() never changes otherwise; and none of these calls reads a comparator that was never set.", "quantifier": "all element types and comparators that are strict weak orders, any number of sets with different comparators, all histories of calls", "why_tests_cant": "Comparators differ at run time; a comparator that does not follow the elements corrupts only later searches and insertions, and reading an uninitialised one may go unnoticed.", "anchors": ["estl/rb_tree.hpp:593-643", "estl/rb_tree.hpp:1004", "estl/set.hpp:21-57", "estl/set.hpp:169-205"]}
{"id": "C105", "title": "Smart pointers convert where plain pointers do", "statement": "A unique_ptr<U>, shared_ptr<U> or weak_ptr<U> can be used where a unique_ptr<T>, shared_ptr<T> or weak_ptr<T> is wanted, and a U* given to a smart pointer for T, exactly if U* converts implicitly to T*; overload resolution and is_constructible know this, and default deleters convert likewise (those for arrays only to the same type with more qualifiers). However many conversions were made, get() designates the subobject that plain pointers would designate, a shared object is disposed of by delete of the pointer originally handed over, and an object in a unique_ptr is destroyed as a whole if the last type is its own or has a virtual destructor.", "quantifier": "all class hierarchies (multiple, virtual, private inheritance), all pairs of types with all qualifiers, all chains of conversions", "why_tests_cant": "Which conversions compile depends on the pair of types and on the whole hierarchy; a test can only instantiate a few hierarchies, and a wrong subobject or a wrong deleter often goes unnoticed at run time.", "anchors": ["estl/memory.hpp:7-47", "estl/memory.hpp:98-127", "estl/memory.hpp:187-189", "estl/memory.hpp:564-599", "estl/memory.hpp:657-695", "estl/type_traits.hpp:470-480", "estl/type_traits.hpp:599-603"]}
{"id": "C106", "title": "The boot code reads the floppy that its boot sector describes", "statement": "The boot sector is a well-formed FAT12 boot sector (jump over the parameter block to the code, 512 bytes, signature, a consistent parameter block), and on every disk with this boot sector the boot code finds what any other FAT12 implementation finds by the parameter block: it loads exactly the contents of the file LOADER.BIN (and the loader those of EOSPP.BIN) if the root directory has such a file, and reports that there is none otherwise.", "quantifier": "all disks with this boot sector, all machine code that fits into it, all root directories, tables and file contents", "why_tests_cant": "The addresses in the code are constants separate from the parameter block; tests use one image written by one tool, with the file in the first entry and in consecutive clusters.", "anchors": ["bootloader/fat12.inc:1-26", "bootloader/boot.asm:1-17", "bootloader/boot.asm:49-150", "bootloader/boot.asm:235-236", "bootloader/loader.asm:114-313"]}
{"id": "C107", "title": "Programs with iterators compute what they would with positions", "statement": "A random access iterator can be thought of as a container and a number, counted from begin() (or from rbegin()): whatever a program does with iterators of vectors and deques and with reverse iterators (all operators of random access iterators, reads and writes through them, branches and loops on comparisons), it writes the same elements, has the same output and ends in the same cases as if it worked with such numbers.", "quantifier": "all programs with any number of iterators into any number of containers, all lengths and contents", "why_tests_cant": "The claim is about all programs: each operator has to be right in every combination with the others, at every position, and undefined behaviour at the ends of a container does not show in a test.", "anchors": ["estl/iterator.hpp:72-198", "estl/iterator.hpp:200-369", "estl/deque.hpp:12-98", "estl/deque.hpp:206-220"]}
{"id": "C108", "title": "Linking the kernel puts its tables where the code looks for them", "statement": "Whatever is linked with head.o: the image starts with the entry point, and once it is in memory at 1 MiB, the fixed address loaded into CR3 is that of the page tables, the symbol PDE refers to the table the processor uses, the words at SwitchSeg and StartKernel lead to Entry64 and main, the operands of lgdt and lidt describe the tables of head.S, and global_obj::Init calls the constructors of all objects in link order, each once.", "quantifier": "all machine code of head.S, all other objects (sections with any contents and alignments, any constructors), all contents of the rest of memory", "why_tests_cant": "A build fixes one set of objects with one layout; the addresses are right or wrong depending on the sizes and alignments of sections of other files, and a change in one file can misplace the tables of another.", "anchors": ["kernel/head.S:1-119", "kernel/Eospp.lds:5-27", "kernel/Makefile:10-17", "kernel/include/core/global_obj.hpp:4-12", "kernel/main.cpp:35-38"]}
{"id": "C109", "title": "From a floppy with both files the machine gets to main", "statement": "On a floppy with LOADER.BIN (at most 64 KiB) and KERNEL.BIN, where the latter begins with an image linked from head.o and any other objects, the boot sector loads the loader and leaves itself intact, the loader loads the kernel and leaves itself intact, and the instructions that follow take the processor from real mode to main: in 64-bit mode, privilege 0, interrupts off, with the address translation of head.S for all addresses, the GDT where lgdt was told, every byte of the image at the address it was linked for.", "quantifier": "all floppies (placement of the files, fragmentation, contents), all read errors that do not last forever, all linked images with main at a canonical address, all memory maps of up to 1664 entries, all initial memory contents and real-mode states", "why_tests_cant": "The chain crosses four programs in three processor modes; an emulator run checks one disk image with one layout on a drive without errors.", "anchors": ["bootloader/boot.asm:49-236", "bootloader/loader.asm:39-383", "kernel/head.S:1-119", "kernel/Eospp.lds:1-30"]}
{"id": "C110", "title": "atomic<bool> works as a lock and as a signal, with exactly the memory orders it is given", "statement": "Threads that use an atomic<bool> as a lock (exchange or compare_exchange to take it, waiting by failed attempts or loads, store or assignment to release it) with acquiring orders for taking and releasing ones for releasing, the defaults included, have disjoint, ordered critical sections; data touched only there are free of races, every read sees the last write, no increment is lost. With any other orders some execution has a race. Data written before the flag is set with a releasing order are visible after a load with an acquiring order found it set.", "quantifier": "all executions allowed by the memory model of C++ (any modification order, any reads-from, any number of threads and sections, spurious failures), all sets of orders for taking and releasing", "why_tests_cant": "On x86 a lock with too weak orders, or one whose order argument gets lost on the way to the builtin, works in practice until a compiler reorders; a test can show no such execution absent.", "anchors": ["estl/atomic.hpp:5-82", "estl/atomic.hpp:131-139", "estl/atomic.hpp:268-339"]}
{"id": "C111", "title": "Comparisons of values are consistent and fit for sets", "statement": "For every type built from numbers, pointers, string_view, pair, unique_ptr, shared_ptr, vector, list, any and function: == and != tell exactly different values apart; <, <=, >, >= are one strict weak order and its variants, on const objects as on others; less and greater compare as < and >, so sets of such values are iterated in that order.", "quantifier": "all types (any nesting), all values, const and non-const operands, all histories of sets", "why_tests_cant": "Type constructors nest without bound, and the laws of an order quantify over all pairs and triples of values; whether an operator compiles on const operands shows only for the types somebody tried.", "anchors": ["estl/utility.hpp:126-153", "estl/pair.hpp:45-73", "estl/string_view.hpp:78-134", "estl/memory.hpp:296-324", "estl/memory.hpp:750-778", "estl/vector.hpp:208-218", "estl/list.hpp:269-287", "estl/any.hpp:51-53", "estl/functional.hpp:144-146"]}
{"id": "C112", "title": "Arithmetic function objects compute modulo 2^bits, or exactly", "statement": "plus, minus, multiplies, divides, modulus and negate give the mathematical result modulo 2^bits for unsigned types and all types narrower than int, for all operands except divisors of 0; for int32_t and int64_t they give the mathematical result whenever it fits.", "quantifier": "all integer types, all operands", "why_tests_cant": "All pairs of operands; the undefined cases (integral promotion makes products of uint16_t signed) give the expected bits on the tester's compiler.", "anchors": ["estl/utility.hpp:84-124"]}
{"id": "C113", "title": "From the floppy to the screen: the numbers shown are those of the BIOS", "statement": "For every floppy with a loader and a linked kernel, however often the drive fails, whatever was in memory: the machine arrives at main in 64-bit mode, main comes to rest, and the pixels of the screen are exactly those of the log, with the number of memory map entries the BIOS reported and the megabytes of RAM in them.", "quantifier": "all floppies, loaders and linked kernels, all read errors, all memory maps, all initial states of memory and registers, all fonts, all behaviours of the TLB", "why_tests_cant": "The chain from boot sector to pixels has many independent inputs (disk layout, errors, map, leftovers in memory); a test boots one image on one emulator, whose BIOS never reports a map that goes wrong.", "anchors": ["bootloader/boot.asm:1-236", "bootloader/loader.asm:1-455", "kernel/head.S:1-118", "kernel/Eospp.lds:1-34", "kernel/main.cpp:21-49", "kernel/src/core/e820.cpp:25-45", "kernel/src/io/veas.cpp:334-402"]}
{"id": "C114", "title": "apply calls a function with the elements of a tuple", "statement": "apply(f, t) calls f once with the elements of t in order, each passed as the element itself with the constness and the value category of t, for every callee INVOKE accepts; get<I>(t) gives the I-th element of every tuple expression, with its constness and value category.", "quantifier": "all callees, all element types, any number of elements, const or not, lvalue or rvalue", "why_tests_cant": "The arguments are produced by template expansion for any number of elements and any types; combinations that do not compile cannot be written into a test suite, and a needless copy instead of a move goes unnoticed.", "anchors": ["estl/functional.hpp:59-68: apply", "estl/tuple.hpp:165-180: get"]}
{"id": "C115", "title": "Growth of a vector is amortised constant", "statement": "Whatever member functions are called on a vector, in total fewer elements are relocated to new storage than twice the largest number it ever held or was asked to reserve; n calls of push_back on a new vector relocate fewer than 2n elements.", "quantifier": "all programs, all vectors in them, all sequences of operations that do not replace its storage (assignment, swap, move)", "why_tests_cant": "A bound on the total cost of arbitrarily long interleavings; growing by a constant or shrinking on removal would be quadratic and pass every functional test.", "anchors": ["estl/vector.hpp:75-156", "estl/vector.hpp:254-274: resize", "estl/vector.hpp:281-283: reserve", "estl/vector.hpp:324-339: ensure_capacity"]}
{"id": "C116", "title": "Calls on a set take logarithmic time", "statement": "find, lower_bound, upper_bound, insert and erase(iterator) of a set or multiset of n elements compare a key with at most 2*log2(n+1) elements, and none of their loops takes more than one round above that.", "quantifier": "all histories of any number of sets and multisets, all strict weak orders, all keys", "why_tests_cant": "A bound for all sizes and histories; a set that has degenerated to a list returns the right answers and passes every functional test.", "anchors": ["estl/rb_tree.hpp:678-705: find", "estl/rb_tree.hpp:845-902: lower_bound, upper_bound", "estl/rb_tree.hpp:923-989: insert_multi_pos, insert_unique_pos, insert_node_at", "estl/rb_tree.hpp:383-425: rb_tree_insert_rebalance", "estl/rb_tree.hpp:427-549: rb_tree_erase_rebalance", "estl/rb_tree.hpp:781-797: erase"]}
{"id": "C117", "title": "Going through a set takes linear time", "statement": "Going from begin() to end() of a set or multiset of n elements, or back, shows every element once and takes at most n rounds of the loops in ++ or --, all steps together; going over m consecutive elements anywhere takes at most m plus twice the depth of the tree. This holds for every shape of the tree.", "quantifier": "all histories of any number of sets and multisets, all strict weak orders, all ranges", "why_tests_cant": "An amortised bound for all sizes and shapes of the tree; a walk that takes quadratic time shows the same elements.", "anchors": ["estl/rb_tree.hpp:166-182: increment", "estl/rb_tree.hpp:184-201: decrement"]}
{"id": "C118", "title": "Growth of a deque or queue is amortised constant", "statement": "Appending n elements to a deque (or passing n elements through a queue) copies, in total, at most a constant times n pointers to make room.", "quantifier": "all sequences of insertions and removals, all element types", "why_tests_cant": "A bound for all lengths of a history; a table of blocks copied again for every sixteenth element gives the same contents.", "anchors": ["estl/deque.hpp:265-289: ensure_capacity_front", "estl/deque.hpp:291-313: ensure_capacity_back", "estl/queue.hpp:1-67: queue over deque"]}
{"id": "C119", "title": "Lines printed by interrupt handlers and by the kernel do not mix", "statement": "However interrupts arrive while the kernel or another handler prints, every text given to printf appears on the screen exactly once, as a whole and in the order of its own program, never interleaved with another text. The message of an exception appears completely even if the exception arrives in the middle of printf, and nothing is printed after it.", "quantifier": "all programs and handlers that print, enable and disable interrupts and use guards; all points at which interrupts and exceptions can arrive, to any nesting depth", "why_tests_cant": "The static buffer and the cursor are shared; whether a line is torn depends on the instruction at which an interrupt arrives.", "anchors": ["kernel/src/io/veas.cpp:323-332: buf, printf", "kernel/src/io/veas.cpp:362-393: Vesa::ColorPrint", "kernel/include/core/interrupt.hpp:123-134: IrqGuard", "kernel/src/core/interrupt.cpp:236-255: _fault_handler, _irq_handler"]}
{"id": "C120", "title": "Sets accept references to their own elements", "statement": "Every function of set and multiset that takes a key by reference (find, count, lower_bound, upper_bound, equal_range, erase, insert) may be given a reference to an element of the set itself or of another set, as in s.erase(*it): the result is that for the value the element had at the call, nothing undefined happens although the element may be destroyed meanwhile, and erase removes the element itself among all equivalent ones and returns their number.", "quantifier": "all reachable sets and multisets over any strict weak order, all elements referred to", "why_tests_cant": "Whether a key is read after its element is gone depends on the shape of the tree and on how many equivalent elements there are; freed memory often still holds the old value.", "anchors": ["estl/rb_tree.hpp:678-713: find, count_multi, count_unique", "estl/rb_tree.hpp:714-756: emplace_multi, emplace_unique, insert_multi, insert_unique", "estl/rb_tree.hpp:808-823: erase_multi, erase_unique", "estl/rb_tree.hpp:845-962: lower_bound, upper_bound, insert_multi_pos, insert_unique_pos"]}
{"id": "C121", "title": "Destroying a set needs little stack", "statement": "Clearing, assigning or destroying a set or multiset never has more calls of its recursive function active at once than twice the binary logarithm of the number of elements plus one, plus one.", "quantifier": "all reachable sets and multisets over any strict weak order", "why_tests_cant": "Recursion that is too deep shows only when the stack overflows, which depends on the order of the insertions and on the number of elements; on a development machine with megabytes of stack it does not show at all.", "anchors": ["estl/rb_tree.hpp:799-806: erase_since", "estl/rb_tree.hpp:669-677: clear", "estl/rb_tree.hpp:634-637: ~rb_tree", "estl/rb_tree.hpp:383-425: rb_tree_insert_rebalance"]}
{"id": "C122", "title": "alloc_pages takes pages from the kind of memory asked for", "statement": "A request for pages that are not mapped is served from RAM at or above 4 GiB only, every other request from RAM below 4 GiB only, and null is returned only if no zone of that kind has enough free pages in a row.", "quantifier": "all memory maps for which init_memory is defined, all histories of page_init, page_clean and alloc_pages, all numbers of pages", "why_tests_cant": "Which zones are tried depends on how the BIOS cuts the memory map into entries; a test machine has one map, usually with a single zone and nothing above 4 GiB.", "anchors": ["kernel/src/core/physical_allocator.cpp:229-239: zone indices", "kernel/src/core/physical_allocator.cpp:267-309: zone_select", "kernel/src/core/physical_allocator.cpp:310-350: the search"]}
{"id": "C123", "title": "References to vector elements stay valid as the standard says", "statement": "A reference, pointer or iterator to element k of a vector stays valid, and denotes the same element with the same value, through calls that keep the size within the capacity and change only positions behind k, through swap and move (the element then belongs to the other vector), and through all calls on other vectors. After insertions and removals in front of it, it denotes the element that then is at position k. It dangles exactly if the call makes the vector reallocate, removes position k, or destroys or overwrites the vector. No two elements of live vectors share an address.", "quantifier": "all programs over any number of vectors, all element types, all positions, all moments at which the reference is taken and used", "why_tests_cant": "A stale reference usually still reads the old value, so a test passes; which calls keep references valid depends on the history of the capacity.", "anchors": ["estl/vector.hpp:60-63, 203-206, 248-252: move, assignment, swap", "estl/vector.hpp:75-201: insertion and removal", "estl/vector.hpp:254-283: resize, clear, reserve", "estl/vector.hpp:324-339: ensure_capacity"]}
{"id": "C124", "title": "Printed text can be read off the screen", "statement": "Every character from ! to ~ has pixels in its cell and no two of them look alike. Two texts of printable characters, in lines shorter than the console is wide, printed in a colour other than black on blank rows, give the same screen exactly if they have the same character or blank in every column of every line; so a text whose lines end in no blank can be recovered from the picture, and two boots with the same final picture had the same memory map summary, page directory entry, fate of the second store and registers of the page fault. Every byte other than ! to ~, line feed and tab has the effect of a space.", "quantifier": "all texts, all pairs of texts, all screens of any size, all colours other than black, all bytes", "why_tests_cant": "Two characters with the same picture, or an invisible one, only show up in the pair that is compared; a test of the console compares pixels against the same font table.", "anchors": ["kernel/src/io/veas.cpp:7-318: font_ascii", "kernel/src/io/veas.cpp:345-361: PutChar", "kernel/src/io/veas.cpp:362-393: ColorPrint", "kernel/main.cpp: what is printed"]}
{"id": "C125", "title": "Arguments are forwarded perfectly", "statement": "A function template that takes T&& and hands on forward<T>(t) gives its callee the argument with its type and qualifiers, as an lvalue if it was one and as an rvalue if it was one, through any number of such functions; so emplace, emplace_back, emplace_front, make_unique, make_shared, make_any and invoke neither move from lvalues nor copy rvalues on the way. In any chain of calls the last one that does not forward decides: a plain name gives an lvalue, move an rvalue, and none changes the type or is rejected. forward<T&> of an rvalue is rejected; functions stay lvalues; declval gives an lvalue for T& and an rvalue otherwise.", "quantifier": "all types that can be referred to, all value categories, all chains of calls", "why_tests_cant": "Each combination of type, category and depth of calls is a different instantiation of the templates; a test sees the ones it writes down, and a program that must be rejected cannot be run at all.", "anchors": ["estl/utility.hpp:6-22: forward, move", "estl/type_traits.hpp:428-429: declval", "estl/allocator.hpp:7-9: construct", "estl/vector.hpp:196-201: emplace_back", "estl/list.hpp:360-374: emplace_back, emplace_front", "estl/rb_tree.hpp:714-730, 991-995: emplace, create_node", "estl/memory.hpp:266-269, 780-783: make_unique, make_shared"]}
{"id": "C126", "title": "function hands arguments to its target as the signature says", "statement": "A call of function<R(Args...)> gives the target each argument as a direct call with forward<Args>(args) would: for a parameter T& the lvalue, for T and T&& an rvalue of type T; so every target whose parameters are those of the signature can be called, also with objects that can only be moved.", "quantifier": "all parameter types of the signature, all targets", "why_tests_cant": "Whether a call compiles depends on the types and value categories, of which there are infinitely many combinations; programs that are rejected cannot be run as tests.", "anchors": ["estl/functional.hpp:71-77: interface::operator()(const Args&...)", "estl/functional.hpp:93-95: function_helper::operator()", "estl/functional.hpp:125-128: function::operator()", "estl/functional.hpp:7-20, 54-57: invoke"]}
{"id": "C127", "title": "Stacks and queues over vectors", "statement": "stack<T, vector<T>> and queue<T, vector<T>> are a stack and a queue: for any interleaving of calls on any number of them (push, pop of non-empty ones, copies, also of empty ones, moves, swaps, assignments, also of an object to itself, destruction) every call is defined, size() is the number of elements, top() the newest and front() the oldest element not yet popped; it does not matter whether the swap of vectors is declared before the queue. The allocated blocks are those of the live adaptors, no two share one, and none is left when all are destroyed. One that is only pushed to and popped from, and never holds more than M elements, never has room for more than max(M, 2M-2).", "quantifier": "all sequences of calls on any number of stacks or queues, all element types", "why_tests_cant": "Histories are unbounded, and the tests use the default container only.", "anchors": ["estl/stack.hpp:6-67: stack", "estl/queue.hpp:7-65: queue", "estl/vector.hpp:75-83, 188-206, 228-251, 347-350: the members used"]}
