{
 "claims": [
  {
   "property": "C01",
   "status": "proved",
   "theorems": [
    "Verif.Props.C01_memmove"
   ],
   "note": "all overlaps, addresses as naturals (no wrap-around)"
  },
  {
   "property": "C02",
   "status": "proved",
   "theorems": [
    "Verif.Props.C02_memcpy",
    "Verif.Props.C02_memcpy_degenerate",
    "Verif.Props.C02_memcpy_overlap_differs"
   ],
   "note": "plus a witness that the non-overlap precondition is needed"
  },
  {
   "property": "C03",
   "status": "proved",
   "theorems": [
    "Verif.Props.C03_strlen",
    "Verif.Props.C03_strlen_diverges"
   ],
   "note": "returns exactly when there is a terminator"
  },
  {
   "property": "C04",
   "status": "proved",
   "theorems": [
    "Verif.Props.C04_strcpy",
    "Verif.Props.C04_strcpy_overlap_diverges"
   ],
   "note": "plus divergence for the excluded overlap"
  },
  {
   "property": "C05",
   "status": "proved",
   "theorems": [
    "Verif.Props.C05_vslprintf_bounds",
    "Verif.Props.C05_snprintf_bounds"
   ],
   "note": "for every outcome, including undefined behaviour; termination for every format"
  },
  {
   "property": "C06",
   "status": "partial",
   "theorems": [
    "Verif.Props.C06_nul_terminated_violated",
    "Verif.Props.C06_nul_terminated_partial",
    "Verif.Props.C06_terminated_iff"
   ],
   "note": "false as stated (witness); holds exactly when the text is shorter than the buffer"
  },
  {
   "property": "C07",
   "status": "partial",
   "theorems": [
    "Verif.Props.C07_no_overread_violated",
    "Verif.Props.C07_no_overread_partial"
   ],
   "note": "false for a format ending in an incomplete directive (witness); proved for all complete formats"
  },
  {
   "property": "C08",
   "status": "partial",
   "theorems": [
    "Verif.Props.C08_unsigned64",
    "Verif.Props.C08_unsigned32",
    "Verif.Props.C08_signed32",
    "Verif.Props.C08_signed64_partial",
    "Verif.Props.C08_int64_min_violated",
    "Verif.Props.C08_decimal_roundtrip",
    "Verif.Props.C08_hex_roundtrip"
   ],
   "note": "all values of the unsigned and 32-bit conversions; for signed 64-bit all but INT64_MIN, where the code negates with signed overflow (witness)"
  },
  {
   "property": "C09",
   "status": "proved",
   "theorems": [
    "Verif.Props.C09_truncation_is_prefix",
    "Verif.Props.C09_literal"
   ],
   "note": "for all formats and arguments with defined meaning (Renders)"
  },
  {
   "property": "C10",
   "status": "partial",
   "theorems": [
    "Verif.Props.Bitset.C10_bitset_partial",
    "Verif.Props.Bitset.C10_bitset_violated"
   ],
   "note": "positions with p % 64 >= 32 shift an int by more than 31 bits: undefined behaviour in every state (witness for all of them); proved for all histories on the other positions"
  },
  {
   "property": "C11",
   "status": "proved",
   "theorems": [
    "Verif.Props.StringView.C11_eq_iff_same_contents",
    "Verif.Props.StringView.C11_lt_irrefl",
    "Verif.Props.StringView.C11_lt_trans",
    "Verif.Props.StringView.C11_trichotomy",
    "Verif.Props.StringView.C11_operators_consistent"
   ],
   "note": "for all views of readable memory"
  },
  {
   "property": "C12",
   "status": "partial",
   "theorems": [
    "Verif.Props.StringView.C12_lexicographic_violated",
    "Verif.Props.StringView.C12_lexicographic_partial"
   ],
   "note": "false as stated: shorter views always come first and characters above 127 are negative (witness); proved for equal lengths and ASCII"
  },
  {
   "property": "C13",
   "status": "proved",
   "theorems": [
    "Verif.Props.StringView.C13_substr",
    "Verif.Props.StringView.C13_substr_npos"
   ],
   "note": "including npos and unsigned wrap-around"
  },
  {
   "property": "C14",
   "status": "partial",
   "theorems": [
    "Verif.Props.Pair.C14_pair_order_violated",
    "Verif.Props.Pair.C14_pair_order_partial",
    "Verif.Props.Pair.C14_derived_operators_partial"
   ],
   "note": "operator< is not asymmetric (witness); proved lexicographic for pairs whose components are not ordered oppositely; derived operators exact"
  },
  {
   "property": "C15",
   "status": "partial",
   "theorems": [
    "Verif.Props.Traits.C15_disjunction",
    "Verif.Props.Traits.C15_not",
    "Verif.Props.Traits.C15_conjunction_violated",
    "Verif.Props.Traits.C15_conjunction_actual_partial",
    "Verif.Props.Traits.C15_conjunction_partial"
   ],
   "note": "conjunction computes a disjunction (witness); exact characterisation proved; disjunction and not_ proved"
  },
  {
   "property": "C16",
   "status": "proved",
   "theorems": [
    "Verif.Vector.C16_sequence",
    "Verif.Vector.C16_equality",
    "Verif.Vector.C16_erase_position"
   ],
   "note": "all programs over any number of vectors; erasing an empty range needs an element type that survives self-move-assignment"
  },
  {
   "property": "C17",
   "status": "proved",
   "theorems": [
    "Verif.Vector.C17_size_le_capacity",
    "Verif.Vector.C17_reserve",
    "Verif.Vector.C17_no_reallocation",
    "Verif.Vector.C17_growth",
    "Verif.Vector.C17_logarithmic"
   ],
   "note": "storage identity stands for pointer validity"
  },
  {
   "property": "C18",
   "status": "partial",
   "theorems": [
    "Verif.Vector.C18_lifetimes_partial",
    "Verif.Vector.C18_only_empty_blocks_leak",
    "Verif.Vector.C18_violated"
   ],
   "note": "vector(0), vector(0, v) and an empty initializer list leak a zero-size block (witness); proved for all other programs, and nothing else ever leaks"
  },
  {
   "property": "C19",
   "status": "partial",
   "theorems": [
    "Verif.Vector.C19_own_element_partial",
    "Verif.Vector.C19_full_violated",
    "Verif.Vector.C19_shift_violated"
   ],
   "note": "undefined whenever the vector is full; wrong value when the element is at or behind the position (both proved for all such cases); proved for the rest"
  },
  {
   "property": "C20",
   "status": "partial",
   "theorems": [
    "Verif.Deque.C20_no_push_front_partial",
    "Verif.Deque.C20_sequence_partial",
    "Verif.Deque.C20_few_pushes_partial",
    "Verif.Deque.C20_push_front_violated",
    "Verif.Deque.C20_push_front_after_backs_violated",
    "Verif.Deque.C20_push_fronts_violated"
   ],
   "note": "All histories on any number of deques without front insertions; all histories with them are either exactly right or undefined, never wrong; any history of at most 17 insertions on one deque is right. Violated: push_front with two or more blocks and no room in front writes outside the new control array (proved for every such reachable state, and in calls for every 17 push_backs then push_front, every 33 push_fronts)."
  },
  {
   "property": "C21",
   "status": "partial",
   "theorems": [
    "Verif.Deque.C21_index_partial",
    "Verif.Deque.C21_index_back_only_partial",
    "Verif.Deque.C21_index_violated",
    "Verif.Deque.C21_push_front_violated",
    "Verif.Deque.C21_pop_front_violated"
   ],
   "note": "operator[] takes an absolute slot number: d[b+i] is the i-th element where b is the index of begin() (all histories), so the claim holds while b is 0, e.g. after push_backs only. Violated: d[0] is undefined whenever b is not 0 (elements with destructors, all histories), and wrong or undefined in two-call examples for all values."
  },
  {
   "property": "C22",
   "status": "partial",
   "theorems": [
    "Verif.Deque.C22_begin_end_violated",
    "Verif.Deque.C22_copy_empty_violated",
    "Verif.Deque.C22_copy_partial"
   ],
   "note": "Violated: every reachable empty deque has end() == begin()+1, iterates a dead element, and copying it is undefined or gives one element. Proved: copying a non-empty deque."
  },
  {
   "property": "C23",
   "status": "proved",
   "theorems": [
    "Verif.Deque.C23_stack"
   ],
   "note": "All interleavings over any number of stacks; legal means pops and copies only of non-empty stacks (copying an empty one is C22)."
  },
  {
   "property": "C24",
   "status": "proved",
   "theorems": [
    "Verif.Deque.C24_queue"
   ],
   "note": "All interleavings over any number of queues; legal means pops and copies only of non-empty queues (copying an empty one is C22)."
  },
  {
   "property": "C25",
   "status": "partial",
   "theorems": [
    "Verif.Deque.C25_memory_violated",
    "Verif.Deque.C25_memory_partial"
   ],
   "note": "Violated: with at most two elements the storage grows without bound (m/16+1 blocks after m rounds, all m). Proved: a bound when the queue becomes empty once in every m pushes."
  },
  {
   "property": "C26",
   "status": "partial",
   "theorems": [
    "Verif.EList.C26_list_sequence_partial",
    "Verif.EList.C26_clear_null_call_violated"
   ],
   "note": "All histories of all operations on any number of lists. clear() of a non-empty list calls a member function through a null pointer, undefined by the standard (proved for all non-empty lists); everything else holds under the standard, and everything including clear, destructor and assignment when such a call returns null."
  },
  {
   "property": "C27",
   "status": "partial",
   "theorems": [
    "Verif.EList.C27_backward_partial",
    "Verif.EList.C27_iterator_stable_partial"
   ],
   "note": "All histories, both directions, stability against every operation. clear() of a non-empty list calls a member function through a null pointer, undefined by the standard (proved for all non-empty lists); everything else holds under the standard, and everything including clear, destructor and assignment when such a call returns null."
  },
  {
   "property": "C28",
   "status": "partial",
   "theorems": [
    "Verif.EList.C28_nodes_freed_once_partial"
   ],
   "note": "All histories; complete accounting of nodes. clear() of a non-empty list calls a member function through a null pointer, undefined by the standard (proved for all non-empty lists); everything else holds under the standard, and everything including clear, destructor and assignment when such a call returns null."
  },
  {
   "property": "C29",
   "status": "partial",
   "theorems": [
    "Verif.EList.C29_swap_partial",
    "Verif.EList.C29_self_swap_violated",
    "Verif.EList.C29_self_swap_one_violated",
    "Verif.EList.C29_self_swap_empty"
   ],
   "note": "Two different lists: proved in full. A list swapped with itself breaks whenever it is not empty (proved for every such list)."
  },
  {
   "property": "C30",
   "status": "proved",
   "theorems": [
    "Verif.Rb.C30_set_ordered",
    "Verif.Rb.C30_set_insert",
    "Verif.Rb.C30_set_history"
   ],
   "note": "For every reachable state of any number of sets, every strict weak order; histories of insertions for every strict total order."
  },
  {
   "property": "C31",
   "status": "proved",
   "theorems": [
    "Verif.Rb.C31_search_exact"
   ],
   "note": "Sets and multisets; every reachable state. equal_range of a set returns (end(), end()) for an absent key."
  },
  {
   "property": "C32",
   "status": "partial",
   "theorems": [
    "Verif.Rb.C32_insert_duplicate_violated",
    "Verif.Rb.C32_insert_duplicate_partial"
   ],
   "note": "Violated: proved for every element whose node has a right child that inserting its key returns an iterator to the next greater element (estl/rb_tree.hpp:936-957). The partial theorem covers elements without right child; nothing is inserted in either case."
  },
  {
   "property": "C33",
   "status": "proved",
   "theorems": [
    "Verif.Rb.C33_multiset_insert",
    "Verif.Rb.C33_multiset_history"
   ],
   "note": "One insertion into any reachable multiset; histories: permutation, sorted, stable."
  },
  {
   "property": "C34",
   "status": "proved",
   "theorems": [
    "Verif.Rb.C34_erase_iterator",
    "Verif.Rb.C34_erase_key",
    "Verif.Rb.C34_erase_range"
   ],
   "note": "Whenever the call returns (see C35); erase by iterator, key, range; never undefined behaviour."
  },
  {
   "property": "C35",
   "status": "partial",
   "theorems": [
    "Verif.Rb.C35_descending_erase_violated",
    "Verif.Rb.C35_missing_sibling_violated",
    "Verif.Rb.C35_termination_partial",
    "Verif.Rb.C35_erase_exact_partial"
   ],
   "note": "Violated: erase never returns whenever the node is a black leaf without sibling; this is reached by inserting any four or more keys in descending order and erasing the greatest (cause: estl/rb_tree.hpp:399-400). Proved partial: all other calls return in every reachable state; C35_erase_exact_partial says for every element of every reachable set exactly when erasing it returns; in states whose trees are red-black trees every erase returns (C36_calls_partial), in particular after histories that only add at the end."
  },
  {
   "property": "C36",
   "status": "partial",
   "theorems": [
    "Verif.Rb.C36_descending_unbalanced_violated",
    "Verif.Rb.C36_appended_balanced_partial",
    "Verif.Rb.C36_insert_exact_partial",
    "Verif.Rb.C36_calls_partial"
   ],
   "note": "Violated for all descending histories of three or more keys (cause: estl/rb_tree.hpp:399-400): the tree degenerates to depth length-1. Proved partial: an insertion anywhere into red-black trees keeps them red-black trees if and only if it does not pass these lines (C36_insert_exact_partial), all other calls keep them (C36_calls_partial); histories that only add at the end (with arbitrary erasures) keep a red-black tree of logarithmic depth."
  },
  {
   "property": "C37",
   "status": "proved",
   "theorems": [
    "Verif.Rb.C37_iterators"
   ],
   "note": "Every element of every reachable set or multiset; from end() if there is an element (decrementing end() of an empty tree is undefined)."
  },
  {
   "property": "C38",
   "status": "proved",
   "theorems": [
    "Verif.Rb.C38_nodes_accounted",
    "Verif.Rb.C38_nodes_freed"
   ],
   "note": "Every reachable state; clear, destructor, erase(iterator), erase(key)."
  },
  {
   "property": "C39",
   "status": "partial",
   "theorems": [
    "Verif.SmartPtr.C39_one_owner",
    "Verif.SmartPtr.C39_deleted_once",
    "Verif.SmartPtr.C39_moved_from_null",
    "Verif.SmartPtr.C39_self_move",
    "Verif.SmartPtr.C39_violated_default"
   ],
   "note": "All of unique_ptr except the default constructor, which leaves the pointer uninitialised (memory.hpp): using or destroying such a unique_ptr is undefined behaviour, proved in C39_violated_default. Everything else for all histories: one owner, deleted exactly once, moved-from null, self-move harmless."
  },
  {
   "property": "C40",
   "status": "partial",
   "theorems": [
    "Verif.SmartPtr.C40_use_count",
    "Verif.SmartPtr.C40_use_count_object",
    "Verif.SmartPtr.C40_empty",
    "Verif.SmartPtr.C40_defined_partial",
    "Verif.SmartPtr.C40_calls_finish_partial",
    "Verif.SmartPtr.C40_violated_reset_member",
    "Verif.SmartPtr.C40_violated_convert_member",
    "Verif.SmartPtr.C40_violated_witness"
   ],
   "note": "use_count equals the number of owners in every reachable state, and every call is defined and finishes, for histories that do not call reset(ptr) or converting assignment on a shared_ptr that is a member of the object being released; in that case the call is undefined behaviour for every such state (C40_violated_reset_member, C40_violated_convert_member, C40_violated_witness)."
  },
  {
   "property": "C41",
   "status": "partial",
   "theorems": [
    "Verif.SmartPtr.C41_owned_alive",
    "Verif.SmartPtr.C41_at_most_once",
    "Verif.SmartPtr.C41_deleted_exactly_when_unowned",
    "Verif.SmartPtr.C41_history"
   ],
   "note": "Owned objects alive, deleted exactly when unowned and at most once, for all histories outside the undefined cases of C40."
  },
  {
   "property": "C42",
   "status": "partial",
   "theorems": [
    "Verif.SmartPtr.C42_alive_while_referenced",
    "Verif.SmartPtr.C42_freed_exactly_when_unreferenced",
    "Verif.SmartPtr.C42_at_most_once"
   ],
   "note": "Control block alive while referenced, freed exactly when unreferenced and at most once, for all histories outside the undefined cases of C40."
  },
  {
   "property": "C43",
   "status": "partial",
   "theorems": [
    "Verif.SmartPtr.C43_lock_alive",
    "Verif.SmartPtr.C43_lock_expired_partial",
    "Verif.SmartPtr.C43_violated_expired_count",
    "Verif.SmartPtr.C43_expired_iff"
   ],
   "note": "lock on a live object and expired() are right for every history; lock on an expired object returns null, but its use_count is 1 instead of 0 (C43_violated_expired_count)."
  },
  {
   "property": "C44",
   "status": "partial",
   "theorems": [
    "Verif.LockRace.C44_violated_no_owner_added",
    "Verif.LockRace.C44_violated_added_again",
    "Verif.LockRace.C44_violated_disposed_while_held",
    "Verif.LockRace.C44_violated_spurious",
    "Verif.LockRace.C44_violated_leak",
    "Verif.LockRace.C44_lock_partial",
    "Verif.LockRace.C44_uninterrupted_partial"
   ],
   "note": "Violated: lock() reads the count and then increments it, so interleavings with the release of the last owner resurrect a disposed object, dispose while held, fail spuriously, or leak. Proved: lock() is right in every interleaving in which another owner exists throughout, or when it is not interrupted."
  },
  {
   "property": "C45",
   "status": "proved",
   "theorems": [
    "Verif.SmartPtr.C45_terminates",
    "Verif.SmartPtr.C45_progress",
    "Verif.SmartPtr.C45_disposed_and_freed_once"
   ],
   "note": "All object graphs and all schedules of the releasing steps; lock() is one step here (see C44)."
  },
  {
   "property": "C46",
   "status": "proved",
   "theorems": [
    "Verif.Atomic.C46_sum",
    "Verif.Atomic.C46_final",
    "Verif.Atomic.C46_sequential",
    "Verif.Atomic.C46_tickets",
    "Verif.Atomic.C46_compare_exchange"
   ],
   "note": "Each __atomic builtin is one indivisible step; the compare-exchange operations are specified by C46_compare_exchange."
  },
  {
   "property": "C47",
   "status": "partial",
   "theorems": [
    "Verif.Any.C47_value_partial",
    "Verif.Any.C47_independent_partial",
    "Verif.Any.C47_destroyed_once_partial",
    "Verif.Any.C47_violated_pointer",
    "Verif.Any.C47_violated_emplace_self"
   ],
   "note": "Proved for all histories and types, including emplace and assignment from the value held by another any, except: pointers put in by construction or assignment (any(T*, Args...) captures them, so the any holds a default constructed pointee instead: C47_violated_pointer, all types), and emplace from the value the any itself holds, which is destroyed before it is read (C47_violated_emplace_self, all values)."
  },
  {
   "property": "C48",
   "status": "partial",
   "theorems": [
    "Verif.Any.C48_violated",
    "Verif.Any.C48_violated_assign",
    "Verif.Any.C48_violated_held",
    "Verif.Any.C48_partial"
   ],
   "note": "Violated for every type whose move changes the source, be it a variable or a value held by another any (C48_violated, C48_violated_assign, C48_violated_held). Proved for types whose move is a copy."
  },
  {
   "property": "C49",
   "status": "partial",
   "theorems": [
    "Verif.Function.C49_calls_partial",
    "Verif.Function.C49_released_once_partial",
    "Verif.Function.C49_violated_copy_empty",
    "Verif.Function.C49_violated_not_destroyed"
   ],
   "note": "Proved for all histories that copy no empty function: calls, independence, moves, storage released once. Violated: copying or assigning from an empty function is undefined (C49_violated_copy_empty); interface has no virtual destructor, so no target is ever destroyed (C49_violated_not_destroyed)."
  },
  {
   "property": "C50",
   "status": "partial",
   "theorems": [
    "Verif.Defer.C50_once_partial",
    "Verif.Defer.C50_violated_copy",
    "Verif.Defer.C50_violated_move_state",
    "Verif.Defer.C50_violated_move",
    "Verif.Defer.C50_violated_assign"
   ],
   "note": "Proved for all histories without copy, move and assignment. Violated: copies and assignments run the action twice; moves are undefined for function objects with state and run the action twice otherwise."
  },
  {
   "property": "C51",
   "status": "proved",
   "theorems": [
    "Verif.E820.C51_faithful",
    "Verif.E820.C51_any_table"
   ],
   "note": "For every raw table and every content: C51_faithful, C51_any_table."
  },
  {
   "property": "C52",
   "status": "partial",
   "theorems": [
    "Verif.Interrupt.C52_registry_partial",
    "Verif.Interrupt.C52_violated_unchecked"
   ],
   "note": "Dispatch is exact for in-range vectors and never reaches an unregistered handler. trigger/registration with a code at or beyond the table size is unchecked (C52_violated_unchecked); in the kernel only direct calls can do that."
  },
  {
   "property": "C53",
   "status": "proved",
   "theorems": [
    "Verif.Interrupt.C53_gate",
    "Verif.Interrupt.C53_init"
   ],
   "note": "Gate encoding for every handler address and every vector, and the whole init sequence, on a table that is zero before (for other contents see C84)."
  },
  {
   "property": "C54",
   "status": "proved",
   "theorems": [
    "Verif.IrqGuard.C54_guard",
    "Verif.IrqGuard.C54_flags"
   ],
   "note": "Guard nesting over all programs and all initial flags."
  },
  {
   "property": "C55",
   "status": "partial",
   "theorems": [
    "Verif.Stubs.C55_irq_sees",
    "Verif.Stubs.C55_syscall_sees",
    "Verif.Stubs.C55_irq_resume",
    "Verif.Stubs.C55_syscall_resume",
    "Verif.Stubs.C55_irq_restores",
    "Verif.Stubs.C55_syscall_restores",
    "Verif.Stubs.C55_fault_partial",
    "Verif.Stubs.C55_violated_fault"
   ],
   "note": "Interrupt and syscall stubs are proved for all register values. Fault stubs are proved for the vectors whose error-code convention they follow; vectors 17, 21, 29 and 30 push/pop a wrong error-code slot (C55_violated_fault)."
  },
  {
   "property": "C56",
   "status": "proved",
   "theorems": [
    "Verif.Interrupt.C56_remap",
    "Verif.Interrupt.C56_eoi",
    "Verif.Interrupt.C56_in_service"
   ],
   "note": "PIC remap and end-of-interrupt port sequences."
  },
  {
   "property": "C57",
   "status": "partial",
   "theorems": [
    "Verif.Vesa.C57_exact",
    "Verif.Vesa.C57_no_linefeed_partial",
    "Verif.Vesa.C57_violated"
   ],
   "note": "Exact characterisation of when the cursor stays in the screen (C57_exact); violated by line feeds (C57_violated); holds for text without line feeds (C57_no_linefeed_partial)."
  },
  {
   "property": "C58",
   "status": "proved",
   "theorems": [
    "Verif.Vesa.C58_cells",
    "Verif.Vesa.C58_exact_glyph",
    "Verif.Vesa.C58_stays_blank"
   ],
   "note": "Cell contents for every text that fits; glyphs are drawn over old content, exact on blank cells."
  },
  {
   "property": "C59",
   "status": "proved",
   "theorems": [
    "Verif.Vesa.C59_clear"
   ],
   "note": "clear blanks every pixel and homes the cursor."
  },
  {
   "property": "C60",
   "status": "proved",
   "theorems": [
    "Verif.Paging.C60_translate",
    "Verif.Paging.C60_framebuffer",
    "Verif.Paging.C60_protect"
   ],
   "note": "For all 2^64 virtual addresses, before and after main() clears a write bit; TLB and CR0.WP not modelled."
  },
  {
   "property": "C61",
   "status": "partial",
   "theorems": [
    "Verif.Phys.C61_accounting_partial",
    "Verif.Phys.C61_bitmap_partial",
    "Verif.Phys.C61_bit_stays_violated",
    "Verif.Phys.C61_no_flags_violated"
   ],
   "note": "In every history with flags != 0: using = number of referenced pages of the zone, using + free = total, total_pages_link = number of references, attributes set iff referenced, referenced implies bit set; without PG_Referenced/PG_K_Share_To_U the bit is set exactly while referenced. Violated: with these flags the bit stays set after the last reference is dropped; flags 0 make the counters drift."
  },
  {
   "property": "C62",
   "status": "partial",
   "theorems": [
    "Verif.Phys.C62_aligned_zone_violated",
    "Verif.Phys.C62_second_block_violated",
    "Verif.Phys.C62_same_page_twice_violated",
    "Verif.Phys.C62_alloc_partial",
    "Verif.Phys.C62_zone_violated",
    "Verif.Phys.C62_first_fit_partial"
   ],
   "note": "Proved if all zones tried start one page behind a multiple of 64 (the usual map): returned pages were free and exactly these are marked; if they also end in the same block of 64 pages and no other pages follow in it, the call returns and is first fit within the zones (C62_first_fit_partial). Violated: zones starting at a multiple of 64 and searches leaving the first 64-page block run into undefined shifts; zones starting elsewhere hand out the same page twice; a run of free pages that reaches beyond the end of the zone is handed out (C62_zone_violated)."
  },
  {
   "property": "C63",
   "status": "proved",
   "theorems": [
    "Verif.Boot.C63_entry"
   ],
   "note": "All 3072 entries the table can hold, all contents; drive may fail transiently."
  },
  {
   "property": "C64",
   "status": "proved",
   "theorems": [
    "Verif.Boot.C64_reads",
    "Verif.Boot.C64_chs"
   ],
   "note": "C64_chs: requests issued; C64_reads: data delivered."
  },
  {
   "property": "C65",
   "status": "proved",
   "theorems": [
    "Verif.Boot.C65_search"
   ],
   "note": "All directory contents."
  },
  {
   "property": "C66",
   "status": "partial",
   "theorems": [
    "Verif.Boot.C66_boot_exact",
    "Verif.Boot.C66_boot_partial",
    "Verif.Boot.C66_violated_long",
    "Verif.Boot.C66_kernel_partial",
    "Verif.Boot.C66_violated_eoc"
   ],
   "note": "Chains ended by 0xFFF: boot.asm exact for every length (C66_boot_exact), consecutive up to 64 KiB (C66_boot_partial); loader.asm for every length (C66_kernel_partial). Violated: files longer than 64 KiB in boot.asm overwrite their beginning (C66_violated_long); chains ended by 0xFF8..0xFFE never end (C66_violated_eoc)."
  },
  {
   "property": "C67",
   "status": "partial",
   "theorems": [
    "Verif.Props.Algorithm.C67_deref_partial",
    "Verif.Props.Algorithm.C67_traversal_partial",
    "Verif.Props.Algorithm.C67_order_violated"
   ],
   "note": "ordering operators are reversed (proved for all positions); traversal, dereference and equality proved"
  },
  {
   "property": "C68",
   "status": "proved",
   "theorems": [
    "Verif.Props.Algorithm.C68_min",
    "Verif.Props.Algorithm.C68_max",
    "Verif.Props.Algorithm.C68_fill",
    "Verif.Props.Algorithm.C68_fill_reversed",
    "Verif.Props.Algorithm.C68_fill_n"
   ],
   "note": "min/max for every asymmetric order; fill/fill_n exact for all ranges"
  },
  {
   "property": "C69",
   "status": "proved",
   "theorems": [
    "Verif.Props.Algorithm.C69_global_ctors"
   ],
   "note": "for all tables"
  },
  {
   "property": "C70",
   "status": "proved",
   "theorems": [
    "Verif.Props.Traits.C70_index_sequence",
    "Verif.Props.Traits.C70_nth_type",
    "Verif.Props.Traits.C70_get",
    "Verif.Props.Traits.C70_swap"
   ],
   "note": "all lengths and indices; components modelled by one value type"
  },
  {
   "property": "C71",
   "status": "proved",
   "theorems": [
    "Verif.Deque.C71_deque_storage",
    "Verif.Deque.C71_adaptor_storage"
   ],
   "note": "All defined histories for deques (undefined ones are C20); all legal histories for stacks and queues."
  },
  {
   "property": "C72",
   "status": "proved",
   "theorems": [
    "Verif.Rb.C72_iterators_follow"
   ],
   "note": "swap, move construction, move assignment, including self-swap and self-move."
  },
  {
   "property": "C73",
   "status": "proved",
   "theorems": [
    "Verif.Rb.C73_copies"
   ],
   "note": "copy construction, copy assignment, list construction and assignment."
  },
  {
   "property": "C74",
   "status": "partial",
   "theorems": [
    "Verif.Phys.C74_tables_overflow_violated",
    "Verif.Phys.C74_zones_partial"
   ],
   "note": "Proved for memory maps whose RAM pages all lie within the tables and whose zones do not overlap. Violated: a RAM page number >= amount of RAM in pages (any sufficiently large hole below) makes init_memory write outside its tables, e.g. the usual 128 MB PC map."
  },
  {
   "property": "C75",
   "status": "partial",
   "theorems": [
    "Verif.Loader.C75_map_partial",
    "Verif.Loader.C75_faithful_partial",
    "Verif.Loader.C75_stale_violated",
    "Verif.Loader.C75_cut_violated",
    "Verif.Loader.C75_long_violated",
    "Verif.Loader.C75_carry_violated",
    "Verif.PowerOn.C75_linked_partial"
   ],
   "note": "C75_map_partial: exact contents for every map that fits the segment. C75_faithful_partial: equal to the BIOS map for at most 20 valid entries not followed by stale bytes that look like an entry. The claim fails: no end mark is written and the last kernel sector is still in the buffer (C75_stale_violated), unknown types or length 0 cut the map (C75_cut_violated), more than 20 entries are dropped (C75_long_violated), a BIOS that ends the map by carry stops the machine (C75_carry_violated). What the kernel does between head.S and Init is assumed not to touch the buffer."
  },
  {
   "property": "C76",
   "status": "partial",
   "theorems": [
    "Verif.Loader.C76_low_partial",
    "Verif.Loader.C76_jump",
    "Verif.Loader.C76_long_mode",
    "Verif.Loader.C76_rest_violated"
   ],
   "note": "C76_low_partial, C76_jump: the first 12 MiB of both halves and the whole kernel file are mapped, whatever memory held. C76_long_mode: exact cpuid condition. The claim fails for other addresses: unused entries are never cleared (C76_rest_violated)."
  },
  {
   "property": "C77",
   "status": "partial",
   "theorems": [
    "Verif.Printf.C77_text_partial",
    "Verif.Printf.C77_pixels_partial",
    "Verif.Printf.C77_nul_violated",
    "Verif.Printf.C77_long_violated",
    "Verif.Printf.C77_overread_violated"
   ],
   "note": "C77_text_partial, C77_pixels_partial: texts of less than 1024 bytes without NUL. The claim fails for longer texts: the buffer is not terminated and bytes behind it are printed (C77_long_violated) or the read is undefined (C77_overread_violated); a NUL in the text ends the output (C77_nul_violated)."
  },
  {
   "property": "C78",
   "status": "partial",
   "theorems": [
    "Verif.EList.C78_equality_partial",
    "Verif.EList.C78_equality_same_partial",
    "Verif.EList.C78_long_violated"
   ],
   "note": "== is proved to return, to be true exactly when lengths agree and no two elements at the same place differ by the element's !=, and != to be its negation, after every permitted history and for any pair of lists (also one list twice), for lists of fewer than 2^31 elements. C78_long_violated proves that comparing equal lists of 2^31 or more elements overflows the int counter. Histories are those of C26 (strict mode: no clear of a non-empty list)."
  },
  {
   "property": "C79",
   "status": "partial",
   "theorems": [
    "Verif.Stubs.C79_alignment_violated",
    "Verif.Stubs.C79_direction_violated",
    "Verif.Stubs.C79_fault_partial",
    "Verif.Stubs.C79_fault_violated"
   ],
   "note": "Proved for exceptions other than 17, 21, 29, 30 when the interrupted program has the direction flag clear (C79_fault_partial). Violated for every IRQ and system call (stack off by 8: C79_alignment_violated), for exceptions 17, 21, 29, 30 (C79_fault_violated) and for the direction flag (C79_direction_violated)."
  },
  {
   "property": "C80",
   "status": "partial",
   "theorems": [
    "Verif.Stubs.C80_memory_partial",
    "Verif.Stubs.C80_red_zone_violated",
    "Verif.Stubs.C80_segments_violated",
    "Verif.Stubs.C80_sse_violated"
   ],
   "note": "Proved: memory at and above the interrupted stack pointer is unchanged where the handler leaves it alone (C80_memory_partial); registers of the context are C55. Violated: the red zone is overwritten (C80_red_zone_violated), ds, es, gs are replaced by 0x10 (C80_segments_violated), SSE registers are not saved (C80_sse_violated)."
  },
  {
   "property": "C81",
   "status": "partial",
   "theorems": [
    "Verif.Vesa.C81_layout_partial",
    "Verif.Vesa.C81_lines_partial",
    "Verif.Vesa.C81_tab_violated",
    "Verif.Vesa.C81_full_violated"
   ],
   "note": "Proved: texts with line feeds but no tabs that stay before the last cell (C81_layout_partial), and the row-and-column form for lines shorter than the console (C81_lines_partial). Violated: a tab moves by 9 columns (C81_tab_violated); the character in the last cell erases the screen including itself (C81_full_violated). Line feeds beyond the last row are C57_violated."
  },
  {
   "property": "C82",
   "status": "proved",
   "theorems": [
    "Verif.Mode.C82_protected",
    "Verif.Mode.C82_main",
    "Verif.Mode.C82_user"
   ],
   "note": ""
  },
  {
   "property": "C83",
   "status": "partial",
   "theorems": [
    "Verif.Mode.C83_bits_partial",
    "Verif.Mode.C83_usable_partial",
    "Verif.Mode.C83_boot_partial",
    "Verif.Mode.C83_rbx_violated"
   ],
   "note": "Proved: the effect on every control bit and the absence of others (C83_bits_partial); SSE usable iff the processor has it and CR0.TS was clear, which EnableSse does not see to (C83_usable_partial), and so after the boot if the firmware left TS clear (C83_boot_partial). Violated: rbx, which the calling convention preserves, holds the answer of cpuid afterwards (C83_rbx_violated)."
  },
  {
   "property": "C84",
   "status": "partial",
   "theorems": [
    "Verif.Loader.C84_bss_violated",
    "Verif.Loader.C84_bss_partial",
    "Verif.Loader.C84_gates_violated",
    "Verif.Loader.C84_gates_partial"
   ],
   "note": "Violated: memory behind the file reaches main unchanged (C84_bss_violated), so the gates of unused vectors after Interrupt::Init are old memory (C84_gates_violated gives exactly when they are present or usable from user mode). Proved: zero if memory and the rest of the last sector were zero (C84_bss_partial), and then the table is as C53 demands (C84_gates_partial)."
  },
  {
   "property": "C85",
   "status": "proved",
   "theorems": [
    "Verif.Dispatch.C85_history"
   ],
   "note": "Composition of the controllers (C56), the gates (C53), the stubs (C55) and the registries (C52) over every history, by an invariant. The table of gates is zero before Init (C84 says when); the machine code of handlers is any function that returns to the stub and, for IRQs, leaves the saved frame alone."
  },
  {
   "property": "C86",
   "status": "partial",
   "theorems": [
    "Verif.Tlb.C86_exact",
    "Verif.Tlb.C86_violated",
    "Verif.Tlb.C86_dropped_partial"
   ],
   "note": "Violated: the entry is changed without invlpg, so a cached translation stays writable (C86_violated, for every harmless code in between). C86_exact: the store takes effect if and only if the translation was cached at the change and not dropped or reloaded since; C86_dropped_partial: after one eviction it always faults."
  },
  {
   "property": "C87",
   "status": "proved",
   "theorems": [
    "Verif.Deque.C87_references",
    "Verif.Deque.C87_distinct"
   ],
   "note": "All surviving elements of all deques keep their address over all histories; a plain reading of the calls (track) says where an element is afterwards."
  },
  {
   "property": "C88",
   "status": "partial",
   "theorems": [
    "Verif.Deque.C88_iterators_partial",
    "Verif.Deque.C88_violated_swap",
    "Verif.Deque.C88_front_partial"
   ],
   "note": "Kept through back insertions, removals of other elements and all calls on other deques (C88_iterators_partial); a front insertion keeps them if and only if begin() does not hold index 0 (C88_front_partial). Violated by every swap of two deques: iterators stay with the deque object, the elements do not (C88_violated_swap)."
  },
  {
   "property": "C89",
   "status": "proved",
   "theorems": [
    "Verif.Tlb.C89_upper_kept",
    "Verif.Tlb.C89_low_gone"
   ],
   "note": "Assumes, since core/physical_allocator.hpp is missing, that Get_gdt returns CR3, Phy_To_Virt adds 0xFFFF800000000000 and flush_tlb drops all cached translations. main does not call init_memory (the call is commented out)."
  },
  {
   "property": "C90",
   "status": "proved",
   "theorems": [
    "Verif.Unreal.C90_copy",
    "Verif.Unreal.C90_exact"
   ],
   "note": "The firmware is assumed not to visit protected mode itself; C90_exact shows what depends on it: the copy succeeds if and only if the limit left in fs reaches the end of the sector. Discharges the assumption of C66 on Mov_Kernel."
  },
  {
   "property": "C91",
   "status": "partial",
   "theorems": [
    "Verif.Props.C91_rounded_partial",
    "Verif.Props.C91_order",
    "Verif.Props.C91_many_digits_violated",
    "Verif.Props.C91_cut_off",
    "Verif.Props.C91_large_violated",
    "Verif.Props.C91_nearest_violated"
   ],
   "note": "C91_rounded_partial: 1 to 9 digits, values below 2^63: error at most (1/2 + 2^-23)/10^N, exact decimals exactly, ties away from zero; C91_order for every number of digits. The claim fails: from 10 digits on the scale overflows and every value with a fraction in [0.5, 0.9] is off by more than 0.05 (C91_many_digits_violated); without digits the value is cut off (C91_cut_off); infinities, NaNs and values from 2^63 on are undefined (C91_large_violated); next to a tie the result may be the other neighbour (C91_nearest_violated)."
  },
  {
   "property": "C92",
   "status": "partial",
   "theorems": [
    "Verif.MemReport.C92_report_partial",
    "Verif.MemReport.C92_end_violated"
   ],
   "note": "C92_report_partial: maps with less than 2^53 bytes of RAM. The claim \"no others\" fails: zeros behind the last entry are printed as entries (C92_end_violated). The declaration of the table is missing from the repository; its members are taken as 32-bit unsigned."
  },
  {
   "property": "C93",
   "status": "partial",
   "theorems": [
    "Verif.Phys.C93_apart",
    "Verif.Phys.C93_reserved_partial",
    "Verif.Phys.C93_alloc_partial",
    "Verif.Phys.C93_screen_violated"
   ],
   "note": "C93_apart (all machines): tables pairwise disjoint and behind the kernel; C93_reserved_partial, C93_alloc_partial: their pages are reserved and never handed out, for the machines on which init_memory stays within its tables (C74). The last clause fails: on machines whose page entries extend past the 10 MiB of memory mapped, they share addresses with the frame buffer (C93_screen_violated)."
  },
  {
   "property": "C94",
   "status": "partial",
   "theorems": [
    "Verif.Cxx.C94_categories_partial",
    "Verif.Cxx.C94_integral_violated",
    "Verif.Cxx.C94_noexcept_violated",
    "Verif.Cxx.C94_remove_cv",
    "Verif.Cxx.C94_reference_partial",
    "Verif.Cxx.C94_functions",
    "Verif.Cxx.C94_void_violated",
    "Verif.Cxx.C94_decay_partial",
    "Verif.Cxx.C94_extent"
   ],
   "note": "C94_remove_cv and C94_extent hold for all types. C94_categories_partial excludes seven integral types is_integral does not know (C94_integral_violated) and noexcept functions (C94_noexcept_violated). C94_reference_partial excludes void and qualified function types, for which the program is ill-formed (C94_void_violated). C94_decay_partial excludes noexcept and qualified functions. Traits with several arguments (is_same, is_convertible, conditional, ...) are not covered here."
  },
  {
   "property": "C95",
   "status": "partial",
   "theorems": [
    "Verif.Cxx.C95_function_partial",
    "Verif.Cxx.C95_member_partial",
    "Verif.Cxx.C95_sound",
    "Verif.Cxx.C95_data_violated",
    "Verif.Cxx.C95_lvalue_violated",
    "Verif.Cxx.C95_argument_violated",
    "Verif.Cxx.C95_rvalue_violated"
   ],
   "note": "C95_sound: whatever compiles does what INVOKE does (or INVOKE rejects it). C95_function_partial and C95_member_partial: what compiles. The claim fails for lvalue pointers to member functions and noexcept ones (C95_lvalue_violated), data members (C95_data_violated), rvalue function objects without const operator() (C95_rvalue_violated), and any call with an rvalue pointer to a data member as first argument (C95_argument_violated)."
  },
  {
   "property": "C96",
   "status": "proved",
   "theorems": [
    "Verif.BootLog.C96_log",
    "Verif.BootLog.C96_screen"
   ],
   "note": "C96_log (the text, the flag, memory), C96_screen (the pixels). RAM below 2^64 bytes; the buffer does not overlap the table of the BIOS. Accessed and dirty bits of the entry printed are a parameter."
  },
  {
   "property": "C97",
   "status": "partial",
   "theorems": [
    "Verif.Value.C97_tuple_make_partial",
    "Verif.Value.C97_tuple_make_violated",
    "Verif.Value.C97_tuple_from",
    "Verif.Value.C97_swap",
    "Verif.Value.C97_tuple_assign",
    "Verif.Value.C97_make_tuple_violated",
    "Verif.Value.C97_make_tuple_violated_call",
    "Verif.Value.C97_make_tuple_partial",
    "Verif.Value.C97_make_pair_partial",
    "Verif.Value.C97_make_pair_violated",
    "Verif.Value.C97_pair_from",
    "Verif.Value.C97_pair_assign_violated",
    "Verif.Value.C97_pair_assign_partial",
    "Verif.Value.C97_pair_swap"
   ],
   "note": "Holds for constructing from a pair or tuple, tuple assignment (self-assignment included) and swap. Fails, for all such cases: a tuple made from arguments of which one is a modifiable lvalue copies the rvalues too (C97_tuple_make_violated); make_tuple with an lvalue or without arguments does not compile (C97_make_tuple_violated, _call); make_pair copies rvalues and rejects types that can only be moved (C97_make_pair_violated); an lvalue pair cannot be assigned to a pair of the same type (C97_pair_assign_violated). The _partial theorems cover all other cases. Arguments have the types of the elements."
  },
  {
   "property": "C98",
   "status": "partial",
   "theorems": [
    "Verif.LoadMsg.C98_no_loader",
    "Verif.LoadMsg.C98_messages_partial",
    "Verif.LoadMsg.C98_messages_violated",
    "Verif.LoadMsg.C98_repair",
    "Verif.LoadMsg.C98_svga_block",
    "Verif.LoadMsg.C98_svga_block16"
   ],
   "note": "C98_no_loader and C98_messages_partial cover all paths but two: when the SVGA mode cannot be set or the CPU has no long mode, no message appears (C98_messages_violated); C98_svga_block shows at the level of bytes why. What the machine does instead is not modelled."
  },
  {
   "property": "C99",
   "status": "partial",
   "theorems": [
    "Verif.Deleter.C99_unique_pairs_partial",
    "Verif.Deleter.C99_unique_once_partial",
    "Verif.Deleter.C99_unique_deleter_partial",
    "Verif.Deleter.C99_unique_violated_move_only",
    "Verif.Deleter.C99_unique_violated_reference",
    "Verif.Deleter.C99_shared_deleter_value",
    "Verif.Deleter.C99_shared_partial",
    "Verif.Deleter.C99_shared_always_partial",
    "Verif.Deleter.C99_shared_violated_reset"
   ],
   "note": "Proved for copyable deleters of unique_ptr (C99_unique_*_partial) and for all adoptions by shared_ptr except reset(p) without deleter for a p of another type (C99_shared_*). Violated: deleters that can only be moved or are references (C99_unique_violated_*), reset(U*) of a shared_ptr<T> deletes as T (C99_shared_violated_reset)."
  },
  {
   "property": "C100",
   "status": "partial",
   "theorems": [
    "Verif.Access.C100_accessors_partial",
    "Verif.Access.C100_accessors_violated",
    "Verif.Access.C100_violated_uncallable",
    "Verif.Access.C100_sealed_partial",
    "Verif.Access.C100_violated_vector_data",
    "Verif.Access.C100_violated_set_node",
    "Verif.Access.C100_compare_partial",
    "Verif.Access.C100_violated_compare"
   ],
   "note": "Proved for all accessors but those listed in `wrong`, which are proved wrong for every element type (C100_accessors_violated; C100_violated_uncallable for those that never compile). C100_sealed_partial excludes vector::data() and the public member node of iterators of sets, which do give write access (C100_violated_vector_data, C100_violated_set_node). const iterators of lists, deques and sets cannot be compared (C100_violated_compare)."
  },
  {
   "property": "C101",
   "status": "partial",
   "theorems": [
    "Verif.IntLog.C101_exception_partial",
    "Verif.IntLog.C101_violated_vectors",
    "Verif.IntLog.C101_interrupt",
    "Verif.IntLog.C101_history_partial",
    "Verif.IntLog.C101_violated_unregister"
   ],
   "note": "Exceptions: proved for all vectors but 17, 21, 29 and 30, whose reports are proved wrong (C101_violated_vectors). Interrupts: proved (C101_interrupt). Histories: proved without refused unregistrations, which are undefined in every state (C101_violated_unregister)."
  },
  {
   "property": "C102",
   "status": "partial",
   "theorems": [
    "Verif.Props.InlineAsm.C102_out_byte",
    "Verif.Props.InlineAsm.C102_violated_ports",
    "Verif.Props.InlineAsm.C102_repair_out",
    "Verif.Props.InlineAsm.C102_repair_in_order",
    "Verif.Props.InlineAsm.C102_repair_in",
    "Verif.Props.InlineAsm.C102_flags_partial",
    "Verif.Props.InlineAsm.C102_slots",
    "Verif.Props.InlineAsm.C102_violated_red_zone",
    "Verif.Props.InlineAsm.C102_switches",
    "Verif.Props.InlineAsm.C102_violated_stack"
   ],
   "note": "Proved for out_byte, Enable, Disable, lidt and, except for the word below the stack, the four functions of arch.hpp. The other five port functions never assemble (C102_violated_ports); the word below the stack pointer is overwritten (C102_violated_red_zone); main changes the stack pointer undeclared (C102_violated_stack)."
  },
  {
   "property": "C103",
   "status": "proved",
   "theorems": [
    "Verif.RefOrder.C103_order",
    "Verif.RefOrder.C103_use_before_dispose",
    "Verif.RefOrder.C103_all_before_free",
    "Verif.RefOrder.C103_make_first",
    "Verif.RefOrder.C103_once",
    "Verif.RefOrder.C103_unique_orders_nothing"
   ],
   "note": "lock() is not part of this model (C43 and C44 treat it)."
  },
  {
   "property": "C104",
   "status": "partial",
   "theorems": [
    "Verif.RbCmp.C104_ordered",
    "Verif.RbCmp.C104_search",
    "Verif.RbCmp.C104_insert",
    "Verif.RbCmp.C104_copy",
    "Verif.RbCmp.C104_move_partial",
    "Verif.RbCmp.C104_swap",
    "Verif.RbCmp.C104_keeps",
    "Verif.RbCmp.C104_undefined_iff",
    "Verif.RbCmp.C104_empty_compares_nothing",
    "Verif.RbCmp.C104_violated_assign_list",
    "Verif.RbCmp.C104_violated_pointer"
   ],
   "note": "Violated: assigning an initializer list replaces the comparator by the default one; a moved-from set gets the default one; with comparators that default initialisation leaves indeterminate (function pointers) moves, assignments from rvalues and from lists are undefined. Everything else holds."
  },
  {
   "property": "C105",
   "status": "partial",
   "theorems": [
    "Verif.Convert.C105_shared_partial",
    "Verif.Convert.C105_sound",
    "Verif.Convert.C105_shared_exact",
    "Verif.Convert.C105_unique_exact",
    "Verif.Convert.C105_unique_partial",
    "Verif.Convert.C105_from_ptr_partial",
    "Verif.Convert.C105_violated_shared_from_this",
    "Verif.Convert.C105_steps",
    "Verif.Convert.C105_unique_steps",
    "Verif.Convert.C105_ways_agree",
    "Verif.Convert.C105_unique_ways_agree",
    "Verif.Convert.C105_dispose",
    "Verif.Convert.C105_dispose_whole",
    "Verif.Convert.C105_unique_dispose",
    "Verif.Convert.C105_violated_virtual_base",
    "Verif.Convert.C105_violated_fundamental",
    "Verif.Convert.C105_violated_weak",
    "Verif.Convert.C105_violated_trait",
    "Verif.Convert.C105_violated_deleter",
    "Verif.Convert.C105_violated_array",
    "Verif.Convert.C105_array_partial"
   ],
   "note": "Violated: unique_ptr does not convert to a virtual base class; no smart pointer to a fundamental type gains const; weak_ptrs do not convert; a class with enable_shared_from_this cannot be handed to a shared_ptr of a base without it or of const; is_constructible also accepts conversions that do not compile; default deleters of unrelated types convert; unique_ptr<T[]> takes arrays of derived classes. For the rest, all hierarchies."
  },
  {
   "property": "C106",
   "status": "partial",
   "theorems": [
    "Verif.Fat.C106_sector",
    "Verif.Fat.C106_valid",
    "Verif.Fat.C106_geometry",
    "Verif.Fat.C106_operands",
    "Verif.Fat.C106_search",
    "Verif.Fat.C106_boot_partial",
    "Verif.Fat.C106_kernel_partial",
    "Verif.Fat.C106_violated_dead",
    "Verif.Fat.C106_violated_empty"
   ],
   "note": "The layout, the parameter block, the geometry and the search are proved for all disks. Violated: entries that are no files (directories, labels, parts of long names, entries behind the end of the directory) are loaded if they have the 11 bytes; an empty file makes the boot code wait forever. Files over 64 KiB and the end marks 0xFF8..0xFFE: see C66."
  },
  {
   "property": "C107",
   "status": "partial",
   "theorems": [
    "Verif.IterSpec.C107_normal",
    "Verif.IterSpec.C107_compiles",
    "Verif.IterSpec.C107_reverse_partial",
    "Verif.IterSpec.C107_deque_partial",
    "Verif.IterSpec.C107_through",
    "Verif.IterSpec.C107_violated_order",
    "Verif.IterSpec.C107_violated_empty"
   ],
   "note": "Iterators of vectors: all programs, equal also in what is undefined. Reverse iterators: all programs that compile and do not use the order; the order is violated (a loop with < over any container that is not empty does nothing), it - it and n + it do not exist. Iterators of deques: all programs that compile, on deques that are not empty; going through an empty deque is undefined, it[n], n + it and the order do not exist."
  },
  {
   "property": "C108",
   "status": "partial",
   "theorems": [
    "Verif.ImageSpec.C108_assembles",
    "Verif.ImageSpec.C108_paging",
    "Verif.ImageSpec.C108_start",
    "Verif.ImageSpec.C108_tables",
    "Verif.ImageSpec.C108_constructors_partial",
    "Verif.ImageSpec.C108_aligned",
    "Verif.ImageSpec.C108_violated_constructors"
   ],
   "note": "Paging, entry and descriptor tables for all objects and contents. Constructors: exactly if start_ctors is at a multiple of 8, which the linker script does not ask for (a sufficient condition on the objects, which the kernel meets, is proved); otherwise Init never returns if there is a constructor. Instructions are any bytes; alignments over 2^20 and sizes over 9 MiB are left out."
  },
  {
   "property": "C109",
   "status": "proved",
   "theorems": [
    "Verif.PowerOn.C109_main",
    "Verif.PowerOn.C109_image"
   ],
   "note": "Composition of the models behind C64, C66, C74, C82 and C108 without their interface hypotheses: the tables in memory come from the linked image. Limits in the statement: loader of at most 128 clusters, chains ended by 0xFFF, BIOS calls that succeed. The instructions are the models of the four programs, not their machine code. Constructors run as linked if start_ctors is aligned (C108). C75_linked_partial is C75 for linked kernels."
  },
  {
   "property": "C110",
   "status": "proved",
   "theorems": [
    "Verif.BoolLock.C110_exclusive",
    "Verif.BoolLock.C110_total",
    "Verif.BoolLock.C110_latest",
    "Verif.BoolLock.C110_counter",
    "Verif.BoolLock.C110_strong",
    "Verif.BoolLock.C110_busy",
    "Verif.BoolLock.C110_publish",
    "Verif.BoolLock.C110_orders"
   ],
   "note": "Execution graphs of C++20 without fences, one flag; exact in the orders (iff). consume counts as acquire. Progress (that some thread gets the lock) is not claimed."
  },
  {
   "property": "C111",
   "status": "partial",
   "theorems": [
    "Verif.Compare.C111_equality_partial",
    "Verif.Compare.C111_any_violated",
    "Verif.Compare.C111_long_violated",
    "Verif.Compare.C111_ordered_types",
    "Verif.Compare.C111_const_violated",
    "Verif.Compare.C111_order_partial",
    "Verif.Compare.C111_operators_partial",
    "Verif.Compare.C111_pairs_violated",
    "Verif.Compare.C111_sets",
    "Verif.Compare.C111_set_numbers",
    "Verif.Compare.C111_not_strict",
    "Verif.Compare.C111_views"
   ],
   "note": "Exact for all types: equality fails exactly for types with any/function inside (their operator bool is not explicit: all non-empty ones compare equal) and is undefined for vectors and lists of 2^31 elements; < is a strict weak order exactly for types that are not pairs; shared_ptr and list cannot be compared when const, vector has no !=. Pointers are compared by address; no floating point."
  },
  {
   "property": "C112",
   "status": "partial",
   "theorems": [
    "Verif.Compare.C112_wraps_partial",
    "Verif.Compare.C112_product_violated",
    "Verif.Compare.C112_signed",
    "Verif.Compare.C112_bool"
   ],
   "note": "Full statement violated for products of uint16_t: promoted to int, undefined exactly from 2^31 on. Everything else proved for all types and operands."
  },
  {
   "property": "C113",
   "status": "partial",
   "theorems": [
    "Verif.PowerScreen.C113_log",
    "Verif.PowerScreen.C113_bios_partial",
    "Verif.PowerScreen.C113_violated"
   ],
   "note": "Exact for all maps (C113_log): the screen shows the map the kernel takes over. That is the one of the BIOS for up to 20 usable entries unless the last sector of the kernel file continues it; otherwise the numbers are wrong (C113_violated). The string \"Page Fault\" is assumed somewhere in the image and the buffer of printf in the mapped 9 MiB behind 1 MiB; main is assumed to find these, the memory map and the page tables unchanged by the code before it that is not modelled here (descriptor tables, SSE)."
  },
  {
   "property": "C114",
   "status": "partial",
   "theorems": [
    "Verif.Cxx.C114_get_partial",
    "Verif.Cxx.C114_get_violated",
    "Verif.Cxx.C114_order",
    "Verif.Cxx.C114_apply_partial",
    "Verif.Cxx.C114_rvalue_violated",
    "Verif.Cxx.C114_member_violated",
    "Verif.Cxx.C114_callee_violated"
   ],
   "note": "C114_order: whatever compiles passes all elements once and in order. C114_apply_partial and C114_get_partial: equal to the standard for lvalue tuples, const or not, and functions, pointers to functions and function objects. Violated: elements of rvalue tuples are passed as lvalues (C114_rvalue_violated), pointers to members never work (C114_member_violated), nor do rvalues with a && operator() (C114_callee_violated); get of an rvalue never compiles (C114_get_violated). t.size() as a template argument is taken to be a constant (P2280R4; older compilers reject every call)."
  },
  {
   "property": "C115",
   "status": "proved",
   "theorems": [
    "Verif.Vector.C115_amortised",
    "Verif.Vector.C115_push_back"
   ],
   "note": "An element counts as relocated when the vector moves to another block. Moves within the block (insert, erase) are not counted."
  },
  {
   "property": "C116",
   "status": "partial",
   "theorems": [
    "Verif.Rb.C116_search",
    "Verif.Rb.C116_insert",
    "Verif.Rb.C116_erase",
    "Verif.Rb.C116_balanced_partial",
    "Verif.Rb.C116_appended_partial",
    "Verif.Rb.C116_descending_violated"
   ],
   "note": "C116_search gives the exact number of rounds of the searches in every reachable state, C116_insert bounds those of insert by the depth of the tree, C116_erase those of erase(it), unless it never ends (C35). C116_balanced_partial and C116_appended_partial: the logarithmic bound whenever all trees are red-black trees, and if elements were only ever added at the end. Violated: after descending insertions of n keys, finding the greatest takes n-1 rounds (C116_descending_violated), since the rebalancing is wrong (C36)."
  },
  {
   "property": "C117",
   "status": "proved",
   "theorems": [
    "Verif.Rb.C117_all",
    "Verif.Rb.C117_range"
   ],
   "note": "C117_all for whole sets, C117_range for parts of them; in every reachable state, also where the tree is not balanced."
  },
  {
   "property": "C118",
   "status": "partial",
   "theorems": [
    "Verif.Deque.C118_exact",
    "Verif.Deque.C118_push_back_violated",
    "Verif.Deque.C118_queue_violated",
    "Verif.Deque.C118_bursts_partial"
   ],
   "note": "Violated: the table grows by one block at a time, so a deque that comes to have b blocks has copied b(b-1)/2 table entries (C118_exact, for every history of insertions and removals at both ends). n calls of push_back copy more than any constant times n (C118_push_back_violated); so does a queue that never holds more than two elements (C118_queue_violated), as it never reuses its blocks in front (C25). Proved: a queue that becomes empty at least once in every m pushes copies at most (m/8+1)(m/8)/2 entries in all its life (C118_bursts_partial)."
  },
  {
   "property": "C119",
   "status": "proved",
   "theorems": [
    "Verif.Reent.C119_whole",
    "Verif.Reent.C119_order",
    "Verif.Reent.C119_ends",
    "Verif.Reent.C119_fault",
    "Verif.Reent.C119_message"
   ],
   "note": "For texts without NUL. That printf produces the text its format stands for, and what happens to texts longer than its buffer, is C77. Drawing one character is one step of the model; an exception is handled to its end (no second exception during the message)."
  },
  {
   "property": "C120",
   "status": "proved",
   "theorems": [
    "Verif.Rb.C120_search",
    "Verif.Rb.C120_erase",
    "Verif.Rb.C120_insert",
    "Verif.Rb.C120_insert_multi"
   ],
   "note": "Calls of erase that do not return at all are C35; the iterator insert returns for an element that is already there is C32. Passing a range of the own set to insert(first, last) is excluded by the standard and here."
  },
  {
   "property": "C121",
   "status": "partial",
   "theorems": [
    "Verif.Rb.C121_same",
    "Verif.Rb.C121_nesting",
    "Verif.Rb.C121_bound",
    "Verif.Rb.C121_balanced_partial",
    "Verif.Rb.C121_appended_partial",
    "Verif.Rb.C121_descending_violated"
   ],
   "note": "Violated: after n insertions in descending order (n at least 2), n calls are active at once, because the rebalancing of C36 leaves a path to the right and erase_since recurses to the right. Proved: the exact number for every reachable set, the logarithmic bound for red-black trees and for sets to which elements were only added at the end, and the linear bound in general. Missing for the full statement: it is false of the code. Counted are calls, not bytes."
  },
  {
   "property": "C122",
   "status": "partial",
   "theorems": [
    "Verif.Phys.C122_first_zone",
    "Verif.Phys.C122_other_zones_violated",
    "Verif.Phys.C122_mapped_partial",
    "Verif.Phys.C122_unmapped_partial",
    "Verif.Phys.C122_unmapped_low_violated",
    "Verif.Phys.C122_unmapped_high_violated"
   ],
   "note": "Violated: requests for DMA and for mapped memory look at the first zone only, so they fail although other zones below 4 GiB have the pages; requests for memory that is not mapped are served from the first zone on if no zone starts at exactly 4 GiB, and are undefined if one does and has the pages. Proved besides: with a zone at exactly 4 GiB, pages returned lie at or above 4 GiB; ZONE_UNMAPED_INDEX is taken to be 0 before init_memory (its declaration is in the header that is missing from the repository); with a first zone as in C62 below 4 GiB, requests for mapped memory return its pages or null because it has none. Missing for the full statement: it is false of the code."
  },
  {
   "property": "C123",
   "status": "proved",
   "theorems": [
    "Verif.Vector.C123_reference",
    "Verif.Vector.C123_dangling"
   ],
   "note": "Addresses are followed through whole programs (C123_reference); where the rules leave no object, access is undefined in the model right after the call (C123_dangling), so the rules are exact."
  },
  {
   "property": "C124",
   "status": "proved",
   "theorems": [
    "Verif.Vesa.C124_distinct",
    "Verif.Vesa.C124_lines",
    "Verif.Vesa.C124_text",
    "Verif.Vesa.C124_blank",
    "Verif.BootLog.C124_boot"
   ],
   "note": ""
  },
  {
   "property": "C125",
   "status": "proved",
   "theorems": [
    "Verif.Cxx.C125_forward",
    "Verif.Cxx.C125_library",
    "Verif.Cxx.C125_chain",
    "Verif.Cxx.C125_explicit",
    "Verif.Cxx.C125_function",
    "Verif.Cxx.C125_declval"
   ],
   "note": ""
  },
  {
   "property": "C126",
   "status": "partial",
   "theorems": [
    "Verif.Cxx.C126_lvalue_partial",
    "Verif.Cxx.C126_value_partial",
    "Verif.Cxx.C126_violated_value",
    "Verif.Cxx.C126_violated_rvalue"
   ],
   "note": "The code violates the full statement: values arrive as const lvalues and rvalue references as lvalues (C126_violated_value, C126_violated_rvalue), because the virtual operator() takes const Args&... and the arguments are handed on by name. Proved: parameters T& arrive as in a direct call; for parameters T, targets that take const T&, or T where objects can be copied, can be called."
  },
  {
   "property": "C127",
   "status": "proved",
   "theorems": [
    "Verif.VecAdapt.C127_adaptors",
    "Verif.VecAdapt.C127_storage",
    "Verif.VecAdapt.C127_memory"
   ],
   "note": ""
  }
 ]
}