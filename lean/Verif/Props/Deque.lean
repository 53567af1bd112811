import Verif.Lemmas.DequeLayout

/-!
C20-C25, C71: `estl/deque.hpp`, `estl/stack.hpp`, `estl/queue.hpp`.

`run triv St.init os` executes any history of calls on any number of deques;
`Seq.run (fun _ => none) os` is what the caller expects, on plain lists. `triv` says whether the
element type is trivially destructible; all theorems hold for both unless they say otherwise.
-/

set_option backward.isDefEq.respectTransparency false

namespace Verif.Deque
open Verif
open Verif.Box (upd upd_same upd_ne upd_upd upd_comm upd_self)

variable {α : Type} {triv : Bool}

/-- What the observers of the deque at `k` must say when it holds `xs`: size, emptiness, and for
a non-empty deque the iterated sequence and both ends. -/
def Shows (s : St α) (k : Nat) (xs : List α) : Prop :=
  size s (.user k) = .ok xs.length ∧ empty s (.user k) = .ok xs.isEmpty ∧
    (xs ≠ [] → toList s (.user k) = .ok xs) ∧
    (∀ v, xs.head? = some v → front s (.user k) = .ok v) ∧ (∀ v, xs.getLast? = some v → back s (.user k) = .ok v)

theorem shows_of_ok {s : St α} {τ} (h : Ok triv s τ) {k xs} (hk : er τ k = some xs) : Shows s k xs := by
  obtain ⟨q, hq, rfl⟩ := er_some hk
  obtain ⟨γ, h⟩ := h
  have hq' : lift τ (.user k) = some q := hq
  exact ⟨size_ok h hq', empty_ok h hq', toList_ok h hq', fun v hv => front_ok h hq' hv, fun v hv => back_ok h hq' hv⟩

theorem er_init : er (fun _ => none : Nat → Option (Sq α)) = fun _ => none := rfl

/-! ## C20 -/

/-- **C20, partial.** Every history of legal calls on any number of deques (construction, copies,
moves, assignments, swaps, insertions at both ends also of own elements, removals, clear,
destruction) that contains no front insertion is defined, and afterwards every deque shows exactly
its sequence. Missing: histories with front insertions, see the next theorems. -/
theorem C20_no_push_front_partial (os : List (Op α)) (hf : os.any Op.isFront = false) {l} (hl : Seq.run (fun _ => none) os = some l) :
    ∃ s, run triv St.init os = .ok s ∧ ∀ k xs, l k = some xs → Shows s k xs := by
  rcases seq_run os (Ok.init (α := α) (triv := triv)) (by rw [er_init]; exact hl) with ⟨τ, s, _, rfl, e, h⟩ | ⟨h, _⟩
  · exact ⟨s, e, fun k xs hk => shows_of_ok h hk⟩
  · rw [hf] at h; cases h

/-- Twenty elements appended from an initializer list, one popped at each end, then copied and
the copy extended by its own first element. -/
example : (Seq.run (fun _ => none) [Op.initList 0 (List.range 20), .popFront 0, .popBack 0, .copy 1 0, .pushBackElem 1 1 0]).isSome
    = true := rfl

/-- **C20, partial.** With front insertions: a legal history either is defined and every deque
shows exactly its sequence, or is undefined. (Never a wrong sequence; `oof` does not occur.) -/
theorem C20_sequence_partial (os : List (Op α)) {l} (hl : Seq.run (fun _ => none) os = some l) :
    (∃ s, run triv St.init os = .ok s ∧ ∀ k xs, l k = some xs → Shows s k xs) ∨
    (os.any Op.isFront = true ∧ run triv St.init os = .ub) := by
  rcases seq_run os (Ok.init (α := α) (triv := triv)) (by rw [er_init]; exact hl) with ⟨τ, s, _, rfl, e, h⟩ | ⟨h1, _, h2⟩
  · exact .inl ⟨s, e, fun k xs hk => shows_of_ok h hk⟩
  · exact .inr ⟨h1, h2⟩

/-- Both ends used, with a removal in between. -/
example : (Seq.run (fun _ => none) [Op.make 0, .pushFront 0 1, .pushBack 0 2, .popFront 0, .pushFront 0 3, .swap 0 0]).isSome
    = true := rfl

/-- **C20, partial.** Front insertions are safe in any history on a deque that makes at most 17
insertions in total (mixed with any legal removals and clears). -/
theorem C20_few_pushes_partial (os : List (Op α)) (hp : ∀ o ∈ os, o.plain = true) (hn : pushes os ≤ 17) {l}
    (hl : Seq.run (fun _ => none) (.make 0 :: os) = some l) :
    ∃ s, run triv St.init (.make 0 :: os) = .ok s ∧ ∀ k xs, l k = some xs → Shows s k xs := by
  obtain ⟨s1, e1, h1⟩ := run_make (α := α) (triv := triv)
  have hl' : Seq.run (er (one Sq.nil)) os = some l := by
    rw [← hl]
    show _ = Seq.run (upd (fun _ => none) 0 (some [])) os
    rw [one, er_upd]; rfl
  obtain ⟨s2, τ2, e2, h2, rfl⟩ := few_run os h1 Few.nil hp (by omega) hl'
  refine ⟨s2, ?_, fun k xs hk => shows_of_ok h2 hk⟩
  have := run_append (triv := triv) [.make 0] os St.init
  rw [e1] at this
  rw [show (Op.make 0 :: os) = [.make 0] ++ os from rfl, this]
  exact e2

/-- Seventeen insertions at alternating ends and some removals. -/
example : pushes (([Op.pushFront 0 1, .pushBack 0 2, .pushFront 0 3, .popBack 0, .pushFront 0 4] : List (Op Nat)) ++
    (List.range 13).map (Op.pushFront 0)) = 17 := rfl

/-- **C20 is violated**: whenever a deque has no free space in front (`begin()` holds index 0)
and at least two blocks, `push_front` writes outside the new control array — for every reachable
state, every element type and every argument. -/
theorem C20_push_front_violated (os : List (Op α)) {l s} (hl : Seq.run (fun _ => none) os = some l)
    (hr : run triv St.init os = .ok s) (k : Nat) {d} (hd : getD s (.user k) = .ok d) (h0 : begin' s (.user k) = .ok 0)
    (h2 : 2 ≤ d.bsz) (v : α) : run triv St.init (os ++ [.pushFront k v]) = .ub := by
  rw [run_append, hr]
  rcases seq_run os (Ok.init (α := α) (triv := triv)) (by rw [er_init]; exact hl) with ⟨τ, s', _, _, e, h⟩ | ⟨_, _, h⟩
  · rw [hr] at e; cases e
    obtain ⟨γ, h⟩ := h
    have hsd : s.dq (.user k) = some d := by
      simp only [getD] at hd
      split at hd
      · cases hd; assumption
      · cases hd
    cases hk : lift τ (.user k) with
    | none => rw [(h.dead _ hk).1] at hsd; cases hsd
    | some q =>
      obtain ⟨d', hd', hr'⟩ := h.rep _ q hk
      rw [hsd] at hd'; cases hd'
      rw [begin_ok h hk] at h0
      have hf : q.first = 0 := by injection h0
      have hb : 2 ≤ q.bsz := by rw [hr'.qb, ← hr'.rep.bsz]; exact h2
      have hn : q.pushFront v = none := by
        simp only [Sq.pushFront]
        rw [if_neg (by omega), if_pos hf, if_neg (by omega)]
      simp [run, step, emplaceFront_ub h hk (.val v) hn]
  · rw [hr] at h; cases h

/-- **C20 is violated, in calls**: after 17 or more `push_back`s to a new deque, one `push_front`
is undefined, whatever the elements. -/
theorem C20_push_front_after_backs_violated (vs : List α) (h : 17 ≤ vs.length) (v : α) :
    run triv St.init (.make 0 :: vs.map (Op.pushBack 0) ++ [.pushFront 0 v]) = .ub := by
  obtain ⟨s1, e1, h1⟩ := run_make (α := α) (triv := triv)
  obtain ⟨s2, e2, h2⟩ := run_pushBacks vs h1
  have hlay := pushAll_layout vs (Sq.nil : Sq α) rfl (by simp [Sq.nil])
  have hx := Sq.pushAll_xs vs (Sq.nil : Sq α)
  have hb : (Sq.nil.pushAll vs).bsz = (vs.length + 15) / 16 := by rw [hlay.2, hx]; simp [Sq.nil]
  rw [show (Op.make 0 :: vs.map (Op.pushBack 0) ++ [.pushFront 0 v] : List (Op α)) =
    [.make 0] ++ (vs.map (Op.pushBack 0) ++ [.pushFront 0 v]) from rfl, run_append, e1]
  simp only [Res.ok_bind]
  rw [run_append, e2]
  obtain ⟨γ, h2⟩ := h2
  have := emplaceFront_ub h2 (k := .user 0) (one_zero _) (.val v) (v := v) (by
    simp only [Sq.pushFront]
    rw [if_neg (by omega), if_pos hlay.1, if_neg (by omega)])
  simp [run, step, this]

/-- **C20 is violated, in calls**: 33 or more `push_front`s to a new deque are undefined. -/
theorem C20_push_fronts_violated (vs : List α) (h : 33 ≤ vs.length) :
    run triv St.init (.make 0 :: vs.map (Op.pushFront 0)) = .ub := by
  obtain ⟨s1, e1, h1⟩ := run_make (α := α) (triv := triv)
  rw [show (Op.make 0 :: vs.map (Op.pushFront 0) : List (Op α)) = [.make 0] ++ vs.map (Op.pushFront 0) from rfl, run_append, e1]
  simp only [Res.ok_bind]
  cases vs with
  | nil => simp at h
  | cons v vs =>
    simp only [List.length_cons] at h
    obtain ⟨s2, e2, h2⟩ := step_ok h1 (o := .pushFront 0 v) (τ' := one ⟨[v], 1, 15⟩) (by
      simp only [Spec.step, one_zero, Option.bind_some, Sq.pushFront]
      simp [Sq.nil, one_upd])
    have := run_pushFronts1 vs h2 rfl (by simp) (by show 15 + 16 < _; omega)
    simp [run, e2, this]

/-- The hypotheses are met by 17 `push_back`s. -/
example : (Seq.run (fun _ => none) (Op.make 0 :: (List.range 17).map (Op.pushBack 0))).isSome = true := rfl

/-! ## C21 -/

/-- **C21, partial.** In every defined legal history, `d[f + i]` is the `i`-th element, where `f` is
the index held by `begin()`: `operator[]` counts from the front exactly when `f = 0`. -/
theorem C21_index_partial (os : List (Op α)) {l s} (hl : Seq.run (fun _ => none) os = some l)
    (hr : run triv St.init os = .ok s) {k xs f} (hk : l k = some xs) (hf : begin' s (.user k) = .ok f) {i v}
    (hv : xs[i]? = some v) : index s (.user k) (f + i) = .ok v := by
  rcases seq_run os (Ok.init (α := α) (triv := triv)) (by rw [er_init]; exact hl) with ⟨τ, s', _, rfl, e, h⟩ | ⟨_, _, h⟩
  · rw [hr] at e; cases e
    obtain ⟨q, hq, rfl⟩ := er_some hk
    obtain ⟨γ, h⟩ := h
    have hq' : lift τ (.user k) = some q := hq
    rw [begin_ok h hq'] at hf; cases hf
    exact index_ok h hq' hv
  · rw [hr] at h; cases h

/-- A deque of 20 elements with 3 popped at the front: `begin()` holds index 3. -/
example : Seq.run (fun _ => none) [Op.initList 0 (List.range 20), .popFront 0, .popFront 0, .popFront 0] =
    some (upd (upd (upd (upd (fun _ => none) 0 (some (List.range 20))) 0 (some ((List.range 20).drop 1))) 0
      (some ((List.range 20).drop 2))) 0 (some ((List.range 20).drop 3))) := rfl

/-- **C21, partial, in calls.** For a deque filled only by `push_back` (or an initializer list),
`d[i]` is the `i`-th element. -/
theorem C21_index_back_only_partial (vs : List α) :
    ∃ s, run triv St.init (.make 0 :: vs.map (Op.pushBack 0)) = .ok s ∧
      ∀ i v, vs[i]? = some v → index s (.user 0) i = .ok v := by
  obtain ⟨s1, e1, h1⟩ := run_make (α := α) (triv := triv)
  obtain ⟨s2, e2, h2⟩ := run_pushBacks vs h1
  have hlay := pushAll_layout vs (Sq.nil : Sq α) rfl (by simp [Sq.nil])
  refine ⟨s2, ?_, fun i v hv => ?_⟩
  · rw [show (Op.make 0 :: vs.map (Op.pushBack 0) : List (Op α)) = [.make 0] ++ vs.map (Op.pushBack 0) from rfl, run_append, e1]
    exact e2
  · obtain ⟨γ, h2⟩ := h2
    have := index_ok h2 (k := .user 0) (one_zero _) (i := i) (v := v) (by rw [Sq.pushAll_xs]; simpa [Sq.nil] using hv)
    rw [hlay.1, Nat.zero_add] at this
    exact this

/-- **C21 is violated**: in every defined legal history over elements with destructors, whenever
`begin()` of a deque holds a non-zero index, `d[0]` is undefined (it refers to storage holding no
object), however many elements the deque has. -/
theorem C21_index_violated (os : List (Op α)) {l s} (hl : Seq.run (fun _ => none) os = some l)
    (hr : run false St.init os = .ok s) {k xs f} (hk : l k = some xs) (hf : begin' s (.user k) = .ok f) (h0 : f ≠ 0) :
    index s (.user k) 0 = .ub := by
  rcases seq_run os (Ok.init (α := α) (triv := false)) (by rw [er_init]; exact hl) with ⟨τ, s', _, rfl, e, h⟩ | ⟨_, _, h⟩
  · rw [hr] at e; cases e
    obtain ⟨q, hq, rfl⟩ := er_some hk
    obtain ⟨γ, h⟩ := h
    have hq' : lift τ (.user k) = some q := hq
    rw [begin_ok h hq'] at hf; cases hf
    exact index_below h hq' (by omega)
  · rw [hr] at h; cases h

/-- **C21 is violated, in calls**: after one `push_front` to a new deque `front()` is the element but
`d[0]` is undefined — for every element type. -/
theorem C21_push_front_violated (v : α) :
    ∃ s, run triv St.init [.make 0, .pushFront 0 v] = .ok s ∧ front s (.user 0) = .ok v ∧ index s (.user 0) 0 = .ub := by
  have e1 : (run triv St.init [.make 0, .pushFront 0 v] >>= fun s => front s (.user 0)) = .ok v := by cases triv <;> cbv
  have e2 : (run triv St.init [.make 0, .pushFront 0 v] >>= fun s => index s (.user 0) 0) = .ub := by cases triv <;> cbv
  obtain ⟨s, e, h⟩ := Res.bind_eq_ok.1 e1
  rw [e] at e2
  exact ⟨s, e, h, e2⟩

/-- **C21 is violated, in calls**: with elements like `int`, `push_back(a); push_back(b);
pop_front()` leaves `d[0] == a` although `front() == b`. -/
theorem C21_pop_front_violated (a b : α) :
    ∃ s, run true St.init [.make 0, .pushBack 0 a, .pushBack 0 b, .popFront 0] = .ok s ∧ front s (.user 0) = .ok b ∧
      index s (.user 0) 0 = .ok a := by
  have e1 : (run true St.init [.make 0, .pushBack 0 a, .pushBack 0 b, .popFront 0] >>= fun s => front s (.user 0)) = .ok b := by cbv
  have e2 : (run true St.init [.make 0, .pushBack 0 a, .pushBack 0 b, .popFront 0] >>= fun s => index s (.user 0) 0) = .ok a := by
    cbv
  obtain ⟨s, e, h⟩ := Res.bind_eq_ok.1 e1
  rw [e] at e2
  exact ⟨s, e, h, e2⟩

/-- The two values differ for instance for 1 and 2. -/
example : (1 : Nat) ≠ 2 := by decide

/-! ## C22 -/

/-- **C22 is violated**: for every empty deque in every defined legal history, `begin() != end()`;
iterating it visits one (dead) element. -/
theorem C22_begin_end_violated (os : List (Op α)) {l s} (hl : Seq.run (fun _ => none) os = some l)
    (hr : run triv St.init os = .ok s) {k} (hk : l k = some []) :
    (∃ b, begin' s (.user k) = .ok b ∧ end' s (.user k) = .ok (b + 1)) ∧ toList s (.user k) ≠ .ok [] := by
  rcases seq_run os (Ok.init (α := α) (triv := triv)) (by rw [er_init]; exact hl) with ⟨τ, s', _, rfl, e, h⟩ | ⟨_, _, h⟩
  · rw [hr] at e; cases e
    obtain ⟨q, hq, hx⟩ := er_some hk
    obtain ⟨γ, h⟩ := h
    have hq' : lift τ (.user k) = some q := hq
    have hb := begin_ok h hq'
    have he : end' s (.user k) = .ok (q.first + 1) := by
      have := end_ok h hq'
      rw [hx] at this; exact this
    refine ⟨⟨_, hb, he⟩, ?_⟩
    simp only [toList, hb, he, Res.ok_bind]
    rw [if_pos (by omega), show q.first + 1 - q.first = 1 by omega]
    intro hc
    simp only [collect] at hc
    obtain ⟨p, _, hc⟩ := Res.bind_eq_ok.1 hc
    obtain ⟨v, _, hc⟩ := Res.bind_eq_ok.1 hc
    simp at hc
  · rw [hr] at h; cases h

/-- **C22 is violated**: copying an empty deque (also as the container of a stack or queue) never
gives an empty deque. For elements with destructors, and for a deque that never held an element,
the copy is undefined; otherwise it is undefined or has size 1. -/
theorem C22_copy_empty_violated (os : List (Op α)) {l s} (hl : Seq.run (fun _ => none) os = some l)
    (hr : run triv St.init os = .ok s) {k j} (hj : l j = some []) (hk : l k = none) :
    (copy triv s (.user k) (.user j) = .ub ∨
      ∃ s', copy triv s (.user k) (.user j) = .ok s' ∧ size s' (.user k) = .ok 1) ∧
    (triv = false → copy triv s (.user k) (.user j) = .ub) ∧
    (∀ d, getD s (.user j) = .ok d → d.bsz = 0 → copy triv s (.user k) (.user j) = .ub) := by
  rcases seq_run os (Ok.init (α := α) (triv := triv)) (by rw [er_init]; exact hl) with ⟨τ, s', _, rfl, e, h⟩ | ⟨_, _, h⟩
  · rw [hr] at e; cases e
    obtain ⟨q, hq, hx⟩ := er_some hj
    obtain ⟨γ, h⟩ := h
    have hq' : lift τ (.user j) = some q := hq
    rcases copy_empty h (k := .user k) (j := .user j) (er_none hk) hq' hx with e | ⟨ht, hb, v, s', γ', e, h'⟩
    · exact ⟨.inl e, fun _ => e, fun _ _ _ => e⟩
    · refine ⟨.inr ⟨s', e, ?_⟩, ?_, fun d hd hz => ?_⟩
      · exact size_ok h' (upd_same _ _ _)
      · intro ht'; rw [ht] at ht'; cases ht'
      · obtain ⟨d', hd', hr'⟩ := h.rep _ q hq'
        rw [getD_ok hd'] at hd; cases hd
        have := hr'.rep.bsz; have := hr'.qb
        omega
  · rw [hr] at h; cases h

/-- A deque emptied after use, and a name that is free. -/
example : Seq.run (fun _ => none) [Op.make 0, .pushBack 0 7, .popFront 0] =
    some (upd (upd (upd (fun _ => none) 0 (some [])) 0 (some [7])) 0 (some [])) := rfl

/-- **C22, partial.** Copying a non-empty deque is defined, gives the same sequence and leaves the
source as it was. -/
theorem C22_copy_partial (os : List (Op α)) {l s} (hl : Seq.run (fun _ => none) os = some l)
    (hr : run triv St.init os = .ok s) {k j xs} (hj : l j = some xs) (hne : xs ≠ []) (hk : l k = none) :
    ∃ s', copy triv s (.user k) (.user j) = .ok s' ∧ Shows s' k xs ∧ Shows s' j xs := by
  rcases seq_run os (Ok.init (α := α) (triv := triv)) (by rw [er_init]; exact hl) with ⟨τ, s', _, rfl, e, h⟩ | ⟨_, _, h⟩
  · rw [hr] at e; cases e
    obtain ⟨q, hq, rfl⟩ := er_some hj
    have hkj : j ≠ k := by rintro rfl; rw [hj] at hk; cases hk
    obtain ⟨s', e, h'⟩ := step_ok h (o := .copy k j) (τ' := upd τ k (some (Sq.nil.pushAll q.xs))) (by
      simp only [Spec.step, er_none hk, hq]
      rw [if_neg (by simpa using hne)])
    refine ⟨s', e, shows_of_ok h' ?_, shows_of_ok h' ?_⟩
    · rw [er_upd, upd_same]; simp [Sq.pushAll_xs, Sq.nil]
    · rw [er_upd, upd_ne _ _ hkj]; exact hj
  · rw [hr] at h; cases h

/-- A deque with elements in two blocks. -/
example : (Seq.run (fun _ => none) [Op.initList 0 (List.range 20)]).isSome = true := rfl

/-! ## C23 -/

/-- **C23.** For any interleaving of calls on any number of stacks (pushes, pops of non-empty stacks,
copies of non-empty ones, moves, swaps, assignments, destruction), the calls are defined, every
stack shows its size, and `top()` is the newest element not yet popped: `ASpec.run true` keeps each
stack as the list of its elements, newest first. -/
theorem C23_stack (os : List (AOp α)) {l} (hl : ASpec.run true (fun _ => none) os = some l) :
    ∃ s, stackRun triv St.init os = .ok s ∧ ∀ k xs, l k = some xs →
      size s (.user k) = .ok xs.length ∧ empty s (.user k) = .ok xs.isEmpty ∧ ∀ v, xs.head? = some v → top s k = .ok v := by
  obtain ⟨s, τ, e, h, rfl⟩ := arun_ok true os (Ok.init (α := α) (triv := triv)) (l' := l) hl
  refine ⟨s, e, fun k xs hk => ?_⟩
  obtain ⟨q, hq, rfl⟩ := aer_some hk
  obtain ⟨γ, h⟩ := h
  have hq' : lift τ (.user k) = some q := hq
  refine ⟨by simpa [view] using size_ok h hq', by simpa [view] using empty_ok h hq', fun v hv => back_ok h hq' ?_⟩
  simpa [view] using hv

/-- Two stacks: one filled with 20 elements, copied, popped and swapped. -/
example : (ASpec.run true (fun _ => none) ([AOp.make 0] ++ (List.range 20).map (AOp.push 0) ++ [.copy 1 0, .pop 0, .pop 0, .swap 0 1,
    .assignMove 0 1])).isSome = true := rfl

/-! ## C24 -/

/-- **C24.** For any interleaving of calls on any number of queues (pushes, pops of non-empty queues,
copies of non-empty ones, moves, swaps, assignments, destruction), the calls are defined, every
queue shows its size, and `front()` is the oldest element not yet popped: `ASpec.run false` keeps
each queue as the list of its elements, oldest first. -/
theorem C24_queue (os : List (AOp α)) {l} (hl : ASpec.run false (fun _ => none) os = some l) :
    ∃ s, queueRun triv St.init os = .ok s ∧ ∀ k xs, l k = some xs →
      size s (.user k) = .ok xs.length ∧ empty s (.user k) = .ok xs.isEmpty ∧
        ∀ v, xs.head? = some v → queueFront s k = .ok v := by
  obtain ⟨s, τ, e, h, rfl⟩ := arun_ok false os (Ok.init (α := α) (triv := triv)) (l' := l) hl
  refine ⟨s, e, fun k xs hk => ?_⟩
  obtain ⟨q, hq, rfl⟩ := aer_some hk
  obtain ⟨γ, h⟩ := h
  have hq' : lift τ (.user k) = some q := hq
  refine ⟨by simpa [view] using size_ok h hq', by simpa [view] using empty_ok h hq', fun v hv => front_ok h hq' ?_⟩
  simpa [view] using hv

/-- Two queues: one filled with 20 elements, copied, popped and swapped. -/
example : (ASpec.run false (fun _ => none) ([AOp.make 0] ++ (List.range 20).map (AOp.push 0) ++ [.copy 1 0, .pop 0, .pop 0, .swap 0 1,
    .assignCopy 0 1])).isSome = true := rfl

/-! ## C25 -/

/-- **C25 is violated**: a queue that alternates push and pop, never holding more than two elements,
uses `m / 16 + 1` blocks after `m` rounds — more than any bound. -/
theorem C25_memory_violated (v : α) (m : Nat) :
    ∃ s s', queueRun triv St.init ([.make 0, .push 0 v] ++ rounds v m) = .ok s ∧ size s (.user 0) = .ok 1 ∧
      LiveBlocks s (m / 16 + 1) ∧ queueStep triv s (.push 0 v) = .ok s' ∧ size s' (.user 0) = .ok 2 := by
  obtain ⟨s1, e1, h1⟩ := queueRun_make (α := α) (triv := triv)
  obtain ⟨s2, e2, h2⟩ := qpush h1 v
  obtain ⟨s3, e3, h3⟩ := rounds_ok v m (i := 0) h2
  rw [Nat.zero_add] at h3
  obtain ⟨s4, e4, h4⟩ := qpush h3 v
  refine ⟨s3, s4, ?_, ?_, liveBlocks_one h3, e4, ?_⟩
  · rw [queueRun_append, show ([.make 0, .push 0 v] : List (AOp α)) = [.make 0] ++ [.push 0 v] from rfl, queueRun_append, e1]
    simp only [Res.ok_bind, queueRun, e2, e3]
  · obtain ⟨γ, h⟩ := h3; exact size_ok h (k := .user 0) (one_zero _)
  · obtain ⟨γ, h⟩ := h4; exact size_ok h (k := .user 0) (one_zero _)

/-- A thousand rounds use 63 blocks. -/
example : 1000 / 16 + 1 = 63 := rfl

/-- **C25, partial.** If the queue becomes empty at least once in every `m` pushes, it never uses
more than `m / 8 + 1` blocks. Missing: a bound in terms of the number of live elements — there is
none, see above. -/
theorem C25_memory_partial (m : Nat) (os : List (AOp α)) (hb : burst m 0 0 os) :
    ∃ s n, queueRun triv St.init (.make 0 :: os) = .ok s ∧ LiveBlocks s n ∧ n ≤ m / 8 + 1 := by
  obtain ⟨s1, e1, h1⟩ := queueRun_make (α := α) (triv := triv)
  obtain ⟨s2, q2, e2, h2, h3⟩ := burst_run m os h1 (c := 0) hb (by simp [Sq.nil]) (by simp [Sq.nil])
  refine ⟨s2, q2.bsz, ?_, liveBlocks_one h2, by omega⟩
  rw [show (AOp.make 0 :: os : List (AOp α)) = [.make 0] ++ os from rfl, queueRun_append, e1]
  exact e2

/-- Two bursts of at most three pushes. -/
example : burst 3 0 0 [AOp.push 0 'a', .push 0 'b', .pop 0, .push 0 'c', .pop 0, .pop 0, .push 0 'd', .pop 0] := by
  simp [burst]

/-! ## C71 -/

/-- **C71.** In every defined legal history of deques, once all deques are destroyed no block and no
control array is still allocated. (That nothing is released twice is part of being defined.) -/
theorem C71_deque_storage (os : List (Op α)) {l s} (hl : Seq.run (fun _ => none) os = some l)
    (hr : run triv St.init os = .ok s) (hd : ∀ k, l k = none) (x : Nat) : s.arr x = none ∧ s.blk x = none := by
  rcases seq_run os (Ok.init (α := α) (triv := triv)) (by rw [er_init]; exact hl) with ⟨τ, s', _, rfl, e, h⟩ | ⟨_, _, h⟩
  · rw [hr] at e; cases e
    obtain ⟨γ, h⟩ := h
    have hn : ∀ k, γ k = (none, []) := fun k => (h.dead k (by
      cases k with
      | user n => exact er_none (hd n)
      | par => rfl
      | loc => rfl
      | apar => rfl)).2
    constructor
    · cases ha : s.arr x with
      | none => rfl
      | some L =>
        obtain ⟨k, hk⟩ := h.arrO x L ha
        rw [hn k] at hk; cases hk
    · cases ha : s.blk x with
      | none => rfl
      | some f =>
        obtain ⟨k, hk⟩ := h.blkO x f ha
        rw [hn k] at hk; simp at hk
  · rw [hr] at h; cases h

/-- A history that destroys what it built. -/
example : ∃ l, Seq.run (fun _ => none) [Op.initList 0 (List.range 40), .copy 1 0, .pushFront 1 5, .destroy 0, .destroy 1] = some l ∧
    ∀ k, l k = none := by
  refine ⟨_, rfl, fun k => ?_⟩
  by_cases h1 : k = 1
  · subst h1; rfl
  · by_cases h0 : k = 0
    · subst h0; rfl
    · simp [upd, h1, h0]

/-- **C71** for stacks and queues: every legal history that destroys all of them releases all
storage. -/
theorem C71_adaptor_storage (lifo : Bool) (os : List (AOp α)) {l} (hl : ASpec.run lifo (fun _ => none) os = some l)
    (hd : ∀ k, l k = none) :
    ∃ s, (if lifo then stackRun triv St.init os else queueRun triv St.init os) = .ok s ∧
      ∀ x, s.arr x = none ∧ s.blk x = none := by
  obtain ⟨s, τ, e, h, rfl⟩ := arun_ok lifo os (Ok.init (α := α) (triv := triv)) (l' := l) hl
  refine ⟨s, e, fun x => ?_⟩
  obtain ⟨γ, h⟩ := h
  have hn : ∀ k, γ k = (none, []) := fun k => (h.dead k (by
    cases k with
    | user n => exact aer_none (hd n)
    | par => rfl
    | loc => rfl
    | apar => rfl)).2
  constructor
  · cases ha : s.arr x with
    | none => rfl
    | some L =>
      obtain ⟨k, hk⟩ := h.arrO x L ha
      rw [hn k] at hk; cases hk
  · cases ha : s.blk x with
    | none => rfl
    | some f =>
      obtain ⟨k, hk⟩ := h.blkO x f ha
      rw [hn k] at hk; simp at hk

/-- Queues exchanged and destroyed. -/
example : ∃ l, ASpec.run false (fun _ => none) [AOp.make 0, .push 0 1, .make 1, .swap 0 1, .assignMove 0 1, .destroy 0, .destroy 1]
    = some l ∧ ∀ k, l k = none := by
  refine ⟨_, rfl, fun k => ?_⟩
  by_cases h1 : k = 1
  · subst h1; rfl
  · by_cases h0 : k = 0
    · subst h0; rfl
    · simp [upd, h1, h0]

end Verif.Deque
