import Verif.Lemmas.EListBad
import Verif.Lemmas.EListEq

/-!
Properties C26 to C29 and C78: `list`.

`Spec.run` (Lemmas/EListSpec.lean) says what a history of calls means: every list is a sequence
of elements, an element being a node (its identity) and a value, and every call is the
mathematical operation on sequences.

Under the rules of the standard (`lax = false`) `clear()` of a list that is not empty is
undefined, because it calls a member function through the null `next_` of the last node; with
`lax = true` such a call returns null, as compiled naively.
-/

set_option backward.isDefEq.respectTransparency false

namespace Verif.EList
open Verif Verif.Box

variable {α : Type}

/-- C26. After every permitted history, on any number of lists, nothing is undefined (in
particular no deleted node is used), all calls return the iterators they should, forward
iteration over each list yields its sequence and `size()` is its length. Missing: `clear` and
the destructor of non-empty lists when `lax = false`. -/
theorem C26_list_sequence_partial (lax : Bool) (os : List (Op α)) (σ : Spec α) (rs : List Addr) (h : Spec.run lax Spec.init os = some (σ, rs)) :
    ∃ F s, (∀ fuel, F ≤ fuel → run lax fuel St.init os = .ok (s, rs)) ∧
      ∀ l xs, σ.lists l = some xs →
        (∀ fuel, xs.length < fuel → forward lax fuel s (.user l) = .ok (xs.map (·.2))) ∧ getSize s (.user l) = .ok xs.length := by
  obtain ⟨F, s, e, k⟩ := run_ok os ok_init h
  refine ⟨F, s, e, ?_⟩
  intro l xs hl
  exact ⟨fun fuel hf => forward_ok lax (k.full.rep.ring (.user l) xs hl) fuel hf, getSize_ok k.full (l := .user l) hl⟩

/-- Insertions at both ends and in the middle, erasure of one element and of a range, copies,
moves, assignment, swap, clear. -/
example : ∃ σ rs, Spec.run true Spec.init [.ctor 0, .pushBack 0 10, .pushFront 0 20, .insert 0 (.node 0) 30, .copy 1 0, .erase 0 (.node 2),
    .eraseRange 1 (.node 3) (.node 5), .pushBack 1 7, .swap 0 1, .asgCopy 1 0, .move 2 0, .popFront 2, .clear 1] = some (σ, rs) ∧
    σ.lists 2 = some [(6, 7)] ∧ σ.lists 1 = some [] ∧ σ.lists 0 = some [] ∧ rs = [.node 2, .node 0, .node 5] := by
  refine ⟨_, _, rfl, rfl, rfl, rfl, rfl⟩

/-- The same history as the code runs it. -/
example : (do
    let (s, rs) ← run true 10 St.init [.ctor 0, .pushBack 0 10, .pushFront 0 20, .insert 0 (.node 0) 30, .pushBack 0 40, .erase 0 (.node 2)]
    let xs ← forward true 10 s (.user 0)
    let ys ← backward true 10 s (.user 0)
    .ok (xs, ys, rs)) = (.ok ([20, 10, 40], [40, 10, 20], [.node 2, .node 0]) : Res (List Nat × List Nat × List Addr)) := by
  rfl

/-- C26 is violated by the letter of the standard: `clear()` of every non-empty list calls a
member function on a null pointer. -/
theorem C26_clear_null_call_violated (os : List (Op α)) (σ : Spec α) (rs : List Addr) (h : Spec.run false Spec.init os = some (σ, rs)) :
    ∃ F s, (∀ fuel, F ≤ fuel → run false fuel St.init os = .ok (s, rs)) ∧
      ∀ l xs, σ.lists l = some xs → xs ≠ [] → ∀ fuel, xs.length ≤ fuel →
        clear false fuel s (.user l) = .ub ∧ dtor false fuel s (.user l) = .ub := by
  obtain ⟨F, s, e, k⟩ := run_ok os ok_init h
  refine ⟨F, s, e, ?_⟩
  intro l xs hl hx fuel hf
  have := clear_ub k.full (l := .user l) hl hx hf
  exact ⟨this, by simp only [dtor, this]; rfl⟩

example : ∃ σ rs, Spec.run false Spec.init [.ctor 0, .pushBack 0 10] = some (σ, rs) ∧ σ.lists 0 = some [(0, 10)] := ⟨_, _, rfl, rfl⟩

/-- C27, iteration. Backward iteration over each list yields the reverse of the sequence that
forward iteration yields; from an element, `++` leads to the next element or `end()`, and `--`
leads back. -/
theorem C27_backward_partial (lax : Bool) (os : List (Op α)) (σ : Spec α) (rs : List Addr) (h : Spec.run lax Spec.init os = some (σ, rs)) :
    ∃ F s, (∀ fuel, F ≤ fuel → run lax fuel St.init os = .ok (s, rs)) ∧
      (∀ l xs, σ.lists l = some xs → ∀ fuel, xs.length < fuel →
        ∃ vs, forward lax fuel s (.user l) = .ok vs ∧ backward lax fuel s (.user l) = .ok vs.reverse) ∧
      (∀ l xs n v ys, σ.lists l = some (xs ++ (n, v) :: ys) →
        deref s (.node n) = .ok v ∧ ∃ it, incr lax s (.node n) = .ok it ∧ decr lax s it = .ok (.node n) ∧
          (ys = [] → it = .sent (.user l)) ∧ (∀ m w zs, ys = (m, w) :: zs → it = .node m)) := by
  obtain ⟨F, s, e, k⟩ := run_ok os ok_init h
  refine ⟨F, s, e, ?_, ?_⟩
  · intro l xs hl fuel hf
    have R := k.full.rep.ring (.user l) xs hl
    exact ⟨vals xs, forward_ok lax R fuel hf, backward_ok lax R fuel hf⟩
  · intro l xs n v ys hl
    have R := k.full.rep.ring (.user l) _ hl
    refine ⟨deref_ok R (by simp), posOf (.user l) ys, incr_ok lax R, ?_, ?_, ?_⟩
    · have R' : Ring s (.user l) ((xs ++ [(n, v)]) ++ ys) := by simpa using R
      rw [decr_ok lax R']; simp [lst, nodes]
    · rintro rfl; rfl
    · rintro m w zs rfl; rfl

example : ∃ σ rs, Spec.run true Spec.init [.ctor 0, .pushBack 0 10, .pushFront 0 20, .pushBack 0 30] = some (σ, rs) ∧
    σ.lists 0 = some ([(1, 20)] ++ (0, 10) :: [(2, 30)]) := ⟨_, _, rfl, rfl⟩

/-- C27, stability. An iterator to an element denotes the same element after every further
call on whatever list, unless that call deletes this element or assigns to it. -/
theorem C27_iterator_stable_partial (lax : Bool) (os : List (Op α)) (σ σ' : Spec α) (rs : List Addr) (o : Op α) (r : Option Addr)
    (h : Spec.run lax Spec.init os = some (σ, rs)) (h' : Spec.step lax σ o = some (σ', r)) :
    ∃ F s s', (∀ fuel, F ≤ fuel → run lax fuel St.init os = .ok (s, rs) ∧ step lax fuel s o = .ok (s', r)) ∧
      ∀ it v, deref s it = .ok v → (∀ n, it = .node n → n ∉ s'.freed) → (∀ l w, o ≠ .write l it w) → deref s' it = .ok v := by
  obtain ⟨F1, s, e1, k⟩ := run_ok os ok_init h
  obtain ⟨F2, s', e2, k'⟩ := step_ok k h'
  refine ⟨F1 + F2, s, s', fun fuel hf => ⟨e1 fuel (by omega), e2 fuel (by omega)⟩, ?_⟩
  intro it v hd hf hw
  obtain ⟨n, rfl, hi⟩ := (deref_iff k).1 hd
  have hlt := in_lt k hi
  have hnext : σ.next ≤ σ'.next := by
    cases o <;> simp only [Spec.step] at h' <;> (repeat' split at h') <;> cases h' <;> simp <;> omega
  obtain ⟨v', hi'⟩ := live_in k' (n := n) (by rw [k'.next]; omega) (hf n rfl)
  rcases step_elems h' hi' with h1 | h1 | ⟨l, h1⟩
  · have := (deref_iff k).2 ⟨n, rfl, h1⟩
    rw [hd] at this; cases this
    exact (deref_iff k').2 ⟨n, rfl, hi'⟩
  · omega
  · exact absurd h1 (hw l v')

example : ∃ σ rs σ' r, Spec.run true Spec.init [.ctor 0, .pushBack 0 10, .pushFront 0 20, .pushBack 0 30] = some (σ, rs) ∧
    Spec.step true σ (.erase 0 (.node 1)) = some (σ', r) := ⟨_, _, _, _, rfl, rfl⟩

/-- C28. Every node is deleted at most once, the nodes not deleted are exactly the elements of
the existing lists, and when all lists are gone every node allocated has been deleted exactly
once. -/
theorem C28_nodes_freed_once_partial (lax : Bool) (os : List (Op α)) (σ : Spec α) (rs : List Addr) (h : Spec.run lax Spec.init os = some (σ, rs)) :
    ∃ F s, (∀ fuel, F ≤ fuel → run lax fuel St.init os = .ok (s, rs)) ∧ s.freed.Nodup ∧
      (∀ n, n < s.next → (n ∉ s.freed ↔ ∃ l xs v, σ.lists l = some xs ∧ (n, v) ∈ xs)) ∧
      ((∀ l, σ.lists l = none) → s.freed.Perm (List.range s.next)) := by
  obtain ⟨F, s, e, k⟩ := run_ok os ok_init h
  have key : ∀ n, n < s.next → (n ∉ s.freed ↔ ∃ l xs v, σ.lists l = some xs ∧ (n, v) ∈ xs) := by
    intro n hn
    constructor
    · intro hf
      obtain ⟨v, l, xs, hl, hx⟩ := live_in k hn hf
      exact ⟨l, xs, v, hl, hx⟩
    · rintro ⟨l, xs, v, hl, hx⟩ hf
      have h1 := ((k.full.rep.ring (.user l) xs hl).alive _ hx).1
      rw [((k.full.rep.freed n).1 hf).2] at h1; cases h1
  refine ⟨F, s, e, k.full.rep.fnodup, key, ?_⟩
  intro hall
  have hsub : ∀ n, n ∈ s.freed ↔ n ∈ List.range s.next := by
    intro n
    rw [List.mem_range]
    constructor
    · intro hf; exact ((k.full.rep.freed n).1 hf).1
    · intro hn
      refine Classical.byContradiction fun hf => ?_
      obtain ⟨l, xs, v, hl, _⟩ := (key n hn).1 hf
      rw [hall l] at hl; cases hl
  rw [List.perm_iff_count]
  intro n
  by_cases hm : n ∈ s.freed
  · rw [List.Nodup.count k.full.rep.fnodup, List.Nodup.count List.nodup_range, if_pos hm, if_pos ((hsub n).1 hm)]
  · rw [List.count_eq_zero_of_not_mem hm, List.count_eq_zero_of_not_mem (fun h => hm ((hsub n).2 h))]

example : ∃ σ rs, Spec.run true Spec.init [.ctor 0, .pushBack 0 10, .pushFront 0 20, .popBack 0, .copy 1 0, .dtor 0, .dtor 1] = some (σ, rs) ∧
    σ.next = 3 ∧ σ.lists 0 = none ∧ σ.lists 1 = none := ⟨_, _, rfl, rfl, rfl, rfl⟩

/-- C29. Swapping two different lists exchanges their sequences, whether or not they are empty,
in both directions of iteration; no element is moved, created or deleted. Missing: a list
swapped with itself. -/
theorem C29_swap_partial (lax : Bool) (os : List (Op α)) (σ : Spec α) (rs : List Addr) (h : Spec.run lax Spec.init os = some (σ, rs))
    (l r : Nat) (xs ys : List (Nat × α)) (hl : σ.lists l = some xs) (hr : σ.lists r = some ys) (hlr : l ≠ r) :
    ∃ F s s', (∀ fuel, F ≤ fuel → run lax fuel St.init os = .ok (s, rs)) ∧ swap lax s (.user l) (.user r) = .ok s' ∧
      (∀ fuel, xs.length < fuel → ys.length < fuel →
        forward lax fuel s' (.user l) = forward lax fuel s (.user r) ∧ forward lax fuel s' (.user r) = forward lax fuel s (.user l) ∧
        backward lax fuel s' (.user l) = backward lax fuel s (.user r) ∧ backward lax fuel s' (.user r) = backward lax fuel s (.user l) ∧
        forward lax fuel s (.user l) = .ok (xs.map (·.2)) ∧ forward lax fuel s (.user r) = .ok (ys.map (·.2))) ∧
      getSize s' (.user l) = .ok ys.length ∧ getSize s' (.user r) = .ok xs.length ∧
      (∀ it, deref s' it = deref s it) ∧ s'.next = s.next ∧ s'.freed = s.freed := by
  obtain ⟨F, s, e, k⟩ := run_ok os ok_init h
  have hlr' : (Slot.user l) ≠ .user r := by simpa using hlr
  have e' := swap_ok lax k.full hlr' hl hr
  obtain ⟨s', e2, f2, n2⟩ := swap_full lax k.full hlr' hl hr
  rw [e'] at e2; cases e2
  refine ⟨F, s, _, e, e', ?_, ?_, ?_, fun _ => rfl, rfl, rfl⟩
  · intro fuel h1 h2
    have Rl := k.full.rep.ring (.user l) xs hl
    have Rr := k.full.rep.ring (.user r) ys hr
    have Rl' := f2.rep.ring (.user l) ys (by rw [upd_ne _ _ hlr']; exact upd_same _ _ _)
    have Rr' := f2.rep.ring (.user r) xs (upd_same _ _ _)
    rw [forward_ok lax Rl fuel h1, forward_ok lax Rr fuel h2, forward_ok lax Rl' fuel h2, forward_ok lax Rr' fuel h1,
      backward_ok lax Rl fuel h1, backward_ok lax Rr fuel h2, backward_ok lax Rl' fuel h2, backward_ok lax Rr' fuel h1]
    exact ⟨rfl, rfl, rfl, rfl, rfl, rfl⟩
  · exact getSize_ok f2 (by rw [upd_ne _ _ hlr']; exact upd_same _ _ _)
  · exact getSize_ok f2 (upd_same _ _ _)

example : ∃ σ rs, Spec.run true Spec.init [.ctor 0, .pushBack 0 10, .pushFront 0 20, .ctor 1] = some (σ, rs) ∧
    σ.lists 0 = some [(1, 20), (0, 10)] ∧ σ.lists 1 = some [] := ⟨_, _, rfl, rfl, rfl⟩

/-- C29 is violated: after any list with two or more elements is swapped with itself, forward
iteration over it never ends. -/
theorem C29_self_swap_violated (lax : Bool) (os : List (Op α)) (σ : Spec α) (rs : List Addr) (h : Spec.run lax Spec.init os = some (σ, rs))
    (l : Nat) (xs : List (Nat × α)) (hl : σ.lists l = some xs) (hx : 2 ≤ xs.length) :
    ∃ F s s', (∀ fuel, F ≤ fuel → run lax fuel St.init os = .ok (s, rs)) ∧ swap lax s (.user l) (.user l) = .ok s' ∧
      ∀ fuel, forward lax fuel s' (.user l) = .oof := by
  obtain ⟨F, s, e, k⟩ := run_ok os ok_init h
  cases xs with
  | nil => simp at hx
  | cons p xs =>
    obtain ⟨n', p', e1, h1, h2, h3, _⟩ := swap_self_ok lax k.full (l := .user l) hl
    have R := k.full.rep.ring (.user l) _ hl
    refine ⟨F, s, _, e, e1, ?_⟩
    intro fuel
    have h3 := h3 (by rintro rfl; simp at hx)
    have hlive : s.live (.node p.1) = true := ring_live R (.inr (by simp))
    simp only [forward, begin]
    rw [getNext_ok (s := setSize (relink s n' p') (.user l) (xs.length + 1)) (p := .sent (.user l)) (q := .node p.1) R.sent h1]
    simp only [Res.ok_bind, nonNull]
    exact forward_stuck (s := setSize (relink s n' p') (.user l) (xs.length + 1)) lax hlive (R.alive p (by simp)).2 h3 (by simp) fuel

example : ∃ σ rs, Spec.run true Spec.init [.ctor 0, .pushBack 0 10, .pushFront 0 20] = some (σ, rs) ∧
    σ.lists 0 = some [(1, 20), (0, 10)] := ⟨_, _, rfl, rfl⟩

/-- C29 is violated for one element, too: after the list is swapped with itself and the element
is removed, adding an element uses the deleted node. -/
theorem C29_self_swap_one_violated (lax : Bool) (os : List (Op α)) (σ : Spec α) (rs : List Addr) (h : Spec.run lax Spec.init os = some (σ, rs))
    (l : Nat) (p : Nat × α) (hl : σ.lists l = some [p]) :
    ∃ F s s' s'', (∀ fuel, F ≤ fuel → run lax fuel St.init os = .ok (s, rs)) ∧ swap lax s (.user l) (.user l) = .ok s' ∧
      popFront lax s' (.user l) = .ok s'' ∧ ∀ v, emplaceBack s'' (.user l) v = .ub := by
  obtain ⟨F, s, e, k⟩ := run_ok os ok_init h
  obtain ⟨n', p', e1, h1, h2, _, h3⟩ := swap_self_ok lax k.full (l := .user l) hl
  obtain ⟨h3, h4⟩ := h3 rfl
  have R := k.full.rep.ring (.user l) _ hl
  have hlive : s.live (.node p.1) = true := ring_live R (.inr (by simp))
  have hs := R.sent
  have hlt : p.1 < s.next := k.full.rep.bound _ hlive
  let s'' : St α := { s with nxt := upd (upd n' (.node p.1) (some (.sent (.user l)))) (.node p.1) none,
                             prv := upd (upd p' (.sent (.user l)) (some (.node p.1))) (.node p.1) none,
                             live := upd s.live (.node p.1) false, freed := p.1 :: s.freed,
                             size := upd (upd s.size (.user l) 1) (.user l) 0 }
  refine ⟨F, s, _, s'', e, e1, ?_, ?_⟩
  · simp [popFront, getSize, getNext, rdNext, rdPrv, wrNext, wrPrv, nonNull, unlink, destroyNode, setSize, relink, hs, h1, h3, h4, hlive, upd_same,
      upd_ne, s'']
  · intro v
    have hne : p.1 ≠ s.next := by omega
    simp [emplaceBack, getSize, createNode, linkPrv, rdPrv, wrNext, wrPrv, hs, upd_same, upd_ne, upd, hne, s'']

example : ∃ σ rs, Spec.run true Spec.init [.ctor 0, .pushBack 0 10] = some (σ, rs) ∧ σ.lists 0 = some [(0, 10)] := ⟨_, _, rfl, rfl⟩

/-- C29, a list with no elements swapped with itself stays empty and well linked. -/
theorem C29_self_swap_empty (lax : Bool) (os : List (Op α)) (σ : Spec α) (rs : List Addr) (h : Spec.run lax Spec.init os = some (σ, rs))
    (l : Nat) (hl : σ.lists l = some []) :
    ∃ F s s', (∀ fuel, F ≤ fuel → run lax fuel St.init os = .ok (s, rs)) ∧ swap lax s (.user l) (.user l) = .ok s' ∧
      ∀ fuel, 0 < fuel → forward lax fuel s' (.user l) = .ok [] ∧ backward lax fuel s' (.user l) = .ok [] ∧ getSize s' (.user l) = .ok 0 := by
  obtain ⟨F, s, e, k⟩ := run_ok os ok_init h
  obtain ⟨s', e1, f1, _⟩ := swap_self_full lax k.full (l := .user l) hl
  refine ⟨F, s, s', e, e1, ?_⟩
  intro fuel hf
  have R := f1.rep.ring (.user l) [] hl
  exact ⟨forward_ok lax R fuel hf, backward_ok lax R fuel hf, getSize_ok f1 (l := .user l) hl⟩

example : ∃ σ rs, Spec.run true Spec.init [.ctor 0, .pushBack 0 10, .popFront 0] = some (σ, rs) ∧ σ.lists 0 = some ([] : List (Nat × Nat)) :=
  ⟨_, _, rfl, rfl⟩

/-- C78. After every permitted history, for any two lists (also the same list twice), of fewer
than 2^31 elements if of equal length, `==` returns, is true exactly if the lists have the same
length and no two elements at the same place differ by the `!=` of the element type, and `!=` is
its negation. Missing: longer lists (see `C78_long_violated`) and, for `lax = false`, histories
that clear a list that is not empty. -/
theorem C78_equality_partial (lax : Bool) (ne : α → α → Bool) (os : List (Op α)) (σ : Spec α) (rs : List Addr)
    (h : Spec.run lax Spec.init os = some (σ, rs)) :
    ∃ F s, (∀ fuel, F ≤ fuel → run lax fuel St.init os = .ok (s, rs)) ∧
      ∀ l r xs ys, σ.lists l = some xs → σ.lists r = some ys → (xs.length = ys.length → xs.length < 2 ^ 31) →
        ∃ b, (∀ fuel, xs.length < fuel → eq lax ne fuel s (.user l) (.user r) = .ok b ∧ neq lax ne fuel s (.user l) (.user r) = .ok (!b)) ∧
          (b = true ↔ xs.length = ys.length ∧
            ∀ (i : Nat) (v w : α), (xs.map (·.2))[i]? = some v → (ys.map (·.2))[i]? = some w → ne v w = false) := by
  obtain ⟨F, s, e, k⟩ := run_ok os ok_init h
  refine ⟨F, s, e, ?_⟩
  intro l r xs ys hl hr hb
  have R := k.full.rep.ring (.user l) xs hl
  have R' := k.full.rep.ring (.user r) ys hr
  have hs := getSize_ok k.full (l := .user l) hl
  have hs' := getSize_ok k.full (l := .user r) hr
  by_cases hlen : xs.length = ys.length
  · refine ⟨agree ne (vals xs) (vals ys), ?_, by rw [agree_iff]; simp [hlen, vals]⟩
    intro fuel hf
    have e1 : eq lax ne fuel s (.user l) (.user r) = .ok (agree ne (vals xs) (vals ys)) := by
      simp only [eq, hs, hs', Res.ok_bind, begin_ok lax R, begin_ok lax R']
      rw [if_neg (by simp [hlen])]
      have := eqLoop_ok lax ne xs (xs := []) (us := []) (ys := ys) R R' hlen.symm (by rw [hs]; simp) (by simpa using hb hlen) fuel hf
      simpa using this
    exact ⟨e1, by simp only [neq, e1, Res.ok_bind]⟩
  · refine ⟨false, ?_, by simp [hlen]⟩
    intro fuel _
    have e1 : eq lax ne fuel s (.user l) (.user r) = .ok false := by
      simp only [eq, hs, hs', Res.ok_bind]
      rw [if_pos hlen]
    exact ⟨e1, by simp only [neq, e1, Res.ok_bind]⟩

/-- If `!=` of the elements means that they are not equal then `==` of lists means that the
sequences are equal. -/
theorem C78_equality_same_partial (lax : Bool) (ne : α → α → Bool) (hne : ∀ v w, ne v w = true ↔ v ≠ w) (os : List (Op α)) (σ : Spec α)
    (rs : List Addr) (h : Spec.run lax Spec.init os = some (σ, rs)) :
    ∃ F s, (∀ fuel, F ≤ fuel → run lax fuel St.init os = .ok (s, rs)) ∧
      ∀ l r xs ys, σ.lists l = some xs → σ.lists r = some ys → (xs.length = ys.length → xs.length < 2 ^ 31) →
        ∀ fuel, xs.length < fuel →
          (eq lax ne fuel s (.user l) (.user r) = .ok true ↔ xs.map (·.2) = ys.map (·.2)) ∧
          (neq lax ne fuel s (.user l) (.user r) = .ok true ↔ xs.map (·.2) ≠ ys.map (·.2)) := by
  obtain ⟨F, s, e, H⟩ := C78_equality_partial lax ne os σ rs h
  refine ⟨F, s, e, ?_⟩
  intro l r xs ys hl hr hb fuel hf
  obtain ⟨b, e1, hb⟩ := H l r xs ys hl hr hb
  obtain ⟨e1, e2⟩ := e1 fuel hf
  have key : b = true ↔ xs.map (·.2) = ys.map (·.2) := by
    rw [hb]
    constructor
    · rintro ⟨hlen, hall⟩
      apply List.ext_getElem?
      intro i
      by_cases hi : i < xs.length
      · have h1 : (xs.map (·.2))[i]? = some (xs[i]'hi).2 := by simp [hi]
        have h2 : (ys.map (·.2))[i]? = some (ys[i]'(hlen ▸ hi)).2 := by simp [hlen ▸ hi]
        have h3 := hall i _ _ h1 h2
        rw [h1, h2]
        refine congrArg some (Classical.byContradiction fun hc => ?_)
        rw [(hne _ _).2 hc] at h3; cases h3
      · rw [List.getElem?_eq_none (by simp; omega), List.getElem?_eq_none (by simp; omega)]
    · intro he
      refine ⟨by simpa using congrArg List.length he, ?_⟩
      intro i v w h1 h2
      rw [he, h2] at h1
      cases h1
      cases hc : ne v v with
      | false => rfl
      | true => exact absurd rfl ((hne v v).1 hc)
  rw [e1, e2]
  cases b <;> simp at key ⊢ <;> simp [key]

/-- Lists of equal length that differ in the last element, and a copy. -/
example : ∃ σ rs, Spec.run true Spec.init [.init 0 [1, 2, 3], .init 1 [1, 2, 4], .copy 2 0] = some (σ, rs) ∧
    σ.lists 0 = some [(0, 1), (1, 2), (2, 3)] ∧ σ.lists 1 = some [(3, 1), (4, 2), (5, 4)] ∧ σ.lists 2 = some [(6, 1), (7, 2), (8, 3)] :=
  ⟨_, _, rfl, rfl, rfl, rfl⟩

example : (do
    let (s, _) ← run true 10 St.init [.init 0 [1, 2, 3], .init 1 [1, 2, 4], .copy 2 0]
    let a ← eq true (fun v w => decide (v ≠ w)) 10 s (.user 0) (.user 1)
    let b ← eq true (fun v w => decide (v ≠ w)) 10 s (.user 0) (.user 2)
    let c ← neq true (fun v w => decide (v ≠ w)) 10 s (.user 0) (.user 0)
    .ok (a, b, c)) = (.ok (false, true, false) : Res (Bool × Bool × Bool)) := by
  rfl

/-- C78 fails for long lists: comparing two lists of equal length, more than 2^31 - 1, that agree
on the first 2^31 elements overflows the `int` counter. -/
theorem C78_long_violated (lax : Bool) (ne : α → α → Bool) (os : List (Op α)) (σ : Spec α) (rs : List Addr)
    (h : Spec.run lax Spec.init os = some (σ, rs)) :
    ∃ F s, (∀ fuel, F ≤ fuel → run lax fuel St.init os = .ok (s, rs)) ∧
      ∀ l r xs ys, σ.lists l = some xs → σ.lists r = some ys → xs.length = ys.length → 2 ^ 31 ≤ xs.length →
        (∀ (i : Nat) (v w : α), i < 2 ^ 31 → (xs.map (·.2))[i]? = some v → (ys.map (·.2))[i]? = some w → ne v w = false) →
        ∀ fuel, 2 ^ 31 ≤ fuel → eq lax ne fuel s (.user l) (.user r) = .ub ∧ neq lax ne fuel s (.user l) (.user r) = .ub := by
  obtain ⟨F, s, e, k⟩ := run_ok os ok_init h
  refine ⟨F, s, e, ?_⟩
  intro l r xs ys hl hr hlen hb ha fuel hf
  have R := k.full.rep.ring (.user l) xs hl
  have R' := k.full.rep.ring (.user r) ys hr
  have hs := getSize_ok k.full (l := .user l) hl
  have hs' := getSize_ok k.full (l := .user r) hr
  have e1 : eq lax ne fuel s (.user l) (.user r) = .ub := by
    simp only [eq, hs, hs', Res.ok_bind, begin_ok lax R, begin_ok lax R']
    rw [if_neg (by simp [hlen])]
    have ha' : agree ne ((vals xs).take (2 ^ 31 - 1 + 1)) ((vals ys).take (2 ^ 31 - 1 + 1)) = true := by
      rw [agree_iff]
      intro i v w h1 h2
      rw [List.getElem?_take] at h1 h2
      split at h1
      · rename_i hi
        rw [if_pos hi] at h2
        exact ha i v w (by omega) h1 h2
      · cases h1
    have := eqLoop_ub lax ne (2 ^ 31 - 1) (xs := []) (us := []) (zs := xs) (ys := ys) R R' hlen.symm (by rw [hs]; simp) (by simp) (by omega) ha' fuel
      (by omega)
    simpa using this
  exact ⟨e1, by simp only [neq, e1, Res.ub_bind]⟩

theorem number_length (n : Nat) (vs : List α) : (number n vs).length = vs.length := by
  induction vs generalizing n with
  | nil => rfl
  | cons v vs ih => simp [number, ih]

theorem init_run (lax : Bool) (vs : List α) : ∃ σ rs xs, Spec.run lax Spec.init [.init 0 vs] = some (σ, rs) ∧ σ.lists 0 = some xs ∧
    xs.length = vs.length := ⟨_, _, _, rfl, rfl, number_length _ _⟩

/-- A list of 2^31 zeros (it is compared with itself), and such a list exists. -/
example (vs : List Nat) (hv : vs.length = 2 ^ 31) : ∃ σ rs xs, Spec.run false Spec.init [.init 0 vs] = some (σ, rs) ∧ σ.lists 0 = some xs ∧
    2 ^ 31 ≤ xs.length := by
  obtain ⟨σ, rs, xs, h1, h2, h3⟩ := init_run false vs
  exact ⟨σ, rs, xs, h1, h2, by omega⟩

example : ∃ vs : List Nat, vs.length = 2 ^ 31 := ⟨_, List.length_replicate (a := 0)⟩

end Verif.EList
