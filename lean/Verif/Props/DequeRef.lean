import Verif.Lemmas.DequeRef

/-!
C87, C88: references and iterators to the elements of `estl/deque.hpp` while the deques change.

`run triv St.init os` is any history of calls on any number of deques, `Seq.run` what it means for
plain lists, and `trackAll l os' (k, i)` where the calls `os'` leave the element that was at
position `i` of deque `k` (`none` once a call removes it).
-/

set_option backward.isDefEq.respectTransparency false

namespace Verif.Deque
open Verif
open Verif.Box (upd upd_same upd_ne upd_upd upd_comm upd_self)

variable {α : Type} {triv : Bool}

/-! ## C87 -/

/-- **C87.** A reference to an element stays valid and denotes the same element until a call removes
that element: through insertions at both ends, removals of other elements, swaps, moves,
assignments of other deques. When the element has come to position `i'` of deque `k'`, the old
address is the address of exactly that element, and reading through it yields its value. -/
theorem C87_references (os os' : List (Op α)) {l l' s s'} (hl : Seq.run (fun _ => none) os = some l)
    (hl' : Seq.run l os' = some l') (hr : run triv St.init os = .ok s) (hr' : run triv s os' = .ok s')
    {k i v k' i'} (hv : (l k).bind (·[i]?) = some v) (ht : trackAll l os' (k, i) = some (k', i')) :
    ∃ p, elemRef s (.user k) i = .ok (.ref p) ∧ elemRef s' (.user k') i' = .ok (.ref p) ∧
      (l' k').bind (·[i']?) = some v ∧ load s p = .ok v ∧ load s' p = .ok v := by
  obtain ⟨γ0, h0⟩ := Ok.init (α := α) (triv := triv)
  obtain ⟨τ, γ, h, rfl, -⟩ := run_moves os h0 hl hr
  obtain ⟨τ', γ', h', rfl, m⟩ := run_moves os' h hl' hr'
  obtain ⟨xs, hxs, hi⟩ := Option.bind_eq_some_iff.1 hv
  obtain ⟨q, hq, rfl⟩ := er_some hxs
  obtain ⟨q', hq', e1, e2, e3⟩ := m k q i hq (List.getElem?_eq_some_iff.1 hi).1 k' i' ht
  obtain ⟨b, hb, r, ld⟩ := elemRef_addr h hq hi
  have hi' : q'.xs[i']? = some v := e1.trans hi
  obtain ⟨b', hb', r', ld'⟩ := elemRef_addr h' hq' hi'
  have : b' = b := by rw [e2, hb] at hb'; cases hb'; rfl
  subst this
  rw [e3] at r' ld'
  exact ⟨_, r, r', by simp [er, hq', hi'], ld, ld'⟩

/-- **C87.** Distinct elements, of one deque or of two, never share an address. -/
theorem C87_distinct (os : List (Op α)) {l s} (hl : Seq.run (fun _ => none) os = some l) (hr : run triv St.init os = .ok s)
    {k i k' i' v v' p} (hv : (l k).bind (·[i]?) = some v) (hv' : (l k').bind (·[i']?) = some v')
    (hp : elemRef s (.user k) i = .ok (.ref p)) (hp' : elemRef s (.user k') i' = .ok (.ref p)) : k = k' ∧ i = i' := by
  obtain ⟨γ0, h0⟩ := Ok.init (α := α) (triv := triv)
  obtain ⟨τ, γ, h, rfl, -⟩ := run_moves os h0 hl hr
  obtain ⟨xs, hxs, hi⟩ := Option.bind_eq_some_iff.1 hv
  obtain ⟨q, hq, rfl⟩ := er_some hxs
  obtain ⟨xs', hxs', hi'⟩ := Option.bind_eq_some_iff.1 hv'
  obtain ⟨q', hq', rfl⟩ := er_some hxs'
  obtain ⟨b, hb, r, ld⟩ := elemRef_addr h hq hi
  obtain ⟨b', hb', r', ld'⟩ := elemRef_addr h hq' hi'
  rw [hp] at r; rw [hp'] at r'
  injection r with r; injection r with r; injection r' with r'; injection r' with r'
  rw [r] at r'
  injection r' with e1 e2
  subst e1
  have hk := h.blkI _ _ _ (List.mem_of_getElem? hb) (List.mem_of_getElem? hb')
  cases hk
  rw [hq] at hq'; cases hq'
  obtain ⟨d, -, hrep⟩ := h.rep (.user k) q hq
  have hlt := h.blk_lt hq (List.getElem?_eq_some_iff.1 hi).1
  have hlt' := h.blk_lt hq (List.getElem?_eq_some_iff.1 hi').1
  have := (List.getElem?_inj hlt hrep.rep.nodup).1 (hb.trans hb'.symm)
  exact ⟨rfl, by omega⟩

/-- Twenty elements; then insertions at both ends (the front one needs a new block), a removal at
each end, a swap with another deque, a move: the element that was at position 3 of deque 0 is
now at position 3 of deque 2. -/
example : ∃ l, Seq.run (fun _ => none) [Op.initList 0 (List.range 10), .make 1] = some l ∧
    trackAll l [.pushFront 0 99, .pushBack 0 98, .popFront 0, .popBack 0, .swap 0 1, .clear 0, .move 2 1] (0, 3) = some (2, 3) ∧
    (∃ s, run false St.init [Op.initList 0 (List.range 10), .make 1] = .ok s ∧
      ∃ s', run false s [.pushFront 0 99, .pushBack 0 98, .popFront 0, .popBack 0, .swap 0 1, .clear 0, .move 2 1] = .ok s' ∧
        ∃ p, elemRef s (.user 0) 3 = .ok (.ref p) ∧ elemRef s' (.user 2) 3 = .ok (.ref p) ∧ load s' p = .ok 3) :=
  ⟨_, rfl, rfl, _, rfl, _, rfl, _, rfl, rfl, rfl⟩

/-- The removed element is not tracked: no reference to it is claimed to be valid. -/
example : ∃ l, Seq.run (fun _ => none) [Op.initList 0 [1, 2, 3]] = some l ∧ trackAll l [.popBack 0] (0, 2) = none ∧
    trackAll l [.popBack 0] (0, 1) = some (0, 1) :=
  ⟨_, rfl, rfl, rfl⟩

/-! ## C88 -/

/-- The calls after which an iterator into deque `k` is expected to keep its element here: all but
front insertions into `k` (which may renumber) and calls that exchange or replace the contents
of `k`. -/
def keepsIter (k : Nat) : Op α → Bool
  | .pushFront j _ => j != k
  | .pushFrontElem j _ _ => j != k
  | .move _ j => j != k
  | .assignMove j j' => j != k && j' != k
  | .swap j j' => j != k && j' != k
  | _ => true

/-- Such calls leave the index of every surviving element. -/
theorem step_index {τ τ' : Nat → Option (Sq α)} {o : Op α} (hs : Spec.step τ o = some τ') {k} (ho : keepsIter k o = true)
    {q i k' i'} (hq : τ k = some q) (hi : i < q.xs.length) (ht : track (er τ) o (k, i) = some (k', i')) :
    k' = k ∧ ∃ q', τ' k = some q' ∧ q'.first + i' = q.first + i := by
  cases o with
  | make j =>
    simp only [Spec.step] at hs
    split at hs
    · rename_i hj; cases hs; cases ht
      have : k ≠ j := by rintro rfl; rw [hq] at hj; cases hj
      exact ⟨rfl, q, by rw [upd_ne _ _ this]; exact hq, rfl⟩
    · cases hs
  | initList j vs =>
    simp only [Spec.step] at hs
    split at hs
    · rename_i hj; cases hs; cases ht
      have : k ≠ j := by rintro rfl; rw [hq] at hj; cases hj
      exact ⟨rfl, q, by rw [upd_ne _ _ this]; exact hq, rfl⟩
    · cases hs
  | copy j j' =>
    simp only [Spec.step] at hs
    split at hs
    · rename_i hj hj'
      split at hs
      · cases hs
      · cases hs; cases ht
        have : k ≠ j := by rintro rfl; rw [hq] at hj; cases hj
        exact ⟨rfl, q, by rw [upd_ne _ _ this]; exact hq, rfl⟩
    · cases hs
  | move j j' =>
    have ho : k ≠ j' := by intro e; simp [keepsIter, e] at ho
    simp only [track, if_neg ho] at ht
    simp only [Spec.step] at hs
    split at hs
    · rename_i hj hj'; cases hs; cases ht
      have : k ≠ j := by rintro rfl; rw [hq] at hj; cases hj
      exact ⟨rfl, q, by rw [upd_ne _ _ this, upd_ne _ _ ho]; exact hq, rfl⟩
    · cases hs
  | destroy j =>
    simp only [track] at ht
    split at ht
    · cases ht
    · rename_i e; cases ht
      simp only [Spec.step] at hs
      split at hs
      · cases hs
        exact ⟨rfl, q, by rw [upd_ne _ _ e]; exact hq, rfl⟩
      · cases hs
  | assignCopy j j' =>
    simp only [track] at ht
    split at ht
    · cases ht
    · rename_i e; cases ht
      simp only [Spec.step] at hs
      split at hs
      · split at hs
        · cases hs
        · cases hs
          exact ⟨rfl, q, by rw [upd_ne _ _ e]; exact hq, rfl⟩
      · cases hs
  | assignMove j j' =>
    have ho1 : k ≠ j := by intro e; simp [keepsIter, e] at ho
    have ho2 : k ≠ j' := by intro e; simp [keepsIter, e] at ho
    simp only [track, if_neg ho1, if_neg ho2] at ht
    simp only [Spec.step] at hs
    split at hs
    · cases hs; cases ht
      exact ⟨rfl, q, by rw [upd_ne _ _ ho1, upd_ne _ _ ho2]; exact hq, rfl⟩
    · cases hs
  | swap j j' =>
    have ho1 : k ≠ j := by intro e; simp [keepsIter, e] at ho
    have ho2 : k ≠ j' := by intro e; simp [keepsIter, e] at ho
    simp only [track, if_neg ho1, if_neg ho2] at ht
    simp only [Spec.step] at hs
    split at hs
    · cases hs; cases ht
      exact ⟨rfl, q, by rw [upd_ne _ _ ho2, upd_ne _ _ ho1]; exact hq, rfl⟩
    · cases hs
  | pushBack j v =>
    simp only [Spec.step, Option.map_eq_some_iff] at hs
    obtain ⟨q0, hj, rfl⟩ := hs
    cases ht
    by_cases e : k = j
    · subst e
      rw [hq] at hj; cases hj
      exact ⟨rfl, _, upd_same _ _ _, rfl⟩
    · exact ⟨rfl, q, by rw [upd_ne _ _ e]; exact hq, rfl⟩
  | pushBackElem j n m =>
    simp only [Spec.step, Option.bind_eq_some_iff, Option.map_eq_some_iff] at hs
    obtain ⟨p, hp, v, hv, q0, hj, rfl⟩ := hs
    cases ht
    by_cases e : k = j
    · subst e
      rw [hq] at hj; cases hj
      exact ⟨rfl, _, upd_same _ _ _, rfl⟩
    · exact ⟨rfl, q, by rw [upd_ne _ _ e]; exact hq, rfl⟩
  | pushFront j v =>
    have ho : k ≠ j := by intro e; simp [keepsIter, e] at ho
    simp only [track, if_neg ho] at ht
    simp only [Spec.step, Option.bind_eq_some_iff, Option.map_eq_some_iff] at hs
    obtain ⟨q0, hj, q', hq', rfl⟩ := hs
    cases ht
    exact ⟨rfl, q, by rw [upd_ne _ _ ho]; exact hq, rfl⟩
  | pushFrontElem j n m =>
    have ho : k ≠ j := by intro e; simp [keepsIter, e] at ho
    simp only [track, if_neg ho] at ht
    simp only [Spec.step, Option.bind_eq_some_iff, Option.map_eq_some_iff] at hs
    obtain ⟨p, hp, v, hv, q0, hj, q', hq', rfl⟩ := hs
    cases ht
    exact ⟨rfl, q, by rw [upd_ne _ _ ho]; exact hq, rfl⟩
  | popBack j =>
    simp only [Spec.step, Option.bind_eq_some_iff, Option.map_eq_some_iff] at hs
    obtain ⟨q0, hj, q', hq', rfl⟩ := hs
    simp only [track] at ht
    split at ht
    · cases ht
    · rename_i hn; cases ht
      by_cases e : k = j
      · subst e
        rw [hq] at hj; cases hj
        refine ⟨rfl, q', upd_same _ _ _, ?_⟩
        have hn' : q.xs.length ≠ i + 1 := by
          intro e
          exact hn ⟨rfl, by simp [er, hq, e]⟩
        simp only [Sq.popBack] at hq'
        split at hq'
        · cases hq'
        · rename_i x e; rw [e] at hi hn'; simp at hi hn'; omega
        · cases hq'; rfl
      · exact ⟨rfl, q, by rw [upd_ne _ _ e]; exact hq, rfl⟩
  | popFront j =>
    simp only [Spec.step, Option.bind_eq_some_iff, Option.map_eq_some_iff] at hs
    obtain ⟨q0, hj, q', hq', rfl⟩ := hs
    simp only [track] at ht
    split at ht
    · rename_i e
      have e : k = j := e
      subst e
      split at ht
      · cases ht
      · rename_i h0; cases ht
        rw [hq] at hj; cases hj
        refine ⟨rfl, q', upd_same _ _ _, ?_⟩
        simp only [Sq.popFront] at hq'
        split at hq'
        · cases hq'
        · rename_i x e; rw [e] at hi; simp at hi; omega
        · cases hq'; show q.first + 1 + (i - 1) = _; omega
    · rename_i e; cases ht
      have e : k ≠ j := e
      exact ⟨rfl, q, by rw [upd_ne _ _ e]; exact hq, rfl⟩
  | clear j =>
    simp only [Spec.step, Option.map_eq_some_iff] at hs
    obtain ⟨q0, hj, rfl⟩ := hs
    simp only [track] at ht
    split at ht
    · cases ht
    · rename_i e; cases ht
      have e : k ≠ j := e
      exact ⟨rfl, q, by rw [upd_ne _ _ e]; exact hq, rfl⟩

theorem run_iter (os : List (Op α)) {k} : (∀ o ∈ os, keepsIter k o = true) → ∀ {s : St α} {τ γ l' s'},
    Inv triv s (lift τ) γ → Seq.run (er τ) os = some l' → run triv s os = .ok s' → ∀ {q i k' i'}, τ k = some q →
    i < q.xs.length → trackAll (er τ) os (k, i) = some (k', i') →
    k' = k ∧ ∃ τ' γ' q', Inv triv s' (lift τ') γ' ∧ τ' k = some q' ∧ q'.first + i' = q.first + i ∧
      Same (γ (.user k)).2 q i (γ' (.user k)).2 q' i' := by
  induction os with
  | nil =>
    intro _ s τ γ l' s' h hs hr q i k' i' hq hi ht
    cases hs; cases hr; cases ht
    exact ⟨rfl, τ, γ, q, h, hq, rfl, .refl _ _ _⟩
  | cons o os ih =>
    intro ho s τ γ l' s' h hs hr q i k' i' hq hi ht
    simp only [Seq.run, Option.bind_eq_some_iff] at hs
    obtain ⟨l1, h1, h2⟩ := hs
    obtain ⟨s1, e1, h3⟩ := Res.bind_eq_ok.1 hr
    rcases seq_step ⟨γ, h⟩ h1 with ⟨τ1, hτ1, rfl⟩ | ⟨_, _, e⟩
    · obtain ⟨s1', γ1, e1', i1, m1⟩ := step_moves h hτ1
      rw [e1] at e1'; cases e1'
      simp only [trackAll, h1, Option.bind_some, Option.bind_eq_some_iff] at ht
      obtain ⟨⟨k1, j1⟩, t1, t2⟩ := ht
      obtain ⟨rfl, q1, hq1, f1⟩ := step_index hτ1 (ho o (by simp)) hq hi t1
      obtain ⟨q1', hq1', sm⟩ := m1 k1 q i hq hi k1 j1 t1
      rw [hq1] at hq1'; cases hq1'
      obtain ⟨rfl, τ', γ', q', h', hq', f2, sm2⟩ :=
        ih (fun o h => ho o (List.mem_cons_of_mem _ h)) i1 h2 h3 hq1 (sm.lt hi) t2
      exact ⟨rfl, τ', γ', q', h', hq', f2.trans f1, sm.trans sm2⟩
    · rw [e1] at e; cases e

/-- **C88, partial.** An iterator `n` to an element of deque `k` keeps denoting that same object, through
any back insertions into `k`, removals of other elements of `k` at either end, and any calls on
other deques. Missing: front insertions, swaps and moves of `k`, see the next theorems. -/
theorem C88_iterators_partial (os os' : List (Op α)) {l l' s s'} (hl : Seq.run (fun _ => none) os = some l)
    (hl' : Seq.run l os' = some l') (hr : run triv St.init os = .ok s) (hr' : run triv s os' = .ok s')
    {k i v k' i' b} (hv : (l k).bind (·[i]?) = some v) (ho : ∀ o ∈ os', keepsIter k o = true)
    (ht : trackAll l os' (k, i) = some (k', i')) (hb : begin' s (.user k) = .ok b) :
    ∃ p, derefIt s (.user k) (b + i) = .ok p ∧ derefIt s' (.user k) (b + i) = .ok p ∧ load s p = .ok v ∧ load s' p = .ok v := by
  obtain ⟨γ0, h0⟩ := Ok.init (α := α) (triv := triv)
  obtain ⟨τ, γ, h, rfl, -⟩ := run_moves os h0 hl hr
  obtain ⟨xs, hxs, hi⟩ := Option.bind_eq_some_iff.1 hv
  obtain ⟨q, hq, rfl⟩ := er_some hxs
  obtain ⟨rfl, τ', γ', q', h', hq', hf, e1, e2, e3⟩ := run_iter os' ho h hl' hr' hq (List.getElem?_eq_some_iff.1 hi).1 ht
  obtain ⟨c, hc, r, ld⟩ := elemRef_addr h hq hi
  have hi' : q'.xs[i']? = some v := e1.trans hi
  obtain ⟨c', hc', r', ld'⟩ := elemRef_addr h' hq' hi'
  have : c' = c := by rw [e2, hc] at hc'; cases hc'; rfl
  subst this
  rw [e3] at r' ld'
  have hb1 := begin_ok h (j := .user k') hq
  have hb2 := begin_ok h' (j := .user k') hq'
  rw [hb] at hb1; cases hb1
  refine ⟨_, ?_, ?_, ld, ld'⟩
  · simp only [elemRef, hb, Res.ok_bind] at r
    obtain ⟨p, hp, e⟩ := Res.bind_eq_ok.1 r
    cases e; exact hp
  · simp only [elemRef, hb2, Res.ok_bind, hf] at r'
    obtain ⟨p, hp, e⟩ := Res.bind_eq_ok.1 r'
    cases e; exact hp

/-- A back insertion that adds a block, removals at both ends, a front insertion into another
deque: the iterator to element 3 keeps its element. -/
example : ∃ l, Seq.run (fun _ => none) [Op.initList 0 (List.range 16), .make 1] = some l ∧
    trackAll l [.pushBack 0 99, .popFront 0, .popBack 0, .pushFront 1 7] (0, 3) = some (0, 2) ∧
    (∀ o ∈ ([.pushBack 0 99, .popFront 0, .popBack 0, .pushFront 1 7] : List (Op Nat)), keepsIter 0 o = true) :=
  ⟨_, rfl, rfl, by decide⟩

/-- The address behind an index of a deque is in its own blocks. -/
theorem derefIt_at {s : St α} {τ γ} (h : Inv triv s (lift τ) γ) {k n p} (hp : derefIt s (.user k) n = .ok p) :
    (γ (.user k)).2[n / 16]? = some p.1 := by
  simp only [derefIt] at hp
  obtain ⟨d, hd, hg⟩ := Res.bind_eq_ok.1 hp
  have hd' : s.dq (.user k) = some d := by
    simp only [getD] at hd
    split at hd
    · cases hd; assumption
    · cases hd
  cases hk : τ k with
  | none =>
    have := (h.dead (.user k) hk).1
    rw [hd'] at this; cases this
  | some q =>
    obtain ⟨d', hd2, hr⟩ := h.rep (.user k) q hk
    rw [hd'] at hd2; cases hd2
    simp only [getObj] at hg
    obtain ⟨b, hb, e⟩ := Res.bind_eq_ok.1 hg
    cases e
    simp only [arrRd, hr.rep.blocks] at hb
    cases ha : (γ (.user k)).1 with
    | none => rw [ha] at hb; cases hb
    | some x =>
      rw [ha] at hb
      simp only [hr.rep.arrs x ha] at hb
      split at hb
      · rename_i b' hb'
        cases hb
        rw [List.getElem?_map] at hb'
        simp only [Option.map_eq_some_iff] at hb'
        obtain ⟨c, hc, e⟩ := hb'
        cases e
        exact hc
      · cases hb

/-- **C88 is violated** by `swap`: an iterator names the deque object and an index, so after any
exchange of two deques no iterator into one of them denotes its element any more — although the
element is still alive, at the same address, in the other deque (C87). -/
theorem C88_violated_swap (os : List (Op α)) {l s s'} (hl : Seq.run (fun _ => none) os = some l)
    (hr : run triv St.init os = .ok s) {k j i v p b ys} (hkj : k ≠ j) (hv : (l k).bind (·[i]?) = some v) (hj : l j = some ys)
    (hb : begin' s (.user k) = .ok b) (hp : derefIt s (.user k) (b + i) = .ok p) (hs : step triv s (.swap k j) = .ok s') :
    derefIt s' (.user k) (b + i) ≠ .ok p ∧ elemRef s' (.user j) i = .ok (.ref p) := by
  obtain ⟨γ0, h0⟩ := Ok.init (α := α) (triv := triv)
  obtain ⟨τ, γ, h, rfl, -⟩ := run_moves os h0 hl hr
  obtain ⟨xs, hxs, hi⟩ := Option.bind_eq_some_iff.1 hv
  obtain ⟨q, hq, rfl⟩ := er_some hxs
  obtain ⟨q2, hq2, rfl⟩ := er_some hj
  obtain ⟨s1, e1, h1⟩ := swap_ok h (k := .user k) (j := .user j) hq hq2
  have : step triv s (.swap k j) = .ok s1 := e1
  rw [hs] at this; cases this
  rw [lift_upd, lift_upd] at h1
  have hm := List.mem_of_getElem? (derefIt_at h hp)
  constructor
  · intro hp'
    have hm' := List.mem_of_getElem? (derefIt_at h1 hp')
    have e : tr (.user k) (.user j) (.user k) = .user j := by simp [tr, hkj]
    simp only [e] at hm'
    exact user_ne hkj (h.blkI _ _ _ hm hm')
  · have hr1 : run triv s [.swap k j] = .ok s' := by simp [run, hs]
    have hl1 : ∃ l', Seq.run (er τ) [.swap k j] = some l' := by
      simp [Seq.run, Seq.step, er, hq, hq2]
    obtain ⟨l', hl1⟩ := hl1
    obtain ⟨p', r1, r2, -⟩ := C87_references os [.swap k j] hl hl1 hr hr1 hv (k' := j) (i' := i) (by
      simp [trackAll, Seq.step, er, hq, hq2, track])
    have : p' = p := by
      simp only [elemRef, hb, Res.ok_bind, hp] at r1
      cases r1; rfl
    rw [← this]; exact r2

/-- Two deques of three elements each: after the swap the iterator to the second element of the
first deque reads the second element of the other. -/
example : ∃ s, run false St.init [Op.initList 0 [1, 2, 3], .initList 1 [4, 5, 6]] = .ok s ∧ begin' s (.user 0) = .ok 0 ∧
    ∃ p, derefIt s (.user 0) 1 = .ok p ∧ load s p = .ok 2 ∧
      ∃ s' p', step false s (.swap 0 1) = .ok s' ∧ derefIt s' (.user 0) 1 = .ok p' ∧ load s' p' = .ok 5 :=
  ⟨_, rfl, rfl, _, rfl, rfl, _, _, rfl, rfl, rfl⟩

/-- **C88, partial.** A front insertion keeps the iterators of a non-empty deque exactly when there
was room in front of the first element (`begin()` does not hold index 0). Otherwise all indices
shift by one block, and every iterator denotes another place than its element. -/
theorem C88_front_partial (os : List (Op α)) {l s s'} (hl : Seq.run (fun _ => none) os = some l)
    (hr : run triv St.init os = .ok s) {k i v w p b} (hv : (l k).bind (·[i]?) = some v) (hb : begin' s (.user k) = .ok b)
    (hp : derefIt s (.user k) (b + i) = .ok p) (hs : step triv s (.pushFront k w) = .ok s') :
    derefIt s' (.user k) (b + i) = .ok p ↔ b ≠ 0 := by
  obtain ⟨γ0, h0⟩ := Ok.init (α := α) (triv := triv)
  obtain ⟨τ, γ, h, rfl, -⟩ := run_moves os h0 hl hr
  obtain ⟨xs, hxs, hi⟩ := Option.bind_eq_some_iff.1 hv
  obtain ⟨q, hq, rfl⟩ := er_some hxs
  have hne : q.xs ≠ [] := by intro e; simp [e] at hi
  have hlen := List.length_pos_iff.2 hne
  have hil := (List.getElem?_eq_some_iff.1 hi).1
  have hl1 : Seq.step (er τ) (.pushFront k w) = some (upd (er τ) k (some (w :: q.xs))) := by simp [Seq.step, er, hq]
  have hb1 := begin_ok h (j := .user k) hq
  rw [hb] at hb1; cases hb1
  obtain ⟨c, hc, r, -⟩ := elemRef_addr h hq hi
  have hpc : p = (c, (q.first + i) % 16) := by
    simp only [elemRef, hb, Res.ok_bind, hp] at r
    cases r; rfl
  rcases seq_step ⟨γ, h⟩ hl1 with ⟨τ1, hτ1, -⟩ | ⟨_, _, e⟩
  · obtain ⟨s1, γ1, e1, i1, m1⟩ := step_moves h hτ1
    rw [hs] at e1; cases e1
    obtain ⟨q1, hq1, sm⟩ := m1 k q i hq hil k (i + 1) (by simp [track])
    obtain ⟨c1, hc1, r1, -⟩ := elemRef_addr i1 hq1 (sm.1.trans hi)
    have hcc : c1 = c := by rw [sm.2.1, hc] at hc1; cases hc1; rfl
    subst hcc
    rw [sm.2.2, ← hpc] at r1
    have r1 : derefIt s' (.user k) (q1.first + (i + 1)) = .ok p := by
      simp only [elemRef, begin_ok i1 (j := .user k) hq1, Res.ok_bind] at r1
      obtain ⟨p', hp', e⟩ := Res.bind_eq_ok.1 r1
      cases e; exact hp'
    simp only [Spec.step, hq, Option.bind_some, Option.map_eq_some_iff] at hτ1
    obtain ⟨q', hq', rfl⟩ := hτ1
    rw [upd_same] at hq1; cases hq1
    obtain ⟨d, -, hr0⟩ := h.rep (.user k) q hq
    have hbz : q.bsz ≠ 0 := by
      intro e
      have := hr0.qb
      exact hne (hr0.rep.nil (List.eq_nil_of_length_eq_zero (by omega))).1
    have hl0 : q.xs.length ≠ 0 := by omega
    simp only [Sq.pushFront, if_neg hbz, if_neg hl0] at hq'
    by_cases h0 : q.first = 0
    · rw [if_pos h0] at hq'
      split at hq'
      · cases hq'
        constructor
        · intro hp'
          obtain ⟨d', -, hr1⟩ := i1.rep (.user k) _ (upd_same _ _ _)
          have a1 := derefIt_at i1 hp'
          have a2 := derefIt_at i1 r1
          have := (List.getElem?_inj (List.getElem?_eq_some_iff.1 a1).1 hr1.rep.nodup).1 (a1.trans a2.symm)
          simp only [h0] at this
          omega
        · intro e; exact absurd h0 e
      · cases hq'
    · rw [if_neg h0] at hq'
      cases hq'
      refine ⟨fun _ => h0, fun _ => ?_⟩
      rw [show q.first + i = q.first - 1 + (i + 1) by omega]
      exact r1
  · rw [hs] at e; cases e

/-- Two elements appended to an empty deque: `begin()` holds index 0, the next front insertion shifts
everything. After it there is room: the following one does not. -/
example : ∃ s, run false St.init [Op.make 0, .pushBack 0 1, .pushBack 0 2] = .ok s ∧ begin' s (.user 0) = .ok 0 ∧
    ∃ s', step false s (.pushFront 0 3) = .ok s' ∧ begin' s' (.user 0) = .ok 15 ∧ (∃ s'', step false s' (.pushFront 0 4) = .ok s'') :=
  ⟨_, rfl, rfl, _, rfl, rfl, _, rfl⟩

end Verif.Deque
