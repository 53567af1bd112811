import Verif.Lemmas.DequeSeq

/-! Where elements live: the addresses of the elements of all deques, call by call. -/

set_option backward.isDefEq.respectTransparency false

namespace Verif.Deque
open Verif
open Verif.Box (upd upd_same upd_ne upd_upd upd_comm upd_self)

variable {α : Type} {triv : Bool}

/-- The place of an element that is at position `p.2` of deque `p.1` before a call, after it:
`none` when the call removes the element. A plain reading of what the calls mean for the
elements; `l` are the sequences before the call. -/
def track (l : Nat → Option (List α)) (o : Op α) (p : Nat × Nat) : Option (Nat × Nat) :=
  match o with
  | .make _ => some p
  | .initList _ _ => some p
  | .copy _ _ => some p
  | .move k j => if p.1 = j then some (k, p.2) else some p
  | .destroy k => if p.1 = k then none else some p
  | .assignCopy k _ => if p.1 = k then none else some p
  | .assignMove k j => if p.1 = j then some (k, p.2) else if p.1 = k then none else some p
  | .swap k j => if p.1 = k then some (j, p.2) else if p.1 = j then some (k, p.2) else some p
  | .pushBack _ _ => some p
  | .pushFront k _ => if p.1 = k then some (k, p.2 + 1) else some p
  | .pushBackElem _ _ _ => some p
  | .pushFrontElem k _ _ => if p.1 = k then some (k, p.2 + 1) else some p
  | .popBack k => if p.1 = k ∧ (l k).any (fun xs => xs.length = p.2 + 1) then none else some p
  | .popFront k => if p.1 = k then (if p.2 = 0 then none else some (k, p.2 - 1)) else some p
  | .clear k => if p.1 = k then none else some p

/-- The place of an element after a history of calls, or `none` when one of them removed it. -/
def trackAll (l : Nat → Option (List α)) : List (Op α) → Nat × Nat → Option (Nat × Nat)
  | [], p => some p
  | o :: os, p => (Seq.step l o).bind fun l' => (track l o p).bind fun p' => trackAll l' os p'

/-- Element `i` of `q` in the blocks `bl` and element `i'` of `q'` in the blocks `bl'` are the
same object. -/
def Same (bl : List Nat) (q : Sq α) (i : Nat) (bl' : List Nat) (q' : Sq α) (i' : Nat) : Prop :=
  q'.xs[i']? = q.xs[i]? ∧ bl'[(q'.first + i') / 16]? = bl[(q.first + i) / 16]? ∧ (q'.first + i') % 16 = (q.first + i) % 16

theorem Same.refl (bl : List Nat) (q : Sq α) (i : Nat) : Same bl q i bl q i := ⟨rfl, rfl, rfl⟩

theorem Same.of {bl bl' : List Nat} (q : Sq α) (i : Nat) (h : bl' = bl) : Same bl q i bl' q i := h ▸ .refl bl q i

theorem Same.trans {b1 b2 b3 : List Nat} {q1 q2 q3 : Sq α} {i1 i2 i3} (h1 : Same b1 q1 i1 b2 q2 i2) (h2 : Same b2 q2 i2 b3 q3 i3) :
    Same b1 q1 i1 b3 q3 i3 :=
  ⟨h2.1.trans h1.1, h2.2.1.trans h1.2.1, h2.2.2.trans h1.2.2⟩

/-- All elements that survive a call, with their places before and after. -/
def Moves (τ : Nat → Option (Sq α)) (γ : Slot → Option Nat × List Nat) (τ' : Nat → Option (Sq α))
    (γ' : Slot → Option Nat × List Nat) (f : Nat × Nat → Option (Nat × Nat)) : Prop :=
  ∀ k q i, τ k = some q → i < q.xs.length → ∀ k' i', f (k, i) = some (k', i') →
    ∃ q', τ' k' = some q' ∧ Same (γ (.user k)).2 q i (γ' (.user k')).2 q' i'

theorem pushBack_same {q : Sq α} {v i} (hi : i < q.xs.length) {bl e : List Nat} (hb : (q.first + i) / 16 < bl.length) :
    Same bl q i (bl ++ e) (q.pushBack v) i := by
  refine ⟨?_, ?_, rfl⟩
  · simp [Sq.pushBack, List.getElem?_append_left hi]
  · exact List.getElem?_append_left hb

theorem pushFront_same {q q' : Sq α} {v i} (hi : i < q.xs.length) (hq : q.pushFront v = some q') {bl e : List Nat}
    (hf : q'.first + 1 = 16 * e.length + q.first) : Same bl q i (e ++ bl) q' (i + 1) := by
  refine ⟨by rw [Sq.pushFront_xs hq]; rfl, ?_, by omega⟩
  rw [show (q'.first + (i + 1)) / 16 = e.length + (q.first + i) / 16 by omega]
  rw [List.getElem?_append_right (by omega)]
  congr 1; omega

theorem popFront_same {q q' : Sq α} {i} (hi : i < q.xs.length) (h0 : i ≠ 0) (hq : q.popFront = some q') (bl : List Nat) :
    Same bl q i bl q' (i - 1) := by
  simp only [Sq.popFront] at hq
  split at hq
  · cases hq
  · rename_i x e; rw [e] at hi; simp at hi; omega
  · rename_i x y ys e
    cases hq
    refine ⟨?_, ?_, ?_⟩
    · rw [e]
      obtain ⟨n, rfl⟩ : ∃ n, i = n + 1 := ⟨i - 1, by omega⟩
      simp
    · show bl[(q.first + 1 + (i - 1)) / 16]? = _
      congr 2; omega
    · show (q.first + 1 + (i - 1)) % 16 = _
      congr 1; omega

theorem popBack_same {q q' : Sq α} {i} (hi : i < q.xs.length) (h0 : q.xs.length ≠ i + 1) (hq : q.popBack = some q') (bl : List Nat) :
    Same bl q i bl q' i := by
  simp only [Sq.popBack] at hq
  split at hq
  · cases hq
  · rename_i x e; rw [e] at hi h0; simp at hi h0; omega
  · rename_i x y ys e
    cases hq
    refine ⟨?_, rfl, rfl⟩
    rw [← e]
    show q.xs.dropLast[i]? = _
    rw [List.getElem?_dropLast, if_pos (by omega)]

theorem Inv.blk_lt {s : St α} {τ γ} (h : Inv triv s (lift τ) γ) {k q i} (hk : τ k = some q) (hi : i < q.xs.length) :
    (q.first + i) / 16 < (γ (.user k)).2.length := by
  obtain ⟨d, -, hr⟩ := h.rep (.user k) q hk
  have := hr.rep.bound_len (by intro e; simp [e] at hi)
  omega

theorem user_ne {k j : Nat} (h : k ≠ j) : Slot.user k ≠ Slot.user j := by intro e; cases e; exact h rfl

/-- A call of the specification, with the place of every surviving element. -/
theorem step_moves {s : St α} {τ τ' : Nat → Option (Sq α)} {γ} {o : Op α} (h : Inv triv s (lift τ) γ)
    (hs : Spec.step τ o = some τ') :
    ∃ s' γ', step triv s o = .ok s' ∧ Inv triv s' (lift τ') γ' ∧ Moves τ γ τ' γ' (track (er τ) o) := by
  cases o with
  | make k =>
    simp only [Spec.step] at hs
    split at hs
    · rename_i hk; cases hs
      obtain ⟨s', e, h'⟩ := make_ok h (k := .user k) hk
      refine ⟨s', γ, e, by rw [← lift_upd]; exact h', ?_⟩
      intro x q i hx hi k' i' ht
      cases ht
      have : x ≠ k := by rintro rfl; rw [hk] at hx; cases hx
      exact ⟨q, by rw [upd_ne _ _ this]; exact hx, .refl _ _ _⟩
    · cases hs
  | initList k vs =>
    simp only [Spec.step] at hs
    split at hs
    · rename_i hk; cases hs
      obtain ⟨s', g, e, h'⟩ := initList_ok h (k := .user k) hk vs
      refine ⟨s', _, e, by rw [← lift_upd]; exact h', ?_⟩
      intro x q i hx hi k' i' ht
      cases ht
      have : x ≠ k := by rintro rfl; rw [hk] at hx; cases hx
      exact ⟨q, by rw [upd_ne _ _ this]; exact hx, by rw [upd_ne _ _ (user_ne this)]; exact .refl _ _ _⟩
    · cases hs
  | copy k j =>
    simp only [Spec.step] at hs
    split at hs
    · rename_i q hk hj
      split at hs
      · cases hs
      · rename_i hne; cases hs
        obtain ⟨s', g, e, h'⟩ := copy_ok h (k := .user k) (j := .user j) hk hj (by intro e; simp [e] at hne)
        refine ⟨s', _, e, by rw [← lift_upd]; exact h', ?_⟩
        intro x q i hx hi k' i' ht
        cases ht
        have : x ≠ k := by rintro rfl; rw [hk] at hx; cases hx
        exact ⟨q, by rw [upd_ne _ _ this]; exact hx, by rw [upd_ne _ _ (user_ne this)]; exact .refl _ _ _⟩
    · cases hs
  | move k j =>
    simp only [Spec.step] at hs
    split at hs
    · rename_i q0 hk hj
      cases hs
      obtain ⟨s', e, h'⟩ := move_ok h (k := .user k) (j := .user j) hk hj
      refine ⟨s', _, e, by rw [← lift_upd, ← lift_upd]; exact h', ?_⟩
      intro x q i hx hi k' i' ht
      have hxk : x ≠ k := by rintro rfl; rw [hk] at hx; cases hx
      simp only [track] at ht
      split at ht
      · rename_i e; cases ht
        have e : x = j := e
        subst e
        rw [hj] at hx; cases hx
        refine ⟨_, upd_same _ _ _, ?_⟩
        exact .of _ _ (by simp [tr])
      · rename_i e; cases ht
        have e : x ≠ j := e
        refine ⟨q, by rw [upd_ne _ _ hxk, upd_ne _ _ e]; exact hx, ?_⟩
        exact .of _ _ (by simp [tr, hxk, e])
    · cases hs
  | destroy k =>
    simp only [Spec.step] at hs
    split at hs
    · rename_i q0 hk
      cases hs
      obtain ⟨s', e, h'⟩ := destroy_ok h (k := .user k) hk
      refine ⟨s', _, e, by rw [← lift_upd]; exact h', ?_⟩
      intro x q i hx hi k' i' ht
      simp only [track] at ht
      split at ht
      · cases ht
      · rename_i e; cases ht
        have e : x ≠ k := e
        exact ⟨q, by rw [upd_ne _ _ e]; exact hx, by rw [upd_ne _ _ (user_ne e)]; exact .refl _ _ _⟩
    · cases hs
  | assignCopy k j =>
    simp only [Spec.step] at hs
    split at hs
    · rename_i p q0 hk hj
      split at hs
      · cases hs
      · rename_i hne; cases hs
        obtain ⟨s', g, e, h'⟩ := assignCopy_ok h (k := .user k) (j := .user j) (by intro e; cases e) rfl hk hj
          (by intro e; simp [e] at hne)
        refine ⟨s', _, e, by rw [← lift_upd]; exact h', ?_⟩
        intro x q i hx hi k' i' ht
        simp only [track] at ht
        split at ht
        · cases ht
        · rename_i e; cases ht
          have e : x ≠ k := e
          refine ⟨q, by rw [upd_ne _ _ e]; exact hx, ?_⟩
          rw [upd_ne _ _ (by intro e; cases e)]
          exact .of _ _ (by simp [tr, e, upd])
    · cases hs
  | assignMove k j =>
    simp only [Spec.step] at hs
    split at hs
    · rename_i p q0 hk hj
      cases hs
      obtain ⟨s', e, h'⟩ := assignMove_ok h (k := .user k) (j := .user j) (by intro e; cases e) (by intro e; cases e) rfl hk hj
      refine ⟨s', _, e, by rw [← lift_upd, ← lift_upd]; exact h', ?_⟩
      intro x q i hx hi k' i' ht
      simp only [track] at ht
      split at ht
      · rename_i e; cases ht
        have e : x = j := e
        subst e
        rw [hj] at hx; cases hx
        refine ⟨_, upd_same _ _ _, ?_⟩
        rw [upd_ne _ _ (by intro e; cases e)]; exact .of _ _ (by simp [tr])
      · rename_i e
        have e : x ≠ j := e
        split at ht
        · cases ht
        · rename_i e2; cases ht
          have e2 : x ≠ k := e2
          refine ⟨q, by rw [upd_ne _ _ e2, upd_ne _ _ e]; exact hx, ?_⟩
          rw [upd_ne _ _ (by intro e; cases e)]; exact .of _ _ (by simp [tr, e, e2])
    · cases hs
  | swap k j =>
    simp only [Spec.step] at hs
    split at hs
    · rename_i p q0 hk hj
      cases hs
      obtain ⟨s', e, h'⟩ := swap_ok h (k := .user k) (j := .user j) hk hj
      refine ⟨s', _, e, by rw [← lift_upd, ← lift_upd]; exact h', ?_⟩
      intro x q i hx hi k' i' ht
      simp only [track] at ht
      split at ht
      · rename_i e; cases ht
        have e : x = k := e
        subst e
        rw [hk] at hx; cases hx
        refine ⟨_, upd_same _ _ _, ?_⟩
        exact .of _ _ (by simp [tr])
      · rename_i e
        have ex : x ≠ k := e
        split at ht
        · rename_i e2; cases ht
          have e2 : x = j := e2
          subst e2
          rw [hj] at hx; cases hx
          refine ⟨_, by rw [upd_ne _ _ (Ne.symm ex), upd_same], ?_⟩
          exact .of _ _ (by simp [tr, Ne.symm ex])
        · rename_i e2; cases ht
          have e2 : x ≠ j := e2
          refine ⟨q, by rw [upd_ne _ _ e2, upd_ne _ _ ex]; exact hx, ?_⟩
          exact .of _ _ (by simp [tr, ex, e2])
    · cases hs
  | pushBack k v =>
    simp only [Spec.step, Option.map_eq_some_iff] at hs
    obtain ⟨q0, hk, rfl⟩ := hs
    obtain ⟨s', γ', e, h', a', e', rfl⟩ := emplaceBack_grow h (k := .user k) hk (x := .val v) rfl
    refine ⟨s', _, e, by rw [← lift_upd]; exact h', ?_⟩
    intro x q i hx hi k' i' ht
    cases ht
    by_cases e : x = k
    · subst e
      rw [hk] at hx; cases hx
      exact ⟨_, upd_same _ _ _, by rw [upd_same]; exact pushBack_same hi (h.blk_lt hk hi)⟩
    · exact ⟨q, by rw [upd_ne _ _ e]; exact hx, by rw [upd_ne _ _ (user_ne e)]; exact .refl _ _ _⟩
  | pushFront k v =>
    simp only [Spec.step, Option.bind_eq_some_iff, Option.map_eq_some_iff] at hs
    obtain ⟨q0, hk, q', hq', rfl⟩ := hs
    obtain ⟨s', γ', e, h', a', e', rfl, hf⟩ := emplaceFront_grow h (k := .user k) hk (x := .val v) rfl hq'
    refine ⟨s', _, e, by rw [← lift_upd]; exact h', ?_⟩
    intro x q i hx hi k' i' ht
    simp only [track] at ht
    split at ht
    · rename_i e; cases ht
      have e : x = k := e
      subst e
      rw [hk] at hx; cases hx
      refine ⟨q', upd_same _ _ _, ?_⟩
      rw [upd_same]; exact pushFront_same hi hq' (hf (by intro e; simp [e] at hi))
    · rename_i e; cases ht
      have e : x ≠ k := e
      exact ⟨q, by rw [upd_ne _ _ e]; exact hx, by rw [upd_ne _ _ (user_ne e)]; exact .refl _ _ _⟩
  | pushBackElem k j n =>
    simp only [Spec.step, Option.bind_eq_some_iff, Option.map_eq_some_iff] at hs
    obtain ⟨p, hj, v, hv, q0, hk, rfl⟩ := hs
    obtain ⟨x0, hx1, hx2⟩ := elemRef_ok h (j := .user j) hj hv
    obtain ⟨s', γ', e, h', a', e', rfl⟩ := emplaceBack_grow h (k := .user k) hk hx2
    refine ⟨s', _, by simp [step, hx1, e], by rw [← lift_upd]; exact h', ?_⟩
    intro x q i hx hi k' i' ht
    cases ht
    by_cases e : x = k
    · subst e
      rw [hk] at hx; cases hx
      exact ⟨_, upd_same _ _ _, by rw [upd_same]; exact pushBack_same hi (h.blk_lt hk hi)⟩
    · exact ⟨q, by rw [upd_ne _ _ e]; exact hx, by rw [upd_ne _ _ (user_ne e)]; exact .refl _ _ _⟩
  | pushFrontElem k j n =>
    simp only [Spec.step, Option.bind_eq_some_iff, Option.map_eq_some_iff] at hs
    obtain ⟨p, hj, v, hv, q0, hk, q', hq', rfl⟩ := hs
    obtain ⟨x0, hx1, hx2⟩ := elemRef_ok h (j := .user j) hj hv
    obtain ⟨s', γ', e, h', a', e', rfl, hf⟩ := emplaceFront_grow h (k := .user k) hk hx2 hq'
    refine ⟨s', _, by simp [step, hx1, e], by rw [← lift_upd]; exact h', ?_⟩
    intro x q i hx hi k' i' ht
    simp only [track] at ht
    split at ht
    · rename_i e; cases ht
      have e : x = k := e
      subst e
      rw [hk] at hx; cases hx
      refine ⟨q', upd_same _ _ _, ?_⟩
      rw [upd_same]; exact pushFront_same hi hq' (hf (by intro e; simp [e] at hi))
    · rename_i e; cases ht
      have e : x ≠ k := e
      exact ⟨q, by rw [upd_ne _ _ e]; exact hx, by rw [upd_ne _ _ (user_ne e)]; exact .refl _ _ _⟩
  | popBack k =>
    simp only [Spec.step, Option.bind_eq_some_iff, Option.map_eq_some_iff] at hs
    obtain ⟨q0, hk, q', hq', rfl⟩ := hs
    obtain ⟨s', e, h'⟩ := popBack_ok h (k := .user k) hk hq'
    refine ⟨s', _, e, by rw [← lift_upd]; exact h', ?_⟩
    intro x q i hx hi k' i' ht
    simp only [track] at ht
    split at ht
    · cases ht
    · rename_i hn; cases ht
      by_cases e : x = k
      · subst e
        rw [hk] at hx; cases hx
        refine ⟨q', upd_same _ _ _, popBack_same hi ?_ hq' _⟩
        intro e
        exact hn ⟨rfl, by simp [er, hk, e]⟩
      · exact ⟨q, by rw [upd_ne _ _ e]; exact hx, .refl _ _ _⟩
  | popFront k =>
    simp only [Spec.step, Option.bind_eq_some_iff, Option.map_eq_some_iff] at hs
    obtain ⟨q0, hk, q', hq', rfl⟩ := hs
    obtain ⟨s', e, h'⟩ := popFront_ok h (k := .user k) hk hq'
    refine ⟨s', _, e, by rw [← lift_upd]; exact h', ?_⟩
    intro x q i hx hi k' i' ht
    simp only [track] at ht
    split at ht
    · rename_i e
      have e : x = k := e
      subst e
      split at ht
      · cases ht
      · rename_i h0; cases ht
        rw [hk] at hx; cases hx
        exact ⟨q', upd_same _ _ _, popFront_same hi h0 hq' _⟩
    · rename_i e; cases ht
      have e : x ≠ k := e
      exact ⟨q, by rw [upd_ne _ _ e]; exact hx, .refl _ _ _⟩
  | clear k =>
    simp only [Spec.step, Option.map_eq_some_iff] at hs
    obtain ⟨q0, hk, rfl⟩ := hs
    obtain ⟨s', e, h'⟩ := clear_ok h (k := .user k) hk
    refine ⟨s', _, e, by rw [← lift_upd]; exact h', ?_⟩
    intro x q i hx hi k' i' ht
    simp only [track] at ht
    split at ht
    · cases ht
    · rename_i e; cases ht
      have e : x ≠ k := e
      exact ⟨q, by rw [upd_ne _ _ e]; exact hx, .refl _ _ _⟩

theorem Same.lt {bl bl' : List Nat} {q q' : Sq α} {i i'} (h : Same bl q i bl' q' i') (hi : i < q.xs.length) : i' < q'.xs.length := by
  have h1 := h.1
  rw [List.getElem?_eq_getElem hi] at h1
  exact (List.getElem?_eq_some_iff.1 h1).1

/-- A history, with the place of every surviving element. -/
theorem run_moves (os : List (Op α)) : ∀ {s : St α} {τ γ l' s'}, Inv triv s (lift τ) γ → Seq.run (er τ) os = some l' →
    run triv s os = .ok s' →
    ∃ τ' γ', Inv triv s' (lift τ') γ' ∧ er τ' = l' ∧ Moves τ γ τ' γ' (trackAll (er τ) os) := by
  induction os with
  | nil =>
    intro s τ γ l' s' h hs hr
    cases hs; cases hr
    refine ⟨τ, γ, h, rfl, ?_⟩
    intro k q i hk hi k' i' ht
    cases ht
    exact ⟨q, hk, .refl _ _ _⟩
  | cons o os ih =>
    intro s τ γ l' s' h hs hr
    simp only [Seq.run, Option.bind_eq_some_iff] at hs
    obtain ⟨l1, h1, h2⟩ := hs
    obtain ⟨s1, e1, h3⟩ := Res.bind_eq_ok.1 hr
    rcases seq_step ⟨γ, h⟩ h1 with ⟨τ1, hτ1, rfl⟩ | ⟨_, _, e⟩
    · obtain ⟨s1', γ1, e1', i1, m1⟩ := step_moves h hτ1
      rw [e1] at e1'; cases e1'
      obtain ⟨τ', γ', h', hl, m2⟩ := ih i1 h2 h3
      refine ⟨τ', γ', h', hl, ?_⟩
      intro k q i hk hi k' i' ht
      simp only [trackAll, h1, Option.bind_some, Option.bind_eq_some_iff] at ht
      obtain ⟨⟨k1, j1⟩, t1, t2⟩ := ht
      obtain ⟨q1, hq1, sm1⟩ := m1 k q i hk hi k1 j1 t1
      obtain ⟨q2, hq2, sm2⟩ := m2 k1 q1 j1 hq1 (sm1.lt hi) k' i' t2
      exact ⟨q2, hq2, sm1.trans sm2⟩
    · rw [e1] at e; cases e

/-- The address of an element. -/
theorem elemRef_addr {s : St α} {τ γ} (h : Inv triv s (lift τ) γ) {k q i v} (hk : τ k = some q) (hi : q.xs[i]? = some v) :
    ∃ b, (γ (.user k)).2[(q.first + i) / 16]? = some b ∧ elemRef s (.user k) i = .ok (.ref (b, (q.first + i) % 16)) ∧
      load s (b, (q.first + i) % 16) = .ok v := by
  obtain ⟨d, hd, hr⟩ := h.rep (.user k) q hk
  have hlt : i < q.xs.length := (List.getElem?_eq_some_iff.1 hi).1
  have hlen := hr.rep.bound_len (by intro e; simp [e] at hlt)
  obtain ⟨b, hb, hm, hg⟩ := getObj_ok hr.rep (n := q.first + i) (by omega)
  refine ⟨b, hb, ?_, ?_⟩
  · simp [elemRef, begin_ok h (j := .user k) hk, derefIt, getD_ok hd, hg]
  · exact load_cell hb (by rw [hr.rep.cells i hlt, hi])

end Verif.Deque
