import Verif.Lemmas.DequeSpec

/-! Histories seen as plain sequences: no layout, no blocks. -/

set_option backward.isDefEq.respectTransparency false

namespace Verif.Deque
open Verif
open Verif.Box (upd upd_same upd_ne upd_upd upd_comm upd_self)

variable {α : Type} {triv : Bool}

/-- What the caller expects of each call on sequences. `none`: the call is not legal (object
alive or missing, pop of an empty deque, no such element) or copies an empty deque (C22). -/
def Seq.step (l : Nat → Option (List α)) : Op α → Option (Nat → Option (List α))
  | .make k =>
    match l k with
    | none => some (upd l k (some []))
    | some _ => none
  | .initList k vs =>
    match l k with
    | none => some (upd l k (some vs))
    | some _ => none
  | .copy k j =>
    match l k, l j with
    | none, some (x :: xs) => some (upd l k (some (x :: xs)))
    | _, _ => none
  | .move k j =>
    match l k, l j with
    | none, some xs => some (upd (upd l j (some [])) k (some xs))
    | _, _ => none
  | .destroy k =>
    match l k with
    | some _ => some (upd l k none)
    | none => none
  | .assignCopy k j =>
    match l k, l j with
    | some _, some (x :: xs) => some (upd l k (some (x :: xs)))
    | _, _ => none
  | .assignMove k j =>
    match l k, l j with
    | some _, some xs => some (upd (upd l j (some [])) k (some xs))
    | _, _ => none
  | .swap k j =>
    match l k, l j with
    | some xs, some ys => some (upd (upd l k (some ys)) j (some xs))
    | _, _ => none
  | .pushBack k v =>
    match l k with
    | some xs => some (upd l k (some (xs ++ [v])))
    | none => none
  | .pushFront k v =>
    match l k with
    | some xs => some (upd l k (some (v :: xs)))
    | none => none
  | .pushBackElem k j i =>
    match l k, (l j).bind (·[i]?) with
    | some xs, some v => some (upd l k (some (xs ++ [v])))
    | _, _ => none
  | .pushFrontElem k j i =>
    match l k, (l j).bind (·[i]?) with
    | some xs, some v => some (upd l k (some (v :: xs)))
    | _, _ => none
  | .popBack k =>
    match l k with
    | some (x :: xs) => some (upd l k (some (x :: xs).dropLast))
    | _ => none
  | .popFront k =>
    match l k with
    | some (_ :: xs) => some (upd l k (some xs))
    | _ => none
  | .clear k =>
    match l k with
    | some _ => some (upd l k (some []))
    | none => none

/-- A history, from no deques. -/
def Seq.run (l : Nat → Option (List α)) : List (Op α) → Option (Nat → Option (List α))
  | [] => some l
  | o :: os => (Seq.step l o).bind fun l => Seq.run l os

/-- Forget the layout. -/
def er (τ : Nat → Option (Sq α)) (k : Nat) : Option (List α) := (τ k).map (·.xs)

theorem er_upd (τ : Nat → Option (Sq α)) (k : Nat) (o : Option (Sq α)) : er (upd τ k o) = upd (er τ) k (o.map (·.xs)) := by
  funext n
  by_cases h : n = k
  · subst h; simp [er, upd_same]
  · simp [er, upd_ne _ _ h]

theorem Sq.popBack_xs {q q' : Sq α} (h : q.popBack = some q') : ∃ x xs, q.xs = x :: xs ∧ q'.xs = (x :: xs).dropLast := by
  simp only [Sq.popBack] at h
  split at h
  · cases h
  · rename_i x e; cases h; exact ⟨x, [], e, rfl⟩
  · rename_i x y ys e; cases h; exact ⟨x, y :: ys, e, rfl⟩

theorem Sq.popFront_xs {q q' : Sq α} (h : q.popFront = some q') : ∃ x, q.xs = x :: q'.xs := by
  simp only [Sq.popFront] at h
  split at h
  · cases h
  · rename_i x e; cases h; exact ⟨x, e⟩
  · rename_i x y ys e; cases h; exact ⟨x, e⟩

theorem Sq.popBack_some {q : Sq α} (h : q.xs ≠ []) : ∃ q', q.popBack = some q' := by
  simp only [Sq.popBack]
  split
  · contradiction
  · exact ⟨_, rfl⟩
  · exact ⟨_, rfl⟩

theorem Sq.popFront_some {q : Sq α} (h : q.xs ≠ []) : ∃ q', q.popFront = some q' := by
  simp only [Sq.popFront]
  split
  · contradiction
  · exact ⟨_, rfl⟩
  · exact ⟨_, rfl⟩

theorem Sq.pushFront_xs {q q' : Sq α} {v} (h : q.pushFront v = some q') : q'.xs = v :: q.xs := by
  simp only [Sq.pushFront] at h
  split at h
  · cases h; rfl
  · split at h
    · split at h
      · cases h; rfl
      · cases h
    · cases h; rfl

theorem er_some {τ : Nat → Option (Sq α)} {k xs} (h : er τ k = some xs) : ∃ q, τ k = some q ∧ q.xs = xs := by
  simpa [er] using h

theorem er_none {τ : Nat → Option (Sq α)} {k} (h : er τ k = none) : τ k = none := by
  simpa [er] using h

/-- The calls that insert at the front. -/
def Op.isFront : Op α → Bool
  | .pushFront _ _ => true
  | .pushFrontElem _ _ _ => true
  | _ => false

/-- A call legal for sequences does to the layout model what it does to sequences, except that a
front insertion may be undefined. -/
theorem seq_step {s : St α} {τ : Nat → Option (Sq α)} {o : Op α} {l'} (h : Ok triv s τ) (hs : Seq.step (er τ) o = some l') :
    (∃ τ', Spec.step τ o = some τ' ∧ er τ' = l') ∨ (o.isFront = true ∧ Spec.step τ o = none ∧ step triv s o = .ub) := by
  cases o with
  | make k =>
    left
    simp only [Seq.step] at hs
    split at hs
    · rename_i hk; cases hs
      refine ⟨_, by simp only [Spec.step, er_none hk]; rfl, ?_⟩
      rw [er_upd]; rfl
    · cases hs
  | initList k vs =>
    left
    simp only [Seq.step] at hs
    split at hs
    · rename_i hk; cases hs
      refine ⟨_, by simp only [Spec.step, er_none hk]; rfl, ?_⟩
      rw [er_upd]; simp [Sq.pushAll_xs, Sq.nil]
    · cases hs
  | copy k j =>
    left
    simp only [Seq.step] at hs
    split at hs
    · rename_i x xs hk hj; cases hs
      obtain ⟨q, hq, hx⟩ := er_some hj
      refine ⟨_, by simp only [Spec.step, er_none hk, hq]; rw [if_neg (by simp [hx])], ?_⟩
      rw [er_upd]; simp [Sq.pushAll_xs, Sq.nil, hx]
    · cases hs
  | move k j =>
    left
    simp only [Seq.step] at hs
    split at hs
    · rename_i xs hk hj; cases hs
      obtain ⟨q, hq, hx⟩ := er_some hj
      refine ⟨_, by simp only [Spec.step, er_none hk, hq]; rfl, ?_⟩
      rw [er_upd, er_upd]; simp [Sq.nil, hx]
    · cases hs
  | destroy k =>
    left
    simp only [Seq.step] at hs
    split at hs
    · rename_i xs hk; cases hs
      obtain ⟨q, hq, hx⟩ := er_some hk
      refine ⟨_, by simp only [Spec.step, hq]; rfl, ?_⟩
      rw [er_upd]; rfl
    · cases hs
  | assignCopy k j =>
    left
    simp only [Seq.step] at hs
    split at hs
    · rename_i ys x xs hk hj; cases hs
      obtain ⟨q, hq, hx⟩ := er_some hj
      obtain ⟨p, hp, hy⟩ := er_some hk
      refine ⟨_, by simp only [Spec.step, hp, hq]; rw [if_neg (by simp [hx])], ?_⟩
      rw [er_upd]; simp [Sq.pushAll_xs, Sq.nil, hx]
    · cases hs
  | assignMove k j =>
    left
    simp only [Seq.step] at hs
    split at hs
    · rename_i ys xs hk hj; cases hs
      obtain ⟨q, hq, hx⟩ := er_some hj
      obtain ⟨p, hp, hy⟩ := er_some hk
      refine ⟨_, by simp only [Spec.step, hp, hq]; rfl, ?_⟩
      rw [er_upd, er_upd]; simp [Sq.nil, hx]
    · cases hs
  | swap k j =>
    left
    simp only [Seq.step] at hs
    split at hs
    · rename_i ys xs hk hj; cases hs
      obtain ⟨q, hq, hx⟩ := er_some hj
      obtain ⟨p, hp, hy⟩ := er_some hk
      refine ⟨_, by simp only [Spec.step, hp, hq]; rfl, ?_⟩
      rw [er_upd, er_upd]; simp [hx, hy]
    · cases hs
  | pushBack k v =>
    left
    simp only [Seq.step] at hs
    split at hs
    · rename_i xs hk; cases hs
      obtain ⟨q, hq, hx⟩ := er_some hk
      refine ⟨_, by simp only [Spec.step, hq]; rfl, ?_⟩
      rw [er_upd]; simp [Sq.pushBack, hx]
    · cases hs
  | pushFront k v =>
    simp only [Seq.step] at hs
    split at hs
    · rename_i xs hk; cases hs
      obtain ⟨q, hq, hx⟩ := er_some hk
      cases hq' : q.pushFront v with
      | some q' =>
        left
        refine ⟨_, by simp only [Spec.step, hq, Option.bind_some, hq']; rfl, ?_⟩
        rw [er_upd]; simp [Sq.pushFront_xs hq', hx]
      | none =>
        right
        obtain ⟨γ, h⟩ := h
        exact ⟨rfl, by simp [Spec.step, hq, hq'], emplaceFront_ub h (k := .user k) hq _ hq'⟩
    · cases hs
  | pushBackElem k j i =>
    left
    simp only [Seq.step] at hs
    split at hs
    · rename_i xs v hk hj; cases hs
      obtain ⟨q, hq, hx⟩ := er_some hk
      rw [Option.bind_eq_some_iff] at hj
      obtain ⟨ys, hj, hv⟩ := hj
      obtain ⟨p, hp, hy⟩ := er_some hj
      subst hy
      refine ⟨_, by simp only [Spec.step, hp, hq, Option.bind_some, hv]; rfl, ?_⟩
      rw [er_upd]; simp [Sq.pushBack, hx]
    · cases hs
  | pushFrontElem k j i =>
    simp only [Seq.step] at hs
    split at hs
    · rename_i xs v hk hj; cases hs
      obtain ⟨q, hq, hx⟩ := er_some hk
      rw [Option.bind_eq_some_iff] at hj
      obtain ⟨ys, hj, hv⟩ := hj
      obtain ⟨p, hp, hy⟩ := er_some hj
      subst hy
      cases hq' : q.pushFront v with
      | some q' =>
        left
        refine ⟨_, by simp only [Spec.step, hp, hq, Option.bind_some, hv, hq']; rfl, ?_⟩
        rw [er_upd]; simp [Sq.pushFront_xs hq', hx]
      | none =>
        right
        obtain ⟨γ, h⟩ := h
        obtain ⟨x, hx1, hx2⟩ := elemRef_ok h (j := .user j) hp hv
        refine ⟨rfl, by simp [Spec.step, hp, hq, hv, hq'], ?_⟩
        simp only [step, hx1, Res.ok_bind]
        exact emplaceFront_ub h (k := .user k) hq _ hq'
    · cases hs
  | popBack k =>
    left
    simp only [Seq.step] at hs
    split at hs
    · rename_i x xs hk; cases hs
      obtain ⟨q, hq, hx⟩ := er_some hk
      obtain ⟨q', hq'⟩ := Sq.popBack_some (q := q) (by rw [hx]; simp)
      obtain ⟨x', xs', e1, e2⟩ := Sq.popBack_xs hq'
      refine ⟨_, by simp only [Spec.step, hq, Option.bind_some, hq']; rfl, ?_⟩
      rw [er_upd]; simp only [Option.map_some, e2]
      rw [hx] at e1; rw [e1]
    · cases hs
  | popFront k =>
    left
    simp only [Seq.step] at hs
    split at hs
    · rename_i x xs hk; cases hs
      obtain ⟨q, hq, hx⟩ := er_some hk
      obtain ⟨q', hq'⟩ := Sq.popFront_some (q := q) (by rw [hx]; simp)
      obtain ⟨x', e1⟩ := Sq.popFront_xs hq'
      refine ⟨_, by simp only [Spec.step, hq, Option.bind_some, hq']; rfl, ?_⟩
      rw [er_upd]; simp only [Option.map_some]
      rw [hx] at e1; cases e1; rfl
    · cases hs
  | clear k =>
    left
    simp only [Seq.step] at hs
    split at hs
    · rename_i xs hk; cases hs
      obtain ⟨q, hq, hx⟩ := er_some hk
      refine ⟨_, by simp only [Spec.step, hq]; rfl, ?_⟩
      rw [er_upd]; simp [clear_xs]
    · cases hs

theorem seq_run (os : List (Op α)) : ∀ {s : St α} {τ : Nat → Option (Sq α)} {l'}, Ok triv s τ → Seq.run (er τ) os = some l' →
    (∃ τ' s', Spec.run τ os = some τ' ∧ er τ' = l' ∧ run triv s os = .ok s' ∧ Ok triv s' τ') ∨
    (os.any Op.isFront = true ∧ Spec.run τ os = none ∧ run triv s os = .ub) := by
  induction os with
  | nil => intro s τ l' h hs; cases hs; exact .inl ⟨τ, s, rfl, rfl, rfl, h⟩
  | cons o os ih =>
    intro s τ l' h hs
    simp only [Seq.run, Option.bind_eq_some_iff] at hs
    obtain ⟨l1, h1, h2⟩ := hs
    rcases seq_step h h1 with ⟨τ1, e1, rfl⟩ | ⟨e0, e1, e2⟩
    · obtain ⟨s1, f1, o1⟩ := step_ok h e1
      rcases ih o1 h2 with ⟨τ2, s2, e3, e4, e5, e6⟩ | ⟨e0, e3, e4⟩
      · exact .inl ⟨τ2, s2, by simp [Spec.run, e1, e3], e4, by simp [run, f1, e5], e6⟩
      · exact .inr ⟨by simp [e0], by simp [Spec.run, e1, e3], by simp [run, f1, e4]⟩
    · exact .inr ⟨by simp [e0], by simp [Spec.run, e1], by simp [run, e2]⟩

end Verif.Deque
