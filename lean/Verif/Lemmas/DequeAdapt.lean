import Verif.Lemmas.DequeSeq

/-! Stacks and queues over deques. -/

set_option backward.isDefEq.respectTransparency false

namespace Verif.Deque
open Verif
open Verif.Box (upd upd_same upd_ne upd_upd upd_comm upd_self)

variable {α : Type} {triv : Bool}

/-- What the caller of several stacks (`lifo = true`) or queues (`lifo = false`) expects. A
stack is the list of its elements, newest first; a queue, oldest first. `none`: not a legal call,
or a copy of an empty one (C22). -/
def ASpec.step (lifo : Bool) (l : Nat → Option (List α)) : AOp α → Option (Nat → Option (List α))
  | .make k =>
    match l k with
    | none => some (upd l k (some []))
    | some _ => none
  | .copy k j =>
    match l k, l j with
    | none, some (x :: xs) => some (upd l k (some (x :: xs)))
    | _, _ => none
  | .move k j =>
    match l k, l j with
    | none, some xs => some (upd (upd l j (some [])) k (some xs))
    | _, _ => none
  | .destroy k =>
    match l k with
    | some _ => some (upd l k none)
    | none => none
  | .assignCopy k j =>
    match l k, l j with
    | some _, some (x :: xs) => some (upd l k (some (x :: xs)))
    | _, _ => none
  | .assignMove k j =>
    match l k, l j with
    | some _, some xs => some (upd (upd l j (some [])) k (some xs))
    | _, _ => none
  | .swap k j =>
    match l k, l j with
    | some xs, some ys => some (upd (upd l k (some ys)) j (some xs))
    | _, _ => none
  | .push k v =>
    match l k with
    | some xs => some (upd l k (some (if lifo then v :: xs else xs ++ [v])))
    | none => none
  | .pop k =>
    match l k with
    | some (_ :: xs) => some (upd l k (some xs))
    | _ => none

/-- A history. -/
def ASpec.run (lifo : Bool) (l : Nat → Option (List α)) : List (AOp α) → Option (Nat → Option (List α))
  | [] => some l
  | o :: os => (ASpec.step lifo l o).bind fun l => ASpec.run lifo l os

/-- The list seen through the adaptor. -/
def view (lifo : Bool) (q : Sq α) : List α := if lifo then q.xs.reverse else q.xs

/-- All adaptors seen as lists. -/
def aer (lifo : Bool) (τ : Nat → Option (Sq α)) (k : Nat) : Option (List α) := (τ k).map (view lifo)

theorem aer_upd (lifo : Bool) (τ : Nat → Option (Sq α)) (k : Nat) (o : Option (Sq α)) :
    aer lifo (upd τ k o) = upd (aer lifo τ) k (o.map (view lifo)) := by
  funext n
  by_cases h : n = k
  · subst h; simp [aer, upd_same]
  · simp [aer, upd_ne _ _ h]

theorem aer_some {lifo} {τ : Nat → Option (Sq α)} {k xs} (h : aer lifo τ k = some xs) : ∃ q, τ k = some q ∧ view lifo q = xs := by
  simpa [aer] using h

theorem aer_none {lifo} {τ : Nat → Option (Sq α)} {k} (h : aer lifo τ k = none) : τ k = none := by
  simpa [aer] using h

theorem view_nil {lifo} {q : Sq α} (h : view lifo q = []) : q.xs = [] := by
  cases lifo <;> simpa [view] using h

theorem view_ne {lifo} {q : Sq α} {x xs} (h : view lifo q = x :: xs) : q.xs ≠ [] := by
  intro e; cases lifo <;> simp [view, e] at h

theorem view_pushAll {lifo} (q : Sq α) : view lifo (Sq.nil.pushAll q.xs) = view lifo q := by
  simp [view, Sq.pushAll_xs, Sq.nil]

/-- Destroying a temporary leaves the named deques. -/
theorem drop_apar {s : St α} {τ : Nat → Option (Sq α)} {γ q} (h : Inv triv s (upd (lift τ) .apar (some q)) γ) :
    ∃ s', destroy triv s .apar = .ok s' ∧ Ok triv s' τ := by
  obtain ⟨s', e, h'⟩ := destroy_ok h (upd_same _ _ _)
  rw [upd_dead _ _ _ (by intro n e; cases e)] at h'
  exact ⟨s', e, _, h'⟩

theorem lift_comm (τ : Nat → Option (Sq α)) (k : Nat) (o p : Option (Sq α)) :
    upd (upd (lift τ) .apar p) (.user k) o = upd (lift (upd τ k o)) .apar p := by
  rw [upd_comm _ _ _ (by intro e; cases e), lift_upd]

theorem stackAssignCopy_ok {s : St α} {τ : Nat → Option (Sq α)} (h : Ok triv s τ) {k j p q} (hk : τ k = some p)
    (hj : τ j = some q) (hne : q.xs ≠ []) :
    ∃ s', stackAssignCopy triv s (.user k) (.user j) = .ok s' ∧ Ok triv s' (upd τ k (some (Sq.nil.pushAll q.xs))) := by
  obtain ⟨γ, h⟩ := h
  obtain ⟨s1, γ1, e1, h1⟩ := copy_ok h (k := .apar) (j := .user j) rfl hj hne
  obtain ⟨s2, e2, h2⟩ := swap_ok h1 (k := .apar) (j := .user k) (upd_same _ _ _)
    (by rw [upd_ne _ _ (by intro e; cases e)]; exact hk)
  rw [upd_upd, lift_comm] at h2
  obtain ⟨s3, e3, h3⟩ := drop_apar h2
  exact ⟨s3, by simp [stackAssignCopy, e1, e2, e3], h3⟩

theorem stackAssignMove_ok {s : St α} {τ : Nat → Option (Sq α)} (h : Ok triv s τ) {k j p q} (hk : τ k = some p)
    (hj : τ j = some q) :
    ∃ s', stackAssignMove triv s (.user k) (.user j) = .ok s' ∧ Ok triv s' (upd (upd τ j (some Sq.nil)) k (some q)) := by
  obtain ⟨γ, h⟩ := h
  obtain ⟨s1, e1, h1⟩ := move_ok h (k := .apar) (j := .user j) rfl hj
  rw [lift_upd] at h1
  have hk' : ∃ p', upd τ j (some Sq.nil) k = some p' := by
    by_cases e : k = j
    · subst e; exact ⟨_, upd_same _ _ _⟩
    · exact ⟨p, by rw [upd_ne _ _ e]; exact hk⟩
  obtain ⟨p', hk'⟩ := hk'
  obtain ⟨s2, e2, h2⟩ := swap_ok h1 (k := .apar) (j := .user k) (upd_same _ _ _)
    (by rw [upd_ne _ _ (by intro e; cases e)]; exact hk')
  rw [upd_upd, lift_comm] at h2
  obtain ⟨s3, e3, h3⟩ := drop_apar h2
  exact ⟨s3, by simp [stackAssignMove, e1, e2, e3], h3⟩

theorem queueAssignCopy_ok {s : St α} {τ : Nat → Option (Sq α)} (h : Ok triv s τ) {k j p q} (hk : τ k = some p)
    (hj : τ j = some q) (hne : q.xs ≠ []) :
    ∃ s', queueAssignCopy triv s (.user k) (.user j) = .ok s' ∧ Ok triv s' (upd τ k (some (Sq.nil.pushAll q.xs))) := by
  obtain ⟨γ, h⟩ := h
  obtain ⟨s1, γ1, e1, h1⟩ := copy_ok h (k := .apar) (j := .user j) rfl hj hne
  obtain ⟨s2, γ2, e2, h2⟩ := genericSwap_ok h1 (k := .apar) (j := .user k) (by intro e; cases e) (by intro e; cases e)
    (by intro e; cases e) (by intro e; cases e) (by rw [upd_ne _ _ (by intro e; cases e)]; rfl)
    (by rw [upd_ne _ _ (by intro e; cases e)]; rfl) (upd_same _ _ _)
    (by rw [upd_ne _ _ (by intro e; cases e)]; exact hk)
  rw [upd_upd, lift_comm] at h2
  obtain ⟨s3, e3, h3⟩ := drop_apar h2
  exact ⟨s3, by simp [queueAssignCopy, e1, e2, e3], h3⟩

theorem queueAssignMove_ok {s : St α} {τ : Nat → Option (Sq α)} (h : Ok triv s τ) {k j p q} (hk : τ k = some p)
    (hj : τ j = some q) :
    ∃ s', queueAssignMove triv s (.user k) (.user j) = .ok s' ∧ Ok triv s' (upd (upd τ j (some Sq.nil)) k (some q)) := by
  obtain ⟨γ, h⟩ := h
  obtain ⟨s1, e1, h1⟩ := move_ok h (k := .apar) (j := .user j) rfl hj
  rw [lift_upd] at h1
  have hk' : ∃ p', upd τ j (some Sq.nil) k = some p' := by
    by_cases e : k = j
    · subst e; exact ⟨_, upd_same _ _ _⟩
    · exact ⟨p, by rw [upd_ne _ _ e]; exact hk⟩
  obtain ⟨p', hk'⟩ := hk'
  obtain ⟨s2, γ2, e2, h2⟩ := genericSwap_ok h1 (k := .apar) (j := .user k) (by intro e; cases e) (by intro e; cases e)
    (by intro e; cases e) (by intro e; cases e) (by rw [upd_ne _ _ (by intro e; cases e)]; rfl)
    (by rw [upd_ne _ _ (by intro e; cases e)]; rfl) (upd_same _ _ _)
    (by rw [upd_ne _ _ (by intro e; cases e)]; exact hk')
  rw [upd_upd, lift_comm] at h2
  obtain ⟨s3, e3, h3⟩ := drop_apar h2
  exact ⟨s3, by simp [queueAssignMove, e1, e2, e3], h3⟩

/-- The step function of the adaptor. -/
def astep (lifo triv : Bool) (s : St α) (o : AOp α) : Res (St α) := if lifo then stackStep triv s o else queueStep triv s o

theorem astep_ok {lifo} {s : St α} {τ : Nat → Option (Sq α)} {o : AOp α} {l'} (h : Ok triv s τ)
    (hs : ASpec.step lifo (aer lifo τ) o = some l') :
    ∃ s' τ', astep lifo triv s o = .ok s' ∧ Ok triv s' τ' ∧ aer lifo τ' = l' := by
  have hh := h
  obtain ⟨γ, h⟩ := h
  cases o with
  | make k =>
    simp only [ASpec.step] at hs
    split at hs
    · rename_i hk; cases hs
      obtain ⟨s', e, h'⟩ := make_ok h (k := .user k) (aer_none hk)
      refine ⟨s', upd τ k (some Sq.nil), ?_, ⟨_, by rw [← lift_upd]; exact h'⟩, ?_⟩
      · cases lifo <;> exact e
      · rw [aer_upd]; cases lifo <;> rfl
    · cases hs
  | copy k j =>
    simp only [ASpec.step] at hs
    split at hs
    · rename_i x xs hk hj; cases hs
      obtain ⟨q, hq, hx⟩ := aer_some hj
      obtain ⟨s', γ', e, h'⟩ := copy_ok h (k := .user k) (j := .user j) (aer_none hk) hq (view_ne hx)
      refine ⟨s', upd τ k (some (Sq.nil.pushAll q.xs)), ?_, ⟨_, by rw [← lift_upd]; exact h'⟩, ?_⟩
      · cases lifo <;> exact e
      · rw [aer_upd]; simp [view_pushAll, hx]
    · cases hs
  | move k j =>
    simp only [ASpec.step] at hs
    split at hs
    · rename_i xs hk hj; cases hs
      obtain ⟨q, hq, hx⟩ := aer_some hj
      obtain ⟨s', e, h'⟩ := move_ok h (k := .user k) (j := .user j) (aer_none hk) hq
      refine ⟨s', upd (upd τ j (some Sq.nil)) k (some q), ?_, ⟨_, by rw [← lift_upd, ← lift_upd]; exact h'⟩, ?_⟩
      · cases lifo <;> exact e
      · rw [aer_upd, aer_upd]; cases lifo <;> simp [← hx, view, Sq.nil]
    · cases hs
  | destroy k =>
    simp only [ASpec.step] at hs
    split at hs
    · rename_i xs hk; cases hs
      obtain ⟨q, hq, hx⟩ := aer_some hk
      obtain ⟨s', e, h'⟩ := destroy_ok h (k := .user k) hq
      refine ⟨s', upd τ k none, ?_, ⟨_, by rw [← lift_upd]; exact h'⟩, ?_⟩
      · cases lifo <;> exact e
      · rw [aer_upd]; rfl
    · cases hs
  | assignCopy k j =>
    simp only [ASpec.step] at hs
    split at hs
    · rename_i ys x xs hk hj; cases hs
      obtain ⟨q, hq, hx⟩ := aer_some hj
      obtain ⟨p, hp, hy⟩ := aer_some hk
      have : aer lifo (upd τ k (some (Sq.nil.pushAll q.xs))) = upd (aer lifo τ) k (some (x :: xs)) := by
        rw [aer_upd]; simp [view_pushAll, hx]
      cases lifo with
      | true =>
        obtain ⟨s', e, h'⟩ := stackAssignCopy_ok hh hp hq (view_ne hx)
        exact ⟨s', _, e, h', this⟩
      | false =>
        obtain ⟨s', e, h'⟩ := queueAssignCopy_ok hh hp hq (view_ne hx)
        exact ⟨s', _, e, h', this⟩
    · cases hs
  | assignMove k j =>
    simp only [ASpec.step] at hs
    split at hs
    · rename_i ys xs hk hj; cases hs
      obtain ⟨q, hq, hx⟩ := aer_some hj
      obtain ⟨p, hp, hy⟩ := aer_some hk
      have : aer lifo (upd (upd τ j (some Sq.nil)) k (some q)) = upd (upd (aer lifo τ) j (some [])) k (some xs) := by
        rw [aer_upd, aer_upd]; cases lifo <;> simp [← hx, view, Sq.nil]
      cases lifo with
      | true =>
        obtain ⟨s', e, h'⟩ := stackAssignMove_ok hh hp hq
        exact ⟨s', _, e, h', this⟩
      | false =>
        obtain ⟨s', e, h'⟩ := queueAssignMove_ok hh hp hq
        exact ⟨s', _, e, h', this⟩
    · cases hs
  | swap k j =>
    simp only [ASpec.step] at hs
    split at hs
    · rename_i xs ys hk hj; cases hs
      obtain ⟨q, hq, hx⟩ := aer_some hj
      obtain ⟨p, hp, hy⟩ := aer_some hk
      have : aer lifo (upd (upd τ k (some q)) j (some p)) = upd (upd (aer lifo τ) k (some ys)) j (some xs) := by
        rw [aer_upd, aer_upd]; simp [hx, hy]
      cases lifo with
      | true =>
        obtain ⟨s', e, h'⟩ := swap_ok h (k := .user k) (j := .user j) hp hq
        exact ⟨s', _, e, ⟨_, by rw [← lift_upd, ← lift_upd]; exact h'⟩, this⟩
      | false =>
        obtain ⟨s', γ', e, h'⟩ := genericSwap_ok h (k := .user k) (j := .user j) (by intro e; cases e) (by intro e; cases e)
          (by intro e; cases e) (by intro e; cases e) rfl rfl hp hq
        exact ⟨s', _, e, ⟨_, by rw [← lift_upd, ← lift_upd]; exact h'⟩, this⟩
    · cases hs
  | push k v =>
    simp only [ASpec.step] at hs
    split at hs
    · rename_i xs hk; cases hs
      obtain ⟨q, hq, hx⟩ := aer_some hk
      obtain ⟨s', γ', e, h'⟩ := emplaceBack_ok h (k := .user k) hq (x := .val v) rfl
      refine ⟨s', upd τ k (some (q.pushBack v)), ?_, ⟨_, by rw [← lift_upd]; exact h'⟩, ?_⟩
      · cases lifo <;> exact e
      · rw [aer_upd]; cases lifo <;> simp [← hx, view, Sq.pushBack]
    · cases hs
  | pop k =>
    simp only [ASpec.step] at hs
    split at hs
    · rename_i x xs hk; cases hs
      obtain ⟨q, hq, hx⟩ := aer_some hk
      cases lifo with
      | true =>
        obtain ⟨q', hq'⟩ := Sq.popBack_some (view_ne hx)
        obtain ⟨s', e, h'⟩ := popBack_ok h (k := .user k) hq hq'
        refine ⟨s', upd τ k (some q'), e, ⟨_, by rw [← lift_upd]; exact h'⟩, ?_⟩
        obtain ⟨y, ys, e1, e2⟩ := Sq.popBack_xs hq'
        rw [aer_upd]
        have : view true q' = xs := by
          simp only [view, if_true] at hx ⊢
          rw [e2, ← e1]
          have : q.xs = xs.reverse ++ [x] := by
            rw [← List.reverse_reverse q.xs, hx]; simp
          rw [this]; simp
        simp [this]
      | false =>
        obtain ⟨q', hq'⟩ := Sq.popFront_some (view_ne hx)
        obtain ⟨s', e, h'⟩ := popFront_ok h (k := .user k) hq hq'
        refine ⟨s', upd τ k (some q'), e, ⟨_, by rw [← lift_upd]; exact h'⟩, ?_⟩
        obtain ⟨y, e1⟩ := Sq.popFront_xs hq'
        rw [aer_upd]
        have : view false q' = xs := by
          simp only [view, Bool.false_eq_true, if_false] at hx ⊢
          rw [hx] at e1; cases e1; rfl
        simp [this]
    · cases hs

/-- A history of the adaptor. -/
def arun (lifo triv : Bool) (s : St α) (os : List (AOp α)) : Res (St α) :=
  if lifo then stackRun triv s os else queueRun triv s os

theorem arun_cons (lifo triv : Bool) (s : St α) (o : AOp α) (os) :
    arun lifo triv s (o :: os) = (do let s ← astep lifo triv s o; arun lifo triv s os) := by
  cases lifo <;> rfl

theorem arun_ok (lifo : Bool) (os : List (AOp α)) : ∀ {s : St α} {τ : Nat → Option (Sq α)} {l'}, Ok triv s τ →
    ASpec.run lifo (aer lifo τ) os = some l' →
    ∃ s' τ', arun lifo triv s os = .ok s' ∧ Ok triv s' τ' ∧ aer lifo τ' = l' := by
  induction os with
  | nil =>
    intro s τ l' h hs; cases hs
    exact ⟨s, τ, by cases lifo <;> rfl, h, rfl⟩
  | cons o os ih =>
    intro s τ l' h hs
    simp only [ASpec.run, Option.bind_eq_some_iff] at hs
    obtain ⟨l1, h1, h2⟩ := hs
    obtain ⟨s1, τ1, e1, o1, rfl⟩ := astep_ok h h1
    obtain ⟨s2, τ2, e2, o2, e3⟩ := ih o1 h2
    exact ⟨s2, τ2, by rw [arun_cons, e1]; exact e2, o2, e3⟩

end Verif.Deque
