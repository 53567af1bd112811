import Verif.Lemmas.DequeLife

/-! Histories of calls: deques, stacks, queues. -/

set_option backward.isDefEq.respectTransparency false

namespace Verif.Deque
open Verif
open Verif.Box (upd upd_same upd_ne upd_upd upd_comm upd_self)

variable {α : Type} {triv : Bool}

/-- The deques of the program; temporaries are dead between calls. -/
def lift (τ : Nat → Option (Sq α)) : Slot → Option (Sq α)
  | .user n => τ n
  | _ => none

theorem lift_upd (τ : Nat → Option (Sq α)) (k : Nat) (o : Option (Sq α)) : upd (lift τ) (.user k) o = lift (upd τ k o) := by
  funext x
  cases x with
  | user n =>
    by_cases h : n = k
    · subst h; rw [upd_same]; exact (upd_same τ n o).symm
    · rw [upd_ne _ _ (by intro e; cases e; exact h rfl)]; exact (upd_ne τ o h).symm
  | par => exact upd_ne _ _ (by intro e; cases e)
  | loc => exact upd_ne _ _ (by intro e; cases e)
  | apar => exact upd_ne _ _ (by intro e; cases e)

/-- The state represents the deques `τ`, and nothing else is alive. -/
def Ok (triv : Bool) (s : St α) (τ : Nat → Option (Sq α)) : Prop := ∃ γ, Inv triv s (lift τ) γ

/-- A temporary that dies: nothing of it remains. -/
theorem upd_dead (τ : Nat → Option (Sq α)) (x : Slot) (o : Option (Sq α)) (h : ∀ n, x ≠ .user n) :
    upd (upd (lift τ) x o) x none = lift τ := by
  rw [upd_upd]
  have : lift τ x = none := by cases x with
    | user n => exact absurd rfl (h n)
    | par => rfl
    | loc => rfl
    | apar => rfl
  rw [← this, upd_self]

/-! ### Assignment -/

/-- Swapping a temporary into `k` and destroying it. -/
theorem swapDestroy_ok {s : St α} {σ γ} {t k : Slot} {p q} (htk : t ≠ k) (h : Inv triv s (upd σ t (some q)) γ) (hk : σ k = some p) :
    ∃ s1 s', swap s t k = .ok s1 ∧ destroy triv s1 t = .ok s' ∧
      Inv triv s' (upd (upd σ k (some q)) t none) (upd (fun x => γ (tr t k x)) t (none, [])) := by
  obtain ⟨s1, e1, h1⟩ := swap_ok h (k := t) (j := k) (upd_same _ _ _) (by rw [upd_ne _ _ (Ne.symm htk)]; exact hk)
  rw [upd_upd, upd_comm _ _ _ htk] at h1
  obtain ⟨s2, e2, h2⟩ := destroy_ok h1 (upd_same _ _ _)
  rw [upd_upd] at h2
  exact ⟨s1, s2, e1, e2, h2⟩

theorem assignMove_ok {s : St α} {σ γ} (h : Inv triv s σ γ) {k j p q} (hpk : .par ≠ k) (hpj : .par ≠ j)
    (hpar : σ .par = none) (hk : σ k = some p) (hj : σ j = some q) :
    ∃ s', assignMove triv s k j = .ok s' ∧ Inv triv s' (upd (upd σ j (some Sq.nil)) k (some q))
      (upd (fun x => γ (tr j .par (tr .par k x))) .par (none, [])) := by
  obtain ⟨s1, e1, h1⟩ := move_ok h hpar hj
  have hk' : ∃ p', upd σ j (some Sq.nil) k = some p' := by
    by_cases e : k = j
    · subst e; exact ⟨_, upd_same _ _ _⟩
    · exact ⟨p, by rw [upd_ne _ _ e]; exact hk⟩
  obtain ⟨p', hk'⟩ := hk'
  obtain ⟨s2, s3, e2, e3, h3⟩ := swapDestroy_ok hpk h1 hk'
  refine ⟨s3, by simp [assignMove, e1, assignPar, e2, e3], ?_⟩
  have : upd (upd (upd σ j (some Sq.nil)) k (some q)) .par none = upd (upd σ j (some Sq.nil)) k (some q) := by
    have h0 : upd (upd σ j (some Sq.nil)) k (some q) .par = none := by
      rw [upd_ne _ _ hpk, upd_ne _ _ hpj]; exact hpar
    conv => lhs; rw [← h0]
    rw [upd_self]
  rw [this] at h3
  exact h3

theorem assignCopy_ok {s : St α} {σ γ} (h : Inv triv s σ γ) {k j p q} (hpk : .par ≠ k)
    (hpar : σ .par = none) (hk : σ k = some p) (hj : σ j = some q) (hne : q.xs ≠ []) :
    ∃ s' g, assignCopy triv s k j = .ok s' ∧ Inv triv s' (upd σ k (some (Sq.nil.pushAll q.xs)))
      (upd (fun x => upd γ .par g (tr .par k x)) .par (none, [])) := by
  obtain ⟨s1, γ1, e1, h1⟩ := copy_ok h hpar hj hne
  obtain ⟨s2, s3, e2, e3, h3⟩ := swapDestroy_ok hpk h1 hk
  refine ⟨s3, γ1, by simp [assignCopy, e1, assignPar, e2, e3], ?_⟩
  have : upd (upd σ k (some (Sq.nil.pushAll q.xs))) .par none = upd σ k (some (Sq.nil.pushAll q.xs)) := by
    have h0 : upd σ k (some (Sq.nil.pushAll q.xs)) .par = none := by
      rw [upd_ne _ _ hpk]; exact hpar
    conv => lhs; rw [← h0]
    rw [upd_self]
  rw [this] at h3
  exact h3

theorem genericSwap_ok {s : St α} {σ γ} (h : Inv triv s σ γ) {k j p q} (hpk : .par ≠ k) (hpj : .par ≠ j)
    (hlk : .loc ≠ k) (hlj : .loc ≠ j) (hpar : σ .par = none) (hloc : σ .loc = none) (hk : σ k = some p) (hj : σ j = some q) :
    ∃ s' γ', genericSwap triv s k j = .ok s' ∧ Inv triv s' (upd (upd σ k (some q)) j (some p)) γ' := by
  obtain ⟨s1, e1, h1⟩ := move_ok h hloc hk
  -- σ1 = upd (upd σ k nil) loc p
  have hj1 : ∃ qj, upd (upd σ k (some Sq.nil)) .loc (some p) j = some qj ∧ (j ≠ k → qj = q) := by
    rw [upd_ne _ _ (Ne.symm hlj)]
    by_cases e : j = k
    · subst e; exact ⟨_, upd_same _ _ _, fun h => absurd rfl h⟩
    · exact ⟨q, by rw [upd_ne _ _ e]; exact hj, fun _ => rfl⟩
  obtain ⟨qj, hj1, hjq⟩ := hj1
  have hk1 : upd (upd σ k (some Sq.nil)) .loc (some p) k = some Sq.nil := by
    rw [upd_ne _ _ (Ne.symm hlk), upd_same]
  have hpar1 : upd (upd σ k (some Sq.nil)) .loc (some p) .par = none := by
    rw [upd_ne _ _ (by intro e; cases e), upd_ne _ _ hpk]; exact hpar
  obtain ⟨s2, e2, h2⟩ := assignMove_ok h1 hpk hpj hpar1 hk1 hj1
  -- σ2 = upd (upd σ1 j nil) k qj
  have hpar2 : upd (upd (upd (upd σ k (some Sq.nil)) .loc (some p)) j (some Sq.nil)) k (some qj) .par = none := by
    rw [upd_ne _ _ hpk, upd_ne _ _ hpj]; exact hpar1
  have hloc2 : upd (upd (upd (upd σ k (some Sq.nil)) .loc (some p)) j (some Sq.nil)) k (some qj) .loc = some p := by
    rw [upd_ne _ _ hlk, upd_ne _ _ hlj, upd_same]
  have hj2 : ∃ r, upd (upd (upd (upd σ k (some Sq.nil)) .loc (some p)) j (some Sq.nil)) k (some qj) j = some r := by
    by_cases e : j = k
    · subst e; exact ⟨_, upd_same _ _ _⟩
    · exact ⟨_, by rw [upd_ne _ _ e, upd_same]⟩
  obtain ⟨r, hj2⟩ := hj2
  obtain ⟨s3, e3, h3⟩ := assignMove_ok h2 (k := j) (j := .loc) hpj (by intro e; cases e) hpar2 hj2 hloc2
  obtain ⟨s4, e4, h4⟩ := destroy_ok h3 (k := .loc) (q := Sq.nil) (by rw [upd_ne _ _ hlj, upd_same])
  have : upd (upd (upd (upd (upd (upd (upd σ k (some Sq.nil)) .loc (some p)) j (some Sq.nil)) k (some qj)) .loc (some Sq.nil)) j (some p)) .loc none
      = upd (upd σ k (some q)) j (some p) := by
    funext x
    by_cases x1 : x = .loc
    · subst x1
      rw [upd_same, upd_ne _ _ hlj, upd_ne _ _ hlk]; exact hloc.symm
    · rw [upd_ne _ _ x1]
      by_cases x2 : x = j
      · subst x2; rw [upd_same, upd_same]
      · rw [upd_ne _ _ x2, upd_ne _ _ x1, upd_ne _ _ x2]
        by_cases x3 : x = k
        · subst x3
          rw [upd_same, upd_same, hjq (Ne.symm x2)]
        · rw [upd_ne _ _ x3, upd_ne _ _ x2, upd_ne _ _ x1, upd_ne _ _ x3, upd_ne _ _ x3]
  rw [this] at h4
  exact ⟨s4, _, by simp [genericSwap, e1, e2, e3, e4], h4⟩

/-! ### Specification of deque histories, with layout -/

/-- What each call does to sequences and layouts; `none` when a call is not allowed (a pop or
copy of an empty deque, a constructor over a live object, a missing object or element), or when
`push_front` is undefined (`Sq.pushFront`). -/
def Spec.step (τ : Nat → Option (Sq α)) : Op α → Option (Nat → Option (Sq α))
  | .make k =>
    match τ k with
    | none => some (upd τ k (some Sq.nil))
    | some _ => none
  | .initList k vs =>
    match τ k with
    | none => some (upd τ k (some (Sq.nil.pushAll vs)))
    | some _ => none
  | .copy k j =>
    match τ k, τ j with
    | none, some q => if q.xs.length = 0 then none else some (upd τ k (some (Sq.nil.pushAll q.xs)))
    | _, _ => none
  | .move k j =>
    match τ k, τ j with
    | none, some q => some (upd (upd τ j (some Sq.nil)) k (some q))
    | _, _ => none
  | .destroy k =>
    match τ k with
    | some _ => some (upd τ k none)
    | none => none
  | .assignCopy k j =>
    match τ k, τ j with
    | some _, some q => if q.xs.length = 0 then none else some (upd τ k (some (Sq.nil.pushAll q.xs)))
    | _, _ => none
  | .assignMove k j =>
    match τ k, τ j with
    | some _, some q => some (upd (upd τ j (some Sq.nil)) k (some q))
    | _, _ => none
  | .swap k j =>
    match τ k, τ j with
    | some p, some q => some (upd (upd τ k (some q)) j (some p))
    | _, _ => none
  | .pushBack k v => (τ k).map fun q => upd τ k (some (q.pushBack v))
  | .pushFront k v => (τ k).bind fun q => (q.pushFront v).map fun q' => upd τ k (some q')
  | .pushBackElem k j i =>
    (τ j).bind fun p => (p.xs[i]?).bind fun v => (τ k).map fun q => upd τ k (some (q.pushBack v))
  | .pushFrontElem k j i =>
    (τ j).bind fun p => (p.xs[i]?).bind fun v => (τ k).bind fun q => (q.pushFront v).map fun q' => upd τ k (some q')
  | .popBack k => (τ k).bind fun q => q.popBack.map fun q' => upd τ k (some q')
  | .popFront k => (τ k).bind fun q => q.popFront.map fun q' => upd τ k (some q')
  | .clear k => (τ k).map fun q => upd τ k (some q.clear)

/-- A history. -/
def Spec.run (τ : Nat → Option (Sq α)) : List (Op α) → Option (Nat → Option (Sq α))
  | [] => some τ
  | o :: os => (Spec.step τ o).bind fun τ => Spec.run τ os

theorem elemRef_ok {s : St α} {σ γ} (h : Inv triv s σ γ) {j q i v} (hj : σ j = some q) (hi : q.xs[i]? = some v) :
    ∃ x, elemRef s j i = .ok x ∧ Arg.eval s x = .ok v := by
  obtain ⟨p, hp, hl⟩ := deref_ok h hj hi
  exact ⟨.ref p, by simp [elemRef, begin_ok h hj, hp], hl⟩

theorem step_ok {s : St α} {τ τ' : Nat → Option (Sq α)} {o : Op α} (h : Ok triv s τ) (hs : Spec.step τ o = some τ') :
    ∃ s', step triv s o = .ok s' ∧ Ok triv s' τ' := by
  obtain ⟨γ, h⟩ := h
  cases o with
  | make k =>
    simp only [Spec.step] at hs
    split at hs
    · rename_i hk; cases hs
      obtain ⟨s', e, h'⟩ := make_ok h (k := .user k) hk
      exact ⟨s', e, _, by rw [← lift_upd]; exact h'⟩
    · cases hs
  | initList k vs =>
    simp only [Spec.step] at hs
    split at hs
    · rename_i hk; cases hs
      obtain ⟨s', γ', e, h'⟩ := initList_ok h (k := .user k) hk vs
      exact ⟨s', e, _, by rw [← lift_upd]; exact h'⟩
    · cases hs
  | copy k j =>
    simp only [Spec.step] at hs
    split at hs
    · rename_i q hk hj
      split at hs
      · cases hs
      · rename_i hne; cases hs
        obtain ⟨s', γ', e, h'⟩ := copy_ok h (k := .user k) (j := .user j) hk hj (by intro e; simp [e] at hne)
        exact ⟨s', e, _, by rw [← lift_upd]; exact h'⟩
    · cases hs
  | move k j =>
    simp only [Spec.step] at hs
    split at hs
    · rename_i q hk hj
      cases hs
      obtain ⟨s', e, h'⟩ := move_ok h (k := .user k) (j := .user j) hk hj
      exact ⟨s', e, _, by rw [← lift_upd, ← lift_upd]; exact h'⟩
    · cases hs
  | destroy k =>
    simp only [Spec.step] at hs
    split at hs
    · rename_i q hk
      cases hs
      obtain ⟨s', e, h'⟩ := destroy_ok h (k := .user k) hk
      exact ⟨s', e, _, by rw [← lift_upd]; exact h'⟩
    · cases hs
  | assignCopy k j =>
    simp only [Spec.step] at hs
    split at hs
    · rename_i p q hk hj
      split at hs
      · cases hs
      · rename_i hne; cases hs
        obtain ⟨s', γ', e, h'⟩ := assignCopy_ok h (k := .user k) (j := .user j) (by intro e; cases e) rfl hk hj
          (by intro e; simp [e] at hne)
        exact ⟨s', e, _, by rw [← lift_upd]; exact h'⟩
    · cases hs
  | assignMove k j =>
    simp only [Spec.step] at hs
    split at hs
    · rename_i p q hk hj
      cases hs
      obtain ⟨s', e, h'⟩ := assignMove_ok h (k := .user k) (j := .user j) (by intro e; cases e) (by intro e; cases e) rfl hk hj
      exact ⟨s', e, _, by rw [← lift_upd, ← lift_upd]; exact h'⟩
    · cases hs
  | swap k j =>
    simp only [Spec.step] at hs
    split at hs
    · rename_i p q hk hj
      cases hs
      obtain ⟨s', e, h'⟩ := swap_ok h (k := .user k) (j := .user j) hk hj
      exact ⟨s', e, _, by rw [← lift_upd, ← lift_upd]; exact h'⟩
    · cases hs
  | pushBack k v =>
    simp only [Spec.step, Option.map_eq_some_iff] at hs
    obtain ⟨q, hk, rfl⟩ := hs
    obtain ⟨s', γ', e, h'⟩ := emplaceBack_ok h (k := .user k) hk (x := .val v) rfl
    exact ⟨s', e, _, by rw [← lift_upd]; exact h'⟩
  | pushFront k v =>
    simp only [Spec.step, Option.bind_eq_some_iff, Option.map_eq_some_iff] at hs
    obtain ⟨q, hk, q', hq', rfl⟩ := hs
    obtain ⟨s', γ', e, h'⟩ := emplaceFront_ok h (k := .user k) hk (x := .val v) rfl hq'
    exact ⟨s', e, _, by rw [← lift_upd]; exact h'⟩
  | pushBackElem k j i =>
    simp only [Spec.step, Option.bind_eq_some_iff, Option.map_eq_some_iff] at hs
    obtain ⟨p, hj, v, hv, q, hk, rfl⟩ := hs
    obtain ⟨x, hx1, hx2⟩ := elemRef_ok h (j := .user j) hj hv
    obtain ⟨s', γ', e, h'⟩ := emplaceBack_ok h (k := .user k) hk hx2
    exact ⟨s', by simp [step, hx1, e], _, by rw [← lift_upd]; exact h'⟩
  | pushFrontElem k j i =>
    simp only [Spec.step, Option.bind_eq_some_iff, Option.map_eq_some_iff] at hs
    obtain ⟨p, hj, v, hv, q, hk, q', hq', rfl⟩ := hs
    obtain ⟨x, hx1, hx2⟩ := elemRef_ok h (j := .user j) hj hv
    obtain ⟨s', γ', e, h'⟩ := emplaceFront_ok h (k := .user k) hk hx2 hq'
    exact ⟨s', by simp [step, hx1, e], _, by rw [← lift_upd]; exact h'⟩
  | popBack k =>
    simp only [Spec.step, Option.bind_eq_some_iff, Option.map_eq_some_iff] at hs
    obtain ⟨q, hk, q', hq', rfl⟩ := hs
    obtain ⟨s', e, h'⟩ := popBack_ok h (k := .user k) hk hq'
    exact ⟨s', e, _, by rw [← lift_upd]; exact h'⟩
  | popFront k =>
    simp only [Spec.step, Option.bind_eq_some_iff, Option.map_eq_some_iff] at hs
    obtain ⟨q, hk, q', hq', rfl⟩ := hs
    obtain ⟨s', e, h'⟩ := popFront_ok h (k := .user k) hk hq'
    exact ⟨s', e, _, by rw [← lift_upd]; exact h'⟩
  | clear k =>
    simp only [Spec.step, Option.map_eq_some_iff] at hs
    obtain ⟨q, hk, rfl⟩ := hs
    obtain ⟨s', e, h'⟩ := clear_ok h (k := .user k) hk
    exact ⟨s', e, _, by rw [← lift_upd]; exact h'⟩

theorem run_ok (os : List (Op α)) : ∀ {s : St α} {τ τ'}, Ok triv s τ → Spec.run τ os = some τ' →
    ∃ s', run triv s os = .ok s' ∧ Ok triv s' τ' := by
  induction os with
  | nil => intro s τ τ' h hs; cases hs; exact ⟨s, rfl, h⟩
  | cons o os ih =>
    intro s τ τ' h hs
    simp only [Spec.run, Option.bind_eq_some_iff] at hs
    obtain ⟨τ1, h1, h2⟩ := hs
    obtain ⟨s1, e1, o1⟩ := step_ok h h1
    obtain ⟨s2, e2, o2⟩ := ih o1 h2
    exact ⟨s2, by simp [run, e1, e2], o2⟩

theorem Ok.init : Ok triv (St.init : St α) (fun _ => none) := by
  refine ⟨fun _ => (none, []), ?_⟩
  have : lift (fun _ => none : Nat → Option (Sq α)) = fun _ => none := by
    funext x; cases x <;> rfl
  rw [this]; exact Inv.init

end Verif.Deque
