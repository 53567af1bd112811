import Verif.Model.Defer
import Verif.Lemmas.Box

/-! Property C50: `defer`. -/

set_option backward.isDefEq.respectTransparency false

namespace Verif.Defer
open Verif Verif.Box

/-- What a user thinks of: which action each existing defer object stands for, the actions
given so far, the actions dismissed, and the actions whose scope has ended (newest
first). -/
structure Spec where
  hold : Nat → Option Nat
  used : List Nat
  dismissed : List Nat
  ended : List Nat

/-- Nothing exists. -/
def Spec.init : Spec := ⟨fun _ => none, [], [], []⟩

/-- The meaning of a call; every action is given once. -/
def Spec.step (a : Spec) : Op → Option Spec
  | .make k x => if a.hold k = none ∧ x ∉ a.used then some { a with hold := upd a.hold k (some x), used := x :: a.used } else none
  | .dismiss k => match a.hold k with
    | some x => some { a with dismissed := x :: a.dismissed }
    | none => none
  | .dtor k => match a.hold k with
    | some x => some { a with hold := upd a.hold k none, ended := x :: a.ended }
    | none => none
  | .swap k j => match a.hold k, a.hold j with
    | some x, some y => some { a with hold := upd (upd a.hold k (some y)) j (some x) }
    | _, _ => none

/-- The meaning of a history. -/
def Spec.run (a : Spec) : List Op → Option Spec
  | [] => some a
  | o :: os => match a.step o with
    | some a => a.run os
    | none => none

/-- The state of the code represents the state the user thinks of. -/
structure Rep (s : St) (a : Spec) : Prop where
  obj : ∀ k, s.obj (.user k) = (a.hold k).map fun x => ⟨x, decide (x ∈ a.dismissed)⟩
  ran : s.ran = a.ended.filter (fun x => decide (x ∉ a.dismissed))
  inj : ∀ k j x, a.hold k = some x → a.hold j = some x → k = j
  used : ∀ k x, a.hold k = some x → x ∈ a.used ∧ x ∉ a.ended
  dis : ∀ x, x ∈ a.dismissed → x ∈ a.used
  endu : ∀ x, x ∈ a.ended → x ∈ a.used
  nodup : a.ended.Nodup

theorem find_ok {s : St} {a : Spec} (hr : Rep s a) {k x : Nat} (hk : a.hold k = some x) :
    find s (.user k) = .ok ⟨x, decide (x ∈ a.dismissed)⟩ := by
  simp [find, hr.obj, hk]

theorem step_rep {s : St} {a a' : Spec} (hr : Rep s a) {o : Op} (h : a.step o = some a') : ∃ s', step s o = .ok s' ∧ Rep s' a' := by
  cases o with
  | make k x =>
    simp only [Spec.step] at h
    split at h <;> cases h
    rename_i hc
    refine ⟨{ s with obj := upd s.obj (.user k) (some ⟨x, false⟩) }, by simp [step, ctor, create, hr.obj, hc.1], ?_, hr.ran, ?_, ?_, ?_, ?_,
      hr.nodup⟩
    · intro j
      by_cases e : j = k
      · subst e
        have : x ∉ a.dismissed := fun hd => hc.2 (hr.dis x hd)
        simp [upd, this]
      · simp [upd, e, hr.obj]
    · intro i j y hi hj
      by_cases e : i = k
      · by_cases e' : j = k
        · rw [e, e']
        · subst e; simp [upd] at hi; simp [upd, e'] at hj; subst hi
          exact absurd (hr.used j _ hj).1 hc.2
      · by_cases e' : j = k
        · subst e'; simp [upd] at hj; simp [upd, e] at hi; subst hj
          exact absurd (hr.used i _ hi).1 hc.2
        · exact hr.inj i j y (by simpa [upd, e] using hi) (by simpa [upd, e'] using hj)
    · intro i y hi
      by_cases e : i = k
      · subst e; simp [upd] at hi; subst hi
        exact ⟨by simp, fun he => hc.2 (hr.endu _ he)⟩
      · have := hr.used i y (by simpa [upd, e] using hi)
        exact ⟨by simp [this.1], this.2⟩
    · intro y hy; simp [hr.dis y hy]
    · intro y hy; simp [hr.endu y hy]
  | dismiss k =>
    simp only [Spec.step] at h
    split at h <;> cases h
    rename_i x hk
    refine ⟨{ s with obj := upd s.obj (.user k) (some ⟨x, true⟩) }, by simp only [step, dismiss, find_ok hr hk, Res.ok_bind], ?_, ?_, hr.inj,
      hr.used, ?_, hr.endu, hr.nodup⟩
    · intro j
      by_cases e : j = k
      · subst e; simp [upd, hk]
      · simp only [upd, Slot.user.injEq, if_neg e, hr.obj]
        cases hj : a.hold j with
        | none => rfl
        | some y =>
          have : y ≠ x := by rintro rfl; exact e (hr.inj _ _ _ hj hk)
          simp [this]
    · show s.ran = a.ended.filter _
      rw [hr.ran]
      apply List.filter_congr
      intro y hy
      have : y ≠ x := by rintro rfl; exact (hr.used k _ hk).2 hy
      simp [this]
    · intro y hy
      rcases List.mem_cons.1 hy with rfl | hy
      · exact (hr.used k _ hk).1
      · exact hr.dis y hy
  | dtor k =>
    simp only [Spec.step] at h
    split at h <;> cases h
    rename_i x hk
    refine ⟨⟨upd s.obj (.user k) none, if !decide (x ∈ a.dismissed) then x :: s.ran else s.ran⟩,
      by simp only [step, dtor, find_ok hr hk, Res.ok_bind], ?_, ?_, ?_, ?_, hr.dis, ?_, ?_⟩
    · intro j
      by_cases e : j = k
      · subst e; simp [upd]
      · simp [upd, e, hr.obj]
    · show (if !decide (x ∈ a.dismissed) then x :: s.ran else s.ran) = (x :: a.ended).filter _
      rw [hr.ran, List.filter_cons]
      by_cases e : x ∈ a.dismissed <;> simp [e]
    · intro i j y hi hj
      have e : i ≠ k := by intro e; subst e; simp [upd] at hi
      have e' : j ≠ k := by intro e; subst e; simp [upd] at hj
      exact hr.inj i j y (by simpa [upd, e] using hi) (by simpa [upd, e'] using hj)
    · intro i y hi
      have e : i ≠ k := by intro e; subst e; simp [upd] at hi
      have hi2 : a.hold i = some y := by simpa [upd, e] using hi
      refine ⟨(hr.used i y hi2).1, ?_⟩
      intro hm
      rcases List.mem_cons.1 hm with e2 | hm
      · rw [e2] at hi2; exact e (hr.inj _ _ _ hi2 hk)
      · exact (hr.used i y hi2).2 hm
    · intro y hy
      rcases List.mem_cons.1 hy with rfl | hy
      · exact (hr.used k _ hk).1
      · exact hr.endu y hy
    · exact List.nodup_cons.2 ⟨(hr.used k x hk).2, hr.nodup⟩
  | swap k j =>
    simp only [Spec.step] at h
    split at h <;> cases h
    rename_i x y hk hj
    refine ⟨{ s with obj := upd (upd s.obj (.user k) (some ⟨y, decide (y ∈ a.dismissed)⟩)) (.user j) (some ⟨x, decide (x ∈ a.dismissed)⟩) },
      by simp only [step, swap, find_ok hr hk, find_ok hr hj, Res.ok_bind], ?_, hr.ran, ?_, ?_, hr.dis, hr.endu, hr.nodup⟩
    · intro i
      by_cases e : i = j
      · subst e; simp [upd]
      · by_cases e' : i = k
        · subst e'; simp [upd, e]
        · simp [upd, e, e', hr.obj]
    · intro i i' z hi hi'
      have old : ∀ n, upd (upd a.hold k (some y)) j (some x) n = some z → a.hold (if n = j then k else if n = k then j else n) = some z := by
        intro n hn
        by_cases e : n = j
        · subst e; simp [upd] at hn; simp [hk, hn]
        · by_cases e' : n = k
          · subst e'; simp [upd, e] at hn; simp [e, hj, hn]
          · simp [upd, e, e'] at hn; simp [e, e', hn]
      have := hr.inj _ _ z (old i hi) (old i' hi')
      by_cases e1 : i = j <;> by_cases e2 : i' = j <;> by_cases e3 : i = k <;> by_cases e4 : i' = k <;> simp_all
    · intro i z hi
      by_cases e : i = j
      · subst e; simp [upd] at hi; subst hi; exact hr.used k _ hk
      · by_cases e' : i = k
        · subst e'; simp [upd, e] at hi; subst hi; exact hr.used j _ hj
        · exact hr.used i z (by simpa [upd, e, e'] using hi)

theorem run_rep {s : St} {a a' : Spec} (hr : Rep s a) {os : List Op} (h : a.run os = some a') : ∃ s', run s os = .ok s' ∧ Rep s' a' := by
  induction os generalizing s a with
  | nil => cases h; exact ⟨s, rfl, hr⟩
  | cons o os ih =>
    simp only [Spec.run] at h
    split at h
    · rename_i a1 h1
      obtain ⟨s1, e1, r1⟩ := step_rep hr h1
      obtain ⟨s2, e2, r2⟩ := ih r1 h
      exact ⟨s2, by simp only [run, e1, Res.ok_bind, e2], r2⟩
    · cases h

theorem rep_init : Rep St.init Spec.init := by
  constructor <;> simp [St.init, Spec.init]

/-- C50 (partial: defer objects are created, dismissed, swapped and destroyed, but not
copied, moved or assigned). In every history every action runs exactly once if its scope has
ended and it was not dismissed, and not at all otherwise; the actions run in the order in
which their scopes end. -/
theorem C50_once_partial (os : List Op) (a : Spec) (h : Spec.init.run os = some a) :
    ∃ s, run St.init os = .ok s ∧ s.ran.Sublist a.ended ∧
      ∀ x, s.ran.count x = if x ∈ a.ended ∧ x ∉ a.dismissed then 1 else 0 := by
  obtain ⟨s, e, r⟩ := run_rep rep_init h
  refine ⟨s, e, by rw [r.ran]; exact List.filter_sublist, ?_⟩
  intro x
  rw [r.ran]
  by_cases hd : x ∈ a.dismissed
  · rw [if_neg (by simp [hd]), List.count_eq_zero]
    simp [hd]
  · rw [List.count_filter (by simp [hd])]
    by_cases he : x ∈ a.ended
    · rw [if_pos ⟨he, hd⟩]
      rw [r.nodup.count, if_pos he]
    · rw [if_neg (by simp [he]), List.count_eq_zero]
      exact he

theorem dtor_eq {s : St} {k : Slot} {a : Nat} (h : s.obj k = some ⟨a, false⟩) : dtor s k = .ok ⟨upd s.obj k none, a :: s.ran⟩ := by
  simp [dtor, find, h]

theorem create_eq {s : St} {k : Slot} {o : Obj} (h : s.obj k = none) : create s k o = .ok { s with obj := upd s.obj k (some o) } := by
  simp only [create, h]

theorem find_eq {s : St} {k : Slot} {o : Obj} (h : s.obj k = some o) : find s k = .ok o := by
  simp only [find, h]

/-- C50 is violated: the action of a copied defer object runs twice. -/
theorem C50_violated_copy (s : St) (k j a : Nat) (hne : k ≠ j) (hk : s.obj (.user k) = none) (hj : s.obj (.user j) = some ⟨a, false⟩) :
    ∃ s1 s2 s3, copyCtor s (.user k) (.user j) = .ok s1 ∧ dtor s1 (.user k) = .ok s2 ∧ dtor s2 (.user j) = .ok s3 ∧
      s3.ran = a :: a :: s.ran := by
  refine ⟨{ s with obj := upd s.obj (.user k) (some ⟨a, false⟩) }, _, _, by rw [copyCtor, find_eq hj]; exact create_eq hk, dtor_eq (a := a) (by simp [upd]),
    dtor_eq (a := a) (by simp [upd, Ne.symm hne, hj]), rfl⟩

/-- C50 is violated: moving a defer object whose function object has members (for example
captures) is undefined behaviour. -/
theorem C50_violated_move_state (s : St) (k j : Slot) : moveCtor true s k j = .ub ∧ assignMove true s k j = .ub := by
  have h : ∀ k, moveCtor true s k j = .ub := by
    intro k
    cases h : s.obj j <;> simp [moveCtor, find, h]
  exact ⟨h k, by simp only [assignMove, h, Res.ub_bind]⟩

/-- C50 is violated: otherwise the action of a moved defer object runs twice, and once even if
the object it was moved to is dismissed. -/
theorem C50_violated_move (s : St) (k j a : Nat) (hne : k ≠ j) (hk : s.obj (.user k) = none) (hj : s.obj (.user j) = some ⟨a, false⟩) :
    (∃ s1 s2 s3, moveCtor false s (.user k) (.user j) = .ok s1 ∧ dtor s1 (.user j) = .ok s2 ∧ dtor s2 (.user k) = .ok s3 ∧
      s3.ran = a :: a :: s.ran) ∧
    ∃ s1 s2 s3, moveCtor false s (.user k) (.user j) = .ok s1 ∧ dismiss s1 (.user k) = .ok s2 ∧ dtor s2 (.user j) = .ok s3 ∧
      s3.ran = a :: s.ran := by
  have h1 : moveCtor false s (.user k) (.user j) = .ok { s with obj := upd s.obj (.user k) (some ⟨a, false⟩) } := by
    rw [moveCtor, find_eq hj]; exact create_eq hk
  refine ⟨⟨_, _, _, h1, dtor_eq (a := a) (by simp [upd, Ne.symm hne, hj]), dtor_eq (a := a) (by simp [upd, hne]), rfl⟩,
    ⟨_, { s with obj := upd (upd s.obj (.user k) (some ⟨a, false⟩)) (.user k) (some ⟨a, true⟩) }, _, h1, ?_,
      dtor_eq (a := a) (by simp [upd, Ne.symm hne, hj]), rfl⟩⟩
  rw [dismiss, find_eq (o := ⟨a, false⟩) (by simp [upd])]; rfl

/-- C50 is violated: assigning runs the action of the assigned object at once and then the
other action twice. -/
theorem C50_violated_assign (s : St) (k j a b : Nat) (hne : k ≠ j) (ht : s.obj .temp = none) (hk : s.obj (.user k) = some ⟨b, false⟩)
    (hj : s.obj (.user j) = some ⟨a, false⟩) :
    ∃ s1 s2 s3, assignCopy s (.user k) (.user j) = .ok s1 ∧ s1.ran = b :: s.ran ∧ dtor s1 (.user k) = .ok s2 ∧
      dtor s2 (.user j) = .ok s3 ∧ s3.ran = a :: a :: b :: s.ran := by
  have h1 : assignCopy s (.user k) (.user j) = .ok ⟨upd (upd (upd (upd s.obj .temp (some ⟨a, false⟩)) .temp (some ⟨b, false⟩)) (.user k)
      (some ⟨a, false⟩)) .temp none, b :: s.ran⟩ := by
    simp only [assignCopy, copyCtor, swap, find_eq hj, create_eq ht, Res.ok_bind]
    rw [find_eq (k := .temp) (o := ⟨a, false⟩) (by simp [upd]), find_eq (k := .user k) (o := ⟨b, false⟩) (by simp [upd, hk])]
    simp only [Res.ok_bind]
    exact dtor_eq (a := b) (by simp [upd])
  exact ⟨_, _, _, h1, rfl, dtor_eq (a := a) (by simp [upd]), dtor_eq (a := a) (by simp [upd, Ne.symm hne, hj]), rfl⟩

/- Examples. -/
example : ∃ s a, Spec.init.run [.make 0 10, .make 1 11, .make 2 12, .dismiss 1, .swap 0 1, .dtor 2, .dtor 1, .dtor 0] = some a ∧
    run St.init [.make 0 10, .make 1 11, .make 2 12, .dismiss 1, .swap 0 1, .dtor 2, .dtor 1, .dtor 0] = .ok s ∧ s.ran = [10, 12] :=
  ⟨_, _, rfl, rfl, rfl⟩

example : ∃ s1 s2 s3 s, run St.init [.make 0 7] = .ok s ∧ copyCtor s (.user 1) (.user 0) = .ok s1 ∧ dtor s1 (.user 1) = .ok s2 ∧
    dtor s2 (.user 0) = .ok s3 ∧ s3.ran = [7, 7] := ⟨_, _, _, _, rfl, rfl, rfl, rfl, rfl⟩

example : ∃ s s1, run St.init [.make 0 7, .make 1 8] = .ok s ∧ assignCopy s (.user 1) (.user 0) = .ok s1 ∧ s1.ran = [8] :=
  ⟨_, _, rfl, rfl, rfl⟩

example : ∃ s, run St.init [.make 0 7] = .ok s ∧ moveCtor true s (.user 1) (.user 0) = .ub := ⟨_, rfl, rfl⟩

end Verif.Defer
