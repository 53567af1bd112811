import Verif.Base.Box

/-! Lemmas about owning pointer members: the invariant and what each step does to the
values held. -/

set_option backward.isDefEq.respectTransparency false

namespace Verif.Box
open Verif

variable {β : Type}

/-- The value held at `k`: `none` if nothing lives there, `some none` if empty. -/
def abs (s : St β) (k : Slot) : Option (Option β) := (s.slot k).map (·.bind s.obj)

/-- Every pointer member is null or owns a live heap object alone; every heap object is
owned or has been deleted once. -/
structure Inv (s : St β) : Prop where
  live : ∀ k p, s.slot k = some (some p) → s.obj p ≠ none
  inj : ∀ k j p, s.slot k = some (some p) → s.slot j = some (some p) → k = j
  owned : ∀ p, s.obj p ≠ none → ∃ k, s.slot k = some (some p)
  bound : ∀ p, s.obj p ≠ none → p < s.next
  deadb : ∀ p, p ∈ s.dead → p < s.next ∧ s.obj p = none
  all : ∀ p, p < s.next → s.obj p = none → p ∈ s.dead
  nodup : s.dead.Nodup

theorem upd_same {α γ : Type} [DecidableEq α] (f : α → γ) (a : α) (c : γ) : upd f a c a = c := by simp [upd]

theorem upd_ne {α γ : Type} [DecidableEq α] (f : α → γ) {a b : α} (c : γ) (h : b ≠ a) : upd f a c b = f b := by
  simp [upd, h]

theorem upd_upd {α γ : Type} [DecidableEq α] (f : α → γ) (a : α) (c d : γ) : upd (upd f a c) a d = upd f a d := by
  funext x; simp only [upd]; split <;> rfl

theorem upd_comm {α γ : Type} [DecidableEq α] (f : α → γ) {a b : α} (c d : γ) (h : a ≠ b) :
    upd (upd f a c) b d = upd (upd f b d) a c := by
  funext x
  simp only [upd]
  by_cases h1 : x = a
  · subst h1; simp [h]
  · simp [h1]

theorem upd_self {α γ : Type} [DecidableEq α] (f : α → γ) (a : α) : upd f a (f a) = f := by
  funext x; simp only [upd]; split
  · rename_i h; rw [h]
  · rfl

theorem inv_init : Inv (St.init : St β) := by
  constructor <;> simp [St.init]

theorem slot_none {s : St β} {k : Slot} (h : abs s k = none) : s.slot k = none := by
  simpa [abs] using h

theorem slot_live {s : St β} {k : Slot} {o : Option β} (h : abs s k = some o) : ∃ c, s.slot k = some c ∧ c.bind s.obj = o := by
  simpa [abs] using h

theorem slot_null {s : St β} (hi : Inv s) {k : Slot} (h : abs s k = some none) : s.slot k = some none := by
  obtain ⟨c, h1, h2⟩ := slot_live h
  cases c with
  | none => exact h1
  | some p => exact absurd h2 (hi.live k p h1)

theorem slot_some {s : St β} {k : Slot} {o : β} (h : abs s k = some (some o)) :
    ∃ p, s.slot k = some (some p) ∧ s.obj p = some o := by
  obtain ⟨c, h1, h2⟩ := slot_live h
  cases c with
  | none => exact absurd h2 (by simp)
  | some p => exact ⟨p, h1, h2⟩

theorem ptr_ok {s : St β} {k : Slot} {c : Option Nat} (h : s.slot k = some c) : ptr s k = .ok c := by
  simp only [ptr, h]

theorem ptr_ub {s : St β} {k : Slot} (h : s.slot k = none) : ptr s k = .ub := by
  simp only [ptr, h]

/-- Construction of an empty object. -/
theorem create_null {s : St β} (hi : Inv s) {k : Slot} (h : abs s k = none) :
    ∃ s', create s k none = .ok s' ∧ Inv s' ∧ abs s' = upd (abs s) k (some none) ∧ s'.obj = s.obj ∧ s'.next = s.next ∧
      s'.dead = s.dead := by
  have hs := slot_none h
  refine ⟨{ s with slot := upd s.slot k (some none) }, by simp only [create, hs],
    ⟨?_, ?_, ?_, hi.bound, hi.deadb, hi.all, hi.nodup⟩, ?_, rfl, rfl, rfl⟩
  · intro j p hj
    by_cases e : j = k
    · subst e; simp [upd] at hj
    · exact hi.live j p (by simpa [upd, e] using hj)
  · intro j j' p hj hj'
    have e : j ≠ k := by intro e; subst e; simp [upd] at hj
    have e' : j' ≠ k := by intro e; subst e; simp [upd] at hj'
    exact hi.inj j j' p (by simpa [upd, e] using hj) (by simpa [upd, e'] using hj')
  · intro p hp
    obtain ⟨j, hj⟩ := hi.owned p hp
    have e : j ≠ k := by intro e; subst e; rw [hs] at hj; cases hj
    exact ⟨j, by simpa [upd, e] using hj⟩
  · funext j
    by_cases e : j = k
    · subst e; simp [abs, upd]
    · simp [abs, upd, e]

theorem alloc_fresh {s : St β} (hi : Inv s) (k : Slot) : s.slot k ≠ some (some s.next) := by
  intro h
  exact Nat.lt_irrefl _ (hi.bound _ (hi.live _ _ h))

theorem bind_alloc {s : St β} (hi : Inv s) (k : Slot) (o : β) :
    (s.slot k).map (·.bind (alloc s o).2.obj) = abs s k := by
  unfold abs
  cases h : s.slot k with
  | none => rfl
  | some c =>
    cases c with
    | none => rfl
    | some p =>
      have : p ≠ s.next := by intro e; subst e; exact alloc_fresh hi k h
      simp [alloc, upd, this]

/-- Setting a pointer that is not in use to a new heap object. -/
theorem set_new {s : St β} (hi : Inv s) {k : Slot} (o : β) (hs : s.slot k = none ∨ s.slot k = some none) :
    let s' : St β := { (alloc s o).2 with slot := upd s.slot k (some (some s.next)) }
    Inv s' ∧ abs s' = upd (abs s) k (some (some o)) := by
  intro s'
  have hk : ∀ p, s.slot k ≠ some (some p) := by
    intro p; rcases hs with h | h <;> rw [h] <;> simp
  refine ⟨⟨?_, ?_, ?_, ?_, ?_, ?_, hi.nodup⟩, ?_⟩
  · intro j p hj
    show upd s.obj s.next (some o) p ≠ none
    by_cases e : j = k
    · subst e
      have : p = s.next := by simpa [s', upd] using hj.symm
      subst this; simp [upd]
    · have hj' : s.slot j = some (some p) := by simpa [s', upd, e] using hj
      have := hi.live j p hj'
      simp only [upd]; split <;> simp [this]
  · intro j j' p hj hj'
    by_cases e : j = k
    · by_cases e' : j' = k
      · rw [e, e']
      · subst e
        have : p = s.next := by simpa [s', upd] using hj.symm
        subst this
        exact absurd (show s.slot j' = _ by simpa [s', upd, e'] using hj') (alloc_fresh hi j')
    · by_cases e' : j' = k
      · subst e'
        have : p = s.next := by simpa [s', upd] using hj'.symm
        subst this
        exact absurd (show s.slot j = _ by simpa [s', upd, e] using hj) (alloc_fresh hi j)
      · exact hi.inj j j' p (by simpa [s', upd, e] using hj) (by simpa [s', upd, e'] using hj')
  · intro p hp
    by_cases e : p = s.next
    · subst e; exact ⟨k, by simp [s', upd]⟩
    · obtain ⟨j, hj⟩ := hi.owned p (by simpa [s', alloc, upd, e] using hp)
      have : j ≠ k := by intro e; subst e; exact hk p hj
      exact ⟨j, by simpa [s', upd, this] using hj⟩
  · intro p hp
    show p < s.next + 1
    by_cases e : p = s.next
    · omega
    · have := hi.bound p (by simpa [s', alloc, upd, e] using hp); omega
  · intro p hp
    have h := hi.deadb p hp
    refine ⟨show p < s.next + 1 by omega, ?_⟩
    have : p ≠ s.next := by omega
    simpa [s', alloc, upd, this] using h.2
  · intro p hp hn
    have hp : p < s.next + 1 := hp
    by_cases e : p = s.next
    · subst e; simp [s', alloc, upd] at hn
    · exact hi.all p (by omega) (by simpa [s', alloc, upd, e] using hn)
  · funext j
    by_cases e : j = k
    · subst e; simp [abs, s', upd, alloc]
    · rw [upd_ne _ _ e, ← bind_alloc hi j o]
      simp [abs, s', upd, e, alloc]

/-- Construction of an object owning a new heap object. -/
theorem create_new {s : St β} (hi : Inv s) {k : Slot} (o : β) (h : abs s k = none) :
    ∃ s', create (alloc s o).2 k (some (alloc s o).1) = .ok s' ∧ Inv s' ∧ abs s' = upd (abs s) k (some (some o)) ∧
      s'.next = s.next + 1 ∧ s'.dead = s.dead := by
  have hs := slot_none h
  obtain ⟨i1, i2⟩ := set_new hi (k := k) o (.inl hs)
  exact ⟨_, by simp only [create, alloc, hs], i1, i2, rfl, rfl⟩

/-- Assigning a new heap object to an empty object. -/
theorem assign_new {s : St β} (hi : Inv s) {k : Slot} (o : β) (h : abs s k = some none) :
    ∃ s', setPtr (alloc s o).2 k (some (alloc s o).1) = .ok s' ∧ Inv s' ∧ abs s' = upd (abs s) k (some (some o)) := by
  have hs := slot_null hi h
  obtain ⟨i1, i2⟩ := set_new hi (k := k) o (.inr hs)
  exact ⟨_, by simp only [setPtr, alloc, hs], i1, i2⟩

/-- Permuting the pointers. -/
theorem move_ptrs {s : St β} (hi : Inv s) (f : Slot → Option (Option Nat))
    (h1 : ∀ j p, f j = some (some p) → ∃ k, s.slot k = some (some p))
    (h2 : ∀ k p, s.slot k = some (some p) → ∃ j, f j = some (some p))
    (h3 : ∀ j j' p, f j = some (some p) → f j' = some (some p) → j = j') : Inv { s with slot := f } := by
  refine ⟨?_, h3, ?_, hi.bound, hi.deadb, hi.all, hi.nodup⟩
  · intro j p hj
    obtain ⟨k, hk⟩ := h1 j p hj
    exact hi.live k p hk
  · intro p hp
    obtain ⟨k, hk⟩ := hi.owned p hp
    exact h2 k p hk

/-- Move construction. -/
theorem move_ok {s : St β} (hi : Inv s) {k j : Slot} {o : Option β} (hk : abs s k = none) (hj : abs s j = some o) :
    ∃ c b s', ptr s j = .ok c ∧ create s k c = .ok b ∧ setPtr b j none = .ok s' ∧ Inv s' ∧
      abs s' = upd (upd (abs s) k (some o)) j (some none) ∧ s'.next = s.next ∧ s'.dead = s.dead := by
  have hsk := slot_none hk
  obtain ⟨c, hc, hco⟩ := slot_live hj
  have hne : j ≠ k := by intro e; subst e; rw [hsk] at hc; cases hc
  refine ⟨c, { s with slot := upd s.slot k (some c) }, { s with slot := upd (upd s.slot k (some c)) j (some none) }, ptr_ok hc,
    by simp only [create, hsk], by simp [setPtr, upd, hne, hc], ?_, ?_, rfl, rfl⟩
  · refine move_ptrs hi _ ?_ ?_ ?_
    · intro i p hp
      by_cases e : i = j
      · subst e; simp [upd] at hp
      · by_cases e' : i = k
        · subst e'; simp [upd, e] at hp; exact ⟨j, by rw [hc, hp]⟩
        · exact ⟨i, by simpa [upd, e, e'] using hp⟩
    · intro i p hp
      by_cases e : i = j
      · subst e; rw [hc] at hp; cases hp; exact ⟨k, by simp [upd, Ne.symm hne]⟩
      · have e' : i ≠ k := by intro e; subst e; rw [hsk] at hp; cases hp
        exact ⟨i, by simpa [upd, e, e'] using hp⟩
    · intro i i' p hp hp'
      have e : i ≠ j := by intro e; subst e; simp [upd] at hp
      have e' : i' ≠ j := by intro e; subst e; simp [upd] at hp'
      by_cases e1 : i = k
      · by_cases e2 : i' = k
        · rw [e1, e2]
        · subst e1; simp [upd, e] at hp; simp [upd, e', e2] at hp'
          exact absurd (hi.inj j i' p (by rw [hc, hp]) hp').symm e'
      · by_cases e2 : i' = k
        · subst e2; simp [upd, e'] at hp'; simp [upd, e, e1] at hp
          exact absurd (hi.inj j i p (by rw [hc, hp']) hp).symm e
        · exact hi.inj i i' p (by simpa [upd, e, e1] using hp) (by simpa [upd, e', e2] using hp')
  · funext i
    by_cases e : i = j
    · subst e; simp [abs, upd]
    · by_cases e' : i = k
      · subst e'; simp [abs, upd, e, hco]
      · simp [abs, upd, e, e']

/-- Swapping. -/
theorem swap_ok {s : St β} (hi : Inv s) {k j : Slot} {o o' : Option β} (hk : abs s k = some o) (hj : abs s j = some o') :
    ∃ s', swap s k j = .ok s' ∧ Inv s' ∧ abs s' = upd (upd (abs s) k (some o')) j (some o) ∧ s'.next = s.next ∧
      s'.dead = s.dead := by
  obtain ⟨c, hc, hco⟩ := slot_live hk
  obtain ⟨d, hd, hdo⟩ := slot_live hj
  have h2 : upd s.slot k (some d) j = some d := by
    simp only [upd]; split
    · rfl
    · exact hd
  refine ⟨{ s with slot := upd (upd s.slot k (some d)) j (some c) }, ?_, ?_, ?_, rfl, rfl⟩
  · simp only [swap, ptr_ok hc, ptr_ok hd, setPtr, Res.ok_bind, hc, h2]
  · refine move_ptrs hi _ ?_ ?_ ?_
    · intro i p hp
      by_cases e : i = j
      · subst e; simp [upd] at hp; exact ⟨k, by rw [hc, hp]⟩
      · by_cases e' : i = k
        · subst e'; simp [upd, e] at hp; exact ⟨j, by rw [hd, hp]⟩
        · exact ⟨i, by simpa [upd, e, e'] using hp⟩
    · intro i p hp
      by_cases e' : i = k
      · subst e'; rw [hc] at hp; cases hp; exact ⟨j, by simp [upd]⟩
      · by_cases e : i = j
        · subst e; rw [hd] at hp; cases hp; exact ⟨k, by simp [upd, Ne.symm e']⟩
        · exact ⟨i, by simpa [upd, e, e'] using hp⟩
    · intro i i' p hp hp'
      -- the old place of what is now at `x`
      have old : ∀ x, upd (upd s.slot k (some d)) j (some c) x = some (some p) →
          s.slot (if x = j then k else if x = k then j else x) = some (some p) := by
        intro x hx
        by_cases e : x = j
        · subst e; simp [upd] at hx; simp [hc, hx]
        · by_cases e' : x = k
          · subst e'; simp [upd, e] at hx; simp [e, hd, hx]
          · simp [upd, e, e'] at hx; simp [e, e', hx]
      have := hi.inj _ _ p (old i hp) (old i' hp')
      by_cases e1 : i = j <;> by_cases e2 : i' = j <;> by_cases e3 : i = k <;> by_cases e4 : i' = k <;> simp_all
  · funext i
    by_cases e : i = j
    · subst e; simp [abs, upd, hco]
    · by_cases e' : i = k
      · subst e'; simp [abs, upd, e, hdo]
      · simp [abs, upd, e, e']

/-- Destruction: the held object, if any, is deleted. -/
theorem del_ok {s : St β} (hi : Inv s) {k : Slot} {o : Option β} (hk : abs s k = some o) :
    ∃ c b s', ptr s k = .ok c ∧ deleteIf s c = .ok b ∧ destroy b k = .ok s' ∧ Inv s' ∧ abs s' = upd (abs s) k none ∧
      s'.next = s.next ∧ (o = none → s'.dead = s.dead) := by
  obtain ⟨c, hc, hco⟩ := slot_live hk
  cases c with
  | none =>
    refine ⟨none, s, { s with slot := upd s.slot k none }, ptr_ok hc, rfl, by simp only [destroy, hc], ?_, ?_, rfl, fun _ => rfl⟩
    · refine move_ptrs hi _ ?_ ?_ ?_
      · intro i p hp
        by_cases e : i = k
        · subst e; simp [upd] at hp
        · exact ⟨i, by simpa [upd, e] using hp⟩
      · intro i p hp
        have e : i ≠ k := by intro e; subst e; rw [hc] at hp; cases hp
        exact ⟨i, by simpa [upd, e] using hp⟩
      · intro i i' p hp hp'
        have e : i ≠ k := by intro e; subst e; simp [upd] at hp
        have e' : i' ≠ k := by intro e; subst e; simp [upd] at hp'
        exact hi.inj i i' p (by simpa [upd, e] using hp) (by simpa [upd, e'] using hp')
    · funext i
      by_cases e : i = k
      · subst e; simp [abs, upd]
      · simp [abs, upd, e]
  | some p =>
    have hl := hi.live k p hc
    obtain ⟨v, hv⟩ := Option.ne_none_iff_exists'.1 hl
    refine ⟨some p, { s with obj := upd s.obj p none, dead := p :: s.dead },
      { s with slot := upd s.slot k none, obj := upd s.obj p none, dead := p :: s.dead }, ptr_ok hc,
      by simp only [deleteIf, delete, hv], by simp only [destroy, hc], ⟨?_, ?_, ?_, ?_, ?_, ?_, ?_⟩, ?_, rfl, ?_⟩
    · intro i q hq
      have e : i ≠ k := by intro e; subst e; simp [upd] at hq
      have hq2 : s.slot i = some (some q) := by simpa [upd, e] using hq
      have : q ≠ p := by intro e'; rw [e'] at hq2; exact e (hi.inj _ _ _ hq2 hc)
      simpa [upd, this] using hi.live i q hq2
    · intro i i' q hq hq'
      have e : i ≠ k := by intro e; subst e; simp [upd] at hq
      have e' : i' ≠ k := by intro e; subst e; simp [upd] at hq'
      exact hi.inj i i' q (by simpa [upd, e] using hq) (by simpa [upd, e'] using hq')
    · intro q hq
      have e : q ≠ p := by intro e; subst e; simp [upd] at hq
      obtain ⟨i, h⟩ := hi.owned q (by simpa [upd, e] using hq)
      have : i ≠ k := by intro e'; subst e'; rw [hc] at h; cases h; exact e rfl
      exact ⟨i, by simpa [upd, this] using h⟩
    · intro q hq
      have e : q ≠ p := by intro e; subst e; simp [upd] at hq
      exact hi.bound q (by simpa [upd, e] using hq)
    · intro q hq
      rcases List.mem_cons.1 hq with e | hq
      · subst e; exact ⟨hi.bound q hl, by simp [upd]⟩
      · refine ⟨(hi.deadb q hq).1, ?_⟩
        show upd s.obj p none q = none
        simp only [upd]; split
        · rfl
        · exact (hi.deadb q hq).2
    · intro q hq hn
      by_cases e : q = p
      · subst e; simp
      · exact List.mem_cons_of_mem _ (hi.all q hq (by simpa [upd, e] using hn))
    · exact List.nodup_cons.2 ⟨fun h => hl (hi.deadb p h).2, hi.nodup⟩
    · funext i
      by_cases e : i = k
      · subst e; simp [abs, upd]
      · simp only [abs, upd, if_neg e]
        cases h : s.slot i with
        | none => rfl
        | some d =>
          cases d with
          | none => rfl
          | some q =>
            have : q ≠ p := by intro e'; subst e'; exact e (hi.inj _ _ _ h hc)
            simp [upd, this]
    · rintro rfl
      exact absurd hco (by simpa using hl)

/-- Writing to the held object. -/
theorem write_ok {s : St β} (hi : Inv s) {k : Slot} {o o' : β} {p : Nat} (hp : s.slot k = some (some p)) (ho : s.obj p = some o) :
    ∃ s', write s (some p) o' = .ok s' ∧ Inv s' ∧ abs s' = upd (abs s) k (some (some o')) ∧ s'.slot = s.slot ∧ s'.dead = s.dead := by
  have hnn : ∀ q, (upd s.obj p (some o') q ≠ none ↔ s.obj q ≠ none) := by
    intro q
    by_cases e : q = p
    · subst e; simp [upd, ho]
    · simp [upd, e]
  refine ⟨{ s with obj := upd s.obj p (some o') }, by simp only [write, ho], ⟨?_, hi.inj, ?_, ?_, ?_, ?_, hi.nodup⟩, ?_, rfl, rfl⟩
  · intro j q hq; exact (hnn q).2 (hi.live j q hq)
  · intro q hq; exact hi.owned q ((hnn q).1 hq)
  · intro q hq; exact hi.bound q ((hnn q).1 hq)
  · intro q hq
    refine ⟨(hi.deadb q hq).1, ?_⟩
    have : q ≠ p := by intro e; subst e; rw [(hi.deadb q hq).2] at ho; cases ho
    simpa [upd, this] using (hi.deadb q hq).2
  · intro q hq hn
    have e : q ≠ p := by intro e; subst e; simp [upd] at hn
    exact hi.all q hq (by simpa [upd, e] using hn)
  · funext j
    by_cases e : j = k
    · subst e; simp [abs, upd, hp]
    · simp only [abs, upd, if_neg e]
      cases h : s.slot j with
      | none => rfl
      | some d =>
        cases d with
        | none => rfl
        | some q =>
          have : q ≠ p := by intro e'; subst e'; exact e (hi.inj _ _ _ h hp)
          simp [upd, this]

/-- Swapping the temporary in and destroying what it holds then. -/
theorem swap_del {s : St β} (hi : Inv s) {k : Slot} {o o' : Option β} (ht : abs s .temp = some o) (hk : abs s k = some o')
    (hne : k ≠ .temp) :
    ∃ s1 c b s', swap s .temp k = .ok s1 ∧ ptr s1 .temp = .ok c ∧ deleteIf s1 c = .ok b ∧ destroy b .temp = .ok s' ∧ Inv s' ∧
      abs s' = upd (upd (abs s) k (some o)) .temp none := by
  obtain ⟨s1, e1, i1, a1, _, _⟩ := swap_ok hi ht hk
  obtain ⟨c, b, s', e2, e3, e4, i2, a2, _⟩ := del_ok i1 (k := .temp) (o := o') (by rw [a1, upd_ne _ _ (Ne.symm hne), upd_same])
  refine ⟨s1, c, b, s', e1, e2, e3, e4, i2, ?_⟩
  rw [a2, a1, upd_comm _ _ _ hne, upd_upd, upd_comm _ _ _ (Ne.symm hne)]

end Verif.Box
