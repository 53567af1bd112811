import Verif.Model.Function
import Verif.Lemmas.Any

/-! Property C49: `function`. -/

set_option backward.isDefEq.respectTransparency false

namespace Verif.Function
open Verif Verif.Box
open Verif.Any (emb emb_upd emb_temp)

variable {τ A R : Type}

/-- What a user thinks of: for each function object that exists, its own target or
nothing. -/
abbrev Spec (τ : Type) := Nat → Option (Option τ)

/-- The meaning of a call, with its result; `none` if it uses an object that does not exist
or calls an empty function. -/
def specStep (f : τ → A → τ × R) (a : Spec τ) : Op τ A → Option (Spec τ × Option R)
  | .ctor k => match a k with
    | none => some (upd a k (some none), none)
    | some _ => none
  | .target k t => match a k with
    | none => some (upd a k (some (some t)), none)
    | some _ => none
  | .copy k j => match a k, a j with
    | none, some o => some (upd a k (some o), none)
    | _, _ => none
  | .move k j => match a k, a j with
    | none, some o => some (upd (upd a k (some o)) j (some none), none)
    | _, _ => none
  | .dtor k => match a k with
    | some _ => some (upd a k none, none)
    | none => none
  | .swap k j => match a k, a j with
    | some o, some o' => some (upd (upd a k (some o')) j (some o), none)
    | _, _ => none
  | .asgTarget k t => match a k with
    | some _ => some (upd a k (some (some t)), none)
    | none => none
  | .asgCopy k j => match a k, a j with
    | some _, some o => some (upd a k (some o), none)
    | _, _ => none
  | .asgMove k j => match a k, a j with
    | some _, some o => some (upd (upd a j (some none)) k (some o), none)
    | _, _ => none
  | .call k x => match a k with
    | some (some t) => some (upd a k (some (some (f t x).1)), some (f t x).2)
    | _ => none

/-- The meaning of a history: the final targets and the results of the calls. -/
def specRun (f : τ → A → τ × R) (a : Spec τ) : List (Op τ A) → Option (Spec τ × List R)
  | [] => some (a, [])
  | o :: os => match specStep f a o with
    | some (a, r) => match specRun f a os with
      | some (a, rs) => some (a, r.toList ++ rs)
      | none => none
    | none => none

/-- The calls copy no empty function object in the history from `a`. -/
def NoEmptyCopy (f : τ → A → τ × R) (a : Spec τ) : List (Op τ A) → Prop
  | [] => True
  | o :: os => (match o with
      | .copy _ j => a j ≠ some none
      | .asgCopy _ j => a j ≠ some none
      | _ => True) ∧ ∀ a' r, specStep f a o = some (a', r) → NoEmptyCopy f a' os

/-- The state of the code represents the state the user thinks of. -/
structure Rep (s : St τ) (a : Spec τ) : Prop where
  inv : Inv s.box
  hold : abs s.box = emb a
  gone : s.gone = []

theorem rep_init : Rep (St.init : St τ) (fun _ => none) := ⟨inv_init, by funext k; cases k <;> rfl, rfl⟩

/-- The common end of all assignments. -/
theorem finish {s : St τ} (hi : Inv s.box) {k : Slot} {o o' : Option τ} (ht : abs s.box .temp = some o)
    (hk : abs s.box k = some o') (hne : k ≠ .temp) :
    ∃ b, (swap s .temp k >>= fun s => dtor s .temp) = .ok { s with box := b } ∧ Inv b ∧
      abs b = upd (upd (abs s.box) k (some o)) .temp none := by
  obtain ⟨s1, c, b, s', e1, e2, e3, e4, i, a⟩ := swap_del hi ht hk hne
  exact ⟨s', by simp only [swap, dtor, e1, e2, e3, e4, lift, Res.ok_bind], i, a⟩

theorem copy_ok {s : St τ} (hi : Inv s.box) {k j : Slot} {o : τ} (hk : abs s.box k = none) (hj : abs s.box j = some (some o)) :
    ∃ b, copyCtor s k j = .ok { s with box := b } ∧ Inv b ∧ abs b = upd (abs s.box) k (some (some o)) := by
  obtain ⟨p, hs, hp⟩ := slot_some hj
  obtain ⟨b, e, i, a, _⟩ := create_new hi o hk
  exact ⟨b, by simp only [copyCtor, ptr_ok hs, Res.ok_bind, deref, hp, lift, e], i, a⟩

theorem target_ok {s : St τ} (hi : Inv s.box) {k : Slot} (o : τ) (hk : abs s.box k = none) :
    ∃ b, targetCtor s k o = .ok { s with box := b } ∧ Inv b ∧ abs b = upd (abs s.box) k (some (some o)) := by
  obtain ⟨b, e, i, a, _⟩ := create_new hi o hk
  exact ⟨b, by simp only [targetCtor, Res.ok_bind, lift, e], i, a⟩

theorem move_ok' {s : St τ} (hi : Inv s.box) {k j : Slot} {o : Option τ} (hk : abs s.box k = none) (hj : abs s.box j = some o) :
    ∃ b, moveCtor s k j = .ok { s with box := b } ∧ Inv b ∧ abs b = upd (upd (abs s.box) k (some o)) j (some none) := by
  obtain ⟨c, b, s', e1, e2, e3, i, a, _⟩ := move_ok hi hk hj
  exact ⟨s', by simp only [moveCtor, e1, e2, e3, lift, Res.ok_bind], i, a⟩

theorem step_rep (f : τ → A → τ × R) {s : St τ} {a a' : Spec τ} {r : Option R} (hr : Rep s a) {o : Op τ A}
    (hp : NoEmptyCopy f a [o]) (h : specStep f a o = some (a', r)) : ∃ s', step f s o = .ok (s', r) ∧ Rep s' a' := by
  obtain ⟨hi, ha, hg⟩ := hr
  have hab : ∀ k, abs s.box (.user k) = a k := fun k => by rw [ha]; rfl
  cases o with
  | ctor k =>
    simp only [specStep] at h
    split at h <;> cases h
    rename_i hk
    obtain ⟨b, e, i, a1, _⟩ := create_null hi (k := .user k) (by rw [hab]; exact hk)
    exact ⟨{ s with box := b }, by simp only [step, quiet, ctor, lift, e, Res.ok_bind], i, by rw [a1, ha, emb_upd], hg⟩
  | target k t =>
    simp only [specStep] at h
    split at h <;> cases h
    rename_i hk
    obtain ⟨b, e, i, a1⟩ := target_ok hi (k := .user k) t (by rw [hab]; exact hk)
    exact ⟨{ s with box := b }, by simp only [step, quiet, e, Res.ok_bind], i, by rw [a1, ha, emb_upd], hg⟩
  | copy k j =>
    simp only [specStep] at h
    split at h <;> cases h
    rename_i o hk hj
    cases o with
    | none => exact absurd hj hp.1
    | some o =>
      obtain ⟨b, e, i, a1⟩ := copy_ok hi (k := .user k) (j := .user j) (by rw [hab]; exact hk) (by rw [hab]; exact hj)
      exact ⟨{ s with box := b }, by simp only [step, quiet, e, Res.ok_bind], i, by rw [a1, ha, emb_upd], hg⟩
  | move k j =>
    simp only [specStep] at h
    split at h <;> cases h
    rename_i hk hj
    obtain ⟨b, e, i, a1⟩ := move_ok' hi (k := .user k) (j := .user j) (by rw [hab]; exact hk) (by rw [hab]; exact hj)
    exact ⟨{ s with box := b }, by simp only [step, quiet, e, Res.ok_bind], i, by rw [a1, ha, emb_upd, emb_upd], hg⟩
  | dtor k =>
    simp only [specStep] at h
    split at h <;> cases h
    rename_i hk
    obtain ⟨c, b, s', e1, e2, e3, i, a1, _⟩ := del_ok hi (k := .user k) (by rw [hab]; exact hk)
    exact ⟨{ s with box := s' }, by simp only [step, quiet, dtor, e1, e2, e3, lift, Res.ok_bind], i, by rw [a1, ha, emb_upd], hg⟩
  | swap k j =>
    simp only [specStep] at h
    split at h <;> cases h
    rename_i hk hj
    obtain ⟨b, e, i, a1, _⟩ := Box.swap_ok hi (k := .user k) (j := .user j) (by rw [hab]; exact hk) (by rw [hab]; exact hj)
    exact ⟨{ s with box := b }, by simp only [step, quiet, swap, e, lift, Res.ok_bind], i, by rw [a1, ha, emb_upd, emb_upd], hg⟩
  | asgTarget k t =>
    simp only [specStep] at h
    split at h <;> cases h
    rename_i o hk
    obtain ⟨b, e1, i1, a1⟩ := target_ok hi (k := .temp) t (by rw [ha]; rfl)
    obtain ⟨b2, e2, i2, a2⟩ := finish (s := { s with box := b }) i1 (k := .user k) (o := some t) (o' := o) (by rw [a1, upd_same])
      (by rw [a1, upd_ne _ _ (by simp), ha]; exact hk) (by simp)
    refine ⟨{ s with box := b2 }, by simp only [step, quiet, assignTarget, e1, Res.ok_bind]; rw [e2]; rfl, i2, ?_, hg⟩
    rw [a2, a1, ha, upd_comm _ _ _ (by simp : Slot.temp ≠ .user k), upd_upd, emb_upd, emb_temp]
  | asgCopy k j =>
    simp only [specStep] at h
    split at h <;> cases h
    rename_i o o' hk hj
    cases o' with
    | none => exact absurd hj hp.1
    | some t =>
      obtain ⟨b, e1, i1, a1⟩ := copy_ok hi (k := .temp) (j := .user j) (by rw [ha]; rfl) (by rw [hab]; exact hj)
      obtain ⟨b2, e2, i2, a2⟩ := finish (s := { s with box := b }) i1 (k := .user k) (o := some t) (o' := o) (by rw [a1, upd_same])
        (by rw [a1, upd_ne _ _ (by simp), ha]; exact hk) (by simp)
      refine ⟨{ s with box := b2 }, by simp only [step, quiet, assignCopy, e1, Res.ok_bind]; rw [e2]; rfl, i2, ?_, hg⟩
      rw [a2, a1, ha, upd_comm _ _ _ (by simp : Slot.temp ≠ .user k), upd_upd, emb_upd, emb_temp]
  | asgMove k j =>
    simp only [specStep] at h
    split at h <;> cases h
    rename_i o o' hk hj
    obtain ⟨b, e1, i1, a1⟩ := move_ok' hi (k := .temp) (j := .user j) (o := o') (by rw [ha]; rfl) (by rw [hab]; exact hj)
    obtain ⟨o2, ho2⟩ : ∃ o2, abs b (.user k) = some o2 := by
      rw [a1]
      by_cases e : k = j
      · subst e; exact ⟨none, by rw [upd_same]⟩
      · exact ⟨o, by rw [upd_ne _ _ (by simpa using e), upd_ne _ _ (by simp), ha]; exact hk⟩
    obtain ⟨b2, e2, i2, a2⟩ := finish (s := { s with box := b }) i1 (k := .user k) (o := o') (o' := o2)
      (by rw [a1, upd_ne _ _ (by simp), upd_same]) ho2 (by simp)
    refine ⟨{ s with box := b2 }, by simp only [step, quiet, assignMove, e1, Res.ok_bind]; rw [e2]; rfl, i2, ?_, hg⟩
    rw [a2, a1, ha, upd_comm _ _ _ (by simp : Slot.temp ≠ .user j), emb_upd, upd_comm _ _ _ (by simp : Slot.temp ≠ .user k),
      upd_upd, emb_upd, emb_temp]
  | call k x =>
    simp only [specStep] at h
    split at h <;> cases h
    rename_i t hk
    obtain ⟨p, hs, ho⟩ := slot_some (s := s.box) (k := .user k) (o := t) (by rw [hab]; exact hk)
    obtain ⟨b, e, i, a1, _⟩ := write_ok hi (o' := (f t x).1) hs ho
    refine ⟨{ s with box := b }, ?_, i, by rw [a1, ha, emb_upd], hg⟩
    simp only [step, call, ptr_ok hs, deref, ho, Res.ok_bind, e, lift]

theorem run_rep (f : τ → A → τ × R) {s : St τ} {a a' : Spec τ} {rs : List R} (hr : Rep s a) {os : List (Op τ A)}
    (hp : NoEmptyCopy f a os) (h : specRun f a os = some (a', rs)) : ∃ s', run f s os = .ok (s', rs) ∧ Rep s' a' := by
  induction os generalizing s a rs with
  | nil => cases h; exact ⟨s, rfl, hr⟩
  | cons o os ih =>
    simp only [specRun] at h
    split at h
    · rename_i a1 r1 h1
      split at h <;> cases h
      rename_i rs2 h2
      obtain ⟨s1, e1, q1⟩ := step_rep f hr (o := o) ⟨hp.1, fun _ _ _ => trivial⟩ h1
      obtain ⟨s2, e2, q2⟩ := ih q1 (hp.2 _ _ h1) h2
      exact ⟨s2, by simp only [run, e1, Res.ok_bind, e2], q2⟩
    · cases h

/-- C49 (partial: no empty function object is copied). Every history that makes sense is
defined, every call of a function object gives the result of calling its own target, so
copies are independent, and `operator bool` tells whether there is a target. -/
theorem C49_calls_partial (f : τ → A → τ × R) (os : List (Op τ A)) (a : Spec τ) (rs : List R)
    (hp : NoEmptyCopy f (fun _ => none) os) (h : specRun f (fun _ => none) os = some (a, rs)) :
    ∃ s, run f St.init os = .ok (s, rs) ∧ ∀ k o, a k = some o → toBool s (.user k) = .ok o.isSome := by
  obtain ⟨s, e, r⟩ := run_rep f rep_init hp h
  refine ⟨s, e, ?_⟩
  intro k o hk
  have hab : abs s.box (.user k) = some o := by rw [r.hold]; exact hk
  cases o with
  | none => simp [toBool, ptr_ok (slot_null r.inv hab)]
  | some o =>
    obtain ⟨p, hs, _⟩ := slot_some hab
    simp [toBool, ptr_ok hs]

/-- C49 (partial, as above): the storage of every target is released exactly once, as soon as
no function object uses it. -/
theorem C49_released_once_partial (f : τ → A → τ × R) (os : List (Op τ A)) (a : Spec τ) (rs : List R)
    (hp : NoEmptyCopy f (fun _ => none) os) (h : specRun f (fun _ => none) os = some (a, rs)) (s : St τ)
    (hs : run f St.init os = .ok (s, rs)) :
    s.box.dead.Nodup ∧ ∀ p, p < s.box.next → (p ∈ s.box.dead ↔ ∀ k, s.box.slot (.user k) ≠ some (some p)) := by
  obtain ⟨s', e, r⟩ := run_rep f rep_init hp h
  rw [hs] at e; cases e
  have hi := r.inv
  refine ⟨hi.nodup, ?_⟩
  intro p hlt
  constructor
  · intro hd k hk
    exact hi.live _ _ hk (hi.deadb p hd).2
  · intro hn
    apply hi.all p hlt
    cases ho : s.box.obj p with
    | none => rfl
    | some o =>
      obtain ⟨k, hk⟩ := hi.owned p (by rw [ho]; simp)
      cases k with
      | user n => exact absurd hk (hn n)
      | temp =>
        have : abs s.box .temp = none := by rw [r.hold]; rfl
        rw [slot_none this] at hk; cases hk

/-- C49 is violated: copying or assigning from any empty function object is undefined
behaviour. -/
theorem C49_violated_copy_empty (s : St τ) (k j : Nat) (hj : toBool s (.user j) = .ok false) :
    copyCtor s (.user k) (.user j) = .ub ∧ assignCopy s (.user k) (.user j) = .ub := by
  have hs : ptr s.box (.user j) = .ok none := by
    simp only [toBool] at hj
    cases h : ptr s.box (.user j) with
    | ok c =>
      rw [h] at hj
      cases c with
      | none => rfl
      | some p => simp at hj
    | ub => rw [h] at hj; cases hj
    | oof => rw [h] at hj; cases hj
  have h : ∀ k, copyCtor s k (.user j) = .ub := by
    intro k
    simp only [copyCtor, hs, Res.ok_bind, deref, Res.ub_bind]
  exact ⟨h _, by simp only [assignCopy, h, Res.ub_bind]⟩

/-- C49 is violated: in no history is the destructor of any target ever run, although (see
`C49_released_once_partial`) the storage of every target is released. -/
theorem C49_violated_not_destroyed (f : τ → A → τ × R) (os : List (Op τ A)) (s : St τ) (rs : List R)
    (hs : run f St.init os = .ok (s, rs)) : s.gone = [] := by
  have hl : ∀ (s : St τ) r s', lift s r = .ok s' → s'.gone = s.gone := by
    intro s r s' h
    unfold lift at h
    obtain ⟨b, _, h⟩ := Res.bind_eq_ok.1 h
    cases h; rfl
  have hc : ∀ (s : St τ) k s', ctor s k = .ok s' → s'.gone = s.gone := fun s k s' h => hl _ _ _ h
  have ht : ∀ (s : St τ) k t s', targetCtor s k t = .ok s' → s'.gone = s.gone := fun s k t s' h => hl _ _ _ h
  have hcp : ∀ (s : St τ) k j s', copyCtor s k j = .ok s' → s'.gone = s.gone := by
    intro s k j s' h
    obtain ⟨c, _, h⟩ := Res.bind_eq_ok.1 h
    obtain ⟨c, _, h⟩ := Res.bind_eq_ok.1 h
    exact hl _ _ _ h
  have hm : ∀ (s : St τ) k j s', moveCtor s k j = .ok s' → s'.gone = s.gone := by
    intro s k j s' h
    obtain ⟨c, _, h⟩ := Res.bind_eq_ok.1 h
    obtain ⟨c, _, h⟩ := Res.bind_eq_ok.1 h
    exact hl _ _ _ h
  have hd : ∀ (s : St τ) k s', dtor s k = .ok s' → s'.gone = s.gone := by
    intro s k s' h
    obtain ⟨c, _, h⟩ := Res.bind_eq_ok.1 h
    obtain ⟨c, _, h⟩ := Res.bind_eq_ok.1 h
    exact hl _ _ _ h
  have hsw : ∀ (s : St τ) k j s', swap s k j = .ok s' → s'.gone = s.gone := fun s k j s' h => hl _ _ _ h
  have hf : ∀ (s : St τ) k s', (swap s .temp k >>= fun s => dtor s .temp) = .ok s' → s'.gone = s.gone := by
    intro s k s' h
    obtain ⟨c, h1, h⟩ := Res.bind_eq_ok.1 h
    rw [hd _ _ _ h, hsw _ _ _ _ h1]
  have hstep : ∀ (s : St τ) o s' r, step f s o = .ok (s', r) → s'.gone = s.gone := by
    intro s o s' r h
    cases o with
    | call k x =>
      obtain ⟨⟨s1, r1⟩, h1, h⟩ := Res.bind_eq_ok.1 h
      cases h
      obtain ⟨c, _, h1⟩ := Res.bind_eq_ok.1 h1
      obtain ⟨t, _, h1⟩ := Res.bind_eq_ok.1 h1
      obtain ⟨s2, h2, h1⟩ := Res.bind_eq_ok.1 h1
      cases h1
      exact hl _ _ _ h2
    | ctor k => obtain ⟨s1, h1, h⟩ := Res.bind_eq_ok.1 h; cases h; exact hc _ _ _ h1
    | target k t => obtain ⟨s1, h1, h⟩ := Res.bind_eq_ok.1 h; cases h; exact ht _ _ _ _ h1
    | copy k j => obtain ⟨s1, h1, h⟩ := Res.bind_eq_ok.1 h; cases h; exact hcp _ _ _ _ h1
    | move k j => obtain ⟨s1, h1, h⟩ := Res.bind_eq_ok.1 h; cases h; exact hm _ _ _ _ h1
    | dtor k => obtain ⟨s1, h1, h⟩ := Res.bind_eq_ok.1 h; cases h; exact hd _ _ _ h1
    | swap k j => obtain ⟨s1, h1, h⟩ := Res.bind_eq_ok.1 h; cases h; exact hsw _ _ _ _ h1
    | asgTarget k t =>
      obtain ⟨s1, h1, h⟩ := Res.bind_eq_ok.1 h; cases h
      obtain ⟨s2, h2, h1⟩ := Res.bind_eq_ok.1 h1
      rw [hf _ _ _ h1, ht _ _ _ _ h2]
    | asgCopy k j =>
      obtain ⟨s1, h1, h⟩ := Res.bind_eq_ok.1 h; cases h
      obtain ⟨s2, h2, h1⟩ := Res.bind_eq_ok.1 h1
      rw [hf _ _ _ h1, hcp _ _ _ _ h2]
    | asgMove k j =>
      obtain ⟨s1, h1, h⟩ := Res.bind_eq_ok.1 h; cases h
      obtain ⟨s2, h2, h1⟩ := Res.bind_eq_ok.1 h1
      rw [hf _ _ _ h1, hm _ _ _ _ h2]
  have hrun : ∀ (os : List (Op τ A)) (s : St τ) s' rs, run f s os = .ok (s', rs) → s'.gone = s.gone := by
    intro os
    induction os with
    | nil => intro s s' rs h; cases h; rfl
    | cons o os ih =>
      intro s s' rs h
      obtain ⟨⟨s1, r1⟩, h1, h⟩ := Res.bind_eq_ok.1 h
      obtain ⟨⟨s2, r2⟩, h2, h⟩ := Res.bind_eq_ok.1 h
      cases h
      rw [ih _ _ _ h2, hstep _ _ _ _ h1]
  exact hrun os _ _ _ hs

/- Examples: targets are counters; calling adds the argument and returns the sum. -/
def exF : Nat → Nat → Nat × Nat := fun t x => (t + x, t + x)

/-- A target called, copied, both called; one moved and the other assigned. -/
def exHist : List (Op Nat Nat) :=
  [.target 0 10, .call 0 1, .copy 1 0, .call 0 5, .call 1 100, .move 2 0, .call 2 1, .asgCopy 1 2, .asgMove 2 2, .call 1 1, .call 2 2,
   .swap 0 2, .asgTarget 2 7, .call 0 0, .call 2 0, .dtor 1]

example : ∃ s, run exF St.init exHist = .ok (s, [11, 16, 111, 17, 18, 19, 19, 7]) ∧ s.box.dead = [2, 1] ∧ s.box.next = 4 ∧
    toBool s (.user 2) = .ok true := by
  exact ⟨_, rfl, by decide, by decide, by decide⟩

example : ∃ a, specRun exF (fun _ => none) exHist = some (a, [11, 16, 111, 17, 18, 19, 19, 7]) := ⟨_, rfl⟩

example : NoEmptyCopy exF (fun _ => none) exHist := by
  simp [NoEmptyCopy, exHist, specStep, upd, exF]

example : ∃ s, run exF St.init [.ctor 0] = .ok (s, []) ∧ copyCtor s (.user 1) (.user 0) = .ub := ⟨_, rfl, rfl⟩

end Verif.Function
