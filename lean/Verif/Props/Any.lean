import Verif.Lemmas.Any

/-! Properties C47 and C48: `any`. -/

set_option backward.isDefEq.respectTransparency false

namespace Verif.Any
open Verif Verif.Box

variable {V : Type}

/-- What a user thinks of: for each any object that exists, the typed value it holds or
nothing; and the variables of the program. -/
structure Spec (V : Type) where
  hold : Nat → Option (Option (Ty × V))
  var : Nat → Option (Ty × V)

/-- Nothing exists. -/
def Spec.init : Spec V := ⟨fun _ => none, fun _ => none⟩

/-- The meaning of a call; `none` if the call uses an object that does not exist, constructs
one that does, uses the null result of an `any_cast`, or places a value into an any constructed from
the value the same any holds. `lv` is what remains of a variable or held value from which an any was
constructed or assigned. -/
def Spec.step (lv : Ty → V → V) (a : Spec V) : Op V → Option (Spec V)
  | .ctor k => match a.hold k with
    | none => some { a with hold := upd a.hold k (some none) }
    | some _ => none
  | .copy k j => match a.hold k, a.hold j with
    | none, some o => some { a with hold := upd a.hold k (some o) }
    | _, _ => none
  | .move k j => match a.hold k, a.hold j with
    | none, some o => some { a with hold := upd (upd a.hold k (some o)) j (some none) }
    | _, _ => none
  | .value k t v => match a.hold k with
    | none => some { a with hold := upd a.hold k (some (some (t, v))) }
    | some _ => none
  | .lvalue k x => match a.hold k, a.var x with
    | none, some (t, v) => some ⟨upd a.hold k (some (some (t, v))), upd a.var x (some (t, lv t v))⟩
    | _, _ => none
  | .make k t v => match a.hold k with
    | none => some { a with hold := upd a.hold k (some (some (t, v))) }
    | some _ => none
  | .dtor k => match a.hold k with
    | some _ => some { a with hold := upd a.hold k none }
    | none => none
  | .swap k j => match a.hold k, a.hold j with
    | some o, some o' => some { a with hold := upd (upd a.hold k (some o')) j (some o) }
    | _, _ => none
  | .asgValue k t v => match a.hold k with
    | some _ => some { a with hold := upd a.hold k (some (some (t, v))) }
    | none => none
  | .asgLvalue k x => match a.hold k, a.var x with
    | some _, some (t, v) => some ⟨upd a.hold k (some (some (t, v))), upd a.var x (some (t, lv t v))⟩
    | _, _ => none
  | .asgCopy k j => match a.hold k, a.hold j with
    | some _, some o => some { a with hold := upd a.hold k (some o) }
    | _, _ => none
  | .asgMove k j => match a.hold k, a.hold j with
    | some _, some o => some { a with hold := upd (upd a.hold j (some none)) k (some o) }
    | _, _ => none
  | .clear k => match a.hold k with
    | some _ => some { a with hold := upd a.hold k (some none) }
    | none => none
  | .emplace k t v => match a.hold k with
    | some _ => some { a with hold := upd a.hold k (some (some (t, v))) }
    | none => none
  | .emplaceFrom k j t => match a.hold k, a.hold j with
    | some _, some (some (t', v)) => if t' = t ∧ k ≠ j then some { a with hold := upd a.hold k (some (some (t, v))) } else none
    | _, _ => none
  | .asgFrom k j t => match a.hold k, a.hold j with
    | some _, some (some (t', v)) => if t' = t then some { a with hold := upd (upd a.hold j (some (some (t, lv t v)))) k (some (some (t, v))) } else none
    | _, _ => none
  | .write k t v => match a.hold k with
    | some (some (t', _)) => if t' = t then some { a with hold := upd a.hold k (some (some (t, v))) } else none
    | _ => none
  | .setVar x t v => some { a with var := upd a.var x (some (t, v)) }

/-- The meaning of a history. -/
def Spec.run (lv : Ty → V → V) (a : Spec V) : List (Op V) → Option (Spec V)
  | [] => some a
  | o :: os => match a.step lv o with
    | some a => a.run lv os
    | none => none

/-- No pointer is put into an any by construction or assignment (`make_any<X*>` and
`emplace<X*>` are fine). -/
def NoPtr : Op V → Prop
  | .value _ t _ => ∃ n, t = .base n
  | .asgValue _ t _ => ∃ n, t = .base n
  | .setVar _ t _ => ∃ n, t = .base n
  | .asgFrom _ _ t => ∃ n, t = .base n
  | _ => True

/-- The state of the code represents the state the user thinks of. -/
structure Rep (s : St V) (a : Spec V) : Prop where
  inv : Inv s.box
  hold : abs s.box = emb a.hold
  var : s.var = a.var
  base : ∀ x t v, a.var x = some (t, v) → ∃ n, t = .base n

theorem rep_init : Rep (St.init : St V) Spec.init :=
  ⟨inv_init, by funext k; cases k <;> rfl, rfl, fun _ _ _ h => nomatch h⟩

theorem base_upd {f : Nat → Option (Ty × V)} {x n : Nat} {v : V} (h : ∀ x t v, f x = some (t, v) → ∃ n, t = .base n) :
    ∀ y t w, upd f x (some (.base n, v)) y = some (t, w) → ∃ n, t = Ty.base n := by
  intro y t w hy
  by_cases e : y = x
  · subst e; rw [upd_same] at hy; cases hy; exact ⟨n, rfl⟩
  · rw [upd_ne _ _ e] at hy; exact h y t w hy

theorem step_rep (E : Types V) {s : St V} {a a' : Spec V} (hr : Rep s a) {o : Op V} (hp : NoPtr o) (h : a.step E.moved o = some a') :
    ∃ s', step E s o = .ok s' ∧ Rep s' a' := by
  obtain ⟨hi, ha, hv, hb⟩ := hr
  have hab : ∀ k, abs s.box (.user k) = a.hold k := fun k => by rw [ha]; rfl
  cases o with
  | ctor k =>
    simp only [Spec.step] at h
    split at h <;> cases h
    rename_i hk
    obtain ⟨b, e, i, a1⟩ := ctor_ok hi (k := .user k) (by rw [hab]; exact hk)
    exact ⟨_, e, i, by rw [a1, ha, emb_upd], hv, hb⟩
  | copy k j =>
    simp only [Spec.step] at h
    split at h <;> cases h
    rename_i hk hj
    obtain ⟨b, e, i, a1⟩ := copy_ok hi (k := .user k) (j := .user j) (by rw [hab]; exact hk) (by rw [hab]; exact hj)
    exact ⟨_, e, i, by rw [a1, ha, emb_upd], hv, hb⟩
  | move k j =>
    simp only [Spec.step] at h
    split at h <;> cases h
    rename_i hk hj
    obtain ⟨b, e, i, a1⟩ := move_ok' hi (k := .user k) (j := .user j) (by rw [hab]; exact hk) (by rw [hab]; exact hj)
    exact ⟨_, e, i, by rw [a1, ha, emb_upd, emb_upd], hv, hb⟩
  | value k t v =>
    obtain ⟨n, rfl⟩ := hp
    simp only [Spec.step] at h
    split at h <;> cases h
    rename_i hk
    obtain ⟨b, e, i, a1⟩ := value_ok (E := E) hi (k := .user k) n v (by rw [hab]; exact hk)
    exact ⟨_, e, i, by rw [a1, ha, emb_upd], hv, hb⟩
  | lvalue k x =>
    simp only [Spec.step] at h
    split at h <;> cases h
    rename_i t v hk hx
    obtain ⟨n, rfl⟩ := hb x t v hx
    obtain ⟨b, e, i, a1⟩ := lvalue_ok (E := E) hi (k := .user k) (by rw [hab]; exact hk) (by rw [hv]; exact hx)
    exact ⟨_, e, i, by rw [a1, ha, emb_upd], by rw [hv], base_upd hb⟩
  | make k t v =>
    simp only [Spec.step] at h
    split at h <;> cases h
    rename_i hk
    obtain ⟨b, e, i, a1⟩ := inPlace_ok hi (k := .user k) t v (by rw [hab]; exact hk)
    exact ⟨_, e, i, by rw [a1, ha, emb_upd], hv, hb⟩
  | dtor k =>
    simp only [Spec.step] at h
    split at h <;> cases h
    rename_i hk
    obtain ⟨b, e, i, a1⟩ := dtor_ok hi (k := .user k) (by rw [hab]; exact hk)
    exact ⟨_, e, i, by rw [a1, ha, emb_upd], hv, hb⟩
  | swap k j =>
    simp only [Spec.step] at h
    split at h <;> cases h
    rename_i hk hj
    obtain ⟨b, e, i, a1⟩ := swap_ok' hi (k := .user k) (j := .user j) (by rw [hab]; exact hk) (by rw [hab]; exact hj)
    exact ⟨_, e, i, by rw [a1, ha, emb_upd, emb_upd], hv, hb⟩
  | asgValue k t v =>
    obtain ⟨n, rfl⟩ := hp
    simp only [Spec.step] at h
    split at h <;> cases h
    rename_i hk
    obtain ⟨b, e, i, a1⟩ := assignValue_ok (E := E) hi ha hk n v
    exact ⟨_, e, i, a1, hv, hb⟩
  | asgLvalue k x =>
    simp only [Spec.step] at h
    split at h <;> cases h
    rename_i t v hk hx
    obtain ⟨n, rfl⟩ := hb x t v hx
    obtain ⟨b, e, i, a1⟩ := assignLvalue_ok (E := E) hi ha hk (by rw [hv]; exact hx)
    exact ⟨_, e, i, a1, by rw [hv], base_upd hb⟩
  | asgCopy k j =>
    simp only [Spec.step] at h
    split at h <;> cases h
    rename_i hk hj
    obtain ⟨b, e, i, a1⟩ := assignCopy_ok hi ha hk hj
    exact ⟨_, e, i, a1, hv, hb⟩
  | asgMove k j =>
    simp only [Spec.step] at h
    split at h <;> cases h
    rename_i hk hj
    obtain ⟨b, e, i, a1⟩ := assignMove_ok hi ha hk hj
    exact ⟨_, e, i, a1, hv, hb⟩
  | clear k =>
    simp only [Spec.step] at h
    split at h <;> cases h
    rename_i hk
    obtain ⟨b, e, i, a1⟩ := clear_ok hi ha hk
    exact ⟨_, e, i, a1, hv, hb⟩
  | emplace k t v =>
    simp only [Spec.step] at h
    split at h <;> cases h
    rename_i hk
    obtain ⟨b, e, i, a1⟩ := emplace_ok hi ha hk t v
    exact ⟨_, e, i, a1, hv, hb⟩
  | emplaceFrom k j t =>
    simp only [Spec.step] at h
    split at h
    · rename_i t' v hk hj
      split at h <;> cases h
      rename_i e
      obtain ⟨rfl, hne⟩ := e
      obtain ⟨b, e, i, a1⟩ := emplaceFrom_ok hi ha hk hj hne
      exact ⟨_, e, i, a1, hv, hb⟩
    · cases h
  | asgFrom k j t =>
    obtain ⟨n, rfl⟩ := hp
    simp only [Spec.step] at h
    split at h
    · rename_i t' v hk hj
      split at h <;> cases h
      rename_i e
      subst e
      obtain ⟨b, e, i, a1⟩ := assignFrom_ok (E := E) hi ha hk hj
      exact ⟨_, e, i, a1, hv, hb⟩
    · cases h
  | write k t v =>
    simp only [Spec.step] at h
    split at h
    · rename_i t' w hk
      split at h <;> cases h
      rename_i e
      subst e
      obtain ⟨b, e, i, a1⟩ := castWrite_ok hi ha hk v
      exact ⟨_, e, i, a1, hv, hb⟩
    · cases h
  | setVar x t v =>
    obtain ⟨n, rfl⟩ := hp
    simp only [Spec.step] at h
    cases h
    exact ⟨_, rfl, hi, ha, by rw [hv], base_upd hb⟩

theorem run_rep (E : Types V) {s : St V} {a a' : Spec V} (hr : Rep s a) {os : List (Op V)} (hp : ∀ o ∈ os, NoPtr o)
    (h : a.run E.moved os = some a') : ∃ s', run E s os = .ok s' ∧ Rep s' a' := by
  induction os generalizing s a with
  | nil => cases h; exact ⟨s, rfl, hr⟩
  | cons o os ih =>
    simp only [Spec.run] at h
    split at h
    · rename_i a1 h1
      obtain ⟨s1, e1, r1⟩ := step_rep E hr (hp o (by simp)) h1
      obtain ⟨s2, e2, r2⟩ := ih r1 (fun o ho => hp o (by simp [ho])) h
      exact ⟨s2, by simp only [run, e1, Res.ok_bind, e2], r2⟩
    · cases h

/-- What a user can observe of an any that should hold `o`: `empty`, and for every type
whether `any_cast` gives a pointer and what it points to. -/
def Observes (s : St V) (k : Nat) : Option (Ty × V) → Prop
  | none => empty s (.user k) = .ok true ∧ ∀ t, anyCast s (.user k) t = .ok none
  | some (t, v) => empty s (.user k) = .ok false ∧ (∃ p, anyCast s (.user k) t = .ok (some p)) ∧
      castRead s (.user k) t = .ok v ∧ ∀ t', t' ≠ t → anyCast s (.user k) t' = .ok none

theorem observes {s : St V} {a : Spec V} (hr : Rep s a) {k : Nat} {o : Option (Ty × V)} (hk : a.hold k = some o) :
    Observes s k o := by
  have hab : abs s.box (.user k) = some o := by rw [hr.hold]; exact hk
  cases o with
  | none =>
    have hs := slot_null hr.inv hab
    refine ⟨by simp [empty, ptr_ok hs], fun t => by simp only [anyCast, ptr_ok hs, Res.ok_bind]⟩
  | some o =>
    obtain ⟨t, v⟩ := o
    obtain ⟨p, hp, ho⟩ := slot_some hab
    refine ⟨by simp [empty, ptr_ok hp], ⟨p, by rw [anyCast_eq hp ho, if_pos rfl]⟩, ?_, ?_⟩
    · simp only [castRead, anyCast_eq hp ho, if_true, Res.ok_bind, deref, ho]
    · intro t' ht
      rw [anyCast_eq hp ho, if_neg (Ne.symm ht)]

/-- C47 (partial: no pointers are stored by construction or assignment from a pointer).
Every history of calls that makes sense is defined, and afterwards each any object holds
exactly the typed value (or nothing) it should, as observed through `empty` and
`any_cast`. -/
theorem C47_value_partial (E : Types V) (os : List (Op V)) (hp : ∀ o ∈ os, NoPtr o) (a : Spec V)
    (h : Spec.init.run E.moved os = some a) :
    ∃ s, run E St.init os = .ok s ∧ ∀ k o, a.hold k = some o → Observes s k o := by
  obtain ⟨s, e, r⟩ := run_rep E rep_init hp h
  exact ⟨s, e, fun k o hk => observes r hk⟩

/-- C47 (partial, as above): two any objects never share a value. -/
theorem C47_independent_partial (E : Types V) (os : List (Op V)) (hp : ∀ o ∈ os, NoPtr o) (a : Spec V)
    (h : Spec.init.run E.moved os = some a) (s : St V) (hs : run E St.init os = .ok s) (k j : Nat) (t t' : Ty) (p : Nat)
    (hk : anyCast s (.user k) t = .ok (some p)) (hj : anyCast s (.user j) t' = .ok (some p)) : k = j := by
  obtain ⟨s', e, r⟩ := run_rep E rep_init hp h
  rw [hs] at e; cases e
  have slot : ∀ n t, anyCast s (.user n) t = .ok (some p) → s.box.slot (.user n) = some (some p) := by
    intro n t hn
    simp only [anyCast, ptr] at hn
    cases hc : s.box.slot (.user n) with
    | none => rw [hc] at hn; cases hn
    | some c =>
      rw [hc] at hn
      cases c with
      | none => simp at hn
      | some q =>
        simp only [Res.ok_bind, deref] at hn
        cases ho : s.box.obj q with
        | none => rw [ho] at hn; cases hn
        | some o =>
          rw [ho] at hn
          simp only [Res.ok_bind] at hn
          split at hn <;> simp at hn
          rw [hn]
  have := r.inv.inj _ _ _ (slot k t hk) (slot j t' hj)
  simpa using this

/-- C47 (partial, as above): every value ever held is destroyed exactly once: never twice,
not while it is held, and as soon as no any holds it. -/
theorem C47_destroyed_once_partial (E : Types V) (os : List (Op V)) (hp : ∀ o ∈ os, NoPtr o) (a : Spec V)
    (h : Spec.init.run E.moved os = some a) (s : St V) (hs : run E St.init os = .ok s) :
    s.box.dead.Nodup ∧ (∀ p, p < s.box.next → (p ∈ s.box.dead ↔ ∀ k, s.box.slot (.user k) ≠ some (some p))) ∧
    ((∀ k, a.hold k = none) → s.box.dead.length = s.box.next) := by
  obtain ⟨s', e, r⟩ := run_rep E rep_init hp h
  rw [hs] at e; cases e
  have hi := r.inv
  have key : ∀ p, p < s.box.next → (p ∈ s.box.dead ↔ ∀ k, s.box.slot (.user k) ≠ some (some p)) := by
    intro p hlt
    constructor
    · intro hd k hk
      exact hi.live _ _ hk (hi.deadb p hd).2
    · intro hn
      apply hi.all p hlt
      cases ho : s.box.obj p with
      | none => rfl
      | some o =>
        obtain ⟨k, hk⟩ := hi.owned p (by rw [ho]; simp)
        cases k with
        | user n => exact absurd hk (hn n)
        | temp =>
          have : abs s.box .temp = none := by rw [r.hold]; rfl
          rw [slot_none this] at hk; cases hk
  refine ⟨hi.nodup, key, ?_⟩
  intro hall
  have hperm : s.box.dead.Perm (List.range s.box.next) := by
    refine (List.perm_ext_iff_of_nodup hi.nodup List.nodup_range).2 ?_
    intro p
    rw [List.mem_range]
    constructor
    · exact fun hd => (hi.deadb p hd).1
    · intro hlt
      refine (key p hlt).2 ?_
      intro k hk
      have : abs s.box (.user k) = none := by rw [r.hold]; exact hall k
      rw [slot_none this] at hk; cases hk
  rw [hperm.length_eq, List.length_range]

/-- C47 is violated for pointers: an any constructed or assigned from a pointer to `x` does
not hold the pointer but a default constructed `x`. -/
theorem C47_violated_pointer (E : Types V) (s : St V) (k : Nat) (x : Ty) (v : V) (hi : Inv s.box)
    (hk : abs s.box (.user k) = none) :
    ∃ s', valueCtor E s (.user k) (.ptr x) v = .ok s' ∧ anyCast s' (.user k) (.ptr x) = .ok none ∧
      castRead s' (.user k) x = .ok (E.dflt x) := by
  obtain ⟨b, e, i, a⟩ := inPlace_ok hi x (E.dflt x) hk
  refine ⟨_, e, ?_, ?_⟩
  · obtain ⟨p, hp, ho⟩ := slot_some (s := b) (k := .user k) (by rw [a, upd_same])
    rw [anyCast_eq (s := { s with box := b }) hp ho, if_neg]
    intro h
    have := congrArg sizeOf h
    simp at this
  · obtain ⟨p, hp, ho⟩ := slot_some (s := b) (k := .user k) (by rw [a, upd_same])
    simp only [castRead, anyCast_eq (s := { s with box := b }) hp ho, if_true, Res.ok_bind, deref, ho]

/-- C47 is violated: `a.emplace<T>(*any_cast<T>(a))` destroys the value before it is copied, for every any
that holds a value. -/
theorem C47_violated_emplace_self {s : St V} {a : Spec V} (hr : Rep s a) (k : Nat) (t : Ty) (v : V) (hk : a.hold k = some (some (t, v))) :
    emplaceFrom s (.user k) (.user k) t = .ub := by
  obtain ⟨p, hp, ho⟩ := slot_some (s := s.box) (k := .user k) (o := (t, v)) (by rw [hr.hold]; exact hk)
  obtain ⟨s', e, h⟩ := clear_frame (s := s) (slot_none (by rw [hr.hold]; rfl)) hp (fun q hq => hr.inv.live (.user k) q (by rw [hp, hq]))
  simp only [emplaceFrom, anyCast_eq hp ho, if_true, e, Res.ok_bind, deref, h p, Res.ub_bind]

/-- C48 is violated: constructing an any from a variable of a non-pointer type moves from the
variable, for every type and value. -/
theorem C48_violated (E : Types V) (s : St V) (k x n : Nat) (v : V) (hi : Inv s.box) (hk : abs s.box (.user k) = none)
    (hx : s.var x = some (.base n, v)) :
    ∃ s', lvalueCtor E s (.user k) x = .ok s' ∧ s'.var x = some (.base n, E.moved (.base n) v) := by
  obtain ⟨b, e, _, _⟩ := lvalue_ok (E := E) hi hk hx
  exact ⟨_, e, by simp [upd]⟩

/-- C48 is violated by assignment as well. -/
theorem C48_violated_assign (E : Types V) (s : St V) (a : Spec V) (hr : Rep s a) (k x n : Nat) (v : V) (o : Option (Ty × V))
    (hk : a.hold k = some o) (hx : a.var x = some (.base n, v)) :
    ∃ s', assignLvalue E s (.user k) x = .ok s' ∧ s'.var x = some (.base n, E.moved (.base n) v) := by
  obtain ⟨b, e, _, _⟩ := assignLvalue_ok (E := E) hr.inv hr.hold hk (by rw [hr.var]; exact hx)
  exact ⟨_, e, by simp [upd]⟩

/-- C48 is violated by assignment of a value held by another any as well: that any no longer holds the
value. -/
theorem C48_violated_held (E : Types V) (s : St V) (a : Spec V) (hr : Rep s a) (k j n : Nat) (v : V) (o : Option (Ty × V)) (hne : k ≠ j)
    (hk : a.hold k = some o) (hj : a.hold j = some (some (.base n, v))) :
    ∃ s', assignFrom E s (.user k) (.user j) (.base n) = .ok s' ∧ Observes s' j (some (.base n, E.moved (.base n) v)) := by
  have h : a.step E.moved (.asgFrom k j (.base n)) = some { a with hold := upd (upd a.hold j (some (some (.base n, E.moved (.base n) v)))) k (some (some (.base n, v))) } := by
    simp only [Spec.step, hk, hj, if_pos]
  obtain ⟨s', e, r⟩ := step_rep E hr (o := .asgFrom k j (.base n)) ⟨n, rfl⟩ h
  exact ⟨s', e, observes r (by simp [upd, Ne.symm hne])⟩

/-- C48 (partial: types whose move is a copy, such as the arithmetic types). In every history
all variables have the value last given to them. -/
theorem C48_partial (E : Types V) (hE : ∀ t v, E.moved t v = v) (os : List (Op V)) (hp : ∀ o ∈ os, NoPtr o) (a : Spec V)
    (h : Spec.init.run (fun _ v => v) os = some a) : ∃ s, run E St.init os = .ok s ∧ s.var = a.var ∧
      ∀ k o, a.hold k = some o → Observes s k o := by
  have : E.moved = fun _ v => v := by funext t v; exact hE t v
  obtain ⟨s, e, r⟩ := run_rep E rep_init hp (this ▸ h)
  exact ⟨s, e, r.var, fun k o hk => observes r hk⟩

/- Examples: values are strings, moving empties them; type 0 is a string class. -/
def exE : Types String := ⟨fun _ => "", fun _ _ => ""⟩

/-- Copies, writes to one of them, moves, assigns, swaps and destroys. -/
def exHist : List (Op String) :=
  [.value 0 (.base 0) "a", .copy 1 0, .write 1 (.base 0) "b", .move 2 0, .asgCopy 0 1, .asgMove 1 1, .swap 0 2,
   .emplace 2 (.ptr (.base 1)) "p", .setVar 5 (.base 0) "x", .asgLvalue 1 5, .clear 2, .dtor 2, .ctor 3,
   .emplaceFrom 3 1 (.base 0), .asgFrom 3 3 (.base 0)]

example : ∃ s, run exE St.init exHist = .ok s ∧ Observes s 0 (some (.base 0, "a")) ∧ Observes s 1 (some (.base 0, "x")) ∧ Observes s 3 (some (.base 0, "x")) := by
  have hp : ∀ o ∈ exHist, NoPtr o := by
    intro o ho
    simp only [exHist, List.mem_cons, List.not_mem_nil, or_false] at ho
    rcases ho with rfl | rfl | rfl | rfl | rfl | rfl | rfl | rfl | rfl | rfl | rfl | rfl | rfl | rfl | rfl <;> simp [NoPtr]
  obtain ⟨a, ha⟩ : ∃ a, (Spec.init : Spec String).run exE.moved exHist = some a := ⟨_, rfl⟩
  obtain ⟨s, e, h⟩ := C47_value_partial exE exHist hp a ha
  have ha' := ha
  cases ha
  exact ⟨s, e, h 0 _ rfl, h 1 _ rfl, h 3 _ rfl⟩

example : ∃ s, run exE St.init exHist = .ok s ∧ s.box.dead = [5, 3, 1, 2] ∧ s.box.next = 7 := by
  refine ⟨_, rfl, by decide, by decide⟩

example : ∃ s, valueCtor exE St.init (.user 0) (.ptr (.base 1)) "p" = .ok s ∧ anyCast s (.user 0) (.ptr (.base 1)) = .ok none :=
  let ⟨s, h1, h2, _⟩ := C47_violated_pointer exE St.init 0 (.base 1) "p" inv_init rfl
  ⟨s, h1, h2⟩

/-- Any 0 holds a string and is given it again. -/
example : ∃ s, run exE St.init [.value 0 (.base 0) "a"] = .ok s ∧ emplaceFrom s (.user 0) (.user 0) (.base 0) = .ub := by
  obtain ⟨s, e, r⟩ := run_rep exE rep_init (os := [.value 0 (.base 0) "a"]) (by simp [NoPtr]) rfl
  exact ⟨s, e, C47_violated_emplace_self r 0 (.base 0) "a" rfl⟩

/-- Any 1 is assigned the string of any 0, which is empty then. -/
example : ∃ s s', run exE St.init [.value 0 (.base 0) "a", .ctor 1] = .ok s ∧ assignFrom exE s (.user 1) (.user 0) (.base 0) = .ok s' ∧ Observes s' 0 (some (.base 0, "")) := by
  obtain ⟨s, e, r⟩ := run_rep exE rep_init (os := [.value 0 (.base 0) "a", .ctor 1]) (by simp [NoPtr]) rfl
  obtain ⟨s', e', h⟩ := C48_violated_held exE s _ r 1 0 0 "a" none (by decide) rfl rfl
  exact ⟨s, s', e, e', h⟩

/-- `string x = "x"; any a(x);` leaves `x` empty. -/
example : ∃ s, run exE St.init [.setVar 5 (.base 0) "x", .lvalue 0 5] = .ok s ∧ s.var 5 = some (.base 0, "") :=
  ⟨_, rfl, rfl⟩

example : ∃ s, run (⟨fun _ => "", fun _ v => v⟩ : Types String) St.init [.setVar 5 (.base 0) "x", .lvalue 0 5] = .ok s ∧
    s.var 5 = some (.base 0, "x") := ⟨_, rfl, rfl⟩

end Verif.Any
