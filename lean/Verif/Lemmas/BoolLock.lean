import Verif.Model.BoolLock

/-!
Locks made of `atomic<bool>`: which events threads make, and an invariant over the modification order.
-/

set_option backward.isDefEq.respectTransparency false

namespace Verif.BoolLock

open Verif.RefOrder (Order)

theorem builtin_int (m : Order) : builtinOrder (orderInt m) = some m := by cases m <;> rfl

theorem run_take {A R : Order → Bool} (b : Bool) (l : List Act) (i : Nat) (a : Act) (h : l[i]? = some a) :
    lockRun A R b (l.take (i + 1)) = (lockRun A R b (l.take i)).bind fun b => lockStep A R b a := by
  induction l generalizing b i with
  | nil => simp at h
  | cons x l ih =>
    cases i with
    | zero =>
      simp at h
      subst h
      simp only [Nat.zero_add, List.take_succ_cons, List.take_zero, lockRun]
      show (lockStep A R b x).bind some = lockStep A R b x
      cases lockStep A R b x <;> rfl
    | succ i =>
      simp at h
      simp only [List.take_succ_cons, lockRun]
      cases hs : lockStep A R b x with
      | none => rfl
      | some b' => exact ih b' i h

theorem run_prefix {A R : Order → Bool} (b : Bool) (l : List Act) (i : Nat) (h : (lockRun A R b l).isSome) :
    (lockRun A R b (l.take i)).isSome := by
  induction l generalizing b i with
  | nil => simpa using h
  | cons x l ih =>
    cases i with
    | zero => rfl
    | succ i =>
      simp only [List.take_succ_cons, lockRun] at h ⊢
      cases hs : lockStep A R b x with
      | none => rw [hs] at h; simp at h
      | some b' => rw [hs] at h; exact ih b' i h

/-- Is thread `t` inside before its event `i`? -/
def st (A R : Order → Bool) (e : Exec) (t i : Nat) : Option Bool :=
  (e.prog[t]?).bind fun l => lockRun A R false (l.take i)

theorem st_zero {A R : Order → Bool} {e : Exec} {t : Nat} : st A R e t 0 ≠ some true := by
  unfold st
  cases e.prog[t]? with
  | none => simp
  | some l => simp [lockRun]

theorem st_step {A R : Order → Bool} {e : Exec} (hL : Locking A R e) {t i : Nat} {a : Act}
    (h : e.act (some (t, i)) = some a) :
    ∃ b b', st A R e t i = some b ∧ lockStep A R b a = some b' ∧ st A R e t (i + 1) = some b' := by
  simp only [Exec.act] at h
  unfold st
  cases hp : e.prog[t]? with
  | none => rw [hp] at h; simp at h
  | some l =>
    rw [hp] at h
    have h' : l[i]? = some a := h
    have hr := hL.2 l (List.mem_of_getElem? hp)
    have h1 := run_prefix false l i hr
    have h2 := run_prefix false l (i + 1) hr
    have h3 := run_take (A := A) (R := R) false l i a h'
    simp only [Option.bind_some]
    obtain ⟨b, hb⟩ := Option.isSome_iff_exists.1 h1
    obtain ⟨b', hb'⟩ := Option.isSome_iff_exists.1 h2
    rw [hb, hb', Option.bind_some] at h3
    exact ⟨b, b', hb, h3.symm, hb'⟩

theorem act_lt {e : Exec} {t i j : Nat} {a : Act} (h : e.act (some (t, j)) = some a) (hij : i ≤ j) :
    ∃ b, e.act (some (t, i)) = some b := by
  simp only [Exec.act] at h ⊢
  cases hp : e.prog[t]? with
  | none => rw [hp] at h; simp at h
  | some l =>
    rw [hp] at h
    have h' : l[j]? = some a := h
    have hl : i < l.length := by
      have := (List.getElem?_eq_some_iff.1 h').1
      omega
    exact ⟨l[i], List.getElem?_eq_getElem hl⟩

/-- Event `i` of thread `t` takes the lock. -/
def Takes (A R : Order → Bool) (e : Exec) (t i : Nat) : Prop :=
  (∃ a, e.act (some (t, i)) = some a) ∧ st A R e t i = some false ∧ st A R e t (i + 1) = some true

/-- Event `j` of thread `t` releases it. -/
def Frees (A R : Order → Bool) (e : Exec) (t j : Nat) : Prop :=
  (∃ a, e.act (some (t, j)) = some a) ∧ st A R e t j = some true ∧ st A R e t (j + 1) = some false

/-- Event `k` of thread `t` is in the section that starts with event `i` or ends it. -/
def Sec (A R : Order → Bool) (e : Exec) (t i k : Nat) : Prop :=
  i < k ∧ ∀ j, i < j → j ≤ k → st A R e t j = some true

theorem sec_start {A R : Order → Bool} {e : Exec} (hL : Locking A R e) {t k : Nat} {a : Act}
    (h : e.act (some (t, k)) = some a) (hk : st A R e t k = some true) :
    ∃ i, Takes A R e t i ∧ Sec A R e t i k := by
  induction k generalizing a with
  | zero => exact absurd hk st_zero
  | succ k ih =>
    obtain ⟨b, hb⟩ := act_lt h (Nat.le_succ k)
    obtain ⟨x, y, h1, h2, h3⟩ := st_step hL hb
    cases x with
    | false => exact ⟨k, ⟨⟨b, hb⟩, h1, hk⟩, by omega, fun j h1 h2 => by rw [show j = k + 1 by omega]; exact hk⟩
    | true =>
      obtain ⟨i, ht, hs⟩ := ih hb h1
      refine ⟨i, ht, by have := hs.1; omega, fun j h1 h2 => ?_⟩
      by_cases hj : j = k + 1
      · rw [hj]; exact hk
      · exact hs.2 j h1 (by omega)

theorem sec_unique {A R : Order → Bool} {e : Exec} {t i i' k : Nat} (h1 : Takes A R e t i) (h2 : Takes A R e t i')
    (s1 : Sec A R e t i k) (s2 : Sec A R e t i' k) : i = i' := by
  rcases Nat.lt_trichotomy i i' with h | h | h
  · have := s1.2 i' h (by have := s2.1; omega)
    rw [h2.2.1] at this
    simp at this
  · exact h
  · have := s2.2 i h (by have := s1.1; omega)
    rw [h1.2.1] at this
    simp at this

theorem free_unique {A R : Order → Bool} {e : Exec} {t i j j' : Nat} (f1 : Frees A R e t j) (f2 : Frees A R e t j')
    (s1 : Sec A R e t i j) (s2 : Sec A R e t i j') : j = j' := by
  rcases Nat.lt_trichotomy j j' with h | h | h
  · have := s2.2 (j + 1) (by have := s1.1; omega) h
    rw [f1.2.2] at this
    simp at this
  · exact h
  · have := s1.2 (j' + 1) (by have := s2.1; omega) h
    rw [f2.2.2] at this
    simp at this

theorem label_load {m : Option Order} {r : Ret} {l : Label} (h : (Call.load m).label r = some l) :
    ∃ v, r = .bool v ∧ loadOk (order m) = true ∧ l = .read (order m) v := by
  cases r <;> simp [Call.label, Call.impl, Impl.builtin, Builtin.label, builtin_int] at h
  exact ⟨_, rfl, h.1, h.2.symm⟩

theorem label_conv {r : Ret} {l : Label} (h : Call.conv.label r = some l) : ∃ v, r = .bool v ∧ l = .read .seq_cst v := by
  cases r <;> simp [Call.label, Call.impl, Impl.builtin, Builtin.label, builtin_int, order] at h
  exact ⟨_, rfl, h.2.symm⟩

theorem label_store {v : Bool} {m : Option Order} {r : Ret} {l : Label} (h : (Call.store v m).label r = some l) :
    r = .unit ∧ storeOk (order m) = true ∧ l = .write (order m) v := by
  cases r <;> simp [Call.label, Call.impl, Impl.builtin, Builtin.label, builtin_int] at h
  exact ⟨rfl, h.1, h.2.symm⟩

theorem label_assign {v : Bool} {r : Ret} {l : Label} (h : (Call.assign v).label r = some l) :
    r = .bool v ∧ l = .write .seq_cst v := by
  unfold Call.label at h
  split at h
  · rename_i v' heq
    injection heq with heq
    subst heq
    split at h
    · rename_i hr
      simp [Call.impl, Impl.builtin, Builtin.label, builtin_int, order] at h
      exact ⟨hr, h.2.symm⟩
    · simp at h
  · rename_i hn; exact absurd rfl (hn v)

theorem label_exchange {v : Bool} {m : Option Order} {r : Ret} {l : Label} (h : (Call.exchange v m).label r = some l) :
    ∃ old, r = .bool old ∧ l = .rmw (order m) old v := by
  cases r <;> simp [Call.label, Call.impl, Impl.builtin, Builtin.label, builtin_int] at h
  exact ⟨_, rfl, h.symm⟩

theorem label_cas {x v w : Bool} {m1 m2 : Order} {r : Ret} {l : Label}
    (h : (Builtin.casN x v w (orderInt m1) (orderInt m2)).label r = some l) :
    ∃ ok x', r = .cas ok x' ∧ loadOk m2 = true ∧
      ((ok = true ∧ x' = x ∧ l = .rmw m1 x v) ∨ (ok = false ∧ (w = true ∨ x' ≠ x) ∧ l = .read m2 x')) := by
  cases r with
  | unit => simp [Builtin.label] at h
  | bool b => simp [Builtin.label] at h
  | cas ok x' =>
    simp only [Builtin.label, builtin_int, Option.bind_eq_bind, Option.bind_some] at h
    refine ⟨ok, x', rfl, ?_⟩
    cases ho : loadOk m2 with
    | false => rw [ho] at h; simp at h
    | true =>
      rw [ho] at h
      cases ok with
      | true =>
        simp at h
        exact ⟨rfl, .inl ⟨rfl, h.1, h.2.symm⟩⟩
      | false =>
        simp at h
        exact ⟨rfl, .inr ⟨rfl, h.1, h.2.symm⟩⟩

/-- The event a step makes. -/
theorem step_label {A R : Order → Bool} {b b' : Bool} {c : Call} {r : Ret} {l : Label}
    (hs : lockStep A R b (.flag c r) = some b') (hl : c.label r = some l) :
    (b = false ∧ b' = true ∧ ∃ o, A o = true ∧ l = .rmw o false true) ∨
    (b = false ∧ b' = false ∧ ∃ o, l = .rmw o true true) ∨
    (b = true ∧ b' = false ∧ ∃ o, R o = true ∧ storeOk o = true ∧ l = .write o false) ∨
    (b = b' ∧ ∃ o v, l = .read o v) := by
  have cas : ∀ {m1 m2 : Order} {w : Bool} {ok x : Bool},
      (Builtin.casN false true w (orderInt m1) (orderInt m2)).label (.cas ok x) = some l →
      (if ok = true then (if A m1 = true then some true else none) else some false) = some b' → b = false →
      (b = false ∧ b' = true ∧ ∃ o, A o = true ∧ l = .rmw o false true) ∨
      (b = false ∧ b' = false ∧ ∃ o, l = .rmw o true true) ∨
      (b = true ∧ b' = false ∧ ∃ o, R o = true ∧ storeOk o = true ∧ l = .write o false) ∨
      (b = b' ∧ ∃ o v, l = .read o v) := by
    intro m1 m2 w ok x h1 h2 hb
    subst hb
    obtain ⟨ok', x', e, _, h⟩ := label_cas h1
    injection e with e1 e2
    subst e1 e2
    rcases h with ⟨rfl, _, h⟩ | ⟨rfl, _, h⟩
    · by_cases hA : A m1 = true
      · simp [hA] at h2
        exact .inl ⟨rfl, h2, _, hA, h⟩
      · simp [hA] at h2
    · simp at h2
      exact .inr (.inr (.inr ⟨h2.symm, _, _, h⟩))
  unfold lockStep at hs
  split at hs
  · rename_i m old heq
    injection heq with e1 e2
    subst e1 e2
    obtain ⟨old', e, h⟩ := label_exchange hl
    injection e with e
    subst e
    cases old with
    | true => simp at hs; exact .inr (.inl ⟨rfl, hs, _, h⟩)
    | false =>
      by_cases hA : A (order m) = true
      · simp [hA] at hs; exact .inl ⟨rfl, hs, _, hA, h⟩
      · simp [hA] at hs
  · rename_i m1 m2 ok e' heq
    injection heq with e1 e2
    subst e1 e2
    exact cas hl hs rfl
  · rename_i m1 m2 ok e' heq
    injection heq with e1 e2
    subst e1 e2
    exact cas hl hs rfl
  · rename_i m r' heq
    injection heq with e1 e2
    subst e1 e2
    injection hs with hs
    obtain ⟨v, _, _, h⟩ := label_load hl
    exact .inr (.inr (.inr ⟨hs, _, _, h⟩))
  · rename_i r' heq
    injection heq with e1 e2
    subst e1 e2
    injection hs with hs
    obtain ⟨v, _, h⟩ := label_conv hl
    exact .inr (.inr (.inr ⟨hs, _, _, h⟩))
  · rename_i m r' heq
    injection heq with e1 e2
    subst e1 e2
    obtain ⟨_, h1, h⟩ := label_store hl
    by_cases hR : R (order m) = true
    · simp [hR] at hs; exact .inr (.inr (.inl ⟨rfl, hs, _, hR, h1, h⟩))
    · simp [hR] at hs
  · rename_i r' heq
    injection heq with e1 e2
    subst e1 e2
    obtain ⟨_, h⟩ := label_assign hl
    by_cases hR : R (order none) = true
    · simp [hR] at hs; exact .inr (.inr (.inl ⟨rfl, hs, _, hR, rfl, h⟩))
    · simp [hR] at hs
  · rename_i heq; cases heq
  · rename_i heq; cases heq
  · cases hs

/-- The event number `i` of thread `t` by where it is. -/
theorem event_label {A R : Order → Bool} {e : Exec} (hL : Locking A R e) {t i : Nat} {l : Label}
    (h : e.lab (some (t, i)) = some l) :
    (Takes A R e t i ∧ ∃ o, A o = true ∧ l = .rmw o false true) ∨
    (st A R e t i = some false ∧ st A R e t (i + 1) = some false ∧ ∃ o, l = .rmw o true true) ∨
    (Frees A R e t i ∧ ∃ o, R o = true ∧ storeOk o = true ∧ l = .write o false) ∨
    (st A R e t i = st A R e t (i + 1) ∧ ∃ o v, l = .read o v) := by
  cases ha : e.act (some (t, i)) with
  | none => simp only [Exec.lab, ha] at h; cases h
  | some a =>
    obtain ⟨b, b', h1, h2, h3⟩ := st_step hL ha
    cases a with
    | read x v => simp only [Exec.lab, ha] at h; cases h
    | write x v => simp only [Exec.lab, ha] at h; cases h
    | flag c r =>
      simp only [Exec.lab, ha] at h
      rcases step_label h2 h with ⟨rfl, rfl, h'⟩ | ⟨rfl, rfl, h'⟩ | ⟨rfl, rfl, h'⟩ | ⟨rfl, h'⟩
      · exact .inl ⟨⟨⟨_, ha⟩, h1, h3⟩, h'⟩
      · exact .inr (.inl ⟨h1, h3, h'⟩)
      · exact .inr (.inr (.inl ⟨⟨⟨_, ha⟩, h1, h3⟩, h'⟩))
      · exact .inr (.inr (.inr ⟨by rw [h1, h3], h'⟩))

theorem split_unique {α : Type} {p q u c : List α} {x : α} (hn : (p ++ x :: q).Nodup) (h : p ++ x :: q = u ++ x :: c) :
    p = u := by
  have hp : x ∉ p := fun hx => (List.nodup_append.1 hn).2.2 x hx x (by simp) rfl
  rw [h] at hn
  have hu : x ∉ u := fun hx => (List.nodup_append.1 hn).2.2 x hx x (by simp) rfl
  clear hn
  induction u generalizing p with
  | nil =>
    cases p with
    | nil => rfl
    | cons z p => simp at h; exact absurd (h.1 ▸ List.mem_cons_self) hp
  | cons w u ih =>
    cases p with
    | nil => simp at h; exact absurd (h.1 ▸ List.mem_cons_self) hu
    | cons z p =>
      simp only [List.cons_append, List.cons.injEq] at h
      rw [h.1, ih h.2 (fun hh => hp (List.mem_cons_of_mem _ hh)) (fun hh => hu (List.mem_cons_of_mem _ hh))]

theorem prec_nodup {α : Type} {l p q : List α} {x y : α} (hn : l.Nodup) (h : l = p ++ x :: q) (hp : Prec l y x) : y ∈ p := by
  obtain ⟨a, b, c, h'⟩ := hp
  rw [h] at h' hn
  have e : a ++ y :: (b ++ x :: c) = (a ++ y :: b) ++ x :: c := by simp
  rw [e] at h'
  rw [split_unique hn h']
  simp

theorem takes_mo {A R : Order → Bool} {e : Exec} (hc : Consistent e) (hL : Locking A R e) {t k : Nat}
    (hk1 : Takes A R e t k) : some (t, k) ∈ e.mo := by
  obtain ⟨a, ha⟩ := hk1.1
  obtain ⟨b, b', g1, g2, g3⟩ := st_step hL ha
  rw [hk1.2.1] at g1
  rw [hk1.2.2] at g3
  injection g1 with g1
  injection g3 with g3
  subst g1 g3
  cases a with
  | read x v => simp [lockStep] at g2
  | write x v => simp [lockStep] at g2
  | flag c r =>
    obtain ⟨l', hl'⟩ := Option.isSome_iff_exists.1 (hc.legal _ _ _ ha)
    rcases event_label hL hl' with ⟨_, o', _, rfl⟩ | ⟨_, h2, _⟩ | ⟨h2, _⟩ | ⟨h2, _⟩
    · rw [hc.mem]; simp [Exec.writes, hl', Label.writes]
    · exact absurd (h2.symm.trans hk1.2.2) (by simp)
    · exact absurd (h2.2.1.symm.trans hk1.2.1) (by simp)
    · rw [hk1.2.1, hk1.2.2] at h2; simp at h2

/-- What is known after the part `P` of the modification order; `h`: who took the lock last and still has it. -/
structure Inv (A R : Order → Bool) (e : Exec) (P : List Id) (h : Option (Nat × Nat)) : Prop where
  val : ∀ x, P.getLast? = some x → e.writes x = some h.isSome
  takes : ∀ t i, Takes A R e t i → some (t, i) ∈ P →
    h = some (t, i) ∨ ∃ j, Sec A R e t i j ∧ Frees A R e t j ∧ some (t, j) ∈ P
  held : ∀ t i, h = some (t, i) → ∀ u j, Frees A R e u j → some (u, j) ∈ P → Hb e (some (u, j)) (some (t, i))
  free : h = none → ∀ x, P.getLast? = some x →
    (∀ u j, Frees A R e u j → some (u, j) ∈ P → some (u, j) = x ∨ Hb e (some (u, j)) x) ∧
    (x = none ∨ ∃ l, e.lab x = some l ∧ l.writes.isSome ∧ l.order.releases = true)
  pair : ∀ t i u k, Takes A R e t i → Takes A R e u k → some (t, i) ∈ P → some (u, k) ∈ P → (t, i) ≠ (u, k) →
    (∃ j, Sec A R e t i j ∧ Frees A R e t j ∧ Hb e (some (t, j)) (some (u, k))) ∨
    (∃ j, Sec A R e u k j ∧ Frees A R e u j ∧ Hb e (some (u, j)) (some (t, i)))

theorem inv_step {A R : Order → Bool} {e : Exec} (hc : Consistent e) (hL : Locking A R e)
    (hA : ∀ m, A m = true → m.acquires = true) (hR : ∀ m, R m = true → storeOk m = true → m.releases = true)
    {P Q : List Id} {X : Id} {h : Option (Nat × Nat)} (hm : e.mo = P ++ X :: Q) (hI : Inv A R e P h) :
    ∃ h', Inv A R e (P ++ [X]) h' := by
  have hXmo : X ∈ e.mo := by rw [hm]; simp
  have hXP : X ∉ P := by
    have hn := hc.nodup
    rw [hm] at hn
    exact fun hx => (List.nodup_append.1 hn).2.2 X hx X (by simp) rfl
  have hPmo : ∀ y, y ∈ P → y ∈ e.mo := fun y hy => by rw [hm]; simp [hy]
  have hw := (hc.mem X).1 hXmo
  have last : ∀ x, (P ++ [X]).getLast? = some x → x = X := by
    intro x hx
    simp at hx
    exact hx.symm
  cases X with
  | none =>
    have hP : P = [] := by
      cases hP : P with
      | nil => rfl
      | cons y P' =>
        exfalso
        have hy : y ∈ P := by rw [hP]; simp
        cases y with
        | none => exact hXP hy
        | some p =>
          have hwy := (hc.mem _).1 (hPmo _ hy)
          have : ∃ a, e.act (some p) = some a := by
            cases ha : e.act (some p) with
            | none => simp [Exec.writes, Exec.lab, ha] at hwy
            | some a => exact ⟨a, rfl⟩
          obtain ⟨a, ha⟩ := this
          have hp := hc.ww _ _ hXmo (hPmo _ hy) (Hb.init ha)
          obtain ⟨p1, p2, hP2⟩ := List.append_of_mem hy
          have : e.mo = p1 ++ some p :: (p2 ++ none :: Q) := by rw [hm, hP2]; simp
          have := prec_nodup hc.nodup this hp
          exact hXP (by rw [hP2]; simp [this])
    subst hP
    refine ⟨none, ?_, ?_, ?_, ?_, ?_⟩
    · intro x hx
      rw [last x hx]
      simp [Exec.writes, Exec.lab, Label.writes, hL.1]
    · intro t i _ hx; simp at hx
    · intro t i hx; cases hx
    · intro _ x hx
      rw [last x hx]
      refine ⟨fun u j _ hx => ?_, .inl rfl⟩
      simp at hx
    · intro t i u k _ _ hx; simp at hx
  | some p =>
    obtain ⟨t, i⟩ := p
    obtain ⟨l, hl⟩ : ∃ l, e.lab (some (t, i)) = some l := by
      cases hl : e.lab (some (t, i)) with
      | none => simp [Exec.writes, hl] at hw
      | some l => exact ⟨l, rfl⟩
    -- a read-modify-write operation reads the last value
    have rmw : l.isRmw = true → P.getLast? = some (e.rf (some (t, i))) := by
      intro hr
      obtain ⟨p, q, hpq⟩ := hc.atomic _ _ hl hr
      have h1 : e.mo = (p ++ [e.rf (some (t, i))]) ++ some (t, i) :: q := by rw [hpq]; simp
      have hn := hc.nodup
      rw [hm] at hn
      have : P = p ++ [e.rf (some (t, i))] := split_unique hn (hm.symm.trans h1)
      rw [this]
      simp
    rcases event_label hL hl with ⟨ht, o, ho, rfl⟩ | ⟨hs1, hs2, o, rfl⟩ | ⟨hf, o, ho, hok, rfl⟩ | ⟨_, o, v, rfl⟩
    · -- taking the lock
      have hlast := rmw rfl
      have hv := hI.val _ hlast
      have hv' := hc.value (some (t, i)) false (by simp [Exec.reads, hl, Label.reads])
      rw [hv] at hv'
      have hn : h = none := by
        cases h with
        | none => rfl
        | some a => simp at hv'
      subst hn
      obtain ⟨f1, f2⟩ := hI.free rfl _ hlast
      have hbX : Hb e (e.rf (some (t, i))) (some (t, i)) := by
        rcases f2 with f2 | ⟨l', g1, g2, g3⟩
        · rw [f2]
          exact Hb.init ht.1.choose_spec
        · exact Hb.sync ⟨l', _, g1, g2, g3, hl, by simp [Label.reads], hA o ho, .head⟩
      have frees : ∀ u j, Frees A R e u j → some (u, j) ∈ P → Hb e (some (u, j)) (some (t, i)) := by
        intro u j hu hj
        rcases f1 u j hu hj with h1 | h1
        · rw [h1]; exact hbX
        · exact h1.trans hbX
      have notFree : ∀ u j, Frees A R e u j → some (u, j) ≠ some (t, i) := by
        intro u j hu he
        injection he with he
        injection he with e1 e2
        subst e1 e2
        exact absurd (hu.2.1.symm.trans ht.2.1) (by simp)
      refine ⟨some (t, i), ?_, ?_, ?_, ?_, ?_⟩
      · intro x hx
        rw [last x hx]
        simp [Exec.writes, hl, Label.writes]
      · intro u k hu hk
        rcases List.mem_append.1 hk with hk | hk
        · rcases hI.takes u k hu hk with h1 | ⟨j, h1, h2, h3⟩
          · cases h1
          · exact .inr ⟨j, h1, h2, by simp [h3]⟩
        · simp at hk
          exact .inl (by rw [hk.1, hk.2])
      · intro t' i' he u j hu hj
        injection he with he
        injection he with e1 e2
        subst e1 e2
        rcases List.mem_append.1 hj with hj | hj
        · exact frees u j hu hj
        · simp only [List.mem_singleton] at hj
          exact absurd hj (notFree u j hu)
      · intro hx; cases hx
      · intro t1 i1 t2 i2 h1 h2 m1 m2 hne
        have old : ∀ u k, Takes A R e u k → some (u, k) ∈ P →
            ∃ j, Sec A R e u k j ∧ Frees A R e u j ∧ Hb e (some (u, j)) (some (t, i)) := by
          intro u k hu hk
          rcases hI.takes u k hu hk with h1 | ⟨j, h1, h2, h3⟩
          · cases h1
          · exact ⟨j, h1, h2, frees u j h2 h3⟩
        rcases List.mem_append.1 m1 with m1 | m1
        · rcases List.mem_append.1 m2 with m2 | m2
          · exact hI.pair t1 i1 t2 i2 h1 h2 m1 m2 hne
          · simp only [List.mem_singleton] at m2
            rw [m2]
            exact .inl (old t1 i1 h1 m1)
        · rcases List.mem_append.1 m2 with m2 | m2
          · simp only [List.mem_singleton] at m1
            rw [m1]
            exact .inr (old t2 i2 h2 m2)
          · simp only [List.mem_singleton] at m1 m2
            rw [← m2] at m1
            injection m1 with m1
            exact absurd m1 hne
    · -- a failed attempt
      have hlast := rmw rfl
      have hv := hI.val _ hlast
      have hv' := hc.value (some (t, i)) true (by simp [Exec.reads, hl, Label.reads])
      rw [hv] at hv'
      have noT : ∀ u k, Takes A R e u k → some (u, k) ≠ some (t, i) := by
        intro u k hu he
        injection he with he
        injection he with e1 e2
        subst e1 e2
        exact absurd (hs2.symm.trans hu.2.2) (by simp)
      have noF : ∀ u k, Frees A R e u k → some (u, k) ≠ some (t, i) := by
        intro u k hu he
        injection he with he
        injection he with e1 e2
        subst e1 e2
        exact absurd (hs1.symm.trans hu.2.1) (by simp)
      refine ⟨h, ?_, ?_, ?_, ?_, ?_⟩
      · intro x hx
        rw [last x hx]
        rw [hv']
        simp [Exec.writes, hl, Label.writes]
      · intro u k hu hk
        rcases List.mem_append.1 hk with hk | hk
        · rcases hI.takes u k hu hk with h1 | ⟨j, h1, h2, h3⟩
          · exact .inl h1
          · exact .inr ⟨j, h1, h2, by simp [h3]⟩
        · simp only [List.mem_singleton] at hk
          exact absurd hk (noT u k hu)
      · intro t' i' he u j hu hj
        rcases List.mem_append.1 hj with hj | hj
        · exact hI.held t' i' he u j hu hj
        · simp only [List.mem_singleton] at hj
          exact absurd hj (noF u j hu)
      · intro hx; rw [hx] at hv'; simp at hv'
      · intro t1 i1 t2 i2 h1 h2 m1 m2 hne
        rcases List.mem_append.1 m1 with m1 | m1
        · rcases List.mem_append.1 m2 with m2 | m2
          · exact hI.pair t1 i1 t2 i2 h1 h2 m1 m2 hne
          · simp only [List.mem_singleton] at m2
            exact absurd m2 (noT _ _ h2)
        · simp only [List.mem_singleton] at m1
          exact absurd m1 (noT _ _ h1)
    · -- releasing it
      obtain ⟨k, hk1, hk2⟩ := sec_start hL hf.1.choose_spec hf.2.1
      have hb : Hb e (some (t, k)) (some (t, i)) := Hb.sb hk2.1 hk1.1.choose_spec hf.1.choose_spec
      have hkw := takes_mo hc hL hk1
      have hkP : some (t, k) ∈ P := prec_nodup hc.nodup hm (hc.ww _ _ hkw hXmo hb)
      have hh : h = some (t, k) := by
        rcases hI.takes t k hk1 hkP with h1 | ⟨j, h1, h2, h3⟩
        · exact h1
        · exact absurd (free_unique hf h2 hk2 h1 ▸ h3) hXP
      have noT : ∀ u k, Takes A R e u k → some (u, k) ≠ some (t, i) := by
        intro u k hu he
        injection he with he
        injection he with e1 e2
        subst e1 e2
        exact absurd (hf.2.1.symm.trans hu.2.1) (by simp)
      refine ⟨none, ?_, ?_, ?_, ?_, ?_⟩
      · intro x hx
        rw [last x hx]
        simp [Exec.writes, hl, Label.writes]
      · intro u k' hu hk'
        rcases List.mem_append.1 hk' with hk' | hk'
        · rcases hI.takes u k' hu hk' with h1 | ⟨j, h1, h2, h3⟩
          · rw [hh] at h1
            injection h1 with h1
            injection h1 with e1 e2
            subst e1 e2
            exact .inr ⟨i, hk2, hf, by simp⟩
          · exact .inr ⟨j, h1, h2, by simp [h3]⟩
        · simp only [List.mem_singleton] at hk'
          exact absurd hk' (noT u k' hu)
      · intro t' i' he; cases he
      · intro _ x hx
        rw [last x hx]
        refine ⟨fun u j hu hj => ?_, .inr ⟨_, hl, by simp [Label.writes], hR o ho hok⟩⟩
        rcases List.mem_append.1 hj with hj | hj
        · exact .inr ((hI.held t k hh u j hu hj).trans hb)
        · simp only [List.mem_singleton] at hj
          exact .inl hj
      · intro t1 i1 t2 i2 h1 h2 m1 m2 hne
        rcases List.mem_append.1 m1 with m1 | m1
        · rcases List.mem_append.1 m2 with m2 | m2
          · exact hI.pair t1 i1 t2 i2 h1 h2 m1 m2 hne
          · simp only [List.mem_singleton] at m2
            exact absurd m2 (noT _ _ h2)
        · simp only [List.mem_singleton] at m1
          exact absurd m1 (noT _ _ h1)
    · simp [Exec.writes, hl, Label.writes] at hw

theorem inv_mo {A R : Order → Bool} {e : Exec} (hc : Consistent e) (hL : Locking A R e)
    (hA : ∀ m, A m = true → m.acquires = true) (hR : ∀ m, R m = true → storeOk m = true → m.releases = true) :
    ∃ h, Inv A R e e.mo h := by
  have : ∀ Q P, e.mo = P ++ Q → (∃ h, Inv A R e P h) → ∃ h, Inv A R e e.mo h := by
    intro Q
    induction Q with
    | nil => intro P hm hI; rw [hm, List.append_nil]; exact hI
    | cons X Q ih =>
      rintro P hm ⟨h, hI⟩
      exact ih (P ++ [X]) (by rw [hm]; simp) (inv_step hc hL hA hR hm hI)
  refine this e.mo [] rfl ⟨none, ?_, ?_, ?_, ?_, ?_⟩
  · intro x hx; simp at hx
  · intro t i _ hx; simp at hx
  · intro t i hx; cases hx
  · intro _ x hx; simp at hx
  · intro t i u k _ _ hx; simp at hx

/-- All events. -/
def Exec.ids (e : Exec) : List Id :=
  none :: (List.range e.prog.length).flatMap fun t => (List.range ((e.prog[t]?).getD []).length).map fun i => some (t, i)

theorem mem_ids {e : Exec} {x : Id} (h : x = none ∨ (e.act x).isSome) : x ∈ e.ids := by
  unfold Exec.ids
  cases x with
  | none => exact List.mem_cons_self
  | some p =>
    obtain ⟨t, i⟩ := p
    rcases h with h | h
    · cases h
    · refine List.mem_cons_of_mem _ (List.mem_flatMap.2 ?_)
      simp only [Exec.act] at h
      cases hp : e.prog[t]? with
      | none => rw [hp] at h; simp at h
      | some l =>
        rw [hp] at h
        refine ⟨t, List.mem_range.2 (List.getElem?_eq_some_iff.1 hp).1, List.mem_map.2 ⟨i, ?_, rfl⟩⟩
        rw [hp]
        have h' : (l[i]?).isSome := h
        simpa using h'

/-- A finite set with a strict total order can be listed in order. -/
theorem sorted {α : Type} (r : α → α → Prop) (trans : ∀ a b c, r a b → r b c → r a c) (W : List α)
    (total : ∀ x y, x ∈ W → y ∈ W → x ≠ y → r x y ∨ r y x) :
    ∃ L : List α, L.Pairwise r ∧ ∀ x, x ∈ L ↔ x ∈ W := by
  induction W with
  | nil => exact ⟨[], .nil, fun x => Iff.rfl⟩
  | cons y W ih =>
    obtain ⟨L, h1, h2⟩ := ih fun x z hx hz => total x z (List.mem_cons_of_mem _ hx) (List.mem_cons_of_mem _ hz)
    by_cases hy : y ∈ W
    · exact ⟨L, h1, fun x => by rw [h2, List.mem_cons]; exact ⟨.inr, fun h => h.elim (fun e => e ▸ hy) id⟩⟩
    · have ht : ∀ x, x ∈ L → r x y ∨ r y x := by
        intro x hx
        have hx := (h2 x).1 hx
        exact total x y (List.mem_cons_of_mem _ hx) List.mem_cons_self (fun e => hy (e ▸ hx))
      have : ∀ L : List α, L.Pairwise r → (∀ x, x ∈ L → r x y ∨ r y x) →
          ∃ L' : List α, L'.Pairwise r ∧ ∀ x, x ∈ L' ↔ x = y ∨ x ∈ L := by
        intro L hL ht
        induction L with
        | nil => exact ⟨[y], by simp, by simp⟩
        | cons z L ih =>
          rw [List.pairwise_cons] at hL
          rcases ht z List.mem_cons_self with h | h
          · obtain ⟨L', g1, g2⟩ := ih hL.2 fun x hx => ht x (List.mem_cons_of_mem _ hx)
            refine ⟨z :: L', List.pairwise_cons.2 ⟨fun x hx => ?_, g1⟩, fun x => ?_⟩
            · rcases (g2 x).1 hx with rfl | hx
              · exact h
              · exact hL.1 x hx
            · simp only [List.mem_cons, g2]
              constructor
              · rintro (h | h | h)
                · exact .inr (.inl h)
                · exact .inl h
                · exact .inr (.inr h)
              · rintro (h | h | h)
                · exact .inr (.inl h)
                · exact .inl h
                · exact .inr (.inr h)
          · refine ⟨y :: z :: L, List.pairwise_cons.2 ⟨fun x hx => ?_, List.pairwise_cons.2 hL⟩, fun x => List.mem_cons⟩
            rcases List.mem_cons.1 hx with rfl | hx
            · exact h
            · exact trans _ _ _ h (hL.1 x hx)
      obtain ⟨L', g1, g2⟩ := this L h1 ht
      exact ⟨L', g1, fun x => by rw [g2, h2, List.mem_cons]⟩

theorem prec_of_pairwise {α : Type} {r : α → α → Prop} {l : List α} (hp : l.Pairwise r) (asymm : ∀ a b, r a b → ¬ r b a)
    {x y : α} (hx : x ∈ l) (hy : y ∈ l) (h : r x y) : Prec l x y := by
  obtain ⟨p, q, rfl⟩ := List.append_of_mem hx
  rcases List.mem_append.1 hy with h' | h'
  · exact absurd ((List.pairwise_append.1 hp).2.2 y h' x (by simp)) (asymm _ _ h)
  · rcases List.mem_cons.1 h' with h' | h'
    · subst h'; exact absurd h (asymm _ _ h)
    · obtain ⟨a, b, rfl⟩ := List.append_of_mem h'
      exact ⟨p, a, b, rfl⟩

theorem pairwise_of_prec {α : Type} {r : α → α → Prop} {l : List α} (hp : l.Pairwise r) {x y : α} (h : Prec l x y) : r x y := by
  obtain ⟨a, b, c, rfl⟩ := h
  have := (List.pairwise_append.1 hp).2.1
  exact (List.pairwise_cons.1 this).1 y (by simp)

/-- The place of an event in a list. -/
def rankOf (ord : List Id) (x : Id) : Nat := ord.idxOf x

/-- An execution in which the events happen one after another, each read reading the last write, is one that C++ allows:
conditions to be checked for finitely many events. -/
def Exec.chk (e : Exec) (ord : List Id) : Bool :=
  (e.ids.all fun x => ord.contains x) && decide ord.Nodup &&
  (e.ids.all fun x => x = none || rankOf ord none < rankOf ord x) &&
  (e.ids.all fun x => e.ids.all fun y => match x, y with
    | some (t, i), some (u, j) => !(t = u && i < j) || rankOf ord x < rankOf ord y
    | _, _ => true) &&
  (e.ids.all fun x => match e.act x with
    | some (.flag _ _) => (e.lab x).isSome
    | _ => true) &&
  decide (e.mo.Pairwise fun x y => rankOf ord x < rankOf ord y) &&
  (e.ids.all fun x => e.mo.contains x == (e.writes x).isSome) &&
  (e.mo.all fun x => e.ids.contains x) &&
  (e.ids.all fun x => match e.reads x with
    | none => true
    | some v => e.writes (e.rf x) = some v && rankOf ord (e.rf x) < rankOf ord x &&
      e.mo.all fun w => !(rankOf ord w < rankOf ord x) || w = e.rf x || rankOf ord w < rankOf ord (e.rf x))

theorem chk_spec (e : Exec) (ord : List Id) (h : e.chk ord = true) :
    Consistent e ∧ ∀ x y, Hb e x y → rankOf ord x < rankOf ord y := by
  simp only [Exec.chk, Bool.and_eq_true, List.all_eq_true, decide_eq_true_eq] at h
  obtain ⟨⟨⟨⟨⟨⟨⟨⟨c0, c1⟩, c2⟩, c3⟩, c4⟩, c5⟩, c6⟩, c7⟩, c8⟩ := h
  have act_ids : ∀ {x : Id} {a : Act}, e.act x = some a → x ∈ e.ids := fun h => mem_ids (.inr (by rw [h]; rfl))
  have lab_ids : ∀ {x : Id} {l : Label}, e.lab x = some l → x ∈ e.ids := by
    intro x l hl
    cases x with
    | none => exact mem_ids (.inl rfl)
    | some p =>
      cases ha : e.act (some p) with
      | none => simp [Exec.lab, ha] at hl
      | some a => exact act_ids ha
  have rd_ids : ∀ {x : Id} {v : Bool}, e.reads x = some v → x ∈ e.ids := by
    intro x v hv
    cases hl : e.lab x with
    | none => simp [Exec.reads, hl] at hv
    | some l => exact lab_ids hl
  have wr_ids : ∀ {x : Id}, (e.writes x).isSome → x ∈ e.ids := by
    intro x hv
    cases hl : e.lab x with
    | none => simp [Exec.writes, hl] at hv
    | some l => exact lab_ids hl
  have inj : ∀ {x y : Id}, x ∈ e.ids → y ∈ e.ids → rankOf ord x = rankOf ord y → x = y := by
    intro x y hx hy he
    simp only [rankOf] at he
    have h1 := c0 x hx
    have h2 := c0 y hy
    simp only [List.contains_iff_mem] at h1 h2
    have a1 := List.getElem_idxOf (List.idxOf_lt_length_iff.2 h1)
    have a2 := List.getElem_idxOf (List.idxOf_lt_length_iff.2 h2)
    rw [← a1, ← a2]
    simp only [he]
  have mem : ∀ x, x ∈ e.mo ↔ (e.writes x).isSome := by
    intro x
    constructor
    · intro hx
      have h1 := c7 x hx
      simp only [List.contains_iff_mem] at h1
      have h2 := c6 x h1
      simp only [beq_iff_eq] at h2
      rw [← h2]
      simpa using hx
    · intro hx
      have h2 := c6 x (wr_ids hx)
      simp only [beq_iff_eq] at h2
      rw [hx] at h2
      simpa using h2
  have rd : ∀ {x : Id} {v : Bool}, e.reads x = some v → e.writes (e.rf x) = some v ∧ rankOf ord (e.rf x) < rankOf ord x ∧
      ∀ w, w ∈ e.mo → rankOf ord w < rankOf ord x → w = e.rf x ∨ rankOf ord w < rankOf ord (e.rf x) := by
    intro x v hv
    have h := c8 x (rd_ids hv)
    rw [hv] at h
    simp only [Bool.and_eq_true, decide_eq_true_eq, List.all_eq_true, Bool.or_eq_true, Bool.not_eq_true',
      decide_eq_false_iff_not] at h
    refine ⟨h.1.1, h.1.2, fun w hw hlt => ?_⟩
    rcases h.2 w hw with (h' | h') | h'
    · exact absurd hlt h'
    · exact .inl h'
    · exact .inr h'
  have rs : ∀ {a b : Id}, RelSeq e a b → rankOf ord a ≤ rankOf ord b := by
    intro a b h
    induction h with
    | head => exact Nat.le_refl _
    | @rmw b c l _ hl hr hrf ih =>
      have : ∃ v, e.reads c = some v := by
        cases l with
        | rmw o old new => exact ⟨old, by simp [Exec.reads, hl, Label.reads]⟩
        | read _ _ => simp [Label.isRmw] at hr
        | write _ _ => simp [Label.isRmw] at hr
      obtain ⟨v, hv⟩ := this
      have := (rd hv).2.1
      rw [hrf] at this
      omega
  have hb : ∀ {x y : Id}, Hb e x y → rankOf ord x < rankOf ord y := by
    intro x y h
    induction h with
    | init ha =>
      have h := c2 _ (act_ids ha)
      simpa using h
    | @sb t i j a b hij ha hb =>
      have h := c3 _ (act_ids ha) _ (act_ids hb)
      simpa [hij] using h
    | @sync a b hs =>
      obtain ⟨la, lr, _, _, _, h4, h5, _, h7⟩ := hs
      obtain ⟨v, hv⟩ := Option.isSome_iff_exists.1 h5
      have := (rd (show e.reads b = some v by simp [Exec.reads, h4, hv])).2.1
      have := rs h7
      omega
    | trans _ _ h1 h2 => omega
  have pm : ∀ {x y : Id}, x ∈ e.mo → y ∈ e.mo → rankOf ord x < rankOf ord y → Prec e.mo x y :=
    fun hx hy h => prec_of_pairwise c5 (fun a b h => by omega) hx hy h
  have rfmo : ∀ {x : Id} {v : Bool}, e.reads x = some v → e.rf x ∈ e.mo := by
    intro x v hv
    rw [mem, (rd hv).1]
    rfl
  have fr : ∀ {r b : Id} {v : Bool}, e.reads r = some v → r ≠ b → b ∈ e.mo → rankOf ord (e.rf r) < rankOf ord b → rankOf ord r < rankOf ord b := by
    intro r b v hv hne hb h
    rcases Nat.lt_trichotomy (rankOf ord r) (rankOf ord b) with h1 | h1 | h1
    · exact h1
    · exact absurd (inj (rd_ids hv) (wr_ids ((mem b).1 hb)) h1) hne
    · rcases (rd hv).2.2 b hb h1 with h2 | h2
      · rw [h2] at h; omega
      · omega
  have pmo : ∀ {x y : Id}, Prec e.mo x y → rankOf ord x < rankOf ord y ∧ x ∈ e.mo ∧ y ∈ e.mo := by
    intro x y h
    refine ⟨pairwise_of_prec c5 h, ?_⟩
    obtain ⟨a, b, c, h⟩ := h
    rw [h]
    simp
  have cob : ∀ {x y : Id}, Cob e x y → rankOf ord x < rankOf ord y := by
    intro x y h
    induction h with
    | rf hv => exact (rd hv).2.1
    | mo h => exact (pmo h).1
    | fr hv hne h => exact fr hv hne (pmo h).2.2 (pmo h).1
    | trans _ _ h1 h2 => omega
  refine ⟨⟨?_, ?_, mem, fun r v hv => (rd hv).1, ?_, ?_, ?_, ?_, ?_, ?_, ?_⟩, fun x y h => hb h⟩
  · intro p c r ha
    have h := c4 _ (act_ids ha)
    rw [ha] at h
    exact h
  · exact List.Pairwise.imp (fun h he => by rw [he] at h; omega) c5
  · intro u l hl hr
    have : ∃ v w, e.reads u = some v ∧ e.writes u = some w := by
      cases l with
      | rmw o old new => exact ⟨old, new, by simp [Exec.reads, hl, Label.reads], by simp [Exec.writes, hl, Label.writes]⟩
      | read _ _ => simp [Label.isRmw] at hr
      | write _ _ => simp [Label.isRmw] at hr
    obtain ⟨v, w, hv, hw⟩ := this
    have hu : u ∈ e.mo := by rw [mem, hw]; rfl
    obtain ⟨p, q, s, hp⟩ := pm (rfmo hv) hu (rd hv).2.1
    cases q with
    | nil => exact ⟨p, s, hp⟩
    | cons z q =>
      exfalso
      have hz : z ∈ e.mo := by rw [hp]; simp
      have z1 : rankOf ord (e.rf u) < rankOf ord z := pairwise_of_prec c5 ⟨p, [], q ++ u :: s, by rw [hp]; simp⟩
      have z2 : rankOf ord z < rankOf ord u := pairwise_of_prec c5 ⟨p ++ [e.rf u], q, s, by rw [hp]; simp⟩
      rcases (rd hv).2.2 z hz z2 with h | h
      · rw [h] at z1; omega
      · omega
  · intro x h
    have := hb h
    omega
  · intro a b ha hb' h
    exact pm ha hb' (hb h)
  · intro a b ha hb' h
    obtain ⟨va, ha⟩ := Option.isSome_iff_exists.1 ha
    obtain ⟨vb, hb'⟩ := Option.isSome_iff_exists.1 hb'
    have h1 := (rd ha).2.1
    have h2 := hb h
    rcases (rd hb').2.2 _ (rfmo ha) (by omega) with h3 | h3
    · exact .inl h3
    · exact .inr (pm (rfmo ha) (rfmo hb') h3)
  · intro a b ha hb' h
    obtain ⟨va, ha⟩ := Option.isSome_iff_exists.1 ha
    have h1 := (rd ha).2.1
    have h2 := hb h
    exact pm (rfmo ha) hb' (by omega)
  · intro a b ha hb' h
    obtain ⟨vb, hb'⟩ := Option.isSome_iff_exists.1 hb'
    rcases (rd hb').2.2 a ha (hb h) with h3 | h3
    · exact .inl h3
    · exact .inr (pm ha (rfmo hb') h3)
  · obtain ⟨s, s1, s2⟩ := sorted (fun x y => rankOf ord x < rankOf ord y) (fun _ _ _ h1 h2 => Nat.lt_trans h1 h2)
      (e.ids.filter fun x => match e.lab x with
        | some l => l.order = .seq_cst
        | none => false)
      (by
        intro x y hx hy hne
        have hx := (List.mem_filter.1 hx).1
        have hy := (List.mem_filter.1 hy).1
        have : rankOf ord x ≠ rankOf ord y := fun h => hne (inj hx hy h)
        omega)
    refine ⟨s, List.Pairwise.imp (fun h he => by rw [he] at h; omega) s1, fun x => ?_, fun a b ha hb' h => ?_⟩
    · rw [s2, List.mem_filter]
      constructor
      · rintro ⟨_, h⟩
        cases hl : e.lab x with
        | none => rw [hl] at h; simp at h
        | some l => rw [hl] at h; exact ⟨l, rfl, by simpa using h⟩
      · rintro ⟨l, hl, ho⟩
        refine ⟨lab_ids hl, ?_⟩
        rw [hl]
        simpa using ho
    · refine prec_of_pairwise s1 (fun a b h => by omega) ha hb' ?_
      rcases h with h | h
      · exact hb h
      · exact cob h

theorem consistent_of_chk (e : Exec) (ord : List Id) (h : e.chk ord = true) : Consistent e := (chk_spec e ord h).1

end Verif.BoolLock
