import Verif.Model.LockRace

/-! Property C44: `weak_ptr::lock` with several threads. -/

set_option backward.isDefEq.respectTransparency false

namespace Verif.LockRace

/-! ## The property is violated -/

/-- C44 is violated in every state in which another thread changed the count between the
load and the compare-exchange, or the exchange fails spuriously: `lock()` returns true
although it added no reference. -/
theorem C44_violated_no_owner_added (s : St) (t : Nat) (h : Nat) (c : BitVec 64) (sp : Bool)
    (ht : s.th[t]? = some ⟨h, some (c, 0)⟩) (hc : c ≠ 0) (hfail : s.cell ≠ c ∨ sp = true) :
    ∃ s', step s t (.cas sp) = some s' ∧ s'.th[t]? = some ⟨h + 1, none⟩ ∧ s'.cell = s.cell ∧ s'.adds = 0 :: s.adds := by
  have hlt : t < s.th.length := by
    rcases Nat.lt_or_ge t s.th.length with h | h
    · exact h
    · rw [List.getElem?_eq_none h] at ht; exact absurd ht (by simp)
  refine ⟨{ s with th := s.th.set t ⟨h + 1, none⟩, adds := 0 :: s.adds }, ?_, ?_, rfl, rfl⟩
  · simp only [step, ht]
    rw [if_neg hc, if_neg]
    rintro ⟨a, b⟩
    rcases hfail with h | h
    · exact h a
    · rw [b] at h; exact absurd h (by simp)
  · show (s.th.set t _)[t]? = _
    rw [List.getElem?_set_self hlt]

/-- C44 is violated in every state in which, after a successful compare-exchange, other
threads brought the count back to the value loaded: the same `lock()` adds another
reference. -/
theorem C44_violated_added_again (s : St) (t : Nat) (h k : Nat) (c : BitVec 64)
    (ht : s.th[t]? = some ⟨h, some (c, k + 1)⟩) (hc : c ≠ 0) (hback : s.cell = c) :
    ∃ s', step s t (.cas false) = some s' ∧ s'.th[t]? = some ⟨h, some (c, k + 2)⟩ ∧ s'.cell = s.cell + 1 := by
  have hlt : t < s.th.length := by
    rcases Nat.lt_or_ge t s.th.length with h | h
    · exact h
    · rw [List.getElem?_eq_none h] at ht; exact absurd ht (by simp)
  refine ⟨{ s with cell := c + 1, th := s.th.set t ⟨h, some (c, k + 2)⟩ }, ?_, ?_, by rw [hback]⟩
  · simp only [step, ht]
    rw [if_neg hc, if_pos ⟨hback, trivial⟩]
  · show (s.th.set t _)[t]? = _
    rw [List.getElem?_set_self hlt]

/-- C44 is violated, witness: while thread 1 locks, thread 0 copies its pointer; then it
drops both. The object is disposed although thread 1 holds a pointer to it. -/
theorem C44_violated_disposed_while_held :
    ∃ acts s, run (start 1) acts = some s ∧ s.disposed = true ∧ s.th[1]? = some ⟨1, none⟩ :=
  ⟨[(1, .load), (0, .copy), (1, .cas false), (0, .drop), (0, .drop)], _, rfl, rfl, rfl⟩

/-- C44 is violated, witness with a single spurious failure and no other thread acting
during `lock()`. -/
theorem C44_violated_spurious :
    ∃ acts s, run (start 1) acts = some s ∧ s.disposed = true ∧ s.th[1]? = some ⟨1, none⟩ :=
  ⟨[(1, .load), (1, .cas true), (0, .drop)], _, rfl, rfl, rfl⟩

/-- C44 is violated, witness of a leak: all pointers are gone but the object is never
disposed. -/
theorem C44_violated_leak :
    ∃ acts s, run (start 1) acts = some s ∧ total s = 0 ∧ (∀ x ∈ s.th, x.pc = none) ∧ s.disposed = false ∧ s.cell = 1 :=
  ⟨[(1, .load), (1, .cas false), (0, .drop), (1, .cas false), (1, .cas false), (1, .drop)], _, rfl, by decide, by decide, rfl, by decide⟩

example : ∃ s', step ⟨2, false, [⟨2, none⟩, ⟨0, some (1, 0)⟩], []⟩ 1 (.cas false) = some s' ∧
    s'.th[1]? = some ⟨0 + 1, none⟩ ∧ s'.cell = 2 ∧ s'.adds = [0] :=
  C44_violated_no_owner_added _ 1 0 1 false rfl (by decide) (Or.inl (by decide))
example : ∃ s', step ⟨1, false, [⟨0, none⟩, ⟨0, some (1, 1)⟩], []⟩ 1 (.cas false) = some s' ∧
    s'.th[1]? = some ⟨0, some (1, 0 + 2)⟩ ∧ s'.cell = 1 + 1 :=
  C44_violated_added_again _ 1 0 0 1 rfl (by decide) rfl

/-! ## What holds -/

/-- References added by calls of `lock()` that have not returned. -/
def inflight (s : St) : Nat := (s.th.map fun x => match x.pc with | some (_, k) => k | none => 0).sum

theorem sum_set {f : Thread → Nat} {l : List Thread} {t : Nat} {x y : Thread} (h : l[t]? = some x) :
    ((l.set t y).map f).sum + f x = (l.map f).sum + f y := by
  induction l generalizing t with
  | nil => simp at h
  | cons a l ih =>
    cases t with
    | zero => simp at h; subst h; simp; omega
    | succ t =>
      simp at h
      have := ih h
      simp only [List.set_cons_succ, List.map_cons, List.sum_cons]
      omega

/-- Bookkeeping: `cell` counts the pointers and the references in flight. -/
structure Acc (s : St) : Prop where
  cell : s.cell.toNat = total s + inflight s
  disp : s.disposed = true → s.cell = 0
  pc : ∀ (t : Nat) (x : Thread) (k : Nat), s.th[t]? = some x → x.pc = some (0, k) → k = 0

theorem acc_start (n : Nat) : Acc (start n) := by
  have h1 : ∀ n, ((List.replicate n (⟨0, none⟩ : Thread)).map (·.holds)).sum = 0 := by
    intro n; induction n with
    | zero => rfl
    | succ n ih => simp
  have h2 : ∀ n, ((List.replicate n (⟨0, none⟩ : Thread)).map fun x => match x.pc with | some (_, k) => k | none => 0).sum = 0 := by
    intro n; induction n with
    | zero => rfl
    | succ n ih => simp
  refine ⟨?_, by simp [start], ?_⟩
  · unfold total inflight start
    rw [List.map_cons, List.sum_cons, h1, List.map_cons, List.sum_cons, h2]
    rfl
  · intro t x k ht hp
    cases t with
    | zero => simp [start] at ht; subst ht; exact absurd hp (by simp)
    | succ t =>
      simp only [start, List.getElem?_cons_succ, List.getElem?_replicate] at ht
      split at ht
      · simp at ht; subst ht; exact absurd hp (by simp)
      · exact absurd ht (by simp)

theorem pc_set {s : St} {t : Nat} {y : Thread} (h : Acc s) (hy : ∀ k, y.pc = some (0, k) → k = 0) :
    ∀ (t' : Nat) (x : Thread) (k : Nat), (s.th.set t y)[t']? = some x → x.pc = some (0, k) → k = 0 := by
  intro t' x k hx hp
  rw [List.getElem?_set] at hx
  split at hx
  · split at hx
    · cases hx; exact hy k hp
    · exact absurd hx (by simp)
  · exact h.pc t' x k hx hp

theorem step_acc {s s' : St} {t : Nat} {a : Act} (h : step s t a = some s') (hall : ∀ k ∈ s'.adds, k = 1)
    (hacc : Acc s) (hfit : total s + inflight s + 1 < 2 ^ 64) :
    Acc s' ∧ total s' + inflight s' ≤ total s + inflight s + 1 := by
  obtain ⟨hc, hd, hpc⟩ := hacc
  have hacc : Acc s := ⟨hc, hd, hpc⟩
  unfold step at h
  rcases ht : s.th[t]? with _ | x
  · simp [ht] at h
  simp only [ht] at h
  have e1 : ∀ y, ((s.th.set t y).map (·.holds)).sum + x.holds = total s + y.holds := fun y => sum_set (f := (·.holds)) ht
  have e2 : ∀ y : Thread, ((s.th.set t y).map fun x => match x.pc with | some (_, k) => k | none => 0).sum +
      (match x.pc with | some (_, k) => k | none => 0) = inflight s + (match y.pc with | some (_, k) => k | none => 0) :=
    fun y => sum_set (f := fun x => match x.pc with | some (_, k) => k | none => 0) ht
  have hh1 : x.holds ≤ total s := by have := e1 ⟨0, none⟩; simp only at this; omega
  have hz : ∀ {c : BitVec 64}, c.toNat = 0 → c = 0 := fun h => BitVec.eq_of_toNat_eq (by simpa using h)
  have hz' : s.disposed = true → s.cell.toNat = 0 := fun h => by rw [hd h]; rfl
  cases a with
  | copy =>
    rcases hp : x.pc with _ | ⟨c, k⟩ <;> simp only [hp] at h
    · split at h
      · exact absurd h (by simp)
      · rename_i hh
        cases h
        have a1 := e1 ⟨x.holds + 1, none⟩
        have a2 := e2 ⟨x.holds + 1, none⟩
        simp only [hp] at a1 a2
        refine ⟨⟨?_, fun h => ?_, pc_set hacc (by simp)⟩, ?_⟩
        · rw [BitVec.toNat_add, show (1 : BitVec 64).toNat = 1 from rfl, Nat.mod_eq_of_lt (by omega)]
          show s.cell.toNat + 1 = List.sum _ + List.sum _
          try dsimp only
          omega
        · have := hz' h; omega
        · show List.sum _ + List.sum _ ≤ _
          try dsimp only
          omega
    · exact absurd h (by simp)
  | drop =>
    rcases hp : x.pc with _ | ⟨c, k⟩ <;> simp only [hp] at h
    · split at h
      · exact absurd h (by simp)
      · rename_i hh
        cases h
        have a1 := e1 ⟨x.holds - 1, none⟩
        have a2 := e2 ⟨x.holds - 1, none⟩
        simp only [hp] at a1 a2
        have hpos : 1 ≤ s.cell.toNat := by omega
        have hsub : (s.cell - 1).toNat = s.cell.toNat - 1 := by
          rw [BitVec.toNat_sub, show (1 : BitVec 64).toNat = 1 from rfl]
          have := s.cell.isLt
          omega
        refine ⟨⟨?_, ?_, pc_set hacc (by simp)⟩, ?_⟩
        · show (s.cell - 1).toNat = List.sum _ + List.sum _
          try dsimp only
          rw [hsub]
          omega
        · intro hd'
          show s.cell - 1 = 0
          have hd' : (s.disposed || s.cell - 1 == 0) = true := hd'
          rw [Bool.or_eq_true] at hd'
          rcases hd' with hd' | hd'
          · have := hz' hd'; omega
          · exact eq_of_beq hd'
        · show List.sum _ + List.sum _ ≤ _
          try dsimp only
          omega
    · exact absurd h (by simp)
  | load =>
    rcases hp : x.pc with _ | ⟨c, k⟩ <;> simp only [hp] at h
    · cases h
      have a1 := e1 ⟨x.holds, some (s.cell, 0)⟩
      have a2 := e2 ⟨x.holds, some (s.cell, 0)⟩
      simp only [hp] at a1 a2
      refine ⟨⟨?_, hd, pc_set hacc (by simp)⟩, ?_⟩
      · show s.cell.toNat = List.sum _ + List.sum _
        try dsimp only
        omega
      · show List.sum _ + List.sum _ ≤ _
        try dsimp only
        omega
    · exact absurd h (by simp)
  | cas sp =>
    rcases hp : x.pc with _ | ⟨c, k⟩ <;> simp only [hp] at h
    · exact absurd h (by simp)
    · split at h
      · rename_i h0
        subst h0
        have hk := hpc t x k ht hp
        cases h
        have a1 := e1 ⟨x.holds, none⟩
        have a2 := e2 ⟨x.holds, none⟩
        simp only [hp] at a1 a2
        refine ⟨⟨?_, hd, pc_set hacc (by simp)⟩, ?_⟩
        · show s.cell.toNat = List.sum _ + List.sum _
          try dsimp only
          omega
        · show List.sum _ + List.sum _ ≤ _
          try dsimp only
          omega
      · rename_i h0
        split at h
        · rename_i heq
          cases h
          have a1 := e1 ⟨x.holds, some (c, k + 1)⟩
          have a2 := e2 ⟨x.holds, some (c, k + 1)⟩
          simp only [hp] at a1 a2
          refine ⟨⟨?_, fun h => ?_, pc_set hacc (fun k' hk' => ?_)⟩, ?_⟩
          · show (c + 1).toNat = List.sum _ + List.sum _
            try dsimp only
            rw [← heq.1, BitVec.toNat_add, show (1 : BitVec 64).toNat = 1 from rfl, Nat.mod_eq_of_lt (by omega)]
            rw [heq.1] at hc ⊢
            omega
          · exact absurd (heq.1.symm.trans (hd h)) h0
          · exact absurd (by simpa using hk' : c = 0 ∧ _).1 h0
          · show List.sum _ + List.sum _ ≤ _
            try dsimp only
            omega
        · cases h
          have hk : k = 1 := hall k (by simp)
          have a1 := e1 ⟨x.holds + 1, none⟩
          have a2 := e2 ⟨x.holds + 1, none⟩
          simp only [hp] at a1 a2
          refine ⟨⟨?_, hd, pc_set hacc (by simp)⟩, ?_⟩
          · show s.cell.toNat = List.sum _ + List.sum _
            try dsimp only
            omega
          · show List.sum _ + List.sum _ ≤ _
            try dsimp only
            omega

theorem step_adds {s s' : St} {t : Nat} {a : Act} (h : step s t a = some s') : ∃ l, s'.adds = l ++ s.adds := by
  unfold step at h
  rcases ht : s.th[t]? with _ | x
  · simp [ht] at h
  simp only [ht] at h
  cases a <;> rcases hp : x.pc with _ | ⟨c, k⟩ <;> simp only [hp] at h
  · split at h
    · exact absurd h (by simp)
    · cases h; exact ⟨[], rfl⟩
  · exact absurd h (by simp)
  · split at h
    · exact absurd h (by simp)
    · cases h; exact ⟨[], rfl⟩
  · exact absurd h (by simp)
  · cases h; exact ⟨[], rfl⟩
  · exact absurd h (by simp)
  · exact absurd h (by simp)
  · split at h
    · cases h; exact ⟨[], rfl⟩
    · split at h
      · cases h; exact ⟨[], rfl⟩
      · cases h; exact ⟨[k], rfl⟩

theorem run_adds {s s' : St} {as : List (Nat × Act)} (h : run s as = some s') : ∃ l, s'.adds = l ++ s.adds := by
  induction as generalizing s with
  | nil => cases h; exact ⟨[], rfl⟩
  | cons x as ih =>
    obtain ⟨t, a⟩ := x
    simp only [run, Option.bind_eq_some_iff] at h
    obtain ⟨s1, h1, h2⟩ := h
    obtain ⟨l, hl⟩ := ih h2
    obtain ⟨l', hl'⟩ := step_adds h1
    exact ⟨l ++ l', by rw [hl, hl', List.append_assoc]⟩

theorem run_acc {s s' : St} {as : List (Nat × Act)} (h : run s as = some s') (hall : ∀ k ∈ s'.adds, k = 1)
    (hacc : Acc s) (hfit : total s + inflight s + as.length < 2 ^ 64) : Acc s' := by
  induction as generalizing s with
  | nil => cases h; exact hacc
  | cons x as ih =>
    obtain ⟨t, a⟩ := x
    simp only [run, Option.bind_eq_some_iff] at h
    obtain ⟨s1, h1, h2⟩ := h
    obtain ⟨l, hl⟩ := run_adds h2
    simp only [List.length_cons] at hfit
    obtain ⟨h3, h4⟩ := step_acc h1 (fun k hk => hall k (by rw [hl]; exact List.mem_append.2 (Or.inr hk))) hacc (by omega)
    exact ih h2 h3 (by omega)

theorem holds_le_total {s : St} {t : Nat} {x : Thread} (ht : s.th[t]? = some x) : x.holds ≤ total s := by
  have := sum_set (f := (·.holds)) (y := ⟨0, none⟩) ht
  unfold total
  simp only at this
  omega

/-- C44, what remains: in every interleaving in which each `lock()` that returned true
added exactly one reference, no object is disposed while a pointer to it exists, and when
all pointers are gone and no `lock()` is running, the count is 0. The full property
would have this without the condition on the calls of `lock()`. -/
theorem C44_lock_partial (n : Nat) (acts : List (Nat × Act)) (s : St) (h : run (start n) acts = some s)
    (hlen : acts.length + 1 < 2 ^ 64) (hall : ∀ k ∈ s.adds, k = 1) :
    (∀ (t : Nat) (x : Thread), s.th[t]? = some x → 0 < x.holds → s.disposed = false) ∧
    (total s = 0 → inflight s = 0 → s.cell = 0) := by
  have hi : inflight (start n) = 0 ∧ total (start n) = 1 := by
    have h1 := (acc_start n).cell
    have h2 : 1 ≤ total (start n) := holds_le_total (t := 0) (x := ⟨1, none⟩) rfl
    have : (start n).cell.toNat = 1 := rfl
    omega
  have hacc := run_acc h hall (acc_start n) (by omega)
  constructor
  · intro t x ht hx
    rcases e : s.disposed with _ | _
    · rfl
    · have h1 := hacc.disp e
      have h2 := hacc.cell
      rw [h1] at h2
      have := holds_le_total ht
      simp at h2
      omega
  · intro h1 h2
    apply BitVec.eq_of_toNat_eq
    rw [hacc.cell, h1, h2]; rfl

/-- C44, what remains: a `lock()` that is not interrupted and meets no spurious failure adds
exactly one reference if there is an owner, and fails without effect otherwise. -/
theorem C44_uninterrupted_partial (s : St) (t h : Nat) (ht : s.th[t]? = some ⟨h, none⟩) :
    (s.cell ≠ 0 → ∃ s', run s [(t, .load), (t, .cas false), (t, .cas false)] = some s' ∧ s'.cell = s.cell + 1 ∧
      s'.th = s.th.set t ⟨h + 1, none⟩ ∧ s'.adds = 1 :: s.adds ∧ s'.disposed = s.disposed) ∧
    (s.cell = 0 → run s [(t, .load), (t, .cas false)] = some s) := by
  have hlt : t < s.th.length := by
    rcases Nat.lt_or_ge t s.th.length with h | h
    · exact h
    · rw [List.getElem?_eq_none h] at ht; exact absurd ht (by simp)
  constructor
  · intro hc
    have h2 : ¬ (s.cell + 1 = s.cell) := by
      intro e
      have := congrArg BitVec.toNat e
      rw [BitVec.toNat_add, show (1 : BitVec 64).toNat = 1 from rfl] at this
      have := s.cell.isLt
      omega
    refine ⟨{ s with cell := s.cell + 1, th := s.th.set t ⟨h + 1, none⟩, adds := 1 :: s.adds }, ?_, rfl, rfl, rfl, rfl⟩
    simp only [run, step, ht, Option.bind_some, List.getElem?_set_self hlt]
    rw [if_neg hc, if_pos ⟨trivial, trivial⟩]
    simp only [Option.bind_some, List.set_set, List.getElem?_set_self hlt]
    rw [if_neg hc, if_neg (fun e => h2 e.1)]
    rfl
  · intro hc
    simp only [run, step, ht, Option.bind_some, List.getElem?_set_self hlt]
    rw [if_pos hc]
    simp only [Option.bind_some, List.set_set]
    congr 1
    rw [show s.th.set t ⟨h, none⟩ = s.th from ?_]
    apply List.ext_getElem?
    intro j
    rw [List.getElem?_set]
    split
    · rename_i e; subst e; rw [ht]
    · rfl

/- Thread 1 locks undisturbed, thread 0 drops its pointer, thread 1 keeps the object. -/
example : ∃ s, run (start 1) [(1, .load), (1, .cas false), (1, .cas false), (0, .drop)] = some s ∧
    (∀ k ∈ s.adds, k = 1) ∧ s.disposed = false ∧ s.th[1]? = some ⟨1, none⟩ := by
  refine ⟨⟨1, false, [⟨0, none⟩, ⟨1, none⟩], [1]⟩, by decide, by decide, ?_, rfl⟩
  exact (C44_lock_partial 1 [(1, .load), (1, .cas false), (1, .cas false), (0, .drop)] _ (by decide) (by decide) (by decide)).1 1 ⟨1, none⟩ rfl (by decide)
example : ∃ s', run (start 1) [(1, .load), (1, .cas false), (1, .cas false)] = some s' ∧ s'.cell = 1 + 1 ∧
      s'.th = (start 1).th.set 1 ⟨0 + 1, none⟩ ∧ s'.adds = [1] ∧ s'.disposed = false :=
  (C44_uninterrupted_partial (start 1) 1 0 rfl).1 (by decide)

end Verif.LockRace
