import Verif.Lemmas.SmartPtrRun

/-! Properties C39–C43 and C45: the smart pointers.

`Reach N T m`: a program of `T` threads that keeps the client rules `Legal` can come to
the state `m`, having at most `N` pointer objects at a time; `m.pending` are the
unfinished calls of all threads. For a single thread, `call` is a complete operation. -/

set_option backward.isDefEq.respectTransparency false

namespace Verif.SmartPtr
open Verif

variable {N T : Nat} {m : Machine}

/-! ### What an observer counts -/

/-- `i` is a `shared_ptr` object with control block `b`. -/
def ownsB (s : State) (b : Blk) (i : Slot) : Bool :=
  match s.slot i with
  | some (.shared _ (some c)) => c == b
  | _ => false

/-- `i` is a `weak_ptr` object with control block `b`. -/
def watchesB (s : State) (b : Blk) (i : Slot) : Bool :=
  match s.slot i with
  | some (.weak _ (some c)) => c == b
  | _ => false

/-- `i` is a `shared_ptr` object with `get() == o`. -/
def sharesO (s : State) (o : Obj) (i : Slot) : Bool :=
  match s.slot i with
  | some (.shared (some p) _) => p == o
  | _ => false

/-- `i` is a `unique_ptr` object with `get() == o`. -/
def uniqueO (s : State) (o : Obj) (i : Slot) : Bool :=
  match s.slot i with
  | some (.uniq (some (some p))) => p == o
  | _ => false

/-- Number of pointer objects with a property. -/
def num (N : Nat) (q : Slot → Bool) : Nat := (List.range N).countP q

/-- Number of `shared_ptr` objects sharing the control block `b`. -/
def owners (N : Nat) (s : State) (b : Blk) : Nat := num N (ownsB s b)

/-- Number of `weak_ptr` objects with the control block `b`. -/
def watchers (N : Nat) (s : State) (b : Blk) : Nat := num N (watchesB s b)

/-- `w` is an unfinished call that still holds a shared reference to `b`: the old value of
an assignment about to be released, or the by-value parameter of one. -/
def holdsB (b : Blk) : Work → Bool
  | .relS c => c == b
  | .conv _ _ (some c) => c == b
  | _ => false

theorem countP_flatMap_one {α : Type} (f : α → List Work) (q : α → Bool) (w : Work)
    (h : ∀ a, (f a).count w = if q a then 1 else 0) (l : List α) : (l.flatMap f).count w = l.countP q := by
  induction l with
  | nil => rfl
  | cons a l ih => rw [List.flatMap_cons, List.count_append, ih, h, List.countP_cons]; omega

theorem slots_relS (N : Nat) (s : State) (b : Blk) : (slotsR N s.slot).count (.relS b) = owners N s b := by
  refine countP_flatMap_one _ (ownsB s b) _ (fun i => ?_) _
  unfold ownsB
  rcases s.slot i with _ | ⟨_ | _ | o⟩ | ⟨p, _ | c⟩ | ⟨p, _ | c⟩ <;> simp [refO, relOpt, relWOpt, delOpt, List.count_cons]

theorem slots_relW (N : Nat) (s : State) (b : Blk) : (slotsR N s.slot).count (.relW b) = watchers N s b := by
  refine countP_flatMap_one _ (watchesB s b) _ (fun i => ?_) _
  unfold watchesB
  rcases s.slot i with _ | ⟨_ | _ | o⟩ | ⟨p, _ | c⟩ | ⟨p, _ | c⟩ <;> simp [refO, relOpt, relWOpt, delOpt, List.count_cons]

theorem slots_del (N : Nat) (s : State) (o : Obj) : (slotsR N s.slot).count (.del o) = num N (uniqueO s o) := by
  refine countP_flatMap_one _ (uniqueO s o) _ (fun i => ?_) _
  unfold uniqueO
  rcases s.slot i with _ | ⟨_ | _ | o⟩ | ⟨p, _ | c⟩ | ⟨p, _ | c⟩ <;> simp [refO, relOpt, relWOpt, delOpt, List.count_cons]

theorem slots_disp (N : Nat) (s : State) (b : Blk) : (slotsR N s.slot).count (.disp b) = 0 := by
  have : (slotsR N s.slot).count (.disp b) = (List.range N).countP (fun _ => false) := by
    refine countP_flatMap_one (fun i => refO (s.slot i)) (fun _ => false) (.disp b) (fun i => ?_) _
    rcases s.slot i with _ | ⟨_ | _ | o⟩ | ⟨p, _ | c⟩ | ⟨p, _ | c⟩ <;> simp [refO, relOpt, relWOpt, delOpt, List.count_cons]
  rw [this]; simp

theorem work_relS (W : List Work) (b : Blk) : (W.flatMap norm).count (.relS b) = W.countP (holdsB b) := by
  refine countP_flatMap_one _ (holdsB b) _ (fun w => ?_) _
  rcases w with _ | _ | _ | _ | _ | _ | ⟨_, _, _ | c⟩ <;> simp [norm, holdsB, relOpt, List.count_cons]

theorem K_relS (N : Nat) (s : State) (W : List Work) (b : Blk) :
    K N s.slot W (.relS b) = owners N s b + W.countP (holdsB b) := by
  rw [K, slots_relS, work_relS]

theorem num_pos {q : Slot → Bool} {i : Slot} (hi : i < N) (h : q i = true) : 0 < num N q := by
  unfold num
  rw [List.countP_pos_iff]
  exact ⟨i, List.mem_range.2 hi, h⟩

theorem exists_of_num {q : Slot → Bool} (h : 0 < num N q) : ∃ i, i < N ∧ q i = true := by
  unfold num at h
  rw [List.countP_pos_iff] at h
  obtain ⟨i, hi, hq⟩ := h
  exact ⟨i, List.mem_range.1 hi, hq⟩

theorem ownsB_iff {s : State} {b : Blk} {i : Slot} : ownsB s b i = true ↔ ∃ p, s.slot i = some (.shared p (some b)) := by
  unfold ownsB
  rcases s.slot i with _ | ⟨_ | _ | o⟩ | ⟨p, _ | c⟩ | ⟨p, _ | c⟩ <;> simp

theorem sharesO_iff {s : State} {o : Obj} {i : Slot} : sharesO s o i = true ↔ ∃ c, s.slot i = some (.shared (some o) c) := by
  unfold sharesO
  rcases s.slot i with _ | ⟨_ | _ | o⟩ | ⟨_ | p, c⟩ | ⟨p, _ | c⟩ <;> simp

theorem uniqueO_iff {s : State} {o : Obj} {i : Slot} : uniqueO s o i = true ↔ s.slot i = some (.uniq (some (some o))) := by
  unfold uniqueO
  rcases s.slot i with _ | ⟨_ | _ | o⟩ | ⟨_ | p, c⟩ | ⟨p, _ | c⟩ <;> simp

theorem num_zero {q : Slot → Bool} (h : num N q = 0) : ∀ i, i < N → q i = false := by
  intro i hi
  rcases e : q i with _ | _
  · rfl
  · have := num_pos hi e; omega

theorem num_congr {q r : Slot → Bool} (h : ∀ i, i < N → q i = r i) : num N q = num N r := by
  unfold num
  apply List.countP_congr
  intro i hi
  rw [h i (List.mem_range.1 hi)]

/-! ## C40 -/

/-- C40, in every reachable state of any number of threads: `use_count()` of a `shared_ptr`
or `weak_ptr` is the number of `shared_ptr` objects with its control block, plus the
references held by unfinished assignments and destructions. -/
theorem C40_use_count (h : Reach N T m) (i : Slot) (b : Blk)
    (hi : (∃ p, m.s.slot i = some (.shared p (some b))) ∨ (∃ p, m.s.slot i = some (.weak p (some b)))) :
    ∃ n, useCount m.s i = .ok n ∧ n.toNat = owners N m.s b + m.pending.countP (holdsB b) := by
  have hinv := inv_reach h
  have hc : ∃ c, m.s.ctrl b = some c := by
    rcases e : m.s.ctrl b with _ | c
    · have hg := hinv.core.gone b e
      rcases hi with ⟨p, hp⟩ | ⟨p, hp⟩
      · have := K_pos_of_slot (N := N) (slot := m.s.slot) (W := m.pending) (w := .relS b) (hinv.str.lt i _ hp)
          (by rw [hp]; simp [refO, relOpt])
        omega
      · have := K_pos_of_slot (N := N) (slot := m.s.slot) (W := m.pending) (w := .relW b) (hinv.str.lt i _ hp)
          (by rw [hp]; simp [refO, relWOpt])
        omega
    · exact ⟨c, rfl⟩
  obtain ⟨c, hc⟩ := hc
  refine ⟨c.shared, ?_, ?_⟩
  · rcases hi with ⟨p, hp⟩ | ⟨p, hp⟩ <;> simp only [useCount, hp, hc]
  · rw [hinv.core.cS b c hc, K_relS]

/-- C40: for an object `o`, when no call is unfinished, `use_count()` of each `shared_ptr`
to it is the number of `shared_ptr`s to it. -/
theorem C40_use_count_object (h : Reach N T m) (hq : m.pending = []) (i : Slot) (o : Obj)
    (hi : ∃ c, m.s.slot i = some (.shared (some o) c)) :
    ∃ n, useCount m.s i = .ok n ∧ n.toNat = num N (sharesO m.s o) := by
  have hinv := inv_reach h
  obtain ⟨c, hi⟩ := hi
  have hfit := hinv.val.sh i _ _ hi (fun q => by rw [hq]; simp)
  cases c with
  | none => exact absurd hfit (by simp [Fit])
  | some b =>
    obtain ⟨n, h1, h2⟩ := C40_use_count h i b (Or.inl ⟨_, hi⟩)
    refine ⟨n, h1, ?_⟩
    rw [h2, hq]
    simp only [List.countP_nil, Nat.add_zero, owners]
    apply num_congr
    intro j _
    unfold ownsB sharesO
    rcases e : m.s.slot j with _ | ⟨_ | _ | o'⟩ | ⟨p, c'⟩ | ⟨p, _ | c'⟩ <;> try rfl
    have hf := hinv.val.sh j _ _ e (fun q => by rw [hq]; simp)
    cases c' with
    | none =>
      have hf : p = none := hf
      subst hf; rfl
    | some b' =>
      have hf : b' < m.s.nblk ∧ m.s.managed b' = p := hf
      have hfit : b < m.s.nblk ∧ m.s.managed b = some o := hfit
      by_cases eb : b' = b
      · subst eb
        rw [hfit.2] at hf
        rw [← hf.2]
        simp
      · cases p with
        | none => simp [eb]
        | some o' =>
          have : o' ≠ o := by
            intro e'; subst e'
            exact eb (hinv.core.inj b' b o' hf.2 hfit.2)
          show (b' == b) = (o' == o)
          rw [beq_false_of_ne eb, beq_false_of_ne this]

/-- C40: an empty `shared_ptr` (default constructed, moved from or reset) has
`use_count() == 0`. -/
theorem C40_empty (s : State) (i : Slot) (h : s.slot i = some (.shared none none)) : useCount s i = .ok 0 := by
  simp only [useCount, h]

/-- C40/C42: every operation that keeps the client rules, and every call it makes, in any
interleaving, is free of undefined behaviour; an operation needs no more than two passes
of its loop. -/
theorem C40_defined_partial (h : Reach N T m) (hfit : Fits N m.pending) (t : Nat) :
    (∀ w rest, m.th[t]? = some (w :: rest) → ∃ s' push, micro m.s w = .ok (s', push)) ∧
    (∀ o, m.th[t]? = some [] → Legal N m.s m.pending o → ∀ f, 2 ≤ f → ∃ s' push, exec f m.s o = .ok (s', push)) := by
  have hinv := inv_reach h
  constructor
  · intro w rest hw
    obtain ⟨s', push, he, _⟩ := work_step hinv hfit hw
    exact ⟨s', push, he⟩
  · intro o hi hl f hf
    obtain ⟨h1, h2⟩ := op_step (f := f) hinv hfit hi hl
    rcases h2 with h2 | ⟨s', push, he, _⟩
    · exact absurd h2 (h1 hf)
    · exact ⟨s', push, he⟩

/-- The states a single-threaded program can be in between its operations. -/
inductive History (N : Nat) : State → Prop
  | start : History N init
  | step {s s' f o} : History N s → Legal N s [] o → call f s o = .ok s' → History N s'

theorem exec_load {s s' : State} {o : Op} {f : Nat} {push : List Work} (hN : 7 * N + 15 < 2 ^ 64)
    (h : Inv N s' (push ++ [])) (he : exec f s o = .ok (s', push)) : N + load N s' push + 2 < 2 ^ 64 := by
  rw [List.append_nil] at h
  have := load_le h
  have := exec_push he
  omega

theorem fits_nil (hN : 7 * N + 15 < 2 ^ 64) : Fits N [] := by
  unfold Fits; simp; omega

theorem reach_call {s s' : State} {o : Op} {f : Nat} (hN : 7 * N + 15 < 2 ^ 64) (h : Reach N 1 ⟨s, [[]]⟩)
    (hl : Legal N s [] o) (hc : call f s o = .ok s') : Reach N 1 ⟨s', [[]]⟩ := by
  simp only [call, Res.bind_eq_ok] at hc
  obtain ⟨⟨s1, push⟩, he, hd⟩ := hc
  have hinv : Inv N s [] := inv_reach h
  have hr : Reach N 1 ⟨s1, [push]⟩ := Reach.step h (Step.op (t := 0) (fits_nil hN) rfl hl he)
  refine drain_reach hr (exec_load hN ?_ he) hd
  simpa [Machine.pending] using inv_reach hr

/-- A single-threaded program is the case `T = 1` without unfinished calls. -/
theorem reach_of_history {s : State} (hN : 7 * N + 15 < 2 ^ 64) (h : History N s) : Reach N 1 ⟨s, [[]]⟩ := by
  induction h with
  | start => exact Reach.start
  | step _ hl hc ih => exact reach_call hN ih hl hc

/-- C39–C42 for a single thread, total correctness: after any history, any operation that
keeps the client rules finishes, including all destructions it causes, without undefined
behaviour. -/
theorem C40_calls_finish_partial {s : State} (hN : 7 * N + 15 < 2 ^ 64) (h : History N s) {o : Op} (hl : Legal N s [] o) :
    ∃ s' n, (∀ f, n ≤ f → call f s o = .ok s') ∧ History N s' := by
  have hinv : Inv N s [] := inv_reach (reach_of_history hN h)
  have hex : ∀ f, 2 ≤ f → ∃ s' push, exec f s o = .ok (s', push) ∧ Inv N s' (push ++ []) := by
    intro f hf
    obtain ⟨a, b⟩ := exec_good (f := f) (fits_nil hN) hinv hl
    rcases b with b | b
    · exact absurd b (a hf)
    · exact b
  obtain ⟨s1, push, he, hi⟩ := hex 2 (Nat.le_refl 2)
  have hmono : ∀ f, 2 ≤ f → exec f s o = .ok (s1, push) := by
    intro f hf
    rw [← he]
    cases o <;> try rfl
    rename_i i w
    simp only [exec]
    congr 1
    funext x
    rcases x with ⟨p, _ | b⟩
    · rfl
    · dsimp only
      rcases e : s.ctrl b with _ | k
      · rfl
      · dsimp only
        congr 1
        obtain ⟨f', rfl⟩ : ∃ f', f = f' + 2 := ⟨f - 2, by omega⟩
        by_cases h0 : k.shared = 0
        · rw [h0, lockLoop_zero, lockLoop_zero 1]
        · rw [lockLoop_succ _ h0, lockLoop_succ 0 h0]
  have hl' := exec_load hN hi he
  have hi' : Inv N s1 push := by simpa using hi
  obtain ⟨s', hd, _⟩ := drain_ok hi' hl' (load N s1 push) (Nat.le_refl _)
  have hdm : ∀ f, load N s1 push ≤ f → drain f s1 push = .ok s' := by
    intro f hf
    exact drain_mono hd hf
  refine ⟨s', max 2 (load N s1 push), fun f hf => ?_, ?_⟩
  · simp only [call, hmono f (by omega), Res.ok_bind]
    exact hdm f (by omega)
  · refine History.step h hl (f := max 2 (load N s1 push)) ?_
    simp only [call, hmono _ (Nat.le_max_left _ _), Res.ok_bind]
    exact hdm _ (Nat.le_max_right _ _)

/-! ### C40 and C42 are violated: `reset(ptr)` and the converting assignment -/

theorem micro_keeps_none {s s' : State} {w : Work} {push : List Work} {i : Slot} (h : micro s w = .ok (s', push))
    (hi : s.slot i = none) : s'.slot i = none := by
  cases w <;> simp only [micro, Res.bind_eq_ok] at h
  case relS b => split at h <;> cases h; exact hi
  case disp b => split at h <;> cases h; exact hi
  case relW b => split at h <;> try contradiction
                 split at h <;> cases h <;> exact hi
  case del o => split at h <;> cases h; exact hi
  case dtor j =>
    split at h <;> try contradiction
    all_goals
      cases h
      by_cases e : i = j
      · subst e; exact setSlot_slot_eq _ _ _
      · rw [setSlot_slot_ne _ _ e]; exact hi
  case resetFin j q =>
    obtain ⟨x, hx, h⟩ := h
    cases h
    have e : i ≠ j := by intro e; subst e; simp [getS, hi] at hx
    rw [setSlot_slot_ne _ _ e]; exact hi
  case conv j q c =>
    obtain ⟨x, hx, s1, h1, h⟩ := h
    cases h
    have e : i ≠ j := by intro e; subst e; simp [getS, hi] at hx
    rw [setSlot_slot_ne _ _ e]
    cases c with
    | none => cases h1; exact hi
    | some b =>
      simp only [incS] at h1
      split at h1 <;> cases h1; exact hi

/-- A call that still has to write to a destroyed `shared_ptr` cannot finish. -/
theorem drain_doomed {i : Slot} (last : Work) (hlast : ∀ s : State, s.slot i = none → micro s last = .ub) (rest : List Work) :
    ∀ (f : Nat) (s s' : State) (X : List Work), (s.slot i = none ∨ Work.dtor i ∈ X) → drain f s (X ++ last :: rest) ≠ .ok s' := by
  intro f
  induction f with
  | zero =>
    intro s s' X _
    cases X <;> simp [drain]
  | succ f ih =>
    intro s s' X hX
    cases X with
    | nil =>
      have h0 : s.slot i = none := by rcases hX with h | h; exact h; exact absurd h (by simp)
      simp [drain, hlast s h0]
    | cons w X =>
      intro hd
      simp only [List.cons_append, drain, Res.bind_eq_ok] at hd
      obtain ⟨⟨s1, push⟩, hm, hd⟩ := hd
      dsimp only at hd
      rw [← List.append_assoc] at hd
      refine ih s1 s' (push ++ X) ?_ hd
      rcases hX with h | h
      · exact Or.inl (micro_keeps_none hm h)
      · rcases List.mem_cons.1 h with h | h
        · left
          subst h
          simp only [micro] at hm
          split at hm <;> try contradiction
          all_goals cases hm; exact setSlot_slot_eq _ _ _
        · exact Or.inr (List.mem_append.2 (Or.inr h))

theorem drain_release_doomed {i : Slot} {last : Work} (hlast : ∀ s : State, s.slot i = none → micro s last = .ub)
    {s : State} {b : Blk} {k : Ctrl} {o : Obj} {ms : List Slot} (hk : s.ctrl b = some k) (h1 : k.shared = 1) (hp : k.ptr = some o)
    (ho : s.obj o = some ms) (hi : i ∈ ms) (f : Nat) (s' : State) : drain f s [.relS b, last] ≠ .ok s' := by
  match f with
  | 0 => simp [drain]
  | 1 => simp [drain, micro, hk, h1]
  | 2 => simp [drain, micro, hk, h1, setCtrl, upd, hp, delOpt]
  | f + 3 =>
    have e : drain (f + 3) s [.relS b, last] = drain f { setCtrl s b (some { k with shared := 0 }) with
        obj := upd s.obj o none, deleted := o :: s.deleted } ((ms.reverse.map .dtor ++ [.relW b]) ++ last :: []) := by
      simp [drain, micro, hk, h1, setCtrl, upd, hp, delOpt, ho]
    rw [e]
    exact drain_doomed last hlast [] f _ s' _ (Or.inr (List.mem_append.2 (Or.inl
      (List.mem_map.2 ⟨i, List.mem_reverse.2 hi, rfl⟩))))

theorem last_owner {s : State} (h : Inv N s []) {i : Slot} {o : Obj} {c : Option Blk}
    (hi : s.slot i = some (.shared (some o) c)) (honly : ∀ j c', s.slot j = some (.shared (some o) c') → j = i) :
    ∃ b k, c = some b ∧ b < s.nblk ∧ s.ctrl b = some k ∧ k.shared = 1 ∧ k.ptr = some o ∧
      ∀ j p, s.slot j = some (.shared p (some b)) → j = i := by
  have hf := h.val.sh i _ _ hi (fun q => by simp)
  cases c with
  | none => exact absurd hf (by simp [Fit])
  | some b =>
    have hf : b < s.nblk ∧ s.managed b = some o := hf
    have hpos := K_pos_of_slot (N := N) (slot := s.slot) (W := []) (w := .relS b) (h.str.lt i _ hi)
      (by rw [hi]; simp [refO, relOpt])
    have honly' : ∀ j p, s.slot j = some (.shared p (some b)) → j = i := by
      intro j p hj
      have hf' : b < s.nblk ∧ s.managed b = p := h.val.sh j _ _ hj (fun q => by simp)
      rw [hf.2] at hf'
      exact honly j (some b) (by rw [hj, hf'.2])
    rcases e : s.ctrl b with _ | k
    · have := h.core.gone b e; omega
    · refine ⟨b, k, rfl, hf.1, e, ?_, ?_, honly'⟩
      · have h1 := h.core.cS b k e
        rw [K_relS] at h1
        have h2 : owners N s b = 1 := by
          have hle : ¬ 2 ≤ owners N s b := by
            intro h2
            have hz : num N (fun j => ownsB s b j && decide (j ≠ i)) = 0 := by
              rcases Nat.eq_zero_or_pos (num N (fun j => ownsB s b j && decide (j ≠ i))) with e | e
              · exact e
              · obtain ⟨j, _, hj⟩ := exists_of_num e
                simp only [Bool.and_eq_true, decide_eq_true_eq] at hj
                obtain ⟨p, hp⟩ := ownsB_iff.1 hj.1
                exact absurd (honly' j p hp) hj.2
            have : num N (ownsB s b) ≤ num N (fun j => decide (j = i)) := by
              unfold num
              apply List.countP_mono_left
              intro j hj hb
              rw [decide_eq_true_eq]
              obtain ⟨p, hp⟩ := ownsB_iff.1 hb
              exact honly' j p hp
            have h3 : num N (fun j => decide (j = i)) ≤ 1 := by
              unfold num
              have : (List.range N).countP (fun j => decide (j = i)) = (List.range N).count i := by
                rw [List.count]; apply List.countP_congr; intro j _; simp
              rw [this]
              exact List.nodup_iff_count.1 List.nodup_range i
            have : owners N s b = num N (ownsB s b) := rfl
            omega
          rw [K_relS] at hpos
          simp at hpos
          omega
        apply BitVec.eq_of_toNat_eq
        rw [h1, h2]; rfl
      · exact (h.core.blt b k e).2 ▸ hf.2

/-- C40/C42 are violated: take any history after which the `shared_ptr` `i`, a member of
the object `o`, is the only owner of `o`. Then `i.reset(p)` destroys `o` with its members
and afterwards writes to `i`: the call cannot finish, for any `p`. -/
theorem C40_violated_reset_member {s : State} (hN : 7 * N + 15 < 2 ^ 64) (h : History N s) {i : Slot} {o : Obj} {ms : List Slot}
    {c : Option Blk} (ho : s.obj o = some ms) (hm : i ∈ ms) (hi : s.slot i = some (.shared (some o) c))
    (honly : ∀ j c', s.slot j = some (.shared (some o) c') → j = i) (p : Option Obj) (f : Nat) (s' : State) :
    call f s (.sResetTo i p) ≠ .ok s' := by
  have hinv : Inv N s [] := inv_reach (reach_of_history hN h)
  obtain ⟨b, k, rfl, hb, hk, h1, hp, _⟩ := last_owner hinv hi honly
  intro hc
  simp only [call, exec, getS_of hi, Res.ok_bind] at hc
  refine drain_release_doomed (last := .resetFin i p) (i := i) (fun s hs => by simp [micro, getS, hs])
    (s := setSlot (newBlk s p) i (some (.shared (some o) (some s.nblk)))) (b := b) (k := k) ?_ h1 hp ho hm f s' hc
  show upd s.ctrl s.nblk _ b = _
  rw [upd_ne _ _ (by omega)]; exact hk

/-- C40/C42 are violated: the same for the converting assignment `i = j` from another
`shared_ptr`. -/
theorem C40_violated_convert_member {s : State} (hN : 7 * N + 15 < 2 ^ 64) (h : History N s) {i j : Slot} {o : Obj} {ms : List Slot}
    {c : Option Blk} (ho : s.obj o = some ms) (hm : i ∈ ms) (hi : s.slot i = some (.shared (some o) c))
    (honly : ∀ j c', s.slot j = some (.shared (some o) c') → j = i) (hj : IsS s [] j) (hij : j ≠ i) (f : Nat) (s' : State) :
    call f s (.sConv i j) ≠ .ok s' := by
  have hinv : Inv N s [] := inv_reach (reach_of_history hN h)
  obtain ⟨b, k, rfl, hb, hk, h1, hp, hown⟩ := last_owner hinv hi honly
  obtain ⟨⟨q, d, hq⟩, _⟩ := hj
  have hdb : d ≠ some b := by intro e; subst e; exact hij (hown j q hq)
  intro hc
  simp only [call, exec, getS_of hq, Res.ok_bind, Res.bind_eq_ok] at hc
  obtain ⟨⟨s1, push⟩, ⟨s2, h2, x, hx, he⟩, hd⟩ := hc
  cases he
  have hs2 : s2.slot = s.slot ∧ s2.obj = s.obj ∧ s2.ctrl b = some k := by
    cases d with
    | none => cases h2; exact ⟨rfl, rfl, hk⟩
    | some b' =>
      simp only [incS] at h2
      split at h2 <;> cases h2
      refine ⟨rfl, rfl, ?_⟩
      show upd s.ctrl b' _ b = _
      rw [upd_ne _ _ (by intro e; subst e; exact hdb rfl)]; exact hk
  have hx' : x = (some o, some b) := by
    rw [getS_of (by rw [hs2.1]; exact hi)] at hx; cases hx; rfl
  subst hx'
  exact drain_release_doomed (last := .conv i q d) (i := i) (fun s hs => by simp [micro, getS, hs])
    (s := setSlot s2 i (some (.shared none none))) (b := b) (k := k) hs2.2.2 h1 hp (by rw [← ho, ← hs2.2.1]; rfl) hm f s' hd

/-! ## C41 -/

/-- A `shared_ptr` that is not in the middle of an assignment and points to `o` has a
control block made for `o`. -/
theorem block_of {s : State} {W : List Work} (h : Inv N s W) {i : Slot} {o : Obj} {c : Option Blk}
    (hi : s.slot i = some (.shared (some o) c)) (hid : Idle W i) :
    ∃ b k, c = some b ∧ s.managed b = some o ∧ s.ctrl b = some k ∧ k.shared ≠ 0 := by
  have hf := h.val.sh i _ _ hi (fun q hq => by have := hid _ hq; simp [Work.busy] at this)
  cases c with
  | none => exact absurd hf (by simp [Fit])
  | some b =>
    have hpos := K_pos_of_slot (N := N) (slot := s.slot) (W := W) (w := .relS b) (h.str.lt i _ hi)
      (by rw [hi]; simp [refO, relOpt])
    rcases e : s.ctrl b with _ | k
    · have := h.core.gone b e; omega
    · refine ⟨b, k, rfl, hf.2, e, ?_⟩
      rw [bv_ne, h.core.cS b k e]; omega

/-- C41: in every reachable state, an object to which a `shared_ptr` points has not been
disposed. -/
theorem C41_owned_alive (h : Reach N T m) (i : Slot) (o : Obj) (hi : ∃ c, m.s.slot i = some (.shared (some o) c))
    (hid : Idle m.pending i) : (m.s.obj o).isSome = true ∧ o ∉ m.s.deleted := by
  have hinv := inv_reach h
  obtain ⟨c, hi⟩ := hi
  obtain ⟨b, k, rfl, hm, hk, h0⟩ := block_of hinv hi hid
  have hlive : (m.s.obj o).isSome = true := (hinv.core.live o).1 (Or.inr (Or.inr ⟨b, hm, k, hk, Or.inl h0⟩))
  refine ⟨hlive, ?_⟩
  rw [← List.count_eq_zero, hinv.core.deleted o, if_neg (by rw [hlive]; simp)]

/-- C41: nothing is disposed twice, in any reachable state. -/
theorem C41_at_most_once (h : Reach N T m) (o : Obj) : m.s.deleted.count o ≤ 1 := by
  rw [(inv_reach h).core.deleted o]; split <;> omega

theorem live_iff {s : State} (h : Inv N s []) (o : Obj) : (s.obj o).isSome = true ↔
    (s.raw o = true ∨ 0 < num N (uniqueO s o) ∨ 0 < num N (sharesO s o)) := by
  rw [← h.core.live o]
  have hd : K N s.slot [] (.del o) = num N (uniqueO s o) := by rw [K, slots_del]; rfl
  rw [hd]
  have : (∃ b, s.managed b = some o ∧ OwnB s (K N s.slot []) b) ↔ 0 < num N (sharesO s o) := by
    constructor
    · rintro ⟨b, hm, c, hc, hs⟩
      have hdisp : K N s.slot [] (.disp b) = 0 := by rw [K, slots_disp]; rfl
      have h0 : c.shared ≠ 0 := by
        rcases hs with hs | hs
        · exact hs
        · omega
      rw [bv_ne, h.core.cS b c hc, K_relS] at h0
      have hpos : 0 < num N (ownsB s b) := by
        have : owners N s b = num N (ownsB s b) := rfl
        simp at h0; omega
      obtain ⟨i, hi, hq⟩ := exists_of_num hpos
      obtain ⟨p, e⟩ := ownsB_iff.1 hq
      have hf : b < s.nblk ∧ s.managed b = p := h.val.sh i _ _ e (fun q => by simp)
      rw [hm] at hf
      exact num_pos (i := i) hi (sharesO_iff.2 ⟨some b, by rw [e, ← hf.2]⟩)
    · intro hpos
      obtain ⟨i, hi, hq⟩ := exists_of_num hpos
      obtain ⟨c, e⟩ := sharesO_iff.1 hq
      obtain ⟨b, k, rfl, hm, hk, h0⟩ := block_of h e (fun w hw => absurd hw (by simp))
      exact ⟨b, hm, k, hk, Or.inl h0⟩
  rw [this]

/-- C39/C41: whenever no call is unfinished, an object has been deleted exactly once if no
`unique_ptr` and no `shared_ptr` owns it (and its raw pointer is not in the hands of the
client), and not at all otherwise. -/
theorem C41_deleted_exactly_when_unowned (h : Reach N T m) (hq : m.pending = []) (o : Obj) :
    m.s.deleted.count o = if o < m.s.nobj ∧ m.s.raw o = false ∧ num N (uniqueO m.s o) = 0 ∧ num N (sharesO m.s o) = 0
      then 1 else 0 := by
  have hinv := inv_reach h
  rw [hq] at hinv
  rw [hinv.core.deleted o]
  have hl := live_iff hinv o
  have : (m.s.obj o).isSome = false ↔
      (m.s.raw o = false ∧ num N (uniqueO m.s o) = 0 ∧ num N (sharesO m.s o) = 0) := by
    rw [← Bool.not_eq_true, hl]
    constructor
    · intro hn
      refine ⟨?_, ?_, ?_⟩
      · rcases e : m.s.raw o with _ | _
        · rfl
        · exact absurd (Or.inl e) hn
      · rcases Nat.eq_zero_or_pos (num N (uniqueO m.s o)) with e | e
        · exact e
        · exact absurd (Or.inr (Or.inl e)) hn
      · rcases Nat.eq_zero_or_pos (num N (sharesO m.s o)) with e | e
        · exact e
        · exact absurd (Or.inr (Or.inr e)) hn
    · rintro ⟨a, b, c⟩ (e | e | e)
      · rw [a] at e; exact absurd e (by simp)
      · omega
      · omega
  by_cases hc : o < m.s.nobj ∧ (m.s.obj o).isSome = false
  · rw [if_pos hc, if_pos ⟨hc.1, this.1 hc.2⟩]
  · rw [if_neg hc, if_neg (fun hh => hc ⟨hh.1, this.2 hh.2⟩)]

/-- C41 for single-threaded programs: after each operation of any history, exactly the
objects without an owner have been deleted, each once. So an object goes during the very
operation that removes its last owner. -/
theorem C41_history {s : State} (hN : 7 * N + 15 < 2 ^ 64) (h : History N s) (o : Obj) :
    s.deleted.count o = if o < s.nobj ∧ s.raw o = false ∧ num N (uniqueO s o) = 0 ∧ num N (sharesO s o) = 0 then 1 else 0 :=
  C41_deleted_exactly_when_unowned (reach_of_history hN h) rfl o

/-! ## C42 -/

/-- C42: in every reachable state the control block of each `shared_ptr` and `weak_ptr`
exists and has not been freed. -/
theorem C42_alive_while_referenced (h : Reach N T m) (i : Slot) (b : Blk)
    (hi : (∃ p, m.s.slot i = some (.shared p (some b))) ∨ (∃ p, m.s.slot i = some (.weak p (some b)))) :
    (m.s.ctrl b).isSome = true ∧ b ∉ m.s.freed := by
  have hinv := inv_reach h
  have hs : (m.s.ctrl b).isSome = true := by
    rcases e : m.s.ctrl b with _ | c
    · have hg := hinv.core.gone b e
      rcases hi with ⟨p, hp⟩ | ⟨p, hp⟩
      · have := K_pos_of_slot (N := N) (slot := m.s.slot) (W := m.pending) (w := .relS b) (hinv.str.lt i _ hp)
          (by rw [hp]; simp [refO, relOpt])
        omega
      · have := K_pos_of_slot (N := N) (slot := m.s.slot) (W := m.pending) (w := .relW b) (hinv.str.lt i _ hp)
          (by rw [hp]; simp [refO, relWOpt])
        omega
    · rfl
  refine ⟨hs, ?_⟩
  rw [← List.count_eq_zero, hinv.core.freed b, if_neg (by rw [hs]; simp)]

/-- C42: whenever no call is unfinished, each control block ever made has been freed
exactly once if no `shared_ptr` and no `weak_ptr` refers to it, and not at all otherwise. -/
theorem C42_freed_exactly_when_unreferenced (h : Reach N T m) (hq : m.pending = []) (b : Blk) :
    m.s.freed.count b = if b < m.s.nblk ∧ owners N m.s b = 0 ∧ watchers N m.s b = 0 then 1 else 0 := by
  have hinv := inv_reach h
  rw [hq] at hinv
  rw [hinv.core.freed b]
  have hS : K N m.s.slot [] (.relS b) = owners N m.s b := by rw [K, slots_relS]; rfl
  have hW : K N m.s.slot [] (.relW b) = watchers N m.s b := by rw [K, slots_relW]; rfl
  have hD : K N m.s.slot [] (.disp b) = 0 := by rw [K, slots_disp]; rfl
  have : (m.s.ctrl b).isSome = false ↔ (owners N m.s b = 0 ∧ watchers N m.s b = 0) := by
    rcases e : m.s.ctrl b with _ | c
    · have := hinv.core.gone b e
      simp only [Option.isSome_none, true_iff]
      omega
    · have h1 := hinv.core.cS b c e
      have h2 := hinv.core.cW b c e
      have h3 := hinv.core.pos b c e
      rw [bv_ne] at h3
      simp only [Option.isSome_some, Bool.true_eq_false, false_iff]
      rintro ⟨a1, a2⟩
      have : c.shared = 0 := by
        rcases Decidable.em (c.shared = 0) with e | e
        · exact e
        · rw [← ne_eq, bv_ne] at e; omega
      rw [if_pos this] at h2
      omega
  by_cases hc : b < m.s.nblk ∧ (m.s.ctrl b).isSome = false
  · rw [if_pos hc, if_pos ⟨hc.1, this.1 hc.2⟩]
  · rw [if_neg hc, if_neg (fun hh => hc ⟨hh.1, this.2 hh.2⟩)]

/-- C42: nothing is freed twice, in any reachable state. -/
theorem C42_at_most_once (h : Reach N T m) (b : Blk) : m.s.freed.count b ≤ 1 := by
  rw [(inv_reach h).core.freed b]; split <;> omega

/-! ## C39 -/

theorem num_two {q : Slot → Bool} {i j : Slot} (hi : i < N) (hj : j < N) (hij : i ≠ j) (h1 : q i = true) (h2 : q j = true) :
    2 ≤ num N q := by
  induction N with
  | zero => omega
  | succ n ih =>
    unfold num at ih ⊢
    rw [List.range_succ, List.countP_append]
    by_cases e1 : i = n
    · subst e1
      have : 0 < num i q := num_pos (i := j) (by omega) h2
      unfold num at this
      have e : [i].countP q = 1 := by simp [h1]
      omega
    · by_cases e2 : j = n
      · subst e2
        have : 0 < num j q := num_pos (i := i) (by omega) h1
        unfold num at this
        have e : [j].countP q = 1 := by simp [h2]
        omega
      · have := ih (by omega) (by omega)
        omega

/-- C39: in every reachable state an object has at most one owning `unique_ptr`, and then
no `shared_ptr`; it is alive and has not been deleted. -/
theorem C39_one_owner (h : Reach N T m) (i : Slot) (o : Obj) (hi : m.s.slot i = some (.uniq (some (some o)))) :
    (∀ j, m.s.slot j = some (.uniq (some (some o))) → j = i) ∧
    (∀ j c, m.s.slot j = some (.shared (some o) c) → Idle m.pending j → False) ∧
    (m.s.obj o).isSome = true ∧ o ∉ m.s.deleted := by
  have hinv := inv_reach h
  have hiN := hinv.str.lt i _ hi
  have hpos := K_pos_of_slot (N := N) (slot := m.s.slot) (W := m.pending) (w := .del o) hiN
      (by rw [hi]; simp [refO, delOpt])
  have hlive : (m.s.obj o).isSome = true := (hinv.core.live o).1 (Or.inr (Or.inl hpos))
  refine ⟨?_, ?_, hlive, ?_⟩
  · intro j hj
    rcases Decidable.em (j = i) with e | e
    · exact e
    · have h2 := num_two (N := N) (q := uniqueO m.s o) (hinv.str.lt j _ hj) hiN e (by simp [uniqueO, hj]) (by simp [uniqueO, hi])
      have h1 := hinv.core.del1 o
      rw [K, slots_del] at h1
      omega
  · intro j c hj hid
    obtain ⟨b, _, _, hm, _⟩ := block_of hinv hj hid
    exact hinv.val.un i o b hi hm
  · rw [← List.count_eq_zero, hinv.core.deleted o, if_neg (by rw [hlive]; simp)]

/-- C39 for single-threaded programs (see also `C41_history`, which covers `unique_ptr`s
as well): after any history, an object that was adopted and not released is deleted once
if no pointer owns it, and is alive if one does. -/
theorem C39_deleted_once {s : State} (hN : 7 * N + 15 < 2 ^ 64) (h : History N s) (o : Obj) (ho : o < s.nobj) (hr : s.raw o = false)
    (hs : ∀ i c, s.slot i ≠ some (.shared (some o) c)) :
    (s.deleted.count o = 1 ∧ ∀ i, s.slot i ≠ some (.uniq (some (some o)))) ∨
    (s.deleted.count o = 0 ∧ ∃ i, s.slot i = some (.uniq (some (some o)))) := by
  have hinv : Inv N s [] := inv_reach (reach_of_history hN h)
  have hd := C41_history hN h o
  have hsh : num N (sharesO s o) = 0 := by
    rcases Nat.eq_zero_or_pos (num N (sharesO s o)) with e | e
    · exact e
    · obtain ⟨i, _, hq⟩ := exists_of_num e
      obtain ⟨c, e⟩ := sharesO_iff.1 hq
      exact absurd e (hs i c)
  rcases Nat.eq_zero_or_pos (num N (uniqueO s o)) with e | e
  · left
    rw [if_pos ⟨ho, hr, e, hsh⟩] at hd
    refine ⟨hd, fun i hi => ?_⟩
    have := num_pos (q := uniqueO s o) (hinv.str.lt i _ hi) (by simp [uniqueO, hi])
    omega
  · right
    rw [if_neg (by omega)] at hd
    refine ⟨hd, ?_⟩
    obtain ⟨i, _, hq⟩ := exists_of_num e
    exact ⟨i, uniqueO_iff.1 hq⟩

/-- C39: moving from, and releasing, a `unique_ptr` leaves it null; the target gets the
pointer; move assignment deletes what the target owned before and nothing else. -/
theorem C39_moved_from_null {s s' : State} {i j : Slot} {f : Nat} {push : List Work} {p : Option Obj} (hij : i ≠ j)
    (hj : s.slot j = some (.uniq (some p))) :
    (exec f s (.uMove i j) = .ok (s', push) → getPtr s' j = .ok none ∧ getPtr s' i = .ok p ∧ push = []) ∧
    (∀ q, s.slot i = some (.uniq (some q)) → exec f s (.uAssign i j) = .ok (s', push) →
      getPtr s' j = .ok none ∧ getPtr s' i = .ok p ∧ push = delOpt q) ∧
    (exec f s (.uRelease j) = .ok (s', push) → getPtr s' j = .ok none ∧ push = []) := by
  refine ⟨?_, ?_, ?_⟩
  · intro h
    simp only [exec, getU_of hj, Res.ok_bind] at h
    cases h
    simp [getPtr, setSlot, upd, Ne.symm hij]
  · intro q hq h
    have hq' : (setSlot s j (some (.uniq (some none)))).slot i = some (.uniq (some q)) := by
      rw [setSlot_slot_ne _ _ hij]; exact hq
    simp only [exec, getU_of hj, Res.ok_bind, getU_of hq'] at h
    cases h
    simp [getPtr, setSlot, upd, Ne.symm hij]
  · intro h
    simp only [exec, getU_of hj, Res.ok_bind] at h
    cases h
    simp [getPtr, setSlot, upd, mkraw]

/-- C39: move assignment of a `unique_ptr` to itself keeps its pointer and deletes nothing. -/
theorem C39_self_move {s : State} {i : Slot} {f : Nat} {p : Option Obj} (hi : s.slot i = some (.uniq (some p))) :
    ∃ s', exec f s (.uAssign i i) = .ok (s', []) ∧ s'.slot = s.slot ∧ s'.obj = s.obj := by
  have h1 : (setSlot s i (some (.uniq (some none)))).slot i = some (.uniq (some none)) := setSlot_slot_eq _ _ _
  refine ⟨setSlot (setSlot s i (some (.uniq (some none)))) i (some (.uniq (some p))),
    by simp only [exec, getU_of hi, Res.ok_bind, getU_of h1]; rfl, ?_, rfl⟩
  funext j
  by_cases e : j = i
  · subst e; rw [setSlot_slot_eq, hi]
  · rw [setSlot_slot_ne _ _ e, setSlot_slot_ne _ _ e]

/-- C39 is violated by the default constructor: whatever the state, a default-constructed
`unique_ptr` is not null; reading, destroying, resetting, assigning to, moving from or
releasing it is undefined. -/
theorem C39_violated_default (f : Nat) (s : State) (i j : Slot) (q : Option Obj) (hij : i ≠ j) (hj : s.slot j = some (.uniq (some q)))
    (p : Option Obj) :
    ∃ s', exec f s (.uDefault i) = .ok (s', []) ∧ getPtr s' i = .ub ∧ micro s' (.dtor i) = .ub ∧
      exec f s' (.uReset i p) = .ub ∧ exec f s' (.uAssign i j) = .ub ∧ exec f s' (.uAssign j i) = .ub ∧
      exec f s' (.uRelease i) = .ub := by
  refine ⟨_, rfl, ?_⟩
  have hj' : (setSlot s i (some (.uniq none))).slot j = some (.uniq (some q)) := by
    rw [setSlot_slot_ne _ _ (Ne.symm hij)]; exact hj
  have hi : (setSlot s i (some (.uniq none))).slot i = some (.uniq none) := setSlot_slot_eq _ _ _
  have hg : getU (setSlot s i (some (.uniq none))) i = .ub := by simp only [getU, hi]
  refine ⟨by simp only [getPtr, hi], by simp only [micro, hi], by simp only [exec, hg]; rfl, ?_,
    by simp only [exec, hg]; rfl, by simp only [exec, hg]; rfl⟩
  have : getU (setSlot (setSlot s i (some (.uniq none))) j (some (.uniq (some none)))) i = .ub := by
    simp only [getU, setSlot_slot_ne _ _ hij, hi]
  simp only [exec, getU_of hj', Res.ok_bind, this]; rfl

/-! ## C43 -/

/-- C43, in every reachable state: if the `weak_ptr` `w` has not expired, `lock()` makes one
more owner of the same object, which is alive, and changes nothing else. -/
theorem C43_lock_alive (h : Reach N T m) (hfit : Fits N m.pending) {i w : Slot} {p : Option Obj} {b : Blk} {n : BitVec 64}
    (hi : Free N m.s i) (hw : m.s.slot w = some (.weak p (some b))) (hid : Idle m.pending w)
    (hn : useCount m.s w = .ok n) (hexp : expired m.s w = .ok false) (f : Nat) (hf : 2 ≤ f) :
    ∃ s', exec f m.s (.sLock i w) = .ok (s', []) ∧ s'.slot i = some (.shared p (some b)) ∧
      useCount s' i = .ok (n + 1) ∧ (n + 1).toNat = n.toNat + 1 ∧ (∀ j, j ≠ i → s'.slot j = m.s.slot j) ∧ s'.obj = m.s.obj ∧
      (∀ o, p = some o → (s'.obj o).isSome = true) := by
  have hinv := inv_reach h
  obtain ⟨n', hn', hcnt⟩ := C40_use_count h w b (Or.inr ⟨p, hw⟩)
  rw [hn] at hn'; cases hn'
  rcases e : m.s.ctrl b with _ | k
  · simp [useCount, hw, e] at hn
  have hk : k.shared = n := by simpa [useCount, hw, e] using hn
  have h0 : k.shared ≠ 0 := by
    intro h0
    rw [expired, hn, ← hk, h0] at hexp
    exact absurd hexp (by decide)
  obtain ⟨f', rfl⟩ : ∃ f', f = f' + 2 := ⟨f - 2, by omega⟩
  have hlt : n.toNat + 1 < 2 ^ 64 := by
    have h1 : K N m.s.slot m.pending (.relS b) = owners N m.s b + m.pending.countP (holdsB b) := K_relS _ _ _ _
    have h2 := K_le N m.s.slot m.pending (.relS b)
    unfold Fits at hfit
    omega
  have he : exec (f' + 2) m.s (.sLock i w) =
      .ok (setSlot (setCtrl m.s b (some { k with shared := k.shared + 1 })) i (some (.shared p (some b))), []) := by
    simp only [exec, getW_of hw, Res.ok_bind, e, lockLoop_succ f' h0]; rfl
  refine ⟨_, he, setSlot_slot_eq _ _ _, ?_, ?_, fun j hj => setSlot_slot_ne _ _ hj, rfl, ?_⟩
  · simp only [useCount, setSlot_slot_eq]
    simp [setSlot, setCtrl, upd, hk]
  · rw [BitVec.toNat_add]
    exact Nat.mod_eq_of_lt hlt
  · intro o ho
    subst ho
    show (m.s.obj o).isSome = true
    have hm := (hinv.val.wk w _ _ hw).2
    exact (hinv.core.live o).1 (Or.inr (Or.inr ⟨b, hm, k, e, Or.inl h0⟩))

/-- C43: an expired (or empty) `weak_ptr` gives a null pointer and nothing else changes. -/
theorem C43_lock_expired_partial (h : Reach N T m) {i w : Slot} {p : Option Obj} {c : Option Blk}
    (hi : Free N m.s i) (hw : m.s.slot w = some (.weak p c)) (hexp : expired m.s w = .ok true) (f : Nat) (hf : 2 ≤ f) :
    ∃ s', exec f m.s (.sLock i w) = .ok (s', []) ∧ getPtr s' i = .ok none ∧
      (∀ j, j ≠ i → s'.slot j = m.s.slot j) ∧ s'.obj = m.s.obj ∧ s'.deleted = m.s.deleted := by
  cases c with
  | none =>
    refine ⟨setSlot (newBlk m.s none) i (some (.shared none (some m.s.nblk))), by simp only [exec, getW_of hw]; rfl, ?_, fun j hj => setSlot_slot_ne _ _ hj, rfl, rfl⟩
    simp only [getPtr, setSlot_slot_eq]
  | some b =>
    rcases e : m.s.ctrl b with _ | k
    · simp [expired, useCount, hw, e] at hexp
    have h0 : k.shared = 0 := by simpa [expired, useCount, hw, e] using hexp
    obtain ⟨f', rfl⟩ : ∃ f', f = f' + 1 := ⟨f - 1, by omega⟩
    refine ⟨setSlot (newBlk (setCtrl m.s b (some { k with shared := 0 })) none) i (some (.shared none (some m.s.nblk))), by simp only [exec, getW_of hw, Res.ok_bind, e, h0, lockLoop_zero]; rfl, ?_, fun j hj => setSlot_slot_ne _ _ hj, rfl, rfl⟩
    simp only [getPtr, setSlot_slot_eq]

/-- C43 is violated: the pointer `lock()` returns for an expired or empty `weak_ptr` is not
empty: it owns a control block of its own (for a null pointer), `use_count()` is 1. This
holds in every reachable state. -/
theorem C43_violated_expired_count (h : Reach N T m) {i w : Slot} {p : Option Obj} {c : Option Blk}
    (hi : Free N m.s i) (hw : m.s.slot w = some (.weak p c)) (hexp : expired m.s w = .ok true) (f : Nat) (hf : 2 ≤ f) :
    ∃ s', exec f m.s (.sLock i w) = .ok (s', []) ∧ useCount s' i = .ok 1 := by
  cases c with
  | none =>
    refine ⟨setSlot (newBlk m.s none) i (some (.shared none (some m.s.nblk))), by simp only [exec, getW_of hw]; rfl, ?_⟩
    simp only [useCount, setSlot_slot_eq]
    simp [setSlot, newBlk, upd]
  | some b =>
    rcases e : m.s.ctrl b with _ | k
    · simp [expired, useCount, hw, e] at hexp
    have h0 : k.shared = 0 := by simpa [expired, useCount, hw, e] using hexp
    obtain ⟨f', rfl⟩ : ∃ f', f = f' + 1 := ⟨f - 1, by omega⟩
    refine ⟨setSlot (newBlk (setCtrl m.s b (some { k with shared := 0 })) none) i (some (.shared none (some m.s.nblk))), by simp only [exec, getW_of hw, Res.ok_bind, e, h0, lockLoop_zero]; rfl, ?_⟩
    simp only [useCount, setSlot_slot_eq]
    simp [setSlot, setCtrl, newBlk, upd]

/-- C43: whenever no call is unfinished, a `weak_ptr` to `o` reports `expired()` exactly if
`o` has been deleted. -/
theorem C43_expired_iff (h : Reach N T m) (hq : m.pending = []) {w : Slot} {o : Obj} {c : Option Blk}
    (hw : m.s.slot w = some (.weak (some o) c)) : expired m.s w = .ok (decide (o ∈ m.s.deleted)) := by
  have hinv := inv_reach h
  rw [hq] at hinv
  have hf := hinv.val.wk w _ _ hw
  cases c with
  | none => exact absurd hf (by simp [Fit])
  | some b =>
    have hf : b < m.s.nblk ∧ m.s.managed b = some o := hf
    have hpos := K_pos_of_slot (N := N) (slot := m.s.slot) (W := []) (w := .relW b) (hinv.str.lt w _ hw)
      (by rw [hw]; simp [refO, relWOpt])
    rcases e : m.s.ctrl b with _ | k
    · have := hinv.core.gone b e; omega
    have hman := hinv.core.man b o hf.2
    have hdisp : K N m.s.slot [] (.disp b) = 0 := by rw [K, slots_disp]; rfl
    have hlive := hinv.core.live o
    have hdel : o ∈ m.s.deleted ↔ (m.s.obj o).isSome = false := by
      rw [← List.count_pos_iff, hinv.core.deleted o]
      split
      · rename_i hh; simp [hh.2]
      · rename_i hh
        constructor
        · intro h'; omega
        · intro h'; exact absurd ⟨hman.2.1, h'⟩ hh
    simp only [expired, useCount, hw, e, Res.ok_bind]
    congr 1
    by_cases h0 : k.shared = 0
    · rw [h0]
      have : (m.s.obj o).isSome = false := by
        rw [← Bool.not_eq_true, ← hlive]
        rintro (a | a | ⟨b', hb', c', hc', a⟩)
        · rw [hman.1] at a; exact absurd a (by simp)
        · rw [K, slots_del] at a
          simp only [List.flatMap_nil, List.count_nil, Nat.add_zero] at a
          obtain ⟨i, _, hq'⟩ := exists_of_num a
          exact hinv.val.un i o b (uniqueO_iff.1 hq') hf.2
        · have := hinv.core.inj b' b o hb' hf.2
          subst this
          rw [e] at hc'; cases hc'
          rcases a with a | a
          · exact a h0
          · omega
      rw [decide_eq_true (hdel.2 this)]; rfl
    · have : (m.s.obj o).isSome = true := hlive.1 (Or.inr (Or.inr ⟨b, hf.2, k, e, Or.inl h0⟩))
      rw [decide_eq_false (by rw [hdel, this]; simp), beq_false_of_ne h0]

/-! ## C45 -/

/-- `n` steps in which threads only work off unfinished calls. -/
inductive Works (N : Nat) : Nat → Machine → Machine → Prop
  | nil {a : Machine} : Works N 0 a a
  | cons {n : Nat} {s : State} {th : List (List Work)} {t : Nat} {w : Work} {rest : List Work} {s' : State} {push : List Work}
      {a : Machine} : Fits N th.flatten → th[t]? = some (w :: rest) → micro s w = .ok (s', push) →
      Works N n ⟨s', th.set t (push ++ rest)⟩ a → Works N (n + 1) ⟨s, th⟩ a

theorem works_le (hinv : Inv N m.s m.pending) {n : Nat} {m' : Machine} (h : Works N n m m') :
    n + load N m'.s m'.pending ≤ load N m.s m.pending := by
  induction h with
  | nil => omega
  | cons hfit hw hm _ ih =>
    have hlt := work_load (m := ⟨_, _⟩) hinv hw hm
    obtain ⟨s', push, he, hi⟩ := work_step (m := ⟨_, _⟩) hinv hfit hw
    have he : micro _ _ = _ := he
    rw [hm] at he; cases he
    have := ih hi
    simp only [Machine.pending] at *
    omega

/-- C45: from every reachable state, in every interleaving, the threads work off all
unfinished calls in a bounded number of steps. -/
theorem C45_terminates (h : Reach N T m) : ∃ B, ∀ n m', Works N n m m' → n ≤ B :=
  ⟨load N m.s m.pending, fun _ _ hw => by have := works_le (inv_reach h) hw; omega⟩

/-- C45: and no thread is ever stuck on the way: as long as a call is unfinished, each
thread that has one can go on. -/
theorem C45_progress (h : Reach N T m) (hfit : Fits N m.pending) (t : Nat) (w : Work) (rest : List Work)
    (hw : m.th[t]? = some (w :: rest)) : ∃ m', Works N 1 m m' ∧ Reach N T m' := by
  obtain ⟨s', push, he, hi⟩ := work_step (inv_reach h) hfit hw
  exact ⟨⟨s', m.th.set t (push ++ rest)⟩, Works.cons (s := m.s) (th := m.th) hfit hw he Works.nil,
    Reach.step h (Step.work (s := m.s) (th := m.th) hfit hw he)⟩

/-- C45: any number of threads, any programs of copying, assigning, moving, resetting and
destroying pointers, any interleaving: when the calls are finished, an object managed by
shared pointers has been disposed exactly once if all of them are gone and not at all
otherwise, and likewise the control block. (`lock` is covered as an uninterrupted
operation; see C44.) -/
theorem C45_disposed_and_freed_once (h : Reach N T m) (hq : m.pending = []) {b : Blk} {o : Obj} (hb : m.s.managed b = some o) :
    m.s.deleted.count o = (if owners N m.s b = 0 then 1 else 0) ∧
    m.s.freed.count b = (if owners N m.s b = 0 ∧ watchers N m.s b = 0 then 1 else 0) := by
  have hinv := inv_reach h
  constructor
  · have hman := hinv.core.man b o hb
    rw [hinv.core.deleted o]
    rw [hq] at hinv
    have hd : K N m.s.slot [] (.del o) = 0 := by
      rcases Nat.eq_zero_or_pos (K N m.s.slot [] (.del o)) with e | a
      · exact e
      · rw [K, slots_del] at a
        simp only [List.flatMap_nil, List.count_nil, Nat.add_zero] at a
        obtain ⟨i, _, hq'⟩ := exists_of_num a
        exact absurd hb (hinv.val.un i o b (uniqueO_iff.1 hq'))
    have hS : K N m.s.slot [] (.relS b) = owners N m.s b := by rw [K, slots_relS]; rfl
    have hD : K N m.s.slot [] (.disp b) = 0 := by rw [K, slots_disp]; rfl
    have key : (m.s.obj o).isSome = true ↔ owners N m.s b ≠ 0 := by
      rw [← hinv.core.live o]
      constructor
      · rintro (a | a | ⟨b', hb', c', hc', a⟩)
        · rw [hman.1] at a; exact absurd a (by simp)
        · omega
        · have := hinv.core.inj b' b o hb' hb
          subst this
          rcases a with a | a
          · rw [bv_ne, hinv.core.cS _ _ hc'] at a; omega
          · omega
      · intro hn
        rcases e : m.s.ctrl b with _ | k
        · have := hinv.core.gone b e; omega
        · exact Or.inr (Or.inr ⟨b, hb, k, e, Or.inl (by rw [bv_ne, hinv.core.cS _ _ e]; omega)⟩)
    by_cases h0 : owners N m.s b = 0
    · rw [if_pos h0, if_pos ⟨hman.2.1, by rw [← Bool.not_eq_true, key]; simp [h0]⟩]
    · rw [if_neg h0, if_neg (fun hh => by rw [key.2 h0] at hh; exact absurd hh.2 (by simp))]
  · rw [C42_freed_exactly_when_unreferenced h hq b]
    have := hinv.core.mlt b o hb
    by_cases h0 : owners N m.s b = 0 ∧ watchers N m.s b = 0
    · rw [if_pos h0, if_pos ⟨this, h0⟩]
    · rw [if_neg h0, if_neg (fun hh => h0 hh.2)]

/-! ### Examples

A history in which the hypotheses of the theorems above hold: an object 0 whose member 1
is a `shared_ptr`, owned by the `shared_ptr`s 0 and 2 and observed by the `weak_ptr` 3; an
object 1 owned by the `unique_ptr` 4. -/

/-- The state after a list of operations, if they are defined. -/
def after (os : List Op) : State := match calls 20 init os with | .ok s => s | _ => init

def ex1 : List Op := [.newObj [(1, .s)], .sNew 0 (some 0) none, .sCopy 2 0, .wOfS 3 0, .newObj [], .uNew 4 (some 1)]

theorem History.call {s : State} (h : History N s) {o : Op} (hl : Legal N s [] o) (f : Nat)
    (hok : ∃ s', call f s o = .ok s') : History N (match call f s o with | .ok s' => s' | _ => s) := by
  obtain ⟨s', hs'⟩ := hok
  rw [hs']
  exact History.step h hl hs'

theorem idle_nil (i : Slot) : Idle [] i := fun _ h => absurd h (by simp)

theorem ex1_history : History 6 (after ex1) := by
  have h0 : History 6 init := History.start
  have h1 := h0.call (o := .newObj [(1, .s)]) ⟨by simp, by intro m hm; simp at hm; subst hm; exact ⟨by decide, rfl⟩⟩ 20 ⟨_, rfl⟩
  have h2 := h1.call (o := .sNew 0 (some 0) none) ⟨⟨by decide, rfl⟩, by intro o e; cases e; rfl, by intro w e; cases e⟩ 20 ⟨_, rfl⟩
  have h3 := h2.call (o := .sCopy 2 0) ⟨⟨by decide, rfl⟩, ⟨_, _, rfl⟩, idle_nil _⟩ 20 ⟨_, rfl⟩
  have h4 := h3.call (o := .wOfS 3 0) ⟨⟨by decide, rfl⟩, ⟨_, _, rfl⟩, idle_nil _⟩ 20 ⟨_, rfl⟩
  have h5 := h4.call (o := .newObj []) ⟨by simp, by intro m hm; simp at hm⟩ 20 ⟨_, rfl⟩
  exact h5.call (o := .uNew 4 (some 1)) ⟨⟨by decide, rfl⟩, by intro o e; cases e; rfl⟩ 20 ⟨_, rfl⟩

theorem ex1_reach : Reach 6 1 ⟨after ex1, [[]]⟩ := reach_of_history (by decide) ex1_history

/- C40: two owners. -/
example : ∃ n, useCount (after ex1) 0 = .ok n ∧ n.toNat = owners 6 (after ex1) 0 + 0 :=
  C40_use_count ex1_reach 0 0 (Or.inl ⟨_, rfl⟩)
example : owners 6 (after ex1) 0 = 2 ∧ watchers 6 (after ex1) 0 = 1 := by decide
example : ∃ n, useCount (after ex1) 2 = .ok n ∧ n.toNat = num 6 (sharesO (after ex1) 0) :=
  C40_use_count_object ex1_reach rfl 2 0 ⟨_, rfl⟩
example : num 6 (sharesO (after ex1) 0) = 2 := by decide
example : useCount (after ex1) 1 = .ok 0 := C40_empty _ _ rfl
example : ∃ s' push, exec 2 (after ex1) (.sAssign 1 0) = .ok (s', push) :=
  (C40_defined_partial ex1_reach (by unfold Fits; decide) 0).2 (.sAssign 1 0) rfl
    ⟨⟨⟨_, _, rfl⟩, idle_nil _⟩, ⟨_, _, rfl⟩, idle_nil _⟩ 2 (Nat.le_refl 2)
example : ∃ s' n, (∀ f, n ≤ f → call f (after ex1) (.sReset 0) = .ok s') ∧ History 6 s' :=
  C40_calls_finish_partial (by decide) ex1_history ⟨⟨_, _, rfl⟩, idle_nil _⟩

/- C41, C42. -/
example : ((after ex1).obj 0).isSome = true ∧ 0 ∉ (after ex1).deleted :=
  C41_owned_alive ex1_reach 2 0 ⟨_, rfl⟩ (idle_nil _)
example : (after ex1).deleted.count 0 ≤ 1 := C41_at_most_once ex1_reach 0
example : (after ex1).deleted.count 0 = 0 := (C41_history (by decide) ex1_history 0).trans (by decide)
example : (after ex1).deleted.count 0 = 0 :=
  (C41_deleted_exactly_when_unowned ex1_reach rfl 0).trans (by decide)
example : ((after ex1).ctrl 0).isSome = true ∧ 0 ∉ (after ex1).freed :=
  C42_alive_while_referenced ex1_reach 3 0 (Or.inr ⟨_, rfl⟩)
example : (after ex1).freed.count 0 = 0 :=
  (C42_freed_exactly_when_unreferenced ex1_reach rfl 0).trans (by decide)
example : (after ex1).freed.count 0 ≤ 1 := C42_at_most_once ex1_reach 0

/-- Both owners and the `unique_ptr` go: the objects are deleted, the control block stays
for the `weak_ptr`. -/
def ex2 : List Op := ex1 ++ [.destroy 0, .sReset 2, .uReset 4 none]

theorem ex2_history : History 6 (after ex2) := by
  have h1 := ex1_history.call (o := .destroy 0) ⟨rfl, idle_nil _, by
    intro o ms ho hm
    match o with
    | 0 => cases ho; exact absurd hm (by decide)
    | 1 => cases ho; exact absurd hm (by decide)
    | o + 2 => exact absurd ho (by simp [after, ex1, calls, call, exec, drain, upd, setSlot, init, newBlk, unraw, incS, incW, getS, setCtrl])⟩ 20 ⟨_, rfl⟩
  have h2 := h1.call (o := .sReset 2) ⟨⟨_, _, rfl⟩, idle_nil _⟩ 20 ⟨_, rfl⟩
  exact h2.call (o := .uReset 4 none) ⟨⟨⟨_, rfl⟩, idle_nil _⟩, by intro o e; cases e⟩ 20 ⟨_, rfl⟩

theorem ex2_reach : Reach 6 1 ⟨after ex2, [[]]⟩ := reach_of_history (by decide) ex2_history

example : (after ex2).deleted.count 0 = 1 := (C41_history (by decide) ex2_history 0).trans (by decide)
example : (after ex2).freed.count 0 = 0 :=
  (C42_freed_exactly_when_unreferenced ex2_reach rfl 0).trans (by decide)
example : (after ex2).deleted.count 0 = 1 ∧ (after ex2).freed.count 0 = 0 :=
  C45_disposed_and_freed_once ex2_reach rfl (b := 0) (o := 0) rfl

/- C39. -/
example : (∀ j, (after ex1).slot j = some (.uniq (some (some 1))) → j = 4) ∧
    (∀ j c, (after ex1).slot j = some (.shared (some 1) c) → Idle [] j → False) ∧
    ((after ex1).obj 1).isSome = true ∧ 1 ∉ (after ex1).deleted := C39_one_owner ex1_reach 4 1 rfl
example : getPtr (after (ex1 ++ [.uMove 5 4])) 4 = .ok none ∧ getPtr (after (ex1 ++ [.uMove 5 4])) 5 = .ok (some 1) := by decide
example : ∃ s', exec 0 (after ex1) (.uAssign 4 4) = .ok (s', []) ∧ s'.slot = (after ex1).slot ∧ s'.obj = (after ex1).obj :=
  C39_self_move (p := some 1) rfl
example : ∃ s', exec 0 (after ex1) (.uDefault 5) = .ok (s', []) ∧ getPtr s' 5 = .ub ∧ micro s' (.dtor 5) = .ub ∧
      exec 0 s' (.uReset 5 none) = .ub ∧ exec 0 s' (.uAssign 5 4) = .ub ∧ exec 0 s' (.uAssign 4 5) = .ub ∧
      exec 0 s' (.uRelease 5) = .ub := C39_violated_default 0 _ 5 4 (some 1) (by decide) rfl none

/- C43. -/
example : ∃ s', exec 2 (after ex1) (.sLock 5 3) = .ok (s', []) ∧ s'.slot 5 = some (.shared (some 0) (some 0)) ∧
      useCount s' 5 = .ok (2 + 1) ∧ ((2 + 1 : BitVec 64)).toNat = (2 : BitVec 64).toNat + 1 ∧
      (∀ j, j ≠ 5 → s'.slot j = (after ex1).slot j) ∧ s'.obj = (after ex1).obj ∧
      (∀ o, some 0 = some o → (s'.obj o).isSome = true) :=
  C43_lock_alive ex1_reach (by unfold Fits; decide) ⟨by decide, rfl⟩ rfl (idle_nil _) rfl rfl 2 (Nat.le_refl 2)
example : ∃ s', exec 2 (after ex2) (.sLock 5 3) = .ok (s', []) ∧ useCount s' 5 = .ok 1 :=
  C43_violated_expired_count ex2_reach ⟨by decide, rfl⟩ (p := some 0) (c := some 0) rfl rfl 2 (Nat.le_refl 2)
example : ∃ s', exec 2 (after ex2) (.sLock 5 3) = .ok (s', []) ∧ getPtr s' 5 = .ok none ∧
      (∀ j, j ≠ 5 → s'.slot j = (after ex2).slot j) ∧ s'.obj = (after ex2).obj ∧ s'.deleted = (after ex2).deleted :=
  C43_lock_expired_partial ex2_reach ⟨by decide, rfl⟩ (p := some 0) (c := some 0) rfl rfl 2 (Nat.le_refl 2)
example : expired (after ex2) 3 = .ok true := (C43_expired_iff ex2_reach rfl rfl).trans (by decide)

/- C45: two threads, one of them in the middle of releasing an object. -/
theorem ex3_reach : ∃ m : Machine, Reach 6 2 m ∧ m.th = [[Work.relS 0], []] ∧ Fits 6 m.pending := by
  refine ⟨_, Reach.step (Reach.step (Reach.step Reach.start
    (Step.op (t := 0) (f := 0) (o := .newObj []) ?_ rfl ?_ rfl))
    (Step.op (t := 1) (f := 0) (o := .sNew 0 (some 0) none) ?_ rfl ?_ rfl))
    (Step.op (t := 0) (f := 0) (o := .sReset 0) ?_ rfl ?_ rfl), rfl, ?_⟩
  · unfold Fits; decide
  · exact ⟨by simp, by intro m hm; simp at hm⟩
  · unfold Fits; decide
  · exact ⟨⟨by decide, rfl⟩, by intro o e; cases e; rfl, by intro w e; cases e⟩
  · unfold Fits; decide
  · exact ⟨⟨_, _, rfl⟩, idle_nil _⟩
  · unfold Fits; decide

example : ∃ m : Machine, (∃ B, ∀ n m', Works 6 n m m' → n ≤ B) ∧ ∃ m', Works 6 1 m m' ∧ Reach 6 2 m' := by
  obtain ⟨m, h, hth, hf⟩ := ex3_reach
  exact ⟨m, C45_terminates h, C45_progress h hf 0 (.relS 0) [] (by rw [hth]; rfl)⟩

/-- An object that owns itself through its member 1; then `reset` and the converting
assignment of that member are undefined. -/
def ex4 : List Op := [.newObj [(1, .s)], .sNew 0 (some 0) none, .sAssign 1 0, .sReset 0]

theorem ex4_history : History 6 (after ex4) := by
  have h0 : History 6 init := History.start
  have h1 := h0.call (o := .newObj [(1, .s)]) ⟨by simp, by intro m hm; simp at hm; subst hm; exact ⟨by decide, rfl⟩⟩ 20 ⟨_, rfl⟩
  have h2 := h1.call (o := .sNew 0 (some 0) none) ⟨⟨by decide, rfl⟩, by intro o e; cases e; rfl, by intro w e; cases e⟩ 20 ⟨_, rfl⟩
  have h3 := h2.call (o := .sAssign 1 0) ⟨⟨⟨_, _, rfl⟩, idle_nil _⟩, ⟨_, _, rfl⟩, idle_nil _⟩ 20 ⟨_, rfl⟩
  exact h3.call (o := .sReset 0) ⟨⟨_, _, rfl⟩, idle_nil _⟩ 20 ⟨_, rfl⟩

theorem ex4_only : ∀ j c', (after ex4).slot j = some (.shared (some 0) c') → j = 1 := by
  intro j c' hj
  match j with
  | 0 => cases hj
  | 1 => rfl
  | j + 2 =>
    exact absurd hj (by simp [after, ex4, calls, call, exec, drain, micro, upd, setSlot, init, newBlk, setMembers, Kind.null, incS, getS, setCtrl, relOpt])

example (p : Option Obj) (f : Nat) (s' : State) : call f (after ex4) (.sResetTo 1 p) ≠ .ok s' :=
  C40_violated_reset_member (by decide) ex4_history (ms := [1]) (o := 0) rfl (by simp) rfl ex4_only p f s'
example (f : Nat) (s' : State) : call f (after ex4) (.sConv 1 0) ≠ .ok s' :=
  C40_violated_convert_member (by decide) ex4_history (ms := [1]) (o := 0) rfl (by simp) rfl ex4_only
    ⟨⟨_, _, rfl⟩, idle_nil _⟩ (by decide) f s'

/-- C40 is violated: the witness. The call ends in undefined behaviour. -/
theorem C40_violated_witness : call 20 (after ex4) (.sResetTo 1 none) = .ub ∧ call 20 (after ex4) (.sConv 1 0) = .ub :=
  ⟨rfl, rfl⟩

end Verif.SmartPtr
