import Verif.Lemmas.RefOrder

/-!
C103: no use of a shared object races with its destruction, and no operation on the control block with its release, in
the memory model of C++.
-/

set_option backward.isDefEq.respectTransparency false

namespace Verif.RefOrder

/-- Event `i` happens before event `j`. -/
def Before (s : St) (i j : Nat) : Prop := ∃ f, s.log[j]? = some f ∧ i ∈ f.view

/-- Event `i` is of kind `k`. -/
def Is (s : St) (i : Nat) (k : Kind) : Prop := ∃ e, s.log[i]? = some e ∧ e.kind = k

instance (s : St) (i j : Nat) : Decidable (Before s i j) :=
  match h : s.log[j]? with
  | none => .isFalse fun ⟨_, hf, _⟩ => by rw [h] at hf; cases hf
  | some e => if h' : i ∈ e.view then .isTrue ⟨e, h, h'⟩
      else .isFalse fun ⟨_, hf, hi⟩ => by rw [h] at hf; cases hf; exact h' hi

instance (s : St) (i : Nat) (k : Kind) : Decidable (Is s i k) :=
  match h : s.log[i]? with
  | none => .isFalse fun ⟨_, hf, _⟩ => by rw [h] at hf; cases hf
  | some e => if h' : e.kind = k then .isTrue ⟨e, h, h'⟩
      else .isFalse fun ⟨_, hf, hi⟩ => by rw [h] at hf; cases hf; exact h' hi

/-- Thread 0 shares the object with thread 1 and gives thread 2 a weak pointer; both owners use the object, thread 1 drops
its pointer last and disposes, then thread 2 drops the weak pointer and frees the block. -/
def exActs : List (Nat × Act) :=
  [(0, .copyShared), (0, .giveShared 1), (0, .copyWeak), (0, .giveWeak 2), (1, .use), (0, .use), (2, .useCount),
   (0, .dropShared), (1, .use), (1, .dropShared), (1, .cont), (1, .cont), (2, .dropWeak), (2, .cont)]

/-- The events of the example. -/
def exEnd : St := ((run (start 2) exActs).getD (start 2))

theorem exRun : run (start 2) exActs = some exEnd := by decide +kernel

/-- Happens-before is a strict partial order that agrees with the order of execution. -/
theorem C103_order {n : Nat} {acts : List (Nat × Act)} {s : St} (h : run (start n) acts = some s) {i j k : Nat} :
    (Before s i j → i < j) ∧ (Before s i j → Before s j k → Before s i k) := by
  have hw := run_wf (wf_start n) h
  refine ⟨fun ⟨f, hf, hi⟩ => (hw.ev j f hf).2 i hi, ?_⟩
  rintro ⟨f, hf, hi⟩ ⟨g, hg, hj⟩
  obtain ⟨f', hf', hk⟩ := (hw.ev k g hg).1 j hj
  rw [hf] at hf'
  injection hf' with hf'
  subst hf'
  exact ⟨g, hg, hk i hi⟩

/-- Every use of the object, by any owner in any thread, happens before the object is destroyed. -/
theorem C103_use_before_dispose {n : Nat} {acts : List (Nat × Act)} {s : St} (hn : acts.length + 2 < 2 ^ 64)
    (h : run (start n) acts = some s) {i j : Nat} (hi : Is s i .use) (hj : Is s j .dispose) : Before s i j := by
  have hinv := run_inv (inv_start n) (by show 1 + _ + 1 < _; omega) h
  obtain ⟨d, hd, hk⟩ := hj
  exact ⟨d, hd, hinv.use3 j d hd hk i hi⟩

/-- Every operation on the control block and the destruction of the object happen before the block is freed; so does every
use of the object. -/
theorem C103_all_before_free {n : Nat} {acts : List (Nat × Act)} {s : St} (hn : acts.length + 2 < 2 ^ 64)
    (h : run (start n) acts = some s) {i j : Nat} {e : Event} (hi : s.log[i]? = some e) (hj : Is s j .free) (hij : i ≠ j) :
    Before s i j := by
  have hinv := run_inv (inv_start n) (by show 1 + _ + 1 < _; omega) h
  have hw := run_wf (wf_start n) h
  obtain ⟨f, hf, hk⟩ := hj
  have hnum := hinv.num
  cases hke : e.kind with
  | make =>
    have hi0 : i = 0 := by
      rcases Nat.eq_zero_or_pos i with h0 | h0
      · exact h0
      · exact absurd hke (hinv.make1 i e hi h0).1
    subst hi0
    exact ⟨f, hf, (hinv.make1 j f hf (by omega)).2⟩
  | count => exact ⟨f, hf, hinv.blk3 j f hf hk i ⟨e, hi, .inl hke⟩⟩
  | dispose => exact ⟨f, hf, hinv.blk3 j f hf hk i ⟨e, hi, .inr hke⟩⟩
  | free => exact absurd (nK_two hi hke hf hk hij) (by have := hnum.frees; omega)
  | use =>
    have h0 : 0 < nK .free s.log := nK_pos hf hk
    have h1 : 0 < nK .dispose s.log := by
      have a := hnum.frees; have b := hnum.weak; have c := hnum.disposes
      omega
    obtain ⟨k, d, hd, hkd⟩ := nK_get h1
    have hid := hinv.use3 k d hd hkd i ⟨e, hi, hke⟩
    have hdf := hinv.blk3 j f hf hk k ⟨d, hd, .inr hkd⟩
    exact (C103_order h).2 ⟨d, hd, hid⟩ ⟨f, hf, hdf⟩

/-- Making object and block happens before everything else. -/
theorem C103_make_first {n : Nat} {acts : List (Nat × Act)} {s : St} (hn : acts.length + 2 < 2 ^ 64)
    (h : run (start n) acts = some s) : Is s 0 .make ∧ ∀ i, 0 < i → i < s.log.length → ¬ Is s i .make ∧ Before s 0 i := by
  have hinv := run_inv (inv_start n) (by show 1 + _ + 1 < _; omega) h
  refine ⟨hinv.make0, fun i hi hl => ?_⟩
  obtain ⟨k1, k2⟩ := hinv.make1 i (s.log[i]) (List.getElem?_eq_getElem hl) hi
  refine ⟨?_, _, List.getElem?_eq_getElem hl, k2⟩
  rintro ⟨e, he, hk⟩
  rw [List.getElem?_eq_getElem hl] at he
  injection he with he
  exact k1 (he ▸ hk)

/-- Never two destructions and never two releases of the block; when all pointers are gone and no thread is inside
`release()`, one of each. -/
theorem C103_once {n : Nat} {acts : List (Nat × Act)} {s : St} (hn : acts.length + 2 < 2 ^ 64)
    (h : run (start n) acts = some s) :
    (∀ k, k = .dispose ∨ k = .free → ∀ i j, Is s i k → Is s j k → i = j) ∧
      ((∀ (u : Nat) (x : Thread), s.th[u]? = some x → x.holds = 0 ∧ x.weaks = 0 ∧ x.pc = .idle) →
        (∃ i, Is s i .dispose) ∧ ∃ i, Is s i .free) := by
  have hinv := run_inv (inv_start n) (by show 1 + _ + 1 < _; omega) h
  have hnum := hinv.num
  constructor
  · rintro k hk i j ⟨e, he, hke⟩ ⟨f, hf, hkf⟩
    by_cases hij : i = j
    · exact hij
    · have h2 := nK_two he hke hf hkf hij
      have a := hnum.frees; have c := hnum.disposes
      rcases hk with rfl | rfl <;> omega
  · intro hall
    have z := fun (f : Thread → Nat) (hf : ∀ x : Thread, x.holds = 0 ∧ x.weaks = 0 ∧ x.pc = .idle → f x = 0) =>
      sum_zero (f := f) (l := s.th) fun u x hx => hf x (hall u x hx)
    have z1 := z (·.holds) fun x hx => hx.1
    have z2 := z (·.weaks) fun x hx => hx.2.1
    have z3 := z (isPc .dispose) fun x hx => by simp [isPc, hx.2.2]
    have z4 := z (isPc .weakRel) fun x hx => by simp [isPc, hx.2.2]
    have z5 := z (isPc .distory) fun x hx => by simp [isPc, hx.2.2]
    have a := hnum.frees; have b := hnum.weak; have c := hnum.disposes
    obtain ⟨i, e, he⟩ := nK_get (k := .dispose) (l := s.log) (by omega)
    obtain ⟨j, f, hf⟩ := nK_get (k := .free) (l := s.log) (by omega)
    exact ⟨⟨i, e, he⟩, j, f, hf⟩

/- The events of the example: making is 0; thread 1 uses the object (3, 7), thread 0 too (4); 9 is the destruction, 12 the
release of the block; the relaxed load of thread 2 is 5. -/
example : exEnd.log.map (·.kind) = [.make, .count, .count, .use, .use, .count, .count, .use, .count, .dispose, .count,
    .count, .free] := by decide +kernel
example : Before exEnd 4 9 := C103_use_before_dispose (by decide) exRun (by decide +kernel) (by decide +kernel)
example : Before exEnd 5 12 :=
  C103_all_before_free (i := 5) (by decide) exRun (e := ⟨.count, [2, 1, 0]⟩) (by decide +kernel) (by decide +kernel) (by decide)
example : Before exEnd 0 5 := ((C103_make_first (by decide) exRun).2 5 (by decide) (by decide +kernel)).2
example : Before exEnd 4 12 := (C103_order exRun (j := 9)).2 (by decide +kernel) (by decide +kernel)
example : ∃ i, Is exEnd i .free :=
  ((C103_once (by decide) exRun).2 (by
    intro u x hx
    have hm := List.mem_of_getElem? hx
    have : ∀ y ∈ exEnd.th, y.holds = 0 ∧ y.weaks = 0 ∧ y.pc = .idle := by decide +kernel
    exact this x hm)).2
/- The uses of two owners are not ordered by the counts, and nothing is ordered by a relaxed load. -/
example : ¬ Before exEnd 3 4 ∧ ¬ Before exEnd 4 3 ∧ ¬ Before exEnd 5 9 ∧ ¬ Before exEnd 9 5 := by decide +kernel

/-- `unique()` does not make a sole owner: whenever two threads share the object, the other may use it and drop its
pointer, after which `use_count()` can only be 1 (it is the last value of the count) — and the use of the object by the
thread that has seen this is still not ordered with the use by the other one. -/
theorem C103_unique_orders_nothing {n : Nat} {acts : List (Nat × Act)} {s : St} (hn : acts.length + 2 < 2 ^ 64)
    (h : run (start n) acts = some s) {t u : Nat} {x y : Thread} (ht : s.th[t]? = some x) (hu : s.th[u]? = some y)
    (hne : t ≠ u) (hpx : x.pc = .idle) (hpy : y.pc = .idle) (hx : x.holds = 1) (hy : y.holds = 1)
    (hrest : ∀ (v : Nat) (z : Thread), s.th[v]? = some z → v ≠ t → v ≠ u → z.holds = 0) :
    ∃ s' s'', run s [(u, .use), (u, .dropShared), (t, .useCount)] = some s' ∧ s'.shared.val = 1 ∧
      (∀ (v : Nat) (z : Thread), s'.th[v]? = some z → v ≠ t → z.holds = 0) ∧
      run s' [(t, .use)] = some s'' ∧ Is s'' s.log.length .use ∧ Is s'' s'.log.length .use ∧
      ¬ Before s'' s.log.length s'.log.length ∧ ¬ Before s'' s'.log.length s.log.length := by
  have hinv := run_inv (inv_start n) (by show 1 + _ + 1 < _; omega) h
  have hw := run_wf (wf_start n) h
  obtain ⟨hx1, wx, px, vx⟩ := x
  obtain ⟨hy1, wy, py, vy⟩ := y
  simp only at hpx hpy hx hy
  subst hpx hpy hx hy
  have hsum : s.shared.val.toNat = 2 := by
    rw [hinv.num.shared]
    have h1 := sum_set (f := (·.holds)) (y := ⟨0, wx, .idle, vx⟩) ht
    have h2 := sum_set (f := (·.holds)) (y := ⟨0, wy, .idle, vy⟩) (set_other (y := ⟨0, wx, .idle, vx⟩) hu hne.symm)
    have h3 : sumT (·.holds) ((s.th.set t ⟨0, wx, .idle, vx⟩).set u ⟨0, wy, .idle, vy⟩) = 0 := sum_zero fun v z hz => by
      rcases get_set hz with ⟨_, rfl⟩ | ⟨h4, hz⟩
      · rfl
      · rcases get_set hz with ⟨_, rfl⟩ | ⟨h5, hz⟩
        · rfl
        · exact hrest v z hz h5 h4
    simp only at h1 h2 h3 ⊢
    omega
  have hval : s.shared.val = 2 := BitVec.eq_of_toNat_eq hsum
  have hone : s.shared.val - 1 = 1 := by rw [hval]; decide
  have hxl : ∀ i ∈ vx, i < s.log.length := fun i hi => (hw.th t _ ht).lt hi
  have hu1 := set_same (y := ⟨1, wy, .idle, s.log.length :: vy⟩) hu
  have h1 : step s u .use = some ⟨s.shared, s.weak, s.th.set u ⟨1, wy, .idle, s.log.length :: vy⟩, s.log ++ [⟨.use, vy⟩]⟩ := by
    simp [step, hu]
  obtain ⟨c, b, a, hr⟩ : ∃ c b a, rmw decOrder (· - 1) s.shared (s.log ++ [(⟨.use, vy⟩ : Event)]).length (s.log.length :: vy) = (c, b, a) :=
    ⟨_, _, _, rfl⟩
  have hc : c.val = 1 := by
    have : c = (rmw decOrder (· - 1) s.shared (s.log ++ [(⟨.use, vy⟩ : Event)]).length (s.log.length :: vy)).1 := by rw [hr]
    rw [this]; exact hone
  have h2 : step ⟨s.shared, s.weak, s.th.set u ⟨1, wy, .idle, s.log.length :: vy⟩, s.log ++ [⟨.use, vy⟩]⟩ u .dropShared =
      some ⟨c, s.weak, s.th.set u ⟨0, wy, .idle, a⟩, s.log ++ [⟨.use, vy⟩] ++ [⟨.count, b⟩]⟩ := by
    simp only [step, hu1, hr]
    simp [hc]
  have ht2 := set_other (y := ⟨0, wy, .idle, a⟩) ht hne
  have ht3 := set_same (y := ⟨1, wx, .idle, (s.log.length + 2) :: vx⟩) ht2
  have h3 : step ⟨c, s.weak, s.th.set u ⟨0, wy, .idle, a⟩, s.log ++ [⟨.use, vy⟩] ++ [⟨.count, b⟩]⟩ t .useCount =
      some ⟨c, s.weak, (s.th.set u ⟨0, wy, .idle, a⟩).set t ⟨1, wx, .idle, (s.log.length + 2) :: vx⟩,
        s.log ++ [⟨.use, vy⟩] ++ [⟨.count, b⟩] ++ [⟨.count, vx⟩]⟩ := by
    simp [step, ht2]
  have h4 : step ⟨c, s.weak, (s.th.set u ⟨0, wy, .idle, a⟩).set t ⟨1, wx, .idle, (s.log.length + 2) :: vx⟩,
        s.log ++ [⟨.use, vy⟩] ++ [⟨.count, b⟩] ++ [⟨.count, vx⟩]⟩ t .use =
      some ⟨c, s.weak, ((s.th.set u ⟨0, wy, .idle, a⟩).set t ⟨1, wx, .idle, (s.log.length + 2) :: vx⟩).set t
          ⟨1, wx, .idle, (s.log.length + 3) :: (s.log.length + 2) :: vx⟩,
        s.log ++ [⟨.use, vy⟩] ++ [⟨.count, b⟩] ++ [⟨.count, vx⟩] ++ [⟨.use, (s.log.length + 2) :: vx⟩]⟩ := by
    simp only [step, ht3]
    simp
  have hl : (s.log ++ [(⟨.use, vy⟩ : Event)] ++ [(⟨.count, b⟩ : Event)] ++ [(⟨.count, vx⟩ : Event)]).length = s.log.length + 3 := by simp
  have g1 : (s.log ++ [(⟨.use, vy⟩ : Event)] ++ [(⟨.count, b⟩ : Event)] ++ [(⟨.count, vx⟩ : Event)] ++ [(⟨.use, (s.log.length + 2) :: vx⟩ : Event)])[s.log.length]? =
      some ⟨.use, vy⟩ := by simp
  have g2 : (s.log ++ [(⟨.use, vy⟩ : Event)] ++ [(⟨.count, b⟩ : Event)] ++ [(⟨.count, vx⟩ : Event)] ++ [(⟨.use, (s.log.length + 2) :: vx⟩ : Event)])[s.log.length + 3]? =
      some ⟨.use, (s.log.length + 2) :: vx⟩ := by simp
  refine ⟨?_, ?_, ?_, ?_, ?_, ?_, ?_, ?_, ?_, ?_⟩
  · exact ⟨c, s.weak, (s.th.set u ⟨0, wy, .idle, a⟩).set t ⟨1, wx, .idle, (s.log.length + 2) :: vx⟩,
        s.log ++ [⟨.use, vy⟩] ++ [⟨.count, b⟩] ++ [⟨.count, vx⟩]⟩
  · exact ⟨c, s.weak, ((s.th.set u ⟨0, wy, .idle, a⟩).set t ⟨1, wx, .idle, (s.log.length + 2) :: vx⟩).set t
          ⟨1, wx, .idle, (s.log.length + 3) :: (s.log.length + 2) :: vx⟩,
        s.log ++ [⟨.use, vy⟩] ++ [⟨.count, b⟩] ++ [⟨.count, vx⟩] ++ [⟨.use, (s.log.length + 2) :: vx⟩]⟩
  · simp only [run]
    rw [h1, Option.bind_some, h2]
    simp only [List.set_set, Option.bind_some, h3]
  · exact hc
  · intro v z hz hv
    rcases get_set hz with ⟨rfl, _⟩ | ⟨_, hz⟩
    · exact absurd rfl hv
    · rcases get_set hz with ⟨_, rfl⟩ | ⟨hvu, hz⟩
      · rfl
      · exact hrest v z hz hv hvu
  · simp only [run, h4, Option.bind_some]
  · exact ⟨_, g1, rfl⟩
  · rw [hl]; exact ⟨_, g2, rfl⟩
  · rintro ⟨f, hf, hi⟩
    rw [hl, g2] at hf
    injection hf with hf
    subst hf
    simp only [List.mem_cons] at hi
    rcases hi with hi | hi
    · omega
    · have := hxl _ hi; omega
  · rintro ⟨f, hf, hi⟩
    rw [g1] at hf
    injection hf with hf
    subst hf
    have := (hw.th u _ hu).lt hi
    rw [hl] at this
    omega

/- Thread 0 has shared the object with thread 1; both may now write to it. -/
example : ∃ s', run (start 1) [(0, .copyShared), (0, .giveShared 1), (1, .use), (1, .dropShared), (0, .useCount), (0, .use)] = some s' ∧
    s'.shared.val = 1 ∧ Is s' 2 .use ∧ Is s' 5 .use ∧ ¬ Before s' 2 5 ∧ ¬ Before s' 5 2 :=
  ⟨(run (start 1) [(0, .copyShared), (0, .giveShared 1), (1, .use), (1, .dropShared), (0, .useCount), (0, .use)]).getD (start 1),
    by decide +kernel, by decide +kernel, by decide +kernel, by decide +kernel, by decide +kernel, by decide +kernel⟩

end Verif.RefOrder
