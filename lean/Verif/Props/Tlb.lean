import Verif.Model.Tlb
import Verif.Props.Paging

/-! Property C86: a page made read-only by `main` cannot be written any more. -/

set_option backward.isDefEq.respectTransparency false

namespace Verif.Tlb
open Verif.Paging

/-- A physical address outside the page tables and outside the protected page. -/
def Elsewhere (pa : Nat) : Prop := (pa + 8 ≤ 0x101000 ∨ 0x104000 ≤ pa) ∧ (pa + 8 ≤ 0x400000 ∨ 0x600000 ≤ pa)

/-- What may happen in between: the cache changes, and other code (`printf`) stores somewhere else. -/
def Between : Act → Prop
  | .fill va => va < 2 ^ 64
  | .evict _ => True
  | .store va _ => va < 2 ^ 64 ∧ va % 8 = 0 ∧ ∀ pa, expected va = some pa → Elsewhere pa
  | .clear _ _ => False

/-- The CPU caches or drops the translation of the page of `p`. -/
def touches : Act → Bool
  | .fill va => va / 4096 = p / 4096
  | .evict k => k = p / 4096
  | _ => false

/-- The state when `main` gets there: the tables of `head.S`, and cached translations that agree with them. -/
structure Fresh (s : St) : Prop where
  tables : Loaded s.mem pml4 pdpte pde
  cached : ∀ k f w, s.tlb k = some (f, w) → k < 2 ^ 52 ∧ walk s.mem cr3 (k * 4096) = some (f * 4096, w)

/-- The state between two actions; `b`: the entry has been changed. -/
structure Inv (b : Bool) (s : St) : Prop where
  tables : Loaded s.mem pml4 pdpte (if b then protect pde else pde)
  cached : ∀ k f w, s.tlb k = some (f, w) → expected (k * 4096) = some (f * 4096) ∧
    (w = false → b = true ∧ 0x400000 ≤ f * 4096 ∧ f * 4096 < 0x600000)

theorem window_page (o pa : Nat) (h : window o = some pa) :
    window (o / 4096 * 4096) = some (pa / 4096 * 4096) ∧ pa % 4096 = o % 4096 := by
  unfold window at *
  by_cases c1 : o < 0xA00000
  · rw [if_pos c1, Option.some.injEq] at h
    subst h
    rw [if_pos (by omega)]
    exact ⟨rfl, rfl⟩
  · rw [if_neg c1] at h
    by_cases c2 : o < 0x1A00000
    · rw [if_pos c2, Option.some.injEq] at h
      rw [if_neg (by omega), if_pos (by omega)]
      obtain ⟨k, r, hr, rfl⟩ : ∃ k r, r < 4096 ∧ o = 4096 * k + r :=
        ⟨o / 4096, o % 4096, Nat.mod_lt _ (by decide), (Nat.div_add_mod o 4096).symm⟩
      have hk : 2560 ≤ k := by omega
      have hp : pa = 4096 * (0xDF600 + k) + r := by omega
      have e1 : (4096 * k + r) / 4096 = k := by omega
      have e2 : pa / 4096 = 0xDF600 + k := by rw [hp]; omega
      have e' : pa % 4096 = (4096 * k + r) % 4096 := by rw [hp]; omega
      have e : 0xE0000000 + ((4096 * k + r) / 4096 * 4096 - 0xA00000) = pa / 4096 * 4096 := by
        rw [e1]
        exact Nat.le_antisymm (by omega) (by omega)
      exact ⟨by rw [e], e'⟩
    · rw [if_neg c2] at h; cases h

theorem window_none (o : Nat) (h : window o = none) : window (o / 4096 * 4096) = none := by
  unfold window at *
  by_cases c1 : o < 0xA00000
  · rw [if_pos c1] at h; cases h
  · rw [if_neg c1] at h
    by_cases c2 : o < 0x1A00000
    · rw [if_pos c2] at h; cases h
    · rw [if_neg (by omega), if_neg (by omega)]

theorem expected_off (va : Nat) : ∃ o, expected va = window o ∧ expected (va / 4096 * 4096) = window (o / 4096 * 4096) ∧
    o % 4096 = va % 4096 := by
  have hH : high % 4096 = 0 := by decide
  unfold expected
  generalize high = H at hH
  by_cases c : va < H
  · exact ⟨va, by rw [if_pos c], by rw [if_pos (by omega)], rfl⟩
  · refine ⟨va - H, by rw [if_neg c], ?_, by omega⟩
    rw [if_neg (by omega)]
    exact congrArg window (by omega)

theorem expected_page (va pa : Nat) (h : expected va = some pa) :
    expected (va / 4096 * 4096) = some (pa / 4096 * 4096) ∧ pa % 4096 = va % 4096 := by
  obtain ⟨o, e1, e2, e3⟩ := expected_off va
  rw [e1] at h
  obtain ⟨h1, h2⟩ := window_page o pa h
  exact ⟨e2.trans h1, h2.trans e3⟩

theorem expected_none (va : Nat) (h : expected va = none) : expected (va / 4096 * 4096) = none := by
  obtain ⟨o, e1, e2, e3⟩ := expected_off va
  rw [e1] at h
  exact e2.trans (window_none o h)

/-- What the tables say. -/
theorem walk_tables {b : Bool} {m : Nat → Nat} (h : Loaded m pml4 pdpte (if b then protect pde else pde)) (va : Nat)
    (hva : va < 2 ^ 64) :
    walk m cr3 va = (expected va).map fun pa => (pa, !(b && decide (0x400000 ≤ pa ∧ pa < 0x600000))) := by
  cases b with
  | false =>
    simp only [Bool.false_eq_true, if_false] at h
    rw [C60_translate m h va hva]; simp
  | true =>
    simp only [if_true] at h
    rw [C60_protect m h va hva]; simp

theorem Fresh.inv {s : St} (h : Fresh s) : Inv false s := by
  have ht : Loaded s.mem pml4 pdpte (if false = true then protect pde else pde) := h.tables
  refine ⟨ht, ?_⟩
  intro k f w e
  obtain ⟨hk, hw⟩ := h.cached k f w e
  rw [walk_tables ht _ (by omega)] at hw
  cases q : expected (k * 4096) with
  | none => rw [q] at hw; cases hw
  | some pa =>
    rw [q] at hw
    simp only [Option.map_some, Option.some.injEq, Prod.mk.injEq, Bool.false_and, Bool.not_false] at hw
    exact ⟨by rw [hw.1], fun c => by rw [c] at hw; exact absurd hw.2 (by decide)⟩

/-- The address an access reaches is the expected one, from the cache or not. -/
theorem look_ok {b : Bool} {s : St} (i : Inv b s) (va pa : Nat) (hva : va < 2 ^ 64) (h : expected va = some pa) :
    ∃ w, look s va = some (pa, w) ∧ (w = false → b = true ∧ 0x400000 ≤ pa ∧ pa < 0x600000) := by
  unfold look
  obtain ⟨h1, h2⟩ := expected_page va pa h
  cases q : s.tlb (va / 4096) with
  | none =>
    simp only
    rw [walk_tables i.tables va hva, h]
    refine ⟨_, rfl, ?_⟩
    intro c
    simpa using c
  | some x =>
    obtain ⟨f, w⟩ := x
    obtain ⟨c1, c2⟩ := i.cached _ _ _ q
    rw [h1, Option.some.injEq] at c1
    refine ⟨w, ?_, ?_⟩
    · have e : f * 4096 + va % 4096 = pa := by rw [← c1, ← h2]; exact Nat.div_add_mod' pa 4096
      simp only [e]
    · intro c
      obtain ⟨d1, d2, d3⟩ := c2 c
      exact ⟨d1, by omega, by omega⟩

theorem look_none {b : Bool} {s : St} (i : Inv b s) (va : Nat) (hva : va < 2 ^ 64) (h : expected va = none) :
    look s va = none := by
  unfold look
  cases q : s.tlb (va / 4096) with
  | none => simp only; rw [walk_tables i.tables va hva, h]; rfl
  | some x =>
    obtain ⟨c1, _⟩ := i.cached _ x.1 x.2 q
    rw [expected_none va h] at c1
    cases c1

theorem loaded_upd {m : Nat → Nat} {d : List Nat} (h : Loaded m pml4 pdpte d) (pa v : Nat)
    (hp : pa + 8 ≤ 0x101000 ∨ 0x104000 ≤ pa) : Loaded (fun a => if a = pa then v else m a) pml4 pdpte d := by
  refine ⟨fun i hi => ?_, fun i hi => ?_, fun i hi => ?_⟩
  · rw [if_neg (by omega)]; exact h.l4 i hi
  · rw [if_neg (by omega)]; exact h.l3 i hi
  · rw [if_neg (by omega)]; exact h.l2 i hi

/-- An action in between keeps the tables, the word at `p` and, unless it touches the page, the cached
translation; if it touches the page after the change, no writable translation stays cached. -/
theorem between_ok {b : Bool} {s : St} (i : Inv b s) (a : Act) (ha : Between a) :
    Inv b (act s a).1 ∧ (act s a).1.mem 0x400100 = s.mem 0x400100 ∧
      (touches a = false → (act s a).1.tlb (p / 4096) = s.tlb (p / 4096)) ∧
      (touches a = true → b = true → ∀ f, (act s a).1.tlb (p / 4096) ≠ some (f, true)) := by
  cases a with
  | clear va bits => exact ha.elim
  | evict k =>
    refine ⟨⟨i.tables, ?_⟩, rfl, ?_, ?_⟩
    · intro j f w e
      simp only [act] at e
      split at e
      · cases e
      · exact i.cached j f w e
    · intro t
      simp only [touches, decide_eq_false_iff_not] at t
      simp only [act]
      rw [if_neg (fun h => t h.symm)]
    · intro t _ f
      simp only [touches, decide_eq_true_eq] at t
      simp only [act]
      rw [if_pos t.symm]; simp
  | fill va =>
    have hw := walk_tables i.tables va ha
    cases q : expected va with
    | none =>
      rw [q, Option.map_none] at hw
      have e : (act s (.fill va)).1 = s := by simp only [act, hw]
      rw [e]
      refine ⟨i, rfl, fun _ => rfl, ?_⟩
      intro t hb f e2
      simp only [touches, decide_eq_true_eq] at t
      have := expected_none va q
      rw [t] at this
      exact absurd this (by decide)
    | some pa =>
      rw [q, Option.map_some] at hw
      have e : (act s (.fill va)).1 = ⟨s.mem, fun k =>
          if k = va / 4096 then some (pa / 4096, !(b && decide (0x400000 ≤ pa ∧ pa < 0x600000))) else s.tlb k⟩ := by
        simp only [act, hw]
      obtain ⟨h1, h2⟩ := expected_page va pa q
      rw [e]
      refine ⟨⟨i.tables, ?_⟩, rfl, ?_, ?_⟩
      · intro j f w e
        simp only at e
        split at e
        · next hj =>
          subst hj
          simp only [Option.some.injEq, Prod.mk.injEq] at e
          obtain ⟨rfl, rfl⟩ := e
          refine ⟨h1, ?_⟩
          intro c
          simp only [Bool.not_eq_false', Bool.and_eq_true, decide_eq_true_eq] at c
          exact ⟨c.1, by omega, by omega⟩
        · exact i.cached j f w e
      · intro t
        simp only [touches, decide_eq_false_iff_not] at t
        simp only
        rw [if_neg (fun h => t h.symm)]
      · intro t hb f e2
        simp only [touches, decide_eq_true_eq] at t
        simp only at e2
        rw [if_pos t.symm, Option.some.injEq, Prod.mk.injEq] at e2
        rw [t, show expected (p / 4096 * 4096) = some 0x400000 by decide, Option.some.injEq] at h1
        have : decide (0x400000 ≤ pa ∧ pa < 0x600000) = true := by simp only [decide_eq_true_eq]; omega
        rw [hb, this] at e2
        exact absurd e2.2 (by decide)
  | store va v =>
    obtain ⟨h1, h2, h3⟩ := ha
    refine (fun (x : _ ∧ _ ∧ _) => ⟨x.1, x.2.1, fun _ => x.2.2, fun t => absurd t (by simp [touches])⟩) ?_
    cases q : expected va with
    | none =>
      have e := look_none i va h1 q
      simp only [act, access, e]
      refine ⟨⟨i.tables, ?_⟩, trivial, ?_⟩
      · intro j f w e
        simp only at e
        split at e
        · cases e
        · exact i.cached j f w e
      · rw [if_neg]
        intro hp
        have := expected_none va q
        rw [← hp] at this
        exact absurd this (by decide)
    | some pa =>
      obtain ⟨w, e, hw⟩ := look_ok i va pa h1 q
      obtain ⟨e1, e2⟩ := h3 pa q
      cases w with
      | false =>
        obtain ⟨_, h5, h6⟩ := hw rfl
        omega
      | true =>
        simp only [act, access, e]
        refine ⟨⟨loaded_upd i.tables pa v e1, i.cached⟩, ?_, trivial⟩
        rw [if_neg]
        omega

theorem betweens_ok {b : Bool} {s : St} (i : Inv b s) (l : List Act) (hl : ∀ a ∈ l, Between a) :
    Inv b (acts s l) ∧ (acts s l).mem 0x400100 = s.mem 0x400100 ∧
      ((∀ a ∈ l, touches a = false) → (acts s l).tlb (p / 4096) = s.tlb (p / 4096)) ∧
      (b = true → ((∀ f, s.tlb (p / 4096) ≠ some (f, true)) ∨ ¬ ∀ a ∈ l, touches a = false) →
        ∀ f, (acts s l).tlb (p / 4096) ≠ some (f, true)) := by
  induction l generalizing s with
  | nil =>
    refine ⟨i, rfl, fun _ => rfl, ?_⟩
    intro _ h f
    rcases h with h | h
    · exact h f
    · exact absurd (by simp) h
  | cons a l ih =>
    obtain ⟨i1, m1, t1, u1⟩ := between_ok i a (hl a (by simp))
    obtain ⟨i2, m2, t2, u2⟩ := ih i1 (fun x hx => hl x (by simp [hx]))
    refine ⟨i2, m2.trans m1, ?_, ?_⟩
    · intro h
      exact (t2 (fun x hx => h x (by simp [hx]))).trans (t1 (h a (by simp)))
    · intro hb h
      refine u2 hb ?_
      cases ta : touches a with
      | true => exact Or.inl (u1 ta hb)
      | false =>
        rcases h with h | h
        · exact Or.inl (by rw [t1 ta]; exact h)
        · refine Or.inr (fun hh => h ?_)
          intro x hx
          rcases List.mem_cons.1 hx with rfl | hx
          · exact ta
          · exact hh x hx

theorem protect_loaded {m : Nat → Nat} (h : Loaded m pml4 pdpte pde) :
    Loaded (fun a => if a = 0x103010 then m 0x103010 &&& (2 ^ 64 - 1 - 2) else m a) pml4 pdpte (protect pde) := by
  refine ⟨fun i hi => ?_, fun i hi => ?_, fun i hi => ?_⟩
  · rw [if_neg (by omega)]; exact h.l4 i hi
  · rw [if_neg (by omega)]; exact h.l3 i hi
  · rw [protect_entries i hi]
    have e2 := h.l2 2 (by decide)
    rw [show 0x103000 + 8 * 2 = 0x103010 from rfl, pde_entries 2 (by decide)] at e2
    by_cases c : i = 2
    · subst c
      rw [if_pos rfl, if_pos rfl, e2]; rfl
    · rw [if_neg (by omega), if_neg c, h.l2 i hi, pde_entries i hi]

/-- The store before the change succeeds. -/
theorem first_ok {s : St} (i : Inv false s) (v : Nat) :
    act s (.store p v) = ({ s with mem := fun a => if a = 0x400100 then v else s.mem a }, true) ∧
      Inv false (act s (.store p v)).1 := by
  obtain ⟨w, e, hw⟩ := look_ok i p 0x400100 (by decide) (by decide)
  cases w with
  | false => exact absurd (hw rfl).1 (by decide)
  | true =>
    have : act s (.store p v) = ({ s with mem := fun a => if a = 0x400100 then v else s.mem a }, true) := by
      simp only [act, access, e]
    rw [this]
    exact ⟨rfl, loaded_upd i.tables _ _ (by decide), i.cached⟩

/-- The change of the entry succeeds and leaves the cache alone. -/
theorem change_ok {s : St} (i : Inv false s) :
    act s (.clear entry 2) =
        ({ s with mem := fun a => if a = 0x103010 then s.mem 0x103010 &&& (2 ^ 64 - 1 - 2) else s.mem a }, true) ∧
      Inv true (act s (.clear entry 2)).1 := by
  obtain ⟨w, e, hw⟩ := look_ok i entry 0x103010 (by decide) (by decide)
  cases w with
  | false => exact absurd (hw rfl).1 (by decide)
  | true =>
    have : act s (.clear entry 2) =
        ({ s with mem := fun a => if a = 0x103010 then s.mem 0x103010 &&& (2 ^ 64 - 1 - 2) else s.mem a }, true) := by
      simp only [act, access, e]
    rw [this]
    refine ⟨rfl, protect_loaded i.tables, ?_⟩
    intro k f w e
    obtain ⟨h1, h2⟩ := i.cached k f w e
    exact ⟨h1, fun c => absurd (h2 c).1 (by decide)⟩

/-- The state when the second store starts: `A`, `B`, `C` happen before the first store, before and after the change. -/
def upTo (s : St) (v : Nat) (A B C : List Act) : St :=
  acts (act (acts (act (acts s A) (.store p v)).1 B) (.clear entry 2)).1 C

/-- The state just before the change. -/
def beforeChange (s : St) (v : Nat) (A B : List Act) : St := acts (act (acts s A) (.store p v)).1 B

/-- C86, exactly when: the page table says read-only in every case, but the second store takes effect if and only if the
translation of the page was cached when the entry was changed and the CPU did not drop or reload it since. Otherwise it
faults and memory keeps the value. -/
theorem C86_exact (s : St) (hs : Fresh s) (v v2 : Nat) (A B C : List Act) (hA : ∀ a ∈ A, Between a)
    (hB : ∀ a ∈ B, Between a) (hC : ∀ a ∈ C, Between a) :
    walk (upTo s v A B C).mem cr3 p = some (0x400100, false) ∧ (upTo s v A B C).mem 0x400100 = v ∧
      ((act (upTo s v A B C) (.store p v2)).2 = true ↔
        (beforeChange s v A B).tlb (p / 4096) ≠ none ∧ ∀ a ∈ C, touches a = false) ∧
      (act (upTo s v A B C) (.store p v2)).1.mem 0x400100 =
        (if (act (upTo s v A B C) (.store p v2)).2 = true then v2 else v) := by
  obtain ⟨iA, _, _, _⟩ := betweens_ok hs.inv A hA
  obtain ⟨e1, i1⟩ := first_ok iA v
  obtain ⟨iB, mB, _, _⟩ := betweens_ok i1 B hB
  have hm1 : (beforeChange s v A B).mem 0x400100 = v := by
    unfold beforeChange
    rw [mB, e1]; simp
  obtain ⟨e2, i2⟩ := change_ok iB
  obtain ⟨iC', mC, tC, uC⟩ := betweens_ok i2 C hC
  have iC : Inv true (upTo s v A B C) := iC'
  have hm2 : (upTo s v A B C).mem 0x400100 = v := by
    unfold upTo
    rw [mC, e2]
    exact hm1
  have hw : walk (upTo s v A B C).mem cr3 p = some (0x400100, false) := by
    rw [walk_tables iC.tables p (by decide), show expected p = some 0x400100 by decide]
    rfl
  have ht : (act (beforeChange s v A B) (.clear entry 2)).1.tlb = (beforeChange s v A B).tlb := by
    unfold beforeChange
    rw [e2]
  have key : (act (upTo s v A B C) (.store p v2)).2 = true ↔
        (beforeChange s v A B).tlb (p / 4096) ≠ none ∧ ∀ a ∈ C, touches a = false := by
    constructor
    · intro h
      apply Decidable.byContradiction
      intro hc
      have hstale : ∀ f, (upTo s v A B C).tlb (p / 4096) ≠ some (f, true) := by
        refine uC rfl ?_
        by_cases c : ∀ a ∈ C, touches a = false
        · refine Or.inl ?_
          intro f hf
          have hf' : (act (beforeChange s v A B) (.clear entry 2)).1.tlb (p / 4096) = some (f, true) := hf
          rw [ht] at hf'
          exact hc ⟨by rw [hf']; simp, c⟩
        · exact Or.inr c
      have hl : ∀ pa, look (upTo s v A B C) p ≠ some (pa, true) := by
        intro pa h2
        unfold look at h2
        cases q : (upTo s v A B C).tlb (p / 4096) with
        | none => simp only [q] at h2; rw [hw] at h2; simp at h2
        | some x =>
          obtain ⟨f, w⟩ := x
          simp only [q, Option.some.injEq, Prod.mk.injEq] at h2
          rw [h2.2] at q
          exact hstale f q
      simp only [act, access] at h
      cases h
    · intro ⟨h1, h2⟩
      have hk : (upTo s v A B C).tlb (p / 4096) = (beforeChange s v A B).tlb (p / 4096) := by
        have := tC h2
        rw [show (upTo s v A B C).tlb (p / 4096) = _ from this]
        exact congrFun ht _
      cases q : (beforeChange s v A B).tlb (p / 4096) with
      | none => exact absurd q h1
      | some x =>
        obtain ⟨f, w⟩ := x
        have hw2 := (iB.cached _ f w q).2
        have : w = true := by
          cases w with
          | true => rfl
          | false => exact absurd (hw2 rfl).1 (by decide)
        subst this
        rw [q] at hk
        simp only [act, access, look, hk]
  refine ⟨hw, hm2, key, ?_⟩
  obtain ⟨w, e, _⟩ := look_ok iC p 0x400100 (by decide) (by decide)
  have e' : look (upTo s v A B C) p = some (0x400100, w) := e
  cases w with
  | true => simp only [act, access, e', if_true]
  | false => simp only [act, access, e', Bool.false_eq_true, if_false]; exact hm2

/-- C86 is violated: if the CPU caches the translation for the first store, which it may, and keeps it, the
second store changes the page that is read-only according to the tables. -/
theorem C86_violated (s : St) (hs : Fresh s) (v v2 : Nat) (C : List Act) (hC : ∀ a ∈ C, Between a)
    (ht : ∀ a ∈ C, touches a = false) :
    (act (upTo s v [.fill p] [] C) (.store p v2)).2 = true ∧
      (act (upTo s v [.fill p] [] C) (.store p v2)).1.mem 0x400100 = v2 := by
  have hA : ∀ a ∈ [Act.fill p], Between a := by
    intro a ha
    rw [List.mem_singleton.1 ha]
    show p < 2 ^ 64
    decide
  obtain ⟨_, _, h3, h4⟩ := C86_exact s hs v v2 [.fill p] [] C hA (by simp) hC
  have hb : (beforeChange s v [.fill p] []).tlb (p / 4096) ≠ none := by
    obtain ⟨iA, _⟩ := betweens_ok hs.inv [.fill p] hA
    obtain ⟨e1, _⟩ := first_ok iA v
    have hw := walk_tables hs.inv.tables p (by decide)
    rw [show expected p = some 0x400100 by decide] at hw
    simp only [Option.map_some, Bool.false_and, Bool.not_false] at hw
    show (act (acts s [.fill p]) (.store p v)).1.tlb (p / 4096) ≠ none
    rw [e1]
    show (act s (.fill p)).1.tlb (p / 4096) ≠ none
    simp only [act, hw, if_true]
    simp
  have := h3.2 ⟨hb, ht⟩
  refine ⟨this, ?_⟩
  rw [h4, if_pos this]

/-- C86, what holds: as soon as the CPU has dropped the old translation once after the change (what `invlpg`
would force), whatever it cached before and does later, the second store faults and the page is unchanged. -/
theorem C86_dropped_partial (s : St) (hs : Fresh s) (v v2 : Nat) (A B C D : List Act) (hA : ∀ a ∈ A, Between a)
    (hB : ∀ a ∈ B, Between a) (hC : ∀ a ∈ C, Between a) (hD : ∀ a ∈ D, Between a) :
    (act (upTo s v A B (C ++ [.evict (p / 4096)] ++ D)) (.store p v2)).2 = false ∧
      (act (upTo s v A B (C ++ [.evict (p / 4096)] ++ D)) (.store p v2)).1.mem 0x400100 = v := by
  obtain ⟨_, _, h3, h4⟩ := C86_exact s hs v v2 A B (C ++ [.evict (p / 4096)] ++ D) hA hB (by
    intro a ha
    simp only [List.mem_append, List.mem_singleton] at ha
    rcases ha with (ha | rfl) | ha
    · exact hC a ha
    · trivial
    · exact hD a ha)
  have hf : (act (upTo s v A B (C ++ [.evict (p / 4096)] ++ D)) (.store p v2)).2 = false := by
    rw [← Bool.not_eq_true, h3]
    intro ⟨_, h⟩
    have := h (.evict (p / 4096)) (by simp)
    exact absurd this (by decide)
  refine ⟨hf, ?_⟩
  rw [h4, hf]; simp

/-- Nothing is cached after `mov %rax, %cr3`. -/
def exSt : St := ⟨exMem pde, fun _ => none⟩

theorem exFresh : Fresh exSt := ⟨exMem_loaded pde, fun _ _ _ h => by cases h⟩

/-- The second store takes effect although `printf` writes to the stack and to the frame buffer, whose
translations are cached too. -/
example : (act (upTo exSt 2 [.fill p] [] [.fill 0xFFFF800000007E00, .store 0xFFFF800000007E00 5, .fill 0xFFFF800000A00000,
    .store 0xFFFF800000A00000 7]) (.store p 3)).1.mem 0x400100 = 3 :=
  (C86_violated exSt exFresh 2 3 _ (by
    intro a ha
    simp only [List.mem_cons, List.not_mem_nil, or_false] at ha
    rcases ha with rfl | rfl | rfl | rfl
    · show (0xFFFF800000007E00 : Nat) < 2 ^ 64; decide
    · refine ⟨by decide, by decide, ?_⟩
      intro pa h
      rw [show expected 0xFFFF800000007E00 = some 0x7E00 by decide, Option.some.injEq] at h
      subst h; unfold Elsewhere; decide
    · show (0xFFFF800000A00000 : Nat) < 2 ^ 64; decide
    · refine ⟨by decide, by decide, ?_⟩
      intro pa h
      rw [show expected 0xFFFF800000A00000 = some 0xE0000000 by decide, Option.some.injEq] at h
      subst h; unfold Elsewhere; decide) (by decide)).2

/-- With the translation dropped it faults. -/
example : (act (upTo exSt 2 [.fill p] [] ([] ++ [.evict (p / 4096)] ++ [.fill p])) (.store p 3)).2 = false :=
  (C86_dropped_partial exSt exFresh 2 3 [.fill p] [] [] [.fill p] (by
    intro a ha; rw [List.mem_singleton.1 ha]; show p < 2 ^ 64; decide) (by simp) (by simp) (by
    intro a ha; rw [List.mem_singleton.1 ha]; show p < 2 ^ 64; decide)).1

/-- Without any caching the second store faults, too. -/
example : ¬ (act (upTo exSt 2 [] [] []) (.store p 3)).2 = true := by
  rw [(C86_exact exSt exFresh 2 3 [] [] [] (by simp) (by simp) (by simp)).2.2.1]
  intro ⟨h, _⟩
  exact h (by decide)

end Verif.Tlb
