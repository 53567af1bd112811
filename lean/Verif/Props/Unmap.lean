import Verif.Model.Unmap
import Verif.Props.Tlb

/-! Property C89: the end of `init_memory` takes the low half out of the address space and nothing else. -/

set_option backward.isDefEq.respectTransparency false

namespace Verif.Tlb
open Verif.Paging

/-- The CPU caches the translation of some address or drops one. -/
def cacheOnly : Act → Prop
  | .fill va => va < 2 ^ 64
  | .evict _ => True
  | _ => False

/-- The tables of `head.S` with the first `j` entries of the top level cleared. -/
structure Cut (j : Nat) (m : Nat → Nat) : Prop where
  l4 : ∀ i, i < 512 → m (0x101000 + 8 * i) = if i < j then 0 else pml4.getD i 0
  l3 : ∀ i, i < 512 → m (0x102000 + 8 * i) = pdpte.getD i 0
  l2 : ∀ i, i < 512 → m (0x103000 + 8 * i) = pde.getD i 0

/-- The state between two steps. Cached translations are right for the original tables; with `b` they are all in
the upper half. -/
structure CutInv (j : Nat) (b : Bool) (s : St) : Prop where
  le : j ≤ 256
  fl : b = true → 0 < j
  tables : Cut j s.mem
  cached : ∀ k f w, s.tlb k = some (f, w) → expected (k * 4096) = some (f * 4096) ∧ w = true ∧ (b = true → high ≤ k * 4096)

theorem walk_high {j : Nat} (hj : j ≤ 256) {m : Nat → Nat} (h : Cut j m) (va : Nat) (hva : va < 2 ^ 64) (hh : high ≤ va) :
    walk m cr3 va = (expected va).map fun pa => (pa, true) := by
  simp only [high] at hh
  refine translate_at m va hva ?_ h.l3 h.l2
  rw [h.l4 _ (Nat.mod_lt _ (by decide)), if_neg (by omega)]

/-- Whatever the tables still translate, they translate as before. -/
theorem walk_some {j : Nat} {m : Nat → Nat} (h : Cut j m) (va : Nat) (hva : va < 2 ^ 64) :
    walk m cr3 va = none ∨ walk m cr3 va = (expected va).map fun pa => (pa, true) := by
  have h4 := h.l4 (va / 2 ^ 39 % 512) (Nat.mod_lt _ (by decide))
  by_cases c : va / 2 ^ 39 % 512 < j
  · rw [if_pos c] at h4
    left
    unfold walk
    simp only [show cr3 = 0x101000 from rfl, h4, show present 0 = false by decide, Bool.false_eq_true, if_false, ite_self]
  · rw [if_neg c] at h4
    right
    exact translate_at m va hva h4 h.l3 h.l2

theorem walk_low {j : Nat} (hj : 0 < j) {m : Nat → Nat} (h : Cut j m) (va : Nat) (hva : va < high) :
    walk m cr3 va = none := by
  have h4 := h.l4 (va / 2 ^ 39 % 512) (Nat.mod_lt _ (by decide))
  rw [pml4_entries _ (Nat.mod_lt _ (by decide))] at h4
  simp only [high] at hva
  unfold walk
  by_cases c : canonical va = true
  · simp only [canonical, decide_eq_true_eq] at c
    have e : (if va / 2 ^ 39 % 512 < j then 0
        else if va / 2 ^ 39 % 512 = 0 ∨ va / 2 ^ 39 % 512 = 256 then 0x102007 else 0) = 0 := by
      by_cases c2 : va / 2 ^ 39 % 512 < j
      · rw [if_pos c2]
      · rw [if_neg c2, if_neg (by omega)]
    rw [e] at h4
    simp only [show cr3 = 0x101000 from rfl, h4, show present 0 = false by decide, Bool.false_eq_true, if_false, ite_self]
  · rw [if_neg c]

theorem look_high {j : Nat} {b : Bool} {s : St} (i : CutInv j b s) (va : Nat) (hva : va < 2 ^ 64) (hh : high ≤ va) :
    look s va = (expected va).map fun pa => (pa, true) := by
  unfold look
  cases q : s.tlb (va / 4096) with
  | none => exact walk_high i.le i.tables va hva hh
  | some x =>
    obtain ⟨f, w⟩ := x
    obtain ⟨c1, rfl, _⟩ := i.cached _ _ _ q
    cases h : expected va with
    | none => rw [expected_none va h] at c1; cases c1
    | some pa =>
      obtain ⟨h1, h2⟩ := expected_page va pa h
      rw [h1, Option.some.injEq] at c1
      have e : f * 4096 + va % 4096 = pa := by rw [← c1, ← h2]; exact Nat.div_add_mod' pa 4096
      simp only [e, Option.map_some]

theorem look_low {j : Nat} {s : St} (i : CutInv j true s) (va : Nat) (hh : va < high) : look s va = none := by
  unfold look
  cases q : s.tlb (va / 4096) with
  | none => exact walk_low (i.fl rfl) i.tables va hh
  | some x =>
    obtain ⟨c1, _, c2⟩ := i.cached _ x.1 x.2 q
    have := c2 rfl
    omega

theorem cache_ok {j : Nat} {b : Bool} {s : St} (i : CutInv j b s) (a : Act) (ha : cacheOnly a) :
    CutInv j b (act s a).1 ∧ (act s a).1.mem = s.mem := by
  cases a with
  | store => exact ha.elim
  | clear => exact ha.elim
  | evict k =>
    refine ⟨⟨i.le, i.fl, i.tables, ?_⟩, rfl⟩
    intro j f w e
    simp only [act] at e
    split at e
    · cases e
    · exact i.cached j f w e
  | fill va =>
    cases q : walk s.mem cr3 va with
    | none => simp only [act, q]; exact ⟨i, trivial⟩
    | some x =>
      obtain ⟨pa, w⟩ := x
      have hx : (expected va).map (fun pa => (pa, true)) = some (pa, w) := by
        rcases walk_some i.tables va ha with h | h
        · rw [q] at h; cases h
        · exact h.symm.trans q
      cases h : expected va with
      | none => rw [h] at hx; cases hx
      | some pa' =>
        rw [h] at hx
        simp only [Option.map_some, Option.some.injEq, Prod.mk.injEq] at hx
        obtain ⟨rfl, rfl⟩ := hx
        obtain ⟨h1, _⟩ := expected_page va _ h
        simp only [act, q]
        refine ⟨⟨i.le, i.fl, i.tables, ?_⟩, trivial⟩
        intro k f w e
        simp only at e
        split at e
        · next hk =>
          subst hk
          simp only [Option.some.injEq, Prod.mk.injEq] at e
          obtain ⟨rfl, rfl⟩ := e
          refine ⟨h1, rfl, ?_⟩
          intro hb
          apply Decidable.byContradiction
          intro hc
          have : va < high := by
            simp only [high] at hc ⊢
            omega
          rw [walk_low (i.fl hb) i.tables va this] at q
          cases q
        · exact i.cached k f w e

theorem caches_ok {j : Nat} {b : Bool} {s : St} (i : CutInv j b s) (l : List Act) (hl : ∀ a ∈ l, cacheOnly a) :
    CutInv j b (acts s l) ∧ (acts s l).mem = s.mem := by
  induction l generalizing s with
  | nil => exact ⟨i, rfl⟩
  | cons a l ih =>
    obtain ⟨h1, h2⟩ := cache_ok i a (hl a (by simp))
    obtain ⟨h3, h4⟩ := ih h1 (fun x hx => hl x (by simp [hx]))
    exact ⟨h3, h4.trans h2⟩

/-- One iteration. -/
theorem cut_step {j : Nat} {s : St} (i : CutInv j false s) (hj : j < 10) :
    act s (.store (top j) 0) = ({ s with mem := fun a => if a = 0x101000 + 8 * j then 0 else s.mem a }, true) ∧
      CutInv (j + 1) false (act s (.store (top j) 0)).1 := by
  have hx : expected (top j) = some (0x101000 + 8 * j) := by
    unfold expected window top high cr3
    rw [if_neg (by omega), if_pos (by omega)]
    exact congrArg some (by omega)
  have e := look_high i (top j) (by unfold top cr3; omega) (by unfold top high; omega)
  rw [hx, Option.map_some] at e
  have h : act s (.store (top j) 0) = ({ s with mem := fun a => if a = 0x101000 + 8 * j then 0 else s.mem a }, true) := by
    simp only [act, access, e]
  rw [h]
  refine ⟨rfl, by omega, nofun, ⟨?_, ?_, ?_⟩, ?_⟩
  · intro k hk
    simp only
    by_cases c : k = j
    · rw [if_pos (by omega), if_pos (by omega)]
    · rw [if_neg (by omega), i.tables.l4 k hk]
      by_cases c2 : k < j
      · rw [if_pos c2, if_pos (by omega)]
      · rw [if_neg c2, if_neg (by omega)]
  · intro k hk
    simp only
    rw [if_neg (by omega)]; exact i.tables.l3 k hk
  · intro k hk
    simp only
    rw [if_neg (by omega)]; exact i.tables.l2 k hk
  · exact i.cached

theorem cut_loop (cpu : Nat → List Act) (hc : ∀ i, ∀ a ∈ cpu i, cacheOnly a) (n j : Nat) (hn : j + n ≤ 10) {s : St}
    (i : CutInv j false s) :
    CutInv (j + n) false (cutLoop cpu n j s).1 ∧ (cutLoop cpu n j s).2 = true ∧
      ∀ a, (a < 0x101000 ∨ 0x101000 + 8 * (j + n) ≤ a) → (cutLoop cpu n j s).1.mem a = s.mem a := by
  induction n generalizing j s with
  | zero => exact ⟨i, rfl, fun _ _ => rfl⟩
  | succ n ih =>
    obtain ⟨i1, m1⟩ := caches_ok i (cpu j) (hc j)
    obtain ⟨e, i2⟩ := cut_step i1 (by omega)
    obtain ⟨h1, h2, h3⟩ := ih (j + 1) (by omega) i2
    simp only [cutLoop]
    refine ⟨by rw [show j + (n + 1) = j + 1 + n by omega]; exact h1, ?_, ?_⟩
    · rw [h2, e]; rfl
    · intro a ha
      rw [h3 a (by omega), e]
      simp only
      rw [if_neg (by omega), m1]

theorem Fresh.cut {s : St} (h : Fresh s) : CutInv 0 false s := by
  refine ⟨by decide, nofun, ⟨?_, h.tables.l3, h.tables.l2⟩, ?_⟩
  · intro i hi
    rw [if_neg (by omega)]; exact h.tables.l4 i hi
  · intro k f w e
    obtain ⟨h1, h2⟩ := h.inv.cached k f w e
    refine ⟨h1, ?_, nofun⟩
    cases w with
    | true => rfl
    | false => exact absurd (h2 rfl).1 (by decide)

/-- C89. None of the ten stores faults; at every moment up to and after the flush, whatever the CPU caches, an
access to an address of the upper half reaches the same place as before; and nothing but the ten words changes. -/
theorem C89_upper_kept (s : St) (hs : Fresh s) (cpu : Nat → List Act) (hc : ∀ i, ∀ a ∈ cpu i, cacheOnly a) :
    (dropLow cpu s).2 = true ∧
      (∀ n ≤ 10, ∀ l : List Act, (∀ a ∈ l, cacheOnly a) → ∀ va, high ≤ va → va < 2 ^ 64 →
        look (acts (cutLoop cpu n 0 s).1 l) va = (expected va).map fun pa => (pa, true)) ∧
      (∀ l : List Act, (∀ a ∈ l, cacheOnly a) → ∀ va, high ≤ va → va < 2 ^ 64 →
        look (acts (dropLow cpu s).1 l) va = (expected va).map fun pa => (pa, true)) ∧
      ∀ a, (a < 0x101000 ∨ 0x101050 ≤ a) → (dropLow cpu s).1.mem a = s.mem a := by
  obtain ⟨h1, h2, h3⟩ := cut_loop cpu hc 10 0 (by decide) hs.cut
  obtain ⟨h4, h5⟩ := caches_ok h1 (cpu 10) (hc 10)
  have hf : CutInv 10 true (dropLow cpu s).1 :=
    ⟨by decide, fun _ => by decide, h4.tables, nofun⟩
  refine ⟨h2, ?_, ?_, ?_⟩
  · intro n hn l hl va hv hva
    obtain ⟨k1, _, _⟩ := cut_loop cpu hc n 0 (by omega) hs.cut
    exact look_high (caches_ok k1 l hl).1 va hva hv
  · intro l hl va hv hva
    exact look_high (caches_ok hf l hl).1 va hva hv
  · intro a ha
    show (acts (cutLoop cpu 10 0 s).1 (cpu 10)).mem a = _
    rw [h5]
    exact h3 a ha

/-- C89. Afterwards every access to an address below the upper half faults, whatever the CPU had cached before,
cached in between and caches later. -/
theorem C89_low_gone (s : St) (hs : Fresh s) (cpu : Nat → List Act) (hc : ∀ i, ∀ a ∈ cpu i, cacheOnly a)
    (l : List Act) (hl : ∀ a ∈ l, cacheOnly a) (va : Nat) (hva : va < high) :
    look (acts (dropLow cpu s).1 l) va = none ∧
      ∀ f, (access (acts (dropLow cpu s).1 l) va f).2 = false ∧
        (access (acts (dropLow cpu s).1 l) va f).1.mem = (dropLow cpu s).1.mem := by
  obtain ⟨h1, _, _⟩ := cut_loop cpu hc 10 0 (by decide) hs.cut
  obtain ⟨h4, _⟩ := caches_ok h1 (cpu 10) (hc 10)
  have hf : CutInv 10 true (dropLow cpu s).1 :=
    ⟨by decide, fun _ => by decide, h4.tables, nofun⟩
  obtain ⟨k1, k2⟩ := caches_ok hf l hl
  have e := look_low k1 va hva
  refine ⟨e, fun f => ?_⟩
  simp only [access, e]
  exact ⟨trivial, k2⟩

/-- The low megabyte was mapped and cached before, is cached again during the loop, and is gone afterwards, the null
pointer included; the kernel's first byte is still there. -/
example : look (acts exSt [.fill 0, .fill 0x7E00]) 0 = some (0, true) ∧
    look (dropLow (fun i => if i = 0 then [.fill 0, .fill 0x7E00] else [.fill 0x7E00, .fill 0xFFFF800000100000]) exSt).1 0 = none ∧
    look (acts (dropLow (fun i => if i = 0 then [.fill 0, .fill 0x7E00] else [.fill 0x7E00, .fill 0xFFFF800000100000]) exSt).1 [])
      0xFFFF800000100000 = some (0x100000, true) := by
  have hc : ∀ i : Nat, ∀ a ∈ (if i = 0 then [Act.fill 0, .fill 0x7E00] else [.fill 0x7E00, .fill 0xFFFF800000100000]),
      cacheOnly a := by
    intro i a ha
    split at ha <;> simp only [List.mem_cons, List.not_mem_nil, or_false] at ha <;> rcases ha with rfl | rfl <;>
      simp [cacheOnly]
  refine ⟨?_, (C89_low_gone exSt exFresh _ hc [] (by simp) 0 (by decide)).1, ?_⟩
  · have hl : ∀ a ∈ [Act.fill 0, .fill 0x7E00], Between a := by
      intro a ha
      simp only [List.mem_cons, List.not_mem_nil, or_false] at ha
      rcases ha with rfl | rfl <;> simp [Between]
    obtain ⟨i, _⟩ := betweens_ok exFresh.inv _ hl
    obtain ⟨w, e, hw⟩ := look_ok i 0 0 (by decide) (by decide)
    cases w with
    | true => exact e
    | false => exact absurd (hw rfl).1 (by decide)
  · rw [(C89_upper_kept exSt exFresh _ hc).2.2.1 [] (by simp) _ (by decide) (by decide)]
    decide

end Verif.Tlb
