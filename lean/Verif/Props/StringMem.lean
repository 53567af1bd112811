import Verif.Lemmas.StringMem

/-!
Properties C01–C04: memmove, memcpy, strlen/cstrlen, strcpy.

`m.Acc a n` says that the `n` bytes from `a` are accessible; every access to any
other address is undefined behaviour in the model, so an `.ok` result under
`Acc` hypotheses for just the two ranges also says that nothing else is touched.
-/

namespace Verif.Props
open Verif Verif.Spec Verif.StringMem

/-- A small memory for the examples: addresses 100..131 hold 0..31, the rest is
inaccessible. -/
private def exMem : Mem := fun a => if 100 ≤ a ∧ a < 132 then some (UInt8.ofNat (a - 100)) else none

private theorem exMem_acc (a n : Nat) (h1 : 100 ≤ a) (h2 : a + n ≤ 132) : exMem.Acc a n := by
  intro i hi
  have : 100 ≤ a + i ∧ a + i < 132 := by omega
  simp [exMem, this]

/-- C01: memmove moves the old source bytes to the destination, changes nothing
else, returns `dest + n`; for every overlap. -/
theorem C01_memmove (m : Mem) (dest src n : Nat) (hd : dest ≠ 0) (hs : src ≠ 0)
    (hsrc : m.Acc src n) (hdst : m.Acc dest n) :
    ∃ m', memmove m dest src n = .ok (dest + n, m') ∧
      (∀ i, i < n → m' (dest + i) = m (src + i)) ∧
      (∀ a, ¬ (dest ≤ a ∧ a < dest + n) → m' a = m a) := by
  by_cases hn : n = 0
  · subst hn
    exact ⟨m, by simp [memmove], by intro i hi; omega, fun _ _ => rfl⟩
  · refine ⟨copied m dest src n, memmove_eq hd hs hn hsrc hdst, ?_, ?_⟩
    · intro i hi
      have : dest ≤ dest + i ∧ dest + i < dest + n := by omega
      simp only [copied, if_pos this]; congr 1; omega
    · intro a ha; simp only [copied, if_neg ha]

/-- overlapping by all but one byte, in both directions -/
example : exMem.Acc 100 31 ∧ exMem.Acc 101 31 :=
  ⟨exMem_acc _ _ (by omega) (by omega), exMem_acc _ _ (by omega) (by omega)⟩

/-- C02: memcpy for disjoint ranges, and for overlapping ranges with `dest`
below `src`. -/
theorem C02_memcpy (m : Mem) (dest src n : Nat) (hd : dest ≠ 0) (hs : src ≠ 0)
    (hov : dest ≤ src ∨ src + n ≤ dest)
    (hsrc : m.Acc src n) (hdst : m.Acc dest n) :
    ∃ m', memcpy m dest src n = .ok (dest + n, m') ∧
      (∀ i, i < n → m' (dest + i) = m (src + i)) ∧
      (∀ a, ¬ (dest ≤ a ∧ a < dest + n) → m' a = m a) := by
  by_cases hn : n = 0
  · subst hn
    exact ⟨m, by simp [memcpy], by intro i hi; omega, fun _ _ => rfl⟩
  by_cases he : dest = src
  · subst he
    exact ⟨m, by simp [memcpy, hd, hn], fun _ _ => rfl, fun _ _ => rfl⟩
  · refine ⟨copied m dest src n, memcpy_eq hd hs hn hsrc hdst (by omega), ?_, ?_⟩
    · intro i hi
      have : dest ≤ dest + i ∧ dest + i < dest + n := by omega
      simp only [copied, if_pos this]; congr 1; omega
    · intro a ha; simp only [copied, if_neg ha]

example : exMem.Acc 100 13 ∧ exMem.Acc 115 13 ∧ (115 ≤ 100 ∨ 100 + 13 ≤ 115) :=
  ⟨exMem_acc _ _ (by omega) (by omega), exMem_acc _ _ (by omega) (by omega), by omega⟩

/-- C02, degenerate calls: a null pointer or `n = 0` changes nothing. -/
theorem C02_memcpy_degenerate (m : Mem) (dest src n : Nat)
    (h : dest = 0 ∨ src = 0 ∨ n = 0) : memcpy m dest src n = .ok (dest, m) := by
  simp [memcpy, h]

/-- The precondition of C02 matters: with `dest` just above `src` memcpy does
not copy the old bytes. -/
theorem C02_memcpy_overlap_differs :
    ∃ (m : Mem) (m' : Mem), m.Acc 100 2 ∧ m.Acc 101 2 ∧
      memcpy m 101 100 2 = .ok (103, m') ∧ m' 102 ≠ m 101 := by
  refine ⟨exMem, fun a => if a = 102 then some 0 else if a = 101 then some 0 else exMem a,
    exMem_acc _ _ (by omega) (by omega), exMem_acc _ _ (by omega) (by omega), ?_, ?_⟩
  · rfl
  · simp [exMem]

/-- C03: with a NUL-terminated string of length `len` at `s`, strlen returns
`len`. Bytes after the terminator may be inaccessible, so none is read. -/
theorem C03_strlen (m : Mem) (s len : Nat) (h : CStr m s len) :
    ∃ f, ∀ fuel, f ≤ fuel → strlen fuel m s = .ok len ∧ cstrlen fuel m s = .ok len := by
  refine ⟨len + 1, fun fuel hf => ?_⟩
  have := strlenLoop_eq (n := 0) (fuel := fuel) h (by omega)
  simp only [Nat.zero_add] at this
  exact ⟨this, by rw [cstrlen, cstrlenLoop_eq_strlenLoop]; exact this⟩

example : CStr (fun a => if a = 7 then some 65 else if a = 8 then some 66
    else if a = 9 then some 0 else none) 7 2 := by
  refine ⟨fun i hi => ?_, rfl⟩
  match i, hi with
  | 0, _ => exact ⟨65, rfl, by decide⟩
  | 1, _ => exact ⟨66, rfl, by decide⟩

/-- C03: without a terminator strlen never returns. -/
theorem C03_strlen_diverges (m : Mem) (s : Nat) (h : ∀ i, ∃ b, m (s + i) = some b ∧ b ≠ 0)
    (fuel : Nat) : strlen fuel m s = .oof ∧ cstrlen fuel m s = .oof :=
  ⟨strlenLoop_no_nul fuel h, by
    rw [cstrlen, cstrlenLoop_eq_strlenLoop]; exact strlenLoop_no_nul fuel h⟩

example : ∀ i, ∃ b, (fun _ => some 1 : Mem) (5 + i) = some b ∧ b ≠ 0 :=
  fun _ => ⟨1, rfl, by decide⟩

/-- C04: strcpy copies the string and its terminator and nothing more, for every
placement of `dest` outside `(src, src+len]`. -/
theorem C04_strcpy (m : Mem) (dest src len : Nat) (hd0 : dest ≠ 0) (hs0 : src ≠ 0)
    (hstr : CStr m src len) (hd : m.Acc dest (len + 1))
    (hov : ¬ (src < dest ∧ dest ≤ src + len)) :
    ∃ f m', (∀ fuel, f ≤ fuel → strcpy fuel m dest src = .ok (dest, m')) ∧
      (∀ i, i ≤ len → m' (dest + i) = m (src + i)) ∧
      (∀ a, ¬ (dest ≤ a ∧ a ≤ dest + len) → m' a = m a) := by
  refine ⟨len + 1, copied m dest src (len + 1), ?_, ?_, ?_⟩
  · intro fuel hf
    unfold strcpy
    rw [if_neg (by omega)]
    by_cases he : dest = src
    · subst he
      rw [if_pos rfl]
      congr 2
      funext a; unfold copied; split
      · congr 1; omega
      · rfl
    · rw [if_neg he]
      have := strcpyLoop_eq hstr hd hov len 0 fuel (by omega) (by omega)
      rw [copied_zero] at this
      simp [Nat.add_zero] at this
      simp [this]
  · intro i hi
    have : dest ≤ dest + i ∧ dest + i < dest + (len + 1) := by omega
    simp only [copied, if_pos this]; congr 1; omega
  · intro a ha
    have : ¬ (dest ≤ a ∧ a < dest + (len + 1)) := by omega
    simp only [copied, if_neg this]

/-- a string of length 2 at 10 copied to 8 (overlapping from below) -/
example : let m : Mem := fun a => if a = 12 then some 0 else if 8 ≤ a ∧ a ≤ 12 then some 65 else none
    CStr m 10 2 ∧ m.Acc 8 3 ∧ ¬ (10 < 8 ∧ 8 ≤ 10 + 2) := by
  refine ⟨⟨fun i hi => ?_, rfl⟩, by decide, by omega⟩
  match i, hi with
  | 0, _ => exact ⟨65, rfl, by decide⟩
  | 1, _ => exact ⟨65, rfl, by decide⟩

/-- C04, the excluded placement: copying a non-empty string one byte upwards
overwrites the terminator before it is read, and strcpy never returns (given
accessible memory above). -/
theorem C04_strcpy_overlap_diverges (m : Mem) (src : Nat) (b : UInt8) (hs : src ≠ 0)
    (hb : m src = some b) (hb0 : b ≠ 0) (hacc : ∀ i, (m (src + i)).isSome) (fuel : Nat) :
    strcpy fuel m (src + 1) src = .oof := by
  have key : ∀ (fuel : Nat) (m : Mem) (s : Nat), m s = some b → (∀ i, (m (s + i)).isSome) →
      strcpyLoop fuel m (s + 1) s = .oof := by
    intro fuel
    induction fuel with
    | zero => intros; rfl
    | succ f ih =>
      intro m s hb hacc
      obtain ⟨c, hc⟩ := Option.isSome_iff_exists.mp (hacc 1)
      have h1 : m.upd (s + 1) b (s + 1) = some b := by simp [Mem.upd]
      have := ih (m.upd (s + 1) b) (s + 1) h1 (by
        intro i
        unfold Mem.upd
        split
        · simp
        · have := hacc (i + 1); rwa [show s + (i + 1) = s + 1 + i by omega] at this)
      simp only [strcpyLoop, Mem.load, hb, Res.ok_bind, Mem.store, hc, h1, if_neg hb0, this]
  unfold strcpy
  rw [if_neg (by omega), if_neg (by omega), key fuel m src hb hacc]
  rfl

example : ∃ (m : Mem), m 3 = some 65 ∧ (65 : UInt8) ≠ 0 ∧ ∀ i, (m (3 + i)).isSome :=
  ⟨fun a => if a = 4 then some 0 else some 65, rfl, by decide, fun i => by dsimp only; split <;> simp⟩

end Verif.Props
