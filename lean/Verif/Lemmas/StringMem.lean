import Verif.Model.StringMem
import Verif.Spec.StringMem

namespace Verif.StringMem
open Verif Verif.Spec

theorem copied_zero (m : Mem) (d s : Nat) : copied m d s 0 = m := by
  funext a; simp [copied]; omega

theorem acc_copied {m : Mem} {d s n a k : Nat} (hs : m.Acc s n) (ha : m.Acc a k) :
    (copied m d s n).Acc a k := by
  intro i hi
  unfold copied
  split
  · rename_i h
    exact hs (a + i - d) (by omega)
  · exact ha i hi

/-- Appending a word at the end of a forward copy. -/
theorem copyWord_fwd {m : Mem} {d s n k : Nat} (hs : m.Acc s n) (hd : m.Acc d n)
    (hk : k + 8 ≤ n) (hov : d < s ∨ s + n ≤ d) :
    copyWord (copied m d s k) (d + k) (s + k) = .ok (copied m d s (k + 8)) := by
  have hs' : m.Acc s k := fun i hi => hs i (by omega)
  have h1 : (copied m d s k).Acc (s + k) 8 :=
    acc_copied hs' (fun i hi => by have := hs (k + i) (by omega); rwa [← Nat.add_assoc] at this)
  have h2 : (copied m d s k).Acc (d + k) 8 :=
    acc_copied hs' (fun i hi => by have := hd (k + i) (by omega); rwa [← Nat.add_assoc] at this)
  rw [copyWord, if_pos ⟨h1, h2⟩]
  congr 1
  funext a
  by_cases ha : d + k ≤ a ∧ a < d + k + 8
  · rw [if_pos ha]
    have e1 : ¬ (d ≤ s + k + (a - (d + k)) ∧ s + k + (a - (d + k)) < d + k) := by omega
    have e2 : d ≤ a ∧ a < d + (k + 8) := by omega
    simp only [copied, if_neg e1, if_pos e2]
    congr 1; omega
  · rw [if_neg ha]
    by_cases hb : d ≤ a ∧ a < d + k
    · have e2 : d ≤ a ∧ a < d + (k + 8) := by omega
      simp only [copied, if_pos hb, if_pos e2]
    · have e2 : ¬ (d ≤ a ∧ a < d + (k + 8)) := by omega
      simp only [copied, if_neg hb, if_neg e2]

/-- Prepending a word to a backward copy. -/
theorem copyWord_bwd {m : Mem} {d s k : Nat} (hs : m.Acc s (k + 8)) (hd : m.Acc d (k + 8))
    (hov : s < d) :
    copyWord (copied m (d + 8) (s + 8) k) d s = .ok (copied m d s (k + 8)) := by
  have hs' : m.Acc (s + 8) k := fun i hi => by
    have := hs (8 + i) (by omega); rwa [← Nat.add_assoc] at this
  have h1 : (copied m (d + 8) (s + 8) k).Acc s 8 :=
    acc_copied hs' (fun i hi => hs i (by omega))
  have h2 : (copied m (d + 8) (s + 8) k).Acc d 8 :=
    acc_copied hs' (fun i hi => hd i (by omega))
  rw [copyWord, if_pos ⟨h1, h2⟩]
  congr 1
  funext a
  by_cases ha : d ≤ a ∧ a < d + 8
  · rw [if_pos ha]
    have e1 : ¬ (d + 8 ≤ s + (a - d) ∧ s + (a - d) < d + 8 + k) := by omega
    have e2 : d ≤ a ∧ a < d + (k + 8) := by omega
    simp only [copied, if_neg e1, if_pos e2]
  · rw [if_neg ha]
    by_cases hb : d + 8 ≤ a ∧ a < d + 8 + k
    · have e2 : d ≤ a ∧ a < d + (k + 8) := by omega
      simp only [copied, if_pos hb, if_pos e2]
      congr 1; omega
    · have e2 : ¬ (d ≤ a ∧ a < d + (k + 8)) := by omega
      simp only [copied, if_neg hb, if_neg e2]

theorem load_of_isSome {m : Mem} {a : Nat} (h : (m a).isSome) :
    ∃ b, m a = some b ∧ m.load a = .ok b := by
  obtain ⟨b, hb⟩ := Option.isSome_iff_exists.mp h
  exact ⟨b, hb, by simp [Mem.load, hb]⟩

theorem copyByte_eq {m : Mem} {d s : Nat} (hs : (m s).isSome) (hd : (m d).isSome) :
    copyByte m d s = .ok (fun a => if a = d then m s else m a) := by
  obtain ⟨b, hb, hl⟩ := load_of_isSome hs
  obtain ⟨c, hc⟩ := Option.isSome_iff_exists.mp hd
  simp only [copyByte, hl, Res.ok_bind, Mem.store, hc, hb]
  rfl

theorem copyByte_fwd {m : Mem} {d s n k : Nat} (hs : m.Acc s n) (hd : m.Acc d n)
    (hk : k + 1 ≤ n) (hov : d < s ∨ s + n ≤ d) :
    copyByte (copied m d s k) (d + k) (s + k) = .ok (copied m d s (k + 1)) := by
  have hs' : m.Acc s k := fun i hi => hs i (by omega)
  have h1 : (copied m d s k).Acc (s + k) 1 :=
    acc_copied hs' (fun i hi => by have := hs (k + i) (by omega); rwa [← Nat.add_assoc] at this)
  have h2 : (copied m d s k).Acc (d + k) 1 :=
    acc_copied hs' (fun i hi => by have := hd (k + i) (by omega); rwa [← Nat.add_assoc] at this)
  rw [copyByte_eq (by simpa using h1 0 (by omega)) (by simpa using h2 0 (by omega))]
  congr 1
  funext a
  by_cases ha : a = d + k
  · have e1 : ¬ (d ≤ s + k ∧ s + k < d + k) := by omega
    have e2 : d ≤ a ∧ a < d + (k + 1) := by omega
    simp only [if_pos ha, copied, if_neg e1, if_pos e2]
    congr 1; omega
  · rw [if_neg ha]
    by_cases hb : d ≤ a ∧ a < d + k
    · have e2 : d ≤ a ∧ a < d + (k + 1) := by omega
      simp only [copied, if_pos hb, if_pos e2]
    · have e2 : ¬ (d ≤ a ∧ a < d + (k + 1)) := by omega
      simp only [copied, if_neg hb, if_neg e2]

theorem copyByte_bwd {m : Mem} {d s k : Nat} (hs : m.Acc s (k + 1)) (hd : m.Acc d (k + 1))
    (hov : s < d) :
    copyByte (copied m (d + 1) (s + 1) k) d s = .ok (copied m d s (k + 1)) := by
  have hs' : m.Acc (s + 1) k := fun i hi => by
    have := hs (1 + i) (by omega); rwa [← Nat.add_assoc] at this
  have h1 : (copied m (d + 1) (s + 1) k).Acc s 1 :=
    acc_copied hs' (fun i hi => hs i (by omega))
  have h2 : (copied m (d + 1) (s + 1) k).Acc d 1 :=
    acc_copied hs' (fun i hi => hd i (by omega))
  rw [copyByte_eq (by simpa using h1 0 (by omega)) (by simpa using h2 0 (by omega))]
  congr 1
  funext a
  by_cases ha : a = d
  · have e1 : ¬ (d + 1 ≤ s ∧ s < d + 1 + k) := by omega
    have e2 : d ≤ a ∧ a < d + (k + 1) := by omega
    simp only [if_pos ha, copied, if_neg e1, if_pos e2]
    congr 1; omega
  · rw [if_neg ha]
    by_cases hb : d + 1 ≤ a ∧ a < d + 1 + k
    · have e2 : d ≤ a ∧ a < d + (k + 1) := by omega
      simp only [copied, if_pos hb, if_pos e2]
      congr 1; omega
    · have e2 : ¬ (d ≤ a ∧ a < d + (k + 1)) := by omega
      simp only [copied, if_neg hb, if_neg e2]

theorem words_fwd {m : Mem} {d s n loop : Nat} (hs : m.Acc s n) (hd : m.Acc d n)
    (hl : loop * 8 ≤ n) (hov : d < s ∨ s + n ≤ d) :
    forUp loop (fun i m => copyWord m (d + 8 * i) (s + 8 * i)) m
      = .ok (copied m d s (loop * 8)) := by
  obtain ⟨m', h, rfl⟩ := forUp_inv (fun i x => x = copied m d s (i * 8))
    (fun i m => copyWord m (d + 8 * i) (s + 8 * i)) m loop (by simp [copied_zero])
    (by
      rintro i x hi rfl
      refine ⟨_, ?_, rfl⟩
      have := copyWord_fwd (k := i * 8) hs hd (by omega) hov
      rw [Nat.mul_comm 8 i, this]; congr 2; omega)
  exact h

theorem bytes_fwd {m : Mem} {d s n j k : Nat} (hs : m.Acc s n) (hd : m.Acc d n)
    (hl : j + k ≤ n) (hov : d < s ∨ s + n ≤ d) :
    forUp k (fun i m => copyByte m (d + j + i) (s + j + i)) (copied m d s j)
      = .ok (copied m d s (j + k)) := by
  obtain ⟨m', h, rfl⟩ := forUp_inv (fun i x => x = copied m d s (j + i))
    (fun i m => copyByte m (d + j + i) (s + j + i)) (copied m d s j) k (by simp)
    (by
      rintro i x hi rfl
      refine ⟨_, ?_, rfl⟩
      have := copyByte_fwd (k := j + i) hs hd (by omega) hov
      rw [Nat.add_assoc, Nat.add_assoc, this]; rfl)
  exact h

/-- memcpy outside the two early exits. -/
theorem memcpy_eq {m : Mem} {d s n : Nat} (hd0 : d ≠ 0) (hs0 : s ≠ 0) (hn : n ≠ 0)
    (hs : m.Acc s n) (hd : m.Acc d n) (hov : d < s ∨ s + n ≤ d) :
    memcpy m d s n = .ok (d + n, copied m d s n) := by
  have hne : d ≠ s := by omega
  unfold memcpy
  rw [if_neg (by omega), if_neg hne]
  by_cases h8 : n ≥ 8
  · rw [if_pos h8]
    have hl : n / 8 * 8 ≤ n := Nat.div_mul_le_self n 8
    have hb := bytes_fwd (j := n / 8 * 8) (k := n - n / 8 * 8) hs hd (by omega) hov
    simp only [words_fwd hs hd hl hov, Res.ok_bind, hb]
    have e : n / 8 * 8 + (n - n / 8 * 8) = n := by omega
    rw [e, Nat.add_assoc d, e]
  · rw [if_neg h8]
    have hb := bytes_fwd (j := 0) (k := n) hs hd (by omega) hov
    simp only [Nat.add_zero, copied_zero, Nat.zero_add] at hb
    simp [hb]

theorem words_bwd {m : Mem} {d s n loop : Nat} (hs : m.Acc s n) (hd : m.Acc d n)
    (hl : loop * 8 ≤ n) (hov : s < d) :
    forUp loop (fun i m => copyWord m (d + n - 8 * i - 8) (s + n - 8 * i - 8)) m
      = .ok (copied m (d + (n - loop * 8)) (s + (n - loop * 8)) (loop * 8)) := by
  obtain ⟨m', h, rfl⟩ := forUp_inv
    (fun i x => x = copied m (d + (n - i * 8)) (s + (n - i * 8)) (i * 8))
    (fun i m => copyWord m (d + n - 8 * i - 8) (s + n - 8 * i - 8)) m loop
    (by simp [copied_zero])
    (by
      rintro i x hi rfl
      refine ⟨_, ?_, rfl⟩
      have hi' : i * 8 + 8 ≤ n := by omega
      have := copyWord_bwd (m := m) (d := d + (n - i * 8 - 8)) (s := s + (n - i * 8 - 8))
        (k := i * 8)
        (fun j hj => by have := hs (n - i * 8 - 8 + j) (by omega); rwa [← Nat.add_assoc] at this)
        (fun j hj => by have := hd (n - i * 8 - 8 + j) (by omega); rwa [← Nat.add_assoc] at this)
        (by omega)
      have e1 : d + (n - i * 8 - 8) + 8 = d + (n - i * 8) := by omega
      have e2 : s + (n - i * 8 - 8) + 8 = s + (n - i * 8) := by omega
      have e3 : d + n - 8 * i - 8 = d + (n - i * 8 - 8) := by omega
      have e4 : s + n - 8 * i - 8 = s + (n - i * 8 - 8) := by omega
      have e5 : n - (i + 1) * 8 = n - i * 8 - 8 := by omega
      have e6 : (i + 1) * 8 = i * 8 + 8 := by omega
      rw [e1, e2] at this
      rw [e3, e4, e5, e6, this])
  exact h

theorem bytes_bwd {m : Mem} {d s n k : Nat} (hs : m.Acc s n) (hd : m.Acc d n)
    (hk : k ≤ n) (hov : s < d) :
    forUp k (fun i m => copyByte m (d + k - 1 - i) (s + k - 1 - i))
        (copied m (d + k) (s + k) (n - k))
      = .ok (copied m d s n) := by
  obtain ⟨m', h, hm⟩ := forUp_inv
    (fun i x => x = copied m (d + (k - i)) (s + (k - i)) (n - k + i))
    (fun i m => copyByte m (d + k - 1 - i) (s + k - 1 - i))
    (copied m (d + k) (s + k) (n - k)) k
    (by simp)
    (by
      rintro i x hi rfl
      refine ⟨_, ?_, rfl⟩
      have := copyByte_bwd (m := m) (d := d + (k - i - 1)) (s := s + (k - i - 1))
        (k := n - k + i)
        (fun j hj => by have := hs (k - i - 1 + j) (by omega); rwa [← Nat.add_assoc] at this)
        (fun j hj => by have := hd (k - i - 1 + j) (by omega); rwa [← Nat.add_assoc] at this)
        (by omega)
      have e1 : d + (k - i - 1) + 1 = d + (k - i) := by omega
      have e2 : s + (k - i - 1) + 1 = s + (k - i) := by omega
      have e3 : d + k - 1 - i = d + (k - i - 1) := by omega
      have e4 : s + k - 1 - i = s + (k - i - 1) := by omega
      have e5 : k - (i + 1) = k - i - 1 := by omega
      rw [e1, e2] at this
      rw [e3, e4, e5, this]; rfl)
  rw [h, hm]
  congr 2 <;> omega

theorem memmove_eq {m : Mem} {d s n : Nat} (hd0 : d ≠ 0) (hs0 : s ≠ 0) (hn : n ≠ 0)
    (hs : m.Acc s n) (hd : m.Acc d n) :
    memmove m d s n = .ok (d + n, copied m d s n) := by
  unfold memmove
  rw [if_neg (by omega)]
  by_cases hne : d = s
  · subst hne
    rw [if_pos rfl]
    congr 2
    funext a
    unfold copied
    split
    · congr 1; omega
    · rfl
  · rw [if_neg hne]
    by_cases hlt : d < s
    · rw [if_pos hlt, memcpy_eq hd0 hs0 hn hs hd (Or.inl hlt)]
    · rw [if_neg hlt]
      have hov : s < d := by omega
      have key : ∀ loop, loop * 8 ≤ n →
          (do
            let m ← forUp loop (fun i m => copyWord m (d + n - 8 * i - 8) (s + n - 8 * i - 8)) m
            let m ← forUp (n - loop * 8) (fun i m =>
              copyByte m (d + (n - loop * 8) - 1 - i) (s + (n - loop * 8) - 1 - i)) m
            Res.ok (d + n, m)) = Res.ok (d + n, copied m d s n) := by
        intro loop hl
        have hb := bytes_bwd (k := n - loop * 8) hs hd (by omega) hov
        have e : n - (n - loop * 8) = loop * 8 := by omega
        rw [e] at hb
        simp only [words_bwd hs hd hl hov, Res.ok_bind, hb]
      by_cases h8 : n ≥ 8
      · simp only [if_pos h8]
        exact key (n / 8) (Nat.div_mul_le_self n 8)
      · simp only [if_neg h8]
        exact key 0 (by omega)

theorem strlenLoop_eq {m : Mem} {len : Nat} : ∀ {s n fuel : Nat}, CStr m s len → len < fuel →
    strlenLoop fuel m s n = .ok (n + len) := by
  induction len with
  | zero =>
    intro s n fuel h hf
    obtain ⟨f, rfl⟩ : ∃ f, fuel = f + 1 := ⟨fuel - 1, by omega⟩
    have := h.2
    simp only [Nat.add_zero] at this
    simp [strlenLoop, Mem.load, this]
  | succ len ih =>
    intro s n fuel h hf
    obtain ⟨f, rfl⟩ : ∃ f, fuel = f + 1 := ⟨fuel - 1, by omega⟩
    obtain ⟨b, hb, hb0⟩ := h.1 0 (by omega)
    simp only [Nat.add_zero] at hb
    have ht : CStr m (s + 1) len := by
      refine ⟨fun i hi => ?_, ?_⟩
      · have := h.1 (i + 1) (by omega)
        rwa [show s + (i + 1) = s + 1 + i by omega] at this
      · have := h.2
        rwa [show s + (len + 1) = s + 1 + len by omega] at this
    have := ih (n := n + 1) (fuel := f) ht (by omega)
    simp only [strlenLoop, Mem.load, hb, Res.ok_bind, if_neg hb0, this]
    congr 1; omega

theorem cstrlenLoop_eq_strlenLoop (fuel : Nat) : ∀ (m : Mem) (s n : Nat),
    cstrlenLoop fuel m s n = strlenLoop fuel m s n := by
  induction fuel with
  | zero => intros; rfl
  | succ f ih => intro m s n; simp only [cstrlenLoop, strlenLoop, ih]

/-- Without a terminator, strlen never returns normally. -/
theorem strlenLoop_no_nul {m : Mem} (fuel : Nat) : ∀ {s n : Nat},
    (∀ i, ∃ b, m (s + i) = some b ∧ b ≠ 0) → strlenLoop fuel m s n = .oof := by
  induction fuel with
  | zero => intros; rfl
  | succ f ih =>
    intro s n h
    obtain ⟨b, hb, hb0⟩ := h 0
    simp only [Nat.add_zero] at hb
    have := ih (s := s + 1) (n := n + 1) (fun i => by
      have := h (i + 1); rwa [show s + (i + 1) = s + 1 + i by omega] at this)
    simp only [strlenLoop, Mem.load, hb, Res.ok_bind, if_neg hb0, this]

theorem strcpyLoop_eq {m0 : Mem} {d s len : Nat} (hstr : CStr m0 s len)
    (hd : m0.Acc d (len + 1)) (hov : ¬ (s < d ∧ d ≤ s + len)) :
    ∀ (r k fuel : Nat), k + r = len → r < fuel →
    strcpyLoop fuel (copied m0 d s k) (d + k) (s + k) = .ok (copied m0 d s (len + 1)) := by
  have hsacc : m0.Acc s (len + 1) := by
    intro i hi
    by_cases h : i < len
    · obtain ⟨b, hb, _⟩ := hstr.1 i h; simp [hb]
    · have : i = len := by omega
      subst this; simp [hstr.2]
  by_cases hds : d = s
  · -- same address: every step rewrites a byte with itself
    subst hds
    have hc : ∀ k, copied m0 d d k = m0 := by
      intro k; funext a; unfold copied; split
      · congr 1; omega
      · rfl
    intro r
    induction r with
    | zero =>
      intro k fuel hk hf
      obtain ⟨f, rfl⟩ : ∃ f, fuel = f + 1 := ⟨fuel - 1, by omega⟩
      have hk' : k = len := by omega
      subst hk'
      have hz := hstr.2
      have hup : m0.upd (d + k) 0 = m0 := by
        funext x; unfold Mem.upd; split
        · rename_i h; rw [h, hz]
        · rfl
      simp [strcpyLoop, hc, Mem.load, Mem.store, hz, hup]
    | succ r ih =>
      intro k fuel hk hf
      obtain ⟨f, rfl⟩ : ∃ f, fuel = f + 1 := ⟨fuel - 1, by omega⟩
      obtain ⟨b, hb, hb0⟩ := hstr.1 k (by omega)
      have hup : m0.upd (d + k) b = m0 := by
        funext x; unfold Mem.upd; split
        · rename_i h; rw [h, hb]
        · rfl
      have := ih (k + 1) f (by omega) (by omega)
      rw [hc, hc] at *
      simp only [strcpyLoop, Mem.load, Mem.store, hb, Res.ok_bind, hup, if_neg hb0]
      rw [Nat.add_assoc]; exact this
  · have hov' : d < s ∨ s + (len + 1) ≤ d := by omega
    -- contents of the source byte k before iteration k
    have hsrc : ∀ k, k ≤ len → copied m0 d s k (s + k) = m0 (s + k) := by
      intro k hk; unfold copied; rw [if_neg (by omega)]
    have hstep : ∀ k, k ≤ len → ∀ b, m0 (s + k) = some b →
        (copied m0 d s k).upd (d + k) b = copied m0 d s (k + 1) := by
      intro k hk b hb
      have h := copyByte_fwd (m := m0) (d := d) (s := s) (n := len + 1) (k := k) hsacc hd
        (by omega) hov'
      have hdacc : (copied m0 d s k (d + k)).isSome := by
        have := acc_copied (d := d) (m := m0) (s := s) (n := k) (a := d + k) (k := 1)
          (fun i hi => hsacc i (by omega))
          (fun i hi => by have := hd (k + i) (by omega); rwa [← Nat.add_assoc] at this)
        simpa using this 0 (by omega)
      obtain ⟨c, hc⟩ := Option.isSome_iff_exists.mp hdacc
      simp only [copyByte, Mem.load, hsrc k hk, hb, Res.ok_bind, Mem.store, hc] at h
      exact Res.ok.inj h
    have hdst : ∀ k, k ≤ len → (copied m0 d s k (d + k)).isSome := by
      intro k hk
      have := acc_copied (d := d) (m := m0) (s := s) (n := k) (a := d + k) (k := 1)
        (fun i hi => hsacc i (by omega))
        (fun i hi => by have := hd (k + i) (by omega); rwa [← Nat.add_assoc] at this)
      simpa using this 0 (by omega)
    intro r
    induction r with
    | zero =>
      intro k fuel hk hf
      obtain ⟨f, rfl⟩ : ∃ f, fuel = f + 1 := ⟨fuel - 1, by omega⟩
      have hk' : k = len := by omega
      subst hk'
      obtain ⟨c, hc⟩ := Option.isSome_iff_exists.mp (hdst k (by omega))
      have hup := hstep k (by omega) 0 hstr.2
      have hself : (copied m0 d s (k + 1)) (d + k) = some 0 := by
        rw [← hup]; simp [Mem.upd]
      simp [strcpyLoop, Mem.load, hsrc k (by omega), hstr.2, Mem.store, hc, hup, hself]
    | succ r ih =>
      intro k fuel hk hf
      obtain ⟨f, rfl⟩ : ∃ f, fuel = f + 1 := ⟨fuel - 1, by omega⟩
      obtain ⟨b, hb, hb0⟩ := hstr.1 k (by omega)
      obtain ⟨c, hc⟩ := Option.isSome_iff_exists.mp (hdst k (by omega))
      have hup := hstep k (by omega) b hb
      have hself : (copied m0 d s (k + 1)) (d + k) = some b := by
        rw [← hup]; simp [Mem.upd]
      have := ih (k + 1) f (by omega) (by omega)
      rw [← Nat.add_assoc, ← Nat.add_assoc] at this
      simp [strcpyLoop, Mem.load, hsrc k (by omega), hb, Mem.store, hc, hup, hself, hb0, this]

end Verif.StringMem
