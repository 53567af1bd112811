import Verif.Lemmas.PhysInit

/-! The search of `alloc_pages`. -/

namespace Verif.Phys
open Verif

theorem mask_ok {number : Nat} (h : number ≤ 64) : ∃ b, mask number = .ok b ∧ ∀ t, t < 64 → b.getLsbD t = decide (t < number) := by
  by_cases h1 : number = 64
  · refine ⟨BitVec.allOnes 64, by simp [mask, h1], fun t ht => ?_⟩
    rw [BitVec.getLsbD_allOnes]; simp; omega
  · have h2 : number < 64 := by omega
    refine ⟨(1#64 <<< number) - 1, by simp [mask, h1, h2], fun t ht => ?_⟩
    have hp : 2 ^ number < 2 ^ 64 := Nat.pow_lt_pow_right (by omega) h2
    have e : (1#64 <<< number) - 1 = BitVec.ofNat 64 (2 ^ number - 1) := by
      apply BitVec.eq_of_toNat_eq
      have : (1#64 <<< number).toNat = 2 ^ number := by
        simp [BitVec.toNat_shiftLeft, Nat.shiftLeft_eq, Nat.mod_eq_of_lt hp]
      rw [toNat_pred (by rw [this]; exact Nat.two_pow_pos _), this, BitVec.toNat_ofNat, Nat.mod_eq_of_lt (by omega)]
    rw [e, BitVec.getLsbD_ofNat, Nat.testBit_two_pow_sub_one]
    simp [ht]

theorem and_eq_zero {x b : BitVec 64} {number : Nat} (hb : ∀ t, t < 64 → b.getLsbD t = decide (t < number)) (hn : number ≤ 64) :
    x &&& b = 0#64 ↔ ∀ t, t < number → x.getLsbD t = false := by
  constructor
  · intro h t ht
    have := congrArg (fun y => BitVec.getLsbD y t) h
    simp only [BitVec.getLsbD_and, hb t (by omega), ht, BitVec.getLsbD_zero] at this
    simpa using this
  · intro h
    apply BitVec.eq_of_getLsbD_eq
    intro t ht
    rw [BitVec.getLsbD_and, hb t ht]
    by_cases h2 : t < number
    · rw [h t h2]; simp
    · simp [h2]

theorem window {m : Mm} {w k t : Nat} (h1 : 1 ≤ k) (h2 : k < 64) (ht : t < 64) :
    ((m.bits.at_ w >>> k) ||| (m.bits.at_ (w + 1) <<< (64 - k))).getLsbD t = bit m (64 * w + k + t) := by
  simp only [BitVec.getLsbD_or, BitVec.getLsbD_ushiftRight, BitVec.getLsbD_shiftLeft, bit, ht, decide_true, Bool.true_and]
  by_cases h : k + t < 64
  · have e1 : (64 * w + k + t) / 64 = w := by omega
    have e2 : (64 * w + k + t) % 64 = k + t := by omega
    rw [e1, e2, decide_eq_true (show t < 64 - k by omega)]; simp
  · have e1 : (64 * w + k + t) / 64 = w + 1 := by omega
    have e2 : (64 * w + k + t) % 64 = t - (64 - k) := by omega
    have e3 : (m.bits.at_ w).getLsbD (k + t) = false := by rw [BitVec.getLsbD_of_ge _ _ (by omega)]
    rw [e1, e2, e3, decide_eq_false (show ¬ t < 64 - k by omega)]; simp

/-- The pages `p, …, p + number - 1` are all marked free. -/
def FreeRun (m : Mm) (p number : Nat) : Prop := ∀ t, t < number → bit m (p + t) = false

theorem scan_step {m : Mm} {w number n k : Nat} (hn : number ≤ 64) (h1 : 1 ≤ k) (h2 : k < 64) :
    (FreeRun m (64 * w + k) number → scan m w number (n + 1) k = .ok (some k)) ∧
    (¬ FreeRun m (64 * w + k) number → scan m w number (n + 1) k = scan m w number n (k + 1)) := by
  obtain ⟨b, eb, hb⟩ := mask_ok hn
  have key : ((m.bits.at_ w >>> k) ||| (m.bits.at_ (w + 1) <<< (64 - k))) &&& b = 0#64 ↔ FreeRun m (64 * w + k) number := by
    rw [and_eq_zero hb hn]
    constructor
    · intro h t ht; rw [← window h1 h2 (by omega)]; exact h t ht
    · intro h t ht; rw [window h1 h2 (by omega)]; exact h t ht
  have hk : ¬ k = 0 := by omega
  constructor
  · intro h
    rw [scan, if_neg hk, eb, Res.ok_bind, if_pos (key.2 h)]
  · intro h
    rw [scan, if_neg hk, eb, Res.ok_bind, if_neg (fun h2 => h (key.1 h2))]

theorem scan_spec {m : Mm} {w number : Nat} (hn : number ≤ 64) : ∀ (n k : Nat), 1 ≤ k → k + n ≤ 64 →
    (∃ k', k ≤ k' ∧ k' < k + n ∧ FreeRun m (64 * w + k') number ∧ (∀ i, k ≤ i → i < k' → ¬ FreeRun m (64 * w + i) number) ∧ scan m w number n k = .ok (some k')) ∨
    ((∀ i, k ≤ i → i < k + n → ¬ FreeRun m (64 * w + i) number) ∧ scan m w number n k = .ok none) := by
  intro n
  induction n with
  | zero => intro k _ _; exact .inr ⟨fun i h1 h2 => by omega, rfl⟩
  | succ n ih =>
    intro k h1 h2
    obtain ⟨s1, s2⟩ := scan_step (m := m) (w := w) (n := n) hn h1 (show k < 64 by omega)
    by_cases h : FreeRun m (64 * w + k) number
    · exact .inl ⟨k, by omega, by omega, h, fun i h3 h4 => by omega, s1 h⟩
    · rw [s2 h]
      rcases ih (k + 1) (by omega) (by omega) with ⟨k', a1, a2, a3, a4, a5⟩ | ⟨a1, a2⟩
      · refine .inl ⟨k', by omega, by omega, a3, fun i h3 h4 => ?_, a5⟩
        by_cases hi : i = k
        · subst hi; exact h
        · exact a4 i (by omega) h4
      · refine .inr ⟨fun i h3 h4 => ?_, a2⟩
        by_cases hi : i = k
        · subst hi; exact h
        · exact a1 i (by omega) (by omega)

theorem scan_zero {m : Mm} {w number n : Nat} : scan m w number (n + 1) 0 = .ub := by rw [scan, if_pos rfl]

/-- The loop over the words of a zone that starts inside a word. -/
theorem words_spec {m : Mm} {start stop number f : Nat} (hn : number ≤ 64) (hs : start % 64 ≠ 0) (hle : start ≤ stop) :
    (∃ k, start % 64 ≤ k ∧ k < 64 - start % 64 ∧ FreeRun m (start / 64 * 64 + k) number ∧ (∀ i, start % 64 ≤ i → i < k → ¬ FreeRun m (start / 64 * 64 + i) number) ∧
      words m start stop number (f + 2) start = .ok (some (start + k - 1))) ∨
    ((∀ i, start % 64 ≤ i → i < 64 - start % 64 → ¬ FreeRun m (start / 64 * 64 + i) number) ∧
      words m start stop number (f + 2) start = if start / 64 * 64 + 64 ≤ stop then .ub else .ok none) := by
  rw [words, if_pos hle]
  rcases scan_spec (m := m) (w := start / 64) hn (64 - start % 64 - start % 64) (start % 64) (by omega) (by omega) with ⟨k, a1, a2, a3, a4, a5⟩ | ⟨a1, a2⟩
  · refine .inl ⟨k, a1, by omega, by rw [Nat.mul_comm]; exact a3, fun i h1 h2 => by rw [Nat.mul_comm]; exact a4 i h1 h2, ?_⟩
    rw [a5]; rfl
  · refine .inr ⟨fun i h1 h2 => by rw [Nat.mul_comm]; exact a1 i h1 (by omega), ?_⟩
    rw [a2, Res.ok_bind]
    simp only
    rw [if_pos hs, show start + (64 - start % 64) = start / 64 * 64 + 64 by omega, words]
    have e : (start / 64 * 64 + 64) % 64 = 0 := by omega
    split
    · rw [e, scan_zero]; rfl
    · rfl

theorem words_aligned {m : Mm} {start stop number f : Nat} (hs : start % 64 = 0) (hle : start ≤ stop) : words m start stop number (f + 1) start = .ub := by
  rw [words, if_pos hle, hs, scan_zero]; rfl

theorem take_spec {c : Flags} {flags : BitVec 64} (hf : flags ≠ 0#64) {page : Nat} : ∀ (k j : Nat) {n : Nat} {m m' : Mm}, Inv c n m → n + k < 2 ^ 64 →
    (∀ l, j ≤ l → l < j + k → bit m (page + l) = false) → take c flags page k j m = .ok m' →
    (∀ l, j ≤ l → l < j + k → ∃ q, page + l < m.pages.n ∧ m.pages.at_ (page + l) = some q ∧ q.attr = 0#64 ∧ q.refs = 0#64 ∧
      m'.pages.at_ (page + l) = some { q with attr := flags, refs := 1#64 }) ∧
    (∀ i, ¬ (page + j ≤ i ∧ i < page + j + k) → m'.pages.at_ i = m.pages.at_ i) ∧
    (∀ i, bit m' i = (bit m i || decide (page + j ≤ i ∧ i < page + j + k))) ∧ m'.pages.n = m.pages.n ∧ m'.zones.n = m.zones.n := by
  intro k
  induction k with
  | zero =>
    intro j n m m' _ _ _ e
    cases e
    exact ⟨fun l h1 h2 => by omega, fun _ _ => rfl, fun i => by rw [decide_eq_false (by omega), Bool.or_false], rfl, rfl⟩
  | succ k ih =>
    intro j n m m' I hn hfree e
    obtain ⟨m1, e1, e2⟩ := Res.bind_eq_ok.1 e
    obtain ⟨p, hg, _⟩ := Res.bind_eq_ok.1 e1
    obtain ⟨hi, hp⟩ := getPage_inv hg
    have P := I.page _ p hi hp
    have hattr : p.attr = 0#64 := by
      by_cases h : p.attr = 0#64
      · exact h
      · have := P.bit h; rw [hfree j (by omega) (by omega)] at this; cases this
    have I1 := I.init (by omega) hf e1
    rw [pageInit_eq I hi hp, if_pos hattr] at e1
    injection e1 with e1
    have hb : ∀ i, bit m1 i = (bit m i || decide (i = page + j)) := fun i => by rw [← e1]; exact bit_or
    have hpg : m1.pages = m.pages.put (page + j) (some { p with attr := flags, refs := p.refs + 1 }) := by rw [← e1]
    have hr := P.zero.1 hattr
    obtain ⟨a1, a2, a3, a4, a5⟩ := ih (j + 1) I1 (by omega) (fun l h1 h2 => by rw [hb, hfree l (by omega) (by omega)]; simp; omega) e2
    refine ⟨fun l h1 h2 => ?_, fun i hi' => ?_, fun i => ?_, by rw [a4, hpg]; rfl, by rw [a5, ← e1]; rfl⟩
    · by_cases hl : l = j
      · subst hl
        refine ⟨p, hi, hp, hattr, hr, ?_⟩
        rw [a2 _ (by omega), hpg, Arr.put_same, hr]; rfl
      · obtain ⟨q, q1, q2, q3, q4, q5⟩ := a1 l (by omega) (by omega)
        rw [hpg, Arr.put_ne _ _ (by omega)] at q2
        rw [hpg] at q1
        exact ⟨q, q1, q2, q3, q4, q5⟩
    · rw [a2 i (by omega), hpg, Arr.put_ne _ _ (by omega)]
    · rw [a3, hb, Bool.or_assoc, ← Bool.decide_or]
      congr 1
      simp only [decide_eq_decide]
      omega

end Verif.Phys
