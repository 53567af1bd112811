import Verif.Model.Bitset

/-! Property C10: bitset. -/

namespace Verif.Props.Bitset
open Verif Verif.Bitset

/-- Specification: is position `p` in the set after the history (starting from a
bitset constructed with `flag`)? The last operation that affects `p` decides. -/
def member (flag : Bool) (p : Nat) : List Op → Bool
  | [] => flag
  | op :: ops =>
    member (match op with
      | .set q => if q = p then true else flag
      | .clear q => if q = p then false else flag
      | .reset b => b) p ops

/-- Positions an operation names. -/
def Op.Valid (N : Nat) : Op → Prop
  | .set p => p < N ∧ p % 64 < 32
  | .clear p => p < N ∧ p % 64 < 32
  | .reset _ => True

private theorem mask_bit : ∀ s, s < 32 → ∀ i, i < 64 →
    ((1#32 <<< s).signExtend 64).getLsbD i = decide (min i 31 = s) := by
  decide +kernel

/-- Representation: bit `i` of word `k` shows position `64 k + min i 31`. -/
private def Rep (N : Nat) (d : List (BitVec 64)) (f : Nat → Bool) : Prop :=
  d.length = words N ∧ ∀ k (h : k < d.length) i, i < 64 → d[k].getLsbD i = f (64 * k + min i 31)

private theorem word_ok {N : Nat} {d : List (BitVec 64)} {f : Nat → Bool} (h : Rep N d f) {p : Nat}
    (hp : p < N) : ∃ hk : p / 64 < d.length, word d (typeOffset p) = .ok d[p / 64] := by
  have hk : p / 64 < d.length := by rw [h.1]; unfold words; omega
  exact ⟨hk, by simp [word, typeOffset, List.getElem?_eq_getElem hk]⟩

private theorem set_rep {N : Nat} {d : List (BitVec 64)} {f : Nat → Bool} (h : Rep N d f) {p : Nat}
    (hp : p < N) (h32 : p % 64 < 32) :
    ∃ d', set d p = .ok d' ∧ Rep N d' (fun q => if p = q then true else f q) := by
  obtain ⟨hk, hw⟩ := word_ok h hp
  refine ⟨_, by simp [Verif.Bitset.set, hw, bitMask, h32]; rfl, by simpa using h.1, ?_⟩
  intro k hk' i hi
  simp only [List.length_set] at hk'
  rw [List.getElem_set]
  show _ = (if p = 64 * k + min i 31 then _ else f (64 * k + min i 31))
  by_cases e : typeOffset p = k
  · rw [if_pos e]
    have e' : p / 64 = k := e
    subst e'
    rw [BitVec.getLsbD_or, h.2 _ hk i hi, mask_bit _ h32 i hi]
    by_cases he : min i 31 = p % 64
    · rw [if_pos (by omega)]; simp [he]
    · rw [if_neg (by omega)]; simp [he]
  · have e' : ¬ p / 64 = k := e
    rw [if_neg e, h.2 k hk' i hi, if_neg (by omega)]

private theorem clear_rep {N : Nat} {d : List (BitVec 64)} {f : Nat → Bool} (h : Rep N d f) {p : Nat}
    (hp : p < N) (h32 : p % 64 < 32) :
    ∃ d', clear d p = .ok d' ∧ Rep N d' (fun q => if p = q then false else f q) := by
  obtain ⟨hk, hw⟩ := word_ok h hp
  refine ⟨_, by simp [clear, hw, bitMask, h32]; rfl, by simpa using h.1, ?_⟩
  intro k hk' i hi
  simp only [List.length_set] at hk'
  rw [List.getElem_set]
  show _ = (if p = 64 * k + min i 31 then _ else f (64 * k + min i 31))
  by_cases e : typeOffset p = k
  · rw [if_pos e]
    have e' : p / 64 = k := e
    subst e'
    rw [BitVec.getLsbD_and, BitVec.getLsbD_not, h.2 _ hk i hi, mask_bit _ h32 i hi]
    by_cases he : min i 31 = p % 64
    · rw [if_pos (by omega)]; simp [he]
    · rw [if_neg (by omega)]; simp [he, hi]
  · have e' : ¬ p / 64 = k := e
    rw [if_neg e, h.2 k hk' i hi, if_neg (by omega)]

private theorem reset_rep (N : Nat) (b : Bool) : Rep N (reset N b) (fun _ => b) := by
  refine ⟨by simp [reset], ?_⟩
  intro k hk i hi
  simp only [reset, List.getElem_replicate]
  cases b
  · simp
  · rw [if_pos rfl, BitVec.getLsbD_allOnes]; simp [hi]

private theorem test_rep {N : Nat} {d : List (BitVec 64)} {f : Nat → Bool} (h : Rep N d f) {p : Nat}
    (hp : p < N) (h32 : p % 64 < 32) : test d p = .ok (f p) := by
  obtain ⟨hk, hw⟩ := word_ok h hp
  simp only [test, hw, bitMask, h32, if_true, Res.ok_bind]
  congr 1
  have hand : ∀ i, i < 64 → (d[p / 64] &&& (1#32 <<< (p % 64)).signExtend 64).getLsbD i =
      (f (64 * (p / 64) + min i 31) && decide (min i 31 = p % 64)) := by
    intro i hi
    rw [BitVec.getLsbD_and, h.2 _ hk i hi, mask_bit _ h32 i hi]
  cases hf : f p with
  | true =>
    rw [bne_iff_ne]
    intro h0
    have := hand (p % 64) (by omega)
    rw [h0, show 64 * (p / 64) + min (p % 64) 31 = p by omega, hf] at this
    simp only [BitVec.getLsbD_zero, Bool.true_and] at this
    rw [decide_eq_true (by omega)] at this
    exact absurd this (by simp)
  | false =>
    rw [bne_eq_false_iff_eq]
    apply BitVec.eq_of_getLsbD_eq
    intro i hi
    rw [hand i hi, BitVec.getLsbD_zero]
    by_cases he : min i 31 = p % 64
    · rw [show 64 * (p / 64) + min i 31 = p by omega, hf]; rfl
    · simp [he]

private theorem run_rep {N : Nat} (ops : List Op) : ∀ {d : List (BitVec 64)} {f : Nat → Bool},
    Rep N d f → (∀ op ∈ ops, Op.Valid N op) →
    ∃ d', run N d ops = .ok d' ∧ Rep N d' (fun p => member (f p) p ops) := by
  induction ops with
  | nil => intro d f h _; exact ⟨d, rfl, h⟩
  | cons op ops ih =>
    intro d f h hv
    have hv1 := hv op (by simp)
    have hv2 : ∀ o ∈ ops, Op.Valid N o := fun o ho => hv o (by simp [ho])
    cases op with
    | set p =>
      obtain ⟨d1, e1, r1⟩ := set_rep h hv1.1 hv1.2
      obtain ⟨d2, e2, r2⟩ := ih r1 hv2
      exact ⟨d2, by simp [run, step, e1, e2], r2⟩
    | clear p =>
      obtain ⟨d1, e1, r1⟩ := clear_rep h hv1.1 hv1.2
      obtain ⟨d2, e2, r2⟩ := ih r1 hv2
      exact ⟨d2, by simp [run, step, e1, e2], r2⟩
    | reset b =>
      obtain ⟨d2, e2, r2⟩ := ih (reset_rep N b) hv2
      exact ⟨d2, by simp [run, step, e2], r2⟩

/-- C10, the part that holds: for every size `N` and every history whose
positions are below `N` and have `p % 64 < 32`, no operation is undefined and
`test` reports exactly the set of positions. (Missing: positions with
`p % 64 ≥ 32`, see `C10_bitset_violated`.) -/
theorem C10_bitset_partial (N : Nat) (flag : Bool) (ops : List Op)
    (hv : ∀ op ∈ ops, Op.Valid N op) :
    ∃ d, run N (reset N flag) ops = .ok d ∧ d.length = words N ∧
      ∀ p, p < N → p % 64 < 32 → test d p = .ok (member flag p ops) := by
  obtain ⟨d, e, r⟩ := run_rep ops (reset_rep N flag) hv
  exact ⟨d, e, r.1, fun p hp h32 => test_rep r hp h32⟩

/-- a history on `bitset<100>` including the sign-extended position 31 -/
example : ∀ op ∈ [Op.set 31, Op.set 70, Op.clear 5, Op.reset true, Op.clear 31],
    Op.Valid 100 op := by
  simp [Op.Valid]

/-- C10 fails for the upper half of every word: setting, clearing or testing any
position with `p % 64 ≥ 32` is undefined behaviour in every state. -/
theorem C10_bitset_violated (N p : Nat) (hp : p < N) (h : 32 ≤ p % 64) (flag : Bool) :
    set (reset N flag) p = .ub ∧ clear (reset N flag) p = .ub ∧ test (reset N flag) p = .ub := by
  obtain ⟨hk, hw⟩ := word_ok (reset_rep N flag) hp
  simp [Verif.Bitset.set, clear, test, hw, bitMask, Nat.not_lt.mpr h]

/-- such a position exists in `bitset<64>` -/
example : (40 : Nat) < 64 ∧ 32 ≤ 40 % 64 := by decide

end Verif.Props.Bitset
