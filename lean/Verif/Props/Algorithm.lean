import Verif.Model.Algorithm

/-! Properties C67 (reverse iterators), C68 (min, max, fill), C69 (global
constructors). -/

set_option backward.isDefEq.respectTransparency false

namespace Verif.Props.Algorithm
open Verif Verif.Algorithm

/-! ### C68 -/

/-- C68, min: the result is one of the arguments and neither argument is less
than it, for every asymmetric `<`. -/
theorem C68_min {α : Type} (lt : α → α → Bool) (hasym : ∀ a b, lt a b = true → lt b a = false)
    (a b : α) : (Algorithm.min lt a b = a ∨ Algorithm.min lt a b = b) ∧
      lt a (Algorithm.min lt a b) = false ∧ lt b (Algorithm.min lt a b) = false := by
  have hirr : ∀ a, lt a a = false := fun a => by
    cases h : lt a a with
    | false => rfl
    | true => have := hasym a a h; rw [h] at this; exact this
  unfold Algorithm.min
  cases h : lt a b with
  | true => simp [hirr, hasym a b h]
  | false => simp [hirr, h]

/-- C68, max: with `>` the converse of an asymmetric `<`. -/
theorem C68_max {α : Type} (lt gt : α → α → Bool) (hasym : ∀ a b, lt a b = true → lt b a = false)
    (hgt : ∀ a b, gt a b = lt b a) (a b : α) :
    (Algorithm.max gt a b = a ∨ Algorithm.max gt a b = b) ∧
      lt (Algorithm.max gt a b) a = false ∧ lt (Algorithm.max gt a b) b = false := by
  have hirr : ∀ a, lt a a = false := fun a => by
    cases h : lt a a with
    | false => rfl
    | true => have := hasym a a h; rw [h] at this; exact this
  unfold Algorithm.max
  rw [hgt]
  cases h : lt b a with
  | true => simp [hirr, hasym b a h]
  | false => simp [hirr, h]

example : (∀ a b : Nat, decide (a < b) = true → decide (b < a) = false) ∧
    ∀ a b : Nat, decide (a > b) = decide (b < a) := by
  constructor
  · intro a b h; simp at *; omega
  · intro a b; rfl

private theorem fill_spec {α : Type} (v : α) : ∀ (k fuel : Nat) (s : Store α) (first : Nat),
    k ≤ fuel → (∀ i, i < k → (s (first + i)).isSome) →
    fill fuel s first (first + k) v =
      .ok (fun x => if first ≤ x ∧ x < first + k then some v else s x) := by
  intro k
  induction k with
  | zero =>
    intro fuel s first _ _
    have : (fun x => if first ≤ x ∧ x < first + 0 then some v else s x) = s := by
      funext x; rw [if_neg (by omega)]
    rw [this]
    cases fuel <;> simp [fill]
  | succ k ih =>
    intro fuel s first hf hacc
    obtain ⟨f, rfl⟩ : ∃ f, fuel = f + 1 := ⟨fuel - 1, by omega⟩
    obtain ⟨w, hw⟩ := Option.isSome_iff_exists.mp (hacc 0 (by omega))
    simp only [Nat.add_zero] at hw
    rw [fill, if_pos (by omega)]
    simp only [assign, hw, Res.ok_bind]
    have e : first + (k + 1) = first + 1 + k := by omega
    rw [e, ih f _ (first + 1) (by omega) (by
      intro i hi
      have := hacc (i + 1) (by omega)
      rw [if_neg (by omega)]
      rwa [show first + 1 + i = first + (i + 1) by omega])]
    congr 1
    funext x
    by_cases h1 : x = first
    · subst h1; simp; omega
    · by_cases h2 : first + 1 ≤ x ∧ x < first + 1 + k
      · rw [if_pos h2, if_pos (by omega)]
      · rw [if_neg h2, if_neg h1, if_neg (by omega)]

/-- C68, fill: if the elements `[first, last)` may be assigned, `fill` terminates
(with any fuel at least their number), sets exactly them to `value` and changes
nothing else. -/
theorem C68_fill {α : Type} (s : Store α) (first last : Nat) (v : α) (hle : first ≤ last)
    (hacc : ∀ x, first ≤ x → x < last → (s x).isSome) (fuel : Nat) (hf : last - first ≤ fuel) :
    fill fuel s first last v =
      .ok (fun x => if first ≤ x ∧ x < last then some v else s x) := by
  have := fill_spec v (last - first) fuel s first hf (fun i hi => hacc _ (by omega) (by omega))
  rwa [show first + (last - first) = last by omega] at this

/-- The precondition `first ≤ last` is needed: on a reversed range the loop never
ends normally. -/
theorem C68_fill_reversed {α : Type} (s : Store α) (first last : Nat) (v : α) (h : last < first)
    (fuel : Nat) : ∀ s', fill fuel s first last v ≠ .ok s' := by
  induction fuel generalizing s first with
  | zero => intro s'; rw [fill, if_pos (by omega)]; simp
  | succ n ih =>
    intro s'
    rw [fill, if_pos (by omega)]
    cases hs : assign s first v with
    | ok s1 => simp only [Res.ok_bind]; exact ih s1 (first + 1) (by omega) s'
    | ub => simp
    | oof => simp

/-- C68, fill_n. -/
theorem C68_fill_n {α : Type} (s : Store α) (first : Nat) (count : BitVec 64) (v : α)
    (hacc : ∀ i, i < count.toNat → (s (first + i)).isSome) (fuel : Nat) (hf : count.toNat ≤ fuel) :
    fillN fuel s first count v =
      .ok (fun x => if first ≤ x ∧ x < first + count.toNat then some v else s x) := by
  induction fuel generalizing s first count with
  | zero =>
    have h0 : count.toNat = 0 := by omega
    rw [fillN, if_neg (by show ¬ (0#64).toNat < count.toNat; simp; omega)]
    congr 1; funext x; rw [if_neg (by omega)]
  | succ n ih =>
    rw [fillN]
    by_cases hc : count > 0#64
    · have hc' : 0 < count.toNat := by simpa [GT.gt, BitVec.lt_def] using hc
      rw [if_pos hc]
      obtain ⟨w, hw⟩ := Option.isSome_iff_exists.mp (hacc 0 (by omega))
      simp only [Nat.add_zero] at hw
      simp only [assign, hw, Res.ok_bind]
      have e : (count - 1).toNat = count.toNat - 1 := by
        rw [BitVec.toNat_sub_of_le (by rw [BitVec.le_def]; simp; omega)]; simp
      rw [ih _ _ _ (by
        intro i hi
        rw [e] at hi
        have := hacc (i + 1) (by omega)
        rw [if_neg (by omega)]
        rwa [show first + 1 + i = first + (i + 1) by omega]) (by omega)]
      rw [e]
      congr 1
      funext x
      by_cases h1 : x = first
      · subst h1; simp; omega
      · by_cases h2 : first + 1 ≤ x ∧ x < first + 1 + (count.toNat - 1)
        · rw [if_pos h2, if_pos (by omega)]
        · rw [if_neg h2, if_neg h1, if_neg (by omega)]
    · have hc' : count.toNat = 0 := by
        have : ¬ (0#64).toNat < count.toNat := hc
        simp at this; omega
      rw [if_neg hc]
      congr 1; funext x; rw [if_neg (by omega)]

/-- hypotheses of C68_fill and C68_fill_n: five assignable elements at 10..14 -/
example : (∀ x, 10 ≤ x → x < 15 → ((fun x => if 10 ≤ x ∧ x < 15 then some (0 : Nat) else none : Store Nat) x).isSome) ∧
    (∀ i, i < (5#64).toNat → ((fun x => if 10 ≤ x ∧ x < 15 then some (0 : Nat) else none : Store Nat) (10 + i)).isSome) := by
  constructor
  · intro x h1 h2; simp [h1, h2]
  · intro i h; simp at h; simp; omega

/-! ### C67 -/

/-- C67, positions: the `i`-th reverse iterator denotes the `i`-th element from
the back, for every sequence and position; indexing agrees. -/
theorem C67_deref_partial {α : Type} (l : List α) (i : Nat) (hi : i < l.length) :
    deref l ((rbegin l).add i) = .ok (l[l.length - 1 - i]) ∧
    (rbegin l).index l i = .ok (l[l.length - 1 - i]) := by
  have h : deref l ((rbegin l).add i) = .ok (l[l.length - 1 - i]) := by
    have e : ((l.length : Int) - i - 1).toNat = l.length - 1 - i := by omega
    simp only [deref, rbegin, RevIter.add]
    rw [dif_pos ⟨by omega, by omega⟩]
    simp only [e]
  exact ⟨h, h⟩

/-- Advancing `n` times. -/
def incs : Nat → RevIter → RevIter
  | 0, r => r
  | n + 1, r => incs n r.inc

/-- C67, traversal: `++` repeated from `rbegin()` visits exactly these positions,
`--` undoes `++`, `rend()` is reached after exactly `size` steps, and `==`/`!=`
tell positions apart. -/
theorem C67_traversal_partial {α : Type} (l : List α) :
    (∀ n, incs n (rbegin l) = (rbegin l).add n) ∧
    (∀ r : RevIter, r.inc.dec = r ∧ r.dec.inc = r ∧ ∀ n, (r.add n).sub n = r) ∧
    (∀ n, (incs n (rbegin l)).eq rend = true ↔ n = l.length) ∧
    (∀ n, (incs n (rbegin l)).ne rend = true ↔ n ≠ l.length) := by
  have h1 : ∀ n (r : RevIter), incs n r = r.add n := by
    intro n
    induction n with
    | zero => intro r; simp [incs, RevIter.add]
    | succ n ih => intro r; rw [incs, ih]; simp only [RevIter.add, RevIter.inc, RevIter.mk.injEq]; omega
  refine ⟨fun n => h1 n _, ?_, ?_, ?_⟩
  · rintro ⟨c⟩
    simp only [RevIter.inc, RevIter.dec, RevIter.add, RevIter.sub, RevIter.mk.injEq]
    refine ⟨by omega, by omega, fun n => by omega⟩
  · intro n
    rw [h1]; simp only [RevIter.eq, RevIter.add, rbegin, rend, decide_eq_true_eq]; omega
  · intro n
    rw [h1]; simp only [RevIter.ne, RevIter.add, rbegin, rend, decide_eq_true_eq]; omega

example : 1 < [10, 20, 30].length := by decide

/-- C67 fails: for every sequence with at least two elements the ordering is the
wrong way round — of two positions the *later* one compares less, with each of the
four operators. -/
theorem C67_order_violated {α : Type} (l : List α) (i j : Nat) (hij : i < j) (_hj : j ≤ l.length) :
    ((rbegin l).add i).lt ((rbegin l).add j) = false ∧
    ((rbegin l).add j).lt ((rbegin l).add i) = true ∧
    ((rbegin l).add i).le ((rbegin l).add j) = false ∧
    ((rbegin l).add j).le ((rbegin l).add i) = true ∧
    ((rbegin l).add i).gt ((rbegin l).add j) = true ∧
    ((rbegin l).add j).gt ((rbegin l).add i) = false ∧
    ((rbegin l).add i).ge ((rbegin l).add j) = true ∧
    ((rbegin l).add j).ge ((rbegin l).add i) = false := by
  simp only [RevIter.lt, RevIter.le, RevIter.gt, RevIter.ge, RevIter.add, rbegin,
    decide_eq_false_iff_not, decide_eq_true_eq]; omega

example : 0 < 1 ∧ 1 ≤ [10, 20].length := by decide

/-! ### C69 -/

/-- C69: with the constructors `fs` in the words `[start, start + fs.length)`,
`Init` terminates and calls exactly them, in order, each once. -/
theorem C69_global_ctors (tbl : CtorTable) (start : Nat) (fs : List Nat)
    (htbl : ∀ i (h : i < fs.length), tbl (start + i) = some fs[i]) (fuel : Nat)
    (hf : fs.length ≤ fuel) :
    init tbl (start + fs.length) fuel start [] = .ok fs := by
  suffices H : ∀ (fs : List Nat) (start fuel : Nat) (calls : List Nat), fs.length ≤ fuel →
      (∀ i (h : i < fs.length), tbl (start + i) = some fs[i]) →
      init tbl (start + fs.length) fuel start calls = .ok (calls ++ fs) by
    simpa using H fs start fuel [] hf htbl
  intro fs
  induction fs with
  | nil => intro start fuel calls _ _; cases fuel <;> simp [init]
  | cons f fs ih =>
    intro start fuel calls hf h
    obtain ⟨n, rfl⟩ : ∃ n, fuel = n + 1 := ⟨fuel - 1, by simp at hf; omega⟩
    have h0 := h 0 (by simp)
    simp only [Nat.add_zero, List.getElem_cons_zero] at h0
    rw [init, if_pos (by simp), h0]
    simp only [List.length_cons]
    rw [show start + (fs.length + 1) = start + 1 + fs.length by omega,
      ih (start + 1) n _ (by simpa using hf) (fun i hi => by
        have := h (i + 1) (by simpa using hi)
        simpa [Nat.add_assoc, Nat.add_comm 1] using this)]
    simp

/-- hypotheses of `C69_global_ctors` -/
example : ∀ i (h : i < [7, 9].length), (fun a => if a = 100 then some 7 else if a = 101 then some 9 else none : CtorTable) (100 + i) = some [7, 9][i] := by
  decide

end Verif.Props.Algorithm
