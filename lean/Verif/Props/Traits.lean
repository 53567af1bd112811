import Verif.Model.Traits

/-! Properties C15 and C70: variadic metaprograms and tuples. -/

namespace Verif.Props.Traits
open Verif.Traits

/-- C15, disjunction: true exactly if some trait is true. -/
theorem C15_disjunction (ts : List Bool) : disconjunction_v ts = true ↔ ∃ t ∈ ts, t = true := by
  unfold disconjunction_v
  fun_induction or_ ts with
  | case1 => simp
  | case2 t => simp
  | case3 t1 t2 => cases t1 <;> simp [conditional]
  | case4 t1 t2 t3 args ih => cases t1 <;> simp_all [conditional]

/-- C15, negation. -/
theorem C15_not (t : Bool) : not_ t = true ↔ t = false := by cases t <;> simp [not_]

/-- C15 fails for conjunction: `conjunction_v<true_type, false_type>` is true. -/
theorem C15_conjunction_violated :
    ∃ ts : List Bool, conjunction_v ts = true ∧ ∃ t ∈ ts, t = false :=
  ⟨[true, false], by decide, false, by simp, rfl⟩

/-- What the conjunction template computes on every list: true on the empty
list, otherwise a *disjunction*. -/
theorem C15_conjunction_actual_partial (ts : List Bool) :
    conjunction_v ts = true ↔ ts = [] ∨ ∃ t ∈ ts, t = true := by
  unfold conjunction_v
  fun_induction and_ ts with
  | case1 => simp
  | case2 t => simp
  | case3 t1 t2 => cases t1 <;> simp [conditional]
  | case4 t1 t2 t3 args ih => cases t1 <;> simp_all [conditional]

/-- C15, the part of the conjunction claim that holds: if every trait is true the
result is true; and the claim holds exactly if there are at most no, or only
equal, trait values. (Missing: mixed lists, where it is false.) -/
theorem C15_conjunction_partial (ts : List Bool) :
    (conjunction_v ts = true ↔ ∀ t ∈ ts, t = true) ↔ ¬ (true ∈ ts ∧ false ∈ ts) := by
  rw [C15_conjunction_actual_partial]
  by_cases ht : true ∈ ts
  · by_cases hf : false ∈ ts
    · have : ¬ ∀ t ∈ ts, t = true := fun h => absurd (h false hf) (by simp)
      simp only [ht, hf, this, iff_false, and_self, not_true]
      intro h; exact h (Or.inr ⟨true, ht, rfl⟩)
    · have h1 : ∀ t ∈ ts, t = true := fun t h => by cases t with
        | true => rfl
        | false => exact absurd h hf
      simp only [hf, and_false, not_false_eq_true, iff_true]
      exact ⟨fun _ => h1, fun _ => Or.inr ⟨true, ht, rfl⟩⟩
  · simp only [ht, false_and, not_false_eq_true, iff_true]
    constructor
    · rintro (h | ⟨t, h, h'⟩)
      · subst h; simp
      · subst h'; exact absurd h ht
    · intro h
      cases ts with
      | nil => exact Or.inl rfl
      | cons t ts =>
        have := h t (by simp)
        subst this; exact absurd (by simp) ht

example : ¬ (true ∈ [true, true, true] ∧ false ∈ [true, true, true]) := by decide

private theorem seqHelper_eq : ∀ n (is : List Nat), seqHelper n is = List.range n ++ is := by
  intro n
  induction n with
  | zero => intro is; simp [seqHelper]
  | succ n ih => intro is; simp [seqHelper, ih, List.range_succ]

/-- C70: `make_index_sequence<N>` is `0, 1, .., N-1`. -/
theorem C70_index_sequence (n : Nat) : makeIndexSequence n = List.range n := by
  simp [makeIndexSequence, seqHelper_eq]

private theorem nthType_eq {α : Type} : ∀ (ts : List α) (n i : Nat), n ≤ i →
    nthType n i ts = ts[i - n]? := by
  intro ts
  induction ts with
  | nil => intro n i _; simp [nthType]
  | cons t ts ih =>
    intro n i h
    simp only [nthType]
    split
    · rename_i e; subst e; simp
    · rw [ih (n + 1) i (by omega)]
      obtain ⟨k, rfl⟩ : ∃ k, i = n + (k + 1) := ⟨i - n - 1, by omega⟩
      have e1 : n + (k + 1) - (n + 1) = k := by omega
      have e2 : n + (k + 1) - n = k + 1 := by omega
      rw [e1, e2]; simp

/-- C70: `nth_type_t<I, Ts...>` is the `I`-th of `Ts` and ill-formed beyond. -/
theorem C70_nth_type {α : Type} (ts : List α) (i : Nat) : nth_type_t i ts = ts[i]? := by
  simp [nth_type_t, nthType_eq]

private theorem get_zip {α : Type} : ∀ (is : List Nat) (vs : List α) (i : Nat), is.Nodup →
    is.length = vs.length → ∀ k (hk : k < is.length), is[k] = i → tget i (is.zip vs) = vs[k]? := by
  intro is
  induction is with
  | nil => intro vs i _ _ k hk; simp at hk
  | cons j is ih =>
    intro vs i hnd hl k hk hi
    cases vs with
    | nil => simp at hl
    | cons v vs =>
      simp only [List.zip_cons_cons, tget]
      cases k with
      | zero => simp at hi; simp [hi]
      | succ k =>
        simp only [List.getElem_cons_succ] at hi
        have hne : j ≠ i := by
          intro h; subst h
          exact (List.nodup_cons.mp hnd).1 (hi ▸ List.getElem_mem _)
        rw [if_neg hne, ih vs i (List.nodup_cons.mp hnd).2 (by simpa using hl) k (by simpa using hk) hi]
        simp

/-- C70: `get<I>` of a tuple built from `vs` is the `I`-th value, for every index. -/
theorem C70_get {α : Type} (vs : List α) (i : Nat) (hi : i < vs.length) :
    tget i (mk vs) = some vs[i] := by
  unfold mk
  rw [C70_index_sequence, get_zip (List.range vs.length) vs i List.nodup_range (by simp) i (by simpa) (by simp)]
  simp [hi]

example : 2 < [10, 20, 30].length := by decide

private theorem get_put {α : Type} (i j : Nat) (v : α) (t : Tuple α) :
    tget j (put i v t) = if j = i ∧ (tget i t).isSome then some v else tget j t := by
  induction t with
  | nil => simp [put, tget]
  | cons p t ih =>
    obtain ⟨k, w⟩ := p
    simp only [put]
    by_cases hk : k = i
    · subst hk
      simp only [if_true, tget]
      by_cases hj : k = j
      · simp [hj]
      · have : ¬ j = k := fun h => hj h.symm
        simp [hj, this]
    · simp only [if_neg hk, tget, ih]
      by_cases hj : k = j
      · subst hj; simp [hk]
      · simp [hj]

private theorem keys_put {α : Type} (i : Nat) (v : α) (t : Tuple α) :
    (put i v t).map Prod.fst = t.map Prod.fst := by
  induction t with
  | nil => rfl
  | cons p t ih =>
    obtain ⟨k, w⟩ := p
    simp only [put]
    split <;> simp [ih]

private theorem swapAt_get {α : Type} (i : Nat) (a b : Tuple α) (ha : (tget i a).isSome)
    (hb : (tget i b).isSome) (j : Nat) :
    tget j (swapAt i (a, b)).1 = (if j = i then tget j b else tget j a) ∧
    tget j (swapAt i (a, b)).2 = (if j = i then tget j a else tget j b) := by
  obtain ⟨x, hx⟩ := Option.isSome_iff_exists.mp ha
  obtain ⟨y, hy⟩ := Option.isSome_iff_exists.mp hb
  simp only [swapAt, hx, hy, get_put, Option.isSome_some, and_true]
  constructor
  · by_cases h : j = i
    · subst h; simp [hy]
    · simp [h]
  · by_cases h : j = i
    · subst h; simp [hx]
    · simp [h]

private theorem swap_fold {α : Type} : ∀ (is : List Nat) (a b : Tuple α), is.Nodup →
    (∀ i ∈ is, (tget i a).isSome ∧ (tget i b).isSome) → ∀ j,
    tget j (is.foldl (fun p i => swapAt i p) (a, b)).1 = (if j ∈ is then tget j b else tget j a) ∧
    tget j (is.foldl (fun p i => swapAt i p) (a, b)).2 = (if j ∈ is then tget j a else tget j b) := by
  intro is
  induction is with
  | nil => intro a b _ _ j; simp
  | cons i is ih =>
    intro a b hnd h j
    have hi := h i (by simp)
    have hs := swapAt_get i a b hi.1 hi.2
    have hnd' := List.nodup_cons.mp hnd
    simp only [List.foldl_cons]
    have := ih (swapAt i (a, b)).1 (swapAt i (a, b)).2 hnd'.2 (by
      intro k hk
      have hki : k ≠ i := fun e => hnd'.1 (e ▸ hk)
      have hh := h k (by simp [hk])
      rw [(hs k).1, (hs k).2, if_neg hki, if_neg hki]; exact hh) j
    rw [show ((swapAt i (a, b)).1, (swapAt i (a, b)).2) = swapAt i (a, b) from rfl] at this
    rw [this.1, this.2, (hs j).1, (hs j).2]
    by_cases e : j = i
    · subst e; simp [hnd'.1]
    · simp [e]

/-- C70: swapping two tuples of the same types exchanges all components. -/
theorem C70_swap {α : Type} (vs ws : List α) (hl : vs.length = ws.length) (i : Nat)
    (hi : i < vs.length) :
    tget i (swap vs.length (mk vs) (mk ws)).1 = some ws[i] ∧
    tget i (swap vs.length (mk vs) (mk ws)).2 = some vs[i] := by
  have h := swap_fold (List.range vs.length) (mk vs) (mk ws) List.nodup_range (by
    intro k hk
    have hk := List.mem_range.mp hk
    rw [C70_get vs k hk, C70_get ws k (by omega)]; simp) i
  rw [swap, C70_index_sequence, h.1, h.2, if_pos (List.mem_range.mpr hi),
    if_pos (List.mem_range.mpr hi), C70_get vs i hi, C70_get ws i (by omega)]
  exact ⟨rfl, rfl⟩

example : [1, 2, 3].length = [4, 5, 6].length ∧ 1 < [1, 2, 3].length := by decide

end Verif.Props.Traits
