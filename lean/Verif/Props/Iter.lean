import Verif.Lemmas.Iter
set_option backward.isDefEq.respectTransparency false

/-!
C107: programs with iterators compute what they would compute with positions.
-/

namespace Verif.IterSpec
open Verif Verif.Iter

/-! ### Examples -/

/-- Example: a container of five elements (all containers have five). -/
def exLen : Nat → Nat := fun _ => 5

/-- Example: the elements of container `a` are `10a`, `10a + 1`, … -/
def exMem : Nat → Nat → Int := fun a i => 10 * a + i

/-- Example: the first element of a deque has index 3. -/
def exStart : Nat → Nat := fun _ => 3

/-- Example: copy the first half of a container mirrored onto the second half, with two iterators
that meet: `x = begin; y = end; while (x != y) { --y; if (x != y) { *y = *x; ++x; } }`, then
output everything. -/
def mirror : Prog :=
  .seq (.first 0 7) (.seq (.past 1 7) (.seq
    (.loop .ne 0 1 (.seq (.preDec 1) (.ite .ne 0 1 (.seq (.store 1 0) (.preInc 0)) .skip)))
    (through .ne 7)))

/-- Example: with ordering, difference, `[]` and `n + it`:
`x = begin; y = 3 + x; output(y - x); while (x < y) { output(x[1]); x += 2; }` -/
def strides : Prog :=
  .seq (.first 0 7) (.seq (.addLeft 1 3 0) (.seq (.diff 1 0)
    (.loop .lt 0 1 (.seq (.loadAt 0 1) (.addEq 0 2)))))

/-- The output of a run. -/
def outOf {I : Type} : Res (St I) → Option (List Int)
  | .ok s => some s.out
  | _ => none

/-! ### C107 -/

/-- **C107** (iterators of vectors). Whatever operators a program uses, it has the same effects,
the same output, ends or runs on, and is undefined in the same cases as if its iterators were
positions. -/
theorem C107_normal (len : Nat → Nat) (p : Prog) (f : Nat) (mem : Nat → Nat → Int) :
    robs (run (normal len) f p (init (normal len) mem)) =
      robs (run (spec len false) f p (init (spec len false) mem)) := by
  have hc : p.Compiles (normal len) := by
    induction p with
    | seq p q hp hq => exact ⟨hp, hq⟩
    | ite c x y p q hp hq => exact ⟨rfl, hp, hq⟩
    | loop c x y p hp => exact ⟨rfl, hp⟩
    | addLeft | loadAt | storeAt | diff => rfl
    | _ => trivial
  have hg : CmpIn (fun _ => True) p := by
    induction p with
    | seq p q hp hq => exact ⟨hp hc.1, hq hc.2⟩
    | ite c x y p q hp hq => exact ⟨trivial, hp hc.2.1, hq hc.2.2⟩
    | loop c x y p hp => exact ⟨trivial, hp hc.2⟩
    | _ => trivial
  exact agree_robs (sim_run (normal_sim len) f p _ _ hc hg (init_rel (normal_sim len) mem))
    fun _ => trivial

example : outOf (run (normal exLen) 30 strides (init (normal exLen) exMem)) = some [73, 71, 3] := by
  decide +kernel
example : outOf (run (normal exLen) 30 mirror (init (normal exLen) exMem)) =
    some [70, 71, 72, 71, 70] := by
  decide +kernel
-- one step too far is undefined in both
example : outOf (run (normal exLen) 30 (.seq (.past 0 7) (.preInc 0)) (init (normal exLen) exMem)) =
    none := by
  decide +kernel

/-- **C107** (which programs compile). Iterators of vectors have all operators; reverse iterators
have no difference and no `n + it`; iterators of deques have no `[]`, no `n + it` and no order. -/
theorem C107_compiles (len start : Nat → Nat) (p : Prog) :
    p.Compiles (normal len) ∧
    (p.Compiles (reverse len) ↔ NoDiff p ∧ NoLeft p) ∧
    (p.Compiles (deque len start) ↔ NoIndex p ∧ NoLeft p ∧ Unordered p) := by
  induction p with
  | seq p q hp hq =>
    obtain ⟨hp1, hp2, hp3⟩ := hp
    obtain ⟨hq1, hq2, hq3⟩ := hq
    refine ⟨⟨hp1, hq1⟩, ?_, ?_⟩
    · simp only [Prog.Compiles, NoDiff, NoLeft, hp2, hq2]
      exact ⟨fun h => ⟨⟨h.1.1, h.2.1⟩, h.1.2, h.2.2⟩, fun h => ⟨⟨h.1.1, h.2.1⟩, h.1.2, h.2.2⟩⟩
    · simp only [Prog.Compiles, NoIndex, NoLeft, Unordered, hp3, hq3]
      exact ⟨fun h => ⟨⟨h.1.1, h.2.1⟩, ⟨h.1.2.1, h.2.2.1⟩, h.1.2.2, h.2.2.2⟩,
        fun h => ⟨⟨h.1.1, h.2.1.1, h.2.2.1⟩, h.1.2, h.2.1.2, h.2.2.2⟩⟩
  | ite c x y p q hp hq =>
    obtain ⟨hp1, hp2, hp3⟩ := hp
    obtain ⟨hq1, hq2, hq3⟩ := hq
    refine ⟨⟨rfl, hp1, hq1⟩, ?_, ?_⟩
    · simp only [Prog.Compiles, NoDiff, NoLeft, hp2, hq2]
      exact ⟨fun h => ⟨⟨h.2.1.1, h.2.2.1⟩, h.2.1.2, h.2.2.2⟩,
        fun h => ⟨rfl, ⟨h.1.1, h.2.1⟩, h.1.2, h.2.2⟩⟩
    · have hcmp : (((deque len start).cmp c).isSome = true) ↔ (c = .eq ∨ c = .ne) := by
        cases c <;> simp [deque]
      simp only [Prog.Compiles, NoIndex, NoLeft, Unordered, hp3, hq3, hcmp]
      exact ⟨fun h => ⟨⟨h.2.1.1, h.2.2.1⟩, ⟨h.2.1.2.1, h.2.2.2.1⟩, h.1, h.2.1.2.2, h.2.2.2.2⟩,
        fun h => ⟨h.2.2.1, ⟨h.1.1, h.2.1.1, h.2.2.2.1⟩, h.1.2, h.2.1.2, h.2.2.2.2⟩⟩
  | loop c x y p hp =>
    obtain ⟨hp1, hp2, hp3⟩ := hp
    refine ⟨⟨rfl, hp1⟩, ?_, ?_⟩
    · simp only [Prog.Compiles, NoDiff, NoLeft, hp2]
      exact ⟨fun h => h.2, fun h => ⟨rfl, h⟩⟩
    · have hcmp : (((deque len start).cmp c).isSome = true) ↔ (c = .eq ∨ c = .ne) := by
        cases c <;> simp [deque]
      simp only [Prog.Compiles, NoIndex, NoLeft, Unordered, hp3, hcmp]
      exact ⟨fun h => ⟨h.2.1, h.2.2.1, h.1, h.2.2.2⟩, fun h => ⟨h.2.2.1, h.1, h.2.1, h.2.2.2⟩⟩
  | _ => simp [Prog.Compiles, NoDiff, NoLeft, NoIndex, Unordered, normal, reverse, deque]

example : mirror.Compiles (reverse exLen) ∧ mirror.Compiles (deque exLen exStart) := by
  refine ⟨(C107_compiles exLen exStart mirror).2.1.mpr ?_,
    (C107_compiles exLen exStart mirror).2.2.mpr ?_⟩ <;>
    simp [mirror, through, NoDiff, NoLeft, NoIndex, Unordered]
example : ¬ strides.Compiles (reverse exLen) ∧ ¬ strides.Compiles (deque exLen exStart) := by
  refine ⟨fun h => ?_, fun h => ?_⟩
  · have := (C107_compiles exLen exStart strides).2.1.mp h
    simp [strides, NoLeft, NoDiff] at this
  · have := (C107_compiles exLen exStart strides).2.2.mp h
    simp [strides, NoLeft, NoIndex] at this

/-- **C107** (reverse iterators; partial). A program with reverse iterators that compiles and
compares only with `==` and `!=` does exactly what it would do with positions counted from the
back. Missing: the order (`C107_violated_order`), and the operators that do not exist
(`C107_compiles`). -/
theorem C107_reverse_partial (len : Nat → Nat) (p : Prog) (hd : NoDiff p) (hl : NoLeft p)
    (hu : Unordered p) (f : Nat) (mem : Nat → Nat → Int) :
    robs (run (reverse len) f p (init (reverse len) mem)) =
      robs (run (spec len true) f p (init (spec len true) mem)) := by
  have hc := (C107_compiles len len p).2.1.mpr ⟨hd, hl⟩
  have hg : CmpIn (fun c => c = .eq ∨ c = .ne) p := by
    clear hc hd hl
    induction p with
    | seq p q hp hq => exact ⟨hp hu.1, hq hu.2⟩
    | ite c x y p q hp hq => exact ⟨hu.1, hp hu.2.1, hq hu.2.2⟩
    | loop c x y p hp => exact ⟨hu.1, hp hu.2⟩
    | _ => trivial
  exact agree_robs (sim_run (reverse_sim len) f p _ _ hc hg (init_rel (reverse_sim len) mem))
    fun _ => trivial

example : NoDiff mirror ∧ NoLeft mirror ∧ Unordered mirror ∧
    outOf (run (reverse exLen) 30 mirror (init (reverse exLen) exMem)) =
      some [74, 73, 72, 73, 74] := by
  refine ⟨?_, ?_, ?_, by decide +kernel⟩ <;>
    simp [mirror, through, NoDiff, NoLeft, Unordered]

/-- **C107** (iterators of deques; partial). A program with iterators of deques that are not empty,
if it compiles, does what it would do with positions, unless that is undefined. Missing: empty
deques (`C107_violated_empty`), and the operators that do not exist (`C107_compiles`). -/
theorem C107_deque_partial (len start : Nat → Nat)
    (hf : ∀ a, 0 < len a ∧ start a + len a < 2 ^ 63) (p : Prog) (hi : NoIndex p) (hl : NoLeft p)
    (hu : Unordered p) (f : Nat) (mem : Nat → Nat → Int)
    (hd : run (spec len false) f p (init (spec len false) mem) ≠ .ub) :
    robs (run (deque len start) f p (init (deque len start) mem)) =
      robs (run (spec len false) f p (init (spec len false) mem)) := by
  have hc := (C107_compiles len start p).2.2.mpr ⟨hi, hl, hu⟩
  have hg : CmpIn (fun _ => True) p := by
    clear hc hi hl hd
    induction p with
    | seq p q hp hq => exact ⟨hp hu.1, hq hu.2⟩
    | ite c x y p q hp hq => exact ⟨trivial, hp hu.2.1, hq hu.2.2⟩
    | loop c x y p hp => exact ⟨trivial, hp hu.2⟩
    | _ => trivial
  exact agree_robs (sim_run (deque_sim hf) f p _ _ hc hg (init_rel (deque_sim hf) mem))
    fun e => (hd e).elim

example : (∀ a, 0 < exLen a ∧ exStart a + exLen a < 2 ^ 63) ∧ NoIndex mirror ∧ NoLeft mirror ∧
    Unordered mirror ∧
    outOf (run (spec exLen false) 30 mirror (init (spec exLen false) exMem)) =
      some [70, 71, 72, 71, 70] ∧
    outOf (run (deque exLen exStart) 30 mirror (init (deque exLen exStart) exMem)) =
      some [70, 71, 72, 71, 70] := by
  refine ⟨fun a => ⟨?_, ?_⟩, ?_, ?_, ?_, by decide +kernel, by decide +kernel⟩
  · show 0 < 5; decide
  · show 3 + 5 < 2 ^ 63; decide
  all_goals simp [mirror, through, NoIndex, NoLeft, Unordered]

/-- **C107** (going through a container). The loop from `begin()` to `end()` outputs every element
once: vectors and deques that are not empty from the front, reverse iterators from the back. -/
theorem C107_through (len start : Nat → Nat) (a : Nat) (mem : Nat → Nat → Int) (f : Nat)
    (hf : len a + 5 ≤ f) :
    robs (run (normal len) f (through .ne a) (init (normal len) mem)) =
      .ok (mem, ((List.range (len a)).map (mem a)).reverse) ∧
    robs (run (normal len) f (through .lt a) (init (normal len) mem)) =
      .ok (mem, ((List.range (len a)).map (mem a)).reverse) ∧
    robs (run (reverse len) f (through .ne a) (init (reverse len) mem)) =
      .ok (mem, (List.range (len a)).map (mem a)) ∧
    ((∀ a, 0 < len a ∧ start a + len a < 2 ^ 63) →
      robs (run (deque len start) f (through .ne a) (init (deque len start) mem)) =
        .ok (mem, ((List.range (len a)).map (mem a)).reverse)) := by
  obtain ⟨g, rfl⟩ : ∃ g, f = len a + 5 + g := ⟨f - (len a + 5), by omega⟩
  have hsp : ∀ c, (c = .ne ∨ c = .lt) → robs (run (spec len false) (len a + 5 + g) (through c a)
      (init (spec len false) mem)) = .ok (mem, ((List.range (len a)).map (mem a)).reverse) := by
    intro c hc
    rw [spec_through len false a c hc g mem]
    simp only [place, Bool.false_eq_true, if_false, Int.toNat_natCast]
  refine ⟨?_, ?_, ?_, ?_⟩
  · rw [C107_normal, hsp .ne (.inl rfl)]
  · rw [C107_normal, hsp .lt (.inr rfl)]
  · rw [C107_reverse_partial len _ (by simp [through, NoDiff]) (by simp [through, NoLeft])
      (by simp [through, Unordered]), spec_through len true a .ne (.inl rfl) g mem]
    congr 2
    apply List.ext_getElem
    · simp
    · intro i h1 h2
      simp only [List.length_reverse, List.length_map, List.length_range] at h1
      simp only [List.getElem_reverse, List.getElem_map, List.getElem_range, List.length_map,
        List.length_range, place, if_true]
      congr 1
      omega
  · intro hd
    rw [C107_deque_partial len start hd _ (by simp [through, NoIndex]) (by simp [through, NoLeft])
      (by simp [through, Unordered]), hsp .ne (.inl rfl)]
    intro e
    have := hsp .ne (.inl rfl)
    rw [e] at this
    cases this

example : outOf (run (reverse exLen) 10 (through .ne 4) (init (reverse exLen) exMem)) =
    some [40, 41, 42, 43, 44] := by
  decide +kernel

/-- **C107 is violated** by the order of reverse iterators: for every container that is not empty,
the loop `for (x = rbegin(); x < rend(); ++x)` does not output anything, while the loop over
positions outputs all elements. -/
theorem C107_violated_order (len : Nat → Nat) (a : Nat) (ha : 0 < len a) (mem : Nat → Nat → Int)
    (f : Nat) (hf : len a + 5 ≤ f) :
    robs (run (reverse len) f (through .lt a) (init (reverse len) mem)) = .ok (mem, []) ∧
    robs (run (spec len true) f (through .lt a) (init (spec len true) mem)) =
      .ok (mem, (List.range (len a)).map (mem a)) ∧
    (List.range (len a)).map (mem a) ≠ [] := by
  obtain ⟨g, rfl⟩ : ∃ g, f = len a + 5 + g := ⟨f - (len a + 5), by omega⟩
  refine ⟨?_, ?_, fun e => ?_⟩
  · rw [show len a + 5 + g = (len a + 2 + g) + 3 by omega, run_through]
    rw [run_loop _ _ _ _ _ _ _ (g := pcmp .lt) (b := false) rfl]
    · rfl
    · show pcmp .lt ⟨a, len a⟩ ⟨a, 0⟩ = .ok false
      unfold pcmp
      rw [require_bind, if_pos (by simp)]
      simp only [Cmp.on, Res.ok.injEq, decide_eq_false_iff_not]
      omega
  · rw [spec_through len true a .lt (.inr rfl) g mem]
    congr 2
    apply List.ext_getElem
    · simp
    · intro i h1 h2
      simp only [List.length_reverse, List.length_map, List.length_range] at h1
      simp only [List.getElem_reverse, List.getElem_map, List.getElem_range, List.length_map,
        List.length_range, place, if_true]
      congr 1
      omega
  · have := congrArg List.length e
    simp only [List.length_map, List.length_range, List.length_nil] at this
    omega

example : 0 < exLen 7 ∧
    outOf (run (spec exLen true) 10 (through .lt 7) (init (spec exLen true) exMem)) =
      some [70, 71, 72, 73, 74] ∧
    outOf (run (reverse exLen) 10 (through .lt 7) (init (reverse exLen) exMem)) = some [] := by
  decide +kernel

/-- **C107 is violated** by empty deques: going through one is undefined, while going through no
positions outputs nothing. -/
theorem C107_violated_empty (len start : Nat → Nat) (a : Nat) (ha : len a = 0)
    (hs : start a < 2 ^ 63) (mem : Nat → Nat → Int) (f : Nat) (hf : 5 ≤ f) :
    run (deque len start) f (through .ne a) (init (deque len start) mem) = .ub ∧
    robs (run (spec len false) f (through .ne a) (init (spec len false) mem)) = .ok (mem, []) := by
  obtain ⟨g, rfl⟩ : ∃ g, f = len a + 5 + g := ⟨f - (len a + 5), by omega⟩
  constructor
  · rw [show len a + 5 + g = (len a + g + 2) + 3 by omega, run_through]
    have hne : BitVec.ofNat 64 (start a) ≠ BitVec.ofNat 64 (start a + 1) := by
      intro e
      have := congrArg BitVec.toNat e
      simp only [BitVec.toNat_ofNat] at this
      omega
    have hd : dderef len start ⟨a, BitVec.ofNat 64 (start a)⟩ = .ub := by
      unfold dderef
      rw [require_bind, if_neg]
      simp only [decide_eq_true_eq, ha]
      omega
    have hb : ∀ h s, s.var 0 = (⟨a, BitVec.ofNat 64 (start a)⟩ : DIt) →
        run (deque len start) (h + 2) (.seq (.load 0) (.preInc 0)) s = .ub := by
      intro h s e
      show (dderef len start (s.var 0) >>= fun r => _) >>= _ = _
      rw [e, hd]; rfl
    rw [run_loop _ _ _ _ _ _ _ (b := true) rfl]
    · rw [if_pos rfl, hb _ _ rfl]
      rfl
    · show Res.ok (!decide (a = a ∧ BitVec.ofNat 64 (start a) =
        BitVec.ofNat 64 (start a + (len a - 1) + 1))) = _
      rw [ha]
      simp only [Nat.zero_sub, Nat.add_zero, true_and, hne, decide_false, Bool.not_false]
  · have := spec_through len false a .ne (.inl rfl) g mem
    rw [this, ha]
    rfl

example : outOf (run (deque (fun _ => 0) exStart) 10 (through .ne 7)
      (init (deque (fun _ => 0) exStart) exMem)) = none ∧
    outOf (run (spec (fun _ => 0) false) 10 (through .ne 7)
      (init (spec (fun _ => 0) false) exMem)) = some [] := by
  decide +kernel

end Verif.IterSpec
