import Verif.Model.IrqGuard

/-! Property C54: interrupt guards. -/

set_option backward.isDefEq.respectTransparency false

namespace Verif.IrqGuard

theorem ifSet_cli (f : RFlags) : ifSet (cli f) = false := by
  simp only [ifSet, cli, BitVec.getLsbD_and]
  rw [show (~~~0x200 : BitVec 64).getLsbD 9 = false by decide, Bool.and_false]

theorem ifSet_restore (f : RFlags) : ifSet (enableHwint (pushfq f)) = ifSet f := by
  simp only [ifSet, enableHwint, popfq, pushfq, BitVec.getLsbD_and, BitVec.getLsbD_or]
  rw [show (0xFCFFFF : BitVec 64).getLsbD 9 = true by decide, show (0x247FD5 : BitVec 64).getLsbD 9 = true by decide,
    show (2 : BitVec 64).getLsbD 9 = false by decide]
  simp

theorem run_final (p : Prog) (hp : p.Ordinary) (d : Nat) (f : RFlags) : ifSet (p.run d f).1 = ifSet f := by
  induction p generalizing d f with
  | op e => exact hp f
  | skip => rfl
  | seq a b iha ihb =>
    simp only [Prog.run]
    rw [ihb hp.2, iha hp.1]
  | guard body _ => exact ifSet_restore f

theorem run_obs (p : Prog) (hp : p.Ordinary) (d : Nat) (f : RFlags) :
    ∀ x ∈ (p.run d f).2, d ≤ x.1 ∧ (ifSet x.2 = if x.1 = d then ifSet f else false) ∧
      (ifSet f = false → ifSet x.2 = false) := by
  induction p generalizing d f with
  | op e => intro x hx; simp [Prog.run] at hx; subst hx; simp
  | skip => intro x hx; simp [Prog.run] at hx
  | seq a b iha ihb =>
    intro x hx
    simp only [Prog.run, List.mem_append] at hx
    rcases hx with hx | hx
    · exact iha hp.1 d f x hx
    · have := ihb hp.2 d _ x hx
      rwa [run_final a hp.1] at this
  | guard body ih =>
    intro x hx
    have := ih hp (d + 1) (cli f) x hx
    refine ⟨by omega, ?_, fun _ => this.2.2 (ifSet_cli f)⟩
    rw [this.2.2 (ifSet_cli f), if_neg (by omega)]

/-- C54. For every nesting of guards: inside any guard interrupts are disabled at every
operation (including after an inner guard has ended); outside all guards, and at the
end, the interrupt flag is what it was before. -/
theorem C54_guard (p : Prog) (hp : p.Ordinary) (f : RFlags) :
    ifSet (p.run 0 f).1 = ifSet f ∧
      ∀ depth g, (depth, g) ∈ (p.run 0 f).2 → ifSet g = if depth = 0 then ifSet f else false :=
  ⟨run_final p hp 0 f, fun depth g h => (run_obs p hp 0 f (depth, g) h).2.1⟩

/-- `g1 { op; g2 { op }; op }; op` with interrupts on at the start: the third operation
runs with interrupts off although the inner guard has ended. -/
example : ((Prog.seq (.guard (.seq (.op id) (.seq (.guard (.op (· ||| 1))) (.op id)))) (.op id)).run 0 0x202).2.map
      (fun x => (x.1, ifSet x.2)) = [(1, false), (2, false), (1, false), (0, true)] ∧
    Prog.Ordinary (.seq (.guard (.seq (.op id) (.seq (.guard (.op (· ||| 1))) (.op id)))) (.op id)) := by
  refine ⟨by decide, ⟨fun _ => rfl, ⟨fun f => ?_, fun _ => rfl⟩⟩, fun _ => rfl⟩
  simp only [ifSet, BitVec.getLsbD_or]
  rw [show (1 : BitVec 64).getLsbD 9 = false by decide, Bool.or_false]

/-- C54, a guard restores more than IF: all arithmetic flags, DF, TF, IOPL, NT, AC, ID
come back as they were; and `EnabledIrq` reads IF. -/
theorem C54_flags (body : Prog) (d : Nat) (f : RFlags) (k : Nat) (hk : (0x247FD5 : BitVec 64).getLsbD k = true) :
    ((Prog.guard body).run d f).1.getLsbD k = f.getLsbD k ∧ (enabledIrq f = ifSet f) := by
  constructor
  · simp only [Prog.run, disableHwint, enableHwint, popfq, pushfq, BitVec.getLsbD_and, BitVec.getLsbD_or, hk]
    have hlt : k < 64 := by
      rcases Nat.lt_or_ge k 64 with h | h
      · exact h
      · rw [BitVec.getLsbD_of_ge _ _ h] at hk; exact absurd hk (by decide)
    have : ∀ k : Fin 64, (0x247FD5 : BitVec 64).getLsbD k = true →
        (0xFCFFFF : BitVec 64).getLsbD k = true ∧ (2 : BitVec 64).getLsbD k = false := by decide
    obtain ⟨h1, h2⟩ := this ⟨k, hlt⟩ hk
    simp only at h1 h2
    rw [h1, h2]; simp
  · simp only [enabledIrq, ifSet]
    have e : pushfq f &&& 0x200 = if f.getLsbD 9 then 0x200 else 0 := by
      apply BitVec.eq_of_getLsbD_eq
      intro i hi
      simp only [pushfq, BitVec.getLsbD_and]
      have h3 : ∀ i : Fin 64, (0x200 : BitVec 64).getLsbD i = decide (i.val = 9) ∧
          (0 : BitVec 64).getLsbD i = false ∧ (i.val = 9 → (0xFCFFFF : BitVec 64).getLsbD i = true) := by decide
      obtain ⟨a1, a2, a3⟩ := h3 ⟨i, hi⟩
      simp only at a1 a2 a3
      by_cases c : i = 9
      · subst c
        rw [a1, a3 rfl]
        cases hf : f.getLsbD 9 <;> simp
      · rw [a1]
        cases hf : f.getLsbD 9
        · simpa [c] using a2
        · rw [if_pos rfl, a1]; simp [c]
    rw [e]
    cases f.getLsbD 9 <;> decide

example : ((Prog.guard (.op (fun _ => 0))).run 0 0xED7).1 = 0xED7 := by decide

end Verif.IrqGuard
