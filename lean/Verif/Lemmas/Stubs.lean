import Verif.Model.Stubs

/-! Stack slots, sequences of pushes and pops. -/

set_option backward.isDefEq.respectTransparency false

namespace Verif.Stubs

/-- The `k`-th word below `t`. -/
def slot (t : W) (k : Nat) : W := t - BitVec.ofNat 64 (8 * k)

theorem slot_zero (t : W) : slot t 0 = t := by simp [slot]

theorem slot_inj {t : W} {j k : Nat} (hj : j < 2 ^ 60) (hk : k < 2 ^ 60) (h : slot t j = slot t k) : j = k := by
  have := congrArg BitVec.toNat h
  simp only [slot, BitVec.toNat_sub, BitVec.toNat_ofNat] at this
  have := t.isLt
  omega

theorem slot_down (t : W) (k : Nat) : slot t k - 8 = slot t (k + 1) := by
  apply BitVec.eq_of_toNat_eq
  simp only [slot, BitVec.toNat_sub, BitVec.toNat_ofNat]
  have := t.isLt
  simp
  omega

theorem slot_up (t : W) (k i : Nat) (h : i ≤ k) : slot t k + BitVec.ofNat 64 (8 * i) = slot t (k - i) := by
  apply BitVec.eq_of_toNat_eq
  simp only [slot, BitVec.toNat_sub, BitVec.toNat_add, BitVec.toNat_ofNat]
  have := t.isLt
  omega

theorem slot_up1 (t : W) (k : Nat) (h : 1 ≤ k) : slot t k + 8 = slot t (k - 1) := slot_up t k 1 h

def pushes (s : Cpu) (vs : List W) : Cpu := vs.foldl push s

theorem pushes_spec (t : W) (vs : List W) (s : Cpu) (k : Nat) (hs : s.rsp = slot t k) (hk : k + vs.length < 2 ^ 60) :
    (pushes s vs).rsp = slot t (k + vs.length) ∧
    (∀ i (h : i < vs.length), (pushes s vs).mem (slot t (k + 1 + i)) = vs[i]) ∧
    (∀ j, j ≤ k → (pushes s vs).mem (slot t j) = s.mem (slot t j)) ∧
    (∀ a, (∀ j, k < j → j ≤ k + vs.length → a ≠ slot t j) → (pushes s vs).mem a = s.mem a) := by
  induction vs generalizing s k with
  | nil => exact ⟨hs, by simp, fun _ _ => rfl, fun _ _ => rfl⟩
  | cons v vs ih =>
    simp only [List.length_cons] at hk
    have h1 : (push s v).rsp = slot t (k + 1) := by simp only [push, hs, slot_down]
    have hm : (push s v).mem = upd s.mem (slot t (k + 1)) v := by simp only [push, hs, slot_down]
    obtain ⟨a1, a2, a3, a4⟩ := ih (push s v) (k + 1) h1 (by omega)
    refine ⟨?_, ?_, ?_, ?_⟩
    · rw [show k + (v :: vs).length = k + 1 + vs.length by simp; omega]; exact a1
    · intro i hi
      cases i with
      | zero =>
        have := a3 (k + 1) (Nat.le_refl _)
        rw [hm] at this
        simpa [upd, pushes] using this
      | succ i =>
        have := a2 i (by simpa using hi)
        rw [show k + 1 + (i + 1) = k + 1 + 1 + i by omega]
        exact this
    · intro j hj
      have := a3 j (by omega)
      rw [hm] at this
      simp only [pushes, List.foldl_cons] at this ⊢
      rw [this, upd, if_neg (fun h => by have := slot_inj (by omega) (by omega) h; omega)]
    · intro a ha
      have := a4 a (fun j h1 h2 => ha j (by omega) (by simp only [List.length_cons]; omega))
      simp only [pushes, List.foldl_cons] at this ⊢
      rw [this, hm, upd, if_neg (ha (k + 1) (by omega) (by simp))]

/-- Registers other than those popped keep their values; memory is not changed. -/
theorem pops_spec (t : W) (rs : List Reg) (hd : rs.Nodup) (s : Cpu) (k : Nat) (hs : s.rsp = slot t (k + rs.length)) :
    (exec s (rs.map .pop)).rsp = slot t k ∧
    (∀ i (h : i < rs.length), (exec s (rs.map .pop)).gpr rs[i] = s.mem (slot t (k + rs.length - i))) ∧
    (∀ r, r ∉ rs → (exec s (rs.map .pop)).gpr r = s.gpr r) ∧
    (exec s (rs.map .pop)).mem = s.mem ∧ (exec s (rs.map .pop)).ds = s.ds ∧ (exec s (rs.map .pop)).es = s.es ∧
    (exec s (rs.map .pop)).fs = s.fs ∧ (exec s (rs.map .pop)).gs = s.gs := by
  induction rs generalizing s with
  | nil => exact ⟨hs, by simp, fun _ _ => rfl, rfl, rfl, rfl, rfl, rfl⟩
  | cons r rs ih =>
    simp only [List.nodup_cons] at hd
    have h1 : (pop s r).rsp = slot t (k + rs.length) := by
      simp only [pop, hs]
      rw [slot_up1 _ _ (by simp only [List.length_cons]; omega)]
      congr 1
    obtain ⟨a1, a2, a3, a4, a5, a6, a7, a8⟩ := ih hd.2 (pop s r) h1
    have e : exec s ((r :: rs).map .pop) = exec (pop s r) (rs.map .pop) := rfl
    rw [e]
    refine ⟨a1, ?_, ?_, a4, a5, a6, a7, a8⟩
    · intro i hi
      cases i with
      | zero =>
        simp only [List.getElem_cons_zero]
        rw [a3 r hd.1]
        simp only [pop, setReg, if_true, hs, Nat.sub_zero]
      | succ i =>
        simp only [List.getElem_cons_succ]
        rw [a2 i (by simpa using hi)]
        simp only [List.length_cons]
        rw [show k + (rs.length + 1) - (i + 1) = k + rs.length - i by omega]
        rfl
    · intro x hx
      simp only [List.mem_cons, not_or] at hx
      rw [a3 x hx.2]
      simp only [pop, setReg, hx.1, if_false]

theorem pushes_gpr (s : Cpu) (vs : List W) : (pushes s vs).gpr = s.gpr := by
  induction vs generalizing s with
  | nil => rfl
  | cons v vs ih => exact ih (push s v)

theorem pushes_append (s : Cpu) (a b : List W) : pushes s (a ++ b) = pushes (pushes s a) b := by
  simp [pushes]

theorem exec_append (s : Cpu) (a b : List Instr) : exec s (a ++ b) = exec (exec s a) b := by
  simp [exec]

theorem exec_pushes (rs : List Reg) (s : Cpu) : exec s (rs.map .push) = pushes s (rs.map s.gpr) := by
  induction rs generalizing s with
  | nil => rfl
  | cons r rs ih => exact ih (push s (s.gpr r))

/-- `restore_kernel_segments` changes three segment registers and one word below the stack. -/
theorem exec_segments (s : Cpu) : exec s restoreKernelSegments =
    { s with ds := 0x10, es := 0x10, gs := 0x10, mem := upd s.mem (s.rsp - 8) (s.gpr .rax) } := by
  have h : exec s restoreKernelSegments =
    { s with ds := 0x10, es := 0x10, gs := 0x10, mem := upd s.mem (s.rsp - 8) (s.gpr .rax),
             rsp := s.rsp - 8 + 8,
             gpr := fun x => if x = .rax then upd s.mem (s.rsp - 8) (s.gpr .rax) (s.rsp - 8)
                else if x = .rax then 0x10 else s.gpr x } := by
    have c : (0x10 : W) &&& (0xFFFF : W) = 0x10 := by decide
    have c' : (BitVec.setWidth 64 (0x10 : BitVec 32)) = (0x10 : W) := by decide
    simp only [exec, restoreKernelSegments, List.foldl_cons, List.foldl_nil, step, push, pop, setReg, if_true, c, c']
  rw [h]
  have h1 : s.rsp - 8 + 8 = s.rsp := BitVec.sub_add_cancel ..
  have h2 : (fun x => if x = Reg.rax then upd s.mem (s.rsp - 8) (s.gpr .rax) (s.rsp - 8)
                else if x = .rax then 0x10 else s.gpr x) = s.gpr := by
    funext x
    by_cases c : x = .rax
    · subst c; simp [upd]
    · simp [c]
  rw [h1, h2]

end Verif.Stubs
