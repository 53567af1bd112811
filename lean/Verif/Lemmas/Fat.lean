import Verif.Model.Bpb
import Verif.Props.Boot

/-! Lemmas for C106: what the layout of the boot sector says, and rounds of the boot code for
clusters below 2. -/

set_option backward.isDefEq.respectTransparency false

namespace Verif.Fat
open Verif Verif.Boot Verif.Bpb

theorem head_length : head.length = 119 := by decide +kernel

theorem sector_length {code sec : List (BitVec 8)} (h : sector code = some sec) : sec.length = 512 := by
  unfold sector at h
  split at h
  · injection h with h
    subst h
    simp only [List.length_append, List.length_replicate, le, List.length_cons, List.length_nil] at *
    omega
  · cases h

theorem sector_eq {code sec : List (BitVec 8)} (h : sector code = some sec) :
    sec = head ++ code ++ List.replicate (510 - (head ++ code).length) 0 ++ le 0xaa55 2 ∧
      (head ++ code).length ≤ 510 := by
  unfold sector at h
  split at h
  · injection h with h
    exact ⟨h.symm, by assumption⟩
  · cases h

theorem sector_head {code sec : List (BitVec 8)} (h : sector code = some sec) (i : Nat) (hi : i < 119) :
    sec.getD i 0 = head.getD i 0 := by
  rw [(sector_eq h).1, List.append_assoc, List.append_assoc, List.getD_eq_getElem?_getD,
    List.getElem?_append_left (by rw [head_length]; exact hi), List.getD_eq_getElem?_getD]

/-- The table entry of the code, as a number. -/
theorem rawEntry_toNat (e : Env) (n : Nat) : (rawEntry e n).toNat =
    (if n % 2 = 1 then ((e.disk (512 + 3 * n / 2)).toNat + 256 * (e.disk (512 + 3 * n / 2 + 1)).toNat) / 16
     else ((e.disk (512 + 3 * n / 2)).toNat + 256 * (e.disk (512 + 3 * n / 2 + 1)).toNat) % 4096) := by
  unfold rawEntry
  simp only [BitVec.toNat_and, show ((0xfff : BitVec 16)).toNat = 2 ^ 12 - 1 from rfl, Nat.and_two_pow_sub_one_eq_mod]
  have b1 := (e.disk (512 + 3 * n / 2)).isLt
  have b2 := (e.disk (512 + 3 * n / 2 + 1)).isLt
  by_cases h : n % 2 = 1
  · rw [if_pos h, if_pos h, BitVec.toNat_ushiftRight, toNat_pack, Nat.shiftRight_eq_div_pow]
    omega
  · rw [if_neg h, if_neg h, toNat_pack]
    omega

/-- `round_ok` also holds for the numbers 0 and 1, which are no clusters. -/
theorem round_ok' (e : Env) (he : e.Works) (c : Nat) (hc2 : c < 2849) (s : M)
    (hax : s.ax = BitVec.ofNat 16 (c + 31)) (hb : phys s.es s.bx % 512 = 0) :
    ∃ s', Ev (fun f => readSector e f { s with cx := setCl s.cx 1 } >>= fun s => getFatEntry e f { s with ax := BitVec.ofNat 16 c }) s' ∧
      s'.ax = rawEntry e c := by
  have hax' : s.ax.toNat = c + 31 := by rw [hax, BitVec.toNat_ofNat]; omega
  have hcn : (BitVec.ofNat 16 c).toNat = c := by rw [BitVec.toNat_ofNat]; omega
  obtain ⟨s1, r1, r2, r3⟩ := readSector_ok e he { s with cx := setCl s.cx 1 }
    (by simp only [hax']; omega) (by simp only [lo8_setCl]; decide)
    (by simp only [lo8_setCl, hax', show ((1 : BitVec 8)).toNat = 1 from rfl]; omega)
    (by simp only [lo8_setCl, show ((1 : BitVec 8)).toNat = 1 from rfl]; omega)
  obtain ⟨s2, g1, g2, _⟩ := getFatEntry_ok e he { s1 with ax := BitVec.ofNat 16 c } (by simp only [hcn]; omega)
  simp only [hcn] at g2
  exact ⟨s2, Ev.bind r1 g1, g2⟩

/-- A sector number behind the last cylinder is asked for forever. -/
theorem readSector_bad (e : Env) (f : Nat) (t : M) (h1 : 2880 ≤ t.ax.toNat) (h2 : t.ax.toNat < 4608) :
    readSector e f t = .oof := by
  have hq3 : t.ax.toNat / 18 < 256 := by omega
  simp only [readSector, hq3, decide_true, Res.require_true, Res.ok_bind]
  apply goOnReading_bad
  simp only [hi8_pack, BitVec.toNat_ushiftRight, BitVec.toNat_ofNat, Nat.shiftRight_eq_div_pow]
  omega

/-- Loading from the number 0 on, whose entry in the table is behind the end of the disk. -/
theorem loadFile_zero (e : Env) (he : e.Works) (s : M) (hax : s.ax = 31) (hes : s.es = 0x1000) (hbx : s.bx = 0)
    (h1 : 2849 ≤ (rawEntry e 0).toNat) (h2 : (rawEntry e 0).toNat ≠ 0xFFF) (f h : Nat) :
    loadFile e f h 0 s = .oof := by
  have hlt := rawEntry_lt e 0
  cases h with
  | zero => rfl
  | succ h =>
    obtain ⟨s1, r1, r2⟩ := round_ok' e he 0 (by omega) s hax (by rw [hes, hbx]; decide)
    rw [loadFile_unfold]
    rcases r1.2 f with e1 | e1 <;> dsimp only at e1
    · erw [e1]; rfl
    · erw [e1]
      rw [Res.ok_bind, if_neg (by
        rw [r2]; intro hh
        have := congrArg BitVec.toNat hh
        rw [show ((0xFFF : BitVec 16)).toNat = 4095 from rfl] at this
        omega)]
      cases h with
      | zero => rfl
      | succ h =>
        rw [loadFile_unfold]
        have hn : (s1.ax + 14 + 17).toNat = (rawEntry e 0).toNat + 31 := by
          rw [r2]
          simp only [BitVec.toNat_add, show ((14 : BitVec 16)).toNat = 14 from rfl,
            show ((17 : BitVec 16)).toNat = 17 from rfl]
          omega
        rw [readSector_bad e f _ (by simp only; rw [hn]; omega) (by simp only; rw [hn]; omega)]
        rfl

end Verif.Fat
