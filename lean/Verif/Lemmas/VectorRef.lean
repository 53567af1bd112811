import Verif.Lemmas.VectorProg

/-! Arguments that refer to an element of the vector itself. -/

set_option backward.isDefEq.respectTransparency false

namespace Verif.Vector
open Verif Verif.OH

variable {α : Type}

/-- Reading a released block is undefined. -/
theorem read_freed {h : Heap α} {b : Nat} (hb : h.blocks b = none) (i : Nat) :
    read h (some b) i = .ub := by
  simp [OH.read, look, hb]

/-- A full vector releases its old storage before it reads the argument. -/
theorem pushBack_full {z : Bool} {h : Heap α} {v : Vec} {l : List α} (hF : Fresh h)
    (hr : Rep z h v l) (hfull : l.length = v.endS) {i : Nat} (hi : i < l.length) :
    pushBack h v (.elem v.start i) = .ub := by
  obtain ⟨h1, v1, b, e, t, hb, hf, hc, ho, hsame, hgr⟩ := grown hF hr
  obtain ⟨c, hc', _⟩ := hr.some_of_pos (by omega)
  have := (hgr (by omega)).2.2 c hc' (by omega)
  simp only [pushBack, e, Res.ok_bind, Ref.get, hc', read_freed this, Res.ub_bind]

theorem insert_full (E : Elem α) {z : Bool} {h : Heap α} {v : Vec} {l : List α} (hF : Fresh h)
    (hr : Rep z h v l) (hfull : l.length = v.endS) {i idx : Nat} (hi : i < l.length)
    (hidx : idx ≤ l.length) : insert E h v idx (.elem v.start i) = .ub := by
  obtain ⟨h1, v1, b, e, t, hb, hf, hc, ho, hsame, hgr⟩ := grown hF hr
  obtain ⟨c, hc', _⟩ := hr.some_of_pos (by omega)
  have hfree := (hgr (by omega)).2.2 c hc' (by omega)
  obtain ⟨h2, e2, o2, s2⟩ := construct_own ho (i := l.length) hc (by simp) (some E.dflt)
  obtain ⟨h3, e3, o3, s3⟩ := shiftUp_spec E (idx := idx) rfl hc hidx o2
  have hcb : c ≠ b := by rintro rfl; exact ho.isSome hfree
  have hfree3 : h3.blocks c = none := by rw [s3.2 c hcb, s2.2 c hcb, hfree]
  have hsz : v1.size = l.length := hf
  simp only [insert, e, Res.ok_bind, hb, hf, e2, hsz, e3, Ref.get, hc', read_freed hfree3, Res.ub_bind]

/-- Contents after `insert(begin() + idx, v[i])` with spare capacity: the value is
read after the elements from `idx` on have been moved up. -/
theorem insert_room (E : Elem α) {z : Bool} {h : Heap α} {v : Vec} {l : List α} (hF : Fresh h)
    (hr : Rep z h v l) (hroom : l.length < v.endS) {i idx : Nat} (hi : i < l.length)
    (hidx : idx ≤ l.length) :
    ∃ h' v', insert E h v idx (.elem v.start i) = .ok (h', v') ∧ v'.size = l.length + 1 ∧
      (∀ j, j < l.length + 1 → Vector.get h' v' j = .ok (if j < idx then l[j]? else if j = idx then
        (if i < idx then l[i]? else if i = idx then none else l[i - 1]?) else l[j - 1]?)) := by
  obtain ⟨h1, v1, b, e, t, hb, hf, hc, ho, hsame, hgr⟩ := grown hF hr
  obtain ⟨rfl, rfl⟩ := hsame (by omega)
  obtain ⟨h2, e2, o2, s2⟩ := construct_own ho (i := l.length) hc (by simp) (some E.dflt)
  obtain ⟨h3, e3, o3, s3⟩ := shiftUp_spec E (idx := idx) rfl hc hidx o2
  have hread : read h3 (some b) i =
      .ok (if i < idx then l[i]? else if i = idx then none else l[i - 1]?) := by
    refine read_own o3 (by omega) ?_
    by_cases c1 : i < idx
    · simp [c1, hi]
    · by_cases c2 : i = idx
      · subst c2; simp [show i ≠ l.length by omega]
      · have : i - 1 < l.length := by omega
        simp [c1, c2, this]
  obtain ⟨h4, e4, o4, s4⟩ := assign_own o3 (i := idx)
    (w := if idx = l.length then some E.dflt else none) (by omega)
    (by simp only [Nat.lt_irrefl, if_false, if_true]; split <;> rfl)
    (if i < idx then l[i]? else if i = idx then none else l[i - 1]?)
  have hsz : v1.size = l.length := hf
  refine ⟨h4, { v1 with finish := v1.finish + 1 }, ?_, ?_, ?_⟩
  · simp only [insert, e, Res.ok_bind]
    simp only [hb, hf, e2, Res.ok_bind, hsz, e3, Ref.get, hread, e4]
  · simp [Vec.size, hf]
  · intro j hj
    simp only [Vector.get, hb]
    refine read_own o4 (by omega) ?_
    by_cases c1 : j = idx
    · subst c1; simp
    · simp only [if_neg c1]
      by_cases c2 : j < idx
      · have : j < l.length := by omega
        simp [c2, this]
      · have : j - 1 < l.length := by omega
        simp [c2, this]

end Verif.Vector
