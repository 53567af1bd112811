import Verif.Model.Deque
import Verif.Lemmas.Box

/-! Lemmas about one deque: its representation, element access, growth. -/

set_option backward.isDefEq.respectTransparency false

namespace Verif.Deque
open Verif
open Verif.Box (upd upd_same upd_ne upd_upd upd_comm upd_self)

variable {α : Type} {triv : Bool}

/-- The element stored at absolute index `j` of the blocks `bl`. -/
def cellAt (s : St α) (bl : List Nat) (j : Nat) : Option α :=
  (bl[j / 16]?).bind fun b => (s.blk b).bind fun f => f (j % 16)

/-- The deque `d` has control array `a`, blocks `bl`, and the elements `xs` starting at absolute
index `first`. -/
structure Rep0 (triv : Bool) (s : St α) (d : Dq) (a : Option Nat) (bl : List Nat) (xs : List α) (first : Nat) :
    Prop where
  blocks : d.blocks = a
  bsz : d.bsz = bl.length
  size : d.size = xs.length
  fst : d.first = first
  last1 : d.last + 1 = first + max 1 xs.length
  bound : bl ≠ [] → d.last < 16 * bl.length
  nil : bl = [] → xs = [] ∧ first = 0
  arrn : a = none ↔ bl = []
  arrs : ∀ x, a = some x → s.arr x = some (bl.map some)
  cells : ∀ j, j < xs.length → cellAt s bl (first + j) = xs[j]?
  dead : triv = false → ∀ j, j < 16 * bl.length → (j < first ∨ first + xs.length ≤ j) → cellAt s bl j = none
  live : ∀ b, b ∈ bl → ∃ f, s.blk b = some f
  nodup : bl.Nodup

theorem Rep0.bound_len {s : St α} {d a bl xs first} (h : Rep0 triv s d a bl xs first) (hne : xs ≠ []) :
    first + xs.length ≤ 16 * bl.length := by
  have hb : bl ≠ [] := fun e => hne (h.nil e).1
  have := h.bound hb
  have h1 := h.last1
  have : 1 ≤ xs.length := by
    cases xs with
    | nil => exact absurd rfl hne
    | cons x xs => simp
  omega

theorem getObj_ok {s : St α} {d a bl xs first} (h : Rep0 triv s d a bl xs first) {n : Nat} (hn : n < 16 * bl.length) :
    ∃ b, bl[n / 16]? = some b ∧ b ∈ bl ∧ getObj s d n = .ok (b, n % 16) := by
  have hi : n / 16 < bl.length := by omega
  have hne : bl ≠ [] := by intro e; simp [e] at hn
  cases ha : a with
  | none => exact absurd (h.arrn.1 ha) hne
  | some x =>
    refine ⟨bl[n / 16], by simp [hi], List.getElem_mem _, ?_⟩
    simp [getObj, arrRd, h.blocks, ha, h.arrs x ha, hi]

theorem getObj_congr {s : St α} {d d' : Dq} (h : d.blocks = d'.blocks) (n : Nat) : getObj s d n = getObj s d' n := by
  simp [getObj, h]

theorem load_cell {s : St α} {bl : List Nat} {n b : Nat} (hb : bl[n / 16]? = some b) {v : α}
    (hv : cellAt s bl n = some v) : load s (b, n % 16) = .ok v := by
  simp only [cellAt, hb, Option.bind_some, Option.bind_eq_some_iff] at hv
  obtain ⟨f, hf, hfv⟩ := hv
  simp [load, hf, hfv]

theorem load_cell_none {s : St α} {bl : List Nat} {n b : Nat} (hb : bl[n / 16]? = some b)
    (hv : cellAt s bl n = none) : load s (b, n % 16) = .ub := by
  simp only [cellAt, hb, Option.bind_some] at hv
  cases hf : s.blk b with
  | none => simp [load, hf]
  | some f =>
    have : f (n % 16) = none := by simpa [hf] using hv
    simp [load, hf, this]

theorem nodup_idx {bl : List Nat} (hn : bl.Nodup) {i j b : Nat} (hi : bl[i]? = some b) (hj : bl[j]? = some b) : i = j := by
  have h1 : i < bl.length := (List.getElem?_eq_some_iff.1 hi).1
  exact (List.getElem?_inj h1 hn).1 (hi.trans hj.symm)

theorem cellAt_setCell {s : St α} {bl : List Nat} (hn : bl.Nodup) {n b : Nat} (hb : bl[n / 16]? = some b) {f}
    (hf : s.blk b = some f) (c : Option α) (j : Nat) :
    cellAt (setCell s (b, n % 16) c) bl j = if j = n then c else cellAt s bl j := by
  by_cases hjn : j = n
  · subst hjn
    simp [cellAt, setCell, hb, upd, hf]
  · rw [if_neg hjn]
    simp only [cellAt]
    cases hb' : bl[j / 16]? with
    | none => rfl
    | some b' =>
      simp only [Option.bind_some]
      by_cases hbb : b' = b
      · subst hbb
        have := nodup_idx hn hb hb'
        have hne : j % 16 ≠ n % 16 := by omega
        simp [setCell, upd, hf, hne]
      · simp [setCell, upd, hbb]

theorem setCell_live {s : St α} {p c} {b f} (h : s.blk b = some f) : ∃ f', (setCell s p c).blk b = some f' := by
  simp only [setCell, upd]
  split
  · rename_i e; subst e; simp [h]
  · exact ⟨f, h⟩

theorem setCell_blk_ne {s : St α} {p : Nat × Nat} {c} {b} (h : b ≠ p.1) : (setCell s p c).blk b = s.blk b := by
  simp [setCell, upd, h]

theorem setCell_blk_none {s : St α} {p : Nat × Nat} {c} {b} (h : s.blk b = none) : (setCell s p c).blk b = none := by
  simp only [setCell, upd]
  split
  · rename_i e; rw [← e]; simp [h]
  · exact h

/-- Representation depends only on the own array and blocks. -/
theorem Rep0.frame {s s' : St α} {d a bl xs first} (h : Rep0 triv s d a bl xs first)
    (ha : ∀ x, a = some x → s'.arr x = s.arr x) (hb : ∀ b, b ∈ bl → s'.blk b = s.blk b) :
    Rep0 triv s' d a bl xs first := by
  have hc : ∀ j, cellAt s' bl j = cellAt s bl j := by
    intro j
    simp only [cellAt]
    cases hb' : bl[j / 16]? with
    | none => rfl
    | some b =>
      have : b ∈ bl := List.mem_of_getElem? hb'
      simp [hb b this]
  exact { h with
    arrs := fun x hx => (ha x hx).trans (h.arrs x hx)
    cells := fun j hj => (hc _).trans (h.cells j hj)
    dead := fun ht j hj h2 => (hc _).trans (h.dead ht j hj h2)
    live := fun b hm => by
      obtain ⟨f, hf⟩ := h.live b hm
      exact ⟨f, (hb b hm).trans hf⟩ }

/-! ### Growth -/

/-- Control-array copy loop: entries `off..off+|B|` are overwritten. -/
theorem moveLoop_ok {x y off : Nat} {bl : List Nat} (hxy : y ≠ x) :
    ∀ (n i : Nat) (s : St α) (N : List (Option Nat)), i + n = bl.length → s.arr y = some (bl.map some) →
      s.arr x = some N → bl.length + off ≤ N.length →
      ∃ N', moveLoop s (some y) x off n i = .ok { s with arr := upd s.arr x (some N') } ∧ N'.length = N.length ∧
        ∀ j, N'[j]? = if i + off ≤ j ∧ j < bl.length + off then (bl.map some)[j - off]? else N[j]? := by
  intro n
  induction n with
  | zero =>
    intro i s N hin hy hx hN
    refine ⟨N, ?_, rfl, ?_⟩
    · have : upd s.arr x (some N) = s.arr := by rw [← hx]; exact upd_self _ _
      simp [moveLoop, this]
    · intro j
      rw [if_neg (by omega)]
  | succ n ih =>
    intro i s N hin hy hx hN
    have hi : i < bl.length := by omega
    have h1 : arrRd s (some y) i = .ok bl[i] := by simp [arrRd, hy, hi]
    have h2 : arrWr s x (i + off) bl[i] = .ok { s with arr := upd s.arr x (some (N.set (i + off) (some bl[i]))) } := by
      have : i + off < N.length := by omega
      simp [arrWr, hx, this]
    obtain ⟨N', e, hl, hj⟩ := ih (i + 1) { s with arr := upd s.arr x (some (N.set (i + off) (some bl[i]))) }
      (N.set (i + off) (some bl[i])) (by omega) (by rw [← hy]; exact upd_ne _ _ hxy) (upd_same _ _ _) (by simp; omega)
    refine ⟨N', ?_, by simpa using hl, ?_⟩
    · simp only [moveLoop, h1, h2, Res.ok_bind, e, upd_upd]
    · intro j
      rw [hj j]
      by_cases hc : j = i + off
      · subst hc
        rw [if_neg (by omega), if_pos (by omega)]
        have : i + off < N.length := by omega
        simp [this, hi]
      · by_cases hc2 : i + off ≤ j ∧ j < bl.length + off
        · rw [if_pos (by omega), if_pos hc2]
        · rw [if_neg (by omega), if_neg hc2, List.getElem?_set_ne (by omega)]

/-- The loop of `ensure_capacity_front` leaves the array as soon as there are two blocks. -/
theorem moveLoop_oob {x y off : Nat} {bl : List Nat} (hxy : y ≠ x) :
    ∀ (n i : Nat) (s : St α) (N : List (Option Nat)), i + n = bl.length → i + off ≤ N.length → s.arr y = some (bl.map some) →
      s.arr x = some N → N.length < bl.length + off →
      moveLoop s (some y) x off n i = .ub := by
  intro n
  induction n with
  | zero =>
    intro i s N hin hle hy hx hN
    omega
  | succ n ih =>
    intro i s N hin hle hy hx hN
    have hi : i < bl.length := by omega
    have h1 : arrRd s (some y) i = .ok bl[i] := by simp [arrRd, hy, hi]
    by_cases hlt : i + off < N.length
    · have h2 : arrWr s x (i + off) bl[i] = .ok { s with arr := upd s.arr x (some (N.set (i + off) (some bl[i]))) } := by
        simp [arrWr, hx, hlt]
      have := ih (i + 1) { s with arr := upd s.arr x (some (N.set (i + off) (some bl[i]))) }
        (N.set (i + off) (some bl[i])) (by omega) (by simp; omega) (by rw [← hy]; exact upd_ne _ _ hxy) (upd_same _ _ _) (by simp; omega)
      simp only [moveLoop, h1, h2, Res.ok_bind, this]
    · have h2 : arrWr s x (i + off) bl[i] = .ub := by simp [arrWr, hx, hlt]
      simp [moveLoop, h1, h2]

/-- What growing by one block does to the heap: a new array `x` with entries `N`, a new empty
block, the old array released. -/
def grown (s : St α) (a : Option Nat) (N : List (Option Nat)) : St α :=
  { s with
    arr := match a with
      | none => upd s.arr s.nextA (some N)
      | some y => upd (upd s.arr s.nextA (some N)) y none
    blk := upd s.blk s.nextB (some fun _ => none)
    nextA := s.nextA + 1
    nextB := s.nextB + 1 }

theorem allocControl_one (s : St α) (size start : Nat) (h : start < size) :
    allocControl s size start (1 + start) = .ok
      ({ s with
          arr := upd s.arr s.nextA (some ((List.replicate size none).set start (some s.nextB)))
          blk := upd s.blk s.nextB (some fun _ => none)
          nextA := s.nextA + 1
          nextB := s.nextB + 1 }, s.nextA) := by
  have h1 : 1 + start - start = 1 := by omega
  simp [allocControl, h1, allocLoop, arrWr, upd_same, h, upd_upd]

theorem ensureBack_grow {s : St α} {d a bl xs first} (h : Rep0 triv s d a bl xs first)
    (hfa : ∀ y, s.nextA ≤ y → s.arr y = none) (hcap : backCapacity d = 0) :
    ensureBack s d 1 = .ok (grown s a (bl.map some ++ [some s.nextB]),
      { d with blocks := some s.nextA, bsz := bl.length + 1 }) := by
  have hb := h.blocks
  have hz := h.bsz
  have hal := allocControl_one s (1 + bl.length) bl.length (by omega)
  have hnb : (1 + 16 - 1) / 16 = 1 := by decide
  cases ha : a with
  | none =>
    have hbl : bl = [] := h.arrn.1 ha
    have hx := h.nil hbl
    have hl := h.last1
    have hf := h.fst
    have hlz : d.last = 0 := by rw [hx.1, hx.2] at hl; simp at hl; exact hl
    have hfz : d.first = 0 := by rw [hf, hx.2]
    subst hbl
    simp only [ensureBack, hcap, hz, hb, ha, hnb]
    simp only [List.length_nil] at hal ⊢
    rw [hal]
    simp only [Res.ok_bind, if_true, destroyControl, grown, List.map_nil, List.nil_append]
    simp [hlz, hfz]
  | some y =>
    have hbl : bl ≠ [] := fun e => by have := h.arrn.2 e; rw [ha] at this; cases this
    have hlen : bl.length ≠ 0 := by simpa using hbl
    have hy := h.arrs y ha
    have hyx : y ≠ s.nextA := by
      intro e
      have := hfa y (by omega)
      rw [this] at hy; cases hy
    simp only [ensureBack, hcap, hz, hb, ha, hnb]
    simp only [if_neg (show ¬ (0 ≥ 1) by omega)]
    rw [hal]
    simp only [Res.ok_bind, if_neg hlen]
    obtain ⟨N', e, hl, hj⟩ := moveLoop_ok (off := 0) hyx bl.length 0
      { s with
          arr := upd s.arr s.nextA (some ((List.replicate (1 + bl.length) none).set bl.length (some s.nextB)))
          blk := upd s.blk s.nextB (some fun _ => none)
          nextA := s.nextA + 1
          nextB := s.nextB + 1 } _ (by omega) ((upd_ne _ _ hyx).trans hy) (upd_same _ _ _) (by simp)
    have hN : N' = bl.map some ++ [some s.nextB] := by
      apply List.ext_getElem?
      intro j
      rw [hj j]
      by_cases h1 : j < bl.length
      · rw [if_pos (by omega), List.getElem?_append_left (by simpa using h1)]; simp
      · rw [if_neg (by omega), List.getElem?_append_right (by simpa using h1)]
        by_cases h2 : j = bl.length
        · subst h2; simp
        · rw [List.getElem?_eq_none (by simp; omega), List.getElem?_eq_none (by simp; omega)]
    rw [e]
    simp only [Res.ok_bind, destroyControl]
    rw [show ∀ N : Option (List (Option Nat)), upd (upd s.arr s.nextA N) s.nextA (some N') y = some (bl.map some) from
      fun N => by rw [upd_ne _ _ hyx, upd_ne _ _ hyx, hy]]
    simp [upd_upd, grown, hN]

theorem ensureFront_grow0 {s : St α} {d xs first} (h : Rep0 triv s d none [] xs first) :
    ensureFront s d 1 = .ok (grown s none [some s.nextB], ⟨some s.nextA, 1, 0, 15, 15⟩) := by
  have hb := h.blocks
  have hz := h.bsz
  have hx := h.nil rfl
  have hf := h.fst
  have hsz := h.size
  have hal := allocControl_one s 1 0 (by omega)
  have hnb : (1 + 16 - 1) / 16 = 1 := by decide
  have h0 : d.first = 0 := by rw [hf, hx.2]
  rw [hx.1] at hsz
  cases d
  simp only at hb hz h0 hsz
  subst hb hz h0 hsz
  simp only [List.length_nil, ensureFront, hnb, if_neg (show ¬ (0 ≥ 1) by omega)]
  simp only [Nat.add_zero] at hal ⊢
  rw [hal]
  simp [destroyControl, grown]

theorem ensureFront_grow1 {s : St α} {d y b xs first} (h : Rep0 triv s d (some y) [b] xs first)
    (hfa : ∀ y, s.nextA ≤ y → s.arr y = none) (hcap : first = 0) :
    ensureFront s d 1 = .ok (grown s (some y) [some s.nextB, some b],
      { d with blocks := some s.nextA, bsz := 2, first := d.first + 16, last := d.last + 16 }) := by
  have hb := h.blocks
  have hz := h.bsz
  have hf := h.fst
  have hal := allocControl_one s 2 0 (by omega)
  have hnb : (1 + 16 - 1) / 16 = 1 := by decide
  have hy := h.arrs y rfl
  have hyx : y ≠ s.nextA := by
    intro e
    have := hfa y (by omega)
    rw [this] at hy; cases hy
  simp only [List.length_singleton] at hz
  simp only [ensureFront, hf, hcap, hz, hb, hnb, if_neg (show ¬ (0 ≥ 1) by omega)]
  rw [hal]
  simp only [Res.ok_bind, if_neg (show ¬ (1 = 0) by omega), moveLoop, arrRd, arrWr]
  rw [upd_ne _ _ hyx, hy]
  simp only [List.map_cons, List.map_nil, List.getElem?_cons_zero, Res.ok_bind, upd_same]
  have h1 : ((List.replicate 2 (none : Option Nat)).set 0 (some s.nextB)) = [some s.nextB, none] := rfl
  simp only [h1, destroyControl]
  simp [upd_upd, upd_ne _ _ hyx, hy, grown]

/-- **Front growth with two or more blocks always leaves the new control array.** -/
theorem ensureFront_ub {s : St α} {d a bl xs first} (h : Rep0 triv s d a bl xs first)
    (hfa : ∀ y, s.nextA ≤ y → s.arr y = none) (hcap : first = 0) (h2 : 2 ≤ bl.length) :
    ensureFront s d 1 = .ub := by
  have hb := h.blocks
  have hz := h.bsz
  have hf := h.fst
  have hal := allocControl_one s (1 + bl.length) 0 (by omega)
  have hnb : (1 + 16 - 1) / 16 = 1 := by decide
  cases ha : a with
  | none => have := h.arrn.1 ha; simp [this] at h2
  | some y =>
    have hy := h.arrs y ha
    have hyx : y ≠ s.nextA := by
      intro e
      have := hfa y (by omega)
      rw [this] at hy; cases hy
    simp only [ensureFront, hf, hcap, hz, hb, ha, hnb, if_neg (show ¬ (0 ≥ 1) by omega)]
    simp only [Nat.add_zero] at hal
    rw [hal]
    simp only [Res.ok_bind, if_neg (show ¬ (bl.length = 0) by omega)]
    rw [moveLoop_oob hyx bl.length 0 _ _ (by omega) _ ((upd_ne _ _ hyx).trans hy) (upd_same _ _ _)]
    · rfl
    · simp; omega
    · simp

end Verif.Deque
