import Verif.Lemmas.Deque

/-! The invariant over several deques, and element insertion and removal. -/

set_option backward.isDefEq.respectTransparency false

namespace Verif.Deque
open Verif
open Verif.Box (upd upd_same upd_ne upd_upd upd_comm upd_self)

variable {α : Type} {triv : Bool}

/-- What a deque holds, with its layout: the sequence, the number of blocks, the index of the
first element (or where the first element would go). -/
structure Sq (α : Type) where
  xs : List α
  bsz : Nat
  first : Nat

/-- Back insertion: one more block exactly when there is none or the last one is full. -/
def Sq.pushBack (q : Sq α) (v : α) : Sq α :=
  { xs := q.xs ++ [v]
    bsz := if q.bsz = 0 ∨ (0 < q.xs.length ∧ q.first + q.xs.length = 16 * q.bsz) then q.bsz + 1 else q.bsz
    first := q.first }

/-- Front insertion; `none` where the code leaves its control array. -/
def Sq.pushFront (q : Sq α) (v : α) : Option (Sq α) :=
  if q.bsz = 0 then some ⟨v :: q.xs, 1, 15⟩
  else if q.first = 0 then
    if q.bsz = 1 then some ⟨v :: q.xs, 2, if q.xs.length = 0 then 16 else 15⟩ else none
  else some ⟨v :: q.xs, q.bsz, if q.xs.length = 0 then q.first else q.first - 1⟩

/-- The layout of a deque that has just become empty. -/
def Sq.reset (q : Sq α) : Sq α := ⟨[], q.bsz, q.bsz / 2 * 16⟩

/-- Front removal. -/
def Sq.popFront (q : Sq α) : Option (Sq α) :=
  match q.xs with
  | [] => none
  | [_] => some q.reset
  | _ :: y :: ys => some ⟨y :: ys, q.bsz, q.first + 1⟩

/-- Back removal. -/
def Sq.popBack (q : Sq α) : Option (Sq α) :=
  match q.xs with
  | [] => none
  | [_] => some q.reset
  | x :: y :: ys => some ⟨(x :: y :: ys).dropLast, q.bsz, q.first⟩

/-- `clear`. -/
def Sq.clear (q : Sq α) : Sq α := if q.xs.length = 0 then q else q.reset

/-- The empty deque without blocks. -/
def Sq.nil : Sq α := ⟨[], 0, 0⟩

/-- Representation of `q`. -/
structure Rep (triv : Bool) (s : St α) (d : Dq) (a : Option Nat) (bl : List Nat) (q : Sq α) : Prop where
  rep : Rep0 triv s d a bl q.xs q.first
  qb : q.bsz = bl.length
  empt : q.xs = [] → q.first = q.bsz / 2 * 16

/-- Effect of an operation on one deque on the heap: only its own array and blocks change;
dropped ones are released, added ones were unused. -/
structure Eff (s s' : St α) (a : Option Nat) (bl : List Nat) (a' : Option Nat) (bl' : List Nat) : Prop where
  arr : ∀ x, a ≠ some x → a' ≠ some x → s'.arr x = s.arr x
  arrF : ∀ x, a = some x → a' ≠ some x → s'.arr x = none
  blk : ∀ b, b ∉ bl → b ∉ bl' → s'.blk b = s.blk b
  blkF : ∀ b, b ∈ bl → b ∉ bl' → s'.blk b = none
  newA : ∀ x, a' = some x → a = some x ∨ s.arr x = none
  newB : ∀ b, b ∈ bl' → b ∈ bl ∨ s.blk b = none
  fa : ∀ x, s'.nextA ≤ x → s'.arr x = none
  fb : ∀ b, s'.nextB ≤ b → s'.blk b = none

/-- The invariant: every live deque is represented; arrays and blocks have one owner each, and
every live array and block has an owner. -/
structure Inv (triv : Bool) (s : St α) (σ : Slot → Option (Sq α)) (γ : Slot → Option Nat × List Nat) : Prop where
  rep : ∀ k q, σ k = some q → ∃ d, s.dq k = some d ∧ Rep triv s d (γ k).1 (γ k).2 q
  dead : ∀ k, σ k = none → s.dq k = none ∧ γ k = (none, [])
  arrO : ∀ x L, s.arr x = some L → ∃ k, (γ k).1 = some x
  blkO : ∀ b f, s.blk b = some f → ∃ k, b ∈ (γ k).2
  arrI : ∀ k j x, (γ k).1 = some x → (γ j).1 = some x → k = j
  blkI : ∀ k j b, b ∈ (γ k).2 → b ∈ (γ j).2 → k = j
  fa : ∀ x, s.nextA ≤ x → s.arr x = none
  fb : ∀ b, s.nextB ≤ b → s.blk b = none

theorem Inv.init : Inv triv (St.init : St α) (fun _ => none) (fun _ => (none, [])) := by
  constructor <;> simp [St.init]

theorem Rep.frame {s s' : St α} {d a bl q} (h : Rep triv s d a bl q)
    (ha : ∀ x, a = some x → s'.arr x = s.arr x) (hb : ∀ b, b ∈ bl → s'.blk b = s.blk b) : Rep triv s' d a bl q :=
  ⟨h.rep.frame ha hb, h.qb, h.empt⟩

theorem Inv.live_arr {s : St α} {σ γ} (h : Inv triv s σ γ) {k x} (hx : (γ k).1 = some x) : ∃ L, s.arr x = some L := by
  cases hk : σ k with
  | none => rw [(h.dead k hk).2] at hx; cases hx
  | some q =>
    obtain ⟨d, _, hr⟩ := h.rep k q hk
    exact ⟨_, hr.rep.arrs x hx⟩

theorem Inv.live_blk {s : St α} {σ γ} (h : Inv triv s σ γ) {k b} (hx : b ∈ (γ k).2) : ∃ f, s.blk b = some f := by
  cases hk : σ k with
  | none => rw [(h.dead k hk).2] at hx; cases hx
  | some q =>
    obtain ⟨d, _, hr⟩ := h.rep k q hk
    exact hr.rep.live b hx

/-- The invariant after an operation on the deque at `k` alone. -/
theorem Inv.update {s s' : St α} {σ γ} (h : Inv triv s σ γ) (k : Slot) {o : Option Dq} {q' : Option (Sq α)} {a' bl'}
    (he : Eff s s' (γ k).1 (γ k).2 a' bl') (hd : s'.dq = upd s.dq k o)
    (h1 : ∀ q, q' = some q → ∃ d, o = some d ∧ Rep triv s' d a' bl' q)
    (h2 : q' = none → o = none ∧ a' = none ∧ bl' = []) :
    Inv triv s' (upd σ k q') (upd γ k (a', bl')) := by
  have hA : ∀ j x, j ≠ k → (γ j).1 = some x → (γ k).1 ≠ some x ∧ a' ≠ some x := by
    intro j x hj hx
    refine ⟨fun e => hj (h.arrI j k x hx e), fun e => ?_⟩
    rcases he.newA x e with e' | e'
    · exact hj (h.arrI j k x hx e')
    · obtain ⟨L, hL⟩ := h.live_arr hx
      rw [hL] at e'; cases e'
  have hB : ∀ j b, j ≠ k → b ∈ (γ j).2 → b ∉ (γ k).2 ∧ b ∉ bl' := by
    intro j b hj hb
    refine ⟨fun e => hj (h.blkI j k b hb e), fun e => ?_⟩
    rcases he.newB b e with e' | e'
    · exact hj (h.blkI j k b hb e')
    · obtain ⟨f, hf⟩ := h.live_blk hb
      rw [hf] at e'; cases e'
  constructor
  · intro j q hq
    by_cases hj : j = k
    · subst hj
      rw [upd_same] at hq
      obtain ⟨d, hd1, hr⟩ := h1 q hq
      refine ⟨d, ?_, ?_⟩
      · rw [hd, upd_same, hd1]
      · rw [upd_same]; exact hr
    · rw [upd_ne _ _ hj] at hq
      obtain ⟨d, hd1, hr⟩ := h.rep j q hq
      refine ⟨d, ?_, ?_⟩
      · rw [hd, upd_ne _ _ hj, hd1]
      · rw [upd_ne _ _ hj]
        exact hr.frame (fun x hx => he.arr x (hA j x hj hx).1 (hA j x hj hx).2)
          (fun b hb => he.blk b (hB j b hj hb).1 (hB j b hj hb).2)
  · intro j hq
    by_cases hj : j = k
    · subst hj
      rw [upd_same] at hq
      obtain ⟨e1, e2, e3⟩ := h2 hq
      rw [hd, upd_same, upd_same, e1, e2, e3]; exact ⟨rfl, rfl⟩
    · rw [upd_ne _ _ hj] at hq
      rw [hd, upd_ne _ _ hj, upd_ne _ _ hj]
      exact h.dead j hq
  · intro x L hx
    by_cases h3 : a' = some x
    · exact ⟨k, by rw [upd_same]; exact h3⟩
    · by_cases h4 : (γ k).1 = some x
      · rw [he.arrF x h4 h3] at hx; cases hx
      · rw [he.arr x h4 h3] at hx
        obtain ⟨j, hj⟩ := h.arrO x L hx
        have hjk : j ≠ k := by rintro rfl; exact h4 hj
        exact ⟨j, by rw [upd_ne _ _ hjk]; exact hj⟩
  · intro x L hx
    by_cases h3 : x ∈ bl'
    · exact ⟨k, by rw [upd_same]; exact h3⟩
    · by_cases h4 : x ∈ (γ k).2
      · rw [he.blkF x h4 h3] at hx; cases hx
      · rw [he.blk x h4 h3] at hx
        obtain ⟨j, hj⟩ := h.blkO x L hx
        have hjk : j ≠ k := by rintro rfl; exact h4 hj
        exact ⟨j, by rw [upd_ne _ _ hjk]; exact hj⟩
  · intro i j x hi hj
    by_cases h3 : i = k <;> by_cases h4 : j = k
    · rw [h3, h4]
    · subst h3
      rw [upd_same] at hi; rw [upd_ne _ _ h4] at hj
      exact absurd hi (hA j x h4 hj).2
    · subst h4
      rw [upd_same] at hj; rw [upd_ne _ _ h3] at hi
      exact absurd hj (hA i x h3 hi).2
    · rw [upd_ne _ _ h3] at hi; rw [upd_ne _ _ h4] at hj
      exact h.arrI i j x hi hj
  · intro i j x hi hj
    by_cases h3 : i = k <;> by_cases h4 : j = k
    · rw [h3, h4]
    · subst h3
      rw [upd_same] at hi; rw [upd_ne _ _ h4] at hj
      exact absurd hi (hB j x h4 hj).2
    · subst h4
      rw [upd_same] at hj; rw [upd_ne _ _ h3] at hi
      exact absurd hj (hB i x h3 hi).2
    · rw [upd_ne _ _ h3] at hi; rw [upd_ne _ _ h4] at hj
      exact h.blkI i j x hi hj
  · exact he.fa
  · exact he.fb

/-! ### Effects -/

theorem Inv.eff_refl {s : St α} {σ γ} (h : Inv triv s σ γ) (k : Slot) : Eff s s (γ k).1 (γ k).2 (γ k).1 (γ k).2 where
  arr _ _ _ := rfl
  arrF _ h1 h2 := absurd h1 h2
  blk _ _ _ := rfl
  blkF _ h1 h2 := absurd h1 h2
  newA _ h1 := .inl h1
  newB _ h1 := .inl h1
  fa := h.fa
  fb := h.fb

theorem Eff.setCell {s s' : St α} {a bl a' bl'} (h : Eff s s' a bl a' bl') {p : Nat × Nat} (c : Option α) (hp : p.1 ∈ bl') :
    Eff s (setCell s' p c) a bl a' bl' where
  arr := h.arr
  arrF := h.arrF
  blk b h1 h2 := by
    have : b ≠ p.1 := fun e => h2 (by rw [e]; exact hp)
    rw [setCell_blk_ne this]; exact h.blk b h1 h2
  blkF b h1 h2 := by
    have : b ≠ p.1 := fun e => h2 (by rw [e]; exact hp)
    rw [setCell_blk_ne this]; exact h.blkF b h1 h2
  newA := h.newA
  newB := h.newB
  fa := h.fa
  fb b hb := setCell_blk_none (h.fb b hb)

theorem Eff.setD {s s' : St α} {a bl a' bl'} (h : Eff s s' a bl a' bl') (k : Slot) (d : Dq) :
    Eff s (setD s' k d) a bl a' bl' :=
  ⟨h.arr, h.arrF, h.blk, h.blkF, h.newA, h.newB, h.fa, h.fb⟩

theorem Eff.grown {s : St α} {σ γ} (h : Inv triv s σ γ) (k : Slot) (N : List (Option Nat)) {bl' : List Nat}
    (hbl : ∀ b, b ∈ bl' ↔ b ∈ (γ k).2 ∨ b = s.nextB) :
    Eff s (grown s (γ k).1 N) (γ k).1 (γ k).2 (some s.nextA) bl' where
  arr x h1 h2 := by
    have h3 : x ≠ s.nextA := fun e => h2 (by rw [e])
    simp only [Deque.grown]
    cases ha : (γ k).1 with
    | none => exact upd_ne _ _ h3
    | some y =>
      have : x ≠ y := by rintro rfl; exact h1 ha
      show upd (upd s.arr s.nextA (some N)) y none x = _
      rw [upd_ne _ _ this, upd_ne _ _ h3]
  arrF x h1 h2 := by simp only [Deque.grown, h1]; rw [upd_same]
  blk b h1 h2 := by
    have : b ≠ s.nextB := fun e => h2 ((hbl b).2 (.inr e))
    simp only [Deque.grown]
    rw [upd_ne _ _ this]
  blkF b h1 h2 := absurd ((hbl b).2 (.inl h1)) h2
  newA x hx := by cases hx; exact .inr (h.fa _ (Nat.le_refl _))
  newB b hb := by
    rcases (hbl b).1 hb with h1 | rfl
    · exact .inl h1
    · exact .inr (h.fb _ (Nat.le_refl _))
  fa x hx := by
    have hx' : s.nextA + 1 ≤ x := hx
    have h3 : x ≠ s.nextA := by omega
    have h4 : s.arr x = none := h.fa x (by omega)
    simp only [Deque.grown]
    cases ha : (γ k).1 with
    | none => exact (upd_ne _ _ h3).trans h4
    | some y =>
      show upd (upd s.arr s.nextA (some N)) y none x = _
      by_cases hy : x = y
      · rw [← hy, upd_same]
      · rw [upd_ne _ _ hy, upd_ne _ _ h3]; exact h4
  fb b hb := by
    have hb' : s.nextB + 1 ≤ b := hb
    simp only [Deque.grown]
    rw [upd_ne _ _ (by omega)]; exact h.fb b (by omega)

theorem grown_blk {s : St α} {a N b} (h : b ≠ s.nextB) : (grown s a N).blk b = s.blk b := by
  simp [grown, upd, h]

/-! ### Representation after growth -/

theorem grown_arr {s : St α} {a : Option Nat} {N} (hfa : a ≠ some s.nextA) : (grown s a N).arr s.nextA = some N := by
  cases a with
  | none => simp [grown, upd]
  | some y =>
    have : s.nextA ≠ y := fun e => hfa (by rw [e])
    simp [grown, upd, this]

theorem cellAt_grown {s : St α} {a N} {bl : List Nat} (h : s.nextB ∉ bl) (j : Nat) :
    cellAt (grown s a N) bl j = cellAt s bl j := by
  simp only [cellAt]
  cases hb : bl[j / 16]? with
  | none => rfl
  | some b =>
    have hm : b ∈ bl := List.mem_of_getElem? hb
    have : b ≠ s.nextB := fun e => h (e ▸ hm)
    simp [grown_blk this]

theorem cellAt_append_left {s : St α} {bl bl' : List Nat} {j : Nat} (h : j < 16 * bl.length) :
    cellAt s (bl ++ bl') j = cellAt s bl j := by
  simp only [cellAt]
  rw [List.getElem?_append_left (by omega)]

theorem cellAt_append_right {s : St α} {bl bl' : List Nat} {j : Nat} (h : 16 * bl.length ≤ j) :
    cellAt s (bl ++ bl') j = cellAt s bl' (j - 16 * bl.length) := by
  simp only [cellAt]
  rw [List.getElem?_append_right (by omega), show j / 16 - bl.length = (j - 16 * bl.length) / 16 by omega,
    show j % 16 = (j - 16 * bl.length) % 16 by omega]

theorem cellAt_fresh {s : St α} {a N} (j : Nat) : cellAt (grown s a N) [s.nextB] j = none := by
  simp only [cellAt]
  cases hb : [s.nextB][j / 16]? with
  | none => rfl
  | some b =>
    have hm : b = s.nextB := by simpa using List.mem_of_getElem? hb
    subst hm
    simp [grown, upd]

theorem Rep0.fresh {s : St α} {d a bl xs first} (h : Rep0 triv s d a bl xs first)
    (hfb : ∀ b, s.nextB ≤ b → s.blk b = none) : s.nextB ∉ bl := by
  intro hm
  obtain ⟨f, hf⟩ := h.live _ hm
  rw [hfb _ (Nat.le_refl _)] at hf; cases hf

theorem Rep0.freshA {s : St α} {d a bl xs first} (h : Rep0 triv s d a bl xs first)
    (hfa : ∀ x, s.nextA ≤ x → s.arr x = none) : a ≠ some s.nextA := by
  intro hm
  have := h.arrs _ hm
  rw [hfa _ (Nat.le_refl _)] at this; cases this

theorem Rep0.grownBack {s : St α} {d a bl xs first} (h : Rep0 triv s d a bl xs first)
    (hfa : ∀ x, s.nextA ≤ x → s.arr x = none) (hfb : ∀ b, s.nextB ≤ b → s.blk b = none) :
    Rep0 triv (grown s a (bl.map some ++ [some s.nextB])) { d with blocks := some s.nextA, bsz := bl.length + 1 }
      (some s.nextA) (bl ++ [s.nextB]) xs first where
  blocks := rfl
  bsz := by simp
  size := h.size
  fst := h.fst
  last1 := h.last1
  bound _ := by
    show d.last < _
    by_cases hb : bl = []
    · have h1 := h.last1; have h2 := h.nil hb
      simp [h2.1, h2.2] at h1
      simp [h1, hb]
    · have := h.bound hb; simp; omega
  nil e := by simp at e
  arrn := by simp
  arrs x hx := by cases hx; rw [grown_arr (h.freshA hfa)]; simp
  cells j hj := by
    have hlen := h.bound_len (by intro e; simp [e] at hj)
    rw [cellAt_append_left (by omega), cellAt_grown (h.fresh hfb)]
    exact h.cells j hj
  dead ht j hj h1 := by
    by_cases h2 : j < 16 * bl.length
    · rw [cellAt_append_left h2, cellAt_grown (h.fresh hfb)]
      exact h.dead ht j h2 h1
    · rw [cellAt_append_right (by omega), cellAt_fresh]
  live b hb := by
    by_cases e : b = s.nextB
    · subst e; exact ⟨_, upd_same _ _ _⟩
    · rw [grown_blk e]
      refine h.live b ?_
      simpa [e] using hb
  nodup := by
    rw [List.nodup_append]
    refine ⟨h.nodup, by simp, ?_⟩
    intro x hx y hy e
    simp only [List.mem_singleton] at hy
    exact h.fresh hfb (by rw [← hy, ← e]; exact hx)

theorem Rep0.grownFront0 {s : St α} {d xs first} (h : Rep0 triv s d none [] xs first) :
    Rep0 triv (grown s none [some s.nextB]) ⟨some s.nextA, 1, 0, 15, 15⟩ (some s.nextA) [s.nextB] xs 15 := by
  have hx := (h.nil rfl).1
  subst hx
  exact {
    blocks := rfl
    bsz := rfl
    size := rfl
    fst := rfl
    last1 := rfl
    bound := fun _ => by simp
    nil := fun e => by simp at e
    arrn := by simp
    arrs := fun x hx => by cases hx; rw [grown_arr (by simp)]; simp
    cells := fun j hj => by simp at hj
    dead := fun _ j _ _ => cellAt_fresh j
    live := fun b hb => by
      simp only [List.mem_singleton] at hb
      subst hb; exact ⟨_, upd_same _ _ _⟩
    nodup := by simp }

theorem Rep0.grownFront1 {s : St α} {d y b xs first} (h : Rep0 triv s d (some y) [b] xs first)
    (hfa : ∀ x, s.nextA ≤ x → s.arr x = none) (hfb : ∀ b, s.nextB ≤ b → s.blk b = none) :
    Rep0 triv (grown s (some y) [some s.nextB, some b])
      { d with blocks := some s.nextA, bsz := 2, first := d.first + 16, last := d.last + 16 }
      (some s.nextA) [s.nextB, b] xs (first + 16) where
  blocks := rfl
  bsz := rfl
  size := h.size
  fst := by show d.first + 16 = _; rw [h.fst]
  last1 := by show d.last + 16 + 1 = _; have := h.last1; omega
  bound _ := by have := h.bound (by simp); simp at this; show d.last + 16 < _; simp; omega
  nil e := by simp at e
  arrn := by simp
  arrs x hx := by cases hx; rw [grown_arr (h.freshA hfa)]; simp
  cells j hj := by
    have := cellAt_append_right (s := grown s (some y) [some s.nextB, some b]) (bl := [s.nextB]) (bl' := [b])
      (j := first + 16 + j) (by simp; omega)
    rw [show [s.nextB, b] = [s.nextB] ++ [b] from rfl, this, cellAt_grown (h.fresh hfb)]
    rw [show first + 16 + j - 16 * [s.nextB].length = first + j by simp; omega]
    exact h.cells j hj
  dead ht j hj h1 := by
    rw [show [s.nextB, b] = [s.nextB] ++ [b] from rfl]
    by_cases h2 : j < 16
    · rw [cellAt_append_left (by simpa using h2), cellAt_fresh]
    · rw [cellAt_append_right (by simp; omega), cellAt_grown (h.fresh hfb)]
      simp only [List.length_cons, List.length_nil] at hj ⊢
      exact h.dead ht _ (by simp; omega) (by omega)
  live c hc := by
    by_cases e : c = s.nextB
    · subst e; exact ⟨_, upd_same _ _ _⟩
    · rw [grown_blk e]
      refine h.live c ?_
      simpa [e] using hc
  nodup := by
    have := h.fresh hfb
    simpa using this

/-! ### Inserting and removing an element -/

theorem Rep0.putBack {s : St α} {d a bl xs first} (h : Rep0 triv s d a bl xs first) (hne : bl ≠ [])
    (hroom : 0 < xs.length → first + xs.length < 16 * bl.length) (v : α) :
    ∃ b, b ∈ bl ∧ getObj s { d with size := d.size + 1, last := if d.size = 0 then d.last else d.last + 1 }
        (if d.size = 0 then d.last else d.last + 1) = .ok (b, (first + xs.length) % 16) ∧
      construct triv s (b, (first + xs.length) % 16) v = .ok (setCell s (b, (first + xs.length) % 16) (some v)) ∧
      Rep0 triv (setCell s (b, (first + xs.length) % 16) (some v))
        { d with size := d.size + 1, last := if d.size = 0 then d.last else d.last + 1 } a bl (xs ++ [v]) first := by
  have hl := h.last1
  have hs := h.size
  have hbd := h.bound hne
  have hidx : (if d.size = 0 then d.last else d.last + 1) = first + xs.length := by split <;> omega
  have hlt : first + xs.length < 16 * bl.length := by
    by_cases hx : xs.length = 0
    · omega
    · exact hroom (by omega)
  obtain ⟨b, hb, hm, hg⟩ := getObj_ok h hlt
  obtain ⟨f, hf⟩ := h.live b hm
  refine ⟨b, hm, ?_, ?_, ?_⟩
  · rw [hidx, ← hg]; exact getObj_congr rfl _
  · have : triv = true ∨ f ((first + xs.length) % 16) = none := by
      cases ht : triv with
      | true => exact .inl rfl
      | false =>
        have := h.dead ht _ hlt (.inr (Nat.le_refl _))
        simp only [cellAt, hb, Option.bind_some, hf] at this
        exact .inr this
    rcases this with e | e <;> simp [construct, hf, e]
  · have hc := fun j => cellAt_setCell h.nodup hb hf (some v) j
    exact {
      blocks := h.blocks
      bsz := h.bsz
      size := by simp [hs]
      fst := h.fst
      last1 := by
        show (if d.size = 0 then d.last else d.last + 1) + 1 = _
        rw [hidx]; simp; omega
      bound := fun _ => by
        show (if d.size = 0 then d.last else d.last + 1) < _
        rw [hidx]; exact hlt
      nil := fun e => absurd e hne
      arrn := h.arrn
      arrs := h.arrs
      cells := fun j hj => by
        rw [hc]
        by_cases hjn : j = xs.length
        · subst hjn; simp
        · rw [if_neg (by omega)]
          simp only [List.length_append, List.length_singleton] at hj
          rw [h.cells j (by omega), List.getElem?_append_left (by omega)]
      dead := fun ht j hj h1 => by
        simp only [List.length_append, List.length_singleton] at h1
        rw [hc, if_neg (by omega)]
        exact h.dead ht j hj (by omega)
      live := fun b hb => by
        obtain ⟨f, hf⟩ := h.live b hb
        exact setCell_live hf
      nodup := h.nodup }

theorem Rep0.putFront {s : St α} {d a bl xs first} (h : Rep0 triv s d a bl xs first) (hne : bl ≠ [])
    (hroom : 0 < xs.length → 0 < first) (v : α) :
    let n := if xs.length = 0 then first else first - 1
    ∃ b, b ∈ bl ∧ getObj s { d with size := d.size + 1, first := if d.size = 0 then d.first else dec d.first }
        (if d.size = 0 then d.first else dec d.first) = .ok (b, n % 16) ∧
      construct triv s (b, n % 16) v = .ok (setCell s (b, n % 16) (some v)) ∧
      Rep0 triv (setCell s (b, n % 16) (some v))
        { d with size := d.size + 1, first := if d.size = 0 then d.first else dec d.first } a bl (v :: xs) n := by
  intro n
  have hl := h.last1
  have hs := h.size
  have hf1 := h.fst
  have hbd := h.bound hne
  have hidx : (if d.size = 0 then d.first else dec d.first) = n := by
    simp only [n, dec, hs, hf1]
    split
    · rfl
    · have := hroom (by omega); rw [if_neg (by omega)]
  have hn : n + (xs.length + 1) = first + max 1 xs.length := by
    simp only [n]; split
    · omega
    · have := hroom (by omega); omega
  have hlt : n < 16 * bl.length := by omega
  obtain ⟨b, hb, hm, hg⟩ := getObj_ok h hlt
  obtain ⟨f, hf⟩ := h.live b hm
  have hdn : n < first ∨ first + xs.length ≤ n := by
    simp only [n]; split
    · omega
    · have := hroom (by omega); omega
  refine ⟨b, hm, ?_, ?_, ?_⟩
  · rw [hidx, ← hg]; exact getObj_congr rfl _
  · have : triv = true ∨ f (n % 16) = none := by
      cases ht : triv with
      | true => exact .inl rfl
      | false =>
        have := h.dead ht _ hlt hdn
        simp only [cellAt, hb, Option.bind_some, hf] at this
        exact .inr this
    rcases this with e | e <;> simp [construct, hf, e]
  · have hc := fun j => cellAt_setCell h.nodup hb hf (some v) j
    exact {
      blocks := h.blocks
      bsz := h.bsz
      size := by simp [hs]
      fst := hidx
      last1 := by
        show d.last + 1 = _
        simp only [List.length_cons]; omega
      bound := fun _ => hbd
      nil := fun e => absurd e hne
      arrn := h.arrn
      arrs := h.arrs
      cells := fun j hj => by
        rw [hc]
        by_cases hj0 : j = 0
        · subst hj0; simp
        · rw [if_neg (by omega)]
          simp only [List.length_cons] at hj
          have := h.cells (j - 1) (by omega)
          have hne0 : first = n + 1 := by omega
          rw [show n + j = first + (j - 1) by omega, this]
          cases j with
          | zero => exact absurd rfl hj0
          | succ j => simp
      dead := fun ht j hj h1 => by
        simp only [List.length_cons] at h1
        rw [hc, if_neg (by omega)]
        exact h.dead ht j hj (by omega)
      live := fun b hb => by
        obtain ⟨f, hf⟩ := h.live b hb
        exact setCell_live hf
      nodup := h.nodup }

end Verif.Deque
