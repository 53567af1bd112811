import Verif.Base.ObjHeap

/-! Lemmas about the object heap: ownership of a block with known slots. -/

set_option backward.isDefEq.respectTransparency false

namespace Verif.OH
open Verif

variable {α : Type}

/-- Block `b` is allocated with capacity `cap` and slots `f`. -/
def Own (h : Heap α) (b cap : Nat) (f : Nat → Slot α) : Prop :=
  ∃ B, h.blocks b = some B ∧ B.cap = cap ∧ ∀ i, i < cap → B.slot i = f i

/-- `h'` differs from `h` at most in block `b`, which stays allocated or not. -/
def Same (b : Nat) (h h' : Heap α) : Prop :=
  h'.next = h.next ∧ (∀ x, x ≠ b → h'.blocks x = h.blocks x)

/-- Addresses from `next` on are unused. -/
def Fresh (h : Heap α) : Prop := ∀ b, h.next ≤ b → h.blocks b = none

theorem Same.refl (b : Nat) (h : Heap α) : Same b h h := ⟨rfl, fun _ _ => rfl⟩

theorem Same.trans {b : Nat} {h1 h2 h3 : Heap α} (h : Same b h1 h2) (h' : Same b h2 h3) :
    Same b h1 h3 :=
  ⟨h'.1.trans h.1, fun x hx => (h'.2 x hx).trans (h.2 x hx)⟩

theorem Own.congr {h : Heap α} {b cap : Nat} {f g : Nat → Slot α} (H : Own h b cap f)
    (hfg : ∀ i, i < cap → f i = g i) : Own h b cap g := by
  obtain ⟨B, h1, h2, h3⟩ := H
  exact ⟨B, h1, h2, fun i hi => (h3 i hi).trans (hfg i hi)⟩

theorem Own.other {h h' : Heap α} {b c cap : Nat} {f : Nat → Slot α} (H : Own h b cap f)
    (hs : Same c h h') (hne : b ≠ c) : Own h' b cap f := by
  obtain ⟨B, h1, h2⟩ := H
  exact ⟨B, (hs.2 b hne).trans h1, h2⟩

theorem Own.isSome {h : Heap α} {b cap : Nat} {f : Nat → Slot α} (H : Own h b cap f) :
    h.blocks b ≠ none := by
  obtain ⟨B, h1, _⟩ := H; simp [h1]

theorem Own.look {h : Heap α} {b cap : Nat} {f : Nat → Slot α} (H : Own h b cap f) {i : Nat}
    (hi : i < cap) : look h (some b) i = some (b, f i) := by
  obtain ⟨B, h1, h2, h3⟩ := H
  subst h2
  simp [OH.look, h1, hi, h3 i hi]

theorem Own.upd {h : Heap α} {b cap : Nat} {f : Nat → Slot α} (H : Own h b cap f) (i : Nat)
    (s : Slot α) : Own (upd h b i s) b cap (fun j => if j = i then s else f j) := by
  obtain ⟨B, h1, h2, h3⟩ := H
  refine ⟨{ B with slot := fun j => if j = i then s else B.slot j }, by simp [OH.upd, h1], h2, ?_⟩
  intro j hj
  simp only [h3 j hj]

theorem same_upd (h : Heap α) (b i : Nat) (s : Slot α) : Same b h (upd h b i s) :=
  ⟨rfl, fun x hx => by simp [OH.upd, hx]⟩

theorem read_own {h : Heap α} {b cap : Nat} {f : Nat → Slot α} (H : Own h b cap f) {i : Nat}
    {v : Option α} (hi : i < cap) (hf : f i = .obj v) : read h (some b) i = .ok v := by
  simp [read, H.look hi, hf]

theorem assign_own {h : Heap α} {b cap : Nat} {f : Nat → Slot α} (H : Own h b cap f) {i : Nat}
    {w : Option α} (hi : i < cap) (hf : f i = .obj w) (v : Option α) :
    ∃ h', assign h (some b) i v = .ok h' ∧
      Own h' b cap (fun j => if j = i then .obj v else f j) ∧ Same b h h' :=
  ⟨_, by simp [assign, H.look hi, hf], H.upd i _, same_upd h b i _⟩

theorem construct_own {h : Heap α} {b cap : Nat} {f : Nat → Slot α} (H : Own h b cap f) {i : Nat}
    (hi : i < cap) (hf : f i = .raw) (v : Option α) :
    ∃ h', construct h (some b) i v = .ok h' ∧
      Own h' b cap (fun j => if j = i then .obj v else f j) ∧ Same b h h' :=
  ⟨_, by simp [construct, H.look hi, hf], H.upd i _, same_upd h b i _⟩

theorem destroy_own {h : Heap α} {b cap : Nat} {f : Nat → Slot α} (H : Own h b cap f) {i : Nat}
    {w : Option α} (hi : i < cap) (hf : f i = .obj w) :
    ∃ h', destroy h (some b) i = .ok h' ∧
      Own h' b cap (fun j => if j = i then .raw else f j) ∧ Same b h h' :=
  ⟨_, by simp [destroy, H.look hi, hf], H.upd i _, same_upd h b i _⟩

theorem destroyRange_own {b cap : Nat} {f : Nat → Slot α} {h : Heap α} (H : Own h b cap f)
    {i j : Nat} (hj : i ≤ j) (hc : j ≤ cap) (hf : ∀ k, i ≤ k → k < j → ∃ v, f k = .obj v) :
    ∃ h', destroyRange h (some b) i j = .ok h' ∧
      Own h' b cap (fun k => if i ≤ k ∧ k < j then .raw else f k) ∧ Same b h h' := by
  unfold destroyRange
  obtain ⟨h', e, ho, hs⟩ := forUp_inv
    (I := fun n h' => Own h' b cap (fun k => if i ≤ k ∧ k < i + n then .raw else f k) ∧ Same b h h')
    (f := fun k h => destroy h (some b) (i + k)) h (j - i)
    ⟨H.congr (fun k _ => by rw [if_neg (by omega)]), Same.refl b h⟩ (by
      rintro n h1 hn ⟨ho, hs⟩
      obtain ⟨v, hv⟩ := hf (i + n) (by omega) (by omega)
      obtain ⟨h2, e2, ho2, hs2⟩ := destroy_own ho (i := i + n) (w := v) (by omega)
        (by rw [if_neg (by omega)]; exact hv)
      refine ⟨h2, e2, ho2.congr ?_, hs.trans hs2⟩
      intro k hk
      by_cases e : k = i + n
      · rw [if_pos e, if_pos (by omega)]
      · rw [if_neg e]
        by_cases e' : i ≤ k ∧ k < i + n
        · rw [if_pos e', if_pos (by omega)]
        · rw [if_neg e', if_neg (by omega)])
  exact ⟨h', e, by rwa [show i + (j - i) = j by omega] at ho, hs⟩

theorem moveAssign_own (E : Elem α) {h : Heap α} {b cap : Nat} {f : Nat → Slot α}
    (H : Own h b cap f) {i j : Nat} {v w : Option α} (hi : i < cap) (hj : j < cap) (hij : i ≠ j)
    (hfj : f j = .obj v) (hfi : f i = .obj w) :
    ∃ h', moveAssign E h (some b) i (some b) j = .ok h' ∧
      Own h' b cap (fun k => if k = i then .obj v else if k = j then .obj none else f k) ∧
      Same b h h' := by
  obtain ⟨h1, e1, o1, s1⟩ := assign_own H hj hfj none
  obtain ⟨h2, e2, o2, s2⟩ := assign_own o1 (i := i) (w := w) hi (by simp [hij, hfi]) v
  refine ⟨h2, ?_, o2, s1.trans s2⟩
  simp only [moveAssign, read_own H hj hfj, Res.ok_bind]
  rw [if_neg (by simp [hij]), e1]
  exact e2

theorem moveAssign_self (E : Elem α) (hE : E.selfMoveOk = true) {h : Heap α} {b cap : Nat}
    {f : Nat → Slot α} (H : Own h b cap f) {i : Nat} {v : Option α} (hi : i < cap)
    (hfi : f i = .obj v) :
    ∃ h', moveAssign E h (some b) i (some b) i = .ok h' ∧ Own h' b cap f ∧ Same b h h' := by
  obtain ⟨h1, e1, o1, s1⟩ := assign_own H hi hfi v
  refine ⟨h1, ?_, o1.congr (fun k _ => ?_), s1⟩
  · simp only [moveAssign, read_own H hi hfi, Res.ok_bind]
    rw [if_pos ⟨trivial, trivial⟩, hE]
    exact e1
  · by_cases e : k = i
    · rw [if_pos e, e, hfi]
    · rw [if_neg e]

theorem allRawB_iff (B : Block α) : allRawB B = true ↔ ∀ i, i < B.cap → B.slot i = .raw := by
  simp only [allRawB, List.all_eq_true, List.mem_range]
  refine forall_congr' fun i => imp_congr_right fun _ => ?_
  cases B.slot i <;> simp [isRaw]

/-- The heap without block `b`. -/
def free (h : Heap α) (b : Nat) : Heap α :=
  { h with blocks := fun x => if x = b then none else h.blocks x }

theorem dealloc_own {h : Heap α} {b cap : Nat} {f : Nat → Slot α} (H : Own h b cap f)
    (hf : ∀ i, i < cap → f i = .raw) : dealloc h (some b) = .ok (free h b) := by
  obtain ⟨B, h1, h2, h3⟩ := H
  have : allRawB B = true := (allRawB_iff B).mpr (fun i hi => by
    rw [h3 i (by omega)]; exact hf i (by omega))
  simp [dealloc, h1, this, free]

theorem alloc_own (h : Heap α) (n : Nat) : Own (alloc h n).2 h.next n (fun _ => .raw) :=
  ⟨⟨n, fun _ => .raw⟩, by simp [alloc], rfl, fun _ _ => rfl⟩

theorem Fresh.same {h h' : Heap α} {b : Nat} (H : Fresh h) (hs : Same b h h')
    (hb : h.blocks b ≠ none) : Fresh h' := by
  intro x hx
  rw [hs.1] at hx
  have : x ≠ b := fun e => hb (e ▸ H x hx)
  rw [hs.2 x this]
  exact H x hx

end Verif.OH
