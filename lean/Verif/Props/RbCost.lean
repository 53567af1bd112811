import Verif.Lemmas.RbCostErase
import Verif.Props.RbTree

/-!
Property C116: how long it takes to search in a set, to add to it and to erase from it.

The fuel of a call bounds the rounds of each of its loops, and every round of the loops that search
compares the key with one element. So a call that returns if and only if it is given more than `n`
rounds has gone through `n` elements.
-/

set_option backward.isDefEq.respectTransparency false

namespace Verif.Rb
open Verif
open Verif.Box (Slot upd upd_same upd_ne)

variable {α : Type} {lt : α → α → Bool} {multi : Bool} {s s' : St α} {k : Nat} {l : List (Nat × α)}

/-- The call returns `a` after `n` rounds of its loop, and not before. -/
def Rounds {β : Type} (g : Nat → Res β) (n : Nat) (a : β) : Prop := ∀ f, g f = if n < f then .ok a else .oof

theorem Rounds.of {β : Type} {g : Nat → Res β} {n : Nat} {a : β} (cv : Conv g a) (h : ∀ f, g f ≠ .oof ↔ n < f) : Rounds g n a := by
  intro f
  split
  · rename_i hf
    rcases cv.2 f with e | e
    · exact absurd e ((h f).2 hf)
    · exact e
  · rename_i hf
    cases e : g f with
    | oof => rfl
    | ok x => exact absurd ((h f).1 (by rw [e]; intro h; cases h)) hf
    | ub => exact absurd ((h f).1 (by rw [e]; intro h; cases h)) hf

theorem find_rounds {P : T α → Prop} {σ : Sp α} (I : Inv lt multi P s σ) {h : Nat} {l : List (Nat × α)} (hk : σ.tree (.user k) = some (h, l))
    {t : T α} (i : Tr s h t) (key : α) (f : Nat) :
    find lt f s (.user k) key ≠ .oof ↔ pathL lt key t < f := by
  have hi : In s _ s h _ _ t := i
  rw [← lowerLoop_rounds key t [] (some h) f i]
  unfold find
  rw [I.get hk, Res.ok_bind]
  simp only
  rw [hi.root, Res.ok_bind]
  constructor
  · intro h e; rw [e] at h; exact h rfl
  · intro h
    refine noof_bind h fun n _ => ?_
    split
    · intro h; cases h
    · refine noof_bind (noof_key _ _) fun _ _ => ?_
      split <;> (intro h; cases h)

/-- C116, the exact cost of searching: `find` and `lower_bound` return after `pathL` rounds and
`upper_bound` after `pathU`, the numbers of elements on their ways down the tree. These are at most
the depth of the tree. -/
theorem C116_search (w : Swo lt) (hr : Reach lt multi true s) {t : T α} (ht : Holds s k t) (key : α) :
    (∃ it, Rounds (fun f => find lt f s (.user k) key) (pathL lt key t) it) ∧
    (∃ it, Rounds (fun f => lowerBound lt f s (.user k) key) (pathL lt key t) it) ∧
    (∃ it, Rounds (fun f => upperBound lt f s (.user k) key) (pathU lt key t) it) ∧
    pathL lt key t ≤ t.depth ∧ pathU lt key t ≤ t.depth := by
  obtain ⟨σ, I, _⟩ := hr.state w
  obtain ⟨h, l, hk, i, hl, _⟩ := ht.tr I
  have hi : In s _ s h _ _ t := i
  refine ⟨?_, ⟨_, .of (lowerBound_ok w I hk key) fun f => ?_⟩, ⟨_, .of (upperBound_ok w I hk key) fun f => ?_⟩, pathL_le key t, pathU_le key t⟩
  · obtain ⟨A, B, C, e, hA, hB, hC⟩ := split3 w key l (I.ord _ _ hk).sorted
    have e : l = A ++ B ++ C := e
    exact ⟨_, .of (find_ok w I (by rw [← e]; exact hk) hA hB hC) (find_rounds I hk i key)⟩
  · rw [← lowerLoop_rounds key t [] (some h) f i, lowerBound, I.get hk, Res.ok_bind]
    simp only
    rw [hi.root, Res.ok_bind]
  · rw [← upperLoop_rounds key t [] (some h) f i, upperBound, I.get hk, Res.ok_bind]
    simp only
    rw [hi.root, Res.ok_bind]

example : ∃ s t, Reach (fun a b : Nat => decide (a < b)) false true s ∧ Holds s 0 t ∧ t.inl.map (·.2) = [1, 2, 3, 4, 5] := by
  obtain ⟨s, σ, h, l, rs, _, hr, I, _, hk, e⟩ := history natSwo false true [3, 1, 4, 5, 2] (.inl rfl)
  obtain ⟨t, i, hti, _⟩ := I.rep _ _ hk
  have i : Tr s h t := i
  have hti : t.inl = l := hti
  exact ⟨s, t, hr, ⟨h, l.length, by rw [I.slot, hk]; rfl, In.root i, In.rep i⟩, by rw [hti, e]; rfl⟩

/-- C116, the cost of adding: `insert` returns if each of its loops may take one round more than the
tree is deep. -/
theorem C116_insert (w : Swo lt) (hr : Reach lt multi true s) {t : T α} (ht : Holds s k t) (v : α) :
    ∃ s' it new, ∀ f, t.depth < f → step lt multi f s (.insert k v) = .ok (s', .iter it new) := by
  obtain ⟨σ, I, _⟩ := hr.state w
  obtain ⟨h, l, hk, i, hl, hred⟩ := ht.tr I
  obtain ⟨s', it, new, l', _, _, cv, _⟩ := insert_ok w I keep_root hk v (.inl rfl)
  refine ⟨s', it, new, fun f hf => ?_⟩
  have h1 := insert_fuel w I hk i hl hred v hf
  rcases cv.2 f with e | e
  · exact absurd e h1
  · show (Rb.insert lt multi f s (.user k) v >>= _) = _
    have e : Rb.insert lt multi f s (.user k) v = _ := e
    rw [e]; rfl

example : ∃ s t, Reach (fun a b : Nat => decide (a < b)) true true s ∧ Holds s 0 t ∧ t.inl.map (·.2) = [1, 3, 3, 4] := by
  obtain ⟨s, σ, h, l, rs, _, hr, I, _, hk, e⟩ := history natSwo true true [3, 1, 4, 3] (.inl rfl)
  obtain ⟨t, i, hti, _⟩ := I.rep _ _ hk
  have i : Tr s h t := i
  have hti : t.inl = l := hti
  exact ⟨s, t, hr, ⟨h, l.length, by rw [I.slot, hk]; rfl, In.root i, In.rep i⟩, by rw [hti, e]; rfl⟩

/-- C116, the cost of erasing: `erase(it)` never ends (C35), or returns if each of its loops may take
one round more than the tree is deep. -/
theorem C116_erase (w : Swo lt) (hr : Reach lt multi true s) {t : T α} (ht : Holds s k t) {a : Nat} (hl : Legal s (.eraseIt k a)) :
    Div (fun f => step lt multi f s (.eraseIt k a)) ∨ ∃ r, ∀ f, t.depth < f → step lt multi f s (.eraseIt k a) = .ok r := by
  obtain ⟨σ, I, hT⟩ := hr.state w
  obtain ⟨h, l, hk, i, hti, _⟩ := ht.tr I
  rcases (call w keep_root I hT hl (.inl rfl)).symm with ⟨_, dv⟩ | ⟨r, _, cv⟩
  · exact .inl dv
  · obtain ⟨xs, v, ys, hw⟩ := hl
    obtain ⟨h', hk'⟩ := I.of_walk hw
    rw [hk] at hk'
    injection hk' with hk'
    injection hk' with h1 h2
    subst h1 h2
    rcases erase_fuel I hk i hti with dv | hf
    · refine .inl fun f => ?_
      show (erase f s (.user k) (some a) >>= _) = _
      have : erase f s (.user k) (some a) = .oof := dv f
      rw [this]; rfl
    · refine .inr ⟨r, fun f hlt => ?_⟩
      rcases cv.2 f with e | e
      · exfalso
        have h3 : step lt multi f s (.eraseIt k a) ≠ .oof := noof_bind (hf f hlt) fun _ _ h => by cases h
        exact h3 e
      · exact e

example : ∃ s t a, Reach (fun a b : Nat => decide (a < b)) false true s ∧ Holds s 0 t ∧ Legal s (.eraseIt 0 a) := by
  obtain ⟨s, σ, h, l, rs, _, hr, I, _, hk, e⟩ := history natSwo false true [3, 1, 4, 5, 2] (.inl rfl)
  obtain ⟨t, i, hti, _⟩ := I.rep _ _ hk
  have i : Tr s h t := i
  cases l with
  | nil => exact absurd e (by decide)
  | cons x l => exact ⟨s, t, x.1, hr, ⟨h, _, by rw [I.slot, hk]; rfl, In.root i, In.rep i⟩, [], x.2, l, I.walk hk⟩

/-- A tree with the same number of black nodes on all paths, and no red node below a red one, is shallow. -/
theorem shallow {t : T α} {n : Nat} (hred : t.red = false) (hn : Bal t n) : 2 ^ t.depth ≤ (t.inl.length + 1) ^ 2 := by
  have h1 := hn.size
  have h2 := hn.depth
  rw [hred] at h2
  simp at h2
  calc 2 ^ t.depth ≤ 2 ^ (n * 2) := Nat.pow_le_pow_right (by omega) (by omega)
    _ = (2 ^ n) ^ 2 := Nat.pow_mul 2 n 2
    _ ≤ (t.inl.length + 1) ^ 2 := Nat.pow_le_pow_left h1 2

/-- `f` rounds are enough for a key to be found, for its bounds, to add it, and to erase an element. -/
def Enough (lt : α → α → Bool) (multi : Bool) (s : St α) (k : Nat) (f : Nat) : Prop :=
  (∀ key, (∃ it, find lt f s (.user k) key = .ok it) ∧ (∃ it, lowerBound lt f s (.user k) key = .ok it) ∧
    (∃ it, upperBound lt f s (.user k) key = .ok it) ∧ ∃ r, step lt multi f s (.insert k key) = .ok r) ∧
  ∀ a, Legal s (.eraseIt k a) → ∃ r, step lt multi f s (.eraseIt k a) = .ok r

/-- C116, what holds of states: after any history, if all trees are red-black trees, more rounds than twice
the binary logarithm of the number of elements plus one are enough for every call. Missing: the other
states, which exist (C36). -/
theorem C116_balanced_partial (w : Swo lt) (hr : Reach lt multi true s) (hb : Balanced s) (hx : Exists s k) :
    ∃ l, Walk s k l ∧ ∀ f, (l.length + 1) ^ 2 < 2 ^ f → Enough lt multi s k f := by
  obtain ⟨σ, I, _⟩ := hr.state w
  obtain ⟨⟨h, l⟩, hk⟩ := (I.exists k).1 hx
  obtain ⟨t, i, hti, hred⟩ := I.rep _ _ hk
  have i : Tr s h t := i
  have hti : t.inl = l := hti
  have ht : Holds s k t := ⟨h, l.length, by rw [I.slot, hk]; rfl, In.root i, In.rep i⟩
  obtain ⟨_, n, hn⟩ := hb k t ht
  refine ⟨l, I.walk hk, fun f hf => ?_⟩
  have hs := shallow hred hn
  rw [hti] at hs
  have hf : t.depth < f := (Nat.pow_lt_pow_iff_right (by omega)).1 (Nat.lt_of_le_of_lt hs hf)
  refine ⟨fun key => ?_, fun a hl => ?_⟩
  · obtain ⟨⟨i1, h1⟩, ⟨i2, h2⟩, ⟨i3, h3⟩, hL, hU⟩ := C116_search w hr ht key
    obtain ⟨s', it, new, h4⟩ := C116_insert w hr ht key
    refine ⟨⟨i1, ?_⟩, ⟨i2, ?_⟩, ⟨i3, ?_⟩, _, h4 f hf⟩
    · have := h1 f; rwa [if_pos (by omega)] at this
    · have := h2 f; rwa [if_pos (by omega)] at this
    · have := h3 f; rwa [if_pos (by omega)] at this
  · rcases C116_erase w hr ht hl with dv | ⟨r, h1⟩
    · obtain ⟨s', r, ⟨⟨n, hn⟩, _⟩, _⟩ := C36_calls_partial w hr hb hl trivial
      have h2 := hn n (Nat.le_refl n)
      have h3 := dv n
      rw [h2] at h3; cases h3
    · exact ⟨r, h1 f hf⟩

/-- A multiset of five elements. -/
example : ∃ s, Reach (fun a b : Nat => decide (a < b)) true true s ∧ Balanced s ∧ Exists s 0 ∧ (5 + 1) ^ 2 < 2 ^ 6 := by
  obtain ⟨s, σ, h, l, rs, _, hr, I, _, hk, e⟩ := history natSwo true false [1, 2, 2, 4, 5] (.inr (by decide))
  obtain ⟨σ', I', _⟩ := hr.inv natSwo keep_valid
  exact ⟨s, hr.any, fun k t ht => by obtain ⟨_, _, _, _, _, hv⟩ := ht.tr I'; exact hv, (I.exists 0).2 ⟨_, hk⟩, by decide⟩

/-- C116, what holds of histories: the same if elements were only ever added at the end (and erased
anywhere). The next element may be added anywhere. Missing: other histories. -/
theorem C116_appended_partial (w : Swo lt) (hr : Reach lt multi false s) (hx : Exists s k) :
    ∃ l, Walk s k l ∧ ∀ f, (l.length + 1) ^ 2 < 2 ^ f → Enough lt multi s k f := by
  obtain ⟨σ, I, _⟩ := hr.inv w keep_valid
  exact C116_balanced_partial w hr.any (fun k t ht => by obtain ⟨_, _, _, _, _, hv⟩ := ht.tr I; exact hv) hx

/-- A set of six elements: six rounds are enough. -/
example : ∃ s, Reach (fun a b : Nat => decide (a < b)) false false s ∧ Exists s 0 ∧ (6 + 1) ^ 2 < 2 ^ 6 := by
  obtain ⟨s, σ, h, l, rs, _, hr, I, _, hk, e⟩ := history natSwo false false [1, 2, 3, 4, 5, 6] (.inr (by decide))
  exact ⟨s, hr, (I.exists 0).2 ⟨_, hk⟩, by decide⟩

theorem pathL_spine {key : α} {r : List (Nat × α)} (h : ∀ y ∈ r.dropLast, lt y.2 key = true) : pathL lt key (spine r) = r.length := by
  induction r with
  | nil => rfl
  | cons x r ih =>
    cases r with
    | nil => simp [spine, pathL]
    | cons y r =>
      simp only [List.dropLast_cons_cons, List.mem_cons, forall_eq_or_imp] at h
      simp only [spine, pathL, h.1, if_true] at ih ⊢
      rw [ih h.2]; simp; omega

/-- C116 is violated: after inserting three or more keys in descending order, finding the greatest one
takes one round less than there are elements. -/
theorem C116_descending_violated (w : Swo lt) (multi : Bool) (v : α) (vs : List α) (hd : (v :: vs).Pairwise fun x y => lt y x = true) (hlen : 2 ≤ vs.length) :
    ∃ s rs it, Conv (fun f => run lt multi f St.init (.make 0 :: (v :: vs).map (.insert 0))) (s, rs) ∧ Reach lt multi true s ∧
      Rounds (fun f => find lt f s (.user 0) v) vs.length it := by
  obtain ⟨s, σ, h, l, rs, cv, hr, I, ht, hk, e, i⟩ := descending_history w multi (v :: vs) hd
  have hl : l.length = vs.length + 1 := by rw [← List.length_map (f := (·.2)), e]; simp
  have hh : Holds s 0 (dchain l) := ⟨h, l.length, by rw [I.slot, hk]; rfl, In.root i, In.rep i⟩
  obtain ⟨⟨it, h1⟩, _⟩ := C116_search w hr hh v
  refine ⟨s, rs, it, cv, hr, ?_⟩
  suffices hp : pathL lt v (dchain l) = vs.length by rwa [hp] at h1
  rw [List.pairwise_cons] at hd
  clear h1 hh i hk cv
  match l, hl, e with
  | [_], hl, _ => have : 1 = vs.length + 1 := hl; omega
  | x :: y :: r, hl, e =>
    have hlt : ∀ z ∈ (x :: y :: r).dropLast, lt z.2 v = true := by
      intro z hz
      have h2 : z.2 ∈ ((x :: y :: r).map (·.2)).dropLast := by
        rw [← List.map_dropLast]; exact List.mem_map_of_mem hz
      rw [e] at h2
      simp only [List.reverse_cons, List.dropLast_concat, List.mem_reverse] at h2
      exact hd.1 _ h2
    have hr0 : r ≠ [] := by rintro rfl; simp at hl; omega
    obtain ⟨z, r', rfl⟩ : ∃ z r', r = z :: r' := by
      cases r with
      | nil => exact absurd rfl hr0
      | cons z r' => exact ⟨z, r', rfl⟩
    simp only [List.dropLast_cons_cons, List.mem_cons, forall_eq_or_imp] at hlt
    simp only [dchain, pathL, hlt.2.1, if_true]
    rw [pathL_spine (by intro q hq; exact hlt.2.2 q hq)]
    simp at hl ⊢; omega

example : ((9 :: [7, 5, 2, 1] : List Nat).Pairwise fun x y => decide (y < x) = true) ∧ 2 ≤ ([7, 5, 2, 1] : List Nat).length := by decide

end Verif.Rb
