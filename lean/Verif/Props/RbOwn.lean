import Verif.Model.RbOwn
import Verif.Props.RbTree

/-!
C120: the functions of `set` and `multiset` may be given references to elements, of the same or another set.
`Walk s j m` and `(n, v) ∈ m` say that the element with value `v` in node `n` belongs to set `j`.
-/

set_option backward.isDefEq.respectTransparency false

namespace Verif.Rb
open Verif
open Verif.Box (Slot upd upd_same upd_ne)

variable {α : Type} {lt : α → α → Bool} {multi : Bool} {s s' : St α} {k j : Nat} {l m : List (Nat × α)}

section
variable {key : Key α} {v : α} (hk : key.read s = .ok v)
include hk

theorem lowerLoopK_eq (f : Nat) (node cur : Option Nat) : lowerLoopK lt f s key node cur = lowerLoop lt f s v node cur := by
  induction f generalizing node cur with
  | zero => rfl
  | succ f ih =>
    cases cur with
    | none => rfl
    | some a => simp only [lowerLoopK, lowerLoop, hk, Res.ok_bind, ih]

theorem upperLoopK_eq (f : Nat) (node cur : Option Nat) : upperLoopK lt f s key node cur = upperLoop lt f s v node cur := by
  induction f generalizing node cur with
  | zero => rfl
  | succ f ih =>
    cases cur with
    | none => rfl
    | some a => simp only [upperLoopK, upperLoop, hk, Res.ok_bind, ih]

theorem posLoopK_eq (f : Nat) (node cur : Option Nat) (b : Bool) : posLoopK lt f s key node cur b = posLoop lt f s v node cur b := by
  induction f generalizing node cur b with
  | zero => rfl
  | succ f ih =>
    cases cur with
    | none => rfl
    | some a => simp only [posLoopK, posLoop, hk, Res.ok_bind, ih]

theorem findK_eq (f : Nat) (k : Slot) : findK lt f s k key = find lt f s k v := by
  simp only [findK, find, lowerLoopK_eq hk, hk, Res.ok_bind]

theorem lowerBoundK_eq (f : Nat) (k : Slot) : lowerBoundK lt f s k key = lowerBound lt f s k v := by
  simp only [lowerBoundK, lowerBound, lowerLoopK_eq hk]

theorem upperBoundK_eq (f : Nat) (k : Slot) : upperBoundK lt f s k key = upperBound lt f s k v := by
  simp only [upperBoundK, upperBound, upperLoopK_eq hk]

theorem equalRangeMultiK_eq (f : Nat) (k : Slot) : equalRangeMultiK lt f s k key = equalRangeMulti lt f s k v := by
  simp only [equalRangeMultiK, equalRangeMulti, lowerBoundK_eq hk, upperBoundK_eq hk]

theorem equalRangeUniqueK_eq (f : Nat) (k : Slot) : equalRangeUniqueK lt f s k key = equalRangeUnique lt f s k v := by
  simp only [equalRangeUniqueK, equalRangeUnique, findK_eq hk]

theorem countUniqueK_eq (f : Nat) (k : Slot) : countUniqueK lt f s k key = countUnique lt f s k v := by
  simp only [countUniqueK, countUnique, findK_eq hk]

theorem countMultiK_eq (f : Nat) (k : Slot) : countMultiK lt f s k key = countMulti lt f s k v := by
  simp only [countMultiK, countMulti, equalRangeMultiK_eq hk]

theorem eraseKeyK_eq (f : Nat) (k : Slot) :
    eraseKeyK lt multi f s k key = if multi then eraseMulti lt f s k v else eraseUnique lt f s k v := by
  simp only [eraseKeyK, eraseMultiK, eraseUniqueK, eraseMulti, eraseUnique, equalRangeMultiK_eq hk, findK_eq hk]

theorem insertMultiPosK_eq (f : Nat) (k : Slot) : insertMultiPosK lt f s k key = insertMultiPos lt f s k v := by
  simp only [insertMultiPosK, insertMultiPos, posLoopK_eq hk]

theorem insertUniquePosK_eq (f : Nat) (k : Slot) : insertUniquePosK lt f s k key = insertUniquePos lt f s k v := by
  simp only [insertUniquePosK, insertUniquePos, posLoopK_eq hk, hk, Res.ok_bind]

theorem insertK_eq (f : Nat) (k : Slot) : insertK lt multi f s k key = insert lt multi f s k v := by
  have hkey : getKey (createNode s v).1 (some s.next) = .ok v := by
    simp only [getKey, rd, createNode, upd_same, Res.ok_bind]
  have hn : (createNode s v).2 = some s.next := rfl
  cases multi with
  | true =>
    simp only [insertK, hk, Res.ok_bind, insert, if_true, emplaceMulti, hn, hkey]
    rw [insertMultiPosK_eq (key := .elem s.next) (v := v) hkey]
    cases insertMultiPos lt f (createNode s v).1 k v with
    | ok x => rfl
    | ub => rfl
    | oof => rfl
  | false =>
    simp only [insertK, hk, Res.ok_bind, insert, emplaceUnique, hn, hkey]
    rw [insertUniquePosK_eq (key := .elem s.next) (v := v) hkey]
    rfl

end

/-- An element can be read where it is. -/
theorem read_elem (w : Swo lt) (hr : Reach lt multi true s) (hm : Walk s j m) {n : Nat} {v : α} (hn : (n, v) ∈ m) :
    (Key.elem n : Key α).read s = .ok v := by
  obtain ⟨σ, I, _⟩ := hr.state w
  obtain ⟨h, hj⟩ := I.of_walk hm
  obtain ⟨xs, ys, rfl⟩ := List.append_of_mem hn
  exact I.key hj

/-- **C120**, searching: given a reference to an element with the value `v`, of this set or another, the functions find
the elements equivalent to `v`: `B` are those, `A` the smaller and `C` the greater ones. -/
theorem C120_search (w : Swo lt) (hr : Reach lt multi true s) (hw : Walk s k l) (hm : Walk s j m) {n : Nat} {v : α}
    (hn : (n, v) ∈ m) :
    ∃ h A B C, end' s (.user k) = .ok (some h) ∧ l = A ++ B ++ C ∧ (∀ x ∈ A, lt x.2 v = true) ∧
      (∀ x ∈ B, lt x.2 v = false ∧ lt v x.2 = false) ∧ (∀ x ∈ C, lt v x.2 = true) ∧ (j = k → (n, v) ∈ B) ∧
      Conv (fun f => lowerBoundK lt f s (.user k) (.elem n)) (some (beg h (B ++ C))) ∧
      Conv (fun f => upperBoundK lt f s (.user k) (.elem n)) (some (beg h C)) ∧
      Conv (fun f => findK lt f s (.user k) (.elem n)) (some (beg h B)) ∧
      Conv (fun f => equalRangeMultiK lt f s (.user k) (.elem n)) (some (beg h (B ++ C)), some (beg h C)) ∧
      Conv (fun f => countMultiK lt f s (.user k) (.elem n)) B.length ∧
      (multi = false → B.length ≤ 1 ∧ Conv (fun f => countUniqueK lt f s (.user k) (.elem n)) B.length ∧
        Conv (fun f => equalRangeUniqueK lt f s (.user k) (.elem n))
          (if B = [] then (some h, some h) else (some (beg h (B ++ C)), some (beg h C)))) := by
  have hk := read_elem w hr hm hn
  obtain ⟨h, A, B, C, h1, h2, h3, h4, h5, h6, h7, h8, h9, h10, h11⟩ := C31_search_exact w hr hw v
  refine ⟨h, A, B, C, h1, h2, h3, h4, h5, ?_, ?_, ?_, ?_, ?_, ?_, ?_⟩
  · rintro rfl
    obtain ⟨N, hN⟩ := hw.1
    have hml : l = m := hm.eq (hN N (Nat.le_refl N))
    subst hml
    subst h2
    have hirr : lt v v = false := by
      cases e : lt v v with
      | false => rfl
      | true => have := w.asymm v v e; rw [this] at e; cases e
    rcases List.mem_append.1 hn with hn | hn
    · rcases List.mem_append.1 hn with hn | hn
      · have := h3 _ hn; rw [hirr] at this; cases this
      · exact hn
    · have := h5 _ hn; rw [hirr] at this; cases this
  · exact h6.congr fun f => lowerBoundK_eq hk f _
  · exact h7.congr fun f => upperBoundK_eq hk f _
  · exact h8.congr fun f => findK_eq hk f _
  · exact h9.congr fun f => equalRangeMultiK_eq hk f _
  · exact h10.congr fun f => countMultiK_eq hk f _
  · intro hf
    obtain ⟨h12, h13, h14⟩ := h11 hf
    exact ⟨h12, h13.congr fun f => countUniqueK_eq hk f _, h14.congr fun f => equalRangeUniqueK_eq hk f _⟩

/-- **C120**, erasing: `erase(*it)` does nothing undefined, although the key is destroyed on the way, and if it returns
exactly the elements equivalent to the value that was there are gone (the element referred to among them) and their
number is returned. (That erasing does not always return is C35.) -/
theorem C120_erase (w : Swo lt) (hr : Reach lt multi true s) (hw : Walk s k l) (hm : Walk s j m) {n : Nat} {v : α}
    (hn : (n, v) ∈ m) (f : Nat) :
    eraseKeyK lt multi f s (.user k) (.elem n) ≠ .ub ∧ ∀ s' c, eraseKeyK lt multi f s (.user k) (.elem n) = .ok (s', c) →
      Walk s' k (l.filter fun x => lt x.2 v || lt v x.2) ∧ c + (l.filter fun x => lt x.2 v || lt v x.2).length = l.length ∧
      (j = k → 1 ≤ c) ∧ size s' (.user k) = .ok (l.length - c) ∧ (∀ i p, i ≠ k → (Walk s i p ↔ Walk s' i p)) := by
  have hk := read_elem w hr hm hn
  have hst : step lt multi f s (.eraseKey k v) = (eraseKeyK lt multi f s (.user k) (.elem n) >>= fun x => .ok (x.1, .num x.2)) := by
    rw [eraseKeyK_eq hk]; rfl
  have hle : ∀ c, c = l.length - (l.filter fun x => lt x.2 v || lt v x.2).length →
      c + (l.filter fun x => lt x.2 v || lt v x.2).length = l.length := by
    intro c hc
    have := List.length_filter_le (fun x : Nat × α => lt x.2 v || lt v x.2) l
    omega
  constructor
  · intro e
    refine (C34_erase_key (s' := s) w hr hw v f).1 ?_
    rw [hst, e]; rfl
  · intro s' c e
    obtain ⟨l', rfl, h1, h2, h3, _, h5⟩ := (C34_erase_key (s' := s') w hr hw v f).2 (.num c) (by rw [hst, e]; rfl)
    injection h2 with h2
    have hc := hle c h2
    refine ⟨h1, hc, ?_, by rw [h3]; congr 1; omega, h5⟩
    rintro rfl
    obtain ⟨N, hN⟩ := hw.1
    have hml : l = m := hm.eq (hN N (Nat.le_refl N))
    subst hml
    have hirr : lt v v = false := by
      cases e : lt v v with
      | false => rfl
      | true => have := w.asymm v v e; rw [this] at e; cases e
    have : (l.filter fun x => lt x.2 v || lt v x.2).length < l.length := by
      refine Nat.lt_of_le_of_ne (List.length_filter_le _ _) fun e => ?_
      have := List.length_filter_eq_length_iff.1 e (n, v) hn
      simp [hirr] at this
    omega

/-- The call returns if the step does. -/
theorem insertK_conv {key : Key α} {v : α} (hk : key.read s = .ok v) {it : Option Nat} {new : Bool}
    (h : Conv (fun f => step lt multi f s (.insert k v)) (s', .iter it new)) :
    Conv (fun f => insertK lt multi f s (.user k) key) (s', it, new) := by
  have hst : ∀ f, step lt multi f s (.insert k v) = (insertK lt multi f s (.user k) key >>= fun x => .ok (x.1, .iter x.2.1 x.2.2)) := by
    intro f; rw [insertK_eq hk]; rfl
  have key : ∀ f, (step lt multi f s (.insert k v) = .ok (s', .iter it new) → insertK lt multi f s (.user k) key = .ok (s', it, new)) ∧
      (step lt multi f s (.insert k v) = .oof → insertK lt multi f s (.user k) key = .oof) := by
    intro f
    rw [hst]
    cases insertK lt multi f s (.user k) key with
    | ub => exact ⟨nofun, nofun⟩
    | oof => exact ⟨nofun, fun _ => rfl⟩
    | ok x =>
      obtain ⟨a, b, c⟩ := x
      refine ⟨fun e => ?_, nofun⟩
      have e : Res.ok (a, Ret.iter b c) = .ok (s', .iter it new) := e
      injection e with e
      injection e with e1 e2
      injection e2 with e2 e3
      rw [e1, e2, e3]
  refine ⟨?_, fun f => ?_⟩
  · obtain ⟨N, hN⟩ := h.1
    exact ⟨N, fun f hf => (key f).1 (hN f hf)⟩
  · rcases h.2 f with h | h
    · exact .inl ((key f).2 h)
    · exact .inr ((key f).1 h)

/-- **C120**, inserting into a set: a reference to an element of the set itself adds nothing; a reference to an element of
another set adds a copy, unless an equivalent element is there. -/
theorem C120_insert (w : Swo lt) (hr : Reach lt false true s) (hw : Walk s k l) (hm : Walk s j m) {n : Nat} {v : α}
    (hn : (n, v) ∈ m) :
    ∃ s' it new l', Conv (fun f => insertK lt false f s (.user k) (.elem n)) (s', it, new) ∧ Walk s' k l' ∧
      (new = true ↔ ∀ x ∈ l, lt x.2 v = true ∨ lt v x.2 = true) ∧ (j = k → new = false) ∧ (new = false → l' = l) ∧
      (new = true → ∃ a xs ys, l = xs ++ ys ∧ l' = xs ++ (a, v) :: ys ∧ it = some a ∧ (∀ x ∈ xs, lt x.2 v = true) ∧
        ∀ y ∈ ys, lt v y.2 = true) ∧ ∀ i p, i ≠ k → (Walk s i p ↔ Walk s' i p) := by
  have hk := read_elem w hr hm hn
  obtain ⟨s', it, new, l', h1, h2, h3, h4, h5, _, h7⟩ := C30_set_insert w hr hw v
  refine ⟨s', it, new, l', insertK_conv hk h1, h2, h3, ?_, h5, h4, h7⟩
  rintro rfl
  obtain ⟨N, hN⟩ := hw.1
  have hml : l = m := hm.eq (hN N (Nat.le_refl N))
  subst hml
  cases new with
  | false => rfl
  | true =>
    have hirr : lt v v = false := by
      cases e : lt v v with
      | false => rfl
      | true => have := w.asymm v v e; rw [this] at e; cases e
    rcases h3.1 rfl _ hn with h | h
    · rw [hirr] at h; cases h
    · rw [hirr] at h; cases h

/-- **C120**, inserting into a multiset: a copy of the element referred to is added behind all equivalent ones; the
element itself stays. -/
theorem C120_insert_multi (w : Swo lt) (hr : Reach lt true true s) (hw : Walk s k l) (hm : Walk s j m) {n : Nat} {v : α}
    (hn : (n, v) ∈ m) :
    ∃ s' a xs ys, l = xs ++ ys ∧ Conv (fun f => insertK lt true f s (.user k) (.elem n)) (s', some a, true) ∧
      Walk s' k (xs ++ (a, v) :: ys) ∧ (∀ x ∈ xs, lt v x.2 = false) ∧ (∀ y ∈ ys, lt v y.2 = true) ∧
      (j = k → (n, v) ∈ xs) ∧ ∀ i p, i ≠ k → (Walk s i p ↔ Walk s' i p) := by
  have hk := read_elem w hr hm hn
  obtain ⟨s', a, xs, ys, h1, h2, h3, h4, h5, _, h7⟩ := C33_multiset_insert w hr hw v
  refine ⟨s', a, xs, ys, h1, insertK_conv hk h2, h3, h4, h5, ?_, h7⟩
  rintro rfl
  obtain ⟨N, hN⟩ := hw.1
  have hml : l = m := hm.eq (hN N (Nat.le_refl N))
  subst hml
  subst h1
  rcases List.mem_append.1 hn with h | h
  · exact h
  · have := h5 _ h
    have h8 := w.asymm v v this
    rw [h8] at this; cases this

/-- An element of a set, and a multiset it belongs to. -/
example (multi : Bool) : ∃ (s : St Nat) (l : List (Nat × Nat)) (n : Nat), Reach (fun a b : Nat => decide (a < b)) multi true s ∧
    Walk s 0 l ∧ (n, 2) ∈ l := by
  obtain ⟨s, l, hr, hw, _, e⟩ := three multi
  have : 2 ∈ l.map (·.2) := by rw [e]; simp
  obtain ⟨⟨n, v⟩, h1, rfl⟩ := List.mem_map.1 this
  exact ⟨s, l, n, hr, hw, h1⟩

/-- `{1, 5, 5, 5, 8}`: erasing `*it` for the first five (node 1) removes all three; inserting `*it` for the one (node 3)
makes two. -/
example : (do
    let (s, _) ← run (fun a b : Nat => decide (a < b)) true 30 St.init
      [.make 0, .insert 0 5, .insert 0 8, .insert 0 1, .insert 0 5, .insert 0 5]
    let v ← getKey s (some 1)
    let (s', c) ← eraseKeyK (fun a b : Nat => decide (a < b)) true 30 s (.user 0) (.elem 1)
    let l ← walk 30 s' (.user 0)
    let (s', _, b) ← insertK (fun a b : Nat => decide (a < b)) true 30 s' (.user 0) (.elem 3)
    let l' ← walk 30 s' (.user 0)
    .ok (v, c, l.map (·.2), b, l'.map (·.2))) =
      (.ok (5, 3, [1, 8], true, [1, 1, 8]) : Res (Nat × Nat × List Nat × Bool × List Nat)) := by
  decide +kernel

/-- Afterwards the reference is dangling: what would happen if the code read it again. -/
example : (do
    let (s, _) ← run (fun a b : Nat => decide (a < b)) true 30 St.init [.make 0, .insert 0 5, .insert 0 8, .insert 0 1]
    let (s, _) ← eraseKeyK (fun a b : Nat => decide (a < b)) true 30 s (.user 0) (.elem 1)
    countMultiK (fun a b : Nat => decide (a < b)) 30 s (.user 0) (.elem 1)) = .ub := by
  decide +kernel

end Verif.Rb
