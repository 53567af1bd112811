import Verif.Lemmas.RbCostIter
import Verif.Props.RbCost

/-!
Property C117: how long it takes to go through a set, whatever its tree looks like.

A single `++` or `--` may take as many rounds as the tree is deep. Over several steps these rounds are
paid for by a potential (Lemmas/RbCostIter.lean): every step but one round changes it, and it is never
further from zero than the tree is deep.
-/

set_option backward.isDefEq.respectTransparency false

namespace Verif.Rb
open Verif
open Verif.Box (Slot upd upd_same upd_ne)

variable {α : Type} {lt : α → α → Bool} {multi : Bool} {s : St α} {k : Nat}

/-- `for (; it != to; ++it) *it`: the elements seen and the rounds that the increments take together. -/
inductive Forth (s : St α) : Option Nat → List (Nat × α) → Option Nat → Nat → Prop
  | done (it : Option Nat) : Forth s it [] it 0
  | step {a : Nat} {v : α} {it to : Option Nat} {l : List (Nat × α)} {n m : Nat} : some a ≠ to → getKey s (some a) = .ok v →
      Rounds (fun f => increment f s (some a)) n it → Forth s it l to m → Forth s (some a) ((a, v) :: l) to (n + m)

/-- `while (it != to) *--it`: the elements seen and the rounds that suffice for the decrements together. -/
inductive Back (s : St α) : Option Nat → List (Nat × α) → Option Nat → Nat → Prop
  | done (it : Option Nat) : Back s it [] it 0
  | step {a : Nat} {v : α} {it to : Option Nat} {l : List (Nat × α)} {n m : Nat} : it ≠ to → (∀ f, n < f → decrement f s it = .ok (some a)) →
      getKey s (some a) = .ok v → Back s (some a) l to m → Back s it ((a, v) :: l) to (n + m)

/-- The potential of the element at an index, and zero behind the last one. -/
def pot (t : T α) (j : Nat) : Int := (slope t 0).getD j 0

theorem pot_le (t : T α) (j : Nat) : pot t j ≤ t.depth ∧ - (t.depth : Int) ≤ pot t j := by
  unfold pot
  rw [List.getD_eq_getElem?_getD]
  cases e : (slope t 0)[j]? with
  | none => simp
  | some x =>
    have := slope_near t 0 x (List.mem_of_getElem? e)
    simp only [Option.getD_some]; omega

theorem pot_at {t : T α} {ps qs : List Int} {p : Int} (e : slope t 0 = ps ++ p :: qs) : pot t ps.length = p := by
  simp [pot, e]

theorem pot_end (t : T α) : pot t t.inl.length = 0 := by
  simp [pot, List.getD_eq_getElem?_getD, slope_length]

section
variable {h : Nat} {t : T α}

theorem pot_first {E : St α} {A : Nat → Prop} {m M : Option Nat} (i : In E A s h m M t) : 0 ≤ pot t 0 := by
  by_cases ht : t = .nil
  · subst ht; simp [pot, slope]
  · obtain ⟨n, q, qs, e, hn, _⟩ := treeMin_slope t [] 0 i ht
    have := pot_at (ps := []) e
    simp only [List.length_nil] at this
    omega

theorem pot_last {E : St α} {A : Nat → Prop} {m M : Option Nat} (i : In E A s h m M t) {xs : List (Nat × α)} {x : Nat × α} (e : t.inl = xs ++ [x]) :
    pot t xs.length ≤ 0 := by
  have ht : t ≠ .nil := by rintro rfl; simp [T.inl] at e
  obtain ⟨n, q, qs, e2, hn, _⟩ := treeMax_slope t [] 0 i ht
  have h1 := slope_length t 0
  rw [e2, e] at h1
  simp only [List.length_append, List.length_cons, List.length_nil] at h1
  have h2 : qs.length = xs.length := by omega
  have := pot_at (ps := qs) (qs := []) e2
  rw [h2] at this
  omega

theorem inc_pot (i : Tr s h t) {xs ys : List (Nat × α)} {x : Nat × α} (e : t.inl = xs ++ x :: ys) :
    ∃ n : Nat, (n : Int) ≤ 1 + pot t (xs.length + 1) - pot t xs.length ∧ Rounds (fun f => increment f s (some x.1)) n (some (beg h ys)) := by
  have cv := increment_ok (a := x.1) (v := x.2) i e
  cases ys with
  | nil =>
    obtain ⟨n, p, ps, e2, hl, hn, hf⟩ := increment_last i e
    have h1 := pot_at (qs := []) e2
    have h2 := pot_end t
    rw [e] at h2
    simp only [List.length_append, List.length_cons, List.length_nil] at h2
    rw [hl] at h1
    exact ⟨n, by simp only [Nat.zero_add] at h2; omega, .of cv hf⟩
  | cons y ys =>
    obtain ⟨n, p, q, ps, qs, e2, hl, hn, hf⟩ := increment_slope i e
    have h1 := pot_at e2
    have h2 := pot_at (ps := ps ++ [p]) (p := q) (qs := qs) (by rw [e2]; simp)
    simp only [List.length_append, List.length_cons, List.length_nil, Nat.zero_add] at h2
    rw [hl] at h1 h2
    exact ⟨n, by omega, .of cv hf⟩

theorem dec_pot (i : Tr s h t) (hb : t.red = false) {xs ys : List (Nat × α)} {x : Nat × α} (e : t.inl = xs ++ x :: ys) :
    ∃ n : Nat, (n : Int) ≤ 1 + pot t (xs.length + 1) - pot t xs.length ∧ ∀ f, n < f → decrement f s (some (beg h ys)) = .ok (some x.1) := by
  cases ys with
  | nil =>
    have hne : t ≠ .nil := by rintro rfl; simp [T.inl] at e
    have h1 := pot_last i e
    have h2 := pot_end t
    rw [e] at h2
    simp only [List.length_append, List.length_cons, List.length_nil, Nat.zero_add] at h2
    refine ⟨0, by omega, fun f _ => ?_⟩
    rw [show beg h ([] : List (Nat × α)) = h from rfl, decrement_end i hne f, e, lst_append_cons]
  | cons y ys =>
    have cv := decrement_ok (xs := xs ++ [x]) (ys := ys) (a := y.1) (v := y.2) i hb (by rw [e]; simp) (by simp)
    rw [lst_append_cons] at cv
    obtain ⟨n, p, q, ps, qs, e2, hl, hn, hf⟩ := decrement_slope i hb e
    have h1 := pot_at e2
    have h2 := pot_at (ps := ps ++ [p]) (p := q) (qs := qs) (by rw [e2]; simp)
    simp only [List.length_append, List.length_cons, List.length_nil, Nat.zero_add] at h2
    rw [hl] at h1 h2
    refine ⟨n, by omega, fun f hlt => ?_⟩
    rcases cv.2 f with e3 | e3
    · exact absurd e3 ((hf f).2 hlt)
    · exact e3

theorem end_ne (i : Tr s h t) {xs ys zs : List (Nat × α)} {y : Nat × α} (e : t.inl = xs ++ y :: ys ++ zs) : some y.1 ≠ some (beg h zs) := by
  have hk := In.keys i
  rw [e] at hk
  intro e2
  have e2 : y.1 = beg h zs := Option.some.inj e2
  cases zs with
  | nil => apply hk.2; simp [beg] at e2; simp [← e2]
  | cons z zs =>
    simp only [beg] at e2
    have := hk.1
    simp [List.nodup_append, List.nodup_cons] at this
    grind

theorem forth_pot (i : Tr s h t) (ys : List (Nat × α)) : ∀ {xs zs : List (Nat × α)}, t.inl = xs ++ ys ++ zs →
    ∃ n : Nat, Forth s (some (beg h (ys ++ zs))) ys (some (beg h zs)) n ∧ (n : Int) ≤ ys.length + pot t (xs.length + ys.length) - pot t xs.length := by
  induction ys with
  | nil => intro xs zs e; exact ⟨0, .done _, by simp⟩
  | cons y ys ih =>
    intro xs zs e
    obtain ⟨n, hn, hr⟩ := inc_pot i (xs := xs) (x := y) (ys := ys ++ zs) (by rw [e]; simp)
    obtain ⟨m, hf, hm⟩ := ih (xs := xs ++ [y]) (zs := zs) (by rw [e]; simp)
    refine ⟨n + m, .step (end_ne i e) (key_ok (a := y.1) (v := y.2) i (by rw [e, List.append_assoc]; rfl)) hr hf, ?_⟩
    simp only [List.length_append, List.length_cons, List.length_nil] at hm ⊢
    rw [show xs.length + (0 + 1) + ys.length = xs.length + (ys.length + 1) by omega, show xs.length + (0 + 1) = xs.length + 1 by omega] at hm
    omega

theorem back_pot (i : Tr s h t) (hb : t.red = false) (n : Nat) : ∀ {xs ys zs : List (Nat × α)}, ys.length = n → t.inl = xs ++ ys ++ zs →
    ∃ m : Nat, Back s (some (beg h zs)) ys.reverse (some (beg h (ys ++ zs))) m ∧ (m : Int) ≤ ys.length + pot t (xs.length + ys.length) - pot t xs.length := by
  induction n with
  | zero =>
    intro xs ys zs hl e
    have : ys = [] := List.length_eq_zero_iff.1 hl
    subst this
    exact ⟨0, .done _, by simp⟩
  | succ n ih =>
    intro xs ys zs hl e
    obtain ⟨ys, y, rfl⟩ : ∃ l y, ys = l ++ [y] := ⟨ys.dropLast, ys.getLast (by rintro rfl; simp at hl), (List.dropLast_concat_getLast _).symm⟩
    obtain ⟨n1, hn, hr⟩ := dec_pot i hb (xs := xs ++ ys) (x := y) (ys := zs) (by rw [e]; simp)
    obtain ⟨m, hf, hm⟩ := ih (xs := xs) (ys := ys) (zs := y :: zs) (by simpa using hl) (by rw [e]; simp)
    have hne : some (beg h zs) ≠ some (beg h (ys ++ [y] ++ zs)) := by
      intro e2
      cases ys with
      | nil => exact end_ne i (xs := xs) (y := y) (ys := []) (zs := zs) (by rw [e]; simp) (by simpa [beg] using e2.symm)
      | cons y2 ys => exact end_ne i (xs := xs) (y := y2) (ys := ys ++ [y]) (zs := zs) (by rw [e]; simp) (by simpa [beg] using e2.symm)
    refine ⟨n1 + m, ?_, ?_⟩
    · rw [List.reverse_append, List.reverse_singleton, List.singleton_append]
      refine .step hne hr (key_ok (a := y.1) (v := y.2) i (xs := xs ++ ys) (ys := zs) (by rw [e]; simp)) ?_
      rw [List.append_assoc]; exact hf
    · simp only [List.length_append, List.length_cons, List.length_nil] at hn hm ⊢
      rw [show xs.length + (ys.length + (0 + 1)) = xs.length + ys.length + 1 by omega]
      omega

end

/-- C117, the whole set: going from `begin()` to `end()` shows all elements in order and takes no more
rounds than there are elements, all increments together; so does going back. The shape of the tree does
not matter. -/
theorem C117_all (w : Swo lt) (hr : Reach lt multi true s) {l : List (Nat × α)} (hw : Walk s k l) :
    ∃ b e n m, begin s (.user k) = .ok b ∧ end' s (.user k) = .ok e ∧ Forth s b l e n ∧ n ≤ l.length ∧ Back s e l.reverse b m ∧ m ≤ l.length := by
  obtain ⟨σ, I, _⟩ := hr.state w
  obtain ⟨h, hk⟩ := I.of_walk hw
  obtain ⟨t, i, hti, hred⟩ := I.rep _ _ hk
  have i : Tr s h t := i
  have hti : t.inl = l := hti
  obtain ⟨n, hf, hn⟩ := forth_pot i l (xs := []) (zs := []) (by rw [hti]; simp)
  obtain ⟨m, hb, hm⟩ := back_pot i hred _ (xs := []) (ys := l) (zs := []) rfl (by rw [hti]; simp)
  have h0 := pot_first i
  have h1 := pot_end t
  rw [hti] at h1
  rw [List.append_nil] at hf hb
  simp only [List.length_nil, Nat.zero_add] at hn hm
  exact ⟨_, _, n, m, I.begin hk, I.end hk, hf, by omega, hb, by omega⟩

example : ∃ (s : St Nat) (l : List (Nat × Nat)), Reach (fun a b : Nat => decide (a < b)) true true s ∧ Walk s 0 l ∧ l.map (·.2) = [1, 1, 2, 3, 4, 5, 9] := by
  obtain ⟨s, σ, h, l, rs, _, hr, I, _, hk, e⟩ := history natSwo true true [3, 1, 4, 1, 5, 9, 2] (.inl rfl)
  exact ⟨s, l, hr, I.walk hk, by rw [e]; rfl⟩

/-- C117, a part of a set: going over some elements in either direction takes no more rounds than these
elements and twice the depth of the tree. -/
theorem C117_range (w : Swo lt) (hr : Reach lt multi true s) {t : T α} (ht : Holds s k t) {xs ys zs : List (Nat × α)} (hw : Walk s k (xs ++ ys ++ zs)) :
    ∃ h n m, end' s (.user k) = .ok (some h) ∧ Forth s (some (beg h (ys ++ zs))) ys (some (beg h zs)) n ∧ n ≤ ys.length + 2 * t.depth ∧
      Back s (some (beg h zs)) ys.reverse (some (beg h (ys ++ zs))) m ∧ m ≤ ys.length + 2 * t.depth := by
  obtain ⟨σ, I, _⟩ := hr.state w
  obtain ⟨h, l, hk, i, hti, hred⟩ := ht.tr I
  obtain ⟨h', hk'⟩ := I.of_walk hw
  rw [hk] at hk'
  injection hk' with hk'
  injection hk' with h1 h2
  subst h1 h2
  obtain ⟨n, hf, hn⟩ := forth_pot i ys (xs := xs) (zs := zs) hti
  obtain ⟨m, hb, hm⟩ := back_pot i hred _ (xs := xs) (ys := ys) (zs := zs) rfl hti
  have h3 := pot_le t (xs.length + ys.length)
  have h4 := pot_le t xs.length
  exact ⟨h, n, m, I.end hk, hf, by omega, hb, by omega⟩

example : ∃ (s : St Nat) (t : T Nat) (xs ys zs : List (Nat × Nat)), Reach (fun a b : Nat => decide (a < b)) false true s ∧ Holds s 0 t ∧ Walk s 0 (xs ++ ys ++ zs) ∧
    xs.map (·.2) = [1, 2] ∧ ys.map (·.2) = [3, 4] ∧ zs.map (·.2) = [5] := by
  obtain ⟨s, σ, h, l, rs, _, hr, I, _, hk, e⟩ := history natSwo false true [3, 1, 4, 5, 2] (.inl rfl)
  obtain ⟨t, i, hti, _⟩ := I.rep _ _ hk
  have i : Tr s h t := i
  refine ⟨s, t, l.take 2, (l.drop 2).take 2, (l.drop 2).drop 2, hr, ⟨h, l.length, by rw [I.slot, hk]; rfl, In.root i, In.rep i⟩, ?_, ?_, ?_, ?_⟩
  · rw [List.append_assoc, List.take_append_drop, List.take_append_drop]; exact I.walk hk
  all_goals simp only [List.map_take, List.map_drop, e]; rfl

end Verif.Rb
