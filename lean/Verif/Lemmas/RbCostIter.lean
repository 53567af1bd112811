import Verif.Lemmas.RbCostErase

/-! How many rounds the loops of `increment` and `decrement` take, by a potential: the number of
ancestors that follow an element minus the number of those that precede it. -/

set_option backward.isDefEq.respectTransparency false

namespace Verif.Rb
open Verif
open Verif.Box (Slot upd upd_same upd_ne)

variable {α : Type}

/-- The potentials of the elements of a tree whose root has the potential `d`. -/
def slope : T α → Int → List Int
  | .nil, _ => []
  | .node l _ _ _ r, d => slope l (d + 1) ++ d :: slope r (d - 1)

theorem slope_length (t : T α) : ∀ d, (slope t d).length = t.inl.length := by
  induction t with
  | nil => intro d; rfl
  | node l co a v r ihl ihr => intro d; simp [slope, T.inl, ihl, ihr]

/-- Potentials are not further from that of the root than the tree is deep. -/
theorem slope_near (t : T α) : ∀ d, ∀ x ∈ slope t d, x < d + t.depth ∧ d < x + t.depth := by
  induction t with
  | nil => intro d x hx; cases hx
  | node l co a v r ihl ihr =>
    intro d x hx
    simp only [slope, List.mem_append, List.mem_cons] at hx
    simp only [T.depth]
    rcases hx with hx | rfl | hx
    · have := ihl _ x hx; omega
    · omega
    · have := ihr _ x hx; omega

/-- The potential at the end of a path. -/
def cphi : List (Fr α) → Int
  | [] => 0
  | f :: c => if f.d then cphi c + 1 else cphi c - 1

def cpre : List (Fr α) → List Int
  | [] => []
  | f :: c => cpre c ++ (if f.d then [] else slope f.sib (cphi c + 1) ++ [cphi c])

def cpost : List (Fr α) → List Int
  | [] => []
  | f :: c => (if f.d then cphi c :: slope f.sib (cphi c - 1) else []) ++ cpost c

theorem cpre_length (c : List (Fr α)) : (cpre c).length = (cl c).length := by
  induction c with
  | nil => rfl
  | cons f c ih => simp only [cpre, cl]; split <;> simp [ih, slope_length]

theorem cpost_length (c : List (Fr α)) : (cpost c).length = (cr c).length := by
  induction c with
  | nil => rfl
  | cons f c ih => simp only [cpost, cr]; split <;> simp [ih, slope_length]

theorem slope_plug (c : List (Fr α)) : ∀ t : T α, slope (plug c t) 0 = cpre c ++ slope t (cphi c) ++ cpost c := by
  induction c with
  | nil => intro t; simp [plug, cpre, cphi, cpost]
  | cons f c ih =>
    obtain ⟨fd, fc, fa, fv, fs⟩ := f
    intro t
    rw [plug, ih]
    cases fd
    · simp [Fr.fill, slope, cpre, cphi, cpost]
    · simp [Fr.fill, slope, cpre, cphi, cpost]

section
variable {s : St α} {h : Nat}

/-- Down to the first element of a subtree: as many rounds as the potential rises. -/
theorem treeMin_slope {E : St α} {A : Nat → Prop} {m M : Option Nat} (t : T α) : ∀ (c : List (Fr α)) (d : Int), In E A s h m M (plug c t) → t ≠ .nil →
    ∃ (n : Nat) (q : Int) (qs : List Int), slope t d = q :: qs ∧ (n : Int) = q - d ∧ ∀ f, treeMin f s t.ptr ≠ .oof ↔ n < f := by
  induction t with
  | nil => intro c d _ ht; cases ht rfl
  | node l co a v r ihl _ =>
    intro c d i _
    by_cases hl : l = .nil
    · subst hl
      refine ⟨0, d, _, rfl, by simp, fun f => ?_⟩
      cases f with
      | zero => simp [treeMin]
      | succ f =>
        show treeMin (f + 1) s (some a) ≠ _ ↔ _
        rw [treeMin, i.left, Res.ok_bind, T.ptr_nil]; simp
    · obtain ⟨n, q, qs, e, hn, hf⟩ := ihl (⟨true, co, a, v, r⟩ :: c) (d + 1) i hl
      refine ⟨n + 1, q, qs ++ d :: slope r (d - 1), by simp [slope, e], by omega, fun f => ?_⟩
      cases f with
      | zero => simp [treeMin]
      | succ f =>
        show treeMin (f + 1) s (some a) ≠ _ ↔ _
        rw [treeMin, i.left, Res.ok_bind]
        cases l with
        | nil => cases hl rfl
        | node l2 c2 a2 v2 r2 =>
          rw [T.ptr_node]
          simp only
          rw [show n + 1 < f + 1 ↔ n < f by omega, ← hf f, T.ptr_node]

theorem treeMax_slope {E : St α} {A : Nat → Prop} {m M : Option Nat} (t : T α) : ∀ (c : List (Fr α)) (d : Int), In E A s h m M (plug c t) → t ≠ .nil →
    ∃ (n : Nat) (q : Int) (qs : List Int), slope t d = qs ++ [q] ∧ (n : Int) = d - q ∧ ∀ f, treeMax f s t.ptr ≠ .oof ↔ n < f := by
  induction t with
  | nil => intro c d _ ht; cases ht rfl
  | node l co a v r _ ihr =>
    intro c d i _
    by_cases hr : r = .nil
    · subst hr
      refine ⟨0, d, _, rfl, by simp, fun f => ?_⟩
      cases f with
      | zero => simp [treeMax]
      | succ f =>
        show treeMax (f + 1) s (some a) ≠ _ ↔ _
        rw [treeMax, i.right, Res.ok_bind, T.ptr_nil]; simp
    · obtain ⟨n, q, qs, e, hn, hf⟩ := ihr (⟨false, co, a, v, l⟩ :: c) (d - 1) i hr
      refine ⟨n + 1, q, slope l (d + 1) ++ d :: qs, by simp [slope, e], by omega, fun f => ?_⟩
      cases f with
      | zero => simp [treeMax]
      | succ f =>
        show treeMax (f + 1) s (some a) ≠ _ ↔ _
        rw [treeMax, i.right, Res.ok_bind]
        cases r with
        | nil => cases hr rfl
        | node l2 c2 a2 v2 r2 =>
          rw [T.ptr_node]
          simp only
          rw [show n + 1 < f + 1 ↔ n < f by omega, ← hf f, T.ptr_node]

/-- Up to the next element. -/
theorem incUp_slope (c : List (Fr α)) : ∀ (l : T α) (co : Color) (a : Nat) (v : α) (r : T α), Tr s h (plug c (.node l co a v r)) → cr c ≠ [] →
    ∃ (n : Nat) (q : Int) (qs : List Int), cpost c = q :: qs ∧ (n : Int) = 1 + q - cphi c ∧ ∀ f, incUp f s (some a) (cpar (some h) c) ≠ .oof ↔ n < f := by
  induction c with
  | nil => intro l co a v r _ hc; cases hc rfl
  | cons g c ih =>
    obtain ⟨fd, fc, fa, fv, fs⟩ := g
    intro l co a v r i hc
    cases fd
    · have i : In _ _ s h _ _ (plug c (.node fs fc fa fv (.node l co a v r))) := i
      have e1 : cr (⟨false, fc, fa, fv, fs⟩ :: c) = cr c := by simp [cr]
      rw [e1] at hc
      obtain ⟨n, q, qs, e, hn, hf⟩ := ih fs fc fa fv (.node l co a v r) i hc
      refine ⟨n + 1, q, qs, by simp [cpost, e], by simp [cphi]; omega, fun f => ?_⟩
      cases f with
      | zero => simp [incUp]
      | succ f =>
        show incUp (f + 1) s (some a) (some fa) ≠ _ ↔ _
        rw [incUp, i.right, Res.ok_bind, T.ptr_node, if_pos rfl, i.parent, Res.ok_bind, show n + 1 < f + 1 ↔ n < f by omega, ← hf f]
    · have i' : In _ _ s h _ _ (plug c (.node (.node l co a v r) fc fa fv fs)) := i
      have i2 : In _ _ s h _ _ (plug (⟨true, fc, fa, fv, fs⟩ :: c) (.node l co a v r)) := i
      have h1 : fs.ptr ≠ some a := fun e => i2.disj.2.2.1 a (by simp [caddrs, T.ptr_mem e]) a (by simp [T.addrs]) rfl
      refine ⟨0, cphi c, slope fs (cphi c - 1) ++ cpost c, by simp [cpost], by simp [cphi]; omega, fun f => ?_⟩
      cases f with
      | zero => simp [incUp]
      | succ f =>
        show incUp (f + 1) s (some a) (some fa) ≠ _ ↔ _
        rw [incUp, i'.right, Res.ok_bind, if_neg h1]; simp

/-- Up from the last element: at most one round more than the potential is below zero. -/
theorem incUp_last (c : List (Fr α)) : ∀ (l : T α) (co : Color) (a : Nat) (v : α) (r : T α), Tr s h (plug c (.node l co a v r)) → cr c = [] →
    ∃ n : Nat, (n : Int) ≤ 1 - cphi c ∧ ∀ f, incUp f s (some a) (cpar (some h) c) ≠ .oof ↔ n < f := by
  induction c with
  | nil =>
    intro l co a v r i _
    have i : In _ _ s h _ _ (plug [] (.node l co a v r)) := i
    have hd := i.disj
    have hrh : r.ptr ≠ some h := fun e => hd.2.2.2.2 (by simp [T.addrs, T.ptr_mem e])
    show ∃ n : Nat, _ ∧ ∀ f, incUp f s (some a) (some h) ≠ .oof ↔ n < f
    by_cases hM : some (lst h (plug [] (.node l co a v r)).inl) = some a
    · refine ⟨1, by simp [cphi], fun f => ?_⟩
      match f with
      | 0 => simp [incUp]
      | 1 => rw [incUp, i.rm, Res.ok_bind, if_pos hM, i.root, Res.ok_bind]; simp [incUp]
      | f + 2 =>
        rw [show f + 2 = f + 1 + 1 from rfl, incUp, i.rm, Res.ok_bind, if_pos hM, i.root, Res.ok_bind]
        show incUp (f + 1) s (some h) (some a) ≠ _ ↔ _
        rw [incUp, i.right, Res.ok_bind, if_neg hrh]; simp
    · refine ⟨0, by simp [cphi], fun f => ?_⟩
      cases f with
      | zero => simp [incUp]
      | succ f => rw [incUp, i.rm, Res.ok_bind, if_neg hM]; simp
  | cons g c ih =>
    obtain ⟨fd, fc, fa, fv, fs⟩ := g
    intro l co a v r i hc
    cases fd
    · have i : In _ _ s h _ _ (plug c (.node fs fc fa fv (.node l co a v r))) := i
      have e1 : cr (⟨false, fc, fa, fv, fs⟩ :: c) = cr c := by simp [cr]
      rw [e1] at hc
      obtain ⟨n, hn, hf⟩ := ih fs fc fa fv (.node l co a v r) i hc
      refine ⟨n + 1, by simp [cphi]; omega, fun f => ?_⟩
      cases f with
      | zero => simp [incUp]
      | succ f =>
        show incUp (f + 1) s (some a) (some fa) ≠ _ ↔ _
        rw [incUp, i.right, Res.ok_bind, T.ptr_node, if_pos rfl, i.parent, Res.ok_bind, show n + 1 < f + 1 ↔ n < f by omega, ← hf f]
    · simp [cr] at hc

theorem noof_iff_bind {β γ : Type} {x : Res β} {g : β → Res γ} {p : Prop} (h : x ≠ .oof ↔ p) (hg : ∀ b, g b ≠ .oof) : x >>= g ≠ .oof ↔ p := by
  rw [← h]
  constructor
  · intro h2 e; rw [e] at h2; exact h2 rfl
  · intro h2; exact noof_bind h2 fun b _ => hg b

theorem increment_up {c : List (Fr α)} {l : T α} {co : Color} {a : Nat} {v : α} (i : Tr s h (plug c (.node l co a v .nil))) {n f : Nat}
    (hf : incUp f s (some a) (cpar (some h) c) ≠ .oof ↔ n < f) : increment f s (some a) ≠ .oof ↔ n < f := by
  have i' : In _ _ s h _ _ (plug c (.node l co a v .nil)) := i
  rw [increment, i'.right, Res.ok_bind, T.ptr_nil]
  simp only
  rw [i'.parent, Res.ok_bind]
  refine noof_iff_bind hf fun q => noof_bind (noof_right _ _) fun _ _ => ?_
  split <;> (intro h; cases h)

/-- `++` from an element to the next one takes one round more than the potential rises. -/
theorem increment_slope {t : T α} {xs ys : List (Nat × α)} {x y : Nat × α} (i : Tr s h t) (e : t.inl = xs ++ x :: y :: ys) :
    ∃ (n : Nat) (p q : Int) (ps qs : List Int), slope t 0 = ps ++ p :: q :: qs ∧ ps.length = xs.length ∧ (n : Int) = 1 + q - p ∧
      ∀ f, increment f s (some x.1) ≠ .oof ↔ n < f := by
  obtain ⟨a, v⟩ := x
  obtain ⟨c, l, co, r, rfl, h1, h2⟩ := focus t e
  have i' : In _ _ s h _ _ (plug c (.node l co a v r)) := i
  have hlen : (cpre c ++ slope l (cphi c + 1)).length = xs.length := by
    rw [← h1, List.length_append, List.length_append, cpre_length, slope_length]
  have hs : slope (plug c (.node l co a v r)) 0 = (cpre c ++ slope l (cphi c + 1)) ++ cphi c :: (slope r (cphi c - 1) ++ cpost c) := by
    rw [slope_plug]; simp [slope]
  by_cases hr : r = .nil
  · subst hr
    have hc : cr c ≠ [] := by intro e; simp [T.inl, e] at h2
    obtain ⟨n, q, qs, e1, hn, hf⟩ := incUp_slope c _ _ _ _ _ i hc
    exact ⟨n, cphi c, q, _, qs, by rw [hs, e1]; simp [slope], hlen, hn, fun f => increment_up i (hf f)⟩
  · obtain ⟨n, q, qs, e1, hn, hf⟩ := treeMin_slope r (⟨false, co, a, v, l⟩ :: c) (cphi c - 1) i' hr
    refine ⟨n, cphi c, q, _, qs ++ cpost c, by rw [hs, e1]; simp, hlen, by omega, fun f => ?_⟩
    rw [increment, i'.right, Res.ok_bind, ← hf f]
    cases r with
    | nil => cases hr rfl
    | node => rw [T.ptr_node]

/-- `++` from the last element takes at most one round more than its potential is below zero. -/
theorem increment_last {t : T α} {xs : List (Nat × α)} {x : Nat × α} (i : Tr s h t) (e : t.inl = xs ++ [x]) :
    ∃ (n : Nat) (p : Int) (ps : List Int), slope t 0 = ps ++ [p] ∧ ps.length = xs.length ∧ (n : Int) ≤ 1 - p ∧ ∀ f, increment f s (some x.1) ≠ .oof ↔ n < f := by
  obtain ⟨a, v⟩ := x
  obtain ⟨c, l, co, r, rfl, h1, h2⟩ := focus t e
  have i' : In _ _ s h _ _ (plug c (.node l co a v r)) := i
  have h3 : r.inl = [] ∧ cr c = [] := by simpa using h2
  have hr : r = .nil := by
    cases r with
    | nil => rfl
    | node => simp [T.inl] at h3
  subst hr
  obtain ⟨n, hn, hf⟩ := incUp_last c _ _ _ _ _ i h3.2
  have hp : cpost c = [] := List.length_eq_zero_iff.1 (by rw [cpost_length, h3.2]; rfl)
  refine ⟨n, cphi c, cpre c ++ slope l (cphi c + 1), by rw [slope_plug]; simp [slope, hp], ?_, hn, fun f => increment_up i (hf f)⟩
  rw [← h1, List.length_append, List.length_append, cpre_length, slope_length]

/-- Up to the element before. -/
theorem decUp_slope (c : List (Fr α)) : ∀ (l : T α) (co : Color) (a : Nat) (v : α) (r : T α), Tr s h (plug c (.node l co a v r)) → cl c ≠ [] →
    ∃ (n : Nat) (q : Int) (qs : List Int), cpre c = qs ++ [q] ∧ (n : Int) = 1 + cphi c - q ∧ ∀ f, decUp f s (some a) (cpar (some h) c) ≠ .oof ↔ n < f := by
  induction c with
  | nil => intro l co a v r _ hc; cases hc rfl
  | cons g c ih =>
    obtain ⟨fd, fc, fa, fv, fs⟩ := g
    intro l co a v r i hc
    cases fd
    · have i' : In _ _ s h _ _ (plug c (.node fs fc fa fv (.node l co a v r))) := i
      have i2 : In _ _ s h _ _ (plug (⟨false, fc, fa, fv, fs⟩ :: c) (.node l co a v r)) := i
      have h1 : some a ≠ fs.ptr := fun e => i2.disj.2.2.1 a (by simp [caddrs, T.ptr_mem e.symm]) a (by simp [T.addrs]) rfl
      refine ⟨0, cphi c, cpre c ++ slope fs (cphi c + 1), by simp [cpre], by simp [cphi]; omega, fun f => ?_⟩
      cases f with
      | zero => simp [decUp]
      | succ f =>
        show decUp (f + 1) s (some a) (some fa) ≠ _ ↔ _
        rw [decUp, i'.left, Res.ok_bind, if_neg h1]; simp
    · have i : In _ _ s h _ _ (plug c (.node (.node l co a v r) fc fa fv fs)) := i
      have e1 : cl (⟨true, fc, fa, fv, fs⟩ :: c) = cl c := by simp [cl]
      rw [e1] at hc
      obtain ⟨n, q, qs, e, hn, hf⟩ := ih (.node l co a v r) fc fa fv fs i hc
      refine ⟨n + 1, q, qs, by simp [cpre, e], by simp [cphi]; omega, fun f => ?_⟩
      cases f with
      | zero => simp [decUp]
      | succ f =>
        show decUp (f + 1) s (some a) (some fa) ≠ _ ↔ _
        rw [decUp, i.left, Res.ok_bind, T.ptr_node, if_pos rfl, i.parent, Res.ok_bind, show n + 1 < f + 1 ↔ n < f by omega, ← hf f]

/-- The test of `decrement` for the header fails at every element. -/
theorem decrement_test {c : List (Fr α)} {l : T α} {co : Color} {a : Nat} {v : α} {r : T α} (i : Tr s h (plug c (.node l co a v r)))
    (hb : (plug c (.node l co a v r)).red = false) : ∃ pp, Rb.parent s (cpar (some h) c) = .ok pp ∧ ¬ (pp = some a ∧ co = .red) := by
  have i' : In _ _ s h _ _ (plug c (.node l co a v r)) := i
  cases c with
  | nil =>
    refine ⟨_, i'.root, ?_⟩
    rintro ⟨_, rfl⟩
    simp [plug, T.red] at hb
  | cons f c =>
    obtain ⟨fd, fc, fa, fv, fs⟩ := f
    have hd := i'.disj
    refine ⟨cpar (some h) c, ?_, ?_⟩
    · cases fd
      · have i2 : In _ _ s h _ _ (plug c (.node fs fc fa fv (.node l co a v r))) := i'
        exact i2.parent
      · have i2 : In _ _ s h _ _ (plug c (.node (.node l co a v r) fc fa fv fs)) := i'
        exact i2.parent
    · rintro ⟨e, _⟩
      rcases cpar_mem e.symm with h3 | h3
      · exact hd.2.2.2.2 (by simp [T.addrs, h3])
      · exact hd.2.2.1 a (by simp [caddrs, h3]) a (by simp [T.addrs]) rfl

/-- `--` from an element to the one before takes one round more than the potential falls. -/
theorem decrement_slope {t : T α} {xs ys : List (Nat × α)} {x y : Nat × α} (i : Tr s h t) (hb : t.red = false) (e : t.inl = xs ++ x :: y :: ys) :
    ∃ (n : Nat) (p q : Int) (ps qs : List Int), slope t 0 = ps ++ p :: q :: qs ∧ ps.length = xs.length ∧ (n : Int) = 1 + q - p ∧
      ∀ f, decrement f s (some y.1) ≠ .oof ↔ n < f := by
  obtain ⟨a, v⟩ := y
  obtain ⟨c, l, co, r, rfl, h1, h2⟩ := focus t (xs := xs ++ [x]) (ys := ys) (a := a) (v := v) (by rw [e]; simp)
  have i' : In _ _ s h _ _ (plug c (.node l co a v r)) := i
  have hlen : (cpre c ++ slope l (cphi c + 1)).length = xs.length + 1 := by
    have := congrArg List.length h1
    simp only [List.length_append, List.length_cons, List.length_nil] at this
    rw [List.length_append, cpre_length, slope_length]; omega
  have hs : slope (plug c (.node l co a v r)) 0 = (cpre c ++ slope l (cphi c + 1)) ++ cphi c :: (slope r (cphi c - 1) ++ cpost c) := by
    rw [slope_plug]; simp [slope]
  have hdec : ∀ f, decrement f s (some a) = match l.ptr with
      | some b => treeMax f s (some b)
      | none => decUp f s (some a) (cpar (some h) c) := by
    intro f
    obtain ⟨pp, hp, hpp⟩ := decrement_test i hb
    rw [decrement, i'.parent, Res.ok_bind, hp, Res.ok_bind, i'.color, Res.ok_bind, if_neg hpp, i'.left, Res.ok_bind]
    cases l.ptr <;> rfl
  by_cases hl : l = .nil
  · subst hl
    have hc : cl c ≠ [] := by intro e; simp [T.inl, e] at h1
    obtain ⟨n, q, qs, e1, hn, hf⟩ := decUp_slope c _ _ _ _ _ i hc
    refine ⟨n, q, cphi c, qs, slope r (cphi c - 1) ++ cpost c, by rw [hs, e1]; simp [slope], ?_, hn, fun f => ?_⟩
    · rw [e1] at hlen; simpa [slope] using hlen
    · rw [hdec, ← hf f]; rfl
  · obtain ⟨n, q, qs, e1, hn, hf⟩ := treeMax_slope l (⟨true, co, a, v, r⟩ :: c) (cphi c + 1) i' hl
    refine ⟨n, q, cphi c, cpre c ++ qs, slope r (cphi c - 1) ++ cpost c, by rw [hs, e1]; simp, ?_, by omega, fun f => ?_⟩
    · rw [e1] at hlen; simp only [List.length_append, List.length_cons, List.length_nil] at hlen ⊢; omega
    · rw [hdec, ← hf f]
      cases l with
      | nil => cases hl rfl
      | node => rw [T.ptr_node]

end

end Verif.Rb
