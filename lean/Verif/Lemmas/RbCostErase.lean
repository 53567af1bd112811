import Verif.Lemmas.RbCost

/-! How many rounds the loops of erasing take. -/

set_option backward.isDefEq.respectTransparency false

namespace Verif.Rb
open Verif
open Verif.Box (Slot upd upd_same upd_ne)

variable {α : Type} {lt : α → α → Bool} {multi : Bool} {P : T α → Prop}

theorem noof_succ {β : Type} {g : Nat → Res β} {a : β} {n : Nat} (e : ∀ f, g (f + 1) = .ok a) : ∀ f, n < f → g f ≠ .oof := by
  intro f hf
  obtain ⟨k, rfl⟩ : ∃ k, f = k + 1 := ⟨f - 1, by omega⟩
  exact noof_of_ok (e k)

theorem noof_rec {β : Type} {g h : Nat → Res β} {n m : Nat} (hg : ∀ f, n < f → g f ≠ .oof) (e : ∀ f, h (f + 1) = g f) (hm : n + 1 ≤ m) :
    ∀ f, m < f → h f ≠ .oof := by
  intro f hf
  obtain ⟨k, rfl⟩ : ∃ k, f = k + 1 := ⟨f - 1, by omega⟩
  rw [e]; exact hg k (by omega)

section
variable {E : St α} {A : Nat → Prop} {h : Nat} {m M : Option Nat}

/-- The loop of erasing never ends, or after at most one round more than the path is long. -/
theorem eraseTail_fuel : ∀ (c : List (Fr α)) (s : St α) (t : T α), In E A s h m M (plug c t) →
    Div (fun f => eraseTail f s t.ptr (cpar (some h) c) h) ∨ ∀ f, c.length < f → eraseTail f s t.ptr (cpar (some h) c) h ≠ .oof := by
  intro c
  induction c with
  | nil =>
    intro s t i
    obtain ⟨s1, e1, i1⟩ := In.blackenIf (c := []) i
    refine .inr (noof_succ (a := s1) fun f => ?_)
    show eraseTail (f + 1) s t.ptr (some h) h = _
    unfold eraseTail eraseLoop
    rw [i.root, Res.ok_bind, if_pos (show t.ptr = (plug [] t).ptr from rfl), Res.ok_bind]
    exact e1
  | cons fr c ih =>
    intro s t i
    obtain ⟨fd, fc, fa, fv, fs⟩ := fr
    have hroot := ptr_ne_root i
    have hr := In.isRed i
    by_cases hred : t.red = true
    · obtain ⟨s1, e1, i1⟩ := In.blackenIf i
      refine .inr (noof_succ (a := s1) fun f => ?_)
      show eraseTail (f + 1) s t.ptr (some fa) h = _
      unfold eraseTail eraseLoop
      rw [i.root, Res.ok_bind, if_neg hroot, hr, Res.ok_bind, hred]
      exact e1
    · have hX : t.red = false := by simpa using hred
      cases fd
      · -- right child
        have il : Rb.left s (some fa) = .ok fs.ptr := In.left (c := c) i
        have ir : Rb.right s (some fa) = .ok t.ptr := In.right (c := c) i
        have c1 : ¬ (t.ptr = fs.ptr ∧ t.ptr ≠ none) := by
          rintro ⟨h1, h2⟩
          obtain ⟨a, ha⟩ : ∃ a, t.ptr = some a := Option.ne_none_iff_exists'.1 h2
          have hd := i.disj
          exact hd.2.2.1 a (by simp [caddrs, T.ptr_mem (h1 ▸ ha)]) a (T.ptr_mem ha) rfl
        have unf : ∀ f, eraseLoop (f + 1) s t.ptr (some fa) h = (if t.ptr = t.ptr ∧ fs.ptr ≠ none then do
            let c ← Rb.color s fs.ptr
            let (s, b) ← (if c = .red then do
              let s ← Rb.setColor s fs.ptr .black
              let s ← Rb.setColor s (some fa) .red
              let s ← rotateRight s (some fa) h
              let b ← Rb.left s (some fa)
              .ok (s, b)
            else .ok (s, fs.ptr) : Res (St α × Option Nat))
            if b = none then .ok (s, t.ptr) else bodyR f s t.ptr (some fa) b h
            else eraseLoop f s t.ptr (some fa) h) := by
          intro f
          conv => lhs; unfold eraseLoop
          rw [i.root, Res.ok_bind, if_neg hroot, hr, Res.ok_bind, hX, il, ir]
          simp only [Res.ok_bind, Bool.false_eq_true, if_false]
          rw [if_neg c1]
          rfl
        cases fs with
        | nil =>
          refine .inl ?_
          have : ∀ f, eraseLoop f s t.ptr (some fa) h = .oof := by
            intro f
            induction f with
            | zero => rfl
            | succ f ihf => rw [unf, if_neg (by simp [T.ptr]), ihf]
          intro f
          show eraseTail f s t.ptr (some fa) h = _
          unfold eraseTail
          rw [this]; rfl
        | node bl bc ba bv br =>
          have ic : Rb.color s (some ba) = .ok bc := In.color (c := ⟨true, fc, fa, fv, t⟩ :: c) i
          cases bc with
          | black =>
            have unf' : ∀ f, eraseLoop (f + 1) s t.ptr (some fa) h = bodyR f s t.ptr (some fa) (some ba) h := by
              intro f
              rw [unf, if_pos ⟨rfl, by simp [T.ptr]⟩, T.ptr_node, ic, Res.ok_bind]
              rfl
            rcases bodyR_ok (c := c) i hX with ⟨h1, s1, s2, i2, e2, eb⟩ | ⟨h1, h2, s1, i1, eb⟩
            · refine .inr (noof_succ (a := s2) fun f => ?_)
              show eraseTail (f + 1) s t.ptr (some fa) h = _
              unfold eraseTail
              rw [unf', eb, Res.ok_bind]; exact e2
            · have := ih s1 _ i1
              rcases this.symm with cv | dv
              · refine .inr (noof_rec cv (fun f => ?_) (by simp))
                show eraseTail (f + 1) s t.ptr (some fa) h = _
                unfold eraseTail
                rw [unf', eb, h2]; rfl
              · refine .inl (dv.succ rfl fun f => ?_)
                show eraseTail (f + 1) s t.ptr (some fa) h = _
                unfold eraseTail
                rw [unf', eb, h2]; rfl
          | red =>
            obtain ⟨s1, e1, i1⟩ := In.setColor (c := ⟨true, fc, fa, fv, t⟩ :: c) i .black
            obtain ⟨s2, e2, i2⟩ := In.setColor (c := c) i1 .red
            obtain ⟨s3, e3, i3⟩ := In.rotR (c := c) i2
            have p3 : Rb.left s3 (some fa) = .ok br.ptr := In.left (c := ⟨false, .black, ba, bv, bl⟩ :: c) i3
            have unf' : ∀ f, eraseLoop (f + 1) s t.ptr (some fa) h =
                if br.ptr = none then .ok (s3, t.ptr) else bodyR f s3 t.ptr (some fa) br.ptr h := by
              intro f
              rw [unf, if_pos ⟨rfl, by simp [T.ptr]⟩, T.ptr_node, ic, Res.ok_bind]
              simp [e1, e2, e3, p3]
            cases br with
            | nil =>
              obtain ⟨s4, e4, i4⟩ := In.blackenIf_id (c := ⟨false, .red, fa, fv, .nil⟩ :: ⟨false, .black, ba, bv, bl⟩ :: c) i3 hX
              refine .inr (noof_succ (a := s4) fun f => ?_)
              show eraseTail (f + 1) s t.ptr (some fa) h = _
              unfold eraseTail
              rw [unf', if_pos T.ptr_nil, Res.ok_bind]; exact e4
            | node brl brc b' bv' brr =>
              rcases bodyR_ok (c := ⟨false, .black, ba, bv, bl⟩ :: c) i3 hX with ⟨h1, s4, s5, i5, e5, eb⟩ | ⟨h1, h2, s4, i4, eb⟩
              · refine .inr (noof_succ (a := s5) fun f => ?_)
                show eraseTail (f + 1) s t.ptr (some fa) h = _
                unfold eraseTail
                rw [unf', if_neg (by simp [T.ptr]), T.ptr_node, eb, Res.ok_bind]; exact e5
              · obtain ⟨s5, e5, i5⟩ := In.blackenIf (c := ⟨false, .black, ba, bv, bl⟩ :: c) i4
                refine .inr (noof_rec (n := 0) (g := fun f => eraseTail f s4 (some fa) (some ba) h) (noof_succ (a := s5) fun f => ?_) (fun f => ?_) (by simp))
                · have j := i4
                  rw [h2] at j
                  have hr' : Rb.isRed s4 (some fa) = .ok true := In.isRed (c := ⟨false, .black, ba, bv, bl⟩ :: c) j
                  have hroot' := ptr_ne_root (f := ⟨false, .black, ba, bv, bl⟩) (c := c) j
                  simp only [T.ptr_node] at hroot'
                  unfold eraseTail eraseLoop
                  rw [j.root, Res.ok_bind, if_neg hroot', hr', Res.ok_bind]
                  rw [h2] at e5
                  exact e5
                · show eraseTail (f + 1) s t.ptr (some fa) h = _
                  unfold eraseTail
                  rw [unf', if_neg (by simp [T.ptr]), T.ptr_node, eb]; rfl
      · -- left child
        have il : Rb.left s (some fa) = .ok t.ptr := In.left (c := c) i
        have ir : Rb.right s (some fa) = .ok fs.ptr := In.right (c := c) i
        have c2 : fs.ptr = none → ¬ (t.ptr = fs.ptr ∧ t.ptr ≠ none) := by
          rintro h0 ⟨h1, h2⟩
          exact h2 (h1.trans h0)
        have unf : ∀ f, eraseLoop (f + 1) s t.ptr (some fa) h = (if fs.ptr ≠ none then do
            let c ← Rb.color s fs.ptr
            let (s, b) ← (if c = .red then do
              let s ← Rb.setColor s fs.ptr .black
              let s ← Rb.setColor s (some fa) .red
              let s ← rotateLeft s (some fa) h
              let b ← Rb.right s (some fa)
              .ok (s, b)
            else .ok (s, fs.ptr) : Res (St α × Option Nat))
            if b = none then .ok (s, t.ptr) else bodyL f s t.ptr (some fa) b h
            else eraseLoop f s t.ptr (some fa) h) := by
          intro f
          conv => lhs; unfold eraseLoop
          rw [i.root, Res.ok_bind, if_neg hroot, hr, Res.ok_bind, hX, il, ir]
          simp only [Res.ok_bind, Bool.false_eq_true, if_false]
          by_cases h0 : fs.ptr = none
          · rw [if_neg (by simp [h0]), if_neg (c2 h0), if_neg (by simp [h0])]
          · rw [if_pos ⟨trivial, h0⟩, if_pos h0]
            rfl
        cases fs with
        | nil =>
          refine .inl ?_
          have : ∀ f, eraseLoop f s t.ptr (some fa) h = .oof := by
            intro f
            induction f with
            | zero => rfl
            | succ f ihf => rw [unf, if_neg (by simp [T.ptr]), ihf]
          intro f
          show eraseTail f s t.ptr (some fa) h = _
          unfold eraseTail
          rw [this]; rfl
        | node bl bc ba bv br =>
          have ic : Rb.color s (some ba) = .ok bc := In.color (c := ⟨false, fc, fa, fv, t⟩ :: c) i
          cases bc with
          | black =>
            have unf' : ∀ f, eraseLoop (f + 1) s t.ptr (some fa) h = bodyL f s t.ptr (some fa) (some ba) h := by
              intro f
              rw [unf, if_pos (by simp [T.ptr]), T.ptr_node, ic, Res.ok_bind]
              rfl
            rcases bodyL_ok (c := c) i hX with ⟨h1, s1, s2, i2, e2, eb⟩ | ⟨h1, h2, s1, i1, eb⟩
            · refine .inr (noof_succ (a := s2) fun f => ?_)
              show eraseTail (f + 1) s t.ptr (some fa) h = _
              unfold eraseTail
              rw [unf', eb, Res.ok_bind]; exact e2
            · have := ih s1 _ i1
              rcases this.symm with cv | dv
              · refine .inr (noof_rec cv (fun f => ?_) (by simp))
                show eraseTail (f + 1) s t.ptr (some fa) h = _
                unfold eraseTail
                rw [unf', eb, h2]; rfl
              · refine .inl (dv.succ rfl fun f => ?_)
                show eraseTail (f + 1) s t.ptr (some fa) h = _
                unfold eraseTail
                rw [unf', eb, h2]; rfl
          | red =>
            obtain ⟨s1, e1, i1⟩ := In.setColor (c := ⟨false, fc, fa, fv, t⟩ :: c) i .black
            obtain ⟨s2, e2, i2⟩ := In.setColor (c := c) i1 .red
            obtain ⟨s3, e3, i3⟩ := In.rotL (c := c) i2
            have p3 : Rb.right s3 (some fa) = .ok bl.ptr := In.right (c := ⟨true, .black, ba, bv, br⟩ :: c) i3
            have unf' : ∀ f, eraseLoop (f + 1) s t.ptr (some fa) h =
                if bl.ptr = none then .ok (s3, t.ptr) else bodyL f s3 t.ptr (some fa) bl.ptr h := by
              intro f
              rw [unf, if_pos (by simp [T.ptr]), T.ptr_node, ic, Res.ok_bind]
              simp [e1, e2, e3, p3]
            cases bl with
            | nil =>
              obtain ⟨s4, e4, i4⟩ := In.blackenIf_id (c := ⟨true, .red, fa, fv, .nil⟩ :: ⟨true, .black, ba, bv, br⟩ :: c) i3 hX
              refine .inr (noof_succ (a := s4) fun f => ?_)
              show eraseTail (f + 1) s t.ptr (some fa) h = _
              unfold eraseTail
              rw [unf', if_pos T.ptr_nil, Res.ok_bind]; exact e4
            | node bll blc b' bv' blr =>
              rcases bodyL_ok (c := ⟨true, .black, ba, bv, br⟩ :: c) i3 hX with ⟨h1, s4, s5, i5, e5, eb⟩ | ⟨h1, h2, s4, i4, eb⟩
              · refine .inr (noof_succ (a := s5) fun f => ?_)
                show eraseTail (f + 1) s t.ptr (some fa) h = _
                unfold eraseTail
                rw [unf', if_neg (by simp [T.ptr]), T.ptr_node, eb, Res.ok_bind]; exact e5
              · obtain ⟨s5, e5, i5⟩ := In.blackenIf (c := ⟨true, .black, ba, bv, br⟩ :: c) i4
                refine .inr (noof_rec (n := 0) (g := fun f => eraseTail f s4 (some fa) (some ba) h) (noof_succ (a := s5) fun f => ?_) (fun f => ?_) (by simp))
                · have j := i4
                  rw [h2] at j
                  have hr' : Rb.isRed s4 (some fa) = .ok true := In.isRed (c := ⟨true, .black, ba, bv, br⟩ :: c) j
                  have hroot' := ptr_ne_root (f := ⟨true, .black, ba, bv, br⟩) (c := c) j
                  simp only [T.ptr_node] at hroot'
                  unfold eraseTail eraseLoop
                  rw [j.root, Res.ok_bind, if_neg hroot', hr', Res.ok_bind]
                  rw [h2] at e5
                  exact e5
                · show eraseTail (f + 1) s t.ptr (some fa) h = _
                  unfold eraseTail
                  rw [unf', if_neg (by simp [T.ptr]), T.ptr_node, eb]; rfl

theorem treeMin_fuel {s : St α} (t : T α) : ∀ (c : List (Fr α)) (f : Nat), In E A s h m M (plug c t) → t ≠ .nil → t.depth ≤ f → treeMin f s t.ptr ≠ .oof := by
  induction t with
  | nil => intro c f _ ht; cases ht rfl
  | node l co a v r ihl _ =>
    intro c f i _ hf
    simp only [T.depth] at hf
    obtain ⟨f, rfl⟩ : ∃ k, f = k + 1 := ⟨f - 1, by omega⟩
    show treeMin (f + 1) s (some a) ≠ _
    rw [treeMin, i.left, Res.ok_bind]
    cases hl : l with
    | nil => simp [T.ptr_nil]
    | node l2 c2 a2 v2 r2 =>
      have := ihl (⟨true, co, a, v, r⟩ :: c) f i (by rw [hl]; simp) (by omega)
      rw [hl] at this
      exact this

theorem treeMax_fuel {s : St α} (t : T α) : ∀ (c : List (Fr α)) (f : Nat), In E A s h m M (plug c t) → t ≠ .nil → t.depth ≤ f → treeMax f s t.ptr ≠ .oof := by
  induction t with
  | nil => intro c f _ ht; cases ht rfl
  | node l co a v r _ ihr =>
    intro c f i _ hf
    simp only [T.depth] at hf
    obtain ⟨f, rfl⟩ : ∃ k, f = k + 1 := ⟨f - 1, by omega⟩
    show treeMax (f + 1) s (some a) ≠ _
    rw [treeMax, i.right, Res.ok_bind]
    cases hl : r with
    | nil => simp [T.ptr_nil]
    | node l2 c2 a2 v2 r2 =>
      have := ihr (⟨false, co, a, v, l⟩ :: c) f i (by rw [hl]; simp) (by omega)
      rw [hl] at this
      exact this

end

section
variable {s : St α} {h : Nat}

theorem incUp_fuel (c : List (Fr α)) : ∀ (l : T α) (co : Color) (a : Nat) (v : α) (r : T α) (f : Nat), Tr s h (plug c (.node l co a v r)) → c.length + 1 < f →
    incUp f s (some a) (cpar (some h) c) ≠ .oof := by
  induction c with
  | nil =>
    intro l co a v r f i hf
    have i : In _ _ s h _ _ (plug [] (.node l co a v r)) := i
    have hd := i.disj
    obtain ⟨f, rfl⟩ : ∃ k, f = k + 1 + 1 := ⟨f - 2, by simp at hf; omega⟩
    show incUp (f + 1 + 1) s (some a) (some h) ≠ _
    have hrh : r.ptr ≠ some h := fun e => hd.2.2.2.2 (by simp [T.addrs, T.ptr_mem e])
    rw [incUp, i.rm, Res.ok_bind]
    split
    · rw [i.root, Res.ok_bind]
      show incUp (f + 1) s (some h) (some a) ≠ _
      rw [incUp, i.right, Res.ok_bind, if_neg hrh]
      intro h; cases h
    · intro h; cases h
  | cons g c ih =>
    obtain ⟨fd, fc, fa, fv, fs⟩ := g
    intro l co a v r f i hf
    obtain ⟨f, rfl⟩ : ∃ k, f = k + 1 := ⟨f - 1, by omega⟩
    show incUp (f + 1) s (some a) (some fa) ≠ _
    cases fd
    · have i : In _ _ s h _ _ (plug c (.node fs fc fa fv (.node l co a v r))) := i
      rw [incUp, i.right, Res.ok_bind, T.ptr_node, if_pos rfl, i.parent, Res.ok_bind]
      exact ih fs fc fa fv (.node l co a v r) f i (by simp at hf; omega)
    · have i' : In _ _ s h _ _ (plug c (.node (.node l co a v r) fc fa fv fs)) := i
      have i2 : In _ _ s h _ _ (plug (⟨true, fc, fa, fv, fs⟩ :: c) (.node l co a v r)) := i
      have h1 : fs.ptr ≠ some a := fun e => i2.disj.2.2.1 a (by simp [caddrs, T.ptr_mem e]) a (by simp [T.addrs]) rfl
      rw [incUp, i'.right, Res.ok_bind, if_neg h1]
      intro h; cases h

theorem increment_fuel {c : List (Fr α)} {l : T α} {co : Color} {a : Nat} {v : α} {r : T α} (i : Tr s h (plug c (.node l co a v r))) {f : Nat}
    (hf : (plug c (.node l co a v r)).depth < f) : increment f s (some a) ≠ .oof := by
  have i' : In _ _ s h _ _ (plug c (.node l co a v r)) := i
  have hd := length_le_depth c (.node l co a v r)
  simp only [T.depth] at hd
  rw [increment, i'.right, Res.ok_bind]
  cases hr : r with
  | nil =>
    simp only [T.ptr_nil]
    refine noof_bind (noof_parent _ _) fun p hp => ?_
    rw [i'.parent] at hp
    injection hp with hp
    subst hp
    refine noof_bind (incUp_fuel c _ _ _ _ _ f i (by omega)) fun q _ => noof_bind (noof_right _ _) fun _ _ => ?_
    split <;> (intro h; cases h)
  | node l2 c2 a2 v2 r2 =>
    have := treeMin_fuel r (⟨false, co, a, v, l⟩ :: c) f i' (by rw [hr]; simp) (by omega)
    rw [hr] at this
    exact this

end

theorem noof_wr (s : St α) (p : Option Nat) (g : Rec α → Rec α) : wr s p g ≠ .oof := by
  unfold wr
  repeat' split
  all_goals (intro h; cases h)

theorem noof_setLeft (s : St α) (p q : Option Nat) : setLeft s p q ≠ .oof := noof_wr _ _ _
theorem noof_setRight (s : St α) (p q : Option Nat) : setRight s p q ≠ .oof := noof_wr _ _ _
theorem noof_setParent (s : St α) (p q : Option Nat) : setParent s p q ≠ .oof := noof_wr _ _ _

theorem noof_setParentIf (s : St α) (p q : Option Nat) : setParentIf s p q ≠ .oof := by
  unfold setParentIf
  split
  · exact noof_setParent _ _ _
  · intro h; cases h

theorem noof_isLchild (s : St α) (p : Option Nat) : isLchild s p ≠ .oof := by
  unfold isLchild
  exact noof_bind (noof_parent _ _) fun _ _ => noof_bind (noof_left _ _) fun _ _ h => by cases h

theorem noof_relink (s : St α) (p q : Option Nat) (h : Nat) : relink s p q h ≠ .oof := by
  unfold relink
  repeat' first | exact noof_setParent _ _ _ | exact noof_setLeft _ _ _ | exact noof_setRight _ _ _ | exact noof_parent _ _ | exact noof_isLchild _ _ | refine noof_bind ?_ fun _ _ => ?_ | split

section
variable {E : St α} {A : Nat → Prop} {h : Nat} {m M : Option Nat}

theorem eraseUnlink_fuel {s : St α} {c : List (Fr α)} {L R : T α} {zc : Color} {z : Nat} {zv : α} (i : In E A s h m M (plug c (.node L zc z zv R))) {f : Nat}
    (hf : (plug c (.node L zc z zv R)).depth ≤ f) : eraseUnlink f s (some z) h ≠ .oof := by
  have hd := length_le_depth c (.node L zc z zv R)
  simp only [T.depth] at hd
  unfold eraseUnlink
  rw [i.left, i.right]
  simp only [Res.ok_bind]
  by_cases hnil : L.ptr = none ∨ R.ptr = none
  · rw [if_pos hnil]
    simp only [Res.ok_bind, i.left, i.right, i.parent, ne_eq, not_true, if_false]
    obtain ⟨X, hX, hXd, hp⟩ : ∃ X, ((L = .nil ∧ X = R) ∨ (R = .nil ∧ X = L)) ∧ X.depth ≤ f ∧ (if ¬ L.ptr = none then L.ptr else R.ptr) = X.ptr := by
      cases L with
      | nil => exact ⟨R, .inl ⟨rfl, rfl⟩, by omega, by simp [T.ptr_nil]⟩
      | node =>
        cases R with
        | nil => exact ⟨_, .inr ⟨rfl, rfl⟩, by omega, by simp [T.ptr]⟩
        | node => simp [T.ptr] at hnil
    obtain ⟨s1, s2, e1, e2, i2, _⟩ := splice hX i
    rw [hp, e1, Res.ok_bind, e2, Res.ok_bind]
    have hmin : ∀ {m' M'} {s' : St α}, In E A s' h m' M' (plug c X) → ∀ y : Option Nat, (if X.ptr = none then .ok y else treeMin f s' X.ptr : Res (Option Nat)) ≠ .oof := by
      intro m' M' s' i' y
      split
      · intro h; cases h
      · rename_i hne
        exact treeMin_fuel X c f i' (by rintro rfl; exact hne rfl) hXd
    have hmax : ∀ {m' M'} {s' : St α}, In E A s' h m' M' (plug c X) → ∀ y : Option Nat, (if X.ptr = none then .ok y else treeMax f s' X.ptr : Res (Option Nat)) ≠ .oof := by
      intro m' M' s' i' y
      split
      · intro h; cases h
      · rename_i hne
        exact treeMax_fuel X c f i' (by rintro rfl; exact hne rfl) hXd
    refine noof_bind ?_ fun s3 e3 => noof_bind ?_ fun _ _ h => by cases h
    · unfold fixMin
      refine noof_bind (noof_left _ _) fun _ _ => ?_
      split
      · exact noof_bind (hmin i2 _) fun _ _ => noof_setLeft _ _ _
      · intro h; cases h
    · obtain ⟨m', i3⟩ : ∃ m', In E A s3 h m' M (plug c X) := by
        unfold fixMin at e3
        obtain ⟨_, _, e3⟩ := Res.bind_eq_ok.1 e3
        split at e3
        · obtain ⟨m', _, e3⟩ := Res.bind_eq_ok.1 e3
          obtain ⟨s', e', i', _⟩ := i2.setL m'
          rw [e'] at e3
          cases e3
          exact ⟨m', i'⟩
        · cases e3; exact ⟨_, i2⟩
      unfold fixMax
      refine noof_bind (noof_right _ _) fun _ _ => ?_
      split
      · exact noof_bind (hmax i3 _) fun _ _ => noof_setRight _ _ _
      · intro h; cases h
  · rw [if_neg hnil]
    have hR : R ≠ .nil := by rintro rfl; exact hnil (.inr rfl)
    have hnext : treeNext f s (some z) = treeMin f s R.ptr := by
      unfold treeNext
      rw [i.right, Res.ok_bind]
      cases hr : R with
      | nil => exact absurd hr hR
      | node => rfl
    have ir : In E A s h m M (plug (⟨false, zc, z, zv, L⟩ :: c) R) := i
    refine noof_bind ?_ fun y hy => ?_
    · rw [hnext]; exact treeMin_fuel R _ f ir hR (by omega)
    · rw [hnext] at hy
      have hy := Conv.eq (treeMin_ok R _ hR ir) hy
      have hyz : y ≠ some z := by
        rw [hy]
        intro e
        injection e with e
        have h1 : beg h R.inl ∈ R.addrs := by rw [T.addrs_eq]; exact mem_beg (T.inl_ne_nil hR)
        exact ir.disj.2.2.1 z (by simp [caddrs]) z (e ▸ h1) rfl
      refine noof_bind (noof_left _ _) fun _ _ => noof_bind (noof_right _ _) fun _ _ => ?_
      rw [if_pos hyz]
      repeat' first
        | exact noof_left _ _
        | exact noof_right _ _
        | exact noof_parent _ _
        | exact noof_color _ _
        | exact noof_setColor _ _ _
        | exact noof_setParent _ _ _
        | exact noof_setLeft _ _ _
        | exact noof_setRight _ _ _
        | exact noof_setParentIf _ _ _
        | exact noof_relink _ _ _ _
        | refine noof_bind ?_ fun _ _ => ?_
        | split
        | (intro h; cases h)

end

theorem eraseRebalance_fuel {s : St α} {h : Nat} {c : List (Fr α)} {L R : T α} {zc : Color} {z : Nat} {zv : α} (i : Tr s h (plug c (.node L zc z zv R))) :
    Div (fun f => eraseRebalance f s (some z) h) ∨ ∀ f, (plug c (.node L zc z zv R)).depth < f → eraseRebalance f s (some z) h ≠ .oof := by
  have hd := length_le_depth c (.node L zc z zv R)
  simp only [T.depth] at hd
  obtain ⟨E, A, m, M, yc, p, X, s1, i1, ⟨zp, zq, zr, hz⟩, cv, hp⟩ : ∃ E A m M yc p, ∃ X : T α, ∃ s1, In E A s1 h m M (plug p X) ∧
      (∃ p q r, s1.heap z = some ⟨yc, p, q, r, some zv⟩) ∧
      Conv (fun f => eraseUnlink f s (some z) h) (s1, X.ptr, cpar (some h) p, some z) ∧ p.length ≤ (plug c (.node L zc z zv R)).depth := by
    by_cases hL : L = .nil
    · obtain ⟨s1, i1, hz, cv⟩ := unlink1 (X := R) (.inl ⟨hL, rfl⟩) i
      exact ⟨_, _, _, _, zc, c, R, s1, i1, hz, cv, by omega⟩
    · by_cases hR : R = .nil
      · obtain ⟨s1, i1, hz, cv⟩ := unlink1 (X := L) (.inr ⟨hR, rfl⟩) i
        exact ⟨_, _, _, _, zc, c, L, s1, i1, hz, cv, by omega⟩
      · obtain ⟨d, yc, y, yv, B, hdl, rfl⟩ := leftSpine R hR
        obtain ⟨s1, i1, hz, cv⟩ := unlink2 hL hdl i
        refine ⟨_, _, _, _, yc, _, B, s1, i1, hz, cv, ?_⟩
        have h2 := length_le_depth d (.node .nil yc y yv B)
        simp only [T.depth] at h2
        simp only [List.length_append, List.length_cons]
        omega
  have hyr : Rb.isRed s1 (some z) = .ok (yc == .red) := by simp [isRed, color, rd, hz]
  have unf : ∀ f, eraseRebalance f s (some z) h = (eraseUnlink f s (some z) h >>= fun q =>
      (isRed q.1 q.2.2.2 >>= fun yr => if yr then .ok q.1 else eraseTail f q.1 q.2.1 q.2.2.1 h)) := by
    intro f
    unfold eraseRebalance eraseTail
    rfl
  cases yc with
  | red =>
    refine .inr fun f hf => ?_
    rw [unf]
    refine noof_bind (eraseUnlink_fuel i (by omega)) fun q hq => ?_
    cases Conv.eq cv hq
    simp only [hyr, Res.ok_bind]
    intro h; cases h
  | black =>
    rcases eraseTail_fuel p s1 X i1 with dv | ht
    · refine .inl ?_
      have := Div.bind_right (h := fun f q => isRed q.1 q.2.2.2 >>= fun yr => if yr then .ok q.1 else eraseTail f q.1 q.2.1 q.2.2.1 h) cv (by
        intro f
        simp only [hyr, Res.ok_bind]
        exact dv f)
      intro f
      show eraseRebalance f s (some z) h = _
      rw [unf]; exact this f
    · refine .inr fun f hf => ?_
      rw [unf]
      refine noof_bind (eraseUnlink_fuel i (by omega)) fun q hq => ?_
      cases Conv.eq cv hq
      simp only [hyr, Res.ok_bind]
      exact ht f (by omega)

/-- Erasing an element never ends, or each of its loops takes at most one round more than the tree is deep. -/
theorem erase_fuel {s : St α} {σ : Sp α} (I : Inv lt multi P s σ) {k : Slot} {h : Nat} {xs ys : List (Nat × α)} {a : Nat} {v : α} (hk : σ.tree k = some (h, xs ++ (a, v) :: ys))
    {t : T α} (i : Tr s h t) (ht : t.inl = xs ++ (a, v) :: ys) :
    Div (fun f => erase f s k (some a)) ∨ ∀ f, t.depth < f → erase f s k (some a) ≠ .oof := by
  have hinc := increment_ok i ht
  obtain ⟨c, L, zc, R, rfl, hxs, hys⟩ := focus t ht
  have hget := I.get hk
  have unf : ∀ f, erase f s k (some a) = increment f s (some a) >>= fun next =>
      eraseRebalance f s (some a) h >>= fun s => destroyNode s (some a) >>= fun s => setCount s k ((xs ++ (a, v) :: ys).length - 1) >>= fun s => .ok (s, next) := by
    intro f
    unfold erase
    rw [hget]; rfl
  rcases eraseRebalance_fuel i with dv | hf
  · refine .inl fun f => ?_
    show erase f s k (some a) = _
    rw [unf]
    exact Div.bind_right (h := fun f next => eraseRebalance f s (some a) h >>= fun s => destroyNode s (some a) >>= fun s =>
      setCount s k ((xs ++ (a, v) :: ys).length - 1) >>= fun s => .ok (s, next)) hinc (Div.bind_left dv) f
  · refine .inr fun f hlt => ?_
    rw [unf]
    refine noof_bind (increment_fuel i hlt) fun _ _ => noof_bind (hf f hlt) fun _ _ => noof_bind (noof_destroyNode _ _) fun _ _ => noof_bind ?_ fun _ _ h => by cases h
    unfold setCount
    exact noof_bind (noof_getT _ _) fun _ _ h => by cases h

end Verif.Rb
