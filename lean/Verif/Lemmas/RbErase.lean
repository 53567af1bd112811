import Verif.Lemmas.RbIns

/-! The loop of `rb_tree_erase_rebalance` on trees. -/

set_option backward.isDefEq.respectTransparency false

namespace Verif.Rb
open Verif
open Verif.Box (Slot upd upd_same upd_ne)

variable {α : Type}

/-- The node `xa` with the short subtree `X` on the left and the black brother `ba` on the right: the
new subtree and whether the loop ends. -/
def broL (X : T α) (xc : Color) (xa : Nat) (xv : α) (bl : T α) (ba : Nat) (bv : α) (br : T α) : T α × Bool :=
  if bl.red = false ∧ br.red = false then (.node X xc xa xv (.node bl .red ba bv br), false)
  else if br.red = false then
    match bl with
    | .node p _ q qv r => (.node (.node X .black xa xv p) xc q qv (.node r .black ba bv br), true)
    | .nil => (.nil, true)
  else (.node (.node X .black xa xv bl) xc ba bv br.blacken, true)

/-- The mirror image. -/
def broR (X : T α) (xc : Color) (xa : Nat) (xv : α) (bl : T α) (ba : Nat) (bv : α) (br : T α) : T α × Bool :=
  if bl.red = false ∧ br.red = false then (.node (.node bl .red ba bv br) xc xa xv X, false)
  else if bl.red = false then
    match br with
    | .node p _ q qv r => (.node (.node bl .black ba bv p) xc q qv (.node r .black xa xv X), true)
    | .nil => (.nil, true)
  else (.node bl.blacken xc ba bv (.node br .black xa xv X), true)

/-- The loop of `rb_tree_erase_rebalance` and the line after it: the tree afterwards, for the
subtree `t` at the end of a path; `none` if the loop does not end. -/
def eraseFix : List (Fr α) → T α → Option (T α)
  | [], t => some t.blacken
  | f :: c, t =>
    if t.red then some (plug (f :: c) t.blacken)
    else
      match f.sib with
      | .nil => none
      | .node bl .black b bv br =>
        let p := if f.d then broL t f.c f.a f.v bl b bv br else broR t f.c f.a f.v bl b bv br
        if p.2 then some (plug c p.1) else eraseFix c p.1
      | .node bl .red b bv br =>
        if f.d then
          match bl with
          | .nil => some (plug c (.node (.node t .red f.a f.v .nil) .black b bv br))
          | .node bll _ b' bv' blr =>
            let p := broL t .red f.a f.v bll b' bv' blr
            some (plug c (.node (if p.2 then p.1 else p.1.blacken) .black b bv br))
        else
          match br with
          | .nil => some (plug c (.node bl .black b bv (.node .nil .red f.a f.v t)))
          | .node brl _ b' bv' brr =>
            let p := broR t .red f.a f.v brl b' bv' brr
            some (plug c (.node bl .black b bv (if p.2 then p.1 else p.1.blacken)))

/-- The part of the loop body after the red brother has been dealt with, left case
(estl/rb_tree.hpp:493-512). -/
def bodyL (f : Nat) (s : St α) (x xp b : Option Nat) (h : Nat) : Res (St α × Option Nat) := do
  let bl ← left s b
  let br ← right s b
  let blr ← isRed s bl
  let brr ← isRed s br
  if !blr && !brr then do
    let s ← setColor s b .red
    let xpp ← parent s xp
    eraseLoop f s xp xpp h
  else do
    let (s, b) ← (if !brr then do
        let s ← blackenIf s bl
        let s ← setColor s b .red
        let s ← rotateRight s b h
        let b ← right s xp
        .ok (s, b)
      else .ok (s, b) : Res (St α × Option Nat))
    let c ← color s xp
    let s ← setColor s b c
    let s ← setColor s xp .black
    let br ← right s b
    let s ← blackenIf s br
    let s ← rotateLeft s xp h
    .ok (s, x)

/-- Right case (estl/rb_tree.hpp:523-542). -/
def bodyR (f : Nat) (s : St α) (x xp b : Option Nat) (h : Nat) : Res (St α × Option Nat) := do
  let bl ← left s b
  let br ← right s b
  let blr ← isRed s bl
  let brr ← isRed s br
  if !blr && !brr then do
    let s ← setColor s b .red
    let xpp ← parent s xp
    eraseLoop f s xp xpp h
  else do
    let (s, b) ← (if !blr then do
        let s ← blackenIf s br
        let s ← setColor s b .red
        let s ← rotateLeft s b h
        let b ← left s xp
        .ok (s, b)
      else .ok (s, b) : Res (St α × Option Nat))
    let c ← color s xp
    let s ← setColor s b c
    let s ← setColor s xp .black
    let bl ← left s b
    let s ← blackenIf s bl
    let s ← rotateRight s xp h
    .ok (s, x)

section
variable {E : St α} {A : Nat → Prop} {h : Nat} {m M : Option Nat}

theorem red_false_blacken {t : T α} (ht : t.red = false) : t.blacken = t := by
  cases t with
  | nil => rfl
  | node l c a v r => cases c <;> first | rfl | cases ht

theorem In.blackenIf_id {s : St α} {c : List (Fr α)} {t : T α} (i : In E A s h m M (plug c t)) (ht : t.red = false) :
    ∃ s', Rb.blackenIf s t.ptr = .ok s' ∧ In E A s' h m M (plug c t) := by
  have := In.blackenIf i
  rwa [red_false_blacken ht] at this

/-- Left case, black brother: both outcomes. -/
theorem bodyL_ok {s : St α} {c : List (Fr α)} {X bl br : T α} {xc bc : Color} {xa ba : Nat} {xv bv : α}
    (i : In E A s h m M (plug c (.node X xc xa xv (.node bl bc ba bv br)))) (hX : X.red = false) :
    ((broL X xc xa xv bl ba bv br).2 = true ∧ ∃ s1 s2, In E A s2 h m M (plug c (broL X xc xa xv bl ba bv br).1) ∧
      blackenIf s1 X.ptr = .ok s2 ∧ ∀ f, bodyL f s X.ptr (some xa) (some ba) h = .ok (s1, X.ptr)) ∨
    ((broL X xc xa xv bl ba bv br).2 = false ∧ (broL X xc xa xv bl ba bv br).1 = .node X xc xa xv (.node bl .red ba bv br) ∧
      ∃ s1, In E A s1 h m M (plug c (broL X xc xa xv bl ba bv br).1) ∧
      ∀ f, bodyL f s X.ptr (some xa) (some ba) h = eraseLoop f s1 (some xa) (cpar (some h) c) h) := by
  have ib : In E A s h m M (plug (⟨false, xc, xa, xv, X⟩ :: c) (.node bl bc ba bv br)) := i
  have q1 := ib.left
  have q2 := ib.right
  have q3 : Rb.isRed s bl.ptr = .ok bl.red := In.isRed (c := ⟨true, bc, ba, bv, br⟩ :: ⟨false, xc, xa, xv, X⟩ :: c) i
  have q4 : Rb.isRed s br.ptr = .ok br.red := In.isRed (c := ⟨false, bc, ba, bv, bl⟩ :: ⟨false, xc, xa, xv, X⟩ :: c) i
  unfold bodyL
  simp only [q1, q2, q3, q4, Res.ok_bind, broL]
  cases hbl : bl.red <;> cases hbr : br.red
  · -- both black
    obtain ⟨s1, e1, i1⟩ := ib.setColor .red
    have p1 : Rb.parent s1 (some xa) = .ok (cpar (some h) c) := In.parent (c := c) i1
    refine .inr ⟨rfl, rfl, s1, i1, fun f => ?_⟩
    simp [e1, p1]
  · -- right red
    obtain ⟨rl, ra, rv, rr, rfl⟩ : ∃ rl ra rv rr, br = .node rl .red ra rv rr := by
      cases br with
      | nil => cases hbr
      | node rl rc ra rv rr => cases rc <;> first | exact ⟨_, _, _, _, rfl⟩ | cases hbr
    have p1 : Rb.color s (some xa) = .ok xc := In.color (c := c) i
    obtain ⟨s1, e1, i1⟩ := ib.setColor xc
    obtain ⟨s2, e2, i2⟩ := In.setColor (c := c) i1 .black
    have p2 : Rb.right s2 (some ba) = .ok (some ra) := In.right (c := ⟨false, .black, xa, xv, X⟩ :: c) i2
    obtain ⟨s3, e3, i3⟩ := In.blackenIf (c := ⟨false, xc, ba, bv, bl⟩ :: ⟨false, .black, xa, xv, X⟩ :: c) i2
    obtain ⟨s4, e4, i4⟩ := In.rotL (c := c) i3
    obtain ⟨s5, e5, i5⟩ := In.blackenIf_id (c := ⟨true, .black, xa, xv, bl⟩ :: ⟨true, xc, ba, bv, .node rl .black ra rv rr⟩ :: c) i4 hX
    refine .inl ⟨rfl, s4, s5, i5, e5, fun f => ?_⟩
    simp only [T.ptr_node] at e3
    simp [p1, e1, e2, p2, e3, e4]
  · -- left red, right black
    obtain ⟨p, q, qv, r, rfl⟩ : ∃ rl ra rv rr, bl = .node rl .red ra rv rr := by
      cases bl with
      | nil => cases hbl
      | node rl rc ra rv rr => cases rc <;> first | exact ⟨_, _, _, _, rfl⟩ | cases hbl
    obtain ⟨s1, e1, i1⟩ := In.blackenIf (c := ⟨true, bc, ba, bv, br⟩ :: ⟨false, xc, xa, xv, X⟩ :: c) (t := .node p .red q qv r) i
    obtain ⟨s2, e2, i2⟩ := In.setColor (c := ⟨false, xc, xa, xv, X⟩ :: c) i1 .red
    obtain ⟨s3, e3, i3⟩ := In.rotR (c := ⟨false, xc, xa, xv, X⟩ :: c) i2
    have p3 : Rb.right s3 (some xa) = .ok (some q) := In.right (c := c) i3
    have p4 : Rb.color s3 (some xa) = .ok xc := In.color (c := c) i3
    obtain ⟨s4, e4, i4⟩ := In.setColor (c := ⟨false, xc, xa, xv, X⟩ :: c) i3 xc
    obtain ⟨s5, e5, i5⟩ := In.setColor (c := c) i4 .black
    have p5 : Rb.right s5 (some q) = .ok (some ba) := In.right (c := ⟨false, .black, xa, xv, X⟩ :: c) i5
    obtain ⟨s6, e6, i6⟩ := In.blackenIf (c := ⟨false, xc, q, qv, p⟩ :: ⟨false, .black, xa, xv, X⟩ :: c) i5
    obtain ⟨s7, e7, i7⟩ := In.rotL (c := c) i6
    obtain ⟨s8, e8, i8⟩ := In.blackenIf_id (c := ⟨true, .black, xa, xv, p⟩ :: ⟨true, xc, q, qv, .node r .black ba bv br⟩ :: c) i7 hX
    refine .inl ⟨by simp, s7, s8, by simp only [plug, Fr.fill] at i8; simpa using i8, e8, fun f => ?_⟩
    simp only [T.ptr_node] at e1 e6
    simp [T.ptr_node, e1, e2, e3, p3, p4, e4, e5, p5, e6, e7]
  · -- both red
    obtain ⟨rl, ra, rv, rr, rfl⟩ : ∃ rl ra rv rr, br = .node rl .red ra rv rr := by
      cases br with
      | nil => cases hbr
      | node rl rc ra rv rr => cases rc <;> first | exact ⟨_, _, _, _, rfl⟩ | cases hbr
    have p1 : Rb.color s (some xa) = .ok xc := In.color (c := c) i
    obtain ⟨s1, e1, i1⟩ := ib.setColor xc
    obtain ⟨s2, e2, i2⟩ := In.setColor (c := c) i1 .black
    have p2 : Rb.right s2 (some ba) = .ok (some ra) := In.right (c := ⟨false, .black, xa, xv, X⟩ :: c) i2
    obtain ⟨s3, e3, i3⟩ := In.blackenIf (c := ⟨false, xc, ba, bv, bl⟩ :: ⟨false, .black, xa, xv, X⟩ :: c) i2
    obtain ⟨s4, e4, i4⟩ := In.rotL (c := c) i3
    obtain ⟨s5, e5, i5⟩ := In.blackenIf_id (c := ⟨true, .black, xa, xv, bl⟩ :: ⟨true, xc, ba, bv, .node rl .black ra rv rr⟩ :: c) i4 hX
    refine .inl ⟨rfl, s4, s5, i5, e5, fun f => ?_⟩
    simp only [T.ptr_node] at e3
    simp [p1, e1, e2, p2, e3, e4]

/-- Right case. -/
theorem bodyR_ok {s : St α} {c : List (Fr α)} {X bl br : T α} {xc bc : Color} {xa ba : Nat} {xv bv : α}
    (i : In E A s h m M (plug c (.node (.node bl bc ba bv br) xc xa xv X))) (hX : X.red = false) :
    ((broR X xc xa xv bl ba bv br).2 = true ∧ ∃ s1 s2, In E A s2 h m M (plug c (broR X xc xa xv bl ba bv br).1) ∧
      blackenIf s1 X.ptr = .ok s2 ∧ ∀ f, bodyR f s X.ptr (some xa) (some ba) h = .ok (s1, X.ptr)) ∨
    ((broR X xc xa xv bl ba bv br).2 = false ∧ (broR X xc xa xv bl ba bv br).1 = .node (.node bl .red ba bv br) xc xa xv X ∧
      ∃ s1, In E A s1 h m M (plug c (broR X xc xa xv bl ba bv br).1) ∧
      ∀ f, bodyR f s X.ptr (some xa) (some ba) h = eraseLoop f s1 (some xa) (cpar (some h) c) h) := by
  have ib : In E A s h m M (plug (⟨true, xc, xa, xv, X⟩ :: c) (.node bl bc ba bv br)) := i
  have q1 := ib.left
  have q2 := ib.right
  have q3 : Rb.isRed s bl.ptr = .ok bl.red := In.isRed (c := ⟨true, bc, ba, bv, br⟩ :: ⟨true, xc, xa, xv, X⟩ :: c) i
  have q4 : Rb.isRed s br.ptr = .ok br.red := In.isRed (c := ⟨false, bc, ba, bv, bl⟩ :: ⟨true, xc, xa, xv, X⟩ :: c) i
  unfold bodyR
  simp only [q1, q2, q3, q4, Res.ok_bind, broR]
  cases hbr : br.red <;> cases hbl : bl.red
  · obtain ⟨s1, e1, i1⟩ := ib.setColor .red
    have p1 : Rb.parent s1 (some xa) = .ok (cpar (some h) c) := In.parent (c := c) i1
    refine .inr ⟨rfl, rfl, s1, i1, fun f => ?_⟩
    simp [e1, p1]
  · obtain ⟨rl, ra, rv, rr, rfl⟩ : ∃ rl ra rv rr, bl = .node rl .red ra rv rr := by
      cases bl with
      | nil => cases hbl
      | node rl rc ra rv rr => cases rc <;> first | exact ⟨_, _, _, _, rfl⟩ | cases hbl
    have p1 : Rb.color s (some xa) = .ok xc := In.color (c := c) i
    obtain ⟨s1, e1, i1⟩ := ib.setColor xc
    obtain ⟨s2, e2, i2⟩ := In.setColor (c := c) i1 .black
    have p2 : Rb.left s2 (some ba) = .ok (some ra) := In.left (c := ⟨true, .black, xa, xv, X⟩ :: c) i2
    obtain ⟨s3, e3, i3⟩ := In.blackenIf (c := ⟨true, xc, ba, bv, br⟩ :: ⟨true, .black, xa, xv, X⟩ :: c) i2
    obtain ⟨s4, e4, i4⟩ := In.rotR (c := c) i3
    obtain ⟨s5, e5, i5⟩ := In.blackenIf_id (c := ⟨false, .black, xa, xv, br⟩ :: ⟨false, xc, ba, bv, .node rl .black ra rv rr⟩ :: c) i4 hX
    refine .inl ⟨rfl, s4, s5, i5, e5, fun f => ?_⟩
    simp only [T.ptr_node] at e3
    simp [p1, e1, e2, p2, e3, e4]
  · obtain ⟨p, q, qv, r, rfl⟩ : ∃ rl ra rv rr, br = .node rl .red ra rv rr := by
      cases br with
      | nil => cases hbr
      | node rl rc ra rv rr => cases rc <;> first | exact ⟨_, _, _, _, rfl⟩ | cases hbr
    obtain ⟨s1, e1, i1⟩ := In.blackenIf (c := ⟨false, bc, ba, bv, bl⟩ :: ⟨true, xc, xa, xv, X⟩ :: c) (t := .node p .red q qv r) i
    obtain ⟨s2, e2, i2⟩ := In.setColor (c := ⟨true, xc, xa, xv, X⟩ :: c) i1 .red
    obtain ⟨s3, e3, i3⟩ := In.rotL (c := ⟨true, xc, xa, xv, X⟩ :: c) i2
    have p3 : Rb.left s3 (some xa) = .ok (some q) := In.left (c := c) i3
    have p4 : Rb.color s3 (some xa) = .ok xc := In.color (c := c) i3
    obtain ⟨s4, e4, i4⟩ := In.setColor (c := ⟨true, xc, xa, xv, X⟩ :: c) i3 xc
    obtain ⟨s5, e5, i5⟩ := In.setColor (c := c) i4 .black
    have p5 : Rb.left s5 (some q) = .ok (some ba) := In.left (c := ⟨true, .black, xa, xv, X⟩ :: c) i5
    obtain ⟨s6, e6, i6⟩ := In.blackenIf (c := ⟨true, xc, q, qv, r⟩ :: ⟨true, .black, xa, xv, X⟩ :: c) i5
    obtain ⟨s7, e7, i7⟩ := In.rotR (c := c) i6
    obtain ⟨s8, e8, i8⟩ := In.blackenIf_id (c := ⟨false, .black, xa, xv, r⟩ :: ⟨false, xc, q, qv, .node bl .black ba bv p⟩ :: c) i7 hX
    refine .inl ⟨by simp, s7, s8, by simp only [plug, Fr.fill] at i8; simpa using i8, e8, fun f => ?_⟩
    simp only [T.ptr_node] at e1 e6
    simp [T.ptr_node, e1, e2, e3, p3, p4, e4, e5, p5, e6, e7]
  · obtain ⟨rl, ra, rv, rr, rfl⟩ : ∃ rl ra rv rr, bl = .node rl .red ra rv rr := by
      cases bl with
      | nil => cases hbl
      | node rl rc ra rv rr => cases rc <;> first | exact ⟨_, _, _, _, rfl⟩ | cases hbl
    have p1 : Rb.color s (some xa) = .ok xc := In.color (c := c) i
    obtain ⟨s1, e1, i1⟩ := ib.setColor xc
    obtain ⟨s2, e2, i2⟩ := In.setColor (c := c) i1 .black
    have p2 : Rb.left s2 (some ba) = .ok (some ra) := In.left (c := ⟨true, .black, xa, xv, X⟩ :: c) i2
    obtain ⟨s3, e3, i3⟩ := In.blackenIf (c := ⟨true, xc, ba, bv, br⟩ :: ⟨true, .black, xa, xv, X⟩ :: c) i2
    obtain ⟨s4, e4, i4⟩ := In.rotR (c := c) i3
    obtain ⟨s5, e5, i5⟩ := In.blackenIf_id (c := ⟨false, .black, xa, xv, br⟩ :: ⟨false, xc, ba, bv, .node rl .black ra rv rr⟩ :: c) i4 hX
    refine .inl ⟨rfl, s4, s5, i5, e5, fun f => ?_⟩
    simp only [T.ptr_node] at e3
    simp [p1, e1, e2, p2, e3, e4]

/-- The loop and the line after it. -/
def eraseTail (f : Nat) (s : St α) (x xp : Option Nat) (h : Nat) : Res (St α) := do
  let (s, x) ← eraseLoop f s x xp h
  blackenIf s x

theorem ptr_ne_root {f : Fr α} {c : List (Fr α)} {t : T α} {s : St α} (i : In E A s h m M (plug (f :: c) t)) : t.ptr ≠ (plug (f :: c) t).ptr := by
  cases t with
  | nil =>
    intro e
    have := plug_ptr (f :: c) (T.nil : T α)
    rw [← e] at this
    have h2 : ∀ (c : List (Fr α)) (p : Nat), cptr c (some p) ≠ none := by
      intro c
      induction c with
      | nil => intro p; simp [cptr]
      | cons g c ih => intro p; exact ih _
    exact h2 c f.a this.symm
  | node l co a v r => exact mt i.isRoot.1 (by simp)

theorem eraseTail_ok : ∀ (c : List (Fr α)) (s : St α) (t : T α), In E A s h m M (plug c t) →
    (∃ t', eraseFix c t = some t' ∧ ∃ s', In E A s' h m M t' ∧ Conv (fun f => eraseTail f s t.ptr (cpar (some h) c) h) s') ∨
    (eraseFix c t = none ∧ Div (fun f => eraseTail f s t.ptr (cpar (some h) c) h)) := by
  intro c
  induction c with
  | nil =>
    intro s t i
    obtain ⟨s1, e1, i1⟩ := In.blackenIf (c := []) i
    refine .inl ⟨_, rfl, s1, i1, (Conv.pure s1).succ rfl fun f => ?_⟩
    show eraseTail (f + 1) s t.ptr (some h) h = _
    unfold eraseTail eraseLoop
    rw [i.root, Res.ok_bind, if_pos (show t.ptr = (plug [] t).ptr from rfl), Res.ok_bind]
    exact e1
  | cons fr c ih =>
    intro s t i
    obtain ⟨fd, fc, fa, fv, fs⟩ := fr
    have hroot := ptr_ne_root i
    have hr := In.isRed i
    by_cases hred : t.red = true
    · obtain ⟨s1, e1, i1⟩ := In.blackenIf i
      refine .inl ⟨plug (⟨fd, fc, fa, fv, fs⟩ :: c) t.blacken, by simp [eraseFix, hred], s1, i1, (Conv.pure s1).succ rfl fun f => ?_⟩
      show eraseTail (f + 1) s t.ptr (some fa) h = _
      unfold eraseTail eraseLoop
      rw [i.root, Res.ok_bind, if_neg hroot, hr, Res.ok_bind, hred]
      exact e1
    · have hX : t.red = false := by simpa using hred
      cases fd
      · -- right child
        have il : Rb.left s (some fa) = .ok fs.ptr := In.left (c := c) i
        have ir : Rb.right s (some fa) = .ok t.ptr := In.right (c := c) i
        have c1 : ¬ (t.ptr = fs.ptr ∧ t.ptr ≠ none) := by
          rintro ⟨h1, h2⟩
          obtain ⟨a, ha⟩ : ∃ a, t.ptr = some a := Option.ne_none_iff_exists'.1 h2
          have hd := i.disj
          exact hd.2.2.1 a (by simp [caddrs, T.ptr_mem (h1 ▸ ha)]) a (T.ptr_mem ha) rfl
        have unf : ∀ f, eraseLoop (f + 1) s t.ptr (some fa) h = (if t.ptr = t.ptr ∧ fs.ptr ≠ none then do
            let c ← Rb.color s fs.ptr
            let (s, b) ← (if c = .red then do
              let s ← Rb.setColor s fs.ptr .black
              let s ← Rb.setColor s (some fa) .red
              let s ← rotateRight s (some fa) h
              let b ← Rb.left s (some fa)
              .ok (s, b)
            else .ok (s, fs.ptr) : Res (St α × Option Nat))
            if b = none then .ok (s, t.ptr) else bodyR f s t.ptr (some fa) b h
            else eraseLoop f s t.ptr (some fa) h) := by
          intro f
          conv => lhs; unfold eraseLoop
          rw [i.root, Res.ok_bind, if_neg hroot, hr, Res.ok_bind, hX, il, ir]
          simp only [Res.ok_bind, Bool.false_eq_true, if_false]
          rw [if_neg c1]
          rfl
        cases fs with
        | nil =>
          refine .inr ⟨by simp [eraseFix, hX], ?_⟩
          have : ∀ f, eraseLoop f s t.ptr (some fa) h = .oof := by
            intro f
            induction f with
            | zero => rfl
            | succ f ihf => rw [unf, if_neg (by simp [T.ptr]), ihf]
          intro f
          show eraseTail f s t.ptr (some fa) h = _
          unfold eraseTail
          rw [this]; rfl
        | node bl bc ba bv br =>
          have ic : Rb.color s (some ba) = .ok bc := In.color (c := ⟨true, fc, fa, fv, t⟩ :: c) i
          cases bc with
          | black =>
            have unf' : ∀ f, eraseLoop (f + 1) s t.ptr (some fa) h = bodyR f s t.ptr (some fa) (some ba) h := by
              intro f
              rw [unf, if_pos ⟨rfl, by simp [T.ptr]⟩, T.ptr_node, ic, Res.ok_bind]
              rfl
            rcases bodyR_ok (c := c) i hX with ⟨h1, s1, s2, i2, e2, eb⟩ | ⟨h1, h2, s1, i1, eb⟩
            · refine .inl ⟨_, by simp [eraseFix, hX, h1], s2, i2, (Conv.pure s2).succ rfl fun f => ?_⟩
              show eraseTail (f + 1) s t.ptr (some fa) h = _
              unfold eraseTail
              rw [unf', eb, Res.ok_bind]; exact e2
            · have hfix : eraseFix (⟨false, fc, fa, fv, .node bl .black ba bv br⟩ :: c) t = eraseFix c (broR t fc fa fv bl ba bv br).1 := by
                simp [eraseFix, hX, h1]
              rw [hfix]
              have := ih s1 _ i1
              rcases this with ⟨t', e', s', i', cv⟩ | ⟨e', dv⟩
              · refine .inl ⟨t', e', s', i', cv.succ rfl fun f => ?_⟩
                show eraseTail (f + 1) s t.ptr (some fa) h = _
                unfold eraseTail
                rw [unf', eb, h2]; rfl
              · refine .inr ⟨e', dv.succ rfl fun f => ?_⟩
                show eraseTail (f + 1) s t.ptr (some fa) h = _
                unfold eraseTail
                rw [unf', eb, h2]; rfl
          | red =>
            obtain ⟨s1, e1, i1⟩ := In.setColor (c := ⟨true, fc, fa, fv, t⟩ :: c) i .black
            obtain ⟨s2, e2, i2⟩ := In.setColor (c := c) i1 .red
            obtain ⟨s3, e3, i3⟩ := In.rotR (c := c) i2
            have p3 : Rb.left s3 (some fa) = .ok br.ptr := In.left (c := ⟨false, .black, ba, bv, bl⟩ :: c) i3
            have unf' : ∀ f, eraseLoop (f + 1) s t.ptr (some fa) h =
                if br.ptr = none then .ok (s3, t.ptr) else bodyR f s3 t.ptr (some fa) br.ptr h := by
              intro f
              rw [unf, if_pos ⟨rfl, by simp [T.ptr]⟩, T.ptr_node, ic, Res.ok_bind]
              simp [e1, e2, e3, p3]
            cases br with
            | nil =>
              obtain ⟨s4, e4, i4⟩ := In.blackenIf_id (c := ⟨false, .red, fa, fv, .nil⟩ :: ⟨false, .black, ba, bv, bl⟩ :: c) i3 hX
              refine .inl ⟨_, by simp [eraseFix, hX]; rfl, s4, i4, (Conv.pure s4).succ rfl fun f => ?_⟩
              show eraseTail (f + 1) s t.ptr (some fa) h = _
              unfold eraseTail
              rw [unf', if_pos T.ptr_nil, Res.ok_bind]; exact e4
            | node brl brc b' bv' brr =>
              rcases bodyR_ok (c := ⟨false, .black, ba, bv, bl⟩ :: c) i3 hX with ⟨h1, s4, s5, i5, e5, eb⟩ | ⟨h1, h2, s4, i4, eb⟩
              · have hfix : eraseFix (⟨false, fc, fa, fv, .node bl .red ba bv (.node brl brc b' bv' brr)⟩ :: c) t =
                    some (plug c (.node bl .black ba bv (broR t .red fa fv brl b' bv' brr).1)) := by
                  simp [eraseFix, hX, h1]
                refine .inl ⟨_, hfix, s5, i5, (Conv.pure s5).succ rfl fun f => ?_⟩
                show eraseTail (f + 1) s t.ptr (some fa) h = _
                unfold eraseTail
                rw [unf', if_neg (by simp [T.ptr]), T.ptr_node, eb, Res.ok_bind]; exact e5
              · have hfix : eraseFix (⟨false, fc, fa, fv, .node bl .red ba bv (.node brl brc b' bv' brr)⟩ :: c) t =
                    some (plug c (.node bl .black ba bv (broR t .red fa fv brl b' bv' brr).1.blacken)) := by
                  simp [eraseFix, hX, h1]
                obtain ⟨s5, e5, i5⟩ := In.blackenIf (c := ⟨false, .black, ba, bv, bl⟩ :: c) i4
                refine .inl ⟨_, hfix, s5, i5, ((Conv.pure s5).succ (h := fun f => eraseTail f s4 (some fa) (some ba) h) rfl fun f => ?_).succ rfl fun f => ?_⟩
                · have j := i4
                  rw [h2] at j
                  have hr' : Rb.isRed s4 (some fa) = .ok true := In.isRed (c := ⟨false, .black, ba, bv, bl⟩ :: c) j
                  have hroot' := ptr_ne_root (f := ⟨false, .black, ba, bv, bl⟩) (c := c) j
                  simp only [T.ptr_node] at hroot'
                  unfold eraseTail eraseLoop
                  rw [j.root, Res.ok_bind, if_neg hroot', hr', Res.ok_bind]
                  rw [h2] at e5
                  exact e5
                · show eraseTail (f + 1) s t.ptr (some fa) h = _
                  unfold eraseTail
                  rw [unf', if_neg (by simp [T.ptr]), T.ptr_node, eb]; rfl
      · -- left child
        have il : Rb.left s (some fa) = .ok t.ptr := In.left (c := c) i
        have ir : Rb.right s (some fa) = .ok fs.ptr := In.right (c := c) i
        have c2 : fs.ptr = none → ¬ (t.ptr = fs.ptr ∧ t.ptr ≠ none) := by
          rintro h0 ⟨h1, h2⟩
          exact h2 (h1.trans h0)
        have unf : ∀ f, eraseLoop (f + 1) s t.ptr (some fa) h = (if fs.ptr ≠ none then do
            let c ← Rb.color s fs.ptr
            let (s, b) ← (if c = .red then do
              let s ← Rb.setColor s fs.ptr .black
              let s ← Rb.setColor s (some fa) .red
              let s ← rotateLeft s (some fa) h
              let b ← Rb.right s (some fa)
              .ok (s, b)
            else .ok (s, fs.ptr) : Res (St α × Option Nat))
            if b = none then .ok (s, t.ptr) else bodyL f s t.ptr (some fa) b h
            else eraseLoop f s t.ptr (some fa) h) := by
          intro f
          conv => lhs; unfold eraseLoop
          rw [i.root, Res.ok_bind, if_neg hroot, hr, Res.ok_bind, hX, il, ir]
          simp only [Res.ok_bind, Bool.false_eq_true, if_false]
          by_cases h0 : fs.ptr = none
          · rw [if_neg (by simp [h0]), if_neg (c2 h0), if_neg (by simp [h0])]
          · rw [if_pos ⟨trivial, h0⟩, if_pos h0]
            rfl
        cases fs with
        | nil =>
          refine .inr ⟨by simp [eraseFix, hX], ?_⟩
          have : ∀ f, eraseLoop f s t.ptr (some fa) h = .oof := by
            intro f
            induction f with
            | zero => rfl
            | succ f ihf => rw [unf, if_neg (by simp [T.ptr]), ihf]
          intro f
          show eraseTail f s t.ptr (some fa) h = _
          unfold eraseTail
          rw [this]; rfl
        | node bl bc ba bv br =>
          have ic : Rb.color s (some ba) = .ok bc := In.color (c := ⟨false, fc, fa, fv, t⟩ :: c) i
          cases bc with
          | black =>
            have unf' : ∀ f, eraseLoop (f + 1) s t.ptr (some fa) h = bodyL f s t.ptr (some fa) (some ba) h := by
              intro f
              rw [unf, if_pos (by simp [T.ptr]), T.ptr_node, ic, Res.ok_bind]
              rfl
            rcases bodyL_ok (c := c) i hX with ⟨h1, s1, s2, i2, e2, eb⟩ | ⟨h1, h2, s1, i1, eb⟩
            · refine .inl ⟨_, by simp [eraseFix, hX, h1], s2, i2, (Conv.pure s2).succ rfl fun f => ?_⟩
              show eraseTail (f + 1) s t.ptr (some fa) h = _
              unfold eraseTail
              rw [unf', eb, Res.ok_bind]; exact e2
            · have hfix : eraseFix (⟨true, fc, fa, fv, .node bl .black ba bv br⟩ :: c) t = eraseFix c (broL t fc fa fv bl ba bv br).1 := by
                simp [eraseFix, hX, h1]
              rw [hfix]
              have := ih s1 _ i1
              rcases this with ⟨t', e', s', i', cv⟩ | ⟨e', dv⟩
              · refine .inl ⟨t', e', s', i', cv.succ rfl fun f => ?_⟩
                show eraseTail (f + 1) s t.ptr (some fa) h = _
                unfold eraseTail
                rw [unf', eb, h2]; rfl
              · refine .inr ⟨e', dv.succ rfl fun f => ?_⟩
                show eraseTail (f + 1) s t.ptr (some fa) h = _
                unfold eraseTail
                rw [unf', eb, h2]; rfl
          | red =>
            obtain ⟨s1, e1, i1⟩ := In.setColor (c := ⟨false, fc, fa, fv, t⟩ :: c) i .black
            obtain ⟨s2, e2, i2⟩ := In.setColor (c := c) i1 .red
            obtain ⟨s3, e3, i3⟩ := In.rotL (c := c) i2
            have p3 : Rb.right s3 (some fa) = .ok bl.ptr := In.right (c := ⟨true, .black, ba, bv, br⟩ :: c) i3
            have unf' : ∀ f, eraseLoop (f + 1) s t.ptr (some fa) h =
                if bl.ptr = none then .ok (s3, t.ptr) else bodyL f s3 t.ptr (some fa) bl.ptr h := by
              intro f
              rw [unf, if_pos (by simp [T.ptr]), T.ptr_node, ic, Res.ok_bind]
              simp [e1, e2, e3, p3]
            cases bl with
            | nil =>
              obtain ⟨s4, e4, i4⟩ := In.blackenIf_id (c := ⟨true, .red, fa, fv, .nil⟩ :: ⟨true, .black, ba, bv, br⟩ :: c) i3 hX
              refine .inl ⟨_, by simp [eraseFix, hX]; rfl, s4, i4, (Conv.pure s4).succ rfl fun f => ?_⟩
              show eraseTail (f + 1) s t.ptr (some fa) h = _
              unfold eraseTail
              rw [unf', if_pos T.ptr_nil, Res.ok_bind]; exact e4
            | node bll blc b' bv' blr =>
              rcases bodyL_ok (c := ⟨true, .black, ba, bv, br⟩ :: c) i3 hX with ⟨h1, s4, s5, i5, e5, eb⟩ | ⟨h1, h2, s4, i4, eb⟩
              · have hfix : eraseFix (⟨true, fc, fa, fv, .node (.node bll blc b' bv' blr) .red ba bv br⟩ :: c) t =
                    some (plug c (.node (broL t .red fa fv bll b' bv' blr).1 .black ba bv br)) := by
                  simp [eraseFix, hX, h1]
                refine .inl ⟨_, hfix, s5, i5, (Conv.pure s5).succ rfl fun f => ?_⟩
                show eraseTail (f + 1) s t.ptr (some fa) h = _
                unfold eraseTail
                rw [unf', if_neg (by simp [T.ptr]), T.ptr_node, eb, Res.ok_bind]; exact e5
              · have hfix : eraseFix (⟨true, fc, fa, fv, .node (.node bll blc b' bv' blr) .red ba bv br⟩ :: c) t =
                    some (plug c (.node (broL t .red fa fv bll b' bv' blr).1.blacken .black ba bv br)) := by
                  simp [eraseFix, hX, h1]
                obtain ⟨s5, e5, i5⟩ := In.blackenIf (c := ⟨true, .black, ba, bv, br⟩ :: c) i4
                refine .inl ⟨_, hfix, s5, i5, ((Conv.pure s5).succ (h := fun f => eraseTail f s4 (some fa) (some ba) h) rfl fun f => ?_).succ rfl fun f => ?_⟩
                · have j := i4
                  rw [h2] at j
                  have hr' : Rb.isRed s4 (some fa) = .ok true := In.isRed (c := ⟨true, .black, ba, bv, br⟩ :: c) j
                  have hroot' := ptr_ne_root (f := ⟨true, .black, ba, bv, br⟩) (c := c) j
                  simp only [T.ptr_node] at hroot'
                  unfold eraseTail eraseLoop
                  rw [j.root, Res.ok_bind, if_neg hroot', hr', Res.ok_bind]
                  rw [h2] at e5
                  exact e5
                · show eraseTail (f + 1) s t.ptr (some fa) h = _
                  unfold eraseTail
                  rw [unf', if_neg (by simp [T.ptr]), T.ptr_node, eb]; rfl

end

end Verif.Rb
