import Verif.Props.Vesa

/-! Property C81: layout of texts with line feeds and tabs on the console. -/

set_option backward.isDefEq.respectTransparency false

namespace Verif.Vesa

/-- One character put that does not fill the screen. -/
theorem put_room (font : Font) (fg : Color) (c : BitVec 8) (s : Screen) (h : Ok s) (hroom : cursor s + 1 < s.height / 16 * (s.width / 8)) :
    let t := put font fg c s
    Ok t ∧ t.width = s.width ∧ t.height = s.height ∧ cursor t = cursor s + 1 ∧
    ∀ p, inColumns s p → t.pix p = if cellOf s p = cursor s ∧ glyphBit font s c p = true then fg else s.pix p := by
  intro t
  -- `put` of a plain character is `putc`; the glyph of `c` is given to the plain character 0
  have hc : plain 0 := ⟨by decide, by decide⟩
  let font' : Font := fun _ => font c
  have e : putc font' fg 0 s = put font fg c s := by
    simp only [putc, hc.1, hc.2, if_false]
    have hr : ∀ n i px py (s : Screen), putRows font' 0 fg px py n i s = putRows font c fg px py n i s := by
      intro n
      induction n with
      | zero => intros; rfl
      | succ n ih => intro i px py s; exact ih _ _ _ _
    simp only [put, putChar, hr]
  have := putc_plain font' fg 0 s h hc hroom
  rw [e] at this
  exact this

/-- Where a text without tabs belongs, on a console with `cols` columns: characters with the
number of their cell (rows are counted through), and the cell behind the text. A line feed leads
to the start of the next row. -/
def layout (cols : Nat) : List (BitVec 8) → Nat → List (Nat × BitVec 8) × Nat
  | [], k => ([], k)
  | c :: cs, k =>
    if c = 0x0A then layout cols cs ((k / cols + 1) * cols)
    else ((k, c) :: (layout cols cs (k + 1)).1, (layout cols cs (k + 1)).2)

theorem layout_ge (cols : Nat) (cs : List (BitVec 8)) (k : Nat) (hc : 0 < cols) :
    k ≤ (layout cols cs k).2 ∧ ∀ q ∈ (layout cols cs k).1, k ≤ q.1 := by
  induction cs generalizing k with
  | nil => simp [layout]
  | cons c cs ih =>
    simp only [layout]
    split
    · have h1 := ih ((k / cols + 1) * cols)
      have h2 : k < (k / cols + 1) * cols := by
        have := Nat.div_add_mod k cols
        have := Nat.mod_lt k hc
        rw [Nat.add_mul, Nat.mul_comm (k / cols)]; omega
      exact ⟨by omega, fun q hq => by have := h1.2 q hq; omega⟩
    · have h1 := ih (k + 1)
      refine ⟨by simp; omega, ?_⟩
      intro q hq
      rcases List.mem_cons.1 hq with rfl | hq
      · exact Nat.le_refl _
      · have := h1.2 q hq; omega

/-- C81. A text without tabs whose characters all fit on the screen before its last cell: each
character is drawn in the cell `layout` gives it, over what was there; all other cells keep
their contents; the cursor is behind the text. Missing: tabs (`C81_tab_violated`), and texts that
reach the last cell (`C81_full_violated`). -/
theorem C81_layout_partial (font : Font) (fg : Color) (str : List (BitVec 8)) (s : Screen) (h : Ok s) (htab : ∀ c ∈ str, c ≠ 0x09)
    (hroom : ∀ q ∈ (layout (s.width / 8) str (cursor s)).1, q.1 + 1 < s.height / 16 * (s.width / 8)) :
    let t := colorPrint font fg str s
    Ok t ∧ t.width = s.width ∧ t.height = s.height ∧ cursor t = (layout (s.width / 8) str (cursor s)).2 ∧
    ∀ p, inColumns s p →
      ((∃ c, (cellOf s p, c) ∈ (layout (s.width / 8) str (cursor s)).1 ∧ glyphBit font s c p = true) → t.pix p = fg) ∧
      (¬ (∃ c, (cellOf s p, c) ∈ (layout (s.width / 8) str (cursor s)).1 ∧ glyphBit font s c p = true) → t.pix p = s.pix p) := by
  have hcols : 0 < s.width / 8 := by have := h.x; omega
  induction str generalizing s with
  | nil => exact ⟨h, rfl, rfl, rfl, fun p _ => ⟨fun ⟨_, hc, _⟩ => absurd hc (by simp [layout]), fun _ => rfl⟩⟩
  | cons c str ih =>
    intro t
    have ht : t = colorPrint font fg str (putc font fg c s) := rfl
    by_cases hlf : c = 0x0A
    · subst hlf
      simp only [layout, if_true] at hroom ⊢
      have e : putc font fg 0x0A s = { s with x := 0, y := s.y + 1 } := by simp [putc]
      rw [e] at ht
      have hcur : cursor { s with x := 0, y := s.y + 1 } = (cursor s / (s.width / 8) + 1) * (s.width / 8) := by
        have hx := h.x
        simp only [cursor]
        rw [Nat.mul_comm s.y, Nat.mul_add_div hcols, Nat.div_eq_of_lt hx]
        simp
      have := ih { s with x := 0, y := s.y + 1 } ⟨h.cw, h.ch, hcols⟩ (fun c' h' => htab c' (by simp [h'])) (by rw [hcur]; exact hroom) hcols
      rw [← ht, hcur] at this
      exact this
    · have ht9 := htab c (by simp)
      simp only [layout, if_neg hlf] at hroom ⊢
      have e : putc font fg c s = put font fg c s := by simp only [putc, hlf, ht9, if_false]
      rw [e] at ht
      obtain ⟨a1, a2, a3, a4, a5⟩ := put_room font fg c s h (hroom (cursor s, c) (by simp))
      have hcell : ∀ p, cellOf (put font fg c s) p = cellOf s p := fun p => by simp only [cellOf, a2]
      have hbit : ∀ c' p, glyphBit font (put font fg c s) c' p = glyphBit font s c' p := fun c' p => by simp only [glyphBit, a2]
      obtain ⟨b1, b2, b3, b4, b5⟩ := ih (put font fg c s) a1 (fun c' hc' => htab c' (by simp [hc']))
        (by rw [a2, a3, a4]; exact fun q hq => hroom q (by simp [hq])) (by rw [a2]; exact hcols)
      rw [← ht] at b1 b2 b3 b4 b5
      rw [a2, a4] at b4
      refine ⟨b1, b2.trans a2, b3.trans a3, b4, fun p hin => ?_⟩
      obtain ⟨p1, p2⟩ := b5 p (by unfold inColumns at hin ⊢; rw [a2]; exact hin)
      simp only [hcell, hbit, a2, a4] at p1 p2
      constructor
      · rintro ⟨c', hm, hg⟩
        rcases List.mem_cons.1 hm with hm | hm
        · obtain ⟨hk, rfl⟩ := Prod.mk.inj hm
          rw [p2, a5 p hin, if_pos ⟨hk, hg⟩]
          rintro ⟨c2, hm2, _⟩
          have := (layout_ge (s.width / 8) str (cursor s + 1) hcols).2 _ hm2
          simp only at this; omega
        · exact p1 ⟨c', hm, hg⟩
      · intro hno
        rw [p2 (fun ⟨c', hm, hg⟩ => hno ⟨c', List.mem_cons_of_mem _ hm, hg⟩), a5 p hin, if_neg]
        rintro ⟨hk, hg⟩
        exact hno ⟨c, by simp [hk], hg⟩

/-- The lines of a text, in the rows from `y` on: cell, character. -/
def rowsOf (cols : Nat) : List (List (BitVec 8)) → Nat → List (Nat × BitVec 8)
  | [], _ => []
  | l :: ls, y => (List.range l.length).map (fun j => (y * cols + j, l.getD j 0)) ++ rowsOf cols ls (y + 1)

/-- Lines, each closed by a line feed. -/
def unlines (ls : List (List (BitVec 8))) : List (BitVec 8) := ls.flatMap (· ++ [0x0A])

theorem layout_append (cols : Nat) (a b : List (BitVec 8)) (k : Nat) :
    layout cols (a ++ b) k =
      ((layout cols a k).1 ++ (layout cols b (layout cols a k).2).1, (layout cols b (layout cols a k).2).2) := by
  induction a generalizing k with
  | nil => simp [layout]
  | cons c a ih =>
    simp only [List.cons_append, layout]
    split
    · exact ih _
    · rw [ih]; simp

theorem layout_line (cols : Nat) (l : List (BitVec 8)) (k : Nat) (h : ∀ c ∈ l, c ≠ 0x0A) :
    layout cols l k = ((List.range l.length).map (fun j => (k + j, l.getD j 0)), k + l.length) := by
  induction l generalizing k with
  | nil => simp [layout]
  | cons c l ih =>
    simp only [layout, if_neg (h c (by simp)), ih (k + 1) (fun c' h' => h c' (by simp [h']))]
    rw [List.length_cons, List.range_succ_eq_map, List.map_cons, List.map_map]
    simp only [Prod.mk.injEq]
    refine ⟨?_, by omega⟩
    simp only [List.getD_cons_zero, Nat.add_zero, List.cons.injEq, true_and]
    apply List.map_congr_left
    intro j _
    simp; omega

theorem layout_lines (cols : Nat) (hc : 0 < cols) (ls : List (List (BitVec 8))) (y : Nat) (h : ∀ l ∈ ls, l.length < cols ∧ ∀ c ∈ l, c ≠ 0x0A) :
    layout cols (unlines ls) (y * cols) = (rowsOf cols ls y, (y + ls.length) * cols) := by
  induction ls generalizing y with
  | nil => simp [unlines, layout, rowsOf]
  | cons l ls ih =>
    obtain ⟨h1, h2⟩ := h l (by simp)
    have hu : unlines (l :: ls) = l ++ (0x0A :: unlines ls) := by simp [unlines]
    rw [hu, layout_append, layout_line cols l _ h2]
    simp only [layout, if_true]
    have e : (y * cols + l.length) / cols + 1 = y + 1 := by
      rw [Nat.mul_comm, Nat.mul_add_div hc, Nat.div_eq_of_lt h1, Nat.add_zero]
    rw [e, ih (y + 1) (fun l' h' => h l' (by simp [h']))]
    simp only [rowsOf, List.length_cons, Prod.mk.injEq, true_and]
    congr 1; omega

theorem mem_rowsOf (cols : Nat) (ls : List (List (BitVec 8))) (y : Nat) (q : Nat × BitVec 8) :
    q ∈ rowsOf cols ls y ↔ ∃ i j, ∃ (hi : i < ls.length) (hj : j < (ls[i]).length), q = ((y + i) * cols + j, (ls[i])[j]) := by
  induction ls generalizing y with
  | nil => simp [rowsOf]
  | cons l ls ih =>
    simp only [rowsOf, List.mem_append, List.mem_map, List.mem_range, ih]
    constructor
    · rintro (⟨j, hj, rfl⟩ | ⟨i, j, hi, hj, rfl⟩)
      · exact ⟨0, j, by simp, by simpa using hj, by simp [hj]⟩
      · exact ⟨i + 1, j, by simpa using hi, by simpa using hj, by simp; congr 1; omega⟩
    · rintro ⟨i, j, hi, hj, rfl⟩
      cases i with
      | zero =>
        have hj' : j < l.length := by simpa using hj
        exact .inl ⟨j, hj', by simp [hj']⟩
      | succ i => exact .inr ⟨i, j, by simpa using hi, by simpa using hj, by simp; congr 1; omega⟩

/-- C81 in rows and columns: lines shorter than the console is wide, each closed by a line
feed, printed from the first column on, on a part of the screen that is blank: pixel by pixel,
row `y + i` shows line `i` of the text, column by column, and is otherwise blank; the cursor is
in the first column of the row below. -/
theorem C81_lines_partial (font : Font) (fg : Color) (ls : List (List (BitVec 8))) (s : Screen) (h : Ok s) (hx : s.x = 0)
    (hl : ∀ l ∈ ls, l.length < s.width / 8 ∧ ∀ c ∈ l, plain c) (hfit : s.y + ls.length ≤ s.height / 16)
    (hblank : ∀ p, inColumns s p → s.y ≤ p / s.width / 16 → p / s.width / 16 < s.height / 16 → s.pix p = black) :
    let t := colorPrint font fg (unlines ls) s
    t.x = 0 ∧ t.y = s.y + ls.length ∧
    (∀ p, inColumns s p → p / s.width / 16 < s.y → t.pix p = s.pix p) ∧
    (∀ p i, inColumns s p → p / s.width / 16 = s.y + i → s.y + i < s.height / 16 →
      t.pix p = if ((ls[i]?.bind (·[p % s.width / 8]?)).any fun c => glyphBit font s c p) = true then fg else black) := by
  intro t
  have hcols : 0 < s.width / 8 := by have := h.x; omega
  have hcur : cursor s = s.y * (s.width / 8) := by simp [cursor, hx]
  have hlay : layout (s.width / 8) (unlines ls) (cursor s) = (rowsOf (s.width / 8) ls s.y, (s.y + ls.length) * (s.width / 8)) := by
    rw [hcur]
    exact layout_lines _ hcols ls s.y (fun l h' => ⟨(hl l h').1, fun c hc => ((hl l h').2 c hc).1⟩)
  have htab : ∀ c ∈ unlines ls, c ≠ 0x09 := by
    intro c hc
    simp only [unlines, List.mem_flatMap, List.mem_append, List.mem_singleton] at hc
    obtain ⟨l, h1, h2 | rfl⟩ := hc
    · exact ((hl l h1).2 c h2).2
    · decide
  have hroom : ∀ q ∈ (layout (s.width / 8) (unlines ls) (cursor s)).1, q.1 + 1 < s.height / 16 * (s.width / 8) := by
    rw [hlay]
    intro q hq
    obtain ⟨i, j, hi, hj, rfl⟩ := (mem_rowsOf _ _ _ _).1 hq
    have h1 := (hl _ (List.getElem_mem hi)).1
    have h2 : (s.y + i + 1) * (s.width / 8) ≤ s.height / 16 * (s.width / 8) := Nat.mul_le_mul_right _ (by omega)
    rw [Nat.add_mul] at h2
    simp only; omega
  obtain ⟨k1, k2, k3, k4, k5⟩ := C81_layout_partial font fg (unlines ls) s h htab hroom
  rw [hlay] at k4 k5
  have hpos : t.y = s.y + ls.length ∧ t.x = 0 := by
    have e : t.y * (s.width / 8) + t.x = (s.y + ls.length) * (s.width / 8) + 0 := by
      have := k4; unfold cursor at this; rw [k2] at this; exact this
    have hx' : t.x < s.width / 8 := by have := k1.x; rw [k2] at this; exact this
    exact (radix hcols hx').1 e
  refine ⟨hpos.2, hpos.1, ?_, ?_⟩
  · intro p hin hp
    refine (k5 p hin).2 ?_
    rintro ⟨c, hm, _⟩
    obtain ⟨i, j, hi, hj, e⟩ := (mem_rowsOf _ _ _ _).1 hm
    have hj' : j < s.width / 8 := by have := (hl _ (List.getElem_mem hi)).1; omega
    have := (radix hj' hin).1 (Prod.mk.inj e).1
    omega
  · intro p i hin hp hrow
    have hb := hblank p hin (by omega) (by omega)
    have key : (∃ c, (cellOf s p, c) ∈ rowsOf (s.width / 8) ls s.y ∧ glyphBit font s c p = true) ↔
        ((ls[i]?.bind (·[p % s.width / 8]?)).any fun c => glyphBit font s c p) = true := by
      simp only [mem_rowsOf]
      constructor
      · rintro ⟨c, ⟨i', j, hi, hj, e⟩, hg⟩
        have hj' : j < s.width / 8 := by have := (hl _ (List.getElem_mem hi)).1; omega
        obtain ⟨e1, rfl⟩ := Prod.mk.inj e
        obtain ⟨e2, e3⟩ := (radix hj' hin).1 e1
        have : i' = i := by omega
        subst this
        rw [e3, List.getElem?_eq_getElem hi, Option.bind_some, List.getElem?_eq_getElem hj, Option.any_some]
        exact hg
      · intro hany
        obtain ⟨c, hc, hg⟩ := Option.any_eq_true .. |>.1 hany
        obtain ⟨l, h1, h2⟩ := Option.bind_eq_some_iff.1 hc
        obtain ⟨hi, rfl⟩ := List.getElem?_eq_some_iff.1 h1
        obtain ⟨hj, rfl⟩ := List.getElem?_eq_some_iff.1 h2
        exact ⟨_, ⟨i, _, hi, hj, by simp only [cellOf, hp]⟩, hg⟩
    by_cases c : ((ls[i]?.bind (·[p % s.width / 8]?)).any fun c => glyphBit font s c p) = true
    · rw [if_pos c]; exact (k5 p hin).1 (key.2 c)
    · rw [if_neg c, ← hb]; exact (k5 p hin).2 (fun h => c (key.1 h))

/-- Two lines "Hi", "!" on the cleared console: the corner of the cell of "!" is pixel 23040 =
16 * 1440. -/
example : (colorPrint dotFont 0xffffff (unlines [[0x48, 0x69], [0x21]]) (clear exScreen)).pix 23040 = 0xffffff := by
  obtain ⟨e1, e2, e3, e4, e5, e6, e7, _⟩ := clear_spec exScreen
  have w : (clear exScreen).width = 1440 := e1
  have hh : (clear exScreen).height = 900 := e2
  have := (C81_lines_partial dotFont 0xffffff [[0x48, 0x69], [0x21]] (clear exScreen) ⟨e3, e4, by rw [e5, w]; decide⟩ e5 (by simp [plain, w])
    (by rw [e6, hh]; decide) ?_).2.2.2 23040 1 (by simp only [inColumns, w]; decide) (by rw [e6, w]) (by rw [e6, hh]; decide)
  · rw [this]
    simp only [glyphBit, w]
    decide
  · intro p _ _ hp
    rw [w, hh] at hp
    rw [e7, if_pos]
    show p < 1296000
    omega

theorem putSpaces_room (font : Font) (fg : Color) (n : Nat) (s : Screen) (h : Ok s)
    (hroom : cursor s + n < s.height / 16 * (s.width / 8)) :
    let t := putSpaces font fg n s
    Ok t ∧ t.width = s.width ∧ t.height = s.height ∧ cursor t = cursor s + n := by
  induction n generalizing s with
  | zero => exact ⟨h, rfl, rfl, rfl⟩
  | succ n ih =>
    intro t
    obtain ⟨a1, a2, a3, a4, _⟩ := put_room font fg 0x20 s h (by omega)
    obtain ⟨b1, b2, b3, b4⟩ := ih (put font fg 0x20 s) a1 (by rw [a2, a3, a4]; omega)
    exact ⟨b1, b2.trans a2, b3.trans a3, by rw [show cursor t = _ from b4, a4]; omega⟩

/-- C81 fails for tabs: wherever the cursor is (with room for 9 more cells in the row), a tab
moves it by 9 columns, not to a multiple of 8, unless the column is 7 modulo 8. -/
theorem C81_tab_violated (font : Font) (fg : Color) (s : Screen) (h : Ok s) (hcol : s.x + 9 < s.width / 8) (hy : s.y < s.height / 16) :
    let t := colorPrint font fg [0x09] s
    t.y = s.y ∧ t.x = s.x + 9 ∧ (t.x % 8 = 0 → s.x % 8 = 7) := by
  intro t
  have hr : (s.y + 1) * (s.width / 8) ≤ s.height / 16 * (s.width / 8) := Nat.mul_le_mul_right _ hy
  rw [Nat.add_mul] at hr
  have hc : cursor s = s.y * (s.width / 8) + s.x := rfl
  obtain ⟨a1, a2, a3, a4⟩ := putSpaces_room font fg 8 s h (by omega)
  obtain ⟨b1, b2, b3, b4, _⟩ := put_room font fg 0x09 (putSpaces font fg 8 s) a1 (by rw [a2, a3, a4]; omega)
  have ht : t = put font fg 0x09 (putSpaces font fg 8 s) := by
    show putc font fg 0x09 s = _
    simp [putc]
  rw [← ht] at b1 b2 b4
  have e : t.y * (s.width / 8) + t.x = s.y * (s.width / 8) + (s.x + 9) := by
    have := b4
    unfold cursor at this
    rw [b2, a2] at this
    rw [this]
    have := a4; unfold cursor at this; rw [a2] at this
    rw [this]; omega
  have hx' : t.x < s.width / 8 := by have := b1.x; rw [b2, a2] at this; exact this
  obtain ⟨e1, e2⟩ := (radix hcol hx').1 e
  exact ⟨e1, e2, by rw [e2]; omega⟩

/-- From the first column to column 9. -/
example (font : Font) : (colorPrint font 0xffffff [0x09] { exScreen with x := 0, y := 0 }).x = 9 :=
  (C81_tab_violated font 0xffffff { exScreen with x := 0, y := 0 } ⟨rfl, rfl, by decide⟩ (by decide) (by decide)).2.1

/-- C81 fails at the end of the screen: the character printed into the last cell erases the whole
screen, itself included, on every screen with an even number of pixels. -/
theorem C81_full_violated (font : Font) (fg : Color) (c : BitVec 8) (s : Screen) (h : Ok s) (hc : c ≠ 0x0A ∧ c ≠ 0x09)
    (heven : s.height * s.width % 2 = 0) (hx : s.x + 1 = s.width / 8) (hy : s.y + 1 = s.height / 16) :
    let t := colorPrint font fg [c] s
    t.x = 0 ∧ t.y = 0 ∧ ∀ p, p < s.height * s.width → t.pix p = black := by
  intro t
  obtain ⟨g, _, _⟩ := putChar_spec font fg c s h
  have ht : t = clear { putChar font fg c s with x := 0, y := s.y + 1 } := by
    show putc font fg c s = _
    simp only [putc, hc.1, hc.2, if_false, put]
    have e1 : (putChar font fg c s).x + 1 ≥ (putChar font fg c s).width / (putChar font fg c s).cw := by
      rw [g.x, g.w, g.cw, h.cw]; omega
    simp only [e1, if_true]
    have e2 : (putChar font fg c s).y + 1 ≥ (putChar font fg c s).height / (putChar font fg c s).ch := by
      rw [g.y, g.h, g.ch, h.ch]; omega
    rw [if_pos e2, g.y]
  have hC := C59_clear { putChar font fg c s with x := 0, y := s.y + 1 } (by simp only [g.h, g.w]; exact heven)
  rw [← ht] at hC
  simp only [g.h, g.w] at hC
  exact ⟨hC.2.1, hC.2.2.1, hC.1⟩

/-- The last cell of the console. -/
example (font : Font) : (colorPrint font 0xffffff [0x41] { exScreen with x := 179, y := 55 }).pix 0 = black :=
  (C81_full_violated font 0xffffff 0x41 { exScreen with x := 179, y := 55 } ⟨rfl, rfl, by decide⟩ (by decide) (by decide) (by decide) (by decide)).2.2 0
    (by decide)

end Verif.Vesa
