import Verif.Lemmas.Vesa

/-! Properties C57 (writes stay in the frame buffer), C58 (cells) and C59 (Clear). -/

set_option backward.isDefEq.respectTransparency false

namespace Verif.Vesa

/-! ## C59 -/

/-- C59. On every screen with an even number of pixels, `Clear` makes every pixel black,
puts the cursor in the corner, leaves everything outside the screen alone and does not
even write there. -/
theorem C59_clear (s : Screen) (h : s.height * s.width % 2 = 0) :
    (∀ p, p < s.height * s.width → (clear s).pix p = black) ∧
      (clear s).x = 0 ∧ (clear s).y = 0 ∧
      (∀ p, s.height * s.width ≤ p → (clear s).pix p = s.pix p) ∧
      (∀ p, p ∈ (clear s).log → p ∈ s.log ∨ p < s.height * s.width) ∧
      (clear s).width = s.width ∧ (clear s).height = s.height := by
  obtain ⟨e1, e2, _, _, e5, e6, e7, e8⟩ := clear_spec s
  have e : 2 * (s.height * s.width / 2) = s.height * s.width := by omega
  rw [e] at e7 e8
  refine ⟨fun p hp => by rw [e7, if_pos hp], e5, e6, fun p hp => by rw [e7, if_neg (by omega)], fun p hp => (e8 p).1 hp, e1, e2⟩

/-- The console's screen, full of rubbish. -/
def exScreen : Screen := Screen.init ⟨fun p => BitVec.ofNat 32 p, [], 0, 0, 0, 0, 7, 9⟩

example : (clear exScreen).pix 1295999 = black ∧ (clear exScreen).pix 1296000 = 1296000 := by
  have h := C59_clear exScreen (by decide)
  exact ⟨h.1 1295999 (by decide), by rw [h.2.2.2.1 1296000 (by decide)]; rfl⟩

/-! ## C58 -/

/-- The cell (counted row by row) in which the pixel lies. -/
def cellOf (s : Screen) (p : Nat) : Nat := p / s.width / 16 * (s.width / 8) + p % s.width / 8

/-- The pixel lies in a text column (on a screen whose width is a multiple of 8: always). -/
def inColumns (s : Screen) (p : Nat) : Prop := p % s.width / 8 < s.width / 8

/-- Whether the glyph of `c` has a bit at the place of pixel `p` in its cell. -/
def glyphBit (font : Font) (s : Screen) (c : BitVec 8) (p : Nat) : Bool :=
  (font c (p / s.width % 16)).getLsbD (7 - p % s.width % 8)

/-- The cell of the cursor. -/
def cursor (s : Screen) : Nat := s.y * (s.width / 8) + s.x

def plain (c : BitVec 8) : Prop := c ≠ 0x0A ∧ c ≠ 0x09

theorem radix {cols a b x y : Nat} (hx : x < cols) (hb : b < cols) :
    a * cols + b = y * cols + x ↔ a = y ∧ b = x := by
  constructor
  · intro h
    have h1 : (a * cols + b) / cols = a := by
      rw [Nat.mul_comm, Nat.mul_add_div (by omega), Nat.div_eq_of_lt hb, Nat.add_zero]
    have h2 : (y * cols + x) / cols = y := by
      rw [Nat.mul_comm, Nat.mul_add_div (by omega), Nat.div_eq_of_lt hx, Nat.add_zero]
    have : a = y := by rw [← h1, h, h2]
    subst this
    exact ⟨rfl, by omega⟩
  · rintro ⟨rfl, rfl⟩; rfl

/-- One plain character that does not fill the screen. -/
theorem putc_plain (font : Font) (fg : Color) (c : BitVec 8) (s : Screen) (h : Ok s) (hc : plain c)
    (hroom : cursor s + 1 < s.height / 16 * (s.width / 8)) :
    let t := putc font fg c s
    Ok t ∧ t.width = s.width ∧ t.height = s.height ∧ cursor t = cursor s + 1 ∧
    ∀ p, inColumns s p → t.pix p = if cellOf s p = cursor s ∧ glyphBit font s c p = true then fg else s.pix p := by
  intro t
  have ht : t = put font fg c s := by
    show putc font fg c s = _
    simp only [putc, hc.1, hc.2, if_false]
  obtain ⟨h1, h2, h3, h4, h5, _⟩ := put_spec font fg c s t h ht
  obtain ⟨_, hp, _⟩ := putChar_spec font fg c s h
  have hx := h.x
  have hnw : wraps (s.width / 8) (s.height / 16) s.x s.y = false := by
    simp only [wraps, decide_eq_false_iff_not]
    intro hge
    unfold cursor at hroom
    by_cases c1 : s.x + 1 ≥ s.width / 8
    · rw [if_pos c1] at hge
      have := Nat.mul_le_mul_right (s.width / 8) hge
      rw [Nat.add_mul] at this
      omega
    · rw [if_neg c1] at hge
      have := Nat.mul_le_mul_right (s.width / 8) hge
      omega
  refine ⟨h1, h2, h3, ?_, ?_⟩
  · simp only [wraps, decide_eq_false_iff_not] at hnw
    simp only [adv] at h4
    unfold cursor
    rw [h2]
    by_cases c1 : s.x + 1 ≥ s.width / 8
    · rw [if_pos c1] at h4 hnw
      rw [if_neg hnw, Prod.mk.injEq] at h4
      rw [h4.1, h4.2, Nat.add_mul]
      omega
    · rw [if_neg c1] at h4 hnw
      rw [if_neg hnw, Prod.mk.injEq] at h4
      rw [h4.1, h4.2]
      omega
  · intro p hin
    rw [(h5 hnw).1, hp p]
    have := radix (a := p / s.width / 16) (y := s.y) hx hin
    unfold cellOf cursor glyphBit
    by_cases c1 : p / s.width / 16 = s.y ∧ p % s.width / 8 = s.x
    · rw [(this.2 c1)]
      by_cases c2 : (font c (p / s.width % 16)).getLsbD (7 - p % s.width % 8) = true
      · rw [if_pos ⟨c1.1, c1.2, c2⟩, if_pos ⟨rfl, c2⟩]
      · rw [if_neg (fun h => c2 h.2.2), if_neg (fun h => c2 h.2)]
    · rw [if_neg (fun h => c1 ⟨h.1, h.2.1⟩), if_neg (fun h => c1 (this.1 h.1))]

/-- C58. Text without control characters that fits before the end of the screen: the
`k`-th character goes to the `k`-th cell after the cursor, left to right and row by row.
In the cells written, exactly the glyph's pixels get the foreground colour and the others
keep their contents; all pixels of other cells keep their contents; the cursor moves
behind the text. -/
theorem C58_cells (font : Font) (fg : Color) (str : List (BitVec 8)) (s : Screen) (h : Ok s)
    (hplain : ∀ c ∈ str, plain c) (hroom : cursor s + str.length < s.height / 16 * (s.width / 8)) :
    let t := colorPrint font fg str s
    cursor t = cursor s + str.length ∧ Ok t ∧ t.width = s.width ∧ t.height = s.height ∧
    ∀ p, inColumns s p →
      t.pix p = if cursor s ≤ cellOf s p ∧ ((str[cellOf s p - cursor s]?).any fun c => glyphBit font s c p) = true
        then fg else s.pix p := by
  induction str generalizing s with
  | nil =>
    refine ⟨rfl, h, rfl, rfl, fun p _ => ?_⟩
    simp [colorPrint]
  | cons c str ih =>
    simp only [List.length_cons] at hroom
    obtain ⟨a1, a2, a3, a4, a5⟩ := putc_plain font fg c s h (hplain c (by simp)) (by omega)
    intro t
    have ht : t = colorPrint font fg str (putc font fg c s) := rfl
    have hcell : ∀ p, cellOf (putc font fg c s) p = cellOf s p := fun p => by simp only [cellOf, a2]
    have hbit : ∀ c' p, glyphBit font (putc font fg c s) c' p = glyphBit font s c' p := fun c' p => by
      simp only [glyphBit, a2]
    obtain ⟨b1, b2, b3, b4, b5⟩ := ih (putc font fg c s) a1 (fun c' hc' => hplain c' (by simp [hc']))
      (by rw [a4, a3, a2]; omega)
    rw [← ht] at b1 b2 b3 b4 b5
    refine ⟨by rw [b1, a4, List.length_cons]; omega, b2, by rw [b3, a2], by rw [b4, a3], fun p hin => ?_⟩
    rw [b5 p (by unfold inColumns at hin ⊢; rw [a2]; exact hin), a5 p hin, hcell, a4]
    simp only [hbit]
    rcases Nat.lt_trichotomy (cellOf s p) (cursor s) with c1 | c1 | c1
    · rw [if_neg (by omega), if_neg (by omega), if_neg (by omega)]
    · rw [if_neg (by omega), c1]
      simp only [Nat.sub_self, List.getElem?_cons_zero, Option.any_some, Nat.le_refl, true_and]
    · rw [if_neg (fun h : cellOf s p = cursor s ∧ _ => by omega)]
      have e : cellOf s p - cursor s = (cellOf s p - (cursor s + 1)) + 1 := by omega
      rw [e, List.getElem?_cons_succ]
      by_cases c2 : ((str[cellOf s p - (cursor s + 1)]?).any fun c => glyphBit font s c p) = true
      · rw [if_pos ⟨by omega, c2⟩, if_pos ⟨by omega, c2⟩]
      · rw [if_neg (fun h => c2 h.2), if_neg (fun h => c2 h.2)]

/-- C58 on blank cells (after `Clear` all cells are): each cell written shows exactly its
glyph, foreground on black. -/
theorem C58_exact_glyph (font : Font) (fg : Color) (str : List (BitVec 8)) (s : Screen) (h : Ok s)
    (hplain : ∀ c ∈ str, plain c) (hroom : cursor s + str.length < s.height / 16 * (s.width / 8))
    (k : Nat) (hk : k < str.length) (p : Nat) (hin : inColumns s p) (hcell : cellOf s p = cursor s + k)
    (hblank : s.pix p = black) :
    (colorPrint font fg str s).pix p = if glyphBit font s str[k] p = true then fg else black := by
  obtain ⟨_, _, _, _, hp⟩ := C58_cells font fg str s h hplain hroom
  rw [hp p hin, hcell, hblank]
  have : cursor s + k - cursor s = k := by omega
  rw [this, List.getElem?_eq_getElem hk, Option.any_some]
  by_cases c : glyphBit font s str[k] p = true
  · rw [if_pos ⟨by omega, c⟩, if_pos c]
  · rw [if_neg (fun h => c h.2), if_neg c]

/-- Printing keeps the part of the screen behind the cursor blank, so that the previous
theorem applies to every later text. -/
theorem C58_stays_blank (font : Font) (fg : Color) (str : List (BitVec 8)) (s : Screen) (h : Ok s)
    (hplain : ∀ c ∈ str, plain c) (hroom : cursor s + str.length < s.height / 16 * (s.width / 8))
    (hblank : ∀ p, inColumns s p → cursor s ≤ cellOf s p → s.pix p = black) :
    ∀ p, inColumns s p → cursor (colorPrint font fg str s) ≤ cellOf s p →
      (colorPrint font fg str s).pix p = black := by
  obtain ⟨e, _, _, _, hp⟩ := C58_cells font fg str s h hplain hroom
  intro p hin hc
  rw [e] at hc
  rw [hp p hin, hblank p hin (by omega), List.getElem?_eq_none (by omega)]
  simp

/-- A font in which every glyph has one pixel, in its upper left corner. -/
def dotFont : Font := fun _ i => if i = 0 then 0x80 else 0

theorem hi_corner (s : Screen) (e3 : s.cw = 8) (e4 : s.ch = 16) (e5 : s.x = 0) (e6 : s.y = 0) (w : s.width = 1440)
    (hh : s.height = 900) (e7 : s.pix 8 = black) : (colorPrint dotFont 0xffffff [0x48, 0x69] s).pix 8 = 0xffffff := by
  have hc : cursor s = 0 := by simp only [cursor, e5, e6]; omega
  rw [C58_exact_glyph dotFont 0xffffff [0x48, 0x69] s ⟨e3, e4, by rw [e5, w]; decide⟩
    (by simp [plain]) (by rw [hc, hh, w]; decide) 1 (by decide) 8 (by simp only [inColumns, w]; decide)
    (by rw [hc]; simp only [cellOf, w]) e7]
  simp only [glyphBit, w]
  decide

theorem exScreen_clear : (clear exScreen).width = 1440 ∧ (clear exScreen).height = 900 ∧ (clear exScreen).cw = 8 ∧
    (clear exScreen).ch = 16 ∧ (clear exScreen).x = 0 ∧ (clear exScreen).y = 0 ∧ ∀ p, p < 1296000 → (clear exScreen).pix p = black := by
  obtain ⟨e1, e2, e3, e4, e5, e6, e7, _⟩ := clear_spec exScreen
  exact ⟨e1, e2, e3, e4, e5, e6, fun p hp => (e7 p).trans (if_pos (show p < 2 * (900 * 1440 / 2) by omega))⟩

/-- "Hi" at the start of the cleared console; pixel 8 is the corner of cell 1. -/
example : (colorPrint dotFont 0xffffff [0x48, 0x69] (clear exScreen)).pix 8 = 0xffffff :=
  have ⟨w, hh, e3, e4, e5, e6, e7⟩ := exScreen_clear
  hi_corner (clear exScreen) e3 e4 e5 e6 w hh (e7 8 (by decide))

/-! ## C57 -/

/-- A history of printing: colours and characters, over any number of calls. -/
def printAll (font : Font) (l : List (Color × BitVec 8)) (s : Screen) : Screen :=
  l.foldl (fun s x => putc font x.1 x.2 s) s

theorem colorPrint_eq (font : Font) (fg : Color) (str : List (BitVec 8)) (s : Screen) :
    colorPrint font fg str s = printAll font (str.map fun c => (fg, c)) s := by
  simp only [colorPrint, printAll, List.foldl_map]

/-- Cursor after `n` cells. -/
def advN (cols rows : Nat) : Nat → Nat × Nat → Nat × Nat
  | 0, q => q
  | n + 1, q => advN cols rows n (adv cols rows q.1 q.2)

/-- Whether a history is harmless: no character is put while the cursor is below the
last row. Tabs are 8 spaces and one more glyph. -/
def Safe (cols rows : Nat) : List (Color × BitVec 8) → Nat × Nat → Prop
  | [], _ => True
  | (_, c) :: l, q =>
    if c = 0x0A then Safe cols rows l (0, q.2 + 1)
    else q.2 < rows ∧ Safe cols rows l (advN cols rows (if c = 0x09 then 9 else 1) q)

/-- All writes so far were inside the frame buffer. -/
def InBounds (s : Screen) : Prop := ∀ p ∈ s.log, p < s.width * s.height

theorem adv_row (cols rows x y : Nat) (h : 0 < rows) : (adv cols rows x y).2 < rows := by
  unfold adv
  generalize (if x + 1 ≥ cols then (0, y + 1) else (x + 1, y)) = q
  by_cases c : q.2 ≥ rows
  · rw [if_pos c]; exact h
  · rw [if_neg c]; omega

theorem putChar_bounds (font : Font) (fg : Color) (c : BitVec 8) (s : Screen) (h : Ok s) :
    (∀ p ∈ (putChar font fg c s).log, p < s.width * s.height) ↔ InBounds s ∧ s.y < s.height / 16 := by
  obtain ⟨_, _, hl⟩ := putChar_spec font fg c s h
  have hx := h.x
  have hw : 0 < s.width := by
    rcases Nat.eq_zero_or_pos s.width with h0 | h0
    · rw [h0] at hx; simp at hx
    · exact h0
  constructor
  · intro hb
    refine ⟨fun p hp => hb p ((hl p).2 (Or.inl hp)), ?_⟩
    -- the last row of the cell
    have hmem := hb (s.width * (16 * s.y + 15) + 8 * s.x) ((hl _).2 (Or.inr ?_))
    · apply Decidable.byContradiction
      intro hge
      have h1 : s.height ≤ 16 * s.y + 15 := by omega
      have := Nat.mul_le_mul_left s.width h1
      omega
    · have hlt : 8 * s.x < s.width := by omega
      rw [Nat.mul_add_div hw, Nat.div_eq_of_lt hlt, Nat.mul_add_mod, Nat.mod_eq_of_lt hlt]
      omega
  · rintro ⟨hb, hy⟩ p hp
    rcases (hl p).1 hp with h1 | ⟨h1, _⟩
    · exact hb p h1
    · have : p / s.width < s.height := by omega
      rw [Nat.mul_comm]
      exact (Nat.div_lt_iff_lt_mul hw).1 this

theorem put_bounds (font : Font) (fg : Color) (c : BitVec 8) (s : Screen) (h : Ok s) :
    InBounds (put font fg c s) ↔ InBounds s ∧ s.y < s.height / 16 := by
  obtain ⟨_, h2, h3, _, h5, h6⟩ := put_spec font fg c s _ h rfl
  rw [← putChar_bounds font fg c s h]
  unfold InBounds
  rw [h2, h3]
  cases hw : wraps (s.width / 8) (s.height / 16) s.x s.y with
  | false => rw [(h5 hw).2]
  | true =>
    constructor
    · intro hb p hp
      exact hb p (((h6 hw).2 p).2 (Or.inl hp))
    · intro hb p hp
      rcases ((h6 hw).2 p).1 hp with h1 | h1
      · exact hb p h1
      · rw [Nat.mul_comm]; omega

theorem putSpaces_spec (font : Font) (fg : Color) (n : Nat) (s : Screen) (h : Ok s) (hrow : 0 < s.height / 16) :
    Ok (putSpaces font fg n s) ∧ (putSpaces font fg n s).width = s.width ∧ (putSpaces font fg n s).height = s.height ∧
    ((putSpaces font fg n s).x, (putSpaces font fg n s).y) = advN (s.width / 8) (s.height / 16) n (s.x, s.y) ∧
    (0 < n → ((InBounds (putSpaces font fg n s) ↔ InBounds s ∧ s.y < s.height / 16) ∧
      (putSpaces font fg n s).y < s.height / 16)) := by
  induction n generalizing s with
  | zero => exact ⟨h, rfl, rfl, rfl, fun h => by omega⟩
  | succ n ih =>
    obtain ⟨h1, h2, h3, h4, _, _⟩ := put_spec font fg 0x20 s _ h rfl
    obtain ⟨k1, k2, k3, k4, k5⟩ := ih (put font fg 0x20 s) h1 (by rw [h3]; exact hrow)
    rw [h2, h3] at k4
    have hy : (put font fg 0x20 s).y < s.height / 16 := by
      have := adv_row (s.width / 8) (s.height / 16) s.x s.y hrow
      rw [← h4] at this
      exact this
    refine ⟨k1, by rw [← h2]; exact k2, by rw [← h3]; exact k3, ?_, fun _ => ?_⟩
    · rw [show putSpaces font fg (n + 1) s = putSpaces font fg n (put font fg 0x20 s) from rfl, k4, h4]; rfl
    · rw [show putSpaces font fg (n + 1) s = putSpaces font fg n (put font fg 0x20 s) from rfl]
      rw [← put_bounds font fg 0x20 s h]
      rcases Nat.eq_zero_or_pos n with hn | hn
      · subst hn; exact ⟨Iff.rfl, hy⟩
      · obtain ⟨j1, j2⟩ := k5 hn
        rw [h3] at j1 j2
        exact ⟨by rw [j1]; exact ⟨fun h => h.1, fun h => ⟨h, hy⟩⟩, j2⟩

theorem advN_add (cols rows n m : Nat) (q : Nat × Nat) :
    advN cols rows (n + m) q = advN cols rows m (advN cols rows n q) := by
  induction n generalizing q with
  | zero => simp [advN]
  | succ n ih => rw [show n + 1 + m = (n + m) + 1 by omega]; exact ih _

theorem putc_bounds (font : Font) (fg : Color) (c : BitVec 8) (s : Screen) (h : Ok s) (hrow : 0 < s.height / 16) :
    let t := putc font fg c s
    Ok t ∧ t.width = s.width ∧ t.height = s.height ∧
    (if c = 0x0A then (InBounds t ↔ InBounds s) ∧ (t.x, t.y) = (0, s.y + 1)
     else (InBounds t ↔ InBounds s ∧ s.y < s.height / 16) ∧
      (t.x, t.y) = advN (s.width / 8) (s.height / 16) (if c = 0x09 then 9 else 1) (s.x, s.y)) := by
  intro t
  have hx := h.x
  by_cases c1 : c = 0x0A
  · have ht : t = { s with x := 0, y := s.y + 1 } := by
      show putc font fg c s = _
      simp only [putc, if_pos c1]
    rw [if_pos c1, ht]
    exact ⟨⟨h.cw, h.ch, show 0 < s.width / 8 by omega⟩, rfl, rfl, Iff.rfl, rfl⟩
  · rw [if_neg c1]
    by_cases c2 : c = 0x09
    · have ht : t = put font fg c (putSpaces font fg 8 s) := by
        show putc font fg c s = _
        simp only [putc, if_neg c1, if_pos c2]
      obtain ⟨k1, k2, k3, k4, k5⟩ := putSpaces_spec font fg 8 s h hrow
      obtain ⟨j1, j2⟩ := k5 (by decide)
      obtain ⟨h1, h2, h3, h4, _, _⟩ := put_spec font fg c _ t k1 ht
      have hb := put_bounds font fg c _ k1
      rw [← ht, k3, j1] at hb
      rw [if_pos c2]
      refine ⟨h1, by rw [h2, k2], by rw [h3, k3], ?_, ?_⟩
      · rw [hb]; exact ⟨fun h => h.1, fun h => ⟨h, j2⟩⟩
      · rw [h4, k2, k3, show (9 : Nat) = 8 + 1 from rfl, advN_add, ← k4]; rfl
    · have ht : t = put font fg c s := by
        show putc font fg c s = _
        simp only [putc, if_neg c1, if_neg c2]
      obtain ⟨h1, h2, h3, h4, _, _⟩ := put_spec font fg c s t h ht
      have hb := put_bounds font fg c s h
      rw [← ht] at hb
      rw [if_neg c2]
      exact ⟨h1, h2, h3, hb, h4⟩

/-- C57, exactly: for every screen of at least one cell and every history of prints, the
writes stay inside the frame buffer if and only if no character other than a line feed is
printed while the cursor is below the last text row. (Line feeds move the cursor there,
because only `Put` checks for the end of the screen.) -/
theorem C57_exact (font : Font) (l : List (Color × BitVec 8)) (s : Screen) (h : Ok s) (hrow : 0 < s.height / 16) :
    InBounds (printAll font l s) ↔ InBounds s ∧ Safe (s.width / 8) (s.height / 16) l (s.x, s.y) := by
  induction l generalizing s with
  | nil => simp [printAll, Safe]
  | cons a l ih =>
    obtain ⟨fg, c⟩ := a
    obtain ⟨h1, h2, h3, h4⟩ := putc_bounds font fg c s h hrow
    have e : printAll font ((fg, c) :: l) s = printAll font l (putc font fg c s) := rfl
    rw [e, ih _ h1 (by rw [h3]; exact hrow), h2, h3]
    by_cases c1 : c = 0x0A
    · rw [if_pos c1] at h4
      simp only [Safe, if_pos c1]
      rw [h4.1, h4.2]
    · rw [if_neg c1] at h4
      simp only [Safe, if_neg c1]
      rw [h4.1, h4.2, and_assoc]

theorem advN_row (cols rows n : Nat) (q : Nat × Nat) (h : 0 < rows) (hn : 0 < n) : (advN cols rows n q).2 < rows := by
  induction n generalizing q with
  | zero => omega
  | succ n ih =>
    rcases Nat.eq_zero_or_pos n with h0 | h0
    · subst h0; exact adv_row cols rows q.1 q.2 h
    · exact ih _ h0

theorem safe_noNewline (cols rows : Nat) (hr : 0 < rows) (l : List (Color × BitVec 8)) (q : Nat × Nat)
    (hq : q.2 < rows) (hl : ∀ x ∈ l, x.2 ≠ 0x0A) : Safe cols rows l q := by
  induction l generalizing q with
  | nil => trivial
  | cons a l ih =>
    obtain ⟨fg, c⟩ := a
    simp only [Safe, if_neg (hl (fg, c) (by simp))]
    exact ⟨hq, ih _ (advN_row _ _ _ _ hr (by split <;> decide)) (fun x hx => hl x (by simp [hx]))⟩

/-- C57 for text without line feeds (of any length, with any bytes and tabs, over any
number of calls), starting with the cursor on the screen. -/
theorem C57_no_linefeed_partial (font : Font) (l : List (Color × BitVec 8)) (s : Screen) (h : Ok s)
    (hy : s.y < s.height / 16) (hb : InBounds s) (hl : ∀ x ∈ l, x.2 ≠ 0x0A) : InBounds (printAll font l s) :=
  (C57_exact font l s h (by omega)).2 ⟨hb, safe_noNewline _ _ (by omega) l _ hy hl⟩

/-- Ten thousand letters on the console (it wraps). -/
example (font : Font) : InBounds (printAll font (List.replicate 10081 (0xffffff, 0x41)) exScreen) :=
  C57_no_linefeed_partial font _ exScreen ⟨rfl, rfl, by decide⟩ (by decide) (by intro p hp; simp [exScreen, Screen.init] at hp)
    (by intro x hx; rw [List.eq_of_mem_replicate hx]; simp)

theorem safe_newlines (cols rows n : Nat) (fg : Color) (l : List (Color × BitVec 8)) (x y : Nat) (hn : 0 < n) :
    Safe cols rows (List.replicate n (fg, 0x0A) ++ l) (x, y) ↔ Safe cols rows l (0, y + n) := by
  induction n generalizing x y with
  | zero => omega
  | succ n ih =>
    rw [List.replicate_succ, List.cons_append, Safe, if_pos rfl]
    rcases Nat.eq_zero_or_pos n with h0 | h0
    · subst h0; simp
    · rw [ih 0 (y + 1) h0, show y + 1 + n = y + (n + 1) by omega]

/-- C57 fails: for every font, from every cursor position, enough line feeds (56 on the
console) followed by any other character write outside the frame buffer. -/
theorem C57_violated (font : Font) (fg : Color) (c : BitVec 8) (hc : c ≠ 0x0A) (s : Screen) (h : Ok s)
    (hrow : 0 < s.height / 16) (n : Nat) (hn : s.height / 16 ≤ s.y + n) (hn0 : 0 < n) :
    ¬ InBounds (colorPrint font fg (List.replicate n 0x0A ++ [c]) s) := by
  rw [colorPrint_eq, List.map_append, List.map_replicate, C57_exact font _ s h hrow, safe_newlines _ _ _ _ _ _ _ hn0]
  rintro ⟨_, hs⟩
  simp only [List.map_cons, List.map_nil, Safe, if_neg hc] at hs
  omega

/-- 56 line feeds and an `A` on the console. -/
example (font : Font) : ¬ InBounds (colorPrint font 0xffffff (List.replicate 56 0x0A ++ [0x41]) exScreen) :=
  C57_violated font _ _ (by decide) exScreen ⟨rfl, rfl, by decide⟩ (by decide) 56 (by decide) (by decide)

end Verif.Vesa
