import Verif.Model.FontTable
import Verif.Props.BootLog

set_option backward.isDefEq.respectTransparency false

/-! Property C124: what the console shows can be read. -/

namespace Verif.Vesa

/-! ### The glyphs -/

theorem glyphs_nodup : glyphs.Nodup := by decide +kernel
theorem glyphs_len : ∀ g ∈ glyphs, g.length = 16 := by decide +kernel
theorem glyphs_byte : ∀ g ∈ glyphs, ∀ b ∈ g, b < 256 := by decide +kernel
theorem glyphs_ink : ∀ g ∈ glyphs, ∃ b ∈ g, b ≠ 0 := by decide +kernel
theorem glyphs_count : glyphs.length = 94 := by decide +kernel

/-- The characters with a glyph: `!` to `~`. -/
def Inked (c : BitVec 8) : Prop := 33 ≤ c.toNat ∧ c.toNat ≤ 126

instance (c : BitVec 8) : Decidable (Inked c) := by unfold Inked; infer_instance

/-- The space and the characters with a glyph. -/
def Ascii (c : BitVec 8) : Prop := 32 ≤ c.toNat ∧ c.toNat ≤ 126

instance (c : BitVec 8) : Decidable (Ascii c) := by unfold Ascii; infer_instance

theorem font_blank {c : BitVec 8} (h : ¬ Inked c) (i : Nat) : fontAscii c i = 0 := by
  unfold fontAscii
  split
  · rfl
  · rename_i h1
    have : glyphs[c.toNat - 33]? = none := by
      rw [List.getElem?_eq_none_iff, glyphs_count]
      unfold Inked at h; omega
    rw [this]; rfl

theorem font_row {c : BitVec 8} (h : Inked c) :
    ∃ g, glyphs[c.toNat - 33]? = some g ∧ g ∈ glyphs ∧ ∀ i b, g[i]? = some b → (fontAscii c i).toNat = b := by
  have hk : c.toNat - 33 < glyphs.length := by rw [glyphs_count]; unfold Inked at h; omega
  refine ⟨glyphs[c.toNat - 33], List.getElem?_eq_getElem hk, List.getElem_mem hk, ?_⟩
  intro i b hb
  have h1 : ¬ c.toNat < 33 := by unfold Inked at h; omega
  have hlt := glyphs_byte _ (List.getElem_mem hk) b (List.mem_of_getElem? hb)
  unfold fontAscii
  rw [if_neg h1, List.getElem?_eq_getElem hk, Option.getD_some, hb, Option.getD_some, BitVec.toNat_ofNat]
  exact Nat.mod_eq_of_lt hlt

theorem font_ext {c d : BitVec 8} (h : ∀ r j, r < 16 → j < 8 → (fontAscii c r).getLsbD (7 - j) = (fontAscii d r).getLsbD (7 - j)) :
    ∀ r, r < 16 → fontAscii c r = fontAscii d r := by
  intro r hr
  apply BitVec.eq_of_getLsbD_eq
  intro i hi
  have := h r (7 - i) hr (by omega)
  rwa [show 7 - (7 - i) = i by omega] at this

theorem font_inked {c : BitVec 8} (h : Inked c) : ∃ r, r < 16 ∧ fontAscii c r ≠ 0 := by
  obtain ⟨g, _, hm, hg⟩ := font_row h
  obtain ⟨b, hb, h0⟩ := glyphs_ink g hm
  obtain ⟨i, hi, e⟩ := List.getElem_of_mem hb
  refine ⟨i, by rw [← glyphs_len g hm]; exact hi, ?_⟩
  intro e0
  have := hg i b (by rw [List.getElem?_eq_getElem hi, e])
  rw [e0] at this
  exact h0 this.symm

/-- Rows tell the glyphs apart. -/
theorem font_inj {c d : BitVec 8} (hc : Inked c) (hd : Inked d) (h : ∀ r, r < 16 → fontAscii c r = fontAscii d r) : c = d := by
  obtain ⟨g, e1, hm1, hg1⟩ := font_row hc
  obtain ⟨g', e2, hm2, hg2⟩ := font_row hd
  have eg : g = g' := by
    apply List.ext_getElem (by rw [glyphs_len g hm1, glyphs_len g' hm2])
    intro i h1 h2
    rw [← hg1 i _ (List.getElem?_eq_getElem h1), ← hg2 i _ (List.getElem?_eq_getElem h2), h i (by rw [← glyphs_len g hm1]; exact h1)]
  subst eg
  have hlt : c.toNat - 33 < glyphs.length := (List.getElem?_eq_some_iff.1 e1).1
  have := (List.getElem?_inj hlt glyphs_nodup).1 (e1.trans e2.symm)
  apply BitVec.eq_of_toNat_eq
  unfold Inked at hc hd; omega

/-- What a cell shows tells which character is in it, no character being as good as a space. -/
theorem read_cell (c d : Option (BitVec 8)) (hc : ∀ x ∈ c, Ascii x) (hd : ∀ x ∈ d, Ascii x)
    (h : ∀ r j, r < 16 → j < 8 → c.any (fun x => (fontAscii x r).getLsbD (7 - j)) = d.any (fun x => (fontAscii x r).getLsbD (7 - j))) :
    c.getD 0x20 = d.getD 0x20 := by
  have sp : ∀ r, fontAscii 0x20 r = 0 := fun r => font_blank (by decide) r
  have key : ∀ (o : Option (BitVec 8)) r j,
      o.any (fun x => (fontAscii x r).getLsbD (7 - j)) = (fontAscii (o.getD 0x20) r).getLsbD (7 - j) := by
    intro o r j
    cases o with
    | none => rw [Option.any_none, Option.getD_none, sp]; exact BitVec.getLsbD_zero.symm
    | some x => rfl
  have hA : ∀ o : Option (BitVec 8), (∀ x ∈ o, Ascii x) → Ascii (o.getD 0x20) := by
    intro o ho
    cases o with
    | none => decide
    | some x => exact ho x rfl
  have hx := hA c hc
  have hy := hA d hd
  have h' := font_ext (c := c.getD 0x20) (d := d.getD 0x20) (fun r j hr hj => by rw [← key, ← key]; exact h r j hr hj)
  revert hx hy h'
  generalize c.getD 0x20 = x
  generalize d.getD 0x20 = y
  intro hx hy h'
  by_cases ix : Inked x
  · by_cases iy : Inked y
    · exact font_inj ix iy h'
    · obtain ⟨r, hr, h0⟩ := font_inked ix
      rw [h' r hr, font_blank iy] at h0
      exact absurd rfl h0
  · by_cases iy : Inked y
    · obtain ⟨r, hr, h0⟩ := font_inked iy
      rw [← h' r hr, font_blank ix] at h0
      exact absurd rfl h0
    · apply BitVec.eq_of_toNat_eq
      unfold Inked at ix iy; unfold Ascii at hx hy; omega

/-- C124, single characters: each of `!` to `~` has a pixel in its cell, and two different ones of them differ in a
pixel. -/
theorem C124_distinct (c : BitVec 8) (hc : Inked c) :
    (∃ r j, r < 16 ∧ j < 8 ∧ (fontAscii c r).getLsbD (7 - j) = true) ∧
    ∀ d, Inked d → c ≠ d → ∃ r j, r < 16 ∧ j < 8 ∧ (fontAscii c r).getLsbD (7 - j) ≠ (fontAscii d r).getLsbD (7 - j) := by
  constructor
  · refine Classical.byContradiction fun hn => ?_
    obtain ⟨r, hr, h0⟩ := font_inked hc
    apply h0
    have := font_ext (c := c) (d := 0x20) (fun r j hr hj => by
      rw [font_blank (c := 0x20) (by decide)]
      have : ¬ (fontAscii c r).getLsbD (7 - j) = true := fun e => hn ⟨r, j, hr, hj, e⟩
      simpa using this) r hr
    rw [this]; exact font_blank (by decide) r
  · intro d hd hne
    refine Classical.byContradiction fun hn => hne (font_inj hc hd (font_ext fun r j hr hj => ?_))
    exact Classical.byContradiction fun e => hn ⟨r, j, hr, hj, e⟩

/-- `O` and `0` differ. -/
example : ∃ r j, r < 16 ∧ j < 8 ∧ (fontAscii 0x4F r).getLsbD (7 - j) ≠ (fontAscii 0x30 r).getLsbD (7 - j) :=
  (C124_distinct 0x4F (by decide)).2 0x30 (by decide) (by decide)

/-! ### Texts -/

theorem plain_of_ascii {c : BitVec 8} (h : Ascii c) : plain c := by
  refine ⟨?_, ?_⟩ <;> (rintro rfl; revert h; decide)

/-- Two texts, each of lines of printable characters shorter than the console is wide, printed in a colour that is not
black: the screens are equal in the rows from the cursor on exactly if the texts have the same character (or blank) in
every column of every line. -/
theorem C124_lines (fg : Color) (hfg : fg ≠ black) (ls ls' : List (List (BitVec 8))) (s s' : Screen) (h : Ok s) (h' : Ok s')
    (hw : s'.width = s.width) (hh : s'.height = s.height) (hy : s'.y = s.y) (hx : s.x = 0) (hx' : s'.x = 0)
    (hl : ∀ l ∈ ls, l.length < s.width / 8 ∧ ∀ c ∈ l, Ascii c) (hl' : ∀ l ∈ ls', l.length < s.width / 8 ∧ ∀ c ∈ l, Ascii c)
    (hfit : s.y + ls.length ≤ s.height / 16) (hfit' : s.y + ls'.length ≤ s.height / 16)
    (hblank : ∀ p, inColumns s p → s.y ≤ p / s.width / 16 → p / s.width / 16 < s.height / 16 → s.pix p = black ∧ s'.pix p = black) :
    (∀ p, inColumns s p → s.y ≤ p / s.width / 16 → p / s.width / 16 < s.height / 16 →
      (colorPrint fontAscii fg (unlines ls) s).pix p = (colorPrint fontAscii fg (unlines ls') s').pix p) ↔
    ∀ i j : Nat, (ls[i]?.bind (·[j]?)).getD 0x20 = (ls'[i]?.bind (·[j]?)).getD 0x20 := by
  have hin : ∀ p, inColumns s' p ↔ inColumns s p := by intro p; simp only [inColumns, hw]
  have k := (C81_lines_partial fontAscii fg ls s h hx (fun l m => ⟨(hl l m).1, fun c hc => plain_of_ascii ((hl l m).2 c hc)⟩) hfit
    (fun p a b c => (hblank p a b c).1)).2.2.2
  have k' := (C81_lines_partial fontAscii fg ls' s' h' hx'
    (fun l m => ⟨by rw [hw]; exact (hl' l m).1, fun c hc => plain_of_ascii ((hl' l m).2 c hc)⟩) (by rw [hy, hh]; exact hfit')
    (fun p a b c => by
      rw [hw, hy] at b; rw [hw, hh] at c
      exact (hblank p ((hin p).1 a) b c).2)).2.2.2
  rw [hw, hy, hh] at k'
  have mem : ∀ (ls : List (List (BitVec 8))) i j, (∀ l ∈ ls, l.length < s.width / 8 ∧ ∀ c ∈ l, Ascii c) →
      ∀ x ∈ ls[i]?.bind (·[j]?), Ascii x ∧ i < ls.length ∧ j < s.width / 8 := by
    intro ls i j hl x hx
    obtain ⟨l, h1, h2⟩ := Option.bind_eq_some_iff.1 hx
    have hm := hl l (List.mem_of_getElem? h1)
    have := (List.getElem?_eq_some_iff.1 h2).1
    exact ⟨hm.2 x (List.mem_of_getElem? h2), (List.getElem?_eq_some_iff.1 h1).1, by omega⟩
  have sp : ∀ r, fontAscii 0x20 r = 0 := fun r => font_blank (by decide) r
  have key : ∀ (o : Option (BitVec 8)) r j,
      o.any (fun x => (fontAscii x r).getLsbD (7 - j)) = (fontAscii (o.getD 0x20) r).getLsbD (7 - j) := by
    intro o r j
    cases o with
    | none => rw [Option.any_none, Option.getD_none, sp]; exact BitVec.getLsbD_zero.symm
    | some x => rfl
  constructor
  · intro heq i j
    by_cases hij : i < s.height / 16 - s.y ∧ j < s.width / 8
    · refine read_cell _ _ (fun x hx => (mem ls i j hl x hx).1) (fun x hx => (mem ls' i j hl' x hx).1) ?_
      intro r c hr hc
      have hlt : 8 * j + c < s.width := by omega
      have hd : (s.width * (16 * (s.y + i) + r) + (8 * j + c)) / s.width = 16 * (s.y + i) + r := by
        rw [Nat.mul_add_div (by omega), Nat.div_eq_of_lt hlt, Nat.add_zero]
      have hm : (s.width * (16 * (s.y + i) + r) + (8 * j + c)) % s.width = 8 * j + c := by
        rw [Nat.mul_add_mod, Nat.mod_eq_of_lt hlt]
      have hq : (s.width * (16 * (s.y + i) + r) + (8 * j + c)) / s.width / 16 = s.y + i := by rw [hd]; omega
      have hic : inColumns s (s.width * (16 * (s.y + i) + r) + (8 * j + c)) := by
        simp only [inColumns, hm]; omega
      have e := heq _ hic (by omega) (by omega)
      rw [k _ i hic hq (by omega), k' _ i ((hin _).2 hic) hq (by omega)] at e
      simp only [glyphBit, hw, hm, hd] at e
      rw [show (8 * j + c) / 8 = j by omega, show (16 * (s.y + i) + r) % 16 = r by omega, show (8 * j + c) % 8 = c by omega] at e
      generalize (ls[i]?.bind (·[j]?)).any (fun x => (fontAscii x r).getLsbD (7 - c)) = u at e ⊢
      generalize (ls'[i]?.bind (·[j]?)).any (fun x => (fontAscii x r).getLsbD (7 - c)) = v at e ⊢
      cases u <;> cases v
      · rfl
      · exact absurd e.symm hfg
      · exact absurd e hfg
      · rfl
    · have n1 : ls[i]?.bind (·[j]?) = none := by
        rw [Option.eq_none_iff_forall_ne_some]
        intro x hx
        have := mem ls i j hl x hx
        omega
      have n2 : ls'[i]?.bind (·[j]?) = none := by
        rw [Option.eq_none_iff_forall_ne_some]
        intro x hx
        have := mem ls' i j hl' x hx
        omega
      rw [n1, n2]
  · intro heq p hp hlo hhi
    rw [k p (p / s.width / 16 - s.y) hp (by omega) (by omega), k' p (p / s.width / 16 - s.y) ((hin p).2 hp) (by omega) (by omega)]
    simp only [glyphBit, hw, key, heq]

/-- A list not ending in `d` is determined by its elements, `d` being read behind its end. -/
theorem list_of_cells {α : Type} {d : α} {l l' : List α} (h0 : l.getLast? ≠ some d) (h0' : l'.getLast? ≠ some d)
    (h : ∀ j : Nat, (l[j]?).getD d = (l'[j]?).getD d) : l = l' := by
  have len : ∀ (l l' : List α), l.getLast? ≠ some d → (∀ j : Nat, (l[j]?).getD d = (l'[j]?).getD d) → l.length ≤ l'.length := by
    intro l l' h0 h
    refine Classical.byContradiction fun hn => h0 ?_
    have e := h (l.length - 1)
    rw [List.getElem?_eq_none (by omega : l'.length ≤ l.length - 1), List.getElem?_eq_getElem (by omega)] at e
    rw [List.getLast?_eq_getElem?, List.getElem?_eq_getElem (by omega)]
    exact congrArg some e
  have e := Nat.le_antisymm (len l l' h0 h) (len l' l h0' (fun j => (h j).symm))
  apply List.ext_getElem e
  intro j h1 h2
  have := h j
  rwa [List.getElem?_eq_getElem h1, List.getElem?_eq_getElem h2] at this

/-- C124, whole texts: texts whose lines end in no blank and whose last line is not empty can be read back from the
screen: if the screens are equal, so are the texts. -/
theorem C124_text (fg : Color) (hfg : fg ≠ black) (ls ls' : List (List (BitVec 8))) (s s' : Screen) (h : Ok s) (h' : Ok s')
    (hw : s'.width = s.width) (hh : s'.height = s.height) (hy : s'.y = s.y) (hx : s.x = 0) (hx' : s'.x = 0)
    (hl : ∀ l ∈ ls, l.length < s.width / 8 ∧ ∀ c ∈ l, Ascii c) (hl' : ∀ l ∈ ls', l.length < s.width / 8 ∧ ∀ c ∈ l, Ascii c)
    (hfit : s.y + ls.length ≤ s.height / 16) (hfit' : s.y + ls'.length ≤ s.height / 16)
    (hblank : ∀ p, inColumns s p → s.y ≤ p / s.width / 16 → p / s.width / 16 < s.height / 16 → s.pix p = black ∧ s'.pix p = black)
    (he : ∀ l ∈ ls, l.getLast? ≠ some 0x20) (he' : ∀ l ∈ ls', l.getLast? ≠ some 0x20)
    (hne : ls.getLast? ≠ some []) (hne' : ls'.getLast? ≠ some [])
    (heq : ∀ p, inColumns s p → s.y ≤ p / s.width / 16 → p / s.width / 16 < s.height / 16 →
      (colorPrint fontAscii fg (unlines ls) s).pix p = (colorPrint fontAscii fg (unlines ls') s').pix p) : ls = ls' := by
  have hc := (C124_lines fg hfg ls ls' s s' h h' hw hh hy hx hx' hl hl' hfit hfit' hblank).1 heq
  have last : ∀ (ls : List (List (BitVec 8))) (i : Nat), (∀ l ∈ ls, l.getLast? ≠ some 0x20) → ((ls[i]?).getD []).getLast? ≠ some 0x20 := by
    intro ls i he
    cases e : ls[i]? with
    | none => simp
    | some l => exact he l (List.mem_of_getElem? e)
  have cell : ∀ (ls : List (List (BitVec 8))) (i j : Nat), ls[i]?.bind (·[j]?) = ((ls[i]?).getD [])[j]? := by
    intro ls i j
    cases ls[i]? <;> simp
  refine list_of_cells (d := []) hne hne' fun i => list_of_cells (d := 0x20) (last ls i he) (last ls' i he') fun j => ?_
  rw [← cell, ← cell]
  exact hc i j

/-- The blank console of the examples. -/
def exBlank : Screen := ⟨fun _ => black, [], 1440, 900, 8, 16, 0, 0⟩

/-- "l1" and "1l" look different; a trailing space does not show. -/
example : (∃ p, (colorPrint fontAscii 0xffffff (unlines [[0x6C, 0x31]]) exBlank).pix p ≠
      (colorPrint fontAscii 0xffffff (unlines [[0x31, 0x6C]]) exBlank).pix p) ∧
    ∀ p, inColumns exBlank p → p / 1440 / 16 < 56 → (colorPrint fontAscii 0xffffff (unlines [[0x6C, 0x20]]) exBlank).pix p =
      (colorPrint fontAscii 0xffffff (unlines [[0x6C]]) exBlank).pix p := by
  have ok : Ok exBlank := ⟨rfl, rfl, by decide⟩
  constructor
  · refine Classical.byContradiction fun hn => ?_
    have := (C124_lines 0xffffff (by decide) [[0x6C, 0x31]] [[0x31, 0x6C]] exBlank exBlank ok ok rfl rfl rfl rfl rfl (by decide) (by decide)
      (by decide) (by decide) (fun _ _ _ _ => ⟨rfl, rfl⟩)).1 (fun p _ _ _ => Classical.byContradiction fun e => hn ⟨p, e⟩) 0 0
    exact absurd this (by decide)
  · intro p h1 h2
    refine (C124_lines 0xffffff (by decide) [[0x6C, 0x20]] [[0x6C]] exBlank exBlank ok ok rfl rfl rfl rfl rfl (by decide) (by decide)
      (by decide) (by decide) (fun _ _ _ _ => ⟨rfl, rfl⟩)).2 ?_ p h1 (Nat.zero_le _) h2
    intro i j
    match i, j with
    | 0, 0 => rfl
    | 0, 1 => rfl
    | 0, j + 2 => rfl
    | i + 1, j => rfl

/-- A text whose picture is that of "l1" is "l1". -/
example (ls : List (List (BitVec 8))) (hl : ∀ l ∈ ls, l.length < 180 ∧ ∀ c ∈ l, Ascii c) (hn : ls.length ≤ 56)
    (he : ∀ l ∈ ls, l.getLast? ≠ some 0x20) (hne : ls.getLast? ≠ some [])
    (h : ∀ p, (colorPrint fontAscii 0xffffff (unlines ls) exBlank).pix p =
      (colorPrint fontAscii 0xffffff (unlines [[0x6C, 0x31]]) exBlank).pix p) : ls = [[0x6C, 0x31]] :=
  have ok : Ok exBlank := ⟨rfl, rfl, by decide⟩
  C124_text 0xffffff (by decide) ls [[0x6C, 0x31]] exBlank exBlank ok ok rfl rfl rfl rfl rfl hl (by decide)
    (by show 0 + ls.length ≤ 56; omega) (by decide) (fun _ _ _ _ => ⟨rfl, rfl⟩) he (by decide) hne (by decide) (fun p _ _ _ => h p)

/-! ### All other bytes -/

theorem putRows_congr (font : Font) {c d : BitVec 8} (h : ∀ i, font c i = font d i) (fg : Color) (px py n i : Nat) (s : Screen) :
    putRows font c fg px py n i s = putRows font d fg px py n i s := by
  induction n generalizing i s with
  | zero => rfl
  | succ n ih => simp only [putRows, h, ih]

/-- The space for a byte that is neither printable nor a line feed or a tab. -/
def blankOut (c : BitVec 8) : BitVec 8 := if Inked c ∨ c = 0x0A ∨ c = 0x09 then c else 0x20

/-- C124, the other bytes: whatever is printed, on whatever screen: every byte that is not one of `!` to `~`, a line feed
or a tab has the effect of a space. -/
theorem C124_blank (fg : Color) (str : List (BitVec 8)) (s : Screen) :
    colorPrint fontAscii fg (str.map blankOut) s = colorPrint fontAscii fg str s := by
  have one : ∀ c s, putc fontAscii fg (blankOut c) s = putc fontAscii fg c s := by
    intro c s
    unfold blankOut
    split
    · rfl
    · rename_i h
      have h1 : ¬ Inked c := fun e => h (.inl e)
      have h2 : c ≠ 0x0A := fun e => h (.inr (.inl e))
      have h3 : c ≠ 0x09 := fun e => h (.inr (.inr e))
      have e : ∀ i, fontAscii 0x20 i = fontAscii c i := fun i => by rw [font_blank h1, font_blank (by decide)]
      unfold putc
      rw [if_neg (by decide), if_neg (by decide), if_neg h2, if_neg h3]
      simp only [put, putChar, putRows_congr fontAscii e]
  unfold colorPrint
  induction str generalizing s with
  | nil => rfl
  | cons c str ih => simp only [List.map_cons, List.foldl_cons, one, ih]

/-- A carriage return and an accented letter. -/
example : colorPrint fontAscii 0xffffff [0x41, 0x20, 0x20, 0x0A] exBlank = colorPrint fontAscii 0xffffff [0x41, 0x0D, 0xE9, 0x0A] exBlank :=
  C124_blank 0xffffff [0x41, 0x0D, 0xE9, 0x0A] exBlank

end Verif.Vesa

namespace Verif.BootLog
open Verif Verif.Format Verif.Spec Verif.Spec.Printf Verif.Printf Verif.MemReport

theorem ascii_dec (n : Nat) : ∀ c ∈ dec n, (48 ≤ c ∧ c ≤ 57) := by
  intro c hc
  have := (Props.C08_decimal_roundtrip n 0).2.2.2 c hc
  simpa [isDigit] using this

theorem prefix_split {p : UInt8 → Bool} {a a' : List UInt8} {x x' : UInt8} {t t' : List UInt8} (ha : ∀ c ∈ a, p c = true)
    (ha' : ∀ c ∈ a', p c = true) (hx : p x = false) (hx' : p x' = false) (h : a ++ x :: t = a' ++ x' :: t') :
    a = a' ∧ x :: t = x' :: t' := by
  have key : ∀ (a : List UInt8) (x : UInt8) t, (∀ c ∈ a, p c = true) → p x = false → (a ++ x :: t).takeWhile p = a := by
    intro a x t ha hx
    rw [List.takeWhile_append_of_pos ha, List.takeWhile_cons, hx]
    simp
  have e : a = a' := by rw [← key a x t ha hx, h, key a' x' t' ha' hx']
  refine ⟨e, ?_⟩
  rw [e] at h
  exact List.append_cancel_left h

theorem dec_inj {n n' : Nat} (h : dec n = dec n') : n = n' := by
  rw [← (Props.C08_decimal_roundtrip n 0).1, h, (Props.C08_decimal_roundtrip n' 0).1]

theorem hexa_inj {n n' : Nat} (h : hexa false n = hexa false n') : n = n' := by
  rw [← (Props.C08_hex_roundtrip false n 0).1, h, (Props.C08_hex_roundtrip false n' 0).1]

theorem hexa_char (v : Nat) : ∀ c ∈ hexa false v, 48 ≤ c ∧ c ≤ 102 := by
  induction v using Nat.strongRecOn with
  | _ v ih =>
    have hd : ∀ k, k < 16 → 48 ≤ byteOf (Nat.digitChar k) ∧ byteOf (Nat.digitChar k) ≤ 102 := by decide
    intro c hc
    simp only [hexa, Bool.false_eq_true, if_false, List.mem_map] at hc
    obtain ⟨ch, hch, rfl⟩ := hc
    by_cases h : v < 16
    · rw [Nat.toDigits_of_lt_base h] at hch
      rw [List.mem_singleton.1 hch]
      exact hd v h
    · rw [Nat.toDigits_of_base_le (by decide) (by omega)] at hch
      rcases List.mem_append.1 hch with h1 | h1
      · exact ih (v / 16) (by omega) _ (by simp only [hexa, Bool.false_eq_true, if_false]; exact List.mem_map.2 ⟨_, h1, rfl⟩)
      · rw [List.mem_singleton.1 h1]
        exact hd _ (Nat.mod_lt _ (by decide))

/-- A decimal number is ended by the first character that is no digit. -/
theorem dec_split {n n' : Nat} {x x' : UInt8} {t t' : List UInt8} (h : dec n ++ x :: t = dec n' ++ x' :: t')
    (hx : isDigit x = false) (hx' : isDigit x' = false) : n = n' ∧ x :: t = x' :: t' := by
  obtain ⟨e, h2⟩ := prefix_split (Props.C08_decimal_roundtrip n 0).2.2.2 (Props.C08_decimal_roundtrip n' 0).2.2.2 hx hx' h
  exact ⟨dec_inj e, h2⟩

/-- A hexadecimal number is ended by a space. -/
theorem hexa_split {n n' : Nat} {t t' : List UInt8} (h : hexa false n ++ 32 :: t = hexa false n' ++ 32 :: t') :
    n = n' ∧ t = t' := by
  obtain ⟨e, h2⟩ := prefix_split (p := fun c => decide (48 ≤ c ∧ c ≤ 102)) (fun c hc => decide_eq_true (hexa_char n c hc))
    (fun c hc => decide_eq_true (hexa_char n' c hc)) (by decide) (by decide) h
  exact ⟨hexa_inj e, (List.cons.inj h2).2⟩

theorem e820_inj {n mb n' mb' : Nat} (h : lineE820 n mb = lineE820 n' mb') : n = n' ∧ mb = mb' := by
  unfold lineE820 at h
  simp only [List.append_assoc] at h
  obtain ⟨e1, h2⟩ := dec_split (List.append_cancel_left h) (by decide) (by decide)
  exact ⟨e1, (dec_split (List.append_cancel_left (as := [32, 116, 111, 116, 97, 108, 32, 97, 118, 97, 108, 105, 98, 108, 101, 32, 109, 101,
    109, 111, 114, 121, 32, 61, 32]) h2) (by decide) (by decide)).1⟩

theorem pde_inj {v v' : Nat} (h : linePde v = linePde v') : v = v' := hexa_inj (List.append_cancel_left h)

theorem regs_inj {r r' : Regs} (h : lineRegs r = lineRegs r') :
    r.error_code = r'.error_code ∧ r.rip = r'.rip ∧ r.rflags = r'.rflags ∧ r.cs = r'.cs ∧ r.rsp = r'.rsp ∧ r.ss = r'.ss := by
  unfold lineRegs at h
  simp only [List.append_assoc] at h
  obtain ⟨e1, h1⟩ := dec_split (List.append_cancel_left h) (by decide) (by decide)
  obtain ⟨e2, h2⟩ := hexa_split (List.append_cancel_left (as := [32, 114, 105, 112, 32, 61, 32]) h1)
  obtain ⟨e3, h3⟩ := dec_split (List.append_cancel_left (as := [114, 102, 108, 97, 103, 115, 32, 61, 32]) h2) (by decide) (by decide)
  obtain ⟨e4, h4⟩ := dec_split (List.append_cancel_left (as := [32, 99, 115, 32, 61, 32]) h3) (by decide) (by decide)
  obtain ⟨e5, h5⟩ := hexa_split (List.append_cancel_left (as := [32, 114, 115, 112, 32, 61, 32]) h4)
  have e6 := dec_inj (List.append_cancel_left (as := [115, 115, 32, 61, 32]) h5)
  exact ⟨BitVec.eq_of_toNat_eq e1, BitVec.eq_of_toNat_eq e2, BitVec.eq_of_toNat_eq e3, BitVec.eq_of_toNat_eq e4,
    BitVec.eq_of_toNat_eq e5, BitVec.eq_of_toNat_eq e6⟩

/-- A line of characters that can be read, not empty, the last no blank. -/
def Legible (l : List UInt8) : Prop := (∀ c ∈ l, 32 ≤ c ∧ c ≤ 126) ∧ l ≠ [] ∧ l.getLast? ≠ some 32

theorem legible_append {a b : List UInt8} (ha : ∀ c ∈ a, 32 ≤ c ∧ c ≤ 126) (hb : Legible b) : Legible (a ++ b) := by
  refine ⟨fun c hc => (List.mem_append.1 hc).elim (ha c) (hb.1 c), ?_, ?_⟩
  · intro e; exact hb.2.1 (List.append_eq_nil_iff.1 e).2
  · rw [List.getLast?_append, List.getLast?_eq_some_getLast hb.2.1]
    have := hb.2.2
    rw [List.getLast?_eq_some_getLast hb.2.1] at this
    exact this

theorem vis_dec (n : Nat) : ∀ c ∈ dec n, 32 ≤ c ∧ c ≤ 126 := by
  intro c hc
  have := ascii_dec n c hc
  exact ⟨UInt8.le_trans (by decide) this.1, UInt8.le_trans this.2 (by decide)⟩

theorem vis_hexa (n : Nat) : ∀ c ∈ hexa false n, 32 ≤ c ∧ c ≤ 126 := by
  intro c hc
  have := hexa_char n c hc
  exact ⟨UInt8.le_trans (by decide) this.1, UInt8.le_trans this.2 (by decide)⟩

theorem legible_num {l : List UInt8} (hne : l ≠ []) (h : ∀ c ∈ l, 48 ≤ c ∧ c ≤ 102) : Legible l := by
  refine ⟨fun c hc => ⟨UInt8.le_trans (by decide) (h c hc).1, UInt8.le_trans (h c hc).2 (by decide)⟩, hne, ?_⟩
  intro e
  exact absurd (h 32 (List.mem_of_getLast? e)).1 (by decide)

theorem legible_dec (n : Nat) : Legible (dec n) := by
  refine legible_num ?_ (fun c hc => ⟨(ascii_dec n c hc).1, UInt8.le_trans (ascii_dec n c hc).2 (by decide)⟩)
  intro e
  exact Nat.toDigits_ne_nil (List.map_eq_nil_iff.1 e)

theorem legible_hexa (n : Nat) : Legible (hexa false n) := by
  refine legible_num ?_ (hexa_char n)
  intro e
  exact Nat.toDigits_ne_nil (List.map_eq_nil_iff.1 e)

instance (l : List UInt8) : Decidable (Legible l) := by unfold Legible; infer_instance

theorem log_legible (n mb ad : Nat) (r : Regs) (b : Bool) : ∀ l ∈ log n mb ad r b, Legible l := by
  have e1 : Legible (lineE820 n mb) := by
    unfold lineE820
    simp only [List.append_assoc]
    exact legible_append (by decide) (legible_append (vis_dec n) (legible_append (by decide) (legible_append (vis_dec mb) (by decide))))
  have e3 : Legible (linePde (0x400081 ||| ad)) := legible_append (by decide) (legible_hexa _)
  have e7 : Legible (lineRegs r) := by
    unfold lineRegs
    simp only [List.append_assoc]
    exact legible_append (by decide) (legible_append (vis_dec _) (legible_append (by decide) (legible_append (vis_hexa _)
      (legible_append (by decide) (legible_append (vis_dec _) (legible_append (by decide) (legible_append (vis_dec _)
      (legible_append (by decide) (legible_append (vis_hexa _) (legible_append (by decide) (legible_dec _)))))))))))
  intro l hl
  rcases List.mem_append.1 hl with h | h
  · simp only [List.mem_cons, List.not_mem_nil, or_false] at h
    rcases h with rfl | rfl | rfl | rfl | rfl
    · decide
    · exact e1
    · decide
    · exact e3
    · decide
  · cases b with
    | true => rw [if_pos rfl, List.mem_singleton] at h; rw [h]; exact legible_append (by decide) (legible_dec 2)
    | false =>
      rw [if_neg (by decide)] at h
      simp only [List.mem_cons, List.not_mem_nil, or_false] at h
      rcases h with rfl | rfl
      · decide
      · exact e7

/-- C124 for the log of the kernel (C96): if two boots, each on a blank screen, leave the same picture, then the number of
memory ranges, the megabytes available, the page directory entry and the fate of the second store were the same, and
when the store was refused, so were the registers of the page fault. -/
theorem C124_boot (s s' : Vesa.Screen) (hs : ∀ p, p < 1440 * 896 → s.pix p = Vesa.black) (hs' : ∀ p, p < 1440 * 896 → s'.pix p = Vesa.black)
    (n mb ad n' mb' ad' : BitVec 64) (r r' : Regs) (b b' : Bool)
    (h : ∀ p, p < 1440 * 896 →
      (Vesa.colorPrint Vesa.fontAscii white (text (log n.toNat mb.toNat ad.toNat r b)) s.init).pix p =
      (Vesa.colorPrint Vesa.fontAscii white (text (log n'.toNat mb'.toNat ad'.toNat r' b')) s'.init).pix p) :
    n = n' ∧ mb = mb' ∧ 0x400081#64 ||| ad = 0x400081#64 ||| ad' ∧ b = b' ∧
    (b = false → r.error_code = r'.error_code ∧ r.rip = r'.rip ∧ r.rflags = r'.rflags ∧ r.cs = r'.cs ∧ r.rsp = r'.rsp ∧ r.ss = r'.ss) := by
  have hg := log_good n mb ad r b
  have hg' := log_good n' mb' ad' r' b'
  have hL := log_legible n.toNat mb.toNat ad.toNat r b
  have hL' := log_legible n'.toNat mb'.toNat ad'.toNat r' b'
  have hn := log_length n.toNat mb.toNat ad.toNat r b
  have hn' := log_length n'.toNat mb'.toNat ad'.toNat r' b'
  have inj : ∀ a b : UInt8, a.toBitVec = b.toBitVec → a = b := fun a b e => UInt8.toBitVec_inj.1 e
  have lines : ∀ L : List (List UInt8), (∀ l ∈ L, Good l) → (∀ l ∈ L, Legible l) → ∀ l ∈ L.map (·.map (·.toBitVec)),
      l.length < 1440 / 8 ∧ ∀ c ∈ l, Vesa.Ascii c := by
    intro L hg hL l hl
    obtain ⟨l', h', rfl⟩ := List.mem_map.1 hl
    refine ⟨by rw [List.length_map]; exact (hg l' h').1, fun c hc => ?_⟩
    obtain ⟨u, hu, rfl⟩ := List.mem_map.1 hc
    exact (hL l' h').1 u hu
  have ends : ∀ L : List (List UInt8), (∀ l ∈ L, Legible l) → ∀ l ∈ L.map (·.map (·.toBitVec)), l.getLast? ≠ some 0x20 := by
    intro L hL l hl
    obtain ⟨l', h', rfl⟩ := List.mem_map.1 hl
    rw [List.getLast?_map]
    intro e
    obtain ⟨u, h1, h2⟩ := Option.map_eq_some_iff.1 e
    have : u = 32 := inj u 32 h2
    exact (hL l' h').2.2 (this ▸ h1)
  have full : ∀ L : List (List UInt8), (∀ l ∈ L, Legible l) → (L.map (·.map (·.toBitVec))).getLast? ≠ some [] := by
    intro L hL e
    rw [List.getLast?_map] at e
    obtain ⟨l, h1, h2⟩ := Option.map_eq_some_iff.1 e
    exact (hL l (List.mem_of_getLast? h1)).2.1 (List.map_eq_nil_iff.1 h2)
  have e := Vesa.C124_text white (by decide) ((log n.toNat mb.toNat ad.toNat r b).map (·.map (·.toBitVec)))
    ((log n'.toNat mb'.toNat ad'.toNat r' b').map (·.map (·.toBitVec))) s.init s'.init ⟨rfl, rfl, by show 0 < 1440 / 8; decide⟩
    ⟨rfl, rfl, by show 0 < 1440 / 8; decide⟩ rfl rfl rfl rfl rfl (lines _ hg hL) (lines _ hg' hL')
    (by rw [List.length_map]; show 0 + _ ≤ 900 / 16; omega) (by rw [List.length_map]; show 0 + _ ≤ 900 / 16; omega)
    (by intro p _ _ h2
        have h2' : p / 1440 / 16 < 900 / 16 := h2
        exact ⟨hs p (by omega), hs' p (by omega)⟩)
    (ends _ hL) (ends _ hL') (full _ hL) (full _ hL')
    (by intro p _ _ h2
        have h2' : p / 1440 / 16 < 900 / 16 := h2
        exact h p (by omega))
  have e' : log n.toNat mb.toNat ad.toNat r b = log n'.toNat mb'.toNat ad'.toNat r' b' :=
    (List.map_inj_right (fun x y hxy => (List.map_inj_right inj).1 hxy)).1 e
  have g : ∀ i : Nat, (log n.toNat mb.toNat ad.toNat r b)[i]? = (log n'.toNat mb'.toNat ad'.toNat r' b')[i]? := fun i => by rw [e']
  obtain ⟨k1, k2⟩ := e820_inj (Option.some.inj (g 1))
  have k3 := pde_inj (Option.some.inj (g 3))
  have k4 : b = b' := by
    cases b <;> cases b'
    · rfl
    · exact absurd (Option.some.inj (g 5)) (by decide)
    · exact absurd (Option.some.inj (g 5)) (by decide)
    · rfl
  refine ⟨BitVec.eq_of_toNat_eq k1, BitVec.eq_of_toNat_eq k2, ?_, k4, ?_⟩
  · apply BitVec.eq_of_toNat_eq
    rw [BitVec.toNat_or, BitVec.toNat_or]; exact k3
  · intro hb
    subst k4 hb
    exact regs_inj (Option.some.inj (g 6))

/-- Two machines, one with 127 MB and one with 128 MB: the pictures differ. -/
example (r : Regs) : ∃ p, p < 1440 * 896 ∧
    (Vesa.colorPrint Vesa.fontAscii white (text (log (6#64).toNat (127#64).toNat (0x60#64).toNat r true)) Vesa.exBlank.init).pix p ≠
    (Vesa.colorPrint Vesa.fontAscii white (text (log (6#64).toNat (128#64).toNat (0x60#64).toNat r true)) Vesa.exBlank.init).pix p := by
  refine Classical.byContradiction fun hn => ?_
  have := (C124_boot Vesa.exBlank Vesa.exBlank (fun _ _ => rfl) (fun _ _ => rfl) 6#64 127#64 0x60#64 6#64 128#64 0x60#64 r r true true
    (fun p hp => Classical.byContradiction fun e => hn ⟨p, hp, e⟩)).2.1
  exact absurd this (by decide)

end Verif.BootLog
