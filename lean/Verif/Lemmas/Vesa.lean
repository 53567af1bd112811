import Verif.Model.Vesa

/-! What the pixel loops do. -/

set_option backward.isDefEq.respectTransparency false

namespace Verif.Vesa

/-- The geometry of two screens is the same. -/
structure Geo (s t : Screen) : Prop where
  w : t.width = s.width
  h : t.height = s.height
  cw : t.cw = s.cw
  ch : t.ch = s.ch
  x : t.x = s.x
  y : t.y = s.y

theorem Geo.refl (s : Screen) : Geo s s := ⟨rfl, rfl, rfl, rfl, rfl, rfl⟩

theorem Geo.trans {a b c : Screen} (h1 : Geo a b) (h2 : Geo b c) : Geo a c :=
  ⟨h2.w.trans h1.w, h2.h.trans h1.h, h2.cw.trans h1.cw, h2.ch.trans h1.ch, h2.x.trans h1.x, h2.y.trans h1.y⟩

theorem bit_test (row : BitVec 8) (k : Nat) (hk : k < 8) :
    (row.setWidth 32 &&& ((0x100 : BitVec 32) >>> (k + 1)) ≠ 0) ↔ row.getLsbD (7 - k) = true := by
  have : ∀ (r : Fin 256) (k : Fin 8), ((BitVec.ofFin r : BitVec 8).setWidth 32 &&& ((0x100 : BitVec 32) >>> (k.val + 1)) ≠ 0) ↔
      (BitVec.ofFin r : BitVec 8).getLsbD (7 - k.val) = true := by decide +kernel
  exact this row.toFin ⟨k, hk⟩

theorem putRow_spec (row : BitVec 8) (fg : Color) (a n j : Nat) (s : Screen) (hn : j + n ≤ 8) :
    Geo s (putRow row fg a n j s) ∧
    (∀ p, (putRow row fg a n j s).pix p =
      if (a + j ≤ p ∧ p < a + j + n) ∧ row.getLsbD (7 - (p - a)) = true then fg else s.pix p) ∧
    (∀ p, p ∈ (putRow row fg a n j s).log ↔ p ∈ s.log ∨ (a + j ≤ p ∧ p < a + j + n)) := by
  induction n generalizing j s with
  | zero =>
    refine ⟨Geo.refl s, fun p => ?_, fun p => ?_⟩
    · rw [if_neg (by omega)]; rfl
    · simp only [putRow]
      constructor
      · exact Or.inl
      · rintro (h | h)
        · exact h
        · omega
  | succ n ih =>
    obtain ⟨s1, hs1⟩ : ∃ s1, s1 = (if row.setWidth 32 &&& ((0x100 : BitVec 32) >>> (j + 1)) ≠ 0 then s.plot (a + j) fg
      else s.plot (a + j) (s.pix (a + j))) := ⟨_, rfl⟩
    have e : putRow row fg a (n + 1) j s = putRow row fg a n (j + 1) s1 := by rw [hs1]; simp only [putRow]
    rw [e]
    obtain ⟨g, hp, hl⟩ := ih (j + 1) s1 (by omega)
    have hg : Geo s s1 := by rw [hs1]; split <;> exact ⟨rfl, rfl, rfl, rfl, rfl, rfl⟩
    have hlog : s1.log = (a + j) :: s.log := by rw [hs1]; split <;> rfl
    have hpix : ∀ p, s1.pix p = if p = a + j ∧ row.getLsbD (7 - j) = true then fg else s.pix p := by
      intro p
      have hb := bit_test row j (by omega)
      rw [hs1]
      by_cases c : row.getLsbD (7 - j) = true
      · rw [if_pos (hb.2 c)]
        simp only [Screen.plot, c, and_true]
      · rw [if_neg (fun h => c (hb.1 h))]
        simp only [Screen.plot, c, and_false, if_false]
        by_cases c2 : p = a + j
        · rw [if_pos c2, c2]; simp
        · rw [if_neg c2]; simp
    refine ⟨hg.trans g, fun p => ?_, fun p => ?_⟩
    · rw [hp p, hpix p]
      by_cases c1 : p = a + j
      · subst c1
        rw [if_neg (by omega)]
        have : a + j - a = j := by omega
        rw [this]
        by_cases c2 : row.getLsbD (7 - j) = true
        · rw [if_pos ⟨rfl, c2⟩, if_pos ⟨by omega, c2⟩]
        · rw [if_neg (fun h => c2 h.2), if_neg (fun h => c2 h.2)]
      · rw [if_neg (fun h : p = a + j ∧ _ => c1 h.1)]
        by_cases c2 : a + (j + 1) ≤ p ∧ p < a + (j + 1) + n
        · by_cases c3 : row.getLsbD (7 - (p - a)) = true
          · rw [if_pos ⟨c2, c3⟩, if_pos ⟨by omega, c3⟩]
          · rw [if_neg (fun h => c3 h.2), if_neg (fun h => c3 h.2)]
        · rw [if_neg (fun h => c2 h.1), if_neg (fun h => c2 ⟨by omega, by omega⟩)]
    · rw [hl p, hlog, List.mem_cons]
      constructor
      · rintro ((h | h) | h)
        · right; omega
        · exact Or.inl h
        · right; omega
      · rintro (h | h)
        · exact Or.inl (Or.inr h)
        · by_cases c : p = a + j
          · exact Or.inl (Or.inl c)
          · right; omega

/-- Pixels `q .. q + 7` of row `r`. -/
theorem row_iff (w r q p : Nat) (h : q + 8 ≤ w) :
    (w * r + q ≤ p ∧ p < w * r + q + 8) ↔ (p / w = r ∧ q ≤ p % w ∧ p % w < q + 8) := by
  have hw : 0 < w := by omega
  have e := Nat.div_add_mod p w
  have hm := Nat.mod_lt p hw
  constructor
  · intro ⟨h1, h2⟩
    have hr : p / w = r := by
      rcases Nat.lt_trichotomy (p / w) r with c | c | c
      · have : w * (p / w + 1) ≤ w * r := Nat.mul_le_mul_left w c
        rw [Nat.mul_add] at this; omega
      · exact c
      · have : w * (r + 1) ≤ w * (p / w) := Nat.mul_le_mul_left w c
        rw [Nat.mul_add] at this; omega
    rw [hr] at e
    exact ⟨hr, by omega, by omega⟩
  · rintro ⟨rfl, h2, h3⟩
    omega

theorem putRows_spec (font : Font) (c : BitVec 8) (fg : Color) (px py n i : Nat) (s : Screen)
    (hcw : s.cw = 8) (hpx : px + 8 ≤ s.width) :
    Geo s (putRows font c fg px py n i s) ∧
    (∀ p, (putRows font c fg px py n i s).pix p =
      if (py + i ≤ p / s.width ∧ p / s.width < py + i + n) ∧ (px ≤ p % s.width ∧ p % s.width < px + 8) ∧
        (font c (p / s.width - py)).getLsbD (7 - (p % s.width - px)) = true then fg else s.pix p) ∧
    (∀ p, p ∈ (putRows font c fg px py n i s).log ↔ p ∈ s.log ∨
      (py + i ≤ p / s.width ∧ p / s.width < py + i + n) ∧ (px ≤ p % s.width ∧ p % s.width < px + 8)) := by
  induction n generalizing i s with
  | zero =>
    refine ⟨Geo.refl s, fun p => ?_, fun p => ?_⟩
    · rw [if_neg (by omega)]; rfl
    · simp only [putRows]
      constructor
      · exact Or.inl
      · rintro (h | h)
        · exact h
        · omega
  | succ n ih =>
    obtain ⟨g1, p1, l1⟩ := putRow_spec (font c i) fg (s.width * (py + i) + px) s.cw 0 s (by omega)
    obtain ⟨s1, hs1⟩ : ∃ s1, s1 = putRow (font c i) fg (s.width * (py + i) + px) s.cw 0 s := ⟨_, rfl⟩
    have e : putRows font c fg px py (n + 1) i s = putRows font c fg px py n (i + 1) s1 := by rw [hs1]; rfl
    rw [← hs1] at g1 p1 l1
    rw [e]
    obtain ⟨g2, p2, l2⟩ := ih (i + 1) s1 (by rw [g1.cw, hcw]) (by rw [g1.w]; exact hpx)
    rw [g1.w] at p2 l2
    rw [hcw] at p1 l1
    have key : ∀ p, (s.width * (py + i) + px + 0 ≤ p ∧ p < s.width * (py + i) + px + 0 + 8) ↔
        (p / s.width = py + i ∧ px ≤ p % s.width ∧ p % s.width < px + 8) := fun p => row_iff _ _ _ _ hpx
    refine ⟨g1.trans g2, fun p => ?_, fun p => ?_⟩
    · rw [p2 p, p1 p]
      by_cases c1 : p / s.width = py + i
      · rw [if_neg (by omega)]
        by_cases c2 : px ≤ p % s.width ∧ p % s.width < px + 8
        · have hk := (key p).2 ⟨c1, c2⟩
          have hd : p - (s.width * (py + i) + px) = p % s.width - px := by
            have e := Nat.div_add_mod p s.width
            rw [c1] at e
            omega
          rw [hd, show p / s.width - py = i by omega]
          by_cases c3 : (font c i).getLsbD (7 - (p % s.width - px)) = true
          · rw [if_pos ⟨hk, c3⟩, if_pos ⟨by omega, c2, c3⟩]
          · rw [if_neg (fun h => c3 h.2), if_neg (fun h => c3 h.2.2)]
        · rw [if_neg (fun h => c2 ((key p).1 h.1).2), if_neg (fun h => c2 h.2.1)]
      · rw [if_neg (fun h : (_ ∧ _) ∧ (font c i).getLsbD _ = true => c1 ((key p).1 h.1).1)]
        by_cases c2 : (px ≤ p % s.width ∧ p % s.width < px + 8) ∧
            (font c (p / s.width - py)).getLsbD (7 - (p % s.width - px)) = true
        · by_cases c3 : py + (i + 1) ≤ p / s.width ∧ p / s.width < py + (i + 1) + n
          · rw [if_pos ⟨c3, c2⟩, if_pos ⟨by omega, c2⟩]
          · rw [if_neg (fun h => c3 h.1), if_neg (fun h => c3 (by omega))]
        · rw [if_neg (fun h => c2 h.2), if_neg (fun h => c2 h.2)]
    · rw [l2 p, l1 p, key p]
      by_cases c2 : px ≤ p % s.width ∧ p % s.width < px + 8
      · constructor
        · rintro ((h | h) | h)
          · exact Or.inl h
          · exact Or.inr ⟨by omega, c2⟩
          · exact Or.inr ⟨by omega, c2⟩
        · rintro (h | h)
          · exact Or.inl (Or.inl h)
          · by_cases c1 : p / s.width = py + i
            · exact Or.inl (Or.inr ⟨c1, c2⟩)
            · exact Or.inr ⟨by omega, c2⟩
      · constructor
        · rintro ((h | h) | h)
          · exact Or.inl h
          · exact absurd h.2 c2
          · exact absurd h.2 c2
        · rintro (h | h)
          · exact Or.inl (Or.inl h)
          · exact absurd h.2 c2

/-- A console as `Init` sets it up (for any resolution of at least one column), with the cursor inside the columns. -/
structure Ok (s : Screen) : Prop where
  cw : s.cw = 8
  ch : s.ch = 16
  x : s.x < s.width / 8

theorem putChar_spec (font : Font) (fg : Color) (c : BitVec 8) (s : Screen) (h : Ok s) :
    Geo s (putChar font fg c s) ∧
    (∀ p, (putChar font fg c s).pix p =
      if p / s.width / 16 = s.y ∧ p % s.width / 8 = s.x ∧
        (font c (p / s.width % 16)).getLsbD (7 - p % s.width % 8) = true then fg else s.pix p) ∧
    (∀ p, p ∈ (putChar font fg c s).log ↔ p ∈ s.log ∨ p / s.width / 16 = s.y ∧ p % s.width / 8 = s.x) := by
  have hx := h.x
  have hpx : s.x * 8 + 8 ≤ s.width := by
    have := Nat.div_mul_le_self s.width 8
    omega
  have e : putChar font fg c s = putRows font c fg (s.x * 8) (s.y * 16) 16 0 s := by
    simp only [putChar, h.cw, h.ch]
  rw [e]
  obtain ⟨g, hp, hl⟩ := putRows_spec font c fg (s.x * 8) (s.y * 16) 16 0 s h.cw hpx
  refine ⟨g, fun p => ?_, fun p => ?_⟩
  · rw [hp p]
    by_cases c1 : p / s.width / 16 = s.y ∧ p % s.width / 8 = s.x
    · rw [show p / s.width - s.y * 16 = p / s.width % 16 by omega, show p % s.width - s.x * 8 = p % s.width % 8 by omega]
      by_cases c2 : (font c (p / s.width % 16)).getLsbD (7 - p % s.width % 8) = true
      · rw [if_pos ⟨by omega, by omega, c2⟩, if_pos ⟨c1.1, c1.2, c2⟩]
      · rw [if_neg (fun h => c2 h.2.2), if_neg (fun h => c2 h.2.2)]
    · rw [if_neg (fun h => c1 (by omega)), if_neg (fun h => c1 ⟨h.1, h.2.1⟩)]
  · rw [hl p]
    constructor <;> rintro (h | h) <;> first | exact Or.inl h | (right; omega)

theorem clearLoop_spec (n i : Nat) (s : Screen) :
    Geo s (clearLoop n i s) ∧
    (∀ p, (clearLoop n i s).pix p = if 2 * i ≤ p ∧ p < 2 * (i + n) then black else s.pix p) ∧
    (∀ p, p ∈ (clearLoop n i s).log ↔ p ∈ s.log ∨ 2 * i ≤ p ∧ p < 2 * (i + n)) := by
  induction n generalizing i s with
  | zero =>
    refine ⟨Geo.refl s, fun p => ?_, fun p => ?_⟩
    · rw [if_neg (by omega)]; rfl
    · simp only [clearLoop]
      constructor
      · exact Or.inl
      · rintro (h | h)
        · exact h
        · omega
  | succ n ih =>
    obtain ⟨g, hp, hl⟩ := ih (i + 1) ((s.plot (2 * i) black).plot (2 * i + 1) black)
    have e : clearLoop (n + 1) i s = clearLoop n (i + 1) ((s.plot (2 * i) black).plot (2 * i + 1) black) := rfl
    rw [e]
    refine ⟨⟨g.w, g.h, g.cw, g.ch, g.x, g.y⟩, fun p => ?_, fun p => ?_⟩
    · rw [hp p]
      simp only [Screen.plot]
      by_cases c1 : 2 * (i + 1) ≤ p ∧ p < 2 * (i + 1 + n)
      · rw [if_pos c1, if_pos (by omega)]
      · rw [if_neg c1]
        by_cases c2 : p = 2 * i + 1
        · rw [if_pos c2, if_pos (by omega)]
        · rw [if_neg c2]
          by_cases c3 : p = 2 * i
          · rw [if_pos c3, if_pos (by omega)]
          · rw [if_neg c3, if_neg (by omega)]
    · rw [hl p]
      simp only [Screen.plot, List.mem_cons]
      constructor
      · rintro ((h | h | h) | h)
        · right; omega
        · right; omega
        · exact Or.inl h
        · right; omega
      · rintro (h | h)
        · exact Or.inl (Or.inr (Or.inr h))
        · by_cases c1 : p = 2 * i + 1
          · exact Or.inl (Or.inl c1)
          · by_cases c2 : p = 2 * i
            · exact Or.inl (Or.inr (Or.inl c2))
            · right; omega

/-- The cursor after one character on a screen of `cols` × `rows` cells. -/
def adv (cols rows x y : Nat) : Nat × Nat :=
  let q := if x + 1 ≥ cols then (0, y + 1) else (x + 1, y)
  if q.2 ≥ rows then (0, 0) else q

/-- Whether that character makes the screen start over. -/
def wraps (cols rows x y : Nat) : Bool := (if x + 1 ≥ cols then y + 1 else y) ≥ rows

theorem clear_spec (s : Screen) :
    (clear s).width = s.width ∧ (clear s).height = s.height ∧ (clear s).cw = s.cw ∧ (clear s).ch = s.ch ∧
    (clear s).x = 0 ∧ (clear s).y = 0 ∧
    (∀ p, (clear s).pix p = if p < 2 * (s.height * s.width / 2) then black else s.pix p) ∧
    (∀ p, p ∈ (clear s).log ↔ p ∈ s.log ∨ p < 2 * (s.height * s.width / 2)) := by
  obtain ⟨g, hp, hl⟩ := clearLoop_spec (s.height * s.width / 2) 0 s
  simp only [Nat.mul_zero, Nat.zero_le, true_and, Nat.zero_add] at hp hl
  exact ⟨g.w, g.h, g.cw, g.ch, rfl, rfl, hp, hl⟩

theorem put_spec (font : Font) (fg : Color) (c : BitVec 8) (s t : Screen) (h : Ok s) (ht : t = put font fg c s) :
    Ok t ∧ t.width = s.width ∧ t.height = s.height ∧
    (t.x, t.y) = adv (s.width / 8) (s.height / 16) s.x s.y ∧
    (wraps (s.width / 8) (s.height / 16) s.x s.y = false → t.pix = (putChar font fg c s).pix ∧
      t.log = (putChar font fg c s).log) ∧
    (wraps (s.width / 8) (s.height / 16) s.x s.y = true →
      (∀ p, t.pix p = if p < 2 * (s.height * s.width / 2) then black else (putChar font fg c s).pix p) ∧
      (∀ p, p ∈ t.log ↔ p ∈ (putChar font fg c s).log ∨ p < 2 * (s.height * s.width / 2))) := by
  obtain ⟨g, _, _⟩ := putChar_spec font fg c s h
  have hx := h.x
  have hw : 0 < s.width / 8 := by omega
  unfold put at ht
  generalize putChar font fg c s = s1 at *
  obtain ⟨pix, log, w, ht', cw, ch, x, y⟩ := s
  obtain ⟨pix1, log1, w1, ht1, cw1, ch1, x1, y1⟩ := s1
  obtain ⟨g1, g2, g3, g4, g5, g6⟩ := g
  obtain ⟨k1, k2, k3⟩ := h
  simp only at g1 g2 g3 g4 g5 g6 k1 k2 k3 hw ht hx ⊢
  subst g1 g2 g5 g6 k1 k2
  subst g3 g4
  by_cases c1 : x1 + 1 ≥ w1 / 8
  · rw [if_pos c1] at ht
    simp only at ht
    by_cases c2 : y1 + 1 ≥ ht1 / 16
    · rw [if_pos c2] at ht
      obtain ⟨e1, e2, e3, e4, e5, e6, e7, e8⟩ := clear_spec ⟨pix1, log1, w1, ht1, 8, 16, 0, y1 + 1⟩
      rw [← ht] at e1 e2 e3 e4 e5 e6 e7 e8
      refine ⟨⟨e3, e4, by rw [e5, e1]; exact hw⟩, e1, e2, ?_, ?_, fun _ => ⟨e7, e8⟩⟩
      · simp only [adv, if_pos c1, if_pos c2, e5, e6]
      · intro hwr; simp [wraps, c1] at hwr; omega
    · rw [if_neg c2] at ht
      subst ht
      refine ⟨⟨rfl, rfl, hw⟩, rfl, rfl, ?_, fun _ => ⟨rfl, rfl⟩, ?_⟩
      · simp only [adv, if_pos c1, if_neg c2]
      · intro hwr; simp [wraps, c1] at hwr; omega
  · rw [if_neg c1] at ht
    simp only at ht
    by_cases c2 : y1 ≥ ht1 / 16
    · rw [if_pos c2] at ht
      obtain ⟨e1, e2, e3, e4, e5, e6, e7, e8⟩ := clear_spec ⟨pix1, log1, w1, ht1, 8, 16, x1 + 1, y1⟩
      rw [← ht] at e1 e2 e3 e4 e5 e6 e7 e8
      refine ⟨⟨e3, e4, by rw [e5, e1]; exact hw⟩, e1, e2, ?_, ?_, fun _ => ⟨e7, e8⟩⟩
      · simp only [adv, if_neg c1, if_pos c2, e5, e6]
      · intro hwr; simp [wraps, c1] at hwr; omega
    · rw [if_neg c2] at ht
      subst ht
      refine ⟨⟨rfl, rfl, show x1 + 1 < w1 / 8 by omega⟩, rfl, rfl, ?_, fun _ => ⟨rfl, rfl⟩, ?_⟩
      · simp only [adv, if_neg c1, if_neg c2]
      · intro hwr; simp [wraps, c1] at hwr; omega

end Verif.Vesa
