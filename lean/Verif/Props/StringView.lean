import Verif.Model.StringView

/-! Properties C11–C13: string_view comparison, ordering, substr. -/

namespace Verif.Props.StringView
open Verif Verif.StringView

/-- The view denotes the character sequence `l` in memory `m`. -/
def Denotes (m : Mem) (v : View) (l : List UInt8) : Prop :=
  v.size.toNat = l.length ∧ ∀ i (h : i < l.length), m (v.data + i) = some l[i]

/-- A character as the signed value the code compares. -/
private def sc (b : UInt8) : Int := (BitVec.ofNat 8 b.toNat).toInt

private theorem sc_inj {a b : UInt8} (h : sc a = sc b) : a = b := by
  have h1 := BitVec.eq_of_toInt_eq h
  have h2 := congrArg BitVec.toNat h1
  simp only [BitVec.toNat_ofNat] at h2
  have ha := a.toNat_lt
  have hb := b.toNat_lt
  apply UInt8.toNat_inj.mp
  omega

/-- Three-way comparison of equally long sequences. -/
private def cmp : List UInt8 → List UInt8 → Int
  | a :: x, b :: y => if sc a < sc b then -1 else if sc a > sc b then 1 else cmp x y
  | _, _ => 0

private theorem loop_eq (m : Mem) (x y : View) : ∀ (a b : List UInt8) (i : Nat),
    a.length = b.length →
    (∀ j (h : j < a.length), m (x.data + (i + j)) = some a[j]) →
    (∀ j (h : j < b.length), m (y.data + (i + j)) = some b[j]) →
    compareLoop m x y a.length i = .ok (cmp a b) := by
  intro a
  induction a with
  | nil =>
    intro b i hl ha hb
    cases b with
    | nil => rfl
    | cons c b => simp at hl
  | cons c a ih =>
    intro b i hl ha hb
    cases b with
    | nil => simp at hl
    | cons d b =>
      have h1 := ha 0 (by simp)
      have h2 := hb 0 (by simp)
      simp only [Nat.add_zero, List.getElem_cons_zero] at h1 h2
      simp only [List.length_cons, compareLoop, charAt, Mem.load, h1, h2, Res.ok_bind, cmp]
      change (if sc c < sc d then _ else if sc c > sc d then _ else _) = _
      by_cases e1 : sc c < sc d
      · simp only [if_pos e1]
      · by_cases e2 : sc c > sc d
        · simp only [if_neg e1, if_pos e2]
        · simp only [if_neg e1, if_neg e2]
          apply ih b (i + 1) (by simpa using hl)
          · intro j hj
            have := ha (j + 1) (by simp; omega)
            simpa [Nat.add_assoc, Nat.add_comm 1] using this
          · intro j hj
            have := hb (j + 1) (by simp; omega)
            simpa [Nat.add_assoc, Nat.add_comm 1] using this

private theorem cmp_eq_zero : ∀ {a b : List UInt8}, a.length = b.length → (cmp a b = 0 ↔ a = b) := by
  intro a
  induction a with
  | nil =>
    intro b h
    cases b with
    | nil => simp [cmp]
    | cons d b => simp at h
  | cons c a ih =>
    intro b h
    cases b with
    | nil => simp at h
    | cons d b =>
      simp only [List.length_cons, Nat.add_right_cancel_iff] at h
      simp only [cmp]
      split
      · rename_i hlt
        constructor
        · intro h0; exact absurd h0 (by decide)
        · intro h0; cases h0; omega
      · split
        · rename_i hgt
          constructor
          · intro h0; exact absurd h0 (by decide)
          · intro h0; cases h0; omega
        · rw [ih h]
          have : sc c = sc d := by omega
          have := sc_inj this
          subst this
          simp

private theorem cmp_swap : ∀ (a b : List UInt8), a.length = b.length → cmp b a = - cmp a b := by
  intro a
  induction a with
  | nil => intro b h; cases b <;> simp [cmp]
  | cons c a ih =>
    intro b h
    cases b with
    | nil => simp at h
    | cons d b =>
      simp only [List.length_cons, Nat.add_right_cancel_iff] at h
      simp only [cmp]
      rcases Int.lt_trichotomy (sc c) (sc d) with h1 | h1 | h1
      · rw [if_neg (by omega), if_pos (by omega), if_pos h1]; rfl
      · rw [if_neg (by omega), if_neg (by omega), if_neg (by omega), if_neg (by omega), ih b h]
      · rw [if_pos h1, if_neg (by omega), if_pos h1]

private theorem cmp_trans : ∀ (a b c : List UInt8), a.length = b.length → b.length = c.length →
    cmp a b < 0 → cmp b c < 0 → cmp a c < 0 := by
  intro a
  induction a with
  | nil => intro b c h1 h2 h; cases b <;> simp [cmp] at h
  | cons x a ih =>
    intro b c h1 h2 h3 h4
    cases b with
    | nil => simp at h1
    | cons y b =>
      cases c with
      | nil => simp at h2
      | cons z c =>
        simp only [List.length_cons, Nat.add_right_cancel_iff] at h1 h2
        simp only [cmp] at h3 h4 ⊢
        rcases Int.lt_trichotomy (sc x) (sc y) with e1 | e1 | e1
        · rcases Int.lt_trichotomy (sc y) (sc z) with e2 | e2 | e2
          · rw [if_pos (by omega)]; decide
          · rw [if_pos (by omega)]; decide
          · rw [if_neg (by omega), if_pos e2] at h4; exact absurd h4 (by decide)
        · rw [if_neg (by omega), if_neg (by omega)] at h3
          rcases Int.lt_trichotomy (sc y) (sc z) with e2 | e2 | e2
          · rw [if_pos (by omega)]; decide
          · rw [if_neg (by omega), if_neg (by omega)] at h4
            rw [if_neg (by omega), if_neg (by omega)]
            exact ih b c h1 h2 h3 h4
          · rw [if_neg (by omega), if_pos e2] at h4; exact absurd h4 (by decide)
        · rw [if_neg (by omega), if_pos e1] at h3; exact absurd h3 (by decide)

/-- The value of `compare`: by length first, then by signed characters. -/
private def cmpAll (a b : List UInt8) : Int :=
  if a.length < b.length then -1 else if b.length < a.length then 1 else cmp a b

private theorem compare_eq {m : Mem} {x y : View} {a b : List UInt8} (hx : Denotes m x a)
    (hy : Denotes m y b) : compare m x y = .ok (cmpAll a b) := by
  unfold StringView.compare cmpAll
  have e1 : x.size < y.size ↔ a.length < b.length := by rw [BitVec.lt_def, hx.1, hy.1]
  have e2 : x.size > y.size ↔ b.length < a.length := by
    show y.size < x.size ↔ _
    rw [BitVec.lt_def, hx.1, hy.1]
  simp only [e1, e2]
  split
  · rfl
  · split
    · rfl
    · rw [hx.1]
      exact loop_eq m x y a b 0 (by omega) (fun j h => by simpa using hx.2 j h)
        (fun j h => by simpa using hy.2 j h)

private theorem cmpAll_zero {a b : List UInt8} : cmpAll a b = 0 ↔ a = b := by
  unfold cmpAll
  split
  · rename_i h
    exact ⟨fun h0 => absurd h0 (by decide), fun h0 => by subst h0; omega⟩
  · split
    · rename_i h
      exact ⟨fun h0 => absurd h0 (by decide), fun h0 => by subst h0; omega⟩
    · exact cmp_eq_zero (by omega)

private theorem cmpAll_swap (a b : List UInt8) : cmpAll b a = - cmpAll a b := by
  unfold cmpAll
  rcases Nat.lt_trichotomy a.length b.length with h | h | h
  · rw [if_neg (by omega), if_pos h, if_pos h]; rfl
  · rw [if_neg (by omega), if_neg (by omega), if_neg (by omega), if_neg (by omega)]
    exact cmp_swap a b h
  · rw [if_pos h, if_neg (by omega), if_pos h]

private theorem cmpAll_trans {a b c : List UInt8} (h1 : cmpAll a b < 0) (h2 : cmpAll b c < 0) :
    cmpAll a c < 0 := by
  unfold cmpAll at *
  rcases Nat.lt_trichotomy a.length b.length with h | h | h
  · rcases Nat.lt_trichotomy b.length c.length with h' | h' | h'
    · rw [if_pos (by omega)]; decide
    · rw [if_pos (by omega)]; decide
    · rw [if_neg (by omega), if_pos h'] at h2; exact absurd h2 (by decide)
  · rw [if_neg (by omega), if_neg (by omega)] at h1
    rcases Nat.lt_trichotomy b.length c.length with h' | h' | h'
    · rw [if_pos (by omega)]; decide
    · rw [if_neg (by omega), if_neg (by omega)] at h2
      rw [if_neg (by omega), if_neg (by omega)]
      exact cmp_trans a b c h h' h1 h2
    · rw [if_neg (by omega), if_pos h'] at h2; exact absurd h2 (by decide)
  · rw [if_neg (by omega), if_pos h] at h1; exact absurd h1 (by decide)

/-- Two views for the examples: "b" at 100 and "aa" at 200. -/
private def svMem : Mem := fun a =>
  if a = 100 then some 98 else if a = 200 ∨ a = 201 then some 97 else none

private theorem svB : Denotes svMem ⟨100, 1⟩ [98] := ⟨rfl, by decide⟩
private theorem svAA : Denotes svMem ⟨200, 2⟩ [97, 97] := ⟨rfl, by decide⟩

/-- C11: `==` compares contents. -/
theorem C11_eq_iff_same_contents (m : Mem) (x y : View) (a b : List UInt8) (hx : Denotes m x a)
    (hy : Denotes m y b) : eq m x y = .ok (decide (a = b)) := by
  rw [eq, compare_eq hx hy]
  simp only [Res.ok_bind]
  congr 1
  have := cmpAll_zero (a := a) (b := b)
  by_cases h : a = b
  · simp [h]
    subst h; exact cmpAll_zero.mpr rfl
  · simp [h]; exact fun e => h (this.mp e)

/-- C11: `<` on views with the same contents is false. -/
theorem C11_lt_irrefl (m : Mem) (x y : View) (a : List UInt8) (hx : Denotes m x a)
    (hy : Denotes m y a) : lt m x y = .ok false := by
  rw [lt, compare_eq hx hy, cmpAll_zero.mpr rfl]; rfl

/-- C11: `<` is transitive. -/
theorem C11_lt_trans (m : Mem) (x y z : View) (a b c : List UInt8) (hx : Denotes m x a)
    (hy : Denotes m y b) (hz : Denotes m z c) (h1 : lt m x y = .ok true)
    (h2 : lt m y z = .ok true) : lt m x z = .ok true := by
  rw [lt, compare_eq hx hy] at h1
  rw [lt, compare_eq hy hz] at h2
  rw [lt, compare_eq hx hz]
  simp only [Res.ok_bind, Res.ok.injEq, decide_eq_true_eq] at *
  exact cmpAll_trans h1 h2

/-- C11: exactly one of `x < y`, `x == y`, `y < x` holds. -/
theorem C11_trichotomy (m : Mem) (x y : View) (a b : List UInt8) (hx : Denotes m x a)
    (hy : Denotes m y b) :
    (lt m x y = .ok true ∧ eq m x y = .ok false ∧ lt m y x = .ok false) ∨
    (lt m x y = .ok false ∧ eq m x y = .ok true ∧ lt m y x = .ok false) ∨
    (lt m x y = .ok false ∧ eq m x y = .ok false ∧ lt m y x = .ok true) := by
  simp only [lt, eq, compare_eq hx hy, compare_eq hy hx, Res.ok_bind, Res.ok.injEq, cmpAll_swap a b]
  rcases Int.lt_trichotomy (cmpAll a b) 0 with h | h | h
  · left; simp; omega
  · right; left; simp [h]
  · right; right; simp; omega

/-- C11: the other operators agree with `<` and `==`, and the sign of
`compare` says the same. -/
theorem C11_operators_consistent (m : Mem) (x y : View) (a b : List UInt8) (hx : Denotes m x a)
    (hy : Denotes m y b) :
    ∃ l e g, lt m x y = .ok l ∧ eq m x y = .ok e ∧ lt m y x = .ok g ∧
      ne m x y = .ok (!e) ∧ le m x y = .ok (l || e) ∧ gt m x y = .ok g ∧ ge m x y = .ok (!l) ∧
      ∃ c, compare m x y = .ok c ∧ (c < 0 ↔ l = true) ∧ (c = 0 ↔ e = true) ∧ (c > 0 ↔ g = true) := by
  simp only [lt, eq, ne, le, gt, ge, compare_eq hx hy, compare_eq hy hx, Res.ok_bind,
    Res.ok.injEq, cmpAll_swap a b]
  refine ⟨_, _, _, rfl, rfl, rfl, rfl, ?_, ?_, ?_, _, rfl, ?_, ?_, ?_⟩
  · rcases Int.lt_trichotomy (cmpAll a b) 0 with h | h | h
    · have h0 : cmpAll a b ≤ 0 := by omega
      simp [h, h0]
    · simp [h]
    · have : ¬ cmpAll a b ≤ 0 := by omega
      have h2 : ¬ cmpAll a b < 0 := by omega
      have h3 : cmpAll a b ≠ 0 := by omega
      simp [this, h2, h3]
  · congr 1; apply propext; constructor <;> intro <;> omega
  · rw [← decide_not]; congr 1; apply propext; omega
  · simp
  · simp
  · simp

/-- hypotheses of the C11 theorems -/
example : Denotes svMem ⟨100, 1⟩ [98] ∧ Denotes svMem ⟨200, 2⟩ [97, 97] := ⟨svB, svAA⟩

/-- Dictionary order by unsigned character values (as `std::string_view`). -/
def DictLt : List UInt8 → List UInt8 → Prop
  | _, [] => False
  | [], _ :: _ => True
  | a :: x, b :: y => a < b ∨ (a = b ∧ DictLt x y)

/-- C12 fails: "b" < "aa" (shorter views come first), although "aa" precedes "b"
in the dictionary. -/
theorem C12_lexicographic_violated :
    ∃ (m : Mem) (x y : View) (a b : List UInt8), Denotes m x a ∧ Denotes m y b ∧
      lt m x y = .ok true ∧ DictLt b a ∧ ¬ DictLt a b :=
  ⟨svMem, ⟨100, 1⟩, ⟨200, 2⟩, [98], [97, 97], svB, svAA, rfl, by simp [DictLt], by simp [DictLt]⟩

private theorem cmp_dict : ∀ (a b : List UInt8), a.length = b.length → (∀ c ∈ a, c < 128) →
    (∀ c ∈ b, c < 128) → (cmp a b < 0 ↔ DictLt a b) := by
  have hsc : ∀ c : UInt8, c < 128 → sc c = c.toNat := by
    intro c hc
    have hc : c.toNat < 128 := hc
    simp only [sc, BitVec.toInt_eq_toNat_cond, BitVec.toNat_ofNat]
    rw [if_pos (by omega)]; omega
  intro a
  induction a with
  | nil => intro b h _ _; cases b with
    | nil => simp [cmp, DictLt]
    | cons d b => simp at h
  | cons c a ih =>
    intro b h ha hb
    cases b with
    | nil => simp at h
    | cons d b =>
      simp only [List.length_cons, Nat.add_right_cancel_iff] at h
      have h1 := hsc c (ha c (by simp))
      have h2 := hsc d (hb d (by simp))
      have ih' := ih b h (fun x hx => ha x (by simp [hx])) (fun x hx => hb x (by simp [hx]))
      simp only [cmp, DictLt, h1, h2, UInt8.lt_iff_toNat_lt]
      rcases Nat.lt_trichotomy c.toNat d.toNat with e | e | e
      · simp [e]
      · rw [if_neg (by omega), if_neg (by omega), ih']
        have : c = d := UInt8.toNat_inj.mp e
        simp [this]
      · rw [if_neg (by omega), if_pos (by omega)]
        have : c ≠ d := by intro h0; subst h0; omega
        simp [this]; omega

/-- C12, the part that holds: for views of equal length with ASCII contents `<`
is dictionary order. (Missing: different lengths; characters above 127, which
compare as negative.) -/
theorem C12_lexicographic_partial (m : Mem) (x y : View) (a b : List UInt8) (hx : Denotes m x a)
    (hy : Denotes m y b) (hlen : a.length = b.length) (ha : ∀ c ∈ a, c < 128)
    (hb : ∀ c ∈ b, c < 128) : lt m x y = .ok true ↔ DictLt a b := by
  rw [lt, compare_eq hx hy]
  simp only [Res.ok_bind, Res.ok.injEq, decide_eq_true_eq, cmpAll]
  rw [if_neg (by omega), if_neg (by omega)]
  exact cmp_dict a b hlen ha hb

/-- hypotheses of `C12_lexicographic_partial` -/
example : Denotes svMem ⟨200, 2⟩ [97, 97] ∧ ∀ c ∈ ([97, 97] : List UInt8), c < 128 :=
  ⟨svAA, by decide⟩

/-- C13: `substr(pos, len)` with `pos ≤ size()` denotes the characters from `pos`
on, at most `len` of them; the result lies within the original view. -/
theorem C13_substr (m : Mem) (v : View) (l : List UInt8) (hv : Denotes m v l) (pos len : BitVec 64)
    (hpos : pos.toNat ≤ l.length) :
    Denotes m (substr v pos len) ((l.drop pos.toNat).take len.toNat) ∧
    v.data ≤ (substr v pos len).data ∧
    (substr v pos len).data + (substr v pos len).size.toNat ≤ v.data + v.size.toNat := by
  have hsub : (v.size - pos).toNat = l.length - pos.toNat := by
    rw [BitVec.toNat_sub_of_le (by rw [BitVec.le_def, hv.1]; exact hpos), hv.1]
  have hsz : (minSz (v.size - pos) len).toNat = min (l.length - pos.toNat) len.toNat := by
    unfold minSz
    split
    · rename_i h; rw [BitVec.lt_def, hsub] at h; rw [hsub]; omega
    · rename_i h; rw [BitVec.lt_def, hsub] at h; omega
  refine ⟨⟨?_, ?_⟩, ?_, ?_⟩
  · simp only [substr, hsz, List.length_take, List.length_drop]; omega
  · intro i hi
    simp only [List.length_take, List.length_drop] at hi
    simp only [substr, List.getElem_take, List.getElem_drop]
    rw [Nat.add_assoc]
    exact hv.2 (pos.toNat + i) (by omega)
  · simp only [substr]; omega
  · simp only [substr, hsz, hv.1]; omega

/-- C13 with the default length: everything from `pos` on. -/
theorem C13_substr_npos (m : Mem) (v : View) (l : List UInt8) (hv : Denotes m v l)
    (pos : BitVec 64) (hpos : pos.toNat ≤ l.length) :
    Denotes m (substr v pos npos) (l.drop pos.toNat) := by
  have h := (C13_substr m v l hv pos npos hpos).1
  have hl : l.length < 2 ^ 64 := by rw [← hv.1]; exact v.size.isLt
  have hn : npos.toNat = 2 ^ 64 - 1 := by decide
  rwa [List.take_of_length_le (by rw [List.length_drop, hn]; omega)] at h

/-- hypotheses of C13 -/
example : Denotes svMem ⟨200, 2⟩ [97, 97] ∧ (1#64).toNat ≤ ([97, 97] : List UInt8).length :=
  ⟨svAA, by decide⟩

end Verif.Props.StringView
