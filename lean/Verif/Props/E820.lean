import Verif.Model.E820

/-! Property C51: the E820 memory map. -/

set_option backward.isDefEq.respectTransparency false

namespace Verif.E820
open Verif

/-- The bytes of a table entry as the BIOS stores them: 8 bytes base, 8 bytes
length, 4 bytes type, little endian. -/
def bytesLE (v : Nat) : Nat → List UInt8
  | 0 => []
  | n + 1 => UInt8.ofNat v :: bytesLE (v / 256) n

def image (e : Entry) : List UInt8 :=
  bytesLE e.address.toNat 8 ++ bytesLE e.length.toNat 8 ++ bytesLE e.type.toNat 4

/-- The memory at `p` holds the bytes `bs`. -/
def Holds (m : Mem) (p : Nat) (bs : List UInt8) : Prop := ∀ i (h : i < bs.length), m (p + i) = some bs[i]

/-- An entry that ends the table. -/
def valid (e : Entry) : Bool := 1 ≤ e.type.toNat ∧ e.type.toNat ≤ 4 ∧ e.length ≠ 0

theorem bytesLE_length (v n : Nat) : (bytesLE v n).length = n := by
  induction n generalizing v with
  | zero => rfl
  | succ n ih => simp [bytesLE, ih]

theorem loadLE_bytes (m : Mem) (v : Nat) (n p : Nat) (hv : v < 256 ^ n)
    (h : Holds m p (bytesLE v n)) : loadLE m p n = .ok v := by
  induction n generalizing v p with
  | zero =>
    have : v = 0 := by simpa using hv
    subst this; rfl
  | succ n ih =>
    have h0 := h 0 (by simp [bytesLE])
    simp only [bytesLE, List.getElem_cons_zero, Nat.add_zero] at h0
    have hdiv : v / 256 < 256 ^ n := Nat.div_lt_of_lt_mul (by rw [Nat.pow_succ, Nat.mul_comm] at hv; exact hv)
    have h1 : loadLE m (p + 1) n = .ok (v / 256) := by
      refine ih (v / 256) (p + 1) hdiv ?_
      intro i hi
      have := h (i + 1) (by simp [bytesLE]; exact hi)
      simp only [bytesLE, List.getElem_cons_succ] at this
      rw [← this]; congr 1; omega
    simp only [loadLE, Mem.load, h0, Res.ok_bind, h1]
    congr 1
    simp
    omega

theorem Holds.left {m : Mem} {p : Nat} {a b : List UInt8} (h : Holds m p (a ++ b)) : Holds m p a := by
  intro i hi
  rw [h i (by simp; omega), List.getElem_append_left hi]

theorem Holds.right {m : Mem} {p : Nat} {a b : List UInt8} (h : Holds m p (a ++ b)) :
    Holds m (p + a.length) b := by
  intro i hi
  have := h (a.length + i) (by simp; omega)
  rw [List.getElem_append_right (by omega)] at this
  rw [Nat.add_assoc, this]
  congr 2; omega

theorem ld_entry {m : Mem} {p : Nat} {e : Entry} (h : Holds m p (image e)) :
    ldAddress m p = .ok e.address ∧ ldLength m p = .ok e.length ∧ ldType m p = .ok e.type := by
  have h1 := h.left.left
  have h2 := h.left.right
  have h3 := h.right
  simp only [bytesLE_length, List.length_append] at h2 h3
  have a1 := loadLE_bytes m e.address.toNat 8 p (by have := e.address.isLt; omega) h1
  have a2 := loadLE_bytes m e.length.toNat 8 (p + 8) (by have := e.length.isLt; omega) h2
  have a3 := loadLE_bytes m e.type.toNat 4 (p + 16) (by have := e.type.isLt; omega) h3
  simp [ldAddress, ldLength, ldType, a1, a2, a3]

/-- Sum of the lengths of the free (type 1) entries. -/
def freeSum (es : List Entry) : Nat := ((es.filter (fun e => e.type = 1)).map (fun e => e.length.toNat)).sum

theorem freeSum_nil : freeSum [] = 0 := rfl

theorem freeSum_cons (e : Entry) (es : List Entry) :
    freeSum (e :: es) = (if e.type = 1 then e.length.toNat else 0) + freeSum es := by
  unfold freeSum
  by_cases h : e.type = 1
  · rw [List.filter_cons_of_pos (by simpa using h), if_pos h]; simp
  · rw [List.filter_cons_of_neg (by simpa using h), if_neg h]; simp

/-- One valid entry is stored. -/
theorem loop_valid {m : Mem} {k p : Nat} {s : Manager} {e : Entry} (h : Holds m p (image e))
    (hv : valid e = true) (hn : s.length.toNat < s.entrys.n) :
    loop m (k + 1) p s = loop m k (p + 20)
      { entrys := { s.entrys with at_ := fun j => if j = s.length.toNat then e else s.entrys.at_ j },
        length := s.length + 1,
        available := if e.type = 1 then s.available + e.length else s.available } := by
  obtain ⟨h1, h2, h3⟩ := ld_entry h
  simp only [valid, decide_eq_true_eq] at hv
  have c1 : ¬ e.type > 4 := by simp only [gt_iff_lt, BitVec.lt_def]; simp; omega
  have c2 : ¬ (e.length = 0 ∨ e.type < 1) := by
    simp only [BitVec.lt_def]; simp; exact ⟨hv.2.2, by omega⟩
  simp only [loop, h1, h2, h3, Res.ok_bind, if_neg c1, if_neg c2]
  by_cases c3 : e.type = 1
  · simp only [if_pos c3, Arr.set, if_pos hn, Res.ok_bind]
  · simp only [c3, if_false, Arr.set, if_pos hn, Res.ok_bind]

/-- An invalid entry stops the loop. -/
theorem loop_invalid {m : Mem} {k p : Nat} {s : Manager} {e : Entry} (h : Holds m p (image e))
    (hv : valid e = false) : loop m (k + 1) p s = .ok s := by
  obtain ⟨h1, h2, h3⟩ := ld_entry h
  simp only [valid, decide_eq_false_iff_not] at hv
  by_cases c1 : e.type > 4
  · simp only [loop, h3, Res.ok_bind, if_pos c1]
  · have c2 : e.length = 0 ∨ e.type < 1 := by
      simp only [gt_iff_lt, BitVec.lt_def] at c1 ⊢
      simp at c1 ⊢
      by_cases c : e.length = 0
      · exact Or.inl c
      · right; by_cases c' : 1 ≤ e.type.toNat
        · exact absurd ⟨c', by omega, c⟩ hv
        · omega
    simp only [loop, h2, h3, Res.ok_bind, if_neg c1, if_pos c2]

/-- The loop reads the valid prefix `es` (and stops at `rest`). -/
theorem loop_spec {m : Mem} (es : List Entry) (p k : Nat) (s : Manager) (b : Entry)
    (hlen : es.length ≤ k) (hstop : es.length < k → valid b = false)
    (hval : ∀ e ∈ es, valid e = true)
    (hmem : ∀ i (h : i < es.length), Holds m (p + 20 * i) (image es[i]))
    (hb : es.length < k → Holds m (p + 20 * es.length) (image b))
    (hn : s.length.toNat + es.length ≤ s.entrys.n) (h64 : s.entrys.n < 2 ^ 64) :
    ∃ s', loop m k p s = .ok s' ∧ s'.length.toNat = s.length.toNat + es.length ∧
      s'.entrys.n = s.entrys.n ∧
      (∀ i (h : i < es.length), s'.entrys.at_ (s.length.toNat + i) = es[i]) ∧
      (∀ i, i < s.length.toNat → s'.entrys.at_ i = s.entrys.at_ i) ∧
      s'.available.toNat = (s.available.toNat + freeSum es) % 2 ^ 64 := by
  induction es generalizing p k s with
  | nil =>
    cases k with
    | zero => exact ⟨s, rfl, rfl, rfl, by simp, fun _ _ => rfl, by simp [freeSum_nil, Nat.mod_eq_of_lt s.available.isLt]⟩
    | succ k =>
      have hb' := hb (by simp)
      rw [loop_invalid (by simpa using hb') (hstop (by simp))]
      exact ⟨s, rfl, rfl, rfl, by simp, fun _ _ => rfl, by simp [freeSum_nil, Nat.mod_eq_of_lt s.available.isLt]⟩
  | cons e es ih =>
    cases k with
    | zero => simp at hlen
    | succ k =>
      simp only [List.length_cons] at hlen hn
      have h0 := hmem 0 (by simp)
      simp only [Nat.mul_zero, Nat.add_zero, List.getElem_cons_zero] at h0
      rw [loop_valid h0 (hval e (by simp)) (by omega)]
      have hl : (s.length + 1).toNat = s.length.toNat + 1 := by
        rw [BitVec.toNat_add]; simp; omega
      obtain ⟨s', e1, e2, e3, e4, e5, e6⟩ := ih (p + 20) k
        { entrys := { s.entrys with at_ := fun j => if j = s.length.toNat then e else s.entrys.at_ j },
          length := s.length + 1,
          available := if e.type = 1 then s.available + e.length else s.available }
        (by omega) (fun h => hstop (by simpa using h)) (fun x hx => hval x (by simp [hx]))
        (fun i hi => by
          have := hmem (i + 1) (by simpa using hi)
          simp only [List.getElem_cons_succ] at this
          rwa [show p + 20 + 20 * i = p + 20 * (i + 1) by omega])
        (fun h => by
          have := hb (by simpa using h)
          simp only [List.length_cons] at this
          rwa [show p + 20 + 20 * es.length = p + 20 * (es.length + 1) by omega])
        (by simp only [hl]; omega) h64
      simp only [hl] at e2 e4 e5
      refine ⟨s', e1, by simp only [List.length_cons]; omega, e3, ?_, ?_, ?_⟩
      · intro i hi
        cases i with
        | zero =>
          have := e5 s.length.toNat (by omega)
          simpa using this
        | succ i =>
          have := e4 i (by simpa using hi)
          rw [show s.length.toNat + (i + 1) = s.length.toNat + 1 + i by omega, this]
          rfl
      · intro i hi
        rw [e5 i (by omega), if_neg (by omega)]
      · rw [e6, freeSum_cons]
        by_cases c : e.type = 1
        · simp only [c, if_true, BitVec.toNat_add]
          omega
        · simp only [c, if_false, Nat.zero_add]

/-- C51. The BIOS table holds the valid entries `es`, followed (if there are fewer
than 20) by an invalid entry `b`; the memory behind it is arbitrary and may even be
inaccessible. Then `Init` succeeds and the manager holds exactly `es`, in order; the
available size is the sum of the lengths of the free entries (as a 64-bit number). -/
theorem C51_faithful (m : Mem) (es : List Entry) (b : Entry) (s : Manager) (hs : s.entrys.n = 20)
    (hlen : es.length ≤ 20) (hval : ∀ e ∈ es, valid e = true)
    (hmem : ∀ i (h : i < es.length), Holds m (e820Addr + 20 * i) (image es[i]))
    (hb : es.length < 20 → Holds m (e820Addr + 20 * es.length) (image b) ∧ valid b = false) :
    ∃ s', init m s = .ok s' ∧ size s' = es.length ∧
      (∀ i (h : i < es.length), nth s' i = .ok es[i]) ∧
      s'.available.toNat = freeSum es % 2 ^ 64 := by
  obtain ⟨s', e1, e2, e3, e4, _, e6⟩ := loop_spec (m := m) es e820Addr maxSize
    { s with length := 0, available := 0 } b hlen (fun h => (hb h).2) hval hmem (fun h => (hb h).1)
    (by simp [hs]; exact hlen) (by simp [hs])
  refine ⟨s', e1, by simpa [size] using e2, ?_, by simpa using e6⟩
  intro i hi
  have := e4 i hi
  simp only [BitVec.ofNat_eq_ofNat, BitVec.toNat_ofNat, Nat.zero_mod, Nat.zero_add] at this
  simp only [nth, Arr.get, e3, hs]
  rw [if_pos (by omega), this]

/-- A table with two entries and a terminator meets the hypotheses. -/
def exTable : List UInt8 :=
  image ⟨0, 0x9fc00, 1⟩ ++ (image ⟨0x100000, 0x7ee0000, 1⟩ ++ image ⟨0, 0, 0⟩)

def exMem : Mem := fun a => if e820Addr ≤ a then exTable[a - e820Addr]? else none

example : ∃ s', init exMem ⟨Arr.fill 20 default, 7, 7⟩ = .ok s' ∧ size s' = 2 ∧
    s'.available.toNat = 0x9fc00 + 0x7ee0000 := by
  obtain ⟨s', h1, h2, _, h4⟩ := C51_faithful exMem [⟨0, 0x9fc00, 1⟩, ⟨0x100000, 0x7ee0000, 1⟩] ⟨0, 0, 0⟩
    ⟨Arr.fill 20 default, 7, 7⟩ rfl (by decide) (by decide)
    (by intro i hi
        have hh : ∀ j, j < 60 → exMem (e820Addr + j) = exTable[j]? := by
          intro j hj; simp [exMem]
        have : i = 0 ∨ i = 1 := by simp at hi; omega
        rcases this with rfl | rfl
        · intro j hj
          rw [Nat.add_assoc, hh _ (by simp [image, bytesLE_length] at hj; omega)]
          simp only [exTable]
          rw [List.getElem?_append_left (by simpa using hj)]
          simp at hj ⊢
        · intro j hj
          simp only [List.getElem_cons_succ, List.getElem_cons_zero] at hj ⊢
          rw [Nat.add_assoc, hh _ (by simp [image, bytesLE_length] at hj; omega)]
          simp only [exTable]
          rw [List.getElem?_append_right (by simp [image, bytesLE_length])]
          rw [List.getElem?_append_left (by simp [image, bytesLE_length] at hj ⊢; omega)]
          simp [image, bytesLE_length] at hj ⊢)
    (by intro _
        refine ⟨?_, by decide⟩
        have hh : ∀ j, j < 60 → exMem (e820Addr + j) = exTable[j]? := by
          intro j hj; simp [exMem]
        intro j hj
        rw [Nat.add_assoc, hh _ (by simp [image, bytesLE_length] at hj; simp; omega)]
        simp only [exTable]
        simp only [List.length_cons, List.length_nil]
        rw [List.getElem?_append_right (by simp [image, bytesLE_length]; omega)]
        rw [List.getElem?_append_right (by simp [image, bytesLE_length]; omega)]
        rw [List.getElem?_eq_getElem (by simp [image, bytesLE_length] at hj ⊢; omega)]
        congr 1
        congr 1
        simp [image, bytesLE_length]; omega)
  exact ⟨s', h1, h2, by rw [h4]; decide⟩

theorem takeWhile_le {α : Type} (f : α → Bool) (l : List α) : (l.takeWhile f).length ≤ l.length :=
  (List.takeWhile_sublist f).length_le

theorem takeWhile_getElem {α : Type} (f : α → Bool) (l : List α) (i : Nat) (h : i < (l.takeWhile f).length) :
    (l.takeWhile f)[i] = l[i]'(Nat.lt_of_lt_of_le h (takeWhile_le f l)) := by
  induction l generalizing i with
  | nil => simp at h
  | cons x l ih =>
    by_cases c : f x = true
    · simp only [List.takeWhile_cons_of_pos c] at h ⊢
      cases i with
      | zero => rfl
      | succ i => simp only [List.getElem_cons_succ]; exact ih i (by simpa using h)
    · simp [List.takeWhile_cons_of_neg c] at h

theorem takeWhile_stop {α : Type} (f : α → Bool) (l : List α) (h : (l.takeWhile f).length < l.length) :
    f (l[(l.takeWhile f).length]'h) = false := by
  induction l with
  | nil => simp at h
  | cons x l ih =>
    by_cases c : f x = true
    · simp only [List.takeWhile_cons_of_pos c, List.length_cons, List.getElem_cons_succ] at h ⊢
      exact ih (by omega)
    · simp only [List.takeWhile_cons_of_neg c, List.length_nil, List.getElem_cons_zero]
      simpa using c

theorem takeWhile_all {α : Type} (f : α → Bool) (l : List α) : ∀ e ∈ l.takeWhile f, f e = true := by
  induction l with
  | nil => simp
  | cons x l ih =>
    by_cases c : f x = true
    · rw [List.takeWhile_cons_of_pos c]; intro e he
      rcases List.mem_cons.1 he with rfl | he
      · exact c
      · exact ih e he
    · simp [List.takeWhile_cons_of_neg c]

/-- C51, for every contents of the 20-slot table: the manager holds the longest valid
prefix; if the free lengths add up to less than 2^64 the available size is exactly
their sum. -/
theorem C51_any_table (m : Mem) (tab : Nat → Entry) (s : Manager) (hs : s.entrys.n = 20)
    (hmem : ∀ i, i < 20 → Holds m (e820Addr + 20 * i) (image (tab i))) :
    ∃ s', init m s = .ok s' ∧
      (List.range (size s')).map (nth s') = (((List.range 20).map tab).takeWhile valid).map Res.ok ∧
      (freeSum (((List.range 20).map tab).takeWhile valid) < 2 ^ 64 →
        s'.available.toNat = freeSum (((List.range 20).map tab).takeWhile valid)) := by
  have hle := takeWhile_le valid ((List.range 20).map tab)
  simp only [List.length_map, List.length_range] at hle
  obtain ⟨s', h1, h2, h3, h4⟩ := C51_faithful m (((List.range 20).map tab).takeWhile valid)
    (tab (((List.range 20).map tab).takeWhile valid).length) s hs hle (takeWhile_all _ _)
    (by intro i hi
        rw [takeWhile_getElem]
        simpa using hmem i (by omega))
    (by intro h
        refine ⟨hmem _ h, ?_⟩
        have := takeWhile_stop valid ((List.range 20).map tab) (by simpa using h)
        simpa using this)
  refine ⟨s', h1, ?_, fun h => by rw [h4, Nat.mod_eq_of_lt h]⟩
  apply List.ext_getElem
  · simp [h2]
  · intro i hi hj
    simp only [List.length_map] at hj
    simp only [List.getElem_map, List.getElem_range]
    exact h3 i hj

/-- A completely free table of 20 one-page entries. -/
example (m : Mem) (h : ∀ i, i < 20 → Holds m (e820Addr + 20 * i) (image ⟨BitVec.ofNat 64 (4096 * i), 4096, 1⟩)) :
    ∃ s', init m ⟨Arr.fill 20 default, 0, 0⟩ = .ok s' ∧ s'.available.toNat = 20 * 4096 := by
  obtain ⟨s', h1, _, h3⟩ := C51_any_table m (fun i => ⟨BitVec.ofNat 64 (4096 * i), 4096, 1⟩)
    ⟨Arr.fill 20 default, 0, 0⟩ rfl h
  exact ⟨s', h1, h3 (by decide)⟩

end Verif.E820
