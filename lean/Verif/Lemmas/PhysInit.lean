import Verif.Lemmas.PhysAlloc

/-! `init_memory`: zones, pages and bitmap after the loop over the memory map. -/

namespace Verif.Phys
open Verif
open Verif.E820 (Entry)

/-- First whole page of an entry. -/
def lo (e : Entry) : Nat := (e.address.toNat + 2097151) / 2097152
/-- Page behind the last whole page of an entry. -/
def hi (e : Entry) : Nat := (e.address.toNat + e.length.toNat) / 2097152

/-- The address arithmetic of the entry does not wrap around. -/
def Fits (e : Entry) : Prop := e.address.toNat + e.length.toNat + 2097151 < 2 ^ 64

theorem mask21 (x : BitVec 64) : x &&& ~~~2097151#64 = (x >>> 21) <<< 21 := by
  apply BitVec.eq_of_getLsbD_eq
  intro i hi
  have h : (2097151#64).getLsbD i = decide (i < 21) := by
    show (BitVec.ofNat 64 (2 ^ 21 - 1)).getLsbD i = _
    rw [BitVec.getLsbD_ofNat, Nat.testBit_two_pow_sub_one]
    simp [hi]
  simp only [BitVec.getLsbD_and, BitVec.getLsbD_not, h, BitVec.getLsbD_shiftLeft, BitVec.getLsbD_ushiftRight, hi]
  by_cases h2 : i < 21
  · simp [h2]
  · simp [h2, show 21 + (i - 21) = i by omega]

theorem shr_shl (x : BitVec 64) : ((x >>> 21) <<< 21).toNat = x.toNat / 2097152 * 2097152 := by
  have := x.isLt
  simp only [BitVec.toNat_shiftLeft, BitVec.toNat_ushiftRight, Nat.shiftRight_eq_div_pow, Nat.shiftLeft_eq]
  omega

theorem zoneStart_toNat {e : Entry} (h : Fits e) : (zoneStart e).toNat = lo e * 2097152 := by
  unfold Fits at h
  rw [zoneStart, mask21, shr_shl, lo, BitVec.toNat_add]
  simp
  omega

theorem zoneStop_toNat {e : Entry} (h : Fits e) : (zoneStop e).toNat = hi e * 2097152 := by
  unfold Fits at h
  rw [zoneStop, shr_shl, hi, BitVec.toNat_add]
  simp
  omega

/-- The page number `i` of zone `z`, not in use. -/
def newPage (z i : Nat) : Page := ⟨z, BitVec.ofNat 64 (i * 2097152), 0#64, 0#64⟩

theorem addPages_ok {z g : Nat} {start : BitVec 64} (hs : start.toNat = g * 2097152) :
    ∀ (n j : Nat) (m : Mm), m.pages.n ≤ 64 * m.bits.n → m.pages.n < 2 ^ 43 → g + j + n ≤ m.pages.n →
      ∃ m', addPages z g start n j m = .ok m' ∧ m'.pages.n = m.pages.n ∧ m'.bits.n = m.bits.n ∧ m'.zones = m.zones ∧ m'.zonesSize = m.zonesSize ∧
        (∀ i, m'.pages.at_ i = if g + j ≤ i ∧ i < g + j + n then some (newPage z i) else m.pages.at_ i) ∧
        (∀ i, bit m' i = (bit m i ^^ decide (g + j ≤ i ∧ i < g + j + n))) ∧ m'.dma = m.dma ∧ m'.normal = m.normal ∧ m'.unmapped = m.unmapped := by
  intro n
  induction n with
  | zero => intro j m _ _ _; exact ⟨m, rfl, rfl, rfl, rfl, rfl, fun i => by rw [if_neg (by omega)], fun i => by rw [decide_eq_false (by omega)]; simp, rfl, rfl, rfl⟩
  | succ n ih =>
    intro j m h1 h2 h3
    have ha : (start + BitVec.ofNat 64 (2097152 * j)).toNat = (g + j) * 2097152 := by
      rw [BitVec.toNat_add, hs, BitVec.toNat_ofNat]; omega
    have hfr := frame_addr ha
    have hnp : (⟨z, start + BitVec.ofNat 64 (2097152 * j), 0, 0⟩ : Page) = newPage z (g + j) := by
      have : start + BitVec.ofNat 64 (2097152 * j) = BitVec.ofNat 64 ((g + j) * 2097152) :=
        BitVec.eq_of_toNat_eq (by rw [ha, BitVec.toNat_ofNat]; omega)
      rw [this]; rfl
    have hlt : g + j < m.pages.n := by omega
    rw [addPages, hnp, setPage_ok hlt, Res.ok_bind, hfr, modBit_ok (by simp; omega), Res.ok_bind]
    obtain ⟨m', e, a1, a2, a3, a4, a5, a6, a7, a8, a9⟩ := ih (j + 1) (putBit { m with pages := m.pages.put (g + j) (some (newPage z (g + j))) } (g + j) fun w b => w ^^^ b)
      h1 h2 (by simp only [putBit, Arr.put_n]; omega)
    refine ⟨m', e, a1, a2, a3, a4, fun i => ?_, fun i => ?_, a7, a8, a9⟩
    · rw [a5]
      simp only [putBit, Arr.put]
      by_cases hij : i = g + j
      · subst hij; rw [if_neg (by omega), if_pos rfl, if_pos (by omega)]
      · rw [if_neg hij]
        by_cases hr : g + (j + 1) ≤ i ∧ i < g + (j + 1) + n
        · rw [if_pos hr, if_pos (by omega)]
        · rw [if_neg hr, if_neg (by omega)]
    · rw [a6, bit_xor]
      show (bit m i ^^ decide (i = g + j) ^^ _) = _
      by_cases hij : i = g + j
      · subst hij
        have h3 : ¬ (g + (j + 1) ≤ g + j ∧ g + j < g + (j + 1) + n) := by omega
        have h4 : g + j ≤ g + j ∧ g + j < g + j + (n + 1) := by omega
        simp only [h3, h4]; simp
      · have : decide (i = g + j) = false := by simpa using hij
        rw [this, Bool.xor_false]
        congr 1
        simp only [decide_eq_decide]
        omega

theorem addPages_ub {z g : Nat} {start : BitVec 64} (hs : start.toNat = g * 2097152) :
    ∀ (n j : Nat) (m : Mm), m.pages.n ≤ 64 * m.bits.n → m.pages.n < 2 ^ 43 → 0 < n → m.pages.n < g + j + n → addPages z g start n j m = .ub := by
  intro n
  induction n with
  | zero => intro j m _ _ h; omega
  | succ n ih =>
    intro j m h1 h2 _ h3
    by_cases hlt : g + j < m.pages.n
    · have ha : (start + BitVec.ofNat 64 (2097152 * j)).toNat = (g + j) * 2097152 := by
        rw [BitVec.toNat_add, hs, BitVec.toNat_ofNat]; omega
      rw [addPages, setPage_ok hlt, Res.ok_bind, frame_addr ha, modBit_ok (by simp; omega), Res.ok_bind]
      exact ih (j + 1) _ h1 h2 (by omega) (by simp only [Arr.put_n]; omega)
    · rw [addPages, setPage, Arr.set_ub hlt]; rfl

/-- The pages of the zones, in the order of the entries. -/
def spans (es : List Entry) : List (Nat × Nat) :=
  (es.filter fun e => e.type == 1 && decide (lo e < hi e)).map fun e => (lo e, hi e)

/-- A zone without pages in use. -/
def newZone (a b : Nat) : Zone :=
  ⟨BitVec.ofNat 64 (a * 2097152), BitVec.ofNat 64 (b * 2097152), BitVec.ofNat 64 ((b - a) * 2097152), 0, BitVec.ofNat 64 (b - a), 0, BitVec.ofNat 64 (b - a)⟩

theorem skip_zone {m : Mm} {e : Entry} (hf : Fits e) (h : (e.type == 1 && decide (lo e < hi e)) = false) : addZone m e = .ok m := by
  by_cases ht : e.type = 1
  · rw [addZone, if_neg (by simp [ht]), if_pos]
    rw [ht] at h
    simp at h
    rw [BitVec.le_def, zoneStop_toNat hf, zoneStart_toNat hf]
    omega
  · rw [addZone, if_pos ht]

theorem make_zone {m : Mm} {e : Entry} (hf : Fits e) (h : (e.type == 1 && decide (lo e < hi e)) = true) :
    addZone m e = (do
      let zs ← m.zones.set m.zonesSize (newZone (lo e) (hi e))
      addPages m.zonesSize (lo e) (zoneStart e) (hi e - lo e) 0 { m with zones := zs, zonesSize := m.zonesSize + 1 }) := by
  simp only [Bool.and_eq_true, beq_iff_eq, decide_eq_true_eq] at h
  have h1 := zoneStart_toNat hf
  have h2 := zoneStop_toNat hf
  have h3 : (zoneStop e - zoneStart e).toNat = (hi e - lo e) * 2097152 := by
    have := (zoneStop e).isLt
    rw [BitVec.toNat_sub, h1, h2]; omega
  have e1 : zoneStart e = BitVec.ofNat 64 (lo e * 2097152) := BitVec.eq_of_toNat_eq (by have := (zoneStart e).isLt; rw [h1, BitVec.toNat_ofNat]; omega)
  have e2 : zoneStop e = BitVec.ofNat 64 (hi e * 2097152) := BitVec.eq_of_toNat_eq (by have := (zoneStop e).isLt; rw [h2, BitVec.toNat_ofNat]; omega)
  have e3 : zoneStop e - zoneStart e = BitVec.ofNat 64 ((hi e - lo e) * 2097152) := BitVec.eq_of_toNat_eq (by have := (zoneStop e - zoneStart e).isLt; rw [h3, BitVec.toNat_ofNat]; omega)
  rw [addZone, if_neg (by simp [h.1]), if_neg (by rw [BitVec.le_def, h1, h2]; omega), frame_addr h3, frame_addr h1, e3]
  simp only [newZone, ← e1, ← e2]

/-- The state after the zones `S`. -/
structure Mapped (n b : Nat) (S : List (Nat × Nat)) (m : Mm) : Prop where
  np : m.pages.n = n
  nb : m.bits.n = b
  nz : m.zones.n = 32
  size : m.zonesSize = S.length
  idx : m.dma = 0 ∧ m.normal = 0 ∧ m.unmapped = 0
  zone : ∀ z s, S[z]? = some s → m.zones.at_ z = newZone s.1 s.2
  none : ∀ z, S.length ≤ z → m.zones.at_ z = default
  page : ∀ z s i, S[z]? = some s → s.1 ≤ i → i < s.2 → m.pages.at_ i = some (newPage z i)
  hole : ∀ i, (∀ s ∈ S, ¬ (s.1 ≤ i ∧ i < s.2)) → m.pages.at_ i = Option.none
  bit : ∀ i, i < 64 * b → bit m i = !decide (∃ s ∈ S, s.1 ≤ i ∧ i < s.2)

/-- Two zones share no page. -/
def Apart (s t : Nat × Nat) : Prop := s.2 ≤ t.1 ∨ t.2 ≤ s.1

theorem Mapped.add {n b : Nat} {S : List (Nat × Nat)} {m : Mm} (M : Mapped n b S m) (hnb : n ≤ 64 * b) (hn : n < 2 ^ 43) (hlen : S.length < 32) {e : Entry} (hf : Fits e)
    (h : (e.type == 1 && decide (lo e < hi e)) = true) (hin : hi e ≤ n) (hap : ∀ s ∈ S, Apart s (lo e, hi e)) :
    ∃ m', addZone m e = .ok m' ∧ Mapped n b (S ++ [(lo e, hi e)]) m' := by
  have hlt : lo e < hi e := by simp at h; exact h.2
  rw [make_zone hf h, M.size, Arr.set_ok (by rw [M.nz]; omega), Res.ok_bind]
  obtain ⟨m', e', a1, a2, a3, a4, a5, a6, a7, a8, a9⟩ := addPages_ok (z := S.length) (zoneStart_toNat hf) (hi e - lo e) 0 { m with zones := m.zones.put S.length (newZone (lo e) (hi e)), zonesSize := S.length + 1 }
    (by show m.pages.n ≤ 64 * m.bits.n; rw [M.np, M.nb]; exact hnb) (by show m.pages.n < _; rw [M.np]; exact hn) (by show _ ≤ m.pages.n; rw [M.np]; omega)
  have hr : ∀ i, (lo e + 0 ≤ i ∧ i < lo e + 0 + (hi e - lo e)) ↔ (lo e ≤ i ∧ i < hi e) := by intro i; omega
  have hsplit : ∀ z s, (S ++ [(lo e, hi e)])[z]? = some s → S[z]? = some s ∨ (z = S.length ∧ s = (lo e, hi e)) := by
    intro z s hz
    by_cases hzl : z < S.length
    · rw [List.getElem?_append_left hzl] at hz; exact .inl hz
    · rw [List.getElem?_append_right (by omega)] at hz
      obtain ⟨hh, rfl⟩ := List.getElem?_eq_some_iff.1 hz
      simp at hh
      exact .inr ⟨by omega, by simp⟩
  refine ⟨m', e', ⟨a1.trans M.np, a2.trans M.nb, by rw [a3]; exact M.nz, by rw [a4]; simp, by rw [a7, a8, a9]; exact M.idx, ?_, ?_, ?_, ?_, ?_⟩⟩
  · intro z s hz
    rw [a3]
    rcases hsplit z s hz with hz | ⟨rfl, rfl⟩
    · have : z < S.length := (List.getElem?_eq_some_iff.1 hz).1
      exact (Arr.put_ne _ _ (by omega)).trans (M.zone z s hz)
    · exact Arr.put_same _ _ _
  · intro z hz
    simp at hz
    rw [a3]
    exact (Arr.put_ne _ _ (by omega)).trans (M.none z (by omega))
  · intro z s i hz h1 h2
    rw [a5]
    simp only [hr]
    rcases hsplit z s hz with hz | ⟨rfl, rfl⟩
    · have := hap s (List.mem_of_getElem? hz)
      simp only [Apart] at this
      rw [if_neg (by omega)]
      exact M.page z s i hz h1 h2
    · rw [if_pos ⟨h1, h2⟩]
  · intro i hi'
    rw [a5]
    simp only [hr]
    rw [if_neg (hi' (lo e, hi e) (by simp))]
    exact M.hole i fun s hs => hi' s (by simp [hs])
  · intro i hi'
    rw [a6]
    show (Phys.bit m i ^^ _) = _
    rw [M.bit i hi']
    simp only [hr]
    by_cases h1 : lo e ≤ i ∧ i < hi e
    · have h2 : ¬ ∃ s ∈ S, s.1 ≤ i ∧ i < s.2 := by
        rintro ⟨s, hs, h3⟩
        have := hap s hs
        simp only [Apart] at this
        omega
      have h3 : ∃ s ∈ S ++ [(lo e, hi e)], s.1 ≤ i ∧ i < s.2 := ⟨(lo e, hi e), by simp, h1⟩
      rw [decide_eq_true h1, decide_eq_false h2, decide_eq_true h3]; rfl
    · have h2 : (∃ s ∈ S ++ [(lo e, hi e)], s.1 ≤ i ∧ i < s.2) ↔ ∃ s ∈ S, s.1 ≤ i ∧ i < s.2 := by
        constructor
        · rintro ⟨s, hs, h3⟩
          rcases List.mem_append.1 hs with hs | hs
          · exact ⟨s, hs, h3⟩
          · rw [List.mem_singleton] at hs; subst hs; exact absurd h3 h1
        · rintro ⟨s, hs, h3⟩; exact ⟨s, List.mem_append.2 (.inl hs), h3⟩
      rw [decide_eq_false h1, Bool.xor_false, decide_eq_decide.2 h2]

theorem Mapped.adds {n b : Nat} (hnb : n ≤ 64 * b) (hn : n < 2 ^ 43) : ∀ (es : List Entry) {S : List (Nat × Nat)} {m : Mm}, Mapped n b S m → S.length + es.length ≤ 32 → (∀ e ∈ es, Fits e) →
    (∀ s ∈ spans es, s.2 ≤ n) → (S ++ spans es).Pairwise Apart → ∃ m', addZones es m = .ok m' ∧ Mapped n b (S ++ spans es) m' := by
  intro es
  induction es with
  | nil => intro S m M _ _ _ _; exact ⟨m, rfl, by simpa [spans] using M⟩
  | cons e es ih =>
    intro S m M hl hf hin hap
    have hfe := hf e (by simp)
    simp at hl
    cases h : (e.type == 1 && decide (lo e < hi e)) with
    | false =>
      have hs : spans (e :: es) = spans es := by simp only [spans, List.filter_cons, h]; rfl
      rw [hs] at hin hap ⊢
      rw [addZones, skip_zone hfe h, Res.ok_bind]
      exact ih M (by omega) (fun x hx => hf x (by simp [hx])) hin hap
    | true =>
      have hs : spans (e :: es) = (lo e, hi e) :: spans es := by simp only [spans, List.filter_cons, h]; rfl
      rw [hs] at hin hap ⊢
      have hap2 : ∀ s ∈ S, Apart s (lo e, hi e) := fun s hs => (List.pairwise_append.1 hap).2.2 s hs _ (by simp)
      obtain ⟨m1, e1, M1⟩ := M.add hnb hn (by omega) hfe h (hin (lo e, hi e) (by simp)) hap2
      rw [addZones, e1, Res.ok_bind]
      obtain ⟨m2, e2, M2⟩ := ih M1 (by simp; omega) (fun x hx => hf x (by simp [hx])) (fun s hs => hin s (by simp [hs])) (by simpa using hap)
      exact ⟨m2, e2, by simpa using M2⟩

theorem addZones_ub {n b : Nat} (hnb : n ≤ 64 * b) (hn : n < 2 ^ 43) : ∀ (es : List Entry) {m : Mm}, m.pages.n = n → m.bits.n = b → (∀ e ∈ es, Fits e) →
    (∃ s ∈ spans es, n < s.2) → addZones es m = .ub := by
  intro es
  induction es with
  | nil => rintro m _ _ _ ⟨s, hs, _⟩; cases hs
  | cons e es ih =>
    rintro m h1 h2 hf ⟨s, hs, hbig⟩
    have hfe := hf e (by simp)
    cases h : (e.type == 1 && decide (lo e < hi e)) with
    | false =>
      have hs' : spans (e :: es) = spans es := by simp only [spans, List.filter_cons, h]; rfl
      rw [hs'] at hs
      rw [addZones, skip_zone hfe h, Res.ok_bind]
      exact ih h1 h2 (fun x hx => hf x (by simp [hx])) ⟨s, hs, hbig⟩
    | true =>
      have hs' : spans (e :: es) = (lo e, hi e) :: spans es := by simp only [spans, List.filter_cons, h]; rfl
      rw [hs'] at hs
      have hlt : lo e < hi e := by simp at h; exact h.2
      rw [addZones, make_zone hfe h]
      by_cases hz : m.zonesSize < m.zones.n
      · rw [Arr.set_ok hz, Res.ok_bind]
        by_cases hin : hi e ≤ n
        · obtain ⟨m', e', a1, a2, _⟩ := addPages_ok (z := m.zonesSize) (zoneStart_toNat hfe) (hi e - lo e) 0 { m with zones := m.zones.put m.zonesSize (newZone (lo e) (hi e)), zonesSize := m.zonesSize + 1 }
            (by show m.pages.n ≤ 64 * m.bits.n; rw [h1, h2]; exact hnb) (by show m.pages.n < _; rw [h1]; exact hn) (by show _ ≤ m.pages.n; rw [h1]; omega)
          rw [e', Res.ok_bind]
          rcases List.mem_cons.1 hs with rfl | hs
          · exact absurd hbig (by simp; omega)
          · exact ih (a1.trans h1) (a2.trans h2) (fun x hx => hf x (by simp [hx])) ⟨s, hs, hbig⟩
        · rw [addPages_ub (zoneStart_toNat hfe) _ _ _ (by show m.pages.n ≤ 64 * m.bits.n; rw [h1, h2]; exact hnb) (by show m.pages.n < _; rw [h1]; exact hn) (by omega) (by show m.pages.n < _; rw [h1]; omega)]
          rfl
      · rw [Arr.set_ub hz]; rfl

theorem tableSize_lt (es : List Entry) : tableSize es < 2 ^ 43 := by
  have := (totalMem es).isLt
  simp only [tableSize, frame, BitVec.toNat_ushiftRight, Nat.shiftRight_eq_div_pow]
  omega

theorem entries_length (es : List Entry) : (entries es).length ≤ 32 := by
  refine Nat.le_trans (List.takeWhile_prefix _).length_le ?_
  simp; omega

theorem tables_mapped (es : List Entry) (junk : Nat → BitVec 64) : Mapped (tableSize es) ((tableSize es + 63) / 64) [] (tables es junk) := by
  refine ⟨rfl, rfl, rfl, rfl, ⟨rfl, rfl, rfl⟩, ?_, fun _ _ => rfl, ?_, fun _ _ => rfl, ?_⟩
  · intro z s h; simp at h
  · intro z s i h; simp at h
  · intro i h
    have h2 : i / 64 < (tableSize es + 63) / 64 := by omega
    simp only [bit, tables, if_pos h2]
    rw [BitVec.getLsbD_allOnes]
    simp; omega

/-- All zones and pages are unused. -/
structure Fresh (m : Mm) : Prop where
  small : m.pages.n < 2 ^ 43
  cover : m.pages.n ≤ 64 * m.bits.n
  page : ∀ i p, i < m.pages.n → m.pages.at_ i = some p → p.addr.toNat = i * 2097152 ∧ p.zone < m.zones.n ∧ p.attr = 0#64 ∧ p.refs = 0#64
  zone : ∀ z, z < m.zones.n → (m.zones.at_ z).used = 0#64 ∧ (m.zones.at_ z).free = (m.zones.at_ z).pages ∧ (m.zones.at_ z).link = 0#64

theorem tot_zero {n : Nat} {f : Nat → Nat} (h : ∀ i, i < n → f i = 0) : tot n f = 0 := by
  induction n with
  | zero => rfl
  | succ n ih => rw [tot_succ, ih fun i hi => h i (by omega), h n (by omega)]

theorem Fresh.inv {m : Mm} (F : Fresh m) (c : Flags) : Inv c 0 m := by
  refine ⟨F.small, F.cover, fun i p hi hp => ?_, fun z hz => ?_⟩
  · obtain ⟨h1, h2, h3, h4⟩ := F.page i p hi hp
    exact ⟨h1, h2, by simp [h3, h4], fun h => absurd h3 h, fun h => absurd h3 h, by simp [h4]⟩
  · obtain ⟨h1, h2, h3⟩ := F.zone z hz
    refine ⟨?_, by rw [h1, h2]; simp, ?_⟩
    · rw [h1, tot_zero]; rfl
      intro i hi
      cases hp : m.pages.at_ i with
      | none => rfl
      | some p => simp [inUse, (F.page i p hi hp).2.2.1]
    · rw [h3, tot_zero]
      intro i hi
      cases hp : m.pages.at_ i with
      | none => rfl
      | some p => simp [refsIn, (F.page i p hi hp).2.2.2]

theorem Mapped.fresh {n b : Nat} {S : List (Nat × Nat)} {m : Mm} (M : Mapped n b S m) (hnb : n ≤ 64 * b) (hn : n < 2 ^ 43) (hS : S.length ≤ 32) : Fresh m := by
  refine ⟨by rw [M.np]; exact hn, by rw [M.np, M.nb]; exact hnb, fun i p hi hp => ?_, fun z hz => ?_⟩
  · rw [M.np] at hi
    by_cases h : ∃ s ∈ S, s.1 ≤ i ∧ i < s.2
    · obtain ⟨s, hs, h1, h2⟩ := h
      obtain ⟨z, hz⟩ := List.getElem?_of_mem hs
      have hzl : z < S.length := (List.getElem?_eq_some_iff.1 hz).1
      rw [M.page z s i hz h1 h2] at hp
      cases hp
      refine ⟨?_, by rw [M.nz]; show z < 32; omega, rfl, rfl⟩
      show (BitVec.ofNat 64 (i * 2097152)).toNat = _
      rw [BitVec.toNat_ofNat]; omega
    · rw [M.hole i fun s hs h1 => h ⟨s, hs, h1⟩] at hp; cases hp
  · by_cases h : z < S.length
    · rw [M.zone z S[z] (List.getElem?_eq_getElem h)]; exact ⟨rfl, rfl, rfl⟩
    · rw [M.none z (by omega)]; exact ⟨rfl, rfl, rfl⟩

theorem Fresh.addPages {z g : Nat} {start : BitVec 64} (hs : start.toNat = g * 2097152) : ∀ (n j : Nat) {m m' : Mm}, Fresh m → z < m.zones.n → Phys.addPages z g start n j m = .ok m' → Fresh m' := by
  intro n
  induction n with
  | zero => intro j m m' F _ e; cases e; exact F
  | succ n ih =>
    intro j m m' F hz e
    rw [Phys.addPages] at e
    have := F.small
    by_cases hlt : g + j < m.pages.n
    · have ha : (start + BitVec.ofNat 64 (2097152 * j)).toNat = (g + j) * 2097152 := by
        rw [BitVec.toNat_add, hs, BitVec.toNat_ofNat]; omega
      rw [setPage_ok hlt, Res.ok_bind, frame_addr ha, modBit_ok (by have := F.cover; simp; omega), Res.ok_bind] at e
      refine ih (j + 1) (m := putBit { m with pages := m.pages.put (g + j) (some ⟨z, start + BitVec.ofNat 64 (2097152 * j), 0, 0⟩) } (g + j) fun w b => w ^^^ b) ⟨F.small, F.cover, fun i p hi hp => ?_, F.zone⟩ hz e
      by_cases hij : i = g + j
      · subst hij
        simp only [putBit, Arr.put_same] at hp
        cases hp
        exact ⟨ha, hz, rfl, rfl⟩
      · simp only [putBit, Arr.put_ne _ _ hij] at hp
        exact F.page i p hi hp
    · rw [setPage, Arr.set_ub hlt] at e; cases e

theorem Fresh.addZones : ∀ (es : List Entry) {m m' : Mm}, Fresh m → Phys.addZones es m = .ok m' → Fresh m' := by
  intro es
  induction es with
  | nil => intro m m' F e; cases e; exact F
  | cons x es ih =>
    intro m m' F e
    rw [Phys.addZones] at e
    obtain ⟨m1, e1, e2⟩ := Res.bind_eq_ok.1 e
    refine ih ?_ e2
    rw [addZone] at e1
    split at e1
    · cases e1; exact F
    · split at e1
      · cases e1; exact F
      · obtain ⟨zs, ez, ep⟩ := Res.bind_eq_ok.1 e1
        by_cases hz : m.zonesSize < m.zones.n
        · rw [Arr.set_ok hz] at ez
          cases ez
          have hst : (zoneStart x).toNat = frame (zoneStart x) * 2097152 := by
            have h1 := (x.address + 2097151#64).isLt
            rw [frame, BitVec.toNat_ushiftRight, Nat.shiftRight_eq_div_pow, zoneStart, mask21, shr_shl]; omega
          refine Fresh.addPages (m := { m with zones := m.zones.put m.zonesSize _, zonesSize := m.zonesSize + 1 }) hst _ _ ⟨F.small, F.cover, F.page, fun z hzz => ?_⟩ hz ep
          by_cases hzs : z = m.zonesSize
          · subst hzs; simp only [Arr.put_same]; exact ⟨rfl, trivial, rfl⟩
          · simp only [Arr.put_ne _ _ hzs]; exact F.zone z hzz
        · rw [Arr.set_ub hz] at ez; cases ez

theorem Inv.claim {c : Flags} {flags : BitVec 64} (hf : flags ≠ 0#64) : ∀ (k j : Nat) {n : Nat} {m m' : Mm}, Inv c n m → n + k < 2 ^ 64 → Phys.claim c flags k j m = .ok m' → Inv c (n + k) m' := by
  intro k
  induction k with
  | zero => intro j n m m' I _ e; cases e; exact I
  | succ k ih =>
    intro j n m m' I hn e
    obtain ⟨m1, e1, e2⟩ := Res.bind_eq_ok.1 e
    have := ih (j + 1) (I.init (by omega) hf e1) (by omega) e2
    rwa [show n + 1 + k = n + (k + 1) by omega] at this

theorem Inv.take {c : Flags} {flags : BitVec 64} (hf : flags ≠ 0#64) {page : Nat} : ∀ (k j : Nat) {n : Nat} {m m' : Mm}, Inv c n m → n + k < 2 ^ 64 → Phys.take c flags page k j m = .ok m' → Inv c (n + k) m' := by
  intro k
  induction k with
  | zero => intro j n m m' I _ e; cases e; exact I
  | succ k ih =>
    intro j n m m' I hn e
    obtain ⟨m1, e1, e2⟩ := Res.bind_eq_ok.1 e
    have := ih (j + 1) (I.init (by omega) hf e1) (by omega) e2
    rwa [show n + 1 + k = n + (k + 1) by omega] at this

/-- The state in which `init_memory` begins to claim pages for the kernel. -/
theorem initMemory_fresh {c : Flags} {kflags : BitVec 64} {last : Nat} {junk : Nat → BitVec 64} {es : List Entry} {m : Mm} (e : initMemory c kflags last junk es = .ok m) :
    ∃ m1 m2, addZones (entries es) (tables es junk) = .ok m1 ∧ 0 < m1.pages.n ∧ m2.pages = m1.pages.put 0 (some ⟨0, 0, 0, 0⟩) ∧ m2.bits = m1.bits ∧ Fresh m2 ∧
      claim c kflags (last + 1) 0 m2 = .ok m := by
  obtain ⟨m1, e1, e2⟩ := Res.bind_eq_ok.1 e
  obtain ⟨m2, e3, e4⟩ := Res.bind_eq_ok.1 e2
  have F0 : Fresh (tables es junk) := (tables_mapped es junk).fresh (by omega) (tableSize_lt es) (by simp)
  have F1 := F0.addZones _ e1
  have hz : m1.zones.n = 32 := by
    have : ∀ (es : List Entry) {m m' : Mm}, addZones es m = .ok m' → m'.zones.n = m.zones.n := by
      intro es
      induction es with
      | nil => intro m m' e; cases e; rfl
      | cons x es ih =>
        intro m m' e
        obtain ⟨ma, ea, eb⟩ := Res.bind_eq_ok.1 e
        rw [ih eb]
        rw [addZone] at ea
        split at ea
        · cases ea; rfl
        · split at ea
          · cases ea; rfl
          · obtain ⟨zs, ez, ep⟩ := Res.bind_eq_ok.1 ea
            have h1 : zs.n = m.zones.n := by
              rw [Arr.set] at ez
              split at ez
              · cases ez; rfl
              · cases ez
            have h2 : ∀ (k j : Nat) {z g : Nat} {start : BitVec 64} {m m' : Mm}, addPages z g start k j m = .ok m' → m'.zones = m.zones := by
              intro k
              induction k with
              | zero => intro j z g start m m' e; cases e; rfl
              | succ k ih2 =>
                intro j z g start m m' e
                obtain ⟨mb, eb, ec⟩ := Res.bind_eq_ok.1 e
                obtain ⟨mc, ed, ee⟩ := Res.bind_eq_ok.1 ec
                rw [ih2 _ ee]
                obtain ⟨_, _, h⟩ := Res.bind_eq_ok.1 ed
                obtain ⟨_, _, h⟩ := Res.bind_eq_ok.1 h
                cases h
                obtain ⟨_, _, h⟩ := Res.bind_eq_ok.1 eb
                cases h
                rfl
            rw [h2 _ _ ep]; exact h1
    rw [this _ e1]; rfl
  by_cases h0 : 0 < m1.pages.n
  · rw [setPage_ok h0] at e3
    cases e3
    refine ⟨m1, _, e1, h0, ?_, ?_, ?_, e4⟩
    · rfl
    · rfl
    refine ⟨F1.small, F1.cover, fun i p hi hp => ?_, F1.zone⟩
    by_cases hi0 : i = 0
    · subst hi0
      simp only [Arr.put_same] at hp
      cases hp
      exact ⟨by simp, by show 0 < m1.zones.n; omega, rfl, rfl⟩
    · simp only [Arr.put_ne _ _ hi0] at hp
      exact F1.page i p hi hp
  · rw [setPage, Arr.set_ub h0] at e3; cases e3

/-- Whatever `init_memory` produces satisfies the invariant. -/
theorem initMemory_inv {c : Flags} {kflags : BitVec 64} (hk : kflags ≠ 0#64) {last : Nat} {junk : Nat → BitVec 64} {es : List Entry} {m : Mm}
    (hl : last + 1 < 2 ^ 64) (e : initMemory c kflags last junk es = .ok m) : Inv c (last + 1) m := by
  obtain ⟨m1, m2, _, _, _, _, F, e⟩ := initMemory_fresh e
  have := (F.inv c).claim hk (last + 1) 0 (by omega) e
  rwa [Nat.zero_add] at this

end Verif.Phys
