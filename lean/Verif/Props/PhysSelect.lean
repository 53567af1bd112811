import Verif.Props.PhysZone

/-!
Property C122: `alloc_pages` takes the pages from the kind of memory asked for. The kinds are said in
kernel/src/core/physical_allocator.cpp:267-270: mapped in the page table or not, the border being 4 GiB
(line 237).
-/

namespace Verif.Phys
open Verif
open Verif.E820 (Entry)

/-- What no call changes after the zones are set up: their number, their borders, the indices. -/
structure Fixed (m m' : Mm) : Prop where
  n : m'.zones.n = m.zones.n
  size : m'.zonesSize = m.zonesSize
  dma : m'.dma = m.dma
  normal : m'.normal = m.normal
  unmapped : m'.unmapped = m.unmapped
  zone : ∀ z, (m'.zones.at_ z).start = (m.zones.at_ z).start ∧ (m'.zones.at_ z).stop = (m.zones.at_ z).stop

theorem Fixed.refl (m : Mm) : Fixed m m := ⟨rfl, rfl, rfl, rfl, rfl, fun _ => ⟨rfl, rfl⟩⟩

theorem Fixed.trans {a b c : Mm} (h : Fixed a b) (g : Fixed b c) : Fixed a c :=
  ⟨g.n.trans h.n, g.size.trans h.size, g.dma.trans h.dma, g.normal.trans h.normal, g.unmapped.trans h.unmapped,
    fun z => ⟨(g.zone z).1.trans (h.zone z).1, (g.zone z).2.trans (h.zone z).2⟩⟩

theorem setPage_fixed {m m' : Mm} {i : Nat} {p : Page} (e : setPage m i p = .ok m') : Fixed m m' := by
  obtain ⟨_, h, e⟩ := Res.bind_eq_ok.1 e
  cases e
  exact ⟨rfl, rfl, rfl, rfl, rfl, fun _ => ⟨rfl, rfl⟩⟩

theorem modBit_fixed {m m' : Mm} {n : Nat} {f : BitVec 64 → BitVec 64 → BitVec 64} (e : modBit m n f = .ok m') : Fixed m m' := by
  obtain ⟨_, _, e⟩ := Res.bind_eq_ok.1 e
  obtain ⟨_, h, e⟩ := Res.bind_eq_ok.1 e
  cases e
  exact ⟨rfl, rfl, rfl, rfl, rfl, fun _ => ⟨rfl, rfl⟩⟩

theorem modZone_fixed {m m' : Mm} {z : Nat} {f : Zone → Zone} (e : modZone m z f = .ok m') (hf : ∀ x, (f x).start = x.start ∧ (f x).stop = x.stop) : Fixed m m' := by
  by_cases hz : z < m.zones.n
  · rw [modZone_ok hz] at e
    cases e
    refine ⟨rfl, rfl, rfl, rfl, rfl, fun y => ?_⟩
    by_cases h : y = z
    · subst h; simp only [Arr.put_same]; exact hf _
    · simp only [Arr.put_ne _ _ h]; exact ⟨trivial, trivial⟩
  · rw [modZone, Arr.get, if_neg hz] at e; cases e

theorem pageInit_fixed {c : Flags} {m m' : Mm} {i : Nat} {flags : BitVec 64} (e : pageInit c m i flags = .ok m') : Fixed m m' := by
  obtain ⟨p, _, e⟩ := Res.bind_eq_ok.1 e
  split at e
  · obtain ⟨_, h1, e⟩ := Res.bind_eq_ok.1 e
    obtain ⟨_, h2, e⟩ := Res.bind_eq_ok.1 e
    exact ((modBit_fixed h1).trans (setPage_fixed h2)).trans (modZone_fixed e fun _ => ⟨rfl, rfl⟩)
  · split at e
    · obtain ⟨_, h1, e⟩ := Res.bind_eq_ok.1 e
      exact (setPage_fixed h1).trans (modZone_fixed e fun _ => ⟨rfl, rfl⟩)
    · obtain ⟨_, h1, e⟩ := Res.bind_eq_ok.1 e
      exact (modBit_fixed h1).trans (setPage_fixed e)

theorem pageClean_fixed {c : Flags} {m m' : Mm} {i : Nat} (e : pageClean c m i = .ok m') : Fixed m m' := by
  obtain ⟨p, _, e⟩ := Res.bind_eq_ok.1 e
  split at e
  · exact setPage_fixed e
  · split at e
    · obtain ⟨_, h1, e⟩ := Res.bind_eq_ok.1 e
      obtain ⟨_, h2, e⟩ := Res.bind_eq_ok.1 e
      have F := (setPage_fixed h1).trans (modZone_fixed h2 fun _ => ⟨rfl, rfl⟩)
      split at e
      · obtain ⟨_, h3, e⟩ := Res.bind_eq_ok.1 e
        exact (F.trans (setPage_fixed h3)).trans (modZone_fixed e fun _ => ⟨rfl, rfl⟩)
      · cases e; exact F
    · obtain ⟨_, h1, e⟩ := Res.bind_eq_ok.1 e
      obtain ⟨_, h2, e⟩ := Res.bind_eq_ok.1 e
      exact ((modBit_fixed h1).trans (setPage_fixed h2)).trans (modZone_fixed e fun _ => ⟨rfl, rfl⟩)

theorem claim_fixed {c : Flags} {flags : BitVec 64} : ∀ (n j : Nat) {m m' : Mm}, claim c flags n j m = .ok m' → Fixed m m'
  | 0, _, _, _, e => by cases e; exact .refl _
  | n + 1, j, _, _, e => by
    obtain ⟨_, h, e⟩ := Res.bind_eq_ok.1 e
    exact (pageInit_fixed h).trans (claim_fixed n (j + 1) e)

theorem take_fixed {c : Flags} {flags : BitVec 64} {page : Nat} : ∀ (n l : Nat) {m m' : Mm}, take c flags page n l m = .ok m' → Fixed m m'
  | 0, _, _, _, e => by cases e; exact .refl _
  | n + 1, l, _, _, e => by
    obtain ⟨_, h, e⟩ := Res.bind_eq_ok.1 e
    exact (pageInit_fixed h).trans (take_fixed n (l + 1) e)

theorem addPages_fixed {z g : Nat} {start : BitVec 64} : ∀ (n j : Nat) {m m' : Mm}, addPages z g start n j m = .ok m' → Fixed m m'
  | 0, _, _, _, e => by cases e; exact .refl _
  | n + 1, j, _, _, e => by
    obtain ⟨_, h1, e⟩ := Res.bind_eq_ok.1 e
    obtain ⟨_, h2, e⟩ := Res.bind_eq_ok.1 e
    exact ((setPage_fixed h1).trans (modBit_fixed h2)).trans (addPages_fixed n (j + 1) e)

/-- The zones while they are set up. -/
structure Setup (m : Mm) : Prop where
  idx : m.dma = 0 ∧ m.normal = 0 ∧ m.unmapped = 0
  size : m.zonesSize ≤ m.zones.n
  le : ∀ z, z < m.zonesSize → (m.zones.at_ z).start < (m.zones.at_ z).stop

theorem Setup.zones : ∀ (es : List Entry) {m m' : Mm}, Setup m → addZones es m = .ok m' → Setup m'
  | [], _, _, S, e => by cases e; exact S
  | x :: es, m, m', S, e => by
    obtain ⟨m1, e1, e2⟩ := Res.bind_eq_ok.1 e
    refine Setup.zones es ?_ e2
    rw [addZone] at e1
    split at e1
    · cases e1; exact S
    · split at e1
      · cases e1; exact S
      · rename_i hlt
        obtain ⟨zs, ez, ep⟩ := Res.bind_eq_ok.1 e1
        have F := addPages_fixed _ _ ep
        have hz : m.zonesSize < m.zones.n := by
          rw [Arr.set] at ez
          split at ez
          · assumption
          · cases ez
        rw [Arr.set_ok hz] at ez
        cases ez
        have h1 := F.size
        have h2 := F.n
        have h3 : m1.zones.n = m.zones.n := h2
        have h4 : m1.zonesSize = m.zonesSize + 1 := h1
        refine ⟨⟨by rw [F.dma]; exact S.idx.1, by rw [F.normal]; exact S.idx.2.1, by rw [F.unmapped]; exact S.idx.2.2⟩, by omega, fun z hz' => ?_⟩
        rw [(F.zone z).1, (F.zone z).2]
        by_cases he : z = m.zonesSize
        · subst he
          simp only [Arr.put_same]
          exact BitVec.not_le.1 hlt
        · simp only [Arr.put_ne _ _ he]
          exact S.le z (by omega)

/-- The zones in use. -/
structure Ready (m : Mm) : Prop where
  dma : m.dma = 0
  normal : m.normal = 0
  size : m.zonesSize ≤ m.zones.n
  le : ∀ z, z < m.zonesSize → (m.zones.at_ z).start < (m.zones.at_ z).stop
  last : (∃ i, i < m.zonesSize ∧ (m.zones.at_ i).start = 0x100000000#64) →
    m.unmapped < m.zonesSize ∧ (m.zones.at_ m.unmapped).start = 0x100000000#64 ∧ ∀ i, m.unmapped < i → i < m.zonesSize → (m.zones.at_ i).start ≠ 0x100000000#64
  none : (∀ i, i < m.zonesSize → (m.zones.at_ i).start ≠ 0x100000000#64) → m.unmapped = 0

theorem Ready.fixed {m m' : Mm} (R : Ready m) (F : Fixed m m') : Ready m' := by
  obtain ⟨f1, f2, f3, f4, f5, f6⟩ := F
  refine ⟨f3.trans R.dma, f4.trans R.normal, by rw [f1, f2]; exact R.size, fun z hz => ?_, ?_, ?_⟩
  · rw [(f6 z).1, (f6 z).2]; exact R.le z (by rw [← f2]; exact hz)
  · simp only [f2, f5, fun z => (f6 z).1]; exact R.last
  · simp only [f2, f5, fun z => (f6 z).1]; exact R.none

theorem last_index (P : Nat → Prop) [DecidablePred P] (u : Nat) : ∀ n,
    ((∃ i, i < n ∧ P i) → (List.range n).foldl (fun x i => if P i then i else x) u < n ∧ P ((List.range n).foldl (fun x i => if P i then i else x) u) ∧
      ∀ i, (List.range n).foldl (fun x i => if P i then i else x) u < i → i < n → ¬ P i) ∧
    ((∀ i, i < n → ¬ P i) → (List.range n).foldl (fun x i => if P i then i else x) u = u) := by
  intro n
  induction n with
  | zero => exact ⟨fun ⟨i, h, _⟩ => by omega, fun _ => rfl⟩
  | succ n ih =>
    rw [List.range_succ, List.foldl_append]
    simp only [List.foldl_cons, List.foldl_nil]
    by_cases hp : P n
    · rw [if_pos hp]
      exact ⟨fun _ => ⟨by omega, hp, fun i h1 h2 => by omega⟩, fun h => absurd hp (h n (by omega))⟩
    · rw [if_neg hp]
      refine ⟨fun ⟨i, h1, h2⟩ => ?_, fun h => ih.2 fun i hi => h i (by omega)⟩
      have hi : i ≠ n := fun h => hp (h ▸ h2)
      obtain ⟨a1, a2, a3⟩ := ih.1 ⟨i, by omega, h2⟩
      refine ⟨by omega, a2, fun j h3 h4 => ?_⟩
      by_cases hj : j = n
      · rw [hj]; exact hp
      · exact a3 j h3 (by omega)

theorem Hist.ready {c : Flags} {plain : Bool} {n : Nat} {m : Mm} (h : Hist c plain n m) : Ready m := by
  induction h with
  | boot _ _ e =>
    obtain ⟨m1, e1, e⟩ := Res.bind_eq_ok.1 e
    obtain ⟨m2, e2, e⟩ := Res.bind_eq_ok.1 e
    have S := Setup.zones _ ⟨⟨rfl, rfl, rfl⟩, Nat.zero_le _, fun z hz => absurd hz (Nat.not_lt_zero z)⟩ e1
    have F := setPage_fixed e2
    have L := last_index (fun i => (m2.zones.at_ i).start = 0x100000000#64) m2.unmapped m2.zonesSize
    refine Ready.fixed (m := { m2 with unmapped := unmappedIndex m2 }) ⟨F.dma.trans S.idx.1, F.normal.trans S.idx.2.1, ?_, ?_, L.1, fun hn => ?_⟩ (claim_fixed _ _ e)
    · show m2.zonesSize ≤ m2.zones.n
      rw [F.size, F.n]; exact S.size
    · intro z hz
      show (m2.zones.at_ z).start < (m2.zones.at_ z).stop
      rw [(F.zone z).1, (F.zone z).2]
      exact S.le z (by rw [← F.size]; exact hz)
    · exact (L.2 hn).trans (F.unmapped.trans S.idx.2.2)
  | init _ _ _ e ih => exact ih.fixed (pageInit_fixed e)
  | clean _ e ih => exact ih.fixed (pageClean_fixed e)
  | alloc _ _ _ e ih =>
    obtain ⟨_, ⟨_, rfl⟩ | ⟨p, _, e3⟩⟩ := alloc_take e
    · exact ih
    · exact ih.fixed (take_fixed _ _ e3)

/-- Page frames below 4 GiB. -/
def low : Nat := 0x100000000 / 2097152

theorem range_dma {m : Mm} (R : Ready m) : range m .dma = (0, 1) := by simp only [range, R.dma]
theorem range_normal {m : Mm} (R : Ready m) : range m .normal = (0, 1) := by simp only [range, R.dma, R.normal]

/-- C122, mapped memory: in every history, requests for DMA memory and for mapped memory are served alike,
and from the first zone only: if it has too few free pages, the answer is null, and then nothing changes. -/
theorem C122_first_zone {c : Flags} {plain : Bool} {n : Nat} {m : Mm} (h : Hist c plain n m) (number : Nat) (flags : BitVec 64) :
    allocPages c m .dma number flags = allocPages c m .normal number flags ∧
    (0 < m.zones.n → (m.zones.at_ 0).free.toNat < number → allocPages c m .normal number flags = .ok (m, none)) := by
  have R := h.ready
  refine ⟨by rw [allocPages, allocPages, range_dma R, range_normal R], fun hn hf => ?_⟩
  rw [allocPages, range_normal R, search, Arr.get_ok hn, Res.ok_bind, if_pos hf]
  rfl

/-- The machine with 32 MB after boot: of 14 pages of the zone two are taken, and page 0 is counted there, so twelve more
cannot be had. -/
example : ∃ m, Hist flagsEx true 3 m ∧ 0 < m.zones.n ∧ (m.zones.at_ 0).free.toNat < 12 ∧ 11 ≤ (m.zones.at_ 0).free.toNat := by
  obtain ⟨m, e⟩ : ∃ m, initMemory flagsEx 0x93#64 2 (fun _ => 0) pc32 = .ok m := ⟨_, rfl⟩
  refine ⟨m, .boot (by decide) (fun _ => ⟨by decide, by decide⟩) e, ?_⟩
  cases e
  decide

/-- A PC with RAM in two pieces: pages 1 to 7 and 8 to 14. -/
def pc2 : List Entry := [⟨0, 654336, 1⟩, ⟨1048576, 15728640, 1⟩, ⟨16777216, 15728640, 1⟩]

/-- C122 is violated for mapped memory: there is a machine on which, after booting, a request for six pages
of mapped memory fails, although there are six free pages in a row below 4 GiB, all in one zone. -/
theorem C122_other_zones_violated :
    ∃ m, Hist flagsEx true 3 m ∧ 1 < m.zonesSize ∧ 6 ≤ (m.zones.at_ 1).free.toNat ∧ RunIn m 1 8 6 ∧ 8 + 6 ≤ low ∧
      ∀ flags, allocPages flagsEx m .normal 6 flags = .ok (m, none) := by
  obtain ⟨m, e⟩ : ∃ m, initMemory flagsEx 0x93#64 2 (fun _ => 0) pc2 = .ok m := ⟨_, rfl⟩
  have H : Hist flagsEx true 3 m := .boot (by decide) (fun _ => ⟨by decide, by decide⟩) e
  refine ⟨m, H, ?_, ?_, ?_, by decide, fun flags => (C122_first_zone H 6 flags).2 ?_ ?_⟩
  · cases e; decide
  · cases e; decide
  · cases e; refine ⟨by decide, by decide, ?_⟩; unfold FreeRun; decide
  · cases e; decide
  · cases e; decide

/-- C122, mapped memory, what holds: if the first zone starts one page behind a multiple of 64, ends in the
same block of 64 pages below 4 GiB and is not followed by other pages there, the request returns in every
history; pages returned are free ones of the first zone, below 4 GiB, and null means that it has none. Missing:
other zones. -/
theorem C122_mapped_partial {c : Flags} {plain : Bool} {n : Nat} {m : Mm} (h : Hist c plain n m) {number : Nat} (hn : n + number < 2 ^ 64) (h64 : number ≤ 64)
    {flags : BitVec 64} (hf : flags ≠ 0#64) (hP : Plain m 0) (hlow : frame (m.zones.at_ 0).stop ≤ low) :
    ∃ m' r, allocPages c m .normal number flags = .ok (m', r) ∧
      (∀ p, r = some p → RunIn m 0 p number ∧ p + number ≤ low) ∧
      (r = none → (m.zones.at_ 0).free.toNat < number ∨ ∀ p, ¬ RunIn m 0 p number) := by
  have hr := range_normal h.ready
  obtain ⟨m', r, e, a1, a2⟩ := C62_first_fit_partial h .normal hn h64 hf (fun z h1 h2 => by
    rw [hr] at h1 h2; rw [show z = 0 by simp at h2; omega]; exact hP)
  rw [hr] at a1 a2
  refine ⟨m', r, e, fun p hp => ?_, fun hr => a2 hr 0 (by omega) (by simp)⟩
  obtain ⟨z, _, b2, _, b4, _⟩ := a1 p hp
  obtain rfl : z = 0 := by simp at b2; omega
  exact ⟨b4, by have := b4.2.1; omega⟩

/-! Memory that is not mapped. -/

theorem scan_ge {m : Mm} {w number : Nat} : ∀ (n k : Nat) {r : Nat}, scan m w number n k = .ok (some r) → 1 ≤ r := by
  intro n
  induction n with
  | zero => intro k r e; cases e
  | succ n ih =>
    intro k r e
    rw [scan] at e
    split at e
    · cases e
    · obtain ⟨b, _, e⟩ := Res.bind_eq_ok.1 e
      split at e
      · injection e with e; injection e with e; omega
      · exact ih _ e

theorem words_ge {m : Mm} {start stop number : Nat} : ∀ (f j : Nat) {p : Nat}, words m start stop number f j = .ok (some p) → j ≤ p := by
  intro f
  induction f with
  | zero => intro j p e; cases e
  | succ f ih =>
    intro j p e
    rw [words] at e
    split at e
    · obtain ⟨k, ek, e⟩ := Res.bind_eq_ok.1 e
      cases k with
      | some k =>
        have := scan_ge _ _ ek
        injection e with e; injection e with e; omega
      | none => have := ih _ e; omega
    · cases e

theorem search_ge {m : Mm} {number : Nat} : ∀ (k z : Nat) {p : Nat}, search m number k z = .ok (some p) →
    ∃ i, z ≤ i ∧ i < z + k ∧ number ≤ (m.zones.at_ i).free.toNat ∧ frame (m.zones.at_ i).start ≤ p := by
  intro k
  induction k with
  | zero => intro z p e; cases e
  | succ k ih =>
    intro z p e
    have next : search m number k (z + 1) = .ok (some p) → ∃ i, z ≤ i ∧ i < z + (k + 1) ∧ number ≤ (m.zones.at_ i).free.toNat ∧ frame (m.zones.at_ i).start ≤ p := by
      intro e
      obtain ⟨i, h1, h2, h3⟩ := ih _ e
      exact ⟨i, by omega, by omega, h3⟩
    rw [search] at e
    obtain ⟨x, ex, e⟩ := Res.bind_eq_ok.1 e
    have hx : x = m.zones.at_ z := by
      rw [Arr.get] at ex
      split at ex
      · cases ex; rfl
      · cases ex
    subst hx
    split at e
    · exact next e
    · obtain ⟨w, ew, e⟩ := Res.bind_eq_ok.1 e
      cases w with
      | none => exact next e
      | some q =>
        simp only at e
        injection e with e
        injection e with e
        subst e
        exact ⟨z, by omega, by omega, by omega, words_ge _ _ ew⟩

/-- C122, memory that is not mapped, what holds: if some zone starts at exactly 4 GiB, and all behind it start
above, the pages returned for such a request lie at or above 4 GiB, and were taken for a zone there that has
enough of them. Missing: memory maps without such a zone; that the call is defined. -/
theorem C122_unmapped_partial {c : Flags} {plain : Bool} {n : Nat} {m m' : Mm} (h : Hist c plain n m) {number p : Nat} {flags : BitVec 64}
    {z : Nat} (hz : z < m.zonesSize) (hst : (m.zones.at_ z).start = 0x100000000#64)
    (hup : ∀ i, z < i → i < m.zonesSize → 0x100000000#64 < (m.zones.at_ i).start)
    (e : allocPages c m .unmapped number flags = .ok (m', some p)) :
    low ≤ p ∧ ∃ i, z ≤ i ∧ i < m.zonesSize ∧ number ≤ (m.zones.at_ i).free.toNat := by
  have R := h.ready
  obtain ⟨u1, u2, u3⟩ := R.last ⟨z, hz, hst⟩
  have hu : m.unmapped = z := by
    rcases Nat.lt_trichotomy m.unmapped z with hlt | he | hgt
    · exact absurd hst (u3 z hlt hz)
    · exact he
    · have := hup _ hgt u1
      rw [u2] at this
      exact absurd this (BitVec.lt_irrefl _)
  obtain ⟨e1, _⟩ := alloc_take e
  simp only [range, hu] at e1
  obtain ⟨i, a1, a2, a3, a4⟩ := search_ge _ _ e1
  refine ⟨?_, i, a1, by omega, a3⟩
  have hs : 0x100000000 ≤ (m.zones.at_ i).start.toNat := by
    by_cases hi : i = z
    · rw [hi, hst]; decide
    · have := BitVec.lt_def.1 (hup i (by omega) (by omega))
      exact Nat.le_of_lt this
  have : low ≤ frame (m.zones.at_ i).start := by
    simp only [frame, BitVec.toNat_ushiftRight, Nat.shiftRight_eq_div_pow, low]
    omega
  omega

/-- RAM without holes up to 4 GiB, then one page, then four. -/
def pc4g1 : List Entry := [⟨0, 0x100000000, 1⟩, ⟨0x100000000, 0x200000, 1⟩, ⟨0x100200000, 0x800000, 1⟩]

example : (do
    let m ← initMemory flagsEx 0x93#64 2 (fun _ => 0) pc4g1
    let (_, p) ← allocPages flagsEx m .unmapped 2 0x90#64
    .ok (p, m.zonesSize, (m.zones.at_ 1).start, (m.zones.at_ 1).free, decide (0x100000000#64 < (m.zones.at_ 2).start))) =
    (.ok (some 2049, 3, 0x100000000, 1, true) : Res (Option Nat × Nat × BitVec 64 × BitVec 64 × Bool)) := by decide +kernel

/-- C122 is violated for memory that is not mapped: if no zone starts at exactly 4 GiB, such a request is
served from the first zone on, which is mapped. -/
theorem C122_unmapped_low_violated {c : Flags} {plain : Bool} {n : Nat} {m : Mm} (h : Hist c plain n m) {number p : Nat} (hn : n + number < 2 ^ 64) (h64 : number ≤ 64)
    {flags : BitVec 64} (hf : flags ≠ 0#64) (hno : ∀ i, i < m.zonesSize → (m.zones.at_ i).start ≠ 0x100000000#64) (h0 : 0 < m.zonesSize)
    (hP : Plain m 0) (hlow : frame (m.zones.at_ 0).stop ≤ low) (hfree : number ≤ (m.zones.at_ 0).free.toNat) (hrun : RunIn m 0 p number) :
    ∃ m' q, allocPages c m .unmapped number flags = .ok (m', some q) ∧ q + number ≤ low := by
  have I := h.inv (by omega)
  have K := h.known (by omega)
  obtain ⟨r, e, a1, a2⟩ := search_plain K I.cover h64 1 0 (fun i h1 h2 => by rw [show i = 0 by omega]; exact hP)
  cases r with
  | none =>
    rcases a2 rfl 0 (by omega) (by omega) with h1 | h1
    · omega
    · exact absurd hrun (h1 p)
  | some q =>
    obtain ⟨z, b1, b2, b3, b4, _⟩ := a1 q rfl
    obtain rfl : z = 0 := by omega
    obtain ⟨c1, c2, c3⟩ := b4
    have p2 := hP.inside
    have p4 := hP.block
    have hc := I.cover
    obtain ⟨m', e'⟩ := take_ok (c := c) (page := q) hf number 0 I hn fun l _ hl => K (q + l) (by omega) (c3 l (by omega))
    refine ⟨m', q, ?_, by omega⟩
    obtain ⟨k, hk⟩ : ∃ k, m.zonesSize - 0 = k + 1 := ⟨m.zonesSize - 1, by omega⟩
    have e2 : search m number (k + 1) 0 = .ok (some q) := by
      have hz := hP.idx
      rw [search, Arr.get_ok hz, Res.ok_bind, if_neg (by omega)] at e ⊢
      cases ew : words m (frame (m.zones.at_ 0).start) (frame (m.zones.at_ 0).stop) number (frame (m.zones.at_ 0).stop + 2) (frame (m.zones.at_ 0).start) with
      | oof => rw [ew] at e; cases e
      | ub => rw [ew] at e; cases e
      | ok w =>
        rw [ew, Res.ok_bind] at e
        cases w with
        | none => cases e
        | some x => exact e
    rw [allocPages]
    simp only [range, h.ready.none hno, hk, e2, Res.ok_bind, e']

/-- The machine with 32 MB after boot has no zone at 4 GiB; pages 3 to 5 are free (this is also an example for
`C122_mapped_partial`). -/
example : ∃ m, Hist flagsEx true 3 m ∧ Plain m 0 ∧ RunIn m 0 3 3 ∧ (∀ i, i < m.zonesSize → (m.zones.at_ i).start ≠ 0x100000000#64) ∧
    0 < m.zonesSize ∧ frame (m.zones.at_ 0).stop ≤ low ∧ 3 ≤ (m.zones.at_ 0).free.toNat := by
  obtain ⟨m, e⟩ : ∃ m, initMemory flagsEx 0x93#64 2 (fun _ => 0) pc32 = .ok m := ⟨_, rfl⟩
  refine ⟨m, .boot (by decide) (fun _ => ⟨by decide, by decide⟩) e, ?_⟩
  cases e
  refine ⟨⟨by decide, by decide, by decide, by decide, by decide, ?_⟩, ⟨by decide, by decide, ?_⟩, by decide, by decide, by decide, by decide⟩
  · intro i h1 h2
    have h3 : 15 ≤ i := h1
    have h4 : i < 64 := h2
    clear h1 h2
    revert h3
    revert i
    decide
  · unfold FreeRun
    decide

/-- C122 is violated for memory that is not mapped: if a zone starts at exactly 4 GiB (and none behind it)
and has enough free pages, the request is undefined. -/
theorem C122_unmapped_high_violated {c : Flags} {plain : Bool} {n : Nat} {m : Mm} (h : Hist c plain n m) {number z : Nat} (flags : BitVec 64)
    (hz : z < m.zonesSize) (hst : (m.zones.at_ z).start = 0x100000000#64) (hup : ∀ i, z < i → i < m.zonesSize → (m.zones.at_ i).start ≠ 0x100000000#64)
    (hfree : number ≤ (m.zones.at_ z).free.toNat) : allocPages c m .unmapped number flags = .ub := by
  have R := h.ready
  obtain ⟨u1, u2, u3⟩ := R.last ⟨z, hz, hst⟩
  have hu : m.unmapped = z := by
    rcases Nat.lt_trichotomy m.unmapped z with hlt | he | hgt
    · exact absurd hst (u3 z hlt hz)
    · exact he
    · exact absurd u2 (hup _ hgt u1)
  obtain ⟨k, hk⟩ : ∃ k, m.zonesSize - z = k + 1 := ⟨m.zonesSize - z - 1, by omega⟩
  refine C62_aligned_zone_violated c m .unmapped number flags (z := z) (k := k) ?_ (by have := R.size; omega) hfree ?_ ?_
  · simp only [range, hu, hk]
  · rw [hst]; decide
  · have := BitVec.lt_def.1 (R.le z hz)
    simp only [frame, BitVec.toNat_ushiftRight, Nat.shiftRight_eq_div_pow]
    exact Nat.div_le_div_right (Nat.le_of_lt this)

/-- The machine with one page from 4 GiB on: that page cannot be had (`pc4g1`, see above: it is free). -/
example : ∃ m, Hist flagsEx true 3 m ∧ m.zonesSize = 3 ∧ (m.zones.at_ 1).start = 0x100000000#64 ∧ (m.zones.at_ 2).start ≠ 0x100000000#64 := by
  have hs : spans (entries pc4g1) = [(0, 2048), (2048, 2049), (2049, 2053)] := by decide
  obtain ⟨m, e, _, h2, h3, _⟩ := C74_zones_partial flagsEx (kflags := 0x93#64) (by decide) (last := 2) (by decide) (fun _ => 0) pc4g1 (by decide)
    (fun i hi => by
      obtain ⟨s, hs', _, h2⟩ := hi
      rw [hs] at hs'
      rw [show tableSize pc4g1 = 2053 by decide]
      simp at hs'
      rcases hs' with rfl | rfl | rfl <;> simp at h2 <;> omega)
    (by decide) (fun j hj => .inr ⟨(0, 2048), by decide, by omega, by show j < 2048; omega⟩)
  refine ⟨m, .boot (by decide) (fun _ => ⟨by decide, by decide⟩) e, by rw [h2]; decide, (h3 1 (2048, 2049) (by decide)).1, ?_⟩
  rw [(h3 2 (2049, 2053) (by decide)).1]; decide

end Verif.Phys
