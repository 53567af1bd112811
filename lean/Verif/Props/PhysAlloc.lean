import Verif.Lemmas.PhysScan

/-!
Properties C61, C62 and C74: the physical page allocator.
-/

namespace Verif.Phys
open Verif
open Verif.E820 (Entry)

/-- The zones described by a memory map: their address arithmetic does not wrap around and no two
share a page. -/
def Sane (es : List Entry) : Prop := (∀ e ∈ entries es, Fits e) ∧ (spans (entries es)).Pairwise Apart

/-- States after `init_memory` and any calls of `page_init` (with some flag), `page_clean` and
`alloc_pages`; `n` counts the references taken. With `plain`, no call used the flags `PG_Referenced`
and `PG_K_Share_To_U` and the memory map was sane. -/
inductive Hist (c : Flags) (plain : Bool) : Nat → Mm → Prop where
  | boot {kflags : BitVec 64} {last : Nat} {junk : Nat → BitVec 64} {es : List Entry} {m : Mm} (h : kflags ≠ 0#64) (hp : plain = true → Sane es ∧ c.counted kflags = false)
      (e : initMemory c kflags last junk es = .ok m) : Hist c plain (last + 1) m
  | init {n i : Nat} {m m' : Mm} {flags : BitVec 64} (hist : Hist c plain n m) (h : flags ≠ 0#64) (hp : plain = true → c.counted flags = false)
      (e : pageInit c m i flags = .ok m') : Hist c plain (n + 1) m'
  | clean {n i : Nat} {m m' : Mm} (hist : Hist c plain n m) (e : pageClean c m i = .ok m') : Hist c plain n m'
  | alloc {n number : Nat} {m m' : Mm} {flags : BitVec 64} {sel : Sel} {r : Option Nat} (hist : Hist c plain n m) (h : flags ≠ 0#64) (hp : plain = true → c.counted flags = false)
      (e : allocPages c m sel number flags = .ok (m', r)) : Hist c plain (n + number) m'

theorem alloc_take {c : Flags} {m m' : Mm} {sel : Sel} {number : Nat} {flags : BitVec 64} {r : Option Nat} (e : allocPages c m sel number flags = .ok (m', r)) :
    search m number (range m sel).2 (range m sel).1 = .ok r ∧ ((r = none ∧ m' = m) ∨ ∃ p, r = some p ∧ take c flags p number 0 m = .ok m') := by
  obtain ⟨q, e1, e2⟩ := Res.bind_eq_ok.1 e
  cases q with
  | none => cases e2; exact ⟨e1, .inl ⟨rfl, rfl⟩⟩
  | some p =>
    obtain ⟨m1, e3, e4⟩ := Res.bind_eq_ok.1 e2
    cases e4
    exact ⟨e1, .inr ⟨p, rfl, e3⟩⟩

theorem Inv.mono {c : Flags} {n n' : Nat} {m : Mm} (I : Inv c n m) (h : n ≤ n') : Inv c n' m :=
  ⟨I.small, I.cover, fun i p hi hp => let P := I.page i p hi hp; ⟨P.addr, P.zone, P.zero, P.one, P.bit, Nat.le_trans P.bound h⟩, I.zone⟩

theorem Hist.inv {c : Flags} {plain : Bool} {n : Nat} {m : Mm} (h : Hist c plain n m) : n < 2 ^ 64 → Inv c n m := by
  induction h with
  | boot h _ e => intro hn; exact initMemory_inv h (by omega) e
  | init _ h _ e ih => intro hn; exact (ih (by omega)).init (by omega) h e
  | clean _ e ih => intro hn; exact (ih hn).clean e
  | alloc _ h _ e ih =>
    intro hn
    rcases (alloc_take e).2 with ⟨_, rfl⟩ | ⟨p, _, e2⟩
    · exact (ih (by omega)).mono (by omega)
    · exact (ih (by omega)).take h _ _ hn e2

theorem countP_tot (n : Nat) (q : Nat → Bool) : (List.range n).countP q = tot n fun i => if q i then 1 else 0 := by
  induction n with
  | zero => rfl
  | succ n ih =>
    rw [tot_succ, List.range_succ, List.countP_append, ih]
    simp [List.countP_cons]

/-- Page `i` belongs to zone `z` and is referenced. -/
def usedIn (m : Mm) (z i : Nat) : Bool := ((m.pages.at_ i).map fun p => p.zone == z && p.refs != 0#64).getD false

/-- C61, what holds in every history in which at most 2^64 - 1 references are taken, each with some
flag: for every zone `page_using_count` is the number of its pages that are referenced, using and free
add up to the total (in 64-bit arithmetic), `total_pages_link` is the number of references; a page
has attributes exactly while it is referenced; then its bit in the bitmap is set. Missing: the bit is
cleared again (see `C61_bit_stays_violated`). -/
theorem C61_accounting_partial {c : Flags} {plain : Bool} {n : Nat} {m : Mm} (h : Hist c plain n m) (hn : n < 2 ^ 64) :
    (∀ z, z < m.zones.n → (m.zones.at_ z).used.toNat = (List.range m.pages.n).countP (usedIn m z) ∧
      (m.zones.at_ z).used + (m.zones.at_ z).free = (m.zones.at_ z).pages ∧
      (m.zones.at_ z).link = BitVec.ofNat 64 ((List.range m.pages.n).map fun i => ((m.pages.at_ i).map fun p => if p.zone = z then p.refs.toNat else 0).getD 0).sum) ∧
    (∀ i p, i < m.pages.n → m.pages.at_ i = some p → (p.attr = 0#64 ↔ p.refs = 0#64) ∧ (p.refs ≠ 0#64 → bit m i = true)) := by
  have I := h.inv hn
  constructor
  · intro z hz
    have Z := I.zone z hz
    refine ⟨?_, Z.free, ?_⟩
    · rw [Z.used, countP_tot]
      refine tot_congr fun i hi => ?_
      cases hp : m.pages.at_ i with
      | none => simp [inUse, usedIn, hp]
      | some p =>
        have := (I.page i p hi hp).zero
        simp [inUse, usedIn, hp, this]
    · rw [Z.link]
      congr 1
      refine tot_congr fun i hi => ?_
      cases hp : m.pages.at_ i with
      | none => rfl
      | some p => rfl
  · intro i p hi hp
    have P := I.page i p hi hp
    exact ⟨P.zero, fun h => P.bit fun h2 => h (P.zero.1 h2)⟩

theorem counted_or_false {c : Flags} {a b : BitVec 64} (ha : c.counted a = false) (hb : c.counted b = false) : c.counted (a ||| b) = false := by
  have key : ∀ x : BitVec 64, a &&& x = 0#64 → b &&& x = 0#64 → (a ||| b) &&& x = 0#64 := by
    intro x h1 h2
    apply BitVec.eq_of_getLsbD_eq
    intro i hi
    have e1 := congrArg (fun y => BitVec.getLsbD y i) h1
    have e2 := congrArg (fun y => BitVec.getLsbD y i) h2
    simp only [BitVec.getLsbD_and, BitVec.getLsbD_or, BitVec.getLsbD_zero] at *
    revert e1 e2
    cases a.getLsbD i <;> cases b.getLsbD i <;> cases x.getLsbD i <;> simp
  simp only [Flags.counted, Bool.or_eq_false_iff, bne_eq_false_iff_eq] at ha hb ⊢
  exact ⟨key _ ha.1 hb.1, key _ ha.2 hb.2⟩

/-- Bits are set exactly for the pages in use, none of which is counted. -/
def Exact (c : Flags) (m : Mm) : Prop :=
  ∀ i p, i < m.pages.n → m.pages.at_ i = some p → (bit m i = true ↔ p.attr ≠ 0#64) ∧ c.counted p.attr = false

theorem Exact.init {c : Flags} {n : Nat} {m m' : Mm} (I : Inv c n m) (E : Exact c m) {i : Nat} {flags : BitVec 64} (hf : flags ≠ 0#64) (hc : c.counted flags = false)
    (e : pageInit c m i flags = .ok m') : Exact c m' := by
  obtain ⟨p, hg, _⟩ := Res.bind_eq_ok.1 e
  obtain ⟨hi, hp⟩ := getPage_inv hg
  obtain ⟨P1, P2⟩ := E i p hi hp
  rw [pageInit_eq I hi hp] at e
  injection e with e
  have key : ∀ (p' : Page) (m1 : Mm), p'.attr ≠ 0#64 → c.counted p'.attr = false → m1.pages = m.pages.put i (some p') → m1.bits = (putBit m i fun w b => w ||| b).bits → Exact c m1 := by
    intro p' m1 h1 h2 h3 h4 j q hj hq
    have hb : bit m1 j = (bit m j || decide (j = i)) := by rw [← bit_or]; simp only [bit, h4]
    rw [h3] at hj hq
    by_cases hji : j = i
    · subst hji
      rw [Arr.put_same] at hq
      cases hq
      exact ⟨by rw [hb]; simp [h1], h2⟩
    · rw [Arr.put_ne _ _ hji] at hq
      obtain ⟨q1, q2⟩ := E j q hj hq
      refine ⟨?_, q2⟩
      rw [hb, decide_eq_false hji, Bool.or_false]; exact q1
  split at e
  · rw [← e]; exact key _ _ hf hc rfl rfl
  · next h =>
    rw [P2, hc] at e
    rw [← e]
    exact key _ _ (or_ne_zero h) (counted_or_false P2 hc) rfl rfl

theorem Exact.clean {c : Flags} {n : Nat} {m m' : Mm} (I : Inv c n m) (E : Exact c m) {i : Nat} (e : pageClean c m i = .ok m') : Exact c m' := by
  obtain ⟨p, hg, _⟩ := Res.bind_eq_ok.1 e
  obtain ⟨hi, hp⟩ := getPage_inv hg
  obtain ⟨P1, P2⟩ := E i p hi hp
  rw [pageClean_eq I hi hp] at e
  injection e with e
  split at e
  · rw [← e]; exact E
  · rw [P2, if_neg (by simp : ¬ (false = true))] at e
    subst e
    intro j q hj hq
    have hb : bit (putBit m i fun w b => w &&& ~~~b) j = (bit m j && !decide (j = i)) := bit_clear
    refine ⟨?_, ?_⟩
    · show bit (putBit m i fun w b => w &&& ~~~b) j = true ↔ _
      rw [hb]
      by_cases hji : j = i
      · subst hji
        simp only [Arr.put_same] at hq
        cases hq
        simp
      · simp only [Arr.put_ne _ _ hji] at hq
        rw [decide_eq_false hji]
        simpa using (E j q hj hq).1
    · by_cases hji : j = i
      · subst hji
        simp only [Arr.put_same] at hq
        cases hq
        simp [Flags.counted]
      · simp only [Arr.put_ne _ _ hji] at hq
        exact (E j q hj hq).2

theorem Exact.take {c : Flags} {flags : BitVec 64} (hf : flags ≠ 0#64) (hc : c.counted flags = false) {page : Nat} : ∀ (k j : Nat) {n : Nat} {m m' : Mm}, Inv c n m → n + k < 2 ^ 64 → Exact c m →
    Phys.take c flags page k j m = .ok m' → Exact c m' := by
  intro k
  induction k with
  | zero => intro j n m m' _ _ E e; cases e; exact E
  | succ k ih =>
    intro j n m m' I hn E e
    obtain ⟨m1, e1, e2⟩ := Res.bind_eq_ok.1 e
    exact ih (j + 1) (I.init (by omega) hf e1) (by omega) (E.init I hf hc e1) e2

/-- Claiming pages that are not in use. -/
theorem claim_spec {c : Flags} {flags : BitVec 64} (hf : flags ≠ 0#64) : ∀ (k j : Nat) {n : Nat} {m : Mm}, Inv c n m → n + k < 2 ^ 64 →
    (∀ l, j ≤ l → l < j + k → ∃ q, l < m.pages.n ∧ m.pages.at_ l = some q ∧ q.attr = 0#64) →
    ∃ m', claim c flags k j m = .ok m' ∧
      (∀ i, m'.pages.at_ i = if j ≤ i ∧ i < j + k then (m.pages.at_ i).map fun q => { q with attr := flags, refs := 1#64 } else m.pages.at_ i) ∧
      (∀ i, bit m' i = (bit m i || decide (j ≤ i ∧ i < j + k))) ∧ m'.pages.n = m.pages.n ∧ m'.zonesSize = m.zonesSize ∧
      (∀ z, (m'.zones.at_ z).start = (m.zones.at_ z).start ∧ (m'.zones.at_ z).stop = (m.zones.at_ z).stop ∧ (m'.zones.at_ z).pages = (m.zones.at_ z).pages) := by
  intro k
  induction k with
  | zero => intro j n m _ _ _; exact ⟨m, rfl, fun i => by rw [if_neg (by omega)], fun i => by rw [decide_eq_false (by omega), Bool.or_false], rfl, rfl, fun _ => ⟨rfl, rfl, rfl⟩⟩
  | succ k ih =>
    intro j n m I hn hq
    obtain ⟨p, hi, hp, ha⟩ := hq j (by omega) (by omega)
    have P := I.page j p hi hp
    have hr := P.zero.1 ha
    have e1 := pageInit_eq I hi hp flags
    rw [if_pos ha] at e1
    have I1 := I.init (by omega) hf e1
    generalize hm1 : ({ putBit m j (fun w b => w ||| b) with
            pages := m.pages.put j (some { p with attr := flags, refs := p.refs + 1 }),
            zones := m.zones.put p.zone { m.zones.at_ p.zone with used := (m.zones.at_ p.zone).used + 1, free := (m.zones.at_ p.zone).free - 1, link := (m.zones.at_ p.zone).link + 1 } } : Mm) = m1 at e1 I1
    have hb : ∀ i, bit m1 i = (bit m i || decide (i = j)) := fun i => by rw [← hm1]; exact bit_or
    have hpg : m1.pages = m.pages.put j (some { p with attr := flags, refs := p.refs + 1 }) := by rw [← hm1]
    have hpn : m1.pages.n = m.pages.n := by rw [hpg]; rfl
    obtain ⟨m', e2, a1, a2, a3, a4, a5⟩ := ih (j + 1) I1 (by omega) (fun l h1 h2 => by
      obtain ⟨q, q1, q2, q3⟩ := hq l (by omega) (by omega)
      exact ⟨q, by rw [hpn]; exact q1, by rw [hpg, Arr.put_ne _ _ (by omega)]; exact q2, q3⟩)
    refine ⟨m', by rw [claim, e1]; exact e2, fun i => ?_, fun i => ?_, by rw [a3, hpn], by rw [a4, ← hm1]; rfl, fun z => ?_⟩
    · rw [a1]
      by_cases hij : i = j
      · subst hij
        rw [if_neg (by omega), if_pos (by omega), hpg, Arr.put_same, hp, hr]; rfl
      · rw [hpg, Arr.put_ne _ _ hij]
        by_cases h : j + 1 ≤ i ∧ i < j + 1 + k
        · rw [if_pos h, if_pos (by omega)]
        · rw [if_neg h, if_neg (by omega)]
    · rw [a2, hb, Bool.or_assoc, ← Bool.decide_or]
      congr 1
      simp only [decide_eq_decide]
      omega
    · obtain ⟨b1, b2, b3⟩ := a5 z
      rw [b1, b2, b3, ← hm1]
      simp only [Arr.put]
      split
      · next h => subst h; exact ⟨rfl, rfl, rfl⟩
      · exact ⟨rfl, rfl, rfl⟩

/-- Some zone contains page `i`. -/
def InRam (es : List Entry) (i : Nat) : Prop := ∃ s ∈ spans (entries es), s.1 ≤ i ∧ i < s.2

instance (es : List Entry) (i : Nat) : Decidable (InRam es i) := inferInstanceAs (Decidable (∃ s ∈ spans (entries es), s.1 ≤ i ∧ i < s.2))

/-- C74 is violated: the tables are sized by the amount of RAM, but indexed by physical page number.
Whenever some RAM page has a number that is not less than the amount of RAM in pages (a hole in the
memory map below it suffices), `init_memory` writes outside its tables. -/
theorem C74_tables_overflow_violated (c : Flags) (kflags : BitVec 64) (last : Nat) (junk : Nat → BitVec 64) (es : List Entry) (hf : ∀ e ∈ entries es, Fits e)
    {i : Nat} (hi : InRam es i) (hbig : tableSize es ≤ i) : initMemory c kflags last junk es = .ub := by
  obtain ⟨s, hs, h1, h2⟩ := hi
  have M := tables_mapped es junk
  rw [initMemory, addZones_ub (b := (tableSize es + 63) / 64) (by omega) (tableSize_lt es) (entries es) M.np M.nb hf ⟨s, hs, by omega⟩]
  rfl

/-- The memory map of a PC with 128 MB: 639 KB, reserved, 127 MB. The last page has number 63, the
tables have 63 entries. -/
def pc128 : List Entry := [⟨0, 654336, 1⟩, ⟨654336, 1024, 2⟩, ⟨983040, 65536, 2⟩, ⟨1048576, 133169152, 1⟩]

instance (e : Entry) : Decidable (Fits e) := inferInstanceAs (Decidable (_ < _))

example : (∀ e ∈ entries pc128, Fits e) ∧ InRam pc128 63 ∧ tableSize pc128 ≤ 63 := by decide

/-- C74, what holds: if all RAM pages have numbers within the tables, no two zones overlap, and the
pages of the kernel (`0, …, last`) are in RAM (page 0 need not be), `init_memory` sets up one zone for the
whole pages of each RAM entry, a page for each of them (and for page 0, which is assigned to the first
zone), and a bitmap with exactly the pages in RAM behind the kernel marked free. Missing: other
memory maps. -/
theorem C74_zones_partial (c : Flags) {kflags : BitVec 64} (hk : kflags ≠ 0#64) {last : Nat} (hl : last + 1 < 2 ^ 64) (junk : Nat → BitVec 64) (es : List Entry) (hs : Sane es)
    (hin : ∀ i, InRam es i → i < tableSize es) (h0 : 0 < tableSize es) (hker : ∀ j, j ≤ last → j = 0 ∨ InRam es j) :
    ∃ m, initMemory c kflags last junk es = .ok m ∧ m.pages.n = tableSize es ∧ m.zonesSize = (spans (entries es)).length ∧
      (∀ z s, (spans (entries es))[z]? = some s → (m.zones.at_ z).start = BitVec.ofNat 64 (s.1 * 2097152) ∧ (m.zones.at_ z).stop = BitVec.ofNat 64 (s.2 * 2097152) ∧
        (m.zones.at_ z).pages = BitVec.ofNat 64 (s.2 - s.1) ∧
        ∀ i, s.1 ≤ i → i < s.2 → ∃ p, m.pages.at_ i = some p ∧ p.zone = (if i = 0 then 0 else z) ∧ p.addr = BitVec.ofNat 64 (i * 2097152) ∧
          p.attr = (if i ≤ last then kflags else 0#64) ∧ p.refs = if i ≤ last then 1#64 else 0#64) ∧
      (∀ i, ¬ InRam es i → i ≠ 0 → m.pages.at_ i = none) ∧
      (∀ i, i < tableSize es → (bit m i = false ↔ InRam es i ∧ last < i)) := by
  have M0 := tables_mapped es junk
  have hnb : tableSize es ≤ 64 * ((tableSize es + 63) / 64) := by omega
  have hn := tableSize_lt es
  obtain ⟨m1, e1, M1⟩ := M0.adds hnb hn (entries es) (by have := entries_length es; simp; omega) hs.1
    (fun s hs' => by
      have h1 : s.1 < s.2 := by
        simp only [spans, List.mem_map, List.mem_filter, Bool.and_eq_true, decide_eq_true_eq] at hs'
        obtain ⟨e, ⟨_, _, h⟩, rfl⟩ := hs'; exact h
      have := hin (s.2 - 1) ⟨s, hs', by omega, by omega⟩; omega)
    (by simpa using hs.2)
  rw [List.nil_append] at M1
  have hS : (spans (entries es)).length ≤ 32 := by
    have := entries_length es
    have : (spans (entries es)).length ≤ (entries es).length := by simp only [spans, List.length_map]; exact List.length_filter_le _ _
    omega
  have F1 := M1.fresh hnb hn hS
  have h0' : 0 < m1.pages.n := by rw [M1.np]; exact h0
  generalize hm2 : ({ m1 with pages := m1.pages.put 0 (some ⟨0, 0, 0, 0⟩), unmapped := unmappedIndex { m1 with pages := m1.pages.put 0 (some ⟨0, 0, 0, 0⟩) } } : Mm) = m2
  have hp2 : m2.pages = m1.pages.put 0 (some ⟨0, 0, 0, 0⟩) := by rw [← hm2]
  have hb2 : m2.bits = m1.bits := by rw [← hm2]
  have hz2 : m2.zones = m1.zones := by rw [← hm2]
  have F2 : Fresh m2 := by
    refine ⟨by rw [hp2]; exact F1.small, by rw [hp2, hb2]; exact F1.cover, fun i p hi hp => ?_, by rw [hz2]; exact F1.zone⟩
    rw [hp2] at hi hp
    rw [hz2]
    by_cases hi0 : i = 0
    · subst hi0
      rw [Arr.put_same] at hp
      cases hp
      exact ⟨by simp, by show 0 < m1.zones.n; rw [M1.nz]; omega, rfl, rfl⟩
    · rw [Arr.put_ne _ _ hi0] at hp
      exact F1.page i p hi hp
  have hram : ∀ i, InRam es i → ∃ (z : Nat) (s : Nat × Nat), (spans (entries es))[z]? = some s ∧ s.1 ≤ i ∧ i < s.2 := by
    rintro i ⟨s, hs', h1, h2⟩
    obtain ⟨z, hz⟩ := List.getElem?_of_mem hs'
    exact ⟨z, s, hz, h1, h2⟩
  have hpage2 : ∀ z s i, (spans (entries es))[z]? = some s → s.1 ≤ i → i < s.2 → ∃ p, m2.pages.at_ i = some p ∧ p.zone = (if i = 0 then 0 else z) ∧ p.addr = BitVec.ofNat 64 (i * 2097152) ∧ p.attr = 0#64 ∧ p.refs = 0#64 := by
    intro z s i hz h1 h2
    rw [hp2]
    by_cases hi0 : i = 0
    · subst hi0; rw [Arr.put_same]; exact ⟨_, rfl, by simp, by simp, rfl, rfl⟩
    · rw [Arr.put_ne _ _ hi0, M1.page z s i hz h1 h2]
      exact ⟨_, rfl, by simp [newPage, hi0], rfl, rfl, rfl⟩
  have hclaim : ∀ l, 0 ≤ l → l < 0 + (last + 1) → ∃ q, l < m2.pages.n ∧ m2.pages.at_ l = some q ∧ q.attr = 0#64 := by
    intro l _ h2
    have hln : m2.pages.n = tableSize es := by rw [hp2]; exact M1.np
    rcases hker l (by omega) with rfl | h
    · exact ⟨_, by omega, by rw [hp2, Arr.put_same], rfl⟩
    · obtain ⟨z, s, hz, h3, h4⟩ := hram l h
      obtain ⟨p, p1, _, _, p4, _⟩ := hpage2 z s l hz h3 h4
      exact ⟨p, by rw [hln]; exact hin l h, p1, p4⟩
  obtain ⟨m, em, a1, a2, a3, a4, a5⟩ := claim_spec hk (last + 1) 0 (F2.inv c) (by omega) hclaim
  refine ⟨m, ?_, by rw [a3, hp2]; exact M1.np, by rw [a4, ← hm2]; exact M1.size, ?_, ?_, ?_⟩
  · rw [initMemory, e1, Res.ok_bind, setPage_ok h0', Res.ok_bind, ← em, ← hm2]
  · intro z s hz
    obtain ⟨b1, b2, b3⟩ := a5 z
    rw [b1, b2, b3, hz2, M1.zone z s hz]
    refine ⟨rfl, rfl, rfl, fun i h1 h2 => ?_⟩
    obtain ⟨p, p1, p2, p3, p4, p5⟩ := hpage2 z s i hz h1 h2
    rw [a1, p1]
    by_cases hil : i ≤ last
    · rw [if_pos (by omega), if_pos hil, if_pos hil]; exact ⟨_, rfl, p2, p3, rfl, rfl⟩
    · rw [if_neg (by omega), if_neg hil, if_neg hil]; exact ⟨p, rfl, p2, p3, p4, p5⟩
  · intro i hi hi0
    rw [a1, hp2, Arr.put_ne _ _ hi0, M1.hole i fun s hs' h => hi ⟨s, hs', h⟩]
    split <;> rfl
  · intro i hi
    have hbm : bit m2 i = bit m1 i := by simp only [bit, hb2]
    rw [a2, hbm, M1.bit i (by omega)]
    simp only [Bool.or_eq_false_iff, Bool.not_eq_false', decide_eq_true_eq, decide_eq_false_iff_not]
    constructor
    · rintro ⟨h1, h2⟩; exact ⟨h1, by omega⟩
    · rintro ⟨h1, h2⟩; exact ⟨h1, by omega⟩

/-- The memory map of a PC with 32 MB less 64 KB: pages 1 to 14. -/
def pc32 : List Entry := [⟨0, 654336, 1⟩, ⟨654336, 1024, 2⟩, ⟨983040, 65536, 2⟩, ⟨1048576, 32440320, 1⟩]

instance (s t : Nat × Nat) : Decidable (Apart s t) := inferInstanceAs (Decidable (_ ∨ _))
instance (es : List Entry) : Decidable (Sane es) := inferInstanceAs (Decidable (_ ∧ _))

theorem pc32_spans : spans (entries pc32) = [(1, 15)] := by decide

example : Sane pc32 ∧ (∀ i, InRam pc32 i → i < tableSize pc32) ∧ 0 < tableSize pc32 ∧ ∀ j, j ≤ 2 → j = 0 ∨ InRam pc32 j := by
  refine ⟨by decide, fun i ⟨s, hs, h1, h2⟩ => ?_, by decide, fun j hj => ?_⟩
  · rw [pc32_spans, List.mem_singleton] at hs
    subst hs
    have : tableSize pc32 = 15 := by decide
    simp at h2; omega
  · by_cases h : j = 0
    · exact .inl h
    · exact .inr ⟨(1, 15), by rw [pc32_spans]; simp, by simp; omega, by simp; omega⟩

theorem initMemory_exact {c : Flags} {kflags : BitVec 64} (hk : kflags ≠ 0#64) (hc : c.counted kflags = false) {last : Nat} {junk : Nat → BitVec 64} {es : List Entry} {m : Mm} (hs : Sane es)
    (hl : last + 1 < 2 ^ 64) (e : initMemory c kflags last junk es = .ok m) : Exact c m := by
  have M0 := tables_mapped es junk
  have hnb : tableSize es ≤ 64 * ((tableSize es + 63) / 64) := by omega
  have hn := tableSize_lt es
  have hin : ∀ s ∈ spans (entries es), s.2 ≤ tableSize es := by
    intro s hs'
    by_cases h : s.2 ≤ tableSize es
    · exact h
    · rw [initMemory, addZones_ub hnb hn (entries es) M0.np M0.nb hs.1 ⟨s, hs', by omega⟩] at e; cases e
  obtain ⟨m1, e1, M1⟩ := M0.adds hnb hn (entries es) (by have := entries_length es; simp; omega) hs.1 hin (by simpa using hs.2)
  rw [List.nil_append] at M1
  have hS : (spans (entries es)).length ≤ 32 := by
    have := entries_length es
    have : (spans (entries es)).length ≤ (entries es).length := by simp only [spans, List.length_map]; exact List.length_filter_le _ _
    omega
  have F1 := M1.fresh hnb hn hS
  rw [initMemory, e1, Res.ok_bind] at e
  obtain ⟨m2, e2, e3⟩ := Res.bind_eq_ok.1 e
  by_cases h0 : 0 < m1.pages.n
  · rw [setPage_ok h0] at e2
    cases e2
    rw [claim] at e3
    obtain ⟨m3, e4, e5⟩ := Res.bind_eq_ok.1 e3
    -- the state before page 0 is claimed
    generalize hm2 : ({ m1 with pages := m1.pages.put 0 (some ⟨0, 0, 0, 0⟩), unmapped := unmappedIndex { m1 with pages := m1.pages.put 0 (some ⟨0, 0, 0, 0⟩) } } : Mm) = m2 at e4
    have hp2 : m2.pages = m1.pages.put 0 (some ⟨0, 0, 0, 0⟩) := by rw [← hm2]
    have hb2 : m2.bits = m1.bits := by rw [← hm2]
    have hz2 : m2.zones = m1.zones := by rw [← hm2]
    have F2 : Fresh m2 := by
      refine ⟨by rw [hp2]; exact F1.small, by rw [hp2, hb2]; exact F1.cover, fun i p hi hp => ?_, by rw [hz2]; exact F1.zone⟩
      rw [hp2] at hi hp
      rw [hz2]
      by_cases hi0 : i = 0
      · subst hi0
        rw [Arr.put_same] at hp
        cases hp
        exact ⟨by simp, by show 0 < m1.zones.n; rw [M1.nz]; omega, rfl, rfl⟩
      · rw [Arr.put_ne _ _ hi0] at hp
        exact F1.page i p hi hp
    have hh : 0 < m2.pages.n ∧ m2.pages.at_ 0 = some ⟨0, 0, 0, 0⟩ := by rw [hp2]; exact ⟨h0, Arr.put_same _ _ _⟩
    have E3 : Exact c m3 := by
      have e6 := pageInit_eq (F2.inv c) hh.1 hh.2 kflags
      rw [if_pos (show (⟨0, 0, 0, 0⟩ : Page).attr = 0#64 from rfl)] at e6
      rw [e6] at e4
      injection e4 with e4
      subst e4
      intro i p hi hp
      have hb : bit (putBit m2 0 fun w b => w ||| b) i = (bit m2 i || decide (i = 0)) := bit_or
      refine ⟨?_, ?_⟩
      · show bit (putBit m2 0 fun w b => w ||| b) i = true ↔ _
        rw [hb]
        by_cases hi0 : i = 0
        · subst hi0
          simp only [Arr.put_same] at hp
          cases hp
          simp [hk]
        · simp only [Arr.put_ne _ _ hi0] at hp
          rw [hp2, Arr.put_ne _ _ hi0] at hp
          have hi' : i < m1.pages.n := by
            have : i < m2.pages.n := hi
            rw [hp2] at this; exact this
          have hf := F1.page i p hi' hp
          have hbm : bit m2 i = bit m1 i := by simp only [bit, hb2]
          rw [hbm, M1.bit i (by rw [M1.np] at hi'; omega), hf.2.2.1]
          have hr : ∃ s ∈ spans (entries es), s.1 ≤ i ∧ i < s.2 := by
            by_cases h : ∃ s ∈ spans (entries es), s.1 ≤ i ∧ i < s.2
            · exact h
            · rw [M1.hole i fun s hs' h' => h ⟨s, hs', h'⟩] at hp; cases hp
          rw [decide_eq_true hr]; simp [hi0]
      · by_cases hi0 : i = 0
        · subst hi0
          simp only [Arr.put_same] at hp
          cases hp
          exact hc
        · simp only [Arr.put_ne _ _ hi0] at hp
          rw [hp2, Arr.put_ne _ _ hi0] at hp
          have hi' : i < m1.pages.n := by
            have : i < m2.pages.n := hi
            rw [hp2] at this; exact this
          rw [(F1.page i p hi' hp).2.2.1]
          simp [Flags.counted]
    have I3 := (F2.inv c).init (by omega) hk e4
    have : ∀ (k j : Nat) {n : Nat} {m m' : Mm}, Inv c n m → n + k < 2 ^ 64 → Exact c m → claim c kflags k j m = .ok m' → Exact c m' := by
      intro k
      induction k with
      | zero => intro j n m m' _ _ E e; cases e; exact E
      | succ k ih =>
        intro j n m m' I hn E e
        obtain ⟨m1, e1, e2⟩ := Res.bind_eq_ok.1 e
        exact ih (j + 1) (I.init (by omega) hk e1) (by omega) (E.init I hk hc e1) e2
    exact this last 1 I3 (by omega) E3 e5
  · rw [setPage, Arr.set_ub h0] at e2; cases e2

/-- C61, what holds without the flags `PG_Referenced` and `PG_K_Share_To_U`: the bit of a page is set
exactly while it is referenced. Missing: calls with these flags. -/
theorem C61_bitmap_partial {c : Flags} {n : Nat} {m : Mm} (h : Hist c true n m) (hn : n < 2 ^ 64) :
    ∀ i p, i < m.pages.n → m.pages.at_ i = some p → (bit m i = true ↔ p.refs ≠ 0#64) := by
  have E : n < 2 ^ 64 → Exact c m := by
    clear hn
    induction h with
    | boot h hp e => intro hn; exact initMemory_exact h (hp rfl).2 (hp rfl).1 (by omega) e
    | init h' h hp e ih => intro hn; exact (ih (by omega)).init (h'.inv (by omega)) h (hp rfl) e
    | clean h' e ih => intro hn; exact (ih hn).clean (h'.inv hn) e
    | alloc h' h hp e ih =>
      intro hn
      rcases (alloc_take e).2 with ⟨_, rfl⟩ | ⟨p, _, e2⟩
      · exact ih (by omega)
      · exact (ih (by omega)).take h (hp rfl) _ _ (h'.inv (by omega)) hn e2
  intro i p hi hp
  have P := (h.inv hn).page i p hi hp
  rw [(E hn i p hi hp).1, ne_eq, ne_eq, P.zero]

/-- C61 is violated: when the last reference of a page with `PG_Referenced` or `PG_K_Share_To_U` is
dropped, its bit remains set; the page is accounted as free, but will not be found by `alloc_pages`. -/
theorem C61_bit_stays_violated {c : Flags} {plain : Bool} {n : Nat} {m : Mm} (h : Hist c plain n m) (hn : n < 2 ^ 64) {i : Nat} {p : Page} (hi : i < m.pages.n) (hp : m.pages.at_ i = some p)
    (hc : c.counted p.attr = true) (hr : p.refs = 1#64) :
    ∃ m' p', pageClean c m i = .ok m' ∧ m'.pages.at_ i = some p' ∧ p'.refs = 0#64 ∧ p'.attr = 0#64 ∧ (m'.zones.at_ p.zone).free = (m.zones.at_ p.zone).free + 1 ∧ bit m' i = true := by
  have I := h.inv hn
  have P := I.page i p hi hp
  have ha : p.attr ≠ 0#64 := fun h => by rw [P.zero.1 h] at hr; cases hr
  have e := pageClean_eq I hi hp
  rw [if_neg ha, if_pos hc, if_pos (by rw [hr]; rfl)] at e
  refine ⟨_, _, e, Arr.put_same _ _ _, by simp [hr], rfl, ?_, ?_⟩
  · rw [Arr.put_same]
  · exact P.bit ha

/-- C61 is violated: `page_init` with flags 0 on a page not in use counts it, but leaves it unused;
calling it again counts the same page again, and `page_clean` does nothing. -/
theorem C61_no_flags_violated {c : Flags} {plain : Bool} {n : Nat} {m : Mm} (h : Hist c plain n m) (hn : n < 2 ^ 64) {i : Nat} {p : Page} (hi : i < m.pages.n) (hp : m.pages.at_ i = some p)
    (hr : p.refs = 0#64) :
    ∃ m1 m2, pageInit c m i 0#64 = .ok m1 ∧ pageInit c m1 i 0#64 = .ok m2 ∧ (m2.zones.at_ p.zone).used = (m.zones.at_ p.zone).used + 2 ∧ pageClean c m2 i = .ok m2 := by
  have I := h.inv hn
  have P := I.page i p hi hp
  have hb : i < 64 * m.bits.n := Nat.lt_of_lt_of_le hi I.cover
  have ha := P.zero.2 hr
  have hfr := frame_addr P.addr
  have key : ∀ (m : Mm) (q : Page), i < m.pages.n → m.pages.at_ i = some q → q.attr = 0#64 → q.zone = p.zone → q.addr = p.addr → i < 64 * m.bits.n → p.zone < m.zones.n →
      pageInit c m i 0#64 = .ok { putBit m i (fun w b => w ||| b) with
            pages := m.pages.put i (some { q with attr := 0#64, refs := q.refs + 1 }),
            zones := m.zones.put p.zone { m.zones.at_ p.zone with used := (m.zones.at_ p.zone).used + 1, free := (m.zones.at_ p.zone).free - 1, link := (m.zones.at_ p.zone).link + 1 } } := by
    intro m q h1 h2 h3 h4 h5 h6 h7
    rw [pageInit, getPage_ok h1 h2, Res.ok_bind, if_pos h3, h5, hfr, modBit_ok h6, Res.ok_bind, setPage_ok (by exact h1), Res.ok_bind, h4, modZone_ok (by exact h7)]
    rfl
  have e1 := key m p hi hp ha rfl rfl hb P.zone
  refine ⟨_, _, e1, key _ _ hi (Arr.put_same _ _ _) rfl rfl rfl hb P.zone, ?_, ?_⟩
  · simp only [Arr.put_same, putBit]
    rw [BitVec.add_assoc]; rfl
  · rw [pageClean, getPage_ok (by exact hi) (Arr.put_same _ _ _), Res.ok_bind, if_pos rfl, setPage_ok (by exact hi)]
    simp only [Arr.put_put, putBit]

/-- `PG_Referenced` as 4 and `PG_K_Share_To_U` as 256, for the examples. -/
def flagsEx : Flags := ⟨4#64, 256#64⟩

/-- A history: the kernel, then page 7 with some flags. -/
example : ∃ m, Hist flagsEx true 4 m ∧ usedIn m 0 7 = true ∧ (m.zones.at_ 0).used = 4 := by
  obtain ⟨m, e⟩ : ∃ m, initMemory flagsEx 0x93#64 2 (fun _ => 0) pc32 = .ok m := ⟨_, rfl⟩
  obtain ⟨m', e'⟩ : ∃ m', pageInit flagsEx m 7 0x90#64 = .ok m' := by cases e; exact ⟨_, rfl⟩
  refine ⟨m', .init (.boot (by decide) (fun _ => ⟨by decide, by decide⟩) e) (by decide) (fun _ => by decide) e', ?_⟩
  cases e
  cases e'
  decide

/-- Page 7 is counted twice, and stays counted. -/
example : (do
    let m ← initMemory flagsEx 0x93#64 2 (fun _ => 0) pc32
    let m1 ← pageInit flagsEx m 7 0#64
    let m2 ← pageInit flagsEx m1 7 0#64
    let m3 ← pageClean flagsEx m2 7
    .ok ((m.zones.at_ 0).used, (m2.zones.at_ 0).used, (m3.zones.at_ 0).used)) = (.ok (3, 5, 5) : Res (BitVec 64 × BitVec 64 × BitVec 64)) := by
  decide

/-- A history: a page is referenced and released; its bit stays set. -/
example : (do
    let m ← initMemory flagsEx 0x93#64 2 (fun _ => 0) pc32
    let m1 ← pageInit flagsEx m 7 0x14#64
    let m2 ← pageClean flagsEx m1 7
    .ok (bit m 7, bit m1 7, bit m2 7, (m2.pages.at_ 7).map (·.refs), (m2.zones.at_ 0).used, (m2.zones.at_ 0).free)) =
      (.ok (false, true, true, some 0, 3, 11) : Res (Bool × Bool × Bool × Option (BitVec 64) × BitVec 64 × BitVec 64)) := by
  decide

/-- C62 is violated: if the first zone tried starts at a multiple of 64 pages and has enough free pages,
the search shifts a word by 64 bits, which is undefined. -/
theorem C62_aligned_zone_violated (c : Flags) (m : Mm) (sel : Sel) (number : Nat) (flags : BitVec 64) {z k : Nat} (hr : range m sel = (z, k + 1)) (hz : z < m.zones.n)
    (hfree : number ≤ (m.zones.at_ z).free.toNat) (hs : frame (m.zones.at_ z).start % 64 = 0) (hle : frame (m.zones.at_ z).start ≤ frame (m.zones.at_ z).stop) :
    allocPages c m sel number flags = .ub := by
  rw [allocPages, hr, search, Arr.get_ok hz, Res.ok_bind, if_neg (by omega), words_aligned hs hle]
  rfl

/-- RAM from 0 to 32 MB: the zone starts at page 0. -/
example : (do
    let m ← initMemory flagsEx 0x93#64 2 (fun _ => 0) [⟨0, 0x2000000, 1⟩]
    .ok (range m .dma, (m.zones.at_ 0).free, frame (m.zones.at_ 0).start % 64)) = (.ok ((0, 1), 13, 0) : Res ((Nat × Nat) × BitVec 64 × Nat)) := by
  decide

/-- C62 is violated: if the pages are not found within the first 64-page block of the first zone tried
and the zone continues behind it, the search shifts a word by 64 bits, which is undefined, instead of
finding free pages there. -/
theorem C62_second_block_violated (c : Flags) (m : Mm) (sel : Sel) {number : Nat} (flags : BitVec 64) {z k start : Nat} (hr : range m sel = (z, k + 1)) (hz : z < m.zones.n)
    (h64 : number ≤ 64) (hfree : number ≤ (m.zones.at_ z).free.toNat) (hst : frame (m.zones.at_ z).start = start) (hs : start % 64 ≠ 0)
    (hnone : ∀ p, start ≤ p → p < start / 64 * 64 + 64 → bit m p = true) (hnum : 0 < number) (hle : start / 64 * 64 + 64 ≤ frame (m.zones.at_ z).stop) :
    allocPages c m sel number flags = .ub := by
  rw [allocPages, hr, search, Arr.get_ok hz, Res.ok_bind, if_neg (by omega), hst]
  rcases words_spec (m := m) (f := frame (m.zones.at_ z).stop) h64 hs (show start ≤ frame (m.zones.at_ z).stop by omega) with ⟨k', a1, a2, a3, _⟩ | ⟨_, a5⟩
  · have := a3 0 hnum
    rw [hnone _ (by omega) (by omega)] at this
    cases this
  · rw [a5, if_pos hle]; rfl

/-- RAM from 2 MB to 142 MB, of which the kernel occupies everything up to page 63: page 64 is free, but
not found. -/
example : (do
    let m ← initMemory flagsEx 0x93#64 63 (fun _ => 0) [⟨0, 0x1f0000, 1⟩, ⟨0x1f0000, 0x8c10000, 1⟩]
    .ok (range m .dma, (m.zones.at_ 0).free, frame (m.zones.at_ 0).start, frame (m.zones.at_ 0).stop, (List.range 63).all fun i => bit m (i + 1))) =
      (.ok ((0, 1), 6, 1, 71, true) : Res ((Nat × Nat) × BitVec 64 × Nat × Nat × Bool)) := by
  decide +kernel

/-- C62 is violated: if the first zone tried starts `s` pages behind a multiple of 64, `2 ≤ s < 32`, and its
first page is marked free, two successive calls for one page both return page `start + s - 1`, whether it
is in use or not. -/
theorem C62_same_page_twice_violated {c : Flags} {plain : Bool} {n : Nat} {m : Mm} (h : Hist c plain n m) (hn : n + 1 < 2 ^ 64) (sel : Sel) {flags : BitVec 64} (hf : flags ≠ 0#64) {z k s start : Nat}
    (hr : range m sel = (z, k + 1)) (hz : z < m.zones.n) (hfree : 2 ≤ (m.zones.at_ z).free.toNat) (hst : frame (m.zones.at_ z).start = start)
    (hs : start % 64 = s) (hs2 : 2 ≤ s) (hs32 : s < 32) (hle : start ≤ frame (m.zones.at_ z).stop) (hb : bit m start = false)
    {p : Page} (hi : start + s - 1 < m.pages.n) (hp : m.pages.at_ (start + s - 1) = some p) :
    ∃ m1 m2, allocPages c m sel 1 flags = .ok (m1, some (start + s - 1)) ∧ allocPages c m1 sel 1 flags = .ok (m2, some (start + s - 1)) := by
  have I := h.inv (by omega)
  have hrun : ∀ m : Mm, bit m start = false → FreeRun m (start / 64 * 64 + s) 1 := by
    intro m hb t ht
    rw [show start / 64 * 64 + s + t = start by omega]; exact hb
  have hsearch : ∀ m : Mm, range m sel = (z, k + 1) → z < m.zones.n → 1 ≤ (m.zones.at_ z).free.toNat → frame (m.zones.at_ z).start = start → start ≤ frame (m.zones.at_ z).stop → bit m start = false →
      search m 1 (range m sel).2 (range m sel).1 = .ok (some (start + s - 1)) := by
    intro m h1 h2 h3 h4 h5 h6
    rw [h1, search, Arr.get_ok h2, Res.ok_bind, if_neg (by omega), h4]
    rcases words_spec (m := m) (f := frame (m.zones.at_ z).stop) (number := 1) (by omega) (show start % 64 ≠ 0 by omega) h5 with ⟨k', a1, a2, a3, a4, a5⟩ | ⟨a1, _⟩
    · have hk' : k' = s := by
        by_cases hlt : s < k'
        · exact absurd (hrun m h6) (a4 s (by omega) hlt)
        · omega
      rw [a5, hk']; rfl
    · exact absurd (hrun m h6) (a1 s (by omega) (by omega))
  obtain ⟨m1, e1⟩ : ∃ m1, pageInit c m (start + s - 1) flags = .ok m1 := ⟨_, pageInit_eq I hi hp flags⟩
  have I1 := I.init (by omega) hf e1
  have P := I.page _ p hi hp
  have hm1 : m1.pages.n = m.pages.n ∧ (∃ p1, m1.pages.at_ (start + s - 1) = some p1) ∧ m1.zones.n = m.zones.n ∧ range m1 sel = range m sel ∧ bit m1 start = false ∧ frame (m1.zones.at_ z).start = frame (m.zones.at_ z).start ∧
      frame (m1.zones.at_ z).stop = frame (m.zones.at_ z).stop ∧ 1 ≤ (m1.zones.at_ z).free.toNat := by
    rw [pageInit_eq I hi hp] at e1
    injection e1 with e1
    have hbit : bit (putBit m (start + s - 1) fun w b => w ||| b) start = false := by
      rw [bit_or, hb, decide_eq_false (by omega)]; rfl
    have hrg : ∀ (x : Mm), x.dma = m.dma → x.normal = m.normal → x.unmapped = m.unmapped → x.zonesSize = m.zonesSize → range x sel = range m sel := by
      intro x h1 h2 h3 h4; cases sel <;> simp [range, h1, h2, h3, h4]
    have hfr : (m.zones.at_ z).free.toNat - 1 = ((m.zones.at_ z).free - 1).toNat := (toNat_pred (by omega)).symm
    split at e1
    · subst e1
      refine ⟨rfl, ⟨_, Arr.put_same _ _ _⟩, rfl, hrg _ rfl rfl rfl rfl, hbit, ?_⟩
      simp only [Arr.put]
      split
      · next hzz => subst hzz; refine ⟨rfl, rfl, ?_⟩; show 1 ≤ ((m.zones.at_ p.zone).free - 1).toNat; omega
      · exact ⟨rfl, rfl, by omega⟩
    · split at e1
      · subst e1
        refine ⟨rfl, ⟨_, Arr.put_same _ _ _⟩, rfl, hrg _ rfl rfl rfl rfl, hb, ?_⟩
        simp only [Arr.put]
        split
        · next hzz => subst hzz; refine ⟨rfl, rfl, ?_⟩; show 1 ≤ (m.zones.at_ p.zone).free.toNat; omega
        · exact ⟨rfl, rfl, by omega⟩
      · subst e1
        exact ⟨rfl, ⟨_, Arr.put_same _ _ _⟩, rfl, hrg _ rfl rfl rfl rfl, hbit, rfl, rfl, by show 1 ≤ (m.zones.at_ z).free.toNat; omega⟩
  obtain ⟨b1, ⟨p1, b2⟩, b3, b4, b5, b6, b7, b8⟩ := hm1
  have e2 := pageInit_eq I1 (by rw [b1]; exact hi) b2 flags
  obtain ⟨m2, e2⟩ : ∃ m2, pageInit c m1 (start + s - 1) flags = .ok m2 := ⟨_, e2⟩
  refine ⟨m1, m2, ?_, ?_⟩
  · rw [allocPages, hsearch m hr hz (by omega) hst hle hb]
    simp only [Res.ok_bind, take, Nat.add_zero, e1]
  · rw [allocPages, hsearch m1 (b4.trans hr) (by rw [b3]; exact hz) b8 (b6.trans hst) (by rw [b7]; exact hle) b5]
    simp only [Res.ok_bind, take, Nat.add_zero, e2]

/-- RAM in three parts, the first two without a whole page: the zone starts at page 2. Page 3 is handed
out twice. -/
example : (do
    let m ← initMemory flagsEx 0x93#64 0 (fun _ => 0) [⟨0, 0x1f0000, 1⟩, ⟨0x1f0000, 0x200000, 1⟩, ⟨0x3f0000, 0x1c10000, 1⟩]
    let (m1, p) ← allocPages flagsEx m .dma 1 0x90#64
    let (m2, q) ← allocPages flagsEx m1 .dma 1 0x90#64
    .ok ((m.zones.at_ 0).start, bit m 2, p, q, (m2.pages.at_ 3).map (·.refs))) = (.ok (0x400000, false, some 3, some 3, some 1) : Res (BitVec 64 × Bool × Option Nat × Option Nat × Option (BitVec 64))) := by
  decide

theorem search_spec {m : Mm} {number : Nat} (hn : number ≤ 64) : ∀ (k z : Nat) {r : Option Nat}, (∀ i, z ≤ i → i < z + k → frame (m.zones.at_ i).start % 64 = 1) →
    search m number k z = .ok r → ∀ p, r = some p → FreeRun m p number := by
  intro k
  induction k with
  | zero => intro z r _ e p hp; cases e; cases hp
  | succ k ih =>
    intro z r hs e p hp
    rw [search] at e
    obtain ⟨x, ex, e⟩ := Res.bind_eq_ok.1 e
    have hx : x = m.zones.at_ z := by
      rw [Arr.get] at ex
      split at ex
      · cases ex; rfl
      · cases ex
    subst hx
    split at e
    · exact ih (z + 1) (fun i h1 h2 => hs i (by omega) (by omega)) e p hp
    · obtain ⟨w, ew, e⟩ := Res.bind_eq_ok.1 e
      have hs1 := hs z (by omega) (by omega)
      cases w with
      | none => exact ih (z + 1) (fun i h1 h2 => hs i (by omega) (by omega)) e p hp
      | some q =>
        simp only at e
        injection e with e
        rw [hp] at e
        injection e with e
        subst e
        by_cases hle : frame (m.zones.at_ z).start ≤ frame (m.zones.at_ z).stop
        · rcases words_spec (m := m) (f := frame (m.zones.at_ z).stop) hn (show frame (m.zones.at_ z).start % 64 ≠ 0 by omega) hle with ⟨k', a1, a2, a3, a4, a5⟩ | ⟨_, a5⟩
          · rw [a5] at ew
            injection ew with ew
            injection ew with ew
            rw [← ew, show frame (m.zones.at_ z).start + k' - 1 = frame (m.zones.at_ z).start / 64 * 64 + k' by omega]
            exact a3
          · rw [a5] at ew
            split at ew <;> cases ew
        · rw [words, if_neg hle] at ew; cases ew

/-- C62, what holds: if all zones tried start one page behind a multiple of 64 (the usual case: RAM from
1 MB on, so from page 1), whenever `alloc_pages` returns pages they were free before (not referenced,
bit clear), each is referenced once afterwards and its bit is set, and no other page and no other bit
changes; if it returns null nothing changes. Missing: zones that start elsewhere; that the call does
return. -/
theorem C62_alloc_partial {c : Flags} {plain : Bool} {n : Nat} {m m' : Mm} (h : Hist c plain n m) {sel : Sel} {number : Nat} (hn : n + number < 2 ^ 64) (h64 : number ≤ 64)
    {flags : BitVec 64} (hf : flags ≠ 0#64) (hz : ∀ z, (range m sel).1 ≤ z → z < (range m sel).1 + (range m sel).2 → frame (m.zones.at_ z).start % 64 = 1)
    {r : Option Nat} (e : allocPages c m sel number flags = .ok (m', r)) :
    (r = none → m' = m) ∧
    (∀ p, r = some p →
      (∀ l, l < number → ∃ q, m.pages.at_ (p + l) = some q ∧ q.refs = 0#64 ∧ bit m (p + l) = false ∧ m'.pages.at_ (p + l) = some { q with attr := flags, refs := 1#64 } ∧ bit m' (p + l) = true) ∧
      ∀ i, ¬ (p ≤ i ∧ i < p + number) → m'.pages.at_ i = m.pages.at_ i ∧ bit m' i = bit m i) := by
  have I := h.inv (by omega)
  obtain ⟨e1, e2⟩ := alloc_take e
  constructor
  · rintro rfl
    rcases e2 with ⟨_, h⟩ | ⟨p, h, _⟩
    · exact h
    · cases h
  · rintro p rfl
    rcases e2 with ⟨h, _⟩ | ⟨p', h, e3⟩
    · cases h
    · cases h
      have hfree := search_spec h64 _ _ hz e1 p rfl
      obtain ⟨a1, a2, a3, _⟩ := take_spec hf number 0 I hn (fun l _ h2 => hfree l (by omega)) e3
      refine ⟨fun l hl => ?_, fun i hi => ⟨a2 i (by omega), ?_⟩⟩
      · obtain ⟨q, _, q2, _, q4, q5⟩ := a1 l (by omega) (by omega)
        exact ⟨q, q2, q4, hfree l hl, q5, by rw [a3, decide_eq_true (by omega), Bool.or_true]⟩
      · rw [a3, decide_eq_false (by omega), Bool.or_false]

/-- Three pages of the machine above: 3, 4 and 5. -/
example : (do
    let m ← initMemory flagsEx 0x93#64 2 (fun _ => 0) pc32
    let (m1, p) ← allocPages flagsEx m .dma 3 0x90#64
    let (m2, q) ← allocPages flagsEx m1 .normal 1 0x90#64
    .ok (p, q, (m2.zones.at_ 0).used, frame (m.zones.at_ 0).start % 64)) = (.ok (some 3, some 6, 7, 1) : Res (Option Nat × Option Nat × BitVec 64 × Nat)) := by
  decide

end Verif.Phys
