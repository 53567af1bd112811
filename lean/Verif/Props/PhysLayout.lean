import Verif.Model.PhysLayout
import Verif.Props.PhysAlloc
import Verif.Props.Paging

/-! Property C93: the tables of the page allocator have memory of their own. -/

set_option backward.isDefEq.respectTransparency false

namespace Verif.Phys
open Verif
open Verif.E820 (Entry)
open Verif.Paging (high walk Loaded)

theorem mask_toNat (k : Nat) (x : BitVec 64) : (x &&& ~~~(BitVec.ofNat 64 (2 ^ k - 1))).toNat = x.toNat / 2 ^ k * 2 ^ k := by
  have : x &&& ~~~(BitVec.ofNat 64 (2 ^ k - 1)) = (x >>> k) <<< k := by
    apply BitVec.eq_of_getLsbD_eq
    intro i hi
    have h : (BitVec.ofNat 64 (2 ^ k - 1)).getLsbD i = decide (i < k) := by
      rw [BitVec.getLsbD_ofNat, Nat.testBit_two_pow_sub_one]
      simp [hi]
    simp only [BitVec.getLsbD_and, BitVec.getLsbD_not, h, BitVec.getLsbD_shiftLeft, BitVec.getLsbD_ushiftRight, hi]
    by_cases h2 : i < k
    · simp [h2]
    · simp [h2, show k + (i - k) = i by omega]
  rw [this, BitVec.toNat_shiftLeft, BitVec.toNat_ushiftRight, Nat.shiftRight_eq_div_pow, Nat.shiftLeft_eq]
  exact Nat.mod_eq_of_lt (Nat.lt_of_le_of_lt (Nat.div_mul_le_self _ _) x.isLt)

theorem up4K_toNat {x : BitVec 64} (h : x.toNat + 4096 < 2 ^ 64) : (up4K x).toNat = (x.toNat + 4095) / 4096 * 4096 := by
  have := mask_toNat 12 (x + 4096#64 - 1#64)
  rw [up4K, show (4095#64) = BitVec.ofNat 64 (2 ^ 12 - 1) from rfl, this]
  have : (x + 4096#64 - 1#64).toNat = x.toNat + 4095 := by
    rw [BitVec.toNat_sub, BitVec.toNat_add]
    simp; omega
  rw [this]

theorem up8_toNat {x : BitVec 64} (h : x.toNat + 8 < 2 ^ 64) : (up8 x).toNat = (x.toNat + 7) / 8 * 8 := by
  have := mask_toNat 3 (x + 8#64 - 1#64)
  rw [up8, show (7#64) = BitVec.ofNat 64 (2 ^ 3 - 1) from rfl, this]
  have : (x + 8#64 - 1#64).toNat = x.toNat + 7 := by
    rw [BitVec.toNat_sub, BitVec.toNat_add]
    simp; omega
  rw [this]

/-- The kernel ends in the upper half with 64 TiB above it, the structures are at most 4 KiB large,
and there are at most 4 PiB of RAM (the limit of the processor). -/
structure Room (L : Place) (es : List Entry) : Prop where
  low : high ≤ L.endBrk.toNat
  top : L.endBrk.toNat < high + 2 ^ 46
  page : L.pageSize.toNat ≤ 4096
  zone : L.zoneSize.toNat ≤ 4096
  ram : (totalMem es).toNat ≤ 2 ^ 52

/-- All of the layout in natural numbers. -/
theorem Room.nums {L : Place} {es : List Entry} (R : Room L es) {zones : Nat} (hz : zones ≤ 32) :
    L.endBrk.toNat ≤ (bitsMap L).toNat ∧ (bitsMap L).toNat % 4096 = 0 ∧
    (bitsMap L).toNat + (bitsLength es).toNat ≤ (pagesStruct L es).toNat ∧ (pagesStruct L es).toNat % 4096 = 0 ∧
    8 * ((tableSize es + 63) / 64) ≤ (bitsLength es).toNat ∧
    (pagesStruct L es).toNat + L.pageSize.toNat * tableSize es ≤ (zonesStruct L es).toNat ∧ (zonesStruct L es).toNat % 4096 = 0 ∧
    (zonesStruct L es).toNat + L.zoneSize.toNat * zones + 248 ≤ (endOfStruct L es zones).toNat ∧
    (endOfStruct L es zones).toNat < high + 2 ^ 47 ∧
    lastPage L es zones = ((endOfStruct L es zones).toNat - high) / 2097152 := by
  obtain ⟨h1, h2, h3, h4, h5⟩ := R
  simp only [high] at *
  have e1 : (bitsMap L).toNat = (L.endBrk.toNat + 4095) / 4096 * 4096 := up4K_toNat (by omega)
  have hts : tableSize es = (totalMem es).toNat / 2097152 := by
    rw [tableSize, frame, BitVec.toNat_ushiftRight, Nat.shiftRight_eq_div_pow]
  have htn : (totalMem es >>> 21).toNat = tableSize es := rfl
  have ht : tableSize es ≤ 2 ^ 31 := by omega
  have e2 : (bitsLength es).toNat = (tableSize es + 63) / 8 := by
    rw [bitsLength, BitVec.toNat_udiv, BitVec.toNat_sub, BitVec.toNat_add, htn]
    simp; omega
  have e3 : (pagesStruct L es).toNat = ((bitsMap L).toNat + (bitsLength es).toNat + 4095) / 4096 * 4096 := by
    have : (bitsMap L + bitsLength es).toNat = (bitsMap L).toNat + (bitsLength es).toNat := by
      rw [BitVec.toNat_add]; omega
    rw [pagesStruct, up4K_toNat (by rw [this]; omega), this]
  have hp : L.pageSize.toNat * tableSize es ≤ 2 ^ 43 := Nat.le_trans (Nat.mul_le_mul h3 ht) (by decide)
  have e4 : (pagesLength L es).toNat = (L.pageSize.toNat * tableSize es + 7) / 8 * 8 := by
    have : ((totalMem es >>> 21) * L.pageSize).toNat = L.pageSize.toNat * tableSize es := by
      rw [BitVec.toNat_mul, htn, Nat.mul_comm]; omega
    rw [pagesLength, up8_toNat (by rw [this]; omega), this]
  generalize hP : L.pageSize.toNat * tableSize es = P at *
  have e5 : (zonesStruct L es).toNat = ((pagesStruct L es).toNat + (pagesLength L es).toNat + 4095) / 4096 * 4096 := by
    have : (pagesStruct L es + pagesLength L es).toNat = (pagesStruct L es).toNat + (pagesLength L es).toNat := by
      rw [BitVec.toNat_add]; omega
    rw [zonesStruct, up4K_toNat (by rw [this]; omega), this]
  have hzz : L.zoneSize.toNat * zones ≤ 2 ^ 17 := Nat.le_trans (Nat.mul_le_mul h4 hz) (by decide)
  have e6 : (zonesLength L zones).toNat = (L.zoneSize.toNat * zones + 7) / 8 * 8 := by
    have : (BitVec.ofNat 64 zones * L.zoneSize).toNat = L.zoneSize.toNat * zones := by
      rw [BitVec.toNat_mul, BitVec.toNat_ofNat, Nat.mod_eq_of_lt (show zones < 2 ^ 64 by omega), Nat.mul_comm]; omega
    rw [zonesLength, up8_toNat (by rw [this]; omega), this]
  generalize hZ : L.zoneSize.toNat * zones = Z at *
  have e7 : (endOfStruct L es zones).toNat = ((zonesStruct L es).toNat + (zonesLength L zones).toNat + 256) / 8 * 8 := by
    have := mask_toNat 3 (zonesStruct L es + zonesLength L zones + 8#64 * 32#64)
    rw [endOfStruct, show (7#64) = BitVec.ofNat 64 (2 ^ 3 - 1) from rfl, this]
    have : (zonesStruct L es + zonesLength L zones + 8#64 * 32#64).toNat = (zonesStruct L es).toNat + (zonesLength L zones).toNat + 256 := by
      rw [BitVec.toNat_add, BitVec.toNat_add, show (8#64 * 32#64).toNat = 256 from rfl]; omega
    rw [this]
  have e8 : (endOfStruct L es zones - 0xffff800000000000#64).toNat = (endOfStruct L es zones).toNat - 0xffff800000000000 := by
    rw [BitVec.toNat_sub]; simp; omega
  refine ⟨by omega, by omega, by omega, by omega, by omega, by omega, by omega, by omega, by omega, ?_⟩
  rw [lastPage, BitVec.toNat_ushiftRight, Nat.shiftRight_eq_div_pow, e8]

/-- The sizes of the tables. -/
structure Same (m m' : Mm) : Prop where
  bits : m'.bits.n = m.bits.n
  pages : m'.pages.n = m.pages.n
  zones : m'.zones.n = m.zones.n
  size : m'.zonesSize = m.zonesSize

theorem Same.trans {a b c : Mm} (h : Same a b) (h' : Same b c) : Same a c :=
  ⟨h'.bits.trans h.bits, h'.pages.trans h.pages, h'.zones.trans h.zones, h'.size.trans h.size⟩

theorem Arr.set_n {α : Type} {a b : Arr α} {i : Nat} {v : α} (e : a.set i v = .ok b) : b.n = a.n := by
  rw [Arr.set] at e
  split at e
  · cases e; rfl
  · cases e

theorem setPage_same {m m' : Mm} {i : Nat} {p : Page} (e : setPage m i p = .ok m') : Same m m' := by
  obtain ⟨_, h, e⟩ := Res.bind_eq_ok.1 e
  cases e
  exact ⟨rfl, Arr.set_n h, rfl, rfl⟩

theorem modBit_same {m m' : Mm} {n : Nat} {f : BitVec 64 → BitVec 64 → BitVec 64} (e : modBit m n f = .ok m') : Same m m' := by
  obtain ⟨_, _, e⟩ := Res.bind_eq_ok.1 e
  obtain ⟨_, h, e⟩ := Res.bind_eq_ok.1 e
  cases e
  exact ⟨Arr.set_n h, rfl, rfl, rfl⟩

theorem modZone_same {m m' : Mm} {z : Nat} {f : Zone → Zone} (e : modZone m z f = .ok m') : Same m m' := by
  obtain ⟨_, _, e⟩ := Res.bind_eq_ok.1 e
  obtain ⟨_, h, e⟩ := Res.bind_eq_ok.1 e
  cases e
  exact ⟨rfl, rfl, Arr.set_n h, rfl⟩

theorem pageInit_same {c : Flags} {m m' : Mm} {i : Nat} {flags : BitVec 64} (e : pageInit c m i flags = .ok m') : Same m m' := by
  obtain ⟨p, _, e⟩ := Res.bind_eq_ok.1 e
  split at e
  · obtain ⟨_, h1, e⟩ := Res.bind_eq_ok.1 e
    obtain ⟨_, h2, e⟩ := Res.bind_eq_ok.1 e
    exact ((modBit_same h1).trans (setPage_same h2)).trans (modZone_same e)
  · split at e
    · obtain ⟨_, h1, e⟩ := Res.bind_eq_ok.1 e
      exact (setPage_same h1).trans (modZone_same e)
    · obtain ⟨_, h1, e⟩ := Res.bind_eq_ok.1 e
      exact (modBit_same h1).trans (setPage_same e)

theorem claim_same {c : Flags} {flags : BitVec 64} : ∀ (n j : Nat) {m m' : Mm}, claim c flags n j m = .ok m' → Same m m'
  | 0, _, _, _, e => by cases e; exact ⟨rfl, rfl, rfl, rfl⟩
  | n + 1, j, _, _, e => by
    obtain ⟨_, h, e⟩ := Res.bind_eq_ok.1 e
    exact (pageInit_same h).trans (claim_same n (j + 1) e)

theorem addPages_same {z g : Nat} {start : BitVec 64} : ∀ (n j : Nat) {m m' : Mm}, addPages z g start n j m = .ok m' → Same m m'
  | 0, _, _, _, e => by cases e; exact ⟨rfl, rfl, rfl, rfl⟩
  | n + 1, j, _, _, e => by
    obtain ⟨_, h1, e⟩ := Res.bind_eq_ok.1 e
    obtain ⟨_, h2, e⟩ := Res.bind_eq_ok.1 e
    exact ((setPage_same h1).trans (modBit_same h2)).trans (addPages_same n (j + 1) e)

theorem addZones_sizes : ∀ (es : List Entry) {m m' : Mm}, addZones es m = .ok m' → m.zonesSize ≤ m.zones.n →
    m'.bits.n = m.bits.n ∧ m'.pages.n = m.pages.n ∧ m'.zones.n = m.zones.n ∧ m'.zonesSize ≤ m'.zones.n
  | [], _, _, e, h => by cases e; exact ⟨rfl, rfl, rfl, h⟩
  | x :: es, m, m', e, h => by
    obtain ⟨m1, e1, e2⟩ := Res.bind_eq_ok.1 e
    have : m1.bits.n = m.bits.n ∧ m1.pages.n = m.pages.n ∧ m1.zones.n = m.zones.n ∧ m1.zonesSize ≤ m1.zones.n := by
      rw [addZone] at e1
      split at e1
      · cases e1; exact ⟨rfl, rfl, rfl, h⟩
      · split at e1
        · cases e1; exact ⟨rfl, rfl, rfl, h⟩
        · obtain ⟨zs, ez, ep⟩ := Res.bind_eq_ok.1 e1
          have S := addPages_same _ _ ep
          have hn := Arr.set_n ez
          have hlt : m.zonesSize < m.zones.n := by
            rw [Arr.set] at ez
            split at ez
            · assumption
            · cases ez
          have h1 := S.zones
          have h2 := S.size
          simp only at h1 h2
          exact ⟨S.bits, S.pages, by omega, by omega⟩
    obtain ⟨a1, a2, a3, a4⟩ := addZones_sizes es e2 this.2.2.2
    exact ⟨by rw [a1, this.1], by rw [a2, this.2.1], by rw [a3, this.2.2.1], a4⟩

theorem initAt_sizes {c : Flags} {kflags : BitVec 64} {junk : Nat → BitVec 64} {L : Place} {es : List Entry} {m : Mm} (e : initAt c kflags junk L es = .ok m) :
    m.bits.n = (tableSize es + 63) / 64 ∧ m.pages.n = tableSize es ∧ m.zonesSize ≤ 32 := by
  obtain ⟨m1, e1, e⟩ := Res.bind_eq_ok.1 e
  obtain ⟨m2, e2, e⟩ := Res.bind_eq_ok.1 e
  obtain ⟨a1, a2, a3, a4⟩ := addZones_sizes _ e1 (Nat.zero_le _)
  have S := setPage_same e2
  have T := claim_same _ _ e
  have b1 := T.bits
  have b2 := T.pages
  have b4 := T.size
  simp only at b1 b2 b4
  refine ⟨by rw [b1, S.bits, a1]; rfl, by rw [b2, S.pages, a2]; rfl, ?_⟩
  have h32 : (tables es junk).zones.n = 32 := rfl
  rw [b4, S.size]; omega

/-- The objects of the tables lie where they should. -/
theorem cell_room {L : Place} {es : List Entry} (R : Room L es) {m : Mm} (hb : m.bits.n = (tableSize es + 63) / 64) (hp : m.pages.n = tableSize es) (hz : m.zonesSize ≤ 32) {a : Cell} (ha : a.In m) :
    match a with
    | .word _ => (bitsMap L).toNat ≤ (a.at_ L es).1 ∧ (a.at_ L es).1 + (a.at_ L es).2 ≤ (pagesStruct L es).toNat
    | .page _ => (pagesStruct L es).toNat ≤ (a.at_ L es).1 ∧ (a.at_ L es).1 + (a.at_ L es).2 ≤ (zonesStruct L es).toNat
    | .zone _ => (zonesStruct L es).toNat ≤ (a.at_ L es).1 ∧ (a.at_ L es).1 + (a.at_ L es).2 ≤ (endOfStruct L es m.zonesSize).toNat := by
  obtain ⟨n1, n2, n3, n4, n5, n6, n7, n8, n9, n10⟩ := R.nums hz
  cases a with
  | word w =>
    have ha' : w < m.bits.n := ha
    simp only [Cell.at_]; omega
  | page i =>
    have ha' : i < m.pages.n := ha
    simp only [Cell.at_]
    have : L.pageSize.toNat * i + L.pageSize.toNat ≤ L.pageSize.toNat * tableSize es := by
      rw [← Nat.mul_succ]; exact Nat.mul_le_mul_left _ (by omega)
    omega
  | zone z =>
    have ha' : z < m.zonesSize := ha
    simp only [Cell.at_]
    have : L.zoneSize.toNat * z + L.zoneSize.toNat ≤ L.zoneSize.toNat * m.zonesSize := by
      rw [← Nat.mul_succ]; exact Nat.mul_le_mul_left _ (by omega)
    omega

/-- C93, for every memory map `init_memory` accepts: the tables start on page boundaries; each
object in them lies between the end of the kernel and `end_of_struct`; no two of them share a byte; the
pages claimed for the kernel are those up to and including the page of `end_of_struct`. -/
theorem C93_apart {c : Flags} {kflags : BitVec 64} {junk : Nat → BitVec 64} {L : Place} {es : List Entry} {m : Mm} (R : Room L es) (e : initAt c kflags junk L es = .ok m) :
    ((bitsMap L).toNat % 4096 = 0 ∧ (pagesStruct L es).toNat % 4096 = 0 ∧ (zonesStruct L es).toNat % 4096 = 0) ∧
    (∀ a : Cell, a.In m → L.endBrk.toNat ≤ (a.at_ L es).1 ∧ (a.at_ L es).1 + (a.at_ L es).2 ≤ (endOfStruct L es m.zonesSize).toNat) ∧
    (∀ a b : Cell, a.In m → b.In m → a ≠ b → (a.at_ L es).1 + (a.at_ L es).2 ≤ (b.at_ L es).1 ∨ (b.at_ L es).1 + (b.at_ L es).2 ≤ (a.at_ L es).1) ∧
    ∀ va, high ≤ va → va ≤ (endOfStruct L es m.zonesSize).toNat → (va - high) / 2097152 ≤ lastPage L es m.zonesSize := by
  obtain ⟨hb, hp, hz⟩ := initAt_sizes e
  obtain ⟨n1, n2, n3, n4, n5, n6, n7, n8, n9, n10⟩ := R.nums hz
  refine ⟨⟨n2, n4, n7⟩, fun a ha => ?_, fun a b ha hb' hne => ?_, fun va h1 h2 => ?_⟩
  · have := cell_room R hb hp hz ha
    cases a <;> simp only at this <;> omega
  · have A := cell_room R hb hp hz ha
    have B := cell_room R hb hp hz hb'
    cases a with
    | word w =>
      cases b with
      | word v =>
        have : w ≠ v := fun h => hne (by rw [h])
        simp only [Cell.at_]; omega
      | page i => simp only at A B; omega
      | zone z => simp only at A B; omega
    | page i =>
      cases b with
      | word v => simp only at A B; omega
      | page j =>
        have : i ≠ j := fun h => hne (by rw [h])
        simp only [Cell.at_]
        rcases Nat.lt_or_gt_of_ne this with h | h
        · have := Nat.mul_le_mul_left L.pageSize.toNat (show i + 1 ≤ j from h)
          rw [Nat.mul_add] at this; omega
        · have := Nat.mul_le_mul_left L.pageSize.toNat (show j + 1 ≤ i from h)
          rw [Nat.mul_add] at this; omega
      | zone z => simp only at A B; omega
    | zone z =>
      cases b with
      | word v => simp only at A B; omega
      | page j => simp only at A B; omega
      | zone y =>
        have : z ≠ y := fun h => hne (by rw [h])
        simp only [Cell.at_]
        rcases Nat.lt_or_gt_of_ne this with h | h
        · have := Nat.mul_le_mul_left L.zoneSize.toNat (show z + 1 ≤ y from h)
          rw [Nat.mul_add] at this; omega
        · have := Nat.mul_le_mul_left L.zoneSize.toNat (show y + 1 ≤ z from h)
          rw [Nat.mul_add] at this; omega
  · rw [n10]
    exact Nat.div_le_div_right (by omega)

/-- A kernel that ends at 1.2 MB; pages of 48 bytes, zones of 80. -/
def placeEx : Place := ⟨0xffff800000133337#64, 48#64, 80#64⟩

example : Room placeEx pc32 := ⟨by decide, by decide, by decide, by decide, by decide⟩

/-- The layout on a machine with 32 MB. -/
example : (do
    let m ← initAt flagsEx 0x93#64 (fun _ => 0) placeEx pc32
    .ok (bitsMap placeEx, pagesStruct placeEx pc32, zonesStruct placeEx pc32, endOfStruct placeEx pc32 m.zonesSize, lastPage placeEx pc32 m.zonesSize)) =
    (.ok (0xffff800000134000#64, 0xffff800000135000#64, 0xffff800000136000#64, 0xffff800000136150#64, 0) : Res (BitVec 64 × BitVec 64 × BitVec 64 × BitVec 64 × Nat)) := by
  decide

/-- C93, what holds: if in addition the memory map is as C74 demands and the tables end within the
10 MiB of RAM that are mapped, `init_memory` succeeds; each byte of the kernel and of the tables is at the
physical address it is meant to be at, and its page is marked as in use. Missing: larger tables
(`C93_screen_violated`) and other memory maps (C74). -/
theorem C93_reserved_partial (c : Flags) {kflags : BitVec 64} (hk : kflags ≠ 0#64) (junk : Nat → BitVec 64) {L : Place} {es : List Entry} (R : Room L es) (hs : Sane es)
    (hin : ∀ i, InRam es i → i < tableSize es) (h0 : 0 < tableSize es)
    (hker : ∀ j, j ≤ lastPage L es (spans (entries es)).length → j = 0 ∨ InRam es j)
    (hmap : (endOfStruct L es (spans (entries es)).length).toNat ≤ high + 0xA00000)
    {mem : Nat → Nat} (hm : Loaded mem Paging.pml4 Paging.pdpte Paging.pde) :
    ∃ m, initAt c kflags junk L es = .ok m ∧
      ∀ va, (high ≤ va ∧ va < L.endBrk.toNat ∨ ∃ a : Cell, a.In m ∧ (a.at_ L es).1 ≤ va ∧ va < (a.at_ L es).1 + (a.at_ L es).2) →
        walk mem Paging.cr3 va = some (va - high, true) ∧ bit m ((va - high) / 2097152) = true := by
  have hlen : (spans (entries es)).length ≤ 32 := by
    have := entries_length es
    have : (spans (entries es)).length ≤ (entries es).length := by simp only [spans, List.length_map]; exact List.length_filter_le _ _
    omega
  obtain ⟨n1, n2, n3, n4, n5, n6, n7, n8, n9, n10⟩ := R.nums hlen
  have hlast : lastPage L es (spans (entries es)).length + 1 < 2 ^ 64 := by
    rw [n10]; simp only [high] at *; omega
  obtain ⟨m, e, a1, a2, a3, a4, a5⟩ := C74_zones_partial c hk hlast junk es hs hin h0 hker
  have e' : initAt c kflags junk L es = .ok m := by
    obtain ⟨m1, e1, e⟩ := Res.bind_eq_ok.1 e
    obtain ⟨m2, e2, e⟩ := Res.bind_eq_ok.1 e
    have S := (setPage_same e2).size
    have T := (claim_same _ _ e).size
    simp only at T
    have hsz : m2.zonesSize = (spans (entries es)).length := by rw [← T, a2]
    rw [← hsz] at e
    rw [initAt, e1, Res.ok_bind, e2, Res.ok_bind]
    exact e
  refine ⟨m, e', fun va hva => ?_⟩
  obtain ⟨_, b2, _, b4⟩ := C93_apart R e'
  rw [a2] at b2 b4
  have hr : high ≤ va ∧ va < (endOfStruct L es (spans (entries es)).length).toNat := by
    have := R.low
    rcases hva with h | ⟨a, ha, h1, h2⟩
    · omega
    · have := b2 a ha; omega
  constructor
  · rw [Paging.C60_translate mem hm va (by simp only [high] at *; omega)]
    simp only [Paging.expected, Paging.window]
    rw [if_neg (by omega), if_pos (by omega)]
    rfl
  · have hle := b4 va hr.1 (by omega)
    have hlt : (va - high) / 2097152 < tableSize es := by
      rcases hker _ hle with h | h
      · rw [h]; exact h0
      · exact hin _ h
    cases hbit : bit m ((va - high) / 2097152) with
    | true => rfl
    | false =>
      have := (a5 _ hlt).1 hbit
      omega

theorem pc32_ok : Sane pc32 ∧ (∀ i, InRam pc32 i → i < tableSize pc32) ∧ 0 < tableSize pc32 := by
  refine ⟨⟨by decide, ?_⟩, fun i hi => ?_, by decide⟩
  · rw [pc32_spans]; simp
  · obtain ⟨s, hs, h1, h2⟩ := hi
    rw [pc32_spans] at hs
    simp at hs
    subst hs
    have : tableSize pc32 = 15 := by decide
    omega

example : ∃ m, initAt flagsEx 0x93#64 (fun _ => 0) placeEx pc32 = .ok m ∧
    ∀ va, (high ≤ va ∧ va < placeEx.endBrk.toNat ∨ ∃ a : Cell, a.In m ∧ (a.at_ placeEx pc32).1 ≤ va ∧ va < (a.at_ placeEx pc32).1 + (a.at_ placeEx pc32).2) →
      walk (Paging.exMem Paging.pde) Paging.cr3 va = some (va - high, true) ∧ bit m ((va - high) / 2097152) = true :=
  C93_reserved_partial flagsEx (by decide) _ ⟨by decide, by decide, by decide, by decide, by decide⟩ pc32_ok.1 pc32_ok.2.1 pc32_ok.2.2
    (fun j hj => .inl (by have : lastPage placeEx pc32 (spans (entries pc32)).length = 0 := by decide
                          omega)) (by decide) (Paging.exMem_loaded Paging.pde)

/-- C93, consequence: right after `init_memory`, `alloc_pages` (as far as C62 goes) hands out no page that contains
a byte of the kernel or of the tables. -/
theorem C93_alloc_partial (c : Flags) {kflags : BitVec 64} (hk : kflags ≠ 0#64) (junk : Nat → BitVec 64) {L : Place} {es : List Entry} (R : Room L es) (hs : Sane es)
    (hin : ∀ i, InRam es i → i < tableSize es) (h0 : 0 < tableSize es)
    (hker : ∀ j, j ≤ lastPage L es (spans (entries es)).length → j = 0 ∨ InRam es j)
    (hmap : (endOfStruct L es (spans (entries es)).length).toNat ≤ high + 0xA00000)
    {m m' : Mm} (e : initAt c kflags junk L es = .ok m) {sel : Sel} {number : Nat} (h64 : number ≤ 64) {flags : BitVec 64} (hf : flags ≠ 0#64)
    (hz : ∀ z, (range m sel).1 ≤ z → z < (range m sel).1 + (range m sel).2 → frame (m.zones.at_ z).start % 64 = 1)
    {p : Nat} (ea : allocPages c m sel number flags = .ok (m', some p)) {mem : Nat → Nat} (hm : Loaded mem Paging.pml4 Paging.pdpte Paging.pde)
    {va pa : Nat} {w : Bool} (hva : high ≤ va ∧ va < L.endBrk.toNat ∨ ∃ a : Cell, a.In m ∧ (a.at_ L es).1 ≤ va ∧ va < (a.at_ L es).1 + (a.at_ L es).2)
    (hw : walk mem Paging.cr3 va = some (pa, w)) : ¬ (p * 2097152 ≤ pa ∧ pa < (p + number) * 2097152) := by
  obtain ⟨m2, e2, h⟩ := C93_reserved_partial c hk junk R hs hin h0 hker hmap hm
  rw [e] at e2
  cases e2
  obtain ⟨h1, h2⟩ := h va hva
  rw [h1] at hw
  injection hw with hw
  injection hw with hw _
  rw [← hw]
  have hH : ∃ n, n < 2 ^ 32 ∧ Hist c false n m := by
    obtain ⟨m1, e1, e'⟩ := Res.bind_eq_ok.1 e
    obtain ⟨m2, e2, e'⟩ := Res.bind_eq_ok.1 e'
    obtain ⟨_, _, hz32⟩ := initAt_sizes e
    have hsz := (claim_same _ _ e').size
    simp only at hsz
    obtain ⟨n1, n2, n3, n4, n5, n6, n7, n8, n9, n10⟩ := R.nums (hsz ▸ hz32)
    refine ⟨lastPage L es m2.zonesSize + 1, by rw [n10]; simp only [high] at *; omega, .boot hk (by simp) (last := lastPage L es m2.zonesSize) (junk := junk) (es := es) ?_⟩
    rw [initMemory, e1, Res.ok_bind, e2, Res.ok_bind]
    exact e'
  obtain ⟨n, hn, hH⟩ := hH
  obtain ⟨q1, _⟩ := (C62_alloc_partial hH (by omega) h64 hf hz ea).2 p rfl
  intro hh
  obtain ⟨_, _, _, hb, _⟩ := q1 ((va - high) / 2097152 - p) (by omega)
  rw [show p + ((va - high) / 2097152 - p) = (va - high) / 2097152 by omega, h2] at hb
  cases hb

/-- Three pages on the machine with 32 MB: 1, 2 and 3; the kernel and the tables are in page 0. -/
example : (do
    let m ← initAt flagsEx 0x93#64 (fun _ => 0) placeEx pc32
    let (_, p) ← allocPages flagsEx m .dma 3 0x90#64
    .ok (p, frame (m.zones.at_ 0).start % 64, range m .dma)) = (.ok (some 1, 1, (0, 1)) : Res (Option Nat × Nat × (Nat × Nat))) := by
  decide +kernel

/-- C93 is violated: whenever the table of pages starts below the mapped 10 MiB and extends beyond them, the
first pixel of the screen (kernel address 0xffff800000a00000, see C60) is part of the entry of some page: drawing
changes the allocator's data, and the allocator draws. -/
theorem C93_screen_violated {L : Place} {es : List Entry} (R : Room L es) (hlow : (pagesStruct L es).toNat ≤ 0xffff800000a00000)
    (hbig : 0xffff800000a00000 < (pagesStruct L es).toNat + L.pageSize.toNat * tableSize es) {mem : Nat → Nat} (hm : Loaded mem Paging.pml4 Paging.pdpte Paging.pde) :
    ∃ i, i < tableSize es ∧ ((Cell.page i).at_ L es).1 ≤ 0xffff800000a00000 ∧ 0xffff800000a00000 < ((Cell.page i).at_ L es).1 + ((Cell.page i).at_ L es).2 ∧
      walk mem Paging.cr3 0xffff800000a00000 = some (0xE0000000, true) := by
  have hp : 0 < L.pageSize.toNat := by
    rcases Nat.eq_zero_or_pos L.pageSize.toNat with h | h
    · rw [h] at hbig; omega
    · exact h
  have h1 := Nat.div_add_mod (0xffff800000a00000 - (pagesStruct L es).toNat) L.pageSize.toNat
  have h2 := Nat.mod_lt (0xffff800000a00000 - (pagesStruct L es).toNat) hp
  refine ⟨(0xffff800000a00000 - (pagesStruct L es).toNat) / L.pageSize.toNat, ?_, ?_, ?_, Paging.C60_framebuffer mem hm 0 (by decide)⟩
  · rw [Nat.div_lt_iff_lt_mul hp, Nat.mul_comm]; omega
  · simp only [Cell.at_]; omega
  · simp only [Cell.at_]; omega

/-- A machine with 512 GB: 262144 pages, 12 MB of table. -/
def pc512G : List Entry := [⟨0, 654336, 1⟩, ⟨654336, 1024, 2⟩, ⟨983040, 65536, 2⟩, ⟨1048576, 0x8000000000, 1⟩]

example : Room placeEx pc512G ∧ (pagesStruct placeEx pc512G).toNat ≤ 0xffff800000a00000 ∧
    0xffff800000a00000 < (pagesStruct placeEx pc512G).toNat + placeEx.pageSize.toNat * tableSize pc512G :=
  ⟨⟨by decide, by decide, by decide, by decide, by decide⟩, by decide, by decide⟩

end Verif.Phys
