import Verif.Props.PhysAlloc

/-!
Property C62, continued: which zone the pages belong to, and when `alloc_pages` returns.
-/

namespace Verif.Phys
open Verif
open Verif.E820 (Entry)

/-- A page marked free is set up. -/
def Known (m : Mm) : Prop := ∀ i, i < 64 * m.bits.n → bit m i = false → i < m.pages.n ∧ ∃ p, m.pages.at_ i = some p

theorem Known.upd {m m' : Mm} (K : Known m) {a : Nat} (hb : m'.bits.n = m.bits.n) (hp : m'.pages.n = m.pages.n) (ha : a < m.pages.n) (hpa : ∃ p, m'.pages.at_ a = some p)
    (h1 : ∀ i, i ≠ a → bit m' i = false → bit m i = false) (h2 : ∀ i, i ≠ a → m'.pages.at_ i = m.pages.at_ i) : Known m' := by
  intro i hi hbi
  rw [hp]
  by_cases h : i = a
  · subst h; exact ⟨ha, hpa⟩
  · rw [h2 i h]; exact K i (by rw [← hb]; exact hi) (h1 i h hbi)

theorem Known.addPages {z g : Nat} {start : BitVec 64} (hs : start.toNat = g * 2097152) : ∀ (n j : Nat) {m m' : Mm}, m.pages.n < 2 ^ 43 → m.pages.n ≤ 64 * m.bits.n → Known m →
    Phys.addPages z g start n j m = .ok m' → Known m' := by
  intro n
  induction n with
  | zero => intro j m m' _ _ K e; cases e; exact K
  | succ n ih =>
    intro j m m' h1 h2 K e
    rw [Phys.addPages] at e
    by_cases hlt : g + j < m.pages.n
    · have ha : (start + BitVec.ofNat 64 (2097152 * j)).toNat = (g + j) * 2097152 := by
        rw [BitVec.toNat_add, hs, BitVec.toNat_ofNat]; omega
      rw [setPage_ok hlt, Res.ok_bind, frame_addr ha, modBit_ok (by simp; omega), Res.ok_bind] at e
      refine ih (j + 1) (m := putBit { m with pages := m.pages.put (g + j) (some ⟨z, start + BitVec.ofNat 64 (2097152 * j), 0, 0⟩) } (g + j) fun w b => w ^^^ b) h1 h2 ?_ e
      refine K.upd (a := g + j) rfl rfl hlt ⟨_, Arr.put_same _ _ _⟩ (fun i hi hb => ?_) (fun i hi => Arr.put_ne _ _ hi)
      rw [bit_xor, decide_eq_false hi, Bool.xor_false] at hb
      exact hb
    · rw [setPage, Arr.set_ub hlt] at e; cases e

theorem Known.addZones : ∀ (es : List Entry) {m m' : Mm}, Fresh m → Known m → Phys.addZones es m = .ok m' → Known m' := by
  intro es
  induction es with
  | nil => intro m m' _ K e; cases e; exact K
  | cons x es ih =>
    intro m m' F K e
    rw [Phys.addZones] at e
    obtain ⟨m1, e1, e2⟩ := Res.bind_eq_ok.1 e
    have F1 : Fresh m1 := Fresh.addZones [x] F (by rw [Phys.addZones, e1]; rfl)
    refine ih F1 ?_ e2
    rw [addZone] at e1
    split at e1
    · cases e1; exact K
    · split at e1
      · cases e1; exact K
      · obtain ⟨zs, ez, ep⟩ := Res.bind_eq_ok.1 e1
        have hst : (zoneStart x).toNat = frame (zoneStart x) * 2097152 := by
          have h1 := (x.address + 2097151#64).isLt
          rw [frame, BitVec.toNat_ushiftRight, Nat.shiftRight_eq_div_pow, zoneStart, mask21, shr_shl]; omega
        exact Known.addPages hst _ _ (m := { m with zones := zs, zonesSize := m.zonesSize + 1 }) F.small F.cover K ep

theorem Known.init {c : Flags} {n : Nat} {m m' : Mm} (I : Inv c n m) (K : Known m) {i : Nat} {flags : BitVec 64} (e : pageInit c m i flags = .ok m') : Known m' := by
  obtain ⟨p, hg, _⟩ := Res.bind_eq_ok.1 e
  obtain ⟨hi, hp⟩ := getPage_inv hg
  rw [pageInit_eq I hi hp] at e
  injection e with e
  have hor : ∀ j, j ≠ i → bit (putBit m i fun w b => w ||| b) j = false → bit m j = false := by
    intro j hj hb; rw [bit_or, decide_eq_false hj, Bool.or_false] at hb; exact hb
  split at e
  · subst e
    exact K.upd (a := i) rfl rfl hi ⟨_, Arr.put_same _ _ _⟩ hor (fun j hj => Arr.put_ne _ _ hj)
  · split at e
    · subst e
      exact K.upd (a := i) rfl rfl hi ⟨_, Arr.put_same _ _ _⟩ (fun j _ h => h) (fun j hj => Arr.put_ne _ _ hj)
    · subst e
      exact K.upd (a := i) rfl rfl hi ⟨_, Arr.put_same _ _ _⟩ hor (fun j hj => Arr.put_ne _ _ hj)

theorem Known.clean {c : Flags} {n : Nat} {m m' : Mm} (I : Inv c n m) (K : Known m) {i : Nat} (e : pageClean c m i = .ok m') : Known m' := by
  obtain ⟨p, hg, _⟩ := Res.bind_eq_ok.1 e
  obtain ⟨hi, hp⟩ := getPage_inv hg
  rw [pageClean_eq I hi hp] at e
  injection e with e
  split at e
  · subst e; exact K
  · split at e
    · split at e
      · subst e
        exact K.upd (a := i) rfl rfl hi ⟨_, Arr.put_same _ _ _⟩ (fun j _ h => h) (fun j hj => Arr.put_ne _ _ hj)
      · subst e
        exact K.upd (a := i) rfl rfl hi ⟨_, Arr.put_same _ _ _⟩ (fun j _ h => h) (fun j hj => Arr.put_ne _ _ hj)
    · subst e
      refine K.upd (a := i) rfl rfl hi ⟨_, Arr.put_same _ _ _⟩ (fun j hj hb => ?_) (fun j hj => Arr.put_ne _ _ hj)
      have hb : bit (putBit m i fun w b => w &&& ~~~b) j = false := hb
      rw [bit_clear, decide_eq_false hj] at hb
      simpa using hb

theorem Known.take {c : Flags} {flags : BitVec 64} (hf : flags ≠ 0#64) {page : Nat} : ∀ (k j : Nat) {n : Nat} {m m' : Mm}, Inv c n m → n + k < 2 ^ 64 → Known m →
    Phys.take c flags page k j m = .ok m' → Known m' := by
  intro k
  induction k with
  | zero => intro j n m m' _ _ K e; cases e; exact K
  | succ k ih =>
    intro j n m m' I hn K e
    obtain ⟨m1, e1, e2⟩ := Res.bind_eq_ok.1 e
    exact ih (j + 1) (I.init (by omega) hf e1) (by omega) (K.init I e1) e2

theorem Known.claim {c : Flags} {flags : BitVec 64} (hf : flags ≠ 0#64) : ∀ (k j : Nat) {n : Nat} {m m' : Mm}, Inv c n m → n + k < 2 ^ 64 → Known m →
    Phys.claim c flags k j m = .ok m' → Known m' := by
  intro k
  induction k with
  | zero => intro j n m m' _ _ K e; cases e; exact K
  | succ k ih =>
    intro j n m m' I hn K e
    obtain ⟨m1, e1, e2⟩ := Res.bind_eq_ok.1 e
    exact ih (j + 1) (I.init (by omega) hf e1) (by omega) (K.init I e1) e2

theorem initMemory_known {c : Flags} {kflags : BitVec 64} (hk : kflags ≠ 0#64) {last : Nat} {junk : Nat → BitVec 64} {es : List Entry} {m : Mm}
    (hl : last + 1 < 2 ^ 64) (e : initMemory c kflags last junk es = .ok m) : Known m := by
  obtain ⟨m1, m2, e1, h0, hp, hb, F, e⟩ := initMemory_fresh e
  have M0 := tables_mapped es junk
  have K1 : Known m1 := by
    refine Known.addZones _ (M0.fresh (by omega) (tableSize_lt es) (by simp)) ?_ e1
    intro i hi hb
    rw [M0.nb] at hi
    rw [M0.bit i hi] at hb
    simp at hb
  have K2 : Known m2 := by
    refine K1.upd (a := 0) (by rw [hb]) (by rw [hp]; rfl) h0 (by rw [hp]; exact ⟨_, Arr.put_same _ _ _⟩) (fun i _ h => ?_) (fun i hi => by rw [hp]; exact Arr.put_ne _ _ hi)
    rw [bit, hb] at h; exact h
  exact Known.claim hk _ _ (F.inv c) (by omega) K2 e

theorem Hist.known {c : Flags} {plain : Bool} {n : Nat} {m : Mm} (h : Hist c plain n m) : n < 2 ^ 64 → Known m := by
  induction h with
  | boot h _ e => intro hn; exact initMemory_known h (by omega) e
  | init h' h _ e ih => intro hn; exact (ih (by omega)).init (h'.inv (by omega)) e
  | clean h' e ih => intro hn; exact (ih hn).clean (h'.inv hn) e
  | alloc h' h _ e ih =>
    intro hn
    rcases (alloc_take e).2 with ⟨_, rfl⟩ | ⟨p, _, e2⟩
    · exact ih (by omega)
    · exact (ih (by omega)).take h _ _ (h'.inv (by omega)) hn e2

theorem take_ok {c : Flags} {flags : BitVec 64} (hf : flags ≠ 0#64) {page : Nat} : ∀ (k j : Nat) {n : Nat} {m : Mm}, Inv c n m → n + k < 2 ^ 64 →
    (∀ l, j ≤ l → l < j + k → page + l < m.pages.n ∧ ∃ q, m.pages.at_ (page + l) = some q) → ∃ m', take c flags page k j m = .ok m' := by
  intro k
  induction k with
  | zero => intro j n m _ _ _; exact ⟨m, rfl⟩
  | succ k ih =>
    intro j n m I hn h
    obtain ⟨hi, p, hp⟩ := h j (by omega) (by omega)
    obtain ⟨m1, e1⟩ : ∃ m1, pageInit c m (page + j) flags = .ok m1 := ⟨_, pageInit_eq I hi hp flags⟩
    rw [take, e1, Res.ok_bind]
    refine ih (j + 1) (I.init (by omega) hf e1) (by omega) fun l h1 h2 => ?_
    obtain ⟨g1, q, g2⟩ := h l (by omega) (by omega)
    have key : m1.pages.n = m.pages.n ∧ m1.pages.at_ (page + l) = m.pages.at_ (page + l) := by
      rw [pageInit_eq I hi hp flags] at e1
      injection e1 with e1
      subst e1
      split
      · exact ⟨rfl, Arr.put_ne _ _ (by omega)⟩
      · split
        · exact ⟨rfl, Arr.put_ne _ _ (by omega)⟩
        · exact ⟨rfl, Arr.put_ne _ _ (by omega)⟩
    rw [key.1, key.2]
    exact ⟨g1, q, g2⟩

/-- C62 is violated: `alloc_pages` takes the first run of free pages in the 64-page block of the zone, not
looking where the zone ends. If this run reaches beyond the end of the zone, the pages handed out are
not all of the zone. -/
theorem C62_zone_violated {c : Flags} {plain : Bool} {n : Nat} {m : Mm} (h : Hist c plain n m) (sel : Sel) {number : Nat} (hn : n + number < 2 ^ 64) (h0 : 0 < number) (h64 : number ≤ 64)
    {flags : BitVec 64} (hf : flags ≠ 0#64) {z k start stop p : Nat} (hr : range m sel = (z, k + 1)) (hz : z < m.zones.n) (hfree : number ≤ (m.zones.at_ z).free.toNat)
    (hst : frame (m.zones.at_ z).start = start) (hs : start % 64 = 1) (hsp : frame (m.zones.at_ z).stop = stop) (hle : start ≤ stop)
    (hp1 : start ≤ p) (hp2 : p < start / 64 * 64 + 63) (hrun : ∀ l, l < number → p + l < m.pages.n ∧ bit m (p + l) = false)
    (hfirst : ∀ i, start ≤ i → i < p → ∃ l, l < number ∧ bit m (i + l) = true) (hout : stop < p + number) :
    ∃ m' q, allocPages c m sel number flags = .ok (m', some p) ∧ m.pages.at_ (p + number - 1) = some q ∧ m'.pages.at_ (p + number - 1) = some { q with attr := flags, refs := 1#64 } ∧
      stop ≤ frame q.addr := by
  have I := h.inv (by omega)
  have K := h.known (by omega)
  have hfr : FreeRun m p number := fun l hl => (hrun l hl).2
  have hsearch : search m number (k + 1) z = .ok (some p) := by
    rw [search, Arr.get_ok hz, Res.ok_bind, if_neg (by omega), hst, hsp]
    rcases words_spec (m := m) (f := stop) h64 (show start % 64 ≠ 0 by omega) hle with ⟨k', a1, a2, a3, a4, a5⟩ | ⟨a1, _⟩
    · have : start + k' - 1 = p := by
        by_cases h1 : start / 64 * 64 + k' < p
        · obtain ⟨l, hl, hb⟩ := hfirst (start / 64 * 64 + k') (by omega) h1
          rw [a3 l hl] at hb; cases hb
        · by_cases h2 : p < start / 64 * 64 + k'
          · refine absurd ?_ (a4 (p - start / 64 * 64) (by omega) (by omega))
            rw [show start / 64 * 64 + (p - start / 64 * 64) = p by omega]; exact hfr
          · omega
      rw [a5, this]; rfl
    · refine absurd ?_ (a1 (p - start / 64 * 64) (by omega) (by omega))
      rw [show start / 64 * 64 + (p - start / 64 * 64) = p by omega]; exact hfr
  have hex : ∀ l, 0 ≤ l → l < 0 + number → p + l < m.pages.n ∧ ∃ q, m.pages.at_ (p + l) = some q := fun l _ hl =>
    K (p + l) (Nat.lt_of_lt_of_le (hrun l (by omega)).1 I.cover) (hrun l (by omega)).2
  obtain ⟨m', e⟩ := take_ok (c := c) hf number 0 I hn hex
  obtain ⟨a1, _⟩ := take_spec hf number 0 I hn (fun l _ h2 => hfr l (by omega)) e
  obtain ⟨q, q1, q2, _, _, q5⟩ := a1 (number - 1) (by omega) (by omega)
  rw [show p + (number - 1) = p + number - 1 by omega] at q1 q2 q5
  refine ⟨m', q, ?_, q2, q5, ?_⟩
  · rw [allocPages, hr, hsearch, Res.ok_bind]
    simp only [e, Res.ok_bind]
  · rw [frame_addr (I.page _ q q1 q2).addr]; omega

/-- RAM from 1 MB to 12 MB and, in another entry, from 12 MB on: two zones that touch. Pages 2 and 4 of
the first are used; two pages are requested: the last of the first zone and the first of the second. -/
example : (do
    let m ← initMemory flagsEx 0x93#64 0 (fun _ => 0) [⟨0x100000, 0xb00000, 1⟩, ⟨0xc00000, 0x1300000, 1⟩]
    let m ← pageInit flagsEx m 2 0x90#64
    let m ← pageInit flagsEx m 4 0x90#64
    let (m1, p) ← allocPages flagsEx m .dma 2 0x90#64
    .ok (frame (m.zones.at_ 0).stop, p, (m1.pages.at_ 5).map (·.zone), (m1.pages.at_ 6).map (·.zone))) = (.ok (6, some 5, some 0, some 1) : Res (Nat × Option Nat × Option Nat × Option Nat)) := by
  decide

/-- The zone starts one page behind a multiple of 64 and ends in the same block of 64 pages; behind it
there is no other page in this block. -/
structure Plain (m : Mm) (z : Nat) : Prop where
  idx : z < m.zones.n
  start : frame (m.zones.at_ z).start % 64 = 1
  inside : frame (m.zones.at_ z).start < m.pages.n
  le : frame (m.zones.at_ z).start ≤ frame (m.zones.at_ z).stop
  block : frame (m.zones.at_ z).stop < frame (m.zones.at_ z).start / 64 * 64 + 64
  hole : ∀ i, frame (m.zones.at_ z).stop ≤ i → i < frame (m.zones.at_ z).start / 64 * 64 + 64 → m.pages.at_ i = none

/-- `p, …, p + number - 1` are free pages of zone `z`. -/
def RunIn (m : Mm) (z p number : Nat) : Prop :=
  frame (m.zones.at_ z).start ≤ p ∧ p + number ≤ frame (m.zones.at_ z).stop ∧ FreeRun m p number

theorem search_plain {m : Mm} (K : Known m) (hc : m.pages.n ≤ 64 * m.bits.n) {number : Nat} (hn : number ≤ 64) : ∀ (k z : Nat), (∀ i, z ≤ i → i < z + k → Plain m i) →
    ∃ r, search m number k z = .ok r ∧
      (∀ p, r = some p → ∃ i, z ≤ i ∧ i < z + k ∧ number ≤ (m.zones.at_ i).free.toNat ∧ RunIn m i p number ∧ (∀ p', RunIn m i p' number → p ≤ p') ∧
        ∀ j, z ≤ j → j < i → (m.zones.at_ j).free.toNat < number ∨ ∀ p', ¬ RunIn m j p' number) ∧
      (r = none → ∀ j, z ≤ j → j < z + k → (m.zones.at_ j).free.toNat < number ∨ ∀ p', ¬ RunIn m j p' number) := by
  intro k
  induction k with
  | zero => intro z _; exact ⟨none, rfl, nofun, fun _ j h1 h2 => by omega⟩
  | succ k ih =>
    intro z hz
    obtain ⟨r, e, a1, a2⟩ := ih (z + 1) (fun i h1 h2 => hz i (by omega) (by omega))
    have P := hz z (by omega) (by omega)
    have skip : search m number (k + 1) z = search m number k (z + 1) → ((m.zones.at_ z).free.toNat < number ∨ ∀ p', ¬ RunIn m z p' number) →
        ∃ r, search m number (k + 1) z = .ok r ∧
          (∀ p, r = some p → ∃ i, z ≤ i ∧ i < z + (k + 1) ∧ number ≤ (m.zones.at_ i).free.toNat ∧ RunIn m i p number ∧ (∀ p', RunIn m i p' number → p ≤ p') ∧
            ∀ j, z ≤ j → j < i → (m.zones.at_ j).free.toNat < number ∨ ∀ p', ¬ RunIn m j p' number) ∧
          (r = none → ∀ j, z ≤ j → j < z + (k + 1) → (m.zones.at_ j).free.toNat < number ∨ ∀ p', ¬ RunIn m j p' number) := by
      intro es hno
      refine ⟨r, by rw [es, e], fun p hp => ?_, fun hr j h1 h2 => ?_⟩
      · obtain ⟨i, b1, b2, b3, b4, b5, b6⟩ := a1 p hp
        refine ⟨i, by omega, by omega, b3, b4, b5, fun j h1 h2 => ?_⟩
        by_cases hj : j = z
        · subst hj; exact hno
        · exact b6 j (by omega) h2
      · by_cases hj : j = z
        · subst hj; exact hno
        · exact a2 hr j (by omega) (by omega)
    by_cases hlt : (m.zones.at_ z).free.toNat < number
    · exact skip (by rw [search, Arr.get_ok P.idx, Res.ok_bind, if_pos hlt]) (.inl hlt)
    · have p1 := P.start
      have p2 := P.inside
      have p3 := P.le
      have p4 := P.block
      rcases words_spec (m := m) (f := frame (m.zones.at_ z).stop) hn (show frame (m.zones.at_ z).start % 64 ≠ 0 by omega) P.le with ⟨k', b1, b2, b3, b4, b5⟩ | ⟨b1, b2⟩
      · refine ⟨some (frame (m.zones.at_ z).start + k' - 1), by rw [search, Arr.get_ok P.idx, Res.ok_bind, if_neg hlt, b5]; rfl, fun p hp => ?_, fun h => by cases h⟩
        cases hp
        rw [show frame (m.zones.at_ z).start + k' - 1 = frame (m.zones.at_ z).start / 64 * 64 + k' by omega]
        have hno : ∀ i, frame (m.zones.at_ z).stop ≤ i → i < frame (m.zones.at_ z).start / 64 * 64 + 64 → bit m i = true := by
          intro i h1 h2
          cases hb : bit m i with
          | true => rfl
          | false =>
            obtain ⟨_, q, hq⟩ := K i (by omega) hb
            rw [P.hole i h1 h2] at hq; cases hq
        refine ⟨z, by omega, by omega, by omega, ⟨by omega, ?_, b3⟩, fun p' hp' => ?_, fun j h1 h2 => by omega⟩
        · by_cases h0 : number = 0
          · subst h0
            have : k' = frame (m.zones.at_ z).start % 64 := by
              by_cases hk : k' = frame (m.zones.at_ z).start % 64
              · exact hk
              · exact absurd (fun t ht => by omega) (b4 (frame (m.zones.at_ z).start % 64) (by omega) (by omega))
            omega
          · by_cases h1 : frame (m.zones.at_ z).stop ≤ frame (m.zones.at_ z).start / 64 * 64 + k'
            · have := b3 0 (by omega)
              rw [Nat.add_zero, hno _ h1 (by omega)] at this; cases this
            · by_cases h2 : frame (m.zones.at_ z).start / 64 * 64 + k' + number ≤ frame (m.zones.at_ z).stop
              · exact h2
              · have := b3 (frame (m.zones.at_ z).stop - (frame (m.zones.at_ z).start / 64 * 64 + k')) (by omega)
                rw [show frame (m.zones.at_ z).start / 64 * 64 + k' + (frame (m.zones.at_ z).stop - (frame (m.zones.at_ z).start / 64 * 64 + k')) = frame (m.zones.at_ z).stop by omega,
                  hno _ (Nat.le_refl _) p4] at this
                cases this
        · obtain ⟨c1, c2, c3⟩ := hp'
          by_cases hlt' : p' < frame (m.zones.at_ z).start / 64 * 64 + k'
          · refine absurd ?_ (b4 (p' - frame (m.zones.at_ z).start / 64 * 64) (by omega) (by omega))
            rw [show frame (m.zones.at_ z).start / 64 * 64 + (p' - frame (m.zones.at_ z).start / 64 * 64) = p' by omega]; exact c3
          · omega
      · rw [if_neg (by omega)] at b2
        refine skip (by rw [search, Arr.get_ok P.idx, Res.ok_bind, if_neg hlt, b2]; rfl) (.inr fun p' hp' => ?_)
        obtain ⟨c1, c2, c3⟩ := hp'
        by_cases h0 : number = 0
        · subst h0
          exact b1 (frame (m.zones.at_ z).start % 64) (by omega) (by omega) fun t ht => by omega
        · refine b1 (p' - frame (m.zones.at_ z).start / 64 * 64) (by omega) (by omega) ?_
          rw [show frame (m.zones.at_ z).start / 64 * 64 + (p' - frame (m.zones.at_ z).start / 64 * 64) = p' by omega]; exact c3

/-- C62, what holds with zones that start one page behind a multiple of 64, end in the same block of 64
pages and are not followed by other pages in this block: in every history `alloc_pages` returns; it
returns the lowest run of free pages in the first zone that has enough free pages and such a run (first
fit), and null if no zone tried has one. Missing: other zones. -/
theorem C62_first_fit_partial {c : Flags} {plain : Bool} {n : Nat} {m : Mm} (h : Hist c plain n m) (sel : Sel) {number : Nat} (hn : n + number < 2 ^ 64) (h64 : number ≤ 64)
    {flags : BitVec 64} (hf : flags ≠ 0#64) (hz : ∀ z, (range m sel).1 ≤ z → z < (range m sel).1 + (range m sel).2 → Plain m z) :
    ∃ m' r, allocPages c m sel number flags = .ok (m', r) ∧
      (∀ p, r = some p → ∃ z, (range m sel).1 ≤ z ∧ z < (range m sel).1 + (range m sel).2 ∧ number ≤ (m.zones.at_ z).free.toNat ∧ RunIn m z p number ∧ (∀ p', RunIn m z p' number → p ≤ p') ∧
        ∀ j, (range m sel).1 ≤ j → j < z → (m.zones.at_ j).free.toNat < number ∨ ∀ p', ¬ RunIn m j p' number) ∧
      (r = none → ∀ j, (range m sel).1 ≤ j → j < (range m sel).1 + (range m sel).2 → (m.zones.at_ j).free.toNat < number ∨ ∀ p', ¬ RunIn m j p' number) := by
  have I := h.inv (by omega)
  have K := h.known (by omega)
  obtain ⟨r, e, a1, a2⟩ := search_plain K I.cover h64 (range m sel).2 (range m sel).1 hz
  cases r with
  | none => exact ⟨m, none, by rw [allocPages, e]; rfl, a1, a2⟩
  | some p =>
    obtain ⟨z, b1, b2, b3, ⟨c1, c2, c3⟩, _⟩ := a1 p rfl
    have P := hz z b1 b2
    have p2 := P.inside
    have p4 := P.block
    have hc := I.cover
    obtain ⟨m', e'⟩ := take_ok (c := c) (page := p) hf number 0 I hn fun l _ hl => K (p + l) (by omega) (c3 l (by omega))
    refine ⟨m', some p, ?_, a1, a2⟩
    rw [allocPages, e, Res.ok_bind]
    simp only [e', Res.ok_bind]

/-- The machine with 32 MB after boot: the zone is as required, and pages 3 to 5 are
free. -/
example : ∃ m, Hist flagsEx true 3 m ∧ Plain m 0 ∧ RunIn m 0 3 3 ∧ range m .dma = (0, 1) := by
  obtain ⟨m, e⟩ : ∃ m, initMemory flagsEx 0x93#64 2 (fun _ => 0) pc32 = .ok m := ⟨_, rfl⟩
  refine ⟨m, .boot (by decide) (fun _ => ⟨by decide, by decide⟩) e, ?_⟩
  cases e
  refine ⟨⟨by decide, by decide, by decide, by decide, by decide, ?_⟩, ⟨by decide, by decide, ?_⟩, by decide⟩
  · intro i h1 h2
    have h3 : 15 ≤ i := h1
    have h4 : i < 64 := h2
    clear h1 h2
    revert h3
    revert i
    decide
  · unfold FreeRun
    decide

end Verif.Phys
