import Verif.Lemmas.Boot

/-! Properties C63–C66: the floppy boot code. Throughout, `e.Works` says that the drive
never fails forever; the statements are about all large enough numbers of retries `f`. -/

set_option backward.isDefEq.respectTransparency false

namespace Verif.Boot
open Verif

/-! ## C63 -/

/-- Bit `j` of the file allocation table, which starts at sector 1. -/
def fatBit (e : Env) (j : Nat) : Bool := (e.disk (512 + j / 8)).getLsbD (j % 8)

/-- The FAT12 format: entry `n` is made of the bits `12 n .. 12 n + 11` of the table. -/
def IsEntry (e : Env) (n v : Nat) : Prop := ∀ k, v.testBit k = (decide (k < 12) && fatBit e (12 * n + k))

theorem IsEntry.unique {e : Env} {n v w : Nat} (hv : IsEntry e n v) (hw : IsEntry e n w) : v = w :=
  Nat.eq_of_testBit_eq fun k => by rw [hv k, hw k]

theorem mask_bit (k : Nat) : (0xfff : BitVec 16).getLsbD k = decide (k < 12) := by
  by_cases h : k < 16
  · have : ∀ k : Fin 16, (0xfff : BitVec 16).getLsbD k.val = decide (k.val < 12) := by decide
    exact this ⟨k, h⟩
  · rw [BitVec.getLsbD_of_ge _ _ (by omega), decide_eq_false (by omega)]

theorem rawEntry_isEntry (e : Env) (n : Nat) : IsEntry e n (rawEntry e n).toNat := by
  intro k
  rw [BitVec.testBit_toNat]
  unfold rawEntry
  simp only [BitVec.getLsbD_and, mask_bit]
  by_cases hk : k < 12
  · simp only [hk, decide_true, Bool.and_true, Bool.true_and]
    unfold fatBit
    have hp : ∀ (a b : BitVec 8) i, (pack a b).getLsbD i = if i < 8 then b.getLsbD i else a.getLsbD (i - 8) := by
      intro a b i
      unfold pack
      rw [BitVec.getLsbD_append]
    by_cases ho : n % 2 = 1
    · rw [if_pos ho, BitVec.getLsbD_ushiftRight, hp]
      by_cases h8 : 4 + k < 8
      · rw [if_pos h8, show (12 * n + k) / 8 = 3 * n / 2 by omega, show (12 * n + k) % 8 = 4 + k by omega]
      · rw [if_neg h8]
        by_cases h16 : 4 + k < 16
        · rw [show (12 * n + k) / 8 = 3 * n / 2 + 1 by omega, show (12 * n + k) % 8 = 4 + k - 8 by omega, Nat.add_assoc]
        · omega
    · rw [if_neg ho, hp]
      by_cases h8 : k < 8
      · rw [if_pos h8, show (12 * n + k) / 8 = 3 * n / 2 by omega, show (12 * n + k) % 8 = k by omega]
      · rw [if_neg h8, show (12 * n + k) / 8 = 3 * n / 2 + 1 by omega, show (12 * n + k) % 8 = k - 8 by omega, Nat.add_assoc]
  · simp [hk]

/-- C63. For every cluster number whose entry is in the table (9 sectors hold 3072
entries), whatever the table contains: `Get_FAT_Entry` returns its entry, gives the
registers `es` and `bx` back, and touches only its two-sector buffer. -/
theorem C63_entry (e : Env) (he : e.Works) (s : M) (hc : s.ax.toNat < 3072) :
    ∃ s' n, (∀ f, n ≤ f → getFatEntry e f s = .ok s') ∧ IsEntry e s.ax.toNat s'.ax.toNat ∧
      s'.es = s.es ∧ s'.bx = s.bx ∧ ∀ a, ¬ (0x8000 ≤ a ∧ a < 0x8400) → s'.mem a = s.mem a := by
  obtain ⟨s', ⟨⟨n, hn⟩, _⟩, h2, h3, h4⟩ := getFatEntry_ok e he s hc
  exact ⟨s', n, hn, by rw [h2]; exact rawEntry_isEntry e _, h3.es, h3.bx, h4⟩

/-- A disk whose bytes are their positions, and a drive that fails every second time. -/
def exEnv : Env :=
  { disk := fun i => BitVec.ofNat 8 (i / 3 + i), flaky := fun k => if k % 2 = 0 then some (fun _ => 7) else none
    data := fun i => BitVec.ofNat 8 i.toNat, name := 100 }

theorem exEnv_works : exEnv.Works := fun k => ⟨2 * k + 1, by omega, by simp [exEnv]⟩

/-- A blank machine. -/
def exM : M :=
  { ax := 0, bx := 0, cx := 0, dx := 0, si := 0, di := 0, es := 0, sectorNo := 0, kernelOffset := 0
    mem := fun _ => 0, calls := 0, log := [] }

/-- Cluster 341: its entry straddles the first two sectors of the table. -/
example : exEnv.Works ∧ ({ exM with ax := 341 } : M).ax.toNat < 3072 ∧ 3 * 341 / 2 = 511 :=
  ⟨exEnv_works, by decide, by decide⟩

/-! ## C64 -/

/-- C64, what is read: for every sector number of the disk and a number of sectors that
stays in the track, `Read_One_Sector` fills the buffer with those sectors of the disk
image (cylinder by cylinder, head by head, sector by sector), nothing else changes. -/
theorem C64_reads (e : Env) (he : e.Works) (s : M) (hlba : s.ax.toNat < 2880)
    (h1 : 1 ≤ (lo8 s.cx).toNat) (h2 : s.ax.toNat % 18 + (lo8 s.cx).toNat ≤ 18)
    (hb : phys s.es s.bx / 65536 = (phys s.es s.bx + (lo8 s.cx).toNat * 512 - 1) / 65536) :
    ∃ s' n, (∀ f, n ≤ f → readSector e f s = .ok s') ∧
      (∀ i, i < (lo8 s.cx).toNat * 512 → s'.mem (phys s.es s.bx + i) = e.disk (s.ax.toNat * 512 + i)) ∧
      ∀ a, ¬ (phys s.es s.bx ≤ a ∧ a < phys s.es s.bx + (lo8 s.cx).toNat * 512) → s'.mem a = s.mem a := by
  obtain ⟨s', ⟨⟨n, hn⟩, _⟩, h3, _⟩ := readSector_ok e he s hlba h1 h2 hb
  refine ⟨s', n, hn, ?_, ?_⟩
  · intro i hi
    rw [h3, blit, if_pos (by omega), Nat.add_sub_cancel_left]
  · intro a ha
    rw [h3, blit, if_neg ha]

example : ({ exM with ax := 2879, cx := 1, es := 0x1000, bx := 0xFE00 } : M).ax.toNat < 2880 ∧
    1 ≤ (lo8 1).toNat ∧ 2879 % 18 + (lo8 1).toNat ≤ 18 ∧
    phys 0x1000 0xFE00 / 65536 = (phys 0x1000 0xFE00 + (lo8 1).toNat * 512 - 1) / 65536 := by decide

theorem goOnReading_log (e : Env) (cnt : BitVec 8) (f : Nat) (s s' : M) (h : goOnReading e cnt f s = .ok s') :
    ∃ k, s'.log = List.replicate (k + 1)
      ((hi8 s.cx).toNat + (lo8 s.cx).toNat / 64 * 256, (hi8 s.dx).toNat, (lo8 s.cx).toNat % 64) ++ s.log := by
  induction f generalizing s with
  | zero => cases h
  | succ f ih =>
    have hl : (int13 e { s with ax := pack 2 cnt }).1.log =
        ((hi8 s.cx).toNat + (lo8 s.cx).toNat / 64 * 256, (hi8 s.dx).toNat, (lo8 s.cx).toNat % 64) :: s.log := by
      unfold int13; simp only; split <;> rfl
    unfold goOnReading at h
    simp only at h
    split at h
    · obtain ⟨k, hk⟩ := ih _ h
      rw [int13_cx, int13_dx] at hk
      refine ⟨k + 1, ?_⟩
      rw [hk, hl, List.replicate_succ' (n := k + 1)]
      simp
    · cases h
      exact ⟨0, by rw [hl]; rfl⟩

/-- C64, the addresses: for every one of the 2880 sectors, all requests made to the BIOS
are for one and the same existing (cylinder, head, sector); no two sectors share one, and
each of the 80 × 2 × 18 addresses is used for some sector; they are in disk order. -/
theorem C64_chs : ∃ req : Nat → Nat × Nat × Nat,
    (∀ e f (s s' : M), s.ax.toNat < 2880 → readSector e f s = .ok s' →
      ∃ k, s'.log = List.replicate (k + 1) (req s.ax.toNat) ++ s.log) ∧
    (∀ i, i < 2880 → (req i).1 < 80 ∧ (req i).2.1 < 2 ∧ 1 ≤ (req i).2.2 ∧ (req i).2.2 ≤ 18) ∧
    (∀ i j, req i = req j → i = j) ∧
    (∀ c h t, c < 80 → h < 2 → 1 ≤ t → t ≤ 18 → ∃ i, i < 2880 ∧ req i = (c, h, t)) ∧
    (∀ i j, i < j → (req i).1 < (req j).1 ∨ (req i).1 = (req j).1 ∧
      ((req i).2.1 < (req j).2.1 ∨ (req i).2.1 = (req j).2.1 ∧ (req i).2.2 < (req j).2.2)) := by
  refine ⟨fun i => (i / 36, i / 18 % 2, i % 18 + 1), ?_, ?_, ?_, ?_, ?_⟩
  · intro e f s s' hlba h
    have hq : s.ax.toNat / 18 < 256 := by omega
    simp only [readSector, hq, decide_true, Res.require_true, Res.ok_bind] at h
    obtain ⟨k, hk⟩ := goOnReading_log _ _ _ _ _ h
    refine ⟨k, ?_⟩
    rw [hk]
    have al : (BitVec.ofNat 8 (s.ax.toNat / 18)).toNat = s.ax.toNat / 18 := by rw [BitVec.toNat_ofNat]; omega
    have ah : (BitVec.ofNat 8 (s.ax.toNat % 18) + 1).toNat = s.ax.toNat % 18 + 1 := by
      rw [BitVec.toNat_add, BitVec.toNat_ofNat, show ((1 : BitVec 8)).toNat = 1 from rfl]; omega
    have dh : (BitVec.ofNat 8 (s.ax.toNat / 18) &&& 1).toNat = s.ax.toNat / 18 % 2 := by
      rw [BitVec.toNat_and, al, show ((1 : BitVec 8)).toNat = 2 ^ 1 - 1 from rfl, Nat.and_two_pow_sub_one_eq_mod]
    have ch : (BitVec.ofNat 8 (s.ax.toNat / 18) >>> 1).toNat = s.ax.toNat / 36 := by
      rw [BitVec.toNat_ushiftRight, al, Nat.shiftRight_eq_div_pow]; omega
    simp only [hi8_pack, lo8_pack, ah, dh, ch]
    rw [show s.ax.toNat / 36 + (s.ax.toNat % 18 + 1) / 64 * 256 = s.ax.toNat / 36 by omega,
      show (s.ax.toNat % 18 + 1) % 64 = s.ax.toNat % 18 + 1 by omega]
  · intro i hi
    dsimp only
    omega
  · intro i j h
    simp only [Prod.mk.injEq] at h
    omega
  · intro c h t hc hh h1 h2
    refine ⟨(c * 2 + h) * 18 + (t - 1), by omega, ?_⟩
    simp only [Prod.mk.injEq]
    omega
  · intro i j h
    dsimp only
    omega

example : ∃ s', readSector exEnv 5 { exM with ax := 2879, cx := 1 } = .ok s' ∧
    s'.log = [(79, 1, 18), (79, 1, 18)] := ⟨_, rfl, rfl⟩

/-! ## C65 -/

/-- Root directory entry `k` (32 bytes each, from sector 19 on) has the wanted name. -/
def HasName (e : Env) (k : Nat) : Prop :=
  ∀ j, j < 11 → e.disk (19 * 512 + 32 * k + j) = e.data (e.name + BitVec.ofNat 16 j)

theorem hasName_iff (e : Env) (k : Nat) : HasName e k ↔ Match e e.disk (dirOff k) :=
  ⟨fun h j hj => (h j hj).symm, fun h j hj => (h j hj).symm⟩

/-- C65. For all directory contents: the search ends; it finds nothing exactly if none of
the 224 entries has the name, and otherwise yields the start cluster (bytes 26 and 27) of
the first entry that has it. -/
theorem C65_search (e : Env) (he : e.Works) (s : M) :
    ∃ s' r n, (∀ f, n ≤ f → search e f s = .ok (s', r)) ∧
      (r = none ↔ ∀ k, k < 224 → ¬ HasName e k) ∧
      ∀ c, r = some c → ∃ k, k < 224 ∧ HasName e k ∧ (∀ i, i < k → ¬ HasName e i) ∧
        c.toNat = (e.disk (19 * 512 + 32 * k + 26)).toNat + 256 * (e.disk (19 * 512 + 32 * k + 27)).toNat := by
  obtain ⟨s', r, ⟨⟨n, hn⟩, _⟩, h2, h3, _, _⟩ := search_spec e he s
  refine ⟨s', r, n, hn, ⟨fun h k hk H => h3 h k hk ((hasName_iff e k).1 H), fun H => ?_⟩, ?_⟩
  · cases r with
    | none => rfl
    | some c =>
      obtain ⟨k, hk, hm, _⟩ := h2 c rfl
      exact absurd ((hasName_iff e k).2 hm) (H k hk)
  · intro c hc
    obtain ⟨k, hk, hm, hf, he⟩ := h2 c hc
    refine ⟨k, hk, (hasName_iff e k).2 hm, fun i hi H => hf i hi ((hasName_iff e i).1 H), ?_⟩
    rw [he, startCluster, toNat_pack]
    show _ = (e.disk (dirOff k + 26)).toNat + 256 * (e.disk (dirOff k + 27)).toNat
    omega

/-! ## C66 -/

/-- The sector of a cluster: the data area starts at sector 33 with cluster 2. -/
def sectorOf (c : Nat) : Nat := 33 + (c - 2)

/-- `l` is a chain of clusters of the floppy whose last entry in the table is `v`. -/
def Chain (e : Env) (v : Nat) : List Nat → Prop
  | [] => False
  | [c] => (2 ≤ c ∧ sectorOf c < 2880) ∧ IsEntry e c v
  | c :: d :: l => (2 ≤ c ∧ sectorOf c < 2880) ∧ IsEntry e c d ∧ Chain e v (d :: l)

theorem rawEntry_eq {e : Env} {c v : Nat} (h : IsEntry e c v) : rawEntry e c = BitVec.ofNat 16 v := by
  apply BitVec.eq_of_toNat_eq
  have h1 := IsEntry.unique (rawEntry_isEntry e c) h
  have h2 := (rawEntry e c).isLt
  rw [BitVec.toNat_ofNat, h1]
  rw [h1] at h2
  exact (Nat.mod_eq_of_lt h2).symm

theorem cluster_iff {c : Nat} (h : 2 ≤ c ∧ sectorOf c < 2880) : Cluster c := by
  unfold sectorOf at h; exact ⟨h.1, by omega⟩

theorem Chain.raw {e : Env} {v : Nat} {l : List Nat} (h : Chain e v l) : RawChain e (BitVec.ofNat 16 v) l := by
  induction l with
  | nil => exact h
  | cons c l ih =>
    cases l with
    | nil => exact ⟨cluster_iff h.1, rawEntry_eq h.2⟩
    | cons d l => exact ⟨cluster_iff h.1, rawEntry_eq h.2.1, ih h.2.2⟩

theorem Chain.cluster {e : Env} {v : Nat} {l : List Nat} (h : Chain e v l) : ∀ c, c ∈ l → 2 ≤ c ∧ c < 2849 := by
  induction l with
  | nil => intro c hc; cases hc
  | cons a l ih =>
    cases l with
    | nil =>
      intro c hc
      simp only [List.mem_singleton] at hc
      subst hc
      exact cluster_iff h.1
    | cons d l =>
      intro c hc
      rcases List.mem_cons.1 hc with e1 | e1
      · subst e1; exact cluster_iff h.1
      · exact ih h.2.2 c e1

/-- The chain is determined by its first cluster. -/
theorem Chain.unique {e : Env} {v : Nat} (hv : 2849 ≤ v) {l l' : List Nat} {c : Nat} (h : Chain e v (c :: l))
    (h' : Chain e v (c :: l')) : l = l' := by
  induction l generalizing c l' with
  | nil =>
    cases l' with
    | nil => rfl
    | cons d l' =>
      have := IsEntry.unique h.2 h'.2.1
      have := (Chain.cluster h'.2.2 d (List.mem_cons_self ..)).2
      omega
  | cons d l ih =>
    cases l' with
    | nil =>
      have := IsEntry.unique h'.2 h.2.1
      have := (Chain.cluster h.2.2 d (List.mem_cons_self ..)).2
      omega
    | cons d' l' =>
      have e1 := IsEntry.unique h.2.1 h'.2.1
      subst e1
      rw [ih h.2.2 h'.2.2]

theorem Chain.suffix {e : Env} {v : Nat} {l1 l2 : List Nat} {c : Nat} (h : Chain e v (l1 ++ c :: l2)) :
    Chain e v (c :: l2) := by
  induction l1 with
  | nil => exact h
  | cons a l1 ih =>
    cases l1 with
    | nil => exact h.2.2
    | cons b l1 => exact ih h.2.2

/-- A terminated chain has no repetition. -/
theorem Chain.nodup {e : Env} {v : Nat} (hv : 2849 ≤ v) {l : List Nat} (h : Chain e v l) : l.Nodup := by
  induction l with
  | nil => exact List.nodup_nil
  | cons c l ih =>
    refine List.nodup_cons.2 ⟨fun hm => ?_, ?_⟩
    · obtain ⟨l1, l2, rfl⟩ := List.append_of_mem hm
      have h2 : Chain e v (c :: l2) := Chain.suffix (l1 := c :: l1) h
      have := congrArg List.length (Chain.unique hv h h2)
      simp only [List.length_append, List.length_cons] at this
      omega
    · cases l with
      | nil => exact List.nodup_nil
      | cons d l => exact ih h.2.2

theorem nodup_bound (n : Nat) (l : List Nat) (hd : l.Nodup) (h : ∀ x, x ∈ l → x < n) : l.length ≤ n := by
  induction n generalizing l with
  | zero =>
    cases l with
    | nil => simp
    | cons a l => exact absurd (h a (List.mem_cons_self ..)) (by omega)
  | succ n ih =>
    have := ih (l.erase n) (hd.erase n) (fun x hx => by
      have h1 := (List.Nodup.mem_erase_iff hd).1 hx
      have := h x h1.2
      have := h1.1
      omega)
    rw [List.length_erase] at this
    split at this <;> omega

theorem Chain.length {e : Env} {v : Nat} (hv : 2849 ≤ v) {l : List Nat} (h : Chain e v l) : l.length ≤ 2849 :=
  nodup_bound 2849 l (h.nodup hv) fun c hc => (h.cluster c hc).2

/-- The start cluster of the first entry with the wanted name is `c`. -/
def Starts (e : Env) (c : Nat) : Prop :=
  ∃ k, k < 224 ∧ HasName e k ∧ (∀ i, i < k → ¬ HasName e i) ∧
    c = (e.disk (19 * 512 + 32 * k + 26)).toNat + 256 * (e.disk (19 * 512 + 32 * k + 27)).toNat

theorem search_starts (e : Env) (he : e.Works) (s : M) (c : Nat) (hs : Starts e c) :
    ∃ s', Ev (fun f => search e f s) (s', some (BitVec.ofNat 16 c)) ∧ s'.kernelOffset = s.kernelOffset := by
  obtain ⟨s', r, h1, h2, h3, h4, _⟩ := search_spec e he s
  obtain ⟨k, hk, hm, hf, hc⟩ := hs
  cases r with
  | none => exact absurd ((hasName_iff e k).1 hm) (h3 rfl k hk)
  | some x =>
    obtain ⟨k', hk', hm', hf', hx⟩ := h2 x rfl
    have : k' = k := by
      rcases Nat.lt_trichotomy k k' with h | h | h
      · exact absurd ((hasName_iff e k).1 hm) (hf' k h)
      · exact h.symm
      · exact absurd ((hasName_iff e k').2 hm') (hf k' h)
    subst this
    refine ⟨s', ?_, h4⟩
    have : x = BitVec.ofNat 16 c := by
      rw [hx]
      apply BitVec.eq_of_toNat_eq
      have b1 := (e.disk (dirOff k' + 26)).isLt
      have b2 := (e.disk (dirOff k' + 27)).isLt
      have hc' : c = (e.disk (dirOff k' + 26)).toNat + 256 * (e.disk (dirOff k' + 27)).toNat := hc
      rw [startCluster, toNat_pack, BitVec.toNat_ofNat]
      omega
    rw [← this]
    exact h1

theorem loadAll_at (e : Env) (l : List Nat) (i : Nat) (m : Nat → BitVec 8) (hc : ∀ c, c ∈ l → 2 ≤ c) (j : Nat)
    (hj : j < l.length) (hlast : l.length ≤ j + 128) (b : Nat) (hb : b < 512) :
    loadAll e i l m (0x10000 + 512 * ((i + j) % 128) + b) = e.disk (sectorOf l[j] * 512 + b) := by
  induction l generalizing i m j with
  | nil => simp at hj
  | cons c l ih =>
    have hc2 := hc c (List.mem_cons_self ..)
    cases j with
    | zero =>
      -- not overwritten later
      have key : ∀ (l : List Nat) (i' : Nat) (m' : Nat → BitVec 8), (∀ t, t < l.length → (i' + t) % 128 ≠ i % 128) →
          loadAll e i' l m' (0x10000 + 512 * (i % 128) + b) = m' (0x10000 + 512 * (i % 128) + b) := by
        intro l
        induction l with
        | nil => intro i' m' _; rfl
        | cons d l ih =>
          intro i' m' H
          have h0 := H 0 (by simp)
          show loadAll e (i' + 1) l _ _ = _
          rw [ih (i' + 1) _ (fun t ht => by
            have := H (t + 1) (by simp; omega)
            rw [show i' + 1 + t = i' + (t + 1) by omega]; exact this)]
          unfold blit
          rw [if_neg (by omega)]
      show loadAll e (i + 1) l _ (0x10000 + 512 * (i % 128) + b) = _
      rw [key l (i + 1) _ (fun t ht => by simp only [List.length_cons] at hlast; omega)]
      unfold blit
      rw [if_pos (by omega), Nat.add_assoc, Nat.add_sub_add_left, Nat.add_sub_cancel_left]
      simp only [List.getElem_cons_zero, sectorOf]
      rw [show 33 + (c - 2) = c + 31 by omega]
    | succ j =>
      simp only [List.length_cons] at hj hlast
      show loadAll e (i + 1) l _ _ = _
      rw [show i + (j + 1) = i + 1 + j by omega,
        ih (i + 1) _ (fun x hx => hc x (List.mem_cons_of_mem _ hx)) j (by omega) (by omega)]
      simp

/-- C66, `boot.asm` exactly: for every file with a chain that ends with 0xFFF, of any
length, the boot code ends, and the 64 KiB at 0x10000 hold its clusters, the `i`-th at
`i mod 128`, the last 128 of them surviving. -/
theorem C66_boot_exact (e : Env) (he : e.Works) (s : M) (c : Nat) (l : List Nat) (hs : Starts e c)
    (hl : Chain e 0xFFF (c :: l)) :
    ∃ s' n, (∀ f, n ≤ f → boot e f s = .ok (some s')) ∧
      ∀ i (hi : i < (c :: l).length), (c :: l).length ≤ i + 128 → ∀ b, b < 512 →
        s'.mem (0x10000 + 512 * (i % 128) + b) = e.disk (sectorOf (c :: l)[i] * 512 + b) := by
  obtain ⟨s1, h1, _⟩ := search_starts e he s c hs
  obtain ⟨s2, g1, g2⟩ := loadFile_spec e he l c 0 hl.raw
    { s1 with es := 0x1000, bx := 0, ax := BitVec.ofNat 16 c + 14 + 17 } (next_ax c) rfl rfl
  have : Ev (fun f => boot e f s) (some s2) := by
    refine Ev.congr (g := fun f => search e f s >>= fun r => match r.2 with
      | none => .ok none
      | some c => loadFile e f f c { r.1 with es := 0x1000, bx := 0, ax := c + 14 + 17 } >>= fun s => .ok (some s)) ?_
      (fun f => rfl)
    exact Ev.bind h1 (Ev.bind g1.diag (Ev.pure _))
  obtain ⟨⟨n, hn⟩, _⟩ := this
  refine ⟨s2, n, hn, ?_⟩
  intro i hi hlast b hb
  rw [g2 _ (by omega)]
  have := loadAll_at e (c :: l) 0 s1.mem (fun x hx => (hl.cluster x hx).1) i hi hlast b hb
  rw [Nat.zero_add] at this
  exact this

/-- C66 for `boot.asm`, as far as it holds: a file of at most 64 KiB whose chain ends with
0xFFF is loaded consecutively in chain order. (Not for longer files and not for the other
end marks, see below.) -/
theorem C66_boot_partial (e : Env) (he : e.Works) (s : M) (c : Nat) (l : List Nat) (hs : Starts e c)
    (hl : Chain e 0xFFF (c :: l)) (hlen : (c :: l).length ≤ 128) :
    ∃ s' n, (∀ f, n ≤ f → boot e f s = .ok (some s')) ∧
      ∀ i (hi : i < (c :: l).length), ∀ b, b < 512 →
        s'.mem (0x10000 + 512 * i + b) = e.disk (sectorOf (c :: l)[i] * 512 + b) := by
  obtain ⟨s', n, h1, h2⟩ := C66_boot_exact e he s c l hs hl
  refine ⟨s', n, h1, fun i hi b hb => ?_⟩
  have := h2 i hi (by omega) b hb
  rwa [Nat.mod_eq_of_lt (by omega)] at this

/-- C66 is violated for files longer than 64 KiB: where the first cluster was put there is
a later one. -/
theorem C66_violated_long (e : Env) (he : e.Works) (s : M) (c : Nat) (l : List Nat) (hs : Starts e c)
    (hl : Chain e 0xFFF (c :: l)) (hlen : 128 < (c :: l).length) :
    ∃ s' n i, (∀ f, n ≤ f → boot e f s = .ok (some s')) ∧ ∃ hi : i < (c :: l).length, 0 < i ∧
      (c :: l)[i] ≠ c ∧ ∀ b, b < 512 → s'.mem (0x10000 + b) = e.disk (sectorOf (c :: l)[i] * 512 + b) := by
  obtain ⟨s', n, h1, h2⟩ := C66_boot_exact e he s c l hs hl
  have hi : ((c :: l).length - 1) / 128 * 128 < (c :: l).length := by omega
  refine ⟨s', n, ((c :: l).length - 1) / 128 * 128, h1, hi, by omega, ?_, ?_⟩
  · intro heq
    have hnd := hl.nodup (by omega)
    have := (List.nodup_cons.1 hnd).1
    apply this
    have hpos : 0 < ((c :: l).length - 1) / 128 * 128 := by omega
    have key : ∀ q (hq : q < (c :: l).length), 0 < q → (c :: l)[q] = c → c ∈ l := by
     intro q hq hpos heq
     cases q with
     | zero => omega
     | succ q =>
      simp only [List.getElem_cons_succ] at heq
      rw [← heq]
      exact List.getElem_mem _
    exact key _ hi hpos heq
  · intro b hb
    have := h2 _ hi (by omega) b hb
    rwa [Nat.mul_mod_left, Nat.mul_zero, Nat.add_zero] at this

theorem loadAllK_at (e : Env) (l : List Nat) (i : Nat) (m : Nat → BitVec 8) (hc : ∀ c, c ∈ l → 2 ≤ c) (j : Nat)
    (hj : j < l.length) (b : Nat) (hb : b < 512) :
    loadAllK e i l m (0x100000 + 512 * (i + j) + b) = e.disk (sectorOf l[j] * 512 + b) := by
  induction l generalizing i m j with
  | nil => simp at hj
  | cons c l ih =>
    have hc2 := hc c (List.mem_cons_self ..)
    cases j with
    | zero =>
      have key : ∀ (l : List Nat) (i' : Nat) (m' : Nat → BitVec 8), i < i' →
          loadAllK e i' l m' (0x100000 + 512 * i + b) = m' (0x100000 + 512 * i + b) := by
        intro l
        induction l with
        | nil => intro i' m' _; rfl
        | cons d l ih =>
          intro i' m' H
          show loadAllK e (i' + 1) l _ _ = _
          rw [ih (i' + 1) _ (by omega)]
          unfold blit
          rw [if_neg (by omega)]
      show loadAllK e (i + 1) l _ (0x100000 + 512 * i + b) = _
      rw [key l (i + 1) _ (by omega)]
      unfold blit
      rw [if_pos (by omega), Nat.add_assoc, Nat.add_sub_add_left, Nat.add_sub_cancel_left]
      simp only [List.getElem_cons_zero, sectorOf]
      rw [show 33 + (c - 2) = c + 31 by omega]
    | succ j =>
      simp only [List.length_cons] at hj
      show loadAllK e (i + 1) l _ _ = _
      rw [show i + (j + 1) = i + 1 + j by omega,
        ih (i + 1) _ (fun x hx => hc x (List.mem_cons_of_mem _ hx)) j (by omega)]
      simp

/-- C66 for `loader.asm` (the kernel): a file of any length whose chain ends with 0xFFF is
loaded consecutively in chain order from 1 MiB on. -/
theorem C66_kernel_partial (e : Env) (he : e.Works) (s : M) (c : Nat) (l : List Nat) (hs : Starts e c)
    (hl : Chain e 0xFFF (c :: l)) :
    ∃ s' n, (∀ f, n ≤ f → loader e f s = .ok (some s')) ∧
      ∀ i (hi : i < (c :: l).length), ∀ b, b < 512 →
        s'.mem (0x100000 + 512 * i + b) = e.disk (sectorOf (c :: l)[i] * 512 + b) := by
  have hlen := hl.length (by omega)
  simp only [List.length_cons] at hlen
  obtain ⟨s1, h1, h1'⟩ := search_starts e he { s with kernelOffset := 0x100000 } c hs
  obtain ⟨s2, g1, g2, _⟩ := loadKernel_spec e he l c 0 hl.raw (by omega)
    { s1 with es := 0, bx := 0x7E00, ax := BitVec.ofNat 16 c + 14 + 17 } (next_ax c) rfl rfl h1'
  have : Ev (fun f => loader e f s) (some s2) := by
    refine Ev.congr (g := fun f => search e f { s with kernelOffset := 0x100000 } >>= fun r => match r.2 with
      | none => .ok none
      | some c => loadKernel e f f c { r.1 with es := 0, bx := 0x7E00, ax := c + 14 + 17 } >>= fun s => .ok (some s)) ?_
      (fun f => rfl)
    exact Ev.bind h1 (Ev.bind g1.diag (Ev.pure _))
  obtain ⟨⟨n, hn⟩, _⟩ := this
  refine ⟨s2, n, hn, ?_⟩
  intro i hi b hb
  rw [g2 _ (by omega)]
  have := loadAllK_at e (c :: l) 0 s1.mem (fun x hx => (hl.cluster x hx).1) i hi b hb
  rw [Nat.zero_add] at this
  exact this

theorem goOnReading_bad (e : Env) (cnt : BitVec 8) (f : Nat) (s : M) (h : 80 ≤ (hi8 s.cx).toNat) :
    goOnReading e cnt f s = .oof := by
  induction f generalizing s with
  | zero => rfl
  | succ f ih =>
    unfold goOnReading
    have : (int13 e { s with ax := pack 2 cnt }).2 = true := by
      unfold int13
      simp only
      rw [if_neg (by rintro ⟨h', _⟩; omega)]
    simp only [this, if_true]
    exact ih _ (by rw [int13_cx]; exact h)

theorem loadFile_bad (e : Env) (he : e.Works) (v : Nat) (hv : 0xFF8 ≤ v ∧ v < 0xFFF) (l : List Nat) (c i : Nat)
    (hl : RawChain e (BitVec.ofNat 16 v) (c :: l)) (s : M) (hax : s.ax = BitVec.ofNat 16 (c + 31))
    (hes : s.es = 0x1000) (hbx : s.bx = BitVec.ofNat 16 (512 * i)) (f h : Nat) :
    loadFile e f h (BitVec.ofNat 16 c) s = .oof := by
  induction l generalizing c i s h with
  | nil =>
    obtain ⟨hc, hr⟩ := hl
    obtain ⟨s1, h1, h2, h3, h4⟩ := round_ok e he c hc s hax (by rw [hes, hbx, phys_load]; omega)
    cases h with
    | zero => rfl
    | succ h =>
      rw [loadFile_unfold]
      rcases h1.2 f with e1 | e1 <;> dsimp only at e1
      · rw [e1]; rfl
      · have hax1 : s1.ax = BitVec.ofNat 16 v := h2.trans hr
        rw [e1, Res.ok_bind, if_neg (by
          rw [hax1]; intro hh
          have := congrArg BitVec.toNat hh
          rw [BitVec.toNat_ofNat, show ((0xFFF : BitVec 16)).toNat = 4095 from rfl] at this
          omega)]
        cases h with
        | zero => rfl
        | succ h =>
          rw [loadFile_unfold]
          have hq : (BitVec.ofNat 16 (v + 31)).toNat = v + 31 := by rw [BitVec.toNat_ofNat]; omega
          have : ∀ (t : M), t.ax = BitVec.ofNat 16 (v + 31) → readSector e f t = .oof := by
            intro t ht
            have hq2 : t.ax.toNat = v + 31 := by rw [ht]; exact hq
            have hq3 : t.ax.toNat / 18 < 256 := by rw [hq2]; omega
            simp only [readSector, hq3, decide_true, Res.require_true, Res.ok_bind]
            apply goOnReading_bad
            simp only [hi8_pack, BitVec.toNat_ushiftRight, BitVec.toNat_ofNat, hq2, Nat.shiftRight_eq_div_pow]
            omega
          rw [this _ (by simp only; rw [hax1, next_ax])]
          rfl
  | cons d l ih =>
    obtain ⟨hc, hr, hd⟩ := hl
    obtain ⟨s1, h1, h2, h3, h4⟩ := round_ok e he c hc s hax (by rw [hes, hbx, phys_load]; omega)
    cases h with
    | zero => rfl
    | succ h =>
      rw [loadFile_unfold]
      rcases h1.2 f with e1 | e1 <;> dsimp only at e1
      · rw [e1]; rfl
      · have hax1 : s1.ax = BitVec.ofNat 16 d := h2.trans hr
        have hcd : Cluster d := by
          cases l with
          | nil => exact hd.1
          | cons _ _ => exact hd.1
        rw [e1, Res.ok_bind, if_neg (by
          rw [hax1]; intro hh
          have := congrArg BitVec.toNat hh
          rw [BitVec.toNat_ofNat, show ((0xFFF : BitVec 16)).toNat = 4095 from rfl] at this
          have := hcd.2
          omega)]
        have := ih d (i + 1) hd { s1 with ax := s1.ax + 14 + 17, bx := s1.bx + 512 }
          (by simp only; rw [hax1, next_ax]) (h3.es.trans hes) (by simp only; rw [h3.bx, hbx, next_bx]) h
        rw [← hax1] at this
        exact this

/-- C66 is violated for chains that end with one of the other end-of-chain marks of FAT12
(0xFF8 .. 0xFFE): the boot code takes the mark for a cluster, asks for a sector behind the
end of the disk, and never ends, however long the drive is retried. -/
theorem C66_violated_eoc (e : Env) (he : e.Works) (s : M) (c : Nat) (l : List Nat) (hs : Starts e c) (v : Nat)
    (hv : 0xFF8 ≤ v ∧ v < 0xFFF) (hl : Chain e v (c :: l)) (f : Nat) : boot e f s = .oof := by
  obtain ⟨s1, h1, _⟩ := search_starts e he s c hs
  unfold boot
  rcases h1.2 f with e1 | e1 <;> dsimp only at e1
  · rw [e1]; rfl
  · rw [e1, Res.ok_bind]
    simp only
    rw [loadFile_bad e he v hv l c 0 hl.raw _ (next_ax c) rfl rfl]
    rfl

/-! ### Examples -/

/-- A floppy with one file `LOADER  BIN` (second directory entry) in clusters 2, 3 (table
bytes: entry 2 = 3, entry 3 = `v`); the data bytes are their offsets. -/
def exDisk (v : Nat) : Env :=
  { disk := fun i =>
      if i < 512 then 0
      else if i < 1024 then BitVec.ofNat 8 ([0xF0, 0xFF, 0xFF, 3, v % 16 * 16, v / 16].getD (i - 512) 0)
      else if i < 33 * 512 then
        BitVec.ofNat 8 ((([0x4c, 0x4f, 0x41, 0x44, 0x45, 0x52, 0x20, 0x20, 0x42, 0x49, 0x4e] : List Nat)
          ++ List.replicate 15 0 ++ [2, 0]).getD (i - (19 * 512 + 32)) 0 * (if 19 * 512 + 32 ≤ i then 1 else 0))
      else BitVec.ofNat 8 i
    flaky := fun k => if k % 2 = 0 then some (fun _ => 7) else none
    data := fun i => BitVec.ofNat 8 (([0x4c, 0x4f, 0x41, 0x44, 0x45, 0x52, 0x20, 0x20, 0x42, 0x49, 0x4e] : List Nat).getD
      (i.toNat - 0x7c40) 0)
    name := 0x7c40 }

theorem exDisk_works (v : Nat) : (exDisk v).Works := fun k => ⟨2 * k + 1, by omega, by simp [exDisk]⟩

theorem exDisk_starts (v : Nat) (hv : v = 0xFFF ∨ v = 0xFF8) : Starts (exDisk v) 2 := by
  have hm : v ∈ [0xFFF, 0xFF8] := by simpa using hv
  refine ⟨1, by decide, ?_, ?_, ?_⟩
  · have : ∀ v ∈ [0xFFF, 0xFF8], ∀ j : Fin 11, (exDisk v).disk (19 * 512 + 32 * 1 + j.val) =
        (exDisk v).data ((exDisk v).name + BitVec.ofNat 16 j.val) := by decide +kernel
    intro j hj
    exact this v hm ⟨j, hj⟩
  · intro i hi H
    have h0 : i = 0 := by omega
    subst h0
    have : ∀ v ∈ [0xFFF, 0xFF8], (exDisk v).disk (19 * 512 + 32 * 0 + 0) ≠
        (exDisk v).data ((exDisk v).name + BitVec.ofNat 16 0) := by decide +kernel
    exact this v hm (H 0 (by decide))
  · rcases hv with rfl | rfl <;> decide +kernel

theorem isEntry_of (e : Env) (n v : Nat) (h : (rawEntry e n).toNat = v) : IsEntry e n v := h ▸ rawEntry_isEntry e n

theorem exDisk_chain (v : Nat) (hv : v = 0xFFF ∨ v = 0xFF8) : Chain (exDisk v) v [2, 3] := by
  refine ⟨⟨by decide, by decide⟩, isEntry_of _ _ _ ?_, ⟨by decide, by decide⟩, isEntry_of _ _ _ ?_⟩
  · rcases hv with rfl | rfl <;> decide +kernel
  · rcases hv with rfl | rfl <;> decide +kernel

example : ∃ s' n, (∀ f, n ≤ f → boot (exDisk 0xFFF) f exM = .ok (some s')) ∧
    s'.mem (0x10000 + 512 * 1 + 5) = 5 := by
  obtain ⟨s', n, h1, h2⟩ := C66_boot_partial (exDisk 0xFFF) (exDisk_works _) exM 2 [3] (exDisk_starts _ (.inl rfl))
    (exDisk_chain _ (.inl rfl)) (by decide)
  refine ⟨s', n, h1, ?_⟩
  rw [h2 1 (by decide) 5 (by decide)]
  decide

example : ∃ s' n, (∀ f, n ≤ f → loader (exDisk 0xFFF) f exM = .ok (some s')) ∧
    s'.mem (0x100000 + 512 * 1 + 5) = 5 := by
  obtain ⟨s', n, h1, h2⟩ := C66_kernel_partial (exDisk 0xFFF) (exDisk_works _) exM 2 [3] (exDisk_starts _ (.inl rfl))
    (exDisk_chain _ (.inl rfl))
  refine ⟨s', n, h1, ?_⟩
  rw [h2 1 (by decide) 5 (by decide)]
  decide

example (f : Nat) : boot (exDisk 0xFF8) f exM = .oof :=
  C66_violated_eoc (exDisk 0xFF8) (exDisk_works _) exM 2 [3] (exDisk_starts _ (.inr rfl)) 0xFF8 (by decide)
    (exDisk_chain _ (.inr rfl)) f

/-- A chain, checked entry by entry. -/
def chk (e : Env) (v : Nat) : List Nat → Bool
  | [] => false
  | [c] => decide (2 ≤ c ∧ sectorOf c < 2880) && decide ((rawEntry e c).toNat = v)
  | c :: d :: l => decide (2 ≤ c ∧ sectorOf c < 2880) && decide ((rawEntry e c).toNat = d) && chk e v (d :: l)

theorem chain_of_chk (e : Env) (v : Nat) (l : List Nat) (h : chk e v l = true) : Chain e v l := by
  induction l with
  | nil => cases h
  | cons c l ih =>
    cases l with
    | nil =>
      simp only [chk, Bool.and_eq_true, decide_eq_true_eq] at h
      exact ⟨h.1, isEntry_of _ _ _ h.2⟩
    | cons d l =>
      simp only [chk, Bool.and_eq_true, decide_eq_true_eq] at h
      exact ⟨h.1.1, isEntry_of _ _ _ h.1.2, ih h.2⟩

/-- A floppy with one file in the clusters 2 .. 130. -/
def exLong : Env :=
  { exDisk 0xFFF with
    disk := fun i =>
      let entry := fun n => if n < 130 then n + 1 else 0xFFF
      if 512 ≤ i ∧ i < 512 + 9 * 512 then
        let j := i - 512
        BitVec.ofNat 8 (match j % 3 with
          | 0 => entry (2 * (j / 3)) % 256
          | 1 => entry (2 * (j / 3)) / 256 + entry (2 * (j / 3) + 1) % 16 * 16
          | _ => entry (2 * (j / 3) + 1) / 16)
      else (exDisk 0xFFF).disk i }

theorem exLong_starts : Starts exLong 2 := by
  refine ⟨1, by decide, ?_, ?_, by decide +kernel⟩
  · have : ∀ j : Fin 11, exLong.disk (19 * 512 + 32 * 1 + j.val) =
        exLong.data (exLong.name + BitVec.ofNat 16 j.val) := by decide +kernel
    intro j hj
    have h := this ⟨j, hj⟩
    dsimp only at h
    exact h
  · intro i hi H
    have h0 : i = 0 := by omega
    subst h0
    exact absurd (H 0 (by decide)) (by decide +kernel)

theorem exLong_works : exLong.Works := fun k => ⟨2 * k + 1, by omega, if_neg (by omega)⟩

theorem exLong_chain : Chain exLong 0xFFF (2 :: List.range' 3 128) := chain_of_chk _ _ _ (by decide +kernel)

/-- 129 clusters: the boot code ends with a cluster other than the first at 0x10000. -/
example : ∃ s' n i, (∀ f, n ≤ f → boot exLong f exM = .ok (some s')) ∧
    ∃ hi : i < (2 :: List.range' 3 128).length, 0 < i ∧
      (2 :: List.range' 3 128)[i] ≠ 2 ∧
      ∀ b, b < 512 → s'.mem (0x10000 + b) = exLong.disk (sectorOf (2 :: List.range' 3 128)[i] * 512 + b) :=
  C66_violated_long exLong exLong_works exM 2 (List.range' 3 128) exLong_starts
    exLong_chain (by simp)

/-- C65: the second entry has the name, and the directory of `exEnv` has none. -/
example : HasName (exDisk 0xFFF) 1 ∧ ¬ HasName (exDisk 0xFFF) 0 := by
  refine ⟨?_, ?_⟩
  · intro j hj
    have : ∀ j : Fin 11, (exDisk 0xFFF).disk (19 * 512 + 32 * 1 + j.val) =
        (exDisk 0xFFF).data ((exDisk 0xFFF).name + BitVec.ofNat 16 j.val) := by decide
    exact this ⟨j, hj⟩
  · intro H
    exact absurd (H 0 (by decide)) (by decide)

end Verif.Boot
