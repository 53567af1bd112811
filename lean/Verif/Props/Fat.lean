import Verif.Lemmas.Fat

/-! Property C106: the boot code reads the floppy as its boot sector describes it. The format
(Microsoft's FAT12) is stated here from the bytes of the disk alone: every quantity is computed
from the parameter block in sector 0, none is taken from the boot code. -/

set_option backward.isDefEq.respectTransparency false

namespace Verif.Fat
open Verif Verif.Boot Verif.Bpb

/-! ### The format -/

abbrev Disk := Nat → BitVec 8

/-- Little-endian numbers. -/
def w8 (d : Disk) (i : Nat) : Nat := (d i).toNat
def w16 (d : Disk) (i : Nat) : Nat := w8 d i + 256 * w8 d (i + 1)
def w32 (d : Disk) (i : Nat) : Nat := w16 d i + 65536 * w16 d (i + 2)

/-- The fields of the parameter block at their places in the format. -/
def bytesPerSec (d : Disk) : Nat := w16 d 11
def secPerClus (d : Disk) : Nat := w8 d 13
def rsvd (d : Disk) : Nat := w16 d 14
def numFats (d : Disk) : Nat := w8 d 16
def rootEnts (d : Disk) : Nat := w16 d 17
def totSec (d : Disk) : Nat := w16 d 19
def media (d : Disk) : Nat := w8 d 21
def fatSz (d : Disk) : Nat := w16 d 22
def secPerTrk (d : Disk) : Nat := w16 d 24
def numHeads (d : Disk) : Nat := w16 d 26
def hidden (d : Disk) : Nat := w32 d 28
def drive (d : Disk) : Nat := w8 d 36

/-- The parts of the volume, in sectors: reserved, tables, root directory, data. -/
def rootStart (d : Disk) : Nat := rsvd d + numFats d * fatSz d
def rootSecs (d : Disk) : Nat := (rootEnts d * 32 + (bytesPerSec d - 1)) / bytesPerSec d
def dataStart (d : Disk) : Nat := rootStart d + rootSecs d
/-- The number of clusters; they are numbered from 2 on. -/
def clusters (d : Disk) : Nat := (totSec d - dataStart d) / secPerClus d
/-- The first byte of a cluster, and the size of one. -/
def clusterAt (d : Disk) (c : Nat) : Nat := (dataStart d + (c - 2) * secPerClus d) * bytesPerSec d
def clusterSize (d : Disk) : Nat := secPerClus d * bytesPerSec d

/-- Entry `n` of the (first) table: one and a half bytes each. -/
def fat (d : Disk) (n : Nat) : Nat :=
  let w := w16 d (rsvd d * bytesPerSec d + (n + n / 2))
  if n % 2 = 1 then w / 16 else w % 4096

/-- Place of byte `j` of entry `k` of the root directory, 32 bytes each. -/
def slot (d : Disk) (k j : Nat) : Nat := rootStart d * bytesPerSec d + 32 * k + j
/-- Entry `k` has this name (11 bytes). -/
def Named (d : Disk) (name : List (BitVec 8)) (k : Nat) : Prop := ∀ j, j < 11 → d (slot d k j) = name.getD j 0
/-- Entry `k` is in use: a first byte 0 says that there are no more entries. -/
def Reached (d : Disk) (k : Nat) : Prop := k < rootEnts d ∧ ∀ i, i ≤ k → w8 d (slot d i 0) ≠ 0
/-- Entry `k` is a file: the attributes neither say "directory" nor "volume label" (which parts
of long names also have). -/
def Plain (d : Disk) (k : Nat) : Prop := w8 d (slot d k 11) / 8 % 4 = 0
/-- Entry `k` is the file of this name. -/
def IsFile (d : Disk) (name : List (BitVec 8)) (k : Nat) : Prop := Reached d k ∧ Named d name k ∧ Plain d k

def start (d : Disk) (k : Nat) : Nat := w16 d (slot d k 26)
def size (d : Disk) (k : Nat) : Nat := w32 d (slot d k 28)

/-- `l` is a chain of clusters, and the table has `v` for the last one. -/
def Links (d : Disk) (v : Nat) : List Nat → Prop
  | [] => False
  | [c] => (2 ≤ c ∧ c < clusters d + 2) ∧ fat d c = v
  | c :: c' :: l => (2 ≤ c ∧ c < clusters d + 2) ∧ fat d c = c' ∧ Links d v (c' :: l)

/-- The file of entry `k` consists of these bytes, in the clusters `l` whose chain ends with `v`. -/
structure Holds (d : Disk) (v k : Nat) (l : List Nat) (bytes : List (BitVec 8)) : Prop where
  first : l.head? = some (start d k)
  links : Links d v l
  size : bytes.length = size d k
  count : l.length = (bytes.length + (clusterSize d - 1)) / clusterSize d
  byte : ∀ i (h : i < bytes.length), ∃ c, l[i / clusterSize d]? = some c ∧
    bytes[i] = d (clusterAt d c + i % clusterSize d)

/-- The disk begins with the boot sector, for some machine code. -/
def Booted (d : Disk) : Prop := ∃ code sec, sector code = some sec ∧ ∀ i, i < 512 → d i = sec.getD i 0

/-- The boot code finds the name of the loader in the copy of the boot sector at 0x7c00. -/
def Resident (e : Env) : Prop := Booted e.disk ∧ e.name = addr "LoaderFileName" ∧
  ∀ a : BitVec 16, org ≤ a.toNat → a.toNat < org + 512 → e.data a = e.disk (a.toNat - org)

/-- The name of the loader. -/
def loaderName : List (BitVec 8) := "LOADER  BIN".toList.map fun c => BitVec.ofNat 8 c.toNat

/-! ### What the boot sector says -/

theorem Booted.head {d : Disk} (h : Booted d) (i : Nat) (hi : i < 119) : d i = head.getD i 0 := by
  obtain ⟨code, sec, h1, h2⟩ := h
  rw [h2 i (by omega), sector_head h1 i hi]

theorem Booted.w16 {d : Disk} (h : Booted d) (i : Nat) (hi : i + 1 < 119) :
    w16 d i = (Bpb.head.getD i 0).toNat + 256 * (Bpb.head.getD (i + 1) 0).toNat := by
  rw [Fat.w16, w8, w8, h.head i (by omega), h.head (i + 1) hi]

theorem Booted.w8 {d : Disk} (h : Booted d) (i : Nat) (hi : i < 119) : w8 d i = (Bpb.head.getD i 0).toNat := by
  rw [Fat.w8, h.head i hi]

section
variable {d : Disk} (h : Booted d)
include h

theorem Booted.bytesPerSec : bytesPerSec d = 512 := by
  rw [Fat.bytesPerSec, h.w16 11 (by decide)]; decide +kernel
theorem Booted.secPerClus : secPerClus d = 1 := by
  rw [Fat.secPerClus, h.w8 13 (by decide)]; decide +kernel
theorem Booted.rsvd : rsvd d = 1 := by
  rw [Fat.rsvd, h.w16 14 (by decide)]; decide +kernel
theorem Booted.numFats : numFats d = 2 := by
  rw [Fat.numFats, h.w8 16 (by decide)]; decide +kernel
theorem Booted.rootEnts : rootEnts d = 224 := by
  rw [Fat.rootEnts, h.w16 17 (by decide)]; decide +kernel
theorem Booted.totSec : totSec d = 2880 := by
  rw [Fat.totSec, h.w16 19 (by decide)]; decide +kernel
theorem Booted.media : media d = 0xf0 := by
  rw [Fat.media, h.w8 21 (by decide)]; decide +kernel
theorem Booted.fatSz : fatSz d = 9 := by
  rw [Fat.fatSz, h.w16 22 (by decide)]; decide +kernel
theorem Booted.secPerTrk : secPerTrk d = 18 := by
  rw [Fat.secPerTrk, h.w16 24 (by decide)]; decide +kernel
theorem Booted.numHeads : numHeads d = 2 := by
  rw [Fat.numHeads, h.w16 26 (by decide)]; decide +kernel
theorem Booted.hidden : hidden d = 0 := by
  rw [Fat.hidden, w32, h.w16 28 (by decide), h.w16 30 (by decide)]; decide +kernel
theorem Booted.drive : drive d = 0 := by
  rw [Fat.drive, h.w8 36 (by decide)]; decide +kernel
theorem Booted.rootStart : rootStart d = 19 := by rw [Fat.rootStart, h.rsvd, h.numFats, h.fatSz]
theorem Booted.rootSecs : rootSecs d = 14 := by rw [Fat.rootSecs, h.rootEnts, h.bytesPerSec]
theorem Booted.dataStart : dataStart d = 33 := by rw [Fat.dataStart, h.rootStart, h.rootSecs]
theorem Booted.clusters : clusters d = 2847 := by
  rw [Fat.clusters, h.totSec, h.dataStart, h.secPerClus]
theorem Booted.clusterSize : clusterSize d = 512 := by rw [Fat.clusterSize, h.secPerClus, h.bytesPerSec]
theorem Booted.clusterAt (c : Nat) : clusterAt d c = sectorOf c * 512 := by
  rw [Fat.clusterAt, h.dataStart, h.secPerClus, h.bytesPerSec, sectorOf, Nat.mul_one]
theorem Booted.slot (k j : Nat) : slot d k j = 19 * 512 + 32 * k + j := by
  rw [Fat.slot, h.rootStart, h.bytesPerSec]

end

theorem Booted.fat {e : Env} (h : Booted e.disk) (n : Nat) : fat e.disk n = (rawEntry e n).toNat := by
  rw [rawEntry_toNat]
  simp only [Fat.fat, h.rsvd, h.bytesPerSec, Fat.w16, Fat.w8]
  rw [show 1 * 512 + (n + n / 2) = 512 + 3 * n / 2 by omega]

theorem Booted.links {e : Env} (h : Booted e.disk) {v : Nat} {l : List Nat} (hl : Links e.disk v l) : Chain e v l := by
  have key : ∀ c, 2 ≤ c ∧ c < Fat.clusters e.disk + 2 → 2 ≤ c ∧ sectorOf c < 2880 := by
    intro c hc
    rw [h.clusters] at hc
    unfold sectorOf
    omega
  induction l with
  | nil => exact hl
  | cons c l ih =>
    cases l with
    | nil => exact ⟨key c hl.1, isEntry_of _ _ _ (by rw [← h.fat]; exact hl.2)⟩
    | cons c' l => exact ⟨key c hl.1, isEntry_of _ _ _ (by rw [← h.fat]; exact hl.2.1), ih hl.2.2⟩

/-- The name where the boot code looks for it. -/
theorem Resident.name {e : Env} (h : Resident e) (j : Nat) (hj : j < 11) :
    e.data (e.name + BitVec.ofNat 16 j) = loaderName.getD j 0 := by
  obtain ⟨hb, hn, hd⟩ := h
  have hoff : addr "LoaderFileName" = BitVec.ofNat 16 (0x7c00 + 107) := by decide +kernel
  have ha : (e.name + BitVec.ofNat 16 j).toNat = 0x7c00 + 107 + j := by
    rw [hn, hoff, BitVec.toNat_add, BitVec.toNat_ofNat, BitVec.toNat_ofNat]; omega
  rw [hd _ (by rw [ha, org]; omega) (by rw [ha, org]; omega), ha, org,
    show 0x7c00 + 107 + j - 0x7c00 = 107 + j by omega, hb.head _ (by omega)]
  have : ∀ j : Fin 11, head.getD (107 + j.val) 0 = loaderName.getD j.val 0 := by decide +kernel
  exact this ⟨j, hj⟩

/-- The data segment has this name. -/
def Wants (e : Env) (name : List (BitVec 8)) : Prop := ∀ j, j < 11 → e.data (e.name + BitVec.ofNat 16 j) = name.getD j 0

theorem Wants.hasName {e : Env} {name : List (BitVec 8)} (hw : Wants e name) (hb : Booted e.disk) (k : Nat) :
    HasName e k ↔ Named e.disk name k := by
  constructor
  · intro H j hj
    rw [hb.slot, H j hj, hw j hj]
  · intro H j hj
    rw [hw j hj, ← H j hj, hb.slot]

theorem Wants.starts {e : Env} {name : List (BitVec 8)} (hw : Wants e name) (hb : Booted e.disk) {k : Nat}
    (hk : k < 224) (hn : Named e.disk name k) (hf : ∀ i, i < k → ¬ Named e.disk name i) :
    Starts e (start e.disk k) := by
  refine ⟨k, hk, (hw.hasName hb k).2 hn, fun i hi H => hf i hi ((hw.hasName hb i).1 H), ?_⟩
  rw [start, hb.slot]
  rfl

/-- The contents of a file are determined by the disk. -/
theorem Links.unique {d : Disk} {v v' : Nat} {l l' : List Nat} (h : Links d v l) (h' : Links d v' l')
    (hh : l.head? = l'.head?) (hlen : l.length = l'.length) : l = l' := by
  induction l generalizing l' with
  | nil => exact absurd h (by simp [Links])
  | cons c l ih =>
    cases l' with
    | nil => exact absurd h' (by simp [Links])
    | cons c' l' =>
      simp only [List.head?_cons, Option.some.injEq] at hh
      subst hh
      cases l with
      | nil =>
        cases l' with
        | nil => rfl
        | cons _ _ => simp at hlen
      | cons a l =>
        cases l' with
        | nil => simp at hlen
        | cons a' l' =>
          have ha : a = a' := h.2.1.symm.trans h'.2.1
          subst ha
          rw [ih h.2.2 h'.2.2 rfl (by simpa using hlen)]

theorem Holds.unique {d : Disk} {v v' k : Nat} {l l' : List Nat} {b b' : List (BitVec 8)} (h : Holds d v k l b)
    (h' : Holds d v' k l' b') : b = b' := by
  have hlen : b.length = b'.length := h.size.trans h'.size.symm
  have hl : l = l' := Links.unique h.links h'.links (h.first.trans h'.first.symm)
    (by rw [h.count, h'.count, hlen])
  subst hl
  refine List.ext_getElem hlen fun i h1 h2 => ?_
  obtain ⟨c, e1, e2⟩ := h.byte i h1
  obtain ⟨c', e1', e2'⟩ := h'.byte i h2
  rw [e1] at e1'
  injection e1' with e1'
  subst e1'
  rw [e2, e2']

/-! ## C106 -/

/-- C106. However long its machine code is, if the sector can be assembled at all it has 512
bytes and ends with the signature the BIOS looks for, and the jump at its beginning leads to
the code, over the table and the messages. -/
theorem C106_sector (code sec : List (BitVec 8)) (h : sector code = some sec) :
    sec.length = 512 ∧ sec.getD 510 0 = 0x55 ∧ sec.getD 511 0 = 0xaa ∧
    sec.getD 0 0 = 0xEB ∧ (sec.getD 1 0).toNat < 128 ∧ sec.getD 2 0 = 0x90 ∧
    (sec.drop (2 + (sec.getD 1 0).toNat)).take code.length = code := by
  have hl := sector_length h
  obtain ⟨he, hle⟩ := sector_eq h
  have h1 : sec.getD 1 0 = 117 := by rw [sector_head h 1 (by decide)]; decide +kernel
  have hend : ∀ i, i < 2 → sec.getD (510 + i) 0 = (le 0xaa55 2).getD i 0 := by
    intro i hi
    have hn : (head ++ code ++ List.replicate (510 - (head ++ code).length) 0).length = 510 := by
      rw [List.length_append, List.length_replicate]; omega
    rw [he, List.getD_eq_getElem?_getD, List.getElem?_append_right (by omega), List.getD_eq_getElem?_getD, hn,
      Nat.add_sub_cancel_left]
  refine ⟨hl, ?_, ?_, ?_, ?_, ?_, ?_⟩
  · rw [hend 0 (by decide)]; decide +kernel
  · rw [hend 1 (by decide)]; decide +kernel
  · rw [sector_head h 0 (by decide)]; decide +kernel
  · rw [h1]; decide
  · rw [sector_head h 2 (by decide)]; decide +kernel
  · rw [h1, he, List.append_assoc, List.append_assoc, show 2 + (117 : BitVec 8).toNat = head.length by
      rw [head_length]; rfl, List.drop_left, List.take_left]

/-- C106, the volume: the parameter block is one of the FAT12 format: allowed values, a root
directory of whole sectors, so few clusters that the table has entries of 12 bits, two tables
with room for all of them, and a number of sectors that is 80 whole cylinders. -/
theorem C106_valid (d : Disk) (h : Booted d) :
    bytesPerSec d = 512 ∧ (∃ p, secPerClus d = 2 ^ p ∧ p < 8) ∧ 1 ≤ rsvd d ∧ numFats d = 2 ∧
    rootEnts d * 32 % bytesPerSec d = 0 ∧ dataStart d < totSec d ∧ clusters d < 4085 ∧
    (∀ c, c < clusters d + 2 → rsvd d * bytesPerSec d + (c + c / 2) + 1 < (rsvd d + fatSz d) * bytesPerSec d) ∧
    (media d = 0xF0 ∨ 0xF8 ≤ media d) ∧ hidden d = 0 ∧ drive d = 0 ∧
    totSec d = 80 * numHeads d * secPerTrk d ∧ w8 d 38 = 0x29 ∧ w16 d 510 = 0xaa55 := by
  have hs : w16 d 510 = 0xaa55 := by
    obtain ⟨code, sec, h1, h2⟩ := h
    obtain ⟨_, a, b, _⟩ := C106_sector code sec h1
    rw [w16, w8, w8, h2 510 (by decide), h2 511 (by decide), a, b]
    rfl
  rw [h.bytesPerSec, h.secPerClus, h.rsvd, h.numFats, h.rootEnts, h.dataStart, h.totSec, h.clusters, h.fatSz,
    h.media, h.hidden, h.drive, h.numHeads, h.secPerTrk, h.w8 38 (by decide)]
  exact ⟨rfl, ⟨0, rfl, by decide⟩, by decide, rfl, rfl, by decide, by decide, fun c hc => by omega, .inl rfl, rfl, rfl,
    rfl, by decide +kernel, hs⟩

/-- C106, the geometry: for every sector of the volume, the requests of `Read_One_Sector` to the
BIOS are for the cylinder, head and sector which the parameter block gives it. -/
theorem C106_geometry (e : Env) (hb : Booted e.disk) (f : Nat) (s s' : M) (hs : s.ax.toNat < totSec e.disk)
    (h : readSector e f s = .ok s') :
    ∃ k c hd t, s'.log = List.replicate (k + 1) (c, hd, t) ++ s.log ∧
      s.ax.toNat = (c * numHeads e.disk + hd) * secPerTrk e.disk + (t - 1) ∧
      hd < numHeads e.disk ∧ 1 ≤ t ∧ t ≤ secPerTrk e.disk ∧
      c < totSec e.disk / (numHeads e.disk * secPerTrk e.disk) := by
  rw [hb.totSec] at hs
  rw [hb.numHeads, hb.secPerTrk, hb.totSec]
  have hq : s.ax.toNat / 18 < 256 := by omega
  simp only [readSector, hq, decide_true, Res.require_true, Res.ok_bind] at h
  obtain ⟨k, hk⟩ := goOnReading_log _ _ _ _ _ h
  have al : (BitVec.ofNat 8 (s.ax.toNat / 18)).toNat = s.ax.toNat / 18 := by
    rw [BitVec.toNat_ofNat]; omega
  have ah : (BitVec.ofNat 8 (s.ax.toNat % 18) + 1).toNat = s.ax.toNat % 18 + 1 := by
    rw [BitVec.toNat_add, BitVec.toNat_ofNat, show ((1 : BitVec 8)).toNat = 1 from rfl]; omega
  have dh : (BitVec.ofNat 8 (s.ax.toNat / 18) &&& 1).toNat = s.ax.toNat / 18 % 2 := by
    rw [BitVec.toNat_and, al, show ((1 : BitVec 8)).toNat = 2 ^ 1 - 1 from rfl, Nat.and_two_pow_sub_one_eq_mod]
  have ch : (BitVec.ofNat 8 (s.ax.toNat / 18) >>> 1).toNat = s.ax.toNat / 36 := by
    rw [BitVec.toNat_ushiftRight, al, Nat.shiftRight_eq_div_pow]; omega
  simp only [hi8_pack, lo8_pack, ah, dh, ch] at hk
  refine ⟨k, _, _, _, hk, ?_, ?_, ?_, ?_, ?_⟩ <;> omega

/-- C106, the operands: what the boot code reads from its own copy of the table (sectors per
track as a byte, bytes per sector, drive, length of the root directory) are the values of the
volume. -/
theorem C106_operands (e : Env) (h : Resident e) :
    (e.data (addr "BPB_SecPerTrk")).toNat = secPerTrk e.disk ∧
    (e.data (addr "BPB_BytesPerSec")).toNat + 256 * (e.data (addr "BPB_BytesPerSec" + 1)).toNat = bytesPerSec e.disk ∧
    (e.data (addr "BS_DrvNum")).toNat = drive e.disk ∧
    (e.data (addr "RootDirSizeForLoop")).toNat + 256 * (e.data (addr "RootDirSizeForLoop" + 1)).toNat =
      rootSecs e.disk := by
  obtain ⟨hb, hn, hd⟩ := h
  have key : ∀ (a : BitVec 16) (i : Nat), a.toNat = org + i → i < 119 → e.data a = head.getD i 0 := by
    intro a i ha hi
    rw [hd a (by omega) (by omega), ha, Nat.add_sub_cancel_left, hb.head i hi]
  rw [key (addr "BPB_SecPerTrk") 24 (by decide +kernel) (by decide),
    key (addr "BPB_BytesPerSec") 11 (by decide +kernel) (by decide),
    key (addr "BPB_BytesPerSec" + 1) 12 (by decide +kernel) (by decide),
    key (addr "BS_DrvNum") 36 (by decide +kernel) (by decide),
    key (addr "RootDirSizeForLoop") 65 (by decide +kernel) (by decide),
    key (addr "RootDirSizeForLoop" + 1) 66 (by decide +kernel) (by decide),
    hb.secPerTrk, hb.bytesPerSec, hb.drive, hb.rootSecs]
  refine ⟨?_, ?_, ?_, ?_⟩ <;> decide +kernel

/-- C106, the search: for all disks with this boot sector, "not found" is reported exactly if no
entry of the root directory of the volume has the name of the loader, and otherwise the start
cluster of the first such entry is found. -/
theorem C106_search (e : Env) (he : e.Works) (h : Resident e) (s : M) :
    ∃ s' r n, (∀ f, n ≤ f → search e f s = .ok (s', r)) ∧
      (r = none ↔ ∀ k, k < rootEnts e.disk → ¬ Named e.disk loaderName k) ∧
      ∀ c, r = some c → ∃ k, k < rootEnts e.disk ∧ Named e.disk loaderName k ∧
        (∀ i, i < k → ¬ Named e.disk loaderName i) ∧ c.toNat = start e.disk k := by
  have hw : Wants e loaderName := fun j hj => h.name j hj
  obtain ⟨s', r, n, h1, h2, h3⟩ := C65_search e he s
  refine ⟨s', r, n, h1, ?_, ?_⟩
  · rw [h2, h.1.rootEnts]
    exact ⟨fun H k hk hn => H k hk ((hw.hasName h.1 k).2 hn), fun H k hk hn => H k hk ((hw.hasName h.1 k).1 hn)⟩
  · intro c hc
    obtain ⟨k, hk, hn, hf, hv⟩ := h3 c hc
    refine ⟨k, by rw [h.1.rootEnts]; exact hk, (hw.hasName h.1 k).1 hn,
      fun i hi H => hf i hi ((hw.hasName h.1 i).2 H), ?_⟩
    rw [hv, start, h.1.slot]
    rfl

/-- Reading a file from its clusters. -/
theorem Holds.mem {e : Env} (hb : Booted e.disk) {v k : Nat} {l : List Nat} {bytes : List (BitVec 8)}
    (hh : Holds e.disk v k l bytes) (base : Nat) (m : Nat → BitVec 8)
    (hm : ∀ i (hi : i < l.length), ∀ b, b < 512 → m (base + 512 * i + b) = e.disk (sectorOf l[i] * 512 + b))
    (i : Nat) (hi : i < bytes.length) : m (base + i) = bytes[i] := by
  obtain ⟨c, h1, h2⟩ := hh.byte i hi
  rw [hb.clusterSize] at h1 h2
  obtain ⟨hlt, hc⟩ := List.getElem?_eq_some_iff.1 h1
  have := hm (i / 512) hlt (i % 512) (by omega)
  rw [hc] at this
  rw [h2, hb.clusterAt, ← this]
  congr 1
  omega

theorem Holds.cons {d : Disk} {v k : Nat} {l : List Nat} {bytes : List (BitVec 8)} (hh : Holds d v k l bytes) :
    ∃ t, l = start d k :: t := by
  have := hh.first
  cases l with
  | nil => simp at this
  | cons c t =>
    simp only [List.head?_cons, Option.some.injEq] at this
    exact ⟨t, by rw [this]⟩

/-- C106, as far as it holds: for every disk with this boot sector and every file LOADER.BIN
on it, read as the format says, of at most 64 KiB, whose chain ends with 0xFFF: if no earlier
entry of the directory has the same 11 bytes, the boot code ends with exactly the contents of the
file at 0x10000. (Not so for empty files: `C106_violated_empty`.) -/
theorem C106_boot_partial (e : Env) (he : e.Works) (h : Resident e) (s : M) (k : Nat) (l : List Nat)
    (bytes : List (BitVec 8)) (hf : IsFile e.disk loaderName k)
    (hfirst : ∀ i, i < k → ¬ Named e.disk loaderName i) (hh : Holds e.disk 0xFFF k l bytes)
    (hlen : bytes.length ≤ 65536) :
    ∃ s' n, (∀ f, n ≤ f → boot e f s = .ok (some s')) ∧
      ∀ i (hi : i < bytes.length), s'.mem (0x10000 + i) = bytes[i] := by
  have hw : Wants e loaderName := fun j hj => h.name j hj
  have hk := hf.1.1
  rw [h.1.rootEnts] at hk
  obtain ⟨t, rfl⟩ := hh.cons
  have hc := hh.count
  rw [h.1.clusterSize] at hc
  obtain ⟨s', n, h1, h2⟩ := C66_boot_partial e he s _ t (hw.starts h.1 hk hf.2.1 hfirst) (h.1.links hh.links) (by omega)
  exact ⟨s', n, h1, hh.mem h.1 _ _ h2⟩

/-- C106 for the kernel: the same for `loader.asm` and EOSPP.BIN, of any size, at 1 MiB; the
loader's own table is the same file `fat12.inc`. -/
theorem C106_kernel_partial (e : Env) (he : e.Works) (hb : Booted e.disk) (hw : Wants e kernelName) (s : M) (k : Nat)
    (l : List Nat) (bytes : List (BitVec 8)) (hf : IsFile e.disk kernelName k)
    (hfirst : ∀ i, i < k → ¬ Named e.disk kernelName i) (hh : Holds e.disk 0xFFF k l bytes) :
    ∃ s' n, (∀ f, n ≤ f → loader e f s = .ok (some s')) ∧
      ∀ i (hi : i < bytes.length), s'.mem (0x100000 + i) = bytes[i] := by
  have hk := hf.1.1
  rw [hb.rootEnts] at hk
  obtain ⟨t, rfl⟩ := hh.cons
  obtain ⟨s', n, h1, h2⟩ := C66_kernel_partial e he s _ t (hw.starts hb hk hf.2.1 hfirst) (hb.links hh.links)
  exact ⟨s', n, h1, hh.mem hb _ _ h2⟩

/-- C106 is violated by entries that are no files: neither the attributes nor the end of the
directory are looked at. On every disk which has no file LOADER.BIN at all, but whose directory
has these 11 bytes in some entry (a directory, a label, part of a long name, or what was left
behind the end), the boot code loads what the entry points to and jumps to it. -/
theorem C106_violated_dead (e : Env) (he : e.Works) (h : Resident e) (s : M) (k : Nat) (l : List Nat)
    (_hno : ∀ i, ¬ IsFile e.disk loaderName i) (hk : k < rootEnts e.disk) (hn : Named e.disk loaderName k)
    (hfirst : ∀ i, i < k → ¬ Named e.disk loaderName i) (hl : Links e.disk 0xFFF (start e.disk k :: l))
    (hlen : (start e.disk k :: l).length ≤ 128) :
    ∃ s' n, (∀ f, n ≤ f → boot e f s = .ok (some s')) ∧
      ∀ b, b < clusterSize e.disk → s'.mem (0x10000 + b) = e.disk (clusterAt e.disk (start e.disk k) + b) := by
  have hw : Wants e loaderName := fun j hj => h.name j hj
  rw [h.1.rootEnts] at hk
  obtain ⟨s', n, h1, h2⟩ := C66_boot_partial e he s _ l (hw.starts h.1 hk hn hfirst) (h.1.links hl) hlen
  refine ⟨s', n, h1, fun b hb => ?_⟩
  rw [h.1.clusterSize] at hb
  rw [h.1.clusterAt]
  exact h2 0 (by simp) b hb

/-- C106 is violated by empty files: an empty LOADER.BIN has no clusters, and the number 0 where
others have their first one. The boot code takes it for a cluster and the head of the table (the
media byte with ones) for the next, and waits forever for a sector behind the end of the disk. -/
theorem C106_violated_empty (e : Env) (he : e.Works) (h : Resident e) (s : M) (k : Nat)
    (hf : IsFile e.disk loaderName k) (hfirst : ∀ i, i < k → ¬ Named e.disk loaderName i)
    (_hs : size e.disk k = 0) (h0 : start e.disk k = 0) (hm : fat e.disk 0 = 0xF00 + media e.disk) (f : Nat) :
    boot e f s = .oof := by
  have hw : Wants e loaderName := fun j hj => h.name j hj
  have hk := hf.1.1
  rw [h.1.rootEnts] at hk
  have hst := hw.starts h.1 hk hf.2.1 hfirst
  rw [h0] at hst
  rw [h.1.media, h.1.fat] at hm
  obtain ⟨s1, h1, _⟩ := search_starts e he s 0 hst
  unfold boot
  rcases h1.2 f with e1 | e1 <;> dsimp only at e1
  · rw [e1]; rfl
  · rw [e1, Res.ok_bind]
    simp only
    rw [show (BitVec.ofNat 16 0) = (0 : BitVec 16) from rfl,
      loadFile_zero e he _ rfl rfl rfl (by omega) (by omega)]
    rfl

/-! ### Examples -/

/-- A floppy: the boot sector (with some code), both tables, a root directory with a label, the
entry `dir` (name, attributes, start cluster, size) and the entry of the kernel, and data bytes
that are their offsets. The loader is in the clusters 2 and 3, the kernel in cluster 4. -/
def exFloppy (dir : List Nat) : Disk := fun i =>
  if i < 512 then (((sector [0x8c, 0xc8]).getD []).getD i 0)
  else if i < 19 * 512 then
    BitVec.ofNat 8 (([0xF0, 0xFF, 0xFF, 3, 0xF0, 0xFF, 0xFF, 0x0F] : List Nat).getD ((i - 512) % (9 * 512)) 0)
  else if i < 33 * 512 then
    BitVec.ofNat 8 ((([0x45, 0x4f, 0x53] ++ List.replicate 8 0x20 ++ [8] ++ List.replicate 20 0) ++ dir ++
      ([0x45, 0x4f, 0x53, 0x50, 0x50, 0x20, 0x20, 0x20, 0x42, 0x49, 0x4e, 0x20] ++ List.replicate 14 0 ++
        [4, 0, 7, 0, 0, 0]) : List Nat).getD (i - 19 * 512) 0)
  else BitVec.ofNat 8 i

/-- A directory entry for `LOADER  BIN`. -/
def exEntry (first attr clus size : Nat) : List Nat :=
  [first, 0x4f, 0x41, 0x44, 0x45, 0x52, 0x20, 0x20, 0x42, 0x49, 0x4e, attr] ++ List.replicate 14 0 ++
    [clus, 0, size % 256, size / 256, 0, 0]

/-- The machine after the BIOS has loaded the boot sector; every second read fails. -/
def exMachine (d : Disk) : Env :=
  { disk := d, flaky := fun k => if k % 2 = 0 then some (fun _ => 7) else none
    data := fun a => d (a.toNat - org), name := addr "LoaderFileName" }

theorem exMachine_works (d : Disk) : (exMachine d).Works := fun k => ⟨2 * k + 1, by omega, by simp [exMachine]⟩

theorem exFloppy_booted (dir : List Nat) : Booted (exFloppy dir) := by
  refine ⟨[0x8c, 0xc8], (sector [0x8c, 0xc8]).getD [], by decide +kernel, fun i hi => ?_⟩
  unfold exFloppy
  rw [if_pos hi]

theorem exMachine_resident (dir : List Nat) : Resident (exMachine (exFloppy dir)) :=
  ⟨exFloppy_booted dir, rfl, fun _ _ _ => rfl⟩

/-- The sector of the example can be assembled, and its jump leads to the code. -/
example : ∃ sec, sector [0x8c, 0xc8] = some sec ∧ sec.length = 512 ∧
    (sec.drop (2 + (sec.getD 1 0).toNat)).take 2 = [0x8c, 0xc8] := by
  have h : (sector [0x8c, 0xc8]).isSome = true := by decide +kernel
  obtain ⟨sec, hs⟩ := Option.isSome_iff_exists.1 h
  obtain ⟨a, _, _, _, _, _, b⟩ := C106_sector _ _ hs
  exact ⟨sec, hs, a, b⟩

/-- Too much code is no boot sector. -/
example : sector (List.replicate 392 0x90) = none := by decide +kernel

instance (d : Disk) (name : List (BitVec 8)) (k : Nat) : Decidable (Named d name k) := by unfold Named; infer_instance
instance (d : Disk) (k : Nat) : Decidable (Reached d k) :=
  decidable_of_iff (k < rootEnts d ∧ ∀ i, i < k + 1 → w8 d (slot d i 0) ≠ 0)
    ⟨fun h => ⟨h.1, fun i hi => h.2 i (by omega)⟩, fun h => ⟨h.1, fun i hi => h.2 i (by omega)⟩⟩
instance (d : Disk) (k : Nat) : Decidable (Plain d k) := by unfold Plain; infer_instance
instance (d : Disk) (name : List (BitVec 8)) (k : Nat) : Decidable (IsFile d name k) := by
  unfold IsFile; infer_instance

/-- A loader of 600 bytes. -/
def exGood : Disk := exFloppy (exEntry 0x4c 0x20 2 600)

theorem exGood_links : Links exGood 0xFFF [2, 3] := by
  refine ⟨⟨by decide, ?_⟩, ?_, ⟨by decide, ?_⟩, ?_⟩ <;> decide +kernel

theorem exGood_holds : Holds exGood 0xFFF 1 [2, 3] ((List.range 600).map fun i => exGood (33 * 512 + i)) where
  first := by decide +kernel
  links := exGood_links
  size := by rw [List.length_map, List.length_range]; decide +kernel
  count := by rw [List.length_map, List.length_range]; decide +kernel
  byte := by
    intro i hi
    rw [List.length_map, List.length_range] at hi
    have hb : Booted exGood := exFloppy_booted _
    rw [hb.clusterSize, List.getElem_map, List.getElem_range]
    by_cases h : i < 512
    · exact ⟨2, by rw [show i / 512 = 0 by omega]; rfl, by
        rw [hb.clusterAt, sectorOf]; congr 1; omega⟩
    · exact ⟨3, by rw [show i / 512 = 1 by omega]; rfl, by
        rw [hb.clusterAt, sectorOf]; congr 1; omega⟩

theorem exGood_file : IsFile exGood loaderName 1 ∧ ∀ i, i < 1 → ¬ Named exGood loaderName i := by
  constructor <;> decide +kernel

example : ∃ s' n, (∀ f, n ≤ f → boot (exMachine exGood) f exM = .ok (some s')) ∧ s'.mem (0x10000 + 599) = 87 := by
  obtain ⟨s', n, h1, h2⟩ := C106_boot_partial (exMachine exGood) (exMachine_works _) (exMachine_resident _) exM 1 [2, 3]
    _ exGood_file.1 exGood_file.2 exGood_holds (by rw [List.length_map, List.length_range]; decide)
  refine ⟨s', n, h1, ?_⟩
  rw [h2 599 (by rw [List.length_map, List.length_range]; decide), List.getElem_map, List.getElem_range]
  decide +kernel

/-- The machine when the loader runs. -/
def exLoaderMachine (d : Disk) : Env :=
  { disk := d, flaky := fun k => if k % 2 = 0 then some (fun _ => 7) else none
    data := fun a => kernelName.getD a.toNat 0, name := 0 }

theorem exLoaderMachine_wants (d : Disk) : Wants (exLoaderMachine d) kernelName := by
  intro j hj
  show kernelName.getD ((0 : BitVec 16) + BitVec.ofNat 16 j).toNat 0 = _
  rw [show (0 : BitVec 16) + BitVec.ofNat 16 j = BitVec.ofNat 16 j from BitVec.zero_add _, BitVec.toNat_ofNat,
    Nat.mod_eq_of_lt (by omega)]

theorem exLoaderMachine_works (d : Disk) : (exLoaderMachine d).Works :=
  fun k => ⟨2 * k + 1, by omega, by simp [exLoaderMachine]⟩

/-- The kernel of 7 bytes in cluster 4 of the same disk. -/
example : ∃ s' n, (∀ f, n ≤ f → loader (exLoaderMachine exGood) f exM = .ok (some s')) ∧
    s'.mem (0x100000 + 6) = 6 := by
  have hb : Booted exGood := exFloppy_booted _
  have hf : IsFile exGood kernelName 2 ∧ ∀ i, i < 2 → ¬ Named exGood kernelName i := by constructor <;> decide +kernel
  have hh : Holds exGood 0xFFF 2 [4] ((List.range 7).map fun i => exGood (35 * 512 + i)) := by
    refine ⟨by decide +kernel, ⟨⟨by decide, by decide +kernel⟩, by decide +kernel⟩, by decide +kernel, by decide +kernel, ?_⟩
    intro i hi
    rw [List.length_map, List.length_range] at hi
    rw [hb.clusterSize, List.getElem_map, List.getElem_range]
    exact ⟨4, by rw [show i / 512 = 0 by omega]; rfl, by rw [hb.clusterAt, sectorOf]; congr 1; omega⟩
  obtain ⟨s', n, h1, h2⟩ := C106_kernel_partial (exLoaderMachine exGood) (exLoaderMachine_works _) hb
    (exLoaderMachine_wants _) exM 2 [4] _ hf.1 hf.2 hh
  refine ⟨s', n, h1, ?_⟩
  rw [h2 6 (by decide)]
  decide +kernel

/-- The search on this disk, and on one without the file. -/
example : Named exGood loaderName 1 ∧ ∀ k, k < 224 → ¬ Named (exFloppy (exEntry 0xE5 0x20 2 600)) loaderName k := by
  constructor <;> decide +kernel

/-- A geometry request: the last sector of the volume. -/
example : Booted exGood ∧ 2879 < totSec exGood ∧
    ∃ s', readSector { exEnv with disk := exGood } 5 { exM with ax := 2879, cx := 1 } = .ok s' :=
  ⟨exFloppy_booted _, by decide +kernel, _, rfl⟩

/-- A directory called LOADER.BIN, a label, and an entry behind the end of the directory
(entry 0 begins with 0 there). -/
def exDead (d : Disk) : Prop := (∀ i, ¬ IsFile d loaderName i) ∧ Named d loaderName 1 ∧
  (∀ i, i < 1 → ¬ Named d loaderName i) ∧ Links d 0xFFF [2, 3] ∧ start d 1 = 2

/-- The same floppy with another first byte of the directory. -/
def exCut : Disk := fun i => if i = 19 * 512 then 0 else exGood i

theorem notFile {d : Disk} (hd : Booted d) {name : List (BitVec 8)} (h : ∀ i, i < 224 → ¬ IsFile d name i) (i : Nat) :
    ¬ IsFile d name i := fun H => h i (by have := H.1.1; rwa [hd.rootEnts] at this) H

example : ∀ attr ∈ [0x10, 0x08, 0x0F], exDead (exFloppy (exEntry 0x4c attr 2 600)) := by
  intro attr ha
  refine ⟨notFile (exFloppy_booted _) ?_, ?_, ?_, ?_, ?_⟩
  · have : ∀ attr ∈ [0x10, 0x08, 0x0F], ∀ i, i < 224 → ¬ IsFile (exFloppy (exEntry 0x4c attr 2 600)) loaderName i := by
      decide +kernel
    exact this attr ha
  · have : ∀ attr ∈ [0x10, 0x08, 0x0F], Named (exFloppy (exEntry 0x4c attr 2 600)) loaderName 1 := by decide +kernel
    exact this attr ha
  · have : ∀ attr ∈ [0x10, 0x08, 0x0F], ∀ i, i < 1 → ¬ Named (exFloppy (exEntry 0x4c attr 2 600)) loaderName i := by
      decide +kernel
    exact this attr ha
  · have : ∀ attr ∈ [0x10, 0x08, 0x0F], 3 < clusters (exFloppy (exEntry 0x4c attr 2 600)) + 2 ∧
        fat (exFloppy (exEntry 0x4c attr 2 600)) 2 = 3 ∧ fat (exFloppy (exEntry 0x4c attr 2 600)) 3 = 0xFFF := by
      decide +kernel
    obtain ⟨a, b, c⟩ := this attr ha
    exact ⟨⟨by decide, by omega⟩, b, ⟨by decide, a⟩, c⟩
  · have : ∀ attr ∈ [0x10, 0x08, 0x0F], start (exFloppy (exEntry 0x4c attr 2 600)) 1 = 2 := by decide +kernel
    exact this attr ha

theorem exCut_booted : Booted exCut := by
  obtain ⟨code, sec, h1, h2⟩ := exFloppy_booted (exEntry 0x4c 0x20 2 600)
  refine ⟨code, sec, h1, fun i hi => ?_⟩
  rw [← h2 i hi]
  unfold exCut
  rw [if_neg (by omega)]
  rfl

theorem exCut_dead : exDead exCut := by
  refine ⟨notFile exCut_booted (by decide +kernel), by decide +kernel, by decide +kernel, ?_, by decide +kernel⟩
  refine ⟨⟨by decide, ?_⟩, ?_, ⟨by decide, ?_⟩, ?_⟩ <;> decide +kernel

/-- The boot code runs what a deleted entry points to. -/
example : ∃ s' n, (∀ f, n ≤ f → boot (exMachine exCut) f exM = .ok (some s')) ∧ s'.mem (0x10000 + 9) = 9 := by
  obtain ⟨h1, h2, h3, h4, h5⟩ := exCut_dead
  obtain ⟨s', n, g1, g2⟩ := C106_violated_dead (exMachine exCut) (exMachine_works _)
    ⟨exCut_booted, rfl, fun _ _ _ => rfl⟩ exM 1 [3] h1 (by decide +kernel) h2 h3
    (by show Links exCut 0xFFF (start exCut 1 :: [3]); rw [h5]; exact h4) (by decide)
  refine ⟨s', n, g1, ?_⟩
  rw [g2 9 (by decide +kernel)]
  decide +kernel

/-- An empty loader. -/
example (f : Nat) : boot (exMachine (exFloppy (exEntry 0x4c 0x20 0 0))) f exM = .oof :=
  C106_violated_empty _ (exMachine_works _) (exMachine_resident _) exM 1 (by decide +kernel) (by decide +kernel)
    (by decide +kernel) (by decide +kernel) (by decide +kernel) f

end Verif.Fat
