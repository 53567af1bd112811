import Verif.Model.Loader
import Verif.Lemmas.Boot
import Verif.Props.E820
import Verif.Props.Paging

/-! Lemmas about the set-up phase of the loader. -/

set_option backward.isDefEq.respectTransparency false

namespace Verif.Loader
open Verif Verif.E820

theorem put_at (bs : List UInt8) (m : Phys) (di : BitVec 16) (n : Nat) (hn : di.toNat = n)
    (h : n + bs.length ≤ 65536) (a : Nat) :
    put m di bs a = if h : n ≤ a ∧ a - n < bs.length then bs[a - n].toBitVec else m a := by
  induction bs generalizing m di n with
  | nil => simp [put]
  | cons b bs ih =>
    simp only [List.length_cons] at h
    simp only [put]
    by_cases c0 : bs = []
    · subst c0
      simp only [put, List.length_cons, List.length_nil, hn]
      by_cases c : a = n
      · subst c
        simp
      · rw [if_neg c, dif_neg (by omega)]
    · have hl : 0 < bs.length := List.length_pos_iff.2 c0
      have hd : (di + 1).toNat = n + 1 := by
        rw [BitVec.toNat_add, show ((1 : BitVec 16)).toNat = 1 from rfl]; omega
      rw [ih _ _ (n + 1) hd (by omega), hn]
      by_cases c : a = n
      · subst c
        rw [dif_neg (by omega), if_pos rfl, dif_pos (by simp)]
        simp
      · by_cases c2 : n + 1 ≤ a ∧ a - (n + 1) < bs.length
        · rw [dif_pos c2, dif_pos (by simp only [List.length_cons]; omega)]
          obtain ⟨k, rfl⟩ : ∃ k, a = n + 1 + k := ⟨a - (n + 1), by omega⟩
          simp only [Nat.add_sub_cancel_left, show n + 1 + k - n = k + 1 by omega,
            List.getElem_cons_succ]
        · rw [dif_neg c2, if_neg c, dif_neg (by simp only [List.length_cons]; omega)]

theorem put_spec (bs : List UInt8) (m : Phys) (di : BitVec 16) (h : di.toNat + bs.length ≤ 65536) (a : Nat) :
    put m di bs a = if h : di.toNat ≤ a ∧ a - di.toNat < bs.length then bs[a - di.toNat].toBitVec else m a :=
  put_at bs m di _ rfl h a

theorem image_length (e : Entry) : (image e).length = 20 := by simp [image, bytesLE_length]

/-- The BIOS reports the entries `es`, one per call, starting with continuation value `ebx`:
the continuation value is 0 after the last one. -/
inductive Reports (bios : Bios) : BitVec 32 → List Entry → Prop
  | last {ebx e} : bios ebx = some (image e, 0) → Reports bios ebx [e]
  | more {ebx ebx' e es} : bios ebx = some (image e, ebx') → ebx' ≠ 0 → Reports bios ebx' es →
      Reports bios ebx (e :: es)

theorem getMemory_spec {bios : Bios} {ebx : BitVec 32} {es : List Entry} (h : Reports bios ebx es)
    (m : Phys) (di : BitVec 16) (hlen : di.toNat + 20 * es.length ≤ 65536) :
    ∃ m', (∀ f, es.length ≤ f → getMemory bios f ebx di m = .ok (some m')) ∧
      (∀ i (hi : i < es.length) j (hj : j < (image es[i]).length),
        m' (di.toNat + 20 * i + j) = (image es[i])[j].toBitVec) ∧
      (∀ a, ¬ (di.toNat ≤ a ∧ a < di.toNat + 20 * es.length) → m' a = m a) := by
  induction h generalizing m di with
  | @last ebx e hb =>
    refine ⟨put m di (image e), ?_, ?_, ?_⟩
    · intro f hf
      cases f with
      | zero => simp at hf
      | succ f => simp [getMemory, hb]
    · intro i hi j hj
      have hi0 : i = 0 := by simpa using hi
      subst hi0
      simp only [List.getElem_cons_zero] at hj ⊢
      rw [put_spec _ _ _ (by rw [image_length]; simpa using hlen), dif_pos (by constructor <;> omega)]
      simp
    · intro a ha
      rw [put_spec _ _ _ (by rw [image_length]; simpa using hlen), dif_neg (by
        rw [image_length]; simp at ha; omega)]
  | @more ebx ebx' e es hb h0 hr ih =>
    simp only [List.length_cons] at hlen
    have hpos : 0 < es.length := by cases hr <;> simp
    have hd : (di + 20).toNat = di.toNat + 20 := by
      rw [BitVec.toNat_add, show ((20 : BitVec 16)).toNat = 20 from rfl]; omega
    obtain ⟨m', h1, h2, h3⟩ := ih (put m di (image e)) (di + 20) (by omega)
    rw [hd] at h2 h3
    refine ⟨m', ?_, ?_, ?_⟩
    · intro f hf
      cases f with
      | zero => simp at hf
      | succ f =>
        simp only [getMemory, hb, h0, if_false]
        exact h1 f (by simpa using hf)
    · intro i hi j hj
      cases i with
      | zero =>
        simp only [List.getElem_cons_zero] at hj ⊢
        rw [image_length] at hj
        rw [h3 _ (by omega), put_spec _ _ _ (by rw [image_length]; omega), dif_pos (by rw [image_length]; omega)]
        simp
      | succ i =>
        simp only [List.getElem_cons_succ] at hj ⊢
        have := h2 i (by simpa using hi) j hj
        rw [← this]
        congr 1; omega
    · intro a ha
      simp only [List.length_cons] at ha
      rw [h3 a (by omega), put_spec _ _ _ (by rw [image_length]; omega), dif_neg (by rw [image_length]; omega)]

theorem tables_low (l : List (Nat × Nat)) (m : Phys) (a : Nat) (h : ∀ p ∈ l, ¬ (p.1 ≤ a ∧ a < p.1 + 4)) :
    l.foldl (fun m p => movDword m p.1 p.2) m a = m a := by
  induction l generalizing m with
  | nil => rfl
  | cons p l ih =>
    rw [List.foldl_cons, ih _ (fun q hq => h q (List.mem_cons_of_mem _ hq))]
    unfold movDword
    rw [if_neg (h p (List.mem_cons_self ..))]

/-- The temporary tables lie between 0x90000 and 0x93000. -/
theorem writeTables_other (m : Phys) (a : Nat) (h : ¬ (0x90000 ≤ a ∧ a < 0x93000)) : writeTables m a = m a := by
  refine tables_low _ _ _ ?_
  have : ∀ p ∈ tables, 0x90000 ≤ p.1 ∧ p.1 + 4 ≤ 0x93000 := by decide
  intro p hp
  have := this p hp
  omega

/-- The entry whose bytes are the 20 bytes at a physical address. -/
def entryAt (m : Phys) (a : Nat) : Entry where
  address := BitVec.ofNat 64 (word m a)
  length := BitVec.ofNat 64 (word m (a + 8))
  type := BitVec.ofNat 32 (word m (a + 16))

theorem bytesLE_getElem (v n i : Nat) (h : i < (bytesLE v n).length) :
    (bytesLE v n)[i] = UInt8.ofNat (v / 256 ^ i) := by
  induction n generalizing v i with
  | zero => simp [bytesLE] at h
  | succ n ih =>
    cases i with
    | zero => simp [bytesLE]
    | succ i =>
      simp only [bytesLE, List.getElem_cons_succ]
      rw [ih, Nat.pow_succ, Nat.mul_comm, Nat.div_div_eq_div_mul]

theorem byte_ofNat (v : Nat) (b : BitVec 8) (h : v % 256 = b.toNat) : UInt8.ofNat v = UInt8.ofBitVec b := by
  apply UInt8.toNat_inj.1
  simp [h]

theorem word_byte (m : Phys) (a i : Nat) (hi : i < 8) : word m a / 256 ^ i % 256 = (m (a + i)).toNat := by
  have h0 := (m a).isLt
  have h1 := (m (a + 1)).isLt
  have h2 := (m (a + 2)).isLt
  have h3 := (m (a + 3)).isLt
  have h4 := (m (a + 4)).isLt
  have h5 := (m (a + 5)).isLt
  have h6 := (m (a + 6)).isLt
  have h7 := (m (a + 7)).isLt
  unfold word
  rcases (by omega : i = 0 ∨ i = 1 ∨ i = 2 ∨ i = 3 ∨ i = 4 ∨ i = 5 ∨ i = 6 ∨ i = 7) with
    rfl | rfl | rfl | rfl | rfl | rfl | rfl | rfl <;> simp only [Nat.reducePow, Nat.add_zero] <;> omega

theorem word_lt (m : Phys) (a : Nat) : word m a < 2 ^ 64 := by
  have h0 := (m a).isLt
  have h1 := (m (a + 1)).isLt
  have h2 := (m (a + 2)).isLt
  have h3 := (m (a + 3)).isLt
  have h4 := (m (a + 4)).isLt
  have h5 := (m (a + 5)).isLt
  have h6 := (m (a + 6)).isLt
  have h7 := (m (a + 7)).isLt
  unfold word
  omega

theorem image_entryAt (m : Phys) (a j : Nat) (hj : j < (image (entryAt m a)).length) :
    (image (entryAt m a))[j] = UInt8.ofBitVec (m (a + j)) := by
  have hj' := hj
  rw [image_length] at hj'
  simp only [image, entryAt]
  by_cases c1 : j < 8
  · rw [List.getElem_append_left (by simp [bytesLE_length]; omega),
      List.getElem_append_left (by simp [bytesLE_length]; omega), bytesLE_getElem]
    apply byte_ofNat
    rw [BitVec.toNat_ofNat, Nat.mod_eq_of_lt (word_lt _ _), word_byte _ _ _ c1]
  · by_cases c2 : j < 16
    · rw [List.getElem_append_left (by simp [bytesLE_length]; omega),
        List.getElem_append_right (by simp [bytesLE_length]; omega), bytesLE_getElem]
      apply byte_ofNat
      simp only [bytesLE_length]
      rw [BitVec.toNat_ofNat, Nat.mod_eq_of_lt (word_lt _ _), word_byte _ _ _ (by omega)]
      rw [show a + 8 + (j - 8) = a + j by omega]
    · rw [List.getElem_append_right (by simp [bytesLE_length]; omega), bytesLE_getElem]
      apply byte_ofNat
      simp only [List.length_append, bytesLE_length]
      obtain ⟨k, hk, rfl⟩ : ∃ k, k < 4 ∧ j = 16 + k := ⟨j - 16, by omega, by omega⟩
      have := word_byte m (a + 16) k (by omega)
      rw [show a + (16 + k) = a + 16 + k by omega, ← this, BitVec.toNat_ofNat, show 16 + k - (8 + 8) = k by omega]
      rcases (by omega : k = 0 ∨ k = 1 ∨ k = 2 ∨ k = 3) with rfl | rfl | rfl | rfl <;>
        simp only [Nat.reducePow] <;> omega

theorem view_low (m : Phys) (hl : Paging.Loaded (word m) Paging.pml4 Paging.pdpte Paging.pde) (a : Nat)
    (ha : a < 0xA00000) : view m Paging.cr3 (0xFFFF800000000000 + a) = some (UInt8.ofBitVec (m a)) := by
  unfold view
  rw [Paging.C60_translate _ hl _ (by omega)]
  unfold Paging.expected Paging.window Paging.high
  rw [if_neg (by omega), if_pos (by omega), show 0xFFFF800000000000 + a - 0xFFFF800000000000 = a by omega]
  rfl

theorem word_congr {m m' : Phys} {a : Nat} (h : ∀ i, i < 8 → m (a + i) = m' (a + i)) : word m a = word m' a := by
  unfold word
  rw [h 1 (by omega), h 2 (by omega), h 3 (by omega), h 4 (by omega), h 5 (by omega), h 6 (by omega),
    h 7 (by omega)]
  have := h 0 (by omega)
  rw [Nat.add_zero] at this
  rw [this]

/-- The kernel's page tables are above the memory that the loader still writes. -/
theorem loaded_congr {m m' : Phys} {a b c : List Nat} (h : ∀ x, 0x100000 ≤ x → m' x = m x)
    (hl : Paging.Loaded (word m) a b c) : Paging.Loaded (word m') a b c := by
  refine ⟨fun i hi => ?_, fun i hi => ?_, fun i hi => ?_⟩
  · rw [← hl.l4 i hi]; exact word_congr fun j _ => h _ (by omega)
  · rw [← hl.l3 i hi]; exact word_congr fun j _ => h _ (by omega)
  · rw [← hl.l2 i hi]; exact word_congr fun j _ => h _ (by omega)

/-- Memory after the set-up phase. -/
theorem setup_spec {bios : Bios} {es : List Entry} (h : Reports bios 0 es) (hlen : es.length ≤ 1664)
    (info : List UInt8) (hinfo : info.length ≤ 512) (m : Phys) :
    ∃ m', (∀ f, es.length ≤ f → setup bios (some info) f m = .ok (some m')) ∧
      (∀ i (hi : i < es.length), i < 25 → ∀ j (hj : j < (image es[i]).length),
        m' (0x7E00 + 20 * i + j) = (image es[i])[j].toBitVec) ∧
      (∀ a, a < 0x8000 → ¬ (0x7E00 ≤ a ∧ a < 0x7E00 + 20 * es.length) → m' a = m a) ∧
      (∀ a, 0x100000 ≤ a → m' a = m a) := by
  have t : (0x7E00 : BitVec 16).toNat = 0x7E00 := rfl
  have t2 : (0x8000 : BitVec 16).toNat = 0x8000 := rfl
  obtain ⟨m1, h1, h2, h3⟩ := getMemory_spec h m 0x7E00 (by rw [t]; omega)
  rw [t] at h2 h3
  refine ⟨writeTables (put m1 0x8000 info), ?_, ?_, ?_, ?_⟩
  · intro f hf
    simp only [setup, h1 f hf, Res.ok_bind, getSvga, Option.map_some]
  · intro i hi h25 j hj
    have hj' := hj
    rw [image_length] at hj'
    rw [writeTables_other _ _ (by omega), put_at _ _ _ 0x8000 t2 (by omega), dif_neg (by omega)]
    exact h2 i hi j hj
  · intro a ha hn
    rw [writeTables_other _ _ (by omega), put_at _ _ _ 0x8000 t2 (by omega), dif_neg (by omega)]
    exact h3 a hn
  · intro a ha
    rw [writeTables_other _ _ (by omega), put_at _ _ _ 0x8000 t2 (by omega), dif_neg (by omega)]
    exact h3 a (by omega)

end Verif.Loader
