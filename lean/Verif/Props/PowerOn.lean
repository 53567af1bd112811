import Verif.Props.Bss
import Verif.Props.Image
import Verif.Props.Mode
set_option backward.isDefEq.respectTransparency false

/-!
C109: from the floppy to main. The models of boot.asm, loader.asm, the descriptor tables and modes,
head.S and the linker, one behind the other.
-/

namespace Verif.PowerOn
open Verif Verif.Boot Verif.Loader Verif.Image

/-- Two runs that end, end the same way. -/
theorem Ev.unique {α : Type} {g : Nat → Res α} {a b : α} (ha : Ev g a) (hb : Ev g b) : a = b := by
  obtain ⟨⟨n, hn⟩, _⟩ := ha
  obtain ⟨⟨k, hk⟩, _⟩ := hb
  have := (hn (max n k) (Nat.le_max_left ..)).symm.trans (hk (max n k) (Nat.le_max_right ..))
  injection this

/-- `search_starts`, with what is left alone. -/
theorem search_frame (e : Env) (he : e.Works) (s : M) (c : Nat) (hs : Starts e c) :
    ∃ s', Ev (fun f => search e f s) (s', some (BitVec.ofNat 16 c)) ∧ s'.kernelOffset = s.kernelOffset ∧
      ∀ a, ¬ (0x8000 ≤ a ∧ a < 0x8400) → s'.mem a = s.mem a := by
  obtain ⟨s', h1, h2⟩ := search_starts e he s c hs
  obtain ⟨s2, r, g1, _, _, _, g5⟩ := search_spec e he s
  have := Ev.unique h1 g1
  injection this with e1 _
  subst e1
  exact ⟨s', h1, h2, g5⟩

/-- Loading the loader leaves the memory below the buffers alone. -/
theorem loadFile_low (e : Env) (he : e.Works) (l : List Nat) (c i : Nat) (hl : RawChain e 0xFFF (c :: l)) (s : M)
    (hax : s.ax = BitVec.ofNat 16 (c + 31)) (hes : s.es = 0x1000) (hbx : s.bx = BitVec.ofNat 16 (512 * i)) :
    ∃ s', Ev2 (fun f h => loadFile e f h (BitVec.ofNat 16 c) s) s' ∧
      ∀ a, a < 0x8000 → s'.mem a = s.mem a := by
  induction l generalizing c i s with
  | nil =>
    obtain ⟨hc, hv⟩ := hl
    obtain ⟨s1, h1, h2, h3, h4⟩ := round_ok e he c hc s hax (by rw [hes, hbx, phys_load]; omega)
    rw [hes, hbx, phys_load] at h4
    refine ⟨s1, Ev2.step (fun f => rfl) (fun f h => loadFile_unfold e f h _ _) h1 ?_, ?_⟩
    · simp only [h2.trans hv, if_true]
      exact Ev2.pure _
    · intro a ha
      rw [h4 a (by omega), blit, if_neg (by omega)]
  | cons d l ih =>
    obtain ⟨hc, hv, hd⟩ := hl
    obtain ⟨s1, h1, h2, h3, h4⟩ := round_ok e he c hc s hax (by rw [hes, hbx, phys_load]; omega)
    rw [hes, hbx, phys_load] at h4
    have hcd : Cluster d := by
      cases l with
      | nil => exact hd.1
      | cons _ _ => exact hd.1
    have hne : s1.ax ≠ 0xFFF := by
      rw [h2, hv]
      intro h
      have := congrArg BitVec.toNat h
      rw [BitVec.toNat_ofNat, show ((0xFFF : BitVec 16)).toNat = 4095 from rfl] at this
      have := hcd.2
      omega
    obtain ⟨s2, g1, g2⟩ := ih d (i + 1) hd { s1 with ax := s1.ax + 14 + 17, bx := s1.bx + 512 }
      (by simp only; rw [h2, hv, next_ax]) (h3.es.trans hes)
      (by simp only; rw [h3.bx, hbx, next_bx])
    have hax1 : s1.ax = BitVec.ofNat 16 d := h2.trans hv
    refine ⟨s2, Ev2.step (fun f => rfl) (fun f h => loadFile_unfold e f h _ _) h1 ?_, ?_⟩
    · simp only [hne, if_false]
      rw [← hax1] at g1
      exact g1
    · intro a ha
      rw [g2 a ha]
      show s1.mem a = s.mem a
      rw [h4 a (by omega), blit, if_neg (by omega)]

theorem loadAllK_low (e : Env) (l : List Nat) : ∀ (i : Nat) (m : Nat → BitVec 8) (a : Nat), a < 0x100000 →
    loadAllK e i l m a = m a := by
  induction l with
  | nil => intro i m a _; rfl
  | cons c l ih =>
    intro i m a ha
    show loadAllK e (i + 1) l _ a = _
    rw [ih _ _ _ ha, blit, if_neg (by omega)]

/-- The boot sector loads the loader, and leaves itself alone. -/
theorem boot_spec (e : Env) (he : e.Works) (s : M) (c : Nat) (l : List Nat) (hs : Starts e c)
    (hl : Chain e 0xFFF (c :: l)) (hlen : (c :: l).length ≤ 128) :
    ∃ s' n, (∀ f, n ≤ f → Boot.boot e f s = .ok (some s')) ∧
      (∀ k, k < 512 * (c :: l).length → s'.mem (0x10000 + k) = fileByte e (c :: l) k) ∧
      ∀ a, a < 0x8000 → s'.mem a = s.mem a := by
  obtain ⟨s', n, h1, h2⟩ := C66_boot_partial e he s c l hs hl hlen
  refine ⟨s', n, h1, fun k hk => ?_, ?_⟩
  · have hi : k / 512 < (c :: l).length := by omega
    have := h2 (k / 512) hi (k % 512) (Nat.mod_lt _ (by decide))
    rw [Nat.add_assoc, Nat.div_add_mod] at this
    rw [this, fileByte, List.getD_eq_getElem?_getD, List.getElem?_eq_getElem hi]
    rfl
  · obtain ⟨s1, g1, _, g3⟩ := search_frame e he s c hs
    obtain ⟨s2, k1, k2⟩ := loadFile_low e he l c 0 hl.raw
      { s1 with es := 0x1000, bx := 0, ax := BitVec.ofNat 16 c + 14 + 17 } (next_ax c) rfl rfl
    have : Ev (fun f => Boot.boot e f s) (some s2) := by
      refine Ev.congr (g := fun f => search e f s >>= fun r => match r.2 with
        | none => .ok none
        | some c => loadFile e f f c { r.1 with es := 0x1000, bx := 0, ax := c + 14 + 17 } >>= fun s => .ok (some s)) ?_
        (fun f => rfl)
      exact Ev.bind g1 (Ev.bind k1.diag (Ev.pure _))
    obtain ⟨⟨q, hq⟩, _⟩ := this
    have e1 := (h1 (max n q) (Nat.le_max_left ..)).symm.trans (hq (max n q) (Nat.le_max_right ..))
    injection e1 with e1
    injection e1 with e1
    subst e1
    intro a ha
    rw [k2 a ha]
    exact g3 a (by omega)

/-- The loader leaves itself alone. -/
theorem start_frame' (e : Env) (he : e.Works) (s : M) (c : Nat) (l : List Nat) (hs : Starts e c)
    (hl : Chain e 0xFFF (c :: l)) {bios : Bios} {es : List E820.Entry}
    (hb : Reports bios 0 es) (hlen : es.length ≤ 1664) (info : List UInt8) (hinfo : info.length ≤ 512) :
    ∃ m n, (∀ f, n ≤ f → start e bios (some info) f s = .ok (some m)) ∧
      (∀ k, k < 512 * (c :: l).length → m (0x100000 + k) = fileByte e (c :: l) k) ∧
      ∀ a, 0x10000 ≤ a → a < 0x90000 → m a = s.mem a := by
  have hcl := hl.length (by omega)
  simp only [List.length_cons] at hcl
  obtain ⟨s0, q1, q2, _⟩ := loader_spec e he s c l hs hl
  obtain ⟨s1, h1, h1', h1''⟩ := search_frame e he { s with kernelOffset := 0x100000 } c hs
  obtain ⟨s2, g1, g2, _⟩ := loadKernel_spec e he l c 0 hl.raw (by omega)
    { s1 with es := 0, bx := 0x7E00, ax := BitVec.ofNat 16 c + 14 + 17 } (next_ax c) rfl rfl h1'
  have hE : Ev (fun f => loader e f s) (some s2) := by
    refine Ev.congr (g := fun f => search e f { s with kernelOffset := 0x100000 } >>= fun r => match r.2 with
      | none => .ok none
      | some c => loadKernel e f f c { r.1 with es := 0, bx := 0x7E00, ax := c + 14 + 17 } >>= fun s => .ok (some s)) ?_
      (fun f => rfl)
    exact Ev.bind h1 (Ev.bind g1.diag (Ev.pure _))
  have e0 := Ev.unique q1 hE
  injection e0 with e0
  subst e0
  obtain ⟨m1, k1, _, k3⟩ := getMemory_spec hb s0.mem 0x7E00 (by rw [show (0x7E00 : BitVec 16).toNat = 0x7E00 from rfl]; omega)
  rw [show (0x7E00 : BitVec 16).toNat = 0x7E00 from rfl] at k3
  have t2 : (0x8000 : BitVec 16).toNat = 0x8000 := rfl
  have far : ∀ a, 0x10000 ≤ a → ¬ (0x90000 ≤ a ∧ a < 0x93000) →
      writeTables (put m1 0x8000 info) a = s0.mem a := by
    intro a ha hn
    rw [writeTables_other _ _ hn, put_at _ _ _ 0x8000 t2 (by omega), dif_neg (by omega), k3 a (by omega)]
  obtain ⟨⟨n, hn⟩, _⟩ := hE
  have hn : ∀ f, n ≤ f → loader e f s = .ok (some s0) := hn
  refine ⟨writeTables (put m1 0x8000 info), n + es.length, ?_, ?_, ?_⟩
  · intro f hf
    unfold start
    rw [hn f (by omega), Res.ok_bind]
    simp only [setup, k1 f (by omega), Res.ok_bind, getSvga, Option.map_some]
  · intro k hk
    rw [far _ (by omega) (by omega)]
    exact q2 k hk
  · intro a ha ha2
    rw [far _ ha (by omega), g2 a ha, loadAllK_low _ _ _ _ _ (by omega)]
    exact h1'' a (by omega)

/-- The file in a chain of clusters begins with the image of a kernel. -/
def Holds (e : Env) (l : List Nat) (image : List (BitVec 8)) : Prop :=
  image.length ≤ 512 * l.length ∧ ∀ k (h : k < image.length), fileByte e l k = image[k]

theorem at_of {e : Env} {l : List Nat} {image : List (BitVec 8)} (h : Holds e l image) {m : Phys}
    (hm : ∀ k, k < 512 * l.length → m (0x100000 + k) = fileByte e l k) : At m 0x100000 image := by
  intro k hk
  rw [hm k (by have := h.1; omega), h.2 k hk]

theorem canonical_entry (p : Parts) (h : p.c1.length + p.c2.length + 16 ≤ 0x1000) :
    Mode.Canonical (BitVec.ofNat 64 (base + (p.c1.length + 8))) := by
  refine .inr ?_
  apply BitVec.eq_of_toNat_eq
  rw [BitVec.extractLsb'_toNat, BitVec.toNat_ofNat, Nat.shiftRight_eq_div_pow]
  unfold base
  rw [show ((-1 : BitVec 17)).toNat = 131071 from rfl]
  omega

/-- C109. For every floppy with a loader (of at most 64 KiB) and any linked kernel on it (chains of
clusters ended by 0xFFF), however often the drive fails in between, whatever was in memory and
whatever memory map the BIOS reports: the boot sector loads the loader and does not overwrite
itself, the loader loads the kernel and does not overwrite itself, and from every state of the
registers in real mode, going on with the addresses found in the memory of the machine at
`SwitchSeg` and `StartKernel`, the processor arrives in 64-bit mode, in ring 0, at `main` of that
kernel, with page tables that translate all addresses as they should and the descriptors of
head.S, which lie where `lgdt` was told. -/
theorem C109_main (eb el : Env) (hb : eb.Works) (hk : el.Works) (s0 : M)
    (cb : Nat) (lb : List Nat) (sb : Starts eb cb) (chb : Chain eb 0xFFF (cb :: lb)) (lenb : (cb :: lb).length ≤ 128)
    (ck : Nat) (lk : List Nat) (sk : Starts el ck) (chk : Chain el 0xFFF (ck :: lk))
    (p : Parts) (l : Linked) (hl : link p = some l) (hmain : p.main < 2 ^ 64)
    (hcan : Mode.Canonical (BitVec.ofNat 64 p.main)) (hfile : Holds el (ck :: lk) l.image)
    (bios : Bios) (es : List E820.Entry) (hrep : Reports bios 0 es) (hes : es.length ≤ 1664)
    (info : List UInt8) (hinfo : info.length ≤ 512) :
    ∃ s1 n1, (∀ f, n1 ≤ f → Boot.boot eb f s0 = .ok (some s1)) ∧
      (∀ a, 0x7C00 ≤ a → a < 0x7E00 → s1.mem a = s0.mem a) ∧
      (∀ k, k < 512 * (cb :: lb).length → s1.mem (0x10000 + k) = fileByte eb (cb :: lb) k) ∧
      ∀ s2 : M, s2.mem = s1.mem → ∃ m n2,
        (∀ f, n2 ≤ f → start el bios (some info) f s2 = .ok (some m)) ∧
        (∀ k, k < 512 * (cb :: lb).length → m (0x10000 + k) = fileByte eb (cb :: lb) k) ∧
        At m 0x100000 l.image ∧
        ∀ (cpu : Mode.Cpu) (prot : BitVec 64), Mode.RealMode cpu → prot.toNat < 2 ^ 32 → ∃ cpu',
          Mode.exec (Mode.boot prot
            (BitVec.ofNat 64 (word m (l.sym "SwitchSeg" - 0xffff800000000000)))
            (BitVec.ofNat 64 (word m (l.sym "StartKernel" - 0xffff800000000000)))) cpu = some cpu' ∧
          cpu'.rip = BitVec.ofNat 64 p.main ∧ cpu'.mode64 = true ∧ cpu'.cpl = 0 ∧ cpu'.ie = false ∧
          (∀ va, va < 2 ^ 64 → Paging.walk (word m) cpu'.cr3.toNat va =
            (Paging.expected va).map fun pa => (pa, true)) ∧
          Seen m (l.sym "GDT_PTR") (le (8 * cpu'.gdt.length - 1) 2 ++ le (l.sym "GDT_TABLE") 8) ∧
          Seen m (l.sym "GDT_TABLE") (quads (cpu'.gdt.map BitVec.toNat)) := by
  obtain ⟨s1, n1, h1, h2, h3⟩ := boot_spec eb hb s0 cb lb sb chb lenb
  refine ⟨s1, n1, h1, fun a _ ha => h3 a (by omega), h2, fun s2 hs2 => ?_⟩
  obtain ⟨m, n2, g1, g2, g3⟩ := start_frame' el hk s2 ck lk sk chk hrep hes info hinfo
  have hAt := at_of hfile g2
  refine ⟨m, n2, g1, fun k hk' => ?_, hAt, fun cpu prot hc hp => ?_⟩
  · rw [g3 _ (by omega) (by omega), hs2]
    exact h2 k hk'
  · have hck := chk.length (by omega)
    have hsz : l.image.length ≤ 0x900000 := by have := hfile.1; omega
    obtain ⟨_, _, e1, ⟨pa, _, e2⟩, _, e3⟩ := ImageSpec.C108_start p l hl hmain m hAt
    have ce : Mode.Canonical (BitVec.ofNat 64 (l.sym "Entry64")) := by
      obtain ⟨hf, _, hsym, _⟩ := link_some hl
      rw [hsym, (env_text p).2.2.1]
      exact canonical_entry _ hf.1
    rw [e1, e3]
    obtain ⟨cpu', c1, c2, c3, c4, c5, c6, c7, _⟩ := Mode.C82_main cpu hc prot _ _ hp ce hcan
    obtain ⟨t1, t2, _⟩ := ImageSpec.C108_tables p l hl m hAt hsz
    refine ⟨cpu', c1, c2, c3, c4, c5, ?_, ?_, ?_⟩
    · rw [c6]
      exact (ImageSpec.C108_paging p l hl m hAt).1
    · rw [c7, show Mode.kernelGdt.length = 17 by decide]
      exact t1
    · rw [c7]
      exact t2

/-- A file with a linked kernel has its page tables in place: the hypothesis of C75 and C84. -/
theorem tables_of {el : Env} {lk : List Nat} {p : Parts} {l : Linked} (hl : link p = some l)
    (hfile : Holds el lk l.image) : HasTables el lk := by
  refine ⟨?_, ?_⟩
  · have h1 := hfile.1
    obtain ⟨hf, hi, _⟩ := link_some hl
    rw [hi] at h1
    simp only [List.length_append, emit_text_length _ _ _ hf.1] at h1
    omega
  · let m : Phys := fun a => fileByte el lk (a - 0x100000)
    have hAt : At m 0x100000 l.image := by
      refine at_of hfile fun k _ => ?_
      show fileByte el lk (0x100000 + k - 0x100000) = _
      rw [Nat.add_sub_cancel_left]
    have h := tables_loaded hl hAt
    have w : ∀ a, 0x100000 ≤ a → Loader.word m a = Loader.word (fileByte el lk) (a - 0x100000) := by
      intro a ha
      have q : ∀ j, m (a + j) = fileByte el lk (a - 0x100000 + j) := by
        intro j
        show fileByte el lk (a + j - 0x100000) = _
        rw [show a + j - 0x100000 = a - 0x100000 + j by omega]
      unfold Loader.word
      have q0 := q 0
      rw [Nat.add_zero, Nat.add_zero] at q0
      rw [q0, q 1, q 2, q 3, q 4, q 5, q 6, q 7]
    refine ⟨fun i hi => ?_, fun i hi => ?_, fun i hi => ?_⟩
    · rw [← h.l4 i hi, w _ (by omega)]
    · rw [← h.l3 i hi, w _ (by omega)]
    · rw [← h.l2 i hi, w _ (by omega)]

/-- C75 without the hypothesis on the tables: the kernel that is reached has the memory map of the BIOS, of up to 20 usable
entries, unless the last sector of its file happens to hold another one. -/
theorem C75_linked_partial (el : Env) (hk : el.Works) (s : M)
    (ck : Nat) (lk : List Nat) (sk : Starts el ck) (chk : Chain el 0xFFF (ck :: lk))
    (p : Parts) (l : Linked) (hl : link p = some l) (hfile : Holds el (ck :: lk) l.image)
    (bios : Bios) (es : List E820.Entry) (hrep : Reports bios 0 es) (hes : es.length ≤ 20)
    (hv : ∀ x ∈ es, E820.valid x = true)
    (hend : es.length < 20 → E820.valid (leftover el ck lk es.length) = false)
    (info : List UInt8) (hinfo : info.length ≤ 512) (g : E820.Manager) (hg : g.entrys.n = 20) :
    ∃ m n g', (∀ f, n ≤ f → start el bios (some info) f s = .ok (some m)) ∧
      E820.init (view m Paging.cr3) g = .ok g' ∧
      (List.range (E820.size g')).map (E820.nth g') = es.map Res.ok ∧
      (E820.freeSum es < 2 ^ 64 → g'.available.toNat = E820.freeSum es) :=
  C75_faithful_partial el hk s ck lk sk chk (tables_of hl hfile) hrep hes hv hend info hinfo g hg

/-- C109, the data: the kernel that is reached finds every byte of its image where it was linked,
through its own page tables. -/
theorem C109_image (el : Env) (hk : el.Works) (s : M)
    (ck : Nat) (lk : List Nat) (sk : Starts el ck) (chk : Chain el 0xFFF (ck :: lk))
    (p : Parts) (l : Linked) (hl : link p = some l) (hfile : Holds el (ck :: lk) l.image)
    (bios : Bios) (es : List E820.Entry) (hrep : Reports bios 0 es) (hes : es.length ≤ 1664)
    (info : List UInt8) (hinfo : info.length ≤ 512) :
    ∃ m n, (∀ f, n ≤ f → start el bios (some info) f s = .ok (some m)) ∧
      Seen m 0xffff800000100000 l.image ∧
      (l.startCtors % 8 = 0 → (∀ f ∈ p.ctors.flatten, f < 2 ^ 64) → ∃ n, ∀ fuel, n ≤ fuel →
        initLoop (readWord m) (BitVec.ofNat 64 l.endCtors) fuel (BitVec.ofNat 64 l.startCtors) [] =
          .ok p.ctors.flatten) := by
  obtain ⟨m, n, g1, g2, _⟩ := start_frame' el hk s ck lk sk chk hrep hes info hinfo
  have hAt := at_of hfile g2
  have hck := chk.length (by omega)
  have hsz : l.image.length ≤ 0x900000 := by have := hfile.1; omega
  refine ⟨m, n, g1, ?_, fun ha hf => ?_⟩
  · exact seen_of hl hAt hsz [] l.image [] (by simp) _ rfl
  · exact ImageSpec.C108_constructors_partial p l hl m hAt hsz hf ha

/-! A floppy with both files. -/

/-- The image of the kernel of `ImageSpec.exParts`, 41 sectors. -/
def exImage : List (BitVec 8) := ((link ImageSpec.exParts).map (·.image)).getD []

/-- Names in directory entries. -/
def exNames : List Nat :=
  [0x4c, 0x4f, 0x41, 0x44, 0x45, 0x52, 0x20, 0x20, 0x42, 0x49, 0x4e] ++ List.replicate 15 0 ++ [2, 0, 0, 0, 0, 0] ++
  [0x4b, 0x45, 0x52, 0x4e, 0x45, 0x4c, 0x20, 0x20, 0x42, 0x49, 0x4e] ++ List.replicate 15 0 ++ [3, 0, 0, 0, 0, 0]

/-- The loader in cluster 2, the kernel in clusters 3 to 43; every other access to the drive fails. -/
def exFloppy (name : List Nat) : Env where
  disk := fun i =>
    let entry := fun n => if n < 3 then 0xFFF else if n < 43 then n + 1 else 0xFFF
    if i < 512 then 0
    else if i < 512 + 9 * 512 then
      let j := i - 512
      BitVec.ofNat 8 (match j % 3 with
        | 0 => entry (2 * (j / 3)) % 256
        | 1 => entry (2 * (j / 3)) / 256 + entry (2 * (j / 3) + 1) % 16 * 16
        | _ => entry (2 * (j / 3) + 1) / 16)
    else if i < 19 * 512 then 0
    else if i < 33 * 512 then BitVec.ofNat 8 (exNames.getD (i - 19 * 512) 0)
    else if i < 34 * 512 then BitVec.ofNat 8 i
    else exImage.getD (i - 34 * 512) 0
  flaky := fun k => if k % 2 = 0 then some (fun _ => 7) else none
  data := fun i => BitVec.ofNat 8 (name.getD (i.toNat - 0x40) 0)
  name := 0x40

/-- As boot.asm looks for the loader. -/
def exBoot : Env := exFloppy [0x4c, 0x4f, 0x41, 0x44, 0x45, 0x52, 0x20, 0x20, 0x42, 0x49, 0x4e]
/-- As loader.asm looks for the kernel. -/
def exLoad : Env := exFloppy [0x4b, 0x45, 0x52, 0x4e, 0x45, 0x4c, 0x20, 0x20, 0x42, 0x49, 0x4e]

theorem exFloppy_works (name : List Nat) : (exFloppy name).Works :=
  fun k => ⟨2 * k + 1, by omega, if_neg (by omega)⟩

theorem exBoot_starts : Starts exBoot 2 := by
  refine ⟨0, by decide, ?_, fun i hi => absurd hi (by omega), by decide +kernel⟩
  have : ∀ j : Fin 11, exBoot.disk (19 * 512 + 32 * 0 + j.val) =
      exBoot.data (exBoot.name + BitVec.ofNat 16 j.val) := by decide +kernel
  intro j hj
  have h := this ⟨j, hj⟩
  dsimp only at h
  exact h

theorem exLoad_starts : Starts exLoad 3 := by
  refine ⟨1, by decide, ?_, ?_, by decide +kernel⟩
  · have : ∀ j : Fin 11, exLoad.disk (19 * 512 + 32 * 1 + j.val) =
        exLoad.data (exLoad.name + BitVec.ofNat 16 j.val) := by decide +kernel
    intro j hj
    have h := this ⟨j, hj⟩
    dsimp only at h
    exact h
  · intro i hi H
    have h0 : i = 0 := by omega
    subst h0
    exact absurd (H 0 (by decide)) (by decide +kernel)

theorem exBoot_chain : Chain exBoot 0xFFF (2 :: []) := chain_of_chk _ _ _ (by decide +kernel)

theorem exLoad_chain : Chain exLoad 0xFFF (3 :: List.range' 4 40) := chain_of_chk _ _ _ (by decide +kernel)

theorem exLoad_holds (l : Linked) (hl : link ImageSpec.exParts = some l) :
    Holds exLoad (3 :: List.range' 4 40) l.image := by
  have e : exImage = l.image := by unfold exImage; rw [hl]; rfl
  have hlen : exImage.length ≤ 512 * 41 := by decide +kernel
  rw [← e]
  refine ⟨hlen, fun k hk => ?_⟩
  unfold fileByte
  have : (3 :: List.range' 4 40).getD (k / 512) 0 = 3 + k / 512 := by
    rw [show (3 :: List.range' 4 40) = List.range' 3 41 from rfl]
    rw [List.getD_eq_getElem?_getD, List.getElem?_eq_getElem (by simp; omega), Option.getD_some]
    simp
  rw [this]
  unfold sectorOf
  rw [show (33 + (3 + k / 512 - 2)) * 512 + k % 512 = 34 * 512 + k by omega]
  show (if _ then _ else _) = _
  rw [if_neg (by omega), if_neg (by omega), if_neg (by omega), if_neg (by omega), if_neg (by omega),
    Nat.add_sub_cancel_left, List.getD_eq_getElem?_getD, List.getElem?_eq_getElem hk]
  rfl

example : ∃ s1 n1, (∀ f, n1 ≤ f → Boot.boot exBoot f exM = .ok (some s1)) ∧ ∃ m n2,
    (∀ f, n2 ≤ f → start exLoad (exBios exMap) (some [1, 2, 3]) f s1 = .ok (some m)) ∧
    ∃ l cpu', link ImageSpec.exParts = some l ∧
      Mode.exec (Mode.boot 0x10500
        (BitVec.ofNat 64 (word m (l.sym "SwitchSeg" - 0xffff800000000000)))
        (BitVec.ofNat 64 (word m (l.sym "StartKernel" - 0xffff800000000000)))) Mode.exReal = some cpu' ∧
      cpu'.rip = 0xffff800000104000 ∧ cpu'.mode64 = true := by
  have hl := link_eq _ ImageSpec.exParts_fits
  obtain ⟨s1, n1, h1, _, _, h2⟩ := C109_main exBoot exLoad (exFloppy_works _) (exFloppy_works _) exM 2 []
    exBoot_starts exBoot_chain (by decide) 3 (List.range' 4 40) exLoad_starts exLoad_chain ImageSpec.exParts _ hl
    (by decide) (by right; decide) (exLoad_holds _ hl) _ _ (exBios_reports exMap 0 (by decide) (by decide))
    (by decide) [1, 2, 3] (by decide)
  obtain ⟨m, n2, g1, _, _, g2⟩ := h2 s1 rfl
  obtain ⟨cpu', c1, c2, c3, _⟩ := g2 Mode.exReal 0x10500 Mode.exReal_ok (by decide)
  exact ⟨s1, n1, h1, m, n2, g1, _, cpu', hl, c1, c2, c3⟩

example : ∃ m n g', (∀ f, n ≤ f → start exLoad (exBios exMap) (some [1, 2, 3]) f exM = .ok (some m)) ∧
    E820.init (view m Paging.cr3) ⟨Arr.fill 20 default, 7, 7⟩ = .ok g' ∧
    (List.range (E820.size g')).map (E820.nth g') = exMap.map Res.ok := by
  have hl := link_eq _ ImageSpec.exParts_fits
  obtain ⟨m, n, g', h1, h2, h3, _⟩ := C75_linked_partial exLoad (exFloppy_works _) exM 3 (List.range' 4 40) exLoad_starts
    exLoad_chain ImageSpec.exParts _ hl (exLoad_holds _ hl) _ _ (exBios_reports exMap 0 (by decide) (by decide))
    (by decide) (by decide) (fun _ => by decide +kernel) [1, 2, 3] (by decide) ⟨Arr.fill 20 default, 7, 7⟩ rfl
  exact ⟨m, n, g', h1, h2, h3⟩

example : ∃ m n, (∀ f, n ≤ f → start exLoad (exBios exMap) (some [1, 2, 3]) f exM = .ok (some m)) ∧
    ∃ l, link ImageSpec.exParts = some l ∧ ∃ n, ∀ fuel, n ≤ fuel →
      initLoop (readWord m) (BitVec.ofNat 64 l.endCtors) fuel (BitVec.ofNat 64 l.startCtors) [] =
        .ok [0xffff800000104000, 0xffff800000104010, 0xffff800000104020] := by
  have hl := link_eq _ ImageSpec.exParts_fits
  obtain ⟨m, n, h1, _, h3⟩ := C109_image exLoad (exFloppy_works _) exM 3 (List.range' 4 40) exLoad_starts
    exLoad_chain ImageSpec.exParts _ hl (exLoad_holds _ hl) _ _ (exBios_reports exMap 0 (by decide) (by decide))
    (by decide) [1, 2, 3] (by decide)
  exact ⟨m, n, h1, _, hl, h3 (by decide +kernel) (by decide +kernel)⟩

end Verif.PowerOn
