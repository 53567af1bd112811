import Verif.Model.Bss
import Verif.Props.Interrupt
import Verif.Props.Loader

/-! Property C84: variables without an initialiser are zero when `main` starts. -/

set_option backward.isDefEq.respectTransparency false

namespace Verif.Loader
open Verif Verif.E820 Verif.Boot

theorem loadAllK_above (e : Env) (l : List Nat) (i : Nat) (m : Nat → BitVec 8) (a : Nat)
    (ha : 0x100000 + 512 * (i + l.length) ≤ a) : loadAllK e i l m a = m a := by
  induction l generalizing i m with
  | nil => rfl
  | cons c l ih =>
    simp only [List.length_cons] at ha
    show loadAllK e (i + 1) l _ a = _
    rw [ih (i + 1) _ (by omega)]
    unfold blit
    rw [if_neg (by omega)]

theorem ev_unique {α : Type} {g : Nat → Res α} {a b : α} (ha : Ev g a) (hb : Ev g b) : a = b := by
  obtain ⟨⟨n, hn⟩, _⟩ := ha
  obtain ⟨⟨k, hk⟩, _⟩ := hb
  have := (hn (max n k) (by omega)).symm.trans (hk (max n k) (by omega))
  exact Res.ok.inj this

/-- Memory behind the file is not touched by the loader. -/
theorem loader_frame (e : Env) (he : e.Works) (s : M) (c : Nat) (l : List Nat) (hs : Starts e c)
    (hl : Chain e 0xFFF (c :: l)) :
    ∃ s', Ev (fun f => Boot.loader e f s) (some s') ∧
      ∀ a, 0x100000 + 512 * (c :: l).length ≤ a → s'.mem a = s.mem a := by
  have hlen := hl.length (by omega)
  simp only [List.length_cons] at hlen
  obtain ⟨s1, r, h1, h2, h3, h4, h5⟩ := search_spec e he { s with kernelOffset := 0x100000 }
  obtain ⟨s1', h1', h4'⟩ := search_starts e he { s with kernelOffset := 0x100000 } c hs
  have hr := ev_unique h1 h1'
  obtain ⟨rfl, rfl⟩ := Prod.mk.inj hr
  obtain ⟨s2, g1, g2, g3⟩ := loadKernel_spec e he l c 0 hl.raw (by omega)
    { s1 with es := 0, bx := 0x7E00, ax := BitVec.ofNat 16 c + 14 + 17 } (next_ax c) rfl rfl h4'
  refine ⟨s2, ?_, ?_⟩
  · refine Ev.congr (g := fun f => search e f { s with kernelOffset := 0x100000 } >>= fun r => match r.2 with
      | none => .ok none
      | some c => loadKernel e f f c { r.1 with es := 0, bx := 0x7E00, ax := c + 14 + 17 } >>= fun s => .ok (some s)) ?_
      (fun f => rfl)
    exact Ev.bind h1 (Ev.bind g1.diag (Ev.pure _))
  · intro a ha
    have a1 : 0x10000 ≤ a := Nat.le_trans (by decide) (Nat.le_trans (Nat.le_add_right _ _) ha)
    have a2 : ¬ (0x8000 ≤ a ∧ a < 0x8400) := fun h => by omega
    exact (g2 a a1).trans ((loadAllK_above e (c :: l) 0 _ a (by rw [Nat.zero_add]; exact ha)).trans (h5 a a2))

/-- Memory when the kernel starts, as `main` sees it: the file, and behind it what was there before. -/
theorem start_frame (e : Env) (he : e.Works) (s : M) (c : Nat) (l : List Nat) (hs : Starts e c)
    (hl : Chain e 0xFFF (c :: l)) (ht : HasTables e (c :: l)) {bios : Bios} {es : List Entry}
    (hb : Reports bios 0 es) (hlen : es.length ≤ 1664) (info : List UInt8) (hinfo : info.length ≤ 512) :
    ∃ m n, (∀ f, n ≤ f → start e bios (some info) f s = .ok (some m)) ∧
      (∀ k, k < 0x900000 → view m Paging.cr3 (Paging.high + 0x100000 + k) =
        some (UInt8.ofBitVec (if k < 512 * (c :: l).length then fileByte e (c :: l) k else s.mem (0x100000 + k)))) := by
  obtain ⟨m, n, h1, h2, h3, _⟩ := start_spec e he s c l hs hl ht hb hlen info hinfo
  obtain ⟨s1, g1, g2⟩ := loader_frame e he s c l hs hl
  obtain ⟨m', k1, _, _, k4⟩ := setup_spec hb hlen info hinfo s1.mem
  obtain ⟨⟨n', hn⟩, _⟩ := g1
  have hm : m' = m := by
    have hn : ∀ f, n' ≤ f → loader e f s = .ok (some s1) := hn
    have a1 := h1 (n + n' + es.length) (by omega)
    unfold start at a1
    rw [hn _ (by omega), Res.ok_bind] at a1
    have a2 := k1 (n + n' + es.length) (by omega)
    exact Option.some.inj (Res.ok.inj (a2.symm.trans a1))
  subst hm
  refine ⟨m', n, h1, ?_⟩
  intro k hk
  unfold view
  rw [Paging.C60_translate _ h2 _ (by unfold Paging.high; omega)]
  unfold Paging.expected Paging.window
  rw [if_neg (by omega), if_pos (by unfold Paging.high; omega)]
  simp only [Option.map_some]
  rw [show Paging.high + 0x100000 + k - Paging.high = 0x100000 + k by omega]
  by_cases c0 : k < 512 * (c :: l).length
  · rw [if_pos c0, h3 k c0]
  · rw [if_neg c0, k4 _ (by omega), g2 _ (by omega)]

end Verif.Loader

namespace Verif.Interrupt
open Verif

theorem flags_ofImage (b : BitVec 8) : (Flags.ofImage b).image = b := by
  apply BitVec.eq_of_getLsbD_eq
  intro i hi
  simp only [Flags.ofImage, Flags.image, BitVec.getLsbD_append, BitVec.getLsbD_extractLsb', cond_eq_ite, decide_eq_true_eq]
  (repeat' split) <;> (simp (disch := omega) only [decide_eq_true, Bool.true_and]; congr 1; try omega)

theorem gate_ofImage (b : BitVec 128) : (Gate.ofImage b).image = b := by
  apply BitVec.eq_of_getLsbD_eq
  intro i hi
  simp only [Gate.ofImage, Gate.image, flags_ofImage, BitVec.getLsbD_append, BitVec.getLsbD_extractLsb', cond_eq_ite,
    decide_eq_true_eq]
  (repeat' split) <;> (simp (disch := omega) only [decide_eq_true, Bool.true_and]; congr 1; try omega)

/-- `Init` on a table with any contents. -/
theorem initGates_any (idt : Arr Gate) (hn : idt.n = 256) (h : Stubs) :
    ∃ idt', initGates idt h = .ok idt' ∧
      (∀ i, i < 32 → cpuDecode (idt'.at_ i).image = ⟨h.isr i, 8, 0, 14, 0, true⟩) ∧
      (∀ i, i < 16 → cpuDecode (idt'.at_ (32 + i)).image = ⟨h.irq i, 8, 0, 14, 0, true⟩) ∧
      (∀ i, i < 10 → cpuDecode (idt'.at_ (50 + i)).image = ⟨h.sys i, 8, 0, 14, 3, true⟩) ∧
      (∀ v, ¬ (v < 48 ∨ 50 ≤ v ∧ v < 60) → idt'.at_ v = idt.at_ v) := by
  obtain ⟨i1, e1, n1, d1, k1⟩ := setGates_ok (isrGates h) idt
    (by simp [isrGates, hn]) (by simp [isrGates])
  have n1' : i1.n = 256 := n1.trans hn
  obtain ⟨i2, e2, n2, d2, k2⟩ := setGates_ok (irqGates h) i1 (by simp [irqGates, n1']) (by simp [irqGates])
  rw [n1'] at n2
  obtain ⟨i3, e3, n3, d3, k3⟩ := setGates_ok (sysGates h) i2 (by simp [sysGates, n2]) (by simp [sysGates])
  have m1 : (isrGates h).map Prod.fst = List.range 32 := rfl
  have m2 : (irqGates h).map Prod.fst = (List.range 16).map (32 + ·) := rfl
  have m3 : (sysGates h).map Prod.fst = (List.range 10).map (50 + ·) := rfl
  rw [m1] at k1; rw [m2] at k2; rw [m3] at k3
  have w1 : isrGates h = (List.range 32).map (fun i => (i, h.isr i, 8, ⟨14, 0, 0, 1⟩)) := rfl
  have w2 : irqGates h = (List.range 16).map (fun i => (32 + i, h.irq i, 8, ⟨14, 0, 0, 1⟩)) := rfl
  have w3 : sysGates h = (List.range 10).map (fun i => (50 + i, h.sys i, 8, ⟨14, 0, 3, 1⟩)) := rfl
  refine ⟨i3, by simp only [initGates, e1, e2, e3, Res.ok_bind], ?_, ?_, ?_, ?_⟩
  · intro i hi
    rw [k3 i (by simp; omega), k2 i (by simp; omega)]
    exact d1 (i, h.isr i, 8, ⟨14, 0, 0, 1⟩) (by rw [w1]; exact List.mem_map.2 ⟨i, by simpa using hi, rfl⟩)
  · intro i hi
    rw [k3 _ (by simp; omega)]
    exact d2 (32 + i, h.irq i, 8, ⟨14, 0, 0, 1⟩) (by rw [w2]; exact List.mem_map.2 ⟨i, by simpa using hi, rfl⟩)
  · intro i hi
    exact d3 (50 + i, h.sys i, 8, ⟨14, 0, 3, 1⟩) (by rw [w3]; exact List.mem_map.2 ⟨i, by simpa using hi, rfl⟩)
  · intro v hv
    rw [k3 v (by simp; omega), k2 v (by simp; omega), k1 v (by simp; omega)]

theorem bytes16_congr {m m' : Nat → BitVec 8} {a b : Nat} (h : ∀ j, j < 16 → m (a + j) = m' (b + j)) :
    bytes16 m a = bytes16 m' b := by
  unfold bytes16
  rw [h 15 (by omega), h 14 (by omega), h 13 (by omega), h 12 (by omega), h 11 (by omega), h 10 (by omega),
    h 9 (by omega), h 8 (by omega), h 7 (by omega), h 6 (by omega), h 5 (by omega), h 4 (by omega), h 3 (by omega),
    h 2 (by omega), h 1 (by omega)]
  have := h 0 (by omega)
  rw [Nat.add_zero, Nat.add_zero] at this
  rw [this]

/-- The byte of a gate in memory that holds the type, the privilege level and the present bit. -/
theorem decode_bytes (m : Nat → BitVec 8) (a : Nat) :
    (cpuDecode (bytes16 m a)).present = (m (a + 5)).getLsbD 7 ∧
    (cpuDecode (bytes16 m a)).dpl = (m (a + 5)).extractLsb' 5 2 := by
  constructor
  · simp only [cpuDecode, bytes16, BitVec.getLsbD_append, cond_eq_ite, decide_eq_true_eq]
    simp
  · apply BitVec.eq_of_getLsbD_eq
    intro i hi
    simp only [cpuDecode, bytes16, BitVec.getLsbD_append, BitVec.getLsbD_extractLsb', cond_eq_ite, decide_eq_true_eq]
    simp (disch := omega) only [if_pos, if_neg]
    congr 2
    omega

/-- The address and the selector of a gate in memory. -/
theorem decode_target (m : Nat → BitVec 8) (a : Nat) :
    (cpuDecode (bytes16 m a)).offset =
      m (a + 11) ++ m (a + 10) ++ m (a + 9) ++ m (a + 8) ++ m (a + 7) ++ m (a + 6) ++ m (a + 1) ++ m a ∧
    (cpuDecode (bytes16 m a)).selector = m (a + 3) ++ m (a + 2) := by
  constructor
  · apply BitVec.eq_of_getLsbD_eq
    intro i hi
    simp only [cpuDecode, bytes16, BitVec.getLsbD_append, BitVec.getLsbD_extractLsb', cond_eq_ite, decide_eq_true_eq]
    have : i < 8 ∨ 8 ≤ i ∧ i < 16 ∨ 16 ≤ i ∧ i < 24 ∨ 24 ≤ i ∧ i < 32 ∨ 32 ≤ i ∧ i < 40 ∨ 40 ≤ i ∧ i < 48 ∨ 48 ≤ i ∧ i < 56 ∨ 56 ≤ i := by omega
    rcases this with c | c | c | c | c | c | c | c <;> simp (disch := omega) only [if_pos, if_neg, decide_eq_true_eq, Nat.zero_add] <;>
      simp (disch := omega) only [decide_eq_true, Bool.true_and] <;> refine congrArg (BitVec.getLsbD _) ?_ <;> omega
  · apply BitVec.eq_of_getLsbD_eq
    intro i hi
    simp only [cpuDecode, bytes16, BitVec.getLsbD_append, BitVec.getLsbD_extractLsb', cond_eq_ite, decide_eq_true_eq]
    have : i < 8 ∨ 8 ≤ i := by omega
    rcases this with c | c <;> simp (disch := omega) only [if_pos, if_neg, decide_eq_true_eq] <;>
      simp (disch := omega) only [decide_eq_true, Bool.true_and] <;> refine congrArg (BitVec.getLsbD _) ?_ <;> omega

end Verif.Interrupt

namespace Verif.Loader
open Verif Verif.E820 Verif.Boot Verif.Interrupt

/-- The byte the kernel reads at an offset from the start of its half of the address space. -/
def seen (m : Phys) (a : Nat) : BitVec 8 := ((view m Paging.cr3 (Paging.high + a)).getD 0).toBitVec

/-- C84 (violated): for every floppy with a kernel, every memory map, and every state of the machine
before the kernel is loaded, the kernel finds in its memory behind the file, which is where
variables without initialiser are, the bytes that were there before; so each of them that was not
zero is not zero. -/
theorem C84_bss_violated (e : Env) (he : e.Works) (s : M) (c : Nat) (l : List Nat) (hs : Starts e c)
    (hl : Chain e 0xFFF (c :: l)) (ht : HasTables e (c :: l)) {bios : Bios} {es : List Entry}
    (hb : Reports bios 0 es) (hlen : es.length ≤ 1664) (info : List UInt8) (hinfo : info.length ≤ 512) :
    ∃ m n, (∀ f, n ≤ f → start e bios (some info) f s = .ok (some m)) ∧
      ∀ a, 0x100000 + 512 * (c :: l).length ≤ a → a < 0xA00000 →
        view m Paging.cr3 (Paging.high + a) = some (UInt8.ofBitVec (s.mem a)) ∧
        (s.mem a ≠ 0 → view m Paging.cr3 (Paging.high + a) ≠ some 0) := by
  obtain ⟨m, n, h1, h2⟩ := start_frame e he s c l hs hl ht hb hlen info hinfo
  refine ⟨m, n, h1, fun a ha ha2 => ?_⟩
  obtain ⟨k, rfl⟩ : ∃ k, a = 0x100000 + k := ⟨a - 0x100000, by omega⟩
  have h := h2 k (by omega)
  have hk : ¬ k < 512 * (c :: l).length := by omega
  rw [if_neg hk, Nat.add_assoc Paging.high] at h
  refine ⟨h, fun hne => ?_⟩
  rw [h]
  intro h0
  have := congrArg UInt8.toBitVec (Option.some.inj h0)
  exact hne this

/-- C84, what is needed: if the rest of the last sector of the file (whose first `size` bytes are the
kernel) is zero on the disk and memory behind it was zero before, then everything
behind the kernel is zero when it starts; and the kernel itself is as in the file. -/
theorem C84_bss_partial (e : Env) (he : e.Works) (s : M) (c : Nat) (l : List Nat) (hs : Starts e c)
    (hl : Chain e 0xFFF (c :: l)) (ht : HasTables e (c :: l)) {bios : Bios} {es : List Entry}
    (hb : Reports bios 0 es) (hlen : es.length ≤ 1664) (info : List UInt8) (hinfo : info.length ≤ 512)
    (size : Nat) (hsz : size ≤ 512 * (c :: l).length) (hbig : 512 * (c :: l).length ≤ 0x900000)
    (hd : ∀ k, size ≤ k → k < 512 * (c :: l).length → fileByte e (c :: l) k = 0)
    (hm : ∀ a, 0x100000 + 512 * (c :: l).length ≤ a → a < 0xA00000 → s.mem a = 0) :
    ∃ m n, (∀ f, n ≤ f → start e bios (some info) f s = .ok (some m)) ∧
      ∀ k, k < 0x900000 → view m Paging.cr3 (Paging.high + 0x100000 + k) =
        some (if k < size then UInt8.ofBitVec (fileByte e (c :: l) k) else 0) := by
  obtain ⟨m, n, h1, h2⟩ := start_frame e he s c l hs hl ht hb hlen info hinfo
  refine ⟨m, n, h1, fun k hk => ?_⟩
  rw [h2 k hk]
  congr 1
  by_cases c1 : k < size
  · rw [if_pos c1, if_pos (by omega)]
  · rw [if_neg c1]
    by_cases c2 : k < 512 * (c :: l).length
    · rw [if_pos c2, hd k (by omega) c2]; rfl
    · have h0 := hm (0x100000 + k) (Nat.add_le_add_left (Nat.not_lt.1 c2) _) (by omega)
      rw [if_neg c2, h0]; rfl

/-- C84 (violated), what it means for interrupts: after `Interrupt::Init`, vectors that the kernel
does not use are not closed. Exactly those are closed for which the byte with the present bit was
suitable before the kernel was loaded; the others lead to addresses read from old memory. -/
theorem C84_gates_violated (e : Env) (he : e.Works) (s : M) (c : Nat) (l : List Nat) (hs : Starts e c)
    (hl : Chain e 0xFFF (c :: l)) (ht : HasTables e (c :: l)) {bios : Bios} {es : List Entry}
    (hb : Reports bios 0 es) (hlen : es.length ≤ 1664) (info : List UInt8) (hinfo : info.length ≤ 512)
    (idt : Nat) (hidt : 0x100000 + 512 * (c :: l).length ≤ idt) (hend : idt + 4096 ≤ 0xA00000) (h : Stubs) :
    ∃ m n g, (∀ f, n ≤ f → start e bios (some info) f s = .ok (some m)) ∧
      initGates (idtAt (seen m) idt) h = .ok g ∧
      ∀ v, v < 256 → ¬ (v < 48 ∨ 50 ≤ v ∧ v < 60) →
        cpuDecode (g.at_ v).image = cpuDecode (bytes16 s.mem (idt + 16 * v)) ∧
        (let b := fun j => s.mem (idt + 16 * v + j)
         (cpuDecode (g.at_ v).image).offset = b 11 ++ b 10 ++ b 9 ++ b 8 ++ b 7 ++ b 6 ++ b 1 ++ b 0 ∧
         (cpuDecode (g.at_ v).image).selector = b 3 ++ b 2) ∧
        ((cpuDecode (g.at_ v).image).present = true ↔ (s.mem (idt + 16 * v + 5)).getLsbD 7 = true) ∧
        (userReachable (g.at_ v) ↔ (s.mem (idt + 16 * v + 5)).extractLsb' 5 3 = 7) := by
  obtain ⟨m, n, h1, h2⟩ := C84_bss_violated e he s c l hs hl ht hb hlen info hinfo
  obtain ⟨g, g1, _, _, _, g5⟩ := initGates_any (idtAt (seen m) idt) rfl h
  refine ⟨m, n, g, h1, g1, fun v hv hu => ?_⟩
  have key : cpuDecode (g.at_ v).image = cpuDecode (bytes16 s.mem (idt + 16 * v)) := by
    rw [g5 v hu]
    show cpuDecode (Gate.ofImage (bytes16 (seen m) (idt + 16 * v))).image = _
    rw [gate_ofImage]
    congr 1
    refine bytes16_congr fun j hj => ?_
    unfold seen
    rw [(h2 (idt + 16 * v + j) (Nat.le_trans hidt (by omega)) (by omega)).1]
    rfl
  refine ⟨key, ?_, ?_, ?_⟩
  · rw [key]
    exact decode_target s.mem (idt + 16 * v)
  · rw [key, (decode_bytes _ _).1]
  · unfold userReachable
    rw [key, (decode_bytes _ _).1, (decode_bytes _ _).2]
    generalize s.mem (idt + 16 * v + 5) = b
    revert b
    decide +kernel

/-- C84, the good case: if memory was zero there, `Interrupt::Init` closes every vector it does not
set, as C53 demands. -/
theorem C84_gates_partial (e : Env) (he : e.Works) (s : M) (c : Nat) (l : List Nat) (hs : Starts e c)
    (hl : Chain e 0xFFF (c :: l)) (ht : HasTables e (c :: l)) {bios : Bios} {es : List Entry}
    (hb : Reports bios 0 es) (hlen : es.length ≤ 1664) (info : List UInt8) (hinfo : info.length ≤ 512)
    (idt : Nat) (hidt : 0x100000 + 512 * (c :: l).length ≤ idt) (hend : idt + 4096 ≤ 0xA00000) (h : Stubs)
    (hz : ∀ a, idt ≤ a → a < idt + 4096 → s.mem a = 0) :
    ∃ m n g, (∀ f, n ≤ f → start e bios (some info) f s = .ok (some m)) ∧
      initGates (idtAt (seen m) idt) h = .ok g ∧
      (∀ i, i < 32 → cpuDecode (g.at_ i).image = ⟨h.isr i, 8, 0, 14, 0, true⟩) ∧
      (∀ i, i < 16 → cpuDecode (g.at_ (32 + i)).image = ⟨h.irq i, 8, 0, 14, 0, true⟩) ∧
      (∀ i, i < 10 → cpuDecode (g.at_ (50 + i)).image = ⟨h.sys i, 8, 0, 14, 3, true⟩) ∧
      ∀ v, v < 256 → ¬ (v < 48 ∨ 50 ≤ v ∧ v < 60) → (cpuDecode (g.at_ v).image).present = false := by
  obtain ⟨m, n, g, h1, h2, h3⟩ := C84_gates_violated e he s c l hs hl ht hb hlen info hinfo idt hidt hend h
  obtain ⟨g', k1, k2, k3, k4, _⟩ := initGates_any (idtAt (seen m) idt) rfl h
  have hg : g' = g := Res.ok.inj (k1.symm.trans h2)
  subst hg
  refine ⟨m, n, g', h1, h2, k2, k3, k4, fun v hv hu => ?_⟩
  rw [(h3 v hv hu).1, (decode_bytes _ _).1, hz _ (by omega) (by omega)]
  rfl

/-- Memory filled with the byte 0xEE: vector 0x80 of the kernel of `exKernel` is open for user
programs and leads to an address that nobody chose. -/
example : ∃ m n g, (∀ f, n ≤ f → start (exKernel []) (exBios exMap) (some [1, 2, 3]) f
      { exM with mem := fun _ => 0xEE } = .ok (some m)) ∧
    initGates (idtAt (seen m) 0x200000) ⟨fun _ => 1, fun _ => 2, fun _ => 3⟩ = .ok g ∧
    userReachable (g.at_ 0x80) ∧ (cpuDecode (g.at_ 0x80).image).offset = 0xEEEEEEEEEEEEEEEE := by
  obtain ⟨m, n, g, h1, h2, h3⟩ := C84_gates_violated (exKernel []) (exKernel_works _) { exM with mem := fun _ => 0xEE }
    2 (List.range' 3 128) (exKernel_starts _) (exKernel_chain _) (exKernel_tables _)
    (exBios_reports exMap 0 (by decide) (by decide)) (by decide) [1, 2, 3] (by decide) 0x200000 (by simp) (by omega)
    ⟨fun _ => 1, fun _ => 2, fun _ => 3⟩
  obtain ⟨a1, a2, _, a3⟩ := h3 0x80 (by decide) (by decide)
  refine ⟨m, n, g, h1, h2, a3.2 (by decide), ?_⟩
  exact a2.1

/-- The same kernel in memory that was cleared: all variables are zero. -/
example : ∃ m n, (∀ f, n ≤ f → start (exKernel []) (exBios exMap) (some [1, 2, 3]) f
      { exM with mem := fun _ => 0 } = .ok (some m)) ∧
    ∀ k, 512 * 129 ≤ k → k < 0x900000 → view m Paging.cr3 (Paging.high + 0x100000 + k) = some 0 := by
  obtain ⟨m, n, h1, h2⟩ := C84_bss_partial (exKernel []) (exKernel_works _) { exM with mem := fun _ => 0 }
    2 (List.range' 3 128) (exKernel_starts _) (exKernel_chain _) (exKernel_tables _)
    (exBios_reports exMap 0 (by decide) (by decide)) (by decide) [1, 2, 3] (by decide) (512 * 129) (by simp) (by simp)
    (fun k h1 h2 => absurd h2 (by simp only [List.length_cons, List.length_range']; omega)) (fun _ _ _ => rfl)
  refine ⟨m, n, h1, fun k hk hk2 => ?_⟩
  rw [h2 k hk2, if_neg (by omega)]

end Verif.Loader
