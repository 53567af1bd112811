import Verif.Lemmas.Image
set_option backward.isDefEq.respectTransparency false

/-!
C108: linking the kernel puts its tables where the code looks for them. `link` is the assembler and
the linker on head.S and any other objects; `At m a bs` says that physical memory holds bytes from
an address on, `Seen m va bs` that they are at a virtual address, through the page tables.
-/

namespace Verif.ImageSpec
open Verif Image

/-- A small kernel: 100 bytes of instructions in all, some code, constants and data of other
objects, and three constructors. -/
def exParts : Parts :=
  { c1 := List.replicate 60 0x90#8
    c2 := List.replicate 40 0x90#8
    texts := [⟨0, List.replicate 7 0xC3#8⟩, ⟨4, List.replicate 30 0xC3#8⟩]
    orphans1 := []
    orphans2 := List.replicate 10 0x41#8 ++ [80, 97, 103, 101, 32, 70, 97, 117, 108, 116, 0]
    datas := [⟨0, []⟩, ⟨5, List.replicate 16 0xFF#8⟩, ⟨0, []⟩]
    ctors := [[0xffff800000104000, 0xffff800000104010], [0xffff800000104020]]
    main := 0xffff800000104000 }

/-- The memory after the loader has copied a kernel to 1 MiB. -/
def exMem (l : List (BitVec 8)) : Loader.Phys := fun a =>
  if 0x100000 ≤ a then l.getD (a - 0x100000) 0xEE#8 else 0xEE#8

theorem exMem_at (l : List (BitVec 8)) : At (exMem l) 0x100000 l := by
  intro k hk
  have e : 0x100000 + k - 0x100000 = k := by omega
  rw [exMem, if_pos (by omega), e, List.getD_eq_getElem?_getD, List.getElem?_eq_getElem hk]
  rfl

/-- C108, assembling: head.S assembles and links (whatever else is linked, with alignments up to
1 MiB) exactly if its instructions fit before the page tables. -/
theorem C108_assembles (p : Parts) (hk : maxK p.texts ≤ 20) :
    (link p).isSome ↔ p.c1.length + p.c2.length ≤ 4080 := by
  by_cases h : Fits p
  · rw [link_eq p h]
    have := h.1
    exact ⟨fun _ => by omega, fun _ => rfl⟩
  · rw [link_none p h]
    refine ⟨fun x => absurd x (by decide), fun x => absurd ⟨by omega, hk⟩ h⟩

theorem exParts_fits : Fits exParts := by
  refine ⟨?_, ?_⟩ <;> decide +kernel

example : (link exParts).isSome := (C108_assembles exParts (by decide +kernel)).2 (by decide +kernel)

/-- C108, paging: once the image is in memory at 1 MiB, the address that head.S loads into CR3 is
that of the page tables of head.S: each of the 2^64 addresses translates as it should, whatever
else is in the image or in memory. `PDE`, as main sees it, is the table the processor uses: after
main has cleared the bit through it, exactly the third 2 MiB of both halves are read-only. -/
theorem C108_paging (p : Parts) (l : Linked) (hl : link p = some l) (m : Loader.Phys)
    (hm : At m 0x100000 l.image) :
    (∀ va, va < 2 ^ 64 → Paging.walk (Loader.word m) 0x101000 va =
      (Paging.expected va).map fun pa => (pa, true)) ∧
    (∃ pa, (∀ k, k < 8 → Paging.walk (Loader.word m) 0x101000 (l.sym "PDE" + 16 + k) =
        some (pa + k, true)) ∧
      ∀ m' : Loader.Phys, (∀ a, ¬ (pa ≤ a ∧ a < pa + 8) → m' a = m a) →
        Loader.word m' pa = Loader.word m pa &&& (2 ^ 64 - 1 - 2) →
        ∀ va, va < 2 ^ 64 → Paging.walk (Loader.word m') 0x101000 va =
          (Paging.expected va).map fun pa => (pa, !decide (0x400000 ≤ pa ∧ pa < 0x600000))) := by
  have hL := tables_loaded hl hm
  obtain ⟨_, _, hsym, _⟩ := link_some hl
  refine ⟨fun va hva => Paging.C60_translate _ hL va hva, 0x103010, fun k hk => ?_, ?_⟩
  · have e : l.sym "PDE" = 0xffff800000103000 := by rw [hsym, (env_text p).2.2.2.2.2.2]; rfl
    rw [e]
    have := Paging.C60_translate _ hL (0xffff800000103000 + 16 + k) (by omega)
    unfold Paging.cr3 at this
    rw [this]
    unfold Paging.expected Paging.window Paging.high
    rw [if_neg (by omega), if_pos (by omega)]
    have e : 0xffff800000103000 + 16 + k - 0xFFFF800000000000 = 0x103010 + k := by omega
    rw [e]
    rfl
  · intro m' ho hw va hva
    have same : ∀ a, a + 8 ≤ 0x103010 ∨ 0x103018 ≤ a → Loader.word m' a = Loader.word m a := by
      intro a ha
      have q : ∀ k, k < 8 → m' (a + k) = m (a + k) := fun k hk => ho _ (by omega)
      unfold Loader.word
      have q0 := q 0 (by omega)
      rw [Nat.add_zero] at q0
      rw [q0, q 1 (by omega), q 2 (by omega), q 3 (by omega), q 4 (by omega), q 5 (by omega),
        q 6 (by omega), q 7 (by omega)]
    refine Paging.C60_protect _ ⟨fun i hi => ?_, fun i hi => ?_, fun i hi => ?_⟩ va hva
    · rw [same _ (by omega)]; exact hL.l4 i hi
    · rw [same _ (by omega)]; exact hL.l3 i hi
    · have l2 : Paging.pde.length = 512 := by decide +kernel
      by_cases c : i = 2
      · subst c
        rw [hw, show 0x103010 = 0x103000 + 8 * 2 from rfl, hL.l2 2 (by omega)]
        decide +kernel
      · rw [same _ (by omega), hL.l2 i hi, Paging.protect, List.getD_eq_getElem?_getD,
          List.getD_eq_getElem?_getD, List.getElem?_set_ne (by omega)]

example : ∃ l, link exParts = some l ∧ Paging.walk (Loader.word (exMem l.image)) 0x101000
    0xffff800000104000 = some (0x104000, true) := by
  refine ⟨_, link_eq exParts exParts_fits, ?_⟩
  rw [(C108_paging exParts _ (link_eq exParts exParts_fits) _ (exMem_at _)).1 _ (by decide)]
  rfl

/-- C108, the entry: the first byte of the image is the first byte of `_start`, which the loader
jumps to; the word at `SwitchSeg` is an address that translates to where the instructions of
`Entry64` are, and the word at `StartKernel` is the address of `main`. -/
theorem C108_start (p : Parts) (l : Linked) (hl : link p = some l) (hmain : p.main < 2 ^ 64)
    (m : Loader.Phys) (hm : At m 0x100000 l.image) :
    l.sym "_start" = 0xffff800000100000 ∧ At m 0x100000 p.c1 ∧
    Loader.word m (l.sym "SwitchSeg" - 0xffff800000000000) = l.sym "Entry64" ∧
    (∃ pa, At m pa p.c2 ∧ ∀ k, k < p.c2.length + 8 →
      Paging.walk (Loader.word m) 0x101000 (l.sym "Entry64" + k) = some (pa + k, true)) ∧
    Paging.walk (Loader.word m) 0x101000 (l.sym "StartKernel") =
      some (l.sym "StartKernel" - 0xffff800000000000, true) ∧
    Loader.word m (l.sym "StartKernel" - 0xffff800000000000) = p.main := by
  have hL := tables_loaded hl hm
  obtain ⟨hf, hi, hsym, _⟩ := link_some hl
  obtain ⟨pad, _, he⟩ := emit_text (env p) p.c1 p.c2 hf.1
  have hlen := hf.1
  rw [hi, he] at hm
  obtain ⟨e1, e2, e3, e4, _⟩ := env_text p
  have ht := hm.left.left.left.left.left.left
  have w : ∀ off, off < 0x1000 → Paging.walk (Loader.word m) 0x101000 (base + off) =
      some (0x100000 + off, true) := by
    intro off ho
    unfold base
    have := Paging.C60_translate _ hL (0xffff800000000000 + 0x100000 + off) (by omega)
    unfold Paging.cr3 at this
    rw [this]
    unfold Paging.expected Paging.window Paging.high
    rw [if_neg (by omega), if_pos (by omega)]
    have e : 0xffff800000000000 + 0x100000 + off - 0xFFFF800000000000 = 0x100000 + off := by omega
    rw [e]
    rfl
  have b : ∀ off, base + off - 0xffff800000000000 = 0x100000 + off := by
    intro off; unfold base; omega
  rw [hsym, e1, e2, e3, e4, b, b]
  refine ⟨rfl, ht.left.left.left, ?_, ⟨0x100000 + (p.c1.length + 8), ?_, fun k hk => ?_⟩, ?_, ?_⟩
  · have := ht.left.left.right.word (by rw [e3]; unfold base; omega)
    rw [this, e3]
  · have := ht.left.right
    rw [List.length_append, le_length] at this
    exact this
  · rw [Nat.add_assoc, w _ (by omega), ← Nat.add_assoc]
  · exact w _ (by omega)
  · have := ht.right
    rw [List.length_append, List.length_append, le_length, env_main] at this
    exact this.word hmain

example : ∃ l, link exParts = some l ∧
    Loader.word (exMem l.image) (l.sym "StartKernel" - 0xffff800000000000) = 0xffff800000104000 := by
  refine ⟨_, link_eq exParts exParts_fits, ?_⟩
  exact (C108_start exParts _ (link_eq exParts exParts_fits) (by decide) _ (exMem_at _)).2.2.2.2.2

/-- C108, the descriptor tables: if the image ends below 10 MiB, the operands of `lgdt` and `lidt`
hold limit and (virtual) address of the tables, which are visible there through the page tables:
the descriptors of head.S, and an empty interrupt table. -/
theorem C108_tables (p : Parts) (l : Linked) (hl : link p = some l) (m : Loader.Phys)
    (hm : At m 0x100000 l.image) (hs : l.image.length ≤ 0x900000) :
    Seen m (l.sym "GDT_PTR") (le (8 * 17 - 1) 2 ++ le (l.sym "GDT_TABLE") 8) ∧
    Seen m (l.sym "GDT_TABLE") (quads (Mode.kernelGdt.map BitVec.toNat)) ∧
    Seen m (l.sym "IDT_PTR") (le (16 * 256 - 1) 2 ++ le (l.sym "IDT_TABLE") 8) ∧
    Seen m (l.sym "IDT_TABLE") (quads (List.replicate 512 0)) ∧
    Seen m (l.sym "TSS64_PTR") (le (104 - 1) 2 ++ le (l.sym "TSS64_TABLE") 8) ∧
    Seen m (l.sym "TSS64_TABLE") (quads (List.replicate 13 0)) := by
  obtain ⟨hf, hi, hsym, _⟩ := link_some hl
  have hd : Seen m (dataStart p) (emit (env p) headData 0) := by
    refine seen_of hl hm hs (emit (env p) (headText p.c1 p.c2) 0 ++ between p) _
      (lay p.datas (dataStart p + 4366) ++ lay p.inits (ctorStart p)) ?_ _ ?_
    · rw [hi]; simp only [List.append_assoc]
    · rw [← between_length p, List.length_append, emit_text_length _ _ _ hf.1, Nat.add_assoc]
  rw [emit_data] at hd
  obtain ⟨g1, g2, g3, i1, i2, i3, t1, t2, t3⟩ := env_data p
  have q1 : (quads (Mode.kernelGdt.map BitVec.toNat)).length = 136 := by
    rw [quads_length]; decide +kernel
  have q2 : (quads (List.replicate 512 0)).length = 4096 := by
    rw [quads_length, List.length_replicate]
  have q3 : (quads (List.replicate 13 0)).length = 104 := by
    rw [quads_length, List.length_replicate]
  have s1 := hd.left.left.left.left.left
  have s2 := hd.left.left.left.left.right
  have s3 := hd.left.left.left.right
  have s4 := hd.left.left.right
  have s5 := hd.left.right
  have s6 := hd.right
  simp only [List.length_append, le_length, q1, q2, q3] at s2 s3 s4 s5 s6
  rw [hsym, g1, g3, i1, i3, t1, t3]
  rw [g1, g2] at s2
  rw [i1, i2] at s4
  rw [t1, t2] at s6
  have z1 : dataStart p + 136 - dataStart p - 1 = 8 * 17 - 1 := by omega
  have z2 : dataStart p + 4242 - (dataStart p + 146) - 1 = 16 * 256 - 1 := by omega
  have z3 : dataStart p + 4356 - (dataStart p + 4252) - 1 = 104 - 1 := by omega
  rw [z1] at s2
  rw [z2] at s4
  rw [z3] at s6
  exact ⟨s2, s1, s4, s3, s6, s5⟩

example : ∃ l, link exParts = some l ∧ ∃ pa,
    Paging.walk (Loader.word (exMem l.image)) Paging.cr3 (l.sym "GDT_TABLE" + 13) = some (pa, true) ∧
    exMem l.image pa = 0x98#8 := by
  refine ⟨_, link_eq exParts exParts_fits, ?_⟩
  obtain ⟨pa, h1, h2⟩ := (C108_tables exParts _ (link_eq exParts exParts_fits) _ (exMem_at _)
    (by decide +kernel)).2.1 13 (by rw [quads_length]; decide +kernel)
  exact ⟨pa, h1, h2.trans (by decide +kernel)⟩

/-- C108, constructors: if the linker happens to put `start_ctors` at a multiple of 8 (the script
does not ask for it), `global_obj::Init` calls the constructors of all objects, in the order in
which the objects are linked, each once, and nothing else. -/
theorem C108_constructors_partial (p : Parts) (l : Linked) (hl : link p = some l) (m : Loader.Phys)
    (hm : At m 0x100000 l.image) (hs : l.image.length ≤ 0x900000)
    (hf : ∀ f ∈ p.ctors.flatten, f < 2 ^ 64) (ha : l.startCtors % 8 = 0) :
    ∃ n, ∀ fuel, n ≤ fuel →
      initLoop (readWord m) (BitVec.ofNat 64 l.endCtors) fuel (BitVec.ofNat 64 l.startCtors) [] =
        .ok p.ctors.flatten := by
  obtain ⟨hfit, hi, _, hst, hen⟩ := link_some hl
  rw [hst] at ha
  have hlay : lay p.inits (ctorStart p) = quads p.ctors.flatten := lay_inits _ _ ha
  have hpre : ctorStart p = base + (emit (env p) (headText p.c1 p.c2) 0 ++ between p ++
      emit (env p) headData 0 ++ lay p.datas (dataStart p + 4366)).length := by
    have := between_length p
    simp only [List.length_append, emit_text_length _ _ _ hfit.1, emit_data_length]
    unfold ctorStart
    omega
  rw [hi, hlay] at hm hs
  have hlt : (quads p.ctors.flatten).length = 8 * p.ctors.flatten.length := quads_length _
  generalize hP : emit (env p) (headText p.c1 p.c2) 0 ++ between p ++
      emit (env p) headData 0 ++ lay p.datas (dataStart p + 4366) = pre at hm hpre hs
  rw [List.length_append, hlt] at hs
  have hw := hm.right
  refine ⟨p.ctors.flatten.length + 1, fun fuel hfuel => ?_⟩
  have hend : BitVec.ofNat 64 l.endCtors = BitVec.ofNat 64 l.startCtors +
      BitVec.ofNat 64 (8 * p.ctors.flatten.length) := by
    rw [hen, hst, hlay, hlt, BitVec.ofNat_add]
  rw [hend, initLoop_ok (readWord m) p.ctors.flatten _ [] fuel (by omega) (by omega) (fun j hj => ?_)]
  · rfl
  · have ev : (BitVec.ofNat 64 l.startCtors + BitVec.ofNat 64 (8 * j)).toNat = base + pre.length + 8 * j := by
      rw [hst, hpre, BitVec.toNat_add, BitVec.toNat_ofNat, BitVec.toNat_ofNat]
      unfold base
      omega
    have hL := tables_loaded hl (by rw [hi, hlay, hP]; exact hm)
    have tr : Paging.walk (Loader.word m) Paging.cr3 (base + pre.length + 8 * j) =
        some (0x100000 + pre.length + 8 * j, true) := by
      rw [Paging.C60_translate _ hL _ (by unfold base; omega)]
      unfold base Paging.expected Paging.window Paging.high
      rw [if_neg (by omega), if_pos (by omega)]
      have e : 0xffff800000000000 + 0x100000 + pre.length + 8 * j - 0xFFFF800000000000 =
        0x100000 + pre.length + 8 * j := by omega
      rw [e]
      rfl
    rw [readWord, ev, tr, Option.map_some, hw.quads _ hf j hj, List.getD_eq_getElem?_getD,
      List.getElem?_eq_getElem hj]
    rfl

/-- C108, when it happens: if the last `.data` section that has contents is aligned to 8 and as
long as a multiple of 8 (in the kernel: veas.o with the font, kernel/src/io/veas.cpp:7). -/
theorem C108_aligned (p : Parts) (l : Linked) (hl : link p = some l) (before after : List Sec) (s : Sec)
    (hd : p.datas = before ++ s :: after) (hk : s.k = 3 ∨ s.k = 4 ∨ s.k = 5)
    (hs : s.bytes.length % 8 = 0) (he : ∀ t ∈ after, t.bytes = [] ∧ t.k = 0) :
    l.startCtors % 8 = 0 := by
  obtain ⟨_, _, _, hst, _⟩ := link_some hl
  rw [hst, ctorStart, hd, lay_append]
  generalize dataStart p + 4366 = a
  rw [lay, lay_length_pad after _ (fun t ht => (he t ht).1) (fun t ht => (he t ht).2), List.append_nil]
  simp only [List.length_append, List.length_replicate]
  generalize (lay before a).length = b
  rcases hk with h | h | h <;> rw [h] <;> unfold padTo <;> omega

example : ∃ l, link exParts = some l ∧ ∃ n, ∀ fuel, n ≤ fuel →
    initLoop (readWord (exMem l.image)) (BitVec.ofNat 64 l.endCtors) fuel
      (BitVec.ofNat 64 l.startCtors) [] =
      .ok [0xffff800000104000, 0xffff800000104010, 0xffff800000104020] := by
  refine ⟨_, link_eq exParts exParts_fits, ?_⟩
  exact C108_constructors_partial exParts _ (link_eq exParts exParts_fits) _ (exMem_at _)
    (by decide +kernel) (by decide +kernel)
    (C108_aligned exParts _ (link_eq exParts exParts_fits) [⟨0, []⟩] [⟨0, []⟩]
      ⟨5, List.replicate 16 0xFF#8⟩ rfl (.inr (.inr rfl)) (by decide +kernel) (by decide +kernel))

/-- C108 fails otherwise: if there is a constructor and `start_ctors` is not at a multiple of 8,
the linker pads in front of the table, and `Init`, which starts at the padding, steps over
`end_ctors` and never returns, whatever it reads and whatever the constructors do. -/
theorem C108_violated_constructors (p : Parts) (l : Linked) (hl : link p = some l)
    (hc : p.ctors ≠ []) (ha : l.startCtors % 8 ≠ 0) (read : BitVec 64 → Option Nat)
    (fuel : Nat) (r : List Nat) :
    initLoop read (BitVec.ofNat 64 l.endCtors) fuel (BitVec.ofNat 64 l.startCtors) [] ≠ .ok r := by
  obtain ⟨_, _, _, hst, hen⟩ := link_some hl
  refine initLoop_never read _ fuel _ [] r ?_
  have hlay : lay p.inits (ctorStart p) =
      List.replicate (padTo (ctorStart p) 3) 0 ++ quads p.ctors.flatten := lay_inits_pad _ hc _
  rw [hst] at ha
  rw [hen, hst, hlay, List.length_append, List.length_replicate, quads_length, padTo_three,
    BitVec.toNat_ofNat, BitVec.toNat_ofNat]
  omega

/-- The same kernel without initialised data: head.o has 4366 bytes of it. -/
def exBad : Parts := { exParts with datas := [] }

theorem exBad_fits : Fits exBad := by
  refine ⟨?_, ?_⟩ <;> decide +kernel

example : ∃ l, link exBad = some l ∧ ∀ read fuel r,
    initLoop read (BitVec.ofNat 64 l.endCtors) fuel (BitVec.ofNat 64 l.startCtors) [] ≠ .ok r := by
  refine ⟨_, link_eq exBad exBad_fits, ?_⟩
  exact C108_violated_constructors exBad _ (link_eq exBad exBad_fits) (by decide) (by decide +kernel)

end Verif.ImageSpec
