import Verif.Lemmas.Loader
import Verif.Props.Boot

/-! Properties C75 and C76: from the floppy and the BIOS to the kernel's memory map, and the
temporary page tables of the loader. -/

set_option backward.isDefEq.respectTransparency false

namespace Verif.Loader
open Verif Verif.E820 Verif.Boot

/-- Byte `k` of the file stored in the clusters `l`. -/
def fileByte (e : Env) (l : List Nat) (k : Nat) : BitVec 8 := e.disk (sectorOf (l.getD (k / 512) 0) * 512 + k % 512)

/-- The file is an image of the kernel, to be loaded at 1 MiB, that contains the page tables
of `head.S`. -/
def HasTables (e : Env) (l : List Nat) : Prop :=
  0x4000 ≤ 512 * l.length ∧
  Paging.Loaded (fun a => word (fileByte e l) (a - 0x100000)) Paging.pml4 Paging.pdpte Paging.pde

/-- The last sector of the file in the clusters `c :: l`, read as a table of memory map
entries; entry `i`. -/
def leftover (e : Env) (c : Nat) (l : List Nat) (i : Nat) : Entry :=
  entryAt (fun a => e.disk (sectorOf ((c :: l).getLast (by simp)) * 512 + a)) (20 * i)

theorem entryAt_congr {m m' : Phys} {a b : Nat} (h : ∀ i, i < 24 → m (a + i) = m' (b + i)) :
    entryAt m a = entryAt m' b := by
  have w : ∀ k, k + 8 ≤ 24 → word m (a + k) = word m' (b + k) := by
    intro k hk
    unfold word
    simp only [Nat.add_assoc]
    rw [h k (by omega), h (k + 1) (by omega), h (k + 2) (by omega), h (k + 3) (by omega), h (k + 4) (by omega),
      h (k + 5) (by omega), h (k + 6) (by omega), h (k + 7) (by omega)]
  unfold entryAt
  rw [← Nat.add_zero a, ← Nat.add_zero b, w 0 (by omega)]
  simp only [Nat.add_zero]
  rw [w 8 (by omega), w 16 (by omega)]

/-- Memory when the loader has loaded the kernel. -/
theorem loader_spec (e : Env) (he : e.Works) (s : M) (c : Nat) (l : List Nat) (hs : Starts e c)
    (hl : Chain e 0xFFF (c :: l)) :
    ∃ s', Ev (fun f => Boot.loader e f s) (some s') ∧
      (∀ k, k < 512 * (c :: l).length → s'.mem (0x100000 + k) = fileByte e (c :: l) k) ∧
      ∀ b, b < 512 → s'.mem (0x7E00 + b) = e.disk (sectorOf ((c :: l).getLast (by simp)) * 512 + b) := by
  have hlen := hl.length (by omega)
  simp only [List.length_cons] at hlen
  obtain ⟨s1, h1, h1'⟩ := search_starts e he { s with kernelOffset := 0x100000 } c hs
  obtain ⟨s2, g1, g2, g3⟩ := loadKernel_spec e he l c 0 hl.raw (by omega)
    { s1 with es := 0, bx := 0x7E00, ax := BitVec.ofNat 16 c + 14 + 17 } (next_ax c) rfl rfl h1'
  refine ⟨s2, ?_, ?_, ?_⟩
  · refine Ev.congr (g := fun f => search e f { s with kernelOffset := 0x100000 } >>= fun r => match r.2 with
      | none => .ok none
      | some c => loadKernel e f f c { r.1 with es := 0, bx := 0x7E00, ax := c + 14 + 17 } >>= fun s => .ok (some s)) ?_
      (fun f => rfl)
    exact Ev.bind h1 (Ev.bind g1.diag (Ev.pure _))
  · intro k hk
    have hi : k / 512 < (c :: l).length := by omega
    rw [g2 _ (by omega)]
    have := loadAllK_at e (c :: l) 0 s1.mem (fun x hx => (hl.cluster x hx).1) (k / 512) hi (k % 512)
      (Nat.mod_lt _ (by decide))
    rw [Nat.zero_add, Nat.add_assoc, Nat.div_add_mod] at this
    simp only at this ⊢
    rw [this]
    unfold fileByte
    rw [List.getD_eq_getElem?_getD, List.getElem?_eq_getElem hi, Option.getD_some]
  · intro b hb
    rw [g3 b hb]
    have hc := (hl.cluster ((c :: l).getLast (by simp)) (List.getLast_mem _)).1
    unfold sectorOf
    rw [show 33 + ((c :: l).getLast (by simp) - 2) = (c :: l).getLast (by simp) + 31 by omega]

/-- Memory when the loader jumps to the kernel. -/
theorem start_spec (e : Env) (he : e.Works) (s : M) (c : Nat) (l : List Nat) (hs : Starts e c)
    (hl : Chain e 0xFFF (c :: l)) (ht : HasTables e (c :: l)) {bios : Bios} {es : List Entry}
    (hb : Reports bios 0 es) (hlen : es.length ≤ 1664) (info : List UInt8) (hinfo : info.length ≤ 512) :
    ∃ m n, (∀ f, n ≤ f → start e bios (some info) f s = .ok (some m)) ∧
      Paging.Loaded (word m) Paging.pml4 Paging.pdpte Paging.pde ∧
      (∀ k, k < 512 * (c :: l).length → m (0x100000 + k) = fileByte e (c :: l) k) ∧
      (∀ i, i < 20 → ∀ j (hj : j < (image ((es ++ (List.range 20).map fun k => leftover e c l (es.length + k)).getD i default)).length),
        UInt8.ofBitVec (m (0x7E00 + 20 * i + j)) =
          (image ((es ++ (List.range 20).map fun k => leftover e c l (es.length + k)).getD i default))[j]) := by
  obtain ⟨s1, h1, h2, h3⟩ := loader_spec e he s c l hs hl
  obtain ⟨m, g1, g2, g3, g4⟩ := setup_spec hb hlen info hinfo s1.mem
  obtain ⟨⟨n, hn⟩, _⟩ := h1
  have hn : ∀ f, n ≤ f → loader e f s = .ok (some s1) := hn
  refine ⟨m, n + es.length, ?_, ?_, ?_, ?_⟩
  · intro f hf
    unfold start
    rw [hn f (by omega), Res.ok_bind]
    exact g1 f (by omega)
  · obtain ⟨h4000, t⟩ := ht
    refine loaded_congr g4 ?_
    refine ⟨fun i hi => ?_, fun i hi => ?_, fun i hi => ?_⟩
    · rw [← t.l4 i hi]
      unfold word
      rw [← h2 _ (by omega), ← h2 _ (by omega), ← h2 _ (by omega), ← h2 _ (by omega), ← h2 _ (by omega),
        ← h2 _ (by omega), ← h2 _ (by omega), ← h2 _ (by omega)]
      simp only [show 0x101000 + 8 * i - 0x100000 = 0x1000 + 8 * i by omega, ← Nat.add_assoc, Nat.reduceAdd]
    · rw [← t.l3 i hi]
      unfold word
      rw [← h2 _ (by omega), ← h2 _ (by omega), ← h2 _ (by omega), ← h2 _ (by omega), ← h2 _ (by omega),
        ← h2 _ (by omega), ← h2 _ (by omega), ← h2 _ (by omega)]
      simp only [show 0x102000 + 8 * i - 0x100000 = 0x2000 + 8 * i by omega, ← Nat.add_assoc, Nat.reduceAdd]
    · rw [← t.l2 i hi]
      unfold word
      rw [← h2 _ (by omega), ← h2 _ (by omega), ← h2 _ (by omega), ← h2 _ (by omega), ← h2 _ (by omega),
        ← h2 _ (by omega), ← h2 _ (by omega), ← h2 _ (by omega)]
      simp only [show 0x103000 + 8 * i - 0x100000 = 0x3000 + 8 * i by omega, ← Nat.add_assoc, Nat.reduceAdd]
  · intro k hk
    rw [g4 _ (by omega), h2 k hk]
  · intro i hi j hj
    have hj' := hj
    rw [image_length] at hj'
    by_cases c0 : i < es.length
    · have e0 : (es ++ (List.range 20).map fun k => leftover e c l (es.length + k)).getD i default = es[i] := by
        rw [List.getD_eq_getElem?_getD, List.getElem?_append_left c0, List.getElem?_eq_getElem c0, Option.getD_some]
      simp only [e0] at hj ⊢
      rw [g2 i c0 (by omega) j hj]
    · have e0 : (es ++ (List.range 20).map fun k => leftover e c l (es.length + k)).getD i default = leftover e c l i := by
        rw [List.getD_eq_getElem?_getD, List.getElem?_append_right (by omega),
          List.getElem?_eq_getElem (by simp; omega), Option.getD_some]
        rw [List.getElem_map, List.getElem_range, Nat.add_sub_cancel' (by omega)]
      have e1 : leftover e c l i = entryAt m (0x7E00 + 20 * i) := by
        unfold leftover
        refine entryAt_congr fun k hk => ?_
        rw [g3 _ (by omega) (by omega), Nat.add_assoc, h3 _ (by omega)]
      rw [e1] at e0
      simp only [e0] at hj ⊢
      rw [image_entryAt]

/-- The entries the kernel's table consists of: the reported ones, and behind them whatever
the last sector of the kernel file holds there. -/
def table (e : Env) (c : Nat) (l : List Nat) (es : List Entry) : List Entry :=
  (es ++ (List.range 20).map fun k => leftover e c l (es.length + k)).take 20

/-- C75, exactly what the kernel sees: for every floppy with a kernel that contains the page
tables of `head.S`, every BIOS that reports a memory map (of any length that fits the
segment), every graphics information block and every initial state of the machine, the loader
succeeds, and `Manager::Init`, run on the page tables of the kernel, succeeds and holds the
longest valid prefix of the 20 slots — reported entries, continued by the last sector of the
kernel file. -/
theorem C75_map_partial (e : Env) (he : e.Works) (s : M) (c : Nat) (l : List Nat) (hs : Starts e c)
    (hl : Chain e 0xFFF (c :: l)) (ht : HasTables e (c :: l)) {bios : Bios} {es : List Entry}
    (hb : Reports bios 0 es) (hlen : es.length ≤ 1664) (info : List UInt8) (hinfo : info.length ≤ 512)
    (g : Manager) (hg : g.entrys.n = 20) :
    ∃ m n g', (∀ f, n ≤ f → start e bios (some info) f s = .ok (some m)) ∧
      init (view m Paging.cr3) g = .ok g' ∧
      (List.range (size g')).map (nth g') = ((table e c l es).takeWhile valid).map Res.ok ∧
      (freeSum ((table e c l es).takeWhile valid) < 2 ^ 64 →
        g'.available.toNat = freeSum ((table e c l es).takeWhile valid)) := by
  obtain ⟨m, n, h1, h2, _, h3⟩ := start_spec e he s c l hs hl ht hb hlen info hinfo
  have ht : (List.range 20).map (fun i =>
      (es ++ (List.range 20).map fun k => leftover e c l (es.length + k)).getD i default) = table e c l es := by
    unfold table
    apply List.ext_getElem
    · simp
    · intro i hi hj
      simp only [List.length_map, List.length_range] at hi
      simp only [List.getElem_map, List.getElem_range, List.getElem_take]
      rw [List.getD_eq_getElem?_getD, List.getElem?_eq_getElem (by simp; omega), Option.getD_some]
  obtain ⟨g', k1, k2, k3⟩ := C51_any_table (view m Paging.cr3)
    (fun i => (es ++ (List.range 20).map fun k => leftover e c l (es.length + k)).getD i default) g hg
    (by intro i hi j hj
        have hj' := hj
        rw [image_length] at hj'
        rw [show e820Addr + 20 * i + j = 0xFFFF800000000000 + (0x7E00 + 20 * i + j) by
          simp only [e820Addr]; omega, view_low m h2 _ (by omega), h3 i hi j hj])
  rw [ht] at k2 k3
  exact ⟨m, n, g', h1, k1, k2, k3⟩

theorem takeWhile_of_all {α : Type} (f : α → Bool) (l r : List α) (h : ∀ x ∈ l, f x = true)
    (hr : ∀ x, r.head? = some x → f x = false) : (l ++ r).takeWhile f = l := by
  induction l with
  | nil =>
    cases r with
    | nil => rfl
    | cons x r => simp [List.takeWhile_cons, hr x rfl]
  | cons y l ih =>
    rw [List.cons_append, List.takeWhile_cons_of_pos (h y (List.mem_cons_self ..)),
      ih fun x hx => h x (List.mem_cons_of_mem _ hx)]

/-- The first `n` slots of the table. -/
theorem table_prefix (e : Env) (c : Nat) (l : List Nat) (es : List Entry) (h : es.length < 20) :
    ∃ r, table e c l es = es ++ leftover e c l es.length :: r := by
  unfold table
  obtain ⟨k, hk⟩ : ∃ k, 20 - es.length = k + 1 := ⟨19 - es.length, by omega⟩
  rw [List.take_append, List.take_of_length_le (by omega), hk]
  simp only [List.range_succ_eq_map, List.map_cons, List.take_succ_cons, Nat.add_zero]
  exact ⟨_, rfl⟩

/-- C75, the good case: at most 20 entries, all of them valid, and (if there are fewer than
20) the last sector of the kernel file does not happen to hold a valid entry behind them:
the kernel has exactly the map of the BIOS. -/
theorem C75_faithful_partial (e : Env) (he : e.Works) (s : M) (c : Nat) (l : List Nat) (hs : Starts e c)
    (hl : Chain e 0xFFF (c :: l)) (ht : HasTables e (c :: l)) {bios : Bios} {es : List Entry}
    (hb : Reports bios 0 es) (hlen : es.length ≤ 20) (hv : ∀ x ∈ es, valid x = true)
    (hend : es.length < 20 → valid (leftover e c l es.length) = false)
    (info : List UInt8) (hinfo : info.length ≤ 512) (g : Manager) (hg : g.entrys.n = 20) :
    ∃ m n g', (∀ f, n ≤ f → start e bios (some info) f s = .ok (some m)) ∧
      init (view m Paging.cr3) g = .ok g' ∧
      (List.range (size g')).map (nth g') = es.map Res.ok ∧
      (freeSum es < 2 ^ 64 → g'.available.toNat = freeSum es) := by
  obtain ⟨m, n, g', h1, h2, h3, h4⟩ := C75_map_partial e he s c l hs hl ht hb (by omega) info hinfo g hg
  have : (table e c l es).takeWhile valid = es := by
    by_cases c0 : es.length < 20
    · obtain ⟨r, hr⟩ := table_prefix e c l es c0
      rw [hr]
      refine takeWhile_of_all _ _ _ hv ?_
      intro x hx
      simp only [List.head?_cons, Option.some.injEq] at hx
      rw [← hx]
      exact hend c0
    · have : table e c l es = es := by
        unfold table
        rw [List.take_append, List.take_of_length_le hlen, show 20 - es.length = 0 by omega, List.take_zero,
          List.append_nil]
      rw [this]
      have := takeWhile_of_all valid es [] hv (by simp)
      rwa [List.append_nil] at this
  rw [this] at h3 h4
  exact ⟨m, n, g', h1, h2, h3, h4⟩

theorem nth_of_map {g : Manager} {es : List Entry} (h : (List.range (size g)).map (nth g) = es.map Res.ok) :
    size g = es.length ∧ ∀ i (hi : i < es.length), nth g i = .ok es[i] := by
  have hl : size g = es.length := by
    have := congrArg List.length h
    simpa using this
  refine ⟨hl, fun i hi => ?_⟩
  have h1 : ((List.range (size g)).map (nth g))[i]? = (es.map Res.ok)[i]? := by rw [h]
  rw [List.getElem?_eq_getElem (by simp; omega), List.getElem?_eq_getElem (by simpa using hi)] at h1
  simpa using h1

/-- C75 fails, stale bytes: the loader writes no end mark behind the map. Whenever fewer than
20 (valid) entries are reported and the last sector of the kernel file — which is still in the
buffer — holds a valid entry at that place, the kernel takes it for memory: it has more
entries than the BIOS reported. -/
theorem C75_stale_violated (e : Env) (he : e.Works) (s : M) (c : Nat) (l : List Nat) (hs : Starts e c)
    (hl : Chain e 0xFFF (c :: l)) (ht : HasTables e (c :: l)) {bios : Bios} {es : List Entry}
    (hb : Reports bios 0 es) (hlen : es.length < 20) (hv : ∀ x ∈ es, valid x = true)
    (hend : valid (leftover e c l es.length) = true)
    (info : List UInt8) (hinfo : info.length ≤ 512) (g : Manager) (hg : g.entrys.n = 20) :
    ∃ m n g', (∀ f, n ≤ f → start e bios (some info) f s = .ok (some m)) ∧
      init (view m Paging.cr3) g = .ok g' ∧ es.length < size g' ∧
      nth g' es.length = .ok (leftover e c l es.length) := by
  obtain ⟨m, n, g', h1, h2, h3, _⟩ := C75_map_partial e he s c l hs hl ht hb (by omega) info hinfo g hg
  obtain ⟨r, hr⟩ := table_prefix e c l es hlen
  have ht : ∃ r', (table e c l es).takeWhile valid = es ++ leftover e c l es.length :: r' := by
    rw [hr, show es ++ leftover e c l es.length :: r = (es ++ [leftover e c l es.length]) ++ r by simp]
    refine ⟨r.takeWhile valid, ?_⟩
    rw [List.takeWhile_append_of_pos]
    · simp
    · intro x hx
      rcases List.mem_append.1 hx with h | h
      · exact hv x h
      · rw [List.mem_singleton.1 h]; exact hend
  obtain ⟨r', hr'⟩ := ht
  rw [hr'] at h3
  obtain ⟨k1, k2⟩ := nth_of_map h3
  refine ⟨m, n, g', h1, h2, by rw [k1]; simp, ?_⟩
  rw [k2 es.length (by simp)]
  simp

/-- C75 fails, other entries: an entry of a type the kernel does not know, or of length 0,
cuts off everything behind it. -/
theorem C75_cut_violated (e : Env) (he : e.Works) (s : M) (c : Nat) (l : List Nat) (hs : Starts e c)
    (hl : Chain e 0xFFF (c :: l)) (ht : HasTables e (c :: l)) {bios : Bios} {es fs : List Entry} {x : Entry}
    (hb : Reports bios 0 (es ++ x :: fs)) (hlen : (es ++ x :: fs).length ≤ 1664) (hes : es.length < 20)
    (hv : ∀ x ∈ es, valid x = true) (hx : valid x = false)
    (info : List UInt8) (hinfo : info.length ≤ 512) (g : Manager) (hg : g.entrys.n = 20) :
    ∃ m n g', (∀ f, n ≤ f → start e bios (some info) f s = .ok (some m)) ∧
      init (view m Paging.cr3) g = .ok g' ∧ (List.range (size g')).map (nth g') = es.map Res.ok := by
  obtain ⟨m, n, g', h1, h2, h3, _⟩ := C75_map_partial e he s c l hs hl ht hb hlen info hinfo g hg
  have : (table e c l (es ++ x :: fs)).takeWhile valid = es := by
    unfold table
    obtain ⟨k, hk⟩ : ∃ k, 20 - es.length = k + 1 := ⟨19 - es.length, by omega⟩
    rw [List.append_assoc, List.take_append, List.take_of_length_le (by omega), hk, List.cons_append,
      List.take_succ_cons]
    refine takeWhile_of_all _ _ _ hv ?_
    intro y hy
    simp only [List.head?_cons, Option.some.injEq] at hy
    rw [← hy]; exact hx
  rw [this] at h3
  exact ⟨m, n, g', h1, h2, h3⟩

/-- C75 fails, long maps: only the first 20 entries are kept. -/
theorem C75_long_violated (e : Env) (he : e.Works) (s : M) (c : Nat) (l : List Nat) (hs : Starts e c)
    (hl : Chain e 0xFFF (c :: l)) (ht : HasTables e (c :: l)) {bios : Bios} {es : List Entry}
    (hb : Reports bios 0 es) (hlen : es.length ≤ 1664) (h20 : 20 < es.length) (hv : ∀ x ∈ es, valid x = true)
    (info : List UInt8) (hinfo : info.length ≤ 512) (g : Manager) (hg : g.entrys.n = 20) :
    ∃ m n g', (∀ f, n ≤ f → start e bios (some info) f s = .ok (some m)) ∧
      init (view m Paging.cr3) g = .ok g' ∧ (List.range (size g')).map (nth g') = (es.take 20).map Res.ok ∧
      size g' < es.length := by
  obtain ⟨m, n, g', h1, h2, h3, _⟩ := C75_map_partial e he s c l hs hl ht hb hlen info hinfo g hg
  have : (table e c l es).takeWhile valid = es.take 20 := by
    unfold table
    rw [List.take_append, show 20 - es.length = 0 by omega, List.take_zero]
    exact takeWhile_of_all _ _ _ (fun x hx => hv x (List.mem_of_mem_take hx)) (by simp)
  rw [this] at h3
  refine ⟨m, n, g', h1, h2, h3, ?_⟩
  have := (nth_of_map h3).1
  simp only [List.length_take] at this
  omega

/-- The BIOS marks the end of the map by the carry flag of the call behind the last entry,
with `n` entries before it. -/
inductive EndsByCarry (bios : Bios) : BitVec 32 → Nat → Prop
  | stop {ebx} : bios ebx = none → EndsByCarry bios ebx 0
  | more {ebx ebx' bs n} : bios ebx = some (bs, ebx') → ebx' ≠ 0 → EndsByCarry bios ebx' n →
      EndsByCarry bios ebx (n + 1)

theorem getMemory_carry {bios : Bios} {ebx : BitVec 32} {n : Nat} (h : EndsByCarry bios ebx n) (di : BitVec 16)
    (m : Phys) (f : Nat) (hf : n < f) : getMemory bios f ebx di m = .ok none := by
  induction h generalizing di m f with
  | stop hb =>
    cases f with
    | zero => omega
    | succ f => simp [getMemory, hb]
  | more hb h0 _ ih =>
    cases f with
    | zero => omega
    | succ f =>
      simp only [getMemory, hb, h0, if_false]
      exact ih _ _ f (by omega)

/-- C75 fails, end by carry: with a BIOS that ends the map with the carry flag the machine
stops with an error message, however good the map was. -/
theorem C75_carry_violated (e : Env) (he : e.Works) (s : M) (c : Nat) (l : List Nat) (hs : Starts e c)
    (hl : Chain e 0xFFF (c :: l)) {bios : Bios} {k : Nat} (hb : EndsByCarry bios 0 k) (svga : Option (List UInt8)) :
    ∃ n, ∀ f, n ≤ f → start e bios svga f s = .ok none := by
  obtain ⟨s1, ⟨⟨n, hn⟩, _⟩, _, _⟩ := loader_spec e he s c l hs hl
  have hn : ∀ f, n ≤ f → loader e f s = .ok (some s1) := hn
  refine ⟨n + k + 1, fun f hf => ?_⟩
  unfold start setup
  rw [hn f (by omega), Res.ok_bind]
  simp only
  rw [getMemory_carry hb _ _ f (by omega), Res.ok_bind]

/-! A floppy with a kernel of 129 sectors that holds the tables; `tail` is the contents of
its last sector. -/

/-- Byte `k` of a table. -/
def tabByte (t : List Nat) (k : Nat) : BitVec 8 := BitVec.ofNat 8 (t.getD (k / 8) 0 / 256 ^ (k % 8))

def exKernel (tail : List UInt8) : Env :=
  { exLong with
    disk := fun i =>
      if i < 33 * 512 then exLong.disk i
      else if i < 33 * 512 + 0x1000 then 0
      else if i < 33 * 512 + 0x2000 then tabByte Paging.pml4 (i - (33 * 512 + 0x1000))
      else if i < 33 * 512 + 0x3000 then tabByte Paging.pdpte (i - (33 * 512 + 0x2000))
      else if i < 33 * 512 + 0x4000 then tabByte Paging.pde (i - (33 * 512 + 0x3000))
      else if i < 33 * 512 + 128 * 512 then 0x90
      else (tail.getD (i - (33 * 512 + 128 * 512)) 0).toBitVec }

theorem word_ofNat (m : Phys) (a v : Nat) (hv : v < 2 ^ 64)
    (h : ∀ i, i < 8 → m (a + i) = BitVec.ofNat 8 (v / 256 ^ i)) : word m a = v := by
  unfold word
  have h0 := h 0 (by omega)
  rw [Nat.add_zero] at h0
  rw [h0, h 1 (by omega), h 2 (by omega), h 3 (by omega), h 4 (by omega), h 5 (by omega), h 6 (by omega),
    h 7 (by omega)]
  simp only [BitVec.toNat_ofNat, Nat.reducePow]
  omega

theorem exKernel_low (tail : List UInt8) (i : Nat) (h : i < 33 * 512) : (exKernel tail).disk i = exLong.disk i := by
  show (if _ then _ else _) = _
  rw [if_pos h]

theorem exKernel_starts (tail : List UInt8) : Starts (exKernel tail) 2 := by
  obtain ⟨k, h1, h2, h3, h4⟩ := exLong_starts
  refine ⟨k, h1, ?_, ?_, ?_⟩
  · intro j hj
    rw [exKernel_low _ _ (by omega)]
    exact h2 j hj
  · intro i hi H
    refine h3 i hi fun j hj => ?_
    rw [← exKernel_low tail _ (by omega)]
    exact H j hj
  · rw [exKernel_low _ _ (by omega), exKernel_low _ _ (by omega)]
    exact h4

theorem exKernel_works (tail : List UInt8) : (exKernel tail).Works := exLong_works

theorem Chain.congr {e e' : Env} (h : ∀ i, i < 33 * 512 → e'.disk i = e.disk i) {v : Nat} {l : List Nat}
    (hl : Chain e v l) : Chain e' v l := by
  have hE : ∀ c v, c < 2849 → IsEntry e c v → IsEntry e' c v := by
    intro c v hc H k
    rw [H k]
    by_cases ck : k < 12
    · unfold fatBit
      rw [h _ (by omega)]
    · simp [ck]
  induction l with
  | nil => exact hl
  | cons c l ih =>
    cases l with
    | nil => exact ⟨hl.1, hE _ _ (by have := hl.1; simp only [sectorOf] at this; omega) hl.2⟩
    | cons d l => exact ⟨hl.1, hE _ _ (by have := hl.1; simp only [sectorOf] at this; omega) hl.2.1, ih hl.2.2⟩

theorem exKernel_chain (tail : List UInt8) : Chain (exKernel tail) 0xFFF (2 :: List.range' 3 128) :=
  Chain.congr (exKernel_low tail) exLong_chain

theorem exKernel_file (tail : List UInt8) (k : Nat) (hk : k < 512 * 129) :
    fileByte (exKernel tail) (2 :: List.range' 3 128) k = (exKernel tail).disk (33 * 512 + k) := by
  unfold fileByte
  have : (2 :: List.range' 3 128).getD (k / 512) 0 = 2 + k / 512 := by
    rw [show (2 :: List.range' 3 128) = List.range' 2 129 from rfl]
    rw [List.getD_eq_getElem?_getD, List.getElem?_eq_getElem (by simp; omega), Option.getD_some]
    simp
  rw [this]
  unfold sectorOf
  rw [show (33 + (2 + k / 512 - 2)) * 512 + k % 512 = 33 * 512 + k by omega]

theorem exKernel_tables (tail : List UInt8) : HasTables (exKernel tail) (2 :: List.range' 3 128) := by
  refine ⟨by simp, ?_, ?_, ?_⟩
  · intro i hi
    have hb : ∀ i, i < 512 → Paging.pml4.getD i 0 < 2 ^ 64 := fun i hi => by
      rw [Paging.pml4_entries i hi]; split <;> omega
    refine word_ofNat _ _ _ (hb i hi) fun j hj => ?_
    rw [exKernel_file _ _ (by omega)]
    show (if _ then _ else _) = _
    rw [if_neg (by omega), if_neg (by omega), if_pos (by omega)]
    unfold tabByte
    rw [show (33 * 512 + (0x101000 + 8 * i - 0x100000 + j) - (33 * 512 + 0x1000)) / 8 = i by omega,
      show (33 * 512 + (0x101000 + 8 * i - 0x100000 + j) - (33 * 512 + 0x1000)) % 8 = j by omega]
  · intro i hi
    have hb : ∀ i, i < 512 → Paging.pdpte.getD i 0 < 2 ^ 64 := fun i hi => by
      rw [Paging.pdpte_entries i hi]; split <;> omega
    refine word_ofNat _ _ _ (hb i hi) fun j hj => ?_
    rw [exKernel_file _ _ (by omega)]
    show (if _ then _ else _) = _
    rw [if_neg (by omega), if_neg (by omega), if_neg (by omega), if_pos (by omega)]
    unfold tabByte
    rw [show (33 * 512 + (0x102000 + 8 * i - 0x100000 + j) - (33 * 512 + 0x2000)) / 8 = i by omega,
      show (33 * 512 + (0x102000 + 8 * i - 0x100000 + j) - (33 * 512 + 0x2000)) % 8 = j by omega]
  · intro i hi
    have hb : ∀ i, i < 512 → Paging.pde.getD i 0 < 2 ^ 64 := fun i hi => by
      rw [Paging.pde_entries i hi]; repeat' split
      all_goals omega
    refine word_ofNat _ _ _ (hb i hi) fun j hj => ?_
    rw [exKernel_file _ _ (by omega)]
    show (if _ then _ else _) = _
    rw [if_neg (by omega), if_neg (by omega), if_neg (by omega), if_neg (by omega), if_pos (by omega)]
    unfold tabByte
    rw [show (33 * 512 + (0x103000 + 8 * i - 0x100000 + j) - (33 * 512 + 0x3000)) / 8 = i by omega,
      show (33 * 512 + (0x103000 + 8 * i - 0x100000 + j) - (33 * 512 + 0x3000)) % 8 = j by omega]

/-- A BIOS that reports a list, with the position as continuation value. -/
def exBios (es : List Entry) : Bios := fun ebx =>
  es[ebx.toNat]?.map fun x => (image x, if ebx.toNat + 1 < es.length then ebx + 1 else 0)

theorem exBios_reports (es : List Entry) (n : Nat) (hn : n < es.length) (hl : es.length < 2 ^ 32) :
    Reports (exBios es) (BitVec.ofNat 32 n) (es.drop n) := by
  obtain ⟨k, hk⟩ : ∃ k, es.length - n = k + 1 := ⟨es.length - n - 1, by omega⟩
  induction k generalizing n with
  | zero =>
    have : es.drop n = [es[n]] := by
      rw [List.drop_eq_getElem_cons hn, List.drop_eq_nil_of_le (by omega)]
    rw [this]
    refine Reports.last ?_
    simp only [exBios, BitVec.toNat_ofNat]
    rw [Nat.mod_eq_of_lt (by omega), if_neg (by omega), List.getElem?_eq_getElem hn]
    rfl
  | succ k ih =>
    rw [List.drop_eq_getElem_cons hn]
    refine Reports.more (ebx' := BitVec.ofNat 32 (n + 1)) ?_ ?_ (ih (n + 1) (by omega) (by omega))
    · simp only [exBios, BitVec.toNat_ofNat]
      rw [Nat.mod_eq_of_lt (by omega), if_pos (by omega), List.getElem?_eq_getElem hn]
      simp only [Option.map_some, Option.some.injEq, Prod.mk.injEq, true_and]
      apply BitVec.eq_of_toNat_eq
      rw [BitVec.toNat_add]
      simp
    · intro h
      have := congrArg BitVec.toNat h
      simp only [BitVec.toNat_ofNat] at this
      rw [Nat.mod_eq_of_lt (by omega)] at this
      simp at this

def exMap : List Entry := [⟨0, 0x9fc00, 1⟩, ⟨0xf0000, 0x10000, 2⟩, ⟨0x100000, 0x7ee0000, 1⟩]

/-- A kernel whose last sector is padded with zeroes: the kernel has the map. -/
example : ∃ m n g', (∀ f, n ≤ f → start (exKernel []) (exBios exMap) (some [1, 2, 3]) f exM = .ok (some m)) ∧
    init (view m Paging.cr3) ⟨Arr.fill 20 default, 7, 7⟩ = .ok g' ∧
    (List.range (size g')).map (nth g') = exMap.map Res.ok ∧ g'.available.toNat = 0x9fc00 + 0x7ee0000 := by
  obtain ⟨m, n, g', h1, h2, h3, h4⟩ := C75_faithful_partial (exKernel []) (exKernel_works _) exM 2 (List.range' 3 128)
    (exKernel_starts _) (exKernel_chain _) (exKernel_tables _) (exBios_reports exMap 0 (by decide) (by decide))
    (by decide) (by decide) (fun _ => by decide +kernel) [1, 2, 3] (by decide) ⟨Arr.fill 20 default, 7, 7⟩ rfl
  exact ⟨m, n, g', h1, h2, h3, by rw [h4 (by decide)]; decide⟩

/-- A kernel whose last sector is filled with the bytes `01 00 00 00`: behind the three entries
of the BIOS the kernel sees memory that does not exist. -/
def exTail : List UInt8 := (List.replicate 128 [1, 0, 0, 0]).flatten

example : ∃ m n g', (∀ f, n ≤ f → start (exKernel exTail) (exBios exMap) (some [1, 2, 3]) f exM = .ok (some m)) ∧
    init (view m Paging.cr3) ⟨Arr.fill 20 default, 7, 7⟩ = .ok g' ∧
    3 < size g' ∧ nth g' 3 = .ok ⟨0x100000001, 0x100000001, 1⟩ := by
  have hl : leftover (exKernel exTail) 2 (List.range' 3 128) (exMap.drop 0).length = ⟨0x100000001, 0x100000001, 1⟩ := by
    decide +kernel
  obtain ⟨m, n, g', h1, h2, h3, h4⟩ := C75_stale_violated (exKernel exTail) (exKernel_works _) exM 2 (List.range' 3 128)
    (exKernel_starts _) (exKernel_chain _) (exKernel_tables _) (exBios_reports exMap 0 (by decide) (by decide))
    (by decide) (by decide) (by rw [hl]; decide) [1, 2, 3] (by decide) ⟨Arr.fill 20 default, 7, 7⟩ rfl
  rw [hl] at h4
  exact ⟨m, n, g', h1, h2, h3, h4⟩

/-- Defective memory (type 5) in the middle of the map: the main memory is lost. -/
example : ∃ m n g', (∀ f, n ≤ f → start (exKernel [])
      (exBios ([⟨0, 0x9fc00, 1⟩] ++ ⟨0xf0000, 0x10000, 5⟩ :: [⟨0x100000, 0x7ee0000, 1⟩])) (some []) f exM = .ok (some m)) ∧
    init (view m Paging.cr3) ⟨Arr.fill 20 default, 7, 7⟩ = .ok g' ∧
    (List.range (size g')).map (nth g') = [.ok ⟨0, 0x9fc00, 1⟩] :=
  C75_cut_violated (exKernel []) (exKernel_works _) exM 2 (List.range' 3 128)
    (exKernel_starts _) (exKernel_chain _) (exKernel_tables _) (exBios_reports _ 0 (by decide) (by decide))
    (by decide) (by decide) (by decide) (by decide) [] (by decide) ⟨Arr.fill 20 default, 7, 7⟩ rfl

def exMany : List Entry := (List.range 21).map fun i => ⟨BitVec.ofNat 64 (0x200000 * i), 0x200000, 1⟩

example : ∃ m n g', (∀ f, n ≤ f → start (exKernel []) (exBios exMany) (some []) f exM = .ok (some m)) ∧
    init (view m Paging.cr3) ⟨Arr.fill 20 default, 7, 7⟩ = .ok g' ∧ size g' < 21 := by
  obtain ⟨m, n, g', h1, h2, _, h4⟩ := C75_long_violated (exKernel []) (exKernel_works _) exM 2 (List.range' 3 128)
    (exKernel_starts _) (exKernel_chain _) (exKernel_tables _) (exBios_reports exMany 0 (by decide) (by decide))
    (by decide) (by decide) (by decide) [] (by decide) ⟨Arr.fill 20 default, 7, 7⟩ rfl
  exact ⟨m, n, g', h1, h2, h4⟩

/-- The same map, the end marked by carry. -/
def exCarry : Bios := fun ebx => exMap[ebx.toNat]?.map fun x => (image x, ebx + 1)

example : ∃ n, ∀ f, n ≤ f → start (exKernel []) exCarry (some []) f exM = .ok none :=
  C75_carry_violated (exKernel []) (exKernel_works _) exM 2 (List.range' 3 128)
    (exKernel_starts _) (exKernel_chain _) (k := 3)
    (.more (ebx' := 1) (bs := image ⟨0, 0x9fc00, 1⟩) rfl (by decide)
      (.more (ebx' := 2) (bs := image ⟨0xf0000, 0x10000, 2⟩) rfl (by decide)
        (.more (ebx' := 3) (bs := image ⟨0x100000, 0x7ee0000, 1⟩) rfl (by decide) (.stop rfl)))) _

/-! ### C76: the temporary page tables -/

theorem writeTables_words (m : Phys) :
    word (writeTables m) 0x90000 = 0x91007 ∧ word (writeTables m) 0x90800 = 0x91007 ∧
    word (writeTables m) 0x91000 = 0x92007 ∧
    ∀ i, i < 6 → word (writeTables m) (0x92000 + 8 * i) = 0x200000 * i + 0x83 := by
  refine ⟨?_, ?_, ?_, ?_⟩
  · simp [writeTables, tables, movDword, word]
  · simp [writeTables, tables, movDword, word]
  · simp [writeTables, tables, movDword, word]
  · intro i hi
    rcases (by omega : i = 0 ∨ i = 1 ∨ i = 2 ∨ i = 3 ∨ i = 4 ∨ i = 5) with rfl | rfl | rfl | rfl | rfl | rfl <;>
      simp [writeTables, tables, movDword, word]

theorem tmp_walk (m : Phys) (va off : Nat) (hva : va = off ∨ va = 0xFFFF800000000000 + off) (hoff : off < 2 ^ 30) :
    Paging.walk (word (writeTables m)) tmpCr3 va =
      (let e := word (writeTables m) (0x92000 + 8 * (off / 2 ^ 21))
       if Paging.present e then
         if Paging.large e then some (e / 2 ^ 21 % 2 ^ 31 * 2 ^ 21 + off % 2 ^ 21, Paging.writableBit e)
         else
           let e1 := word (writeTables m) (Paging.table e + 8 * (va / 2 ^ 12 % 512))
           if Paging.present e1 then
             some (Paging.table e1 + va % 2 ^ 12, Paging.writableBit e && Paging.writableBit e1)
           else none
       else none) := by
  obtain ⟨w1, w2, w3, _⟩ := writeTables_words m
  have c1 : Paging.canonical va = true := by
    simp only [Paging.canonical, decide_eq_true_eq]; omega
  have w4 : word (writeTables m) (tmpCr3 + 8 * (va / 2 ^ 39 % 512)) = 0x91007 := by
    rcases hva with h | h
    · rw [show va / 2 ^ 39 % 512 = 0 by omega]; exact w1
    · rw [show va / 2 ^ 39 % 512 = 256 by omega]; exact w2
  have t4 : Paging.table 0x91007 = 0x91000 := by decide
  have t3 : Paging.table 0x92007 = 0x92000 := by decide
  have p4 : Paging.present 0x91007 = true := by decide
  have p3 : Paging.present 0x92007 = true := by decide
  have l3 : Paging.large 0x92007 = false := by decide
  have b4 : Paging.writableBit 0x91007 = true := by decide
  have b3 : Paging.writableBit 0x92007 = true := by decide
  have h3 : va / 2 ^ 30 % 512 = 0 := by omega
  have h2 : va / 2 ^ 21 % 512 = off / 2 ^ 21 := by omega
  have h1 : va % 2 ^ 21 = off % 2 ^ 21 := by omega
  unfold Paging.walk
  simp only [c1, if_true, w4, p4, t4, h3, Nat.mul_zero, Nat.add_zero, w3, p3, l3, Bool.false_eq_true, if_false, t3, h2,
    h1, b4, b3, Bool.true_and]

/-- C76. Whatever memory held before, with the temporary tables every address of the first
12 MiB of either half translates to that physical address and can be written. -/
theorem C76_low_partial (m : Phys) (off : Nat) (h : off < 0xC00000) :
    Paging.walk (word (writeTables m)) tmpCr3 off = some (off, true) ∧
    Paging.walk (word (writeTables m)) tmpCr3 (0xFFFF800000000000 + off) = some (off, true) := by
  obtain ⟨_, _, _, w⟩ := writeTables_words m
  have key : ∀ va, (va = off ∨ va = 0xFFFF800000000000 + off) →
      Paging.walk (word (writeTables m)) tmpCr3 va = some (off, true) := by
    intro va hva
    rw [tmp_walk m va off hva (by omega), w (off / 2 ^ 21) (by omega)]
    have e1 : Paging.present (0x200000 * (off / 2 ^ 21) + 0x83) = true := by
      simp only [Paging.present, decide_eq_true_eq]; omega
    have e2 : Paging.large (0x200000 * (off / 2 ^ 21) + 0x83) = true := by
      simp only [Paging.large, decide_eq_true_eq]; omega
    have e3 : Paging.writableBit (0x200000 * (off / 2 ^ 21) + 0x83) = true := by
      simp only [Paging.writableBit, decide_eq_true_eq]; omega
    simp only [e1, e2, e3, if_true]
    exact Paging.some_pair (by omega) _
  exact ⟨key _ (.inl rfl), key _ (.inr rfl)⟩

example : Paging.walk (word (writeTables fun _ => 0xFF)) tmpCr3 0xFFFF800000B12345 = some (0xB12345, true) :=
  (C76_low_partial (fun _ => 0xFF) 0xB12345 (by decide)).2

/-- The first instruction of the kernel, run with the temporary tables, is the first byte of
the kernel file. -/
theorem C76_jump (e : Env) (he : e.Works) (s : M) (c : Nat) (l : List Nat) (hs : Starts e c)
    (hl : Chain e 0xFFF (c :: l)) {bios : Bios} {es : List Entry}
    (hb : Reports bios 0 es) (hlen : es.length ≤ 1664) (info : List UInt8) (hinfo : info.length ≤ 512) :
    ∃ m n, (∀ f, n ≤ f → start e bios (some info) f s = .ok (some m)) ∧
      ∀ k, k < 512 * (c :: l).length → view m tmpCr3 (0x100000 + k) = some (UInt8.ofBitVec (fileByte e (c :: l) k)) := by
  obtain ⟨s1, ⟨⟨n, hn⟩, _⟩, h2, h3⟩ := loader_spec e he s c l hs hl
  have hn : ∀ f, n ≤ f → loader e f s = .ok (some s1) := hn
  have hcl := hl.length (by omega)
  obtain ⟨m1, g1, _, g3⟩ := getMemory_spec hb s1.mem 0x7E00 (by rw [show (0x7E00 : BitVec 16).toNat = 0x7E00 from rfl]; omega)
  refine ⟨writeTables (put m1 0x8000 info), n + es.length, ?_, ?_⟩
  · intro f hf
    unfold start
    rw [hn f (by omega), Res.ok_bind]
    simp only [setup, g1 f (by omega), Res.ok_bind, getSvga, Option.map_some]
  · intro k hk
    unfold view
    rw [(C76_low_partial _ (0x100000 + k) (by omega)).1, Option.map_some]
    simp only
    rw [writeTables_other _ _ (by omega), put_at _ _ _ 0x8000 rfl (by omega), dif_neg (by omega),
      g3 _ (by rw [show (0x7E00 : BitVec 16).toNat = 0x7E00 from rfl]; omega), h2 k hk]

example : ∃ m n, (∀ f, n ≤ f → start (exKernel []) (exBios exMap) (some [1]) f exM = .ok (some m)) ∧
    view m tmpCr3 (0x100000 + 0x1000) = some 0x07 := by
  obtain ⟨m, n, h1, h2⟩ := C76_jump (exKernel []) (exKernel_works _) exM 2 (List.range' 3 128)
    (exKernel_starts _) (exKernel_chain _) (exBios_reports exMap 0 (by decide) (by decide)) (by decide) [1] (by decide)
  refine ⟨m, n, h1, ?_⟩
  rw [h2 0x1000 (by simp), exKernel_file _ _ (by decide)]
  decide +kernel

/-- C76, the check before the switch: it lets exactly those processors pass that have the leaf
0x80000001 and say there (bit 29) that they have long mode. -/
theorem C76_long_mode (cpuid : BitVec 32 → BitVec 32 × BitVec 32) :
    supportLongMode cpuid ≠ 0 ↔
      0x80000001 ≤ (cpuid 0x80000000).1.toNat ∧ (cpuid 0x80000001).2.toNat / 2 ^ 29 % 2 = 1 := by
  unfold supportLongMode
  simp only [BitVec.lt_def, show ((0x80000001 : BitVec 32)).toNat = 0x80000001 from rfl]
  by_cases h : (cpuid 0x80000000).1.toNat < 0x80000001
  · simp only [h, decide_true, Bool.not_true, if_true, Bool.false_eq_true, if_false]
    constructor
    · intro H; exact absurd rfl H
    · intro H; omega
  · simp only [h, if_false]
    rw [BitVec.getLsbD, Nat.testBit_eq_decide_div_mod_eq]
    by_cases h2 : (cpuid 0x80000001).2.toNat / 2 ^ 29 % 2 = 1
    · simp only [h2, decide_true, if_true, and_true]
      constructor
      · intro _; omega
      · intro _; decide
    · simp only [h2, decide_false, Bool.false_eq_true, if_false, and_false, iff_false]
      intro H; exact H rfl

example : supportLongMode (fun l => if l = 0x80000000 then (0x80000008, 0) else (0, 0x20100800)) ≠ 0 ∧
    supportLongMode (fun l => if l = 0x80000000 then (0x80000000, 0) else (0, 0xFFFFFFFF)) = 0 := by
  refine ⟨(C76_long_mode _).2 ⟨by decide, by decide⟩, ?_⟩
  exact Classical.not_not.1 fun h => absurd ((C76_long_mode _).1 h).1 (by decide)

/-- C76 fails, the rest: the other entries of the tables are never written, so an address
behind the first 12 MiB does not fault but goes wherever the old contents of memory say: for
every 2 MiB frame below 4 GiB there is such a memory. -/
theorem C76_rest_violated (frame : Nat) (hf : frame < 2048) :
    ∃ m : Phys, ∀ off, 0xC00000 ≤ off → off < 0xE00000 →
      Paging.walk (word (writeTables m)) tmpCr3 off = some (frame * 0x200000 + off % 0x200000, true) := by
  refine ⟨fun a => BitVec.ofNat 8 ((frame * 0x200000 + 0x83) / 256 ^ (a - 0x92030)), fun off h1 h2 => ?_⟩
  rw [tmp_walk _ off off (.inl rfl) (by omega)]
  have hw : word (writeTables fun a => BitVec.ofNat 8 ((frame * 0x200000 + 0x83) / 256 ^ (a - 0x92030)))
      (0x92000 + 8 * (off / 2 ^ 21)) = frame * 0x200000 + 0x83 := by
    rw [show off / 2 ^ 21 = 6 by omega]
    refine word_ofNat _ _ _ (by omega) fun j hj => ?_
    rw [show writeTables _ (0x92000 + 8 * 6 + j) = _ from tables_low tables _ _ (by
      have : ∀ p ∈ tables, p.1 + 4 ≤ 0x92030 := by decide
      intro p hp
      have := this p hp
      omega)]
    rw [show 0x92000 + 8 * 6 + j - 0x92030 = j by omega]
  rw [hw]
  have e1 : Paging.present (frame * 0x200000 + 0x83) = true := by
    simp only [Paging.present, decide_eq_true_eq]; omega
  have e2 : Paging.large (frame * 0x200000 + 0x83) = true := by
    simp only [Paging.large, decide_eq_true_eq]; omega
  have e3 : Paging.writableBit (frame * 0x200000 + 0x83) = true := by
    simp only [Paging.writableBit, decide_eq_true_eq]; omega
  simp only [e1, e2, e3, if_true]
  exact Paging.some_pair (by omega) _

example : ∃ m : Phys, Paging.walk (word (writeTables m)) tmpCr3 0xC00010 = some (0x600010, true) := by
  obtain ⟨m, h⟩ := C76_rest_violated 3 (by decide)
  exact ⟨m, by rw [h 0xC00010 (by decide) (by decide)]⟩

end Verif.Loader
