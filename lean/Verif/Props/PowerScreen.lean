import Verif.Props.PowerOn
import Verif.Props.BootLog
set_option backward.isDefEq.respectTransparency false

/-!
C113: from the floppy to the screen. C109 (boot sector, loader, modes, linked kernel) and C96 (`main`) one behind
the other: the numbers on the screen are those of the BIOS.
-/

namespace Verif.PowerScreen
open Verif Verif.Boot Verif.Loader Verif.Image

/-- What `main` starts with, when the loader has left the memory `m` and the processor uses the page tables at `cr3`:
the same addresses are mapped, the memory map, the name of the exception (at offset `k` of the image) and the page tables
are as they were (everything else may have been changed), no translation is cached (CR3 has been loaded) and the screen
is black. -/
structure AtMain (m : Phys) (cr3 k : Nat) (s : Printf.St) (t : Tlb.St) : Prop where
  mapped : ∀ a, a < 2 ^ 64 → (s.mem a).isSome = (view m cr3 a).isSome
  map : ∀ i, i < 400 → s.mem (0xffff800000007e00 + i) = view m cr3 (0xffff800000007e00 + i)
  name : ∀ i, i < 11 → s.mem (0xffff800000100000 + k + i) = view m cr3 (0xffff800000100000 + k + i)
  tables : ∀ a, 0x101000 ≤ a → a < 0x104000 → t.mem a = word m a
  cached : ∀ i, t.tlb i = none
  black : ∀ q, q < 1440 * 896 → s.scr.pix q = Vesa.black

/-- The pixels of the text area show the log of a kernel that found `es`. -/
def Shows (font : Vesa.Font) (es : List E820.Entry) (e : BootLog.Env) (b : Bool) (scr : Vesa.Screen) : Prop :=
  ∀ x y, x < 1440 → y < 896 → scr.pix (1440 * y + x) =
    if (((BootLog.log es.length (E820.freeSum es / 2 ^ 20) e.ad.toNat e.regs b)[y / 16]?.bind
      (·[x / 8]?)).any fun u => (font u.toBitVec (y % 16)).getLsbD (7 - x % 8)) = true then 0xffffff else Vesa.black

/-- The map the kernel takes over: the reported entries and what is left behind them, to the first entry that is not
valid, at most 20. -/
def taken (e : Env) (c : Nat) (l : List Nat) (es : List E820.Entry) : List E820.Entry :=
  (table e c l es).takeWhile E820.valid

theorem entries_eq (e : Env) (c : Nat) (l : List Nat) (es : List E820.Entry) :
    BootLog.entries (fun i => (es ++ (List.range 20).map fun k => leftover e c l (es.length + k)).getD i default) =
      taken e c l es := by
  unfold BootLog.entries taken table
  congr 1
  apply List.ext_getElem
  · simp
  · intro i hi hj
    simp only [List.length_map, List.length_range] at hi
    simp only [List.getElem_map, List.getElem_range, List.getElem_take]
    rw [List.getD_eq_getElem?_getD, List.getElem?_eq_getElem (by simp; omega), Option.getD_some]

theorem view_of {m : Phys} {cr3 : Nat} (h : ∀ va, va < 2 ^ 64 → Paging.walk (word m) cr3 va =
    (Paging.expected va).map fun pa => (pa, true)) (a : Nat) (ha : a < 0xA00000) :
    view m cr3 (0xFFFF800000000000 + a) = some (UInt8.ofBitVec (m a)) := by
  unfold view
  rw [h _ (by omega)]
  unfold Paging.expected Paging.window Paging.high
  rw [if_neg (by omega), if_pos (by omega), show 0xFFFF800000000000 + a - 0xFFFF800000000000 = a by omega]
  rfl

/-- The machine boots and shows the log of `es`: the boot sector loads the loader, the loader the kernel, from every state in
real mode the processor arrives at `main` in 64-bit mode, and from every state that agrees with the memory it finds there
`main` comes to rest, with every pixel of the text area as in the log of `es`. -/
def Boots (eb el : Env) (s0 : M) (bios : Bios) (info : List UInt8) (p : Parts) (l : Linked) (k buf : Nat)
    (es : List E820.Entry) : Prop :=
  ∃ s1 n1, (∀ f, n1 ≤ f → Boot.boot eb f s0 = .ok (some s1)) ∧
    ∀ s2 : M, s2.mem = s1.mem → ∃ m n2,
      (∀ f, n2 ≤ f → start el bios (some info) f s2 = .ok (some m)) ∧
      ∀ (cpu : Mode.Cpu) (prot : BitVec 64), Mode.RealMode cpu → prot.toNat < 2 ^ 32 → ∃ cpu',
        Mode.exec (Mode.boot prot
          (BitVec.ofNat 64 (word m (l.sym "SwitchSeg" - 0xffff800000000000)))
          (BitVec.ofNat 64 (word m (l.sym "StartKernel" - 0xffff800000000000)))) cpu = some cpu' ∧
        cpu'.rip = BitVec.ofNat 64 p.main ∧ cpu'.mode64 = true ∧
        ∀ (font : Vesa.Font) (exceptions : List Nat) (mg : E820.Manager) (e : BootLog.Env) (s : Printf.St) (t : Tlb.St),
          AtMain m cpu'.cr3.toNat k s t → exceptions[14]? = some (0xffff800000100000 + k) → mg.entrys.n = 20 →
          (∀ a ∈ e.acts1 ++ e.acts2 ++ e.acts3 ++ e.acts4 ++ e.acts5, Tlb.Between a) →
          ∃ n mg' s' b, (∀ fuel, n ≤ fuel → BootLog.main font buf fuel exceptions mg e t s = .ok (mg', s', b)) ∧
            (b = true ↔ BootLog.Stale t e) ∧ Shows font es e b s'.scr

theorem name_bytes : ∀ i : Fin 10, UInt8.ofBitVec ([80, 97, 103, 101, 32, 70, 97, 117, 108, 116, 0][i.val]) =
    BootLog.pageFaultName[i.val] ∧ BootLog.pageFaultName[i.val] ≠ 0 := by decide

/-- C113, what is on the screen in any case. For every floppy with a loader and a linked kernel that contains the string
"Page Fault", however often the drive fails, whatever was in memory and whatever the BIOS reports: the machine
boots and shows the log of the map the kernel took over. -/
theorem C113_log (eb el : Env) (hb : eb.Works) (hk : el.Works) (s0 : M)
    (cb : Nat) (lb : List Nat) (sb : Starts eb cb) (chb : Chain eb 0xFFF (cb :: lb)) (lenb : (cb :: lb).length ≤ 128)
    (ck : Nat) (lk : List Nat) (sk : Starts el ck) (chk : Chain el 0xFFF (ck :: lk))
    (p : Parts) (l : Linked) (hl : link p = some l) (hmain : p.main < 2 ^ 64)
    (hcan : Mode.Canonical (BitVec.ofNat 64 p.main)) (hfile : PowerOn.Holds el (ck :: lk) l.image)
    (bios : Bios) (es : List E820.Entry) (hrep : Reports bios 0 es) (hes : es.length ≤ 1664)
    (hsum : E820.freeSum (taken el ck lk es) < 2 ^ 64)
    (info : List UInt8) (hinfo : info.length ≤ 512)
    (k : Nat) (hname : ∀ i (h : i < 11), l.image[k + i]? = some ([80, 97, 103, 101, 32, 70, 97, 117, 108, 116, 0][i]))
    (buf : Nat) (hbuf : 0xffff800000100000 ≤ buf) (hbuf' : buf + 1024 ≤ 0xffff800000a00000)
    (hdis : buf + 1024 ≤ 0xffff800000100000 + k ∨ 0xffff800000100000 + k + 11 ≤ buf) :
    Boots eb el s0 bios info p l k buf (taken el ck lk es) := by
  obtain ⟨s1, n1, h1, _, _, h2⟩ := PowerOn.C109_main eb el hb hk s0 cb lb sb chb lenb ck lk sk chk p l hl hmain hcan hfile
    bios es hrep hes info hinfo
  refine ⟨s1, n1, h1, fun s2 hs2 => ?_⟩
  obtain ⟨m, n2, g1, _, hAt, g2⟩ := h2 s2 hs2
  refine ⟨m, n2, g1, fun cpu prot hc hp => ?_⟩
  obtain ⟨cpu', c1, c2, c3, _, _, c4, _⟩ := g2 cpu prot hc hp
  refine ⟨cpu', c1, c2, c3, ?_⟩
  intro font exceptions mg e s t ham hex hmg hbt
  obtain ⟨m', n', q1, q2, _, q3⟩ := start_spec el hk s2 ck lk sk chk (PowerOn.tables_of hl hfile) hrep hes info hinfo
  have em : m = m' := by
    have := (g1 (max n2 n') (Nat.le_max_left ..)).symm.trans (q1 (max n2 n') (Nat.le_max_right ..))
    injection this with this
    injection this
  subst em
  have hck := chk.length (by omega)
  have hsz : l.image.length ≤ 0x900000 := by have := hfile.1; omega
  have hk11 : k + 10 < l.image.length := by
    have := hname 10 (by omega)
    obtain ⟨h, _⟩ := List.getElem?_eq_some_iff.1 this
    exact h
  have hacc : s.mem.Acc buf Printf.bufSize := by
    intro i hi
    have hi' : i < 1024 := hi
    rw [ham.mapped _ (by omega), show buf + i = 0xFFFF800000000000 + (buf + i - 0xFFFF800000000000) by omega,
      view_of c4 _ (by omega)]
    rfl
  have htab : ∀ i, i < 20 → E820.Holds s.mem (E820.e820Addr + 20 * i)
      (E820.image ((es ++ (List.range 20).map fun k => leftover el ck lk (es.length + k)).getD i default)) := by
    intro i hi j hj
    have hj' := hj
    rw [image_length] at hj'
    rw [show E820.e820Addr + 20 * i + j = 0xffff800000007e00 + (20 * i + j) by simp only [E820.e820Addr]; omega,
      ham.map _ (by omega),
      show 0xffff800000007e00 + (20 * i + j) = 0xFFFF800000000000 + (0x7E00 + 20 * i + j) by omega,
      view_of c4 _ (by omega), q3 i hi j hj]
  have hbyte : ∀ i (h : i < 11), s.mem (0xffff800000100000 + k + i) =
      some (UInt8.ofBitVec ([80, 97, 103, 101, 32, 70, 97, 117, 108, 116, 0][i])) := by
    intro i hi
    rw [ham.name i hi, show 0xffff800000100000 + k + i = 0xFFFF800000000000 + (0x100000 + (k + i)) by omega,
      view_of c4 _ (by omega), hAt (k + i) (by omega)]
    have := hname i hi
    rw [List.getElem?_eq_getElem (by omega)] at this
    injection this with this
    rw [this]
  have hstr : Spec.Printf.StrAt s.mem buf (buf + 1024) (0xffff800000100000 + k) BootLog.pageFaultName := by
    have hlen : BootLog.pageFaultName.length = 10 := rfl
    refine ⟨fun i h => ?_, ?_, fun i h => ?_⟩
    · rw [hlen] at h
      rw [hbyte i (by omega)]
      have := name_bytes ⟨i, h⟩
      exact ⟨congrArg some this.1, this.2⟩
    · rw [hlen, hbyte 10 (by omega)]
      rfl
    · rw [hlen] at h
      omega
  have ht : Tlb.Fresh t := by
    refine ⟨⟨fun i hi => ?_, fun i hi => ?_, fun i hi => ?_⟩, fun i f w h => ?_⟩
    · rw [ham.tables _ (by omega) (by omega)]; exact q2.l4 i hi
    · rw [ham.tables _ (by omega) (by omega)]; exact q2.l3 i hi
    · rw [ham.tables _ (by omega) (by omega)]; exact q2.l2 i hi
    · rw [ham.cached] at h
      cases h
  have := BootLog.C96_screen font buf (by omega) s hacc (.inr (by simp only [E820.e820Addr]; omega))
    (fun i => (es ++ (List.range 20).map fun k => leftover el ck lk (es.length + k)).getD i default) htab
    (by rw [entries_eq]; exact hsum) mg hmg exceptions _ hex (by omega) hstr e t ht hbt ham.black
  rw [entries_eq] at this
  exact this

theorem taken_le (e : Env) (c : Nat) (l : List Nat) (es : List E820.Entry) : (taken e c l es).length ≤ 20 := by
  have := E820.takeWhile_le E820.valid (table e c l es)
  have h : (table e c l es).length ≤ 20 := by
    unfold table
    rw [List.length_take]
    omega
  exact Nat.le_trans this h

theorem taken_eq (e : Env) (c : Nat) (l : List Nat) (es : List E820.Entry) (hlen : es.length ≤ 20)
    (hv : ∀ x ∈ es, E820.valid x = true) (hend : es.length < 20 → E820.valid (leftover e c l es.length) = false) :
    taken e c l es = es := by
  unfold taken
  by_cases c0 : es.length < 20
  · obtain ⟨r, hr⟩ := table_prefix e c l es c0
    rw [hr]
    refine takeWhile_of_all _ _ _ hv ?_
    intro x hx
    simp only [List.head?_cons, Option.some.injEq] at hx
    rw [← hx]
    exact hend c0
  · have : table e c l es = es := by
      unfold table
      rw [List.take_append, List.take_of_length_le hlen, show 20 - es.length = 0 by omega, List.take_zero,
        List.append_nil]
    rw [this]
    have := takeWhile_of_all E820.valid es [] hv (by simp)
    rwa [List.append_nil] at this

/-- C113, the good case: at most 20 entries, all of them usable, and no further one in the last sector of the kernel:
the screen shows the number of entries the BIOS reported and the megabytes of RAM in them. -/
theorem C113_bios_partial (eb el : Env) (hb : eb.Works) (hk : el.Works) (s0 : M)
    (cb : Nat) (lb : List Nat) (sb : Starts eb cb) (chb : Chain eb 0xFFF (cb :: lb)) (lenb : (cb :: lb).length ≤ 128)
    (ck : Nat) (lk : List Nat) (sk : Starts el ck) (chk : Chain el 0xFFF (ck :: lk))
    (p : Parts) (l : Linked) (hl : link p = some l) (hmain : p.main < 2 ^ 64)
    (hcan : Mode.Canonical (BitVec.ofNat 64 p.main)) (hfile : PowerOn.Holds el (ck :: lk) l.image)
    (bios : Bios) (es : List E820.Entry) (hrep : Reports bios 0 es) (hes : es.length ≤ 20)
    (hv : ∀ x ∈ es, E820.valid x = true) (hend : es.length < 20 → E820.valid (leftover el ck lk es.length) = false)
    (hsum : E820.freeSum es < 2 ^ 64)
    (info : List UInt8) (hinfo : info.length ≤ 512)
    (k : Nat) (hname : ∀ i (h : i < 11), l.image[k + i]? = some ([80, 97, 103, 101, 32, 70, 97, 117, 108, 116, 0][i]))
    (buf : Nat) (hbuf : 0xffff800000100000 ≤ buf) (hbuf' : buf + 1024 ≤ 0xffff800000a00000)
    (hdis : buf + 1024 ≤ 0xffff800000100000 + k ∨ 0xffff800000100000 + k + 11 ≤ buf) :
    Boots eb el s0 bios info p l k buf es := by
  have ht := taken_eq el ck lk es hes hv hend
  have := C113_log eb el hb hk s0 cb lb sb chb lenb ck lk sk chk p l hl hmain hcan hfile bios es hrep (by omega)
    (by rw [ht]; exact hsum) info hinfo k hname buf hbuf hbuf' hdis
  rwa [ht] at this

/-- C113 fails: if the last sector of the kernel happens to hold a usable entry behind those of the BIOS, the screen
shows more entries than the BIOS reported, the first made up one being that of the sector; if the BIOS reports more
than 20 entries, it shows fewer. -/
theorem C113_violated (eb el : Env) (hb : eb.Works) (hk : el.Works) (s0 : M)
    (cb : Nat) (lb : List Nat) (sb : Starts eb cb) (chb : Chain eb 0xFFF (cb :: lb)) (lenb : (cb :: lb).length ≤ 128)
    (ck : Nat) (lk : List Nat) (sk : Starts el ck) (chk : Chain el 0xFFF (ck :: lk))
    (p : Parts) (l : Linked) (hl : link p = some l) (hmain : p.main < 2 ^ 64)
    (hcan : Mode.Canonical (BitVec.ofNat 64 p.main)) (hfile : PowerOn.Holds el (ck :: lk) l.image)
    (bios : Bios) (es : List E820.Entry) (hrep : Reports bios 0 es) (hes : es.length ≤ 1664)
    (hv : ∀ x ∈ es, E820.valid x = true)
    (hwrong : 20 < es.length ∨ es.length < 20 ∧ E820.valid (leftover el ck lk es.length) = true)
    (hsum : E820.freeSum (taken el ck lk es) < 2 ^ 64)
    (info : List UInt8) (hinfo : info.length ≤ 512)
    (k : Nat) (hname : ∀ i (h : i < 11), l.image[k + i]? = some ([80, 97, 103, 101, 32, 70, 97, 117, 108, 116, 0][i]))
    (buf : Nat) (hbuf : 0xffff800000100000 ≤ buf) (hbuf' : buf + 1024 ≤ 0xffff800000a00000)
    (hdis : buf + 1024 ≤ 0xffff800000100000 + k ∨ 0xffff800000100000 + k + 11 ≤ buf) :
    ∃ es', Boots eb el s0 bios info p l k buf es' ∧ es'.length ≠ es.length ∧
      (es.length < 20 → ∃ r, es' = es ++ leftover el ck lk es.length :: r) := by
  refine ⟨_, C113_log eb el hb hk s0 cb lb sb chb lenb ck lk sk chk p l hl hmain hcan hfile bios es hrep hes hsum
    info hinfo k hname buf hbuf hbuf' hdis, ?_⟩
  have key : es.length < 20 → E820.valid (leftover el ck lk es.length) = true →
      ∃ r, taken el ck lk es = es ++ leftover el ck lk es.length :: r := by
    intro h1 h2
    obtain ⟨r, hr⟩ := table_prefix el ck lk es h1
    refine ⟨r.takeWhile E820.valid, ?_⟩
    unfold taken
    rw [hr, List.takeWhile_append_of_pos hv, List.takeWhile_cons_of_pos h2]
  rcases hwrong with h | ⟨h, h'⟩
  · refine ⟨?_, fun h' => absurd h (by omega)⟩
    have := taken_le el ck lk es
    omega
  · refine ⟨?_, fun _ => key h h'⟩
    obtain ⟨r, hr⟩ := key h h'
    rw [hr, List.length_append, List.length_cons]
    omega

/-- Where the name is in the image of the kernel of C109. -/
def exName : Nat := 16442

theorem exName_ok (l : Linked) (hl : link ImageSpec.exParts = some l) :
    ∀ i (h : i < 11), l.image[exName + i]? = some ([80, 97, 103, 101, 32, 70, 97, 117, 108, 116, 0][i]) := by
  have e : PowerOn.exImage = l.image := by unfold PowerOn.exImage; rw [hl]; rfl
  rw [← e]
  have : ∀ i : Fin 11, PowerOn.exImage[exName + i.val]? =
      some ([80, 97, 103, 101, 32, 70, 97, 117, 108, 116, 0][i.val]) := by decide +kernel
  intro i h
  exact this ⟨i, h⟩

/-- States `main` may start with exist. -/
example (m : Phys) (cr3 k : Nat) : ∃ s t, AtMain m cr3 k s t :=
  ⟨{ BootLog.exSt with mem := view m cr3 }, { mem := word m, tlb := fun _ => none },
    fun _ _ => rfl, fun _ _ => rfl, fun _ _ => rfl, fun _ _ _ => rfl, fun _ => rfl, fun _ _ => rfl⟩

/-- Three entries, 127 MB. -/
example : ∃ l, link ImageSpec.exParts = some l ∧
    Boots PowerOn.exBoot PowerOn.exLoad exM (exBios exMap) [1, 2, 3] ImageSpec.exParts l exName 0xffff800000110000 exMap ∧
    exMap.length = 3 ∧ E820.freeSum exMap / 2 ^ 20 = 127 := by
  have hl := link_eq _ ImageSpec.exParts_fits
  refine ⟨_, hl, ?_, rfl, by decide⟩
  exact C113_bios_partial _ _ (PowerOn.exFloppy_works _) (PowerOn.exFloppy_works _) exM 2 []
    PowerOn.exBoot_starts PowerOn.exBoot_chain (by decide) 3 (List.range' 4 40) PowerOn.exLoad_starts PowerOn.exLoad_chain
    ImageSpec.exParts _ hl (by decide) (by right; decide) (PowerOn.exLoad_holds _ hl) _ _
    (exBios_reports exMap 0 (by decide) (by decide)) (by decide) (by decide) (fun _ => by decide +kernel) (by decide)
    [1, 2, 3] (by decide) exName (exName_ok _ hl) _ (by decide) (by decide) (by decide)

/-- 21 pages of memory. -/
def exMany : List E820.Entry := (List.range 21).map fun i => ⟨BitVec.ofNat 64 (0x2000 * i), 0x1000, 1⟩

example : ∃ l es', link ImageSpec.exParts = some l ∧
    Boots PowerOn.exBoot PowerOn.exLoad exM (exBios exMany) [] ImageSpec.exParts l exName 0xffff800000110000 es' ∧
    es'.length ≠ 21 := by
  have hl := link_eq _ ImageSpec.exParts_fits
  obtain ⟨es', h1, h2, _⟩ := C113_violated _ _ (PowerOn.exFloppy_works _) (PowerOn.exFloppy_works _) exM 2 []
    PowerOn.exBoot_starts PowerOn.exBoot_chain (by decide) 3 (List.range' 4 40) PowerOn.exLoad_starts PowerOn.exLoad_chain
    ImageSpec.exParts _ hl (by decide) (by right; decide) (PowerOn.exLoad_holds _ hl) _ _
    (exBios_reports exMany 0 (by decide) (by decide)) (by decide) (by decide) (.inl (by decide)) (by decide +kernel)
    [] (by decide) exName (exName_ok _ hl) 0xffff800000110000 (by decide) (by decide) (by decide)
  exact ⟨_, es', hl, h1, h2⟩

end Verif.PowerScreen
