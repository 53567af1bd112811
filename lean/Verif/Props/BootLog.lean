import Verif.Model.BootLog
import Verif.Props.MemReport
import Verif.Props.E820
import Verif.Props.Tlb
import Verif.Props.Layout

set_option backward.isDefEq.respectTransparency false

/-! Property C96: what is on the screen when the kernel has come to rest. -/

namespace Verif.BootLog
open Verif Verif.Format Verif.Spec Verif.Spec.Printf Verif.Printf Verif.MemReport

/-! ### The lines, without the line feeds -/

/-- `init Interrupt` -/
def lineInt : List UInt8 := [105, 110, 105, 116, 32, 73, 110, 116, 101, 114, 114, 117, 112, 116]

/-- `e820 size = <n> total avalible memory = <mb>MB` -/
def lineE820 (n mb : Nat) : List UInt8 :=
  [101, 56, 50, 48, 32, 115, 105, 122, 101, 32, 61, 32] ++ dec n ++
  [32, 116, 111, 116, 97, 108, 32, 97, 118, 97, 108, 105, 98, 108, 101, 32, 109, 101, 109, 111, 114, 121, 32, 61, 32] ++ dec mb ++ [77, 66]

/-- `A::A()` -/
def lineCtor : List UInt8 := [65, 58, 58, 65, 40, 41]

/-- `*(&PDE + 2) = <v>` in hexadecimal -/
def linePde (v : Nat) : List UInt8 := [42, 40, 38, 80, 68, 69, 32, 43, 32, 50, 41, 32, 61, 32] ++ hexa false v

/-- `page read only` -/
def lineRo : List UInt8 := [112, 97, 103, 101, 32, 114, 101, 97, 100, 32, 111, 110, 108, 121]

/-- `*p = <v>` -/
def lineP (v : Nat) : List UInt8 := [42, 112, 32, 61, 32] ++ dec v

/-- `Page Fault` -/
def pageFaultName : List UInt8 := [80, 97, 103, 101, 32, 70, 97, 117, 108, 116]

/-- `Exception 14 Page Fault occured` -/
def lineExc : List UInt8 :=
  [69, 120, 99, 101, 112, 116, 105, 111, 110, 32, 49, 52, 32, 80, 97, 103, 101, 32, 70, 97, 117, 108, 116, 32, 111, 99, 99, 117, 114, 101, 100]

/-- `error_code = <n> rip = <hex> rflags = <n> cs = <n> rsp = <hex> ss = <n>` -/
def lineRegs (r : Regs) : List UInt8 :=
  [101, 114, 114, 111, 114, 95, 99, 111, 100, 101, 32, 61, 32] ++ dec r.error_code.toNat ++ [32, 114, 105, 112, 32, 61, 32] ++ hexa false r.rip.toNat ++
  [32, 114, 102, 108, 97, 103, 115, 32, 61, 32] ++ dec r.rflags.toNat ++ [32, 99, 115, 32, 61, 32] ++ dec r.cs.toNat ++
  [32, 114, 115, 112, 32, 61, 32] ++ hexa false r.rsp.toNat ++ [32, 115, 115, 32, 61, 32] ++ dec r.ss.toNat

/-- The log: five lines, and depending on `b` (the second store took effect) one or two more. -/
def log (n mb ad : Nat) (r : Regs) (b : Bool) : List (List UInt8) :=
  [lineInt, lineE820 n mb, lineCtor, linePde (0x400081 ||| ad), lineRo] ++
  (if b then [lineP 2] else [lineExc, lineRegs r])

/-- Lines as a text. -/
def text (ls : List (List UInt8)) : List (BitVec 8) := Vesa.unlines (ls.map (·.map (·.toBitVec)))

/-! ### Rendering -/

theorem renders_ul {m : Mem} {lo hi : Nat} {fmt out : List UInt8} {args : List Arg} (v : BitVec 64)
    (hr : Renders m lo hi fmt args out) :
    Renders m lo hi (37 :: 117 :: 108 :: fmt) (.i64 v :: args) (dec v.toNat ++ out) := by
  refine .dir (d := ⟨32, 0, [117], 0, 108⟩) (rest := fmt) (slen := none) (args1 := .i64 v :: args)
    (args2 := args) (by rfl) (by rfl) ?_ hr
  have := Conv.uint64 (m := m) (lo := lo) (hi := hi) (d := ⟨32, 0, [117], 0, 108⟩) (slen := none)
    (v := v) (args := args) (by decide) (by decide)
  have e : intText 32 (Dir.hex ⟨32, 0, [117], 0, 108⟩) 0 (v.toNat : Int) = dec v.toNat := by
    unfold intText
    rw [if_neg (by omega), Int.natAbs_natCast]
    simp [Dir.hex, numText, padTo]
  rw [← e]
  exact this

theorem renders_xl {m : Mem} {lo hi : Nat} {fmt out : List UInt8} {args : List Arg} (v : BitVec 64)
    (hr : Renders m lo hi fmt args out) :
    Renders m lo hi (37 :: 120 :: 108 :: fmt) (.i64 v :: args) (hexa false v.toNat ++ out) := by
  refine .dir (d := ⟨32, 0, [120], 0, 108⟩) (rest := fmt) (slen := none) (args1 := .i64 v :: args)
    (args2 := args) (by rfl) (by rfl) ?_ hr
  have := Conv.uint64 (m := m) (lo := lo) (hi := hi) (d := ⟨32, 0, [120], 0, 108⟩) (slen := none)
    (v := v) (args := args) (by decide) (by decide)
  have e : intText 32 (Dir.hex ⟨32, 0, [120], 0, 108⟩) 0 (v.toNat : Int) = hexa false v.toNat := by
    unfold intText
    rw [if_neg (by omega), Int.natAbs_natCast]
    simp [Dir.hex, numText, padTo]
  rw [← e]
  exact this

theorem renders_s {m : Mem} {lo hi : Nat} {fmt out : List UInt8} {args : List Arg} (p : Nat) (hp : p ≠ 0) (bs : List UInt8)
    (h : StrAt m lo hi p bs) (hr : Renders m lo hi fmt args out) :
    Renders m lo hi (37 :: 115 :: fmt) (.ptr p :: args) (bs ++ out) :=
  .dir (d := ⟨32, 0, [], 0, 115⟩) (rest := fmt) (slen := none) (args1 := .ptr p :: args)
    (args2 := args) (by rfl) (by rfl) (.str rfl rfl hp h) hr

theorem renders_e820 (m : Mem) (lo hi : Nat) (a b : BitVec 64) :
    Renders m lo hi fmtE820 [.i64 a, .i64 b] (lineE820 a.toNat b.toNat ++ [10]) := by
  have h := renders_lit (m := m) (lo := lo) (hi := hi) [101, 56, 50, 48, 32, 115, 105, 122, 101, 32, 61, 32] (by decide) (by decide) (renders_ul a
    (renders_lit [32, 116, 111, 116, 97, 108, 32, 97, 118, 97, 108, 105, 98, 108, 101, 32, 109, 101, 109, 111, 114, 121, 32, 61, 32] (by decide) (by decide)
    (renders_ul b (renders_lit [77, 66, 10] (by decide) (by decide) (.done (args := []))))))
  simp only [lineE820, List.append_assoc]
  exact h

theorem renders_pde (m : Mem) (lo hi : Nat) (a : BitVec 64) :
    Renders m lo hi fmtPde [.i64 a] (linePde a.toNat ++ [10]) := by
  have h := renders_lit (m := m) (lo := lo) (hi := hi) [42, 40, 38, 80, 68, 69, 32, 43, 32, 50, 41, 32, 61, 32] (by decide) (by decide) (renders_xl a
    (renders_lit [10] (by decide) (by decide) (.done (args := []))))
  simp only [linePde, List.append_assoc]
  exact h

theorem renders_p (m : Mem) (lo hi : Nat) (a : BitVec 64) :
    Renders m lo hi fmtP [.i64 a] (lineP a.toNat ++ [10]) := by
  have h := renders_lit (m := m) (lo := lo) (hi := hi) [42, 112, 32, 61, 32] (by decide) (by decide) (renders_ul a
    (renders_lit [10] (by decide) (by decide) (.done (args := []))))
  simp only [lineP, List.append_assoc]
  exact h

theorem renders_exc (m : Mem) (lo hi name : Nat) (hn : name ≠ 0) (hs : StrAt m lo hi name pageFaultName) :
    Renders m lo hi fmtExc [.i64 14#64, .ptr name] (lineExc ++ [10]) := by
  have h := renders_lit (m := m) (lo := lo) (hi := hi) [69, 120, 99, 101, 112, 116, 105, 111, 110, 32] (by decide) (by decide) (renders_ul 14#64
    (renders_lit [32] (by decide) (by decide) (renders_s name hn pageFaultName hs
    (renders_lit [32, 111, 99, 99, 117, 114, 101, 100, 10] (by decide) (by decide) (.done (args := []))))))
  exact h

theorem renders_regs (m : Mem) (lo hi : Nat) (r : Regs) :
    Renders m lo hi fmtRegs [.i64 r.error_code, .i64 r.rip, .i64 r.rflags, .i64 r.cs, .i64 r.rsp, .i64 r.ss]
      (lineRegs r ++ [10]) := by
  have h := renders_lit (m := m) (lo := lo) (hi := hi) [101, 114, 114, 111, 114, 95, 99, 111, 100, 101, 32, 61, 32] (by decide) (by decide) (renders_ul r.error_code
    (renders_lit [32, 114, 105, 112, 32, 61, 32] (by decide) (by decide) (renders_xl r.rip
    (renders_lit [32, 114, 102, 108, 97, 103, 115, 32, 61, 32] (by decide) (by decide) (renders_ul r.rflags
    (renders_lit [32, 99, 115, 32, 61, 32] (by decide) (by decide) (renders_ul r.cs
    (renders_lit [32, 114, 115, 112, 32, 61, 32] (by decide) (by decide) (renders_xl r.rsp
    (renders_lit [32, 115, 115, 32, 61, 32] (by decide) (by decide) (renders_ul r.ss
    (renders_lit [10] (by decide) (by decide) (.done (args := []))))))))))))))
  simp only [lineRegs, List.append_assoc]
  exact h

/-! ### The lines fit -/

/-- Printable, and shorter than the console is wide. -/
def Good (l : List UInt8) : Prop := l.length < 180 ∧ ∀ c ∈ l, 32 ≤ c

theorem dec_vis (n : Nat) : ∀ c ∈ dec n, (32 : UInt8) ≤ c := by
  intro c hc
  have := (Props.C08_decimal_roundtrip n 0).2.2.2 c hc
  unfold isDigit at this
  simp only [decide_eq_true_eq, UInt8.le_iff_toNat_le] at this ⊢
  have e : (48 : UInt8).toNat = 48 := rfl
  have e' : (32 : UInt8).toNat = 32 := rfl
  omega

theorem hexa_vis (n : Nat) : ∀ c ∈ hexa false n, (32 : UInt8) ≤ c := by
  induction n using Nat.strongRecOn with
  | _ n ih =>
    have hd : ∀ k, k < 16 → (32 : UInt8) ≤ byteOf (Nat.digitChar k) := by decide
    intro c hc
    by_cases h : n < 16
    · simp only [hexa, Nat.toDigits_of_lt_base h, List.map_cons, List.map_nil, List.mem_singleton] at hc
      subst hc; exact hd n h
    · have e : hexa false n = hexa false (n / 16) ++ [byteOf (Nat.digitChar (n % 16))] := by
        rw [hexa, hexa, Nat.toDigits_of_base_le (b := 16) (n := n) (by omega) (by omega)]; simp
      rw [e, List.mem_append, List.mem_singleton] at hc
      rcases hc with hc | rfl
      · exact ih (n / 16) (by omega) c hc
      · exact hd _ (Nat.mod_lt _ (by omega))

theorem dec_len (v : BitVec 64) : (dec v.toNat).length ≤ 20 :=
  ((Props.C08_decimal_roundtrip v.toNat 0).2.2.1 20 (by omega)).mpr (by have := v.isLt; omega)

theorem hexa_len (v : BitVec 64) : (hexa false v.toNat).length ≤ 16 :=
  ((Props.C08_hex_roundtrip false v.toNat 0).2.2 16 (by omega)).mpr (by have := v.isLt; omega)

theorem vis_append {a b : List UInt8} (ha : ∀ c ∈ a, (32 : UInt8) ≤ c) (hb : ∀ c ∈ b, (32 : UInt8) ≤ c) :
    ∀ c ∈ a ++ b, (32 : UInt8) ≤ c := by
  intro c hc
  rcases List.mem_append.1 hc with h | h
  · exact ha c h
  · exact hb c h

theorem good_e820 (a b : BitVec 64) : Good (lineE820 a.toNat b.toNat) := by
  have h1 := dec_len a
  have h2 := dec_len b
  refine ⟨?_, ?_⟩
  · simp only [lineE820, List.length_append, List.length_cons, List.length_nil]; omega
  · exact vis_append (vis_append (vis_append (vis_append (by decide) (dec_vis _)) (by decide)) (dec_vis _)) (by decide)

theorem good_pde (a : BitVec 64) : Good (linePde a.toNat) := by
  have h1 := hexa_len a
  refine ⟨?_, vis_append (by decide) (hexa_vis _)⟩
  simp only [linePde, List.length_append, List.length_cons, List.length_nil]; omega

theorem good_p (a : BitVec 64) : Good (lineP a.toNat) := by
  have h1 := dec_len a
  refine ⟨?_, vis_append (by decide) (dec_vis _)⟩
  simp only [lineP, List.length_append, List.length_cons, List.length_nil]; omega

theorem good_regs (r : Regs) : Good (lineRegs r) := by
  have h1 := dec_len r.error_code
  have h2 := hexa_len r.rip
  have h3 := dec_len r.rflags
  have h4 := dec_len r.cs
  have h5 := hexa_len r.rsp
  have h6 := dec_len r.ss
  refine ⟨?_, ?_⟩
  · simp only [lineRegs, List.length_append, List.length_cons, List.length_nil]; omega
  · exact vis_append (vis_append (vis_append (vis_append (vis_append (vis_append (vis_append (vis_append
      (vis_append (vis_append (vis_append (by decide) (dec_vis _)) (by decide)) (hexa_vis _)) (by decide)) (dec_vis _))
      (by decide)) (dec_vis _)) (by decide)) (hexa_vis _)) (by decide)) (dec_vis _)

/-! ### One line -/

/-- What a call of `printf` for the line `l` leaves. -/
structure Shown (font : Vesa.Font) (buf : Nat) (ls : List (List UInt8)) (s s' : St) : Prop where
  scr : s'.scr = Vesa.colorPrint font white (text ls) s.scr
  flag : IrqGuard.ifSet s'.flags = IrqGuard.ifSet s.flags
  acc : s'.mem.Acc buf bufSize
  mem : ∀ a, ¬ (buf ≤ a ∧ a < buf + 1024) → s'.mem a = s.mem a

theorem text_append (a b : List (List UInt8)) : text (a ++ b) = text a ++ text b := by
  simp [text, Vesa.unlines]

theorem Shown.trans {font : Vesa.Font} {buf : Nat} {a b : List (List UInt8)} {s1 s2 s3 : St} (h1 : Shown font buf a s1 s2)
    (h2 : Shown font buf b s2 s3) : Shown font buf (a ++ b) s1 s3 :=
  ⟨by rw [h2.scr, h1.scr, text_append, colorPrint_append], h2.flag.trans h1.flag, h2.acc,
    fun a ha => (h2.mem a ha).trans (h1.mem a ha)⟩

theorem line (font : Vesa.Font) (buf : Nat) (hb : buf ≠ 0) (s : St) (hacc : s.mem.Acc buf bufSize) (fmt : List UInt8)
    (args : List Arg) (l : List UInt8) (hr : Renders s.mem buf (buf + bufSize) fmt args (l ++ [10])) (hl : Good l) :
    ∃ n s', (∀ fuel, n ≤ fuel → printf font buf fuel (fmt ++ [0]) args s = .ok s') ∧ Shown font buf [l] s s' := by
  have hlen : (l ++ [10]).length < 1024 := by have := hl.1; simp only [List.length_append, List.length_cons, List.length_nil]; omega
  have h0 : (0 : UInt8) ∉ l ++ [10] := by
    intro h
    rcases List.mem_append.1 h with h | h
    · exact absurd (hl.2 0 h) (by decide)
    · exact absurd h (by decide)
  obtain ⟨n, s', a1, a2, a3, a4, a5⟩ := printf_step font buf hb s hacc fmt args _ hr hlen h0
  refine ⟨n, s', a1, ⟨?_, a3, a4, a5⟩⟩
  rw [a2]
  simp [text, Vesa.unlines]

theorem const_line (font : Vesa.Font) (buf : Nat) (hb : buf ≠ 0) (s : St) (hacc : s.mem.Acc buf bufSize) (l : List UInt8)
    (hl : Good l) (h37 : (37 : UInt8) ∉ l ++ [10]) :
    ∃ n s', (∀ fuel, n ≤ fuel → printf font buf fuel (l ++ [10] ++ [0]) [] s = .ok s') ∧ Shown font buf [l] s s' := by
  refine line font buf hb s hacc (l ++ [10]) [] l (renders_literal _ _ _ _ _ ?_ h37) hl
  intro h
  rcases List.mem_append.1 h with h | h
  · exact absurd (hl.2 0 h) (by decide)
  · exact absurd h (by decide)

theorem StrAt.frame {m m' : Mem} {buf p : Nat} {bs : List UInt8} (h : StrAt m buf (buf + 1024) p bs)
    (hm : ∀ a, ¬ (buf ≤ a ∧ a < buf + 1024) → m' a = m a) : StrAt m' buf (buf + 1024) p bs :=
  ⟨fun i hi => by rw [hm _ (h.2.2 i (by omega))]; exact h.1 i hi,
    by rw [hm _ (h.2.2 _ (Nat.le_refl _))]; exact h.2.1, h.2.2⟩

/-! ### The handler -/

theorem cli_flag (f : IrqGuard.RFlags) : IrqGuard.ifSet (IrqGuard.cli f) = false := by
  unfold IrqGuard.ifSet IrqGuard.cli
  rw [BitVec.getLsbD_and]
  have : (~~~0x200 : BitVec 64).getLsbD 9 = false := by decide
  rw [this, Bool.and_false]

theorem pageFault_ok (font : Vesa.Font) (buf : Nat) (hb : buf ≠ 0) (s : St) (hacc : s.mem.Acc buf bufSize)
    (exceptions : List Nat) (name : Nat) (hn : exceptions[14]? = some name) (hn0 : name ≠ 0)
    (hs : StrAt s.mem buf (buf + 1024) name pageFaultName) (e : Env) :
    ∃ n s', (∀ fuel, n ≤ fuel → pageFault font buf fuel exceptions e s = .ok s') ∧
      s'.scr = Vesa.colorPrint font white (text [lineExc, lineRegs e.regs]) s.scr ∧
      IrqGuard.ifSet s'.flags = false ∧ ∀ a, ¬ (buf ≤ a ∧ a < buf + 1024) → s'.mem a = s.mem a := by
  obtain ⟨n1, s1, a1, a2⟩ := line font buf hb { s with flags := IrqGuard.cli s.flags } hacc fmtExc _ lineExc
    (renders_exc _ _ _ name hn0 hs) ⟨by decide, by decide⟩
  obtain ⟨n2, s2, b1, b2⟩ := line font buf hb s1 a2.acc fmtRegs _ (lineRegs e.regs) (renders_regs _ _ _ _) (good_regs _)
  have h := a2.trans b2
  refine ⟨n1 + n2, s2, ?_, h.scr, h.flag.trans (cli_flag _), h.mem⟩
  intro fuel hf
  unfold pageFault faultHandler
  have : ({ e.regs with error_no := 14#64 } : Regs).error_no.toNat = 14 := rfl
  rw [this, hn]
  simp only
  rw [a1 fuel (by omega), Res.ok_bind]
  exact b1 fuel (by omega)

/-! ### The end of main -/

open Verif.Tlb in
theorem load_ok {b : Bool} {t : Tlb.St} (i : Inv b t) (va pa : Nat) (hva : va < 2 ^ 64) (h : Paging.expected va = some pa) :
    load t va = some (t.mem pa) := by
  obtain ⟨w, e, _⟩ := look_ok i va pa hva h
  unfold load
  rw [e]; rfl

open Verif.Tlb in
theorem entry_word {t : Tlb.St} (i : Inv true t) : t.mem 0x103010 = 0x400081 := by
  have h := i.tables.l2 2 (by decide)
  simp only [if_true] at h
  rw [show 0x103000 + 8 * 2 = 0x103010 from rfl, Paging.protect_entries 2 (by decide)] at h
  rw [h]; rfl

open Verif.Tlb in
theorem acts_append (t : Tlb.St) (a b : List Act) : acts t (a ++ b) = acts (acts t a) b := by
  unfold acts; rw [List.foldl_append]

open Verif.Tlb in
/-- The processor's part: both stores of `main`, the change of the entry, and what is read. -/
theorem steps_ok (t : Tlb.St) (ht : Fresh t) (e : Env)
    (hb : ∀ a ∈ e.acts1 ++ e.acts2 ++ e.acts3 ++ e.acts4 ++ e.acts5, Between a) :
    ∃ T1 T2, act (acts t e.acts1) (.store p 2) = (T1, true) ∧
      act (acts T1 e.acts2) (.clear entry 2) = (T2, true) ∧
      load (acts T2 e.acts3) entry = some 0x400081 ∧
      acts (acts T2 e.acts3) e.acts4 = upTo t 2 e.acts1 e.acts2 (e.acts3 ++ e.acts4) ∧
      ∀ T3, act (acts (acts T2 e.acts3) e.acts4) (.store p 2) = (T3, true) → load (acts T3 e.acts5) p = some 2 := by
  simp only [List.mem_append, or_imp, forall_and] at hb
  obtain ⟨⟨⟨⟨h1, h2⟩, h3⟩, h4⟩, h5⟩ := hb
  obtain ⟨iA, _⟩ := betweens_ok ht.inv e.acts1 h1
  obtain ⟨e1, i1⟩ := first_ok iA 2
  obtain ⟨iB, _⟩ := betweens_ok i1 e.acts2 h2
  obtain ⟨e2, i2⟩ := change_ok iB
  obtain ⟨iC, _⟩ := betweens_ok i2 e.acts3 h3
  obtain ⟨iD, _⟩ := betweens_ok iC e.acts4 h4
  refine ⟨_, _, Prod.ext rfl (by rw [e1]), Prod.ext rfl (by rw [e2]), ?_, ?_, ?_⟩
  · rw [load_ok iC entry 0x103010 (by decide) (by decide), entry_word iC]
  · unfold upTo; rw [acts_append]
  · intro T3 hT
    generalize acts (acts (act (acts (act (acts t e.acts1) (Act.store p 2)).fst e.acts2) (Act.clear entry 2)).fst e.acts3)
      e.acts4 = T at iD hT
    obtain ⟨w, el, _⟩ := look_ok iD p 0x400100 (by decide) (by decide)
    cases w with
    | false => simp only [act, access, el] at hT; cases hT
    | true =>
      simp only [act, access, el] at hT
      have hT3 : T3 = { T with mem := fun a => if a = 0x400100 then 2 else T.mem a } := (Prod.mk.inj hT).1.symm
      have i3 : Inv true T3 := by rw [hT3]; exact ⟨loaded_upd iD.tables _ _ (by decide), iD.cached⟩
      obtain ⟨iE, mE, _⟩ := betweens_ok i3 e.acts5 h5
      rw [load_ok iE p 0x400100 (by decide) (by decide), mE, hT3]
      rfl

/-- Whether the second store of `main` takes effect (C86): the translation of the page is cached when its
entry is changed, and is neither dropped nor reloaded since. -/
def Stale (t : Tlb.St) (e : Env) : Prop :=
  (Tlb.beforeChange t 2 e.acts1 e.acts2).tlb (Tlb.p / 4096) ≠ none ∧ ∀ a ∈ e.acts3 ++ e.acts4, Tlb.touches a = false

theorem lastPart_ok (font : Vesa.Font) (buf : Nat) (hb : buf ≠ 0) (s : St) (hacc : s.mem.Acc buf bufSize)
    (exceptions : List Nat) (name : Nat) (hn : exceptions[14]? = some name) (hn0 : name ≠ 0)
    (hs : StrAt s.mem buf (buf + 1024) name pageFaultName) (e : Env) (t : Tlb.St) (ht : Tlb.Fresh t)
    (hbt : ∀ a ∈ e.acts1 ++ e.acts2 ++ e.acts3 ++ e.acts4 ++ e.acts5, Tlb.Between a) :
    ∃ n s' b, (∀ fuel, n ≤ fuel → lastPart font buf fuel exceptions e t s = .ok (s', b)) ∧ (b = true ↔ Stale t e) ∧
      s'.scr = Vesa.colorPrint font white (text ([linePde (0x400081 ||| e.ad.toNat), lineRo] ++
        (if b then [lineP 2] else [lineExc, lineRegs e.regs]))) s.scr ∧
      IrqGuard.ifSet s'.flags = (b && IrqGuard.ifSet s.flags) ∧
      ∀ a, ¬ (buf ≤ a ∧ a < buf + 1024) → s'.mem a = s.mem a := by
  obtain ⟨T1, T2, e1, e2, e3, e4, e5⟩ := steps_ok t ht e hbt
  have hst : (Tlb.act (Tlb.acts (Tlb.acts T2 e.acts3) e.acts4) (.store Tlb.p 2)).2 = true ↔ Stale t e := by
    rw [e4]
    simp only [List.mem_append, or_imp, forall_and] at hbt
    obtain ⟨⟨⟨⟨h1, h2⟩, h3⟩, h4⟩, h5⟩ := hbt
    exact (Tlb.C86_exact t ht 2 2 e.acts1 e.acts2 (e.acts3 ++ e.acts4) h1 h2
      (by intro a ha
          rcases List.mem_append.1 ha with h | h
          · exact h3 a h
          · exact h4 a h)).2.2.1
  have ev : (BitVec.ofNat 64 0x400081 ||| e.ad).toNat = 0x400081 ||| e.ad.toNat := by
    rw [BitVec.toNat_or]; rfl
  obtain ⟨n1, s1, a1, a2⟩ := line font buf hb s hacc fmtPde [.i64 (BitVec.ofNat 64 0x400081 ||| e.ad)] _
    (renders_pde _ _ _ _) (good_pde _)
  rw [ev] at a2
  obtain ⟨n2, s2, b1, b2⟩ := const_line font buf hb s1 a2.acc lineRo ⟨by decide, by decide⟩ (by decide)
  have h12 := a2.trans b2
  rcases hx : Tlb.act (Tlb.acts (Tlb.acts T2 e.acts3) e.acts4) (.store Tlb.p 2) with ⟨T3, b⟩
  rw [hx] at hst
  cases b with
  | false =>
    obtain ⟨n3, s3, c1, c2, c3, c4⟩ := pageFault_ok font buf hb s2 b2.acc exceptions name hn hn0 (StrAt.frame hs h12.mem) e
    refine ⟨n1 + n2 + n3, s3, false, ?_, hst, ?_, c3, fun a ha => (c4 a ha).trans (h12.mem a ha)⟩
    · intro fuel hf
      unfold lastPart
      simp only [e1, e2, e3]
      rw [a1 fuel (by omega), Res.ok_bind, show fmtRo ++ [0] = lineRo ++ [10] ++ [0] from rfl, b1 fuel (by omega), Res.ok_bind]
      simp only [hx]
      rw [c1 fuel (by omega), Res.ok_bind]
    · rw [c2, h12.scr, ← colorPrint_append, ← text_append]; rfl
  | true =>
    obtain ⟨n3, s3, c1, c2⟩ := line font buf hb s2 b2.acc fmtP [.i64 (BitVec.ofNat 64 2)] _ (renders_p _ _ _ _) (good_p _)
    have h13 := h12.trans c2
    refine ⟨n1 + n2 + n3, s3, true, ?_, hst, ?_, by rw [h13.flag, Bool.true_and], h13.mem⟩
    · intro fuel hf
      unfold lastPart
      simp only [e1, e2, e3]
      rw [a1 fuel (by omega), Res.ok_bind, show fmtRo ++ [0] = lineRo ++ [10] ++ [0] from rfl, b1 fuel (by omega), Res.ok_bind]
      simp only [hx, e5 T3 hx]
      rw [c1 fuel (by omega), Res.ok_bind]
    · rw [h13.scr]; rfl

/-! ### The whole -/

/-- The entries of the memory map: those before the first one that is not valid, at most 20. -/
def entries (tab : Nat → E820.Entry) : List E820.Entry := ((List.range 20).map tab).takeWhile E820.valid

/-- C96: `main` prints exactly the log, for every memory map: the number of entries of the map, the RAM
in whole megabytes, the changed page table entry (up to the accessed and dirty bits), and then either the page
fault with the saved registers, or, if the CPU still uses the old translation, the value stored. Nothing but the
buffer of `printf` changes, and the manager knows the entries. -/
theorem C96_log (font : Vesa.Font) (buf : Nat) (hb : buf ≠ 0) (s : St) (hacc : s.mem.Acc buf bufSize)
    (hbuf : buf + 1024 ≤ E820.e820Addr ∨ E820.e820Addr + 400 ≤ buf)
    (tab : Nat → E820.Entry) (htab : ∀ i, i < 20 → E820.Holds s.mem (E820.e820Addr + 20 * i) (E820.image (tab i)))
    (hsum : E820.freeSum (entries tab) < 2 ^ 64) (mg : E820.Manager) (hmg : mg.entrys.n = 20)
    (exceptions : List Nat) (name : Nat) (hn : exceptions[14]? = some name) (hn0 : name ≠ 0)
    (hs : StrAt s.mem buf (buf + 1024) name pageFaultName) (e : Env) (t : Tlb.St) (ht : Tlb.Fresh t)
    (hbt : ∀ a ∈ e.acts1 ++ e.acts2 ++ e.acts3 ++ e.acts4 ++ e.acts5, Tlb.Between a) :
    ∃ n mg' s' b, (∀ fuel, n ≤ fuel → main font buf fuel exceptions mg e t s = .ok (mg', s', b)) ∧ (b = true ↔ Stale t e) ∧
      (List.range (E820.size mg')).map (E820.nth mg') = (entries tab).map Res.ok ∧
      s'.scr = Vesa.colorPrint font white (text (log (entries tab).length (E820.freeSum (entries tab) / 2 ^ 20) e.ad.toNat
        e.regs b)) s.scr.init ∧
      IrqGuard.ifSet s'.flags = (b && IrqGuard.ifSet s.flags) ∧
      ∀ a, ¬ (buf ≤ a ∧ a < buf + 1024) → s'.mem a = s.mem a := by
  obtain ⟨n1, s1, a1, a2⟩ := const_line font buf hb { s with scr := s.scr.init } hacc lineInt ⟨by decide, by decide⟩ (by decide)
  have htab1 : ∀ i, i < 20 → E820.Holds s1.mem (E820.e820Addr + 20 * i) (E820.image (tab i)) := by
    intro i hi j hj
    rw [a2.mem _ (by
      have : j < 20 := by simpa [E820.image, E820.bytesLE_length] using hj
      omega)]
    exact htab i hi j hj
  obtain ⟨mg', m1, m2, m3⟩ := E820.C51_any_table s1.mem tab mg hmg htab1
  have hm3 : mg'.available.toNat = E820.freeSum (entries tab) := m3 hsum
  have hsize : mg'.length.toNat = (entries tab).length := by
    have := congrArg List.length m2
    simpa [E820.size, entries] using this
  have hmb : (mg'.available / (1#64 <<< 20)).toNat = E820.freeSum (entries tab) / 2 ^ 20 := by
    rw [BitVec.toNat_udiv, hm3]; rfl
  obtain ⟨n2, s2, b1, b2⟩ := line font buf hb s1 a2.acc fmtE820 [.i64 mg'.length, .i64 (mg'.available / (1#64 <<< 20))] _
    (renders_e820 _ _ _ _ _) (good_e820 _ _)
  rw [hsize, hmb] at b2
  obtain ⟨n3, s3, c1, c2⟩ := const_line font buf hb s2 b2.acc lineCtor ⟨by decide, by decide⟩ (by decide)
  have h13 := (a2.trans b2).trans c2
  obtain ⟨n4, s4, b, d1, d2, d3, d4, d5⟩ := lastPart_ok font buf hb s3 c2.acc exceptions name hn hn0 (StrAt.frame hs h13.mem) e t ht hbt
  refine ⟨n1 + n2 + n3 + n4, mg', s4, b, ?_, d2, m2, ?_, ?_, fun a ha => (d5 a ha).trans (h13.mem a ha)⟩
  · intro fuel hf
    unfold main
    simp only
    rw [show fmtInt ++ [0] = lineInt ++ [10] ++ [0] from rfl, a1 fuel (by omega), Res.ok_bind]
    unfold e820Init
    rw [m1, Res.ok_bind, b1 fuel (by omega), Res.ok_bind, Res.ok_bind]
    simp only
    rw [show fmtCtor ++ [0] = lineCtor ++ [10] ++ [0] from rfl, c1 fuel (by omega), Res.ok_bind, d1 fuel (by omega), Res.ok_bind]
  · rw [d3, h13.scr, ← colorPrint_append, ← text_append]
    cases b <;> rfl
  · rw [d4, h13.flag]

/-- Every line of the log is printable and fits in a row. -/
theorem log_good (n mb ad : BitVec 64) (r : Regs) (b : Bool) :
    ∀ l ∈ log n.toNat mb.toNat ad.toNat r b, Good l := by
  have e0 : Good lineInt := ⟨by decide, by decide⟩
  have e2 : Good lineCtor := ⟨by decide, by decide⟩
  have e3 : Good (linePde (0x400081 ||| ad.toNat)) := by
    have := good_pde (BitVec.ofNat 64 0x400081 ||| ad)
    rw [BitVec.toNat_or] at this
    exact this
  have e4 : Good lineRo := ⟨by decide, by decide⟩
  have e5 : Good (lineP 2) := good_p 2#64
  have e6 : Good lineExc := ⟨by decide, by decide⟩
  intro l hl
  rcases List.mem_append.1 hl with h | h
  · simp only [List.mem_cons, List.not_mem_nil, or_false] at h
    rcases h with rfl | rfl | rfl | rfl | rfl
    · exact e0
    · exact good_e820 _ _
    · exact e2
    · exact e3
    · exact e4
  · cases b with
    | true => rw [if_pos rfl, List.mem_singleton] at h; rw [h]; exact e5
    | false =>
      rw [if_neg (by decide)] at h
      simp only [List.mem_cons, List.not_mem_nil, or_false] at h
      rcases h with rfl | rfl
      · exact e6
      · exact good_regs r

theorem log_length (n mb ad : Nat) (r : Regs) (b : Bool) : (log n mb ad r b).length ≤ 7 := by
  cases b <;> simp [log]

theorem plain_of_vis (u : UInt8) (h : 32 ≤ u) : Vesa.plain u.toBitVec := by
  refine ⟨fun e => ?_, fun e => ?_⟩
  · have : u = 10 := UInt8.toBitVec_inj.1 e
    subst this; exact absurd h (by decide)
  · have : u = 9 := UInt8.toBitVec_inj.1 e
    subst this; exact absurd h (by decide)

/-- The picture of a log on a blank screen, pixel by pixel: row `y / 16` shows line `y / 16`, all else is black. -/
theorem text_picture (font : Vesa.Font) (ls : List (List UInt8)) (hl : ∀ l ∈ ls, Good l) (hlen : ls.length ≤ 7)
    (s : Vesa.Screen) (hblank : ∀ p, p < 1440 * 896 → s.pix p = Vesa.black) (x y : Nat) (hx : x < 1440) (hy : y < 896) :
    (Vesa.colorPrint font white (text ls) s.init).pix (1440 * y + x) =
      if ((ls[y / 16]?.bind (·[x / 8]?)).any fun u => (font u.toBitVec (y % 16)).getLsbD (7 - x % 8)) = true
        then 0xffffff else Vesa.black := by
  have hdiv : (1440 * y + x) / 1440 = y := by omega
  have hmod : (1440 * y + x) % 1440 = x := by omega
  have h := (Vesa.C81_lines_partial font white (ls.map (·.map (·.toBitVec))) s.init ⟨rfl, rfl, by show 0 < 1440 / 8; decide⟩ rfl
    (by intro l hl'
        obtain ⟨l', h', rfl⟩ := List.mem_map.1 hl'
        refine ⟨by rw [List.length_map]; show l'.length < 1440 / 8; exact (hl l' h').1, ?_⟩
        intro c hc
        obtain ⟨u, hu, rfl⟩ := List.mem_map.1 hc
        exact plain_of_vis u ((hl l' h').2 u hu))
    (by rw [List.length_map]; show 0 + ls.length ≤ 900 / 16; omega)
    (by intro p hp _ h2
        have h2' : p / 1440 / 16 < 900 / 16 := h2
        exact hblank p (by omega))).2.2.2 (1440 * y + x) (y / 16)
    (by show (1440 * y + x) % 1440 / 8 < 1440 / 8; omega)
    (by show (1440 * y + x) / 1440 / 16 = 0 + y / 16; omega)
    (by show 0 + y / 16 < 900 / 16; omega)
  have e1 : s.init.width = 1440 := rfl
  unfold text
  rw [h]
  simp only [Vesa.glyphBit, e1, hdiv, hmod, List.getElem?_map]
  have : ((ls[y / 16]?.map (·.map (·.toBitVec))).bind (·[x / 8]?)).any (fun c => (font c (y % 16)).getLsbD (7 - x % 8)) =
      (ls[y / 16]?.bind (·[x / 8]?)).any fun u => (font u.toBitVec (y % 16)).getLsbD (7 - x % 8) := by
    cases ls[y / 16]? with
    | none => rfl
    | some l =>
      simp only [Option.map_some, Option.bind_some, List.getElem?_map]
      cases l[x / 8]? <;> rfl
  rw [this]
  rfl

/-- C96, the picture: on a blank screen, whatever the memory map, when `main` has come to rest pixel
(`x`, `y`) of the text area is white exactly if the glyph of column `x / 8` of line `y / 16` of the log has a bit there. -/
theorem C96_screen (font : Vesa.Font) (buf : Nat) (hb : buf ≠ 0) (s : St) (hacc : s.mem.Acc buf bufSize)
    (hbuf : buf + 1024 ≤ E820.e820Addr ∨ E820.e820Addr + 400 ≤ buf)
    (tab : Nat → E820.Entry) (htab : ∀ i, i < 20 → E820.Holds s.mem (E820.e820Addr + 20 * i) (E820.image (tab i)))
    (hsum : E820.freeSum (entries tab) < 2 ^ 64) (mg : E820.Manager) (hmg : mg.entrys.n = 20)
    (exceptions : List Nat) (name : Nat) (hn : exceptions[14]? = some name) (hn0 : name ≠ 0)
    (hs : StrAt s.mem buf (buf + 1024) name pageFaultName) (e : Env) (t : Tlb.St) (ht : Tlb.Fresh t)
    (hbt : ∀ a ∈ e.acts1 ++ e.acts2 ++ e.acts3 ++ e.acts4 ++ e.acts5, Tlb.Between a)
    (hblank : ∀ p, p < 1440 * 896 → s.scr.pix p = Vesa.black) :
    ∃ n mg' s' b, (∀ fuel, n ≤ fuel → main font buf fuel exceptions mg e t s = .ok (mg', s', b)) ∧ (b = true ↔ Stale t e) ∧
      ∀ x y, x < 1440 → y < 896 → s'.scr.pix (1440 * y + x) =
        if (((log (entries tab).length (E820.freeSum (entries tab) / 2 ^ 20) e.ad.toNat e.regs b)[y / 16]?.bind
          (·[x / 8]?)).any fun u => (font u.toBitVec (y % 16)).getLsbD (7 - x % 8)) = true then 0xffffff else Vesa.black := by
  obtain ⟨n, mg', s', b, h1, h2, h3, h4, _⟩ := C96_log font buf hb s hacc hbuf tab htab hsum mg hmg exceptions name hn hn0 hs
    e t ht hbt
  refine ⟨n, mg', s', b, h1, h2, ?_⟩
  intro x y hx hy
  rw [h4]
  refine text_picture font _ ?_ (log_length _ _ _ _ _) s.scr hblank x y hx hy
  have hlen : (entries tab).length ≤ 20 := by
    have := E820.takeWhile_le E820.valid ((List.range 20).map tab)
    simpa [entries] using this
  have := log_good (BitVec.ofNat 64 (entries tab).length) (BitVec.ofNat 64 (E820.freeSum (entries tab) / 2 ^ 20)) e.ad e.regs b
  rw [BitVec.toNat_ofNat, BitVec.toNat_ofNat, Nat.mod_eq_of_lt (by omega), Nat.mod_eq_of_lt (by omega)] at this
  exact this

/-! ### Example: two entries, the buffer at 4096, the name at 8192 -/

def exTab (i : Nat) : E820.Entry :=
  if i = 0 then ⟨0, 0x9fc00, 1⟩ else if i = 1 then ⟨0x100000, 0x7ee0000, 1⟩ else ⟨0, 0, 0⟩

def exSt : St :=
  { mem := fun a =>
      if 4096 ≤ a ∧ a < 5120 then some 0xAA
      else if 8192 ≤ a ∧ a < 8203 then (pageFaultName ++ [0])[a - 8192]?
      else if E820.e820Addr ≤ a ∧ a < E820.e820Addr + 400 then
        (E820.image (exTab ((a - E820.e820Addr) / 20)))[(a - E820.e820Addr) % 20]?
      else none
    scr := { pix := fun _ => 0, log := [], width := 0, height := 0, cw := 0, ch := 0, x := 3, y := 4 }
    flags := 2 }

/-- The page is written, so its translation may be cached (`acts1`). -/
def exEnv (l : List Tlb.Act) (r : Regs) : Env := ⟨l, [], [], [], [], 0x60, r⟩

theorem exSt_acc : exSt.mem.Acc 4096 bufSize := by
  intro i hi
  have hi' : i < 1024 := hi
  show (if 4096 ≤ 4096 + i ∧ 4096 + i < 5120 then some 0xAA else _).isSome = true
  rw [if_pos (by omega)]; rfl

theorem exSt_name : StrAt exSt.mem 4096 (4096 + 1024) 8192 pageFaultName := by
  have key : ∀ i, i < 11 → exSt.mem (8192 + i) = (pageFaultName ++ [0])[i]? := by
    intro i hi
    show (if 4096 ≤ 8192 + i ∧ 8192 + i < 5120 then some 0xAA else if 8192 ≤ 8192 + i ∧ 8192 + i < 8203 then
      (pageFaultName ++ [0])[8192 + i - 8192]? else _) = _
    rw [if_neg (by omega), if_pos (by omega), Nat.add_sub_cancel_left]
  have hlen : pageFaultName.length = 10 := rfl
  refine ⟨fun i h => ⟨?_, ?_⟩, ?_, fun i hi => by omega⟩
  · rw [key i (by omega), List.getElem?_append_left h, List.getElem?_eq_getElem h]
  · revert i; decide
  · rw [hlen, key 10 (by omega)]; rfl

theorem exSt_tab : ∀ i, i < 20 → E820.Holds exSt.mem (E820.e820Addr + 20 * i) (E820.image (exTab i)) := by
  intro i hi j hj
  have hj' : j < 20 := by simpa [E820.image, E820.bytesLE_length] using hj
  have he : E820.e820Addr = 18446603336221228544 := rfl
  show (if 4096 ≤ E820.e820Addr + 20 * i + j ∧ E820.e820Addr + 20 * i + j < 5120 then some 0xAA
    else if 8192 ≤ E820.e820Addr + 20 * i + j ∧ E820.e820Addr + 20 * i + j < 8203 then _
    else if E820.e820Addr ≤ E820.e820Addr + 20 * i + j ∧ E820.e820Addr + 20 * i + j < E820.e820Addr + 400 then
        (E820.image (exTab ((E820.e820Addr + 20 * i + j - E820.e820Addr) / 20)))[(E820.e820Addr + 20 * i + j - E820.e820Addr) % 20]?
    else none) = _
  rw [if_neg (by omega), if_neg (by omega), if_pos (by omega),
    show (E820.e820Addr + 20 * i + j - E820.e820Addr) / 20 = i by omega,
    show (E820.e820Addr + 20 * i + j - E820.e820Addr) % 20 = j by omega, List.getElem?_eq_getElem hj]

theorem exEnv_between (l : List Tlb.Act) (r : Regs) (h : l = [] ∨ l = [.fill Tlb.p]) :
    ∀ a ∈ (exEnv l r).acts1 ++ (exEnv l r).acts2 ++ (exEnv l r).acts3 ++ (exEnv l r).acts4 ++ (exEnv l r).acts5,
      Tlb.Between a := by
  intro a ha
  simp only [exEnv, List.append_nil] at ha
  rcases h with rfl | rfl
  · cases ha
  · rw [List.mem_singleton.1 ha]
    show Tlb.p < 2 ^ 64
    decide

/-- Two entries, 127 MB; the fault, if the CPU does not cache the translation before. -/
example (font : Vesa.Font) (r : Regs) : ∃ n mg' s', (∀ fuel, n ≤ fuel →
      main font 4096 fuel (List.replicate 32 8192) ⟨Arr.fill 20 default, 7, 7⟩ (exEnv [] r) Tlb.exSt exSt = .ok (mg', s', false)) ∧
      s'.scr = Vesa.colorPrint font white (text (log 2 127 0x60 r false)) exSt.scr.init := by
  obtain ⟨n, mg', s', b, h1, h2, _, h4, _⟩ := C96_log font 4096 (by decide) exSt exSt_acc (by decide) exTab exSt_tab (by decide)
    ⟨Arr.fill 20 default, 7, 7⟩ rfl (List.replicate 32 8192) 8192 rfl (by decide) exSt_name (exEnv [] r) Tlb.exSt Tlb.exFresh
    (exEnv_between _ _ (.inl rfl))
  have : b = false := by
    rw [← Bool.not_eq_true, h2]
    intro hst
    refine hst.1 ?_
    simp only [Tlb.beforeChange, exEnv, Tlb.acts, List.foldl_nil]
    rw [(Tlb.first_ok Tlb.exFresh.inv 2).1]
    rfl
  subst this
  exact ⟨n, mg', s', h1, h4⟩

/-- `*(&PDE + 2) = 4000e1` -/
example : linePde (0x400081 ||| 0x60) =
    [42, 40, 38, 80, 68, 69, 32, 43, 32, 50, 41, 32, 61, 32, 52, 48, 48, 48, 101, 49] := by decide

/-- `e820 size = 2 total avalible memory = 127MB` -/
example : lineE820 2 127 =
    [101, 56, 50, 48, 32, 115, 105, 122, 101, 32, 61, 32, 50, 32, 116, 111, 116, 97, 108, 32, 97, 118, 97, 108, 105, 98, 108, 101, 32, 109, 101, 109, 111, 114, 121, 32, 61, 32, 49, 50, 55, 77, 66] := by decide


end Verif.BootLog
