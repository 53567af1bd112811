import Verif.Model.IntLog
import Verif.Props.BootLog
import Verif.Props.Interrupt
import Verif.Props.Stubs

set_option backward.isDefEq.respectTransparency false

/-! Property C101: the messages about exceptions, interrupts and registrations. -/

namespace Verif.IntLog
open Verif Verif.Format Verif.Spec Verif.Spec.Printf Verif.Printf Verif.MemReport Verif.BootLog

/-! ### The texts, as they should be -/

/-- The bytes of an ASCII text. -/
def str (s : String) : List UInt8 := s.toList.map fun c => UInt8.ofNat c.toNat

/-- The names of the exceptions. -/
def vectorName : Nat → String
  | 0 => "Division by zero"
  | 1 => "Debugger"
  | 2 => "NMI"
  | 3 => "Breakpoint"
  | 4 => "Overflow"
  | 5 => "Bounds"
  | 6 => "Invalid Opcode"
  | 7 => "Coprocessor not available"
  | 8 => "Double fault"
  | 9 => "Coprocessor segment overrun"
  | 10 => "Invalid Task State Segment"
  | 11 => "Segment not present"
  | 12 => "Stack Fault"
  | 13 => "General protection fault"
  | 14 => "Page Fault"
  | 16 => "Math Fault"
  | 17 => "Alignment Check"
  | 18 => "Machine Check"
  | 19 => "SIMD Floating Point Exception"
  | _ => "Reserved"

/-- The line that names the exception. -/
def excText (n : Nat) : List UInt8 := str "Exception " ++ dec n ++ str " " ++ str (vectorName n) ++ str " occured\n"

/-- The line with the registers: error code, flags and selectors in decimal, addresses in hexadecimal. -/
def regsText (code rip rflags cs rsp ss : BitVec 64) : List UInt8 :=
  str "error_code = " ++ dec code.toNat ++ str " rip = " ++ hexa false rip.toNat ++ str " rflags = " ++ dec rflags.toNat ++
  str " cs = " ++ dec cs.toNat ++ str " rsp = " ++ hexa false rsp.toNat ++ str " ss = " ++ dec ss.toNat ++ str "\n"

/-- The report about an exception in program `c`. -/
def excReport (c : Stubs.Cpu) (n : Nat) (code : BitVec 64) : List UInt8 :=
  excText n ++ regsText code c.rip c.rflags c.cs c.rsp c.ss

/-- The report about an interrupt of program `c`. -/
def irqText (c : Stubs.Cpu) (n : Nat) : List UInt8 :=
  str "regs->rflags = " ++ hexa false c.rflags.toNat ++ str "\t" ++
  (str "regs->cs = " ++ dec c.cs.toNat ++ str "\t" ++
  (str "regs->rip = " ++ hexa false c.rip.toNat ++ str "\t" ++
  (str "regs->code = " ++ dec n ++ str "\t" ++
  (str "regs->rbp = " ++ hexa false (c.gpr .rbp).toNat ++ str "\t" ++
  (str "regs->rax = " ++ hexa false (c.gpr .rax).toNat ++ str "\t")))))

/-- What is printed when a line or a system call is registered. -/
def regText (n : Nat) (what : String) : List UInt8 := str "register " ++ dec n ++ str " " ++ str what ++ str "\n"

/-- The table of names lies in memory, outside the buffer of `printf`. -/
def NamesAt (m : Mem) (buf : Nat) (exceptions : List Nat) : Prop :=
  ∀ n (h : n < 32), ∃ p, exceptions[n]? = some p ∧ p ≠ 0 ∧ StrAt m buf (buf + 1024) p (names[n]'h)

/-! ### Printing -/

/-- What printing a text leaves. -/
structure Printed (font : Vesa.Font) (buf : Nat) (txt : List UInt8) (s s' : St) : Prop where
  scr : s'.scr = Vesa.colorPrint font white (txt.map (·.toBitVec)) s.scr
  flag : IrqGuard.ifSet s'.flags = IrqGuard.ifSet s.flags
  acc : s'.mem.Acc buf bufSize
  mem : ∀ a, ¬ (buf ≤ a ∧ a < buf + 1024) → s'.mem a = s.mem a

theorem Printed.nil {font : Vesa.Font} {buf : Nat} {s : St} (h : s.mem.Acc buf bufSize) : Printed font buf [] s s :=
  ⟨rfl, rfl, h, fun _ _ => rfl⟩

theorem Printed.trans {font : Vesa.Font} {buf : Nat} {a b : List UInt8} {s1 s2 s3 : St} (h1 : Printed font buf a s1 s2)
    (h2 : Printed font buf b s2 s3) : Printed font buf (a ++ b) s1 s3 :=
  ⟨by rw [h2.scr, h1.scr, List.map_append, colorPrint_append], h2.flag.trans h1.flag, h2.acc,
    fun a ha => (h2.mem a ha).trans (h1.mem a ha)⟩

/-- Short and without NUL. -/
def Fits (k : Nat) (l : List UInt8) : Prop := l.length ≤ k ∧ (0 : UInt8) ∉ l

instance (k : Nat) (l : List UInt8) : Decidable (Fits k l) := inferInstanceAs (Decidable (_ ∧ _))

theorem Fits.append {j k : Nat} {a b : List UInt8} (h1 : Fits j a) (h2 : Fits k b) : Fits (j + k) (a ++ b) :=
  ⟨by rw [List.length_append]; have := h1.1; have := h2.1; omega, by
    rw [List.mem_append, not_or]; exact ⟨h1.2, h2.2⟩⟩

theorem fits_dec (v : BitVec 64) : Fits 20 (dec v.toNat) := ⟨dec_len v, dec_no_nul _⟩

theorem fits_hexa (v : BitVec 64) : Fits 16 (hexa false v.toNat) :=
  ⟨hexa_len v, fun h => absurd (hexa_vis _ 0 h) (by decide)⟩

theorem print (font : Vesa.Font) (buf : Nat) (hb : buf ≠ 0) (s : St) (hacc : s.mem.Acc buf bufSize) (fmt : List UInt8)
    (args : List Arg) (txt : List UInt8) (hr : Renders s.mem buf (buf + bufSize) fmt args txt) {k : Nat}
    (hk : k < 1024) (hf : Fits k txt) :
    ∃ n s', (∀ fuel, n ≤ fuel → printf font buf fuel (fmt ++ [0]) args s = .ok s') ∧ Printed font buf txt s s' := by
  obtain ⟨n, s', a1, a2, a3, a4, a5⟩ := printf_step font buf hb s hacc fmt args _ hr (by have := hf.1; omega) hf.2
  exact ⟨n, s', a1, ⟨a2, a3, a4, a5⟩⟩

/-- A number between two texts. -/
theorem print_ul (font : Vesa.Font) (buf : Nat) (hb : buf ≠ 0) (s : St) (hacc : s.mem.Acc buf bufSize) (a b : List UInt8)
    (v : BitVec 64) (ha : Fits 100 a) (hb' : Fits 100 b) (ha' : (37 : UInt8) ∉ a) (hb'' : (37 : UInt8) ∉ b) :
    ∃ n s', (∀ fuel, n ≤ fuel → printf font buf fuel (a ++ (37 :: 117 :: 108 :: b) ++ [0]) [.i64 v] s = .ok s') ∧
      Printed font buf (a ++ dec v.toNat ++ b) s s' := by
  refine print font buf hb s hacc _ _ _ ?_ (k := 100 + 20 + 100) (by decide) ((ha.append (fits_dec v)).append hb')
  have h := renders_lit (m := s.mem) (lo := buf) (hi := buf + bufSize) a ha.2 ha' (renders_ul v
    (renders_lit b hb'.2 hb'' (.done (args := []))))
  rw [List.append_nil] at h
  rw [List.append_assoc]
  exact h

theorem print_xl (font : Vesa.Font) (buf : Nat) (hb : buf ≠ 0) (s : St) (hacc : s.mem.Acc buf bufSize) (a b : List UInt8)
    (v : BitVec 64) (ha : Fits 100 a) (hb' : Fits 100 b) (ha' : (37 : UInt8) ∉ a) (hb'' : (37 : UInt8) ∉ b) :
    ∃ n s', (∀ fuel, n ≤ fuel → printf font buf fuel (a ++ (37 :: 120 :: 108 :: b) ++ [0]) [.i64 v] s = .ok s') ∧
      Printed font buf (a ++ hexa false v.toNat ++ b) s s' := by
  refine print font buf hb s hacc _ _ _ ?_ (k := 100 + 16 + 100) (by decide) ((ha.append (fits_hexa v)).append hb')
  have h := renders_lit (m := s.mem) (lo := buf) (hi := buf + bufSize) a ha.2 ha' (renders_xl v
    (renders_lit b hb'.2 hb'' (.done (args := []))))
  rw [List.append_nil] at h
  rw [List.append_assoc]
  exact h

/-! ### Exceptions -/

theorem names_eq : ∀ n (h : n < 32), names[n]'h = str (vectorName n) := by decide +kernel

theorem names_fit : ∀ n, n < 32 → (str (vectorName n)).length ≤ 50 ∧ (0 : UInt8) ∉ str (vectorName n) := by
  decide +kernel

/-- The line of `BootLog` is this text. -/
theorem regs_text (r : Regs) : lineRegs r ++ [10] = regsText r.error_code r.rip r.rflags r.cs r.rsp r.ss := by
  have e1 : str "error_code = " = [101, 114, 114, 111, 114, 95, 99, 111, 100, 101, 32, 61, 32] := by decide +kernel
  have e2 : str " rip = " = [32, 114, 105, 112, 32, 61, 32] := by decide +kernel
  have e3 : str " rflags = " = [32, 114, 102, 108, 97, 103, 115, 32, 61, 32] := by decide +kernel
  have e4 : str " cs = " = [32, 99, 115, 32, 61, 32] := by decide +kernel
  have e5 : str " rsp = " = [32, 114, 115, 112, 32, 61, 32] := by decide +kernel
  have e6 : str " ss = " = [32, 115, 115, 32, 61, 32] := by decide +kernel
  have e7 : str "\n" = [10] := by decide +kernel
  rw [regsText, e1, e2, e3, e4, e5, e6, e7, lineRegs]

/-- The handler, for registers as they lie on the stack. -/
theorem handler_ok (font : Vesa.Font) (buf : Nat) (hb : buf ≠ 0) (s : St) (hacc : s.mem.Acc buf bufSize)
    (exceptions : List Nat) (hnm : NamesAt s.mem buf exceptions) (n : Nat) (hn : n < 32) (r : Regs)
    (hr : r.error_no = BitVec.ofNat 64 n) :
    ∃ k s', (∀ fuel, k ≤ fuel → faultHandler font buf fuel exceptions r s = .ok s') ∧
      Printed font buf (excText n ++ regsText r.error_code r.rip r.rflags r.cs r.rsp r.ss) s s' := by
  obtain ⟨p, h1, h2, h3⟩ := hnm n hn
  rw [names_eq n hn] at h3
  have en : r.error_no.toNat = n := by
    rw [hr, BitVec.toNat_ofNat]; exact Nat.mod_eq_of_lt (by omega)
  have f1 : fmtExc = str "Exception " ++ (37 :: 117 :: 108 :: (str " " ++ (37 :: 115 :: str " occured\n"))) := by
    decide +kernel
  have hx : Renders s.mem buf (buf + bufSize) fmtExc [.i64 r.error_no, .ptr p] (excText n) := by
    have h := renders_lit (m := s.mem) (lo := buf) (hi := buf + bufSize) (str "Exception ") (by decide +kernel)
      (by decide +kernel) (renders_ul r.error_no (renders_lit (str " ") (by decide +kernel) (by decide +kernel)
      (renders_s p h2 (str (vectorName n)) h3 (renders_lit (str " occured\n") (by decide +kernel) (by decide +kernel)
      (.done (args := []))))))
    rw [f1]
    rw [en, List.append_nil] at h
    simpa only [excText, List.append_assoc] using h
  have hfit : Fits (100 + 20 + 10 + 50 + 100) (excText n) := by
    refine ((((?_ : Fits 100 _).append ?_).append ?_).append ?_).append ?_
    · decide +kernel
    · rw [← en]; exact fits_dec _
    · decide +kernel
    · exact names_fit n hn
    · decide +kernel
  obtain ⟨n1, s1, a1, a2⟩ := print font buf hb s hacc fmtExc _ _ hx (by decide) hfit
  obtain ⟨n2, s2, b1, b2⟩ := line font buf hb s1 a2.acc fmtRegs _ (lineRegs r) (renders_regs _ _ _ _) (good_regs _)
  have hb2 : Printed font buf (regsText r.error_code r.rip r.rflags r.cs r.rsp r.ss) s1 s2 := by
    refine ⟨?_, b2.flag, b2.acc, b2.mem⟩
    rw [b2.scr, ← regs_text]
    simp [text, Vesa.unlines]
  refine ⟨n1 + n2, s2, ?_, a2.trans hb2⟩
  intro fuel hf
  unfold faultHandler
  rw [en, h1]
  simp only
  rw [a1 fuel (by omega), Res.ok_bind]
  exact b1 fuel (by omega)

theorem faultRegs_of {m : Stubs.W → Stubs.W} {p a b c d e f g h : Stubs.W}
    (hf : Stubs.fields m p 8 = [a, b, c, d, e, f, g, h]) : faultRegs m p = ⟨b, c, d, e, f, g, h⟩ := by
  have hf' : [m (p + BitVec.ofNat 64 0), m (p + 8), m (p + 16), m (p + 24), m (p + 32), m (p + 40), m (p + 48), m (p + 56)] =
    [a, b, c, d, e, f, g, h] := hf
  simp only [List.cons.injEq] at hf'
  obtain ⟨_, h1, h2, h3, h4, h5, h6, h7, _⟩ := hf'
  unfold faultRegs
  rw [h1, h2, h3, h4, h5, h6, h7]

theorem fault_flags (c : Stubs.Cpu) (e : Stubs.Entry) (n : Nat) (ra : Stubs.W) :
    IrqGuard.ifSet (Stubs.fault c e n ra).rflags = false := by
  have key : ∀ (x : Stubs.Cpu) (l : List Stubs.Instr), (∀ i ∈ l, (∃ v, i = .pushImm v) ∨ ∃ r, i = .push r) →
      (Stubs.exec x l).rflags = x.rflags := by
    intro x l
    induction l generalizing x with
    | nil => intro _; rfl
    | cons i l ih =>
      intro h
      show (Stubs.exec (Stubs.step x i) l).rflags = _
      rw [ih _ (fun j hj => h j (List.mem_cons_of_mem _ hj))]
      rcases h i (by simp) with ⟨v, rfl⟩ | ⟨r, rfl⟩ <;> rfl
  have h1 : ∃ l, Stubs.isrBefore n = .cli :: l ∧ ∀ i ∈ l, (∃ v, i = .pushImm v) ∨ ∃ r, i = .push r := by
    unfold Stubs.isrBefore
    split <;> exact ⟨_, rfl, by simp [Stubs.createIsr, Stubs.createIsrDummy]⟩
  obtain ⟨l, e1, e2⟩ := h1
  have : (Stubs.fault c e n ra).rflags = IrqGuard.cli (Stubs.deliver c e).rflags := by
    show (Stubs.exec (Stubs.deliver c e) (Stubs.isrBefore n)).rflags = _
    rw [e1]
    exact key _ l e2
  rw [this]
  exact cli_flag _

/-- C101, exceptions (all vectors but 17, 21, 29 and 30): the report names the vector and shows the error code
the CPU delivered (0 if there is none) and rip, rflags, cs, rsp and ss of the interrupted program, whatever they are.
Interrupts stay off, and memory outside the buffer of `printf` is unchanged. -/
theorem C101_exception_partial (font : Vesa.Font) (buf : Nat) (hb : buf ≠ 0) (s : St) (hacc : s.mem.Acc buf bufSize)
    (exceptions : List Nat) (hnm : NamesAt s.mem buf exceptions) (c : Stubs.Cpu) (e : Stubs.Entry) (n : Nat) (hn : n < 32)
    (ra : Stubs.W) (he : e.errorCode.isSome = Stubs.hasErrorCode n) (hx : n ∉ [17, 21, 29, 30]) :
    ∃ k s', (∀ fuel, k ≤ fuel → exception font buf fuel exceptions c e n ra s = .ok s') ∧
      s'.scr = Vesa.colorPrint font white ((excReport c n (e.errorCode.getD 0)).map (·.toBitVec)) s.scr ∧
      IrqGuard.ifSet s'.flags = false ∧ ∀ a, ¬ (buf ≤ a ∧ a < buf + 1024) → s'.mem a = s.mem a := by
  have hr := faultRegs_of (Stubs.C55_fault_partial c e n ra he hx)
  obtain ⟨k, s', a1, a2⟩ := handler_ok font buf hb { s with flags := (Stubs.fault c e n ra).rflags } hacc exceptions hnm n hn
    (faultRegs (Stubs.fault c e n ra).mem ((Stubs.fault c e n ra).rsp + 8)) (by rw [hr])
  refine ⟨k, s', a1, ?_, a2.flag.trans (fault_flags c e n ra), a2.mem⟩
  rw [a2.scr, hr]
  rfl

/-! ### Reports are unambiguous -/

theorem split_at {a b x y : List UInt8} (ha : ∀ c ∈ a, c ≠ 32) (hb : ∀ c ∈ b, c ≠ 32) (h : a ++ 32 :: x = b ++ 32 :: y) :
    a = b ∧ x = y := by
  induction a generalizing b with
  | nil =>
    cases b with
    | nil => simp only [List.nil_append, List.cons.injEq, true_and] at h; exact ⟨rfl, h⟩
    | cons d b =>
      simp only [List.nil_append, List.cons_append, List.cons.injEq] at h
      exact absurd h.1.symm (hb d (by simp))
  | cons d a ih =>
    cases b with
    | nil =>
      simp only [List.nil_append, List.cons_append, List.cons.injEq] at h
      exact absurd h.1 (ha d (by simp))
    | cons d' b =>
      simp only [List.cons_append, List.cons.injEq] at h
      obtain ⟨h1, h2⟩ := ih (fun c hc => ha c (by simp [hc])) (fun c hc => hb c (by simp [hc])) h.2
      exact ⟨by rw [h.1, h1], h2⟩

theorem dec_digits (n : Nat) : ∀ c ∈ dec n, c ≠ 32 := by
  rintro c hc rfl
  exact absurd ((Props.C08_decimal_roundtrip n 0).2.2.2 32 hc) (by decide)

theorem hexa_digits (n : Nat) : ∀ c ∈ hexa false n, c ≠ 32 := by
  induction n using Nat.strongRecOn with
  | _ n ih =>
    have hd : ∀ k, k < 16 → byteOf (Nat.digitChar k) ≠ 32 := by decide
    intro c hc
    by_cases h : n < 16
    · simp only [hexa, Nat.toDigits_of_lt_base h, List.map_cons, List.map_nil, List.mem_singleton] at hc
      subst hc; exact hd n h
    · have e : hexa false n = hexa false (n / 16) ++ [byteOf (Nat.digitChar (n % 16))] := by
        rw [hexa, hexa, Nat.toDigits_of_base_le (b := 16) (n := n) (by omega) (by omega)]; simp
      rw [e, List.mem_append, List.mem_singleton] at hc
      rcases hc with hc | rfl
      · exact ih (n / 16) (by omega) c hc
      · exact hd _ (Nat.mod_lt _ (by omega))

theorem dec_inj {a b : BitVec 64} (h : dec a.toNat = dec b.toNat) : a = b := by
  apply BitVec.eq_of_toNat_eq
  rw [← (Props.C08_decimal_roundtrip a.toNat 0).1, h, (Props.C08_decimal_roundtrip b.toNat 0).1]

theorem hexa_inj {a b : BitVec 64} (h : hexa false a.toNat = hexa false b.toNat) : a = b := by
  apply BitVec.eq_of_toNat_eq
  rw [← (Props.C08_hex_roundtrip false a.toNat 0).1, h, (Props.C08_hex_roundtrip false b.toNat 0).1]

/-- The line determines the six values. -/
theorem regsText_inj {a b c d e f a' b' c' d' e' f' : BitVec 64}
    (h : regsText a b c d e f = regsText a' b' c' d' e' f') : a = a' ∧ b = b' ∧ c = c' ∧ d = d' ∧ e = e' ∧ f = f' := by
  rw [← regs_text ⟨0, a, b, d, c, e, f⟩, ← regs_text ⟨0, a', b', d', c', e', f'⟩, List.append_left_inj] at h
  simp only [lineRegs, List.append_assoc, List.cons_append, List.nil_append, List.cons.injEq, true_and] at h
  obtain ⟨h1, h⟩ := split_at (dec_digits _) (dec_digits _) h
  simp only [List.cons.injEq, true_and] at h
  obtain ⟨h2, h⟩ := split_at (hexa_digits _) (hexa_digits _) h
  simp only [List.cons.injEq, true_and] at h
  obtain ⟨h3, h⟩ := split_at (dec_digits _) (dec_digits _) h
  simp only [List.cons.injEq, true_and] at h
  obtain ⟨h4, h⟩ := split_at (dec_digits _) (dec_digits _) h
  simp only [List.cons.injEq, true_and] at h
  obtain ⟨h5, h⟩ := split_at (hexa_digits _) (hexa_digits _) h
  simp only [List.cons.injEq, true_and] at h
  exact ⟨dec_inj h1, hexa_inj h2, dec_inj h3, dec_inj h4, hexa_inj h5, dec_inj h⟩

/-- C101 fails for vectors 17, 21, 29 and 30, for which the CPU delivers an error code: the report always shows error
code 0, the error code as `rip`, `rip` as `cs`, `cs` as `rflags`, `rflags` as `rsp` and `rsp` as `ss`. It is wrong for
every error code other than 0, and for every address other than 0 at which the exception happened. -/
theorem C101_violated_vectors (font : Vesa.Font) (buf : Nat) (hb : buf ≠ 0) (s : St) (hacc : s.mem.Acc buf bufSize)
    (exceptions : List Nat) (hnm : NamesAt s.mem buf exceptions) (c : Stubs.Cpu) (e : Stubs.Entry) (n : Nat)
    (ra code : Stubs.W) (he : e.errorCode = some code) (hx : n ∈ [17, 21, 29, 30]) :
    ∃ k s' txt, (∀ fuel, k ≤ fuel → exception font buf fuel exceptions c e n ra s = .ok s') ∧
      s'.scr = Vesa.colorPrint font white (txt.map (·.toBitVec)) s.scr ∧
      txt = excText n ++ regsText 0 code c.cs c.rip c.rflags c.rsp ∧
      (code ≠ 0 ∨ c.rip ≠ 0 → txt ≠ excReport c n code) := by
  have hn : n < 32 := by
    simp only [List.mem_cons, List.not_mem_nil, or_false] at hx; omega
  have hr := faultRegs_of (Stubs.C55_violated_fault c e n ra code he hx).1
  obtain ⟨k, s', a1, a2⟩ := handler_ok font buf hb { s with flags := (Stubs.fault c e n ra).rflags } hacc exceptions hnm n hn
    (faultRegs (Stubs.fault c e n ra).mem ((Stubs.fault c e n ra).rsp + 8)) (by rw [hr])
  refine ⟨k, s', _, a1, a2.scr, by rw [hr], ?_⟩
  intro hne heq
  rw [hr] at heq
  obtain ⟨h1, h2, _⟩ := regsText_inj (List.append_cancel_left heq)
  rcases hne with h | h
  · exact h h1.symm
  · exact h (by rw [← h2, ← h1])

/-! ### Interrupts -/

theorem frame_words {m : Stubs.W → Stubs.W} {p : Stubs.W} {c : Stubs.Cpu} {n : Nat}
    (h : Stubs.fields m p 21 = Stubs.frame c n) :
    m (p + 144) = c.rflags ∧ m (p + 136) = c.cs ∧ m (p + 128) = c.rip ∧ m (p + 120) = BitVec.ofNat 64 n ∧
      m (p + 112) = c.gpr .rbp ∧ m p = c.gpr .rax := by
  have k : ∀ i, i < 21 → some (m (p + BitVec.ofNat 64 (8 * i))) = (Stubs.frame c n)[i]? := by
    intro i hi
    rw [← h]
    simp [Stubs.fields, hi]
  have k0 := k 0 (by decide)
  have k14 := k 14 (by decide)
  have k15 := k 15 (by decide)
  have k16 := k 16 (by decide)
  have k17 := k 17 (by decide)
  have k18 := k 18 (by decide)
  rw [show p + BitVec.ofNat 64 (8 * 0) = p from BitVec.add_zero p] at k0
  exact ⟨Option.some.inj k18, Option.some.inj k17, Option.some.inj k16, Option.some.inj k15, Option.some.inj k14,
    Option.some.inj k0⟩

theorem fmt_texts :
    fmtRegIrq = str "register " ++ (37 :: 117 :: 108 :: (str " " ++ str "irq" ++ str "\n")) ∧
    fmtRegSys = str "register " ++ (37 :: 117 :: 108 :: (str " " ++ str "syscall" ++ str "\n")) ∧
    fmtRflags = str "regs->rflags = " ++ (37 :: 120 :: 108 :: str "\t") ∧
    fmtCs = str "regs->cs = " ++ (37 :: 117 :: 108 :: str "\t") ∧
    fmtRip = str "regs->rip = " ++ (37 :: 120 :: 108 :: str "\t") ∧
    fmtCode = str "regs->code = " ++ (37 :: 117 :: 108 :: str "\t") ∧
    fmtRbp = str "regs->rbp = " ++ (37 :: 120 :: 108 :: str "\t") ∧
    fmtRax = str "regs->rax = " ++ (37 :: 120 :: 108 :: str "\t") := by
  decide +kernel

theorem triggerIrq_ok (font : Vesa.Font) (buf : Nat) (hb : buf ≠ 0) (s : St) (hacc : s.mem.Acc buf bufSize)
    (t : Interrupt.Tables) (m : Stubs.W → Stubs.W) (regs : Stubs.W) (c : Stubs.Cpu) (n : Nat) (hn : n < 16)
    (hm : Stubs.fields m regs 21 = Stubs.frame c n) (ev : List Interrupt.Event) (ht : Interrupt.triggerIrq t n = .ok ev) :
    ∃ k s', (∀ fuel, k ≤ fuel → triggerIrq font buf fuel t m regs s = .ok (ev, s')) ∧ Printed font buf (irqText c n) s s' := by
  obtain ⟨m1, m2, m3, m4, m5, m6⟩ := frame_words hm
  obtain ⟨-, -, f1, f2, f3, f4, f5, f6⟩ := fmt_texts
  have en : (BitVec.ofNat 64 n).toNat = n := by
    rw [BitVec.toNat_ofNat]; exact Nat.mod_eq_of_lt (by omega)
  obtain ⟨k1, s1, a1, b1⟩ := print_xl font buf hb s hacc (str "regs->rflags = ") (str "\t") c.rflags (by decide +kernel)
    (by decide +kernel) (by decide +kernel) (by decide +kernel)
  obtain ⟨k2, s2, a2, b2⟩ := print_ul font buf hb s1 b1.acc (str "regs->cs = ") (str "\t") c.cs (by decide +kernel)
    (by decide +kernel) (by decide +kernel) (by decide +kernel)
  obtain ⟨k3, s3, a3, b3⟩ := print_xl font buf hb s2 b2.acc (str "regs->rip = ") (str "\t") c.rip (by decide +kernel)
    (by decide +kernel) (by decide +kernel) (by decide +kernel)
  obtain ⟨k4, s4, a4, b4⟩ := print_ul font buf hb s3 b3.acc (str "regs->code = ") (str "\t") (BitVec.ofNat 64 n)
    (by decide +kernel) (by decide +kernel) (by decide +kernel) (by decide +kernel)
  obtain ⟨k5, s5, a5, b5⟩ := print_xl font buf hb s4 b4.acc (str "regs->rbp = ") (str "\t") (c.gpr .rbp) (by decide +kernel)
    (by decide +kernel) (by decide +kernel) (by decide +kernel)
  obtain ⟨k6, s6, a6, b6⟩ := print_xl font buf hb s5 b5.acc (str "regs->rax = ") (str "\t") (c.gpr .rax) (by decide +kernel)
    (by decide +kernel) (by decide +kernel) (by decide +kernel)
  rw [en] at b4
  refine ⟨k1 + k2 + k3 + k4 + k5 + k6, s6, ?_, b1.trans (b2.trans (b3.trans (b4.trans (b5.trans b6))))⟩
  intro fuel hf
  unfold triggerIrq
  rw [m1, m2, m3, m4, m5, m6, en, f1, f2, f3, f4, f5, f6]
  rw [a1 fuel (by omega), Res.ok_bind, a2 fuel (by omega), Res.ok_bind, a3 fuel (by omega), Res.ok_bind,
    a4 fuel (by omega), Res.ok_bind, a5 fuel (by omega), Res.ok_bind, a6 fuel (by omega), Res.ok_bind, ht, Res.ok_bind]

theorem disable_flag (f : IrqGuard.RFlags) : IrqGuard.ifSet (IrqGuard.disableHwint f).2 = false := cli_flag f

theorem irq_ok (font : Vesa.Font) (buf : Nat) (hb : buf ≠ 0) (s : St) (hacc : s.mem.Acc buf bufSize)
    (t : Interrupt.Tables) (c : Stubs.Cpu) (e : Stubs.Entry) (n : Nat) (hn : n < 16) (ra : Stubs.W)
    (he : e.errorCode = none) (ev : List Interrupt.Event) (ht : Interrupt.triggerIrq t n = .ok ev) :
    ∃ k s', (∀ fuel, k ≤ fuel → irq font buf fuel t c e n ra s =
        .ok ((if n ≥ 8 then [.out 0xA0 0x20] else []) ++ [.out 0x20 0x20] ++ ev, s')) ∧
      s'.scr = Vesa.colorPrint font white ((irqText c n).map (·.toBitVec)) s.scr ∧
      IrqGuard.ifSet s'.flags = false ∧ s'.mem.Acc buf bufSize ∧
      ∀ a, ¬ (buf ≤ a ∧ a < buf + 1024) → s'.mem a = s.mem a := by
  obtain ⟨h1, h2, _⟩ := Stubs.C55_irq_sees c e n ra he
  have en : (BitVec.ofNat 64 n).toNat = n := by
    rw [BitVec.toNat_ofNat]; exact Nat.mod_eq_of_lt (by omega)
  have m4 := (frame_words h1).2.2.2.1
  change _ = false at h2
  generalize hx : Stubs.irqEntry c e n ra = x at h1 h2 m4
  obtain ⟨k, s', a1, a2⟩ := triggerIrq_ok font buf hb { s with flags := (IrqGuard.disableHwint x.rflags).2 } hacc t x.mem
    (x.gpr .rdi) c n hn h1 ev ht
  refine ⟨k, { s' with flags := IrqGuard.enableHwint (IrqGuard.disableHwint x.rflags).1 }, ?_, a2.scr, ?_, a2.acc, a2.mem⟩
  · intro fuel hf
    show irqHandler font buf fuel t (Stubs.irqEntry c e n ra).mem ((Stubs.irqEntry c e n ra).gpr .rdi)
      { s with flags := (Stubs.irqEntry c e n ra).rflags } = _
    rw [hx]
    unfold irqHandler
    simp only [m4, en]
    rw [a1 fuel hf, Res.ok_bind]
  · exact (IrqGuard.ifSet_restore x.rflags).trans h2

/-- C101, interrupts: for every interrupted program and every line, in every state of the registry, the report shows
rflags, cs, rip, rbp and rax of that program and the number of the line; then the handler registered for the line is
called, after the end of the interrupt has been signalled to the controllers. Interrupts stay off, and memory outside the
buffer of `printf` is unchanged. -/
theorem C101_interrupt (font : Vesa.Font) (buf : Nat) (hb : buf ≠ 0) (s : St) (hacc : s.mem.Acc buf bufSize)
    (t : Interrupt.Tables) (r : Interrupt.Reg) (hs : Interrupt.Sim t r) (c : Stubs.Cpu) (e : Stubs.Entry) (n : Nat)
    (hn : n < 16) (ra : Stubs.W) (he : e.errorCode = none) :
    ∃ k s', (∀ fuel, k ≤ fuel → irq font buf fuel t c e n ra s =
        .ok ((if n ≥ 8 then [.out 0xA0 0x20] else []) ++ [.out 0x20 0x20] ++
          (r.irq n).elim [] (fun (h, d) => [.callIrq h n d]), s')) ∧
      s'.scr = Vesa.colorPrint font white ((irqText c n).map (·.toBitVec)) s.scr ∧
      IrqGuard.ifSet s'.flags = false ∧ ∀ a, ¬ (buf ≤ a ∧ a < buf + 1024) → s'.mem a = s.mem a := by
  obtain ⟨t', e1, _⟩ := Interrupt.sim_step hs (.trigIrq n) hn
  have ht : Interrupt.triggerIrq t n = .ok ((r.irq n).elim [] fun (h, d) => [.callIrq h n d]) := by
    rcases h : Interrupt.triggerIrq t n with l | _ | _
    · simp only [Interrupt.step, Interrupt.Reg.step, h, Res.ok_bind, Res.ok.injEq, Prod.mk.injEq, Interrupt.Out.calls.injEq] at e1
      rw [e1.2]
    · simp only [Interrupt.step, h] at e1; cases e1
    · simp only [Interrupt.step, h] at e1; cases e1
  obtain ⟨k, s', a1, a2, a3, _, a5⟩ := irq_ok font buf hb s hacc t c e n hn ra he _ ht
  exact ⟨k, s', a1, a2, a3, a5⟩

/-! ### Histories -/

/-- The use of the registry (C52) in an operation. -/
def Op.abs : Op → Interrupt.Op
  | .regIrq i h d => .regIrq i.toNat h d
  | .unregIrq i h => .unregIrq i.toNat h
  | .regSys i h => .regSys i.toNat h
  | .unregSys i h => .unregSys i.toNat h
  | .irq _ _ n _ => .trigIrq n

/-- What an operation should print in registry `r`; an unregistration prints nothing if it succeeds. -/
def says (r : Interrupt.Reg) : Op → List UInt8
  | .regIrq i _ _ => if i.toNat < 16 ∧ r.irq i.toNat = none then regText i.toNat "irq" else []
  | .regSys i _ => if i.toNat < 10 ∧ r.sys i.toNat = none then regText i.toNat "syscall" else []
  | .unregIrq _ _ => []
  | .unregSys _ _ => []
  | .irq c _ n _ => irqText c n

/-- What an operation should return or do. -/
def does (r : Interrupt.Reg) : Op → Bool ⊕ List Interrupt.Event
  | .regIrq i _ _ => .inl (decide (i.toNat < 16) && (r.irq i.toNat).isNone)
  | .regSys i _ => .inl (decide (i.toNat < 10) && (r.sys i.toNat).isNone)
  | .unregIrq _ _ => .inl true
  | .unregSys _ _ => .inl true
  | .irq _ _ n _ => .inr ((if n ≥ 8 then [.out 0xA0 0x20] else []) ++ [.out 0x20 0x20] ++
      (r.irq n).elim [] (fun (h, d) => [.callIrq h n d]))

/-- The operations considered: interrupts come on one of the 16 lines, and only what is registered is unregistered. -/
def Fair (r : Interrupt.Reg) : Op → Prop
  | .unregIrq i h => i.toNat < 16 ∧ (r.irq i.toNat).elim 0 Prod.fst = h
  | .unregSys i h => i.toNat < 10 ∧ (r.sys i.toNat).elim 0 id = h
  | .irq _ e n _ => n < 16 ∧ e.errorCode = none
  | _ => True

/-- All operations of a history. -/
def AllFair (r : Interrupt.Reg) : List Op → Prop
  | [] => True
  | o :: os => Fair r o ∧ AllFair (r.step o.abs).1 os

/-- The text of a history. -/
def log (r : Interrupt.Reg) : List Op → List UInt8
  | [] => []
  | o :: os => says r o ++ log (r.step o.abs).1 os

/-- The results of a history. -/
def results (r : Interrupt.Reg) : List Op → List (Bool ⊕ List Interrupt.Event)
  | [] => []
  | o :: os => does r o :: results (r.step o.abs).1 os

/-- The registry after a history. -/
def after (r : Interrupt.Reg) : List Op → Interrupt.Reg
  | [] => r
  | o :: os => after (r.step o.abs).1 os

/-- What a use of the registry returns, from its simulation. -/
theorem sim_ret {x : Res (Interrupt.Tables × Bool)} {t' : Interrupt.Tables} {b : Bool}
    (h : (do let (t, b) ← x; Res.ok (t, Interrupt.Out.ret b)) = .ok (t', .ret b)) : x = .ok (t', b) := by
  rcases x with ⟨u, c⟩ | _ | _
  · simp only [Res.ok_bind, Res.ok.injEq, Prod.mk.injEq, Interrupt.Out.ret.injEq] at h
    rw [h.1, h.2]
  · cases h
  · cases h

theorem step_ok (font : Vesa.Font) (buf : Nat) (hb : buf ≠ 0) (s : St) (hacc : s.mem.Acc buf bufSize)
    (t : Interrupt.Tables) (r : Interrupt.Reg) (hs : Interrupt.Sim t r) (o : Op) (ho : Fair r o) :
    ∃ k t' s', (∀ fuel, k ≤ fuel → step font buf fuel t s o = .ok (t', s', does r o)) ∧
      Interrupt.Sim t' (r.step o.abs).1 ∧ Printed font buf (says r o) s s' := by
  obtain ⟨f1, f2, -⟩ := fmt_texts
  cases o with
  | regIrq i h d =>
    obtain ⟨t', e1, e2⟩ := Interrupt.sim_step hs (.regIrq i.toNat h d) trivial
    by_cases c : i.toNat < 16 ∧ r.irq i.toNat = none
    · obtain ⟨k, s', a1, a2⟩ := print_ul font buf hb s hacc (str "register ") (str " " ++ str "irq" ++ str "\n") i
        (by decide +kernel) (by decide +kernel) (by decide +kernel) (by decide +kernel)
      have er : (r.step (.regIrq i.toNat h d)).2 = .ret true := by simp only [Interrupt.Reg.step, if_pos c]
      rw [er] at e1
      have e1 := sim_ret e1
      refine ⟨k, t', s', ?_, e2, ?_⟩
      · intro fuel hf
        simp only [step, registerIrq, e1, Res.ok_bind, if_true, f1]
        rw [a1 fuel hf, Res.ok_bind, Res.ok_bind]
        simp [does, c.1, c.2]
      · simp only [says, if_pos c, regText]
        simpa only [List.append_assoc] using a2
    · have er : (r.step (.regIrq i.toNat h d)).2 = .ret false := by simp only [Interrupt.Reg.step, if_neg c]
      rw [er] at e1
      have e1 := sim_ret e1
      refine ⟨0, t', s, ?_, e2, ?_⟩
      · intro fuel _
        simp only [step, registerIrq, e1, Res.ok_bind, Bool.false_eq_true, if_false, does]
        have : (decide (i.toNat < 16) && (r.irq i.toNat).isNone) = false := by
          rw [Bool.eq_false_iff]; intro hh
          simp only [Bool.and_eq_true, decide_eq_true_eq, Option.isNone_iff_eq_none] at hh
          exact c hh
        rw [this]
      · simp only [says, if_neg c]; exact Printed.nil hacc
  | regSys i h =>
    obtain ⟨t', e1, e2⟩ := Interrupt.sim_step hs (.regSys i.toNat h) trivial
    by_cases c : i.toNat < 10 ∧ r.sys i.toNat = none
    · obtain ⟨k, s', a1, a2⟩ := print_ul font buf hb s hacc (str "register ") (str " " ++ str "syscall" ++ str "\n") i
        (by decide +kernel) (by decide +kernel) (by decide +kernel) (by decide +kernel)
      have er : (r.step (.regSys i.toNat h)).2 = .ret true := by simp only [Interrupt.Reg.step, if_pos c]
      rw [er] at e1
      have e1 := sim_ret e1
      refine ⟨k, t', s', ?_, e2, ?_⟩
      · intro fuel hf
        simp only [step, registerSys, e1, Res.ok_bind, if_true, f2]
        rw [a1 fuel hf, Res.ok_bind, Res.ok_bind]
        simp [does, c.1, c.2]
      · simp only [says, if_pos c, regText]
        simpa only [List.append_assoc] using a2
    · have er : (r.step (.regSys i.toNat h)).2 = .ret false := by simp only [Interrupt.Reg.step, if_neg c]
      rw [er] at e1
      have e1 := sim_ret e1
      refine ⟨0, t', s, ?_, e2, ?_⟩
      · intro fuel _
        simp only [step, registerSys, e1, Res.ok_bind, Bool.false_eq_true, if_false, does]
        have : (decide (i.toNat < 10) && (r.sys i.toNat).isNone) = false := by
          rw [Bool.eq_false_iff]; intro hh
          simp only [Bool.and_eq_true, decide_eq_true_eq, Option.isNone_iff_eq_none] at hh
          exact c hh
        rw [this]
      · simp only [says, if_neg c]; exact Printed.nil hacc
  | unregIrq i h =>
    obtain ⟨t', e1, e2⟩ := Interrupt.sim_step hs (.unregIrq i.toNat h) trivial
    have er : (r.step (.unregIrq i.toNat h)).2 = .ret true := by
      simp only [Fair] at ho
      simp only [Interrupt.Reg.step]; rw [if_pos ho]
    rw [er] at e1
    have e1 := sim_ret e1
    refine ⟨0, t', s, ?_, e2, Printed.nil hacc⟩
    intro fuel _
    simp only [step, unregisterIrq, e1, Res.ok_bind, if_true, does]
  | unregSys i h =>
    obtain ⟨t', e1, e2⟩ := Interrupt.sim_step hs (.unregSys i.toNat h) trivial
    have er : (r.step (.unregSys i.toNat h)).2 = .ret true := by
      simp only [Fair] at ho
      simp only [Interrupt.Reg.step]; rw [if_pos ho]
    rw [er] at e1
    have e1 := sim_ret e1
    refine ⟨0, t', s, ?_, e2, Printed.nil hacc⟩
    intro fuel _
    simp only [step, unregisterSys, e1, Res.ok_bind, if_true, does]
  | irq c e n ra =>
    obtain ⟨t', e1, _⟩ := Interrupt.sim_step hs (.trigIrq n) ho.1
    have ht : Interrupt.triggerIrq t n = .ok ((r.irq n).elim [] fun (h, d) => [.callIrq h n d]) := by
      rcases h : Interrupt.triggerIrq t n with l | _ | _
      · simp only [Interrupt.step, Interrupt.Reg.step, h, Res.ok_bind, Res.ok.injEq, Prod.mk.injEq,
          Interrupt.Out.calls.injEq] at e1
        rw [e1.2]
      · simp only [Interrupt.step, h] at e1; cases e1
      · simp only [Interrupt.step, h] at e1; cases e1
    obtain ⟨k, s', a1, a2, _, a4, a5⟩ := irq_ok font buf hb s hacc t c e n ho.1 ra ho.2 _ ht
    refine ⟨k, t, { s' with flags := s.flags }, ?_, hs, ⟨a2, rfl, a4, a5⟩⟩
    intro fuel hf
    simp only [step]
    rw [a1 fuel hf, Res.ok_bind]
    rfl

theorem run_ok (font : Vesa.Font) (buf : Nat) (hb : buf ≠ 0) (os : List Op) :
    ∀ (s : St) (_ : s.mem.Acc buf bufSize) (t : Interrupt.Tables) (r : Interrupt.Reg) (_ : Interrupt.Sim t r)
      (_ : AllFair r os),
    ∃ k t' s', (∀ fuel, k ≤ fuel → run font buf fuel t s os = .ok (t', s', results r os)) ∧
      Interrupt.Sim t' (after r os) ∧ Printed font buf (log r os) s s' := by
  induction os with
  | nil => intro s hacc t r hs _; exact ⟨0, t, s, fun _ _ => rfl, hs, Printed.nil hacc⟩
  | cons o os ih =>
    intro s hacc t r hs ho
    obtain ⟨k1, t1, s1, a1, a2, a3⟩ := step_ok font buf hb s hacc t r hs o ho.1
    obtain ⟨k2, t2, s2, b1, b2, b3⟩ := ih s1 a3.acc t1 _ a2 ho.2
    refine ⟨k1 + k2, t2, s2, ?_, b2, a3.trans b3⟩
    intro fuel hf
    unfold run
    rw [a1 fuel (by omega), Res.ok_bind]
    simp only
    rw [b1 fuel (by omega), Res.ok_bind]
    rfl

theorem sim_init : Interrupt.Sim Interrupt.Tables.init Interrupt.Reg.empty :=
  ⟨rfl, rfl, fun k _ => by simp [Interrupt.Tables.init, Arr.fill, Interrupt.Reg.empty],
    fun k _ => by simp [Interrupt.Tables.init, Arr.fill, Interrupt.Reg.empty]⟩

/-- C101, histories of registrations (any numbers, any handlers), unregistrations of what is registered, and
interrupts of any programs: what is on the screen is exactly one line for each registration that was accepted and the
report of each interrupt, in this order; the refused registrations leave no trace. The handlers called are those of
the registry (C52). The interrupt flag and memory outside the buffer of `printf` are unchanged. -/
theorem C101_history_partial (font : Vesa.Font) (buf : Nat) (hb : buf ≠ 0) (s : St) (hacc : s.mem.Acc buf bufSize)
    (os : List Op) (ho : AllFair Interrupt.Reg.empty os) :
    ∃ k t' s', (∀ fuel, k ≤ fuel → run font buf fuel Interrupt.Tables.init s os =
        .ok (t', s', results Interrupt.Reg.empty os)) ∧
      s'.scr = Vesa.colorPrint font white ((log Interrupt.Reg.empty os).map (·.toBitVec)) s.scr ∧
      IrqGuard.ifSet s'.flags = IrqGuard.ifSet s.flags ∧ ∀ a, ¬ (buf ≤ a ∧ a < buf + 1024) → s'.mem a = s.mem a := by
  obtain ⟨k, t', s', a1, _, a3⟩ := run_ok font buf hb os s hacc _ _ sim_init ho
  exact ⟨k, t', s', a1, a3.scr, a3.flag, a3.mem⟩

/-! ### Refused unregistrations -/

theorem va_ub (last : Nat) (v : BitVec 64) (rest : List UInt8) : ∀ (lit : List UInt8) (buf fuel : Nat) (l : LSt),
    (0 : UInt8) ∉ lit → (37 : UInt8) ∉ lit → buf + lit.length < last → lit.length < fuel →
    (vslLoop last fuel buf (lit ++ 37 :: 117 :: 100 :: rest) [.i64 v] l).1 = .ub := by
  intro lit
  induction lit with
  | nil =>
    intro buf fuel l _ _ hlt hf
    obtain ⟨fuel, rfl⟩ : ∃ k, fuel = k + 1 := ⟨fuel - 1, by simp only [List.length_nil] at hf; omega⟩
    simp only [List.length_nil, Nat.add_zero] at hlt
    unfold vslLoop
    show ((FM.lift (.ok 37) >>= _ : FM _) _).1 = _
    rw [FM.lift_ok_bind, if_pos ⟨by decide, hlt⟩, if_pos rfl]
    refine Verif.Props.ub_bind ?_
    show (directive buf last (117 :: 100 :: rest) [.i64 v] l).1 = _
    simp [directive, FM.bind_def, FM.lift, peek, parseNum, parseFlags, convert, va32]
  | cons c lit ih =>
    intro buf fuel l h0 h37 hlt hf
    obtain ⟨fuel, rfl⟩ : ∃ k, fuel = k + 1 := ⟨fuel - 1, by simp only [List.length_cons] at hf; omega⟩
    simp only [List.length_cons] at hlt hf
    simp only [List.mem_cons, not_or] at h0 h37
    unfold vslLoop
    show ((FM.lift (.ok c) >>= _ : FM _) _).1 = _
    rw [FM.lift_ok_bind, if_pos ⟨fun e => h0.1 e.symm, by omega⟩, if_neg (fun e => h37.1 e.symm)]
    rcases hp : FM.put buf c l with ⟨x, l'⟩
    cases x with
    | ok u =>
      have : ∀ f : Unit → FM Nat, (FM.put buf c >>= f) l = f u l' := by
        intro f; simp only [FM.bind_def, hp]
      rw [this]
      exact ih (buf + 1) fuel l' h0.2 h37.2 (by omega) (by omega)
    | ub => exact Verif.Props.ub_bind (by rw [hp])
    | oof =>
      exfalso
      unfold FM.put Mem.store at hp
      cases hm : l.mem buf <;> simp [hm] at hp

theorem print_ub (font : Vesa.Font) (buf fuel : Nat) (s : St) (lit rest : List UInt8) (v : BitVec 64)
    (h0 : (0 : UInt8) ∉ lit) (h37 : (37 : UInt8) ∉ lit) (hl : lit.length < 1024) :
    printf font buf fuel (lit ++ 37 :: 117 :: 100 :: rest ++ [0]) [.i64 v] s = .ub := by
  have h : (vslprintf buf (buf + bufSize) (lit ++ 37 :: 117 :: 100 :: rest ++ [0]) [.i64 v] ⟨s.mem, []⟩).1 = .ub := by
    unfold vslprintf
    refine Verif.Props.ub_bind ?_
    rw [List.append_assoc]
    refine va_ub (buf + bufSize) v (rest ++ [0]) lit buf _ _ h0 h37 (by unfold bufSize; omega) ?_
    simp only [List.length_append, List.length_cons]
    omega
  unfold printf
  simp only
  rcases hv : vslprintf buf (buf + bufSize) (lit ++ 37 :: 117 :: 100 :: rest ++ [0]) [.i64 v] ⟨s.mem, []⟩ with ⟨x, l⟩
  rw [hv] at h
  simp only at h
  subst h
  rfl

/-- C101 fails for every unregistration that is refused: the message takes an argument of type `size_t` as an
`unsigned`, which is undefined. This holds in every state the registry reaches, whatever happened before and whatever
would come after. -/
theorem C101_violated_unregister (font : Vesa.Font) (buf : Nat) (hb : buf ≠ 0) (s : St) (hacc : s.mem.Acc buf bufSize)
    (os rest : List Op) (ho : AllFair Interrupt.Reg.empty os) (i : BitVec 64) (h : Nat) :
    (¬ Fair (after Interrupt.Reg.empty os) (.unregIrq i h) → ∃ k, ∀ fuel, k ≤ fuel →
      run font buf fuel Interrupt.Tables.init s (os ++ .unregIrq i h :: rest) = .ub) ∧
    (¬ Fair (after Interrupt.Reg.empty os) (.unregSys i h) → ∃ k, ∀ fuel, k ≤ fuel →
      run font buf fuel Interrupt.Tables.init s (os ++ .unregSys i h :: rest) = .ub) := by
  obtain ⟨k, t', s', a1, a2, _⟩ := run_ok font buf hb os s hacc _ _ sim_init ho
  have key : ∀ (fuel : Nat) (os : List Op) (t : Interrupt.Tables) (s : St) (t' : Interrupt.Tables) (s' : St) (l : List (Bool ⊕ List Interrupt.Event)) (o : Op),
      run font buf fuel t s os = .ok (t', s', l) → step font buf fuel t' s' o = .ub →
      run font buf fuel t s (os ++ o :: rest) = .ub := by
    intro fuel os
    induction os with
    | nil =>
      intro t s t' s' l o h1 h2
      simp only [run, Res.ok.injEq, Prod.mk.injEq] at h1
      obtain ⟨rfl, rfl, _⟩ := h1
      simp only [List.nil_append, run, h2, Res.ub_bind]
    | cons p os ih =>
      intro t s t' s' l o h1 h2
      simp only [List.cons_append, run] at h1 ⊢
      rcases hp : step font buf fuel t s p with ⟨t1, s1, r1⟩ | _ | _
      · rw [hp, Res.ok_bind] at h1
        simp only at h1
        rcases hq : run font buf fuel t1 s1 os with ⟨t2, s2, r2⟩ | _ | _
        · rw [hq, Res.ok_bind] at h1
          simp only [Res.ok.injEq, Prod.mk.injEq] at h1
          obtain ⟨rfl, rfl, _⟩ := h1
          rw [Res.ok_bind]
          simp only
          rw [ih _ _ _ _ _ o hq h2, Res.ub_bind]
        · rw [hq] at h1; cases h1
        · rw [hq] at h1; cases h1
      · rw [hp] at h1; cases h1
      · rw [hp] at h1; cases h1
  have u1 : fmtUnIrq = str "failed to unregister irq idx = " ++ 37 :: 117 :: 100 :: str "\n" := by decide +kernel
  have u2 : fmtUnSys = str "failed to unregister syscall idx = " ++ 37 :: 117 :: 100 :: str "\n" := by decide +kernel
  constructor
  · intro hf
    refine ⟨k, fun fuel hk => key fuel os _ s t' s' _ _ (a1 fuel hk) ?_⟩
    obtain ⟨t2, e1, _⟩ := Interrupt.sim_step a2 (.unregIrq i.toNat h) trivial
    have er : ((after Interrupt.Reg.empty os).step (.unregIrq i.toNat h)).2 = .ret false := by
      simp only [Fair] at hf
      simp only [Interrupt.Reg.step]; rw [if_neg hf]
    rw [er] at e1
    have e1 := sim_ret e1
    simp only [step, unregisterIrq, e1, Res.ok_bind, Bool.false_eq_true, if_false, u1]
    rw [print_ub _ _ _ _ _ _ _ (by decide +kernel) (by decide +kernel) (by decide +kernel)]
    rfl
  · intro hf
    refine ⟨k, fun fuel hk => key fuel os _ s t' s' _ _ (a1 fuel hk) ?_⟩
    obtain ⟨t2, e1, _⟩ := Interrupt.sim_step a2 (.unregSys i.toNat h) trivial
    have er : ((after Interrupt.Reg.empty os).step (.unregSys i.toNat h)).2 = .ret false := by
      simp only [Fair] at hf
      simp only [Interrupt.Reg.step]; rw [if_neg hf]
    rw [er] at e1
    have e1 := sim_ret e1
    simp only [step, unregisterSys, e1, Res.ok_bind, Bool.false_eq_true, if_false, u2]
    rw [print_ub _ _ _ _ _ _ _ (by decide +kernel) (by decide +kernel) (by decide +kernel)]
    rfl

/-! ### Examples -/

/-- A history: line 3 is registered, a second registration is refused, the line fires while `exCpu` runs, the handler
is removed, and the line fires again. -/
def exOps : List Op :=
  [.regIrq 3 100 7, .regIrq 3 200 8, .irq Stubs.exCpu Stubs.exEntry 3 0x5555, .regSys 4 50, .unregIrq 3 100,
   .irq Stubs.exCpu Stubs.exEntry 3 0x5555]

theorem exOps_fair : AllFair Interrupt.Reg.empty exOps := by
  simp [exOps, AllFair, Fair, Op.abs, Interrupt.Reg.step, Interrupt.Reg.empty, Stubs.exEntry]

example : log Interrupt.Reg.empty exOps =
    str ("register 3 irq\n" ++
      "regs->rflags = 246\tregs->cs = 8\tregs->rip = ffff800000101234\tregs->code = 3\tregs->rbp = f\tregs->rax = 1\t" ++
      "register 4 syscall\n" ++
      "regs->rflags = 246\tregs->cs = 8\tregs->rip = ffff800000101234\tregs->code = 3\tregs->rbp = f\tregs->rax = 1\t") ∧
    results Interrupt.Reg.empty exOps = [.inl true, .inl false, .inr [.out 0x20 0x20, .callIrq 100 3 7], .inl true,
      .inl true, .inr [.out 0x20 0x20]] := by
  decide +kernel

/-- The report of a general protection fault with error code 24. -/
example : excReport Stubs.exCpu 13 24 = str ("Exception 13 General protection fault occured\n" ++
    "error_code = 24 rip = ffff800000101234 rflags = 582 cs = 8 rsp = ffff800000200008 ss = 16\n") := by
  decide +kernel

/-- Memory with the buffer at 4096 and the names, 64 bytes apart, from 8192 on. -/
def exMem : Mem := fun a =>
  if 4096 ≤ a ∧ a < 5120 then some 0xAA
  else if 8192 ≤ a ∧ a < 10240 then some ((names.getD ((a - 8192) / 64) []).getD ((a - 8192) % 64) 0)
  else none

def exTable : List Nat := (List.range 32).map (8192 + 64 * ·)

def exState : St := ⟨exMem, BootLog.exSt.scr, 0x246⟩

theorem exState_acc : exState.mem.Acc 4096 bufSize := by
  intro i hi
  have : i < 1024 := hi
  have : 4096 ≤ 4096 + i ∧ 4096 + i < 5120 := by omega
  simp [exState, exMem, this]

theorem exNames : NamesAt exState.mem 4096 exTable := by
  have h : ∀ n (h : n < 32), exTable[n]? = some (8192 + 64 * n) ∧
      (∀ i (h' : i < (names[n]'h).length), exMem (8192 + 64 * n + i) = some ((names[n]'h)[i]) ∧ (names[n]'h)[i] ≠ 0) ∧
      exMem (8192 + 64 * n + (names[n]'h).length) = some 0 := by decide +kernel
  intro n hn
  obtain ⟨h1, h2, h3⟩ := h n hn
  exact ⟨_, h1, by omega, h2, h3, fun i _ => by omega⟩

/-- A page fault: its report. -/
example (font : Vesa.Font) : ∃ k s', (∀ fuel, k ≤ fuel →
      exception font 4096 fuel exTable Stubs.exCpu { Stubs.exEntry with errorCode := some 2 } 14 0x7777 exState = .ok s') ∧
    s'.scr = Vesa.colorPrint font white ((excReport Stubs.exCpu 14 2).map (·.toBitVec)) exState.scr := by
  obtain ⟨k, s', h1, h2, _⟩ := C101_exception_partial font 4096 (by decide) exState exState_acc exTable exNames Stubs.exCpu
    { Stubs.exEntry with errorCode := some 2 } 14 (by decide) 0x7777 rfl (by decide)
  exact ⟨k, s', h1, h2⟩

/-- An alignment check: the report is wrong. -/
example (font : Vesa.Font) : ∃ k s' txt, (∀ fuel, k ≤ fuel →
      exception font 4096 fuel exTable Stubs.exCpu { Stubs.exEntry with errorCode := some 0 } 17 0x7777 exState = .ok s') ∧
    s'.scr = Vesa.colorPrint font white (txt.map (·.toBitVec)) exState.scr ∧ txt ≠ excReport Stubs.exCpu 17 0 := by
  obtain ⟨k, s', txt, h1, h2, _, h4⟩ := C101_violated_vectors font 4096 (by decide) exState exState_acc exTable exNames Stubs.exCpu
    { Stubs.exEntry with errorCode := some 0 } 17 0x7777 0 rfl (by decide)
  exact ⟨k, s', txt, h1, h2, h4 (.inr (by decide))⟩

/-- An interrupt on line 12, for which nothing is registered. -/
example (font : Vesa.Font) : ∃ k s', (∀ fuel, k ≤ fuel →
      irq font 4096 fuel Interrupt.Tables.init Stubs.exCpu Stubs.exEntry 12 0x5555 exState =
        .ok ([.out 0xA0 0x20, .out 0x20 0x20], s')) ∧
    s'.scr = Vesa.colorPrint font white ((irqText Stubs.exCpu 12).map (·.toBitVec)) exState.scr := by
  obtain ⟨k, s', h1, h2, _⟩ := C101_interrupt font 4096 (by decide) exState exState_acc _ _ sim_init Stubs.exCpu
    Stubs.exEntry 12 (by decide) 0x5555 rfl
  exact ⟨k, s', h1, h2⟩

/-- The history above on the screen. -/
example (font : Vesa.Font) : ∃ k t' s', (∀ fuel, k ≤ fuel → run font 4096 fuel Interrupt.Tables.init exState exOps =
      .ok (t', s', results Interrupt.Reg.empty exOps)) ∧
    s'.scr = Vesa.colorPrint font white ((log Interrupt.Reg.empty exOps).map (·.toBitVec)) exState.scr := by
  obtain ⟨k, t', s', h1, h2, _⟩ := C101_history_partial font 4096 (by decide) exState exState_acc exOps exOps_fair
  exact ⟨k, t', s', h1, h2⟩

/-- After it, line 3 is free: unregistering handler 100 once more is undefined. -/
example (font : Vesa.Font) : ∃ k, ∀ fuel, k ≤ fuel →
    run font 4096 fuel Interrupt.Tables.init exState (exOps ++ [.unregIrq 3 100]) = .ub :=
  (C101_violated_unregister font 4096 (by decide) exState exState_acc exOps [] exOps_fair 3 100).1 (by
    simp [exOps, after, Fair, Op.abs, Interrupt.Reg.step, Interrupt.Reg.empty])

end Verif.IntLog
