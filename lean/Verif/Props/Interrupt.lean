import Verif.Model.Interrupt

/-! Properties C52 (handler registries), C53 (IDT gates) and C56 (interrupt controllers). -/

set_option backward.isDefEq.respectTransparency false

namespace Verif.Interrupt
open Verif

/-! ## C52 -/

/-- A use of the registry. -/
inductive Op where
  | regIrq (line handler data : Nat)
  | unregIrq (line handler : Nat)
  | trigIrq (code : Nat)
  | regSys (num handler : Nat)
  | unregSys (num handler : Nat)
  | trigSys (code : Nat)

/-- What a use returns or calls. -/
inductive Out where
  | ret (b : Bool)
  | calls (l : List Event)
  deriving DecidableEq

/-- One use of the real registry. -/
def step (s : Tables) : Op → Res (Tables × Out)
  | .regIrq i h d => do let (s, b) ← registerIrq s i h d; .ok (s, .ret b)
  | .unregIrq i h => do let (s, b) ← unregisterIrq s i h; .ok (s, .ret b)
  | .trigIrq c => do let l ← triggerIrq s c; .ok (s, .calls l)
  | .regSys i h => do let (s, b) ← registerSys s i h; .ok (s, .ret b)
  | .unregSys i h => do let (s, b) ← unregisterSys s i h; .ok (s, .ret b)
  | .trigSys c => do let l ← triggerSys s c; .ok (s, .calls l)

def run (s : Tables) : List Op → Res (Tables × List Out)
  | [] => .ok (s, [])
  | o :: os => do
    let (s, r) ← step s o
    let (s, rs) ← run s os
    .ok (s, r :: rs)

/-- The specification: partial maps from lines to (handler, data). -/
structure Reg where
  irq : Nat → Option (Nat × Nat)
  sys : Nat → Option Nat

def Reg.empty : Reg := ⟨fun _ => none, fun _ => none⟩

/-- What each use must do. Registering the null handler "succeeds" on a free line but
leaves it free; "unregistering" the null handler "succeeds" on a free line. -/
def Reg.step (r : Reg) : Op → Reg × Out
  | .regIrq i h d =>
    if i < 16 ∧ r.irq i = none then
      (if h = 0 then r else { r with irq := fun j => if j = i then some (h, d) else r.irq j }, .ret true)
    else (r, .ret false)
  | .unregIrq i h =>
    if i < 16 ∧ (r.irq i).elim 0 Prod.fst = h then
      ({ r with irq := fun j => if j = i then none else r.irq j }, .ret true)
    else (r, .ret false)
  | .trigIrq c => (r, .calls ((r.irq c).elim [] fun (h, d) => [.callIrq h c d]))
  | .regSys i h =>
    if i < 10 ∧ r.sys i = none then
      (if h = 0 then r else { r with sys := fun j => if j = i then some h else r.sys j }, .ret true)
    else (r, .ret false)
  | .unregSys i h =>
    if i < 10 ∧ (r.sys i).elim 0 id = h then
      ({ r with sys := fun j => if j = i then none else r.sys j }, .ret true)
    else (r, .ret false)
  | .trigSys c => (r, .calls ((r.sys c).elim [] fun h => [.callSys h c]))

def Reg.run (r : Reg) : List Op → List Out
  | [] => []
  | o :: os => (r.step o).2 :: ((r.step o).1).run os

/-- Hardware only triggers existing lines: the stubs push 0-15 and 0-9. -/
def Op.InRange : Op → Prop
  | .trigIrq c => c < 16
  | .trigSys c => c < 10
  | _ => True

structure Sim (s : Tables) (r : Reg) : Prop where
  n1 : s.irqs.n = 16
  n2 : s.syscalls.n = 10
  i : ∀ k, k < 16 → r.irq k = if (s.irqs.at_ k).handler = 0 then none
        else some ((s.irqs.at_ k).handler, (s.irqs.at_ k).data)
  y : ∀ k, k < 10 → r.sys k = if s.syscalls.at_ k = 0 then none else some (s.syscalls.at_ k)

theorem sim_step {s : Tables} {r : Reg} (hs : Sim s r) (o : Op) (ho : o.InRange) :
    ∃ s', step s o = .ok (s', (r.step o).2) ∧ Sim s' (r.step o).1 := by
  obtain ⟨n1, n2, hi, hy⟩ := hs
  cases o with
  | regIrq i h d =>
    simp only [step, registerIrq, Reg.step, n1, Arr.get, Arr.set]
    by_cases c : i < 16
    · have := hi i c
      by_cases c2 : (s.irqs.at_ i).handler = 0
      · simp only [show ¬ i ≥ 16 by omega, if_false, c, if_true, Res.ok_bind, c2, ne_eq, not_true,
          this, true_and]
        refine ⟨_, rfl, ⟨by first | rfl | exact n1, by first | rfl | exact n2, ?_, ?_⟩⟩
        · intro k hk
          by_cases c3 : k = i
          · subst c3; by_cases c4 : h = 0 <;> simp [c4, this, c2]
          · by_cases c4 : h = 0 <;> simp [c4, c3, hi k hk]
        · intro k hk
          by_cases c4 : h = 0 <;> simp [c4, hy k hk]
      · simp only [show ¬ i ≥ 16 by omega, if_false, c, if_true, Res.ok_bind, c2, ne_eq, not_false_eq_true,
          this, true_and]
        exact ⟨_, by simp, ⟨n1, n2, by simpa using hi, by simpa using hy⟩⟩
    · simp only [show i ≥ 16 by omega, if_true, c, false_and, if_false, Res.ok_bind]
      exact ⟨_, rfl, ⟨n1, n2, hi, hy⟩⟩
  | unregIrq i h =>
    simp only [step, unregisterIrq, Reg.step, n1, Arr.get, Arr.set]
    by_cases c : i < 16
    · have := hi i c
      have he : (r.irq i).elim 0 Prod.fst = (s.irqs.at_ i).handler := by
        rw [this]; by_cases c4 : (s.irqs.at_ i).handler = 0 <;> simp [c4]
      rw [he]
      by_cases c2 : (s.irqs.at_ i).handler = h
      · simp only [show ¬ i ≥ 16 by omega, if_false, c, if_true, Res.ok_bind, c2, ne_eq, not_true,
          true_and]
        refine ⟨_, rfl, ⟨rfl, n2, ?_, hy⟩⟩
        intro k hk
        by_cases c3 : k = i <;> simp [c3, hi k hk]
      · simp only [show ¬ i ≥ 16 by omega, if_false, c, if_true, Res.ok_bind, c2, ne_eq,
          not_false_eq_true, true_and]
        exact ⟨_, rfl, ⟨n1, n2, hi, hy⟩⟩
    · simp only [show i ≥ 16 by omega, if_true, c, false_and, if_false, Res.ok_bind]
      exact ⟨_, rfl, ⟨n1, n2, hi, hy⟩⟩
  | trigIrq c =>
    simp only [Op.InRange] at ho
    simp only [step, triggerIrq, Reg.step, Arr.get, n1, ho, if_true, Res.ok_bind, hi c ho]
    by_cases c2 : (s.irqs.at_ c).handler = 0
    · simp only [c2, ne_eq, not_true, if_false, if_true, Res.ok_bind]
      exact ⟨_, rfl, ⟨n1, n2, hi, hy⟩⟩
    · simp only [c2, ne_eq, not_false_eq_true, if_true, if_false, Res.ok_bind]
      exact ⟨_, rfl, ⟨n1, n2, hi, hy⟩⟩
  | regSys i h =>
    simp only [step, registerSys, Reg.step, n2, Arr.get, Arr.set]
    by_cases c : i < 10
    · have := hy i c
      by_cases c2 : s.syscalls.at_ i = 0
      · simp only [show ¬ i ≥ 10 by omega, if_false, c, if_true, Res.ok_bind, c2, ne_eq, not_true,
          this, true_and]
        refine ⟨_, rfl, ⟨by first | rfl | exact n1, by first | rfl | exact n2, ?_, ?_⟩⟩
        · intro k hk
          by_cases c4 : h = 0 <;> simp [c4, hi k hk]
        · intro k hk
          by_cases c3 : k = i
          · subst c3; by_cases c4 : h = 0 <;> simp [c4, this, c2]
          · by_cases c4 : h = 0 <;> simp [c4, c3, hy k hk]
      · simp only [show ¬ i ≥ 10 by omega, if_false, c, if_true, Res.ok_bind, c2, ne_eq, not_false_eq_true,
          this, true_and]
        exact ⟨_, by simp, ⟨n1, n2, by simpa using hi, by simpa using hy⟩⟩
    · simp only [show i ≥ 10 by omega, if_true, c, false_and, if_false, Res.ok_bind]
      exact ⟨_, rfl, ⟨n1, n2, hi, hy⟩⟩
  | unregSys i h =>
    simp only [step, unregisterSys, Reg.step, n2, Arr.get, Arr.set]
    by_cases c : i < 10
    · have := hy i c
      have he : (r.sys i).elim 0 id = s.syscalls.at_ i := by
        rw [this]; by_cases c4 : s.syscalls.at_ i = 0 <;> simp [c4]
      rw [he]
      by_cases c2 : s.syscalls.at_ i = h
      · simp only [show ¬ i ≥ 10 by omega, if_false, c, if_true, Res.ok_bind, c2, ne_eq, not_true,
          true_and]
        refine ⟨_, rfl, ⟨n1, rfl, hi, ?_⟩⟩
        intro k hk
        by_cases c3 : k = i <;> simp [c3, hy k hk]
      · simp only [show ¬ i ≥ 10 by omega, if_false, c, if_true, Res.ok_bind, c2, ne_eq,
          not_false_eq_true, true_and]
        exact ⟨_, rfl, ⟨n1, n2, hi, hy⟩⟩
    · simp only [show i ≥ 10 by omega, if_true, c, false_and, if_false, Res.ok_bind]
      exact ⟨_, rfl, ⟨n1, n2, hi, hy⟩⟩
  | trigSys c =>
    simp only [Op.InRange] at ho
    simp only [step, triggerSys, Reg.step, Arr.get, n2, ho, if_true, Res.ok_bind, hy c ho]
    by_cases c2 : s.syscalls.at_ c = 0
    · simp only [c2, ne_eq, not_true, if_false, if_true, Res.ok_bind]
      exact ⟨_, rfl, ⟨n1, n2, hi, hy⟩⟩
    · simp only [c2, ne_eq, not_false_eq_true, if_true, if_false, Res.ok_bind]
      exact ⟨_, rfl, ⟨n1, n2, hi, hy⟩⟩

theorem sim_run {s : Tables} {r : Reg} (hs : Sim s r) (os : List Op) (ho : ∀ o ∈ os, o.InRange) :
    ∃ s', run s os = .ok (s', r.run os) := by
  induction os generalizing s r with
  | nil => exact ⟨s, rfl⟩
  | cons o os ih =>
    obtain ⟨s1, e1, h1⟩ := sim_step hs o (ho o (by simp))
    obtain ⟨s2, e2⟩ := ih h1 (fun x hx => ho x (by simp [hx]))
    exact ⟨s2, by simp only [run, e1, e2, Res.ok_bind, Reg.run]⟩

/-- C52 (for triggers with codes the tables have): every history of registrations,
unregistrations (all line numbers, all pointers) and triggers, starting from the state
after `InstallIdt`, stays inside the tables and behaves like a partial map. -/
theorem C52_registry_partial (os : List Op) (ho : ∀ o ∈ os, o.InRange) :
    ∃ s', run Tables.init os = .ok (s', Reg.empty.run os) := by
  refine sim_run ⟨rfl, rfl, ?_, ?_⟩ os ho
  · intro k _; simp [Tables.init, Arr.fill, Reg.empty]
  · intro k _; simp [Tables.init, Arr.fill, Reg.empty]

/-- A history: register, refuse a second one, trigger, refuse a wrong unregister,
unregister, trigger again. -/
example : ∃ s', run Tables.init [.regIrq 3 100 7, .regIrq 3 200 8, .trigIrq 3, .unregIrq 3 200,
      .unregIrq 3 100, .trigIrq 3, .regIrq 16 1 1, .regSys 4 50, .trigSys 4] =
    .ok (s', [.ret true, .ret false, .calls [.callIrq 100 3 7], .ret false, .ret true, .calls [],
      .ret false, .ret true, .calls [.callSys 50 4]]) :=
  C52_registry_partial _ (by simp [Op.InRange])

/-- C52 fails for other codes: triggering a line that does not exist reads outside the
table, whatever the tables hold. -/
theorem C52_violated_unchecked (s : Tables) (h1 : s.irqs.n = 16) (h2 : s.syscalls.n = 10) (c : Nat) :
    (c ≥ 16 → triggerIrq s c = .ub) ∧ (c ≥ 10 → triggerSys s c = .ub) := by
  constructor <;> intro h <;> simp [triggerIrq, triggerSys, Arr.get, h1, h2, Nat.not_lt.2 h]

example : triggerIrq Tables.init 16 = .ub := (C52_violated_unchecked Tables.init rfl rfl 16).1 (by decide)

/-! ## C53 -/

/-- What the CPU reads from a 16-byte gate in 64-bit mode. -/
structure Decoded where
  offset : BitVec 64
  selector : BitVec 16
  ist : BitVec 3
  type : BitVec 4
  dpl : BitVec 2
  present : Bool
  deriving DecidableEq

def cpuDecode (b : BitVec 128) : Decoded where
  offset := b.extractLsb' 64 32 ++ b.extractLsb' 48 16 ++ b.extractLsb' 0 16
  selector := b.extractLsb' 16 16
  ist := b.extractLsb' 32 3
  type := b.extractLsb' 40 4
  dpl := b.extractLsb' 45 2
  present := b.getLsbD 47

/-- What a gate must mean. -/
def means (addr : BitVec 64) (sel : BitVec 16) (f : Flags) : Decoded :=
  ⟨addr, sel, 0, f.type, f.dpl, f.present = 1⟩

theorem mask16 (a : BitVec 64) : (a &&& 0xFFFF).setWidth 16 = a.setWidth 16 := by
  have e1 : ∀ i, i < 16 → (0xFFFF#64).getLsbD i = true := by decide
  apply BitVec.eq_of_getLsbD_eq
  intro i hi
  rw [BitVec.getLsbD_setWidth, BitVec.getLsbD_setWidth, BitVec.getLsbD_and]
  have : (0xFFFF : BitVec 64).getLsbD i = true := e1 i hi
  rw [this, Bool.and_true]

/-- Where the fields of a gate are. -/
theorem image_fields (g : Gate) :
    g.image.extractLsb' 0 16 = g.lowOffset ∧ g.image.extractLsb' 16 16 = g.selector ∧
    g.image.extractLsb' 32 3 = g.zero.extractLsb' 0 3 ∧ g.image.extractLsb' 40 4 = g.flags.type ∧
    g.image.extractLsb' 45 2 = g.flags.dpl ∧ g.image.getLsbD 47 = g.flags.present.getLsbD 0 ∧
    g.image.extractLsb' 48 16 = g.middleOffset ∧ g.image.extractLsb' 64 32 = g.highOffset := by
  refine ⟨?_, ?_, ?_, ?_, ?_, ?_, ?_, ?_⟩
  all_goals first
    | (apply BitVec.eq_of_getLsbD_eq; intro i hi)
    | skip
  all_goals
    simp only [Gate.image, Flags.image, BitVec.getLsbD_append, BitVec.getLsbD_extractLsb', cond_eq_ite,
      decide_eq_true_eq]
    (try simp (disch := omega) only [if_pos, if_neg, decide_eq_true, Bool.true_and])
    (try congr 1; omega)

theorem split64 (a : BitVec 64) :
    (a >>> 32).setWidth 32 ++ (a >>> 16).setWidth 16 ++ a.setWidth 16 = a := by
  apply BitVec.eq_of_getLsbD_eq
  intro i hi
  simp only [BitVec.getLsbD_append, cond_eq_ite, decide_eq_true_eq, BitVec.getLsbD_setWidth,
    BitVec.getLsbD_ushiftRight]
  by_cases c1 : i < 16
  · simp [c1]
  · by_cases c2 : i < 32
    · simp (disch := omega) only [if_neg, if_pos, decide_eq_true, Bool.true_and]
      congr 1; omega
    · simp (disch := omega) only [if_neg, if_pos, decide_eq_true, Bool.true_and]
      congr 1; omega

theorem image_decode (a : BitVec 64) (sel : BitVec 16) (f : Flags) :
    cpuDecode (Gate.image ⟨(a &&& 0xFFFF).setWidth 16, sel, 0, f, ((a >>> 16) &&& 0xFFFF).setWidth 16,
      (a >>> 32).setWidth 32, 0⟩) = means a sel f := by
  obtain ⟨h1, h2, h3, h4, h5, h6, h7, h8⟩ := image_fields ⟨(a &&& 0xFFFF).setWidth 16, sel, 0, f,
    ((a >>> 16) &&& 0xFFFF).setWidth 16, (a >>> 32).setWidth 32, 0⟩
  unfold cpuDecode means
  rw [h1, h2, h3, h4, h5, h6, h7, h8]
  simp only [mask16]
  have e : ∀ b : BitVec 1, b.getLsbD 0 = decide (b = 1) := by decide
  rw [e]
  have := split64 a
  congr 1

theorem setGate_ok (idt : Arr Gate) (g : Nat) (a : BitVec 64) (sel : BitVec 16) (f : Flags) (hg : g < idt.n) :
    ∃ idt', setGate idt g a sel f = .ok idt' ∧ idt'.n = idt.n ∧
      cpuDecode (idt'.at_ g).image = means a sel f ∧ ∀ k, k ≠ g → idt'.at_ k = idt.at_ k := by
  simp only [setGate, Arr.get, Arr.set, hg, if_true, Res.ok_bind]
  refine ⟨_, rfl, rfl, ?_, ?_⟩
  · simp only [if_true]
    exact image_decode a sel f
  · intro k hk
    simp only [hk, if_false]

/-- C53, one gate: for every 64-bit handler address, selector and flags the CPU decodes
exactly these from the 16 bytes, and the other gates are unchanged. A gate number beyond
the table is undefined behaviour, so nothing else is ever written. -/
theorem C53_gate (idt : Arr Gate) (g : Nat) (a : BitVec 64) (sel : BitVec 16) (f : Flags) :
    (g < idt.n → ∃ idt', setGate idt g a sel f = .ok idt' ∧
      cpuDecode (idt'.at_ g).image = ⟨a, sel, 0, f.type, f.dpl, f.present = 1⟩ ∧
      ∀ k, k ≠ g → idt'.at_ k = idt.at_ k) := by
  intro h
  obtain ⟨i, e, _, e2, e3⟩ := setGate_ok idt g a sel f h
  exact ⟨i, e, e2, e3⟩

def zeroGate : Gate := ⟨0, 0, 0, ⟨0, 0, 0, 0⟩, 0, 0, 0⟩

/-- A high-half handler address. -/
example : ∃ idt', setGate (Arr.fill 256 zeroGate) 33 0xFFFF800000123456 8 ⟨14, 0, 3, 1⟩ = .ok idt' ∧
    cpuDecode (idt'.at_ 33).image = ⟨0xFFFF800000123456, 8, 0, 14, 3, true⟩ := by
  obtain ⟨i, h1, h2, _⟩ := C53_gate (Arr.fill 256 zeroGate) 33 0xFFFF800000123456 8 ⟨14, 0, 3, 1⟩ (by decide)
  exact ⟨i, h1, h2⟩

theorem setGates_ok (l : List (Nat × BitVec 64 × BitVec 16 × Flags)) (idt : Arr Gate)
    (hb : ∀ x ∈ l, x.1 < idt.n) (hd : (l.map Prod.fst).Nodup) :
    ∃ idt', setGates idt l = .ok idt' ∧ idt'.n = idt.n ∧
      (∀ x ∈ l, cpuDecode (idt'.at_ x.1).image = means x.2.1 x.2.2.1 x.2.2.2) ∧
      ∀ k, k ∉ l.map Prod.fst → idt'.at_ k = idt.at_ k := by
  induction l generalizing idt with
  | nil => exact ⟨idt, rfl, rfl, by simp, fun _ _ => rfl⟩
  | cons x l ih =>
    obtain ⟨g, a, s, f⟩ := x
    simp only [List.map_cons, List.nodup_cons] at hd
    obtain ⟨i1, e1, n1, d1, k1⟩ := setGate_ok idt g a s f (hb (g, a, s, f) (by simp))
    obtain ⟨i2, e2, n2, d2, k2⟩ := ih i1 (fun x hx => by rw [n1]; exact hb x (by simp [hx])) hd.2
    refine ⟨i2, by simp only [setGates, e1, Res.ok_bind, e2], by omega, ?_, ?_⟩
    · intro x hx
      rcases List.mem_cons.1 hx with rfl | hx
      · rw [k2 _ hd.1]; exact d1
      · exact d2 x hx
    · intro k hk
      simp only [List.map_cons, List.mem_cons, not_or] at hk
      rw [k2 k hk.2, k1 k hk.1]

/-- An interrupt instruction executed in user mode may use the gate. -/
def userReachable (g : Gate) : Prop := (cpuDecode g.image).present = true ∧ (cpuDecode g.image).dpl = 3

theorem zero_decode : cpuDecode zeroGate.image = ⟨0, 0, 0, 0, 0, false⟩ := by decide

/-- C53, the whole table: after `Init` on a table that is zero before (C84 says when it is) the
gates of exceptions 0-31, IRQs 32-47 and system calls 50-59 decode to their entry
points, in the kernel code segment, as present interrupt gates; exactly the system
calls may be used from user mode; all other gates are not present; the limit loaded
covers the table. -/
theorem C53_init (h : Stubs) :
    ∃ idt, initGates (Arr.fill 256 zeroGate) h = .ok idt ∧
      (∀ i, i < 32 → cpuDecode (idt.at_ i).image = ⟨h.isr i, 8, 0, 14, 0, true⟩) ∧
      (∀ i, i < 16 → cpuDecode (idt.at_ (32 + i)).image = ⟨h.irq i, 8, 0, 14, 0, true⟩) ∧
      (∀ i, i < 10 → cpuDecode (idt.at_ (50 + i)).image = ⟨h.sys i, 8, 0, 14, 3, true⟩) ∧
      (∀ v, v < 256 → ((cpuDecode (idt.at_ v).image).present = true ↔ v < 48 ∨ 50 ≤ v ∧ v < 60)) ∧
      (∀ v, v < 256 → (userReachable (idt.at_ v) ↔ 50 ≤ v ∧ v < 60)) ∧
      (∀ v, v < 256 → 16 * v + 15 ≤ idtLimit) := by
  obtain ⟨i1, e1, n1, d1, k1⟩ := setGates_ok (isrGates h) (Arr.fill 256 zeroGate)
    (by simp [isrGates, Arr.fill]) (by simp [isrGates])
  have n1' : i1.n = 256 := n1
  obtain ⟨i2, e2, n2, d2, k2⟩ := setGates_ok (irqGates h) i1 (by simp [irqGates, n1']) (by simp [irqGates])
  rw [n1'] at n2
  obtain ⟨i3, e3, n3, d3, k3⟩ := setGates_ok (sysGates h) i2 (by simp [sysGates, n2]) (by simp [sysGates])
  have m1 : (isrGates h).map Prod.fst = List.range 32 := rfl
  have m2 : (irqGates h).map Prod.fst = (List.range 16).map (32 + ·) := rfl
  have m3 : (sysGates h).map Prod.fst = (List.range 10).map (50 + ·) := rfl
  rw [m1] at k1; rw [m2] at k2; rw [m3] at k3
  have w1 : isrGates h = (List.range 32).map (fun i => (i, h.isr i, 8, ⟨14, 0, 0, 1⟩)) := rfl
  have w2 : irqGates h = (List.range 16).map (fun i => (32 + i, h.irq i, 8, ⟨14, 0, 0, 1⟩)) := rfl
  have w3 : sysGates h = (List.range 10).map (fun i => (50 + i, h.sys i, 8, ⟨14, 0, 3, 1⟩)) := rfl
  have a1 : ∀ i, i < 32 → cpuDecode (i3.at_ i).image = ⟨h.isr i, 8, 0, 14, 0, true⟩ := by
    intro i hi
    rw [k3 i (by simp; omega), k2 i (by simp; omega)]
    exact d1 (i, h.isr i, 8, ⟨14, 0, 0, 1⟩) (by rw [w1]; exact List.mem_map.2 ⟨i, by simpa using hi, rfl⟩)
  have a2 : ∀ i, i < 16 → cpuDecode (i3.at_ (32 + i)).image = ⟨h.irq i, 8, 0, 14, 0, true⟩ := by
    intro i hi
    rw [k3 _ (by simp; omega)]
    exact d2 (32 + i, h.irq i, 8, ⟨14, 0, 0, 1⟩) (by rw [w2]; exact List.mem_map.2 ⟨i, by simpa using hi, rfl⟩)
  have a3 : ∀ i, i < 10 → cpuDecode (i3.at_ (50 + i)).image = ⟨h.sys i, 8, 0, 14, 3, true⟩ := by
    intro i hi
    exact d3 (50 + i, h.sys i, 8, ⟨14, 0, 3, 1⟩) (by rw [w3]; exact List.mem_map.2 ⟨i, by simpa using hi, rfl⟩)
  have a4 : ∀ v, ¬ (v < 48 ∨ 50 ≤ v ∧ v < 60) → cpuDecode (i3.at_ v).image = ⟨0, 0, 0, 0, 0, false⟩ := by
    intro v hv
    rw [k3 v (by simp; omega), k2 v (by simp; omega), k1 v (by simp; omega)]
    exact zero_decode
  have cases : ∀ v, v < 48 ∨ 50 ≤ v ∧ v < 60 →
      (v < 32 ∨ ∃ i, i < 16 ∧ v = 32 + i) ∨ (50 ≤ v ∧ ∃ i, i < 10 ∧ v = 50 + i) := by
    intro v hv
    by_cases c : v < 32
    · exact Or.inl (Or.inl c)
    · by_cases c2 : v < 48
      · exact Or.inl (Or.inr ⟨v - 32, by omega, by omega⟩)
      · exact Or.inr ⟨by omega, v - 50, by omega, by omega⟩
  refine ⟨i3, by simp only [initGates, e1, e2, e3, Res.ok_bind], a1, a2, a3, ?_, ?_, ?_⟩
  · intro v _
    constructor
    · intro hp
      apply Decidable.byContradiction
      intro hc
      rw [a4 v hc] at hp; exact absurd hp (by decide)
    · intro hv
      rcases cases v hv with (c | ⟨i, hi, rfl⟩) | ⟨_, i, hi, rfl⟩
      · rw [a1 v c]
      · rw [a2 i hi]
      · rw [a3 i hi]
  · intro v _
    constructor
    · intro ⟨hp, hd⟩
      apply Decidable.byContradiction
      intro hc
      by_cases hv : v < 48 ∨ 50 ≤ v ∧ v < 60
      · rcases cases v hv with (c | ⟨i, hi, rfl⟩) | ⟨c, i, hi, rfl⟩
        · rw [a1 v c] at hd; exact absurd (show (0 : BitVec 2) = 3 from hd) (by decide)
        · rw [a2 i hi] at hd; exact absurd (show (0 : BitVec 2) = 3 from hd) (by decide)
        · omega
      · rw [a4 v hv] at hp; exact absurd hp (by decide)
    · intro hv
      rcases cases v (Or.inr hv) with (c | ⟨i, hi, rfl⟩) | ⟨_, i, hi, rfl⟩
      · omega
      · omega
      · constructor <;> rw [a3 i hi]
  · intro v hv
    simp only [idtLimit]; omega

/-- With entry points 16 bytes apart in the higher half. -/
example : ∃ idt, initGates (Arr.fill 256 zeroGate)
      ⟨fun i => 0xFFFF800000100000 + 16 * BitVec.ofNat 64 i, fun i => 0xFFFF800000110000 + 16 * BitVec.ofNat 64 i,
        fun i => 0xFFFF800000120000 + 16 * BitVec.ofNat 64 i⟩ = .ok idt ∧
    (cpuDecode (idt.at_ 46).image).offset = 0xFFFF8000001100E0 ∧ userReachable (idt.at_ 50) := by
  obtain ⟨idt, h1, _, h3, _, _, h6, _⟩ := C53_init
    ⟨fun i => 0xFFFF800000100000 + 16 * BitVec.ofNat 64 i, fun i => 0xFFFF800000110000 + 16 * BitVec.ofNat 64 i,
        fun i => 0xFFFF800000120000 + 16 * BitVec.ofNat 64 i⟩
  refine ⟨idt, h1, ?_, (h6 50 (by decide)).2 (by decide)⟩
  rw [show (46 : Nat) = 32 + 14 from rfl, h3 14 (by decide)]
  decide

/-! ## C56 -/

/-- What an 8259A is doing with bytes written to its data port. -/
inductive Phase where
  | ready | icw2 | icw3 | icw4
  deriving DecidableEq

/-- One 8259A: initialisation phase, whether ICW4 follows and whether it is single,
vector base, mask, cascade word and the in-service lines. -/
structure Pic where
  phase : Phase
  needIcw4 : Bool
  single : Bool
  base : Nat
  mask : Nat
  cascade : Nat
  mode : Nat
  inService : Nat → Bool

/-- The highest-priority (lowest-numbered) line in service among the 8. -/
def Pic.top (p : Pic) : Option Nat := (List.range 8).find? p.inService

/-- A byte to the command port: ICW1 if bit 4 is set, else OCW2 (bit 3 clear), where
001 in the top bits is the non-specific end of interrupt. -/
def Pic.command (p : Pic) (v : Nat) : Pic :=
  if v.testBit 4 then
    { p with phase := .icw2, needIcw4 := v.testBit 0, single := v.testBit 1, mask := 0,
             inService := fun _ => false }
  else if v.testBit 3 then p
  else if v / 32 = 1 then
    match p.top with
    | some n => { p with inService := fun j => if j = n then false else p.inService j }
    | none => p
  else p

/-- A byte to the data port. -/
def Pic.dataByte (p : Pic) (v : Nat) : Pic :=
  match p.phase with
  | .icw2 => { p with base := v / 8 * 8,
                      phase := if p.single then (if p.needIcw4 then .icw4 else .ready) else .icw3 }
  | .icw3 => { p with cascade := v, phase := if p.needIcw4 then .icw4 else .ready }
  | .icw4 => { p with mode := v, phase := .ready }
  | .ready => { p with mask := v }

/-- The two controllers of a PC. -/
structure Pics where
  master : Pic
  slave : Pic

def Pics.out (s : Pics) (port v : Nat) : Pics :=
  if port = 0x20 then { s with master := s.master.command v }
  else if port = 0x21 then { s with master := s.master.dataByte v }
  else if port = 0xA0 then { s with slave := s.slave.command v }
  else if port = 0xA1 then { s with slave := s.slave.dataByte v }
  else s

def Pics.outs (s : Pics) (l : List (Nat × Nat)) : Pics := l.foldl (fun s x => s.out x.1 x.2) s

/-- The vector the CPU receives for IRQ `n` (lines 8-15 are the slave's). -/
def Pics.vector (s : Pics) (n : Nat) : Nat :=
  if n < 8 then s.master.base + n else s.slave.base + (n - 8)

/-- C56, remapping: whatever state the controllers are in, after `RemapIrqs` both are
initialised, cascaded over line 2, in 8086 mode, nothing is masked or in service, and
IRQ `n` arrives as vector 32 + n. -/
theorem C56_remap (s : Pics) :
    let s' := s.outs remapIrqs
    (∀ n, n < 16 → s'.vector n = 32 + n) ∧
      s'.master.phase = .ready ∧ s'.slave.phase = .ready ∧ s'.master.mask = 0 ∧ s'.slave.mask = 0 ∧
      s'.master.cascade = 2 ^ 2 ∧ s'.slave.cascade = 2 ∧ s'.master.mode = 1 ∧ s'.slave.mode = 1 ∧
      (∀ k, s'.master.inService k = false ∧ s'.slave.inService k = false) := by
  intro s'
  have hs : s' = ⟨⟨.ready, true, false, 32, 0, 4, 1, fun _ => false⟩,
      ⟨.ready, true, false, 40, 0, 2, 1, fun _ => false⟩⟩ := rfl
  rw [hs]
  refine ⟨?_, rfl, rfl, rfl, rfl, rfl, rfl, rfl, rfl, fun _ => ⟨rfl, rfl⟩⟩
  intro n hn
  simp only [Pics.vector]
  split <;> omega

/-- From the BIOS' setup (bases 8 and 0x70, a keyboard interrupt in service). -/
example : (Pics.outs ⟨⟨.ready, true, false, 8, 0xB8, 4, 1, fun k => k = 1⟩,
    ⟨.ready, true, false, 0x70, 0xFF, 2, 1, fun _ => false⟩⟩ remapIrqs).vector 14 = 46 :=
  (C56_remap _).1 14 (by decide)

def isEoi (port : Nat) : Event → Bool
  | .out p v => p = port ∧ v / 32 = 1 ∧ ¬ v.testBit 4 ∧ ¬ v.testBit 3
  | _ => false

def isOut : Event → Bool
  | .out _ _ => true
  | _ => false

/-- C56, end of interrupt: handling IRQ `n` sends exactly one EOI to the master and
exactly one (`n ≥ 8`) or none to the slave, nothing else is written to any port, and all
EOIs come before the handler runs. -/
theorem C56_eoi (s : Tables) (h : s.irqs.n = 16) (n : Nat) (hn : n < 16) :
    ∃ ev, irqHandler s n = .ok ev ∧ ev.countP (isEoi 0x20) = 1 ∧
      ev.countP (isEoi 0xA0) = (if n ≥ 8 then 1 else 0) ∧
      ev.countP isOut = (if n ≥ 8 then 2 else 1) ∧
      (∃ calls, ev.dropWhile isOut = calls ∧ calls.countP isOut = 0) := by
  have e : ∃ l, triggerIrq s n = .ok l ∧ (l = [] ∨ ∃ a b c, l = [.callIrq a b c]) := by
    simp only [triggerIrq, Arr.get, h, hn, if_true, Res.ok_bind]
    split
    · exact ⟨_, rfl, Or.inr ⟨_, _, _, rfl⟩⟩
    · exact ⟨_, rfl, Or.inl rfl⟩
  obtain ⟨l, e, hl⟩ := e
  simp only [irqHandler, e, Res.ok_bind]
  refine ⟨_, rfl, ?_⟩
  by_cases c : n ≥ 8
  · rcases hl with rfl | ⟨a, b, d, rfl⟩ <;> simp [c, isEoi, isOut, List.countP_cons, show Nat.testBit 32 4 = false by decide, show Nat.testBit 32 3 = false by decide]
  · rcases hl with rfl | ⟨a, b, d, rfl⟩ <;> simp [c, isEoi, isOut, List.countP_cons, show Nat.testBit 32 4 = false by decide, show Nat.testBit 32 3 = false by decide]

example : irqHandler { Tables.init with irqs := ⟨16, fun i => if i = 12 then ⟨77, 5⟩ else ⟨0, 0⟩⟩ } 12 =
    .ok [.out 0xA0 0x20, .out 0x20 0x20, .callIrq 77 12 5] := by decide

/-- Delivery of IRQ `n` sets its in-service bit; the slave interrupts through line 2. -/
def Pics.deliver (s : Pics) (n : Nat) : Pics :=
  if n < 8 then { s with master := { s.master with inService := fun j => j = n || s.master.inService j } }
  else { master := { s.master with inService := fun j => j = 2 || s.master.inService j },
         slave := { s.slave with inService := fun j => j = n - 8 || s.slave.inService j } }

/-- Fully nested priority: a line is delivered only if no line of the same or higher
priority is in service; line 2 of the master is the cascade. -/
def Pics.Deliverable (s : Pics) (n : Nat) : Prop :=
  if n < 8 then n ≠ 2 ∧ ∀ k, k ≤ n → s.master.inService k = false
  else n < 16 ∧ (∀ k, k ≤ 2 → s.master.inService k = false) ∧ ∀ k, k ≤ n - 8 → s.slave.inService k = false

theorem find_first (f : Nat → Bool) (n m : Nat) (hn : n < m) (hf : f n = true) (hl : ∀ k, k < n → f k = false) :
    (List.range m).find? f = some n := by
  rw [List.find?_range_eq_some]
  exact ⟨hf, by simpa using hn, fun j hj => by simp [hl j hj]⟩

theorem eoi_clears (p : Pic) (n : Nat) (hn : n < 8) (h : ∀ k, k ≤ n → p.inService k = false) :
    Pic.command { p with inService := fun j => j = n || p.inService j } 0x20 = p := by
  have ht : Pic.top { p with inService := fun j => j = n || p.inService j } = some n := by
    apply find_first _ _ _ hn
    · simp
    · intro k hk; simp [h k (by omega)]; omega
  simp only [Pic.command, ht, show Nat.testBit 0x20 4 = false by decide, show Nat.testBit 0x20 3 = false by decide,
    Bool.false_eq_true, if_false, show 0x20 / 32 = 1 from rfl, if_true]
  obtain ⟨a1, a2, a3, a4, a5, a6, a7, f⟩ := p
  simp only at h
  congr 1
  funext j
  by_cases c : j = n
  · simp [c, h n (Nat.le_refl _)]
  · simp [c]

/-- The port writes of a handler run. -/
def portWrites (ev : List Event) : List (Nat × Nat) :=
  ev.filterMap fun | .out p v => some (p, v) | _ => none

/-- C56, effect: after delivery of IRQ `n` the writes of `_irq_handler` clear exactly the
in-service bits of this interrupt, in both controllers, so that every line is served
again and interrupts in service before (of lower priority) stay in service. -/
theorem C56_in_service (t : Tables) (h : t.irqs.n = 16) (s : Pics) (n : Nat) (hn : n < 16) (hd : s.Deliverable n) :
    ∃ ev, irqHandler t n = .ok ev ∧ (s.deliver n).outs (portWrites ev) = s := by
  have e : ∃ l, triggerIrq t n = .ok l ∧ portWrites l = [] := by
    simp only [triggerIrq, Arr.get, h, hn, if_true, Res.ok_bind]
    split
    · exact ⟨_, rfl, rfl⟩
    · exact ⟨_, rfl, rfl⟩
  obtain ⟨l, e, hl⟩ := e
  simp only [irqHandler, e, Res.ok_bind]
  refine ⟨_, rfl, ?_⟩
  have hp : ∀ a b, portWrites (a ++ b) = portWrites a ++ portWrites b := by simp [portWrites]
  rw [hp, hl, List.append_nil]
  by_cases c : n < 8
  · simp only [Pics.Deliverable, c, if_true] at hd
    simp only [show ¬ n ≥ 8 by omega, if_false, Pics.deliver, c, if_true, List.nil_append, portWrites,
      List.filterMap_cons, List.filterMap_nil, Pics.outs, List.foldl_cons, List.foldl_nil, Pics.out]
    rw [eoi_clears _ n c hd.2]
  · simp only [Pics.Deliverable, c, if_false] at hd
    simp only [show n ≥ 8 by omega, if_true, Pics.deliver, c, if_false, List.cons_append, List.nil_append, portWrites,
      List.filterMap_cons, List.filterMap_nil, Pics.outs, List.foldl_cons, List.foldl_nil, Pics.out,
      show ¬ (0xA0 = 0x20) by decide, show ¬ (0xA0 = 0x21) by decide]
    rw [eoi_clears _ (n - 8) (by omega) hd.2.2, eoi_clears _ 2 (by decide) hd.2.1]

/-- IRQ 12 (slave) while the serial line 4 of the master is in service. -/
example : ∃ ev, irqHandler Tables.init 12 = .ok ev ∧
    (Pics.deliver ⟨⟨.ready, true, false, 32, 0, 4, 1, fun k => k = 4⟩, ⟨.ready, true, false, 40, 0, 2, 1, fun _ => false⟩⟩ 12).outs
      (portWrites ev) = ⟨⟨.ready, true, false, 32, 0, 4, 1, fun k => k = 4⟩, ⟨.ready, true, false, 40, 0, 2, 1, fun _ => false⟩⟩ :=
  C56_in_service Tables.init rfl _ 12 (by decide) (by
    refine ⟨by decide, ?_, ?_⟩
    · intro k hk; simp only [decide_eq_false_iff_not]; omega
    · intro k _; rfl)

end Verif.Interrupt
