import Verif.Model.Printf

/-!
Model of `io::printf` (kernel/src/io/veas.cpp:325-332) as it is interrupted: the call is cut into
small steps, and between any two of them an interrupt may arrive if the interrupt flag is set. The
handler of the interrupt may itself print, enable interrupts and be interrupted.

Simplifications: the text that format and arguments stand for is given (that the formatting
produces it is property C77), it is written from the first byte of the buffer to the last
(kernel/src/util/string.cpp:153-384); drawing one character (kernel/src/io/veas.cpp:365-391) is one step.
-/

namespace Verif.Reent
open Verif

/-- A text as `printf` passes it to the console, without the NUL (kernel/src/io/veas.cpp:329-331). -/
abbrev Text := List (BitVec 8)

/-- The small steps (kernel/src/io/veas.cpp:325-332, 362-393; kernel/include/core/arch.hpp:19-26). -/
inductive Ins where
  /-- The call begins: its automatic variables, kernel/src/io/veas.cpp:325. -/
  | enter
  /-- `pushfq; pop` of a guard, kernel/include/core/arch.hpp:20. -/
  | save
  /-- `cli`, kernel/include/core/arch.hpp:20 and kernel/src/core/interrupt.cpp:176. -/
  | cli
  /-- `sti`, kernel/src/core/interrupt.cpp:171-174. -/
  | sti
  /-- `push; popfq` of a guard, kernel/include/core/arch.hpp:25. -/
  | popf
  /-- `buf[i] = b`, kernel/src/io/veas.cpp:329. -/
  | store (i : Nat) (b : BitVec 8)
  /-- One round of `cstrlen` for the `string_view`, kernel/src/io/veas.cpp:331, estl/string_view.hpp:22-23. -/
  | scan
  /-- Half a round of the loop of `ColorPrint`: fetch a character, or draw it,
  kernel/src/io/veas.cpp:379-391. -/
  | draw
  /-- The guard of `printf` ends, and the call with it, kernel/src/io/veas.cpp:332. -/
  | leave (t : Text)
  /-- `while(1){}`, kernel/src/core/interrupt.cpp:240. -/
  | hang

/-- The shared state: the static buffer (kernel/src/io/veas.cpp:323), the console
(kernel/src/io/veas.cpp:321), the flags, and (to speak about it) which calls of `printf` have
ended: by whom, and with which text. -/
structure Sh where
  buf : Nat → BitVec 8
  scr : Vesa.Screen
  flags : IrqGuard.RFlags
  out : List (Nat × Text)

/-- A stack frame: what is left to do, the saved images of the guards in scope
(kernel/include/core/interrupt.hpp:133), the length of the `string_view` and the position in it
(kernel/src/io/veas.cpp:379), the character fetched, the flags the interrupt pushed
(kernel/include/core/interrupt.hpp:71), and a number for the activation. -/
structure Frame where
  code : List Ins
  guards : List (BitVec 64) := []
  n : Nat := 0
  i : Nat := 0
  cur : Option (BitVec 8) := none
  ret : IrqGuard.RFlags := 0
  id : Nat

/-- One small step of the running frame; `none` if there is nothing to do
(kernel/src/io/veas.cpp:325-332, 362-393; kernel/include/core/arch.hpp:19-26). -/
def exec (font : Vesa.Font) (fr : Frame) (s : Sh) : Option (Frame × Sh) :=
  match fr.code with
  | [] => none
  | .enter :: k => some ({ fr with code := k, n := 0, i := 0, cur := none }, s)
  | .save :: k => some ({ fr with code := k, guards := IrqGuard.pushfq s.flags :: fr.guards }, s)
  | .cli :: k => some ({ fr with code := k }, { s with flags := IrqGuard.cli s.flags })
  | .sti :: k => some ({ fr with code := k }, { s with flags := s.flags ||| 0x200 })
  | .popf :: k =>
    match fr.guards with
    | g :: gs => some ({ fr with code := k, guards := gs }, { s with flags := IrqGuard.enableHwint g })
    | [] => none
  | .store i b :: k => some ({ fr with code := k }, { s with buf := fun j => if j = i then b else s.buf j })
  | .scan :: k => if s.buf fr.n = 0 then some ({ fr with code := k }, s) else some ({ fr with n := fr.n + 1 }, s)
  | .draw :: k =>
    match fr.cur with
    | none => if fr.i < fr.n then some ({ fr with cur := some (s.buf fr.i) }, s) else some ({ fr with code := k }, s)
    | some c => some ({ fr with cur := none, i := fr.i + 1 }, { s with scr := Vesa.putc font Printf.white c s.scr })
  | .leave t :: k =>
    match fr.guards with
    | g :: gs =>
      some ({ fr with code := k, guards := gs }, { s with flags := IrqGuard.enableHwint g, out := s.out ++ [(fr.id, t)] })
    | [] => none
  | .hang :: _ => some (fr, s)

/-- The bytes of the text from position `i` on and the NUL are stored
(kernel/src/io/veas.cpp:329; kernel/src/util/string.cpp:153-384). -/
def stores : Text → Nat → List Ins
  | [], i => [.store i 0]
  | b :: l, i => .store i b :: stores l (i + 1)

/-- What follows in `printf`: the `string_view`, `ColorPrint` with its guard, the end of the guard
(kernel/src/io/veas.cpp:331-332, 362-393). -/
def shown (t : Text) : List Ins := [.scan, .save, .cli, .draw, .popf, .leave t]

/-- `printf` of the text `t`, kernel/src/io/veas.cpp:325-332. -/
def print (t : Text) : List Ins := [.enter, .save, .cli] ++ stores t 0 ++ shown t

/-- What the kernel and the handlers do, as far as printing is concerned: `printf`,
`Interrupt::Enable` and `Disable` (kernel/src/core/interrupt.cpp:171-177), the beginning
and the end of a scope with an `IrqGuard` (as in `_irq_handler`, kernel/src/core/interrupt.cpp:246). -/
inductive Op where
  | print (t : Text)
  | enable
  | disable
  | guard
  | unguard
  deriving DecidableEq

/-- The small steps of an operation (kernel/src/core/interrupt.cpp:171-177;
kernel/include/core/interrupt.hpp:125-131). -/
def Op.code : Op → List Ins
  | .print t => Reent.print t
  | .enable => [.sti]
  | .disable => [.cli]
  | .guard => [.save, .cli]
  | .unguard => [.popf]

/-- The small steps of a sequence of operations (kernel/src/core/interrupt.cpp:178-192, 244-255). -/
def code (ops : List Op) : List Ins := ops.flatMap Op.code

/-- The machine: the frames, the running one first, the shared state, and what each activation so
far was to do (activation 0 is the kernel, kernel/main.cpp:21-49). -/
structure Cfg where
  frames : List Frame
  sh : Sh
  acts : List (List Op)

/-- The kernel is about to do `ops`, kernel/main.cpp:21-49. -/
def start (ops : List Op) (s : Sh) : Cfg := ⟨[{ code := code ops, id := 0 }], s, [ops]⟩

/-- A step of the machine. All gates are interrupt gates (kernel/src/core/interrupt.cpp:73-90), so IF
is cleared when a handler begins; `iretq` (kernel/src/core/irqs.s:43) restores the flags. -/
inductive Step (font : Vesa.Font) : Cfg → Cfg → Prop where
  | run {fr fr' fs s s' a} : exec font fr s = some (fr', s') → Step font ⟨fr :: fs, s, a⟩ ⟨fr' :: fs, s', a⟩
  | irq {fs s a} (ops : List Op) : IrqGuard.ifSet s.flags = true →
    Step font ⟨fs, s, a⟩
      ⟨{ code := code ops, ret := s.flags, id := a.length } :: fs, { s with flags := IrqGuard.cli s.flags }, a ++ [ops]⟩
  | iret {fr fr' fs s a} : fr.code = [] →
    Step font ⟨fr :: fr' :: fs, s, a⟩ ⟨fr' :: fs, { s with flags := fr.ret }, a⟩

/-- Any number of steps (kernel/src/io/veas.cpp:325-332 and whatever interrupts it). -/
inductive Steps (font : Vesa.Font) : Cfg → Cfg → Prop where
  | refl {c} : Steps font c c
  | tail {c c' c''} : Steps font c c' → Step font c' c'' → Steps font c c''

/-- An exception (or NMI) arrives, whatever the flags: `_fault_handler` prints its two lines and
never returns, kernel/src/core/interrupt.cpp:236-242; the gate clears IF (:38-71). The record of
calls begins anew. -/
def fault (t1 t2 : Text) (c : Cfg) : Cfg :=
  ⟨{ code := code [.print t1, .print t2] ++ [.hang], ret := c.sh.flags, id := c.acts.length } :: c.frames,
    { c.sh with flags := IrqGuard.cli c.sh.flags, out := [] }, c.acts ++ [[.print t1, .print t2]]⟩

end Verif.Reent
