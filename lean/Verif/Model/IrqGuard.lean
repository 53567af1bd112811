/-!
Model of `IrqGuard` (kernel/include/core/interrupt.hpp:123-134) and the flag
operations of `Arch` (kernel/include/core/arch.hpp:12-34), executed at privilege level 0.
-/

namespace Verif.IrqGuard

/-- The flags register (kernel/include/core/arch.hpp:12-34). -/
abbrev RFlags := BitVec 64

/-- The interrupt flag, bit 9 (kernel/include/core/arch.hpp:28-33). -/
def ifSet (f : RFlags) : Bool := f.getLsbD 9

/-- `pushfq`: the image on the stack has RF and VM (bits 16, 17) cleared
(used at kernel/include/core/arch.hpp:20). -/
def pushfq (f : RFlags) : BitVec 64 := f &&& 0xFCFFFF

/-- `popfq` at level 0: loads CF PF AF ZF SF TF IF DF OF IOPL NT AC ID; bit 1 is always
set (used at kernel/include/core/arch.hpp:25). -/
def popfq (image : BitVec 64) : RFlags := (image &&& 0x247FD5) ||| 2

/-- `cli`, kernel/include/core/arch.hpp:20. -/
def cli (f : RFlags) : RFlags := f &&& ~~~0x200

/-- `Arch::DisableHwint`: the saved image and the new flags, kernel/include/core/arch.hpp:19-22. -/
def disableHwint (f : RFlags) : BitVec 64 × RFlags := (pushfq f, cli f)

/-- `Arch::EnableHwint`, kernel/include/core/arch.hpp:24-26. -/
def enableHwint (saved : BitVec 64) : RFlags := popfq saved

/-- `Arch::EnabledIrq`, kernel/include/core/arch.hpp:28-33. -/
def enabledIrq (f : RFlags) : Bool := pushfq f &&& 0x200 ≠ 0

/-- An execution that uses guards: elementary operations (with their effect on the
flags), sequences, and a scope with an `IrqGuard` in it
(uses of kernel/include/core/interrupt.hpp:123-134). -/
inductive Prog where
  | op (effect : RFlags → RFlags)
  | skip
  | seq (a b : Prog)
  | guard (body : Prog)

/-- Running it: the final flags and the flags at every elementary operation, with the
number of guards around it. The guard saves the flags and clears IF in its constructor
and restores them in its destructor, kernel/include/core/interrupt.hpp:125-131. -/
def Prog.run : Prog → Nat → RFlags → RFlags × List (Nat × RFlags)
  | .op e, d, f => (e f, [(d, f)])
  | .skip, _, f => (f, [])
  | .seq a b, d, f =>
    let (f1, l1) := a.run d f
    let (f2, l2) := b.run d f1
    (f2, l1 ++ l2)
  | .guard body, d, f =>
    let (saved, f1) := disableHwint f
    let (_, l) := body.run (d + 1) f1
    (enableHwint saved, l)

/-- The elementary operations do not themselves touch IF
(no code; uses of kernel/include/core/interrupt.hpp:123-134). -/
def Prog.Ordinary : Prog → Prop
  | .op e => ∀ f, ifSet (e f) = ifSet f
  | .skip => True
  | .seq a b => a.Ordinary ∧ b.Ordinary
  | .guard body => body.Ordinary

end Verif.IrqGuard
