import Verif.Model.IrqGuard

/-!
Model of the inline assembly in the C++ code: kernel/include/io/io.hpp, kernel/include/core/arch.hpp,
kernel/src/core/interrupt.cpp:23-25, 171-177, kernel/main.cpp:25.

The templates are the strings of the source. They are split into tokens, the operands chosen by the compiler are put in,
and the statements are assembled (AT&T syntax, as `g++` emits without `-masm=intel`, kernel/Makefile:2) and executed.
The assembler knows the instructions that occur and those that were meant. Status flags are not modelled (`and` leaves
`rflags` alone). Privilege level is 0.
-/

namespace Verif.InlineAsm

/-- A machine word (hardware, as used by kernel/include/core/arch.hpp:12-33). -/
abbrev W := BitVec 64

/-- General purpose registers (hardware, as used by kernel/include/core/arch.hpp:12-33). -/
inductive Reg where
  | rax | rbx | rcx | rdx | rsi | rdi | rbp | rsp | r8 | r9 | r10 | r11 | r12 | r13 | r14 | r15
  deriving DecidableEq

/-- Operand sizes (types of kernel/include/io/io.hpp:5-48). -/
inductive Width where
  | b8 | b16 | b32 | b64
  deriving DecidableEq

/-- Number of bits (types of kernel/include/io/io.hpp:5-48). -/
def Width.bits : Width → Nat
  | .b8 => 8 | .b16 => 16 | .b32 => 32 | .b64 => 64

/-- A memory operand: a displacement from a register, or the address of a static object
(operands of kernel/include/core/arch.hpp:14-31, kernel/src/core/interrupt.cpp:25). -/
structure Addr where
  base : Option Reg
  disp : W
  deriving DecidableEq

/-- Operands (as allowed by the constraints of kernel/include/io/io.hpp:5-48, kernel/include/core/arch.hpp:14-31). -/
inductive Operand where
  | reg (r : Reg) (w : Width)
  | mem (a : Addr)
  | imm (v : W)
  deriving DecidableEq

/-- A transfer on the I/O bus: size, port, value (hardware, as used by kernel/include/io/io.hpp:5-48). -/
inductive Io where
  | inp (w : Width) (port : BitVec 16) (v : BitVec 32)
  | out (w : Width) (port : BitVec 16) (v : BitVec 32)
  deriving DecidableEq

/-- Processor, memory (bytes) and the bus; `dev` answers reads from ports, by the number of the transfer
(hardware, as used by kernel/include/io/io.hpp:5-48, kernel/include/core/arch.hpp:12-33). -/
structure Cpu where
  reg : Reg → W
  rflags : IrqGuard.RFlags
  idtr : BitVec 16 × W
  mem : W → BitVec 8
  io : List Io
  dev : Nat → BitVec 32

/-- Eight bytes, least significant first (hardware, as used by kernel/include/core/arch.hpp:12-33). -/
def load64 (m : W → BitVec 8) (a : W) : W :=
  m (a + 7) ++ m (a + 6) ++ m (a + 5) ++ m (a + 4) ++ m (a + 3) ++ m (a + 2) ++ m (a + 1) ++ m a

/-- Two bytes (hardware, as used by kernel/src/core/interrupt.cpp:23-25). -/
def load16 (m : W → BitVec 8) (a : W) : BitVec 16 := m (a + 1) ++ m a

/-- Eight bytes stored (hardware, as used by kernel/include/core/arch.hpp:12-33). -/
def store64 (m : W → BitVec 8) (a v : W) : W → BitVec 8 :=
  fun x => if (x - a).toNat < 8 then (v >>> (8 * (x - a).toNat)).setWidth 8 else m x

/-- A register written (hardware, as used by kernel/include/core/arch.hpp:30-31). -/
def Cpu.set (s : Cpu) (r : Reg) (v : W) : Cpu := { s with reg := fun x => if x = r then v else s.reg x }

/-- Effective address (hardware, as used by kernel/include/core/arch.hpp:12-33). -/
def ea (s : Cpu) (a : Addr) : W :=
  match a.base with
  | none => a.disp
  | some r => s.reg r + a.disp

/-- Machine instructions; the port is a constant or `dx` (instructions meant in kernel/include/io/io.hpp:5-48, used in
kernel/include/core/arch.hpp:12-33, kernel/src/core/interrupt.cpp:23, 173, 176, kernel/main.cpp:25). -/
inductive Instr where
  | inp (w : Width) (port : Option (BitVec 8))
  | out (w : Width) (port : Option (BitVec 8))
  | pushfq | popfq | cli | sti
  | push (o : Operand)
  | pop (o : Operand)
  | lidt (a : Addr)
  | and (v : W) (r : Reg)
  deriving DecidableEq

/-- The number of the port (hardware, as used by kernel/include/io/io.hpp:5-48). -/
def portOf (s : Cpu) : Option (BitVec 8) → BitVec 16
  | some n => n.setWidth 16
  | none => (s.reg .rdx).setWidth 16

/-- `push` of a word (hardware, as used by kernel/include/core/arch.hpp:14, 20, 25, 30). -/
def pushWord (s : Cpu) (v : W) : Cpu :=
  { s with reg := fun x => if x = .rsp then s.reg .rsp - 8 else s.reg x, mem := store64 s.mem (s.reg .rsp - 8) v }

/-- `rsp + 8` (hardware, as used by kernel/include/core/arch.hpp:14, 20, 25, 30). -/
def dropWord (s : Cpu) : Cpu := s.set .rsp (s.reg .rsp + 8)

/-- The accumulator with its low part replaced: 32-bit writes clear the upper half
(hardware, as meant in kernel/include/io/io.hpp:5-12, 20-27, 35-42). -/
def merge (w : Width) (old : W) (v : BitVec 32) : W :=
  match w with
  | .b8 => (old &&& ~~~0xFF) ||| (v.setWidth 64 &&& 0xFF)
  | .b16 => (old &&& ~~~0xFFFF) ||| (v.setWidth 64 &&& 0xFFFF)
  | _ => v.setWidth 64

/-- The low part of the accumulator (hardware, as used by kernel/include/io/io.hpp:14-18, 29-33, 44-48). -/
def low (w : Width) (v : W) : BitVec 32 :=
  match w with
  | .b8 => (v &&& 0xFF).setWidth 32
  | .b16 => (v &&& 0xFFFF).setWidth 32
  | _ => v.setWidth 32

/-- The effect of an instruction. `push` computes the address of its operand before `rsp` changes, `pop` after
(hardware, as used by kernel/include/io/io.hpp, kernel/include/core/arch.hpp, kernel/src/core/interrupt.cpp:23-25, 171-177,
kernel/main.cpp:25). -/
def exec1 (s : Cpu) : Instr → Cpu
  | .inp w p =>
    let v := low w ((s.dev s.io.length).setWidth 64)
    { s.set .rax (merge w (s.reg .rax) v) with io := s.io ++ [.inp w (portOf s p) v] }
  | .out w p => { s with io := s.io ++ [.out w (portOf s p) (low w (s.reg .rax))] }
  | .pushfq => pushWord s (IrqGuard.pushfq s.rflags)
  | .popfq => { dropWord s with rflags := IrqGuard.popfq (load64 s.mem (s.reg .rsp)) }
  | .cli => { s with rflags := IrqGuard.cli s.rflags }
  | .sti => { s with rflags := s.rflags ||| 0x200 }
  | .push (.reg r _) => pushWord s (s.reg r)
  | .push (.mem a) => pushWord s (load64 s.mem (ea s a))
  | .push (.imm v) => pushWord s v
  | .pop (.reg r _) => (dropWord s).set r (load64 s.mem (s.reg .rsp))
  | .pop (.mem a) =>
    let s' := dropWord s
    { s' with mem := store64 s.mem (ea s' a) (load64 s.mem (s.reg .rsp)) }
  | .pop (.imm _) => s
  | .lidt a => { s with idtr := (load16 s.mem (ea s a), load64 s.mem (ea s a + 2)) }
  | .and v r => s.set r (s.reg r &&& v)

/-- A sequence of instructions (hardware, as used by kernel/include/core/arch.hpp:12-33). -/
def exec (s : Cpu) (l : List Instr) : Cpu := l.foldl exec1 s

/-! ### Templates -/

/-- Tokens of a template (templates of kernel/include/io/io.hpp:7-45). -/
inductive Tok where
  | word (w : List Char)
  | hole (name : List Char)
  | comma
  | semi
  deriving DecidableEq

/-- What the scanner is in the middle of (templates of kernel/include/io/io.hpp:7-45). -/
inductive Mode where
  | idle
  | word (w : List Char)
  | percent
  | name (n : List Char)

/-- The end of a word (templates of kernel/include/io/io.hpp:7-45). -/
def Mode.flush : Mode → List Tok
  | .word w => [.word w]
  | _ => []

/-- The scanner: `%[name]` and `%0` are holes, spaces separate (templates of kernel/include/io/io.hpp:7-45,
kernel/include/core/arch.hpp:14-30). In an `asm` without operands `%` is an ordinary character (kernel/main.cpp:25). -/
def lex (holes : Bool) : Mode → List Char → List Tok
  | m, [] => m.flush
  | .percent, c :: r => if c = '[' then lex holes (.name []) r else .hole [c] :: lex holes .idle r
  | .name n, c :: r => if c = ']' then .hole n :: lex holes .idle r else lex holes (.name (n ++ [c])) r
  | m, c :: r =>
    if c = ' ' then m.flush ++ lex holes .idle r
    else if c = ',' then m.flush ++ .comma :: lex holes .idle r
    else if c = ';' then m.flush ++ .semi :: lex holes .idle r
    else if c = '%' ∧ holes = true then m.flush ++ lex holes .percent r
    else match m with
      | .word w => lex holes (.word (w ++ [c])) r
      | _ => lex holes (.word [c]) r

/-- Mnemonics (kernel/include/io/io.hpp:7-45, kernel/include/core/arch.hpp:14-30, kernel/src/core/interrupt.cpp:23, 173, 176,
kernel/main.cpp:25). -/
inductive Mn where
  | inx (w : Width)
  | outx (w : Width)
  | pushfq | popfq | cli | sti | push | pop | lidt | andq
  deriving DecidableEq

/-- The words that are mnemonics (kernel/include/io/io.hpp:7-45, kernel/include/core/arch.hpp:14-30,
kernel/src/core/interrupt.cpp:23, 173, 176, kernel/main.cpp:25). -/
def mnemonics : List (String × Mn) :=
  [("inb", .inx .b8), ("inw", .inx .b16), ("inl", .inx .b32), ("outb", .outx .b8), ("outw", .outx .b16), ("outl", .outx .b32),
   ("pushfq", .pushfq), ("popfq", .popfq), ("cli", .cli), ("sti", .sti), ("push", .push), ("pop", .pop), ("lidt", .lidt),
   ("andq", .andq)]

/-- Literal operands (kernel/main.cpp:25). -/
def literals : List (String × Operand) := [("%rsp", .reg .rsp .b64), ("$-16", .imm (-16))]

/-- A token with its meaning: holes by the position of the operand (templates of kernel/include/io/io.hpp:7-45). -/
inductive Sym where
  | mn (m : Mn)
  | lit (o : Operand)
  | hole (i : Nat)
  | comma
  | semi
  deriving DecidableEq

/-- The meaning of a token, given the names of the operands (operand lists of kernel/include/io/io.hpp:8-47). -/
def sym (names : List String) : Tok → Option Sym
  | .hole n => (names.findIdx? (fun x => x.toList = n)).map .hole
  | .word w =>
    match mnemonics.find? (fun x => x.1.toList = w) with
    | some x => some (.mn x.2)
    | none => (literals.find? (fun x => x.1.toList = w)).map (fun x => .lit x.2)
  | .comma => some .comma
  | .semi => some .semi

/-- A statement with its operands in place (templates of kernel/include/io/io.hpp:7-45). -/
inductive Item where
  | mn (m : Mn)
  | opnd (o : Operand)
  | comma
  | semi
  deriving DecidableEq

/-- The operands put in (operand lists of kernel/include/io/io.hpp:8-47). -/
def item (ops : List Operand) : Sym → Option Item
  | .mn m => some (.mn m)
  | .lit o => some (.opnd o)
  | .hole i => ops[i]?.map .opnd
  | .comma => some .comma
  | .semi => some .semi

/-- Statements are separated by semicolons (kernel/include/core/arch.hpp:14-30). -/
def statements : List Item → List (List Item)
  | [] => [[]]
  | .semi :: r => [] :: statements r
  | i :: r =>
    match statements r with
    | [] => [[i]]
    | s :: ss => (i :: s) :: ss

/-- Operands are separated by commas (assembler, as used by kernel/include/io/io.hpp:7-45). -/
def operands : List Item → Option (List Operand)
  | [] => some []
  | [.opnd o] => some [o]
  | .opnd o :: .comma :: i :: r => (operands (i :: r)).map (o :: ·)
  | _ => none

/-- A port: a constant below 256 or `dx` (hardware, as used by kernel/include/io/io.hpp:5-48). -/
def port : Operand → Option (Option (BitVec 8))
  | .imm v => if v.toNat < 256 then some (some (v.setWidth 8)) else none
  | .reg .rdx .b16 => some none
  | _ => none

/-- One statement: which operands an instruction takes, in AT&T order (source first)
(assembler, as used by kernel/include/io/io.hpp:7-45, kernel/include/core/arch.hpp:14-30). -/
def encode : Mn → List Operand → Option Instr
  | .inx w, [p, .reg .rax w'] => if w = w' then (port p).map (.inp w) else none
  | .inx w, [p] => (port p).map (.inp w)
  | .outx w, [.reg .rax w', p] => if w = w' then (port p).map (.out w) else none
  | .outx w, [p] => (port p).map (.out w)
  | .pushfq, [] => some .pushfq
  | .popfq, [] => some .popfq
  | .cli, [] => some .cli
  | .sti, [] => some .sti
  | .push, [.reg r .b64] => some (.push (.reg r .b64))
  | .push, [.mem a] => some (.push (.mem a))
  | .push, [.imm v] => some (.push (.imm v))
  | .pop, [.reg r .b64] => some (.pop (.reg r .b64))
  | .pop, [.mem a] => some (.pop (.mem a))
  | .lidt, [.mem a] => some (.lidt a)
  | .andq, [.imm v, .reg r .b64] => some (.and v r)
  | _, _ => none

/-- One statement (assembler, as used by kernel/include/io/io.hpp:7-45). -/
def statement : List Item → Option (List Instr)
  | [] => some []
  | .mn m :: r =>
    match operands r with
    | some os => (encode m os).map ([·])
    | none => none
  | _ => none

/-- All statements (assembler, as used by kernel/include/core/arch.hpp:14-30). -/
def assembleAll : List (List Item) → Option (List Instr)
  | [] => some []
  | s :: ss =>
    match statement s, assembleAll ss with
    | some a, some b => some (a ++ b)
    | _, _ => none

/-- An `asm` statement: its text and its operands, outputs first, with name, constraint and size
(kernel/include/io/io.hpp:7-47). -/
structure Asm where
  text : String
  basic : Bool := false
  operands : List (String × String × Width)

/-- `f` for every element, if it succeeds for all (no code; kernel/include/io/io.hpp:7-47). -/
def all {α β : Type} (f : α → Option β) : List α → Option (List β)
  | [] => some []
  | x :: l =>
    match f x, all f l with
    | some y, some l' => some (y :: l')
    | _, _ => none

/-- The template read (compiler and assembler, for kernel/include/io/io.hpp:7-47). -/
def Asm.read (t : Asm) : Option (List Sym) :=
  all (sym (t.operands.map (·.1))) (lex (!t.basic) .idle t.text.toList)

/-- The code for a choice of operands (compiler and assembler, for kernel/include/io/io.hpp:7-47). -/
def Asm.code (t : Asm) (ops : List Operand) : Option (List Instr) :=
  match t.read with
  | some l =>
    match all (item ops) l with
    | some l' => assembleAll (statements l')
    | none => none
  | none => none

/-- Running it (compiler, assembler and hardware, for kernel/include/io/io.hpp:7-47). -/
def Asm.run (t : Asm) (ops : List Operand) (s : Cpu) : Option Cpu := (t.code ops).map (exec s)

/-- `in_byte`, kernel/include/io/io.hpp:7-10. -/
def inByte : Asm := ⟨"inb %[v] %[port]", false, [("v", "=a", .b8), ("port", "dN", .b16)]⟩

/-- `out_byte`, kernel/include/io/io.hpp:15-17. -/
def outByte : Asm := ⟨"outb %[data],%[port]", false, [("port", "dN", .b16), ("data", "a", .b8)]⟩

/-- `in_word`, kernel/include/io/io.hpp:22-25. -/
def inWord : Asm := ⟨"inb %[v] %[port]", false, [("v", "=a", .b16), ("port", "dN", .b16)]⟩

/-- `out_word`, kernel/include/io/io.hpp:30-32. -/
def outWord : Asm := ⟨"outw %[data] %[port]", false, [("port", "dN", .b16), ("data", "a", .b16)]⟩

/-- `in_dword`, kernel/include/io/io.hpp:37-40. -/
def inDword : Asm := ⟨"inl %[v] %[port]", false, [("v", "=a", .b32), ("port", "dN", .b16)]⟩

/-- `out_dword`, kernel/include/io/io.hpp:45-47. -/
def outDword : Asm := ⟨"outl %[data] %[port]", false, [("port", "dN", .b16), ("data", "a", .b32)]⟩

/-- `getRflags`, kernel/include/core/arch.hpp:14-15. -/
def getRflags : Asm := ⟨"pushfq; pop %0;", false, [("0", "=m", .b64)]⟩

/-- `DisableHwint`, kernel/include/core/arch.hpp:20. -/
def disableHwint : Asm := ⟨"pushfq; pop %0; cli;", false, [("0", "=m", .b64)]⟩

/-- `EnableHwint`, kernel/include/core/arch.hpp:25. -/
def enableHwint : Asm := ⟨"push %0;popfq;", false, [("0", "m", .b64)]⟩

/-- `EnabledIrq`, kernel/include/core/arch.hpp:30-31. -/
def enabledIrq : Asm := ⟨"pushfq; pop %0;", false, [("0", "=g", .b64)]⟩

/-- `Interrupt::Enable`, kernel/src/core/interrupt.cpp:172-173. -/
def enable : Asm := ⟨"sti", false, []⟩

/-- `Interrupt::Disable`, kernel/src/core/interrupt.cpp:176. -/
def disable : Asm := ⟨"cli", false, []⟩

/-- The end of `InstallIdt`, kernel/src/core/interrupt.cpp:23-25 (the size of the operand is not used). -/
def lidt : Asm := ⟨"lidt %0", false, [("0", "m", .b64)]⟩

/-- The start of `main`, kernel/main.cpp:25. -/
def alignStack : Asm := ⟨"andq $-16, %rsp", true, []⟩

/-- What a constraint allows (compiler, for kernel/include/io/io.hpp:8-47, kernel/include/core/arch.hpp:15-31): `a` the
accumulator, `dN` the data register or a constant from 0 to 255, `m` memory, `g` (for an output) memory or any register but
the stack pointer. -/
def allows (constraint : String) (w : Width) : Operand → Bool
  | .reg r w' =>
    decide (w = w') &&
      ((r = .rax && (constraint = "a" || constraint = "=a")) || (r = .rdx && constraint = "dN") ||
        (r ≠ .rsp && constraint = "=g"))
  | .mem _ => constraint = "m" || constraint = "=m" || constraint = "=g"
  | .imm v => constraint = "dN" && decide (v.toNat < 256)

/-- A choice of operands for a statement (compiler, for kernel/include/io/io.hpp:8-47). -/
def Asm.Choice (t : Asm) (ops : List Operand) : Prop :=
  ops.length = t.operands.length ∧ ∀ x ∈ t.operands.zip ops, allows x.1.2.1 x.1.2.2 x.2 = true

/-- The value in an operand (compiler, for kernel/include/io/io.hpp:8-47): what it puts there before, or reads afterwards;
memory operands are words here. -/
def value (s : Cpu) : Operand → W
  | .reg r w => s.reg r &&& (BitVec.allOnes 64 >>> (64 - w.bits))
  | .mem a => load64 s.mem (ea s a)
  | .imm v => v

end Verif.InlineAsm
