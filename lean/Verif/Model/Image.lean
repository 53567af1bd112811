import Verif.Model.Loader
import Verif.Model.Mode

/-!
Model of the kernel image as assembler and linker lay it out: the directives of `kernel/head.S`
(machine code of its instructions: any bytes), the linker script `kernel/Eospp.lds` with the order
of the objects of `kernel/Makefile`, and `objcopy -O binary`. The sections of the other objects are
any bytes (after relocation) with any alignment. Padding bytes are zero here; nothing depends
on them. Also `global_obj::Init`, which calls the constructors in the table the linker made.
-/

namespace Verif.Image
open Verif

/-- Little endian, `n` bytes; `.quad` and `.word` of kernel/head.S:55-119. -/
def le (v : Nat) : Nat → List (BitVec 8)
  | 0 => []
  | n + 1 => BitVec.ofNat 8 v :: le (v / 256) n

/-- Operands: a number, a symbol, `a - b - 1`; kernel/head.S:31, 48, 55, 102-103. -/
inductive Expr where
  | num (n : Nat)
  | sym (s : String)
  | size (a b : String)

/-- The directives of kernel/head.S:1-119; `code` stands for instructions. -/
inductive Dir where
  | label (s : String)
  | quad (e : Expr)
  | word (e : Expr)
  | fill (n size v : Nat)
  | org (n : Nat)
  | align (k : Nat)
  | code (l : List (BitVec 8))

/-- Bytes up to the next multiple of `2 ^ k`; kernel/head.S:50, kernel/Eospp.lds:16. -/
def padTo (pos k : Nat) : Nat := (2 ^ k - pos % 2 ^ k) % 2 ^ k

/-- The size of a directive at a place of its section; `.org` cannot go back.
kernel/head.S:1-119. -/
def Dir.bytesAt (pos : Nat) : Dir → Option Nat
  | .label _ => some 0
  | .quad _ => some 8
  | .word _ => some 2
  | .fill n size _ => some (n * size)
  | .org n => if pos ≤ n then some (n - pos) else none
  | .align k => some (padTo pos k)
  | .code l => some l.length

/-- First pass of the assembler: the places of the labels, and the size of the section;
kernel/head.S:1-119. -/
def labels : List Dir → Nat → Option (List (String × Nat) × Nat)
  | [], pos => some ([], pos)
  | d :: l, pos =>
    match d.bytesAt pos with
    | none => none
    | some n =>
      match labels l (pos + n) with
      | none => none
      | some (t, e) =>
        match d with
        | .label s => some ((s, pos) :: t, e)
        | _ => some (t, e)

/-- The value of an operand; kernel/head.S:31, 48, 55, 102-103. -/
def Expr.eval (env : String → Nat) : Expr → Nat
  | .num n => n
  | .sym s => env s
  | .size a b => env a - env b - 1

/-- The bytes of a directive; kernel/head.S:1-119. -/
def Dir.bytes (env : String → Nat) (pos : Nat) : Dir → List (BitVec 8)
  | .label _ => []
  | .quad e => le (e.eval env) 8
  | .word e => le (e.eval env) 2
  | .fill n size v => (List.replicate n (le v size)).flatten
  | .org n => List.replicate (n - pos) 0
  | .align k => List.replicate (padTo pos k) 0
  | .code l => l

/-- Second pass of the assembler (and relocation by the linker); kernel/head.S:1-119. -/
def emit (env : String → Nat) : List Dir → Nat → List (BitVec 8)
  | [], _ => []
  | d :: l, pos => d.bytes env pos ++ emit env l (pos + (d.bytes env pos).length)

/-- Section `.text` of kernel/head.S:1-82; `c1` and `c2` are the instructions of lines 5-28 and
34-45. -/
def headText (c1 c2 : List (BitVec 8)) : List Dir :=
  [.label "_start", .code c1,
   .label "SwitchSeg", .quad (.sym "Entry64"),
   .label "Entry64", .code c2,
   .label "StartKernel", .quad (.sym "main"),
   .align 3,
   .org 0x1000,
   .label "PML4", .quad (.num 0x00102007), .fill 255 8 0, .quad (.num 0x00102007), .fill 255 8 0,
   .org 0x2000,
   .label "PDPTE", .quad (.num 0x103003), .fill 511 8 0,
   .org 0x3000,
   .label "PDE",
   .quad (.num 0x00000083), .quad (.num 0x00200083), .quad (.num 0x00400083),
   .quad (.num 0x00600083), .quad (.num 0x00800083),
   .quad (.num 0xe0000083), .quad (.num 0xe0200083), .quad (.num 0xe0400083),
   .quad (.num 0xe0600083), .quad (.num 0xe0800083), .quad (.num 0xe0a00083),
   .quad (.num 0xe0c00083), .quad (.num 0xe0e00083), .fill 499 8 0]

/-- Section `.data` of kernel/head.S:84-119. -/
def headData : List Dir :=
  [.label "GDT_TABLE",
   .quad (.num 0x0000000000000000), .quad (.num 0x0020980000000000),
   .quad (.num 0x0000920000000000), .quad (.num 0x0020f80000000000),
   .quad (.num 0x0000f20000000000), .quad (.num 0x00cf9a000000ffff),
   .quad (.num 0x00cf92000000ffff), .fill 10 8 0,
   .label "GDT_END",
   .label "GDT_PTR", .word (.size "GDT_END" "GDT_TABLE"), .quad (.sym "GDT_TABLE"),
   .label "IDT_TABLE", .fill 512 8 0,
   .label "IDT_END",
   .label "IDT_PTR", .word (.size "IDT_END" "IDT_TABLE"), .quad (.sym "IDT_TABLE"),
   .label "TSS64_TABLE", .fill 13 8 0,
   .label "TSS64_END",
   .label "TSS64_PTR", .word (.size "TSS64_END" "TSS64_TABLE"), .quad (.sym "TSS64_TABLE")]

/-- A section of another object: alignment `2 ^ k`, contents (input of kernel/Eospp.lds:12, 20). -/
structure Sec where
  k : Nat
  bytes : List (BitVec 8)

/-- Sections one behind the other, from an address on; kernel/Eospp.lds:12, 20, 22-23. -/
def lay : List Sec → Nat → List (BitVec 8)
  | [], _ => []
  | s :: l, pos =>
    List.replicate (padTo pos s.k) 0 ++ s.bytes ++ lay l (pos + padTo pos s.k + s.bytes.length)

/-- The strictest alignment, which the linker gives the output section; kernel/Eospp.lds:17-27. -/
def maxK : List Sec → Nat
  | [] => 0
  | s :: l => max s.k (maxK l)

/-- Words as bytes; the tables of constructors, kernel/Eospp.lds:22-23. -/
def quads (l : List Nat) : List (BitVec 8) := l.flatMap fun v => le v 8

/-- What is linked with head.o (kernel/Makefile:10-17, head.o comes first): the machine code of
head.S, the `.text` and `.data` sections of the other objects in order, sections the script does
not name (`orphans`, which the linker puts behind `.text`, before or after the `ALIGN(8)`), the
tables of constructors (`.init_array`, those with a priority behind the others), the address of
`main`. kernel/Eospp.lds:8-27. -/
structure Parts where
  c1 : List (BitVec 8)
  c2 : List (BitVec 8)
  texts : List Sec
  orphans1 : List (BitVec 8)
  orphans2 : List (BitVec 8)
  datas : List Sec
  ctors : List (List Nat)
  main : Nat

/-- The sections `.init_array`: aligned to words; kernel/Eospp.lds:22-23. -/
def Parts.inits (p : Parts) : List Sec := p.ctors.map fun fs => ⟨3, quads fs⟩

/-- The image, and the symbols; kernel/Eospp.lds:8-27. -/
structure Linked where
  image : List (BitVec 8)
  sym : String → Nat
  startCtors : Nat
  endCtors : Nat

/-- `. = 0xffff800000000000 + 0x100000`, kernel/Eospp.lds:8. -/
def base : Nat := 0xffff800000000000 + 0x100000

/-- The value of a symbol; kernel/head.S:4-119, kernel/main.cpp:21. -/
def symbol (tl dl : List (String × Nat)) (d main : Nat) (s : String) : Nat :=
  match tl.find? fun x => x.1 = s with
  | some x => base + x.2
  | none =>
    match dl.find? fun x => x.1 = s with
    | some x => d + x.2
    | none => if s = "main" then main else 0

/-- Assembling and linking: kernel/head.S:1-119, kernel/Eospp.lds:5-27, kernel/Makefile:12-17.
Alignments over `2 ^ 20` are left out (`base` has no more). -/
def link (p : Parts) : Option Linked :=
  match labels (headText p.c1 p.c2) 0, labels headData 0 with
  | some (tl, tsize), some (dl, dsize) =>
    if maxK p.texts ≤ 20 then
      let others := lay p.texts (base + tsize)
      let a1 := base + tsize + others.length + p.orphans1.length
      let a2 := a1 + padTo a1 3 + p.orphans2.length
      let d := a2 + padTo a2 (maxK (p.datas ++ p.inits))
      let env := symbol tl dl d p.main
      let datas := lay p.datas (d + dsize)
      let startCtors := d + dsize + datas.length
      let ctors := lay p.inits startCtors
      some
        { image := emit env (headText p.c1 p.c2) 0 ++ others ++ p.orphans1 ++
            List.replicate (padTo a1 3) 0 ++ p.orphans2 ++
            List.replicate (padTo a2 (maxK (p.datas ++ p.inits))) 0 ++
            emit env headData 0 ++ datas ++ ctors
          sym := env
          startCtors := startCtors
          endCtors := startCtors + ctors.length }
    else none
  | _, _ => none

/-- `global_obj::Init`, kernel/include/core/global_obj.hpp:8-11: `read` is the load of a word
(`none`: a fault); the result is the list of addresses called. Constructors return and leave the
table alone. -/
def initLoop (read : BitVec 64 → Option Nat) (stop : BitVec 64) :
    Nat → BitVec 64 → List Nat → Res (List Nat)
  | 0, _, _ => .oof
  | n + 1, i, calls =>
    if i ≠ stop then
      match read i with
      | some f => initLoop read stop n (i + 8) (calls ++ [f])
      | none => .ub
    else .ok calls

end Verif.Image
