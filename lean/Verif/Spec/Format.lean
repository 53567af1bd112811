import Verif.Model.Format

/-!
Specification of the formatting language, independent of buffers: which text a
format with given arguments stands for. It shares with the model only the
argument type. The description is declarative (`takeWhile`, standard library
`Nat.toDigits`), not a loop.
-/

namespace Verif.Spec.Printf
open Verif Verif.Format

def byteOf (c : Char) : UInt8 := UInt8.ofNat c.toNat

/-- Shortest decimal text of `n`. -/
def dec (n : Nat) : List UInt8 := (Nat.toDigits 10 n).map byteOf

/-- Shortest hexadecimal text of `n`, lower or upper case. -/
def hexa (upper : Bool) (n : Nat) : List UInt8 :=
  (Nat.toDigits 16 n).map (fun c => byteOf (if upper then c.toUpper else c))

/-- Pad on the left with `z` to at least `w` bytes. -/
def padTo (w : Nat) (z : UInt8) (ds : List UInt8) : List UInt8 :=
  List.replicate (w - ds.length) z ++ ds

/-- Text of a number: decimal or hexadecimal according to the flag. -/
def numText (hex : Nat) (n : Nat) : List UInt8 :=
  if hex = 0 then dec n else hexa (hex ≠ 1) n

def isDigit (c : UInt8) : Bool := 48 ≤ c ∧ c ≤ 57
/-- `u m X x *` -/
def isFlag (c : UInt8) : Bool := c = 117 ∨ c = 109 ∨ c = 88 ∨ c = 120 ∨ c = 42

def numVal (ds : List UInt8) : Nat := ds.foldl (fun a c => a * 10 + (c.toNat - 48)) 0

/-- A parsed directive. -/
structure Dir where
  zero : UInt8
  width : Nat
  flags : List UInt8
  frac : Nat
  conv : UInt8

/-- Split the text after a `%` into a directive and the rest: width digits,
flags, optional `.` and digits, conversion character. -/
def parseDir (fmt : List UInt8) : Option (Dir × List UInt8) :=
  let wd := fmt.takeWhile isDigit
  let r1 := fmt.dropWhile isDigit
  let fl := r1.takeWhile isFlag
  let r2 := r1.dropWhile isFlag
  let zero : UInt8 := if fmt.head? = some 48 then 48 else 32
  match r2 with
  | [] => none
  | c :: r3 =>
    if c = 46 then
      match r3.dropWhile isDigit with
      | [] => none
      | c :: rest =>
        some (⟨zero, numVal wd % 2 ^ 32, fl, numVal (r3.takeWhile isDigit) % 2 ^ 32, c⟩, rest)
    else some (⟨zero, numVal wd % 2 ^ 32, fl, 0, c⟩, r3)

/-- Unsigned (`u`, `x` or `X` given) / signed. -/
def Dir.signed (d : Dir) : Bool := ¬ (117 ∈ d.flags ∨ 88 ∈ d.flags ∨ 120 ∈ d.flags)

/-- 0: decimal, 1: lower case hex, 2: upper case hex; the last of `x`, `X` counts. -/
def Dir.hex (d : Dir) : Nat :=
  match (d.flags.filter (fun c => c = 88 ∨ c = 120)).getLast? with
  | some 88 => 2
  | some _ => 1
  | none => 0

/-- Each `*` consumes one 64-bit argument; the last one limits the length of `%s`
(all ones means no limit). -/
def stars : Nat → Option (BitVec 64) → List Arg → Option (Option (BitVec 64) × List Arg)
  | 0, cur, args => some (cur, args)
  | n + 1, _, .i64 v :: args => stars n (if v = -1#64 then none else some v) args
  | _ + 1, _, _ => none

/-- Text of a signed or unsigned number in a directive: the sign comes before
the padding. -/
def intText (zero : UInt8) (hex width : Nat) (z : Int) : List UInt8 :=
  if z < 0 then 45 :: padTo width zero (numText hex z.natAbs)
  else padTo width zero (numText hex z.natAbs)

/-- At `p` there is the C string `bs`, outside the range `[lo, hi)`. -/
def StrAt (m : Mem) (lo hi p : Nat) (bs : List UInt8) : Prop :=
  (∀ i (h : i < bs.length), m (p + i) = some bs[i] ∧ bs[i] ≠ 0) ∧ m (p + bs.length) = some 0 ∧
  ∀ i, i ≤ bs.length → ¬ (lo ≤ p + i ∧ p + i < hi)

/-- At `p` there are the bytes `bs`, outside the range `[lo, hi)`. -/
def BytesAt (m : Mem) (lo hi p : Nat) (bs : List UInt8) : Prop :=
  (∀ i (h : i < bs.length), m (p + i) = some bs[i]) ∧
  (p + bs.length ≤ lo ∨ hi ≤ p)

/-- Text of a `double` (given by its conversions). -/
def dblText (d : Dir) (f : Dbl) (ip : BitVec 64) (fr : BitVec 64) : List UInt8 :=
  (if f.neg then [45] else []) ++
  (if d.frac = 0 then padTo d.width d.zero (dec ip.toNat)
   else
    let carry : Bool := fr = BitVec.ofNat 64 (10 ^ d.frac % 2 ^ 32)
    padTo d.width d.zero (dec (if carry then ip + 1 else ip).toNat) ++
      46 :: padTo d.frac 48 (dec (if carry then 0 else fr.toNat)))

/-- The text a directive stands for, with the arguments it consumes (after the
`*` arguments; `slen` is the length limit they gave). -/
inductive Conv (m : Mem) (lo hi : Nat) (d : Dir) (slen : Option (BitVec 64)) :
    List Arg → List UInt8 → List Arg → Prop
  | str {p bs args} : d.conv = 115 → slen = none → p ≠ 0 → StrAt m lo hi p bs →
      Conv m lo hi d slen (.ptr p :: args) bs args
  | strn {p n bs args} : d.conv = 115 → slen = some n → p ≠ 0 → bs.length = n.toNat →
      BytesAt m lo hi p bs → Conv m lo hi d slen (.ptr p :: args) bs args
  | int32 {v args} : d.conv ∈ [122, 105, 100, 68] → d.signed = true →
      Conv m lo hi d slen (.i32 v :: args)
        (intText d.zero d.hex (if d.conv = 105 ∧ 109 ∈ d.flags then 20 else d.width) v.toInt) args
  | uint32 {v args} : d.conv ∈ [105, 100, 68] → d.signed = false →
      Conv m lo hi d slen (.i32 v :: args)
        (intText d.zero d.hex (if d.conv = 105 ∧ 109 ∈ d.flags then 20 else d.width) v.toNat) args
  | int64 {v args} : d.conv ∈ [108, 76] → d.signed = true → v ≠ BitVec.intMin 64 →
      Conv m lo hi d slen (.i64 v :: args) (intText d.zero d.hex d.width v.toInt) args
  | uint64 {v args} : d.conv ∈ [122, 108, 76] → d.signed = false →
      Conv m lo hi d slen (.i64 v :: args) (intText d.zero d.hex d.width v.toNat) args
  | dbl {f ip fr args} : d.conv = 102 → f.int = some ip →
      (d.frac ≠ 0 → f.frac (BitVec.ofNat 32 (10 ^ d.frac)) = some fr) →
      Conv m lo hi d slen (.dbl f :: args) (dblText d f ip fr) args
  | ptr {p args} : d.conv = 112 → p < 2 ^ 64 →
      Conv m lo hi d slen (.ptr p :: args) (padTo 16 48 (hexa true p)) args
  | chr {v args} : d.conv = 99 →
      Conv m lo hi d slen (.i32 v :: args) [UInt8.ofNat (v.toNat % 256)] args
  | other {args} : d.conv ∉ [115, 122, 105, 100, 68, 108, 76, 102, 112, 99] → d.conv ≠ 0 →
      Conv m lo hi d slen args [d.conv] args

/-- `Renders m lo hi fmt args out`: the format `fmt` (without its NUL) with
arguments `args` stands for the text `out`; strings are read from memory `m`
outside the range `[lo, hi)` (the output buffer). -/
inductive Renders (m : Mem) (lo hi : Nat) : List UInt8 → List Arg → List UInt8 → Prop
  | done {args} : Renders m lo hi [] args []
  | lit {c fmt args out} : c ≠ 0 → c ≠ 37 → Renders m lo hi fmt args out →
      Renders m lo hi (c :: fmt) args (c :: out)
  | dir {fmt rest d slen args args1 args2 piece out} :
      parseDir fmt = some (d, rest) →
      stars (d.flags.count 42) none args = some (slen, args1) →
      Conv m lo hi d slen args1 piece args2 →
      Renders m lo hi rest args2 out →
      Renders m lo hi (37 :: fmt) args (piece ++ out)

/-- Every `%` starts a complete directive: no directive runs into the end of the
format. -/
inductive Complete : List UInt8 → Prop
  | done : Complete []
  | lit {c fmt} : c ≠ 37 → Complete fmt → Complete (c :: fmt)
  | dir {fmt d rest} : parseDir fmt = some (d, rest) → Complete rest → Complete (37 :: fmt)

/-- Value of a hexadecimal digit (either case). -/
def hexDigit (c : UInt8) : Nat :=
  if c ≤ 57 then c.toNat - 48 else if c ≤ 70 then c.toNat - 55 else c.toNat - 87

/-- Value of a hexadecimal text. -/
def hexVal (ds : List UInt8) : Nat := ds.foldl (fun a c => a * 16 + hexDigit c) 0

/-- Memory after writing the bytes `l` at `b`. -/
def wr (m : Mem) (b : Nat) (l : List UInt8) : Mem := fun a =>
  if b ≤ a ∧ a < b + l.length then l[a - b]? else m a

end Verif.Spec.Printf
