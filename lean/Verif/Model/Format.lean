import Verif.Base.FM
import Verif.Model.StringMem

/-!
Model of the formatting functions in `kernel/src/util/string.cpp`
(`sprintf_num`, `vslprintf`, `snprintf`).

Simplifications:
* the format string is a byte list that includes its terminating NUL; it is
  read-only and separate from the output buffer; reading beyond the NUL is `ub`;
* the variadic arguments are a typed list; taking an argument that is missing or
  has another type is `ub` (C++ `va_arg` rules), with `int`/`unsigned`/`int32_t`
  identified as 32-bit and `long`/`size_t`/`int64_t` as 64-bit words;
* a `double` is represented by the results of the conversions the code applies
  to it, so nothing is assumed about floating point arithmetic.
-/

namespace Verif.Format
open Verif

/-- A `double` argument, by what the code does with it:
`neg` is `f < 0` (kernel/src/util/string.cpp:297), `int` is `(int64_t)|f|` (kernel/src/util/string.cpp:302,
`none` if not representable: undefined behaviour), `frac scale` is
`(uint64_t)((|f| - (double)ui64) * scale + 0.5)` (kernel/src/util/string.cpp:311). -/
structure Dbl where
  neg : Bool
  int : Option (BitVec 64)
  frac : BitVec 32 → Option (BitVec 64)

/-- One variadic argument (kernel/src/util/string.cpp:153 (`va_list args`)). -/
inductive Arg where
  | i32 (v : BitVec 32)
  | i64 (v : BitVec 64)
  | dbl (f : Dbl)
  | ptr (p : Nat)

/-- `va_arg(args, int)` and the other 32-bit types, kernel/src/util/string.cpp:243,251,253,264,266,280,282,342. -/
def va32 : List Arg → Res (BitVec 32 × List Arg)
  | .i32 v :: r => .ok (v, r)
  | _ => .ub

/-- `va_arg(args, long)` and the other 64-bit integer types, kernel/src/util/string.cpp:213,245,272,274,288,290. -/
def va64 : List Arg → Res (BitVec 64 × List Arg)
  | .i64 v :: r => .ok (v, r)
  | _ => .ub

/-- `va_arg(args, double)`, kernel/src/util/string.cpp:295. -/
def vaDbl : List Arg → Res (Dbl × List Arg)
  | .dbl v :: r => .ok (v, r)
  | _ => .ub

/-- `va_arg(args, u_char*)` / `va_arg(args, void*)`, kernel/src/util/string.cpp:226,334. -/
def vaPtr : List Arg → Res (Nat × List Arg)
  | .ptr v :: r => .ok (v, r)
  | _ => .ub

/-- `*fmt`: reading beyond the terminating NUL is undefined (kernel/src/util/string.cpp:153-384). -/
def peek : List UInt8 → Res UInt8
  | [] => .ub
  | c :: _ => .ok c

/-- The digit tables `hex` and `HEX`, kernel/src/util/string.cpp:108-109. -/
def hexTable (upper : Bool) : List UInt8 :=
  [48, 49, 50, 51, 52, 53, 54, 55, 56, 57] ++
    (if upper then [65, 66, 67, 68, 69, 70] else [97, 98, 99, 100, 101, 102])

/-- The decimal digit loop, kernel/src/util/string.cpp:114-116. `room` is `p - temp`, the number of bytes
left below `p`; writing below `temp` is undefined. `acc` is the text from `p` to
`temp + 20`. -/
def decLoop : Nat → BitVec 64 → List UInt8 → Res (List UInt8)
  | 0, _, _ => .ub
  | room + 1, v, acc =>
    let acc := UInt8.ofNat ((v % 10#64).toNat + 48) :: acc
    let v := v / 10#64
    if v = 0#64 then .ok acc else decLoop room v acc

/-- The hexadecimal digit loops, kernel/src/util/string.cpp:119-123 and :127-131. -/
def hexLoop (upper : Bool) : Nat → BitVec 64 → List UInt8 → Res (List UInt8)
  | 0, _, _ => .ub
  | room + 1, v, acc =>
    match (hexTable upper)[(v &&& 0xf#64).toNat]? with
    | none => .ub
    | some c =>
      let acc := c :: acc
      let v := v >>> 4
      if v = 0#64 then .ok acc else hexLoop upper room v acc

/-- The padding loop, kernel/src/util/string.cpp:138-140; `rem` is `width - len` (0 if negative). -/
def padLoop (last : Nat) (zero : UInt8) : Nat → Nat → FM Nat
  | 0, buf => pure buf
  | rem + 1, buf =>
    if buf < last then do
      FM.put buf zero
      padLoop last zero rem (buf + 1)
    else pure buf

/-- Copying a byte list to memory, used for `memcpy(buf, p, len)` from the local
array `temp` on kernel/src/util/string.cpp:150 (the array cannot overlap the buffer). -/
def putList : List UInt8 → Nat → FM Nat
  | [], buf => pure buf
  | c :: cs, buf => do
    FM.put buf c
    putList cs (buf + 1)

/-- `sprintf_num`, kernel/src/util/string.cpp:99-151. `hex` is the parameter `hexadecimal`. On
line 147 `last - buf` is converted to `size_t`; for `buf > last` this is a huge
number and the copy leaves `temp`: undefined. `memcpy` returns `dest` unchanged
for a null destination. -/
def sprintfNum (buf last : Nat) (v : BitVec 64) (zero : UInt8) (hex : Nat) (width : Nat) :
    FM Nat := do
  let digits ← FM.lift (if hex = 0 then decLoop 20 v []
    else if hex = 1 then hexLoop false 20 v [] else hexLoop true 20 v [])
  let buf ← padLoop last zero (width - digits.length) buf
  if buf + digits.length > last then
    if buf > last then FM.ub
    else if buf = 0 then pure buf
    else putList (digits.take (last - buf)) buf
  else if buf = 0 then pure buf
  else putList digits buf

/-- A run of decimal digits: kernel/src/util/string.cpp:175-177 and :206-208, in `uint32_t` arithmetic. -/
def parseNum : BitVec 32 → List UInt8 → Res (BitVec 32 × List UInt8)
  | _, [] => .ub
  | w, c :: r =>
    if 48 ≤ c ∧ c ≤ 57 then parseNum (w * 10#32 + (BitVec.ofNat 32 (c.toNat - 48))) r
    else .ok (w, c :: r)

/-- The local variables of one directive, kernel/src/util/string.cpp:164-173. -/
structure Flags where
  zero : UInt8
  width : BitVec 32
  sign : Bool
  hex : Nat
  maxWidth : Bool
  fracWidth : BitVec 32
  slen : Option (BitVec 64)

/-- The flag loop `for (;;) switch (*fmt)`, kernel/src/util/string.cpp:179-222. `slen = none` is
`(size_t)-1`; an explicit length of `2^64 - 1` means the same. -/
def parseFlags : Flags → List UInt8 → List Arg → Res (Flags × List UInt8 × List Arg)
  | _, [], _ => .ub
  | fl, c :: r, args =>
    if c = 117 then parseFlags { fl with sign := false } r args
    else if c = 109 then parseFlags { fl with maxWidth := true } r args
    else if c = 88 then parseFlags { fl with hex := 2, sign := false } r args
    else if c = 120 then parseFlags { fl with hex := 1, sign := false } r args
    else if c = 46 then do
      let (w, r) ← parseNum fl.fracWidth r
      .ok ({ fl with fracWidth := w }, r, args)
    else if c = 42 then
      match va64 args with
      | .ok (v, args) => parseFlags { fl with slen := if v = -1#64 then none else some v } r args
      | .ub => .ub
      | .oof => .oof
    else .ok (fl, c :: r, args)

/-- The loop of `%s`, kernel/src/util/string.cpp:229-231; `n` is `last - buf`. -/
def strLoop : Nat → Nat → Nat → FM Nat
  | 0, p, buf => do
    let _ ← FM.get p
    pure buf
  | n + 1, p, buf => do
    let c ← FM.get p
    if c = 0 then pure buf
    else do
      FM.put buf c
      strLoop n (p + 1) (buf + 1)

/-- `memcpy` into the buffer with all destination bytes logged, kernel/src/util/string.cpp:235. -/
def memcpyF (dest src n : Nat) : FM Nat := fun s =>
  let log := (if dest = 0 ∨ src = 0 ∨ dest = src then [] else (List.range' dest n)) ++ s.log
  match StringMem.memcpy s.mem dest src n with
  | .ok (p, m) => (.ok p, ⟨m, log⟩)
  | .ub => (.ub, ⟨s.mem, log⟩)
  | .oof => (.oof, ⟨s.mem, log⟩)

/-- `scale` after the loop on kernel/src/util/string.cpp:306-309. -/
def scaleLoop : Nat → BitVec 32 → BitVec 32
  | 0, s => s
  | n + 1, s => scaleLoop n (s * 10#32)

/-- The case `'f'`, kernel/src/util/string.cpp:294-331 (without `fmt++`). -/
def convF (buf last : Nat) (fl : Flags) (f : Dbl) : FM Nat := do
  let buf ← (if f.neg then do FM.put buf 45; pure (buf + 1) else pure buf : FM Nat)
  match f.int with
  | none => FM.ub
  | some ui64 =>
    if fl.fracWidth = 0#32 then
      sprintfNum buf last ui64 fl.zero 0 fl.width.toNat
    else
      let scale := scaleLoop fl.fracWidth.toNat 1#32
      match f.frac scale with
      | none => FM.ub
      | some frac => do
        let carry := frac = scale.setWidth 64
        let ui64 := if carry then ui64 + 1 else ui64
        let frac := if carry then 0 else frac
        let buf ← sprintfNum buf last ui64 fl.zero 0 fl.width.toNat
        let buf ← (if buf < last then do FM.put buf 46; pure (buf + 1) else pure buf : FM Nat)
        sprintfNum buf last frac 48 0 fl.fracWidth.toNat

/-- The integer tail of a directive, kernel/src/util/string.cpp:360-370. Negating the most
negative 64-bit value is signed overflow: undefined. `v` is `i64` if `sign`,
otherwise `ui64`. -/
def convInt (buf last : Nat) (fl : Flags) (v : BitVec 64) (zero : UInt8) (hex width : Nat) :
    FM Nat :=
  if fl.sign then
    if v.toInt < 0 then do
      FM.put buf 45
      if v = BitVec.intMin 64 then FM.ub
      else sprintfNum (buf + 1) last (-v) zero hex width
    else sprintfNum buf last v zero hex width
  else sprintfNum buf last v zero hex width

/-- The conversion switch, kernel/src/util/string.cpp:224-372: `c` is `*fmt`, already known not to
be beyond the terminator. Returns the new `buf` and the remaining arguments;
every case then advances `fmt` by one. -/
def convert (buf last : Nat) (fl : Flags) (c : UInt8) (args : List Arg) : FM (Nat × List Arg) :=
  if c = 115 then do -- 's'
    let (p, args) ← FM.lift (vaPtr args)
    match fl.slen with
    | none => do
      let buf ← (if p = 0 then FM.ub else strLoop (last - buf) p buf)
      pure (buf, args)
    | some slen => do
      let len := if last - buf < slen.toNat then last - buf else slen.toNat
      let buf ← memcpyF buf p len
      pure (buf, args)
  else if c = 122 then -- 'z'
    if fl.sign then do
      let (v, args) ← FM.lift (va32 args)
      let buf ← convInt buf last fl (v.signExtend 64) fl.zero fl.hex fl.width.toNat
      pure (buf, args)
    else do
      let (v, args) ← FM.lift (va64 args)
      let buf ← convInt buf last fl v fl.zero fl.hex fl.width.toNat
      pure (buf, args)
  else if c = 105 then do -- 'i'
    let (v, args) ← FM.lift (va32 args)
    let width := if fl.maxWidth then 20 else fl.width.toNat
    let buf ← convInt buf last fl (if fl.sign then v.signExtend 64 else v.setWidth 64)
      fl.zero fl.hex width
    pure (buf, args)
  else if c = 100 ∨ c = 68 then do -- 'd', 'D'
    let (v, args) ← FM.lift (va32 args)
    let buf ← convInt buf last fl (if fl.sign then v.signExtend 64 else v.setWidth 64)
      fl.zero fl.hex fl.width.toNat
    pure (buf, args)
  else if c = 108 ∨ c = 76 then do -- 'l', 'L'
    let (v, args) ← FM.lift (va64 args)
    let buf ← convInt buf last fl v fl.zero fl.hex fl.width.toNat
    pure (buf, args)
  else if c = 102 then do -- 'f'
    let (f, args) ← FM.lift (vaDbl args)
    let buf ← convF buf last fl f
    pure (buf, args)
  else if c = 112 then do -- 'p'
    let (p, args) ← FM.lift (vaPtr args)
    let buf ← convInt buf last { fl with sign := false } (BitVec.ofNat 64 p) 48 2 16
    pure (buf, args)
  else if c = 99 then do -- 'c'
    let (d, args) ← FM.lift (va32 args)
    FM.put buf (UInt8.ofNat (d.toNat % 256))
    pure (buf + 1, args)
  else if c = 37 then do -- '%'
    FM.put buf 37
    pure (buf + 1, args)
  else do
    FM.put buf c
    pure (buf + 1, args)

/-- One directive, kernel/src/util/string.cpp:164-372; `fmt` starts after the `%`. -/
def directive (buf last : Nat) (fmt : List UInt8) (args : List Arg) :
    FM (Nat × List UInt8 × List Arg) := do
  let c ← FM.lift (peek fmt)
  let zero : UInt8 := if c = 48 then 48 else 32
  let (width, fmt) ← FM.lift (parseNum 0#32 fmt)
  let (fl, fmt, args) ← FM.lift (parseFlags ⟨zero, width, true, 0, false, 0#32, none⟩ fmt args)
  let c ← FM.lift (peek fmt)
  let (buf, args) ← convert buf last fl c args
  pure (buf, fmt.tail, args)

/-- The main loop, kernel/src/util/string.cpp:162-377. -/
def vslLoop (last : Nat) : Nat → Nat → List UInt8 → List Arg → FM Nat
  | 0, _, _, _ => FM.oof
  | fuel + 1, buf, fmt, args => do
    let c ← FM.lift (peek fmt)
    if c ≠ 0 ∧ buf < last then
      if c = 37 then do
        let (buf, fmt, args) ← directive buf last fmt.tail args
        vslLoop last fuel buf fmt args
      else do
        FM.put buf c
        vslLoop last fuel (buf + 1) fmt.tail args
    else pure buf

/-- `vslprintf`, kernel/src/util/string.cpp:153-384. The format list includes its NUL; every
iteration consumes at least one byte of it, so `fmt.length + 1` is enough fuel. -/
def vslprintf (buf last : Nat) (fmt : List UInt8) (args : List Arg) : FM Nat := do
  let buf ← vslLoop last (fmt.length + 1) buf fmt args
  if buf < last then do
    FM.put buf 0
    pure (buf + 1)
  else pure buf

/-- `snprintf`, kernel/src/util/string.cpp:386-394. -/
def snprintf (buf max : Nat) (fmt : List UInt8) (args : List Arg) : FM Nat :=
  vslprintf buf (buf + max) fmt args

end Verif.Format
