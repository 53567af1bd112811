/-!
Model of the frame buffer console, kernel/src/io/veas.cpp:334-401 and
kernel/include/io/vesa.hpp. A pixel is addressed by its index from `screen_`; every
pixel written is also recorded in `log` (most recent first), so that writes outside the
frame buffer are visible. The font table is an arbitrary table of 256 × 16 bytes. The
cursor is a natural number: the overflow of `int` after 2^31 line feeds is not modelled.
-/

namespace Verif.Vesa

/-- `Color`, kernel/include/io/vesa.hpp:6-16. -/
abbrev Color := BitVec 32

/-- `Color::BLACK`, kernel/include/io/vesa.hpp:8. -/
def black : Color := 0

/-- Data members of `Vesa`, kernel/include/io/vesa.hpp:26-33, the memory behind
`screen_`, and the record of writes. -/
structure Screen where
  pix : Nat → Color
  log : List Nat
  width : Nat
  height : Nat
  cw : Nat
  ch : Nat
  x : Nat
  y : Nat

/-- The font, kernel/src/io/veas.cpp:7-318. -/
abbrev Font := BitVec 8 → Nat → BitVec 8

/-- A pixel is written (kernel/src/io/veas.cpp:354, 395). -/
def Screen.plot (s : Screen) (i : Nat) (c : Color) : Screen :=
  { s with pix := fun j => if j = i then c else s.pix j, log := i :: s.log }

/-- `Vesa::Init`, kernel/src/io/veas.cpp:334-343: the members set (the memory stays). -/
def Screen.init (s : Screen) : Screen :=
  { s with y := 0, x := 0, cw := 8, ch := 16, width := 1440, height := 900 }

/-- The inner loop of `PutChar`, kernel/src/io/veas.cpp:352-356: `j` from `from` on,
`n` iterations left; `bits` has been shifted `j + 1` times. -/
def putRow (row : BitVec 8) (fg : Color) (addr : Nat) : Nat → Nat → Screen → Screen
  | 0, _, s => s
  | n + 1, j, s =>
    let bits := (0x100 : BitVec 32) >>> (j + 1)
    let s := if row.setWidth 32 &&& bits ≠ 0 then s.plot (addr + j) fg else s.plot (addr + j) (s.pix (addr + j))
    putRow row fg addr n (j + 1) s

/-- The outer loop of `PutChar`, kernel/src/io/veas.cpp:349-359. -/
def putRows (font : Font) (c : BitVec 8) (fg : Color) (px py : Nat) : Nat → Nat → Screen → Screen
  | 0, _, s => s
  | n + 1, i, s =>
    putRows font c fg px py n (i + 1) (putRow (font c i) fg (s.width * (py + i) + px) s.cw 0 s)

/-- `PutChar`, kernel/src/io/veas.cpp:345-361 (the background colour is not used). -/
def putChar (font : Font) (fg : Color) (c : BitVec 8) (s : Screen) : Screen :=
  putRows font c fg (s.x * s.cw) (s.y * s.ch) s.ch 0 s

/-- The loop of `Clear`, kernel/src/io/veas.cpp:396-398: each `long` written is two pixels,
low half first. -/
def clearLoop : Nat → Nat → Screen → Screen
  | 0, _, s => s
  | n + 1, i, s => clearLoop n (i + 1) ((s.plot (2 * i) black).plot (2 * i + 1) black)

/-- `Clear`, kernel/src/io/veas.cpp:394-401. -/
def clear (s : Screen) : Screen :=
  { clearLoop (s.height * s.width / 2) 0 s with y := 0, x := 0 }

/-- The lambda `Put` of `ColorPrint`, kernel/src/io/veas.cpp:365-377. -/
def put (font : Font) (fg : Color) (c : BitVec 8) (s : Screen) : Screen :=
  let s := putChar font fg c s
  let s := { s with x := s.x + 1 }
  let s := if s.x ≥ s.width / s.cw then { s with x := 0, y := s.y + 1 } else s
  if s.y ≥ s.height / s.ch then clear s else s

/-- `n` times `Put(' ')`, kernel/src/io/veas.cpp:386-388. -/
def putSpaces (font : Font) (fg : Color) : Nat → Screen → Screen
  | 0, s => s
  | n + 1, s => putSpaces font fg n (put font fg 0x20 s)

/-- The body of the loop of `ColorPrint`, kernel/src/io/veas.cpp:379-391. -/
def putc (font : Font) (fg : Color) (c : BitVec 8) (s : Screen) : Screen :=
  if c = 0x0A then { s with x := 0, y := s.y + 1 }
  else
    let s := if c = 0x09 then putSpaces font fg 8 s else s
    put font fg c s

/-- `ColorPrint`, kernel/src/io/veas.cpp:362-393 (the guard is modelled elsewhere). -/
def colorPrint (font : Font) (fg : Color) (str : List (BitVec 8)) (s : Screen) : Screen :=
  str.foldl (fun s c => putc font fg c s) s

end Verif.Vesa
