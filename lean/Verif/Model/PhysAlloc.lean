import Verif.Model.E820

/-!
Model of the page accounting in `kernel/src/core/physical_allocator.cpp`. The header
`core/physical_allocator.hpp` it includes is not in the repository: the flags `PG_Referenced` and
`PG_K_Share_To_U` are parameters, all counters, addresses and flags are 64-bit as the uses suggest
(`1UL`, `unsigned long`), and `PAGE_2M_SHIFT` is 21.

The bitmap and the table of pages are arrays of the sizes `init_memory` computes for them; writing
outside is undefined behaviour here (the code would overwrite what lies behind). Reading a word of the
bitmap outside gives an arbitrary value. Output (`printf`), the page tables changed at the end of
`init_memory` (lines 253-262) and `init` (lines 6-32, output only) are not modelled, nor are the
members `age`, `attribute` of zones and `GMD_struct`, which nothing reads.
-/

namespace Verif.Phys
open Verif
open Verif.E820 (Entry)

/-- `PG_Referenced` and `PG_K_Share_To_U`, kernel/src/core/physical_allocator.cpp:45, 65. -/
structure Flags where
  ref : BitVec 64
  share : BitVec 64

/-- `(x & PG_Referenced) || (x & PG_K_Share_To_U)`, kernel/src/core/physical_allocator.cpp:45, 65. -/
def Flags.counted (c : Flags) (x : BitVec 64) : Bool := x &&& c.ref != 0#64 || x &&& c.share != 0#64

/-- `struct Page`, as used in kernel/src/core/physical_allocator.cpp:34-87, 195-207; `zone` is
`zone_struct` as an index into `zones_struct`. -/
structure Page where
  zone : Nat
  addr : BitVec 64
  attr : BitVec 64
  refs : BitVec 64
  deriving DecidableEq

/-- `struct Zone`, as used in kernel/src/core/physical_allocator.cpp:174-192. -/
structure Zone where
  start : BitVec 64
  stop : BitVec 64
  length : BitVec 64
  used : BitVec 64
  free : BitVec 64
  link : BitVec 64
  pages : BitVec 64
  deriving DecidableEq, Inhabited

/-- The global `mm_struct` and the zone indices, as used in
kernel/src/core/physical_allocator.cpp:106-239. A page that was never written is `none`. -/
structure Mm where
  bits : Arr (BitVec 64)
  pages : Arr (Option Page)
  zones : Arr Zone
  zonesSize : Nat
  dma : Nat
  normal : Nat
  unmapped : Nat

/-- Reading `*page`, kernel/src/core/physical_allocator.cpp:36, 61: undefined outside the table and
for a page that was never written. -/
def getPage (m : Mm) (i : Nat) : Res Page := do
  let p ← m.pages.get i
  match p with
  | some p => .ok p
  | none => .ub

/-- Writing the members of a page, kernel/src/core/physical_allocator.cpp:39-40. -/
def setPage (m : Mm) (i : Nat) (p : Page) : Res Mm := do
  let a ← m.pages.set i (some p)
  .ok { m with pages := a }

/-- Changing the counters of `page->zone_struct`, kernel/src/core/physical_allocator.cpp:41-43. -/
def modZone (m : Mm) (z : Nat) (f : Zone → Zone) : Res Mm := do
  let x ← m.zones.get z
  let a ← m.zones.set z (f x)
  .ok { m with zones := a }

/-- `PHY_address >> PAGE_2M_SHIFT`, kernel/src/core/physical_allocator.cpp:38. -/
def frame (a : BitVec 64) : Nat := (a >>> 21).toNat

/-- `*(mm_struct.bits_map + (frame >> 6))` changed with the mask `1UL << frame % 64`,
kernel/src/core/physical_allocator.cpp:38, 53, 78, 206. -/
def modBit (m : Mm) (n : Nat) (f : BitVec 64 → BitVec 64 → BitVec 64) : Res Mm := do
  let w ← m.bits.get (n / 64)
  let a ← m.bits.set (n / 64) (f w (1#64 <<< (n % 64)))
  .ok { m with bits := a }

/-- `page_init`, kernel/src/core/physical_allocator.cpp:34-57. -/
def pageInit (c : Flags) (m : Mm) (i : Nat) (flags : BitVec 64) : Res Mm := do
  let p ← getPage m i
  if p.attr = 0#64 then do
    let m ← modBit m (frame p.addr) fun w b => w ||| b
    let m ← setPage m i { p with attr := flags, refs := p.refs + 1 }
    modZone m p.zone fun z => { z with used := z.used + 1, free := z.free - 1, link := z.link + 1 }
  else if c.counted p.attr || c.counted flags then do
    let m ← setPage m i { p with attr := p.attr ||| flags, refs := p.refs + 1 }
    modZone m p.zone fun z => { z with link := z.link + 1 }
  else do
    let m ← modBit m (frame p.addr) fun w b => w ||| b
    setPage m i { p with attr := p.attr ||| flags }

/-- `page_clean`, kernel/src/core/physical_allocator.cpp:59-87. -/
def pageClean (c : Flags) (m : Mm) (i : Nat) : Res Mm := do
  let p ← getPage m i
  if p.attr = 0#64 then setPage m i { p with attr := 0#64 }
  else if c.counted p.attr then do
    let m ← setPage m i { p with refs := p.refs - 1 }
    let m ← modZone m p.zone fun z => { z with link := z.link - 1 }
    if p.refs - 1 = 0#64 then do
      let m ← setPage m i { p with refs := p.refs - 1, attr := 0#64 }
      modZone m p.zone fun z => { z with used := z.used - 1, free := z.free + 1 }
    else .ok m
  else do
    let m ← modBit m (frame p.addr) fun w b => w &&& ~~~b
    let m ← setPage m i { p with attr := 0#64, refs := 0#64 }
    modZone m p.zone fun z => { z with used := z.used - 1, free := z.free + 1, link := z.link - 1 }

/-- The entries `init_memory` copies, kernel/src/core/physical_allocator.cpp:98-116: at most 32, up to
the first that is empty or of another type. -/
def entries (es : List Entry) : List Entry :=
  (es.take 32).takeWhile fun e => !(e.type > 4 || e.length == 0 || e.type < 1)

/-- `TotalMem`, kernel/src/core/physical_allocator.cpp:92, 103-104. -/
def totalMem (es : List Entry) : BitVec 64 :=
  (entries es).foldl (fun t e => if e.type = 1 then t + e.length else t) 0

/-- `bits_size` and `pages_size`, kernel/src/core/physical_allocator.cpp:129, 143. -/
def tableSize (es : List Entry) : Nat := frame (totalMem es)

/-- The tables before the loop over the entries, kernel/src/core/physical_allocator.cpp:124-158: a bitmap
of ones (`bits_length` bytes contain this many words; what lies behind is `junk`), pages not written,
no zones. There can be at most 32 zones. -/
def tables (es : List Entry) (junk : Nat → BitVec 64) : Mm where
  bits := ⟨(tableSize es + 63) / 64, fun w => if w < (tableSize es + 63) / 64 then BitVec.allOnes 64 else junk w⟩
  pages := Arr.fill (tableSize es) none
  zones := Arr.fill 32 default
  zonesSize := 0
  dma := 0
  normal := 0
  unmapped := 0

/-- The loop over the pages of a zone, kernel/src/core/physical_allocator.cpp:194-207: `n` iterations are
left, `z` is the zone, `g` its `pages_group`. -/
def addPages (z g : Nat) (start : BitVec 64) : Nat → Nat → Mm → Res Mm
  | 0, _, m => .ok m
  | n + 1, j, m => do
    let m ← setPage m (g + j) ⟨z, start + BitVec.ofNat 64 (2097152 * j), 0, 0⟩
    let m ← modBit m (frame (start + BitVec.ofNat 64 (2097152 * j))) fun w b => w ^^^ b
    addPages z g start n (j + 1) m

/-- `start`: `PAGE_2M_ALIGN(address)`, kernel/src/core/physical_allocator.cpp:169. -/
def zoneStart (e : Entry) : BitVec 64 := (e.address + 2097151#64) &&& ~~~2097151#64

/-- `end`, kernel/src/core/physical_allocator.cpp:170. -/
def zoneStop (e : Entry) : BitVec 64 := ((e.address + e.length) >>> 21) <<< 21

/-- One iteration of the loop over the entries, kernel/src/core/physical_allocator.cpp:160-208. -/
def addZone (m : Mm) (e : Entry) : Res Mm :=
  if e.type ≠ 1 then .ok m
  else if zoneStop e ≤ zoneStart e then .ok m
  else do
    let n := frame (zoneStop e - zoneStart e)
    let zs ← m.zones.set m.zonesSize
      ⟨zoneStart e, zoneStop e, zoneStop e - zoneStart e, 0, BitVec.ofNat 64 n, 0, BitVec.ofNat 64 n⟩
    addPages m.zonesSize (frame (zoneStart e)) (zoneStart e) n 0 { m with zones := zs, zonesSize := m.zonesSize + 1 }

/-- The loop over the entries, kernel/src/core/physical_allocator.cpp:160-208. -/
def addZones : List Entry → Mm → Res Mm
  | [], m => .ok m
  | e :: es, m => do
    let m ← addZone m e
    addZones es m

/-- The last zone that starts at 4 GB, else unchanged, kernel/src/core/physical_allocator.cpp:229-239. -/
def unmappedIndex (m : Mm) : Nat :=
  (List.range m.zonesSize).foldl (fun x i => if (m.zones.at_ i).start = 0x100000000 then i else x) m.unmapped

/-- The loop that claims the pages of the kernel, kernel/src/core/physical_allocator.cpp:248-251: `n`
iterations are left. -/
def claim (c : Flags) (flags : BitVec 64) : Nat → Nat → Mm → Res Mm
  | 0, _, m => .ok m
  | n + 1, j, m => do
    let m ← pageInit c m j flags
    claim c flags n (j + 1) m

/-- `init_memory`, kernel/src/core/physical_allocator.cpp:89-251; `last` is the page of
`end_of_struct` (line 246), `kflags` the flags of line 250. -/
def initMemory (c : Flags) (kflags : BitVec 64) (last : Nat) (junk : Nat → BitVec 64) (es : List Entry) : Res Mm := do
  let m ← addZones (entries es) (tables es junk)
  let m ← setPage m 0 ⟨0, 0, 0, 0⟩
  claim c kflags (last + 1) 0 { m with unmapped := unmappedIndex m }

/-- `zone_select`, kernel/src/core/physical_allocator.cpp:283-308. -/
inductive Sel where
  | dma | normal | unmapped | other
  deriving DecidableEq

/-- `zone_start` and the number of zones to try, kernel/src/core/physical_allocator.cpp:283-310. -/
def range (m : Mm) : Sel → Nat × Nat
  | .dma => (0, m.dma + 1)
  | .normal => (m.dma, m.normal + 1 - m.dma)
  | .unmapped => (m.unmapped, m.zonesSize - m.unmapped)
  | .other => (0, 0)

/-- The mask of `number` bits, kernel/src/core/physical_allocator.cpp:333; shifting by more than 63 is
undefined. -/
def mask (number : Nat) : Res (BitVec 64) :=
  if number = 64 then .ok (BitVec.allOnes 64)
  else if number < 64 then .ok ((1#64 <<< number) - 1) else .ub

/-- The loop over `k`, kernel/src/core/physical_allocator.cpp:331-344: `n` iterations are left, `w` is the
index of `*p`. Shifting by 64 is undefined. -/
def scan (m : Mm) (w number : Nat) : Nat → Nat → Res (Option Nat)
  | 0, _ => .ok none
  | n + 1, k =>
    if k = 0 then .ub
    else do
      let b ← mask number
      if ((m.bits.at_ w >>> k) ||| (m.bits.at_ (w + 1) <<< (64 - k))) &&& b = 0#64 then .ok (some k)
      else scan m w number n (k + 1)

/-- The loop over `l`, kernel/src/core/physical_allocator.cpp:337-341: `n` iterations are left. -/
def take (c : Flags) (flags : BitVec 64) (page : Nat) : Nat → Nat → Mm → Res Mm
  | 0, _, m => .ok m
  | n + 1, l, m => do
    let m ← pageInit c m (page + l) flags
    take c flags page n (l + 1) m

/-- The loop over `j`, kernel/src/core/physical_allocator.cpp:326-345. Each iteration reaches a new word
of the bitmap; the fuel given is enough. -/
def words (m : Mm) (start stop number : Nat) : Nat → Nat → Res (Option Nat)
  | 0, _ => .oof
  | f + 1, j =>
    if j ≤ stop then do
      let k ← scan m (j / 64) number (64 - j % 64 - j % 64) (j % 64)
      match k with
      | some k => .ok (some (j + k - 1))
      | none => words m start stop number f (j + if j % 64 ≠ 0 then 64 - start % 64 else 64)
    else .ok none

/-- The loop over the zones, kernel/src/core/physical_allocator.cpp:309-346: `n` iterations are left.
Returns `page`. -/
def search (m : Mm) (number : Nat) : Nat → Nat → Res (Option Nat)
  | 0, _ => .ok none
  | n + 1, i => do
    let z ← m.zones.get i
    if z.free.toNat < number then search m number n (i + 1)
    else do
      let p ← words m (frame z.start) (frame z.stop) number (frame z.stop + 2) (frame z.start)
      match p with
      | some p => .ok (some p)
      | none => search m number n (i + 1)

/-- `alloc_pages` for a `number` that is not negative, kernel/src/core/physical_allocator.cpp:275-353.
Returns the index of the first page, or nothing for a null pointer. -/
def allocPages (c : Flags) (m : Mm) (sel : Sel) (number : Nat) (flags : BitVec 64) : Res (Mm × Option Nat) := do
  let p ← search m number (range m sel).2 (range m sel).1
  match p with
  | some p => do
    let m ← take c flags p number 0 m
    .ok (m, some p)
  | none => .ok (m, none)

end Verif.Phys
