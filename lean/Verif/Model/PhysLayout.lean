import Verif.Model.PhysAlloc

/-!
Where `init_memory` puts its tables, kernel/src/core/physical_allocator.cpp:124-158, 221, 241-251. The
header with `PAGE_4K_SIZE`, `PAGE_4K_MASK`, `Virt_To_Phy` and the structures is not in the repository:
4096, its negative, the distance to 0xffff800000000000 and two parameters for the sizes of the
structures. The page number of line 246 is stored in an `int`; it is taken to fit.
-/

namespace Verif.Phys
open Verif
open Verif.E820 (Entry)

/-- The end of the kernel (`mm_struct.end_brk`, set to `&_end` in kernel/main.cpp:32) and the sizes of
`struct Page` and `struct Zone`, kernel/src/core/physical_allocator.cpp:127, 145, 156, 221. -/
structure Place where
  endBrk : BitVec 64
  pageSize : BitVec 64
  zoneSize : BitVec 64

/-- `(x + PAGE_4K_SIZE - 1) & PAGE_4K_MASK`, kernel/src/core/physical_allocator.cpp:127, 141, 152. -/
def up4K (x : BitVec 64) : BitVec 64 := (x + 4096#64 - 1#64) &&& ~~~4095#64

/-- `(x + sizeof(long) - 1) & (~(sizeof(long) - 1))`, kernel/src/core/physical_allocator.cpp:145, 156, 221. -/
def up8 (x : BitVec 64) : BitVec 64 := (x + 8#64 - 1#64) &&& ~~~7#64

/-- `bits_map`, kernel/src/core/physical_allocator.cpp:127. -/
def bitsMap (L : Place) : BitVec 64 := up4K L.endBrk

/-- `bits_length`, kernel/src/core/physical_allocator.cpp:129-131. -/
def bitsLength (es : List Entry) : BitVec 64 := ((totalMem es >>> 21) + 64#64 - 1#64) / 8#64

/-- `pages_struct`, kernel/src/core/physical_allocator.cpp:141. -/
def pagesStruct (L : Place) (es : List Entry) : BitVec 64 := up4K (bitsMap L + bitsLength es)

/-- `pages_length`, kernel/src/core/physical_allocator.cpp:145. -/
def pagesLength (L : Place) (es : List Entry) : BitVec 64 := up8 ((totalMem es >>> 21) * L.pageSize)

/-- `zones_struct`, kernel/src/core/physical_allocator.cpp:152. -/
def zonesStruct (L : Place) (es : List Entry) : BitVec 64 := up4K (pagesStruct L es + pagesLength L es)

/-- `zones_length`, kernel/src/core/physical_allocator.cpp:221; `zones` is `zones_size`. -/
def zonesLength (L : Place) (zones : Nat) : BitVec 64 := up8 (BitVec.ofNat 64 zones * L.zoneSize)

/-- `end_of_struct`, kernel/src/core/physical_allocator.cpp:241. -/
def endOfStruct (L : Place) (es : List Entry) (zones : Nat) : BitVec 64 :=
  (zonesStruct L es + zonesLength L zones + 8#64 * 32#64) &&& ~~~7#64

/-- The page of `end_of_struct`, kernel/src/core/physical_allocator.cpp:246. -/
def lastPage (L : Place) (es : List Entry) (zones : Nat) : Nat :=
  ((endOfStruct L es zones - 0xffff800000000000#64) >>> 21).toNat

/-- `init_memory` with the place of its tables, kernel/src/core/physical_allocator.cpp:89-251. -/
def initAt (c : Flags) (kflags : BitVec 64) (junk : Nat → BitVec 64) (L : Place) (es : List Entry) : Res Mm := do
  let m ← addZones (entries es) (tables es junk)
  let m ← setPage m 0 ⟨0, 0, 0, 0⟩
  claim c kflags (lastPage L es m.zonesSize + 1) 0 { m with unmapped := unmappedIndex m }

/-- The objects in the tables: words of the bitmap (kernel/src/core/physical_allocator.cpp:38), pages
(lines 195-206) and zones (lines 176-192). -/
inductive Cell where
  | word (w : Nat)
  | page (i : Nat)
  | zone (z : Nat)
  deriving DecidableEq

/-- The first address of an object and its size, kernel/src/core/physical_allocator.cpp:38, 192, 176. -/
def Cell.at_ (L : Place) (es : List Entry) : Cell → Nat × Nat
  | .word w => ((bitsMap L).toNat + 8 * w, 8)
  | .page i => ((pagesStruct L es).toNat + L.pageSize.toNat * i, L.pageSize.toNat)
  | .zone z => ((zonesStruct L es).toNat + L.zoneSize.toNat * z, L.zoneSize.toNat)

/-- The objects the tables of `m` consist of (as accessed by
kernel/src/core/physical_allocator.cpp:34-87, 160-208). -/
def Cell.In (m : Mm) : Cell → Prop
  | .word w => w < m.bits.n
  | .page i => i < m.pages.n
  | .zone z => z < m.zonesSize

end Verif.Phys
