import Verif.Model.Image
import Verif.Props.Paging
set_option backward.isDefEq.respectTransparency false

/-! The layout of the kernel image. -/

namespace Verif.Image
open Verif

theorem le_length (n : Nat) : ∀ v, (le v n).length = n := by
  induction n with
  | zero => intro v; rfl
  | succ n ih => intro v; simp only [le, List.length_cons, ih]

theorem fill_length (n s v : Nat) : ((List.replicate n (le v s)).flatten).length = n * s := by
  induction n with
  | zero => simp
  | succ n ih => rw [List.replicate_succ, List.flatten_cons, List.length_append, ih, le_length]; rw [Nat.succ_mul]; omega

theorem quads_append (a b : List Nat) : quads (a ++ b) = quads a ++ quads b := by
  simp only [quads, List.flatMap_append]

theorem quads_cons (v : Nat) (b : List Nat) : quads (v :: b) = le v 8 ++ quads b := by
  simp only [quads, List.flatMap_cons]

theorem quads_replicate (n v : Nat) : quads (List.replicate n v) = (List.replicate n (le v 8)).flatten := by
  simp only [quads, List.flatMap_replicate]

theorem quads_length (l : List Nat) : (quads l).length = 8 * l.length := by
  induction l with
  | nil => rfl
  | cons v l ih => rw [quads_cons, List.length_append, ih, le_length, List.length_cons]; omega

theorem padTo_three (p : Nat) : padTo p 3 = (8 - p % 8) % 8 := rfl

/-- The labels of the `.text` section of head.S. -/
def textLabels (n1 n2 : Nat) : List (String × Nat) :=
  [("_start", 0), ("SwitchSeg", n1), ("Entry64", n1 + 8), ("StartKernel", n1 + 8 + n2),
   ("PML4", 0x1000), ("PDPTE", 0x2000), ("PDE", 0x3000)]

theorem labels_text (c1 c2 : List (BitVec 8)) : labels (headText c1 c2) 0 =
    if c1.length + c2.length + 16 ≤ 0x1000 then some (textLabels c1.length c2.length, 0x4000)
    else none := by
  unfold headText
  by_cases h : c1.length + c2.length + 16 ≤ 0x1000
  · rw [if_pos h]
    have h1 : c1.length + 8 + c2.length + 8 + padTo (c1.length + 8 + c2.length + 8) 3 ≤ 0x1000 := by
      rw [padTo_three]; omega
    simp only [labels, Dir.bytesAt, Nat.zero_add, Nat.add_zero, h1, if_true]
    simp only [Nat.add_sub_cancel' h1]
    simp [textLabels]
  · rw [if_neg h]
    have h1 : ¬ c1.length + 8 + c2.length + 8 + padTo (c1.length + 8 + c2.length + 8) 3 ≤ 0x1000 := by
      rw [padTo_three]; omega
    simp only [labels, Dir.bytesAt, Nat.zero_add, Nat.add_zero, h1, if_false]

theorem emit_append (env : String → Nat) (x y : List Dir) : ∀ pos, emit env (x ++ y) pos =
    emit env x pos ++ emit env y (pos + (emit env x pos).length) := by
  induction x with
  | nil => intro pos; rfl
  | cons d x ih =>
    intro pos
    simp only [List.cons_append, emit, ih, List.append_assoc, List.length_append, Nat.add_assoc]

/-- The tables of head.S. -/
def tables : List Dir :=
  [.label "PML4", .quad (.num 0x00102007), .fill 255 8 0, .quad (.num 0x00102007), .fill 255 8 0,
   .org 0x2000,
   .label "PDPTE", .quad (.num 0x103003), .fill 511 8 0,
   .org 0x3000,
   .label "PDE",
   .quad (.num 0x00000083), .quad (.num 0x00200083), .quad (.num 0x00400083),
   .quad (.num 0x00600083), .quad (.num 0x00800083),
   .quad (.num 0xe0000083), .quad (.num 0xe0200083), .quad (.num 0xe0400083),
   .quad (.num 0xe0600083), .quad (.num 0xe0800083), .quad (.num 0xe0a00083),
   .quad (.num 0xe0c00083), .quad (.num 0xe0e00083), .fill 499 8 0]

theorem quads_pml4 (x y : Nat) (A B : List Nat) : quads ([x] ++ A ++ [y] ++ B) =
    le x 8 ++ (quads A ++ (le y 8 ++ quads B)) := by
  simp only [quads, List.flatMap_append, List.flatMap_cons, List.flatMap_nil, List.append_assoc,
    List.append_nil]

theorem quads_pde (a b c d e f g h i j k l m : Nat) (A : List Nat) :
    quads ([a, b, c, d, e, f, g, h, i, j, k, l, m] ++ A) =
    le a 8 ++ (le b 8 ++ (le c 8 ++ (le d 8 ++ (le e 8 ++ (le f 8 ++ (le g 8 ++ (le h 8 ++ (le i 8 ++
      (le j 8 ++ (le k 8 ++ (le l 8 ++ (le m 8 ++ quads A)))))))))))) := by
  simp only [quads, List.flatMap_append, List.flatMap_cons, List.flatMap_nil, List.append_assoc,
    List.append_nil]

/-- Words of zeros. -/
@[irreducible] def zeros (n : Nat) : List (BitVec 8) := (List.replicate n (le 0 8)).flatten

theorem zeros_length (n : Nat) : (zeros n).length = n * 8 := by
  unfold zeros
  exact fill_length n 8 0

theorem quads_zeros (n : Nat) : quads (List.replicate n 0) = zeros n := by
  unfold zeros
  exact quads_replicate n 0

theorem emit_fill (env : String → Nat) (l : List Dir) (n pos : Nat) :
    emit env (.fill n 8 0 :: l) pos = zeros n ++ emit env l (pos + n * 8) := by
  rw [← zeros_length n]
  unfold zeros
  rfl

theorem emit_num (env : String → Nat) (l : List Dir) (v pos : Nat) :
    emit env (.quad (.num v) :: l) pos = le v 8 ++ emit env l (pos + 8) := rfl

theorem emit_label (env : String → Nat) (l : List Dir) (s : String) (pos : Nat) :
    emit env (.label s :: l) pos = emit env l pos := rfl

theorem emit_org (env : String → Nat) (l : List Dir) (n pos : Nat) (h : pos = n) :
    emit env (.org n :: l) pos = emit env l n := by
  subst h
  have : (Dir.org pos).bytes env pos = [] := by
    simp only [Dir.bytes, Nat.sub_self, List.replicate_zero]
  rw [emit, this]
  rfl

theorem quads_pml4' : quads Paging.pml4 =
    le 0x00102007 8 ++ (zeros 255 ++ (le 0x00102007 8 ++ zeros 255)) := by
  rw [Paging.pml4, quads_pml4, quads_zeros 255]

theorem quads_pdpte' : quads Paging.pdpte = le 0x103003 8 ++ zeros 511 := by
  rw [Paging.pdpte, quads_append, quads_zeros 511, quads_cons]
  show le 0x103003 8 ++ [] ++ _ = _
  rw [List.append_nil]

theorem emit_tables (env : String → Nat) : emit env tables 0x1000 =
    quads Paging.pml4 ++ quads Paging.pdpte ++ quads Paging.pde := by
  rw [quads_pml4', quads_pdpte', Paging.pde, quads_pde, quads_zeros 499]
  unfold tables
  rw [emit_label, emit_num, emit_fill, emit_num, emit_fill, emit_org _ _ _ _ (by decide), emit_label,
    emit_num, emit_fill, emit_org _ _ _ _ (by decide), emit_label]
  iterate 13 rw [emit_num]
  rw [emit_fill, emit]
  simp only [List.append_assoc, List.append_nil]

theorem emit_text (env : String → Nat) (c1 c2 : List (BitVec 8))
    (h : c1.length + c2.length + 16 ≤ 0x1000) : ∃ pad : List (BitVec 8),
      pad.length = 0x1000 - (c1.length + c2.length + 16) ∧ emit env (headText c1 c2) 0 =
      c1 ++ le (env "Entry64") 8 ++ c2 ++ le (env "main") 8 ++ pad ++
        (quads Paging.pml4 ++ quads Paging.pdpte ++ quads Paging.pde) := by
  let front : List Dir :=
    [.label "_start", .code c1, .label "SwitchSeg", .quad (.sym "Entry64"), .label "Entry64",
     .code c2, .label "StartKernel", .quad (.sym "main"), .align 3, .org 0x1000]
  have hf : headText c1 c2 = front ++ tables := rfl
  have hp : ∃ pad : List (BitVec 8), pad.length = 0x1000 - (c1.length + c2.length + 16) ∧
      emit env front 0 = c1 ++ le (env "Entry64") 8 ++ c2 ++ le (env "main") 8 ++ pad := by
    refine ⟨List.replicate (padTo (c1.length + 8 + c2.length + 8) 3) 0#8 ++
      List.replicate (0x1000 - (c1.length + 8 + c2.length + 8 +
        padTo (c1.length + 8 + c2.length + 8) 3)) 0#8, ?_, ?_⟩
    · rw [List.length_append, List.length_replicate, List.length_replicate, padTo_three]
      omega
    · simp only [front, emit, Dir.bytes, Expr.eval, List.length_nil, Nat.add_zero, Nat.zero_add,
        le_length, List.nil_append, List.length_replicate, List.append_nil, List.append_assoc]
      rfl
  obtain ⟨pad, hl, he⟩ := hp
  refine ⟨pad, hl, ?_⟩
  rw [hf, emit_append, he]
  have hlen : 0 + (c1 ++ le (env "Entry64") 8 ++ c2 ++ le (env "main") 8 ++ pad).length = 0x1000 := by
    simp only [List.length_append, le_length, hl]
    omega
  rw [hlen, emit_tables]

/-- The labels of the `.data` section of head.S. -/
def dataLabels : List (String × Nat) :=
  [("GDT_TABLE", 0), ("GDT_END", 136), ("GDT_PTR", 136), ("IDT_TABLE", 146), ("IDT_END", 4242),
   ("IDT_PTR", 4242), ("TSS64_TABLE", 4252), ("TSS64_END", 4356), ("TSS64_PTR", 4356)]

theorem labels_data : labels headData 0 = some (dataLabels, 4366) := by
  decide +kernel

theorem emit_data (env : String → Nat) : emit env headData 0 =
    quads (Mode.kernelGdt.map BitVec.toNat) ++ (le (env "GDT_END" - env "GDT_TABLE" - 1) 2 ++
      le (env "GDT_TABLE") 8) ++ quads (List.replicate 512 0) ++
      (le (env "IDT_END" - env "IDT_TABLE" - 1) 2 ++ le (env "IDT_TABLE") 8) ++
      quads (List.replicate 13 0) ++ (le (env "TSS64_END" - env "TSS64_TABLE" - 1) 2 ++
      le (env "TSS64_TABLE") 8) := by
  have f : ∀ n, quads (List.replicate n 0) = (List.replicate n (le 0 8)).flatten :=
    fun n => quads_replicate n 0
  have n : quads [] = [] := rfl
  unfold headData
  simp only [emit, Dir.bytes, Expr.eval, List.nil_append, List.append_nil, f]
  rw [show Mode.kernelGdt.map BitVec.toNat = [0x0000000000000000, 0x0020980000000000,
    0x0000920000000000, 0x0020f80000000000, 0x0000f20000000000, 0x00cf9a000000ffff,
    0x00cf92000000ffff] ++ List.replicate 10 0 by decide +kernel]
  simp only [quads_append, quads_cons, f, n, List.append_assoc, List.nil_append]

/-! ### Reading -/

/-- The bytes are in memory from an address on. -/
def At (m : Loader.Phys) (a : Nat) (bs : List (BitVec 8)) : Prop :=
  ∀ k (h : k < bs.length), m (a + k) = bs[k]

theorem At.left {m : Loader.Phys} {a : Nat} {x y : List (BitVec 8)} (h : At m a (x ++ y)) :
    At m a x := by
  intro k hk
  rw [h k (by rw [List.length_append]; omega), List.getElem_append_left hk]

theorem At.right {m : Loader.Phys} {a : Nat} {x y : List (BitVec 8)} (h : At m a (x ++ y)) :
    At m (a + x.length) y := by
  intro k hk
  rw [Nat.add_assoc, h (x.length + k) (by rw [List.length_append]; omega),
    List.getElem_append_right (by omega)]
  congr 1
  omega

theorem At.word {m : Loader.Phys} {a v : Nat} (h : At m a (le v 8)) (hv : v < 2 ^ 64) :
    Loader.word m a = v := by
  have e : ∀ k, k < 8 → (m (a + k)).toNat = v / 256 ^ k % 256 := by
    intro k hk
    rw [h k (by rw [le_length]; exact hk)]
    have : ∀ (n k v : Nat) (hk : k < (le v n).length), ((le v n)[k]).toNat = v / 256 ^ k % 256 := by
      intro n
      induction n with
      | zero => intro k v hk; exact absurd hk (Nat.not_lt_zero _)
      | succ n ih =>
        intro k v hk
        cases k with
        | zero => simp [le]
        | succ k =>
          simp only [le, List.getElem_cons_succ]
          rw [ih k (v / 256) (by simp only [le, List.length_cons] at hk; omega), Nat.pow_succ,
            Nat.mul_comm, Nat.div_div_eq_div_mul]
    exact this 8 k v _
  unfold Loader.word
  have e0 := e 0 (by omega)
  rw [Nat.add_zero] at e0
  rw [e0, e 1 (by omega), e 2 (by omega), e 3 (by omega), e 4 (by omega), e 5 (by omega), e 6 (by omega),
    e 7 (by omega)]
  omega

theorem At.quads {m : Loader.Phys} (l : List Nat) : ∀ {a : Nat}, At m a (quads l) →
    (∀ v ∈ l, v < 2 ^ 64) → ∀ i, i < l.length → Loader.word m (a + 8 * i) = l.getD i 0 := by
  induction l with
  | nil => intro a _ _ i hi; exact absurd hi (Nat.not_lt_zero _)
  | cons v l ih =>
    intro a h hv i hi
    rw [quads_cons] at h
    cases i with
    | zero => exact h.left.word (hv v (List.mem_cons_self ..))
    | succ i =>
      have hr := h.right
      rw [le_length] at hr
      have := ih hr (fun x hx => hv x (List.mem_cons_of_mem _ hx)) i (by simpa using hi)
      rw [show a + 8 * (i + 1) = a + 8 + 8 * i by omega, this]
      rfl

/-! ### Linking -/

theorem lay_length_pad (l : List Sec) : ∀ pos, (∀ s ∈ l, s.bytes = []) → (∀ s ∈ l, s.k = 0) →
    lay l pos = [] := by
  induction l with
  | nil => intro pos _ _; rfl
  | cons s l ih =>
    intro pos hb hk
    have e1 := hb s (List.mem_cons_self ..)
    have e2 := hk s (List.mem_cons_self ..)
    have : padTo pos 0 = 0 := by simp [padTo, Nat.mod_one]
    simp only [lay, e1, e2, this, List.replicate_zero, List.nil_append, List.length_nil, Nat.add_zero]
    exact ih pos (fun s hs => hb s (List.mem_cons_of_mem _ hs)) fun s hs => hk s (List.mem_cons_of_mem _ hs)

theorem lay_append (x y : List Sec) : ∀ pos, lay (x ++ y) pos =
    lay x pos ++ lay y (pos + (lay x pos).length) := by
  induction x with
  | nil => intro pos; rfl
  | cons s x ih =>
    intro pos
    simp only [List.cons_append, lay, ih, List.append_assoc, List.length_append,
      List.length_replicate, Nat.add_assoc]

/-- Where the linker starts `.data`. -/
def dataStart (p : Parts) : Nat :=
  let a1 := base + 0x4000 + (lay p.texts (base + 0x4000)).length + p.orphans1.length
  let a2 := a1 + padTo a1 3 + p.orphans2.length
  a2 + padTo a2 (maxK (p.datas ++ p.inits))

/-- Where the linker puts `start_ctors`. -/
def ctorStart (p : Parts) : Nat := dataStart p + 4366 + (lay p.datas (dataStart p + 4366)).length

/-- The symbols. -/
def env (p : Parts) : String → Nat :=
  symbol (textLabels p.c1.length p.c2.length) dataLabels (dataStart p) p.main

/-- The machine code of head.S fits before the tables, and no alignment is too large. -/
def Fits (p : Parts) : Prop := p.c1.length + p.c2.length + 16 ≤ 0x1000 ∧ maxK p.texts ≤ 20

/-- What lies between head.o's `.text` and its `.data`. -/
def between (p : Parts) : List (BitVec 8) :=
  let others := lay p.texts (base + 0x4000)
  let a1 := base + 0x4000 + others.length + p.orphans1.length
  let a2 := a1 + padTo a1 3 + p.orphans2.length
  others ++ p.orphans1 ++ List.replicate (padTo a1 3) 0 ++ p.orphans2 ++
    List.replicate (padTo a2 (maxK (p.datas ++ p.inits))) 0

theorem between_length (p : Parts) : base + 0x4000 + (between p).length = dataStart p := by
  simp only [between, dataStart, List.length_append, List.length_replicate]
  omega

theorem link_eq (p : Parts) (h : Fits p) : link p = some
    { image := emit (env p) (headText p.c1 p.c2) 0 ++ between p ++ emit (env p) headData 0 ++
        lay p.datas (dataStart p + 4366) ++ lay p.inits (ctorStart p)
      sym := env p
      startCtors := ctorStart p
      endCtors := ctorStart p + (lay p.inits (ctorStart p)).length } := by
  unfold link
  rw [labels_text, if_pos h.1, labels_data]
  simp only
  rw [if_pos h.2]
  simp only [between, List.append_assoc]
  rfl

theorem link_none (p : Parts) (h : ¬ Fits p) : link p = none := by
  unfold link
  rw [labels_text, labels_data]
  by_cases h1 : p.c1.length + p.c2.length + 16 ≤ 0x1000
  · rw [if_pos h1]
    simp only
    rw [if_neg (fun h2 => h ⟨h1, h2⟩)]
  · rw [if_neg h1]

theorem emit_text_length (env : String → Nat) (c1 c2 : List (BitVec 8))
    (h : c1.length + c2.length + 16 ≤ 0x1000) : (emit env (headText c1 c2) 0).length = 0x4000 := by
  obtain ⟨pad, hl, he⟩ := emit_text env c1 c2 h
  rw [he]
  simp only [List.length_append, le_length, hl, quads_length, Paging.pml4, Paging.pdpte, Paging.pde,
    List.length_replicate, List.length_cons, List.length_nil]
  omega

theorem emit_data_length (env : String → Nat) : (emit env headData 0).length = 4366 := by
  rw [emit_data]
  simp only [List.length_append, le_length, quads_length, List.length_map, Mode.kernelGdt,
    List.length_replicate, List.length_cons, List.length_nil]

/-- What a linked program is made of. -/
theorem link_some {p : Parts} {l : Linked} (h : link p = some l) : Fits p ∧
    l.image = emit (env p) (headText p.c1 p.c2) 0 ++ between p ++ emit (env p) headData 0 ++
      lay p.datas (dataStart p + 4366) ++ lay p.inits (ctorStart p) ∧
    l.sym = env p ∧ l.startCtors = ctorStart p ∧
    l.endCtors = ctorStart p + (lay p.inits (ctorStart p)).length := by
  by_cases hf : Fits p
  · rw [link_eq p hf] at h
    injection h with h
    subst h
    exact ⟨hf, rfl, rfl, rfl, rfl⟩
  · rw [link_none p hf] at h
    cases h

theorem env_text (p : Parts) :
    env p "_start" = base ∧ env p "SwitchSeg" = base + p.c1.length ∧
    env p "Entry64" = base + (p.c1.length + 8) ∧
    env p "StartKernel" = base + (p.c1.length + 8 + p.c2.length) ∧
    env p "PML4" = base + 0x1000 ∧ env p "PDPTE" = base + 0x2000 ∧ env p "PDE" = base + 0x3000 := by
  refine ⟨?_, ?_, ?_, ?_, ?_, ?_, ?_⟩ <;> simp [env, symbol, textLabels, List.find?]

theorem env_data (p : Parts) :
    env p "GDT_TABLE" = dataStart p ∧ env p "GDT_END" = dataStart p + 136 ∧
    env p "GDT_PTR" = dataStart p + 136 ∧
    env p "IDT_TABLE" = dataStart p + 146 ∧ env p "IDT_END" = dataStart p + 4242 ∧
    env p "IDT_PTR" = dataStart p + 4242 ∧ env p "TSS64_TABLE" = dataStart p + 4252 ∧
    env p "TSS64_END" = dataStart p + 4356 ∧ env p "TSS64_PTR" = dataStart p + 4356 := by
  refine ⟨?_, ?_, ?_, ?_, ?_, ?_, ?_, ?_, ?_⟩ <;> simp [env, symbol, textLabels, dataLabels, List.find?]

theorem env_main (p : Parts) : env p "main" = p.main := by
  simp [env, symbol, textLabels, dataLabels, List.find?]

/-- The tables of pages are where the processor looks for them. -/
theorem tables_loaded {p : Parts} {l : Linked} (h : link p = some l) {m : Loader.Phys}
    (hm : At m 0x100000 l.image) :
    Paging.Loaded (Loader.word m) Paging.pml4 Paging.pdpte Paging.pde := by
  obtain ⟨hf, hi, _⟩ := link_some h
  obtain ⟨pad, hl, he⟩ := emit_text (env p) p.c1 p.c2 hf.1
  rw [hi, he] at hm
  have ht := hm.left.left.left.left.right
  have hlen : 0x100000 + (p.c1 ++ le (env p "Entry64") 8 ++ p.c2 ++ le (env p "main") 8 ++ pad).length
      = 0x101000 := by
    simp only [List.length_append, le_length, hl]
    have := hf.1
    omega
  rw [hlen] at ht
  have l4 : Paging.pml4.length = 512 := by decide +kernel
  have l3 : Paging.pdpte.length = 512 := by decide +kernel
  have l2 : Paging.pde.length = 512 := by decide +kernel
  have b4 : ∀ v ∈ Paging.pml4, v < 2 ^ 64 := by decide +kernel
  have b3 : ∀ v ∈ Paging.pdpte, v < 2 ^ 64 := by decide +kernel
  have b2 : ∀ v ∈ Paging.pde, v < 2 ^ 64 := by decide +kernel
  have h4 := ht.left.left
  have h3 := ht.left.right
  have h2 := ht.right
  rw [quads_length, l4] at h3
  rw [List.length_append, quads_length, quads_length, l4, l3] at h2
  refine ⟨fun i hi => h4.quads _ b4 i (by omega), fun i hi => h3.quads _ b3 i (by omega),
    fun i hi => h2.quads _ b2 i (by omega)⟩

/-- The bytes are seen at a virtual address, through the page tables of head.S. -/
def Seen (m : Loader.Phys) (va : Nat) (bs : List (BitVec 8)) : Prop :=
  ∀ k (h : k < bs.length), ∃ pa, Paging.walk (Loader.word m) Paging.cr3 (va + k) = some (pa, true) ∧
    m pa = bs[k]

theorem seen_of {p : Parts} {l : Linked} (h : link p = some l) {m : Loader.Phys}
    (hm : At m 0x100000 l.image) (hs : l.image.length ≤ 0x900000) (pre bs post : List (BitVec 8))
    (hi : l.image = pre ++ bs ++ post) (va : Nat) (hva : va = base + pre.length) :
    Seen m va bs := by
  intro k hk
  have hlen : pre.length + bs.length + post.length ≤ 0x900000 := by
    rw [hi] at hs
    rw [List.length_append, List.length_append] at hs
    exact hs
  refine ⟨0x100000 + pre.length + k, ?_, ?_⟩
  · rw [Paging.C60_translate _ (tables_loaded h hm) (va + k) (by unfold base at hva; omega)]
    have : Paging.expected (va + k) = some (0x100000 + pre.length + k) := by
      unfold base at hva
      unfold Paging.expected Paging.window Paging.high
      rw [if_neg (by omega), if_pos (by omega)]
      have e : va + k - 0xFFFF800000000000 = 0x100000 + pre.length + k := by omega
      rw [e]
    rw [this]
    rfl
  · rw [hi] at hm
    exact hm.left.right k hk

theorem Seen.left {m : Loader.Phys} {a : Nat} {x y : List (BitVec 8)} (h : Seen m a (x ++ y)) :
    Seen m a x := by
  intro k hk
  obtain ⟨pa, hw, hm⟩ := h k (by rw [List.length_append]; omega)
  exact ⟨pa, hw, by rw [hm, List.getElem_append_left hk]⟩

theorem Seen.right {m : Loader.Phys} {a : Nat} {x y : List (BitVec 8)} (h : Seen m a (x ++ y)) :
    Seen m (a + x.length) y := by
  intro k hk
  obtain ⟨pa, hw, hm⟩ := h (x.length + k) (by rw [List.length_append]; omega)
  refine ⟨pa, by rw [Nat.add_assoc]; exact hw, ?_⟩
  rw [hm, List.getElem_append_right (by omega)]
  congr 1
  omega

/-! ### Constructors -/

theorem quads_flatten (c : List (List Nat)) : quads c.flatten = (c.map quads).flatten := by
  induction c with
  | nil => rfl
  | cons x c ih => rw [List.flatten_cons, quads_append, ih, List.map_cons, List.flatten_cons]

theorem lay_inits (c : List (List Nat)) : ∀ pos, pos % 8 = 0 →
    lay (c.map fun fs => ⟨3, quads fs⟩) pos = quads c.flatten := by
  induction c with
  | nil => intro pos _; rfl
  | cons x c ih =>
    intro pos h
    have e : padTo pos 3 = 0 := by rw [padTo_three]; omega
    simp only [List.map_cons, lay, e, List.replicate_zero, List.nil_append, Nat.add_zero]
    rw [ih _ (by rw [quads_length]; omega), List.flatten_cons, quads_append]

theorem lay_inits_pad (c : List (List Nat)) (hc : c ≠ []) (pos : Nat) :
    lay (c.map fun fs => ⟨3, quads fs⟩) pos =
      List.replicate (padTo pos 3) 0 ++ quads c.flatten := by
  cases c with
  | nil => exact absurd rfl hc
  | cons x c =>
    simp only [List.map_cons, lay, List.append_assoc]
    rw [lay_inits c _ (by rw [quads_length, padTo_three]; omega), List.flatten_cons, quads_append]

/-- A table from `i` on is gone through to its end. -/
theorem initLoop_ok (read : BitVec 64 → Option Nat) : ∀ (fs : List Nat) (i : BitVec 64) (calls : List Nat)
    (fuel : Nat), fs.length < fuel → fs.length < 2 ^ 61 →
    (∀ j (h : j < fs.length), read (i + BitVec.ofNat 64 (8 * j)) = some fs[j]) →
    initLoop read (i + BitVec.ofNat 64 (8 * fs.length)) fuel i calls = .ok (calls ++ fs) := by
  intro fs
  induction fs with
  | nil =>
    intro i calls fuel hf _ _
    obtain ⟨n, rfl⟩ : ∃ n, fuel = n + 1 := ⟨fuel - 1, by simp only [List.length_nil] at hf; omega⟩
    rw [initLoop, if_neg (by simp), List.append_nil]
  | cons f fs ih =>
    intro i calls fuel hf hl hr
    rw [List.length_cons] at hf hl
    obtain ⟨n, rfl⟩ : ∃ n, fuel = n + 1 := ⟨fuel - 1, by omega⟩
    have hne : i ≠ i + BitVec.ofNat 64 (8 * (f :: fs).length) := by
      rw [List.length_cons]
      intro h
      have h' := congrArg BitVec.toNat h
      rw [BitVec.toNat_add, BitVec.toNat_ofNat] at h'
      have := i.isLt
      omega
    have h0 := hr 0 (by rw [List.length_cons]; omega)
    have e0 : i + BitVec.ofNat 64 (8 * 0) = i := by simp
    rw [e0] at h0
    have es : i + BitVec.ofNat 64 (8 * (f :: fs).length) = i + 8 + BitVec.ofNat 64 (8 * fs.length) := by
      rw [List.length_cons]
      apply BitVec.eq_of_toNat_eq
      simp only [BitVec.toNat_add, BitVec.toNat_ofNat, show (8 : BitVec 64).toNat = 8 from rfl]
      omega
    rw [initLoop, if_pos hne, h0]
    simp only [List.getElem_cons_zero]
    rw [es, ih (i + 8) (calls ++ [f]) n (by omega) (by omega) (fun j hj => ?_)]
    · rw [List.append_assoc]; rfl
    · have := hr (j + 1) (by rw [List.length_cons]; omega)
      rw [List.getElem_cons_succ] at this
      rw [← this]
      congr 1
      apply BitVec.eq_of_toNat_eq
      simp only [BitVec.toNat_add, BitVec.toNat_ofNat, show (8 : BitVec 64).toNat = 8 from rfl]
      omega

/-- If the end is not a whole number of words away, the loop never stops at it. -/
theorem initLoop_never (read : BitVec 64 → Option Nat) (stop : BitVec 64) : ∀ (fuel : Nat)
    (i : BitVec 64) (calls r : List Nat), i.toNat % 8 ≠ stop.toNat % 8 →
    initLoop read stop fuel i calls ≠ .ok r := by
  intro fuel
  induction fuel with
  | zero => intro i calls r _ h; cases h
  | succ n ih =>
    intro i calls r hm
    have hne : i ≠ stop := fun h => hm (by rw [h])
    rw [initLoop, if_pos hne]
    cases hr : read i with
    | none => intro h; cases h
    | some f =>
      simp only
      refine ih (i + 8) _ r ?_
      rw [BitVec.toNat_add, show (8 : BitVec 64).toNat = 8 from rfl]
      omega

/-- A load of a word through the page tables of head.S. -/
def readWord (m : Loader.Phys) (va : BitVec 64) : Option Nat :=
  (Paging.walk (Loader.word m) Paging.cr3 va.toNat).map fun x => Loader.word m x.1

end Verif.Image
