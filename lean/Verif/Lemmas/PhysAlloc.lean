import Verif.Model.PhysAlloc

/-! Lemmas about the physical page allocator. -/

namespace Verif
namespace Arr
variable {α : Type}

/-- The array with one entry replaced. -/
def put (a : Arr α) (i : Nat) (v : α) : Arr α := { a with at_ := fun j => if j = i then v else a.at_ j }

theorem set_ok {a : Arr α} {i : Nat} (h : i < a.n) (v : α) : a.set i v = .ok (a.put i v) := by
  simp [Arr.set, put, h]

theorem set_ub {a : Arr α} {i : Nat} (h : ¬ i < a.n) (v : α) : a.set i v = .ub := by
  simp [Arr.set, h]

theorem get_ok {a : Arr α} {i : Nat} (h : i < a.n) : a.get i = .ok (a.at_ i) := by
  simp [Arr.get, h]

theorem get_ub {a : Arr α} {i : Nat} (h : ¬ i < a.n) : a.get i = .ub := by
  simp [Arr.get, h]

@[simp] theorem put_n (a : Arr α) (i : Nat) (v : α) : (a.put i v).n = a.n := rfl
@[simp] theorem put_same (a : Arr α) (i : Nat) (v : α) : (a.put i v).at_ i = v := by simp [put]
theorem put_ne (a : Arr α) {i j : Nat} (v : α) (h : j ≠ i) : (a.put i v).at_ j = a.at_ j := by simp [put, h]
theorem put_put (a : Arr α) (i : Nat) (v w : α) : (a.put i v).put i w = a.put i w := by
  simp only [put]; congr 1; funext j; split <;> rfl
theorem put_self (a : Arr α) (i : Nat) : a.put i (a.at_ i) = a := by
  simp only [put]; cases a; congr 1; funext j; simp only; split
  · next h => rw [h]
  · rfl

end Arr

namespace Phys

/-- Bit `i` of the bitmap. -/
def bit (m : Mm) (i : Nat) : Bool := (m.bits.at_ (i / 64)).getLsbD (i % 64)

/-- Sum over the pages. -/
def tot (n : Nat) (f : Nat → Nat) : Nat := ((List.range n).map f).sum

theorem tot_succ (n : Nat) (f : Nat → Nat) : tot (n + 1) f = tot n f + f n := by
  simp [tot, List.range_succ]

theorem tot_congr {n : Nat} {f g : Nat → Nat} (h : ∀ i, i < n → f i = g i) : tot n f = tot n g := by
  induction n with
  | zero => rfl
  | succ n ih => rw [tot_succ, tot_succ, ih fun i hi => h i (by omega), h n (by omega)]

theorem tot_upd {n i : Nat} {f g : Nat → Nat} (hi : i < n) (h : ∀ j, j ≠ i → g j = f j) : tot n g + f i = tot n f + g i := by
  induction n with
  | zero => omega
  | succ n ih =>
    rw [tot_succ, tot_succ]
    by_cases e : i = n
    · subst e
      rw [tot_congr (f := g) (g := f) fun j hj => h j (by omega)]
      omega
    · have := ih (by omega)
      have := h n (fun h => e h.symm)
      omega

theorem tot_le {n : Nat} {f : Nat → Nat} (h : ∀ i, f i ≤ 1) : tot n f ≤ n := by
  induction n with
  | zero => simp [tot]
  | succ n ih => rw [tot_succ]; have := h n; omega

theorem tot_lt {n i : Nat} {f : Nat → Nat} (h : ∀ i, f i ≤ 1) (hi : i < n) (h0 : f i = 0) : tot n f < n := by
  have := tot_upd (n := n) (f := f) (g := fun j => if j = i then 1 else f j) hi (fun j hj => by simp [hj])
  have h2 := tot_le (n := n) (f := fun j => if j = i then 1 else f j) (fun j => by split; omega; exact h j)
  simp at this
  omega

theorem tot_pos {n i : Nat} {f : Nat → Nat} (hi : i < n) (h0 : 0 < f i) : 0 < tot n f := by
  have := tot_upd (n := n) (f := f) (g := fun j => if j = i then 0 else f j) hi (fun j hj => by simp [hj])
  simp at this
  omega

/-- 1 if the page belongs to zone `z` and is in use. -/
def inUse (z : Nat) : Option Page → Nat
  | some p => if p.zone = z ∧ p.attr ≠ 0#64 then 1 else 0
  | none => 0

/-- Its references, if the page belongs to zone `z`. -/
def refsIn (z : Nat) : Option Page → Nat
  | some p => if p.zone = z then p.refs.toNat else 0
  | none => 0

theorem inUse_le (z : Nat) (p : Option Page) : inUse z p ≤ 1 := by
  unfold inUse; split
  · split <;> omega
  · omega

/-- What holds of a page. -/
structure PageOk (c : Flags) (n : Nat) (m : Mm) (i : Nat) (p : Page) : Prop where
  addr : p.addr.toNat = i * 2097152
  zone : p.zone < m.zones.n
  zero : p.attr = 0#64 ↔ p.refs = 0#64
  one : p.attr ≠ 0#64 → c.counted p.attr = false → p.refs = 1
  bit : p.attr ≠ 0#64 → bit m i = true
  bound : p.refs.toNat ≤ n

structure ZoneOk (m : Mm) (z : Nat) : Prop where
  used : (m.zones.at_ z).used.toNat = tot m.pages.n fun i => inUse z (m.pages.at_ i)
  free : (m.zones.at_ z).used + (m.zones.at_ z).free = (m.zones.at_ z).pages
  link : (m.zones.at_ z).link = BitVec.ofNat 64 (tot m.pages.n fun i => refsIn z (m.pages.at_ i))

/-- The invariant of page accounting; no page has more than `n` references. -/
structure Inv (c : Flags) (n : Nat) (m : Mm) : Prop where
  small : m.pages.n < 2 ^ 43
  cover : m.pages.n ≤ 64 * m.bits.n
  page : ∀ i p, i < m.pages.n → m.pages.at_ i = some p → PageOk c n m i p
  zone : ∀ z, z < m.zones.n → ZoneOk m z

theorem frame_addr {a : BitVec 64} {i : Nat} (h : a.toNat = i * 2097152) : frame a = i := by
  simp [frame, BitVec.toNat_ushiftRight, Nat.shiftRight_eq_div_pow, h]

theorem counted_or (c : Flags) (a b : BitVec 64) (h : c.counted a = true ∨ c.counted b = true) : c.counted (a ||| b) = true := by
  have key : ∀ x : BitVec 64, a &&& x ≠ 0#64 ∨ b &&& x ≠ 0#64 → (a ||| b) &&& x ≠ 0#64 := by
    intro x hx e
    have hb : ∀ i, ((a ||| b) &&& x).getLsbD i = false := by intro i; rw [e]; simp
    simp only [BitVec.getLsbD_and, BitVec.getLsbD_or] at hb
    rcases hx with hx | hx <;> refine hx (BitVec.eq_of_getLsbD_eq fun i hi => ?_) <;>
    · have := hb i
      simp only [BitVec.getLsbD_and]
      revert this
      cases a.getLsbD i <;> cases b.getLsbD i <;> cases x.getLsbD i <;> simp
  simp only [Flags.counted, Bool.or_eq_true, bne_iff_ne] at h ⊢
  rcases h with (h | h) | (h | h)
  · exact .inl (key _ (.inl h))
  · exact .inr (key _ (.inl h))
  · exact .inl (key _ (.inr h))
  · exact .inr (key _ (.inr h))

theorem or_ne_zero {a b : BitVec 64} (h : a ≠ 0#64) : a ||| b ≠ 0#64 := by
  intro e
  refine h (BitVec.eq_of_getLsbD_eq fun i hi => ?_)
  have : (a ||| b).getLsbD i = false := by rw [e]; simp
  rw [BitVec.getLsbD_or] at this
  cases h2 : a.getLsbD i with
  | false => simp
  | true => rw [h2] at this; cases this

theorem Inv.upd {c : Flags} {n n' : Nat} {m m' : Mm} (I : Inv c n m) (hn : n ≤ n') {i : Nat} {p p' : Page} (hi : i < m.pages.n) (hp : m.pages.at_ i = some p)
    (hpg : m'.pages = m.pages.put i (some p')) (hz : p'.zone = p.zone) (ha : p'.addr = p.addr) (hbn : m'.bits.n = m.bits.n) (hb : ∀ j, j ≠ i → bit m' j = bit m j)
    (h0 : p'.attr = 0#64 ↔ p'.refs = 0#64) (h1 : p'.attr ≠ 0#64 → c.counted p'.attr = false → p'.refs = 1) (hbi : p'.attr ≠ 0#64 → bit m' i = true) (hbd : p'.refs.toNat ≤ n')
    {x : Zone} (hzs : m'.zones = m.zones.put p.zone x)
    (hu : x.used.toNat + (if p.attr = 0#64 then 0 else 1) = (m.zones.at_ p.zone).used.toNat + (if p'.attr = 0#64 then 0 else 1))
    (hf : x.used + x.free = (m.zones.at_ p.zone).used + (m.zones.at_ p.zone).free) (hpl : x.pages = (m.zones.at_ p.zone).pages)
    (hl : x.link + p.refs = (m.zones.at_ p.zone).link + p'.refs) : Inv c n' m' := by
  have P := I.page i p hi hp
  have hnp : m'.pages.n = m.pages.n := by rw [hpg]; rfl
  have hzn : m'.zones.n = m.zones.n := by rw [hzs]; rfl
  refine ⟨by rw [hnp]; exact I.small, by rw [hnp, hbn]; exact I.cover, ?_, ?_⟩
  · intro j q hj hq
    rw [hnp] at hj
    by_cases e : j = i
    · subst e
      rw [hpg, Arr.put_same] at hq
      cases hq
      exact ⟨by rw [ha]; exact P.addr, by rw [hz, hzn]; exact P.zone, h0, h1, hbi, hbd⟩
    · rw [hpg, Arr.put_ne _ _ e] at hq
      have Q := I.page j q hj hq
      exact ⟨Q.addr, by rw [hzn]; exact Q.zone, Q.zero, Q.one, fun h => by rw [hb j e]; exact Q.bit h, Nat.le_trans Q.bound hn⟩
  · intro z hzz
    rw [hzn] at hzz
    have Z := I.zone z hzz
    have hne : ∀ j, j ≠ i → m'.pages.at_ j = m.pages.at_ j := fun j hj => by rw [hpg, Arr.put_ne _ _ hj]
    have hsm : m'.pages.at_ i = some p' := by rw [hpg, Arr.put_same]
    have e1 := tot_upd (n := m.pages.n) (f := fun j => inUse z (m.pages.at_ j)) (g := fun j => inUse z (m'.pages.at_ j)) hi (fun j hj => by simp only [hne j hj])
    have e2 := tot_upd (n := m.pages.n) (f := fun j => refsIn z (m.pages.at_ j)) (g := fun j => refsIn z (m'.pages.at_ j)) hi (fun j hj => by simp only [hne j hj])
    simp only [hsm, hp] at e1 e2
    have u1 : ∀ q : Page, inUse z (some q) = if q.zone = z ∧ q.attr ≠ 0#64 then 1 else 0 := fun _ => rfl
    have u2 : ∀ q : Page, refsIn z (some q) = if q.zone = z then q.refs.toNat else 0 := fun _ => rfl
    rw [u1, u1, hz] at e1
    rw [u2, u2, hz] at e2
    by_cases e : z = p.zone
    · subst e
      simp only [if_true, true_and] at e1 e2
      have hx : m'.zones.at_ p.zone = x := by rw [hzs, Arr.put_same]
      constructor
      · rw [hx, hnp]
        have := Z.used
        by_cases ha : p.attr = 0#64 <;> by_cases hb : p'.attr = 0#64 <;> simp [ha, hb] at e1 hu <;> omega
      · rw [hx, hf, hpl]; exact Z.free
      · rw [hx, hnp]
        have hl2 : BitVec.ofNat 64 (tot m.pages.n fun j => refsIn p.zone (m'.pages.at_ j)) + p.refs = (m.zones.at_ p.zone).link + p'.refs := by
          rw [Z.link]
          apply BitVec.eq_of_toNat_eq
          simp only [BitVec.toNat_add, BitVec.toNat_ofNat]
          omega
        have := hl.trans hl2.symm
        have := congrArg (· - p.refs) this
        simpa [BitVec.add_sub_cancel] using this
    · have e' : ¬ p.zone = z := fun h => e h.symm
      have hx : m'.zones.at_ z = m.zones.at_ z := by rw [hzs, Arr.put_ne _ _ e]
      simp only [e', if_false, false_and, Nat.add_zero] at e1 e2
      constructor
      · rw [hx, hnp, e1]; exact Z.used
      · rw [hx]; exact Z.free
      · rw [hx, hnp, e2]; exact Z.link

theorem getLsbD_one_shl {i k : Nat} (hi : i < 64) : (1#64 <<< k).getLsbD i = decide (i = k) := by
  simp only [BitVec.getLsbD_shiftLeft, BitVec.getLsbD_one]
  by_cases h : i = k
  · subst h; simp [hi]
  · simp [h, hi]; omega

theorem modBit_ok {m : Mm} {i : Nat} (h : i < 64 * m.bits.n) (f : BitVec 64 → BitVec 64 → BitVec 64) :
    modBit m i f = .ok { m with bits := m.bits.put (i / 64) (f (m.bits.at_ (i / 64)) (1#64 <<< (i % 64))) } := by
  have : i / 64 < m.bits.n := by omega
  simp [modBit, Arr.get_ok this, Arr.set_ok this]

/-- The state with one bit changed. -/
def putBit (m : Mm) (i : Nat) (f : BitVec 64 → BitVec 64 → BitVec 64) : Mm :=
  { m with bits := m.bits.put (i / 64) (f (m.bits.at_ (i / 64)) (1#64 <<< (i % 64))) }

theorem bit_put {m : Mm} {i j : Nat} {f : BitVec 64 → BitVec 64 → BitVec 64} {g : Bool → Bool → Bool} (hf : ∀ x y k, k < 64 → (f x y).getLsbD k = g (x.getLsbD k) (y.getLsbD k)) :
    bit (putBit m i f) j = if j / 64 = i / 64 then g (bit m j) (decide (j = i)) else bit m j := by
  simp only [bit, putBit, Arr.put]
  split
  · next h =>
    rw [hf _ _ _ (Nat.mod_lt _ (by omega)), getLsbD_one_shl (Nat.mod_lt _ (by omega)), h]
    congr 1
    simp only [decide_eq_decide]
    omega
  · rfl

theorem bit_or {m : Mm} {i j : Nat} : bit (putBit m i fun w b => w ||| b) j = (bit m j || decide (j = i)) := by
  rw [bit_put (g := fun a b => a || b) (fun x y k _ => BitVec.getLsbD_or)]
  split
  · rfl
  · next h => rw [decide_eq_false (by rintro rfl; exact h rfl), Bool.or_false]

theorem bit_clear {m : Mm} {i j : Nat} : bit (putBit m i fun w b => w &&& ~~~b) j = (bit m j && !decide (j = i)) := by
  rw [bit_put (g := fun a b => a && !b) (fun x y k hk => by simp [hk])]
  split
  · rfl
  · next h => rw [decide_eq_false (by rintro rfl; exact h rfl)]; simp

theorem bit_xor {m : Mm} {i j : Nat} : bit (putBit m i fun w b => w ^^^ b) j = (bit m j ^^ decide (j = i)) := by
  rw [bit_put (g := fun a b => a ^^ b) (fun x y k hk => by simp)]
  split
  · rfl
  · next h => rw [decide_eq_false (by rintro rfl; exact h rfl)]; simp

theorem getPage_ok {m : Mm} {i : Nat} {p : Page} (hi : i < m.pages.n) (hp : m.pages.at_ i = some p) : getPage m i = .ok p := by
  simp [getPage, Arr.get_ok hi, hp]

theorem getPage_inv {m : Mm} {i : Nat} {p : Page} (h : getPage m i = .ok p) : i < m.pages.n ∧ m.pages.at_ i = some p := by
  by_cases hi : i < m.pages.n
  · refine ⟨hi, ?_⟩
    simp only [getPage, Arr.get_ok hi, Res.ok_bind] at h
    split at h
    · next q e => cases h; exact e
    · cases h
  · rw [getPage, Arr.get_ub hi] at h; cases h

theorem setPage_ok {m : Mm} {i : Nat} (hi : i < m.pages.n) (p : Page) : setPage m i p = .ok { m with pages := m.pages.put i (some p) } := by
  simp [setPage, Arr.set_ok hi]

theorem modZone_ok {m : Mm} {z : Nat} (hz : z < m.zones.n) (f : Zone → Zone) : modZone m z f = .ok { m with zones := m.zones.put z (f (m.zones.at_ z)) } := by
  simp [modZone, Arr.get_ok hz, Arr.set_ok hz]

/-- `page_init` on a page that is set up. -/
theorem pageInit_eq {c : Flags} {n : Nat} {m : Mm} (I : Inv c n m) {i : Nat} {p : Page} (hi : i < m.pages.n) (hp : m.pages.at_ i = some p) (flags : BitVec 64) :
    pageInit c m i flags = .ok (if p.attr = 0#64 then
        { putBit m i (fun w b => w ||| b) with
            pages := m.pages.put i (some { p with attr := flags, refs := p.refs + 1 }),
            zones := m.zones.put p.zone { m.zones.at_ p.zone with used := (m.zones.at_ p.zone).used + 1, free := (m.zones.at_ p.zone).free - 1, link := (m.zones.at_ p.zone).link + 1 } }
      else if c.counted p.attr || c.counted flags then
        { m with
            pages := m.pages.put i (some { p with attr := p.attr ||| flags, refs := p.refs + 1 }),
            zones := m.zones.put p.zone { m.zones.at_ p.zone with link := (m.zones.at_ p.zone).link + 1 } }
      else { putBit m i (fun w b => w ||| b) with pages := m.pages.put i (some { p with attr := p.attr ||| flags }) }) := by
  have P := I.page i p hi hp
  have hb : i < 64 * m.bits.n := Nat.lt_of_lt_of_le hi I.cover
  simp only [pageInit, getPage_ok hi hp, Res.ok_bind, frame_addr P.addr]
  split
  · rw [modBit_ok hb, Res.ok_bind, setPage_ok (by exact hi), Res.ok_bind, modZone_ok (by exact P.zone)]; rfl
  · split
    · rw [setPage_ok hi, Res.ok_bind, modZone_ok (by exact P.zone)]
    · rw [modBit_ok hb, Res.ok_bind, setPage_ok (by exact hi)]; rfl

/-- `page_clean` on a page that is set up. -/
theorem pageClean_eq {c : Flags} {n : Nat} {m : Mm} (I : Inv c n m) {i : Nat} {p : Page} (hi : i < m.pages.n) (hp : m.pages.at_ i = some p) :
    pageClean c m i = .ok (if p.attr = 0#64 then m
      else if c.counted p.attr then
        (if p.refs - 1 = 0#64 then
          { m with
            pages := m.pages.put i (some { p with refs := p.refs - 1, attr := 0#64 }),
            zones := m.zones.put p.zone { m.zones.at_ p.zone with used := (m.zones.at_ p.zone).used - 1, free := (m.zones.at_ p.zone).free + 1, link := (m.zones.at_ p.zone).link - 1 } }
        else
          { m with
            pages := m.pages.put i (some { p with refs := p.refs - 1 }),
            zones := m.zones.put p.zone { m.zones.at_ p.zone with link := (m.zones.at_ p.zone).link - 1 } })
      else
        { putBit m i (fun w b => w &&& ~~~b) with
            pages := m.pages.put i (some { p with attr := 0#64, refs := 0#64 }),
            zones := m.zones.put p.zone { m.zones.at_ p.zone with used := (m.zones.at_ p.zone).used - 1, free := (m.zones.at_ p.zone).free + 1, link := (m.zones.at_ p.zone).link - 1 } }) := by
  have P := I.page i p hi hp
  have hb : i < 64 * m.bits.n := Nat.lt_of_lt_of_le hi I.cover
  simp only [pageClean, getPage_ok hi hp, Res.ok_bind, frame_addr P.addr]
  split
  · next h =>
    rw [setPage_ok hi]
    have : ({ p with attr := 0#64 } : Page) = p := by cases p; simp at h; simp [h]
    rw [this, ← hp, Arr.put_self]
  · split
    · rw [setPage_ok hi, Res.ok_bind, modZone_ok (by exact P.zone), Res.ok_bind]
      split
      · rw [setPage_ok (by exact hi), Res.ok_bind, modZone_ok (by exact P.zone)]
        simp only [Arr.put_put, Arr.put_same]
      · rfl
    · rw [modBit_ok hb, Res.ok_bind, setPage_ok (by exact hi), Res.ok_bind, modZone_ok (by exact P.zone)]; rfl

theorem Inv.used_lt {c : Flags} {n : Nat} {m : Mm} (I : Inv c n m) {i : Nat} {p : Page} (hi : i < m.pages.n) (hp : m.pages.at_ i = some p) :
    (p.attr = 0#64 → (m.zones.at_ p.zone).used.toNat < m.pages.n) ∧ (p.attr ≠ 0#64 → 0 < (m.zones.at_ p.zone).used.toNat) := by
  have Z := I.zone p.zone (I.page i p hi hp).zone
  rw [Z.used]
  constructor
  · intro h; exact tot_lt (fun _ => inUse_le _ _) hi (by simp [hp, inUse, h])
  · intro h; exact tot_pos hi (by simp [hp, inUse, h])

theorem toNat_succ {x : BitVec 64} (h : x.toNat < 2 ^ 64 - 1) : (x + 1).toNat = x.toNat + 1 := by
  simp [BitVec.toNat_add]; omega

theorem toNat_pred {x : BitVec 64} (h : 0 < x.toNat) : (x - 1).toNat = x.toNat - 1 := by
  have := x.isLt
  simp [BitVec.toNat_sub]; omega

theorem ne_zero_toNat {x : BitVec 64} : x ≠ 0#64 ↔ 0 < x.toNat := by
  constructor
  · intro h
    rcases Nat.eq_zero_or_pos x.toNat with e | e
    · exact absurd (BitVec.eq_of_toNat_eq (by simpa using e)) h
    · exact e
  · rintro h rfl; simp at h

/-- `page_init` keeps the invariant. -/
theorem Inv.init {c : Flags} {n : Nat} {m m' : Mm} (I : Inv c n m) (hn : n < 2 ^ 64 - 1) {i : Nat} {flags : BitVec 64} (hf : flags ≠ 0#64)
    (e : pageInit c m i flags = .ok m') : Inv c (n + 1) m' := by
  obtain ⟨p, hg, _⟩ := Res.bind_eq_ok.1 e
  obtain ⟨hi, hp⟩ := getPage_inv hg
  have P := I.page i p hi hp
  have U := I.used_lt hi hp
  have := I.small
  rw [pageInit_eq I hi hp] at e
  injection e with e
  split at e
  · next h =>
    subst e
    have hr : p.refs = 0#64 := P.zero.1 h
    have hu := U.1 h
    refine I.upd (Nat.le_succ n) hi hp rfl rfl rfl rfl (fun j hj => ?_) ?_ ?_ ?_ ?_ rfl ?_ ?_ rfl ?_
    · exact bit_or.trans (by simp [hj])
    · simp [hf, hr]
    · intro _ _; simp [hr]
    · intro _; exact bit_or.trans (by simp)
    · simp [hr]
    · simp only [h, hf, if_true, if_false]; rw [toNat_succ (by omega)]
    · simp only; grind
    · simp only [hr]; grind
  · next h =>
    split at e
    · next h2 =>
      subst e
      refine I.upd (Nat.le_succ n) hi hp rfl rfl rfl rfl (fun j hj => rfl) ?_ ?_ ?_ ?_ rfl ?_ rfl rfl ?_
      · have h3 : p.refs + 1 ≠ 0#64 := by
          rw [ne_zero_toNat, toNat_succ (by have := P.bound; omega)]; omega
        simp only [or_ne_zero h, h3]
      · intro _ h3
        rw [Bool.or_eq_true] at h2
        rw [counted_or c _ _ h2] at h3; cases h3
      · intro _; exact P.bit h
      · simp only; rw [toNat_succ (by have := P.bound; omega)]; have := P.bound; omega
      · simp only [h, or_ne_zero h]
      · simp only; grind
    · next h2 =>
      subst e
      refine I.upd (Nat.le_succ n) hi hp rfl rfl rfl rfl (fun j hj => ?_) ?_ ?_ ?_ ?_ (x := m.zones.at_ p.zone) ?_ ?_ rfl rfl ?_
      · exact bit_or.trans (by simp [hj])
      · simp only [or_ne_zero h, false_iff]; exact fun h3 => h (P.zero.2 h3)
      · intro _ _
        refine P.one h ?_
        cases h4 : c.counted p.attr with
        | false => rfl
        | true => rw [h4] at h2; simp at h2
      · intro _; exact bit_or.trans (by simp)
      · exact Nat.le_succ_of_le P.bound
      · simp only [putBit, Arr.put_self]
      · simp only [h, or_ne_zero h]
      · rfl

/-- `page_clean` keeps the invariant. -/
theorem Inv.clean {c : Flags} {n : Nat} {m m' : Mm} (I : Inv c n m) {i : Nat} (e : pageClean c m i = .ok m') : Inv c n m' := by
  obtain ⟨p, hg, _⟩ := Res.bind_eq_ok.1 e
  obtain ⟨hi, hp⟩ := getPage_inv hg
  have P := I.page i p hi hp
  have U := I.used_lt hi hp
  rw [pageClean_eq I hi hp] at e
  injection e with e
  split at e
  · subst e; exact I
  · next h =>
    have hu := U.2 h
    have hr : p.refs ≠ 0#64 := fun h2 => h (P.zero.2 h2)
    have hr' := ne_zero_toNat.1 hr
    split at e
    · next h2 =>
      split at e
      · next h3 =>
        subst e
        refine I.upd (Nat.le_refl n) hi hp rfl rfl rfl rfl (fun j hj => rfl) ?_ ?_ ?_ ?_ rfl ?_ ?_ rfl ?_
        · simp only [h3]
        · intro h4; exact absurd rfl h4
        · intro h4; exact absurd rfl h4
        · simp only [h3]; simp
        · simp only [h, if_true, if_false]; rw [toNat_pred hu]; omega
        · simp only; grind
        · simp only; grind
      · next h3 =>
        subst e
        refine I.upd (Nat.le_refl n) hi hp rfl rfl rfl rfl (fun j hj => rfl) ?_ ?_ ?_ ?_ rfl ?_ rfl rfl ?_
        · simp only [h, h3]
        · intro _ h4; simp only at h4; rw [h4] at h2; cases h2
        · intro _; exact P.bit h
        · simp only; rw [toNat_pred hr']; have := P.bound; omega
        · rfl
        · simp only; grind
    · next h2 =>
      have hr1 : p.refs = 1 := P.one h (by simpa using h2)
      subst e
      refine I.upd (Nat.le_refl n) hi hp rfl rfl rfl rfl (fun j hj => ?_) ?_ ?_ ?_ ?_ rfl ?_ ?_ rfl ?_
      · exact bit_clear.trans (by simp [hj])
      · simp
      · intro h4; exact absurd rfl h4
      · intro h4; exact absurd rfl h4
      · simp
      · simp only [h, if_true, if_false]; rw [toNat_pred hu]; omega
      · simp only; grind
      · simp only [hr1]; grind

end Phys
end Verif
