import Verif.Model.Format
import Verif.Spec.Format
import Verif.Lemmas.StringMem

/-! Functional correctness of the formatting functions (helper lemmas). -/

namespace Verif.Format
open Verif Verif.Spec.Printf

/-! ### Digits -/

theorem byteOf_digitChar_dec : ∀ n, n < 10 → UInt8.ofNat (n + 48) = byteOf (Nat.digitChar n) := by
  decide

theorem decLoop_eq (room : Nat) : ∀ (v : BitVec 64) (acc : List UInt8), v.toNat < 10 ^ (room + 1) →
    decLoop (room + 1) v acc = .ok (dec v.toNat ++ acc) := by
  induction room with
  | zero =>
    intro v acc h
    have h10 : v.toNat < 10 := by simpa using h
    have hz : v / 10#64 = 0#64 := by
      apply BitVec.eq_of_toNat_eq
      simp [BitVec.toNat_udiv, Nat.div_eq_of_lt h10]
    have hm : (v % 10#64).toNat = v.toNat := by
      simp [BitVec.toNat_umod, Nat.mod_eq_of_lt h10]
    simp only [decLoop, hz, hm, if_true]
    rw [byteOf_digitChar_dec _ h10, dec, Nat.toDigits_of_lt_base h10]
    rfl
  | succ room ih =>
    intro v acc h
    have hd : (v / 10#64).toNat = v.toNat / 10 := by simp [BitVec.toNat_udiv]
    have hm : (v % 10#64).toNat = v.toNat % 10 := by simp [BitVec.toNat_umod]
    rw [decLoop]
    simp only [hm]
    rw [byteOf_digitChar_dec _ (Nat.mod_lt _ (by omega))]
    by_cases hz : v / 10#64 = 0#64
    · rw [if_pos hz]
      have h0 : v.toNat / 10 = 0 := by rw [← hd, hz]; rfl
      have h10 : v.toNat < 10 := by omega
      rw [Nat.mod_eq_of_lt h10, dec, Nat.toDigits_of_lt_base h10]
      rfl
    · rw [if_neg hz]
      have h0 : v.toNat / 10 ≠ 0 := by
        intro h0; apply hz; apply BitVec.eq_of_toNat_eq; rw [hd, h0]; rfl
      rw [ih _ _ (by rw [hd]; rw [Nat.pow_succ] at h; omega), hd]
      congr 1
      rw [dec, dec, Nat.toDigits_of_base_le (b := 10) (n := v.toNat) (by omega) (by omega)]
      simp

theorem hexTable_get (upper : Bool) : ∀ n, n < 16 → (hexTable upper)[n]? =
    some (byteOf (if upper then (Nat.digitChar n).toUpper else Nat.digitChar n)) := by
  cases upper <;> decide

theorem hexLoop_eq (upper : Bool) (room : Nat) : ∀ (v : BitVec 64) (acc : List UInt8),
    v.toNat < 16 ^ (room + 1) →
    hexLoop upper (room + 1) v acc = .ok (hexa upper v.toNat ++ acc) := by
  have hand : ∀ v : BitVec 64, (v &&& 0xf#64).toNat = v.toNat % 16 := by
    intro v
    have := Nat.and_two_pow_sub_one_eq_mod v.toNat 4
    simpa [BitVec.toNat_and] using this
  have hshr : ∀ v : BitVec 64, (v >>> 4).toNat = v.toNat / 16 := by
    intro v; simp [BitVec.toNat_ushiftRight, Nat.shiftRight_eq_div_pow]
  induction room with
  | zero =>
    intro v acc h
    have h16 : v.toNat < 16 := by simpa using h
    have hz : v >>> 4 = 0#64 := by
      apply BitVec.eq_of_toNat_eq; rw [hshr, Nat.div_eq_of_lt h16]; rfl
    simp only [hexLoop, hand, Nat.mod_eq_of_lt h16, hexTable_get upper _ h16, hz, if_true]
    rw [hexa, Nat.toDigits_of_lt_base h16]
    rfl
  | succ room ih =>
    intro v acc h
    rw [hexLoop]
    simp only [hand, hexTable_get upper _ (Nat.mod_lt v.toNat (by omega : 16 > 0))]
    by_cases hz : v >>> 4 = 0#64
    · rw [if_pos hz]
      have h0 : v.toNat / 16 = 0 := by rw [← hshr, hz]; rfl
      have h16 : v.toNat < 16 := by omega
      rw [Nat.mod_eq_of_lt h16, hexa, Nat.toDigits_of_lt_base h16]
      rfl
    · rw [if_neg hz]
      have h0 : v.toNat / 16 ≠ 0 := by
        intro h0; apply hz; apply BitVec.eq_of_toNat_eq; rw [hshr, h0]; rfl
      rw [ih _ _ (by rw [hshr]; rw [Nat.pow_succ] at h; omega), hshr]
      congr 1
      rw [hexa, hexa, Nat.toDigits_of_base_le (b := 16) (n := v.toNat) (by omega) (by omega)]
      simp

theorem digits_eq (v : BitVec 64) (hex : Nat) :
    (if hex = 0 then decLoop 20 v [] else if hex = 1 then hexLoop false 20 v []
      else hexLoop true 20 v []) = .ok (numText hex v.toNat) := by
  have hv := v.isLt
  unfold numText
  split
  · have := decLoop_eq 19 v [] (by omega)
    simpa using this
  · split
    · have := hexLoop_eq false 19 v [] (by omega)
      rename_i h1 h2
      simpa [h2] using this
    · have := hexLoop_eq true 19 v [] (by omega)
      rename_i h1 h2
      simpa [h2] using this

/-! ### Memory written so far -/

theorem wr_nil (m : Mem) (b : Nat) : wr m b [] = m := by
  funext a; unfold wr; rw [if_neg (by simp)]

theorem wr_snoc (m : Mem) (b : Nat) (l : List UInt8) (c : UInt8) :
    (wr m b l).upd (b + l.length) c = wr m b (l ++ [c]) := by
  funext a
  unfold Mem.upd wr
  simp only [List.length_append, List.length_singleton]
  by_cases h : a = b + l.length
  · subst h
    rw [if_pos rfl, if_pos (by omega)]
    simp
  · rw [if_neg h]
    by_cases h2 : b ≤ a ∧ a < b + l.length
    · rw [if_pos h2, if_pos (by omega), List.getElem?_append_left (by omega)]
    · rw [if_neg h2, if_neg (by omega)]

theorem wr_out {m : Mem} {b : Nat} {l : List UInt8} {a : Nat} (h : ¬ (b ≤ a ∧ a < b + l.length)) :
    wr m b l a = m a := by unfold wr; rw [if_neg h]

theorem wr_isSome {m : Mem} {b : Nat} {l : List UInt8} {a : Nat} (h : (m a).isSome) :
    (wr m b l a).isSome := by
  unfold wr
  split
  · rw [List.getElem?_eq_getElem (by omega)]; rfl
  · exact h

/-- Running `x` at `buf` appends as much of `out` as fits to what has been
written to the buffer `[lo, hi)`; the result is `k` of the new position. -/
def Emits {α : Type} (m0 : Mem) (lo hi : Nat) (x : FM α) (buf : Nat) (out : List UInt8)
    (k : Nat → α) : Prop :=
  ∀ (l : List UInt8) (log : List Nat), buf = lo + l.length → buf ≤ hi →
    ∃ log', x ⟨wr m0 lo l, log⟩ =
      (.ok (k (buf + min out.length (hi - buf))), ⟨wr m0 lo (l ++ out.take (hi - buf)), log'⟩)

variable {m0 : Mem} {lo hi : Nat}

theorem Emits.bind {α β : Type} {x : FM α} {f : α → FM β} {buf : Nat} {o1 o2 : List UInt8}
    {k1 : Nat → α} {k2 : Nat → β}
    (hx : Emits m0 lo hi x buf o1 k1)
    (hf : ∀ b, buf ≤ b → b ≤ hi → b = buf + min o1.length (hi - buf) →
      Emits m0 lo hi (f (k1 b)) b o2 k2) :
    Emits m0 lo hi (x >>= f) buf (o1 ++ o2) k2 := by
  intro l log hl hh
  obtain ⟨log1, h1⟩ := hx l log hl hh
  obtain ⟨log2, h2⟩ := hf (buf + min o1.length (hi - buf)) (by omega) (by omega) rfl
    (l ++ o1.take (hi - buf)) log1 (by simp only [List.length_append, List.length_take]; omega)
    (by omega)
  refine ⟨log2, ?_⟩
  rw [FM.bind_ok h1, h2]
  have e1 : buf + min o1.length (hi - buf) + min o2.length (hi - (buf + min o1.length (hi - buf)))
      = buf + min (o1 ++ o2).length (hi - buf) := by
    rw [List.length_append]; omega
  have e2 : l ++ o1.take (hi - buf) ++ o2.take (hi - (buf + min o1.length (hi - buf)))
      = l ++ (o1 ++ o2).take (hi - buf) := by
    rw [List.take_append, List.append_assoc]
    congr 3; omega
  rw [e1, e2]

theorem Emits.pure {α : Type} {buf : Nat} {k : Nat → α} :
    Emits m0 lo hi (Pure.pure (k buf) : FM α) buf [] k := by
  intro l log hl hh
  exact ⟨log, by simp⟩

theorem Emits.lift {α β : Type} {a : α} {r : Res α} {f : α → FM β} {buf : Nat} {o : List UInt8}
    {k : Nat → β} (hr : r = .ok a) (hf : Emits m0 lo hi (f a) buf o k) :
    Emits m0 lo hi (FM.lift r >>= f) buf o k := by
  intro l log hl hh
  obtain ⟨log', h⟩ := hf l log hl hh
  exact ⟨log', by rw [hr]; exact h⟩

theorem put_run (hacc : m0.Acc lo (hi - lo)) {buf : Nat} {c : UInt8} {l : List UInt8}
    {log : List Nat} (hl : buf = lo + l.length) (hh : buf < hi) :
    FM.put buf c ⟨wr m0 lo l, log⟩ = (.ok (), ⟨wr m0 lo (l ++ [c]), buf :: log⟩) := by
  have hs : (wr m0 lo l buf).isSome := by
    have := hacc l.length (by omega)
    rw [hl]; exact wr_isSome this
  obtain ⟨b, hb⟩ := Option.isSome_iff_exists.mp hs
  simp only [FM.put, Mem.store, hb]
  rw [hl, wr_snoc]

/-- One byte, when there is room. -/
theorem Emits.put (hacc : m0.Acc lo (hi - lo)) {buf : Nat} {c : UInt8} (hlt : buf < hi)
    {α : Type} {f : Unit → FM α} {o : List UInt8} {k : Nat → α}
    (hf : Emits m0 lo hi (f ()) (buf + 1) o k) :
    Emits m0 lo hi (FM.put buf c >>= f) buf (c :: o) k := by
  intro l log hl hh
  have h1 := put_run (c := c) (log := log) hacc hl hlt
  obtain ⟨log', h2⟩ := hf (l ++ [c]) (buf :: log) (by simp; omega) (by omega)
  refine ⟨log', ?_⟩
  rw [FM.bind_ok h1, h2]
  have e1 : buf + 1 + min o.length (hi - (buf + 1)) = buf + min (c :: o).length (hi - buf) := by
    rw [List.length_cons]; omega
  have e2 : l ++ [c] ++ o.take (hi - (buf + 1)) = l ++ (c :: o).take (hi - buf) := by
    rw [show hi - buf = hi - (buf + 1) + 1 by omega, List.take_succ_cons]
    simp
  rw [e1, e2]

/-- Nothing more is written when the buffer is full. -/
theorem Emits.full {α : Type} {x : FM α} {buf : Nat} {o : List UInt8} {k : Nat → α}
    (hge : hi ≤ buf) (hx : ∀ s, x s = (.ok (k buf), s)) : Emits m0 lo hi x buf o k := by
  intro l log hl hh
  refine ⟨log, ?_⟩
  have : hi - buf = 0 := by omega
  rw [hx, this]; simp

theorem putList_emits (hacc : m0.Acc lo (hi - lo)) (ds : List UInt8) : ∀ buf,
    buf + ds.length ≤ hi → Emits m0 lo hi (putList ds buf) buf ds id := by
  induction ds with
  | nil => intro buf h; exact Emits.pure (k := id)
  | cons c cs ih =>
    intro buf h
    simp only [List.length_cons] at h
    unfold putList
    exact Emits.put hacc (by omega) (ih (buf + 1) (by omega))

theorem padLoop_emits (hacc : m0.Acc lo (hi - lo)) (z : UInt8) (rem : Nat) : ∀ buf,
    Emits m0 lo hi (padLoop hi z rem buf) buf (List.replicate rem z) id := by
  induction rem with
  | zero => intro buf; exact Emits.pure (k := id)
  | succ rem ih =>
    intro buf
    unfold padLoop
    split
    · rename_i h
      rw [List.replicate_succ]
      exact Emits.put hacc h (ih (buf + 1))
    · exact Emits.full (by omega) (fun s => rfl)

theorem sprintfNum_emits (hacc : m0.Acc lo (hi - lo)) (hlo : lo ≠ 0) (v : BitVec 64) (z : UInt8)
    (hex w buf : Nat) (hb : lo ≤ buf) :
    Emits m0 lo hi (sprintfNum buf hi v z hex w) buf (padTo w z (numText hex v.toNat)) id := by
  unfold sprintfNum
  refine Emits.lift (digits_eq v hex) ?_
  unfold padTo
  refine Emits.bind (padLoop_emits hacc z _ buf) (fun b h1 h2 _ => ?_)
  simp only [id]
  split
  · rw [if_neg (by omega), if_neg (by omega)]
    intro l log hl hh
    obtain ⟨log', h⟩ := putList_emits hacc ((numText hex v.toNat).take (hi - b)) b
      (by rw [List.length_take]; omega) l log hl hh
    refine ⟨log', ?_⟩
    rw [h]
    simp only [List.length_take, List.take_take, id]
    congr 3
    · omega
    · simp
  · rw [if_neg (by omega)]
    exact putList_emits hacc _ b (by omega)

/-! ### Parsing -/

theorem isDigit_iff (c : UInt8) : isDigit c = true ↔ (48 ≤ c ∧ c ≤ 57) := by
  simp [isDigit]

theorem parseNum_eq : ∀ (fmt : List UInt8) (w : BitVec 32),
    parseNum w (fmt ++ [0]) = .ok (BitVec.ofNat 32
      ((fmt.takeWhile isDigit).foldl (fun a c => a * 10 + (c.toNat - 48)) w.toNat),
      fmt.dropWhile isDigit ++ [0]) := by
  intro fmt
  induction fmt with
  | nil => intro w; simp [parseNum]
  | cons c r ih =>
    intro w
    by_cases h : isDigit c = true
    · have h' := (isDigit_iff c).mp h
      have hc : (w * 10#32 + BitVec.ofNat 32 (c.toNat - 48)) =
          BitVec.ofNat 32 (w.toNat * 10 + (c.toNat - 48)) := by
        apply BitVec.eq_of_toNat_eq
        simp [BitVec.toNat_add, BitVec.toNat_mul]
      have hfold : ∀ (l : List UInt8) (a b : Nat), a % 2 ^ 32 = b % 2 ^ 32 →
          (l.foldl (fun a c => a * 10 + (c.toNat - 48)) a) % 2 ^ 32 =
          (l.foldl (fun a c => a * 10 + (c.toNat - 48)) b) % 2 ^ 32 := by
        intro l
        induction l with
        | nil => intro a b h; exact h
        | cons x xs ih => intro a b h; exact ih _ _ (by show (a * 10 + _) % _ = (b * 10 + _) % _; omega)
      simp only [List.cons_append, parseNum, if_pos h', ih, List.takeWhile_cons, h, if_true,
        List.dropWhile_cons, List.foldl_cons, hc]
      congr 2
      apply BitVec.eq_of_toNat_eq
      simp only [BitVec.toNat_ofNat]
      exact hfold _ _ _ (by omega)
    · have h' : ¬ (48 ≤ c ∧ c ≤ 57) := fun e => h ((isDigit_iff c).mpr e)
      simp only [List.cons_append, parseNum, if_neg h', List.takeWhile_cons, h, List.dropWhile_cons]
      simp

/-- Effect of the flag characters. -/
def flagSign (s : Bool) (F : List UInt8) : Bool := s && !(117 ∈ F ∨ 88 ∈ F ∨ 120 ∈ F : Bool)
def flagHex (h : Nat) (F : List UInt8) : Nat :=
  match (F.filter (fun c => c = 88 ∨ c = 120)).getLast? with
  | some 88 => 2
  | some _ => 1
  | none => h

theorem flagHex_cons_x (h : Nat) (F : List UInt8) : flagHex h (120 :: F) = flagHex 1 F := by
  unfold flagHex
  rw [List.filter_cons_of_pos (by decide)]
  cases hF : F.filter (fun c => c = 88 ∨ c = 120) with
  | nil => rfl
  | cons a l =>
    rw [List.getLast?_cons_cons, List.getLast?_eq_some_getLast (List.cons_ne_nil a l)]
    generalize (a :: l).getLast _ = z
    by_cases hz : z = 88
    · subst hz; rfl
    · split <;> simp_all

theorem flagHex_cons_X (h : Nat) (F : List UInt8) : flagHex h (88 :: F) = flagHex 2 F := by
  unfold flagHex
  rw [List.filter_cons_of_pos (by decide)]
  cases hF : F.filter (fun c => c = 88 ∨ c = 120) with
  | nil => rfl
  | cons a l =>
    rw [List.getLast?_cons_cons, List.getLast?_eq_some_getLast (List.cons_ne_nil a l)]
    generalize (a :: l).getLast _ = z
    by_cases hz : z = 88
    · subst hz; rfl
    · split <;> simp_all

theorem flagHex_cons_other (h : Nat) (c : UInt8) (F : List UInt8) (h1 : c ≠ 88) (h2 : c ≠ 120) :
    flagHex h (c :: F) = flagHex h F := by
  unfold flagHex
  rw [List.filter_cons_of_neg (by simp [h1, h2])]

theorem parseFlags_eq : ∀ (fmt : List UInt8) (fl : Flags) (args args' : List Arg)
    (slen' : Option (BitVec 64)),
    stars ((fmt.takeWhile isFlag).count 42) fl.slen args = some (slen', args') →
    parseFlags fl (fmt ++ [0]) args =
      match fmt.dropWhile isFlag with
      | [] => .ok ({ fl with sign := flagSign fl.sign (fmt.takeWhile isFlag), hex := flagHex fl.hex (fmt.takeWhile isFlag), maxWidth := fl.maxWidth || (109 ∈ fmt.takeWhile isFlag : Bool), slen := slen' }, [0], args')
      | c :: r =>
        if c = 46 then
          .ok ({ fl with sign := flagSign fl.sign (fmt.takeWhile isFlag), hex := flagHex fl.hex (fmt.takeWhile isFlag), maxWidth := fl.maxWidth || (109 ∈ fmt.takeWhile isFlag : Bool), slen := slen', fracWidth := BitVec.ofNat 32 ((r.takeWhile isDigit).foldl (fun a c => a * 10 + (c.toNat - 48)) fl.fracWidth.toNat) }, r.dropWhile isDigit ++ [0], args')
        else .ok ({ fl with sign := flagSign fl.sign (fmt.takeWhile isFlag), hex := flagHex fl.hex (fmt.takeWhile isFlag), maxWidth := fl.maxWidth || (109 ∈ fmt.takeWhile isFlag : Bool), slen := slen' }, c :: r ++ [0], args') := by
  intro fmt
  induction fmt with
  | nil =>
    intro fl args args' slen' h
    simp only [List.takeWhile_nil, List.count_nil, stars, Option.some.injEq, Prod.mk.injEq] at h
    obtain ⟨h1, h2⟩ := h
    subst h1; subst h2
    simp [parseFlags, flagSign, flagHex]
  | cons c r ih =>
    intro fl args args' slen' h
    by_cases hf : isFlag c = true
    · simp only [List.takeWhile_cons, hf, if_true, List.dropWhile_cons] at h ⊢
      have hf' : c = 117 ∨ c = 109 ∨ c = 88 ∨ c = 120 ∨ c = 42 := by simpa [isFlag] using hf
      rcases hf' with rfl | rfl | rfl | rfl | rfl
      · rw [List.count_cons_of_ne (by decide)] at h
        have := ih { fl with sign := false } args args' slen' h
        simp only [List.cons_append, parseFlags, if_true]
        rw [this]
        simp [flagSign, flagHex_cons_other]
      · rw [List.count_cons_of_ne (by decide)] at h
        have := ih { fl with maxWidth := true } args args' slen' h
        rw [List.cons_append, parseFlags, if_neg (by decide), if_pos rfl, this]
        simp [flagSign, flagHex_cons_other]
      · rw [List.count_cons_of_ne (by decide)] at h
        have := ih { fl with hex := 2, sign := false } args args' slen' h
        rw [List.cons_append, parseFlags, if_neg (by decide), if_neg (by decide), if_pos rfl, this]
        simp [flagSign, flagHex_cons_X]
      · rw [List.count_cons_of_ne (by decide)] at h
        have := ih { fl with hex := 1, sign := false } args args' slen' h
        rw [List.cons_append, parseFlags, if_neg (by decide), if_neg (by decide),
          if_neg (by decide), if_pos rfl, this]
        simp [flagSign, flagHex_cons_x]
      · rw [List.count_cons_self] at h
        rw [List.cons_append, parseFlags, if_neg (by decide), if_neg (by decide),
          if_neg (by decide), if_neg (by decide), if_neg (by decide), if_pos rfl]
        match args, h with
        | .i64 v :: args, h =>
          simp only [stars] at h
          have := ih { fl with slen := if v = -1#64 then none else some v } args args' slen' h
          simp only [va64]
          rw [this]
          simp [flagSign, flagHex_cons_other]
        | [], h => simp [stars] at h
        | .i32 _ :: _, h => simp [stars] at h
        | .dbl _ :: _, h => simp [stars] at h
        | .ptr _ :: _, h => simp [stars] at h
    · have hf' : ¬ (c = 117 ∨ c = 109 ∨ c = 88 ∨ c = 120 ∨ c = 42) := by
        intro e; apply hf; simpa [isFlag] using e
      simp only [not_or] at hf'
      obtain ⟨n1, n2, n3, n4, n5⟩ := hf'
      simp only [List.takeWhile_cons, hf, List.dropWhile_cons, Bool.false_eq_true, if_false,
        List.count_nil, stars, Option.some.injEq, Prod.mk.injEq] at h ⊢
      obtain ⟨h1, h2⟩ := h
      subst h1; subst h2
      simp only [List.cons_append, parseFlags, if_neg n1, if_neg n2, if_neg n3, if_neg n4,
        if_neg n5]
      split
      · rw [parseNum_eq]
        simp [flagSign, flagHex]
      · simp [flagSign, flagHex]

/-! ### Conversions -/

theorem strLoop_emits (hacc : m0.Acc lo (hi - lo)) : ∀ (bs : List UInt8) (p buf : Nat),
    StrAt m0 lo hi p bs → lo ≤ buf → buf ≤ hi →
    Emits m0 lo hi (strLoop (hi - buf) p buf) buf bs id := by
  intro bs
  induction bs with
  | nil =>
    intro p buf hs h1 h2 l log hl hh
    have h0 : wr m0 lo l p = some 0 := by
      have := hs.2.1
      simp only [List.length_nil, Nat.add_zero] at this
      rw [wr_out, this]
      intro hc
      exact hs.2.2 0 (by simp) (by omega)
    refine ⟨log, ?_⟩
    cases hi - buf with
    | zero => simp [strLoop, FM.bind_def, FM.get, Mem.load, h0]
    | succ n => simp [strLoop, FM.bind_def, FM.get, Mem.load, h0]
  | cons c cs ih =>
    intro p buf hs h1 h2
    have hc := hs.1 0 (by simp)
    simp only [Nat.add_zero, List.getElem_cons_zero] at hc
    have hs' : StrAt m0 lo hi (p + 1) cs := by
      refine ⟨fun i hi' => ?_, ?_, fun i hi' => ?_⟩
      · have := hs.1 (i + 1) (by simp; omega)
        simp only [List.getElem_cons_succ] at this
        rwa [show p + (i + 1) = p + 1 + i by omega] at this
      · have := hs.2.1
        simp only [List.length_cons] at this
        rwa [show p + (cs.length + 1) = p + 1 + cs.length by omega] at this
      · have := hs.2.2 (i + 1) (by simp; omega)
        rwa [show p + (i + 1) = p + 1 + i by omega] at this
    have hget : ∀ l : List UInt8, lo + l.length ≤ hi → ∀ log,
        FM.get p ⟨wr m0 lo l, log⟩ = (.ok c, ⟨wr m0 lo l, log⟩) := by
      intro l hl log
      have : wr m0 lo l p = some c := by
        rw [wr_out, hc.1]
        intro hcc
        exact hs.2.2 0 (by simp) (by omega)
      simp [FM.get, Mem.load, this]
    by_cases hlt : buf < hi
    · rw [show hi - buf = hi - (buf + 1) + 1 by omega]
      unfold strLoop
      intro l log hl hh
      rw [FM.bind_ok (hget l (by omega) log), if_neg hc.2]
      exact Emits.put hacc hlt (ih (p + 1) (buf + 1) hs' (by omega) (by omega)) l log hl hh
    · have : hi - buf = 0 := by omega
      rw [this]
      intro l log hl hh
      refine ⟨log, ?_⟩
      unfold strLoop
      rw [FM.bind_ok (hget l (by omega) log), this]
      simp

theorem memcpyF_emits (hacc : m0.Acc lo (hi - lo)) (hlo : lo ≠ 0) {bs : List UInt8} {p buf n : Nat}
    (hp : p ≠ 0) (hs : BytesAt m0 lo hi p bs) (hn : bs.length = n) (h1 : lo ≤ buf)
    (h2 : buf ≤ hi) :
    Emits m0 lo hi (memcpyF buf p (if hi - buf < n then hi - buf else n)) buf bs id := by
  intro l log hl hh
  have hk : (if hi - buf < n then hi - buf else n) = min n (hi - buf) := by
    split <;> omega
  rw [hk, hn]
  by_cases hz : min n (hi - buf) = 0
  · refine ⟨(if buf = 0 ∨ p = 0 ∨ buf = p then [] else (List.range' buf 0)) ++ log, ?_⟩
    unfold memcpyF
    simp only [hz, StringMem.memcpy]
    have : bs.take (hi - buf) = [] := by
      rw [List.take_eq_nil_iff]
      rcases Nat.eq_zero_or_pos (hi - buf) with h | h
      · exact Or.inl h
      · right; apply List.eq_nil_of_length_eq_zero; omega
    rw [if_pos (by simp), this]
    simp only [List.append_nil, Nat.add_zero, id]
  · have hdis : buf < p ∨ p + min n (hi - buf) ≤ buf := by
      rcases hs.2 with h | h <;> omega
    have hout : ∀ i, i < n → ¬ (lo ≤ p + i ∧ p + i < lo + l.length) := by
      intro i hi'
      rcases hs.2 with h | h <;> omega
    have hsrc : (wr m0 lo l).Acc p (min n (hi - buf)) := by
      intro i hi'
      rw [wr_out (hout i (by omega)), hs.1 i (by omega)]; rfl
    have hdst : (wr m0 lo l).Acc buf (min n (hi - buf)) := by
      intro i hi'
      apply wr_isSome
      have := hacc (l.length + i) (by omega)
      rwa [← Nat.add_assoc, ← hl] at this
    refine ⟨(if buf = 0 ∨ p = 0 ∨ buf = p then [] else (List.range' buf (min n (hi - buf)))) ++ log, ?_⟩
    unfold memcpyF
    simp only [StringMem.memcpy_eq (m := wr m0 lo l) (d := buf) (s := p) (n := min n (hi - buf))
      (by omega) hp hz hsrc hdst hdis]
    simp only [id]
    congr 2
    funext a
    unfold Spec.copied
    by_cases ha : buf ≤ a ∧ a < buf + min n (hi - buf)
    · rw [if_pos ha, wr_out (hout (a - buf) (by omega)), hs.1 (a - buf) (by omega)]
      unfold wr
      rw [if_pos (by simp only [List.length_append, List.length_take]; omega),
        List.getElem?_append_right (by omega)]
      rw [List.getElem?_take_of_lt (by omega), List.getElem?_eq_getElem (by omega)]
      congr 2; omega
    · rw [if_neg ha]
      unfold wr
      simp only [List.length_append, List.length_take]
      by_cases hb : lo ≤ a ∧ a < lo + l.length
      · rw [if_pos hb, if_pos (by omega), List.getElem?_append_left (by omega)]
      · rw [if_neg hb, if_neg (by omega)]

theorem convInt_emits (hacc : m0.Acc lo (hi - lo)) (hlo : lo ≠ 0) (fl : Flags) (v : BitVec 64)
    (z : Int) (zero : UInt8) (hex w buf : Nat) (hb : lo ≤ buf) (hlt : buf < hi)
    (hz : if fl.sign then v.toInt = z ∧ v ≠ BitVec.intMin 64 else (v.toNat : Int) = z) :
    Emits m0 lo hi (convInt buf hi fl v zero hex w) buf (intText zero hex w z) id := by
  unfold convInt intText
  split
  · rename_i hs
    rw [if_pos hs] at hz
    obtain ⟨hz, hmin⟩ := hz
    subst hz
    split
    · rename_i hneg
      refine Emits.put hacc hlt ?_
      have : v.toInt.natAbs = (-v).toNat := by
        have h1 := BitVec.toInt_eq_toNat_cond v
        have h2 := v.isLt
        rw [BitVec.toNat_neg]
        split at h1 <;> omega
      rw [this]
      exact sprintfNum_emits hacc hlo _ _ _ _ _ (by omega)
    · rename_i hpos
      have : v.toInt.natAbs = v.toNat := by
        have h1 := BitVec.toInt_eq_toNat_cond v
        split at h1 <;> omega
      rw [this]
      exact sprintfNum_emits hacc hlo _ _ _ _ _ hb
  · rename_i hs
    rw [if_neg hs] at hz
    subst hz
    rw [if_neg (by omega)]
    simp only [Int.natAbs_natCast]
    exact sprintfNum_emits hacc hlo _ _ _ _ _ hb

theorem scaleLoop_eq (n : Nat) : ∀ s : BitVec 32,
    scaleLoop n s = BitVec.ofNat 32 (s.toNat * 10 ^ n) := by
  induction n with
  | zero => intro s; simp [scaleLoop]
  | succ n ih =>
    intro s
    rw [scaleLoop, ih]
    apply BitVec.eq_of_toNat_eq
    simp only [BitVec.toNat_mul, BitVec.toNat_ofNat]
    rw [Nat.mod_mul_mod, Nat.pow_succ 10, Nat.mul_assoc, Nat.mul_comm (10 ^ n)]

theorem convF_emits (hacc : m0.Acc lo (hi - lo)) (hlo : lo ≠ 0) (fl : Flags) (d : Dir) (f : Dbl)
    (ip fr : BitVec 64) (buf : Nat) (hb : lo ≤ buf) (hlt : buf < hi)
    (hw : fl.width.toNat = d.width) (hzr : fl.zero = d.zero)
    (hfw : fl.fracWidth.toNat = d.frac) (hip : f.int = some ip)
    (hfr : d.frac ≠ 0 → f.frac (BitVec.ofNat 32 (10 ^ d.frac)) = some fr) :
    Emits m0 lo hi (convF buf hi fl f) buf (dblText d f ip fr) id := by
  unfold convF dblText
  refine Emits.bind (k1 := id) ?_ (fun b h1 h2 _ => ?_)
  · split
    · exact Emits.put hacc hlt (Emits.pure (k := id))
    · exact Emits.pure (k := id)
  · simp only [hip, id]
    have hf0 : fl.fracWidth = 0#32 ↔ d.frac = 0 := by
      rw [← hfw]
      constructor
      · intro h; rw [h]; rfl
      · intro h; apply BitVec.eq_of_toNat_eq; rw [h]; rfl
    by_cases h0 : d.frac = 0
    · rw [if_pos (hf0.mpr h0), if_pos h0, ← hw, ← hzr]
      have := sprintfNum_emits (hi := hi) hacc hlo ip fl.zero 0 fl.width.toNat b (by omega)
      simpa [numText] using this
    · rw [if_neg (fun e => h0 (hf0.mp e)), if_neg h0]
      have hsc : scaleLoop fl.fracWidth.toNat 1#32 = BitVec.ofNat 32 (10 ^ d.frac) := by
        rw [scaleLoop_eq, hfw]; simp
      rw [hsc, hfr h0]
      have hcar : (fr = (BitVec.ofNat 32 (10 ^ d.frac)).setWidth 64) ↔
          (fr = BitVec.ofNat 64 (10 ^ d.frac % 2 ^ 32)) := by
        have : (BitVec.ofNat 32 (10 ^ d.frac)).setWidth 64 = BitVec.ofNat 64 (10 ^ d.frac % 2 ^ 32) := by
          apply BitVec.eq_of_toNat_eq
          simp only [BitVec.toNat_setWidth, BitVec.toNat_ofNat]
        rw [this]
      simp only [hcar]
      rw [← hw, ← hzr]
      refine Emits.bind (k1 := id) ?_ (fun b2 h3 h4 _ => ?_)
      · have := sprintfNum_emits (hi := hi) hacc hlo
          (if fr = BitVec.ofNat 64 (10 ^ d.frac % 2 ^ 32) then ip + 1 else ip)
          fl.zero 0 fl.width.toNat b (by omega)
        simpa [numText] using this
      · simp only [id]
        rw [← List.singleton_append]
        refine Emits.bind (k1 := id) (o1 := [46]) ?_ (fun b3 h5 h6 _ => ?_)
        · split
          · rename_i h
            exact Emits.put hacc h (Emits.pure (k := id))
          · exact Emits.full (by omega) (fun s => rfl)
        · have := sprintfNum_emits (hi := hi) hacc hlo
            (if fr = BitVec.ofNat 64 (10 ^ d.frac % 2 ^ 32) then 0 else fr)
            48 0 fl.fracWidth.toNat b3 (by omega)
          rw [hfw] at this
          have e : (if fr = BitVec.ofNat 64 (10 ^ d.frac % 2 ^ 32) then (0 : BitVec 64) else fr).toNat
              = (if fr = BitVec.ofNat 64 (10 ^ d.frac % 2 ^ 32) then 0 else fr.toNat) := by
            split <;> rfl
          rw [e] at this
          simpa [numText, hfw] using this

/-- A single byte written unconditionally. -/
theorem emits_chr {α : Type} (hacc : m0.Acc lo (hi - lo)) {c : UInt8} {buf : Nat} (hlt : buf < hi)
    {a : α} :
    Emits m0 lo hi (FM.put buf c >>= fun _ => (Pure.pure (buf + 1, a) : FM (Nat × α))) buf [c]
      (fun b => (b, a)) :=
  Emits.put hacc hlt (Emits.pure (k := fun b => (b, a)))

theorem Emits.pair {α : Type} {x : FM Nat} {buf : Nat} {o : List UInt8} {a : α}
    (h : Emits m0 lo hi x buf o id) :
    Emits m0 lo hi (x >>= fun b => (Pure.pure (b, a) : FM (Nat × α))) buf o (fun b => (b, a)) := by
  have := Emits.bind (f := fun b => (Pure.pure (b, a) : FM (Nat × α))) (k2 := fun b => (b, a)) h
    (fun b _ _ _ => Emits.pure (k := fun b => (b, a)))
  simpa using this

/-- The flags of a parsed directive. -/
def Dir.toFlags (d : Dir) (slen : Option (BitVec 64)) : Flags :=
  ⟨d.zero, BitVec.ofNat 32 d.width, d.signed, d.hex, (109 ∈ d.flags : Bool), BitVec.ofNat 32 d.frac,
    slen⟩

theorem convert_emits (hacc : m0.Acc lo (hi - lo)) (hlo : lo ≠ 0) {d : Dir}
    {slen : Option (BitVec 64)} {args args2 : List Arg} {piece : List UInt8} {buf : Nat}
    (hb : lo ≤ buf) (hlt : buf < hi) (hw : d.width < 2 ^ 32) (hfr : d.frac < 2 ^ 32)
    (hc : Conv m0 lo hi d slen args piece args2) :
    Emits m0 lo hi (convert buf hi (Dir.toFlags d slen) d.conv args) buf piece
      (fun b => (b, args2)) := by
  have hw' : (BitVec.ofNat 32 d.width).toNat = d.width := by simp; omega
  have hfr' : (BitVec.ofNat 32 d.frac).toNat = d.frac := by simp; omega
  cases hc with
  | str h1 h2 h3 h4 =>
    subst h2
    simp only [convert, h1, if_true, Dir.toFlags]
    refine Emits.lift (a := (_, _)) rfl ?_
    simp only
    refine Emits.pair ?_
    rw [if_neg h3]
    exact strLoop_emits hacc _ _ _ h4 hb (by omega)
  | strn h1 h2 h3 h4 h5 =>
    subst h2
    simp only [convert, h1, if_true, Dir.toFlags]
    refine Emits.lift (a := (_, _)) rfl ?_
    simp only
    refine Emits.pair ?_
    exact memcpyF_emits hacc hlo h3 h5 h4 hb (by omega)
  | @int32 v _ h1 h2 =>
    have hsg : (v.signExtend 64).toInt = v.toInt ∧ v.signExtend 64 ≠ BitVec.intMin 64 := by
      have e : (v.signExtend 64).toInt = v.toInt := BitVec.toInt_signExtend_of_le (by omega)
      refine ⟨e, fun h => ?_⟩
      rw [h] at e
      have := BitVec.le_toInt v
      simp [BitVec.toInt_intMin] at e
      omega
    simp only [List.mem_cons, List.not_mem_nil, or_false] at h1
    rcases h1 with h1 | h1 | h1 | h1
    · simp only [convert, h1, Dir.toFlags, h2, if_true, hw']
      rw [if_neg (by decide)]
      refine Emits.lift (a := (_, _)) rfl ?_
      simp only
      refine Emits.pair ?_
      rw [if_neg (by simp)]
      exact convInt_emits hacc hlo _ _ _ _ _ _ _ hb hlt (by simpa using hsg)
    · simp only [convert, h1, Dir.toFlags, h2, if_true, hw']
      rw [if_neg (by decide), if_neg (by decide)]
      refine Emits.lift (a := (_, _)) rfl ?_
      simp only
      refine Emits.pair ?_
      simp only [true_and, decide_eq_true_eq]
      exact convInt_emits hacc hlo _ _ _ _ _ _ _ hb hlt (by simpa using hsg)
    · simp only [convert, h1, Dir.toFlags, h2, if_true, hw']
      rw [if_neg (by decide), if_neg (by decide), if_neg (by decide), if_pos (by decide)]
      refine Emits.lift (a := (_, _)) rfl ?_
      simp only
      refine Emits.pair ?_
      rw [if_neg (by simp)]
      exact convInt_emits hacc hlo _ _ _ _ _ _ _ hb hlt (by simpa using hsg)
    · simp only [convert, h1, Dir.toFlags, h2, if_true, hw']
      rw [if_neg (by decide), if_neg (by decide), if_neg (by decide), if_pos (by decide)]
      refine Emits.lift (a := (_, _)) rfl ?_
      simp only
      refine Emits.pair ?_
      rw [if_neg (by simp)]
      exact convInt_emits hacc hlo _ _ _ _ _ _ _ hb hlt (by simpa using hsg)
  | @uint32 v _ h1 h2 =>
    have hsg : ((v.setWidth 64).toNat : Int) = v.toNat := by
      have := v.isLt
      simp [BitVec.toNat_setWidth]; omega
    simp only [List.mem_cons, List.not_mem_nil, or_false] at h1
    rcases h1 with h1 | h1 | h1
    · simp only [convert, h1, Dir.toFlags, h2, hw', Bool.false_eq_true, if_false]
      rw [if_neg (by decide), if_neg (by decide), if_pos (by decide)]
      refine Emits.lift (a := (_, _)) rfl ?_
      simp only
      refine Emits.pair ?_
      simp only [true_and, decide_eq_true_eq]
      exact convInt_emits hacc hlo _ _ _ _ _ _ _ hb hlt (by simpa using hsg)
    · simp only [convert, h1, Dir.toFlags, h2, hw', Bool.false_eq_true, if_false]
      rw [if_neg (by decide), if_neg (by decide), if_neg (by decide), if_pos (by decide)]
      refine Emits.lift (a := (_, _)) rfl ?_
      simp only
      refine Emits.pair ?_
      rw [if_neg (by simp)]
      exact convInt_emits hacc hlo _ _ _ _ _ _ _ hb hlt (by simpa using hsg)
    · simp only [convert, h1, Dir.toFlags, h2, hw', Bool.false_eq_true, if_false]
      rw [if_neg (by decide), if_neg (by decide), if_neg (by decide), if_pos (by decide)]
      refine Emits.lift (a := (_, _)) rfl ?_
      simp only
      refine Emits.pair ?_
      rw [if_neg (by simp)]
      exact convInt_emits hacc hlo _ _ _ _ _ _ _ hb hlt (by simpa using hsg)
  | @int64 v _ h1 h2 h3 =>
    simp only [List.mem_cons, List.not_mem_nil, or_false] at h1
    rcases h1 with h1 | h1
    all_goals
      simp only [convert, h1, Dir.toFlags, h2, hw', if_true]
      rw [if_neg (by decide), if_neg (by decide), if_neg (by decide), if_neg (by decide),
        if_pos (by decide)]
      refine Emits.lift (a := (_, _)) rfl ?_
      simp only
      refine Emits.pair ?_
      exact convInt_emits hacc hlo _ _ _ _ _ _ _ hb hlt (by simpa using h3)
  | @uint64 v _ h1 h2 =>
    simp only [List.mem_cons, List.not_mem_nil, or_false] at h1
    rcases h1 with h1 | h1 | h1
    · simp only [convert, h1, Dir.toFlags, h2, hw', Bool.false_eq_true, if_false]
      rw [if_neg (by decide), if_pos (by decide)]
      refine Emits.lift (a := (_, _)) rfl ?_
      simp only
      refine Emits.pair ?_
      exact convInt_emits hacc hlo _ _ _ _ _ _ _ hb hlt (by simp)
    all_goals
      simp only [convert, h1, Dir.toFlags, h2, hw', Bool.false_eq_true, if_false]
      rw [if_neg (by decide), if_neg (by decide), if_neg (by decide), if_neg (by decide),
        if_pos (by decide)]
      refine Emits.lift (a := (_, _)) rfl ?_
      simp only
      refine Emits.pair ?_
      exact convInt_emits hacc hlo _ _ _ _ _ _ _ hb hlt (by simp)
  | dbl h1 h2 h3 =>
    simp only [convert, h1]
    rw [if_neg (by decide), if_neg (by decide), if_neg (by decide), if_neg (by decide),
      if_neg (by decide), if_pos (by decide)]
    refine Emits.lift (a := (_, _)) rfl ?_
    simp only
    refine Emits.pair ?_
    exact convF_emits hacc hlo (Dir.toFlags d slen) d _ _ _ _ hb hlt hw' rfl hfr' h2 h3
  | @ptr p _ h1 h2 =>
    simp only [convert, h1]
    rw [if_neg (by decide), if_neg (by decide), if_neg (by decide), if_neg (by decide),
      if_neg (by decide), if_neg (by decide), if_pos (by decide)]
    refine Emits.lift (a := (_, _)) rfl ?_
    simp only
    refine Emits.pair ?_
    have := convInt_emits (hi := hi) hacc hlo { Dir.toFlags d slen with sign := false }
      (BitVec.ofNat 64 p) p 48 2 16 buf hb hlt (by simp; omega)
    have e : intText 48 2 16 (p : Int) = padTo 16 48 (hexa true p) := by
      unfold intText
      rw [if_neg (by omega)]
      simp [numText]
    rwa [e] at this
  | chr h1 =>
    simp only [convert, h1]
    rw [if_neg (by decide), if_neg (by decide), if_neg (by decide), if_neg (by decide),
      if_neg (by decide), if_neg (by decide), if_neg (by decide), if_pos (by decide)]
    refine Emits.lift (a := (_, _)) rfl ?_
    exact emits_chr hacc hlt
  | other h1 h2 =>
    simp only [List.mem_cons, List.not_mem_nil, or_false, not_or] at h1
    obtain ⟨n1, n2, n3, n4, n5, n6, n7, n8, n9, n10⟩ := h1
    unfold convert
    rw [if_neg n1, if_neg n2, if_neg n3, if_neg (by simp [n4, n5]), if_neg (by simp [n6, n7]),
      if_neg n8, if_neg n9, if_neg n10]
    split
    · rename_i h; rw [h]; exact emits_chr hacc hlt
    · exact emits_chr hacc hlt

theorem flags_none_sign (F : List UInt8) :
    flagSign true F = (Dir.signed ⟨0, 0, F, 0, 0⟩) := by
  unfold flagSign Dir.signed
  simp

theorem directive_emits (hacc : m0.Acc lo (hi - lo)) (hlo : lo ≠ 0) {fmt rest : List UInt8}
    {d : Dir} {slen : Option (BitVec 64)} {args args1 args2 : List Arg} {piece : List UInt8}
    {buf : Nat} (hb : lo ≤ buf) (hlt : buf < hi)
    (hp : parseDir fmt = some (d, rest))
    (hst : stars (d.flags.count 42) none args = some (slen, args1))
    (hc : Conv m0 lo hi d slen args1 piece args2) :
    Emits m0 lo hi (directive buf hi (fmt ++ [0]) args) buf piece
      (fun b => (b, rest ++ [0], args2)) := by
  unfold directive
  have hpk : ∃ c, peek (fmt ++ [0]) = .ok c ∧ (c = 48 ↔ fmt.head? = some 48) := by
    cases fmt with
    | nil => exact ⟨0, rfl, by simp⟩
    | cons c r => exact ⟨c, rfl, by simp⟩
  obtain ⟨c0, hc0, hz⟩ := hpk
  refine Emits.lift hc0 ?_
  refine Emits.lift (parseNum_eq fmt 0#32) ?_
  simp only
  have hzero : (if c0 = 48 then (48 : UInt8) else 32) = if fmt.head? = some 48 then 48 else 32 := by
    simp only [hz]
  rw [hzero]
  have hmod : ∀ n, BitVec.ofNat 32 n = BitVec.ofNat 32 (n % 2 ^ 32) := by
    intro n; apply BitVec.eq_of_toNat_eq; simp
  have key : ∀ fl' : Flags, fl' = Dir.toFlags d slen → ∀ (c : UInt8) (r : List UInt8), c = d.conv →
      r = rest →
      Emits m0 lo hi (do
        let c ← FM.lift (peek (c :: (r ++ [0])))
        let (buf, args) ← convert buf hi fl' c args1
        Pure.pure (buf, (c :: (r ++ [0])).tail, args)) buf piece (fun b => (b, rest ++ [0], args2)) := by
    intro fl' hfl c r hcc hr
    subst hfl; subst hcc; subst hr
    refine Emits.lift rfl ?_
    have hwlt : d.width < 2 ^ 32 ∧ d.frac < 2 ^ 32 := by
      unfold parseDir at hp
      simp only at hp
      split at hp
      · exact absurd hp (by simp)
      · split at hp
        · split at hp
          · exact absurd hp (by simp)
          · simp only [Option.some.injEq, Prod.mk.injEq] at hp
            rw [← hp.1]
            exact ⟨Nat.mod_lt _ (by omega), Nat.mod_lt _ (by omega)⟩
        · simp only [Option.some.injEq, Prod.mk.injEq] at hp
          rw [← hp.1]
          exact ⟨Nat.mod_lt _ (by omega), by simp⟩
    have h := convert_emits hacc hlo hb hlt hwlt.1 hwlt.2 hc
    have := Emits.bind (f := fun x : Nat × List Arg => (Pure.pure (x.1, r ++ [0], x.2) : FM _))
      (k2 := fun b => (b, r ++ [0], args2)) h
      (fun b _ _ _ => Emits.pure (k := fun b => (b, r ++ [0], args2)))
    simpa using this
  unfold parseDir at hp
  simp only at hp
  split at hp
  · exact absurd hp (by simp)
  · rename_i c r3 hr2
    split at hp
    · rename_i hdot
      split at hp
      · exact absurd hp (by simp)
      · rename_i c' rest' hr3
        simp only [Option.some.injEq, Prod.mk.injEq] at hp
        obtain ⟨hd, hrest⟩ := hp
        subst hd
        have := parseFlags_eq (fmt.dropWhile isDigit)
          ⟨if fmt.head? = some 48 then 48 else 32, BitVec.ofNat 32 ((fmt.takeWhile isDigit).foldl (fun a c => a * 10 + (c.toNat - 48)) (0#32).toNat), true, 0, false, 0#32, none⟩ args args1 slen hst
        rw [hr2] at this
        simp only [if_pos hdot] at this
        rw [hr3] at this
        refine Emits.lift this ?_
        simp only
        refine key _ ?_ c' rest' rfl hrest
        simp only [Dir.toFlags, Bool.false_or, Flags.mk.injEq, true_and]
        refine ⟨?_, ?_, ?_, ?_, ?_⟩
        · rw [hmod]; rfl
        · simp [flagSign, Dir.signed]
        · rfl
        · rw [hmod]; rfl
        · trivial
    · rename_i hdot
      simp only [Option.some.injEq, Prod.mk.injEq] at hp
      obtain ⟨hd, hrest⟩ := hp
      subst hd
      have := parseFlags_eq (fmt.dropWhile isDigit)
        ⟨if fmt.head? = some 48 then 48 else 32, BitVec.ofNat 32 ((fmt.takeWhile isDigit).foldl (fun a c => a * 10 + (c.toNat - 48)) (0#32).toNat), true, 0, false, 0#32, none⟩ args args1 slen hst
      rw [hr2] at this
      simp only [if_neg hdot] at this
      refine Emits.lift this ?_
      simp only
      refine key _ ?_ c r3 rfl hrest
      simp only [Dir.toFlags, Bool.false_or, Flags.mk.injEq, true_and, and_true]
      refine ⟨?_, ?_, ?_⟩
      · rw [hmod]; rfl
      · simp [flagSign, Dir.signed]
      · rfl

theorem parseDir_length {fmt rest : List UInt8} {d : Dir} (h : parseDir fmt = some (d, rest)) :
    rest.length < fmt.length := by
  have hdw : ∀ (p : UInt8 → Bool) (l : List UInt8), (l.dropWhile p).length ≤ l.length :=
    fun p l => (List.dropWhile_sublist p).length_le
  unfold parseDir at h
  simp only at h
  have h1 := hdw isDigit fmt
  have h2 := hdw isFlag (fmt.dropWhile isDigit)
  split at h
  · exact absurd h (by simp)
  · rename_i c r3 hr2
    rw [hr2] at h2
    split at h
    · split at h
      · exact absurd h (by simp)
      · rename_i c' rest' hr3
        have h3 := hdw isDigit r3
        rw [hr3] at h3
        simp only [Option.some.injEq, Prod.mk.injEq] at h
        simp only [List.length_cons] at *
        rw [← h.2]; omega
    · simp only [Option.some.injEq, Prod.mk.injEq] at h
      simp only [List.length_cons] at *
      rw [← h.2]; omega

theorem vslLoop_emits (hacc : m0.Acc lo (hi - lo)) (hlo : lo ≠ 0) {fmt : List UInt8}
    {args : List Arg} {out : List UInt8} (hr : Renders m0 lo hi fmt args out) :
    ∀ (fuel buf : Nat), fmt.length < fuel → lo ≤ buf →
      Emits m0 lo hi (vslLoop hi fuel buf (fmt ++ [0]) args) buf out id := by
  induction hr with
  | done =>
    intro fuel buf hf hb
    obtain ⟨fuel, rfl⟩ : ∃ k, fuel = k + 1 := ⟨fuel - 1, by omega⟩
    unfold vslLoop
    refine Emits.lift rfl ?_
    rw [if_neg (by simp)]
    exact Emits.pure (k := id)
  | @lit c fmt args out h1 h2 h3 ih =>
    intro fuel buf hf hb
    obtain ⟨fuel, rfl⟩ : ∃ k, fuel = k + 1 := ⟨fuel - 1, by omega⟩
    simp only [List.length_cons] at hf
    unfold vslLoop
    refine Emits.lift rfl ?_
    by_cases hlt : buf < hi
    · rw [if_pos ⟨h1, hlt⟩, if_neg h2]
      exact Emits.put hacc hlt (ih fuel (buf + 1) (by omega) (by omega))
    · rw [if_neg (by simp [hlt])]
      exact Emits.full (by omega) (fun s => rfl)
  | @dir fmt rest d slen args args1 args2 piece out h1 h2 h3 h4 ih =>
    intro fuel buf hf hb
    obtain ⟨fuel, rfl⟩ : ∃ k, fuel = k + 1 := ⟨fuel - 1, by omega⟩
    simp only [List.length_cons] at hf
    have := parseDir_length h1
    unfold vslLoop
    refine Emits.lift rfl ?_
    by_cases hlt : buf < hi
    · rw [if_pos ⟨by decide, hlt⟩, if_pos rfl]
      exact Emits.bind (directive_emits hacc hlo hb hlt h1 h2 h3)
        (fun b h5 h6 _ => ih fuel b (by omega) (by omega))
    · rw [if_neg (by simp [hlt])]
      exact Emits.full (by omega) (fun s => rfl)

/-- The whole function. -/
theorem vslprintf_run {m : Mem} {buf last : Nat} {fmt : List UInt8} {args : List Arg}
    {out : List UInt8} (hacc : m.Acc buf (last - buf)) (hb : buf ≠ 0) (hle : buf ≤ last)
    (hr : Renders m buf last fmt args out) (log : List Nat) :
    ∃ log', vslprintf buf last (fmt ++ [0]) args ⟨m, log⟩ =
      (.ok (buf + min (out.length + 1) (last - buf)),
        ⟨wr m buf ((out ++ [0]).take (last - buf)), log'⟩) := by
  have h : Emits m buf last (vslprintf buf last (fmt ++ [0]) args) buf (out ++ [0]) id := by
    unfold vslprintf
    refine Emits.bind (vslLoop_emits hacc hb hr _ buf (by simp; omega) (by omega)) ?_
    intro b h1 h2 _
    simp only [id]
    split
    · rename_i h
      exact Emits.put hacc h (Emits.pure (k := id))
    · exact Emits.full (by omega) (fun s => rfl)
  obtain ⟨log', h⟩ := h [] log (by simp) hle
  refine ⟨log', ?_⟩
  rw [wr_nil] at h
  rw [h]
  simp

end Verif.Format
