import Verif.Lemmas.Format

/-! Termination of the formatting functions, and independence of the bytes after
the terminating NUL (helper lemmas). -/

namespace Verif.Format
open Verif Verif.Spec.Printf

/-! ### Termination -/

/-- Never out of fuel. -/
def NoOof {α : Type} (x : FM α) : Prop := ∀ s, (x s).1 ≠ .oof

theorem NoOof.bind {α β : Type} {x : FM α} {f : α → FM β} (hx : NoOof x)
    (hf : ∀ a, NoOof (f a)) : NoOof (x >>= f) := by
  intro s
  have := hx s
  rw [FM.bind_def]
  split
  · exact hf _ _
  · simp
  · rename_i h; rw [h] at this; exact absurd rfl this

/-- Rule for a `bind` whose continuation only needs values the first part can return. -/
theorem NoOof.bind' {α β : Type} {x : FM α} {f : α → FM β} {Q : α → Prop} (hx : NoOof x)
    (hq : ∀ s a, (x s).1 = .ok a → Q a) (hf : ∀ a, Q a → NoOof (f a)) : NoOof (x >>= f) := by
  intro s
  have h1 := hx s
  have h2 := hq s
  rw [FM.bind_def]
  split
  · rename_i a s' h; rw [h] at h2; exact hf _ (h2 a rfl) _
  · simp
  · rename_i h; rw [h] at h1; exact absurd rfl h1

theorem NoOof.pure {α : Type} {a : α} : NoOof (Pure.pure a : FM α) := fun s => by simp
theorem NoOof.ub {α : Type} : NoOof (FM.ub : FM α) := fun s => by simp [FM.ub]
theorem NoOof.lift {α : Type} {r : Res α} (h : r ≠ .oof) : NoOof (FM.lift r) := fun _ => h
theorem NoOof.put {a : Nat} {c : UInt8} : NoOof (FM.put a c) := by
  intro s
  simp only [FM.put, Mem.store]
  cases s.mem a <;> simp
theorem NoOof.get {a : Nat} : NoOof (FM.get a) := by
  intro s
  simp only [FM.get, Mem.load]
  cases s.mem a <;> simp

theorem forUp_noOof {σ : Type} (n : Nat) (f : Nat → σ → Res σ) (hf : ∀ i s, f i s ≠ .oof) :
    ∀ s, forUp n f s ≠ .oof := by
  induction n with
  | zero => intro s; simp [forUp]
  | succ n ih =>
    intro s
    unfold forUp
    have := ih s
    cases h : forUp n f s with
    | ok s' => exact hf _ _
    | ub => simp
    | oof => exact absurd h this

theorem copyByte_noOof (m : Mem) (d s : Nat) : StringMem.copyByte m d s ≠ .oof := by
  unfold StringMem.copyByte Mem.load
  cases m s with
  | none => simp
  | some b => simp only [Res.ok_bind, Mem.store]; cases m d <;> simp

theorem copyWord_noOof (m : Mem) (d s : Nat) : StringMem.copyWord m d s ≠ .oof := by
  unfold StringMem.copyWord; split <;> simp

theorem res_bind_noOof {α β : Type} {x : Res α} {f : α → Res β} (hx : x ≠ .oof)
    (hf : ∀ a, f a ≠ .oof) : (x >>= f) ≠ .oof := by
  cases x with
  | ok a => exact hf a
  | ub => simp
  | oof => exact absurd rfl hx

theorem memcpy_noOof (m : Mem) (d s n : Nat) : StringMem.memcpy m d s n ≠ .oof := by
  unfold StringMem.memcpy
  split
  · simp
  · split
    · simp
    · split
      · exact res_bind_noOof (forUp_noOof _ _ (fun _ _ => copyWord_noOof _ _ _) _) (fun _ =>
          res_bind_noOof (forUp_noOof _ _ (fun _ _ => copyByte_noOof _ _ _) _) (fun _ => by simp))
      · exact res_bind_noOof (forUp_noOof _ _ (fun _ _ => copyByte_noOof _ _ _) _)
          (fun _ => by simp)

theorem memcpyF_noOof (d s n : Nat) : NoOof (memcpyF d s n) := by
  intro st
  have := memcpy_noOof st.mem d s n
  unfold memcpyF
  simp only
  split
  · simp
  · simp
  · rename_i h; exact absurd h this

theorem putList_noOof (l : List UInt8) : ∀ buf, NoOof (putList l buf) := by
  induction l with
  | nil => intro buf; exact NoOof.pure
  | cons c l ih => intro buf; exact NoOof.bind NoOof.put (fun _ => ih _)

theorem padLoop_noOof (last : Nat) (z : UInt8) (n : Nat) : ∀ buf, NoOof (padLoop last z n buf) := by
  induction n with
  | zero => intro buf; exact NoOof.pure
  | succ n ih =>
    intro buf
    unfold padLoop
    split
    · exact NoOof.bind NoOof.put (fun _ => ih _)
    · exact NoOof.pure

theorem sprintfNum_noOof (buf last : Nat) (v : BitVec 64) (z : UInt8) (hex w : Nat) :
    NoOof (sprintfNum buf last v z hex w) := by
  unfold sprintfNum
  refine NoOof.bind (NoOof.lift (by rw [digits_eq]; simp)) (fun ds => ?_)
  refine NoOof.bind (padLoop_noOof _ _ _ _) (fun b => ?_)
  split
  · split
    · exact NoOof.ub
    · split
      · exact NoOof.pure
      · exact putList_noOof _ _
  · split
    · exact NoOof.pure
    · exact putList_noOof _ _

theorem strLoop_noOof (n : Nat) : ∀ p buf, NoOof (strLoop n p buf) := by
  induction n with
  | zero => intro p buf; exact NoOof.bind NoOof.get (fun _ => NoOof.pure)
  | succ n ih =>
    intro p buf
    refine NoOof.bind NoOof.get (fun c => ?_)
    split
    · exact NoOof.pure
    · exact NoOof.bind NoOof.put (fun _ => ih _ _)

theorem convInt_noOof (buf last : Nat) (fl : Flags) (v : BitVec 64) (z : UInt8) (hex w : Nat) :
    NoOof (convInt buf last fl v z hex w) := by
  unfold convInt
  split
  · split
    · refine NoOof.bind NoOof.put (fun _ => ?_)
      split
      · exact NoOof.ub
      · exact sprintfNum_noOof _ _ _ _ _ _
    · exact sprintfNum_noOof _ _ _ _ _ _
  · exact sprintfNum_noOof _ _ _ _ _ _

theorem convF_noOof (buf last : Nat) (fl : Flags) (f : Dbl) : NoOof (convF buf last fl f) := by
  unfold convF
  refine NoOof.bind ?_ (fun b => ?_)
  · split
    · exact NoOof.bind NoOof.put (fun _ => NoOof.pure)
    · exact NoOof.pure
  · split
    · exact NoOof.ub
    · split
      · exact sprintfNum_noOof _ _ _ _ _ _
      · simp only
        split
        · exact NoOof.ub
        · refine NoOof.bind (sprintfNum_noOof _ _ _ _ _ _) (fun b2 => ?_)
          refine NoOof.bind ?_ (fun b => sprintfNum_noOof _ _ _ _ _ _)
          split
          · exact NoOof.bind NoOof.put (fun _ => NoOof.pure)
          · exact NoOof.pure

theorem va_noOof (args : List Arg) : va32 args ≠ .oof ∧ va64 args ≠ .oof ∧ vaDbl args ≠ .oof ∧
    vaPtr args ≠ .oof := by
  refine ⟨?_, ?_, ?_, ?_⟩
  · unfold va32; split <;> simp
  · unfold va64; split <;> simp
  · unfold vaDbl; split <;> simp
  · unfold vaPtr; split <;> simp

theorem convert_noOof (buf last : Nat) (fl : Flags) (c : UInt8) (args : List Arg) :
    NoOof (convert buf last fl c args) := by
  obtain ⟨h32, h64, hd, hp⟩ := va_noOof args
  have hi : ∀ {b fl' v z hex w} {a : List Arg}, NoOof (do
      let buf ← convInt b last fl' v z hex w
      (Pure.pure (buf, a) : FM (Nat × List Arg))) :=
    NoOof.bind (convInt_noOof _ _ _ _ _ _ _) (fun _ => NoOof.pure)
  unfold convert
  split
  · refine NoOof.bind (NoOof.lift hp) (fun x => ?_)
    simp only
    split
    · refine NoOof.bind ?_ (fun _ => NoOof.pure)
      split
      · exact NoOof.ub
      · exact strLoop_noOof _ _ _
    · exact NoOof.bind (memcpyF_noOof _ _ _) (fun _ => NoOof.pure)
  split
  · split
    · exact NoOof.bind (NoOof.lift h32) (fun x => hi)
    · exact NoOof.bind (NoOof.lift h64) (fun x => hi)
  split
  · exact NoOof.bind (NoOof.lift h32) (fun x => hi)
  split
  · exact NoOof.bind (NoOof.lift h32) (fun x => hi)
  split
  · exact NoOof.bind (NoOof.lift h64) (fun x => hi)
  split
  · exact NoOof.bind (NoOof.lift hd) (fun x =>
      NoOof.bind (convF_noOof _ _ _ _) (fun _ => NoOof.pure))
  split
  · exact NoOof.bind (NoOof.lift hp) (fun x => hi)
  split
  · exact NoOof.bind (NoOof.lift h32) (fun x => NoOof.bind NoOof.put (fun _ => NoOof.pure))
  split
  · exact NoOof.bind NoOof.put (fun _ => NoOof.pure)
  · exact NoOof.bind NoOof.put (fun _ => NoOof.pure)

theorem parseNum_ok_or_ub : ∀ (fmt : List UInt8) (w : BitVec 32),
    parseNum w fmt ≠ .oof ∧ ∀ x, parseNum w fmt = .ok x → x.2.length ≤ fmt.length := by
  intro fmt
  induction fmt with
  | nil => intro w; simp [parseNum]
  | cons c r ih =>
    intro w
    unfold parseNum
    split
    · exact ⟨(ih _).1, fun x hx => by have := (ih _).2 x hx; simp; omega⟩
    · refine ⟨by simp, fun x hx => ?_⟩
      cases hx; simp

theorem parseFlags_ok_or_ub : ∀ (fmt : List UInt8) (fl : Flags) (args : List Arg),
    parseFlags fl fmt args ≠ .oof ∧
      ∀ x, parseFlags fl fmt args = .ok x → x.2.1.length ≤ fmt.length := by
  intro fmt
  induction fmt with
  | nil => intro fl args; simp [parseFlags]
  | cons c r ih =>
    intro fl args
    have ih' : ∀ fl' args', parseFlags fl' r args' ≠ .oof ∧
        ∀ x, parseFlags fl' r args' = .ok x → x.2.1.length ≤ (c :: r).length := by
      intro fl' args'
      exact ⟨(ih _ _).1, fun x hx => by have := (ih _ _).2 x hx; simp; omega⟩
    unfold parseFlags
    split
    · exact ih' _ _
    split
    · exact ih' _ _
    split
    · exact ih' _ _
    split
    · exact ih' _ _
    split
    · have hp := parseNum_ok_or_ub r fl.fracWidth
      cases hn : parseNum fl.fracWidth r with
      | ok y =>
        refine ⟨by simp, fun x hx => ?_⟩
        simp only [Res.ok_bind, Res.ok.injEq] at hx
        subst hx
        have := hp.2 y hn
        simp; omega
      | ub => simp
      | oof => exact absurd hn hp.1
    split
    · split
      · exact ih' _ _
      · simp
      · rename_i h; exact absurd h (va_noOof args).2.1
    · refine ⟨by simp, fun x hx => ?_⟩
      cases hx; simp

theorem peek_noOof (fmt : List UInt8) : peek fmt ≠ .oof := by unfold peek; split <;> simp

theorem peek_pos {fmt : List UInt8} {c : UInt8} (h : peek fmt = .ok c) : 0 < fmt.length := by
  cases fmt with
  | nil => simp [peek] at h
  | cons c r => simp

theorem bind_value {α β : Type} {x : FM α} {f : α → FM β} {s : LSt} {b : β}
    (h : ((x >>= f) s).1 = .ok b) : ∃ a, (x s).1 = .ok a ∧ (f a (x s).2).1 = .ok b := by
  rw [FM.bind_def] at h
  cases hx : x s with
  | mk r s' =>
    rw [hx] at h
    cases r with
    | ok a => exact ⟨a, rfl, h⟩
    | ub => simp at h
    | oof => simp at h

theorem directive_noOof (buf last : Nat) (fmt : List UInt8) (args : List Arg) :
    NoOof (directive buf last fmt args) := by
  unfold directive
  refine NoOof.bind (NoOof.lift (peek_noOof _)) (fun c => ?_)
  refine NoOof.bind (NoOof.lift (parseNum_ok_or_ub _ _).1) (fun x => ?_)
  refine NoOof.bind (NoOof.lift (parseFlags_ok_or_ub _ _ _).1) (fun y => ?_)
  refine NoOof.bind (NoOof.lift (peek_noOof _)) (fun c => ?_)
  exact NoOof.bind (convert_noOof _ _ _ _ _) (fun _ => NoOof.pure)

theorem directive_shorter {buf last : Nat} {fmt : List UInt8} {args : List Arg} {s : LSt}
    {r : Nat × List UInt8 × List Arg} (h : (directive buf last fmt args s).1 = .ok r) :
    r.2.1.length < fmt.length := by
  unfold directive at h
  obtain ⟨c, hc, h⟩ := bind_value h
  obtain ⟨x, hx, h⟩ := bind_value h
  have h1 := (parseNum_ok_or_ub _ _).2 x hx
  obtain ⟨y, hy, h⟩ := bind_value h
  have h2 := (parseFlags_ok_or_ub _ _ _).2 y hy
  obtain ⟨c, hc, h⟩ := bind_value h
  have h3 := peek_pos hc
  obtain ⟨z, hz, h⟩ := bind_value h
  simp only [FM.pure_def, Res.ok.injEq] at h
  subst h
  obtain ⟨x1, x2⟩ := x
  obtain ⟨y1, y2, y3⟩ := y
  simp only [List.length_tail] at *
  omega

theorem vslLoop_noOof (last : Nat) : ∀ (fuel : Nat) (fmt : List UInt8) (buf : Nat)
    (args : List Arg), fmt.length < fuel → NoOof (vslLoop last fuel buf fmt args) := by
  intro fuel
  induction fuel with
  | zero => intro fmt buf args h; omega
  | succ fuel ih =>
    intro fmt buf args hf
    unfold vslLoop
    refine NoOof.bind' (Q := fun _ => 0 < fmt.length) (NoOof.lift (peek_noOof _))
      (fun s a h => peek_pos h) (fun c hc => ?_)
    split
    · split
      · refine NoOof.bind' (Q := fun r => r.2.1.length < fmt.tail.length)
          (directive_noOof _ _ _ _) (fun s a h => directive_shorter h) (fun r hr => ?_)
        obtain ⟨r1, r2, r3⟩ := r
        simp only [List.length_tail] at hr
        exact ih _ _ _ (by omega)
      · refine NoOof.bind NoOof.put (fun _ => ih _ _ _ ?_)
        simp only [List.length_tail]; omega
    · exact NoOof.pure

theorem vslprintf_noOof (buf last : Nat) (fmt : List UInt8) (args : List Arg) :
    NoOof (vslprintf buf last fmt args) := by
  unfold vslprintf
  refine NoOof.bind (vslLoop_noOof last _ fmt buf args (by omega)) (fun b => ?_)
  split
  · exact NoOof.bind NoOof.put (fun _ => NoOof.pure)
  · exact NoOof.pure

/-! ### Bytes after the terminating NUL -/

theorem parseNum_junk (j : List UInt8) : ∀ (fmt : List UInt8) (w : BitVec 32),
    parseNum w (fmt ++ 0 :: j) = .ok (BitVec.ofNat 32
      ((fmt.takeWhile isDigit).foldl (fun a c => a * 10 + (c.toNat - 48)) w.toNat),
      fmt.dropWhile isDigit ++ 0 :: j) := by
  intro fmt
  induction fmt with
  | nil => intro w; simp [parseNum]
  | cons c r ih =>
    intro w
    have h1 := parseNum_eq (c :: r) w
    simp only [List.cons_append, parseNum] at h1 ⊢
    split
    · rename_i h
      have hd := (isDigit_iff c).mpr h
      rw [if_pos h, parseNum_eq] at h1
      rw [ih]
      simp only [Res.ok.injEq, Prod.mk.injEq] at h1
      rw [h1.1]
      simp [hd]
    · rename_i h
      have hd : ¬ isDigit c = true := fun e => h ((isDigit_iff c).mp e)
      rw [if_neg h] at h1
      simp only [Res.ok.injEq, Prod.mk.injEq] at h1
      rw [← h1.1]
      simp [hd]

/-- The rest of the format after the flags is the same, with the junk appended. -/
theorem parseFlags_junk (j : List UInt8) : ∀ (fmt : List UInt8) (fl : Flags) (args : List Arg),
    (parseFlags fl (fmt ++ [0]) args = .ub ∧ parseFlags fl (fmt ++ 0 :: j) args = .ub) ∨
    ∃ fl' r args', parseFlags fl (fmt ++ [0]) args = .ok (fl', r ++ [0], args') ∧
      parseFlags fl (fmt ++ 0 :: j) args = .ok (fl', r ++ 0 :: j, args') ∧
      r = (match fmt.dropWhile isFlag with
        | [] => []
        | c :: r => if c = 46 then r.dropWhile isDigit else c :: r) := by
  intro fmt
  induction fmt with
  | nil => intro fl args; exact Or.inr ⟨fl, [], args, by simp [parseFlags]⟩
  | cons c r ih =>
    intro fl args
    simp only [List.cons_append, parseFlags]
    by_cases hf : isFlag c = true
    · simp only [List.dropWhile_cons, hf, if_true]
      split
      · exact ih _ _
      split
      · exact ih _ _
      split
      · exact ih _ _
      split
      · exact ih _ _
      split
      · rename_i h; subst h; exact absurd hf (by decide)
      split
      · split
        · exact ih _ _
        · exact Or.inl ⟨rfl, rfl⟩
        · rename_i h; exact absurd h (va_noOof args).2.1
      · exfalso
        simp only [isFlag, decide_eq_true_eq] at hf
        rcases hf with h | h | h | h | h <;> contradiction
    · have hf' : ¬ (c = 117 ∨ c = 109 ∨ c = 88 ∨ c = 120 ∨ c = 42) := by
        intro e; apply hf; simpa [isFlag] using e
      simp only [not_or] at hf'
      obtain ⟨n1, n2, n3, n4, n5⟩ := hf'
      simp only [List.dropWhile_cons, hf, Bool.false_eq_true, if_false, if_neg n1, if_neg n2,
        if_neg n3, if_neg n4, if_neg n5]
      right
      by_cases h46 : c = 46
      · simp only [if_pos h46]
        rw [parseNum_eq, parseNum_junk]
        exact ⟨_, _, _, rfl, rfl, rfl⟩
      · simp only [if_neg h46]
        exact ⟨fl, c :: r, args, rfl, rfl, rfl⟩

theorem parseDir_rest {fmt rest : List UInt8} {d : Dir} (h : parseDir fmt = some (d, rest)) :
    (match (fmt.dropWhile isDigit).dropWhile isFlag with
        | [] => []
        | c :: r => if c = 46 then r.dropWhile isDigit else c :: r) = d.conv :: rest := by
  unfold parseDir at h
  simp only at h
  split at h
  · exact absurd h (by simp)
  · rename_i c r3 hr2
    rw [hr2]
    simp only
    split at h
    · rename_i h46
      rw [if_pos h46]
      split at h
      · exact absurd h (by simp)
      · rename_i hr3
        simp only [Option.some.injEq, Prod.mk.injEq] at h
        rw [hr3, ← h.1, ← h.2]
    · rename_i h46
      rw [if_neg h46]
      simp only [Option.some.injEq, Prod.mk.injEq] at h
      rw [← h.1, ← h.2]

/-- One directive, with and without junk after the NUL. -/
theorem directive_junk (j : List UInt8) {buf last : Nat} {fmt rest : List UInt8} {d : Dir}
    {args : List Arg} (h : parseDir fmt = some (d, rest)) (s : LSt) :
    (∃ b args' s', directive buf last (fmt ++ [0]) args s = (.ok (b, rest ++ [0], args'), s') ∧
      directive buf last (fmt ++ 0 :: j) args s = (.ok (b, rest ++ 0 :: j, args'), s')) ∨
    (∃ s', directive buf last (fmt ++ [0]) args s = (.ub, s') ∧
      directive buf last (fmt ++ 0 :: j) args s = (.ub, s')) := by
  unfold directive
  obtain ⟨c0, hp1, hp2⟩ : ∃ c, peek (fmt ++ [0]) = .ok c ∧ peek (fmt ++ 0 :: j) = .ok c := by
    cases fmt with
    | nil => exact ⟨0, rfl, rfl⟩
    | cons c r => exact ⟨c, rfl, rfl⟩
  rw [hp1, hp2, FM.lift_ok_bind, FM.lift_ok_bind, parseNum_eq, parseNum_junk, FM.lift_ok_bind,
    FM.lift_ok_bind]
  simp only
  rcases parseFlags_junk j (fmt.dropWhile isDigit)
    ⟨if c0 = 48 then 48 else 32, BitVec.ofNat 32 ((fmt.takeWhile isDigit).foldl (fun a c => a * 10 + (c.toNat - 48)) (0#32).toNat), true, 0, false, 0#32, none⟩ args with ⟨h1, h2⟩ | ⟨fl', r, args', h1, h2, h3⟩
  · rw [h1, h2]
    exact Or.inr ⟨s, rfl, rfl⟩
  · rw [h1, h2, FM.lift_ok_bind, FM.lift_ok_bind]
    rw [parseDir_rest h] at h3
    subst h3
    simp only [List.cons_append, peek, FM.bind_def, FM.lift, List.tail_cons]
    have hno := convert_noOof buf last fl' d.conv args' s
    cases hc : convert buf last fl' d.conv args' s with
    | mk r s' =>
      cases r with
      | ok x => exact Or.inl ⟨x.1, x.2, s', rfl, rfl⟩
      | ub => exact Or.inr ⟨s', rfl, rfl⟩
      | oof => rw [hc] at hno; exact absurd rfl hno

theorem vslLoop_junk (last : Nat) (j : List UInt8) {fmt : List UInt8} (hc : Complete fmt) :
    ∀ (f1 f2 buf : Nat) (args : List Arg) (s : LSt), fmt.length < f1 → fmt.length < f2 →
      vslLoop last f1 buf (fmt ++ [0]) args s = vslLoop last f2 buf (fmt ++ 0 :: j) args s := by
  induction hc with
  | done =>
    intro f1 f2 buf args s h1 h2
    obtain ⟨f1, rfl⟩ : ∃ k, f1 = k + 1 := ⟨f1 - 1, by omega⟩
    obtain ⟨f2, rfl⟩ : ∃ k, f2 = k + 1 := ⟨f2 - 1, by omega⟩
    unfold vslLoop
    simp [peek]
  | @lit c fmt hne _ ih =>
    intro f1 f2 buf args s h1 h2
    simp only [List.length_cons] at h1 h2
    obtain ⟨f1, rfl⟩ : ∃ k, f1 = k + 1 := ⟨f1 - 1, by omega⟩
    obtain ⟨f2, rfl⟩ : ∃ k, f2 = k + 1 := ⟨f2 - 1, by omega⟩
    unfold vslLoop
    simp only [List.cons_append, peek, FM.lift_ok_bind, if_neg hne, List.tail_cons]
    split
    · simp only [FM.bind_def]
      split
      · exact ih _ _ _ _ _ (by omega) (by omega)
      · rfl
      · rfl
    · rfl
  | @dir fmt d rest hp _ ih =>
    intro f1 f2 buf args s h1 h2
    simp only [List.length_cons] at h1 h2
    obtain ⟨f1, rfl⟩ : ∃ k, f1 = k + 1 := ⟨f1 - 1, by omega⟩
    obtain ⟨f2, rfl⟩ : ∃ k, f2 = k + 1 := ⟨f2 - 1, by omega⟩
    have hlen := parseDir_length hp
    unfold vslLoop
    simp only [List.cons_append, peek, FM.lift_ok_bind, if_true, List.tail_cons]
    split
    · simp only [FM.bind_def]
      rcases directive_junk j (buf := buf) (last := last) (args := args) hp s with
        ⟨b, args', s', h3, h4⟩ | ⟨s', h3, h4⟩
      · rw [h3, h4]
        exact ih _ _ _ _ _ (by omega) (by omega)
      · rw [h3, h4]
    · rfl

theorem vslprintf_junk (j : List UInt8) {fmt : List UInt8} (hc : Complete fmt) (buf last : Nat)
    (args : List Arg) (s : LSt) :
    vslprintf buf last (fmt ++ 0 :: j) args s = vslprintf buf last (fmt ++ [0]) args s := by
  unfold vslprintf
  have := vslLoop_junk last j hc ((fmt ++ [0]).length + 1) ((fmt ++ 0 :: j).length + 1) buf args s
    (by simp; omega) (by simp; omega)
  rw [FM.bind_def, FM.bind_def, this]

end Verif.Format
