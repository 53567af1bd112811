import Verif.Props.SmartPtr
import Verif.Props.Value
import Verif.Lemmas.Deleter

set_option backward.isDefEq.respectTransparency false

/-!
C99: an object given to a `unique_ptr` or `shared_ptr` is disposed of once, by the deleter it was given with (or, without
one, by `delete` as an object of the type it was given as), whatever is done to the pointers; deleters that can only be
moved and deleters held by reference can be used.
-/

namespace Verif.Deleter

open Verif.Value

/-! ## `unique_ptr` -/

/-- What a user expects `unique_ptr`s to be: pairs of object and deleter. -/
structure Pairs where
  slot : Nat → Option (Nat × Nat)
  log : List (Nat × Nat)
  out : List Nat

def put (f : Nat → Option (Nat × Nat)) (i : Nat) (v : Option (Nat × Nat)) : Nat → Option (Nat × Nat) :=
  fun x => if x = i then v else f x

/-- The end of a pair: its deleter gets its object. -/
def dispose (e : Nat × Nat) : List (Nat × Nat) := if e.1 = 0 then [] else [(e.2, e.1)]

/-- What a user expects of the operations: pairs stay together. -/
def pstep (k : Cls) (a : Pairs) : UOp → Pairs
  | .make i p d _ => { a with slot := put a.slot i (some (p, d)) }
  | .move i j =>
    match a.slot j with
    | some (p, d) => { a with slot := put (put a.slot j (some (0, d))) i (some (p, d)) }
    | none => a
  | .assign i j =>
    match a.slot i, a.slot j with
    | some e, some (p, d) =>
      if i = j then a else
      { a with slot := put (put a.slot j (some (0, if k.move then k.left d else d))) i (some (p, d))
               log := a.log ++ dispose e }
    | _, _ => a
  | .reset i p =>
    match a.slot i with
    | some e => { a with slot := put a.slot i (some (p, e.2)), log := a.log ++ dispose e }
    | none => a
  | .release i =>
    match a.slot i with
    | some e => { a with slot := put a.slot i (some (0, e.2)), out := a.out ++ [e.1] }
    | none => a
  | .swap i j => { a with slot := put (put a.slot i (a.slot j)) j (a.slot i) }
  | .destroy i =>
    match a.slot i with
    | some e => { a with slot := put a.slot i none, log := a.log ++ dispose e }
    | none => a

/-- The rules for the user: a `unique_ptr` is made once and used while it exists (at most `N` of them); one whose deleter
does not survive a move to itself is not assigned to itself. -/
def ULegal (k : Cls) (N : Nat) (a : Pairs) : UOp → Prop
  | .make i _ _ _ => i < N ∧ a.slot i = none
  | .move i j => i < N ∧ a.slot i = none ∧ (a.slot j).isSome = true
  | .assign i j => (a.slot i).isSome = true ∧ (a.slot j).isSome = true ∧ (i ≠ j ∨ ∀ v, k.self v = v)
  | .reset i _ => (a.slot i).isSome = true
  | .release i => (a.slot i).isSome = true
  | .swap i j => (a.slot i).isSome = true ∧ (a.slot j).isSome = true
  | .destroy i => (a.slot i).isSome = true

def prun (k : Cls) (a : Pairs) : List UOp → Pairs
  | [] => a
  | op :: ops => prun k (pstep k a op) ops

def PLegal (k : Cls) (N : Nat) (a : Pairs) : List UOp → Prop
  | [] => True
  | op :: ops => ULegal k N a op ∧ PLegal k N (pstep k a op) ops

def pinit : Pairs := ⟨fun _ => none, [], []⟩

/-- The members of the `unique_ptr`s are those of the pairs. -/
structure Match (s : US) (a : Pairs) : Prop where
  live : ∀ i, s.live i = (a.slot i).isSome
  val : ∀ i p d, a.slot i = some (p, d) → s.σ (P i) = p ∧ s.σ (D i) = d
  log : s.log = a.log
  out : s.out = a.out

theorem put_eq (f : Nat → Option (Nat × Nat)) (i : Nat) (v : Option (Nat × Nat)) : put f i v i = v := by simp [put]
theorem put_ne (f : Nat → Option (Nat × Nat)) {i j : Nat} (v : Option (Nat × Nat)) (h : j ≠ i) : put f i v j = f j := by
  simp [put, h]

theorem P_ne {i j : Nat} (h : i ≠ j) : P i ≠ P j := by unfold P; omega
theorem D_ne {i j : Nat} (h : i ≠ j) : D i ≠ D j := by unfold D; omega
theorem PD (i j : Nat) : P i ≠ D j := by unfold P D; omega
theorem P_big (i n : Nat) (h : n < 8) : P i ≠ n := by unfold P; omega
theorem D_big (i n : Nat) (h : n < 8) : D i ≠ n := by unfold D; omega

theorem plain_ptr : Plain ptrCls.ty := ⟨rfl, rfl⟩

theorem impl2_ok {k : Cls} (hk : Plain k.ty) (hc : k.copy = true) (i src : Nat) (c : Cat) (σ : Store)
    (h0 : src ≠ 0) (h1 : src ≠ P i) (h2 : src ≠ D i) :
    ∃ σ', impl2 k i src c σ = some σ' ∧ σ' (P i) = σ 0 ∧ σ' (D i) = σ src ∧
      ∀ x, x ≠ P i → x ≠ D i → σ' x = σ x := by
  have hp : ∀ t ∈ data k i, Plain t.cls.ty := by
    intro t ht
    simp only [data, List.mem_cons, List.not_mem_nil, or_false] at ht
    rcases ht with rfl | rfl
    · exact plain_ptr
    · exact hk
  have hv : implViable (data k i) [.lvalue, c] = false := by
    have := argFromElement_eq ptrCls plain_ptr .lvalue
    simp [implViable, data, this]
  have ha : Apart (data k i) [0, src] := by
    have a1 := P_big i 0 (by omega)
    have a2 := D_big i 0 (by omega)
    have a3 := PD i i
    refine ⟨rfl, by simpa [data] using a3, by simpa using h0.symm, ?_⟩
    intro t ht
    simp only [data, List.mem_cons, List.not_mem_nil, or_false] at ht
    rcases ht with rfl | rfl
    · simpa using ⟨a1, fun e => h1 e.symm⟩
    · simpa using ⟨a2, fun e => h2 e.symm⟩
  obtain ⟨σ', e, v, f⟩ := initialised_of_each (σ := σ) (cs := [.clvalue, .clvalue]) ha rfl (by
    intro q hq
    simp only [data, List.zip_cons_cons, List.zip_nil_right, List.mem_cons, List.not_mem_nil, or_false] at hq
    rcases hq with rfl | rfl
    · exact .inl rfl
    · exact .inl hc)
  refine ⟨σ', ?_, ?_, ?_, ?_⟩
  · unfold impl2
    rw [forward_deduce hk c]
    show tuple_make (data k i) [0, src] [.lvalue, c] σ = _
    rw [tuple_make_fallback σ (by simp [data]) hp rfl hv]
    exact e
  · exact (v 0 _ _ _ rfl rfl rfl).1
  · exact (v 1 _ _ _ rfl rfl rfl).1
  · intro x x1 x2
    by_cases e0 : x = 0
    · subst e0; simpa using (v 0 _ _ _ rfl rfl rfl).2
    · by_cases es : x = src
      · subst es; simpa using (v 1 _ _ _ rfl rfl rfl).2
      · exact f x (by simpa [data] using ⟨x1, x2⟩) (by simpa using ⟨e0, es⟩)

theorem reset_ok (s : US) (i : Nat) :
    ∃ s', reset s i = some s' ∧ s'.σ (P i) = s.σ 0 ∧ (∀ x, 8 ≤ x → x ≠ P i → s'.σ x = s.σ x) ∧ s'.live = s.live ∧
      s'.out = s.out ∧ s'.log = s.log ++ dispose (s.σ (P i), s.σ (D i)) := by
  obtain ⟨σ', e, v1, v2, f⟩ := swap_ok (l := ⟨ptrCls, P i⟩) (r := 0) (tmp := 1) s.σ (.inl rfl) (P_big i 1 (by omega)).symm (by omega)
  have hD : σ' (D i) = s.σ (D i) := f _ (PD i i).symm (D_big i 0 (by omega)) (D_big i 1 (by omega))
  refine ⟨callIf { s with σ := σ' } i (σ' 0), by unfold reset; rw [e]; rfl, ?_, ?_, ?_, ?_, ?_⟩
  · unfold callIf; split <;> exact v1
  · intro x hx hne
    have : σ' x = s.σ x := f x hne (by omega) (by omega)
    unfold callIf; split <;> exact this
  · unfold callIf; split <;> rfl
  · unfold callIf; split <;> rfl
  · unfold callIf dispose
    simp only [v2, hD]
    by_cases h : s.σ (P i) = 0 <;> simp [h]

theorem forward_plain {t : Cxx.Ty} (h : Plain t) : forward t = some .xvalue := forward_deduce h .xvalue

theorem some_of_isSome {α : Type} {x : Option α} (h : x.isSome = true) : ∃ v, x = some v := by
  cases x with
  | none => simp at h
  | some v => exact ⟨v, rfl⟩

theorem swap_step {k : Cls} (hf : k.copy = true ∨ k.move = true) (i j : Nat) (σ : Store) :
    ∃ σ', (do
        let σ ← tuple_from (at' (data k i) [2, 3]) [P i, D i] .xvalue σ
        let σ ← tuple_assign (data k i) [P j, D j] .xvalue [4, 5] 6 σ
        tuple_assign (data k j) [2, 3] .xvalue [4, 5] 6 σ) = some σ' ∧
      σ' (P i) = σ (P j) ∧ σ' (D i) = σ (D j) ∧ σ' (P j) = σ (P i) ∧ σ' (D j) = σ (D i) ∧
      ∀ x, 8 ≤ x → x ≠ P i → x ≠ D i → x ≠ P j → x ≠ D j → σ' x = σ x := by
  have big : ∀ (l n : Nat), n < 8 → P l ≠ n ∧ D l ≠ n := fun l n h => ⟨P_big l n h, D_big l n h⟩
  have hfit : ∀ l, ∀ t ∈ data k l, t.cls.copy = true ∨ (Cat.xvalue = .xvalue ∧ t.cls.move = true) := by
    intro l t ht
    simp only [data, List.mem_cons, List.not_mem_nil, or_false] at ht
    rcases ht with rfl | rfl
    · exact .inl rfl
    · exact hf.imp_right fun h => ⟨rfl, h⟩
  have hd : ∀ l, ((data k l).map Value.Obj.addr).Nodup := fun l => by simpa [data] using PD l l
  have hnd : ∀ l, [P l, D l].Nodup := fun l => by simpa using PD l l
  obtain ⟨σ1, e1, v1, f1⟩ := C97_tuple_from (at' (data k i) [2, 3]) [P i, D i] .xvalue σ
    ⟨rfl, by simp [at', data], hnd i, fun t ht => by
      simp only [at', data, List.zipWith_cons_cons, List.zipWith_nil_right, List.mem_cons, List.not_mem_nil, or_false] at ht
      rcases ht with rfl | rfl
      · simpa using ⟨((big i 2 (by omega)).1).symm, ((big i 2 (by omega)).2).symm⟩
      · simpa using ⟨((big i 3 (by omega)).1).symm, ((big i 3 (by omega)).2).symm⟩⟩
    (fun t ht => by obtain ⟨t', h, e⟩ := at'_cls ht; rw [e]; exact hfit i t' h)
  have a2 : σ1 2 = σ (P i) := (v1 0 _ _ _ rfl rfl rfl).1
  have a3 : σ1 3 = σ (D i) := (v1 1 _ _ _ rfl rfl rfl).1
  have a4 : σ1 (P i) = σ (P i) := by simpa [at', data, ptrCls] using (v1 0 _ _ _ rfl rfl rfl).2
  have frame1 : ∀ x, 8 ≤ x → x ≠ P i → x ≠ D i → σ1 x = σ x := fun x h8 h1 h2 =>
    f1 x (by simp [at', data]; omega) (by simpa using ⟨h1, h2⟩)
  obtain ⟨σ2, e2, v2, f2⟩ := C97_tuple_assign (data k i) [P j, D j] .xvalue [4, 5] 6 σ1 rfl rfl (hd i) (hnd j) (by decide)
    (by
      by_cases e : i = j
      · subst e; exact .inl rfl
      · refine .inr fun t ht => ?_
        simp only [data, List.mem_cons, List.not_mem_nil, or_false] at ht
        rcases ht with rfl | rfl
        · simpa using ⟨P_ne e, PD i j⟩
        · simpa using ⟨(PD j i).symm, D_ne e⟩)
    (fun t ht => by
      simp only [data, List.mem_cons, List.not_mem_nil, or_false] at ht
      rcases ht with rfl | rfl
      · simpa using ⟨(big i 4 (by omega)).1, (big i 5 (by omega)).1⟩
      · simpa using ⟨(big i 4 (by omega)).2, (big i 5 (by omega)).2⟩)
    (fun s hs => by
      simp only [List.mem_cons, List.not_mem_nil, or_false] at hs
      rcases hs with rfl | rfl
      · simpa using ⟨(big j 4 (by omega)).1, (big j 5 (by omega)).1⟩
      · simpa using ⟨(big j 4 (by omega)).2, (big j 5 (by omega)).2⟩)
    (by decide) (by simpa [data] using ⟨((big i 6 (by omega)).1).symm, ((big i 6 (by omega)).2).symm⟩) (hfit i)
  have b1 : σ2 (P i) = σ1 (P j) := (v2 0 _ _ rfl rfl).1
  have b2 : σ2 (D i) = σ1 (D j) := (v2 1 _ _ rfl rfl).1
  have frame2 : ∀ x, x ≠ P i → x ≠ D i → x ≠ P j → x ≠ D j → x ≠ 4 → x ≠ 5 → x ≠ 6 → σ2 x = σ1 x :=
    fun x x1 x2 x3 x4 x5 x6 x7 => f2 x (by simpa [data] using ⟨x1, x2⟩) (by simpa using ⟨x3, x4⟩) (by simpa using ⟨x5, x6⟩) x7
  have c2 : σ2 2 = σ (P i) := by
    rw [frame2 2 (big i 2 (by omega)).1.symm (big i 2 (by omega)).2.symm (big j 2 (by omega)).1.symm (big j 2 (by omega)).2.symm
      (by omega) (by omega) (by omega), a2]
  have c3 : σ2 3 = σ (D i) := by
    rw [frame2 3 (big i 3 (by omega)).1.symm (big i 3 (by omega)).2.symm (big j 3 (by omega)).1.symm (big j 3 (by omega)).2.symm
      (by omega) (by omega) (by omega), a3]
  obtain ⟨σ3, e3, v3, f3⟩ := C97_tuple_assign (data k j) [2, 3] .xvalue [4, 5] 6 σ2 rfl rfl (hd j) (by decide) (by decide)
    (.inr fun t ht => by
        simp only [data, List.mem_cons, List.not_mem_nil, or_false] at ht
        rcases ht with rfl | rfl
        · simpa using ⟨(big j 2 (by omega)).1, (big j 3 (by omega)).1⟩
        · simpa using ⟨(big j 2 (by omega)).2, (big j 3 (by omega)).2⟩)
    (fun t ht => by
      simp only [data, List.mem_cons, List.not_mem_nil, or_false] at ht
      rcases ht with rfl | rfl
      · simpa using ⟨(big j 4 (by omega)).1, (big j 5 (by omega)).1⟩
      · simpa using ⟨(big j 4 (by omega)).2, (big j 5 (by omega)).2⟩)
    (by decide) (by decide)
    (by simpa [data] using ⟨((big j 6 (by omega)).1).symm, ((big j 6 (by omega)).2).symm⟩) (hfit j)
  have d1 : σ3 (P j) = σ2 2 := (v3 0 _ _ rfl rfl).1
  have d2 : σ3 (D j) = σ2 3 := (v3 1 _ _ rfl rfl).1
  have frame3 : ∀ x, 8 ≤ x → x ≠ P j → x ≠ D j → σ3 x = σ2 x :=
    fun x x0 x1 x2 => f3 x (by simpa [data] using ⟨x1, x2⟩) (by simp; omega) (by simp; omega) (by omega)
  have gP : ∀ l, 8 ≤ P l := fun l => by unfold P; omega
  have gD : ∀ l, 8 ≤ D l := fun l => by unfold D; omega
  refine ⟨σ3, by rw [e1]; show (do let σ ← tuple_assign (data k i) [P j, D j] .xvalue [4, 5] 6 σ1; tuple_assign (data k j) [2, 3] .xvalue [4, 5] 6 σ) = _; rw [e2]; exact e3, ?_, ?_, d1.trans c2, d2.trans c3, ?_⟩
  · by_cases e : i = j
    · subst e; exact d1.trans c2
    · rw [frame3 _ (gP i) (P_ne e) (PD i j), b1, frame1 _ (gP j) (P_ne (Ne.symm e)) (PD j i)]
  · by_cases e : i = j
    · subst e; exact d2.trans c3
    · rw [frame3 _ (gD i) (PD j i).symm (D_ne e), b2, frame1 _ (gD j) (PD i j).symm (D_ne (Ne.symm e))]
  · intro x h8 x1 x2 x3 x4
    rw [frame3 x h8 x3 x4, frame2 x x1 x2 x3 x4 (by omega) (by omega) (by omega), frame1 x h8 x1 x2]

theorem match_put {s s' : US} {a : Pairs} {i : Nat} {v : Option (Nat × Nat)} {log : List (Nat × Nat)} {out : List Nat}
    (h : Match s a) (hl : ∀ x, s'.live x = if x = i then v.isSome else s.live x)
    (hv : ∀ p d, v = some (p, d) → s'.σ (P i) = p ∧ s'.σ (D i) = d)
    (hf : ∀ x, x ≠ i → (s.live x) = true → s'.σ (P x) = s.σ (P x) ∧ s'.σ (D x) = s.σ (D x))
    (hlog : s'.log = log) (hout : s'.out = out) : Match s' ⟨put a.slot i v, log, out⟩ := by
  refine ⟨fun x => ?_, fun x p d hx => ?_, hlog, hout⟩
  · rw [hl]
    by_cases e : x = i
    · subst e; simp [put_eq]
    · simp [put_ne _ _ e, e, h.live]
  · by_cases e : x = i
    · subst e
      have hx : put a.slot x v x = some (p, d) := hx
      rw [put_eq] at hx; exact hv p d hx
    · have hx : put a.slot i v x = some (p, d) := hx
      rw [put_ne _ _ e] at hx
      have := hf x e (by rw [h.live, hx]; rfl)
      obtain ⟨v1, v2⟩ := h.val x p d hx
      exact ⟨this.1.trans v1, this.2.trans v2⟩

theorem assign_self_val {k : Cls} (hc : k.copy = true) (hs : ∀ v, k.self v = v) (a : Nat) (c : Cat) (σ : Store) :
    ∃ σ', assign ⟨k, a⟩ a c σ = some σ' ∧ ∀ x, σ' x = σ x := by
  unfold assign
  have hx : ∀ x, Value.set σ a (σ a) x = σ x := fun x => by
    by_cases e : x = a
    · subst e; exact set_same _ _ _
    · exact set_other _ _ e
  simp only [hc, hs, if_true]
  split <;> exact ⟨_, rfl, hx⟩

/-- One operation of the code does to the members what the user expects of the pairs. -/
theorem match_step {k : Cls} (hk : Plain k.ty) (hc : k.copy = true) {N : Nat} {s : US} {a : Pairs} (hm : Match s a) (op : UOp)
    (hl : ULegal k N a op) : ∃ s', ustep k s op = some s' ∧ Match s' (pstep k a op) := by
  have gP : ∀ l, 8 ≤ P l := fun l => by unfold P; omega
  have gD : ∀ l, 8 ≤ D l := fun l => by unfold D; omega
  cases op with
  | make i p d cat =>
    have hres : ∃ c, resolve [⟨.clref, 0, false⟩, ⟨.rref, 0, false⟩] [cat] = some c := by
      cases cat <;> exact ⟨_, rfl⟩
    obtain ⟨c, hres⟩ := hres
    obtain ⟨σ', e, v1, v2, f⟩ := impl2_ok hk hc i 7 (part c.par) (set (set s.σ 0 p) 7 d) (by omega)
      (P_big i 7 (by omega)).symm (D_big i 7 (by omega)).symm
    refine ⟨{ s with σ := σ', live := fun x => if x = i then true else s.live x }, by simp only [ustep, hres, Option.bind_eq_bind, Option.bind_some, e]; rfl, ?_⟩
    refine match_put hm (fun x => rfl) ?_ ?_ hm.log hm.out
    · intro p' d' he
      injection he with he; injection he with h1 h2
      subst h1; subst h2
      exact ⟨v1.trans (by simp [Value.set]), v2.trans (by simp [Value.set])⟩
    · intro x hx _
      have big : ∀ y, 8 ≤ y → y ≠ P i → y ≠ D i → σ' y = s.σ y := by
        intro y h8 h1 h2
        rw [f y h1 h2, set_other _ _ (by omega), set_other _ _ (by omega)]
      exact ⟨big _ (gP x) (P_ne hx) (PD x i), big _ (gD x) (PD i x).symm (D_ne hx)⟩
  | move i j =>
    obtain ⟨hi, hn, hj⟩ := hl
    obtain ⟨⟨p, d⟩, hj⟩ := some_of_isSome hj
    have hij : i ≠ j := fun e => by subst e; rw [hn] at hj; exact absurd hj (by simp)
    obtain ⟨w1, w2⟩ := hm.val j p d hj
    obtain ⟨σ', e, v1, v2, f⟩ := impl2_ok hk hc i (D j) .xvalue (release s j).σ (D_big j 0 (by omega)) (PD i j).symm
      (D_ne (Ne.symm hij))
    refine ⟨{ release s j with σ := σ', live := fun x => if x = i then true else s.live x },
      by simp only [ustep, forward_plain hk, Option.bind_eq_bind, Option.bind_some, e]; rfl, ?_⟩
    have big : ∀ y, 8 ≤ y → y ≠ P i → y ≠ D i → y ≠ P j → σ' y = s.σ y := by
      intro y h8 h1 h2 h3
      rw [f y h1 h2]
      simp only [release]
      rw [set_other _ _ h3, set_other _ _ (by omega)]
    have hp0 : (release s j).σ 0 = p := by
      simp only [release]
      rw [set_other _ _ (P_big j 0 (by omega)).symm, set_same, w1]
    have hdj : (release s j).σ (D j) = d := by
      simp only [release]
      rw [set_other _ _ (PD j j).symm, set_other _ _ (D_big j 0 (by omega)), w2]
    have hpj : (release s j).σ (P j) = 0 := by
      simp only [release]
      rw [set_same]
    have m1 : Match { s with σ := set s.σ (P j) 0 } ⟨put a.slot j (some (0, d)), a.log, a.out⟩ := by
      refine match_put hm (fun x => ?_) ?_ ?_ hm.log hm.out
      · by_cases e : x = j
        · subst e; simp [hm.live, hj]
        · simp [e]
      · intro p' d' he
        injection he with he; injection he with h1 h2
        subst h1; subst h2
        exact ⟨set_same _ _ _, by show set s.σ (P j) 0 (D j) = d; rw [set_other _ _ (PD j j).symm]; exact w2⟩
      · intro x hx _
        exact ⟨set_other _ _ (P_ne hx), set_other _ _ (PD j x).symm⟩
    have := match_put (s' := { release s j with σ := σ', live := fun x => if x = i then true else s.live x }) (i := i)
      (v := some (p, d)) m1 (fun x => rfl)
      (by
        intro p' d' he
        injection he with he; injection he with h1 h2
        subst h1; subst h2
        exact ⟨v1.trans hp0, v2.trans hdj⟩)
      (by
        intro x hx _
        constructor
        · by_cases e : x = j
          · subst e
            show σ' (P x) = set s.σ (P x) 0 (P x)
            rw [f _ (P_ne hx) (PD x i), hpj, set_same]
          · show σ' (P x) = set s.σ (P j) 0 (P x)
            rw [big _ (gP x) (P_ne hx) (PD x i) (P_ne e), set_other _ _ (P_ne e)]
        · show σ' (D x) = set s.σ (P j) 0 (D x)
          rw [big _ (gD x) (PD i x).symm (D_ne hx) (PD j x).symm, set_other _ _ (PD j x).symm]) hm.log hm.out
    simpa only [pstep, hj] using this
  | assign i j =>
    obtain ⟨hi, hj, hself⟩ := hl
    obtain ⟨⟨q, e⟩, hi⟩ := some_of_isSome hi
    obtain ⟨⟨p, d⟩, hj⟩ := some_of_isSome hj
    obtain ⟨w1, w2⟩ := hm.val j p d hj
    obtain ⟨u1, u2⟩ := hm.val i q e hi
    obtain ⟨s1, e1, r1, r2, r3, r4, r5⟩ := reset_ok (release s j) i
    have hp0 : (release s j).σ 0 = p := by
      simp only [release]
      rw [set_other _ _ (P_big j 0 (by omega)).symm, set_same, w1]
    have rel : ∀ y, 8 ≤ y → y ≠ P j → (release s j).σ y = s.σ y := by
      intro y h8 h1
      simp only [release]
      rw [set_other _ _ h1, set_other _ _ (by omega)]
    have hpj : (release s j).σ (P j) = 0 := by
      simp only [release]
      rw [set_same]
    by_cases hij : i = j
    · subst hij
      rw [hi] at hj
      injection hj with hj; injection hj with hq he
      subst hq; subst he
      have hslf : ∀ v, k.self v = v := hself.resolve_left (fun h => h rfl)
      obtain ⟨σ', e2, f⟩ := assign_self_val hc hslf (D i) .xvalue s1.σ
      refine ⟨{ s1 with σ := σ' }, by simp only [ustep, e1, forward_plain hk, Option.bind_eq_bind, Option.bind_some, e2]; rfl, ?_⟩
      simp only [pstep, hi, if_true]
      have hD : σ' (D i) = e := by rw [f, r2 _ (gD i) (PD i i).symm, rel _ (gD i) (PD i i).symm, u2]
      refine ⟨fun x => ?_, fun x p' d' hx => ?_, ?_, ?_⟩
      · show s1.live x = _
        rw [r3]; exact hm.live x
      · by_cases ex : x = i
        · subst ex
          rw [hi] at hx
          injection hx with hx; injection hx with h1 h2
          subst h1; subst h2
          exact ⟨by show σ' (P x) = _; rw [f, r1, hp0], hD⟩
        · obtain ⟨z1, z2⟩ := hm.val x p' d' hx
          constructor
          · show σ' (P x) = _
            rw [f, r2 _ (gP x) (P_ne ex), rel _ (gP x) (P_ne ex), z1]
          · show σ' (D x) = _
            rw [f, r2 _ (gD x) (PD i x).symm, rel _ (gD x) (PD i x).symm, z2]
      · show s1.log = _
        rw [r5, hpj]
        show s.log ++ [] = _
        rw [List.append_nil]; exact hm.log
      · show s1.out = _
        rw [r4]; exact hm.out
    · obtain ⟨σ', e2, v1, v2, f⟩ := assign_ok (dst := ⟨k, D i⟩) (src := D j) (c := .xvalue) s1.σ (D_ne (Ne.symm hij)) (.inl hc)
      refine ⟨{ s1 with σ := σ' }, by simp only [ustep, e1, forward_plain hk, Option.bind_eq_bind, Option.bind_some, e2]; rfl, ?_⟩
      simp only [pstep, hi, hj, if_neg hij]
      have hDj : s1.σ (D j) = d := by rw [r2 _ (gD j) (PD i j).symm, rel _ (gD j) (PD j j).symm, w2]
      have hPj : σ' (P j) = 0 := by rw [f _ (PD j i) (PD j j), r2 _ (gP j) (P_ne (Ne.symm hij)), hpj]
      have hDj' : σ' (D j) = if k.move = true then k.left d else d := by
        rw [v2, hDj]; simp [leaves]
      refine ⟨fun x => ?_, fun x p' d' hx => ?_, ?_, ?_⟩
      · show s1.live x = _
        rw [r3]
        show s.live x = _
        rw [hm.live]
        by_cases x1 : x = i
        · subst x1; simp [put_eq, hi]
        · by_cases x2 : x = j
          · subst x2; simp [put_ne _ _ x1, put_eq, hj]
          · simp [put_ne _ _ x1, put_ne _ _ x2]
      · by_cases x1 : x = i
        · subst x1
          simp only [put_eq] at hx
          injection hx with hx; injection hx with h1 h2
          subst h1; subst h2
          exact ⟨by show σ' (P x) = _; rw [f _ (PD x x) (PD x j), r1, hp0], by show σ' (D x) = _; rw [v1, hDj]⟩
        · by_cases x2 : x = j
          · subst x2
            simp only [put_ne _ _ x1, put_eq] at hx
            injection hx with hx; injection hx with h1 h2
            subst h1; subst h2
            exact ⟨hPj, hDj'⟩
          · simp only [put_ne _ _ x1, put_ne _ _ x2] at hx
            obtain ⟨z1, z2⟩ := hm.val x p' d' hx
            constructor
            · show σ' (P x) = _
              rw [f _ (PD x i) (PD x j), r2 _ (gP x) (P_ne x1), rel _ (gP x) (P_ne x2), z1]
            · show σ' (D x) = _
              rw [f _ (D_ne x1) (D_ne x2), r2 _ (gD x) (PD i x).symm, rel _ (gD x) (PD j x).symm, z2]
      · show s1.log = _
        rw [r5, rel _ (gP i) (P_ne hij), rel _ (gD i) (PD j i).symm, u1, u2]
        show s.log ++ _ = _
        rw [hm.log]
      · show s1.out = _
        rw [r4]; exact hm.out
  | reset i p =>
    obtain ⟨⟨q, e⟩, hi⟩ := some_of_isSome hl
    obtain ⟨u1, u2⟩ := hm.val i q e hi
    obtain ⟨s1, e1, r1, r2, r3, r4, r5⟩ := reset_ok { s with σ := set s.σ 0 p } i
    refine ⟨s1, e1, ?_⟩
    simp only [pstep, hi]
    have rel : ∀ y, 8 ≤ y → y ≠ P i → s1.σ y = s.σ y := by
      intro y h8 h1
      rw [r2 y h8 h1]
      show set s.σ 0 p y = _
      rw [set_other _ _ (by omega)]
    refine match_put hm (fun x => ?_) ?_ ?_ ?_ ?_
    · rw [r3]
      by_cases e : x = i
      · subst e; simp [hm.live, hi]
      · simp [e]
    · intro p' d' he
      injection he with he; injection he with h1 h2
      subst h1; subst h2
      exact ⟨r1.trans (set_same s.σ 0 p), (rel _ (gD i) (PD i i).symm).trans u2⟩
    · intro x hx _
      exact ⟨rel _ (gP x) (P_ne hx), rel _ (gD x) (PD i x).symm⟩
    · rw [r5]
      show s.log ++ dispose (set s.σ 0 p (P i), set s.σ 0 p (D i)) = _
      rw [set_other _ _ (P_big i 0 (by omega)), set_other _ _ (D_big i 0 (by omega)), u1, u2, hm.log]
    · rw [r4]; exact hm.out
  | release i =>
    obtain ⟨⟨q, e⟩, hi⟩ := some_of_isSome hl
    obtain ⟨u1, u2⟩ := hm.val i q e hi
    refine ⟨_, rfl, ?_⟩
    simp only [pstep, hi]
    have hp0 : (release s i).σ 0 = q := by
      simp only [release]
      rw [set_other _ _ (P_big i 0 (by omega)).symm, set_same, u1]
    have rel : ∀ y, 8 ≤ y → y ≠ P i → (release s i).σ y = s.σ y := by
      intro y h8 h1
      simp only [release]
      rw [set_other _ _ h1, set_other _ _ (by omega)]
    refine match_put hm (fun x => ?_) ?_ ?_ hm.log ?_
    · show s.live x = _
      by_cases e : x = i
      · subst e; simp [hm.live, hi]
      · simp [e]
    · intro p' d' he
      injection he with he; injection he with h1 h2
      subst h1; subst h2
      exact ⟨set_same _ _ _, (rel _ (gD i) (PD i i).symm).trans u2⟩
    · intro x hx _
      exact ⟨rel _ (gP x) (P_ne hx), rel _ (gD x) (PD i x).symm⟩
    · show s.out ++ [(release s i).σ 0] = _
      rw [hp0, hm.out]
  | swap i j =>
    obtain ⟨hi, hj⟩ := hl
    obtain ⟨⟨q, e⟩, hi⟩ := some_of_isSome hi
    obtain ⟨⟨p, d⟩, hj⟩ := some_of_isSome hj
    obtain ⟨w1, w2⟩ := hm.val j p d hj
    obtain ⟨u1, u2⟩ := hm.val i q e hi
    obtain ⟨σ', es, v1, v2, v3, v4, f⟩ := swap_step (k := k) (.inl hc) i j s.σ
    refine ⟨{ s with σ := σ' }, ?_, ?_⟩
    · simp only [ustep]
      have := congrArg (fun o => Option.bind o fun σ => some { s with σ := σ }) es
      simpa only [Option.bind_eq_bind, Option.bind_assoc, Option.bind_some, Option.pure_def] using this
    · simp only [pstep]
      refine ⟨fun x => ?_, fun x p' d' hx => ?_, hm.log, hm.out⟩
      · show s.live x = _
        rw [hm.live]
        by_cases x2 : x = j
        · subst x2; simp [put_eq, hi, hj]
        · by_cases x1 : x = i
          · subst x1; simp [put_ne _ _ x2, put_eq, hi, hj]
          · simp [put_ne _ _ x1, put_ne _ _ x2]
      · by_cases x2 : x = j
        · subst x2
          simp only [put_eq, hi] at hx
          injection hx with hx; injection hx with h1 h2
          subst h1; subst h2
          exact ⟨v3.trans u1, v4.trans u2⟩
        · by_cases x1 : x = i
          · subst x1
            simp only [put_ne _ _ x2, put_eq, hj] at hx
            injection hx with hx; injection hx with h1 h2
            subst h1; subst h2
            exact ⟨v1.trans w1, v2.trans w2⟩
          · simp only [put_ne _ _ x1, put_ne _ _ x2] at hx
            obtain ⟨z1, z2⟩ := hm.val x p' d' hx
            exact ⟨(f _ (gP x) (P_ne x1) (PD x i) (P_ne x2) (PD x j)).trans z1,
              (f _ (gD x) (PD i x).symm (D_ne x1) (PD j x).symm (D_ne x2)).trans z2⟩
  | destroy i =>
    obtain ⟨⟨q, e⟩, hi⟩ := some_of_isSome hl
    obtain ⟨u1, u2⟩ := hm.val i q e hi
    refine ⟨_, rfl, ?_⟩
    simp only [pstep, hi]
    have hs : (callIf s i (s.σ (P i))).σ = s.σ := by unfold callIf; split <;> rfl
    refine match_put hm (fun x => rfl) (fun p d h => absurd h (by simp)) ?_ ?_ ?_
    · intro x hx _
      simp only [hs]
      exact ⟨set_other _ _ (P_ne hx), set_other _ _ (PD i x).symm⟩
    · show (callIf s i (s.σ (P i))).log = _
      unfold callIf dispose
      rw [u1, u2, hm.log]
      by_cases h : q = 0 <;> simp [h, hm.log]
    · show (callIf s i (s.σ (P i))).out = _
      unfold callIf
      split <;> exact hm.out

theorem tupleElement_ok {k : Cls} (hk : Plain k.ty) : tupleElement k.ty = true := tupleElement_plain hk

theorem match_run {k : Cls} (hk : Plain k.ty) (hc : k.copy = true) {N : Nat} (ops : List UOp) {s : US} {a : Pairs} (hm : Match s a)
    (hl : PLegal k N a ops) : ∃ s', urun k s ops = some s' ∧ Match s' (prun k a ops) := by
  induction ops generalizing s a with
  | nil => exact ⟨s, by simp [urun, tupleElement_ok hk], hm⟩
  | cons op ops ih =>
    obtain ⟨s1, e1, m1⟩ := match_step hk hc hm op hl.1
    obtain ⟨s', e', m'⟩ := ih m1 hl.2
    refine ⟨s', ?_, m'⟩
    simp only [urun, tupleElement_ok hk, e1, e', Option.bind_eq_bind, Option.bind_some]
    rfl

theorem match_init : Match uinit pinit :=
  ⟨fun _ => rfl, fun i p d h => absurd h (by simp [pinit]), rfl, rfl⟩

/-- C99 for `unique_ptr`, part (deleters that can be copied): in every program each `unique_ptr` is a pair of an object and a
deleter; moving, assigning and swapping them moves the pairs, and the end of one calls its deleter with its object. The
source of a move construction keeps its deleter, that of a move assignment is left with what a move leaves. -/
theorem C99_unique_pairs_partial {k : Cls} (hk : Plain k.ty) (hc : k.copy = true) {N : Nat} (ops : List UOp)
    (hl : PLegal k N pinit ops) : ∃ s, urun k uinit ops = some s ∧ Match s (prun k pinit ops) :=
  match_run hk hc ops match_init hl

/-! Objects of the pairs -/

def holds (o : Nat) (v : Option (Nat × Nat)) : Nat := match v with | some e => if e.1 = o then 1 else 0 | none => 0

def heldP (slot : Nat → Option (Nat × Nat)) (o : Nat) : Nat → Nat
  | 0 => 0
  | N + 1 => heldP slot o N + holds o (slot N)

theorem heldP_ge (slot : Nat → Option (Nat × Nat)) (o i N : Nat) (v : Option (Nat × Nat)) (h : N ≤ i) :
    heldP (put slot i v) o N = heldP slot o N := by
  induction N with
  | zero => rfl
  | succ n ih => simp only [heldP]; rw [ih (by omega), put_ne _ _ (by omega)]

theorem heldP_put (slot : Nat → Option (Nat × Nat)) (o i N : Nat) (v : Option (Nat × Nat)) (h : i < N) :
    heldP (put slot i v) o N + holds o (slot i) = heldP slot o N + holds o v := by
  induction N with
  | zero => omega
  | succ n ih =>
    simp only [heldP]
    by_cases e : i = n
    · subst e; rw [heldP_ge _ _ _ _ _ (Nat.le_refl _), put_eq]; omega
    · have := ih (by omega)
      rw [put_ne _ _ (by omega)]; omega

/-- Does the operation hand the object over? -/
def gives (o : Nat) : UOp → Nat
  | .make _ p _ _ => if p = o then 1 else 0
  | .reset _ p => if p = o then 1 else 0
  | _ => 0

def nlogU (log : List (Nat × Nat)) (o : Nat) : Nat := log.countP (fun e => e.2 = o)

theorem nlogU_dispose (log : List (Nat × Nat)) {o : Nat} (ho : o ≠ 0) (e : Nat × Nat) :
    nlogU (log ++ dispose e) o = nlogU log o + holds o (some e) := by
  simp only [nlogU, List.countP_append, dispose, holds]
  by_cases h : e.1 = 0
  · rw [if_pos h, if_neg (by omega)]; rfl
  · rw [if_neg h]
    by_cases h' : e.1 = o <;> simp [h']

def base (N : Nat) (a : Pairs) (o : Nat) : Nat := nlogU a.log o + heldP a.slot o N + a.out.count o

theorem base_step {k : Cls} {N : Nat} {a : Pairs} {o : Nat} (ho : o ≠ 0) (hlt : ∀ i, (a.slot i).isSome = true → i < N) (op : UOp)
    (hl : ULegal k N a op) : base N (pstep k a op) o = base N a o + gives o op ∧
      ∀ i, ((pstep k a op).slot i).isSome = true → i < N := by
  have h0 : ∀ d, holds o (some (0, d)) = 0 := fun d => by simp [holds]; omega
  have lt : ∀ (sl : Nat → Option (Nat × Nat)) i v, (∀ x, (sl x).isSome = true → x < N) → i < N →
      ∀ x, ((put sl i v) x).isSome = true → x < N := by
    intro sl i v h hi x hx
    by_cases e : x = i
    · omega
    · rw [put_ne _ _ e] at hx; exact h x hx
  cases op with
  | make i p d c =>
    have := heldP_put a.slot o i N (some (p, d)) hl.1
    rw [hl.2] at this
    refine ⟨?_, lt _ _ _ hlt hl.1⟩
    simp only [pstep, base, gives]
    simp only [holds] at this
    omega
  | move i j =>
    obtain ⟨hi, hn, hj⟩ := hl
    have hjN := hlt j hj
    obtain ⟨⟨p, d⟩, hj⟩ := some_of_isSome hj
    have hij : i ≠ j := fun e => by subst e; rw [hn] at hj; exact absurd hj (by simp)
    have h1 := heldP_put a.slot o j N (some (0, d)) hjN
    have h2 := heldP_put (put a.slot j (some (0, d))) o i N (some (p, d)) hi
    rw [put_ne _ _ hij, hn] at h2
    rw [hj] at h1
    rw [h0] at h1
    simp only [pstep, hj]
    refine ⟨?_, lt _ _ _ (lt _ _ _ hlt hjN) hi⟩
    simp only [base, gives]
    have : holds o none = 0 := rfl
    omega
  | assign i j =>
    obtain ⟨hi, hj, _⟩ := hl
    have hiN := hlt i hi
    have hjN := hlt j hj
    obtain ⟨e, hi⟩ := some_of_isSome hi
    obtain ⟨⟨p, d⟩, hj⟩ := some_of_isSome hj
    simp only [pstep, hi, hj]
    by_cases hij : i = j
    · rw [if_pos hij]; exact ⟨rfl, hlt⟩
    · rw [if_neg hij]
      refine ⟨?_, lt _ _ _ (lt _ _ _ hlt hjN) hiN⟩
      have h1 := heldP_put a.slot o j N (some (0, if k.move then k.left d else d)) hjN
      have h2 := heldP_put (put a.slot j (some (0, if k.move then k.left d else d))) o i N (some (p, d)) hiN
      rw [put_ne _ _ hij, hi] at h2
      rw [hj, h0] at h1
      simp only [base, gives, nlogU_dispose _ ho]
      omega
  | reset i p =>
    have hiN := hlt i hl
    obtain ⟨e, hi⟩ := some_of_isSome hl
    have h1 := heldP_put a.slot o i N (some (p, e.2)) hiN
    rw [hi] at h1
    simp only [pstep, hi]
    refine ⟨?_, lt _ _ _ hlt hiN⟩
    simp only [base, gives, nlogU_dispose _ ho]
    have : holds o (some (p, e.2)) = if p = o then 1 else 0 := rfl
    omega
  | release i =>
    have hiN := hlt i hl
    obtain ⟨e, hi⟩ := some_of_isSome hl
    have h1 := heldP_put a.slot o i N (some (0, e.2)) hiN
    rw [hi, h0] at h1
    simp only [pstep, hi]
    refine ⟨?_, lt _ _ _ hlt hiN⟩
    have : (a.out ++ [e.1]).count o = a.out.count o + holds o (some e) := by
      rw [List.count_append]
      by_cases h : e.1 = o <;> simp [holds, h]
    simp only [base, gives, this]
    omega
  | swap i j =>
    obtain ⟨hi, hj⟩ := hl
    have hiN := hlt i hi
    have hjN := hlt j hj
    simp only [pstep]
    refine ⟨?_, lt _ _ _ (lt _ _ _ hlt hiN) hjN⟩
    have h1 := heldP_put a.slot o i N (a.slot j) hiN
    have h2 := heldP_put (put a.slot i (a.slot j)) o j N (a.slot i) hjN
    have : put a.slot i (a.slot j) j = a.slot j := by
      by_cases e : j = i
      · subst e; exact put_eq _ _ _
      · exact put_ne _ _ e
    rw [this] at h2
    simp only [base, gives]
    omega
  | destroy i =>
    have hiN := hlt i hl
    obtain ⟨e, hi⟩ := some_of_isSome hl
    have h1 := heldP_put a.slot o i N none hiN
    rw [hi] at h1
    simp only [pstep, hi]
    refine ⟨?_, lt _ _ _ hlt hiN⟩
    simp only [base, gives, nlogU_dispose _ ho]
    have : holds o none = 0 := rfl
    omega

theorem base_run {k : Cls} {N : Nat} (ops : List UOp) {a : Pairs} {o : Nat} (ho : o ≠ 0)
    (hlt : ∀ i, (a.slot i).isSome = true → i < N) (hl : PLegal k N a ops) :
    base N (prun k a ops) o = base N a o + (ops.map (gives o)).sum := by
  induction ops generalizing a with
  | nil => simp [prun]
  | cons op ops ih =>
    obtain ⟨h1, h2⟩ := base_step ho hlt op hl.1
    rw [prun, ih h2 hl.2, h1, List.map_cons, List.sum_cons]; omega

/-- Number of `unique_ptr`s below `N` whose `get()` is `o`. -/
def held (s : US) (o N : Nat) : Nat := (List.range N).countP fun i => s.live i && s.σ (P i) == o

theorem held_eq {s : US} {a : Pairs} (h : Match s a) (o N : Nat) : held s o N = heldP a.slot o N := by
  unfold held
  induction N with
  | zero => rfl
  | succ n ih =>
    rw [List.range_succ, List.countP_append, ih]
    simp only [heldP, List.countP_cons, List.countP_nil, h.live]
    cases hs : a.slot n with
    | none => simp [holds]
    | some e =>
      have := (h.val n e.1 e.2 hs).1
      by_cases he : e.1 = o <;> simp [holds, this, he]

/-- C99 for `unique_ptr`, part (deleters that can be copied): an object is handed over as often as it was given to a deleter,
is held by a `unique_ptr` or was returned by `release`. So one handed over once and not released is held by one `unique_ptr`
until the deleter gets it, once. -/
theorem C99_unique_once_partial {k : Cls} (hk : Plain k.ty) (hc : k.copy = true) {N : Nat} (ops : List UOp)
    (hl : PLegal k N pinit ops) {s : US} (hr : urun k uinit ops = some s) (o : Nat) (ho : o ≠ 0) :
    (ops.map (gives o)).sum = s.log.countP (fun e => e.2 = o) + held s o N + s.out.count o := by
  obtain ⟨s', e, m⟩ := C99_unique_pairs_partial hk hc ops hl
  rw [hr] at e
  injection e with e
  subst e
  have hb := base_run ops (a := pinit) ho (fun i h => absurd h (by simp [pinit])) hl
  have h0 : base N pinit o = 0 := by
    have : ∀ n, heldP pinit.slot o n = 0 := by
      intro n; induction n with
      | zero => rfl
      | succ n ih => simp only [heldP, ih]; rfl
    simp [base, pinit, nlogU] at *
    exact this N
  rw [h0] at hb
  rw [held_eq m, m.log, m.out]
  simp only [base, nlogU] at hb
  omega

/-- Where a pair comes from: both were given together, or the object was given to a `reset`. -/
def Origin (h : List UOp) (p d : Nat) : Prop := (∃ i c, UOp.make i p d c ∈ h) ∨ ∃ i, UOp.reset i p ∈ h

theorem origin_run {k : Cls} (ops : List UOp) {a : Pairs} {h : List UOp}
    (hs : ∀ i p d, a.slot i = some (p, d) → p ≠ 0 → Origin h p d) (hg : ∀ d p, (d, p) ∈ a.log → Origin h p d) :
    ∀ d p, (d, p) ∈ (prun k a ops).log → Origin (h ++ ops) p d := by
  induction ops generalizing a h with
  | nil => simpa [prun] using hg
  | cons op ops ih =>
    have mono : ∀ p d, Origin h p d → Origin (h ++ [op]) p d := fun p d ho =>
      ho.imp (fun ⟨i, c, x⟩ => ⟨i, c, List.mem_append_left _ x⟩) (fun ⟨i, x⟩ => ⟨i, List.mem_append_left _ x⟩)
    have last : op ∈ h ++ [op] := by simp
    have hd : ∀ i e, a.slot i = some e → ∀ d p, (d, p) ∈ a.log ++ dispose e → Origin (h ++ [op]) p d := by
      intro i e hi d p hin
      rw [List.mem_append] at hin
      cases hin with
      | inl hin => exact mono _ _ (hg d p hin)
      | inr hin =>
        unfold dispose at hin
        split at hin
        · exact absurd hin (by simp)
        · rename_i hne
          simp only [List.mem_singleton, Prod.mk.injEq] at hin
          obtain ⟨rfl, rfl⟩ := hin
          exact mono _ _ (hs i e.1 e.2 hi hne)
    have hput : ∀ (sl : Nat → Option (Nat × Nat)) i v, (∀ x p d, sl x = some (p, d) → p ≠ 0 → Origin (h ++ [op]) p d) →
        (∀ p d, v = some (p, d) → p ≠ 0 → Origin (h ++ [op]) p d) →
        ∀ x p d, put sl i v x = some (p, d) → p ≠ 0 → Origin (h ++ [op]) p d := by
      intro sl i v h1 h2 x p d hx hp
      by_cases e : x = i
      · subst e; rw [put_eq] at hx; exact h2 p d hx hp
      · rw [put_ne _ _ e] at hx; exact h1 x p d hx hp
    have hs' : ∀ i p d, a.slot i = some (p, d) → p ≠ 0 → Origin (h ++ [op]) p d := fun i p d h1 h2 => mono _ _ (hs i p d h1 h2)
    have hg' : ∀ d p, (d, p) ∈ a.log → Origin (h ++ [op]) p d := fun d p h1 => mono _ _ (hg d p h1)
    have zero : ∀ d' p d, (some (0, d') : Option (Nat × Nat)) = some (p, d) → p ≠ 0 → Origin (h ++ [op]) p d := by
      intro d' p d he hp
      injection he with he; injection he with h1 h2
      exact absurd h1.symm hp
    have key : (∀ i p d, (pstep k a op).slot i = some (p, d) → p ≠ 0 → Origin (h ++ [op]) p d) ∧
        ∀ d p, (d, p) ∈ (pstep k a op).log → Origin (h ++ [op]) p d := by
      cases op with
      | make i p d c =>
        refine ⟨hput _ _ _ hs' ?_, hg'⟩
        intro p' d' he _
        injection he with he; injection he with h1 h2
        subst h1; subst h2
        exact .inl ⟨i, c, last⟩
      | move i j =>
        simp only [pstep]
        split
        · rename_i p d hj
          refine ⟨hput _ _ _ (hput _ _ _ hs' (zero d)) ?_, hg'⟩
          intro p' d' he hp
          injection he with he; injection he with h1 h2
          subst h1; subst h2
          exact hs' j _ _ hj hp
        · exact ⟨hs', hg'⟩
      | assign i j =>
        simp only [pstep]
        split
        · rename_i e p d hi hj
          split
          · exact ⟨hs', hg'⟩
          · refine ⟨hput _ _ _ (hput _ _ _ hs' (zero _)) ?_, hd i e hi⟩
            intro p' d' he hp
            injection he with he; injection he with h1 h2
            subst h1; subst h2
            exact hs' j _ _ hj hp
        · exact ⟨hs', hg'⟩
      | reset i p =>
        simp only [pstep]
        split
        · rename_i e hi
          refine ⟨hput _ _ _ hs' ?_, hd i e hi⟩
          intro p' d' he _
          injection he with he; injection he with h1 h2
          subst h1
          exact .inr ⟨i, last⟩
        · exact ⟨hs', hg'⟩
      | release i =>
        simp only [pstep]
        split
        · exact ⟨hput _ _ _ hs' (zero _), hg'⟩
        · exact ⟨hs', hg'⟩
      | swap i j =>
        refine ⟨hput _ _ _ (hput _ _ _ hs' ?_) ?_, hg'⟩
        · intro p d hj hp; exact hs' j p d hj hp
        · intro p d hi hp; exact hs' i p d hi hp
      | destroy i =>
        simp only [pstep]
        split
        · rename_i e hi
          exact ⟨hput _ _ _ hs' (fun p d h => absurd h (by simp)), hd i e hi⟩
        · exact ⟨hs', hg'⟩
    have := ih key.1 key.2
    rw [List.append_assoc] at this
    exact this

/-- C99 for `unique_ptr`, part (deleters that can be copied): an object is only ever given to a deleter equal to the one it
was handed over with, unless it was handed over without one, to `reset`. -/
theorem C99_unique_deleter_partial {k : Cls} (hk : Plain k.ty) (hc : k.copy = true) {N : Nat} (ops : List UOp)
    (hl : PLegal k N pinit ops) {s : US} (hr : urun k uinit ops = some s) (d p : Nat) (h : (d, p) ∈ s.log)
    (hreset : ∀ i, UOp.reset i p ∉ ops) : ∃ i c, UOp.make i p d c ∈ ops := by
  obtain ⟨s', e, m⟩ := C99_unique_pairs_partial hk hc ops hl
  rw [hr] at e
  injection e with e
  subst e
  have := origin_run (k := k) ops (a := pinit) (h := []) (fun i p d h => absurd h (by simp [pinit]))
    (fun d p h => absurd h (by simp [pinit])) d p (by rw [← m.log]; exact h)
  rw [List.nil_append] at this
  cases this with
  | inl h => exact h
  | inr h => obtain ⟨i, h⟩ := h; exact absurd h (hreset i)

/-- C99 violated for `unique_ptr`: with a deleter that can be moved but not copied no `unique_ptr` can be made, not even from
an rvalue, and none moved into another. -/
theorem C99_unique_violated_move_only {k : Cls} (hk : Plain k.ty) (hc : k.copy = false) (s : US) (i j p d : Nat) (cat : Cat) :
    ustep k s (.make i p d cat) = none ∧ ustep k s (.move i j) = none := by
  have key : ∀ c src σ, impl2 k i src c σ = none := by
    intro c src σ
    have hp : ∀ t ∈ data k i, Plain t.cls.ty := by
      intro t ht
      simp only [data, List.mem_cons, List.not_mem_nil, or_false] at ht
      rcases ht with rfl | rfl
      · exact plain_ptr
      · exact hk
    have hv : implViable (data k i) [.lvalue, c] = false := by
      have := argFromElement_eq ptrCls plain_ptr .lvalue
      simp [implViable, data, this]
    unfold impl2
    rw [forward_deduce hk c]
    show tuple_make (data k i) [0, src] [.lvalue, c] σ = _
    rw [tuple_make_fallback σ (by simp [data]) hp rfl hv]
    exact each_none (data k i) [0, src] _ σ (⟨k, D i⟩, .clvalue) (by simp [data, List.replicate]) (fun h => by
      cases h with
      | inl h => rw [hc] at h; exact absurd h (by simp)
      | inr h => exact absurd h.1 (by simp))
  constructor
  · cases cat <;> simp [ustep, key, resolve, rank, better]
  · simp [ustep, key]

/-- C99 violated for `unique_ptr`: with a deleter held by reference the class is ill-formed. -/
theorem C99_unique_violated_reference {k : Cls} {t : Cxx.Ty} (hk : k.ty = .lref t) (s : US) (ops : List UOp) :
    urun k s ops = none := by
  cases ops with
  | nil => simp [urun, hk, tupleElement_lref]
  | cons op ops => simp [urun, hk, tupleElement_lref]

/-- Two objects with different deleters; the pointers are swapped, one is moved and one reset. -/
def exOps : List UOp := [.make 0 5 70 .lvalue, .make 1 6 80 .xvalue, .swap 0 1, .move 2 0, .assign 2 1, .reset 2 9, .destroy 2]

example : PLegal copyable 3 pinit exOps := by
  simp [exOps, PLegal, ULegal, pstep, put, pinit]

example : (urun copyable uinit exOps).map (fun s => (s.log, s.out)) = some ([(80, 6), (70, 5), (70, 9)], []) := by
  decide +kernel

example : (exOps.map (gives 5)).sum = 1 ∧ UOp.make 0 5 70 .lvalue ∈ exOps ∧ ∀ i, UOp.reset i 5 ∉ exOps := by
  refine ⟨by decide, by decide, fun i => by simp [exOps]⟩

example : Plain moveOnly.ty ∧ moveOnly.copy = false ∧ moveOnly.move = true := ⟨⟨rfl, rfl, by decide⟩, rfl, rfl⟩

/-! ## `shared_ptr` -/

/-- C99 for `shared_ptr`: the deleter kept with the object has the value of the one given; an lvalue is copied, an rvalue
moved, so deleters that can only be moved will do. -/
theorem C99_shared_deleter_value {k : Cls} (hk : Plain k.ty) (cat : Cat) (σ : Store)
    (hf : k.copy = true ∨ (cat = .xvalue ∧ k.move = true)) :
    ∃ σ', storeDel k cat σ = some σ' ∧ σ' 0 = σ 1 ∧ (cat ≠ .xvalue → σ' 1 = σ 1) := by
  have hres : ∃ f, resolve [⟨.clref, 0, false⟩, ⟨.rref, 0, false⟩] [cat] = some f ∧
      (part f.par = .xvalue ↔ cat = .xvalue) := by
    cases cat <;> exact ⟨_, rfl, by decide⟩
  obtain ⟨f, hres, hp⟩ := hres
  obtain ⟨σ', e, v1, v2, _⟩ := construct_ok (dst := ⟨k, 0⟩) (src := 1) (c := part f.par) σ (by simp)
    (hf.imp_right fun h => ⟨hp.2 h.1, h.2⟩)
  refine ⟨σ', ?_, v1, fun hx => ?_⟩
  · unfold storeDel
    rw [forward_deduce hk cat]
    simp only [Option.bind_eq_bind, Option.bind_some, hres]
    exact e
  · rw [v2, leaves, if_neg (fun h => hx (hp.1 h.1))]

example : (storeDel moveOnly .xvalue fun a => 10 + a).map (fun σ => (σ 0, σ 1)) = some (11, 0) ∧
    storeDel moveOnly .lvalue (fun a => 10 + a) = none := by decide +kernel

open Verif.SmartPtr in
theorem managed_of {N T : Nat} {x : DM} {h} (hr : DReach N T x h) {op : Op} {a : Adopt} {o : Nat} (hin : (op, a) ∈ h)
    (ha : adopts op = some o) : ∃ b, x.m.s.managed b = some o ∧ x.del b = chosen a op := (dinv_reach hr).hist op a o hin ha

open Verif.SmartPtr in
theorem log_of_adopted {N T : Nat} {x : DM} {h} (hr : DReach N T x h) (hq : x.m.pending = []) {op : Op} {a : Adopt} {o : Nat}
    (hin : (op, a) ∈ h) (ha : adopts op = some o) :
    x.log.filter (fun e => e.2 = o) = if num N (sharesO x.m.s o) = 0 then [(chosen a op, o)] else [] := by
  have hd := dinv_reach hr
  obtain ⟨b, hb, hdel⟩ := hd.hist op a o hin ha
  have hre := dreach_reach hr
  have hinv := inv_reach hre
  have hcount : nlog x.log o = x.m.s.deleted.count o := by
    rw [hd.gone b o hb, hq]; simp [gone]
  have hman := hinv.core.man b o hb
  have hu : num N (uniqueO x.m.s o) = 0 := by
    rcases Nat.eq_zero_or_pos (num N (uniqueO x.m.s o)) with e | e
    · exact e
    · obtain ⟨i, _, hq'⟩ := exists_of_num e
      exact absurd hb (hinv.val.un i o b (uniqueO_iff.1 hq'))
  rw [C41_deleted_exactly_when_unowned hre hq o] at hcount
  have hall : ∀ e ∈ x.log.filter (fun e => e.2 = o), e = (chosen a op, o) := by
    rintro ⟨d, q⟩ he
    simp only [List.mem_filter, decide_eq_true_eq] at he
    obtain ⟨he, rfl⟩ := he
    obtain ⟨b', hb', hd'⟩ := hd.log d q he
    have : b' = b := hinv.core.inj b' b q hb' hb
    rw [← hd', this, hdel]
  have hlen : (x.log.filter (fun e => e.2 = o)).length = nlog x.log o := by
    rw [nlog, List.countP_eq_length_filter]
  rw [hcount] at hlen
  have hrep := (List.eq_replicate_iff.2 ⟨rfl, hall⟩)
  by_cases h0 : num N (sharesO x.m.s o) = 0
  · rw [if_pos ⟨hman.2.1, hman.1, hu, h0⟩] at hlen
    rw [if_pos h0, hrep, hlen]; rfl
  · rw [if_neg (fun h => h0 h.2.2.2)] at hlen
    rw [if_neg h0, hrep, hlen]; rfl

/-- What the user asked for: the deleter given, or `delete` as the type given. -/
def wanted (a : Adopt) : Del := match a.deleter with | some v => .user v | none => .dflt a.U

open Verif.SmartPtr in
/-- C99 for `shared_ptr`, part (all but `reset(p)` without deleter for a `p` of a derived type): whatever any number of threads do
with their pointers, when no call is unfinished an object handed over was given to a deleter once if no `shared_ptr` owns it,
and that is the deleter asked for; otherwise to none. -/
theorem C99_shared_partial {N T : Nat} {x : DM} {h} (hr : DReach N T x h) (hq : x.m.pending = []) {op : Op} {a : Adopt} {o : Nat}
    (hin : (op, a) ∈ h) (ha : adopts op = some o) (hok : (∀ i p, op ≠ .sResetTo i p) ∨ a.deleter ≠ none ∨ a.T = a.U) :
    x.log.filter (fun e => e.2 = o) = if num N (sharesO x.m.s o) = 0 then [(wanted a, o)] else [] := by
  rw [log_of_adopted hr hq hin ha]
  have : chosen a op = wanted a := by
    unfold wanted
    cases op <;> simp [adopts] at ha
    case sNew i p wt => rfl
    case sResetTo i p =>
      simp only [chosen, resetDel]
      cases hdl : a.deleter with
      | some v => rfl
      | none =>
        rcases hok with h | h | h
        · exact absurd rfl (h i p)
        · exact absurd hdl h
        · rw [h]
  rw [this]

open Verif.SmartPtr in
/-- C99 for `shared_ptr`, also while calls are unfinished: no deleter gets an object twice, or an object handed over with another
deleter. -/
theorem C99_shared_always_partial {N T : Nat} {x : DM} {h} (hr : DReach N T x h) {op : Op} {a : Adopt} {o : Nat} {d : Del}
    (hin : (op, a) ∈ h) (ha : adopts op = some o) (hok : (∀ i p, op ≠ .sResetTo i p) ∨ a.deleter ≠ none ∨ a.T = a.U)
    (hl : (d, o) ∈ x.log) : d = wanted a ∧ x.log.countP (fun e => e.2 = o) = 1 := by
  have hd := dinv_reach hr
  have hinv := inv_reach (dreach_reach hr)
  obtain ⟨b, hb, hdel⟩ := hd.hist op a o hin ha
  obtain ⟨b', hb', hd'⟩ := hd.log d o hl
  have e : b' = b := hinv.core.inj b' b o hb' hb
  subst e
  constructor
  · rw [← hd', hdel]
    unfold wanted
    cases op <;> simp [adopts] at ha
    case sNew i p wt => rfl
    case sResetTo i p =>
      simp only [chosen, resetDel]
      cases hdl : a.deleter with
      | some v => rfl
      | none =>
        rcases hok with h | h | h
        · exact absurd rfl (h i p)
        · exact absurd hdl h
        · rw [h]
  · have hg := hd.gone b' o hb
    have hpos : 0 < nlog x.log o := by
      rw [nlog, List.countP_pos_iff]
      exact ⟨(d, o), hl, by simp⟩
    have hle : gone x.m.s x.m.pending o ≤ 1 := by
      have h1 := hinv.core.del1 o
      have h2 : x.m.pending.count (.del o) ≤ K N x.m.s.slot x.m.pending (.del o) := count_le_K _ _ _ _
      have h3 := hinv.core.deleted o
      unfold gone
      rw [h3]
      split
      · rename_i hc
        have : ¬ 0 < K N x.m.s.slot x.m.pending (.del o) := fun hk => by
          have := (hinv.core.live o).1 (.inr (.inl hk))
          rw [hc.2] at this; exact absurd this (by simp)
        omega
      · omega
    have : x.log.countP (fun e => e.2 = o) = nlog x.log o := rfl
    omega

open Verif.SmartPtr in
/-- C99 violated for `shared_ptr`: an object of type `U` handed to `reset` of a `shared_ptr<T>` without deleter is deleted as a
`T` when its last owner goes, not as a `U` as by the constructor: undefined unless `T` has a virtual destructor. -/
theorem C99_shared_violated_reset {N T : Nat} {x : DM} {h} (hr : DReach N T x h) (hq : x.m.pending = []) {i : Nat}
    {a : Adopt} {o : Nat} (hin : (.sResetTo i (some o), a) ∈ h) (hdl : a.deleter = none) (hTU : a.T ≠ a.U)
    (h0 : num N (sharesO x.m.s o) = 0) :
    x.log.filter (fun e => e.2 = o) = [(.dflt a.T, o)] ∧ wanted a ≠ .dflt a.T := by
  rw [log_of_adopted hr hq hin rfl, if_pos h0]
  refine ⟨by simp [chosen, resetDel, hdl], ?_⟩
  simp only [wanted, hdl]
  intro e
  injection e with e
  exact hTU e.symm

open Verif.SmartPtr in
/-- A `shared_ptr<T>` is reset to an object with a deleter of value 7 or without one and reset again. -/
theorem exShared (a : Adopt) : ∃ x h, DReach 2 1 x h ∧ x.m.pending = [] ∧ (.sResetTo 0 (some 0), a) ∈ h ∧
    num 2 (sharesO x.m.s 0) = 0 ∧ x.log = [(resetDel a, 0)] := by
  have f : ∀ l : List (List Work), l.flatten.length < 10 → SmartPtr.Fits 2 l.flatten := fun l h => by
    unfold SmartPtr.Fits; omega
  refine ⟨_, _, .step (.step (.step (.step (.step (.step (.step (.step (.step (.start fun _ => .user 0)
    (.op (t := 0) (f := 0) (o := .newObj []) a ?_ rfl ?_ rfl))
    (.op (t := 0) (f := 0) (o := .sNull 0) a ?_ rfl ?_ rfl))
    (.op (t := 0) (f := 0) (o := .sResetTo 0 (some 0)) a ?_ rfl ?_ rfl))
    (.work (t := 0) ?_ rfl rfl))
    (.op (t := 0) (f := 0) (o := .sReset 0) a ?_ rfl ?_ rfl))
    (.work (t := 0) ?_ rfl rfl))
    (.work (t := 0) ?_ rfl rfl))
    (.work (t := 0) ?_ rfl rfl))
    (.work (t := 0) ?_ rfl rfl), rfl, ?_, ?_, rfl⟩
  · exact f _ (by decide)
  · exact ⟨by simp, by intro m hm; simp at hm⟩
  · exact f _ (by decide)
  · exact ⟨by decide, rfl⟩
  · exact f _ (by decide)
  · refine ⟨⟨⟨_, _, rfl⟩, idle_nil _⟩, by intro o e; cases e; rfl, ?_⟩
    intro o ms ho
    match o with
    | 0 => cases ho; simp
    | o + 1 => exact absurd ho (by simp [upd, setSlot, init])
  · exact f _ (by decide)
  · exact f _ (by decide)
  · exact ⟨⟨_, _, rfl⟩, idle_nil _⟩
  · exact f _ (by decide)
  · exact f _ (by decide)
  · exact f _ (by decide)
  · exact f _ (by decide)
  · simp
  · rfl

example : ∃ x h, DReach 2 1 x h ∧ x.log.filter (fun e => e.2 = 0) = [(.user 7, 0)] := by
  obtain ⟨x, h, hr, hq, hin, h0, _⟩ := exShared ⟨1, 2, some 7⟩
  exact ⟨x, h, hr, (C99_shared_partial hr hq hin rfl (.inr (.inl (by simp)))).trans (by rw [if_pos h0]; rfl)⟩

example : ∃ x h, DReach 2 1 x h ∧ x.log.filter (fun e => e.2 = 0) = [(.dflt 1, 0)] ∧ wanted ⟨1, 2, none⟩ = .dflt 2 := by
  obtain ⟨x, h, hr, hq, hin, h0, _⟩ := exShared ⟨1, 2, none⟩
  exact ⟨x, h, hr, (C99_shared_violated_reset hr hq hin rfl (by decide) h0).1, rfl⟩

example : ∃ x h, DReach 2 1 x h ∧ x.log.countP (fun e => e.2 = 0) = 1 := by
  obtain ⟨x, h, hr, hq, hin, h0, hl⟩ := exShared ⟨1, 1, none⟩
  exact ⟨x, h, hr, (C99_shared_always_partial (d := .dflt 1) hr hin rfl (.inr (.inr rfl)) (by rw [hl]; simp [resetDel])).2⟩

end Verif.Deleter
