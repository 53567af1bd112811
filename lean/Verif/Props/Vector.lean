import Verif.Lemmas.VectorRef

/-!
Properties C16 - C19: `estl::vector`.

`Op` programs are client programs over any number of named vectors sharing one
heap. `Spec.Vector.run` says what such a program means when vectors are plain
sequences; it is `none` when an operation is used outside its precondition
(index out of range, name not alive, pop from an empty vector, ...).
-/

set_option backward.isDefEq.respectTransparency false

namespace Verif.Vector
open Verif Verif.OH

variable {α : Type}

/-- An element type for examples. -/
def exElem : Elem Nat := ⟨0, true⟩

/-- A program for examples: growth, front insertion, erasure, copy, assignment. -/
def exOps : List (Op Nat) :=
  [.ctor 0, .pushBack 0 1, .pushBack 0 2, .pushFront 0 3, .insert 0 1 4, .ctorCopy 1 0, .erase 0 2,
   .eraseRange 1 0 2, .resize 1 4, .ctorList 2 [8, 9], .assignMove 0 2, .swap 1 0, .reserve 1 10]

/-! ### C16 -/

/-- Every program whose operations are within their preconditions runs without
undefined behaviour (in particular without touching memory outside live storage or
raw storage), and afterwards each vector has exactly the elements of the
corresponding sequence. -/
theorem C16_sequence (E : Elem α) (ops : List (Op α)) (e : Spec.Vector.Env α)
    (hs : Spec.Vector.run E.dflt E.selfMoveOk (fun _ => none) ops = some e) :
    ∃ s, run E St.init ops = .ok s ∧
      ∀ x, match e x with
        | none => s.vars x = none
        | some l => ∃ v, s.vars x = some v ∧ v.size = l.length ∧
            ∀ i (h : i < l.length), get s.heap v i = .ok (some l[i]) := by
  obtain ⟨s, h1, i⟩ := run_ok E (z := true) ops (Inv.init true) (by simp) hs
  refine ⟨s, h1, fun x => ?_⟩
  cases hx : e x with
  | none => exact i.getNone hx
  | some l =>
    obtain ⟨v, hv, hr⟩ := i.get hx
    exact ⟨v, hv, hr.1, fun j hj => get_spec hr hj⟩

example : (Spec.Vector.run 0 true (fun _ => none) exOps).map (fun e => (e 0, e 1, e 2, e 3)) =
    some (some [1, 2, 0, 0], some [8, 9], some [], none) := by decide

/-- `operator==` decides equality of the sequences. -/
theorem C16_equality [DecidableEq α] (E : Elem α) (ops : List (Op α)) (e : Spec.Vector.Env α)
    (hs : Spec.Vector.run E.dflt E.selfMoveOk (fun _ => none) ops = some e) (s : St α)
    (hr : run E St.init ops = .ok s) (x y : Nat) (v w : Vec) (k l : List α)
    (hv : s.vars x = some v) (hw : s.vars y = some w) (hk : e x = some k) (hl : e y = some l) :
    eq s.heap v w = .ok (decide (k = l)) := by
  obtain ⟨s', h1, i⟩ := run_ok E (z := true) ops (Inv.init true) (by simp) hs
  rw [hr] at h1; cases h1
  obtain ⟨v', hv', hrv⟩ := i.get hk
  obtain ⟨w', hw', hrw⟩ := i.get hl
  rw [hv] at hv'; rw [hw] at hw'
  cases hv'; cases hw'
  exact eq_spec hrv hrw

/-- `erase` returns the position of the element after the erased ones. -/
theorem C16_erase_position (E : Elem α) (ops : List (Op α)) (e : Spec.Vector.Env α)
    (hs : Spec.Vector.run E.dflt E.selfMoveOk (fun _ => none) ops = some e) (s : St α)
    (hr : run E St.init ops = .ok s) (x : Nat) (v : Vec) (l : List α) (hv : s.vars x = some v)
    (hl : e x = some l) (i j : Nat) (hij : i < j) (hj : j ≤ l.length) :
    (∃ h' v', erase E s.heap v i = .ok (h', v', i)) ∧
      ∃ h' v', eraseRange E s.heap v i j = .ok (h', v', i) := by
  obtain ⟨s', h1, inv⟩ := run_ok E (z := true) ops (Inv.init true) (by simp) hs
  rw [hr] at h1; cases h1
  obtain ⟨v', hv', hrv⟩ := inv.get hl
  rw [hv] at hv'; cases hv'
  obtain ⟨h2, v2, e2, _⟩ := erase_spec E inv.fresh hrv (idx := i) (by omega)
  obtain ⟨h3, v3, e3, _⟩ := eraseRange_spec E inv.fresh hrv (des := i) (src := j) (by omega) hj
    (Or.inr (Or.inl hij))
  exact ⟨⟨h2, v2, e2⟩, ⟨h3, v3, e3⟩⟩

/-! ### C17 -/

/-- `size() <= capacity()` after every program. -/
theorem C17_size_le_capacity (E : Elem α) (ops : List (Op α)) (e : Spec.Vector.Env α)
    (hs : Spec.Vector.run E.dflt E.selfMoveOk (fun _ => none) ops = some e) (s : St α)
    (hr : run E St.init ops = .ok s) (x : Nat) (v : Vec) (hv : s.vars x = some v) :
    v.size ≤ v.capacity := by
  obtain ⟨s', h1, i⟩ := run_ok E (z := true) ops (Inv.init true) (by simp) hs
  rw [hr] at h1; cases h1
  have := i.rep x
  rw [hv] at this
  cases hx : e x with
  | none => rw [hx] at this; exact this.elim
  | some l => rw [hx] at this; exact Nat.le_trans (Nat.le_of_eq this.1) this.2.1

/-- `reserve(n)` makes the capacity at least `n`; it does nothing if it is already. -/
theorem C17_reserve (E : Elem α) (ops : List (Op α)) (e : Spec.Vector.Env α)
    (hs : Spec.Vector.run E.dflt E.selfMoveOk (fun _ => none) ops = some e) (s : St α)
    (hr : run E St.init ops = .ok s) (x n : Nat) (v : Vec) (hv : s.vars x = some v) :
    ∃ s' v', step E s (.reserve x n) = .ok s' ∧ s'.vars x = some v' ∧ n ≤ v'.capacity ∧
      v'.size = v.size ∧ (n ≤ v.capacity → v' = v ∧ s'.heap = s.heap) := by
  obtain ⟨s', h1, i⟩ := run_ok E (z := true) ops (Inv.init true) (by simp) hs
  rw [hr] at h1; cases h1
  have := i.rep x
  rw [hv] at this
  cases hx : e x with
  | none => rw [hx] at this; exact this.elim
  | some l =>
    rw [hx] at this
    obtain ⟨h1, v1, e1, t, hc, hsame, _⟩ := ensureCapacity_spec i.fresh this n
    refine ⟨⟨h1, setVar s.vars x (some v1)⟩, v1, ?_, by simp [setVar], hc, ?_, hsame⟩
    · simp only [step, var_some hv, Res.ok_bind, upd1, reserve, e1]
    · exact t.rep.1.trans this.1.symm

/-- The operations that change one vector in place, with its name. -/
def Op.target : Op α → Option Nat
  | .pushBack x _ | .pushFront x _ | .insert x _ _ | .emplace x _ _ | .erase x _ | .eraseRange x _ _
  | .popBack x | .popFront x | .resize x _ | .clear x | .put x _ _ => some x
  | _ => none

/-- As long as the new size does not exceed the old capacity, none of these
operations reallocates: the storage and capacity stay the same. -/
theorem C17_no_reallocation (E : Elem α) (ops : List (Op α)) (op : Op α) (e e' : Spec.Vector.Env α)
    (hs : Spec.Vector.run E.dflt E.selfMoveOk (fun _ => none) ops = some e)
    (hs' : Spec.Vector.step E.dflt E.selfMoveOk e op = some e') (s s' : St α)
    (hr : run E St.init ops = .ok s) (hr' : step E s op = .ok s') (x : Nat)
    (hx : op.target = some x) (v v' : Vec) (hv : s.vars x = some v) (hv' : s'.vars x = some v')
    (hsize : v'.size ≤ v.capacity) : v'.start = v.start ∧ v'.capacity = v.capacity := by
  obtain ⟨s0, h1, i⟩ := run_ok E (z := true) ops (Inv.init true) (by simp) hs
  rw [hr] at h1; cases h1
  have key : ∀ (r : Res (Heap α × Vec)) (l : List α) (h1 : Heap α) (v1 : Vec) (l' : List α)
      (P : Prop), r = .ok (h1, v1) → Rep true s.heap v l → Trans true s.heap v h1 v1 l' →
      upd1 s x r = .ok s' → (P → v1.start = v.start ∧ v1.endS = v.endS) →
      (l'.length ≤ v.endS → P) → v'.start = v.start ∧ v'.capacity = v.capacity := by
    intro r l h1 v1 l' P e1 hr t eu hk hp
    simp only [upd1, e1, Res.ok_bind] at eu
    cases eu
    simp only [setVar, if_true] at hv'
    cases hv'
    exact hk (hp (by rw [← t.rep.1]; exact hsize))
  cases op with
  | pushBack y a =>
    cases hx
    obtain ⟨l, hl, _, _⟩ := modify_eq hs'
    obtain ⟨w, hw, hrep⟩ := i.get hl
    rw [hv] at hw; cases hw
    obtain ⟨h1, v1, e1, t, hk, _⟩ := pushBack_spec i.fresh hrep (.ext a) a (fun _ _ _ => rfl)
    simp only [step, var_some hv, Res.ok_bind] at hr'
    exact key _ l h1 v1 _ _ e1 hrep t hr' hk (by simp)
  | pushFront y a =>
    cases hx
    obtain ⟨l, hl, _, _⟩ := modify_eq hs'
    obtain ⟨w, hw, hrep⟩ := i.get hl
    rw [hv] at hw; cases hw
    obtain ⟨h1, v1, e1, t, hk⟩ := insert_spec E i.fresh hrep 0 (by omega) a
    simp only [step, var_some hv, Res.ok_bind] at hr'
    exact key _ l h1 v1 _ _ e1 hrep t hr' hk (by simp)
  | insert y j a =>
    cases hx
    obtain ⟨l, hl, hp, _⟩ := modify_eq hs'
    simp only [decide_eq_true_eq] at hp
    obtain ⟨w, hw, hrep⟩ := i.get hl
    rw [hv] at hw; cases hw
    obtain ⟨h1, v1, e1, t, hk⟩ := insert_spec E i.fresh hrep j hp a
    simp only [step, var_some hv, Res.ok_bind] at hr'
    exact key _ l h1 v1 _ _ e1 hrep t hr' hk (by simp; omega)
  | emplace y j a =>
    cases hx
    obtain ⟨l, hl, hp, _⟩ := modify_eq hs'
    simp only [decide_eq_true_eq] at hp
    obtain ⟨w, hw, hrep⟩ := i.get hl
    rw [hv] at hw; cases hw
    obtain ⟨h1, v1, e1, t, hk⟩ := emplace_spec E i.fresh hrep j hp a
    simp only [step, var_some hv, Res.ok_bind] at hr'
    exact key _ l h1 v1 _ _ e1 hrep t hr' hk (by simp; omega)
  | erase y j =>
    cases hx
    obtain ⟨l, hl, hp, _⟩ := modify_eq hs'
    simp only [decide_eq_true_eq] at hp
    obtain ⟨w, hw, hrep⟩ := i.get hl
    rw [hv] at hw; cases hw
    obtain ⟨h1, v1, e1, t, hk⟩ := erase_spec E i.fresh hrep hp
    simp only [step, var_some hv, Res.ok_bind, e1] at hr'
    exact key (.ok (h1, v1)) l h1 v1 _ True rfl hrep t hr' (fun _ => hk) (by simp)
  | eraseRange y j k =>
    cases hx
    obtain ⟨l, hl, hp, _⟩ := modify_eq hs'
    simp only [decide_eq_true_eq] at hp
    obtain ⟨w, hw, hrep⟩ := i.get hl
    rw [hv] at hw; cases hw
    obtain ⟨h1, v1, e1, t, hk⟩ := eraseRange_spec E i.fresh hrep hp.1 hp.2.1 hp.2.2
    simp only [step, var_some hv, Res.ok_bind, e1] at hr'
    exact key (.ok (h1, v1)) l h1 v1 _ True rfl hrep t hr' (fun _ => hk) (by simp)
  | popBack y =>
    cases hx
    obtain ⟨l, hl, hp, _⟩ := modify_eq hs'
    simp only [decide_eq_true_eq] at hp
    obtain ⟨w, hw, hrep⟩ := i.get hl
    rw [hv] at hw; cases hw
    obtain ⟨h1, v1, e1, t, hk⟩ := popBack_spec E i.fresh hrep hp
    simp only [step, var_some hv, Res.ok_bind] at hr'
    exact key _ l h1 v1 _ True e1 hrep t hr' (fun _ => hk) (by simp)
  | popFront y =>
    cases hx
    obtain ⟨l, hl, hp, _⟩ := modify_eq hs'
    simp only [decide_eq_true_eq] at hp
    obtain ⟨w, hw, hrep⟩ := i.get hl
    rw [hv] at hw; cases hw
    obtain ⟨h1, v1, e1, t, hk⟩ := popFront_spec E i.fresh hrep hp
    simp only [step, var_some hv, Res.ok_bind] at hr'
    exact key _ l h1 v1 _ True e1 hrep t hr' (fun _ => hk) (by simp)
  | resize y n =>
    cases hx
    obtain ⟨l, hl, _, _⟩ := modify_eq hs'
    obtain ⟨w, hw, hrep⟩ := i.get hl
    rw [hv] at hw; cases hw
    obtain ⟨h1, v1, e1, t, hk⟩ := resize_spec E i.fresh hrep n
    simp only [step, var_some hv, Res.ok_bind] at hr'
    exact key _ l h1 v1 _ _ e1 hrep t hr' hk (by simp; omega)
  | clear y =>
    cases hx
    obtain ⟨l, hl, _, _⟩ := modify_eq hs'
    obtain ⟨w, hw, hrep⟩ := i.get hl
    rw [hv] at hw; cases hw
    obtain ⟨h1, v1, e1, t, hk⟩ := clear_spec i.fresh hrep
    simp only [step, var_some hv, Res.ok_bind] at hr'
    exact key _ l h1 v1 _ True e1 hrep t hr' (fun _ => hk) (by simp)
  | put y j a =>
    cases hx
    simp only [step, var_some hv, Res.ok_bind, Res.bind_eq_ok] at hr'
    obtain ⟨h1, _, e2⟩ := hr'
    cases e2
    rw [hv] at hv'; cases hv'
    exact ⟨rfl, rfl⟩
  | _ => cases hx

/-- Growth: if appending the elements `xs` one by one to a vector that was made by
any program allocates `k` blocks, then the capacity has grown at least by the factor
`2^k` and (if `k > 0`) is less than twice the size. -/
theorem C17_growth (E : Elem α) (ops : List (Op α)) (e : Spec.Vector.Env α)
    (hs : Spec.Vector.run E.dflt E.selfMoveOk (fun _ => none) ops = some e) (s : St α)
    (hr : run E St.init ops = .ok s) (x : Nat) (v : Vec) (hv : s.vars x = some v) (xs : List α) :
    ∃ h' v' k, pushAll s.heap v xs = .ok (h', v') ∧ h'.next = s.heap.next + k ∧
      v'.size = v.size + xs.length ∧ 2 ^ k * v.capacity ≤ v'.capacity ∧
      (0 < k → v'.capacity < 2 * v'.size) := by
  obtain ⟨s', h1, i⟩ := run_ok E (z := true) ops (Inv.init true) (by simp) hs
  rw [hr] at h1; cases h1
  have := i.rep x
  rw [hv] at this
  cases hx : e x with
  | none => rw [hx] at this; exact this.elim
  | some l =>
    rw [hx] at this
    obtain ⟨h', v', k, e1, r1, n1, a1, a2, a3⟩ := pushAll_grow xs i.fresh this
    have hsz : v'.size = l.length + xs.length := by have := r1.1; simpa [Vec.size] using this
    have hsz0 : v.size = l.length := this.1
    refine ⟨h', v', k, e1, n1, by omega, a1, fun hk => ?_⟩
    have := a2 hk
    show v'.endS < 2 * v'.size
    omega

/-- Starting from an empty vector, `n` calls of `push_back` allocate `k` blocks with
`2^(k-2) < n`, i.e. at most `log2 n + 2`. -/
theorem C17_logarithmic (xs : List α) :
    ∃ h' v' k, pushAll Heap.empty Vec.null xs = .ok (h', v') ∧
      h'.next = (Heap.empty : Heap α).next + k ∧ v'.size = xs.length ∧
      (2 ≤ k → 2 ^ (k - 2) < xs.length) := by
  obtain ⟨h', v', k, e1, r1, n1, a1, a2, a3⟩ := pushAll_grow (z := true) xs
    (h := (Heap.empty : Heap α)) (fun _ _ => rfl) (rep_null true _)
  refine ⟨h', v', k, e1, n1, by have := r1.1; simpa [Vec.size] using this, fun hk => ?_⟩
  have b1 := a2 (by omega)
  have b2 := a3 (by omega)
  obtain ⟨m, rfl⟩ : ∃ m, k = m + 2 := ⟨k - 2, by omega⟩
  have : 2 ^ (m + 2 - 1) = 2 * 2 ^ m := by
    rw [show m + 2 - 1 = m + 1 by omega, Nat.pow_succ]; omega
  simp only [List.length_nil, Nat.zero_add] at b1
  show 2 ^ m < _
  omega

example : (pushAll Heap.empty Vec.null [1, 2, 3, 4, 5]).bind (fun s => .ok (s.1.next, s.2)) =
    .ok (4, ⟨some 3, 5, 8⟩) := by decide

/-! ### C18

In the model every lifetime error is the outcome `ub`: constructing over a live
object, reading, assigning or destroying raw storage, releasing a block twice or
while objects live in it. So `run … = .ok _` says that none of these happens. -/

/-- Missing part: constructing a vector with zero elements through `vector(size)`,
`vector(size, v)` or an empty initializer list allocates an empty block that is
never released (see `C18_violated`). For all programs without these: at every point
the allocated blocks are exactly the storage of live vectors, each owned by exactly
one, and once all vectors are destroyed nothing remains. -/
theorem C18_lifetimes_partial (E : Elem α) (ops : List (Op α)) (e : Spec.Vector.Env α)
    (hs : Spec.Vector.run E.dflt E.selfMoveOk (fun _ => none) ops = some e)
    (hz : ∀ op ∈ ops, zeroCtor op = false) :
    ∃ s, run E St.init ops = .ok s ∧
      (∀ b, s.heap.blocks b ≠ none ↔ ∃ x v, s.vars x = some v ∧ v.start = some b) ∧
      (∀ x y v w b, s.vars x = some v → s.vars y = some w → v.start = some b → w.start = some b → x = y) ∧
      ((∀ x, e x = none) → ∀ b, s.heap.blocks b = none) := by
  obtain ⟨s, h1, i⟩ := run_ok E (z := false) ops (Inv.init false) (fun _ => hz) hs
  have hfor : ∀ b, s.heap.blocks b ≠ none → ∃ x v, s.vars x = some v ∧ v.start = some b := by
    intro b hb
    cases hB : s.heap.blocks b with
    | none => exact absurd hB hb
    | some B =>
      rcases i.noleak b B hB with a | ⟨a, _⟩
      · exact a
      · cases a
  refine ⟨s, h1, fun b => ⟨hfor b, ?_⟩, i.disj, ?_⟩
  · rintro ⟨x, v, hv, hb⟩
    have := i.rep x
    rw [hv] at this
    cases hx : e x with
    | none => rw [hx] at this; exact this.elim
    | some l => rw [hx] at this; exact this.alive hb
  · intro hall b
    cases hB : s.heap.blocks b with
    | none => rfl
    | some B =>
      obtain ⟨x, v, hv, _⟩ := hfor b (by rw [hB]; simp)
      rw [i.getNone (hall x)] at hv; cases hv

example : ∀ op ∈ exOps, zeroCtor op = false := by decide

/-- In all programs: whatever remains allocated without an owner has no room for elements. -/
theorem C18_only_empty_blocks_leak (E : Elem α) (ops : List (Op α)) (e : Spec.Vector.Env α)
    (hs : Spec.Vector.run E.dflt E.selfMoveOk (fun _ => none) ops = some e) :
    ∃ s, run E St.init ops = .ok s ∧
      ∀ b B, s.heap.blocks b = some B → (∀ x v, s.vars x = some v → v.start ≠ some b) → B.cap = 0 := by
  obtain ⟨s, h1, i⟩ := run_ok E (z := true) ops (Inv.init true) (by simp) hs
  refine ⟨s, h1, fun b B hB hno => ?_⟩
  rcases i.noleak b B hB with ⟨x, v, hv, hb⟩ | ⟨_, a⟩
  · exact absurd hb (hno x v hv)
  · exact a

/-- `{ vector<T> v(0); }` leaks a block. -/
theorem C18_violated (E : Elem α) (a : α) :
    ∃ ops e s, Spec.Vector.run E.dflt E.selfMoveOk (fun _ => none) ops = some e ∧ (∀ x, e x = none) ∧
      run E St.init ops = .ok s ∧ ∃ b, s.heap.blocks b ≠ none := by
  refine ⟨[.ctorFill 0 0 a, .dtor 0], _, _, rfl, ?_, rfl, 0, ?_⟩
  · intro x
    simp only [Spec.Vector.set]
    split <;> rfl
  · simp [alloc, Heap.empty, St.init]

/-! ### C19 -/

/-- Missing part: the claim fails when the vector has to grow
(`C19_full_violated`) and when the referenced element is at or behind the insertion
position (`C19_shift_violated`). It holds for `push_back(v[i])` with spare capacity
and for `insert(begin() + p, v[i])` with spare capacity and `i < p`. -/
theorem C19_own_element_partial (E : Elem α) (ops : List (Op α)) (e : Spec.Vector.Env α)
    (hs : Spec.Vector.run E.dflt E.selfMoveOk (fun _ => none) ops = some e) (s : St α)
    (hr : run E St.init ops = .ok s) (x : Nat) (v : Vec) (l : List α) (hv : s.vars x = some v)
    (hl : e x = some l) (hroom : v.size < v.capacity) (i p : Nat) (hip : i < p) (hp : p ≤ l.length) :
    (∃ h' v', pushBack s.heap v (.elem v.start i) = .ok (h', v') ∧ v'.size = l.length + 1 ∧
      (∀ j, j < l.length → get h' v' j = .ok l[j]?) ∧ get h' v' l.length = .ok l[i]?) ∧
    (∃ h' v', insert E s.heap v p (.elem v.start i) = .ok (h', v') ∧ v'.size = l.length + 1 ∧
      (∀ j, j < p → get h' v' j = .ok l[j]?) ∧ get h' v' p = .ok l[i]? ∧
      (∀ j, p ≤ j → j < l.length → get h' v' (j + 1) = .ok l[j]?)) := by
  obtain ⟨s', h1, inv⟩ := run_ok E (z := true) ops (Inv.init true) (by simp) hs
  rw [hr] at h1; cases h1
  obtain ⟨v', hv', hrep⟩ := inv.get hl
  rw [hv] at hv'; cases hv'
  have hsz : v.size = l.length := hrep.1
  have hroom' : l.length < v.endS := by rw [← hsz]; exact hroom
  constructor
  · obtain ⟨h2, v2, e2, t2, _⟩ := pushBack_spec inv.fresh hrep (.elem v.start i) l[i] (by
      intro h1 v1 e1
      obtain ⟨h1', v1', b, e, t, hb, hf, hc, ho, hsame, hgr⟩ := grown inv.fresh hrep
      rw [e] at e1; cases e1
      obtain ⟨rfl, rfl⟩ := hsame (by omega)
      exact get_spec hrep (by omega))
    refine ⟨h2, v2, e2, by have := t2.rep.1; simpa [Vec.size] using this, ?_, ?_⟩
    · intro j hj
      rw [get_spec t2.rep (i := j) (by simp; omega), List.getElem_append_left hj]
      simp [hj]
    · rw [get_spec t2.rep (i := l.length) (by simp)]
      simp [show i < l.length by omega]
  · obtain ⟨h2, v2, e2, hs2, hg⟩ := insert_room E inv.fresh hrep hroom' (i := i) (idx := p) (by omega) hp
    refine ⟨h2, v2, e2, hs2, ?_, ?_, ?_⟩
    · intro j hj; rw [hg j (by omega), if_pos hj]
    · rw [hg p (by omega), if_neg (by omega), if_pos rfl, if_pos hip]
    · intro j h1 h2
      rw [hg (j + 1) (by omega), if_neg (by omega), if_neg (by omega)]; rfl

/-- The hypotheses are met by `[1, 2, 3]` with capacity 4. -/
example : (run exElem St.init [.ctor 0, .pushBack 0 1, .pushBack 0 2, .pushBack 0 3]).bind
    (fun s => .ok (s.vars 0)) = .ok (some ⟨some 2, 3, 4⟩) := by decide

/-- When the vector is full (after any program), `push_back(v[i])`,
`insert(begin() + p, v[i])` and `push_front(v[i])` are undefined for every element
`i`: the old storage is released before the argument is read. -/
theorem C19_full_violated (E : Elem α) (ops : List (Op α)) (e : Spec.Vector.Env α)
    (hs : Spec.Vector.run E.dflt E.selfMoveOk (fun _ => none) ops = some e) (s : St α)
    (hr : run E St.init ops = .ok s) (x : Nat) (v : Vec) (hv : s.vars x = some v)
    (hfull : v.size = v.capacity) (i p : Nat) (hi : i < v.size) (hp : p ≤ v.size) :
    pushBack s.heap v (.elem v.start i) = .ub ∧ insert E s.heap v p (.elem v.start i) = .ub ∧
      pushFront E s.heap v (.elem v.start i) = .ub := by
  obtain ⟨s', h1, inv⟩ := run_ok E (z := true) ops (Inv.init true) (by simp) hs
  rw [hr] at h1; cases h1
  have hrep := inv.rep x
  rw [hv] at hrep
  cases hx : e x with
  | none => rw [hx] at hrep; exact hrep.elim
  | some l =>
    rw [hx] at hrep
    have hsz : v.size = l.length := hrep.1
    have hf : l.length = v.endS := by rw [← hsz]; exact hfull
    exact ⟨pushBack_full inv.fresh hrep hf (by omega), insert_full E inv.fresh hrep hf (by omega) (by omega),
      (pushFront_eq_insert E s.heap v _).trans
        (insert_full E (i := i) (idx := 0) inv.fresh hrep hf (by omega) (by omega))⟩

/-- The hypotheses are met by `[1, 2]` with capacity 2. -/
example : (run exElem St.init [.ctor 0, .pushBack 0 1, .pushBack 0 2]).bind
    (fun s => .ok (s.vars 0)) = .ok (some ⟨some 1, 2, 2⟩) := by decide

/-- With spare capacity, when the referenced element is at or behind the insertion
position, the inserted value is the predecessor of the referenced element (or
unspecified, if the element is exactly at the position). -/
theorem C19_shift_violated (E : Elem α) (ops : List (Op α)) (e : Spec.Vector.Env α)
    (hs : Spec.Vector.run E.dflt E.selfMoveOk (fun _ => none) ops = some e) (s : St α)
    (hr : run E St.init ops = .ok s) (x : Nat) (v : Vec) (l : List α) (hv : s.vars x = some v)
    (hl : e x = some l) (hroom : v.size < v.capacity) (i p : Nat) (hpi : p ≤ i) (hi : i < l.length) :
    ∃ h' v', insert E s.heap v p (.elem v.start i) = .ok (h', v') ∧
      get h' v' p = .ok (if i = p then none else l[i - 1]?) := by
  obtain ⟨s', h1, inv⟩ := run_ok E (z := true) ops (Inv.init true) (by simp) hs
  rw [hr] at h1; cases h1
  obtain ⟨v', hv', hrep⟩ := inv.get hl
  rw [hv] at hv'; cases hv'
  have hsz : v.size = l.length := hrep.1
  have hroom' : l.length < v.endS := by rw [← hsz]; exact hroom
  obtain ⟨h2, v2, e2, hs2, hg⟩ := insert_room E inv.fresh hrep hroom' (i := i) (idx := p) hi (by omega)
  refine ⟨h2, v2, e2, ?_⟩
  rw [hg p (by omega), if_neg (by omega), if_pos rfl, if_neg (by omega)]

/-- `[1, 2, 3]` with capacity 4: `v.push_front(v[2])` gives `[2, 1, 2, 3]`, not `[3, 1, 2, 3]`. -/
example : (run exElem St.init [.ctor 0, .pushBack 0 1, .pushBack 0 2, .pushBack 0 3]).bind
    (fun s => match s.vars 0 with
      | some v => (pushFront exElem s.heap v (.elem v.start 2)).bind (fun r =>
          (get r.1 r.2 0).bind fun a => (get r.1 r.2 1).bind fun b => .ok (a, b))
      | none => .ub) = .ok (some 2, some 1) := by decide

end Verif.Vector
