import Verif.Props.Vector

/-!
Property C123: references, pointers and iterators to elements of `estl::vector`.

An address is a block and a position in it. `after` says, from `size()`, `capacity()` and the call alone, of which vector the
address of element `k` of vector `x` is the element `k` after the call (`none`: there is no object there any more), and whether it
is still the same element.
-/

set_option backward.isDefEq.respectTransparency false

namespace Verif.Vector
open Verif Verif.OH

variable {α : Type}

/-- The rules of the language standard for a reference to element `k` of `x`. A call that makes the size exceed the capacity
moves all elements elsewhere; insertions and removals move the elements behind them; swap and move take the elements along. -/
def after (size cap : Nat → Nat) (k : Nat) (op : Op α) (x : Nat) : Option (Nat × Bool) :=
  let at' (z : Nat) (fits stays : Prop) [Decidable fits] [Decidable stays] (newSize : Nat) : Option (Nat × Bool) :=
    if x ≠ z then some (x, true) else if fits ∧ k < newSize then some (x, decide stays) else none
  match op with
  | .pushBack z _ => at' z (size z + 1 ≤ cap z) True (size z + 1)
  | .pushFront z _ => at' z (size z + 1 ≤ cap z) False (size z + 1)
  | .insert z j _ | .emplace z j _ => at' z (size z + 1 ≤ cap z) (k < j) (size z + 1)
  | .erase z j => at' z True (k < j) (size z - 1)
  | .eraseRange z i j => at' z True (k < i ∨ i = j) (size z - (j - i))
  | .popBack z => at' z True True (size z - 1)
  | .popFront z => at' z True False (size z - 1)
  | .resize z n => at' z (n ≤ cap z) True n
  | .clear z | .dtor z | .assignCopy z _ => at' z True True 0
  | .reserve z n => at' z (n ≤ cap z) True (size z)
  | .put z _ _ => at' z True True (size z)
  | .ctorMove y z => if x = z then some (y, true) else some (x, true)
  | .assignMove y z => if x = z then some (y, true) else if x = y then none else some (x, true)
  | .swap y z => if x = z then some (y, true) else if x = y then some (z, true) else some (x, true)
  | .ctor _ | .ctorFill _ _ _ | .ctorDefault _ _ | .ctorList _ _ | .ctorCopy _ _ => some (x, true)

/-- What `size()` returns. -/
def sizeIn (s : St α) (x : Nat) : Nat := match s.vars x with | some v => v.size | none => 0

/-- What `capacity()` returns. -/
def capIn (s : St α) (x : Nat) : Nat := match s.vars x with | some v => v.capacity | none => 0

/-- Where the address is after a program, if it never stopped being that of an element, and whether it is the same one. -/
def follow (E : Elem α) (k : Nat) : St α → Nat → List (Op α) → Option (Nat × Bool)
  | _, x, [] => some (x, true)
  | s, x, op :: ops =>
    match step E s op, after (sizeIn s) (capIn s) k op x with
    | .ok s', some (y, m) => (follow E k s' y ops).map fun r => (r.1, m && r.2)
    | _, _ => none

/-- No vector has an element there: reading is undefined. -/
theorem Inv.dead {s : St α} {e : Spec.Vector.Env α} (i : Inv true s e) {b k : Nat}
    (h : ∀ y w, s.vars y = some w → w.start = some b → w.size ≤ k) : OH.read s.heap (some b) k = .ub := by
  cases hb : s.heap.blocks b with
  | none => exact read_freed hb k
  | some B =>
    rcases i.noleak b B hb with ⟨y, w, hw, hs⟩ | ⟨_, h0⟩
    · have hr := i.rep y
      rw [hw] at hr
      cases he : e y with
      | none => rw [he] at hr; exact hr.elim
      | some l =>
        rw [he] at hr
        have hk := h y w hw hs
        have h1 : w.size = l.length := hr.1
        have h3 := hr.2.2
        rw [hs] at h3
        obtain ⟨B', hB', hc, hsl⟩ := h3.2
        rw [hb] at hB'; cases hB'
        simp only [OH.read, look, hb]
        split
        · rename_i heq
          split at heq
          · rename_i hlt
            have : B.slot k = lv l[k]? := hsl k (by omega)
            rw [List.getElem?_eq_none (by omega)] at this
            simp only [Option.some.injEq, Prod.mk.injEq] at heq
            rw [this] at heq
            cases heq.2
          · cases heq
        · rfl
    · simp [OH.read, look, hb, h0]

theorem Inv.repAt {s : St α} {e : Spec.Vector.Env α} (i : Inv true s e) {x : Nat} {v : Vec} (hv : s.vars x = some v) :
    ∃ l, e x = some l ∧ Rep true s.heap v l := by
  have hr := i.rep x
  rw [hv] at hr
  cases he : e x with
  | none => rw [he] at hr; exact hr.elim
  | some l => rw [he] at hr; exact ⟨l, rfl, hr⟩

/-- What is to be shown of one call: `r` is where the address is afterwards. -/
def Good (b k x : Nat) (op : Op α) (e : Spec.Vector.Env α) (s' : St α) (e' : Spec.Vector.Env α) : Option (Nat × Bool) → Prop
  | none => OH.read s'.heap (some b) k = .ub
  | some (y, m) => ∃ w, s'.vars y = some w ∧ w.start = some b ∧ k < w.size ∧
      (m = true → (∀ z a, op ≠ .put z k a) → ∀ l, e x = some l → ∀ l', e' y = some l' → l'[k]? = l[k]?)

/-- Calls that change one vector. -/
theorem good_target {b k x : Nat} {op : Op α} {s : St α} {e e' : Spec.Vector.Env α} {h' : Heap α} {z : Nat} {v v' u : Vec}
    {fits stays : Prop} [Decidable fits] [Decidable stays] {n : Nat} {q : List α → List α}
    (i : Inv true s e) (i' : Inv true ⟨h', setVar s.vars z (some v')⟩ e') (hv : s.vars x = some v) (hb : v.start = some b)
    (hk : k < v.size) (hz : s.vars z = some u)
    (he' : ∃ l, e z = some l ∧ e' = Spec.Vector.set e z (some (q l))) (hn : v'.size = n)
    (hf : fits → v'.start = u.start) (hnf : ¬ fits → v'.start = some s.heap.next)
    (hst : ∀ l, e z = some l → stays → k < l.length → k < n → (∀ z a, op ≠ .put z k a) → (q l)[k]? = l[k]?) :
    Good b k x op e ⟨h', setVar s.vars z (some v')⟩ e'
      (if x ≠ z then some (x, true) else if fits ∧ k < n then some (x, decide stays) else none) := by
  obtain ⟨l0, hl0, rfl⟩ := he'
  by_cases hxz : x = z
  · subst hxz
    rw [hv] at hz; cases hz
    rw [if_neg (by simp)]
    obtain ⟨l, hl, hrep⟩ := i.repAt hv
    rw [hl] at hl0; cases hl0
    by_cases hfit : fits ∧ k < n
    · rw [if_pos hfit]
      refine ⟨v', by simp [setVar], (hf hfit.1).trans hb, by omega, fun hm hp l1 h1 l2 h2 => ?_⟩
      rw [hl] at h1; cases h1
      have hlen := hrep.1
      simp only [Spec.Vector.set, if_true] at h2
      cases h2
      exact hst _ hl (of_decide_eq_true hm) (by rw [← hlen]; exact hk) hfit.2 hp
    · rw [if_neg hfit]
      refine i'.dead fun y w hw hs => ?_
      simp only [setVar] at hw
      split at hw
      · cases hw
        by_cases hff : fits
        · have : ¬ k < n := fun h => hfit ⟨hff, h⟩
          omega
        · rw [hnf hff] at hs
          cases hs
          exact absurd (i.fresh _ (Nat.le_refl _)) (hrep.alive hb)
      · rename_i hne
        exact absurd (i.disj _ _ _ _ b hw hv hs hb) hne
  · rw [if_pos hxz]
    refine ⟨v, by simp [setVar, hxz, hv], hb, hk, fun _ _ l1 h1 l2 h2 => ?_⟩
    simp only [Spec.Vector.set, if_neg hxz] at h2
    rw [h1] at h2; cases h2; rfl

/-- Storage that has to grow is new storage. -/
theorem grow_start {h h1 : Heap α} {v v1 : Vec} {l : List α} {n : Nat} (hF : Fresh h) (hr : Rep true h v l)
    (e : ensureCapacity h v n = .ok (h1, v1)) (hn : ¬ n ≤ v.capacity) : v1.start = some h.next := by
  obtain ⟨h2, v2, e2, _, _, _, hg⟩ := ensureCapacity_spec hF hr n
  rw [e] at e2; cases e2
  exact (hg (by have : v.capacity = v.endS := rfl; omega)).2.1

theorem same_start {h h1 : Heap α} {v v1 : Vec} {n : Nat}
    (e : ensureCapacity h v n = .ok (h1, v1)) (hn : n ≤ v.capacity) : v1 = v := by
  rw [ensureCapacity, if_pos hn] at e
  cases e; rfl

/-- In terms of `upd1`. -/
theorem good_upd {b k x : Nat} {op : Op α} {s s' : St α} {e e' : Spec.Vector.Env α} {z : Nat} {v u : Vec}
    {r : Res (Heap α × Vec)} {fits stays : Prop} [Decidable fits] [Decidable stays] {n : Nat} {p : List α → Bool}
    {q : List α → List α} (i : Inv true s e) (i' : Inv true s' e') (hv : s.vars x = some v) (hb : v.start = some b)
    (hk : k < v.size) (hz : s.vars z = some u) (hu : upd1 s z r = .ok s') (he' : Spec.Vector.modify e z p q = some e')
    (hn : ∀ l, e z = some l → u.size = l.length → p l = true → (q l).length = n)
    (hf : ∀ h' v', r = .ok (h', v') → fits → v'.start = u.start)
    (hnf : ∀ h' v' l, r = .ok (h', v') → Rep true s.heap u l → ¬ fits → v'.start = some s.heap.next)
    (hst : ∀ l, e z = some l → p l = true → stays → k < l.length → k < n → (∀ z a, op ≠ .put z k a) → (q l)[k]? = l[k]?) :
    Good b k x op e s' e'
      (if x ≠ z then some (x, true) else if fits ∧ k < n then some (x, decide stays) else none) := by
  simp only [upd1, Res.bind_eq_ok] at hu
  obtain ⟨⟨h', v'⟩, e1, e2⟩ := hu
  cases e2
  obtain ⟨l, hl, hp, he⟩ := modify_eq he'
  obtain ⟨l1, hl1, hr1⟩ := i.repAt hz
  rw [hl] at hl1; cases hl1
  obtain ⟨l2, hl2, hr2⟩ := i'.repAt (x := z) (v := v') (by simp [setVar])
  rw [he] at hl2
  simp only [Spec.Vector.set, if_true] at hl2
  cases hl2
  refine good_target i i' hv hb hk hz ⟨l, hl, he⟩ (hr2.1.trans (hn l hl hr1.1 hp)) (hf h' v' e1) (hnf h' v' l e1 hr1) ?_
  intro l3 h3
  rw [hl] at h3; cases h3
  exact hst l hl hp

theorem erase_start {E : Elem α} {h h' : Heap α} {v v' : Vec} {j j' : Nat} (e : erase E h v j = .ok (h', v', j')) :
    v'.start = v.start := by
  unfold erase at e
  split at e
  · cases e
  · simp only [Res.bind_eq_ok] at e
    obtain ⟨h1, _, h2, _, e3⟩ := e
    cases e3; rfl

theorem ins_start {E : Elem α} {h h' : Heap α} {v v' : Vec} {j : Nat} {r : Ref α}
    (e : insert E h v j r = .ok (h', v') ∨ emplace E h v j r = .ok (h', v') ∨ pushFront E h v r = .ok (h', v') ∨
      pushBack h v r = .ok (h', v')) :
    ∃ h1 v1, ensureCapacity h v (v.size + 1) = .ok (h1, v1) ∧ v'.start = v1.start := by
  rcases e with e | e | e | e
  · simp only [insert, Res.bind_eq_ok] at e
    obtain ⟨⟨h1, v1⟩, e1, h2, _, h3, _, a, _, h4, _, e4⟩ := e
    cases e4; exact ⟨h1, v1, e1, rfl⟩
  · simp only [emplace, Res.bind_eq_ok] at e
    obtain ⟨⟨h1, v1⟩, e1, h2, _, h3, _, h5, _, a, _, h4, _, e4⟩ := e
    cases e4; exact ⟨h1, v1, e1, rfl⟩
  · simp only [pushFront, Res.bind_eq_ok] at e
    obtain ⟨⟨h1, v1⟩, e1, h2, _, h3, _, a, _, h4, _, e4⟩ := e
    cases e4; exact ⟨h1, v1, e1, rfl⟩
  · simp only [pushBack, Res.bind_eq_ok] at e
    obtain ⟨⟨h1, v1⟩, e1, a, _, h4, _, e4⟩ := e
    cases e4; exact ⟨h1, v1, e1, rfl⟩

/-- Calls that do not touch the vector. -/
theorem good_other {b k x : Nat} {op : Op α} {s' : St α} {e e' : Spec.Vector.Env α} {v : Vec} (hv : s'.vars x = some v)
    (hb : v.start = some b) (hk : k < v.size) (he : e' x = e x) : Good b k x op e s' e' (some (x, true)) := by
  refine ⟨v, hv, hb, hk, fun _ _ l h1 l' h2 => ?_⟩
  rw [he, h1] at h2
  cases h2; rfl

/-- Constructors of other vectors. -/
theorem good_ctor {b k x z : Nat} {op : Op α} {s s' : St α} {e e' : Spec.Vector.Env α} {v : Vec} {l : List α}
    {r : Res (Heap α × Vec)} (i : Inv true s e) (hv : s.vars x = some v) (hb : v.start = some b) (hk : k < v.size)
    (hd : Spec.Vector.decl e z l = some e') (hu : upd1 s z r = .ok s') : Good b k x op e s' e' (some (x, true)) := by
  obtain ⟨hn, rfl⟩ := decl_eq hd
  simp only [upd1, Res.bind_eq_ok] at hu
  obtain ⟨⟨h', v'⟩, _, e2⟩ := hu
  cases e2
  have hxz : x ≠ z := by
    rintro rfl
    rw [i.getNone hn] at hv; cases hv
  exact good_other (v := v) (by simp [setVar, hxz, hv]) hb hk (by simp [Spec.Vector.set, hxz])

/-- One call. -/
theorem step_good (E : Elem α) {b k x : Nat} {op : Op α} {s s' : St α} {e e' : Spec.Vector.Env α} {v : Vec}
    (i : Inv true s e) (i' : Inv true s' e') (hs : Spec.Vector.step E.dflt E.selfMoveOk e op = some e')
    (hr : step E s op = .ok s') (hv : s.vars x = some v) (hb : v.start = some b) (hk : k < v.size) :
    Good b k x op e s' e' (after (sizeIn s) (capIn s) k op x) := by
  have hin : ∀ z u, s.vars z = some u → sizeIn s z = u.size ∧ capIn s z = u.capacity := by
    intro z u h
    simp [sizeIn, capIn, h]
  cases op with
  | pushBack z a =>
    obtain ⟨l, hl, _, _⟩ := modify_eq hs
    obtain ⟨u, hu, hru⟩ := i.get hl
    simp only [step, var_some hu, Res.ok_bind] at hr
    simp only [after, hin z u hu]
    refine good_upd i i' hv hb hk hu hr hs ?_ ?_ ?_ ?_
    · intro l1 h1 h2 _; simp [h2]
    · intro h1 v1 e1 hf
      obtain ⟨h2, v2, e2, e3⟩ := ins_start (E := E) (j := 0) (.inr (.inr (.inr e1)))
      rw [e3, same_start e2 hf]
    · intro h1 v1 l1 e1 hr1 hf
      obtain ⟨h2, v2, e2, e3⟩ := ins_start (E := E) (j := 0) (.inr (.inr (.inr e1)))
      rw [e3, grow_start i.fresh hr1 e2 hf]
    · intro l1 _ _ _ h _ _
      rw [List.getElem?_append_left h]
  | pushFront z a =>
    obtain ⟨l, hl, _, _⟩ := modify_eq hs
    obtain ⟨u, hu, hru⟩ := i.get hl
    simp only [step, var_some hu, Res.ok_bind] at hr
    simp only [after, hin z u hu]
    refine good_upd i i' hv hb hk hu hr hs ?_ ?_ ?_ ?_
    · intro l1 h1 h2 _; simp [h2]
    · intro h1 v1 e1 hf
      obtain ⟨h2, v2, e2, e3⟩ := ins_start (j := 0) (.inr (.inr (.inl e1)))
      rw [e3, same_start e2 hf]
    · intro h1 v1 l1 e1 hr1 hf
      obtain ⟨h2, v2, e2, e3⟩ := ins_start (j := 0) (.inr (.inr (.inl e1)))
      rw [e3, grow_start i.fresh hr1 e2 hf]
    · intro l1 _ _ h
      exact h.elim
  | insert z j a =>
    obtain ⟨l, hl, _, _⟩ := modify_eq hs
    obtain ⟨u, hu, hru⟩ := i.get hl
    simp only [step, var_some hu, Res.ok_bind] at hr
    simp only [after, hin z u hu]
    refine good_upd i i' hv hb hk hu hr hs ?_ ?_ ?_ ?_
    · intro l1 h1 h2 hp; simp only [decide_eq_true_eq] at hp; simp [h2]; omega
    · intro h1 v1 e1 hf
      obtain ⟨h2, v2, e2, e3⟩ := ins_start (.inl e1)
      rw [e3, same_start e2 hf]
    · intro h1 v1 l1 e1 hr1 hf
      obtain ⟨h2, v2, e2, e3⟩ := ins_start (.inl e1)
      rw [e3, grow_start i.fresh hr1 e2 hf]
    · intro l1 _ _ h h1 _ _
      rw [List.getElem?_append_left (by simp; omega), List.getElem?_take_of_lt h]
  | emplace z j a =>
    obtain ⟨l, hl, _, _⟩ := modify_eq hs
    obtain ⟨u, hu, hru⟩ := i.get hl
    simp only [step, var_some hu, Res.ok_bind] at hr
    simp only [after, hin z u hu]
    refine good_upd i i' hv hb hk hu hr hs ?_ ?_ ?_ ?_
    · intro l1 h1 h2 hp; simp only [decide_eq_true_eq] at hp; simp [h2]; omega
    · intro h1 v1 e1 hf
      obtain ⟨h2, v2, e2, e3⟩ := ins_start (.inr (.inl e1))
      rw [e3, same_start e2 hf]
    · intro h1 v1 l1 e1 hr1 hf
      obtain ⟨h2, v2, e2, e3⟩ := ins_start (.inr (.inl e1))
      rw [e3, grow_start i.fresh hr1 e2 hf]
    · intro l1 _ _ h h1 _ _
      rw [List.getElem?_append_left (by simp; omega), List.getElem?_take_of_lt h]
  | erase z j =>
    obtain ⟨l, hl, _, _⟩ := modify_eq hs
    obtain ⟨u, hu, hru⟩ := i.get hl
    simp only [step, var_some hu, Res.ok_bind, Res.bind_eq_ok] at hr
    obtain ⟨⟨h1, v1, j1⟩, e1, e2⟩ := hr
    simp only [after, hin z u hu]
    refine good_upd (r := .ok (h1, v1)) i i' hv hb hk hu (by simpa only [upd1, Res.ok_bind] using e2) hs ?_ ?_ ?_ ?_
    · intro l1 h1 h2 hp; simp only [decide_eq_true_eq] at hp; simp [h2]; omega
    · intro h1 v1 e1' _
      cases e1'; exact erase_start e1
    · intro h1 v1 l1 e1 hr1 hf
      exact absurd trivial hf
    · intro l1 _ _ h h1 _ _
      rw [List.getElem?_append_left (by simp; omega), List.getElem?_take_of_lt h]
  | eraseRange z j j2 =>
    obtain ⟨l, hl, _, _⟩ := modify_eq hs
    obtain ⟨u, hu, hru⟩ := i.get hl
    simp only [step, var_some hu, Res.ok_bind, Res.bind_eq_ok] at hr
    obtain ⟨⟨h1, v1, j1⟩, e1, e2⟩ := hr
    simp only [after, hin z u hu]
    refine good_upd (r := .ok (h1, v1)) i i' hv hb hk hu (by simpa only [upd1, Res.ok_bind] using e2) hs ?_ ?_ ?_ ?_
    · intro l1 h1 h2 hp; simp only [decide_eq_true_eq] at hp; simp [h2]; omega
    · intro h1 v1 e1' _
      cases e1'
      simp only [eraseRange, Res.bind_eq_ok] at e1
      obtain ⟨_, _, h2, _, h3, _, e3⟩ := e1
      cases e3; rfl
    · intro h1 v1 l1 e1 hr1 hf
      exact absurd trivial hf
    · intro l1 _ hp h h1 _ _
      simp only [decide_eq_true_eq] at hp
      rcases h with h | rfl
      · rw [List.getElem?_append_left (by simp; omega), List.getElem?_take_of_lt h]
      · rw [List.take_append_drop]
  | popBack z =>
    obtain ⟨l, hl, _, _⟩ := modify_eq hs
    obtain ⟨u, hu, hru⟩ := i.get hl
    simp only [step, var_some hu, Res.ok_bind] at hr
    simp only [after, hin z u hu]
    refine good_upd i i' hv hb hk hu hr hs ?_ ?_ ?_ ?_
    · intro l1 h1 h2 hp; simp [h2]
    · intro h1 v1 e1 _
      unfold popBack at e1
      split at e1
      · cases e1
      · simp only [Res.bind_eq_ok] at e1
        obtain ⟨⟨h2, v2, j2⟩, e2, e3⟩ := e1
        cases e3; exact erase_start e2
    · intro h1 v1 l1 e1 hr1 hf
      exact absurd trivial hf
    · intro l1 h1 _ _ _ hn _
      rw [hl] at h1; cases h1
      rw [List.getElem?_dropLast, if_pos (by have : u.size = l.length := hru.1; omega)]
  | popFront z =>
    obtain ⟨l, hl, _, _⟩ := modify_eq hs
    obtain ⟨u, hu, hru⟩ := i.get hl
    simp only [step, var_some hu, Res.ok_bind] at hr
    simp only [after, hin z u hu]
    refine good_upd i i' hv hb hk hu hr hs ?_ ?_ ?_ ?_
    · intro l1 h1 h2 hp; simp [h2]
    · intro h1 v1 e1 _
      simp only [popFront, Res.bind_eq_ok] at e1
      obtain ⟨⟨h2, v2, j2⟩, e2, e3⟩ := e1
      cases e3; exact erase_start e2
    · intro h1 v1 l1 e1 hr1 hf
      exact absurd trivial hf
    · intro l1 h1 _ h
      exact h.elim
  | resize z n =>
    obtain ⟨l, hl, _, _⟩ := modify_eq hs
    obtain ⟨u, hu, hru⟩ := i.get hl
    simp only [step, var_some hu, Res.ok_bind] at hr
    simp only [after, hin z u hu]
    have hcap : u.size ≤ u.capacity := by
      have h1 : u.size = l.length := hru.1
      have h2 : l.length ≤ u.capacity := hru.2.1
      omega
    refine good_upd i i' hv hb hk hu hr hs ?_ ?_ ?_ ?_
    · intro l1 h1 h2 hp; simp; omega
    · intro h1 v1 e1 hf
      unfold resize at e1
      split at e1
      · simp only [Res.bind_eq_ok] at e1
        obtain ⟨⟨h2, v2⟩, e2, h3, _, e3⟩ := e1
        cases e3
        show v2.start = u.start
        rw [same_start e2 hf]
      · split at e1
        · simp only [Res.bind_eq_ok] at e1
          obtain ⟨h3, _, e3⟩ := e1
          cases e3; rfl
        · cases e1; rfl
    · intro h1 v1 l1 e1 hr1 hf
      unfold resize at e1
      rw [if_pos (by omega)] at e1
      simp only [Res.bind_eq_ok] at e1
      obtain ⟨⟨h2, v2⟩, e2, h3, _, e3⟩ := e1
      cases e3
      exact (grow_start i.fresh hr1 e2 hf : v2.start = _)
    · intro l1 h1 _ _ hlt hn _
      rw [List.getElem?_append_left (by simp; omega), List.getElem?_take_of_lt hn]
  | clear z =>
    obtain ⟨l, hl, _, _⟩ := modify_eq hs
    obtain ⟨u, hu, hru⟩ := i.get hl
    simp only [step, var_some hu, Res.ok_bind] at hr
    simp only [after]
    refine good_upd i i' hv hb hk hu hr hs ?_ ?_ ?_ ?_
    · intro l1 h1 h2 hp; rfl
    · intro h1 v1 e1 hf
      simp only [clear, Res.bind_eq_ok] at e1
      obtain ⟨h3, _, e3⟩ := e1
      cases e3; rfl
    · intro h1 v1 l1 e1 hr1 hf
      exact absurd trivial hf
    · intro l1 h1 _ _ hlt hn _
      omega
  | reserve z n =>
    obtain ⟨l, hl, _, _⟩ := modify_eq hs
    obtain ⟨u, hu, hru⟩ := i.get hl
    simp only [step, var_some hu, Res.ok_bind] at hr
    simp only [after, hin z u hu]
    refine good_upd i i' hv hb hk hu hr hs ?_ ?_ ?_ ?_
    · intro l1 h1 h2 hp; exact h2.symm
    · intro h1 v1 e1 hf
      rw [same_start e1 hf]
    · intro h1 v1 l1 e1 hr1 hf
      exact grow_start i.fresh hr1 e1 hf
    · intro l1 h1 _ _ hlt hn _
      rfl
  | put z j a =>
    obtain ⟨l, hl, _, _⟩ := modify_eq hs
    obtain ⟨u, hu, hru⟩ := i.get hl
    simp only [step, var_some hu, Res.ok_bind, Res.bind_eq_ok] at hr
    obtain ⟨h1, e1, e2⟩ := hr
    cases e2
    simp only [after, hin z u hu]
    have hset : setVar s.vars z (some u) = s.vars := by
      funext y; simp only [setVar]; split
      · rename_i h; rw [h, hu]
      · rfl
    refine good_upd (r := .ok (h1, u)) i i' hv hb hk hu (by simp only [upd1, Res.ok_bind, hset]) hs ?_ ?_ ?_ ?_
    · intro l1 h1 h2 hp; simp [h2]
    · intro h1 v1 e1 hf
      cases e1; rfl
    · intro h1 v1 l1 e1 hr1 hf
      exact absurd trivial hf
    · intro l1 h1 _ _ hlt hn hp
      rw [List.getElem?_set_ne]
      rintro rfl
      exact hp z a rfl
  | ctor z =>
    simp only [step, Res.bind_eq_ok] at hr
    obtain ⟨_, _, e2⟩ := hr
    exact good_ctor (r := .ok (s.heap, Vec.null)) i hv hb hk hs e2
  | ctorFill z n a =>
    simp only [step, Res.bind_eq_ok] at hr
    obtain ⟨_, _, e2⟩ := hr
    exact good_ctor i hv hb hk hs e2
  | ctorDefault z n =>
    simp only [step, Res.bind_eq_ok] at hr
    obtain ⟨_, _, e2⟩ := hr
    exact good_ctor i hv hb hk hs e2
  | ctorList z xs =>
    simp only [step, Res.bind_eq_ok] at hr
    obtain ⟨_, _, e2⟩ := hr
    exact good_ctor i hv hb hk hs e2
  | ctorCopy z y =>
    simp only [step, Res.bind_eq_ok] at hr
    obtain ⟨w, _, _, _, e2⟩ := hr
    simp only [Spec.Vector.step, Option.bind_eq_some_iff] at hs
    obtain ⟨l, _, hd⟩ := hs
    exact good_ctor i hv hb hk hd e2
  | ctorMove z y =>
    simp only [step, Res.bind_eq_ok] at hr
    obtain ⟨w, hw, _, hz, e2⟩ := hr
    cases e2
    simp only [Spec.Vector.step, Option.bind_eq_some_iff, Option.map_eq_some_iff] at hs
    obtain ⟨l, hl, e1, hd, rfl⟩ := hs
    obtain ⟨hn, rfl⟩ := decl_eq hd
    have hxz : x ≠ z := by
      rintro rfl
      rw [i.getNone hn] at hv; cases hv
    simp only [after]
    split
    · rename_i hxy
      subst hxy
      rw [var_some hv] at hw; cases hw
      refine ⟨v, by simp [setVar], hb, hk, fun _ _ l1 h1 l2 h2 => ?_⟩
      simp only [Spec.Vector.set, if_neg (Ne.symm hxz), if_true] at h2
      cases h2
      rw [hl] at h1; cases h1; rfl
    · rename_i hxy
      exact good_other (v := v) (by simp [setVar, hxz, hxy, hv]) hb hk (by simp [Spec.Vector.set, hxz, hxy])
  | dtor z =>
    simp only [step, Res.bind_eq_ok] at hr
    obtain ⟨u, hu, h1, _, e2⟩ := hr
    cases e2
    simp only [Spec.Vector.step, Option.map_eq_some_iff] at hs
    obtain ⟨_, _, rfl⟩ := hs
    simp only [after]
    split
    · rename_i hxz
      exact good_other (v := v) (by simp [setVar, hxz, hv]) hb hk (by simp [Spec.Vector.set, hxz])
    · rename_i hxz
      have hxz : x = z := Decidable.not_not.mp hxz
      subst hxz
      rw [if_neg (by omega)]
      refine i'.dead fun y w hw hs => ?_
      simp only [setVar] at hw
      split at hw
      · cases hw
      · rename_i hne
        exact absurd (i.disj _ _ _ _ b hw hv hs hb) hne
  | assignCopy z y =>
    simp only [step, Res.bind_eq_ok] at hr
    obtain ⟨u, hu, w, hw, ⟨h1, r1⟩, e1, h2, _, e2⟩ := hr
    cases e2
    simp only [Spec.Vector.step, Option.bind_eq_some_iff, Option.map_eq_some_iff] at hs
    obtain ⟨l0, _, l, hl, rfl⟩ := hs
    simp only [after]
    split
    · rename_i hxz
      exact good_other (v := v) (by simp [setVar, hxz, hv]) hb hk (by simp [Spec.Vector.set, hxz])
    · rename_i hxz
      have hxz : x = z := Decidable.not_not.mp hxz
      subst hxz
      rw [if_neg (by omega)]
      obtain ⟨w', hw', hrw⟩ := i.get hl
      rw [var_some hw'] at hw; cases hw
      obtain ⟨h3, r3, e3, t⟩ := ctorCopy_spec i.fresh hrw
      rw [e3] at e1; cases e1
      obtain ⟨_, _, hrx⟩ := i.repAt hv
      refine i'.dead fun y w hw hs => ?_
      simp only [setVar] at hw
      split at hw
      · cases hw
        rcases t.start with h | h
        · rw [show r1.start = none from h] at hs; cases hs
        · exact absurd (h b hs) (hrx.alive hb)
      · rename_i hne
        exact absurd (i.disj _ _ _ _ b hw hv hs hb) hne
  | assignMove z y =>
    simp only [step, Res.bind_eq_ok] at hr
    obtain ⟨w, hw, e1⟩ := hr
    simp only [Spec.Vector.step, Option.bind_eq_some_iff, Option.map_eq_some_iff] at hs
    obtain ⟨l0, _, l, hl, rfl⟩ := hs
    obtain ⟨w', hw', hrw⟩ := i.get hl
    rw [var_some hw'] at hw; cases hw
    split at e1
    · cases e1
    rename_i u hu
    simp only [Res.bind_eq_ok] at e1
    obtain ⟨h1, _, e2⟩ := e1
    cases e2
    simp only [after]
    split
    · rename_i hxy
      subst hxy
      rw [hv] at hw'; cases hw'
      refine ⟨v, by simp [setVar], hb, hk, fun _ _ l1 h1 l2 h2 => ?_⟩
      simp only [Spec.Vector.set, if_true] at h2
      cases h2
      rw [hl] at h1; cases h1; rfl
    · rename_i hxy
      split
      · rename_i hxz
        subst hxz
        refine i'.dead fun y' w2 hw2 hs => ?_
        simp only [setVar] at hw2
        split at hw2
        · cases hw2
          exact absurd (i.disj _ _ _ _ b hv hw' hb hs) hxy
        · split at hw2
          · cases hw2; cases hs
          · rename_i hne _
            exact absurd (i.disj _ _ _ _ b hw2 hv hs hb) hne
      · rename_i hxz
        exact good_other (v := v) (by simp [setVar, hxz, hxy, hv]) hb hk (by simp [Spec.Vector.set, hxz, hxy])
  | swap z y =>
    simp only [step, Res.bind_eq_ok] at hr
    obtain ⟨u, hu, w, hw, e2⟩ := hr
    cases e2
    simp only [Spec.Vector.step, Option.bind_eq_some_iff, Option.map_eq_some_iff] at hs
    obtain ⟨lz, hlz, ly, hly, rfl⟩ := hs
    obtain ⟨u', hu', _⟩ := i.get hlz
    rw [var_some hu'] at hu; cases hu
    obtain ⟨w', hw', _⟩ := i.get hly
    rw [var_some hw'] at hw; cases hw
    simp only [after]
    split
    · rename_i hxy
      subst hxy
      rw [hv] at hw'; cases hw'
      by_cases hxz : x = z
      · subst hxz
        rw [hv] at hu'; cases hu'
        refine ⟨v, by simp [setVar], hb, hk, fun _ _ l1 h1 l2 h2 => ?_⟩
        simp only [Spec.Vector.set, if_true] at h2
        cases h2
        rw [hlz] at h1; cases h1; rfl
      · refine ⟨v, by simp [setVar, Ne.symm hxz], hb, hk, fun _ _ l1 h1 l2 h2 => ?_⟩
        simp only [Spec.Vector.set, if_true, if_neg (Ne.symm hxz)] at h2
        cases h2
        rw [hly] at h1; cases h1; rfl
    · rename_i hxy
      split
      · rename_i hxz
        subst hxz
        rw [hv] at hu'; cases hu'
        refine ⟨v, by simp [setVar], hb, hk, fun _ _ l1 h1 l2 h2 => ?_⟩
        simp only [Spec.Vector.set, if_true] at h2
        cases h2
        rw [hlz] at h1; cases h1; rfl
      · rename_i hxz
        exact good_other (v := v) (by simp [setVar, hxz, hxy, hv]) hb hk (by simp [Spec.Vector.set, hxz, hxy])

/-! ### C123 -/

/-- The address of element `k` of vector `x`, taken after `ops` and followed through `ops'`: if the rules say that it is the address
of element `k` of `y`, then reading there gives that element, writing there is `y[k] = a`, and no other element of any vector
has this address. If they say that it is still the same element, it has the value that it had, unless the
program assigned to an element `k` since. -/
theorem C123_reference (E : Elem α) (ops ops' : List (Op α)) (e e' : Spec.Vector.Env α)
    (hs : Spec.Vector.run E.dflt E.selfMoveOk (fun _ => none) ops = some e)
    (hs' : Spec.Vector.run E.dflt E.selfMoveOk e ops' = some e') (s s' : St α) (hr : run E St.init ops = .ok s)
    (hr' : run E s ops' = .ok s') (x : Nat) (v : Vec) (hv : s.vars x = some v) (b : Nat) (hb : v.start = some b) (k : Nat)
    (hk : k < v.size) (y : Nat) (m : Bool) (hf : follow E k s x ops' = some (y, m)) :
    ∃ w l', s'.vars y = some w ∧ e' y = some l' ∧ k < l'.length ∧ OH.read s'.heap (some b) k = .ok l'[k]? ∧
      (∀ a, OH.assign s'.heap (some b) k (some a) = put s'.heap w k a) ∧
      (∀ z u, s'.vars z = some u → u.start = some b → z = y) ∧
      (m = true → (∀ z a, Op.put z k a ∉ ops') → ∀ l, e x = some l → l'[k]? = l[k]?) := by
  obtain ⟨s0, h1, i⟩ := run_ok E (z := true) ops (Inv.init true) (by simp) hs
  rw [hr] at h1; cases h1
  clear hs hr
  induction ops' generalizing s e x v m with
  | nil =>
    cases hr'; cases hs'; cases hf
    obtain ⟨l, hl, hrep⟩ := i.repAt hv
    have hlen : v.size = l.length := hrep.1
    have hg := get_spec hrep (i := k) (by omega)
    refine ⟨v, l, hv, hl, by omega, ?_, fun a => by simp only [put, hb], ?_, ?_⟩
    · rw [List.getElem?_eq_getElem (by omega)]
      simpa only [Vector.get, hb] using hg
    · intro z u hu hub
      exact i.disj _ _ _ _ b hu hv hub hb
    · intro _ _ l1 h1
      rw [hl] at h1; cases h1; rfl
  | cons op ops' ih =>
    simp only [run, Res.bind_eq_ok] at hr'
    obtain ⟨s1, e1, e2⟩ := hr'
    simp only [Spec.Vector.run, Option.bind_eq_some_iff] at hs'
    obtain ⟨f1, f2, f3⟩ := hs'
    obtain ⟨s1', e1', i1⟩ := step_ok E op i (by simp) f2
    rw [e1] at e1'; cases e1'
    have hgood := step_good E i i1 f2 e1 hv hb hk
    simp only [follow, e1] at hf
    cases ha : after (sizeIn s) (capIn s) k op x with
    | none => rw [ha] at hf; cases hf
    | some r =>
      obtain ⟨y1, m1⟩ := r
      rw [ha] at hf hgood
      simp only [Option.map_eq_some_iff] at hf
      obtain ⟨⟨y2, m2⟩, hf2, hf3⟩ := hf
      simp only [Prod.mk.injEq] at hf3
      obtain ⟨rfl, rfl⟩ := hf3
      obtain ⟨w1, hw1, hwb, hwk, hval⟩ := hgood
      obtain ⟨w, l', g1, g2, g3, g4, g5, g6, g7⟩ := ih f1 f3 s1 e2 y1 w1 hw1 hwb hwk m2 hf2 i1
      refine ⟨w, l', g1, g2, g3, g4, g5, g6, fun hm hp l hl => ?_⟩
      simp only [Bool.and_eq_true] at hm
      obtain ⟨l1, hl1, _⟩ := i1.repAt hw1
      rw [g7 hm.2 (fun z a h => hp z a (List.mem_cons_of_mem _ h)) l1 hl1]
      exact hval hm.1 (fun z a h => hp z a (h ▸ List.mem_cons_self)) l hl l1 hl1

/-- And where the rules say that no object is left, there is none: reading or assigning there is undefined. So `after` leaves
out nothing that the code happens to guarantee. -/
theorem C123_dangling (E : Elem α) (ops : List (Op α)) (op : Op α) (e e' : Spec.Vector.Env α)
    (hs : Spec.Vector.run E.dflt E.selfMoveOk (fun _ => none) ops = some e)
    (hs' : Spec.Vector.step E.dflt E.selfMoveOk e op = some e') (s s' : St α) (hr : run E St.init ops = .ok s)
    (hr' : step E s op = .ok s') (x : Nat) (v : Vec) (hv : s.vars x = some v) (b : Nat) (hb : v.start = some b) (k : Nat)
    (hk : k < v.size) (hf : after (sizeIn s) (capIn s) k op x = none) :
    OH.read s'.heap (some b) k = .ub ∧ ∀ a, OH.assign s'.heap (some b) k a = .ub := by
  obtain ⟨s0, h1, i⟩ := run_ok E (z := true) ops (Inv.init true) (by simp) hs
  rw [hr] at h1; cases h1
  obtain ⟨s1, e1, i1⟩ := step_ok E op i (by simp) hs'
  rw [hr'] at e1; cases e1
  have hgood := step_good E i i1 hs' hr' hv hb hk
  rw [hf] at hgood
  have hgood : OH.read s'.heap (some b) k = .ub := hgood
  refine ⟨hgood, fun a => ?_⟩
  unfold OH.read at hgood
  unfold OH.assign
  cases hl : look s'.heap (some b) k with
  | none => rfl
  | some r =>
    obtain ⟨c, sl⟩ := r
    rw [hl] at hgood
    cases sl with
    | raw => rfl
    | obj w => cases hgood

/-- With room for ten elements: appending, inserting and erasing behind the element, swapping and moving the vector leave the reference
to element 1 as it is; it belongs to vector 2 in the end. -/
example :
    (match run exElem St.init [.ctor 0, .reserve 0 10, .pushBack 0 5, .pushBack 0 6] with
      | .ok s => follow exElem 1 s 0 [.pushBack 0 7, .insert 0 2 8, .ctor 1, .erase 0 3, .swap 0 1, .ctorMove 2 1, .pushBack 0 9]
      | _ => none) = some (2, true) ∧
    (Spec.Vector.run 0 true (fun _ => none) [.ctor 0, .reserve 0 10, .pushBack 0 5, .pushBack 0 6, .pushBack 0 7, .insert 0 2 8,
      .ctor 1, .erase 0 3, .swap 0 1, .ctorMove 2 1, .pushBack 0 9]).map (· 2) = some (some [5, 6, 8]) := by
  refine ⟨by decide +kernel, by decide +kernel⟩

/-- A full vector: any insertion leaves all references dangling, but erasing does not. -/
example : after (fun _ => 2) (fun _ => 2) 0 (.pushBack 0 7) 0 = none ∧
    after (fun _ => 2) (fun _ => 2) 0 (.erase 0 1 : Op Nat) 0 = some (0, true) := by decide

end Verif.Vector
