import Verif.Lemmas.DequeLayout

/-!
Property C118: what growth of a deque costs. Elements stay where they are (C87), but the table of
blocks is replaced by a larger one, and its entries are copied.
-/

set_option backward.isDefEq.respectTransparency false

namespace Verif.Deque
open Verif
open Verif.Box (upd upd_same upd_ne upd_upd)

variable {α : Type} {triv : Bool}

/-- The table entries copied when the deque `d` became `d'`: all, if the table is another one. -/
def copied : Option Dq → Option Dq → Nat
  | some d, some d' => if d.blocks = d'.blocks then 0 else d.bsz
  | _, _ => 0

/-- The table entries of the deque at `k` copied while a program runs. -/
def copies {o : Type} (stp : St α → o → Res (St α)) (k : Slot) (s : St α) : List o → Res Nat
  | [] => .ok 0
  | op :: ops => do
    let s' ← stp s op
    let n ← copies stp k s' ops
    .ok (copied (s.dq k) (s'.dq k) + n)

/-- The deque objects and the allocation of tables are left alone. -/
def SameTab (s s' : St α) : Prop := s'.dq = s.dq ∧ s'.nextA = s.nextA

theorem SameTab.rfl {s : St α} : SameTab s s := ⟨Eq.refl _, Eq.refl _⟩

theorem SameTab.trans {s s' s'' : St α} (h : SameTab s s') (g : SameTab s' s'') : SameTab s s'' := ⟨g.1.trans h.1, g.2.trans h.2⟩

theorem arrWr_same {s s' : St α} {x i p : Nat} (e : arrWr s x i p = .ok s') : SameTab s s' := by
  unfold arrWr at e
  repeat' split at e
  all_goals cases e
  exact ⟨rfl, rfl⟩

theorem allocLoop_same {x : Nat} (n : Nat) : ∀ {s s' : St α} {i : Nat}, allocLoop s x n i = .ok s' → SameTab s s' := by
  induction n with
  | zero => intro s s' i e; cases e; exact SameTab.rfl
  | succ n ih =>
    intro s s' i e
    unfold allocLoop at e
    obtain ⟨s1, e1, e2⟩ := Res.bind_eq_ok.1 e
    have h1 := arrWr_same e1
    exact SameTab.trans ⟨h1.1, h1.2⟩ (ih e2)

theorem moveLoop_same {a : Option Nat} {x off : Nat} (n : Nat) : ∀ {s s' : St α} {i : Nat}, moveLoop s a x off n i = .ok s' → SameTab s s' := by
  induction n with
  | zero => intro s s' i e; cases e; exact SameTab.rfl
  | succ n ih =>
    intro s s' i e
    unfold moveLoop at e
    obtain ⟨b, _, e⟩ := Res.bind_eq_ok.1 e
    obtain ⟨s1, e1, e2⟩ := Res.bind_eq_ok.1 e
    exact (arrWr_same e1).trans (ih e2)

theorem destroyControl_same {s s' : St α} {a : Option Nat} (e : destroyControl s a = .ok s') : SameTab s s' := by
  unfold destroyControl at e
  repeat' split at e
  all_goals cases e
  · exact SameTab.rfl
  · exact ⟨rfl, rfl⟩

theorem construct_same {s s' : St α} {p : Nat × Nat} {v : α} (e : construct triv s p v = .ok s') : SameTab s s' := by
  unfold construct at e
  repeat' split at e
  all_goals cases e
  exact ⟨rfl, rfl⟩

theorem destory_same {s s' : St α} {p : Nat × Nat} (e : destory triv s p = .ok s') : SameTab s s' := by
  unfold destory at e
  repeat' split at e
  all_goals cases e
  · exact SameTab.rfl
  · exact ⟨rfl, rfl⟩

theorem destroyLoop_same {d : Dq} (n : Nat) : ∀ {s s' : St α} {i : Nat}, destroyLoop triv s d n i = .ok s' → SameTab s s' := by
  induction n with
  | zero => intro s s' i e; cases e; exact SameTab.rfl
  | succ n ih =>
    intro s s' i e
    unfold destroyLoop at e
    obtain ⟨b, _, e⟩ := Res.bind_eq_ok.1 e
    obtain ⟨s1, e1, e2⟩ := Res.bind_eq_ok.1 e
    exact (destory_same e1).trans (ih e2)

/-- Either the table stays, or it is a new one with one more block. -/
def Grown (s : St α) (d : Dq) (s' : St α) (d' : Dq) : Prop :=
  d'.blocks = d.blocks ∧ d'.bsz = d.bsz ∧ s'.nextA = s.nextA ∨ d'.blocks = some s.nextA ∧ d'.bsz = d.bsz + 1 ∧ s'.nextA = s.nextA + 1

theorem allocControl_next {s s' : St α} {n i j x : Nat} (e : allocControl s n i j = .ok (s', x)) : x = s.nextA ∧ s'.nextA = s.nextA + 1 := by
  unfold allocControl at e
  obtain ⟨s1, e1, e2⟩ := Res.bind_eq_ok.1 e
  cases e2
  have := allocLoop_same _ e1
  exact ⟨rfl, this.2⟩

theorem ensureBack_grown {s s' : St α} {d d' : Dq} (e : ensureBack s d 1 = .ok (s', d')) : Grown s d s' d' := by
  unfold ensureBack at e
  split at e
  · cases e; exact .inl ⟨rfl, rfl, rfl⟩
  · obtain ⟨⟨s1, x⟩, e1, e⟩ := Res.bind_eq_ok.1 e
    obtain ⟨⟨s2, d1⟩, e2, e⟩ := Res.bind_eq_ok.1 e
    obtain ⟨s3, e3, e⟩ := Res.bind_eq_ok.1 e
    cases e
    obtain ⟨rfl, h1⟩ := allocControl_next e1
    have h3 := destroyControl_same e3
    have h2 : s2.nextA = s1.nextA := by
      split at e2
      · cases e2; rfl
      · obtain ⟨s4, e4, e5⟩ := Res.bind_eq_ok.1 e2
        cases e5
        exact (moveLoop_same _ e4).2
    exact .inr ⟨rfl, rfl, by rw [h3.2, h2, h1]⟩

theorem ensureFront_grown {s s' : St α} {d d' : Dq} (e : ensureFront s d 1 = .ok (s', d')) : Grown s d s' d' := by
  unfold ensureFront at e
  split at e
  · cases e; exact .inl ⟨rfl, rfl, rfl⟩
  · obtain ⟨⟨s1, x⟩, e1, e⟩ := Res.bind_eq_ok.1 e
    obtain ⟨⟨s2, d1⟩, e2, e⟩ := Res.bind_eq_ok.1 e
    obtain ⟨s3, e3, e⟩ := Res.bind_eq_ok.1 e
    cases e
    obtain ⟨rfl, h1⟩ := allocControl_next e1
    have h3 := destroyControl_same e3
    have h2 : s2.nextA = s1.nextA := by
      split at e2
      · cases e2; rfl
      · obtain ⟨s4, e4, e5⟩ := Res.bind_eq_ok.1 e2
        cases e5
        exact (moveLoop_same _ e4).2
    exact .inr ⟨rfl, rfl, by rw [h3.2, h2, h1]⟩

/-- The deque at `k` has grown by at most one block. -/
def GrownAt (k : Slot) (s s' : St α) : Prop := ∃ d d', s.dq k = some d ∧ s'.dq k = some d' ∧ Grown s d s' d'

theorem getD_some {s : St α} {k : Slot} {d : Dq} (e : getD s k = .ok d) : s.dq k = some d := by
  unfold getD at e
  split at e
  · cases e; assumption
  · cases e

theorem emplaceBack_grown {s s' : St α} {k : Slot} {x : Arg α} (e : emplaceBack triv s k x = .ok s') : GrownAt k s s' := by
  unfold emplaceBack at e
  obtain ⟨d, e1, e⟩ := Res.bind_eq_ok.1 e
  obtain ⟨⟨s1, d1⟩, e2, e⟩ := Res.bind_eq_ok.1 e
  obtain ⟨p, _, e⟩ := Res.bind_eq_ok.1 e
  obtain ⟨v, _, e⟩ := Res.bind_eq_ok.1 e
  obtain ⟨s2, e3, e⟩ := Res.bind_eq_ok.1 e
  cases e
  have h := ensureBack_grown e2
  have h3 := construct_same e3
  refine ⟨d, _, getD_some e1, upd_same _ _ _, ?_⟩
  rcases h with ⟨a, b, c⟩ | ⟨a, b, c⟩
  · exact .inl ⟨a, b, h3.2.trans c⟩
  · exact .inr ⟨a, b, h3.2.trans c⟩

theorem emplaceFront_grown {s s' : St α} {k : Slot} {x : Arg α} (e : emplaceFront triv s k x = .ok s') : GrownAt k s s' := by
  unfold emplaceFront at e
  obtain ⟨d, e1, e⟩ := Res.bind_eq_ok.1 e
  obtain ⟨⟨s1, d1⟩, e2, e⟩ := Res.bind_eq_ok.1 e
  obtain ⟨p, _, e⟩ := Res.bind_eq_ok.1 e
  obtain ⟨v, _, e⟩ := Res.bind_eq_ok.1 e
  obtain ⟨s2, e3, e⟩ := Res.bind_eq_ok.1 e
  cases e
  have h := ensureFront_grown e2
  have h3 := construct_same e3
  refine ⟨d, _, getD_some e1, upd_same _ _ _, ?_⟩
  rcases h with ⟨a, b, c⟩ | ⟨a, b, c⟩
  · exact .inl ⟨a, b, h3.2.trans c⟩
  · exact .inr ⟨a, b, h3.2.trans c⟩

theorem decrease_table (d : Dq) : (decrease d).blocks = d.blocks ∧ (decrease d).bsz = d.bsz := by
  unfold decrease; split <;> exact ⟨rfl, rfl⟩

theorem popFront_grown {s s' : St α} {k : Slot} (e : popFront triv s k = .ok s') : GrownAt k s s' := by
  unfold popFront at e
  obtain ⟨d, e1, e⟩ := Res.bind_eq_ok.1 e
  obtain ⟨p, _, e⟩ := Res.bind_eq_ok.1 e
  obtain ⟨s2, e3, e⟩ := Res.bind_eq_ok.1 e
  cases e
  have h := decrease_table { d with first := d.first + 1 }
  exact ⟨d, _, getD_some e1, upd_same _ _ _, .inl ⟨h.1, h.2, (destory_same e3).2⟩⟩

theorem popBack_grown {s s' : St α} {k : Slot} (e : popBack triv s k = .ok s') : GrownAt k s s' := by
  unfold popBack at e
  obtain ⟨d, e1, e⟩ := Res.bind_eq_ok.1 e
  obtain ⟨p, _, e⟩ := Res.bind_eq_ok.1 e
  obtain ⟨s2, e3, e⟩ := Res.bind_eq_ok.1 e
  cases e
  have h := decrease_table { d with last := dec d.last }
  exact ⟨d, _, getD_some e1, upd_same _ _ _, .inl ⟨h.1, h.2, (destory_same e3).2⟩⟩

theorem clear_grown {s s' : St α} {k : Slot} (e : clear triv s k = .ok s') : GrownAt k s s' := by
  unfold clear at e
  obtain ⟨d, e1, e⟩ := Res.bind_eq_ok.1 e
  split at e
  · cases e; exact ⟨d, d, getD_some e1, getD_some e1, .inl ⟨rfl, rfl, rfl⟩⟩
  · obtain ⟨s2, e3, e⟩ := Res.bind_eq_ok.1 e
    cases e
    refine ⟨d, _, getD_some e1, upd_same _ _ _, .inl ⟨rfl, rfl, ?_⟩⟩
    show s2.nextA = _
    repeat' split at e3
    · cases e3; rfl
    · exact (destroyLoop_same _ e3).2
    · cases e3

theorem step_grown {s s' : St α} {o : Op α} (hp : o.plain = true) (e : step triv s o = .ok s') : GrownAt (.user 0) s s' := by
  unfold Op.plain at hp
  split at hp
  · exact emplaceBack_grown e
  · exact emplaceFront_grown e
  · obtain ⟨x, _, e⟩ := Res.bind_eq_ok.1 (show (elemRef s _ _ >>= fun x => emplaceBack triv s (.user 0) x) = _ from e)
    exact emplaceBack_grown e
  · obtain ⟨x, _, e⟩ := Res.bind_eq_ok.1 (show (elemRef s _ _ >>= fun x => emplaceFront triv s (.user 0) x) = _ from e)
    exact emplaceFront_grown e
  · exact popBack_grown e
  · exact popFront_grown e
  · exact clear_grown e
  · cases hp

/-- The sum of the numbers below `n`. -/
def tri : Nat → Nat
  | 0 => 0
  | n + 1 => tri n + n

theorem tri_eq (n : Nat) : 2 * tri n = n * (n - 1) := by
  induction n with
  | zero => rfl
  | succ n ih =>
    rw [tri, Nat.mul_add, ih]
    cases n with
    | zero => rfl
    | succ n => simp only [Nat.add_sub_cancel]; rw [Nat.mul_comm (n + 1) n, ← Nat.add_mul]

theorem tri_mono {m n : Nat} (h : m ≤ n) : tri m ≤ tri n := by
  induction n with
  | zero => have : m = 0 := by omega
            subst this; exact Nat.le_refl _
  | succ n ih =>
    by_cases e : m = n + 1
    · rw [e]; exact Nat.le_refl _
    · have := ih (by omega); simp only [tri]; omega

/-- If no call makes the deque grow by more than one block, the entries copied add up to the
difference of triangular numbers. -/
theorem copies_tri {o : Type} {stp : St α → o → Res (St α)} {rn : St α → List o → Res (St α)} {k : Slot} (P : o → Prop)
    (h0 : ∀ s, rn s [] = .ok s) (h1 : ∀ s op ops, rn s (op :: ops) = (do let s ← stp s op; rn s ops))
    (hg : ∀ s s' op, P op → stp s op = .ok s' → GrownAt k s s') (ops : List o) : ∀ {s s' : St α} {d d' : Dq}, (∀ op ∈ ops, P op) → rn s ops = .ok s' →
      s.dq k = some d → (∀ x, d.blocks = some x → x < s.nextA) → s'.dq k = some d' → ∃ n, copies stp k s ops = .ok n ∧ n + tri d.bsz = tri d'.bsz := by
  induction ops with
  | nil =>
    intro s s' d d' _ e hd _ hd'
    rw [h0] at e
    cases e
    rw [hd] at hd'
    cases hd'
    exact ⟨0, rfl, by omega⟩
  | cons op ops ih =>
    intro s s' d d' hP e hd hx hd'
    rw [h1] at e
    obtain ⟨s1, e1, e2⟩ := Res.bind_eq_ok.1 e
    obtain ⟨d0, d1, hd0, hd1, hG⟩ := hg s s1 op (hP op (by simp)) e1
    rw [hd] at hd0
    cases hd0
    have hx1 : ∀ x, d1.blocks = some x → x < s1.nextA := by
      intro x hb
      rcases hG with ⟨a, _, c⟩ | ⟨a, _, c⟩
      · rw [c]; exact hx x (by rw [← a, hb])
      · rw [a] at hb; cases hb; omega
    obtain ⟨n, en, hn⟩ := ih (fun q hq => hP q (by simp [hq])) e2 hd1 hx1 hd'
    refine ⟨copied (some d) (some d1) + n, by rw [copies, e1, Res.ok_bind, en, hd, hd1]; rfl, ?_⟩
    show (if d.blocks = d1.blocks then 0 else d.bsz) + n + tri d.bsz = tri d'.bsz
    rcases hG with ⟨a, b, _⟩ | ⟨a, b, _⟩
    · rw [if_pos a.symm]; rw [b] at hn; omega
    · have : d.blocks ≠ d1.blocks := by
        rw [a]; intro h; exact absurd (hx _ h) (by omega)
      rw [if_neg this]; rw [b, tri] at hn; omega

theorem make_new {s : St α} (e : step triv (St.init : St α) (.make 0) = .ok s) : s.dq (.user 0) = some ⟨none, 0, 0, 0, 0⟩ := by
  have : step triv (St.init : St α) (.make 0) = .ok (setD St.init (.user 0) ⟨none, 0, 0, 0, 0⟩) := rfl
  rw [this] at e
  cases e
  rfl

/-- C118, the exact cost: whatever is inserted and removed at both ends, while a new deque comes to have
`b` blocks it copies `b (b - 1) / 2` table entries. -/
theorem C118_exact (os : List (Op α)) (hp : ∀ o ∈ os, o.plain = true) {s : St α} (e : run triv St.init (.make 0 :: os) = .ok s) {d : Dq}
    (hd : getD s (.user 0) = .ok d) : copies (step triv) (.user 0) St.init (.make 0 :: os) = .ok (d.bsz * (d.bsz - 1) / 2) := by
  rw [run] at e
  obtain ⟨s1, e1, e2⟩ := Res.bind_eq_ok.1 e
  have h1 := make_new e1
  obtain ⟨n, en, hn⟩ := copies_tri (rn := run triv) (fun o => o.plain = true) (fun _ => rfl) (fun _ _ _ => rfl) (fun _ _ _ hp e => step_grown hp e) os hp e2 h1
    (fun x h => by cases h) (getD_some hd)
  rw [copies, e1, Res.ok_bind, en]
  have := tri_eq d.bsz
  simp only [tri] at hn
  show Res.ok (0 + n) = _
  rw [← this, show 0 + n = tri d.bsz by omega, Nat.mul_div_cancel_left _ (by decide)]

/-- Insertions at both ends and a removal. -/
example : (∀ o ∈ ([.pushBack 0 1, .pushFront 0 2, .pushBack 0 3, .popFront 0] : List (Op Nat)), o.plain = true) ∧
    ∃ s d, run true St.init (.make 0 :: [.pushBack 0 1, .pushFront 0 2, .pushBack 0 3, .popFront 0] : List (Op Nat)) = .ok s ∧ getD s (.user 0) = .ok d ∧ d.bsz = 2 := by
  refine ⟨by decide, ?_⟩
  obtain ⟨s, e, _⟩ := run_make (α := Nat) (triv := true)
  exact ⟨_, _, rfl, rfl, rfl⟩

theorem ok_bsz {s : St α} {q : Sq α} (h : Ok triv s (one q)) : ∃ d, getD s (.user 0) = .ok d ∧ d.bsz = q.bsz := by
  obtain ⟨γ, h⟩ := h
  obtain ⟨d, hd, r⟩ := h.rep (.user 0) q (one_zero q)
  exact ⟨d, by rw [getD, hd], r.rep.bsz.trans r.qb.symm⟩

/-- **C118 is violated.** `n` calls of `push_back` on a new deque copy `b (b - 1) / 2` table entries, `b`
being the number of blocks for `n` elements; that is more than any constant times `n`. -/
theorem C118_push_back_violated :
    (∀ vs : List α, copies (step triv) (.user 0) St.init (.make 0 :: vs.map (Op.pushBack 0)) = .ok ((vs.length + 15) / 16 * ((vs.length + 15) / 16 - 1) / 2)) ∧
    ∀ c : Nat, ∃ n, 0 < n ∧ c * n < (n + 15) / 16 * ((n + 15) / 16 - 1) / 2 := by
  constructor
  · intro vs
    obtain ⟨s1, e1, h1⟩ := run_make (α := α) (triv := triv)
    obtain ⟨s2, e2, h2⟩ := run_pushBacks vs h1
    obtain ⟨d, hd, hb⟩ := ok_bsz h2
    have hlay := pushAll_layout vs (Sq.nil : Sq α) rfl (by simp [Sq.nil])
    have hx := Sq.pushAll_xs vs (Sq.nil : Sq α)
    have hb' : (Sq.nil.pushAll vs).bsz = (vs.length + 15) / 16 := by rw [hlay.2, hx]; simp [Sq.nil]
    rw [← hb', ← hb]
    refine C118_exact _ (by intro o ho; obtain ⟨v, _, rfl⟩ := List.mem_map.1 ho; rfl) ?_ hd
    have := run_append (triv := triv) [.make 0] (vs.map (Op.pushBack 0)) St.init
    rw [e1] at this
    rw [show (Op.make 0 :: vs.map (Op.pushBack 0) : List (Op α)) = [.make 0] ++ vs.map (Op.pushBack 0) from rfl, this]
    exact e2
  · intro c
    refine ⟨16 * (32 * c + 2), by omega, ?_⟩
    rw [show (16 * (32 * c + 2) + 15) / 16 = 32 * c + 2 by omega, show 32 * c + 2 - 1 = 32 * c + 1 by omega]
    rw [Nat.lt_div_iff_mul_lt (by decide)]
    have h1 : c * (16 * (32 * c + 2)) * 2 = (32 * c + 2) * (32 * c) := by simp only [Nat.mul_add, Nat.add_mul, ← Nat.mul_assoc]; grind
    have h2 : (32 * c + 2) * (32 * c + 1) = (32 * c + 2) * (32 * c) + (32 * c + 2) := by rw [Nat.mul_add, Nat.mul_one]
    omega

/-- A thousand elements: 1953 entries copied. -/
example : (1000 + 15) / 16 * ((1000 + 15) / 16 - 1) / 2 = 1953 := rfl

theorem queueStep_grown {s s' : St α} {o : AOp α} (hp : (∃ v, o = .push 0 v) ∨ o = .pop 0) (e : queueStep triv s o = .ok s') : GrownAt (.user 0) s s' := by
  rcases hp with ⟨v, rfl⟩ | rfl
  · exact emplaceBack_grown e
  · exact popFront_grown e

theorem queue_copies (os : List (AOp α)) (hp : ∀ o ∈ os, (∃ v, o = .push 0 v) ∨ o = .pop 0) {s : St α} (e : queueRun triv St.init (.make 0 :: os) = .ok s) {d : Dq}
    (hd : getD s (.user 0) = .ok d) : copies (queueStep triv) (.user 0) St.init (.make 0 :: os) = .ok (tri d.bsz) := by
  rw [queueRun] at e
  obtain ⟨s1, e1, e2⟩ := Res.bind_eq_ok.1 e
  have h1 := make_new (triv := triv) e1
  obtain ⟨n, en, hn⟩ := copies_tri (rn := queueRun triv) (fun o => (∃ v, o = .push 0 v) ∨ o = .pop 0) (fun _ => rfl) (fun _ _ _ => rfl)
    (fun _ _ _ hp e => queueStep_grown hp e) os hp e2 h1 (fun x h => by cases h) (getD_some hd)
  rw [copies, e1, Res.ok_bind, en]
  simp only [tri] at hn
  show Res.ok (0 + n) = _
  rw [show 0 + n = tri d.bsz by omega]

theorem rounds_plain (v : α) (m : Nat) : ∀ o ∈ rounds v m, (∃ v, o = .push 0 v) ∨ o = .pop 0 := by
  induction m with
  | zero => intro o ho; cases ho
  | succ m ih =>
    intro o ho
    simp only [rounds, List.mem_cons] at ho
    rcases ho with rfl | rfl | ho
    · exact .inl ⟨v, rfl⟩
    · exact .inr rfl
    · exact ih o ho

/-- **C118 is violated** also for a queue that never holds more than two elements: `m` rounds of push and
pop copy `(m / 16 + 1) (m / 16) / 2` table entries. -/
theorem C118_queue_violated (v : α) (m : Nat) :
    copies (queueStep triv) (.user 0) St.init (.make 0 :: .push 0 v :: rounds v m) = .ok ((m / 16 + 1) * (m / 16) / 2) := by
  obtain ⟨s1, e1, h1⟩ := queueRun_make (α := α) (triv := triv)
  obtain ⟨s2, e2, h2⟩ := qpush h1 v
  obtain ⟨s3, e3, h3⟩ := rounds_ok v m (i := 0) h2
  rw [Nat.zero_add] at h3
  obtain ⟨d, hd, hb⟩ := ok_bsz h3
  have hb : d.bsz = m / 16 + 1 := hb
  have e : queueRun triv St.init (.make 0 :: .push 0 v :: rounds v m) = .ok s3 := by
    rw [show (AOp.make 0 :: .push 0 v :: rounds v m : List (AOp α)) = [.make 0] ++ ([.push 0 v] ++ rounds v m) from rfl, queueRun_append, e1]
    simp only [Res.ok_bind, List.cons_append, List.nil_append, queueRun, e2, e3]
  rw [queue_copies _ (fun o ho => ?_) e hd, hb]
  · have := tri_eq (m / 16 + 1)
    rw [Nat.add_sub_cancel] at this
    rw [← this, Nat.mul_div_cancel_left _ (by decide)]
  · simp only [List.mem_cons] at ho
    rcases ho with rfl | ho
    · exact .inl ⟨v, rfl⟩
    · exact rounds_plain v m o ho

/-- Sixteen thousand rounds copy half a million entries. -/
example : (16000 / 16 + 1) * (16000 / 16) / 2 = 500500 := rfl

theorem burst_plain (m : Nat) (os : List (AOp α)) : ∀ n c, burst m n c os → ∀ o ∈ os, (∃ v, o = .push 0 v) ∨ o = .pop 0 := by
  induction os with
  | nil => intro n c _ o ho; cases ho
  | cons p os ih =>
    intro n c hb o ho
    unfold burst at hb
    split at hb
    · rename_i heq; cases heq
    · rename_i heq
      cases heq
      rcases List.mem_cons.1 ho with rfl | ho
      · exact .inl ⟨_, rfl⟩
      · exact ih _ _ hb.2 o ho
    · rename_i heq
      cases heq
      rcases List.mem_cons.1 ho with rfl | ho
      · exact .inr rfl
      · exact ih _ _ hb.2 o ho
    · cases hb

/-- **C118, partial.** If the queue becomes empty at least once in every `m` pushes, then however long it
is used, all pushes together copy no more than `(m / 8 + 1) (m / 8) / 2` table entries. Missing: other
uses, see above. -/
theorem C118_bursts_partial (m : Nat) (os : List (AOp α)) (hb : burst m 0 0 os) :
    ∃ n, copies (queueStep triv) (.user 0) St.init (.make 0 :: os) = .ok n ∧ n ≤ (m / 8 + 1) * (m / 8) / 2 := by
  obtain ⟨s1, e1, h1⟩ := queueRun_make (α := α) (triv := triv)
  obtain ⟨s2, q2, e2, h2, h3⟩ := burst_run m os h1 (c := 0) hb (by simp [Sq.nil]) (by simp [Sq.nil])
  obtain ⟨d, hd, hbz⟩ := ok_bsz h2
  have e : queueRun triv St.init (.make 0 :: os) = .ok s2 := by
    rw [show (AOp.make 0 :: os : List (AOp α)) = [.make 0] ++ os from rfl, queueRun_append, e1]
    exact e2
  refine ⟨_, queue_copies _ (burst_plain m os 0 0 hb) e hd, ?_⟩
  have h4 := tri_mono (show d.bsz ≤ m / 8 + 1 by omega)
  have h5 := tri_eq (m / 8 + 1)
  rw [Nat.add_sub_cancel] at h5
  rw [← h5, Nat.mul_div_cancel_left _ (by decide)]
  exact h4

/-- Two bursts of at most three pushes. -/
example : burst 3 0 0 [AOp.push 0 'a', .push 0 'b', .pop 0, .push 0 'c', .pop 0, .pop 0, .push 0 'd', .pop 0] := by
  simp [burst]

end Verif.Deque
