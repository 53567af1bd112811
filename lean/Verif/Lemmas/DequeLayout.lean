import Verif.Lemmas.DequeAdapt

/-! Layout facts: where front insertion works, how many blocks are used. -/

set_option backward.isDefEq.respectTransparency false

namespace Verif.Deque
open Verif
open Verif.Box (upd upd_same upd_ne upd_upd upd_comm upd_self)

variable {α : Type} {triv : Bool}

/-- One deque, named 0. -/
def one (q : Sq α) : Nat → Option (Sq α) := upd (fun _ => none) 0 (some q)

theorem one_zero (q : Sq α) : one q 0 = some q := upd_same _ _ _

theorem one_upd (q q' : Sq α) : upd (one q) 0 (some q') = one q' := upd_upd _ _ _ _

/-! ### Few pushes -/

/-- Number of insertions made by a call. -/
def Op.pushes : Op α → Nat
  | .pushBack _ _ => 1
  | .pushFront _ _ => 1
  | .pushBackElem _ _ _ => 1
  | .pushFrontElem _ _ _ => 1
  | _ => 0

/-- The call inserts, removes or clears in deque 0 only. -/
def Op.plain : Op α → Bool
  | .pushBack 0 _ => true
  | .pushFront 0 _ => true
  | .pushBackElem 0 0 _ => true
  | .pushFrontElem 0 0 _ => true
  | .popBack 0 => true
  | .popFront 0 => true
  | .clear 0 => true
  | _ => false

/-- After `n` insertions the free space in front is at least this. -/
structure Few (q : Sq α) (n : Nat) : Prop where
  zero : q.bsz = 0 → q.xs = []
  one : q.bsz = 1 → 1 ≤ n ∧ (16 ≤ q.first + n ∨ q.first + max 1 q.xs.length ≤ n)
  two : 2 ≤ q.bsz → 1 ≤ n ∧ 17 ≤ q.first + n

theorem Few.nil : Few (Sq.nil : Sq α) 0 := by
  constructor <;> simp [Sq.nil]

theorem Few.pushBack {q : Sq α} {n} (h : Few q n) (hf : q.bsz = 0 → q.first = 0) (v : α) : Few (q.pushBack v) (n + 1) := by
  have hz := h.zero; have h1 := h.one; have h2 := h.two
  constructor
  · intro e
    simp only [Sq.pushBack] at e
    split at e
    · omega
    · rename_i hg; exact absurd (.inl e) hg
  · intro e
    simp only [Sq.pushBack, List.length_append, List.length_singleton] at e ⊢
    split at e
    · have hb : q.bsz = 0 := by omega
      have hx := hz hb; have := hf hb
      rw [hx]; simp; omega
    · have := h1 e; omega
  · intro e
    simp only [Sq.pushBack] at e ⊢
    split at e
    · rename_i hg
      by_cases hb : q.bsz = 1
      · have := h1 hb
        omega
      · have := h2 (by omega); omega
    · have := h2 e; omega

theorem Few.pushFront {q : Sq α} {n} (h : Few q n) (hn : n ≤ 16) (v : α) : ∃ q', q.pushFront v = some q' ∧ Few q' (n + 1) := by
  have hz := h.zero; have h1 := h.one; have h2 := h.two
  simp only [Sq.pushFront]
  by_cases hb : q.bsz = 0
  · rw [if_pos hb]
    refine ⟨_, rfl, ?_, ?_, ?_⟩
    · intro e; cases e
    · intro _; simp; omega
    · intro e; simp at e
  · rw [if_neg hb]
    by_cases hf : q.first = 0
    · rw [if_pos hf]
      by_cases hb1 : q.bsz = 1
      · rw [if_pos hb1]
        refine ⟨_, rfl, ?_, ?_, ?_⟩
        · intro e; cases e
        · intro e; cases e
        · intro _
          have := h1 hb1
          simp only
          split <;> omega
      · have := h2 (by omega); omega
    · rw [if_neg hf]
      refine ⟨_, rfl, ?_, ?_, ?_⟩
      · intro e; exact absurd e hb
      · intro e
        have := h1 e
        simp only [List.length_cons]
        split <;> omega
      · intro e
        have := h2 e
        simp only
        split <;> omega

theorem Few.reset {q : Sq α} {n} (h : Few q n) : Few q.reset n := by
  have h1 := h.one; have h2 := h.two
  constructor
  · intro _; rfl
  · intro e
    have := h1 e
    have e' : q.bsz = 1 := e
    simp only [Sq.reset, e']; simp; omega
  · intro e
    have e' : 2 ≤ q.bsz := e
    have := h2 e'
    simp only [Sq.reset]; omega

theorem Few.popBack {q q' : Sq α} {n} (h : Few q n) (hq : q.popBack = some q') : Few q' n := by
  have hz := h.zero; have h1 := h.one; have h2 := h.two
  simp only [Sq.popBack] at hq
  split at hq
  · cases hq
  · cases hq; exact h.reset
  · rename_i x y ys e; cases hq
    refine ⟨?_, ?_, h2⟩
    · intro e'; have := hz e'; rw [e] at this; cases this
    · intro e'
      have := h1 e'
      rw [e] at this
      simp only [List.length_cons] at this
      simp; omega

theorem Few.popFront {q q' : Sq α} {n} (h : Few q n) (hq : q.popFront = some q') : Few q' n := by
  have hz := h.zero; have h1 := h.one; have h2 := h.two
  simp only [Sq.popFront] at hq
  split at hq
  · cases hq
  · cases hq; exact h.reset
  · rename_i x y ys e; cases hq
    refine ⟨?_, ?_, ?_⟩
    · intro e'; have := hz e'; rw [e] at this; cases this
    · intro e'
      have := h1 e'
      rw [e] at this
      simp only [List.length_cons] at this ⊢
      omega
    · intro e'
      have := h2 e'
      simp only; omega

theorem Few.clear {q : Sq α} {n} (h : Few q n) : Few q.clear n := by
  simp only [Sq.clear]
  split
  · exact h
  · exact h.reset

theorem Inv.first_zero {s : St α} {σ γ} (h : Inv triv s σ γ) {k q} (hk : σ k = some q) (hb : q.bsz = 0) : q.first = 0 := by
  obtain ⟨d, _, hr⟩ := h.rep k q hk
  exact (hr.rep.nil (List.eq_nil_of_length_eq_zero (by rw [← hr.qb, hb]))).2

/-- Total number of insertions. -/
def pushes : List (Op α) → Nat
  | [] => 0
  | o :: os => o.pushes + pushes os

theorem few_run (os : List (Op α)) : ∀ {s : St α} {q n l}, Ok triv s (one q) → Few q n → (∀ o ∈ os, o.plain = true) →
    n + pushes os ≤ 17 → Seq.run (er (one q)) os = some l →
    ∃ s' τ', run triv s os = .ok s' ∧ Ok triv s' τ' ∧ er τ' = l := by
  induction os with
  | nil => intro s q n l h _ _ _ hs; cases hs; exact ⟨s, one q, rfl, h, rfl⟩
  | cons o os ih =>
    intro s q n l h hf hp hn hs
    have hf0 : q.bsz = 0 → q.first = 0 := fun e => by
      obtain ⟨γ, h⟩ := h
      exact h.first_zero (k := .user 0) (one_zero q) e
    simp only [Seq.run, Option.bind_eq_some_iff] at hs
    obtain ⟨l1, h1, h2⟩ := hs
    have ho : o.plain = true := hp o (by simp)
    have hp' : ∀ o ∈ os, o.plain = true := fun o h => hp o (by simp [h])
    simp only [pushes] at hn
    -- the layout step is defined and keeps `Few`
    have key : ∃ q', Spec.step (one q) o = some (one q') ∧ Few q' (n + o.pushes) := by
      rcases seq_step h h1 with ⟨τ', e, _⟩ | ⟨e0, e1, e2⟩
      · cases o with
        | pushBack k v =>
          cases k with
          | zero => exact ⟨_, by simp only [Spec.step, one_zero, Option.map_some, one_upd], hf.pushBack hf0 v⟩
          | succ k => cases ho
        | pushFront k v =>
          cases k with
          | zero =>
            simp only [Op.pushes] at hn
            obtain ⟨q', e', hf'⟩ := hf.pushFront (by omega) v
            exact ⟨q', by simp only [Spec.step, one_zero, Option.bind_some, e', Option.map_some, one_upd], hf'⟩
          | succ k => cases ho
        | pushBackElem k j i =>
          cases k with
          | zero =>
            cases j with
            | zero =>
              simp only [Spec.step, one_zero, Option.bind_some, Option.bind_eq_some_iff, Option.map_some, one_upd] at e
              obtain ⟨v, hv, e⟩ := e
              exact ⟨_, by simp only [Spec.step, one_zero, Option.bind_some, hv, Option.map_some, one_upd], hf.pushBack hf0 v⟩
            | succ j => cases ho
          | succ k => cases ho
        | pushFrontElem k j i =>
          cases k with
          | zero =>
            cases j with
            | zero =>
              simp only [Op.pushes] at hn
              simp only [Spec.step, one_zero, Option.bind_some, Option.bind_eq_some_iff] at e
              obtain ⟨v, hv, e⟩ := e
              obtain ⟨q', e', hf'⟩ := hf.pushFront (by omega) v
              exact ⟨q', by simp only [Spec.step, one_zero, Option.bind_some, hv, e', Option.map_some, one_upd], hf'⟩
            | succ j => cases ho
          | succ k => cases ho
        | popBack k =>
          cases k with
          | zero =>
            simp only [Spec.step, one_zero, Option.bind_some, Option.map_eq_some_iff] at e
            obtain ⟨q', e', _⟩ := e
            exact ⟨q', by simp only [Spec.step, one_zero, Option.bind_some, e', Option.map_some, one_upd], hf.popBack e'⟩
          | succ k => cases ho
        | popFront k =>
          cases k with
          | zero =>
            simp only [Spec.step, one_zero, Option.bind_some, Option.map_eq_some_iff] at e
            obtain ⟨q', e', _⟩ := e
            exact ⟨q', by simp only [Spec.step, one_zero, Option.bind_some, e', Option.map_some, one_upd], hf.popFront e'⟩
          | succ k => cases ho
        | clear k =>
          cases k with
          | zero => exact ⟨_, by simp only [Spec.step, one_zero, Option.map_some, one_upd], hf.clear⟩
          | succ k => cases ho
        | make k => cases ho
        | initList k vs => cases ho
        | copy k j => cases ho
        | move k j => cases ho
        | destroy k => cases ho
        | assignCopy k j => cases ho
        | assignMove k j => cases ho
        | swap k j => cases ho
      · exfalso
        cases o with
        | pushFront k v =>
          cases k with
          | zero =>
            simp only [Op.pushes] at hn
            obtain ⟨q', e', hf'⟩ := hf.pushFront (by omega) v
            simp [Spec.step, one_zero, e'] at e1
          | succ k => cases ho
        | pushFrontElem k j i =>
          cases k with
          | zero =>
            cases j with
            | zero =>
              simp only [Op.pushes] at hn
              simp only [Seq.step] at h1
              split at h1
              · rename_i xs v hk hj
                rw [Option.bind_eq_some_iff] at hj
                obtain ⟨ys, hj, hv⟩ := hj
                obtain ⟨p, hp1, hy⟩ := er_some hj
                rw [one_zero] at hp1; cases hp1
                subst hy
                obtain ⟨q', e', hf'⟩ := hf.pushFront (by omega) v
                simp [Spec.step, one_zero, e', hv] at e1
              · cases h1
            | succ j => cases ho
          | succ k => cases ho
        | _ => cases e0
    obtain ⟨q', e1, hf'⟩ := key
    obtain ⟨s1, f1, o1⟩ := step_ok h e1
    have hl : er (one q') = l1 := by
      rcases seq_step h h1 with ⟨τ', e, e2⟩ | ⟨_, e, _⟩
      · rw [e1] at e; cases e; exact e2
      · rw [e1] at e; cases e
    rw [← hl] at h2
    obtain ⟨s2, τ2, f2, o2, e3⟩ := ih o1 hf' hp' (by omega) h2
    exact ⟨s2, τ2, by simp [run, f1, f2], o2, e3⟩

/-! ### Only back insertions -/

theorem pushAll_layout (vs : List α) : ∀ q : Sq α, q.first = 0 → q.bsz = (q.xs.length + 15) / 16 →
    (q.pushAll vs).first = 0 ∧ (q.pushAll vs).bsz = ((q.pushAll vs).xs.length + 15) / 16 := by
  induction vs with
  | nil => intro q h1 h2; exact ⟨h1, h2⟩
  | cons v vs ih =>
    intro q h1 h2
    rw [Sq.pushAll]
    refine ih _ h1 ?_
    simp only [Sq.pushBack, List.length_append, List.length_singleton]
    split
    · rename_i hg; omega
    · rename_i hg
      have : ¬ (q.bsz = 0) := fun e => hg (.inl e)
      have : ¬ (0 < q.xs.length ∧ q.first + q.xs.length = 16 * q.bsz) := fun e => hg (.inr e)
      omega

theorem run_pushBacks (vs : List α) : ∀ {s : St α} {q}, Ok triv s (one q) →
    ∃ s', run triv s (vs.map (Op.pushBack 0)) = .ok s' ∧ Ok triv s' (one (q.pushAll vs)) := by
  induction vs with
  | nil => intro s q h; exact ⟨s, rfl, h⟩
  | cons v vs ih =>
    intro s q h
    obtain ⟨s1, e1, h1⟩ := step_ok h (o := .pushBack 0 v) (τ' := one (q.pushBack v)) (by
      simp only [Spec.step, one_zero, Option.map_some, one_upd])
    obtain ⟨s2, e2, h2⟩ := ih h1
    exact ⟨s2, by simp [run, e1, e2], h2⟩

theorem run_append (os ps : List (Op α)) : ∀ s : St α, run triv s (os ++ ps) = (do let s ← run triv s os; run triv s ps) := by
  induction os with
  | nil => intro s; rfl
  | cons o os ih =>
    intro s
    simp only [List.cons_append, run]
    cases h : step triv s o with
    | ok s1 => simp [ih]
    | ub => rfl
    | oof => rfl

theorem run_make : ∃ s : St α, run triv St.init [.make 0] = .ok s ∧ Ok triv s (one Sq.nil) := by
  obtain ⟨s, e, h⟩ := step_ok (triv := triv) (o := Op.make 0) (Ok.init (α := α)) rfl
  exact ⟨s, by simp [run, e], h⟩

/-! ### Only front insertions -/

theorem run_pushFronts_ub (vs : List α) : ∀ {s : St α} {q : Sq α}, Ok triv s (one q) → q.bsz = 2 → q.xs ≠ [] → q.first < vs.length →
    run triv s (vs.map (Op.pushFront 0)) = .ub := by
  induction vs with
  | nil => intro s q h h2 hx hl; simp at hl
  | cons v vs ih =>
    intro s q h h2 hx hl
    by_cases hf : q.first = 0
    · obtain ⟨γ, h⟩ := h
      have := emplaceFront_ub h (k := .user 0) (one_zero q) (.val v) (v := v) (by simp [Sq.pushFront, h2, hf])
      simp [run, step, this]
    · have hlen : q.xs.length ≠ 0 := by simpa using hx
      obtain ⟨s1, e1, h1⟩ := step_ok h (o := .pushFront 0 v) (τ' := one ⟨v :: q.xs, 2, q.first - 1⟩) (by
        simp only [Spec.step, one_zero, Option.bind_some, Sq.pushFront, h2, hf]
        simp [hlen, one_upd])
      simp only [List.length_cons] at hl
      have := ih h1 rfl (by simp) (by show q.first - 1 < _; omega)
      simp [run, e1, this]

theorem run_pushFronts1 (vs : List α) : ∀ {s : St α} {q : Sq α}, Ok triv s (one q) → q.bsz = 1 → q.xs ≠ [] → q.first + 16 < vs.length →
    run triv s (vs.map (Op.pushFront 0)) = .ub := by
  induction vs with
  | nil => intro s q h h2 hx hl; simp at hl
  | cons v vs ih =>
    intro s q h h2 hx hl
    have hlen : q.xs.length ≠ 0 := by simpa using hx
    simp only [List.length_cons] at hl
    by_cases hf : q.first = 0
    · obtain ⟨s1, e1, h1⟩ := step_ok h (o := .pushFront 0 v) (τ' := one ⟨v :: q.xs, 2, 15⟩) (by
        simp only [Spec.step, one_zero, Option.bind_some, Sq.pushFront, h2, hf]
        simp [hlen, one_upd])
      have := run_pushFronts_ub vs h1 rfl (by simp) (by show 15 < _; omega)
      simp [run, e1, this]
    · obtain ⟨s1, e1, h1⟩ := step_ok h (o := .pushFront 0 v) (τ' := one ⟨v :: q.xs, 1, q.first - 1⟩) (by
        simp only [Spec.step, one_zero, Option.bind_some, Sq.pushFront, h2, hf]
        simp [hlen, one_upd])
      have := ih h1 rfl (by simp) (by show q.first - 1 + 16 < _; omega)
      simp [run, e1, this]

/-! ### Blocks in use -/

/-- Exactly `n` blocks are allocated. -/
def LiveBlocks (s : St α) (n : Nat) : Prop := ∃ bl : List Nat, bl.Nodup ∧ bl.length = n ∧ ∀ b, (s.blk b).isSome = true ↔ b ∈ bl

theorem liveBlocks_one {s : St α} {q} (h : Ok triv s (one q)) : LiveBlocks s q.bsz := by
  obtain ⟨γ, h⟩ := h
  obtain ⟨d, hd, hr⟩ := h.rep (.user 0) q (one_zero q)
  refine ⟨(γ (.user 0)).2, hr.rep.nodup, hr.qb.symm, fun b => ⟨fun hb => ?_, fun hb => ?_⟩⟩
  · obtain ⟨f, hf⟩ := Option.isSome_iff_exists.1 hb
    obtain ⟨k, hk⟩ := h.blkO b f hf
    cases hσ : lift (one q) k with
    | none => rw [(h.dead k hσ).2] at hk; simp at hk
    | some q' =>
      cases k with
      | user n =>
        cases n with
        | zero => exact hk
        | succ n => simp [lift, one, upd] at hσ
      | par => cases hσ
      | loc => cases hσ
      | apar => cases hσ
  · obtain ⟨f, hf⟩ := hr.rep.live b hb
    simp [hf]

theorem qpush {s : St α} {q} (h : Ok triv s (one q)) (v : α) :
    ∃ s', queueStep triv s (.push 0 v) = .ok s' ∧ Ok triv s' (one (q.pushBack v)) := by
  obtain ⟨γ, h⟩ := h
  obtain ⟨s', γ', e, h'⟩ := emplaceBack_ok h (k := .user 0) (one_zero q) (x := .val v) rfl
  exact ⟨s', e, _, by rw [lift_upd, one_upd] at h'; exact h'⟩

theorem qpop {s : St α} {q q'} (h : Ok triv s (one q)) (hq : q.popFront = some q') :
    ∃ s', queueStep triv s (.pop 0) = .ok s' ∧ Ok triv s' (one q') := by
  obtain ⟨γ, h⟩ := h
  obtain ⟨s', e, h'⟩ := popFront_ok h (k := .user 0) (one_zero q) hq
  exact ⟨s', e, _, by rw [lift_upd, one_upd] at h'; exact h'⟩

/-- `m` rounds of push and pop on a queue holding one element. -/
def rounds (v : α) : Nat → List (AOp α)
  | 0 => []
  | m + 1 => .push 0 v :: .pop 0 :: rounds v m

theorem rounds_ok (v : α) (m : Nat) : ∀ {s : St α} {i}, Ok triv s (one ⟨[v], i / 16 + 1, i⟩) →
    ∃ s', queueRun triv s (rounds v m) = .ok s' ∧ Ok triv s' (one ⟨[v], (i + m) / 16 + 1, i + m⟩) := by
  induction m with
  | zero => intro s i h; exact ⟨s, rfl, h⟩
  | succ m ih =>
    intro s i h
    obtain ⟨s1, e1, h1⟩ := qpush h v
    have hq : (Sq.pushBack ⟨[v], i / 16 + 1, i⟩ v) = ⟨[v, v], (i + 1) / 16 + 1, i⟩ := by
      simp only [Sq.pushBack, List.length_singleton]
      split
      · rename_i hg
        have : (i + 1) / 16 + 1 = i / 16 + 1 + 1 := by omega
        rw [this]; rfl
      · rename_i hg
        have : ¬ (i + 1 = 16 * (i / 16 + 1)) := fun e => hg (.inr ⟨by omega, e⟩)
        have : (i + 1) / 16 + 1 = i / 16 + 1 := by omega
        rw [this]; rfl
    rw [hq] at h1
    obtain ⟨s2, e2, h2⟩ := qpop h1 (q' := ⟨[v], (i + 1) / 16 + 1, i + 1⟩) rfl
    obtain ⟨s3, e3, h3⟩ := ih h2
    refine ⟨s3, by simp [rounds, queueRun, e1, e2, e3], ?_⟩
    rw [show i + 1 + m = i + (m + 1) by omega] at h3
    exact h3

theorem queueRun_append (os ps : List (AOp α)) : ∀ s : St α,
    queueRun triv s (os ++ ps) = (do let s ← queueRun triv s os; queueRun triv s ps) := by
  induction os with
  | nil => intro s; rfl
  | cons o os ih =>
    intro s
    simp only [List.cons_append, queueRun]
    cases h : queueStep triv s o with
    | ok s1 => simp [ih]
    | ub => rfl
    | oof => rfl

theorem queueRun_make : ∃ s : St α, queueRun triv St.init [.make 0] = .ok s ∧ Ok triv s (one Sq.nil) := by
  obtain ⟨s, e, h⟩ := run_make (α := α) (triv := triv)
  exact ⟨s, e, h⟩

/-- The calls push to and pop from queue 0, pops only from a non-empty queue, and since the queue
was last empty never more than `m` elements were pushed. `n`: current size; `c`: pushes since the
queue was last empty. -/
def burst (m : Nat) : Nat → Nat → List (AOp α) → Prop
  | _, _, [] => True
  | n, c, .push 0 _ :: os => (if n = 0 then 1 else c + 1) ≤ m ∧ burst m (n + 1) (if n = 0 then 1 else c + 1) os
  | n, c, .pop 0 :: os => 0 < n ∧ burst m (n - 1) c os
  | _, _, _ :: _ => False

theorem burst_run (m : Nat) (os : List (AOp α)) : ∀ {s : St α} {q : Sq α} {c}, Ok triv s (one q) → burst m q.xs.length c os →
    8 * (q.bsz - 1) ≤ m → (0 < q.xs.length → ∃ b0, b0 ≤ q.bsz ∧ q.first + q.xs.length = 16 * (b0 / 2) + c) →
    ∃ s' q', queueRun triv s os = .ok s' ∧ Ok triv s' (one q') ∧ 8 * (q'.bsz - 1) ≤ m := by
  induction os with
  | nil => intro s q c h _ hm _; exact ⟨s, q, rfl, h, hm⟩
  | cons o os ih =>
    intro s q c h hb hm hc
    cases o with
    | push k v =>
      cases k with
      | zero =>
        simp only [burst] at hb
        obtain ⟨hb1, hb2⟩ := hb
        obtain ⟨s1, e1, h1⟩ := qpush h v
        have hlen : (q.pushBack v).xs.length = q.xs.length + 1 := by simp [Sq.pushBack]
        have hempt : q.xs.length = 0 → q.first = q.bsz / 2 * 16 := fun e => by
          obtain ⟨γ, h⟩ := h
          obtain ⟨d, _, hr⟩ := h.rep (.user 0) q (one_zero q)
          exact hr.empt (List.eq_nil_of_length_eq_zero e)
        have hinv : 8 * ((q.pushBack v).bsz - 1) ≤ m ∧ ∃ b0, b0 ≤ (q.pushBack v).bsz ∧
            (q.pushBack v).first + (q.pushBack v).xs.length = 16 * (b0 / 2) + (if q.xs.length = 0 then 1 else c + 1) := by
          rw [hlen]
          by_cases hx : q.xs.length = 0
          · have hfe := hempt hx
            simp only [if_pos hx] at hb1 ⊢
            simp only [Sq.pushBack]
            by_cases hz : q.bsz = 0
            · rw [if_pos (.inl hz)]
              exact ⟨by omega, 0, by omega, by omega⟩
            · rw [if_neg (by omega)]
              exact ⟨hm, q.bsz, by omega, by omega⟩
          · obtain ⟨b0, hb0, he⟩ := hc (by omega)
            simp only [if_neg hx] at hb1 ⊢
            simp only [Sq.pushBack]
            by_cases hg : q.bsz = 0 ∨ (0 < q.xs.length ∧ q.first + q.xs.length = 16 * q.bsz)
            · rw [if_pos hg]
              refine ⟨?_, b0, by omega, by omega⟩
              rcases hg with hg | hg
              · omega
              · omega
            · rw [if_neg hg]
              exact ⟨hm, b0, hb0, by omega⟩
        rw [← hlen] at hb2
        obtain ⟨s2, q2, e2, h2, h3⟩ := ih h1 hb2 hinv.1 (fun _ => hinv.2)
        exact ⟨s2, q2, by simp [queueRun, e1, e2], h2, h3⟩
      | succ k => simp [burst] at hb
    | pop k =>
      cases k with
      | zero =>
        simp only [burst] at hb
        obtain ⟨hb1, hb2⟩ := hb
        obtain ⟨q', hq'⟩ := Sq.popFront_some (q := q) (List.length_pos_iff.1 hb1)
        obtain ⟨s1, e1, h1⟩ := qpop h hq'
        obtain ⟨x, hx⟩ := Sq.popFront_xs hq'
        have hlen : q'.xs.length = q.xs.length - 1 := by rw [hx]; simp
        obtain ⟨b0, hb0, he⟩ := hc hb1
        have hinv : q'.bsz = q.bsz ∧ (0 < q'.xs.length → q'.first = q.first + 1) := by
          simp only [Sq.popFront] at hq'
          split at hq'
          · cases hq'
          · cases hq'; exact ⟨rfl, by simp [Sq.reset]⟩
          · cases hq'; exact ⟨rfl, fun _ => rfl⟩
        rw [← hlen] at hb2
        obtain ⟨s2, q2, e2, h2, h3⟩ := ih h1 hb2 (by rw [hinv.1]; exact hm) (fun hp => ⟨b0, by rw [hinv.1]; exact hb0, by
          rw [hinv.2 hp]; omega⟩)
        exact ⟨s2, q2, by simp [queueRun, e1, e2], h2, h3⟩
      | succ k => simp [burst] at hb
    | _ => simp [burst] at hb

end Verif.Deque
