import Verif.Model.Atomic

/-! Property C46: atomic read-modify-write operations. -/

set_option backward.isDefEq.respectTransparency false

namespace Verif.Atomic

/-- What an additive operation adds to the value, as a mathematical integer. -/
def delta {w : Nat} : Op w → Int
  | .fetchAdd v => v.toNat
  | .fetchSub v => - v.toNat
  | .preInc => 1
  | .postInc => 1
  | .preDec => -1
  | .postDec => -1
  | .addAssign v => v.toNat
  | .subAssign v => - v.toNat
  | _ => 0

/-- `fetch_add`, `fetch_sub`, `++`, `--`, `+=`, `-=` and `load`. -/
def Additive {w : Nat} : Op w → Prop
  | .load | .fetchAdd _ | .fetchSub _ | .preInc | .postInc | .preDec | .postDec | .addAssign _ | .subAssign _ => True
  | _ => False

/-- Sum over all operations of all threads. -/
def sumAll {w : Nat} (prog : List (List (Op w))) : Int := (prog.flatten.map delta).sum

/-- The operations done, oldest first. -/
def done {w : Nat} (s : St w) : List (Op w) := s.log.reverse.map (·.2.1)

/-- The operations thread `t` has done, oldest first. -/
def doneBy {w : Nat} (s : St w) (t : Nat) : List (Op w) := (s.log.reverse.filter (·.1 == t)).map (·.2.1)

theorem ofInt_add {w : Nat} (a b : Int) : BitVec.ofInt w (a + b) = BitVec.ofInt w a + BitVec.ofInt w b := BitVec.ofInt_add a b

theorem apply_delta {w : Nat} (x : BitVec w) {o : Op w} (h : Additive o) : (apply x o).1 = x + BitVec.ofInt w (delta o) := by
  have hn : ∀ v : BitVec w, BitVec.ofInt w (v.toNat : Int) = v := by
    intro v; simp
  have hneg : ∀ v : BitVec w, BitVec.ofInt w (-(v.toNat : Int)) = - v := by
    intro v; rw [BitVec.ofInt_neg, hn]
  cases o <;> simp only [Additive] at h <;> simp only [apply, delta]
  · simp
  · rw [hn]
  · rw [hneg, BitVec.sub_eq_add_neg]
  · simp
  · simp
  · rw [BitVec.sub_eq_add_neg, BitVec.ofInt_neg]; simp
  · rw [BitVec.sub_eq_add_neg, BitVec.ofInt_neg]; simp
  · rw [hn]
  · rw [hneg, BitVec.sub_eq_add_neg]

theorem sumAll_set {w : Nat} {prog : List (List (Op w))} {t : Nat} {o : Op w} {rest : List (Op w)} (h : prog[t]? = some (o :: rest)) :
    sumAll (prog.set t rest) + delta o = sumAll prog := by
  induction prog generalizing t with
  | nil => simp at h
  | cons p prog ih =>
    cases t with
    | zero => simp at h; subst h; simp [sumAll]; omega
    | succ t =>
      simp at h
      have := ih h
      simp only [sumAll, List.set_cons_succ, List.flatten_cons, List.map_append, List.sum_append] at this ⊢
      omega

theorem additive_set {w : Nat} {prog : List (List (Op w))} {t : Nat} {o : Op w} {rest : List (Op w)}
    (h : prog[t]? = some (o :: rest)) (ha : ∀ p ∈ prog, ∀ o ∈ p, Additive o) :
    Additive o ∧ ∀ p ∈ prog.set t rest, ∀ o ∈ p, Additive o := by
  have hm := List.mem_of_getElem? h
  refine ⟨ha _ hm o (by simp), ?_⟩
  intro p hp o' ho'
  rcases List.mem_or_eq_of_mem_set hp with hp | rfl
  · exact ha p hp o' ho'
  · exact ha _ hm o' (by simp [ho'])

/-- C46: no update is lost. However many threads, whatever they do and in whatever order:
at every moment the value is the initial value plus everything added so far, modulo
`2^w`. -/
theorem C46_sum {w : Nat} (x : BitVec w) (prog : List (List (Op w))) (ha : ∀ p ∈ prog, ∀ o ∈ p, Additive o) {s : St w}
    (h : Reach x prog s) : s.cell + BitVec.ofInt w (sumAll s.prog) = x + BitVec.ofInt w (sumAll prog) := by
  have key : s.cell + BitVec.ofInt w (sumAll s.prog) = x + BitVec.ofInt w (sumAll prog) ∧ ∀ p ∈ s.prog, ∀ o ∈ p, Additive o := by
    induction h with
    | start => exact ⟨rfl, ha⟩
    | step _ hs ih =>
      cases hs with
      | step ht =>
        obtain ⟨i1, i2⟩ := ih
        obtain ⟨a1, a2⟩ := additive_set ht i2
        refine ⟨?_, a2⟩
        rw [← i1, ← sumAll_set ht, apply_delta _ a1, ofInt_add]
        rw [BitVec.add_assoc, BitVec.add_comm (BitVec.ofInt w (delta _))]
  exact key.1

/-- C46: when all threads are finished, the value is the initial value plus the sum of all
operands of all threads, modulo `2^w`. -/
theorem C46_final {w : Nat} (x : BitVec w) (prog : List (List (Op w))) (ha : ∀ p ∈ prog, ∀ o ∈ p, Additive o) {s : St w}
    (h : Reach x prog s) (hdone : ∀ p ∈ s.prog, p = []) : s.cell = x + BitVec.ofInt w (sumAll prog) := by
  have h1 := C46_sum x prog ha h
  have h2 : s.prog.flatten = [] := by
    rw [List.flatten_eq_nil_iff]; exact hdone
  rw [← h1, sumAll, h2]
  simp

/-- A sequential execution: each operation sees the value left by the one before. What each
operation does to the value and what it returns is stated here in terms of integers
modulo `2^w`, or bit by bit. -/
inductive Sequential {w : Nat} (x : BitVec w) : List (Nat × Op w × BitVec w) → BitVec w → Prop
  | nil : Sequential x [] x
  | load {l y} (t : Nat) : Sequential x l y → Sequential x (l ++ [(t, .load, y)]) y
  | fetchAdd {l y} (t : Nat) (v : BitVec w) : Sequential x l y →
      Sequential x (l ++ [(t, .fetchAdd v, y)]) (BitVec.ofNat w (y.toNat + v.toNat))
  | fetchSub {l y} (t : Nat) (v : BitVec w) : Sequential x l y →
      Sequential x (l ++ [(t, .fetchSub v, y)]) (BitVec.ofInt w (y.toNat - v.toNat))
  | preInc {l y} (t : Nat) : Sequential x l y →
      Sequential x (l ++ [(t, .preInc, BitVec.ofNat w (y.toNat + 1))]) (BitVec.ofNat w (y.toNat + 1))
  | postInc {l y} (t : Nat) : Sequential x l y → Sequential x (l ++ [(t, .postInc, y)]) (BitVec.ofNat w (y.toNat + 1))
  | preDec {l y} (t : Nat) : Sequential x l y →
      Sequential x (l ++ [(t, .preDec, BitVec.ofInt w (y.toNat - 1))]) (BitVec.ofInt w (y.toNat - 1))
  | postDec {l y} (t : Nat) : Sequential x l y → Sequential x (l ++ [(t, .postDec, y)]) (BitVec.ofInt w (y.toNat - 1))
  | addAssign {l y} (t : Nat) (v : BitVec w) : Sequential x l y →
      Sequential x (l ++ [(t, .addAssign v, BitVec.ofNat w (y.toNat + v.toNat))]) (BitVec.ofNat w (y.toNat + v.toNat))
  | subAssign {l y} (t : Nat) (v : BitVec w) : Sequential x l y →
      Sequential x (l ++ [(t, .subAssign v, BitVec.ofInt w (y.toNat - v.toNat))]) (BitVec.ofInt w (y.toNat - v.toNat))
  | store {l y} (t : Nat) (v : BitVec w) : Sequential x l y → Sequential x (l ++ [(t, .store v, v)]) v
  | exchange {l y} (t : Nat) (v : BitVec w) : Sequential x l y → Sequential x (l ++ [(t, .exchange v, y)]) v
  | fetchAnd {l y} (t : Nat) (v z : BitVec w) (h : ∀ i, z.getLsbD i = (y.getLsbD i && v.getLsbD i)) : Sequential x l y →
      Sequential x (l ++ [(t, .fetchAnd v, y)]) z
  | fetchOr {l y} (t : Nat) (v z : BitVec w) (h : ∀ i, z.getLsbD i = (y.getLsbD i || v.getLsbD i)) : Sequential x l y →
      Sequential x (l ++ [(t, .fetchOr v, y)]) z
  | fetchXor {l y} (t : Nat) (v z : BitVec w) (h : ∀ i, z.getLsbD i = (y.getLsbD i != v.getLsbD i)) : Sequential x l y →
      Sequential x (l ++ [(t, .fetchXor v, y)]) z
  | andAssign {l y} (t : Nat) (v z : BitVec w) (h : ∀ i, z.getLsbD i = (y.getLsbD i && v.getLsbD i)) : Sequential x l y →
      Sequential x (l ++ [(t, .andAssign v, z)]) z
  | orAssign {l y} (t : Nat) (v z : BitVec w) (h : ∀ i, z.getLsbD i = (y.getLsbD i || v.getLsbD i)) : Sequential x l y →
      Sequential x (l ++ [(t, .orAssign v, z)]) z
  | xorAssign {l y} (t : Nat) (v z : BitVec w) (h : ∀ i, z.getLsbD i = (y.getLsbD i != v.getLsbD i)) : Sequential x l y →
      Sequential x (l ++ [(t, .xorAssign v, z)]) z

theorem sub_ofInt {w : Nat} (y v : BitVec w) : y - v = BitVec.ofInt w (y.toNat - v.toNat) := by
  rw [show (y.toNat : Int) - v.toNat = y.toNat + -(v.toNat : Int) from by omega, ofInt_add, BitVec.ofInt_neg]
  simp [BitVec.sub_eq_add_neg]

theorem add_ofNat {w : Nat} (y v : BitVec w) : y + v = BitVec.ofNat w (y.toNat + v.toNat) := by
  apply BitVec.eq_of_toNat_eq; simp [BitVec.toNat_add]

theorem inc_ofNat {w : Nat} (y : BitVec w) : y + 1 = BitVec.ofNat w (y.toNat + 1) := by
  apply BitVec.eq_of_toNat_eq; simp [BitVec.toNat_add]

theorem dec_ofInt {w : Nat} (y : BitVec w) : y - 1 = BitVec.ofInt w (y.toNat - 1) := by
  rw [show (y.toNat : Int) - 1 = y.toNat + -(1 : Int) from by omega, ofInt_add, BitVec.ofInt_neg]
  simp [BitVec.sub_eq_add_neg]

/-- C46: the operations have a sequential order that explains every value returned and the
current value, and in which each thread's operations are in program order. -/
theorem C46_sequential {w : Nat} (x : BitVec w) (prog : List (List (Op w))) {s : St w} (h : Reach x prog s) :
    Sequential x s.log.reverse s.cell ∧ ∀ (t : Nat) (p : List (Op w)), prog[t]? = some p → ∃ rest, s.prog[t]? = some rest ∧
      p = doneBy s t ++ rest := by
  have key : Sequential x s.log.reverse s.cell ∧ (∀ (t : Nat) (p : List (Op w)), prog[t]? = some p →
      ∃ rest, s.prog[t]? = some rest ∧ p = doneBy s t ++ rest) := by
    induction h with
    | start => exact ⟨.nil, fun t p hp => ⟨p, hp, rfl⟩⟩
    | @step s _ _ hs ih =>
      cases hs with
      | @step t o rest ht =>
        obtain ⟨i1, i2⟩ := ih
        refine ⟨?_, ?_⟩
        · simp only [List.reverse_cons]
          cases o <;> simp only [apply]
          · exact .load t i1
          · exact .store t _ i1
          · exact .exchange t _ i1
          · rw [add_ofNat]; exact .fetchAdd t _ i1
          · rw [sub_ofInt]; exact .fetchSub t _ i1
          · exact .fetchAnd t _ _ (fun i => BitVec.getLsbD_and) i1
          · exact .fetchOr t _ _ (fun i => BitVec.getLsbD_or) i1
          · exact .fetchXor t _ _ (fun i => by rw [BitVec.getLsbD_xor]) i1
          · rw [inc_ofNat]; exact .preInc t i1
          · rw [inc_ofNat]; exact .postInc t i1
          · rw [dec_ofInt]; exact .preDec t i1
          · rw [dec_ofInt]; exact .postDec t i1
          · rw [add_ofNat]; exact .addAssign t _ i1
          · rw [sub_ofInt]; exact .subAssign t _ i1
          · exact .andAssign t _ _ (fun i => BitVec.getLsbD_and) i1
          · exact .orAssign t _ _ (fun i => BitVec.getLsbD_or) i1
          · exact .xorAssign t _ _ (fun i => by rw [BitVec.getLsbD_xor]) i1
        · intro t' p hp
          obtain ⟨rest', h1, h2⟩ := i2 t' p hp
          have hlt : t < s.prog.length := by
            rcases Nat.lt_or_ge t s.prog.length with h | h
            · exact h
            · rw [List.getElem?_eq_none h] at ht; exact absurd ht (by simp)
          by_cases e : t = t'
          · subst e
            rw [ht] at h1; cases h1
            refine ⟨rest, by simp [hlt], ?_⟩
            rw [h2]
            simp [doneBy]
          · refine ⟨rest', by simp only [List.getElem?_set]; rw [if_neg e]; exact h1, ?_⟩
            rw [h2]
            simp [doneBy, e]
  exact key

/-- C46, a consequence users rely on: tickets are unique. If every operation is `x++` (or
`fetch_add(1)`) and there are fewer than `2^w` of them, no two of them return the same
value. -/
theorem C46_tickets {w : Nat} (x : BitVec w) (prog : List (List (Op w)))
    (ha : ∀ p ∈ prog, ∀ o ∈ p, o = .postInc ∨ o = .fetchAdd 1) {s : St w} (h : Reach x prog s) (hn : s.log.length ≤ 2 ^ w) :
    (s.log.map (·.2.2)).Nodup := by
  have key : (∀ p ∈ s.prog, ∀ o ∈ p, o = .postInc ∨ o = .fetchAdd 1) ∧ s.cell = x + BitVec.ofNat w s.log.length ∧
      s.log.map (·.2.2) = ((List.range s.log.length).map fun i => x + BitVec.ofNat w i).reverse := by
    clear hn
    induction h with
    | start => exact ⟨ha, by simp, rfl⟩
    | @step s _ _ hs ih =>
      cases hs with
      | @step t o rest ht =>
        obtain ⟨i1, i2, i3⟩ := ih
        have hm := List.mem_of_getElem? ht
        have ho := i1 _ hm o (by simp)
        have hap : apply s.cell o = (s.cell + 1, s.cell) := by
          rcases ho with rfl | rfl <;> rfl
        refine ⟨?_, ?_, ?_⟩
        · intro p hp o' ho'
          rcases List.mem_or_eq_of_mem_set hp with hp | rfl
          · exact i1 p hp o' ho'
          · exact i1 _ hm o' (by simp [ho'])
        · simp only [hap, List.length_cons]
          rw [i2, BitVec.add_assoc]
          congr 1
          apply BitVec.eq_of_toNat_eq; simp [BitVec.toNat_add]
        · simp only [hap, List.map_cons, List.length_cons, List.range_succ, List.map_append, List.reverse_append, i3]
          rw [i2]; rfl
  rw [key.2.2]
  refine List.pairwise_reverse.2 ?_
  rw [List.pairwise_map]
  refine List.Pairwise.imp_of_mem ?_ List.nodup_range
  intro a b hma hmb hab e0
  have e := (BitVec.add_right_inj x).1 e0
  have := congrArg BitVec.toNat e
  rw [BitVec.toNat_ofNat, BitVec.toNat_ofNat, Nat.mod_eq_of_lt (by have := List.mem_range.1 hmb; omega),
    Nat.mod_eq_of_lt (by have := List.mem_range.1 hma; omega)] at this
  exact hab this.symm

/-- C46 for compare-exchange: it returns true exactly if it replaced the expected value by
the new one; otherwise the value is unchanged and `expect` holds it. The strong form fails
only if the value differs from the expected one. -/
theorem C46_compare_exchange {w : Nat} (weak spur : Bool) (x expect v : BitVec w) :
    (∀ y e, compareExchange weak spur x expect v = (y, e, true) → x = expect ∧ y = v ∧ e = expect) ∧
    (∀ y e, compareExchange weak spur x expect v = (y, e, false) → y = x ∧ e = x ∧ (weak = false → x ≠ expect)) := by
  unfold compareExchange
  constructor
  · intro y e h
    split at h
    · rename_i hc; cases h; exact ⟨hc.1, rfl, rfl⟩
    · exact absurd h (by simp)
  · intro y e h
    split at h
    · exact absurd h (by simp)
    · rename_i hc
      cases h
      refine ⟨rfl, rfl, ?_⟩
      rintro rfl e
      exact hc ⟨e, rfl⟩

/- Examples: three threads, 8 bits, wrapping around. -/
def exProg : List (List (Op 8)) := [[.fetchAdd 200, .postDec], [.preInc], [.subAssign 3]]

theorem exReach : ∃ s, Reach (100 : BitVec 8) exProg s ∧ s.prog = [[], [], []] ∧ s.cell = 41 := by
  refine ⟨_, Reach.step (Reach.step (Reach.step (Reach.step Reach.start (Step.step (t := 1) rfl)) (Step.step (t := 0) rfl))
    (Step.step (t := 2) rfl)) (Step.step (t := 0) rfl), rfl, by decide⟩

example : ∃ s : St 8, s.cell = 100 + BitVec.ofInt 8 (sumAll exProg) ∧ sumAll exProg = 197 ∧
    Sequential 100 s.log.reverse s.cell := by
  obtain ⟨s, hr, hp, _⟩ := exReach
  have ha : ∀ p ∈ exProg, ∀ o ∈ p, Additive o := by
    intro p hp o ho
    simp only [exProg, List.mem_cons, List.not_mem_nil, or_false] at hp
    rcases hp with rfl | rfl | rfl <;> simp at ho
    · rcases ho with rfl | rfl <;> trivial
    · subst ho; trivial
    · subst ho; trivial
  exact ⟨s, C46_final 100 exProg ha hr (by rw [hp]; decide), by decide, (C46_sequential 100 exProg hr).1⟩

example : ∃ s : St 8, Reach (250 : BitVec 8) [[.postInc, .postInc], [.fetchAdd 1]] s ∧ s.log.length = 3 ∧ (s.log.map (·.2.2)).Nodup := by
  refine ⟨_, Reach.step (Reach.step (Reach.step Reach.start (Step.step (t := 1) rfl)) (Step.step (t := 0) rfl))
    (Step.step (t := 0) rfl), rfl, by decide⟩

example : compareExchange false true (5 : BitVec 8) 5 6 = (6, 5, true) ∧ compareExchange true true (5 : BitVec 8) 5 6 = (5, 5, false) := by
  decide

end Verif.Atomic
