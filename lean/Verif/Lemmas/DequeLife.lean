import Verif.Lemmas.DequeOps

/-! Construction, destruction, copying, moving, swapping; observers. -/

set_option backward.isDefEq.respectTransparency false

namespace Verif.Deque
open Verif
open Verif.Box (upd upd_same upd_ne upd_upd upd_comm upd_self)

variable {α : Type} {triv : Bool}

theorem make_ok {s : St α} {σ γ} (h : Inv triv s σ γ) {k} (hk : σ k = none) :
    ∃ s', make s k = .ok s' ∧ Inv triv s' (upd σ k (some Sq.nil)) γ := by
  obtain ⟨hd, hg⟩ := h.dead k hk
  refine ⟨setD s k ⟨none, 0, 0, 0, 0⟩, by simp [make, hd], ?_⟩
  have he := (h.eff_refl k).setD k ⟨none, 0, 0, 0, 0⟩
  have := h.update k (o := some ⟨none, 0, 0, 0, 0⟩) (q' := some Sq.nil) he rfl ?_ ?_
  · rw [show ((γ k).1, (γ k).2) = γ k from rfl, upd_self] at this; exact this
  · intro q e; cases e
    refine ⟨_, rfl, ?_⟩
    rw [hg]
    exact {
      qb := rfl
      empt := fun _ => by simp [Sq.nil]
      rep := {
        blocks := rfl
        bsz := rfl
        size := rfl
        fst := rfl
        last1 := rfl
        bound := fun e => absurd rfl e
        nil := fun _ => ⟨rfl, rfl⟩
        arrn := ⟨fun _ => rfl, fun _ => rfl⟩
        arrs := fun x hx => by cases hx
        cells := fun j hj => by simp [Sq.nil] at hj
        dead := fun _ j hj => by simp at hj
        live := fun b hb => by simp at hb
        nodup := by simp } }
  · intro e; cases e

/-! ### Destruction -/

theorem deallocLoop_ok {y : Nat} {bl : List Nat} (hn : bl.Nodup) :
    ∀ (n i : Nat) (s : St α), i + n = bl.length → s.arr y = some (bl.map some) →
      (∀ b ∈ bl.drop i, ∃ f, s.blk b = some f ∧ (triv = false → ∀ o, o < 16 → f o = none)) →
      ∃ s', deallocLoop triv s (some y) n i = .ok s' ∧ s'.arr = s.arr ∧ s'.dq = s.dq ∧ s'.nextA = s.nextA ∧
        s'.nextB = s.nextB ∧ ∀ b, s'.blk b = if b ∈ bl.drop i then none else s.blk b := by
  intro n
  induction n with
  | zero =>
    intro i s hin ha hl
    refine ⟨s, rfl, rfl, rfl, rfl, rfl, fun b => ?_⟩
    rw [List.drop_of_length_le (by omega)]; simp
  | succ n ih =>
    intro i s hin ha hl
    have hi : i < bl.length := by omega
    have hdrop : bl.drop i = bl[i] :: bl.drop (i + 1) := List.drop_eq_getElem_cons hi
    have hmem : ∀ b, b ∈ bl.drop i ↔ b = bl[i] ∨ b ∈ bl.drop (i + 1) := fun b => by
      rw [hdrop]; exact List.mem_cons
    have h1 : arrRd s (some y) i = .ok bl[i] := by simp [arrRd, ha, hi]
    obtain ⟨f, hf, hz⟩ := hl bl[i] ((hmem _).2 (.inl rfl))
    have h2 : dealloc triv s bl[i] = .ok { s with blk := upd s.blk bl[i] none } := by
      simp only [dealloc, hf]
      rw [if_pos]
      cases triv with
      | true => rfl
      | false =>
        simp only [Bool.false_or, List.all_eq_true, List.mem_range]
        intro o ho; rw [hz rfl o ho]; rfl
    have hnin : bl[i] ∉ bl.drop (i + 1) := by
      have : (bl.drop i).Nodup := (List.drop_sublist i bl).nodup hn
      rw [hdrop] at this
      exact (List.nodup_cons.1 this).1
    obtain ⟨s', e, e1, e2, e3, e4, e5⟩ := ih (i + 1) { s with blk := upd s.blk bl[i] none } (by omega) ha (by
      intro b hb
      obtain ⟨f, hf, hz⟩ := hl b (by rw [hdrop]; exact List.mem_cons_of_mem _ hb)
      refine ⟨f, ?_, hz⟩
      show upd s.blk bl[i] none b = _
      rw [upd_ne _ _ (fun e => hnin (by rw [← e]; exact hb))]; exact hf)
    refine ⟨s', ?_, e1, e2, e3, e4, ?_⟩
    · simp only [deallocLoop, h1, h2, Res.ok_bind]; exact e
    · intro b
      rw [e5 b]
      show (if b ∈ bl.drop (i + 1) then none else upd s.blk bl[i] none b) = _
      by_cases hb : b ∈ bl.drop (i + 1)
      · rw [if_pos hb, if_pos ((hmem b).2 (.inr hb))]
      · by_cases hb2 : b = bl[i]
        · rw [if_neg hb, if_pos ((hmem b).2 (.inl hb2)), hb2, upd_same]
        · rw [if_neg hb, if_neg (fun e => ((hmem b).1 e).elim hb2 hb), upd_ne _ _ hb2]

theorem block_dead {s : St α} {d a bl first} (h : Rep0 triv s d a bl [] first) {b f} (hb : b ∈ bl) (hf : s.blk b = some f)
    (ht : triv = false) (o : Nat) (ho : o < 16) : f o = none := by
  obtain ⟨i, hi, rfl⟩ := List.getElem_of_mem hb
  have := h.dead ht (16 * i + o) (by omega) (by simp; omega)
  simp only [cellAt] at this
  rw [show (16 * i + o) / 16 = i by omega, show (16 * i + o) % 16 = o by omega] at this
  simpa [hi, hf] using this

theorem clear_xs (q : Sq α) : q.clear.xs = [] := by
  simp only [Sq.clear]
  split
  · rename_i h; exact List.eq_nil_of_length_eq_zero h
  · rfl

theorem destroy_ok {s : St α} {σ γ} (h : Inv triv s σ γ) {k q} (hk : σ k = some q) :
    ∃ s', destroy triv s k = .ok s' ∧ Inv triv s' (upd σ k none) (upd γ k (none, [])) := by
  obtain ⟨s1, e1, h1⟩ := clear_ok h hk
  obtain ⟨d, hd, hr⟩ := h1.rep k q.clear (upd_same _ _ _)
  have hrr := hr.rep
  rw [clear_xs] at hrr
  cases ha : (γ k).1 with
  | none =>
    have hbl := hrr.arrn.1 ha
    have hb := hrr.blocks
    have hz := hrr.bsz
    refine ⟨{ s1 with dq := upd s1.dq k none }, ?_, ?_⟩
    · simp [destroy, e1, getD_ok hd, hb, hz, ha, hbl, deallocLoop, destroyControl]
    · have := h1.update k (o := none) (q' := none) (a' := none) (bl' := []) (s' := { s1 with dq := upd s1.dq k none })
        ?_ rfl (by intro q e; cases e) (fun _ => ⟨rfl, rfl, rfl⟩)
      · rw [upd_upd] at this; exact this
      · have he := h1.eff_refl k
        rw [ha, hbl] at he ⊢
        exact ⟨he.arr, he.arrF, he.blk, he.blkF, he.newA, he.newB, he.fa, he.fb⟩
  | some y =>
    have hy := hrr.arrs y ha
    obtain ⟨s2, e2, a2, d2, n2, m2, b2⟩ := deallocLoop_ok (triv := triv) (y := y) hrr.nodup (γ k).2.length 0 s1 (by omega) hy (by
      intro b hb
      rw [List.drop_zero] at hb
      obtain ⟨f, hf⟩ := hrr.live b hb
      exact ⟨f, hf, fun ht o ho => block_dead hrr hb hf ht o ho⟩)
    rw [List.drop_zero] at b2
    refine ⟨{ s2 with arr := upd s2.arr y none, dq := upd s2.dq k none }, ?_, ?_⟩
    · have : s2.arr y = some ((γ k).2.map some) := by rw [a2, hy]
      simp [destroy, e1, getD_ok hd, hrr.blocks, hrr.bsz, ha, e2, destroyControl, this]
    · have := h1.update k (o := none) (q' := none) (a' := none) (bl' := [])
        (s' := { s2 with arr := upd s2.arr y none, dq := upd s2.dq k none })
        ?_ (by simp [d2]) (by intro q e; cases e) (fun _ => ⟨rfl, rfl, rfl⟩)
      · rw [upd_upd] at this; exact this
      · rw [ha]
        exact {
          arr := fun x hx _ => by
            show upd s2.arr y none x = _
            rw [upd_ne _ _ (fun e => hx (by rw [e])), a2]
          arrF := fun x hx _ => by
            cases hx
            exact upd_same _ _ _
          blk := fun b hb _ => by rw [show ∀ A D, ({ s2 with arr := A, dq := D } : St α).blk = s2.blk from fun _ _ => rfl, b2, if_neg hb]
          blkF := fun b hb _ => by rw [show ∀ A D, ({ s2 with arr := A, dq := D } : St α).blk = s2.blk from fun _ _ => rfl, b2, if_pos hb]
          newA := fun x e => by cases e
          newB := fun b e => by simp at e
          fa := fun x hx => by
            show upd s2.arr y none x = none
            by_cases e : x = y
            · rw [e, upd_same]
            · rw [upd_ne _ _ e, a2]
              have hx' : s2.nextA ≤ x := hx
              rw [n2] at hx'
              exact h1.fa x hx'
          fb := fun b hb => by
            show s2.blk b = none
            rw [b2]
            split
            · rfl
            · have hb' : s2.nextB ≤ b := hb
              rw [m2] at hb'
              exact h1.fb b hb' }

/-! ### Swapping and moving -/

/-- The transposition of two slots. -/
def tr (k j : Slot) (x : Slot) : Slot := if x = j then k else if x = k then j else x

theorem tr_tr (k j x : Slot) : tr k j (tr k j x) = x := by
  simp only [tr]
  by_cases h1 : x = j
  · simp only [h1, if_true]
    by_cases h2 : k = j
    · simp [h2]
    · simp [h2]
  · by_cases h2 : x = k
    · subst h2; simp [h1]
    · simp [h1, h2]

theorem upd_swap {γ : Type} (f : Slot → γ) (k j : Slot) : upd (upd f k (f j)) j (f k) = fun x => f (tr k j x) := by
  funext x
  simp only [upd, tr]
  by_cases h1 : x = j
  · simp [h1]
  · by_cases h2 : x = k
    · subst h2; simp [h1]
    · simp [h1, h2]

theorem Inv.perm {s s' : St α} {σ γ} (h : Inv triv s σ γ) (k j : Slot) (hd : s'.dq = fun x => s.dq (tr k j x))
    (ha : s'.arr = s.arr) (hb : s'.blk = s.blk) (hA : s'.nextA = s.nextA) (hB : s'.nextB = s.nextB) :
    Inv triv s' (fun x => σ (tr k j x)) (fun x => γ (tr k j x)) where
  rep x q hq := by
    obtain ⟨d, hd1, hr⟩ := h.rep _ q hq
    exact ⟨d, by rw [hd]; exact hd1, hr.frame (fun _ _ => by rw [ha]) (fun _ _ => by rw [hb])⟩
  dead x hx := by
    obtain ⟨h1, h2⟩ := h.dead _ hx
    exact ⟨by rw [hd]; exact h1, h2⟩
  arrO x L hx := by
    rw [ha] at hx
    obtain ⟨i, hi⟩ := h.arrO x L hx
    exact ⟨tr k j i, by simp only [tr_tr]; exact hi⟩
  blkO x L hx := by
    rw [hb] at hx
    obtain ⟨i, hi⟩ := h.blkO x L hx
    exact ⟨tr k j i, by simp only [tr_tr]; exact hi⟩
  arrI i i' x h1 h2 := by
    have := h.arrI _ _ x h1 h2
    rw [← tr_tr k j i, this, tr_tr]
  blkI i i' x h1 h2 := by
    have := h.blkI _ _ x h1 h2
    rw [← tr_tr k j i, this, tr_tr]
  fa x hx := by rw [ha]; rw [hA] at hx; exact h.fa x hx
  fb x hx := by rw [hb]; rw [hB] at hx; exact h.fb x hx

theorem swap_ok {s : St α} {σ γ} (h : Inv triv s σ γ) {k j p q} (hk : σ k = some p) (hj : σ j = some q) :
    ∃ s', swap s k j = .ok s' ∧ Inv triv s' (upd (upd σ k (some q)) j (some p)) (fun x => γ (tr k j x)) := by
  obtain ⟨d, hd, -⟩ := h.rep k p hk
  obtain ⟨e, he, -⟩ := h.rep j q hj
  refine ⟨setD (setD s k e) j d, by simp [swap, getD_ok hd, getD_ok he], ?_⟩
  rw [← hj, ← hk, upd_swap]
  refine h.perm k j ?_ rfl rfl rfl rfl
  show upd (upd s.dq k (some e)) j (some d) = _
  rw [← hd, ← he, upd_swap]

theorem move_ok {s : St α} {σ γ} (h : Inv triv s σ γ) {k j q} (hk : σ k = none) (hj : σ j = some q) :
    ∃ s', move s k j = .ok s' ∧ Inv triv s' (upd (upd σ j (some Sq.nil)) k (some q)) (fun x => γ (tr j k x)) := by
  have hkj : j ≠ k := by rintro rfl; rw [hk] at hj; cases hj
  obtain ⟨s1, e1, h1⟩ := make_ok h hk
  obtain ⟨s2, e2, h2⟩ := swap_ok h1 (k := j) (j := k) (by rw [upd_ne _ _ hkj]; exact hj) (upd_same _ _ _)
  refine ⟨s2, by simp [move, e1, e2], ?_⟩
  rw [upd_comm _ _ _ (Ne.symm hkj), upd_upd] at h2
  exact h2

/-! ### Copying -/

/-- `vs` appended one by one. -/
def Sq.pushAll (q : Sq α) : List α → Sq α
  | [] => q
  | v :: vs => (q.pushBack v).pushAll vs

theorem Sq.pushAll_xs (vs : List α) : ∀ q : Sq α, (q.pushAll vs).xs = q.xs ++ vs := by
  induction vs with
  | nil => intro q; simp [Sq.pushAll]
  | cons v vs ih => intro q; rw [Sq.pushAll, ih]; simp [Sq.pushBack]

theorem pushAll_ok {σ} (vs : List α) : ∀ {s : St α} {γ} {k q}, Inv triv s (upd σ k (some q)) γ →
    ∃ s' g, pushAll triv k vs s = .ok s' ∧ Inv triv s' (upd σ k (some (q.pushAll vs))) (upd γ k g) := by
  induction vs with
  | nil => intro s γ k q h; exact ⟨s, γ k, rfl, by rw [upd_self]; exact h⟩
  | cons v vs ih =>
    intro s γ k q h
    obtain ⟨s1, γ1, e1, h1, a', e, rfl⟩ := emplaceBack_grow h (upd_same _ _ _) (x := .val v) rfl
    rw [upd_upd] at h1
    obtain ⟨s2, g, e2, h2⟩ := ih h1
    rw [upd_upd] at h2
    exact ⟨s2, g, by simp [pushAll, e1, e2], h2⟩

theorem initList_ok {s : St α} {σ γ} (h : Inv triv s σ γ) {k} (hk : σ k = none) (vs : List α) :
    ∃ s' g, initList triv s k vs = .ok s' ∧ Inv triv s' (upd σ k (some (Sq.nil.pushAll vs))) (upd γ k g) := by
  obtain ⟨s1, e1, h1⟩ := make_ok h hk
  obtain ⟨s2, γ2, e2, h2⟩ := pushAll_ok vs h1
  exact ⟨s2, γ2, by simp [initList, e1, e2], h2⟩

/-- The element of the deque at `j` that is `i` steps after the first. -/
theorem deref_ok {s : St α} {σ γ} (h : Inv triv s σ γ) {j q i v} (hj : σ j = some q) (hi : q.xs[i]? = some v) :
    ∃ p, derefIt s j (q.first + i) = .ok p ∧ load s p = .ok v := by
  obtain ⟨d, hd, hr⟩ := h.rep j q hj
  have hlt : i < q.xs.length := (List.getElem?_eq_some_iff.1 hi).1
  have hlen := hr.rep.bound_len (by intro e; simp [e] at hlt)
  obtain ⟨b, hb, hm, hg⟩ := getObj_ok hr.rep (n := q.first + i) (by omega)
  refine ⟨_, by simp [derefIt, getD_ok hd]; exact hg, load_cell hb ?_⟩
  rw [hr.rep.cells i hlt, hi]

theorem begin_ok {s : St α} {σ γ} (h : Inv triv s σ γ) {j q} (hj : σ j = some q) : begin' s j = .ok q.first := by
  obtain ⟨d, hd, hr⟩ := h.rep j q hj
  simp [begin', getD_ok hd, hr.rep.fst]

theorem end_ok {s : St α} {σ γ} (h : Inv triv s σ γ) {j q} (hj : σ j = some q) :
    end' s j = .ok (q.first + max 1 q.xs.length) := by
  obtain ⟨d, hd, hr⟩ := h.rep j q hj
  simp [end', getD_ok hd, hr.rep.last1]

theorem copyLoop_ok {σ : Slot → Option (Sq α)} {j qj} (hj : σ j = some qj) :
    ∀ (n i : Nat) {s : St α} {γ k q}, k ≠ j → i + n = qj.xs.length → Inv triv s (upd σ k (some q)) γ →
      ∃ s' g, copyLoop triv k j n (qj.first + i) s = .ok s' ∧
        Inv triv s' (upd σ k (some (q.pushAll (qj.xs.drop i)))) (upd γ k g) := by
  intro n
  induction n with
  | zero =>
    intro i s γ k q hkj hin h
    rw [List.drop_of_length_le (by omega)]
    exact ⟨s, γ k, rfl, by rw [upd_self]; exact h⟩
  | succ n ih =>
    intro i s γ k q hkj hin h
    have hi : i < qj.xs.length := by omega
    obtain ⟨p, hp, hl⟩ := deref_ok h (j := j) (q := qj) (i := i) (v := qj.xs[i])
      (by rw [upd_ne _ _ (Ne.symm hkj)]; exact hj) (by simp [hi])
    obtain ⟨s1, γ1, e1, h1, a', e, rfl⟩ := emplaceBack_grow h (upd_same _ _ _) (x := .ref p) hl
    rw [upd_upd] at h1
    obtain ⟨s2, γ2, e2, h2⟩ := ih (i + 1) hkj (by omega) h1
    rw [upd_upd γ] at h2
    refine ⟨s2, γ2, ?_, ?_⟩
    · rw [show qj.first + (i + 1) = qj.first + i + 1 by omega] at e2
      simp [copyLoop, hp, e1, e2]
    · rw [List.drop_eq_getElem_cons hi]; exact h2

theorem copy_ok {s : St α} {σ γ} (h : Inv triv s σ γ) {k j q} (hk : σ k = none) (hj : σ j = some q) (hne : q.xs ≠ []) :
    ∃ s' g, copy triv s k j = .ok s' ∧ Inv triv s' (upd σ k (some (Sq.nil.pushAll q.xs))) (upd γ k g) := by
  have hkj : k ≠ j := by rintro rfl; rw [hk] at hj; cases hj
  obtain ⟨s1, e1, h1⟩ := make_ok h hk
  have hj1 : upd σ k (some Sq.nil) j = some q := by rw [upd_ne _ _ (Ne.symm hkj)]; exact hj
  obtain ⟨s2, γ2, e2, h2⟩ := copyLoop_ok hj q.xs.length 0 hkj (by omega) h1
  have hpos : 0 < q.xs.length := List.length_pos_iff.2 hne
  refine ⟨s2, γ2, ?_, by simpa using h2⟩
  simp only [copy, e1, Res.ok_bind, begin_ok h1 hj1, end_ok h1 hj1]
  rw [if_pos (by omega), show q.first + max 1 q.xs.length - q.first = q.xs.length by omega]
  exact e2

/-- **Copying an empty deque** runs the loop body once: never an empty copy. -/
theorem copy_empty {s : St α} {σ γ} (h : Inv triv s σ γ) {k j q} (hk : σ k = none) (hj : σ j = some q) (he : q.xs = []) :
    copy triv s k j = .ub ∨ (triv = true ∧ 0 < q.bsz ∧
      ∃ v s' γ', copy triv s k j = .ok s' ∧ Inv triv s' (upd σ k (some (Sq.nil.pushBack v))) γ') := by
  have hkj : k ≠ j := by rintro rfl; rw [hk] at hj; cases hj
  obtain ⟨s1, e1, h1⟩ := make_ok h hk
  have hj1 : upd σ k (some Sq.nil) j = some q := by rw [upd_ne _ _ (Ne.symm hkj)]; exact hj
  have hrun : copy triv s k j = copyLoop triv k j 1 q.first s1 := by
    simp only [copy, e1, Res.ok_bind, begin_ok h1 hj1, end_ok h1 hj1, he]
    rw [if_pos (by omega)]
    simp
  obtain ⟨d, hd, hr⟩ := h1.rep j q hj1
  rw [hrun]
  by_cases hbl : (γ j).2 = []
  · have ha := hr.rep.arrn.2 hbl
    left
    simp [copyLoop, derefIt, getD_ok hd, getObj, hr.rep.blocks, ha, arrRd]
  · have hpos := len_pos hbl
    have hfi := hr.empt he
    have hqb := hr.qb
    have hlt : q.first < 16 * (γ j).2.length := by omega
    obtain ⟨b, hb, hm, hg⟩ := getObj_ok hr.rep hlt
    have hder : derefIt s1 j q.first = .ok (b, q.first % 16) := by simp [derefIt, getD_ok hd]; exact hg
    have hub : ∀ x : Arg α, Arg.eval s1 x = .ub → x = .ref (b, q.first % 16) → emplaceBack triv s1 k x = .ub := by
      intro x hx hxe
      obtain ⟨d0, hd0, hr0⟩ := h1.rep k Sq.nil (upd_same _ _ _)
      have he := ensureBack_grow hr0.rep h1.fa (backCapacity_zero hr0 (.inl rfl))
      have hr1 := hr0.rep.grownBack h1.fa h1.fb
      obtain ⟨v, hv⟩ | hv : (∃ v, cellAt s1 (γ j).2 q.first = some v) ∨ cellAt s1 (γ j).2 q.first = none := by
        cases cellAt s1 (γ j).2 q.first with
        | none => exact .inr rfl
        | some v => exact .inl ⟨v, rfl⟩
      · have := load_cell hb hv
        rw [hxe] at hx
        have hx' : load s1 (b, q.first % 16) = .ub := hx
        rw [this] at hx'; cases hx'
      · have hbn : b ≠ s1.nextB := by
          intro e
          obtain ⟨f, hf⟩ := hr.rep.live b hm
          rw [h1.fb b (by omega)] at hf; cases hf
        have hx2 : ∀ a N, Arg.eval (grown s1 a N) x = .ub := by
          intro a N
          rw [hxe]
          show load (grown s1 a N) (b, q.first % 16) = .ub
          rw [← load_cell_none hb hv]
          simp only [load, grown_blk hbn]
        simp only [emplaceBack, getD_ok hd0, he, Res.ok_bind]
        have : ∀ (D : Dq) (n : Nat) (S : St α), (do
            let p ← getObj S D n
            let v ← Arg.eval S x
            let s ← construct triv S p v
            .ok (setD s k D)) = (.ub : Res (St α)) ∨ Arg.eval S x ≠ .ub ∨ getObj S D n = .oof := by
          intro D n S
          cases h1 : getObj S D n with
          | ok p =>
            cases h2 : Arg.eval S x with
            | ub => left; rfl
            | ok v => right; left; intro e; cases e
            | oof => right; left; intro e; cases e
          | ub => left; rfl
          | oof => right; right; rfl
        rcases this _ _ _ with e | e | e
        · exact e
        · exact absurd (hx2 _ _) e
        · simp only [getObj, arrRd] at e
          split at e
          · cases e
          · split at e
            · cases e
            · split at e <;> cases e
    cases hc : cellAt s1 (γ j).2 q.first with
    | none =>
      left
      have : load s1 (b, q.first % 16) = .ub := load_cell_none hb hc
      simp only [copyLoop, hder, Res.ok_bind, hub (.ref (b, q.first % 16)) this rfl, Res.ub_bind]
    | some v =>
      right
      have ht : triv = true := by
        cases ht : triv with
        | true => rfl
        | false =>
          have := hr.rep.dead ht q.first hlt (by rw [he]; simp)
          rw [hc] at this; cases this
      refine ⟨ht, by omega, v, ?_⟩
      obtain ⟨s2, γ2, e2, h2⟩ := emplaceBack_ok h1 (upd_same _ _ _) (x := .ref (b, q.first % 16)) (load_cell hb hc)
      rw [upd_upd] at h2
      exact ⟨s2, γ2, by simp [copyLoop, hder, e2], h2⟩

/-! ### Observers -/

theorem size_ok {s : St α} {σ γ} (h : Inv triv s σ γ) {k q} (hk : σ k = some q) : size s k = .ok q.xs.length := by
  obtain ⟨d, hd, hr⟩ := h.rep k q hk
  simp [size, getD_ok hd, hr.rep.size]

theorem empty_ok {s : St α} {σ γ} (h : Inv triv s σ γ) {k q} (hk : σ k = some q) : empty s k = .ok q.xs.isEmpty := by
  obtain ⟨d, hd, hr⟩ := h.rep k q hk
  have := hr.rep.size
  cases hx : q.xs <;> simp [empty, getD_ok hd, this, hx]

/-- `d[n]` is the element at absolute index `n`. -/
theorem index_ok {s : St α} {σ γ} (h : Inv triv s σ γ) {k q i v} (hk : σ k = some q) (hi : q.xs[i]? = some v) :
    index s k (q.first + i) = .ok v := by
  obtain ⟨p, hp, hl⟩ := deref_ok h hk hi
  simp only [derefIt] at hp
  obtain ⟨d, hd, hp⟩ := Res.bind_eq_ok.1 hp
  simp [index, hd, hp, hl]

theorem index_below {s : St α} {σ γ} (h : Inv false s σ γ) {k q n} (hk : σ k = some q) (hn : n < q.first) :
    index s k n = .ub := by
  obtain ⟨d, hd, hr⟩ := h.rep k q hk
  by_cases hbl : (γ k).2 = []
  · have := (hr.rep.nil hbl).2; omega
  · have hb := hr.rep.bound hbl
    have hl := hr.rep.last1
    obtain ⟨b, hb, hm, hg⟩ := getObj_ok hr.rep (n := n) (by omega)
    simp only [index, getD_ok hd, Res.ok_bind, hg]
    exact load_cell_none hb (hr.rep.dead rfl n (by omega) (.inl hn))

theorem front_ok {s : St α} {σ γ} (h : Inv triv s σ γ) {k q v} (hk : σ k = some q) (hv : q.xs.head? = some v) :
    front s k = .ok v := by
  obtain ⟨d, hd, hr⟩ := h.rep k q hk
  simp only [front, getD_ok hd, Res.ok_bind, hr.rep.fst]
  have := index_ok h hk (i := 0) (v := v) (by rw [← hv, List.head?_eq_getElem?])
  simpa using this

theorem back_ok {s : St α} {σ γ} (h : Inv triv s σ γ) {k q v} (hk : σ k = some q) (hv : q.xs.getLast? = some v) :
    back s k = .ok v := by
  obtain ⟨d, hd, hr⟩ := h.rep k q hk
  have hl := hr.rep.last1
  rw [List.getLast?_eq_getElem?] at hv
  have : 0 < q.xs.length := by
    have := (List.getElem?_eq_some_iff.1 hv).1; omega
  have := index_ok h hk hv
  simp only [back, getD_ok hd, Res.ok_bind]
  rw [show d.last = q.first + (q.xs.length - 1) by omega]
  exact this

theorem collect_ok {s : St α} {σ γ} (h : Inv triv s σ γ) {k q} (hk : σ k = some q) :
    ∀ (n i : Nat), i + n = q.xs.length → collect s k n (q.first + i) = .ok (q.xs.drop i) := by
  intro n
  induction n with
  | zero => intro i hi; rw [List.drop_of_length_le (by omega)]; rfl
  | succ n ih =>
    intro i hi
    have hlt : i < q.xs.length := by omega
    obtain ⟨p, hp, hl⟩ := deref_ok h hk (i := i) (v := q.xs[i]) (by simp [hlt])
    have := ih (i + 1) (by omega)
    rw [← Nat.add_assoc] at this
    simp only [collect, hp, hl, Res.ok_bind, this]
    rw [List.drop_eq_getElem_cons hlt]

theorem toList_ok {s : St α} {σ γ} (h : Inv triv s σ γ) {k q} (hk : σ k = some q) (hne : q.xs ≠ []) :
    toList s k = .ok q.xs := by
  have hpos : 0 < q.xs.length := List.length_pos_iff.2 hne
  simp only [toList, begin_ok h hk, end_ok h hk, Res.ok_bind]
  rw [if_pos (by omega), show q.first + max 1 q.xs.length - q.first = q.xs.length by omega]
  have := collect_ok h hk q.xs.length 0 (by omega)
  simpa using this

end Verif.Deque
