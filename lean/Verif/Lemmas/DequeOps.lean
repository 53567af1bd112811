import Verif.Lemmas.DequeInv

/-! What each member function does to the invariant. -/

set_option backward.isDefEq.respectTransparency false

namespace Verif.Deque
open Verif
open Verif.Box (upd upd_same upd_ne upd_upd upd_comm upd_self)

variable {α : Type} {triv : Bool}

theorem Inv.fresh_of_load {s : St α} {σ γ} (h : Inv triv s σ γ) {p v} (hp : load s p = .ok v) : p.1 ≠ s.nextB := by
  intro e
  have := h.fb p.1 (by omega)
  simp [load, this] at hp

theorem eval_grown {s : St α} {σ γ} (h : Inv triv s σ γ) {x : Arg α} {v} (hx : x.eval s = .ok v) (a N) :
    x.eval (grown s a N) = .ok v := by
  cases x with
  | val w => exact hx
  | ref p =>
    have hp : load s p = .ok v := hx
    show load (grown s a N) p = .ok v
    rw [← hp]
    simp only [load, grown_blk (h.fresh_of_load hp)]

theorem getD_ok {s : St α} {k d} (h : s.dq k = some d) : getD s k = .ok d := by simp [getD, h]

theorem len_pos {bl : List Nat} (h : bl ≠ []) : 0 < bl.length := List.length_pos_iff.2 h

/-! ### push -/

theorem backCapacity_zero {s : St α} {d a bl q} (h : Rep triv s d a bl q)
    (hg : q.bsz = 0 ∨ (0 < q.xs.length ∧ q.first + q.xs.length = 16 * q.bsz)) : backCapacity d = 0 := by
  have hb := h.rep.bsz
  have hq := h.qb
  have hl := h.rep.last1
  simp only [backCapacity]
  split
  · rfl
  · have : d.last + 1 = 16 * d.bsz := by omega
    rw [if_pos (by omega)]; omega

theorem backCapacity_pos {s : St α} {d a bl q} (h : Rep triv s d a bl q)
    (hg : ¬ (q.bsz = 0 ∨ (0 < q.xs.length ∧ q.first + q.xs.length = 16 * q.bsz))) :
    backCapacity d ≥ 1 ∧ bl ≠ [] ∧ (0 < q.xs.length → q.first + q.xs.length < 16 * bl.length) := by
  have hb := h.rep.bsz
  have hq := h.qb
  have hl := h.rep.last1
  have hne : bl ≠ [] := by
    intro e; apply hg; left; rw [hq, e]; rfl
  have hbd := h.rep.bound hne
  have hpos := len_pos hne
  have h1 : d.last + 1 < 16 * bl.length := by
    by_cases hx : q.xs.length = 0
    · have := h.empt (List.eq_nil_of_length_eq_zero hx)
      omega
    · have : ¬ (q.first + q.xs.length = 16 * q.bsz) := fun e => hg (.inr ⟨by omega, e⟩)
      omega
  refine ⟨?_, hne, by omega⟩
  simp only [backCapacity]
  rw [if_neg (by omega), if_pos (by omega)]; omega

/-- `emplace_back` appends the value; the blocks in use stay, possibly followed by a new one. -/
theorem emplaceBack_grow {s : St α} {σ γ} (h : Inv triv s σ γ) {k q} (hk : σ k = some q) {x : Arg α} {v}
    (hx : x.eval s = .ok v) :
    ∃ s' γ', emplaceBack triv s k x = .ok s' ∧ Inv triv s' (upd σ k (some (q.pushBack v))) γ' ∧
      ∃ a' e, γ' = upd γ k (a', (γ k).2 ++ e) := by
  obtain ⟨d, hd, hr⟩ := h.rep k q hk
  by_cases hg : q.bsz = 0 ∨ (0 < q.xs.length ∧ q.first + q.xs.length = 16 * q.bsz)
  · have he := ensureBack_grow hr.rep h.fa (backCapacity_zero hr hg)
    have hr1 := hr.rep.grownBack h.fa h.fb
    obtain ⟨b, hbm, hgo, hc, hr2⟩ := hr1.putBack (by simp) (by
      intro hp
      have := hr.rep.bound_len (by intro e; simp [e] at hp)
      simp; omega) v
    refine ⟨_, _, ?_, h.update k (o := some { d with
          blocks := some s.nextA
          bsz := (γ k).2.length + 1
          size := d.size + 1
          last := if d.size = 0 then d.last else d.last + 1 })
      (((Eff.grown h k ((γ k).2.map some ++ [some s.nextB]) (bl' := (γ k).2 ++ [s.nextB]) (by simp)).setCell (some v)
        (p := (b, (q.first + q.xs.length) % 16)) hbm).setD k { d with
          blocks := some s.nextA
          bsz := (γ k).2.length + 1
          size := d.size + 1
          last := if d.size = 0 then d.last else d.last + 1 }) rfl ?_ ?_, ?_⟩
    · simp only [emplaceBack, getD_ok hd, he, Res.ok_bind]
      rw [hgo]
      simp only [Res.ok_bind, eval_grown h hx, hc]
    · intro q' hq'
      cases hq'
      refine ⟨_, rfl, ?_, ?_, ?_⟩
      · exact hr2.frame (fun _ _ => rfl) (fun _ _ => rfl)
      · simp only [Sq.pushBack, if_pos hg]; rw [hr.qb]; simp
      · intro e; simp [Sq.pushBack] at e
    · intro e; cases e
    · exact ⟨_, [s.nextB], rfl⟩
  · obtain ⟨h1, h2, h3⟩ := backCapacity_pos hr hg
    obtain ⟨b, hbm, hgo, hc, hr2⟩ := hr.rep.putBack h2 h3 v
    refine ⟨_, _, ?_, h.update k (o := some { d with
          size := d.size + 1
          last := if d.size = 0 then d.last else d.last + 1 })
      (((h.eff_refl k).setCell (some v) (p := (b, (q.first + q.xs.length) % 16)) hbm).setD k { d with
          size := d.size + 1
          last := if d.size = 0 then d.last else d.last + 1 }) rfl ?_ ?_, ?_⟩
    · simp only [emplaceBack, getD_ok hd, ensureBack, if_pos h1, Res.ok_bind]
      rw [hgo]
      simp only [Res.ok_bind, hx, hc]
    · intro q' hq'
      cases hq'
      refine ⟨_, rfl, ?_, ?_, ?_⟩
      · exact hr2.frame (fun _ _ => rfl) (fun _ _ => rfl)
      · simp only [Sq.pushBack, if_neg hg]; exact hr.qb
      · intro e; simp [Sq.pushBack] at e
    · intro e; cases e
    · exact ⟨_, [], by rw [List.append_nil]⟩

theorem emplaceBack_ok {s : St α} {σ γ} (h : Inv triv s σ γ) {k q} (hk : σ k = some q) {x : Arg α} {v}
    (hx : x.eval s = .ok v) :
    ∃ s' γ', emplaceBack triv s k x = .ok s' ∧ Inv triv s' (upd σ k (some (q.pushBack v))) γ' := by
  obtain ⟨s', γ', e, h', -⟩ := emplaceBack_grow h hk hx
  exact ⟨s', γ', e, h'⟩

/-- `emplace_front` prepends the value; the blocks in use stay, possibly preceded by a new one, and
the elements keep their place in them. -/
theorem emplaceFront_grow {s : St α} {σ γ} (h : Inv triv s σ γ) {k q} (hk : σ k = some q) {x : Arg α} {v q'}
    (hx : x.eval s = .ok v) (hq' : q.pushFront v = some q') :
    ∃ s' γ', emplaceFront triv s k x = .ok s' ∧ Inv triv s' (upd σ k (some q')) γ' ∧
      ∃ a' e, γ' = upd γ k (a', e ++ (γ k).2) ∧ (q.xs ≠ [] → q'.first + 1 = 16 * e.length + q.first) := by
  obtain ⟨d, hd, hr⟩ := h.rep k q hk
  have hqb := hr.qb
  by_cases h0 : q.bsz = 0
  · have hbl : (γ k).2 = [] := List.eq_nil_of_length_eq_zero (by omega)
    have ha : (γ k).1 = none := hr.rep.arrn.2 hbl
    have hrr := hr.rep
    rw [hbl, ha] at hrr
    have he := ensureFront_grow0 hrr
    have hr1 := hrr.grownFront0
    have hxs := (hrr.nil rfl).1
    obtain ⟨b, hbm, hgo, hc, hr2⟩ := hr1.putFront (by simp) (by simp) v
    simp only [Sq.pushFront, if_pos h0, Option.some.injEq] at hq'
    subst hq'
    simp only [hxs, List.length_nil, if_true] at hgo hc hr2
    refine ⟨_, _, ?_, h.update k (o := some ⟨some s.nextA, 1, 1, 15, 15⟩) (a' := some s.nextA) (bl' := [s.nextB])
      (s' := setD (setCell (grown s none [some s.nextB]) (b, 15 % 16) (some v)) k ⟨some s.nextA, 1, 1, 15, 15⟩) ?_ rfl ?_ ?_, ?_⟩
    · simp only [emplaceFront, getD_ok hd, he, Res.ok_bind, if_true]
      rw [hgo]
      simp only [Res.ok_bind, eval_grown h hx, hc]
    · have := Eff.grown h k [some s.nextB] (bl' := [s.nextB]) (by simp [hbl])
      rw [ha] at this ⊢
      exact (this.setCell (some v) (p := (b, 15 % 16)) hbm).setD k _
    · intro q' hq'
      cases hq'
      refine ⟨_, rfl, ?_, ?_, ?_⟩
      · rw [hxs]; exact hr2.frame (fun _ _ => rfl) (fun _ _ => rfl)
      · rfl
      · intro e; simp at e
    · intro e; cases e
    · exact ⟨_, [s.nextB], by rw [hbl]; rfl, fun hne => absurd hxs hne⟩
  · by_cases hf0 : q.first = 0
    · by_cases h1 : q.bsz = 1
      · obtain ⟨b0, hbl⟩ : ∃ b0, (γ k).2 = [b0] := List.length_eq_one_iff.1 (by omega)
        obtain ⟨y, ha⟩ : ∃ y, (γ k).1 = some y := by
          cases ha : (γ k).1 with
          | none => have := hr.rep.arrn.1 ha; rw [this] at hbl; cases hbl
          | some y => exact ⟨y, rfl⟩
        have hrr := hr.rep
        rw [hbl, ha] at hrr
        have he := ensureFront_grow1 hrr h.fa hf0
        have hr1 := hrr.grownFront1 h.fa h.fb
        obtain ⟨b, hbm, hgo, hc, hr2⟩ := hr1.putFront (by simp) (by omega) v
        simp only [Sq.pushFront, if_neg h0, if_pos hf0, if_pos h1, Option.some.injEq] at hq'
        subst hq'
        let n := if q.xs.length = 0 then q.first + 16 else q.first + 16 - 1
        let d' : Dq := { d with
          blocks := some s.nextA
          bsz := 2
          size := d.size + 1
          first := if d.size = 0 then d.first + 16 else dec (d.first + 16)
          last := d.last + 16 }
        refine ⟨_, _, ?_, h.update k (o := some d') (a' := some s.nextA) (bl' := [s.nextB, b0])
          (s' := setD (setCell (grown s (some y) [some s.nextB, some b0]) (b, n % 16) (some v)) k d') ?_ rfl ?_ ?_, ?_⟩
        · simp only [emplaceFront, getD_ok hd, he, Res.ok_bind]
          rw [hgo]
          simp only [Res.ok_bind, eval_grown h hx, hc]
          rfl
        · have := Eff.grown h k [some s.nextB, some b0] (bl' := [s.nextB, b0]) (by
            intro b; simp only [hbl, List.mem_cons, List.not_mem_nil, or_false]; exact or_comm)
          rw [ha] at this ⊢
          exact (this.setCell (some v) (p := (b, n % 16)) hbm).setD k _
        · intro q' hq'
          cases hq'
          refine ⟨_, rfl, ?_, ?_, ?_⟩
          · have := hr2.frame (s' := setD (setCell (grown s (some y) [some s.nextB, some b0]) (b, n % 16) (some v)) k d')
              (fun _ _ => rfl) (fun _ _ => rfl)
            simpa [hf0] using this
          · rfl
          · intro e; simp at e
        · intro e; cases e
        · refine ⟨_, [s.nextB], by rw [hbl]; rfl, fun hne => ?_⟩
          have := List.length_pos_iff.2 hne
          simp only [List.length_cons, List.length_nil, hf0]
          first | omega | (split <;> omega)
      · simp only [Sq.pushFront, if_neg h0, if_pos hf0, if_neg h1] at hq'
        cases hq'
    · have hne : (γ k).2 ≠ [] := by intro e; rw [e] at hqb; exact h0 hqb
      obtain ⟨b, hbm, hgo, hc, hr2⟩ := hr.rep.putFront hne (by omega) v
      simp only [Sq.pushFront, if_neg h0, if_neg hf0, Option.some.injEq] at hq'
      subst hq'
      have h1 : d.first ≥ 1 := by rw [hr.rep.fst]; omega
      let n := if q.xs.length = 0 then q.first else q.first - 1
      let d' : Dq := { d with
        size := d.size + 1
        first := if d.size = 0 then d.first else dec d.first }
      refine ⟨_, _, ?_, h.update k (o := some d') (a' := (γ k).1) (bl' := (γ k).2)
        (s' := setD (setCell s (b, n % 16) (some v)) k d')
        (((h.eff_refl k).setCell (some v) (p := (b, n % 16)) hbm).setD k d') rfl ?_ ?_, ?_⟩
      · simp only [emplaceFront, getD_ok hd, ensureFront, if_pos h1, Res.ok_bind]
        rw [hgo]
        simp only [Res.ok_bind, hx, hc]
        rfl
      · intro q' hq'
        cases hq'
        refine ⟨_, rfl, ?_, ?_, ?_⟩
        · exact hr2.frame (fun _ _ => rfl) (fun _ _ => rfl)
        · exact hqb
        · intro e; simp at e
      · intro e; cases e
      · refine ⟨_, [], rfl, fun hne => ?_⟩
        have := List.length_pos_iff.2 hne
        simp only [List.length_nil]
        first | omega | (split <;> omega)

theorem emplaceFront_ok {s : St α} {σ γ} (h : Inv triv s σ γ) {k q} (hk : σ k = some q) {x : Arg α} {v q'}
    (hx : x.eval s = .ok v) (hq' : q.pushFront v = some q') :
    ∃ s' γ', emplaceFront triv s k x = .ok s' ∧ Inv triv s' (upd σ k (some q')) γ' := by
  obtain ⟨s', γ', e, h', -⟩ := emplaceFront_grow h hk hx hq'
  exact ⟨s', γ', e, h'⟩

/-- Where `pushFront` has no specified result, the code is undefined. -/
theorem emplaceFront_ub {s : St α} {σ γ} (h : Inv triv s σ γ) {k q} (hk : σ k = some q) (x : Arg α) {v}
    (hq' : q.pushFront v = none) : emplaceFront triv s k x = .ub := by
  obtain ⟨d, hd, hr⟩ := h.rep k q hk
  have hqb := hr.qb
  have h2 : q.first = 0 ∧ 2 ≤ q.bsz := by
    simp only [Sq.pushFront] at hq'
    split at hq'
    · cases hq'
    · split at hq'
      · split at hq'
        · cases hq'
        · omega
      · cases hq'
  simp only [emplaceFront, getD_ok hd, Res.ok_bind, ensureFront_ub hr.rep h.fa h2.1 (by omega), Res.ub_bind]

/-! ### pop -/

/-- The heap after destroying the element at `p`. -/
def gone (triv : Bool) (s : St α) (p : Nat × Nat) : St α := if triv then s else setCell s p none

theorem destory_ok {s : St α} {bl : List Nat} {n b : Nat} (hb : bl[n / 16]? = some b) {v}
    (hv : cellAt s bl n = some v) : destory triv s (b, n % 16) = .ok (gone triv s (b, n % 16)) := by
  simp only [cellAt, hb, Option.bind_some, Option.bind_eq_some_iff] at hv
  obtain ⟨f, hf, hfv⟩ := hv
  cases triv <;> simp [destory, gone, hf, hfv]

theorem gone_arr (s : St α) (p) : (gone triv s p).arr = s.arr := by cases triv <;> rfl

theorem gone_live {s : St α} {p} {b f} (h : s.blk b = some f) : ∃ f', (gone triv s p).blk b = some f' := by
  cases triv
  · exact setCell_live h
  · exact ⟨f, h⟩

theorem cellAt_gone {s : St α} {bl : List Nat} (hn : bl.Nodup) {n b : Nat} (hb : bl[n / 16]? = some b) {f}
    (hf : s.blk b = some f) {j : Nat} (hj : triv = false → j ≠ n) :
    cellAt (gone triv s (b, n % 16)) bl j = cellAt s bl j := by
  cases triv with
  | true => rfl
  | false =>
    show cellAt (setCell s (b, n % 16) none) bl j = _
    rw [cellAt_setCell hn hb hf, if_neg (hj rfl)]

theorem cellAt_gone_same {s : St α} {bl : List Nat} (hn : bl.Nodup) {n b : Nat} (hb : bl[n / 16]? = some b) {f}
    (hf : s.blk b = some f) (ht : triv = false) : cellAt (gone triv s (b, n % 16)) bl n = none := by
  subst ht
  show cellAt (setCell s (b, n % 16) none) bl n = _
  rw [cellAt_setCell hn hb hf, if_pos rfl]

theorem Eff.gone {s s' : St α} {a bl a' bl'} (h : Eff s s' a bl a' bl') {p : Nat × Nat} (hp : p.1 ∈ bl') :
    Eff s (gone triv s' p) a bl a' bl' := by
  cases triv
  · exact h.setCell none hp
  · exact h

/-- A deque whose cells are all dead represents the empty sequence at the reset position. -/
theorem rep_reset {s : St α} {d : Dq} {a : Option Nat} {bl : List Nat} {xs : List α} {first bsz : Nat} (h : Rep0 triv s d a bl xs first) {s' : St α}
    (harr : ∀ x, a = some x → s'.arr x = s.arr x) (hlive : ∀ b ∈ bl, ∃ f, s'.blk b = some f) (hb : bsz = bl.length)
    (hd : triv = false → ∀ j, j < 16 * bl.length → cellAt s' bl j = none) :
    Rep triv s' { d with size := 0, first := d.bsz / 2 * 16, last := d.bsz / 2 * 16 } a bl ⟨[], bsz, bsz / 2 * 16⟩ where
  qb := hb
  empt _ := rfl
  rep :=
  { blocks := h.blocks
    bsz := h.bsz
    size := rfl
    fst := by show d.bsz / 2 * 16 = bsz / 2 * 16; rw [h.bsz, hb]
    last1 := by show d.bsz / 2 * 16 + 1 = bsz / 2 * 16 + _; rw [h.bsz, hb]; rfl
    bound := fun hne => by
      have := len_pos hne
      show d.bsz / 2 * 16 < _
      rw [h.bsz]; omega
    nil := fun e => ⟨rfl, by show bsz / 2 * 16 = 0; rw [hb, e]; rfl⟩
    arrn := h.arrn
    arrs := fun x hx => (harr x hx).trans (h.arrs x hx)
    cells := fun j hj => by simp at hj
    dead := fun ht j hj _ => hd ht j hj
    live := hlive
    nodup := h.nodup }

theorem popFront_ok {s : St α} {σ γ} (h : Inv triv s σ γ) {k q q'} (hk : σ k = some q) (hq' : q.popFront = some q') :
    ∃ s', popFront triv s k = .ok s' ∧ Inv triv s' (upd σ k (some q')) γ := by
  obtain ⟨d, hd, hr⟩ := h.rep k q hk
  have hne : q.xs ≠ [] := by intro e; simp [Sq.popFront, e] at hq'
  have hpos : 0 < q.xs.length := List.length_pos_iff.2 hne
  have hbl : (γ k).2 ≠ [] := fun e => hne (hr.rep.nil e).1
  have hlen := hr.rep.bound_len hne
  have hsz := hr.rep.size
  have hlast := hr.rep.last1
  obtain ⟨b, hb, hm, hg⟩ := getObj_ok hr.rep (n := q.first) (by omega)
  obtain ⟨f, hf⟩ := hr.rep.live b hm
  have hc0 : cellAt s (γ k).2 q.first = some q.xs[0] := by
    have := hr.rep.cells 0 hpos
    simpa [hpos] using this
  have hdst := destory_ok (triv := triv) hb hc0
  let d' := decrease { d with first := d.first + 1 }
  suffices hs : ∃ s' γ', popFront triv s k = .ok s' ∧ Inv triv s' (upd σ k (some q')) γ' ∧ γ' = upd γ k ((γ k).1, (γ k).2) by
    obtain ⟨s', γ', e, h', rfl⟩ := hs
    rw [show ((γ k).1, (γ k).2) = γ k from rfl, upd_self] at h'
    exact ⟨s', e, h'⟩
  refine ⟨_, _, ?_, h.update k (o := some d') (a' := (γ k).1) (bl' := (γ k).2)
    (s' := setD (gone triv s (b, q.first % 16)) k d') (((h.eff_refl k).gone hm).setD k d') ?_ ?_ ?_, rfl⟩
  · simp only [popFront, getD_ok hd, Res.ok_bind, hr.rep.fst, hg, hdst]
    simp only [d', hr.rep.fst]
  · cases triv <;> rfl
  · intro q'' e
    cases e
    refine ⟨_, rfl, ?_⟩
    cases hxs : q.xs with
    | nil => exact absurd hxs hne
    | cons x ys =>
      rw [hxs] at hsz
      cases ys with
      | nil =>
        simp only [Sq.popFront, hxs, Option.some.injEq] at hq'
        subst hq'
        have : d' = { d with size := 0, first := d.bsz / 2 * 16, last := d.bsz / 2 * 16 } := by
          simp [d', decrease, dec, hsz]
        rw [this]
        refine rep_reset hr.rep ?_ ?_ hr.qb ?_
        · intro x _; simp [setD, gone_arr]
        · intro c hc
          obtain ⟨f', hf'⟩ := hr.rep.live c hc
          exact gone_live hf'
        · intro ht j hj
          show cellAt (gone triv s (b, q.first % 16)) (γ k).2 j = none
          by_cases hj0 : j = q.first
          · subst hj0; exact cellAt_gone_same hr.rep.nodup hb hf ht
          · rw [cellAt_gone hr.rep.nodup hb hf (fun _ => hj0)]
            refine hr.rep.dead ht j hj ?_
            rw [hxs]; simp only [List.length_cons, List.length_nil]; omega
      | cons y ys =>
        simp only [Sq.popFront, hxs, Option.some.injEq] at hq'
        subst hq'
        have : d' = { d with size := d.size - 1, first := d.first + 1 } := by
          simp [d', decrease, dec, hsz]
        rw [this]
        rw [hxs] at hlen hlast
        simp only [List.length_cons] at hlen hlast hsz
        refine ⟨?_, hr.qb, by intro e; simp at e⟩
        exact {
          blocks := hr.rep.blocks
          bsz := hr.rep.bsz
          size := by simp [hsz]
          fst := by simp [hr.rep.fst]
          last1 := by show d.last + 1 = q.first + 1 + _; simp only [List.length_cons]; omega
          bound := hr.rep.bound
          nil := fun e => absurd e hbl
          arrn := hr.rep.arrn
          arrs := fun x hx => by
            show (gone triv s (b, q.first % 16)).arr x = _
            rw [gone_arr]; exact hr.rep.arrs x hx
          cells := fun j hj => by
            show cellAt (gone triv s (b, q.first % 16)) (γ k).2 (q.first + 1 + j) = _
            rw [cellAt_gone hr.rep.nodup hb hf (by omega), show q.first + 1 + j = q.first + (j + 1) by omega]
            have hj' : j < ys.length + 1 := hj
            rw [hr.rep.cells (j + 1) (by rw [hxs]; simp only [List.length_cons]; omega), hxs]
            simp
          dead := fun ht j hj h1 => by
            show cellAt (gone triv s (b, q.first % 16)) (γ k).2 j = none
            have h1' : j < q.first + 1 ∨ q.first + 1 + (ys.length + 1) ≤ j := h1
            by_cases hj0 : j = q.first
            · subst hj0; exact cellAt_gone_same hr.rep.nodup hb hf ht
            · rw [cellAt_gone hr.rep.nodup hb hf (fun _ => hj0)]
              refine hr.rep.dead ht j hj ?_
              rw [hxs]; simp only [List.length_cons]; omega
          live := fun c hc => by
            obtain ⟨f', hf'⟩ := hr.rep.live c hc
            exact gone_live hf'
          nodup := hr.rep.nodup }
  · intro e; cases e

theorem popBack_ok {s : St α} {σ γ} (h : Inv triv s σ γ) {k q q'} (hk : σ k = some q) (hq' : q.popBack = some q') :
    ∃ s', popBack triv s k = .ok s' ∧ Inv triv s' (upd σ k (some q')) γ := by
  obtain ⟨d, hd, hr⟩ := h.rep k q hk
  have hne : q.xs ≠ [] := by intro e; simp [Sq.popBack, e] at hq'
  have hpos : 0 < q.xs.length := List.length_pos_iff.2 hne
  have hbl : (γ k).2 ≠ [] := fun e => hne (hr.rep.nil e).1
  have hlen := hr.rep.bound_len hne
  have hsz := hr.rep.size
  have hlast := hr.rep.last1
  have hln : d.last = q.first + (q.xs.length - 1) := by omega
  obtain ⟨b, hb, hm, hg⟩ := getObj_ok hr.rep (n := d.last) (by omega)
  obtain ⟨f, hf⟩ := hr.rep.live b hm
  have hc0 : cellAt s (γ k).2 d.last = some q.xs[q.xs.length - 1] := by
    have := hr.rep.cells (q.xs.length - 1) (by omega)
    rw [hln, this]; simp
  have hdst := destory_ok (triv := triv) hb hc0
  let d' := decrease { d with last := dec d.last }
  suffices hs : ∃ s' γ', popBack triv s k = .ok s' ∧ Inv triv s' (upd σ k (some q')) γ' ∧ γ' = upd γ k ((γ k).1, (γ k).2) by
    obtain ⟨s', γ', e, h', rfl⟩ := hs
    rw [show ((γ k).1, (γ k).2) = γ k from rfl, upd_self] at h'
    exact ⟨s', e, h'⟩
  refine ⟨_, _, ?_, h.update k (o := some d') (a' := (γ k).1) (bl' := (γ k).2)
    (s' := setD (gone triv s (b, d.last % 16)) k d') (((h.eff_refl k).gone hm).setD k d') ?_ ?_ ?_, rfl⟩
  · simp only [popBack, getD_ok hd, Res.ok_bind, hg, hdst]
    rfl
  · cases triv <;> rfl
  · intro q'' e
    cases e
    refine ⟨_, rfl, ?_⟩
    cases hxs : q.xs with
    | nil => exact absurd hxs hne
    | cons x ys =>
      rw [hxs] at hsz
      cases ys with
      | nil =>
        simp only [Sq.popBack, hxs, Option.some.injEq] at hq'
        subst hq'
        have : d' = { d with size := 0, first := d.bsz / 2 * 16, last := d.bsz / 2 * 16 } := by
          simp [d', decrease, dec, hsz]
        rw [this]
        refine rep_reset hr.rep ?_ ?_ hr.qb ?_
        · intro x _; simp [setD, gone_arr]
        · intro c hc
          obtain ⟨f', hf'⟩ := hr.rep.live c hc
          exact gone_live hf'
        · intro ht j hj
          show cellAt (gone triv s (b, d.last % 16)) (γ k).2 j = none
          by_cases hj0 : j = d.last
          · subst hj0; exact cellAt_gone_same hr.rep.nodup hb hf ht
          · rw [cellAt_gone hr.rep.nodup hb hf (fun _ => hj0)]
            refine hr.rep.dead ht j hj ?_
            rw [hxs] at hln ⊢; simp only [List.length_cons, List.length_nil] at hln ⊢; omega
      | cons y ys =>
        simp only [Sq.popBack, hxs, Option.some.injEq] at hq'
        subst hq'
        rw [hxs] at hlen hlast hln
        simp only [List.length_cons] at hlen hlast hsz hln
        have : d' = { d with size := d.size - 1, last := d.last - 1 } := by
          have : d.last ≠ 0 := by omega
          simp [d', decrease, dec, hsz, this]
        rw [this]
        have hdl : ((x :: y :: ys).dropLast).length = ys.length + 1 := by simp
        refine ⟨?_, hr.qb, by intro e; simp at e⟩
        exact {
          blocks := hr.rep.blocks
          bsz := hr.rep.bsz
          size := by rw [hdl]; simp [hsz]
          fst := hr.rep.fst
          last1 := by show d.last - 1 + 1 = q.first + _; rw [hdl]; omega
          bound := fun e => by have := hr.rep.bound e; show d.last - 1 < _; omega
          nil := fun e => absurd e hbl
          arrn := hr.rep.arrn
          arrs := fun x hx => by
            show (gone triv s (b, d.last % 16)).arr x = _
            rw [gone_arr]; exact hr.rep.arrs x hx
          cells := fun j hj => by
            show cellAt (gone triv s (b, d.last % 16)) (γ k).2 (q.first + j) = ((x :: y :: ys).dropLast)[j]?
            have hj' : j < ((x :: y :: ys).dropLast).length := hj
            rw [hdl] at hj'
            rw [cellAt_gone hr.rep.nodup hb hf (by omega)]
            rw [hr.rep.cells j (by rw [hxs]; simp only [List.length_cons]; omega), hxs]
            rw [List.getElem?_dropLast, if_pos (by simp; omega)]
          dead := fun ht j hj h1 => by
            show cellAt (gone triv s (b, d.last % 16)) (γ k).2 j = none
            have h1' : j < q.first ∨ q.first + ((x :: y :: ys).dropLast).length ≤ j := h1
            rw [hdl] at h1'
            by_cases hj0 : j = d.last
            · subst hj0; exact cellAt_gone_same hr.rep.nodup hb hf ht
            · rw [cellAt_gone hr.rep.nodup hb hf (fun _ => hj0)]
              refine hr.rep.dead ht j hj ?_
              rw [hxs]; simp only [List.length_cons]; omega
          live := fun c hc => by
            obtain ⟨f', hf'⟩ := hr.rep.live c hc
            exact gone_live hf'
          nodup := hr.rep.nodup }
  · intro e; cases e

/-! ### clear -/

theorem destroyLoop_ok {d : Dq} {y : Nat} {bl : List Nat} (hd : d.blocks = some y) (hn : bl.Nodup) :
    ∀ (n i : Nat) (s : St α), s.arr y = some (bl.map some) → (∀ b ∈ bl, ∃ f, s.blk b = some f) → i + n ≤ 16 * bl.length →
      (∀ j, i ≤ j → j < i + n → ∃ v, cellAt s bl j = some v) →
      ∃ s', destroyLoop false s d n i = .ok s' ∧ s'.arr = s.arr ∧ s'.dq = s.dq ∧ s'.nextA = s.nextA ∧ s'.nextB = s.nextB ∧
        (∀ b, b ∉ bl → s'.blk b = s.blk b) ∧ (∀ b ∈ bl, ∃ f, s'.blk b = some f) ∧
        (∀ j, cellAt s' bl j = if i ≤ j ∧ j < i + n then none else cellAt s bl j) := by
  intro n
  induction n with
  | zero =>
    intro i s ha hl hle hc
    exact ⟨s, rfl, rfl, rfl, rfl, rfl, fun _ _ => rfl, hl, fun j => by rw [if_neg (by omega)]⟩
  | succ n ih =>
    intro i s ha hl hle hc
    have hi : i / 16 < bl.length := by omega
    have hb : bl[i / 16]? = some bl[i / 16] := by simp [hi]
    have hm : bl[i / 16] ∈ bl := List.getElem_mem _
    obtain ⟨f, hf⟩ := hl _ hm
    obtain ⟨v, hv⟩ := hc i (by omega) (by omega)
    have hg : getObj s d i = .ok (bl[i / 16], i % 16) := by simp [getObj, arrRd, hd, ha, hi]
    have hds := destory_ok (triv := false) hb hv
    have hcs := fun j => cellAt_setCell hn hb hf none j
    obtain ⟨s', e, h1, h2, h3, h4, h5, h6, h7⟩ := ih (i + 1) (setCell s (bl[i / 16], i % 16) none) ha
      (fun b hb => by
        obtain ⟨f, hf⟩ := hl b hb
        exact setCell_live hf) (by omega) (by
        intro j h1 h2
        rw [hcs, if_neg (by omega)]
        exact hc j (by omega) (by omega))
    refine ⟨s', ?_, h1, h2, h3, h4, ?_, h6, ?_⟩
    · simp only [destroyLoop, hg, hds, Res.ok_bind]; exact e
    · intro b hb'
      rw [h5 b hb', setCell_blk_ne (fun e => hb' (by rw [e]; exact hm))]
    · intro j
      rw [h7, hcs]
      by_cases h8 : j = i
      · subst h8; rw [if_neg (by omega), if_pos rfl, if_pos (by omega)]
      · rw [if_neg h8]
        by_cases h9 : i + 1 ≤ j ∧ j < i + 1 + n
        · rw [if_pos h9, if_pos (by omega)]
        · rw [if_neg h9, if_neg (by omega)]

theorem clear_ok {s : St α} {σ γ} (h : Inv triv s σ γ) {k q} (hk : σ k = some q) :
    ∃ s', clear triv s k = .ok s' ∧ Inv triv s' (upd σ k (some q.clear)) γ := by
  obtain ⟨d, hd, hr⟩ := h.rep k q hk
  have hsz := hr.rep.size
  by_cases h0 : q.xs.length = 0
  · refine ⟨s, ?_, ?_⟩
    · simp [clear, getD_ok hd, hsz, h0]
    · have : q.clear = q := by simp [Sq.clear, h0]
      rw [this, ← hk, upd_self]; exact h
  · have hne : q.xs ≠ [] := by intro e; simp [e] at h0
    have hbl : (γ k).2 ≠ [] := fun e => hne (hr.rep.nil e).1
    have hlen := hr.rep.bound_len hne
    have hlast := hr.rep.last1
    let d' : Dq := { d with size := 0, first := d.bsz / 2 * 16, last := d.bsz / 2 * 16 }
    have hcl : q.clear = ⟨[], q.bsz, q.bsz / 2 * 16⟩ := by simp [Sq.clear, h0, Sq.reset]
    rw [hcl]
    cases ht : triv with
    | true =>
      subst ht
      refine ⟨setD s k d', ?_, ?_⟩
      · simp [clear, getD_ok hd, hsz, h0, d']
      · have := h.update k (o := some d') (a' := (γ k).1) (bl' := (γ k).2) (q' := some ⟨[], q.bsz, q.bsz / 2 * 16⟩)
          ((h.eff_refl k).setD k d') rfl ?_ ?_
        · rw [show ((γ k).1, (γ k).2) = γ k from rfl, upd_self] at this; exact this
        · intro q' e; cases e
          exact ⟨_, rfl, rep_reset hr.rep (fun _ _ => rfl) hr.rep.live hr.qb (by intro e; cases e)⟩
        · intro e; cases e
    | false =>
      subst ht
      obtain ⟨y, ha⟩ : ∃ y, (γ k).1 = some y := by
        cases ha : (γ k).1 with
        | none => exact absurd (hr.rep.arrn.1 ha) hbl
        | some y => exact ⟨y, rfl⟩
      obtain ⟨s', e, h1, h2, h3, h4, h5, h6, h7⟩ := destroyLoop_ok (d := d) (hr.rep.blocks.trans ha) hr.rep.nodup
        (d.last + 1 - d.first) d.first s (hr.rep.arrs y ha) hr.rep.live (by rw [hr.rep.fst]; omega) (by
          intro j hj1 hj2
          rw [hr.rep.fst] at hj1 hj2
          have := hr.rep.cells (j - q.first) (by omega)
          rw [show q.first + (j - q.first) = j by omega] at this
          rw [this, List.getElem?_eq_getElem (by omega)]
          exact ⟨_, rfl⟩)
      refine ⟨setD s' k d', ?_, ?_⟩
      · have hle : d.first ≤ d.last + 1 := by rw [hr.rep.fst]; omega
        simp [clear, getD_ok hd, hsz, h0, d', hle, e]
      · have := h.update k (o := some d') (s' := setD s' k d') (a' := (γ k).1) (bl' := (γ k).2)
          (q' := some ⟨[], q.bsz, q.bsz / 2 * 16⟩) ?_ (by simp [setD, h2]) ?_ ?_
        · rw [show ((γ k).1, (γ k).2) = γ k from rfl, upd_self] at this; exact this
        · refine Eff.setD ?_ k d'
          exact {
            arr := fun x _ _ => by rw [h1]
            arrF := fun _ e1 e2 => absurd e1 e2
            blk := fun b hb _ => h5 b hb
            blkF := fun _ e1 e2 => absurd e1 e2
            newA := fun _ e1 => .inl e1
            newB := fun _ e1 => .inl e1
            fa := fun x hx => by rw [h1]; rw [h3] at hx; exact h.fa x hx
            fb := fun b hb => by
              rw [h4] at hb
              have hb0 := h.fb b hb
              have : b ∉ (γ k).2 := by
                intro hm
                obtain ⟨f, hf⟩ := hr.rep.live b hm
                rw [hb0] at hf; cases hf
              rw [h5 b this]; exact hb0 }
        · intro q' e; cases e
          refine ⟨_, rfl, rep_reset hr.rep (fun x _ => by simp [setD, h1]) h6 hr.qb ?_⟩
          intro _ j hj
          show cellAt s' (γ k).2 j = none
          rw [h7]
          by_cases h8 : d.first ≤ j ∧ j < d.first + (d.last + 1 - d.first)
          · rw [if_pos h8]
          · rw [if_neg h8]
            rw [hr.rep.fst] at h8
            exact hr.rep.dead rfl j hj (by omega)
        · intro e; cases e

end Verif.Deque
