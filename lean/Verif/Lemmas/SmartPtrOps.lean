import Verif.Lemmas.SmartPtr

/-! Helper lemmas for the smart pointers: every operation and every pending call keeps the invariant. -/

set_option backward.isDefEq.respectTransparency false

namespace Verif.SmartPtr

variable {N : Nat} {s : State} {W : List Work}

theorem Free.idle (h : Inv N s W) {i : Slot} (hf : Free N s i) : Idle W i := h.str.idle_of_free hf.2

theorem slot_ne {i j : Slot} {p q : Option Ptr} (hi : s.slot i = p) (hj : s.slot j = q) (h : p ≠ q) : i ≠ j := by
  rintro rfl; exact h (hi.symm.trans hj)

theorem setSlot_slot_eq (s : State) (i : Slot) (v : Option Ptr) : (setSlot s i v).slot i = v := upd_eq _ _ _
theorem setSlot_slot_ne (s : State) {i j : Slot} (v : Option Ptr) (h : j ≠ i) : (setSlot s i v).slot j = s.slot j :=
  upd_ne _ _ h

/-- Constructing a pointer object. -/
theorem InvE.construct {E : List Work} {i : Slot} {v : Ptr} (h : InvE N s W (refO (some v) ++ E)) (hf : Free N s i)
    (hv : FitP s v) : InvE N (setSlot s i (some v)) W E := by
  have := h.assign hf.1 (h.str.idle_of_free hf.2) hv
  rw [hf.2] at this; exact this

/-- Assigning over a known old value. -/
theorem InvE.assign' {E : List Work} {i : Slot} {u v : Ptr} (h : InvE N s W (refO (some v) ++ E))
    (hu : s.slot i = some u) (hid : Idle W i) (hv : FitP s v) :
    InvE N (setSlot s i (some v)) W (refO (some u) ++ E) := by
  have := h.assign (h.str.lt i u hu) hid hv
  rw [hu] at this; exact this

theorem good_uNew {f : Nat} {i : Slot} {p : Option Obj} (h : Inv N s W) (hf : Free N s i) (hp : Raw s p) :
    Good N W (exec f s (.uNew i p)) := by
  refine ⟨_, _, rfl, InvE.done0 ?_⟩
  refine InvE.construct (v := .uniq (some p)) (h.toE.unraw hp) hf (fun o b e hm => ?_)
  have := (h.core.man b o hm).1
  rw [hp o e] at this; exact absurd this (by simp)

theorem good_uMove {f : Nat} {i j : Slot} (h : Inv N s W) (hf : Free N s i) (hj : IsU s W j) :
    Good N W (exec f s (.uMove i j)) := by
  obtain ⟨p, hp, hjN, hid⟩ := IsU.out h.str hj
  refine ⟨setSlot (setSlot s j (some (.uniq (some none)))) i (some (.uniq (some p))), [],
    by simp only [exec, getU_of hp]; rfl, InvE.done0 ?_⟩
  have h1 := InvE.assign' (E := []) (v := .uniq (some none)) h.toE hp hid (fun o b e => absurd e (by simp))
  refine InvE.construct (v := .uniq (some p)) h1 ⟨hf.1, ?_⟩ (fun o b e => ?_)
  · rw [setSlot_slot_ne]
    · exact hf.2
    · exact slot_ne hf.2 hp (by simp)
  · exact h.val.un j o b (by rw [hp, e])

theorem good_uAssign {f : Nat} {i j : Slot} (h : Inv N s W) (hi : IsU s W i) (hj : IsU s W j) :
    Good N W (exec f s (.uAssign i j)) := by
  obtain ⟨p, hp, hjN, hid⟩ := IsU.out h.str hj
  obtain ⟨q, hq, hiN, hid'⟩ := IsU.out h.str hi
  have h1 := InvE.assign' (E := []) (v := .uniq (some none)) h.toE hp hid (fun o b e => absurd e (by simp))
  have hi2 : ∃ old, (setSlot s j (some (.uniq (some none)))).slot i = some (.uniq (some old)) := by
    by_cases e : i = j
    · subst e; exact ⟨none, setSlot_slot_eq _ _ _⟩
    · exact ⟨q, by rw [setSlot_slot_ne _ _ e, hq]⟩
  obtain ⟨old, hold⟩ := hi2
  refine ⟨setSlot (setSlot s j (some (.uniq (some none)))) i (some (.uniq (some p))), delOpt old,
    by simp only [exec, getU_of hp, Res.ok_bind, getU_of hold], ?_⟩
  have h2 := InvE.assign' (v := .uniq (some p)) h1 hold hid' (fun o b e => h.val.un j o b (by rw [hp, e]))
  exact h2.done _ (quiet_delOpt _) (fun w => by simp [refO])

theorem good_uReset {f : Nat} {i : Slot} {p : Option Obj} (h : Inv N s W) (hi : IsU s W i) (hp : Raw s p) :
    Good N W (exec f s (.uReset i p)) := by
  obtain ⟨q, hq, hiN, hid⟩ := IsU.out h.str hi
  refine ⟨setSlot (unraw s p) i (some (.uniq (some p))), delOpt q, by simp only [exec, getU_of hq]; rfl, ?_⟩
  have h1 := h.toE.unraw hp
  have h2 := InvE.assign' (s := unraw s p) (v := .uniq (some p)) h1 hq hid (fun o b e hm => by
    have := (h.core.man b o hm).1
    rw [hp o e] at this; exact absurd this (by simp))
  exact h2.done _ (quiet_delOpt _) (fun w => by simp [refO])

theorem good_uRelease {f : Nat} {i : Slot} (h : Inv N s W) (hi : IsU s W i) : Good N W (exec f s (.uRelease i)) := by
  obtain ⟨q, hq, hiN, hid⟩ := IsU.out h.str hi
  refine ⟨mkraw (setSlot s i (some (.uniq (some none)))) q, [], by simp only [exec, getU_of hq]; rfl, InvE.done0 ?_⟩
  have h1 := InvE.assign' (E := []) (v := .uniq (some none)) h.toE hq hid (fun o b e => absurd e (by simp))
  exact InvE.mkraw (E := []) h1 (fun o b e => h.val.un i o b (by rw [hq, e]))

theorem setSlot_setSlot (s : State) (i : Slot) (u v : Option Ptr) : setSlot (setSlot s i u) i v = setSlot s i v := by
  simp only [setSlot]; congr 1; funext x; simp only [upd]; split <;> rfl

theorem setSlot_comm (s : State) {i j : Slot} (u v : Option Ptr) (h : i ≠ j) :
    setSlot (setSlot s i u) j v = setSlot (setSlot s j v) i u := by
  simp only [setSlot]; congr 1; funext x; simp only [upd]
  by_cases e : x = j
  · subst e; rw [if_pos rfl, if_neg (Ne.symm h), if_pos rfl]
  · rw [if_neg e, if_neg e]

/-- Taking the value out of a pointer object, leaving null. -/
theorem InvE.take {E : List Work} {i : Slot} {u : Ptr} (k : Kind) (h : InvE N s W E) (hu : s.slot i = some u)
    (hid : Idle W i) : InvE N (setSlot s i (some k.null)) W (refO (some u) ++ E) := by
  refine InvE.assign' (v := k.null) ?_ hu hid ?_
  · cases k <;> exact h
  · cases k
    · exact fun o b e => absurd e (by simp)
    · exact rfl
    · exact rfl

theorem InvE.swap {E : List Work} {i j : Slot} {u v : Ptr} (h : InvE N s W E) (hu : s.slot i = some u)
    (hv : s.slot j = some v) (hid : Idle W i) (hid' : Idle W j) (fu : FitP s u) (fv : FitP s v) :
    InvE N (setSlot (setSlot s i (some v)) j (some u)) W E := by
  by_cases e : i = j
  · subst e
    rw [hu] at hv; cases hv
    have h1 := h.take .u hu hid
    have h2 := InvE.assign' (v := u) h1 (setSlot_slot_eq _ _ _) hid fu
    rw [setSlot_setSlot] at h2 ⊢; exact h2
  · have h1 := h.take .u hu hid
    have h2 := h1.take .u (by rw [setSlot_slot_ne _ _ (Ne.symm e)]; exact hv) hid'
    have h3 := InvE.assign' (i := i) (v := v) h2 (by
      rw [setSlot_slot_ne _ _ e, setSlot_slot_eq]) hid fv
    have h4 := InvE.assign' (i := j) (v := u) (E := E) h3 (by
      rw [setSlot_slot_ne _ _ (Ne.symm e), setSlot_slot_eq]) hid' fu
    rw [setSlot_comm _ _ _ (Ne.symm e), setSlot_setSlot, setSlot_setSlot] at h4; exact h4

/-- Move construction. -/
theorem InvE.move {E : List Work} {i j : Slot} {u : Ptr} (k : Kind) (h : InvE N s W E) (hu : s.slot j = some u)
    (hid : Idle W j) (hf : Free N s i) (fu : FitP s u) :
    InvE N (setSlot (setSlot s j (some k.null)) i (some u)) W E := by
  have h1 := h.take k hu hid
  refine InvE.construct (v := u) h1 ⟨hf.1, ?_⟩ fu
  rw [setSlot_slot_ne]
  · exact hf.2
  · exact slot_ne hf.2 hu (by simp)

theorem good_uSwap {f : Nat} {i j : Slot} (h : Inv N s W) (hi : IsU s W i) (hj : IsU s W j) :
    Good N W (exec f s (.uSwap i j)) := by
  obtain ⟨p, hp, hiN, hid⟩ := IsU.out h.str hi
  obtain ⟨q, hq, hjN, hid'⟩ := IsU.out h.str hj
  refine ⟨setSlot (setSlot s i (some (.uniq (some q)))) j (some (.uniq (some p))), [],
    by simp only [exec, getU_of hp, getU_of hq]; rfl, InvE.done0 ?_⟩
  exact h.toE.swap hp hq hid hid' (fun o b e => h.val.un i o b (by rw [hp, e])) (fun o b e => h.val.un j o b (by rw [hq, e]))

theorem good_sNull {f : Nat} {i : Slot} (h : Inv N s W) (hf : Free N s i) : Good N W (exec f s (.sNull i)) :=
  ⟨_, _, rfl, InvE.done0 (InvE.construct (v := .shared none none) h.toE hf rfl)⟩

theorem good_wNull {f : Nat} {i : Slot} (h : Inv N s W) (hf : Free N s i) : Good N W (exec f s (.wNull i)) :=
  ⟨_, _, rfl, InvE.done0 (InvE.construct (v := .weak none none) h.toE hf rfl)⟩

theorem good_sSwap {f : Nat} {i j : Slot} (h : Inv N s W) (hi : IsS s W i) (hj : IsS s W j) :
    Good N W (exec f s (.sSwap i j)) := by
  obtain ⟨p, c, hp, hiN, hid, fi, _⟩ := IsS.out h hi
  obtain ⟨q, d, hq, hjN, hid', fj, _⟩ := IsS.out h hj
  refine ⟨setSlot (setSlot s i (some (.shared q d))) j (some (.shared p c)), [],
    by simp only [exec, getS_of hp, getS_of hq]; rfl, InvE.done0 ?_⟩
  exact h.toE.swap hp hq hid hid' fi fj

theorem good_wSwap {f : Nat} {i j : Slot} (h : Inv N s W) (hi : IsW s W i) (hj : IsW s W j) :
    Good N W (exec f s (.wSwap i j)) := by
  obtain ⟨p, c, hp, hiN, hid, fi, _⟩ := IsW.out h hi
  obtain ⟨q, d, hq, hjN, hid', fj, _⟩ := IsW.out h hj
  refine ⟨setSlot (setSlot s i (some (.weak q d))) j (some (.weak p c)), [],
    by simp only [exec, getW_of hp, getW_of hq]; rfl, InvE.done0 ?_⟩
  exact h.toE.swap hp hq hid hid' fi fj

theorem good_sMove {f : Nat} {i j : Slot} (h : Inv N s W) (hf : Free N s i) (hj : IsS s W j) :
    Good N W (exec f s (.sMove i j)) := by
  obtain ⟨q, d, hq, hjN, hid', fj, _⟩ := IsS.out h hj
  exact ⟨setSlot (setSlot s j (some (.shared none none))) i (some (.shared q d)), [],
    by simp only [exec, getS_of hq]; rfl, InvE.done0 (h.toE.move .s hq hid' hf fj)⟩

theorem good_wMove {f : Nat} {i j : Slot} (h : Inv N s W) (hf : Free N s i) (hj : IsW s W j) :
    Good N W (exec f s (.wMove i j)) := by
  obtain ⟨q, d, hq, hjN, hid', fj, _⟩ := IsW.out h hj
  exact ⟨setSlot (setSlot s j (some (.weak none none))) i (some (.weak q d)), [],
    by simp only [exec, getW_of hq]; rfl, InvE.done0 (h.toE.move .w hq hid' hf fj)⟩

theorem good_sCopy {f : Nat} {i j : Slot} (hfit : Fits N W) (h : Inv N s W) (hf : Free N s i) (hj : IsS s W j) :
    Good N W (exec f s (.sCopy i j)) := by
  have hfit : N + W.length + 2 < 2 ^ 64 := hfit
  obtain ⟨q, d, hq, hjN, hid', fj, hk⟩ := IsS.out h hj
  obtain ⟨x, hx, h1⟩ := h.toE.incS d (fun b hb => by have := hk b hb; omega) (by simp; omega)
  refine ⟨setSlot { s with ctrl := x } i (some (.shared q d)), [],
    by simp only [exec, getS_of hq, Res.ok_bind, hx], InvE.done0 ?_⟩
  exact InvE.construct (v := .shared q d) h1 hf (by cases d <;> exact fj)

theorem good_wCopy {f : Nat} {i j : Slot} (hfit : Fits N W) (h : Inv N s W) (hf : Free N s i) (hj : IsW s W j) :
    Good N W (exec f s (.wCopy i j)) := by
  obtain ⟨q, d, hq, hjN, hid', fj, hk⟩ := IsW.out h hj
  obtain ⟨x, hx, h1⟩ := h.toE.incW0 d (fun b hb => by have := hk b hb; omega) hfit
  refine ⟨setSlot { s with ctrl := x } i (some (.weak q d)), [],
    by simp only [exec, getW_of hq, Res.ok_bind, hx], InvE.done0 ?_⟩
  exact InvE.construct (v := .weak q d) h1 hf (by cases d <;> exact fj)

theorem good_wOfS {f : Nat} {i j : Slot} (hfit : Fits N W) (h : Inv N s W) (hf : Free N s i) (hj : IsS s W j) :
    Good N W (exec f s (.wOfS i j)) := by
  obtain ⟨q, d, hq, hjN, hid', fj, hk⟩ := IsS.out h hj
  obtain ⟨x, hx, h1⟩ := h.toE.incW0 d (fun b hb => by have := hk b hb; omega) hfit
  refine ⟨setSlot { s with ctrl := x } i (some (.weak q d)), [],
    by simp only [exec, getS_of hq, Res.ok_bind, hx], InvE.done0 ?_⟩
  exact InvE.construct (v := .weak q d) h1 hf (by cases d <;> exact fj)

theorem good_sAssign {f : Nat} {i j : Slot} (hfit : Fits N W) (h : Inv N s W) (hi : IsS s W i) (hj : IsS s W j) :
    Good N W (exec f s (.sAssign i j)) := by
  have hfit : N + W.length + 2 < 2 ^ 64 := hfit
  obtain ⟨p, c, hp, hiN, hid, fi, _⟩ := IsS.out h hi
  obtain ⟨q, d, hq, hjN, hid', fj, hk⟩ := IsS.out h hj
  obtain ⟨x, hx, h1⟩ := h.toE.incS d (fun b hb => by have := hk b hb; omega) (by simp; omega)
  refine ⟨setSlot { s with ctrl := x } i (some (.shared q d)), relOpt c,
    by simp only [exec, getS_of hq, Res.ok_bind, hx]; rw [getS_of (s := { s with ctrl := x }) hp]; rfl, ?_⟩
  have h2 := InvE.assign' (s := { s with ctrl := x }) (v := .shared q d) h1 hp hid (by cases d <;> exact fj)
  exact h2.done _ (quiet_relOpt _) (fun w => by simp [refO])

theorem good_wAssign {f : Nat} {i j : Slot} (hfit : Fits N W) (h : Inv N s W) (hi : IsW s W i) (hj : IsW s W j) :
    Good N W (exec f s (.wAssign i j)) := by
  obtain ⟨p, c, hp, hiN, hid, fi, _⟩ := IsW.out h hi
  obtain ⟨q, d, hq, hjN, hid', fj, hk⟩ := IsW.out h hj
  obtain ⟨x, hx, h1⟩ := h.toE.incW0 d (fun b hb => by have := hk b hb; omega) hfit
  refine ⟨setSlot { s with ctrl := x } i (some (.weak q d)), relWOpt c,
    by simp only [exec, getW_of hq, Res.ok_bind, hx]; rw [getW_of (s := { s with ctrl := x }) hp]; rfl, ?_⟩
  have h2 := InvE.assign' (s := { s with ctrl := x }) (v := .weak q d) h1 hp hid (by cases d <;> exact fj)
  exact h2.done _ (quiet_relWOpt _) (fun w => by simp [refO])

theorem good_wAssignS {f : Nat} {i j : Slot} (hfit : Fits N W) (h : Inv N s W) (hi : IsW s W i) (hj : IsS s W j) :
    Good N W (exec f s (.wAssignS i j)) := by
  obtain ⟨p, c, hp, hiN, hid, fi, _⟩ := IsW.out h hi
  obtain ⟨q, d, hq, hjN, hid', fj, hk⟩ := IsS.out h hj
  obtain ⟨x, hx, h1⟩ := h.toE.incW0 d (fun b hb => by have := hk b hb; omega) hfit
  refine ⟨setSlot { s with ctrl := x } i (some (.weak q d)), relWOpt c,
    by simp only [exec, getS_of hq, Res.ok_bind, hx]; rw [getW_of (s := { s with ctrl := x }) hp]; rfl, ?_⟩
  have h2 := InvE.assign' (s := { s with ctrl := x }) (v := .weak q d) h1 hp hid (by cases d <;> exact fj)
  exact h2.done _ (quiet_relWOpt _) (fun w => by simp [refO])

theorem good_sAssignMove {f : Nat} {i j : Slot} (h : Inv N s W) (hi : IsS s W i) (hj : IsS s W j) :
    Good N W (exec f s (.sAssignMove i j)) := by
  obtain ⟨p, c, hp, hiN, hid, fi, _⟩ := IsS.out h hi
  obtain ⟨q, d, hq, hjN, hid', fj, hk⟩ := IsS.out h hj
  have h1 := h.toE.take .s hq hid'
  have hi2 : ∃ p' a, (setSlot s j (some (.shared none none))).slot i = some (.shared p' a) := by
    by_cases e : i = j
    · subst e; exact ⟨none, none, setSlot_slot_eq _ _ _⟩
    · exact ⟨p, c, by rw [setSlot_slot_ne _ _ e, hp]⟩
  obtain ⟨p', a, ha⟩ := hi2
  refine ⟨setSlot (setSlot s j (some (.shared none none))) i (some (.shared q d)), relOpt a,
    by simp only [exec, getS_of hq, Res.ok_bind, getS_of ha], ?_⟩
  have h2 := InvE.assign' (v := .shared q d) h1 ha hid (by cases d <;> exact fj)
  exact h2.done _ (quiet_relOpt _) (fun w => by simp [refO])

theorem good_wAssignMove {f : Nat} {i j : Slot} (h : Inv N s W) (hi : IsW s W i) (hj : IsW s W j) :
    Good N W (exec f s (.wAssignMove i j)) := by
  obtain ⟨p, c, hp, hiN, hid, fi, _⟩ := IsW.out h hi
  obtain ⟨q, d, hq, hjN, hid', fj, hk⟩ := IsW.out h hj
  have h1 := h.toE.take .w hq hid'
  have hi2 : ∃ p' a, (setSlot s j (some (.weak none none))).slot i = some (.weak p' a) := by
    by_cases e : i = j
    · subst e; exact ⟨none, none, setSlot_slot_eq _ _ _⟩
    · exact ⟨p, c, by rw [setSlot_slot_ne _ _ e, hp]⟩
  obtain ⟨p', a, ha⟩ := hi2
  refine ⟨setSlot (setSlot s j (some (.weak none none))) i (some (.weak q d)), relWOpt a,
    by simp only [exec, getW_of hq, Res.ok_bind, getW_of ha], ?_⟩
  have h2 := InvE.assign' (v := .weak q d) h1 ha hid (by cases d <;> exact fj)
  exact h2.done _ (quiet_relWOpt _) (fun w => by simp [refO])

theorem good_sReset {f : Nat} {i : Slot} (h : Inv N s W) (hi : IsS s W i) : Good N W (exec f s (.sReset i)) := by
  obtain ⟨p, c, hp, hiN, hid, fi, _⟩ := IsS.out h hi
  refine ⟨setSlot s i (some (.shared none none)), relOpt c, by simp only [exec, getS_of hp]; rfl, ?_⟩
  have h2 := h.toE.take .s hp hid
  exact h2.done _ (quiet_relOpt _) (fun w => by simp [refO])

theorem good_sNew {f : Nat} {i : Slot} {p : Option Obj} {wt : Option Slot} (hfit : Fits N W) (h : Inv N s W)
    (hf : Free N s i) (hp : Raw s p) (hw : ∀ w, wt = some w → IsW s W w) : Good N W (exec f s (.sNew i p wt)) := by
  have hfit' : N + W.length + 2 < 2 ^ 64 := hfit
  have h1 := h.toE.newBlk hp
  have h2 := InvE.construct (s := newBlk s p) (v := .shared p (some s.nblk)) (E := []) h1 hf (fit_newBlk s p)
  cases p with
  | none => exact ⟨_, _, rfl, InvE.done0 h2⟩
  | some o =>
    cases wt with
    | none => exact ⟨_, _, rfl, InvE.done0 h2⟩
    | some w =>
      obtain ⟨q, d, hq, hjN, hid, fj, hk⟩ := IsW.out h (hw w rfl)
      have hne : w ≠ i := fun e => by subst e; rw [hf.2] at hq; exact absurd hq (by simp)
      have hi' : (setSlot (newBlk s (some o)) i (some (.shared (some o) (some s.nblk)))).slot i =
        some (.shared (some o) (some s.nblk)) := setSlot_slot_eq _ _ _
      obtain ⟨x, hx, h3⟩ := h2.incW0 (some s.nblk) (fun b hb => by
        have := K_pos_of_slot (N := N) (slot := (setSlot (newBlk s (some o)) i (some (.shared (some o) (some s.nblk)))).slot) (W := W) (w := .relS b) hf.1 (by rw [hi']; cases hb; simp [refO, relOpt])
        omega) hfit
      have hw' : ({ setSlot (newBlk s (some o)) i (some (.shared (some o) (some s.nblk))) with ctrl := x } : State).slot w =
          some (.weak q d) := by
        show (setSlot (newBlk s (some o)) i (some (.shared (some o) (some s.nblk)))).slot w = _
        rw [setSlot_slot_ne _ _ hne]; exact hq
      refine ⟨setSlot { setSlot (newBlk s (some o)) i (some (.shared (some o) (some s.nblk))) with ctrl := x } w
        (some (.weak (some o) (some s.nblk))), relWOpt d, ?_, ?_⟩
      · simp only [exec, hx, Res.ok_bind, getW_of hw']
      · have h4 := InvE.assign' (v := .weak (some o) (some s.nblk)) h3 hw' hid (fit_newBlk s (some o))
        exact h4.done _ (quiet_relWOpt _) (fun w => by simp [refO])

theorem good_destroy {f : Nat} {i : Slot} (h : Inv N s W) (h1 : (s.slot i).isSome = true) (h2 : Idle W i) (h3 : Plain s i) :
    Good N W (exec f s (.destroy i)) := by
  refine ⟨_, _, rfl, ⟨h.core.congr (fun w => ?_), ?_, ?_⟩⟩
  · show K N s.slot (.dtor i :: W) w = _
    rw [K_cons]; simp [norm]
  · refine ⟨h.str.lt, h.str.noI, ?_, h.str.nd, h.str.dj, ?_, ?_, ?_⟩
    · intro o ms j a1 a2
      refine ⟨(h.str.mem o ms j a1 a2).1, ?_⟩
      intro w hw
      rcases List.mem_cons.1 hw with rfl | hw
      · have : j ≠ i := fun e => h3 o ms a1 (e ▸ a2)
        simp [Work.busy, this]
      · exact (h.str.mem o ms j a1 a2).2 w hw
    · intro j
      show List.countP _ (Work.dtor i :: W) ≤ 1
      rw [List.countP_cons]
      by_cases e : j = i
      · subst e
        have : W.countP (·.busy j) = 0 := by rw [List.countP_eq_zero]; intro w hw; simp [h2 w hw]
        rw [this]; simp [Work.busy]
      · have := h.str.b1 j
        simp [Work.busy, e]; exact this
    · intro j w hw hb
      rcases List.mem_cons.1 hw with rfl | hw
      · simp [Work.busy] at hb; subst hb; exact h1
      · exact h.str.bd j w hw hb
    · intro j p c hw
      rcases List.mem_cons.1 hw with hw | hw
      · exact absurd hw (by simp)
      · exact h.str.bc j p c hw
  · refine ⟨fun j p c a1 a2 => h.val.sh j p c a1 (fun q hq => a2 q (List.mem_cons.2 (Or.inr hq))), h.val.wk, h.val.un, ?_, ?_⟩
    · intro j p c hw
      rcases List.mem_cons.1 hw with hw | hw
      · exact absurd hw (by simp)
      · exact h.val.cv j p c hw
    · intro j q hw
      rcases List.mem_cons.1 hw with hw | hw
      · exact absurd hw (by simp)
      · exact h.val.rf j q hw

theorem good_delObj {f : Nat} {o : Obj} (h : Inv N s W) (ho : s.raw o = true) : Good N W (exec f s (.delObj o)) := by
  have h1 := h.toE.unraw (p := some o) (fun o' e => by cases e; exact ho)
  have h2 := h1.done [.del o] (by intro w hw; rw [List.mem_singleton] at hw; subst hw; intro i; rfl)
    (fun w => by simp [norm, delOpt])
  refine ⟨unraw s (some o), [.del o], ?_, h2⟩
  simp only [exec, unraw]
  congr 2
  congr 1
  funext o'
  simp only [upd, Option.some.injEq, @eq_comm _ o]

/-! ### Busy pointer objects -/

theorem InvE.push {E : List Work} {w : Work} {i : Slot} (h : InvE N s W (norm w ++ E)) (hb : ∀ j, w.busy j = (j == i))
    (hid : Idle W i) (hpl : Plain s i) (hal : (s.slot i).isSome = true)
    (hc : ∀ j p c, w = .conv j p c → (∃ q d, s.slot j = some (.shared q d)) ∧ Fit s p c)
    (hr : ∀ j q, w = .resetFin j q → ∃ p b, s.slot j = some (.shared p (some b)) ∧ Fit s q (some b)) :
    InvE N s (w :: W) E := by
  refine ⟨h.core.congr (fun w => ?_), ?_, ?_⟩
  · rw [K_cons]; rw [List.count_append]; omega
  · refine ⟨h.str.lt, h.str.noI, ?_, h.str.nd, h.str.dj, ?_, ?_, ?_⟩
    · intro o ms j a1 a2
      refine ⟨(h.str.mem o ms j a1 a2).1, ?_⟩
      intro x hx
      rcases List.mem_cons.1 hx with rfl | hx
      · have : j ≠ i := fun e => hpl o ms a1 (e ▸ a2)
        rw [hb]; simp [this]
      · exact (h.str.mem o ms j a1 a2).2 x hx
    · intro j
      rw [List.countP_cons]
      by_cases e : j = i
      · subst e
        have : W.countP (·.busy j) = 0 := by rw [List.countP_eq_zero]; intro w hw; simp [hid w hw]
        rw [this]; split <;> omega
      · have := h.str.b1 j
        rw [hb]; simp [e]; exact this
    · intro j x hx hbx
      rcases List.mem_cons.1 hx with rfl | hx
      · rw [hb] at hbx; have := eq_of_beq hbx; subst this; exact hal
      · exact h.str.bd j x hx hbx
    · intro j p c hx
      rcases List.mem_cons.1 hx with hx | hx
      · exact (hc j p c hx.symm).1
      · exact h.str.bc j p c hx
  · refine ⟨fun j p c a1 a2 => h.val.sh j p c a1 (fun q hq => a2 q (List.mem_cons.2 (Or.inr hq))), h.val.wk, h.val.un, ?_, ?_⟩
    · intro j p c hx
      rcases List.mem_cons.1 hx with hx | hx
      · exact (hc j p c hx.symm).2
      · exact h.val.cv j p c hx
    · intro j q hx
      rcases List.mem_cons.1 hx with hx | hx
      · exact hr j q hx.symm
      · exact h.val.rf j q hx

theorem InvE.pop {E : List Work} {w : Work} (h : InvE N s (w :: W) E)
    (hr : ∀ j q p c, w = .resetFin j q → s.slot j = some (.shared p c) → Fit s p c) : InvE N s W (norm w ++ E) := by
  refine ⟨h.core.congr (fun w => ?_), ?_, ?_⟩
  · rw [K_cons]; rw [List.count_append]; omega
  · refine ⟨h.str.lt, h.str.noI, ?_, h.str.nd, h.str.dj, ?_, ?_, ?_⟩
    · intro o ms j a1 a2
      exact ⟨(h.str.mem o ms j a1 a2).1, fun x hx => (h.str.mem o ms j a1 a2).2 x (List.mem_cons.2 (Or.inr hx))⟩
    · intro j
      have := h.str.b1 j
      rw [List.countP_cons] at this
      omega
    · intro j x hx hbx
      exact h.str.bd j x (List.mem_cons.2 (Or.inr hx)) hbx
    · intro j p c hx
      exact h.str.bc j p c (List.mem_cons.2 (Or.inr hx))
  · refine ⟨fun j p c a1 a2 => ?_, h.val.wk, h.val.un, fun j p c hx => h.val.cv j p c (List.mem_cons.2 (Or.inr hx)),
      fun j q hx => h.val.rf j q (List.mem_cons.2 (Or.inr hx))⟩
    by_cases e : ∃ q, w = .resetFin j q
    · obtain ⟨q, e⟩ := e
      exact hr j q p c e a1
    · refine h.val.sh j p c a1 (fun q hq => ?_)
      rcases List.mem_cons.1 hq with hq | hq
      · exact e ⟨q, hq.symm⟩
      · exact a2 q hq

theorem InvE.pop_quiet {E : List Work} {w : Work} (h : InvE N s (w :: W) E) (hq : ∀ i, w.busy i = false) :
    InvE N s W (norm w ++ E) := by
  refine h.pop (fun j q p c e => ?_)
  subst e; have := hq j; simp [Work.busy] at this

theorem Str.idle_tail {w : Work} {i : Slot} (h : Str N s (w :: W)) (hb : w.busy i = true) : Idle W i := by
  intro x hx
  rcases e : x.busy i with _ | _
  · rfl
  · have := h.b1 i
    rw [List.countP_cons, if_pos hb] at this
    have : W.countP (·.busy i) = 0 := by omega
    rw [List.countP_eq_zero] at this
    exact absurd e (this x hx)

theorem Str.plain_head {w : Work} {i : Slot} (h : Str N s (w :: W)) (hb : w.busy i = true) : Plain s i := by
  intro o ms h1 h2
  have := (h.mem o ms i h1 h2).2 w (List.mem_cons.2 (Or.inl rfl))
  rw [this] at hb; exact absurd hb (by simp)

/-- While `resetFin i` is pending, the pointer in `i` is of no importance. -/
theorem InvE.stale {E : List Work} {i : Slot} {q p p' : Option Obj} {c : Option Blk} (h : InvE N s W E)
    (hr : Work.resetFin i q ∈ W) (hi : s.slot i = some (.shared p c)) : InvE N (setSlot s i (some (.shared p' c))) W E := by
  have hiN := h.str.lt i _ hi
  refine ⟨(h.core.setSlot i _).congr (fun w => ?_), ?_, ?_⟩
  · have := K_upd (slot := s.slot) (some (.shared p' c)) W w hiN
    rw [hi] at this
    simp only [refO] at this
    show K N (upd s.slot i (some (.shared p' c))) W w + _ = _
    omega
  · refine ⟨?_, ?_, ?_, h.str.nd, h.str.dj, h.str.b1, ?_, ?_⟩
    · intro j x hj
      rcases upd_some hj with ⟨rfl, _⟩ | ⟨_, hj⟩
      · exact hiN
      · exact h.str.lt j x hj
    · intro j hj
      rcases upd_some hj with ⟨rfl, hv'⟩ | ⟨_, hj⟩
      · exact absurd hv' (by simp)
      · exact h.str.noI j hj
    · intro o ms j h1 h2
      have := h.str.mem o ms j h1 h2
      refine ⟨?_, this.2⟩
      by_cases e : j = i
      · subst e; simp [setSlot, upd_eq]
      · simp only [setSlot, upd_ne _ _ e]; exact this.1
    · intro j w h1 h2
      by_cases e : j = i
      · subst e; simp [setSlot, upd_eq]
      · simp only [setSlot, upd_ne _ _ e]; exact h.str.bd j w h1 h2
    · intro j x d h1
      by_cases e : j = i
      · subst e; exact ⟨p', c, by simp [setSlot, upd_eq]⟩
      · simp only [setSlot, upd_ne _ _ e]; exact h.str.bc j x d h1
  · refine ⟨?_, ?_, ?_, h.val.cv, ?_⟩
    · intro j x d h1 h2
      rcases upd_some h1 with ⟨rfl, _⟩ | ⟨_, h1⟩
      · exact absurd hr (h2 q)
      · exact h.val.sh j x d h1 h2
    · intro j x d h1
      rcases upd_some h1 with ⟨rfl, hv'⟩ | ⟨_, h1⟩
      · exact absurd hv' (by simp)
      · exact h.val.wk j x d h1
    · intro j o b h1
      rcases upd_some h1 with ⟨rfl, hv'⟩ | ⟨_, h1⟩
      · exact absurd hv' (by simp)
      · exact h.val.un j o b h1
    · intro j q' h1
      obtain ⟨x, b, a1, a2⟩ := h.val.rf j q' h1
      by_cases e : j = i
      · subst e
        rw [hi] at a1; cases a1
        exact ⟨p', b, setSlot_slot_eq _ _ _, a2⟩
      · exact ⟨x, b, by rw [setSlot_slot_ne _ _ e]; exact a1, a2⟩

/-- Ending the lifetime of a pointer object. -/
theorem InvE.remove {E : List Work} {i : Slot} {u : Ptr} (h : InvE N s W E) (hu : s.slot i = some u) (hid : Idle W i)
    (hpl : Plain s i) : InvE N (setSlot s i none) W (refO (some u) ++ E) := by
  have hiN := h.str.lt i _ hu
  refine ⟨(h.core.setSlot i _).congr (fun w => ?_), ?_, ?_⟩
  · have := K_upd (slot := s.slot) none W w hiN
    rw [hu] at this
    show K N (upd s.slot i none) W w + _ = _
    rw [List.count_append]
    simp only [refO, List.count_nil] at this ⊢
    omega
  · have hne : ∀ {j x}, upd s.slot i none j = some x → j ≠ i ∧ s.slot j = some x := by
      intro j x hx
      rcases upd_some hx with ⟨_, hv⟩ | hx
      · exact absurd hv (by simp)
      · exact hx
    refine ⟨fun j x hj => h.str.lt j x (hne hj).2, fun j hj => h.str.noI j (hne hj).2, ?_, h.str.nd, h.str.dj, h.str.b1, ?_, ?_⟩
    · intro o ms j h1 h2
      have e : j ≠ i := fun e => hpl o ms h1 (e ▸ h2)
      rw [setSlot_slot_ne _ _ e]; exact h.str.mem o ms j h1 h2
    · intro j w h1 h2
      have e : j ≠ i := fun e => by subst e; rw [hid w h1] at h2; exact absurd h2 (by simp)
      rw [setSlot_slot_ne _ _ e]; exact h.str.bd j w h1 h2
    · intro j x d h1
      have e : j ≠ i := fun e => by subst e; have := hid _ h1; simp [Work.busy] at this
      rw [setSlot_slot_ne _ _ e]; exact h.str.bc j x d h1
  · have hne : ∀ {j x}, upd s.slot i none j = some x → s.slot j = some x := by
      intro j x hx
      rcases upd_some hx with ⟨_, hv⟩ | hx
      · exact absurd hv (by simp)
      · exact hx.2
    refine ⟨fun j x d h1 => h.val.sh j x d (hne h1), fun j x d h1 => h.val.wk j x d (hne h1),
      fun j o b h1 => h.val.un j o b (hne h1), h.val.cv, fun j q h1 => ?_⟩
    have e : j ≠ i := fun e => by subst e; have := hid _ h1; simp [Work.busy] at this
    rw [setSlot_slot_ne _ _ e]; exact h.val.rf j q h1

theorem good_sConv {f : Nat} {i j : Slot} (hfit : Fits N W) (h : Inv N s W) (hi : IsS s W i) (hj : IsS s W j) (hpl : Plain s i) :
    Good N W (exec f s (.sConv i j)) := by
  have hfit : N + W.length + 2 < 2 ^ 64 := hfit
  obtain ⟨p, c, hp, hiN, hid, fi, _⟩ := IsS.out h hi
  obtain ⟨q, d, hq, hjN, hid', fj, hk⟩ := IsS.out h hj
  obtain ⟨x, hx, h1⟩ := h.toE.incS d (fun b hb => by have := hk b hb; omega) (by simp; omega)
  refine ⟨setSlot { s with ctrl := x } i (some (.shared none none)), relOpt c ++ [.conv i q d],
    by simp only [exec, getS_of hq, Res.ok_bind, hx]; rw [getS_of (s := { s with ctrl := x }) hp]; rfl, ?_⟩
  have h2 := InvE.take (s := { s with ctrl := x }) .s h1 hp hid
  have h3 : InvE N (setSlot { s with ctrl := x } i (some (.shared none none))) (.conv i q d :: W) (relOpt c) := by
    refine InvE.push (i := i) (h2.perm (fun w => ?_)) (fun j => rfl) hid hpl (by rw [setSlot_slot_eq]; rfl) ?_ ?_
    · simp [norm, refO, List.count_append]; omega
    · intro j' p' c' e; cases e
      exact ⟨⟨none, none, setSlot_slot_eq _ _ _⟩, by cases d <;> exact fj⟩
    · intro j' q' e; exact absurd e (by simp)
  rw [List.append_assoc]
  exact h3.done _ (quiet_relOpt _) (fun w => by simp)

theorem good_sResetTo {f : Nat} {i : Slot} {p : Option Obj} (h : Inv N s W) (hi : IsS s W i) (hp : Raw s p) (hpl : Plain s i) :
    Good N W (exec f s (.sResetTo i p)) := by
  obtain ⟨q, c, hq, hiN, hid, fi, _⟩ := IsS.out h hi
  refine ⟨setSlot (newBlk s p) i (some (.shared q (some s.nblk))), relOpt c ++ [.resetFin i p],
    by simp only [exec, getS_of hq]; rfl, ?_⟩
  have h1 := h.toE.newBlk hp
  have h2 := InvE.assign' (s := newBlk s p) (v := .shared p (some s.nblk)) (E := []) h1 hq hid (fit_newBlk s p)
  have h3 : InvE N (setSlot (newBlk s p) i (some (.shared p (some s.nblk)))) (.resetFin i p :: W) (relOpt c) := by
    refine InvE.push (i := i) (h2.perm (fun w => ?_)) (fun j => rfl) hid hpl (by rw [setSlot_slot_eq]; rfl) ?_ ?_
    · simp [norm, refO]
    · intro j' p' c' e; exact absurd e (by simp)
    · intro j' q' e; cases e
      exact ⟨p, s.nblk, setSlot_slot_eq _ _ _, fit_newBlk s p⟩
  have h4 := h3.stale (p' := q) (List.mem_cons.2 (Or.inl rfl)) (setSlot_slot_eq _ _ _)
  rw [setSlot_setSlot] at h4
  rw [List.append_assoc]
  exact h4.done _ (quiet_relOpt _) (fun w => by simp)

theorem setMembers_not_mem {slot : Slot → Option Ptr} {ms : List (Slot × Kind)} {i : Slot} (h : i ∉ ms.map (·.1)) :
    setMembers slot ms i = slot i := by
  induction ms with
  | nil => rfl
  | cons m ms ih =>
    rw [List.map_cons, List.mem_cons] at h
    have h1 : i ≠ m.1 := fun e => h (Or.inl e)
    have h2 : i ∉ ms.map (·.1) := fun e => h (Or.inr e)
    show upd (setMembers slot ms) m.1 _ i = _
    rw [upd_ne _ _ h1, ih h2]

theorem setMembers_mem {slot : Slot → Option Ptr} {ms : List (Slot × Kind)} {i : Slot} (h : i ∈ ms.map (·.1)) :
    (setMembers slot ms i).isSome = true := by
  induction ms with
  | nil => exact absurd h (by simp)
  | cons m ms ih =>
    show (upd (setMembers slot ms) m.1 _ i).isSome = true
    by_cases e : i = m.1
    · subst e; simp [upd_eq]
    · rw [upd_ne _ _ e]
      rw [List.map_cons, List.mem_cons] at h
      exact ih (h.resolve_left e)

theorem InvE.members {E : List Work} (ms : List (Slot × Kind)) (h : InvE N s W E) (hnd : (ms.map (·.1)).Nodup)
    (hf : ∀ m ∈ ms, Free N s m.1) : InvE N { s with slot := setMembers s.slot ms } W E := by
  induction ms with
  | nil => exact h
  | cons m ms ih =>
    rw [List.map_cons, List.nodup_cons] at hnd
    have h1 := ih hnd.2 (fun m' hm' => hf m' (List.mem_cons.2 (Or.inr hm')))
    have hm := hf m (List.mem_cons.2 (Or.inl rfl))
    refine InvE.construct (s := { s with slot := setMembers s.slot ms }) (v := m.2.null) (i := m.1) ?_ ⟨hm.1, ?_⟩ ?_
    · cases m.2 <;> exact h1
    · show setMembers s.slot ms m.1 = none
      rw [setMembers_not_mem hnd.1]; exact hm.2
    · cases m.2
      · exact fun o b e => absurd e (by simp)
      · exact rfl
      · exact rfl

theorem good_newObj {f : Nat} {ms : List (Slot × Kind)} (h : Inv N s W) (hnd : (ms.map (·.1)).Nodup)
    (hf : ∀ m ∈ ms, Free N s m.1) : Good N W (exec f s (.newObj ms)) := by
  have h1 := h.toE.members ms hnd hf
  refine ⟨_, _, rfl, InvE.done0 ⟨?_, ?_, h1.val.mono rfl rfl rfl⟩⟩
  · exact core_newObj h1.core (ms.map (·.1)) (setMembers s.slot ms)
  · have hfresh : ∀ i ∈ ms.map (·.1), s.slot i = none ∧ Idle W i := by
      intro i hi
      obtain ⟨m, hm, rfl⟩ := List.mem_map.1 hi
      exact ⟨(hf m hm).2, h.str.idle_of_free (hf m hm).2⟩
    refine ⟨h1.str.lt, h1.str.noI, ?_, ?_, ?_, h1.str.b1, h1.str.bd, h1.str.bc⟩
    · intro o l i a1 a2
      rcases upd_some a1 with ⟨rfl, hv⟩ | ⟨_, a1⟩
      · cases hv; exact ⟨setMembers_mem a2, (hfresh i a2).2⟩
      · exact h1.str.mem o l i a1 a2
    · intro o l a1
      rcases upd_some a1 with ⟨rfl, hv⟩ | ⟨_, a1⟩
      · cases hv; exact hnd
      · exact h.str.nd o l a1
    · intro o o' l l' i a1 a2 b1 b2
      rcases upd_some a1 with ⟨rfl, hv⟩ | ⟨_, a1⟩ <;> rcases upd_some a2 with ⟨rfl, hv'⟩ | ⟨_, a2⟩
      · rfl
      · cases hv
        have := (h.str.mem _ _ i a2 b2).1
        rw [(hfresh i b1).1] at this; exact absurd this (by simp)
      · cases hv'
        have := (h.str.mem _ _ i a1 b1).1
        rw [(hfresh i b2).1] at this; exact absurd this (by simp)
      · exact h.str.dj _ _ _ _ i a1 a2 b1 b2

theorem lockLoop_zero (f : Nat) (cell : BitVec 64) : lockLoop (f + 1) 0 cell = .ok (cell, false) := by
  simp [lockLoop]

theorem lockLoop_succ (f : Nat) {c : BitVec 64} (h : c ≠ 0) : lockLoop (f + 2) c c = .ok (c + 1, true) := by
  have h2 : ¬ c + 1 = c := by
    intro e
    have := congrArg BitVec.toNat e
    rw [BitVec.toNat_add] at this
    have := c.isLt
    rw [show (1 : BitVec 64).toNat = 1 from rfl] at *
    omega
  show (if c = 0 then _ else if c = c then lockLoop (f + 1) c (c + 1) else _) = _
  rw [if_neg h, if_pos rfl]
  show (if c = 0 then _ else if c + 1 = c then _ else _) = _
  rw [if_neg h, if_neg h2]

theorem lockLoop_cases (f : Nat) (c : BitVec 64) :
    lockLoop f c c = .oof ∨ lockLoop f c c = .ok (if c = 0 then (c, false) else (c + 1, true)) := by
  by_cases h : c = 0
  · subst h
    cases f with
    | zero => exact Or.inl rfl
    | succ f => exact Or.inr (by rw [lockLoop_zero]; rfl)
  · match f with
    | 0 => exact Or.inl rfl
    | 1 => left; show (if c = 0 then _ else if c = c then lockLoop 0 c (c + 1) else _) = _; rw [if_neg h, if_pos rfl]; rfl
    | f + 2 => right; rw [lockLoop_succ f h, if_neg h]

theorem good_sLock {f : Nat} {i w : Slot} (hfit : Fits N W) (h : Inv N s W) (hf : Free N s i) (hw : IsW s W w) :
    (2 ≤ f → exec f s (.sLock i w) ≠ .oof) ∧ (exec f s (.sLock i w) = .oof ∨ Good N W (exec f s (.sLock i w))) := by
  have hfit : N + W.length + 2 < 2 ^ 64 := hfit
  obtain ⟨q, d, hq, hjN, hid, fj, hk⟩ := IsW.out h hw
  have hnull : Inv N (setSlot (newBlk s none) i (some (.shared none (some s.nblk)))) ([] ++ W) :=
    InvE.done0 (InvE.construct (s := newBlk s none) (v := .shared none (some s.nblk)) (E := [])
      (h.toE.newBlk (p := none) (fun o e => absurd e (by simp))) hf (fit_newBlk s none))
  cases d with
  | none =>
    have he : exec f s (.sLock i w) = .ok (setSlot (newBlk s none) i (some (.shared none (some s.nblk))), []) := by
      simp only [exec, getW_of hq]; rfl
    rw [he]
    exact ⟨fun _ => by simp, Or.inr ⟨_, _, rfl, hnull⟩⟩
  | some b =>
    rcases e : s.ctrl b with _ | k
    · have := h.core.gone b e; have := hk b rfl; omega
    have hset : ({ s with ctrl := upd s.ctrl b (some k) } : State) = s := by
      have : upd s.ctrl b (some k) = s.ctrl := by
        funext x; by_cases e' : x = b
        · subst e'; rw [upd_eq, e]
        · rw [upd_ne _ _ e']
      rw [this]
    have hexec : exec f s (.sLock i w) = (do
        let (cell, r) ← lockLoop f k.shared k.shared
        let s1 := setCtrl s b (some { k with shared := cell })
        if r then .ok (setSlot s1 i (some (.shared q (some b))), [])
        else .ok (setSlot (newBlk s1 none) i (some (.shared none (some s1.nblk))), [])) := by
      simp only [exec, getW_of hq, Res.ok_bind, e]
    constructor
    · intro hf2 ho
      rw [hexec] at ho
      by_cases h0 : k.shared = 0
      · obtain ⟨f', rfl⟩ : ∃ f', f = f' + 1 := ⟨f - 1, by omega⟩
        rw [h0, lockLoop_zero] at ho; simp at ho
      · obtain ⟨f', rfl⟩ : ∃ f', f = f' + 2 := ⟨f - 2, by omega⟩
        rw [lockLoop_succ f' h0] at ho; simp at ho
    · rcases lockLoop_cases f k.shared with hl | hl
      · left; rw [hexec, hl]; rfl
      · right
        rw [hexec, hl]
        by_cases h0 : k.shared = 0
        · rw [if_pos h0]
          have hk0 : ({ k with shared := k.shared } : Ctrl) = k := rfl
          refine ⟨_, _, rfl, ?_⟩
          simp only [setCtrl, hset]
          exact hnull
        · rw [if_neg h0]
          obtain ⟨x, hx, h1⟩ := h.toE.incS (some b) (fun b' hb' => by
            cases hb'
            have h1 := h.core.cS b k e
            have := bv_ne.1 h0
            omega) (by simp; omega)
          simp only [incS, e] at hx
          have hx' : setCtrl s b (some { k with shared := k.shared + 1 }) = { s with ctrl := x } := by
            injection hx
          refine ⟨_, _, rfl, ?_⟩
          show Inv N (setSlot (setCtrl s b (some { k with shared := k.shared + 1 })) i (some (.shared q (some b)))) ([] ++ W)
          rw [hx']
          exact InvE.done0 (InvE.construct (s := { s with ctrl := x }) (v := .shared q (some b)) h1 hf fj)

/-- Every operation that keeps the client rules is defined, terminates and keeps the invariant. -/
theorem exec_good {f : Nat} {o : Op} (hfit : Fits N W) (h : Inv N s W) (hl : Legal N s W o) :
    (2 ≤ f → exec f s o ≠ .oof) ∧ (exec f s o = .oof ∨ Good N W (exec f s o)) := by
  have g : Good N W (exec f s o) → (2 ≤ f → exec f s o ≠ .oof) ∧ (exec f s o = .oof ∨ Good N W (exec f s o)) := by
    intro hg
    refine ⟨fun _ => ?_, Or.inr hg⟩
    obtain ⟨_, _, e, _⟩ := hg
    rw [e]; simp
  cases o with
  | newObj ms => exact g (good_newObj h hl.1 hl.2)
  | delObj o => exact g (good_delObj h hl)
  | uDefault i => exact absurd hl id
  | uNew i p => exact g (good_uNew h hl.1 hl.2)
  | uMove i j => exact g (good_uMove h hl.1 hl.2)
  | uAssign i j => exact g (good_uAssign h hl.1 hl.2)
  | uReset i p => exact g (good_uReset h hl.1 hl.2)
  | uRelease i => exact g (good_uRelease h hl)
  | uSwap i j => exact g (good_uSwap h hl.1 hl.2)
  | sNull i => exact g (good_sNull h hl)
  | sNew i p wt => exact g (good_sNew hfit h hl.1 hl.2.1 hl.2.2)
  | sCopy i j => exact g (good_sCopy hfit h hl.1 hl.2)
  | sMove i j => exact g (good_sMove h hl.1 hl.2)
  | sAssign i j => exact g (good_sAssign hfit h hl.1 hl.2)
  | sAssignMove i j => exact g (good_sAssignMove h hl.1 hl.2)
  | sConv i j => exact g (good_sConv hfit h hl.1 hl.2.1 hl.2.2)
  | sReset i => exact g (good_sReset h hl)
  | sResetTo i p => exact g (good_sResetTo h hl.1 hl.2.1 hl.2.2)
  | sSwap i j => exact g (good_sSwap h hl.1 hl.2)
  | wNull i => exact g (good_wNull h hl)
  | wCopy i j => exact g (good_wCopy hfit h hl.1 hl.2)
  | wOfS i j => exact g (good_wOfS hfit h hl.1 hl.2)
  | wMove i j => exact g (good_wMove h hl.1 hl.2)
  | wAssign i j => exact g (good_wAssign hfit h hl.1 hl.2)
  | wAssignMove i j => exact g (good_wAssignMove h hl.1 hl.2)
  | wAssignS i j => exact g (good_wAssignS hfit h hl.1 hl.2)
  | wSwap i j => exact g (good_wSwap h hl.1 hl.2)
  | sLock i w => exact good_sLock hfit h hl.1 hl.2
  | destroy i => exact g (good_destroy h hl.1 hl.2.1 hl.2.2)

end Verif.SmartPtr
