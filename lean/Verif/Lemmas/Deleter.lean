import Verif.Model.Deleter
import Verif.Lemmas.SmartPtrRun

set_option backward.isDefEq.respectTransparency false

/-! Helper lemmas on deleters of shared pointers. -/

namespace Verif.Deleter

open Verif.SmartPtr

theorem incS_keeps {s s' : State} {c : Option Blk} (h : incS s c = .ok s') :
    s'.deleted = s.deleted ∧ s'.managed = s.managed ∧ s'.nblk = s.nblk ∧ s'.slot = s.slot := by
  unfold incS at h
  split at h
  · cases h; exact ⟨rfl, rfl, rfl, rfl⟩
  · split at h
    · exact absurd h (by simp)
    · cases h; exact ⟨rfl, rfl, rfl, rfl⟩

theorem incW_keeps {s s' : State} {c : Option Blk} (h : incW s c = .ok s') :
    s'.deleted = s.deleted ∧ s'.managed = s.managed ∧ s'.nblk = s.nblk ∧ s'.slot = s.slot := by
  unfold incW at h
  split at h
  · cases h; exact ⟨rfl, rfl, rfl, rfl⟩
  · split at h
    · exact absurd h (by simp)
    · cases h; exact ⟨rfl, rfl, rfl, rfl⟩

/-- The object an operation hands over to a `shared_ptr`. -/
def adopts : Op → Option Obj
  | .sNew _ p _ => p
  | .sResetTo _ p => p
  | _ => none

/-- Which operations make a control block, and for what. -/
def makes (s : State) : Op → Option (Option Obj) → Prop
  | .sNew _ p _, r => r = some p
  | .sResetTo _ p, r => r = some p
  | .sLock _ _, r => r = none ∨ r = some none
  | _, r => r = none

/-- What an operation does to objects and blocks. -/
def Eff (s s' : State) (push : List Work) (r : Option (Option Obj)) : Prop :=
  s'.deleted = s.deleted ∧
  (∀ q, .del q ∈ push → s.raw q = true ∨ ∃ i, s.slot i = some (.uniq (some (some q)))) ∧
  match r with
  | none => s'.managed = s.managed ∧ s'.nblk = s.nblk
  | some p => s'.managed = upd s.managed s.nblk p ∧ s'.nblk = s.nblk + 1 ∧ ∀ q, .del q ∉ push

theorem nodel_rel (c : Option Blk) (q : Obj) : Work.del q ∉ relOpt c := by cases c <;> simp [relOpt]
theorem nodel_relW (c : Option Blk) (q : Obj) : Work.del q ∉ relWOpt c := by cases c <;> simp [relWOpt]

theorem getU_slot {s : State} {i : Slot} {p : Option Obj} (h : getU s i = .ok p) : s.slot i = some (.uniq (some p)) := by
  unfold getU at h
  split at h
  · rename_i q e; cases h; exact e
  · exact absurd h (by simp)

theorem del_uniq {s : State} {i : Slot} {p : Option Obj} (h : s.slot i = some (.uniq (some p))) (q : Obj)
    (hq : Work.del q ∈ delOpt p) : ∃ i, s.slot i = some (.uniq (some (some q))) := by
  cases p with
  | none => simp [delOpt] at hq
  | some r =>
    simp only [delOpt, List.mem_singleton, Work.del.injEq] at hq
    exact ⟨i, by rw [h, hq]⟩

theorem eff_nil {s s' : State} (h1 : s'.deleted = s.deleted) (h2 : s'.managed = s.managed) (h3 : s'.nblk = s.nblk) :
    Eff s s' [] none := ⟨h1, fun q hq => absurd hq (by simp), h2, h3⟩

theorem exec_eff {N : Nat} {W : List Work} {f : Nat} {o : Op} {s s' : State} {push : List Work} (hl : Legal N s W o)
    (h : exec f s o = .ok (s', push)) : ∃ r, makes s o r ∧ Eff s s' push r := by
  cases o <;> simp only [exec, Res.bind_eq_ok] at h
  case sNew i p wt =>
    refine ⟨some p, rfl, ?_⟩
    split at h
    · simp only [Res.bind_eq_ok] at h
      obtain ⟨s2, h2, a, _, h⟩ := h
      cases h
      obtain ⟨k1, k2, k3, _⟩ := incW_keeps h2
      exact ⟨k1, fun q hq => absurd hq (nodel_relW _ _), k2, k3, fun q => nodel_relW _ _⟩
    · cases h; exact ⟨rfl, fun q hq => absurd hq (by simp), rfl, rfl, fun q => by simp⟩
  case sLock i w =>
    obtain ⟨a, _, h⟩ := h
    split at h
    · cases h; exact ⟨some none, .inr rfl, rfl, fun q hq => absurd hq (by simp), rfl, rfl, fun q => by simp⟩
    · split at h
      · exact absurd h (by simp)
      · simp only [Res.bind_eq_ok] at h
        obtain ⟨_, _, h⟩ := h
        split at h <;> cases h
        · exact ⟨none, .inl rfl, eff_nil rfl rfl rfl⟩
        · exact ⟨some none, .inr rfl, rfl, fun q hq => absurd hq (by simp), rfl, rfl, fun q => by simp⟩
  case newObj => cases h; exact ⟨none, rfl, eff_nil rfl rfl rfl⟩
  case delObj o =>
    cases h
    refine ⟨none, rfl, rfl, fun q hq => ?_, rfl, rfl⟩
    simp only [List.mem_singleton, Work.del.injEq] at hq
    subst hq
    exact .inl hl
  case uDefault => cases h; exact ⟨none, rfl, eff_nil rfl rfl rfl⟩
  case uNew => cases h; exact ⟨none, rfl, eff_nil rfl rfl rfl⟩
  case uMove => obtain ⟨_, _, h⟩ := h; cases h; exact ⟨none, rfl, eff_nil rfl rfl rfl⟩
  case uAssign i j =>
    obtain ⟨p, _, a, ha, h⟩ := h
    cases h
    refine ⟨none, rfl, rfl, fun q hq => .inr ?_, rfl, rfl⟩
    have hs := getU_slot ha
    by_cases e : i = j
    · subst e
      rw [setSlot_slot_eq] at hs
      injection hs with hs; injection hs with hs; injection hs with hs
      subst hs
      simp [delOpt] at hq
    · rw [setSlot_slot_ne _ _ e] at hs
      exact del_uniq hs q hq
  case uReset i p =>
    obtain ⟨a, ha, h⟩ := h
    cases h
    exact ⟨none, rfl, rfl, fun q hq => .inr (del_uniq (getU_slot ha) q hq), rfl, rfl⟩
  case uRelease => obtain ⟨_, _, h⟩ := h; cases h; exact ⟨none, rfl, eff_nil rfl rfl rfl⟩
  case uSwap => obtain ⟨_, _, _, _, h⟩ := h; cases h; exact ⟨none, rfl, eff_nil rfl rfl rfl⟩
  case sNull => cases h; exact ⟨none, rfl, eff_nil rfl rfl rfl⟩
  case sCopy =>
    obtain ⟨_, _, _, hi, h⟩ := h; cases h
    obtain ⟨k1, k2, k3, _⟩ := incS_keeps hi
    exact ⟨none, rfl, eff_nil k1 k2 k3⟩
  case sMove => obtain ⟨_, _, h⟩ := h; cases h; exact ⟨none, rfl, eff_nil rfl rfl rfl⟩
  case sAssign =>
    obtain ⟨_, _, _, hi, a, _, h⟩ := h; cases h
    obtain ⟨k1, k2, k3, _⟩ := incS_keeps hi
    exact ⟨none, rfl, k1, fun q hq => absurd hq (nodel_rel _ _), k2, k3⟩
  case sAssignMove =>
    obtain ⟨_, _, a, _, h⟩ := h; cases h
    exact ⟨none, rfl, rfl, fun q hq => absurd hq (nodel_rel _ _), rfl, rfl⟩
  case sConv =>
    obtain ⟨_, _, _, hi, a, _, h⟩ := h; cases h
    obtain ⟨k1, k2, k3, _⟩ := incS_keeps hi
    refine ⟨none, rfl, k1, fun q hq => ?_, k2, k3⟩
    rw [List.mem_append] at hq
    exact absurd hq (by simp [nodel_rel])
  case sReset =>
    obtain ⟨a, _, h⟩ := h; cases h
    exact ⟨none, rfl, rfl, fun q hq => absurd hq (nodel_rel _ _), rfl, rfl⟩
  case sResetTo i p =>
    obtain ⟨a, _, h⟩ := h; cases h
    have hn : ∀ q, Work.del q ∉ relOpt a.2 ++ [Work.resetFin i p] := fun q => by simp [nodel_rel]
    exact ⟨some p, rfl, rfl, fun q hq => absurd hq (hn q), rfl, rfl, hn⟩
  case sSwap => obtain ⟨_, _, _, _, h⟩ := h; cases h; exact ⟨none, rfl, eff_nil rfl rfl rfl⟩
  case wNull => cases h; exact ⟨none, rfl, eff_nil rfl rfl rfl⟩
  case wCopy =>
    obtain ⟨_, _, _, hi, h⟩ := h; cases h
    obtain ⟨k1, k2, k3, _⟩ := incW_keeps hi
    exact ⟨none, rfl, eff_nil k1 k2 k3⟩
  case wOfS =>
    obtain ⟨_, _, _, hi, h⟩ := h; cases h
    obtain ⟨k1, k2, k3, _⟩ := incW_keeps hi
    exact ⟨none, rfl, eff_nil k1 k2 k3⟩
  case wMove => obtain ⟨_, _, h⟩ := h; cases h; exact ⟨none, rfl, eff_nil rfl rfl rfl⟩
  case wAssign =>
    obtain ⟨_, _, _, hi, a, _, h⟩ := h; cases h
    obtain ⟨k1, k2, k3, _⟩ := incW_keeps hi
    exact ⟨none, rfl, k1, fun q hq => absurd hq (nodel_relW _ _), k2, k3⟩
  case wAssignMove =>
    obtain ⟨_, _, a, _, h⟩ := h; cases h
    exact ⟨none, rfl, rfl, fun q hq => absurd hq (nodel_relW _ _), rfl, rfl⟩
  case wAssignS =>
    obtain ⟨_, _, _, hi, a, _, h⟩ := h; cases h
    obtain ⟨k1, k2, k3, _⟩ := incW_keeps hi
    exact ⟨none, rfl, k1, fun q hq => absurd hq (nodel_relW _ _), k2, k3⟩
  case wSwap => obtain ⟨_, _, _, _, h⟩ := h; cases h; exact ⟨none, rfl, eff_nil rfl rfl rfl⟩
  case destroy =>
    cases h
    exact ⟨none, rfl, rfl, fun q hq => absurd hq (by simp), rfl, rfl⟩

/-- Pending deletions of an object and completed ones. -/
def gone (s : State) (W : List Work) (o : Obj) : Nat := s.deleted.count o + W.count (.del o)

/-- What a step of a pending call does. -/
theorem micro_eff {N : Nat} {s s' : State} {w : Work} {W push : List Work} (hinv : Inv N s (w :: W))
    (h : micro s w = .ok (s', push)) :
    s'.managed = s.managed ∧ s'.nblk = s.nblk ∧
      ∀ b o, s.managed b = some o →
        gone s' (push ++ W) o = gone s (w :: W) o + if w = .disp b then 1 else 0 := by
  have count0 : ∀ {l : List Work} {o : Obj}, Work.del o ∉ l → l.count (.del o) = 0 := fun h => List.count_eq_zero.2 h
  cases w with
  | relS b =>
    simp only [micro] at h
    split at h
    · exact absurd h (by simp)
    · cases h
      refine ⟨rfl, rfl, fun b' o _ => ?_⟩
      simp only [gone, setCtrl, List.count_append]
      split <;> simp [List.count_cons]
  | relW b =>
    simp only [micro] at h
    split at h
    · exact absurd h (by simp)
    · split at h <;> cases h <;> exact ⟨rfl, rfl, fun b' o _ => by simp [gone, setCtrl, List.count_cons]⟩
  | disp b =>
    simp only [micro] at h
    split at h
    · exact absurd h (by simp)
    · rename_i c hc
      cases h
      refine ⟨rfl, rfl, fun b' o hb => ?_⟩
      have hm := (hinv.core.blt b c hc).2
      simp only [gone, List.count_append, List.count_cons, cdel, Work.disp.injEq]
      have e1 : (Work.relW b == Work.del o) = false := rfl
      have e2 : (Work.disp b == Work.del o) = false := rfl
      simp only [e1, e2, List.count_nil, Bool.false_eq_true, if_false]
      by_cases e : b = b'
      · subst e
        rw [if_pos (by rw [← hm, hb]), if_pos rfl]; omega
      · rw [if_neg e, if_neg (fun hp => e (hinv.core.inj b b' o (by rw [hm, hp]) hb))]; omega
  | del q =>
    simp only [micro] at h
    split at h
    · exact absurd h (by simp)
    · rename_i ms _
      cases h
      refine ⟨rfl, rfl, fun b' o _ => ?_⟩
      have : Work.del o ∉ ms.reverse.map Work.dtor := by simp
      simp only [gone, List.count_append, count0 this, List.count_cons]
      by_cases e : q = o
      · subst e; simp; omega
      · have : (q == o) = false := by simpa using e
        have h2 : (Work.del q == Work.del o) = false := by simpa using e
        simp [this, h2]
  | dtor i =>
    have key : ∀ b o, s.managed b = some o → ∀ p, s.slot i = some (.uniq (some p)) → Work.del o ∉ delOpt p := by
      intro b o hb p hs hin
      obtain ⟨i, hi⟩ := del_uniq hs o hin
      exact hinv.val.un i o b hi hb
    simp only [micro] at h
    split at h
    · exact absurd h (by simp)
    · exact absurd h (by simp)
    · rename_i p hs
      cases h
      refine ⟨rfl, rfl, fun b o hb => ?_⟩
      simp only [gone, List.count_append, count0 (key b o hb p hs), setSlot]
      simp [List.count_cons]
    · cases h
      refine ⟨rfl, rfl, fun b o hb => ?_⟩
      simp only [gone, List.count_append, count0 (nodel_rel _ _), setSlot]
      simp [List.count_cons]
    · cases h
      refine ⟨rfl, rfl, fun b o hb => ?_⟩
      simp only [gone, List.count_append, count0 (nodel_relW _ _), setSlot]
      simp [List.count_cons]
  | resetFin i p =>
    simp only [micro, Res.bind_eq_ok] at h
    obtain ⟨_, _, h⟩ := h
    cases h
    exact ⟨rfl, rfl, fun b o hb => by simp [gone, setSlot, List.count_cons]⟩
  | conv i p c =>
    simp only [micro, Res.bind_eq_ok] at h
    obtain ⟨_, _, s1, h1, h⟩ := h
    obtain ⟨k1, k2, k3, _⟩ := incS_keeps h1
    cases h
    refine ⟨k2, k3, fun b o hb => ?_⟩
    simp only [gone, List.count_append, count0 (nodel_rel _ _), setSlot, k1]
    simp [List.count_cons]

/-- Deleter put in the new control block. -/
def chosen (a : Adopt) : Op → Del
  | .sResetTo _ _ => resetDel a
  | _ => ctorDel a

/-- Number of calls of deleters for an object. -/
def nlog (log : List (Del × Obj)) (o : Obj) : Nat := log.countP (fun e => e.2 = o)

/-- Invariant of the machine with deleters. -/
structure DInv (x : DM) (h : List (Op × Adopt)) : Prop where
  gone : ∀ b o, x.m.s.managed b = some o → nlog x.log o = gone x.m.s x.m.pending o
  log : ∀ d o, (d, o) ∈ x.log → ∃ b, x.m.s.managed b = some o ∧ x.del b = d
  hist : ∀ op a o, (op, a) ∈ h → adopts op = some o → ∃ b, x.m.s.managed b = some o ∧ x.del b = chosen a op

theorem dstep_step {N : Nat} {x x' : DM} {e} (h : DStep N x x' e) : Step N x.m x'.m := by
  cases h with
  | work hfit hw hm => exact Step.work hfit hw hm
  | op a hfit hi hl he => exact Step.op hfit hi hl he

theorem dreach_reach {N T : Nat} {x : DM} {h} (hr : DReach N T x h) : Reach N T x.m := by
  induction hr with
  | start => exact Reach.start
  | step _ hs ih => exact Reach.step ih (dstep_step hs)

theorem nlog_append (l m : List (Del × Obj)) (o : Obj) : nlog (l ++ m) o = nlog l o + nlog m o := by
  simp [nlog]

theorem calls_count {N : Nat} {x : DM} {w : Work} {W : List Work} (hinv : Inv N x.m.s (w :: W)) {b : Blk} {o : Obj}
    (hb : x.m.s.managed b = some o) (hub : micro x.m.s w ≠ .ub) :
    nlog (calls x w) o = if w = .disp b then 1 else 0 := by
  cases w with
  | disp b' =>
    simp only [calls]
    cases hc : x.m.s.ctrl b' with
    | none => exact absurd (by simp [micro, hc]) hub
    | some c =>
      have hm := (hinv.core.blt b' c hc).2
      simp only [Work.disp.injEq]
      by_cases e : b' = b
      · subst e
        rw [hb] at hm
        simp [← hm, nlog]
      · rw [if_neg e]
        cases hp : c.ptr with
        | none => rfl
        | some q =>
          have : q ≠ o := fun h => e (hinv.core.inj b' b o (by rw [hm, hp, h]) hb)
          simp [nlog, this]
  | _ => simp [calls, nlog]

theorem calls_mem {N : Nat} {x : DM} {w : Work} {W : List Work} (hinv : Inv N x.m.s W) {d : Del} {o : Obj}
    (h : (d, o) ∈ calls x w) : ∃ b, x.m.s.managed b = some o ∧ x.del b = d := by
  cases w with
  | disp b =>
    simp only [calls] at h
    split at h
    · rename_i c hc
      split at h
      · rename_i q hq
        simp only [List.mem_singleton, Prod.mk.injEq] at h
        exact ⟨b, by rw [(hinv.core.blt b c hc).2, hq, h.2], h.1.symm⟩
      · exact absurd h (by simp)
    · exact absurd h (by simp)
  | _ => simp [calls] at h

theorem gone_perm {s : State} {W W' : List Work} (h : W.Perm W') (o : Obj) : gone s W o = gone s W' o := by
  simp only [gone, h.count_eq]

theorem newDel_eq (x : DM) (a : Adopt) (o : Op) {r : Option (Option Obj)} (hm : makes x.m.s o r) :
    (∀ b, b ≠ x.m.s.nblk → newDel x a o b = x.del b) ∧ (∀ p, r = some (some p) → newDel x a o x.m.s.nblk = chosen a o) := by
  constructor
  · intro b hb
    cases o <;> simp [newDel, upd, hb]
  · intro p hr
    subst hr
    cases o <;> simp [makes] at hm <;> simp [newDel, upd, chosen]

theorem count_le_K (N : Nat) (slot : Slot → Option Ptr) (W : List Work) (o : Obj) :
    W.count (.del o) ≤ K N slot W (.del o) := by
  have : W.count (.del o) ≤ (W.flatMap norm).count (.del o) := by
    induction W with
    | nil => exact Nat.le_refl _
    | cons w W ih =>
      rw [List.flatMap_cons, List.count_append, List.count_cons]
      have : (if w == Work.del o then 1 else 0) ≤ (norm w).count (.del o) := by
        by_cases e : w = .del o
        · subst e; simp [norm]
        · have : (w == Work.del o) = false := by simpa using e
          simp [this]
      omega
  unfold K
  omega

theorem K_del_pending {N : Nat} {slot : Slot → Option Ptr} {W : List Work} {o : Obj} (h : K N slot W (.del o) = 0) :
    W.count (.del o) = 0 := by
  rw [List.count_eq_zero]
  intro hin
  have : Work.del o ∈ W.flatMap norm := List.mem_flatMap.2 ⟨_, hin, by simp [norm]⟩
  have := List.count_pos_iff.2 this
  unfold K at h
  omega

theorem dinv_work {N : Nat} {s s' : State} {th : List (List Work)} {t : Nat} {w : Work} {rest push : List Work} {del log h}
    (hinv : Inv N s th.flatten) (hd : DInv ⟨⟨s, th⟩, del, log⟩ h) (hw : th[t]? = some (w :: rest))
    (hm : micro s w = .ok (s', push)) :
    DInv ⟨⟨s', th.set t (push ++ rest)⟩, del, log ++ calls ⟨⟨s, th⟩, del, log⟩ w⟩ h := by
  obtain ⟨r, h1, h2⟩ := flatten_get hw
  have hinv' : Inv N s (w :: (rest ++ r)) := hinv.perm h1
  obtain ⟨e1, e2, e3⟩ := micro_eff hinv' hm
  refine ⟨fun b o hb => ?_, fun d o hdo => ?_, fun op a o hin had => ?_⟩
  · have hb : s.managed b = some o := by rw [← e1]; exact hb
    have hg : nlog log o = gone s th.flatten o := hd.gone b o hb
    show nlog (log ++ _) o = gone s' (th.set t (push ++ rest)).flatten o
    have hc := calls_count (x := ⟨⟨s, th⟩, del, log⟩) hinv' hb (by show micro s w ≠ .ub; rw [hm]; simp)
    rw [nlog_append, hg, gone_perm (h2 _), List.append_assoc, e3 b o hb, gone_perm h1, hc]
    rfl
  · rw [List.mem_append] at hdo
    have : ∃ b, s.managed b = some o ∧ del b = d := by
      cases hdo with
      | inl hl => exact hd.log d o hl
      | inr hl => exact calls_mem hinv hl
    obtain ⟨b, x1, x2⟩ := this
    exact ⟨b, by show s'.managed b = _; rw [e1]; exact x1, x2⟩
  · obtain ⟨b, x1, x2⟩ := hd.hist op a o hin had
    exact ⟨b, by show s'.managed b = _; rw [e1]; exact x1, x2⟩

theorem makes_adopts {s : State} {op : Op} {r : Option (Option Obj)} (hm : makes s op r) {o : Obj} (h : adopts op = some o) :
    r = some (some o) := by
  cases op <;> simp [adopts] at h <;> simp only [makes] at hm <;> rw [hm, h]

theorem legal_raw {N : Nat} {s : State} {W : List Work} {op : Op} (hl : Legal N s W op) {r : Option (Option Obj)}
    (hm : makes s op r) {o : Obj} (h : r = some (some o)) : s.raw o = true := by
  subst h
  cases op <;> simp [makes] at hm
  case sNew i p wt => exact hl.2.1 o hm.symm
  case sResetTo i p => exact hl.2.1 o hm.symm

theorem dinv_op {N : Nat} {s s' : State} {th : List (List Work)} {t f : Nat} {op : Op} {push : List Work} {del log h}
    (a : Adopt) (hinv : Inv N s th.flatten) (hd : DInv ⟨⟨s, th⟩, del, log⟩ h) (hi : th[t]? = some [])
    (hl : Legal N s th.flatten op) (he : exec f s op = .ok (s', push)) :
    DInv ⟨⟨s', th.set t push⟩, newDel ⟨⟨s, th⟩, del, log⟩ a op, log⟩ (h ++ [(op, a)]) := by
  obtain ⟨r, h1, h2⟩ := flatten_get hi
  obtain ⟨k, hmk, ed, epush, eman⟩ := exec_eff hl he
  obtain ⟨n1, n2⟩ := newDel_eq ⟨⟨s, th⟩, del, log⟩ a op hmk
  -- old blocks keep their objects and deleters
  have keep : ∀ b o, s.managed b = some o → s'.managed b = some o ∧ newDel ⟨⟨s, th⟩, del, log⟩ a op b = del b := by
    intro b o hb
    have hlt := hinv.core.mlt b o hb
    have hne : b ≠ s.nblk := by omega
    refine ⟨?_, n1 b hne⟩
    cases k with
    | none => rw [eman.1]; exact hb
    | some p => rw [eman.1, upd_ne _ _ hne]; exact hb
  refine ⟨fun b o hb => ?_, fun d o hdo => ?_, fun op' a' o hin had => ?_⟩
  · have hb : s'.managed b = some o := hb
    show nlog log o = gone s' (th.set t push).flatten o
    rw [gone_perm (h2 _)]
    have hg : ∀ l : List Work, Work.del o ∉ l → gone s' (l ++ r) o = gone s th.flatten o := by
      intro l hl
      rw [gone_perm h1]
      simp [gone, ed, List.count_eq_zero.2 hl]
    by_cases hold : s.managed b = some o
    · rw [hg push ?_]
      · exact hd.gone b o hold
      · intro hin
        cases epush o hin with
        | inl hr => have := (hinv.core.man b o hold).1; rw [hr] at this; exact absurd this (by simp)
        | inr hu => obtain ⟨i, hu⟩ := hu; exact hinv.val.un i o b hu hold
    · have : ∃ p, k = some p ∧ b = s.nblk ∧ p = some o := by
        cases k with
        | none => rw [eman.1] at hb; exact absurd hb hold
        | some p =>
          rw [eman.1] at hb
          by_cases e : b = s.nblk
          · subst e; rw [upd_eq] at hb; exact ⟨p, rfl, rfl, hb⟩
          · rw [upd_ne _ _ e] at hb; exact absurd hb hold
      obtain ⟨p, rfl, rfl, rfl⟩ := this
      have hraw := legal_raw hl hmk rfl
      rw [hg push (eman.2.2 o)]
      have h0 : nlog log o = 0 := by
        rw [nlog, List.countP_eq_zero]
        rintro ⟨d, q⟩ hin heq
        simp only [decide_eq_true_eq] at heq
        subst heq
        obtain ⟨b', hb', _⟩ := hd.log d q hin
        have := (hinv.core.man b' q hb').1
        rw [hraw] at this; exact absurd this (by simp)
      have hlive : (s.obj o).isSome = true := (hinv.core.live o).1 (.inl hraw)
      rw [h0, gone, hinv.core.deleted o, if_neg (by rw [hlive]; simp), K_del_pending (hinv.core.raw0 o hraw)]
  · obtain ⟨b, x1, x2⟩ := hd.log d o hdo
    exact ⟨b, (keep b o x1).1, (keep b o x1).2.trans x2⟩
  · rw [List.mem_append] at hin
    cases hin with
    | inl hin =>
      obtain ⟨b, x1, x2⟩ := hd.hist op' a' o hin had
      exact ⟨b, (keep b o x1).1, (keep b o x1).2.trans x2⟩
    | inr hin =>
      simp only [List.mem_singleton, Prod.mk.injEq] at hin
      obtain ⟨rfl, rfl⟩ := hin
      have hk := makes_adopts hmk had
      subst hk
      exact ⟨s.nblk, by show s'.managed s.nblk = _; rw [eman.1, upd_eq], n2 o rfl⟩

theorem dinv_reach {N T : Nat} {x : DM} {h} (hr : DReach N T x h) : DInv x h := by
  induction hr with
  | start del =>
    refine ⟨fun b o hb => ?_, fun d o hd => absurd hd (by simp), fun op a o hin => absurd hin (by simp)⟩
    exact absurd hb (by simp [init])
  | step hr hs ih =>
    have hinv := inv_reach (dreach_reach hr)
    cases hs with
    | work hfit hw hm =>
      simp only [Option.toList, List.append_nil]
      exact dinv_work hinv ih hw hm
    | op a hfit hi hl he => exact dinv_op a hinv ih hi hl he

end Verif.Deleter
