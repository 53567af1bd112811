import Verif.Model.SmartPtr

/-! Helper lemmas for the smart pointers: reference accounting. -/

set_option backward.isDefEq.respectTransparency false

namespace Verif.SmartPtr

/-- The release the destructor of a pointer object would make. -/
def refO : Option Ptr → List Work
  | some (.uniq (some p)) => delOpt p
  | some (.shared _ c) => relOpt c
  | some (.weak _ c) => relWOpt c
  | _ => []

/-- The references a pending call holds. -/
def norm : Work → List Work
  | .dtor _ => []
  | .resetFin _ _ => []
  | .conv _ _ c => relOpt c
  | w => [w]

def slotsR (N : Nat) (slot : Slot → Option Ptr) : List Work := (List.range N).flatMap fun i => refO (slot i)

/-- Number of references of each sort, in pointer objects and pending calls. -/
def K (N : Nat) (slot : Slot → Option Ptr) (W : List Work) (w : Work) : Nat :=
  (slotsR N slot).count w + (W.flatMap norm).count w

theorem slotsR_succ (N : Nat) (slot : Slot → Option Ptr) :
    slotsR (N + 1) slot = slotsR N slot ++ refO (slot N) := by
  simp [slotsR, List.range_succ, List.flatMap_append]

theorem slotsR_upd_ge {N : Nat} {slot : Slot → Option Ptr} {i : Slot} (v : Option Ptr) (h : N ≤ i) :
    slotsR N (upd slot i v) = slotsR N slot := by
  induction N with
  | zero => rfl
  | succ N ih =>
    rw [slotsR_succ, slotsR_succ, ih (by omega)]
    simp only [upd, if_neg (show N ≠ i by omega)]

theorem slotsR_upd {N : Nat} {slot : Slot → Option Ptr} {i : Slot} (v : Option Ptr) (w : Work) (h : i < N) :
    (slotsR N (upd slot i v)).count w + (refO (slot i)).count w = (slotsR N slot).count w + (refO v).count w := by
  induction N with
  | zero => omega
  | succ N ih =>
    rw [slotsR_succ, slotsR_succ, List.count_append, List.count_append]
    by_cases e : i = N
    · subst e
      rw [slotsR_upd_ge v (Nat.le_refl _)]
      simp only [upd, if_true]; omega
    · have := ih (by omega)
      simp only [upd, if_neg (show N ≠ i by omega)] at this ⊢
      omega

theorem K_upd {N : Nat} {slot : Slot → Option Ptr} {i : Slot} (v : Option Ptr) (W : List Work) (w : Work) (h : i < N) :
    K N (upd slot i v) W w + (refO (slot i)).count w = K N slot W w + (refO v).count w := by
  have := slotsR_upd (slot := slot) v w h
  simp only [K]; omega

theorem K_append (N : Nat) (slot : Slot → Option Ptr) (l W : List Work) (w : Work) :
    K N slot (l ++ W) w = (l.flatMap norm).count w + K N slot W w := by
  simp only [K, List.flatMap_append, List.count_append]; omega

theorem K_cons (N : Nat) (slot : Slot → Option Ptr) (x : Work) (W : List Work) (w : Work) :
    K N slot (x :: W) w = (norm x).count w + K N slot W w := by
  simp only [K, List.flatMap_cons, List.count_append]; omega

@[simp] theorem norm_relOpt (c : Option Blk) : (relOpt c).flatMap norm = relOpt c := by cases c <;> rfl
@[simp] theorem norm_relWOpt (c : Option Blk) : (relWOpt c).flatMap norm = relWOpt c := by cases c <;> rfl
@[simp] theorem norm_delOpt (c : Option Obj) : (delOpt c).flatMap norm = delOpt c := by cases c <;> rfl
@[simp] theorem norm_dtors (l : List Slot) : (l.map Work.dtor).flatMap norm = [] := by
  induction l with
  | nil => rfl
  | cons a l ih => simp only [List.map_cons, List.flatMap_cons, ih, norm, List.nil_append]

theorem refO_len (v : Option Ptr) : (refO v).length ≤ 1 := by
  rcases v with _ | (_ | (_ | _)) | ⟨_, _ | _⟩ | ⟨_, _ | _⟩ <;> simp [refO, delOpt, relOpt, relWOpt]

theorem norm_len (w : Work) : (norm w).length ≤ 1 := by
  cases w <;> simp [norm]
  case conv i p c => cases c <;> simp [relOpt]

theorem K_le (N : Nat) (slot : Slot → Option Ptr) (W : List Work) (w : Work) : K N slot W w ≤ N + W.length := by
  have h1 : (slotsR N slot).length ≤ N := by
    induction N with
    | zero => exact Nat.le_refl _
    | succ N ih => rw [slotsR_succ, List.length_append]; have := refO_len (slot N); omega
  have h2 : (W.flatMap norm).length ≤ W.length := by
    induction W with
    | nil => exact Nat.le_refl _
    | cons a l ih => rw [List.flatMap_cons, List.length_append, List.length_cons]; have := norm_len a; omega
  have := List.count_le_length (a := w) (l := slotsR N slot)
  have := List.count_le_length (a := w) (l := W.flatMap norm)
  simp only [K]; omega

theorem K_pos_of_slot {N : Nat} {slot : Slot → Option Ptr} {i : Slot} {W : List Work} {w : Work} (hi : i < N)
    (h : w ∈ refO (slot i)) : 0 < K N slot W w := by
  have : 0 < (slotsR N slot).count w := by
    rw [List.count_pos_iff]
    exact List.mem_flatMap.2 ⟨i, List.mem_range.2 hi, h⟩
  simp only [K]; omega

/-! ### Reference counts and ownership of objects -/

/-- Block `b` still owns its object: it has owners, or is about to dispose of it. -/
def OwnB (s : State) (k : Work → Nat) (b : Blk) : Prop :=
  ∃ c, s.ctrl b = some c ∧ (c.shared ≠ 0 ∨ 0 < k (.disp b))

/-- The accounting invariant; `k` is the number of references of each sort. -/
structure Core (s : State) (k : Work → Nat) : Prop where
  cS : ∀ b c, s.ctrl b = some c → c.shared.toNat = k (.relS b)
  cW : ∀ b c, s.ctrl b = some c → c.weak.toNat = k (.relW b) + k (.disp b) + (if c.shared = 0 then 0 else 1)
  gone : ∀ b, s.ctrl b = none → k (.relS b) = 0 ∧ k (.relW b) = 0 ∧ k (.disp b) = 0
  pos : ∀ b c, s.ctrl b = some c → c.weak ≠ 0
  disp1 : ∀ b c, s.ctrl b = some c → k (.disp b) + (if c.shared = 0 then 0 else 1) ≤ 1
  blt : ∀ b c, s.ctrl b = some c → b < s.nblk ∧ s.managed b = c.ptr
  mlt : ∀ b o, s.managed b = some o → b < s.nblk
  live : ∀ o, (s.raw o = true ∨ 0 < k (.del o) ∨ ∃ b, s.managed b = some o ∧ OwnB s k b) ↔ (s.obj o).isSome = true
  raw0 : ∀ o, s.raw o = true → k (.del o) = 0
  del1 : ∀ o, k (.del o) ≤ 1
  man : ∀ b o, s.managed b = some o → s.raw o = false ∧ o < s.nobj ∧ (OwnB s k b → k (.del o) = 0)
  inj : ∀ b b' o, s.managed b = some o → s.managed b' = some o → b = b'
  olt : ∀ o, (s.obj o).isSome = true → o < s.nobj
  deleted : ∀ o, s.deleted.count o = if o < s.nobj ∧ (s.obj o).isSome = false then 1 else 0
  freed : ∀ b, s.freed.count b = if b < s.nblk ∧ (s.ctrl b).isSome = false then 1 else 0

theorem Core.congr {s : State} {k k' : Work → Nat} (h : Core s k) (hk : ∀ w, k' w = k w) : Core s k' := by
  have : k' = k := funext hk
  rw [this]; exact h

theorem Core.setSlot {s : State} {k : Work → Nat} (h : Core s k) (i : Slot) (v : Option Ptr) :
    Core (setSlot s i v) k :=
  ⟨h.cS, h.cW, h.gone, h.pos, h.disp1, h.blt, h.mlt, h.live, h.raw0, h.del1, h.man, h.inj, h.olt, h.deleted, h.freed⟩

theorem core_init : Core init (fun _ => 0) := by
  constructor <;> simp [init, OwnB]

theorem bv_ne {a : BitVec 64} : a ≠ 0 ↔ a.toNat ≠ 0 := by
  constructor
  · intro h e; exact h (BitVec.eq_of_toNat_eq (by simpa using e))
  · intro h e; subst e; exact h rfl

theorem bv_eq {a : BitVec 64} : a = 0 ↔ a.toNat = 0 := by
  constructor
  · intro h; subst h; rfl
  · intro h; exact BitVec.eq_of_toNat_eq (by simpa using h)

theorem bv_succ {a : BitVec 64} (h : a.toNat + 1 < 2 ^ 64) : (a + 1).toNat = a.toNat + 1 := by
  rw [BitVec.toNat_add]; exact Nat.mod_eq_of_lt h

theorem bv_pred {a : BitVec 64} (h : 0 < a.toNat) : (a - 1).toNat = a.toNat - 1 := by
  rw [BitVec.toNat_sub]
  have := a.isLt
  rw [show (1 : BitVec 64).toNat = 1 from rfl]
  omega

theorem upd_eq {α : Type} (f : Nat → α) (i : Nat) (v : α) : upd f i v i = v := by simp [upd]
theorem upd_ne {α : Type} (f : Nat → α) {i j : Nat} (v : α) (h : j ≠ i) : upd f i v j = f j := by simp [upd, h]

theorem upd_some {α : Type} {f : Nat → Option α} {i : Nat} {v : Option α} {j : Nat} {x : α} (h : upd f i v j = some x) :
    (j = i ∧ v = some x) ∨ (j ≠ i ∧ f j = some x) := by
  by_cases e : j = i
  · subst e; rw [upd_eq] at h; exact Or.inl ⟨rfl, h⟩
  · rw [upd_ne _ _ e] at h; exact Or.inr ⟨e, h⟩

theorem own_iff {x y : BitVec 64} {a b : Nat} (h : a + (if x = 0 then 0 else 1) = b + (if y = 0 then 0 else 1)) :
    (x ≠ 0 ∨ 0 < a) ↔ (y ≠ 0 ∨ 0 < b) := by
  by_cases e1 : x = 0 <;> by_cases e2 : y = 0
  · rw [if_pos e1, if_pos e2] at h; simp only [e1, e2, ne_eq, not_true, false_or]; omega
  · rw [if_pos e1, if_neg e2] at h; simp only [e1, e2, ne_eq, not_true, false_or, not_false_iff, true_or, iff_true]; omega
  · rw [if_neg e1, if_pos e2] at h; simp only [e1, e2, ne_eq, not_true, false_or, not_false_iff, true_or, true_iff]; omega
  · simp only [e1, e2, ne_eq, not_false_iff, true_or]

/-- Changing a block's counters. -/
theorem Core.setCtrl {s : State} {k k' : Work → Nat} {b : Blk} {c c' : Ctrl} (h : Core s k) (hc : s.ctrl b = some c)
    (hp : c'.ptr = c.ptr) (hS : c'.shared.toNat = k' (.relS b))
    (hW : c'.weak.toNat = k' (.relW b) + k' (.disp b) + (if c'.shared = 0 then 0 else 1)) (hpos : c'.weak ≠ 0)
    (hd : k' (.disp b) + (if c'.shared = 0 then 0 else 1) = k (.disp b) + (if c.shared = 0 then 0 else 1))
    (hk : ∀ w, w ≠ .relS b → w ≠ .relW b → w ≠ .disp b → k' w = k w) :
    Core (SmartPtr.setCtrl s b (some c')) k' := by
  have kd : ∀ o, k' (.del o) = k (.del o) := fun o => hk _ (by simp) (by simp) (by simp)
  have own : ∀ b', OwnB (SmartPtr.setCtrl s b (some c')) k' b' ↔ OwnB s k b' := by
    intro b'
    by_cases e : b' = b
    · subst e
      constructor
      · rintro ⟨x, hx, hh⟩
        simp only [SmartPtr.setCtrl, upd_eq, Option.some.injEq] at hx
        subst hx
        exact ⟨c, hc, (own_iff hd).1 hh⟩
      · rintro ⟨x, hx, hh⟩
        rw [hc] at hx; obtain rfl := Option.some.inj hx
        exact ⟨c', by simp [SmartPtr.setCtrl, upd_eq], (own_iff hd).2 hh⟩
    · simp only [OwnB, SmartPtr.setCtrl, upd_ne _ _ e, hk (.disp b') (by simp) (by simp) (by simp [e])]
  have other : ∀ {b' x}, (SmartPtr.setCtrl s b (some c')).ctrl b' = some x →
      (b' = b ∧ x = c') ∨ (b' ≠ b ∧ s.ctrl b' = some x) := by
    intro b' x hx
    rcases upd_some hx with ⟨e, hv⟩ | ⟨e, hx⟩
    · exact Or.inl ⟨e, (Option.some.inj hv).symm⟩
    · exact Or.inr ⟨e, hx⟩
  constructor
  case cS =>
    intro b' x hx
    rcases other hx with ⟨rfl, rfl⟩ | ⟨e, hx⟩
    · exact hS
    · rw [hk _ (by simp [e]) (by simp) (by simp)]; exact h.cS _ _ hx
  case cW =>
    intro b' x hx
    rcases other hx with ⟨rfl, rfl⟩ | ⟨e, hx⟩
    · exact hW
    · rw [hk _ (by simp) (by simp [e]) (by simp), hk _ (by simp) (by simp) (by simp [e])]; exact h.cW _ _ hx
  case gone =>
    intro b' hx
    by_cases e : b' = b
    · subst e; simp [SmartPtr.setCtrl, upd_eq] at hx
    · simp only [SmartPtr.setCtrl, upd_ne _ _ e] at hx
      rw [hk _ (by simp [e]) (by simp) (by simp), hk _ (by simp) (by simp [e]) (by simp),
        hk _ (by simp) (by simp) (by simp [e])]
      exact h.gone _ hx
  case pos =>
    intro b' x hx
    rcases other hx with ⟨rfl, rfl⟩ | ⟨e, hx⟩
    · exact hpos
    · exact h.pos _ _ hx
  case disp1 =>
    intro b' x hx
    rcases other hx with ⟨rfl, rfl⟩ | ⟨e, hx⟩
    · rw [hd]; exact h.disp1 _ _ hc
    · rw [hk _ (by simp) (by simp) (by simp [e])]; exact h.disp1 _ _ hx
  case blt =>
    intro b' x hx
    rcases other hx with ⟨rfl, rfl⟩ | ⟨e, hx⟩
    · rw [hp]; exact h.blt _ _ hc
    · exact h.blt _ _ hx
  case mlt => exact h.mlt
  case live =>
    intro o
    simp only [own, kd]
    exact h.live o
  case raw0 => intro o ho; rw [kd]; exact h.raw0 o ho
  case del1 => intro o; rw [kd]; exact h.del1 o
  case man =>
    intro b' o ho
    rw [own, kd]
    exact h.man b' o ho
  case inj => exact h.inj
  case olt => exact h.olt
  case deleted => exact h.deleted
  case freed =>
    intro b'
    rw [h.freed b' |> fun e => show (SmartPtr.setCtrl s b (some c')).freed.count b' = _ from e]
    by_cases e : b' = b
    · subst e; simp [SmartPtr.setCtrl, upd_eq, hc]
    · simp only [SmartPtr.setCtrl, upd_ne _ _ e]

theorem core_incS {s : State} {k : Work → Nat} (h : Core s k) (c : Option Blk)
    (hc : ∀ b, c = some b → 0 < k (.relS b) ∧ k (.relS b) + 1 < 2 ^ 64) :
    ∃ x, incS s c = .ok { s with ctrl := x } ∧ Core { s with ctrl := x } (fun w => k w + (relOpt c).count w) := by
  cases c with
  | none => exact ⟨s.ctrl, rfl, h.congr (fun w => by simp [relOpt])⟩
  | some b =>
    obtain ⟨h1, h2⟩ := hc b rfl
    rcases e : s.ctrl b with _ | c
    · have := h.gone b e; omega
    · refine ⟨upd s.ctrl b (some { c with shared := c.shared + 1 }), by simp only [incS, e]; rfl, ?_⟩
      have hs := h.cS b c e
      have hn : (c.shared + 1).toNat = c.shared.toNat + 1 := bv_succ (by omega)
      have e1 : ¬ c.shared = 0 := bv_ne.2 (by omega)
      have e2 : ¬ c.shared + 1 = 0 := bv_ne.2 (by omega)
      have hw := h.cW b c e
      rw [if_neg e1] at hw
      refine h.setCtrl (c' := { c with shared := c.shared + 1 }) e rfl ?_ ?_ (h.pos b c e) ?_ ?_
      · simp only [relOpt, List.count_singleton_self]; omega
      · rw [if_neg e2]; simpa [relOpt] using hw
      · rw [if_neg e1, if_neg e2]; simp [relOpt]
      · intro w a1 a2 a3
        simp [relOpt, List.count_singleton, Ne.symm a1]

theorem core_incW {s : State} {k : Work → Nat} (h : Core s k) (c : Option Blk)
    (hc : ∀ b, c = some b → 0 < k (.relS b) + k (.relW b) + k (.disp b) ∧ k (.relW b) + k (.disp b) + 2 < 2 ^ 64) :
    ∃ x, incW s c = .ok { s with ctrl := x } ∧ Core { s with ctrl := x } (fun w => k w + (relWOpt c).count w) := by
  cases c with
  | none => exact ⟨s.ctrl, rfl, h.congr (fun w => by simp [relWOpt])⟩
  | some b =>
    obtain ⟨h1, h2⟩ := hc b rfl
    rcases e : s.ctrl b with _ | c
    · have := h.gone b e; omega
    · refine ⟨upd s.ctrl b (some { c with weak := c.weak + 1 }), by simp only [incW, e]; rfl, ?_⟩
      have hw := h.cW b c e
      have hb : c.weak.toNat + 1 < 2 ^ 64 := by
        rw [hw]; split <;> omega
      have hn : (c.weak + 1).toNat = c.weak.toNat + 1 := bv_succ hb
      refine h.setCtrl (c' := { c with weak := c.weak + 1 }) e rfl ?_ ?_ (bv_ne.2 ?_) ?_ ?_
      · simpa [relWOpt] using h.cS b c e
      · rw [show (c.weak + 1).toNat = _ from hn, hw]
        simp [relWOpt]; omega
      · rw [show (c.weak + 1).toNat = _ from hn]; omega
      · simp [relWOpt]
      · intro w a1 a2 a3
        simp [relWOpt, List.count_singleton, Ne.symm a2]

theorem core_relS {s : State} {k k1 : Work → Nat} {b : Blk} (h : Core s k)
    (hk : ∀ w, k w = k1 w + [Work.relS b].count w) :
    ∃ x push, micro s (.relS b) = .ok ({ s with ctrl := x }, push) ∧ (push = [] ∨ push = [.disp b]) ∧
      Core { s with ctrl := x } (fun w => k1 w + push.count w) := by
  have hb : k (.relS b) = k1 (.relS b) + 1 := by rw [hk]; simp
  rcases e : s.ctrl b with _ | c
  · have := h.gone b e; omega
  · have hs := h.cS b c e
    have hn : (c.shared - 1).toNat = c.shared.toNat - 1 := bv_pred (by omega)
    have e1 : ¬ c.shared = 0 := bv_ne.2 (by omega)
    have hw := h.cW b c e
    rw [if_neg e1] at hw
    have hd1 := h.disp1 b c e
    rw [if_neg e1] at hd1
    have kd : k (.disp b) = k1 (.disp b) := by rw [hk]; simp
    have kw : k (.relW b) = k1 (.relW b) := by rw [hk]; simp
    by_cases e2 : c.shared - 1 = 0
    · refine ⟨upd s.ctrl b (some { c with shared := c.shared - 1 }), [.disp b],
        by simp only [micro, e]; rw [if_pos e2]; rfl, Or.inr rfl, ?_⟩
      refine h.setCtrl (c' := { c with shared := c.shared - 1 }) e rfl ?_ ?_ (h.pos b c e) ?_ ?_
      · have : [Work.disp b].count (.relS b) = 0 := by simp
        rw [this]
        show (c.shared - 1).toNat = _
        omega
      · have : [Work.disp b].count (.relW b) = 0 := by simp
        rw [this, if_pos e2, List.count_singleton_self]; dsimp only; omega
      · rw [if_pos e2, if_neg e1, List.count_singleton_self]; omega
      · intro w a1 a2 a3
        rw [hk w]
        simp [Ne.symm a1, Ne.symm a3]
    · refine ⟨upd s.ctrl b (some { c with shared := c.shared - 1 }), [],
        by simp only [micro, e]; rw [if_neg e2]; rfl, Or.inl rfl, ?_⟩
      refine h.setCtrl (c' := { c with shared := c.shared - 1 }) e rfl ?_ ?_ (h.pos b c e) ?_ ?_
      · show (c.shared - 1).toNat = _
        rw [List.count_nil]
        omega
      · rw [if_neg e2, List.count_nil, List.count_nil]; dsimp only; omega
      · rw [if_neg e2, if_neg e1, List.count_nil]; omega
      · intro w a1 a2 a3
        rw [hk w]
        simp [Ne.symm a1]

theorem c1 (x y : Work) : [x].count y = if x = y then 1 else 0 := by
  rw [List.count_singleton]; simp only [beq_iff_eq]

theorem cdel (p : Option Obj) (o : Obj) : (delOpt p).count (.del o) = if p = some o then 1 else 0 := by
  cases p with
  | none => rfl
  | some o' => simp only [delOpt, c1, Work.del.injEq, Option.some.injEq]

theorem cdelS (p : Option Obj) (b : Blk) : (delOpt p).count (.relS b) = 0 := by
  cases p <;> simp [delOpt]
theorem cdelW (p : Option Obj) (b : Blk) : (delOpt p).count (.relW b) = 0 := by
  cases p <;> simp [delOpt]
theorem cdelD (p : Option Obj) (b : Blk) : (delOpt p).count (.disp b) = 0 := by
  cases p <;> simp [delOpt]

theorem core_disp {s : State} {k k1 : Work → Nat} {b : Blk} (h : Core s k)
    (hk : ∀ w, k w = k1 w + [Work.disp b].count w) :
    ∃ p, micro s (.disp b) = .ok (s, delOpt p ++ [.relW b]) ∧
      Core s (fun w => k1 w + (delOpt p ++ [Work.relW b]).count w) := by
  have hb : k (.disp b) = k1 (.disp b) + 1 := by rw [hk]; simp
  rcases e : s.ctrl b with _ | c
  · have := h.gone b e; omega
  have hd1 := h.disp1 b c e
  have e1 : c.shared = 0 := by
    by_cases e1 : c.shared = 0
    · exact e1
    · rw [if_neg e1] at hd1; omega
  rw [if_pos e1] at hd1
  have hm := (h.blt b c e).2
  have hown : OwnB s k b := ⟨c, e, Or.inr (by omega)⟩
  refine ⟨c.ptr, by simp only [micro, e], ?_⟩
  generalize hk' : (fun w => k1 w + (delOpt c.ptr ++ [Work.relW b]).count w) = k'
  have q : ∀ w, k' w + [Work.disp b].count w = k w + (delOpt c.ptr).count w + [Work.relW b].count w := by
    intro w; rw [← hk', hk w]; dsimp only; rw [List.count_append]; omega
  have kS : ∀ b', k' (.relS b') = k (.relS b') := by
    intro b'; have := q (.relS b')
    rw [cdelS, c1, c1, if_neg (by simp), if_neg (by simp)] at this; exact this
  have kW : ∀ b', k' (.relW b') = k (.relW b') + if b' = b then 1 else 0 := by
    intro b'; have := q (.relW b')
    rw [cdelW, c1, c1, if_neg (by simp)] at this
    simp only [Work.relW.injEq, @eq_comm _ b] at this; exact this
  have kD : ∀ b', k' (.disp b') + (if b' = b then 1 else 0) = k (.disp b') := by
    intro b'; have := q (.disp b')
    rw [cdelD, c1, c1, if_neg (show ¬ Work.relW b = Work.disp b' by simp)] at this
    simp only [Work.disp.injEq, @eq_comm _ b] at this; exact this
  have kdel : ∀ o, k' (.del o) = k (.del o) + if c.ptr = some o then 1 else 0 := by
    intro o; have := q (.del o)
    rw [cdel, c1, c1, if_neg (show ¬ Work.disp b = Work.del o by simp), if_neg (show ¬ Work.relW b = Work.del o by simp)] at this; exact this
  have own : ∀ b', OwnB s k' b' ↔ (b' ≠ b ∧ OwnB s k b') := by
    intro b'
    have := kD b'
    by_cases e2 : b' = b
    · rw [if_pos e2] at this
      subst e2
      constructor
      · rintro ⟨x, hx, hh⟩
        rw [e] at hx; obtain rfl := Option.some.inj hx
        rcases hh with hh | hh
        · exact absurd e1 hh
        · omega
      · intro hh; exact absurd rfl hh.1
    · rw [if_neg e2, Nat.add_zero] at this
      constructor
      · rintro ⟨x, hx, hh⟩; exact ⟨e2, x, hx, by rw [← this]; exact hh⟩
      · rintro ⟨_, x, hx, hh⟩; exact ⟨x, hx, by rw [this]; exact hh⟩
  constructor
  case cS => intro b' x hx; rw [kS]; exact h.cS b' x hx
  case cW =>
    intro b' x hx
    have h2 := h.cW b' x hx
    have a1 := kW b'; have a2 := kD b'
    omega
  case gone =>
    intro b' hx
    have h2 := h.gone b' hx
    have a0 := kS b'; have a1 := kW b'; have a2 := kD b'
    by_cases e2 : b' = b
    · subst e2; rw [e] at hx; exact absurd hx (by simp)
    · rw [if_neg e2] at a1 a2; omega
  case pos => exact h.pos
  case disp1 =>
    intro b' x hx
    have h2 := h.disp1 b' x hx
    have a2 := kD b'
    omega
  case blt => exact h.blt
  case mlt => exact h.mlt
  case live =>
    intro o
    rw [kdel]
    constructor
    · rintro (ho | ho | ⟨b', h1, h2⟩)
      · exact (h.live o).1 (Or.inl ho)
      · by_cases e2 : c.ptr = some o
        · exact (h.live o).1 (Or.inr (Or.inr ⟨b, by rw [hm, e2], hown⟩))
        · rw [if_neg e2] at ho
          exact (h.live o).1 (Or.inr (Or.inl ho))
      · exact (h.live o).1 (Or.inr (Or.inr ⟨b', h1, ((own b').1 h2).2⟩))
    · intro ho
      rcases (h.live o).2 ho with ho | ho | ⟨b', h1, h2⟩
      · exact Or.inl ho
      · exact Or.inr (Or.inl (by omega))
      · by_cases e2 : b' = b
        · subst e2; rw [hm] at h1; rw [if_pos h1]; exact Or.inr (Or.inl (by omega))
        · exact Or.inr (Or.inr ⟨b', h1, (own b').2 ⟨e2, h2⟩⟩)
  case raw0 =>
    intro o ho
    rw [kdel, h.raw0 o ho]
    by_cases e2 : c.ptr = some o
    · have := (h.man b o (by rw [hm, e2])).1
      rw [this] at ho; exact absurd ho (by simp)
    · rw [if_neg e2]
  case del1 =>
    intro o
    rw [kdel]
    by_cases e2 : c.ptr = some o
    · have := (h.man b o (by rw [hm, e2])).2.2 hown
      rw [if_pos e2]; omega
    · rw [if_neg e2]; exact h.del1 o
  case man =>
    intro b' o ho
    have hh := h.man b' o ho
    refine ⟨hh.1, hh.2.1, fun h1 => ?_⟩
    rw [kdel, hh.2.2 ((own b').1 h1).2]
    by_cases e2 : c.ptr = some o
    · exact absurd (h.inj _ _ _ ho (by rw [hm, e2])) ((own b').1 h1).1
    · rw [if_neg e2]
  case inj => exact h.inj
  case olt => exact h.olt
  case deleted => exact h.deleted
  case freed => exact h.freed

theorem core_relW {s : State} {k k1 : Work → Nat} {b : Blk} (h : Core s k)
    (hk : ∀ w, k w = k1 w + [Work.relW b].count w) :
    ∃ x fr, micro s (.relW b) = .ok ({ s with ctrl := x, freed := fr }, []) ∧ Core { s with ctrl := x, freed := fr } k1 := by
  have hb : k (.relW b) = k1 (.relW b) + 1 := by rw [hk]; simp
  have kS : ∀ b', k (.relS b') = k1 (.relS b') := by intro b'; rw [hk]; simp
  have kD : ∀ b', k (.disp b') = k1 (.disp b') := by intro b'; rw [hk]; simp
  have kE : ∀ o, k (.del o) = k1 (.del o) := by intro b'; rw [hk]; simp
  have kW : ∀ b', b' ≠ b → k (.relW b') = k1 (.relW b') := by intro b' e; rw [hk]; simp [Ne.symm e]
  rcases e : s.ctrl b with _ | c
  · have := h.gone b e; omega
  have hw := h.cW b c e
  have hn : (c.weak - 1).toNat = c.weak.toNat - 1 := bv_pred (by omega)
  by_cases e2 : c.weak - 1 = 0
  · refine ⟨upd s.ctrl b none, b :: s.freed, by simp only [micro, e]; rw [if_pos e2]; rfl, ?_⟩
    have e3 := bv_eq.1 e2
    have e1 : c.shared = 0 := by
      by_cases e1 : c.shared = 0
      · exact e1
      · rw [if_neg e1] at hw; omega
    rw [if_pos e1] at hw
    have hs := h.cS b c e
    rw [e1] at hs
    have hs : 0 = k (.relS b) := hs
    have own : ∀ b', OwnB { s with ctrl := upd s.ctrl b none, freed := b :: s.freed } k1 b' ↔ OwnB s k b' := by
      intro b'
      by_cases e4 : b' = b
      · subst e4
        constructor
        · rintro ⟨x, hx, _⟩; simp [upd_eq] at hx
        · rintro ⟨x, hx, hh⟩
          rw [e] at hx; obtain rfl := Option.some.inj hx
          rcases hh with hh | hh
          · exact absurd e1 hh
          · omega
      · simp only [OwnB, upd_ne _ _ e4, kD]
    have other : ∀ {b' x}, upd s.ctrl b none b' = some x → b' ≠ b ∧ s.ctrl b' = some x := by
      intro b' x hx
      rcases upd_some hx with ⟨_, h'⟩ | h'
      · simp at h'
      · exact h'
    constructor
    case cS => intro b' x hx; rw [← kS]; exact h.cS _ _ (other hx).2
    case cW => intro b' x hx; rw [← kD, ← kW _ (other hx).1]; exact h.cW _ _ (other hx).2
    case gone =>
      intro b' hx
      by_cases e4 : b' = b
      · subst e4; rw [← kS, ← kD]; omega
      · rw [← kS, ← kD, ← kW _ e4]; exact h.gone _ (by simpa [upd_ne _ _ e4] using hx)
    case pos => intro b' x hx; exact h.pos _ _ (other hx).2
    case disp1 => intro b' x hx; rw [← kD]; exact h.disp1 _ _ (other hx).2
    case blt => intro b' x hx; exact h.blt _ _ (other hx).2
    case mlt => exact h.mlt
    case live => intro o; simp only [own, ← kE]; exact h.live o
    case raw0 => intro o ho; rw [← kE]; exact h.raw0 o ho
    case del1 => intro o; rw [← kE]; exact h.del1 o
    case man => intro b' o ho; rw [own, ← kE]; exact h.man b' o ho
    case inj => exact h.inj
    case olt => exact h.olt
    case deleted => exact h.deleted
    case freed =>
      intro b'
      have := h.freed b'
      by_cases e4 : b' = b
      · subst e4
        rw [e] at this
        have lt := (h.blt b' c e).1
        simp [upd_eq, lt] at this ⊢
        exact this
      · simp only [List.count_cons, upd_ne _ _ e4]
        rw [this]
        simp [Ne.symm e4]
  · refine ⟨upd s.ctrl b (some { c with weak := c.weak - 1 }), s.freed, by simp only [micro, e]; rw [if_neg e2]; rfl, ?_⟩
    refine h.setCtrl (c' := { c with weak := c.weak - 1 }) e rfl ?_ ?_ e2 ?_ ?_
    · rw [← kS]; exact h.cS b c e
    · rw [← kD]
      show (c.weak - 1).toNat = _
      rw [hn, hw]; dsimp only; omega
    · rw [← kD]
    · intro w a1 a2 a3
      rw [hk w]; simp [Ne.symm a2]

theorem core_del {s : State} {k k1 : Work → Nat} {o : Obj} (h : Core s k)
    (hk : ∀ w, k w = k1 w + [Work.del o].count w) :
    ∃ ms, s.obj o = some ms ∧
      Core { s with obj := upd s.obj o none, deleted := o :: s.deleted } k1 := by
  have hb : k (.del o) = k1 (.del o) + 1 := by rw [hk]; simp
  have kS : ∀ b', k (.relS b') = k1 (.relS b') := by intro b'; rw [hk]; simp
  have kD : ∀ b', k (.disp b') = k1 (.disp b') := by intro b'; rw [hk]; simp
  have kW : ∀ b', k (.relW b') = k1 (.relW b') := by intro b'; rw [hk]; simp
  have kE : ∀ o', o' ≠ o → k (.del o') = k1 (.del o') := by intro o' e; rw [hk]; simp [Ne.symm e]
  have hl := (h.live o).1 (Or.inr (Or.inl (by omega)))
  have d1 := h.del1 o
  obtain ⟨ms, hms⟩ := Option.isSome_iff_exists.1 hl
  have own : ∀ b', OwnB { s with obj := upd s.obj o none, deleted := o :: s.deleted } k1 b' ↔ OwnB s k b' := by
    intro b'; simp only [OwnB, kD]
  have kle : ∀ o', k1 (.del o') ≤ k (.del o') := by intro o'; rw [hk]; omega
  refine ⟨ms, hms, ?_⟩
  constructor
  case cS => intro b' x hx; rw [← kS]; exact h.cS _ _ hx
  case cW => intro b' x hx; rw [← kD, ← kW]; exact h.cW _ _ hx
  case gone => intro b' hx; rw [← kS, ← kD, ← kW]; exact h.gone _ hx
  case pos => exact h.pos
  case disp1 => intro b' x hx; rw [← kD]; exact h.disp1 _ _ hx
  case blt => exact h.blt
  case mlt => exact h.mlt
  case live =>
    intro o'
    simp only [own]
    by_cases e : o' = o
    · subst e
      simp only [upd_eq, Option.isSome_none, Bool.false_eq_true, iff_false]
      rintro (ho | ho | ⟨b', h1, h2⟩)
      · have := h.raw0 o' ho; omega
      · omega
      · have := (h.man b' o' h1).2.2 h2; omega
    · simp only [upd_ne _ _ e, ← kE o' e]; exact h.live o'
  case raw0 => intro o' ho; have := h.raw0 o' ho; have := kle o'; omega
  case del1 => intro o'; have := h.del1 o'; have := kle o'; omega
  case man =>
    intro b' o' ho
    have hh := h.man b' o' ho
    refine ⟨hh.1, hh.2.1, fun h1 => ?_⟩
    have := hh.2.2 ((own b').1 h1); have := kle o'; omega
  case inj => exact h.inj
  case olt =>
    intro o' ho
    by_cases e : o' = o
    · subst e; exact h.olt o' hl
    · simp only [upd_ne _ _ e] at ho; exact h.olt o' ho
  case deleted =>
    intro o'
    have := h.deleted o'
    by_cases e : o' = o
    · subst e
      have lt := h.olt o' hl
      rw [hms, if_neg (by simp)] at this
      simp only [List.count_cons, this, upd_eq, Option.isSome_none, and_true, if_pos lt, beq_self_eq_true, if_true]
    · simp only [List.count_cons, upd_ne _ _ e]
      rw [this]; simp [Ne.symm e]
  case freed => exact h.freed

theorem core_newBlk {s : State} {k : Work → Nat} {p : Option Obj} (h : Core s k) (hp : Raw s p) :
    Core (newBlk s p) (fun w => k w + [Work.relS s.nblk].count w) := by
  have hnone : s.ctrl s.nblk = none := by
    rcases e : s.ctrl s.nblk with _ | c
    · rfl
    · have := (h.blt _ _ e).1; omega
  have hm0 : s.managed s.nblk = none := by
    rcases e : s.managed s.nblk with _ | c
    · rfl
    · have := h.mlt _ _ e; omega
  have g := h.gone _ hnone
  have other : ∀ {b x}, upd s.ctrl s.nblk (some (⟨1, 1, p⟩ : Ctrl)) b = some x →
      (b = s.nblk ∧ x = ⟨1, 1, p⟩) ∨ (b ≠ s.nblk ∧ s.ctrl b = some x) := by
    intro b x hx
    rcases upd_some hx with ⟨e, hv⟩ | h'
    · exact Or.inl ⟨e, (Option.some.inj hv).symm⟩
    · exact Or.inr h'
  have kS : ∀ b, b ≠ s.nblk → [Work.relS s.nblk].count (.relS b) = 0 := by intro b e; simp [Ne.symm e]
  have kW : ∀ b, [Work.relS s.nblk].count (.relW b) = 0 := by intro b; simp
  have kD : ∀ b, [Work.relS s.nblk].count (.disp b) = 0 := by intro b; simp
  have kE : ∀ b, [Work.relS s.nblk].count (.del b) = 0 := by intro b; simp
  have own : ∀ b, b ≠ s.nblk → (OwnB (newBlk s p) (fun w => k w + [Work.relS s.nblk].count w) b ↔ OwnB s k b) := by
    intro b e; simp only [OwnB, newBlk, upd_ne _ _ e, kD, Nat.add_zero]
  have ownN : OwnB (newBlk s p) (fun w => k w + [Work.relS s.nblk].count w) s.nblk :=
    ⟨⟨1, 1, p⟩, by simp only [newBlk, upd_eq], Or.inl (by simp)⟩
  have one0 : ¬ (1 : BitVec 64) = 0 := by decide
  constructor
  case cS =>
    intro b x hx
    rcases other hx with ⟨rfl, rfl⟩ | ⟨e, hx⟩
    · simp only [List.count_singleton_self, g.1]; rfl
    · simp only [kS b e]; exact h.cS _ _ hx
  case cW =>
    intro b x hx
    simp only [kW, kD]
    rcases other hx with ⟨rfl, rfl⟩ | ⟨e, hx⟩
    · simp only [g.2.1, g.2.2]; rfl
    · exact h.cW _ _ hx
  case gone =>
    intro b hx
    by_cases e : b = s.nblk
    · subst e; simp [newBlk, upd_eq] at hx
    · simp only [newBlk, upd_ne _ _ e] at hx
      simp only [kS b e, kW, kD]; exact h.gone _ hx
  case pos =>
    intro b x hx
    rcases other hx with ⟨rfl, rfl⟩ | ⟨e, hx⟩
    · exact one0
    · exact h.pos _ _ hx
  case disp1 =>
    intro b x hx
    simp only [kD]
    rcases other hx with ⟨rfl, rfl⟩ | ⟨e, hx⟩
    · simp only [g.2.2]; exact Nat.le_refl _
    · exact h.disp1 _ _ hx
  case blt =>
    intro b x hx
    rcases other hx with ⟨rfl, rfl⟩ | ⟨e, hx⟩
    · exact ⟨Nat.lt_succ_self _, by simp only [newBlk, upd_eq]⟩
    · exact ⟨Nat.lt_succ_of_lt (h.blt _ _ hx).1, by simp only [newBlk, upd_ne _ _ e]; exact (h.blt _ _ hx).2⟩
  case mlt =>
    intro b o hb
    rcases upd_some hb with ⟨rfl, _⟩ | ⟨_, hb⟩
    · exact Nat.lt_succ_self _
    · exact Nat.lt_succ_of_lt (h.mlt _ _ hb)
  case live =>
    intro o
    simp only [kE]
    rw [show ((newBlk s p).obj o) = s.obj o from rfl]
    constructor
    · rintro (ho | ho | ⟨b, h1, h2⟩)
      · simp only [newBlk] at ho
        split at ho
        · exact absurd ho (by simp)
        · exact (h.live o).1 (Or.inl ho)
      · exact (h.live o).1 (Or.inr (Or.inl ho))
      · rcases upd_some h1 with ⟨rfl, hv⟩ | ⟨e, h1⟩
        · exact (h.live o).1 (Or.inl (hp o hv))
        · exact (h.live o).1 (Or.inr (Or.inr ⟨b, h1, (own b e).1 h2⟩))
    · intro ho
      by_cases e : p = some o
      · exact Or.inr (Or.inr ⟨s.nblk, by simp only [newBlk, upd_eq, e], ownN⟩)
      rcases (h.live o).2 ho with ho | ho | ⟨b, h1, h2⟩
      · exact Or.inl (by simp only [newBlk, if_neg e]; exact ho)
      · exact Or.inr (Or.inl ho)
      · have e2 : b ≠ s.nblk := by intro h'; rw [h', hm0] at h1; simp at h1
        exact Or.inr (Or.inr ⟨b, by simp only [newBlk, upd_ne _ _ e2]; exact h1, (own b e2).2 h2⟩)
  case raw0 =>
    intro o ho
    simp only [newBlk] at ho
    split at ho
    · exact absurd ho (by simp)
    · simp only [kE]; exact h.raw0 o ho
  case del1 => intro o; simp only [kE]; exact h.del1 o
  case man =>
    intro b o ho
    simp only [kE]
    rcases upd_some ho with ⟨rfl, hv⟩ | ⟨e, ho⟩
    · refine ⟨by simp only [newBlk, if_pos hv], h.olt o ((h.live o).1 (Or.inl (hp o hv))), fun _ => h.raw0 o (hp o hv)⟩
    · have hh := h.man b o ho
      refine ⟨?_, hh.2.1, fun h1 => hh.2.2 ((own b e).1 h1)⟩
      simp only [newBlk]; split
      · rfl
      · exact hh.1
  case inj =>
    intro b b' o h1 h2
    rcases upd_some h1 with ⟨rfl, hv⟩ | ⟨e, h1⟩ <;> rcases upd_some h2 with ⟨rfl, hv'⟩ | ⟨e', h2⟩
    · rfl
    · have := (h.man _ _ h2).1; rw [hp o hv] at this; exact absurd this (by simp)
    · have := (h.man _ _ h1).1; rw [hp o hv'] at this; exact absurd this (by simp)
    · exact h.inj _ _ _ h1 h2
  case olt => exact h.olt
  case deleted => exact h.deleted
  case freed =>
    intro b
    have := h.freed b
    by_cases e : b = s.nblk
    · subst e
      simp [newBlk, upd_eq] at this ⊢
      exact this
    · simp only [newBlk, upd_ne _ _ e]
      rw [this]
      have : b < s.nblk + 1 ↔ b < s.nblk := by omega
      simp only [this]

theorem core_unraw {s : State} {k : Work → Nat} {p : Option Obj} (h : Core s k) (hp : Raw s p) :
    Core (unraw s p) (fun w => k w + (delOpt p).count w) := by
  have dS : ∀ b', (delOpt p).count (.relS b') = 0 := by intro b'; cases p <;> simp [delOpt]
  have dW : ∀ b', (delOpt p).count (.relW b') = 0 := by intro b'; cases p <;> simp [delOpt]
  have dD : ∀ b', (delOpt p).count (.disp b') = 0 := by intro b'; cases p <;> simp [delOpt]
  have dE : ∀ o, p ≠ some o → (delOpt p).count (.del o) = 0 := by
    intro o e; rw [cdel, if_neg e]
  have dP : ∀ o, p = some o → (delOpt p).count (.del o) = 1 := by intro o e; rw [cdel, if_pos e]
  have own : ∀ b, OwnB (unraw s p) (fun w => k w + (delOpt p).count w) b ↔ OwnB s k b := by
    intro b; simp only [OwnB, unraw, dD, Nat.add_zero]
  constructor
  case cS => intro b x hx; simp only [dS]; exact h.cS _ _ hx
  case cW => intro b x hx; simp only [dW, dD]; exact h.cW _ _ hx
  case gone => intro b hx; simp only [dS, dW, dD]; exact h.gone _ hx
  case pos => exact h.pos
  case disp1 => intro b x hx; simp only [dD]; exact h.disp1 _ _ hx
  case blt => exact h.blt
  case mlt => exact h.mlt
  case live =>
    intro o
    simp only [own]
    by_cases e : p = some o
    · have := (h.live o).1 (Or.inl (hp o e))
      simp only [dP o e]
      constructor
      · intro _; exact this
      · intro _; exact Or.inr (Or.inl (by omega))
    · simp only [dE o e, unraw, if_neg e]; exact h.live o
  case raw0 =>
    intro o ho
    by_cases e : p = some o
    · simp only [unraw, if_pos e] at ho; exact absurd ho (by simp)
    · simp only [unraw, if_neg e] at ho; simp only [dE o e]; exact h.raw0 o ho
  case del1 =>
    intro o
    by_cases e : p = some o
    · simp only [dP o e, h.raw0 o (hp o e)]; omega
    · simp only [dE o e]; exact h.del1 o
  case man =>
    intro b o ho
    have hh := h.man b o ho
    have e : p ≠ some o := by intro h'; have := hp o h'; rw [hh.1] at this; exact absurd this (by simp)
    simp only [own, dE o e]
    exact ⟨by simp only [unraw, if_neg e]; exact hh.1, hh.2.1, hh.2.2⟩
  case inj => exact h.inj
  case olt => exact h.olt
  case deleted => exact h.deleted
  case freed => exact h.freed

theorem core_mkraw {s : State} {k k1 : Work → Nat} {p : Option Obj} (h : Core s k)
    (hk : ∀ w, k w = k1 w + (delOpt p).count w) (hm : ∀ o b, p = some o → s.managed b ≠ some o) :
    Core (mkraw s p) k1 := by
  have dS : ∀ b', k (.relS b') = k1 (.relS b') := by intro b'; rw [hk]; cases p <;> simp [delOpt]
  have dW : ∀ b', k (.relW b') = k1 (.relW b') := by intro b'; rw [hk]; cases p <;> simp [delOpt]
  have dD : ∀ b', k (.disp b') = k1 (.disp b') := by intro b'; rw [hk]; cases p <;> simp [delOpt]
  have dE : ∀ o, p ≠ some o → k (.del o) = k1 (.del o) := by
    intro o e
    rw [hk, cdel, if_neg e, Nat.add_zero]
  have dP : ∀ o, p = some o → k (.del o) = k1 (.del o) + 1 := by intro o e; rw [hk, cdel, if_pos e]
  have own : ∀ b, OwnB (mkraw s p) k1 b ↔ OwnB s k b := by
    intro b; simp only [OwnB, mkraw, dD]
  constructor
  case cS => intro b x hx; rw [← dS]; exact h.cS _ _ hx
  case cW => intro b x hx; rw [← dW, ← dD]; exact h.cW _ _ hx
  case gone => intro b hx; rw [← dS, ← dW, ← dD]; exact h.gone _ hx
  case pos => exact h.pos
  case disp1 => intro b x hx; rw [← dD]; exact h.disp1 _ _ hx
  case blt => exact h.blt
  case mlt => exact h.mlt
  case live =>
    intro o
    simp only [own]
    by_cases e : p = some o
    · have := (h.live o).1 (Or.inr (Or.inl (by rw [dP o e]; omega)))
      constructor
      · intro _; exact this
      · intro _; exact Or.inl (by simp only [mkraw, if_pos e])
    · simp only [← dE o e, mkraw, if_neg e]; exact h.live o
  case raw0 =>
    intro o ho
    by_cases e : p = some o
    · have := h.del1 o; have := dP o e; omega
    · simp only [mkraw, if_neg e] at ho; rw [← dE o e]; exact h.raw0 o ho
  case del1 => intro o; have := h.del1 o; rw [hk] at this; omega
  case man =>
    intro b o ho
    have hh := h.man b o ho
    have e : p ≠ some o := by intro h'; exact hm o b h' ho
    rw [own, ← dE o e]
    exact ⟨by simp only [mkraw, if_neg e]; exact hh.1, hh.2.1, hh.2.2⟩
  case inj => exact h.inj
  case olt => exact h.olt
  case deleted => exact h.deleted
  case freed => exact h.freed

theorem core_newObj {s : State} {k : Work → Nat} (h : Core s k) (ms : List Slot) (sl : Slot → Option Ptr) :
    Core { s with slot := sl, obj := upd s.obj s.nobj (some ms), raw := upd s.raw s.nobj true, nobj := s.nobj + 1 } k := by
  have hn : s.obj s.nobj = none := by
    rcases e : s.obj s.nobj with _ | x
    · rfl
    · have := h.olt s.nobj (by simp [e]); omega
  have hl : ¬ (s.raw s.nobj = true ∨ 0 < k (.del s.nobj) ∨ ∃ b, s.managed b = some s.nobj ∧ OwnB s k b) := by
    rw [h.live]; simp [hn]
  have own : ∀ b, OwnB { s with slot := sl, obj := upd s.obj s.nobj (some ms), raw := upd s.raw s.nobj true, nobj := s.nobj + 1 } k b ↔ OwnB s k b := by
    intro b; simp only [OwnB]
  constructor
  case cS => exact h.cS
  case cW => exact h.cW
  case gone => exact h.gone
  case pos => exact h.pos
  case disp1 => exact h.disp1
  case blt => exact h.blt
  case mlt => exact h.mlt
  case live =>
    intro o
    simp only [own]
    by_cases e : o = s.nobj
    · subst e; simp [upd_eq]
    · simp only [upd_ne _ _ e]; exact h.live o
  case raw0 =>
    intro o ho
    by_cases e : o = s.nobj
    · subst e
      by_cases e2 : k (.del s.nobj) = 0
      · exact e2
      · exact absurd (Or.inr (Or.inl (by omega))) hl
    · simp only [upd_ne _ _ e] at ho; exact h.raw0 o ho
  case del1 => exact h.del1
  case man =>
    intro b o ho
    have hh := h.man b o ho
    have e : o ≠ s.nobj := by omega
    simp only [own, upd_ne _ _ e]
    exact ⟨hh.1, Nat.lt_succ_of_lt hh.2.1, hh.2.2⟩
  case inj => exact h.inj
  case olt =>
    intro o ho
    by_cases e : o = s.nobj
    · subst e; exact Nat.lt_succ_self _
    · simp only [upd_ne _ _ e] at ho; exact Nat.lt_succ_of_lt (h.olt o ho)
  case deleted =>
    intro o
    have := h.deleted o
    by_cases e : o = s.nobj
    · subst e
      simp [upd_eq] at this ⊢
      exact this
    · simp only [upd_ne _ _ e]
      rw [this]
      have : o < s.nobj + 1 ↔ o < s.nobj := by omega
      simp only [this]
  case freed => exact h.freed

/-! ### Structure of the pointer objects -/

/-- Which pointer objects exist, which are members, which are busy. -/
structure Str (N : Nat) (s : State) (W : List Work) : Prop where
  lt : ∀ i p, s.slot i = some p → i < N
  noI : ∀ i, s.slot i ≠ some (.uniq none)
  mem : ∀ o ms i, s.obj o = some ms → i ∈ ms → (s.slot i).isSome = true ∧ Idle W i
  nd : ∀ o ms, s.obj o = some ms → ms.Nodup
  dj : ∀ o o' ms ms' i, s.obj o = some ms → s.obj o' = some ms' → i ∈ ms → i ∈ ms' → o = o'
  b1 : ∀ i, W.countP (·.busy i) ≤ 1
  bd : ∀ i w, w ∈ W → w.busy i = true → (s.slot i).isSome = true
  bc : ∀ i p c, Work.conv i p c ∈ W → ∃ q d, s.slot i = some (.shared q d)

/-- Pointer and control block of a `shared_ptr`/`weak_ptr` belong together. -/
def Fit (s : State) (p : Option Obj) : Option Blk → Prop
  | none => p = none
  | some b => b < s.nblk ∧ s.managed b = p

structure Val (s : State) (W : List Work) : Prop where
  sh : ∀ i p c, s.slot i = some (.shared p c) → (∀ q, Work.resetFin i q ∉ W) → Fit s p c
  wk : ∀ i p c, s.slot i = some (.weak p c) → Fit s p c
  un : ∀ i o b, s.slot i = some (.uniq (some (some o))) → s.managed b ≠ some o
  cv : ∀ i p c, Work.conv i p c ∈ W → Fit s p c
  rf : ∀ i q, Work.resetFin i q ∈ W → ∃ p b, s.slot i = some (.shared p (some b)) ∧ Fit s q (some b)

structure Inv (N : Nat) (s : State) (W : List Work) : Prop where
  core : Core s (K N s.slot W)
  str : Str N s W
  val : Val s W

def Quiet (l : List Work) : Prop := ∀ w ∈ l, ∀ i, w.busy i = false

theorem quiet_nil : Quiet [] := fun _ h => absurd h (by simp)
theorem quiet_relOpt (c : Option Blk) : Quiet (relOpt c) := by
  cases c <;> simp [Quiet, relOpt, Work.busy]
theorem quiet_relWOpt (c : Option Blk) : Quiet (relWOpt c) := by
  cases c <;> simp [Quiet, relWOpt, Work.busy]
theorem quiet_delOpt (c : Option Obj) : Quiet (delOpt c) := by
  cases c <;> simp [Quiet, delOpt, Work.busy]
theorem quiet_append {l l' : List Work} (h : Quiet l) (h' : Quiet l') : Quiet (l ++ l') := by
  intro w hw; rcases List.mem_append.1 hw with hw | hw
  · exact h w hw
  · exact h' w hw

theorem quiet_conv {l : List Work} (h : Quiet l) (i : Slot) (p : Option Obj) (c : Option Blk) : Work.conv i p c ∉ l := by
  intro hm; have := h _ hm i; simp [Work.busy] at this
theorem quiet_resetFin {l : List Work} (h : Quiet l) (i : Slot) (p : Option Obj) : Work.resetFin i p ∉ l := by
  intro hm; have := h _ hm i; simp [Work.busy] at this

theorem quiet_count {l : List Work} (h : Quiet l) (i : Slot) : l.countP (·.busy i) = 0 := by
  rw [List.countP_eq_zero]; intro w hw; simp [h w hw i]

theorem idle_append {l W : List Work} (h : Quiet l) (i : Slot) : Idle (l ++ W) i ↔ Idle W i := by
  constructor
  · intro h' w hw; exact h' w (List.mem_append.2 (Or.inr hw))
  · intro h' w hw
    rcases List.mem_append.1 hw with hw | hw
    · exact h w hw i
    · exact h' w hw

theorem Str.quiet {N : Nat} {s : State} {l W : List Work} (hl : Quiet l) : Str N s (l ++ W) ↔ Str N s W := by
  constructor
  · intro h
    refine ⟨h.lt, h.noI, fun o ms i h1 h2 => ?_, h.nd, h.dj, fun i => ?_, fun i w h1 => ?_, fun i p c h1 => ?_⟩
    · have := h.mem o ms i h1 h2; rwa [idle_append hl] at this
    · have := h.b1 i; rw [List.countP_append, quiet_count hl, Nat.zero_add] at this; exact this
    · exact h.bd i w (List.mem_append.2 (Or.inr h1))
    · exact h.bc i p c (List.mem_append.2 (Or.inr h1))
  · intro h
    refine ⟨h.lt, h.noI, fun o ms i h1 h2 => ?_, h.nd, h.dj, fun i => ?_, fun i w h1 h2 => ?_, fun i p c h1 => ?_⟩
    · rw [idle_append hl]; exact h.mem o ms i h1 h2
    · rw [List.countP_append, quiet_count hl, Nat.zero_add]; exact h.b1 i
    · rcases List.mem_append.1 h1 with h1 | h1
      · rw [hl w h1 i] at h2; exact absurd h2 (by simp)
      · exact h.bd i w h1 h2
    · rcases List.mem_append.1 h1 with h1 | h1
      · exact absurd h1 (quiet_conv hl i p c)
      · exact h.bc i p c h1

theorem Val.quiet {s : State} {l W : List Work} (hl : Quiet l) : Val s (l ++ W) ↔ Val s W := by
  have hr : ∀ i q, Work.resetFin i q ∈ l ++ W ↔ Work.resetFin i q ∈ W := by
    intro i q; rw [List.mem_append]; constructor
    · rintro (h | h)
      · exact absurd h (quiet_resetFin hl i q)
      · exact h
    · exact Or.inr
  have hc : ∀ i p c, Work.conv i p c ∈ l ++ W ↔ Work.conv i p c ∈ W := by
    intro i p c; rw [List.mem_append]; constructor
    · rintro (h | h)
      · exact absurd h (quiet_conv hl i p c)
      · exact h
    · exact Or.inr
  constructor
  · intro h
    exact ⟨fun i p c h1 h2 => h.sh i p c h1 (fun q hq => h2 q ((hr i q).1 hq)), h.wk, h.un,
      fun i p c h1 => h.cv i p c ((hc i p c).2 h1), fun i q h1 => h.rf i q ((hr i q).2 h1)⟩
  · intro h
    exact ⟨fun i p c h1 h2 => h.sh i p c h1 (fun q hq => h2 q ((hr i q).2 hq)), h.wk, h.un,
      fun i p c h1 => h.cv i p c ((hc i p c).1 h1), fun i q h1 => h.rf i q ((hr i q).1 h1)⟩

theorem quiet_cons {w : Work} (h : ∀ i, w.busy i = false) : Quiet [w] := by
  intro x hx; rw [List.mem_singleton] at hx; subst hx; exact h

/-- `Str` does not depend on counters and ghost fields. -/
theorem Str.mono {N : Nat} {s s' : State} {W : List Work} (h : Str N s W) (h1 : s'.slot = s.slot) (h2 : s'.obj = s.obj) :
    Str N s' W := by
  refine ⟨?_, ?_, ?_, ?_, ?_, h.b1, ?_, ?_⟩
  · rw [h1]; exact h.lt
  · rw [h1]; exact h.noI
  · rw [h1, h2]; exact h.mem
  · rw [h2]; exact h.nd
  · rw [h2]; exact h.dj
  · rw [h1]; exact h.bd
  · rw [h1]; exact h.bc

theorem Val.mono {s s' : State} {W : List Work} (h : Val s W) (h1 : s'.slot = s.slot) (h2 : s'.managed = s.managed)
    (h3 : s'.nblk = s.nblk) : Val s' W := by
  have hf : ∀ p c, Fit s' p c ↔ Fit s p c := by
    intro p c; cases c with
    | none => exact Iff.rfl
    | some b => simp only [Fit, h2, h3]
  refine ⟨?_, ?_, ?_, ?_, ?_⟩
  · intro i p c; rw [h1, hf]; exact h.sh i p c
  · intro i p c; rw [h1, hf]; exact h.wk i p c
  · intro i p c; rw [h1, h2]; exact h.un i p c
  · intro i p c; rw [hf]; exact h.cv i p c
  · intro i q hq
    obtain ⟨p, b, a1, a2⟩ := h.rf i q hq
    exact ⟨p, b, by rw [h1]; exact a1, (hf _ _).2 a2⟩

/-- Assignment to (or construction of) an idle pointer object. -/
theorem Str.set {N : Nat} {s : State} {W : List Work} (h : Str N s W) {i : Slot} {v : Ptr} (hi : i < N)
    (hv : v ≠ .uniq none) (hid : Idle W i) : Str N (setSlot s i (some v)) W := by
  refine ⟨?_, ?_, ?_, h.nd, h.dj, h.b1, ?_, ?_⟩
  · intro j p hj
    rcases upd_some hj with ⟨rfl, _⟩ | ⟨_, hj⟩
    · exact hi
    · exact h.lt j p hj
  · intro j hj
    rcases upd_some hj with ⟨rfl, hv'⟩ | ⟨_, hj⟩
    · exact hv (Option.some.inj hv')
    · exact h.noI j hj
  · intro o ms j h1 h2
    have := h.mem o ms j h1 h2
    refine ⟨?_, this.2⟩
    by_cases e : j = i
    · subst e; simp [setSlot, upd_eq]
    · simp only [setSlot, upd_ne _ _ e]; exact this.1
  · intro j w h1 h2
    by_cases e : j = i
    · subst e; simp [setSlot, upd_eq]
    · simp only [setSlot, upd_ne _ _ e]; exact h.bd j w h1 h2
  · intro j p c h1
    have e : j ≠ i := by
      intro e; subst e; have := hid _ h1; simp [Work.busy] at this
    simp only [setSlot, upd_ne _ _ e]; exact h.bc j p c h1

theorem Str.idle_of_free {N : Nat} {s : State} {W : List Work} (h : Str N s W) {i : Slot} (hf : s.slot i = none) :
    Idle W i := by
  intro w hw
  rcases e : w.busy i with _ | _
  · rfl
  · have := h.bd i w hw e; rw [hf] at this; exact absurd this (by simp)

/-- What a pointer object may hold. -/
def FitP (s : State) : Ptr → Prop
  | .uniq none => False
  | .uniq (some p) => ∀ o b, p = some o → s.managed b ≠ some o
  | .shared p c => Fit s p c
  | .weak p c => Fit s p c

theorem Val.set {s : State} {W : List Work} (h : Val s W) {i : Slot} {v : Ptr} (hv : FitP s v) (hid : Idle W i) :
    Val (setSlot s i (some v)) W := by
  refine ⟨?_, ?_, ?_, h.cv, ?_⟩
  · intro j p c h1 h2
    rcases upd_some h1 with ⟨rfl, hv'⟩ | ⟨_, h1⟩
    · cases Option.some.inj hv'; exact hv
    · exact h.sh j p c h1 h2
  · intro j p c h1
    rcases upd_some h1 with ⟨rfl, hv'⟩ | ⟨_, h1⟩
    · cases Option.some.inj hv'; exact hv
    · exact h.wk j p c h1
  · intro j o b h1
    rcases upd_some h1 with ⟨rfl, hv'⟩ | ⟨_, h1⟩
    · cases Option.some.inj hv'; exact hv o b rfl
    · exact h.un j o b h1
  · intro j q h1
    have e : j ≠ i := by
      intro e; subst e; have := hid _ h1; simp [Work.busy] at this
    simp only [setSlot, upd_ne _ _ e]; exact h.rf j q h1

/-! ### The invariant with references held in local variables -/

/-- `E`: references held by temporaries of the running operation. -/
structure InvE (N : Nat) (s : State) (W E : List Work) : Prop where
  core : Core s (fun w => K N s.slot W w + E.count w)
  str : Str N s W
  val : Val s W

theorem Inv.toE {N : Nat} {s : State} {W : List Work} (h : Inv N s W) : InvE N s W [] :=
  ⟨h.core.congr (fun w => by simp), h.str, h.val⟩

theorem InvE.perm {N : Nat} {s : State} {W E E' : List Work} (h : InvE N s W E) (hp : ∀ w, E'.count w = E.count w) :
    InvE N s W E' := ⟨h.core.congr (fun w => by rw [hp]), h.str, h.val⟩

theorem InvE.done {N : Nat} {s : State} {W E : List Work} (push : List Work) (h : InvE N s W E) (hq : Quiet push)
    (hp : ∀ w, (push.flatMap norm).count w = E.count w) : Inv N s (push ++ W) :=
  ⟨h.core.congr (fun w => by rw [K_append, hp]; omega), (Str.quiet hq).2 h.str, (Val.quiet hq).2 h.val⟩

theorem InvE.done0 {N : Nat} {s : State} {W : List Work} (h : InvE N s W []) : Inv N s ([] ++ W) :=
  h.done [] quiet_nil (fun _ => rfl)

theorem InvE.assign {N : Nat} {s : State} {W E : List Work} {i : Slot} {v : Ptr} (h : InvE N s W (refO (some v) ++ E))
    (hi : i < N) (hid : Idle W i) (hv : FitP s v) : InvE N (setSlot s i (some v)) W (refO (s.slot i) ++ E) := by
  refine ⟨(h.core.setSlot i (some v)).congr (fun w => ?_), h.str.set hi ?_ hid, h.val.set hv hid⟩
  · have := K_upd (slot := s.slot) (some v) W w hi
    show K N (upd s.slot i (some v)) W w + _ = _
    rw [List.count_append, List.count_append]
    omega
  · intro e; subst e; exact hv

theorem InvE.incS {N : Nat} {s : State} {W E : List Work} (c : Option Blk) (h : InvE N s W E)
    (hc : ∀ b, c = some b → 0 < K N s.slot W (.relS b) + E.count (.relS b)) (hfit : N + W.length + E.length + 1 < 2 ^ 64) :
    ∃ x, incS s c = .ok { s with ctrl := x } ∧ InvE N { s with ctrl := x } W (relOpt c ++ E) := by
  obtain ⟨x, hx, hcore⟩ := core_incS h.core c (fun b hb => by
    have := hc b hb
    have := K_le N s.slot W (.relS b)
    have := List.count_le_length (a := Work.relS b) (l := E)
    omega)
  exact ⟨x, hx, hcore.congr (fun w => by dsimp only; rw [List.count_append]; omega), h.str.mono rfl rfl, h.val.mono rfl rfl rfl⟩

theorem InvE.incW {N : Nat} {s : State} {W E : List Work} (c : Option Blk) (h : InvE N s W E)
    (hc : ∀ b, c = some b → 0 < K N s.slot W (.relS b) + K N s.slot W (.relW b) + E.count (.relS b))
    (hfit : N + W.length + E.length + 2 < 2 ^ 64)
    (hfresh : ∀ b, c = some b → K N s.slot W (.disp b) + E.count (.disp b) + K N s.slot W (.relW b) + E.count (.relW b) + 2 < 2 ^ 64) :
    ∃ x, incW s c = .ok { s with ctrl := x } ∧ InvE N { s with ctrl := x } W (relWOpt c ++ E) := by
  obtain ⟨x, hx, hcore⟩ := core_incW h.core c (fun b hb => by
    have := hc b hb
    have := hfresh b hb
    omega)
  exact ⟨x, hx, hcore.congr (fun w => by dsimp only; rw [List.count_append]; omega), h.str.mono rfl rfl, h.val.mono rfl rfl rfl⟩

/-- Number of references of two sorts together. -/
theorem K_le2 (N : Nat) (slot : Slot → Option Ptr) (W : List Work) {w w' : Work} (hne : w ≠ w') :
    K N slot W w + K N slot W w' ≤ N + W.length := by
  have aux : ∀ l : List Work, l.count w + l.count w' ≤ l.length := by
    intro l
    induction l with
    | nil => simp
    | cons a l ih =>
      rw [List.count_cons, List.count_cons, List.length_cons]
      by_cases e : a = w
      · subst e; simp [hne]; omega
      · simp [e]; split <;> omega
  have h1 : (slotsR N slot).length ≤ N := by
    induction N with
    | zero => exact Nat.le_refl _
    | succ N ih => rw [slotsR_succ, List.length_append]; have := refO_len (slot N); omega
  have h2 : (W.flatMap norm).length ≤ W.length := by
    induction W with
    | nil => exact Nat.le_refl _
    | cons a l ih => rw [List.flatMap_cons, List.length_append, List.length_cons]; have := norm_len a; omega
  have := aux (slotsR N slot)
  have := aux (W.flatMap norm)
  simp only [K]; omega

theorem InvE.incW0 {N : Nat} {s : State} {W : List Work} (c : Option Blk) (h : InvE N s W [])
    (hc : ∀ b, c = some b → 0 < K N s.slot W (.relS b) + K N s.slot W (.relW b)) (hfit : Fits N W) :
    ∃ x, SmartPtr.incW s c = .ok { s with ctrl := x } ∧ InvE N { s with ctrl := x } W (relWOpt c ++ []) := by
  have hfit : N + W.length + 2 < 2 ^ 64 := hfit
  refine h.incW c (fun b hb => by have := hc b hb; simpa using this) (by simpa using hfit) (fun b _ => ?_)
  have := K_le2 N s.slot W (show Work.disp b ≠ Work.relW b by simp)
  simp; omega

theorem InvE.newBlk {N : Nat} {s : State} {W E : List Work} {p : Option Obj} (h : InvE N s W E) (hp : Raw s p) :
    InvE N (newBlk s p) W (.relS s.nblk :: E) := by
  refine ⟨(core_newBlk h.core hp).congr (fun w => ?_), h.str.mono rfl rfl, ?_⟩
  · show K N s.slot W w + _ = _
    rw [List.count_cons, c1]
    simp only [beq_iff_eq]; omega
  · have hne : ∀ b, b < s.nblk → b ≠ s.nblk := fun b hb => by omega
    have hf : ∀ q c, Fit s q c → Fit (SmartPtr.newBlk s p) q c := by
      intro q c hq
      cases c with
      | none => exact hq
      | some b => exact ⟨Nat.lt_succ_of_lt hq.1, by simp only [SmartPtr.newBlk, upd_ne _ _ (hne b hq.1)]; exact hq.2⟩
    refine ⟨fun i q c h1 h2 => hf _ _ (h.val.sh i q c h1 h2), fun i q c h1 => hf _ _ (h.val.wk i q c h1), ?_,
      fun i q c h1 => hf _ _ (h.val.cv i q c h1), fun i q h1 => ?_⟩
    · intro i o b h1 h2
      rcases upd_some h2 with ⟨rfl, hv⟩ | ⟨_, h2⟩
      · have h0 := h.core.raw0 o (hp o hv)
        have := K_pos_of_slot (slot := s.slot) (W := W) (w := .del o) (h.str.lt i _ h1) (by
          have h1' : s.slot i = _ := h1
          rw [h1']; simp [refO, delOpt])
        omega
      · exact h.val.un i o b h1 h2
    · obtain ⟨p', b, a1, a2⟩ := h.val.rf i q h1
      exact ⟨p', b, a1, hf _ _ a2⟩

theorem fit_newBlk (s : State) (p : Option Obj) : Fit (newBlk s p) p (some s.nblk) :=
  ⟨Nat.lt_succ_self _, by simp only [newBlk, upd_eq]⟩

theorem InvE.unraw {N : Nat} {s : State} {W E : List Work} {p : Option Obj} (h : InvE N s W E) (hp : Raw s p) :
    InvE N (unraw s p) W (delOpt p ++ E) :=
  ⟨(core_unraw h.core hp).congr (fun w => by
    show K N s.slot W w + _ = _
    rw [List.count_append]; omega), h.str.mono rfl rfl, h.val.mono rfl rfl rfl⟩

theorem InvE.mkraw {N : Nat} {s : State} {W E : List Work} {p : Option Obj} (h : InvE N s W (delOpt p ++ E))
    (hm : ∀ o b, p = some o → s.managed b ≠ some o) : InvE N (mkraw s p) W E :=
  ⟨core_mkraw h.core (fun w => by
    show _ = (K N s.slot W w + E.count w) + _
    rw [List.count_append]; omega) hm, h.str.mono rfl rfl, h.val.mono rfl rfl rfl⟩

theorem getS_of {s : State} {i : Slot} {p : Option Obj} {c : Option Blk} (h : s.slot i = some (.shared p c)) :
    getS s i = .ok (p, c) := by simp [getS, h]
theorem getW_of {s : State} {i : Slot} {p : Option Obj} {c : Option Blk} (h : s.slot i = some (.weak p c)) :
    getW s i = .ok (p, c) := by simp [getW, h]
theorem getU_of {s : State} {i : Slot} {p : Option Obj} (h : s.slot i = some (.uniq (some p))) :
    getU s i = .ok p := by simp [getU, h]

/-- The outcome of an operation. -/
def Good (N : Nat) (W : List Work) (r : Res (State × List Work)) : Prop :=
  ∃ s' push, r = .ok (s', push) ∧ Inv N s' (push ++ W)

theorem IsU.out {N : Nat} {s : State} {W : List Work} {i : Slot} (h : Str N s W) (hi : IsU s W i) :
    ∃ p, s.slot i = some (.uniq (some p)) ∧ i < N ∧ Idle W i := by
  obtain ⟨⟨p, hp⟩, hid⟩ := hi
  cases p with
  | none => exact absurd hp (h.noI i)
  | some p => exact ⟨p, hp, h.lt i _ hp, hid⟩

theorem IsS.out {N : Nat} {s : State} {W : List Work} {i : Slot} (h : Inv N s W) (hi : IsS s W i) :
    ∃ p c, s.slot i = some (.shared p c) ∧ i < N ∧ Idle W i ∧ Fit s p c ∧ (∀ b, c = some b → 0 < K N s.slot W (.relS b)) := by
  obtain ⟨⟨p, c, hp⟩, hid⟩ := hi
  refine ⟨p, c, hp, h.str.lt i _ hp, hid, h.val.sh i p c hp (fun q hq => ?_), fun b hb => ?_⟩
  · have := hid _ hq; simp [Work.busy] at this
  · exact K_pos_of_slot (h.str.lt i _ hp) (by rw [hp, hb]; simp [refO, relOpt])

theorem IsW.out {N : Nat} {s : State} {W : List Work} {i : Slot} (h : Inv N s W) (hi : IsW s W i) :
    ∃ p c, s.slot i = some (.weak p c) ∧ i < N ∧ Idle W i ∧ Fit s p c ∧ (∀ b, c = some b → 0 < K N s.slot W (.relW b)) := by
  obtain ⟨⟨p, c, hp⟩, hid⟩ := hi
  refine ⟨p, c, hp, h.str.lt i _ hp, hid, h.val.wk i p c hp, fun b hb => ?_⟩
  exact K_pos_of_slot (h.str.lt i _ hp) (by rw [hp, hb]; simp [refO, relWOpt])

end Verif.SmartPtr
