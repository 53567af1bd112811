import Verif.Model.Any
import Verif.Lemmas.Box

/-! Lemmas about `any`: each call, in terms of the values held. -/

set_option backward.isDefEq.respectTransparency false

namespace Verif.Any
open Verif Verif.Box

variable {V : Type}

/-- The values held by the objects of the program; no temporary is alive. -/
def emb {β : Type} (f : Nat → Option (Option β)) : Slot → Option (Option β)
  | .user n => f n
  | .temp => none

theorem emb_upd {β : Type} (f : Nat → Option (Option β)) (k : Nat) (o : Option (Option β)) :
    upd (emb f) (.user k) o = emb (upd f k o) := by
  funext x
  cases x with
  | user n => simp only [upd, emb]; by_cases e : n = k <;> simp [e]
  | temp => simp [upd, emb]

theorem emb_temp {β : Type} (f : Nat → Option (Option β)) : upd (emb f) .temp none = emb f := by
  funext x
  cases x with
  | user n => simp [upd, emb]
  | temp => simp [upd, emb]

theorem ctor_ok {s : St V} (hi : Inv s.box) {k : Slot} (hk : abs s.box k = none) :
    ∃ b, ctor s k = .ok { s with box := b } ∧ Inv b ∧ abs b = upd (abs s.box) k (some none) := by
  obtain ⟨b, e, i, a, _⟩ := create_null hi hk
  exact ⟨b, by simp only [ctor, lift, e, Res.ok_bind], i, a⟩

theorem inPlace_ok {s : St V} (hi : Inv s.box) {k : Slot} (t : Ty) (v : V) (hk : abs s.box k = none) :
    ∃ b, inPlaceCtor s k t v = .ok { s with box := b } ∧ Inv b ∧ abs b = upd (abs s.box) k (some (some (t, v))) := by
  obtain ⟨b, e, i, a, _⟩ := create_new hi (t, v) hk
  exact ⟨b, by simp only [inPlaceCtor, lift, e, Res.ok_bind], i, a⟩

theorem value_ok {E : Types V} {s : St V} (hi : Inv s.box) {k : Slot} (n : Nat) (v : V) (hk : abs s.box k = none) :
    ∃ b, valueCtor E s k (.base n) v = .ok { s with box := b } ∧ Inv b ∧
      abs b = upd (abs s.box) k (some (some (.base n, v))) := by
  obtain ⟨b, e, i, a, _⟩ := create_new hi (Ty.base n, v) hk
  exact ⟨b, by simp only [valueCtor, lift, e, Res.ok_bind], i, a⟩

theorem lvalue_ok {E : Types V} {s : St V} (hi : Inv s.box) {k : Slot} {x n : Nat} {v : V} (hk : abs s.box k = none)
    (hx : s.var x = some (.base n, v)) :
    ∃ b, lvalueCtor E s k x = .ok ⟨b, upd s.var x (some (.base n, E.moved (.base n) v))⟩ ∧ Inv b ∧
      abs b = upd (abs s.box) k (some (some (.base n, v))) := by
  obtain ⟨b, e, i, a⟩ := value_ok (E := E) hi n v hk
  exact ⟨b, by simp only [lvalueCtor, hx, e, Res.ok_bind], i, a⟩

theorem copy_ok {s : St V} (hi : Inv s.box) {k j : Slot} {o : Option (Holder V)} (hk : abs s.box k = none)
    (hj : abs s.box j = some o) :
    ∃ b, copyCtor s k j = .ok { s with box := b } ∧ Inv b ∧ abs b = upd (abs s.box) k (some o) := by
  cases o with
  | none =>
    have hs := slot_null hi hj
    obtain ⟨b, e, i, a⟩ := ctor_ok hi hk
    refine ⟨b, ?_, i, a⟩
    rw [← e]
    simp only [copyCtor, ptr_ok hs, Res.ok_bind, ctor]
  | some o =>
    obtain ⟨p, hs, hp⟩ := slot_some hj
    obtain ⟨b, e, i, a, _⟩ := create_new hi o hk
    refine ⟨b, ?_, i, a⟩
    simp only [copyCtor, ptr_ok hs, Res.ok_bind, deref, hp, lift, e]

theorem move_ok' {s : St V} (hi : Inv s.box) {k j : Slot} {o : Option (Holder V)} (hk : abs s.box k = none)
    (hj : abs s.box j = some o) :
    ∃ b, moveCtor s k j = .ok { s with box := b } ∧ Inv b ∧ abs b = upd (upd (abs s.box) k (some o)) j (some none) := by
  obtain ⟨c, b, s', e1, e2, e3, i, a, _⟩ := move_ok hi hk hj
  exact ⟨s', by simp only [moveCtor, e1, e2, e3, lift, Res.ok_bind], i, a⟩

theorem dtor_ok {s : St V} (hi : Inv s.box) {k : Slot} {o : Option (Holder V)} (hk : abs s.box k = some o) :
    ∃ b, dtor s k = .ok { s with box := b } ∧ Inv b ∧ abs b = upd (abs s.box) k none := by
  obtain ⟨c, b, s', e1, e2, e3, i, a, _⟩ := del_ok hi hk
  exact ⟨s', by simp only [dtor, e1, e2, e3, lift, Res.ok_bind], i, a⟩

theorem swap_ok' {s : St V} (hi : Inv s.box) {k j : Slot} {o o' : Option (Holder V)} (hk : abs s.box k = some o)
    (hj : abs s.box j = some o') :
    ∃ b, swap s k j = .ok { s with box := b } ∧ Inv b ∧ abs b = upd (upd (abs s.box) k (some o')) j (some o) := by
  obtain ⟨s', e, i, a, _⟩ := Box.swap_ok hi hk hj
  exact ⟨s', by simp only [swap, e, lift, Res.ok_bind], i, a⟩

/-- The common end of all assignments. -/
theorem finish {s : St V} (hi : Inv s.box) {k : Slot} {o o' : Option (Holder V)} (ht : abs s.box .temp = some o)
    (hk : abs s.box k = some o') (hne : k ≠ .temp) :
    ∃ b, (swap s .temp k >>= fun s => dtor s .temp) = .ok { s with box := b } ∧ Inv b ∧
      abs b = upd (upd (abs s.box) k (some o)) .temp none := by
  obtain ⟨s1, c, b, s', e1, e2, e3, e4, i, a⟩ := swap_del hi ht hk hne
  exact ⟨s', by simp only [swap, dtor, e1, e2, e3, e4, lift, Res.ok_bind], i, a⟩

theorem clear_ok {s : St V} (hi : Inv s.box) {f : Nat → Option (Option (Holder V))} (ha : abs s.box = emb f) {k : Nat}
    {o : Option (Holder V)} (hk : f k = some o) :
    ∃ b, clear s (.user k) = .ok { s with box := b } ∧ Inv b ∧ abs b = emb (upd f k (some none)) := by
  obtain ⟨b, e1, i1, a1⟩ := ctor_ok hi (k := .temp) (by rw [ha]; rfl)
  obtain ⟨b2, e2, i2, a2⟩ := finish (s := { s with box := b }) i1 (k := .user k) (o := none) (o' := o) (by rw [a1, upd_same])
    (by rw [a1, upd_ne _ _ (by simp), ha]; exact hk) (by simp)
  refine ⟨b2, by rw [clear, e1]; exact e2, i2, ?_⟩
  rw [a2, a1, ha, upd_comm _ _ _ (by simp : Slot.temp ≠ .user k), upd_upd, emb_upd, emb_temp]

theorem emplace_ok {s : St V} (hi : Inv s.box) {f : Nat → Option (Option (Holder V))} (ha : abs s.box = emb f) {k : Nat}
    {o : Option (Holder V)} (hk : f k = some o) (t : Ty) (v : V) :
    ∃ b, emplace s (.user k) t v = .ok { s with box := b } ∧ Inv b ∧ abs b = emb (upd f k (some (some (t, v)))) := by
  obtain ⟨b, e1, i1, a1⟩ := clear_ok hi ha hk
  obtain ⟨b2, e2, i2, a2⟩ := assign_new i1 (k := .user k) (t, v) (by rw [a1]; simp [emb, upd])
  refine ⟨b2, ?_, i2, ?_⟩
  · simp only [emplace, e1, Res.ok_bind, lift, e2]
  · rw [a2, a1, emb_upd, upd_upd]

theorem assignValue_ok {E : Types V} {s : St V} (hi : Inv s.box) {f : Nat → Option (Option (Holder V))} (ha : abs s.box = emb f)
    {k : Nat} {o : Option (Holder V)} (hk : f k = some o) (n : Nat) (v : V) :
    ∃ b, assignValue E s (.user k) (.base n) v = .ok { s with box := b } ∧ Inv b ∧
      abs b = emb (upd f k (some (some (.base n, v)))) := by
  obtain ⟨b, e1, i1, a1⟩ := value_ok (E := E) hi (k := .temp) n v (by rw [ha]; rfl)
  obtain ⟨b2, e2, i2, a2⟩ := finish (s := { s with box := b }) i1 (k := .user k) (o := some (.base n, v)) (o' := o)
    (by rw [a1, upd_same]) (by rw [a1, upd_ne _ _ (by simp), ha]; exact hk) (by simp)
  refine ⟨b2, by rw [assignValue, e1]; exact e2, i2, ?_⟩
  rw [a2, a1, ha, upd_comm _ _ _ (by simp : Slot.temp ≠ .user k), upd_upd, emb_upd, emb_temp]

theorem assignLvalue_ok {E : Types V} {s : St V} (hi : Inv s.box) {f : Nat → Option (Option (Holder V))} (ha : abs s.box = emb f)
    {k : Nat} {o : Option (Holder V)} (hk : f k = some o) {x n : Nat} {v : V} (hx : s.var x = some (.base n, v)) :
    ∃ b, assignLvalue E s (.user k) x = .ok ⟨b, upd s.var x (some (.base n, E.moved (.base n) v))⟩ ∧ Inv b ∧
      abs b = emb (upd f k (some (some (.base n, v)))) := by
  obtain ⟨b, e1, i1, a1⟩ := lvalue_ok (E := E) hi (k := .temp) (by rw [ha]; rfl) hx
  obtain ⟨b2, e2, i2, a2⟩ := finish (s := ⟨b, upd s.var x (some (.base n, E.moved (.base n) v))⟩) i1 (k := .user k)
    (o := some (.base n, v)) (o' := o) (by rw [a1, upd_same]) (by rw [a1, upd_ne _ _ (by simp), ha]; exact hk) (by simp)
  refine ⟨b2, by rw [assignLvalue, e1]; exact e2, i2, ?_⟩
  rw [a2, a1, ha, upd_comm _ _ _ (by simp : Slot.temp ≠ .user k), upd_upd, emb_upd, emb_temp]

theorem assignCopy_ok {s : St V} (hi : Inv s.box) {f : Nat → Option (Option (Holder V))} (ha : abs s.box = emb f)
    {k j : Nat} {o o' : Option (Holder V)} (hk : f k = some o) (hj : f j = some o') :
    ∃ b, assignCopy s (.user k) (.user j) = .ok { s with box := b } ∧ Inv b ∧ abs b = emb (upd f k (some o')) := by
  obtain ⟨b, e1, i1, a1⟩ := copy_ok hi (k := .temp) (j := .user j) (o := o') (by rw [ha]; rfl) (by rw [ha]; exact hj)
  obtain ⟨b2, e2, i2, a2⟩ := finish (s := { s with box := b }) i1 (k := .user k) (o := o') (o' := o)
    (by rw [a1, upd_same]) (by rw [a1, upd_ne _ _ (by simp), ha]; exact hk) (by simp)
  refine ⟨b2, by rw [assignCopy, e1]; exact e2, i2, ?_⟩
  rw [a2, a1, ha, upd_comm _ _ _ (by simp : Slot.temp ≠ .user k), upd_upd, emb_upd, emb_temp]

theorem assignMove_ok {s : St V} (hi : Inv s.box) {f : Nat → Option (Option (Holder V))} (ha : abs s.box = emb f)
    {k j : Nat} {o o' : Option (Holder V)} (hk : f k = some o) (hj : f j = some o') :
    ∃ b, assignMove s (.user k) (.user j) = .ok { s with box := b } ∧ Inv b ∧
      abs b = emb (upd (upd f j (some none)) k (some o')) := by
  obtain ⟨b, e1, i1, a1⟩ := move_ok' hi (k := .temp) (j := .user j) (o := o') (by rw [ha]; rfl) (by rw [ha]; exact hj)
  obtain ⟨o2, ho2⟩ : ∃ o2, abs b (.user k) = some o2 := by
    rw [a1]
    by_cases e : k = j
    · subst e; exact ⟨none, by rw [upd_same]⟩
    · exact ⟨o, by rw [upd_ne _ _ (by simpa using e), upd_ne _ _ (by simp), ha]; exact hk⟩
  obtain ⟨b2, e2, i2, a2⟩ := finish (s := { s with box := b }) i1 (k := .user k) (o := o') (o' := o2)
    (by rw [a1, upd_ne _ _ (by simp), upd_same]) ho2 (by simp)
  refine ⟨b2, by rw [assignMove, e1]; exact e2, i2, ?_⟩
  rw [a2, a1, ha, upd_comm _ _ _ (by simp : Slot.temp ≠ .user j), emb_upd, upd_comm _ _ _ (by simp : Slot.temp ≠ .user k),
    upd_upd, emb_upd, emb_temp]

theorem anyCast_eq {s : St V} {k : Slot} {t t' : Ty} {v : V} {p : Nat} (hp : s.box.slot k = some (some p))
    (ho : s.box.obj p = some (t, v)) : anyCast s k t' = .ok (if t = t' then some p else none) := by
  simp only [anyCast, ptr_ok hp, Res.ok_bind, deref, ho]

theorem castWrite_ok {s : St V} (hi : Inv s.box) {f : Nat → Option (Option (Holder V))} (ha : abs s.box = emb f) {k : Nat}
    {t : Ty} {v : V} (hk : f k = some (some (t, v))) (v' : V) :
    ∃ b, castWrite s (.user k) t v' = .ok { s with box := b } ∧ Inv b ∧ abs b = emb (upd f k (some (some (t, v')))) := by
  obtain ⟨p, hp, ho⟩ := slot_some (s := s.box) (k := .user k) (o := (t, v)) (by rw [ha]; exact hk)
  obtain ⟨b, e, i, a, _⟩ := write_ok hi (o' := (t, v')) hp ho
  refine ⟨b, ?_, i, ?_⟩
  · simp only [castWrite, anyCast_eq hp ho, if_true, Res.ok_bind, e, lift]
  · rw [a, ha, emb_upd]

theorem clear_frame {s : St V} {k : Nat} {c : Option Nat} (ht : s.box.slot .temp = none) (hk : s.box.slot (.user k) = some c)
    (hl : ∀ p, c = some p → s.box.obj p ≠ none) :
    ∃ s', clear s (.user k) = .ok s' ∧ ∀ q, s'.box.obj q = if c = some q then none else s.box.obj q := by
  cases c with
  | none => simp [clear, ctor, lift, create, ht, swap, Box.swap, ptr, setPtr, dtor, deleteIf, destroy, upd, hk]
  | some p =>
    cases ho : s.box.obj p with
    | none => exact absurd ho (hl p rfl)
    | some o => simp [clear, ctor, lift, create, ht, swap, Box.swap, ptr, setPtr, dtor, deleteIf, delete, destroy, upd, hk, ho, eq_comm]

theorem emplaceFrom_ok {s : St V} (hi : Inv s.box) {f : Nat → Option (Option (Holder V))} (ha : abs s.box = emb f) {k j : Nat}
    {o : Option (Holder V)} {t : Ty} {v : V} (hk : f k = some o) (hj : f j = some (some (t, v))) (hne : k ≠ j) :
    ∃ b, emplaceFrom s (.user k) (.user j) t = .ok { s with box := b } ∧ Inv b ∧ abs b = emb (upd f k (some (some (t, v)))) := by
  obtain ⟨b, e1, i1, a1⟩ := clear_ok hi ha hk
  obtain ⟨p, hp, ho⟩ := slot_some (s := s.box) (k := .user j) (o := (t, v)) (by rw [ha]; exact hj)
  obtain ⟨c, hc, _⟩ := slot_live (s := s.box) (k := .user k) (o := o) (by rw [ha]; exact hk)
  have hob : b.obj p = some (t, v) := by
    obtain ⟨s', e, h⟩ := clear_frame (s := s) (slot_none (by rw [ha]; rfl)) hc (fun q hq => hi.live (.user k) q (by rw [hc, hq]))
    rw [e1] at e
    cases e
    rw [show b.obj p = _ from h p, if_neg, ho]
    rintro rfl
    have := hi.inj _ _ _ hc hp
    simp at this; exact hne this
  obtain ⟨b2, e2, i2, a2⟩ := assign_new i1 (k := .user k) (t, v) (by rw [a1]; simp [emb, upd])
  refine ⟨b2, ?_, i2, ?_⟩
  · simp only [emplaceFrom, anyCast_eq hp ho, if_true, e1, Res.ok_bind, deref, hob, lift, e2]
  · rw [a2, a1, emb_upd, upd_upd]

theorem assignFrom_ok {E : Types V} {s : St V} (hi : Inv s.box) {f : Nat → Option (Option (Holder V))} (ha : abs s.box = emb f) {k j n : Nat}
    {o : Option (Holder V)} {v : V} (hk : f k = some o) (hj : f j = some (some (.base n, v))) :
    ∃ b, assignFrom E s (.user k) (.user j) (.base n) = .ok { s with box := b } ∧ Inv b ∧
      abs b = emb (upd (upd f j (some (some (.base n, E.moved (.base n) v)))) k (some (some (.base n, v)))) := by
  obtain ⟨p, hp, ho⟩ := slot_some (s := s.box) (k := .user j) (o := (.base n, v)) (by rw [ha]; exact hj)
  obtain ⟨b, e1, i1, a1⟩ := castWrite_ok hi ha hj (E.moved (.base n) v)
  obtain ⟨o', hk'⟩ : ∃ o', upd f j (some (some (Ty.base n, E.moved (.base n) v))) k = some o' := by
    by_cases h : k = j
    · subst h; exact ⟨_, upd_same _ _ _⟩
    · exact ⟨o, by rw [upd_ne _ _ h]; exact hk⟩
  obtain ⟨b2, e2, i2, a2⟩ := assignValue_ok (E := E) (s := { s with box := b }) i1 a1 hk' n v
  refine ⟨b2, ?_, i2, a2⟩
  rw [assignFrom, castRead, anyCast_eq hp ho, if_pos rfl]
  simp only [Res.ok_bind, deref, ho, e1]
  exact e2

end Verif.Any
