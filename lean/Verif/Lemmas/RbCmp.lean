import Verif.Lemmas.RbReach
import Verif.Model.RbCmp

/-! Sets with comparators of their own. -/

set_option backward.isDefEq.respectTransparency false

namespace Verif.RbCmp
open Verif
open Verif.Box (Slot upd upd_same upd_ne)
open Verif.Rb (St Sp T Ret Ord Swo Inv Ins insV keep_root beg)

variable {α C : Type}

/-- The order that relates nothing. -/
def lt0 : α → α → Bool := fun _ _ => false

theorem swo0 : Swo (lt0 : α → α → Bool) where
  asymm := by intro x y _; rfl
  trans := by intro x y z h; cases h

theorem ord0 (l : List (Nat × α)) : Ord lt0 true l := by
  induction l with
  | nil => exact List.Pairwise.nil
  | cons x l ih => exact List.Pairwise.cons (fun y _ => ⟨rfl, fun h => by cases h⟩) ih

/-- Eventually undefined, and never anything else. -/
def Und {β : Type} (g : Nat → Res β) : Prop := (∃ n, ∀ f, n ≤ f → g f = .ub) ∧ ∀ f, g f = .ub ∨ g f = .oof

theorem Und.of {β : Type} {g : Nat → Res β} (h : ∀ f, g f = .ub) : Und g := ⟨⟨0, fun f _ => h f⟩, fun f => .inl (h f)⟩

theorem Und.bind {β γ : Type} {g : Nat → Res β} {h : Nat → β → Res γ} (u : Und g) : Und (fun f => g f >>= h f) := by
  obtain ⟨⟨n, hn⟩, hu⟩ := u
  refine ⟨⟨n, fun f hf => by simp only [hn f hf]; rfl⟩, fun f => ?_⟩
  rcases hu f with e | e
  · left; simp only [e]; rfl
  · right; simp only [e]; rfl

theorem Und.after {β γ : Type} {g : Nat → Res β} {h : Nat → β → Res γ} {a : β} (c : Conv g a) (u : Und (fun f => h f a)) : Und (fun f => g f >>= h f) := by
  obtain ⟨⟨n, hn⟩, hc⟩ := c
  obtain ⟨⟨m, hm⟩, hu⟩ := u
  refine ⟨⟨max n m, fun f hf => ?_⟩, fun f => ?_⟩
  · simp only [hn f (by omega)]; exact hm f (by omega)
  · rcases hc f with e | e
    · right; simp only [e]; rfl
    · rcases hu f with e' | e'
      · left; simp only [e]; exact e'
      · right; simp only [e]; exact e'

theorem Und.congr {β : Type} {g h : Nat → Res β} (u : Und g) (e : ∀ f, h f = g f) : Und h := by
  have : h = g := funext e
  rw [this]; exact u

theorem Und.not_ok {β : Type} {g : Nat → Res β} (u : Und g) {f : Nat} {r : β} : g f ≠ .ok r := by
  intro h
  rcases u.2 f with e | e <;> rw [e] at h <;> cases h

/-- The comparison in use for a tree. -/
def ltOf (ap : C → α → α → Bool) (s : CSt α C) (k : Slot) : α → α → Bool :=
  match s.cmp k with
  | some c => ap c
  | none => lt0

structure CInv (ap : C → α → α → Bool) (dflt : Option C) (multi : Bool) (s : CSt α C) (σ : Sp α) : Prop where
  inv : Inv lt0 true (fun t : T α => t.red = false) s.t σ
  ord : ∀ k x c, σ.tree k = some x → s.cmp k = some c → Ord (ap c) multi x.2
  one : ∀ k x, σ.tree k = some x → s.cmp k = none → x.2.length ≤ 1
  det : dflt ≠ none → ∀ k x, σ.tree k = some x → s.cmp k ≠ none

variable {ap : C → α → α → Bool} {dflt : Option C} {multi : Bool} {s : CSt α C} {σ : Sp α}

theorem CInv.init : CInv ap dflt multi (CSt.init : CSt α C) ⟨fun _ => none, 0⟩ :=
  ⟨Rb.Inv.init, (by intro k x c h; cases h), (by intro k x h; cases h), (by intro _ k x h; cases h)⟩

theorem swoOf (w : ∀ c, Swo (ap c)) (k : Slot) : Swo (ltOf ap s k) := by
  unfold ltOf
  cases s.cmp k with
  | none => exact swo0
  | some c => exact w c

/-- The comparator can be called if need be. -/
def Usable (s : CSt α C) (σ : Sp α) (k : Slot) : Prop := s.cmp k ≠ none ∨ ∃ h, σ.tree k = some (h, [])

theorem CInv.empty (I : CInv ap dflt multi s σ) {k : Slot} {h : Nat} {l : List (Nat × α)} (hk : σ.tree k = some (h, l)) :
    Rb.empty s.t k = .ok (l.length == 0) := by
  rw [Rb.empty, Rb.size, I.inv.get hk]; rfl

theorem CInv.useCmp (I : CInv ap dflt multi s σ) {k : Slot} (hu : Usable s σ k) :
    useCmp ap s k = .ok (ltOf ap s k) := by
  unfold RbCmp.useCmp ltOf
  cases hc : s.cmp k with
  | some c => rfl
  | none =>
    rcases hu with hu | ⟨h', hk'⟩
    · exact absurd hc hu
    · simp only
      rw [I.empty hk']; rfl

theorem CInv.useCmp_ub (I : CInv ap dflt multi s σ) {k : Slot} {h : Nat} {l : List (Nat × α)} (hk : σ.tree k = some (h, l)) (hu : ¬ Usable s σ k) :
    RbCmp.useCmp ap s k = .ub := by
  unfold RbCmp.useCmp
  cases hc : s.cmp k with
  | some c => exact absurd (.inl (by simp [hc])) hu
  | none =>
    simp only
    rw [I.empty hk]
    cases l with
    | nil => exact absurd (.inr ⟨h, hk⟩) hu
    | cons x l => rfl

theorem CInv.ordOf (I : CInv ap dflt multi s σ) {k : Slot} {h : Nat} {l : List (Nat × α)} (hk : σ.tree k = some (h, l)) (hu : Usable s σ k) :
    Ord (ltOf ap s k) multi l := by
  unfold ltOf
  cases hc : s.cmp k with
  | some c => exact I.ord k _ c hk hc
  | none =>
    rcases hu with hu | ⟨h', hk'⟩
    · exact absurd hc hu
    · rw [hk] at hk'
      injection hk' with hk'
      injection hk' with _ hk'
      rw [hk']; exact List.Pairwise.nil

/-- A change to one tree that leaves the comparators alone. -/
theorem CInv.upd1 (I : CInv ap dflt multi s σ) {k : Slot} {h n : Nat} {l : List (Nat × α)} {t : St α} {x0 : Nat × List (Nat × α)} (hk : σ.tree k = some x0)
    (I' : Inv lt0 true (fun t : T α => t.red = false) t ⟨upd σ.tree k (some (h, l)), n⟩)
    (h1 : ∀ c, s.cmp k = some c → Ord (ap c) multi l) (h2 : s.cmp k = none → l.length ≤ 1) :
    CInv ap dflt multi ⟨t, s.cmp⟩ ⟨upd σ.tree k (some (h, l)), n⟩ := by
  refine ⟨I', ?_, ?_, ?_⟩
  · intro j x c hj hc
    by_cases e : j = k
    · subst e
      rw [show (⟨upd σ.tree j (some (h, l)), n⟩ : Sp α).tree j = some (h, l) from upd_same _ _ _] at hj
      cases hj; exact h1 c hc
    · exact I.ord j x c (by rw [← hj]; exact (upd_ne _ _ e).symm) hc
  · intro j x hj hc
    by_cases e : j = k
    · subst e
      rw [show (⟨upd σ.tree j (some (h, l)), n⟩ : Sp α).tree j = some (h, l) from upd_same _ _ _] at hj
      cases hj; exact h2 hc
    · exact I.one j x (by rw [← hj]; exact (upd_ne _ _ e).symm) hc
  · intro hd j x hj
    by_cases e : j = k
    · subst e; exact I.det hd j x0 hk
    · exact I.det hd j x (by rw [← hj]; exact (upd_ne _ _ e).symm)

/-- A new tree with its comparator. -/
theorem CInv.updC (I : CInv ap dflt multi s σ) {k : Slot} {h n : Nat} {l : List (Nat × α)} {t : St α} {o : Option C}
    (I' : Inv lt0 true (fun t : T α => t.red = false) t ⟨upd σ.tree k (some (h, l)), n⟩)
    (h1 : ∀ c, o = some c → Ord (ap c) multi l) (h2 : o = none → l.length ≤ 1) (h3 : dflt ≠ none → o ≠ none) :
    CInv ap dflt multi ⟨t, upd s.cmp k o⟩ ⟨upd σ.tree k (some (h, l)), n⟩ := by
  refine ⟨I', ?_, ?_, ?_⟩
  · intro j x c hj hc
    by_cases e : j = k
    · subst e
      rw [show (⟨upd σ.tree j (some (h, l)), n⟩ : Sp α).tree j = some (h, l) from upd_same _ _ _] at hj
      rw [show (⟨t, upd s.cmp j o⟩ : CSt α C).cmp j = o from upd_same _ _ _] at hc
      cases hj; exact h1 c hc
    · exact I.ord j x c (by rw [← hj]; exact (upd_ne _ _ e).symm) (by rw [← hc]; exact (upd_ne _ _ e).symm)
  · intro j x hj hc
    by_cases e : j = k
    · subst e
      rw [show (⟨upd σ.tree j (some (h, l)), n⟩ : Sp α).tree j = some (h, l) from upd_same _ _ _] at hj
      rw [show (⟨t, upd s.cmp j o⟩ : CSt α C).cmp j = o from upd_same _ _ _] at hc
      cases hj; exact h2 hc
    · exact I.one j x (by rw [← hj]; exact (upd_ne _ _ e).symm) (by rw [← hc]; exact (upd_ne _ _ e).symm)
  · intro hd j x hj
    by_cases e : j = k
    · subst e
      rw [show (⟨t, upd s.cmp j o⟩ : CSt α C).cmp j = o from upd_same _ _ _]
      exact h3 hd
    · rw [show (⟨t, upd s.cmp k o⟩ : CSt α C).cmp j = s.cmp j from upd_ne _ _ e]
      exact I.det hd j x (by rw [← hj]; exact (upd_ne _ _ e).symm)

theorem make_ok (I : CInv ap dflt multi s σ) {k : Slot} (hk : σ.tree k = none) {o : Option C} (ho : dflt ≠ none → o ≠ none) :
    ∃ t, Rb.make s.t k = .ok t ∧ CInv ap dflt multi ⟨t, upd s.cmp k o⟩ ⟨upd σ.tree k (some (σ.next, [])), σ.next + 1⟩ := by
  obtain ⟨t, e, I'⟩ := Rb.make_ok I.inv keep_root hk
  exact ⟨t, e, I.updC I' (fun _ _ => List.Pairwise.nil) (fun _ => Nat.zero_le _) ho⟩

theorem insert_ok (w : ∀ c, Swo (ap c)) (I : CInv ap dflt multi s σ) {k : Slot} {h : Nat} {l : List (Nat × α)} (hk : σ.tree k = some (h, l)) (hu : Usable s σ k) (v : α) :
    ∃ t it new l', Ins (ltOf ap s k) multi s.t h σ.next l v l' it new ∧ CInv ap dflt multi ⟨t, s.cmp⟩ ⟨upd σ.tree k (some (h, l')), σ.next + 1⟩ ∧
      Conv (fun f => insert ap multi f s k v) (⟨t, s.cmp⟩, it, new) := by
  obtain ⟨t, it, new, l', hi, ho, I', cv, _⟩ := Rb.insert_okG (swoOf w k) I.inv hk (I.ordOf hk hu) (fun l _ => ord0 l) v keep_root.black
    (keep_root.insert (I.inv.tree_inl hk) (.inl rfl))
  refine ⟨t, it, new, l', hi, I.upd1 hk I' ?_ ?_, ?_⟩
  · intro c hc; simpa only [ltOf, hc] using ho
  · intro hc
    have hl : l = [] := by
      rcases hu with hu | ⟨h', hk'⟩
      · exact absurd hc hu
      · rw [hk] at hk'
        injection hk' with hk'
        injection hk' with _ hk'
    have hv := hi.vals
    subst hl
    have : (l'.map (·.2)).length ≤ 1 := by rw [hv, List.map_nil, insV]; split <;> simp
    simpa using this
  · refine (cv.bind (h := fun _ q => .ok ((⟨q.1, s.cmp⟩ : CSt α C), q.2.1, q.2.2)) (Conv.pure _)).congr fun f => ?_
    rw [insert, I.useCmp hu]; rfl

theorem insert_und (I : CInv ap dflt multi s σ) {k : Slot} {h : Nat} {l : List (Nat × α)} (hk : σ.tree k = some (h, l)) (hu : ¬ Usable s σ k) (v : α) :
    ∀ f, insert ap multi f s k v = .ub := by
  intro f; rw [insert, I.useCmp_ub hk hu]; rfl

theorem insertAll_ok (w : ∀ c, Swo (ap c)) {k : Slot} {h : Nat} {c : C} (vs : List α) : ∀ {s : CSt α C} {σ : Sp α} {l : List (Nat × α)}, CInv ap dflt multi s σ →
    σ.tree k = some (h, l) → s.cmp k = some c →
    ∃ t l' n', l'.map (·.2) = vs.foldl (insV (ap c) multi) (l.map (·.2)) ∧ CInv ap dflt multi ⟨t, s.cmp⟩ ⟨upd σ.tree k (some (h, l')), n'⟩ ∧
      Conv (fun f => insertAll ap multi f s k vs) ⟨t, s.cmp⟩ := by
  induction vs with
  | nil =>
    intro s σ l I hk _
    refine ⟨s.t, l, σ.next, rfl, ?_, Conv.pure s⟩
    rw [← hk, Verif.Box.upd_self]; exact I
  | cons v vs ih =>
    intro s σ l I hk hc
    obtain ⟨t1, it, new, l1, hi, I1, cv⟩ := insert_ok w I hk (.inl (by simp [hc])) v
    obtain ⟨t2, l2, n2, e2, I2, cv2⟩ := ih (s := ⟨t1, s.cmp⟩) (l := l1) I1 (upd_same _ _ _) hc
    refine ⟨t2, l2, n2, ?_, ?_, ?_⟩
    · rw [e2, hi.vals]
      simp only [ltOf, hc, List.foldl_cons]
    · rw [show upd (⟨upd σ.tree k (some (h, l1)), σ.next + 1⟩ : Sp α).tree k (some (h, l2)) = upd σ.tree k (some (h, l2)) from Verif.Box.upd_upd _ _ _ _] at I2
      exact I2
    · exact (cv.bind (h := fun f q => insertAll ap multi f q.1 k vs) cv2).congr fun f => rfl

theorem insertAll_one (w : ∀ c, Swo (ap c)) {k : Slot} {h : Nat} (I : CInv ap dflt multi s σ) (hk : σ.tree k = some (h, [])) (v : α) :
    ∃ t l' n', l'.map (·.2) = [v] ∧ CInv ap dflt multi ⟨t, s.cmp⟩ ⟨upd σ.tree k (some (h, l')), n'⟩ ∧
      Conv (fun f => insertAll ap multi f s k [v]) ⟨t, s.cmp⟩ := by
  obtain ⟨t1, it, new, l1, hi, I1, cv⟩ := insert_ok w I hk (.inr ⟨h, hk⟩) v
  refine ⟨t1, l1, _, ?_, I1, ?_⟩
  · rw [hi.vals]; simp [insV]
  · exact (cv.bind (h := fun _ q => Res.ok q.1) (Conv.pure _)).congr fun f => rfl

theorem insertAll_und (I : CInv ap dflt multi s σ) {k : Slot} {h : Nat} {l : List (Nat × α)} (hk : σ.tree k = some (h, l)) (hc : s.cmp k = none) (hl : l ≠ []) (v : α) (vs : List α) :
    ∀ f, insertAll ap multi f s k (v :: vs) = .ub := by
  intro f
  rw [insertAll, insert_und I hk ?_ v f]
  · rfl
  · rintro (h1 | ⟨h', h1⟩)
    · exact h1 hc
    · rw [hk] at h1
      injection h1 with h1
      injection h1 with _ h1
      exact hl h1

theorem insertAll_two (w : ∀ c, Swo (ap c)) {k : Slot} {h : Nat} (I : CInv ap dflt multi s σ) (hk : σ.tree k = some (h, [])) (hc : s.cmp k = none) (u v : α) (vs : List α) :
    Und (fun f => insertAll ap multi f s k (u :: v :: vs)) := by
  obtain ⟨t1, it, new, l1, hi, I1, cv⟩ := insert_ok w I hk (.inr ⟨h, hk⟩) u
  have hl : l1 ≠ [] := by
    have := hi.vals
    rintro rfl
    simp [insV] at this
  refine (Und.after (h := fun f q => insertAll ap multi f q.1 k (v :: vs)) cv (Und.of ?_)).congr fun f => rfl
  exact insertAll_und I1 (upd_same _ _ _) hc hl v vs

theorem swap_ok (I : CInv ap dflt multi s σ) {k j : Slot} {x y : Nat × List (Nat × α)} {c d : C} (hk : σ.tree k = some x) (hj : σ.tree j = some y)
    (hc : s.cmp k = some c) (hd : s.cmp j = some d) :
    ∃ t, swap s k j = .ok ⟨t, upd (upd s.cmp k (some d)) j (some c)⟩ ∧
      CInv ap dflt multi ⟨t, upd (upd s.cmp k (some d)) j (some c)⟩ ⟨upd (upd σ.tree k (some y)) j (some x), σ.next⟩ := by
  obtain ⟨t, e, I'⟩ := Rb.swap_ok I.inv hk hj
  refine ⟨t, by rw [swap, e, Res.ok_bind]; simp only [keyComp, hc, hd]; rfl, I', ?_, ?_, ?_⟩
  · intro m z a hm ha
    simp only [upd] at hm ha
    by_cases h1 : m = j
    · rw [if_pos h1] at hm ha; cases hm; cases ha; exact I.ord k x _ hk hc
    · rw [if_neg h1] at hm ha
      by_cases h2 : m = k
      · rw [if_pos h2] at hm ha; cases hm; cases ha; exact I.ord j y _ hj hd
      · rw [if_neg h2] at hm ha; exact I.ord m z a hm ha
  · intro m z hm ha
    simp only [upd] at hm ha
    by_cases h1 : m = j
    · rw [if_pos h1] at ha; cases ha
    · rw [if_neg h1] at hm ha
      by_cases h2 : m = k
      · rw [if_pos h2] at ha; cases ha
      · rw [if_neg h2] at hm ha; exact I.one m z hm ha
  · intro h m z hm
    simp only [upd] at hm ⊢
    by_cases h1 : m = j
    · rw [if_pos h1]; simp
    · rw [if_neg h1] at hm ⊢
      by_cases h2 : m = k
      · rw [if_pos h2]; simp
      · rw [if_neg h2] at hm ⊢; exact I.det h m z hm

theorem swap_ub {k j : Slot} (I : CInv ap dflt multi s σ) {x y : Nat × List (Nat × α)} (hk : σ.tree k = some x) (hj : σ.tree j = some y) (h : s.cmp k = none ∨ s.cmp j = none) : swap s k j = .ub := by
  obtain ⟨t, e, _⟩ := Rb.swap_ok I.inv hk hj
  rw [swap, e, Res.ok_bind]
  cases hc : s.cmp k with
  | none => simp only [keyComp, hc]; rfl
  | some c =>
    cases hd : s.cmp j with
    | none => simp only [keyComp, hc, hd]; rfl
    | some d => rw [hc, hd] at h; simp at h

theorem destroy_ok (I : CInv ap dflt multi s σ) {k : Slot} {x : Nat × List (Nat × α)} (hk : σ.tree k = some x) :
    ∃ t, Conv (fun f => destroy f s k) ⟨t, s.cmp⟩ ∧ CInv ap dflt multi ⟨t, s.cmp⟩ ⟨upd σ.tree k none, σ.next⟩ := by
  obtain ⟨t, cv, I'⟩ := Rb.destroy_ok I.inv keep_root (h := x.1) (l := x.2) hk
  have sub : ∀ m z, (⟨upd σ.tree k none, σ.next⟩ : Sp α).tree m = some z → σ.tree m = some z := by
    intro m z hm
    simp only [upd] at hm
    by_cases h1 : m = k
    · rw [if_pos h1] at hm; cases hm
    · rw [if_neg h1] at hm; exact hm
  refine ⟨t, (cv.bind (h := fun _ q => .ok (⟨q, s.cmp⟩ : CSt α C)) (Conv.pure _)).congr fun f => rfl, I', ?_, ?_, ?_⟩
  · intro m z c hm hc; exact I.ord m z c (sub m z hm) hc
  · intro m z hm hc; exact I.one m z (sub m z hm) hc
  · intro h m z hm; exact I.det h m z (sub m z hm)

theorem tail_ok (I : CInv ap dflt multi s σ) {k : Slot} (hkt : k ≠ .temp) {x y : Nat × List (Nat × α)} {c d : C} (ht : σ.tree .temp = some x) (hk : σ.tree k = some y)
    (hc : s.cmp .temp = some c) (hd : s.cmp k = some d) :
    ∃ t, CInv ap dflt multi ⟨t, upd (upd s.cmp .temp (some d)) k (some c)⟩ ⟨upd (upd σ.tree .temp none) k (some x), σ.next⟩ ∧
      Conv (fun f => swap s .temp k >>= fun s => destroy f s .temp) ⟨t, upd (upd s.cmp .temp (some d)) k (some c)⟩ := by
  obtain ⟨t1, e1, I1⟩ := swap_ok I ht hk hc hd
  have ht1 : (⟨upd (upd σ.tree .temp (some y)) k (some x), σ.next⟩ : Sp α).tree .temp = some y :=
    (upd_ne _ _ (fun e => hkt e.symm)).trans (upd_same _ _ _)
  obtain ⟨t2, cv, I2⟩ := destroy_ok I1 ht1
  refine ⟨t2, ?_, cv.congr fun f => by rw [e1, Res.ok_bind]⟩
  have : upd (⟨upd (upd σ.tree .temp (some y)) k (some x), σ.next⟩ : Sp α).tree .temp none = upd (upd σ.tree .temp none) k (some x) := by
    funext m
    simp only [upd]
    by_cases h1 : m = .temp
    · have h2 : ¬ Slot.temp = k := fun e => hkt e.symm
      subst h1; simp [h2]
    · simp [h1]
  rw [this] at I2; exact I2

theorem copy_ok (w : ∀ c, Swo (ap c)) (I : CInv ap dflt multi s σ) {k j : Slot} {hj : Nat} {lj : List (Nat × α)} {c : C} (hk : σ.tree k = none) (hj' : σ.tree j = some (hj, lj))
    (hc : s.cmp j = some c) :
    ∃ t h l n, l.map (·.2) = lj.map (·.2) ∧ CInv ap dflt multi ⟨t, upd s.cmp k (some c)⟩ ⟨upd σ.tree k (some (h, l)), n⟩ ∧
      Conv (fun f => copy ap f s k j) ⟨t, upd s.cmp k (some c)⟩ := by
  obtain ⟨t, h, l, n, e, ho, I', cv⟩ := Rb.copy_okG (w c) keep_root I.inv (fun l _ => ord0 l) (I.ord j _ c hj' hc) hk hj'
  refine ⟨t, h, l, n, e, I.updC I' (fun c' e => by cases e; exact ho) (fun e => by cases e) (fun _ => by simp), ?_⟩
  refine (cv.bind (h := fun _ q => .ok (⟨q, upd s.cmp k (some c)⟩ : CSt α C)) (Conv.pure _)).congr fun f => ?_
  simp only [copy, keyComp, hc]; rfl

theorem move_ok (I : CInv ap dflt multi s σ) {k j : Slot} {x : Nat × List (Nat × α)} {c d : C} (hdf : dflt = some d) (hk : σ.tree k = none) (hj : σ.tree j = some x)
    (hc : s.cmp j = some c) :
    ∃ t h n, move dflt s k j = .ok ⟨t, upd (upd (upd s.cmp k dflt) j (some d)) k (some c)⟩ ∧
      CInv ap dflt multi ⟨t, upd (upd (upd s.cmp k dflt) j (some d)) k (some c)⟩ ⟨upd (upd σ.tree j (some (h, []))) k (some x), n⟩ := by
  have hkj : j ≠ k := by rintro rfl; rw [hk] at hj; cases hj
  obtain ⟨t1, e1, I1⟩ := make_ok I hk (o := dflt) (fun h => h)
  obtain ⟨t2, e2, I2⟩ := swap_ok (k := j) (j := k) (x := x) (y := (σ.next, [])) I1 ((upd_ne _ _ hkj).trans hj) (upd_same _ _ _)
    (show upd s.cmp k dflt j = some c from (upd_ne _ _ hkj).trans hc) (show upd s.cmp k dflt k = some d from (upd_same _ _ _).trans hdf)
  refine ⟨t2, σ.next, σ.next + 1, by rw [move, make, e1, Res.ok_bind, Res.ok_bind, e2], ?_⟩
  have : upd (upd (⟨upd σ.tree k (some (σ.next, [])), σ.next + 1⟩ : Sp α).tree j (some (σ.next, []))) k (some x) =
      upd (upd σ.tree j (some (σ.next, []))) k (some x) := by
    funext m
    simp only [upd]
    by_cases h1 : m = k <;> simp [h1]
  rw [this] at I2; exact I2

/-! One call. -/

/-- The call without its comparator. -/
def Op.base : Op α C → Rb.Op α
  | .make k => .make k
  | .makeWith k _ => .make k
  | .initList k vs => .initList k vs
  | .initRange k vs _ => .initList k vs
  | .copy k j => .copy k j
  | .move k j => .move k j
  | .destroy k => .destroy k
  | .assignCopy k j => .assignCopy k j
  | .assignMove k j => .assignMove k j
  | .assignList k vs => .assignList k vs
  | .swap k j => .swap k j
  | .insert k v => .insert k v
  | .insertAll k vs => .insertAll k vs
  | .eraseIt k it => .eraseIt k it
  | .eraseRange k a b => .eraseRange k a b
  | .eraseKey k v => .eraseKey k v
  | .clear k => .clear k

/-- The set has no elements. -/
def Empty (s : CSt α C) (k : Nat) : Prop := Rb.empty s.t (.user k) = .ok true

/-- The call neither reads nor calls an indeterminate comparator. -/
def Det (dflt : Option C) (s : CSt α C) : Op α C → Prop
  | .initList _ vs => dflt ≠ none ∨ vs.length ≤ 1
  | .copy _ j => s.cmp (.user j) ≠ none
  | .move _ _ => dflt ≠ none
  | .assignCopy k j => s.cmp (.user k) ≠ none ∧ s.cmp (.user j) ≠ none
  | .assignMove _ _ => dflt ≠ none
  | .assignList _ _ => dflt ≠ none
  | .swap k j => s.cmp (.user k) ≠ none ∧ s.cmp (.user j) ≠ none
  | .insert k _ => s.cmp (.user k) ≠ none ∨ Empty s k
  | .insertAll k vs => s.cmp (.user k) ≠ none ∨ vs = [] ∨ (Empty s k ∧ vs.length = 1)
  | .eraseKey k _ => s.cmp (.user k) ≠ none ∨ Empty s k
  | _ => True

/-- The comparator of each set after the call. -/
def newCmp (dflt : Option C) (s : CSt α C) (m : Nat) : Op α C → Option C
  | .make k => if m = k then dflt else s.cmp (.user m)
  | .makeWith k c => if m = k then some c else s.cmp (.user m)
  | .initList k _ => if m = k then dflt else s.cmp (.user m)
  | .initRange k _ c => if m = k then some c else s.cmp (.user m)
  | .copy k j => if m = k then s.cmp (.user j) else s.cmp (.user m)
  | .move k j => if m = k then s.cmp (.user j) else if m = j then dflt else s.cmp (.user m)
  | .assignCopy k j => if m = k then s.cmp (.user j) else s.cmp (.user m)
  | .assignMove k j => if m = k then s.cmp (.user j) else if m = j then dflt else s.cmp (.user m)
  | .assignList k _ => if m = k then dflt else s.cmp (.user m)
  | .swap k j => if m = j then s.cmp (.user k) else if m = k then s.cmp (.user j) else s.cmp (.user m)
  | _ => s.cmp (.user m)

/-- The comparison a call uses. -/
def ltOp (ap : C → α → α → Bool) (dflt : Option C) (s : CSt α C) : Op α C → α → α → Bool
  | .initList _ _ => match dflt with | some d => ap d | none => lt0
  | .initRange _ _ c => ap c
  | .assignList _ _ => match dflt with | some d => ap d | none => lt0
  | .insert k _ => ltOf ap s (.user k)
  | .insertAll k _ => ltOf ap s (.user k)
  | .eraseKey k _ => ltOf ap s (.user k)
  | _ => lt0

theorem quiet_out {b : Bool} {g : Nat → Res (CSt α C)} {Q : CSt α C → Prop} {R : CSt α C × Ret → Prop} (h : Out b g Q) (hq : ∀ s, Q s → R (s, .unit)) :
    Out b (fun f => quiet (g f)) R := by
  refine h.bind (h := fun _ s => Res.ok (s, Ret.unit)) ?_
  intro s hs
  exact Out.of (hq s hs) (Conv.pure _)

theorem quiet_conv {b : Bool} {g : Nat → Res (CSt α C)} {s : CSt α C} {R : CSt α C × Ret → Prop} (h : Conv g s) (hq : R (s, .unit)) :
    Out b (fun f => quiet (g f)) R :=
  quiet_out (Out.of (P := fun x => x = s) rfl h) (by rintro _ rfl; exact hq)

theorem quiet_und {g : Nat → Res (CSt α C)} (h : Und g) : Und (fun f => quiet (g f)) :=
  Und.bind (h := fun _ s => Res.ok (s, Ret.unit)) h

theorem CInv.isEmpty (I : CInv ap dflt multi s σ) {k : Nat} {h : Nat} {l : List (Nat × α)} (hk : σ.tree (.user k) = some (h, l)) : Empty s k ↔ l = [] := by
  rw [Empty, I.empty hk]
  cases l <;> simp

theorem CInv.usable (I : CInv ap dflt multi s σ) {k : Nat} {h : Nat} {l : List (Nat × α)} (hk : σ.tree (.user k) = some (h, l)) :
    Usable s σ (.user k) ↔ s.cmp (.user k) ≠ none ∨ Empty s k := by
  rw [Usable, I.isEmpty hk, hk]
  constructor
  · rintro (h1 | ⟨h', h1⟩)
    · exact .inl h1
    · cases h1; exact .inr rfl
  · rintro (h1 | rfl)
    · exact .inl h1
    · exact .inr ⟨h, rfl⟩

theorem insertAll_det (w : ∀ c, Swo (ap c)) (I : CInv ap dflt multi s σ) {k : Slot} {h : Nat} {l : List (Nat × α)} (hk : σ.tree k = some (h, l)) (vs : List α)
    (hd : s.cmp k ≠ none ∨ vs = [] ∨ (l = [] ∧ vs.length = 1)) :
    ∃ t l' n', l'.map (·.2) = vs.foldl (insV (ltOf ap s k) multi) (l.map (·.2)) ∧ CInv ap dflt multi ⟨t, s.cmp⟩ ⟨upd σ.tree k (some (h, l')), n'⟩ ∧
      Conv (fun f => insertAll ap multi f s k vs) ⟨t, s.cmp⟩ := by
  cases hc : s.cmp k with
  | some c =>
    have := insertAll_ok w vs I hk hc
    simp only [ltOf, hc]; exact this
  | none =>
    rcases hd with hd | rfl | ⟨rfl, hv⟩
    · exact absurd hc hd
    · refine ⟨s.t, l, σ.next, rfl, ?_, Conv.pure s⟩
      rw [← hk, Verif.Box.upd_self]; exact I
    · match vs, hv with
      | [v], _ =>
        obtain ⟨t, l', n', e, I', cv⟩ := insertAll_one w I hk v
        exact ⟨t, l', n', by rw [e]; simp [insV], I', cv⟩

theorem insertAll_notdet (w : ∀ c, Swo (ap c)) (I : CInv ap dflt multi s σ) {k : Slot} {h : Nat} {l : List (Nat × α)} (hk : σ.tree k = some (h, l)) (vs : List α)
    (hd : ¬ (s.cmp k ≠ none ∨ vs = [] ∨ (l = [] ∧ vs.length = 1))) : Und (fun f => insertAll ap multi f s k vs) := by
  cases hc : s.cmp k with
  | some c => exact absurd (.inl (by simp [hc])) hd
  | none =>
    match vs with
    | [] => exact absurd (.inr (.inl rfl)) hd
    | [v] =>
      refine Und.of (insertAll_und I hk hc ?_ v [])
      rintro rfl; exact hd (.inr (.inr ⟨rfl, rfl⟩))
    | u :: v :: vs =>
      by_cases hl : l = []
      · subst hl; exact insertAll_two w I hk hc u v vs
      · exact Und.of (insertAll_und I hk hc hl u (v :: vs))

theorem Ord.sub {lt : α → α → Bool} {l l' : List (Nat × α)} (h : Ord lt multi l) (hs : l'.Sublist l) : Ord lt multi l' := List.Pairwise.sublist hs h

/-- Elements removed from one tree. -/
theorem CInv.shrink (I : CInv ap dflt multi s σ) {k : Slot} {h n : Nat} {l l' : List (Nat × α)} {t : St α} (hk : σ.tree k = some (h, l))
    (I' : Inv lt0 true (fun t : T α => t.red = false) t ⟨upd σ.tree k (some (h, l')), n⟩) (hs : l'.Sublist l) :
    CInv ap dflt multi ⟨t, s.cmp⟩ ⟨upd σ.tree k (some (h, l')), n⟩ :=
  I.upd1 hk I' (fun c hc => Ord.sub (I.ord k _ c hk hc) hs) fun hc => Nat.le_trans hs.length_le (I.one k _ hk hc)

theorem ltOf_dflt {k : Slot} {t : St α} : ltOf ap (⟨t, upd s.cmp k dflt⟩ : CSt α C) k = (match dflt with | some d => ap d | none => lt0) := by
  simp only [ltOf, upd_same]

theorem step_ok (w : ∀ c, Swo (ap c)) (I : CInv ap dflt multi s σ) (ht : σ.tree .temp = none) (op : Op α C) (hp : Rb.Pre lt0 true σ op.base) (hd : Det dflt s op) :
    Out op.base.erases (fun f => step ap dflt multi f s op) fun r => ∃ σ', CInv ap dflt multi r.1 σ' ∧ Rb.Eff (ltOp ap dflt s op) multi s.t σ op.base r.2 σ' ∧
      (∀ m, r.1.cmp (.user m) = newCmp dflt s m op) ∧ σ'.tree .temp = none := by
  have hut : ∀ (k : Nat), Slot.user k ≠ Slot.temp := by intro k; simp
  have hup : ∀ (k : Nat) (o : Option (Nat × List (Nat × α))) (g : Slot → Option (Nat × List (Nat × α))), g .temp = none → upd g (.user k) o .temp = none := by
    intro k o g hg; rw [upd_ne _ _ (fun e => hut k e.symm)]; exact hg
  cases op with
  | make k =>
    obtain ⟨t, e, I'⟩ := make_ok I hp (o := dflt) (fun h => h)
    exact quiet_conv (g := fun _ => make dflt s (.user k)) (Conv.const (by rw [make, e]; rfl)) ⟨_, I', ⟨rfl, _, rfl⟩, fun m => by simp [upd, newCmp], by simp [upd, ht]⟩
  | makeWith k c =>
    obtain ⟨t, e, I'⟩ := make_ok I hp (o := some c) (fun _ => by simp)
    exact quiet_conv (g := fun _ => makeWith s (.user k) c) (Conv.const (by rw [makeWith, e]; rfl)) ⟨_, I', ⟨rfl, _, rfl⟩, fun m => by simp [upd, newCmp], by simp [upd, ht]⟩
  | initList k vs =>
    obtain ⟨t, e, I1⟩ := make_ok I hp.1 (o := dflt) (fun h => h)
    obtain ⟨t2, l, n, e2, I2, cv⟩ := insertAll_det w I1 (k := .user k) (h := σ.next) (l := []) (upd_same _ _ _) vs (by
      rcases hd with hd | hd
      · left; rw [show (⟨t, upd s.cmp (.user k) dflt⟩ : CSt α C).cmp (.user k) = dflt from upd_same _ _ _]; exact hd
      · right
        match vs, hd with
        | [], _ => exact .inl rfl
        | [v], _ => exact .inr ⟨rfl, rfl⟩)
    rw [ltOf_dflt] at e2
    rw [show upd (⟨upd σ.tree (.user k) (some (σ.next, [])), σ.next + 1⟩ : Sp α).tree (.user k) (some (σ.next, l)) = upd σ.tree (.user k) (some (σ.next, l)) from Verif.Box.upd_upd _ _ _ _] at I2
    refine quiet_conv (cv.congr fun f => ?_) ⟨_, I2, ⟨rfl, _, _, rfl, e2⟩, fun m => by simp [upd, newCmp], by simp [upd, ht]⟩
    rw [initList, make, e]; rfl
  | initRange k vs c =>
    obtain ⟨t, e, I1⟩ := make_ok I hp.1 (o := some c) (fun _ => by simp)
    obtain ⟨t2, l, n, e2, I2, cv⟩ := insertAll_ok w vs I1 (k := .user k) (h := σ.next) (l := []) (c := c) (upd_same _ _ _) (upd_same _ _ _)
    rw [show upd (⟨upd σ.tree (.user k) (some (σ.next, [])), σ.next + 1⟩ : Sp α).tree (.user k) (some (σ.next, l)) = upd σ.tree (.user k) (some (σ.next, l)) from Verif.Box.upd_upd _ _ _ _] at I2
    refine quiet_conv (cv.congr fun f => ?_) ⟨_, I2, ⟨rfl, _, _, rfl, e2⟩, fun m => by simp [upd, newCmp], by simp [upd, ht]⟩
    rw [initRange, makeWith, e]; rfl
  | copy k j =>
    obtain ⟨hk, ⟨hj, lj⟩, hj'⟩ := hp
    obtain ⟨c, hc⟩ := Option.ne_none_iff_exists'.1 hd
    obtain ⟨t, h, l, n, e, I', cv⟩ := copy_ok w I hk hj' hc
    exact quiet_conv cv ⟨_, I', ⟨rfl, _, _, _, _, hj', rfl, e⟩, fun m => by simp [upd, newCmp, hc], by simp [upd, ht]⟩
  | move k j =>
    obtain ⟨hk, x, hj⟩ := hp
    obtain ⟨d, hdf⟩ := Option.ne_none_iff_exists'.1 hd
    obtain ⟨c, hc⟩ := Option.ne_none_iff_exists'.1 (I.det hd _ _ hj)
    obtain ⟨t, h, n, e, I'⟩ := move_ok I hdf hk hj hc
    refine quiet_conv (Conv.const e) ⟨_, I', ⟨rfl, _, _, hj, rfl⟩, fun m => ?_, by simp [upd, ht]⟩
    simp only [upd, newCmp, hc, hdf, Slot.user.injEq]
    by_cases h1 : m = k <;> by_cases h2 : m = j <;> simp [h1, h2]
  | destroy k =>
    obtain ⟨⟨h, l⟩, hk⟩ := hp
    obtain ⟨t, cv, I'⟩ := destroy_ok I hk
    exact quiet_conv cv ⟨_, I', ⟨rfl, rfl, rfl⟩, fun m => rfl, by simp [upd, ht]⟩
  | assignCopy k j =>
    obtain ⟨⟨x, hk⟩, ⟨hj, lj⟩, hj'⟩ := hp
    obtain ⟨d, hdk⟩ := Option.ne_none_iff_exists'.1 hd.1
    obtain ⟨c, hc⟩ := Option.ne_none_iff_exists'.1 hd.2
    obtain ⟨t1, h, l, n, e, I1, cv1⟩ := copy_ok w I ht hj' hc
    have e1 : (⟨upd σ.tree .temp (some (h, l)), n⟩ : Sp α).tree .temp = some (h, l) := by simp [upd]
    have e2 : (⟨upd σ.tree .temp (some (h, l)), n⟩ : Sp α).tree (.user k) = some x := by simp [upd, hk]
    obtain ⟨t2, I2, cv2⟩ := tail_ok I1 (hut k) e1 e2 (c := c) (d := d) (by simp [upd]) (by simp [upd, hdk])
    refine quiet_conv (cv1.bind (h := fun f s => swap s .temp (.user k) >>= fun s => destroy f s .temp) cv2) ⟨_, I2, ⟨rfl, hj, lj, h, l, hj', ?_, e⟩, ?_, ?_⟩
    · show upd (upd (upd σ.tree .temp _) .temp none) (.user k) _ = _
      rw [Rb.upd_back ht]
    · intro m; simp [upd, newCmp, hc]
    · simp [upd]
  | assignMove k j =>
    obtain ⟨⟨x, hk⟩, y, hj⟩ := hp
    obtain ⟨d, hdf⟩ := Option.ne_none_iff_exists'.1 hd
    obtain ⟨c, hc⟩ := Option.ne_none_iff_exists'.1 (I.det hd _ _ hj)
    obtain ⟨t1, hh, n, e1, I1⟩ := move_ok I hdf ht hj hc
    obtain ⟨z, hz⟩ : ∃ z, (⟨upd (upd σ.tree (.user j) (some (hh, []))) .temp (some y), n⟩ : Sp α).tree (.user k) = some z := by
      by_cases hkj : k = j
      · subst hkj; exact ⟨(hh, []), by simp [upd]⟩
      · exact ⟨x, by simp [upd, hkj, hk]⟩
    have e2 : (⟨upd (upd σ.tree (.user j) (some (hh, []))) .temp (some y), n⟩ : Sp α).tree .temp = some y := by simp [upd]
    obtain ⟨d', hd'⟩ := Option.ne_none_iff_exists'.1 (I1.det hd _ _ hz)
    obtain ⟨t2, I2, cv2⟩ := tail_ok I1 (hut k) e2 hz (c := c) (by simp [upd]) hd'
    refine quiet_conv (g := fun f => assignMove dflt f s (.user k) (.user j)) (cv2.congr fun f => ?_) ⟨_, I2, ⟨rfl, y, hh, hj, ?_⟩, ?_, ?_⟩
    · rw [assignMove, e1, Res.ok_bind]
    · show upd (upd (upd (upd σ.tree (.user j) _) .temp _) .temp none) (.user k) _ = _
      rw [Rb.upd_back (hup _ _ _ ht)]
    · intro m
      simp only [upd, newCmp, hc, hdf, Slot.user.injEq]
      by_cases h1 : m = k <;> by_cases h2 : m = j <;> simp [h1, h2]
    · simp [upd]
  | assignList k vs =>
    obtain ⟨⟨x, hk⟩, _⟩ := hp
    obtain ⟨d, hdf⟩ := Option.ne_none_iff_exists'.1 hd
    obtain ⟨d', hd'⟩ := Option.ne_none_iff_exists'.1 (I.det hd _ _ hk)
    obtain ⟨t, e, I0⟩ := make_ok I ht (o := dflt) (fun h => h)
    obtain ⟨t1, l, n, e1', I1, cv1⟩ := insertAll_ok w vs I0 (k := .temp) (h := σ.next) (l := []) (c := d) (by simp [upd]) (by simp [upd, hdf])
    rw [show upd (⟨upd σ.tree .temp (some (σ.next, [])), σ.next + 1⟩ : Sp α).tree .temp (some (σ.next, l)) = upd σ.tree .temp (some (σ.next, l)) from Verif.Box.upd_upd _ _ _ _] at I1
    have e1 : (⟨upd σ.tree .temp (some (σ.next, l)), n⟩ : Sp α).tree .temp = some (σ.next, l) := by simp [upd]
    have e2 : (⟨upd σ.tree .temp (some (σ.next, l)), n⟩ : Sp α).tree (.user k) = some x := by simp [upd, hk]
    obtain ⟨t2, I2, cv2⟩ := tail_ok I1 (hut k) e1 e2 (c := d) (d := d') (by simp [upd, hdf]) (by simp [upd, hd'])
    refine quiet_conv ((cv1.bind (h := fun f s => swap s .temp (.user k) >>= fun s => destroy f s .temp) cv2).congr fun f => ?_) ⟨_, I2, ⟨rfl, σ.next, l, ?_, ?_⟩, ?_, ?_⟩
    · rw [assignList, initList, make, e]; rfl
    · show upd (upd (upd σ.tree .temp _) .temp none) (.user k) _ = _
      rw [Rb.upd_back ht]
    · rw [e1']; simp only [ltOp, hdf]; rfl
    · intro m; simp [upd, newCmp, hdf]
    · simp [upd]
  | swap k j =>
    obtain ⟨⟨x, hk⟩, y, hj⟩ := hp
    obtain ⟨c, hc⟩ := Option.ne_none_iff_exists'.1 hd.1
    obtain ⟨d, hdj⟩ := Option.ne_none_iff_exists'.1 hd.2
    obtain ⟨t, e, I'⟩ := swap_ok I hk hj hc hdj
    exact quiet_conv (Conv.const e) ⟨_, I', ⟨rfl, _, _, hk, hj, rfl, rfl⟩, fun m => by simp [upd, newCmp, hc, hdj], by simp [upd, ht]⟩
  | insert k v =>
    obtain ⟨h, l, hk, _⟩ := hp
    obtain ⟨t, it, new, l', hi, I', cv⟩ := insert_ok w I hk ((I.usable hk).2 hd) v
    have cv' : Conv (fun f => step ap dflt multi f s (.insert k v)) (⟨t, s.cmp⟩, .iter it new) := by
      have c0 : Conv (fun f => insert ap multi f s (.user k) v >>= fun q => Res.ok (q.1, Ret.iter q.2.1 q.2.2)) (⟨t, s.cmp⟩, .iter it new) :=
        Conv.bind (h := fun _ q => Res.ok (q.1, Ret.iter q.2.1 q.2.2)) cv (Conv.pure _)
      exact c0
    exact Out.of ⟨⟨upd σ.tree (.user k) (some (h, l')), σ.next + 1⟩, I', ⟨h, l, l', it, new, hk, hi, rfl, rfl⟩, fun m => rfl, by simp [upd, ht]⟩ cv'
  | insertAll k vs =>
    obtain ⟨h, l, hk, _⟩ := hp
    obtain ⟨t, l', n, e, I', cv⟩ := insertAll_det w I hk vs (by
      rcases hd with hd | hd | ⟨hd, h1⟩
      · exact .inl hd
      · exact .inr (.inl hd)
      · exact .inr (.inr ⟨(I.isEmpty hk).1 hd, h1⟩))
    exact quiet_conv cv ⟨_, I', ⟨rfl, _, _, _, hk, rfl, e⟩, fun m => rfl, by simp [upd, ht]⟩
  | eraseIt k a =>
    obtain ⟨h, xs, v, ys, hk⟩ := hp
    have o := (Rb.erase_ok I.inv keep_root hk).bind (h := fun _ q => Res.ok ((⟨q.1, s.cmp⟩ : CSt α C), Ret.iter q.2 false)) (Q := fun r => ∃ σ', CInv ap dflt multi r.1 σ' ∧ Rb.Eff (ltOp ap dflt s (.eraseIt k a)) multi s.t σ (.eraseIt k a) r.2 σ' ∧
      (∀ m, r.1.cmp (.user m) = newCmp dflt s m (.eraseIt k a)) ∧ σ'.tree .temp = none) (by
        rintro ⟨t, it⟩ ⟨rfl, I'⟩
        exact Out.of ⟨⟨upd σ.tree (.user k) (some (h, xs ++ ys)), σ.next⟩, I.shrink hk I' (by simp), ⟨h, xs, v, ys, hk, rfl, rfl, rfl⟩, fun m => rfl, by simp [upd, ht]⟩ (Conv.pure _))
    refine o.congr fun f => ?_
    show (do let (s, it) ← eraseIt f s (.user k) (some a); Res.ok (s, Ret.iter it false)) = _
    rw [eraseIt]
    cases Rb.erase f s.t (.user k) (some a) <;> rfl
  | eraseRange k a e =>
    obtain ⟨h, xs, ys, zs, hk, rfl, rfl⟩ := hp
    refine quiet_out (Q := fun q => ∃ t, q = ⟨t, s.cmp⟩ ∧ CInv ap dflt multi q ⟨upd σ.tree (.user k) (some (h, xs ++ zs)), σ.next⟩)
      (Out.bind (h := fun _ q => Res.ok (⟨q, s.cmp⟩ : CSt α C)) (Rb.eraseRange_ok keep_root I.inv hk) ?_) ?_
    · intro t I'
      exact Out.of ⟨t, rfl, I.shrink hk I' (by simp)⟩ (Conv.pure _)
    · rintro _ ⟨t, rfl, I'⟩
      exact ⟨_, I', ⟨rfl, h, xs, ys, zs, hk, rfl, rfl, rfl, rfl⟩, fun m => rfl, by simp [upd, ht]⟩
  | eraseKey k v =>
    obtain ⟨⟨h, l⟩, hk⟩ := hp
    have hu := (I.usable hk).2 hd
    have ho := I.ordOf hk hu
    obtain ⟨A, B, C', rfl, hA, hB, hC⟩ := Rb.split3 (swoOf w _) v l ho.sorted
    have o := (Rb.eraseKey_okG (swoOf w _) keep_root I.inv ho hk hA hB hC).bind (h := fun _ q => Res.ok ((⟨q.1, s.cmp⟩ : CSt α C), Ret.num q.2)) (Q := fun r => ∃ σ', CInv ap dflt multi r.1 σ' ∧ Rb.Eff (ltOp ap dflt s (.eraseKey k v)) multi s.t σ (.eraseKey k v) r.2 σ' ∧
      (∀ m, r.1.cmp (.user m) = newCmp dflt s m (.eraseKey k v)) ∧ σ'.tree .temp = none) (by
        rintro ⟨t, n⟩ ⟨rfl, I'⟩
        exact Out.of ⟨⟨upd σ.tree (.user k) (some (h, A ++ C')), σ.next⟩, I.shrink hk I' (by simp), ⟨h, A, B, C', hk, hA, hB, hC, rfl, rfl, rfl⟩, fun m => rfl, by simp [upd, ht]⟩ (Conv.pure _))
    refine o.congr fun f => ?_
    show (do let (s, n) ← eraseKey ap multi f s (.user k) v; Res.ok (s, Ret.num n)) = _
    rw [eraseKey, I.useCmp hu, Res.ok_bind]
    cases (if multi = true then Rb.eraseMulti (ltOf ap s (.user k)) f s.t (.user k) v else Rb.eraseUnique (ltOf ap s (.user k)) f s.t (.user k) v) <;> rfl
  | clear k =>
    obtain ⟨⟨h, l⟩, hk⟩ := hp
    obtain ⟨t, cv, I'⟩ := Rb.clear_ok I.inv keep_root hk
    refine quiet_conv (cv.bind (h := fun _ q => Res.ok (⟨q, s.cmp⟩ : CSt α C)) (Conv.pure _)) ⟨_, I.shrink hk I' (by simp), ⟨rfl, _, _, hk, rfl, rfl⟩, fun m => rfl, by simp [upd, ht]⟩

theorem step_und (w : ∀ c, Swo (ap c)) (I : CInv ap dflt multi s σ) (ht : σ.tree .temp = none) (op : Op α C) (hp : Rb.Pre lt0 true σ op.base) (hd : ¬ Det dflt s op) :
    Und (fun f => step ap dflt multi f s op) := by
  have hmv : ∀ (k j : Slot) (x : Nat × List (Nat × α)), σ.tree k = none → σ.tree j = some x → dflt = none → RbCmp.move dflt s k j = .ub := by
    intro k j x hk hj hdf
    obtain ⟨t, e, I'⟩ := make_ok I hk (o := dflt) (fun h => h)
    have hkj : j ≠ k := by rintro rfl; rw [hk] at hj; cases hj
    rw [RbCmp.move, RbCmp.make, e, Res.ok_bind, Res.ok_bind]
    exact swap_ub I' ((upd_ne _ _ hkj).trans hj) (upd_same _ _ _) (.inr ((upd_same _ _ _).trans hdf))
  have hin : ∀ (k : Slot) (vs : List α), σ.tree k = none → dflt = none → ¬ vs.length ≤ 1 → Und (fun f => RbCmp.initList ap dflt multi f s k vs) := by
    intro k vs hk hdf hv
    obtain ⟨t, e, I'⟩ := make_ok I hk (o := dflt) (fun h => h)
    refine (insertAll_notdet w I' (k := k) (h := σ.next) (l := []) (upd_same _ _ _) vs ?_).congr fun f => by rw [RbCmp.initList, RbCmp.make, e]; rfl
    rintro (h1 | rfl | ⟨_, h1⟩)
    · exact h1 ((upd_same _ _ _).trans hdf)
    · simp at hv
    · omega
  cases op with
  | initList k vs =>
    have hd : ¬ (dflt ≠ none ∨ vs.length ≤ 1) := hd
    exact quiet_und (hin _ vs hp.1 (Classical.byContradiction fun h => hd (.inl h)) fun h => hd (.inr h))
  | copy k j =>
    have hd : s.cmp (.user j) = none := Classical.byContradiction hd
    exact quiet_und (Und.of fun f => by simp only [copy, keyComp, hd]; rfl)
  | move k j =>
    obtain ⟨hk, x, hj⟩ := hp
    exact quiet_und (Und.of fun f => hmv _ _ x hk hj (Classical.byContradiction hd))
  | assignCopy k j =>
    obtain ⟨⟨x, hk⟩, ⟨hj, lj⟩, hj'⟩ := hp
    cases hc : s.cmp (.user j) with
    | none => exact quiet_und (Und.of fun f => by simp only [assignCopy, copy, keyComp, hc]; rfl)
    | some c =>
      have hk0 : s.cmp (.user k) = none := Classical.byContradiction fun h => hd ⟨h, by simp [hc]⟩
      obtain ⟨t1, h, l, n, e, I1, cv1⟩ := copy_ok w I ht hj' hc
      refine quiet_und (Und.after (h := fun f s => RbCmp.swap s .temp (.user k) >>= fun s => RbCmp.destroy f s .temp) cv1 (Und.of fun f => ?_))
      rw [swap_ub I1 (k := .temp) (j := .user k) (x := (h, l)) (y := x) (by simp [upd]) (by simp [upd, hk]) (.inr (by simp [upd, hk0]))]
      rfl
  | assignMove k j =>
    obtain ⟨_, x, hj⟩ := hp
    exact quiet_und (Und.of fun f => by rw [assignMove, hmv _ _ x ht hj (Classical.byContradiction hd)]; rfl)
  | assignList k vs =>
    obtain ⟨⟨x, hk⟩, _⟩ := hp
    have hdf : dflt = none := Classical.byContradiction hd
    by_cases hv : vs.length ≤ 1
    · obtain ⟨t, e, I'⟩ := make_ok I ht (o := dflt) (fun h => h)
      obtain ⟨t1, l, n, _, I1, cv⟩ := insertAll_det w I' (k := .temp) (h := σ.next) (l := []) (by simp [upd]) vs (by
        right
        match vs, hv with
        | [], _ => exact .inl rfl
        | [v], _ => exact .inr ⟨rfl, rfl⟩)
      refine quiet_und ((Und.after (h := fun f s => RbCmp.swap s .temp (.user k) >>= fun s => RbCmp.destroy f s .temp) cv (Und.of fun f => ?_)).congr fun f => ?_)
      · rw [swap_ub I1 (k := .temp) (j := .user k) (x := (σ.next, l)) (y := x) (by simp [upd]) (by simp [upd, hk]) (.inl (by simp [upd, hdf]))]
        rfl
      · rw [assignList, initList, make, e]; rfl
    · exact quiet_und (Und.bind (h := fun f s => RbCmp.swap s .temp (.user k) >>= fun s => RbCmp.destroy f s .temp) (hin _ vs ht hdf hv))
  | swap k j =>
    obtain ⟨⟨x, hk⟩, y, hj⟩ := hp
    refine quiet_und (Und.of fun f => swap_ub I hk hj ?_)
    cases hc : s.cmp (.user k) with
    | none => exact .inl rfl
    | some c => exact .inr (Classical.byContradiction fun h => hd ⟨by simp [hc], h⟩)
  | insert k v =>
    obtain ⟨h, l, hk, _⟩ := hp
    have := insert_und I hk (fun h => hd ((I.usable hk).1 h)) v
    exact Und.of fun f => by simp only [step, this f]; rfl
  | insertAll k vs =>
    obtain ⟨h, l, hk, _⟩ := hp
    refine quiet_und (insertAll_notdet w I hk vs fun h => hd ?_)
    rcases h with h | h | ⟨h, h1⟩
    · exact .inl h
    · exact .inr (.inl h)
    · exact .inr (.inr ⟨(I.isEmpty hk).2 h, h1⟩)
  | eraseKey k v =>
    obtain ⟨⟨h, l⟩, hk⟩ := hp
    have := I.useCmp_ub hk (fun h => hd ((I.usable hk).1 h))
    exact Und.of fun f => by simp only [step, eraseKey, this]; rfl
  | make k => exact absurd trivial hd
  | makeWith k c => exact absurd trivial hd
  | initRange k vs c => exact absurd trivial hd
  | destroy k => exact absurd trivial hd
  | eraseIt k a => exact absurd trivial hd
  | eraseRange k a e => exact absurd trivial hd
  | clear k => exact absurd trivial hd

end Verif.RbCmp
