import Verif.Model.Convert

/-! Lemmas on base classes, subobjects and conversions of pointers. -/

set_option backward.isDefEq.respectTransparency false

namespace Verif.Convert

/-! ### Base classes -/

theorem bases_lt {H : Hier} (hw : WF H) {c : Nat} {e : Edge} (h : e ∈ bases H c) : e.cls < c := by
  by_cases hc : c < H.length
  · exact hw c hc e h
  · exfalso
    simp [bases, List.getElem?_eq_none (Nat.le_of_not_lt hc)] at h

theorem Path.append {H : Hier} {a b c : Nat} {p q : List Edge} (h : Path H a p b) (h' : Path H b q c) :
    Path H a (p ++ q) c := by
  induction h with
  | nil => exact h'
  | cons he _ ih => exact .cons he (ih h')

theorem Path.le {H : Hier} (hw : WF H) {a b : Nat} {p : List Edge} (h : Path H a p b) : b ≤ a := by
  induction h with
  | nil => exact Nat.le_refl _
  | cons he _ ih => have := bases_lt hw he; omega

theorem Path.lt {H : Hier} (hw : WF H) {a b : Nat} {p : List Edge} (h : Path H a p b) (hp : p ≠ []) : b < a := by
  cases h with
  | nil => exact absurd rfl hp
  | cons he h => have := bases_lt hw he; have := h.le hw; omega

theorem Path.nil_of_self {H : Hier} (hw : WF H) {a : Nat} {p : List Edge} (h : Path H a p a) : p = [] := by
  by_cases hp : p = []
  · exact hp
  · have := h.lt hw hp; omega

theorem IsBase.lt {H : Hier} (hw : WF H) {d b : Nat} (h : IsBase H d b) : b < d := by
  obtain ⟨p, hp, h⟩ := h
  exact h.lt hw hp

theorem isBase_of_accessible {H : Hier} {d b : Nat} (h : Accessible H d b) (hne : d ≠ b) : IsBase H d b := by
  obtain ⟨p, hp, _⟩ := h
  refine ⟨p, ?_, hp⟩
  rintro rfl
  cases hp
  exact hne rfl

/-! ### Subobjects -/

theorem sub_append (p q : List Edge) : ∀ (r : Nat) (l : List Nat), sub r l (p ++ q) = sub (sub r l p).1 (sub r l p).2 q := by
  induction p with
  | nil => intro r l; rfl
  | cons e p ih =>
    intro r l
    simp only [List.cons_append, sub]
    split
    · exact ih _ _
    · exact ih _ _

theorem sub_novirt (p : List Edge) : ∀ (r : Nat) (l : List Nat), (∀ e ∈ p, e.virt = false) →
    sub r l p = (r, l ++ p.map Edge.cls) := by
  induction p with
  | nil => intro r l _; simp [sub]
  | cons e p ih =>
    intro r l h
    simp only [sub, h e (by simp), Bool.false_eq_true, if_false]
    rw [ih _ _ fun x hx => h x (by simp [hx])]
    simp

/-- After a virtual base class it does not matter where the way began. -/
theorem sub_virt (p : List Edge) : ∀ (r r' : Nat) (l l' : List Nat), (∃ e ∈ p, e.virt = true) → sub r l p = sub r' l' p := by
  induction p with
  | nil => intro r r' l l' h; simp at h
  | cons e p ih =>
    intro r r' l l' h
    cases hv : e.virt with
    | true => simp [sub, hv]
    | false =>
      simp only [sub, hv, Bool.false_eq_true, if_false]
      apply ih
      obtain ⟨x, hx, hxv⟩ := h
      rcases List.mem_cons.mp hx with rfl | hx
      · rw [hv] at hxv; simp at hxv
      · exact ⟨x, hx, hxv⟩

theorem sub_root_le {H : Hier} (hw : WF H) {a b : Nat} {p : List Edge} (h : Path H a p b) :
    ∀ l, (sub a l p).1 ≤ a := by
  induction h with
  | nil => intro l; exact Nat.le_refl _
  | @cons c b e p he h ih =>
    intro l
    simp only [sub]
    split
    · have := bases_lt hw he; have := ih []; omega
    · rename_i hv
      by_cases hx : ∃ e ∈ p, e.virt = true
      · rw [sub_virt p c e.cls _ [] hx]
        have := bases_lt hw he; have := ih []; omega
      · rw [sub_novirt]
        · exact Nat.le_refl _
        · intro e he
          cases h : e.virt with
          | false => rfl
          | true => exact absurd ⟨e, he, h⟩ hx

/-- A way through a virtual base class ends at a subobject that belongs to another class. -/
theorem sub_root_lt {H : Hier} (hw : WF H) {a b : Nat} {p : List Edge} (h : Path H a p b) (hv : ∃ e ∈ p, e.virt = true)
    (l : List Nat) : (sub a l p).1 < a := by
  cases h with
  | nil => simp at hv
  | @cons _ _ e p he h =>
    have hlt := bases_lt hw he
    have hle := sub_root_le hw h []
    simp only [sub]
    split
    · omega
    · rename_i hne
      rw [sub_virt p a e.cls _ []]
      · omega
      · obtain ⟨x, hx, hxv⟩ := hv
        rcases List.mem_cons.mp hx with rfl | hx
        · exact absurd hxv hne
        · exact ⟨x, hx, hxv⟩

theorem virt_or (p : List Edge) : (∃ e ∈ p, e.virt = true) ∨ ∀ e ∈ p, e.virt = false := by
  by_cases hx : ∃ e ∈ p, e.virt = true
  · exact .inl hx
  · refine .inr fun e he => ?_
    cases h : e.virt with
    | false => rfl
    | true => exact absurd ⟨e, he, h⟩ hx

/-- Ways to the same subobject of a class lead to the same subobject from any subobject of this class. -/
theorem sub_congr {H : Hier} (hw : WF H) {d b : Nat} {p q : List Edge} (hp : Path H d p b) (hq : Path H d q b)
    (h : sub d [] p = sub d [] q) (r : Nat) (l : List Nat) : sub r l p = sub r l q := by
  rcases virt_or p with vp | vp <;> rcases virt_or q with vq | vq
  · rw [sub_virt p r d l [] vp, sub_virt q r d l [] vq, h]
  · exfalso
    have := sub_root_lt hw hp vp []
    rw [h, sub_novirt q d [] vq] at this
    simp at this
  · exfalso
    have := sub_root_lt hw hq vq []
    rw [← h, sub_novirt p d [] vp] at this
    simp at this
  · rw [sub_novirt p _ _ vp, sub_novirt q _ _ vq] at h ⊢
    simp only [List.nil_append, Prod.mk.injEq, true_and] at h
    rw [h]

/-! ### Conversions of pointers -/

theorem along_append (p q : List Edge) (v : PVal) : along (p ++ q) v = along q (along p v) := by
  cases v with
  | null => rfl
  | «at» o r l => simp [along, sub_append]

theorem along_congr {H : Hier} (hw : WF H) {d b : Nat} (hu : Unambig H d b) {p q : List Edge} (hp : Path H d p b)
    (hq : Path H d q b) (v : PVal) : along p v = along q v := by
  cases v with
  | null => rfl
  | «at» o r l =>
    have := sub_congr hw hp hq (hu p q hp hq) r l
    simp [along, this]

/-- Where the language has a conversion, there is a result. -/
theorem convVal_exists {H : Hier} {U T : OT} (h : PtrConv H U T) (v : PVal) : ∃ w, ConvVal H U T v w := by
  rcases h.2.2 with h | h | ⟨d, b, hd, hb, ⟨p, hp, hpath⟩, _, _⟩
  · exact ⟨v, .inl ⟨h, rfl⟩⟩
  · exact ⟨v, .inr (.inl ⟨h, rfl⟩)⟩
  · exact ⟨along p v, .inr (.inr ⟨d, b, p, hd, hb, hp, hpath, rfl⟩)⟩

/-- Where the language has a conversion, there is one result. -/
theorem convVal_unique {H : Hier} (hw : WF H) {U T : OT} (h : PtrConv H U T) {v w w' : PVal} (h1 : ConvVal H U T v w)
    (h2 : ConvVal H U T v w') : w = w' := by
  rcases h1 with ⟨e1, rfl⟩ | ⟨e1, rfl⟩ | ⟨d, b, p, hd, hb, hp, path, rfl⟩ <;>
    rcases h2 with ⟨e2, rfl⟩ | ⟨e2, rfl⟩ | ⟨d', b', p', hd', hb', hp', path', rfl⟩ <;> try rfl
  · rw [hd', hb'] at e1; cases e1; exact absurd (path'.nil_of_self hw) hp'
  · rw [hb'] at e1; cases e1
  · rw [hd, hb] at e2; cases e2; exact absurd (path.nil_of_self hw) hp
  · rw [hb] at e2; cases e2
  · rw [hd] at hd'; cases hd'
    rw [hb] at hb'; cases hb'
    rcases h.2.2 with h | h | ⟨d0, b0, hd0, hb0, _, hu, _⟩
    · rw [hd, hb] at h; cases h; exact absurd (path.nil_of_self hw) hp
    · rw [hb] at h; cases h
    · rw [hd] at hd0; cases hd0
      rw [hb] at hb0; cases hb0
      exact along_congr hw hu path path' v

/-- Conversions compose (but not through `void*`, which does not convert back). -/
theorem convVal_trans {H : Hier} {U M T : OT} (hM : M.core ≠ .void) (hT : T.core ≠ .void) {v w x : PVal} (h1 : ConvVal H U M v w)
    (h2 : ConvVal H M T w x) : ConvVal H U T v x := by
  rcases h1 with ⟨e1, rfl⟩ | ⟨e1, rfl⟩ | ⟨d, m, p, hd, hm, hp, path, rfl⟩
  · rcases h2 with ⟨e2, rfl⟩ | ⟨e2, rfl⟩ | ⟨m, b, q, hm, hb, hq, path', rfl⟩
    · exact .inl ⟨e1.trans e2, rfl⟩
    · exact .inr (.inl ⟨e2, rfl⟩)
    · exact .inr (.inr ⟨m, b, q, e1.trans hm, hb, hq, path', rfl⟩)
  · exact absurd e1 hM
  · rcases h2 with ⟨e2, rfl⟩ | ⟨e2, rfl⟩ | ⟨m', b, q, hm', hb, hq, path', rfl⟩
    · exact .inr (.inr ⟨d, m, p, hd, e2 ▸ hm, hp, path, rfl⟩)
    · exact absurd e2 hT
    · rw [hm] at hm'; cases hm'
      exact .inr (.inr ⟨d, b, p ++ q, hd, hb, by simp [hp], path.append path', (along_append p q v).symm⟩)

/-! ### Deciding for a given hierarchy -/

/-- All ways from class `c` that have at most `n` steps, with their ends. -/
def paths (H : Hier) : Nat → Nat → List (List Edge × Nat)
  | 0, c => [([], c)]
  | n + 1, c => ([], c) :: (bases H c).flatMap fun e => (paths H n e.cls).map fun x => (e :: x.1, x.2)

theorem paths_sound {H : Hier} : ∀ {n c : Nat} {p : List Edge} {b : Nat}, (p, b) ∈ paths H n c → Path H c p b := by
  intro n
  induction n with
  | zero => intro c p b h; simp [paths] at h; obtain ⟨rfl, rfl⟩ := h; exact .nil _
  | succ n ih =>
    intro c p b h
    simp only [paths, List.mem_cons, Prod.mk.injEq, List.mem_flatMap, List.mem_map] at h
    rcases h with ⟨rfl, rfl⟩ | ⟨e, he, ⟨q, b'⟩, hq, rfl, rfl⟩
    · exact .nil _
    · exact .cons he (ih hq)

theorem paths_complete {H : Hier} (hw : WF H) : ∀ {n c : Nat} {p : List Edge} {b : Nat}, c ≤ n → Path H c p b → (p, b) ∈ paths H n c := by
  intro n
  induction n with
  | zero =>
    intro c p b hc h
    cases h with
    | nil => simp [paths]
    | cons he _ => have := bases_lt hw he; omega
  | succ n ih =>
    intro c p b hc h
    cases h with
    | nil => simp [paths]
    | @cons _ _ e q he h =>
      have := bases_lt hw he
      simp only [paths, List.mem_cons, Prod.mk.injEq, List.mem_flatMap, List.mem_map]
      exact .inr ⟨e, he, (q, b), ih (by omega) h, rfl, rfl⟩

theorem path_iff {H : Hier} (hw : WF H) {c : Nat} {p : List Edge} {b : Nat} : Path H c p b ↔ (p, b) ∈ paths H c c :=
  ⟨paths_complete hw (Nat.le_refl _), paths_sound⟩

theorem isBase_iff {H : Hier} (hw : WF H) {d b : Nat} : IsBase H d b ↔ ∃ x ∈ paths H d d, x.1 ≠ [] ∧ x.2 = b := by
  constructor
  · rintro ⟨p, hp, h⟩; exact ⟨(p, b), (path_iff hw).1 h, hp, rfl⟩
  · rintro ⟨⟨p, b'⟩, h, hp, rfl⟩; exact ⟨p, hp, (path_iff hw).2 h⟩

theorem unambig_iff {H : Hier} (hw : WF H) {d b : Nat} : Unambig H d b ↔
    ∀ x ∈ paths H d d, ∀ y ∈ paths H d d, x.2 = b → y.2 = b → sub d [] x.1 = sub d [] y.1 := by
  constructor
  · rintro h ⟨p, b'⟩ hx ⟨q, b''⟩ hy rfl e
    cases e
    exact h p q ((path_iff hw).2 hx) ((path_iff hw).2 hy)
  · intro h p q hp hq
    exact h (p, b) ((path_iff hw).1 hp) (q, b) ((path_iff hw).1 hq) rfl rfl

theorem accessible_iff {H : Hier} (hw : WF H) {d b : Nat} : Accessible H d b ↔
    ∃ x ∈ paths H d d, x.2 = b ∧ ∀ e ∈ x.1, e.acc = .pub := by
  constructor
  · rintro ⟨p, h, hp⟩; exact ⟨(p, b), (path_iff hw).1 h, rfl, hp⟩
  · rintro ⟨⟨p, b'⟩, h, rfl, hp⟩; exact ⟨p, (path_iff hw).2 h, hp⟩

theorem nonVirtual_iff {H : Hier} (hw : WF H) {d b : Nat} : NonVirtual H d b ↔
    ∀ x ∈ paths H d d, x.2 = b → ∀ e ∈ x.1, e.virt = false := by
  constructor
  · rintro h ⟨p, b'⟩ hx rfl; exact h p ((path_iff hw).2 hx)
  · intro h p hp; exact h (p, b) ((path_iff hw).1 hp) rfl

theorem virtualDtor_iff {H : Hier} (hw : WF H) {b : Nat} : VirtualDtor H b ↔
    ∃ x ∈ paths H b b, (H.getD x.2 ⟨[], false⟩).vdtor = true := by
  constructor
  · rintro ⟨p, a, h, hv⟩; exact ⟨(p, a), (path_iff hw).1 h, hv⟩
  · rintro ⟨⟨p, a⟩, h, hv⟩; exact ⟨p, a, (path_iff hw).2 h, hv⟩

/-- The conversion between classes, decided from the ways. -/
theorem ptrConv_cls {H : Hier} (hw : WF H) {U T : OT} {d b : Nat} (hd : U.core = .cls d) (hb : T.core = .cls b) :
    PtrConv H U T ↔ (U.c = true → T.c = true) ∧ (U.v = true → T.v = true) ∧
      (d = b ∨ ((∃ x ∈ paths H d d, x.1 ≠ [] ∧ x.2 = b) ∧
        (∀ x ∈ paths H d d, ∀ y ∈ paths H d d, x.2 = b → y.2 = b → sub d [] x.1 = sub d [] y.1) ∧
        ∃ x ∈ paths H d d, x.2 = b ∧ ∀ e ∈ x.1, e.acc = .pub)) := by
  unfold PtrConv
  rw [← isBase_iff hw, ← unambig_iff hw, ← accessible_iff hw]
  refine and_congr_right fun _ => and_congr_right fun _ => ?_
  rw [hd, hb]
  constructor
  · rintro (h | h | ⟨d', b', h1, h2, h3⟩)
    · cases h; exact .inl rfl
    · cases h
    · cases h1; cases h2; exact .inr h3
  · rintro (rfl | h)
    · exact .inl rfl
    · exact .inr (.inr ⟨d, b, rfl, rfl, h⟩)

end Verif.Convert
