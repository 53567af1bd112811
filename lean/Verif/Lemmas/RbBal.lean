import Verif.Lemmas.RbApi

/-! Colours and black heights: what every history keeps, and what histories that only append keep. -/

set_option backward.isDefEq.respectTransparency false

namespace Verif.Rb
open Verif

variable {α : Type}

theorem T.red_blacken (t : T α) : t.blacken.red = false := by cases t <;> rfl

theorem red_plug {t t' : T α} : ∀ (c : List (Fr α)), (c = [] → t.red = t'.red) → (plug c t).red = (plug c t').red := by
  intro c
  induction c generalizing t t' with
  | nil => intro h; exact h rfl
  | cons f c ih =>
    intro _
    refine ih fun _ => ?_
    simp only [Fr.fill]
    cases f.d <;> cases f.c <;> rfl

theorem broL_red (X : T α) (xc : Color) (xa : Nat) (xv : α) (bl : T α) (ba : Nat) (bv : α) (br : T α) : (broL X xc xa xv bl ba bv br).1.red = true → xc = .red := by
  unfold broL
  split
  · cases xc <;> simp [T.red]
  · split
    · split <;> cases xc <;> simp [T.red]
    · cases xc <;> simp [T.red]

theorem broR_red (X : T α) (xc : Color) (xa : Nat) (xv : α) (bl : T α) (ba : Nat) (bv : α) (br : T α) : (broR X xc xa xv bl ba bv br).1.red = true → xc = .red := by
  unfold broR
  split
  · cases xc <;> simp [T.red]
  · split
    · split <;> cases xc <;> simp [T.red]
    · cases xc <;> simp [T.red]

/-- A root below which nothing red can appear where there was a black node. -/
theorem red_plug_le {t t' : T α} (c : List (Fr α)) (h : t'.red = true → t.red = true) (hr : (plug c t).red = false) : (plug c t').red = false := by
  cases c with
  | nil =>
    cases ht : t'.red with
    | false => exact ht
    | true => rw [show (plug [] t).red = t.red from rfl, h ht] at hr; cases hr
  | cons f c => rw [red_plug (t := t') (t' := t) (f :: c) (by intro e; cases e)]; exact hr

theorem eraseFix_black : ∀ (c : List (Fr α)) (t t' : T α), (c ≠ [] → (plug c t).red = false) → eraseFix c t = some t' → t'.red = false := by
  intro c
  induction c with
  | nil => intro t t' _ e; cases e; exact T.red_blacken t
  | cons f c ih =>
    intro t t' h e
    have h := h (by simp)
    have hf : ∀ u : T α, (u.red = true → f.c = .red) → (plug c u).red = false := by
      intro u hu
      refine red_plug_le c (t := f.fill t) (fun hr => ?_) h
      simp only [Fr.fill, hu hr]
      cases f.d <;> rfl
    rw [eraseFix] at e
    split at e
    · cases e
      exact hf _ (by simp only [Fr.fill]; cases f.d <;> cases f.c <;> simp [T.red])
    · cases hs : f.sib with
      | nil => rw [hs] at e; cases e
      | node bl bc b bv br =>
        rw [hs] at e
        cases bc with
        | black =>
          have hr : (if f.d then broL t f.c f.a f.v bl b bv br else broR t f.c f.a f.v bl b bv br).1.red = true → f.c = .red := by
            cases f.d
            · exact broR_red _ _ _ _ _ _ _ _
            · exact broL_red _ _ _ _ _ _ _ _
          dsimp only at e
          generalize (if f.d then broL t f.c f.a f.v bl b bv br else broR t f.c f.a f.v bl b bv br) = p at e hr
          cases hp : p.2 with
          | true => rw [hp] at e; cases e; exact hf _ hr
          | false => rw [hp] at e; exact ih _ _ (fun _ => hf _ hr) e
        | red =>
          dsimp only at e
          split at e
          · split at e <;> cases e <;> exact hf _ (by simp [T.red])
          · split at e <;> cases e <;> exact hf _ (by simp [T.red])

/-- What all histories keep: the root is black. -/
theorem keep_root : Keep true (fun t : T α => t.red = false) where
  nil := rfl
  black := fun _ h => h
  ins := fun _ _ _ _ _ => T.red_blacken _
  del := by
    intro c L zc z zv R yc p X h u
    cases hd : delT yc p X with
    | none => exact .inl ⟨rfl, rfl⟩
    | some t' =>
      refine .inr ⟨t', rfl, ?_⟩
      have hp : p ≠ [] → (plug p X).red = false := by
        intro hp
        cases u with
        | noLeft e => rw [red_plug (t' := .node L zc z zv R) _ (fun e => absurd e hp)]; exact h
        | noRight e => rw [red_plug (t' := .node L zc z zv R) _ (fun e => absurd e hp)]; exact h
        | both d yc y yv B hL hall e =>
          rw [plug_append]
          show (plug c _).red = false
          refine red_plug_le c (t := .node L zc z zv R) ?_ h
          cases zc <;> simp [Fr.fill, T.red]
      have hz : p = [] → yc = .black := by
        intro hp0
        cases u with
        | noLeft e => rw [hp0] at h; cases zc <;> first | rfl | cases h
        | noRight e => rw [hp0] at h; cases zc <;> first | rfl | cases h
        | both d yc y yv B hL hall e => simp at hp0
      cases yc with
      | red => cases hd; exact hp (fun e => by cases hz e)
      | black => exact eraseFix_black _ _ _ hp hd

/-! Black heights. -/

/-- No red node has a red child, and all paths down contain `n` black nodes. -/
def Bal : T α → Nat → Prop
  | .nil, n => n = 0
  | .node l .red _ _ r, n => l.red = false ∧ r.red = false ∧ Bal l n ∧ Bal r n
  | .node l .black _ _ r, n => ∃ m, n = m + 1 ∧ Bal l m ∧ Bal r m

def Valid (t : T α) : Prop := t.red = false ∧ ∃ n, Bal t n

/-- A red node may be attached here. -/
def okRed : List (Fr α) → Prop
  | [] => False
  | f :: _ => f.c = .black

/-- The path fits a subtree with `n` black nodes on its paths. -/
def CB : List (Fr α) → Nat → Prop
  | [], _ => True
  | f :: c, n => Bal f.sib n ∧ match f.c with
    | .black => CB c (n + 1)
    | .red => f.sib.red = false ∧ okRed c ∧ CB c n

theorem CB_black {f : Fr α} {c : List (Fr α)} {n : Nat} (h : f.c = .black) : CB (f :: c) n ↔ Bal f.sib n ∧ CB c (n + 1) := by
  simp only [CB, h]

theorem CB_red {f : Fr α} {c : List (Fr α)} {n : Nat} (h : f.c = .red) : CB (f :: c) n ↔ Bal f.sib n ∧ f.sib.red = false ∧ okRed c ∧ CB c n := by
  simp only [CB, h]

theorem bal_black {l r : T α} {a : Nat} {v : α} {n : Nat} (hl : Bal l n) (hr : Bal r n) : Bal (.node l .black a v r) (n + 1) := ⟨n, rfl, hl, hr⟩

theorem bal_blacken {t : T α} {n : Nat} (hr : t.red = true) (h : Bal t n) : Bal t.blacken (n + 1) := by
  match t, hr, h with
  | .node l .red a v r, _, h => exact ⟨n, rfl, h.2.2⟩

theorem blacken_of {t : T α} (h : t.red = false) : t.blacken = t := by
  match t, h with
  | .nil, _ => rfl
  | .node l .black a v r, _ => rfl

theorem fill_red {f : Fr α} {t : T α} : (f.fill t).red = true ↔ f.c = .red := by
  simp only [Fr.fill]
  cases f.d <;> cases f.c <;> simp [T.red]

theorem plug_valid : ∀ (c : List (Fr α)) (t : T α) (n : Nat), Bal t n → CB c n → (t.red = true → okRed c) → Valid (plug c t) := by
  intro c
  induction c with
  | nil =>
    intro t n h _ hr
    refine ⟨?_, n, h⟩
    show t.red = false
    cases ht : t.red with
    | false => rfl
    | true => exact (hr ht).elim
  | cons f c ih =>
    intro t n h hc hr
    cases hf : f.c with
    | black =>
      rw [CB_black hf] at hc
      refine ih _ (n + 1) ?_ hc.2 (fun h => by rw [fill_red, hf] at h; cases h)
      simp only [Fr.fill, hf]
      cases f.d
      · exact bal_black hc.1 h
      · exact bal_black h hc.1
    | red =>
      rw [CB_red hf] at hc
      have ht : t.red = false := by
        cases ht : t.red with
        | false => rfl
        | true => have := hr ht; rw [okRed, hf] at this; cases this
      refine ih _ n ?_ hc.2.2.2 (fun _ => hc.2.2.1)
      simp only [Fr.fill, hf]
      cases f.d
      · exact ⟨hc.2.1, ht, hc.1, h⟩
      · exact ⟨ht, hc.2.1, h, hc.1⟩

theorem valid_plug : ∀ (c : List (Fr α)) (t : T α), Valid (plug c t) → ∃ n, Bal t n ∧ CB c n ∧ (t.red = true → okRed c) := by
  intro c
  induction c with
  | nil => rintro t ⟨h, n, hn⟩; exact ⟨n, hn, trivial, fun hr => by rw [show t.red = false from h] at hr; cases hr⟩
  | cons f c ih =>
    intro t h
    obtain ⟨n, hn, hc, hr⟩ := ih _ h
    cases hf : f.c with
    | black =>
      simp only [Fr.fill, hf] at hn
      cases hd : f.d
      all_goals
        rw [hd] at hn
        obtain ⟨m, rfl, h1, h2⟩ := hn
      · exact ⟨m, h2, (CB_black hf).2 ⟨h1, hc⟩, fun _ => hf⟩
      · exact ⟨m, h1, (CB_black hf).2 ⟨h2, hc⟩, fun _ => hf⟩
    | red =>
      have hr := hr (fill_red.2 hf)
      simp only [Fr.fill, hf] at hn
      cases hd : f.d
      all_goals
        rw [hd] at hn
        obtain ⟨h1, h2, h3, h4⟩ := hn
      · exact ⟨n, h4, (CB_red hf).2 ⟨h3, h1, hr, hc⟩, fun h => by rw [h2] at h; cases h⟩
      · exact ⟨n, h3, (CB_red hf).2 ⟨h4, h2, hr, hc⟩, fun h => by rw [h1] at h; cases h⟩

theorem Valid.blacken {t : T α} (h : Valid t) : Valid t.blacken := by rw [blacken_of h.1]; exact h

/-- `rb_tree_insert_rebalance` for a new leaf at the end of a path reaches the recolouring with the
wrong target: going up from the leaf, two levels at a time while parent and uncle are both red, it stops below
a red parent that is the left child of the grandparent. -/
def Skew : List (Fr α) → Prop
  | f :: g :: c => f.c = .red ∧ if g.sib.red then Skew c else g.d = true
  | _ => False

instance Skew.dec : ∀ c : List (Fr α), Decidable (Skew c)
  | [] => .isFalse id
  | [_] => .isFalse id
  | f :: g :: c =>
    have := Skew.dec c
    inferInstanceAs (Decidable (f.c = .red ∧ if g.sib.red then Skew c else g.d = true))

theorem bal_unique {t : T α} : ∀ {n m : Nat}, Bal t n → Bal t m → n = m := by
  induction t with
  | nil => intro n m h h'; rw [show n = 0 from h, show m = 0 from h']
  | node l c a v r ihl _ =>
    intro n m h h'
    cases c with
    | red => exact ihl h.2.2.1 h'.2.2.1
    | black =>
      obtain ⟨i, rfl, h1, _⟩ := h
      obtain ⟨j, rfl, h2, _⟩ := h'
      rw [ihl h1 h2]

/-- The rotation with the wrong colours leaves no red-black tree. -/
theorem insRot_unbal {f g : Fr α} {t : T α} {n : Nat} (ht : t.red = true) (hb : Bal t n) (hg : g.d = true) (hgc : g.c = .black) (hs : Bal f.sib n) (hs' : f.sib.red = false) (hu : Bal g.sib n) :
    (insRot f g t).red = true ∧ (∀ m, ¬ Bal (insRot f g t) m) ∧ ∀ m, ¬ Bal (insRot f g t).blacken m := by
  cases t with
  | nil => cases ht
  | node tl tc a v tr =>
    cases tc with
    | black => cases ht
    | red =>
      obtain ⟨fd, fc, fa, fv, fs⟩ := f
      obtain ⟨gd, gc, ga, gv, gs⟩ := g
      simp only at hg hgc hs hs' hu
      subst hg hgc
      have hb' := hb
      cases fd
      · refine ⟨rfl, fun m h => ?_, fun m h => ?_⟩
        · simp [insRot, Bal, T.red] at h
        · obtain ⟨i, _, h1, j, rfl, h2, _⟩ := h
          have e1 := bal_unique h2 hb.2.2.2
          have e2 := bal_unique h1.2.2.1 hs
          omega
      · refine ⟨rfl, fun m h => ?_, fun m h => ?_⟩
        · simp [insRot, Bal, T.red] at h
        · obtain ⟨i, _, h1, j, rfl, h2, _⟩ := h
          have e1 := bal_unique h1 hb
          have e2 := bal_unique h2 hs
          omega

theorem CB_root : ∀ (c : List (Fr α)) (t : T α) {n : Nat}, c ≠ [] → CB c n → (plug c t).red = false := by
  intro c
  induction c with
  | nil => intro t n h; exact absurd rfl h
  | cons f c ih =>
    intro t n _ hc
    cases c with
    | nil =>
      cases hf : f.c with
      | black =>
        cases hx : (plug [f] t).red with
        | false => rfl
        | true => rw [fill_red.1 hx] at hf; cases hf
      | red => exact ((CB_red hf).1 hc).2.2.1.elim
    | cons g c =>
      cases hf : f.c with
      | black => exact ih _ (by simp) ((CB_black hf).1 hc).2
      | red => exact ih _ (by simp) ((CB_red hf).1 hc).2.2.2

/-- Insertion keeps the tree balanced if and only if it does not reach that place. -/
theorem insFix_valid (k : Nat) : ∀ (c : List (Fr α)) (t : T α) (n : Nat), c.length < k → t.red = true → Bal t n → CB c n →
    (Valid (insFix c t).blacken ↔ ¬ Skew c) := by
  induction k with
  | zero => intro c t n h; omega
  | succ k ih =>
    intro c t n hk ht hb hc
    match c, hk, hc with
    | [], _, _ => exact ⟨fun _ h => h, fun _ => ⟨T.red_blacken t, n + 1, bal_blacken ht hb⟩⟩
    | [f], _, hc =>
      refine ⟨fun _ h => h, fun _ => ?_⟩
      cases hf : f.c with
      | black => exact (plug_valid [f] t n hb hc (fun _ => hf)).blacken
      | red => exact ((CB_red hf).1 hc).2.2.1.elim
    | f :: g :: c, hk, hc =>
      cases hf : f.c with
      | black =>
        refine ⟨fun _ h => by simp [Skew, hf] at h, fun _ => ?_⟩
        rw [insFix, hf]
        exact (plug_valid _ t n hb hc (fun _ => hf)).blacken
      | red =>
        obtain ⟨h1, h2, h3, h4⟩ := (CB_red hf).1 hc
        have hg : g.c = .black := h3
        obtain ⟨h5, h6⟩ := (CB_black hg).1 h4
        rw [insFix, hf, Skew]
        cases hs : g.sib.red with
        | true =>
          simp only [if_true, hf, true_and]
          refine ih c _ (n + 1) (by simp only [List.length_cons] at hk; omega) ?_ ?_ h6
          · exact fill_red.2 rfl
          · have hB : Bal (Fr.fill ⟨f.d, .black, f.a, f.v, f.sib⟩ t) (n + 1) := by
              cases hfd : f.d <;> simp only [Fr.fill]
              · exact bal_black h1 hb
              · exact bal_black hb h1
            have hR : (Fr.fill ⟨f.d, .black, f.a, f.v, f.sib⟩ t).red = false := by
              cases hfd : f.d <;> rfl
            generalize Fr.fill ⟨f.d, .black, f.a, f.v, f.sib⟩ t = u at hB hR
            cases hgd : g.d
            · exact ⟨T.red_blacken _, hR, bal_blacken hs h5, hB⟩
            · exact ⟨hR, T.red_blacken _, hB, bal_blacken hs h5⟩
        | false =>
          simp only [Bool.false_eq_true, if_false, hf, true_and]
          cases hgd : g.d with
          | false =>
            refine ⟨fun _ => by simp, fun _ => ?_⟩
            refine (plug_valid c _ (n + 1) ?_ h6 ?_).blacken
            · cases hfd : f.d with
              | false =>
                simp only [insRot, hfd, hgd]
                exact bal_black ⟨hs, h2, h5, h1⟩ hb
              | true =>
                cases t with
                | nil => cases ht
                | node tl tc a v tr =>
                  cases tc with
                  | black => cases ht
                  | red =>
                    simp only [insRot, hfd, hgd]
                    exact bal_black ⟨hs, hb.1, h5, hb.2.2.1⟩ ⟨hb.2.1, h2, hb.2.2.2, h1⟩
            · intro h
              cases hfd : f.d with
              | false => simp only [insRot, hfd, hgd] at h; cases h
              | true =>
                cases t with
                | nil => cases ht
                | node tl tc a v tr => simp only [insRot, hfd, hgd] at h; cases h
          | true =>
            refine ⟨fun h => ?_, fun h => absurd rfl h⟩
            obtain ⟨q1, q2, q3⟩ := insRot_unbal ht hb hgd hg h1 h2 h5
            exfalso
            cases c with
            | nil => obtain ⟨_, m, hm⟩ := h; exact q3 m hm
            | cons e c =>
              have hbl : (plug (e :: c) (insRot f g t)).red = false := CB_root _ _ (by simp) h6
              rw [blacken_of hbl] at h
              obtain ⟨m, hm, _⟩ := valid_plug _ _ h
              exact q2 m hm

theorem leaf_valid {c : List (Fr α)} {n : Nat} {v : α} (h : Valid (plug c .nil)) : Valid (insFix c (.node .nil .red n v .nil)).blacken ↔ ¬ Skew c := by
  obtain ⟨m, hm, hcb, _⟩ := valid_plug c .nil h
  cases hm
  exact insFix_valid (c.length + 1) c (.node .nil .red n v .nil) 0 (Nat.lt_succ_self _) rfl ⟨rfl, rfl, rfl, rfl⟩ hcb

/-- Appending does not reach it. -/
theorem skew_right : ∀ c : List (Fr α), (∀ f ∈ c, f.d = false) → ¬ Skew c
  | [], _ => id
  | [_], _ => id
  | f :: g :: c, h => by
    rintro ⟨_, h2⟩
    split at h2
    · exact skew_right c (fun x hx => h x (by simp [hx])) h2
    · rw [h g (by simp)] at h2; cases h2

theorem right_of_cr {c : List (Fr α)} (h : cr c = []) : ∀ f ∈ c, f.d = false := by
  induction c with
  | nil => intro f hf; cases hf
  | cons g c ih =>
    cases hg : g.d with
    | true => simp [cr, hg] at h
    | false =>
      have : cr c = [] := by simpa [cr, hg] using h
      intro f hf
      rcases List.mem_cons.1 hf with rfl | hf
      · exact hg
      · exact ih this f hf

theorem broL_bal {X bl br : T α} {xc : Color} {xa ba : Nat} {xv bv : α} {n : Nat} (hX : Bal X n) (hl : Bal bl n) (hr : Bal br n) (hXr : X.red = false) :
    let p := broL X xc xa xv bl ba bv br
    (p.2 = true → (xc = .red → Bal p.1 (n + 1)) ∧ (xc = .black → Bal p.1 (n + 2))) ∧
    (p.2 = false → Bal p.1.blacken (n + 1) ∧ (p.1.red = true ↔ xc = .red)) := by
  by_cases h1 : bl.red = false ∧ br.red = false
  · intro p
    have hp : p = (.node X xc xa xv (.node bl .red ba bv br), false) := by simp only [p, broL, if_pos h1]
    rw [hp]
    refine ⟨by simp, fun _ => ⟨⟨n, rfl, hX, h1.1, h1.2, hl, hr⟩, ?_⟩⟩
    cases xc <;> simp [T.red]
  · by_cases h2 : br.red = false
    · match bl, hl, h1 with
      | .nil, _, h1 => exact (h1 ⟨rfl, h2⟩).elim
      | .node u .black q qv w, _, h1 => exact (h1 ⟨rfl, h2⟩).elim
      | .node u .red q qv w, hl, h1 =>
        intro p
        have hp : p = (.node (.node X .black xa xv u) xc q qv (.node w .black ba bv br), true) := by simp only [p, broL, if_neg h1, if_pos h2]
        rw [hp]
        refine ⟨fun _ => ⟨?_, ?_⟩, by simp⟩
        · rintro rfl; exact ⟨rfl, rfl, bal_black hX hl.2.2.1, bal_black hl.2.2.2 hr⟩
        · rintro rfl; exact bal_black (bal_black hX hl.2.2.1) (bal_black hl.2.2.2 hr)
    · intro p
      have hp : p = (.node (.node X .black xa xv bl) xc ba bv br.blacken, true) := by simp only [p, broL, if_neg h1, if_neg h2]
      rw [hp]
      have hb := bal_blacken (by simpa using h2) hr
      refine ⟨fun _ => ⟨?_, ?_⟩, by simp⟩
      · rintro rfl; exact ⟨rfl, T.red_blacken _, bal_black hX hl, hb⟩
      · rintro rfl; exact bal_black (bal_black hX hl) hb

theorem broR_bal {X bl br : T α} {xc : Color} {xa ba : Nat} {xv bv : α} {n : Nat} (hX : Bal X n) (hl : Bal bl n) (hr : Bal br n) (hXr : X.red = false) :
    let p := broR X xc xa xv bl ba bv br
    (p.2 = true → (xc = .red → Bal p.1 (n + 1)) ∧ (xc = .black → Bal p.1 (n + 2))) ∧
    (p.2 = false → Bal p.1.blacken (n + 1) ∧ (p.1.red = true ↔ xc = .red)) := by
  by_cases h1 : bl.red = false ∧ br.red = false
  · intro p
    have hp : p = (.node (.node bl .red ba bv br) xc xa xv X, false) := by simp only [p, broR, if_pos h1]
    rw [hp]
    refine ⟨by simp, fun _ => ⟨⟨n, rfl, ⟨h1.1, h1.2, hl, hr⟩, hX⟩, ?_⟩⟩
    cases xc <;> simp [T.red]
  · by_cases h2 : bl.red = false
    · match br, hr, h1 with
      | .nil, _, h1 => exact (h1 ⟨h2, rfl⟩).elim
      | .node u .black q qv w, _, h1 => exact (h1 ⟨h2, rfl⟩).elim
      | .node u .red q qv w, hr, h1 =>
        intro p
        have hp : p = (.node (.node bl .black ba bv u) xc q qv (.node w .black xa xv X), true) := by simp only [p, broR, if_neg h1, if_pos h2]
        rw [hp]
        refine ⟨fun _ => ⟨?_, ?_⟩, by simp⟩
        · rintro rfl; exact ⟨rfl, rfl, bal_black hl hr.2.2.1, bal_black hr.2.2.2 hX⟩
        · rintro rfl; exact bal_black (bal_black hl hr.2.2.1) (bal_black hr.2.2.2 hX)
    · intro p
      have hp : p = (.node bl.blacken xc ba bv (.node br .black xa xv X), true) := by simp only [p, broR, if_neg h1, if_neg h2]
      rw [hp]
      have hb := bal_blacken (by simpa using h2) hl
      refine ⟨fun _ => ⟨?_, ?_⟩, by simp⟩
      · rintro rfl; exact ⟨T.red_blacken _, rfl, hb, bal_black hr hX⟩
      · rintro rfl; exact bal_black hb (bal_black hr hX)

theorem bal_cases {t : T α} {n : Nat} (h : Bal t (n + 1)) (hr : t.red = false) : ∃ l a v r, t = .node l .black a v r ∧ Bal l n ∧ Bal r n := by
  match t, h, hr with
  | .nil, h, _ => cases h
  | .node l .black a v r, h, _ => obtain ⟨m, e, h1, h2⟩ := h; cases e; exact ⟨l, a, v, r, rfl, h1, h2⟩

/-- In a balanced tree the rebalancing loop ends and restores the balance. -/
theorem eraseFix_valid : ∀ (c : List (Fr α)) (t : T α) (n : Nat), ((t.red = true ∧ Bal t.blacken (n + 1)) ∨ (t.red = false ∧ Bal t n)) → CB c (n + 1) →
    ∃ t', eraseFix c t = some t' ∧ Valid t' := by
  intro c
  induction c with
  | nil =>
    intro t n h _
    refine ⟨_, rfl, T.red_blacken t, ?_⟩
    rcases h with h | h
    · exact ⟨_, h.2⟩
    · rw [blacken_of h.1]; exact ⟨_, h.2⟩
  | cons f c ih =>
    intro t n h hc
    rw [eraseFix]
    rcases h with ⟨hr, hb⟩ | ⟨hr, hb⟩
    · rw [if_pos hr]
      exact ⟨_, rfl, plug_valid _ _ _ hb hc (fun h => by rw [T.red_blacken] at h; cases h)⟩
    · rw [hr]
      simp only [Bool.false_eq_true, if_false]
      have hs : Bal f.sib (n + 1) := hc.1
      cases hsr : f.sib.red with
      | false =>
        obtain ⟨bl, b, bv, br, e, h1, h2⟩ := bal_cases hs hsr
        rw [e]
        simp only
        have key : ∀ p : T α × Bool, ((p.2 = true → (f.c = .red → Bal p.1 (n + 1)) ∧ (f.c = .black → Bal p.1 (n + 2))) ∧
            (p.2 = false → Bal p.1.blacken (n + 1) ∧ (p.1.red = true ↔ f.c = .red))) → (p.1.red = true → f.c = .red) →
            ∃ t', (if p.2 = true then some (plug c p.1) else eraseFix c p.1) = some t' ∧ Valid t' := by
          intro p hp hpr
          cases hp2 : p.2 with
          | true =>
            simp only [if_true]
            refine ⟨_, rfl, ?_⟩
            cases hf : f.c with
            | black =>
              rw [CB_black hf] at hc
              exact plug_valid _ _ _ ((hp.1 hp2).2 hf) hc.2 (fun h => by rw [hf] at hpr; cases hpr h)
            | red =>
              rw [CB_red hf] at hc
              exact plug_valid _ _ _ ((hp.1 hp2).1 hf) hc.2.2.2 (fun _ => hc.2.2.1)
          | false =>
            simp only [Bool.false_eq_true, if_false]
            obtain ⟨hp3, hp4⟩ := hp.2 hp2
            cases hf : f.c with
            | black =>
              rw [CB_black hf] at hc
              have hnr : p.1.red = false := by
                cases h : p.1.red with
                | false => rfl
                | true => rw [hf] at hp4; cases hp4.1 h
              rw [blacken_of hnr] at hp3
              exact ih _ (n + 1) (.inr ⟨hnr, hp3⟩) hc.2
            | red =>
              rw [CB_red hf] at hc
              exact ih _ n (.inl ⟨hp4.2 hf, hp3⟩) hc.2.2.2
        cases f.d with
        | true => simp only [if_true]; exact key _ (broL_bal hb h1 h2 hr) (broL_red _ _ _ _ _ _ _ _)
        | false => simp only [Bool.false_eq_true, if_false]; exact key _ (broR_bal hb h1 h2 hr) (broR_red _ _ _ _ _ _ _ _)
      | true =>
        have hf : f.c = .black := by
          cases hf : f.c with
          | black => rfl
          | red => rw [CB_red hf, hsr] at hc; cases hc.2.1
        rw [CB_black hf] at hc
        cases hsib : f.sib with
        | nil => rw [hsib] at hsr; cases hsr
        | node bl bc b bv br =>
          cases bc with
          | black => rw [hsib] at hsr; cases hsr
          | red =>
            rw [hsib] at hs
            obtain ⟨h1, h2, h3, h4⟩ := hs
            have key : ∀ p : T α × Bool, ((p.2 = true → (Color.red = .red → Bal p.1 (n + 1)) ∧ (Color.red = .black → Bal p.1 (n + 2))) ∧
                (p.2 = false → Bal p.1.blacken (n + 1) ∧ (p.1.red = true ↔ Color.red = .red))) → Bal (if p.2 = true then p.1 else p.1.blacken) (n + 1) := by
              intro p hp
              cases hp2 : p.2 with
              | true => simp only [if_true]; exact (hp.1 hp2).1 rfl
              | false => simp only [Bool.false_eq_true, if_false]; exact (hp.2 hp2).1
            simp only
            cases f.d with
            | true =>
              obtain ⟨ll, b', bv', lr, rfl, h5, h6⟩ := bal_cases h3 h1
              simp only [if_true]
              refine ⟨_, rfl, plug_valid c _ (n + 2) ?_ hc.2 (fun h => by cases h)⟩
              exact bal_black (key _ (broL_bal hb h5 h6 hr)) h4
            | false =>
              obtain ⟨ll, b', bv', lr, rfl, h5, h6⟩ := bal_cases h4 h2
              simp only [Bool.false_eq_true, if_false]
              refine ⟨_, rfl, plug_valid c _ (n + 2) ?_ hc.2 (fun h => by cases h)⟩
              exact bal_black h3 (key _ (broR_bal hb h5 h6 hr))

theorem CB_same {f g : Fr α} {c : List (Fr α)} (hc : f.c = g.c) (hs : f.sib = g.sib) : ∀ (d : List (Fr α)) (n : Nat), CB (d ++ f :: c) n → CB (d ++ g :: c) n := by
  intro d
  induction d with
  | nil =>
    intro n h
    show CB (g :: c) n
    have h : CB (f :: c) n := h
    simp only [CB] at h ⊢
    rw [← hc, ← hs]; exact h
  | cons e d ih =>
    intro n h
    have ho : okRed (d ++ f :: c) → okRed (d ++ g :: c) := by
      cases d with
      | nil => exact fun h => (hc.symm.trans h : g.c = .black)
      | cons => exact id
    rw [List.cons_append] at h ⊢
    cases he : e.c with
    | black =>
      rw [CB_black he] at h ⊢
      exact ⟨h.1, ih _ h.2⟩
    | red =>
      rw [CB_red he] at h ⊢
      exact ⟨h.1, h.2.1, ho h.2.2.1, ih _ h.2.2.2⟩

theorem delT_valid {p : List (Fr α)} {X : T α} {yc : Color} {n : Nat} (hX : (yc = .red → X.red = false ∧ Bal X n) ∧ (yc = .black → ∃ m, n = m + 1 ∧ Bal X m))
    (hc : CB p n) : ∃ t', delT yc p X = some t' ∧ Valid t' := by
  cases yc with
  | red => exact ⟨_, rfl, plug_valid _ _ _ (hX.1 rfl).2 hc (fun h => by rw [(hX.1 rfl).1] at h; cases h)⟩
  | black =>
    obtain ⟨m, rfl, hm⟩ := hX.2 rfl
    refine eraseFix_valid p X m ?_ hc
    cases h : X.red with
    | true => exact .inl ⟨rfl, bal_blacken h hm⟩
    | false => exact .inr ⟨rfl, hm⟩

/-- Going up from a black place whose subtree lacks a black node, the loop of `rb_tree_erase_rebalance`
meets a node without the other child: at once, or after levels where node, brother and nephews are black. -/
def Stuck : List (Fr α) → Prop
  | [] => False
  | f :: c => f.sib = .nil ∨ (∃ bl b bv br, f.sib = .node bl .black b bv br ∧ bl.red = false ∧ br.red = false) ∧ f.c = .black ∧ Stuck c

theorem eraseFix_none : ∀ (c : List (Fr α)) (t : T α), eraseFix c t = none ↔ t.red = false ∧ Stuck c := by
  intro c
  induction c with
  | nil => intro t; simp [eraseFix, Stuck]
  | cons f c ih =>
    intro t
    obtain ⟨fd, fc, fa, fv, fs⟩ := f
    cases ht : t.red with
    | true => simp [eraseFix, ht]
    | false =>
      cases fs with
      | nil => simp [eraseFix, ht, Stuck]
      | node bl bc b bv br =>
        cases bc with
        | red => cases fd <;> cases bl <;> cases br <;> simp [eraseFix, ht, Stuck]
        | black =>
          have hbro : ∀ q : T α × Bool, (q = broL t fc fa fv bl b bv br ∨ q = broR t fc fa fv bl b bv br) →
              ((bl.red = false ∧ br.red = false) ∧ q.2 = false ∧ q.1.red = (fc == .red)) ∨ (¬ (bl.red = false ∧ br.red = false) ∧ q.2 = true) := by
            intro q hq
            by_cases hn : bl.red = false ∧ br.red = false
            · left
              refine ⟨hn, ?_⟩
              rcases hq with rfl | rfl
              · simp only [broL, hn, and_self, if_true]; cases fc <;> exact ⟨trivial, rfl⟩
              · simp only [broR, hn, and_self, if_true]; cases fc <;> exact ⟨trivial, rfl⟩
            · right
              refine ⟨hn, ?_⟩
              rcases hq with rfl | rfl
              · simp only [broL, hn, if_false]
                split
                · split <;> rfl
                · rfl
              · simp only [broR, hn, if_false]
                split
                · split <;> rfl
                · rfl
          simp only [eraseFix, ht, Bool.false_eq_true, if_false, Stuck, true_and, reduceCtorEq, false_or]
          have hq := hbro (if fd = true then broL t fc fa fv bl b bv br else broR t fc fa fv bl b bv br) (by cases fd <;> simp)
          generalize (if fd = true then broL t fc fa fv bl b bv br else broR t fc fa fv bl b bv br) = q at hq ⊢
          rcases hq with ⟨hn, h2, h3⟩ | ⟨hn, h2⟩
          · rw [h2]
            simp only [Bool.false_eq_true, if_false]
            rw [ih, h3]
            cases fc
            · simp
            · simp only [show (Color.black == Color.red) = false from rfl, true_and]
              exact ⟨fun h => ⟨⟨bl, b, bv, br, rfl, hn⟩, h⟩, fun h => h.2⟩
          · rw [h2]
            simp only [if_true, reduceCtorEq, false_iff]
            rintro ⟨⟨_, _, _, _, e, h⟩, _⟩
            cases e
            exact hn h

theorem delT_none {yc : Color} {p : List (Fr α)} {X : T α} : delT yc p X = none ↔ yc = .black ∧ X.red = false ∧ Stuck p := by
  cases yc with
  | red => simp [delT]
  | black => simp [delT, eraseFix_none]

/-- What histories keep that only append elements: the tree is balanced, and all calls return. -/
theorem keep_valid : Keep false (Valid : T α → Prop) where
  nil := ⟨rfl, 0, rfl⟩
  black := fun _ h => h.1
  ins := by
    intro c n v h hc
    exact (leaf_valid h).2 (skew_right c (right_of_cr (by simpa using hc)))
  del := by
    intro c L zc z zv R yc p X h u
    right
    cases u with
    | noLeft e =>
      subst e
      obtain ⟨n, hn, hcb, _⟩ := valid_plug c _ h
      refine delT_valid (n := n) ⟨?_, ?_⟩ hcb
      · rintro rfl; exact ⟨hn.2.1, hn.2.2.2⟩
      · rintro rfl; obtain ⟨m, e, _, h2⟩ := hn; exact ⟨m, e, h2⟩
    | noRight e =>
      subst e
      obtain ⟨n, hn, hcb, _⟩ := valid_plug c _ h
      refine delT_valid (n := n) ⟨?_, ?_⟩ hcb
      · rintro rfl; exact ⟨hn.1, hn.2.2.1⟩
      · rintro rfl; obtain ⟨m, e, h2, _⟩ := hn; exact ⟨m, e, h2⟩
    | both d yc y yv B hL hall e =>
      have h : Valid (plug (d ++ ⟨false, zc, z, zv, L⟩ :: c) (.node .nil yc y yv X)) := by rw [plug_append, ← e]; exact h
      obtain ⟨n, hn, hcb, _⟩ := valid_plug _ _ h
      refine delT_valid (n := n) ⟨?_, ?_⟩ (CB_same (f := ⟨false, zc, z, zv, L⟩) (g := ⟨false, zc, y, yv, L⟩) rfl rfl d n hcb)
      · rintro rfl; exact ⟨hn.2.1, hn.2.2.2⟩
      · rintro rfl; obtain ⟨m, e, _, h2⟩ := hn; exact ⟨m, e, h2⟩

/-- A balanced tree is shallow. -/
def T.depth : T α → Nat
  | .nil => 0
  | .node l _ _ _ r => max l.depth r.depth + 1

theorem Bal.size {t : T α} : ∀ {n : Nat}, Bal t n → 2 ^ n ≤ t.inl.length + 1 := by
  induction t with
  | nil => intro n h; cases h; simp [T.inl]
  | node l c a v r ihl ihr =>
    intro n h
    cases c with
    | red =>
      have := ihl h.2.2.1
      simp only [T.inl, List.length_append, List.length_cons]; omega
    | black =>
      obtain ⟨m, rfl, h1, h2⟩ := h
      have := ihl h1; have := ihr h2
      simp only [T.inl, List.length_append, List.length_cons, Nat.pow_succ]; omega

theorem Bal.depth {t : T α} : ∀ {n : Nat}, Bal t n → t.depth ≤ 2 * n + (if t.red then 1 else 0) := by
  induction t with
  | nil => intro n h; simp [T.depth]
  | node l c a v r ihl ihr =>
    intro n h
    cases c with
    | red =>
      have h1 := ihl h.2.2.1; have h2 := ihr h.2.2.2
      simp only [h.1, h.2.1] at h1 h2
      simp [T.depth, T.red] at *; omega
    | black =>
      obtain ⟨m, rfl, h1, h2⟩ := h
      have h1 := ihl h1; have h2 := ihr h2
      simp only [T.depth, T.red]
      split at h1 <;> split at h2 <;> simp <;> omega

end Verif.Rb
