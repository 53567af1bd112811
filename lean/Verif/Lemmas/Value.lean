import Verif.Model.Value

set_option backward.isDefEq.respectTransparency false

namespace Verif.Value

open Verif.Cxx

theorem set_same (σ : Store) (a v : Nat) : set σ a v a = v := by simp [set]

theorem set_other (σ : Store) {a x : Nat} (v : Nat) (h : x ≠ a) : set σ a v x = σ x := by simp [set, h]

/-- An unqualified object type that can be a member and a parameter. -/
def Plain : Ty → Prop
  | .base c v b => c = false ∧ v = false ∧ b ≠ .void
  | .ptr c v _ => c = false ∧ v = false
  | .mem c v _ _ => c = false ∧ v = false
  | _ => False

/-- Can an element of class `k` be initialised with an expression of this kind? -/
def Fits (k : Cls) (c : Cat) : Prop := k.copy = true ∨ (c = .xvalue ∧ k.move = true)

/-- What initialisation with an expression of this kind leaves in the source. -/
def leaves (k : Cls) (c : Cat) (v : Nat) : Nat := if c = .xvalue ∧ k.move = true then k.left v else v

theorem forward_deduce {t : Ty} (h : Plain t) (c : Cat) : forward (deduce t c) = some c := by
  cases t <;> simp only [Plain] at h
  case base a v b =>
    obtain ⟨rfl, rfl, h⟩ := h
    cases c <;> simp only [deduce, forward, Ty.mkRref, Ty.mkConst, is_const, matchConst] <;>
      first | rfl | (cases b <;> first | rfl | exact absurd rfl h)
  case ptr a v u =>
    obtain ⟨rfl, rfl⟩ := h
    cases c <;> rfl
  case mem a v u k =>
    obtain ⟨rfl, rfl⟩ := h
    cases c <;> rfl

theorem pass_fwd {t : Ty} (h : Plain t) (c : Cat) : pass t .fwd c = some c := forward_deduce h c

theorem argFromElement_eq (k : Cls) (h : Plain k.ty) (c : Cat) :
    argFromElement k (deduce k.ty c) =
      match c with | .lvalue => false | .clvalue => true | .xvalue => k.move || k.copy := by
  obtain ⟨t, cp, mv, lf, sf⟩ := k
  cases t <;> simp only [Plain] at h
  case base a v b =>
    obtain ⟨rfl, rfl, h⟩ := h
    cases c <;> rfl
  case ptr a v u =>
    obtain ⟨rfl, rfl⟩ := h
    cases c <;> rfl
  case mem a v u k =>
    obtain ⟨rfl, rfl⟩ := h
    cases c <;> rfl

theorem construct_ok {dst : Obj} {src : Nat} {c : Cat} (σ : Store) (hne : src ≠ dst.addr) (h : Fits dst.cls c) :
    ∃ σ', construct dst src c σ = some σ' ∧ σ' dst.addr = σ src ∧ σ' src = leaves dst.cls c (σ src) ∧
      ∀ x, x ≠ dst.addr → x ≠ src → σ' x = σ x := by
  unfold construct leaves
  by_cases hm : c = .xvalue ∧ dst.cls.move = true
  · obtain ⟨rfl, hm⟩ := hm
    simp only [hm]
    refine ⟨_, rfl, set_same .., ?_, ?_⟩
    · rw [set_other _ _ hne, set_same]; simp
    · intro x h1 h2
      rw [set_other _ _ h1, set_other _ _ h2]
  · have hc : dst.cls.copy = true := by
      cases h with
      | inl h => exact h
      | inr h => exact absurd h hm
    rw [if_neg (by simpa using hm), if_pos hc, if_neg hm]
    refine ⟨_, rfl, set_same .., set_other _ _ hne, ?_⟩
    intro x h1 _
    exact set_other _ _ h1

theorem construct_none {dst : Obj} {src : Nat} {c : Cat} (σ : Store) (h : ¬ Fits dst.cls c) :
    construct dst src c σ = none := by
  unfold construct
  have h1 : ¬ (c = .xvalue ∧ dst.cls.move = true) := fun hh => h (.inr hh)
  have h2 : ¬ dst.cls.copy = true := fun hh => h (.inl hh)
  rw [if_neg (by simpa using h1), if_neg h2]

theorem assign_ok {dst : Obj} {src : Nat} {c : Cat} (σ : Store) (hne : src ≠ dst.addr) (h : Fits dst.cls c) :
    ∃ σ', assign dst src c σ = some σ' ∧ σ' dst.addr = σ src ∧ σ' src = leaves dst.cls c (σ src) ∧
      ∀ x, x ≠ dst.addr → x ≠ src → σ' x = σ x := by
  obtain ⟨σ', h1, h2⟩ := construct_ok σ hne h
  refine ⟨σ', ?_, h2⟩
  rw [← h1]
  unfold assign construct
  simp only [if_neg hne]

theorem assign_self {dst : Obj} {c : Cat} (σ : Store) (h : Fits dst.cls c) :
    ∃ σ', assign dst dst.addr c σ = some σ' ∧ ∀ x, x ≠ dst.addr → σ' x = σ x := by
  unfold assign
  by_cases hm : c = .xvalue ∧ dst.cls.move = true
  · obtain ⟨rfl, hm⟩ := hm
    simp only [hm]
    exact ⟨_, rfl, fun x hx => set_other _ _ hx⟩
  · have hc : dst.cls.copy = true := by
      cases h with
      | inl h => exact h
      | inr h => exact absurd h hm
    rw [if_neg (by simpa using hm), if_pos hc]
    exact ⟨_, rfl, fun x hx => set_other _ _ hx⟩

theorem swap_ok {l : Obj} {r tmp : Nat} (σ : Store) (h : Fits l.cls .xvalue) (hl : tmp ≠ l.addr) (hr : tmp ≠ r) :
    ∃ σ', swap tmp l r σ = some σ' ∧ σ' l.addr = σ r ∧ σ' r = σ l.addr ∧
      ∀ x, x ≠ l.addr → x ≠ r → x ≠ tmp → σ' x = σ x := by
  obtain ⟨σ1, e1, v1, _, f1⟩ := construct_ok (dst := ⟨l.cls, tmp⟩) (src := l.addr) σ (Ne.symm hl) h
  simp only at v1 f1
  unfold swap
  rw [e1]
  simp only [Option.bind_eq_bind, Option.bind_some]
  by_cases he : r = l.addr
  · subst he
    obtain ⟨σ2, e2, f2⟩ := assign_self (dst := l) σ1 h
    obtain ⟨σ3, e3, v3, _, f3⟩ := assign_ok (dst := ⟨l.cls, l.addr⟩) (src := tmp) σ2 hl h
    simp only at v3 f3
    rw [e2]
    simp only [Option.bind_some]
    refine ⟨σ3, e3, ?_, ?_, ?_⟩
    · rw [v3, f2 _ hl, v1]
    · rw [v3, f2 _ hl, v1]
    · intro x h1 _ h3
      rw [f3 x h1 h3, f2 x h1, f1 x h3 h1]
  · obtain ⟨σ2, e2, v2, _, f2⟩ := assign_ok (dst := l) (src := r) σ1 he h
    obtain ⟨σ3, e3, v3, _, f3⟩ := assign_ok (dst := ⟨l.cls, r⟩) (src := tmp) σ2 hr h
    simp only at v3 f3
    rw [e2]
    simp only [Option.bind_some]
    refine ⟨σ3, e3, ?_, ?_, ?_⟩
    · rw [f3 _ (Ne.symm he) (Ne.symm hl), v2, f1 _ (Ne.symm hr) he]
    · rw [v3, f2 _ hl hr, v1]
    · intro x h1 h2 h3
      rw [f3 x h2 h3, f2 x h1 h2, f1 x h3 h1]

/-- Elements initialised one by one, each with its own kind of expression. -/
def each : List Obj → List Nat → List Cat → Store → Option Store
  | t :: ts, s :: ss, c :: cs, σ => (construct t s c σ).bind (each ts ss cs)
  | [], [], [], σ => some σ
  | _, _, _, _ => none

theorem tuple_value_eq {dst : Obj} (src : Nat) (c : Cat) (σ : Store) (h : Plain dst.cls.ty) :
    tuple_value dst src c σ = construct dst src c σ := by
  unfold tuple_value
  have key : ∀ k, (do
      let k ← pass dst.cls.ty (k : Cand).par c
      construct dst src k σ) = (pass dst.cls.ty k.par c).bind fun k => construct dst src k σ := fun _ => rfl
  cases c
  · rw [show resolve _ _ = some ⟨.fwd, 2, false⟩ from rfl]
    simp only [Option.bind_eq_bind, Option.bind_some, pass_fwd h]
  · rw [show resolve _ _ = some ⟨.clref, 0, false⟩ from rfl]
    rfl
  · rw [show resolve _ _ = some ⟨.rref, 0, false⟩ from rfl]
    rfl

theorem tuple_values_eq (ts : List Obj) (ss : List Nat) (cs : List Cat) (σ : Store) (h : ∀ t ∈ ts, Plain t.cls.ty) :
    tuple_values ts ss cs σ = each ts ss cs σ := by
  induction ts generalizing ss cs σ with
  | nil => cases ss <;> cases cs <;> rfl
  | cons t ts ih =>
    cases ss with
    | nil => cases cs <;> rfl
    | cons s ss =>
      cases cs with
      | nil => rfl
      | cons c cs =>
        simp only [tuple_values, each, Option.bind_eq_bind]
        rw [tuple_value_eq s c σ (h t (List.mem_cons_self ..))]
        congr 1
        funext σ'
        exact ih ss cs σ' fun t ht => h t (List.mem_cons_of_mem _ ht)

theorem constructAll_eq (cat : Cat) (ts : List Obj) (ss : List Nat) (σ : Store) (h : ss.length = ts.length) :
    constructAll cat ts ss σ = each ts ss (List.replicate ts.length cat) σ := by
  induction ts generalizing ss σ with
  | nil => cases ss with
    | nil => rfl
    | cons _ _ => simp at h
  | cons t ts ih =>
    cases ss with
    | nil => simp at h
    | cons s ss =>
      simp only [constructAll, each, List.length_cons, List.replicate_succ, Option.bind_eq_bind]
      congr 1
      funext σ'
      exact ih ss σ' (by simpa using h)

theorem passAll_fwd (ts : List Obj) (cs : List Cat) (hl : cs.length = ts.length) (h : ∀ t ∈ ts, Plain t.cls.ty) :
    passAll .fwd ts cs = some cs := by
  induction ts generalizing cs with
  | nil => cases cs with
    | nil => rfl
    | cons _ _ => simp at hl
  | cons t ts ih =>
    cases cs with
    | nil => simp at hl
    | cons c cs =>
      simp only [passAll, pass_fwd (h t (List.mem_cons_self ..)),
        ih cs (by simpa using hl) fun t ht => h t (List.mem_cons_of_mem _ ht)]
      rfl

theorem passAll_clref (ts : List Obj) (cs : List Cat) (hl : cs.length = ts.length) :
    passAll .clref ts cs = some (List.replicate ts.length .clvalue) := by
  induction ts generalizing cs with
  | nil => cases cs with
    | nil => rfl
    | cons _ _ => simp at hl
  | cons t ts ih =>
    cases cs with
    | nil => simp at hl
    | cons c cs =>
      simp only [passAll, pass, ih cs (by simpa using hl)]
      rfl

theorem implViable_iff (ts : List Obj) (cs : List Cat) (h : ∀ t ∈ ts, Plain t.cls.ty) (hl : cs.length = ts.length) :
    implViable ts cs = true ↔ (∀ t ∈ ts.zip cs, t.2 ≠ .lvalue ∧ (t.2 = .xvalue → t.1.cls.copy = true ∨ t.1.cls.move = true)) := by
  simp only [implViable, hl, decide_true, Bool.true_and, List.all_eq_true]
  apply forall_congr'
  intro ⟨t, c⟩
  apply forall_congr'
  intro hm
  simp only
  rw [argFromElement_eq t.cls (h t (List.of_mem_zip hm).1) c]
  cases c <;> simp [Or.comm]

/-- The result of initialising a list of objects from separate objects. -/
theorem each_ok (ts : List Obj) (ss : List Nat) (cs : List Cat) (σ : Store)
    (hs : ss.length = ts.length) (hc : cs.length = ts.length)
    (hd : (ts.map Obj.addr).Nodup) (hn : ss.Nodup) (hdisj : ∀ t ∈ ts, t.addr ∉ ss)
    (hf : ∀ p ∈ ts.zip cs, Fits p.1.cls p.2) :
    ∃ σ', each ts ss cs σ = some σ' ∧
      (∀ (i : Nat) t s c, ts[i]? = some t → ss[i]? = some s → cs[i]? = some c →
        σ' t.addr = σ s ∧ σ' s = leaves t.cls c (σ s)) ∧
      ∀ x, x ∉ ts.map Obj.addr → x ∉ ss → σ' x = σ x := by
  induction ts generalizing ss cs σ with
  | nil =>
    cases ss with
    | cons _ _ => simp at hs
    | nil =>
      cases cs with
      | cons _ _ => simp at hc
      | nil => exact ⟨σ, rfl, by simp, fun _ _ _ => rfl⟩
  | cons t ts ih =>
    cases ss with
    | nil => simp at hs
    | cons s ss =>
      cases cs with
      | nil => simp at hc
      | cons c cs =>
        simp only [List.map_cons, List.nodup_cons] at hd hn
        have ht0 := hdisj t (List.mem_cons_self ..)
        simp only [List.mem_cons, not_or] at ht0
        obtain ⟨σ1, e1, v1, l1, f1⟩ := construct_ok (dst := t) (src := s) (c := c) σ (fun e => ht0.1 e.symm)
          (hf (t, c) (by simp))
        obtain ⟨σ2, e2, v2, f2⟩ := ih ss cs σ1 (by simpa using hs) (by simpa using hc) hd.2 hn.2
          (fun t' h' hin => hdisj t' (List.mem_cons_of_mem _ h') (List.mem_cons_of_mem _ hin))
          (fun p hp => hf p (by simp only [List.zip_cons_cons]; exact List.mem_cons_of_mem _ hp))
        have hsts : s ∉ ts.map Obj.addr := by
          intro hin
          obtain ⟨t', h1, h2⟩ := List.mem_map.1 hin
          exact hdisj t' (List.mem_cons_of_mem _ h1) (h2 ▸ List.mem_cons_self ..)
        refine ⟨σ2, ?_, ?_, ?_⟩
        · simp only [each, e1, Option.bind_some, e2]
        · intro i t' s' c' h1 h2 h3
          cases i with
          | zero =>
            simp only [List.getElem?_cons_zero, Option.some.injEq] at h1 h2 h3
            subst h1 h2 h3
            exact ⟨by rw [f2 _ hd.1 ht0.2, v1], by rw [f2 _ hsts hn.1, l1]⟩
          | succ i =>
            simp only [List.getElem?_cons_succ] at h1 h2 h3
            have hs' : s' ∈ ss := List.mem_of_getElem? h2
            have e : σ1 s' = σ s' := f1 s' (fun e => ht0.2 (e ▸ hs')) (fun e => hn.1 (e ▸ hs'))
            have := v2 i t' s' c' h1 h2 h3
            rw [e] at this
            exact this
        · intro x h1 h2
          simp only [List.map_cons, List.mem_cons, not_or] at h1 h2
          rw [f2 x h1.2 h2.2, f1 x h1.1 h2.1]

/-- The same when everything is copied; sources may coincide. -/
theorem each_copy (ts : List Obj) (ss : List Nat) (cs : List Cat) (σ : Store)
    (hs : ss.length = ts.length) (hc : cs.length = ts.length)
    (hd : (ts.map Obj.addr).Nodup) (hdisj : ∀ t ∈ ts, t.addr ∉ ss)
    (hcs : ∀ c ∈ cs, c ≠ .xvalue) (hf : ∀ t ∈ ts, t.cls.copy = true) :
    ∃ σ', each ts ss cs σ = some σ' ∧
      (∀ (i : Nat) t s, ts[i]? = some t → ss[i]? = some s → σ' t.addr = σ s) ∧
      ∀ x, x ∉ ts.map Obj.addr → σ' x = σ x := by
  induction ts generalizing ss cs σ with
  | nil =>
    cases ss with
    | cons _ _ => simp at hs
    | nil =>
      cases cs with
      | cons _ _ => simp at hc
      | nil => exact ⟨σ, rfl, by simp, fun _ _ => rfl⟩
  | cons t ts ih =>
    cases ss with
    | nil => simp at hs
    | cons s ss =>
      cases cs with
      | nil => simp at hc
      | cons c cs =>
        simp only [List.map_cons, List.nodup_cons] at hd
        have ht0 := hdisj t (List.mem_cons_self ..)
        simp only [List.mem_cons, not_or] at ht0
        have hcx : c ≠ .xvalue := hcs c (List.mem_cons_self ..)
        have e1 : construct t s c σ = some (set σ t.addr (σ s)) := by
          unfold construct
          rw [if_neg (by simp [hcx]), if_pos (hf t (List.mem_cons_self ..))]
        obtain ⟨σ2, e2, v2, f2⟩ := ih ss cs (set σ t.addr (σ s)) (by simpa using hs) (by simpa using hc) hd.2
          (fun t' h' hin => hdisj t' (List.mem_cons_of_mem _ h') (List.mem_cons_of_mem _ hin))
          (fun c hc => hcs c (List.mem_cons_of_mem _ hc)) (fun t ht => hf t (List.mem_cons_of_mem _ ht))
        refine ⟨σ2, ?_, ?_, ?_⟩
        · simp only [each, e1, Option.bind_some, e2]
        · intro i t' s' h1 h2
          cases i with
          | zero =>
            simp only [List.getElem?_cons_zero, Option.some.injEq] at h1 h2
            subst h1 h2
            rw [f2 _ hd.1, set_same]
          | succ i =>
            simp only [List.getElem?_cons_succ] at h1 h2
            rw [v2 i t' s' h1 h2]
            exact set_other _ _ fun e => ht0.2 (e ▸ List.mem_of_getElem? h2)
        · intro x h1
          simp only [List.map_cons, List.mem_cons, not_or] at h1
          rw [f2 x h1.2]
          exact set_other _ _ h1.1

theorem each_none (ts : List Obj) (ss : List Nat) (cs : List Cat) (σ : Store)
    (p : Obj × Cat) (hp : p ∈ ts.zip cs) (hf : ¬ Fits p.1.cls p.2) : each ts ss cs σ = none := by
  induction ts generalizing ss cs σ with
  | nil => simp at hp
  | cons t ts ih =>
    cases cs with
    | nil => simp at hp
    | cons c cs =>
      cases ss with
      | nil => rfl
      | cons s ss =>
        simp only [each]
        simp only [List.zip_cons_cons, List.mem_cons] at hp
        cases hp with
        | inl h =>
          subst h
          rw [construct_none σ hf]; rfl
        | inr h =>
          cases construct t s c σ with
          | none => rfl
          | some σ' => exact ih ss cs σ' h

theorem swapAll_ok (tmp : Nat) (ls : List Obj) (rs : List Nat) (σ : Store) (hs : rs.length = ls.length)
    (hl : (ls.map Obj.addr).Nodup) (hr : rs.Nodup)
    (hov : ∀ (i j : Nat) (a : Nat), (ls.map Obj.addr)[i]? = some a → rs[j]? = some a → i = j)
    (ht : tmp ∉ ls.map Obj.addr) (ht' : tmp ∉ rs) (hf : ∀ t ∈ ls, Fits t.cls .xvalue) :
    ∃ σ', swapAll tmp ls rs σ = some σ' ∧
      (∀ (i : Nat) l r, ls[i]? = some l → rs[i]? = some r → σ' l.addr = σ r ∧ σ' r = σ l.addr) ∧
      ∀ x, x ∉ ls.map Obj.addr → x ∉ rs → x ≠ tmp → σ' x = σ x := by
  induction ls generalizing rs σ with
  | nil =>
    cases rs with
    | cons _ _ => simp at hs
    | nil => exact ⟨σ, rfl, by simp, fun _ _ _ _ => rfl⟩
  | cons l ls ih =>
    cases rs with
    | nil => simp at hs
    | cons r rs =>
      simp only [List.map_cons, List.nodup_cons, List.mem_cons, not_or] at hl hr ht ht'
      obtain ⟨σ1, e1, a1, b1, f1⟩ := swap_ok (l := l) (r := r) σ (hf l (List.mem_cons_self ..)) ht.1 ht'.1
      obtain ⟨σ2, e2, v2, f2⟩ := ih rs σ1 (by simpa using hs) hl.2 hr.2
        (fun i j a h1 h2 => by
          have := hov (i + 1) (j + 1) a (by simpa using h1) (by simpa using h2)
          omega) ht.2 ht'.2 (fun t h => hf t (List.mem_cons_of_mem _ h))
      have hlr : l.addr ∉ rs := fun hin => by
        obtain ⟨j, hj⟩ := List.mem_iff_getElem?.1 hin
        have := hov 0 (j + 1) l.addr (by simp) (by simpa using hj)
        omega
      have hrl : r ∉ ls.map Obj.addr := fun hin => by
        obtain ⟨j, hj⟩ := List.mem_iff_getElem?.1 hin
        have := hov (j + 1) 0 r (by simpa using hj) (by simp)
        omega
      refine ⟨σ2, ?_, ?_, ?_⟩
      · simp only [swapAll, e1, Option.bind_eq_bind, Option.bind_some, e2]
      · intro i l' r' h1 h2
        cases i with
        | zero =>
          simp only [List.getElem?_cons_zero, Option.some.injEq] at h1 h2
          subst h1 h2
          exact ⟨by rw [f2 _ hl.1 hlr (Ne.symm ht.1), a1], by rw [f2 _ hrl hr.1 (Ne.symm ht'.1), b1]⟩
        | succ i =>
          simp only [List.getElem?_cons_succ] at h1 h2
          have hr' : r' ∈ rs := List.mem_of_getElem? h2
          have hl' : l'.addr ∈ ls.map Obj.addr := List.mem_map_of_mem (List.mem_of_getElem? h1)
          have := v2 i l' r' h1 h2
          rw [f1 r' (fun e => hlr (e ▸ hr')) (fun e => hr.1 (e ▸ hr')) (fun e => ht'.2 (e ▸ hr')),
            f1 l'.addr (fun e => hl.1 (e ▸ hl')) (fun e => hrl (e ▸ hl')) (fun e => ht.2 (e ▸ hl'))] at this
          exact this
      · intro x h1 h2 h3
        simp only [List.map_cons, List.mem_cons, not_or] at h1 h2
        rw [f2 x h1.2 h2.2 h3, f1 x h1.1 h2.1 h3]

end Verif.Value
