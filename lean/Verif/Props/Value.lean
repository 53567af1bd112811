import Verif.Lemmas.Value

set_option backward.isDefEq.respectTransparency false

/-!
C97: pairs and tuples are values. Making one from expressions, from another one, or assigning it, treats each element as
the element type itself would be treated: copied from an lvalue, moved from an rvalue; `swap` exchanges the elements.
-/

namespace Verif.Value

open Verif.Cxx

/-- The elements of one object, those of another (or the arguments) and where they lie: as many of each, all different. -/
structure Apart (ts : List Obj) (ss : List Nat) : Prop where
  len : ss.length = ts.length
  dst : (ts.map Obj.addr).Nodup
  src : ss.Nodup
  sep : ∀ t ∈ ts, t.addr ∉ ss

/-- What is expected of an initialisation: every element has the value of its source, a source that was an rvalue is
left as a move leaves it, other objects keep their values. -/
structure Initialised (ts : List Obj) (ss : List Nat) (cs : List Cat) (σ σ' : Store) : Prop where
  values : ∀ (i : Nat) t s c, ts[i]? = some t → ss[i]? = some s → cs[i]? = some c →
    σ' t.addr = σ s ∧ σ' s = if c = .xvalue ∧ t.cls.move = true then t.cls.left (σ s) else σ s
  frame : ∀ x, x ∉ ts.map Obj.addr → x ∉ ss → σ' x = σ x

/-- Classes for the examples: copied or moved, when zero is left; moved only; a number, for which moving is copying. -/
def copyable : Cls := ⟨.base false false (.cls 0), true, true, fun _ => 0, fun v => v⟩
def moveOnly : Cls := ⟨.base false false (.cls 1), false, true, fun _ => 0, fun _ => 0⟩
def number : Cls := ⟨.base false false .int, true, false, fun v => v, fun v => v⟩

theorem resolve_single (cs : List Cat) : resolve [⟨.clref, 0, false⟩] cs = some ⟨.clref, 0, false⟩ := by
  have h : (cs.all fun k => (rank .clref k).isSome) = true := by
    rw [List.all_eq_true]; intro k _; cases k <;> rfl
  simp [resolve, h]

theorem resolve_two (cs : List Cat) : resolve [⟨.clref, 0, false⟩, ⟨.fwd, 2, false⟩] cs =
    some (if cs.all (· = .clvalue) then ⟨.clref, 0, false⟩ else ⟨.fwd, 2, false⟩) := by
  have h : (cs.all fun k => (rank .clref k).isSome) = true := by
    rw [List.all_eq_true]; intro k _; cases k <;> rfl
  have h' : (cs.all fun k => (rank .fwd k).isSome) = true := by
    rw [List.all_eq_true]; intro k _; cases k <;> rfl
  by_cases ha : cs.all (· = .clvalue) = true
  · have b1 : better cs ⟨.clref, 0, false⟩ ⟨.fwd, 2, false⟩ = true := by
      simp only [better, Bool.and_eq_true, List.all_eq_true, decide_eq_true_eq] at ha ⊢
      refine ⟨fun c hc => ?_, by simp⟩
      rw [ha c hc]; decide
    have b2 : better cs ⟨.fwd, 2, false⟩ ⟨.clref, 0, false⟩ = false := by
      simp only [better, Bool.and_eq_false_iff, Bool.or_eq_false_iff]
      refine .inr ⟨?_, by decide⟩
      rw [List.any_eq_false]
      intro c hc
      simp only [List.all_eq_true, decide_eq_true_eq] at ha
      rw [ha c hc]; decide
    simp [resolve, h, h', b1, b2, ha]
  · have ⟨c, hc, hne⟩ : ∃ c ∈ cs, c ≠ .clvalue := by
      simpa using ha
    have r1 : (rank .clref c).getD 9 = 1 := by cases c <;> first | rfl | exact absurd rfl hne
    have b1 : better cs ⟨.clref, 0, false⟩ ⟨.fwd, 2, false⟩ = false := by
      simp only [better, Bool.and_eq_false_iff]
      refine .inl ?_
      rw [List.all_eq_false]
      exact ⟨c, hc, by rw [r1]; cases c <;> decide⟩
    have b2 : better cs ⟨.fwd, 2, false⟩ ⟨.clref, 0, false⟩ = true := by
      simp only [better, Bool.and_eq_true, List.all_eq_true, Bool.or_eq_true, List.any_eq_true]
      refine ⟨fun k _ => by cases k <;> decide, .inl ⟨c, hc, by rw [r1]; cases c <;> decide⟩⟩
    simp [resolve, h, h', b1, b2, ha]

theorem zip_replicate_mem {ts : List Obj} {c : Cat} {p : Obj × Cat}
    (h : p ∈ ts.zip (List.replicate ts.length c)) : p.1 ∈ ts ∧ p.2 = c := by
  have := List.of_mem_zip h
  exact ⟨this.1, (List.mem_replicate.1 this.2).2⟩

theorem tuple_impl_eq {ts : List Obj} {ss : List Nat} {cs : List Cat} (σ : Store) (hp : ∀ t ∈ ts, Plain t.cls.ty)
    (hc : cs.length = ts.length) (hv : implViable ts cs = true) : tuple_impl ts ss cs σ = each ts ss cs σ := by
  unfold tuple_impl
  rw [if_pos hv, passAll_fwd ts cs hc hp]
  exact tuple_values_eq ts ss cs σ hp

theorem viable_const (ts : List Obj) (hp : ∀ t ∈ ts, Plain t.cls.ty) :
    implViable ts (List.replicate ts.length .clvalue) = true := by
  rw [implViable_iff ts _ hp (by simp)]
  intro p h
  obtain ⟨_, h2⟩ := zip_replicate_mem h
  rw [h2]
  exact ⟨by decide, fun h => by cases h⟩

theorem tuple_make_viable {ts : List Obj} {ss : List Nat} {cs : List Cat} (σ : Store) (hn : ts ≠ [])
    (hp : ∀ t ∈ ts, Plain t.cls.ty) (hc : cs.length = ts.length) (hv : implViable ts cs = true) :
    tuple_make ts ss cs σ = each ts ss cs σ := by
  unfold tuple_make
  have he : ts.isEmpty = false := by cases ts <;> first | rfl | exact absurd rfl hn
  simp only [he, hv, if_true, resolve_two]
  by_cases ha : cs.all (· = .clvalue) = true
  · have hr : cs = List.replicate ts.length .clvalue := by
      rw [List.eq_replicate_iff]
      exact ⟨hc, by simpa using ha⟩
    simp only [ha, if_true, Option.bind_eq_bind, Option.bind_some, passAll_clref ts cs hc]
    rw [← hr]
    exact tuple_impl_eq σ hp hc hv
  · simp only [ha, Bool.false_eq_true, if_false, Option.bind_eq_bind, Option.bind_some, passAll_fwd ts cs hc hp]
    exact tuple_impl_eq σ hp hc hv

theorem tuple_make_fallback {ts : List Obj} {ss : List Nat} {cs : List Cat} (σ : Store) (hn : ts ≠ [])
    (hp : ∀ t ∈ ts, Plain t.cls.ty) (hc : cs.length = ts.length) (hv : implViable ts cs = false) :
    tuple_make ts ss cs σ = each ts ss (List.replicate ts.length .clvalue) σ := by
  unfold tuple_make
  have he : ts.isEmpty = false := by cases ts <;> first | rfl | exact absurd rfl hn
  simp only [he, hv, Bool.false_eq_true, if_false, resolve_single, Option.bind_eq_bind, Option.bind_some, passAll_clref ts cs hc]
  exact tuple_impl_eq σ hp (by simp) (viable_const ts hp)

theorem initialised_of_each {ts : List Obj} {ss : List Nat} {cs : List Cat} {σ : Store} (ha : Apart ts ss)
    (hc : cs.length = ts.length) (hf : ∀ p ∈ ts.zip cs, Fits p.1.cls p.2) :
    ∃ σ', each ts ss cs σ = some σ' ∧ Initialised ts ss cs σ σ' := by
  obtain ⟨σ', e, v, f⟩ := each_ok ts ss cs σ ha.len hc ha.dst ha.src ha.sep hf
  exact ⟨σ', e, v, f⟩

/-- C97, part: a tuple made from expressions of the types of its elements, none of them a modifiable lvalue or none of them
an rvalue, has their values; lvalues are copied and rvalues moved. -/
theorem C97_tuple_make_partial (ts : List Obj) (ss : List Nat) (cs : List Cat) (σ : Store) (hn : ts ≠ [])
    (hp : ∀ t ∈ ts, Plain t.cls.ty) (ha : Apart ts ss) (hc : cs.length = ts.length)
    (hf : ∀ p ∈ ts.zip cs, p.1.cls.copy = true ∨ (p.2 = .xvalue ∧ p.1.cls.move = true))
    (hk : .lvalue ∉ cs ∨ .xvalue ∉ cs) :
    ∃ σ', tuple_make ts ss cs σ = some σ' ∧ Initialised ts ss cs σ σ' := by
  cases hv : implViable ts cs with
  | true =>
    rw [tuple_make_viable σ hn hp hc hv]
    exact initialised_of_each ha hc hf
  | false =>
    rw [tuple_make_fallback σ hn hp hc hv]
    have hx : .xvalue ∉ cs := by
      cases hk with
      | inr h => exact h
      | inl h =>
        exfalso
        have : implViable ts cs = true := by
          rw [implViable_iff ts cs hp hc]
          intro p hm
          refine ⟨fun e => h (e ▸ (List.of_mem_zip hm).2), fun e => ?_⟩
          cases hf p hm with
          | inl h => exact .inl h
          | inr h => exact .inr h.2
        rw [this] at hv; cases hv
    have hcopy : ∀ t ∈ ts, t.cls.copy = true := by
      intro t ht
      obtain ⟨i, hi⟩ := List.mem_iff_getElem?.1 ht
      have hlt : i < cs.length := by
        rw [hc]; exact (List.getElem?_eq_some_iff.1 hi).1
      have hm : (t, cs[i]) ∈ ts.zip cs := by
        apply List.mem_iff_getElem?.2
        exact ⟨i, by rw [List.getElem?_zip_eq_some]; exact ⟨hi, by simp [hlt]⟩⟩
      cases hf _ hm with
      | inl h => exact h
      | inr h => exact absurd (h.1 ▸ List.getElem_mem hlt) hx
    obtain ⟨σ', e, v⟩ := initialised_of_each (σ := σ) (cs := List.replicate ts.length .clvalue) ha (by simp)
      (fun p hm => .inl (hcopy p.1 (zip_replicate_mem hm).1))
    refine ⟨σ', e, ?_, v.frame⟩
    intro i t s c h1 h2 h3
    have hlt := (List.getElem?_eq_some_iff.1 h1).1
    have := v.values i t s .clvalue h1 h2 (by simp [List.getElem?_replicate, hlt])
    have hcx : c ≠ .xvalue := fun e => hx (e ▸ List.mem_of_getElem? h3)
    rw [if_neg (by simp)] at this
    rw [if_neg (by simp [hcx])]
    exact this

example : Apart [⟨moveOnly, 10⟩, ⟨copyable, 11⟩] [20, 21] ∧
    (tuple_make [⟨moveOnly, 10⟩, ⟨copyable, 11⟩] [20, 21] [.xvalue, .clvalue] fun a => a).map
      (fun σ => [σ 10, σ 11, σ 20, σ 21]) = some [20, 21, 0, 21] :=
  ⟨⟨rfl, by decide, by decide, by decide⟩, rfl⟩

/-- C97 fails for a tuple made from expressions of which one is a modifiable lvalue: then the others are copied too, also those
that are rvalues and should be moved, and if one of the types cannot be copied, the program is ill-formed. (The condition of the
constructor asks `is_constructible<Arg, T>` with the arguments exchanged.) -/
theorem C97_tuple_make_violated (ts : List Obj) (ss : List Nat) (cs : List Cat) (σ : Store)
    (hp : ∀ t ∈ ts, Plain t.cls.ty) (ha : Apart ts ss) (hc : cs.length = ts.length) (hl : .lvalue ∈ cs) :
    ((∀ t ∈ ts, t.cls.copy = true) → ∃ σ', tuple_make ts ss cs σ = some σ' ∧ ∀ s ∈ ss, σ' s = σ s) ∧
    ((∃ t ∈ ts, t.cls.copy = false) → tuple_make ts ss cs σ = none) := by
  have hn : ts ≠ [] := by
    intro e; subst e
    cases cs with
    | nil => simp at hl
    | cons _ _ => simp at hc
  have hv : implViable ts cs = false := by
    rw [Bool.eq_false_iff]
    intro h
    rw [implViable_iff ts cs hp hc] at h
    obtain ⟨i, hi⟩ := List.mem_iff_getElem?.1 hl
    have hlt : i < ts.length := by
      rw [← hc]; exact (List.getElem?_eq_some_iff.1 hi).1
    have hm : (ts[i], .lvalue) ∈ ts.zip cs := by
      apply List.mem_iff_getElem?.2
      exact ⟨i, by rw [List.getElem?_zip_eq_some]; exact ⟨by simp [hlt], hi⟩⟩
    exact (h _ hm).1 rfl
  rw [tuple_make_fallback σ hn hp hc hv]
  constructor
  · intro hcopy
    obtain ⟨σ', e, v⟩ := initialised_of_each (σ := σ) (cs := List.replicate ts.length .clvalue) ha (by simp)
      (fun p hm => .inl (hcopy p.1 (zip_replicate_mem hm).1))
    refine ⟨σ', e, fun s hs => ?_⟩
    obtain ⟨i, hi⟩ := List.mem_iff_getElem?.1 hs
    have hlt : i < ts.length := by
      rw [← ha.len]; exact (List.getElem?_eq_some_iff.1 hi).1
    have := (v.values i ts[i] s .clvalue (by simp [hlt]) hi (by simp [List.getElem?_replicate, hlt])).2
    rw [if_neg (by simp)] at this
    exact this
  · intro ⟨t, ht, hcp⟩
    obtain ⟨i, hi⟩ := List.mem_iff_getElem?.1 ht
    have hlt := (List.getElem?_eq_some_iff.1 hi).1
    refine each_none ts ss _ σ (t, .clvalue) ?_ ?_
    · apply List.mem_iff_getElem?.2
      exact ⟨i, by rw [List.getElem?_zip_eq_some]; exact ⟨hi, by simp [List.getElem?_replicate, hlt]⟩⟩
    · intro h
      cases h with
      | inl h => rw [hcp] at h; cases h
      | inr h => cases h.1

/-- `tuple<T, int>(move(x), n)` copies `x`. With `n` constant it is moved. -/
example : (tuple_make [⟨copyable, 10⟩, ⟨number, 11⟩] [20, 21] [.xvalue, .lvalue] fun a => a).map
      (fun σ => [σ 10, σ 11, σ 20, σ 21]) = some [20, 21, 20, 21] ∧
    (tuple_make [⟨copyable, 10⟩, ⟨number, 11⟩] [20, 21] [.xvalue, .clvalue] fun a => a).map
      (fun σ => [σ 10, σ 11, σ 20, σ 21]) = some [20, 21, 0, 21] ∧
    tuple_make [⟨moveOnly, 10⟩, ⟨number, 11⟩] [20, 21] [.xvalue, .lvalue] (fun a => a) = none :=
  ⟨rfl, rfl, rfl⟩

theorem tuple_from_eq (ts : List Obj) (ss : List Nat) (cat : Cat) (σ : Store) :
    tuple_from ts ss cat σ = constructAll (if cat = .xvalue then .xvalue else .clvalue) ts ss σ := by
  cases cat <;> rfl

/-- C97: a tuple made from another tuple of the same type copies all elements of an lvalue and moves all elements of an
rvalue. -/
theorem C97_tuple_from (ts : List Obj) (ss : List Nat) (cat : Cat) (σ : Store) (ha : Apart ts ss)
    (hf : ∀ t ∈ ts, t.cls.copy = true ∨ (cat = .xvalue ∧ t.cls.move = true)) :
    ∃ σ', tuple_from ts ss cat σ = some σ' ∧ Initialised ts ss (List.replicate ts.length cat) σ σ' := by
  rw [tuple_from_eq, constructAll_eq _ _ _ _ ha.len]
  obtain ⟨σ', e, v⟩ := initialised_of_each (σ := σ)
    (cs := List.replicate ts.length (if cat = .xvalue then .xvalue else .clvalue)) ha (by simp) (fun p hm => by
      obtain ⟨h1, h2⟩ := zip_replicate_mem hm
      cases hf p.1 h1 with
      | inl h => exact .inl h
      | inr h => rw [h2, if_pos h.1]; exact .inr ⟨rfl, h.2⟩)
  refine ⟨σ', e, ?_, v.frame⟩
  intro i t s c h1 h2 h3
  have hlt := (List.getElem?_eq_some_iff.1 h1).1
  have := v.values i t s (if cat = .xvalue then .xvalue else .clvalue) h1 h2 (by simp [List.getElem?_replicate, hlt])
  have hcc : c = cat := (List.mem_replicate.1 (List.mem_of_getElem? h3)).2
  subst hcc
  cases c <;> exact this

example : (tuple_from [⟨moveOnly, 10⟩, ⟨copyable, 11⟩] [20, 21] .xvalue fun a => a).map
      (fun σ => [σ 10, σ 11, σ 20, σ 21]) = some [20, 21, 0, 0] ∧
    tuple_from [⟨moveOnly, 10⟩] [20] .lvalue (fun a => a) = none := ⟨rfl, rfl⟩

/-- C97: swapping two tuples (or pairs, by `swapAll`) exchanges all elements, also when both are the same object. -/
theorem C97_swap (tmp : Nat) (ls : List Obj) (rs : List Nat) (σ : Store) (hs : rs.length = ls.length)
    (hl : (ls.map Obj.addr).Nodup) (hr : rs.Nodup) (hov : ls.map Obj.addr = rs ∨ ∀ l ∈ ls, l.addr ∉ rs)
    (ht : tmp ∉ ls.map Obj.addr) (ht' : tmp ∉ rs) (hf : ∀ t ∈ ls, t.cls.copy = true ∨ t.cls.move = true) :
    ∃ σ', swapAll tmp ls rs σ = some σ' ∧
      (∀ (i : Nat) l r, ls[i]? = some l → rs[i]? = some r → σ' l.addr = σ r ∧ σ' r = σ l.addr) ∧
      ∀ x, x ∉ ls.map Obj.addr → x ∉ rs → x ≠ tmp → σ' x = σ x := by
  refine swapAll_ok tmp ls rs σ hs hl hr ?_ ht ht' (fun t h => (hf t h).imp_right fun h => ⟨rfl, h⟩)
  intro i j a h1 h2
  cases hov with
  | inl h =>
    subst h
    exact (List.getElem?_inj (List.getElem?_eq_some_iff.1 h1).1 hl).1 (h1.trans h2.symm)
  | inr h =>
    obtain ⟨l, hl, e⟩ := List.mem_map.1 (List.mem_of_getElem? h1)
    exact absurd (e ▸ List.mem_of_getElem? h2) (h l hl)

example : (swapAll 99 [⟨moveOnly, 10⟩, ⟨copyable, 11⟩] [10, 11] fun a => a).map (fun σ => [σ 10, σ 11]) = some [10, 11] ∧
    (swapAll 99 [⟨moveOnly, 10⟩, ⟨copyable, 11⟩] [20, 21] fun a => a).map (fun σ => [σ 10, σ 11, σ 20, σ 21]) =
      some [20, 21, 10, 11] := ⟨rfl, rfl⟩

theorem at'_addr (ts : List Obj) (as : List Nat) (h : as.length = ts.length) : (at' ts as).map Obj.addr = as := by
  induction ts generalizing as with
  | nil => cases as with
    | nil => rfl
    | cons _ _ => simp at h
  | cons t ts ih => cases as with
    | nil => simp at h
    | cons a as => simp only [at', List.zipWith_cons_cons, List.map_cons]; exact congrArg _ (ih as (by simpa using h))

theorem at'_get {ts : List Obj} {as : List Nat} (i : Nat) {t : Obj} {a : Nat} (h1 : ts[i]? = some t) (h2 : as[i]? = some a) :
    (at' ts as)[i]? = some ⟨t.cls, a⟩ := by
  simp [at', List.getElem?_zipWith, h1, h2]

theorem at'_cls {ts : List Obj} {as : List Nat} {x : Obj} (h : x ∈ at' ts as) : ∃ t ∈ ts, x.cls = t.cls := by
  obtain ⟨i, hi⟩ := List.mem_iff_getElem?.1 h
  simp only [at', List.getElem?_zipWith] at hi
  cases h1 : ts[i]? with
  | none => simp [h1] at hi
  | some t =>
    cases h2 : as[i]? with
    | none => simp [h1, h2] at hi
    | some a =>
      simp only [h1, h2, Option.some.injEq] at hi
      exact ⟨t, List.mem_of_getElem? h1, by rw [← hi]⟩

/-- C97: assigning a tuple gives every element the value its counterpart had; the source keeps its values if it is an lvalue, and
is left as a move leaves it if it is an rvalue. Assigning a tuple to itself, even moved, changes nothing. Nothing else but the
temporaries (`tmps`, `tmp`, dead afterwards) changes. -/
theorem C97_tuple_assign (ts : List Obj) (ss : List Nat) (cat : Cat) (tmps : List Nat) (tmp : Nat) (σ : Store)
    (hs : ss.length = ts.length) (hl : tmps.length = ts.length)
    (hd : (ts.map Obj.addr).Nodup) (hn : ss.Nodup) (htn : tmps.Nodup)
    (hov : ts.map Obj.addr = ss ∨ ∀ t ∈ ts, t.addr ∉ ss)
    (htt : ∀ t ∈ ts, t.addr ∉ tmps) (hts : ∀ s ∈ ss, s ∉ tmps)
    (h0 : tmp ∉ tmps) (h1 : tmp ∉ ts.map Obj.addr)
    (hf : ∀ t ∈ ts, t.cls.copy = true ∨ (cat = .xvalue ∧ t.cls.move = true)) :
    ∃ σ', tuple_assign ts ss cat tmps tmp σ = some σ' ∧
      (∀ (i : Nat) t s, ts[i]? = some t → ss[i]? = some s → σ' t.addr = σ s ∧
        (s ≠ t.addr → s ≠ tmp → σ' s = if cat = .xvalue ∧ t.cls.move = true then t.cls.left (σ s) else σ s)) ∧
      ∀ x, x ∉ ts.map Obj.addr → x ∉ ss → x ∉ tmps → x ≠ tmp → σ' x = σ x := by
  have haddr := at'_addr ts tmps hl
  have hlen : (at' ts tmps).length = ts.length := by simp [at', hl]
  obtain ⟨σ1, e1, v1⟩ := C97_tuple_from (at' ts tmps) ss cat σ
    ⟨by rw [hlen, hs], by rw [haddr]; exact htn, hn, fun t ht hin => by
      have : t.addr ∈ tmps := haddr ▸ List.mem_map_of_mem ht
      exact hts _ hin this⟩
    (fun t ht => by obtain ⟨t', h, e⟩ := at'_cls ht; rw [e]; exact hf t' h)
  obtain ⟨σ2, e2, v2, f2⟩ := C97_swap tmp (at' ts tmps) (ts.map Obj.addr) σ1 (by simp [hlen])
    (by rw [haddr]; exact htn) hd
    (.inr fun t ht hin => by
      have h : t.addr ∈ tmps := haddr ▸ List.mem_map_of_mem ht
      obtain ⟨t', h1, h2⟩ := List.mem_map.1 hin
      exact htt t' h1 (h2 ▸ h))
    (by rw [haddr]; exact h0) h1
    (fun t ht => by obtain ⟨t', h, e⟩ := at'_cls ht; rw [e]; exact (hf t' h).imp_right And.right)
  rw [haddr] at f2
  refine ⟨σ2, ?_, ?_, ?_⟩
  · unfold tuple_assign
    have : ∀ c, tuple_from (at' ts tmps) ss (if c = Cat.xvalue then .xvalue else .clvalue) σ =
        tuple_from (at' ts tmps) ss c σ := by
      intro c; cases c <;> rfl
    have hr : (resolve [⟨.clref, 0, false⟩, ⟨.rref, 0, false⟩] [cat]).map (fun c => part c.par) =
        some (if cat = .xvalue then .xvalue else .clvalue) := by cases cat <;> rfl
    cases hres : resolve [⟨.clref, 0, false⟩, ⟨.rref, 0, false⟩] [cat] with
    | none => rw [hres] at hr; cases hr
    | some c =>
      rw [hres] at hr
      simp only [Option.map_some, Option.some.injEq] at hr
      simp only [Option.bind_eq_bind, Option.bind_some]
      rw [hr, this, e1]
      exact e2
  · intro i t s hti hsi
    have hlt : i < tmps.length := by rw [hl]; exact (List.getElem?_eq_some_iff.1 hti).1
    have hai : tmps[i]? = some tmps[i] := by simp [hlt]
    have hat := at'_get i hti hai
    have a := v1.values i _ s cat hat hsi (by rw [hlen]; simp [List.getElem?_replicate, ← hl, hlt])
    have b := v2 i _ t.addr hat (by simp [hti])
    refine ⟨by rw [b.2]; exact a.1, fun hne hst => ?_⟩
    have hsmem := List.mem_of_getElem? hsi
    have hsd : s ∉ ts.map Obj.addr := by
      cases hov with
      | inl h =>
        exfalso
        rw [← h, List.getElem?_map, hti] at hsi
        simp only [Option.map_some, Option.some.injEq] at hsi
        exact hne hsi.symm
      | inr h =>
        intro hin
        obtain ⟨t', h1, h2⟩ := List.mem_map.1 hin
        exact h t' h1 (h2 ▸ hsmem)
    rw [f2 s (hts s hsmem) hsd hst]
    exact a.2
  · intro x h1 h2 h3 h4
    rw [f2 x h3 h1 h4]
    exact v1.frame x (by rw [haddr]; exact h3) h2

/-- Moving a tuple into another, and into itself. -/
example : (tuple_assign [⟨moveOnly, 10⟩, ⟨copyable, 11⟩] [20, 21] .xvalue [30, 31] 99 fun a => a).map
      (fun σ => [σ 10, σ 11, σ 20, σ 21]) = some [20, 21, 0, 0] ∧
    (tuple_assign [⟨moveOnly, 10⟩, ⟨copyable, 11⟩] [10, 11] .xvalue [30, 31] 99 fun a => a).map
      (fun σ => [σ 10, σ 11]) = some [10, 11] := ⟨rfl, rfl⟩

theorem tupleElement_lref (t : Ty) : tupleElement (.lref t) = false := by
  simp [tupleElement, add_const, Ty.mkConst, Ty.mkLref, Ty.mkRref]

theorem tupleElement_plain {t : Ty} (h : Plain t) : tupleElement t = true := by
  cases t <;> simp only [Plain] at h
  case base a v b =>
    obtain ⟨rfl, rfl, h⟩ := h
    cases b <;> first | rfl | exact absurd rfl h
  case ptr a v u =>
    obtain ⟨rfl, rfl⟩ := h
    simp [tupleElement, add_const, Ty.mkConst, Ty.mkLref, Ty.mkRref, Ty.void, Ty.abominable, is_array, is_function]
  case mem a v u k =>
    obtain ⟨rfl, rfl⟩ := h
    simp [tupleElement, add_const, Ty.mkConst, Ty.mkLref, Ty.mkRref, Ty.void, Ty.abominable, is_array, is_function]

/-- C97 fails for `make_tuple` with an lvalue among the arguments, or with no arguments: for all types the call is
ill-formed. (The element type is `T&` then, for which two constructors of `tuple_value` have the same parameters.) -/
theorem C97_make_tuple_violated (args : List Ty) (h : args = [] ∨ ∃ t, .lref t ∈ args) : make_tuple_type args = none := by
  cases h with
  | inl h => subst h; rfl
  | inr h =>
    obtain ⟨t, ht⟩ := h
    unfold make_tuple_type
    split
    · rfl
    · rw [if_neg]
      intro hall
      have := List.all_eq_true.1 hall _ ht
      rw [tupleElement_lref] at this
      cases this

/-- The same for the call: nothing is made from any lvalue. -/
theorem C97_make_tuple_violated_call (ts : List Obj) (ss : List Nat) (cs : List Cat) (σ : Store)
    (hc : cs.length = ts.length) (h : ∃ c ∈ cs, c ≠ .xvalue) : make_tuple ts ss cs σ = none := by
  obtain ⟨c, hm, hne⟩ := h
  obtain ⟨i, hi⟩ := List.mem_iff_getElem?.1 hm
  have hlt : i < ts.length := by rw [← hc]; exact (List.getElem?_eq_some_iff.1 hi).1
  have : make_tuple_type (List.zipWith (fun t c => deduce t.cls.ty c) ts cs) = none := by
    apply C97_make_tuple_violated
    right
    have hd : ∃ u, deduce ts[i].cls.ty c = .lref u := by
      cases c with
      | lvalue => exact ⟨_, rfl⟩
      | clvalue => exact ⟨_, rfl⟩
      | xvalue => exact absurd rfl hne
    obtain ⟨u, hu⟩ := hd
    refine ⟨u, List.mem_iff_getElem?.2 ⟨i, ?_⟩⟩
    simp [List.getElem?_zipWith, hi, hlt, hu]
  unfold make_tuple
  rw [this]
  rfl

example : make_tuple [⟨number, 10⟩] [20] [.lvalue] (fun a => a) = none := rfl

/-- C97, part: `make_tuple` of rvalues makes a tuple of their types that takes their values and moves them. -/
theorem C97_make_tuple_partial (ts : List Obj) (ss : List Nat) (σ : Store) (hn : ts ≠ [])
    (hp : ∀ t ∈ ts, Plain t.cls.ty) (ha : Apart ts ss) (hf : ∀ t ∈ ts, t.cls.copy = true ∨ t.cls.move = true) :
    make_tuple_type (ts.map fun t => deduce t.cls.ty .xvalue) = some (ts.map fun t => t.cls.ty) ∧
    ∃ σ', make_tuple ts ss (List.replicate ts.length .xvalue) σ = some σ' ∧
      Initialised ts ss (List.replicate ts.length .xvalue) σ σ' := by
  have hty : make_tuple_type (ts.map fun t => deduce t.cls.ty .xvalue) = some (ts.map fun t => t.cls.ty) := by
    unfold make_tuple_type
    rw [if_neg (by simpa using hn), if_pos]
    · rfl
    · simp only [List.all_map, List.all_eq_true, Function.comp]
      intro t ht
      exact tupleElement_plain (hp t ht)
  refine ⟨hty, ?_⟩
  have hz : List.zipWith (fun t c => deduce (Obj.cls t).ty c) ts (List.replicate ts.length .xvalue) =
      ts.map fun t => deduce t.cls.ty .xvalue := by
    clear hty hf ha hp hn
    induction ts with
    | nil => rfl
    | cons t ts ih => simp only [List.length_cons, List.replicate_succ, List.zipWith_cons_cons, List.map_cons, ih]
  unfold make_tuple
  simp only [hz, hty, Option.bind_eq_bind, Option.bind_some, passAll_fwd ts _ List.length_replicate hp]
  refine C97_tuple_make_partial ts ss _ σ hn hp ha List.length_replicate ?_ (.inl ?_)
  · intro p hm
    obtain ⟨h1, h2⟩ := zip_replicate_mem hm
    exact (hf p.1 h1).imp_right fun h => ⟨h2, h⟩
  · intro h
    cases (List.mem_replicate.1 h).2

example : (make_tuple [⟨moveOnly, 10⟩, ⟨copyable, 11⟩] [20, 21] [.xvalue, .xvalue] fun a => a).map
      (fun σ => [σ 10, σ 11, σ 20, σ 21]) = some [20, 21, 0, 0] := rfl

theorem decay_deduce {t : Ty} (h : Plain t) (c : Cat) : decay (deduce t c) = some t := by
  cases t <;> simp only [Plain] at h
  case base a v b =>
    obtain ⟨rfl, rfl, h⟩ := h
    cases c <;> rfl
  case ptr a v u =>
    obtain ⟨rfl, rfl⟩ := h
    cases c <;> rfl
  case mem a v u k =>
    obtain ⟨rfl, rfl⟩ := h
    cases c <;> rfl

theorem make_pair_eq (f s : Obj) (a b : Nat) (ca cb : Cat) (σ : Store) (hf : Plain f.cls.ty) (hs : Plain s.cls.ty) :
    make_pair f s a b ca cb σ = (construct f a .clvalue σ).bind (construct s b .clvalue) := by
  unfold make_pair pair_make
  simp only [forward_deduce hf, forward_deduce hs, Option.bind_eq_bind, Option.bind_some, resolve_single]
  rfl

/-- C97, part: `make_pair` of expressions of any kind whose types can be copied makes a pair of these types with these
values; the arguments keep theirs. -/
theorem C97_make_pair_partial (f s : Obj) (a b : Nat) (ca cb : Cat) (σ : Store) (hf : Plain f.cls.ty) (hs : Plain s.cls.ty)
    (h1 : f.cls.copy = true) (h2 : s.cls.copy = true) (hfb : f.addr ≠ b) (hfs : f.addr ≠ s.addr) :
    make_pair_type (deduce f.cls.ty ca) (deduce s.cls.ty cb) = some (f.cls.ty, s.cls.ty) ∧
    ∃ σ', make_pair f s a b ca cb σ = some σ' ∧ σ' f.addr = σ a ∧ σ' s.addr = σ b ∧
      ∀ x, x ≠ f.addr → x ≠ s.addr → σ' x = σ x := by
  constructor
  · simp [make_pair_type, decay_deduce hf, decay_deduce hs]
  · rw [make_pair_eq f s a b ca cb σ hf hs]
    have e : ∀ (o : Obj) (x : Nat) (τ : Store), o.cls.copy = true → construct o x .clvalue τ = some (set τ o.addr (τ x)) := by
      intro o x τ h
      simp [construct, h]
    refine ⟨_, by rw [e f a σ h1, Option.bind_some, e s b _ h2], ?_, ?_, ?_⟩
    · rw [set_other _ _ hfs, set_same]
    · rw [set_same, set_other _ _ (Ne.symm hfb)]
    · intro x h3 h4
      rw [set_other _ _ h4, set_other _ _ h3]

/-- `make_pair(it, it)`, as in `rb_tree::equal_range`. -/
example : (make_pair ⟨copyable, 10⟩ ⟨copyable, 11⟩ 20 20 .lvalue .lvalue fun a => a).map
      (fun σ => [σ 10, σ 11, σ 20]) = some [20, 20, 20] := rfl

/-- C97 fails for `make_pair` (and `pair(a, b)`) of rvalues: they are copied, for all types with move operations that leave
something else, and of types that can only be moved no pair can be made. -/
theorem C97_make_pair_violated (f s : Obj) (a b : Nat) (ca cb : Cat) (σ : Store) (hf : Plain f.cls.ty) (hs : Plain s.cls.ty)
    (hfa : f.addr ≠ a) (hsa : s.addr ≠ a) :
    (∀ σ', make_pair f s a b ca cb σ = some σ' → σ' a = σ a) ∧
    (f.cls.copy = false ∨ s.cls.copy = false → make_pair f s a b ca cb σ = none) := by
  rw [make_pair_eq f s a b ca cb σ hf hs]
  have e : ∀ (o : Obj) (x : Nat) (τ : Store), construct o x .clvalue τ =
      if o.cls.copy then some (set τ o.addr (τ x)) else none := by
    intro o x τ
    simp [construct]
  constructor
  · intro σ' h
    rw [e] at h
    split at h
    · rw [Option.bind_some, e] at h
      split at h
      · injection h with h
        rw [← h, set_other _ _ (Ne.symm hsa), set_other _ _ (Ne.symm hfa)]
      · cases h
    · cases h
  · intro h
    rw [e]
    split
    · rename_i hc
      rw [Option.bind_some, e]
      cases h with
      | inl h => rw [h] at hc; cases hc
      | inr h => rw [h]; rfl
    · rfl

example : (make_pair ⟨copyable, 10⟩ ⟨number, 11⟩ 20 21 .xvalue .lvalue fun a => a).map (fun σ => [σ 10, σ 20]) =
      some [20, 20] ∧
    make_pair ⟨moveOnly, 10⟩ ⟨number, 11⟩ 20 21 .xvalue .lvalue (fun a => a) = none := ⟨rfl, rfl⟩

/-- C97: a pair made from a pair of the same or another type copies both elements of an lvalue and moves both of an
rvalue. -/
theorem C97_pair_from (same : Bool) (f s : Obj) (p : Nat × Nat) (cat : Cat) (σ : Store)
    (ha : Apart [f, s] [p.1, p.2]) (hf : ∀ t ∈ [f, s], t.cls.copy = true ∨ (cat = .xvalue ∧ t.cls.move = true)) :
    ∃ σ', pair_from same f s p cat σ = some σ' ∧ Initialised [f, s] [p.1, p.2] [cat, cat] σ σ' := by
  have : pair_from same f s p cat σ = tuple_from [f, s] [p.1, p.2] cat σ := by
    cases same <;> cases cat <;> rfl
  rw [this]
  exact C97_tuple_from [f, s] [p.1, p.2] cat σ ha hf

example : (pair_from true ⟨moveOnly, 10⟩ ⟨copyable, 11⟩ (20, 21) .xvalue fun a => a).map
      (fun σ => [σ 10, σ 11, σ 20, σ 21]) = some [20, 21, 0, 0] := rfl

/-- C97 fails for assigning a pair that is an lvalue to a pair of the same type: ill-formed for all element types. -/
theorem C97_pair_assign_violated (f s : Obj) (p : Nat × Nat) (cat : Cat) (σ : Store) (h : cat ≠ .xvalue) :
    pair_assign true f s p cat σ = none := by
  cases cat with
  | lvalue => rfl
  | clvalue => rfl
  | xvalue => exact absurd rfl h

example : pair_assign true ⟨number, 10⟩ ⟨number, 11⟩ (20, 21) .lvalue (fun a => a) = none := rfl

/-- C97, part: an rvalue pair, or a pair of another type, can be assigned: both elements are assigned, copied from an
lvalue and moved from an rvalue. -/
theorem C97_pair_assign_partial (same : Bool) (f s : Obj) (p : Nat × Nat) (cat : Cat) (σ : Store)
    (h : same = false ∨ cat = .xvalue) (ha : Apart [f, s] [p.1, p.2])
    (hf : ∀ t ∈ [f, s], t.cls.copy = true ∨ (cat = .xvalue ∧ t.cls.move = true)) :
    ∃ σ', pair_assign same f s p cat σ = some σ' ∧ Initialised [f, s] [p.1, p.2] [cat, cat] σ σ' := by
  have hsep1 := ha.sep f (by simp)
  have hsep2 := ha.sep s (by simp)
  simp only [List.mem_cons, List.not_mem_nil, or_false, not_or] at hsep1 hsep2
  have eqa : ∀ (o : Obj) x τ, x ≠ o.addr → assign o x (if cat = .xvalue then .xvalue else .clvalue) τ =
      construct o x (if cat = .xvalue then .xvalue else .clvalue) τ := by
    intro o x τ hne
    unfold assign construct
    simp only [if_neg hne]
  have : pair_assign same f s p cat σ = tuple_from [f, s] [p.1, p.2] cat σ := by
    rw [tuple_from_eq]
    simp only [constructAll, Option.bind_eq_bind, Option.bind_some]
    have : pair_assign same f s p cat σ = (assign f p.1 (if cat = .xvalue then .xvalue else .clvalue) σ).bind
        (assign s p.2 (if cat = .xvalue then .xvalue else .clvalue)) := by
      cases h with
      | inl h => subst h; cases cat <;> rfl
      | inr h => subst h; cases same <;> rfl
    rw [this, eqa f p.1 σ (Ne.symm hsep1.1)]
    congr 1
    funext τ
    rw [eqa s p.2 τ (Ne.symm hsep2.2)]
    cases construct s p.2 (if cat = .xvalue then .xvalue else .clvalue) τ <;> rfl
  rw [this]
  exact C97_tuple_from [f, s] [p.1, p.2] cat σ ha hf

example : (pair_assign true ⟨moveOnly, 10⟩ ⟨copyable, 11⟩ (20, 21) .xvalue fun a => a).map
      (fun σ => [σ 10, σ 11, σ 20, σ 21]) = some [20, 21, 0, 0] ∧
    (pair_assign false ⟨number, 10⟩ ⟨copyable, 11⟩ (20, 21) .lvalue fun a => a).map
      (fun σ => [σ 10, σ 11, σ 20, σ 21]) = some [20, 21, 20, 21] := ⟨rfl, rfl⟩

/-- C97: swapping pairs exchanges both elements, also of a pair with itself. -/
theorem C97_pair_swap (tmp : Nat) (f s : Obj) (p : Nat × Nat) (σ : Store) (hl : f.addr ≠ s.addr) (hr : p.1 ≠ p.2)
    (hov : p = (f.addr, s.addr) ∨ (f.addr ≠ p.1 ∧ f.addr ≠ p.2 ∧ s.addr ≠ p.1 ∧ s.addr ≠ p.2))
    (ht : tmp ≠ f.addr ∧ tmp ≠ s.addr ∧ tmp ≠ p.1 ∧ tmp ≠ p.2)
    (hf : ∀ t ∈ [f, s], t.cls.copy = true ∨ t.cls.move = true) :
    ∃ σ', pair_swap tmp f s p σ = some σ' ∧ σ' f.addr = σ p.1 ∧ σ' s.addr = σ p.2 ∧ σ' p.1 = σ f.addr ∧ σ' p.2 = σ s.addr ∧
      ∀ x, x ≠ f.addr → x ≠ s.addr → x ≠ p.1 → x ≠ p.2 → x ≠ tmp → σ' x = σ x := by
  obtain ⟨σ', e, v, fr⟩ := C97_swap tmp [f, s] [p.1, p.2] σ rfl (by simp [hl]) (by simp [hr])
    (by
      cases hov with
      | inl h => subst h; left; rfl
      | inr h => right; simp [h.1, h.2.1, h.2.2.1, h.2.2.2])
    (by simp [ht.1, ht.2.1]) (by simp [ht.2.2.1, ht.2.2.2]) hf
  have v0 := v 0 f p.1 rfl rfl
  have v1 := v 1 s p.2 rfl rfl
  exact ⟨σ', e, v0.1, v1.1, v0.2, v1.2, fun x h1 h2 h3 h4 h5 => fr x (by simp [h1, h2]) (by simp [h3, h4]) h5⟩

example : (pair_swap 99 ⟨moveOnly, 10⟩ ⟨number, 11⟩ (20, 21) fun a => a).map
      (fun σ => [σ 10, σ 11, σ 20, σ 21]) = some [20, 21, 10, 11] := rfl

end Verif.Value
