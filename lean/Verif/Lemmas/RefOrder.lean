import Verif.Model.RefOrder

/-!
Invariants of the model of reference counts in the memory model of C++.
-/

set_option backward.isDefEq.respectTransparency false

namespace Verif.RefOrder

def sumT (f : Thread → Nat) (l : List Thread) : Nat := (l.map f).sum

theorem sum_set {f : Thread → Nat} {l : List Thread} {t : Nat} {x y : Thread} (h : l[t]? = some x) :
    sumT f (l.set t y) + f x = sumT f l + f y := by
  induction l generalizing t with
  | nil => simp at h
  | cons a l ih =>
    cases t with
    | zero => simp at h; subst h; simp [sumT]; omega
    | succ t =>
      simp at h
      have := ih h
      simp [sumT] at this ⊢
      omega

theorem le_sum {f : Thread → Nat} {l : List Thread} {t : Nat} {x : Thread} (h : l[t]? = some x) : f x ≤ sumT f l := by
  induction l generalizing t with
  | nil => simp at h
  | cons a l ih =>
    cases t with
    | zero => simp at h; subst h; simp [sumT]
    | succ t =>
      simp at h
      have := ih h
      simp [sumT] at this ⊢
      omega

def isPc (p : Pc) (x : Thread) : Nat := if x.pc = p then 1 else 0

def nK (k : Kind) (l : List Event) : Nat := (l.filter fun e => e.kind = k).length

theorem nK_append (k : Kind) (l : List Event) (e : Event) : nK k (l ++ [e]) = nK k l + if e.kind = k then 1 else 0 := by
  unfold nK
  rw [List.filter_append]
  by_cases h : e.kind = k <;> simp [h]

theorem nK_pos {k : Kind} {l : List Event} {i : Nat} {e : Event} (h : l[i]? = some e) (hk : e.kind = k) : 0 < nK k l := by
  apply List.length_pos_of_mem (a := e)
  rw [List.mem_filter]
  exact ⟨List.mem_of_getElem? h, by simp [hk]⟩

theorem nK_two {k : Kind} {l : List Event} {i j : Nat} {e f : Event} (hi : l[i]? = some e) (he : e.kind = k)
    (hj : l[j]? = some f) (hf : f.kind = k) (hij : i ≠ j) : 2 ≤ nK k l := by
  induction l generalizing i j with
  | nil => simp at hi
  | cons a l ih =>
    have hc : ∀ b : Event, nK k (b :: l) = nK k l + if b.kind = k then 1 else 0 := by
      intro b; unfold nK; by_cases h : b.kind = k <;> simp [h]
    rw [hc]
    cases i with
    | zero =>
      cases j with
      | zero => exact absurd rfl hij
      | succ j =>
        simp at hi hj
        subst hi
        rw [if_pos he]
        have := nK_pos hj hf
        omega
    | succ i =>
      cases j with
      | zero =>
        simp at hi hj
        subst hj
        rw [if_pos hf]
        have := nK_pos hi he
        omega
      | succ j =>
        simp at hi hj
        have := ih hi hj (fun h => hij (by rw [h]))
        omega

theorem nK_get {k : Kind} {l : List Event} (h : 0 < nK k l) : ∃ (i : Nat) (e : Event), l[i]? = some e ∧ e.kind = k := by
  obtain ⟨e, he⟩ := List.exists_mem_of_length_pos h
  rw [List.mem_filter] at he
  obtain ⟨i, hi⟩ := List.getElem?_of_mem he.1
  exact ⟨i, e, hi, by simpa using he.2⟩

theorem sum_zero {f : Thread → Nat} {l : List Thread} (h : ∀ (u : Nat) (x : Thread), l[u]? = some x → f x = 0) :
    sumT f l = 0 := by
  induction l with
  | nil => rfl
  | cons a l ih =>
    have h0 := h 0 a rfl
    have := ih fun u x hx => h (u + 1) x (by simpa using hx)
    simp only [sumT, List.map_cons, List.sum_cons] at this ⊢
    omega

/-- The arithmetic of counts: owners `H`, weak pointers `Wk`, threads before `dispose`, `weak_release`, `distory`
(`Pd`, `Pw`, `Pf`), events `dispose` and `free`, the two counts, events. -/
structure Num (H Wk Pd Pw Pf nD nF S W len : Nat) : Prop where
  shared : S = H
  weak : W = Wk + min H 1 + Pd + Pw
  disposes : nD + Pd + min H 1 = 1
  frees : nF + Pf + min W 1 = 1
  one : min H 1 + Pd + Pw ≤ 1
  bound : H + Wk ≤ len

def NumOf (s : St) : Prop :=
  Num (sumT (·.holds) s.th) (sumT (·.weaks) s.th) (sumT (isPc .dispose) s.th) (sumT (isPc .weakRel) s.th)
    (sumT (isPc .distory) s.th) (nK .dispose s.log) (nK .free s.log) s.shared.val.toNat s.weak.val.toNat s.log.length

def Busy (x : Thread) : Prop := 0 < x.holds ∨ 0 < x.weaks ∨ x.pc = .dispose ∨ x.pc = .weakRel

def Known1 (s : St) (i : Nat) : Prop :=
  i ∈ s.shared.rel ∨ ∃ (u : Nat) (x : Thread), s.th[u]? = some x ∧ 0 < x.holds ∧ i ∈ x.view

def Known2 (s : St) (i : Nat) : Prop :=
  i ∈ s.weak.rel ∨ (i ∈ s.shared.rel ∧ 0 < sumT (·.holds) s.th) ∨
    ∃ (u : Nat) (x : Thread), s.th[u]? = some x ∧ Busy x ∧ i ∈ x.view

def IsUse (l : List Event) (i : Nat) : Prop := ∃ e, l[i]? = some e ∧ e.kind = .use
def IsBlk (l : List Event) (i : Nat) : Prop := ∃ e, l[i]? = some e ∧ (e.kind = .count ∨ e.kind = .dispose)

structure Inv (s : St) : Prop where
  num : NumOf s
  make0 : ∃ e, s.log[0]? = some e ∧ e.kind = .make
  make1 : ∀ (i : Nat) (e : Event), s.log[i]? = some e → 0 < i → e.kind ≠ .make ∧ 0 ∈ e.view
  vmake : ∀ (u : Nat) (x : Thread), s.th[u]? = some x → Busy x ∨ x.pc = .distory → 0 ∈ x.view
  use1 : ∀ i, IsUse s.log i → Known1 s i
  use2 : ∀ (u : Nat) (x : Thread), s.th[u]? = some x → x.pc = .dispose → ∀ i, IsUse s.log i → i ∈ x.view
  use3 : ∀ (j : Nat) (d : Event), s.log[j]? = some d → d.kind = .dispose → ∀ i, IsUse s.log i → i ∈ d.view
  blk1 : ∀ i, IsBlk s.log i → Known2 s i
  blk2 : ∀ (u : Nat) (x : Thread), s.th[u]? = some x → x.pc = .distory → ∀ i, IsBlk s.log i → i ∈ x.view
  blk3 : ∀ (j : Nat) (d : Event), s.log[j]? = some d → d.kind = .free → ∀ i, IsBlk s.log i → i ∈ d.view

theorem get_append {l : List Event} {e : Event} {i : Nat} {f : Event} (h : (l ++ [e])[i]? = some f) :
    l[i]? = some f ∨ (i = l.length ∧ f = e) := by
  rw [List.getElem?_append] at h
  split at h
  · exact .inl h
  · rename_i hi
    right
    have : i - l.length = 0 := by
      rcases Nat.eq_zero_or_pos (i - l.length) with h0 | h0
      · exact h0
      · rw [List.getElem?_eq_none (by simp; omega)] at h; exact absurd h (by simp)
    rw [this] at h
    simp at h
    exact ⟨by omega, h.symm⟩

theorem isUse_append {l : List Event} {e : Event} {i : Nat} (h : IsUse (l ++ [e]) i) :
    IsUse l i ∨ (i = l.length ∧ e.kind = .use) := by
  obtain ⟨f, hf, hk⟩ := h
  rcases get_append hf with h | ⟨h, rfl⟩
  · exact .inl ⟨f, h, hk⟩
  · exact .inr ⟨h, hk⟩

theorem isBlk_append {l : List Event} {e : Event} {i : Nat} (h : IsBlk (l ++ [e]) i) :
    IsBlk l i ∨ (i = l.length ∧ (e.kind = .count ∨ e.kind = .dispose)) := by
  obtain ⟨f, hf, hk⟩ := h
  rcases get_append hf with h | ⟨h, rfl⟩
  · exact .inl ⟨f, h, hk⟩
  · exact .inr ⟨h, hk⟩

theorem get_set {l : List Thread} {t u : Nat} {y z : Thread} (h : (l.set t y)[u]? = some z) :
    (u = t ∧ z = y) ∨ (u ≠ t ∧ l[u]? = some z) := by
  rw [List.getElem?_set] at h
  split at h
  · rename_i he
    split at h
    · cases h; exact .inl ⟨he.symm, rfl⟩
    · exact absurd h (by simp)
  · rename_i he; exact .inr ⟨fun h => he h.symm, h⟩

theorem set_same {l : List Thread} {t : Nat} {x y : Thread} (h : l[t]? = some x) : (l.set t y)[t]? = some y := by
  have hlt : t < l.length := by
    rcases Nat.lt_or_ge t l.length with h' | h'
    · exact h'
    · rw [List.getElem?_eq_none h'] at h; exact absurd h (by simp)
  simp [List.getElem?_set, hlt]

theorem set_other {l : List Thread} {t u : Nat} {x y : Thread} (h : l[u]? = some x) (hne : u ≠ t) :
    (l.set t y)[u]? = some x := by
  rw [List.getElem?_set, if_neg (fun he => hne he.symm)]; exact h

/-- A step of one thread that is an event. -/
theorem inv_event {s s' : St} {t : Nat} {x x' : Thread} {ev : Event} (hinv : Inv s) (ht : s.th[t]? = some x)
    (hth : s'.th = s.th.set t x') (hlog : s'.log = s.log ++ [ev]) (hnum : NumOf s')
    (hbusy : Busy x ∨ x.pc = .distory) (hkind : ev.kind ≠ .make) (hev : ∀ i ∈ x.view, i ∈ ev.view)
    (hview : ∀ i ∈ x.view, i ∈ x'.view)
    (k1 : ∀ i, Known1 s i → Known1 s' i) (k2 : ∀ i, Known2 s i → Known2 s' i)
    (hu : ev.kind = .use → 0 < sumT (·.holds) s.th ∧ Known1 s' s.log.length)
    (hb : ev.kind = .count ∨ ev.kind = .dispose → 0 < s.weak.val.toNat ∧ Known2 s' s.log.length)
    (h1 : x'.pc = .dispose → ev.kind ≠ .use ∧ ∀ i, IsUse s.log i → i ∈ x'.view)
    (h2 : x'.pc = .distory → s.log.length ∈ x'.view ∧ ∀ i, IsBlk s.log i → i ∈ x'.view)
    (h3 : ev.kind = .dispose → ∀ i, IsUse s.log i → i ∈ ev.view)
    (h4 : ev.kind = .free → ∀ i, IsBlk s.log i → i ∈ ev.view) : Inv s' := by
  have hlen : 0 < s.log.length := by
    obtain ⟨e, he, _⟩ := hinv.make0
    rcases Nat.eq_zero_or_pos s.log.length with h | h
    · rw [List.getElem?_eq_none (by omega)] at he; exact absurd he (by simp)
    · exact h
  have hn := hinv.num
  have hx0 : 0 ∈ x.view := hinv.vmake t x ht hbusy
  refine ⟨hnum, ?_, ?_, ?_, ?_, ?_, ?_, ?_, ?_, ?_⟩
  · obtain ⟨e, he, hk⟩ := hinv.make0
    refine ⟨e, ?_, hk⟩
    rw [hlog, List.getElem?_append_left hlen]; exact he
  · intro i e he hi
    rw [hlog] at he
    rcases get_append he with he | ⟨_, rfl⟩
    · exact hinv.make1 i e he hi
    · exact ⟨hkind, hev 0 hx0⟩
  · intro u y hy hyb
    rw [hth] at hy
    rcases get_set hy with ⟨_, rfl⟩ | ⟨_, hy⟩
    · exact hview 0 hx0
    · exact hinv.vmake u y hy hyb
  · intro i hi
    rw [hlog] at hi
    rcases isUse_append hi with hi | ⟨rfl, hk⟩
    · exact k1 i (hinv.use1 i hi)
    · exact (hu hk).2
  · intro u y hy hp i hi
    rw [hth] at hy
    rw [hlog] at hi
    rcases get_set hy with ⟨_, rfl⟩ | ⟨_, hy⟩
    · rcases isUse_append hi with hi | ⟨_, hk⟩
      · exact (h1 hp).2 i hi
      · exact absurd hk (h1 hp).1
    · rcases isUse_append hi with hi | ⟨_, hk⟩
      · exact hinv.use2 u y hy hp i hi
      · have h1 := (hu hk).1
        have h2 := hn.disposes
        have h3 := le_sum (f := isPc .dispose) hy
        simp only [isPc, hp, if_true] at h3
        omega
  · intro j d hd hk i hi
    rw [hlog] at hd hi
    rcases get_append hd with hd | ⟨_, rfl⟩
    · rcases isUse_append hi with hi | ⟨_, hk'⟩
      · exact hinv.use3 j d hd hk i hi
      · have h1 := (hu hk').1
        have h2 := hn.disposes
        have h3 := nK_pos hd hk
        omega
    · rcases isUse_append hi with hi | ⟨_, hk'⟩
      · exact h3 hk i hi
      · rw [hk] at hk'; exact absurd hk' (by decide)
  · intro i hi
    rw [hlog] at hi
    rcases isBlk_append hi with hi | ⟨rfl, hk⟩
    · exact k2 i (hinv.blk1 i hi)
    · exact (hb hk).2
  · intro u y hy hp i hi
    rw [hth] at hy
    rw [hlog] at hi
    rcases get_set hy with ⟨_, rfl⟩ | ⟨_, hy⟩
    · rcases isBlk_append hi with hi | ⟨rfl, hk⟩
      · exact (h2 hp).2 i hi
      · exact (h2 hp).1
    · rcases isBlk_append hi with hi | ⟨_, hk⟩
      · exact hinv.blk2 u y hy hp i hi
      · have h1 := (hb hk).1
        have h2 := hn.frees
        have h3 := le_sum (f := isPc .distory) hy
        simp only [isPc, hp, if_true] at h3
        omega
  · intro j d hd hk i hi
    rw [hlog] at hd hi
    rcases get_append hd with hd | ⟨_, rfl⟩
    · rcases isBlk_append hi with hi | ⟨_, hk'⟩
      · exact hinv.blk3 j d hd hk i hi
      · have h1 := (hb hk').1
        have h2 := hn.frees
        have h3 := nK_pos hd hk
        omega
    · rcases isBlk_append hi with hi | ⟨_, hk'⟩
      · exact h4 hk i hi
      · rw [hk] at hk'; exact absurd hk' (by decide)

theorem known1_mono {s s' : St} {t : Nat} {x x' : Thread} (ht : s.th[t]? = some x) (hth : s'.th = s.th.set t x')
    (hrel : ∀ i ∈ s.shared.rel, i ∈ s'.shared.rel) (hview : ∀ i ∈ x.view, i ∈ x'.view)
    (hx : 0 < x.holds → 0 < x'.holds ∨ ∀ i ∈ x.view, i ∈ s'.shared.rel) : ∀ i, Known1 s i → Known1 s' i := by
  rintro i (h | ⟨u, y, hy, hp, hi⟩)
  · exact .inl (hrel i h)
  · by_cases he : u = t
    · subst he
      rw [ht] at hy; injection hy with hy; subst hy
      rcases hx hp with h | h
      · exact .inr ⟨u, x', by rw [hth]; exact set_same ht, h, hview i hi⟩
      · exact .inl (h i hi)
    · exact .inr ⟨u, y, by rw [hth]; exact set_other hy he, hp, hi⟩

theorem known2_mono {s s' : St} {t : Nat} {x x' : Thread} (ht : s.th[t]? = some x) (hth : s'.th = s.th.set t x')
    (hrel : ∀ i ∈ s.weak.rel, i ∈ s'.weak.rel) (hview : ∀ i ∈ x.view, i ∈ x'.view)
    (hs : ∀ i ∈ s.shared.rel, 0 < sumT (·.holds) s.th →
      (i ∈ s'.shared.rel ∧ 0 < sumT (·.holds) s'.th) ∨ (Busy x' ∧ i ∈ x'.view))
    (hx : Busy x → Busy x' ∨ (∀ i ∈ x.view, i ∈ s'.weak.rel) ∨
      ((∀ i ∈ x.view, i ∈ s'.shared.rel) ∧ 0 < sumT (·.holds) s'.th)) : ∀ i, Known2 s i → Known2 s' i := by
  have hself : s'.th[t]? = some x' := by rw [hth]; exact set_same ht
  rintro i (h | ⟨h, hp⟩ | ⟨u, y, hy, hp, hi⟩)
  · exact .inl (hrel i h)
  · rcases hs i h hp with h | ⟨h, h'⟩
    · exact .inr (.inl h)
    · exact .inr (.inr ⟨t, x', hself, h, h'⟩)
  · by_cases he : u = t
    · subst he
      rw [ht] at hy; injection hy with hy; subst hy
      rcases hx hp with h | h | ⟨h, h'⟩
      · exact .inr (.inr ⟨u, x', hself, h, hview i hi⟩)
      · exact .inl (h i hi)
      · exact .inr (.inl ⟨h i hi, h'⟩)
    · exact .inr (.inr ⟨u, y, by rw [hth]; exact set_other hy he, hp, hi⟩)

/-! ### Steps -/

theorem mem_rmw_before {o : Order} {f : BitVec 64 → BitVec 64} {c : Cell} {id : Nat} {v : List Nat} {i : Nat} (h : i ∈ v) :
    i ∈ (rmw o f c id v).2.1 := by
  simp only [rmw]; split <;> simp [h]

theorem mem_rmw_after {o : Order} {f : BitVec 64 → BitVec 64} {c : Cell} {id : Nat} {v : List Nat} {i : Nat} (h : i ∈ v) :
    i ∈ (rmw o f c id v).2.2 := by
  simp only [rmw]; split <;> simp [h]

theorem id_rmw_after {o : Order} {f : BitVec 64 → BitVec 64} {c : Cell} {id : Nat} {v : List Nat} :
    id ∈ (rmw o f c id v).2.2 := by
  simp [rmw]

theorem mem_rmw_rel {o : Order} {f : BitVec 64 → BitVec 64} {c : Cell} {id : Nat} {v : List Nat} {i : Nat} (h : i ∈ c.rel) :
    i ∈ (rmw o f c id v).1.rel := by
  simp only [rmw]; split <;> simp [h]

theorem mem_dec_rel {f : BitVec 64 → BitVec 64} {c : Cell} {id : Nat} {v : List Nat} {i : Nat} (h : i ∈ v ∨ i = id) :
    i ∈ (rmw decOrder f c id v).1.rel := by
  rcases h with h | h <;> simp [rmw, decOrder, Order.releases, Order.acquires, h]

theorem mem_dec_after {f : BitVec 64 → BitVec 64} {c : Cell} {id : Nat} {v : List Nat} {i : Nat} (h : i ∈ c.rel) :
    i ∈ (rmw decOrder f c id v).2.2 := by
  simp [rmw, decOrder, Order.acquires, h]

theorem rmw_val {o : Order} {f : BitVec 64 → BitVec 64} {c : Cell} {id : Nat} {v : List Nat} :
    (rmw o f c id v).1.val = f c.val := rfl

theorem toNat_inc (v : BitVec 64) (h : v.toNat + 1 < 2 ^ 64) : (v + 1).toNat = v.toNat + 1 := by
  rw [BitVec.toNat_add]; simp; omega

theorem toNat_dec (v : BitVec 64) (h : 0 < v.toNat) : (v - 1).toNat = v.toNat - 1 := by
  have := v.isLt
  rw [BitVec.toNat_sub]; simp; omega

theorem val_zero (v : BitVec 64) : v = 0 ↔ v.toNat = 0 := by
  constructor
  · rintro rfl; rfl
  · intro h; apply BitVec.eq_of_toNat_eq; simpa using h

theorem inc_facts {f : BitVec 64 → BitVec 64} {c c0 : Cell} {id : Nat} {v before after : List Nat}
    (h : rmw incOrder f c0 id v = (c, before, after)) :
    (∀ i ∈ v, i ∈ before) ∧ (∀ i ∈ v, i ∈ after) ∧ id ∈ after ∧ (∀ i ∈ c0.rel, i ∈ c.rel) ∧ c.val = f c0.val := by
  have h1 : c = (rmw incOrder f c0 id v).1 := by rw [h]
  have h2 : before = (rmw incOrder f c0 id v).2.1 := by rw [h]
  have h3 : after = (rmw incOrder f c0 id v).2.2 := by rw [h]
  subst h1 h2 h3
  exact ⟨fun i h => mem_rmw_before h, fun i h => mem_rmw_after h, id_rmw_after, fun i h => mem_rmw_rel h, rfl⟩

theorem dec_facts {f : BitVec 64 → BitVec 64} {c c0 : Cell} {id : Nat} {v before after : List Nat}
    (h : rmw decOrder f c0 id v = (c, before, after)) :
    (∀ i ∈ v, i ∈ before) ∧ (∀ i ∈ v, i ∈ after) ∧ id ∈ after ∧ (∀ i ∈ c0.rel, i ∈ c.rel) ∧ c.val = f c0.val ∧
      (∀ i ∈ v, i ∈ c.rel) ∧ id ∈ c.rel ∧ (∀ i ∈ c0.rel, i ∈ after) := by
  have h1 : c = (rmw decOrder f c0 id v).1 := by rw [h]
  have h2 : before = (rmw decOrder f c0 id v).2.1 := by rw [h]
  have h3 : after = (rmw decOrder f c0 id v).2.2 := by rw [h]
  subst h1 h2 h3
  exact ⟨fun i h => mem_rmw_before h, fun i h => mem_rmw_after h, id_rmw_after, fun i h => mem_rmw_rel h, rfl,
    fun i h => mem_dec_rel (.inl h), mem_dec_rel (.inr rfl), fun i h => mem_dec_after h⟩

/-- The sums after a step of one thread. -/
theorem sums_set {l : List Thread} {t : Nat} {x y : Thread} (ht : l[t]? = some x) :
    sumT (·.holds) (l.set t y) + x.holds = sumT (·.holds) l + y.holds ∧
    sumT (·.weaks) (l.set t y) + x.weaks = sumT (·.weaks) l + y.weaks ∧
    sumT (isPc .dispose) (l.set t y) + isPc .dispose x = sumT (isPc .dispose) l + isPc .dispose y ∧
    sumT (isPc .weakRel) (l.set t y) + isPc .weakRel x = sumT (isPc .weakRel) l + isPc .weakRel y ∧
    sumT (isPc .distory) (l.set t y) + isPc .distory x = sumT (isPc .distory) l + isPc .distory y ∧
    x.holds ≤ sumT (·.holds) l ∧ x.weaks ≤ sumT (·.weaks) l ∧ isPc .dispose x ≤ sumT (isPc .dispose) l ∧
    isPc .weakRel x ≤ sumT (isPc .weakRel) l ∧ isPc .distory x ≤ sumT (isPc .distory) l :=
  ⟨sum_set (f := (·.holds)) ht, sum_set (f := (·.weaks)) ht, sum_set ht, sum_set ht, sum_set ht,
    le_sum (f := (·.holds)) ht, le_sum (f := (·.weaks)) ht, le_sum ht, le_sum ht, le_sum ht⟩

theorem pc_at (p q : Pc) (h w : Nat) (v : List Nat) : isPc p ⟨h, w, q, v⟩ = if q = p then 1 else 0 := rfl

theorem step_copyShared {s : St} {t : Nat} {h w : Nat} {v before after : List Nat} {c : Cell} (hinv : Inv s)
    (ht : s.th[t]? = some ⟨h, w, .idle, v⟩) (hh : h ≠ 0) (hb : s.log.length + 2 < 2 ^ 64)
    (hc : rmw incOrder (· + 1) s.shared s.log.length v = (c, before, after)) :
    Inv { s with shared := c, th := s.th.set t ⟨h + 1, w, .idle, after⟩, log := s.log ++ [⟨.count, before⟩] } := by
  obtain ⟨n1, n2, n3, n4, n5, n6⟩ := hinv.num
  obtain ⟨k1, k2, k3, k4, k5, l1, l2, l3, l4, l5⟩ := sums_set (y := ⟨h + 1, w, .idle, after⟩) ht
  obtain ⟨r1, r2, r3, r4, r5⟩ := inc_facts hc
  simp [pc_at] at k3 k4 k5
  simp only at k1 k2 l1 l2
  have hval := toNat_inc s.shared.val (by omega)
  rw [← r5] at hval
  refine inv_event (x' := ⟨h + 1, w, .idle, after⟩) (ev := ⟨.count, before⟩)
    hinv ht rfl rfl ?_ (.inl (.inl (by simp; omega))) (by simp) r1 r2 ?_ ?_ ?_ ?_ ?_ ?_ ?_ ?_
  · simp only [NumOf, nK_append, List.length_append, List.length_singleton, hval]
    constructor <;> (try simp) <;> omega
  · exact known1_mono ht rfl r4 r2 (fun _ => .inl (by simp))
  · refine known2_mono ht rfl (fun i h => h) r2 ?_ (fun _ => .inl (.inl (by simp)))
    intro i hi _
    exact .inl ⟨r4 i hi, by simp only; omega⟩
  · intro h; simp at h
  · intro _
    exact ⟨by omega, .inr (.inr ⟨t, _, set_same ht, .inl (by simp), r3⟩)⟩
  · intro h; simp at h
  · intro h; simp at h
  · intro h; simp at h
  · intro h; simp at h

theorem step_dropShared {s : St} {t : Nat} {h w : Nat} {v before after : List Nat} {c : Cell} {q : Pc} (hinv : Inv s)
    (ht : s.th[t]? = some ⟨h, w, .idle, v⟩) (hh : h ≠ 0)
    (hc : rmw decOrder (· - 1) s.shared s.log.length v = (c, before, after))
    (hq : q = if c.val = 0 then .dispose else .idle) :
    Inv { s with shared := c, log := s.log ++ [⟨.count, before⟩],
                 th := s.th.set t ⟨h - 1, w, q, after⟩ } := by
  obtain ⟨n1, n2, n3, n4, n5, n6⟩ := hinv.num
  obtain ⟨k1, k2, k3, k4, k5, l1, l2, l3, l4, l5⟩ :=
    sums_set (y := ⟨h - 1, w, q, after⟩) ht
  obtain ⟨r1, r2, r3, r4, r5, r6, r7, r8⟩ := dec_facts hc
  simp only at k1 k2 l1 l2
  have hval := toNat_dec s.shared.val (by omega)
  rw [← r5] at hval
  have hz := val_zero c.val
  have hlast : ∀ i, IsUse s.log i → c.val = 0 → i ∈ after := by
    intro i hi h0
    rcases hinv.use1 i hi with h1 | ⟨u, y, hy, hp, hv⟩
    · exact r8 i h1
    · by_cases he : u = t
      · subst he; rw [ht] at hy; injection hy with hy; subst hy; exact r2 i hv
      · have hy' := set_other (y := ⟨h - 1, w, q, after⟩) hy he
        have := le_sum (f := (·.holds)) hy'
        have := hz.1 h0
        omega
  refine inv_event (x' := ⟨h - 1, w, q, after⟩) (ev := ⟨.count, before⟩)
    hinv ht rfl rfl ?_ (.inl (.inl (by simp; omega))) (by simp) r1 r2 ?_ ?_ ?_ ?_ ?_ ?_ ?_ ?_
  · simp only [NumOf, nK_append, List.length_append, List.length_singleton, hval]
    by_cases h0 : c.val = 0
    · have := hz.1 h0
      rw [if_pos h0] at hq
      subst hq
      simp [pc_at] at k3 k4 k5
      constructor <;> (try simp) <;> omega
    · have : c.val.toNat ≠ 0 := fun h => h0 (hz.2 h)
      rw [if_neg h0] at hq
      subst hq
      simp [pc_at] at k3 k4 k5
      constructor <;> (try simp) <;> omega
  · exact known1_mono ht rfl r4 r2 (fun _ => .inr r6)
  · by_cases h0 : c.val = 0
    · refine known2_mono ht rfl (fun i h => h) r2 ?_ (fun _ => .inl (.inr (.inr (.inl (by rw [hq, if_pos h0])))))
      intro i hi _
      exact .inr ⟨.inr (.inr (.inl (by rw [hq, if_pos h0]))), r8 i hi⟩
    · have hpos : 0 < sumT (·.holds) (s.th.set t ⟨h - 1, w, q, after⟩) := by
        have : c.val.toNat ≠ 0 := fun h => h0 (hz.2 h)
        omega
      exact known2_mono ht rfl (fun i h => h) r2 (fun i hi _ => .inl ⟨r4 i hi, hpos⟩) (fun _ => .inr (.inr ⟨r6, hpos⟩))
  · intro h; simp at h
  · intro _
    refine ⟨by omega, ?_⟩
    by_cases h0 : c.val = 0
    · exact .inr (.inr ⟨t, _, set_same ht, .inr (.inr (.inl (by rw [hq, if_pos h0]))), r3⟩)
    · have : c.val.toNat ≠ 0 := fun h => h0 (hz.2 h)
      exact .inr (.inl ⟨r7, by simp only; omega⟩)
  · intro hp
    refine ⟨by simp, fun i hi => hlast i hi ?_⟩
    by_cases h0 : c.val = 0
    · exact h0
    · simp only [hq, if_neg h0] at hp; exact absurd hp (by decide)
  · intro hp
    simp only [hq] at hp
    split at hp <;> exact absurd hp (by decide)
  · intro h; simp at h
  · intro h; simp at h

theorem step_copyWeak {s : St} {t : Nat} {h w : Nat} {v before after : List Nat} {c : Cell} (hinv : Inv s)
    (ht : s.th[t]? = some ⟨h, w, .idle, v⟩) (hh : ¬ (h = 0 ∧ w = 0)) (hb : s.log.length + 2 < 2 ^ 64)
    (hc : rmw incOrder (· + 1) s.weak s.log.length v = (c, before, after)) :
    Inv { s with weak := c, th := s.th.set t ⟨h, w + 1, .idle, after⟩, log := s.log ++ [⟨.count, before⟩] } := by
  obtain ⟨n1, n2, n3, n4, n5, n6⟩ := hinv.num
  obtain ⟨k1, k2, k3, k4, k5, l1, l2, l3, l4, l5⟩ := sums_set (y := ⟨h, w + 1, .idle, after⟩) ht
  obtain ⟨r1, r2, r3, r4, r5⟩ := inc_facts hc
  simp [pc_at] at k3 k4 k5
  simp only at k1 k2 l1 l2
  have hval := toNat_inc s.weak.val (by omega)
  rw [← r5] at hval
  have hbusy : Busy ⟨h, w, .idle, v⟩ := by
    rcases Nat.eq_zero_or_pos h with h1 | h1
    · exact .inr (.inl (by simp; omega))
    · exact .inl h1
  refine inv_event (x' := ⟨h, w + 1, .idle, after⟩) (ev := ⟨.count, before⟩)
    hinv ht rfl rfl ?_ (.inl hbusy) (by simp) r1 r2 ?_ ?_ ?_ ?_ ?_ ?_ ?_ ?_
  · simp only [NumOf, nK_append, List.length_append, List.length_singleton, hval]
    constructor <;> (try simp) <;> omega
  · exact known1_mono ht rfl (fun i h => h) r2 (fun h => .inl h)
  · refine known2_mono ht rfl r4 r2 ?_ (fun _ => .inl (.inr (.inl (by simp))))
    intro i hi _
    exact .inl ⟨hi, by simp only; omega⟩
  · intro h; simp at h
  · intro _
    exact ⟨by omega, .inr (.inr ⟨t, _, set_same ht, .inr (.inl (by simp)), r3⟩)⟩
  · intro h; simp at h
  · intro h; simp at h
  · intro h; simp at h
  · intro h; simp at h

/-- `--weak_count_`, by a `weak_ptr` or at the end of the last `shared_ptr`. -/
theorem step_weakDec {s : St} {t : Nat} {h w w' : Nat} {p : Pc} {v before after : List Nat} {c : Cell} {q : Pc} (hinv : Inv s)
    (ht : s.th[t]? = some ⟨h, w, p, v⟩) (hh : (p = .idle ∧ w ≠ 0 ∧ w' = w - 1) ∨ (p = .weakRel ∧ w' = w))
    (hc : rmw decOrder (· - 1) s.weak s.log.length v = (c, before, after))
    (hq : q = if c.val = 0 then .distory else .idle) :
    Inv { s with weak := c, log := s.log ++ [⟨.count, before⟩],
                 th := s.th.set t ⟨h, w', q, after⟩ } := by
  obtain ⟨n1, n2, n3, n4, n5, n6⟩ := hinv.num
  obtain ⟨k1, k2, k3, k4, k5, l1, l2, l3, l4, l5⟩ :=
    sums_set (y := ⟨h, w', q, after⟩) ht
  obtain ⟨r1, r2, r3, r4, r5, r6, r7, r8⟩ := dec_facts hc
  simp only at k1 k2 l1 l2
  have hpos : 0 < s.weak.val.toNat := by
    rcases hh with ⟨rfl, hw, rfl⟩ | ⟨rfl, rfl⟩
    · omega
    · simp only [pc_at, if_true] at l4; omega
  have hval := toNat_dec s.weak.val hpos
  rw [← r5] at hval
  have hz := val_zero c.val
  have hbusy : Busy ⟨h, w, p, v⟩ := by
    rcases hh with ⟨rfl, hw, rfl⟩ | ⟨rfl, rfl⟩
    · exact .inr (.inl (by simp; omega))
    · exact .inr (.inr (.inr rfl))
  have hnum : NumOf { s with weak := c, log := s.log ++ [⟨.count, before⟩], th := s.th.set t ⟨h, w', q, after⟩ } := by
    simp only [NumOf, nK_append, List.length_append, List.length_singleton, hval]
    by_cases h0 : c.val = 0
    · have := hz.1 h0
      rw [if_pos h0] at hq
      subst hq
      rcases hh with ⟨rfl, hw, rfl⟩ | ⟨rfl, rfl⟩
      · simp [pc_at] at k3 k4 k5
        constructor <;> (try simp) <;> omega
      · simp [pc_at] at k3 k4 k5 l4
        constructor <;> (try simp) <;> omega
    · have : c.val.toNat ≠ 0 := fun h => h0 (hz.2 h)
      rw [if_neg h0] at hq
      subst hq
      rcases hh with ⟨rfl, hw, rfl⟩ | ⟨rfl, rfl⟩
      · simp [pc_at] at k3 k4 k5
        constructor <;> (try simp) <;> omega
      · simp [pc_at] at k3 k4 k5 l4
        constructor <;> (try simp) <;> omega
  have hlast : ∀ i, IsBlk s.log i → c.val = 0 → i ∈ after := by
    intro i hi h0
    have h0' := hz.1 h0
    have m2 := hnum.weak
    simp only [h0'] at m2
    rcases hinv.blk1 i hi with h1 | ⟨h1, hp⟩ | ⟨u, y, hy, hp, hv⟩
    · exact r8 i h1
    · have hHH : sumT (·.holds) (s.th.set t ⟨h, w', q, after⟩) = sumT (·.holds) s.th := by
        omega
      rw [hHH] at m2; omega
    · by_cases he : u = t
      · subst he; rw [ht] at hy; injection hy with hy; subst hy; exact r2 i hv
      · have hy' := set_other (y := ⟨h, w', q, after⟩) hy he
        obtain ⟨_, _, _, _, _, b1, b2, b3, b4, _⟩ := sums_set (y := y) hy'
        rcases hp with hp | hp | hp | hp
        · omega
        · omega
        · simp only [isPc, hp, if_true] at b3; omega
        · simp only [isPc, hp, if_true] at b4; omega
  refine inv_event (x' := ⟨h, w', q, after⟩) (ev := ⟨.count, before⟩)
    hinv ht rfl rfl hnum (.inl hbusy) (by simp) r1 r2 ?_ ?_ ?_ ?_ ?_ ?_ ?_ ?_
  · exact known1_mono ht rfl (fun i h => h) r2 (fun h => .inl h)
  · refine known2_mono ht rfl r4 r2 ?_ (fun _ => .inr (.inl r6))
    intro i hi _
    exact .inl ⟨hi, by simp only; omega⟩
  · intro h; simp at h
  · intro _
    exact ⟨hpos, .inl r7⟩
  · intro hp
    simp only [hq] at hp
    split at hp <;> exact absurd hp (by decide)
  · intro hp
    refine ⟨r3, fun i hi => hlast i hi ?_⟩
    by_cases h0 : c.val = 0
    · exact h0
    · simp only [hq, if_neg h0] at hp; exact absurd hp (by decide)
  · intro h; simp at h
  · intro h; simp at h

theorem step_use {s : St} {t : Nat} {h w : Nat} {v : List Nat} (hinv : Inv s)
    (ht : s.th[t]? = some ⟨h, w, .idle, v⟩) (hh : h ≠ 0) :
    Inv { s with th := s.th.set t ⟨h, w, .idle, s.log.length :: v⟩, log := s.log ++ [⟨.use, v⟩] } := by
  obtain ⟨n1, n2, n3, n4, n5, n6⟩ := hinv.num
  obtain ⟨k1, k2, k3, k4, k5, l1, l2, l3, l4, l5⟩ := sums_set (y := ⟨h, w, .idle, s.log.length :: v⟩) ht
  simp [pc_at] at k3 k4 k5
  simp only at k1 k2
  simp only at l1 l2
  have hv : ∀ i ∈ v, i ∈ s.log.length :: v := fun i h => List.mem_cons_of_mem _ h
  refine inv_event (x' := ⟨h, w, .idle, s.log.length :: v⟩) (ev := ⟨.use, v⟩)
    hinv ht rfl rfl ?_ (.inl (.inl (by simp; omega))) (by simp) (fun i h => h) hv ?_ ?_ ?_ ?_ ?_ ?_ ?_ ?_
  · simp only [NumOf, nK_append, List.length_append, List.length_singleton]
    constructor <;> (try simp) <;> omega
  · exact known1_mono ht rfl (fun i h => h) hv (fun h => .inl h)
  · refine known2_mono ht rfl (fun i h => h) hv ?_ (fun _ => .inl (.inl (by simp; omega)))
    intro i hi _
    exact .inl ⟨hi, by simp only; omega⟩
  · intro _
    exact ⟨by omega, .inr ⟨t, _, set_same ht, by simp; omega, by simp⟩⟩
  · intro h; simp at h
  · intro h; simp at h
  · intro h; simp at h
  · intro h; simp at h
  · intro h; simp at h

theorem step_useCount {s : St} {t : Nat} {h w : Nat} {v : List Nat} (hinv : Inv s)
    (ht : s.th[t]? = some ⟨h, w, .idle, v⟩) (hh : ¬ (h = 0 ∧ w = 0)) :
    Inv { s with th := s.th.set t ⟨h, w, .idle, s.log.length :: v⟩, log := s.log ++ [⟨.count, v⟩] } := by
  obtain ⟨n1, n2, n3, n4, n5, n6⟩ := hinv.num
  obtain ⟨k1, k2, k3, k4, k5, l1, l2, l3, l4, l5⟩ := sums_set (y := ⟨h, w, .idle, s.log.length :: v⟩) ht
  simp [pc_at] at k3 k4 k5
  simp only at k1 k2
  simp only at l1 l2
  have hv : ∀ i ∈ v, i ∈ s.log.length :: v := fun i h => List.mem_cons_of_mem _ h
  have hbusy : ∀ v, Busy ⟨h, w, .idle, v⟩ := by
    intro v
    rcases Nat.eq_zero_or_pos h with h1 | h1
    · exact .inr (.inl (by simp; omega))
    · exact .inl h1
  refine inv_event (x' := ⟨h, w, .idle, s.log.length :: v⟩) (ev := ⟨.count, v⟩)
    hinv ht rfl rfl ?_ (.inl (hbusy v)) (by simp) (fun i h => h) hv ?_ ?_ ?_ ?_ ?_ ?_ ?_ ?_
  · simp only [NumOf, nK_append, List.length_append, List.length_singleton]
    constructor <;> (try simp) <;> omega
  · exact known1_mono ht rfl (fun i h => h) hv (fun h => .inl h)
  · refine known2_mono ht rfl (fun i h => h) hv ?_ (fun _ => .inl (hbusy _))
    intro i hi _
    exact .inl ⟨hi, by simp only; omega⟩
  · intro h; simp at h
  · intro _
    exact ⟨by omega, .inr (.inr ⟨t, _, set_same ht, hbusy _, by simp⟩)⟩
  · intro h; simp at h
  · intro h; simp at h
  · intro h; simp at h
  · intro h; simp at h

theorem step_dispose {s : St} {t : Nat} {h w : Nat} {v : List Nat} (hinv : Inv s)
    (ht : s.th[t]? = some ⟨h, w, .dispose, v⟩) :
    Inv { s with th := s.th.set t ⟨h, w, .weakRel, s.log.length :: v⟩, log := s.log ++ [⟨.dispose, v⟩] } := by
  obtain ⟨n1, n2, n3, n4, n5, n6⟩ := hinv.num
  obtain ⟨k1, k2, k3, k4, k5, l1, l2, l3, l4, l5⟩ := sums_set (y := ⟨h, w, .weakRel, s.log.length :: v⟩) ht
  simp [pc_at] at k3 k4 k5 l3
  simp only at k1 k2
  simp only at l1 l2
  have hv : ∀ i ∈ v, i ∈ s.log.length :: v := fun i h => List.mem_cons_of_mem _ h
  refine inv_event (x' := ⟨h, w, .weakRel, s.log.length :: v⟩) (ev := ⟨.dispose, v⟩)
    hinv ht rfl rfl ?_ (.inl (.inr (.inr (.inl rfl)))) (by simp) (fun i h => h) hv ?_ ?_ ?_ ?_ ?_ ?_ ?_ ?_
  · simp only [NumOf, nK_append, List.length_append, List.length_singleton]
    constructor <;> (try simp) <;> omega
  · exact known1_mono ht rfl (fun i h => h) hv (fun h => .inl h)
  · refine known2_mono ht rfl (fun i h => h) hv ?_ (fun _ => .inl (.inr (.inr (.inr rfl))))
    intro i hi _
    exact .inl ⟨hi, by simp only; omega⟩
  · intro h; simp at h
  · intro _
    exact ⟨by omega, .inr (.inr ⟨t, _, set_same ht, .inr (.inr (.inr rfl)), by simp⟩)⟩
  · intro h; simp at h
  · intro h; simp at h
  · intro _ i hi
    exact hinv.use2 t _ ht rfl i hi
  · intro h; simp at h

theorem step_distory {s : St} {t : Nat} {h w : Nat} {v : List Nat} (hinv : Inv s)
    (ht : s.th[t]? = some ⟨h, w, .distory, v⟩) :
    Inv { s with th := s.th.set t ⟨h, w, .idle, s.log.length :: v⟩, log := s.log ++ [⟨.free, v⟩] } := by
  obtain ⟨n1, n2, n3, n4, n5, n6⟩ := hinv.num
  obtain ⟨k1, k2, k3, k4, k5, l1, l2, l3, l4, l5⟩ := sums_set (y := ⟨h, w, .idle, s.log.length :: v⟩) ht
  simp [pc_at] at k3 k4 k5 l5
  simp only at k1 k2
  simp only at l1 l2
  have hv : ∀ i ∈ v, i ∈ s.log.length :: v := fun i h => List.mem_cons_of_mem _ h
  refine inv_event (x' := ⟨h, w, .idle, s.log.length :: v⟩) (ev := ⟨.free, v⟩)
    hinv ht rfl rfl ?_ (.inr rfl) (by simp) (fun i h => h) hv ?_ ?_ ?_ ?_ ?_ ?_ ?_ ?_
  · simp only [NumOf, nK_append, List.length_append, List.length_singleton]
    constructor <;> (try simp) <;> omega
  · exact known1_mono ht rfl (fun i h => h) hv (fun h => .inl h)
  · refine known2_mono ht rfl (fun i h => h) hv ?_ ?_
    · intro i hi _
      exact .inl ⟨hi, by simp only; omega⟩
    · rintro (h | h | h | h)
      · exact .inl (.inl h)
      · exact .inl (.inr (.inl h))
      · simp at h
      · simp at h
  · intro h; simp at h
  · intro h; simp at h
  · intro h; simp at h
  · intro h; simp at h
  · intro h; simp at h
  · intro _ i hi
    exact hinv.blk2 t _ ht rfl i hi

/-- A step without an event: pointers move between two threads, and views grow. -/
theorem inv_move {s : St} {th' : List Thread} (hinv : Inv s)
    (hnum : NumOf { s with th := th' })
    (hk1 : ∀ (u : Nat) (y : Thread), s.th[u]? = some y → 0 < y.holds →
      ∃ (u' : Nat) (y' : Thread), th'[u']? = some y' ∧ 0 < y'.holds ∧ ∀ i ∈ y.view, i ∈ y'.view)
    (hk2 : ∀ (u : Nat) (y : Thread), s.th[u]? = some y → Busy y →
      ∃ (u' : Nat) (y' : Thread), th'[u']? = some y' ∧ Busy y' ∧ ∀ i ∈ y.view, i ∈ y'.view)
    (hsum : sumT (·.holds) th' = sumT (·.holds) s.th)
    (hpc : ∀ (u : Nat) (y' : Thread), th'[u]? = some y' →
      ∃ y, s.th[u]? = some y ∧ y'.pc = y.pc ∧ ∀ i ∈ y.view, i ∈ y'.view)
    (hmake : ∀ (u : Nat) (y' : Thread), th'[u]? = some y' → Busy y' ∨ y'.pc = .distory → 0 ∈ y'.view) :
    Inv { s with th := th' } := by
  refine ⟨hnum, hinv.make0, hinv.make1, hmake, ?_, ?_, hinv.use3, ?_, ?_, hinv.blk3⟩
  · intro i hi
    rcases hinv.use1 i hi with h | ⟨u, y, hy, hp, hv⟩
    · exact .inl h
    · obtain ⟨u', y', a, b, c⟩ := hk1 u y hy hp
      exact .inr ⟨u', y', a, b, c i hv⟩
  · intro u y' hy' hp i hi
    obtain ⟨y, hy, he, hv⟩ := hpc u y' hy'
    exact hv i (hinv.use2 u y hy (he ▸ hp) i hi)
  · intro i hi
    rcases hinv.blk1 i hi with h | ⟨h, hp⟩ | ⟨u, y, hy, hp, hv⟩
    · exact .inl h
    · exact .inr (.inl ⟨h, by simp only [hsum]; exact hp⟩)
    · obtain ⟨u', y', a, b, c⟩ := hk2 u y hy hp
      exact .inr (.inr ⟨u', y', a, b, c i hv⟩)
  · intro u y' hy' hp i hi
    obtain ⟨y, hy, he, hv⟩ := hpc u y' hy'
    exact hv i (hinv.blk2 u y hy (he ▸ hp) i hi)

/-- Two threads change: one gives, the other receives. -/
theorem step_give {s : St} {t u : Nat} {h w h' w' a b a' b' : Nat} {p : Pc} {v v' : List Nat} (hinv : Inv s)
    (ht : s.th[t]? = some ⟨h, w, .idle, v⟩) (hu : s.th[u]? = some ⟨a, b, p, v'⟩) (hne : t ≠ u)
    (hs : (h = h' + 1 ∧ a' = a + 1 ∧ w' = w ∧ b' = b) ∨ (w = w' + 1 ∧ b' = b + 1 ∧ h' = h ∧ a' = a)) :
    Inv { s with th := (s.th.set t ⟨h', w', .idle, v⟩).set u ⟨a', b', p, v' ++ v⟩ } := by
  have hu' := set_other (y := ⟨h', w', .idle, v⟩) hu (fun he => hne he.symm)
  obtain ⟨k1, k2, k3, k4, k5, l1, l2, l3, l4, l5⟩ := sums_set (y := ⟨h', w', .idle, v⟩) ht
  obtain ⟨m1, m2, m3, m4, m5, o1, o2, o3, o4, o5⟩ := sums_set (y := ⟨a', b', p, v' ++ v⟩) hu'
  simp only [pc_at] at k3 k4 k5 m3 m4 m5
  simp only at k1 k2 m1 m2
  have ht' := set_same (y := ⟨h', w', .idle, v⟩) ht
  have hself := set_same (y := ⟨a', b', p, v' ++ v⟩) hu'
  have hother := fun (z : Nat) (y : Thread) (hy : s.th[z]? = some y) (h1 : z ≠ t) (h2 : z ≠ u) =>
    set_other (y := ⟨a', b', p, v' ++ v⟩) (set_other (y := ⟨h', w', .idle, v⟩) hy h1) h2
  have hgiver := set_other (y := ⟨a', b', p, v' ++ v⟩) ht' hne
  have hx0 : 0 ∈ v := hinv.vmake t _ ht (.inl (by
    rcases hs with ⟨hs, _⟩ | ⟨hs, _⟩
    · exact .inl (by simp; omega)
    · exact .inr (.inl (by simp; omega))))
  refine inv_move hinv ?_ ?_ ?_ (by rcases hs with hs | hs <;> omega) ?_ ?_
  · obtain ⟨n1, n2, n3, n4, n5, n6⟩ := hinv.num
    rcases hs with hs | hs <;> constructor <;> simp only <;> omega
  · intro z y hy hp
    by_cases h1 : z = t
    · subst h1
      rw [ht] at hy; injection hy with hy; subst hy
      rcases hs with hs | hs
      · exact ⟨u, _, hself, by simp; omega, fun i hi => List.mem_append_right _ hi⟩
      · exact ⟨z, _, hgiver, by simp only at hp ⊢; omega, fun i hi => hi⟩
    · by_cases h2 : z = u
      · subst h2
        rw [hu] at hy; injection hy with hy; subst hy
        exact ⟨z, _, hself, by simp only at hp ⊢; omega, fun i hi => List.mem_append_left _ hi⟩
      · exact ⟨z, y, hother z y hy h1 h2, hp, fun i hi => hi⟩
  · intro z y hy hp
    by_cases h1 : z = t
    · subst h1
      rw [ht] at hy; injection hy with hy; subst hy
      refine ⟨u, _, hself, ?_, fun i hi => List.mem_append_right _ hi⟩
      rcases hs with hs | hs
      · exact .inl (by simp; omega)
      · exact .inr (.inl (by simp; omega))
    · by_cases h2 : z = u
      · subst h2
        rw [hu] at hy; injection hy with hy; subst hy
        refine ⟨z, _, hself, ?_, fun i hi => List.mem_append_left _ hi⟩
        rcases hp with hp | hp | hp | hp
        · exact .inl (by simp only at hp ⊢; omega)
        · exact .inr (.inl (by simp only at hp ⊢; omega))
        · exact .inr (.inr (.inl hp))
        · exact .inr (.inr (.inr hp))
      · exact ⟨z, y, hother z y hy h1 h2, hp, fun i hi => hi⟩
  · intro z y' hy'
    rcases get_set hy' with ⟨rfl, rfl⟩ | ⟨_, hy'⟩
    · exact ⟨_, hu, rfl, fun i hi => List.mem_append_left _ hi⟩
    · rcases get_set hy' with ⟨rfl, rfl⟩ | ⟨_, hy'⟩
      · exact ⟨_, ht, rfl, fun i hi => hi⟩
      · exact ⟨_, hy', rfl, fun i hi => hi⟩
  · intro z y' hy' hb
    rcases get_set hy' with ⟨rfl, rfl⟩ | ⟨_, hy'⟩
    · exact List.mem_append_right _ hx0
    · rcases get_set hy' with ⟨rfl, rfl⟩ | ⟨_, hy'⟩
      · exact hx0
      · exact hinv.vmake z y' hy' hb

theorem step_sync {s : St} {u : Nat} {a b : Nat} {p : Pc} {v v' : List Nat} (hinv : Inv s)
    (hu : s.th[u]? = some ⟨a, b, p, v'⟩) : Inv { s with th := s.th.set u ⟨a, b, p, v' ++ v⟩ } := by
  obtain ⟨m1, m2, m3, m4, m5, o1, o2, o3, o4, o5⟩ := sums_set (y := ⟨a, b, p, v' ++ v⟩) hu
  simp only [pc_at] at m3 m4 m5
  simp only at m1 m2
  have hself := set_same (y := ⟨a, b, p, v' ++ v⟩) hu
  refine inv_move hinv ?_ ?_ ?_ (by omega) ?_ ?_
  · obtain ⟨n1, n2, n3, n4, n5, n6⟩ := hinv.num
    constructor <;> simp only <;> omega
  · intro z y hy hp
    by_cases h2 : z = u
    · subst h2
      rw [hu] at hy; injection hy with hy; subst hy
      exact ⟨z, _, hself, hp, fun i hi => List.mem_append_left _ hi⟩
    · exact ⟨z, y, set_other hy h2, hp, fun i hi => hi⟩
  · intro z y hy hp
    by_cases h2 : z = u
    · subst h2
      rw [hu] at hy; injection hy with hy; subst hy
      exact ⟨z, _, hself, hp, fun i hi => List.mem_append_left _ hi⟩
    · exact ⟨z, y, set_other hy h2, hp, fun i hi => hi⟩
  · intro z y' hy'
    rcases get_set hy' with ⟨rfl, rfl⟩ | ⟨_, hy'⟩
    · exact ⟨_, hu, rfl, fun i hi => List.mem_append_left _ hi⟩
    · exact ⟨_, hy', rfl, fun i hi => hi⟩
  · intro z y' hy' hb
    rcases get_set hy' with ⟨rfl, rfl⟩ | ⟨_, hy'⟩
    · exact List.mem_append_left _ (hinv.vmake z _ hu hb)
    · exact hinv.vmake z y' hy' hb

theorem inv_start (n : Nat) : Inv (start n) := by
  have hz : ∀ (f : Thread → Nat), f ⟨0, 0, .idle, []⟩ = 0 → sumT f (List.replicate n ⟨0, 0, .idle, []⟩) = 0 := by
    intro f hf
    induction n with
    | zero => rfl
    | succ n ih => simp [sumT, List.replicate_succ, hf] at ih ⊢
  have hs : ∀ (f : Thread → Nat), f ⟨0, 0, .idle, []⟩ = 0 → sumT f (start n).th = f ⟨1, 0, .idle, [0]⟩ := by
    intro f hf
    have := hz f hf
    simp [start, sumT] at this ⊢
    simp [hf]
  have hth : ∀ (u : Nat) (x : Thread), (start n).th[u]? = some x → x = ⟨1, 0, .idle, [0]⟩ ∨ x = ⟨0, 0, .idle, []⟩ := by
    intro u x hx
    cases u with
    | zero => simp [start] at hx; exact .inl hx.symm
    | succ u =>
      have := List.mem_of_getElem? hx
      simp only [start, List.mem_cons, List.mem_replicate] at this
      rcases this with h | ⟨_, h⟩
      · exact .inl h
      · exact .inr h
  have hlog : ∀ (i : Nat) (e : Event), (start n).log[i]? = some e → i = 0 ∧ e = ⟨.make, []⟩ := by
    intro i e he
    cases i with
    | zero => simp [start] at he; exact ⟨rfl, he.symm⟩
    | succ i => simp [start] at he
  refine ⟨?_, ⟨_, rfl, rfl⟩, ?_, ?_, ?_, ?_, ?_, ?_, ?_, ?_⟩
  · simp only [NumOf]
    rw [hs (·.holds) rfl, hs (·.weaks) rfl, hs (isPc .dispose) rfl, hs (isPc .weakRel) rfl, hs (isPc .distory) rfl]
    constructor <;> first | rfl | exact Nat.le_refl _
  · intro i e he hi; obtain ⟨rfl, _⟩ := hlog i e he; omega
  · intro u x hx hb
    rcases hth u x hx with rfl | rfl
    · simp
    · simp [Busy] at hb
  · rintro i ⟨e, he, hk⟩; obtain ⟨_, rfl⟩ := hlog i e he; exact absurd hk (by decide)
  · rintro u x hx hp i ⟨e, he, hk⟩; obtain ⟨_, rfl⟩ := hlog i e he; exact absurd hk (by decide)
  · rintro j d hd hk; obtain ⟨_, rfl⟩ := hlog j d hd; exact absurd hk (by decide)
  · rintro i ⟨e, he, hk⟩; obtain ⟨_, rfl⟩ := hlog i e he; exact absurd hk (by decide)
  · rintro u x hx hp i ⟨e, he, hk⟩; obtain ⟨_, rfl⟩ := hlog i e he; exact absurd hk (by decide)
  · rintro j d hd hk; obtain ⟨_, rfl⟩ := hlog j d hd; exact absurd hk (by decide)

theorem step_inv {s s' : St} {t : Nat} {a : Act} (hinv : Inv s) (hb : s.log.length + 2 < 2 ^ 64) (h : step s t a = some s') :
    Inv s' ∧ s'.log.length ≤ s.log.length + 1 := by
  simp only [step] at h
  rcases ht : s.th[t]? with _ | ⟨hh, w, p, v⟩
  · simp [ht] at h
  simp only [ht] at h
  cases a with
  | copyShared =>
    cases p <;> simp only at h <;> try (cases h; done)
    split at h
    · exact absurd h (by simp)
    · rename_i h0
      injection h with h; subst h
      exact ⟨step_copyShared hinv ht h0 hb rfl, by simp⟩
  | dropShared =>
    cases p <;> simp only at h <;> try (cases h; done)
    split at h
    · exact absurd h (by simp)
    · rename_i h0
      injection h with h; subst h
      exact ⟨step_dropShared hinv ht h0 rfl rfl, by simp⟩
  | copyWeak =>
    cases p <;> simp only at h <;> try (cases h; done)
    split at h
    · exact absurd h (by simp)
    · rename_i h0
      injection h with h; subst h
      exact ⟨step_copyWeak hinv ht h0 hb rfl, by simp⟩
  | dropWeak =>
    cases p <;> simp only at h <;> try (cases h; done)
    split at h
    · exact absurd h (by simp)
    · rename_i h0
      injection h with h; subst h
      exact ⟨step_weakDec hinv ht (.inl ⟨rfl, h0, rfl⟩) rfl rfl, by simp⟩
  | use =>
    cases p <;> simp only at h <;> try (cases h; done)
    split at h
    · exact absurd h (by simp)
    · rename_i h0
      injection h with h; subst h
      exact ⟨step_use hinv ht h0, by simp⟩
  | useCount =>
    cases p <;> simp only at h <;> try (cases h; done)
    split at h
    · exact absurd h (by simp)
    · rename_i h0
      injection h with h; subst h
      exact ⟨step_useCount hinv ht h0, by simp⟩
  | cont =>
    cases p <;> simp only at h
    · exact absurd h (by simp)
    · injection h with h; subst h
      exact ⟨step_dispose hinv ht, by simp⟩
    · injection h with h; subst h
      exact ⟨step_weakDec hinv ht (.inr ⟨rfl, rfl⟩) rfl rfl, by simp⟩
    · injection h with h; subst h
      exact ⟨step_distory hinv ht, by simp⟩
  | giveShared u =>
    cases p <;> simp only at h <;> try (cases h; done)
    rcases hu : s.th[u]? with _ | ⟨a, b, p, v'⟩
    · simp [hu] at h
    simp only [hu] at h
    split at h
    · exact absurd h (by simp)
    · rename_i h0
      injection h with h; subst h
      exact ⟨step_give hinv ht hu (fun he => h0 (.inr he)) (.inl ⟨by omega, rfl, rfl, rfl⟩), by simp⟩
  | giveWeak u =>
    cases p <;> simp only at h <;> try (cases h; done)
    rcases hu : s.th[u]? with _ | ⟨a, b, p, v'⟩
    · simp [hu] at h
    simp only [hu] at h
    split at h
    · exact absurd h (by simp)
    · rename_i h0
      injection h with h; subst h
      exact ⟨step_give hinv ht hu (fun he => h0 (.inr he)) (.inr ⟨by omega, rfl, rfl, rfl⟩), by simp⟩
  | sync u =>
    have h' : (match s.th[u]? with
      | none => none
      | some y => some { s with th := s.th.set u { y with view := y.view ++ v } }) = some s' := by
      cases p <;> exact h
    rcases hu : s.th[u]? with _ | ⟨a, b, p', v'⟩
    · simp [hu] at h'
    simp only [hu] at h'
    injection h' with h'; subst h'
    exact ⟨step_sync hinv hu, by simp⟩

theorem run_inv {s s' : St} {acts : List (Nat × Act)} (hinv : Inv s) (hb : s.log.length + acts.length + 1 < 2 ^ 64)
    (h : run s acts = some s') : Inv s' := by
  induction acts generalizing s with
  | nil => simp only [run] at h; injection h with h; subst h; exact hinv
  | cons x acts ih =>
    obtain ⟨t, a⟩ := x
    simp only [run, Option.bind_eq_some_iff] at h
    obtain ⟨s1, h1, h2⟩ := h
    simp only [List.length_cons] at hb
    obtain ⟨i1, i2⟩ := step_inv hinv (by omega) h1
    exact ih i1 (by omega) h2

/-! ### Happens-before is a strict order -/

/-- A set of events that contains all that happens before its members. -/
def Closed (l : List Event) (v : List Nat) : Prop := ∀ i ∈ v, ∃ e, l[i]? = some e ∧ ∀ k ∈ e.view, k ∈ v

structure Wf (s : St) : Prop where
  th : ∀ (u : Nat) (x : Thread), s.th[u]? = some x → Closed s.log x.view
  shared : Closed s.log s.shared.rel
  weak : Closed s.log s.weak.rel
  ev : ∀ (j : Nat) (e : Event), s.log[j]? = some e → Closed s.log e.view ∧ ∀ i ∈ e.view, i < j

theorem get_lt {α : Type} {l : List α} {i : Nat} {e : α} (h : l[i]? = some e) : i < l.length := by
  rcases Nat.lt_or_ge i l.length with h' | h'
  · exact h'
  · rw [List.getElem?_eq_none h'] at h; exact absurd h (by simp)

theorem Closed.lt {l : List Event} {v : List Nat} (h : Closed l v) {i : Nat} (hi : i ∈ v) : i < l.length := by
  obtain ⟨e, he, _⟩ := h i hi
  exact get_lt he

theorem Closed.grow {l : List Event} {v : List Nat} (h : Closed l v) (e : Event) : Closed (l ++ [e]) v := by
  intro i hi
  obtain ⟨f, hf, hk⟩ := h i hi
  exact ⟨f, by rw [List.getElem?_append_left (get_lt hf)]; exact hf, hk⟩

theorem Closed.append {l : List Event} {v w : List Nat} (h : Closed l v) (h' : Closed l w) : Closed l (v ++ w) := by
  intro i hi
  rcases List.mem_append.mp hi with hi | hi
  · obtain ⟨f, hf, hk⟩ := h i hi
    exact ⟨f, hf, fun k hk' => List.mem_append_left _ (hk k hk')⟩
  · obtain ⟨f, hf, hk⟩ := h' i hi
    exact ⟨f, hf, fun k hk' => List.mem_append_right _ (hk k hk')⟩

theorem Closed.cons {l : List Event} {v : List Nat} (k : Kind) (h : Closed l v) : Closed (l ++ [⟨k, v⟩]) (l.length :: v) := by
  intro i hi
  rcases List.mem_cons.mp hi with rfl | hi
  · exact ⟨⟨k, v⟩, by simp, fun j hj => List.mem_cons_of_mem _ hj⟩
  · obtain ⟨f, hf, hk⟩ := h.grow ⟨k, v⟩ i hi
    exact ⟨f, hf, fun j hj => List.mem_cons_of_mem _ (hk j hj)⟩

theorem rmw_closed {l : List Event} {v : List Nat} {c : Cell} (o : Order) (f : BitVec 64 → BitVec 64) (hv : Closed l v)
    (hc : Closed l c.rel) :
    Closed l (rmw o f c l.length v).2.1 ∧ Closed (l ++ [⟨.count, (rmw o f c l.length v).2.1⟩]) (rmw o f c l.length v).2.2 ∧
      Closed (l ++ [⟨.count, (rmw o f c l.length v).2.1⟩]) (rmw o f c l.length v).1.rel := by
  have h1 : Closed l (if o.acquires then v ++ c.rel else v) := by
    split
    · exact hv.append hc
    · exact hv
  refine ⟨h1, h1.cons .count, ?_⟩
  simp only [rmw]
  by_cases hr : o.releases = true
  · rw [if_pos hr]; exact (h1.cons .count).append (hc.grow _)
  · rw [if_neg hr]; exact hc.grow _

theorem wf_event {s : St} {t : Nat} {y : Thread} {c d : Cell} {ev : Event} (hw : Wf s) (hy : Closed (s.log ++ [ev]) y.view)
    (hc : Closed (s.log ++ [ev]) c.rel) (hd : Closed (s.log ++ [ev]) d.rel) (he : Closed s.log ev.view) :
    Wf ⟨c, d, s.th.set t y, s.log ++ [ev]⟩ := by
  refine ⟨?_, hc, hd, ?_⟩
  · intro u x hx
    rcases get_set hx with ⟨_, rfl⟩ | ⟨_, hx⟩
    · exact hy
    · exact (hw.th u x hx).grow _
  · intro j e hj
    rcases get_append hj with hj | ⟨rfl, rfl⟩
    · exact ⟨(hw.ev j e hj).1.grow _, (hw.ev j e hj).2⟩
    · exact ⟨he.grow _, fun i hi => he.lt hi⟩

theorem step_wf {s s' : St} {t : Nat} {a : Act} (hw : Wf s) (h : step s t a = some s') : Wf s' := by
  simp only [step] at h
  rcases ht : s.th[t]? with _ | ⟨hh, w, p, v⟩
  · simp [ht] at h
  simp only [ht] at h
  have hv : Closed s.log v := hw.th t _ ht
  cases a with
  | copyShared =>
    cases p <;> simp only at h <;> try (cases h; done)
    split at h
    · exact absurd h (by simp)
    · injection h with h; subst h
      obtain ⟨k1, k2, k3⟩ := rmw_closed incOrder (· + 1) hv hw.shared
      exact wf_event hw k2 k3 (hw.weak.grow _) k1
  | dropShared =>
    cases p <;> simp only at h <;> try (cases h; done)
    split at h
    · exact absurd h (by simp)
    · injection h with h; subst h
      obtain ⟨k1, k2, k3⟩ := rmw_closed decOrder (· - 1) hv hw.shared
      exact wf_event hw k2 k3 (hw.weak.grow _) k1
  | copyWeak =>
    cases p <;> simp only at h <;> try (cases h; done)
    split at h
    · exact absurd h (by simp)
    · injection h with h; subst h
      obtain ⟨k1, k2, k3⟩ := rmw_closed incOrder (· + 1) hv hw.weak
      exact wf_event hw k2 (hw.shared.grow _) k3 k1
  | dropWeak =>
    cases p <;> simp only at h <;> try (cases h; done)
    split at h
    · exact absurd h (by simp)
    · injection h with h; subst h
      obtain ⟨k1, k2, k3⟩ := rmw_closed decOrder (· - 1) hv hw.weak
      exact wf_event hw k2 (hw.shared.grow _) k3 k1
  | use =>
    cases p <;> simp only at h <;> try (cases h; done)
    split at h
    · exact absurd h (by simp)
    · injection h with h; subst h
      exact wf_event hw (hv.cons .use) (hw.shared.grow _) (hw.weak.grow _) hv
  | useCount =>
    cases p <;> simp only at h <;> try (cases h; done)
    split at h
    · exact absurd h (by simp)
    · injection h with h; subst h
      exact wf_event hw (hv.cons .count) (hw.shared.grow _) (hw.weak.grow _) hv
  | cont =>
    cases p <;> simp only at h
    · exact absurd h (by simp)
    · injection h with h; subst h
      exact wf_event hw (hv.cons .dispose) (hw.shared.grow _) (hw.weak.grow _) hv
    · injection h with h; subst h
      obtain ⟨k1, k2, k3⟩ := rmw_closed decOrder (· - 1) hv hw.weak
      exact wf_event hw k2 (hw.shared.grow _) k3 k1
    · injection h with h; subst h
      exact wf_event hw (hv.cons .free) (hw.shared.grow _) (hw.weak.grow _) hv
  | giveShared u =>
    cases p <;> simp only at h <;> try (cases h; done)
    rcases hu : s.th[u]? with _ | ⟨a, b, p, v'⟩
    · simp [hu] at h
    simp only [hu] at h
    split at h
    · exact absurd h (by simp)
    · injection h with h; subst h
      refine ⟨?_, hw.shared, hw.weak, hw.ev⟩
      intro z x hx
      rcases get_set hx with ⟨_, rfl⟩ | ⟨_, hx⟩
      · exact (hw.th u _ hu).append hv
      · rcases get_set hx with ⟨_, rfl⟩ | ⟨_, hx⟩
        · exact hv
        · exact hw.th z x hx
  | giveWeak u =>
    cases p <;> simp only at h <;> try (cases h; done)
    rcases hu : s.th[u]? with _ | ⟨a, b, p, v'⟩
    · simp [hu] at h
    simp only [hu] at h
    split at h
    · exact absurd h (by simp)
    · injection h with h; subst h
      refine ⟨?_, hw.shared, hw.weak, hw.ev⟩
      intro z x hx
      rcases get_set hx with ⟨_, rfl⟩ | ⟨_, hx⟩
      · exact (hw.th u _ hu).append hv
      · rcases get_set hx with ⟨_, rfl⟩ | ⟨_, hx⟩
        · exact hv
        · exact hw.th z x hx
  | sync u =>
    have h' : (match s.th[u]? with
      | none => none
      | some y => some { s with th := s.th.set u { y with view := y.view ++ v } }) = some s' := by
      cases p <;> exact h
    rcases hu : s.th[u]? with _ | ⟨a, b, p', v'⟩
    · simp [hu] at h'
    simp only [hu] at h'
    injection h' with h'; subst h'
    refine ⟨?_, hw.shared, hw.weak, hw.ev⟩
    intro z x hx
    rcases get_set hx with ⟨_, rfl⟩ | ⟨_, hx⟩
    · exact (hw.th u _ hu).append hv
    · exact hw.th z x hx

theorem run_wf {s s' : St} {acts : List (Nat × Act)} (hw : Wf s) (h : run s acts = some s') : Wf s' := by
  induction acts generalizing s with
  | nil => simp only [run] at h; injection h with h; subst h; exact hw
  | cons x acts ih =>
    obtain ⟨t, a⟩ := x
    simp only [run, Option.bind_eq_some_iff] at h
    obtain ⟨s1, h1, h2⟩ := h
    exact ih (step_wf hw h1) h2

theorem wf_start (n : Nat) : Wf (start n) := by
  refine ⟨?_, fun i hi => absurd hi (by simp [start]), fun i hi => absurd hi (by simp [start]), ?_⟩
  · intro u x hx
    have := List.mem_of_getElem? hx
    simp only [start, List.mem_cons, List.mem_replicate] at this
    rcases this with rfl | ⟨_, rfl⟩
    · intro i hi
      simp at hi
      subst hi
      exact ⟨_, rfl, fun k hk => absurd hk (by simp)⟩
    · intro i hi; simp at hi
  · intro j e hj
    cases j with
    | zero => simp [start] at hj; subst hj; exact ⟨fun i hi => absurd hi (by simp), fun i hi => absurd hi (by simp)⟩
    | succ j => simp [start] at hj

end Verif.RefOrder
