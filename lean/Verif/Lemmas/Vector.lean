import Verif.Model.Vector
import Verif.Lemmas.ObjHeap

/-! Lemmas about single vector operations. -/

set_option backward.isDefEq.respectTransparency false

namespace Verif.Vector
open Verif Verif.OH

variable {α : Type}

/-- Slot contents for a list entry. -/
def lv : Option α → Slot α
  | some a => .obj (some a)
  | none => .raw

@[simp] theorem lv_some (a : α) : lv (some a) = .obj (some a) := rfl
@[simp] theorem lv_none : lv (none : Option α) = .raw := rfl

/-- The vector object `v` in heap `h` stands for the sequence `l`. With
`z = false` a vector with storage has a positive capacity. -/
def Rep (z : Bool) (h : Heap α) (v : Vec) (l : List α) : Prop :=
  v.finish = l.length ∧ l.length ≤ v.endS ∧
  match v.start with
  | none => v.endS = 0
  | some b => (z = false → 0 < v.endS) ∧ Own h b v.endS (fun i => lv l[i]?)

/-- Effect of an operation on one vector: what it stands for afterwards, and that
no other block is touched or leaked. -/
structure Trans (z : Bool) (h : Heap α) (v : Vec) (h' : Heap α) (v' : Vec) (l' : List α) : Prop where
  rep : Rep z h' v' l'
  fresh : Fresh h'
  frame : ∀ b, h.blocks b ≠ none → v.start ≠ some b → h'.blocks b = h.blocks b
  start : v'.start = v.start ∨ ∀ b, v'.start = some b → h.blocks b = none
  noleak : ∀ b B, h'.blocks b = some B →
    v'.start = some b ∨ (h.blocks b = some B ∧ v.start ≠ some b) ∨ (z = true ∧ B.cap = 0)

/-- An operation that works in place. -/
theorem Trans.inplace {z : Bool} {h h' : Heap α} {v v' : Vec} {l' : List α} {b : Nat}
    (hF : Fresh h) (hb : v.start = some b) (hb' : v'.start = some b) (hal : h.blocks b ≠ none)
    (hs : Same b h h') (hr : Rep z h' v' l') : Trans z h v h' v' l' where
  rep := hr
  fresh := hF.same hs hal
  frame := fun c _ hc => hs.2 c (by rintro rfl; exact hc hb)
  start := Or.inl (hb'.trans hb.symm)
  noleak := fun c B hc => by
    by_cases e : c = b
    · subst e; exact Or.inl hb'
    · rw [hs.2 c e] at hc
      exact Or.inr (Or.inl ⟨hc, by rw [hb]; simp; exact fun h => e h.symm⟩)

theorem Trans.refl {z : Bool} {h : Heap α} {v : Vec} {l : List α} (hF : Fresh h)
    (hr : Rep z h v l) : Trans z h v h v l where
  rep := hr
  fresh := hF
  frame := fun _ _ _ => rfl
  start := Or.inl rfl
  noleak := fun c B hc => by
    by_cases e : v.start = some c
    · exact Or.inl e
    · exact Or.inr (Or.inl ⟨hc, e⟩)

/-- Composition with an in-place operation on the new object. -/
theorem Trans.then {z : Bool} {h h1 h2 : Heap α} {v v1 v2 : Vec} {l1 l2 : List α}
    (t1 : Trans z h v h1 v1 l1) (t2 : Trans z h1 v1 h2 v2 l2) (hst : v2.start = v1.start) :
    Trans z h v h2 v2 l2 where
  rep := t2.rep
  fresh := t2.fresh
  frame := fun b hb hv => by
    have e1 := t1.frame b hb hv
    rw [t2.frame b (by rw [e1]; exact hb) ?_, e1]
    rcases t1.start with e | e
    · rw [e]; exact hv
    · intro e'; exact hb (e b e')
  start := by
    rw [hst]; exact t1.start
  noleak := fun b B hB => by
    rcases t2.noleak b B hB with e | ⟨e, e'⟩ | e
    · exact Or.inl e
    · rcases t1.noleak b B e with e'' | e'' | e''
      · exact absurd e'' e'
      · exact Or.inr (Or.inl e'')
      · exact Or.inr (Or.inr e'')
    · exact Or.inr (Or.inr e)

theorem Rep.some_of_pos {z : Bool} {h : Heap α} {v : Vec} {l : List α} (hr : Rep z h v l)
    (hpos : 0 < v.endS) : ∃ b, v.start = some b ∧ Own h b v.endS (fun i => lv l[i]?) := by
  obtain ⟨h1, h2, h3⟩ := hr
  cases hs : v.start with
  | none => rw [hs] at h3; simp only at h3; omega
  | some b => rw [hs] at h3; exact ⟨b, rfl, h3.2⟩

theorem Rep.mk' {z : Bool} {h : Heap α} {v : Vec} {l : List α} {b : Nat} (hst : v.start = some b)
    (hf : v.finish = l.length) (hl : l.length ≤ v.endS) (hz : z = false → 0 < v.endS)
    (ho : Own h b v.endS (fun i => lv l[i]?)) : Rep z h v l :=
  ⟨hf, hl, by rw [hst]; exact ⟨hz, ho⟩⟩

theorem allocate_eq (h : Heap α) (n : Nat) :
    allocate h n = ((alloc h n).2, ⟨some h.next, 0, n⟩) := rfl

theorem alloc_fresh {h : Heap α} (hF : Fresh h) (n : Nat) : Fresh (alloc h n).2 := by
  intro b hb
  simp only [alloc] at hb ⊢
  rw [if_neg (by omega)]
  exact hF b (by omega)

theorem alloc_other (h : Heap α) (n b : Nat) (hb : b ≠ h.next) :
    (alloc h n).2.blocks b = h.blocks b := by
  simp [alloc, hb]

/-! ### Destruction -/

/-- Destroying a vector: afterwards its block is gone and nothing else has changed.
With `z = true` a block of capacity 0 stays behind. -/
theorem dtor_spec {z : Bool} {h : Heap α} {v : Vec} {l : List (Option α)} (hfin : v.finish = l.length)
    (hcap : l.length ≤ v.endS)
    (hrep : match v.start with
      | none => v.endS = 0
      | some b => (z = false → 0 < v.endS) ∧
          Own h b v.endS (fun i => match l[i]? with | some a => .obj a | none => .raw)) :
    ∃ h', dtor h v = .ok h' ∧ h'.next = h.next ∧
      (∀ b, v.start ≠ some b → h'.blocks b = h.blocks b) ∧
      (∀ b, v.start = some b → h'.blocks b = none ∨ (z = true ∧ h'.blocks b = h.blocks b ∧ v.endS = 0)) := by
  cases hs : v.start with
  | none =>
    rw [hs] at hrep
    simp only at hrep
    have h0 : v.finish = 0 := by omega
    refine ⟨h, ?_, rfl, fun _ _ => rfl, by simp⟩
    simp [dtor, Vec.size, Vec.capacity, h0, hrep]
  | some b =>
    rw [hs] at hrep
    obtain ⟨hz, ho⟩ := hrep
    obtain ⟨h1, e1, o1, s1⟩ := destroyRange_own ho (i := 0) (j := v.finish) (by omega) (by omega)
      (fun k _ hk => by
        have : k < l.length := by omega
        exact ⟨l[k], by simp [this]⟩)
    have e1' : (if v.size ≠ 0 then destroyRange h v.start 0 v.finish else Res.ok h) = .ok h1 ∨
        (v.finish = 0 ∧ (if v.size ≠ 0 then destroyRange h v.start 0 v.finish else Res.ok h) = .ok h) := by
      by_cases e : v.size ≠ 0
      · left; rw [if_pos e, hs]; exact e1
      · right; refine ⟨by simpa [Vec.size] using e, ?_⟩; rw [if_neg e]
    have key : ∃ h2, (if v.size ≠ 0 then destroyRange h v.start 0 v.finish else Res.ok h) = .ok h2 ∧
        Own h2 b v.endS (fun _ => .raw) ∧ Same b h h2 ∧ (v.endS = 0 → h2 = h) := by
      rcases e1' with e | ⟨e0, e⟩
      · by_cases hv0 : v.finish = 0
        · refine ⟨h, ?_, ho.congr ?_, Same.refl b h, fun _ => rfl⟩
          · rw [if_neg (by simpa [Vec.size] using hv0)]
          · intro i _
            have : l = [] := List.length_eq_zero_iff.mp (by omega)
            simp [this]
        · refine ⟨h1, e, o1.congr ?_, s1, fun h0 => by omega⟩
          intro i _
          by_cases hi : i < v.finish
          · rw [if_pos ⟨by omega, hi⟩]
          · rw [if_neg (by omega), List.getElem?_eq_none (by omega)]
      · refine ⟨h, e, ho.congr ?_, Same.refl b h, fun _ => rfl⟩
        intro i _
        have : l = [] := List.length_eq_zero_iff.mp (by omega)
        simp [this]
    obtain ⟨h2, e2, o2, s2, z2⟩ := key
    by_cases hc : v.endS = 0
    · have : h2 = h := z2 hc
      subst this
      refine ⟨h2, ?_, rfl, fun _ _ => rfl, ?_⟩
      · simp only [dtor, Vec.capacity, hc]; rw [e2]; simp
      · intro c hc'
        right
        refine ⟨?_, rfl, hc⟩
        cases z with
        | true => rfl
        | false => exact absurd (hz rfl) (by omega)
    · refine ⟨free h2 b, ?_, s2.1, ?_, ?_⟩
      · simp only [dtor, Vec.capacity]
        rw [e2, Res.ok_bind, if_pos hc, hs]
        exact dealloc_own o2 (fun _ _ => rfl)
      · intro c hc'
        have : c ≠ b := by rintro rfl; exact hc' rfl
        simp [free, this, s2.2 c this]
      · intro c hc'
        simp only [Option.some.injEq] at hc'
        subst hc'
        left; simp [free]

theorem Rep.dtor {z : Bool} {h : Heap α} {v : Vec} {l : List α} (hr : Rep z h v l) :
    ∃ h', Vector.dtor h v = .ok h' ∧ h'.next = h.next ∧
      (∀ b, v.start ≠ some b → h'.blocks b = h.blocks b) ∧
      (∀ b, v.start = some b → h'.blocks b = none ∨ (z = true ∧ h'.blocks b = h.blocks b ∧ v.endS = 0)) := by
  obtain ⟨h1, h2, h3⟩ := hr
  refine dtor_spec (l := l.map some) (by simpa using h1) (by simpa using h2) ?_
  cases hs : v.start with
  | none => rw [hs] at h3; exact h3
  | some b =>
    rw [hs] at h3
    refine ⟨h3.1, h3.2.congr ?_⟩
    intro i _
    simp only [List.getElem?_map]
    cases l[i]? <;> rfl

/-! ### Growth -/

theorem growLoop_spec {h : Heap α} {o v : Vec} {l : List α} {b c cap : Nat}
    (ho : o.start = some b) (hO : Own h b cap (fun i => lv l[i]?)) (hv : v.start = some c)
    (hbc : b ≠ c) (hfin : v.finish = 0) (hlc : l.length ≤ cap) (hlv : l.length ≤ v.endS)
    (hV : Own h c v.endS (fun _ => .raw)) :
    ∃ h', growLoop o l.length h v = .ok (h', { v with finish := l.length }) ∧
      Own h' b cap (fun i => if i < l.length then .obj none else .raw) ∧
      Own h' c v.endS (fun i => lv l[i]?) ∧ h'.next = h.next ∧
      (∀ x, x ≠ b → x ≠ c → h'.blocks x = h.blocks x) := by
  obtain ⟨⟨h', v'⟩, e, hI⟩ := forUp_inv
    (I := fun n (s : Heap α × Vec) => s.2 = { v with finish := n } ∧
      Own s.1 b cap (fun i => if i < n then .obj none else lv l[i]?) ∧
      Own s.1 c v.endS (fun i => if i < n then lv l[i]? else .raw) ∧ s.1.next = h.next ∧
      (∀ x, x ≠ b → x ≠ c → s.1.blocks x = h.blocks x))
    (f := fun i (s : Heap α × Vec) => do
      let (h, v) := s
      Res.require (decide (v.capacity ≥ v.size + 1))
      let x ← read h o.start i
      let h ← assign h o.start i none
      let h ← construct h v.start v.finish x
      .ok (h, { v with finish := v.finish + 1 })) (h, v) l.length
    ⟨by simp [← hfin], hO.congr (fun i _ => by simp), hV.congr (fun i _ => by simp), rfl,
      fun _ _ _ => rfl⟩ (by
      rintro n ⟨h1, v1⟩ hn ⟨rfl, o1, o2, hn1, hx⟩
      simp only at o1 o2 hn1 hx
      have hr := read_own o1 (i := n) (v := some l[n]) (by omega) (by simp [hn])
      obtain ⟨h2, e2, o3, s2⟩ := assign_own o1 (i := n) (w := some l[n]) (by omega) (by simp [hn]) none
      obtain ⟨h3, e3, o4, s3⟩ := construct_own (o2.other s2 hbc.symm) (i := n) (by omega)
        (by simp) (some l[n])
      refine ⟨(h3, { v with finish := n + 1 }), ?_, rfl, ?_, ?_, ?_, ?_⟩
      · have hc : decide (Vec.capacity { v with finish := n } ≥ Vec.size { v with finish := n } + 1) = true := by
          simp only [Vec.capacity, Vec.size, decide_eq_true_eq]; omega
        simp only [hc, Res.require_true, Res.ok_bind, ho, hr, e2]
        simp only [hv, e3, Res.ok_bind]
      · refine (o3.other s3 hbc).congr ?_
        intro i _
        by_cases e : i = n
        · rw [if_pos e, if_pos (by omega)]
        · by_cases e' : i < n
          · rw [if_neg e, if_pos e', if_pos (by omega)]
          · rw [if_neg e, if_neg e', if_neg (by omega)]
      · refine o4.congr ?_
        intro i _
        by_cases e : i = n
        · subst e; simp [hn]
        · by_cases e' : i < n
          · rw [if_neg e, if_pos e', if_pos (by omega)]
          · rw [if_neg e, if_neg e', if_neg (by omega)]
      · rw [s3.1, s2.1, hn1]
      · intro x hxb hxc
        rw [s3.2 x hxc, s2.2 x hxb, hx x hxb hxc])
  obtain ⟨hv', o1, o2, hn, hx⟩ := hI
  simp only at hv' o1 o2 hn hx
  subst hv'
  refine ⟨h', e, o1.congr ?_, o2.congr ?_, hn, hx⟩
  · intro i _
    by_cases e' : i < l.length
    · simp [e']
    · simp [e']
  · intro i _
    by_cases e' : i < l.length
    · simp [e']
    · simp [e']

theorem ensureCapacity_spec {z : Bool} {h : Heap α} {v : Vec} {l : List α} (hF : Fresh h)
    (hr : Rep z h v l) (n : Nat) :
    ∃ h' v', ensureCapacity h v n = .ok (h', v') ∧ Trans z h v h' v' l ∧ n ≤ v'.endS ∧
      (n ≤ v.endS → v' = v ∧ h' = h) ∧
      (v.endS < n → v'.endS = max (2 * v.endS) n ∧ v'.start = some h.next ∧
        (∀ b, v.start = some b → 0 < v.endS → h'.blocks b = none)) := by
  by_cases hc : n ≤ v.endS
  · refine ⟨h, v, ?_, Trans.refl hF hr, hc, fun _ => ⟨rfl, rfl⟩, fun h => by omega⟩
    rw [ensureCapacity, if_pos (by simpa [Vec.capacity] using hc)]
  · obtain ⟨h1, h2, h3⟩ := hr
    have hnew : (if v.capacity * 2 > n then v.capacity * 2 else n) = max (2 * v.endS) n := by
      simp only [Vec.capacity]
      split <;> omega
    generalize hN : max (2 * v.endS) n = N at *
    have hfinal : ∀ (h2' : Heap α), growLoop v v.size (alloc h N).2 ⟨some h.next, 0, N⟩ =
          .ok (h2', ⟨some h.next, l.length, N⟩) → ∀ h3', dtor h2' v = .ok h3' →
        ensureCapacity h v n = .ok (h3', ⟨some h.next, l.length, N⟩) := by
      intro h2' e1 h3' e2
      rw [ensureCapacity, if_neg (by simp only [Vec.capacity]; omega)]
      simp only [hnew, allocate_eq]
      rw [e1]
      simp only [Res.ok_bind]
      rw [e2]
      simp only [Res.ok_bind]
    cases hs : v.start with
    | none =>
      rw [hs] at h3
      simp only at h3
      have hl0 : l = [] := List.length_eq_zero_iff.mp (by omega)
      subst hl0
      have hg : growLoop v v.size (alloc h N).2 ⟨some h.next, 0, N⟩ =
          .ok ((alloc h N).2, ⟨some h.next, 0, N⟩) := by
        have : v.size = 0 := by simp [Vec.size, h1]
        rw [this]; rfl
      have hd : dtor (alloc h N).2 v = .ok (alloc h N).2 := by
        have : v.finish = 0 := by simpa using h1
        simp [dtor, Vec.size, Vec.capacity, this, h3]
      refine ⟨_, _, hfinal _ hg _ hd, ?_, by simp only; omega, fun h => by omega,
        fun _ => ⟨rfl, rfl, by simp⟩⟩
      refine { rep := ?_, fresh := alloc_fresh hF _, frame := ?_, start := ?_, noleak := ?_ }
      · refine Rep.mk' rfl (by simp) (by simp) (fun _ => by simp only; omega) ?_
        exact (alloc_own h N).congr (fun i _ => by simp)
      · intro b hb _
        exact alloc_other h N b (fun e => hb (e ▸ hF _ (Nat.le_refl _)))
      · right
        intro b hb
        simp only [Option.some.injEq] at hb
        subst hb
        exact hF _ (Nat.le_refl _)
      · intro b B hB
        by_cases e : b = h.next
        · left; simp [e]
        · rw [alloc_other h N b e] at hB
          right; left; exact ⟨hB, by simp [hs]⟩
    | some b =>
      rw [hs] at h3
      obtain ⟨hz, ho⟩ := h3
      have hbn : b ≠ h.next := fun e => ho.isSome (e ▸ hF _ (Nat.le_refl _))
      have ho' : Own (alloc h N).2 b v.endS (fun i => lv l[i]?) := by
        obtain ⟨B, hB, hB2⟩ := ho
        exact ⟨B, by rw [alloc_other h N b hbn]; exact hB, hB2⟩
      obtain ⟨h2', e1, oA, oB, hnx, hx⟩ := growLoop_spec (v := ⟨some h.next, 0, N⟩) hs ho' rfl hbn rfl
        (by omega) (by simp only; omega) (alloc_own h N)
      obtain ⟨h3', e2, hn3, hf3, hg3⟩ := dtor_spec (z := z) (h := h2') (v := v)
        (l := l.map (fun _ => none)) (by simpa using h1) (by simpa using h2)
        (by rw [hs]; refine ⟨hz, oA.congr ?_⟩
            intro i _
            by_cases e : i < l.length
            · simp [e]
            · simp [e])
      have e1' : growLoop v v.size (alloc h N).2 ⟨some h.next, 0, N⟩ =
          .ok (h2', ⟨some h.next, l.length, N⟩) := by
        have : v.size = l.length := h1
        rw [this]; exact e1
      refine ⟨_, _, hfinal _ e1' _ e2, ?_, by simp only; omega, fun h => by omega,
        fun _ => ⟨rfl, rfl, ?_⟩⟩
      · have oB3 : Own h3' h.next N (fun i => lv l[i]?) := by
          obtain ⟨B, hB, hB2⟩ := oB
          exact ⟨B, by rw [hf3 _ (by rw [hs]; simp; exact hbn)]; exact hB, hB2⟩
        refine { rep := ?_, fresh := ?_, frame := ?_, start := ?_, noleak := ?_ }
        · exact Rep.mk' rfl rfl (by simp only; omega) (fun _ => by simp only; omega) oB3
        · intro x hx'
          rw [hn3, hnx] at hx'
          have hlt : h.next + 1 ≤ x := hx'
          have hxb : x ≠ b := fun e => ho'.isSome (e ▸ alloc_fresh hF N x hx')
          rw [hf3 x (by rw [hs]; simp; exact fun h => hxb h.symm), hx x hxb (by omega)]
          exact alloc_fresh hF N x hx'
        · intro x hxs hxv
          have hxb : x ≠ b := by rintro rfl; exact hxv hs
          have hxn : x ≠ h.next := fun e => hxs (e ▸ hF _ (Nat.le_refl _))
          rw [hf3 x hxv, hx x hxb hxn, alloc_other h N x hxn]
        · right
          intro x hx'
          simp only [Option.some.injEq] at hx'
          subst hx'
          exact hF _ (Nat.le_refl _)
        · intro x B hB
          by_cases hxb : x = b
          · subst hxb
            rcases hg3 x hs with e | ⟨e, e', e''⟩
            · rw [hB] at e; simp at e
            · right; right
              refine ⟨e, ?_⟩
              obtain ⟨B', hB', hc', _⟩ := oA
              rw [e', hB'] at hB
              cases hB
              omega
          · by_cases hxn : x = h.next
            · left; simp [hxn]
            · right; left
              rw [hf3 x (by rw [hs]; simp; exact fun h => hxb h.symm), hx x hxb hxn,
                alloc_other h N x hxn] at hB
              exact ⟨hB, by rw [hs]; simp; exact fun h => hxb h.symm⟩
      · intro c hc' hpos
        rcases hg3 c (by rw [hs]; exact hc') with e | ⟨_, _, e⟩
        · exact e
        · omega

/-! ### In-place work on the storage after growth -/

/-- Shifting the last `n - idx` of `n` elements up by one slot. -/
theorem shiftUp_spec (E : Elem α) {h : Heap α} {b cap n idx : Nat} {l : List α} {d : Option α}
    (hn : n = l.length) (hcap : n < cap) (hidx : idx ≤ n)
    (ho : Own h b cap (fun i => if i = n then .obj d else lv l[i]?)) :
    ∃ h', forUp (n - idx) (fun k h =>
        moveAssign E h (some b) (n - k) (some b) (n - k - 1)) h = .ok h' ∧
      Own h' b cap (fun i => if i < idx then lv l[i]? else if i = idx then
          (if idx = n then .obj d else .obj none) else lv l[i - 1]?) ∧ Same b h h' := by
  obtain ⟨h', e, hI⟩ := forUp_inv
    (I := fun k h' => Own h' b cap (fun i => if i < n - k then lv l[i]? else if i = n - k then
          (if k = 0 then .obj d else .obj none) else lv l[i - 1]?) ∧ Same b h h')
    (f := fun k h => moveAssign E h (some b) (n - k) (some b) (n - k - 1)) h (n - idx)
    ⟨ho.congr (fun i _ => by
        by_cases e : i = n
        · simp [e]
        · by_cases e' : i < n
          · simp [e, e']
          · simp only [if_neg e, Nat.sub_zero, if_neg e']
            rw [List.getElem?_eq_none (by omega), List.getElem?_eq_none (by omega)]), Same.refl b h⟩ (by
      rintro k h1 hk ⟨o1, s1⟩
      have hlt : n - k - 1 < l.length := by omega
      obtain ⟨h2, e2, o2, s2⟩ := moveAssign_own E o1 (i := n - k) (j := n - k - 1)
        (v := some l[n - k - 1]) (w := if k = 0 then d else none) (by omega) (by omega) (by omega)
        (by (try simp only); rw [if_pos (by omega)]; simp [hlt])
        (by simp only [if_true]; rw [if_neg (by omega)]; split <;> rfl)
      refine ⟨h2, e2, o2.congr ?_, s1.trans s2⟩
      intro i _
      by_cases e3 : i = n - k
      · rw [if_pos e3, if_neg (by omega), if_neg (by omega), e3]
        simp [hlt]
      · rw [if_neg e3]
        by_cases e4 : i = n - k - 1
        · rw [if_pos e4, if_neg (by omega), if_pos (by omega), if_neg (by omega)]
        · rw [if_neg e4]
          by_cases e5 : i < n - k
          · rw [if_pos e5, if_pos (by omega)]
          · rw [if_neg e5, if_neg e3, if_neg (by omega), if_neg (by omega)])
  refine ⟨h', e, hI.1.congr ?_, hI.2⟩
  intro i _
  rw [show n - (n - idx) = idx by omega]
  by_cases e1 : i < idx
  · simp [e1]
  · by_cases e2 : i = idx
    · simp only [e1, e2, if_true]
      by_cases e3 : idx = n
      · simp [e3]
      · have : n - idx ≠ 0 := by omega
        simp [e3, this]
    · simp [e1, e2]

/-- Contents after inserting at `idx`. -/
theorem getElem?_insert (l : List α) (idx : Nat) (a : α) (hidx : idx ≤ l.length) (i : Nat) :
    (l.take idx ++ a :: l.drop idx)[i]? =
      if i < idx then l[i]? else if i = idx then some a else l[i - 1]? := by
  by_cases h1 : i < idx
  · rw [if_pos h1, List.getElem?_append_left (by simp; omega), List.getElem?_take_of_lt h1]
  · rw [if_neg h1, List.getElem?_append_right (by simp; omega)]
    simp only [List.length_take, Nat.min_eq_left hidx]
    by_cases h2 : i = idx
    · simp [h2]
    · rw [if_neg h2]
      obtain ⟨k, rfl⟩ : ∃ k, i = idx + (k + 1) := ⟨i - idx - 1, by omega⟩
      have : idx + (k + 1) - idx = k + 1 := by omega
      rw [this, List.getElem?_cons_succ, List.getElem?_drop]
      congr 1

theorem Trans.finish {z : Bool} {h h1 h2 : Heap α} {v v1 v2 : Vec} {l l2 : List α} {b : Nat}
    (t : Trans z h v h1 v1 l) (hb : v1.start = some b) (hb2 : v2.start = some b)
    (hs : Same b h1 h2) (hal : h1.blocks b ≠ none) (hf : v2.finish = l2.length)
    (hl : l2.length ≤ v2.endS) (hpos : z = false → 0 < v2.endS)
    (ho : Own h2 b v2.endS (fun i => lv l2[i]?)) : Trans z h v h2 v2 l2 :=
  t.then (Trans.inplace t.fresh hb hb2 hal hs (Rep.mk' hb2 hf hl hpos ho)) (by rw [hb, hb2])

/-- The situation after `ensure_capacity(size() + 1)`. -/
theorem grown {z : Bool} {h : Heap α} {v : Vec} {l : List α} (hF : Fresh h) (hr : Rep z h v l) :
    ∃ h1 v1 b, ensureCapacity h v (v.size + 1) = .ok (h1, v1) ∧ Trans z h v h1 v1 l ∧
      v1.start = some b ∧ v1.finish = l.length ∧ l.length < v1.endS ∧
      Own h1 b v1.endS (fun i => lv l[i]?) ∧
      (l.length + 1 ≤ v.endS → v1 = v ∧ h1 = h) ∧
      (v.endS < l.length + 1 → v1.endS = max (2 * v.endS) (l.length + 1) ∧ v1.start = some h.next ∧
        (∀ b, v.start = some b → 0 < v.endS → h1.blocks b = none)) := by
  obtain ⟨h1, v1, e, t, hc, hsame, hgr⟩ := ensureCapacity_spec hF hr (v.size + 1)
  have hsz : v.size = l.length := hr.1
  obtain ⟨b, hb, ho⟩ := t.rep.some_of_pos (by omega)
  rw [hsz] at hc hsame hgr
  exact ⟨h1, v1, b, e, t, hb, t.rep.1, by omega, ho, hsame, hgr⟩

theorem getElem?_snoc (l : List α) (a : α) (i : Nat) :
    (l ++ [a])[i]? = if i = l.length then some a else l[i]? := by
  by_cases h : i = l.length
  · simp [h]
  · rw [if_neg h]
    by_cases h' : i < l.length
    · rw [List.getElem?_append_left h']
    · rw [List.getElem?_eq_none (by simp; omega), List.getElem?_eq_none (by omega)]

theorem pushBack_spec {z : Bool} {h : Heap α} {v : Vec} {l : List α} (hF : Fresh h)
    (hr : Rep z h v l) (r : Ref α) (a : α)
    (hget : ∀ h1 v1, ensureCapacity h v (v.size + 1) = .ok (h1, v1) → r.get h1 = .ok (some a)) :
    ∃ h' v', pushBack h v r = .ok (h', v') ∧ Trans z h v h' v' (l ++ [a]) ∧
      (l.length + 1 ≤ v.endS → v'.start = v.start ∧ v'.endS = v.endS) ∧
      (v.endS < l.length + 1 → v'.endS = max (2 * v.endS) (l.length + 1) ∧ v'.start = some h.next) := by
  obtain ⟨h1, v1, b, e, t, hb, hf, hc, ho, hsame, hgr⟩ := grown hF hr
  obtain ⟨h2, e2, o2, s2⟩ := construct_own ho (i := l.length) hc (by simp) (some a)
  refine ⟨h2, { v1 with finish := v1.finish + 1 }, ?_, ?_, ?_, ?_⟩
  · simp only [pushBack, e, Res.ok_bind, hget h1 v1 e]
    rw [hb, hf, e2]
    rfl
  · refine t.finish hb hb s2 ho.isSome (by simp [hf]) (by simp; omega) (fun _ => by (try simp only); omega)
      (o2.congr ?_)
    intro i _
    rw [getElem?_snoc]
    by_cases e' : i = l.length <;> simp [e']
  · intro hle; obtain ⟨rfl, rfl⟩ := hsame hle; exact ⟨rfl, rfl⟩
  · intro hlt; exact ⟨(hgr hlt).1, (hgr hlt).2.1⟩

theorem insert_spec (E : Elem α) {z : Bool} {h : Heap α} {v : Vec} {l : List α} (hF : Fresh h)
    (hr : Rep z h v l) (idx : Nat) (hidx : idx ≤ l.length) (a : α) :
    ∃ h' v', insert E h v idx (.ext a) = .ok (h', v') ∧
      Trans z h v h' v' (l.take idx ++ a :: l.drop idx) ∧
      (l.length + 1 ≤ v.endS → v'.start = v.start ∧ v'.endS = v.endS) := by
  obtain ⟨h1, v1, b, e, t, hb, hf, hc, ho, hsame, hgr⟩ := grown hF hr
  obtain ⟨h2, e2, o2, s2⟩ := construct_own ho (i := l.length) hc (by simp) (some E.dflt)
  obtain ⟨h3, e3, o3, s3⟩ := shiftUp_spec E (idx := idx) rfl hc hidx o2
  obtain ⟨h4, e4, o4, s4⟩ := assign_own o3 (i := idx)
    (w := if idx = l.length then some E.dflt else none) (by omega)
    (by simp only [Nat.lt_irrefl, if_false, if_true]; split <;> rfl) (some a)
  have hsz : v1.size = l.length := hf
  refine ⟨h4, { v1 with finish := v1.finish + 1 }, ?_, ?_, ?_⟩
  · simp only [insert, e, Res.ok_bind, hb, hf, e2, hsz, e3, Ref.get, e4]
  · have hlen : (l.take idx ++ a :: l.drop idx).length = l.length + 1 := by simp; omega
    refine t.finish hb hb (s2.trans (s3.trans s4)) ho.isSome (by rw [hlen, hf]) (by rw [hlen]; exact hc)
      (fun _ => by (try simp only); omega) (o4.congr ?_)
    intro i _
    rw [getElem?_insert l idx a hidx]
    by_cases e1 : i = idx
    · simp [e1]
    · simp only [if_neg e1]
      by_cases e2 : i < idx
      · simp [e2]
      · simp [e2]
  · intro hle; obtain ⟨rfl, rfl⟩ := hsame hle; exact ⟨rfl, rfl⟩

theorem pushFront_eq_insert (E : Elem α) (h : Heap α) (v : Vec) (r : Ref α) :
    pushFront E h v r = insert E h v 0 r := rfl

theorem emplace_spec (E : Elem α) {z : Bool} {h : Heap α} {v : Vec} {l : List α} (hF : Fresh h)
    (hr : Rep z h v l) (idx : Nat) (hidx : idx ≤ l.length) (a : α) :
    ∃ h' v', emplace E h v idx (.ext a) = .ok (h', v') ∧
      Trans z h v h' v' (l.take idx ++ a :: l.drop idx) ∧
      (l.length + 1 ≤ v.endS → v'.start = v.start ∧ v'.endS = v.endS) := by
  obtain ⟨h1, v1, b, e, t, hb, hf, hc, ho, hsame, hgr⟩ := grown hF hr
  obtain ⟨h2, e2, o2, s2⟩ := construct_own ho (i := l.length) hc (by simp) (some E.dflt)
  obtain ⟨h3, e3, o3, s3⟩ := shiftUp_spec E (idx := idx) rfl hc hidx o2
  obtain ⟨h4, e4, o4, s4⟩ := destroy_own o3 (i := idx)
    (w := if idx = l.length then some E.dflt else none) (by omega)
    (by simp only [Nat.lt_irrefl, if_false, if_true]; split <;> rfl)
  obtain ⟨h5, e5, o5, s5⟩ := construct_own o4 (i := idx) (by omega) (by simp) (some a)
  have hsz : v1.size = l.length := hf
  refine ⟨h5, { v1 with finish := v1.finish + 1 }, ?_, ?_, ?_⟩
  · simp only [emplace, e, Res.ok_bind, hb, hf, e2, hsz, e3, e4, Ref.get, e5]
  · have hlen : (l.take idx ++ a :: l.drop idx).length = l.length + 1 := by simp; omega
    refine t.finish hb hb (s2.trans (s3.trans (s4.trans s5))) ho.isSome (by rw [hlen, hf])
      (by rw [hlen]; exact hc) (fun _ => by (try simp only); omega) (o5.congr ?_)
    intro i _
    rw [getElem?_insert l idx a hidx]
    by_cases e1 : i = idx
    · simp [e1]
    · simp only [if_neg e1]
      by_cases e2 : i < idx
      · simp [e2]
      · simp [e2]
  · intro hle; obtain ⟨rfl, rfl⟩ := hsame hle; exact ⟨rfl, rfl⟩

/-- Moving `n` elements from `src` down to `des < src`. -/
theorem shiftDown_spec (E : Elem α) {h : Heap α} {b cap n des src : Nat} {l : List α}
    (hds : des < src) (hn : src + n = l.length) (hcap : l.length ≤ cap)
    (ho : Own h b cap (fun i => lv l[i]?)) :
    ∃ h' f, forUp n (fun i h => moveAssign E h (some b) (des + i) (some b) (i + src)) h = .ok h' ∧
      Own h' b cap f ∧ Same b h h' ∧ (∀ i, i < des → f i = lv l[i]?) ∧
      (∀ i, i < n → f (des + i) = lv l[src + i]?) ∧
      (∀ i, des + n ≤ i → i < l.length → ∃ v, f i = .obj v) ∧ (∀ i, l.length ≤ i → f i = .raw) := by
  obtain ⟨h', e, f, ho', hs', h1, h2, h3, h4, _⟩ := forUp_inv
    (I := fun k h' => ∃ f, Own h' b cap f ∧ Same b h h' ∧ (∀ i, i < des → f i = lv l[i]?) ∧
      (∀ i, i < k → f (des + i) = lv l[src + i]?) ∧
      (∀ i, des + k ≤ i → i < l.length → ∃ v, f i = .obj v) ∧ (∀ i, l.length ≤ i → f i = .raw) ∧
      (∀ i, src + k ≤ i → i < l.length → f i = lv l[i]?))
    (f := fun i h => moveAssign E h (some b) (des + i) (some b) (i + src)) h n
    ⟨_, ho, Same.refl b h, fun i _ => rfl, fun i hi => by omega,
      fun i _ hi => ⟨some l[i], by simp [hi]⟩,
      fun i hi => by (try simp only); rw [List.getElem?_eq_none hi]; rfl, fun i _ _ => rfl⟩ (by
      rintro k hk' hk ⟨f, o1, s1, a1, a2, a3, a4, a5⟩
      have hlt : k + src < l.length := by omega
      obtain ⟨w, hw⟩ := a3 (des + k) (by omega) (by omega)
      have hsrc : f (k + src) = .obj (some l[k + src]) := by
        rw [a5 (k + src) (by omega) hlt]; simp [hlt]
      obtain ⟨h2, e2, o2, s2⟩ := moveAssign_own E o1 (i := des + k) (j := k + src) (by omega)
        (by omega) (by omega) hsrc hw
      refine ⟨h2, e2, _, o2, s1.trans s2, ?_, ?_, ?_, ?_, ?_⟩
      · intro i hi
        (try simp only)
        rw [if_neg (by omega), if_neg (by omega)]; exact a1 i hi
      · intro i hi
        by_cases e' : i = k
        · subst e'
          simp only [if_true]
          rw [show src + i = i + src by omega]
          simp [hlt]
        · try simp only
          rw [if_neg (by omega), if_neg (by omega)]
          exact a2 i (by omega)
      · intro i h1 h2
        by_cases e' : i = k + src
        · exact ⟨none, by (try simp only); rw [if_neg (by omega), if_pos e']⟩
        · obtain ⟨v, hv⟩ := a3 i (by omega) h2
          exact ⟨v, by (try simp only); rw [if_neg (by omega), if_neg e']; exact hv⟩
      · intro i hi
        (try simp only)
        rw [if_neg (by omega), if_neg (by omega)]; exact a4 i hi
      · intro i h1 h2
        (try simp only)
        rw [if_neg (by omega), if_neg (by omega)]; exact a5 i (by omega) h2)
  exact ⟨h', f, e, ho', hs', h1, h2, h3, h4⟩

/-- Contents after erasing `[i, j)`. -/
theorem getElem?_erase (l : List α) {des src : Nat} (hd : des ≤ src) (hs : src ≤ l.length) (i : Nat) :
    (l.take des ++ l.drop src)[i]? = if i < des then l[i]? else l[src + (i - des)]? := by
  by_cases h1 : i < des
  · rw [if_pos h1, List.getElem?_append_left (by simp; omega), List.getElem?_take_of_lt h1]
  · rw [if_neg h1, List.getElem?_append_right (by simp; omega)]
    simp only [List.length_take, Nat.min_eq_left (Nat.le_trans hd hs), List.getElem?_drop]

theorem eraseRange_spec (E : Elem α) {z : Bool} {h : Heap α} {v : Vec} {l : List α} (hF : Fresh h)
    (hr : Rep z h v l) {des src : Nat} (hd : des ≤ src) (hs : src ≤ l.length)
    (hself : E.selfMoveOk = true ∨ des < src ∨ src = l.length) :
    ∃ h' v', eraseRange E h v des src = .ok (h', v', des) ∧
      Trans z h v h' v' (l.take des ++ l.drop src) ∧ v'.start = v.start ∧ v'.endS = v.endS := by
  have hsz : v.size = l.length := hr.1
  have hreq : (decide (src ≤ v.size)) = true := by simp only [decide_eq_true_eq]; omega
  have hlen : (l.take des ++ l.drop src).length = des + (l.length - src) := by simp; omega
  cases hst : v.start with
  | none =>
    have h3 := hr.2.2
    rw [hst] at h3
    simp only at h3
    have h2 := hr.2.1
    have hl0 : l = [] := List.length_eq_zero_iff.mp (by omega)
    subst hl0
    simp only [List.length_nil, Nat.le_zero_eq] at hs
    subst hs
    simp only [Nat.le_zero_eq] at hd
    subst hd
    have hv0 : v.finish = 0 := hr.1
    refine ⟨h, { v with finish := 0 }, ?_, ?_, hst, rfl⟩
    · simp [eraseRange, Vec.size, hv0, forUp]
    · have : ({ v with finish := 0 } : Vec) = v := by rw [← hv0]
      rw [this]
      exact Trans.refl hF hr
  | some b =>
    have h3 := hr.2.2
    rw [hst] at h3
    obtain ⟨hz, ho⟩ := h3
    have hcap := hr.2.1
    have key : ∃ h' f, forUp (l.length - src) (fun i h =>
          moveAssign E h (some b) (des + i) (some b) (i + src)) h = .ok h' ∧
        Own h' b v.endS f ∧ Same b h h' ∧ (∀ i, i < des → f i = lv l[i]?) ∧
        (∀ i, i < l.length - src → f (des + i) = lv l[src + i]?) ∧
        (∀ i, des + (l.length - src) ≤ i → i < l.length → ∃ v, f i = .obj v) ∧
        (∀ i, l.length ≤ i → f i = .raw) := by
      by_cases hlt : des < src
      · exact shiftDown_spec E hlt (by omega) hcap ho
      · have hds : des = src := by omega
        subst hds
        rcases hself with hE | hlt' | hend
        · obtain ⟨h', e, o', s'⟩ := forUp_inv
            (I := fun _ h' => Own h' b v.endS (fun i => lv l[i]?) ∧ Same b h h')
            (f := fun i h => moveAssign E h (some b) (des + i) (some b) (i + des)) h (l.length - des)
            ⟨ho, Same.refl b h⟩ (by
              rintro i h1 hi ⟨o1, s1⟩
              have hlt : des + i < l.length := by omega
              obtain ⟨h2, e2, o2, s2⟩ := moveAssign_self E hE o1 (i := des + i) (v := some l[des + i])
                (by omega) (by simp [hlt])
              refine ⟨h2, ?_, o2, s1.trans s2⟩
              rw [show i + des = des + i by omega]; exact e2)
          refine ⟨h', _, e, o', s', fun _ _ => rfl, fun _ _ => rfl, fun i _ hi => ⟨some l[i], by simp [hi]⟩, ?_⟩
          intro i hi
          (try simp only)
          rw [List.getElem?_eq_none hi]; rfl
        · omega
        · have e0 : l.length - des = 0 := by omega
          rw [e0]
          refine ⟨h, _, rfl, ho, Same.refl b h, fun _ _ => rfl, fun _ _ => rfl, fun i _ hi => ⟨some l[i], by simp [hi]⟩, ?_⟩
          intro i hi
          (try simp only)
          rw [List.getElem?_eq_none hi]; rfl
    obtain ⟨h1, f, e1, o1, s1, a1, a2, a3, a4⟩ := key
    obtain ⟨h2, e2, o2, s2⟩ := destroyRange_own o1 (i := des + (l.length - src)) (j := l.length)
      (by omega) hcap a3
    refine ⟨h2, { v with finish := des + (l.length - src) }, ?_, ?_, hst, rfl⟩
    · have e2' := e2
      simp only [destroyRange] at e2'
      simp only [eraseRange, hreq, Res.require_true]
      simp only [Res.ok_bind, hsz, hst, e1, e2']
    · refine Trans.inplace hF hst hst ho.isSome (s1.trans s2)
        (Rep.mk' hst (by rw [hlen]) (by rw [hlen]; (try simp only); omega) hz (o2.congr ?_))
      intro i _
      rw [getElem?_erase l hd hs]
      by_cases c1 : i < des
      · rw [if_neg (by omega), if_pos c1]; exact a1 i c1
      · rw [if_neg c1]
        by_cases c2 : i < des + (l.length - src)
        · rw [if_neg (by omega)]
          obtain ⟨k, rfl⟩ : ∃ k, i = des + k := ⟨i - des, by omega⟩
          rw [a2 k (by omega), show des + k - des = k by omega]
        · rw [List.getElem?_eq_none (by omega)]
          by_cases c3 : i < l.length
          · rw [if_pos ⟨by omega, c3⟩]; rfl
          · rw [if_neg (by omega)]; exact a4 i (by omega)

theorem erase_spec (E : Elem α) {z : Bool} {h : Heap α} {v : Vec} {l : List α} (hF : Fresh h)
    (hr : Rep z h v l) {idx : Nat} (hidx : idx < l.length) :
    ∃ h' v', erase E h v idx = .ok (h', v', idx) ∧
      Trans z h v h' v' (l.take idx ++ l.drop (idx + 1)) ∧ v'.start = v.start ∧ v'.endS = v.endS := by
  have hsz : v.size = l.length := hr.1
  have hcap := hr.2.1
  obtain ⟨b, hst, ho⟩ := hr.some_of_pos (by omega)
  have hlen : (l.take idx ++ l.drop (idx + 1)).length = l.length - 1 := by simp; omega
  obtain ⟨h1, f, e1, o1, s1, a1, a2, a3, a4⟩ := shiftDown_spec E (des := idx) (src := idx + 1)
    (n := l.length - 1 - idx) (by omega) (by omega) hcap ho
  obtain ⟨w, hw⟩ := a3 (l.length - 1) (by omega) (by omega)
  obtain ⟨h2, e2, o2, s2⟩ := destroy_own o1 (i := l.length - 1) (by omega) hw
  have e1' : forUp (l.length - 1 - idx) (fun k h => moveAssign E h (some b) (idx + k) (some b) (idx + k + 1)) h = .ok h1 := by
    rw [← e1]; congr 1; funext k h; congr 1; omega
  refine ⟨h2, { v with finish := l.length - 1 }, ?_, ?_, rfl, rfl⟩
  · have hf : v.finish = l.length := hr.1
    rw [erase, if_neg (by omega)]
    simp only [hsz, hst, e1', Res.ok_bind, hf, e2]
  · refine Trans.inplace hF hst hst ho.isSome (s1.trans s2)
      (Rep.mk' hst (by rw [hlen]) (by rw [hlen]; (try simp only); omega) (fun _ => by (try simp only); omega) (o2.congr ?_))
    intro i _
    rw [getElem?_erase l (by omega) (by omega)]
    by_cases c1 : i < idx
    · rw [if_neg (by omega), if_pos c1]; exact a1 i c1
    · rw [if_neg c1]
      by_cases c2 : i < l.length - 1
      · rw [if_neg (by omega)]
        obtain ⟨k, rfl⟩ : ∃ k, i = idx + k := ⟨i - idx, by omega⟩
        rw [a2 k (by omega), show idx + k - idx = k by omega]
      · rw [List.getElem?_eq_none (by omega)]
        by_cases c3 : i = l.length - 1
        · rw [if_pos c3]; rfl
        · rw [if_neg c3]; exact a4 i (by omega)

theorem popBack_spec (E : Elem α) {z : Bool} {h : Heap α} {v : Vec} {l : List α} (hF : Fresh h)
    (hr : Rep z h v l) (hne : 0 < l.length) :
    ∃ h' v', popBack E h v = .ok (h', v') ∧ Trans z h v h' v' l.dropLast ∧
      v'.start = v.start ∧ v'.endS = v.endS := by
  have hsz : v.size = l.length := hr.1
  obtain ⟨h', v', e, t, h1, h2⟩ := erase_spec E hF hr (idx := l.length - 1) (by omega)
  refine ⟨h', v', ?_, ?_, h1, h2⟩
  · rw [popBack, if_neg (by omega), hsz]
    simp only [e, Res.ok_bind]
  · have : l.take (l.length - 1) ++ l.drop (l.length - 1 + 1) = l.dropLast := by
      rw [List.drop_eq_nil_of_le (by omega), List.append_nil, List.dropLast_eq_take]
    rwa [this] at t

theorem popFront_spec (E : Elem α) {z : Bool} {h : Heap α} {v : Vec} {l : List α} (hF : Fresh h)
    (hr : Rep z h v l) (hne : 0 < l.length) :
    ∃ h' v', popFront E h v = .ok (h', v') ∧ Trans z h v h' v' l.tail ∧
      v'.start = v.start ∧ v'.endS = v.endS := by
  obtain ⟨h', v', e, t, h1, h2⟩ := erase_spec E hF hr (idx := 0) hne
  refine ⟨h', v', ?_, ?_, h1, h2⟩
  · simp only [popFront, e, Res.ok_bind]
  · simpa using t

theorem clear_spec {z : Bool} {h : Heap α} {v : Vec} {l : List α} (hF : Fresh h)
    (hr : Rep z h v l) :
    ∃ h' v', clear h v = .ok (h', v') ∧ Trans z h v h' v' [] ∧ v'.start = v.start ∧ v'.endS = v.endS := by
  have hf : v.finish = l.length := hr.1
  have hcap := hr.2.1
  cases hst : v.start with
  | none =>
    have h3 := hr.2.2
    rw [hst] at h3
    simp only at h3
    have hl0 : l = [] := List.length_eq_zero_iff.mp (by omega)
    subst hl0
    have hv0 : v.finish = 0 := hf
    refine ⟨h, { v with finish := 0 }, ?_, ?_, hst, rfl⟩
    · simp [clear, hv0, destroyRange, forUp]
    · have : ({ v with finish := 0 } : Vec) = v := by rw [← hv0]
      rw [this]; exact Trans.refl hF hr
  | some b =>
    have h3 := hr.2.2
    rw [hst] at h3
    obtain ⟨hz, ho⟩ := h3
    obtain ⟨h1, e1, o1, s1⟩ := destroyRange_own ho (i := 0) (j := v.finish) (by omega) (by omega)
      (fun k _ hk => by
        have : k < l.length := by omega
        exact ⟨some l[k], by simp [this]⟩)
    refine ⟨h1, { v with finish := 0 }, ?_, ?_, hst, rfl⟩
    · simp only [clear, hst, e1, Res.ok_bind]
    · refine Trans.inplace hF hst hst ho.isSome s1 (Rep.mk' hst rfl (by simp) hz (o1.congr ?_))
      intro i _
      by_cases c : i < v.finish
      · simp [c]
      · simp only [Nat.zero_le, true_and, if_neg c]
        rw [List.getElem?_eq_none (by omega)]; simp

theorem resize_spec (E : Elem α) {z : Bool} {h : Heap α} {v : Vec} {l : List α} (hF : Fresh h)
    (hr : Rep z h v l) (n : Nat) :
    ∃ h' v', resize E h v n = .ok (h', v') ∧
      Trans z h v h' v' (l.take n ++ List.replicate (n - l.length) E.dflt) ∧
      (n ≤ v.endS → v'.start = v.start ∧ v'.endS = v.endS) := by
  have hsz : v.size = l.length := hr.1
  by_cases hgt : n > l.length
  · obtain ⟨h1, v1, e, t, hc, hsame, _⟩ := ensureCapacity_spec hF hr n
    obtain ⟨b, hb, ho⟩ := t.rep.some_of_pos (by omega)
    have hf1 : v1.finish = l.length := t.rep.1
    have hs1 : v1.size = l.length := hf1
    obtain ⟨h2, e2, o2, s2⟩ := forUp_inv
      (I := fun k h' => Own h' b v1.endS (fun i => if i < l.length then lv l[i]? else
          if i < l.length + k then .obj (some E.dflt) else .raw) ∧ Same b h1 h')
      (f := fun i h => construct h (some b) (l.length + i) (some E.dflt)) h1 (n - l.length)
      ⟨ho.congr (fun i _ => by
        by_cases c : i < l.length
        · simp [c]
        · rw [if_neg c, if_neg (by omega), List.getElem?_eq_none (by omega)]; rfl), Same.refl b h1⟩ (by
        rintro k h2 hk ⟨o, s⟩
        obtain ⟨h3, e3, o3, s3⟩ := construct_own o (i := l.length + k) (by omega)
          (by rw [if_neg (by omega), if_neg (by omega)]) (some E.dflt)
        refine ⟨h3, e3, o3.congr ?_, s.trans s3⟩
        intro i _
        by_cases c1 : i = l.length + k
        · rw [if_pos c1, if_neg (by omega), if_pos (by omega)]
        · rw [if_neg c1]
          by_cases c2 : i < l.length
          · rw [if_pos c2, if_pos c2]
          · rw [if_neg c2, if_neg c2]
            by_cases c3 : i < l.length + k
            · rw [if_pos c3, if_pos (by omega)]
            · rw [if_neg c3, if_neg (by omega)])
    have hl' : l.take n ++ List.replicate (n - l.length) E.dflt = l ++ List.replicate (n - l.length) E.dflt := by
      rw [List.take_of_length_le (by omega)]
    rw [hl']
    have hlen : (l ++ List.replicate (n - l.length) E.dflt).length = n := by simp; omega
    refine ⟨h2, { v1 with finish := v1.finish + (n - l.length) }, ?_, ?_, ?_⟩
    · rw [resize, if_pos (by omega)]
      simp only [e, Res.ok_bind, hs1, hb, hf1, e2]
    · refine t.finish hb hb s2 ho.isSome (by rw [hlen]; (try simp only); omega) (by rw [hlen]; exact hc)
        (fun _ => by (try simp only); omega) (o2.congr ?_)
      intro i _
      by_cases c1 : i < l.length
      · rw [if_pos c1, List.getElem?_append_left c1]
      · rw [if_neg c1, List.getElem?_append_right (by omega), List.getElem?_replicate]
        by_cases c2 : i < l.length + (n - l.length)
        · rw [if_pos c2, if_pos (by omega)]; rfl
        · rw [if_neg c2, if_neg (by omega)]; rfl
    · intro hle; obtain ⟨rfl, rfl⟩ := hsame hle; exact ⟨rfl, rfl⟩
  · have h0 : n - l.length = 0 := by omega
    rw [h0, List.replicate_zero, List.append_nil]
    by_cases hlt : n < l.length
    · obtain ⟨b, hst, ho⟩ := hr.some_of_pos (by have := hr.2.1; omega)
      have hf : v.finish = l.length := hr.1
      have hcap := hr.2.1
      obtain ⟨h2, e2, o2, s2⟩ := forUp_inv
        (I := fun k h' => Own h' b v.endS (fun i => if i < l.length - k then lv l[i]? else .raw) ∧ Same b h h')
        (f := fun i h => destroy h (some b) (l.length - i - 1)) h (l.length - n)
        ⟨ho.congr (fun i _ => by
          by_cases c : i < l.length
          · simp [c]
          · rw [if_neg (by omega), List.getElem?_eq_none (by omega)]; rfl), Same.refl b h⟩ (by
          rintro k h2 hk ⟨o, s⟩
          have hlt' : l.length - k - 1 < l.length := by omega
          obtain ⟨h3, e3, o3, s3⟩ := destroy_own o (i := l.length - k - 1) (w := some l[l.length - k - 1])
            (by omega) (by (try simp only); rw [if_pos (by omega)]; simp [hlt'])
          refine ⟨h3, e3, o3.congr ?_, s.trans s3⟩
          intro i _
          by_cases c1 : i = l.length - k - 1
          · rw [if_pos c1, if_neg (by omega)]
          · rw [if_neg c1]
            by_cases c2 : i < l.length - k
            · rw [if_pos c2, if_pos (by omega)]
            · rw [if_neg c2, if_neg (by omega)])
      refine ⟨h2, { v with finish := v.finish - (l.length - n) }, ?_, ?_, fun _ => ⟨rfl, rfl⟩⟩
      · rw [resize, if_neg (by omega), if_pos (by omega)]
        simp only [hsz, hst, hf, e2, Res.ok_bind]
      · have hlen : (l.take n).length = n := by simp; omega
        refine Trans.inplace hF hst hst ho.isSome s2 (Rep.mk' hst (by rw [hlen]; (try simp only); omega)
          (by rw [hlen]; (try simp only); omega) (fun _ => by (try simp only); omega) (o2.congr ?_))
        intro i _
        rw [List.getElem?_take]
        by_cases c : i < n
        · rw [if_pos (by omega), if_pos c]
        · rw [if_neg (by omega), if_neg c]; rfl
    · have hn : n = l.length := by omega
      refine ⟨h, v, ?_, ?_, fun _ => ⟨rfl, rfl⟩⟩
      · rw [resize, if_neg (by omega), if_neg (by omega)]
      · rw [List.take_of_length_le (by omega)]; exact Trans.refl hF hr

theorem put_spec {z : Bool} {h : Heap α} {v : Vec} {l : List α} (hF : Fresh h)
    (hr : Rep z h v l) {i : Nat} (hi : i < l.length) (a : α) :
    ∃ h', put h v i a = .ok h' ∧ Trans z h v h' v (l.set i a) := by
  have hcap := hr.2.1
  obtain ⟨b, hst, ho⟩ := hr.some_of_pos (by omega)
  obtain ⟨h1, e1, o1, s1⟩ := assign_own ho (i := i) (w := some l[i]) (by omega) (by simp [hi]) (some a)
  refine ⟨h1, by rw [put, hst]; exact e1, ?_⟩
  refine Trans.inplace hF hst hst ho.isSome s1 (Rep.mk' hst (by simp [hr.1]) (by simpa using hcap)
    (fun _ => by omega) (o1.congr ?_))
  intro j _
  rw [List.getElem?_set]
  by_cases c : j = i
  · subst c; simp [hi]
  · have c' : ¬ i = j := fun h => c h.symm
    rw [if_neg c, if_neg c']

theorem get_spec {z : Bool} {h : Heap α} {v : Vec} {l : List α} (hr : Rep z h v l) {i : Nat}
    (hi : i < l.length) : get h v i = .ok (some l[i]) := by
  have hcap := hr.2.1
  obtain ⟨b, hst, ho⟩ := hr.some_of_pos (by omega)
  rw [get, hst]
  exact read_own ho (by omega) (by simp [hi])

end Verif.Vector
