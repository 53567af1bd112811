import Verif.Lemmas.EListSwap

/-! What `list` is meant to do, and that the model does it. -/

set_option backward.isDefEq.respectTransparency false

namespace Verif.EList
open Verif Verif.Box

variable {α : Type}

/-- The values of a list. -/
def vals (xs : Con α) : List α := xs.map (·.2)

/-- Values in new nodes. -/
def number : Nat → List α → Con α
  | _, [] => []
  | k, v :: vs => (k, v) :: number (k + 1) vs

/-- The lists of the program and the number of nodes allocated so far. -/
structure Spec (α : Type) where
  lists : Nat → Option (Con α)
  next : Nat

/-- No lists. -/
def Spec.init : Spec α := ⟨fun _ => none, 0⟩

/-- The part before a position and the part from there. -/
def splitPos (l : Slot) (pos : Addr) : Con α → Option (Con α × Con α)
  | [] => if pos = .sent l then some ([], []) else none
  | p :: xs => if pos = .node p.1 then some ([], p :: xs) else (splitPos l pos xs).map fun r => (p :: r.1, r.2)

/-- The effect of a call on the sequences (`none`: not allowed). -/
def Spec.step (lax : Bool) (σ : Spec α) : Op α → Option (Spec α × Option Addr)
  | .ctor l =>
    match σ.lists l with
    | none => some (⟨upd σ.lists l (some []), σ.next⟩, none)
    | some _ => none
  | .init l vs =>
    match σ.lists l with
    | none => some (⟨upd σ.lists l (some (number σ.next vs)), σ.next + vs.length⟩, none)
    | some _ => none
  | .copy l r =>
    match σ.lists l, σ.lists r with
    | none, some ys => some (⟨upd σ.lists l (some (number σ.next (vals ys))), σ.next + ys.length⟩, none)
    | _, _ => none
  | .move l r =>
    match σ.lists l, σ.lists r with
    | none, some ys => some (⟨upd (upd σ.lists r (some [])) l (some ys), σ.next⟩, none)
    | _, _ => none
  | .dtor l =>
    match σ.lists l with
    | some xs => if lax ∨ xs = [] then some (⟨upd σ.lists l none, σ.next⟩, none) else none
    | none => none
  | .asgCopy l r =>
    match σ.lists l, σ.lists r with
    | some xs, some ys =>
      if lax ∨ xs = [] then some (⟨upd σ.lists l (some (number σ.next (vals ys))), σ.next + ys.length⟩, none) else none
    | _, _ => none
  | .asgMove l r =>
    match σ.lists l, σ.lists r with
    | some xs, some ys =>
      if l = r then some (σ, none)
      else if lax ∨ xs = [] then some (⟨upd (upd σ.lists r (some [])) l (some ys), σ.next⟩, none) else none
    | _, _ => none
  | .pushBack l v =>
    match σ.lists l with
    | some xs => some (⟨upd σ.lists l (some (xs ++ [(σ.next, v)])), σ.next + 1⟩, none)
    | none => none
  | .pushFront l v =>
    match σ.lists l with
    | some xs => some (⟨upd σ.lists l (some ((σ.next, v) :: xs)), σ.next + 1⟩, none)
    | none => none
  | .insert l pos v =>
    match (σ.lists l).bind (splitPos (.user l) pos) with
    | some (xs, ys) => some (⟨upd σ.lists l (some (xs ++ (σ.next, v) :: ys)), σ.next + 1⟩, some (.node σ.next))
    | none => none
  | .erase l pos =>
    match (σ.lists l).bind (splitPos (.user l) pos) with
    | some (xs, _ :: ys) => some (⟨upd σ.lists l (some (xs ++ ys)), σ.next⟩, some (posOf (.user l) ys))
    | _ => none
  | .eraseRange l first last =>
    match (σ.lists l).bind (splitPos (.user l) first) with
    | some (xs, rest) =>
      match splitPos (.user l) last rest with
      | some (_, ys) => some (⟨upd σ.lists l (some (xs ++ ys)), σ.next⟩, some last)
      | none => none
    | none => none
  | .popBack l =>
    match σ.lists l with
    | some xs => some (⟨upd σ.lists l (some xs.dropLast), σ.next⟩, none)
    | none => none
  | .popFront l =>
    match σ.lists l with
    | some xs => some (⟨upd σ.lists l (some xs.tail), σ.next⟩, none)
    | none => none
  | .clear l =>
    match σ.lists l with
    | some xs => if lax ∨ xs = [] then some (⟨upd σ.lists l (some []), σ.next⟩, none) else none
    | none => none
  | .swap l r =>
    match σ.lists l, σ.lists r with
    | some xs, some ys =>
      if l = r then (if xs = [] then some (σ, none) else none)
      else some (⟨upd (upd σ.lists l (some ys)) r (some xs), σ.next⟩, none)
    | _, _ => none
  | .write l it v =>
    match (σ.lists l).bind (splitPos (.user l) it) with
    | some (xs, (n, _) :: ys) => some (⟨upd σ.lists l (some (xs ++ (n, v) :: ys)), σ.next⟩, none)
    | _ => none

/-- A history. -/
def Spec.run (lax : Bool) (σ : Spec α) : List (Op α) → Option (Spec α × List Addr)
  | [] => some (σ, [])
  | o :: os =>
    match Spec.step lax σ o with
    | some (σ', r) => (Spec.run lax σ' os).map fun p => (p.1, r.toList ++ p.2)
    | none => none

/-- The lists by address. -/
def lift (M : Nat → Option (Con α)) : Slot → Option (Con α)
  | .user l => M l
  | .temp => none

theorem lift_upd (M : Nat → Option (Con α)) (l : Nat) (x : Option (Con α)) : upd (lift M) (.user l) x = lift (upd M l x) := by
  funext a
  cases a with
  | user n =>
    by_cases e : n = l
    · subst e; simp [upd, lift]
    · simp [upd, lift, e]
  | temp => simp [upd, lift]

theorem splitPos_eq {l : Slot} {pos : Addr} {xs a b : Con α} (h : splitPos l pos xs = some (a, b)) : xs = a ++ b ∧ pos = posOf l b := by
  induction xs generalizing a with
  | nil =>
    simp only [splitPos] at h
    split at h
    · cases h; exact ⟨rfl, by assumption⟩
    · cases h
  | cons p xs ih =>
    simp only [splitPos] at h
    split at h
    · cases h; exact ⟨rfl, by assumption⟩
    · simp only [Option.map_eq_some_iff] at h
      obtain ⟨⟨a', b'⟩, h1, h2⟩ := h
      cases h2
      obtain ⟨e1, e2⟩ := ih h1
      exact ⟨by rw [e1]; rfl, e2⟩

theorem pushAll_full (vs : List α) {s : St α} {L : Slot → Option (Con α)} (h : Full s L) {l : Slot} {xs : Con α} (hl : L l = some xs) :
    ∃ s', pushAll s l vs = .ok s' ∧ Full s' (upd L l (some (xs ++ number s.next vs))) ∧ s'.next = s.next + vs.length := by
  induction vs generalizing s L xs with
  | nil =>
    refine ⟨s, rfl, ?_, rfl⟩
    simp only [number, List.append_nil]
    rw [← hl, upd_self]; exact h
  | cons v vs ih =>
    obtain ⟨s1, e1, f1, n1⟩ := emplaceBack_full h hl v
    obtain ⟨s2, e2, f2, n2⟩ := ih f1 (upd_same _ _ _)
    refine ⟨s2, by simp only [pushAll, e1, Res.ok_bind, e2], ?_, by rw [n2, n1]; simp; omega⟩
    rw [upd_upd, n1] at f2
    simpa [number] using f2

theorem initCtor_full (vs : List α) {s : St α} {L : Slot → Option (Con α)} (h : Full s L) {l : Slot} (hl : L l = none) :
    ∃ s', initCtor s l vs = .ok s' ∧ Full s' (upd L l (some (number s.next vs))) ∧ s'.next = s.next + vs.length := by
  obtain ⟨s1, e1, f1, n1⟩ := ctor_full h hl
  obtain ⟨s2, e2, f2, n2⟩ := pushAll_full vs f1 (upd_same _ _ _)
  refine ⟨s2, by simp only [initCtor, e1, Res.ok_bind, e2], ?_, by rw [n2, n1]⟩
  rw [upd_upd, n1] at f2
  simpa using f2

theorem deref_ok {s : St α} {l : Slot} {xs : Con α} (h : Ring s l xs) {n : Nat} {v : α} (hm : (n, v) ∈ xs) : deref s (.node n) = .ok v := by
  have := h.alive (n, v) hm
  simp only at this
  simp [deref, this.1, this.2]

theorem incr_ok (lax : Bool) {s : St α} {l : Slot} {xs ys : Con α} {n : Nat} {v : α} (h : Ring s l (xs ++ (n, v) :: ys)) :
    incr lax s (.node n) = .ok (posOf l ys) := by
  simp only [incr, getNext_ok (ring_live h (.inr (by simp))) (ring_next h), Res.ok_bind, nonNull]

theorem decr_ok (lax : Bool) {s : St α} {l : Slot} {xs ys : Con α} (h : Ring s l (xs ++ ys)) :
    decr lax s (posOf l ys) = .ok (lst (.sent l) (nodes xs)) := by
  have hl : s.live (posOf l ys) = true := hd_live h rfl
  simp only [decr, getPrv_ok hl (ring_posOf_prv h), Res.ok_bind, nonNull]

theorem begin_ok (lax : Bool) {s : St α} {l : Slot} {xs : Con α} (h : Ring s l xs) : begin lax s l = .ok (posOf l xs) := by
  simp only [begin, getNext_ok h.sent (seg_first h.seg).1, Res.ok_bind, nonNull]; rfl

theorem copyLoop_full (lax : Bool) (rest : Con α) {s : St α} {L : Slot → Option (Con α)} (h : Full s L) {l r : Slot} {zs ds : Con α} (hlr : l ≠ r)
    (hl : L l = some zs) (hr : L r = some (ds ++ rest)) :
    ∃ s', (∀ fuel, rest.length < fuel → copyLoop lax l r fuel s (posOf r rest) = .ok s') ∧
      Full s' (upd L l (some (zs ++ number s.next (vals rest)))) ∧ s'.next = s.next + rest.length := by
  induction rest generalizing s L zs ds with
  | nil =>
    refine ⟨s, ?_, ?_, rfl⟩
    · intro fuel hf
      obtain ⟨f, rfl⟩ : ∃ f, fuel = f + 1 := ⟨fuel - 1, by simp at hf; omega⟩
      simp [copyLoop]
    · simp only [vals, List.map_nil, number, List.append_nil]
      rw [← hl, upd_self]; exact h
  | cons p rest ih =>
    obtain ⟨s1, e1, f1, n1⟩ := emplaceBack_full h hl p.2
    have hr1 : upd L l (some (zs ++ [(s.next, p.2)])) r = some ((ds ++ [p]) ++ rest) := by rw [upd_ne _ _ (Ne.symm hlr), hr]; simp
    obtain ⟨s2, e2, f2, n2⟩ := ih f1 (upd_same _ _ _) hr1
    have R := h.rep.ring r _ hr
    have R1 := f1.rep.ring r _ hr1
    refine ⟨s2, ?_, ?_, by rw [n2, n1]; simp; omega⟩
    · intro fuel hf
      obtain ⟨f, rfl⟩ : ∃ f, fuel = f + 1 := ⟨fuel - 1, by omega⟩
      simp only [copyLoop, posOf_cons]
      rw [if_neg (by simp), deref_ok (n := p.1) (v := p.2) R (by simp)]
      simp only [Res.ok_bind, e1]
      rw [incr_ok (xs := ds) (n := p.1) (v := p.2) lax (by simpa using R1)]
      simp only [Res.ok_bind]
      exact e2 f (by simp at hf; omega)
    · rw [upd_upd, n1] at f2
      simpa [number, vals] using f2

theorem copyCtor_full (lax : Bool) {s : St α} {L : Slot → Option (Con α)} (h : Full s L) {l r : Slot} {ys : Con α} (hl : L l = none) (hr : L r = some ys) :
    ∃ s', (∀ fuel, ys.length < fuel → copyCtor lax fuel s l r = .ok s') ∧ Full s' (upd L l (some (number s.next (vals ys)))) ∧ s'.next = s.next + ys.length := by
  have hlr : l ≠ r := by rintro rfl; rw [hl] at hr; cases hr
  obtain ⟨s1, e1, f1, n1⟩ := ctor_full h hl
  have hr1 : upd L l (some []) r = some ys := by rw [upd_ne _ _ (Ne.symm hlr)]; exact hr
  obtain ⟨s2, e2, f2, n2⟩ := copyLoop_full (ds := []) lax ys f1 hlr (upd_same _ _ _) hr1
  refine ⟨s2, ?_, ?_, by rw [n2, n1]⟩
  · intro fuel hf
    simp only [copyCtor, e1, Res.ok_bind, begin_ok lax (f1.rep.ring r _ hr1)]
    exact e2 fuel hf
  · rw [upd_upd, n1] at f2
    simpa using f2

theorem moveCtor_full (lax : Bool) {s : St α} {L : Slot → Option (Con α)} (h : Full s L) {l r : Slot} {ys : Con α} (hl : L l = none) (hr : L r = some ys) :
    ∃ s', moveCtor lax s l r = .ok s' ∧ Full s' (upd (upd L r (some [])) l (some ys)) ∧ s'.next = s.next := by
  have hlr : l ≠ r := by rintro rfl; rw [hl] at hr; cases hr
  obtain ⟨s1, e1, f1, n1⟩ := ctor_full h hl
  have hr1 : upd L l (some []) r = some ys := by rw [upd_ne _ _ (Ne.symm hlr)]; exact hr
  obtain ⟨s2, e2, f2, n2⟩ := swap_full lax f1 (Ne.symm hlr) hr1 (upd_same _ _ _)
  refine ⟨s2, by simp only [moveCtor, e1, Res.ok_bind, e2], ?_, by rw [n2, n1]⟩
  rw [upd_comm _ _ _ hlr, upd_upd] at f2
  exact f2

theorem dtor_full' {lax : Bool} {s : St α} {L : Slot → Option (Con α)} (h : Full s L) {l : Slot} {xs : Con α} (hl : L l = some xs)
    (hx : lax = true ∨ xs = []) : ∃ s', (∀ fuel, xs.length < fuel → dtor lax fuel s l = .ok s') ∧ Full s' (upd L l none) ∧ s'.next = s.next := by
  rcases hx with rfl | rfl
  · exact dtor_full h hl
  · refine ⟨{ s with live := upd s.live (.sent l) false }, ?_, kill_sent_full h hl, rfl⟩
    intro fuel _
    simp [dtor, clear, getSize_ok h hl]

theorem clear_full' {lax : Bool} {s : St α} {L : Slot → Option (Con α)} (h : Full s L) {l : Slot} {xs : Con α} (hl : L l = some xs)
    (hx : lax = true ∨ xs = []) : ∃ s', (∀ fuel, xs.length < fuel → clear lax fuel s l = .ok s') ∧ Full s' (upd L l (some [])) ∧ s'.next = s.next := by
  rcases hx with rfl | rfl
  · exact clear_full h hl
  · refine ⟨s, ?_, ?_, rfl⟩
    · intro fuel _
      simp [clear, getSize_ok h hl]
    · rw [← hl, upd_self]; exact h

theorem assignCopy_full {lax : Bool} {s : St α} {L : Slot → Option (Con α)} (h : Full s L) (ht : L .temp = none) {l r : Nat} {xs ys : Con α}
    (hl : L (.user l) = some xs) (hr : L (.user r) = some ys) (hx : lax = true ∨ xs = []) :
    ∃ s', (∀ fuel, xs.length + ys.length < fuel → assignCopy lax fuel s (.user l) (.user r) = .ok s') ∧
      Full s' (upd L (.user l) (some (number s.next (vals ys)))) ∧ s'.next = s.next + ys.length := by
  obtain ⟨s1, e1, f1, n1⟩ := copyCtor_full lax h ht hr
  have hl1 : upd L .temp (some (number s.next (vals ys))) (.user l) = some xs := by rw [upd_ne _ _ (by simp)]; exact hl
  obtain ⟨s2, e2, f2, n2⟩ := swap_full lax f1 (by simp) (upd_same _ _ _) hl1
  have ht2 : upd (upd (upd L .temp (some (number s.next (vals ys)))) .temp (some xs)) (.user l) (some (number s.next (vals ys))) .temp = some xs := by
    rw [upd_ne _ _ (by simp)]; exact upd_same _ _ _
  obtain ⟨s3, e3, f3, n3⟩ := dtor_full' f2 ht2 hx
  refine ⟨s3, ?_, ?_, by rw [n3, n2, n1]⟩
  · intro fuel hf
    simp only [assignCopy, e1 fuel (by omega), Res.ok_bind, e2, e3 fuel (by omega)]
  · rw [upd_upd, upd_comm _ _ _ (by simp), upd_upd] at f3
    have : upd L .temp (none : Option (Con α)) = L := by rw [← ht]; exact upd_self _ _
    rw [this] at f3; exact f3

theorem assignMove_full {lax : Bool} {s : St α} {L : Slot → Option (Con α)} (h : Full s L) (ht : L .temp = none) {l r : Nat} {xs ys : Con α}
    (hlr : l ≠ r) (hl : L (.user l) = some xs) (hr : L (.user r) = some ys) (hx : lax = true ∨ xs = []) :
    ∃ s', (∀ fuel, xs.length < fuel → assignMove lax fuel s (.user l) (.user r) = .ok s') ∧
      Full s' (upd (upd L (.user r) (some [])) (.user l) (some ys)) ∧ s'.next = s.next := by
  obtain ⟨s1, e1, f1, n1⟩ := moveCtor_full lax h ht hr
  have hlr' : (Slot.user l) ≠ .user r := by simpa using hlr
  have hl1 : upd (upd L (.user r) (some [])) .temp (some ys) (.user l) = some xs := by
    rw [upd_ne _ _ (by simp), upd_ne _ _ hlr']; exact hl
  obtain ⟨s2, e2, f2, n2⟩ := swap_full lax f1 (by simp) (upd_same _ _ _) hl1
  have ht2 : upd (upd (upd (upd L (.user r) (some [])) .temp (some ys)) .temp (some xs)) (.user l) (some ys) .temp = some xs := by
    rw [upd_ne _ _ (by simp)]; exact upd_same _ _ _
  obtain ⟨s3, e3, f3, n3⟩ := dtor_full' f2 ht2 hx
  refine ⟨s3, ?_, ?_, by rw [n3, n2, n1]⟩
  · intro fuel hf
    simp only [assignMove, e1, Res.ok_bind, e2, e3 fuel hf]
  · rw [upd_upd, upd_comm _ _ _ (by simp), upd_upd, upd_comm L _ _ (by simp)] at f3
    have : upd L .temp (none : Option (Con α)) = L := by rw [← ht]; exact upd_self _ _
    rw [this] at f3; exact f3

theorem assignMove_self {lax : Bool} {s : St α} {L : Slot → Option (Con α)} (h : Full s L) (ht : L .temp = none) {l : Nat} {xs : Con α}
    (hl : L (.user l) = some xs) :
    ∃ s', (∀ fuel, 0 < fuel → assignMove lax fuel s (.user l) (.user l) = .ok s') ∧ Full s' L ∧ s'.next = s.next := by
  obtain ⟨s1, e1, f1, n1⟩ := moveCtor_full lax h ht hl
  have hl1 : upd (upd L (.user l) (some [])) .temp (some xs) (.user l) = some [] := by
    rw [upd_ne _ _ (by simp)]; exact upd_same _ _ _
  obtain ⟨s2, e2, f2, n2⟩ := swap_full lax f1 (by simp) (upd_same _ _ _) hl1
  have ht2 : upd (upd (upd (upd L (.user l) (some [])) .temp (some xs)) .temp (some [])) (.user l) (some xs) .temp = some [] := by
    rw [upd_ne _ _ (by simp)]; exact upd_same _ _ _
  obtain ⟨s3, e3, f3, n3⟩ := dtor_full' (lax := lax) f2 ht2 (.inr rfl)
  refine ⟨s3, ?_, ?_, by rw [n3, n2, n1]⟩
  · intro fuel hf
    simp only [assignMove, e1, Res.ok_bind, e2, e3 fuel hf]
  · rw [upd_upd, upd_comm _ _ _ (by simp), upd_upd, upd_comm L _ _ (by simp), upd_upd] at f3
    have : upd L .temp (none : Option (Con α)) = L := by rw [← ht]; exact upd_self _ _
    rw [this, ← hl, upd_self] at f3; exact f3

theorem write_full {s : St α} {L : Slot → Option (Con α)} (h : Full s L) {l : Slot} {xs ys : Con α} {n : Nat} {v w : α}
    (hl : L l = some (xs ++ (n, w) :: ys)) :
    ∃ s', write s (.node n) v = .ok s' ∧ Full s' (upd L l (some (xs ++ (n, v) :: ys))) ∧ s'.next = s.next := by
  have R := h.rep.ring l _ hl
  have hnd := nodup_mid R.nodup
  have key : ∀ q zs, upd L l (some (xs ++ (n, v) :: ys)) q = some zs →
      ∃ ws, L q = some ws ∧ ids zs = ids ws ∧ ∀ p ∈ zs, upd s.val (.node n) (some v) (.node p.1) = some p.2 := by
    intro q zs hq
    by_cases e : q = l
    · subst e; rw [upd_same] at hq; cases hq
      refine ⟨_, hl, by simp, ?_⟩
      intro p hp
      rcases List.mem_append.1 hp with hp | hp
      · have : p.1 ≠ n := by rintro rfl; exact hnd.1 (List.mem_map.2 ⟨p, by assumption, rfl⟩)
        rw [upd_ne _ _ (by simpa using this)]; exact (R.alive p (by simp [hp])).2
      · rcases List.mem_cons.1 hp with rfl | hp
        · exact upd_same _ _ _
        · have : p.1 ≠ n := by rintro rfl; exact hnd.2.1 (List.mem_map.2 ⟨p, by assumption, rfl⟩)
          rw [upd_ne _ _ (by simpa using this)]; exact (R.alive p (by simp [hp])).2
    · rw [upd_ne _ _ e] at hq
      refine ⟨zs, hq, rfl, ?_⟩
      intro p hp
      have : p.1 ≠ n := by
        rintro rfl
        exact e (h.rep.disj q l zs _ p.1 hq hl (List.mem_map.2 ⟨p, hp, rfl⟩) (by simp))
      rw [upd_ne _ _ (by simpa using this)]; exact ((h.rep.ring q zs hq).alive p hp).2
  have hnodes : ∀ zs ws : Con α, ids zs = ids ws → nodes zs = nodes ws := by
    intro zs
    induction zs with
    | nil => intro ws h; cases ws with | nil => rfl | cons => simp at h
    | cons z zs ih => intro ws h; cases ws with | nil => simp at h | cons w ws => simp at h; simp [h.1, ih ws h.2]
  refine ⟨{ s with val := upd s.val (.node n) (some v) }, ?_, ⟨⟨?_, ?_, ?_, h.rep.lonodup, ?_, ?_, h.rep.bound, h.rep.freed, h.rep.fnodup, ?_⟩, ?_⟩, rfl⟩
  · simp only [write, deref_ok (n := n) (v := w) R (by simp), Res.ok_bind]
  · intro q zs hq
    obtain ⟨ws, h1, h2, h3⟩ := key q zs hq
    have R' := h.rep.ring q ws h1
    refine ⟨R'.sent, ?_, ?_, by rw [h2]; exact R'.nodup⟩
    · rw [hnodes _ _ h2]; exact R'.seg
    · intro p hp
      refine ⟨ring_live R' (.inr ?_), h3 p hp⟩
      rw [node_mem, ← h2]; exact List.mem_map.2 ⟨p, hp, rfl⟩
  · intro q hq
    have : q ≠ l := by rintro rfl; rw [upd_same] at hq; cases hq
    rw [upd_ne _ _ this] at hq; exact h.rep.dead q hq
  · intro q q' zs zs' k hq hq' hk hk'
    obtain ⟨ws, h1, h2, _⟩ := key q zs hq
    obtain ⟨ws', h1', h2', _⟩ := key q' zs' hq'
    rw [h2] at hk; rw [h2'] at hk'
    exact h.rep.disj q q' ws ws' k h1 h1' hk hk'
  · intro q zs k _ _ hk; cases hk
  · intro k
    refine (h.rep.nodes k).trans (or_congr ?_ Iff.rfl)
    constructor
    · rintro ⟨q, zs, hq, hk⟩
      by_cases e : q = l
      · subst e; rw [hl] at hq; cases hq
        exact ⟨q, _, upd_same _ _ _, by simpa using hk⟩
      · exact ⟨q, zs, by rw [upd_ne _ _ e]; exact hq, hk⟩
    · rintro ⟨q, zs, hq, hk⟩
      obtain ⟨ws, h1, h2, _⟩ := key q zs hq
      exact ⟨q, ws, h1, by rw [← h2]; exact hk⟩
  · intro q
    show upd s.val (.node n) (some v) (.sent q) = none
    rw [upd_ne _ _ (by simp)]; exact h.rep.sentval q
  · intro q zs hq
    obtain ⟨ws, h1, h2, _⟩ := key q zs hq
    have := h.sized q ws h1
    have e : zs.length = ws.length := by have := congrArg List.length h2; simpa [ids] using this
    rw [e]; exact this

/-- The model state has the lists of `σ`. -/
structure Ok (s : St α) (σ : Spec α) : Prop where
  full : Full s (lift σ.lists)
  next : s.next = σ.next

theorem ok_init : Ok (St.init : St α) Spec.init := by
  refine ⟨⟨?_, ?_⟩, rfl⟩
  · have : lift (Spec.init : Spec α).lists = fun _ => none := by funext a; cases a <;> rfl
    rw [this]; exact rep_init
  · intro l xs h; cases l <;> cases h

theorem quiet_ok {r : Res (St α)} {s : St α} (h : r = .ok s) : quiet r = .ok (s, none) := by simp [quiet, h]
theorem loud_ok {r : Res (St α × Addr)} {s : St α} {a : Addr} (h : r = .ok (s, a)) : loud r = .ok (s, some a) := by simp [loud, h]

theorem step_ok {lax : Bool} {s : St α} {σ σ' : Spec α} {o : Op α} {r : Option Addr} (h : Ok s σ) (hs : Spec.step lax σ o = some (σ', r)) :
    ∃ F s', (∀ fuel, F ≤ fuel → step lax fuel s o = .ok (s', r)) ∧ Ok s' σ' := by
  obtain ⟨f, hn⟩ := h
  cases o with
  | ctor l =>
    simp only [Spec.step] at hs
    split at hs <;> cases hs
    rename_i hl
    obtain ⟨s1, e1, f1, n1⟩ := ctor_full f (l := .user l) hl
    exact ⟨0, s1, fun _ _ => quiet_ok e1, by rw [lift_upd] at f1; exact f1, by rw [n1, hn]⟩
  | init l vs =>
    simp only [Spec.step] at hs
    split at hs <;> cases hs
    rename_i hl
    obtain ⟨s1, e1, f1, n1⟩ := initCtor_full vs f (l := .user l) hl
    exact ⟨0, s1, fun _ _ => quiet_ok e1, by rw [lift_upd, hn] at f1; exact f1, by rw [n1, hn]⟩
  | copy l r =>
    simp only [Spec.step] at hs
    split at hs <;> cases hs
    rename_i ys hl hr
    obtain ⟨s1, e1, f1, n1⟩ := copyCtor_full lax f (l := .user l) (r := .user r) hl hr
    exact ⟨ys.length + 1, s1, fun fuel hf => quiet_ok (e1 fuel (by omega)), by rw [lift_upd, hn] at f1; exact f1, by rw [n1, hn]⟩
  | move l r =>
    simp only [Spec.step] at hs
    split at hs <;> cases hs
    rename_i ys hl hr
    obtain ⟨s1, e1, f1, n1⟩ := moveCtor_full lax f (l := .user l) (r := .user r) hl hr
    exact ⟨0, s1, fun _ _ => quiet_ok e1, by rw [lift_upd, lift_upd] at f1; exact f1, by rw [n1, hn]⟩
  | dtor l =>
    simp only [Spec.step] at hs
    split at hs <;> try contradiction
    rename_i xs hl
    split at hs <;> cases hs
    rename_i hx
    obtain ⟨s1, e1, f1, n1⟩ := dtor_full' f (l := .user l) hl hx
    exact ⟨xs.length + 1, s1, fun fuel hf => quiet_ok (e1 fuel (by omega)), by rw [lift_upd] at f1; exact f1, by rw [n1, hn]⟩
  | asgCopy l r =>
    simp only [Spec.step] at hs
    split at hs <;> try contradiction
    rename_i xs ys hl hr
    split at hs <;> cases hs
    rename_i hx
    obtain ⟨s1, e1, f1, n1⟩ := assignCopy_full f rfl (l := l) (r := r) hl hr hx
    exact ⟨xs.length + ys.length + 1, s1, fun fuel hf => quiet_ok (e1 fuel (by omega)), by rw [lift_upd, hn] at f1; exact f1, by rw [n1, hn]⟩
  | asgMove l r =>
    simp only [Spec.step] at hs
    split at hs <;> try contradiction
    rename_i xs ys hl hr
    split at hs
    · cases hs
      rename_i e; subst e
      obtain ⟨s1, e1, f1, n1⟩ := assignMove_self (lax := lax) f rfl (l := l) hl
      exact ⟨1, s1, fun fuel hf => quiet_ok (e1 fuel (by omega)), f1, by rw [n1, hn]⟩
    · rename_i hlr
      split at hs <;> cases hs
      rename_i hx
      obtain ⟨s1, e1, f1, n1⟩ := assignMove_full f rfl hlr hl hr hx
      exact ⟨xs.length + 1, s1, fun fuel hf => quiet_ok (e1 fuel (by omega)), by rw [lift_upd, lift_upd] at f1; exact f1, by rw [n1, hn]⟩
  | pushBack l v =>
    simp only [Spec.step] at hs
    split at hs <;> cases hs
    rename_i xs hl
    obtain ⟨s1, e1, f1, n1⟩ := emplaceBack_full f (l := .user l) hl v
    exact ⟨0, s1, fun _ _ => quiet_ok e1, by rw [lift_upd, hn] at f1; exact f1, by rw [n1, hn]⟩
  | pushFront l v =>
    simp only [Spec.step] at hs
    split at hs <;> cases hs
    rename_i xs hl
    obtain ⟨s1, e1, f1, n1⟩ := emplaceFront_full f (l := .user l) hl v
    exact ⟨0, s1, fun _ _ => quiet_ok e1, by rw [lift_upd, hn] at f1; exact f1, by rw [n1, hn]⟩
  | insert l pos v =>
    simp only [Spec.step] at hs
    split at hs <;> cases hs
    rename_i xs ys hl
    obtain ⟨zs, hl', hsp⟩ := Option.bind_eq_some_iff.1 hl
    obtain ⟨rfl, rfl⟩ := splitPos_eq hsp
    obtain ⟨s1, e1, f1, n1⟩ := insert_full f (l := .user l) hl' v
    exact ⟨0, s1, fun _ _ => by rw [← hn]; exact loud_ok e1, by rw [lift_upd, hn] at f1; exact f1, by rw [n1, hn]⟩
  | erase l pos =>
    simp only [Spec.step] at hs
    split at hs <;> cases hs
    rename_i xs p ys hl
    obtain ⟨zs, hl', hsp⟩ := Option.bind_eq_some_iff.1 hl
    obtain ⟨rfl, rfl⟩ := splitPos_eq hsp
    obtain ⟨s1, e1, f1, n1⟩ := erase_full (n := p.1) (v := p.2) lax f (l := .user l) hl'
    exact ⟨0, s1, fun _ _ => loud_ok e1, by rw [lift_upd] at f1; exact f1, by rw [n1, hn]⟩
  | eraseRange l first last =>
    simp only [Spec.step] at hs
    split at hs <;> try contradiction
    rename_i xs rest hl
    split at hs <;> cases hs
    rename_i ms ys hl2
    obtain ⟨zs, hl', hsp⟩ := Option.bind_eq_some_iff.1 hl
    obtain ⟨rfl, rfl⟩ := splitPos_eq hsp
    obtain ⟨rfl, rfl⟩ := splitPos_eq hl2
    obtain ⟨s1, e1, f1, n1⟩ := eraseRange_full lax f (l := .user l) hl'
    exact ⟨ms.length + 1, s1, fun fuel hf => loud_ok (e1 fuel (by omega)), by rw [lift_upd] at f1; exact f1, by rw [n1, hn]⟩
  | popBack l =>
    simp only [Spec.step] at hs
    split at hs <;> cases hs
    rename_i xs hl
    obtain ⟨s1, e1, f1, n1⟩ := popBack_full lax f (l := .user l) hl
    exact ⟨0, s1, fun _ _ => quiet_ok e1, by rw [lift_upd] at f1; exact f1, by rw [n1, hn]⟩
  | popFront l =>
    simp only [Spec.step] at hs
    split at hs <;> cases hs
    rename_i xs hl
    obtain ⟨s1, e1, f1, n1⟩ := popFront_full lax f (l := .user l) hl
    exact ⟨0, s1, fun _ _ => quiet_ok e1, by rw [lift_upd] at f1; exact f1, by rw [n1, hn]⟩
  | clear l =>
    simp only [Spec.step] at hs
    split at hs <;> try contradiction
    rename_i xs hl
    split at hs <;> cases hs
    rename_i hx
    obtain ⟨s1, e1, f1, n1⟩ := clear_full' f (l := .user l) hl hx
    exact ⟨xs.length + 1, s1, fun fuel hf => quiet_ok (e1 fuel (by omega)), by rw [lift_upd] at f1; exact f1, by rw [n1, hn]⟩
  | swap l r =>
    simp only [Spec.step] at hs
    split at hs <;> try contradiction
    rename_i xs ys hl hr
    split at hs
    · rename_i e; subst e
      split at hs <;> cases hs
      rename_i hx
      subst hx
      obtain ⟨s1, e1, f1, n1⟩ := swap_self_full lax f (l := .user l) hl
      exact ⟨0, s1, fun _ _ => quiet_ok e1, f1, by rw [n1, hn]⟩
    · rename_i hlr
      cases hs
      obtain ⟨s1, e1, f1, n1⟩ := swap_full lax f (l := .user l) (r := .user r) (by simpa using hlr) hl hr
      exact ⟨0, s1, fun _ _ => quiet_ok e1, by rw [lift_upd, lift_upd] at f1; exact f1, by rw [n1, hn]⟩
  | write l it v =>
    simp only [Spec.step] at hs
    split at hs <;> cases hs
    rename_i xs n w ys hl
    obtain ⟨zs, hl', hsp⟩ := Option.bind_eq_some_iff.1 hl
    obtain ⟨rfl, rfl⟩ := splitPos_eq hsp
    obtain ⟨s1, e1, f1, n1⟩ := write_full (v := v) f (l := .user l) hl'
    exact ⟨0, s1, fun _ _ => quiet_ok e1, by rw [lift_upd] at f1; exact f1, by rw [n1, hn]⟩

theorem run_ok {lax : Bool} (os : List (Op α)) {s : St α} {σ σ' : Spec α} {rs : List Addr} (h : Ok s σ) (hs : Spec.run lax σ os = some (σ', rs)) :
    ∃ F s', (∀ fuel, F ≤ fuel → run lax fuel s os = .ok (s', rs)) ∧ Ok s' σ' := by
  induction os generalizing s σ rs with
  | nil => cases hs; exact ⟨0, s, fun _ _ => rfl, h⟩
  | cons o os ih =>
    simp only [Spec.run] at hs
    split at hs <;> try contradiction
    rename_i σ1 r hst
    obtain ⟨⟨σ2, rs2⟩, h1, h2⟩ := Option.map_eq_some_iff.1 hs
    cases h2
    obtain ⟨F1, s1, e1, k1⟩ := step_ok h hst
    obtain ⟨F2, s2, e2, k2⟩ := ih k1 h1
    refine ⟨F1 + F2, s2, ?_, k2⟩
    intro fuel hf
    simp only [run, e1 fuel (by omega), Res.ok_bind, e2 fuel (by omega)]

/-! Iteration. -/

theorem forwardFrom_ok (lax : Bool) {s : St α} {l : Slot} (ys : Con α) {xs : Con α} (h : Ring s l (xs ++ ys)) (fuel : Nat) (hf : ys.length < fuel) :
    forwardFrom lax l fuel s (posOf l ys) = .ok (vals ys) := by
  induction ys generalizing xs fuel with
  | nil =>
    obtain ⟨f, rfl⟩ : ∃ f, fuel = f + 1 := ⟨fuel - 1, by simp at hf; omega⟩
    simp [forwardFrom, vals]
  | cons p ys ih =>
    obtain ⟨f, rfl⟩ : ∃ f, fuel = f + 1 := ⟨fuel - 1, by omega⟩
    simp only [forwardFrom, posOf_cons]
    rw [if_neg (by simp), deref_ok (n := p.1) (v := p.2) h (by simp), Res.ok_bind, incr_ok (n := p.1) (v := p.2) lax h, Res.ok_bind,
      ih (xs := xs ++ [p]) (by simpa using h) f (by simp at hf; omega)]
    rfl

theorem forward_ok (lax : Bool) {s : St α} {l : Slot} {xs : Con α} (h : Ring s l xs) (fuel : Nat) (hf : xs.length < fuel) :
    forward lax fuel s l = .ok (vals xs) := by
  simp only [forward, begin_ok lax h, Res.ok_bind]
  exact forwardFrom_ok (xs := []) lax xs h fuel hf

theorem posOf_inj {l : Slot} {xs ys : Con α} (h : (ids (xs ++ ys)).Nodup) (e : posOf l ys = posOf l (xs ++ ys)) : xs = [] := by
  cases xs with
  | nil => rfl
  | cons p xs =>
    rw [List.cons_append, posOf_cons] at e
    rcases posOf_in (l := l) ys with e' | e'
    · rw [e'] at e; cases e
    · rw [e, node_mem] at e'
      rw [List.cons_append, ids_cons, List.nodup_cons] at h
      exact absurd (by simp [e']) h.1

theorem backwardFrom_ok (lax : Bool) {s : St α} {l : Slot} (k : Nat) {xs ys : Con α} (hk : xs.length = k) (h : Ring s l (xs ++ ys)) (fuel : Nat)
    (hf : xs.length < fuel) : backwardFrom lax l fuel s (posOf l ys) = .ok (vals xs).reverse := by
  induction k generalizing xs ys fuel with
  | zero =>
    obtain ⟨f, rfl⟩ : ∃ f, fuel = f + 1 := ⟨fuel - 1, by omega⟩
    have : xs = [] := List.length_eq_zero_iff.1 hk
    subst this
    simp only [backwardFrom, begin_ok lax h, Res.ok_bind, List.nil_append]
    simp [vals]
  | succ k ih =>
    obtain ⟨f, rfl⟩ : ∃ f, fuel = f + 1 := ⟨fuel - 1, by omega⟩
    rcases List.eq_nil_or_concat xs with rfl | ⟨zs, p, rfl⟩
    · simp at hk
    · rw [List.concat_eq_append] at *
      have hne : posOf l ys ≠ posOf l (zs ++ [p] ++ ys) := by
        intro e
        have := posOf_inj h.nodup e
        simp at this
      have hl : lst (Addr.sent l) (nodes (zs ++ [p])) = .node p.1 := by simp [lst, nodes]
      simp only [backwardFrom, begin_ok lax h, Res.ok_bind]
      rw [if_neg hne, decr_ok lax h, Res.ok_bind, hl, deref_ok (n := p.1) (v := p.2) h (by simp), Res.ok_bind]
      have := ih (xs := zs) (ys := p :: ys) (by simp at hk; omega) (by simpa using h) f (by simp at hf; omega)
      rw [posOf_cons] at this
      rw [this]
      simp [vals]

theorem backward_ok (lax : Bool) {s : St α} {l : Slot} {xs : Con α} (h : Ring s l xs) (fuel : Nat) (hf : xs.length < fuel) :
    backward lax fuel s l = .ok (vals xs).reverse := by
  simp only [backward, h.sent, if_true]
  exact backwardFrom_ok (ys := []) lax xs.length rfl (by simpa using h) fuel hf

end Verif.EList
