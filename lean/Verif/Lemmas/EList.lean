import Verif.Model.EList
import Verif.Lemmas.Box

/-! Lemmas about the links of `list`: segments of doubly linked nodes. -/

set_option backward.isDefEq.respectTransparency false

namespace Verif.EList
open Verif Verif.Box

variable {α : Type}

/-- From `a` the `next_` links lead through `ns` to `b`, and the `prv_` links back. -/
def Seg (n p : Addr → Option Addr) : Addr → List Addr → Addr → Prop
  | a, [], b => n a = some b ∧ p b = some a
  | a, x :: xs, b => n a = some x ∧ p x = some a ∧ Seg n p x xs b

/-- First of `ns`, or `b`. -/
def hd (ns : List Addr) (b : Addr) : Addr := ns.head?.getD b
/-- Last of `ns`, or `a`. -/
def lst (a : Addr) (ns : List Addr) : Addr := ns.getLast?.getD a

@[simp] theorem hd_nil (b : Addr) : hd [] b = b := rfl
@[simp] theorem hd_cons (x : Addr) (xs : List Addr) (b : Addr) : hd (x :: xs) b = x := rfl
@[simp] theorem lst_nil (b : Addr) : lst b [] = b := rfl
@[simp] theorem lst_cons (a x : Addr) (xs : List Addr) : lst a (x :: xs) = lst x xs := by
  simp only [lst, List.getLast?_cons]
  rfl

theorem lst_mem (a : Addr) (xs : List Addr) : lst a xs ∈ a :: xs := by
  induction xs generalizing a with
  | nil => simp
  | cons x xs ih => rw [lst_cons]; exact List.mem_cons_of_mem _ (ih x)

theorem hd_mem (xs : List Addr) (b : Addr) : hd xs b ∈ xs ++ [b] := by
  cases xs <;> simp

theorem seg_first {n p : Addr → Option Addr} {a b : Addr} {ns : List Addr} (h : Seg n p a ns b) :
    n a = some (hd ns b) ∧ p (hd ns b) = some a := by
  cases ns with
  | nil => exact h
  | cons x xs => exact ⟨h.1, h.2.1⟩

theorem seg_last {n p : Addr → Option Addr} {a b : Addr} {ns : List Addr} (h : Seg n p a ns b) :
    n (lst a ns) = some b ∧ p b = some (lst a ns) := by
  induction ns generalizing a with
  | nil => exact h
  | cons x xs ih => rw [lst_cons]; exact ih h.2.2

theorem seg_append {n p : Addr → Option Addr} {a b m : Addr} {xs ys : List Addr} :
    Seg n p a (xs ++ m :: ys) b ↔ Seg n p a xs m ∧ Seg n p m ys b := by
  induction xs generalizing a with
  | nil => simp [Seg, and_assoc]
  | cons x xs ih => simp [Seg, ih, and_assoc]

theorem seg_frame {n p n' p' : Addr → Option Addr} {a b : Addr} {ns : List Addr} (h : Seg n p a ns b)
    (hn : ∀ x ∈ a :: ns, n' x = n x) (hp : ∀ x ∈ ns ++ [b], p' x = p x) : Seg n' p' a ns b := by
  induction ns generalizing a with
  | nil => exact ⟨by rw [hn a (by simp)]; exact h.1, by rw [hp b (by simp)]; exact h.2⟩
  | cons x xs ih =>
    refine ⟨by rw [hn a (by simp)]; exact h.1, by rw [hp x (by simp)]; exact h.2.1, ih h.2.2 ?_ ?_⟩
    · intro y hy; exact hn y (List.mem_cons_of_mem _ hy)
    · intro y hy; exact hp y (by simp at hy ⊢; exact .inr hy)

/-- The links after `linkPrv b m`. -/
theorem seg_snoc {n p : Addr → Option Addr} {a b m : Addr} {xs : List Addr} (h : Seg n p a xs b) (ha : a ∉ xs) (hx : xs.Nodup)
    (hb : b ∉ xs) (hma : m ≠ a) (hmb : m ≠ b) (hmx : m ∉ xs) :
    Seg (upd (upd n (lst a xs) (some m)) m (some b)) (upd (upd p m (some (lst a xs))) b (some m)) a (xs ++ [m]) b := by
  induction xs generalizing a with
  | nil => simp [Seg, upd, hmb, Ne.symm hma]
  | cons x xs ih =>
    simp only [List.cons_append, Seg, lst_cons]
    have hx2 := List.nodup_cons.1 hx
    simp only [List.mem_cons, not_or] at ha hb hmx
    have hl := lst_mem x xs
    have hal : a ≠ lst x xs := by
      intro e; rw [← e] at hl
      rcases List.mem_cons.1 hl with e | h
      · exact ha.1 e
      · exact ha.2 h
    refine ⟨?_, ?_, ih h.2.2 hx2.1 hx2.2 hb.2 hmx.1 hmx.2⟩
    · rw [upd_ne _ _ (Ne.symm hma), upd_ne _ _ hal]; exact h.1
    · rw [upd_ne _ _ (Ne.symm hb.1), upd_ne _ _ (Ne.symm hmx.1)]; exact h.2.1

/-- The links after `linkNext a m`. -/
theorem seg_cons {n p : Addr → Option Addr} {a b m : Addr} {xs : List Addr} (h : Seg n p a xs b) (ha : a ∉ xs) (hx : xs.Nodup)
    (hb : b ∉ xs) (hma : m ≠ a) (hmb : m ≠ b) (hmx : m ∉ xs) :
    Seg (upd (upd n m (some (hd xs b))) a (some m)) (upd (upd p (hd xs b) (some m)) m (some a)) a (m :: xs) b := by
  cases xs with
  | nil => simp [Seg, upd, hma, Ne.symm hmb]
  | cons x xs =>
    simp only [Seg, hd_cons, upd_same]
    have hx2 := List.nodup_cons.1 hx
    simp only [List.mem_cons, not_or] at ha hb hmx
    refine ⟨trivial, trivial, by rw [upd_ne _ _ hma, upd_same], ?_, ?_⟩
    · rw [upd_ne _ _ (Ne.symm hmx.1), upd_same]
    · refine seg_frame h.2.2 ?_ ?_
      · intro y hy
        have h1 : y ≠ a := by rintro rfl; exact (List.mem_cons.1 hy).elim ha.1 ha.2
        have h2 : y ≠ m := by rintro rfl; exact (List.mem_cons.1 hy).elim hmx.1 hmx.2
        rw [upd_ne _ _ h1, upd_ne _ _ h2]
      · intro y hy
        have h1 : y ≠ m := by
          rintro rfl; rcases List.mem_append.1 hy with e | hm
          · exact hmx.2 e
          · exact hmb (by simpa using hm)
        have h2 : y ≠ x := by
          rintro rfl; rcases List.mem_append.1 hy with e | hm
          · exact hx2.1 e
          · exact hb.1 (List.mem_singleton.1 hm).symm
        rw [upd_ne _ _ h1, upd_ne _ _ h2]

/-- The links after the nodes `ms` between `a'` and `b'` were taken out. -/
theorem seg_cut {n p : Addr → Option Addr} {a b : Addr} {xs ms ys : List Addr} (h : Seg n p a (xs ++ (ms ++ ys)) b)
    (hx : (xs ++ ys).Nodup) (ha : a ∉ xs ++ ys) (hb : b ∉ xs ++ ys) (n' p' : Addr → Option Addr)
    (hn : ∀ x, x ∈ a :: xs ++ ys → x ≠ lst a xs → n' x = n x) (hn2 : n' (lst a xs) = some (hd ys b))
    (hp : ∀ x, x ∈ xs ++ ys ++ [b] → x ≠ hd ys b → p' x = p x) (hp2 : p' (hd ys b) = some (lst a xs)) :
    Seg n' p' a (xs ++ ys) b := by
  induction xs generalizing a with
  | nil =>
    cases ys with
    | nil => exact ⟨hn2, hp2⟩
    | cons y ys =>
      refine ⟨hn2, hp2, ?_⟩
      simp only [List.nil_append] at h hx ha hb hn hn2 hp hp2 ⊢
      rw [seg_append] at h
      have hx2 := List.nodup_cons.1 hx
      simp only [List.mem_cons, not_or] at ha hb
      refine seg_frame h.2 ?_ ?_
      · intro z hz
        refine hn z (by simp only [List.cons_append, List.nil_append, List.mem_cons] at hz ⊢; exact .inr hz) ?_
        rintro rfl
        exact (List.mem_cons.1 hz).elim ha.1 ha.2
      · intro z hz
        refine hp z (by simp at hz ⊢; exact .inr hz) ?_
        rintro rfl
        rcases List.mem_append.1 hz with e | hm
        · exact hx2.1 e
        · exact hb.1 (List.mem_singleton.1 hm).symm
  | cons x xs ih =>
    simp only [List.cons_append] at h hx ha hb ⊢
    have hx2 := List.nodup_cons.1 hx
    simp only [List.mem_cons, not_or] at ha hb
    rw [lst_cons] at hn2 hp2 hn
    have hl := lst_mem x xs
    refine ⟨?_, ?_, ih h.2.2 hx2.2 hx2.1 hb.2 ?_ hn2 ?_ hp2⟩
    · rw [hn a (by simp) ?_]; exact h.1
      intro e; rw [← e] at hl
      rcases List.mem_cons.1 hl with e | hm
      · exact ha.1 e
      · exact ha.2 (by simp [hm])
    · rw [hp x (by simp) ?_]; exact h.2.1
      intro e
      have := hd_mem ys b
      rw [← e] at this
      rcases List.mem_append.1 this with hm | hm
      · exact hx2.1 (by simp [hm])
      · exact hb.1 (List.mem_singleton.1 hm).symm
    · intro z hz hne
      exact hn z (by simp only [List.cons_append, List.mem_cons] at hz ⊢; exact .inr hz) hne
    · intro z hz hne
      exact hp z (by simp only [List.cons_append, List.mem_cons]; exact .inr hz) hne

/-- The links inside a non-empty sequence of nodes. -/
def Inner (n p : Addr → Option Addr) : List Addr → Prop
  | [] => True
  | [_] => True
  | x :: y :: t => n x = some y ∧ p y = some x ∧ Inner n p (y :: t)

theorem seg_inner {n p : Addr → Option Addr} {a b : Addr} {x : Addr} {xs : List Addr} :
    Seg n p a (x :: xs) b ↔ n a = some x ∧ p x = some a ∧ Inner n p (x :: xs) ∧ n (lst x xs) = some b ∧ p b = some (lst x xs) := by
  induction xs generalizing a x with
  | nil => simp [Seg, Inner]
  | cons y ys ih =>
    rw [Seg, ih]
    simp only [Inner, lst_cons]
    constructor
    · rintro ⟨h1, h2, h3, h4, h5, h6⟩; exact ⟨h1, h2, ⟨h3, h4, h5⟩, h6⟩
    · rintro ⟨h1, h2, ⟨h3, h4, h5⟩, h6⟩; exact ⟨h1, h2, h3, h4, h5, h6⟩

theorem inner_frame {n p n' p' : Addr → Option Addr} {x : Addr} {xs : List Addr} (h : Inner n p (x :: xs)) (hnd : (x :: xs).Nodup)
    (hn : ∀ y ∈ x :: xs, y ≠ lst x xs → n' y = n y) (hp : ∀ y ∈ x :: xs, y ≠ x → p' y = p y) : Inner n' p' (x :: xs) := by
  induction xs generalizing x with
  | nil => trivial
  | cons y ys ih =>
    have hx := List.nodup_cons.1 hnd
    have hy := List.nodup_cons.1 hx.2
    simp only [lst_cons] at hn
    have hl := lst_mem y ys
    refine ⟨?_, ?_, ih h.2.2 hx.2 ?_ ?_⟩
    · rw [hn x (by simp) ?_]; exact h.1
      intro e; rw [← e] at hl; exact hx.1 hl
    · rw [hp y (by simp) ?_]; exact h.2.1
      rintro rfl; exact hx.1 (by simp)
    · intro z hz hne; exact hn z (List.mem_cons_of_mem _ hz) hne
    · intro z hz _
      refine hp z (List.mem_cons_of_mem _ hz) ?_
      rintro rfl; exact hx.1 hz

/-! What the link functions compute. -/

theorem rdNext_ok {s : St α} {p : Addr} (h : s.live p = true) : rdNext s p = .ok (s.nxt p) := by simp [rdNext, h]
theorem rdPrv_ok {s : St α} {p : Addr} (h : s.live p = true) : rdPrv s p = .ok (s.prv p) := by simp [rdPrv, h]
theorem wrNext_ok {s : St α} {p : Addr} {q : Option Addr} (h : s.live p = true) : wrNext s p q = .ok { s with nxt := upd s.nxt p q } := by
  simp [wrNext, h]
theorem wrPrv_ok {s : St α} {p : Addr} {q : Option Addr} (h : s.live p = true) : wrPrv s p q = .ok { s with prv := upd s.prv p q } := by
  simp [wrPrv, h]

/-- `s` with other links. -/
def relink (s : St α) (n p : Addr → Option Addr) : St α := { s with nxt := n, prv := p }

theorem linkPrv_some {s : St α} {b m q : Addr} (hb : s.live b = true) (hm : s.live m = true) (hq : s.live q = true)
    (h : s.prv b = some q) :
    linkPrv s b m = .ok (relink s (upd (upd s.nxt q (some m)) m (some b)) (upd (upd s.prv m (some q)) b (some m))) := by
  simp [linkPrv, rdPrv, wrNext, wrPrv, hb, hm, hq, h, relink]

theorem linkPrv_none {s : St α} {b m : Addr} (hb : s.live b = true) (hm : s.live m = true) (h : s.prv b = none) :
    linkPrv s b m = .ok (relink s (upd s.nxt m (some b)) (upd s.prv b (some m))) := by
  simp [linkPrv, rdPrv, wrNext, wrPrv, hb, hm, h, relink]

theorem linkNext_some {s : St α} {a m q : Addr} (ha : s.live a = true) (hm : s.live m = true) (hq : s.live q = true)
    (h : s.nxt a = some q) :
    linkNext s a m = .ok (relink s (upd (upd s.nxt m (some q)) a (some m)) (upd (upd s.prv q (some m)) m (some a))) := by
  simp [linkNext, rdNext, wrNext, wrPrv, ha, hm, hq, h, relink]

theorem linkNext_none {s : St α} {a m : Addr} (ha : s.live a = true) (hm : s.live m = true) (h : s.nxt a = none) :
    linkNext s a m = .ok (relink s (upd s.nxt a (some m)) (upd s.prv m (some a))) := by
  simp [linkNext, rdNext, wrNext, wrPrv, ha, hm, h, relink]

theorem unlinkNext_some {s : St α} {a q : Addr} (ha : s.live a = true) (hq : s.live q = true) (h : s.nxt a = some q) :
    unlinkNext s a = .ok (relink s (upd s.nxt a none) (upd s.prv q none)) := by
  simp [unlinkNext, rdNext, wrNext, wrPrv, ha, hq, h, relink]

theorem unlinkPrv_some {s : St α} {a q : Addr} (ha : s.live a = true) (hq : s.live q = true) (h : s.prv a = some q) :
    unlinkPrv s a = .ok (relink s (upd s.nxt q none) (upd s.prv a none)) := by
  simp [unlinkPrv, rdPrv, wrNext, wrPrv, ha, hq, h, relink]

theorem unlinkPrv_none {s : St α} {a : Addr} (ha : s.live a = true) (h : s.prv a = none) :
    unlinkPrv s a = .ok (relink s s.nxt (upd s.prv a none)) := by
  simp [unlinkPrv, rdPrv, wrPrv, ha, h, relink]

theorem unlink_ok {s : St α} {x a b : Addr} (hx : s.live x = true) (ha : s.live a = true) (hb : s.live b = true) (hn : s.nxt x = some b)
    (hp : s.prv x = some a) (hne : x ≠ b) :
    unlink s x = .ok (relink s (upd (upd s.nxt a (some b)) x none) (upd (upd s.prv b (some a)) x none)) := by
  simp [unlink, rdNext, rdPrv, wrNext, wrPrv, hx, ha, hb, hn, hp, relink, upd_ne _ _ hne]

theorem getNext_ok {lax : Bool} {s : St α} {p q : Addr} (h : s.live p = true) (hq : s.nxt p = some q) : getNext lax s p = .ok (some q) := by
  simp [getNext, rdNext, h, hq]

theorem getPrv_ok {lax : Bool} {s : St α} {p q : Addr} (h : s.live p = true) (hq : s.prv p = some q) : getPrv lax s p = .ok (some q) := by
  simp [getPrv, rdPrv, h, hq]

end Verif.EList
