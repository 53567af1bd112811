import Verif.Model.Reent
import Verif.Props.IrqGuard

/-! Invariants of printing under interrupts (for property C119). -/

set_option backward.isDefEq.respectTransparency false

namespace Verif.Reent
open Verif
open Verif.IrqGuard (ifSet pushfq enableHwint ifSet_cli ifSet_restore)

/-- No text contains the byte that ends a string. -/
def NoNul (ops : List Op) : Prop := ∀ t, Op.print t ∈ ops → (0 : BitVec 8) ∉ t

/-- The console after a text. -/
abbrev cp (font : Vesa.Font) (t : Text) (s : Vesa.Screen) : Vesa.Screen := Vesa.colorPrint font Printf.white t s

/-- What is left after the call of `printf` that is being made. -/
def rest (ops : List Op) (z : List Ins) : List Ins := code ops ++ z

/-- The frame is not within the guarded part of `printf`. -/
inductive SafeF (z : List Ins) : Frame → Prop where
  | between {fr} (ops : List Op) : NoNul ops → fr.code = rest ops z → SafeF z fr
  | entered {fr} (t : Text) (ops : List Op) : (0 : BitVec 8) ∉ t → NoNul ops →
    fr.code = .save :: .cli :: (stores t 0 ++ (shown t ++ rest ops z)) → fr.n = 0 → fr.i = 0 → fr.cur = none → SafeF z fr
  | saved {fr} (t : Text) (ops : List Op) : (0 : BitVec 8) ∉ t → NoNul ops →
    fr.code = .cli :: (stores t 0 ++ (shown t ++ rest ops z)) → fr.n = 0 → fr.i = 0 → fr.cur = none → SafeF z fr

/-- The buffer holds the text and the NUL. -/
def Holds (buf : Nat → BitVec 8) (t : Text) : Prop := (∀ j (h : j < t.length), buf j = t[j]) ∧ buf t.length = 0

/-- The frame is within the guarded part of `printf`, which began with the screen `b`; `k` characters have
been drawn. -/
inductive Crit (font : Vesa.Font) (b : Vesa.Screen) (z : List Ins) (t : Text) (ops : List Op) : Nat → Frame → Sh → Prop where
  | storing {fr s} (l : Text) (p : Text) : t = p ++ l → fr.code = stores l p.length ++ (shown t ++ rest ops z) →
    (∀ j (h : j < p.length), s.buf j = p[j]) → fr.n = 0 → fr.i = 0 → fr.cur = none → s.scr = b → Crit font b z t ops 0 fr s
  | scanning {fr s} : fr.code = shown t ++ rest ops z → Holds s.buf t → fr.n ≤ t.length → fr.i = 0 → fr.cur = none →
    s.scr = b → Crit font b z t ops 0 fr s
  | scanned {fr s} : fr.code = .save :: .cli :: .draw :: .popf :: .leave t :: rest ops z → Holds s.buf t →
    fr.n = t.length → fr.i = 0 → fr.cur = none → s.scr = b → Crit font b z t ops 0 fr s
  | resaved {fr s} (g : BitVec 64) (gs : List (BitVec 64)) : fr.code = .cli :: .draw :: .popf :: .leave t :: rest ops z →
    fr.guards = g :: gs → ifSet (enableHwint g) = false → Holds s.buf t →
    fr.n = t.length → fr.i = 0 → fr.cur = none → s.scr = b → Crit font b z t ops 0 fr s
  | fetching {fr s} (i : Nat) (g : BitVec 64) (gs : List (BitVec 64)) : fr.i = i → fr.code = .draw :: .popf :: .leave t :: rest ops z →
    fr.guards = g :: gs → ifSet (enableHwint g) = false → Holds s.buf t →
    fr.n = t.length → i ≤ t.length → fr.cur = none → s.scr = cp font (t.take i) b → Crit font b z t ops i fr s
  | drawing {fr s} (i : Nat) (g : BitVec 64) (gs : List (BitVec 64)) (h : i < t.length) : fr.i = i →
    fr.code = .draw :: .popf :: .leave t :: rest ops z →
    fr.guards = g :: gs → ifSet (enableHwint g) = false → Holds s.buf t →
    fr.n = t.length → fr.cur = some t[i] → s.scr = cp font (t.take i) b → Crit font b z t ops i fr s
  | drawn {fr s} (g : BitVec 64) (gs : List (BitVec 64)) : fr.code = .popf :: .leave t :: rest ops z →
    fr.guards = g :: gs → ifSet (enableHwint g) = false → s.scr = cp font t b → Crit font b z t ops t.length fr s
  | leaving {fr s} : fr.code = .leave t :: rest ops z → s.scr = cp font t b → Crit font b z t ops t.length fr s

/-- The screen shows the texts one after the other. -/
abbrev showAll (font : Vesa.Font) (ts : List Text) (s : Vesa.Screen) : Vesa.Screen := ts.foldl (fun s t => cp font t s) s

/-- The screen after the calls of `printf` that have ended. -/
def base (font : Vesa.Font) (b0 : Vesa.Screen) (s : Sh) : Vesa.Screen := showAll font (s.out.map (·.2)) b0

/-- The running frame and the shared state agree. -/
inductive Top (font : Vesa.Font) (b0 : Vesa.Screen) (z : List Ins) (fr : Frame) (s : Sh) : Prop where
  | safe : SafeF z fr → s.scr = base font b0 s → Top font b0 z fr s
  | crit (t : Text) (ops : List Op) (k : Nat) : (0 : BitVec 8) ∉ t → NoNul ops → ifSet s.flags = false → Crit font (base font b0 s) z t ops k fr s →
    Top font b0 z fr s

theorem NoNul.tail {o : Op} {ops : List Op} (h : NoNul (o :: ops)) : NoNul ops := fun t m => h t (List.mem_cons_of_mem _ m)

theorem rest_print (t : Text) (ops : List Op) (z : List Ins) :
    rest (.print t :: ops) z = .enter :: .save :: .cli :: (stores t 0 ++ (shown t ++ rest ops z)) := by
  simp [rest, code, Op.code, print, List.append_assoc]

/-- A step from outside the guarded part. -/
theorem safe_step {font b0 z fr s fr' s'} (hz : z = [] ∨ z = [.hang]) (h : SafeF z fr) (hb : s.scr = base font b0 s)
    (e : exec font fr s = some (fr', s')) : Top font b0 z fr' s' := by
  cases h with
  | between ops hn hc =>
    cases ops with
    | nil =>
      simp only [rest, code, List.flatMap_nil, List.nil_append] at hc
      rcases hz with hz | hz
      · subst hz; simp [exec, hc] at e
      · subst hz; simp only [exec, hc, Option.some.injEq, Prod.mk.injEq] at e
        obtain ⟨rfl, rfl⟩ := e
        exact .safe (.between [] hn hc) hb
    | cons op ops =>
      cases op with
      | print t =>
        rw [rest_print] at hc
        simp only [exec, hc, Option.some.injEq, Prod.mk.injEq] at e
        obtain ⟨rfl, rfl⟩ := e
        exact .safe (.entered t ops (hn t (List.mem_cons_self ..)) hn.tail rfl rfl rfl rfl) hb
      | enable =>
        simp only [rest, code, List.flatMap_cons, Op.code, List.cons_append, List.nil_append] at hc
        simp only [exec, hc, Option.some.injEq, Prod.mk.injEq] at e
        obtain ⟨rfl, rfl⟩ := e
        exact .safe (.between ops hn.tail rfl) hb
      | disable =>
        simp only [rest, code, List.flatMap_cons, Op.code, List.cons_append, List.nil_append] at hc
        simp only [exec, hc, Option.some.injEq, Prod.mk.injEq] at e
        obtain ⟨rfl, rfl⟩ := e
        exact .safe (.between ops hn.tail rfl) hb
      | guard =>
        simp only [rest, code, List.flatMap_cons, Op.code, List.cons_append, List.nil_append] at hc
        simp only [exec, hc, Option.some.injEq, Prod.mk.injEq] at e
        obtain ⟨rfl, rfl⟩ := e
        refine .safe (.between (.disable :: ops) ?_ ?_) hb
        · intro t m
          rcases List.mem_cons.1 m with m | m
          · cases m
          · exact hn.tail t m
        · simp [rest, code, Op.code]
      | unguard =>
        simp only [rest, code, List.flatMap_cons, Op.code, List.cons_append, List.nil_append] at hc
        simp only [exec, hc] at e
        split at e
        · simp only [Option.some.injEq, Prod.mk.injEq] at e
          obtain ⟨rfl, rfl⟩ := e
          exact .safe (.between ops hn.tail rfl) hb
        · cases e
  | entered t ops ht hn hc h1 h2 h3 =>
    simp only [exec, hc, Option.some.injEq, Prod.mk.injEq] at e
    obtain ⟨rfl, rfl⟩ := e
    exact .safe (.saved t ops ht hn rfl h1 h2 h3) hb
  | saved t ops ht hn hc h1 h2 h3 =>
    simp only [exec, hc, Option.some.injEq, Prod.mk.injEq] at e
    obtain ⟨rfl, rfl⟩ := e
    exact .crit t ops 0 ht hn (ifSet_cli _) (.storing t [] rfl rfl (fun j h => absurd h (Nat.not_lt_zero _)) h1 h2 h3 hb)

/-- A step within the guarded part. -/
theorem crit_step {font b0 z fr s fr' s' t ops k} (ht : (0 : BitVec 8) ∉ t) (hn : NoNul ops) (hi : ifSet s.flags = false)
    (h : Crit font (base font b0 s) z t ops k fr s) (e : exec font fr s = some (fr', s')) : Top font b0 z fr' s' := by
  cases h with
  | storing l p hp hc hbuf h1 h2 h3 hb =>
    cases l with
    | nil =>
      simp only [stores, List.cons_append, List.nil_append] at hc
      simp only [exec, hc, Option.some.injEq, Prod.mk.injEq] at e
      obtain ⟨rfl, rfl⟩ := e
      rw [List.append_nil] at hp
      subst hp
      refine .crit t ops 0 ht hn hi (.scanning rfl ⟨fun j h => ?_, ?_⟩ (by show fr.n ≤ _; omega) h2 h3 hb)
      · show (if j = t.length then _ else _) = _
        rw [if_neg (by omega)]; exact hbuf j h
      · show (if t.length = t.length then _ else _) = _
        rw [if_pos rfl]
    | cons c l =>
      simp only [stores, List.cons_append] at hc
      simp only [exec, hc, Option.some.injEq, Prod.mk.injEq] at e
      obtain ⟨rfl, rfl⟩ := e
      refine .crit t ops 0 ht hn hi (.storing l (p ++ [c]) (by simp [hp]) (by simp) (fun j h => ?_) h1 h2 h3 hb)
      show (if j = p.length then _ else _) = _
      split
      · subst j; simp
      · rename_i hj
        rw [List.length_append, List.length_singleton] at h
        rw [List.getElem_append_left (by omega)]; exact hbuf j (by omega)
  | scanning hc hh h1 h2 h3 hb =>
    simp only [shown, List.cons_append, List.nil_append] at hc
    simp only [exec, hc] at e
    split at e
    · simp only [Option.some.injEq, Prod.mk.injEq] at e
      obtain ⟨rfl, rfl⟩ := e
      rename_i h0
      refine .crit t ops 0 ht hn hi (.scanned rfl hh ?_ h2 h3 hb)
      rcases Nat.lt_or_ge fr.n t.length with hl | hl
      · rw [hh.1 _ hl] at h0
        exact absurd (h0 ▸ List.getElem_mem hl) ht
      · exact Nat.le_antisymm h1 hl
    · simp only [Option.some.injEq, Prod.mk.injEq] at e
      obtain ⟨rfl, rfl⟩ := e
      rename_i h0
      refine .crit t ops 0 ht hn hi (.scanning rfl hh ?_ h2 h3 hb)
      show fr.n + 1 ≤ _
      rcases Nat.lt_or_ge fr.n t.length with hl | hl
      · exact hl
      · rw [Nat.le_antisymm h1 hl] at h0
        exact absurd hh.2 h0
  | scanned hc hh h1 h2 h3 hb =>
    simp only [exec, hc, Option.some.injEq, Prod.mk.injEq] at e
    obtain ⟨rfl, rfl⟩ := e
    exact .crit t ops 0 ht hn hi (.resaved _ _ rfl rfl (by rw [ifSet_restore]; exact hi) hh h1 h2 h3 hb)
  | resaved g gs hc hg hf hh h1 h2 h3 hb =>
    simp only [exec, hc, Option.some.injEq, Prod.mk.injEq] at e
    obtain ⟨rfl, rfl⟩ := e
    exact .crit t ops 0 ht hn (ifSet_cli _) (.fetching 0 g gs h2 rfl hg hf hh h1 (Nat.zero_le _) h3 hb)
  | fetching _ g gs hik hc hg hf hh h1 h2 h3 hb =>
    simp only [exec, hc, h3] at e
    split at e
    · simp only [Option.some.injEq, Prod.mk.injEq] at e
      obtain ⟨rfl, rfl⟩ := e
      rename_i hl
      rw [h1, hik] at hl
      refine .crit t ops k ht hn hi (.drawing k g gs hl hik rfl hg hf hh h1 ?_ hb)
      show some (s.buf fr.i) = _
      rw [hik, hh.1 _ hl]
    · simp only [Option.some.injEq, Prod.mk.injEq] at e
      obtain ⟨rfl, rfl⟩ := e
      rename_i hl
      refine .crit t ops _ ht hn hi (.drawn g gs rfl hg hf ?_)
      show s.scr = _
      rw [hb, List.take_of_length_le (by omega)]
  | drawing _ g gs hl hik hc hg hf hh h1 h3 hb =>
    simp only [exec, hc, h3, Option.some.injEq, Prod.mk.injEq] at e
    obtain ⟨rfl, rfl⟩ := e
    refine .crit t ops (k + 1) ht hn hi (.fetching (k + 1) g gs (congrArg (· + 1) hik) rfl hg hf hh h1 hl rfl ?_)
    show Vesa.putc font Printf.white t[k] s.scr = cp font (t.take (k + 1)) _
    rw [hb, List.take_succ_eq_append_getElem hl]
    simp only [cp, Vesa.colorPrint, List.foldl_append, List.foldl_cons, List.foldl_nil]
    rfl
  | drawn g gs hc hg hf hb =>
    simp only [exec, hc, hg, Option.some.injEq, Prod.mk.injEq] at e
    obtain ⟨rfl, rfl⟩ := e
    exact .crit t ops _ ht hn hf (.leaving rfl hb)
  | leaving hc hb =>
    simp only [exec, hc] at e
    split at e
    · simp only [Option.some.injEq, Prod.mk.injEq] at e
      obtain ⟨rfl, rfl⟩ := e
      refine .safe (.between ops hn rfl) ?_
      show s.scr = showAll font ((s.out ++ [(fr.id, t)]).map (·.2)) b0
      rw [hb, List.map_append, showAll, List.foldl_append]
      rfl
    · cases e

theorem top_step {font b0 z fr s fr' s'} (hz : z = [] ∨ z = [.hang]) (h : Top font b0 z fr s)
    (e : exec font fr s = some (fr', s')) : Top font b0 z fr' s' := by
  cases h with
  | safe h hb => exact safe_step hz h hb e
  | crit t ops k ht hn hi h => exact crit_step ht hn hi h e

theorem Crit.code_ne {font b z t ops k fr s} (h : Crit font b z t ops k fr s) : fr.code ≠ [] := by
  cases h with
  | storing l p hp hc => rw [hc]; cases l <;> simp [stores]
  | scanning hc => rw [hc]; simp [shown]
  | scanned hc => rw [hc]; simp
  | resaved _ _ hc => rw [hc]; simp
  | fetching _ _ _ _ hc => rw [hc]; simp
  | drawing _ _ _ _ _ hc => rw [hc]; simp
  | drawn _ _ hc => rw [hc]; simp
  | leaving hc => rw [hc]; simp

theorem Crit.scr {font b z t ops k fr s} (h : Crit font b z t ops k fr s) : k ≤ t.length ∧ s.scr = cp font (t.take k) b := by
  cases h with
  | storing l p hp hc _ _ _ _ hb => exact ⟨Nat.zero_le _, hb⟩
  | scanning _ _ _ _ _ hb => exact ⟨Nat.zero_le _, hb⟩
  | scanned _ _ _ _ _ hb => exact ⟨Nat.zero_le _, hb⟩
  | resaved _ _ _ _ _ _ _ _ _ hb => exact ⟨Nat.zero_le _, hb⟩
  | fetching _ _ _ _ _ _ _ _ _ hl _ hb => exact ⟨hl, hb⟩
  | drawing _ _ _ hl _ _ _ _ _ _ _ hb => exact ⟨Nat.le_of_lt hl, hb⟩
  | drawn _ _ _ _ _ hb => exact ⟨Nat.le_refl _, by rw [List.take_length]; exact hb⟩
  | leaving _ hb => exact ⟨Nat.le_refl _, by rw [List.take_length]; exact hb⟩

/-- Frames that wait are not within the guarded part. -/
def Inv (font : Vesa.Font) (b0 : Vesa.Screen) (c : Cfg) : Prop :=
  ∃ fr fs, c.frames = fr :: fs ∧ Top font b0 [] fr c.sh ∧ ∀ f ∈ fs, SafeF [] f

theorem inv_step {font b0 c c'} (h : Inv font b0 c) (st : Step font c c') (hn : ∀ ops ∈ c'.acts, NoNul ops) :
    Inv font b0 c' := by
  obtain ⟨fr, fs, hf, ht, hs⟩ := h
  cases st with
  | run e =>
    cases hf
    exact ⟨_, _, rfl, top_step (.inl rfl) ht e, hs⟩
  | irq ops hi =>
    cases hf
    cases ht with
    | crit _ _ _ _ _ hi' => rw [hi] at hi'; cases hi'
    | safe h hb =>
      refine ⟨_, _, rfl, .safe (.between ops (hn ops (by simp)) (by simp [rest])) hb, ?_⟩
      intro f m
      rcases List.mem_cons.1 m with m | m
      · subst m; exact h
      · exact hs f m
  | iret hc =>
    cases hf
    cases ht with
    | crit _ _ _ _ _ _ h => exact absurd hc h.code_ne
    | safe h hb =>
      exact ⟨_, _, rfl, .safe (hs _ (List.mem_cons_self ..)) hb, fun f m => hs f (List.mem_cons_of_mem _ m)⟩

/-- Activations are only added. -/
theorem acts_step {font c c'} (st : Step font c c') : ∀ x ∈ c.acts, x ∈ c'.acts := by
  cases st with
  | run => exact fun _ m => m
  | irq => exact fun _ m => List.mem_append_left _ m
  | iret => exact fun _ m => m

theorem inv_steps {font} {ops : List Op} {s : Sh} (h0 : s.out = []) {c : Cfg} (st : Steps font (start ops s) c)
    (hn : ∀ ops ∈ c.acts, NoNul ops) : Inv font s.scr c := by
  induction st with
  | refl =>
    refine ⟨_, _, rfl, .safe (.between ops (hn ops (by simp [start])) (by simp [rest])) ?_, fun f m => by cases m⟩
    show s.scr = base font s.scr s
    simp [base, h0]
  | tail _ st ih => exact inv_step (ih (fun o m => hn o (acts_step st o m))) st hn

end Verif.Reent
