import Verif.Lemmas.Reent

/-!
Property C119: printing by interrupt handlers while the kernel prints.
-/

set_option backward.isDefEq.respectTransparency false

namespace Verif.Reent
open Verif
open Verif.IrqGuard (ifSet pushfq enableHwint ifSet_cli ifSet_restore)

/-- The texts a sequence of operations prints. -/
def texts (ops : List Op) : List Text := ops.filterMap fun | .print t => some t | _ => none

/-- The calls of `printf` that have not ended. -/
def leaves (k : List Ins) : List Text := k.filterMap fun | .leave t => some t | _ => none

/-- The texts activation `i` has printed, in order. -/
def outOf (s : Sh) (i : Nat) : List Text := (s.out.filter (fun x => x.1 = i)).map (·.2)

theorem leaves_append (a b : List Ins) : leaves (a ++ b) = leaves a ++ leaves b := List.filterMap_append ..

theorem leaves_stores (t : Text) (i : Nat) : leaves (stores t i) = [] := by
  induction t generalizing i with
  | nil => rfl
  | cons b l ih => exact ih (i + 1)

theorem leaves_print (t : Text) : leaves (print t) = [t] := by
  rw [print, leaves_append, leaves_append, leaves_stores]; rfl

theorem leaves_code (ops : List Op) : leaves (code ops) = texts ops := by
  induction ops with
  | nil => rfl
  | cons o ops ih =>
    show leaves (o.code ++ code ops) = _
    rw [leaves_append, ih]
    cases o with
    | print t => rw [Op.code, leaves_print]; rfl
    | _ => rfl

theorem exec_book {font fr s fr' s'} (e : exec font fr s = some (fr', s')) :
    fr'.id = fr.id ∧ ((s'.out = s.out ∧ leaves fr'.code = leaves fr.code) ∨
      ∃ t, s'.out = s.out ++ [(fr.id, t)] ∧ leaves fr.code = t :: leaves fr'.code) := by
  unfold exec at e
  repeat' split at e
  all_goals first
    | (cases e; done)
    | (rename_i hc
       simp only [Option.some.injEq, Prod.mk.injEq] at e
       obtain ⟨rfl, rfl⟩ := e
       exact ⟨rfl, .inl ⟨rfl, by simp [*, leaves]⟩⟩)
    | (simp only [Option.some.injEq, Prod.mk.injEq] at e
       obtain ⟨rfl, rfl⟩ := e
       exact ⟨rfl, .inr ⟨_, rfl, by simp [*, leaves]⟩⟩)

/-- The record and what is left to do add up to what was to be done. -/
structure Book (c : Cfg) : Prop where
  lt : ∀ f ∈ c.frames, f.id < c.acts.length
  ne : c.frames.Pairwise (fun f g => f.id ≠ g.id)
  act : ∀ f ∈ c.frames, ∀ ops, c.acts[f.id]? = some ops → outOf c.sh f.id ++ leaves f.code = texts ops
  fin : ∀ i ops, c.acts[i]? = some ops → (∀ f ∈ c.frames, f.id ≠ i) → outOf c.sh i = texts ops
  new : ∀ i, c.acts.length ≤ i → outOf c.sh i = []

theorem outOf_add_same (s s' : Sh) (i : Nat) (t : Text) (h : s'.out = s.out ++ [(i, t)]) : outOf s' i = outOf s i ++ [t] := by
  simp [outOf, h, List.filter_append]

theorem outOf_add_ne (s s' : Sh) (i j : Nat) (t : Text) (h : s'.out = s.out ++ [(i, t)]) (hj : i ≠ j) : outOf s' j = outOf s j := by
  simp [outOf, h, List.filter_append, hj]

theorem outOf_same (s s' : Sh) (j : Nat) (h : s'.out = s.out) : outOf s' j = outOf s j := by simp [outOf, h]

theorem book_step {font c c'} (h : Book c) (st : Step font c c') : Book c' := by
  cases st with
  | @run fr fr' fs s s' a e =>
    obtain ⟨hid, he⟩ := exec_book e
    have hlt : fr.id < a.length := h.lt fr (List.mem_cons_self ..)
    have hne := List.pairwise_cons.1 h.ne
    have hothers : ∀ j, fr.id ≠ j → outOf s' j = outOf s j := by
      intro j hj
      rcases he with ⟨e1, _⟩ | ⟨t, e1, _⟩
      · exact outOf_same _ _ _ e1
      · exact outOf_add_ne _ _ _ _ t e1 hj
    refine ⟨?_, ?_, ?_, ?_, ?_⟩
    · intro f m
      rcases List.mem_cons.1 m with rfl | m
      · rw [hid]; exact hlt
      · exact h.lt f (List.mem_cons_of_mem _ m)
    · exact List.pairwise_cons.2 ⟨fun g m => by rw [hid]; exact hne.1 g m, hne.2⟩
    · intro f m ops ho
      rcases List.mem_cons.1 m with rfl | m
      · rw [hid] at ho ⊢
        have := h.act fr (List.mem_cons_self ..) ops ho
        rcases he with ⟨e1, e2⟩ | ⟨t, e1, e2⟩
        · show outOf s' fr.id ++ _ = _
          rw [outOf_same _ _ _ e1, e2]; exact this
        · show outOf s' fr.id ++ _ = _
          rw [outOf_add_same _ _ _ t e1, List.append_assoc]
          rw [e2] at this; exact this
      · show outOf s' f.id ++ _ = _
        rw [hothers _ (hne.1 f m)]
        exact h.act f (List.mem_cons_of_mem _ m) ops ho
    · intro i ops ho hf
      have hi : fr.id ≠ i := by rw [← hid]; exact hf _ (List.mem_cons_self ..)
      show outOf s' i = _
      rw [hothers _ hi]
      refine h.fin i ops ho fun f m => ?_
      rcases List.mem_cons.1 m with rfl | m
      · exact hi
      · exact hf f (List.mem_cons_of_mem _ m)
    · intro i hi
      show outOf s' i = _
      rw [hothers i (by have : a.length ≤ i := hi; omega)]
      exact h.new i hi
  | @irq fs s a ops hi =>
    have hl : (a ++ [ops]).length = a.length + 1 := by simp
    refine ⟨?_, ?_, ?_, ?_, ?_⟩
    · intro f m
      show f.id < (a ++ [ops]).length
      rw [hl]
      rcases List.mem_cons.1 m with rfl | m
      · exact Nat.lt_succ_self _
      · exact Nat.lt_succ_of_lt (h.lt f m)
    · exact List.pairwise_cons.2 ⟨fun g m => Nat.ne_of_gt (h.lt g m), h.ne⟩
    · intro f m ops' ho
      rcases List.mem_cons.1 m with rfl | m
      · have e : ops' = ops := by
          have : (a ++ [ops])[a.length]? = some ops' := ho
          rw [List.getElem?_concat_length] at this
          injection this with this; exact this.symm
        subst e
        have e0 : outOf s a.length = [] := h.new a.length (Nat.le_refl _)
        show outOf s a.length ++ leaves (code ops') = _
        rw [e0, leaves_code]; rfl
      · have hlt : f.id < a.length := h.lt f m
        have : (a ++ [ops])[f.id]? = some ops' := ho
        rw [List.getElem?_append_left hlt] at this
        exact h.act f m ops' this
    · intro i ops' ho hf
      have hia : a.length ≠ i := hf _ (List.mem_cons_self ..)
      have hlt : i < (a ++ [ops]).length := (List.getElem?_eq_some_iff.1 ho).1
      rw [hl] at hlt
      have : (a ++ [ops])[i]? = some ops' := ho
      rw [List.getElem?_append_left (by omega)] at this
      exact h.fin i ops' this fun f m => hf f (List.mem_cons_of_mem _ m)
    · intro i hi
      have hi' : (a ++ [ops]).length ≤ i := hi
      rw [hl] at hi'
      exact h.new i (by show a.length ≤ i; omega)
  | @iret fr fr' fs s a hc =>
    have hne := List.pairwise_cons.1 h.ne
    refine ⟨fun f m => h.lt f (List.mem_cons_of_mem _ m), hne.2, fun f m => h.act f (List.mem_cons_of_mem _ m), ?_, h.new⟩
    intro i ops ho hf
    by_cases hi : fr.id = i
    · subst hi
      have := h.act fr (List.mem_cons_self ..) ops ho
      rw [hc] at this
      have h' : outOf s fr.id = texts ops := by simpa [leaves] using this
      exact h'
    · refine h.fin i ops ho fun f m => ?_
      rcases List.mem_cons.1 m with rfl | m
      · exact hi
      · exact hf f m

theorem book_steps {font} {ops : List Op} {s : Sh} (h0 : s.out = []) {c : Cfg} (st : Steps font (start ops s) c) : Book c := by
  induction st with
  | refl =>
    refine ⟨?_, List.pairwise_singleton .., ?_, ?_, ?_⟩
    · intro f m; cases m with
      | head => exact Nat.zero_lt_one
      | tail _ m => cases m
    · intro f m ops' ho
      cases m with
      | head =>
        injection ho with ho
        subst ho
        show outOf s 0 ++ leaves (code ops) = _
        rw [leaves_code]; simp [outOf, h0]
      | tail _ m => cases m
    · intro i ops' ho hf
      have : i < 1 := (List.getElem?_eq_some_iff.1 ho).1
      exact absurd (show (0 : Nat) = i by omega) (hf _ (List.mem_cons_self ..))
    · intro i _; simp [outOf, start, h0]
  | tail _ st ih => exact book_step ih st

theorem Crit.next {font b z t ops k fr s} (h : Crit font b z t ops k fr s) : ∃ l, leaves fr.code = t :: l := by
  cases h with
  | storing l p hp hc => exact ⟨leaves (rest ops z), by rw [hc, leaves_append, leaves_append, leaves_stores]; rfl⟩
  | scanning hc => exact ⟨leaves (rest ops z), by rw [hc]; rfl⟩
  | scanned hc => exact ⟨leaves (rest ops z), by rw [hc]; rfl⟩
  | resaved _ _ hc => exact ⟨leaves (rest ops z), by rw [hc]; rfl⟩
  | fetching _ _ _ _ hc => exact ⟨leaves (rest ops z), by rw [hc]; rfl⟩
  | drawing _ _ _ _ _ hc => exact ⟨leaves (rest ops z), by rw [hc]; rfl⟩
  | drawn _ _ hc => exact ⟨leaves (rest ops z), by rw [hc]; rfl⟩
  | leaving hc => exact ⟨leaves (rest ops z), by rw [hc]; rfl⟩

/-- C119, lines stay whole. Let the kernel do anything that prints, enables or disables interrupts or
uses guards, and let interrupts arrive whenever they are enabled, with handlers that do
likewise. At every moment the screen shows the texts of the calls of `printf` that have ended, each
as a whole and one after the other, followed by a beginning of at most one more text, the next one of
the activation that is running. Whenever interrupts are enabled, or the running activation is at its end, there is
no such beginning. -/
theorem C119_whole (font : Vesa.Font) (ops : List Op) (s : Sh) (h0 : s.out = []) (c : Cfg) (st : Steps font (start ops s) c)
    (hn : ∀ ops ∈ c.acts, NoNul ops) :
    ∃ fr fs t k, c.frames = fr :: fs ∧
      c.sh.scr = Vesa.colorPrint font Printf.white (t.take k) (showAll font (c.sh.out.map (·.2)) s.scr) ∧
      (k = 0 ∨ ∃ done l ops', c.acts[fr.id]? = some ops' ∧ outOf c.sh fr.id = done ∧ texts ops' = done ++ t :: l) ∧
      (ifSet c.sh.flags = true ∨ fr.code = [] → k = 0) := by
  obtain ⟨fr, fs, hf, ht, hs⟩ := inv_steps h0 st hn
  have hb := book_steps h0 st
  have hm : fr ∈ c.frames := by rw [hf]; exact List.mem_cons_self ..
  cases ht with
  | safe h e => exact ⟨fr, fs, [], 0, hf, e, .inl rfl, fun _ => rfl⟩
  | crit t ops' k h1 h2 h3 h =>
    obtain ⟨l, hl⟩ := h.next
    have hlt := hb.lt fr hm
    refine ⟨fr, fs, t, k, hf, h.scr.2, .inr ⟨_, l, c.acts[fr.id], List.getElem?_eq_getElem hlt, rfl, ?_⟩, ?_⟩
    · rw [← hl]; exact (hb.act fr hm _ (List.getElem?_eq_getElem hlt)).symm
    · rintro (h' | h')
      · rw [h3] at h'; cases h'
      · exact absurd h' h.code_ne

/-- C119, nothing is lost, doubled or reordered: what an activation has printed at any moment is a
beginning of what it is to print, and all of it once it has ended. -/
theorem C119_order (font : Vesa.Font) (ops : List Op) (s : Sh) (h0 : s.out = []) (c : Cfg) (st : Steps font (start ops s) c)
    (i : Nat) (ops' : List Op) (hi : c.acts[i]? = some ops') :
    outOf c.sh i <+: texts ops' ∧ ((∀ f ∈ c.frames, f.id = i → f.code = []) → outOf c.sh i = texts ops') := by
  have hb := book_steps h0 st
  by_cases h : ∃ f ∈ c.frames, f.id = i
  · obtain ⟨f, m, rfl⟩ := h
    have e := hb.act f m ops' hi
    refine ⟨⟨_, e⟩, fun hf => ?_⟩
    rw [hf f m rfl] at e
    simpa [leaves] using e
  · have e := hb.fin i ops' hi (fun f m e => h ⟨f, m, e⟩)
    exact ⟨by rw [e]; exact List.prefix_refl _, fun _ => e⟩

/-- Some steps of one frame. -/
inductive Runs (font : Vesa.Font) : Frame → Sh → Frame → Sh → Prop where
  | refl {fr s} : Runs font fr s fr s
  | head {fr s fr' s' fr'' s''} : exec font fr s = some (fr', s') → Runs font fr' s' fr'' s'' → Runs font fr s fr'' s''

theorem Runs.trans {font fr s fr' s' fr'' s''} (h : Runs font fr s fr' s') (g : Runs font fr' s' fr'' s'') : Runs font fr s fr'' s'' := by
  induction h with
  | refl => exact g
  | head e _ ih => exact .head e (ih g)

theorem Steps.trans {font a b c} (h : Steps font a b) (g : Steps font b c) : Steps font a c := by
  induction g with
  | refl => exact h
  | tail _ st ih => exact .tail ih st

theorem Runs.steps {font fr s fr' s'} (h : Runs font fr s fr' s') (fs : List Frame) (a : List (List Op)) :
    Steps font ⟨fr :: fs, s, a⟩ ⟨fr' :: fs, s', a⟩ := by
  induction h with
  | refl => exact .refl
  | head e _ ih => exact (Steps.tail .refl (.run e)).trans ih

theorem stores_runs (font : Vesa.Font) (k : List Ins) (l : Text) : ∀ (p : Nat) (fr : Frame) (s : Sh), fr.code = stores l p ++ k →
    ∃ b, Runs font fr s { fr with code := k } { s with buf := b } ∧ (∀ j, j < p → b j = s.buf j) ∧
      (∀ j (h : j < l.length), b (p + j) = l[j]) ∧ b (p + l.length) = 0 := by
  induction l with
  | nil =>
    intro p fr s hc
    simp only [stores, List.cons_append, List.nil_append] at hc
    refine ⟨fun j => if j = p then 0 else s.buf j, .head (by simp only [exec, hc]) .refl, fun j hj => if_neg (by omega), fun j h => absurd h (Nat.not_lt_zero _), if_pos rfl⟩
  | cons c l ih =>
    intro p fr s hc
    simp only [stores, List.cons_append] at hc
    obtain ⟨b, h1, h2, h3, h4⟩ := ih (p + 1) { fr with code := stores l (p + 1) ++ k }
      { s with buf := fun j => if j = p then c else s.buf j } rfl
    refine ⟨b, .head (by simp only [exec, hc]) h1, fun j hj => ?_, fun j h => ?_, ?_⟩
    · rw [h2 j (by omega)]; exact if_neg (by omega)
    · cases j with
      | zero => rw [h2 _ (by omega)]; exact if_pos rfl
      | succ j =>
        have := h3 j (by simpa using h)
        rw [show p + (j + 1) = p + 1 + j by omega]; exact this
    · rw [List.length_cons, show p + (l.length + 1) = p + 1 + l.length by omega]; exact h4

theorem scan_runs (font : Vesa.Font) (k : List Ins) (t : Text) (ht : (0 : BitVec 8) ∉ t) (d : Nat) : ∀ (fr : Frame) (s : Sh),
    fr.code = .scan :: k → Holds s.buf t → fr.n + d = t.length → Runs font fr s { fr with code := k, n := t.length } s := by
  induction d with
  | zero =>
    intro fr s hc hh hd
    refine .head (by simp only [exec, hc]; rw [if_pos (by rw [show fr.n = t.length by omega]; exact hh.2)]) ?_
    rw [show t.length = fr.n by omega]
    exact .refl
  | succ d ih =>
    intro fr s hc hh hd
    have hl : fr.n < t.length := by omega
    have hne : ¬ s.buf fr.n = 0 := by
      intro h0; rw [hh.1 _ hl] at h0; exact ht (h0 ▸ List.getElem_mem hl)
    refine .head (by simp only [exec, hc]; rw [if_neg hne]) ?_
    exact ih { fr with code := .scan :: k, n := fr.n + 1 } s rfl hh (by show fr.n + 1 + d = _; omega)

theorem draw_runs (font : Vesa.Font) (k : List Ins) (t : Text) (d : Nat) : ∀ (fr : Frame) (s : Sh),
    fr.code = .draw :: k → Holds s.buf t → fr.n = t.length → fr.cur = none → fr.i + d = t.length →
    Runs font fr s { fr with code := k, i := t.length } { s with scr := cp font (t.drop fr.i) s.scr } := by
  induction d with
  | zero =>
    intro fr s hc hh hn hcur hd
    have hi : fr.i = t.length := by omega
    refine .head (by simp only [exec, hc, hcur]; rw [if_neg (by omega)]) ?_
    rw [hi, List.drop_length, ← hi, ← hcur]
    exact .refl
  | succ d ih =>
    intro fr s hc hh hn hcur hd
    have hl : fr.i < t.length := by omega
    refine .head (by simp only [exec, hc, hcur]; rw [if_pos (by omega)]) ?_
    refine .head (by simp only [exec]; rfl) ?_
    have := ih { fr with code := .draw :: k, i := fr.i + 1, cur := none } { s with scr := Vesa.putc font Printf.white (s.buf fr.i) s.scr } rfl hh hn rfl
      (by show fr.i + 1 + d = _; omega)
    rw [List.drop_eq_getElem_cons hl, ← hh.1 _ hl]
    rw [hcur]
    exact this

theorem ex_enter (font : Vesa.Font) {fr : Frame} {s : Sh} {k : List Ins} (h : fr.code = .enter :: k) :
    exec font fr s = some ({ fr with code := k, n := 0, i := 0, cur := none }, s) := by simp only [exec, h]

theorem ex_save (font : Vesa.Font) {fr : Frame} {s : Sh} {k : List Ins} (h : fr.code = .save :: k) :
    exec font fr s = some ({ fr with code := k, guards := pushfq s.flags :: fr.guards }, s) := by simp only [exec, h]

theorem ex_cli (font : Vesa.Font) {fr : Frame} {s : Sh} {k : List Ins} (h : fr.code = .cli :: k) :
    exec font fr s = some ({ fr with code := k }, { s with flags := IrqGuard.cli s.flags }) := by simp only [exec, h]

theorem ex_popf (font : Vesa.Font) {fr : Frame} {s : Sh} {k : List Ins} {g : BitVec 64} {gs : List (BitVec 64)} (h : fr.code = .popf :: k)
    (hg : fr.guards = g :: gs) :
    exec font fr s = some ({ fr with code := k, guards := gs }, { s with flags := enableHwint g }) := by simp only [exec, h, hg]

theorem ex_leave (font : Vesa.Font) {fr : Frame} {s : Sh} {k : List Ins} {t : Text} {g : BitVec 64} {gs : List (BitVec 64)}
    (h : fr.code = .leave t :: k) (hg : fr.guards = g :: gs) :
    exec font fr s = some ({ fr with code := k, guards := gs }, { s with flags := enableHwint g, out := s.out ++ [(fr.id, t)] }) := by
  simp only [exec, h, hg]

theorem print_runs (font : Vesa.Font) (t : Text) (ht : (0 : BitVec 8) ∉ t) (k : List Ins) (fr : Frame) (s : Sh) (hc : fr.code = print t ++ k) :
    ∃ fr' s', Runs font fr s fr' s' ∧ fr'.code = k ∧ fr'.guards = fr.guards ∧ fr'.id = fr.id ∧ fr'.ret = fr.ret ∧
      s'.scr = cp font t s.scr ∧ s'.out = s.out ++ [(fr.id, t)] ∧ ifSet s'.flags = ifSet s.flags := by
  have hc' : fr.code = .enter :: .save :: .cli :: (stores t 0 ++ (shown t ++ k)) := by rw [hc]; simp [print, List.append_assoc]
  obtain ⟨b, h1, _, h3, h4⟩ := stores_runs font (shown t ++ k) t 0
    { fr with code := stores t 0 ++ (shown t ++ k), n := 0, i := 0, cur := none, guards := pushfq s.flags :: fr.guards }
    { s with flags := IrqGuard.cli s.flags } rfl
  have hh : Holds b t := ⟨fun j h => by simpa using h3 j h, by simpa using h4⟩
  have r1 := Runs.head (ex_enter font hc') (.head (ex_save font rfl) (.head (ex_cli font rfl) h1))
  have r2 := r1.trans (scan_runs font _ t ht t.length _ _ rfl hh (by simp))
  have r3 := r2.trans (.head (ex_save font rfl) (.head (ex_cli font rfl) (draw_runs font _ t t.length _ _ rfl hh rfl rfl (by simp))))
  have r4 := r3.trans (.head (ex_popf font rfl rfl) (.head (ex_leave font rfl rfl) .refl))
  exact ⟨_, _, r4, rfl, rfl, rfl, rfl, rfl, rfl, ifSet_restore _⟩

/-- C119, calls end: whatever the state, a call of `printf` that is not interrupted comes to its end,
has shown its text, and leaves the interrupt flag as it was. -/
theorem C119_ends (font : Vesa.Font) (t : Text) (ht : (0 : BitVec 8) ∉ t) (k : List Ins) (fr : Frame) (fs : List Frame) (s : Sh)
    (a : List (List Op)) (hc : fr.code = print t ++ k) :
    ∃ fr' s', Steps font ⟨fr :: fs, s, a⟩ ⟨fr' :: fs, s', a⟩ ∧ fr'.code = k ∧ fr'.guards = fr.guards ∧
      s'.scr = Vesa.colorPrint font Printf.white t s.scr ∧ s'.out = s.out ++ [(fr.id, t)] ∧
      ifSet s'.flags = ifSet s.flags := by
  obtain ⟨fr', s', h1, h2, h3, _, _, h4, h5, h6⟩ := print_runs font t ht k fr s hc
  exact ⟨fr', s', h1.steps fs a, h2, h3, h4, h5, h6⟩

/-- Interrupts are off and will not be turned on, and the end is never reached. -/
structure Quiet (fr : Frame) (s : Sh) : Prop where
  off : ifSet s.flags = false
  guards : ∀ g ∈ fr.guards, ifSet (enableHwint g) = false
  sti : .sti ∉ fr.code
  hang : .hang ∈ fr.code

theorem quiet_step {font fr s fr' s'} (h : Quiet fr s) (e : exec font fr s = some (fr', s')) : Quiet fr' s' := by
  obtain ⟨h1, h2, h3, h4⟩ := h
  unfold exec at e
  split at e
  case h_1 => cases e
  all_goals rename_i k hc
  all_goals (try rw [hc] at h3 h4)
  case h_2 => cases e; exact ⟨h1, h2, by simpa using h3, by simpa using h4⟩
  case h_3 =>
    cases e
    refine ⟨h1, fun g m => ?_, by simpa using h3, by simpa using h4⟩
    rcases List.mem_cons.1 m with rfl | m
    · rw [ifSet_restore]; exact h1
    · exact h2 g m
  case h_4 => cases e; exact ⟨ifSet_cli _, h2, by simpa using h3, by simpa using h4⟩
  case h_5 => simp at h3
  case h_6 =>
    split at e
    · rename_i g gs hg
      cases e
      rw [hg] at h2
      exact ⟨h2 g (List.mem_cons_self ..), fun x m => h2 x (List.mem_cons_of_mem _ m), by simpa using h3, by simpa using h4⟩
    · cases e
  case h_7 => cases e; exact ⟨h1, h2, by simpa using h3, by simpa using h4⟩
  case h_8 =>
    split at e
    · cases e; exact ⟨h1, h2, by simpa using h3, by simpa using h4⟩
    · cases e; exact ⟨h1, h2, by simpa [hc] using h3, by simpa [hc] using h4⟩
  case h_9 =>
    split at e
    · split at e
      · cases e; exact ⟨h1, h2, by simpa [hc] using h3, by simpa [hc] using h4⟩
      · cases e; exact ⟨h1, h2, by simpa using h3, by simpa using h4⟩
    · cases e; exact ⟨h1, h2, by simpa [hc] using h3, by simpa [hc] using h4⟩
  case h_10 =>
    split at e
    · rename_i g gs hg
      cases e
      rw [hg] at h2
      exact ⟨h2 g (List.mem_cons_self ..), fun x m => h2 x (List.mem_cons_of_mem _ m), by simpa using h3, by simpa using h4⟩
    · cases e
  case h_11 => cases e; exact ⟨h1, h2, by rw [hc]; exact h3, by rw [hc]; exact h4⟩

theorem no_sti_stores (t : Text) (i : Nat) : Ins.sti ∉ stores t i := by
  induction t generalizing i with
  | nil => simp [stores]
  | cons b l ih => simp [stores, ih]

/-- What holds after an exception. -/
def After (font : Vesa.Font) (t1 t2 : Text) (c c' : Cfg) : Prop :=
  ∃ fr, c'.frames = fr :: c.frames ∧ Top font c.sh.scr [.hang] fr c'.sh ∧ Quiet fr c'.sh ∧
    c'.sh.out.map (·.2) ++ leaves fr.code = [t1, t2]

theorem after_step {font t1 t2 c c' c''} (h : After font t1 t2 c c') (st : Step font c' c'') : After font t1 t2 c c'' := by
  obtain ⟨fr, hf, ht, hq, hl⟩ := h
  cases st with
  | @run f f' fs s s' a e =>
    injection hf with e0 e1
    subst e0
    refine ⟨f', by rw [← e1], top_step (.inr rfl) ht e, quiet_step hq e, ?_⟩
    rcases (exec_book e).2 with ⟨e1, e2⟩ | ⟨t, e1, e2⟩
    · show s'.out.map (·.2) ++ _ = _
      rw [e1, e2]; exact hl
    · have hl' : s.out.map (·.2) ++ leaves f.code = [t1, t2] := hl
      rw [e2] at hl'
      show s'.out.map (·.2) ++ _ = _
      rw [e1, List.map_append, List.append_assoc]; exact hl'
  | irq ops hi => exact absurd hi (by have := hq.off; simp only at this; rw [this]; simp)
  | iret hc =>
    injection hf with e0 e1
    subst e0
    have := hq.hang; rw [hc] at this; cases this

theorem after_steps (font : Vesa.Font) (t1 t2 : Text) (h1 : (0 : BitVec 8) ∉ t1) (h2 : (0 : BitVec 8) ∉ t2) (c c' : Cfg)
    (st : Steps font (fault t1 t2 c) c') : After font t1 t2 c c' := by
  induction st with
  | refl =>
    refine ⟨_, rfl, .safe (.between [.print t1, .print t2] ?_ rfl) ?_, ⟨ifSet_cli _, fun g m => (by cases m), ?_, ?_⟩, ?_⟩
    · intro t m
      rcases List.mem_cons.1 m with m | m
      · cases m; exact h1
      · rcases List.mem_cons.1 m with m | m
        · cases m; exact h2
        · cases m
    · rfl
    · simp [code, Op.code, print, shown, no_sti_stores]
    · simp
    · show [] ++ leaves (code [.print t1, .print t2] ++ [.hang]) = _
      rw [leaves_append, leaves_code]; rfl
  | tail _ st ih => exact after_step ih st

/-- C119, exceptions: whenever one arrives, even in the middle of a call of `printf` (also one
made by a handler), from then on the screen shows what it showed and after that a beginning of the message, nothing
else; the interrupted code is never resumed, and interrupts stay off. -/
theorem C119_fault (font : Vesa.Font) (t1 t2 : Text) (h1 : (0 : BitVec 8) ∉ t1) (h2 : (0 : BitVec 8) ∉ t2) (c c' : Cfg)
    (st : Steps font (fault t1 t2 c) c') :
    c'.frames.tail = c.frames ∧ ifSet c'.sh.flags = false ∧
      ∃ k, c'.sh.scr = Vesa.colorPrint font Printf.white ((t1 ++ t2).take k) c.sh.scr := by
  obtain ⟨fr, hf, ht, hq, hl⟩ := after_steps font t1 t2 h1 h2 c c' st
  refine ⟨by rw [hf]; rfl, hq.off, ?_⟩
  have key : ∀ (o : List Text) (t : Text) (k : Nat) (l : List Text), o ++ t :: l = [t1, t2] → k ≤ t.length →
      ∃ k', cp font (t.take k) (showAll font o c.sh.scr) = cp font ((t1 ++ t2).take k') c.sh.scr := by
    intro o t k l ho hk
    rcases o with _ | ⟨a, _ | ⟨b, o⟩⟩
    · injection ho with e1 e2
      subst e1
      exact ⟨k, by rw [List.take_append_of_le_length hk]; rfl⟩
    · injection ho with e1 e2
      injection e2 with e2 _
      subst e1 e2
      refine ⟨a.length + k, ?_⟩
      rw [List.take_length_add_append]
      simp only [cp, Vesa.colorPrint, showAll, List.foldl_append, List.foldl_cons, List.foldl_nil]
    · have := congrArg List.length ho
      simp at this
  cases ht with
  | crit t ops k _ _ _ h =>
    obtain ⟨l, e⟩ := h.next
    obtain ⟨hk, hb⟩ := h.scr
    rw [e] at hl
    obtain ⟨k', hk'⟩ := key _ t k l hl hk
    exact ⟨k', hb.trans hk'⟩
  | safe h hb =>
    rw [hb, base]
    generalize c'.sh.out.map (·.2) = o at hl
    generalize leaves fr.code = r at hl
    cases r with
    | cons t l =>
      obtain ⟨k', hk'⟩ := key o t 0 l hl (Nat.zero_le _)
      exact ⟨k', hk'⟩
    | nil =>
      rw [List.append_nil] at hl
      subst hl
      refine ⟨(t1 ++ t2).length, ?_⟩
      rw [List.take_length]
      simp only [cp, Vesa.colorPrint, showAll, List.foldl_append, List.foldl_cons, List.foldl_nil]

/-- C119, the message of an exception is shown completely, and then nothing happens any more. -/
theorem C119_message (font : Vesa.Font) (t1 t2 : Text) (h1 : (0 : BitVec 8) ∉ t1) (h2 : (0 : BitVec 8) ∉ t2) (c : Cfg) :
    ∃ c', Steps font (fault t1 t2 c) c' ∧ c'.sh.scr = Vesa.colorPrint font Printf.white (t1 ++ t2) c.sh.scr ∧
      ∀ c'', Steps font c' c'' → c'' = c' := by
  obtain ⟨f1, s1, r1, c1, g1, _, _, e1, _, i1⟩ := print_runs font t1 h1 (print t2 ++ [.hang])
    { code := code [.print t1, .print t2] ++ [.hang], ret := c.sh.flags, id := c.acts.length }
    { c.sh with flags := IrqGuard.cli c.sh.flags, out := [] } (by simp [code, Op.code, List.append_assoc])
  obtain ⟨f2, s2, r2, c2, g2, _, _, e2, _, i2⟩ := print_runs font t2 h2 [.hang] f1 s1 c1
  refine ⟨_, (r1.trans r2).steps c.frames _, ?_, ?_⟩
  · show s2.scr = _
    rw [e2, e1]
    simp only [cp, Vesa.colorPrint, List.foldl_append]
  · intro c'' st
    have hoff : ifSet s2.flags = false := by rw [i2, i1]; exact ifSet_cli _
    induction st with
    | refl => rfl
    | tail _ st ih =>
      rw [ih] at st
      generalize hfs : c.frames = fs at st
      cases st with
      | run e =>
        simp only [exec, c2, Option.some.injEq, Prod.mk.injEq] at e
        obtain ⟨rfl, rfl⟩ := e
        rfl
      | irq ops hi => rw [hoff] at hi; cases hi
      | iret hc => rw [c2] at hc; cases hc

/-- A schedule: `none` lets the running activation go on (or return), `some ops` is an interrupt. -/
def drive (font : Vesa.Font) (c : Cfg) : List (Option (List Op)) → Cfg
  | [] => c
  | none :: l =>
    match c.frames with
    | [] => c
    | fr :: fs =>
      match exec font fr c.sh with
      | some (fr', s') => drive font ⟨fr' :: fs, s', c.acts⟩ l
      | none =>
        match fr.code, fs with
        | [], fr' :: fs => drive font ⟨fr' :: fs, { c.sh with flags := fr.ret }, c.acts⟩ l
        | _, _ => c
  | some ops :: l =>
    if ifSet c.sh.flags = true then
      drive font ⟨{ code := code ops, ret := c.sh.flags, id := c.acts.length } :: c.frames, { c.sh with flags := IrqGuard.cli c.sh.flags }, c.acts ++ [ops]⟩ l
    else c

theorem drive_steps (font : Vesa.Font) (l : List (Option (List Op))) : ∀ c, Steps font c (drive font c l) := by
  induction l with
  | nil => intro c; exact .refl
  | cons o l ih =>
    intro c
    cases o with
    | some ops =>
      unfold drive
      split
      · rename_i h
        exact (Steps.tail .refl (Step.irq (s := c.sh) ops h)).trans (ih _)
      · exact .refl
    | none =>
      unfold drive
      split
      · exact .refl
      · rename_i fr fs hf
        obtain ⟨frs, s, a⟩ := c
        simp only at hf
        subst hf
        split
        · rename_i e
          exact (Steps.tail .refl (.run e)).trans (ih _)
        · split
          · exact (Steps.tail .refl (.iret (by assumption))).trans (ih _)
          · exact .refl

/-- The kernel enables interrupts and prints "ab" and "c"; an interrupt arrives after the first call has
saved the flags and before it has cleared IF; its handler has a guard and prints "x"; a second
interrupt arrives between the two calls, its handler enables interrupts, and is interrupted by a third,
which prints "z", before it prints "y". -/
def exOps : List Op := [.enable, .print [0x61, 0x62], .print [0x63]]

/-- The schedule of the example. -/
def exPlan : List (Option (List Op)) :=
  List.replicate 3 none ++ [some [.guard, .print [0x78], .unguard]] ++ List.replicate 36 none ++
    [some [.enable, .print [0x79]]] ++ [none, some [.print [0x7a]]] ++ List.replicate 60 none

/-- The state of the example at the beginning. -/
def exSh : Sh := ⟨fun _ => 0xff, ⟨fun _ => 0, [], 1440, 900, 8, 16, 0, 0⟩, 0x2, []⟩

/-- The font of the example. -/
def exFont : Vesa.Font := fun c _ => c

theorem exActs : (drive exFont (start exOps exSh) exPlan).acts =
    [exOps, [.guard, .print [0x78], .unguard], [.enable, .print [0x79]], [.print [0x7a]]] := by decide +kernel

/-- `C119_whole` on the example: all activations have ended, the texts came out in the order x, ab, z, y, c, and the
screen shows them one after the other. -/
example : (drive exFont (start exOps exSh) exPlan).sh.out = [(1, [0x78]), (0, [0x61, 0x62]), (3, [0x7a]), (2, [0x79]), (0, [0x63])] ∧
    (drive exFont (start exOps exSh) exPlan).frames.map (fun f => f.code.length) = [0] ∧
    (drive exFont (start exOps exSh) exPlan).sh.scr = Vesa.colorPrint exFont Printf.white [0x78, 0x61, 0x62, 0x7a, 0x79, 0x63] exSh.scr := by
  have ho : (drive exFont (start exOps exSh) exPlan).sh.out = [(1, [0x78]), (0, [0x61, 0x62]), (3, [0x7a]), (2, [0x79]), (0, [0x63])] := by
    decide +kernel
  refine ⟨ho, by decide +kernel, ?_⟩
  obtain ⟨fr, fs, t, k, hf, h, _, h0⟩ := C119_whole exFont exOps exSh rfl _ (drive_steps exFont exPlan _)
    (by intro ops m
        rw [exActs] at m
        simp only [List.mem_cons, List.not_mem_nil, or_false] at m
        rcases m with rfl | rfl | rfl | rfl <;> intro t m <;> simp [exOps] at m <;> (try rcases m with rfl | rfl) <;>
          (try subst m) <;> decide)
  have hk : k = 0 := h0 (.inl (by decide +kernel))
  subst hk
  rw [ho] at h
  rw [h]
  simp only [Vesa.colorPrint, showAll, cp, List.map_cons, List.map_nil, List.foldl_cons, List.foldl_nil, List.take_zero]

/-- `C119_order` on the example, in the middle of the first call: the kernel has printed nothing yet, the first
handler (which has ended) everything. -/
example : (drive exFont (start exOps exSh) (exPlan.take 27)).sh.out = [(1, [0x78])] ∧
    (drive exFont (start exOps exSh) (exPlan.take 27)).frames.map (·.id) = [0] ∧
    outOf (drive exFont (start exOps exSh) (exPlan.take 27)).sh 1 = texts [.guard, .print [0x78], .unguard] := by
  have hm : (drive exFont (start exOps exSh) (exPlan.take 27)).frames.map (·.id) = [0] := by decide +kernel
  refine ⟨by decide +kernel, hm, ?_⟩
  refine (C119_order exFont exOps exSh rfl _ (drive_steps exFont (exPlan.take 27) _) 1 _ (by decide +kernel)).2 (fun f m e => ?_)
  have h0 := List.mem_map_of_mem (f := (·.id)) m
  rw [hm] at h0
  simp only [List.mem_singleton] at h0
  rw [h0] at e; cases e

/-- `C119_ends` on a call made with interrupts enabled and a guard in scope. -/
example (font : Vesa.Font) : ∃ fr' s', Steps font ⟨[{ code := print [0x61, 0x0a] ++ [.popf], guards := [0x202], id := 0 }], { exSh with flags := 0x202 }, [[]]⟩
      ⟨[fr'], s', [[]]⟩ ∧ fr'.code = [.popf] ∧ fr'.guards = [0x202] ∧
      s'.scr = Vesa.colorPrint font Printf.white [0x61, 0x0a] exSh.scr ∧ s'.out = [(0, [0x61, 0x0a])] ∧ ifSet s'.flags = true :=
  C119_ends font [0x61, 0x0a] (by decide) [.popf] _ [] _ _ rfl

/-- `C119_fault` in the middle of a call of `printf`: the first character of "ab" has been drawn when an exception
arrives, whose message is "E1" and "E2"; 20 steps later, interrupts are off and the kernel's frame is where it was. -/
example : (drive exFont (start exOps exSh) (List.replicate 14 none)).frames.map (fun f => (f.i, f.n)) = [(1, 2)] ∧
    (drive exFont (fault [0x45, 0x31] [0x45, 0x32] (drive exFont (start exOps exSh) (List.replicate 14 none))) (List.replicate 20 none)).frames.tail =
      (drive exFont (start exOps exSh) (List.replicate 14 none)).frames :=
  ⟨by decide +kernel, (C119_fault exFont _ _ (by decide) (by decide) _ _ (drive_steps exFont (List.replicate 20 none) _)).1⟩

/-- `C119_message` at the same moment. -/
example : ∃ c', Steps exFont (fault [0x45, 0x31] [0x45, 0x32] (drive exFont (start exOps exSh) (List.replicate 14 none))) c' ∧
    c'.sh.scr = Vesa.colorPrint exFont Printf.white [0x45, 0x31, 0x45, 0x32]
      (drive exFont (start exOps exSh) (List.replicate 14 none)).sh.scr := by
  obtain ⟨c', h1, h2, _⟩ := C119_message exFont [0x45, 0x31] [0x45, 0x32] (by decide) (by decide)
    (drive exFont (start exOps exSh) (List.replicate 14 none))
  exact ⟨c', h1, h2⟩

end Verif.Reent
