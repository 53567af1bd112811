import Verif.Base.Res

/-! Results of computations that take a fuel argument: convergence and divergence. -/

set_option backward.isDefEq.respectTransparency false

namespace Verif

/-- For all large enough fuel the result is `a`, and less fuel gives no other result. -/
def Conv {α : Type} (g : Nat → Res α) (a : α) : Prop :=
  (∃ n, ∀ f, n ≤ f → g f = .ok a) ∧ ∀ f, g f = .oof ∨ g f = .ok a

/-- No amount of fuel is enough. -/
def Div {α : Type} (g : Nat → Res α) : Prop := ∀ f, g f = .oof

variable {α β : Type}

theorem Conv.pure (a : α) : Conv (fun _ => .ok a) a := ⟨⟨0, fun _ _ => rfl⟩, fun _ => .inr rfl⟩

theorem Conv.const {x : Res α} {a : α} (e : x = .ok a) : Conv (fun _ => x) a := by rw [e]; exact Conv.pure a

theorem Conv.bind {g : Nat → Res α} {h : Nat → α → Res β} {a : α} {b : β}
    (hg : Conv g a) (hh : Conv (fun f => h f a) b) : Conv (fun f => g f >>= h f) b := by
  obtain ⟨⟨n, hn⟩, hg2⟩ := hg
  obtain ⟨⟨k, hk⟩, hh2⟩ := hh
  refine ⟨⟨max n k, fun f hf => ?_⟩, fun f => ?_⟩
  · show (g f >>= h f) = _
    rw [hn f (by omega), Res.ok_bind]; exact hk f (by omega)
  · show (g f >>= h f) = _ ∨ (g f >>= h f) = _
    rcases hg2 f with e | e
    · rw [e]; exact .inl rfl
    · rw [e, Res.ok_bind]; exact hh2 f

theorem Conv.congr {g h : Nat → Res α} {a : α} (hg : Conv g a) (e : ∀ f, h f = g f) : Conv h a := by
  rwa [show h = g from funext e]

/-- One more round of a loop. -/
theorem Conv.succ {g h : Nat → Res α} {a : α} (hg : Conv g a) (e0 : h 0 = .oof) (e : ∀ f, h (f + 1) = g f) : Conv h a := by
  obtain ⟨⟨n, hn⟩, hg2⟩ := hg
  refine ⟨⟨n + 1, fun f hf => ?_⟩, fun f => ?_⟩
  · obtain ⟨k, rfl⟩ : ∃ k, f = k + 1 := ⟨f - 1, by omega⟩
    rw [e]; exact hn k (by omega)
  · cases f with
    | zero => exact .inl e0
    | succ f => rw [e]; exact hg2 f

theorem Conv.eq {g : Nat → Res α} {a b : α} {f : Nat} (hg : Conv g a) (e : g f = .ok b) : b = a := by
  rcases hg.2 f with h | h
  · rw [h] at e; cases e
  · rw [h] at e; injection e with e; exact e.symm

theorem Div.bind_left {g : Nat → Res α} {h : Nat → α → Res β} (hg : Div g) : Div (fun f => g f >>= h f) := by
  intro f
  show (g f >>= h f) = _
  rw [hg f]; rfl

theorem Div.bind_right {g : Nat → Res α} {h : Nat → α → Res β} {a : α} (hg : Conv g a) (hh : Div (fun f => h f a)) :
    Div (fun f => g f >>= h f) := by
  intro f
  show (g f >>= h f) = _
  rcases hg.2 f with e | e
  · rw [e]; rfl
  · rw [e, Res.ok_bind]; exact hh f

theorem Div.congr {g h : Nat → Res α} (hg : Div g) (e : ∀ f, h f = g f) : Div h := by
  rwa [show h = g from funext e]

theorem Div.succ {g h : Nat → Res α} (hg : Div g) (e0 : h 0 = .oof) (e : ∀ f, h (f + 1) = g f) : Div h := by
  intro f
  cases f with
  | zero => exact e0
  | succ f => rw [e]; exact hg f

/-- Convergence of a computation with two fuel arguments: one for the calls inside, one for the
rounds. -/
def Conv2 {α : Type} (g : Nat → Nat → Res α) (a : α) : Prop :=
  (∃ n, ∀ f k, n ≤ f → n ≤ k → g f k = .ok a) ∧ ∀ f k, g f k = .oof ∨ g f k = .ok a

theorem Conv2.diag {g : Nat → Nat → Res α} {a : α} (hg : Conv2 g a) : Conv (fun f => g f f) a := by
  obtain ⟨⟨n, hn⟩, h2⟩ := hg
  exact ⟨⟨n, fun f hf => hn f f hf hf⟩, fun f => h2 f f⟩

theorem Conv2.stop {g : Nat → Nat → Res α} {a : α} (e0 : ∀ f, g f 0 = .oof) (e : ∀ f k, g f (k + 1) = .ok a) : Conv2 g a := by
  refine ⟨⟨1, fun f k _ hk => ?_⟩, fun f k => ?_⟩
  · obtain ⟨k, rfl⟩ : ∃ j, k = j + 1 := ⟨k - 1, by omega⟩
    exact e f k
  · cases k with
    | zero => exact .inl (e0 f)
    | succ k => exact .inr (e f k)

theorem Conv2.step {γ : Type} {g : Nat → Nat → Res α} {b : γ} {c : Nat → Res γ} {h : Nat → Nat → γ → Res α} {a : α}
    (hc : Conv c b) (hh : Conv2 (fun f k => h f k b) a) (e0 : ∀ f, g f 0 = .oof) (e : ∀ f k, g f (k + 1) = c f >>= h f k) :
    Conv2 g a := by
  obtain ⟨⟨n, hn⟩, hc2⟩ := hc
  obtain ⟨⟨m, hm⟩, hh2⟩ := hh
  refine ⟨⟨max n m + 1, fun f k hf hk => ?_⟩, fun f k => ?_⟩
  · obtain ⟨k, rfl⟩ : ∃ j, k = j + 1 := ⟨k - 1, by omega⟩
    rw [e, hn f (by omega), Res.ok_bind]; exact hm f k (by omega) (by omega)
  · cases k with
    | zero => exact .inl (e0 f)
    | succ k =>
      rw [e]
      rcases hc2 f with h1 | h1
      · rw [h1]; exact .inl rfl
      · rw [h1, Res.ok_bind]; exact hh2 f k

theorem Conv2.map {γ : Type} {g : Nat → Nat → Res α} {a : α} {b : γ} {h : α → Res γ} (hg : Conv2 g a) (e : h a = .ok b) :
    Conv2 (fun f k => g f k >>= h) b := by
  obtain ⟨⟨n, hn⟩, h2⟩ := hg
  refine ⟨⟨n, fun f k hf hk => ?_⟩, fun f k => ?_⟩
  · show (g f k >>= h) = _
    rw [hn f k hf hk]; exact e
  · show (g f k >>= h) = _ ∨ (g f k >>= h) = _
    rcases h2 f k with h1 | h1
    · rw [h1]; exact .inl rfl
    · rw [h1]; exact .inr e

/-- The computation converges to a result that satisfies `P` or, if `b` allows it, diverges. -/
def Out (b : Bool) {α : Type} (g : Nat → Res α) (P : α → Prop) : Prop := (∃ a, P a ∧ Conv g a) ∨ (b = true ∧ Div g)

variable {b : Bool}

theorem Out.of {g : Nat → Res α} {P : α → Prop} {a : α} (h : P a) (hc : Conv g a) : Out b g P := .inl ⟨a, h, hc⟩

theorem Out.bind {g : Nat → Res α} {h : Nat → α → Res β} {P : α → Prop} {Q : β → Prop} (hg : Out b g P)
    (hh : ∀ a, P a → Out b (fun f => h f a) Q) : Out b (fun f => g f >>= h f) Q := by
  rcases hg with ⟨a, ha, hc⟩ | ⟨hb, hd⟩
  · rcases hh a ha with ⟨b, hb, hb2⟩ | ⟨hb, hd⟩
    · exact .inl ⟨b, hb, hc.bind hb2⟩
    · exact .inr ⟨hb, Div.bind_right hc hd⟩
  · exact .inr ⟨hb, hd.bind_left⟩

theorem Out.sat {g : Nat → Res α} {P : α → Prop} {f : Nat} {a : α} (h : Out b g P) (e : g f = .ok a) : P a := by
  rcases h with ⟨b, hb, hc⟩ | ⟨_, hd⟩
  · rw [hc.eq e]; exact hb
  · rw [hd f] at e; cases e

theorem Out.noUb {g : Nat → Res α} {P : α → Prop} {f : Nat} (h : Out b g P) : g f ≠ .ub := by
  intro e
  rcases h with ⟨b, _, hc⟩ | ⟨_, hd⟩
  · rcases hc.2 f with h | h <;> rw [h] at e <;> cases e
  · rw [hd f] at e; cases e

theorem Out.conv {g : Nat → Res α} {P : α → Prop} (h : Out false g P) : ∃ a, P a ∧ Conv g a := by
  rcases h with h | ⟨h, _⟩
  · exact h
  · cases h

theorem Out.mono {g : Nat → Res α} {P Q : α → Prop} (h : Out b g P) (i : ∀ a, P a → Q a) : Out b g Q := by
  rcases h with ⟨b, hb, hc⟩ | hd
  · exact .inl ⟨b, i b hb, hc⟩
  · exact .inr hd

theorem Out.congr {g h : Nat → Res α} {P : α → Prop} (hg : Out b g P) (e : ∀ f, h f = g f) : Out b h P := by
  rwa [show h = g from funext e]

end Verif
