import Verif.Style.Model
/-! # C86: ignition and retraction delays -/
namespace Verif.Style

/-- the blade has been in the state `on` from some frame to the latest, and `b` is the history up to one of
these frames: `a` are the frames after it -/
def InRun (on : Bool) (h a b : Hist) : Prop := h = a ++ b ∧ (∀ f ∈ a, f.on = on) ∧ ∃ f r, b = f :: r ∧ f.on = on

/-- the time at which the blade last changed to the state of the latest frame -/
def changeMs : Hist → Nat
  | [] => 0
  | [f] => f.ms
  | f :: f' :: h => if f.on = f'.on then changeMs (f' :: h) else f.ms

/-- milliseconds, by the 32-bit clock, from the last change until the latest frame -/
def sinceChange : Hist → Nat
  | [] => 0
  | f :: h => (f.ms + 4294967296 - changeMs (f :: h)) % 4294967296

/-- the clock is 32 bits wide -/
def Clock (h : Hist) : Prop := ∀ f ∈ h, f.ms < 4294967296

theorem InRun.cons {on : Bool} {f : Frame} {h a b : Hist} (hf : f.on = on) (r : InRun on h a b) : InRun on (f :: h) (f :: a) b :=
  ⟨by rw [r.1]; rfl, fun x hx => by rcases List.mem_cons.mp hx with rfl | hx; exact hf; exact r.2.1 x hx, r.2.2⟩

theorem InRun.self {on : Bool} {f : Frame} {h : Hist} (hf : f.on = on) : InRun on (f :: h) [] (f :: h) :=
  ⟨rfl, fun x hx => by simp at hx, f, h, rfl, hf⟩

theorem InRun.uncons {on : Bool} {f : Frame} {h a b : Hist} (r : InRun on (f :: h) a b) :
    f.on = on ∧ ((a = [] ∧ b = f :: h) ∨ ∃ a', a = f :: a' ∧ InRun on h a' b) := by
  obtain ⟨e, ha, f', r', hb, hf'⟩ := r
  cases a with
  | nil =>
    rw [List.nil_append] at e
    rw [← e] at hb
    injection hb with h1 h2
    exact ⟨by rw [h1]; exact hf', .inl ⟨rfl, e.symm⟩⟩
  | cons x a' =>
    rw [List.cons_append] at e
    injection e with h1 h2
    subst h1
    exact ⟨ha f List.mem_cons_self, .inr ⟨a', rfl, h2, fun y hy => ha y (List.mem_cons_of_mem _ hy), f', r', hb, hf'⟩⟩

theorem InRun.lastOn {on : Bool} {h a b : Hist} (r : InRun on h a b) : ∃ f t, h = f :: t ∧ f.on = on := by
  cases h with
  | nil => obtain ⟨e, _, f, r', hb, _⟩ := r; subst hb; simp at e
  | cons f t => exact ⟨f, t, rfl, r.uncons.1⟩

/-- the state of `IgnitionDelayBase` with a constant delay -/
theorem ign_inv (d : Int) (hd : 0 ≤ d) : ∀ h : Hist, Clock h →
    ((delayState ignStep (fun _ => d) h).isOn = true ↔ ∃ a b, InRun true h a b ∧ d < sinceChange b) ∧
    ((delayState ignStep (fun _ => d) h).waiting = lastOn h) ∧
    (lastOn h = true → (delayState ignStep (fun _ => d) h).isOn = false → (delayState ignStep (fun _ => d) h).start = changeMs h)
  | [], _ => by
    refine ⟨⟨fun h => by simp [delayState] at h, fun ⟨a, b, r, _⟩ => ?_⟩, rfl, fun h => by simp [lastOn] at h⟩
    obtain ⟨f, t, e, _⟩ := r.lastOn
    simp at e
  | f :: h, hc => by
    obtain ⟨i1, i2, i3⟩ := ign_inv d hd h (fun x hx => hc x (List.mem_cons_of_mem _ hx))
    generalize hs : delayState ignStep (fun _ => d) h = s at i1 i2 i3
    have e : delayState ignStep (fun _ => d) (f :: h) = ignStep d f s := by simp only [delayState, hs]
    rw [e]
    clear e
    cases hf : f.on with
    | false =>
      have e : ignStep d f s = ⟨false, false, s.start⟩ := by simp only [ignStep, hf, Bool.false_eq_true, if_false]
      rw [e]
      refine ⟨⟨fun h => by simp at h, fun ⟨a, b, r, _⟩ => ?_⟩, hf.symm, fun h => ?_⟩
      · have := r.uncons.1; rw [hf] at this; simp at this
      · have : f.on = true := h
        rw [hf] at this; simp at this
    | true =>
      -- the start of waiting is the time of the change, unless the style is on already
      have hst : s.isOn = false → (if s.waiting then s.start else f.ms) = changeMs (f :: h) := by
        intro h0
        rw [i2]
        cases h with
        | nil => rfl
        | cons f' t =>
          show (if f'.on = true then s.start else f.ms) = if f.on = f'.on then changeMs (f' :: t) else f.ms
          rw [hf]
          cases hf' : f'.on with
          | true => simp only [if_true]; exact i3 hf' h0
          | false => simp
      have e : ignStep d f s = if d < 0 ∨ ((((f.ms + 4294967296 - (if s.waiting then s.start else f.ms)) % 4294967296 : Nat) : Int) > d)
          then ⟨true, true, ((f.ms - d - 1) % 4294967296).toNat⟩ else ⟨s.isOn, true, if s.waiting then s.start else f.ms⟩ := by
        simp only [ignStep, hf, if_true]
      rw [e]
      clear e
      have hneg : ¬ d < 0 := by omega
      cases hon : s.isOn with
      | true =>
        obtain ⟨a, b, r, hl⟩ := i1.mp hon
        have key : ∃ a b, InRun true (f :: h) a b ∧ d < sinceChange b := ⟨f :: a, b, r.cons hf, hl⟩
        generalize (if s.waiting = true then s.start else f.ms) = st
        split
        · exact ⟨⟨fun _ => key, fun _ => rfl⟩, hf.symm, fun _ h => by simp at h⟩
        · exact ⟨⟨fun _ => key, fun _ => rfl⟩, hf.symm, fun _ h => by simp at h⟩
      | false =>
        rw [hst hon]
        have hse : ((f.ms + 4294967296 - changeMs (f :: h)) % 4294967296) = sinceChange (f :: h) := rfl
        rw [hse]
        split
        · rename_i hc'
          refine ⟨⟨fun _ => ⟨[], f :: h, .self hf, ?_⟩, fun _ => rfl⟩, hf.symm, fun _ h => by simp at h⟩
          rcases hc' with h | h
          · exact absurd h hneg
          · exact h
        · rename_i hc'
          refine ⟨⟨fun h => by simp at h, fun ⟨a, b, r, hl⟩ => ?_⟩, hf.symm, fun _ _ => rfl⟩
          rcases r.uncons.2 with ⟨rfl, rfl⟩ | ⟨a', _, r'⟩
          · exact absurd (.inr hl) hc'
          · have := i1.mpr ⟨a', b, r', hl⟩
            rw [hon] at this; simp at this

/-- **C86**, ignition: a style inside `IgnitionDelay<D, ...>` sees the blade on exactly from the first frame
that comes more than `D` milliseconds after ignition, until the blade is off; however often the blade is
drawn, and after any history. -/
theorem C86_ignition_delay (d : Int) (hd : 0 ≤ d) (h : Hist) (hc : Clock h) :
    lastOn (delayed ignStep (fun _ => d) h) = true ↔ ∃ a b, InRun true h a b ∧ d < sinceChange b := by
  have : lastOn (delayed ignStep (fun _ => d) h) = (delayState ignStep (fun _ => d) h).isOn := by cases h <;> rfl
  rw [this]
  exact (ign_inv d hd h hc).1

/-- the state of `RetractionDelayBase` with a constant delay -/
theorem ret_inv (d : Nat) (hd : d < 4294967296) : ∀ h : Hist, Clock h →
    ((delayState retStep (fun _ => (d : Int)) h).isOn = true ↔
      (∃ f ∈ h, f.on = true) ∧ ∀ a b, InRun false h a b → sinceChange b ≤ d) ∧
    ((delayState retStep (fun _ => (d : Int)) h).waiting = (h ≠ [] && !lastOn h)) ∧
    (lastOn h = false → (delayState retStep (fun _ => (d : Int)) h).isOn = true → (delayState retStep (fun _ => (d : Int)) h).start = changeMs h)
  | [], _ => by
    refine ⟨⟨fun h => by simp [delayState] at h, fun ⟨⟨f, hf, _⟩, _⟩ => by simp at hf⟩, rfl, fun _ h => by simp [delayState] at h⟩
  | f :: h, hc => by
    obtain ⟨i1, i2, i3⟩ := ret_inv d hd h (fun x hx => hc x (List.mem_cons_of_mem _ hx))
    generalize hs : delayState retStep (fun _ => (d : Int)) h = s at i1 i2 i3
    have e : delayState retStep (fun _ => (d : Int)) (f :: h) = retStep d f s := by simp only [delayState, hs]
    rw [e]
    clear e
    cases hf : f.on with
    | true =>
      have e : retStep d f s = ⟨true, false, s.start⟩ := by simp only [retStep, hf, if_true]
      rw [e]
      refine ⟨⟨fun _ => ⟨⟨f, List.mem_cons_self, hf⟩, fun a b r => ?_⟩, fun _ => rfl⟩, ?_, fun h => ?_⟩
      · have := r.uncons.1; rw [hf] at this; simp at this
      · simp [lastOn, hf]
      · have : f.on = false := h
        rw [hf] at this; simp at this
    | false =>
      have hst : s.isOn = true → (if s.waiting then s.start else f.ms) = changeMs (f :: h) := by
        intro h0
        rw [i2]
        cases h with
        | nil => rfl
        | cons f' t =>
          show (if (decide (f' :: t ≠ []) && !f'.on) = true then s.start else f.ms) = if f.on = f'.on then changeMs (f' :: t) else f.ms
          rw [hf]
          cases hf' : f'.on with
          | false => simp; exact i3 hf' h0
          | true => simp
      have hm : (d : Int) % 4294967296 = d := by omega
      have e : retStep d f s = if ((((f.ms + 4294967296 - (if s.waiting then s.start else f.ms)) % 4294967296 : Nat) : Int) > d)
          then ⟨false, true, (((f.ms : Int) - d - 1) % 4294967296).toNat⟩ else ⟨s.isOn, true, if s.waiting then s.start else f.ms⟩ := by
        simp only [retStep, hf, Bool.false_eq_true, if_false, hm]
      rw [e]
      clear e
      have hw : true = (decide (f :: h ≠ []) && !lastOn (f :: h)) := by simp [lastOn, hf]
      cases hon : s.isOn with
      | false =>
        have key : ¬((∃ f' ∈ f :: h, f'.on = true) ∧ ∀ a b, InRun false (f :: h) a b → sinceChange b ≤ d) := by
          rintro ⟨⟨x, hx, hxo⟩, hall⟩
          have : s.isOn = true := i1.mpr ⟨⟨x, by
            rcases List.mem_cons.mp hx with rfl | hx
            · rw [hf] at hxo; simp at hxo
            · exact hx, hxo⟩, fun a b r => hall (f :: a) b (r.cons hf)⟩
          rw [hon] at this; simp at this
        generalize (if s.waiting = true then s.start else f.ms) = st
        split
        · exact ⟨⟨fun h => by simp at h, fun h => absurd h key⟩, hw, fun _ h => by simp at h⟩
        · exact ⟨⟨fun h => by simp at h, fun h => absurd h key⟩, hw, fun _ h => by simp at h⟩
      | true =>
        obtain ⟨⟨x, hx, hxo⟩, hall⟩ := i1.mp hon
        rw [hst hon]
        have hse : ((f.ms + 4294967296 - changeMs (f :: h)) % 4294967296) = sinceChange (f :: h) := rfl
        rw [hse]
        split
        · rename_i hc'
          refine ⟨⟨fun h => by simp at h, fun ⟨_, h2⟩ => ?_⟩, hw, fun _ h => by simp at h⟩
          have := h2 [] (f :: h) (.self hf)
          omega
        · rename_i hc'
          refine ⟨⟨fun _ => ⟨⟨x, List.mem_cons_of_mem _ hx, hxo⟩, fun a b r => ?_⟩, fun _ => rfl⟩, hw, fun _ _ => rfl⟩
          rcases r.uncons.2 with ⟨rfl, rfl⟩ | ⟨a', _, r'⟩
          · omega
          · exact hall a' b r'

/-- **C86**, retraction (partial: not for negative delays): a style inside `RetractionDelay<D, ...>` sees the
blade on exactly when it has been on and no frame came more than `D` milliseconds after the last
retraction. -/
theorem C86_retraction_delay_partial (d : Nat) (hd : d < 4294967296) (h : Hist) (hc : Clock h) :
    lastOn (delayed retStep (fun _ => (d : Int)) h) = true ↔
      (∃ f ∈ h, f.on = true) ∧ ∀ a b, InRun false h a b → sinceChange b ≤ d := by
  have : lastOn (delayed retStep (fun _ => (d : Int)) h) = (delayState retStep (fun _ => (d : Int)) h).isOn := by cases h <;> rfl
  rw [this]
  exact (ret_inv d hd h hc).1

/-- a negative retraction delay, which `IgnitionDelay` treats as none, never lets the style retract: -1 is
compared as 4294967295, whatever comes after the blade has been on -/
theorem C86_negative_retraction_counterexample (f : Frame) (hf : f.on = true) :
    ∀ g : Hist, lastOn (delayed retStep (fun _ => (-1 : Int)) (g ++ [f])) = true
  | [] => by simp [delayed, delayState, retStep, hf, lastOn]
  | f' :: g => by
    have ih := C86_negative_retraction_counterexample f hf g
    have e1 : lastOn (delayed retStep (fun _ => (-1 : Int)) (g ++ [f])) = (delayState retStep (fun _ => (-1 : Int)) (g ++ [f])).isOn := by
      cases g <;> rfl
    rw [e1] at ih
    show (retStep (-1) f' (delayState retStep (fun _ => (-1 : Int)) (g ++ [f]))).isOn = true
    generalize delayState retStep (fun _ => (-1 : Int)) (g ++ [f]) = s at ih
    cases hf' : f'.on with
    | true => simp only [retStep, hf', if_true]
    | false =>
      simp only [retStep, hf', Bool.false_eq_true, if_false]
      have : ¬((((f'.ms + 4294967296 - (if s.waiting = true then s.start else f'.ms)) % 4294967296 : Nat) : Int) > (-1) % 4294967296) := by
        have h1 : (-1 : Int) % 4294967296 = 4294967295 := by decide
        rw [h1]
        have := Nat.mod_lt (f'.ms + 4294967296 - (if s.waiting = true then s.start else f'.ms)) (show 0 < 4294967296 by decide)
        omega
      rw [if_neg this]
      exact ih

/-- a style with a delay of 100 ms: ignition at 1000, frames every 60 ms -/
example :
    let fr (on : Bool) (ms : Nat) : Frame := ⟨on, ms * 1000, ms, 4, fun _ => false, fun _ _ => 0⟩
    (lastOn (delayed ignStep (fun _ => 100) [fr true 1060, fr true 1000, fr false 940]) = false)
    ∧ (lastOn (delayed ignStep (fun _ => 100) [fr true 1120, fr true 1060, fr true 1000, fr false 940]) = true)
    ∧ (lastOn (delayed retStep (fun _ => 100) [fr false 1060, fr false 1000, fr true 940]) = true)
    ∧ (lastOn (delayed retStep (fun _ => 100) [fr false 1120, fr false 1060, fr false 1000, fr true 940]) = false) := by decide +kernel

end Verif.Style
