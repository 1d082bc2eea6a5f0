import Mathlib.Data.Nat.Init
/-!
# Blade pictures from a file (C138)

Model of styles/file.h: frames of a picture file are loaded by the interrupt that also loads sounds, and shown by the main loop.  There are two
buffers, one being shown and one being loaded.

The main loop may be interrupted between any two of its instructions, but the interrupt changes neither buffer nor flag while `next_available_`
is set, and `run` only does something while it is, so that the two may be taken as steps.  `none` is reading through a null pointer.
-/
namespace Verif.Style.FromFile

variable {D : Type}

/-- `Frame`, styles/file.h:11-14 -/
structure Frame (D : Type) where
  num : Nat
  data : D

/-- styles/file.h:78-83; `moved` is whether the buffers were ever switched. -/
structure F (D : Type) where
  frames : Bool → Frame D
  cur : Bool
  ready : Bool
  isOpen : Option Nat
  moved : Bool

/-- What happens: a frame is drawn, the interrupt runs (`opens` is the picture file of the sound playing, opened if none is open), files are closed.  `w` is `FrameNum()`, the frame for the
position in the sound, none if there is no player. -/
inductive Op
  | run (w : Option Nat)
  | fill (w opens : Option Nat)
  | close

/-- whether the buffers are switched, styles/file.h:32 -/
def due (w back cur : Nat) : Bool := decide (w ≥ back) || decide (w < cur)

/-- the frame to load, styles/file.h:62-63 -/
def nextFrame (w cur : Nat) : Nat := if w = cur then w + 1 else w

/-- function update -/
def upd (f : Bool → Frame D) (i : Bool) (x : Frame D) : Bool → Frame D := fun j => if j = i then x else f j

/-- `run`, styles/file.h:28-40 -/
def doRun (s : F D) (w : Option Nat) : Option (F D) :=
  if s.ready then
    w.map fun w => if due w (s.frames !s.cur).num (s.frames s.cur).num then { s with cur := !s.cur, ready := false, moved := true } else s
  else some s

/-- `FillBuffer`, styles/file.h:45-70; `file` is what is in each picture file at each place. -/
def doFill (file : Nat → Nat → D) (s : F D) (w : Option Nat) (opens : Option Nat) : Option (F D) :=
  match s.isOpen with
  | none => some { s with isOpen := opens }
  | some k =>
    if s.ready then some s
    else w.map fun w => { s with frames := upd s.frames (!s.cur) ⟨nextFrame w (s.frames s.cur).num, file k (nextFrame w (s.frames s.cur).num)⟩, ready := true }

/-- one step -/
def step (file : Nat → Nat → D) (s : F D) : Op → Option (F D)
  | .run w => doRun s w
  | .fill w o => doFill file s w o
  | .close => some { s with isOpen := none }

/-- any history -/
def runAll (file : Nat → Nat → D) (s : F D) : List Op → Option (F D)
  | [] => some s
  | o :: l => (step file s o).bind fun s => runAll file s l

/-- what is shown -/
def F.shown (s : F D) : Frame D := s.frames s.cur

/-- at first -/
def f0 (d : D) : F D := ⟨fun _ => ⟨0, d⟩, false, false, none, false⟩

/-- what the interrupt may do -/
def Op.interrupt : Op → Prop
  | .run _ => False
  | _ => True

theorem fill_shown (file : Nat → Nat → D) (s s' : F D) (w o : Option Nat) (h : doFill file s w o = some s') : s'.shown = s.shown ∧ s'.cur = s.cur := by
  unfold doFill at h
  split at h
  · cases h; exact ⟨rfl, rfl⟩
  · split at h
    · cases h; exact ⟨rfl, rfl⟩
    · cases w with
      | none => cases h
      | some w => cases h; exact ⟨by simp [F.shown, upd], rfl⟩

/-- While a frame is being drawn the picture stands still: however often the interrupt runs, the buffer being shown does not change. -/
theorem C138_still (file : Nat → Nat → D) (l : List Op) (s s' : F D) (hl : ∀ o ∈ l, o.interrupt) (h : runAll file s l = some s') : s'.shown = s.shown := by
  induction l generalizing s with
  | nil => cases h; rfl
  | cons o l ih =>
    simp only [runAll, Option.bind_eq_some_iff] at h
    obtain ⟨t, ht, h⟩ := h
    rw [ih t (fun o ho => hl o (List.mem_cons_of_mem _ ho)) h]
    cases o with
    | run w => exact absurd (hl _ (List.mem_cons_self ..)) id
    | fill w o => exact (fill_shown file s t w o ht).1
    | close => cases ht; rfl

/-- a buffer that is ready, and one shown since it was, are frames of the file -/
def Good (file : Nat → Nat → D) (s : F D) : Prop :=
  (s.ready = true → ∃ k, (s.frames !s.cur).data = file k (s.frames !s.cur).num) ∧ (s.moved = true → ∃ k, s.shown.data = file k s.shown.num)

theorem good_step (file : Nat → Nat → D) (s s' : F D) (o : Op) (hg : Good file s) (h : step file s o = some s') : Good file s' := by
  obtain ⟨g1, g2⟩ := hg
  cases o with
  | close => cases h; exact ⟨g1, g2⟩
  | run w =>
    have h : doRun s w = some s' := h
    unfold doRun at h
    split at h
    · rename_i hr
      cases w with
      | none => cases h
      | some w =>
        simp only [Option.map_some, Option.some.injEq] at h
        split at h
        · subst h; exact ⟨fun h => by (cases h), fun _ => g1 hr⟩
        · subst h; exact ⟨g1, g2⟩
    · cases h; exact ⟨g1, g2⟩
  | fill w o =>
    have h : doFill file s w o = some s' := h
    have e := (fill_shown file s s' w o h).1
    refine ⟨?_, ?_⟩
    · unfold doFill at h
      split at h
      · cases h; exact g1
      · split at h
        · cases h; exact g1
        · cases w with
          | none => cases h
          | some w => cases h; intro _; exact ⟨_, by simp [upd]; rfl⟩
    · rw [e]
      unfold doFill at h
      split at h
      · cases h; exact g2
      · split at h
        · cases h; exact g2
        · cases w with
          | none => cases h
          | some w => cases h; exact g2

/-- What is shown is a whole frame of a picture file, that of the number it goes by, as soon as anything was shown at all. -/
theorem C138_frame (file : Nat → Nat → D) (d : D) (l : List Op) (s : F D) (h : runAll file (f0 d) l = some s) (hm : s.moved = true) :
    ∃ k, s.shown.data = file k s.shown.num := by
  have key : ∀ (l : List Op) (t : F D), Good file t → runAll file t l = some s → Good file s := by
    intro l
    induction l with
    | nil => intro t ht h; cases h; exact ht
    | cons o l ih =>
      intro t ht h
      simp only [runAll, Option.bind_eq_some_iff] at h
      obtain ⟨u, hu, h⟩ := h
      exact ih u (good_step file t u o ht hu) h
  exact (key l (f0 d) ⟨fun h => by (cases h), fun h => by (cases h)⟩ h).2 hm

/-- file 1 has at each place ten times its number: frames 3 and 7 -/
example : (runAll (fun f k => 10 * f * k) (f0 0) [.fill (some 3) (some 1), .fill (some 3) (some 1), .run (some 3), .fill (some 7) (some 1), .run (some 6), .run (some 7)]).map
    (fun s => (s.moved, s.shown.num, s.shown.data)) = some (true, 7, 70) := by decide

/-! ### In step with the sound -/

/-- the frame wanted by a step -/
def Op.wants : Op → Option Nat
  | .run w => w
  | .fill w _ => w
  | .close => none

/-- histories in which the sound goes on from frame `w`: there is a player, and its position does not go back -/
def forward (w : Nat) : List Op → Prop
  | [] => True
  | .close :: l => forward w l
  | .run x :: l => ∃ v, x = some v ∧ w ≤ v ∧ forward v l
  | .fill x _ :: l => ∃ v, x = some v ∧ w ≤ v ∧ forward v l

/-- what is shown is not ahead of the sound, and what is to be shown next comes later -/
def Sync (w : Nat) (s : F D) : Prop := s.shown.num ≤ w ∧ (s.ready = true → s.shown.num < (s.frames !s.cur).num)

theorem sync_run (w v : Nat) (s s' : F D) (hs : Sync w s) (hv : w ≤ v) (h : doRun s (some v) = some s') :
    Sync v s' ∧ s.shown.num ≤ s'.shown.num := by
  obtain ⟨h1, h2⟩ := hs
  unfold doRun at h
  split at h
  · rename_i hr
    simp only [Option.map_some, Option.some.injEq] at h
    split at h
    · rename_i hd
      subst h
      have h2 := h2 hr
      have hc : s.shown.num = (s.frames s.cur).num := rfl
      simp only [due, Bool.or_eq_true, decide_eq_true_eq] at hd
      refine ⟨⟨?_, fun h => by cases h⟩, ?_⟩
      · show (s.frames !s.cur).num ≤ v; omega
      · show _ ≤ (s.frames !s.cur).num; omega
    · subst h; exact ⟨⟨by omega, h2⟩, Nat.le_refl _⟩
  · cases h; exact ⟨⟨by omega, h2⟩, Nat.le_refl _⟩

theorem sync_fill (file : Nat → Nat → D) (w v : Nat) (o : Option Nat) (s s' : F D) (hs : Sync w s) (hv : w ≤ v) (h : doFill file s (some v) o = some s') : Sync v s' := by
  obtain ⟨h1, h2⟩ := hs
  obtain ⟨e1, e2⟩ := fill_shown file s s' (some v) o h
  refine ⟨by rw [e1]; omega, ?_⟩
  rw [e1]
  unfold doFill at h
  split at h
  · cases h; exact h2
  · split at h
    · cases h; exact h2
    · cases h
      intro _
      have hc : s.shown.num = (s.frames s.cur).num := rfl
      simp only [upd, if_true, nextFrame]
      split <;> omega

theorem sync_all (file : Nat → Nat → D) (l : List Op) (w : Nat) (s s' : F D) (hs : Sync w s) (hf : forward w l) (h : runAll file s l = some s') :
    ∃ v, w ≤ v ∧ (∀ o ∈ l, ∀ x, o.wants = some x → x ≤ v) ∧ (v = w ∨ ∃ o ∈ l, o.wants = some v) ∧ Sync v s' ∧ s.shown.num ≤ s'.shown.num := by
  induction l generalizing w s with
  | nil => cases h; exact ⟨w, Nat.le_refl _, fun _ h => by (cases h), .inl rfl, hs, Nat.le_refl _⟩
  | cons o l ih =>
    simp only [runAll, Option.bind_eq_some_iff] at h
    obtain ⟨t, ht, h⟩ := h
    have fin : ∀ x, o.wants = some x → w ≤ x → forward x l → Sync x t → s.shown.num ≤ t.shown.num → ∃ v, w ≤ v ∧ (∀ p ∈ o :: l, ∀ x, p.wants = some x → x ≤ v) ∧
        (v = w ∨ ∃ p ∈ o :: l, p.wants = some v) ∧ Sync v s' ∧ s.shown.num ≤ s'.shown.num := by
      intro x hx hwx hf hs hn
      obtain ⟨v, a, b, c, d, e⟩ := ih x t hs hf h
      refine ⟨v, by omega, fun p hp y hy => ?_, .inr ?_, d, by omega⟩
      · rcases List.mem_cons.1 hp with rfl | hp
        · rw [hx] at hy; cases hy; exact a
        · exact b p hp y hy
      · rcases c with rfl | ⟨p, hp, hpv⟩
        · exact ⟨o, List.mem_cons_self .., hx⟩
        · exact ⟨p, List.mem_cons_of_mem _ hp, hpv⟩
    cases o with
    | close =>
      cases ht
      obtain ⟨v, a, b, c, d, e⟩ := ih w { s with isOpen := none } ⟨hs.1, hs.2⟩ hf h
      refine ⟨v, a, fun p hp y hy => ?_, ?_, d, e⟩
      · rcases List.mem_cons.1 hp with rfl | hp
        · cases hy
        · exact b p hp y hy
      · rcases c with rfl | ⟨p, hp, hpv⟩
        · exact .inl rfl
        · exact .inr ⟨p, List.mem_cons_of_mem _ hp, hpv⟩
    | run x =>
      obtain ⟨v, rfl, hv, hf⟩ := hf
      obtain ⟨a, b⟩ := sync_run w v s t hs hv ht
      exact fin v rfl hv hf a b
    | fill x b =>
      obtain ⟨v, rfl, hv, hf⟩ := hf
      exact fin v rfl hv hf (sync_fill file w v b s t hs hv ht) (by rw [(fill_shown file s t _ b ht).1]; exact Nat.le_refl _)

/-- As long as the sound goes on, the picture is never ahead of it and never goes back. -/
theorem C138_sync (file : Nat → Nat → D) (d : D) (l m : List Op) (hf : forward 0 (l ++ m)) (s t : F D) (hs : runAll file (f0 d) l = some s)
    (ht : runAll file s m = some t) :
    s.shown.num ≤ t.shown.num ∧ (t.shown.num = 0 ∨ ∃ o ∈ l ++ m, ∃ x, o.wants = some x ∧ t.shown.num ≤ x) := by
  have run_append : ∀ (l : List Op) (u : F D), runAll file u l = some s → runAll file u (l ++ m) = some t := by
    intro l
    induction l with
    | nil => intro u h; cases h; exact ht
    | cons o l ih =>
      intro u h
      simp only [runAll, Option.bind_eq_some_iff, List.cons_append] at h ⊢
      obtain ⟨v, hv, h⟩ := h
      exact ⟨v, hv, ih v h⟩
  have forward_split : ∀ (l : List Op) (w : Nat) (u : F D), Sync w u → forward w (l ++ m) → runAll file u l = some s → ∃ v, Sync v s ∧ forward v m := by
    intro l
    induction l with
    | nil => intro w u h1 h2 h3; cases h3; exact ⟨w, h1, h2⟩
    | cons o l ih =>
      intro w u h1 h2 h3
      simp only [runAll, Option.bind_eq_some_iff] at h3
      obtain ⟨v, hv, h3⟩ := h3
      cases o with
      | close => cases hv; exact ih w { u with isOpen := none } ⟨h1.1, h1.2⟩ h2 h3
      | run x =>
        obtain ⟨y, rfl, hy, h2⟩ := h2
        exact ih y v (sync_run w y u v h1 hy hv).1 h2 h3
      | fill x b =>
        obtain ⟨y, rfl, hy, h2⟩ := h2
        exact ih y v (sync_fill file w y b u v h1 hy hv) h2 h3
  have h0 : Sync 0 (f0 d) := ⟨Nat.le_refl _, fun h => by cases h⟩
  obtain ⟨v, h1, h2⟩ := forward_split l 0 (f0 d) h0 hf hs
  obtain ⟨_, _, _, _, _, e⟩ := sync_all file m v s t h1 h2 ht
  obtain ⟨v, _, _, c, d', _⟩ := sync_all file (l ++ m) 0 (f0 d) t h0 hf (run_append l _ hs)
  refine ⟨e, ?_⟩
  rcases c with rfl | ⟨o, ho, hv⟩
  · exact .inl (Nat.le_zero.1 d'.1)
  · exact .inr ⟨o, ho, v, hv, d'.1⟩

/-- When the sound starts over, the frame loaded for its end is shown at its beginning. -/
theorem C138_restart_counterexample :
    ∃ l s, runAll (fun _ k => k) (f0 0) l = some s ∧ l.getLast?.map Op.wants = some (some 0) ∧ s.shown.num = 101 :=
  ⟨[.fill (some 100) (some 1), .fill (some 100) (some 1), .run (some 100), .fill (some 100) (some 1), .run (some 0)], _, rfl, rfl, rfl⟩

/-- When the player is gone while the file is open, the interrupt reads through a null pointer, as does the main loop with a frame ready. -/
theorem C138_player_counterexample (file : Nat → Nat → D) (s : F D) :
    (s.isOpen ≠ none → s.ready = false → ∀ o, step file s (.fill none o) = none) ∧ (s.ready = true → step file s (.run none) = none) := by
  refine ⟨fun h1 h2 o => ?_, fun h => ?_⟩
  · obtain ⟨k, hk⟩ := Option.ne_none_iff_exists'.1 h1
    simp [step, doFill, hk, h2]
  · simp [step, doRun, h]

/-- Once open, the picture file stays open, whatever sound is played since: all further frames are from it, until the card is taken away. -/
theorem C138_stale_counterexample (file : Nat → Nat → D) (l : List Op) (hl : ∀ o ∈ l, o ≠ .close) (s s' : F D) (k : Nat) (hk : s.isOpen = some k)
    (h : runAll file s l = some s') : s'.isOpen = some k := by
  induction l generalizing s with
  | nil => cases h; exact hk
  | cons o l ih =>
    simp only [runAll, Option.bind_eq_some_iff] at h
    obtain ⟨t, ht, h⟩ := h
    refine ih (fun o ho => hl o (List.mem_cons_of_mem _ ho)) t ?_ h
    cases o with
    | close => exact absurd rfl (hl _ (List.mem_cons_self ..))
    | run w =>
      have ht : doRun s w = some t := ht
      unfold doRun at ht
      split at ht
      · cases w with
        | none => cases ht
        | some w =>
          simp only [Option.map_some, Option.some.injEq] at ht
          split at ht <;> subst ht <;> exact hk
      · cases ht; exact hk
    | fill w o =>
      have ht : doFill file s w o = some t := ht
      simp only [doFill, hk] at ht
      split at ht
      · cases ht; exact hk
      · cases w with
        | none => cases ht
        | some w => cases ht; rfl

/-- The sound of file 1 gives way to that of file 2; the picture shown is still that of file 1. -/
example : (runAll (fun f k => (f, k)) (f0 (0, 0)) [.fill (some 3) (some 1), .fill (some 3) (some 2), .run (some 3), .fill (some 7) (some 2), .run (some 7)]).map
    (fun s => s.shown.data) = some (1, 7) := by decide

/-! ### Pixels -/

/-- styles/file.h:102-105: the place of a pixel's first byte in the frame -/
def place (n offset leds led : Nat) : Nat := (led * n / leds + offset) * 3

/-- `sqr`, styles/file.h:76 -/
def level (x : Nat) : Nat := x % 256 * (x % 256) % 65536

/-- Each pixel is read from within the frame of 512 bytes, if the part shown ends within 170 pixels; the brightness grows with the byte and
does not overflow. -/
theorem C138_pixels (n offset leds led : Nat) (hl : led < leds) (hn : 0 < n) (h : n + offset ≤ 170) :
    place n offset leds led + 2 < 512 ∧ offset * 3 ≤ place n offset leds led ∧ place n offset leds led + 2 < (n + offset) * 3 ∧
    ∀ a b, a < b → b < 256 → level a < level b := by
  have : led * n / leds < n := (Nat.div_lt_iff_lt_mul (by omega)).2 (by rw [Nat.mul_comm]; exact Nat.mul_lt_mul_of_pos_left hl hn)
  generalize hq : led * n / leds = q at this
  refine ⟨by unfold place; omega, by unfold place; omega, by unfold place; omega, fun a b h1 h2 => ?_⟩
  have hb : b * b ≤ 255 * 255 := Nat.mul_le_mul (by omega) (by omega)
  have ha : a * a < b * b := Nat.mul_self_lt_mul_self h1
  unfold level
  rw [Nat.mod_eq_of_lt (show a < 256 by omega), Nat.mod_eq_of_lt h2, Nat.mod_eq_of_lt (show a * a < 65536 by omega), Nat.mod_eq_of_lt (show b * b < 65536 by omega)]
  exact ha

example : place 100 70 144 143 = 507 := by decide

end Verif.Style.FromFile
