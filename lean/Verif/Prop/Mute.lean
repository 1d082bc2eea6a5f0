/-
  Muting and the saved volume: props/prop_base.h:99-117 (`SetMute`), 179-188 (the end of
  `Off`), 323-337 (`SaveVolumeIfNeeded`, with SAVE_VOLUME), 707-711 (`RestoreGlobalState`),
  1638-1659 (commands), props/saber.h:100-122 (muted ignition).
-/
namespace Verif.Prop.Mute

/-! ## Model -/

/-- `dynamic_mixer`'s volume, `muted_volume_`, `unmute_on_deactivation_` and the volume in
    the save file. -/
structure St where
  vol : Nat
  muted : Nat
  unmuteOff : Bool
  file : Nat
  deriving DecidableEq, Repr

/-- `SetMute` (prop_base.h:99-117); also returns whether it did anything. -/
def setMute (s : St) (m : Bool) : St × Bool :=
  if m then
    if s.vol ≠ 0 then ({ s with muted := s.vol, vol := 0 }, true) else (s, false)
  else
    if s.muted ≠ 0 then ({ s with vol := s.muted, muted := 0 }, true) else (s, false)

/-- `SaveVolumeIfNeeded` (prop_base.h:323-337) -/
def save (s : St) : St := if s.vol ≠ s.file then { s with file := s.vol } else s

inductive Op
  | mute
  | unmute
  | toggle
  /-- command `set_volume` (prop_base.h:1638-1647); out of range does nothing -/
  | set (v : Nat)
  /-- muted ignition (saber.h:103-104, 118-119) -/
  | mutedOn
  /-- `Off` while on (prop_base.h:179-188); `pending`: while still waiting for the pre-on
      sound (prop_base.h:158-163, which returns early) -/
  | off (pending : Bool)
  /-- `SaveVolumeIfNeeded` from `Loop` while the amplifier is off, or before blade
      detection -/
  | poll
  /-- power is lost and comes back; `VOLUME` is the largest volume
      (prop_base.h:707-711) -/
  | reboot (volume : Nat)

def step (s : St) : Op → St
  | .mute => (setMute s true).1
  | .unmute => (setMute s false).1
  | .toggle => if (setMute s true).2 then (setMute s true).1 else (setMute (setMute s true).1 false).1
  | .set v => if v ≤ 3000 then save { s with vol := v } else s
  | .mutedOn => if (setMute s true).2 then { (setMute s true).1 with unmuteOff := true } else (setMute s true).1
  | .off p => if p then s else if s.unmuteOff then (setMute { s with unmuteOff := false } false).1 else s
  | .poll => save s
  | .reboot v => ⟨min s.file v, 0, false, s.file⟩

def run (s : St) (l : List Op) : St := l.foldl step s

/-! ## Specification

A volume, and whether it is muted. -/

structure Spec where
  vol : Nat
  muted : Bool

/-- What should be heard. -/
def Spec.heard (a : Spec) : Nat := if a.muted then 0 else a.vol

/-- Operations which mute and unmute, and what they should do. -/
def Spec.step (a : Spec) : Op → Spec
  | .mute => { a with muted := true }
  | .unmute => { a with muted := false }
  | .toggle => { a with muted := !a.muted }
  | .set v => if v ≤ 3000 then { a with vol := v } else a
  | .mutedOn => { a with muted := true }
  | _ => a

def Spec.run (a : Spec) (l : List Op) : Spec := l.foldl Spec.step a

/-! ## C81 -/

/-- The volume the prop will come back to. -/
def Tie (s : St) (a : Spec) : Prop :=
  a.vol ≠ 0 ∧ (if a.muted then s.vol = 0 ∧ s.muted = a.vol else s.vol = a.vol ∧ s.muted = 0)

/-- Muting operations; the volume is changed only while not muted, and not to 0. -/
def Fine : Spec → List Op → Prop
  | _, [] => True
  | a, o :: l =>
    (match o with
      | .mute | .unmute | .toggle | .mutedOn | .poll => True
      | .set v => v > 3000 ∨ (a.muted = false ∧ v ≠ 0)
      | .off _ | .reboot _ => False) ∧ Fine (a.step o) l

theorem save_tie {s : St} {a : Spec} (h : Tie s a) : Tie (save s) a := by
  unfold save
  split
  · exact h
  · exact h

theorem step_tie {s : St} {a : Spec} {o : Op} {l : List Op} (h : Tie s a) (hf : Fine a (o :: l)) :
    Tie (step s o) (a.step o) := by
  obtain ⟨h0, h⟩ := h
  obtain ⟨v, m⟩ := a
  simp only [] at h0 h
  cases m with
  | true =>
    simp only [if_true] at h
    cases o with
    | mute => simp [step, setMute, Spec.step, Tie, h, h0]
    | unmute => simp [step, setMute, Spec.step, Tie, h, h0]
    | toggle => simp [step, setMute, Spec.step, Tie, h, h0]
    | mutedOn => simp [step, setMute, Spec.step, Tie, h, h0]
    | poll => exact save_tie (a := ⟨v, true⟩) ⟨h0, by simpa using h⟩
    | off p => exact hf.1.elim
    | reboot x => exact hf.1.elim
    | set x =>
      have hx : x > 3000 := by
        rcases hf.1 with h' | h'
        · exact h'
        · simp at h'
      have : ¬ x ≤ 3000 := by omega
      simp only [step, Spec.step, this, if_false]
      exact ⟨h0, by simpa using h⟩
  | false =>
    simp only [Bool.false_eq_true, if_false] at h
    cases o with
    | mute => simp [step, setMute, Spec.step, Tie, h, h0]
    | unmute => simp [step, setMute, Spec.step, Tie, h, h0]
    | toggle => simp [step, setMute, Spec.step, Tie, h, h0]
    | mutedOn => simp [step, setMute, Spec.step, Tie, h, h0]
    | poll => exact save_tie (a := ⟨v, false⟩) ⟨h0, by simpa using h⟩
    | off p => exact hf.1.elim
    | reboot x => exact hf.1.elim
    | set x =>
      by_cases hx : x ≤ 3000
      · have hx0 : x ≠ 0 := by
          rcases hf.1 with h' | h'
          · omega
          · exact h'.2
        simp only [step, Spec.step, hx, if_true]
        exact save_tie (a := ⟨x, false⟩) ⟨hx0, by simpa using h.2⟩
      · simp only [step, Spec.step, hx, if_false]
        exact ⟨h0, by simpa using h⟩

theorem run_tie : ∀ (l : List Op) {s : St} {a : Spec}, Tie s a → Fine a l → Tie (run s l) (a.run l)
  | [], _, _, h, _ => h
  | o :: l, s, a, h, hf => by
      simp only [run, Spec.run, List.foldl_cons]
      exact run_tie l (step_tie h hf) hf.2

/-- C81 (what you hear): for every history of mute, unmute, toggle, muted ignition and
    changes of the volume while not muted, the prop is silent exactly when it should be
    muted and otherwise as loud as last set — however often it is muted or unmuted. -/
theorem C81_heard_partial (v : Nat) (hv : v ≠ 0) (l : List Op) (hf : Fine ⟨v, false⟩ l) (file : Nat) :
    (run ⟨v, 0, false, file⟩ l).vol = (Spec.run ⟨v, false⟩ l).heard := by
  obtain ⟨h0, h⟩ := run_tie l (s := ⟨v, 0, false, file⟩) (a := ⟨v, false⟩) ⟨hv, by simp⟩ hf
  unfold Spec.heard
  split at h
  · rename_i hm; rw [if_pos hm]; exact h.1
  · rename_i hm; rw [if_neg hm]; exact h.1

/-- C81 (muted ignition): a blade ignited silently is silent, and turning it off brings
    back the volume — but only if it was not muted already; turning off after a normal
    ignition changes nothing. -/
theorem C81_ignition (s : St) (h : s.unmuteOff = false) :
    (step s .mutedOn).vol = 0 ∧
    (s.vol ≠ 0 → (step (step s .mutedOn) (.off false)).vol = s.vol ∧
      (step (step (step s .mutedOn) (.off false)) (.off false)) = step (step s .mutedOn) (.off false)) ∧
    (s.vol = 0 → step (step s .mutedOn) (.off false) = s) ∧ step s (.off false) = s := by
  obtain ⟨a, b, c, d⟩ := s
  simp only [] at h
  subst h
  by_cases ha : a = 0
  · subst ha; simp [step, setMute]
  · simp [step, setMute, ha]

example : Fine ⟨1500, false⟩ [.mute, .mute, .set 5000, .poll, .toggle, .set 700, .mutedOn, .unmute] := by
  simp [Fine, Spec.step]
example : (run ⟨1500, 0, false, 1500⟩ [.mute, .mute, .set 5000, .poll, .toggle, .set 700, .mutedOn, .unmute]).vol =
    700 := by decide +kernel

/-! ### Defects -/

/-- A volume set while muted is heard at once, and unmuting then restores the old, here
    louder, volume. -/
theorem C81_set_counterexample :
    (run ⟨1500, 0, false, 1500⟩ [.mute, .set 200]).vol = 200 ∧
    (run ⟨1500, 0, false, 1500⟩ [.mute, .set 200, .unmute]).vol = 1500 := by decide +kernel

/-- With SAVE_VOLUME the silence is saved: if power is lost while muted, the prop comes
    back silent and unmuting does not help. -/
theorem C81_reboot_counterexample :
    (run ⟨1500, 0, false, 1500⟩ [.mute, .poll, .reboot 2000, .unmute]).vol = 0 := by decide +kernel

/-- A blade ignited silently and unmuted by hand: a later, deliberate mute ends when the
    blade is turned off. -/
theorem C81_unmute_counterexample :
    (run ⟨1500, 0, false, 1500⟩ [.mutedOn, .unmute, .mute, .off false]).vol = 1500 := by decide +kernel

/-- Ignited silently and turned off before the pre-on sound is over, the prop stays mute:
    the next ignition is silent too. -/
theorem C81_preon_counterexample :
    (run ⟨1500, 0, false, 1500⟩ [.mutedOn, .off true]).vol = 0 := by decide +kernel

end Verif.Prop.Mute
