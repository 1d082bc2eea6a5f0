import Verif.Store.DiskLemmas

/-! Histories of saves, crashes and restarts. -/
set_option linter.unusedSimpArgs false
namespace Verif.Store

/-- What happens to a store: a completed save, or a save cut off after `k` bytes followed by a
restart.  (`crash t 0 j` is a plain restart.)  `junk` is what the checksum loop finds behind the end
of a file at that restart. -/
inductive Ev where
  | save (t : Text)
  | crash (t : Text) (k : Nat) (junk : Nat → Nat)

/-- One event. -/
def step (inst : List Nat) (s : Ram × Disk) : Ev → Ram × Disk
  | .save t => save inst t s
  | .crash t k junk => let d := crash inst t k s; (boot inst junk d, d)

def run (inst : List Nat) (s : Ram × Disk) (h : List Ev) : Ram × Disk := h.foldl (step inst) s

/-- An empty card and a freshly started saber. -/
def fresh : Ram × Disk := (⟨.unknown, 0⟩, ⟨⟨0, fun _ => 0⟩, ⟨0, fun _ => 0⟩⟩)

/-- Text found at start-up. -/
def loaded (inst : List Nat) (junk : Nat → Nat) (d : Disk) : Option Text := (d.load inst junk).map (·.2.2)

/-- Invariant between events: `cur` is the text last saved (`none` = nothing saved yet). -/
def Inv (inst : List Nat) (cur : Option Text) (s : Ram × Disk) : Prop :=
  match cur with
  | none => s.1 = ⟨.unknown, 0⟩ ∧ Clean inst 1 s.2.ini ∧ Clean inst 1 s.2.tmp
  | some t => t.length < 2^31 ∧ s.1.ext ≠ .unknown ∧ 1 ≤ s.1.iteration ∧ s.1.iteration < 2^31 ∧
      Good inst t s.1.iteration (s.2.file s.1.ext) ∧ Clean inst s.1.iteration (s.2.file s.1.ext.other)

/-- The loaded text `l` holds content `cur`: the saved bytes, followed by whatever an older and
longer save left in the file. -/
def Holds (cur : Option Text) (l : Option Text) : Prop :=
  match cur with
  | none => l = none
  | some t => ∃ stale, l = some (t ++ stale)

theorem load_none {inst junk} {d : Disk} (h1 : Clean inst 1 d.ini) (h2 : Clean inst 1 d.tmp) : d.load inst junk = none := by
  have k1 : (d.ini.header inst).iter = 0 ∧ (d.ini.header inst).valid = false := by
    rcases h1.header with h | h
    · exact h
    · omega
  have k2 : (d.tmp.header inst).iter = 0 ∧ (d.tmp.header inst).valid = false := by
    rcases h2.header with h | h
    · exact h
    · omega
  unfold Disk.load Disk.order
  simp [k1.1, k2.1, Disk.file, File.checksumOk, k1.2, k2.2]

theorem load_good {inst junk} {d : Disk} {t : List Nat} {it : Nat} {e : Ext} (he : e ≠ .unknown) (ht : t.length < 2^31)
    (hi : it < 2^31) (hg : Good inst t it (d.file e))
    (ho : ((d.file e.other).header inst).iter < it) :
    d.load inst junk = some (e, (it : Int), (d.file e).from 512) := by
  have k := hg.iter hi ht
  have c := hg.checksumOk (junk := junk) hi ht
  unfold Disk.load Disk.order
  cases e with
  | unknown => exact absurd rfl he
  | ini =>
    simp only [Disk.file, Ext.other] at *
    have : ¬ ((it : Int) < (d.tmp.header inst).iter) := by omega
    simp [k, this, c]
  | tmp =>
    simp only [Disk.file, Ext.other] at *
    simp [k, ho, c]

theorem clean_iter_lt {inst it f} (c : Clean inst it f) (h : 1 ≤ it) : (f.header inst).iter < it := by
  rcases c.header with h' | h' <;> omega

theorem Inv.loaded {inst cur s junk} (h : Inv inst cur s) :
    Holds cur (Store.loaded inst junk s.2) ∧ boot inst junk s.2 = s.1 := by
  cases cur with
  | none =>
    have := load_none (junk := junk) h.2.1 h.2.2
    have h1 : s.1 = ⟨.unknown, 0⟩ := h.1
    refine ⟨?_, ?_⟩
    · unfold Holds Store.loaded; rw [this]; rfl
    · unfold boot; rw [this, h1]
  | some t =>
    obtain ⟨h1, h2, h3, h4, h5, h6⟩ := h
    have := load_good (junk := junk) h2 h1 h4 h5 (clean_iter_lt h6 h3)
    obtain ⟨st, hst⟩ := h5.text
    refine ⟨⟨st, by simp [Store.loaded, this, hst]⟩, ?_⟩
    unfold boot; rw [this]
    simp only
    have : ((s.1.iteration : Int) % 2^32).toNat = s.1.iteration := by omega
    rw [this]

/-- The target of a save and the file it leaves alone. -/
theorem Inv.target {inst cur s} (h : Inv inst cur s) :
    s.1.target ≠ .unknown ∧ s.1.iteration < 2^31 ∧
    Clean inst (max 1 s.1.iteration) (s.2.file s.1.target) ∧
    Clean inst (s.1.iteration + 1) (s.2.file s.1.target.other) := by
  cases cur with
  | none =>
    obtain ⟨h1, h2, h3⟩ := h
    unfold Ram.target
    rw [h1]
    exact ⟨by simp [Ext.other], by simp, h2, h3⟩
  | some t =>
    obtain ⟨h1, h2, h3, h4, h5, h6⟩ := h
    have e : s.1.ext.other.other = s.1.ext := by
      cases hx : s.1.ext <;> simp_all [Ext.other]
    have en : s.1.ext.other ≠ .unknown := by cases s.1.ext <;> simp [Ext.other]
    unfold Ram.target
    rw [e]
    refine ⟨en, h4, ?_, h5.clean h3 h4 h1⟩
    have : max 1 s.1.iteration = s.1.iteration := by omega
    rw [this]; exact h6

theorem set_file {d : Disk} {e : Ext} {f : File} (he : e ≠ .unknown) :
    (d.set e f).file e = f ∧ (d.set e f).file e.other = d.file e.other := by
  cases e <;> simp_all [Disk.set, Disk.file, Ext.other]

theorem mod32 {n : Nat} (h : n < 2^31) : (n + 1) % 2^32 = n + 1 := by omega

/-- A completed save establishes the invariant for the new content. -/
theorem Inv.save {inst cur s} (hinst : 32 + inst.length ≤ 512) (h : Inv inst cur s) (t : Text)
    (ht : t.length < 2^31) (hi : s.1.iteration + 1 < 2^31) :
    Inv inst (some t) (save inst t s) ∧ (Store.save inst t s).1.iteration = s.1.iteration + 1 := by
  obtain ⟨h1, h2, h3, h4⟩ := h.target
  have hm := mod32 h2
  obtain ⟨e1, e2⟩ := @set_file s.2 s.1.target
    ((s.2.file s.1.target).putAll (saveWrites inst (s.2.file s.1.target) t ((s.1.iteration + 1) % 2^32))) h1
  refine ⟨⟨ht, h1, ?_, ?_, ?_, ?_⟩, hm⟩
  · show 1 ≤ (s.1.iteration + 1) % 2^32; omega
  · show (s.1.iteration + 1) % 2^32 < 2^31; omega
  · unfold Store.save; simp only; rw [e1]
    exact after_full inst hinst _ _ _
  · unfold Store.save; simp only; rw [e2, hm]
    exact h4

/-- The state in the middle of a save, when the target file is still harmless. -/
theorem Inv.keep {inst cur s} {f : File} (h : Inv inst cur s) (hf : Clean inst (max 1 s.1.iteration) f) :
    Inv inst cur (s.1, s.2.set s.1.target f) := by
  cases cur with
  | none =>
    obtain ⟨h1, h2, h3⟩ := h
    have e : s.1.target = .ini := by unfold Ram.target; rw [h1]; rfl
    refine ⟨h1, ?_, ?_⟩
    · rw [e]; rw [h1] at hf; exact hf
    · rw [e]; exact h3
  | some t =>
    obtain ⟨h1, h2, h3, h4, h5, h6⟩ := h
    have en : s.1.ext.other ≠ .unknown := by cases s.1.ext <;> simp [Ext.other]
    have eo : s.1.ext.other.other = s.1.ext := by
      cases hx : s.1.ext <;> simp_all [Ext.other]
    obtain ⟨e1, e2⟩ := @set_file s.2 s.1.ext.other f en
    rw [eo] at e2
    refine ⟨h1, h2, h3, h4, ?_, ?_⟩
    · show Good inst t s.1.iteration ((s.2.set s.1.target f).file s.1.ext)
      unfold Ram.target; rw [e2]; exact h5
    · show Clean inst s.1.iteration ((s.2.set s.1.target f).file s.1.ext.other)
      unfold Ram.target; rw [e1]
      have : max 1 s.1.iteration = s.1.iteration := by omega
      rw [this] at hf; exact hf

/-- The state when the target file is completely saved, with the new RAM contents. -/
theorem Inv.renew {inst cur s} {t : Text} {f : File} (h : Inv inst cur s) (ht : t.length < 2^31)
    (hi : s.1.iteration + 1 < 2^31) (hf : Good inst t (s.1.iteration + 1) f) :
    Inv inst (some t) (⟨s.1.target, s.1.iteration + 1⟩, s.2.set s.1.target f) := by
  obtain ⟨h1, h2, h3, h4⟩ := h.target
  obtain ⟨e1, e2⟩ := @set_file s.2 s.1.target f h1
  refine ⟨ht, h1, by simp, hi, ?_, ?_⟩
  · show Good inst t (s.1.iteration + 1) ((s.2.set s.1.target f).file s.1.target)
    rw [e1]; exact hf
  · show Clean inst (s.1.iteration + 1) ((s.2.set s.1.target f).file s.1.target.other)
    rw [e2]; exact h4

theorem crash_eq (inst t k s) (h : s.1.iteration < 2^31) :
    crash inst t k s = s.2.set s.1.target (after inst (s.2.file s.1.target) t (s.1.iteration + 1) k) := by
  unfold crash after; simp only; rw [mod32 h]

/-- An interrupted save that did not tear the second header copy. -/
theorem Inv.crash {inst cur s} (hinst : 32 + inst.length ≤ 512) (h : Inv inst cur s) (t : Text) (k : Nat)
    (junk : Nat → Nat) (ht : t.length < 2^31) (hi : s.1.iteration + 1 < 2^31)
    (hk : Untorn (s.2.file s.1.target) t k) :
    ∃ cur', (cur' = cur ∨ cur' = some t) ∧ Inv inst cur' (step inst s (.crash t k junk)) ∧
      (step inst s (.crash t k junk)).1.iteration ≤ s.1.iteration + 1 := by
  obtain ⟨h1, h2, h3, h4⟩ := h.target
  have e : step inst s (.crash t k junk) = (boot inst junk (Store.crash inst t k s), Store.crash inst t k s) := rfl
  rw [e, crash_eq inst t k s h2]
  rcases after_untorn inst hinst _ t (s.1.iteration + 1) _ k h3 hk with hc | hg
  · have hv := h.keep hc
    refine ⟨cur, Or.inl rfl, ?_, ?_⟩
    · rw [(hv.loaded (junk := junk)).2]; exact hv
    · rw [(hv.loaded (junk := junk)).2]; simp
  · have hv := h.renew ht hi hg
    refine ⟨some t, Or.inr rfl, ?_, ?_⟩
    · rw [(hv.loaded (junk := junk)).2]; exact hv
    · rw [(hv.loaded (junk := junk)).2]; simp

/-- A save interrupted after any number of bytes. -/
theorem Inv.crash_any {inst cur s} (hinst : 32 + inst.length ≤ 512) (h : Inv inst cur s) (t : Text) (k : Nat)
    (junk : Nat → Nat) (ht : t.length < 2^31) (hi : s.1.iteration + 1 < 2^31) :
    Holds cur (Store.loaded inst junk (Store.crash inst t k s)) ∨
    Holds (some t) (Store.loaded inst junk (Store.crash inst t k s)) := by
  obtain ⟨h1, h2, h3, h4⟩ := h.target
  by_cases hk : Untorn (s.2.file s.1.target) t k
  · obtain ⟨c, hc, hv, _⟩ := h.crash hinst t k junk ht hi hk
    have := (hv.loaded (junk := junk)).1
    rcases hc with rfl | rfl
    · exact Or.inl this
    · exact Or.inr this
  · rw [crash_eq inst t k s h2]
    have hk' : headAt (s.2.file s.1.target) t + 16 ≤ k := by unfold Untorn at hk; omega
    rcases after_torn inst hinst _ t (s.1.iteration + 1) k hk' with h0 | hg
    · left
      generalize after inst (s.2.file s.1.target) t (s.1.iteration + 1) k = f at h0
      have hiter : (f.header inst).iter = 0 := by rw [h0]; decide
      have hval : (f.header inst).valid = false := by rw [h0]; decide
      cases cur with
      | none =>
        obtain ⟨g1, g2, g3⟩ := h
        have e : s.1.target = .ini := by unfold Ram.target; rw [g1]; rfl
        have k2 : (s.2.tmp.header inst).iter = 0 ∧ (s.2.tmp.header inst).valid = false := by
          rcases g3.header with h | h
          · exact h
          · omega
        unfold Holds Store.loaded Disk.load Disk.order
        rw [e]
        simp [Disk.set, Disk.file, File.checksumOk, hiter, hval, k2.1, k2.2]
      | some u =>
        obtain ⟨g1, g2, g3, g4, g5, g6⟩ := h
        have en : s.1.ext.other ≠ .unknown := by cases s.1.ext <;> simp [Ext.other]
        have eo : s.1.ext.other.other = s.1.ext := by
          cases hx : s.1.ext <;> simp_all [Ext.other]
        obtain ⟨e1, e2⟩ := @set_file s.2 s.1.ext.other f en
        rw [eo] at e2
        rw [← e2] at g5
        have := load_good (junk := junk) g2 g1 g4 g5 (by rw [e1, hiter]; omega)
        obtain ⟨st, hst⟩ := g5.text
        exact ⟨st, by unfold Store.loaded Ram.target; rw [this]; simp [hst]⟩
    · right
      exact ((h.renew ht hi hg).loaded (junk := junk)).1

end Verif.Store
