import Verif.Store.Crash

/-! Histories in which headers may be torn, given that the checksum rejects incomplete files. -/
set_option linter.unusedSimpArgs false
namespace Verif.Store

/-- If the file is accepted at all, it is an older save than `it`. -/
def Harmless (inst : List Nat) (it : Nat) (f : File) : Prop :=
  ∀ junk, f.checksumOk junk (f.header inst) = true → 1 ≤ (f.header inst).iter ∧ (f.header inst).iter < it

def InvH (inst : List Nat) (cur : Option Text) (s : Ram × Disk) : Prop :=
  match cur with
  | none => s.1 = ⟨.unknown, 0⟩ ∧ Harmless inst 1 s.2.ini ∧ Harmless inst 1 s.2.tmp
  | some t => t.length < 2^31 ∧ s.1.ext ≠ .unknown ∧ 1 ≤ s.1.iteration ∧ s.1.iteration < 2^31 ∧
      Good inst t s.1.iteration (s.2.file s.1.ext) ∧ Harmless inst s.1.iteration (s.2.file s.1.ext.other)

theorem Clean.harmless {inst it f} (c : Clean inst it f) : Harmless inst it f := by
  intro junk h
  rcases c.header with h' | h'
  · simp [File.checksumOk, h'.2] at h
  · exact h'

theorem Good.harmless {inst t it f} (g : Good inst t it f) (h1 : 1 ≤ it) (hi : it < 2^31) (ht : t.length < 2^31) :
    Harmless inst (it + 1) f := by
  intro junk _
  rw [g.iter hi ht]; omega

theorem load_none' {inst junk} {d : Disk} (h1 : Harmless inst 1 d.ini) (h2 : Harmless inst 1 d.tmp) :
    d.load inst junk = none := by
  have k1 : d.ini.checksumOk junk (d.ini.header inst) = false := by
    cases h : d.ini.checksumOk junk (d.ini.header inst) with
    | false => rfl
    | true => have := h1 junk h; omega
  have k2 : d.tmp.checksumOk junk (d.tmp.header inst) = false := by
    cases h : d.tmp.checksumOk junk (d.tmp.header inst) with
    | false => rfl
    | true => have := h2 junk h; omega
  unfold Disk.load Disk.order
  by_cases ho : (d.ini.header inst).iter < (d.tmp.header inst).iter <;> simp [ho, Disk.file, k1, k2]

theorem load_good' {inst junk} {d : Disk} {t : List Nat} {it : Nat} {e : Ext} (he : e ≠ .unknown) (ht : t.length < 2^31)
    (hi : it < 2^31) (hg : Good inst t it (d.file e)) (ho : Harmless inst it (d.file e.other)) :
    d.load inst junk = some (e, (it : Int), (d.file e).from 512) := by
  have k := hg.iter hi ht
  have c := hg.checksumOk (junk := junk) hi ht
  cases hx : (d.file e.other).checksumOk junk ((d.file e.other).header inst) with
  | true => exact load_good he ht hi hg (ho junk hx).2
  | false =>
    unfold Disk.load Disk.order
    cases e with
    | unknown => exact absurd rfl he
    | ini =>
      simp only [Disk.file, Ext.other] at *
      split <;> simp [hx, c, k]
    | tmp =>
      simp only [Disk.file, Ext.other] at *
      split <;> simp [hx, c, k]

theorem InvH.loaded {inst cur s junk} (h : InvH inst cur s) :
    Holds cur (Store.loaded inst junk s.2) ∧ boot inst junk s.2 = s.1 := by
  cases cur with
  | none =>
    have := load_none' (junk := junk) h.2.1 h.2.2
    have h1 : s.1 = ⟨.unknown, 0⟩ := h.1
    refine ⟨?_, ?_⟩
    · unfold Holds Store.loaded; rw [this]; rfl
    · unfold boot; rw [this, h1]
  | some t =>
    obtain ⟨h1, h2, h3, h4, h5, h6⟩ := h
    have := load_good' (junk := junk) h2 h1 h4 h5 h6
    obtain ⟨st, hst⟩ := h5.text
    refine ⟨⟨st, by simp [Store.loaded, this, hst]⟩, ?_⟩
    unfold boot; rw [this]
    simp only
    have : ((s.1.iteration : Int) % 2^32).toNat = s.1.iteration := by omega
    rw [this]

theorem InvH.target {inst cur s} (h : InvH inst cur s) :
    s.1.target ≠ .unknown ∧ s.1.iteration < 2^31 ∧
    Harmless inst (s.1.iteration + 1) (s.2.file s.1.target.other) := by
  cases cur with
  | none =>
    obtain ⟨h1, h2, h3⟩ := h
    unfold Ram.target
    rw [h1]
    exact ⟨by simp [Ext.other], by simp, h3⟩
  | some t =>
    obtain ⟨h1, h2, h3, h4, h5, h6⟩ := h
    have e : s.1.ext.other.other = s.1.ext := by
      cases hx : s.1.ext <;> simp_all [Ext.other]
    have en : s.1.ext.other ≠ .unknown := by cases s.1.ext <;> simp [Ext.other]
    unfold Ram.target
    rw [e]
    exact ⟨en, h4, h5.harmless h3 h4 h1⟩

theorem InvH.renew {inst cur s} {t : Text} {f : File} (h : InvH inst cur s) (ht : t.length < 2^31)
    (hi : s.1.iteration + 1 < 2^31) (hf : Good inst t (s.1.iteration + 1) f) :
    InvH inst (some t) (⟨s.1.target, s.1.iteration + 1⟩, s.2.set s.1.target f) := by
  obtain ⟨h1, h2, h4⟩ := h.target
  obtain ⟨e1, e2⟩ := @set_file s.2 s.1.target f h1
  refine ⟨ht, h1, by simp, hi, ?_, ?_⟩
  · show Good inst t (s.1.iteration + 1) ((s.2.set s.1.target f).file s.1.target)
    rw [e1]; exact hf
  · show Harmless inst (s.1.iteration + 1) ((s.2.set s.1.target f).file s.1.target.other)
    rw [e2]; exact h4

theorem InvH.keep {inst cur s} {f : File} (h : InvH inst cur s) (hf : Harmless inst (max 1 s.1.iteration) f) :
    InvH inst cur (s.1, s.2.set s.1.target f) := by
  cases cur with
  | none =>
    obtain ⟨h1, h2, h3⟩ := h
    have e : s.1.target = .ini := by unfold Ram.target; rw [h1]; rfl
    refine ⟨h1, ?_, ?_⟩
    · rw [e]; rw [h1] at hf; exact hf
    · rw [e]; exact h3
  | some t =>
    obtain ⟨h1, h2, h3, h4, h5, h6⟩ := h
    have en : s.1.ext.other ≠ .unknown := by cases s.1.ext <;> simp [Ext.other]
    have eo : s.1.ext.other.other = s.1.ext := by
      cases hx : s.1.ext <;> simp_all [Ext.other]
    obtain ⟨e1, e2⟩ := @set_file s.2 s.1.ext.other f en
    rw [eo] at e2
    refine ⟨h1, h2, h3, h4, ?_, ?_⟩
    · show Good inst t s.1.iteration ((s.2.set s.1.target f).file s.1.ext)
      unfold Ram.target; rw [e2]; exact h5
    · show Harmless inst s.1.iteration ((s.2.set s.1.target f).file s.1.ext.other)
      unfold Ram.target; rw [e1]
      have : max 1 s.1.iteration = s.1.iteration := by omega
      rw [this] at hf; exact hf

theorem InvH.save {inst cur s} (hinst : 32 + inst.length ≤ 512) (h : InvH inst cur s) (t : Text)
    (ht : t.length < 2^31) (hi : s.1.iteration + 1 < 2^31) :
    InvH inst (some t) (Store.save inst t s) ∧ (Store.save inst t s).1.iteration = s.1.iteration + 1 := by
  obtain ⟨h1, h2, h4⟩ := h.target
  have hm := mod32 h2
  have := h.renew ht hi (after_full inst hinst (s.2.file s.1.target) t (s.1.iteration + 1))
  refine ⟨?_, hm⟩
  unfold Store.save; simp only; rw [hm]; exact this

/-- The checksum does its job for this interrupted save: if the file being written is accepted as
something newer than the current save, then it is complete. -/
def ChecksumRejects (inst : List Nat) (t : Text) (k : Nat) (s : Ram × Disk) : Prop :=
  let f := (Store.crash inst t k s).file s.1.target
  ∀ junk, f.checksumOk junk (f.header inst) = true →
    (1 ≤ (f.header inst).iter ∧ (f.header inst).iter < s.1.iteration) ∨
    (f.slice 0 512 = (s.2.file s.1.target |>.putAll
        (saveWrites inst (s.2.file s.1.target) t (s.1.iteration + 1))).slice 0 512 ∧
      (f.slice 512 t.length = t ∧ 512 + t.length ≤ f.size))

theorem slice_inj {f g : File} {p n q : Nat} (h : f.slice p n = g.slice p n) (hq : q < n) :
    f.get (p + q) = g.get (p + q) := by
  have h1 : q < (f.slice p n).length := by simp [File.slice]; exact hq
  have h2 : q < (g.slice p n).length := by simp [File.slice]; exact hq
  have : (f.slice p n)[q] = (g.slice p n)[q] := by simp only [h]
  simpa [File.slice] using this

theorem good_of_slices {inst : List Nat} (hinst : 32 + inst.length ≤ 512) {t it} {f g : File} (hg : Good inst t it g)
    (h : f.slice 0 512 = g.slice 0 512) (ht : f.slice 512 t.length = t) (hs : 512 + t.length ≤ f.size) :
    Good inst t it f := by
  have hb : ∀ q, q < 512 → f.get q = g.get q := by
    intro q hq
    have := slice_inj h hq
    rwa [Nat.zero_add] at this
  refine ⟨?_, ?_, ?_, hs, fun i hi => slice_get ht i hi⟩
  · rw [← hg.a]; exact slice_eq (fun q h1 h2 => hb q (by omega))
  · rw [← hg.b]; exact slice_eq (fun q h1 h2 => hb q (by omega))
  · exact (slice_eq (g := g) (fun q h1 h2 => hb q (by omega))).trans hg.i

theorem InvH.crash {inst cur s} (hinst : 32 + inst.length ≤ 512) (h : InvH inst cur s) (t : Text) (k : Nat)
    (junk : Nat → Nat) (ht : t.length < 2^31) (hi : s.1.iteration + 1 < 2^31)
    (hk : ChecksumRejects inst t k s) :
    ∃ cur', (cur' = cur ∨ cur' = some t) ∧ InvH inst cur' (step inst s (.crash t k junk)) ∧
      (step inst s (.crash t k junk)).1.iteration ≤ s.1.iteration + 1 := by
  obtain ⟨h1, h2, h4⟩ := h.target
  have e : step inst s (.crash t k junk) = (boot inst junk (Store.crash inst t k s), Store.crash inst t k s) := rfl
  unfold ChecksumRejects at hk
  rw [e]
  rw [crash_eq inst t k s h2] at hk ⊢
  generalize hf : after inst (s.2.file s.1.target) t (s.1.iteration + 1) k = f at hk ⊢
  rw [(@set_file s.2 s.1.target f h1).1] at hk
  by_cases hg : Good inst t (s.1.iteration + 1) f
  · have hv := h.renew ht hi hg
    refine ⟨some t, Or.inr rfl, ?_, ?_⟩
    · rw [(hv.loaded (junk := junk)).2]; exact hv
    · rw [(hv.loaded (junk := junk)).2]; simp
  · have hc : Harmless inst (max 1 s.1.iteration) f := by
      intro j hj
      rcases hk j hj with h' | ⟨a, b, c⟩
      · omega
      · exact absurd (good_of_slices hinst (after_full inst hinst _ _ _) a b c) hg
    have hv := h.keep hc
    refine ⟨cur, Or.inl rfl, ?_, ?_⟩
    · rw [(hv.loaded (junk := junk)).2]; exact hv
    · rw [(hv.loaded (junk := junk)).2]; simp

end Verif.Store
