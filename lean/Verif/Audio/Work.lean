import Mathlib.Data.List.Basic
/-!
# Who gets data from the SD card first

Model of sound/audio_stream_work.h: the streams which want to read from the card are filled in an interrupt of low priority, the one with
most room first; and the interrupt is asked for with a flag so that it is queued only once.  A stream is any state with its room and what
`FillBuffer` does to it (`BufferedAudioStream::space_available` and `FillBuffer`, sound/buffered_audio_stream.h:60-92, see `Verif.Audio.Ring`).
In the first part no reads fall between; the second part is about the flag alone, for any order of steps.
-/
namespace Verif.Audio.Work

section
variable {σ : Type} (space : σ → Nat) (fill : σ → σ)

/-- the first loop of a round, sound/audio_stream_work.h:112-117 -/
def maxSpace : List σ → Nat
  | [] => 0
  | d :: l => max (space d) (maxSpace l)

/-- the second loop of a round, sound/audio_stream_work.h:120-125 -/
def fillRound (m : Nat) (l : List σ) : List σ := l.map fun d => if space d ≥ m then fill d else d

/-- the rounds, sound/audio_stream_work.h:111-126 -/
def rounds : Nat → List σ → List σ
  | 0, l => l
  | k + 1, l => if maxSpace space l = 0 then l else rounds k (fillRound space fill (maxSpace space l) l)

/-- `ProcessAudioStreams`, sound/audio_stream_work.h:99-135, when the card is not locked -/
def process (l : List σ) : List σ := rounds space fill 50 l

theorem le_max (l : List σ) (d : σ) (h : d ∈ l) : space d ≤ maxSpace space l := by
  induction l with
  | nil => cases h
  | cons a l ih =>
    rcases List.mem_cons.1 h with rfl | h
    · exact Nat.le_max_left _ _
    · exact Nat.le_trans (ih h) (Nat.le_max_right _ _)

theorem max_le (l : List σ) (m : Nat) (h : ∀ d ∈ l, space d ≤ m) : maxSpace space l ≤ m := by
  induction l with
  | nil => exact Nat.zero_le _
  | cons a l ih => exact Nat.max_le.2 ⟨h a (by simp), ih fun d hd => h d (by simp [hd])⟩

theorem max_mem (l : List σ) (h : maxSpace space l ≠ 0) : ∃ d ∈ l, space d = maxSpace space l := by
  induction l with
  | nil => exact absurd rfl h
  | cons a l ih =>
    by_cases hc : maxSpace space l ≤ space a
    · exact ⟨a, by simp, (Nat.max_eq_left hc).symm⟩
    · have e : maxSpace space (a :: l) = maxSpace space l := Nat.max_eq_right (by omega)
      obtain ⟨d, hd, h2⟩ := ih (by omega)
      exact ⟨d, by simp [hd], by rw [e]; exact h2⟩

/-- The neediest first: in each round exactly those streams are filled than which no other has more room, and there is one. -/
theorem C135_neediest (l : List σ) (h : ∃ d ∈ l, 0 < space d) :
    (∀ (i : Nat) (d : σ), l[i]? = some d → (fillRound space fill (maxSpace space l) l)[i]? = some (if (∀ e ∈ l, space e ≤ space d) then fill d else d)) ∧
    ∃ d ∈ l, ∀ e ∈ l, space e ≤ space d := by
  have hne : maxSpace space l ≠ 0 := by
    obtain ⟨d, hd, h0⟩ := h
    have := le_max space l d hd
    omega
  refine ⟨fun i d hd => ?_, ?_⟩
  · simp only [fillRound, List.getElem?_map, hd, Option.map_some]
    have hiff : space d ≥ maxSpace space l ↔ ∀ e ∈ l, space e ≤ space d :=
      ⟨fun h e he => Nat.le_trans (le_max space l e he) h, fun h => max_le space l _ h⟩
    simp only [hiff]
  · obtain ⟨d, hd, h2⟩ := max_mem space l hne
    exact ⟨d, hd, fun e he => by rw [h2]; exact le_max space l e he⟩

/-- the number of fills still needed by all -/
def total (need : σ → Nat) : List σ → Nat
  | [] => 0
  | d :: l => need d + total need l

theorem total_round (need : σ → Nat) (hf : ∀ d, 0 < space d → need (fill d) < need d) (l : List σ) (m : Nat) (hm : 0 < m) :
    total need (fillRound space fill m l) ≤ total need l ∧
    ((∃ d ∈ l, space d ≥ m) → total need (fillRound space fill m l) < total need l) := by
  induction l with
  | nil => exact ⟨Nat.le_refl _, fun ⟨d, hd, _⟩ => by (cases hd)⟩
  | cons a l ih =>
    have e : total need (fillRound space fill m (a :: l)) = need (if space a ≥ m then fill a else a) + total need (fillRound space fill m l) := rfl
    rw [e, total]
    obtain ⟨i1, i2⟩ := ih
    by_cases h : space a ≥ m
    · have := hf a (by omega)
      rw [if_pos h]
      exact ⟨by omega, fun _ => by omega⟩
    · rw [if_neg h]
      refine ⟨by omega, fun ⟨d, hd, h2⟩ => ?_⟩
      rcases List.mem_cons.1 hd with rfl | hd
      · exact absurd h2 h
      · have := i2 ⟨d, hd, h2⟩; omega

theorem total_zero (need : σ → Nat) (l : List σ) (h : total need l = 0) (d : σ) (hd : d ∈ l) : need d = 0 := by
  induction l with
  | nil => cases hd
  | cons a l ih =>
    rw [total] at h
    rcases List.mem_cons.1 hd with rfl | hd
    · omega
    · exact ih (by omega) hd

theorem rounds_full (need : σ → Nat) (hf : ∀ d, 0 < space d → need (fill d) < need d) (hz : ∀ d, need d = 0 → space d = 0)
    (k : Nat) (l : List σ) (h : total need l ≤ k) : ∀ d ∈ rounds space fill k l, space d = 0 := by
  induction k generalizing l with
  | zero => exact fun d hd => hz d (total_zero need l (by omega) d hd)
  | succ k ih =>
    rw [rounds]
    split
    · rename_i h0
      intro d hd
      have := le_max space l d hd
      omega
    · rename_i h0
      obtain ⟨d, hd, h2⟩ := max_mem space l h0
      have := (total_round space fill need hf l (maxSpace space l) (by omega)).2 ⟨d, hd, by omega⟩
      exact ih _ (Nat.le_of_lt_succ (Nat.lt_of_lt_of_le this h))

/-- When the streams together need at most 50 fills, all are full afterwards. -/
theorem C135_full (need : σ → Nat) (hf : ∀ d, 0 < space d → need (fill d) < need d) (hz : ∀ d, need d = 0 → space d = 0)
    (l : List σ) (h : total need l ≤ 50) : ∀ d ∈ process space fill l, space d = 0 :=
  rounds_full space fill need hf hz 50 l h

theorem rounds_stuck (l : List σ) (d : σ) (hd : d ∈ l) (hmax : ∀ e ∈ l, space e < space d ∨ fill e = e) (k : Nat) :
    rounds space fill k l = l := by
  induction k with
  | zero => rfl
  | succ k ih =>
    rw [rounds]
    split
    · rfl
    · have : fillRound space fill (maxSpace space l) l = l := by
        unfold fillRound
        conv_rhs => rw [← List.map_id l]
        apply List.map_congr_left
        intro e he
        have := le_max space l d hd
        rcases hmax e he with h | h
        · rw [if_neg (by omega)]; rfl
        · rw [h]; simp
      rw [this]
      exact ih

/-- A stream which has most room and gets nothing when asked, without being at its end, keeps all the others from being filled. -/
theorem C135_starve_counterexample (l : List σ) (d : σ) (hd : d ∈ l) (hs : fill d = d) (h0 : 0 < space d)
    (hmax : ∀ e ∈ l, e = d ∨ space e < space d) : process space fill l = l ∧ ∃ e ∈ process space fill l, space e ≠ 0 := by
  have h := rounds_stuck space fill l d hd (fun e he => (hmax e he).elim (fun h => .inr (by rw [h, hs])) .inl) 50
  exact ⟨h, by unfold process; rw [h]; exact ⟨d, hd, by omega⟩⟩

end

/-- Three streams with room for 700, 0 and 512, of which up to 512 are filled at a time: three fills, all full. -/
example : process id (fun n => n - 512) [700, 0, 512] = [0, 0, 0] := by decide +kernel

/-- Ring buffers need at most two fills each, up to the end of the memory and from its beginning. -/
example : ∀ d ∈ process (σ := Nat) (fun n => n) (fun n => n - 512) [700, 0, 512], d = 0 :=
  C135_full (fun n => n) (fun n => n - 512) (fun n => (n + 511) / 512) (fun d h => by omega) (fun d h => by omega) _ (by decide)

/-- With one that gives nothing and has most room: nobody is filled. -/
example : process (σ := Nat × Bool) (·.1) (fun d => if d.2 then (0, true) else d) [(700, false), (512, true)] = [(700, false), (512, true)] :=
  (C135_starve_counterexample (·.1) _ _ (700, false) (by simp) rfl (by decide) (by simp)).1

/-! ### asking for the interrupt -/

/-- Where the interrupt stands: not running, running, or after its last look at the streams and before clearing the flag
(sound/audio_stream_work.h:119, 134). -/
inductive Ph
  | idle
  | running
  | leaving
  deriving DecidableEq

/-- `fill_buffers_pending_` and `sd_locked` (sound/audio_stream_work.h:137-138), whether the interrupt is queued, and whether a stream has room. -/
structure W where
  pending : Bool
  queued : Bool
  ph : Ph
  locked : Bool
  need : Bool
  deriving DecidableEq

/-- What may happen: a stream is read and asks for more (sound/buffered_audio_stream.h:43); the queued interrupt begins; looks at the streams;
clears the flag; the card is locked or unlocked (sound/audio_stream_work.h:71-79). -/
inductive Op
  | ask
  | enter
  | look
  | leave
  | lock (b : Bool)
  deriving DecidableEq

/-- sound/audio_stream_work.h:51-69 (`scheduleFillBuffer`), 99-135; a look at the streams either finds them full, or they are filled. -/
def W.step (s : W) : Op → Option W
  | .ask => if s.pending then some { s with need := true } else some { s with need := true, pending := true, queued := true }
  | .enter => if s.queued ∧ s.ph = .idle then some { s with queued := false, ph := if s.locked then .leaving else .running } else none
  | .look => if s.ph = .running then some (if s.need then { s with need := false } else { s with ph := .leaving }) else none
  | .leave => if s.ph = .leaving then some { s with ph := .idle, pending := false } else none
  | .lock b => some { s with locked := b }

/-- any history -/
def runW (s : W) : List Op → Option W
  | [] => some s
  | o :: l => (s.step o).bind fun s => runW s l

/-- at first -/
def w0 : W := ⟨false, false, .idle, false, false⟩

/-- The interrupt is queued or running just when the flag is set. -/
def Flag (s : W) : Prop := s.pending = (s.queued || decide (s.ph ≠ .idle)) ∧ ¬ (s.queued = true ∧ s.ph ≠ .idle)

theorem flag_step (s s' : W) (o : Op) (h : Flag s) (hs : s.step o = some s') : Flag s' := by
  obtain ⟨p, q, ph, lk, n⟩ := s
  obtain ⟨h1, h2⟩ := h
  cases o <;> cases p <;> cases q <;> cases ph <;> simp [W.step] at hs h1 h2 <;> subst hs <;> simp [Flag] <;> (try split) <;> simp_all

theorem flag_run (l : List Op) (s s' : W) (h : Flag s) (hs : runW s l = some s') : Flag s' := by
  induction l generalizing s with
  | nil => simp only [runW, Option.some.injEq] at hs; subst hs; exact h
  | cons o l ih =>
    simp only [runW] at hs
    cases ho : s.step o with
    | none => rw [ho] at hs; simp at hs
    | some t => rw [ho] at hs; exact ih t (flag_step s t o h ho) (by simpa using hs)

/-- The interrupt is never queued twice, nor while it runs; and whoever asks when it is neither queued nor running gets it queued. -/
theorem C135_once (l : List Op) (s s' : W) (h : runW w0 l = some s) (ha : s.step .ask = some s') :
    (s'.queued = true ↔ s.queued = true ∨ s.ph = .idle) ∧ ¬ (s'.queued = true ∧ s'.ph ≠ .idle) := by
  have hf := flag_run l w0 s (by simp [Flag, w0]) h
  have hf' := flag_step s s' .ask hf ha
  refine ⟨?_, hf'.2⟩
  obtain ⟨p, q, ph, lk, n⟩ := s
  obtain ⟨h1, h2⟩ := hf
  cases p <;> cases q <;> cases ph <;> simp [W.step] at ha h1 h2 <;> subst ha <;> simp

/-- histories in which nobody asks in the moment between the last look and clearing the flag, and the card is not locked -/
def calm (s : W) : List Op → Prop
  | [] => True
  | o :: l => (o = .ask → s.ph ≠ .leaving) ∧ (∀ b, o ≠ .lock b) ∧ ∀ t, s.step o = some t → calm t l

/-- Then nothing is lost: as long as a stream has room, the interrupt is queued or still looking. -/
theorem C135_served_partial (l : List Op) (s : W) (h : runW w0 l = some s) (hc : calm w0 l) :
    s.need = true → s.queued = true ∨ s.ph = .running := by
  have key : ∀ (l : List Op) (s s' : W), Flag s → s.locked = false → (s.need = true → s.queued = true ∨ s.ph = .running) → calm s l →
      runW s l = some s' → (s'.need = true → s'.queued = true ∨ s'.ph = .running) := by
    intro l
    induction l with
    | nil => intro s s' _ _ hn _ hr; simp only [runW, Option.some.injEq] at hr; subst hr; exact hn
    | cons o l ih =>
      intro s s' hf hl hn hc hr
      simp only [runW] at hr
      cases ho : s.step o with
      | none => rw [ho] at hr; simp at hr
      | some t =>
        rw [ho] at hr
        obtain ⟨c1, c2, c3⟩ := hc
        have hft := flag_step s t o hf ho
        refine ih t s' hft ?_ ?_ (c3 t ho) (by simpa using hr)
        · obtain ⟨p, q, ph, lk, n⟩ := s
          cases o <;> cases p <;> cases q <;> cases ph <;> cases n <;> simp_all [W.step] <;> subst ho <;> rfl
        · obtain ⟨p, q, ph, lk, n⟩ := s
          obtain ⟨f1, f2⟩ := hf
          cases o <;> cases p <;> cases q <;> cases ph <;> cases n <;> simp_all [W.step, Flag] <;> subst ho <;> simp
  exact key l w0 s (by simp [Flag, w0]) rfl (by simp [w0]) hc h

/-- Asked for in that moment it is lost: the stream has room, and the interrupt is not queued and will not be before somebody asks again. -/
theorem C135_lost_counterexample :
    ∃ l s, runW w0 l = some s ∧ s.need = true ∧ s.queued = false ∧ s.ph = .idle ∧
      ∀ o, o ≠ .ask → ∀ t, s.step o = some t → t.queued = false ∧ t.ph = .idle ∧ t.need = true := by
  refine ⟨[.ask, .enter, .look, .look, .ask, .leave], ⟨false, false, .idle, false, true⟩, by decide, rfl, rfl, rfl, fun o ho t h => ?_⟩
  cases o <;> simp [W.step] at h ho <;> subst h <;> simp

/-- So it is for a request while the card is locked: unlocking does not ask again. -/
theorem C135_locked_counterexample :
    ∃ l s, runW w0 l = some s ∧ s.locked = false ∧ s.need = true ∧ s.queued = false ∧ s.ph = .idle :=
  ⟨[.lock true, .ask, .enter, .leave, .lock false], ⟨false, false, .idle, false, true⟩, by decide, rfl, rfl, rfl, rfl⟩

/-- A calm history: two requests, the second while the interrupt is looking. -/
example : runW w0 [.ask, .enter, .look, .ask, .look, .look, .leave] = some ⟨false, false, .idle, false, false⟩ := by decide

/-! ### leaving the list -/

/-- `~AudioStreamWork`, sound/audio_stream_work.h:26-32, on the list as the code walks it: the object is taken out, and the loop then steps to
the member after the one now in its place; when there is none, it reads a member of the null pointer. -/
def destroy (x : Nat) : List Nat → Option (List Nat)
  | [] => some []
  | a :: l => if a = x then
      match l with
      | [] => none
      | b :: r => (destroy x r).map (b :: ·)
    else (destroy x l).map (a :: ·)

theorem destroy_ne (x a : Nat) (l : List Nat) (h : a ≠ x) : destroy x (a :: l) = (destroy x l).map (a :: ·) := by
  rw [destroy.eq_def]; simp only [h, if_false]

theorem destroy_eq (x b : Nat) (r : List Nat) : destroy x (x :: b :: r) = (destroy x r).map (b :: ·) := by
  rw [destroy.eq_def]; simp only [if_true]

/-- An object which is not the oldest leaves the list, and the others stay in order. -/
theorem C135_destroy_partial (x : Nat) (l : List Nat) (h : l.Nodup) (hl : l.getLast? ≠ some x) : destroy x l = some (l.filter (· ≠ x)) := by
  induction l with
  | nil => rfl
  | cons a l ih =>
    obtain ⟨h1, h2⟩ := List.nodup_cons.1 h
    by_cases ha : a = x
    · subst ha
      cases l with
      | nil => simp at hl
      | cons b r =>
        obtain ⟨h3, h4⟩ := List.nodup_cons.1 h2
        have hx : ∀ r : List Nat, a ∉ r → destroy a r = some r := by
          intro r
          induction r with
          | nil => intro _; rfl
          | cons c r ih =>
            intro hc
            rw [List.mem_cons, not_or] at hc
            rw [destroy_ne _ _ _ (Ne.symm hc.1), ih hc.2]; rfl
        have har : a ∉ b :: r := h1
        rw [List.mem_cons, not_or] at har
        have hf : (a :: b :: r).filter (· ≠ a) = b :: r := by
          rw [List.filter_cons_of_neg (by simp), List.filter_eq_self]
          intro y hy
          simp only [ne_eq, decide_not, Bool.not_eq_eq_eq_not, Bool.not_true, decide_eq_false_iff_not]
          rintro rfl
          exact h1 hy
        rw [hf]
        rw [destroy_eq, hx r har.2]; rfl
    · have hl2 : l.getLast? ≠ some x := by
        cases l with
        | nil => simp
        | cons b r => simpa [List.getLast?_cons_cons] using hl
      rw [destroy_ne _ _ _ ha, ih h2 hl2, List.filter_cons_of_pos (by simpa using ha)]; rfl

/-- Destroying the oldest one, at the end of the list, reads through the null pointer. -/
theorem C135_destroy_counterexample (x : Nat) (l : List Nat) (h : x ∉ l) : destroy x (l ++ [x]) = none := by
  induction l with
  | nil => simp [destroy]
  | cons a l ih =>
    rw [List.mem_cons, not_or] at h
    rw [List.cons_append, destroy_ne _ _ _ (Ne.symm h.1), ih h.2]; rfl

example : destroy 2 [3, 2, 1] = some [3, 1] ∧ destroy 1 [3, 2, 1] = none := by decide

end Verif.Audio.Work
