/-!
# Mounting the SD card, the status LED, monitoring and the clock (C122, C123, C124)

Model of common/sd_card.h, common/status_led.h, common/monitoring.h and common/clock_control.h. Times are real milliseconds since
power on, the code sees them modulo 2^32.
-/
namespace Verif.Common.House

/-- The difference of two times as the code computes it, in 32 bits. -/
def since (now last : Nat) : Nat := (now % 4294967296 + 4294967296 - last % 4294967296) % 4294967296

theorem since_eq (now last : Nat) (h : last ≤ now) : since now last = (now - last) % 4294967296 := by
  unfold since; omega

theorem since_le (now last : Nat) (h : last ≤ now) : since now last ≤ now - last := by
  rw [since_eq now last h]; exact Nat.mod_le _ _

theorem since_real (now last : Nat) (h : last ≤ now) (h2 : now < last + 4294967296) : since now last = now - last := by
  rw [since_eq now last h]; omega

theorem since_lt (now last d : Nat) (h : last ≤ now) (h2 : now ≤ last + d) (h3 : d < 4294967296) : since now last = now - last :=
  since_real now last h (Nat.lt_of_le_of_lt h2 (Nat.add_lt_add_left h3 _))

/-! ## The SD card -/

/-- `last` is `last_enabled_`, `tried` is `last_mount_try_`. -/
structure Sd where
  mounted : Bool := false
  last : Nat := 0
  tried : Nat := 0
  deriving DecidableEq

/-- What `Loop` finds: `busy` is amplifier active or card locked or read by the audio; `usb` is USB configured; `can` is
`LSFS::CanMount()`; `ok` is whether `LSFS::Begin()` succeeds. -/
structure SdIn where
  now : Nat
  busy : Bool := false
  on : Bool := false
  usb : Bool := false
  can : Bool := true
  ok : Bool := true

/-- `Active()`, common/sd_card.h:15-32. -/
def active (s : Sd) (i : SdIn) : Sd × Bool :=
  if i.busy then ({ s with last := i.now }, true)
  else if i.on then ({ s with last := i.now }, true)
  else if i.usb then (s, false)
  else (s, decide (since i.now s.last < 1000))

/-- `Mount()`, common/sd_card.h:34-53; `can` is whether the card becomes available within the second it waits. -/
def mount (s : Sd) (i : SdIn) : Sd :=
  if s.mounted then { s with last := i.now }
  else if i.can && i.ok then { s with last := i.now, mounted := true }
  else { s with last := i.now }

/-- `Loop()`, common/sd_card.h:60-78. -/
def sdLoop (s : Sd) (i : SdIn) : Sd :=
  if s.mounted then
    if (active s i).2 then (active s i).1 else { (active s i).1 with mounted := false }
  else if (active s i).2 && decide (1000 < since i.now (active s i).1.tried) then
    if i.can then mount { (active s i).1 with tried := i.now } i else { (active s i).1 with tried := i.now }
  else (active s i).1

/-- The main loop, and `MountSDCard()` called before a file is opened. -/
inductive SdOp
  | loop (i : SdIn)
  | need (i : SdIn)

def SdOp.input : SdOp → SdIn
  | .loop i => i
  | .need i => i

def sdStep (s : Sd) : SdOp → Sd
  | .loop i => sdLoop s i
  | .need i => mount s i

/-- Whether the card is needed now: something plays or reads, the saber is on, or a file is to be opened. -/
def SdOp.needs : SdOp → Bool
  | .loop i => i.busy || i.on
  | .need _ => true

/-- The time it was last needed, from the history, latest first. -/
def lastNeed (t0 : Nat) : List SdOp → Nat
  | [] => t0
  | o :: r => if o.needs then o.input.now else lastNeed t0 r

/-- Time does not go back; latest first. -/
def Later (t0 : Nat) : List SdOp → Prop
  | [] => True
  | o :: r => (∀ p ∈ r, p.input.now ≤ o.input.now) ∧ t0 ≤ o.input.now ∧ Later t0 r

def sdRun (s : Sd) (h : List SdOp) : Sd := h.foldr (fun o s => sdStep s o) s

theorem active_last (s : Sd) (i : SdIn) : (active s i).1 = if (i.busy || i.on) then { s with last := i.now } else s := by
  unfold active
  cases i.busy <;> cases i.on <;> cases i.usb <;> rfl

theorem mount_last (s : Sd) (i : SdIn) : (mount s i).last = i.now := by
  unfold mount; split
  · rfl
  · split <;> rfl

theorem mount_tried (s : Sd) (i : SdIn) : (mount s i).tried = s.tried := by
  unfold mount; split
  · rfl
  · split <;> rfl

theorem mount_keeps (s : Sd) (i : SdIn) (h : s.mounted = true) : (mount s i).mounted = true := by unfold mount; rw [if_pos h]; exact h

/-- The stored time is the time of the last need, or of a later mount. -/
theorem last_bounds (s : Sd) (t0 : Nat) (h : List SdOp) (hl : Later t0 h) (h0 : s.last = t0) :
    lastNeed t0 h ≤ (sdRun s h).last ∧ (∀ o ∈ h.head?, (sdRun s h).last ≤ o.input.now) ∧ (h = [] → (sdRun s h).last = t0) := by
  induction h with
  | nil => exact ⟨by simp [lastNeed, sdRun, h0], by simp, fun _ => h0⟩
  | cons o r ih =>
    obtain ⟨l1, l2, l3⟩ := hl
    obtain ⟨a, b, c⟩ := ih l3
    have e : sdRun s (o :: r) = sdStep (sdRun s r) o := rfl
    have hub : (sdRun s r).last ≤ o.input.now := by
      cases r with
      | nil => rw [c rfl]; exact l2
      | cons p r' => exact Nat.le_trans (b p rfl) (l1 p (by simp))
    have hneed : ∀ h : List SdOp, Later t0 h → (∀ p ∈ h, p.input.now ≤ o.input.now) → lastNeed t0 h ≤ o.input.now := by
      intro h
      induction h with
      | nil => intro _ _; exact l2
      | cons p r ih2 =>
        intro q1 q2
        unfold lastNeed
        split
        · exact q2 p (by simp)
        · exact ih2 q1.2.2 (fun x hx => q2 x (by simp [hx]))
    have hr := hneed r l3 l1
    rw [e]
    generalize sdRun s r = x at a hub
    refine ⟨?_, ?_, by simp⟩
    · cases o with
      | need i => show i.now ≤ (mount x i).last; rw [mount_last]; exact Nat.le_refl _
      | loop i =>
        have ha := active_last x i
        show (if (i.busy || i.on) then i.now else lastNeed t0 r) ≤ (sdLoop x i).last
        have hlast : (if (i.busy || i.on) then i.now else lastNeed t0 r) ≤ (active x i).1.last := by
          rw [ha]
          split
          · exact Nat.le_refl _
          · exact a
        have hnow : (if (i.busy || i.on) then i.now else lastNeed t0 r) ≤ i.now := by
          split
          · exact Nat.le_refl _
          · exact hr
        generalize (if (i.busy || i.on) then i.now else lastNeed t0 r) = n at hlast hnow
        unfold sdLoop
        split
        · split <;> exact hlast
        · split
          · split
            · rw [mount_last]; exact hnow
            · exact hlast
          · exact hlast
    · intro q hq
      cases hq
      cases o with
      | need i => show (mount x i).last ≤ i.now; rw [mount_last]; exact Nat.le_refl _
      | loop i =>
        have ha := active_last x i
        have hlast : (active x i).1.last ≤ i.now := by
          rw [ha]
          split
          · exact Nat.le_refl _
          · exact hub
        show (sdLoop x i).last ≤ i.now
        unfold sdLoop
        split
        · split <;> exact hlast
        · split
          · split
            · rw [mount_last]; exact Nat.le_refl _
            · exact hlast
          · exact hlast

/-- The card is never taken away while it is needed, nor, if no computer has it, within one second after it was needed last,
whatever happened before and at any value of the clock. -/
theorem C122_keep (s : Sd) (t0 : Nat) (h : List SdOp) (o : SdOp) (hl : Later t0 (o :: h)) (h0 : s.last = t0)
    (hm : (sdRun s h).mounted = true) (hu : (sdRun s (o :: h)).mounted = false) :
    o.needs = false ∧ (o.input.usb = false → lastNeed t0 (o :: h) + 1000 ≤ o.input.now) := by
  have e : sdRun s (o :: h) = sdStep (sdRun s h) o := rfl
  obtain ⟨b1, b2, b3⟩ := last_bounds s t0 h hl.2.2 h0
  have hub : (sdRun s h).last ≤ o.input.now := by
    cases h with
    | nil => rw [b3 rfl]; exact hl.2.1
    | cons p r => exact Nat.le_trans (b2 p rfl) (hl.1 p (by simp))
  rw [e] at hu
  generalize sdRun s h = x at hm hu b1 hub
  cases o with
  | need i => have := mount_keeps x i hm; unfold sdStep at hu; rw [this] at hu; cases hu
  | loop i =>
    have hu : (sdLoop x i).mounted = false := hu
    unfold sdLoop at hu
    rw [if_pos hm] at hu
    have ha := active_last x i
    have hact : (active x i).2 = false := by
      cases hc : (active x i).2 with
      | false => rfl
      | true =>
        rw [if_pos hc, ha] at hu
        split at hu <;> exact Bool.noConfusion (hm.symm.trans hu)
    unfold active at hact
    show (i.busy || i.on) = false ∧ (i.usb = false → lastNeed t0 (.loop i :: h) + 1000 ≤ i.now)
    cases hb : i.busy <;> cases ho : i.on <;> rw [hb] at hact <;> simp [ho] at hact ⊢
    intro hus
    rw [hus] at hact
    simp at hact
    have := since_le i.now x.last hub
    have hn : lastNeed t0 (.loop i :: h) = lastNeed t0 h := by
      show (if (i.busy || i.on) then i.now else lastNeed t0 h) = _
      rw [hb, ho]; rfl
    rw [hn]
    have hub' : x.last ≤ i.now := hub
    omega

/-- It is given back: when not needed for a second, or at once if a computer wants it, the next `Loop` unmounts it. -/
theorem C122_release (s : Sd) (i : SdIn) (hm : s.mounted = true) (h1 : i.busy = false) (h2 : i.on = false)
    (h : i.usb = true ∨ (s.last + 1000 ≤ i.now ∧ i.now < s.last + 4294967296)) : (sdLoop s i).mounted = false := by
  have ha : (active s i).2 = false := by
    unfold active
    rw [h1, h2]
    rcases h with h | ⟨h3, h4⟩
    · rw [h]; rfl
    · cases i.usb
      · simp only [Bool.false_eq_true, if_false, decide_eq_false_iff_not]
        rw [since_real i.now s.last (by omega) h4]; omega
      · rfl
  unfold sdLoop
  rw [if_pos hm, if_neg (by rw [ha]; simp)]

/-- While a computer has the card and the saber is off and silent, `Loop` does not touch it. -/
theorem C122_usb (s : Sd) (i : SdIn) (hm : s.mounted = false) (h1 : i.busy = false) (h2 : i.on = false) (h3 : i.usb = true) : sdLoop s i = s := by
  unfold sdLoop active
  rw [hm, h1, h2, h3]; rfl

/-- Mounting is tried only when needed, or within a second after, and never twice within a second. -/
theorem C122_try (s : Sd) (i : SdIn) (hs : s.tried ≤ i.now) (h : (sdLoop s i).tried ≠ s.tried ∨ ((sdLoop s i).mounted = true ∧ s.mounted = false)) :
    s.tried + 1000 < i.now ∧ (sdLoop s i).tried = i.now ∧ (i.busy = true ∨ i.on = true ∨ (i.usb = false ∧ since i.now s.last < 1000)) := by
  have ht : (active s i).1.tried = s.tried := by rw [active_last]; split <;> rfl
  have hmo : (active s i).1.mounted = s.mounted := by rw [active_last]; split <;> rfl
  unfold sdLoop at h ⊢
  cases hm : s.mounted with
  | true =>
    rw [if_pos hm] at h
    rcases h with h | h
    · split at h <;> exact absurd ht h
    · rw [hm] at h; cases h.2
  | false =>
    rw [if_neg (by simp [hm])] at h ⊢
    by_cases hc : ((active s i).2 && decide (1000 < since i.now (active s i).1.tried)) = true
    · rw [if_pos hc]
      rw [ht] at hc
      simp only [Bool.and_eq_true, decide_eq_true_eq] at hc
      have := since_le i.now s.tried hs
      refine ⟨by omega, ?_, ?_⟩
      · split
        · rw [mount_tried]
        · rfl
      · have ha := hc.1
        unfold active at ha
        cases hb : i.busy <;> cases ho : i.on <;> cases hu : i.usb <;> rw [hb, ho, hu] at ha <;> simp_all
    · rw [if_neg hc, ht, hmo] at h
      rcases h with h | h
      · exact absurd rfl h
      · rw [hm] at h; cases h.1

/-- And it is tried: when needed, with the last try more than a second ago, a card which works is mounted. -/
theorem C122_mounts (s : Sd) (i : SdIn) (h : i.busy = true ∨ i.on = true) (h1 : s.tried + 1000 < i.now) (h2 : i.now < s.tried + 4294967296)
    (hc : i.can = true) (ho : i.ok = true) : (sdLoop s i).mounted = true := by
  have ha : active s i = ({ s with last := i.now }, true) := by
    unfold active
    rcases h with h | h
    · rw [if_pos h]
    · rw [if_pos h]; split <;> rfl
  unfold sdLoop
  rw [ha]
  cases hm : s.mounted with
  | true => simp
  | false =>
    have := since_real i.now s.tried (by omega) h2
    simp only [Bool.false_eq_true, if_false, Bool.true_and]
    rw [if_pos (by rw [decide_eq_true_eq]; omega), if_pos hc]
    unfold mount
    simp [hc, ho]

/-- After 2^32 ms, 49 days, without need, the card is mounted for a second though nothing needs it. -/
theorem C122_wrap_counterexample : (sdLoop { mounted := false, last := 5000, tried := 5000 } { now := 5000 + 4294967296 - 2 }).mounted = false ∧
    (sdLoop { mounted := false, last := 5000, tried := 3000 } { now := 5000 + 4294967296 }).mounted = true := by
  constructor <;> decide +kernel

example : Later 0 [.loop { now := 3000 }, .loop { now := 1500, on := true }, .need { now := 1000 }] := by simp [Later, SdOp.input]
example : (sdRun {} [.loop { now := 2400 }, .loop { now := 1500, on := true }, .need { now := 1000 }]).mounted = true ∧
    (sdRun {} [.loop { now := 2500 }, .loop { now := 1500, on := true }, .need { now := 1000 }]).mounted = false := by constructor <;> decide +kernel

/-! ## The status LED -/

/-- `lit` is what the pin shows while blinking; the pattern after it is not modelled. -/
structure Led where
  start : Nat
  blinks : Nat
  again : Bool
  last : Nat
  lit : Bool
  deriving DecidableEq

/-- `Loop()` while `blinks_` is positive, common/status_led.h:38-79. -/
def ledLoop (s : Led) (now : Nat) : Led :=
  if since now s.last < 5 then s
  else if s.blinks = 0 then { s with last := now }
  else if since now s.start / 500 < s.blinks then { s with last := now, lit := decide (since now s.start % 500 > 250) }
  else if since now s.start / 500 < s.blinks + 3 then { s with last := now, lit := false }
  else if s.again then { s with last := now, start := now }
  else { s with last := now, blinks := 0, lit := false }

/-- `Blink(N, repeat)`, common/status_led.h:111-115. -/
def blink (s : Led) (n : Nat) (again : Bool) (now : Nat) : Led := { s with blinks := n, again := again, start := now }

/-- How often the LED goes from dark to lit. -/
def flashes (s : Led) : List Nat → Nat
  | [] => 0
  | t :: r => (if !s.lit && (ledLoop s t).lit then 1 else 0) + flashes (ledLoop s t) r

def ledRun (s : Led) (ts : List Nat) : Led := ts.foldl ledLoop s

/-- Calls of `Loop` at times in order, the gaps at most `g`, and all before `stop`. -/
def Dense (g stop : Nat) : Nat → List Nat → Prop
  | _, [] => True
  | t, x :: r => t ≤ x ∧ x ≤ t + g ∧ x < stop ∧ Dense g stop x r

/-- The time of the last call. -/
def final : Nat → List Nat → Nat
  | t, [] => t
  | _, x :: r => final x r

/-- What has been shown up to time `t` after the start. -/
def shown (n t : Nat) : Nat := min n ((t + 249) / 500)

def litAt (n t : Nat) : Bool := decide (t / 500 < n ∧ t % 500 > 250)

theorem shown_step (n t t' : Nat) (h1 : t ≤ t') (h2 : t' ≤ t + 249) :
    shown n t' = shown n t + (if !(litAt n t) && litAt n t' then 1 else 0) := by
  unfold shown litAt
  by_cases a : t / 500 < n ∧ t % 500 > 250 <;> by_cases b : t' / 500 < n ∧ t' % 500 > 250 <;> simp [a, b] <;> omega

/-- Whatever the schedule of the main loop, if `Loop` is called at least each 244 ms, the LED has flashed exactly as often as an
observer expects, and after 500 N ms exactly N times, until it starts again or ends. -/
theorem flash_count (n : Nat) (again : Bool) (start : Nat) (hn : 500 * (n + 3) < 4294967296) (hn0 : n ≠ 0) :
    ∀ (ts : List Nat) (u t : Nat), start ≤ u → u ≤ t → t ≤ u + 4 → Dense 244 (start + 500 * (n + 3)) t ts → t < start + 500 * (n + 3) →
      ∃ v, v ≤ final t ts ∧ final t ts ≤ v + 4 ∧ start ≤ v ∧
        ledRun ⟨start, n, again, u, litAt n (u - start)⟩ ts = ⟨start, n, again, v, litAt n (v - start)⟩ ∧
        shown n (v - start) = shown n (u - start) + flashes ⟨start, n, again, u, litAt n (u - start)⟩ ts := by
  intro ts
  induction ts with
  | nil => intro u t h1 h2 h3 _ _; exact ⟨u, h2, h3, h1, rfl, rfl⟩
  | cons x r ih =>
    intro u t h1 h2 h3 hd ht
    obtain ⟨d1, d2, d3, d4⟩ := hd
    have su : since x u = x - u := since_lt x u 248 (by omega) (by omega) (by decide)
    have ss : since x start = x - start := since_lt x start (500 * (n + 3)) (by omega) (Nat.le_of_lt d3) hn
    show ∃ v, v ≤ final x r ∧ final x r ≤ v + 4 ∧ start ≤ v ∧ ledRun (ledLoop ⟨start, n, again, u, litAt n (u - start)⟩ x) r = _ ∧
      _ = _ + ((if !(litAt n (u - start)) && (ledLoop ⟨start, n, again, u, litAt n (u - start)⟩ x).lit then 1 else 0) + flashes (ledLoop ⟨start, n, again, u, litAt n (u - start)⟩ x) r)
    by_cases hs : x - u < 5
    · have he : ledLoop ⟨start, n, again, u, litAt n (u - start)⟩ x = ⟨start, n, again, u, litAt n (u - start)⟩ := by
        unfold ledLoop
        rw [if_pos (by show since x u < 5; omega)]
      rw [he]
      obtain ⟨v, v1, v2, v3, v4, v5⟩ := ih u x h1 (by omega) (by omega) d4 d3
      refine ⟨v, v1, v2, v3, v4, ?_⟩
      rw [v5]
      have : (!(litAt n (u - start)) && litAt n (u - start)) = false := by cases litAt n (u - start) <;> rfl
      simp [this]
    · have he : ledLoop ⟨start, n, again, u, litAt n (u - start)⟩ x = ⟨start, n, again, x, litAt n (x - start)⟩ := by
        unfold ledLoop
        rw [if_neg (by show ¬ since x u < 5; omega), if_neg hn0]
        show (if since x start / 500 < n then _ else _) = _
        rw [ss]
        by_cases hb : (x - start) / 500 < n
        · rw [if_pos hb]; unfold litAt; simp [hb]
        · rw [if_neg hb, if_pos (by show (x - start) / 500 < n + 3; omega)]
          unfold litAt; simp [hb]
      rw [he]
      obtain ⟨v, v1, v2, v3, v4, v5⟩ := ih x x (by omega) (by omega) (by omega) d4 d3
      refine ⟨v, v1, v2, v3, v4, ?_⟩
      rw [v5, shown_step n (u - start) (x - start) (by omega) (by omega)]
      simp only
      omega

/-- An LED which is dark and set to blink N times flashes exactly N times, then is dark for a second and a half, however the main
loop is scheduled, if `Loop` runs at least each 244 ms. -/
theorem C123_count (n : Nat) (again : Bool) (t0 : Nat) (ts : List Nat) (hn0 : n ≠ 0) (hn : 500 * (n + 3) < 4294967296)
    (hd : Dense 244 (t0 + 500 * (n + 3)) t0 ts) (s : Led) (hl : s.lit = false) (hs : s.last = t0) (hf : t0 + 500 * n + 4 ≤ final t0 ts) :
    flashes (blink s n again t0) ts = n ∧ (ledRun (blink s n again t0) ts).lit = false := by
  have hb : blink s n again t0 = ⟨t0, n, again, t0, litAt n (t0 - t0)⟩ := by
    unfold blink
    rw [hl, hs]
    have : litAt n (t0 - t0) = false := by unfold litAt; simp
    rw [this]
  rw [hb]
  obtain ⟨v, v1, v2, v3, v4, v5⟩ := flash_count n again t0 hn hn0 ts t0 t0 (Nat.le_refl _) (Nat.le_refl _) (by omega) hd (by omega)
  have e0 : shown n (t0 - t0) = 0 := by unfold shown; simp
  have en : shown n (v - t0) = n := by unfold shown; omega
  refine ⟨by omega, ?_⟩
  rw [v4]
  show litAt n (v - t0) = false
  unfold litAt
  simp only [decide_eq_false_iff_not]
  omega

/-- At any time before, the number of flashes begun is the number of whole half seconds, counting one as begun after 251 ms; the LED
is lit only in the second half of each. -/
theorem C123_times (n : Nat) (again : Bool) (t0 : Nat) (ts : List Nat) (hn0 : n ≠ 0) (hn : 500 * (n + 3) < 4294967296)
    (hd : Dense 244 (t0 + 500 * (n + 3)) t0 ts) (s : Led) (hl : s.lit = false) (hs : s.last = t0) :
    ∃ v, v ≤ final t0 ts ∧ final t0 ts ≤ v + 4 ∧ t0 ≤ v ∧ flashes (blink s n again t0) ts = min n ((v - t0 + 249) / 500) ∧
      ((ledRun (blink s n again t0) ts).lit = true ↔ v - t0 < 500 * n ∧ 250 < (v - t0) % 500) := by
  have hb : blink s n again t0 = ⟨t0, n, again, t0, litAt n (t0 - t0)⟩ := by
    unfold blink
    rw [hl, hs]
    have : litAt n (t0 - t0) = false := by unfold litAt; simp
    rw [this]
  rw [hb]
  obtain ⟨v, v1, v2, v3, v4, v5⟩ := flash_count n again t0 hn hn0 ts t0 t0 (Nat.le_refl _) (Nat.le_refl _) (by omega) hd (by omega)
  have e0 : shown n (t0 - t0) = 0 := by unfold shown; simp
  refine ⟨v, v1, v2, v3, ?_, ?_⟩
  · rw [e0, Nat.zero_add] at v5; rw [← v5]; rfl
  · rw [v4]
    show litAt n (v - t0) = true ↔ _
    unfold litAt
    rw [decide_eq_true_iff]
    omega

/-- Then it starts again, if repeated, or ends. -/
theorem C123_end (s : Led) (now : Nat) (h0 : s.blinks ≠ 0) (h1 : s.start + 500 * (s.blinks + 3) ≤ now) (h2 : now < s.start + 4294967296)
    (h3 : s.last + 5 ≤ now) (h4 : s.start ≤ s.last) :
    (s.again = true → ledLoop s now = { blink s s.blinks true now with last := now }) ∧ (s.again = false → (ledLoop s now).blinks = 0) := by
  have su : since now s.last = now - s.last := since_real now s.last (by omega) (by omega)
  have ss : since now s.start = now - s.start := since_real now s.start (by omega) (by omega)
  unfold ledLoop
  rw [if_neg (by omega), if_neg h0, if_neg (by omega), if_neg (by omega)]
  constructor
  · intro h; rw [if_pos h]; unfold blink; cases s; simp_all
  · intro h; rw [if_neg (by simp [h])]

/-- With calls each 500 ms no flash at all may be seen. -/
theorem C123_slow_counterexample : flashes (blink ⟨0, 0, false, 0, false⟩ 3 false 0) [500, 1000, 1500, 2000] = 0 := by decide +kernel

example : Dense 244 (1000 + 500 * (2 + 3)) 1000 [1200, 1203, 1400, 1600, 1800, 2000, 2100] := by simp [Dense]
example : flashes (blink ⟨0, 0, false, 1000, false⟩ 2 false 1000) [1200, 1203, 1400, 1600, 1800, 2000, 2100] = 2 := by decide +kernel

/-! ## Monitoring -/

/-- Sets of monitors, one bit each. -/
structure Mon where
  last : Nat := 0
  soon : Nat → Bool := fun _ => false
  seen : Nat → Bool := fun _ => false
  act : Nat → Bool := fun _ => false

/-- `Loop()`, common/monitoring.h:51-58: `due` is whether the time is over. -/
def refresh (s : Mon) (now : Nat) (due : Bool) : Mon :=
  if due then { s with soon := s.act, seen := fun _ => false, last := now }
  else { s with soon := fun b => s.soon b && !s.seen b, seen := fun _ => false }

def monLoop (s : Mon) (now : Nat) : Mon := refresh s now (decide (200 < since now s.last))

/-- `ShouldPrint`, common/monitoring.h:22-30. -/
def should (s : Mon) (b : Nat) : Mon × Bool :=
  if s.soon b then ({ s with soon := fun k => s.soon k && k != b }, true) else (s, false)

/-- `ShouldPrintMultiple`, common/monitoring.h:32-40. -/
def shouldMultiple (s : Mon) (b : Nat) : Mon × Bool :=
  if s.soon b then ({ s with seen := fun k => s.seen k || k == b }, true) else (s, false)

/-- `Toggle`, common/monitoring.h:60-62. -/
def toggle (s : Mon) (b : Nat) : Mon := { s with act := fun k => xor (s.act k) (k == b) }

inductive MonOp
  | loop (now : Nat)
  | should (b : Nat)
  | multiple (b : Nat)
  | toggle (b : Nat)

def monStep (s : Mon) : MonOp → Mon × Bool
  | .loop t => (monLoop s t, false)
  | .should b => should s b
  | .multiple b => shouldMultiple s b
  | .toggle b => (toggle s b, false)

def monRun (s : Mon) (ops : List MonOp) : Mon := ops.foldl (fun s o => (monStep s o).1) s

/-- How often `ShouldPrint(b)` said yes. -/
def prints (b : Nat) (s : Mon) : List MonOp → Nat
  | [] => 0
  | o :: r => (match o with | .should k => if k = b ∧ (should s k).2 = true then 1 else 0 | _ => 0) + prints b (monStep s o).1 r

/-- The calls of `Loop` are in order of time, up to `stop`. -/
def Ordered (stop : Nat) : Nat → List MonOp → Prop
  | t, [] => t ≤ stop
  | t, .loop x :: r => t ≤ x ∧ Ordered stop x r
  | t, _ :: r => Ordered stop t r

theorem ite_mono (a b : Bool) (c : Nat) (h : a = true → b = true) : (if a = true then c else 0) ≤ (if b = true then c else 0) := by
  cases a
  · simp
  · rw [h rfl]; simp

theorem should_yes (s : Mon) (b : Nat) (h : s.soon b = true) : (should s b).2 = true ∧ (should s b).1.soon b = false := by
  unfold should; rw [if_pos h]; simp

theorem should_other (s : Mon) (b k : Nat) (h : k ≠ b) : (should s k).1.soon b = s.soon b := by
  unfold should
  split
  · show (s.soon b && b != k) = _
    have : (b != k) = true := by simp; exact fun q => h q.symm
    rw [this, Bool.and_true]
  · rfl

theorem should_no (s : Mon) (b : Nat) (h : s.soon b = false) : should s b = (s, false) := by unfold should; rw [h]; rfl

theorem prints_le (b stop : Nat) : ∀ (ops : List MonOp) (s : Mon) (t : Nat), s.last ≤ t → Ordered stop t ops →
    201 * (prints b s ops) ≤ (if s.soon b then 201 else 0) + (stop - s.last) := by
  intro ops
  induction ops with
  | nil => intro s t _ _; simp [prints]
  | cons o r ih =>
    intro s t hl ho
    cases o with
    | loop x =>
      obtain ⟨h1, h2⟩ := ho
      have hle : x ≤ stop := by
        clear ih
        induction r generalizing x with
        | nil => exact h2
        | cons p q ih2 =>
          cases p with
          | loop y => have := ih2 y (by have := h2.1; omega) h2.2; have := h2.1; omega
          | should k => exact ih2 x h1 h2
          | multiple k => exact ih2 x h1 h2
          | toggle k => exact ih2 x h1 h2
      show 201 * (0 + prints b (monLoop s x) r) ≤ _
      by_cases hs : 200 < since x s.last
      · have := since_le x s.last (by omega)
        have e : monLoop s x = { s with soon := s.act, seen := fun _ => false, last := x } := by unfold monLoop; rw [decide_eq_true hs]; rfl
        have := ih (monLoop s x) x (by rw [e]; exact Nat.le_refl _) h2
        rw [e] at this ⊢
        simp only at this
        split at this <;> omega
      · have e : monLoop s x = { s with soon := fun b => s.soon b && !s.seen b, seen := fun _ => false } := by unfold monLoop; rw [decide_eq_false hs]; rfl
        have h3 := ih (monLoop s x) x (by rw [e]; show s.last ≤ x; omega) h2
        have h4 : (monLoop s x).last = s.last := by rw [e]
        have h5 := ite_mono ((monLoop s x).soon b) (s.soon b) 201 (by rw [e]; intro q; have q : (s.soon b && !s.seen b) = true := q; cases hq : s.soon b <;> simp_all)
        rw [h4] at h3
        omega
    | should k =>
      show 201 * ((if k = b ∧ (should s k).2 = true then 1 else 0) + prints b (should s k).1 r) ≤ _
      have hlast : (should s k).1.last = s.last := by unfold should; split <;> rfl
      have h3 := ih (should s k).1 t (by rw [hlast]; exact hl) ho
      rw [hlast] at h3
      by_cases hkb : k = b
      · subst hkb
        cases hk : s.soon k with
        | true =>
          obtain ⟨y1, y2⟩ := should_yes s k hk
          rw [y2] at h3
          rw [if_pos ⟨rfl, y1⟩]
          simp at h3 ⊢
          omega
        | false =>
          have y := should_no s k hk
          rw [y] at h3 ⊢
          rw [if_neg (by simp)]
          simp only [hk] at h3
          simpa using h3
      · rw [should_other s b k hkb] at h3
        rw [if_neg (fun q => hkb q.1)]
        omega
    | multiple k =>
      have e1 : (shouldMultiple s k).1.last = s.last := by unfold shouldMultiple; split <;> rfl
      have e2 : (shouldMultiple s k).1.soon = s.soon := by unfold shouldMultiple; split <;> rfl
      have := ih (shouldMultiple s k).1 t (by rw [e1]; exact hl) ho
      rw [e1, e2] at this
      show 201 * (0 + prints b (shouldMultiple s k).1 r) ≤ _
      omega
    | toggle k =>
      have := ih (toggle s k) t hl ho
      show 201 * (0 + prints b (toggle s k) r) ≤ _
      have e1 : (toggle s k).last = s.last := rfl
      have e2 : (toggle s k).soon = s.soon := rfl
      rw [e1, e2] at this
      omega

/-- A monitor asked with `ShouldPrint` prints at most once each 201 ms, however often it is asked, whatever else is monitored. -/
theorem C124_rate (b stop : Nat) (ops : List MonOp) (h : Ordered stop 0 ops) : 201 * prints b {} ops ≤ stop := by
  have := prints_le b stop ops {} 0 (Nat.le_refl _) h
  simpa using this

theorem refresh_act (s : Mon) (t : Nat) (d : Bool) : (refresh s t d).act = s.act := by cases d <;> rfl

theorem refresh_soon (s : Mon) (t b : Nat) (d : Bool) (h1 : s.act b = false) (h : (refresh s t d).soon b = true) : s.soon b = true := by
  cases d
  · have q : (s.soon b && !s.seen b) = true := h
    exact (Bool.and_eq_true _ _ ▸ q).1
  · have q : s.act b = true := h
    rw [h1] at q; cases q

theorem loop_refresh (s : Mon) (t : Nat) : ∃ d, monLoop s t = refresh s t d := ⟨_, rfl⟩

theorem loop_act (s : Mon) (t : Nat) : (monLoop s t).act = s.act := by
  obtain ⟨d, e⟩ := loop_refresh s t
  rw [e]; exact refresh_act s t d

theorem loop_soon (s : Mon) (t b : Nat) (h1 : s.act b = false) (h : (monLoop s t).soon b = true) : s.soon b = true := by
  obtain ⟨d, e⟩ := loop_refresh s t
  rw [e] at h
  exact refresh_soon s t b d h1 h

theorem should_act (s : Mon) (k : Nat) : (should s k).1.act = s.act := by unfold should; split <;> rfl

theorem multiple_act (s : Mon) (k : Nat) : (shouldMultiple s k).1.act = s.act := by unfold shouldMultiple; split <;> rfl

theorem step_loop (s : Mon) (t : Nat) : monStep s (.loop t) = (monLoop s t, false) := rfl

theorem pair_act (s l : Mon) (b : Nat) (h1 : s.act b = false) (h2 : l.act = s.act) : ∀ m : Mon × Bool, (l, false) = m → m.1.act b = false := by
  intro m e
  subst e
  show l.act b = false
  rw [h2]; exact h1

theorem loop_step (s : Mon) (t b : Nat) (h1 : s.act b = false) : (monStep s (.loop t)).1.act b = false := by
  have h := pair_act s _ b h1 (loop_act s t) _ rfl
  rw [step_loop]
  exact h

theorem step_off (b : Nat) (o : MonOp) (s : Mon) (h1 : s.act b = false) (h2 : ∀ k, o = .toggle k → k ≠ b) : (monStep s o).1.act b = false := by
  cases o with
  | loop t => exact loop_step s t b h1
  | should k => show (should s k).1.act b = false; rw [should_act]; exact h1
  | multiple k => show (shouldMultiple s k).1.act b = false; rw [multiple_act]; exact h1
  | toggle k =>
    have : (b == k) = false := by simp; exact fun q => h2 k rfl q.symm
    show xor (s.act b) (b == k) = false
    rw [h1, this]; rfl

/-- A monitor switched off prints at most once more. -/
theorem C124_off (b : Nat) (ops : List MonOp) (s : Mon) (h1 : s.act b = false) (h2 : ∀ o ∈ ops, ∀ k, o = .toggle k → k ≠ b) :
    prints b s ops ≤ (if s.soon b then 1 else 0) := by
  induction ops generalizing s with
  | nil => simp [prints]
  | cons o r ih =>
    have h1' := step_off b o s h1 (h2 o (by simp))
    have ih := ih (monStep s o).1 h1' (fun p hp => h2 p (by simp [hp]))
    cases o with
    | loop t =>
      have e : (monStep s (.loop t)).1 = monLoop s t := rfl
      rw [e] at ih
      have h3 := ite_mono ((monLoop s t).soon b) (s.soon b) 1 (loop_soon s t b h1)
      unfold prints
      rw [e]
      simp only
      omega
    | should k =>
      show (if k = b ∧ (should s k).2 = true then 1 else 0) + prints b (should s k).1 r ≤ _
      have ih : prints b (should s k).1 r ≤ (if (should s k).1.soon b then 1 else 0) := ih
      by_cases hkb : k = b
      · subst hkb
        cases hk : s.soon k with
        | true =>
          obtain ⟨y1, y2⟩ := should_yes s k hk
          rw [y2] at ih
          rw [if_pos ⟨rfl, y1⟩]
          simp at ih ⊢
          omega
        | false =>
          have y := should_no s k hk
          rw [y] at ih ⊢
          rw [if_neg (by simp)]
          simp only [hk] at ih
          simpa using ih
      · rw [should_other s b k hkb] at ih
        rw [if_neg (fun q => hkb q.1)]
        omega
    | multiple k =>
      have e2 : (shouldMultiple s k).1.soon = s.soon := by unfold shouldMultiple; split <;> rfl
      show 0 + prints b (shouldMultiple s k).1 r ≤ _
      have ih : prints b (shouldMultiple s k).1 r ≤ (if (shouldMultiple s k).1.soon b then 1 else 0) := ih
      rw [e2] at ih; omega
    | toggle k =>
      show 0 + prints b (toggle s k) r ≤ _
      have ih : prints b (toggle s k) r ≤ (if s.soon b then 1 else 0) := ih
      omega

/-- No call of `Loop` and no `ShouldPrint` of the same monitor. -/
def Quiet (b : Nat) (ops : List MonOp) : Prop := ∀ o ∈ ops, (∀ t, o ≠ .loop t) ∧ o ≠ .should b

theorem quiet_soon (b : Nat) (ops : List MonOp) (s : Mon) (h : Quiet b ops) : (monRun s ops).soon b = s.soon b := by
  induction ops generalizing s with
  | nil => rfl
  | cons o r ih =>
    have h1 := h o (by simp)
    have := ih (monStep s o).1 (fun p hp => h p (by simp [hp]))
    show (monRun (monStep s o).1 r).soon b = _
    rw [this]
    cases o with
    | loop t => exact absurd rfl (h1.1 t)
    | should k =>
      have hk : (b != k) = true := by simp; exact fun q => h1.2 (by rw [q])
      show (should s k).1.soon b = _
      unfold should
      split
      · show (s.soon b && b != k) = _; rw [hk, Bool.and_true]
      · rfl
    | multiple k => show (shouldMultiple s k).1.soon b = _; unfold shouldMultiple; split <;> rfl
    | toggle k => rfl

theorem quiet_seen (b : Nat) (ops : List MonOp) (s : Mon) (h : Quiet b ops) (hs : s.seen b = true) : (monRun s ops).seen b = true := by
  induction ops generalizing s with
  | nil => exact hs
  | cons o r ih =>
    have h1 := h o (by simp)
    apply ih (monStep s o).1 (fun p hp => h p (by simp [hp]))
    cases o with
    | loop t => exact absurd rfl (h1.1 t)
    | should k => show (should s k).1.seen b = true; unfold should; split <;> exact hs
    | multiple k =>
      show (shouldMultiple s k).1.seen b = true
      unfold shouldMultiple
      split
      · show (s.seen b || b == k) = true; rw [hs]; rfl
      · exact hs
    | toggle k => exact hs

/-- All that ask with `ShouldPrintMultiple` in one round of the main loop get the same answer; and if it is yes, the next `Loop`
before 201 ms are over makes it no. -/
theorem C124_multiple (b : Nat) (ops : List MonOp) (s : Mon) (h : Quiet b ops) :
    (shouldMultiple (monRun (shouldMultiple s b).1 ops) b).2 = (shouldMultiple s b).2 ∧
    ∀ t, (shouldMultiple s b).2 = true → since t (monRun (shouldMultiple s b).1 ops).last ≤ 200 →
      (shouldMultiple (monLoop (monRun (shouldMultiple s b).1 ops) t) b).2 = false := by
  have e2 : (shouldMultiple s b).1.soon = s.soon := by unfold shouldMultiple; split <;> rfl
  have hs := quiet_soon b ops (shouldMultiple s b).1 h
  rw [e2] at hs
  constructor
  · unfold shouldMultiple at hs ⊢
    split <;> rename_i hq <;> split <;> rename_i hq2 <;> simp_all
  · intro t hy ht
    have hseen : (shouldMultiple s b).1.seen b = true := by
      unfold shouldMultiple at hy ⊢
      split
      · show (s.seen b || b == b) = true; simp
      · rename_i hq; rw [if_neg hq] at hy; cases hy
    have := quiet_seen b ops _ h hseen
    generalize monRun (shouldMultiple s b).1 ops = x at this ht
    unfold monLoop
    rw [decide_eq_false (by omega)]
    unfold shouldMultiple refresh
    simp [this]

/-- An active monitor is due at each `Loop` more than 200 ms after the last time. -/
theorem C124_due (s : Mon) (b t : Nat) (ha : s.act b = true) (h1 : s.last + 200 < t) (h2 : t < s.last + 4294967296) :
    (should (monLoop s t) b).2 = true ∧ (shouldMultiple (monLoop s t) b).2 = true := by
  have := since_real t s.last (by omega) h2
  unfold monLoop
  rw [decide_eq_true (by omega)]
  unfold should shouldMultiple refresh
  simp [ha]

example : Ordered 1000 0 [.toggle 3, .loop 300, .should 3, .should 3, .loop 400, .should 3, .loop 501, .should 3] := by simp [Ordered]
example : prints 3 {} [.toggle 3, .loop 300, .should 3, .should 3, .loop 400, .should 3, .loop 501, .should 3] = 2 := by decide +kernel

/-! ## The clock -/

/-- The reads of `ClockControl::Loop()`, common/clock_control.h:10-29: the activity found at `t0`, if any, is stored; interrupts may
call `AvoidSleep` at any time: `seen` are the times of those before `last_activity_` is read; then the clock is read at `now`.
The result is whether the processor is slowed down. -/
def slow (last : Nat) (found : Bool) (t0 : Nat) (seen : List Nat) (now : Nat) : Bool :=
  decide (30000 < since now (seen.foldl (fun _ t => t) (if found then t0 else last)))

/-- The processor is slowed down only if nothing happened for 30 seconds: no activity found, and no interrupt noted, whenever it
came. -/
theorem C124_clock (last : Nat) (found : Bool) (t0 : Nat) (seen : List Nat) (now : Nat) (h : slow last found t0 seen now = true)
    (hl : last ≤ now) (h0 : t0 ≤ now) (hs : ∀ t ∈ seen, t ≤ now) (ho : seen.Pairwise (· ≤ ·)) (hs0 : ∀ t ∈ seen, last ≤ t ∧ (found = true → t0 ≤ t)) (hlt : last ≤ t0) :
    last + 30000 < now ∧ (found = true → t0 + 30000 < now) ∧ ∀ t ∈ seen, t + 30000 < now := by
  unfold slow at h
  rw [decide_eq_true_iff] at h
  have key : ∀ (l : List Nat) (a : Nat), l.Pairwise (· ≤ ·) → (∀ t ∈ l, a ≤ t) → (a ≤ now) → (∀ t ∈ l, t ≤ now) →
      a ≤ l.foldl (fun _ t => t) a ∧ (∀ t ∈ l, t ≤ l.foldl (fun _ t => t) a) ∧ l.foldl (fun _ t => t) a ≤ now := by
    intro l
    induction l with
    | nil => intro a _ _ h _; exact ⟨Nat.le_refl _, by simp, h⟩
    | cons x r ih =>
      intro a hp ha han hn
      rw [List.pairwise_cons] at hp
      obtain ⟨q1, q2, q3⟩ := ih x hp.2 hp.1 (hn x (by simp)) (fun t ht => hn t (by simp [ht]))
      rw [List.foldl_cons]
      refine ⟨Nat.le_trans (ha x (by simp)) q1, ?_, q3⟩
      intro t ht
      rcases List.mem_cons.1 ht with e | e
      · rw [e]; exact q1
      · exact q2 t e
  have hle : (if found = true then t0 else last) ≤ now := by split <;> assumption
  have hin : ∀ t ∈ seen, (if found = true then t0 else last) ≤ t := by
    intro t ht
    split
    · rename_i hf; exact (hs0 t ht).2 hf
    · exact (hs0 t ht).1
  obtain ⟨k1, k2, k3⟩ := key seen _ ho hin hle hs
  have := since_le now _ k3
  have hge : last ≤ (if found = true then t0 else last) := by split <;> omega
  refine ⟨by omega, ?_, ?_⟩
  · intro hf
    have e : (if found = true then t0 else last) = t0 := if_pos hf
    omega
  · intro t ht; have := k2 t ht; omega

/-- Were the clock read before the time of the last activity, an interrupt in between would slow it down at once. -/
example : decide (30000 < since 1000 1001) = true := by decide +kernel
/-- An interrupt after the read is not seen: the processor is slowed down a moment after activity. -/
theorem C124_race_counterexample : slow 0 false 40000 [] 40000 = true ∧ slow 0 false 40000 [40000] 40000 = false := by constructor <;> decide +kernel

end Verif.Common.House
