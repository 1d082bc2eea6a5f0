import Verif.Blade.Ring
/-!
# C54, C70: activation of sub-blades, and one frame of them
-/
set_option linter.unusedSimpArgs false
set_option linter.unusedVariables false
namespace Verif.Blade

/-- the physical blade must be activated while inactive and deactivated while active; `none` on a violation -/
def track : Option Bool → List Bool → Option Bool
  | st, [] => st
  | some false, true :: l => track (some true) l
  | some true, false :: l => track (some false) l
  | _, _ :: _ => none

/-- the activations and deactivations of the physical blade by the sub-blades in `c` -/
def events (c : List Nat) (log : List (Nat × Bool)) : List Bool := (log.filter fun e => c.contains e.1).map (·.2)

theorem track_none : ∀ l, track none l = none
  | [] => rfl
  | x :: l => by simp [track]

theorem track_append : ∀ (l l' : List Bool) (st : Option Bool), track st (l ++ l') = track (track st l) l'
  | [], l', st => rfl
  | x :: l, l', none => by simp [track, track_none]
  | true :: l, l', some true => by simp [track, track_none]
  | true :: l, l', some false => by simp only [List.cons_append, track]; exact track_append l l' _
  | false :: l, l', some true => by simp only [List.cons_append, track]; exact track_append l l' _
  | false :: l, l', some false => by simp [track, track_none]

structure Inv (s : St) (cuts : List (List Nat)) : Prop where
  nodup : cuts.flatten.Nodup
  all : ∀ i, i < s.count ↔ i ∈ cuts.flatten
  len : ∀ c ∈ cuts, c.length ≤ s.count
  rings : ∀ c ∈ cuts, ∃ r, r.Perm c ∧ Ring s.next r
  cur : ∀ f, s.first = some f → ∃ rest c cs, cuts = c :: cs ∧ (f :: rest).Perm c ∧ Ring s.next (f :: rest) ∧ s.next f = s.last
  nocur : s.first = none → cuts.headD [] = []
  phys : ∀ c ∈ cuts, ∀ i ∈ c, ∀ j ∈ c, s.blade i = s.blade j
  logged : ∀ e ∈ s.log, e.1 < s.count
  state : ∀ c ∈ cuts, track (some false) (events c s.log) = some (c.any s.active)

theorem mem_cut {s : St} {cuts : List (List Nat)} (h : Inv s cuts) {c : List Nat} (hc : c ∈ cuts) {i : Nat} (hi : i ∈ c) : i < s.count :=
  (h.all i).2 (List.mem_flatten.2 ⟨c, hc, hi⟩)

/-- from any sub-blade the loops meet every sub-blade of its cut, each once -/
theorem visit_cut {s : St} {cuts : List (List Nat)} (h : Inv s cuts) {c : List Nat} (hc : c ∈ cuts) {k : Nat} (hk : k ∈ c) :
    ∃ r, s.visit k = some r ∧ r.Perm c := by
  obtain ⟨r, hr, hring⟩ := h.rings c hc
  obtain ⟨w, hw, hp⟩ := walk_ring (f := s.count) hring (hr.mem_iff.2 hk) (by rw [hr.length_eq]; exact h.len c hc)
  exact ⟨w, hw, hp.trans hr⟩

theorem upd_ne {α : Type} {f : Nat → α} {k i : Nat} {v : α} (h : i ≠ k) : upd f k v i = f i := by unfold upd; rw [if_neg h]
theorem upd_eq {α : Type} {f : Nat → α} {k : Nat} {v : α} : upd f k v k = v := by unfold upd; rw [if_pos rfl]

/-- an element belongs to only one cut -/
theorem other_cut {cuts : List (List Nat)} (hn : cuts.flatten.Nodup) {c d : List Nat} (hc : c ∈ cuts) (hd : d ∈ cuts) {k : Nat} (hk : k ∈ c) (hk' : k ∈ d) : c = d := by
  induction cuts with
  | nil => cases hc
  | cons x l ih =>
    rw [List.flatten_cons, List.nodup_append] at hn
    rcases List.mem_cons.1 hc with e | hc'
    · rcases List.mem_cons.1 hd with e' | hd'
      · rw [e, e']
      · exact absurd rfl (hn.2.2 k (e ▸ hk) k (List.mem_flatten.2 ⟨d, hd', hk'⟩))
    · rcases List.mem_cons.1 hd with e' | hd'
      · exact absurd rfl (hn.2.2 k (e' ▸ hk') k (List.mem_flatten.2 ⟨c, hc', hk⟩))
      · exact ih hn.2.1 hc' hd'

theorem any_congr {l : List Nat} {f g : Nat → Bool} (h : ∀ i ∈ l, f i = g i) : l.any f = l.any g := by
  rw [Bool.eq_iff_iff, List.any_eq_true, List.any_eq_true]
  exact ⟨fun ⟨x, hx, e⟩ => ⟨x, hx, by rw [← h x hx]; exact e⟩, fun ⟨x, hx, e⟩ => ⟨x, hx, by rw [h x hx]; exact e⟩⟩

theorem any_perm {l l' : List Nat} {f : Nat → Bool} (h : l.Perm l') : l.any f = l'.any f := by
  rw [Bool.eq_iff_iff, List.any_eq_true, List.any_eq_true]
  exact ⟨fun ⟨x, hx, e⟩ => ⟨x, h.mem_iff.1 hx, e⟩, fun ⟨x, hx, e⟩ => ⟨x, h.mem_iff.2 hx, e⟩⟩

/-- a log entry of a sub-blade concerns its own cut only -/
theorem events_snoc {c : List Nat} {log : List (Nat × Bool)} {k : Nat} {v : Bool} : events c (log ++ [(k, v)]) = events c log ++ (if k ∈ c then [v] else []) := by
  unfold events
  rw [List.filter_append, List.map_append]
  congr 1
  by_cases h : k ∈ c <;> simp [List.filter, h]

theorem inv_activate {s s' : St} {cuts : List (List Nat)} {k : Nat} (h : Inv s cuts) (hk : k < s.count) (e : activate s k = some s') : Inv s' cuts := by
  obtain ⟨c, hc, hkc⟩ := List.mem_flatten.1 ((h.all k).1 hk)
  obtain ⟨r, hr, hp⟩ := visit_cut h hc hkc
  unfold activate at e
  cases ha : s.active k with
  | true => rw [ha, if_pos rfl] at e; cases e; exact h
  | false =>
    rw [ha, if_neg (by simp), hr] at e
    simp only [Option.map_some, Option.some.injEq] at e
    have hst : ∀ d ∈ cuts, track (some false) (events d s'.log) = some (d.any s'.active) := by
      intro d hd
      rw [← e]
      show track (some false) (events d (if r.any s.active = true then s.log else s.log ++ [(k, true)])) = some (d.any (upd s.active k true))
      by_cases hkd : k ∈ d
      · have hcd := other_cut h.nodup hc hd hkc hkd
        subst hcd
        have h1 : c.any (upd s.active k true) = true := List.any_eq_true.2 ⟨k, hkc, upd_eq⟩
        rw [h1, any_perm hp]
        by_cases hany : c.any s.active = true
        · rw [if_pos hany, h.state c hc, hany]
        · rw [if_neg hany, events_snoc, if_pos hkc, track_append, h.state c hc]
          rw [Bool.not_eq_true] at hany
          rw [hany]
          rfl
      · have h1 : d.any (upd s.active k true) = d.any s.active := any_congr fun i hi => upd_ne fun e => hkd (e ▸ hi)
        rw [h1]
        split
        · exact h.state d hd
        · rw [events_snoc, if_neg hkd, List.append_nil]; exact h.state d hd
    have hlog : ∀ x ∈ s'.log, x.1 < s'.count := by
      rw [← e]
      show ∀ x ∈ (if r.any s.active = true then s.log else s.log ++ [(k, true)]), x.1 < s.count
      split
      · exact h.logged
      · intro x hx
        rcases List.mem_append.1 hx with hx | hx
        · exact h.logged x hx
        · simp at hx; rw [hx]; exact hk
    rw [← e]
    rw [← e] at hst hlog
    exact ⟨h.nodup, h.all, h.len, h.rings, h.cur, h.nocur, h.phys, hlog, hst⟩

theorem inv_deactivate {s s' : St} {cuts : List (List Nat)} {k : Nat} (h : Inv s cuts) (hk : k < s.count) (e : deactivate s k = some s') : Inv s' cuts := by
  obtain ⟨c, hc, hkc⟩ := List.mem_flatten.1 ((h.all k).1 hk)
  obtain ⟨r, hr, hp⟩ := visit_cut h hc hkc
  unfold deactivate at e
  cases ha : s.active k with
  | false => rw [ha, if_neg (by simp)] at e; cases e; exact h
  | true =>
    rw [ha, if_pos rfl] at e
    simp only at e
    rw [show ({ s with active := upd s.active k false } : St).visit k = s.visit k from rfl, hr] at e
    simp only [Option.map_some, Option.some.injEq] at e
    have hst : ∀ d ∈ cuts, track (some false) (events d s'.log) = some (d.any s'.active) := by
      intro d hd
      rw [← e]
      show track (some false) (events d (if r.any (upd s.active k false) = true then s.log else s.log ++ [(k, false)])) = some (d.any (upd s.active k false))
      by_cases hkd : k ∈ d
      · have hcd := other_cut h.nodup hc hd hkc hkd
        subst hcd
        have h1 : c.any s.active = true := List.any_eq_true.2 ⟨k, hkc, ha⟩
        rw [any_perm hp]
        by_cases hany : c.any (upd s.active k false) = true
        · rw [if_pos hany, h.state c hc, hany, h1]
        · rw [if_neg hany, events_snoc, if_pos hkc, track_append, h.state c hc, h1]
          rw [Bool.not_eq_true] at hany
          rw [hany]
          rfl
      · have h1 : d.any (upd s.active k false) = d.any s.active := any_congr fun i hi => upd_ne fun e => hkd (e ▸ hi)
        rw [h1]
        split
        · exact h.state d hd
        · rw [events_snoc, if_neg hkd, List.append_nil]; exact h.state d hd
    have hlog : ∀ x ∈ s'.log, x.1 < s'.count := by
      rw [← e]
      show ∀ x ∈ (if r.any (upd s.active k false) = true then s.log else s.log ++ [(k, false)]), x.1 < s.count
      split
      · exact h.logged
      · intro x hx
        rcases List.mem_append.1 hx with hx | hx
        · exact h.logged x hx
        · simp at hx; rw [hx]; exact hk
    rw [← e]
    rw [← e] at hst hlog
    exact ⟨h.nodup, h.all, h.len, h.rings, h.cur, h.nocur, h.phys, hlog, hst⟩

/-- the log is about sub-blades made before -/
theorem events_new {s : St} {cuts : List (List Nat)} (h : Inv s cuts) (c : List Nat) : events (s.count :: c) s.log = events c s.log := by
  unfold events
  congr 1
  apply List.filter_congr
  intro e he
  have := h.logged e he
  have hne : e.1 ≠ s.count := by omega
  simp [List.contains_cons, hne]

/-- the fields of the new sub-blade -/
def fresh (s : St) (k : Kind) (a b : Int) (p : Nat) : St :=
  { s with count := s.count + 1, blade := upd s.blade s.count p, kind := upd s.kind s.count k, offset := upd s.offset s.count (setup k a b).1,
           num := upd s.num s.count (setup k a b).2, active := upd s.active s.count false, styled := upd s.styled s.count false }

theorem any_fresh {s : St} {cuts : List (List Nat)} (h : Inv s cuts) {c : List Nat} (hc : c ∈ cuts) : c.any (upd s.active s.count false) = c.any s.active :=
  any_congr fun i hi => upd_ne (by have := mem_cut h hc hi; omega)

theorem blade_fresh {s : St} {cuts : List (List Nat)} (h : Inv s cuts) {c : List Nat} (hc : c ∈ cuts) {i : Nat} (hi : i ∈ c) (p : Nat) : upd s.blade s.count p i = s.blade i :=
  upd_ne (by have := mem_cut h hc hi; omega)

theorem inv_nil {s : St} {cuts : List (List Nat)} (h : Inv s cuts) : Inv { s with first := none } ([] :: cuts) where
  nodup := by simpa using h.nodup
  all := fun i => by simpa using h.all i
  len := fun c hc => by
    rcases List.mem_cons.1 hc with e | hc
    · subst e; exact Nat.zero_le _
    · exact h.len c hc
  rings := fun c hc => by
    rcases List.mem_cons.1 hc with e | hc
    · subst e; exact ⟨[], List.Perm.refl _, List.nodup_nil, fun a r e => by cases e⟩
    · exact h.rings c hc
  cur := fun f e => by cases e
  nocur := fun _ => rfl
  phys := fun c hc => by
    rcases List.mem_cons.1 hc with e | hc
    · subst e; intro i hi; cases hi
    · exact h.phys c hc
  logged := h.logged
  state := fun c hc => by
    rcases List.mem_cons.1 hc with e | hc
    · subst e
      have : events [] s.log = [] := by unfold events; rw [List.filter_eq_nil_iff.2 (by simp)]; rfl
      show track (some false) (events [] s.log) = _
      rw [this]; rfl
    · exact h.state c hc

theorem inv_first {s : St} {cuts : List (List Nat)} (h : Inv s cuts) (k : Kind) (a b : Int) (p : Nat) :
    Inv { fresh s k a b p with next := upd s.next s.count s.count, first := some s.count, last := s.count } ([s.count] :: cuts) := by
  have hnot : s.count ∉ cuts.flatten := fun hm => by have := (h.all _).2 hm; omega
  have hring : Ring (upd s.next s.count s.count) [s.count] := ⟨by simp, fun a r e => by cases e; exact upd_eq⟩
  refine ⟨?_, ?_, ?_, ?_, ?_, ?_, ?_, ?_, ?_⟩
  · show (([s.count] :: cuts).flatten).Nodup
    simp only [List.flatten_cons, List.singleton_append, List.nodup_cons]
    exact ⟨hnot, h.nodup⟩
  · intro i
    show i < s.count + 1 ↔ _
    simp only [List.flatten_cons, List.singleton_append, List.mem_cons]
    rw [← h.all]; omega
  · intro c hc
    show c.length ≤ s.count + 1
    rcases List.mem_cons.1 hc with e | hc
    · subst e; simp
    · have := h.len c hc; omega
  · intro c hc
    rcases List.mem_cons.1 hc with e | hc
    · subst e; exact ⟨[s.count], List.Perm.refl _, hring⟩
    · obtain ⟨r, hr, hg⟩ := h.rings c hc
      exact ⟨r, hr, ring_congr (fun x hx => upd_ne (by have := mem_cut h hc (hr.mem_iff.1 hx); omega)) hg⟩
  · intro f e
    cases e
    exact ⟨[], [s.count], cuts, rfl, List.Perm.refl _, hring, upd_eq⟩
  · intro e; cases e
  · intro c hc
    rcases List.mem_cons.1 hc with e | hc
    · subst e; intro i hi j hj; simp at hi hj; rw [hi, hj]
    · intro i hi j hj
      show upd s.blade s.count p i = upd s.blade s.count p j
      rw [blade_fresh h hc hi, blade_fresh h hc hj]; exact h.phys c hc i hi j hj
  · intro e he
    have := h.logged e he
    show e.1 < s.count + 1
    omega
  · intro c hc
    show track (some false) (events c s.log) = some (c.any (upd s.active s.count false))
    rcases List.mem_cons.1 hc with e | hc
    · subst e
      rw [events_new h]
      have : events [] s.log = [] := by unfold events; rw [List.filter_eq_nil_iff.2 (by simp)]; rfl
      rw [this]
      simp [track, upd_eq]
    · rw [any_fresh h hc]; exact h.state c hc

theorem inv_join {s : St} {cuts : List (List Nat)} (h : Inv s cuts) {f : Nat} (hf : s.first = some f) (k : Kind) (a b : Int) :
    Inv { fresh s k a b (s.blade f) with next := upd (upd s.next s.count s.last) f s.count, last := s.count } ((s.count :: cuts.headD []) :: cuts.tail) := by
  obtain ⟨rest, c0, cs, rfl, hperm, hring, hlast⟩ := h.cur f hf
  simp only [List.headD_cons, List.tail_cons]
  have hc0 : c0 ∈ c0 :: cs := List.mem_cons_self
  have hmem : ∀ x ∈ f :: rest, x < s.count := fun x hx => mem_cut h hc0 (hperm.mem_iff.1 hx)
  have hfc := hmem f List.mem_cons_self
  have hfm : f ∈ c0 := hperm.mem_iff.1 List.mem_cons_self
  have hnot : s.count ∉ (c0 :: cs).flatten := fun hm => by have := (h.all _).2 hm; omega
  have hring' : Ring (upd (upd s.next s.count s.last) f s.count) (f :: s.count :: rest) := by
    have hnd := hring.1
    refine ⟨?_, ?_⟩
    · rw [List.nodup_cons] at hnd ⊢
      refine ⟨?_, ?_⟩
      · intro hm
        rcases List.mem_cons.1 hm with e | hm
        · omega
        · exact hnd.1 hm
      · rw [List.nodup_cons]
        exact ⟨fun hm => by have := hmem _ (List.mem_cons_of_mem _ hm); omega, hnd.2⟩
    · intro x r e
      cases e
      have hch := hring.2 f rest rfl
      refine ⟨upd_eq, ?_⟩
      have e1 : upd (upd s.next s.count s.last) f s.count s.count = s.last := by rw [upd_ne (by omega), upd_eq]
      cases rest with
      | nil =>
        show upd (upd s.next s.count s.last) f s.count s.count = f
        rw [e1, ← hlast]; exact hch
      | cons y rest =>
        refine ⟨by rw [e1, ← hlast]; exact hch.1, chain_congr (fun x hx => ?_) hch.2⟩
        have := hmem x (List.mem_cons_of_mem _ hx)
        rw [upd_ne, upd_ne (by omega)]
        intro e; subst e
        exact (List.nodup_cons.1 hnd).1 hx
  have hperm' : (f :: s.count :: rest).Perm (s.count :: c0) := (List.Perm.swap s.count f rest).trans (List.Perm.cons _ hperm)
  have hold : ∀ c ∈ cs, ∀ x ∈ c, x ≠ f := by
    intro c hc x hx e
    subst e
    have hn := h.nodup
    rw [List.flatten_cons, List.nodup_append] at hn
    exact hn.2.2 x hfm x (List.mem_flatten.2 ⟨c, hc, hx⟩) rfl
  refine ⟨?_, ?_, ?_, ?_, ?_, ?_, ?_, ?_, ?_⟩
  · have hn := h.nodup
    simp only [List.flatten_cons, List.cons_append, List.nodup_cons] at hn hnot ⊢
    exact ⟨hnot, hn⟩
  · intro i
    show i < s.count + 1 ↔ _
    have := h.all i
    simp only [List.flatten_cons, List.cons_append, List.mem_cons] at this ⊢
    rw [← this]; omega
  · intro c hc
    show c.length ≤ s.count + 1
    rcases List.mem_cons.1 hc with e | hc
    · have := h.len c0 hc0; subst e; simpa using this
    · have := h.len c (List.mem_cons_of_mem _ hc); omega
  · intro c hc
    rcases List.mem_cons.1 hc with e | hc
    · subst e; exact ⟨_, hperm', hring'⟩
    · obtain ⟨r, hr, hg⟩ := h.rings c (List.mem_cons_of_mem _ hc)
      refine ⟨r, hr, ring_congr (fun x hx => ?_) hg⟩
      have hxc := hr.mem_iff.1 hx
      have := mem_cut h (List.mem_cons_of_mem _ hc) hxc
      show upd (upd s.next s.count s.last) f s.count x = _
      rw [upd_ne (hold c hc x hxc), upd_ne (by omega)]
  · intro g e
    have e' : s.first = some g := e
    rw [hf] at e'
    cases e'
    exact ⟨s.count :: rest, _, _, rfl, hperm', hring', upd_eq⟩
  · intro e
    have e' : s.first = none := e
    rw [hf] at e'; cases e'
  · intro c hc
    show ∀ i ∈ c, ∀ j ∈ c, upd s.blade s.count (s.blade f) i = upd s.blade s.count (s.blade f) j
    rcases List.mem_cons.1 hc with e | hc
    · subst e
      have key : ∀ i ∈ s.count :: c0, upd s.blade s.count (s.blade f) i = s.blade f := by
        intro i hi
        rcases List.mem_cons.1 hi with e | hi
        · rw [e, upd_eq]
        · rw [blade_fresh h hc0 hi]; exact h.phys c0 hc0 i hi f hfm
      intro i hi j hj
      rw [key i hi, key j hj]
    · intro i hi j hj
      have hc' := List.mem_cons_of_mem c0 hc
      rw [blade_fresh h hc' hi, blade_fresh h hc' hj]; exact h.phys c hc' i hi j hj
  · intro e he
    have := h.logged e he
    show e.1 < s.count + 1
    omega
  · intro c hc
    show track (some false) (events c s.log) = some (c.any (upd s.active s.count false))
    rcases List.mem_cons.1 hc with e | hc
    · subst e
      rw [events_new h, List.any_cons, upd_eq, Bool.false_or, any_fresh h hc0]; exact h.state c0 hc0
    · have hc' := List.mem_cons_of_mem c0 hc
      rw [any_fresh h hc']; exact h.state c hc'

theorem inv_make {leds : Nat → Int} {s : St} {cuts : List (List Nat)} (h : Inv s cuts) (k : Kind) (a b : Int) (bl : Option Nat) :
    Inv (make leds s k a b bl).1 (cutStep cuts bl (make leds s k a b bl).2) := by
  cases bl with
  | some p =>
    by_cases hl : leds p ≤ b
    · have e : make leds s k a b (some p) = ({ s with first := none }, none) := by
        simp [make, hl]
      rw [e]; exact inv_nil h
    · have e : make leds s k a b (some p) = ({ fresh s k a b p with next := upd s.next s.count s.count, first := some s.count, last := s.count }, some s.count) := by
        simp [make, hl, fresh]
      rw [e]; exact inv_first h k a b p
  | none =>
    cases hf : s.first with
    | none =>
      have e : make leds s k a b none = (s, none) := by simp [make, hf]
      rw [e]; exact h
    | some f =>
      by_cases hl : leds (s.blade f) ≤ b
      · have e : make leds s k a b none = (s, none) := by simp [make, hf, hl]
        rw [e]; exact h
      · have e : make leds s k a b none = ({ fresh s k a b (s.blade f) with next := upd (upd s.next s.count s.last) f s.count, last := s.count }, some s.count) := by
          simp [make, hf, hl, fresh]
        rw [e]; exact inv_join h hf k a b

theorem inv_of_fields {s s' : St} {cuts : List (List Nat)} (h : Inv s cuts) (h1 : s'.next = s.next) (h2 : s'.blade = s.blade) (h3 : s'.active = s.active)
    (h4 : s'.count = s.count) (h5 : s'.first = s.first) (h6 : s'.last = s.last) (h7 : s'.log = s.log) : Inv s' cuts := by
  refine ⟨h.nodup, ?_, ?_, ?_, ?_, ?_, ?_, ?_, ?_⟩
  · rw [h4]; exact h.all
  · rw [h4]; exact h.len
  · rw [h1]; exact h.rings
  · rw [h1, h5, h6]; exact h.cur
  · rw [h5]; exact h.nocur
  · rw [h2]; exact h.phys
  · rw [h7, h4]; exact h.logged
  · rw [h7, h3]; exact h.state

theorem setStyle_fields (s : St) (k : Nat) : (setStyle s k).next = s.next ∧ (setStyle s k).blade = s.blade ∧ (setStyle s k).active = s.active ∧
    (setStyle s k).count = s.count ∧ (setStyle s k).first = s.first ∧ (setStyle s k).last = s.last ∧ (setStyle s k).log = s.log := by
  unfold setStyle
  simp only
  split <;> simp

theorem unsetStyle_fields (s : St) (k : Nat) : (unsetStyle s k).next = s.next ∧ (unsetStyle s k).blade = s.blade ∧ (unsetStyle s k).active = s.active ∧
    (unsetStyle s k).count = s.count ∧ (unsetStyle s k).first = s.first ∧ (unsetStyle s k).last = s.last ∧ (unsetStyle s k).log = s.log := by
  unfold unsetStyle
  simp only
  split <;> simp

theorem reach_inv {leds : Nat → Int} {s : St} {cuts : List (List Nat)} (h : Reach leds s cuts) : Inv s cuts := by
  induction h with
  | init => exact ⟨by simp, fun i => by simp [St.init], by simp, by simp, by simp [St.init], by simp, by simp, by simp [St.init], by simp⟩
  | make k a b bl _ ih => exact inv_make ih k a b bl
  | activate k _ hk e ih => exact inv_activate ih hk e
  | deactivate k _ hk e ih => exact inv_deactivate ih hk e
  | setStyle k _ hk ih =>
    obtain ⟨h1, h2, h3, h4, h5, h6, h7⟩ := setStyle_fields _ k
    exact inv_of_fields ih h1 h2 h3 h4 h5 h6 h7
  | unsetStyle k _ hk ih =>
    obtain ⟨h1, h2, h3, h4, h5, h6, h7⟩ := unsetStyle_fields _ k
    exact inv_of_fields ih h1 h2 h3 h4 h5 h6 h7

/-! ## Theorems -/

/-- After any history, the physical blade was activated and deactivated by the sub-blades of a cut in turn, beginning with an activation, and
is active just when one of them is. -/
theorem C54_active {leds : Nat → Int} {s : St} {cuts : List (List Nat)} (h : Reach leds s cuts) {c : List Nat} (hc : c ∈ cuts) :
    track (some false) (events c s.log) = some true ↔ ∃ k ∈ c, s.active k = true := by
  rw [(reach_inv h).state c hc, Option.some.injEq, List.any_eq_true]

theorem C54_inactive {leds : Nat → Int} {s : St} {cuts : List (List Nat)} (h : Reach leds s cuts) {c : List Nat} (hc : c ∈ cuts) :
    track (some false) (events c s.log) = some false ↔ ∀ k ∈ c, s.active k = false := by
  rw [(reach_inv h).state c hc, Option.some.injEq, List.any_eq_false]
  simp

/-- No operation hangs: every activation and deactivation of an existing sub-blade ends, and the sub-blade is then active or not as asked. -/
theorem C54_ends {leds : Nat → Int} {s : St} {cuts : List (List Nat)} (h : Reach leds s cuts) {k : Nat} (hk : k < s.count) :
    (∃ s', activate s k = some s' ∧ s'.active k = true ∧ ∀ i, i ≠ k → s'.active i = s.active i) ∧
    (∃ s', deactivate s k = some s' ∧ s'.active k = false ∧ ∀ i, i ≠ k → s'.active i = s.active i) := by
  have hi := reach_inv h
  obtain ⟨c, hc, hkc⟩ := List.mem_flatten.1 ((hi.all k).1 hk)
  obtain ⟨r, hr, hp⟩ := visit_cut hi hc hkc
  constructor
  · unfold activate
    cases ha : s.active k with
    | true => exact ⟨s, by simp, ha, fun _ _ => rfl⟩
    | false =>
      rw [if_neg (by simp), hr]
      exact ⟨_, rfl, upd_eq, fun i hi => upd_ne hi⟩
  · unfold deactivate
    cases ha : s.active k with
    | false => exact ⟨s, by simp, ha, fun _ _ => rfl⟩
    | true =>
      rw [if_pos rfl]
      simp only
      rw [show ({ s with active := upd s.active k false } : St).visit k = s.visit k from rfl, hr]
      exact ⟨_, rfl, upd_eq, fun i hi => upd_ne hi⟩

/-- One frame of a physical blade whose style is a sub-blade of the cut `c`: the style of every sub-blade of the cut that has one runs exactly
once and no other does; the blade may be switched off only if every sub-blade has a style and all of them allow it. -/
theorem C70_frame {leds : Nat → Int} {s : St} {cuts : List (List Nat)} (h : Reach leds s cuts) {c : List Nat} (hc : c ∈ cuts) {k p : Nat} (hk : k ∈ c)
    (hb : s.base p = some k) (allow : Nat → Bool) :
    ∃ ran off, frame s allow p = some (ran, off) ∧ ran.Nodup ∧ (∀ i, i ∈ ran ↔ i ∈ c ∧ s.styled i = true) ∧ (off = true ↔ ∀ i ∈ c, s.styled i = true ∧ allow i = true) := by
  have hi := reach_inv h
  obtain ⟨r, hr, hp⟩ := visit_cut hi hc hk
  have hcn : c.Nodup := List.Nodup.sublist (List.sublist_flatten_of_mem hc) hi.nodup
  unfold frame
  rw [hb]
  simp only
  rw [hr]
  refine ⟨_, _, rfl, ?_, ?_, ?_⟩
  · exact List.Nodup.sublist List.filter_sublist (hp.nodup_iff.2 hcn)
  · intro i
    rw [List.mem_filter, hp.mem_iff]
  · rw [List.all_eq_true]
    simp only [Bool.and_eq_true]
    exact ⟨fun hh i hi => hh i (hp.mem_iff.2 hi), fun hh i hi => hh i (hp.mem_iff.1 hi)⟩

theorem setStyles_kind {l : List Nat} : ∀ (s : St), (l.foldl setStyle s).kind = s.kind ∧ (l.foldl setStyle s).offset = s.offset ∧ (l.foldl setStyle s).num = s.num ∧ (l.foldl setStyle s).blade = s.blade := by
  induction l with
  | nil => intro s; simp
  | cons x l ih =>
    intro s
    rw [List.foldl_cons]
    have := ih (setStyle s x)
    rw [this.1, this.2.1, this.2.2.1, this.2.2.2]
    unfold setStyle
    simp only
    split <;> simp

theorem setStyle_prim (s : St) (x k : Nat) : (setStyle s x).isPrimary k = s.isPrimary k := by
  have := setStyles_kind (l := [x]) s
  simp only [List.foldl_cons, List.foldl_nil] at this
  unfold St.isPrimary
  rw [this.1, this.2.1, this.2.2.1]

theorem setStyles_base {q : Nat} (l : List Nat) : ∀ (s : St), (∀ k ∈ l, s.isPrimary k = true → k = q) →
    (l.foldl setStyle s).base (s.blade q) = (if q ∈ l ∧ s.isPrimary q = true then some q else s.base (s.blade q)) := by
  induction l with
  | nil => intro s _; simp
  | cons x l ih =>
    intro s hq
    rw [List.foldl_cons]
    have hb : (setStyle s x).blade = s.blade := (setStyle_fields s x).2.1
    have h1 := ih (setStyle s x) (fun k hk e => hq k (List.mem_cons_of_mem _ hk) (by rw [setStyle_prim] at e; exact e))
    rw [hb, setStyle_prim] at h1
    rw [h1]
    by_cases hxq : s.isPrimary x = true
    · have := hq x List.mem_cons_self hxq
      subst this
      have hbase : (setStyle s x).base (s.blade x) = some x := by
        unfold setStyle
        simp only
        rw [if_pos (by exact hxq)]
        exact upd_eq
      rw [hbase]
      simp [hxq]
    · have hbase : (setStyle s x).base (s.blade q) = s.base (s.blade q) := by
        unfold setStyle
        simp only
        rw [if_neg (by exact hxq)]
      rw [hbase]
      by_cases hql : q ∈ l
      · simp [hql]
      · by_cases hpq : s.isPrimary q = true
        · have : q ≠ x := fun e => hxq (e ▸ hpq)
          simp [hql, this]
        · simp [hpq]

/-- When the sub-blades of a cut get their styles, in whatever order, the physical blade is driven by the primary one. -/
theorem C70_drive {leds : Nat → Int} {s : St} {cuts : List (List Nat)} (h : Reach leds s cuts) {c : List Nat} (hc : c ∈ cuts) {q : Nat} (hq : q ∈ c)
    (hp : s.isPrimary q = true) (huniq : ∀ k ∈ c, s.isPrimary k = true → k = q) (order : List Nat) (ho : order.Perm c) :
    (order.foldl setStyle s).base (s.blade q) = some q ∧ ∀ k ∈ c, s.blade k = s.blade q := by
  rw [setStyles_base order s (fun k hk => huniq k (ho.mem_iff.1 hk)), if_pos ⟨ho.mem_iff.2 hq, hp⟩]
  exact ⟨rfl, fun k hk => (reach_inv h).phys c hc k hk q hq⟩

theorem reach_setStyles {leds : Nat → Int} {cuts : List (List Nat)} : ∀ (l : List Nat) {s : St}, Reach leds s cuts → (∀ k ∈ l, k < s.count) → Reach leds (l.foldl setStyle s) cuts
  | [], s, h, _ => h
  | x :: l, s, h, hl => reach_setStyles l (Reach.setStyle x h (hl x List.mem_cons_self)) (fun k hk => by
      rw [(setStyle_fields s x).2.2.2.1]; exact hl k (List.mem_cons_of_mem _ hk))

theorem setStyle_styled (s : St) (x : Nat) : (setStyle s x).styled = upd s.styled x true := by
  unfold setStyle
  simp only
  split <;> rfl

theorem setStyles_styled : ∀ (l : List Nat) (s : St) (k : Nat), (k ∈ l ∨ s.styled k = true) → (l.foldl setStyle s).styled k = true
  | [], s, k, h => by simpa using h
  | x :: l, s, k, h => by
    rw [List.foldl_cons]
    apply setStyles_styled l
    rw [setStyle_styled]
    rcases h with h | h
    · rcases List.mem_cons.1 h with rfl | h
      · exact Or.inr upd_eq
      · exact Or.inl h
    · right
      by_cases e : k = x
      · rw [e]; exact upd_eq
      · rw [upd_ne e]; exact h

/-- Putting it together: once all sub-blades of a cut have their styles, each frame of the physical blade runs the style of each of them exactly
once, and no other. -/
theorem C70_all {leds : Nat → Int} {s : St} {cuts : List (List Nat)} (h : Reach leds s cuts) {c : List Nat} (hc : c ∈ cuts) {q : Nat} (hq : q ∈ c)
    (hp : s.isPrimary q = true) (huniq : ∀ k ∈ c, s.isPrimary k = true → k = q) (order : List Nat) (ho : order.Perm c) (allow : Nat → Bool) :
    ∃ ran off, frame (order.foldl setStyle s) allow (s.blade q) = some (ran, off) ∧ ran.Perm c ∧ (off = true ↔ ∀ i ∈ c, allow i = true) := by
  have hi := reach_inv h
  have hr : Reach leds (order.foldl setStyle s) cuts := reach_setStyles order h fun k hk => mem_cut hi hc (ho.mem_iff.1 hk)
  obtain ⟨ran, off, e, hn, hm, hoff⟩ := C70_frame hr hc hq (C70_drive h hc hq hp huniq order ho).1 allow
  have hs : ∀ i ∈ c, (order.foldl setStyle s).styled i = true := fun i hi => setStyles_styled order s i (Or.inl (ho.mem_iff.2 hi))
  have hcn : c.Nodup := List.Nodup.sublist (List.sublist_flatten_of_mem hc) hi.nodup
  refine ⟨ran, off, e, ?_, ?_⟩
  · rw [List.perm_ext_iff_of_nodup hn hcn]
    intro i
    rw [hm]
    exact ⟨fun x => x.1, fun x => ⟨x, hs i x⟩⟩
  · rw [hoff]
    exact ⟨fun x i hi => (x i hi).2, fun x i hi => ⟨hs i hi, x i hi⟩⟩

/-! ## A concrete configuration -/

/-- a blade of 144 LEDs cut into a hilt accent, a main part in reverse and a strip; then another blade cut in two -/
def demoLeds : Nat → Int := fun p => if p = 0 then 144 else 20
def demo1 : St := (make demoLeds St.init .plain 0 9 (some 0)).1
def demo2 : St := (make demoLeds demo1 .reverse 10 99 none).1
def demo3 : St := (make demoLeds demo2 (.stride 2) 100 143 none).1
def demo4 : St := (make demoLeds demo3 .plain 0 200 none).1
def demo5 : St := (make demoLeds demo4 (.zz 4 3) 0 19 (some 1)).1
def demo6 : St := (make demoLeds demo5 (.zz 4 2) 0 19 none).1

theorem demo_reach : Reach demoLeds demo6 [[4, 3], [2, 1, 0]] :=
  (((((Reach.init.make .plain 0 9 (some 0)).make .reverse 10 99 none).make (.stride 2) 100 143 none).make .plain 0 200 none).make (.zz 4 3) 0 19 (some 1)).make (.zz 4 2) 0 19 none

example : [2, 1, 0] ∈ [[4, 3], [2, 1, 0]] ∧ demo6.isPrimary 0 = true ∧ (∀ k ∈ [2, 1, 0], demo6.isPrimary k = true → k = 0) ∧ demo6.visit 1 = some [1, 0, 2] := by decide
example : (frame ([2, 0, 1].foldl setStyle demo6) (fun i => i != 1) 0) = some ([0, 2, 1], false) := by decide
example : (((activate demo6 1).bind (activate · 2)).bind (deactivate · 1)).map (fun s => events [2, 1, 0] s.log) = some [true] := by decide

/-- a cut without the first LED of the blade has no primary sub-blade: the styles are set but never run -/
theorem C70_counterexample : ∃ (leds : Nat → Int) (s : St) (k : Nat), Reach leds s [[k]] ∧ s.blade k = 0 ∧ (∀ allow, frame (setStyle s k) allow 0 = some ([], false)) := by
  refine ⟨fun _ => 144, _, 0, Reach.init.make .plain 1 143 (some 0), by decide, fun allow => rfl⟩

end Verif.Blade
