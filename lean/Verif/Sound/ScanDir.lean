import Verif.Sound.ScanProps
/-!
# C40: scanning whole directories
-/
set_option linter.unusedSimpArgs false
namespace Verif.Sound
open Verif.Str (Text toLower startswith endswith endsLoop SameCI C10_startswith C10_endswith)
open Verif.Store (decimal digitsVal)

/-- files that do not belong to the effect: the name (also behind an `altNNN/`) does not start with the name
of the effect, or it is not the right kind of file -/
def Noise (F : Family) (x : Text) : Prop :=
  (∀ k, k = 0 ∨ k = 7 → ∀ p r, x.drop k = p ++ r → ¬ SameCI p F.name) ∨
  (∀ k, k = 0 ∨ k = 7 → (identify (x.drop k)).fileType ≠ F.ext.fileType)

theorem scanAll_noise {F : Family} {e : Eff} {d : Nat} {x : Text} (h : Noise F x) : scanAll F.name F.ext.fileType e d x = some e := by
  unfold scanAll
  by_cases hi : identify x = .unknown
  · rw [if_pos hi]
  rw [if_neg hi]
  split
  · rfl
  obtain ⟨a, ha⟩ := altnum_some hi
  suffices scan F.name F.ext.fileType e x = some (e, false) by rw [this]; rfl
  unfold scan
  rw [ha]
  simp only [Option.bind_eq_bind, Option.bind_some]
  obtain ⟨k, hk, hk'⟩ : ∃ k, (k = 0 ∨ k = 7) ∧ (if a ≠ -1 then x.drop 7 else x) = x.drop k := by
    by_cases ha' : a ≠ -1
    · exact ⟨7, Or.inr rfl, by rw [if_pos ha']⟩
    · exact ⟨0, Or.inl rfl, by rw [if_neg ha']; rfl⟩
  rw [hk']
  rcases h with h | h
  · have : scanName F.name (x.drop k) = none := by
      unfold scanName
      cases hs : startswith F.name (x.drop k) with
      | none => rfl
      | some r =>
        obtain ⟨q, hq, hc⟩ := (C10_startswith _ _ _).mp hs
        exact absurd hc (h k hk q r hq)
    rw [this]
  · cases hs : scanName F.name (x.drop k) with
    | none => rfl
    | some pr =>
      obtain ⟨p, r⟩ := pr
      simp only
      unfold scanRest
      simp only
      rw [if_pos (h k hk)]

/-- what is known after the files `done` -/
structure Inv (F : Family) (d : Nat) (done : List File) (e : Eff) : Prop where
  range : e.InRange
  mem : ∀ f ∈ done, f ∈ F.files
  num : e.numFiles = done.length
  maxUp : ∀ f ∈ done, ∀ n, f.item = some n → (n : Int) ≤ e.maxFile
  maxAt : e.maxFile = -1 ∨ ∃ f ∈ done, ∃ n, f.item = some n ∧ e.maxFile = n
  minLo : ∀ f ∈ done, ∀ n, f.item = some n → e.minFile ≤ n
  minAt : e.minFile = 127 ∨ ∃ f ∈ done, ∃ n, f.item = some n ∧ e.minFile = n
  digits : (e.digits = 0 ∧ ∀ f ∈ done, ∀ n, f.item = some n → (padded F.width n).head? ≠ some 48) ∨ e.digits = ((max F.width 1 : Nat) : Int)
  unnumbered : e.unnumbered = true ↔ ∃ f ∈ done, f.item = none
  subNo : F.subs = 0 → e.subFiles = 0
  subUp : F.subs ≠ 0 → ∀ f ∈ done, f.sub + 1 ≤ e.subFiles
  subAt : e.subFiles = 0 ∨ ∃ f ∈ done, e.subFiles = f.sub + 1
  altNo : F.alts = 0 → e.inAlt = false
  altYes : F.alts ≠ 0 → done ≠ [] → e.inAlt = true
  altUp : F.alts ≠ 0 → ∀ f ∈ done, (f.alt : Int) + 1 ≤ e.numAlt
  altAt : e.numAlt = 0 ∨ ∃ f ∈ done, e.numAlt = (f.alt : Int) + 1
  first : done = [] → e = Eff.reset
  later : done ≠ [] → e.pattern = F.layout ∧ e.ext = F.ext ∧ e.dir = some d

theorem Inv.start (F : Family) (d : Nat) : Inv F d [] Eff.reset :=
  { range := ⟨by decide, by decide, by decide, by decide, by decide, by decide⟩, mem := by simp, num := rfl, maxUp := by simp, maxAt := Or.inl rfl, minLo := by simp,
    minAt := Or.inl rfl, digits := Or.inl ⟨rfl, by simp⟩, unnumbered := by simp [Eff.reset], subNo := fun _ => rfl, subUp := by simp, subAt := Or.inl rfl, altNo := fun _ => rfl,
    altYes := by simp, altUp := by simp, altAt := Or.inl rfl, first := fun _ => rfl, later := by simp }

theorem Inv.step {F : Family} (hF : F.Ok) {d : Nat} {done : List File} {e : Eff} (h : Inv F d done e) {f : File} (hf : f ∈ F.files) (hl : done.length < 32767) :
    ∃ e', scanAll F.name F.ext.fileType e d (F.fileName f) = some e' ∧ Inv F d (f :: done) e' := by
  have hx : e.ext = .unknown ∨ e.ext = F.ext := by
    by_cases hd : done = []
    · rw [h.first hd]; exact Or.inl rfl
    · exact Or.inr (h.later hd).2.1
  have hdir : ¬ (e.dir ≠ none ∧ e.dir ≠ some d) := by
    by_cases hd : done = []
    · rw [h.first hd]; simp [Eff.reset]
    · rw [(h.later hd).2.2]; simp
  obtain ⟨h1, h2⟩ := scan_file hF hf h.range (by rw [h.num]; omega) hx
  refine ⟨{ upd F f e with dir := some d }, ?_, ?_⟩
  · unfold scanAll
    rw [if_neg (by rw [h2]; exact hF.ext), if_neg hdir, h1]
    rfl
  have hm := mem_files.mp hf
  have hi := mem_items.mp hm.2.1
  have hr := h.range
  have a1 := hr.max0; have a2 := hr.max1; have a3 := hr.min0; have a4 := hr.min1; have a5 := hr.num0; have a6 := hr.sub
  have hhi := hF.hi; have hsubs := hF.subs
  have fmax : (upd F f e).maxFile = (match f.item with | some n => max e.maxFile n | none => e.maxFile) := by unfold upd; cases f.item <;> rfl
  have fmin : (upd F f e).minFile = (match f.item with | some n => min e.minFile n | none => e.minFile) := by unfold upd; cases f.item <;> rfl
  have fdig : (upd F f e).digits = (match f.item with | some n => (if (padded F.width n).head? = some 48 then ((max F.width 1 : Nat) : Int) else e.digits) | none => e.digits) := by
    unfold upd; cases f.item <;> rfl
  have funn : (upd F f e).unnumbered = (match f.item with | some _ => e.unnumbered | none => true) := by unfold upd; cases f.item <;> rfl
  have fsub : (upd F f e).subFiles = if F.subs = 0 then e.subFiles else max e.subFiles (f.sub + 1) := rfl
  have falt : (upd F f e).inAlt = (e.inAlt || decide (F.alts ≠ 0)) := rfl
  have fnalt : (upd F f e).numAlt = if F.alts = 0 then e.numAlt else max e.numAlt (f.alt + 1) := rfl
  have fnum : (upd F f e).numFiles = e.numFiles + 1 := rfl
  refine { range := ⟨?_, ?_, ?_, ?_, ?_, ?_⟩, mem := ?_, num := ?_, maxUp := ?_, maxAt := ?_, minLo := ?_, minAt := ?_, digits := ?_, unnumbered := ?_, subNo := ?_, subUp := ?_, subAt := ?_, altNo := ?_, altYes := ?_, altUp := ?_, altAt := ?_, first := ?_, later := ?_ }
  · show -1 ≤ (upd F f e).maxFile
    rw [fmax]; cases f.item <;> simp only <;> omega
  · show (upd F f e).maxFile ≤ 32767
    rw [fmax]
    rcases hi with ⟨n, e1, e2, e3⟩ | ⟨e1, _⟩ <;> rw [e1] <;> simp only <;> omega
  · show 0 ≤ (upd F f e).minFile
    rw [fmin]; cases f.item <;> simp only <;> omega
  · show (upd F f e).minFile ≤ 127
    rw [fmin]; cases f.item <;> simp only <;> omega
  · show 0 ≤ (upd F f e).numFiles
    rw [fnum]; omega
  · show (upd F f e).subFiles ≤ 255
    have hs3 := hm.2.2
    rw [fsub]
    clear hi fmax fmin fdig funn fsub falt fnalt fnum hm
    split <;> omega
  · intro g hg
    rcases List.mem_cons.mp hg with rfl | hg
    · exact hf
    · exact h.mem g hg
  · show (upd F f e).numFiles = _
    rw [fnum, h.num]; simp
  · intro g hg n hn
    show (n : Int) ≤ (upd F f e).maxFile
    rw [fmax]
    rcases List.mem_cons.mp hg with rfl | hg
    · rw [hn]; simp only; omega
    · have := h.maxUp g hg n hn
      cases f.item <;> simp only <;> omega
  · show (upd F f e).maxFile = -1 ∨ ∃ g ∈ f :: done, ∃ n, g.item = some n ∧ (upd F f e).maxFile = n
    rw [fmax]
    cases hfi : f.item with
    | none =>
      simp only
      rcases h.maxAt with h' | ⟨g, hg, n, hn, he⟩
      · exact Or.inl h'
      · exact Or.inr ⟨g, List.mem_cons_of_mem _ hg, n, hn, he⟩
    | some n =>
      simp only
      right
      by_cases hlt : e.maxFile ≤ n
      · exact ⟨f, List.mem_cons_self, n, hfi, by omega⟩
      · rcases h.maxAt with h' | ⟨g, hg, m, hm', he⟩
        · omega
        · exact ⟨g, List.mem_cons_of_mem _ hg, m, hm', by omega⟩
  · intro g hg n hn
    show (upd F f e).minFile ≤ (n : Int)
    rw [fmin]
    rcases List.mem_cons.mp hg with rfl | hg
    · rw [hn]; simp only; omega
    · have := h.minLo g hg n hn
      cases f.item <;> simp only <;> omega
  · show (upd F f e).minFile = 127 ∨ ∃ g ∈ f :: done, ∃ n, g.item = some n ∧ (upd F f e).minFile = n
    rw [fmin]
    cases hfi : f.item with
    | none =>
      simp only
      rcases h.minAt with h' | ⟨g, hg, n, hn, he⟩
      · exact Or.inl h'
      · exact Or.inr ⟨g, List.mem_cons_of_mem _ hg, n, hn, he⟩
    | some n =>
      simp only
      by_cases hlt : (n : Int) ≤ e.minFile
      · exact Or.inr ⟨f, List.mem_cons_self, n, hfi, by omega⟩
      · rcases h.minAt with h' | ⟨g, hg, m, hm', he⟩
        · left; omega
        · exact Or.inr ⟨g, List.mem_cons_of_mem _ hg, m, hm', by omega⟩
  · show ((upd F f e).digits = 0 ∧ _) ∨ (upd F f e).digits = _
    rw [fdig]
    cases hfi : f.item with
    | none =>
      simp only
      rcases h.digits with ⟨h1, h2⟩ | h1
      · left
        refine ⟨h1, fun g hg n hn => ?_⟩
        rcases List.mem_cons.mp hg with rfl | hg
        · rw [hfi] at hn; cases hn
        · exact h2 g hg n hn
      · exact Or.inr h1
    | some n =>
      simp only
      by_cases hz : (padded F.width n).head? = some 48
      · rw [if_pos hz]; exact Or.inr rfl
      · rw [if_neg hz]
        rcases h.digits with ⟨h1, h2⟩ | h1
        · left
          refine ⟨h1, fun g hg m hm' => ?_⟩
          rcases List.mem_cons.mp hg with rfl | hg
          · rw [hfi] at hm'; injection hm' with hm'; subst hm'; exact hz
          · exact h2 g hg m hm'
        · exact Or.inr h1
  · show (upd F f e).unnumbered = true ↔ _
    rw [funn]
    cases hfi : f.item with
    | none => simp only [true_iff]; exact ⟨f, List.mem_cons_self, hfi⟩
    | some n =>
      simp only
      rw [h.unnumbered]
      constructor
      · rintro ⟨g, hg, hni⟩; exact ⟨g, List.mem_cons_of_mem _ hg, hni⟩
      · rintro ⟨g, hg, hni⟩
        rcases List.mem_cons.mp hg with rfl | hg
        · rw [hfi] at hni; cases hni
        · exact ⟨g, hg, hni⟩
  · intro hs
    show (upd F f e).subFiles = 0
    rw [fsub, if_pos hs]; exact h.subNo hs
  · intro hs g hg
    show g.sub + 1 ≤ (upd F f e).subFiles
    rw [fsub, if_neg hs]
    rcases List.mem_cons.mp hg with rfl | hg
    · omega
    · have := h.subUp hs g hg; omega
  · show (upd F f e).subFiles = 0 ∨ ∃ g ∈ f :: done, (upd F f e).subFiles = g.sub + 1
    rw [fsub]
    by_cases hs : F.subs = 0
    · rw [if_pos hs]; exact Or.inl (h.subNo hs)
    · rw [if_neg hs]
      right
      by_cases hlt : e.subFiles ≤ f.sub + 1
      · exact ⟨f, List.mem_cons_self, by omega⟩
      · rcases h.subAt with h' | ⟨g, hg, he⟩
        · omega
        · exact ⟨g, List.mem_cons_of_mem _ hg, by omega⟩
  · intro ha
    show (upd F f e).inAlt = false
    rw [falt, h.altNo ha]; simp [ha]
  · intro ha _
    show (upd F f e).inAlt = true
    rw [falt]; simp [ha]
  · intro ha g hg
    show (g.alt : Int) + 1 ≤ (upd F f e).numAlt
    rw [fnalt, if_neg ha]
    rcases List.mem_cons.mp hg with rfl | hg
    · omega
    · have := h.altUp ha g hg; omega
  · show (upd F f e).numAlt = 0 ∨ ∃ g ∈ f :: done, (upd F f e).numAlt = (g.alt : Int) + 1
    rw [fnalt]
    by_cases ha : F.alts = 0
    · rw [if_pos ha]
      rcases h.altAt with h' | ⟨g, hg, he⟩
      · exact Or.inl h'
      · exact Or.inr ⟨g, List.mem_cons_of_mem _ hg, he⟩
    · rw [if_neg ha]
      by_cases hlt : e.numAlt ≤ f.alt + 1
      · exact Or.inr ⟨f, List.mem_cons_self, by omega⟩
      · rcases h.altAt with h' | ⟨g, hg, he⟩
        · omega
        · exact Or.inr ⟨g, List.mem_cons_of_mem _ hg, by omega⟩
  · simp
  · intro _; exact ⟨rfl, rfl, rfl⟩

/-- scanning a listing of noise and files -/
theorem scan_list {F : Family} (hF : F.Ok) {d : Nat} : ∀ (L : List (File ⊕ Text)) (done : List File) (e : Eff), Inv F d done e →
    (∀ f, Sum.inl f ∈ L → f ∈ F.files) → (∀ x, Sum.inr x ∈ L → Noise F x) → done.length + (L.filterMap Sum.getLeft?).length ≤ 32767 →
    ∃ e' done', (L.map (Sum.elim F.fileName id)).foldlM (fun e f => scanAll F.name F.ext.fileType e d f) e = some e' ∧ Inv F d done' e' ∧
      done'.Perm (done ++ L.filterMap Sum.getLeft?)
  | [], done, e, h, _, _, _ => ⟨e, done, rfl, h, by simp⟩
  | .inl f :: L, done, e, h, h1, h2, h3 => by
    rw [List.filterMap_cons_some (f := Sum.getLeft? (β := Text)) (a := Sum.inl f) (b := f) rfl, List.length_cons] at h3
    obtain ⟨e1, he1, hinv⟩ := h.step hF (h1 f List.mem_cons_self) (by omega)
    obtain ⟨e2, done', he2, hinv2, hp⟩ := scan_list hF L (f :: done) e1 hinv (fun g hg => h1 g (List.mem_cons_of_mem _ hg)) (fun x hx => h2 x (List.mem_cons_of_mem _ hx)) (by rw [List.length_cons]; omega)
    refine ⟨e2, done', ?_, hinv2, hp.trans ?_⟩
    · rw [List.map_cons, List.foldlM_cons]
      show (scanAll F.name F.ext.fileType e d (F.fileName f)).bind _ = _
      rw [he1]; exact he2
    · rw [List.filterMap_cons_some (f := Sum.getLeft? (β := Text)) (a := Sum.inl f) (b := f) rfl]
      exact (List.perm_middle).symm
  | .inr x :: L, done, e, h, h1, h2, h3 => by
    rw [List.filterMap_cons_none rfl] at h3
    obtain ⟨e2, done', he2, hinv2, hp⟩ := scan_list hF L done e h (fun g hg => h1 g (List.mem_cons_of_mem _ hg)) (fun x hx => h2 x (List.mem_cons_of_mem _ hx)) h3
    refine ⟨e2, done', ?_, hinv2, ?_⟩
    · rw [List.map_cons, List.foldlM_cons]
      show (scanAll F.name F.ext.fileType e d x).bind _ = _
      rw [scanAll_noise (h2 x List.mem_cons_self)]; exact he2
    · rw [List.filterMap_cons_none rfl]; exact hp

/-- a permutation of images is the image of a permutation -/
theorem perm_map {α β : Type} {g : α → β} {l m : List β} (h : l.Perm m) : ∀ m' : List α, m = m'.map g → ∃ l' : List α, l = l'.map g ∧ l'.Perm m' := by
  induction h with
  | nil => intro m' h; exact ⟨m', h, .refl _⟩
  | cons x _ ih =>
    intro m' h
    cases m' with
    | nil => simp at h
    | cons a m' =>
      rw [List.map_cons] at h
      injection h with h1 h2
      obtain ⟨l', h3, h4⟩ := ih m' h2
      exact ⟨a :: l', by rw [h1, h3]; rfl, .cons _ h4⟩
  | swap x y l =>
    intro m' h
    match m', h with
    | a :: b :: m', h =>
      simp only [List.map_cons, List.cons.injEq] at h
      obtain ⟨h1, h2, h3⟩ := h
      exact ⟨b :: a :: m', by simp [h1, h2, h3], .swap _ _ _⟩
  | trans _ _ ih1 ih2 =>
    intro m' h
    obtain ⟨l2, h1, h2⟩ := ih2 m' h
    obtain ⟨l1, h3, h4⟩ := ih1 l2 h1
    exact ⟨l1, h3, h4.trans h2⟩

theorem foldlM_noise {F : Family} {d : Nat} : ∀ (L : List Text) (e : Eff), (∀ x ∈ L, Noise F x) → L.foldlM (fun e f => scanAll F.name F.ext.fileType e d f) e = some e
  | [], e, _ => rfl
  | x :: L, e, h => by
    rw [List.foldlM_cons]
    show (scanAll F.name F.ext.fileType e d x).bind _ = _
    rw [scanAll_noise (h x List.mem_cons_self)]
    exact foldlM_noise L e (fun y hy => h y (List.mem_cons_of_mem _ hy))

theorem foldlM_other {n : Text} {ft : FType} {d d' : Nat} (hd : d' ≠ d) : ∀ (L : List Text) (e : Eff), e.dir = some d → L.foldlM (fun e f => scanAll n ft e d' f) e = some e
  | [], e, _ => rfl
  | x :: L, e, h => by
    rw [List.foldlM_cons]
    show (scanAll n ft e d' x).bind _ = _
    have : scanAll n ft e d' x = some e := by
      unfold scanAll
      split
      · rfl
      · rw [if_pos ⟨by rw [h]; simp, by rw [h]; simp; omega⟩]
    rw [this]
    exact foldlM_other hd L e h

/-! ## The properties -/

/-- what the search path contains: a family of files in one directory `d`, listed in any order together with
other files; only other files in the directories before, anything in directories after -/
def Listing (F : Family) (d : Nat) (dirs : List (Nat × List Text)) : Prop :=
  F.Ok ∧ (0 < F.count ∨ F.unnumbered = true) ∧
  ∃ before L noise after, dirs = before ++ (d, L) :: after ∧
    (∀ b ∈ before, ∀ x ∈ b.2, Noise F x) ∧ L.Perm (F.files.map F.fileName ++ noise) ∧ (∀ x ∈ noise, Noise F x) ∧ (∀ a ∈ after, a.1 ≠ d)

theorem before_noise {F : Family} : ∀ (before : List (Nat × List Text)) (e : Eff), (∀ b ∈ before, ∀ x ∈ b.2, Noise F x) →
    before.foldlM (fun e d => d.2.foldlM (fun e f => scanAll F.name F.ext.fileType e d.1 f) e) e = some e
  | [], e, _ => rfl
  | b :: bs, e, h => by
    rw [List.foldlM_cons, foldlM_noise b.2 e (h b List.mem_cons_self)]
    exact before_noise bs e (fun c hc => h c (List.mem_cons_of_mem _ hc))

theorem after_other {n : Text} {ft : FType} {d : Nat} : ∀ (after : List (Nat × List Text)) (e : Eff), e.dir = some d → (∀ a ∈ after, a.1 ≠ d) →
    after.foldlM (fun e d => d.2.foldlM (fun e f => scanAll n ft e d.1 f) e) e = some e
  | [], e, _, _ => rfl
  | b :: bs, e, h, ha => by
    rw [List.foldlM_cons, foldlM_other (ha b List.mem_cons_self) b.2 e h]
    exact after_other bs e h (fun c hc => ha c (List.mem_cons_of_mem _ hc))

theorem files_ne_nil {F : Family} (h : 0 < F.count ∨ F.unnumbered = true) : F.files ≠ [] := by
  obtain ⟨i, hi⟩ : ∃ i, i ∈ F.items := by
    rcases h with h | h
    · exact ⟨some F.lo, mem_items.mpr (Or.inl ⟨_, rfl, by omega, by omega⟩)⟩
    · exact ⟨none, mem_items.mpr (Or.inr ⟨rfl, h⟩)⟩
  have : (⟨0, i, 0⟩ : File) ∈ F.files := mem_files.mpr ⟨by simp only; omega, hi, by simp only; omega⟩
  intro e; rw [e] at this; cases this

theorem filterMap_left (m : List File) (n : List Text) : (m.map Sum.inl ++ n.map Sum.inr).filterMap (Sum.getLeft? (β := Text)) = m := by
  rw [List.filterMap_append, List.filterMap_map, List.filterMap_map]
  have h1 : m.filterMap (Sum.getLeft? (β := Text) ∘ Sum.inl) = m := by
    rw [show (Sum.getLeft? (β := Text) ∘ Sum.inl) = (some : File → Option File) from rfl]; simp
  have h2 : n.filterMap (Sum.getLeft? (α := File) ∘ Sum.inr) = [] := by
    rw [show (Sum.getLeft? (α := File) ∘ Sum.inr) = (fun _ : Text => none) from rfl]; simp
  rw [h1, h2, List.append_nil]

/-- all files of the family have been counted -/
theorem listing_inv {F : Family} {d : Nat} {dirs : List (Nat × List Text)} (h : Listing F d dirs) :
    ∃ e done, scanDirs F.name F.ext.fileType dirs = some e ∧ Inv F d done e ∧ done.Perm F.files := by
  obtain ⟨hF, hne, before, L, noise, after, rfl, hb, hp, hn, ha⟩ := h
  obtain ⟨L', hL', hp'⟩ := perm_map (g := Sum.elim F.fileName id) hp (F.files.map Sum.inl ++ noise.map Sum.inr) (by simp [Function.comp_def])
  have hleft : (L'.filterMap Sum.getLeft?).Perm F.files := by
    have := hp'.filterMap (Sum.getLeft? (β := Text))
    rw [filterMap_left] at this
    exact this
  obtain ⟨e, done, he, hinv, hd⟩ := scan_list hF (d := d) L' [] Eff.reset (Inv.start F d)
    (fun f hf => by have := hp'.subset hf; simpa using this)
    (fun x hx => by have := hp'.subset hx; exact hn x (by simpa using this))
    (by rw [List.length_nil, hleft.length_eq]; have := hF.total; omega)
  rw [List.nil_append] at hd
  have hperm := hd.trans hleft
  have hdone : done ≠ [] := by
    intro e; rw [e] at hperm; exact files_ne_nil hne (hperm.symm.eq_nil)
  refine ⟨e, done, ?_, hinv, hperm⟩
  unfold scanDirs
  rw [List.foldlM_append, before_noise before _ hb]
  simp only [Option.bind_eq_bind, Option.bind_some]
  rw [List.foldlM_cons]
  simp only [hL', he]
  exact after_other after e (hinv.later hdone).2.2 ha

/-- the numbers that scanning ends with -/
structure Found (F : Family) (d : Nat) (e : Eff) : Prop where
  numbers : 0 < F.count → e.minFile = F.lo ∧ e.maxFile = F.lo + F.count - 1
  noNumbers : F.count = 0 → e.minFile = 127 ∧ e.maxFile = -1
  unnumbered : e.unnumbered = F.unnumbered
  subs : e.subFiles = F.subs
  alt : e.inAlt = decide (F.alts ≠ 0)
  alts : F.alts ≠ 0 → e.numAlt = F.alts
  pattern : e.pattern = F.layout
  ext : e.ext = F.ext
  dir : e.dir = some d
  num : e.numFiles = F.files.length
  digits : ∀ n, F.lo ≤ n → n < F.lo + F.count → addNumber n e.digits = padded F.width n

theorem found_of_inv {F : Family} {d : Nat} {e : Eff} {done : List File} (hF : F.Ok) (hne : 0 < F.count ∨ F.unnumbered = true) (h : Inv F d done e) (hp : done.Perm F.files) : Found F d e := by
  have hm : ∀ f, f ∈ done ↔ f ∈ F.files := fun f => hp.mem_iff
  have hdone : done ≠ [] := by
    intro e; rw [e] at hp; exact files_ne_nil hne (hp.symm.eq_nil)
  obtain ⟨i0, hi0⟩ : ∃ i, i ∈ F.items := by
    rcases hne with h | h
    · exact ⟨some F.lo, mem_items.mpr (Or.inl ⟨_, rfl, by omega, by omega⟩)⟩
    · exact ⟨none, mem_items.mpr (Or.inr ⟨rfl, h⟩)⟩
  have hnum : ∀ n, F.lo ≤ n → n < F.lo + F.count → (⟨0, some n, 0⟩ : File) ∈ done := fun n h1 h2 =>
    (hm _).mpr (mem_files.mpr ⟨by simp only; omega, mem_items.mpr (Or.inl ⟨n, rfl, h1, h2⟩), by simp only; omega⟩)
  have hback : ∀ f ∈ done, ∀ n, f.item = some n → F.lo ≤ n ∧ n < F.lo + F.count := by
    intro f hf n hn
    rcases mem_items.mp (mem_files.mp ((hm f).mp hf)).2.1 with ⟨m, h1, h2⟩ | ⟨h1, _⟩
    · rw [hn] at h1; injection h1 with h1; subst h1; exact h2
    · rw [hn] at h1; cases h1
  refine { numbers := ?_, noNumbers := ?_, unnumbered := ?_, subs := ?_, alt := ?_, alts := ?_, pattern := (h.later hdone).1, ext := (h.later hdone).2.1, dir := (h.later hdone).2.2, num := ?_, digits := ?_ }
  · intro hc
    have hlo := hF.lo hc
    have h1 := h.minLo _ (hnum F.lo (by omega) (by omega)) F.lo rfl
    have h2 := h.maxUp _ (hnum (F.lo + F.count - 1) (by omega) (by omega)) _ rfl
    have h3 : (F.lo : Int) ≤ e.minFile := by
      rcases h.minAt with h' | ⟨f, hf, n, hn, he⟩
      · omega
      · have := hback f hf n hn; omega
    have h4 : e.maxFile ≤ (F.lo + F.count - 1 : Nat) := by
      rcases h.maxAt with h' | ⟨f, hf, n, hn, he⟩
      · omega
      · have := hback f hf n hn; omega
    omega
  · intro hc
    constructor
    · rcases h.minAt with h' | ⟨f, hf, n, hn, he⟩
      · exact h'
      · have := hback f hf n hn; omega
    · rcases h.maxAt with h' | ⟨f, hf, n, hn, he⟩
      · exact h'
      · have := hback f hf n hn; omega
  · rw [Bool.eq_iff_iff, h.unnumbered]
    constructor
    · rintro ⟨f, hf, hn⟩
      rcases mem_items.mp (mem_files.mp ((hm f).mp hf)).2.1 with ⟨m, h1, h2⟩ | ⟨_, h1⟩
      · rw [hn] at h1; cases h1
      · exact h1
    · intro hu
      exact ⟨⟨0, none, 0⟩, (hm _).mpr (mem_files.mpr ⟨by simp only; omega, mem_items.mpr (Or.inr ⟨rfl, hu⟩), by simp only; omega⟩), rfl⟩
  · by_cases hs : F.subs = 0
    · rw [hs]; exact h.subNo hs
    · have h1 := h.subUp hs ⟨0, i0, F.subs - 1⟩ ((hm _).mpr (mem_files.mpr ⟨by simp only; omega, hi0, by simp only; omega⟩))
      simp only at h1
      rcases h.subAt with h' | ⟨f, hf, he⟩
      · omega
      · have h3 := (mem_files.mp ((hm f).mp hf)).2.2; omega
  · by_cases ha : F.alts = 0
    · rw [h.altNo ha]; simp [ha]
    · rw [h.altYes ha hdone]; simp [ha]
  · intro ha
    have h1 := h.altUp ha ⟨F.alts - 1, i0, 0⟩ ((hm _).mpr (mem_files.mpr ⟨by simp only; omega, hi0, by simp only; omega⟩))
    simp only at h1
    rcases h.altAt with h' | ⟨f, hf, he⟩
    · omega
    · have h3 := (mem_files.mp ((hm f).mp hf)).1; omega
  · rw [h.num, hp.length_eq]
  · intro n h1 h2
    rcases h.digits with ⟨hd, hz⟩ | hd
    · rw [hd, padded_no_zero (hz _ (hnum n h1 h2) n rfl)]
      simp [addNumber]
    · rw [hd]
      unfold addNumber padded
      have := decimal_length_pos n
      congr 2
      omega

theorem listing_found {F : Family} {d : Nat} {dirs : List (Nat × List Text)} (h : Listing F d dirs) : ∃ e, scanDirs F.name F.ext.fileType dirs = some e ∧ Found F d e := by
  obtain ⟨e, done, h1, h2, h3⟩ := listing_inv h
  exact ⟨e, h1, found_of_inv h.1 h.2.1 h2 h3⟩

theorem items_length (F : Family) : F.items.length = F.count + (if F.unnumbered then 1 else 0) := by
  unfold Family.items
  cases F.unnumbered <;> simp

theorem files_length (F : Family) : F.files.length = max 1 F.alts * (F.items.length * max 1 F.subs) := by
  unfold Family.files
  simp [List.length_flatMap, List.map_const', List.sum_replicate_nat]

theorem Found.files {F : Family} {d : Nat} {e : Eff} (hf : Found F d e) : e.filesFound = F.count + (if F.unnumbered then 1 else 0) := by
  unfold Eff.filesFound
  rw [hf.unnumbered]
  by_cases hc : F.count = 0
  · obtain ⟨h1, h2⟩ := hf.noNumbers hc
    rw [h1, h2, hc]
    cases F.unnumbered <;> decide
  · obtain ⟨h1, h2⟩ := hf.numbers (by omega)
    rw [h1, h2, if_pos (by omega)]
    cases F.unnumbered <;> simp <;> omega

/-- C40: whatever order the directory is listed in and whatever else is in it, the effect ends up with the
lowest and the highest number, the number of files, and a count that passes the "missing files" check -/
theorem C40_scan {F : Family} {d : Nat} {dirs : List (Nat × List Text)} (h : Listing F d dirs) :
    ∃ e, scanDirs F.name F.ext.fileType dirs = some e ∧
      (0 < F.count → e.minFile = F.lo ∧ e.maxFile = F.lo + F.count - 1) ∧
      e.filesFound = F.items.length ∧ e.numFiles = F.files.length ∧ e.expectedFiles = e.numFiles ∧ e.dir = some d := by
  obtain ⟨e, he, hf⟩ := listing_found h
  refine ⟨e, he, hf.numbers, ?_, hf.num, ?_, hf.dir⟩
  · rw [hf.files, items_length]
    cases F.unnumbered <;> simp
  · rw [hf.num, files_length]
    unfold Eff.expectedFiles
    rw [hf.files, items_length, hf.alt, hf.subs]
    have ha : (if decide (F.alts ≠ 0) = true then e.numAlt else 1) = ((max 1 F.alts : Nat) : Int) := by
      by_cases ha : F.alts = 0
      · simp [ha]
      · rw [if_pos (by simp [ha]), hf.alts ha]; omega
    have hs : ((if F.subs = 0 then 1 else F.subs : Nat) : Int) = ((max 1 F.subs : Nat) : Int) := by split <;> omega
    rw [ha, hs, Int.natCast_mul, Int.natCast_mul]
    have hc : ((F.count + (if F.unnumbered = true then 1 else 0) : Nat) : Int) = (F.count : Int) + (if F.unnumbered = true then 1 else 0) := by split <;> simp
    rw [hc, Int.mul_comm ((F.count : Int) + _), Int.mul_assoc]

/-- the file that the `i`-th choice stands for -/
def Family.choice (F : Family) (i s a : Nat) : File := ⟨a, if i < F.count then some (F.lo + i) else none, s⟩

theorem getName_choice {F : Family} {d : Nat} {e : Eff} (hf : Found F d e) {i s a : Nat} (dirText : Text) :
    e.getName F.name dirText i s a = dirText ++ (if dirText = [] then [] else [47]) ++ F.fileName (F.choice i s a) := by
  have h1 : (if (i : Int) + e.minFile ≤ e.maxFile then addNumber ((i : Int) + e.minFile).toNat e.digits else []) =
      (match (F.choice i s a).item with | some n => padded F.width n | none => []) := by
    unfold Family.choice
    simp only
    by_cases hc : F.count = 0
    · obtain ⟨h1, h2⟩ := hf.noNumbers hc
      rw [h1, h2, if_neg (by omega), if_neg (by omega)]
    · obtain ⟨h1, h2⟩ := hf.numbers (by omega)
      rw [h1, h2]
      by_cases hlt : i < F.count
      · rw [if_pos (by omega), if_pos hlt]
        simp only
        rw [← hf.digits (F.lo + i) (by omega) (by omega)]
        congr 1; omega
      · rw [if_neg (by omega), if_neg hlt]
  have h3 : ∀ n, addNumber n 3 = padded 3 n := fun n => rfl
  unfold Eff.getName
  rw [h1, h3, h3, hf.ext, hf.alt, hf.subs, hf.pattern]
  unfold Family.fileName
  cases hl : F.layout <;> by_cases ha : F.alts = 0 <;> by_cases hs : F.subs = 0 <;> by_cases hc : i < F.count <;>
    simp [Family.choice, ha, hs, hc]

/-- C40: every file that can be chosen has the name of a file that is there, and every file of the family can be
chosen -/
theorem C40_names {F : Family} {d : Nat} {dirs : List (Nat × List Text)} (h : Listing F d dirs) {e : Eff} (he : scanDirs F.name F.ext.fileType dirs = some e) (dirText : Text) :
    (∀ i s a : Nat, (i : Int) < e.filesFound → s < max 1 e.subFiles → (a : Int) < (if e.inAlt then e.numAlt else 1) →
      ∃ f ∈ F.files, e.getName F.name dirText i s a = dirText ++ (if dirText = [] then [] else [47]) ++ F.fileName f) ∧
    (∀ f ∈ F.files, ∃ i s a : Nat, (i : Int) < e.filesFound ∧ s < max 1 e.subFiles ∧ (a : Int) < (if e.inAlt then e.numAlt else 1) ∧
      e.getName F.name dirText i s a = dirText ++ (if dirText = [] then [] else [47]) ++ F.fileName f) := by
  obtain ⟨e', he', hf⟩ := listing_found h
  rw [he] at he'; injection he' with he'; subst he'
  have hF := h.1
  have ha' : ∀ a : Nat, (a : Int) < (if e.inAlt then e.numAlt else 1) ↔ a < max 1 F.alts := by
    intro a
    rw [hf.alt]
    by_cases ha : F.alts = 0
    · rw [if_neg (by simp [ha]), ha]; omega
    · rw [if_pos (by simp [ha]), hf.alts ha]; omega
  refine ⟨?_, ?_⟩
  · intro i s a hi hs ha
    refine ⟨F.choice i s a, mem_files.mpr ⟨(ha' a).mp ha, mem_items.mpr ?_, by rw [hf.subs] at hs; exact hs⟩, getName_choice hf dirText⟩
    rw [hf.files] at hi
    unfold Family.choice
    simp only
    by_cases hc : i < F.count
    · rw [if_pos hc]; exact Or.inl ⟨_, rfl, by omega, by omega⟩
    · rw [if_neg hc]
      right
      refine ⟨rfl, ?_⟩
      cases hu : F.unnumbered
      · rw [hu] at hi; simp at hi; omega
      · rfl
  · intro f hff
    obtain ⟨h1, h2, h3⟩ := mem_files.mp hff
    obtain ⟨i, hi, hc⟩ : ∃ i : Nat, (i : Int) < e.filesFound ∧ F.choice i f.sub f.alt = f := by
      rw [hf.files]
      rcases mem_items.mp h2 with ⟨n, e1, e2, e3⟩ | ⟨e1, e2⟩
      · refine ⟨n - F.lo, by split <;> omega, ?_⟩
        unfold Family.choice
        rw [if_pos (by omega)]
        have : F.lo + (n - F.lo) = n := by omega
        rw [this, ← e1]
      · refine ⟨F.count, by rw [if_pos e2]; omega, ?_⟩
        unfold Family.choice
        rw [if_neg (by omega), ← e1]
    refine ⟨i, f.sub, f.alt, hi, by rw [hf.subs]; exact h3, (ha' _).mpr h1, ?_⟩
    rw [getName_choice hf dirText, hc]

/-- C40: choosing at random gives a file in range, and not the last one again if there are at least three -/
theorem C40_random (e : Eff) (sel num last lastSub : Int) (uses noRepeat : Bool) (r1 r2 r3 r4 : Nat) (hs : -1 ≤ sel) (hn : -1 ≤ num) (hf : 0 < e.filesFound) :
    ∃ n s, e.randomFile sel num last lastSub uses noRepeat r1 r2 r3 r4 = some (n, s) ∧ 0 ≤ n ∧ n < e.filesFound ∧ 0 ≤ s ∧ s < max 1 e.subFiles ∧
      (sel = -1 → num = -1 → noRepeat = true → 3 ≤ e.filesFound → n ≠ last) := by
  have hr : ∀ (k : Nat) (l : Int) (a b : Nat), 0 < k → 0 ≤ randomize k l a b ∧ randomize k l a b < k ∧ (3 ≤ k → randomize k l a b ≠ l) := by
    intro k l a b hk
    have h1 := Nat.mod_lt a hk
    unfold randomize
    simp only
    by_cases h2 : ((a % k : Nat) : Int) = l
    · rw [if_pos h2]
      by_cases h3 : k = 1
      · rw [if_pos h3]; exact ⟨by omega, by omega, by omega⟩
      rw [if_neg h3]
      by_cases h4 : k = 2
      · rw [if_pos h4]
        have := Nat.mod_lt b hk
        exact ⟨by omega, by omega, by omega⟩
      rw [if_neg h4]
      have h5 := Nat.mod_lt b (show 0 < k - 1 by omega)
      by_cases h6 : ((b % (k - 1) : Nat) : Int) ≥ l
      · rw [if_pos h6]; exact ⟨by omega, by omega, by omega⟩
      · rw [if_neg h6]; exact ⟨by omega, by omega, by omega⟩
    · rw [if_neg h2]; exact ⟨by omega, by omega, fun _ => h2⟩
  unfold Eff.randomFile
  simp only
  rw [if_neg (by omega)]
  refine ⟨_, _, rfl, ?_, ?_, ?_, ?_, ?_⟩
  · split
    · omega
    split
    · omega
    split
    · exact (hr _ _ _ _ (by omega)).1
    · omega
  · split
    · omega
    split
    · omega
    split
    · have := (hr e.filesFound.toNat last r1 r2 (by omega)).2.1; omega
    · have := Nat.mod_lt r1 (show 0 < e.filesFound.toNat by omega); omega
  · split
    · omega
    · split
      · exact (hr _ _ _ _ (by omega)).1
      · omega
  · split
    · omega
    · split
      · exact Int.lt_of_lt_of_le (hr e.subFiles _ r3 r4 (by omega)).2.1 (by omega)
      · have := Nat.mod_lt r3 (show 0 < e.subFiles by omega); omega
  · intro h1 h2 h3 h4
    rw [if_neg (by omega), if_neg (by omega), if_pos h3]
    exact (hr e.filesFound.toNat last r1 r2 (by omega)).2.2 (by omega)

/-- `hum01.wav` ... `hum12.wav` with an unnumbered file, in a listing with other files -/
def demoFamily : Family := ⟨[104, 117, 109], .wav, .flat, 2, 1, 12, true, 0, 0⟩

theorem demo_ok : demoFamily.Ok where
  name := ⟨104, _, rfl, by decide⟩
  notAlt := fun _ => Or.inl ⟨104, rfl, by decide⟩
  ext := by decide
  layout := by decide
  width := by decide
  lo := by decide
  hi := by decide
  subs := by decide
  subDirs := by decide
  unnumbered := by decide
  alts := by decide
  total := by rw [files_length, items_length]; decide

example : Listing demoFamily 1 [(0, [[97, 46, 119, 97, 118]]), (1, (demoFamily.files.map demoFamily.fileName ++ [[97, 108, 116]]).reverse), (2, [[104, 117, 109, 57, 57, 46, 119, 97, 118]])] :=
  ⟨demo_ok, Or.inl (by decide), [(0, [[97, 46, 119, 97, 118]])], _, [[97, 108, 116]], _, rfl,
    by
      intro b hb x hx
      simp at hb; subst hb; simp at hx; subst hx
      refine Or.inl (fun k hk p r e hc => ?_)
      have hl := congrArg List.length hc
      simp [demoFamily] at hl
      match p, hl with
      | [x, y, z], _ =>
        rcases hk with rfl | rfl <;> simp at e
        rw [← e.1] at hc
        simp [SameCI, demoFamily, toLower] at hc,
    List.reverse_perm _,
    by
      intro x hx
      simp at hx; subst hx
      refine Or.inl (fun k hk p r e hc => ?_)
      have hl := congrArg List.length hc
      simp [demoFamily] at hl
      match p, hl with
      | [x, y, z], _ =>
        rcases hk with rfl | rfl <;> simp at e
        rw [← e.1] at hc
        simp [SameCI, demoFamily, toLower] at hc,
    by simp⟩

/-- C40: if all numbers are above 127, the effect believes the lowest one is 127 and chooses files that do not
exist (`min_file_` is an `int8_t` that starts at 127) -/
theorem C40_min_counterexample :
    (scanDirs [104, 117, 109] .sound [(0, [[104, 117, 109, 50, 48, 48, 46, 119, 97, 118], [104, 117, 109, 50, 48, 49, 46, 119, 97, 118]])]).map
      (fun e => (e.filesFound, e.numFiles, e.getName [104, 117, 109] [] 0 0 0)) = some (75, 2, [104, 117, 109, 49, 50, 55, 46, 119, 97, 118]) := by
  decide +kernel

theorem scanRest_counts {ftype : FType} {e e' : Eff} {alt : Int} {file : Text} {p : Pattern} {rest : Text} {ok : Bool}
    (h : scanRest ftype e alt file p rest = some (e', ok)) :
    e'.dir = e.dir ∧ e'.numFiles = (if ok then wrap16 (e.numFiles + 1) else e.numFiles) ∧ (ok = false → e'.pattern = e.pattern) := by
  unfold scanRest at h
  simp only at h
  split at h
  · cases h; simp
  split at h
  · cases h; simp
  have hn : ∀ (e : Eff) r, (scanNumber e r).1.dir = e.dir ∧ (scanNumber e r).1.numFiles = e.numFiles ∧ (scanNumber e r).1.pattern = e.pattern := by
    intro e r
    unfold scanNumber
    simp only
    split
    · simp
    split <;> simp
  have hs : ∀ (e : Eff) q r x, scanSub e q r = some x → x.1.dir = e.dir ∧ x.1.numFiles = e.numFiles ∧ x.1.pattern = e.pattern := by
    intro e q r x hx
    unfold scanSub at hx
    simp only [Option.bind_eq_bind] at hx
    split at hx
    · obtain ⟨c1, _, hx⟩ := Option.bind_eq_some_iff.mp hx
      split at hx
      · cases hx; simp
      obtain ⟨c2, _, hx⟩ := Option.bind_eq_some_iff.mp hx
      split at hx
      · cases hx; simp
      obtain ⟨c3, _, hx⟩ := Option.bind_eq_some_iff.mp hx
      split at hx
      · cases hx; simp
      split at hx
      · cases hx
      · cases hx; simp
    · cases hx; simp
  obtain ⟨n1, n2, n3⟩ := hn { e with ext := identify file } rest
  generalize scanNumber { e with ext := identify file } rest = z at h n1 n2 n3
  match z, h, n1, n2, n3 with
  | (e2, none), h, n1, n2, n3 =>
    simp only [Option.some.injEq, Prod.mk.injEq] at h
    obtain ⟨rfl, rfl⟩ := h
    exact ⟨n1, by simpa using n2, fun _ => n3⟩
  | (e2, some rest'), h, n1, n2, n3 =>
    simp only [Option.bind_eq_bind] at h
    obtain ⟨q, hq, h⟩ := Option.bind_eq_some_iff.mp h
    obtain ⟨s1, s2, s3⟩ := hs _ _ _ _ hq
    simp only at n1 n2 n3
    split at h
    · simp only [Option.some.injEq, Prod.mk.injEq] at h
      obtain ⟨rfl, rfl⟩ := h
      exact ⟨s1.trans n1, by simpa using s2.trans n2, fun _ => s3.trans n3⟩
    · split at h
      · simp only [Option.some.injEq, Prod.mk.injEq] at h
        obtain ⟨rfl, rfl⟩ := h
        exact ⟨s1.trans n1, by simp [s2, n2], by simp⟩
      · simp only [Option.some.injEq, Prod.mk.injEq] at h
        obtain ⟨rfl, rfl⟩ := h
        exact ⟨s1.trans n1, by simp [s2, n2], by simp⟩

/-- C40: a file either is counted, and then the effect belongs to its directory, or it is not, and then neither
the directory nor the layout of the effect changes; an effect that belongs to another directory counts nothing -/
theorem C40_counted {name : Text} {ftype : FType} {e e' : Eff} {dir : Nat} {file : Text} (h : scanAll name ftype e dir file = some e') :
    (e'.numFiles = e.numFiles ∧ e'.dir = e.dir ∧ e'.pattern = e.pattern) ∨
    (e'.numFiles = wrap16 (e.numFiles + 1) ∧ e'.dir = some dir ∧ (e.dir = none ∨ e.dir = some dir) ∧ identify file ≠ .unknown) := by
  unfold scanAll at h
  split at h
  · cases h; simp
  rename_i hi
  split at h
  · cases h; simp
  rename_i hd
  simp only [Option.bind_eq_bind] at h
  obtain ⟨⟨e2, ok⟩, hq, h⟩ := Option.bind_eq_some_iff.mp h
  have hc : e2.dir = e.dir ∧ e2.numFiles = (if ok then wrap16 (e.numFiles + 1) else e.numFiles) ∧ (ok = false → e2.pattern = e.pattern) := by
    unfold scan at hq
    simp only [Option.bind_eq_bind] at hq
    obtain ⟨a, _, hq⟩ := Option.bind_eq_some_iff.mp hq
    split at hq
    · cases hq; simp
    · exact scanRest_counts hq
  obtain ⟨c1, c2, c3⟩ := hc
  cases ok with
  | true =>
    simp only [if_true, Option.some.injEq] at h
    subst h
    refine Or.inr ⟨by simpa using c2, rfl, ?_, hi⟩
    by_cases hn : e.dir = none
    · exact Or.inl hn
    · exact Or.inr (by simpa [hn] using hd)
  | false =>
    simp only [Bool.false_eq_true, if_false, Option.some.injEq] at h
    subst h
    exact Or.inl ⟨by simpa using c2, c1, c3 rfl⟩

/-- C40: a file that is not counted can still raise the highest number: with `hum1.wav` and a stray `hum9x.wav`
the effect believes in nine files and chooses `hum5.wav`, which does not exist -/
theorem C40_stray_counterexample :
    (scanDirs [104, 117, 109] .sound [(0, [[104, 117, 109, 49, 46, 119, 97, 118], [104, 117, 109, 57, 120, 46, 119, 97, 118]])]).map
      (fun e => (e.filesFound, e.numFiles, e.getName [104, 117, 109] [] 4 0 0)) = some (9, 1, [104, 117, 109, 53, 46, 119, 97, 118]) := by
  decide +kernel

end Verif.Sound
