import Verif.Decompile

/-! # Renaming files: lemmas -/
namespace Psygnal.Decomp

/-- A file with an extension after a proper stem: the name is not just the extension behind a dot, as in `.so`. -/
def Path.stemmed (p : Path) : Prop := p.name.dropLast ≠ [.empty]

theorem isExt_iff {p : Path} {e : Part} : p.isExt e = true ↔ ∃ l, l ≠ [] ∧ p.name = l ++ [e] := by
  unfold Path.isExt
  rw [Bool.and_eq_true, decide_eq_true_eq, decide_eq_true_eq]
  constructor
  · rintro ⟨h1, h2⟩
    obtain ⟨l, hl⟩ := List.getLast?_eq_some_iff.mp h2
    refine ⟨l, ?_, hl⟩
    rintro rfl
    rw [hl] at h1; simp at h1
  · rintro ⟨l, hl, h⟩
    rw [h]
    refine ⟨?_, by simp⟩
    have := List.length_pos_iff.mpr hl
    simp; omega

theorem isExt_unique {p : Path} {e e' : Part} (h : p.isExt e = true) (h' : p.isExt e' = true) : e = e' := by
  unfold Path.isExt at h h'
  rw [Bool.and_eq_true, decide_eq_true_eq, decide_eq_true_eq] at h h'
  exact Option.some.inj (h.2.symm.trans h'.2)

theorem withSuffix_ext {p : Path} {e b : Part} (he : e ≠ .empty) (h : p.isExt e = true) (hs : p.stemmed) :
    p.withSuffix b = ⟨p.dir, p.name.dropLast ++ [b]⟩ := by
  obtain ⟨l, hl, hn⟩ := isExt_iff.mp h
  have : p.hasSuffix = true := by
    unfold Path.hasSuffix
    have := List.length_pos_iff.mpr hl
    have h2 : l ≠ [.empty] := by
      have := hs; unfold Path.stemmed at this; rw [hn] at this; simpa using this
    rw [hn]
    simp [h2, he]; omega
  unfold Path.withSuffix
  rw [this]; rfl

theorem withSuffix_isExt {p : Path} {e b : Part} (he : e ≠ .empty) (h : p.isExt e = true) (hs : p.stemmed) :
    (p.withSuffix b).isExt b = true ∧ (p.withSuffix b).stemmed := by
  obtain ⟨l, hl, hn⟩ := isExt_iff.mp h
  rw [withSuffix_ext he h hs]
  refine ⟨isExt_iff.mpr ⟨l, hl, by simp [hn]⟩, ?_⟩
  unfold Path.stemmed at *
  simpa using hs

theorem withSuffix_back {p : Path} {e b : Part} (he : e ≠ .empty) (hb : b ≠ .empty) (h : p.isExt e = true) (hs : p.stemmed) :
    (p.withSuffix b).withSuffix e = p := by
  obtain ⟨h1, h2⟩ := withSuffix_isExt (b := b) he h hs
  rw [withSuffix_ext hb h1 h2, withSuffix_ext he h hs]
  obtain ⟨l, hl, hn⟩ := isExt_iff.mp h
  cases p; simp only at hn; subst hn; simp

/-- What renaming all files with extension `e` does to one name. -/
def newName (e b : Part) (p : Path) : Path := if p.isExt e then p.withSuffix b else p

theorem rename_absent {p q : Path} {fs : Files} (hq : ∀ f ∈ fs, f.1 ≠ q) :
    rename p q fs = fs.map fun f => if f.1 = p then (q, f.2) else f := by
  unfold rename
  split
  · rename_i h
    subst h
    have : (fs.map fun f => if f.1 = p then (p, f.2) else f) = fs.map id := by
      apply List.map_congr_left
      intro f hf
      rw [if_neg (hq f hf)]; rfl
    rw [this, List.map_id]
  · rw [List.filter_eq_self.mpr]
    intro f hf
    exact decide_eq_true (hq f hf)

theorem fold_rename {e b : Part} (he : e ≠ .empty) (hb : b ≠ .empty) (hne : e ≠ b) :
    ∀ (ps : List Path) (fs : Files), ps.Nodup → (∀ p ∈ ps, p.isExt e = true ∧ p.stemmed) →
      (∀ p ∈ ps, ∀ f ∈ fs, f.1 ≠ p.withSuffix b) →
      ps.foldl (fun fs p => rename p (p.withSuffix b) fs) fs
        = fs.map fun f => if f.1 ∈ ps then (f.1.withSuffix b, f.2) else f := by
  intro ps
  induction ps with
  | nil =>
    intro fs _ _ _
    simp
  | cons p ps ih =>
    intro fs hnd hps hfs
    rw [List.foldl_cons, rename_absent (hfs p (List.mem_cons_self ..))]
    obtain ⟨hp, hnd'⟩ := List.nodup_cons.mp hnd
    rw [ih _ hnd' (fun q hq => hps q (List.mem_cons_of_mem _ hq))]
    · rw [List.map_map]
      apply List.map_congr_left
      intro f hf
      simp only [Function.comp]
      by_cases h1 : f.1 = p
      · rw [if_pos h1]
        have h3 : p.withSuffix b ∉ ps := by
          intro hm
          have h4 := (hps _ (List.mem_cons_of_mem _ hm)).1
          have h5 := (withSuffix_isExt (b := b) he (hps p (List.mem_cons_self ..)).1 (hps p (List.mem_cons_self ..)).2).1
          exact hne (isExt_unique h4 h5)
        rw [if_neg h3, if_pos (by rw [h1]; exact List.mem_cons_self ..), h1]
      · rw [if_neg h1]
        simp only [List.mem_cons, h1, false_or]
    · intro q hq f hf
      obtain ⟨g, hg, rfl⟩ := List.mem_map.mp hf
      by_cases h1 : g.1 = p
      · rw [if_pos h1]
        intro h2
        have h3 := hps p (List.mem_cons_self ..)
        have h4 := hps q (List.mem_cons_of_mem _ hq)
        have h5 := congrArg (fun x => Path.withSuffix x e) h2
        simp only at h5
        rw [withSuffix_back he hb h3.1 h3.2, withSuffix_back he hb h4.1 h4.2] at h5
        exact hp (h5 ▸ hq)
      · rw [if_neg h1]
        exact hfs q (List.mem_cons_of_mem _ hq) g hg

theorem renameAll_eq {e b : Part} (he : e ≠ .empty) (hb : b ≠ .empty) (hne : e ≠ b) {fs : Files}
    (hnd : (fs.map (·.1)).Nodup) (hst : ∀ f ∈ fs, f.1.isExt e = true → f.1.stemmed)
    (hno : ∀ f ∈ fs, f.1.isExt b = false) :
    renameAll e b fs = fs.map fun f => (newName e b f.1, f.2) := by
  unfold renameAll
  rw [fold_rename he hb hne]
  · apply List.map_congr_left
    intro f hf
    unfold newName
    by_cases h : f.1.isExt e = true
    · rw [if_pos (List.mem_filter.mpr ⟨List.mem_map_of_mem hf, h⟩), if_pos h]
    · have h2 : f.1 ∉ (fs.map (·.1)).filter (·.isExt e) := fun hm => h (List.mem_filter.mp hm).2
      rw [if_neg h2, if_neg h]
  · exact hnd.filter _
  · intro p hp
    obtain ⟨h1, h2⟩ := List.mem_filter.mp hp
    obtain ⟨f, hf, rfl⟩ := List.mem_map.mp h1
    exact ⟨h2, hst f hf h2⟩
  · intro p hp f hf h
    obtain ⟨h1, h2⟩ := List.mem_filter.mp hp
    obtain ⟨g, hg, rfl⟩ := List.mem_map.mp h1
    have h3 := (withSuffix_isExt (b := b) he h2 (hst g hg h2)).1
    rw [← h, hno f hf] at h3
    cases h3

theorem newName_back {e b : Part} (he : e ≠ .empty) (hb : b ≠ .empty) {p : Path}
    (hst : p.isExt e = true → p.stemmed) (hno : p.isExt b = false) : newName b e (newName e b p) = p := by
  unfold newName
  by_cases h : p.isExt e = true
  · rw [if_pos h, if_pos (withSuffix_isExt he h (hst h)).1, withSuffix_back he hb h (hst h)]
  · rw [if_neg h, if_neg (by rw [hno]; exact Bool.false_ne_true)]

theorem newName_other {e b : Part} {p : Path} (h : p.isExt e = false) : newName e b p = p := by
  unfold newName
  rw [if_neg (by rw [h]; exact Bool.false_ne_true)]

/-- The extension of a new name. -/
theorem newName_isExt {e b c : Part} (he : e ≠ .empty) {p : Path} (hst : p.isExt e = true → p.stemmed) :
    (newName e b p).isExt c = true ↔ (p.isExt e = true ∧ c = b) ∨ (p.isExt e = false ∧ p.isExt c = true) := by
  unfold newName
  by_cases h : p.isExt e = true
  · rw [if_pos h]
    have h1 := (withSuffix_isExt (b := b) he h (hst h)).1
    constructor
    · intro h2; exact Or.inl ⟨h, isExt_unique h2 h1⟩
    · rintro (⟨_, rfl⟩ | ⟨h2, _⟩)
      · exact h1
      · rw [h] at h2; cases h2
  · rw [if_neg h]
    constructor
    · intro h2; exact Or.inr ⟨by simpa using h, h2⟩
    · rintro (⟨h2, _⟩ | ⟨_, h2⟩)
      · exact absurd h2 h
      · exact h2

/-- New names of stemmed names are stemmed. -/
theorem newName_stemmed {e b : Part} (he : e ≠ .empty) {p : Path} (hst : p.stemmed) : (newName e b p).stemmed := by
  unfold newName
  by_cases h : p.isExt e = true
  · rw [if_pos h]; exact (withSuffix_isExt he h hst).2
  · rw [if_neg h]; exact hst

/-- Files that can be renamed from `e` to `b` without a clash. -/
structure Ready (e b : Part) (fs : Files) : Prop where
  nodup : (fs.map (·.1)).Nodup
  stem : ∀ f ∈ fs, f.1.isExt e = true → f.1.stemmed
  free : ∀ f ∈ fs, f.1.isExt b = false

theorem nodup_map {α β : Type} {l : List α} {g : α → β} (h : l.Nodup)
    (hi : ∀ x ∈ l, ∀ y ∈ l, g x = g y → x = y) : (l.map g).Nodup := by
  induction l with
  | nil => exact List.nodup_nil
  | cons a l ih =>
    obtain ⟨h1, h2⟩ := List.nodup_cons.mp h
    rw [List.map_cons, List.nodup_cons]
    refine ⟨?_, ih h2 fun x hx y hy => hi x (List.mem_cons_of_mem _ hx) y (List.mem_cons_of_mem _ hy)⟩
    intro hm
    obtain ⟨y, hy, hg⟩ := List.mem_map.mp hm
    have := hi y (List.mem_cons_of_mem _ hy) a (List.mem_cons_self ..) hg
    exact h1 (this ▸ hy)

theorem renameAll_nodup {e b : Part} (he : e ≠ .empty) (hb : b ≠ .empty) (hne : e ≠ b) {fs : Files} (h : Ready e b fs) :
    ((renameAll e b fs).map (·.1)).Nodup := by
  rw [renameAll_eq he hb hne h.nodup h.stem h.free, List.map_map]
  have : ((fun f : Path × Nat => f.1) ∘ fun f : Path × Nat => (newName e b f.1, f.2)) = newName e b ∘ fun f => f.1 := rfl
  rw [this, ← List.map_map]
  apply nodup_map h.nodup
  intro x hx y hy hxy
  obtain ⟨f, hf, rfl⟩ := List.mem_map.mp hx
  obtain ⟨g, hg, rfl⟩ := List.mem_map.mp hy
  have h1 := newName_back he hb (h.stem f hf) (h.free f hf)
  have h2 := newName_back he hb (h.stem g hg) (h.free g hg)
  rw [← h1, ← h2]
  exact congrArg (newName b e) hxy

/-- Renaming forth and back. -/
theorem renameAll_back {e b : Part} (he : e ≠ .empty) (hb : b ≠ .empty) (hne : e ≠ b) {fs : Files} (h : Ready e b fs) :
    renameAll b e (renameAll e b fs) = fs ∧ Ready b e (renameAll e b fs) := by
  have hr : Ready b e (renameAll e b fs) := by
    refine ⟨renameAll_nodup he hb hne h, ?_, ?_⟩
    · rw [renameAll_eq he hb hne h.nodup h.stem h.free]
      intro f hf hx
      obtain ⟨g, hg, rfl⟩ := List.mem_map.mp hf
      rcases (newName_isExt he (h.stem g hg)).mp hx with ⟨h1, _⟩ | ⟨_, h1⟩
      · exact newName_stemmed he (h.stem g hg h1)
      · rw [h.free g hg] at h1; cases h1
    · rw [renameAll_eq he hb hne h.nodup h.stem h.free]
      intro f hf
      obtain ⟨g, hg, rfl⟩ := List.mem_map.mp hf
      apply Bool.eq_false_iff.mpr
      intro hx
      rcases (newName_isExt he (h.stem g hg)).mp hx with ⟨_, h1⟩ | ⟨h1, h2⟩
      · exact hne h1
      · rw [h1] at h2; cases h2
  refine ⟨?_, hr⟩
  rw [renameAll_eq hb he (Ne.symm hne) hr.nodup hr.stem hr.free, renameAll_eq he hb hne h.nodup h.stem h.free, List.map_map]
  have : fs.map ((fun f : Path × Nat => (newName b e f.1, f.2)) ∘ fun f => (newName e b f.1, f.2)) = fs.map id := by
    apply List.map_congr_left
    intro f hf
    simp only [Function.comp, id]
    rw [newName_back he hb (h.stem f hf) (h.free f hf)]
  rw [this, List.map_id]

/-- Renaming another extension leaves files ready. -/
theorem Ready.other {e b e' b' : Part} (he : e ≠ .empty) (hb : b ≠ .empty) (hne : e ≠ b) {fs : Files}
    (h : Ready e b fs) (h' : Ready e' b' fs) (h1 : b ≠ e') (h2 : b ≠ b') : Ready e' b' (renameAll e b fs) := by
  refine ⟨renameAll_nodup he hb hne h, ?_, ?_⟩
  · rw [renameAll_eq he hb hne h.nodup h.stem h.free]
    intro f hf hx
    obtain ⟨g, hg, rfl⟩ := List.mem_map.mp hf
    rcases (newName_isExt he (h.stem g hg)).mp hx with ⟨_, h3⟩ | ⟨_, h3⟩
    · exact absurd h3.symm h1
    · exact newName_stemmed he (h'.stem g hg h3)
  · rw [renameAll_eq he hb hne h.nodup h.stem h.free]
    intro f hf
    obtain ⟨g, hg, rfl⟩ := List.mem_map.mp hf
    apply Bool.eq_false_iff.mpr
    intro hx
    rcases (newName_isExt he (h.stem g hg)).mp hx with ⟨_, h3⟩ | ⟨_, h3⟩
    · exact h2 h3.symm
    · rw [h'.free g hg] at h3; cases h3

/-- Renaming two extensions commutes. -/
theorem renameAll_comm {e b e' b' : Part} (he : e ≠ .empty) (hb : b ≠ .empty) (hne : e ≠ b) (he' : e' ≠ .empty)
    (hb' : b' ≠ .empty) (hne' : e' ≠ b') {fs : Files} (h : Ready e b fs) (h' : Ready e' b' fs)
    (h1 : b ≠ e') (h2 : b ≠ b') (h3 : b' ≠ e) (h4 : e ≠ e') :
    renameAll e b (renameAll e' b' fs) = renameAll e' b' (renameAll e b fs) := by
  have r1 := Ready.other he' hb' hne' h' h h3 (Ne.symm h2)
  have r2 := Ready.other he hb hne h h' h1 h2
  rw [renameAll_eq he hb hne r1.nodup r1.stem r1.free, renameAll_eq he' hb' hne' r2.nodup r2.stem r2.free,
    renameAll_eq he hb hne h.nodup h.stem h.free, renameAll_eq he' hb' hne' h'.nodup h'.stem h'.free,
    List.map_map, List.map_map]
  apply List.map_congr_left
  intro f hf
  simp only [Function.comp, Prod.mk.injEq, and_true]
  by_cases k : f.1.isExt e = true
  · have k' : f.1.isExt e' = false := Bool.eq_false_iff.mpr fun x => h4 (isExt_unique k x)
    have n1 : newName e' b' f.1 = f.1 := by unfold newName; rw [if_neg (by rw [k']; exact Bool.false_ne_true)]
    have n2 : (newName e b f.1).isExt e' = false := by
      apply Bool.eq_false_iff.mpr
      intro x
      rcases (newName_isExt he (h.stem f hf)).mp x with ⟨_, y⟩ | ⟨y, _⟩
      · exact h1 y.symm
      · rw [k] at y; cases y
    rw [n1, newName_other n2]
  · have k' : f.1.isExt e = false := by simpa using k
    have n1 : newName e b f.1 = f.1 := by unfold newName; rw [if_neg k]
    have n2 : (newName e' b' f.1).isExt e = false := by
      apply Bool.eq_false_iff.mpr
      intro x
      rcases (newName_isExt he' (h'.stem f hf)).mp x with ⟨_, y⟩ | ⟨_, y⟩
      · exact h3 y.symm
      · exact k y
    rw [n1, newName_other n2]

/-- Names after a renaming. -/
theorem rename_mem {p q : Path} {fs : Files} {f : Path × Nat} (h : f ∈ rename p q fs) :
    f.1 = q ∨ (f ∈ fs ∧ (f.1 ≠ p ∨ p = q)) := by
  unfold rename at h
  split at h
  · rename_i hpq; exact Or.inr ⟨h, Or.inr hpq⟩
  · obtain ⟨g, hg, rfl⟩ := List.mem_map.mp h
    by_cases hgp : g.1 = p
    · rw [if_pos hgp]; exact Or.inl rfl
    · rw [if_neg hgp]; exact Or.inr ⟨(List.mem_filter.mp hg).1, Or.inl hgp⟩

/-- After renaming all files with an extension none has it. -/
theorem renameAll_none {e b : Part} (he : e ≠ .empty) (hne : e ≠ b) {fs : Files}
    (hst : ∀ f ∈ fs, f.1.isExt e = true → f.1.stemmed) :
    ∀ f ∈ renameAll e b fs, f.1.isExt e = false ∧ (f ∈ fs ∨ f.1.isExt b = true ∧ f.1.stemmed) := by
  have key : ∀ (ps : List Path) (gs : Files), (∀ p ∈ ps, p.isExt e = true ∧ p.stemmed) →
      (∀ f ∈ gs, (f.1.isExt e = true → f.1 ∈ ps) ∧ (f ∈ fs ∨ f.1.isExt b = true ∧ f.1.stemmed)) →
      ∀ f ∈ ps.foldl (fun fs p => rename p (p.withSuffix b) fs) gs,
        f.1.isExt e = false ∧ (f ∈ fs ∨ f.1.isExt b = true ∧ f.1.stemmed) := by
    intro ps
    induction ps with
    | nil =>
      intro gs _ hgs f hf
      refine ⟨Bool.eq_false_iff.mpr fun x => ?_, (hgs f hf).2⟩
      cases (hgs f hf).1 x
    | cons p ps ih =>
      intro gs hps hgs
      rw [List.foldl_cons]
      apply ih _ (fun q hq => hps q (List.mem_cons_of_mem _ hq))
      have hp := hps p (List.mem_cons_self ..)
      have hw := withSuffix_isExt (b := b) he hp.1 hp.2
      intro f hf
      rcases rename_mem hf with h | ⟨h, h'⟩
      · rw [h]
        exact ⟨fun x => absurd (isExt_unique x hw.1) hne, Or.inr hw⟩
      · refine ⟨fun x => ?_, (hgs f h).2⟩
        rcases h' with h' | h'
        · exact (List.mem_cons.mp ((hgs f h).1 x)).resolve_left h'
        · rw [← h'] at hw
          exact absurd (isExt_unique hp.1 hw.1) hne
  unfold renameAll
  apply key
  · intro p hp
    obtain ⟨h1, h2⟩ := List.mem_filter.mp hp
    obtain ⟨f, hf, rfl⟩ := List.mem_map.mp h1
    exact ⟨h2, hst f hf h2⟩
  · intro f hf
    exact ⟨fun x => List.mem_filter.mpr ⟨List.mem_map_of_mem hf, x⟩, Or.inl hf⟩

end Psygnal.Decomp
