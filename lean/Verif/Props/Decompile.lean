import Verif.DecompileLemmas

/-!
# C72: `decompile` and `recompile` undo each other

Files carry an arbitrary number as content.  `p.isExt e`: the name ends with the extension `e`.
`p.stemmed`: the name is more than an extension behind a dot.
-/
namespace Psygnal.Decomp

/-- **C72 (partial).** When no file has a name of a backup, `recompile` after `decompile` gives back all files with their names and contents. -/
theorem C72_roundtrip_partial (fs : Files) (hnd : (fs.map (·.1)).Nodup)
    (hst : ∀ f ∈ fs, f.1.isExt .so = true ∨ f.1.isExt .pyd = true → f.1.stemmed)
    (hno : ∀ f ∈ fs, f.1.isExt .soBak = false ∧ f.1.isExt .pydBak = false) :
    recompile (decompile fs) = fs := by
  have r1 : Ready .so .soBak fs := ⟨hnd, fun f hf h => hst f hf (Or.inl h), fun f hf => (hno f hf).1⟩
  have r2 : Ready .pyd .pydBak fs := ⟨hnd, fun f hf h => hst f hf (Or.inr h), fun f hf => (hno f hf).2⟩
  have r3 := Ready.other (by decide) (by decide) (by decide) r1 r2 (by decide) (by decide)
  have b1 := renameAll_back (by decide) (by decide) (by decide) r1
  have b2 := renameAll_back (by decide) (by decide) (by decide) r2
  unfold recompile decompile
  rw [renameAll_comm (by decide) (by decide) (by decide) (by decide) (by decide) (by decide) b1.2 r3 (by decide)
    (by decide) (by decide) (by decide), b1.1, b2.1]

/-- **C72 (partial).** When no compiled file is in its place, `decompile` after `recompile` gives back all files with their names and contents. -/
theorem C72_back_partial (fs : Files) (hnd : (fs.map (·.1)).Nodup)
    (hst : ∀ f ∈ fs, f.1.isExt .soBak = true ∨ f.1.isExt .pydBak = true → f.1.stemmed)
    (hno : ∀ f ∈ fs, f.1.isExt .so = false ∧ f.1.isExt .pyd = false) :
    decompile (recompile fs) = fs := by
  have r1 : Ready .soBak .so fs := ⟨hnd, fun f hf h => hst f hf (Or.inl h), fun f hf => (hno f hf).1⟩
  have r2 : Ready .pydBak .pyd fs := ⟨hnd, fun f hf h => hst f hf (Or.inr h), fun f hf => (hno f hf).2⟩
  have r3 := Ready.other (by decide) (by decide) (by decide) r1 r2 (by decide) (by decide)
  have b1 := renameAll_back (by decide) (by decide) (by decide) r1
  have b2 := renameAll_back (by decide) (by decide) (by decide) r2
  unfold recompile decompile
  rw [renameAll_comm (by decide) (by decide) (by decide) (by decide) (by decide) (by decide) b1.2 r3 (by decide)
    (by decide) (by decide) (by decide), b1.1, b2.1]

/-- **C72.** After `decompile` no compiled file is left in its place, whatever backups were there before. -/
theorem C72_none (fs : Files) (hst : ∀ f ∈ fs, f.1.isExt .so = true ∨ f.1.isExt .pyd = true → f.1.stemmed) :
    ∀ f ∈ decompile fs, f.1.isExt .so = false ∧ f.1.isExt .pyd = false := by
  have n1 := renameAll_none (b := .soBak) (by decide) (by decide) (fun f hf h => hst f hf (Or.inl h))
  have n2 := renameAll_none (e := .pyd) (b := .pydBak) (fs := renameAll .so .soBak fs) (by decide) (by decide)
    (fun f hf h => by
      rcases (n1 f hf).2 with h' | h'
      · exact hst f h' (Or.inr h)
      · exact h'.2)
  intro f hf
  refine ⟨?_, (n2 f hf).1⟩
  rcases (n2 f hf).2 with h | h
  · exact (n1 f h).1
  · exact Bool.eq_false_iff.mpr fun x => by cases isExt_unique x h.1

/-- **C72 (partial).** When no file has a name of a backup, `decompile` loses no contents, gives the compiled files their new names and leaves
the other files alone. -/
theorem C72_names_partial (fs : Files) (hnd : (fs.map (·.1)).Nodup)
    (hst : ∀ f ∈ fs, f.1.isExt .so = true ∨ f.1.isExt .pyd = true → f.1.stemmed)
    (hno : ∀ f ∈ fs, f.1.isExt .soBak = false ∧ f.1.isExt .pydBak = false) :
    decompile fs = fs.map fun f =>
      (if f.1.isExt .so then ⟨f.1.dir, f.1.name.dropLast ++ [.soBak]⟩
       else if f.1.isExt .pyd then ⟨f.1.dir, f.1.name.dropLast ++ [.pydBak]⟩ else f.1, f.2) := by
  have r1 : Ready .so .soBak fs := ⟨hnd, fun f hf h => hst f hf (Or.inl h), fun f hf => (hno f hf).1⟩
  have r2 : Ready .pyd .pydBak fs := ⟨hnd, fun f hf h => hst f hf (Or.inr h), fun f hf => (hno f hf).2⟩
  have r3 := Ready.other (by decide) (by decide) (by decide) r1 r2 (by decide) (by decide)
  unfold decompile
  rw [renameAll_eq (by decide) (by decide) (by decide) r3.nodup r3.stem r3.free,
    renameAll_eq (by decide) (by decide) (by decide) r1.nodup r1.stem r1.free, List.map_map]
  apply List.map_congr_left
  intro f hf
  simp only [Function.comp, Prod.mk.injEq, and_true]
  by_cases k : f.1.isExt .so = true
  · rw [if_pos k]
    have k1 : newName .so .soBak f.1 = ⟨f.1.dir, f.1.name.dropLast ++ [.soBak]⟩ := by
      unfold newName
      rw [if_pos k, withSuffix_ext (by decide) k (hst f hf (Or.inl k))]
    have k2 : (newName .so .soBak f.1).isExt .pyd = false := by
      apply Bool.eq_false_iff.mpr
      intro x
      rcases (newName_isExt (by decide) (r1.stem f hf)).mp x with ⟨_, y⟩ | ⟨y, _⟩
      · cases y
      · rw [k] at y; cases y
    rw [newName_other k2, k1]
  · rw [if_neg k]
    have k1 : newName .so .soBak f.1 = f.1 := by unfold newName; rw [if_neg k]
    rw [k1]
    unfold newName
    by_cases k2 : f.1.isExt .pyd = true
    · rw [if_pos k2, if_pos k2, withSuffix_ext (by decide) k2 (hst f hf (Or.inr k2))]
    · rw [if_neg k2, if_neg k2]

/-- Two compiled modules and two sources, in two directories. -/
def package : Files :=
  [(⟨0, [.other 1, .other 9, .so]⟩, 10), (⟨0, [.other 1, .other 3]⟩, 11), (⟨1, [.other 2, .pyd]⟩, 12), (⟨1, [.other 2, .other 3]⟩, 13)]

example : (package.map (·.1)).Nodup ∧ (∀ f ∈ package, f.1.isExt .so = true ∨ f.1.isExt .pyd = true → f.1.stemmed) ∧
    (∀ f ∈ package, f.1.isExt .soBak = false ∧ f.1.isExt .pydBak = false) ∧ decompile package ≠ package := by
  unfold Path.stemmed
  decide

example : ((decompile package).map (·.1)).Nodup ∧
    (∀ f ∈ decompile package, f.1.isExt .soBak = true ∨ f.1.isExt .pydBak = true → f.1.stemmed) ∧
    (∀ f ∈ decompile package, f.1.isExt .so = false ∧ f.1.isExt .pyd = false) ∧ recompile (decompile package) ≠ decompile package := by
  unfold Path.stemmed
  decide

/-- **C72, refuted in general.** A module compiled anew while the backup of an older one exists is replaced by the older one:
`recompile` then loses the newer file. -/
theorem C72_overwritten_refuted :
    ∃ fs : Files, (fs.map (·.1)).Nodup ∧ (⟨0, [.other 1, .so]⟩, 20) ∈ fs ∧ (⟨0, [.other 1, .soBak]⟩, 10) ∈ fs ∧
      recompile fs = [(⟨0, [.other 1, .so]⟩, 10)] ∧ decompile fs = [(⟨0, [.other 1, .soBak]⟩, 20)] ∧ recompile (decompile fs) ≠ fs :=
  ⟨[(⟨0, [.other 1, .so]⟩, 20), (⟨0, [.other 1, .soBak]⟩, 10)], by decide⟩

/-- **C72, refuted for names that are only an extension.** The file `.so` comes back as `.so.so`. -/
theorem C72_bare_refuted :
    recompile (decompile [(⟨0, [.empty, .so]⟩, 10)]) = [(⟨0, [.empty, .so, .so]⟩, 10)] := by decide

end Psygnal.Decomp
