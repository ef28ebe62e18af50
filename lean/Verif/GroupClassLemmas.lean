import Verif.GroupClass

/-! # Lemmas about `GroupClass` -/
namespace Psygnal.GC

/-! ## Dicts -/

theorem lookup_put {α : Type} (k : Nat) (v : α) (k' : Nat) : ∀ l : List (Nat × α),
    (put k v l).lookup k' = if k' = k then some v else l.lookup k'
  | [] => by
    by_cases h : k' = k
    · simp [put, List.lookup, h]
    · have : (k' == k) = false := by simpa using h
      simp [put, List.lookup, h, this]
  | (a, b) :: l => by
    have ih := lookup_put k v k' l
    unfold put
    split
    · rename_i h; subst h
      by_cases h : k' = a <;> simp [List.lookup, h]
      have : (k' == a) = false := by simpa using h
      simp [this]
    · rename_i h
      by_cases h1 : k' = a
      · subst h1; simp [List.lookup, h]
      · have : (k' == a) = false := by simpa using h1
        simp [List.lookup, this, ih]

theorem mem_keys_put {α : Type} (k : Nat) (v : α) (k' : Nat) : ∀ l : List (Nat × α),
    k' ∈ (put k v l).map Prod.fst ↔ k' = k ∨ k' ∈ l.map Prod.fst
  | [] => by simp [put]
  | (a, b) :: l => by
    have ih := mem_keys_put k v k' l
    unfold put
    split
    · rename_i h; subst h; simp
    · simp only [List.map_cons, List.mem_cons, ih]; grind

theorem nodup_put {α : Type} (k : Nat) (v : α) : ∀ {l : List (Nat × α)}, (l.map Prod.fst).Nodup →
    ((put k v l).map Prod.fst).Nodup
  | [], _ => by simp [put]
  | (a, b) :: l, h => by
    have ih := nodup_put k v (l := l) (List.nodup_cons.mp h).2
    unfold put
    split
    · rename_i h1; subst h1; exact h
    · rename_i h1
      refine List.nodup_cons.mpr ⟨fun h2 => ?_, ih⟩
      rcases (mem_keys_put k v a l).mp h2 with h2 | h2
      · exact h1 h2
      · exact (List.nodup_cons.mp h).1 h2

theorem lookup_isSome {α : Type} {k : Nat} : ∀ {l : List (Nat × α)}, (l.lookup k).isSome ↔ k ∈ l.map Prod.fst
  | [] => by simp [List.lookup]
  | (a, b) :: l => by
    by_cases h : k = a
    · subst h; simp [List.lookup]
    · have : (k == a) = false := by simpa using h
      simp [List.lookup, this, lookup_isSome (l := l), h]

theorem lookup_mem {α : Type} {k : Nat} {v : α} : ∀ {l : List (Nat × α)}, l.lookup k = some v → (k, v) ∈ l
  | (a, b) :: l, h => by
    by_cases h1 : k = a
    · subst h1; simp [List.lookup] at h; subst h; simp
    · have : (k == a) = false := by simpa using h1
      simp [List.lookup, this] at h
      exact List.mem_cons_of_mem _ (lookup_mem h)

theorem mem_lookup {α : Type} {k : Nat} {v : α} : ∀ {l : List (Nat × α)}, (l.map Prod.fst).Nodup → (k, v) ∈ l →
    l.lookup k = some v
  | (a, b) :: l, hn, h => by
    have hn := List.nodup_cons.mp hn
    rcases List.mem_cons.mp h with h | h
    · cases h; simp [List.lookup]
    · have : k ≠ a := fun h1 => hn.1 (h1 ▸ List.mem_map.mpr ⟨(k, v), h, rfl⟩)
      have : (k == a) = false := by simpa using this
      simp [List.lookup, this]
      exact mem_lookup hn.2 h

theorem lookup_foldl_put {α : Type} (k : Nat) : ∀ (b : List (Nat × α)) (a : List (Nat × α)), (b.map Prod.fst).Nodup →
    (b.foldl (fun d x => put x.1 x.2 d) a).lookup k = (b.lookup k).or (a.lookup k)
  | [], _, _ => by simp [List.lookup]
  | (k', v) :: b, a, h => by
    have hn := List.nodup_cons.mp h
    rw [List.foldl_cons, lookup_foldl_put k b _ hn.2, lookup_put]
    by_cases h1 : k = k'
    · subst h1
      have : b.lookup k = none := by
        cases hb : b.lookup k with
        | none => rfl
        | some w => exact absurd (lookup_isSome.mp (by simp [hb])) hn.1
      simp [List.lookup, this]
    · have : (k == k') = false := by simpa using h1
      simp [List.lookup, this, h1]

theorem lookup_merge {α : Type} (a b : List (Nat × α)) (h : (b.map Prod.fst).Nodup) (k : Nat) :
    (merge a b).lookup k = (b.lookup k).or (a.lookup k) := lookup_foldl_put k b a h

theorem nodup_merge {α : Type} : ∀ (b a : List (Nat × α)), (a.map Prod.fst).Nodup → ((merge a b).map Prod.fst).Nodup
  | [], _, h => h
  | x :: b, a, h => nodup_merge b (put x.1 x.2 a) (nodup_put x.1 x.2 h)

/-! ## `dir` -/

theorem mem_insertName (k k' : Nat) : ∀ l : List Nat, k' ∈ insertName k l ↔ k' = k ∨ k' ∈ l
  | [] => by simp [insertName]
  | x :: l => by
    have ih := mem_insertName k k' l
    unfold insertName
    split
    · simp
    · split
      · rename_i h; subst h; simp
      · simp only [List.mem_cons, ih]; grind

theorem mem_sortNames (k : Nat) : ∀ l : List Nat, k ∈ sortNames l ↔ k ∈ l
  | [] => by simp [sortNames]
  | x :: l => by
    have ih := mem_sortNames k l
    simp only [sortNames, List.foldr_cons, mem_insertName, List.mem_cons] at ih ⊢
    rw [ih]

theorem sorted_insertName (k : Nat) : ∀ {l : List Nat}, l.Pairwise (· < ·) → (insertName k l).Pairwise (· < ·)
  | [], _ => by simp [insertName]
  | x :: l, h => by
    have h' := List.pairwise_cons.mp h
    unfold insertName
    split
    · rename_i hk
      refine List.pairwise_cons.mpr ⟨fun y hy => ?_, h⟩
      rcases List.mem_cons.mp hy with hy | hy
      · subst hy; exact hk
      · exact Nat.lt_trans hk (h'.1 y hy)
    · split
      · exact h
      · refine List.pairwise_cons.mpr ⟨fun y hy => ?_, sorted_insertName k h'.2⟩
        rcases (mem_insertName k y l).mp hy with hy | hy
        · omega
        · exact h'.1 y hy

theorem sorted_sortNames : ∀ l : List Nat, (sortNames l).Pairwise (· < ·)
  | [] => List.Pairwise.nil
  | _ :: l => sorted_insertName _ (sorted_sortNames l)

/-! ## Collecting -/

theorem lookMro_mem {ds : List (List (Nat × Attr))} {k : Nat} {a : Attr} (h : lookMro ds k = some a) :
    ∃ d ∈ ds, (k, a) ∈ d := by
  obtain ⟨d, hd, h1⟩ := List.exists_of_findSome?_eq_some h
  exact ⟨d, hd, lookup_mem h1⟩

/-- The signal that is visible under a name. -/
def visible (ds : List (List (Nat × Attr))) (k : Nat) : Option Nat :=
  match lookMro ds k with
  | some (.signal s) => some s
  | _ => none

theorem visible_eq {ds : List (List (Nat × Attr))} {k s : Nat} : visible ds k = some s ↔ lookMro ds k = some (.signal s) := by
  unfold visible
  cases h : lookMro ds k with
  | none => simp
  | some a => cases a <;> simp

theorem collect_eq (ds : List (List (Nat × Attr))) : collect ds =
    (sortNames (ds.flatten.map Prod.fst)).filterMap fun k => (visible ds k).map (k, ·) := by
  unfold collect
  congr
  funext k
  unfold visible
  cases h : lookMro ds k with
  | none => simp
  | some a => cases a <;> simp

theorem mem_collect {ds : List (List (Nat × Attr))} {k s : Nat} : (k, s) ∈ collect ds ↔ visible ds k = some s := by
  rw [collect_eq, List.mem_filterMap]
  constructor
  · rintro ⟨k', _, h⟩
    cases hv : visible ds k' with
    | none => simp [hv] at h
    | some s' =>
      rw [hv] at h
      simp at h
      rw [← h.1, hv, h.2]
  · intro h
    obtain ⟨d, hd, h1⟩ := lookMro_mem (visible_eq.mp h)
    refine ⟨k, ?_, by simp [h]⟩
    rw [mem_sortNames]
    exact List.mem_map.mpr ⟨(k, .signal s), List.mem_flatten.mpr ⟨d, hd, h1⟩, rfl⟩

theorem collect_sorted (ds : List (List (Nat × Attr))) : ((collect ds).map Prod.fst).Pairwise (· < ·) := by
  rw [collect_eq]
  have h := sorted_sortNames (ds.flatten.map Prod.fst)
  generalize sortNames (ds.flatten.map Prod.fst) = l at h
  induction l with
  | nil => exact List.Pairwise.nil
  | cons k l ih =>
    have h := List.pairwise_cons.mp h
    cases hv : visible ds k with
    | none => rw [List.filterMap_cons_none (by simp [hv])]; exact ih h.2
    | some s =>
      rw [List.filterMap_cons_some (b := (k, s)) (by simp [hv])]
      refine List.pairwise_cons.mpr ⟨fun k' hk' => ?_, ih h.2⟩
      obtain ⟨x, hx, rfl⟩ := List.mem_map.mp hk'
      obtain ⟨k2, hk2, h2⟩ := List.mem_filterMap.mp hx
      cases hv2 : visible ds k2 with
      | none => simp [hv2] at h2
      | some s2 =>
        rw [hv2] at h2
        simp at h2
        rw [← h2]
        exact h.1 k2 hk2

theorem nodup_of_sorted {l : List Nat} (h : l.Pairwise (· < ·)) : l.Nodup :=
  h.imp fun h => Nat.ne_of_lt h

theorem collect_nodup (ds : List (List (Nat × Attr))) : ((collect ds).map Prod.fst).Nodup :=
  nodup_of_sorted (collect_sorted ds)

theorem lookup_collect (ds : List (List (Nat × Attr))) (k : Nat) : (collect ds).lookup k = visible ds k := by
  cases hv : visible ds k with
  | some s => exact mem_lookup (collect_nodup ds) (mem_collect.mpr hv)
  | none =>
    cases hc : (collect ds).lookup k with
    | none => rfl
    | some s => rw [mem_collect.mp (lookup_mem hc)] at hv; cases hv

/-! ## Conflicts -/

theorem lookup_filter_ne {α : Type} (k k' : Nat) : ∀ l : List (Nat × α),
    (l.filter fun x => x.1 ≠ k).lookup k' = if k' = k then none else l.lookup k'
  | [] => by simp [List.lookup]
  | (a, b) :: l => by
    have ih := lookup_filter_ne k k' l
    by_cases h : a = k
    · subst h
      rw [List.filter_cons_of_neg (by simp), ih]
      by_cases h1 : k' = a
      · simp [h1]
      · have : (k' == a) = false := by simpa using h1
        simp [List.lookup, this, h1]
    · rw [List.filter_cons_of_pos (by simpa using h)]
      by_cases h1 : k' = a
      · subst h1; simp [List.lookup, h]
      · have : (k' == a) = false := by simpa using h1
        simp only [List.lookup, this, ih]

/-- After the loop over the conflicts: the other names are as they were, the conflicts are no signals of the class. -/
theorem delConflicts_ok {mro : List (List (Nat × Attr))} : ∀ {ks : List Nat} {dict dict' : List (Nat × Attr)},
    delConflicts mro ks dict = .ok dict' →
    (∀ x ∈ dict', x ∈ dict) ∧ (∀ k, k ∉ ks → dict'.lookup k = dict.lookup k) ∧
    (∀ k ∈ ks, ∀ s, dict'.lookup k ≠ some (.signal s))
  | [], dict, dict', h => by
    cases h
    exact ⟨fun _ h => h, fun _ _ => rfl, fun _ h => by cases h⟩
  | k :: ks, dict, dict', h => by
    unfold delConflicts at h
    split at h
    · cases h
    · split at h
      · obtain ⟨h1, h2, h3⟩ := delConflicts_ok h
        refine ⟨fun x hx => (List.mem_filter.mp (h1 x hx)).1, fun k' hk' => ?_, fun k' hk' s => ?_⟩
        · have h4 : k' ≠ k ∧ k' ∉ ks := by simpa using hk'
          rw [h2 k' h4.2, lookup_filter_ne, if_neg h4.1]
        · by_cases h4 : k' ∈ ks
          · exact h3 k' h4 s
          · have : k' = k := by
              rcases List.mem_cons.mp hk' with h5 | h5
              · exact h5
              · exact absurd h5 h4
            rw [h2 k' h4, lookup_filter_ne, if_pos this]
            simp
      · cases h
    · rename_i a ha hl
      obtain ⟨h1, h2, h3⟩ := delConflicts_ok h
      refine ⟨h1, fun k' hk' => h2 k' (fun h => hk' (List.mem_cons_of_mem _ h)), fun k' hk' s => ?_⟩
      by_cases h4 : k' ∈ ks
      · exact h3 k' h4 s
      · have : k' = k := by
          rcases List.mem_cons.mp hk' with h5 | h5
          · exact h5
          · exact absurd h5 h4
        subst this
        rw [h2 k' h4]
        intro h5
        simp [lookMro, h5] at hl
        exact ha s hl.symm

theorem lookMro_cons (d : List (Nat × Attr)) (ds : List (List (Nat × Attr))) (k : Nat) :
    lookMro (d :: ds) k = (d.lookup k).or (lookMro ds k) := by
  unfold lookMro
  rw [List.findSome?_cons]
  cases d.lookup k <;> rfl

/-- The loop succeeds if each conflict is an attribute and, if a signal, one of the class body. -/
theorem delConflicts_succeeds {mro : List (List (Nat × Attr))} : ∀ {ks : List Nat} {dict : List (Nat × Attr)}, ks.Nodup →
    (∀ k ∈ ks, (lookMro (dict :: mro) k).isSome ∧ ∀ s, lookMro (dict :: mro) k = some (.signal s) → (dict.lookup k).isSome) →
    ∃ dict', delConflicts mro ks dict = .ok dict'
  | [], dict, _, _ => ⟨dict, rfl⟩
  | k :: ks, dict, hn, h => by
    have hn := List.nodup_cons.mp hn
    obtain ⟨h1, h2⟩ := h k (List.mem_cons_self ..)
    unfold delConflicts
    cases hl : lookMro (dict :: mro) k with
    | none => simp [hl] at h1
    | some a =>
      have hother : ∃ dict', delConflicts mro ks dict = .ok dict' :=
        delConflicts_succeeds hn.2 fun k' hk' => h k' (List.mem_cons_of_mem _ hk')
      cases a with
      | plain => exact hother
      | data => exact hother
      | signal s =>
        simp only [h2 s hl, if_true]
        refine delConflicts_succeeds hn.2 fun k' hk' => ?_
        have hne : k' ≠ k := fun e => hn.1 (e ▸ hk')
        have := h k' (List.mem_cons_of_mem _ hk')
        rw [lookMro_cons] at this ⊢
        rw [lookup_filter_ne, if_neg hne]
        exact this

end Psygnal.GC
