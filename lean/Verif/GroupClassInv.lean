import Verif.GroupClassLemmas

/-! # Invariant of classes and groups -/
namespace Psygnal.GC

/-- Each signal is found under one name only, its own: the body of each class has it under `nm`. -/
def Own (nm : Nat → Nat) (dict : List (Nat × Attr)) : Prop := ∀ k s, (k, Attr.signal s) ∈ dict → nm s = k

/-- What is known of a class. -/
structure ClsOk (e : Env) (nm : Nat → Nat) (σ : St) (c : Nat) (cl : Cls) : Prop where
  mro : ∀ c' ∈ cl.mro, c' < c
  own : ∀ k s, (k, Attr.signal s) ∈ cl.dict → nm s = k ∧ σ.names s = some k
  sigs : ∀ l, cl.signals = some l → (l.map Prod.fst).Nodup ∧ cl.conflicts = (l.map Prod.fst).filter (σ.conflict e) ∧
    (∀ k s, (k, s) ∈ l → nm s = k ∧ σ.names s = some k) ∧
    (∀ k s, σ.attr c k = some (.signal s) → k ∈ l.map Prod.fst) ∧
    (∀ k s, cl.dict.lookup k = some (.signal s) → σ.conflict e k = false)

/-- What is known of a group. -/
structure GrpOk (e : Env) (σ : St) (g : Nat) (gr : Grp) : Prop where
  cls : ∃ cl l, σ.classes[gr.cls]? = some cl ∧ cl.signals = some l ∧ gr.inst.map Prod.fst = l.map Prod.fst ∧
    (∀ k i, (k, i) ∈ gr.inst → ∃ s, (k, s) ∈ l ∧ σ.sis[i]? = some ⟨s, g, some k⟩) ∧
    (∀ k i, (k, i) ∈ gr.inst → k ∉ cl.conflicts → σ.attr gr.cls k ≠ some .data → gr.dict.lookup k = some i) ∧
    (∀ k i, gr.dict.lookup k = some i → k ∈ l.map Prod.fst)
  dict : ∀ k i, gr.dict.lookup k = some i → (∃ s, σ.sis[i]? = some ⟨s, g, some k⟩) ∧
    (σ.conflict e k = false ∨ ∃ s, σ.attr gr.cls k = some (.signal s))

structure Inv (e : Env) (nm : Nat → Nat) (base : List (Nat × Attr)) (σ : St) : Prop where
  zero : σ.classes[0]? = some ⟨[], base, none, [], false⟩
  names : ∀ s, σ.names s = none ∨ σ.names s = some (nm s)
  cls : ∀ c cl, σ.classes[c]? = some cl → ClsOk e nm σ c cl
  grp : ∀ g gr, σ.groups[g]? = some gr → GrpOk e σ g gr
  cache : ∀ s g i, ((s, g), i) ∈ σ.cache → σ.sis[i]? = some ⟨s, g, some (nm s)⟩ ∧
    ∃ gr, σ.groups[g]? = some gr ∧ σ.attr gr.cls (nm s) = some .data

/-! ## Names -/

theorem setNames_mono (dict : List (Nat × Attr)) : ∀ (ns : Nat → Option Nat) (s k : Nat), ns s = some k →
    setNames dict ns s = some k := by
  unfold setNames
  induction dict with
  | nil => intro ns s k h; exact h
  | cons x dict ih =>
    intro ns s k h
    rw [List.foldl_cons]
    apply ih
    rcases x with ⟨k', a⟩
    cases a with
    | signal s' =>
      simp only
      split
      · rename_i h1; rw [← h1.1, h] at h1; simp at h1
      · exact h
    | plain => exact h
    | data => exact h

theorem setNames_own {nm : Nat → Nat} : ∀ {dict : List (Nat × Attr)} (ns : Nat → Option Nat), Own nm dict →
    (∀ s, ns s = none ∨ ns s = some (nm s)) →
    (∀ s, setNames dict ns s = none ∨ setNames dict ns s = some (nm s)) ∧
    (∀ k s, (k, Attr.signal s) ∈ dict → setNames dict ns s = some k) := by
  intro dict
  induction dict with
  | nil => intro ns _ hn; exact ⟨hn, fun _ _ h => by cases h⟩
  | cons x dict ih =>
    intro ns ho hn
    have ho' : Own nm dict := fun k s h => ho k s (List.mem_cons_of_mem _ h)
    rcases x with ⟨k', a⟩
    cases a with
    | plain =>
      obtain ⟨h1, h2⟩ := ih ns ho' hn
      refine ⟨h1, fun k s h => ?_⟩
      rcases List.mem_cons.mp h with h | h
      · cases h
      · exact h2 k s h
    | data =>
      obtain ⟨h1, h2⟩ := ih ns ho' hn
      refine ⟨h1, fun k s h => ?_⟩
      rcases List.mem_cons.mp h with h | h
      · cases h
      · exact h2 k s h
    | signal s' =>
      have hk : nm s' = k' := ho k' s' (List.mem_cons_self ..)
      have hn' : ∀ s, (fun s => if s = s' ∧ ns s' = none then some k' else ns s) s = none ∨
          (fun s => if s = s' ∧ ns s' = none then some k' else ns s) s = some (nm s) := by
        intro s
        simp only
        split
        · rename_i h; right; rw [h.1, hk]
        · exact hn s
      obtain ⟨h1, h2⟩ := ih _ ho' hn'
      refine ⟨h1, fun k s h => ?_⟩
      rcases List.mem_cons.mp h with h | h
      · cases h
        refine setNames_mono dict _ s' k' ?_
        simp only
        split
        · rfl
        · rename_i h3
          rcases hn s' with h4 | h4
          · simp [h4] at h3
          · rw [h4, hk]
      · exact h2 k s h

/-! ## Adding a class -/

theorem dictOf_append {σ σ' : St} {cl : Cls} (h : σ'.classes = σ.classes ++ [cl]) {c : Nat} (hc : c < σ.classes.length) :
    σ'.dictOf c = σ.dictOf c := by
  unfold St.dictOf
  rw [h, List.getElem?_append_left hc]

theorem attr_append {σ σ' : St} {cl : Cls} (h : σ'.classes = σ.classes ++ [cl]) {c : Nat} {cl' : Cls}
    (hc : σ.classes[c]? = some cl') (hm : ∀ c' ∈ cl'.mro, c' < c) (k : Nat) : σ'.attr c k = σ.attr c k := by
  have hlt := (List.getElem?_eq_some_iff.mp hc).1
  have h1 : σ'.classes[c]? = some cl' := by rw [h, List.getElem?_append_left hlt]; exact hc
  unfold St.attr St.dicts
  rw [h1, hc]
  simp only
  congr 2
  exact List.map_congr_left fun c' hc' => dictOf_append h (Nat.lt_trans (hm c' hc') hlt)

theorem conflict_congr {e : Env} {σ σ' : St} (h : σ'.dictOf 0 = σ.dictOf 0) : σ'.conflict e = σ.conflict e := by
  funext k
  unfold St.conflict
  rw [h]

theorem mem_keys_merge {α : Type} {k : Nat} : ∀ {b a : List (Nat × α)}, k ∈ (merge a b).map Prod.fst →
    k ∈ b.map Prod.fst ∨ k ∈ a.map Prod.fst
  | [], _, h => .inr h
  | x :: b, a, h => by
    rcases mem_keys_merge (b := b) (a := put x.1 x.2 a) h with h | h
    · exact .inl (List.mem_cons_of_mem _ h)
    · rcases (mem_keys_put x.1 x.2 k a).mp h with h | h
      · exact .inl (by rw [h]; exact List.mem_cons_self ..)
      · exact .inr h

theorem dictOf_mem {σ : St} {c : Nat} {x : Nat × Attr} (h : x ∈ σ.dictOf c) :
    ∃ cl, σ.classes[c]? = some cl ∧ x ∈ cl.dict := by
  unfold St.dictOf at h
  cases hc : σ.classes[c]? with
  | none => simp [hc] at h
  | some cl => simp [hc] at h; exact ⟨cl, rfl, h⟩

/-- The signals of a new class. -/
def newSignals (σ : St) (mro : List Nat) (dict : List (Nat × Attr)) : List (Nat × Nat) :=
  merge (σ.inherited mro) (collect (dict :: mro.map σ.dictOf))

theorem inherited_mem {σ : St} {mro : List Nat} {x : Nat × Nat} (h : x ∈ σ.inherited mro) :
    ∃ c cl l, c ∈ mro ∧ σ.classes[c]? = some cl ∧ cl.signals = some l ∧ σ.inherited mro = l := by
  unfold St.inherited at h ⊢
  cases hf : mro.findSome? fun c => (σ.classes[c]?).bind Cls.signals with
  | none => simp [hf] at h
  | some l =>
    obtain ⟨c, hc, h1⟩ := List.exists_of_findSome?_eq_some hf
    cases hcl : σ.classes[c]? with
    | none => simp [hcl] at h1
    | some cl =>
      simp [hcl] at h1
      exact ⟨c, cl, l, hc, hcl, h1, rfl⟩

theorem inherited_nodup {e : Env} {nm : Nat → Nat} {base : List (Nat × Attr)} {σ : St} (hi : Inv e nm base σ)
    (mro : List Nat) : ((σ.inherited mro).map Prod.fst).Nodup := by
  cases h : σ.inherited mro with
  | nil => exact List.nodup_nil
  | cons x l' =>
    obtain ⟨c, cl, l, _, h1, h2, h3⟩ := inherited_mem (σ := σ) (mro := mro) (x := x) (by rw [h]; exact List.mem_cons_self ..)
    rw [← h, h3]
    exact ((hi.cls c cl h1).sigs l h2).1

theorem lookup_newSignals (σ : St) (mro : List Nat) (dict : List (Nat × Attr)) (k : Nat) :
    (newSignals σ mro dict).lookup k =
      (visible (dict :: mro.map σ.dictOf) k).or ((σ.inherited mro).lookup k) := by
  unfold newSignals
  rw [lookup_merge _ _ (collect_nodup _), lookup_collect]

theorem newSignals_own {e : Env} {nm : Nat → Nat} {base : List (Nat × Attr)} {σ : St} (hi : Inv e nm base σ)
    {mro : List Nat} {dict : List (Nat × Attr)} (ho : Own nm dict) {k s : Nat} (h : (k, s) ∈ newSignals σ mro dict) :
    nm s = k ∧ setNames dict σ.names s = some k := by
  have hn : ((newSignals σ mro dict).map Prod.fst).Nodup := nodup_merge _ _ (inherited_nodup hi mro)
  have hl := mem_lookup hn h
  rw [lookup_newSignals] at hl
  obtain ⟨g1, g2⟩ := setNames_own σ.names ho hi.names
  cases hv : visible (dict :: mro.map σ.dictOf) k with
  | some s' =>
    rw [hv] at hl
    simp at hl
    subst hl
    obtain ⟨d, hd, hm⟩ := lookMro_mem (visible_eq.mp hv)
    rcases List.mem_cons.mp hd with hd | hd
    · subst hd; exact ⟨ho k s' hm, g2 k s' hm⟩
    · obtain ⟨c, _, rfl⟩ := List.mem_map.mp hd
      obtain ⟨cl, h1, h2⟩ := dictOf_mem hm
      obtain ⟨h3, h4⟩ := (hi.cls c cl h1).own k s' h2
      exact ⟨h3, setNames_mono dict _ _ _ h4⟩
  | none =>
    rw [hv] at hl
    simp at hl
    have hm := lookup_mem hl
    obtain ⟨c, cl, l, _, h1, h2, h3⟩ := inherited_mem hm
    rw [h3] at hm
    obtain ⟨h4, h5⟩ := ((hi.cls c cl h1).sigs l h2).2.2.1 k s hm
    exact ⟨h4, setNames_mono dict _ _ _ h5⟩

theorem grpOk_congr {e : Env} {σ σ' : St} {g : Nat} {gr : Grp} (hs : σ'.sis = σ.sis) (hco : σ'.conflict e = σ.conflict e)
    (hc : ∀ c cl, σ.classes[c]? = some cl → σ'.classes[c]? = some cl ∧ ∀ k, σ'.attr c k = σ.attr c k)
    (h : GrpOk e σ g gr) : GrpOk e σ' g gr := by
  obtain ⟨⟨cl, l, h1, h2, h3, h4, h5, h9⟩, h6⟩ := h
  obtain ⟨h7, h8⟩ := hc _ _ h1
  exact ⟨⟨cl, l, h7, h2, h3, fun k i hk => by rw [hs]; exact h4 k i hk,
    fun k i hk hn hd => h5 k i hk hn (by rw [← h8]; exact hd), h9⟩, fun k i hk => by rw [hs, hco, h8]; exact h6 k i hk⟩

/-- Adding a class (and naming signals) keeps the invariant of what was there. -/
theorem inv_addClass {e : Env} {nm : Nat → Nat} {base : List (Nat × Attr)} {σ σ' : St} (hi : Inv e nm base σ)
    {cl : Cls} (hc : σ'.classes = σ.classes ++ [cl]) (hg : σ'.groups = σ.groups) (hs : σ'.sis = σ.sis)
    (hca : σ'.cache = σ.cache) (hn : ∀ s, σ'.names s = none ∨ σ'.names s = some (nm s))
    (hm : ∀ s k, σ.names s = some k → σ'.names s = some k) (hok : ClsOk e nm σ' σ.classes.length cl) :
    Inv e nm base σ' := by
  have h0 : 0 < σ.classes.length := (List.getElem?_eq_some_iff.mp hi.zero).1
  have hcl : ∀ c cl', σ.classes[c]? = some cl' → σ'.classes[c]? = some cl' ∧ ∀ k, σ'.attr c k = σ.attr c k := by
    intro c cl' h
    refine ⟨?_, attr_append hc h (hi.cls c cl' h).mro⟩
    rw [hc, List.getElem?_append_left (List.getElem?_eq_some_iff.mp h).1]
    exact h
  have hco : σ'.conflict e = σ.conflict e := conflict_congr (dictOf_append hc h0)
  refine ⟨(hcl 0 _ hi.zero).1, hn, fun c cl' h => ?_, fun g gr h => ?_, fun s g i h => ?_⟩
  · rcases Nat.lt_trichotomy c σ.classes.length with hlt | heq | hgt
    · have h' : σ.classes[c]? = some cl' := by rw [hc, List.getElem?_append_left hlt] at h; exact h
      obtain ⟨o1, o2, o3⟩ := hi.cls c cl' h'
      refine ⟨o1, fun k s hk => ⟨(o2 k s hk).1, hm _ _ (o2 k s hk).2⟩, fun l hl => ?_⟩
      obtain ⟨p1, p2, p3, p4, p5⟩ := o3 l hl
      rw [hco]
      exact ⟨p1, p2, fun k s hk => ⟨(p3 k s hk).1, hm _ _ (p3 k s hk).2⟩,
        fun k s hk => p4 k s (by rw [← (hcl c cl' h').2]; exact hk), p5⟩
    · subst heq
      rw [hc, List.getElem?_append_right (Nat.le_refl _)] at h
      simp at h
      subst h
      exact hok
    · rw [hc, List.getElem?_eq_none (by simp; omega)] at h
      cases h
  · rw [hg] at h
    exact grpOk_congr hs hco hcl (hi.grp g gr h)
  · rw [hca] at h
    obtain ⟨h1, gr, h2, h3⟩ := hi.cache s g i h
    obtain ⟨⟨cl', l, h4, _⟩, _⟩ := hi.grp g gr h2
    exact ⟨by rw [hs]; exact h1, gr, by rw [hg]; exact h2, by rw [(hcl _ _ h4).2]; exact h3⟩

/-- Only naming signals keeps it. -/
theorem inv_names {e : Env} {nm : Nat → Nat} {base : List (Nat × Attr)} {σ : St} (hi : Inv e nm base σ) {ns : Nat → Option Nat}
    (hn : ∀ s, ns s = none ∨ ns s = some (nm s)) (hm : ∀ s k, σ.names s = some k → ns s = some k) :
    Inv e nm base { σ with names := ns } := by
  refine ⟨hi.zero, hn, fun c cl h => ?_, fun g gr h => ?_, hi.cache⟩
  · obtain ⟨o1, o2, o3⟩ := hi.cls c cl h
    refine ⟨o1, fun k s hk => ⟨(o2 k s hk).1, hm _ _ (o2 k s hk).2⟩, fun l hl => ?_⟩
    obtain ⟨p1, p2, p3, p4, p5⟩ := o3 l hl
    exact ⟨p1, p2, fun k s hk => ⟨(p3 k s hk).1, hm _ _ (p3 k s hk).2⟩, p4, p5⟩
  · exact grpOk_congr (σ := σ) rfl rfl (fun c cl h => ⟨h, fun _ => rfl⟩) (hi.grp g gr h)

theorem dicts_new {σ σ' : St} {cl : Cls} (h : σ'.classes = σ.classes ++ [cl]) (hm : ∀ c ∈ cl.mro, c < σ.classes.length) :
    σ'.dicts σ.classes.length = cl.dict :: cl.mro.map σ.dictOf := by
  unfold St.dicts
  rw [h, List.getElem?_append_right (Nat.le_refl _)]
  simp only [Nat.sub_self, List.getElem?_cons_zero]
  congr 1
  exact List.map_congr_left fun c hc => dictOf_append h (hm c hc)

/-- What a successful `mkClass` for a group gives. -/
theorem mkClass_group {e : Env} {mro : List Nat} {dict : List (Nat × Attr)} {strict : Bool} {σ σ' : St} {c : Nat}
    (h0 : 0 ∈ mro) (h : mkClass e mro dict strict σ = (.ok c, σ')) :
    c = σ.classes.length ∧ ∃ dict', delConflicts (mro.map σ.dictOf)
        (((newSignals σ mro dict).map Prod.fst).filter (σ.conflict e)) dict = .ok dict' ∧
      σ' = { σ with
        names := setNames dict σ.names,
        classes := σ.classes ++ [⟨mro, dict', some (newSignals σ mro dict),
          ((newSignals σ mro dict).map Prod.fst).filter (σ.conflict e),
          isUniform e.annot [] ((newSignals σ mro dict).map Prod.snd)⟩] } ∧
      (dict.any fun x => e.forbidden x.1) = false ∧
      (strict = true → isUniform e.annot [] ((newSignals σ mro dict).map Prod.snd) = true) := by
  unfold mkClass at h
  simp only [h0, if_true] at h
  split at h
  · simp at h
  · rename_i hf
    split at h
    · simp at h
    · rename_i dict' hd
      split at h
      · simp at h
      · rename_i hst
        simp at h
        refine ⟨h.1.symm, dict', hd, h.2.symm, by simpa using hf, fun hs => ?_⟩
        simp [hs] at hst
        exact hst

theorem inv_mkClass {e : Env} {nm : Nat → Nat} {base : List (Nat × Attr)} {σ : St} (hi : Inv e nm base σ) {mro : List Nat}
    {dict : List (Nat × Attr)} {strict : Bool} (ho : Own nm dict) (hm : ∀ c ∈ mro, c < σ.classes.length) :
    Inv e nm base (mkClass e mro dict strict σ).2 := by
  obtain ⟨g1, g2⟩ := setNames_own σ.names ho hi.names
  have hmono := fun s k => setNames_mono dict σ.names s k
  have hnames : Inv e nm base { σ with names := setNames dict σ.names } := inv_names hi g1 hmono
  by_cases h0 : 0 ∈ mro
  · rcases hr : mkClass e mro dict strict σ with ⟨r, σ'⟩
    cases r with
    | error err =>
      have : σ' = { σ with names := setNames dict σ.names } := by
        unfold mkClass at hr
        simp only [h0, if_true] at hr
        split at hr
        · simp at hr; exact hr.2.symm
        · split at hr
          · simp at hr; exact hr.2.symm
          · split at hr
            · simp at hr; exact hr.2.symm
            · simp at hr
      simp only
      rw [this]
      exact hnames
    | ok c =>
      obtain ⟨rfl, dict', hd, hσ', _, _⟩ := mkClass_group h0 hr
      obtain ⟨d1, d2, d3⟩ := delConflicts_ok hd
      have hzero : 0 < σ.classes.length := (List.getElem?_eq_some_iff.mp hi.zero).1
      simp only
      refine inv_addClass hi (cl := _) (by rw [hσ']) (by rw [hσ']) (by rw [hσ']) (by rw [hσ']) (by rw [hσ']; exact g1)
        (by rw [hσ']; exact hmono) ?_
      have hco : σ'.conflict e = σ.conflict e := conflict_congr (dictOf_append (by rw [hσ']) hzero)
      have hnm : σ'.names = setNames dict σ.names := by rw [hσ']
      have hds := dicts_new (σ := σ) (σ' := σ') (by rw [hσ']) hm
      refine ⟨hm, fun k s hk => ?_, fun l hl => ?_⟩
      · rw [hnm]; exact ⟨ho k s (d1 _ hk), g2 k s (d1 _ hk)⟩
      · cases hl
        refine ⟨nodup_merge _ _ (inherited_nodup hi mro), by rw [hco], fun k s hk => by rw [hnm]; exact newSignals_own hi ho hk,
          fun k s hk => ?_, fun k s hk => ?_⟩
        · unfold St.attr at hk
          rw [hds, lookMro_cons] at hk
          refine lookup_isSome.mp ?_
          rw [lookup_newSignals]
          by_cases hkc : k ∈ ((newSignals σ mro dict).map Prod.fst).filter (σ.conflict e)
          · have := (List.mem_filter.mp hkc).1
            rw [← lookup_isSome, lookup_newSignals] at this
            exact this
          · rw [d2 k hkc, ← lookMro_cons] at hk
            rw [visible_eq.mpr hk]; rfl
        · rw [hco]
          cases hcf : σ.conflict e k with
          | false => rfl
          | true =>
            have hk1 : k ∉ ((newSignals σ mro dict).map Prod.fst).filter (σ.conflict e) := fun hin => d3 k hin s hk
            rw [d2 k hk1] at hk
            refine absurd (List.mem_filter.mpr ⟨?_, hcf⟩) hk1
            refine lookup_isSome.mp ?_
            rw [lookup_newSignals, visible_eq.mpr (by rw [lookMro_cons, hk]; rfl)]
            rfl
  · have hr : (mkClass e mro dict strict σ).2 =
        { σ with names := setNames dict σ.names, classes := σ.classes ++ [⟨mro, dict, none, [], false⟩] } := by
      simp [mkClass, h0]
    rw [hr]
    refine inv_addClass hi (cl := ⟨mro, dict, none, [], false⟩) rfl rfl rfl rfl g1 hmono ?_
    exact ⟨hm, fun k s hk => ⟨ho k s hk, g2 k s hk⟩, fun l hl => by cases hl⟩

end Psygnal.GC
