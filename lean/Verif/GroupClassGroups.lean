import Verif.GroupClassInv

/-! # Groups keep the invariant -/
namespace Psygnal.GC

theorem attr_classes {σ σ' : St} (h : σ'.classes = σ.classes) (c k : Nat) : σ'.attr c k = σ.attr c k := by
  unfold St.attr St.dicts St.dictOf
  rw [h]

theorem conflict_classes {σ σ' : St} (h : σ'.classes = σ.classes) (e : Env) : σ'.conflict e = σ.conflict e := by
  refine conflict_congr ?_
  unfold St.dictOf
  rw [h]

theorem mem_of_lookup {i : Nat} {p : Nat × Nat} : ∀ {l : List ((Nat × Nat) × Nat)}, l.lookup p = some i → (p, i) ∈ l
  | (a, b) :: l, h => by
    by_cases h1 : p = a
    · subst h1; simp [List.lookup] at h; subst h; simp
    · have : (p == a) = false := by simpa using h1
      simp [List.lookup, this] at h
      exact List.mem_cons_of_mem _ (mem_of_lookup h)

theorem sis_append {l : List SI} {x y : SI} {i : Nat} (h : l[i]? = some x) : (l ++ [y])[i]? = some x := by
  rw [List.getElem?_append_left (List.getElem?_eq_some_iff.mp h).1]
  exact h

theorem clsOk_classes {e : Env} {nm : Nat → Nat} {σ σ' : St} {c : Nat} {cl : Cls} (h : σ'.classes = σ.classes)
    (hn : σ'.names = σ.names) (hc : ClsOk e nm σ c cl) : ClsOk e nm σ' c cl := by
  obtain ⟨o1, o2, o3⟩ := hc
  refine ⟨o1, by rw [hn]; exact o2, fun l hl => ?_⟩
  obtain ⟨p1, p2, p3, p4, p5⟩ := o3 l hl
  rw [conflict_classes h, hn]
  exact ⟨p1, p2, p3, fun k s hk => p4 k s (by rw [← attr_classes h]; exact hk), p5⟩

theorem grpOk_mono {e : Env} {σ σ' : St} {g : Nat} {gr : Grp} (hc : σ'.classes = σ.classes)
    (hs : ∀ (i : Nat) (x : SI), σ.sis[i]? = some x → σ'.sis[i]? = some x) (h : GrpOk e σ g gr) : GrpOk e σ' g gr := by
  obtain ⟨⟨cl, l, h1, h2, h3, h4, h5, h9⟩, h6⟩ := h
  refine ⟨⟨cl, l, by rw [hc]; exact h1, h2, h3, fun k i hk => ?_, fun k i hk hn hd => ?_, h9⟩, fun k i hk => ?_⟩
  · obtain ⟨s, h7, h8⟩ := h4 k i hk
    exact ⟨s, h7, hs _ _ h8⟩
  · exact h5 k i hk hn (by rw [← attr_classes hc]; exact hd)
  · obtain ⟨⟨s, h7⟩, h8⟩ := h6 k i hk
    rw [conflict_classes hc, attr_classes hc]
    exact ⟨⟨s, hs _ _ h7⟩, h8⟩

/-! ## Making a group -/

/-- While the instances of a new group are made. -/
structure Making (e : Env) (nm : Nat → Nat) (L : List Nat) (c : Nat) (σb σ : St) (d : List (Nat × Nat)) : Prop where
  classes : σ.classes = σb.classes
  names : σ.names = σb.names
  groups : σ.groups = σb.groups ++ [⟨c, d, []⟩]
  dict : ∀ k i, d.lookup k = some i → (∃ s, σ.sis[i]? = some ⟨s, σb.groups.length, some k⟩) ∧
    σb.conflict e k = false ∧ k ∈ L
  sis : ∀ (i : Nat) (x : SI), σb.sis[i]? = some x → σ.sis[i]? = some x
  cache : ∀ s g i, ((s, g), i) ∈ σ.cache → ((s, g), i) ∈ σb.cache ∨
    (g = σb.groups.length ∧ σ.sis[i]? = some ⟨s, g, some (nm s)⟩ ∧ σb.attr c (nm s) = some .data)

theorem making_create {e : Env} {nm : Nat → Nat} {L : List Nat} {c : Nat} {σb σ : St} {d : List (Nat × Nat)} (h : Making e nm L c σb σ d) (s : Nat) :
    Making e nm L c σb (create s σb.groups.length σ).2 d ∧
    (create s σb.groups.length σ).2.sis[(create s σb.groups.length σ).1]? = some ⟨s, σb.groups.length, σ.names s⟩ ∧
    ∀ (i : Nat) (x : SI), σ.sis[i]? = some x → (create s σb.groups.length σ).2.sis[i]? = some x := by
  refine ⟨⟨h.classes, h.names, h.groups, fun k i hk => ?_, fun i x hx => sis_append (h.sis i x hx), fun s' g i hm => ?_⟩, ?_,
    fun i x hx => sis_append hx⟩
  · obtain ⟨⟨s', h1⟩, h2⟩ := h.dict k i hk
    exact ⟨⟨s', sis_append h1⟩, h2⟩
  · rcases h.cache s' g i hm with h1 | ⟨h1, h2, h3⟩
    · exact .inl h1
    · exact .inr ⟨h1, sis_append h2, h3⟩
  · simp [create]

theorem modify_last {α : Type} (l : List α) (x : α) (f : α → α) : (l ++ [x]).modify l.length f = l ++ [f x] := by
  induction l with
  | nil => rfl
  | cons a l ih => simp [ih]

theorem making_get {e : Env} {nm : Nat → Nat} {L : List Nat} {c : Nat} {σb σ : St} {d : List (Nat × Nat)} (h : Making e nm L c σb σ d)
    (hcb : ∀ s g i, ((s, g), i) ∈ σb.cache → g < σb.groups.length) {s k : Nat} (hk : nm s = k) (hn : σb.names s = some k)
    (hc : σb.conflict e k = false) (hL : k ∈ L) :
    ∃ d', Making e nm L c σb (get s σb.groups.length c σ).2 d' ∧
      (get s σb.groups.length c σ).2.sis[(get s σb.groups.length c σ).1]? = some ⟨s, σb.groups.length, some k⟩ ∧
      (∀ (i : Nat) (x : SI), σ.sis[i]? = some x → (get s σb.groups.length c σ).2.sis[i]? = some x) ∧
      (σb.attr c k ≠ some .data → d'.lookup k = some (get s σb.groups.length c σ).1) ∧
      (∀ k', k' ≠ k → d'.lookup k' = d.lookup k') := by
  unfold get
  cases hl : σ.cache.lookup (s, σb.groups.length) with
  | some i =>
    simp only
    rcases h.cache _ _ _ (mem_of_lookup hl) with h1 | ⟨_, h2, h3⟩
    · exact absurd (hcb _ _ _ h1) (Nat.lt_irrefl _)
    · rw [hk] at h2 h3
      exact ⟨d, h, h2, fun _ _ hx => hx, fun hd => absurd h3 hd, fun _ _ => rfl⟩
  | none =>
    simp only
    obtain ⟨c1, c2, c3⟩ := making_create h s
    rw [h.names, hn] at c2
    rw [h.names, hn]
    simp only
    split
    · rename_i hd
      rw [attr_classes h.classes] at hd
      refine ⟨d, ⟨c1.classes, c1.names, c1.groups, c1.dict, c1.sis, fun s' g' i' hm => ?_⟩, c2, c3, fun hd' => absurd hd hd',
        fun _ _ => rfl⟩
      rcases List.mem_cons.mp hm with hm | hm
      · cases hm
        exact .inr ⟨rfl, by rw [hk]; exact c2, by rw [hk]; exact hd⟩
      · exact c1.cache s' g' i' hm
    · rename_i hd
      rw [attr_classes h.classes] at hd
      refine ⟨put k (create s σb.groups.length σ).1 d, ⟨c1.classes, c1.names, ?_, fun k' i' hm => ?_, c1.sis, c1.cache⟩, c2, c3,
        fun _ => by rw [lookup_put, if_pos rfl], fun k' hk' => by rw [lookup_put, if_neg hk']⟩
      · simp only [St.setDict]
        rw [c1.groups, modify_last]
      · rw [lookup_put] at hm
        split at hm
        · rename_i he
          cases hm
          exact ⟨⟨s, by rw [he]; exact c2⟩, by rw [he]; exact hc, by rw [he]; exact hL⟩
        · exact c1.dict k' i' hm

theorem making_instances {e : Env} {nm : Nat → Nat} {L : List Nat} {c : Nat} {σb : St} (hcb : ∀ s g i, ((s, g), i) ∈ σb.cache → g < σb.groups.length)
    (conflicts : List Nat) : ∀ (l : List (Nat × Nat)) (σ : St) (d : List (Nat × Nat)), Making e nm L c σb σ d →
    (l.map Prod.fst).Nodup → (∀ k s, (k, s) ∈ l → nm s = k ∧ σb.names s = some k) →
    (∀ k, k ∈ l.map Prod.fst → k ∉ conflicts → σb.conflict e k = false) → (∀ k ∈ l.map Prod.fst, k ∈ L) →
    ∃ d', Making e nm L c σb (instances σb.groups.length c conflicts l σ).2 d' ∧
      (instances σb.groups.length c conflicts l σ).1.map Prod.fst = l.map Prod.fst ∧
      (∀ (i : Nat) (x : SI), σ.sis[i]? = some x → (instances σb.groups.length c conflicts l σ).2.sis[i]? = some x) ∧
      (∀ k i, (k, i) ∈ (instances σb.groups.length c conflicts l σ).1 → ∃ s, (k, s) ∈ l ∧
        (instances σb.groups.length c conflicts l σ).2.sis[i]? = some ⟨s, σb.groups.length, some k⟩) ∧
      (∀ k i, (k, i) ∈ (instances σb.groups.length c conflicts l σ).1 → k ∉ conflicts → σb.attr c k ≠ some .data →
        d'.lookup k = some i) ∧
      (∀ k, k ∉ l.map Prod.fst → d'.lookup k = d.lookup k)
  | [], σ, d, h, _, _, _, _ => ⟨d, h, rfl, fun _ _ hx => hx, (fun _ _ h => by simp [instances] at h),
      (fun _ _ h => by simp [instances] at h), fun _ _ => rfl⟩
  | (k, s) :: l, σ, d, h, hn, ho, hcf, hL => by
    have hn' := List.nodup_cons.mp hn
    obtain ⟨o1, o2⟩ := ho k s (List.mem_cons_self ..)
    have hhead : ∃ d1, Making e nm L c σb (if k ∈ conflicts then create s σb.groups.length σ else get s σb.groups.length c σ).2 d1 ∧
        (if k ∈ conflicts then create s σb.groups.length σ else get s σb.groups.length c σ).2.sis[
          (if k ∈ conflicts then create s σb.groups.length σ else get s σb.groups.length c σ).1]? =
            some ⟨s, σb.groups.length, some k⟩ ∧
        (∀ (i : Nat) (x : SI), σ.sis[i]? = some x →
          (if k ∈ conflicts then create s σb.groups.length σ else get s σb.groups.length c σ).2.sis[i]? = some x) ∧
        (k ∉ conflicts → σb.attr c k ≠ some .data →
          d1.lookup k = some (if k ∈ conflicts then create s σb.groups.length σ else get s σb.groups.length c σ).1) ∧
        (∀ k', k' ≠ k → d1.lookup k' = d.lookup k') := by
      by_cases hc : k ∈ conflicts
      · simp only [hc, if_true]
        obtain ⟨c1, c2, c3⟩ := making_create h s
        rw [h.names, o2] at c2
        exact ⟨d, c1, c2, c3, fun hf => absurd trivial hf, fun _ _ => rfl⟩
      · simp only [hc, if_false]
        obtain ⟨d', e1, e2, e3, e4, e5⟩ := making_get h hcb o1 o2 (hcf k (List.mem_cons_self ..) hc) (hL k (List.mem_cons_self ..))
        exact ⟨d', e1, e2, e3, fun _ => e4, e5⟩
    unfold instances
    simp only
    generalize (if k ∈ conflicts then create s σb.groups.length σ else get s σb.groups.length c σ) = r at hhead ⊢
    obtain ⟨d1, e1, e2, e3, e4, e5⟩ := hhead
    obtain ⟨d2, f1, f2, f3, f4, f5, f6⟩ := making_instances hcb conflicts l r.2 d1 e1 hn'.2
      (fun k' s' hm => ho k' s' (List.mem_cons_of_mem _ hm)) (fun k' hm => hcf k' (List.mem_cons_of_mem _ hm))
      (fun k' hm => hL k' (List.mem_cons_of_mem _ hm))
    refine ⟨d2, f1, by simp [f2], fun i x hx => f3 i x (e3 i x hx), fun k' i' hm => ?_, fun k' i' hm hc hd => ?_, fun k' hk' => ?_⟩
    · rcases List.mem_cons.mp hm with hm | hm
      · cases hm
        exact ⟨s, List.mem_cons_self .., f3 _ _ e2⟩
      · obtain ⟨s', g1, g2⟩ := f4 k' i' hm
        exact ⟨s', List.mem_cons_of_mem _ g1, g2⟩
    · rcases List.mem_cons.mp hm with hm | hm
      · cases hm
        rw [f6 k hn'.1]
        exact e4 hc hd
      · exact f5 k' i' hm hc hd
    · have h1 : k' ≠ k ∧ k' ∉ l.map Prod.fst := by
        refine ⟨fun h => hk' (by rw [h]; exact List.mem_cons_self ..), fun h => hk' (List.mem_cons_of_mem _ h)⟩
      rw [f6 k' h1.2, e5 k' h1.1]

theorem inv_mkGroup {e : Env} {nm : Nat → Nat} {base : List (Nat × Attr)} {σ : St} (hi : Inv e nm base σ) (c : Nat) :
    Inv e nm base (mkGroup c σ).2 := by
  unfold mkGroup
  cases hb : (σ.classes[c]?).bind fun cl => cl.signals.map (cl.conflicts, ·) with
  | none => exact hi
  | some p =>
    obtain ⟨cl, hcl, hp⟩ := Option.bind_eq_some_iff.mp hb
    obtain ⟨l, hl, rfl⟩ := Option.map_eq_some_iff.mp hp
    simp only
    have hcb : ∀ s g i, ((s, g), i) ∈ σ.cache → g < σ.groups.length := fun s g i hm => by
      obtain ⟨_, gr, h1, _⟩ := hi.cache s g i hm
      exact (List.getElem?_eq_some_iff.mp h1).1
    obtain ⟨p1, p2, p3, p4, p5⟩ := (hi.cls c cl hcl).sigs l hl
    have hmk : Making e nm (l.map Prod.fst) c σ { σ with groups := σ.groups ++ [⟨c, [], []⟩] } [] :=
      ⟨rfl, rfl, rfl, (fun _ _ h => by simp [List.lookup] at h), fun _ _ h => h, fun _ _ _ h => .inl h⟩
    obtain ⟨d, f1, f2, f3, f4, f5, f6⟩ := making_instances hcb cl.conflicts l _ _ hmk p1 p3 (fun k hk hn => by
      rw [p2] at hn
      cases h : σ.conflict e k with
      | false => rfl
      | true => exact absurd (List.mem_filter.mpr ⟨hk, h⟩) hn) (fun _ h => h)
    generalize instances σ.groups.length c cl.conflicts l { σ with groups := σ.groups ++ [⟨c, [], []⟩] } = r at f1 f2 f3 f4 f5
    have hgroups : r.2.groups.modify σ.groups.length (fun gr => { gr with inst := r.1 }) = σ.groups ++ [⟨c, d, r.1⟩] := by
      rw [f1.groups, modify_last]
    refine ⟨by simp only; rw [f1.classes]; exact hi.zero, by simp only; rw [f1.names]; exact hi.names, fun c' cl' h' => ?_, fun g gr hg => ?_,
      fun s g i hm => ?_⟩
    · simp only at h'
      rw [f1.classes] at h'
      exact clsOk_classes f1.classes f1.names (hi.cls c' cl' h')
    · simp only at hg
      rw [hgroups] at hg
      rcases Nat.lt_trichotomy g σ.groups.length with hlt | heq | hgt
      · rw [List.getElem?_append_left hlt] at hg
        exact grpOk_mono (σ := σ) f1.classes f1.sis (hi.grp g gr hg)
      · subst heq
        rw [List.getElem?_append_right (Nat.le_refl _)] at hg
        simp at hg
        subst hg
        refine ⟨⟨cl, l, by simp only; rw [f1.classes]; exact hcl, hl, f2, f4, fun k i hk hn hd => ?_, fun k i hk => (f1.dict k i hk).2.2⟩,
          fun k i hk => ?_⟩
        · refine f5 k i hk hn fun h => hd ?_
          rw [← h]
          exact attr_classes (σ := σ) f1.classes c k
        · obtain ⟨h1, h2, _⟩ := f1.dict k i hk
          refine ⟨h1, .inl ?_⟩
          rw [← h2]
          exact congrFun (conflict_classes (σ := σ) f1.classes e) k
      · rw [List.getElem?_eq_none (by simp; omega)] at hg
        cases hg
    · simp only at hm ⊢
      rw [hgroups]
      rcases f1.cache s g i hm with h1 | ⟨h1, h2, h3⟩
      · obtain ⟨h4, gr, h5, h6⟩ := hi.cache s g i h1
        refine ⟨f1.sis _ _ h4, gr, by rw [List.getElem?_append_left (hcb s g i h1)]; exact h5, ?_⟩
        rw [← h6]
        exact attr_classes (σ := σ) f1.classes _ _
      · subst h1
        refine ⟨h2, ⟨c, d, r.1⟩, by simp, ?_⟩
        rw [← h3]
        exact attr_classes (σ := σ) f1.classes _ _

/-! ## Reading an attribute -/

theorem getElem?_modify_eq' {α : Type} (l : List α) (f : α → α) (i j : Nat) :
    (l.modify i f)[j]? = if i = j then (l[j]?).map f else l[j]? := by
  rw [List.getElem?_modify]
  split <;> simp_all

theorem inv_getAttr {e : Env} {nm : Nat → Nat} {base : List (Nat × Attr)} {σ : St} (hi : Inv e nm base σ) (g k : Nat) :
    Inv e nm base (getAttr g k σ).2 := by
  unfold getAttr
  cases hg : σ.groups[g]? with
  | none => exact hi
  | some gr =>
    simp only
    split
    · exact hi
    · rename_i hnd
      cases hd : gr.dict.lookup k with
      | some i => exact hi
      | none =>
        simp only
        split
        · rename_i s ha
          obtain ⟨⟨cl, l, h1, h2, h3, h4, h5, h9⟩, h6⟩ := hi.grp g gr hg
          -- the signal has this name
          have hnm : nm s = k ∧ σ.names s = some k := by
            unfold St.attr at ha
            obtain ⟨d, hd1, hd2⟩ := lookMro_mem ha
            unfold St.dicts at hd1
            rw [h1] at hd1
            rcases List.mem_cons.mp hd1 with hd1 | hd1
            · subst hd1; exact (hi.cls _ cl h1).own k s hd2
            · obtain ⟨c', _, rfl⟩ := List.mem_map.mp hd1
              obtain ⟨cl', h7, h8⟩ := dictOf_mem hd2
              exact (hi.cls c' cl' h7).own k s h8
          -- it is a reserved name
          have hkey : k ∈ gr.inst.map Prod.fst := by
            rw [h3]; exact ((hi.cls _ cl h1).sigs l h2).2.2.2.1 k s ha
          have hcon : k ∈ cl.conflicts := by
            obtain ⟨⟨k', i⟩, hm, rfl⟩ := List.mem_map.mp hkey
            refine Classical.byContradiction fun hc => ?_
            rw [h5 k' i hm hc (by rw [ha]; simp)] at hd
            cases hd
          unfold get
          cases hl : σ.cache.lookup (s, g) with
          | some i => exact hi
          | none =>
            simp only [hnm.2]
            rw [if_neg (by rw [ha]; simp)]
            simp only [create, St.setDict]
            have hsis : ∀ (i : Nat) (x : SI), σ.sis[i]? = some x → (σ.sis ++ [(⟨s, g, σ.names s⟩ : SI)])[i]? = some x :=
              fun i x hx => sis_append hx
            refine ⟨hi.zero, hi.names, fun c' cl' h' => clsOk_classes (σ := σ) rfl rfl (hi.cls c' cl' h'), fun g' gr' hg' => ?_,
              fun s' g' i hm => ?_⟩
            · simp only [getElem?_modify_eq'] at hg'
              split at hg'
              · rename_i heq
                subst heq
                rw [hg] at hg'
                cases hg'
                refine ⟨⟨cl, l, h1, h2, h3, fun k' i' hk' => ?_, fun k' i' hk' hc' hd' => ?_, fun k' i' hk' => ?_⟩,
                  fun k' i' hk' => ?_⟩
                · obtain ⟨s', q1, q2⟩ := h4 k' i' hk'
                  exact ⟨s', q1, hsis _ _ q2⟩
                · rw [lookup_put, if_neg (fun he => hc' (by rw [he]; exact hcon))]
                  exact h5 k' i' hk' hc' hd'
                · rw [lookup_put] at hk'
                  split at hk'
                  · rename_i he
                    rw [he, ← h3]; exact hkey
                  · exact h9 k' i' hk'
                · rw [lookup_put] at hk'
                  split at hk'
                  · rename_i he
                    cases hk'
                    exact ⟨⟨s, by simp [hnm.2, he]⟩, .inr ⟨s, by rw [he]; exact ha⟩⟩
                  · obtain ⟨⟨s', q⟩, q'⟩ := h6 k' i' hk'
                    exact ⟨⟨s', hsis _ _ q⟩, q'⟩
              · exact grpOk_mono (σ := σ) rfl hsis (hi.grp g' gr' hg')
            · obtain ⟨q1, gr', q2, q3⟩ := hi.cache s' g' i hm
              refine ⟨hsis _ _ q1, ?_⟩
              simp only [getElem?_modify_eq']
              split
              · rename_i heq
                subst heq
                rw [hg] at q2
                cases q2
                exact ⟨⟨gr.cls, put k σ.sis.length gr.dict, gr.inst⟩, by rw [hg]; rfl, q3⟩
              · exact ⟨gr', q2, q3⟩
        · exact hi
        · exact hi

/-- What a program may do: bodies in which each signal has its own name, bases that exist. -/
def OpOk (nm : Nat → Nat) (σ : St) : Op → Prop
  | .cls mro dict _ => Own nm dict ∧ ∀ c ∈ mro, c < σ.classes.length
  | _ => True

/-- All operations of a program are such (in the state where they are done). -/
def OpsOk (e : Env) (nm : Nat → Nat) : List Op → St → Prop
  | [], _ => True
  | o :: os, σ => OpOk nm σ o ∧ OpsOk e nm os (step e o σ)

theorem inv_run {e : Env} {nm : Nat → Nat} {base : List (Nat × Attr)} : ∀ {ops : List Op} {σ : St}, OpsOk e nm ops σ →
    Inv e nm base σ → Inv e nm base (run e ops σ)
  | [], _, _, hi => hi
  | o :: os, σ, ho, hi => by
    refine inv_run (ops := os) ho.2 ?_
    cases o with
    | cls mro dict strict => exact inv_mkClass hi ho.1.1 ho.1.2
    | group c => exact inv_mkGroup hi c
    | read g k => exact inv_getAttr hi g k

theorem inv_init {e : Env} {nm : Nat → Nat} {base : List (Nat × Attr)} {names : Nat → Option Nat}
    (hb : ∀ k s, (k, Attr.signal s) ∉ base) (hn : ∀ s, names s = none ∨ names s = some (nm s)) :
    Inv e nm base (init base names) := by
  refine ⟨rfl, hn, fun c cl h => ?_, (fun g gr h => by simp [init] at h), (fun s g i h => by simp [init] at h)⟩
  cases c with
  | zero =>
    simp [init] at h
    subst h
    exact ⟨(fun _ h => by cases h), fun k s h => absurd h (hb k s), (fun l h => by cases h)⟩
  | succ c => simp [init] at h

/-! ## What does not change -/

/-- The class and the signals of a group. -/
def St.view (σ : St) (g : Nat) : Option (Nat × List (Nat × Nat)) := (σ.groups[g]?).map fun gr => (gr.cls, gr.inst)

theorem get_groups (s g c : Nat) (σ : St) : (get s g c σ).2.groups.length = σ.groups.length ∧
    ∀ g', g' ≠ g → (get s g c σ).2.groups[g']? = σ.groups[g']? := by
  unfold get
  split
  · exact ⟨rfl, fun _ _ => rfl⟩
  · simp only
    split
    · exact ⟨rfl, fun _ _ => rfl⟩
    · split
      · exact ⟨rfl, fun _ _ => rfl⟩
      · simp only [create, St.setDict]
        refine ⟨by simp, fun g' hg => ?_⟩
        rw [getElem?_modify_eq', if_neg (Ne.symm hg)]

theorem instances_groups (g c : Nat) (conflicts : List Nat) : ∀ (l : List (Nat × Nat)) (σ : St),
    (instances g c conflicts l σ).2.groups.length = σ.groups.length ∧
    ∀ g', g' ≠ g → (instances g c conflicts l σ).2.groups[g']? = σ.groups[g']?
  | [], _ => ⟨rfl, fun _ _ => rfl⟩
  | (k, s) :: l, σ => by
    unfold instances
    simp only
    have h : (if k ∈ conflicts then create s g σ else get s g c σ).2.groups.length = σ.groups.length ∧
        ∀ g', g' ≠ g → (if k ∈ conflicts then create s g σ else get s g c σ).2.groups[g']? = σ.groups[g']? := by
      split
      · exact ⟨rfl, fun _ _ => rfl⟩
      · exact get_groups s g c σ
    obtain ⟨h1, h2⟩ := instances_groups g c conflicts l (if k ∈ conflicts then create s g σ else get s g c σ).2
    exact ⟨by rw [h1, h.1], fun g' hg => by rw [h2 g' hg, h.2 g' hg]⟩

theorem view_step (e : Env) (o : Op) (σ : St) {g : Nat} (hg : g < σ.groups.length) :
    (step e o σ).view g = σ.view g ∧ g < (step e o σ).groups.length := by
  cases o with
  | cls mro dict strict =>
    have : (mkClass e mro dict strict σ).2.groups = σ.groups := by
      unfold mkClass
      simp only
      split
      · split
        · rfl
        · split
          · rfl
          · split <;> rfl
      · rfl
    simp only [step, St.view]
    rw [this]
    exact ⟨rfl, hg⟩
  | group c =>
    simp only [step, mkGroup]
    split
    · exact ⟨rfl, hg⟩
    · simp only [St.view]
      rename_i conflicts signals _
      obtain ⟨h1, h2⟩ := instances_groups σ.groups.length c conflicts signals { σ with groups := σ.groups ++ [⟨c, [], []⟩] }
      rw [getElem?_modify_eq', if_neg (Nat.ne_of_gt hg), h2 g (Nat.ne_of_lt hg), List.length_modify, h1]
      simp only [List.length_append, List.length_singleton]
      rw [List.getElem?_append_left hg]
      exact ⟨rfl, by omega⟩
  | read g' k =>
    simp only [step, getAttr]
    split
    · exact ⟨rfl, hg⟩
    · rename_i gr _
      split
      · exact ⟨rfl, hg⟩
      · split
        · exact ⟨rfl, hg⟩
        · split
          · simp only
            rename_i s _
            unfold get
            split
            · exact ⟨rfl, hg⟩
            · simp only
              split
              · exact ⟨rfl, hg⟩
              · split
                · exact ⟨rfl, hg⟩
                · simp only [create, St.setDict, St.view, List.length_modify, getElem?_modify_eq']
                  refine ⟨?_, hg⟩
                  split
                  · cases σ.groups[g]? <;> rfl
                  · rfl
          · exact ⟨rfl, hg⟩
          · exact ⟨rfl, hg⟩

theorem view_run (e : Env) : ∀ (ops : List Op) (σ : St) {g : Nat}, g < σ.groups.length → (run e ops σ).view g = σ.view g
  | [], _, _, _ => rfl
  | o :: os, σ, g, h => by
    obtain ⟨h1, h2⟩ := view_step e o σ h
    rw [run, view_run e os _ h2, h1]

theorem item_view (σ : St) (g k : Nat) : σ.item g k = (σ.view g).bind fun v => v.2.lookup k := by
  unfold St.item St.view
  cases σ.groups[g]? <;> rfl

/-! ## Uniform groups -/

theorem isUniform_seen (annot : Nat → List Nat) (a : List Nat) : ∀ (l : List Nat) (seen : List (List Nat)), seen ≠ [] →
    (∀ x ∈ seen, x = a) → (isUniform annot seen l = true ↔ ∀ s ∈ l, annot s = a)
  | [], _, _, _ => by simp [isUniform]
  | s :: l, seen, hne, hs => by
    unfold isUniform
    by_cases h : annot s ∈ seen
    · rw [if_neg (fun h' => h'.2 h), isUniform_seen annot a l (annot s :: seen) (by simp)
        (fun x hx => by rcases List.mem_cons.mp hx with hx | hx; exact hx.trans (hs _ h); exact hs x hx)]
      simp [hs _ h]
    · rw [if_pos ⟨hne, h⟩]
      simp only [Bool.false_eq_true, List.mem_cons, forall_eq_or_imp, false_iff, not_and]
      intro h1
      obtain ⟨x, l', rfl⟩ := List.exists_cons_of_ne_nil hne
      exact absurd (by rw [h1, ← hs x (List.mem_cons_self ..)]; exact List.mem_cons_self ..) h

theorem isUniform_iff (annot : Nat → List Nat) (l : List Nat) :
    isUniform annot [] l = true ↔ ∀ s ∈ l, ∀ s' ∈ l, annot s = annot s' := by
  cases l with
  | nil => simp [isUniform]
  | cons s l =>
    unfold isUniform
    rw [if_neg (fun h => h.1 rfl), isUniform_seen annot (annot s) l [annot s] (by simp) (by simp)]
    constructor
    · intro h x hx y hy
      have : ∀ z ∈ s :: l, annot z = annot s := fun z hz => by
        rcases List.mem_cons.mp hz with hz | hz
        · rw [hz]
        · exact h z hz
      rw [this x hx, this y hy]
    · intro h x hx
      exact h x (List.mem_cons_of_mem _ hx) s (List.mem_cons_self ..)

end Psygnal.GC
