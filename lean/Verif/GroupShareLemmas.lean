import Verif.GroupShare
/-! # Lemmas for C62 -/
namespace Psygnal.Sha

theorem lookup_append (a b : Aliases) (f : Nat) : (a ++ b).lookup f = (a.lookup f).or (b.lookup f) := by
  induction a with
  | nil => rfl
  | cons p a ih =>
    rw [List.cons_append, List.lookup_cons, List.lookup_cons, ih]
    split <;> rfl

/-- Specification: the user-written group classes that a non-collecting descriptor with aliases uses serve no other descriptor and have no
subclasses. -/
def Fair (s : St) : Prop := ∀ (i : Nat) (d : Desc), s.descs[i]? = some d → d.collect = false → d.aliases ≠ [] →
  (∀ (j : Nat) (e : Desc), s.descs[j]? = some e → e.base = d.base → j = i) ∧
  (∀ (k : Nat) (c : GCls), s.classes[k]? = some c → c.base ≠ some d.base)

/-- What is true after every program. -/
structure Basic (s : St) : Prop where
  bases : ∀ (i : Nat) (d : Desc), s.descs[i]? = some d → ∃ c, s.classes[d.base]? = some c ∧ c.made = false
  owners : ∀ (w : Nat) (ow : Owner), s.owners[w]? = some ow → ∃ d, s.descs[ow.desc]? = some d
  groups : ∀ (w : Nat) (ow : Owner) (k : Nat) (wa : Bool), s.owners[w]? = some ow → ow.group = some (k, wa) →
    ∃ d c, s.descs[ow.desc]? = some d ∧ s.classes[k]? = some c ∧ (d.collect = false → k = d.base) ∧ (d.collect = true → c.made = true)
  objs : ∀ (o : Nat) (x : Obj), s.objs[o]? = some x → x.cls < s.owners.length
  heard : ∀ (o : Nat) (x : Obj), s.objs[o]? = some x → ∀ g ∈ x.heard, ∃ c wa, s.groupOf x.cls = some (c, wa) ∧ g ∈ c.sigs

/-- What is true after every fair program. -/
structure Inv (s : St) : Prop where
  stated : ∀ (k : Nat) (c : GCls), s.classes[k]? = some c → c.made = false →
    (∀ (i : Nat) (d : Desc), s.descs[i]? = some d → d.collect = false → d.aliases ≠ [] → d.base ≠ k) → c.aliases = c.stated
  used : ∀ (i : Nat) (d : Desc) (c : GCls), s.descs[i]? = some d → d.collect = false → s.classes[d.base]? = some c →
    ∀ f, (d.aliases ++ c.aliases).lookup f = (d.aliases ++ c.stated).lookup f
  group : ∀ (w : Nat) (ow : Owner) (k : Nat) (wa : Bool) (d : Desc) (b c : GCls), s.owners[w]? = some ow → ow.group = some (k, wa) →
    s.descs[ow.desc]? = some d → s.classes[d.base]? = some b → s.classes[k]? = some c →
    (∀ f, c.aliases.lookup f = (d.aliases ++ b.stated).lookup f) ∧ (wa = false → c.aliases = []) ∧
    ∀ g, g ∈ c.sigs ↔ g ∈ b.sigs ∨ (d.collect = true ∧ ∃ f ∈ ow.fields, ((d.aliases ++ b.stated).lookup f).getD (some f) = some g)

theorem lt_of_some {α : Type} {l : List α} {i : Nat} {x : α} (h : l[i]? = some x) : i < l.length := by
  false_or_by_contra
  rename_i hge
  rw [List.getElem?_eq_none (by omega)] at h
  cases h

theorem append_cases {α : Type} {l : List α} {a e : α} {i : Nat} (h : (l ++ [a])[i]? = some e) : l[i]? = some e ∨ (i = l.length ∧ e = a) := by
  rw [List.getElem?_append] at h
  split at h
  · exact .inl h
  · right
    cases hk : i - l.length with
    | zero => rw [hk] at h; exact ⟨by omega, (Option.some.inj h).symm⟩
    | succ k => rw [hk] at h; cases h

theorem append_some {α : Type} {l : List α} {a e : α} {i : Nat} (h : l[i]? = some e) : (l ++ [a])[i]? = some e := by
  rw [List.getElem?_append_left (lt_of_some h)]
  exact h

theorem set_cases {α : Type} {l : List α} {a e : α} {k i : Nat} (h : (l.set k a)[i]? = some e) : (k ≠ i ∧ l[i]? = some e) ∨ (k = i ∧ e = a) := by
  rw [List.getElem?_set] at h
  split at h
  · rename_i hk
    split at h
    · exact .inr ⟨hk, (Option.some.inj h).symm⟩
    · cases h
  · rename_i hk; exact .inl ⟨hk, h⟩

/-- What `create` does, in either case: the class `k` is new or replaces the base. -/
inductive Created (s : St) (w : Nat) (ow : Owner) (d : Desc) (b : GCls) : St → Prop
  | new (c : GCls) (hc : d.collect = true)
      (hs : ∀ g, g ∈ c.sigs ↔ g ∈ b.sigs ∨ ∃ f ∈ ow.fields, ((d.aliases ++ b.aliases).lookup f).getD (some f) = some g) (hm : c.made = true) (hb : c.base = some d.base)
      (ha : ∀ f, c.aliases.lookup f = (d.aliases ++ b.aliases).lookup f) :
      Created s w ow d b { s with classes := s.classes ++ [c], owners := s.owners.set w { ow with group := some (s.classes.length, !c.aliases.isEmpty) } }
  | use (hc : d.collect = false) :
      Created s w ow d b { s with classes := s.classes.set d.base { b with aliases := d.aliases ++ b.aliases },
                                   owners := s.owners.set w { ow with group := some (d.base, !(d.aliases ++ b.aliases).isEmpty) } }

theorem resolve_lookup (b : GCls) (f h : Nat) (sa : Aliases) : ((resolve b h sa).2 ++ b.aliases).lookup f = (sa ++ b.aliases).lookup f := by
  unfold resolve
  cases h1 : sa.lookup h with
  | some q => rfl
  | none =>
    cases h2 : b.aliases.lookup h with
    | none => rfl
    | some q =>
      simp only
      rw [List.cons_append, List.lookup_cons]
      split
      · rename_i hf
        have hf : f = h := by simpa using hf
        subst hf
        rw [lookup_append, h1, h2]
        rfl
      · rfl

theorem collect_lookup (b : GCls) (f : Nat) : ∀ (fs sigs : List Nat) (sa : Aliases),
    ((collect b fs sigs sa).2 ++ b.aliases).lookup f = (sa ++ b.aliases).lookup f
  | [], _, _ => rfl
  | h :: fs, sigs, sa => by
    rw [collect]
    split
    · rw [collect_lookup b f fs sigs _, resolve_lookup]
    · split
      · rw [collect_lookup b f fs sigs _, resolve_lookup]
      · rw [collect_lookup b f fs _ _, resolve_lookup]

theorem resolve_target (b : GCls) (f : Nat) (sa : Aliases) : (resolve b f sa).1 = ((sa ++ b.aliases).lookup f).getD (some f) := by
  unfold resolve
  rw [lookup_append]
  cases sa.lookup f with
  | some q => rfl
  | none => cases b.aliases.lookup f <;> rfl

theorem collect_sigs (b : GCls) (g : Nat) : ∀ (fs sigs : List Nat) (sa : Aliases),
    g ∈ (collect b fs sigs sa).1 ↔
      g ∈ sigs ∨ (g ∉ b.sigs ∧ ∃ f ∈ fs, ((sa ++ b.aliases).lookup f).getD (some f) = some g)
  | [], _, _ => by simp [collect]
  | h :: fs, sigs, sa => by
    have hr := resolve_target b h sa
    rw [collect]
    split
    · rename_i hn
      rw [hn] at hr
      rw [collect_sigs b g fs sigs _]
      simp only [resolve_lookup, List.mem_cons, exists_eq_or_imp, ← hr]
      simp
    · rename_i q hq
      rw [hq] at hr
      split
      · rename_i hin
        rw [collect_sigs b g fs sigs _]
        simp only [resolve_lookup, List.mem_cons, exists_eq_or_imp, ← hr, Option.some.injEq]
        constructor
        · rintro (h1 | ⟨h1, h2⟩)
          · exact .inl h1
          · exact .inr ⟨h1, .inr h2⟩
        · rintro (h1 | ⟨h1, rfl | h2⟩)
          · exact .inl h1
          · rcases hin with hin | hin
            · exact .inl hin
            · exact absurd hin h1
          · exact .inr ⟨h1, h2⟩
      · rename_i hin
        rw [collect_sigs b g fs _ _]
        simp only [resolve_lookup, List.mem_cons, exists_eq_or_imp, ← hr, Option.some.injEq, List.mem_append, List.not_mem_nil, or_false]
        constructor
        · rintro ((h1 | rfl) | ⟨h1, h2⟩)
          · exact .inl h1
          · exact .inr ⟨fun hb => hin (.inr hb), .inl rfl⟩
          · exact .inr ⟨h1, .inr h2⟩
        · rintro (h1 | ⟨h1, rfl | h2⟩)
          · exact .inl (.inl h1)
          · exact .inl (.inr rfl)
          · exact .inr ⟨h1, h2⟩

theorem create_created (s : St) (w : Nat) (ow : Owner) (d : Desc) (b : GCls) : Created s w ow d b (create s w ow d b) := by
  unfold create
  split
  · rename_i hc
    exact .new _ hc (fun g => by
      rw [List.mem_append, collect_sigs b g ow.fields [] d.aliases]
      simp only [List.not_mem_nil, false_or]
      constructor
      · rintro (h | h)
        · exact .inl h
        · exact .inr h.2
      · rintro (h | h)
        · exact .inl h
        · by_cases hg : g ∈ b.sigs
          · exact .inl hg
          · exact .inr ⟨hg, h⟩) rfl rfl (fun f => collect_lookup b f ow.fields [] d.aliases)
  · rename_i hc
    exact .use (by simpa using hc)

/-- What `access` does. -/
inductive Accessed (s : St) (w : Nat) : St → Prop
  | same : Accessed s w s
  | made (ow : Owner) (d : Desc) (b : GCls) (s' : St) (h1 : s.owners[w]? = some ow) (h2 : ow.group = none) (h3 : s.descs[ow.desc]? = some d)
      (h4 : s.classes[d.base]? = some b) (h5 : Created s w ow d b s') : Accessed s w s'

theorem access_accessed (s : St) (w : Nat) : Accessed s w (access s w) := by
  unfold access
  split
  · exact .same
  · rename_i ow hw
    split
    · exact .same
    · rename_i hg
      split
      · exact .same
      · rename_i d hd
        split
        · exact .same
        · rename_i b hb
          exact .made ow d b _ hw hg hd hb (create_created s w ow d b)

/-- Nothing but classes and groups of owners differs, and no signals get lost. -/
theorem access_rest (s : St) (w : Nat) : (access s w).objs = s.objs ∧ (access s w).descs = s.descs ∧ (access s w).log = s.log ∧
    (access s w).owners.length = s.owners.length := by
  have h := access_accessed s w
  generalize access s w = s' at h
  cases h with
  | same => exact ⟨rfl, rfl, rfl, rfl⟩
  | made ow d b _ h1 h2 h3 h4 h5 =>
    cases h5 with
    | new => exact ⟨rfl, rfl, rfl, by simp⟩
    | use => exact ⟨rfl, rfl, rfl, by simp⟩

theorem access_group {s : St} {w v : Nat} {c : GCls} {wa : Bool} (h : s.groupOf v = some (c, wa)) :
    ∃ c', (access s w).groupOf v = some (c', wa) ∧ c'.sigs = c.sigs := by
  have ha := access_accessed s w
  generalize access s w = s' at ha
  cases ha with
  | same => exact ⟨c, h, rfl⟩
  | made ow d b _ h1 h2 h3 h4 h5 =>
    unfold St.groupOf at h
    cases hv : s.owners[v]? with
    | none => rw [hv] at h; cases h
    | some ov =>
      rw [hv] at h
      cases hg : ov.group with
      | none => rw [Option.bind_some, hg] at h; cases h
      | some p =>
        rw [Option.bind_some, hg, Option.bind_some] at h
        cases hp : s.classes[p.1]? with
        | none => rw [hp] at h; cases h
        | some cp =>
          rw [hp] at h
          cases h
          have hwv : w ≠ v := by
            rintro rfl
            rw [hv] at h1
            cases h1
            rw [hg] at h2
            cases h2
          cases h5 with
          | new e hc =>
            refine ⟨c, ?_, rfl⟩
            unfold St.groupOf
            rw [List.getElem?_set_ne hwv, hv, Option.bind_some, hg, Option.bind_some, append_some hp]
            rfl
          | use hc =>
            unfold St.groupOf
            rw [List.getElem?_set_ne hwv, hv, Option.bind_some, hg, Option.bind_some]
            by_cases hk : d.base = p.1
            · refine ⟨{ b with aliases := d.aliases ++ b.aliases }, ?_, ?_⟩
              · rw [List.getElem?_set, if_pos hk, if_pos (by rw [hk]; exact lt_of_some hp)]
                rfl
              · rw [hk, hp] at h4
                cases h4
                rfl
            · refine ⟨c, ?_, rfl⟩
              rw [List.getElem?_set_ne hk, hp]
              rfl

theorem access_basic {s : St} (h : Basic s) (w : Nat) : Basic (access s w) := by
  have hrest := access_rest s w
  have hgrp : ∀ {v c wa}, s.groupOf v = some (c, wa) → ∃ c', (access s w).groupOf v = some (c', wa) ∧ c'.sigs = c.sigs := fun hh => access_group hh
  have ha := access_accessed s w
  generalize access s w = s' at ha hrest hgrp
  have hobjs : ∀ (o : Nat) (x : Obj), s'.objs[o]? = some x → x.cls < s'.owners.length := by
    intro o x hx
    rw [hrest.1] at hx
    rw [hrest.2.2.2]
    exact h.objs o x hx
  have hheard : ∀ (o : Nat) (x : Obj), s'.objs[o]? = some x → ∀ g ∈ x.heard, ∃ c wa, s'.groupOf x.cls = some (c, wa) ∧ g ∈ c.sigs := by
    intro o x hx g hg
    rw [hrest.1] at hx
    obtain ⟨c, wa, h1, h2⟩ := h.heard o x hx g hg
    obtain ⟨c', h3, h4⟩ := hgrp h1
    exact ⟨c', wa, h3, by rw [h4]; exact h2⟩
  cases ha with
  | same => exact h
  | made ow d b _ h1 h2 h3 h4 h5 =>
    cases h5 with
    | new e hc hs hm hb ha =>
      refine ⟨?_, ?_, ?_, hobjs, hheard⟩
      · intro i d' hd'
        obtain ⟨c, q1, q2⟩ := h.bases i d' hd'
        exact ⟨c, append_some q1, q2⟩
      · intro v ov hv
        rcases set_cases hv with ⟨_, hv⟩ | ⟨rfl, rfl⟩
        · exact h.owners v ov hv
        · exact h.owners w ow h1
      · intro v ov k wa hv hg
        rcases set_cases hv with ⟨_, hv⟩ | ⟨rfl, rfl⟩
        · obtain ⟨d', c, q1, q2, q3, q4⟩ := h.groups v ov k wa hv hg
          exact ⟨d', c, q1, append_some q2, q3, q4⟩
        · cases hg
          exact ⟨d, e, h3, by simp, fun hf => (by rw [hc] at hf; cases hf), fun _ => hm⟩
    | use hc =>
      refine ⟨?_, ?_, ?_, hobjs, hheard⟩
      · intro i d' hd'
        obtain ⟨c, q1, q2⟩ := h.bases i d' hd'
        by_cases hk : d.base = d'.base
        · refine ⟨{ b with aliases := d.aliases ++ b.aliases }, ?_, ?_⟩
          · simp only
            rw [List.getElem?_set, if_pos hk, if_pos (by rw [hk]; exact lt_of_some q1)]
          · rw [← hk, h4] at q1; cases q1; exact q2
        · exact ⟨c, by simp only; rw [List.getElem?_set_ne hk]; exact q1, q2⟩
      · intro v ov hv
        rcases set_cases hv with ⟨_, hv⟩ | ⟨rfl, rfl⟩
        · exact h.owners v ov hv
        · exact h.owners w ow h1
      · intro v ov k wa hv hg
        rcases set_cases hv with ⟨_, hv⟩ | ⟨rfl, rfl⟩
        · obtain ⟨d', c, q1, q2, q3, q4⟩ := h.groups v ov k wa hv hg
          by_cases hk : d.base = k
          · refine ⟨d', { b with aliases := d.aliases ++ b.aliases }, q1, ?_, q3, ?_⟩
            · simp only
              rw [List.getElem?_set, if_pos hk, if_pos (by rw [hk]; exact lt_of_some q2)]
            · rw [← hk, h4] at q2; cases q2; exact q4
          · exact ⟨d', c, q1, by simp only; rw [List.getElem?_set_ne hk]; exact q2, q3, q4⟩
        · cases hg
          refine ⟨d, { b with aliases := d.aliases ++ b.aliases }, h3, ?_, fun _ => rfl, fun hf => (by rw [hc] at hf; cases hf)⟩
          simp only
          rw [List.getElem?_set, if_pos rfl, if_pos (lt_of_some h4)]

theorem access_inv {s : St} (hb : Basic s) (h : Inv s) (hf : Fair s) (w : Nat) : Inv (access s w) := by
  have ha := access_accessed s w
  generalize access s w = s' at ha
  cases ha with
  | same => exact h
  | made ow d b _ h1 h2 h3 h4 h5 =>
    have hbm : b.made = false := by
      obtain ⟨c, q1, q2⟩ := hb.bases _ d h3
      rw [h4] at q1
      cases q1
      exact q2
    cases h5 with
    | new e hc hs hm hbs ha =>
      have hst : b.aliases = b.stated := by
        refine h.stated _ b h4 hbm ?_
        intro i d' hd' hcol hal hbase
        have := (hf i d' hd' hcol hal).1 _ d h3 hbase.symm
        subst this
        rw [h3] at hd'
        cases hd'
        rw [hc] at hcol
        cases hcol
      refine ⟨?_, ?_, ?_⟩
      · intro k c hk hmk hno
        rcases append_cases hk with hk | ⟨_, rfl⟩
        · exact h.stated k c hk hmk hno
        · rw [hm] at hmk; cases hmk
      · intro i d' c hd' hcol hk
        obtain ⟨c', q1, _⟩ := hb.bases i d' hd'
        simp only at hk
        rw [append_some q1] at hk
        cases hk
        exact h.used i d' c hd' hcol q1
      · intro v ov k wa d' b' c hv hg hd' hb' hk
        obtain ⟨b'', q1, _⟩ := hb.bases _ d' hd'
        simp only at hb'
        rw [append_some q1] at hb'
        cases hb'
        rcases set_cases hv with ⟨_, hv⟩ | ⟨rfl, rfl⟩
        · obtain ⟨_, c', _, q2, _⟩ := hb.groups v ov k wa hv hg
          simp only at hk
          rw [append_some q2] at hk
          cases hk
          exact h.group v ov k wa d' b' c hv hg hd' q1 q2
        · cases hg
          simp only at hk hd'
          rw [List.getElem?_append_right (Nat.le_refl _), Nat.sub_self] at hk
          cases hk
          rw [h3] at hd'
          cases hd'
          rw [h4] at q1
          cases q1
          refine ⟨fun f => by rw [ha f, hst], ?_, ?_⟩
          · intro hwa
            simpa using hwa
          · intro g
            rw [hs g, hst]
            simp [hc]
    | use hc =>
      by_cases hal : d.aliases = []
      · have hsame : s.classes.set d.base { b with aliases := d.aliases ++ b.aliases } = s.classes := by
          apply List.ext_getElem?
          intro i
          rw [List.getElem?_set]
          split
          · rename_i hi
            subst hi
            rw [if_pos (lt_of_some h4), h4, hal]
            rfl
          · rfl
        refine ⟨?_, ?_, ?_⟩
        · simp only [hsame]; exact h.stated
        · simp only [hsame]; exact h.used
        · simp only [hsame]
          intro v ov k wa d' b' c hv hg hd' hb' hk
          rcases set_cases hv with ⟨_, hv⟩ | ⟨rfl, rfl⟩
          · exact h.group v ov k wa d' b' c hv hg hd' hb' hk
          · cases hg
            simp only at hd'
            rw [h3] at hd'
            cases hd'
            rw [h4] at hb' hk
            cases hb'
            cases hk
            refine ⟨?_, ?_, ?_⟩
            · intro f
              have := h.used _ d b h3 hc h4 f
              rw [hal] at this ⊢
              exact this
            · intro hwa
              rw [hal] at hwa
              simpa using hwa
            · intro g
              simp [hc]
      · have honly := (hf _ d h3 hc hal).1
        have hat : (s.classes.set d.base { b with aliases := d.aliases ++ b.aliases })[d.base]? = some { b with aliases := d.aliases ++ b.aliases } := by
          rw [List.getElem?_set, if_pos rfl, if_pos (lt_of_some h4)]
        refine ⟨?_, ?_, ?_⟩
        · intro k c hk hmk hno
          rcases set_cases hk with ⟨_, hk⟩ | ⟨rfl, rfl⟩
          · exact h.stated k c hk hmk hno
          · exact absurd rfl (hno _ d h3 hc hal)
        · intro i d' c hd' hcol hk f
          rcases set_cases hk with ⟨_, hk⟩ | ⟨he, rfl⟩
          · exact h.used i d' c hd' hcol hk f
          · have := honly i d' hd' he.symm
            subst this
            simp only at hd'
            rw [h3] at hd'
            cases hd'
            have hu := h.used _ d b h3 hc h4 f
            simp only [lookup_append] at hu ⊢
            rw [← hu]
            cases d.aliases.lookup f <;> rfl
        · intro v ov k wa d' b' c hv hg hd' hb' hk
          rcases set_cases hv with ⟨_, hv0⟩ | ⟨rfl, rfl⟩
          · clear hv
            have hv := hv0
            clear hv0
            obtain ⟨d'', c'', q1, q2, q3, q4⟩ := hb.groups v ov k wa hv hg
            have hd'0 : s.descs[ov.desc]? = some d' := hd'
            rw [hd'0] at q1
            cases q1
            rcases set_cases hk with ⟨hne, hk⟩ | ⟨rfl, rfl⟩
            · rcases set_cases hb' with ⟨_, hb'⟩ | ⟨he, rfl⟩
              · exact h.group v ov k wa d' b' c hv hg hd' hb' hk
              · have hb0 : s.classes[d'.base]? = some b := by rw [← he]; exact h4
                exact h.group v ov k wa d' b c hv hg hd' hb0 hk
            · rw [h4] at q2
              cases q2
              cases hcol : d'.collect with
              | true => rw [q4 hcol] at hbm; cases hbm
              | false =>
                have he := q3 hcol
                have := honly _ d' hd' he.symm
                have hdd : d' = d := by
                  simp only at hd'
                  rw [this, h3] at hd'
                  exact (Option.some.inj hd').symm
                subst hdd
                rw [hat] at hb'
                cases hb'
                obtain ⟨g1, g2, g3⟩ := h.group v ov d'.base wa d' b b hv hg hd' h4 h4
                refine ⟨?_, ?_, fun g => by simp⟩
                · intro f
                  have := g1 f
                  simp only [lookup_append] at this ⊢
                  rw [this]
                  cases d'.aliases.lookup f <;> rfl
                · intro hwa
                  exfalso
                  have hnil := g2 hwa
                  cases hda : d'.aliases with
                  | nil => exact hal hda
                  | cons p l =>
                    have := g1 p.1
                    rw [hnil, hda, List.cons_append, List.lookup_cons] at this
                    simp at this
          · cases hg
            simp only at hd'
            rw [h3] at hd'
            cases hd'
            rw [hat] at hb' hk
            cases hb'
            cases hk
            refine ⟨h.used _ d b h3 hc h4, ?_, ?_⟩
            · intro hwa
              simpa using hwa
            · intro g
              simp [hc]

/-! ### Programs -/

/-- The later state has more descriptors and classes. -/
structure Ext (s s' : St) : Prop where
  descs : ∀ (i : Nat) (d : Desc), s.descs[i]? = some d → s'.descs[i]? = some d
  classes : ∀ (k : Nat) (c : GCls), s.classes[k]? = some c → ∃ c', s'.classes[k]? = some c' ∧ c'.base = c.base ∧ c'.sigs = c.sigs ∧
    c'.stated = c.stated ∧ c'.made = c.made

theorem Ext.refl (s : St) : Ext s s := ⟨fun _ _ h => h, fun _ c h => ⟨c, h, rfl, rfl, rfl, rfl⟩⟩

theorem Ext.trans {a b c : St} (h1 : Ext a b) (h2 : Ext b c) : Ext a c := by
  refine ⟨fun i d h => h2.descs i d (h1.descs i d h), ?_⟩
  intro k x hx
  obtain ⟨y, a1, a2, a3, a4, a5⟩ := h1.classes k x hx
  obtain ⟨z, b1, b2, b3, b4, b5⟩ := h2.classes k y a1
  exact ⟨z, b1, b2.trans a2, b3.trans a3, b4.trans a4, b5.trans a5⟩

theorem Ext.fair {s s' : St} (h : Ext s s') (hf : Fair s') : Fair s := by
  intro i d hd hc ha
  obtain ⟨h1, h2⟩ := hf i d (h.descs i d hd) hc ha
  refine ⟨fun j e he hb => h1 j e (h.descs j e he) hb, ?_⟩
  intro k c hk
  obtain ⟨c', q1, q2, _⟩ := h.classes k c hk
  rw [← q2]
  exact h2 k c' q1

theorem access_ext (s : St) (w : Nat) : Ext s (access s w) := by
  have ha := access_accessed s w
  generalize access s w = s' at ha
  cases ha with
  | same => exact Ext.refl s
  | made ow d b _ h1 h2 h3 h4 h5 =>
    cases h5 with
    | new e => exact ⟨fun _ _ h => h, fun k c hk => ⟨c, append_some hk, rfl, rfl, rfl, rfl⟩⟩
    | use hc =>
      refine ⟨fun _ _ h => h, ?_⟩
      intro k c hk
      by_cases he : d.base = k
      · refine ⟨{ b with aliases := d.aliases ++ b.aliases }, ?_, ?_⟩
        · simp only
          rw [List.getElem?_set, if_pos he, if_pos (by rw [he]; exact lt_of_some hk)]
        · rw [he, hk] at h4
          cases h4
          exact ⟨rfl, rfl, rfl, rfl⟩
      · exact ⟨c, by simp only; rw [List.getElem?_set_ne he]; exact hk, rfl, rfl, rfl, rfl⟩

theorem assign_rest (s : St) (o f v : Nat) (x : Obj) : (assign s o f v x).classes = s.classes ∧ (assign s o f v x).descs = s.descs ∧
    (assign s o f v x).owners = s.owners ∧
    (assign s o f v x).objs = s.objs.set o { x with attrs := fun g => if g = f then v else x.attrs g } := by
  unfold assign
  simp only
  split
  · exact ⟨rfl, rfl, rfl, rfl⟩
  · split
    · exact ⟨rfl, rfl, rfl, rfl⟩
    · split
      · exact ⟨rfl, rfl, rfl, rfl⟩
      · exact ⟨rfl, rfl, rfl, rfl⟩

theorem step_ext (s : St) (op : Op) : Ext s (step s op) := by
  have app : ∀ c : GCls, Ext s { s with classes := s.classes ++ [c] } :=
    fun c => ⟨fun _ _ h => h, fun k c hk => ⟨c, append_some hk, rfl, rfl, rfl, rfl⟩⟩
  have same : ∀ s' : St, s'.classes = s.classes → s'.descs = s.descs → Ext s s' := by
    intro s' h1 h2
    exact ⟨fun i d h => by rw [h2]; exact h, fun k c hk => ⟨c, by rw [h1]; exact hk, rfl, rfl, rfl, rfl⟩⟩
  cases op with
  | group p sigs aliases =>
    cases p with
    | none => exact app _
    | some p =>
      simp only [step]
      split
      · exact Ext.refl s
      · exact app _
  | desc base col al =>
    simp only [step]
    split
    · exact Ext.refl s
    · exact ⟨fun i d h => append_some h, fun k c hk => ⟨c, hk, rfl, rfl, rfl, rfl⟩⟩
  | owner d fs =>
    simp only [step]
    split
    · exact same _ rfl rfl
    · exact Ext.refl s
  | new w =>
    simp only [step]
    split
    · exact same _ rfl rfl
    · exact Ext.refl s
  | access o =>
    simp only [step]
    split
    · exact Ext.refl s
    · exact access_ext s _
  | connect o g =>
    simp only [step]
    split
    · exact Ext.refl s
    · rename_i x hx
      split
      · exact access_ext s _
      · split
        · have h := access_ext s x.cls
          exact ⟨h.descs, h.classes⟩
        · exact access_ext s _
  | set o f v =>
    simp only [step]
    split
    · exact Ext.refl s
    · rename_i x hx
      exact same _ (assign_rest s o f v x).1 (assign_rest s o f v x).2.1

theorem run_ext : ∀ (ops : List Op) (s : St), Ext s (run ops s)
  | [], s => Ext.refl s
  | op :: ops, s => (step_ext s op).trans (run_ext ops (step s op))

theorem group_same {s s' : St} (h1 : s'.classes = s.classes) (h2 : s'.owners = s.owners) (w : Nat) : s'.groupOf w = s.groupOf w := by
  unfold St.groupOf
  rw [h1, h2]

theorem user_some {s : St} {k : Nat} {c : GCls} (h : s.user k = some c) : s.classes[k]? = some c ∧ c.made = false := by
  unfold St.user at h
  cases hk : s.classes[k]? with
  | none => rw [hk] at h; cases h
  | some e =>
    rw [hk, Option.bind_some] at h
    split at h
    · cases h
    · rename_i hm
      cases h
      exact ⟨rfl, by simpa using hm⟩

/-- New objects lists in which only attributes differ, or a listener was added. -/
theorem basic_objs {s s' : St} (h : Basic s) (h1 : s'.classes = s.classes) (h2 : s'.descs = s.descs) (h3 : s'.owners = s.owners)
    (hobjs : ∀ (o : Nat) (x : Obj), s'.objs[o]? = some x → x.cls < s.owners.length)
    (hheard : ∀ (o : Nat) (x : Obj), s'.objs[o]? = some x → ∀ g ∈ x.heard, ∃ c wa, s.groupOf x.cls = some (c, wa) ∧ g ∈ c.sigs) : Basic s' := by
  refine ⟨?_, ?_, ?_, ?_, ?_⟩
  · rw [h1, h2]; exact h.bases
  · rw [h2, h3]; exact h.owners
  · rw [h1, h2, h3]; exact h.groups
  · rw [h3]; exact hobjs
  · intro o x hx g hg
    rw [group_same h1 h3]
    exact hheard o x hx g hg

theorem cls_basic {s : St} (h : Basic s) (c : GCls) : Basic { s with classes := s.classes ++ [c] } := by
  have hg : ∀ {w e wa}, s.groupOf w = some (e, wa) → ({ s with classes := s.classes ++ [c] } : St).groupOf w = some (e, wa) := by
    intro w e wa hh
    unfold St.groupOf at *
    cases hw : (s.owners[w]?).bind Owner.group with
    | none => rw [hw] at hh; cases hh
    | some p =>
      rw [hw, Option.bind_some] at hh
      cases hp : s.classes[p.1]? with
      | none => rw [hp] at hh; cases hh
      | some q =>
        rw [hp] at hh
        simp only [Option.bind_some, append_some hp]
        exact hh
  refine ⟨?_, h.owners, ?_, h.objs, ?_⟩
  · intro i d hd
    obtain ⟨e, q1, q2⟩ := h.bases i d hd
    exact ⟨e, append_some q1, q2⟩
  · intro w ow k wa hw hgr
    obtain ⟨d, e, q1, q2, q3⟩ := h.groups w ow k wa hw hgr
    exact ⟨d, e, q1, append_some q2, q3⟩
  · intro o x hx g hgx
    obtain ⟨e, wa, q1, q2⟩ := h.heard o x hx g hgx
    exact ⟨e, wa, hg q1, q2⟩

theorem step_basic {s : St} (h : Basic s) (op : Op) : Basic (step s op) := by
  cases op with
  | group p sigs aliases =>
    cases p with
    | none => exact cls_basic h _
    | some p =>
      simp only [step]
      split
      · exact h
      · exact cls_basic h _
  | desc base col al =>
    simp only [step]
    split
    · exact h
    · rename_i c hc
      obtain ⟨hc1, hc2⟩ := user_some hc
      refine ⟨?_, ?_, ?_, h.objs, h.heard⟩
      · intro i d hd
        rcases append_cases hd with hd | ⟨_, rfl⟩
        · exact h.bases i d hd
        · exact ⟨c, hc1, hc2⟩
      · intro w ow hw
        obtain ⟨d, hd⟩ := h.owners w ow hw
        exact ⟨d, append_some hd⟩
      · intro w ow k wa hw hg
        obtain ⟨d, e, q1, q2⟩ := h.groups w ow k wa hw hg
        exact ⟨d, e, append_some q1, q2⟩
  | owner d fs =>
    simp only [step]
    split
    · rename_i hd
      refine ⟨h.bases, ?_, ?_, ?_, ?_⟩
      · intro w ow hw
        rcases append_cases hw with hw | ⟨_, rfl⟩
        · exact h.owners w ow hw
        · exact ⟨_, List.getElem?_eq_getElem hd⟩
      · intro w ow k wa hw hg
        rcases append_cases hw with hw | ⟨_, rfl⟩
        · exact h.groups w ow k wa hw hg
        · cases hg
      · intro o x hx
        have := h.objs o x hx
        simp only [List.length_append, List.length_singleton]
        omega
      · intro o x hx g hg
        obtain ⟨c, wa, q1, q2⟩ := h.heard o x hx g hg
        refine ⟨c, wa, ?_, q2⟩
        unfold St.groupOf at *
        simp only
        rw [List.getElem?_append_left (h.objs o x hx)]
        exact q1
    · exact h
  | new w =>
    simp only [step]
    split
    · rename_i hw
      refine basic_objs h rfl rfl rfl ?_ ?_
      · intro o x hx
        rcases append_cases hx with hx | ⟨_, rfl⟩
        · exact h.objs o x hx
        · exact hw
      · intro o x hx g hg
        rcases append_cases hx with hx | ⟨_, rfl⟩
        · exact h.heard o x hx g hg
        · cases hg
    · exact h
  | access o =>
    simp only [step]
    split
    · exact h
    · exact access_basic h _
  | connect o g =>
    simp only [step]
    split
    · exact h
    · rename_i x hx
      have ha := access_basic h x.cls
      have hx' : (access s x.cls).objs[o]? = some x := by rw [(access_rest s x.cls).1]; exact hx
      split
      · exact ha
      · rename_i c wa hc
        split
        · rename_i hg
          refine basic_objs ha rfl rfl rfl ?_ ?_
          · intro o' y hy
            rcases set_cases hy with ⟨_, hy⟩ | ⟨rfl, rfl⟩
            · exact ha.objs o' y hy
            · exact ha.objs o x hx'
          · intro o' y hy g' hg'
            rcases set_cases hy with ⟨_, hy⟩ | ⟨rfl, rfl⟩
            · exact ha.heard o' y hy g' hg'
            · rcases List.mem_cons.mp hg' with rfl | hg'
              · exact ⟨c, wa, hc, hg⟩
              · exact ha.heard o x hx' g' hg'
        · exact ha
  | set o f v =>
    simp only [step]
    split
    · exact h
    · rename_i x hx
      obtain ⟨r1, r2, r3, r4⟩ := assign_rest s o f v x
      refine basic_objs h r1 r2 r3 ?_ ?_
      · intro o' y hy
        rw [r4] at hy
        rcases set_cases hy with ⟨_, hy⟩ | ⟨rfl, rfl⟩
        · exact h.objs o' y hy
        · exact h.objs o x hx
      · intro o' y hy g' hg'
        rw [r4] at hy
        rcases set_cases hy with ⟨_, hy⟩ | ⟨rfl, rfl⟩
        · exact h.heard o' y hy g' hg'
        · exact h.heard o x hx g' hg'

theorem inv_same {s s' : St} (h : Inv s) (h1 : s'.classes = s.classes) (h2 : s'.descs = s.descs) (h3 : s'.owners = s.owners) : Inv s' := by
  refine ⟨?_, ?_, ?_⟩
  · rw [h1, h2]; exact h.stated
  · rw [h1, h2]; exact h.used
  · rw [h1, h2, h3]; exact h.group

theorem cls_inv {s : St} (hb : Basic s) (h : Inv s) (c : GCls) (hc : c.made = false → c.aliases = c.stated) :
    Inv { s with classes := s.classes ++ [c] } := by
  refine ⟨?_, ?_, ?_⟩
  · intro k e hk hm hno
    rcases append_cases hk with hk | ⟨_, rfl⟩
    · exact h.stated k e hk hm hno
    · exact hc hm
  · intro i d e hd hcol hk
    obtain ⟨e', q1, _⟩ := hb.bases i d hd
    simp only at hk
    rw [append_some q1] at hk
    cases hk
    exact h.used i d e hd hcol q1
  · intro w ow k wa d b e hw hg hd hbb hk
    obtain ⟨b', q1, _⟩ := hb.bases _ d hd
    obtain ⟨_, e', _, q2, _⟩ := hb.groups w ow k wa hw hg
    simp only at hbb hk
    rw [append_some q1] at hbb
    rw [append_some q2] at hk
    cases hbb
    cases hk
    exact h.group w ow k wa d b e hw hg hd q1 q2

theorem step_inv {s : St} (hb : Basic s) (h : Inv s) (op : Op) (hf : Fair (step s op)) : Inv (step s op) := by
  have hfs : Fair s := (step_ext s op).fair hf
  cases op with
  | group p sigs aliases =>
    cases p with
    | none => exact cls_inv hb h _ (fun _ => rfl)
    | some p =>
      simp only [step] at hf ⊢
      split
      · exact h
      · rename_i c hc
        rw [hc] at hf
        obtain ⟨hc1, hc2⟩ := user_some hc
        refine cls_inv hb h _ (fun _ => ?_)
        have : c.aliases = c.stated := by
          refine h.stated p c hc1 hc2 ?_
          intro i d hd hcol hal he
          have := (hf i d hd hcol hal).2 s.classes.length _ (by simp; rfl)
          exact this (by rw [he])
        rw [this]
  | desc base col al =>
    simp only [step] at hf ⊢
    split
    · exact h
    · rename_i c hc
      rw [hc] at hf
      simp only at hf
      obtain ⟨hc1, hc2⟩ := user_some hc
      refine ⟨?_, ?_, ?_⟩
      · intro k e hk hm hno
        exact h.stated k e hk hm (fun i d hd => hno i d (append_some hd))
      · intro i d e hd hcol hk f
        rcases append_cases hd with hd | ⟨_, rfl⟩
        · exact h.used i d e hd hcol hk f
        · simp only at hk
          rw [hc1] at hk
          cases hk
          have : c.aliases = c.stated := by
            refine h.stated base c hc1 hc2 ?_
            intro i' d' hd' hcol' hal' he
            have := (hf i' d' (append_some hd') hcol' hal').1 s.descs.length ⟨base, col, al⟩ (by simp) he.symm
            have := lt_of_some hd'
            omega
          rw [this]
      · intro w ow k wa d b e hw hg hd hbb hk
        obtain ⟨d', q1⟩ := hb.owners w ow hw
        simp only at hd
        rw [append_some q1] at hd
        cases hd
        exact h.group w ow k wa d b e hw hg q1 hbb hk
  | owner d fs =>
    simp only [step]
    split
    · refine ⟨h.stated, h.used, ?_⟩
      intro w ow k wa d' b e hw hg hd hbb hk
      rcases append_cases hw with hw | ⟨_, rfl⟩
      · exact h.group w ow k wa d' b e hw hg hd hbb hk
      · cases hg
    · exact h
  | new w =>
    simp only [step]
    split
    · exact inv_same h rfl rfl rfl
    · exact h
  | access o =>
    simp only [step]
    split
    · exact h
    · exact access_inv hb h hfs _
  | connect o g =>
    simp only [step]
    split
    · exact h
    · rename_i x hx
      have ha := access_inv hb h hfs x.cls
      split
      · exact ha
      · split
        · exact inv_same ha rfl rfl rfl
        · exact ha
  | set o f v =>
    simp only [step]
    split
    · exact h
    · rename_i x hx
      obtain ⟨r1, r2, r3, _⟩ := assign_rest s o f v x
      exact inv_same h r1 r2 r3

theorem run_basic : ∀ (ops : List Op) {s : St}, Basic s → Basic (run ops s)
  | [], _, h => h
  | op :: ops, _, h => run_basic ops (step_basic h op)

theorem run_inv : ∀ (ops : List Op) {s : St}, Basic s → Inv s → Fair (run ops s) → Inv (run ops s)
  | [], _, _, h, _ => h
  | op :: ops, s, hb, h, hf => run_inv ops (step_basic hb op) (step_inv hb h op ((run_ext ops (step s op)).fair hf)) hf

theorem basic_empty : Basic {} :=
  ⟨fun _ _ h => (by cases h), fun _ _ h => (by cases h), fun _ _ _ _ h => (by cases h), fun _ _ h => (by cases h), fun _ _ h => (by cases h)⟩

theorem inv_empty : Inv {} := ⟨fun _ _ h => (by cases h), fun _ _ _ h => (by cases h), fun _ _ _ _ _ _ _ h => (by cases h)⟩

/-! ### One assignment, one connection -/

theorem run_append : ∀ (a b : List Op) (s : St), run (a ++ b) s = run b (run a s)
  | [], _, _ => rfl
  | op :: a, b, s => run_append a b (step s op)

theorem step_heard {s : St} {o : Nat} {x : Obj} (hx : s.objs[o]? = some x) (op : Op) :
    ∃ y, (step s op).objs[o]? = some y ∧ y.cls = x.cls ∧ ∀ g ∈ x.heard, g ∈ y.heard := by
  have triv : ∀ s' : St, s'.objs = s.objs → ∃ y, s'.objs[o]? = some y ∧ y.cls = x.cls ∧ ∀ g ∈ x.heard, g ∈ y.heard :=
    fun s' h => ⟨x, by rw [h]; exact hx, rfl, fun _ hg => hg⟩
  cases op with
  | group p sigs aliases =>
    cases p with
    | none => exact triv _ rfl
    | some p =>
      simp only [step]
      split
      · exact triv _ rfl
      · exact triv _ rfl
  | desc base col al =>
    simp only [step]
    split
    · exact triv _ rfl
    · exact triv _ rfl
  | owner d fs =>
    simp only [step]
    split
    · exact triv _ rfl
    · exact triv _ rfl
  | new w =>
    simp only [step]
    split
    · exact ⟨x, append_some hx, rfl, fun _ hg => hg⟩
    · exact triv _ rfl
  | access a =>
    simp only [step]
    split
    · exact triv _ rfl
    · exact triv _ (access_rest s _).1
  | connect a g =>
    simp only [step]
    split
    · exact triv _ rfl
    · rename_i y hy
      split
      · exact triv _ (access_rest s _).1
      · split
        · simp only [(access_rest s y.cls).1]
          by_cases ha : a = o
          · subst ha
            rw [hx] at hy
            cases hy
            refine ⟨{ x with heard := g :: x.heard }, ?_, rfl, fun _ hg => List.mem_cons_of_mem _ hg⟩
            rw [List.getElem?_set, if_pos rfl, if_pos (lt_of_some hx)]
          · exact ⟨x, by rw [List.getElem?_set_ne ha]; exact hx, rfl, fun _ hg => hg⟩
        · exact triv _ (access_rest s _).1
  | set a f v =>
    simp only [step]
    split
    · exact triv _ rfl
    · rename_i y hy
      rw [(assign_rest s a f v y).2.2.2]
      by_cases ha : a = o
      · subst ha
        rw [hx] at hy
        cases hy
        refine ⟨{ x with attrs := fun g => if g = f then v else x.attrs g }, ?_, rfl, fun _ hg => hg⟩
        rw [List.getElem?_set, if_pos rfl, if_pos (lt_of_some hx)]
      · exact ⟨x, by rw [List.getElem?_set_ne ha]; exact hx, rfl, fun _ hg => hg⟩

theorem run_heard : ∀ (ops : List Op) {s : St} {o : Nat} {x : Obj}, s.objs[o]? = some x →
    ∃ y, (run ops s).objs[o]? = some y ∧ y.cls = x.cls ∧ ∀ g ∈ x.heard, g ∈ y.heard
  | [], _, _, x, hx => ⟨x, hx, rfl, fun _ hg => hg⟩
  | op :: ops, _, _, _, hx => by
    obtain ⟨y, h1, h2, h3⟩ := step_heard hx op
    obtain ⟨z, h4, h5, h6⟩ := run_heard ops h1
    exact ⟨z, h4, h5.trans h2, fun g hg => h6 g (h3 g hg)⟩

/-- After the access the group is there. -/
theorem access_made {s : St} (h : Basic s) {w : Nat} {ow : Owner} (hw : s.owners[w]? = some ow) :
    ∃ ow' k wa, (access s w).owners[w]? = some ow' ∧ ow'.group = some (k, wa) ∧ ow'.desc = ow.desc ∧ ow'.fields = ow.fields := by
  cases hg : ow.group with
  | some p =>
    have : access s w = s := by unfold access; rw [hw]; simp only [hg]
    rw [this]
    exact ⟨ow, p.1, p.2, hw, hg, rfl, rfl⟩
  | none =>
    obtain ⟨d, hd⟩ := h.owners w ow hw
    obtain ⟨b, hb, _⟩ := h.bases _ d hd
    have : access s w = create s w ow d b := by unfold access; rw [hw]; simp only [hg, hd, hb]
    rw [this]
    have hc := create_created s w ow d b
    generalize create s w ow d b = s' at hc
    cases hc with
    | new c => exact ⟨{ ow with group := some (s.classes.length, !c.aliases.isEmpty) }, _, _,
        by simp only; rw [List.getElem?_set, if_pos rfl, if_pos (lt_of_some hw)], rfl, rfl, rfl⟩
    | use => exact ⟨{ ow with group := some (d.base, !(d.aliases ++ b.aliases).isEmpty) }, _, _,
        by simp only; rw [List.getElem?_set, if_pos rfl, if_pos (lt_of_some hw)], rfl, rfl, rfl⟩

theorem group_of {s : St} {w : Nat} {ow : Owner} {k : Nat} {wa : Bool} {c : GCls} (h1 : s.owners[w]? = some ow) (h2 : ow.group = some (k, wa))
    (h3 : s.classes[k]? = some c) : s.groupOf w = some (c, wa) := by
  unfold St.groupOf
  rw [h1, Option.bind_some, h2, Option.bind_some, h3]
  rfl

theorem of_group {s : St} {w : Nat} {wa : Bool} {c : GCls} (h : s.groupOf w = some (c, wa)) :
    ∃ ow k, s.owners[w]? = some ow ∧ ow.group = some (k, wa) ∧ s.classes[k]? = some c := by
  unfold St.groupOf at h
  cases hw : s.owners[w]? with
  | none => rw [hw] at h; cases h
  | some ow =>
    rw [hw, Option.bind_some] at h
    cases hg : ow.group with
    | none => rw [hg] at h; cases h
    | some p =>
      rw [hg, Option.bind_some] at h
      cases hk : s.classes[p.1]? with
      | none => rw [hk] at h; cases h
      | some e =>
        rw [hk] at h
        cases h
        exact ⟨ow, p.1, rfl, hg, hk⟩

end Psygnal.Sha
