import Verif.Descriptor
/-!
# Invariants of the caches of `SignalGroupDescriptor`

`Base` holds in every history, `Inv` in those that meet the conditions of C50.
-/
namespace Psygnal.Desc

theorem find_mem {κ : Type} [DecidableEq κ] {k : κ} {v : Nat} : ∀ {d : List (κ × Nat)}, find k d = some v → (k, v) ∈ d
  | [], h => by cases h
  | (k', v') :: d, h => by
    simp only [find] at h
    split at h
    · simp_all
    · exact List.mem_cons_of_mem _ (find_mem h)

theorem find_none {κ : Type} [DecidableEq κ] {k : κ} : ∀ {d : List (κ × Nat)}, find k d = none → ∀ v, (k, v) ∉ d
  | [], _, _ => by simp
  | (k', v') :: d, h, v => by
    simp only [find] at h
    split at h
    · cases h
    · have := find_none h v
      simp; grind

theorem used_obj {st : St} {a o : Nat} {ob : Obj} (h : used st a = false) (ho : st.objs[o]? = some ob)
    (hl : ob.alive = true) : ob.addr ≠ a := by
  simp only [used, Bool.or_eq_false_iff, List.any_eq_false] at h
  have := h.1 ob (List.mem_of_getElem? ho)
  simp_all

theorem used_cls {st : St} {a i : Nat} {k : Cls} (h : used st a = false) (ho : st.clss[i]? = some k)
    (hl : k.alive = true) : k.addr ≠ a := by
  simp only [used, Bool.or_eq_false_iff, List.any_eq_false] at h
  have := h.2 k (List.mem_of_getElem? ho)
  simp_all

theorem pinned_of {st : St} {a g o : Nat} {x : Grp} (hm : (a, g) ∈ st.imap) (hg : st.grps[g]? = some x)
    (ho : x.owner = o) (hs : x.strong = true) : pinned st o = true := by
  simp only [pinned, List.any_eq_true]
  exact ⟨(a, g), hm, by simp [hg, ho, hs]⟩

/-- What holds in every history. -/
structure Base (st : St) : Prop where
  addr : ∀ {o o' : Nat} {ob ob' : Obj}, st.objs[o]? = some ob → st.objs[o']? = some ob' → ob.alive = true →
    ob'.alive = true → ob.addr = ob'.addr → o = o'
  caddr : ∀ {i i' : Nat} {k k' : Cls}, st.clss[i]? = some k → st.clss[i']? = some k' → k.alive = true →
    k'.alive = true → k.addr = k'.addr → i = i'
  cls : ∀ {o : Nat} {ob : Obj}, st.objs[o]? = some ob → ob.alive = true →
    ∃ k, st.clss[ob.cls]? = some k ∧ k.alive = true
  grp : ∀ {g : Nat} {x : Grp}, st.grps[g]? = some x → ∃ ob, st.objs[x.owner]? = some ob ∧ x.strong = !ob.weakrefable
  imap : ∀ {a g : Nat}, (a, g) ∈ st.imap → ∃ x ob, st.grps[g]? = some x ∧ st.objs[x.owner]? = some ob ∧
    ob.alive = true ∧ ob.addr = a ∧ ob.fin = ob.weakrefable

/-- What holds if each object is read through one descriptor, classes that have a group type live on, and no copied
object had a group in its dict. -/
structure Inv (c : Cfg) (own : Nat → Nat) (noDie : Prop) (noCopy : Prop) (st : St) : Prop extends Base st where
  eqa : noDie ∨ ∀ {i : Nat} {k : Cls}, st.clss[i]? = some k → k.eqAttr = false
  cache : noCopy ∨ ((∀ d, c.cacheOn d = false) ∧ ∀ {o : Nat} {ob : Obj}, st.objs[o]? = some ob → ob.dict = [])
  types : ∀ {d a i : Nat}, ((d, a), i) ∈ st.types → ∃ k, st.clss[i]? = some k ∧ k.alive = true ∧ k.addr = a ∧
    (noDie ∨ k.kept = true)
  made : ∀ {g : Nat} {x : Grp}, st.grps[g]? = some x → x.desc = own x.owner ∧
    ∃ ob, st.objs[x.owner]? = some ob ∧ x.cls = ob.cls
  live : ∀ {g : Nat} {x : Grp} {ob : Obj}, st.grps[g]? = some x → st.objs[x.owner]? = some ob → ob.alive = true →
    (ob.addr, g) ∈ st.imap
  imap1 : ∀ {a g g' : Nat}, (a, g) ∈ st.imap → (a, g') ∈ st.imap → g = g'
  uniq : ∀ {g g' : Nat} {x x' : Grp}, st.grps[g]? = some x → st.grps[g']? = some x' → x.owner = x'.owner → g = g'
  dict : ∀ {o a g : Nat} {ob : Obj}, st.objs[o]? = some ob → (a, g) ∈ ob.dict → ∃ x, st.grps[g]? = some x ∧ x.owner = o
  log : ∀ {d o g : Nat}, (d, o, g) ∈ st.log → d = own o ∧ ∃ x, st.grps[g]? = some x ∧ x.owner = o

theorem base_init : Base St.init := by constructor <;> simp [St.init]

theorem inv_init (c : Cfg) (own : Nat → Nat) (nd nc : Prop) (h : nc ∨ ∀ d, c.cacheOn d = false) :
    Inv c own nd nc St.init := by
  constructor <;> first | exact base_init | simp [St.init] <;> grind

/-! ## The steps, one constructor for each way they change the state -/

/-- The group type is found or made. -/
inductive TypeStep (st : St) (d i : Nat) (k : Cls) : Nat → St → Prop
  | hit {i' : Nat} : ((d, k.addr), i') ∈ st.types → TypeStep st d i k i' st
  | miss : TypeStep st d i k i { st with types := ((d, k.addr), i) :: st.types, clss := st.clss.set i { k with kept := k.kept || !k.eqAttr } }

theorem groupType_rel (st : St) (d i : Nat) (k : Cls) :
    TypeStep st d i k (groupType st d i k).1 (groupType st d i k).2 := by
  unfold groupType
  split
  · rename_i h; exact .hit (find_mem h)
  · exact .miss

theorem base_type {st st' : St} {d i i' : Nat} {k : Cls} (hk : st.clss[i]? = some k) (h : TypeStep st d i k i' st')
    (hb : Base st) : Base st' := by
  cases h with
  | hit => exact hb
  | miss =>
    obtain ⟨h1, h2, h3, h4, h5⟩ := hb
    constructor <;> simp only [] <;> first | assumption | grind

theorem inv_type {c : Cfg} {own : Nat → Nat} {nd nc : Prop} {st st' : St} {d i i' : Nat} {k : Cls}
    (hk : st.clss[i]? = some k) (ha : k.alive = true) (h : TypeStep st d i k i' st') (hi : Inv c own nd nc st) :
    Inv c own nd nc st' ∧ i' = i := by
  have hb := base_type hk h hi.toBase
  cases h with
  | hit hm =>
    obtain ⟨k', h1, h2, h3, _⟩ := hi.types hm
    exact ⟨hi, hi.caddr h1 hk h2 ha h3⟩
  | miss =>
    refine ⟨?_, rfl⟩
    obtain ⟨_, e1, e2, e3, e4, e5, e6, e7, e8, e9⟩ := hi
    refine ⟨hb, ?_, ?_, ?_, ?_, ?_, ?_, ?_, ?_, ?_⟩ <;> simp only [] <;> first | assumption | grind

/-- What a read of the attribute does after the group type is known. -/
inductive GetStep (c : Cfg) (st : St) (d o : Nat) (ob : Obj) (i : Nat) : Nat → St → Prop
  | hit {g : Nat} : (ob.addr, g) ∈ st.imap → GetStep c st d o ob i g st
  | make (dict : List (Nat × Nat)) :
    (∀ g, (ob.addr, g) ∉ st.imap) →
    (dict = ob.dict ∨ c.cacheOn d = true ∧ dict = (c.attr d, st.grps.length) :: ob.dict) →
    GetStep c st d o ob i st.grps.length { st with grps := st.grps ++ [⟨d, i, o, !ob.weakrefable⟩], imap := (ob.addr, st.grps.length) :: st.imap, objs := st.objs.set o { ob with dict := dict, fin := ob.weakrefable } }

/-- Either the instance dict has the group, or the two steps follow each other. -/
theorem get_rel (c : Cfg) (st : St) (d o : Nat) (ob : Obj) (k : Cls) :
    ((c.attr d, (get c st d o ob k).1) ∈ ob.dict ∧ (get c st d o ob k).2 = st) ∨
    ∃ i st1, TypeStep st d ob.cls k i st1 ∧ GetStep c st1 d o ob i (get c st d o ob k).1 (get c st d o ob k).2 := by
  unfold get
  split
  · rename_i h; exact .inl ⟨find_mem h, rfl⟩
  · refine .inr ⟨_, _, groupType_rel st d ob.cls k, ?_⟩
    dsimp only
    split
    · rename_i h; exact .hit (find_mem h)
    · rename_i h
      refine .make _ (find_none h) ?_
      split
      · rename_i h'; simp at h'; exact .inr ⟨h'.2, rfl⟩
      · exact .inl rfl

theorem typeStep_objs {st st' : St} {d i i' : Nat} {k : Cls} (h : TypeStep st d i k i' st') : st'.objs = st.objs := by
  cases h <;> rfl

theorem base_getStep {c : Cfg} {st st' : St} {d o g i : Nat} {ob : Obj} (ho : st.objs[o]? = some ob)
    (ha : ob.alive = true) (h : GetStep c st d o ob i g st') (hb : Base st) : Base st' := by
  cases h with
  | hit => exact hb
  | make dict hn hd =>
    obtain ⟨h1, h2, h3, h4, h5⟩ := hb
    have hlt : o < st.objs.length := by grind
    constructor <;> simp only []
    · grind
    · exact h2
    · grind
    · intro g x hg
      grind
    · intro a g hm
      simp only [List.mem_cons, Prod.mk.injEq] at hm
      rcases hm with ⟨rfl, rfl⟩ | hm
      · exact ⟨⟨d, i, o, !ob.weakrefable⟩, { ob with dict := dict, fin := ob.weakrefable }, by simp, by simp [hlt], ha,
          rfl, rfl⟩
      · obtain ⟨x, ob', e1, e2, e3, e4, e5⟩ := h5 hm
        refine ⟨x, ob', by grind, ?_, e3, e4, e5⟩
        have : x.owner ≠ o := by
          intro e; subst e
          rw [ho] at e2; cases e2
          exact hn _ (e4 ▸ hm)
        grind

theorem inv_getStep {c : Cfg} {own : Nat → Nat} {nd nc : Prop} {st st' : St} {d o g : Nat} {ob : Obj}
    (ho : st.objs[o]? = some ob) (ha : ob.alive = true) (hd : d = own o)
    (h : GetStep c st d o ob ob.cls g st') (hi : Inv c own nd nc st) :
    Inv c own nd nc st' ∧ ∃ x, st'.grps[g]? = some x ∧ x.owner = o := by
  have hb := base_getStep ho ha h hi.toBase
  cases h with
  | hit hm =>
    refine ⟨hi, ?_⟩
    obtain ⟨x, ob', e1, e2, e3, e4, _⟩ := hi.imap hm
    exact ⟨x, e1, hi.addr e2 ho e3 ha e4⟩
  | make dict hn hdict =>
    refine ⟨?_, ⟨d, ob.cls, o, !ob.weakrefable⟩, by simp, rfl⟩
    have hno : ∀ {g : Nat} {x : Grp}, st.grps[g]? = some x → x.owner ≠ o := by
      intro g x hg e
      exact hn g (hi.live hg (e ▸ ho) ha)
    have hlt : o < st.objs.length := by grind
    obtain ⟨h0, e1, e2, e3, e4, e5, e6, e7, e8, e9⟩ := hi
    refine ⟨hb, e1, ?_, e3, ?_, ?_, ?_, ?_, ?_, ?_⟩ <;> simp only []
    · rcases e2 with e2 | ⟨e2, e2'⟩
      · exact .inl e2
      · refine .inr ⟨e2, ?_⟩
        grind
    · intro g x hg
      grind
    · intro g x ob' hg ho' ha'
      grind
    · grind
    · intro g g' x x' hg hg' he
      grind
    · intro o' a g ob' ho' hm
      have hnew : (st.grps ++ [⟨d, ob.cls, o, !ob.weakrefable⟩])[st.grps.length]? = some ⟨d, ob.cls, o, !ob.weakrefable⟩ := by
        simp
      have hold : ∀ {a g : Nat} {ob' : Obj}, st.objs[o']? = some ob' → (a, g) ∈ ob'.dict →
          ∃ x, (st.grps ++ [⟨d, ob.cls, o, !ob.weakrefable⟩])[g]? = some x ∧ x.owner = o' := by
        intro a g ob' h1 h2
        obtain ⟨x, hx, hx'⟩ := e8 h1 h2
        exact ⟨x, by grind, hx'⟩
      rw [List.getElem?_set] at ho'
      split at ho'
      · subst_vars
        cases ho'
        rcases hdict with rfl | ⟨_, rfl⟩
        · exact hold ho hm
        · simp only [List.mem_cons, Prod.mk.injEq] at hm
          rcases hm with ⟨_, rfl⟩ | hm
          · exact ⟨_, hnew, rfl⟩
          · exact hold ho hm
      · exact hold ho' hm
    · intro d' o' g hm
      obtain ⟨e, x, hx, hx'⟩ := e9 hm
      exact ⟨e, x, by grind, hx'⟩

/-- A read of the attribute. -/
theorem inv_get {c : Cfg} {own : Nat → Nat} {nd nc : Prop} {st : St} {d o : Nat} {ob : Obj} {k : Cls}
    (ho : st.objs[o]? = some ob) (ha : ob.alive = true) (hk : st.clss[ob.cls]? = some k) (hd : d = own o)
    (hi : Inv c own nd nc st) :
    Inv c own nd nc (get c st d o ob k).2 ∧
    ∃ x, (get c st d o ob k).2.grps[(get c st d o ob k).1]? = some x ∧ x.owner = o := by
  rcases get_rel c st d o ob k with ⟨h1, h2⟩ | ⟨i, st1, h1, h2⟩
  · rw [h2]; exact ⟨hi, hi.dict ho h1⟩
  · obtain ⟨k', hk', hal⟩ := hi.cls ho ha
    rw [hk] at hk'; cases hk'
    obtain ⟨hi1, rfl⟩ := inv_type hk hal h1 hi
    exact inv_getStep (typeStep_objs h1 ▸ ho) ha hd h2 hi1

theorem base_get {c : Cfg} {st : St} {d o : Nat} {ob : Obj} {k : Cls}
    (ho : st.objs[o]? = some ob) (ha : ob.alive = true) (hk : st.clss[ob.cls]? = some k) (hi : Base st) :
    Base (get c st d o ob k).2 := by
  rcases get_rel c st d o ob k with ⟨h1, h2⟩ | ⟨i, st1, h1, h2⟩
  · rw [h2]; exact hi
  · exact base_getStep (typeStep_objs h1 ▸ ho) ha h2 (base_type hk h1 hi)

/-! ## Every step -/

theorem base_step (c : Cfg) (st : St) (op : Op) (hb : Base st) : Base (step c st op) := by
  cases op with
  | newCls a e =>
    simp only [step]; split
    · exact hb
    · rename_i h
      have hu : ∀ {i : Nat} {k : Cls}, st.clss[i]? = some k → k.alive = true → k.addr ≠ a :=
        fun h1 h2 => used_cls (by simpa using h) h1 h2
      obtain ⟨h1, h2, h3, h4, h5⟩ := hb
      constructor <;> simp only [] <;> first | assumption | grind
  | dieCls i =>
    simp only [step]; split
    · exact hb
    · rename_i k hk
      split
      · exact hb
      · rename_i h
        have hu : ∀ {o : Nat} {ob : Obj}, st.objs[o]? = some ob → ob.alive = true → ob.cls ≠ i := by
          intro o ob ho ha e
          refine h (.inr (.inr ?_))
          exact List.any_eq_true.2 ⟨ob, List.mem_of_getElem? ho, by simp [ha, e]⟩
        obtain ⟨h1, h2, h3, h4, h5⟩ := hb
        constructor <;> simp only [] <;> first | assumption | grind
  | new i a se w =>
    simp only [step]; split
    · exact hb
    · rename_i k hk
      split
      · exact hb
      · rename_i h
        have hu : ∀ {o : Nat} {ob : Obj}, st.objs[o]? = some ob → ob.alive = true → ob.addr ≠ a :=
          fun h1 h2 => used_obj (by simp at h; exact h.2) h1 h2
        obtain ⟨h1, h2, h3, h4, h5⟩ := hb
        constructor <;> simp only [] <;> first | assumption | grind
  | die o =>
    simp only [step]; split
    · exact hb
    · rename_i ob ho
      split
      · exact hb
      · rename_i h
        have hlt : o < st.objs.length := by grind
        obtain ⟨h1, h2, h3, h4, h5⟩ := hb
        constructor <;> simp only []
        · grind
        · exact h2
        · grind
        · grind
        · intro a g hm
          have hm' : (a, g) ∈ st.imap := by
            split at hm
            · exact (List.mem_filter.1 hm).1
            · exact hm
          obtain ⟨x, ob', e1, e2, e3, e4, e5⟩ := h5 hm'
          refine ⟨x, ob', e1, ?_, e3, e4, e5⟩
          have : x.owner ≠ o := by
            intro e; subst e
            rw [ho] at e2; cases e2
            by_cases hw : ob.weakrefable = true
            · rw [if_pos (e5 ▸ hw)] at hm
              simp [e4] at hm
            · obtain ⟨ob2, q1, q2⟩ := h4 e1
              rw [ho] at q1; cases q1
              exact h (.inr (pinned_of hm' e1 rfl (by simp [q2, hw])))
          grind
  | get d o =>
    simp only [step]; split
    · exact hb
    · rename_i ob ho
      split
      · exact hb
      · rename_i k hk
        split
        · exact hb
        · rename_i h
          have := base_get (c := c) (d := d) ho (by simpa using h) hk hb
          exact ⟨this.1, this.2, this.3, this.4, this.5⟩
  | copy o a =>
    simp only [step]; split
    · exact hb
    · rename_i ob ho
      split
      · exact hb
      · rename_i h
        have hu : ∀ {o : Nat} {ob : Obj}, st.objs[o]? = some ob → ob.alive = true → ob.addr ≠ a :=
          fun h1 h2 => used_obj (by simp at h; exact h.2) h1 h2
        obtain ⟨h1, h2, h3, h4, h5⟩ := hb
        constructor <;> simp only [] <;> first | assumption | grind

theorem base_run (c : Cfg) : ∀ (ops : List Op) (st : St), Base st → Base (run c ops st)
  | [], _, h => h
  | o :: os, st, h => base_run c os _ (base_step c st o h)

/-- An entry whose group holds its object strongly stays. -/
theorem strong_step (c : Cfg) {st : St} (op : Op) {a g : Nat} {x : Grp} (hb : Base st) (hm : (a, g) ∈ st.imap)
    (hx : st.grps[g]? = some x) (hs : x.strong = true) :
    (a, g) ∈ (step c st op).imap ∧ (step c st op).grps[g]? = some x := by
  cases op with
  | newCls a e => simp only [step]; split <;> exact ⟨hm, hx⟩
  | dieCls i =>
    simp only [step]; split
    · exact ⟨hm, hx⟩
    · split <;> exact ⟨hm, hx⟩
  | new i a se w =>
    simp only [step]; split
    · exact ⟨hm, hx⟩
    · split <;> exact ⟨hm, hx⟩
  | copy o a =>
    simp only [step]; split
    · exact ⟨hm, hx⟩
    · split <;> exact ⟨hm, hx⟩
  | die o =>
    simp only [step]; split
    · exact ⟨hm, hx⟩
    · rename_i ob ho
      split
      · exact ⟨hm, hx⟩
      · rename_i h
        refine ⟨?_, hx⟩
        simp only
        split
        · refine List.mem_filter.2 ⟨hm, ?_⟩
          simp only [ne_eq, decide_eq_true_eq]
          intro e
          obtain ⟨x', ob', h1, h2, h3, h4, _⟩ := hb.imap hm
          rw [hx] at h1; cases h1
          have ha : ob.alive = true := by simp at h; exact h.1
          have := hb.addr h2 ho h3 ha (h4.trans e)
          exact h (.inr (pinned_of hm hx this hs))
        · exact hm
  | get d o =>
    simp only [step]; split
    · exact ⟨hm, hx⟩
    · rename_i ob ho
      split
      · exact ⟨hm, hx⟩
      · rename_i k hk
        split
        · exact ⟨hm, hx⟩
        · simp only
          rcases get_rel c st d o ob k with ⟨_, h⟩ | ⟨i, st1, h1, h2⟩
          · rw [h]; exact ⟨hm, hx⟩
          · have e1 : st1.imap = st.imap := by cases h1 <;> rfl
            have e2 : st1.grps = st.grps := by cases h1 <;> rfl
            rw [← e1] at hm
            rw [← e2] at hx
            generalize (get c st d o ob k).1 = g' at h2
            generalize (get c st d o ob k).2 = st2 at h2
            cases h2 with
            | hit => exact ⟨hm, hx⟩
            | make => exact ⟨List.mem_cons_of_mem _ hm, by grind⟩

/-- What the conditions of C50 allow one event to be. -/
def Allowed (own : Nat → Nat) (noDie noCopy : Prop) : Op → Prop
  | .newCls _ e => noDie ∨ e = false
  | .dieCls _ => ¬ noDie
  | .get d o => d = own o
  | .copy _ _ => ¬ noCopy
  | _ => True

theorem inv_step {c : Cfg} {own : Nat → Nat} {nd nc : Prop} {st : St} {op : Op} (hop : Allowed own nd nc op)
    (hi : Inv c own nd nc st) : Inv c own nd nc (step c st op) := by
  have hb := base_step c st op hi.toBase
  revert hb
  cases op with
  | newCls a e =>
    simp only [Allowed] at hop
    simp only [step]; split
    · exact fun _ => hi
    · intro hb
      obtain ⟨_, e1, e2, e3, e4, e5, e6, e7, e8, e9⟩ := hi
      refine ⟨hb, ?_, ?_, ?_, ?_, ?_, ?_, ?_, ?_, ?_⟩ <;> simp only [] <;> first | assumption | grind
  | dieCls i =>
    simp only [Allowed] at hop
    simp only [step]; split
    · exact fun _ => hi
    · split
      · exact fun _ => hi
      · intro hb
        obtain ⟨_, e1, e2, e3, e4, e5, e6, e7, e8, e9⟩ := hi
        refine ⟨hb, ?_, ?_, ?_, ?_, ?_, ?_, ?_, ?_, ?_⟩ <;> simp only [] <;> first | assumption | grind
  | new i a se w =>
    simp only [step]; split
    · exact fun _ => hi
    · split
      · exact fun _ => hi
      · intro hb
        obtain ⟨h0, e1, e2, e3, e4, e5, e6, e7, e8, e9⟩ := hi
        refine ⟨hb, ?_, ?_, ?_, ?_, ?_, ?_, ?_, ?_, ?_⟩ <;> simp only [] <;> first | assumption | grind
  | die o =>
    simp only [step]; split
    · exact fun _ => hi
    · rename_i ob ho
      split
      · exact fun _ => hi
      · rename_i h
        intro hb
        have hlt : o < st.objs.length := by grind
        have had := fun {o' : Nat} {ob' : Obj} => hi.addr (o := o) (o' := o') (ob := ob) (ob' := ob') ho
        obtain ⟨h0, e1, e2, e3, e4, e5, e6, e7, e8, e9⟩ := hi
        refine ⟨hb, ?_, ?_, ?_, ?_, ?_, ?_, ?_, ?_, ?_⟩ <;> simp only [] <;> first | assumption | grind
  | get d o =>
    simp only [Allowed] at hop
    simp only [step]; split
    · exact fun _ => hi
    · rename_i ob ho
      split
      · exact fun _ => hi
      · rename_i k hk
        split
        · exact fun _ => hi
        · rename_i h
          intro hb
          obtain ⟨hi', hx⟩ := inv_get ho (by simpa using h) hk hop hi
          obtain ⟨h0, e1, e2, e3, e4, e5, e6, e7, e8, e9⟩ := hi'
          refine ⟨hb, e1, e2, e3, e4, e5, e6, e7, e8, ?_⟩
          simp only []
          intro d' o' g hm
          rcases List.mem_append.1 hm with hm | hm
          · exact e9 hm
          · simp at hm
            obtain ⟨rfl, rfl, rfl⟩ := hm
            exact ⟨hop, hx⟩
  | copy o a =>
    simp only [Allowed] at hop
    simp only [step]; split
    · exact fun _ => hi
    · rename_i ob ho
      split
      · exact fun _ => hi
      · intro hb
        obtain ⟨h0, e1, e2, e3, e4, e5, e6, e7, e8, e9⟩ := hi
        refine ⟨hb, ?_, ?_, ?_, ?_, ?_, ?_, ?_, ?_, ?_⟩ <;> simp only [] <;> first | assumption | grind

theorem inv_run {c : Cfg} {own : Nat → Nat} {nd nc : Prop} : ∀ (ops : List Op) (st : St),
    (∀ op ∈ ops, Allowed own nd nc op) → Inv c own nd nc st → Inv c own nd nc (run c ops st)
  | [], _, _, h => h
  | o :: os, _, ho, h =>
    inv_run os _ (fun op hm => ho op (List.mem_cons_of_mem _ hm)) (inv_step (ho o List.mem_cons_self) h)

end Psygnal.Desc
