import Verif.EventedCopy

/-!
# Copies of evented objects: specification and refinement
-/
namespace Psygnal.EvCopy

/-- What should happen: every object has its own values and its own connections, a copy has the same values and no connections.  `used o`: the events of the object (or of
the object it is a copy of) have been looked up, by the program or by an assignment after the first such look-up in the class (`any`). -/
structure Spec where
  n : Nat := 1
  vals : Nat → Nat → Int := fun _ _ => 0
  slots : Nat → List (Nat × Nat) := fun _ => []
  used : Nat → Bool := fun _ => false
  any : Bool := false
  log : List Call := []

/-- One operation. -/
def Spec.step (op : Op) (a : Spec) : Spec :=
  if op.obj < a.n then
    match op with
    | .get o => { a with used := fun o' => if o' = o then true else a.used o', any := true }
    | .connect o f cb =>
      { a with used := fun o' => if o' = o then true else a.used o', any := true,
               slots := fun o' => if o' = o then a.slots o ++ [(f, cb)] else a.slots o' }
    | .assign o f v =>
      { a with used := fun o' => if o' = o then a.used o || a.any else a.used o',
               vals := fun o' => if o' = o then (fun f' => if f' = f then v else a.vals o f') else a.vals o',
               log := if v = a.vals o f then a.log
                 else a.log ++ ((a.slots o).filter fun x => x.1 = f).map fun x => ⟨x.2, f, v, a.vals o f, o⟩ }
    | .copy o => { a with n := a.n + 1, vals := fun o' => if o' = a.n then a.vals o else a.vals o', used := fun o' => if o' = a.n then a.used o else a.used o' }
    | .deepcopy o => { a with n := a.n + 1, vals := fun o' => if o' = a.n then a.vals o else a.vals o', used := fun o' => if o' = a.n then a.used o else a.used o' }
  else a

/-- A program. -/
def Spec.run : List Op → Spec → Spec
  | [], a => a
  | op :: ops, a => Spec.run ops (a.step op)

/-- No shallow copies of objects with used events, and when `strict` no deep ones either. -/
def CopiesUnused (strict : Bool) : List Op → Spec → Prop
  | [], _ => True
  | op :: ops, a => (match op with
      | .copy o => a.used o = false
      | .deepcopy o => strict = true → a.used o = false
      | _ => True) ∧ CopiesUnused strict ops (a.step op)

/-- The group of an object. -/
def St.grp (s : St) (o : Nat) : Option Nat :=
  match (s.objs o).entry with
  | some g => some g
  | none => s.imap o

/-- Calls without the object of the group. -/
def Call.anon (c : Call) : Call := { c with inst := 0 }

structure Rel (stored strict : Bool) (s : St) (a : Spec) : Prop where
  n : s.n = a.n
  vals : ∀ o, (s.objs o).vals = a.vals o
  log : if strict = true then s.log = a.log else s.log.map Call.anon = a.log.map Call.anon
  any : s.patched = a.any
  nogrp : s.patched = false → ∀ o, s.grp o = none
  used : ∀ o, a.used o = false → (s.objs o).entry = none
  unstored : stored = false → ∀ o, (s.objs o).entry = none
  outside : ∀ o, s.n ≤ o → s.grp o = none
  link0 : ∀ o, s.grp o = none → a.slots o = []
  link : ∀ o g, s.grp o = some g → ∃ gr, s.groups[g]? = some gr ∧ gr.slots = a.slots o ∧ (strict = true → gr.inst = o)
  inj : ∀ o o' g, s.grp o = some g → s.grp o' = some g → o = o'

theorem grp_none {s : St} {o : Nat} (h : s.grp o = none) : (s.objs o).entry = none ∧ s.imap o = none := by
  unfold St.grp at h
  cases he : (s.objs o).entry with
  | some g => rw [he] at h; cases h
  | none => rw [he] at h; exact ⟨rfl, h⟩

theorem get_grp {stored : Bool} {o g : Nat} {s : St} (h : s.grp o = some g) :
    (get stored o s).1 = g ∧ ((get stored o s).2 = s ∨ (get stored o s).2 = { s with patched := true }) := by
  unfold St.grp at h
  unfold get
  cases he : (s.objs o).entry with
  | some g' => rw [he] at h; cases h; exact ⟨rfl, Or.inl rfl⟩
  | none =>
    rw [he] at h
    replace h : s.imap o = some g := h
    rw [h]; exact ⟨rfl, Or.inr rfl⟩

theorem grp_setObj {s : St} {o o' : Nat} {x : Obj} :
    (s.setObj o x).grp o' = if o' = o then (match x.entry with | some g => some g | none => s.imap o) else s.grp o' := by
  unfold St.grp St.setObj
  by_cases h : o' = o
  · subst h; simp only [if_pos]
  · simp only [if_neg h]

/-- Looking up the events. -/
theorem Rel.get {stored strict : Bool} {s : St} {a : Spec} (h : Rel stored strict s a) {o : Nat} (ho : o < s.n) :
    Rel stored strict (get stored o s).2 { a with used := fun o' => if o' = o then true else a.used o', any := true } ∧
    (get stored o s).2.grp o = some (get stored o s).1 ∧ (get stored o s).2.n = s.n ∧ (get stored o s).2.patched = true := by
  cases hg : s.grp o with
  | some g =>
    obtain ⟨e1, e2⟩ := get_grp (stored := stored) hg
    have hp : s.patched = true := by
      cases hp : s.patched with
      | true => rfl
      | false => rw [h.nogrp hp o] at hg; cases hg
    have e3 : (EvCopy.get stored o s).2 = s := by
      rcases e2 with e2 | e2
      · exact e2
      · rw [e2]; cases s; simp only at hp; subst hp; rfl
    rw [e1, e3]
    refine ⟨⟨h.n, h.vals, h.log, hp, h.nogrp, ?_, h.unstored, h.outside, h.link0, h.link, h.inj⟩, hg, rfl, hp⟩
    intro o' h'
    apply h.used o'
    simp only at h'
    split at h'
    · cases h'
    · exact h'
  | none =>
    obtain ⟨e1, e2⟩ := grp_none hg
    have key : ∀ o', (EvCopy.get stored o s).2.grp o' = if o' = o then some s.groups.length else s.grp o' := by
      intro o'
      unfold EvCopy.get
      rw [e1, e2]
      simp only
      cases stored with
      | true =>
        simp only [if_true]
        rw [grp_setObj]
        simp only
        by_cases h' : o' = o
        · rw [if_pos h', if_pos h']
        · rw [if_neg h', if_neg h']
          unfold St.grp
          simp only [if_neg h']
      | false =>
        simp only [Bool.false_eq_true, if_false]
        unfold St.grp
        by_cases h' : o' = o
        · subst h'; simp only [e1, if_true]
        · simp only [if_neg h']
    have hgs : (EvCopy.get stored o s).2.groups = s.groups ++ [⟨o, []⟩] := by
      unfold EvCopy.get; rw [e1, e2]; cases stored <;> rfl
    have hv : ∀ o', ((EvCopy.get stored o s).2.objs o').vals = (s.objs o').vals := by
      intro o'
      unfold EvCopy.get; rw [e1, e2]; cases stored
      · rfl
      · simp only [if_true, St.setObj]
        by_cases h' : o' = o
        · rw [if_pos h', h']
        · rw [if_neg h']
    have hent : ∀ o', o' ≠ o ∨ stored = false → ((EvCopy.get stored o s).2.objs o').entry = (s.objs o').entry := by
      intro o' h'
      unfold EvCopy.get; rw [e1, e2]; cases stored
      · rfl
      · simp only [if_true, St.setObj]
        rw [if_neg (h'.resolve_right (fun q => by cases q))]
    have hn : (EvCopy.get stored o s).2.n = s.n := by
      unfold EvCopy.get; rw [e1, e2]; cases stored <;> rfl
    have hp : (EvCopy.get stored o s).2.patched = true := by
      unfold EvCopy.get; rw [e1, e2]; cases stored <;> rfl
    have hl : (EvCopy.get stored o s).2.log = s.log := by
      unfold EvCopy.get; rw [e1, e2]; cases stored <;> rfl
    have h1 : (EvCopy.get stored o s).1 = s.groups.length := by
      unfold EvCopy.get; rw [e1, e2]
    have hbound : ∀ o' g, s.grp o' = some g → g < s.groups.length := by
      intro o' g h'
      obtain ⟨gr, h2, _⟩ := h.link o' g h'
      exact (List.getElem?_eq_some_iff.mp h2).1
    refine ⟨⟨hn.trans h.n, fun o' => (hv o').trans (h.vals o'), by rw [hl]; exact h.log, hp, (fun q => by rw [hp] at q; cases q),
      ?_, ?_, ?_, ?_, ?_, ?_⟩, by rw [key, if_pos rfl, h1], hn, hp⟩
    · intro o' h'
      simp only at h'
      split at h'
      · cases h'
      · rename_i h2
        rw [hent o' (Or.inl h2)]; exact h.used o' h'
    · intro hs o'
      rw [hent o' (Or.inr hs)]; exact h.unstored hs o'
    · intro o' h'
      rw [hn] at h'
      rw [key, if_neg (by omega)]; exact h.outside o' h'
    · intro o' h'
      rw [key] at h'
      split at h'
      · cases h'
      · exact h.link0 o' h'
    · intro o' g h'
      rw [key] at h'
      rw [hgs]
      split at h'
      · rename_i h2
        cases h'
        refine ⟨⟨o, []⟩, by simp, ?_, fun _ => h2.symm⟩
        rw [h2]; exact (h.link0 o hg).symm
      · obtain ⟨gr, h2, h3⟩ := h.link o' g h'
        refine ⟨gr, ?_, h3⟩
        rw [List.getElem?_append_left (hbound o' g h')]; exact h2
    · intro o1 o2 g h1 h2
      rw [key] at h1 h2
      split at h1
      · rename_i k1
        split at h2
        · rename_i k2; rw [k1, k2]
        · cases h1; exact absurd (hbound o2 _ h2) (Nat.lt_irrefl _)
      · split at h2
        · cases h2; exact absurd (hbound o1 _ h1) (Nat.lt_irrefl _)
        · exact h.inj o1 o2 g h1 h2

theorem Rel.bound {stored strict : Bool} {s : St} {a : Spec} (h : Rel stored strict s a) {o g : Nat} (hg : s.grp o = some g) :
    g < s.groups.length := by
  obtain ⟨gr, h2, _⟩ := h.link o g hg
  exact (List.getElem?_eq_some_iff.mp h2).1

/-- Connecting. -/
theorem Rel.connect {stored strict : Bool} {s : St} {a : Spec} (h : Rel stored strict s a) {o f cb : Nat} (ho : o < s.n) :
    Rel stored strict (connect stored o f cb s)
      { a with used := fun o' => if o' = o then true else a.used o', any := true,
               slots := fun o' => if o' = o then a.slots o ++ [(f, cb)] else a.slots o' } := by
  obtain ⟨r, hg, _, _⟩ := h.get ho
  unfold EvCopy.connect
  generalize EvCopy.get stored o s = q at r hg
  obtain ⟨g, s1⟩ := q
  simp only at r hg
  have hgrp : ∀ o' (gs : List Grp), ({ s1 with groups := gs } : St).grp o' = s1.grp o' := fun _ _ => rfl
  refine ⟨r.n, r.vals, r.log, r.any, r.nogrp, r.used, r.unstored, r.outside, ?_, ?_, r.inj⟩
  · intro o' h'
    rw [hgrp] at h'
    have : o' ≠ o := by rintro rfl; rw [hg] at h'; cases h'
    simp only [if_neg this]
    exact r.link0 o' h'
  · intro o' g' h'
    rw [hgrp] at h'
    obtain ⟨gr, h2, h3, h4⟩ := r.link o' g' h'
    simp only at h2 h3 ⊢
    by_cases he : o' = o
    · subst he
      rw [hg] at h'
      cases h'
      refine ⟨{ gr with slots := gr.slots ++ [(f, cb)] }, ?_, ?_, h4⟩
      · rw [List.getElem?_modify_eq, h2]; rfl
      · rw [if_pos rfl, h3]
    · have hgg : g ≠ g' := by rintro rfl; exact he (r.inj o' o g h' hg)
      refine ⟨gr, ?_, by rw [if_neg he]; exact h3, h4⟩
      rw [List.getElem?_modify_ne _ _ hgg]; exact h2

theorem grp_put {s : St} {o o' f : Nat} {v : Int} : (s.setObj o ((s.objs o).put f v)).grp o' = s.grp o' := by
  rw [grp_setObj]
  by_cases h : o' = o
  · rw [if_pos h, h]; rfl
  · rw [if_neg h]

theorem entry_put {s : St} {o o' f : Nat} {v : Int} :
    ((s.setObj o ((s.objs o).put f v)).objs o').entry = (s.objs o').entry := by
  unfold St.setObj
  by_cases h : o' = o
  · simp only [if_pos h]; rw [h]; rfl
  · simp only [if_neg h]

/-- Changing a value. -/
theorem Rel.put {stored strict : Bool} {s : St} {a : Spec} (h : Rel stored strict s a) {o f : Nat} {v : Int} :
    Rel stored strict (s.setObj o ((s.objs o).put f v))
      { a with vals := fun o' => if o' = o then (fun f' => if f' = f then v else a.vals o f') else a.vals o' } := by
  refine ⟨h.n, ?_, h.log, h.any, ?_, ?_, ?_, ?_, ?_, ?_, ?_⟩
  · intro o'
    unfold St.setObj
    by_cases he : o' = o
    · simp only [if_pos he]
      funext f'
      unfold Obj.put
      simp only [h.vals]
    · simp only [if_neg he]; exact h.vals o'
  · intro hp o'; rw [grp_put]; exact h.nogrp hp o'
  · intro o' h'; rw [entry_put]; exact h.used o' h'
  · intro h' o'; rw [entry_put]; exact h.unstored h' o'
  · intro o' h'; rw [grp_put]; exact h.outside o' h'
  · intro o' h'; rw [grp_put] at h'; exact h.link0 o' h'
  · intro o' g h'; rw [grp_put] at h'; exact h.link o' g h'
  · intro o1 o2 g h1 h2; rw [grp_put] at h1 h2; exact h.inj o1 o2 g h1 h2

/-- Assigning. -/
theorem Rel.assign {stored strict : Bool} {s : St} {a : Spec} (h : Rel stored strict s a) {o f : Nat} {v : Int} (ho : o < s.n) :
    Rel stored strict (assign stored o f v s) (a.step (.assign o f v)) := by
  have hn : o < a.n := h.n ▸ ho
  rw [show a.step (.assign o f v) = _ from if_pos hn]
  simp only
  unfold EvCopy.assign
  cases hp : s.patched with
  | false =>
    rw [if_pos rfl]
    have ha : a.any = false := h.any.symm.trans hp
    have hs : a.slots o = [] := h.link0 o (h.nogrp hp o)
    have r := h.put (o := o) (f := f) (v := v)
    have hu : (fun o' => if o' = o then a.used o || a.any else a.used o') = a.used := by
      funext o'
      by_cases he : o' = o
      · rw [if_pos he, ha, he, Bool.or_false]
      · rw [if_neg he]
    have hl : (if v = a.vals o f then a.log
        else a.log ++ ((a.slots o).filter fun x => x.1 = f).map fun x => (⟨x.2, f, v, a.vals o f, o⟩ : Call)) = a.log := by
      rw [hs]; simp
    rw [hu, hl]
    exact r
  | true =>
    rw [if_neg (by decide)]
    have ha : a.any = true := h.any.symm.trans hp
    obtain ⟨r, hg, _, _⟩ := h.get (stored := stored) ho
    generalize EvCopy.get stored o s = q at r hg
    obtain ⟨g, s1⟩ := q
    simp only at r hg ⊢
    obtain ⟨gr, h2, h3, h4⟩ := r.link o g hg
    rw [h2]
    simp only
    have hu : (fun o' => if o' = o then a.used o || a.any else a.used o') = fun o' => if o' = o then true else a.used o' := by
      funext o'
      rw [ha, Bool.or_true]
    rw [hu]
    have rp := r.put (o := o) (f := f) (v := v)
    have hany : ∀ (u : Nat → Bool) (w : Nat → Nat → Int) (x : List Call),
        ({ a with used := u, vals := w, log := x } : Spec) = { a with used := u, any := true, vals := w, log := x } := by
      intro u w x; rw [ha]
    rw [hany]
    have hold : (s1.objs o).vals f = a.vals o f := by rw [r.vals]
    have hcbs : gr.cbs f = ((a.slots o).filter fun x => x.1 = f).map (·.2) := by unfold Grp.cbs; rw [h3]
    by_cases hv : v = a.vals o f
    · rw [if_pos hv, hold, if_pos hv, ite_self]
      exact rp
    · rw [if_neg hv, hold, if_neg hv]
      split
      · rename_i hz
        have : ((a.slots o).filter fun x => x.1 = f) = [] := by
          have : gr.cbs f = [] := List.length_eq_zero_iff.mp (by omega)
          rw [hcbs] at this
          exact List.map_eq_nil_iff.mp this
        rw [this]
        simp only [List.map_nil, List.append_nil]
        exact rp
      · refine ⟨rp.n, rp.vals, ?_, rp.any, rp.nogrp, rp.used, rp.unstored, rp.outside, rp.link0, rp.link, rp.inj⟩
        have hl := rp.log
        rw [hcbs, List.map_map]
        cases strict with
        | true =>
          simp only [if_true] at hl ⊢
          rw [hl, h4 rfl]
          rfl
        | false =>
          simp only [Bool.false_eq_true, if_false] at hl ⊢
          rw [List.map_append, List.map_append, hl, List.map_map, List.map_map]
          rfl

/-- Copying an object without a group in its `__dict__`. -/
theorem Rel.copy {stored strict : Bool} {s : St} {a : Spec} (h : Rel stored strict s a) {o : Nat}
    (he : (s.objs o).entry = none) :
    Rel stored strict (copy o s)
      { a with n := a.n + 1, vals := fun o' => if o' = a.n then a.vals o else a.vals o', used := fun o' => if o' = a.n then a.used o else a.used o' } := by
  have hgn : s.grp s.n = none := h.outside s.n (Nat.le_refl _)
  have hgrp : ∀ o', (EvCopy.copy o s).grp o' = s.grp o' := by
    intro o'
    unfold EvCopy.copy
    have : ∀ (k : Nat), ({ s.setObj s.n (s.objs o) with n := k } : St).grp o' = (s.setObj s.n (s.objs o)).grp o' := fun _ => rfl
    rw [this, grp_setObj, he]
    by_cases h' : o' = s.n
    · rw [if_pos h', h', hgn]; exact (grp_none hgn).2
    · rw [if_neg h']
  have hobj : ∀ o', (EvCopy.copy o s).objs o' = if o' = s.n then s.objs o else s.objs o' := fun _ => rfl
  refine ⟨congrArg (· + 1) h.n, ?_, h.log, h.any, ?_, ?_, ?_, ?_, ?_, ?_, ?_⟩
  · intro o'
    rw [hobj, h.n]
    by_cases h' : o' = a.n
    · simp only [if_pos h']; exact h.vals o
    · simp only [if_neg h']; exact h.vals o'
  · intro hp o'; rw [hgrp]; exact h.nogrp hp o'
  · intro o' h'
    rw [hobj]
    by_cases h2 : o' = s.n
    · rw [if_pos h2]; exact he
    · rw [if_neg h2]
      apply h.used
      simp only at h'
      rw [if_neg (by rw [← h.n]; exact h2)] at h'
      exact h'
  · intro h' o'
    rw [hobj]
    by_cases h2 : o' = s.n
    · rw [if_pos h2]; exact he
    · rw [if_neg h2]; exact h.unstored h' o'
  · intro o' h'
    rw [hgrp]
    apply h.outside
    have : (EvCopy.copy o s).n = s.n + 1 := rfl
    omega
  · intro o' h'; rw [hgrp] at h'; exact h.link0 o' h'
  · intro o' g h'; rw [hgrp] at h'; exact h.link o' g h'
  · intro o1 o2 g h1 h2; rw [hgrp] at h1 h2; exact h.inj o1 o2 g h1 h2

/-- Deep copies. -/
theorem Rel.deepcopy {stored strict : Bool} {s : St} {a : Spec} (h : Rel stored strict s a) {o : Nat}
    (he : strict = true → (s.objs o).entry = none) :
    Rel stored strict (deepcopy o s)
      { a with n := a.n + 1, vals := fun o' => if o' = a.n then a.vals o else a.vals o', used := fun o' => if o' = a.n then a.used o else a.used o' } := by
  unfold EvCopy.deepcopy
  cases hg : (s.objs o).entry with
  | none => exact h.copy hg
  | some g =>
    have hgo : s.grp o = some g := by unfold St.grp; rw [hg]
    obtain ⟨gr, h2, _, _⟩ := h.link o g hgo
    simp only [h2]
    have hst : strict ≠ true := fun q => by rw [he q] at hg; cases hg
    have hgn : s.grp s.n = none := h.outside s.n (Nat.le_refl _)
    have hgrp : ∀ o', ({ s.setObj s.n { s.objs o with entry := some s.groups.length } with
        n := s.n + 1, groups := s.groups ++ [⟨gr.inst, []⟩] } : St).grp o' = if o' = s.n then some s.groups.length else s.grp o' := by
      intro o'
      have : ∀ (k : Nat) (gs : List Grp) (x : Obj), ({ s.setObj s.n x with n := k, groups := gs } : St).grp o' = (s.setObj s.n x).grp o' :=
        fun _ _ _ => rfl
      rw [this, grp_setObj]
    have hp : s.patched = true := by
      cases hp : s.patched with
      | true => rfl
      | false => rw [h.nogrp hp o] at hgo; cases hgo
    refine ⟨congrArg (· + 1) h.n, ?_, h.log, h.any, ?_, ?_, ?_, ?_, ?_, ?_, ?_⟩
    · intro o'
      simp only [St.setObj, h.n]
      by_cases h' : o' = a.n
      · simp only [if_pos h']; exact h.vals o
      · simp only [if_neg h']; exact h.vals o'
    · intro q
      replace q : s.patched = false := q
      rw [hp] at q; cases q
    · intro o' h'
      simp only [St.setObj] at h' ⊢
      by_cases h3 : o' = s.n
      · rw [if_pos (h3.trans h.n)] at h'
        rw [h.used o h'] at hg; cases hg
      · rw [if_neg h3]
        rw [if_neg (by rw [← h.n]; exact h3)] at h'
        exact h.used o' h'
    · intro q
      rw [h.unstored q o] at hg; cases hg
    · intro o' h'
      rw [hgrp]
      replace h' : s.n + 1 ≤ o' := h'
      rw [if_neg (by omega)]
      exact h.outside o' (by omega)
    · intro o' h'
      rw [hgrp] at h'
      split at h'
      · cases h'
      · exact h.link0 o' h'
    · intro o' g' h'
      rw [hgrp] at h'
      simp only
      split at h'
      · rename_i h3
        cases h'
        refine ⟨⟨gr.inst, []⟩, by simp, ?_, fun q => absurd q hst⟩
        rw [h3]; exact (h.link0 s.n hgn).symm
      · obtain ⟨gr', h4, h5⟩ := h.link o' g' h'
        refine ⟨gr', ?_, h5⟩
        rw [List.getElem?_append_left (h.bound h')]; exact h4
    · intro o1 o2 g' h1 h3
      rw [hgrp] at h1 h3
      split at h1
      · rename_i k1
        split at h3
        · rename_i k2; rw [k1, k2]
        · cases h1; exact absurd (h.bound h3) (Nat.lt_irrefl _)
      · split at h3
        · cases h3; exact absurd (h.bound h1) (Nat.lt_irrefl _)
        · exact h.inj o1 o2 g' h1 h3

theorem Rel.run {stored strict : Bool} : ∀ (ops : List Op) (s : St) (a : Spec), Rel stored strict s a →
    (stored = false ∨ CopiesUnused strict ops a) → Rel stored strict (run stored ops s) (Spec.run ops a) := by
  intro ops
  induction ops with
  | nil => intro s a h _; exact h
  | cons op ops ih =>
    intro s a h hc
    rw [EvCopy.run, Spec.run]
    apply ih
    · unfold EvCopy.step
      by_cases ho : op.obj < s.n
      · have hn : op.obj < a.n := h.n ▸ ho
        rw [if_pos ho]
        cases op with
        | get o => unfold Spec.step; rw [if_pos hn]; exact (h.get ho).1
        | connect o f cb => unfold Spec.step; rw [if_pos hn]; exact h.connect ho
        | assign o f v => exact h.assign ho
        | copy o =>
          unfold Spec.step; rw [if_pos hn]
          apply h.copy
          rcases hc with hc | hc
          · exact h.unstored hc o
          · exact h.used o hc.1
        | deepcopy o =>
          unfold Spec.step; rw [if_pos hn]
          apply h.deepcopy
          intro hs
          rcases hc with hc | hc
          · exact h.unstored hc o
          · exact h.used o (hc.1 hs)
      · have hn : ¬ op.obj < a.n := h.n ▸ ho
        rw [if_neg ho]
        unfold Spec.step; rw [if_neg hn]; exact h
    · exact hc.imp id (·.2)

theorem Rel.init {stored strict : Bool} : Rel stored strict {} {} := by
  refine ⟨rfl, fun _ => rfl, ?_, rfl, fun _ _ => rfl, fun _ _ => rfl, fun _ _ => rfl, fun _ _ => rfl, fun _ _ => rfl, ?_, ?_⟩
  · split <;> rfl
  · intro o g h; cases h
  · intro o o' g h; cases h

/-- The values only; all groups exist. -/
structure VRel (s : St) (a : Spec) : Prop where
  n : s.n = a.n
  vals : ∀ o, (s.objs o).vals = a.vals o
  ent : ∀ o g, (s.objs o).entry = some g → g < s.groups.length
  imap : ∀ o g, s.imap o = some g → g < s.groups.length

theorem VRel.get {stored : Bool} {s : St} {a : Spec} (h : VRel s a) (o : Nat) :
    VRel (get stored o s).2 a ∧ (get stored o s).1 < (get stored o s).2.groups.length := by
  unfold EvCopy.get
  cases he : (s.objs o).entry with
  | some g => exact ⟨h, h.ent o g he⟩
  | none =>
    cases hi : s.imap o with
    | some g => exact ⟨⟨h.n, h.vals, h.ent, h.imap⟩, h.imap o g hi⟩
    | none =>
      simp only
      have hm : ∀ o' g, (if o' = o then some s.groups.length else s.imap o') = some g → g < (s.groups ++ [(⟨o, []⟩ : Grp)]).length := by
        intro o' g h'
        rw [List.length_append]
        split at h'
        · cases h'; simp
        · have := h.imap o' g h'; simp; omega
      have hent : ∀ o' g, (s.objs o').entry = some g → g < (s.groups ++ [(⟨o, []⟩ : Grp)]).length := by
        intro o' g h'
        have := h.ent o' g h'
        rw [List.length_append]; simp; omega
      cases stored with
      | false => exact ⟨⟨h.n, h.vals, hent, hm⟩, by simp⟩
      | true =>
        simp only [if_true]
        refine ⟨⟨h.n, ?_, ?_, hm⟩, by simp [St.setObj]⟩
        · intro o'
          simp only [St.setObj]
          by_cases h' : o' = o
          · rw [if_pos h', h']; exact h.vals o
          · rw [if_neg h']; exact h.vals o'
        · intro o' g
          simp only [St.setObj]
          by_cases h' : o' = o
          · rw [if_pos h']
            intro h2; cases h2; simp
          · rw [if_neg h']; exact hent o' g

theorem VRel.put {s : St} {a : Spec} (h : VRel s a) (o f : Nat) (v : Int) (l : List Call) (u : Nat → Bool) :
    VRel (s.setObj o ((s.objs o).put f v))
      { a with used := u, vals := fun o' => if o' = o then (fun f' => if f' = f then v else a.vals o f') else a.vals o', log := l } := by
  refine ⟨h.n, ?_, ?_, h.imap⟩
  · intro o'
    unfold St.setObj
    by_cases he : o' = o
    · simp only [if_pos he]
      funext f'
      unfold Obj.put
      simp only [h.vals]
    · simp only [if_neg he]; exact h.vals o'
  · intro o' g h'
    rw [entry_put] at h'
    exact h.ent o' g h'

theorem VRel.copy {s : St} {a : Spec} (h : VRel s a) (o : Nat) (u : Nat → Bool) :
    VRel (copy o s) { a with n := a.n + 1, vals := fun o' => if o' = a.n then a.vals o else a.vals o', used := u } := by
  refine ⟨congrArg (· + 1) h.n, ?_, ?_, h.imap⟩
  · intro o'
    simp only [EvCopy.copy, St.setObj, h.n]
    by_cases h' : o' = a.n
    · simp only [if_pos h']; exact h.vals o
    · simp only [if_neg h']; exact h.vals o'
  · intro o' g
    simp only [EvCopy.copy, St.setObj]
    by_cases h' : o' = s.n
    · simp only [if_pos h']; exact h.ent o g
    · simp only [if_neg h']; exact h.ent o' g

theorem VRel.step {stored : Bool} {s : St} {a : Spec} (h : VRel s a) (op : Op) : VRel (step stored op s) (a.step op) := by
  unfold EvCopy.step Spec.step
  rw [h.n]
  by_cases ho : op.obj < a.n
  · rw [if_pos ho, if_pos ho]
    cases op with
    | get o => obtain ⟨r, _⟩ := h.get (stored := stored) o; exact ⟨r.n, r.vals, r.ent, r.imap⟩
    | connect o f cb =>
      obtain ⟨r, _⟩ := h.get (stored := stored) o
      simp only [EvCopy.connect]
      refine ⟨r.n, r.vals, ?_, ?_⟩
      · intro o' g h'; simp only [List.length_modify]; exact r.ent o' g h'
      · intro o' g h'; simp only [List.length_modify]; exact r.imap o' g h'
    | assign o f v =>
      simp only [EvCopy.assign]
      cases hp : s.patched with
      | false => rw [if_pos rfl]; exact h.put o f v _ _
      | true =>
        rw [if_neg (by decide)]
        obtain ⟨r, hb⟩ := h.get (stored := stored) o
        generalize EvCopy.get stored o s = q at r hb
        obtain ⟨g, s1⟩ := q
        simp only at r hb ⊢
        rw [List.getElem?_eq_getElem hb]
        simp only
        have rp := r.put o f v
          (if v = a.vals o f then a.log else a.log ++ ((a.slots o).filter fun x => x.1 = f).map fun x => ⟨x.2, f, v, a.vals o f, o⟩)
          (fun o' => if o' = o then a.used o || a.any else a.used o')
        split
        · exact rp
        · split
          · exact rp
          · exact ⟨rp.n, rp.vals, rp.ent, rp.imap⟩
    | copy o => exact h.copy o _
    | deepcopy o =>
      simp only [EvCopy.deepcopy]
      split
      · exact h.copy o _
      · split
        · exact h.copy o _
        · refine ⟨congrArg (· + 1) h.n, ?_, ?_, ?_⟩
          · intro o'
            simp only [St.setObj, h.n]
            by_cases h' : o' = a.n
            · simp only [if_pos h']; exact h.vals o
            · simp only [if_neg h']; exact h.vals o'
          · intro o' g
            simp only [St.setObj, List.length_append]
            by_cases h' : o' = s.n
            · simp only [if_pos h']
              intro h2; cases h2; simp
            · simp only [if_neg h']
              intro h2
              have := h.ent o' g h2
              omega
          · intro o' g h2
            have := h.imap o' g h2
            simp only [List.length_append]
            omega
  · rw [if_neg ho, if_neg ho]; exact h

theorem VRel.run {stored : Bool} : ∀ (ops : List Op) (s : St) (a : Spec), VRel s a → VRel (run stored ops s) (Spec.run ops a) := by
  intro ops
  induction ops with
  | nil => intro s a h; exact h
  | cons op ops ih => intro s a h; exact ih _ _ (h.step op)

end Psygnal.EvCopy
