import Verif.Instances

/-! # The invariant of the signal instance caches -/
namespace Psygnal.Inst

/-- The signal instance that the next access of signal `s` on `ob` finds. -/
def lookup (c : Cfg) (st : St) (s : Nat) (ob : Obj) : Option Nat :=
  match find (c.attr s) ob.dict with
  | some i => some i
  | none => cached st s ob.addr

structure Inv (c : Cfg) (st : St) : Prop where
  /-- Accesses returned instances of the right signal and object. -/
  log : ∀ s o i : Nat, (s, o, i) ∈ st.log → (∃ b, st.insts[i]? = some ⟨s, o, b⟩) ∧ o < st.objs.length
  /-- What was returned for a live object is still there. -/
  stays : ∀ (s o i : Nat) (ob : Obj), (s, o, i) ∈ st.log → st.objs[o]? = some ob → ob.alive = true →
    lookup c st s ob = some i
  /-- Every instance was returned by an access. -/
  made : ∀ (i s o : Nat) (b : Bool), st.insts[i]? = some ⟨s, o, b⟩ → (s, o, i) ∈ st.log
  /-- Instance dicts hold the object's own instances. -/
  dict : ∀ (o : Nat) (ob : Obj) (n i : Nat), st.objs[o]? = some ob → (n, i) ∈ ob.dict →
    ∃ (s : Nat) (b : Bool), c.name s = n ∧ st.insts[i]? = some ⟨s, o, b⟩
  /-- Cache entries belong to a live object at that address that will remove them or is kept. -/
  cache : ∀ s a i : Nat, (s, a, i) ∈ st.cache → ∃ (o : Nat) (ob : Obj) (b : Bool), st.insts[i]? = some ⟨s, o, b⟩ ∧
    st.objs[o]? = some ob ∧ ob.alive = true ∧ ob.addr = a ∧ (b = true ∨ (o, s, a) ∈ st.fins)
  /-- Finalizers belong to live objects at that address. -/
  fins : ∀ o s a : Nat, (o, s, a) ∈ st.fins →
    ∃ ob : Obj, st.objs[o]? = some ob ∧ ob.alive = true ∧ ob.addr = a
  /-- Live objects have different addresses. -/
  addr : ∀ (o o' : Nat) (ob ob' : Obj), st.objs[o]? = some ob → st.objs[o']? = some ob' → ob.alive = true →
    ob'.alive = true → ob.addr = ob'.addr → o = o'
  /-- All accesses of one signal on one object returned the same. -/
  once : ∀ s o i j : Nat, (s, o, i) ∈ st.log → (s, o, j) ∈ st.log → i = j

theorem find_mem {k i : Nat} {d : List (Nat × Nat)} (h : find k d = some i) : (k, i) ∈ d := by
  simp only [find, Option.map_eq_some_iff] at h
  obtain ⟨e, h1, h2⟩ := h
  have h3 := List.find?_some h1
  have h4 := List.mem_of_find?_eq_some h1
  rcases e with ⟨a, b⟩
  simp only [decide_eq_true_eq] at h3 h2
  subst h3; subst h2
  exact h4

theorem cached_mem {st : St} {s a i : Nat} (h : cached st s a = some i) : (s, a, i) ∈ st.cache := by
  simp only [cached, Option.map_eq_some_iff] at h
  obtain ⟨e, h1, h2⟩ := h
  have h3 := List.find?_some h1
  have h4 := List.mem_of_find?_eq_some h1
  rcases e with ⟨x, y, z⟩
  simp only [decide_eq_true_eq] at h3 h2
  obtain ⟨rfl, rfl⟩ := h3
  subst h2
  exact h4

theorem inv_init (c : Cfg) : Inv c St.init where
  log := by intro s o i h; simp [St.init] at h
  stays := by intro s o i ob h; simp [St.init] at h
  made := by intro i s o b h; simp [St.init] at h
  dict := by intro o ob n i h; simp [St.init] at h
  cache := by intro s a i h; simp [St.init] at h
  fins := by intro o s a h; simp [St.init] at h
  addr := by intro o o' ob ob' h; simp [St.init] at h
  once := by intro s o i j h; simp [St.init] at h

/-- What a lookup finds is the instance made for this signal and object. -/
theorem lookup_own {c : Cfg} (hn : ∀ s, c.name s = c.attr s)
    (hi : ∀ s s', c.attr s = c.attr s' → s = s') {st : St} (h : Inv c st) {s o i : Nat} {ob : Obj}
    (ho : st.objs[o]? = some ob) (ha : ob.alive = true) (hl : lookup c st s ob = some i) :
    ∃ b, st.insts[i]? = some ⟨s, o, b⟩ := by
  unfold lookup at hl
  split at hl
  · rename_i j hj
    cases hl
    obtain ⟨s', b, h1, h2⟩ := h.dict o ob _ _ ho (find_mem hj)
    rw [hn] at h1
    exact ⟨b, by rw [h2, hi _ _ h1]⟩
  · obtain ⟨o', ob', b, h1, h2, h3, h4, _⟩ := h.cache _ _ _ (cached_mem hl)
    have := h.addr _ _ _ _ ho h2 ha h3 h4.symm
    exact ⟨b, by rw [h1, this]⟩

theorem get_lookup {c : Cfg} {st : St} {s o i : Nat} {ob : Obj} (h : lookup c st s ob = some i) :
    get c st s o ob = (i, st) := by
  unfold lookup at h
  unfold get
  split at h
  · rename_i hj; cases h; rw [hj]
  · rename_i hj; rw [hj]; simp only [h]

theorem find_cons (k n i : Nat) (d : List (Nat × Nat)) :
    find k ((n, i) :: d) = if n = k then some i else find k d := by
  unfold find
  rw [List.find?_cons]
  by_cases h : n = k <;> simp [h]

theorem cached_cons (st : St) (s a i s' a' : Nat) (f : List (Nat × Nat × Nat)) (l : List SigInst) :
    cached { st with insts := l, cache := (s, a, i) :: st.cache, fins := f } s' a' =
      if s = s' ∧ a = a' then some i else cached st s' a' := by
  unfold cached
  rw [List.find?_cons]
  by_cases h : s = s' ∧ a = a' <;> simp [h]

/-- The state after a new signal instance was stored. -/
theorem inv_get {c : Cfg} (hn : ∀ s, c.name s = c.attr s)
    (hi : ∀ s s', c.attr s = c.attr s' → s = s') {st : St} (h : Inv c st) (s o : Nat) (ob : Obj)
    (ho : st.objs[o]? = some ob) (ha : ob.alive = true) :
    Inv c { (get c st s o ob).2 with log := (get c st s o ob).2.log ++ [(s, o, (get c st s o ob).1)] } := by
  have hol : o < st.objs.length := by
    rw [List.getElem?_eq_some_iff] at ho; exact ho.1
  rcases hl : lookup c st s ob with _ | i
  · have hd : find (c.attr s) ob.dict = none := by
      unfold lookup at hl; split at hl <;> simp_all
    have hc : cached st s ob.addr = none := by
      unfold lookup at hl; rw [hd] at hl; exact hl
    have hlen : ∀ (i : Nat) (x : SigInst), st.insts[i]? = some x → (st.insts ++ [⟨s, o, !ob.weakrefable⟩])[i]? = some x := by
      intro i x hx
      rw [List.getElem?_append_left]
      · exact hx
      · rw [List.getElem?_eq_some_iff] at hx; exact hx.1
    have hnew : (st.insts ++ [⟨s, o, !ob.weakrefable⟩])[st.insts.length]? =
        some ⟨s, o, !ob.weakrefable⟩ := by simp
    have hcases : ∀ (i : Nat) (x : SigInst), (st.insts ++ [(⟨s, o, !ob.weakrefable⟩ : SigInst)])[i]? = some x →
        st.insts[i]? = some x ∨ (i = st.insts.length ∧ x = ⟨s, o, !ob.weakrefable⟩) := by
      intro i x hx
      by_cases hlt : i < st.insts.length
      · rw [List.getElem?_append_left hlt] at hx; exact .inl hx
      · rw [List.getElem?_append_right (by omega)] at hx
        rcases hk : i - st.insts.length with _ | k
        · rw [hk] at hx
          simp only [List.getElem?_cons_zero, Option.some.injEq] at hx
          exact .inr ⟨by omega, hx.symm⟩
        · rw [hk] at hx; simp at hx
    have hfresh : ∀ i, (s, o, i) ∉ st.log := by
      intro i hm
      have := h.stays s o i ob hm ho ha
      rw [hl] at this; cases this
    have honce : ∀ s' o' i j : Nat, (s', o', i) ∈ st.log ++ [(s, o, st.insts.length)] →
        (s', o', j) ∈ st.log ++ [(s, o, st.insts.length)] → i = j := by
      intro s' o' i j h1 h2
      simp only [List.mem_append, List.mem_singleton, Prod.mk.injEq] at h1 h2
      rcases h1 with h1 | ⟨rfl, rfl, rfl⟩ <;> rcases h2 with h2 | ⟨e1, e2, rfl⟩
      · exact h.once _ _ _ _ h1 h2
      · subst e1; subst e2; exact absurd h1 (hfresh i)
      · exact absurd h2 (hfresh j)
      · rfl
    simp only [get, hd, hc]
    rcases Bool.eq_false_or_eq_true ob.settable with hs | hs
    · -- stored in the instance dict
      rw [if_pos hs]
      have hobj : ∀ (o' : Nat) (ob' : Obj), (st.objs.set o (ob.set (c.name s) st.insts.length))[o']? = some ob' →
          (o' = o ∧ ob' = ob.set (c.name s) st.insts.length) ∨ (o' ≠ o ∧ st.objs[o']? = some ob') := by
        intro o' ob' hx
        by_cases e : o' = o
        · subst e
          rw [List.getElem?_set_self hol] at hx
          exact .inl ⟨rfl, (Option.some.inj hx).symm⟩
        · rw [List.getElem?_set_ne (Ne.symm e)] at hx
          exact .inr ⟨e, hx⟩
      have hobj' : ∀ (o' : Nat) (ob' : Obj), st.objs[o']? = some ob' →
          ∃ ob'', (st.objs.set o (ob.set (c.name s) st.insts.length))[o']? = some ob'' ∧
            ob''.alive = ob'.alive ∧ ob''.addr = ob'.addr := by
        intro o' ob' hx
        by_cases e : o' = o
        · subst e
          rw [ho] at hx; cases hx
          exact ⟨_, List.getElem?_set_self hol, rfl, rfl⟩
        · exact ⟨ob', by rw [List.getElem?_set_ne (Ne.symm e)]; exact hx, rfl, rfl⟩
      constructor
      · intro s' o' i hm
        simp only [List.mem_append, List.mem_singleton, Prod.mk.injEq] at hm
        rcases hm with hm | ⟨rfl, rfl, rfl⟩
        · obtain ⟨⟨b, hb⟩, hlt⟩ := h.log _ _ _ hm
          exact ⟨⟨b, hlen _ _ hb⟩, by simpa using hlt⟩
        · exact ⟨⟨_, hnew⟩, by simpa using hol⟩
      · intro s' o' i ob' hm hob hal
        simp only [List.mem_append, List.mem_singleton, Prod.mk.injEq] at hm
        have hcach : ∀ a, cached { st with insts := st.insts ++ [⟨s, o, !ob.weakrefable⟩], objs := st.objs.set o (ob.set (c.name s) st.insts.length), log := st.log ++ [(s, o, st.insts.length)] } s' a = cached st s' a := fun _ => rfl
        rcases hobj _ _ hob with ⟨rfl, rfl⟩ | ⟨hne, hob'⟩
        · unfold lookup
          rw [hcach]
          simp only [Obj.set, find_cons, hn]
          by_cases e : c.attr s = c.attr s'
          · have e := hi _ _ e
            subst e
            rcases hm with hm | ⟨_, _, rfl⟩
            · exact absurd hm (hfresh i)
            · simp
          · rw [if_neg e]
            rcases hm with hm | ⟨rfl, _, _⟩
            · exact h.stays s' o' i ob hm ho ha
            · exact absurd rfl e
        · unfold lookup
          rw [hcach]
          rcases hm with hm | ⟨_, e, _⟩
          · exact h.stays s' o' i ob' hm hob' hal
          · exact absurd e hne
      · intro i s' o' b hx
        simp only [List.mem_append, List.mem_singleton, Prod.mk.injEq]
        rcases hcases _ _ hx with hx | ⟨rfl, e⟩
        · exact .inl (h.made _ _ _ _ hx)
        · cases e; exact .inr ⟨rfl, rfl, rfl⟩
      · intro o' ob' n i hob hm
        rcases hobj _ _ hob with ⟨rfl, rfl⟩ | ⟨_, hob'⟩
        · simp only [Obj.set, List.mem_cons, Prod.mk.injEq] at hm
          rcases hm with ⟨rfl, rfl⟩ | hm
          · exact ⟨s, _, rfl, hnew⟩
          · obtain ⟨s', b, h1, h2⟩ := h.dict _ _ _ _ ho hm
            exact ⟨s', b, h1, hlen _ _ h2⟩
        · obtain ⟨s', b, h1, h2⟩ := h.dict _ _ _ _ hob' hm
          exact ⟨s', b, h1, hlen _ _ h2⟩
      · intro s' a i hm
        obtain ⟨o', ob', b, h1, h2, h3, h4, h5⟩ := h.cache _ _ _ hm
        obtain ⟨ob'', e1, e2, e3⟩ := hobj' _ _ h2
        exact ⟨o', ob'', b, hlen _ _ h1, e1, e2.trans h3, e3.trans h4, h5⟩
      · intro o' s' a hm
        obtain ⟨ob', h2, h3, h4⟩ := h.fins _ _ _ hm
        obtain ⟨ob'', e1, e2, e3⟩ := hobj' _ _ h2
        exact ⟨ob'', e1, e2.trans h3, e3.trans h4⟩
      · intro o1 o2 ob1 ob2 h1 h2 a1 a2 e
        rcases hobj _ _ h1 with ⟨rfl, rfl⟩ | ⟨_, h1'⟩ <;> rcases hobj _ _ h2 with ⟨rfl, rfl⟩ | ⟨_, h2'⟩
        · rfl
        · exact h.addr _ _ _ _ ho h2' a1 a2 e
        · exact h.addr _ _ _ _ h1' ho a1 a2 e
        · exact h.addr _ _ _ _ h1' h2' a1 a2 e
      · exact honce
    · -- stored in the cache of the signal
      rw [if_neg (by simp [hs])]
      constructor
      · intro s' o' i hm
        simp only [List.mem_append, List.mem_singleton, Prod.mk.injEq] at hm
        rcases hm with hm | ⟨rfl, rfl, rfl⟩
        · obtain ⟨⟨b, hb⟩, hlt⟩ := h.log _ _ _ hm
          exact ⟨⟨b, hlen _ _ hb⟩, hlt⟩
        · exact ⟨⟨_, hnew⟩, hol⟩
      · intro s' o' i ob' hm hob hal
        simp only [List.mem_append, List.mem_singleton, Prod.mk.injEq] at hm
        have hcach : cached { st with insts := st.insts ++ [⟨s, o, !ob.weakrefable⟩], cache := (s, ob.addr, st.insts.length) :: st.cache, fins := if ob.weakrefable then (o, s, ob.addr) :: st.fins else st.fins, log := st.log ++ [(s, o, st.insts.length)] } s' ob'.addr = if s = s' ∧ ob.addr = ob'.addr then some st.insts.length else cached st s' ob'.addr :=
          cached_cons st s ob.addr st.insts.length s' ob'.addr st.fins st.insts
        unfold lookup
        rw [hcach]
        rcases hm with hm | ⟨rfl, rfl, rfl⟩
        · have hst := h.stays s' o' i ob' hm hob hal
          unfold lookup at hst
          split
          · rename_i hj; rw [hj] at hst; exact hst
          · rename_i hj
            rw [hj] at hst
            rw [if_neg]
            · exact hst
            · rintro ⟨rfl, e⟩
              have := h.addr _ _ _ _ ho hob ha hal e
              subst this
              exact hfresh i hm
        · have hob : st.objs[o']? = some ob' := hob
          rw [ho] at hob
          cases hob
          rw [hd]
          simp
      · intro i s' o' b hx
        simp only [List.mem_append, List.mem_singleton, Prod.mk.injEq]
        rcases hcases _ _ hx with hx | ⟨rfl, e⟩
        · exact .inl (h.made _ _ _ _ hx)
        · cases e; exact .inr ⟨rfl, rfl, rfl⟩
      · intro o' ob' n i hob hm
        obtain ⟨s', b, h1, h2⟩ := h.dict _ _ _ _ hob hm
        exact ⟨s', b, h1, hlen _ _ h2⟩
      · intro s' a i hm
        simp only [List.mem_cons, Prod.mk.injEq] at hm
        rcases hm with ⟨rfl, rfl, rfl⟩ | hm
        · refine ⟨o, ob, _, hnew, ho, ha, rfl, ?_⟩
          rcases hw : ob.weakrefable with _ | _
          · exact .inl rfl
          · exact .inr (by simp)
        · obtain ⟨o', ob', b, h1, h2, h3, h4, h5⟩ := h.cache _ _ _ hm
          refine ⟨o', ob', b, hlen _ _ h1, h2, h3, h4, h5.imp_right fun h6 => ?_⟩
          show _ ∈ if _ then _ else _
          split
          · exact List.mem_cons_of_mem _ h6
          · exact h6
      · intro o' s' a hm
        have hm : (o', s', a) ∈ if ob.weakrefable then (o, s, ob.addr) :: st.fins else st.fins := hm
        split at hm
        · rcases List.mem_cons.mp hm with e | hm
          · cases e; exact ⟨ob, ho, ha, rfl⟩
          · exact h.fins _ _ _ hm
        · exact h.fins _ _ _ hm
      · exact h.addr
      · exact honce
  · rw [get_lookup hl]
    obtain ⟨b, hb⟩ := lookup_own hn hi h ho ha hl
    have hmem := h.made _ _ _ _ hb
    have hmm : ∀ x, x ∈ st.log ++ [(s, o, i)] ↔ x ∈ st.log := by
      intro x
      simp only [List.mem_append, List.mem_singleton]
      exact ⟨fun hx => hx.elim id fun e => e ▸ hmem, .inl⟩
    exact ⟨fun s' o' i' hm => h.log _ _ _ ((hmm _).mp hm),
      fun s' o' i' ob' hm => h.stays _ _ _ _ ((hmm _).mp hm),
      fun i' s' o' b' hx => (hmm _).mpr (h.made _ _ _ _ hx),
      h.dict, h.cache, h.fins, h.addr,
      fun s' o' i' j' h1 h2 => h.once _ _ _ _ ((hmm _).mp h1) ((hmm _).mp h2)⟩

theorem inv_new {c : Cfg} {st : St} (h : Inv c st) (a : Nat) (se w : Bool) :
    Inv c (step c st (.new a se w)) := by
  simp only [step]
  split
  · exact h
  · rename_i hfree
    have hcases : ∀ (o : Nat) (ob : Obj), (st.objs ++ [(⟨a, se, w, true, []⟩ : Obj)])[o]? = some ob →
        st.objs[o]? = some ob ∨ (o = st.objs.length ∧ ob = ⟨a, se, w, true, []⟩) := by
      intro i x hx
      by_cases hlt : i < st.objs.length
      · rw [List.getElem?_append_left hlt] at hx; exact .inl hx
      · rw [List.getElem?_append_right (by omega)] at hx
        rcases hk : i - st.objs.length with _ | k
        · rw [hk] at hx
          simp only [List.getElem?_cons_zero, Option.some.injEq] at hx
          exact .inr ⟨by omega, hx.symm⟩
        · rw [hk] at hx; simp at hx
    have hold : ∀ (o : Nat) (ob : Obj), st.objs[o]? = some ob →
        (st.objs ++ [(⟨a, se, w, true, []⟩ : Obj)])[o]? = some ob := by
      intro i x hx
      rw [List.getElem?_append_left]
      · exact hx
      · rw [List.getElem?_eq_some_iff] at hx; exact hx.1
    have hne : ∀ (o : Nat) (ob : Obj), st.objs[o]? = some ob → ob.alive = true → ob.addr ≠ a := by
      intro o ob ho hal e
      apply hfree
      rw [List.any_eq_true]
      exact ⟨ob, List.mem_of_getElem? ho, by simp [hal, e]⟩
    constructor
    · intro s o i hm
      have := h.log _ _ _ hm
      exact ⟨this.1, by simp; omega⟩
    · intro s o i ob hm ho hal
      rcases hcases _ _ ho with ho | ⟨rfl, _⟩
      · exact h.stays _ _ _ _ hm ho hal
      · exact absurd (h.log _ _ _ hm).2 (by simp)
    · exact h.made
    · intro o ob n i ho hm
      rcases hcases _ _ ho with ho | ⟨rfl, rfl⟩
      · exact h.dict _ _ _ _ ho hm
      · simp at hm
    · intro s a' i hm
      obtain ⟨o, ob, b, h1, h2, h3⟩ := h.cache _ _ _ hm
      exact ⟨o, ob, b, h1, hold _ _ h2, h3⟩
    · intro o s a' hm
      obtain ⟨ob, h1, h2⟩ := h.fins _ _ _ hm
      exact ⟨ob, hold _ _ h1, h2⟩
    · intro o1 o2 ob1 ob2 h1 h2 a1 a2 e
      rcases hcases _ _ h1 with h1 | ⟨rfl, rfl⟩ <;> rcases hcases _ _ h2 with h2 | ⟨rfl, rfl⟩
      · exact h.addr _ _ _ _ h1 h2 a1 a2 e
      · exact absurd e (hne _ _ h1 a1)
      · exact absurd e.symm (hne _ _ h2 a2)
      · rfl
    · exact h.once

theorem inv_die {c : Cfg} {st : St} (h : Inv c st) (o : Nat) : Inv c (step c st (.die o)) := by
  simp only [step]
  split
  · exact h
  · rename_i ob ho
    split
    · exact h
    · rename_i hc
      have hal : ob.alive = true := by
        rcases Bool.eq_false_or_eq_true ob.alive with e | e
        · exact e
        · exact absurd (.inl e) hc
      have hpin : pinned st o = false := by
        rcases Bool.eq_false_or_eq_true (pinned st o) with e | e
        · exact absurd (.inr e) hc
        · exact e
      have hol : o < st.objs.length := by
        rw [List.getElem?_eq_some_iff] at ho; exact ho.1
      have hobj : ∀ (o' : Nat) (ob' : Obj), (st.objs.set o { ob with alive := false })[o']? = some ob' →
          (o' = o ∧ ob' = { ob with alive := false }) ∨ (o' ≠ o ∧ st.objs[o']? = some ob') := by
        intro o' ob' hx
        by_cases e : o' = o
        · subst e
          rw [List.getElem?_set_self hol] at hx
          exact .inl ⟨rfl, (Option.some.inj hx).symm⟩
        · rw [List.getElem?_set_ne (Ne.symm e)] at hx
          exact .inr ⟨e, hx⟩
      have hkeep : ∀ (o' : Nat) (ob' : Obj), o' ≠ o → st.objs[o']? = some ob' →
          (st.objs.set o { ob with alive := false })[o']? = some ob' := by
        intro o' ob' e hx
        rw [List.getElem?_set_ne (Ne.symm e)]; exact hx
      -- the finalizers of `o` concern its own address only
      have hfin : ∀ s a, (o, s, a) ∈ st.fins → a = ob.addr := by
        intro s a hm
        obtain ⟨ob', h1, _, h3⟩ := h.fins _ _ _ hm
        rw [ho] at h1; cases h1
        exact h3.symm
      have hcach : ∀ s a, a ≠ ob.addr →
          cached { st with objs := st.objs.set o { ob with alive := false }, cache := st.cache.filter fun e => !st.fins.contains (o, e.1, e.2.1), fins := st.fins.filter fun f => f.1 ≠ o } s a = cached st s a := by
        intro s a hne
        simp only [cached, List.find?_filter]
        congr 1
        refine congrArg (fun p => List.find? p st.cache) (funext fun e => ?_)
        by_cases he : e.1 = s ∧ e.2.1 = a
        · have : (o, e.1, e.2.1) ∉ st.fins := fun hm => hne (he.2 ▸ hfin _ _ hm)
          simp [he]
          rw [← he.1, ← he.2]; exact this
        · simp [he]
      constructor
      · intro s o' i hm
        have := h.log _ _ _ hm
        exact ⟨this.1, by simpa using this.2⟩
      · intro s o' i ob' hm hob hal'
        rcases hobj _ _ hob with ⟨rfl, rfl⟩ | ⟨hne, hob'⟩
        · cases hal'
        · have hst := h.stays s o' i ob' hm hob' hal'
          unfold lookup at hst ⊢
          rw [hcach]
          · exact hst
          · intro e
            exact hne (h.addr _ _ _ _ hob' ho hal' hal e)
      · exact h.made
      · intro o' ob' n i hob hm
        rcases hobj _ _ hob with ⟨rfl, rfl⟩ | ⟨_, hob'⟩
        · exact h.dict _ _ _ _ ho hm
        · exact h.dict _ _ _ _ hob' hm
      · intro s a i hm
        simp only [List.mem_filter, Bool.not_eq_true', List.contains_eq_mem, decide_eq_false_iff_not] at hm
        obtain ⟨hm, hnf⟩ := hm
        obtain ⟨o', ob', b, h1, h2, h3, h4, h5⟩ := h.cache _ _ _ hm
        by_cases e : o' = o
        · subst e
          rcases h5 with rfl | h5
          · exfalso
            have : pinned st o' = true := by
              unfold pinned
              rw [List.any_eq_true]
              exact ⟨(s, a, i), hm, by simp [h1]⟩
            rw [hpin] at this; cases this
          · exact absurd h5 hnf
        · exact ⟨o', ob', b, h1, hkeep _ _ e h2, h3, h4, h5.imp_right fun h6 => by
            simp only [List.mem_filter, decide_eq_true_eq]; exact ⟨h6, by simpa using e⟩⟩
      · intro o' s a hm
        simp only [List.mem_filter, decide_eq_true_eq] at hm
        obtain ⟨hm, hne⟩ := hm
        have hne : o' ≠ o := by simpa using hne
        obtain ⟨ob', h1, h2⟩ := h.fins _ _ _ hm
        exact ⟨ob', hkeep _ _ hne h1, h2⟩
      · intro o1 o2 ob1 ob2 h1 h2 a1 a2 e
        rcases hobj _ _ h1 with ⟨rfl, rfl⟩ | ⟨_, h1'⟩
        · cases a1
        · rcases hobj _ _ h2 with ⟨rfl, rfl⟩ | ⟨_, h2'⟩
          · cases a2
          · exact h.addr _ _ _ _ h1' h2' a1 a2 e
      · exact h.once

/-- The copy of an object that holds no signal instances is like a new object. -/
theorem inv_copy {c : Cfg} {st : St} (h : Inv c st) {o : Nat} (a : Nat)
    (hd : ∀ ob, st.objs[o]? = some ob → ob.dict = []) : Inv c (step c st (.copy o a)) := by
  rcases ho : st.objs[o]? with _ | ob
  · simp only [step, ho]; exact h
  · have hn := inv_new h a ob.settable ob.weakrefable
    simp only [step, ho] at hn ⊢
    by_cases h1 : ob.alive = false
    · rw [if_pos (.inl h1)]; exact h
    · by_cases h2 : st.objs.any (fun ob => ob.alive && ob.addr = a) = true
      · rw [if_pos (.inr h2)]; exact h
      · rw [if_neg (fun h3 => h3.elim h1 h2)]
        rw [if_neg h2] at hn
        have : ({ ob with addr := a } : Obj) = ⟨a, ob.settable, ob.weakrefable, true, []⟩ := by
          have := hd ob ho
          have h1 : ob.alive = true := by simpa using h1
          simp only [this, h1]
        rw [this]; exact hn

theorem get_log (c : Cfg) (st : St) (s o : Nat) (ob : Obj) : (get c st s o ob).2.log = st.log := by
  unfold get
  split
  · rfl
  · split
    · rfl
    · dsimp only; split <;> rfl

/-- Only accesses are logged. -/
theorem log_step {c : Cfg} {st : St} {op : Op} {s o i : Nat} (h : (s, o, i) ∈ (step c st op).log) :
    (s, o, i) ∈ st.log ∨ op = .get s o := by
  cases op with
  | new a se w => simp only [step] at h; split at h <;> exact .inl h
  | die o' =>
    simp only [step] at h
    split at h
    · exact .inl h
    · split at h <;> exact .inl h
  | copy o' a =>
    simp only [step] at h
    split at h
    · exact .inl h
    · split at h <;> exact .inl h
  | get s' o' =>
    simp only [step] at h
    split at h
    · exact .inl h
    · split at h
      · exact .inl h
      · simp only [get_log, List.mem_append, List.mem_singleton, Prod.mk.injEq] at h
        rcases h with h | ⟨rfl, rfl, _⟩
        · exact .inl h
        · exact .inr rfl

/-- Objects without a usable `__dict__` hold nothing in it. -/
def Slots (st : St) : Prop := ∀ (o : Nat) (ob : Obj), st.objs[o]? = some ob → ob.settable = false → ob.dict = []

theorem slots_append {l : List Obj} {x : Obj} (h : ∀ (o : Nat) (ob : Obj), l[o]? = some ob → ob.settable = false → ob.dict = [])
    (hx : x.settable = false → x.dict = []) (o : Nat) (ob : Obj) (ho : (l ++ [x])[o]? = some ob) (hs : ob.settable = false) :
    ob.dict = [] := by
  rcases List.mem_append.mp (List.mem_of_getElem? ho) with hm | hm
  · obtain ⟨k, hk⟩ := List.getElem?_of_mem hm
    exact h k ob hk hs
  · rw [List.mem_singleton.mp hm] at hs ⊢; exact hx hs

theorem slots_set {l : List Obj} {x : Obj} (h : ∀ (o : Nat) (ob : Obj), l[o]? = some ob → ob.settable = false → ob.dict = [])
    (hx : x.settable = false → x.dict = []) (k : Nat) (o : Nat) (ob : Obj) (ho : (l.set k x)[o]? = some ob)
    (hs : ob.settable = false) : ob.dict = [] := by
  rcases List.mem_or_eq_of_mem_set (List.mem_of_getElem? ho) with hm | rfl
  · obtain ⟨k, hk⟩ := List.getElem?_of_mem hm
    exact h k ob hk hs
  · exact hx hs

theorem slots_step {c : Cfg} {st : St} (h : Slots st) (op : Op) : Slots (step c st op) := by
  cases op with
  | new a se w =>
    simp only [step]; split
    · exact h
    · exact slots_append h (fun _ => rfl)
  | die o' =>
    simp only [step]; split
    · exact h
    · rename_i ob ho
      split
      · exact h
      · exact slots_set (x := { ob with alive := false }) h (fun hs => h o' ob ho hs) o'
  | copy o' a =>
    simp only [step]; split
    · exact h
    · rename_i ob ho
      split
      · exact h
      · exact slots_append (x := { ob with addr := a }) h (fun hs => h o' ob ho hs)
  | get s' o' =>
    simp only [step]; split
    · exact h
    · rename_i ob ho
      split
      · exact h
      · show Slots { (get c st s' o' ob).2 with log := _ }
        have : Slots (get c st s' o' ob).2 := by
          unfold get
          split
          · exact h
          · split
            · exact h
            · dsimp only
              split
              · rename_i hset
                exact slots_set h (fun hs => by simp [Obj.set, hset] at hs) o'
              · exact h
        exact this

/-- A signal instance holds its object strongly only if that cannot be weakly referenced. -/
def Strong (st : St) : Prop := ∀ x ∈ st.insts, ∃ ob, st.objs[x.owner]? = some ob ∧ x.strong = !ob.weakrefable

theorem strong_append {l : List SigInst} {objs : List Obj} (x : Obj)
    (h : ∀ x ∈ l, ∃ ob, objs[x.owner]? = some ob ∧ x.strong = !ob.weakrefable) :
    ∀ y ∈ l, ∃ ob, (objs ++ [x])[y.owner]? = some ob ∧ y.strong = !ob.weakrefable := by
  intro y hy
  obtain ⟨ob, h1, h2⟩ := h y hy
  refine ⟨ob, ?_, h2⟩
  rw [List.getElem?_append_left]
  · exact h1
  · rw [List.getElem?_eq_some_iff] at h1; exact h1.1

theorem strong_set {l : List SigInst} {objs : List Obj} {o : Nat} {ob x : Obj} (ho : objs[o]? = some ob)
    (hx : x.weakrefable = ob.weakrefable)
    (h : ∀ x ∈ l, ∃ ob, objs[x.owner]? = some ob ∧ x.strong = !ob.weakrefable) :
    ∀ y ∈ l, ∃ ob, (objs.set o x)[y.owner]? = some ob ∧ y.strong = !ob.weakrefable := by
  intro y hy
  obtain ⟨ob', h1, h2⟩ := h y hy
  have hol : o < objs.length := by rw [List.getElem?_eq_some_iff] at ho; exact ho.1
  by_cases e : o = y.owner
  · subst e
    rw [ho] at h1; cases h1
    exact ⟨x, List.getElem?_set_self hol, by rw [hx]; exact h2⟩
  · exact ⟨ob', by rw [List.getElem?_set_ne e]; exact h1, h2⟩

theorem strong_step {c : Cfg} {st : St} (h : Strong st) (op : Op) : Strong (step c st op) := by
  cases op with
  | new a se w =>
    simp only [step]; split
    · exact h
    · exact strong_append _ h
  | die o' =>
    simp only [step]; split
    · exact h
    · rename_i ob ho
      split
      · exact h
      · exact strong_set ho rfl h
  | copy o' a =>
    simp only [step]; split
    · exact h
    · split
      · exact h
      · exact strong_append _ h
  | get s' o' =>
    simp only [step]; split
    · exact h
    · rename_i ob ho
      split
      · exact h
      · show Strong { (get c st s' o' ob).2 with log := _ }
        have hnew : ∀ x ∈ st.insts ++ [(⟨s', o', !ob.weakrefable⟩ : SigInst)],
            ∃ ob, st.objs[x.owner]? = some ob ∧ x.strong = !ob.weakrefable := by
          intro x hx
          rcases List.mem_append.mp hx with hx | hx
          · exact h x hx
          · rw [List.mem_singleton.mp hx]; exact ⟨ob, ho, rfl⟩
        have : Strong (get c st s' o' ob).2 := by
          unfold get
          split
          · exact h
          · split
            · exact h
            · dsimp only
              split
              · exact strong_set ho rfl hnew
              · exact hnew
        exact this

theorem strong_run {c : Cfg} (ops : List Op) : ∀ {st : St}, Strong st → Strong (run c ops st) := by
  induction ops with
  | nil => exact fun h => h
  | cons o os ih => exact fun h => ih (strong_step h o)

theorem inv_step {c : Cfg} (hn : ∀ s, c.name s = c.attr s)
    (hi : ∀ s s', c.attr s = c.attr s' → s = s') {st : St} (h : Inv c st) (op : Op)
    (hop : ∀ o a ob, op = .copy o a → st.objs[o]? = some ob → ob.dict = []) :
    Inv c (step c st op) := by
  cases op with
  | new a se w => exact inv_new h a se w
  | die o => exact inv_die h o
  | copy o a => exact inv_copy h a fun ob => hop o a ob rfl
  | get s o =>
    simp only [step]
    split
    · exact h
    · rename_i ob ho
      split
      · exact h
      · rename_i ha
        exact inv_get hn hi h s o ob ho (by simpa using ha)

theorem run_append (c : Cfg) (p q : List Op) : ∀ st, run c (p ++ q) st = run c q (run c p st) := by
  induction p with
  | nil => exact fun _ => rfl
  | cons o os ih => exact fun st => ih _

theorem slots_run {c : Cfg} (ops : List Op) : ∀ {st : St}, Slots st → Slots (run c ops st) := by
  induction ops with
  | nil => exact fun h => h
  | cons o os ih => exact fun h => ih (slots_step h o)

theorem log_run {c : Cfg} {s o i : Nat} (ops : List Op) : ∀ {st : St}, (s, o, i) ∈ (run c ops st).log →
    (s, o, i) ∈ st.log ∨ .get s o ∈ ops := by
  induction ops with
  | nil => exact fun h => .inl h
  | cons op os ih =>
    intro st h
    rcases ih h with h | h
    · rcases log_step h with h | rfl
      · exact .inl h
      · exact .inr (.head _)
    · exact .inr (.tail _ h)

/-- Objects are copied before one of their signals is accessed, or hold no signal instances because they have no
usable `__dict__`. -/
def CopiesFirst (c : Cfg) (ops : List Op) : Prop :=
  ∀ p o a q, ops = p ++ .copy o a :: q →
    (∀ s, .get s o ∉ p) ∨ ∀ ob, (run c p St.init).objs[o]? = some ob → ob.settable = false

theorem inv_run {c : Cfg} (hn : ∀ s, c.name s = c.attr s)
    (hi : ∀ s s', c.attr s = c.attr s' → s = s') (ops : List Op)
    (hops : CopiesFirst c ops) : Inv c (run c ops St.init) := by
  suffices ∀ (q p : List Op), ops = p ++ q → Inv c (run c p St.init) → Inv c (run c ops St.init) from
    this ops [] rfl (inv_init c)
  intro q
  induction q with
  | nil => intro p e h; rw [e, List.append_nil]; exact h
  | cons op q ih =>
    intro p e h
    refine ih (p ++ [op]) (by rw [e, List.append_assoc]; rfl) ?_
    rw [run_append]
    refine inv_step hn hi h op fun o a ob ho hob => ?_
    subst ho
    rcases hops p o a q e with h1 | h1
    · rcases hd : ob.dict with _ | ⟨⟨n, i⟩, d⟩
      · rfl
      · obtain ⟨s, b, _, h2⟩ := h.dict o ob n i hob (by rw [hd]; exact .head _)
        rcases log_run p (h.made _ _ _ _ h2) with h3 | h3
        · cases h3
        · exact absurd h3 (h1 s)
    · exact slots_run p (fun o ob h => by simp [St.init] at h) o ob hob (h1 ob hob)

end Psygnal.Inst
