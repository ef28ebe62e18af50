import Verif.InstancesInv

/-!
# C26: one signal instance per object and signal

Full claim: for every history of creating, copying and deleting objects (addresses may be
reused) and of accesses, `obj.sig` returns the same `SignalInstance` on each access, different
ones for different objects and for different signals, and its `instance` is `obj`.
-/
namespace Psygnal.Inst

/-- Two accesses return the same signal instance iff they were made on the same object for the
same signal, whatever happened in between and even if an address was reused.  Missing from the
full claim: signals with an explicit name that is not the attribute's, and copies of objects whose signals
were accessed before, for which it is false (`C26_name_refuted`, `C26_copy_refuted`). -/
theorem C26_partial {c : Cfg} (hn : ∀ s, c.name s = c.attr s)
    (hi : ∀ s s', c.attr s = c.attr s' → s = s') (ops : List Op) (hops : CopiesFirst c ops)
    {s o i s' o' j : Nat} (h : (s, o, i) ∈ (run c ops St.init).log)
    (h' : (s', o', j) ∈ (run c ops St.init).log) : i = j ↔ s = s' ∧ o = o' := by
  have inv := inv_run hn hi ops hops
  obtain ⟨⟨b, hb⟩, _⟩ := inv.log _ _ _ h
  obtain ⟨⟨b', hb'⟩, _⟩ := inv.log _ _ _ h'
  refine ⟨?_, ?_⟩
  · rintro rfl
    rw [hb] at hb'
    cases hb'
    exact ⟨rfl, rfl⟩
  · rintro ⟨rfl, rfl⟩
    -- the first access leaves its trace until the second
    exact inv.once _ _ _ _ h h'

/-- The instance handed out by an access was made by this signal and its `instance` is the
object it was read from. -/
theorem C26_instance_partial {c : Cfg} (hn : ∀ s, c.name s = c.attr s)
    (hi : ∀ s s', c.attr s = c.attr s' → s = s') (ops : List Op) (hops : CopiesFirst c ops)
    {s o i : Nat} (h : (s, o, i) ∈ (run c ops St.init).log) :
    ∃ x, (run c ops St.init).insts[i]? = some x ∧ x.sig = s ∧ x.owner = o := by
  obtain ⟨⟨b, hb⟩, _⟩ := (inv_run hn hi ops hops).log _ _ _ h
  exact ⟨_, hb, rfl, rfl⟩

/-- No leak and no stale entry: whatever is cached belongs to a live object at that address. -/
theorem C26_cache_partial {c : Cfg} (hn : ∀ s, c.name s = c.attr s)
    (hi : ∀ s s', c.attr s = c.attr s' → s = s') (ops : List Op) (hops : CopiesFirst c ops)
    {s a i : Nat} (h : (s, a, i) ∈ (run c ops St.init).cache) :
    ∃ o ob x, (run c ops St.init).insts[i]? = some x ∧ x.sig = s ∧ x.owner = o ∧
      (run c ops St.init).objs[o]? = some ob ∧ ob.alive = true ∧ ob.addr = a := by
  obtain ⟨o, ob, b, h1, h2, h3, h4, _⟩ := (inv_run hn hi ops hops).cache _ _ _ h
  exact ⟨o, ob, _, h1, rfl, rfl, h2, h3, h4⟩

/-- Signals whose attribute and name are their number. -/
def Ex.plain : Cfg := ⟨id, id⟩

/-- Nothing leaks: an object that can be weakly referenced and is no longer used dies in spite of its signal instances, and then nothing
is cached for its address. -/
theorem C26_collect_partial {c : Cfg} (hn : ∀ s, c.name s = c.attr s)
    (hi : ∀ s s', c.attr s = c.attr s' → s = s') (ops : List Op) (hops : CopiesFirst c ops) (o : Nat) (ob : Obj)
    (ho : (run c ops St.init).objs[o]? = some ob) (ha : ob.alive = true) (hw : ob.weakrefable = true) :
    (step c (run c ops St.init) (.die o)).objs[o]? = some { ob with alive := false } ∧
    ∀ s i, (s, ob.addr, i) ∉ (step c (run c ops St.init) (.die o)).cache := by
  have inv := inv_run hn hi ops hops
  have str := strong_run (c := c) ops (st := St.init) (fun x hx => by cases hx)
  have hp : pinned (run c ops St.init) o = false := by
    rw [← Bool.not_eq_true, pinned, List.any_eq_true]
    rintro ⟨e, _, he⟩
    split at he
    · rename_i x hx
      rw [Bool.and_eq_true, decide_eq_true_eq] at he
      obtain ⟨ob', h1, h2⟩ := str x (List.mem_of_getElem? hx)
      rw [he.1, ho] at h1
      cases h1
      rw [he.2, hw] at h2
      cases h2
    · cases he
  have hol : o < (run c ops St.init).objs.length := by rw [List.getElem?_eq_some_iff] at ho; exact ho.1
  simp only [step, ho]
  rw [if_neg (by simp [ha, hp])]
  refine ⟨List.getElem?_set_self hol, fun s i hm => ?_⟩
  simp only [List.mem_filter, Bool.not_eq_true', List.contains_eq_mem, decide_eq_false_iff_not] at hm
  obtain ⟨o', ob', b, h1, h2, h3, h4, h5⟩ := inv.cache _ _ _ hm.1
  have e := inv.addr _ _ _ _ ho h2 ha h3 h4.symm
  subst e
  rw [ho] at h2; cases h2
  rcases h5 with rfl | h5
  · obtain ⟨ob', h6, h7⟩ := str _ (List.mem_of_getElem? h1)
    rw [ho] at h6; cases h6
    rw [hw] at h7; cases h7
  · exact hm.2 h5

/-- Such an object, with a signal instance in the cache of its signal. -/
example : (run Ex.plain [.new 7 false true, .get 0 0, .new 8 false false, .get 0 1] St.init).cache = [(0, 8, 1), (0, 7, 0)] ∧
    (run Ex.plain [.new 7 false true, .get 0 0, .new 8 false false, .get 0 1] St.init).objs[0]? = some ⟨7, false, true, true, []⟩ := by
  decide

/-- An access is logged with what it returned, so the theorems above are about all of them. -/
theorem C26_logged (c : Cfg) (st : St) (s o : Nat) (ob : Obj) (ho : st.objs[o]? = some ob)
    (ha : ob.alive = true) :
    (step c st (.get s o)).log = st.log ++ [(s, o, (get c st s o ob).1)] := by
  simp only [step, ho]
  rw [if_neg (by simp [ha])]
  show (get c st s o ob).2.log ++ _ = _
  congr 1
  unfold get
  split
  · rfl
  · split
    · rfl
    · dsimp only; split <;> rfl

/-- Slotted objects at one address, one after the other, an object with a `__dict__` and a
slotted object that cannot be weakly referenced: five different instances, the last repeated. -/
example : (run Ex.plain [.new 7 false true, .get 0 0, .get 1 0, .die 0, .new 7 false true, .get 0 1,
    .new 8 true true, .get 0 2, .get 0 2, .die 1, .new 7 false false, .get 0 3, .die 3, .get 0 3]
    St.init).log =
    [(0, 0, 0), (1, 0, 1), (0, 1, 2), (0, 2, 3), (0, 2, 3), (0, 3, 4), (0, 3, 4)] := by decide

example : (∀ s, Ex.plain.name s = Ex.plain.attr s) ∧
    (∀ s s', Ex.plain.attr s = Ex.plain.attr s' → s = s') ∧
    CopiesFirst Ex.plain [.new 7 true true, .copy 0 8, .get 0 0, .get 0 1, .die 0, .new 7 false true, .get 0 2, .copy 2 9, .get 0 3] ∧
    (run Ex.plain [.new 7 true true, .copy 0 8, .get 0 0, .get 0 1, .die 0, .new 7 false true, .get 0 2, .copy 2 9, .get 0 3]
      St.init).log = [(0, 0, 0), (0, 1, 1), (0, 2, 2), (0, 3, 3)] := by
  refine ⟨fun _ => rfl, fun _ _ h => h, ?_, by decide⟩
  intro p o a q e
  rcases p with _ | ⟨_, _ | ⟨_, _ | ⟨_, _ | ⟨_, _ | ⟨_, _ | ⟨_, _ | ⟨_, _ | ⟨_, _ | ⟨_, _⟩⟩⟩⟩⟩⟩⟩⟩⟩ <;>
    simp only [List.nil_append, List.cons_append, List.cons.injEq, reduceCtorEq, false_and, and_false] at e
  · obtain ⟨rfl, ⟨rfl, rfl⟩, rfl⟩ := e
    exact .inl (by simp)
  · obtain ⟨rfl, rfl, rfl, rfl, rfl, rfl, rfl, ⟨rfl, rfl⟩, rfl⟩ := e
    refine .inr fun ob h => ?_
    have h : some (⟨7, false, true, true, []⟩ : Obj) = some ob := h
    cases h; rfl
  · exact absurd e.2.2.2.2.2.2.2.2.2 (by simp)

/-- A signal stored under attribute 0 whose explicit name is 5. -/
def Ex.named : Cfg := ⟨id, fun s => s + 5⟩

/-- `sig = Signal(name="other")`: every access returns a new signal instance, so that a
callback connected through one access is not called by an emission through the next. -/
theorem C26_name_refuted : ∃ (c : Cfg) (ops : List Op) (s o i j : Nat),
    (∀ o a, .copy o a ∉ ops) ∧ (∀ s s', c.attr s = c.attr s' → s = s') ∧
    (s, o, i) ∈ (run c ops St.init).log ∧ (s, o, j) ∈ (run c ops St.init).log ∧ i ≠ j :=
  ⟨Ex.named, [.new 7 true true, .get 0 0, .get 0 0], 0, 0, 0, 1, by simp, fun _ _ h => h,
    by decide, by decide, by decide⟩

/-- `copy.copy(obj)` after an access shares the signal instance of the original, whose
`instance` is the original. -/
theorem C26_copy_refuted : ∃ (ops : List Op) (s i : Nat),
    (s, 0, i) ∈ (run Ex.plain ops St.init).log ∧ (s, 1, i) ∈ (run Ex.plain ops St.init).log :=
  ⟨[.new 7 true true, .get 0 0, .copy 0 8, .get 0 1], 0, 0, by decide, by decide⟩

end Psygnal.Inst
