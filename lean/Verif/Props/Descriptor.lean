import Verif.DescriptorInv
/-!
# C50: the group that `obj.events` returns

Every read of the attribute returns the `SignalGroup` of that object, made by that descriptor for the class of the
object, the same one every time, whatever else is created, read or collected in between, and although the caches are
keyed by addresses that are reused.  The code does this only if each object is read through one descriptor, if no class
with an `__eq_operators__` attribute is collected, and if no object with a cached group is copied.
-/
namespace Psygnal
open Psygnal.Desc

/-- **C50**, under the three conditions.  Missing: the unrestricted statement, which the refutations below disprove. -/
theorem C50_partial (c : Cfg) (own : Nat → Nat) (ops : List Op)
    (hown : ∀ d o, Op.get d o ∈ ops → d = own o)
    (hdie : (∀ a, Op.newCls a true ∉ ops) ∨ ∀ i, Op.dieCls i ∉ ops)
    (hcopy : (∀ o a, Op.copy o a ∉ ops) ∨ ∀ d, c.cacheOn d = false) :
    (∀ d o g, (d, o, g) ∈ (run c ops St.init).log →
      ∃ x ob, (run c ops St.init).grps[g]? = some x ∧ (run c ops St.init).objs[o]? = some ob ∧
        x.owner = o ∧ x.desc = d ∧ x.cls = ob.cls) ∧
    (∀ d d' o o' g g', (d, o, g) ∈ (run c ops St.init).log → (d', o', g') ∈ (run c ops St.init).log →
      (g = g' ↔ o = o')) := by
  have hi : Inv c own (∀ i, Op.dieCls i ∉ ops) (∀ o a, Op.copy o a ∉ ops) (run c ops St.init) := by
    refine inv_run ops _ (fun op hm => ?_) (inv_init c own _ _ hcopy)
    cases op with
    | newCls a e =>
      rcases hdie with h | h
      · refine .inr ?_
        cases e with
        | false => rfl
        | true => exact absurd hm (h a)
      · exact .inl h
    | dieCls i => exact fun h => h i hm
    | get d o => exact hown d o hm
    | copy o a => exact fun h => h o a hm
    | new => trivial
    | die => trivial
  refine ⟨fun d o g hm => ?_, fun d d' o o' g g' hm hm' => ?_⟩
  · obtain ⟨h1, x, h2, h3⟩ := hi.log hm
    obtain ⟨h4, ob, h5, h6⟩ := hi.made h2
    subst h3
    exact ⟨x, ob, h2, h5, rfl, by rw [h4, h1], h6⟩
  · obtain ⟨_, x, h2, h3⟩ := hi.log hm
    obtain ⟨_, x', h2', h3'⟩ := hi.log hm'
    constructor
    · rintro rfl
      rw [h2] at h2'; cases h2'
      rw [← h3, ← h3']
    · rintro rfl
      exact hi.uniq h2 h2' (h3.trans h3'.symm)

/-- In every history, a read of a live object is answered, and what was answered before is not touched. -/
theorem C50_answers (c : Cfg) (ops : List Op) (d o : Nat) (ob : Obj)
    (ho : (run c ops St.init).objs[o]? = some ob) (ha : ob.alive = true) :
    ∃ g, (run c (ops ++ [.get d o]) St.init).log = (run c ops St.init).log ++ [(d, o, g)] := by
  have happ : ∀ (ops : List Op) (st : St), run c (ops ++ [.get d o]) st = step c (run c ops st) (.get d o) := by
    intro ops
    induction ops with
    | nil => intro st; rfl
    | cons _ _ ih => intro st; exact ih _
  rw [happ]
  obtain ⟨k, hk, _⟩ := (base_run c ops _ base_init).cls ho ha
  simp only [step, ho, hk, ha]
  refine ⟨(Desc.get c (run c ops St.init) d o ob k).1, ?_⟩
  simp only [Bool.true_eq_false, if_false, List.append_cancel_right_eq]
  rcases get_rel c (run c ops St.init) d o ob k with ⟨_, h⟩ | ⟨i, st1, h1, h2⟩
  · rw [h]
  · have e1 : st1.log = (run c ops St.init).log := by cases h1 <;> rfl
    rw [← e1]
    generalize (get c (run c ops St.init) d o ob k).1 = g at h2
    generalize (get c (run c ops St.init) d o ob k).2 = st2 at h2
    cases h2 <;> rfl

/-- In every history, `_instance_map` holds groups of live objects only, each under the address of its object: no entry
outlives its object, so none can be found by another one that gets the address. -/
theorem C50_map_live (c : Cfg) (ops : List Op) (a g : Nat) (h : (a, g) ∈ (run c ops St.init).imap) :
    ∃ x ob, (run c ops St.init).grps[g]? = some x ∧ (run c ops St.init).objs[x.owner]? = some ob ∧
      ob.alive = true ∧ ob.addr = a := by
  obtain ⟨x, ob, h1, h2, h3, h4, _⟩ := (base_run c ops _ base_init).imap h
  exact ⟨x, ob, h1, h2, h3, h4⟩

/-- In every history, an object that can be weakly referenced is not kept alive by its group, and when it goes its
entry goes. -/
theorem C50_collectable (c : Cfg) (ops : List Op) (o : Nat) (ob : Obj)
    (ho : (run c ops St.init).objs[o]? = some ob) (ha : ob.alive = true) (hw : ob.weakrefable = true) :
    (∃ ob', (step c (run c ops St.init) (.die o)).objs[o]? = some ob' ∧ ob'.alive = false) ∧
    ∀ g, (ob.addr, g) ∉ (step c (run c ops St.init) (.die o)).imap := by
  have hb := base_run c ops _ base_init
  have hb' := base_step c _ (.die o) hb
  generalize run c ops St.init = st at *
  have hp : pinned st o = false := by
    simp only [pinned, List.any_eq_false]
    intro e he
    cases hg : st.grps[e.2]? with
    | none => simp
    | some x =>
      simp only [Bool.and_eq_true, decide_eq_true_eq, not_and]
      intro hx
      obtain ⟨ob', h1, h2⟩ := hb.grp hg
      rw [hx, ho] at h1; cases h1
      simp [h2, hw]
  have hlt : o < st.objs.length := by grind
  have hs : step c st (.die o) = { st with objs := st.objs.set o { ob with alive := false }, imap := if ob.fin then st.imap.filter fun e => e.1 ≠ ob.addr else st.imap } := by
    simp [step, ho, ha, hp]
  have hdead : (step c st (.die o)).objs[o]? = some { ob with alive := false } := by rw [hs]; simp [hlt]
  refine ⟨⟨_, hdead, rfl⟩, fun g hm => ?_⟩
  obtain ⟨x, ob', h1, h2, h3, h4, h5⟩ := hb'.imap hm
  by_cases e : x.owner = o
  · rw [e, hdead] at h2; cases h2; cases h3
  · have h2' : st.objs[x.owner]? = some ob' := by
      rw [hs] at h2
      rwa [List.getElem?_set_ne (Ne.symm e)] at h2
    exact e (hb.addr h2' ho h3 ha h4)

/-! ## Examples -/

/-- Two descriptors on different attributes (`/repo/src/psygnal/_group_descriptor.py:515-557`). -/
def demoDesc : Cfg := ⟨fun d => d, fun _ => true⟩

/-- Two classes; an object that is read twice, collected, its address taken by an object of the other class, which
refuses `setattr`, is read twice as well, and a third object that cannot be weakly referenced
(`/repo/src/psygnal/_group_descriptor.py:595-621`). -/
def demoOps : List Op :=
  [.newCls 1 false, .newCls 2 false, .new 0 10 true true, .get 0 0, .get 0 0, .die 0, .new 1 10 false true, .get 1 1,
    .get 1 1, .new 0 11 false false, .get 0 2, .die 2, .dieCls 1, .get 0 2]

/-- The conditions of `C50_partial` hold of it, and six reads are answered with three groups. -/
example : (∀ d o, Op.get d o ∈ demoOps → d = (fun o => if o = 1 then 1 else 0) o) ∧
    (∀ a, Op.newCls a true ∉ demoOps) ∧ (∀ o a, Op.copy o a ∉ demoOps) ∧
    (run demoDesc demoOps St.init).log = [(0, 0, 0), (0, 0, 0), (1, 1, 1), (1, 1, 1), (0, 2, 2), (0, 2, 2)] ∧
    (run demoDesc demoOps St.init).grps = [⟨0, 0, 0, false⟩, ⟨1, 1, 1, false⟩, ⟨0, 0, 2, true⟩] := by
  refine ⟨?_, ?_, ?_, by decide, by decide⟩
  · intro d o h
    simp [demoOps] at h
    grind
  · intro a h; simp [demoOps] at h
  · intro o a h; simp [demoOps] at h

/-- With copies, if the group is not cached on the instance: the copy has a group of its own. -/
example : (run ⟨id, fun _ => false⟩ [.newCls 1 false, .new 0 10 true true, .get 0 0, .copy 0 11, .get 0 1] St.init).log =
    [(0, 0, 0), (0, 1, 1)] := by decide

/-- `C50_answers`, `C50_map_live` and `C50_collectable` speak of states like this one. -/
example : (run demoDesc (demoOps.take 8) St.init).objs[1]? = some ⟨1, 10, false, true, true, true, []⟩ ∧
    (run demoDesc (demoOps.take 8) St.init).imap = [(10, 1)] := by decide

/-! ## Where the unrestricted claim fails -/

/-- Two descriptors on one object: the second returns the group of the first. -/
theorem C50_two_descriptors_refuted :
    ∃ c ops, (run c ops St.init).log = [(0, 0, 0), (1, 0, 0)] ∧ (run c ops St.init).grps = [⟨0, 0, 0, false⟩] :=
  ⟨demoDesc, [.newCls 1 false, .new 0 10 true true, .get 0 0, .get 1 0], by decide, by decide⟩

/-- A copy of an object returns the group of the original, also after that one is gone. -/
theorem C50_copy_refuted :
    ∃ c ops, (run c ops St.init).log = [(0, 0, 0), (0, 1, 0)] ∧ (run c ops St.init).grps = [⟨0, 0, 0, false⟩] ∧
      (run c ops St.init).objs[0]?.map (·.alive) = some false :=
  ⟨demoDesc, [.newCls 1 false, .new 0 10 true true, .get 0 0, .copy 0 11, .die 0, .get 0 1], by decide, by decide,
    by decide⟩

/-- A class with `__eq_operators__` is collected and another one gets its address: its objects get groups with the
signals of the class that is gone. -/
theorem C50_class_address_refuted :
    ∃ c ops, (run c ops St.init).log = [(0, 0, 0), (0, 1, 1)] ∧ (run c ops St.init).objs[1]?.map (·.cls) = some 1 ∧
      (run c ops St.init).grps[1]?.map (·.cls) = some 0 :=
  ⟨demoDesc, [.newCls 1 true, .new 0 10 true true, .get 0 0, .die 0, .dieCls 0, .newCls 1 true, .new 1 10 true true,
    .get 0 1], by decide, by decide, by decide⟩

/-- In every history, an object that cannot be weakly referenced is never collected once a group was made for it: while
its group is in `_instance_map`, it is alive after whatever happens next. -/
theorem C50_leak (c : Cfg) (ops ops' : List Op) (a g : Nat) (x : Grp) (hm : (a, g) ∈ (run c ops St.init).imap)
    (hx : (run c ops St.init).grps[g]? = some x) (hs : x.strong = true) :
    ∃ ob, (run c ops' (run c ops St.init)).objs[x.owner]? = some ob ∧ ob.alive = true := by
  have hb := base_run c ops _ base_init
  generalize run c ops St.init = st at *
  induction ops' generalizing st with
  | nil =>
    obtain ⟨x', ob, h1, h2, h3, _⟩ := hb.imap hm
    rw [hx] at h1; cases h1
    exact ⟨ob, h2, h3⟩
  | cons op os ih =>
    have hk := strong_step c op hb hm hx hs
    exact ih _ hk.1 hk.2 (base_step c st op hb)

example : ((10, 0) ∈ (run demoDesc [.newCls 1 false, .new 0 10 true false, .get 0 0] St.init).imap) ∧
    (run demoDesc [.newCls 1 false, .new 0 10 true false, .get 0 0] St.init).grps[0]? = some ⟨0, 0, 0, true⟩ := by decide

end Psygnal
