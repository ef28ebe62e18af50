import Verif.Py
import Verif.EvModelOnce
import Verif.EvModelField

/-! # C40: evented models -/
namespace Psygnal.EM

/-- **C40**, one assignment from outside to a model of a class with dependent names, with any
property setters and any callbacks, which may assign further names, fail, and catch failures:
* afterwards the bookkeeping is empty again, whatever was raised;
* unless an emission was abandoned because a listener raised, every field and property with
  listeners has the value that was last reported for it (the value before, if nothing was
  reported), and every report is different from the one before it.
Missing: getters that raise (`C40_getter_refuted`), listeners that raise (`C40_abandoned_refuted`), names without
a signal of their own (`C40_subclass_refuted`), classes without dependent names (`C40_plain_partial`). -/
theorem C40_partial {c : Cfg} (hc : c.Ok) {f n v : Nat} {s s' : St} {r : Except Err Unit} (hs : Idle s)
    (h : exec c f (.set n v) s = some (r, s')) :
    s'.sem = 0 ∧ s'.queue = [] ∧ s'.primary = [] ∧
    (s'.lost = false →
      (∀ m, c.sig m = true → c.listens m = true → c.get m s'.F = some (last (start c s) s'.log m)) ∧
      ∀ pre e post, s'.log = pre ++ e :: post → last (start c s) pre e.1 ≠ e.2) := by
  obtain ⟨⟨_, h1⟩, h2, h3⟩ := exec_ok hc f (.set n v) [] s r s' h (hs.before hc n v)
  have h0 : s'.sem = 0 := h3.trans hs.sem
  obtain ⟨h4, h5⟩ := h2 h0
  refine ⟨h0, h4, h5, fun hl => ⟨?_, (h1 hl).changes⟩⟩
  intro m hm hlm
  exact (h1 hl).told m hm hlm (by rw [h4]; rfl)

/-- **C40** for any sequence of assignments. -/
theorem C40_run_partial {c : Cfg} (hc : c.Ok) {f : Nat} {l : List (Nat × Nat)} {s s' : St} (hs : Idle s)
    (h : assigns c f l s = some s') :
    s'.sem = 0 ∧ s'.queue = [] ∧ s'.primary = [] ∧
    (s'.lost = false →
      (∀ m, c.sig m = true → c.listens m = true → c.get m s'.F = some (last (start c s) s'.log m)) ∧
      ∀ pre e post, s'.log = pre ++ e :: post → last (start c s) pre e.1 ≠ e.2) := by
  have key : ∀ (l : List (Nat × Nat)) (t t' : St), assigns c f l t = some t' → t.sem = 0 → Clean t →
      Good c (start c s) [] t → t'.sem = 0 ∧ Clean t' ∧ Good c (start c s) [] t' := by
    intro l
    induction l with
    | nil => intro t t' h h1 h2 h3; cases h; exact ⟨h1, h2, h3⟩
    | cons e l ih =>
      intro t t' h h1 h2 h3
      simp only [assigns] at h
      rcases hx : exec c f (.set e.1 e.2) t with _ | ⟨r, t1⟩
      · rw [hx] at h; cases h
      · rw [hx] at h
        obtain ⟨i1, i2, i3⟩ := exec_ok hc f (.set e.1 e.2) [] t r t1 hx ⟨h3, h2, fun _ => rfl⟩
        exact ih t1 t' h (i3.trans h1) i2 i1
  obtain ⟨h0, h2, _, h1⟩ := key l s s' h hs.sem (fun _ => ⟨hs.queue, hs.primary⟩) (hs.good hc)
  obtain ⟨h4, h5⟩ := h2 h0
  refine ⟨h0, h4, h5, fun hl => ⟨?_, (h1 hl).changes⟩⟩
  intro m hm hlm
  exact (h1 hl).told m hm hlm (by rw [h4]; rfl)

/-- **C40**: if the callbacks assign nothing, every name is reported at most once per assignment, with
the value it has afterwards; property setters may assign as often as they like. -/
theorem C40_once {c : Cfg} (hc : c.Ok) (hcb : ∀ n x, Silent (c.cb n x)) {f n v : Nat} {s s' : St} {r : Except Err Unit}
    (hi : Idle s) (hsig : c.sig n = true) (h : exec c f (.set n v) s = some (r, s')) :
    (s'.log.map (·.1)).Nodup ∧ ∀ e ∈ s'.log, c.listens e.1 = true ∧ c.get e.1 s'.F = some e.2 :=
  set_silent hc hcb hi hsig h

/-- **C40**, one assignment in a class without dependent names, where every change is reported at
once: every field with listeners has the value last reported for it, and every report about a field is
different from the one before.  Missing: fields whose validation changes the value
(`C40_raw_refuted`), and properties, which are only reported when assigned themselves. -/
theorem C40_plain_partial {c : Cfg} (hc : c.Plain) {f n v : Nat} {s s' : St} {r : Except Err Unit} (hs : Idle s)
    (h : exec c f (.set n v) s = some (r, s')) (hl : s'.lost = false) :
    (∀ m, c.sig m = true → c.listens m = true → c.isProp m = false → s'.F m = last (start c s) s'.log m) ∧
    ∀ pre e post, s'.log = pre ++ e :: post → c.isProp e.1 = false → last (start c s) pre e.1 ≠ e.2 := by
  refine exec_plain hc f (.set n v) s r s' h ?_ hl
  intro _
  rw [hs.log]
  refine ⟨?_, ?_⟩
  · intro m _ _ hp
    simp [last, start, Cfg.get, hp]
  · intro pre e post heq
    cases pre <;> cases heq

/-- The bound on the nesting does not matter once it suffices. -/
theorem C40_depth (c : Cfg) (f : Nat) : ∀ (t : Task) (s : St) (x : Except Err Unit × St),
    exec c f t s = some x → exec c (f + 1) t s = some x := by
  induction f with
  | zero => intro t s x h; simp [exec] at h
  | succ f ih =>
    intro t s x h
    cases t with
    | prog p => cases p <;> (unfold exec at h ⊢; simp only at h ⊢; grind)
    | emits l => rcases l with _ | ⟨⟨n, y⟩, l⟩ <;> (unfold exec at h ⊢; simp only at h ⊢; grind)
    | _ => unfold exec at h ⊢; grind

/-- **C40**, getters that may raise: a field is assigned (callbacks assign nothing) and its value changes.  A property `d` that depends on
it and is listened to can be read afterwards, and it is reported, with that value, exactly if the value is not equal to the one before -
in particular if it could not be read before. -/
theorem C40_unread {c : Cfg} (hc : c.noDeps = false) (ho : ∀ l, (c.order l).Perm l) (hcb : ∀ n x, Silent (c.cb n x))
    {f n v : Nat} {s s' : St} (hi : Idle s) (hsig : c.sig n = true) (hp : c.isProp n = false)
    (h : exec c f (.set n v) s = some (.ok (), s')) (hch : c.same n (s'.F n) (s.F n) = false) {d : Nat} (hd : d ∈ c.deps n)
    (hl : c.listens d = true) (hdn : d ≠ n) :
    ∃ y, c.get d s'.F = some y ∧ ((d, y) ∈ s'.log ↔ ∀ o, c.get d s.F = some o → c.same d y o = false) :=
  set_field hc ho hcb hi hsig hp h hch hd hl hdn

/-! ## Example

Fields 0 and 1, property 2 with value `10 * F 1 + F 0` and a setter assigning both; somebody listens to
all three.  The listener of 2 sets field 0 to 5 when it sees 37. -/

def Ex.c : Cfg where
  sig n := n < 3
  isProp n := n = 2
  deps n := if n < 2 then [2] else []
  noDeps := false
  listens n := n < 3
  relay := false
  coerce _ v := if v < 100 then some v else none
  fset _ v := .set 0 (v % 10) fun ok => if ok then .set 1 (v / 10) fun _ => .ret else .raise
  fget _ F := some (10 * F 1 + F 0)
  same _ x y := x = y
  order l := l
  cb n x := if n = 2 ∧ x = 37 then .set 0 5 fun _ => .ret else .ret
  conflict _ := false

theorem Ex.ok : Ex.c.Ok where
  deps := rfl
  total := by
    intro n F _
    by_cases h : n = 2
    · exact ⟨10 * F 1 + F 0, by simp [Cfg.get, Ex.c, h]⟩
    · exact ⟨F n, by simp [Cfg.get, Ex.c, h]⟩
  support := by
    intro n F F' _ h
    by_cases e : n = 2
    · subst e
      have h0 := h 0 (.inr ⟨rfl, by decide⟩)
      have h1 := h 1 (.inr ⟨rfl, by decide⟩)
      simp [Cfg.get, Ex.c, h0, h1]
    · simp [Cfg.get, Ex.c, e, h n (.inl rfl)]
  same := by intro n x y; simp [Ex.c]
  order := fun l => .refl l

def Ex.s0 : St := ⟨fun _ => 0, [], [], 0, [], false⟩

example : Idle Ex.s0 := ⟨rfl, rfl, rfl, rfl⟩

/-- Setting the property: each name is reported once, then the listener changes field 0 and field 0
and the property are reported again. -/
example : (exec Ex.c 20 (.set 2 37) Ex.s0).map (fun x => (x.1, x.2.log, x.2.lost)) =
    some (.ok (), [(2, 37), (0, 7), (1, 3), (0, 5), (2, 35)], false) := by decide

/-- Setting it to something invalid: the setter raises after nothing was stored. -/
example : (exec Ex.c 20 (.set 1 100) Ex.s0).map (fun x => (x.1, x.2.log)) = some (.error .validation, []) := by decide

/-- A property that cannot be read while field 0 is 0: setting field 0 reports it. -/
example : let c : Cfg := { Ex.c with fget := fun _ F => if F 0 = 0 then none else some (F 1), cb := fun _ _ => .ret }
    c.get 2 Ex.s0.F = none ∧ (∀ n x, Silent (c.cb n x)) ∧
    (exec c 20 (.set 0 7) Ex.s0).map (fun x => (x.1, x.2.log, x.2.F 0)) = some (.ok (), [(0, 7), (2, 0)], 7) :=
  ⟨rfl, fun _ _ => .ret, by decide⟩

/-! ## Where the code deviates -/

/-- The listener of the first report raises: the other changes are never reported. -/
theorem C40_abandoned_refuted : ∃ (c : Cfg) (f n v : Nat) (s s' : St) (r : Except Err Unit), c.Ok ∧ Idle s ∧
    exec c f (.set n v) s = some (r, s') ∧ c.sig 1 = true ∧ c.listens 1 = true ∧
    c.get 1 s'.F ≠ some (last (start c s) s'.log 1) := by
  refine ⟨{ Ex.c with cb := fun _ _ => .raise }, 20, 2, 37, Ex.s0, _, _, ?_, ⟨rfl, rfl, rfl, rfl⟩, rfl, rfl, rfl, by decide⟩
  exact ⟨rfl, Ex.ok.total, Ex.ok.support, Ex.ok.same, Ex.ok.order⟩

/-- A getter that raises (here for `F 0 = 7`) leaves the bookkeeping behind, and the next assignment
to an unrelated field fails with `KeyError`. -/
theorem C40_getter_refuted : ∃ (c : Cfg) (f : Nat) (s s' : St) (r : Except Err Unit), Idle s ∧
    exec c f (.set 0 7) s = some (r, s') ∧ s'.primary = [0] ∧
    (exec c f (.set 1 1) s').map (·.1) = some (.error .key) := by
  refine ⟨{ Ex.c with fget := fun _ F => if F 0 = 7 then none else some (F 0), cb := fun _ _ => .ret }, 20, Ex.s0, _, _,
    ⟨rfl, rfl, rfl, rfl⟩, rfl, by decide, by decide⟩

/-- A field called like an attribute of `SignalGroup`: its change is stored, not reported, and the
assignment raises. -/
theorem C40_conflict_refuted : ∃ (c : Cfg) (f n v : Nat) (s s' : St) (e : Err), c.Ok ∧ Idle s ∧
    exec c f (.set n v) s = some (.error e, s') ∧ s'.F n = v ∧ s.F n ≠ v ∧ c.listens n = true ∧ s'.log = [] := by
  refine ⟨{ Ex.c with conflict := fun n => n = 0 }, 20, 0, 7, Ex.s0, _, _, ?_, ⟨rfl, rfl, rfl, rfl⟩, rfl, rfl, by decide, rfl, rfl⟩
  exact ⟨rfl, Ex.ok.total, Ex.ok.support, Ex.ok.same, Ex.ok.order⟩

/-- In a class without dependents the report has the value before validation (here: 13 is stored as 3), and
a value equal to the old one after validation is reported as a change. -/
theorem C40_raw_refuted : ∃ (c : Cfg) (f : Nat) (s s1 s2 : St), Idle s ∧
    exec c f (.set 0 13) s = some (.ok (), s1) ∧ s1.F 0 = 3 ∧ s1.log = [(0, 13)] ∧
    exec c f (.set 0 23) s1 = some (.ok (), s2) ∧ s2.F 0 = 3 ∧ s2.log = [(0, 13), (0, 23)] := by
  refine ⟨{ Ex.c with noDeps := true, coerce := fun _ v => some (v % 10) }, 20, Ex.s0, _, _, ⟨rfl, rfl, rfl, rfl⟩, rfl, rfl, rfl, rfl, rfl, rfl⟩

/-! ## The metaclass -/

/-- In a class of its own, with no frozen field among the dependent names, every dependent name has a
signal. -/
theorem C40_class_partial (d : Decl) (c : Cfg) (ha : d.accepted = true) (hi : d.inherited = [])
    (hf : ∀ p ∈ d.depends, (p.1, true) ∉ d.fields) {x n : Nat} (h : n ∈ (d.apply c).deps x) : (d.apply c).sig n = true := by
  simp only [Decl.apply, Decl.dependents, List.mem_map, List.mem_filter] at h
  obtain ⟨p, ⟨hp, _⟩, rfl⟩ := h
  have := List.all_eq_true.mp ha p hp
  simp only [Decl.setters, hi, List.nil_append, Bool.or_eq_true, decide_eq_true_eq, List.mem_map] at this
  show decide (p.1 ∈ d.signals) = true
  rw [decide_eq_true_eq]
  simp only [Decl.signals, List.mem_append, List.mem_map, List.mem_filter]
  rcases this with ⟨q, hq, hqp⟩ | h
  · left
    refine ⟨q, ⟨hq, ?_⟩, hqp⟩
    obtain ⟨q1, q2⟩ := q
    have hqp : q1 = p.1 := hqp
    subst hqp
    cases q2 with
    | false => rfl
    | true => exact absurd hq (hf p hp)
  · exact .inr h

/-- A class takes the short way through assignments just if no name depends on another. -/
theorem C40_class_deps (d : Decl) (c : Cfg) : (d.apply c).noDeps = false ↔ ∃ x n, n ∈ (d.apply c).deps x := by
  show d.depends.all (·.2.isEmpty) = false ↔ ∃ x n, n ∈ (d.depends.filter (fun p => x ∈ p.2)).map (·.1)
  rw [← Bool.not_eq_true, List.all_eq_true]
  simp only [List.mem_map, List.mem_filter, decide_eq_true_eq]
  constructor
  · intro h
    apply Classical.byContradiction
    intro hn
    refine h fun p hp => ?_
    rcases hl : p.2 with _ | ⟨x, l⟩
    · rfl
    · exact absurd ⟨x, p.1, p, ⟨hp, by rw [hl]; exact .head _⟩, rfl⟩ hn
  · rintro ⟨x, n, p, ⟨hp, hx⟩, _⟩ h
    have := h p hp
    rw [List.isEmpty_iff] at this
    rw [this] at hx; cases hx

/-- The class of the example, and a subclass that adds nothing: the subclass is accepted, but the
property has no signal there, and assigning a field raises `KeyError`. -/
def Ex.base : Decl := ⟨[(0, false), (1, false)], [2], [], [(2, [0, 1])]⟩

def Ex.sub : Decl := ⟨[(0, false), (1, false)], [], [2], [(2, [0, 1])]⟩

example : (Ex.base.apply Ex.c).noDeps = false ∧ ((⟨[(0, false)], [], [], []⟩ : Decl).apply Ex.c).noDeps = true := by decide

theorem C40_subclass_refuted :
    Ex.base.accepted = true ∧ Ex.sub.accepted = true ∧
    (exec (Ex.base.apply Ex.c) 20 (.set 0 7) Ex.s0).map (fun x => (x.1, x.2.F 0)) = some (.ok (), 7) ∧
    (exec (Ex.sub.apply Ex.c) 20 (.set 0 7) Ex.s0).map (fun x => (x.1, x.2.F 0)) = some (.error .key, 0) := by
  decide

end Psygnal.EM
