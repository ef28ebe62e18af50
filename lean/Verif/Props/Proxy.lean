import Verif.Proxy

/-! # C43: object proxies -/
namespace Psygnal.Proxy

open Py (Err M)
variable {σ : Type}

/-- Reading attributes and items does not change the object. -/
structure Reads (o : Obj σ) : Prop where
  attr : ∀ n s, (o.getattr n s).2 = s
  item : ∀ k s, (o.getitem k s).2 = s

/-- Reading the attribute works or raises `AttributeError`. -/
def Readable (o : Obj σ) (n : Nat) (s : σ) : Prop := ∀ e, (o.getattr n s).1 = .error e → e = .attribute

/-- The item can be read. -/
def HasItem (o : Obj σ) (k : Nat) (s : σ) : Prop := ∃ v, (o.getitem k s).1 = .ok v

/-- What the operation needs for the proxy to be transparent. -/
def Fine (c : Cfg σ) (s : σ) : Op → Prop
  | .getattr n => c.own n = false
  | .delattr n => c.own n = false
  | .setattr n v => c.own n = false ∧ Readable c.wrapped n s ∧ Readable c.wrapped n (c.wrapped.setattr n v s).2
  | .setitem k v => HasItem c.wrapped k s ∧
      ((c.wrapped.setitem k v s).1 = .ok () → HasItem c.wrapped k (c.wrapped.setitem k v s).2)
  | _ => True

/-- The value an attribute has, if any. -/
def attrOf (o : Obj σ) (n : Nat) (s : σ) : Option Nat := (o.getattr n s).1.toOption

/-- The value of an item, if any. -/
def itemOf (o : Obj σ) (k : Nat) (s : σ) : Option Nat := (o.getitem k s).1.toOption

/-- The documented events of an operation that takes the object from `s` to `s'`; `ok`: it did not
raise. -/
def documented (o : Obj σ) (s s' : σ) (ok : Bool) : Op → List Ev
  | .setattr n _ => if ok ∧ attrOf o n s ≠ attrOf o n s' then [.attributeSet n (attrOf o n s')] else []
  | .delattr n => if ok then [.attributeDeleted n] else []
  | .setitem k _ => match itemOf o k s' with
    | some v => if ok ∧ itemOf o k s ≠ some v then [.itemSet k v] else []
    | none => []
  | .delitem k => if ok then [.itemDeleted k] else []
  | .inplace p v => [.inPlace p v]
  | .call a => [.called a]
  | _ => []

/-- Whether something has been returned instead of raised. -/
def isOk {α : Type} : Except Err α → Bool
  | .ok _ => true
  | .error _ => false

theorem map_fst {τ α β : Type} (f : α → β) (m : M τ α) (s : τ) : (f <$> m) s = (match (m s).1 with | .ok a => .ok (f a) | .error e => .error e, (m s).2) := by
  show M.bind m (fun a => M.pure (f a)) s = _
  unfold M.bind
  rcases m s with ⟨_ | _, _⟩ <;> rfl

theorem bind_def {τ α β : Type} (m : M τ α) (f : α → M τ β) (s : τ) : (m >>= f) s = (match m s with | (.ok a, s') => f a s' | (.error e, s') => (.error e, s')) := rfl

theorem getD_eq (c : Cfg σ) (hr : Reads c.wrapped) {n : Nat} (hn : c.own n = false) {s : St σ}
    (h : Readable c.wrapped n s.obj) : getD c n s = (.ok (attrOf c.wrapped n s.obj), s) := by
  have h2 := hr.attr n s.obj
  unfold Readable at h
  unfold getD attrOf fwd
  rw [if_neg (by simp [hn])]
  rcases hg : c.wrapped.getattr n s.obj with ⟨e | v, s'⟩ <;> rw [hg] at h h2 <;> cases h2
  · cases h e rfl; rfl
  · rfl

/-- **C43**, one operation: with listeners that do not raise, an operation through the proxy returns
or raises what it does on the object itself, changes the object in the same way, and emits the
documented events.  Missing: setting an item that does not exist yet (`C43_new_item_refuted`),
attributes whose getter raises (`C43_getter_refuted`), names of the proxy (`C43_own_name_refuted`). -/
theorem C43_partial (c : Cfg σ) (hr : Reads c.wrapped) (hq : ∀ e, c.raises e = false) (s : St σ) (op : Op)
    (hf : Fine c s.obj op) :
    (step c op s).1 = (direct c.wrapped op s.obj).1 ∧
    (step c op s).2.obj = (direct c.wrapped op s.obj).2 ∧
    (step c op s).2.log = s.log ++ documented c.wrapped s.obj (direct c.wrapped op s.obj).2
      (isOk (direct c.wrapped op s.obj).1) op := by
  cases op with
  | getattr n =>
    have hf : c.own n = false := hf
    simp only [step, direct, map_fst, getattr, hf, documented, List.append_nil]
    exact ⟨rfl, rfl, rfl⟩
  | getitem k =>
    simp only [step, direct, map_fst, documented, List.append_nil]
    exact ⟨rfl, rfl, rfl⟩
  | setattr n v =>
    obtain ⟨hn, h1, h2⟩ := hf
    simp only [step, direct, map_fst, setattr, bind_def, getD_eq c hr hn h1, superSet, hn, fwd, documented,
      Bool.false_eq_true, if_false]
    rcases hs : c.wrapped.setattr n v s.obj with ⟨e | u, s'⟩
    · simp [isOk]
    · rw [hs] at h2
      simp only [getD_eq (s := ⟨s', s.log⟩) c hr hn h2]
      by_cases he : attrOf c.wrapped n s.obj = attrOf c.wrapped n s'
      · simp [he]
      · simp [he, emit, hq, isOk]
  | delattr n =>
    have hn : c.own n = false := hf
    simp only [step, direct, map_fst, delattr, bind_def, superDel, hn, fwd, documented, Bool.false_eq_true, if_false]
    rcases hs : c.wrapped.delattr n s.obj with ⟨e | u, s'⟩
    · simp [isOk]
    · simp [emit, hq, isOk]
  | setitem k v =>
    obtain ⟨⟨x, h1⟩, h2⟩ := hf
    have h1' := hr.item k s.obj
    simp only [step, direct, map_fst, setitem, bind_def, fwd, documented, itemOf]
    rcases hg : c.wrapped.getitem k s.obj with ⟨_, _⟩
    rw [hg] at h1 h1'
    cases h1; cases h1'
    simp only
    rcases hs : c.wrapped.setitem k v s.obj with ⟨e | u, s'⟩
    · simp [isOk]
      split <;> rfl
    · rw [hs] at h2
      obtain ⟨y, h3⟩ := h2 rfl
      have h3' := hr.item k s'
      simp only at h3
      simp only
      rcases hg' : c.wrapped.getitem k s' with ⟨_, _⟩
      rw [hg'] at h3 h3'
      cases h3; cases h3'
      by_cases he : x = y
      · subst he; simp [Except.toOption]
      · simp [he, emit, hq, isOk, Except.toOption]
  | delitem k =>
    simp only [step, direct, map_fst, delitem, bind_def, fwd, documented]
    rcases hs : c.wrapped.delitem k s.obj with ⟨e | u, s'⟩
    · simp [isOk]
    · simp [emit, hq, isOk]
  | inplace p v =>
    simp only [step, direct, map_fst, inplace, bind_def, fwd, documented, emit, hq, Bool.false_eq_true, if_false]
    exact ⟨trivial, trivial, trivial⟩
  | call a =>
    simp only [step, direct, map_fst, call, bind_def, fwd, documented, emit, hq, Bool.false_eq_true, if_false]
    exact ⟨trivial, trivial, trivial⟩

/-- Every operation of the sequence is fine where it happens. -/
def FineRun (c : Cfg σ) : σ → List Op → Prop
  | _, [] => True
  | s, op :: l => Fine c s op ∧ FineRun c (direct c.wrapped op s).2 l

/-- The documented events of a sequence of operations on the object itself. -/
def documentedRun (o : Obj σ) : σ → List Op → List Ev
  | _, [] => []
  | s, op :: l => documented o s (direct o op s).2 (isOk (direct o op s).1) op ++ documentedRun o (direct o op s).2 l

/-- **C43** for any sequence of operations. -/
theorem C43_run_partial (c : Cfg σ) (hr : Reads c.wrapped) (hq : ∀ e, c.raises e = false) (ops : List Op) (s : St σ)
    (hf : FineRun c s.obj ops) :
    (runAll (step c) ops s).1 = (runAll (direct c.wrapped) ops s.obj).1 ∧
    (runAll (step c) ops s).2.obj = (runAll (direct c.wrapped) ops s.obj).2 ∧
    (runAll (step c) ops s).2.log = s.log ++ documentedRun c.wrapped s.obj ops := by
  induction ops generalizing s with
  | nil => exact ⟨rfl, rfl, (List.append_nil _).symm⟩
  | cons op l ih =>
    obtain ⟨h1, h2, h3⟩ := C43_partial c hr hq s op hf.1
    have hf2 : FineRun c (step c op s).2.obj l := by rw [h2]; exact hf.2
    obtain ⟨i1, i2, i3⟩ := ih _ hf2
    rw [h2] at i1 i2 i3
    refine ⟨?_, i2, ?_⟩
    · show (step c op s).1 :: _ = (direct c.wrapped op s.obj).1 :: _
      rw [h1, i1]
    · show (runAll (step c) l (step c op s).2).2.log = _
      rw [i3, h3, List.append_assoc]
      rfl

/-- **C43**: what listeners do does not matter for the object, except for in-place operators and
calls. -/
theorem C43_listeners (c : Cfg σ) (raises : Ev → Bool) (s : St σ) (op : Op)
    (hop : ∀ p v a, op ≠ .inplace p v ∧ op ≠ .call a) :
    (step { c with raises := raises } op s).2.obj = (step c op s).2.obj ∧
    (step { c with raises := raises } op s).2.log = (step c op s).2.log := by
  have hemit : ∀ (c : Cfg σ) e s, (emit c e s).2 = { s with log := s.log ++ [e] } := fun _ _ _ => rfl
  have hget : ∀ n s, getD { c with raises := raises } n s = getD c n s := fun _ _ => rfl
  have hset : ∀ n v, superSet { c with raises := raises } n v = superSet c n v := fun _ _ => rfl
  have hdel : ∀ n, superDel { c with raises := raises } n = superDel c n := fun _ => rfl
  cases op with
  | getattr n => exact ⟨rfl, rfl⟩
  | getitem n => exact ⟨rfl, rfl⟩
  | setattr n v =>
    simp only [step, map_fst, setattr, bind_def, hget, hset]
    rcases getD c n s with ⟨e | b, s1⟩
    · exact ⟨rfl, rfl⟩
    · simp only
      rcases superSet c n v s1 with ⟨e | u, s2⟩
      · exact ⟨rfl, rfl⟩
      · simp only
        rcases getD c n s2 with ⟨e | a, s3⟩
        · exact ⟨rfl, rfl⟩
        · simp only
          split <;> exact ⟨rfl, rfl⟩
  | delattr n =>
    simp only [step, map_fst, delattr, bind_def, hdel]
    rcases superDel c n s with ⟨e | b, s1⟩ <;> exact ⟨rfl, rfl⟩
  | setitem k v =>
    simp only [step, map_fst, setitem, bind_def]
    rcases fwd (c.wrapped.getitem k) s with ⟨e | b, s1⟩
    · exact ⟨rfl, rfl⟩
    · simp only
      rcases fwd (c.wrapped.setitem k v) s1 with ⟨e | u, s2⟩
      · exact ⟨rfl, rfl⟩
      · simp only
        rcases fwd (c.wrapped.getitem k) s2 with ⟨e | a, s3⟩
        · exact ⟨rfl, rfl⟩
        · simp only
          split <;> exact ⟨rfl, rfl⟩
  | delitem k =>
    simp only [step, map_fst, delitem, bind_def]
    rcases fwd (c.wrapped.delitem k) s with ⟨e | b, s1⟩ <;> exact ⟨rfl, rfl⟩
  | inplace p v => exact absurd rfl (hop p v 0).1
  | call a => exact absurd rfl (hop 0 0 a).2

/-! Example: an object with a dict for its items and one for its attributes, as lists of pairs; the
in-place operators add to attribute 0; calls fail. -/

abbrev Ex.D := List (Nat × Nat)

def Ex.look (d : Ex.D) (k : Nat) (e : Err) : Except Err Nat :=
  match d.find? (·.1 = k) with | some p => .ok p.2 | none => .error e

def Ex.put (d : Ex.D) (k v : Nat) : Ex.D := (k, v) :: d.filter (·.1 ≠ k)

def Ex.obj : Obj (Ex.D × Ex.D) where
  getattr n s := (Ex.look s.1 n .attribute, s)
  setattr n v s := (.ok (), (Ex.put s.1 n v, s.2))
  delattr n s := if (s.1.find? (·.1 = n)).isSome then (.ok (), (s.1.filter (·.1 ≠ n), s.2)) else (.error .attribute, s)
  getitem k s := (Ex.look s.2 k .key, s)
  setitem k v s := (.ok (), (s.1, Ex.put s.2 k v))
  delitem k s := if (s.2.find? (·.1 = k)).isSome then (.ok (), (s.1, s.2.filter (·.1 ≠ k))) else (.error .key, s)
  inplace _ v s := (.ok (), (Ex.put s.1 0 v, s.2))
  call _ s := (.error .type, s)

def Ex.cfg : Cfg (Ex.D × Ex.D) := ⟨Ex.obj, fun n => n = 99, fun _ => false⟩

theorem Ex.reads : Reads Ex.obj := ⟨fun _ _ => rfl, fun _ _ => rfl⟩

def Ex.ops : List Op := [.setattr 1 5, .setattr 1 5, .delattr 1, .delattr 1, .setitem 2 7, .delitem 2, .delitem 2, .inplace 0 3, .call 4]

example : FineRun Ex.cfg ([], [(2, 6)]) Ex.ops := by
  simp only [Ex.ops, FineRun, Fine, Readable, HasItem, Ex.cfg, direct, map_fst, and_true]
  refine ⟨⟨by decide, ?_, ?_⟩, ⟨by decide, ?_, ?_⟩, by decide, by decide, ⟨6, by rfl⟩, fun _ => ⟨7, by rfl⟩⟩
  · intro e h; exact (Except.error.inj h).symm
  · intro e h; cases h
  · intro e h; cases h
  · intro e h; cases h

example : documentedRun Ex.obj ([], [(2, 6)]) Ex.ops =
    [.attributeSet 1 (some 5), .attributeDeleted 1, .itemSet 2 7, .itemDeleted 2, .inPlace 0 3, .called 4] := by decide

/-- Setting an item that does not exist yet fails through the proxy and works on the object itself
(`_evented_proxy.py:92`): no new key can be put into a wrapped dict. -/
theorem C43_new_item_refuted : ∃ (c : Cfg (Ex.D × Ex.D)) (s : St (Ex.D × Ex.D)), Reads c.wrapped ∧
    (∀ e, c.raises e = false) ∧
    (direct c.wrapped (.setitem 2 7) s.obj).1 = .ok none ∧ itemOf c.wrapped 2 (direct c.wrapped (.setitem 2 7) s.obj).2 = some 7 ∧
    (step c (.setitem 2 7) s).1 = .error .key ∧ itemOf c.wrapped 2 (step c (.setitem 2 7) s).2.obj = none :=
  ⟨Ex.cfg, ⟨([], []), []⟩, Ex.reads, fun _ => rfl, by decide, by decide, by decide, by decide⟩

/-- An attribute whose getter raises cannot be set through the proxy (`_evented_proxy.py:82`). -/
theorem C43_getter_refuted : ∃ (c : Cfg (Ex.D × Ex.D)) (s : St (Ex.D × Ex.D)), Reads c.wrapped ∧
    (∀ e, c.raises e = false) ∧ (direct c.wrapped (.setattr 1 7) s.obj).1 = .ok none ∧
    (step c (.setattr 1 7) s).1 = .error .runtime :=
  ⟨{ Ex.cfg with wrapped := { Ex.obj with getattr := fun _ s => (.error .runtime, s) } }, ⟨([], []), []⟩,
    ⟨fun _ _ => rfl, fun _ _ => rfl⟩, fun _ => rfl, by decide, by decide⟩

/-- An attribute called `events` (here 99) of the wrapped object cannot be read through the proxy. -/
theorem C43_own_name_refuted : ∃ (c : Cfg (Ex.D × Ex.D)) (s : St (Ex.D × Ex.D)), Reads c.wrapped ∧
    (direct c.wrapped (.getattr 99) s.obj).1 = .ok (some 7) ∧ (step c (.getattr 99) s).1 ≠ .ok (some 7) :=
  ⟨Ex.cfg, ⟨([(99, 7)], []), []⟩, Ex.reads, by decide, by decide⟩

/-- A listener of `in_place` that raises prevents the operation, and one that does not raise has been
told of an operation that may fail (`_evented_proxy.py:107-158,206`). -/
theorem C43_in_place_refuted : ∃ (c : Cfg (Ex.D × Ex.D)) (s : St (Ex.D × Ex.D)), Reads c.wrapped ∧
    attrOf c.wrapped 0 (direct c.wrapped (.inplace 0 7) s.obj).2 = some 7 ∧
    attrOf c.wrapped 0 (step c (.inplace 0 7) s).2.obj = none :=
  ⟨{ Ex.cfg with raises := fun _ => true }, ⟨([], []), []⟩, Ex.reads, by decide, by decide⟩

end Psygnal.Proxy
