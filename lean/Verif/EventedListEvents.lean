import Verif.EventedListLemmas

/-!
# Events of `EventedList`: lemmas for C28
-/

namespace Psygnal.EL
open Psygnal.Py (M Err Key Slice)

variable {α : Type} {c : Cfg α} [c.Passive]

/-- `Eff d log d'`: starting from the contents `d`, the changes reported by `log` are exactly those that led to
`d'`, each with its events in the right order. -/
inductive Eff (d : List α) : List (Ev α × List α) → List α → Prop
  | refl : Eff d [] d
  | inserting {log d1} (i) : Eff d log d1 → Eff d (log ++ [(.inserting i, d1)]) d1
  | inserted {log d1} (i v) : Eff d log d1 →
      Eff d (log ++ [(.inserting i, d1)] ++ [(.inserted i v, Py.insert d1 i v)]) (Py.insert d1 i v)
  | removing {log d1} (i) : Eff d log d1 → Eff d (log ++ [(.removing i, d1)]) d1
  | removed {log d1 i v d2} : Eff d log d1 → Py.pop d1 i = .ok (v, d2) →
      Eff d (log ++ [(.removing i, d1)] ++ [(.removed i v, d2)]) d2
  | moving {log d1} (a b) : Eff d log d1 → Eff d (log ++ [(.moving a b, d1)]) d1
  | moved {log d1 a b v d2} : Eff d log d1 → Py.pop d1 a = .ok (v, d2) →
      Eff d (log ++ [(.moving a b, d1)] ++ [(.moved a (if b > a then b - 1 else b) v,
        Py.insert d2 (if b > a then b - 1 else b) v)]) (Py.insert d2 (if b > a then b - 1 else b) v)
  | changed {log d1 i old x d2} : Eff d log d1 → Py.getItem d1 i = .ok old → Py.setItem d1 i x = .ok d2 →
      Eff d (log ++ [(.changed i old x, d2)]) d2
  | changedSlice {log d1 k old xs d2} : Eff d log d1 → Py.getSlice d1 k = .ok old → Py.setSlice d1 k xs = .ok d2 →
      Eff d (log ++ [(.changedSlice k old xs, d2)]) d2
  | reordered {log d1 d2} : Eff d log d1 → d2.Perm d1 → Eff d (log ++ [(.reordered, d2)]) d2
  | child {log d1} (i x g args) : Eff d log d1 → Eff d (log ++ [(.childEvent i x g args, d1)]) d1

/-- The part of the log after `n` entries tells how `d` became the current contents. -/
def Told (d : List α) (b : Bool) (s : St α) : Prop := Eff d s.log s.data ∧ s.blocked = b

theorem emit_cases (e : Ev α) (s : St α) :
    emit c e s = (.ok (), { s with log := s.log ++ [(e, s.data)] }) ∨
    emit c e s = (.error .emitLoop, { s with log := s.log ++ [(e, s.data)] }) := by
  simp only [emit, Cfg.Passive.react (c := c), Cfg.Passive.early (c := c), if_true, M.pure_app]
  split
  · exact .inr rfl
  · exact .inl rfl

omit [c.Passive] in
/-- `connect` and `disconnect` of children do not touch list and log. -/
theorem postInsert_state (x : α) (s : St α) :
    (postInsert c x s).2.data = s.data ∧ (postInsert c x s).2.log = s.log ∧
    (postInsert c x s).2.blocked = s.blocked := by
  simp only [postInsert]
  split <;> exact ⟨rfl, rfl, rfl⟩

omit [c.Passive] in
theorem preRemove_state (i : Int) (s : St α) :
    (preRemove c i s).2.data = s.data ∧ (preRemove c i s).2.log = s.log ∧
    (preRemove c i s).2.blocked = s.blocked := by
  simp only [preRemove]
  split
  · simp only [M.bind_eq, M.bind_app, getItem_app]
    rcases Py.getItem s.data i with e | x <;> exact ⟨rfl, rfl, rfl⟩
  · exact ⟨rfl, rfl, rfl⟩

theorem told_of {d : List α} {b : Bool} {s s' : St α} (h : Told d b s)
    (e : s'.data = s.data ∧ s'.log = s.log ∧ s'.blocked = s.blocked) : Told d b s' := by
  obtain ⟨h1, h2⟩ := h
  exact ⟨by rw [e.1, e.2.1]; exact h1, by rw [e.2.2]; exact h2⟩

theorem insert_told {d : List α} {b : Bool} (i : Int) (x : α) : M.Keeps (Told d b) (insert c i x) := by
  intro s hs
  simp only [insert, M.bind_eq, M.bind_app]
  rcases emit_cases (c := c) (.inserting i) s with h | h
  · simp only [h, M.get_app, setData, M.modify_app]
    have key : Told d b { s with data := Py.insert s.data i x, log := (s.log ++ [(.inserting i, s.data)]) ++
        [(.inserted i x, Py.insert s.data i x)] } := ⟨.inserted i x hs.1, hs.2⟩
    rcases emit_cases (c := c) (.inserted i x)
      { s with data := Py.insert s.data i x, log := s.log ++ [(.inserting i, s.data)] } with h | h
    · rw [h]
      exact told_of key (postInsert_state x _)
    · rw [h]
      exact key
  · rw [h]
    exact ⟨.inserting i hs.1, hs.2⟩

theorem delOne_told {d : List α} {b : Bool} (i : Int) : M.Keeps (Told d b) (delOne c i) := by
  intro s hs
  simp only [delOne, M.bind_eq, M.bind_app]
  have k1 : Told d b { s with log := s.log ++ [(.removing i, s.data)] } := ⟨.removing i hs.1, hs.2⟩
  rcases emit_cases (c := c) (.removing i) s with h | h
  · rw [h]
    have hp := preRemove_state (c := c) i { s with log := s.log ++ [(.removing i, s.data)] }
    rcases hr : preRemove c i { s with log := s.log ++ [(.removing i, s.data)] } with ⟨_ | ⟨⟩, s1⟩
    · rw [hr] at hp
      simp only [hr]
      exact told_of k1 hp
    · rw [hr] at hp
      simp only [hr, M.get_app, M.ofExcept_app]
      obtain ⟨p1, p2, p3⟩ := hp
      simp only at p1 p2 p3
      rcases hpop : Py.pop s1.data i with e | ⟨v, d2⟩
      · exact told_of k1 ⟨p1, p2, p3⟩
      · simp only [setData, M.modify_app]
        rw [emit_state]
        rw [p1] at hpop
        refine ⟨?_, p3.trans hs.2⟩
        simp only [p2]
        exact .removed hs.1 hpop
  · rw [h]
    exact k1

theorem delItem_told {d : List α} {b : Bool} (k : Key) : M.Keeps (Told d b) (delItem c k) :=
  M.Keeps.get.seq fun _ => (M.Keeps.ofExcept _).seq fun _ => M.Keeps.forEach _ fun _ => delOne_told _

theorem append_told {d : List α} {b : Bool} (x : α) : M.Keeps (Told d b) (append c x) :=
  M.Keeps.get.seq fun _ => insert_told _ _

theorem extend_told {d : List α} {b : Bool} (xs : List α) : M.Keeps (Told d b) (extend c xs) :=
  M.Keeps.forEach _ fun _ => append_told _

omit [c.Passive] in
theorem getItem_told {d : List α} {b : Bool} (i : Int) : M.Keeps (Told d b) (getItem c i) :=
  M.Keeps.get.seq fun _ => (M.Keeps.ofExcept _).seq fun _ => M.Keeps.pure' _

omit [c.Passive] in
theorem getKey_told {d : List α} {b : Bool} (k : Key) : M.Keeps (Told d b) (getKey c k) := by
  refine M.Keeps.get.seq fun _ => ?_
  cases k with
  | int i | indexable i => exact (getItem_told i).seq fun _ => M.Keeps.pure' _
  | slice k => exact (M.Keeps.ofExcept _).seq fun _ => M.Keeps.pure' _
  | other => exact M.Keeps.raise _

theorem pop_told {d : List α} {b : Bool} (k : Key) : M.Keeps (Told d b) (pop c k) :=
  (getKey_told k).seq fun _ => (delItem_told k).seq fun _ => M.Keeps.pure' _

theorem clearLoop_told {d : List α} {b : Bool} (n : Nat) : M.Keeps (Told d b) (clearLoop c n) := by
  induction n with
  | zero => exact M.Keeps.pure' _
  | succ n ih =>
    intro s hs
    have := pop_told (c := c) (.int (-1)) s hs
    simp only [clearLoop]
    rcases hp : pop c (.int (-1)) s with ⟨e | r, s'⟩
    · rw [hp] at this
      cases e <;> exact this
    · rw [hp] at this
      exact ih s' this

theorem setItem_told [DecidableEq α] {d : List α} {b : Bool} (i : Int) (x : α) :
    M.Keeps (Told d b) (setItem c i x) := by
  intro s hs
  simp only [setItem, M.bind_eq, M.bind_app, M.get_app, M.ofExcept_app]
  rcases ho : Py.getItem s.data i with e | old
  · exact hs
  · simp only
    split
    · exact hs
    · rcases hd : Py.setItem s.data i x with e | d2
      · simp only [M.bind_app, M.ofExcept_app]
        exact hs
      · simp only [M.bind_app, M.ofExcept_app, setData, M.modify_app]
        rw [emit_state]
        exact ⟨.changed hs.1 ho hd, hs.2⟩

theorem setSlice_told {d : List α} {b : Bool} (k : Slice) (vs : Option (List α)) :
    M.Keeps (Told d b) (setSlice c k vs) := by
  intro s hs
  simp only [setSlice, M.bind_eq, M.bind_app, M.get_app, M.ofExcept_app]
  rcases ho : Py.getSlice s.data k with e | old
  · exact hs
  · cases vs with
    | none => exact hs
    | some vs =>
      rcases hd : Py.setSlice s.data k vs with e | d2
      · simp only [M.bind_app, M.ofExcept_app, hd]
        exact hs
      · simp only [M.bind_app, M.ofExcept_app, hd, setData, M.modify_app]
        rw [emit_state]
        exact ⟨.changedSlice hs.1 ho hd, hs.2⟩

theorem emitReordered_told {d : List α} {b : Bool} : M.Keeps (Told d b) (emitReordered c) := by
  intro s hs
  simp only [emitReordered]
  split
  · exact hs
  · rw [emit_state]
    exact ⟨.reordered hs.1 (.refl _), hs.2⟩

theorem swap_told [DecidableEq α] {d : List α} {b : Bool} (n i : Nat) : M.Keeps (Told d b) (swap c n i) :=
  (getItem_told _).seq fun _ => (getItem_told _).seq fun _ => (setItem_told _ _).seq fun _ => setItem_told _ _

theorem reverse_told [DecidableEq α] {d : List α} (ind : Bool) : M.Keeps (Told d false) (reverse c ind) := by
  cases ind
  · intro s hs
    simp only [reverse, M.bind_eq, M.bind_app, M.get_app, Bool.false_eq_true, if_false, setData, M.modify_app,
      emitReordered, hs.2]
    rw [emit_state]
    exact ⟨.reordered hs.1 (List.reverse_perm _), rfl⟩
  · simp only [reverse, if_true]
    exact M.Keeps.get.seq fun _ => (M.Keeps.forEach _ fun _ => swap_told _ _).seq fun _ => emitReordered_told

theorem move_told {d : List α} {b : Bool} (src dest : Int) : M.Keeps (Told d b) (move c src dest) := by
  intro s hs
  simp only [move, M.bind_eq, M.bind_app, M.get_app]
  generalize hd : (if dest < 0 then dest + ((s.data.length : Int) + 1) else dest) = e
  split
  · exact hs
  · simp only [M.bind_app]
    rcases emit_cases (c := c) (.moving src e) s with h | h
    · simp only [h, M.get_app, M.ofExcept_app]
      rcases hpop : Py.pop s.data src with e1 | ⟨v, d2⟩
      · exact ⟨.moving _ _ hs.1, hs.2⟩
      · simp only [setData, M.modify_app]
        generalize he : (if e > src then e - 1 else e) = e'
        have key : Told d b { s with data := Py.insert d2 e' v, log := (s.log ++ [(.moving src e, s.data)]) ++
            [(.moved src e' v, Py.insert d2 e' v)] } := by
          subst he
          exact ⟨.moved hs.1 hpop, hs.2⟩
        rcases emit_cases (c := c) (.moved src e' v)
          { s with data := Py.insert d2 e' v, log := s.log ++ [(.moving src e, s.data)] } with h | h
        · simp only [h]
          have := emitReordered_told (c := c) _ key
          rcases hr : emitReordered c { s with data := Py.insert d2 e' v, log := (s.log ++ [(.moving src e, s.data)]) ++
            [(.moved src e' v, Py.insert d2 e' v)] } with ⟨_ | ⟨⟩, s1⟩
          · rw [hr] at this
            exact this
          · rw [hr] at this
            exact this
        · simp only [h]
          exact key
    · simp only [h]
      exact ⟨.moving _ _ hs.1, hs.2⟩

theorem withBlocked_told {d : List α} {b : Bool} {m : M (St α) Unit} (h : M.Keeps (Told d true) m) :
    M.Keeps (Told d b) (withBlocked m) := by
  intro s hs
  exact ⟨(h { s with blocked := true } ⟨hs.1, rfl⟩).1, hs.2⟩

theorem moveMultiple_told {d : List α} {b : Bool} (ks : List Key) (dest : Int) :
    M.Keeps (Told d b) (moveMultiple c ks dest) :=
  M.Keeps.get.seq fun _ => (M.Keeps.ofExcept _).seq fun _ =>
    (withBlocked_told (M.Keeps.forEach _ fun _ => (move_told _ _).seq fun _ => M.Keeps.pure' _)).seq fun _ =>
      emitReordered_told.seq fun _ => M.Keeps.pure' _

omit [c.Passive] in
theorem index_state [DecidableEq α] (x : α) (a : Int) (b : Option Int) (s : St α) : (index c x a b s).2 = s := rfl

theorem reemit_told [DecidableEq α] {d : List α} {b : Bool} (g : Nat) (x : α) (m : ChildMsg) :
    M.Keeps (Told d b) (reemit c g x m) := by
  intro s hs
  have h0 := index_state (c := c) x 0 none s
  simp only [reemit]
  rcases hi : index c x 0 none s with ⟨e | i, s'⟩
  · rw [hi] at h0
    subst h0
    exact hs
  · rw [hi] at h0
    subst h0
    cases m <;> (simp only [emit_state]; exact ⟨.child _ _ _ _ hs.1, hs.2⟩)

theorem step_told [DecidableEq α] {d : List α} (op : Op α) : M.Keeps (Told d false) (step c op) := by
  cases op with
  | getItem k => exact (getKey_told k).seq fun _ => M.Keeps.pure' _
  | setItem i x => exact (setItem_told i x).seq fun _ => M.Keeps.pure' _
  | setSlice k vs => exact (setSlice_told k vs).seq fun _ => M.Keeps.pure' _
  | setOther => exact M.Keeps.raise _
  | delItem k => exact (delItem_told k).seq fun _ => M.Keeps.pure' _
  | insert i x => exact (insert_told i x).seq fun _ => M.Keeps.pure' _
  | append x => exact (append_told x).seq fun _ => M.Keeps.pure' _
  | extend xs => exact (extend_told xs).seq fun _ => M.Keeps.pure' _
  | extendSelf => exact (M.Keeps.get.seq fun _ => extend_told _).seq fun _ => M.Keeps.pure' _
  | pop k => exact (pop_told k).seq fun _ => M.Keeps.pure' _
  | remove x =>
    exact (M.Keeps.seq (fun _ h => h) fun i => delItem_told _ : M.Keeps _ (remove c x)).seq fun _ => M.Keeps.pure' _
  | clear => exact (M.Keeps.get.seq fun _ => clearLoop_told _).seq fun _ => M.Keeps.pure' _
  | reverse b => exact (reverse_told b).seq fun _ => M.Keeps.pure' _
  | len | contents | add xs | radd xs | contains x | count x => exact fun _ h => h
  | index x a b => exact M.Keeps.seq (fun _ h => h) fun _ => M.Keeps.pure' _
  | move a b => exact (move_told a b).seq fun _ => M.Keeps.pure' _
  | moveMultiple ks d => exact (moveMultiple_told ks d).seq fun _ => M.Keeps.pure' _
  | childEmit g x m =>
    exact (M.Keeps.get.seq fun _ => M.Keeps.forEach _ fun _ => reemit_told g x m).seq fun _ => M.Keeps.pure' _

theorem run_told [DecidableEq α] {d : List α} (ops : List (Op α)) {s : St α} (h : Told d false s) :
    Told d false (run c ops s).2 := by
  induction ops generalizing s with
  | nil => exact h
  | cons op ops ih => exact ih (step_told op s h)

/-! ## What the grammar of logs says -/

theorem replay_snoc (d : List α) (log : List (Ev α × List α)) (e : Ev α × List α) :
    replay d (log ++ [e]) = observe (replay d log) e := by
  simp [replay, List.foldl_append]

theorem snoc_split {β : Type} {l pre post : List β} {a e : β} (h : l ++ [a] = pre ++ e :: post) :
    (∃ post', post = post' ++ [a] ∧ l = pre ++ e :: post') ∨ (post = [] ∧ l = pre ∧ a = e) := by
  rcases List.eq_nil_or_concat post with rfl | ⟨post', b, rfl⟩ <;> simp only [List.concat_eq_append] at *
  · right
    have := List.append_inj' (h : l ++ [a] = pre ++ [e]) rfl
    exact ⟨trivial, this.1, by simpa using this.2⟩
  · left
    rw [← List.cons_append, ← List.append_assoc] at h
    have := List.append_inj' h rfl
    have h2 : a = b := by simpa using this.2
    subst h2
    exact ⟨post', rfl, this.1⟩

/-- Replaying the events from `d` gives `d'`, and after every single event what the list was then. -/
def Story (d : List α) (log : List (Ev α × List α)) (d' : List α) : Prop :=
  replay d log = d' ∧ ∀ pre e post, log = pre ++ e :: post → replay d (pre ++ [e]) = e.2

theorem Story.snoc {d d1 d2 : List α} {log : List (Ev α × List α)} {e : Ev α} (h : Story d log d1)
    (he : observe d1 (e, d2) = d2) : Story d (log ++ [(e, d2)]) d2 := by
  have h2 : replay d (log ++ [(e, d2)]) = d2 := by rw [replay_snoc, h.1, he]
  refine ⟨h2, ?_⟩
  intro pre e' post h3
  rcases snoc_split h3 with ⟨post', -, h4⟩ | ⟨-, h4, h5⟩
  · exact h.2 _ _ _ h4
  · subst h4 h5
    exact h2

theorem Eff.story {d d' : List α} {log : List (Ev α × List α)} (h : Eff d log d') : Story d log d' := by
  induction h with
  | refl => exact ⟨rfl, by intro pre e post h; simp at h⟩
  | inserting i _ ih | removing i _ ih | moving a b _ ih | child i x g args _ ih => exact ih.snoc rfl
  | inserted i v _ ih => exact (ih.snoc (e := .inserting i) rfl).snoc rfl
  | removed _ hp ih => exact (ih.snoc (e := .removing _) rfl).snoc (by simp [observe, hp])
  | moved _ hp ih => exact (ih.snoc (e := .moving _ _) rfl).snoc (by simp [observe, hp])
  | changed _ hg hs ih => exact ih.snoc (by simp [observe, hs])
  | changedSlice _ hg hs ih => exact ih.snoc (by simp [observe, hs])
  | reordered _ hp ih => exact ih.snoc rfl

/-- What must come right before an event `e` emitted with contents `d`: a change is announced by its `…ing` event,
with the contents before the change. -/
def Announced (e : Ev α) (d : List α) (before : List (Ev α × List α)) : Prop :=
  match e with
  | .inserted i v => ∃ before' d0, before = before' ++ [(.inserting i, d0)] ∧ d = Py.insert d0 i v
  | .removed i v => ∃ before' d0, before = before' ++ [(.removing i, d0)] ∧ Py.pop d0 i = .ok (v, d)
  | .moved a b v => ∃ before' b0 d0 d1, before = before' ++ [(.moving a b0, d0)] ∧ b = (if b0 > a then b0 - 1 else b0) ∧
      Py.pop d0 a = .ok (v, d1) ∧ d = Py.insert d1 b v
  | _ => True

theorem Eff.announced {d d' : List α} {log : List (Ev α × List α)} (h : Eff d log d') :
    ∀ pre e d1 post, log = pre ++ (e, d1) :: post → Announced e d1 pre := by
  have one : ∀ {log : List (Ev α × List α)} {e : Ev α} {d1 : List α},
      (∀ pre e d1 post, log = pre ++ (e, d1) :: post → Announced e d1 pre) → Announced e d1 log →
      ∀ pre e' d2 post, log ++ [(e, d1)] = pre ++ (e', d2) :: post → Announced e' d2 pre := by
    intro log e d1 h1 h2 pre e' d2 post h3
    rcases snoc_split h3 with ⟨post', -, h4⟩ | ⟨-, h4, h5⟩
    · exact h1 _ _ _ _ h4
    · subst h4
      cases h5
      exact h2
  induction h with
  | refl => intro pre e d1 post h; simp at h
  | inserting i _ ih | removing i _ ih | moving a b _ ih | child i x g args _ ih => exact one ih trivial
  | inserted i v _ ih => exact one (one ih (e := .inserting i) trivial) ⟨_, _, rfl, rfl⟩
  | removed _ hp ih => exact one (one ih (e := .removing _) trivial) ⟨_, _, rfl, hp⟩
  | moved _ hp ih => exact one (one ih (e := .moving _ _) trivial) ⟨_, _, _, _, rfl, rfl, hp, rfl⟩
  | changed _ hg hs ih | changedSlice _ hg hs ih => exact one ih trivial
  | reordered _ hp ih => exact one ih trivial

end Psygnal.EL
