import Verif.SlotLemmas
import Verif.Examples

/-!
# Properties of connections: C01, C02, C03
-/
namespace Psygnal

/-! ## C01: callbacks are kept in priority order -/

/-- **C01.** At every moment of every execution (any procedure `t` about to run in world `w`, at top
level or nested in callbacks to any depth) the slots of every signal are ordered by decreasing
priority, and by connection order among equal priorities. -/
theorem C01_slots_ordered {env : Env} {t : Task} {w : World} (h : Live env anyAct t w) (s : SigId) :
    (w.sig s).slots.Pairwise SlotBefore :=
  (orderInv_live h s).1

/-- The moment at which each `connect` happens is what `serial` records: a slot connected now gets a
number larger than those of all connected slots of all signals. -/
theorem C01_serial_is_connection_order {env : Env} {t : Task} {w : World} (h : Live env anyAct t w)
    (s s' : SigId) (c : Callable) (o : ConnOpts) (hr : (env.decl s).isRelay = false)
    (hu : o.unique = .no) (hok : ((Act.connect s c o).run env w).2 = .ok .unit) :
    ∃ x ∈ (((Act.connect s c o).run env w).1.sig s).slots, x.base = c.base ∧
      x.priority = o.priority ∧ ∀ y ∈ (w.sig s').slots, y.serial < x.serial := by
  have hi := orderInv_live h
  simp only [Act.run, World.connect, hu, ne_eq, not_true_eq_false, false_and, if_false] at hok ⊢
  revert hok
  split
  · intro h; simp at h
  split
  · intro h; simp at h
  · intro _
    simp only [World.appendSlot, hr, Bool.false_eq_true, false_and, if_false, plainAppend_same]
    obtain ⟨l₁, l₂, -, h2⟩ := appendSlot_split (w.sig s)
      { base := c.base, bound := c.boundFor, maxArgs := ‹_›, priority := o.priority,
        thread := resolveThread w o.thread, serial := w.nextSerial }
    rw [h2]
    exact ⟨_, List.mem_append_right _ (List.mem_cons_self ..), rfl, rfl, fun y hy => (hi s').2.1 y hy⟩

/-- Concrete case: four callbacks connected with priorities 0, 5, -1, 5. -/
example : ∃ w, Reachable Ex.quiet anyAct w ∧
    (w.sig 0).slots.map (fun x => (x.base, x.priority)) =
      [(.func 1, 5), (.func 3, 5), (.func 0, 0), (.func 2, -1)] :=
  ⟨_, Ex.reach (n := 9) (l := [Ex.conn 0 (.func 0), Ex.conn 0 (.func 1) 5, Ex.conn 0 (.func 2) (-1),
    Ex.conn 0 (.func 3) 5]) (fun _ _ => trivial) rfl, rfl⟩

/-! ## C02: an ordered multiset of callbacks -/

/-- **C02** (connect). A successful `connect` adds exactly one slot, calling the given callable with
the given priority, keeps all others in their order, and touches no other signal. -/
theorem C02_connect_adds_one {env : Env} {w w' : World} {s : SigId} {c : Callable} {o : ConnOpts}
    {v : Resp} (hr : (env.decl s).isRelay = false)
    (h : (Act.connect s c o).run env w = (w', .ok v))
    (hn : o.unique ≠ .no → ∀ x ∈ (w.sig s).slots, x.base ≠ c.base) :
    (∃ l₁ x l₂, (w.sig s).slots = l₁ ++ l₂ ∧ (w'.sig s).slots = l₁ ++ x :: l₂ ∧ x.base = c.base ∧
      x.priority = o.priority) ∧
    ∀ t, t ≠ s → (w'.sig t).slots = (w.sig t).slots := by
  simp only [Act.run, World.connect] at h
  split at h
  · simp at h
  split at h
  · rename_i hc
    have := slotIndex_none.2 (hn hc.1)
    simp [this] at hc
  · split at h
    · simp at h
    · simp only [World.appendSlot, hr, Bool.false_eq_true, false_and, if_false, Prod.mk.injEq] at h
      obtain ⟨rfl, -⟩ := h
      refine ⟨?_, fun t ht => by rw [plainAppend_ne _ _ _ _ ht]⟩
      obtain ⟨l₁, l₂, h1, h2⟩ := appendSlot_split (w.sig s)
        { base := c.base, bound := c.boundFor, maxArgs := ‹_›, priority := o.priority,
          thread := resolveThread w o.thread, serial := w.nextSerial }
      exact ⟨l₁, _, l₂, h1, by rw [plainAppend_same, h2], rfl, rfl⟩

/-- **C02** (refused connect). A `connect` that raises changes nothing at all. -/
theorem C02_connect_error_changes_nothing {env : Env} {w w' : World} {s : SigId} {c : Callable}
    {o : ConnOpts} {e : Exc} (hd : c.base.isDead w = false)
    (h : (Act.connect s c o).run env w = (w', .error e)) : w' = w ∧ e = .valueError := by
  simp only [Act.run, World.connect, checkNargs] at h
  grind

/-- **C02** (`in`). `f in sig` is true iff an occurrence of `f` is connected; it changes nothing. -/
theorem C02_contains (env : Env) (w : World) (s : SigId) (c : Callable) :
    ∃ b, (Act.contains s c).run env w = (w, .ok (.bool b)) ∧
      (b = true ↔ ∃ x ∈ (w.sig s).slots, x.base = c.base) := by
  refine ⟨_, rfl, ?_⟩
  have h := @slotIndex_none c.base (w.sig s).slots
  cases hi : slotIndex c.base (w.sig s).slots with
  | none =>
    rw [hi] at h
    simp only [Option.isSome_none, Bool.false_eq_true, false_iff, not_exists, not_and]
    exact h.1 rfl
  | some i =>
    obtain ⟨l₁, x, l₂, h1, h2, -⟩ := slotIndex_some hi
    simp only [Option.isSome_some, true_iff]
    exact ⟨x, by simp [h1], h2⟩

/-- **C02** (`len`). -/
theorem C02_len (env : Env) (w : World) (s : SigId) :
    (Act.len s).run env w = (w, .ok (.nat (w.sig s).slots.length)) := rfl

/-- **C02** (disconnect, present). `disconnect(f)` of a connected `f` removes exactly the first
occurrence of `f`, keeps all others in order, touches no other signal and succeeds. -/
theorem C02_disconnect_removes_first {env : Env} {w : World} {s : SigId} {c : Callable} {m : Bool}
    (hr : (env.decl s).isRelay = false) (hp : ∃ x ∈ (w.sig s).slots, x.base = c.base) :
    ∃ w' l₁ x l₂, (Act.disconnect s (some c) m).run env w = (w', .ok .unit) ∧
      (w.sig s).slots = l₁ ++ x :: l₂ ∧ (w'.sig s).slots = l₁ ++ l₂ ∧ x.base = c.base ∧
      (∀ y ∈ l₁, y.base ≠ c.base) ∧ ∀ t, t ≠ s → w'.sig t = w.sig t := by
  cases hi : slotIndex c.base (w.sig s).slots with
  | none => obtain ⟨x, hx, hx'⟩ := hp; exact absurd hx' (slotIndex_none.1 hi x hx)
  | some i =>
    obtain ⟨l₁, x, l₂, h1, h2, h3, h4⟩ := slotIndex_some hi
    refine ⟨w.setSlotsRemoved env s (popAt (w.sig s).slots i), l₁, x, l₂, ?_, h1, ?_, h2, h3, ?_⟩
    · simp only [Act.run, World.disconnect, hr, Bool.false_eq_true, if_false, World.disconnect1, hi]
    · simp [World.setSlotsRemoved, hr, h4]
    · intro t ht
      simp [World.setSlotsRemoved, hr, upd_sig_ne _ _ ht]

/-- **C02** (disconnect, absent). Nothing changes; `ValueError` iff `missing_ok=False`. -/
theorem C02_disconnect_absent {env : Env} {w : World} {s : SigId} {c : Callable} (m : Bool)
    (hr : (env.decl s).isRelay = false) (hp : ∀ x ∈ (w.sig s).slots, x.base ≠ c.base) :
    (Act.disconnect s (some c) m).run env w =
      (w, if m = true then .ok .unit else .error .valueError) := by
  simp only [Act.run, World.disconnect, hr, Bool.false_eq_true, if_false, World.disconnect1,
    slotIndex_none.2 hp]
  cases m <;> rfl

/-- **C02** (disconnect all). -/
theorem C02_disconnect_all {env : Env} {w : World} {s : SigId} (m : Bool)
    (hr : (env.decl s).isRelay = false) :
    ∃ w', (Act.disconnect s none m).run env w = (w', .ok .unit) ∧ (w'.sig s).slots = [] ∧
      ∀ t, t ≠ s → w'.sig t = w.sig t := by
  simp only [Act.run, World.disconnect, hr, Bool.false_eq_true, if_false, World.disconnect1]
  refine ⟨_, rfl, ?_, ?_⟩
  · simp [World.setSlotsRemoved, hr]
  · intro t ht
    simp [World.setSlotsRemoved, hr, upd_sig_ne _ _ ht]

/-- **C02** (`disconnect_setattr` / `disconnect_setitem`): like `disconnect` of that callback. -/
theorem C02_discard {env : Env} {w : World} {s : SigId} {b : Base} (m : Bool)
    (hr : (env.decl s).isRelay = false) :
    (Act.discard s b m).run env w = (Act.disconnect s (some ⟨b, []⟩) m).run env w := by
  simp only [Act.run, World.disconnect, hr, Bool.false_eq_true, if_false, World.disconnect1,
    World.discard]
  cases hi : slotIndex b (w.sig s).slots with
  | none => rw [removeKey_none.2 (slotIndex_none.1 hi)]
  | some i =>
    obtain ⟨l₁, x, l₂, h1, h2, h3, h4⟩ := slotIndex_some hi
    have : removeKey b (w.sig s).slots = some (l₁ ++ l₂) := by
      rw [h1]
      clear h1 h4
      induction l₁ with
      | nil => simp [removeKey, h2]
      | cons y l ih =>
        have hy : y.base ≠ b := h3 y (by simp)
        simp only [List.cons_append, removeKey, hy, if_false]
        rw [ih (fun z hz => h3 z (by simp [hz]))]
        rfl
    rw [this]
    dsimp only
    rw [h4]

/-- Concrete case: one callback connected three times around another one, disconnected once. -/
example : ∃ w, Reachable Ex.quiet anyAct w ∧ (Ex.quiet.decl 0).isRelay = false ∧
    (w.sig 0).slots.map (·.base) = [.func 2, .func 7, .func 7] :=
  ⟨_, Ex.reach (n := 9) (l := [Ex.conn 0 (.func 7), Ex.conn 0 (.func 2), Ex.conn 0 (.func 7),
    Ex.conn 0 (.func 7), .disconnect 0 (some ⟨.func 7, []⟩) false]) (fun _ _ => trivial) rfl, rfl, rfl⟩

/-! ## C03: unique connections -/

/-- API calls in which every connection to `s` is `unique`. -/
def UniqueOn (s : SigId) : Act → Prop
  | .connect s' _ o => s' = s → o.unique ≠ .no
  | .connectRaw s' _ _ _ => s' ≠ s
  | _ => True

/-- **C03.** If all connections to `s` are made with `unique` (arbitrary otherwise, in particular for
other signals, groups containing `s`, deaths, disconnects), no callback is ever connected to `s`
twice, at any moment of any execution. -/
theorem C03_unique_never_duplicates {env : Env} {s : SigId} (he : env.Only (UniqueOn s)) {t : Task}
    {w : World} (h : Live env (UniqueOn s) t w) : ((w.sig s).slots.map (·.base)).Nodup := by
  have key : ∀ (w : World) (s' : SigId) (x : Slot), (s' = s → ∀ y ∈ (w.sig s).slots, y.base ≠ x.base) →
      ((w.sig s).slots.map (·.base)).Nodup → (((w.plainAppend s' x).sig s).slots.map (·.base)).Nodup := by
    intro w s' x hx hj
    by_cases hs : s = s'
    · subst hs
      rw [plainAppend_same]
      obtain ⟨l₁, l₂, h1, h2⟩ := appendSlot_split (w.sig s) { x with serial := w.nextSerial }
      rw [h2]
      rw [h1] at hj hx
      have hx := hx rfl
      have hp : ((l₁ ++ { x with serial := w.nextSerial } :: l₂).map (·.base)).Perm
          (x.base :: (l₁ ++ l₂).map (·.base)) := by
        simp
      rw [hp.nodup_iff, List.nodup_cons]
      refine ⟨?_, hj⟩
      intro hm
      obtain ⟨y, hy, hy'⟩ := List.mem_map.1 hm
      exact hx y hy hy'
    · rw [plainAppend_ne _ _ _ _ hs]; exact hj
  refine (conn_live (fun w => ((w.sig s).slots.map (·.base)).Nodup) (by simp [World.init, SigState.init])
    (fun w a ha => ?_) (fun w w' he hj => by rw [he.1 s]; exact hj) he h).2
  refine run_preserves' (J := fun w => ((w.sig s).slots.map fun x => x.base).Nodup) a w
    (fun w w' hs hj => List.Nodup.sublist ((hs.slots s).map fun x => x.base) hj) ?_ ?_ ?_
  · intro w r c hn hj
    refine key w c _ (fun hc y hy => ?_) hj
    subst hc
    exact slotIndex_none.1 hn y hy
  · intro s' c o m hc _ hn _ hj
    subst hc
    refine key w s' _ (fun hs y hy => ?_) hj
    subst hs
    have hu : o.unique ≠ .no := ha rfl
    simp only [hu, ne_eq, not_false_eq_true, true_and, Bool.not_eq_true, Option.isSome_eq_false_iff,
      Option.isNone_iff_eq_none] at hn
    exact slotIndex_none.1 hn y hy
  · intro s' b m p hc _ hj
    subst hc
    exact key w s' _ (fun hs => absurd hs ha) hj

/-- **C03** (refusal). With `unique`, connecting a callback that is already connected changes nothing
and raises iff `unique='raise'`. -/
theorem C03_unique_refuses {env : Env} {w : World} {s : SigId} {c : Callable} {o : ConnOpts}
    (hd : c.base.isDead w = false) (hu : o.unique ≠ .no)
    (hp : ∃ x ∈ (w.sig s).slots, x.base = c.base) :
    (Act.connect s c o).run env w =
      (w, if o.unique = .orRaise then .error .valueError else .ok .unit) := by
  have : (slotIndex c.base (w.sig s).slots).isSome := by
    cases hi : slotIndex c.base (w.sig s).slots with
    | none => obtain ⟨x, hx, hx'⟩ := hp; exact absurd hx' (slotIndex_none.1 hi x hx)
    | some i => rfl
  simp only [Act.run, hd, Bool.false_eq_true, if_false, World.connect, this, hu, ne_eq, not_false_eq_true, and_true, if_true]
  split <;> rfl

/-- **C03** (acceptance). `unique` never refuses a callback that is not connected: with argument
checking off the connect succeeds (and by `C02_connect_adds_one` adds the callback). -/
theorem C03_unique_accepts {env : Env} {w : World} {s : SigId} {c : Callable} {o : ConnOpts}
    (hd : c.base.isDead w = false) (hc : o.checkNargs = some false) (hp : ∀ x ∈ (w.sig s).slots, x.base ≠ c.base) :
    ((Act.connect s c o).run env w).2 = .ok .unit := by
  simp [Act.run, hd, World.connect, slotIndex_none.2 hp, hc]

/-- Concrete case: three unique connects of two callbacks, with a disconnect from inside a callback
(`func 1` disconnects itself when called). -/
example : ∃ env : Env, env.Only (UniqueOn 0) ∧ ∃ w, Reachable env (UniqueOn 0) w ∧
    (w.sig 0).slots.map (·.base) = [.func 0] ∧ w.log.length = 5 := by
  let e : Env := Ex.env fun b _ => match b with
    | .func 1 => Ex.seq [.disconnect 0 (some ⟨.func 1, []⟩) true]
    | _ => .ret
  refine ⟨e, ?_, _, Ex.reach (n := 20) (l := [.connect 0 ⟨.func 0, []⟩ { unique := .yes },
    .connect 0 ⟨.func 0, []⟩ { unique := .orRaise },
    .connect 0 ⟨.func 1, []⟩ { unique := .orRaise }, Ex.emit 0 7]) ?_ rfl, rfl, rfl⟩
  · intro b a
    simp only [e, Ex.env]
    split
    · exact Ex.Only.seq_mem (by simp [UniqueOn])
    · trivial
  · simp [UniqueOn, Ex.emit]

end Psygnal
