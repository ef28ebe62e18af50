import Verif.Separate
import Verif.CoreInv

/-! # Lemmas for C81: separate sides do not notice each other -/
namespace Psygnal

@[simp] theorem bare_base (x : Slot) : x.bare.base = x.base := rfl
@[simp] theorem bare_prio (x : Slot) : x.bare.priority = x.priority := rfl
@[simp] theorem bare_thread (x : Slot) : x.bare.thread = x.thread := rfl
@[simp] theorem bare_bound (x : Slot) : x.bare.bound = x.bound := rfl
@[simp] theorem bare_max (x : Slot) : x.bare.maxArgs = x.maxArgs := rfl
@[simp] theorem bare_serial (x : Slot) (n : Nat) : ({ x with serial := n } : Slot).bare = x.bare := rfl

theorem insert_bare (x : Slot) : ∀ l : List Slot, (insertByPriority x l).map Slot.bare = insertByPriority x.bare (l.map Slot.bare)
  | [] => rfl
  | y :: l => by
    simp only [insertByPriority, List.map_cons, bare_prio]
    by_cases h : y.priority < x.priority
    · rw [if_pos h]; exact (if_pos h).symm
    · rw [if_neg h, List.map_cons, insert_bare x l]; exact (if_neg h).symm

theorem index_bare (b : Base) : ∀ l : List Slot, slotIndex b (l.map Slot.bare) = slotIndex b l
  | [] => rfl
  | y :: l => by simp only [slotIndex, List.map_cons, bare_base, index_bare b l]

theorem pop_bare : ∀ (l : List Slot) (n : Nat), (popAt l n).map Slot.bare = popAt (l.map Slot.bare) n
  | [], _ => rfl
  | _ :: _, 0 => rfl
  | y :: l, n + 1 => by simp only [popAt, List.map_cons, pop_bare l n]

theorem remove_bare (b : Base) : ∀ l : List Slot, removeKey b (l.map Slot.bare) = (removeKey b l).map (List.map Slot.bare)
  | [] => rfl
  | y :: l => by
    simp only [removeKey, List.map_cons, bare_base, remove_bare b l]
    split
    · rfl
    · cases removeKey b l <;> rfl

theorem erase_bare (b : Base) (l : List Slot) : (eraseSlot b l).map Slot.bare = eraseSlot b (l.map Slot.bare) := by
  simp only [eraseSlot, index_bare]
  split
  · exact pop_bare ..
  · rfl

theorem final_bare (o : ObjId) (l : List Slot) : (finalizeSlots o l).map Slot.bare = finalizeSlots o (l.map Slot.bare) := by
  have key : ∀ (xs l : List Slot), (xs.foldl (fun acc x => (removeKey x.base acc).getD acc) l).map Slot.bare
      = (xs.map Slot.bare).foldl (fun acc x => (removeKey x.base acc).getD acc) (l.map Slot.bare) := by
    intro xs
    induction xs with
    | nil => intro l; rfl
    | cons x xs ih =>
      intro l
      simp only [List.foldl_cons, List.map_cons, bare_base, remove_bare]
      rw [ih]
      congr 1
      cases removeKey x.base l <;> rfl
  rw [finalizeSlots, key, finalizeSlots, List.filter_map]
  rfl

theorem bare_slots {st st' : SigState} (h : st.bare = st'.bare) : st.slots.map Slot.bare = st'.slots.map Slot.bare :=
  congrArg SigState.slots h

theorem bare_eq_iff {st st' : SigState} : st.bare = st'.bare ↔ st.slots.map Slot.bare = st'.slots.map Slot.bare ∧ st.prioInUse = st'.prioInUse ∧
    st.blocked = st'.blocked ∧ st.paused = st'.paused ∧ st.argsQueue = st'.argsQueue ∧ st.emitQueue = st'.emitQueue ∧ st.depth = st'.depth ∧
    st.maxDepth = st'.maxDepth ∧ st.wasBlocked = st'.wasBlocked := by
  cases st; cases st'; simp [SigState.bare]

/-- What one side may rely on: callbacks are connected to signals of their side, no debug hook is set, and the current emitter is of this
side. -/
structure Side.Fine (d : Side) (w : World) : Prop where
  slots : ∀ s, ∀ x ∈ (w.sig s).slots, d.base x.base = d.sig s
  hook : w.hook = none
  emitter : ∀ e, w.emitter = some e → d.sig e = true

/-- The other side is as it was in `u`. -/
structure Side.Frame (d : Side) (u w : World) : Prop where
  sig : ∀ s, d.sig s = false → w.sig s = u.sig s
  dead : ∀ o, d.obj o = false → w.dead o = u.dead o
  mem : d.other.same w.mem u.mem
  tq : ∀ t, (w.tq t).filter (fun q => !d.base q.1.base) = (u.tq t).filter (fun q => !d.base q.1.base)
  log : w.log.filter (fun e => (d.see e).isNone) = u.log.filter (fun e => (d.see e).isNone)

/-- Two states that this side cannot tell apart, of which the other side is as in `u` and `u'`. -/
structure Side.Rel (d : Side) (u u' w w' : World) : Prop where
  agree : d.Agree w w'
  emitter : w.emitter = w'.emitter
  thread : w.thread = w'.thread
  fine : d.Fine w
  fine' : d.Fine w'
  frame : d.Frame u w
  frame' : d.Frame u' w'

variable {d : Side} {env : Env} {u u' w w' : World}

@[simp] theorem upd_at (w : World) (s : SigId) (f : SigState → SigState) (x : SigId) :
    (w.upd s f).sig x = if x = s then f (w.sig x) else w.sig x := rfl

theorem Side.Fine.upd (h : d.Fine w) {s : SigId} {f : SigState → SigState} (hf : ∀ x ∈ (f (w.sig s)).slots, d.base x.base = d.sig s) :
    d.Fine (w.upd s f) := by
  refine ⟨fun x y hy => ?_, h.hook, h.emitter⟩
  rw [upd_at] at hy
  split at hy
  · rename_i he; subst he; exact hf y hy
  · exact h.slots x y hy

theorem Side.Frame.upd (h : d.Frame u w) {s : SigId} (hs : d.sig s = true) (f : SigState → SigState) : d.Frame u (w.upd s f) := by
  refine ⟨fun x hx => ?_, h.dead, h.mem, h.tq, h.log⟩
  rw [upd_at, if_neg (by rintro rfl; simp [hs] at hx)]
  exact h.sig x hx

theorem Side.Rel.upd (h : d.Rel u u' w w') {s : SigId} (hs : d.sig s = true) {f f' : SigState → SigState}
    (hf : (f (w.sig s)).bare = (f' (w'.sig s)).bare) (hx : ∀ x ∈ (f (w.sig s)).slots, d.base x.base = true) :
    d.Rel u u' (w.upd s f) (w'.upd s f') := by
  refine ⟨⟨fun x hx => ?_, h.agree.dead, h.agree.mem, h.agree.waiting, h.agree.log⟩, h.emitter, h.thread,
    h.fine.upd (by rw [hs]; exact hx), h.fine'.upd (by
      rw [hs]
      intro y hy
      have h1 : y.bare ∈ (f (w.sig s)).slots.map Slot.bare := by rw [bare_slots hf]; exact List.mem_map_of_mem hy
      obtain ⟨z, hz, h2⟩ := List.mem_map.mp h1
      have := hx z hz
      rwa [← bare_base z, h2, bare_base] at this), h.frame.upd hs f, h.frame'.upd hs f'⟩
  rw [upd_at, upd_at]
  split
  · rename_i he; subst he; exact hf
  · exact h.agree.sig x hx

theorem Side.Rel.st (h : d.Rel u u' w w') {s : SigId} (hs : d.sig s = true) : (w.sig s).slots.map Slot.bare = (w'.sig s).slots.map Slot.bare ∧
    (w.sig s).prioInUse = (w'.sig s).prioInUse ∧
    (w.sig s).blocked = (w'.sig s).blocked ∧ (w.sig s).paused = (w'.sig s).paused ∧ (w.sig s).argsQueue = (w'.sig s).argsQueue ∧
    (w.sig s).emitQueue = (w'.sig s).emitQueue ∧ (w.sig s).depth = (w'.sig s).depth ∧
    (w.sig s).maxDepth = (w'.sig s).maxDepth ∧ (w.sig s).wasBlocked = (w'.sig s).wasBlocked := bare_eq_iff.mp (h.agree.sig s hs)

/-- An update that leaves the slots alone. -/
theorem Side.Rel.keep (h : d.Rel u u' w w') {s : SigId} (hs : d.sig s = true) {f f' : SigState → SigState}
    (hf : (f (w.sig s)).bare = (f' (w'.sig s)).bare) (hx : (f (w.sig s)).slots = (w.sig s).slots) :
    d.Rel u u' (w.upd s f) (w'.upd s f') :=
  h.upd hs hf (by rw [hx]; intro x hx; rw [h.fine.slots s x hx, hs])

/-- Fields that nobody sees. -/
theorem Side.Rel.ghost (h : d.Rel u u' w w') (n n' m m' : Nat) :
    d.Rel u u' { w with nextEm := n, nextSerial := m } { w' with nextEm := n', nextSerial := m' } :=
  ⟨⟨h.agree.1, h.agree.2, h.agree.3, h.agree.4, h.agree.5⟩, h.emitter, h.thread, ⟨h.fine.1, h.fine.2, h.fine.3⟩, ⟨h.fine'.1, h.fine'.2, h.fine'.3⟩,
    ⟨h.frame.1, h.frame.2, h.frame.3, h.frame.4, h.frame.5⟩, ⟨h.frame'.1, h.frame'.2, h.frame'.3, h.frame'.4, h.frame'.5⟩⟩

theorem Side.Rel.setEmitter (h : d.Rel u u' w w') {e : Option SigId} (he : ∀ s, e = some s → d.sig s = true) :
    d.Rel u u' { w with emitter := e } { w' with emitter := e } :=
  ⟨⟨h.agree.1, h.agree.2, h.agree.3, h.agree.4, h.agree.5⟩, rfl, h.thread, ⟨h.fine.1, h.fine.2, he⟩, ⟨h.fine'.1, h.fine'.2, he⟩,
    ⟨h.frame.1, h.frame.2, h.frame.3, h.frame.4, h.frame.5⟩, ⟨h.frame'.1, h.frame'.2, h.frame'.3, h.frame'.4, h.frame'.5⟩⟩

theorem Side.Rel.ev (h : d.Rel u u' w w') {e e' v : Ev} (h1 : d.see e = some v) (h2 : d.see e' = some v) :
    d.Rel u u' (w.ev e) (w'.ev e') :=
  ⟨⟨h.agree.1, h.agree.2, h.agree.3, h.agree.4, by simp [World.ev, List.filterMap_append, h.agree.log, h1, h2]⟩, h.emitter, h.thread,
    ⟨h.fine.1, h.fine.2, h.fine.3⟩, ⟨h.fine'.1, h.fine'.2, h.fine'.3⟩,
    ⟨h.frame.1, h.frame.2, h.frame.3, h.frame.4, by simp [World.ev, h.frame.log, h1]⟩,
    ⟨h.frame'.1, h.frame'.2, h.frame'.3, h.frame'.4, by simp [World.ev, h.frame'.log, h2]⟩⟩

/-! ## Connections -/

theorem append_bare (st : SigState) (x : Slot) : (st.appendSlot x).bare = st.bare.appendSlot x.bare := by
  simp only [SigState.appendSlot, SigState.bare, bare_prio]
  by_cases h : st.prioInUse = false
  · by_cases h1 : x.priority = 0
    · simp [h, h1]
    · simp [h, h1, insert_bare]
  · simp [h, insert_bare]

theorem mem_insert {x y : Slot} : ∀ {l : List Slot}, y ∈ insertByPriority x l → y = x ∨ y ∈ l
  | [], h => by simp [insertByPriority] at h; exact .inl h
  | z :: l, h => by
    simp only [insertByPriority] at h
    split at h
    · simpa using h
    · rcases List.mem_cons.mp h with rfl | h
      · exact .inr (List.mem_cons_self ..)
      · exact (mem_insert h).imp id (List.mem_cons_of_mem _)

theorem mem_appendSlot {st : SigState} {x y : Slot} (h : y ∈ (st.appendSlot x).slots) : y = x ∨ y ∈ st.slots := by
  simp only [SigState.appendSlot] at h
  split at h
  · split at h
    · simp at h; exact h.symm
    · exact mem_insert h
  · exact mem_insert h

theorem Side.Rel.plainAppend (h : d.Rel u u' w w') {s : SigId} (hs : d.sig s = true) {x : Slot} (hx : d.base x.base = true) :
    d.Rel u u' (w.plainAppend s x) (w'.plainAppend s x) := by
  have h1 := h.upd hs (f := (·.appendSlot { x with serial := w.nextSerial })) (f' := (·.appendSlot { x with serial := w'.nextSerial }))
    (by simp only [append_bare, bare_serial]; rw [h.agree.sig s hs])
    (fun y hy => by
      rcases mem_appendSlot hy with rfl | hy
      · exact hx
      · rw [h.fine.slots s y hy, hs])
  exact h1.ghost w.nextEm w'.nextEm _ _

theorem Side.Rel.fold {f f' : World → SigId → World} (hf : ∀ w w' c, d.Rel u u' w w' → d.sig c = true → d.Rel u u' (f w c) (f' w' c)) :
    ∀ (l : List SigId) (w w' : World), d.Rel u u' w w' → (∀ c ∈ l, d.sig c = true) → d.Rel u u' (l.foldl f w) (l.foldl f' w')
  | [], _, _, h, _ => h
  | c :: l, w, w', h, hl => Side.Rel.fold hf l _ _ (hf w w' c h (hl c (List.mem_cons_self ..))) fun c hc => hl c (List.mem_cons_of_mem _ hc)

theorem Side.Rel.connectRelay (hd : d.Separate env) (h : d.Rel u u' w w') {r : SigId} (hr : d.sig r = true) :
    d.Rel u u' (w.connectRelay env r) (w'.connectRelay env r) := by
  refine Side.Rel.fold (fun w w' c h hc => ?_) _ _ _ h fun c hc => by rw [hd.kids r c hc, hr]
  have hi : slotIndex (.relay r) (w.sig c).slots = slotIndex (.relay r) (w'.sig c).slots := by
    rw [← index_bare, (h.st hc).1, index_bare]
  simp only [World.connectRelay1, hi]
  split
  · exact h
  · exact h.plainAppend hc (by rw [relaySlot, hd.relay, hr])

theorem mem_pop {x : Slot} : ∀ {l : List Slot} {n : Nat}, x ∈ popAt l n → x ∈ l
  | [], _, h => h
  | _ :: _, 0, h => List.mem_cons_of_mem _ h
  | y :: l, n + 1, h => by
    simp only [popAt] at h
    rcases List.mem_cons.mp h with rfl | h
    · exact List.mem_cons_self ..
    · exact List.mem_cons_of_mem _ (mem_pop h)

theorem mem_erase {x : Slot} {b : Base} {l : List Slot} (h : x ∈ eraseSlot b l) : x ∈ l := by
  simp only [eraseSlot] at h
  split at h
  · exact mem_pop h
  · exact h

theorem mem_removeKey {x : Slot} {b : Base} : ∀ {l l' : List Slot}, removeKey b l = some l' → x ∈ l' → x ∈ l
  | [], _, h, _ => by simp [removeKey] at h
  | y :: l, l', h, hx => by
    simp only [removeKey] at h
    split at h
    · cases h; exact List.mem_cons_of_mem _ hx
    · cases hk : removeKey b l with
      | none => simp [hk] at h
      | some k =>
        simp [hk] at h
        subst h
        rcases List.mem_cons.mp hx with rfl | hx
        · exact List.mem_cons_self ..
        · exact List.mem_cons_of_mem _ (mem_removeKey hk hx)

theorem mem_final {x : Slot} {o : ObjId} {l : List Slot} (h : x ∈ finalizeSlots o l) : x ∈ l := by
  have key : ∀ (xs l : List Slot), x ∈ xs.foldl (fun acc y => (removeKey y.base acc).getD acc) l → x ∈ l := by
    intro xs
    induction xs with
    | nil => intro l h; exact h
    | cons y xs ih =>
      intro l h
      have := ih _ h
      cases hk : removeKey y.base l with
      | none => simpa [hk] using this
      | some k => simp only [hk] at this; exact mem_removeKey hk this
  exact key _ _ h

theorem Side.Rel.disconnectRelay (hd : d.Separate env) (h : d.Rel u u' w w') {r : SigId} (hr : d.sig r = true) :
    d.Rel u u' (w.disconnectRelay env r) (w'.disconnectRelay env r) := by
  refine Side.Rel.fold (fun w w' c h hc => ?_) _ _ _ h fun c hc => by rw [hd.kids r c hc, hr]
  refine h.upd hc ?_ fun x hx => by rw [h.fine.slots c x (mem_erase hx), hc]
  have := h.st hc
  rw [bare_eq_iff]
  exact ⟨by rw [erase_bare, this.1, erase_bare], this.2⟩

theorem Side.Rel.appendSlot (hd : d.Separate env) (h : d.Rel u u' w w') {s : SigId} (hs : d.sig s = true) {x : Slot} (hx : d.base x.base = true) :
    d.Rel u u' (w.appendSlot env s x) (w'.appendSlot env s x) := by
  have h1 := h.plainAppend hs hx
  have hl : ((w.plainAppend s x).sig s).slots.length = ((w'.plainAppend s x).sig s).slots.length := by
    rw [← List.length_map (f := Slot.bare), (h1.st hs).1, List.length_map]
  simp only [World.appendSlot, hl]
  split
  · exact h1.connectRelay hd hs
  · exact h1

theorem Side.Rel.setSlots (hd : d.Separate env) (h : d.Rel u u' w w') {s : SigId} (hs : d.sig s = true) {l l' : List Slot}
    (hl : l.map Slot.bare = l'.map Slot.bare) (hx : ∀ x ∈ l, x ∈ (w.sig s).slots) :
    d.Rel u u' (w.setSlotsRemoved env s l) (w'.setSlotsRemoved env s l') := by
  have h1 : d.Rel u u' (w.upd s fun st => { st with slots := l }) (w'.upd s fun st => { st with slots := l' }) :=
    h.upd hs (bare_eq_iff.mpr ⟨hl, (h.st hs).2⟩) fun x hx' => by rw [h.fine.slots s x (hx x hx'), hs]
  have he : l.isEmpty = l'.isEmpty := by
    cases l <;> cases l' <;> simp_all
  simp only [World.setSlotsRemoved, he]
  split
  · exact h1.disconnectRelay hd hs
  · exact h1

theorem Side.Rel.disconnect1 (hd : d.Separate env) (h : d.Rel u u' w w') {s : SigId} (hs : d.sig s = true) (c : Option Callable) (m : Bool) :
    d.Rel u u' (w.disconnect1 env s c m).1 (w'.disconnect1 env s c m).1 ∧ (w.disconnect1 env s c m).2 = (w'.disconnect1 env s c m).2 := by
  cases c with
  | none => exact ⟨h.setSlots hd hs rfl (by simp), rfl⟩
  | some c =>
    have hi : slotIndex c.base (w.sig s).slots = slotIndex c.base (w'.sig s).slots := by
      rw [← index_bare, (h.st hs).1, index_bare]
    simp only [World.disconnect1, hi]
    split
    · exact ⟨h.setSlots hd hs (by rw [pop_bare, (h.st hs).1, pop_bare]) fun x hx => mem_pop hx, rfl⟩
    · split
      · exact ⟨h, rfl⟩
      · exact ⟨h, rfl⟩

theorem Side.Rel.disconnectMembers (hd : d.Separate env) (c : Option Callable) (m : Bool) : ∀ (l : List SigId) {w w' : World}, d.Rel u u' w w' →
    (∀ s ∈ l, d.sig s = true) → d.Rel u u' (World.disconnectMembers env c m l w).1 (World.disconnectMembers env c m l w').1 ∧
      (World.disconnectMembers env c m l w).2 = (World.disconnectMembers env c m l w').2
  | [], _, _, h, _ => ⟨h, rfl⟩
  | s :: l, w, w', h, hl => by
    have h1 := h.disconnect1 hd (hl s (List.mem_cons_self ..)) c m
    simp only [World.disconnectMembers]
    cases hx : w.disconnect1 env s c m with
    | mk v r =>
      cases hx' : w'.disconnect1 env s c m with
      | mk v' r' =>
        rw [hx, hx'] at h1
        obtain ⟨h1, h2⟩ := h1
        simp only at h1 h2
        subst h2
        cases r with
        | ok _ => exact Side.Rel.disconnectMembers hd c m l h1 fun s hs => hl s (List.mem_cons_of_mem _ hs)
        | error _ => exact ⟨h1, rfl⟩

theorem Side.Rel.disconnect (hd : d.Separate env) (h : d.Rel u u' w w') {s : SigId} (hs : d.sig s = true) (c : Option Callable) (m : Bool) :
    d.Rel u u' (w.disconnect env s c m).1 (w'.disconnect env s c m).1 ∧ (w.disconnect env s c m).2 = (w'.disconnect env s c m).2 := by
  simp only [World.disconnect]
  split
  · have h1 := Side.Rel.disconnectMembers hd c m (env.decl s).children h fun c hc => by rw [hd.kids s c hc, hs]
    cases hx : World.disconnectMembers env c m (env.decl s).children w with
    | mk v r =>
      cases hx' : World.disconnectMembers env c m (env.decl s).children w' with
      | mk v' r' =>
        rw [hx, hx'] at h1
        obtain ⟨h1, h2⟩ := h1
        simp only at h1 h2
        subst h2
        cases r with
        | ok _ => exact h1.disconnect1 hd hs c m
        | error _ => exact ⟨h1, rfl⟩
  · exact h.disconnect1 hd hs c m

theorem Side.Rel.discard (hd : d.Separate env) (h : d.Rel u u' w w') {s : SigId} (hs : d.sig s = true) (b : Base) (m : Bool) :
    d.Rel u u' (w.discard env s b m).1 (w'.discard env s b m).1 ∧ (w.discard env s b m).2 = (w'.discard env s b m).2 := by
  have h1 := remove_bare b (w.sig s).slots
  have h2 := remove_bare b (w'.sig s).slots
  rw [(h.st hs).1, h2] at h1
  simp only [World.discard]
  cases hx : removeKey b (w.sig s).slots with
  | none =>
    cases hx' : removeKey b (w'.sig s).slots with
    | none =>
      simp only
      split
      · exact ⟨h, rfl⟩
      · exact ⟨h, rfl⟩
    | some l' => simp [hx, hx'] at h1
  | some l =>
    cases hx' : removeKey b (w'.sig s).slots with
    | none => simp [hx, hx'] at h1
    | some l' =>
      simp only [hx, hx', Option.map_some, Option.some.injEq] at h1
      exact ⟨h.setSlots hd hs h1.symm fun x hx1 => mem_removeKey hx hx1, rfl⟩

theorem Side.Rel.connect (hd : d.Separate env) (h : d.Rel u u' w w') {s : SigId} (hs : d.sig s = true) {c : Callable} (hc : d.base c.base = true)
    (o : ConnOpts) : d.Rel u u' (w.connect env s c o).1 (w'.connect env s c o).1 ∧ (w.connect env s c o).2 = (w'.connect env s c o).2 := by
  have hi : slotIndex c.base (w.sig s).slots = slotIndex c.base (w'.sig s).slots := by
    rw [← index_bare, (h.st hs).1, index_bare]
  have ht : resolveThread w o.thread = resolveThread w' o.thread := by
    cases o.thread with
    | none => rfl
    | some x => cases x <;> simp [resolveThread, h.thread]
  simp only [World.connect, hi, ht]
  split
  · split <;> exact ⟨h, rfl⟩
  · split
    · exact ⟨h, rfl⟩
    · exact ⟨h.appendSlot hd hs hc, rfl⟩

theorem Side.Rel.block (hd : d.Separate env) (h : d.Rel u u' w w') {s : SigId} (hs : d.sig s = true) (ex : List SigId) :
    d.Rel u u' (w.block env s ex) (w'.block env s ex) := by
  have set : ∀ {w w' : World} {c : SigId}, d.Rel u u' w w' → d.sig c = true →
      d.Rel u u' (w.upd c fun st => { st with blocked := true }) (w'.upd c fun st => { st with blocked := true }) := by
    intro w w' c h hc
    refine h.keep hc ?_ rfl
    have := h.st hc
    rw [bare_eq_iff]
    exact ⟨this.1, this.2.1, rfl, this.2.2.2⟩
  have h1 := set h hs
  simp only [World.block]
  split
  · refine Side.Rel.fold (fun w w' c h hc => ?_) _ _ _ h1 fun c hc => by rw [hd.kids s c hc, hs]
    split
    · exact h
    · have hb := (h.st hc).2.2.1
      have h2 : d.Rel u u' (w.upd s fun st => { st with wasBlocked := fun x => if x = c then some (w.sig c).blocked else st.wasBlocked x })
          (w'.upd s fun st => { st with wasBlocked := fun x => if x = c then some (w'.sig c).blocked else st.wasBlocked x }) := by
        refine h.keep hs ?_ rfl
        have := h.st hs
        rw [bare_eq_iff, hb]
        obtain ⟨a1, a2, a3, a4, a5, a6, a7, a8, a9⟩ := this
        exact ⟨a1, a2, a3, a4, a5, a6, a7, a8, by simp only [a9]⟩
      exact set h2 hc
  · exact h1

theorem Side.Rel.unblock (hd : d.Separate env) (h : d.Rel u u' w w') {s : SigId} (hs : d.sig s = true) :
    d.Rel u u' (w.unblock env s) (w'.unblock env s) := by
  have set : ∀ {w w' : World} {c : SigId}, d.Rel u u' w w' → d.sig c = true →
      d.Rel u u' (w.upd c fun st => { st with blocked := false }) (w'.upd c fun st => { st with blocked := false }) := by
    intro w w' c h hc
    refine h.keep hc ?_ rfl
    have := h.st hc
    rw [bare_eq_iff]
    exact ⟨this.1, this.2.1, rfl, this.2.2.2⟩
  have h1 := set h hs
  simp only [World.unblock]
  split
  · refine Side.Rel.fold (fun w w' c h hc => ?_) _ _ _ h1 fun c hc => by rw [hd.kids s c hc, hs]
    obtain ⟨a1, a2, a3, a4, a5, a6, a7, a8, a9⟩ := h.st hs
    have h2 : d.Rel u u' (w.upd s fun st => { st with wasBlocked := fun x => if x = c then none else st.wasBlocked x })
        (w'.upd s fun st => { st with wasBlocked := fun x => if x = c then none else st.wasBlocked x }) := by
      refine h.keep hs ?_ rfl
      rw [bare_eq_iff]
      exact ⟨a1, a2, a3, a4, a5, a6, a7, a8, by simp only [a9]⟩
    rw [a9]
    split
    · exact h2
    · exact set h2 hc
  · exact h1

theorem final_id {o : ObjId} {l : List Slot} (h : ∀ x ∈ l, x.ownedBy o = false) : finalizeSlots o l = l := by
  have : l.filter (·.ownedBy o) = [] := by
    rw [List.filter_eq_nil_iff]
    intro x hx; simp [h x hx]
  rw [finalizeSlots, this]
  rfl

theorem Side.Rel.kill (hd : d.Separate env) (h : d.Rel u u' w w') {o : ObjId} (ho : d.obj o = true) : d.Rel u u' (w.kill env o) (w'.kill env o) := by
  have own : ∀ {w : World} (_ : d.Fine w) (s : SigId), d.sig s = false → ∀ x ∈ (w.sig s).slots, x.ownedBy o = false := by
    intro w hf s hs x hx
    have h1 := hf.slots s x hx
    rw [hs] at h1
    cases hb : x.ownedBy o with
    | false => rfl
    | true =>
      simp only [Slot.ownedBy, beq_iff_eq] at hb
      rw [hd.owner _ _ hb, ho] at h1
      cases h1
  have fine : ∀ {w : World}, d.Fine w → d.Fine (w.kill env o) := by
    intro w hf
    refine ⟨fun s x hx => ?_, hf.hook, hf.emitter⟩
    simp only [World.kill] at hx
    split at hx
    · exact hf.slots s x (mem_final hx)
    · split at hx
      · exact hf.slots s x (mem_final (mem_erase hx))
      · exact hf.slots s x (mem_final hx)
  have frame : ∀ {u w : World}, d.Fine w → d.Frame u w → d.Frame u (w.kill env o) := by
    intro u w hf h
    refine ⟨fun s hs => ?_, fun x hx => ?_, h.mem, h.tq, h.log⟩
    · rw [← h.sig s hs]
      simp only [World.kill]
      rw [final_id (own hf s hs)]
      cases hp : (env.decl s).parent with
      | none => rfl
      | some r =>
        have hr : d.sig r = false := by rw [hd.parent s r hp, hs]
        simp only
        rw [final_id (own hf r hr), if_neg (by cases (w.sig r).slots.isEmpty <;> simp)]
    · simp only [World.kill]
      rw [if_neg (by rintro rfl; simp [ho] at hx)]
      exact h.dead x hx
  refine ⟨⟨fun s hs => ?_, fun x hx => ?_, h.agree.mem, h.agree.waiting, h.agree.log⟩, h.emitter, h.thread, fine h.fine, fine h.fine',
    frame h.fine h.frame, frame h.fine' h.frame'⟩
  · obtain ⟨a1, a⟩ := h.st hs
    have key : ∀ {s : SigId}, d.sig s = true → (finalizeSlots o (w.sig s).slots).map Slot.bare = (finalizeSlots o (w'.sig s).slots).map Slot.bare := by
      intro s hs
      rw [final_bare, (h.st hs).1, final_bare]
    rw [bare_eq_iff]
    refine ⟨?_, a⟩
    simp only [World.kill]
    cases hp : (env.decl s).parent with
    | none => exact key hs
    | some r =>
      have hr : d.sig r = true := by rw [hd.parent s r hp, hs]
      have e1 : (w.sig r).slots.isEmpty = (w'.sig r).slots.isEmpty := by
        rw [← List.isEmpty_map (f := Slot.bare), (h.st hr).1, List.isEmpty_map]
      have e2 : (finalizeSlots o (w.sig r).slots).isEmpty = (finalizeSlots o (w'.sig r).slots).isEmpty := by
        rw [← List.isEmpty_map (f := Slot.bare), key hr, List.isEmpty_map]
      simp only [e1, e2]
      split
      · rw [erase_bare, key hs, erase_bare]
      · exact key hs
  · simp only [World.kill]
    split
    · rfl
    · exact h.agree.dead x hx

theorem Side.Rel.isDead (hd : d.Separate env) (h : d.Rel u u' w w') {b : Base} (hb : d.base b = true) : b.isDead w = b.isDead w' := by
  simp only [Base.isDead]
  cases ho : b.owner? with
  | none => rfl
  | some o => exact h.agree.dead o (by rw [← hd.owner b o ho, hb])

theorem Side.Rel.contains (h : d.Rel u u' w w') {s : SigId} (hs : d.sig s = true) (b : Base) :
    slotIndex b (w.sig s).slots = slotIndex b (w'.sig s).slots := by
  rw [← index_bare, (h.st hs).1, index_bare]

theorem Side.Rel.setPaused (h : d.Rel u u' w w') {s : SigId} (hs : d.sig s = true) (b : Bool) :
    d.Rel u u' (w.upd s fun st => { st with paused := b }) (w'.upd s fun st => { st with paused := b }) := by
  obtain ⟨a1, a2, a3, a4, a⟩ := h.st hs
  exact h.keep hs (bare_eq_iff.mpr ⟨a1, a2, a3, rfl, a⟩) rfl

theorem Side.Rel.act (hd : d.Separate env) (h : d.Rel u u' w w') {a : Act} (ha : a.on d) :
    d.Rel u u' (a.run env w).1 (a.run env w').1 ∧ (a.run env w).2 = (a.run env w').2 := by
  cases a with
  | emit s a c => exact ⟨h, rfl⟩
  | emitFast s a => exact ⟨h, rfl⟩
  | connect s c o =>
    simp only [Act.run, h.isDead hd ha.2]
    split
    · exact ⟨h, rfl⟩
    · exact h.connect hd ha.1 ha.2 o
  | connectRaw s b m p =>
    simp only [Act.run, h.isDead hd ha.2]
    split
    · exact ⟨h, rfl⟩
    · exact ⟨h.appendSlot hd ha.1 ha.2, rfl⟩
  | disconnect s c m => exact h.disconnect hd ha c m
  | discard s b m => exact h.discard hd ha b m
  | contains s c => exact ⟨h, by simp only [Act.run, h.contains ha]⟩
  | len s => exact ⟨h, by simp only [Act.run]; rw [← List.length_map (f := Slot.bare), (h.st ha).1, List.length_map]⟩
  | block s ex => exact ⟨h.block hd ha ex, rfl⟩
  | unblock s => exact ⟨h.unblock hd ha, rfl⟩
  | pause s => exact ⟨h.setPaused ha true, rfl⟩
  | resume s r => exact ⟨h, rfl⟩
  | currentEmitter => exact ⟨h, by simp only [Act.run, h.emitter]⟩
  | emitQueued t => exact absurd ha id
  | kill o => exact ⟨h.kill hd ha, rfl⟩
  | setHook x => exact absurd ha id
  | getHook => exact ⟨h, by simp only [Act.run, h.fine.hook, h.fine'.hook]⟩

/-! ## Tasks -/

theorem Side.Rel.collect (h : d.Rel u u' w w') {s : SigId} (hs : d.sig s = true) (a : Args) : d.Rel u u' (w.collect s a) (w'.collect s a) := by
  obtain ⟨a1, a2, a3, a4, a5, a⟩ := h.st hs
  exact h.keep hs (bare_eq_iff.mpr ⟨a1, a2, a3, a4, by simp only [a5], a⟩) rfl

theorem Side.Rel.clearArgs (h : d.Rel u u' w w') {s : SigId} (hs : d.sig s = true) : d.Rel u u' (w.clearArgs s) (w'.clearArgs s) := by
  obtain ⟨a1, a2, a3, a4, a5, a⟩ := h.st hs
  exact h.keep hs (bare_eq_iff.mpr ⟨a1, a2, a3, a4, rfl, a⟩) rfl

theorem Side.Rel.enqueue (h : d.Rel u u' w w') {s : SigId} (hs : d.sig s = true) (a : Args) : d.Rel u u' (w.enqueue s a) (w'.enqueue s a) := by
  obtain ⟨a1, a2, a3, a4, a5, a6, a7⟩ := h.st hs
  refine Side.Rel.ev (h.keep hs (bare_eq_iff.mpr ⟨a1, a2, a3, a4, a5, ?_, a7⟩) rfl) (v := .req s a) (by simp [Side.see, hs]) (by simp [Side.see, hs])
  simp only [a6]

theorem Side.Rel.popQueue (h : d.Rel u u' w w') {s : SigId} (hs : d.sig s = true) : d.Rel u u' (w.popQueue s) (w'.popQueue s) := by
  obtain ⟨a1, a2, a3, a4, a5, a6, a⟩ := h.st hs
  exact h.keep hs (bare_eq_iff.mpr ⟨a1, a2, a3, a4, a5, by simp only [a6], a⟩) rfl

theorem Side.Rel.startLoop (h : d.Rel u u' w w') {s : SigId} (hs : d.sig s = true) : d.Rel u u' (w.startLoop s) (w'.startLoop s) := by
  obtain ⟨a1, a2, a3, a4, a5, a6, a7, a8, a9⟩ := h.st hs
  have h1 : d.Rel u u' (w.upd s SigState.enter) (w'.upd s SigState.enter) :=
    h.keep hs (bare_eq_iff.mpr ⟨a1, a2, a3, a4, a5, a6, by simp only [SigState.enter, a7], by simp only [SigState.enter, a7, a8], a9⟩) rfl
  have h2 := h1.setEmitter (e := some s) (by rintro t ⟨⟩; exact hs)
  exact h2.ghost (w.nextEm + 1) (w'.nextEm + 1) w.nextSerial w'.nextSerial

theorem leave_slots (st : SigState) : st.leave.slots = st.slots := by
  rw [SigState.leave]; split <;> rfl

theorem Side.Rel.endLoop (h : d.Rel u u' w w') {s : SigId} (hs : d.sig s = true) {e : Option SigId} (he : ∀ s, e = some s → d.sig s = true) :
    d.Rel u u' (w.endLoop s e) (w'.endLoop s e) := by
  have h2 := h.setEmitter he
  refine h2.keep hs ?_ (leave_slots _)
  obtain ⟨a1, a2, a3, a4, a5, a6, a7, a8, a9⟩ := h.st hs
  simp only [SigState.leave, a7]
  split
  · exact bare_eq_iff.mpr ⟨a1, a2, a3, a4, a5, rfl, rfl, rfl, a9⟩
  · exact bare_eq_iff.mpr ⟨a1, a2, a3, a4, a5, rfl, rfl, a8, a9⟩

theorem Side.Rel.startFast (h : d.Rel u u' w w') {s : SigId} (hs : d.sig s = true) (a : Args) :
    d.Rel u u' (w.startFast s a) (w'.startFast s a) := by
  obtain ⟨a1, a2, a3, a4, a5, a6, a7, a8, a9⟩ := h.st hs
  have h1 : d.Rel u u' (w.upd s fun st => { st with depth := st.depth + 1 }) (w'.upd s fun st => { st with depth := st.depth + 1 }) :=
    h.keep hs (bare_eq_iff.mpr ⟨a1, a2, a3, a4, a5, a6, by simp only [a7], a8, a9⟩) rfl
  have h2 := h1.ev (e := .fast s a w.nextEm) (e' := .fast s a w'.nextEm) (v := .fast s a 0) (by simp [Side.see, hs]) (by simp [Side.see, hs])
  exact h2.ghost (w.nextEm + 1) (w'.nextEm + 1) w.nextSerial w'.nextSerial

theorem Side.Rel.endFast (h : d.Rel u u' w w') {s : SigId} (hs : d.sig s = true) : d.Rel u u' (w.endFast s) (w'.endFast s) := by
  obtain ⟨a1, a2, a3, a4, a5, a6, a7, a8, a9⟩ := h.st hs
  refine h.keep hs ?_ (by split <;> rfl)
  simp only [a7]
  split
  · exact bare_eq_iff.mpr ⟨a1, a2, a3, a4, a5, a6, rfl, a8, a9⟩
  · exact h.agree.sig s hs

theorem Side.Rel.putQueue (h : d.Rel u u' w w') {t : ThreadId} {x x' : Slot} (hx : d.base x.base = true) (hb : x.bare = x'.bare) (a : Args)
    {em em' : Option Nat} (he : em.map (fun _ => 0) = em'.map (fun _ => (0 : Nat))) :
    d.Rel u u' (w.putQueue t x a em) (w'.putQueue t x' a em') := by
  have hx' : x.base = x'.base := by rw [← bare_base x, hb, bare_base]
  have hy : d.base x'.base = true := by rw [← hx', hx]
  have h1 := h.ev (e := .put t x.base a em) (e' := .put t x'.base a em') (v := .put t x.base a (em.map fun _ => 0)) (by simp [Side.see, hx])
    (by simp [Side.see, hy, hx', he])
  refine ⟨⟨h1.agree.1, h1.agree.2, h1.agree.3, fun t' => ?_, h1.agree.5⟩, h.emitter, h.thread, ⟨h.fine.1, h.fine.2, h.fine.3⟩,
    ⟨h.fine'.1, h.fine'.2, h.fine'.3⟩, ⟨h.frame.1, h.frame.2, h.frame.3, fun t' => ?_, h1.frame.5⟩,
    ⟨h.frame'.1, h.frame'.2, h.frame'.3, fun t' => ?_, h1.frame'.5⟩⟩
  · have h2 := h.agree.waiting t'
    simp only [Side.waiting, World.putQueue] at h2 ⊢
    split
    · rename_i e; subst e
      simp only [List.filter_append, List.map_append, h2]
      simp [hx, hy, hb]
    · exact h2
  · have h2 := h.frame.tq t'
    simp only [World.putQueue]
    split
    · rename_i e; subst e
      simp only [List.filter_append, h2]
      simp [hx]
    · exact h2
  · have h2 := h.frame'.tq t'
    simp only [World.putQueue]
    split
    · rename_i e; subst e
      simp only [List.filter_append, h2]
      simp [hy]
    · exact h2

theorem Side.Rel.setMem (h : d.Rel u u' w w') {f : Mem → Mem} (h1 : ∀ m m', d.same m m' → d.same (f m) (f m')) (h2 : ∀ m, d.other.same (f m) m) :
    d.Rel u u' (w.setMem (f w.mem)) (w'.setMem (f w'.mem)) :=
  ⟨⟨h.agree.1, h.agree.2, h1 _ _ h.agree.mem, h.agree.4, h.agree.5⟩, h.emitter, h.thread, ⟨h.fine.1, h.fine.2, h.fine.3⟩,
    ⟨h.fine'.1, h.fine'.2, h.fine'.3⟩, ⟨h.frame.1, h.frame.2, fun a ha => (h2 _ a ha).trans (h.frame.mem a ha), h.frame.4, h.frame.5⟩,
    ⟨h.frame'.1, h.frame'.2, fun a ha => (h2 _ a ha).trans (h.frame'.mem a ha), h.frame'.4, h.frame'.5⟩⟩

theorem Side.Rel.logCall (h : d.Rel u u' w w') {em em' : Option Nat} (he : em.map (fun _ => 0) = em'.map (fun _ => (0 : Nat))) {src : Option SigId}
    (hs : ∀ s, src = some s → d.sig s = true) {b : Base} (hb : d.base b = true) (a : Args) :
    d.Rel u u' (w.logCall em src b a) (w'.logCall em' src b a) := by
  cases src with
  | none =>
    exact h.ev (v := .call (em.map fun _ => 0) none 0 w.emitter w.thread b a) (by simp only [Side.see, hb, if_true])
      (by simp only [Side.see, hb, if_true, he, h.emitter, h.thread])
  | some s =>
    exact h.ev (v := .call (em.map fun _ => 0) (some s) (w.sig s).depth w.emitter w.thread b a) (by simp only [Side.see, hb, if_true])
      (by simp only [Side.see, hb, if_true, he, h.emitter, h.thread, (h.st (hs s rfl)).2.2.2.2.2.2.1])

theorem Side.Rel.logRet (h : d.Rel u u' w w') {em em' : Option Nat} (he : em.map (fun _ => 0) = em'.map (fun _ => (0 : Nat))) {src : Option SigId}
    {b : Base} (hb : d.base b = true) (r : Res) : d.Rel u u' (w.logRet em src b r) (w'.logRet em' src b r) :=
  h.ev (v := .ret (em.map fun _ => 0) src b r) (by simp only [Side.see, hb, if_true]) (by simp only [Side.see, hb, if_true, he])

/-- Tasks of this side, the same up to the numbers of loops and connections. -/
inductive Side.TRel (d : Side) : Task → Task → Prop where
  | prog {p : Prog} : p.on d → d.TRel (.prog p) (.prog p)
  | emit {s : SigId} {a : Args} {c : Bool} : d.sig s = true → d.TRel (.emit s a c) (.emit s a c)
  | emitFast {s : SigId} {a : Args} : d.sig s = true → d.TRel (.emitFast s a) (.emitFast s a)
  | runLoop {s : SigId} {a : Args} : d.sig s = true → d.TRel (.runLoop s a) (.runLoop s a)
  | inner {s : SigId} {n n' : Nat} : d.sig s = true → d.TRel (.inner s n) (.inner s n')
  | forSlots {s : SigId} {n n' : Nat} {a : Args} {i : Nat} : d.sig s = true → d.TRel (.forSlots s n a i) (.forSlots s n' a i)
  | forLatest {s : SigId} {n n' : Nat} {a : Args} {i : Nat} : d.sig s = true → d.TRel (.forLatest s n a i) (.forLatest s n' a i)
  | forQueued {s : SigId} {n n' : Nat} {a : Args} {i : Nat} : d.sig s = true → d.TRel (.forQueued s n a i) (.forQueued s n' a i)
  | whileQueued {s : SigId} {n n' : Nat} {i : Nat} : d.sig s = true → d.TRel (.whileQueued s n i) (.whileQueued s n' i)
  | cb {em em' : Option Nat} {src : Option SigId} {x x' : Slot} {a : Args} : em.map (fun _ => 0) = em'.map (fun _ => (0 : Nat)) →
      (∀ s, src = some s → d.sig s = true) → d.base x.base = true → x.bare = x'.bare → d.TRel (.cb em src x a) (.cb em' src x' a)
  | direct {em em' : Option Nat} {src : Option SigId} {x x' : Slot} {a : Args} : em.map (fun _ => 0) = em'.map (fun _ => (0 : Nat)) →
      (∀ s, src = some s → d.sig s = true) → d.base x.base = true → x.bare = x'.bare → d.TRel (.direct em src x a) (.direct em' src x' a)
  | slotRelay {r : SigId} {a : Args} : d.sig r = true → d.TRel (.slotRelay r a) (.slotRelay r a)
  | resume {s : SigId} {r : Option Reducer} : d.sig s = true → d.TRel (.resume s r) (.resume s r)
  | replay {s : SigId} {i : Nat} : d.sig s = true → d.TRel (.replay s i) (.replay s i)

/-- Related computations. -/
inductive Side.CRel (d : Side) (u u' : World) : Comp → Comp → Prop where
  | done {w w' : World} {r : Res} : d.Rel u u' w w' → d.CRel u u' (.done w r) (.done w' r)
  | call {t t' : Task} {w w' : World} {k k' : World → Res → Comp} : d.TRel t t' → d.Rel u u' w w' →
      (∀ v v' r, d.Rel u u' v v' → d.CRel u u' (k v r) (k' v' r)) → d.CRel u u' (.call t w k) (.call t' w' k')

theorem Side.CRel.tail {t t' : Task} (ht : d.TRel t t') (h : d.Rel u u' w w') : d.CRel u u' (.call t w .done) (.call t' w' .done) :=
  .call ht h fun _ _ _ hv => .done hv

theorem slot_get (h : d.Rel u u' w w') {s : SigId} (hs : d.sig s = true) (i : Nat) :
    ((w.sig s).slots[i]? = none ∧ (w'.sig s).slots[i]? = none) ∨
    ∃ x x', (w.sig s).slots[i]? = some x ∧ (w'.sig s).slots[i]? = some x' ∧ x.bare = x'.bare ∧ d.base x.base = true := by
  have h1 : ((w.sig s).slots.map Slot.bare)[i]? = ((w'.sig s).slots.map Slot.bare)[i]? := by rw [(h.st hs).1]
  simp only [List.getElem?_map] at h1
  cases hx : (w.sig s).slots[i]? with
  | none =>
    cases hx' : (w'.sig s).slots[i]? with
    | none => exact .inl ⟨rfl, rfl⟩
    | some x' => simp [hx, hx'] at h1
  | some x =>
    cases hx' : (w'.sig s).slots[i]? with
    | none => simp [hx, hx'] at h1
    | some x' =>
      simp only [hx, hx', Option.map_some, Option.some.injEq] at h1
      exact .inr ⟨x, x', rfl, rfl, h1, by rw [h.fine.slots s x (List.mem_of_getElem? hx), hs]⟩

theorem body_rel (hd : d.Separate env) {t t' : Task} (ht : d.TRel t t') (h : d.Rel u u' w w') : d.CRel u u' (body env t w) (body env t' w') := by
  cases ht with
  | @prog p hp =>
    cases p with
    | ret => exact .done h
    | raise e => exact .done h
    | user f k =>
      have h1 := hp.1 _ _ h.agree.mem
      simp only [body]
      rw [h1.2]
      exact .tail (.prog (hp.2.2 _)) (h.setMem (fun m m' hm => (hp.1 m m' hm).1) hp.2.1)
    | api a k =>
      have call : ∀ {t : Task}, d.TRel t t → d.CRel u u' (.call t w fun w' r => .call (.prog (k (r.map fun _ => .unit))) w' .done)
          (.call t w' fun w' r => .call (.prog (k (r.map fun _ => .unit))) w' .done) :=
        fun ht => .call ht h fun v v' r hv => .tail (.prog (hp.2 _)) hv
      have plain : d.CRel u u' (.call (.prog (k (a.run env w).2)) (a.run env w).1 .done) (.call (.prog (k (a.run env w').2)) (a.run env w').1 .done) := by
        have := h.act hd hp.1
        rw [this.2]
        exact .tail (.prog (hp.2 _)) this.1
      cases a with
      | emit s x c => exact call (.emit hp.1)
      | emitFast s x => exact call (.emitFast hp.1)
      | resume s r => exact call (.resume hp.1)
      | emitQueued t => exact absurd hp.1 id
      | connect => exact plain
      | connectRaw => exact plain
      | disconnect => exact plain
      | discard => exact plain
      | contains => exact plain
      | len => exact plain
      | block => exact plain
      | unblock => exact plain
      | pause => exact plain
      | currentEmitter => exact plain
      | kill => exact plain
      | setHook => exact plain
      | getHook => exact plain
    | withBlocked s ex b k =>
      refine .call (.prog hp.2.1) (h.block hd hp.1 ex) fun v v' r hv => .tail (.prog (hp.2.2 _)) ?_
      rw [(h.st hp.1).2.2.1]
      split
      · exact hv
      · exact hv.unblock hd hp.1
    | withPaused s red b k =>
      refine .call (.prog hp.2.1) (h.setPaused hp.1 true) fun v v' r hv => ?_
      rw [(h.st hp.1).2.2.2.1]
      split
      · exact .tail (.prog (hp.2.2 _)) hv
      · exact .call (.resume hp.1) hv fun y y' r2 hy => .tail (.prog (hp.2.2 _)) hy
  | @emit s a c hs =>
    obtain ⟨a1, a2, a3, a4, a5, a6, a7, a8, a9⟩ := h.st hs
    simp only [body, a3, a4, h.fine.hook, h.fine'.hook]
    split
    · exact .done h
    · split
      · exact .done h
      · split
        · exact .done (h.collect hs a)
        · exact .tail (.runLoop hs) h
  | @emitFast s a hs =>
    obtain ⟨a1, a2, a3, a4, a5, a6, a7, a8, a9⟩ := h.st hs
    simp only [body, a3, a4, a7]
    split
    · exact .done h
    · split
      · exact .done (h.collect hs a)
      · split
        · exact .done h
        · exact .call (.forSlots hs) (h.startFast hs a) fun v v' r hv => .done (hv.endFast hs)
  | @runLoop s a hs =>
    have h1 := h.enqueue hs a
    obtain ⟨a1, a2, a3, a4, a5, a6, a7, a8, a9⟩ := h1.st hs
    simp only [body, (h.st hs).2.2.2.2.2.2.1, a6]
    split
    · exact .done h
    · split
      · exact .done h1
      · refine .call (.inner hs) (h1.startLoop hs) fun v v' r hv => ?_
        have := hv.endLoop hs h.fine.emitter
        rw [← h.emitter]
        exact .done this
  | @inner s n n' hs =>
    obtain ⟨a1, a2, a3, a4, a5, a6, a7, a8, a9⟩ := h.st hs
    simp only [body, a6]
    cases (env.decl s).mode with
    | immediate =>
      cases (w'.sig s).emitQueue with
      | nil => exact .done h
      | cons a l => exact .tail (.forSlots hs) (h.popQueue hs)
    | latest =>
      cases (w'.sig s).emitQueue with
      | nil => exact .done h
      | cons a l => exact .tail (.forLatest hs) (h.popQueue hs)
    | queued =>
      cases (w'.sig s).emitQueue with
      | nil => exact .tail (.whileQueued hs) h
      | cons a l => exact .tail (.whileQueued hs) h
  | @forSlots s n n' a i hs =>
    simp only [body]
    rcases slot_get h hs i with ⟨e, e'⟩ | ⟨x, x', e, e', hb, hx⟩
    · rw [e, e']; exact .done h
    · rw [e, e']
      refine .call (.cb rfl (by rintro t ⟨⟩; exact hs) hx hb) h fun v v' r hv => ?_
      cases r with
      | error e => exact .done hv
      | ok _ => exact .tail (.forSlots hs) hv
  | @forLatest s n n' a i hs =>
    simp only [body]
    obtain ⟨a1, a2, a3, a4, a5, a6, a7, a8, a9⟩ := h.st hs
    rcases slot_get h hs i with ⟨e, e'⟩ | ⟨x, x', e, e', hb, hx⟩
    · rw [e, e']; exact .done h
    · rw [e, e']
      simp only [a7, a8]
      split
      · exact .done h
      · refine .call (.cb rfl (by rintro t ⟨⟩; exact hs) hx hb) h fun v v' r hv => ?_
        cases r with
        | error e => exact .done hv
        | ok _ => exact .tail (.forLatest hs) hv
  | @forQueued s n n' a i hs =>
    simp only [body]
    rcases slot_get h hs i with ⟨e, e'⟩ | ⟨x, x', e, e', hb, hx⟩
    · rw [e, e']; exact .done h
    · rw [e, e']
      refine .call (.cb rfl (by rintro t ⟨⟩; exact hs) hx hb) h fun v v' r hv => ?_
      cases r with
      | error e => exact .done hv
      | ok _ =>
        have a6 := (hv.st hs).2.2.2.2.2.1
        simp only [a6]
        split
        · exact .done hv
        · exact .tail (.forQueued hs) hv
  | @whileQueued s n n' i hs =>
    simp only [body, (h.st hs).2.2.2.2.2.1]
    cases (w'.sig s).emitQueue[i]? with
    | none => exact .done h
    | some a =>
      refine .call (.forQueued hs) h fun v v' r hv => ?_
      cases r with
      | error e => exact .done hv
      | ok _ => exact .tail (.whileQueued hs) hv
  | @cb em em' src x x' a he hs hx hb =>
    have ht : x.thread = x'.thread := by rw [← bare_thread x, hb, bare_thread]
    simp only [body, ht, h.thread]
    cases x'.thread with
    | none => exact .tail (.direct he hs hx hb) h
    | some t =>
      simp only
      split
      · exact .tail (.direct he hs hx hb) h
      · exact .done (h.putQueue hx hb a he)
  | @direct em em' src x x' a he hs hx hb =>
    have e1 : x.base = x'.base := by rw [← bare_base x, hb, bare_base]
    have e2 : x.callArgs a = x'.callArgs a := by
      have : x.bare.callArgs a = x'.bare.callArgs a := by rw [hb]
      exact this
    have hx' : d.base x'.base = true := by rw [← e1, hx]
    simp only [body, e1, e2, h.isDead hd hx']
    split
    · exact .done h
    · split
      · rename_i r hr
        have hr' : d.sig r = true := by rw [← hd.relay, ← hr, hx']
        exact .call (.slotRelay hr') (h.logCall he hs hx' _) fun v v' r hv => .done (hv.logRet he hx' r)
      · exact .call (.prog (hd.code _ _ hx')) (h.logCall he hs hx' _) fun v v' r hv => .done (hv.logRet he hx' r)
  | @slotRelay r a hs =>
    simp only [body, h.emitter]
    split
    · exact .done h
    · cases he : w'.emitter with
      | none => exact .done h
      | some e =>
        have h1 : d.sig e = true := h.fine'.emitter e he
        have h2 : (w.sig e).slots.isEmpty = (w'.sig e).slots.isEmpty := by
          rw [← List.isEmpty_map (f := Slot.bare), (h.st h1).1, List.isEmpty_map]
        simp only [h2]
        split
        · exact .done h
        · exact .tail (.runLoop hs) h
  | @resume s red hs =>
    obtain ⟨a1, a2, a3, a4, a5, a6, a7, a8, a9⟩ := h.st hs
    have h2 : (w.sig s).slots.isEmpty = (w'.sig s).slots.isEmpty := by
      rw [← List.isEmpty_map (f := Slot.bare), a1, List.isEmpty_map]
    have hu := h.setPaused hs false
    simp only [body, a5, h2]
    split
    · exact .done hu
    · split
      · exact .done (hu.clearArgs hs)
      · cases red with
        | none =>
          refine .call (.replay hs) hu fun v v' r hv => ?_
          cases r with
          | error e => exact .done hv
          | ok _ => exact .done (hv.clearArgs hs)
        | some rd =>
          simp only
          cases rd.run (w'.sig s).argsQueue with
          | error e => exact .done hu
          | ok a =>
            refine .call (.runLoop hs) hu fun v v' r hv => ?_
            cases r with
            | error e => exact .done hv
            | ok _ => exact .done (hv.clearArgs hs)
  | @replay s i hs =>
    simp only [body, (h.st hs).2.2.2.2.1]
    cases (w'.sig s).argsQueue[i]? with
    | none => exact .done h
    | some a =>
      refine .call (.runLoop hs) h fun v v' r hv => ?_
      cases r with
      | error e => exact .done hv
      | ok _ => exact .tail (.replay hs) hv

theorem exec_rel (hd : d.Separate env) : ∀ (n : Nat) {t t' : Task} {w w' : World}, d.TRel t t' → d.Rel u u' w w' →
    (exec env n t w = none ∧ exec env n t' w' = none) ∨
    ∃ v v' r, exec env n t w = some (v, r) ∧ exec env n t' w' = some (v', r) ∧ d.Rel u u' v v'
  | 0, _, _, _, _, _, _ => .inl ⟨rfl, rfl⟩
  | n + 1, t, t', w, w', ht, h => by
    have key : ∀ {c c' : Comp}, d.CRel u u' c c' → (runComp (exec env n) c = none ∧ runComp (exec env n) c' = none) ∨
        ∃ v v' r, runComp (exec env n) c = some (v, r) ∧ runComp (exec env n) c' = some (v', r) ∧ d.Rel u u' v v' := by
      intro c c' hc
      induction hc with
      | done h => exact .inr ⟨_, _, _, rfl, rfl, h⟩
      | call ht hw hk ih =>
        rcases exec_rel hd n ht hw with ⟨e, e'⟩ | ⟨v, v', r, e, e', hv⟩
        · exact .inl ⟨by simp only [runComp, e], by simp only [runComp, e']⟩
        · simp only [runComp, e, e']
          exact ih v v' r hv
    exact key (body_rel hd ht h)

/-! ## Runs -/

theorem frame_refl (d : Side) (w : World) : d.Frame w w := ⟨fun _ _ => rfl, fun _ _ => rfl, fun _ _ => rfl, fun _ => rfl, rfl⟩

theorem agree_refl (d : Side) (w : World) : d.Agree w w := ⟨fun _ _ => rfl, fun _ _ => rfl, fun _ _ => rfl, fun _ => rfl, rfl⟩

theorem Side.Agree.symm (h : d.Agree w w') : d.Agree w' w :=
  ⟨fun s hs => (h.1 s hs).symm, fun o ho => (h.2 o ho).symm, fun a ha => (h.3 a ha).symm, fun t => (h.4 t).symm, h.5.symm⟩

theorem Side.Agree.trans {w'' : World} (h : d.Agree w w') (h' : d.Agree w' w'') : d.Agree w w'' :=
  ⟨fun s hs => (h.1 s hs).trans (h'.1 s hs), fun o ho => (h.2 o ho).trans (h'.2 o ho), fun a ha => (h.3 a ha).trans (h'.3 a ha),
    fun t => (h.4 t).trans (h'.4 t), h.5.trans h'.5⟩

theorem other_other (d : Side) : d.other.other = d := by
  cases d; simp [Side.other]

theorem Side.Fine.other (h : d.Fine w) (he : w.emitter = none) : d.other.Fine w :=
  ⟨fun s x hx => by simp only [Side.other, h.slots s x hx], h.hook, fun e hs => by rw [he] at hs; cases hs⟩

theorem see_other (e : Ev) : (d.see e).isNone = (d.other.see e).isSome := by
  cases e <;> simp only [Side.see, Side.other] <;> split <;> simp_all

theorem filterMap_of_filter {α β : Type} {f : α → Option β} {p : α → Bool} (h : ∀ x, p x = (f x).isSome) (l : List α) :
    (l.filter p).filterMap f = l.filterMap f := by
  induction l with
  | nil => rfl
  | cons x l ih =>
    cases hf : f x with
    | none => rw [List.filter_cons_of_neg (by simp [h, hf]), List.filterMap_cons_none hf, ih]
    | some y => rw [List.filter_cons_of_pos (by simp [h, hf]), List.filterMap_cons_some hf, List.filterMap_cons_some hf, ih]

theorem Side.Frame.agree (h : d.Frame u w) : d.other.Agree w u := by
  refine ⟨fun s hs => ?_, fun o ho => ?_, h.mem, fun t => ?_, ?_⟩
  · rw [h.sig s (by simpa [Side.other] using hs)]
  · exact h.dead o (by simpa [Side.other] using ho)
  · have := h.tq t
    simp only [Side.waiting, Side.other, this]
  · rw [← filterMap_of_filter (p := fun e => (d.see e).isNone) (fun e => see_other e), h.log,
      filterMap_of_filter (p := fun e => (d.see e).isNone) (fun e => see_other e)]

theorem runs_rel (hd : d.Separate env) {p : Prog} (hp : p.on d) {v : World} {r : Res} (h : d.Rel u u' w w') (hr : Runs env (.prog p) w v r) :
    ∃ v', Runs env (.prog p) w' v' r ∧ d.Rel u u' v v' := by
  obtain ⟨n, hn⟩ := hr
  rcases exec_rel hd n (.prog hp) h with ⟨e, _⟩ | ⟨y, y', r', e, e', hy⟩
  · rw [e] at hn; cases hn
  · rw [e] at hn; cases hn; exact ⟨y', ⟨n, e'⟩, hy⟩

theorem Side.Fine.thread (h : d.Fine w) (t : ThreadId) : d.Fine { w with thread := t } := ⟨h.1, h.2, h.3⟩

theorem Side.Agree.thread (h : d.Agree w w') (t t' : ThreadId) : d.Agree { w with thread := t } { w' with thread := t' } := ⟨h.1, h.2, h.3, h.4, h.5⟩

theorem rel_start (ha : d.Agree w w') (he : w.emitter = w'.emitter) (ht : w.thread = w'.thread) (hf : d.Fine w) (hf' : d.Fine w') :
    d.Rel w w' w w' := ⟨ha, he, ht, hf, hf', frame_refl d w, frame_refl d w'⟩

theorem turns_purge (hd : d.Separate env) (hd' : d.other.Separate env) {ps : List (Bool × ThreadId × Prog)} {rs : List (Bool × Res)}
    (h : Turns env ps w rs u) : ∀ {v : World}, (∀ x ∈ ps, x.2.2.on (if x.1 then d else d.other)) → d.Agree w v → d.Fine w → d.Fine v →
      w.emitter = none → v.emitter = none → ∃ v', Turns env (ps.filter (·.1)) v (rs.filter (·.1)) v' ∧ d.Agree u v' := by
  induction h with
  | nil => intro v _ ha _ _ _ _; exact ⟨v, .nil, ha⟩
  | @cons b t p ps w w1 w2 r rs h1 _ ih =>
    intro v hp ha hf hf' he he'
    have hp1 := hp _ (List.mem_cons_self ..)
    have he1 : w1.emitter = none := (emitter_restored h1).trans he
    cases b with
    | true =>
      obtain ⟨v1, h2, h3⟩ := runs_rel hd (p := p) (by simpa using hp1) (rel_start (ha.thread t t) (he.trans he'.symm) rfl (hf.thread t) (hf'.thread t)) h1
      obtain ⟨v', h4, h5⟩ := ih (fun x hx => hp x (List.mem_cons_of_mem _ hx)) h3.agree h3.fine h3.fine' he1 ((emitter_restored h2).trans he')
      exact ⟨v', .cons h2 h4, h5⟩
    | false =>
      have hf1 := (hf.thread t).other (w := { w with thread := t }) he
      obtain ⟨v1, h2, h3⟩ := runs_rel hd' (p := p) (by simpa using hp1) (rel_start (agree_refl _ _) rfl rfl hf1 hf1) h1
      have h4 := h3.frame.agree
      rw [other_other] at h4
      have h5 := h3.fine.other he1
      rw [other_other] at h5
      exact ih (fun x hx => hp x (List.mem_cons_of_mem _ hx)) (h4.trans ⟨ha.1, ha.2, ha.3, ha.4, ha.5⟩) h5 hf' he1 he'

end Psygnal
