import Verif.SelectionNested

/-!
# Listeners that operate on the selection: lemmas for C70
-/

namespace Psygnal.SelN
open Psygnal.Py (M Err)
open Psygnal.Sel (Ev)

variable {α : Type} [DecidableEq α] {c : Cfg α}

/-- `active` is the only selected item, if there is just one. -/
def Sync (s : St α) : Prop := ∀ x, s.active = some x ↔ s.data = [x]

/-- The items of the selection are in the parent. -/
def Held (s : St α) : Prop := ∀ x ∈ s.data, s.parent.all (x ∈ ·) = true

/-- What always holds between two states of a selection. -/
structure Weak (s s' : St α) : Prop where
  parent : s'.parent = s.parent
  failed : s.failed = true → s'.failed = true
  nodup : s.data.Nodup → s'.data.Nodup
  held : Held s → Held s'

/-- Either nothing has changed or `active` is right; `T`: only if this holds. -/
structure Step (T : Prop) (s s' : St α) : Prop extends Weak s s' where
  sync : T → s.data.Nodup → s'.failed = false → Sync s' ∨ s'.data = s.data ∧ s'.active = s.active

section
omit [DecidableEq α]

theorem Weak.back {s s' : St α} (h : s.failed = true → s'.failed = true) (hf : s'.failed = false) : s.failed = false := by
  cases hs : s.failed
  · rfl
  · rw [h hs] at hf
    cases hf
end

theorem Weak.refl (s : St α) : Weak s s := ⟨rfl, id, id, id⟩

theorem Weak.trans {a b d : St α} (h : Weak a b) (h' : Weak b d) : Weak a d :=
  ⟨h'.parent.trans h.parent, h'.failed ∘ h.failed, h'.nodup ∘ h.nodup, h'.held ∘ h.held⟩

theorem Weak.same {s s' : St α} (hp : s'.parent = s.parent) (hf : s.failed = true → s'.failed = true) (hd : s'.data = s.data) : Weak s s' := by
  refine ⟨hp, hf, by rw [hd]; exact id, fun h x hx => ?_⟩
  rw [hd] at hx
  rw [hp]
  exact h x hx

variable {T : Prop}

theorem Step.refl (s : St α) : Step T s s := ⟨.refl s, fun _ _ _ => .inr ⟨rfl, rfl⟩⟩

theorem Step.same {s s' : St α} (hp : s'.parent = s.parent) (hf : s.failed = true → s'.failed = true) (hd : s'.data = s.data) (ha : s'.active = s.active) :
    Step T s s' := ⟨.same hp hf hd, fun _ _ _ => .inr ⟨hd, ha⟩⟩

omit [DecidableEq α] in
theorem Sync.same {s s' : St α} (h : Sync s) (hd : s'.data = s.data) (ha : s'.active = s.active) : Sync s' := by
  intro x
  rw [hd, ha]
  exact h x

theorem Step.trans {a b d : St α} (h : Step T a b) (h' : Step T b d) : Step T a d := by
  refine ⟨h.toWeak.trans h'.toWeak, fun t hn hf => ?_⟩
  rcases h'.sync t (h.nodup hn) hf with h2 | ⟨h2, h3⟩
  · exact .inl h2
  · rcases h.sync t hn (Weak.back h'.failed hf) with h1 | ⟨h1, h4⟩
    · exact .inl (h1.same h2 h3)
    · exact .inr ⟨h2.trans h1, h3.trans h4⟩

theorem Step.failed' {s s' s'' : St α} (h : Weak s s') (hp : s''.parent = s'.parent) (hd : s''.data = s'.data) (hf : s''.failed = true) : Step T s s'' := by
  refine ⟨h.trans (.same hp (fun _ => hf) hd), fun _ _ h => ?_⟩
  rw [hf] at h
  cases h

/-- After a state in which `active` is right, it stays so. -/
theorem Step.keep {s s' : St α} (h : Step T s s') (t : T) (hn : s.data.Nodup) (hs : s.failed = false → Sync s) (hf : s'.failed = false) : Sync s' := by
  rcases h.sync t hn hf with h1 | ⟨h1, h2⟩
  · exact h1
  · exact (hs (Weak.back h.failed hf)).same h1 h2

/-- The relation holds for all executions with the parent `p`. -/
def Keeps (T : Prop) (p : Option (List α)) {β : Type} (m : M (St α) β) : Prop := ∀ s, s.parent = p → Step T s (m s).2

/-- Moreover `active` is right in the end. -/
def Settles (T : Prop) (p : Option (List α)) (m : M (St α) Unit) : Prop :=
  ∀ s, s.parent = p → Step T s (m s).2 ∧ (T → s.data.Nodup → (m s).2.failed = false → Sync (m s).2)

variable {p : Option (List α)}

theorem Keeps.bind {β γ : Type} {m : M (St α) β} {f : β → M (St α) γ} (hm : Keeps T p m) (hf : ∀ x, Keeps T p (f x)) : Keeps T p (M.bind m f) := by
  intro s hs
  have h1 := hm s hs
  rw [M.bind_app]
  rcases h : m s with ⟨e | a, s'⟩
  · rw [h] at h1
    exact h1
  · rw [h] at h1
    exact h1.trans (hf a s' (h1.parent.trans hs))

theorem Keeps.pure {β : Type} (x : β) : Keeps T p (M.pure x : M (St α) β) := fun s _ => .refl s

theorem Keeps.raise {β : Type} (e : Err) : Keeps T p (M.raise e : M (St α) β) := fun s _ => .refl s

theorem Keeps.get {β : Type} {f : St α → M (St α) β} (hf : ∀ s, s.parent = p → Step T s (f s s).2) : Keeps T p (M.bind M.get f) := hf

theorem Keeps.forEach {β : Type} {f : β → M (St α) Unit} (hf : ∀ x, Keeps T p (f x)) : ∀ l, Keeps T p (M.forEach l f)
  | [] => .pure ()
  | x :: l => (hf x).bind fun _ => Keeps.forEach hf l

theorem tell_keeps (hr : ∀ log, Keeps T p (c.react log)) (e : Ev α) : Keeps T p (tell c e) := by
  intro s hs
  have h := hr (s.log ++ [(e, s.data)]) { s with log := s.log ++ [(e, s.data)] } hs
  have h0 : Step T s { s with log := s.log ++ [(e, s.data)] } := .same rfl id rfl rfl
  simp only [tell]
  rcases hq : c.react (s.log ++ [(e, s.data)]) { s with log := s.log ++ [(e, s.data)] } with ⟨r | r, s'⟩
  · rw [hq] at h
    exact Step.failed' (h0.trans h).toWeak rfl rfl rfl
  · rw [hq] at h
    exact h0.trans h

omit [DecidableEq α] in
theorem tell_error {e : Ev α} {s : St α} {x : Err} (h : (tell c e s).1 = .error x) : (tell c e s).2.failed = true := by
  simp only [tell] at h ⊢
  rcases hq : c.react (s.log ++ [(e, s.data)]) { s with log := s.log ++ [(e, s.data)] } with ⟨r | r, s'⟩
  · rfl
  · rw [hq] at h
    cases h

theorem drain_keeps (hr : ∀ log, Keeps T p (c.react log)) : ∀ n, Keeps T p (drain c n)
  | 0 => fun s _ => Step.failed' (.refl s) rfl rfl rfl
  | n + 1 => by
    intro s hs
    simp only [drain]
    split
    · rename_i a rest _
      have h := tell_keeps hr (.items a.1 a.2) { s with pending := some rest } hs
      have h0 : Step T s { s with pending := some rest } := .same rfl id rfl rfl
      rcases hq : tell c (.items a.1 a.2) { s with pending := some rest } with ⟨r | r, s'⟩
      · rw [hq] at h
        exact h0.trans h
      · rw [hq] at h
        exact (h0.trans h).trans (drain_keeps hr n s' (h.parent.trans hs))
    · exact .refl s

omit [DecidableEq α] in
theorem drain_error : ∀ (n : Nat) {s : St α} {x : Err}, (drain c n s).1 = .error x → (drain c n s).2.failed = true
  | 0, _, _, _ => rfl
  | n + 1, s, x, h => by
    simp only [drain] at h ⊢
    split at h
    · rename_i a rest hp
      split at h
      · exact drain_error n h
      · rename_i e s' hq
        have := tell_error (c := c) (e := .items a.1 a.2) (s := { s with pending := some rest }) (x := e) (by rw [hq])
        rw [hq] at this
        exact this
    · cases h

theorem deliver_keeps (hr : ∀ log, Keeps T p (c.react log)) (a : List α × List α) : Keeps T p (deliver c a) := by
  intro s hs
  rw [deliver]
  split
  · exact .same rfl id rfl rfl
  · have h := drain_keeps hr (c.limit + 2) { s with pending := some [a] } hs
    have h0 : Step T s { s with pending := some [a] } := .same rfl id rfl rfl
    exact (h0.trans h).trans (.same rfl id rfl rfl)

omit [DecidableEq α] in
theorem deliver_error {a : List α × List α} {s : St α} {x : Err} (h : (deliver c a s).1 = .error x) : (deliver c a s).2.failed = true := by
  rw [deliver] at h ⊢
  split at h
  · cases h
  · exact drain_error _ h

theorem setCurrent_keeps (hr : ∀ log, Keeps T p (c.react log)) (v : Option α) : Keeps T p (setCurrent c v) := by
  intro s hs
  simp only [setCurrent, M.bind_eq, M.bind_app, M.get_app]
  split
  · exact .refl s
  · refine Step.trans (b := { s with current := v }) (.same rfl id rfl rfl) ?_
    exact tell_keeps hr _ _ hs

theorem emitItems_keeps (hr : ∀ log, Keeps T p (c.react log)) (a r : List α) : Keeps T p (emitItems c a r) := by
  intro s hs
  rw [emitItems]
  split
  · exact .same rfl id rfl rfl
  · exact deliver_keeps hr _ s hs

omit [DecidableEq α] in
theorem emitItems_error {a r : List α} {s : St α} {x : Err} (h : (emitItems c a r s).1 = .error x) : (emitItems c a r s).2.failed = true := by
  rw [emitItems] at h ⊢
  split at h
  · cases h
  · rename_i hp
    rw [if_neg hp]
    exact deliver_error h

theorem resume_keeps (hr : ∀ log, Keeps T p (c.react log)) : Keeps T p (resume c) := by
  intro s hs
  have h0 : Step T s { s with paused := false } := .same rfl id rfl rfl
  simp only [resume]
  split
  · exact h0
  · have h := deliver_keeps hr (s.queue.flatMap (·.1), s.queue.flatMap (·.2)) { s with paused := false } hs
    split
    · rename_i s' hq
      rw [hq] at h
      exact (h0.trans h).trans (.same rfl id rfl rfl)
    · rename_i e s' hq
      rw [hq] at h
      exact h0.trans h

omit [DecidableEq α] in
theorem resume_error {s : St α} {x : Err} (h : (resume c s).1 = .error x) : (resume c s).2.failed = true := by
  simp only [resume] at h ⊢
  split at h
  · cases h
  · rename_i hne
    rw [if_neg hne]
    split at h
    · cases h
    · rename_i e s' hq
      have := deliver_error (c := c) (a := (s.queue.flatMap (·.1), s.queue.flatMap (·.2))) (s := { s with paused := false }) (x := e) (by rw [hq])
      rw [hq] at this
      simpa [hq] using this

theorem withPaused_keeps (hr : ∀ log, Keeps T p (c.react log)) {m : M (St α) Unit} (hm : Keeps T p m) : Keeps T p (withPaused c m) := by
  intro s hs
  have h := hm { s with paused := true } hs
  have h0 : Step T s { s with paused := true } := .same rfl id rfl rfl
  simp only [withPaused]
  rcases hq : m { s with paused := true } with ⟨r, s'⟩
  rw [hq] at h
  simp only
  split
  · exact h0.trans h
  · have h2 := resume_keeps hr s' (h.parent.trans hs)
    rcases hq2 : resume c s' with ⟨r2 | r2, s''⟩ <;> rw [hq2] at h2 <;> exact (h0.trans h).trans h2

section
variable {upd : M (St α) Unit}

/-- A change of the items followed by the event and `_update_active`. -/
theorem change_step (hr : ∀ log, Keeps T p (c.react log)) (hu : Settles T p upd) {s s1 : St α} (hs : s.parent = p) (hw : Weak s s1) (a r : List α) :
    Step T s (emitChange c upd a r s1).2 ∧ (T → s.data.Nodup → (emitChange c upd a r s1).2.failed = false → Sync (emitChange c upd a r s1).2) := by
  have hp : s1.parent = p := hw.parent.trans hs
  have h := emitItems_keeps hr a r s1 hp
  simp only [emitChange, M.bind_eq, M.bind_app]
  rcases hq : emitItems c a r s1 with ⟨e | u, s2⟩
  · have hf := emitItems_error (c := c) (a := a) (r := r) (s := s1) (x := e) (by rw [hq])
    rw [hq] at h hf
    refine ⟨Step.failed' (hw.trans h.toWeak) rfl rfl hf, fun _ _ h => ?_⟩
    rw [hf] at h
    cases h
  · rw [hq] at h
    have h2 := hu s2 (h.parent.trans hp)
    have hW := (hw.trans h.toWeak).trans h2.1.toWeak
    refine ⟨⟨hW, fun t hn hf => .inl ?_⟩, fun t hn hf => ?_⟩ <;> exact h2.2 t (h.nodup (hw.nodup hn)) hf

/-- `add` of an item that is not yet there. -/
theorem add_new (hr : ∀ log, Keeps T p (c.react log)) (hu : Settles T p upd) {s : St α} (hs : s.parent = p) {x : α} (hx : x ∉ s.data)
    (hp : s.parent.all (x ∈ ·) = true) :
    Step T s (add c upd x s).2 ∧ (T → s.data.Nodup → (add c upd x s).2.failed = false → Sync (add c upd x s).2) := by
  have hw : Weak s { s with data := s.data ++ [x] } := by
    refine ⟨rfl, id, fun hn => ?_, fun hh y hy => ?_⟩
    · rw [List.nodup_append]
      exact ⟨hn, by simp, fun a ha b hb h => hx (by simp at hb; rw [← hb, ← h]; exact ha)⟩
    · rcases List.mem_append.1 hy with hy | hy
      · exact hh y hy
      · rw [List.mem_singleton.1 hy]
        exact hp
  have := change_step hr hu hs hw [x] []
  simp only [add, M.bind_eq, M.bind_app, M.get_app, hp, if_true, hx, if_false, M.modify_app]
  exact this

theorem add_keeps (hr : ∀ log, Keeps T p (c.react log)) (hu : Settles T p upd) (x : α) : Keeps T p (add c upd x) := by
  intro s hs
  by_cases hp : s.parent.all (x ∈ ·) = true
  · by_cases hx : x ∈ s.data
    · simp only [add, M.bind_eq, M.bind_app, M.get_app, hp, if_true, hx]
      exact .refl s
    · exact (add_new hr hu hs hx hp).1
  · simp only [add, M.bind_eq, M.bind_app, M.get_app, hp]
    exact .refl s

/-- `discard` of an item that is there. -/
theorem discard_old (hr : ∀ log, Keeps T p (c.react log)) (hu : Settles T p upd) {s : St α} (hs : s.parent = p) {x : α} (hx : x ∈ s.data) :
    Step T s (discard c upd x s).2 ∧ (T → s.data.Nodup → (discard c upd x s).2.failed = false → Sync (discard c upd x s).2) := by
  have hw : Weak s { s with data := s.data.erase x } :=
    ⟨rfl, id, fun hn => hn.erase x, fun hh y hy => hh y (List.mem_of_mem_erase hy)⟩
  have := change_step hr hu hs hw [] [x]
  simp only [discard, M.bind_eq, M.bind_app, M.get_app, hx, if_true, M.modify_app]
  exact this

theorem discard_keeps (hr : ∀ log, Keeps T p (c.react log)) (hu : Settles T p upd) (x : α) : Keeps T p (discard c upd x) := by
  intro s hs
  by_cases hx : x ∈ s.data
  · exact (discard_old hr hu hs hx).1
  · simp only [discard, M.bind_eq, M.bind_app, M.get_app, hx]
    exact .refl s

theorem toggleOne_keeps (hr : ∀ log, Keeps T p (c.react log)) (hu : Settles T p upd) (x : α) : Keeps T p (toggleOne c upd x) := by
  intro s hs
  simp only [toggleOne, M.bind_eq, M.bind_app, M.get_app]
  split
  · exact discard_keeps hr hu x s hs
  · exact add_keeps hr hu x s hs

/-- The body of `clear`, from a state that is not empty or where `active` is right. -/
theorem clearBody_keeps (hr : ∀ log, Keeps T p (c.react log)) (hu : Settles T p upd) :
    ∀ s : St α, s.parent = p →
      Step T s ((M.bind M.get fun s => if s.data = [] then M.pure () else M.bind (M.modify fun s => { s with data := [] }) fun _ => emitChange c upd [] s.data) s).2 ∧
      (T → s.data.Nodup → (s.data = [] → Sync s) → ((M.bind M.get fun s => if s.data = [] then M.pure () else M.bind (M.modify fun s => { s with data := [] }) fun _ => emitChange c upd [] s.data) s).2.failed = false →
        Sync ((M.bind M.get fun s => if s.data = [] then M.pure () else M.bind (M.modify fun s => { s with data := [] }) fun _ => emitChange c upd [] s.data) s).2) := by
  intro s hs
  simp only [M.bind_app, M.get_app]
  by_cases hd : s.data = []
  · simp only [hd, if_true, M.pure_app]
    exact ⟨.refl s, fun _ _ h _ => h trivial⟩
  · simp only [hd, if_false, M.bind_app, M.modify_app]
    have hw : Weak s { s with data := [] } := ⟨rfl, id, fun _ => by simp, fun _ y hy => by simp at hy⟩
    have := change_step hr hu hs hw [] s.data
    exact ⟨this.1, fun t hn _ hf => this.2 t hn hf⟩

theorem baseClear_keeps (hr : ∀ log, Keeps T p (c.react log)) (hu : Settles T p upd) : Keeps T p (baseClear c upd) :=
  withPaused_keeps hr fun s hs => (clearBody_keeps hr hu s hs).1

/-- What follows `withPaused` if its body ends with the right `active`. -/
theorem withPaused_sync (hr : ∀ log, Keeps T p (c.react log)) {m : M (St α) Unit} (hm : Keeps T p m) (t : T) {s : St α} (hs : s.parent = p) (hn : s.data.Nodup)
    (h : (m { s with paused := true }).2.failed = false → Sync (m { s with paused := true }).2) (hf : (withPaused c m s).2.failed = false) :
    Sync (withPaused c m s).2 := by
  have h1 := hm { s with paused := true } hs
  simp only [withPaused] at hf ⊢
  rcases hq : m { s with paused := true } with ⟨r, s'⟩
  rw [hq] at h h1 hf
  simp only at hf ⊢
  split at hf
  · rename_i hp
    rw [if_pos hp]
    exact h hf
  · rename_i hp
    rw [if_neg hp]
    have h2 := resume_keeps hr s' (h1.parent.trans hs)
    rcases hq2 : resume c s' with ⟨r2 | r2, s''⟩ <;> rw [hq2] at h2 hf <;> exact h2.keep t (h1.nodup hn) h hf

theorem clear_keeps (hr : ∀ log, Keeps T p (c.react log)) (hu : Settles T p upd) (k : Bool) : Keeps T p (clear c upd k) := by
  cases k
  · exact (setCurrent_keeps hr none).bind fun _ => baseClear_keeps hr hu
  · exact (Keeps.pure ()).bind fun _ => baseClear_keeps hr hu

theorem update_keeps (hr : ∀ log, Keeps T p (c.react log)) (hu : Settles T p upd) (o : List (List α)) : Keeps T p (update c upd o) :=
  withPaused_keeps hr (.forEach (fun x => add_keeps hr hu x) _)

theorem differenceUpdate_keeps (hr : ∀ log, Keeps T p (c.react log)) (hu : Settles T p upd) (o : List (List α)) : Keeps T p (differenceUpdate c upd o) :=
  withPaused_keeps hr (.forEach (fun x => discard_keeps hr hu x) _)

theorem symmetricDifferenceUpdate_keeps (hr : ∀ log, Keeps T p (c.react log)) (hu : Settles T p upd) (xs : List α) :
    Keeps T p (symmetricDifferenceUpdate c upd xs) := withPaused_keeps hr (.forEach (fun x => toggleOne_keeps hr hu x) _)

theorem intersectionBody_keeps (hr : ∀ log, Keeps T p (c.react log)) (hu : Settles T p upd) (o : List (List α)) :
    Keeps T p (if o = [] then M.raise .type else M.bind M.get fun s => M.forEach (s.data.filter fun x => !o.all (x ∈ ·)) (discard c upd)) := by
  split
  · exact .raise _
  · exact .get fun s hs => Keeps.forEach (fun x => discard_keeps hr hu x) _ s hs

theorem intersectionUpdate_keeps (hr : ∀ log, Keeps T p (c.react log)) (hu : Settles T p upd) (o : List (List α)) :
    Keeps T p (intersectionUpdate c upd o) := withPaused_keeps hr (intersectionBody_keeps hr hu o)

theorem selectOnly_keeps (hr : ∀ log, Keeps T p (c.react log)) (hu : Settles T p upd) (x : α) : Keeps T p (selectOnly c upd x) :=
  (intersectionUpdate_keeps hr hu _).bind fun _ => add_keeps hr hu x

/-- The loop that discards the items other than `x`. -/
theorem discards_sync (hr : ∀ log, Keeps T p (c.react log)) (hu : Settles T p upd) (t : T) {s : St α} (hs : s.parent = p) (hn : s.data.Nodup)
    {l : List α} (hl : l ≠ []) (hm : ∀ y ∈ l, y ∈ s.data) (hf : (M.forEach l (discard c upd) s).2.failed = false) :
    Sync (M.forEach l (discard c upd) s).2 := by
  cases l with
  | nil => exact absurd rfl hl
  | cons y l =>
    have h1 := discard_old hr hu hs (hm y (by simp))
    simp only [M.forEach, M.bind_app] at hf ⊢
    rcases hq : discard c upd y s with ⟨r | r, s'⟩ <;> rw [hq] at hf h1
    · exact h1.2 t hn hf
    · exact (Keeps.forEach (fun x => discard_keeps hr hu x) l s' (h1.1.parent.trans hs)).keep t (h1.1.nodup hn) (h1.2 t hn) hf

/-- `intersection_update` of an empty selection raises only errors of listeners. -/
theorem interEmpty {s : St α} {x : α} (he : s.data = []) {r : Err} (h : (intersectionUpdate c upd [[x]] s).1 = .error r) :
    (intersectionUpdate c upd [[x]] s).2.failed = true := by
  have e : intersectionUpdate c upd [[x]] s = withPaused c (M.pure ()) s := by
    simp only [intersectionUpdate, withPaused, M.bind_eq, M.bind_app, M.get_app, he, List.filter_nil, M.forEach,
      List.cons_ne_nil, if_false, M.pure_app]
  rw [e] at h ⊢
  simp only [withPaused, M.pure_app] at h ⊢
  split at h
  · cases h
  · rename_i hp
    rw [if_neg hp]
    split at h
    · cases h
    · rename_i e s' hq
      have := resume_error (c := c) (s := { s with paused := true }) (x := e) (by rw [hq])
      rw [hq] at this
      simpa [hq] using this

/-- `active = x` leaves `active` right. -/
theorem selectOnly_sync (hr : ∀ log, Keeps T p (c.react log)) (hu : Settles T p upd) (t : T) {s : St α} (hs : s.parent = p) (hn : s.data.Nodup)
    {x : α} (ha : s.active = some x) (hx : s.data = [x] ∨ p.all (x ∈ ·) = true) (hf : (selectOnly c upd x s).2.failed = false) :
    Sync (selectOnly c upd x s).2 := by
  by_cases hd : s.data = [x]
  · refine (selectOnly_keeps hr hu x s hs).keep t hn (fun _ y => ?_) hf
    rw [ha, hd]
    simp
  replace hx := hx.resolve_left hd
  by_cases he : s.data = []
  · -- nothing is discarded
    have hI := intersectionUpdate_keeps hr hu [[x]] s hs
    simp only [selectOnly, M.bind_eq, M.bind_app] at hf ⊢
    rcases hq : intersectionUpdate c upd [[x]] s with ⟨r | r, s2⟩
    · exfalso
      have := interEmpty (c := c) (upd := upd) (x := x) he (r := r) (by rw [hq])
      rw [hq] at hf this
      simp only at hf this
      rw [this] at hf
      cases hf
    · rw [hq] at hf hI
      simp only at hf ⊢
      have hp2 : s2.parent = p := hI.parent.trans hs
      have hA := add_keeps hr hu x s2 hp2
      rcases hI.sync t hn (Weak.back hA.failed hf) with h1 | ⟨h1, _⟩
      · exact hA.keep t (hI.nodup hn) (fun _ => h1) hf
      · refine (add_new hr hu hp2 (x := x) ?_ ?_).2 t (hI.nodup hn) hf
        · rw [h1, he]
          simp
        · rw [hp2]
          exact hx
  · -- something is discarded
    have hl : (s.data.filter fun y => !([[x]] : List (List α)).all (y ∈ ·)) ≠ [] := by
      intro h
      rw [List.filter_eq_nil_iff] at h
      have h' : ∀ y ∈ s.data, y = x := fun y hy => by simpa using h y hy
      revert hd he hn h'
      cases s.data with
      | nil => exact fun _ _ h _ => absurd rfl h
      | cons a l =>
        intro hn hd _ h
        have ha : a = x := h a (by simp)
        subst ha
        cases l with
        | nil => exact hd rfl
        | cons b l =>
          have hb : b = a := h b (by simp)
          subst hb
          simp at hn
    have hI := intersectionUpdate_keeps hr hu [[x]] s hs
    have hS : (intersectionUpdate c upd [[x]] s).2.failed = false → Sync (intersectionUpdate c upd [[x]] s).2 := by
      refine withPaused_sync hr (intersectionBody_keeps hr hu [[x]]) t hs hn fun hf' => ?_
      simp only [List.cons_ne_nil, if_false, M.bind_app, M.get_app] at hf' ⊢
      exact discards_sync (s := { s with paused := true }) hr hu t hs hn hl (fun y hy => (List.mem_filter.1 hy).1) hf'
    simp only [selectOnly, M.bind_eq, M.bind_app] at hf ⊢
    rcases hq : intersectionUpdate c upd [[x]] s with ⟨r | r, s2⟩ <;> rw [hq] at hf hI hS
    · exact hS hf
    · exact (add_keeps hr hu x s2 (hI.parent.trans hs)).keep t (hI.nodup hn) hS hf

/-- `active = None` leaves `active` right. -/
theorem clear_sync (hr : ∀ log, Keeps T p (c.react log)) (hu : Settles T p upd) (t : T) {s : St α} (hs : s.parent = p) (hn : s.data.Nodup)
    (ha : s.active = none) (hf : (clear c upd false s).2.failed = false) : Sync (clear c upd false s).2 := by
  have hC := setCurrent_keeps hr none s hs
  simp only [clear, Bool.false_eq_true, if_false, M.bind_eq, M.bind_app] at hf ⊢
  rcases hq : setCurrent c none s with ⟨r | r, s2⟩
  · exfalso
    have : (setCurrent c none s).2.failed = true := by
      simp only [setCurrent, M.bind_eq, M.bind_app, M.get_app] at hq ⊢
      split at hq
      · cases hq
      · rename_i h
        rw [if_neg h]
        simp only [M.bind_app, M.modify_app] at hq ⊢
        exact tell_error (c := c) (x := r) (by rw [hq])
    rw [hq] at hf this
    simp only at hf this
    rw [this] at hf
    cases hf
  · rw [hq] at hf hC
    simp only at hf ⊢
    have hp2 : s2.parent = p := hC.parent.trans hs
    have hB := baseClear_keeps hr hu s2 hp2
    refine withPaused_sync hr (fun s hs => (clearBody_keeps hr hu s hs).1) t hp2 (hC.nodup hn) (fun hf' => ?_) hf
    refine (clearBody_keeps hr hu { s2 with paused := true } hp2).2 t (hC.nodup hn) (fun he => ?_) hf'
    rcases hC.sync t hn (Weak.back hB.failed hf) with h1 | ⟨h1, h2⟩
    · exact h1.same rfl rfl
    · intro x
      simp only at he ⊢
      rw [he, h2, ha]
      simp

/-- The setter of `active`, for items of the parent or for the only item. -/
theorem setActive_step (hr : ∀ log, Keeps T p (c.react log)) (hu : Settles T p upd) (v : Option α) {s : St α} (hs : s.parent = p)
    (hv : T → ∀ x, v = some x → s.data = [x] ∨ p.all (x ∈ ·) = true) :
    Step T s (setActive c upd v s).2 ∧ (T → s.data.Nodup → v ≠ s.active → (setActive c upd v s).2.failed = false → Sync (setActive c upd v s).2) := by
  by_cases he : v = s.active
  · simp only [setActive, M.bind_eq, M.bind_app, M.get_app, he, if_true]
    exact ⟨.refl s, fun _ _ h => absurd rfl h⟩
  · simp only [setActive, M.bind_eq, M.bind_app, M.get_app, he, if_false, M.modify_app]
    have hw0 : Weak s { s with active := v } := .same rfl id rfl
    have key : ∀ m : M (St α) Unit, Keeps T p m → (T → s.data.Nodup → (m { s with active := v }).2.failed = false → Sync (m { s with active := v }).2) →
        Step T s (M.bind m (fun _ => M.bind (setCurrent c v) fun _ => tell c (.active v)) { s with active := v }).2 ∧
        (T → s.data.Nodup → v ≠ s.active → (M.bind m (fun _ => M.bind (setCurrent c v) fun _ => tell c (.active v)) { s with active := v }).2.failed = false →
          Sync (M.bind m (fun _ => M.bind (setCurrent c v) fun _ => tell c (.active v)) { s with active := v }).2) := by
      intro m hm hsync
      have h1 := hm { s with active := v } hs
      rw [M.bind_app]
      rcases hq : m { s with active := v } with ⟨r | r, s'⟩ <;> rw [hq] at h1 hsync
      · exact ⟨⟨hw0.trans h1.toWeak, fun t hn hf => .inl (hsync t hn hf)⟩, fun t hn _ hf => hsync t hn hf⟩
      · have h2 : Keeps T p (M.bind (setCurrent c v) fun _ => tell c (.active v)) :=
          (setCurrent_keeps hr v).bind fun _ => tell_keeps hr _
        have h3 := h2 s' (h1.parent.trans hs)
        have h4 : T → s.data.Nodup → (M.bind (setCurrent c v) (fun _ => tell c (.active v)) s').2.failed = false →
            Sync (M.bind (setCurrent c v) (fun _ => tell c (.active v)) s').2 :=
          fun t hn hf => h3.keep t (h1.nodup hn) (hsync t hn) hf
        exact ⟨⟨(hw0.trans h1.toWeak).trans h3.toWeak, fun t hn hf => .inl (h4 t hn hf)⟩, fun t hn _ hf => h4 t hn hf⟩
    cases v with
    | none => exact key _ (clear_keeps hr hu false) fun t hn hf => clear_sync (s := { s with active := none }) hr hu t hs hn rfl hf
    | some x => exact key _ (selectOnly_keeps hr hu x) fun t hn hf =>
        selectOnly_sync (s := { s with active := some x }) hr hu t hs hn rfl (hv t x rfl) hf

end

theorem updateActive_one {n : Nat} {s : St α} {x : α} (h : s.data = [x]) : updateActive c (n + 1) s = setActive c (updateActive c n) (some x) s := by
  simp only [updateActive, M.bind_eq, M.bind_app, M.get_app, h]

theorem updateActive_other {n : Nat} {s : St α} (h : ∀ x, s.data ≠ [x]) :
    updateActive c (n + 1) s = if s.active = none then (.ok (), s) else tell c (.active none) { s with active := none } := by
  have e : updateActive c (n + 1) s = (if s.active = none then M.pure () else
      M.bind (M.modify fun s => { s with active := none }) fun _ => tell c (.active none) : M (St α) Unit) s := by
    simp only [updateActive, M.bind_eq, M.bind_app, M.get_app]
    rcases hd : s.data with _ | ⟨a, _ | ⟨b, l⟩⟩
    · rfl
    · exact absurd hd (h a)
    · rfl
  rw [e]
  split
  · rfl
  · rfl

theorem updateActive_settles (hr : ∀ log, Keeps T p (c.react log)) : ∀ n, Settles T p (updateActive c n)
  | 0 => fun s _ => ⟨Step.failed' (.refl s) rfl rfl rfl, fun _ _ h => by cases h⟩
  | n + 1 => by
    intro s hs
    have hu := updateActive_settles hr n
    by_cases hd : ∃ x, s.data = [x]
    · obtain ⟨x, hd⟩ := hd
      rw [updateActive_one hd]
      have h := setActive_step hr hu (some x) hs fun _ y hy => by cases hy; exact .inl hd
      refine ⟨h.1, fun t hn hf => ?_⟩
      by_cases ha : some x = s.active
      · refine h.1.keep t hn (fun _ y => ?_) hf
        rw [← ha, hd]
        simp
      · exact h.2 t hn ha hf
    · have hnx : ∀ x, s.data ≠ [x] := fun x h => hd ⟨x, h⟩
      rw [updateActive_other hnx]
      split
      · rename_i ha
        refine ⟨.refl s, fun _ _ _ x => ?_⟩
        rw [ha]
        exact ⟨(fun h => by cases h), fun h => absurd h (hnx x)⟩
      · have h1 := tell_keeps hr (.active none) { s with active := none } hs
        have hS : Sync { s with active := none } := fun x => ⟨(fun h => by cases h), fun h => absurd h (hnx x)⟩
        have hw0 : Weak s { s with active := none } := .same rfl id rfl
        have h2 : T → s.data.Nodup → (tell c (.active none) { s with active := none }).2.failed = false → Sync (tell c (.active none) { s with active := none }).2 :=
          fun t hn hf => h1.keep t hn (fun _ => hS) hf
        exact ⟨⟨hw0.trans h1.toWeak, fun t hn hf => .inl (h2 t hn hf)⟩, h2⟩

/-- `active` is only set to items of the parent. -/
def Op.Fine (p : Option (List α)) : Op α → Prop
  | .setActive (some x) => p.all (x ∈ ·) = true
  | _ => True

theorem step_keeps (hr : ∀ log, Keeps T p (c.react log)) (o : Op α) (ho : T → o.Fine p) : Keeps T p (step c o) := by
  have hu := updateActive_settles (c := c) hr c.depth
  have hd := fun x => discard_keeps hr hu x
  have ha := fun x => add_keeps hr hu x
  cases o <;> simp only [step, M.bind_eq, M.pure_eq]
  case add x => exact (ha x).bind fun _ => .pure _
  case discard x => exact (hd x).bind fun _ => .pure _
  case remove x =>
    refine .get fun s hs => ?_
    by_cases hx : x ∈ s.data
    · rw [if_pos hx]
      exact ((hd x).bind fun _ => .pure _) s hs
    · rw [if_neg hx]
      exact .refl s
  case pop =>
    refine .get fun s hs => ?_
    cases s.data
    · exact .refl s
    · exact ((hd _).bind fun _ => .pure _) s hs
  case clear k => exact (clear_keeps hr hu k).bind fun _ => .pure _
  case update o => exact (update_keeps hr hu o).bind fun _ => .pure _
  case differenceUpdate o => exact (differenceUpdate_keeps hr hu o).bind fun _ => .pure _
  case intersectionUpdate o => exact (intersectionUpdate_keeps hr hu o).bind fun _ => .pure _
  case symmetricDifferenceUpdate xs => exact (symmetricDifferenceUpdate_keeps hr hu xs).bind fun _ => .pure _
  case ior xs => exact (Keeps.forEach ha xs).bind fun _ => .pure _
  case iand xs => exact .get fun s hs => ((Keeps.forEach hd _).bind fun _ => .pure _) s hs
  case isub xs => exact (Keeps.forEach hd xs).bind fun _ => .pure _
  case ixor xs => exact (Keeps.forEach (fun x => toggleOne_keeps hr hu x) xs).bind fun _ => .pure _
  case setActive v =>
    refine Keeps.bind (fun s hs => (setActive_step hr hu v hs fun t x hx => .inr ?_).1) fun _ => .pure _
    subst hx
    exact ho t
  case toggle x => exact (symmetricDifferenceUpdate_keeps hr hu [x]).bind fun _ => .pure _
  case selectOnly x => exact (selectOnly_keeps hr hu x).bind fun _ => .pure _
  all_goals exact fun s _ => .refl s

theorem run_keeps (hr : ∀ log, Keeps T p (c.react log)) (ops : List (Op α)) (ho : T → ∀ o ∈ ops, o.Fine p) :
    ∀ s, s.parent = p → Step T s (run c ops s).2 := by
  induction ops with
  | nil => exact fun s _ => .refl s
  | cons o ops ih =>
    intro s hs
    have h := step_keeps hr o (fun t => ho t o (by simp)) s hs
    exact h.trans (ih (fun t o' ho' => ho t o' (by simp [ho'])) _ (h.parent.trans hs))

/-- All operations in a program satisfy `P`, whatever the results are. -/
def Prog.All (P : Op α → Prop) : Prog α → Prop
  | .done | .raise => True
  | .op o k => P o ∧ ∀ r, (k r).All P

theorem exec_keeps (hr : ∀ log, Keeps T p (c.react log)) : ∀ q : Prog α, (T → q.All (Op.Fine p)) → Keeps T p (exec c q)
  | .done, _ => .pure ()
  | .raise, _ => .raise _
  | .op o k, h => by
    intro s hs
    have h1 := step_keeps hr o (fun t => (h t).1) s hs
    exact h1.trans (exec_keeps hr (k (step c o s).1) (fun t => (h t).2 _) _ (h1.parent.trans hs))

theorem listening_keeps {q : List (Ev α × List α) → Prog α} (hq : T → ∀ log, (q log).All (Op.Fine p)) (limit depth : Nat) :
    ∀ n log, Keeps T p ((listening q limit depth n).react log)
  | 0, _ => .raise _
  | n + 1, log => exec_keeps (fun log => listening_keeps hq limit depth n log) (q log) fun t => hq t log

end Psygnal.SelN
