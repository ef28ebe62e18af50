import Verif.EventedSetSteps

/-!
# Listeners that operate on the set: lemmas for C65
-/

namespace Psygnal.ES
open Psygnal.Py (M Err)

variable {α : Type} [DecidableEq α] {c : Cfg α}

/-- The methods that collect their changes while the signal is paused. -/
def Op.Bulk : Op α → Prop
  | .clear | .update _ | .differenceUpdate _ | .differenceUpdateSelf | .intersectionUpdate _
  | .symmetricDifferenceUpdate _ | .symmetricDifferenceUpdateSelf | .isubSelf | .ixorSelf => True
  | _ => False

/-- All operations in a program satisfy `P`, whatever the results are. -/
def Prog.All (P : Op α → Prop) : Prog α → Prop
  | .done | .raise => True
  | .op o k => P o ∧ ∀ r, (k r).All P

/-- The events emitted so far and those that wait are exact and lead from `d` to the present elements.  `n`: listeners are being
called; `b`: nothing is left of collected changes. -/
structure Told (d : List α) (n b : Bool) (s : St α) : Prop where
  paused : s.paused = false
  nodup : s.data.Nodup
  nested : s.pending.isSome = n
  queue : b = true → s.queue = []
  story : ∃ es, es.map Prod.fst = s.log.map Prod.fst ++ s.pending.getD [] ∧ Story d es s.data

/-- What is known of a computation: within listeners, it does not fail because of listeners; and unless it fails so, observers
stay informed. -/
def Keep {β : Type} (d : List α) (n b : Bool) (m : M (St α) β) : Prop :=
  ∀ s, Told d n b s → (n = true → (m s).1 ≠ .error .emitLoop) ∧ ((m s).1 ≠ .error .emitLoop → Told d n b (m s).2)

/-- The listeners keep observers informed, or will be called later. -/
def Calm (c : Cfg α) (d : List α) (n b : Bool) : Prop :=
  n = true ∨ ∀ log s, Told d true b s → Told d true b (c.react log s).2

section
omit [DecidableEq α]

theorem Keep.bind {β γ : Type} {d : List α} {n b : Bool} {m : M (St α) β} {f : β → M (St α) γ} (hm : Keep d n b m)
    (hf : ∀ x, Keep d n b (f x)) : Keep d n b (m >>= f) := by
  intro s hs
  have h1 := hm s hs
  simp only [M.bind_eq, M.bind_app]
  rcases hr : m s with ⟨_ | x, s'⟩ <;> rw [hr] at h1
  · rename_i e
    simpa using h1
  · exact hf x s' (h1.2 (by simp))

theorem Keep.pure {β : Type} {d : List α} {n b : Bool} (x : β) : Keep d n b (Pure.pure x : M (St α) β) :=
  fun _ hs => ⟨by simp, fun _ => hs⟩

theorem Keep.raise {β : Type} {d : List α} {n b : Bool} {e : Err} (he : e ≠ .emitLoop) :
    Keep d n b (M.raise e : M (St α) β) :=
  fun _ hs => ⟨fun _ => by simpa using he, fun _ => hs⟩

theorem Keep.get {d : List α} {n b : Bool} : Keep d n b (M.get : M (St α) (St α)) :=
  fun _ hs => ⟨by simp, fun _ => hs⟩

theorem Keep.forEach {β : Type} {d : List α} {n b : Bool} {f : β → M (St α) Unit} (hf : ∀ x, Keep d n b (f x)) (l : List β) :
    Keep d n b (M.forEach l f) := by
  induction l with
  | nil => exact Keep.pure _
  | cons x l ih => exact Keep.bind (m := f x) (hf x) fun _ => ih

theorem Told.hist {d : List α} {n b : Bool} {s : St α} (h : Told d n b s) (l : List (Prim α)) :
    Told d n b { s with hist := l } := ⟨h.paused, h.nodup, h.nested, h.queue, h.story⟩

/-- Calling the listeners until nothing waits. -/
theorem drain_told {d : List α} {b : Bool} (hc : ∀ log s, Told d true b s → Told d true b (c.react log s).2) (k : Nat)
    {s : St α} (hs : Told d true b s) (hok : (drain c k s).1 ≠ .error .emitLoop) :
    Told d true b (drain c k s).2 ∧ (drain c k s).2.pending = some [] := by
  induction k generalizing s with
  | zero => simp [drain] at hok
  | succ k ih =>
    have hn := hs.nested
    simp only [drain] at hok ⊢
    rcases hp : s.pending with _ | _ | ⟨a, rest⟩
    · simp [hp] at hn
    · exact ⟨hs, hp⟩
    · simp only [hp] at hok ⊢
      have h1 : Told d true b { s with log := s.log ++ [(a, s.data)], pending := some rest } := by
        refine ⟨hs.paused, hs.nodup, rfl, hs.queue, ?_⟩
        obtain ⟨es, h2, h3⟩ := hs.story
        exact ⟨es, by simpa [hp] using h2, h3⟩
      have h2 := hc (s.log ++ [(a, s.data)]) _ h1
      rcases hr : c.react (s.log ++ [(a, s.data)]) { s with log := s.log ++ [(a, s.data)], pending := some rest } with
        ⟨_ | _, s'⟩ <;> rw [hr] at h2
      · simp [hr] at hok
      · simp only [hr] at hok ⊢
        split at hok
        · simp at hok
        · rename_i hf
          simp only [hf]
          exact ih h2 hok

/-- Telling the listeners of a change, at once or later. -/
theorem deliver_told {d : List α} {n b : Bool} (hc : Calm c d n b) {s : St α} {old : List α} {a : List α × List α}
    (hp : s.paused = false) (hd : s.data.Nodup) (hn : s.pending.isSome = n) (hq : b = true → s.queue = [])
    (hs : ∃ es, es.map Prod.fst = s.log.map Prod.fst ++ s.pending.getD [] ∧ Story d es old) (he : Exact old a s.data) :
    (n = true → (deliver c a s).1 ≠ .error .emitLoop) ∧
    ((deliver c a s).1 ≠ .error .emitLoop → Told d n b (deliver c a s).2) := by
  obtain ⟨es, h1, h2⟩ := hs
  have h3 : Story d (es ++ [(a, s.data)]) s.data := h2.trans (.cons he (.nil fun _ => Iff.rfl))
  rcases hpd : s.pending with _ | q
  · simp only [hpd, Option.isSome_none] at hn
    subst hn
    simp only [hpd, Option.getD_none, List.append_nil] at h1
    refine ⟨by simp, fun hok => ?_⟩
    simp only [deliver, hpd] at hok ⊢
    have h4 : Told d true b { s with pending := some [a] } :=
      ⟨hp, hd, rfl, hq, es ++ [(a, s.data)], by simp [h1], h3⟩
    obtain ⟨h5, h6⟩ := drain_told (hc.resolve_left (by simp)) _ h4 hok
    refine ⟨h5.paused, h5.nodup, rfl, h5.queue, ?_⟩
    simpa [h6] using h5.story
  · simp only [hpd, Option.isSome_some] at hn
    subst hn
    simp only [hpd, Option.getD_some] at h1
    simp only [deliver, hpd]
    exact ⟨by simp, fun _ => ⟨hp, hd, rfl, hq, es ++ [(a, s.data)], by simp [h1], h3⟩⟩

end

theorem add_keep (hf : c.Fair) (he : c.evented = true) {d : List α} {n b : Bool} (hc : Calm c d n b) (x : α) :
    Keep d n b (add c x) := by
  intro s hs
  simp only [add, M.bind_eq, M.bind_app, M.get_app, M.modify_app]
  by_cases hx : x ∈ s.data
  · simp only [hx, if_true]
    exact ⟨by simp, fun _ => hs.hist _⟩
  · have hd := (Diff.refl hs.nodup).add hf hx (by simp)
    simp only [hx, if_false, M.bind_app, M.modify_app, emitChange, he, if_true, hs.paused, Bool.false_eq_true]
    exact deliver_told hc rfl hd.nodup hs.nested hs.queue hs.story (hd.exact (by simp))

theorem discard_keep (he : c.evented = true) {d : List α} {n b : Bool} (hc : Calm c d n b) (x : α) :
    Keep d n b (discard c x) := by
  intro s hs
  simp only [discard, M.bind_eq, M.bind_app, M.get_app, M.modify_app]
  by_cases hx : x ∈ s.data
  · have hd := (Diff.refl hs.nodup).discard hx (by simp)
    simp only [hx, if_true, M.bind_app, M.modify_app, emitChange, he, hs.paused, Bool.false_eq_true, if_false]
    exact deliver_told hc rfl hd.nodup hs.nested hs.queue hs.story (hd.exact (by simp))
  · simp only [hx, if_false]
    exact ⟨by simp, fun _ => hs.hist _⟩

theorem toggle_keep (hf : c.Fair) (he : c.evented = true) {d : List α} {n b : Bool} (hc : Calm c d n b) (x : α) :
    Keep d n b (toggle c x) := by
  refine Keep.get.bind fun s => ?_
  split
  · exact discard_keep he hc x
  · exact add_keep hf he hc x

omit [DecidableEq α] in
/-- A collecting context around a body that collects. -/
theorem withPaused_keep (he : c.evented = true) {d : List α} {n : Bool} (hc : Calm c d n false) {m : M (St α) Unit}
    (hm : ∀ s : St α, s.data.Nodup → s.queue = [] → (m { s with paused := c.evented }).1 ≠ .error .emitLoop ∧ ∃ A R,
      Acc c s.data A R s.log s.pending (m { s with paused := c.evented }).2) : Keep d n true (withPaused c m) := by
  intro s hs
  obtain ⟨h1, A, R, ha⟩ := hm s hs.nodup (hs.queue rfl)
  rw [he] at h1 ha
  rcases hr : m { s with paused := true } with ⟨r, s1⟩
  rw [hr] at h1 ha
  simp only at h1 ha
  simp only [withPaused, he, if_true, hr, hs.paused, Bool.false_eq_true, if_false, resume]
  have hA := ha.queueA he
  have hR := ha.queueR he
  by_cases hq : s1.queue = []
  · simp only [hq, if_true]
    refine ⟨fun _ => h1, fun _ => ⟨rfl, ha.diff.nodup, by rw [ha.idle]; exact hs.nested, fun _ => rfl, ?_⟩⟩
    obtain ⟨es, h2, h3⟩ := hs.story
    refine ⟨es, by simpa [ha.log_eq, ha.idle] using h2, ?_⟩
    simp only [hq, List.flatMap_nil] at hA hR
    have h4 : Story s.data [] s1.data := .nil fun y => by
      have := ha.diff.mem y
      rw [← hA, ← hR] at this
      simpa [iff_comm] using this
    simpa using h3.trans h4
  · have hx : Exact s.data (reduceEvents s1.queue) s1.data := by
      rw [reduceEvents, hA, hR]
      refine ha.diff.exact ?_
      rw [← hA, ← hR]
      rcases hs1 : s1.queue with _ | ⟨q, qs⟩
      · exact absurd hs1 hq
      · have := ha.queueNe q (by simp [hs1])
        simp only [List.flatMap_cons, ne_eq, List.append_eq_nil_iff]
        rcases this with h | h
        · exact .inl fun e => h e.1
        · exact .inr fun e => h e.1
    have hdel := deliver_told hc (s := { s1 with paused := false }) rfl ha.diff.nodup
      (by simpa [ha.idle] using hs.nested) (by simp) (by simpa [ha.log_eq, ha.idle] using hs.story) hx
    simp only [hq, if_false]
    rcases hr2 : deliver c (reduceEvents s1.queue) { s1 with paused := false } with ⟨e | _, s2⟩ <;> rw [hr2] at hdel
    · by_cases e2 : e = .emitLoop
      · subst e2
        simpa using hdel
      · refine ⟨fun _ => by simpa using e2, fun _ => ?_⟩
        exfalso
        revert hr2
        simp only [deliver]
        rcases s1.pending with _ | q
        · simp only
          have hd : ∀ k s, (drain c k s).1 ≠ .error e := by
            intro k
            induction k with
            | zero =>
              intro s h
              simp only [drain, M.raise_app, Except.error.injEq] at h
              exact e2 h.symm
            | succ k ih =>
              intro s h
              simp only [drain] at h
              split at h
              · split at h
                · simp only [Except.error.injEq] at h
                  exact e2 h.symm
                · split at h
                  · simp only [Except.error.injEq] at h
                    exact e2 h.symm
                  · exact ih _ h
              · simp at h
          intro h
          exact hd _ _ (congrArg Prod.fst h)
        · simp
    · have h5 := hdel.2 (by simp)
      exact ⟨fun _ => h1, fun _ => ⟨h5.paused, h5.nodup, h5.nested, fun _ => rfl, h5.story⟩⟩

theorem step_keep (hf : c.Fair) (he : c.evented = true) {d : List α} {n b : Bool} (op : Op α) (ho : op.Plain)
    (hc : Calm c d n b) (hb : op.Bulk → b = true ∧ Calm c d n false) : Keep d n b (step c op) := by
  cases op with
  | add x => exact (add_keep hf he hc x).bind fun _ => Keep.pure _
  | discard x => exact (discard_keep he hc x).bind fun _ => Keep.pure _
  | remove x =>
    refine Keep.bind (m := remove c x) (Keep.get.bind fun s => ?_) fun _ => Keep.pure _
    split
    · exact discard_keep he hc x
    · exact Keep.raise (by simp)
  | pop =>
    refine Keep.bind (m := pop c) (Keep.get.bind fun s => ?_) fun _ => Keep.pure _
    rcases s.data with _ | ⟨x, l⟩
    · exact Keep.raise (by simp)
    · exact (discard_keep he hc x).bind fun _ => Keep.pure _
  | clear | isubSelf | ixorSelf =>
    obtain ⟨rfl, hc'⟩ := hb trivial
    refine Keep.bind (m := clear c) (withPaused_keep he hc' fun s h1 h2 => ?_) fun _ => Keep.pure _
    obtain ⟨s1, A, R, h3, h4, -⟩ := clear_acc (c := c) h1 h2
    rw [h3]
    exact ⟨by simp, A, R, h4⟩
  | update o =>
    obtain ⟨rfl, hc'⟩ := hb trivial
    refine Keep.bind (m := update c o) (withPaused_keep he hc' fun s h1 h2 => ?_) fun _ => Keep.pure _
    obtain ⟨A, s1, h3, h4, -⟩ := adds_acc hf o.flatten (acc_start (c := c) h1 h2)
    rw [h3]
    exact ⟨by simp, A, [], h4⟩
  | differenceUpdate o =>
    obtain ⟨rfl, hc'⟩ := hb trivial
    refine Keep.bind (m := differenceUpdate c o) (withPaused_keep he hc' fun s h1 h2 => ?_) fun _ => Keep.pure _
    obtain ⟨R, s1, h3, h4, -⟩ := discards_acc o.flatten (acc_start (c := c) h1 h2)
    rw [h3]
    exact ⟨by simp, [], R, h4⟩
  | intersectionUpdate o =>
    obtain ⟨rfl, hc'⟩ := hb trivial
    refine Keep.bind (m := intersectionUpdate c o) (withPaused_keep he hc' fun s h1 h2 => ?_) fun _ => Keep.pure _
    obtain ⟨R, s1, h3, h4, -⟩ := discards_acc (s.data.filter fun x => !o.all (x ∈ ·)) (acc_start (c := c) h1 h2)
    have ho' : o ≠ [] := ho
    simp only [ho', if_false, M.bind_eq, M.bind_app, M.get_app]
    rw [h3]
    exact ⟨by simp, [], R, h4⟩
  | symmetricDifferenceUpdate xs =>
    obtain ⟨rfl, hc'⟩ := hb trivial
    refine Keep.bind (m := symmetricDifferenceUpdate c xs) (withPaused_keep he hc' fun s h1 h2 => ?_) fun _ => Keep.pure _
    obtain ⟨A, R, s1, h3, h4, -⟩ := toggles_acc hf xs ho (acc_start (c := c) h1 h2) (by simp) (by simp)
    rw [h3]
    exact ⟨by simp, A, R, h4⟩
  | differenceUpdateSelf | symmetricDifferenceUpdateSelf => exact ho.elim
  | ior xs => exact (Keep.forEach (add_keep hf he hc) _).bind fun _ => Keep.pure _
  | iand xs =>
    exact Keep.bind (m := iand c xs) (Keep.get.bind fun s => Keep.forEach (discard_keep he hc) _) fun _ => Keep.pure _
  | isub xs => exact (Keep.forEach (discard_keep he hc) _).bind fun _ => Keep.pure _
  | ixor xs => exact (Keep.forEach (toggle_keep hf he hc) _).bind fun _ => Keep.pure _
  | intersection o =>
    have ho' : o ≠ [] := ho
    simp only [step, ho', if_false]
    exact Keep.get.bind fun _ => Keep.pure _
  | _ => exact Keep.get.bind fun _ => Keep.pure _

/-- What a listener does keeps observers informed. -/
theorem exec_told (hf : c.Fair) (he : c.evented = true) {d : List α} {b : Bool} {p : Prog α} (hp : p.All Op.Plain)
    (hb : b = true ∨ p.All fun o => ¬ o.Bulk) {s : St α} (hs : Told d true b s) : Told d true b (exec c p s).2 := by
  induction p generalizing s with
  | done | raise => exact hs
  | op o k ih =>
    have h1 := step_keep hf he (d := d) (n := true) (b := b) o hp.1 (.inl rfl) (by
      intro ho
      exact ⟨hb.resolve_right fun h => h.1 ho, .inl rfl⟩) s hs
    exact ih _ (hp.2 _) (hb.imp_right fun h => h.2 _) (h1.2 (h1.1 rfl))

theorem run_told (hf : c.Fair) (he : c.evented = true) {d : List α} (hc : Calm c d false true)
    (ops : List (Op α)) (hp : ∀ o ∈ ops, o.Plain) (hb : ∀ o ∈ ops, o.Bulk → Calm c d false false) {s : St α}
    (hs : Told d false true s) (hok : .error .emitLoop ∉ (run c ops s).1) : Told d false true (run c ops s).2 := by
  induction ops generalizing s with
  | nil => exact hs
  | cons o ops ih =>
    simp only [run, List.mem_cons, not_or] at hok
    exact ih (fun o ho => hp o (by simp [ho])) (fun o ho => hb o (by simp [ho]))
      ((step_keep hf he o (hp o (by simp)) hc (fun h => ⟨rfl, hb o (by simp) h⟩) s hs).2 (Ne.symm hok.1)) hok.2

end Psygnal.ES
