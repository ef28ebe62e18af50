import Verif.EventedDictEvents

/-!
# Listeners that operate on the dict: lemmas for C64
-/

namespace Psygnal.ED
open Psygnal.Py (M Err)

variable {K V : Type} [DecidableEq K] [DecidableEq V] {c : Cfg K V}

/-- An observer of the log that started with `d` knows the contents; keys stay distinct. -/
def Seen (d : List (K × V)) (s : St K V) : Prop :=
  Story d s.log s.dict ∧ ((d.map Prod.fst).Nodup → (s.dict.map Prod.fst).Nodup)

/-- The listeners are called after the observer, and what they do keeps the observer informed. -/
def Tells (c : Cfg K V) (d : List (K × V)) : Prop := c.early = true ∧ ∀ log, M.Keeps (Seen d) (c.react log)

omit [DecidableEq V] in
theorem emit_seen' {d d1 : List (K × V)} (ht : Tells c d) {e : Ev K V} {s : St K V} (h : Story d s.log d1)
    (he : observe d1 e = s.dict) (hn : (d.map Prod.fst).Nodup → (s.dict.map Prod.fst).Nodup) :
    Seen d (emit c e s).2 := by
  have hs : Seen d { s with log := s.log ++ [(e, s.dict)] } := ⟨h.snoc he, hn⟩
  have h2 := ht.2 (s.log ++ [(e, s.dict)]) _ hs
  simp only [emit, ht.1, if_true]
  rcases hr : c.react (s.log ++ [(e, s.dict)]) { s with log := s.log ++ [(e, s.dict)] } with ⟨_ | _, s'⟩ <;>
    (rw [hr] at h2; exact h2)

omit [DecidableEq V] in
theorem emit_seen {d : List (K × V)} (ht : Tells c d) {e : Ev K V} (he : ∀ l, observe l e = l) :
    M.Keeps (Seen d) (emit c e) :=
  fun _ hs => emit_seen' ht hs.1 (he _) hs.2

omit [DecidableEq V] in
theorem put_nodup {d : List (K × V)} {k : K} {v : V} (h : (d.map Prod.fst).Nodup) :
    ((put d k v).map Prod.fst).Nodup := by
  rw [put_keys]
  split
  · exact h
  · rename_i e
    rw [List.nodup_append]
    refine ⟨h, by simp, ?_⟩
    intro a ha b hb
    simp only [List.mem_singleton] at hb
    subst hb
    intro e2
    exact e (e2 ▸ ha)

omit [DecidableEq V] in
/-- Storing a value and reporting it, whether as an addition or as a change. -/
theorem store_seen {d : List (K × V)} (ht : Tells c d) {k : K} {v : V} {e : Ev K V}
    (he : ∀ l, observe l e = put l k v) : M.Keeps (Seen d) (do baseSet c k v; emit c e) := by
  intro s hs
  simp only [baseSet, M.bind_eq, M.bind_app]
  by_cases hv : c.okType v = true
  · simp only [hv, if_true, M.modify_app]
    exact emit_seen' ht hs.1 (he _) fun h => put_nodup (hs.2 h)
  · simp only [hv]
    exact hs

theorem setItem_seen {d : List (K × V)} (ht : Tells c d) (k : K) (v : V) : M.Keeps (Seen d) (setItem c k v) := by
  have hh : M.Keeps (Seen d) (hash c k) := by
    intro s hs
    simp only [hash]
    split <;> exact hs
  refine hh.seq fun _ => M.Keeps.get.seq fun s0 => ?_
  rcases lookup s0.dict k with _ | old
  · exact (emit_seen ht (fun _ => rfl)).seq fun _ => store_seen ht (fun _ => rfl)
  · simp only
    split
    · exact M.Keeps.pure' _
    · exact (emit_seen ht (fun _ => rfl)).seq fun _ => store_seen ht (fun _ => rfl)

omit [DecidableEq V] in
theorem getItem_seen {d : List (K × V)} (k : K) : M.Keeps (Seen d) (getItem c k) := by
  intro s hs
  rw [getItem_app]
  exact hs

omit [DecidableEq V] in
theorem delItem_seen {d : List (K × V)} (ht : Tells c d) (k : K) : M.Keeps (Seen d) (delItem c k) := by
  refine (getItem_seen k).seq fun v => (emit_seen ht (fun _ => rfl)).seq fun _ => ?_
  intro s hs
  simp only [baseDel, M.bind_eq, M.bind_app, M.get_app]
  rcases lookup s.dict k with _ | old
  · exact hs
  · simp only [M.modify_app]
    exact emit_seen' ht hs.1 rfl fun h => (hs.2 h).sublist ((del_sublist _ _).map _)

omit [DecidableEq V] in
theorem popItem_seen {d : List (K × V)} (ht : Tells c d) : M.Keeps (Seen d) (popItem c) := by
  refine M.Keeps.get.seq fun s => ?_
  rcases s.dict with _ | ⟨p, d'⟩
  · exact M.Keeps.raise _
  · exact (getItem_seen _).seq fun _ => (delItem_seen ht _).seq fun _ => M.Keeps.pure' _

omit [DecidableEq V] in
theorem clearLoop_seen {d : List (K × V)} (ht : Tells c d) (n : Nat) : M.Keeps (Seen d) (clearLoop c n) := by
  induction n with
  | zero => exact M.Keeps.pure _
  | succ n ih =>
    intro s hs
    have := popItem_seen ht s hs
    simp only [clearLoop]
    rcases hp : popItem c s with ⟨e | r, s'⟩ <;> rw [hp] at this
    · cases e <;> exact this
    · exact ih s' this

theorem step_seen {d : List (K × V)} (ht : Tells c d) (op : Op K V) : M.Keeps (Seen d) (step c op) := by
  cases op with
  | getItem k => exact (getItem_seen k).seq fun _ => M.Keeps.pure' _
  | setItem k v => exact (setItem_seen ht k v).seq fun _ => M.Keeps.pure' _
  | delItem k => exact (delItem_seen ht k).seq fun _ => M.Keeps.pure' _
  | len | items => exact fun _ h => h
  | contains k =>
    refine M.Keeps.seq (fun s hs => ?_) fun _ => M.Keeps.pure' _
    simp only [contains, getItem_app]
    split <;> simp_all
  | get k v =>
    refine M.Keeps.seq (fun s hs => ?_) fun _ => M.Keeps.pure' _
    simp only [get, getItem_app]
    split <;> simp_all
  | pop k v =>
    refine M.Keeps.seq (fun s hs => ?_) fun _ => M.Keeps.pure' _
    have h0 := getItem_seen (c := c) k s hs
    simp only [pop]
    split
    · rename_i s' e
      rw [e] at h0
      split <;> exact h0
    · rename_i s' e
      rw [e] at h0
      exact h0
    · rename_i s' e
      rw [e] at h0
      exact ((delItem_seen ht k).bind fun _ => M.Keeps.pure _) s' h0
  | popItem => exact (popItem_seen ht).seq fun _ => M.Keeps.pure' _
  | clear => exact M.Keeps.seq (fun s hs => clearLoop_seen ht _ s hs) fun _ => M.Keeps.pure' _
  | update l => exact (M.Keeps.forEach _ fun _ => setItem_seen ht _ _).seq fun _ => M.Keeps.pure' _
  | setDefault k v =>
    refine M.Keeps.seq (fun s hs => ?_) fun _ => M.Keeps.pure' _
    have h0 := getItem_seen (c := c) k s hs
    simp only [setDefault]
    split
    · rename_i s' e
      rw [e] at h0
      exact ((setItem_seen ht k v).bind fun _ => M.Keeps.pure _) s' h0
    · exact h0
  | copy =>
    refine M.Keeps.seq (fun s hs => ?_) fun _ => M.Keeps.pure' _
    simp only [copy]
    split <;> exact hs
  | reversed => exact M.Keeps.raise _

theorem exec_seen {d : List (K × V)} (ht : Tells c d) : ∀ p : Prog K V, M.Keeps (Seen d) (exec c p)
  | .done => M.Keeps.pure' _
  | .raise => M.Keeps.raise _
  | .op o k => fun s hs => exec_seen ht (k (step c o s).1) _ (step_seen ht o s hs)

theorem listening_tells {d : List (K × V)} (p : List (Ev K V × List (K × V)) → Prog K V) (he : c.early = true) (n : Nat) :
    Tells (listening c p n) d := by
  induction n with
  | zero => exact ⟨he, fun _ => M.Keeps.raise _⟩
  | succ n ih => exact ⟨he, fun log => exec_seen ih (p log)⟩

theorem run_seen {d : List (K × V)} (ht : Tells c d) :
    ∀ (ops : List (Op K V)) {s : St K V}, Seen d s → Seen d (run c ops s).2
  | [], _, h => h
  | op :: ops, s, h => run_seen ht ops (step_seen ht op s h)

end Psygnal.ED
