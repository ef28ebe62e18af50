import Verif.SelectionNestedLemmas

/-!
# Listeners that do not operate on the selection: this is the model of C33 and C34
-/

namespace Psygnal.SelN
open Psygnal.Py (M Err)
open Psygnal.Sel (Ev)

variable {α : Type} [DecidableEq α]

/-- The state without what only matters to listeners that operate on the selection. -/
def St.base (s : St α) : Sel.St α :=
  { data := s.data, active := s.active, current := s.current, parent := s.parent, paused := s.paused, queue := s.queue, log := s.log }

/-- Same results and states, outside emissions of `items_changed`. -/
def Sim (m : M (St α) Unit) (m' : M (Sel.St α) Unit) : Prop :=
  ∀ s, s.pending = none → (m s).1 = (m' s.base).1 ∧ (m s).2.base = (m' s.base).2 ∧ (m s).2.pending = none

/-- The listeners observe and may raise. -/
structure Quiet (c : Cfg α) (d : Sel.Cfg α) : Prop where
  react : ∀ log s, c.react log s = if d.fails log then (.error .value, s) else (.ok (), s)
  depth : c.depth = d.depth

variable {c : Cfg α} {d : Sel.Cfg α}

omit [DecidableEq α] in
theorem Sim.bind {m f : M (St α) Unit} {m' f' : M (Sel.St α) Unit} (h : Sim m m') (g : Sim f f') : Sim (M.bind m fun _ => f) (M.bind m' fun _ => f') := by
  intro s hs
  obtain ⟨h1, h2, h3⟩ := h s hs
  rw [M.bind_app, M.bind_app]
  rcases e : m s with ⟨r | r, s'⟩ <;> rcases e' : m' s.base with ⟨r' | r', s2⟩ <;> rw [e, e'] at h1 h2 <;> rw [e] at h3
  · simp only at h1 h2 ⊢
    exact ⟨h1, h2, h3⟩
  · cases h1
  · cases h1
  · simp only at h2 ⊢
    rw [← h2]
    exact g s' h3

omit [DecidableEq α] in
theorem Sim.pure : Sim (M.pure () : M (St α) Unit) (M.pure ()) := fun _ hs => ⟨rfl, rfl, hs⟩

omit [DecidableEq α] in
theorem Sim.raise (e : Err) : Sim (M.raise e : M (St α) Unit) (M.raise e) := fun _ hs => ⟨rfl, rfl, hs⟩

omit [DecidableEq α] in
theorem Sim.forEach {β : Type} {f : β → M (St α) Unit} {f' : β → M (Sel.St α) Unit} (h : ∀ x, Sim (f x) (f' x)) : ∀ l, Sim (M.forEach l f) (M.forEach l f')
  | [] => .pure
  | x :: l => (h x).bind (Sim.forEach h l)

omit [DecidableEq α] in
theorem tell_eq (hq : Quiet c d) (e : Ev α) (s : St α) :
    tell c e s = if d.fails (s.log ++ [(e, s.data)]) then (.error .emitLoop, { s with log := s.log ++ [(e, s.data)], failed := true })
      else (.ok (), { s with log := s.log ++ [(e, s.data)] }) := by
  simp only [tell, hq.react]
  by_cases hf : d.fails (s.log ++ [(e, s.data)]) = true
  · rw [if_pos hf, if_pos hf]
  · rw [if_neg hf, if_neg hf]

omit [DecidableEq α] in
theorem tell_sim (hq : Quiet c d) (e : Ev α) : Sim (tell c e) (Sel.emit d e) := by
  intro s hs
  rw [tell_eq hq]
  simp only [Sel.emit, St.base]
  by_cases hf : d.fails (s.log ++ [(e, s.data)]) = true
  · rw [if_pos hf]
    exact ⟨(if_pos hf).symm, rfl, hs⟩
  · rw [if_neg hf]
    exact ⟨(if_neg hf).symm, rfl, hs⟩

omit [DecidableEq α] in
theorem deliver_sim (hq : Quiet c d) (a : List α × List α) : Sim (deliver c a) (Sel.emit d (.items a.1 a.2)) := by
  intro s hs
  simp only [deliver, hs, drain, tell_eq hq, Sel.emit, St.base]
  by_cases hf : d.fails (s.log ++ [(Ev.items a.1 a.2, s.data)]) = true
  · simp only [if_pos hf]
    exact ⟨(if_pos hf).symm, trivial, trivial⟩
  · simp only [if_neg hf]
    exact ⟨(if_neg hf).symm, trivial, trivial⟩

theorem setCurrent_sim (hq : Quiet c d) (v : Option α) : Sim (setCurrent c v) (Sel.setCurrent d v) := by
  intro s hs
  simp only [setCurrent, Sel.setCurrent, M.bind_eq, M.bind_app, M.get_app]
  rw [show s.base.current = s.current from rfl]
  split
  · exact ⟨rfl, rfl, hs⟩
  · exact tell_sim hq (.current v) { s with current := v } hs

omit [DecidableEq α] in
theorem emitItems_sim (hq : Quiet c d) (a r : List α) : Sim (emitItems c a r) (Sel.emitItems d a r) := by
  intro s hs
  simp only [emitItems, Sel.emitItems]
  rw [show s.base.paused = s.paused from rfl]
  split
  · exact ⟨rfl, rfl, hs⟩
  · exact deliver_sim hq (a, r) s hs

omit [DecidableEq α] in
theorem resume_sim (hq : Quiet c d) : Sim (resume c) (Sel.resume d) := by
  intro s hs
  simp only [resume, Sel.resume]
  rw [show s.base.queue = s.queue from rfl]
  split
  · exact ⟨rfl, rfl, hs⟩
  · obtain ⟨h1, h2, h3⟩ := deliver_sim hq (s.queue.flatMap (·.1), s.queue.flatMap (·.2)) { s with paused := false } hs
    have eb : ({ s with paused := false } : St α).base = { s.base with paused := false } := rfl
    rw [eb] at h1 h2
    split <;> rename_i hq1 <;> split <;> rename_i hq2 <;> rw [hq1] at h1 h2 h3 <;>
      rw [show Sel.emit d (.items (s.queue.flatMap (·.1)) (s.queue.flatMap (·.2))) { s.base with paused := false } = _ from hq2] at h1 h2
    · refine ⟨rfl, ?_, h3⟩
      simp only at h2 ⊢
      rw [← h2]
      rfl
    · cases h1
    · cases h1
    · exact ⟨h1, h2, h3⟩

omit [DecidableEq α] in
theorem withPaused_sim (hq : Quiet c d) {m : M (St α) Unit} {m' : M (Sel.St α) Unit} (h : Sim m m') : Sim (withPaused c m) (Sel.withPaused d m') := by
  intro s hs
  obtain ⟨h1, h2, h3⟩ := h { s with paused := true } hs
  have eb : ({ s with paused := true } : St α).base = { s.base with paused := true } := rfl
  rw [eb] at h1 h2
  simp only [withPaused, Sel.withPaused]
  rw [show s.base.paused = s.paused from rfl]
  rcases e : m { s with paused := true } with ⟨r, s'⟩
  rcases e' : m' { s.base with paused := true } with ⟨r', s2⟩
  rw [e, e'] at h1 h2
  rw [e] at h3
  simp only at h1 h2 h3 ⊢
  subst h1
  subst h2
  split
  · exact ⟨rfl, rfl, h3⟩
  · obtain ⟨g1, g2, g3⟩ := resume_sim hq s' h3
    rcases k : resume c s' with ⟨q | q, t⟩ <;> rcases k' : Sel.resume d s'.base with ⟨q' | q', t2⟩ <;> rw [k, k'] at g1 g2 <;> rw [k] at g3
    · simp only at g1 g2 ⊢
      exact ⟨g1, g2, g3⟩
    · cases g1
    · cases g1
    · exact ⟨rfl, g2, g3⟩

section
variable {upd : M (St α) Unit} {upd' : M (Sel.St α) Unit}

theorem add_sim (hq : Quiet c d) (hu : Sim upd upd') (x : α) : Sim (add c upd x) (Sel.add d upd' x) := by
  intro s hs
  simp only [add, Sel.add, M.bind_eq, M.bind_app, M.get_app]
  rw [show s.base.inParent x = s.parent.all (x ∈ ·) from rfl, show s.base.data = s.data from rfl]
  split
  · split
    · exact ⟨rfl, rfl, hs⟩
    · exact ((emitItems_sim hq [x] []).bind hu) { s with data := s.data ++ [x] } hs
  · exact ⟨rfl, rfl, hs⟩

theorem discard_sim (hq : Quiet c d) (hu : Sim upd upd') (x : α) : Sim (discard c upd x) (Sel.discard d upd' x) := by
  intro s hs
  simp only [discard, Sel.discard, M.bind_eq, M.bind_app, M.get_app]
  rw [show s.base.data = s.data from rfl]
  split
  · exact ((emitItems_sim hq [] [x]).bind hu) { s with data := s.data.erase x } hs
  · exact ⟨rfl, rfl, hs⟩

theorem toggleOne_sim (hq : Quiet c d) (hu : Sim upd upd') (x : α) : Sim (toggleOne c upd x) (Sel.toggleOne d upd' x) := by
  intro s hs
  simp only [toggleOne, Sel.toggleOne, M.bind_eq, M.bind_app, M.get_app]
  rw [show s.base.data = s.data from rfl]
  split
  · exact discard_sim hq hu x s hs
  · exact add_sim hq hu x s hs

omit [DecidableEq α] in
theorem baseClear_sim (hq : Quiet c d) (hu : Sim upd upd') : Sim (baseClear c upd) (Sel.baseClear d upd') := by
  refine withPaused_sim hq fun s hs => ?_
  simp only [M.bind_eq, M.bind_app, M.get_app]
  rw [show s.base.data = s.data from rfl]
  split
  · exact ⟨rfl, rfl, hs⟩
  · exact ((emitItems_sim hq [] s.data).bind hu) { s with data := [] } hs

theorem clear_sim (hq : Quiet c d) (hu : Sim upd upd') (k : Bool) : Sim (clear c upd k) (Sel.clear d upd' k) := by
  cases k
  · exact (setCurrent_sim hq none).bind (baseClear_sim hq hu)
  · exact Sim.pure.bind (baseClear_sim hq hu)

theorem intersectionUpdate_sim (hq : Quiet c d) (hu : Sim upd upd') (o : List (List α)) :
    Sim (intersectionUpdate c upd o) (Sel.intersectionUpdate d upd' o) := by
  refine withPaused_sim hq ?_
  split
  · exact .raise _
  · exact fun s hs => Sim.forEach (fun x => discard_sim hq hu x) (s.data.filter fun x => !o.all (x ∈ ·)) s hs

theorem selectOnly_sim (hq : Quiet c d) (hu : Sim upd upd') (x : α) : Sim (selectOnly c upd x) (Sel.selectOnly d upd' x) :=
  (intersectionUpdate_sim hq hu _).bind (add_sim hq hu x)

theorem setActive_sim (hq : Quiet c d) (hu : Sim upd upd') (v : Option α) : Sim (setActive c upd v) (Sel.setActive d upd' v) := by
  intro s hs
  simp only [setActive, Sel.setActive, M.bind_eq, M.bind_app, M.get_app]
  rw [show s.base.active = s.active from rfl]
  split
  · exact ⟨rfl, rfl, hs⟩
  · have h2 : Sim (M.bind (setCurrent c v) fun _ => tell c (.active v)) (M.bind (Sel.setCurrent d v) fun _ => Sel.emit d (.active v)) :=
      (setCurrent_sim hq v).bind (tell_sim hq _)
    cases v with
    | none => exact ((clear_sim hq hu false).bind h2) { s with active := none } hs
    | some x => exact ((selectOnly_sim hq hu x).bind h2) { s with active := some x } hs

end

theorem updateActive_sim (hq : Quiet c d) : ∀ n, Sim (updateActive c n) (Sel.updateActive d n)
  | 0 => fun _ hs => ⟨rfl, rfl, hs⟩
  | n + 1 => by
    intro s hs
    by_cases hd : ∃ x, s.data = [x]
    · obtain ⟨x, hd⟩ := hd
      rw [updateActive_one hd]
      have e : Sel.updateActive d (n + 1) s.base = Sel.setActive d (Sel.updateActive d n) (some x) s.base := by
        simp only [Sel.updateActive, M.bind_eq, M.bind_app, M.get_app, show s.base.data = [x] from hd]
      rw [e]
      exact setActive_sim hq (updateActive_sim hq n) (some x) s hs
    · rw [updateActive_other fun x h => hd ⟨x, h⟩]
      have e : Sel.updateActive d (n + 1) s.base = (if s.base.active = none then M.pure () else
          M.bind (M.modify fun s => { s with active := none }) fun _ => Sel.emit d (.active none) : M (Sel.St α) Unit) s.base := by
        simp only [Sel.updateActive, M.bind_eq, M.bind_app, M.get_app, show s.base.data = s.data from rfl]
        rcases hd' : s.data with _ | ⟨a, _ | ⟨b, l⟩⟩
        · rfl
        · exact absurd ⟨a, hd'⟩ hd
        · rfl
      rw [e, show s.base.active = s.active from rfl]
      split
      · exact ⟨rfl, rfl, hs⟩
      · exact tell_sim hq (.active none) { s with active := none } hs

/-- The same operation of the model of C33 (reading does not matter there). -/
def Op.sel : Op α → Sel.Op α
  | .add x => .set (.add x)
  | .discard x => .set (.discard x)
  | .remove x => .set (.remove x)
  | .pop => .set .pop
  | .clear k => .clear k
  | .update o => .set (.update o)
  | .differenceUpdate o => .set (.differenceUpdate o)
  | .intersectionUpdate o => .set (.intersectionUpdate o)
  | .symmetricDifferenceUpdate xs => .set (.symmetricDifferenceUpdate xs)
  | .ior xs => .set (.ior xs)
  | .iand xs => .set (.iand xs)
  | .isub xs => .set (.isub xs)
  | .ixor xs => .set (.ixor xs)
  | .setActive v => .setActive v
  | .toggle x => .toggle x
  | .selectOnly x => .selectOnly x
  | .items | .getActive | .getCurrent => .set .items

/-- What an operation raises, if it does. -/
def err {β : Type} : Except Err β → Option Err
  | .ok _ => none
  | .error e => some e

/-- As `Sim`, for computations that return something. -/
def SimR {β γ : Type} (m : M (St α) β) (m' : M (Sel.St α) γ) : Prop :=
  ∀ s, s.pending = none → err (m s).1 = err (m' s.base).1 ∧ (m s).2.base = (m' s.base).2 ∧ (m s).2.pending = none

omit [DecidableEq α] in
theorem Sim.res {β γ : Type} {m : M (St α) Unit} {m' : M (Sel.St α) Unit} (h : Sim m m') (x : β) (y : γ) :
    SimR (M.bind m fun _ => M.pure x) (M.bind m' fun _ => M.pure y) := by
  intro s hs
  obtain ⟨h1, h2, h3⟩ := h s hs
  rw [M.bind_app, M.bind_app]
  rcases e : m s with ⟨r | r, s'⟩ <;> rcases e' : m' s.base with ⟨r' | r', s2⟩ <;> rw [e, e'] at h1 h2 <;> rw [e] at h3
  · simp only at h1 h2 ⊢
    cases h1
    exact ⟨rfl, h2, h3⟩
  · cases h1
  · cases h1
  · exact ⟨rfl, h2, h3⟩

theorem sel_remove (x : α) (s : Sel.St α) : Sel.step d (.set (.remove x)) s =
    (if x ∈ s.data then M.bind (Sel.discard d (Sel.updateActive d d.depth) x) fun _ => M.pure .unit
      else M.bind (M.raise .key : M (Sel.St α) Unit) fun _ => M.pure .unit : M (Sel.St α) (ES.Res α)) s := rfl

theorem sel_pop (s : Sel.St α) : Sel.step d (.set .pop) s = (match s.data with
    | [] => M.raise .key
    | x :: _ => M.bind (Sel.discard d (Sel.updateActive d d.depth) x) fun _ => M.pure (.item x) : M (Sel.St α) (ES.Res α)) s := rfl

theorem step_sim (hq : Quiet c d) (o : Op α) : SimR (step c o) (Sel.step d o.sel) := by
  have hu : Sim (updateActive c c.depth) (Sel.updateActive d d.depth) := by
    rw [← hq.depth]
    exact updateActive_sim hq c.depth
  have hd := fun x => discard_sim hq hu x
  have ha := fun x => add_sim hq hu x
  cases o
  case add x => exact (ha x).res _ _
  case discard x => exact (hd x).res _ _
  case remove x =>
    intro s hs
    by_cases hx : x ∈ s.data
    · have e : step c (.remove x) s = M.bind (discard c (updateActive c c.depth) x) (fun _ => M.pure .unit) s := by
        simp only [step, M.bind_eq, M.bind_app, M.get_app, if_pos hx, M.pure_eq]
      have e' : Sel.step d (.set (.remove x)) s.base = M.bind (Sel.discard d (Sel.updateActive d d.depth) x) (fun _ => M.pure .unit) s.base := by
        rw [sel_remove, if_pos (show x ∈ s.base.data from hx)]
      rw [e, Op.sel, e']
      exact (hd x).res _ _ s hs
    · have e : step c (.remove x) s = (.error .key, s) := by
        simp only [step, M.bind_eq, M.bind_app, M.get_app, if_neg hx, M.raise_app]
      have e' : Sel.step d (.set (.remove x)) s.base = (.error .key, s.base) := by
        rw [sel_remove, if_neg (show ¬ x ∈ s.base.data from hx)]
        rfl
      rw [e, Op.sel, e']
      exact ⟨rfl, rfl, hs⟩
  case pop =>
    intro s hs
    cases hx : s.data with
    | nil =>
      have e : step c .pop s = (.error .key, s) := by
        simp only [step, M.bind_eq, M.bind_app, M.get_app, hx, M.raise_app]
      have e' : Sel.step d (.set .pop) s.base = (.error .key, s.base) := by
        rw [sel_pop, show s.base.data = [] from hx]
        rfl
      rw [e, Op.sel, e']
      exact ⟨rfl, rfl, hs⟩
    | cons x l =>
      have e : step c .pop s = M.bind (discard c (updateActive c c.depth) x) (fun _ => M.pure (.item x)) s := by
        simp only [step, M.bind_eq, M.bind_app, M.get_app, hx, M.pure_eq]
      have e' : Sel.step d (.set .pop) s.base = M.bind (Sel.discard d (Sel.updateActive d d.depth) x) (fun _ => M.pure (.item x)) s.base := by
        rw [sel_pop, show s.base.data = x :: l from hx]
      rw [e, Op.sel, e']
      exact (hd x).res _ _ s hs
  case clear k => exact (clear_sim hq hu k).res _ _
  case update o => exact (withPaused_sim hq (.forEach ha _)).res _ _
  case differenceUpdate o => exact (withPaused_sim hq (.forEach hd _)).res _ _
  case intersectionUpdate o => exact (intersectionUpdate_sim hq hu o).res _ _
  case symmetricDifferenceUpdate xs => exact (withPaused_sim hq (.forEach (fun x => toggleOne_sim hq hu x) _)).res _ _
  case ior xs => exact (Sim.forEach ha xs).res _ _
  case iand xs => exact fun s hs => (Sim.forEach hd (s.data.filter (· ∉ xs))).res _ _ s hs
  case isub xs => exact (Sim.forEach hd xs).res _ _
  case ixor xs => exact (Sim.forEach (fun x => toggleOne_sim hq hu x) xs).res _ _
  case setActive v => exact (setActive_sim hq hu v).res _ _
  case toggle x => exact (withPaused_sim hq (.forEach (fun x => toggleOne_sim hq hu x) _)).res _ _
  case selectOnly x => exact (selectOnly_sim hq hu x).res _ _
  all_goals
    intro s hs
    have e' : Sel.step d (.set .items) s.base = (.ok (.set s.data), s.base) := rfl
    rw [Op.sel, e']
    exact ⟨rfl, rfl, hs⟩

theorem run_sim (hq : Quiet c d) (ops : List (Op α)) : ∀ s : St α, s.pending = none →
    (run c ops s).1.map err = (Sel.run d (ops.map Op.sel) s.base).1.map err ∧ (run c ops s).2.base = (Sel.run d (ops.map Op.sel) s.base).2 := by
  induction ops with
  | nil => exact fun s _ => ⟨rfl, rfl⟩
  | cons o ops ih =>
    intro s hs
    obtain ⟨h1, h2, h3⟩ := step_sim hq o s hs
    obtain ⟨g1, g2⟩ := ih _ h3
    rw [h2] at g1 g2
    simp only [run, List.map_cons, Sel.run]
    exact ⟨by rw [h1, g1], g2⟩

theorem quiet_listening (fails : List (Ev α × List α) → Bool) (limit depth n : Nat) :
    Quiet (listening (fun log => if fails log then .raise else .done) limit depth (n + 1)) { fails := fails, depth := depth } := by
  refine ⟨fun log s => ?_, rfl⟩
  simp only [listening]
  split <;> rfl

end Psygnal.SelN
