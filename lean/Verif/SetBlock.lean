import Verif.Block
import Verif.SetTurns

/-! # Helpers for C100: blocks of operations on a set under a lock -/
namespace Psygnal.StC

/-- Has the thread nothing left to do? (`/repo/src/psygnal/containers/_evented_set.py:38-322`) -/
def Ctl.rest : Ctl → Bool
  | .run .ret => true
  | _ => false

/-- Sets (`/repo/src/psygnal/containers/_evented_set.py:38-109,127-170,273-322`). -/
def sys : Blk.Sys Data Ctl Ev := ⟨next, Ev.on, Ctl.rest, Ev.thread⟩

/-! ## A block ends -/

/-- The program after the method that is under way (`/repo/src/psygnal/containers/_evented_set.py:38-67,273-300`). -/
def Ctl.after : Ctl → Code
  | .run c => c
  | .testA _ k | .put _ k | .testD _ k | .drop _ k | .testS _ k | .emit _ _ k | .record _ _ k | .tell _ _ k => k.code
  | .was _ c | .pause _ _ c | .empty _ c | .itemsC _ c | .wipe _ _ c | .itemsI _ _ c | .resume _ c | .any _ c | .reduce _ c | .tellR _ _ _ c | .forget _ c | .done _ c => c

theorem go_after (k : Rest) : k.go.after = k.code := by
  obtain ⟨o, td, w, c⟩ := k
  cases td with
  | cons d ds => cases d <;> rfl
  | nil =>
    cases w with
    | none => rfl
    | some v => cases v <;> rfl

theorem next_after {d : Data} {t : Nat} {x y : Ctl} {e : Ev} (h : next d t x = some (e, y)) (hx : x.busy = true) : y.after = x.after := by
  cases x with
  | run c => cases hx
  | testA x k =>
    cases h
    show (if x ∈ d.set then k.go else .put x k).after = k.code
    split
    · exact go_after k
    · rfl
  | testD x k =>
    cases h
    show (if x ∈ d.set then .drop x k else k.go).after = k.code
    split
    · rfl
    · exact go_after k
  | testS x k =>
    cases h
    show (if x ∈ d.set then Ctl.testD x k else .testA x k).after = k.code
    split <;> rfl
  | emit a r k =>
    cases h
    show (if d.paused then Ctl.record a r k else .tell a r k).after = k.code
    split <;> rfl
  | record a r k => cases h; exact go_after k
  | tell a r k => cases h; exact go_after k
  | pause o w c =>
    cases h
    cases o <;> first | rfl | exact go_after _
  | empty w c =>
    cases h
    show (if d.set.isEmpty then Rest.go ⟨.clear, [], some w, c⟩ else .itemsC w c).after = c
    split
    · exact go_after _
    · rfl
  | itemsI xs w c => cases h; exact go_after _
  | any o c =>
    cases h
    show (if d.queue.isEmpty then Ctl.done o c else .reduce o c).after = c
    split <;> rfl
  | _ => cases h; rfl

theorem call_after {d : Data} {t : Nat} {c : Code} {y : Ctl} {e : Ev} {o : Call} (h : next d t (.run (.call o c)) = some (e, y)) : y.after = c := by
  cases o <;> (cases h; rfl)

theorem busy_next (d : Data) (t : Nat) (x : Ctl) (hx : x.busy = true) : ∃ e y, next d t x = some (e, y) := by
  cases x with
  | run c => cases hx
  | _ => exact ⟨_, _, rfl⟩

/-- The thread gets to the end of its block, whatever there is in the set (`/repo/src/psygnal/containers/_evented_set.py:38-322`). -/
def Fins (t : Nat) (x : Ctl) : Prop := ∀ d, Blk.Fin sys t d x

theorem fins_of {t : Nat} {x : Ctl} (h : ∀ d, ∃ e y, next d t x = some (e, y) ∧ Fins t y) : Fins t x := by
  intro d
  obtain ⟨e, y, h1, h2⟩ := h d
  exact .step h1 (h2 _)

theorem fins_done {t : Nat} {c : Code} (hc : Fins t (.run c)) (o : Call) : Fins t (.done o c) := fins_of fun _ => ⟨_, _, rfl, hc⟩

theorem fins_forget {t : Nat} {c : Code} (hc : Fins t (.run c)) (o : Call) : Fins t (.forget o c) := fins_of fun _ => ⟨_, _, rfl, fins_done hc o⟩

theorem fins_any {t : Nat} {c : Code} (hc : Fins t (.run c)) (o : Call) : Fins t (.any o c) :=
  fins_of fun d => ⟨_, _, rfl, by
    split
    · exact fins_done hc o
    · exact fins_of fun _ => ⟨_, _, rfl, fins_of fun _ => ⟨_, _, rfl, fins_forget hc o⟩⟩⟩

theorem fins_emit {t : Nat} {k : Rest} (h : Fins t k.go) (a r : List Nat) : Fins t (.emit a r k) :=
  fins_of fun _ => ⟨_, _, rfl, by
    split
    · exact fins_of fun _ => ⟨_, _, rfl, h⟩
    · exact fins_of fun _ => ⟨_, _, rfl, h⟩⟩

theorem fins_testA {t : Nat} {k : Rest} (h : Fins t k.go) (x : Nat) : Fins t (.testA x k) :=
  fins_of fun _ => ⟨_, _, rfl, by
    split
    · exact h
    · exact fins_of fun _ => ⟨_, _, rfl, fins_emit h _ _⟩⟩

theorem fins_testD {t : Nat} {k : Rest} (h : Fins t k.go) (x : Nat) : Fins t (.testD x k) :=
  fins_of fun _ => ⟨_, _, rfl, by
    split
    · exact fins_of fun _ => ⟨_, _, rfl, fins_emit h _ _⟩
    · exact h⟩

theorem fins_testS {t : Nat} {k : Rest} (h : Fins t k.go) (x : Nat) : Fins t (.testS x k) :=
  fins_of fun _ => ⟨_, _, rfl, by
    split
    · exact fins_testD h x
    · exact fins_testA h x⟩

theorem fins_go {t : Nat} {c : Code} (hc : Fins t (.run c)) (o : Call) (w : Option Bool) : ∀ ds : List Do, Fins t (Rest.go ⟨o, ds, w, c⟩)
  | [] => by
    unfold Rest.go
    dsimp only
    split
    · exact fins_of fun _ => ⟨_, _, rfl, fins_any hc o⟩
    · exact fins_done hc o
  | .add x :: ds => fins_testA (fins_go hc o w ds) x
  | .del x :: ds => fins_testD (fins_go hc o w ds) x
  | .flip x :: ds => fins_testS (fins_go hc o w ds) x

theorem fins_after (t : Nat) (x : Ctl) (h : Fins t (.run x.after)) : Fins t x := by
  have hw : ∀ l w c, Fins t (.run c) → Fins t (.wipe l w c) := fun l w c hc => fins_of fun _ => ⟨_, _, rfl, fins_emit (fins_go hc _ _ []) _ _⟩
  have hC : ∀ w c, Fins t (.run c) → Fins t (.itemsC w c) := fun w c hc => fins_of fun _ => ⟨_, _, rfl, hw _ _ _ hc⟩
  have hI : ∀ xs w c, Fins t (.run c) → Fins t (.itemsI xs w c) := fun xs w c hc => fins_of fun _ => ⟨_, _, rfl, fins_go hc _ _ _⟩
  have hE : ∀ w c, Fins t (.run c) → Fins t (.empty w c) := fun w c hc => fins_of fun _ => ⟨_, _, rfl, by
    split
    · exact fins_go hc _ _ []
    · exact hC w c hc⟩
  have hp : ∀ o w c, Fins t (.run c) → Fins t (.pause o w c) := fun o w c hc => fins_of fun _ => ⟨_, _, rfl, by
    cases o with
    | add x => exact fins_testA (fins_go hc _ _ _) x
    | discard x => exact fins_testD (fins_go hc _ _ _) x
    | update xs => exact fins_go hc _ _ _
    | diff xs => exact fins_go hc _ _ _
    | sym xs => exact fins_go hc _ _ _
    | inter xs => exact hI _ _ _ hc
    | clear => exact hE _ _ hc⟩
  cases x with
  | run c => exact h
  | testA x k => exact fins_testA (fins_go h _ _ _) x
  | put x k => exact fins_of fun _ => ⟨_, _, rfl, fins_emit (fins_go h _ _ _) _ _⟩
  | testD x k => exact fins_testD (fins_go h _ _ _) x
  | drop x k => exact fins_of fun _ => ⟨_, _, rfl, fins_emit (fins_go h _ _ _) _ _⟩
  | testS x k => exact fins_testS (fins_go h _ _ _) x
  | emit a r k => exact fins_emit (fins_go h _ _ _) _ _
  | record a r k => exact fins_of fun _ => ⟨_, _, rfl, fins_go h _ _ _⟩
  | tell a r k => exact fins_of fun _ => ⟨_, _, rfl, fins_go h _ _ _⟩
  | was o c => exact fins_of fun _ => ⟨_, _, rfl, hp _ _ _ h⟩
  | pause o w c => exact hp o w c h
  | empty w c => exact hE w c h
  | itemsC w c => exact hC w c h
  | wipe l w c => exact hw l w c h
  | itemsI xs w c => exact hI xs w c h
  | resume o c => exact fins_of fun _ => ⟨_, _, rfl, fins_any h o⟩
  | any o c => exact fins_any h o
  | reduce o c => exact fins_of fun _ => ⟨_, _, rfl, fins_of fun _ => ⟨_, _, rfl, fins_forget h o⟩⟩
  | tellR o a r c => exact fins_of fun _ => ⟨_, _, rfl, fins_forget h o⟩
  | forget o c => exact fins_forget h o
  | done o c => exact fins_done h o

theorem fins_run (t : Nat) (c : Code) : Fins t (.run c) := by
  induction c with
  | ret => exact fun d => ⟨[], d, _, .nil _ _, rfl⟩
  | has x c ih => exact fins_of fun d => ⟨_, _, rfl, ih _⟩
  | call o c ih =>
    refine fins_of fun d => ?_
    obtain ⟨e, y, h⟩ : ∃ e y, next d t (.run (.call o c)) = some (e, y) := by cases o <;> exact ⟨_, _, rfl⟩
    exact ⟨e, y, h, fins_after t y (by rw [call_after h]; exact ih)⟩

theorem fins_all (t : Nat) (x : Ctl) : Fins t x := fins_after t x (fins_run t _)

/-! ## What a method tells does not depend on what was told before -/

/-- With more told before (`/repo/src/psygnal/_signal.py:1201,1425`). -/
def A.pre (T : List ((List Nat × List Nat) × List Nat)) (s : A) : A := { s with told := T ++ s.told }

/-- Nothing told before matters (`/repo/src/psygnal/_signal.py:1192-1201,1407-1429`). -/
def Blind (f : A → A) : Prop := ∀ T s, f (s.pre T) = (f s).pre T

theorem pre_emit (a r : List Nat) : Blind (A.emit a r) := by
  intro T s
  show (if s.data.paused then _ else _) = A.pre T (if s.data.paused then _ else _)
  split
  · rfl
  · simp [A.tell, A.pre]

theorem pre_add (x : Nat) : Blind (A.add x) := by
  intro T s
  show (if x ∈ s.data.set then _ else _) = A.pre T (if x ∈ s.data.set then _ else _)
  split
  · rfl
  · exact pre_emit _ _ T (s.put x)

theorem pre_del (x : Nat) : Blind (A.del x) := by
  intro T s
  show (if x ∈ s.data.set then _ else _) = A.pre T (if x ∈ s.data.set then _ else _)
  split
  · exact pre_emit _ _ T (s.drop x)
  · rfl

theorem pre_flip (x : Nat) : Blind (A.flip x) := by
  intro T s
  show (if x ∈ s.data.set then _ else _) = A.pre T (if x ∈ s.data.set then _ else _)
  split
  · exact pre_del x T s
  · exact pre_add x T s

theorem pre_doo (ds : List Do) : Blind (fun s => ds.foldl A.doo s) := by
  intro T s
  induction ds generalizing s with
  | nil => rfl
  | cons d ds ih =>
    show ds.foldl A.doo ((s.pre T).doo d) = _
    have : (s.pre T).doo d = (s.doo d).pre T := by
      cases d with
      | add x => exact pre_add x T s
      | del x => exact pre_del x T s
      | flip x => exact pre_flip x T s
    rw [this]
    exact ih _

theorem pre_exit (w : Option Bool) : Blind (fun s => s.exit w) := by
  intro T s
  cases w with
  | none => rfl
  | some v =>
    cases v with
    | true => rfl
    | false =>
      show (if s.data.queue.isEmpty then _ else _) = A.pre T (if s.data.queue.isEmpty then _ else _)
      split
      · rfl
      · simp [A.tell, A.pre, A.forget]

theorem pre_body (o : Call) : Blind (fun s => s.body o) := by
  intro T s
  cases o with
  | update xs => exact pre_doo _ T s
  | diff xs => exact pre_doo _ T s
  | sym xs => exact pre_doo _ T s
  | inter xs => exact pre_doo _ T s
  | clear =>
    show (if s.data.set.isEmpty then _ else _) = A.pre T (if s.data.set.isEmpty then _ else _)
    split
    · rfl
    · exact pre_emit _ _ T s.wipe
  | add x => exact pre_add x T s
  | discard x => exact pre_del x T s

theorem pre_call (o : Call) : Blind (fun s => s.call o) := by
  have h : ∀ o, Blind (fun s => (s.pause.body o).exit (some s.data.paused)) := by
    intro o T s
    have h1 := pre_body o T s.pause
    have h2 := pre_exit (some s.data.paused) T (s.pause.body o)
    exact (congrArg (fun a : A => a.exit (some s.data.paused)) h1).trans h2
  cases o with
  | add x => exact pre_add x
  | discard x => exact pre_del x
  | update xs => exact h _
  | diff xs => exact h _
  | sym xs => exact h _
  | inter xs => exact h _
  | clear => exact h _

/-! ## Between methods nothing is paused and nothing recorded -/

/-- Nothing is paused, nothing recorded (`/repo/src/psygnal/_signal.py:547,553`). -/
def Data.Calm (d : Data) : Prop := d.paused = false ∧ d.queue = []

theorem calm_exit (s : A) : (s.exit (some false)).data.Calm := by
  show (A.flush { s with data := { s.data with paused := false } }).data.Calm
  unfold A.flush
  split
  · rename_i h
    exact ⟨rfl, by simpa using h⟩
  · exact ⟨rfl, rfl⟩

theorem calm_call {s : A} (h : s.data.Calm) (o : Call) : (s.call o).data.Calm := by
  have hb : ∀ o, ((s.pause.body o).exit (some s.data.paused)).data.Calm := fun o => by rw [h.1]; exact calm_exit _
  cases o with
  | add x =>
    show (if x ∈ s.data.set then s else (s.put x).emit [x] []).data.Calm
    split
    · exact h
    · show (if s.data.paused then _ else A.tell [x] [] (s.put x)).data.Calm
      rw [if_neg (by simp [h.1])]; exact ⟨h.1, h.2⟩
  | discard x =>
    show (if x ∈ s.data.set then (s.drop x).emit [] [x] else s).data.Calm
    split
    · show (if s.data.paused then _ else A.tell [] [x] (s.drop x)).data.Calm
      rw [if_neg (by simp [h.1])]; exact ⟨h.1, h.2⟩
    · exact h
  | update xs => exact hb (.update xs)
  | diff xs => exact hb (.diff xs)
  | sym xs => exact hb (.sym xs)
  | inter xs => exact hb (.inter xs)
  | clear => exact hb .clear

/-! ## Blocks -/

/-- What user code sees of a set: whether an item is in it, and, in callbacks, what changed (`/repo/src/psygnal/containers/_evented_set.py:71`,
`/repo/src/psygnal/_signal.py:1201,1425`). -/
inductive Seen
  | found (t x : Nat) (b : Bool)
  | told (t : Nat) (a r : List Nat)
  deriving DecidableEq, Repr

/-- What user code sees of an event (`/repo/src/psygnal/containers/_evented_set.py:71`, `/repo/src/psygnal/_signal.py:1201,1425`). -/
def Ev.seen : Ev → Option Seen
  | .look t x b => some (.found t x b)
  | .told t a r => some (.told t a r)
  | _ => none

/-- What is told by thread `t` (`/repo/src/psygnal/_signal.py:1201,1425`). -/
def tells (t : Nat) (l : List ((List Nat × List Nat) × List Nat)) : List Seen := l.map fun x => .told t x.1.1 x.1.2

/-- A block made alone by thread `t`, as one sees it: what it sees, and the set after it.  A method does what it does in the model of C31
(`/repo/src/psygnal/containers/_evented_set.py:38-71,127-170,273-322`). -/
def alone (t : Nat) (d : List Nat) : Code → List Seen × List Nat
  | .ret => ([], d)
  | .has x c => let q := alone t d (c (decide (x ∈ d))); (.found t x (decide (x ∈ d)) :: q.1, q.2)
  | .call o c =>
    let p := (ES.step seq o.op { data := d }).2
    let q := alone t p.data c
    (p.log.map (fun x => .told t x.1.1 x.1.2) ++ q.1, q.2)

theorem call_once {d : List Nat} (hd : d.Nodup) (o : Call) (T : List ((List Nat × List Nat) × List Nat)) :
    let p := (ES.step seq o.op { data := d }).2
    A.call ⟨⟨d, false, []⟩, T⟩ o = ⟨⟨p.data, false, []⟩, T ++ p.log⟩ ∧ p.data.Nodup := by
  intro p
  obtain ⟨s', h1, h2, h3⟩ := call_same o (s := { data := d }) ⟨rfl, hd⟩
  have hp : p = s' := congrArg Prod.snd h1
  have h4 := pre_call o T ⟨⟨d, false, []⟩, []⟩
  have h5 := calm_call (s := ⟨⟨d, false, []⟩, []⟩) ⟨rfl, rfl⟩ o
  have h3 : abs s' = A.call ⟨⟨d, false, []⟩, []⟩ o := h3
  rw [← h3] at h5
  have h4 : A.call ⟨⟨d, false, []⟩, T ++ []⟩ o = A.pre T (A.call ⟨⟨d, false, []⟩, []⟩ o) := h4
  rw [List.append_nil, ← h3] at h4
  refine ⟨?_, hp ▸ h2.2⟩
  rw [h4, hp]
  have h6 : s'.paused = false := h5.1
  have h7 : s'.queue = [] := h5.2
  simp [abs, A.pre, h6, h7]

/-- A block does what it does alone: the rest of the method under way, then the rest of the block. -/
theorem path_seen {t : Nat} {d d' : Data} {x z : Ctl} {l : List Ev} (h : Blk.Path sys t d x l d' z) (hz : z.rest = true) :
    ∀ T, (x.fin ⟨d, T⟩).data.Calm → (x.fin ⟨d, T⟩).data.set.Nodup →
      tells t T ++ l.filterMap Ev.seen = tells t (x.fin ⟨d, T⟩).told ++ (alone t (x.fin ⟨d, T⟩).data.set x.after).1 ∧
      d'.set = (alone t (x.fin ⟨d, T⟩).data.set x.after).2 ∧ d'.Calm ∧ d'.set.Nodup := by
  induction h with
  | nil d x =>
    intro T hc hn
    cases x with
    | run c =>
      cases c with
      | ret => exact ⟨rfl, rfl, hc, hn⟩
      | _ => cases hz
    | _ => cases hz
  | @cons d d' x y z e l hn hp ih =>
    intro T hc hd
    have hn : next d t x = some (e, y) := hn
    cases hx : x.busy with
    | true =>
      have h1 := next_fin (s := ⟨d, T⟩) hn hx
      have h2 := next_after hn hx
      have ih := ih hz (A.on ⟨d, T⟩ e).told
      have h3 : y.fin ⟨e.on d, (A.on ⟨d, T⟩ e).told⟩ = x.fin ⟨d, T⟩ := h1
      rw [show sys.on d e = e.on d from rfl, h3, h2] at ih
      obtain ⟨i1, i2⟩ := ih hc hd
      refine ⟨?_, i2⟩
      rw [← i1]
      have ht := next_thread hn
      have hl : ∀ u z b, e ≠ .look u z b := by
        cases x with
        | run c => cases hx
        | _ => cases hn; simp
      cases e with
      | told u a r =>
        have hu : u = t := ht
        subst hu
        simp [A.on, tells, Ev.seen]
      | look u z b => exact absurd rfl (hl u z b)
      | _ => rfl
    | false =>
      cases x with
      | run c =>
        cases c with
        | ret => cases hn
        | has w f =>
          cases hn
          obtain ⟨i1, i2⟩ := ih hz [] hc hd
          have i1 : l.filterMap Ev.seen = (alone t d.set (f (decide (w ∈ d.set)))).1 := i1
          refine ⟨?_, i2⟩
          show tells t T ++ .found t w (decide (w ∈ d.set)) :: l.filterMap Ev.seen = tells t T ++ _
          rw [i1]
          rfl
        | call o c =>
          obtain ⟨h1, rfl, hb⟩ := call_fin (s := ⟨d, T⟩) hn
          have h2 := call_after hn
          have hd0 : d = ⟨d.set, false, []⟩ := by
            obtain ⟨p, q⟩ := hc
            have p : d.paused = false := p
            have q : d.queue = [] := q
            cases d; simp_all
          obtain ⟨k1, k2⟩ := call_once hd o T
          have k1 : A.call ⟨⟨d.set, false, []⟩, T⟩ o = _ := k1
          rw [← hd0] at k1
          have h3 : y.fin ⟨d, T⟩ = A.call ⟨d, T⟩ o := h1
          have ih := ih hz T
          rw [show sys.on d (.call t o) = d from rfl, h3, k1, h2] at ih
          obtain ⟨i1, i2⟩ := ih ⟨rfl, rfl⟩ k2
          refine ⟨?_, i2⟩
          show tells t T ++ l.filterMap Ev.seen = _
          rw [i1]
          simp [tells, alone, Ctl.fin, Ctl.after]
      | _ => cases hx

end Psygnal.StC
