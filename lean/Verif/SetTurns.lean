import Verif.SetConcLemmas
import Verif.EventedSet

/-! # Lemmas for C97: a set used by several threads in turns and the set of C31 -/
namespace Psygnal.StC

/-- What the listeners are told, each time with the items in the set at that moment. -/
def tellings (d : List Nat) (l : List Ev) : List ((List Nat × List Nat) × List Nat) :=
  (l.foldl (fun p e => (value p.1 [e], match e with
    | .told _ a r => p.2 ++ [((a, r), p.1)]
    | _ => p.2)) (d, [])).2

/-- The methods in the order in which they are called. -/
def calls (l : List Ev) : List Call := l.filterMap fun e => match e with
  | .call _ o => some o
  | _ => none

/-- The same method in the model of C31 (`/repo/src/psygnal/containers/_evented_set.py:38-67,127-170,273-300`). -/
def Call.op : Call → ES.Op Nat
  | .add x => .add x
  | .discard x => .discard x
  | .update xs => .update [xs]
  | .diff xs => .differenceUpdate [xs]
  | .inter xs => .intersectionUpdate [xs]
  | .sym xs => .symmetricDifferenceUpdate xs
  | .clear => .clear

/-- An evented set with listeners that listen (`/repo/src/psygnal/containers/_evented_set.py:204-212,232`). -/
def seq : ES.Cfg Nat where
  place := fun d x => d ++ [x]
  evented := true
  fails := fun _ => false

theorem tellings_snoc (d : List Nat) (l : List Ev) (e : Ev) : tellings d (l ++ [e]) = match e with
    | .told _ a r => tellings d l ++ [((a, r), value d l)]
    | _ => tellings d l := by
  have key : ∀ (l : List Ev), (l.foldl (fun (p : List Nat × List ((List Nat × List Nat) × List Nat)) e => (value p.1 [e], match e with
      | .told _ a r => p.2 ++ [((a, r), p.1)]
      | _ => p.2)) (d, [])).1 = value d l := by
    intro l
    induction hn : l.length generalizing l with
    | zero => rw [List.length_eq_zero_iff.mp hn]; rfl
    | succ n ih =>
      rcases List.eq_nil_or_concat l with rfl | ⟨l, z, rfl⟩
      · simp at hn
      · rw [List.concat_eq_append, List.foldl_append, value_snoc, ← ih l (by simpa using hn)]
        rfl
  unfold tellings
  rw [List.foldl_append]
  cases e <;> first | rfl | skip
  rw [← key l]; rfl

/-! ## Whole methods -/

/-- The set and its signal, and what was told. -/
structure A where
  data : Data
  told : List ((List Nat × List Nat) × List Nat)

/-- The callbacks are told (`/repo/src/psygnal/_signal.py:1201,1425`). -/
def A.tell (a r : List Nat) (s : A) : A := { s with told := s.told ++ [((a, r), s.data.set)] }

/-- A change is recorded (`/repo/src/psygnal/_signal.py:1193`). -/
def A.record (a r : List Nat) (s : A) : A := { s with data := { s.data with queue := s.data.queue ++ [(a, r)] } }

/-- `emit` (`/repo/src/psygnal/_signal.py:1192-1201`). -/
def A.emit (a r : List Nat) (s : A) : A := if s.data.paused then s.record a r else s.tell a r

/-- What an event does, and tells (`/repo/src/psygnal/containers/_evented_set.py:103,106,109`). -/
def A.on (s : A) (e : Ev) : A := ⟨e.on s.data, match e with
  | .told _ a r => s.told ++ [((a, r), s.data.set)]
  | _ => s.told⟩

/-- An item is stored (`/repo/src/psygnal/containers/_evented_set.py:103`). -/
def A.put (x : Nat) (s : A) : A := { s with data := { s.data with set := if x ∈ s.data.set then s.data.set else s.data.set ++ [x] } }

/-- An item is dropped (`/repo/src/psygnal/containers/_evented_set.py:106`). -/
def A.drop (x : Nat) (s : A) : A := { s with data := { s.data with set := s.data.set.filter (· != x) } }

/-- All items are dropped (`/repo/src/psygnal/containers/_evented_set.py:109`). -/
def A.wipe (s : A) : A := { s with data := { s.data with set := [] } }

/-- `add` (`/repo/src/psygnal/containers/_evented_set.py:38-46,302-306`). -/
def A.add (x : Nat) (s : A) : A := if x ∈ s.data.set then s else (s.put x).emit [x] []

/-- `discard` (`/repo/src/psygnal/containers/_evented_set.py:53-61,308-312`). -/
def A.del (x : Nat) (s : A) : A := if x ∈ s.data.set then (s.drop x).emit [] [x] else s

/-- One of the two (`/repo/src/psygnal/containers/_evented_set.py:170`). -/
def A.flip (x : Nat) (s : A) : A := if x ∈ s.data.set then s.del x else s.add x

/-- What a bulk method does with an item (`/repo/src/psygnal/containers/_evented_set.py:43,58,170`). -/
def A.doo (s : A) : Do → A
  | .add x => s.add x
  | .del x => s.del x
  | .flip x => s.flip x

/-- The record is emptied (`/repo/src/psygnal/_signal.py:1429`). -/
def A.forget (s : A) : A := { s with data := { s.data with queue := [] } }

/-- The reduced record is told (`/repo/src/psygnal/_signal.py:1410-1429`). -/
def A.flush (s : A) : A :=
  if s.data.queue.isEmpty then s else (s.tell (s.data.queue.flatMap Prod.fst) (s.data.queue.flatMap Prod.snd)).forget

/-- `resume` (`/repo/src/psygnal/_signal.py:1407-1429`). -/
def A.resume (s : A) : A := A.flush { s with data := { s.data with paused := false } }

/-- `pause` (`/repo/src/psygnal/_signal.py:1371`). -/
def A.pause (s : A) : A := { s with data := { s.data with paused := true } }

/-- The end of a method: `__exit__` of a bulk method (`/repo/src/psygnal/_signal.py:1542-1544`). -/
def A.exit (s : A) : Option Bool → A
  | some false => s.resume
  | _ => s

/-- The body of a method (`/repo/src/psygnal/containers/_evented_set.py:48-67,127-170`). -/
def A.body (s : A) : Call → A
  | .update xs => (xs.map Do.add).foldl A.doo s
  | .diff xs => (xs.map Do.del).foldl A.doo s
  | .sym xs => (xs.map Do.flip).foldl A.doo s
  | .inter xs => ((s.data.set.filter (fun i => decide (i ∉ xs))).map Do.del).foldl A.doo s
  | .clear => if s.data.set.isEmpty then s else s.wipe.emit [] s.data.set
  | .add x => s.add x
  | .discard x => s.del x

/-- A whole method (`/repo/src/psygnal/containers/_evented_set.py:38-67,273-300`). -/
def A.call (s : A) (o : Call) : A := match o with
  | .add x => s.add x
  | .discard x => s.del x
  | o => (s.pause.body o).exit (some s.data.paused)

/-- What is left after an item (`/repo/src/psygnal/containers/_evented_set.py:50-51,127-170`). -/
def Rest.fin (k : Rest) (s : A) : A := (k.todo.foldl A.doo s).exit k.saw

/-- What the rest of the method does. -/
def Ctl.fin : Ctl → A → A
  | .run _, s => s
  | .testA x k, s => k.fin (s.add x)
  | .put x k, s => k.fin ((s.put x).emit [x] [])
  | .testD x k, s => k.fin (s.del x)
  | .drop x k, s => k.fin ((s.drop x).emit [] [x])
  | .testS x k, s => k.fin (s.flip x)
  | .emit a r k, s => k.fin (s.emit a r)
  | .record a r k, s => k.fin (s.record a r)
  | .tell a r k, s => k.fin (s.tell a r)
  | .was o _, s => (s.pause.body o).exit (some s.data.paused)
  | .pause o w _, s => (s.pause.body o).exit (some w)
  | .empty w _, s => (s.body .clear).exit (some w)
  | .itemsC w _, s => (s.wipe.emit [] s.data.set).exit (some w)
  | .wipe l w _, s => (s.wipe.emit [] l).exit (some w)
  | .itemsI xs w _, s => (s.body (.inter xs)).exit (some w)
  | .resume _ _, s => s.resume
  | .any _ _, s => s.flush
  | .reduce _ _, s => (s.tell (s.data.queue.flatMap Prod.fst) (s.data.queue.flatMap Prod.snd)).forget
  | .tellR _ a r _, s => (s.tell a r).forget
  | .forget _ _, s => s.forget
  | .done _ _, s => s

theorem go_fin (k : Rest) (s : A) : k.go.fin s = k.fin s := by
  obtain ⟨o, td, w, c⟩ := k
  cases td with
  | cons d ds => cases d <;> rfl
  | nil =>
    cases w with
    | none => rfl
    | some v => cases v <;> rfl

theorem enter_fin (w : Bool) (c : Code) (o : Call) (s : A) : (enter w c o).fin s = (s.body o).exit (some w) := by
  cases o <;> first | rfl | exact go_fin _ _

/-- A step of a method does part of it. -/
theorem next_fin {s : A} {t : Nat} {x y : Ctl} {e : Ev} (h : next s.data t x = some (e, y)) (hx : x.busy = true) : y.fin (s.on e) = x.fin s := by
  cases x with
  | run c => cases hx
  | testA x k =>
    cases h
    show (if x ∈ s.data.set then k.go else .put x k).fin s = k.fin (s.add x)
    unfold A.add
    split
    · exact go_fin _ _
    · rfl
  | testD x k =>
    cases h
    show (if x ∈ s.data.set then .drop x k else k.go).fin s = k.fin (s.del x)
    unfold A.del
    split
    · rfl
    · exact go_fin _ _
  | testS x k =>
    cases h
    show (if x ∈ s.data.set then Ctl.testD x k else .testA x k).fin s = k.fin (s.flip x)
    unfold A.flip
    split <;> rfl
  | emit a r k =>
    cases h
    show (if s.data.paused then Ctl.record a r k else .tell a r k).fin s = k.fin (s.emit a r)
    unfold A.emit
    split <;> rfl
  | record a r k => cases h; exact go_fin _ _
  | tell a r k => cases h; exact go_fin _ _
  | pause o w c => cases h; exact enter_fin _ _ _ _
  | empty w c =>
    cases h
    show (if s.data.set.isEmpty then Rest.go ⟨.clear, [], some w, c⟩ else .itemsC w c).fin s = (if s.data.set.isEmpty then s else s.wipe.emit [] s.data.set).exit (some w)
    split
    · exact go_fin _ _
    · rfl
  | itemsI xs w c => cases h; exact go_fin _ _
  | any o c =>
    cases h
    show (if s.data.queue.isEmpty then Ctl.done o c else .reduce o c).fin s = s.flush
    unfold A.flush
    split <;> rfl
  | _ => cases h; rfl

/-- Calling a method begins all of it. -/
theorem call_fin {s : A} {t : Nat} {c : Code} {y : Ctl} {e : Ev} {o : Call} (h : next s.data t (.run (.call o c)) = some (e, y)) :
    y.fin s = s.call o ∧ e = .call t o ∧ y.busy = true := by
  cases o <;> (cases h; exact ⟨rfl, rfl, rfl⟩)

theorem next_no_call {d : Data} {t : Nat} {x y : Ctl} {e : Ev} (h : next d t x = some (e, y)) (hx : x.busy = true) (u : Nat) (o : Call) : e ≠ .call u o := by
  cases x with
  | run c => cases hx
  | _ => cases h; simp

/-! ## In turns -/

/-- What there is and what was told (`/repo/src/psygnal/containers/_evented_set.py:32`). -/
def now (d : List Nat) (σ : St) : A := ⟨σ.data, tellings d σ.log⟩

/-- The same if the methods are done one after the other (`/repo/src/psygnal/containers/_evented_set.py:38-67,273-300`). -/
def all (d : List Nat) (l : List Ev) : A := (calls l).foldl A.call ⟨⟨d, false, []⟩, []⟩

/-- Methods do not overlap: a method that is under way will have done all of it at its end (`/repo/src/psygnal/containers/_evented_set.py:38-67,273-300`). -/
structure Turns (d : List Nat) (σ : St) : Prop where
  value : σ.data.set = value d σ.log
  busy : ∀ t, (σ.thr t).busy = true → (σ.thr t).fin (now d σ) = all d σ.log
  rest : (∀ t, (σ.thr t).busy = false) → now d σ = all d σ.log

theorem now_on {d : List Nat} {σ : St} {e : Ev} {f : Nat → Ctl} (hv : σ.data.set = StC.value d σ.log) :
    now d ⟨e.on σ.data, f, σ.log ++ [e]⟩ = (now d σ).on e := by
  unfold now A.on
  rw [tellings_snoc]
  cases e <;> first | rfl | skip
  simp [hv]

theorem value_on {d : List Nat} {σ : St} {e : Ev} (hv : σ.data.set = StC.value d σ.log) : (e.on σ.data).set = StC.value d (σ.log ++ [e]) := by
  rw [value_snoc, ← hv]
  cases e <;> rfl

theorem calls_snoc {l : List Ev} {e : Ev} (h : ∀ u o, e ≠ .call u o) : calls (l ++ [e]) = calls l := by
  unfold calls
  rw [List.filterMap_append]
  cases e <;> first | exact absurd rfl (h _ _) | simp

theorem all_snoc {d : List Nat} {l : List Ev} {t : Nat} {o : Call} : all d (l ++ [.call t o]) = (all d l).call o := by
  unfold all calls
  rw [List.filterMap_append]
  simp

theorem turns_step {d : List Nat} {σ : St} (h : Turns d σ) (t : Nat) (h1 : One σ) (h2 : One (step σ t)) : Turns d (step σ t) := by
  cases hn : next σ.data t (σ.thr t) with
  | none => rw [step_none hn]; exact h
  | some p =>
    obtain ⟨e, x⟩ := p
    rw [step_some hn] at h2 ⊢
    by_cases hk : (σ.thr t).busy = true
    · have hown := next_fin (s := now d σ) hn hk
      rw [h.busy t hk] at hown
      have hc : all d (σ.log ++ [e]) = all d σ.log := by
        unfold all; rw [calls_snoc (next_no_call hn hk)]
      refine ⟨value_on h.value, fun u hu => ?_, fun hr => ?_⟩
      · have hu : (if u = t then x else σ.thr u).busy = true := hu
        rw [now_on h.value]
        show (if u = t then x else σ.thr u).fin ((now d σ).on e) = all d (σ.log ++ [e])
        by_cases hut : u = t
        · rw [if_pos hut, hc]; exact hown
        · rw [if_neg hut] at hu
          exact absurd (h1 u t hu hk) hut
      · have hx : x.busy = false := by simpa using hr t
        rw [now_on h.value]
        show (now d σ).on e = all d (σ.log ++ [e])
        rw [hc, ← hown]
        cases x with
        | run c => rfl
        | _ => cases hx
    · have hk : (σ.thr t).busy = false := by simpa using hk
      cases hc : σ.thr t with
      | run c =>
        rw [hc] at hn
        cases c with
        | ret => cases hn
        | has z f =>
          cases hn
          have ha : all d (σ.log ++ [.look t z (decide (z ∈ σ.data.set))]) = all d σ.log := by
            unfold all; rw [calls_snoc (by simp)]
          refine ⟨value_on h.value, fun u hu => ?_, fun hr => ?_⟩
          · have hu : (if u = t then .run (f (decide (z ∈ σ.data.set))) else σ.thr u).busy = true := hu
            rw [now_on h.value]
            show (if u = t then .run (f (decide (z ∈ σ.data.set))) else σ.thr u).fin (now d σ) = _
            rw [ha]
            by_cases hut : u = t
            · rw [if_pos hut] at hu; cases hu
            · rw [if_neg hut] at hu ⊢
              exact h.busy u hu
          · rw [now_on h.value]
            show now d σ = _
            rw [ha]
            refine h.rest fun w => ?_
            by_cases hwt : w = t
            · rw [hwt]; exact hk
            · have : (if w = t then Ctl.run (f (decide (z ∈ σ.data.set))) else σ.thr w).busy = false := hr w
              rwa [if_neg hwt] at this
        | call o c =>
          obtain ⟨h3, rfl, hb⟩ := call_fin (s := now d σ) hn
          have hrest := h.rest (fun w => by
            cases hw : (σ.thr w).busy with
            | false => rfl
            | true =>
              have hwt : w ≠ t := fun e => by rw [e, hk] at hw; cases hw
              have := h2 t w (show (if t = t then x else σ.thr t).busy = true from by rw [if_pos rfl]; exact hb)
                (show (if w = t then x else σ.thr w).busy = true from by rw [if_neg hwt]; exact hw)
              exact absurd this.symm hwt)
          refine ⟨value_on h.value, fun u hu => ?_, fun hr => ?_⟩
          · have hu : (if u = t then x else σ.thr u).busy = true := hu
            rw [now_on h.value]
            show (if u = t then x else σ.thr u).fin (now d σ) = all d (σ.log ++ [.call t o])
            by_cases hut : u = t
            · rw [if_pos hut, all_snoc, ← hrest]; exact h3
            · have := h2 u t (show (if u = t then x else σ.thr u).busy = true from hu)
                (show (if t = t then x else σ.thr t).busy = true from by rw [if_pos rfl]; exact hb)
              exact absurd this hut
          · have : (if t = t then x else σ.thr t).busy = false := hr t
            rw [if_pos rfl, hb] at this
            cases this
      | _ => rw [hc] at hk; cases hk

theorem turns_from {d : List Nat} : ∀ (s : List Nat) {σ : St}, Turns d σ → (∀ p q, s = p ++ q → One (run p σ)) → Turns d (run s σ)
  | [], _, h, _ => h
  | t :: s, _, h, h1 => turns_from s (turns_step h t (h1 [] (t :: s) rfl) (h1 [t] s rfl)) (fun p q e => h1 (t :: p) q (by rw [e]; rfl))

theorem turns_run {d : List Nat} {prog : Nat → Code} {s : List Nat}
    (h : ∀ p q, s = p ++ q → ∀ t u, InOp t (run p (init d prog)).log → InOp u (run p (init d prog)).log → t = u) : Turns d (run s (init d prog)) :=
  turns_from s ⟨rfl, fun _ hk => (nomatch (show false = true from hk)), fun _ => rfl⟩
    (fun p q e t u ht hu => h p q e t u ((open_run d prog p t).1 ht) ((open_run d prog p u).1 hu))

/-! ## The set of C31 -/

/-- What there is and what was told in the model of C31 (`/repo/src/psygnal/containers/_evented_set.py:32`). -/
def abs (s : ES.St Nat) : A := ⟨⟨s.data, s.paused, s.queue⟩, s.log⟩

/-- Between methods and in bulk methods. -/
def Good (s : ES.St Nat) : Prop := s.pending = none ∧ s.data.Nodup

/-- A method of C31 that does not raise and does the same. -/
def Same (m : Py.M (ES.St Nat) Unit) (f : A → A) : Prop := ∀ s, Good s → ∃ s', m s = (.ok (), s') ∧ Good s' ∧ abs s' = f (abs s)

theorem emit_same {s : ES.St Nat} (h : s.pending = none) (a r : List Nat) :
    ∃ s', ES.emitChange seq a r s = (.ok (), s') ∧ s'.pending = none ∧ s'.data = s.data ∧ abs s' = (abs s).emit a r := by
  cases hp : s.paused with
  | true =>
    refine ⟨{ s with queue := s.queue ++ [(a, r)] }, by simp [ES.emitChange, seq, hp], h, rfl, ?_⟩
    simp [abs, A.emit, A.record, hp]
  | false =>
    refine ⟨{ s with log := s.log ++ [((a, r), s.data)], pending := none }, ?_, rfl, rfl, ?_⟩
    · simp [ES.emitChange, seq, hp, ES.deliver, h, ES.drain, Py.M.pure]
    · simp [abs, A.emit, A.tell, hp]

theorem add_same (x : Nat) : Same (ES.add seq x) (A.add x) := by
  intro s h
  by_cases hx : x ∈ s.data
  · refine ⟨{ s with hist := s.hist ++ [.ins x] }, ?_, h, ?_⟩
    · simp [ES.add, Py.M.bind, Py.M.get, Py.M.modify, hx]
    · simp [A.add, abs, hx]
  · obtain ⟨s', h1, h2, h3, h4⟩ := emit_same (s := { s with hist := s.hist ++ [.ins x], data := s.data ++ [x] }) h.1 [x] []
    refine ⟨s', ?_, ⟨h2, ?_⟩, ?_⟩
    · simp only [ES.add, Py.M.bind_eq, Py.M.bind, Py.M.get, Py.M.modify, hx, if_false]
      exact h1
    · rw [h3]
      exact List.nodup_append.mpr ⟨h.2, by simp, fun a ha b hb e => by simp at hb; rw [e, hb] at ha; exact hx ha⟩
    · rw [h4]
      simp [A.add, A.put, abs, hx]

theorem del_same (x : Nat) : Same (ES.discard seq x) (A.del x) := by
  intro s h
  by_cases hx : x ∈ s.data
  · obtain ⟨s', h1, h2, h3, h4⟩ := emit_same (s := { s with hist := s.hist ++ [.del x], data := s.data.erase x }) h.1 [] [x]
    refine ⟨s', ?_, ⟨h2, ?_⟩, ?_⟩
    · simp only [ES.discard, Py.M.bind_eq, Py.M.bind, Py.M.get, Py.M.modify, hx, if_true]
      exact h1
    · rw [h3]
      exact h.2.erase x
    · rw [h4]
      simp [A.del, A.drop, abs, hx, h.2.erase_eq_filter]
  · refine ⟨{ s with hist := s.hist ++ [.del x] }, ?_, h, ?_⟩
    · simp [ES.discard, Py.M.bind, Py.M.get, Py.M.modify, hx]
    · simp [A.del, abs, hx]

theorem flip_same (x : Nat) : Same (ES.toggle seq x) (A.flip x) := by
  intro s h
  by_cases hx : x ∈ s.data
  · obtain ⟨s', h1, h2, h3⟩ := del_same x s h
    refine ⟨s', ?_, h2, ?_⟩
    · simp only [ES.toggle, Py.M.bind_eq, Py.M.bind, Py.M.get, hx, if_true]; exact h1
    · rw [h3]; simp [A.flip, abs, hx]
  · obtain ⟨s', h1, h2, h3⟩ := add_same x s h
    refine ⟨s', ?_, h2, ?_⟩
    · simp only [ES.toggle, Py.M.bind_eq, Py.M.bind, Py.M.get, hx, if_false]; exact h1
    · rw [h3]; simp [A.flip, abs, hx]

theorem each_same {f : Nat → Py.M (ES.St Nat) Unit} {g : Nat → Do} (h : ∀ x, Same (f x) (fun s => s.doo (g x))) :
    ∀ xs : List Nat, Same (Py.M.forEach xs f) (fun s => (xs.map g).foldl A.doo s)
  | [] => fun s hs => ⟨s, rfl, hs, rfl⟩
  | x :: xs => fun s hs => by
    obtain ⟨s', h1, h2, h3⟩ := h x s hs
    obtain ⟨s'', h4, h5, h6⟩ := each_same h xs s' h2
    refine ⟨s'', ?_, h5, ?_⟩
    · simp only [Py.M.forEach, Py.M.bind, h1]; exact h4
    · rw [h6, h3]; rfl

theorem paused_same {m : Py.M (ES.St Nat) Unit} {f : A → A} (h : Same m f) : Same (ES.withPaused seq m) (fun s => (f s.pause).exit (some s.data.paused)) := by
  intro s hs
  obtain ⟨s', h1, h2, h3⟩ := h { s with paused := true } hs
  have h3 : abs s' = f (abs s).pause := h3
  cases hp : s.paused with
  | true =>
    refine ⟨s', ?_, h2, ?_⟩
    · simp only [ES.withPaused, seq, if_true, hp]
      rw [show m { s with paused := true } = _ from h1]
    · show abs s' = (f (abs s).pause).exit (some s.paused)
      rw [hp, ← h3]; rfl
  | false =>
    show ∃ s'', _ ∧ _ ∧ abs s'' = (f (abs s).pause).exit (some s.paused)
    rw [hp, ← h3]
    by_cases hq : s'.queue = []
    · refine ⟨{ s' with paused := false }, ?_, h2, ?_⟩
      · simp only [ES.withPaused, seq, if_true, hp]
        rw [show m { s with paused := true } = _ from h1]
        simp [ES.resume, hq]
      · simp [abs, A.exit, A.resume, A.flush, hq]
    · refine ⟨{ s' with paused := false, queue := [], log := s'.log ++ [(ES.reduceEvents s'.queue, s'.data)], pending := none }, ?_, ⟨rfl, h2.2⟩, ?_⟩
      · simp only [ES.withPaused, seq, if_true, hp]
        rw [show m { s with paused := true } = _ from h1]
        simp [ES.resume, hq, ES.deliver, h2.1, ES.drain, Py.M.pure]
      · simp [abs, A.exit, A.resume, A.flush, A.tell, A.forget, hq, ES.reduceEvents]

theorem inter_same (xs : List Nat) : Same (do
    if [xs] = [] then Py.M.raise .type else do
      let s ← Py.M.get
      Py.M.forEach (s.data.filter fun x => ![xs].all (x ∈ ·)) (ES.discard seq)) (fun s => s.body (.inter xs)) := by
  intro s hs
  obtain ⟨s', h1, h2, h3⟩ := each_same (g := Do.del) (fun x => del_same x) (s.data.filter fun x => ![xs].all (x ∈ ·)) s hs
  refine ⟨s', ?_, h2, ?_⟩
  · simp only [List.cons_ne_nil, if_false, Py.M.bind_eq, Py.M.bind, Py.M.get]; exact h1
  · rw [h3]
    have : (s.data.filter fun x => ![xs].all (x ∈ ·)) = s.data.filter (fun i => decide (i ∉ xs)) := by
      congr 1; funext x; simp
    rw [this]; rfl

theorem clear_same : Same (do
    let s ← Py.M.get
    Py.M.modify fun s => { s with hist := s.hist ++ [.clr] }
    if s.data = [] then pure () else do
      Py.M.modify fun s => { s with data := [] }
      ES.emitChange seq [] s.data) (fun s => s.body .clear) := by
  intro s hs
  by_cases hd : s.data = []
  · refine ⟨{ s with hist := s.hist ++ [.clr] }, ?_, hs, ?_⟩
    · simp [Py.M.bind, Py.M.get, Py.M.modify, hd]
    · simp [A.body, abs, hd]
  · obtain ⟨s', h1, h2, h3, h4⟩ := emit_same (s := { s with hist := s.hist ++ [.clr], data := [] }) hs.1 [] s.data
    refine ⟨s', ?_, ⟨h2, by rw [h3]; exact List.nodup_nil⟩, ?_⟩
    · simp only [Py.M.bind_eq, Py.M.bind, Py.M.get, Py.M.modify, hd, if_false]
      exact h1
    · rw [h4]; simp [A.body, A.wipe, abs, hd]

theorem unit_same {m : Py.M (ES.St Nat) Unit} {f : A → A} (h : Same m f) {s : ES.St Nat} (hs : Good s) :
    ∃ s', (do m; pure ES.Res.unit : Py.M (ES.St Nat) (ES.Res Nat)) s = (.ok .unit, s') ∧ Good s' ∧ abs s' = f (abs s) := by
  obtain ⟨s', h1, h2, h3⟩ := h s hs
  exact ⟨s', by simp [Py.M.bind, h1], h2, h3⟩

theorem call_same (o : Call) {s : ES.St Nat} (hs : Good s) : ∃ s', ES.step seq o.op s = (.ok .unit, s') ∧ Good s' ∧ abs s' = (abs s).call o := by
  cases o with
  | add x => exact unit_same (add_same x) hs
  | discard x => exact unit_same (del_same x) hs
  | update xs =>
    obtain ⟨s', h1, h2, h3⟩ := unit_same (paused_same (each_same (g := Do.add) (fun x => add_same x) [xs].flatten)) hs
    exact ⟨s', h1, h2, by rw [h3]; simp [A.call, A.body]⟩
  | diff xs =>
    obtain ⟨s', h1, h2, h3⟩ := unit_same (paused_same (each_same (g := Do.del) (fun x => del_same x) [xs].flatten)) hs
    exact ⟨s', h1, h2, by rw [h3]; simp [A.call, A.body]⟩
  | sym xs => exact unit_same (paused_same (each_same (g := Do.flip) (fun x => flip_same x) xs)) hs
  | inter xs => exact unit_same (paused_same (inter_same xs)) hs
  | clear => exact unit_same (paused_same clear_same) hs

theorem run_same : ∀ (os : List Call) {s : ES.St Nat}, Good s → (∀ r ∈ (ES.run seq (os.map Call.op) s).1, r = .ok .unit) ∧
    abs (ES.run seq (os.map Call.op) s).2 = os.foldl A.call (abs s)
  | [], _, _ => ⟨by simp [ES.run], rfl⟩
  | o :: os, s, hs => by
    obtain ⟨s', h1, h2, h3⟩ := call_same o hs
    obtain ⟨h4, h5⟩ := run_same os h2
    simp only [List.map_cons, ES.run, h1]
    refine ⟨?_, ?_⟩
    · intro r hr
      rcases List.mem_cons.mp hr with rfl | hr
      · rfl
      · exact h4 r hr
    · rw [h5, h3]; rfl

end Psygnal.StC
