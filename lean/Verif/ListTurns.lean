import Verif.ListConcLemmas
import Verif.EventedList

/-! # Lemmas for C97: a list used by several threads in turns and the list of C27 and C28 -/
namespace Psygnal.LsC

/-- What the listeners are told by an event, with what the list holds at that moment. -/
def telling (d : List Nat) : Ev → List (EL.Ev Nat × List Nat)
  | .inserting _ i => [(.inserting i, d)]
  | .inserted _ i v => [(.inserted i v, d)]
  | .changed _ i o v => [(.changed i o v, d)]
  | .removing _ i => [(.removing i, d)]
  | .removed _ i x => [(.removed i x, d)]
  | .moving _ s e => [(.moving s e, d)]
  | .moved _ s e x => [(.moved s e x, d)]
  | .reordered _ => [(.reordered, d)]
  | _ => []

/-- What the listeners are told, each time with what the list holds at that moment. -/
def tellings (d : List Nat) : List Ev → List (EL.Ev Nat × List Nat)
  | [] => []
  | e :: l => telling d e ++ tellings (value d [e]) l

/-- The operations in the order in which they begin, in the model of C27 and C28 (`/repo/src/psygnal/containers/_evented_list.py:137-143,162-197,271-290`). -/
def calls (l : List Ev) : List (EL.Op Nat) := l.filterMap fun e => match e with
  | .callI _ i v => some (.insert i v)
  | .callS _ i v => some (.setItem i v)
  | .callD _ i => some (.delItem (.int i))
  | .callM _ s d => some (.move s d)
  | _ => none

/-- How an operation ends with this event: it returns - `move` says whether something was moved - or raises `IndexError`. -/
def result : Ev → List (Except Py.Err (EL.Res Nat))
  | .inserted .. | .changed .. | .removed .. | .same .. => [.ok .unit]
  | .reordered .. => [.ok (.bool true)]
  | .stay .. => [.ok (.bool false)]
  | .fail .. => [.error .index]
  | _ => []

/-- How the operations end, in the order in which they do. -/
def results (l : List Ev) : List (Except Py.Err (EL.Res Nat)) := l.flatMap result

/-- An evented list of plain objects with listeners that listen, without child events (`/repo/src/psygnal/containers/_evented_list.py:116-128`). -/
def seq : EL.Cfg Nat where
  eq := fun x y => x == y
  isList := fun _ => false
  wrap := id
  sigs := fun _ => []
  childEvents := false
  fails := fun _ => false

/-! ## Whole operations -/

/-- The list, what was told, how operations ended. -/
structure A where
  data : List Nat
  told : List (EL.Ev Nat × List Nat)
  res : List (Except Py.Err (EL.Res Nat))

/-- The callbacks are told (`/repo/src/psygnal/containers/_evented_list.py:140-142,178,184-187,283-289`). -/
def A.tell (e : EL.Ev Nat) (s : A) : A := { s with told := s.told ++ [(e, s.data)] }

/-- An operation ends (`/repo/src/psygnal/containers/_evented_list.py:137-197,271-290`). -/
def A.end (r : Except Py.Err (EL.Res Nat)) (s : A) : A := { s with res := s.res ++ [r] }

/-- An operation returns nothing (`/repo/src/psygnal/containers/_evented_list.py:137-197`). -/
def A.ok (s : A) : A := s.end (.ok .unit)

/-- An operation raises `IndexError` (`/repo/src/psygnal/containers/_evented_list.py:164,176,186,284`). -/
def A.bad (s : A) : A := s.end (.error .index)

/-- An item is inserted (`/repo/src/psygnal/containers/_evented_list.py:141,287`). -/
def A.ins (i : Int) (v : Nat) (s : A) : A := { s with data := Py.insert s.data i v }

/-- An item is replaced (`/repo/src/psygnal/containers/_evented_list.py:176`). -/
def A.store (i : Int) (v : Nat) (s : A) : A := { s with data := match Py.setItem s.data i v with
  | .ok l' => l'
  | .error _ => s.data }

/-- An item is taken out (`/repo/src/psygnal/containers/_evented_list.py:186,284`). -/
def A.pull (i : Int) (s : A) : A := { s with data := match Py.pop s.data i with
  | .ok (_, l') => l'
  | .error _ => s.data }

/-- What an event does, tells and ends (`/repo/src/psygnal/containers/_evented_list.py:137-197,271-290`). -/
def A.on (s : A) (e : Ev) : A := match e with
  | .inserting _ i => s.tell (.inserting i)
  | .inserted _ i v => (s.tell (.inserted i v)).ok
  | .changed _ i o v => (s.tell (.changed i o v)).ok
  | .removing _ i => s.tell (.removing i)
  | .removed _ i x => (s.tell (.removed i x)).ok
  | .moving _ a e => s.tell (.moving a e)
  | .moved _ a e x => s.tell (.moved a e x)
  | .reordered _ => (s.tell .reordered).end (.ok (.bool true))
  | .ins _ i v => s.ins i v
  | .put _ i v (some _) => s.store i v
  | .took _ i (some _) => s.pull i
  | .same .. => s.ok
  | .stay .. => s.end (.ok (.bool false))
  | .fail .. => s.bad
  | _ => s

/-- `insert` (`/repo/src/psygnal/containers/_evented_list.py:137-143`). -/
def A.insert (i : Int) (v : Nat) (s : A) : A := (((s.tell (.inserting i)).ins i v).tell (.inserted i v)).ok

/-- The end of an assignment (`/repo/src/psygnal/containers/_evented_list.py:176-178`). -/
def A.put (i : Int) (v o : Nat) (s : A) : A := if (item s.data i).isSome then ((s.store i v).tell (.changed i o v)).ok else s.bad

/-- `l[i] = v` (`/repo/src/psygnal/containers/_evented_list.py:162-178`). -/
def A.set (i : Int) (v : Nat) (s : A) : A := match item s.data i with
  | none => s.bad
  | some o => if v = o then s.ok else s.put i v o

/-- The end of a deletion (`/repo/src/psygnal/containers/_evented_list.py:186-187`). -/
def A.take (j : Int) (s : A) : A := match item s.data j with
  | none => s.bad
  | some x => ((s.pull j).tell (.removed j x)).ok

/-- A deletion, of the computed index (`/repo/src/psygnal/containers/_evented_list.py:184-187`). -/
def A.remove (j : Int) (s : A) : A := (s.tell (.removing j)).take j

/-- `del l[i]` (`/repo/src/psygnal/containers/_evented_list.py:180-192`). -/
def A.del (i : Int) (s : A) : A := if i < 0 then s.remove (i + s.data.length) else s.remove i

/-- The end of a move (`/repo/src/psygnal/containers/_evented_list.py:287-290`). -/
def A.insM (a e : Int) (x : Nat) (s : A) : A := (((s.ins e x).tell (.moved a e x)).tell .reordered).end (.ok (.bool true))

/-- A move takes the item out (`/repo/src/psygnal/containers/_evented_list.py:284-290`). -/
def A.takeM (a e : Int) (s : A) : A := match item s.data a with
  | none => s.bad
  | some x => (s.pull a).insM a (if a < e then e - 1 else e) x

/-- A move, to the computed destination (`/repo/src/psygnal/containers/_evented_list.py:279-290`). -/
def A.need (a e : Int) (s : A) : A := if e = a ∨ e = a + 1 then s.end (.ok (.bool false)) else (s.tell (.moving a e)).takeM a e

/-- `move` (`/repo/src/psygnal/containers/_evented_list.py:271-290`). -/
def A.move (a d : Int) (s : A) : A := if d < 0 then s.need a (d + (s.data.length + 1)) else s.need a d

/-- A whole operation; the others are not used (`/repo/src/psygnal/containers/_evented_list.py:137-197,271-290`). -/
def A.call (s : A) : EL.Op Nat → A
  | .insert i v => s.insert i v
  | .setItem i v => s.set i v
  | .delItem (.int i) => s.del i
  | .move a d => s.move a d
  | _ => s

/-- What the rest of the operation does. -/
def Ctl.fin : Ctl → A → A
  | .run _, s => s
  | .inserting i v _, s => s.insert i v
  | .ins i v _, s => ((s.ins i v).tell (.inserted i v)).ok
  | .inserted i v _, s => (s.tell (.inserted i v)).ok
  | .old i v _, s => s.set i v
  | .same _ _ _, s => s.ok
  | .put i v o _, s => s.put i v o
  | .changed i v o _, s => (s.tell (.changed i o v)).ok
  | .failS _ _ _, s => s.bad
  | .lenD i _, s => s.remove (i + s.data.length)
  | .removing _ j _, s => s.remove j
  | .take _ j _, s => s.take j
  | .removed _ j x _, s => (s.tell (.removed j x)).ok
  | .failD _ _ _, s => s.bad
  | .lenM a d _, s => s.need a (d + (s.data.length + 1))
  | .stay _ _ _ _, s => s.end (.ok (.bool false))
  | .moving a _ e _, s => (s.tell (.moving a e)).takeM a e
  | .takeM a _ e _, s => s.takeM a e
  | .insM a _ e x _, s => s.insM a e x
  | .moved a _ e x _, s => ((s.tell (.moved a e x)).tell .reordered).end (.ok (.bool true))
  | .reordered _ _ _ _ _, s => (s.tell .reordered).end (.ok (.bool true))
  | .failM _ _ _ _, s => s.bad

theorem need_fin (a d e : Int) (c : Option Bool → Code) (s : A) : (need a d e c).fin s = s.need a e ∧ (need a d e c).busy = true := by
  unfold need A.need
  split <;> exact ⟨rfl, rfl⟩

/-- A step of an operation does part of it. -/
theorem next_fin {s : A} {t : Nat} {x y : Ctl} {e : Ev} (h : next s.data t x = some (e, y)) (hx : x.busy = true) : y.fin (s.on e) = x.fin s := by
  cases x with
  | run c => cases hx
  | old i v c =>
    cases h
    show (match item s.data i with
      | none => Ctl.failS i v c
      | some o => if v = o then .same i v c else .put i v o c).fin s = s.set i v
    unfold A.set
    cases item s.data i with
    | none => rfl
    | some o =>
      show (if v = o then Ctl.same i v c else .put i v o c).fin s = if v = o then s.ok else s.put i v o
      split <;> rfl
  | put i v o c =>
    cases h
    show (if (item s.data i).isSome then Ctl.changed i v o c else .failS i v c).fin (s.on (.put t i v (item s.data i))) = s.put i v o
    unfold A.put
    cases item s.data i <;> rfl
  | take i j c =>
    cases h
    show (match item s.data j with
      | none => Ctl.failD i j c
      | some x => .removed i j x c).fin (s.on (.took t j (item s.data j))) = s.take j
    unfold A.take
    cases item s.data j <;> rfl
  | takeM a d e c =>
    cases h
    show (match item s.data a with
      | none => Ctl.failM a d e c
      | some x => .insM a d (if a < e then e - 1 else e) x c).fin (s.on (.took t a (item s.data a))) = s.takeM a e
    unfold A.takeM
    cases item s.data a <;> rfl
  | lenM a d c => cases h; exact (need_fin _ _ _ _ _).1
  | _ => cases h; rfl

/-- Beginning an operation begins all of it. -/
theorem next_idle' {s : A} {t : Nat} {x y : Ctl} {e : Ev} (h : next s.data t x = some (e, y)) (hx : x.busy = false) : s.on e = s ∧
    ((calls [e] = [] ∧ y.busy = false) ∨ ∃ o, calls [e] = [o] ∧ y.busy = true ∧ y.fin s = s.call o) := by
  cases x with
  | run c =>
    cases c with
    | ret => cases h
    | insert i v c => cases h; exact ⟨rfl, .inr ⟨_, rfl, rfl, rfl⟩⟩
    | set i v c => cases h; exact ⟨rfl, .inr ⟨_, rfl, rfl, rfl⟩⟩
    | del i c =>
      cases h
      refine ⟨rfl, .inr ⟨_, rfl, ?_, ?_⟩⟩
      · split <;> rfl
      · show _ = s.del i
        unfold A.del
        split <;> rfl
    | move a d c =>
      cases h
      refine ⟨rfl, .inr ⟨_, rfl, ?_, ?_⟩⟩
      · split
        · rfl
        · exact (need_fin _ _ _ _ s).2
      · show _ = s.move a d
        unfold A.move
        split
        · rfl
        · exact (need_fin _ _ _ _ s).1
    | get i c => cases h; exact ⟨rfl, .inl ⟨rfl, rfl⟩⟩
    | len c => cases h; exact ⟨rfl, .inl ⟨rfl, rfl⟩⟩
  | _ => cases hx

theorem next_no_call {d : List Nat} {t : Nat} {x y : Ctl} {e : Ev} (h : next d t x = some (e, y)) (hx : x.busy = true) : calls [e] = [] := by
  cases x with
  | run c => cases hx
  | _ => cases h; rfl

theorem idle_fin {x : Ctl} (hx : x.busy = false) (s : A) : x.fin s = s := by
  cases x with
  | run c => rfl
  | _ => cases hx

/-! ## In turns -/

/-- What the events did and told (`/repo/src/psygnal/containers/_evented_list.py:137-197,271-290`). -/
def now (d : List Nat) (l : List Ev) : A := l.foldl A.on ⟨d, [], []⟩

/-- The same if the operations are done one after the other (`/repo/src/psygnal/containers/_evented_list.py:137-197,271-290`). -/
def all (d : List Nat) (l : List Ev) : A := (calls l).foldl A.call ⟨d, [], []⟩

theorem calls_append (l m : List Ev) : calls (l ++ m) = calls l ++ calls m := by simp [calls]

theorem now_snoc (d : List Nat) (l : List Ev) (e : Ev) : now d (l ++ [e]) = (now d l).on e := by simp [now, List.foldl_append]

theorem on_data (s : A) (e : Ev) : (s.on e).data = e.on s.data := by
  cases e with
  | took t k x => cases x <;> rfl
  | put t k v x => cases x <;> rfl
  | _ => rfl

/-- Operations do not overlap: what is under way will have done all of it at its end (`/repo/src/psygnal/containers/_evented_list.py:137-197,271-290`). -/
structure Turns (d : List Nat) (σ : St) : Prop where
  data : (now d σ.log).data = σ.data
  busy : ∀ t, (σ.thr t).busy = true → (σ.thr t).fin (now d σ.log) = all d σ.log
  rest : (∀ t, (σ.thr t).busy = false) → now d σ.log = all d σ.log

theorem turns_step {d : List Nat} {σ : St} (h : Turns d σ) (t : Nat) (h1 : One σ) (h2 : One (step σ t)) : Turns d (step σ t) := by
  cases hn : next σ.data t (σ.thr t) with
  | none => rw [step_none hn]; exact h
  | some p =>
    obtain ⟨e, x⟩ := p
    rw [step_some hn] at h2 ⊢
    have hd : (now d (σ.log ++ [e])).data = e.on σ.data := by rw [now_snoc, on_data, h.data]
    rw [← h.data] at hn
    by_cases hk : (σ.thr t).busy = true
    · have hown := next_fin hn hk
      rw [h.busy t hk] at hown
      have hc : all d (σ.log ++ [e]) = all d σ.log := by
        unfold all; rw [calls_append, next_no_call hn hk, List.append_nil]
      refine ⟨hd, fun u hu => ?_, fun hr => ?_⟩
      · have hu : (if u = t then x else σ.thr u).busy = true := hu
        show (if u = t then x else σ.thr u).fin (now d (σ.log ++ [e])) = all d (σ.log ++ [e])
        by_cases hut : u = t
        · rw [if_pos hut, hc, now_snoc]; exact hown
        · rw [if_neg hut] at hu
          exact absurd (h1 u t hu hk) hut
      · have hx : x.busy = false := by simpa using hr t
        show now d (σ.log ++ [e]) = all d (σ.log ++ [e])
        rw [hc, ← hown, idle_fin hx, now_snoc]
    · have hk : (σ.thr t).busy = false := by simpa using hk
      obtain ⟨hs, h3 | ⟨o, h3, hb, h4⟩⟩ := next_idle' hn hk
      · have ha : all d (σ.log ++ [e]) = all d σ.log := by
          unfold all; rw [calls_append, h3.1, List.append_nil]
        refine ⟨hd, fun u hu => ?_, fun hr => ?_⟩
        · have hu : (if u = t then x else σ.thr u).busy = true := hu
          show (if u = t then x else σ.thr u).fin (now d (σ.log ++ [e])) = all d (σ.log ++ [e])
          rw [ha, now_snoc, hs]
          by_cases hut : u = t
          · rw [if_pos hut, h3.2] at hu; cases hu
          · rw [if_neg hut] at hu ⊢
            exact h.busy u hu
        · show now d (σ.log ++ [e]) = all d (σ.log ++ [e])
          rw [ha, now_snoc, hs]
          refine h.rest fun w => ?_
          by_cases hwt : w = t
          · rw [hwt]; exact hk
          · have : (if w = t then x else σ.thr w).busy = false := hr w
            rwa [if_neg hwt] at this
      · have hrest := h.rest (fun w => by
          cases hw : (σ.thr w).busy with
          | false => rfl
          | true =>
            have hwt : w ≠ t := fun e => by rw [e, hk] at hw; cases hw
            have := h2 t w (show (if t = t then x else σ.thr t).busy = true from by rw [if_pos rfl]; exact hb)
              (show (if w = t then x else σ.thr w).busy = true from by rw [if_neg hwt]; exact hw)
            exact absurd this.symm hwt)
        refine ⟨hd, fun u hu => ?_, fun hr => ?_⟩
        · have hu : (if u = t then x else σ.thr u).busy = true := hu
          show (if u = t then x else σ.thr u).fin (now d (σ.log ++ [e])) = all d (σ.log ++ [e])
          by_cases hut : u = t
          · rw [if_pos hut, now_snoc, hs, h4, hrest]
            unfold all; rw [calls_append, h3, List.foldl_append]; rfl
          · have := h2 u t (show (if u = t then x else σ.thr u).busy = true from hu)
              (show (if t = t then x else σ.thr t).busy = true from by rw [if_pos rfl]; exact hb)
            exact absurd this hut
        · have : (if t = t then x else σ.thr t).busy = false := hr t
          rw [if_pos rfl, hb] at this
          cases this

theorem turns_from {d : List Nat} : ∀ (s : List Nat) {σ : St}, Turns d σ → (∀ p q, s = p ++ q → One (run p σ)) → Turns d (run s σ)
  | [], _, h, _ => h
  | t :: s, _, h, h1 => turns_from s (turns_step h t (h1 [] (t :: s) rfl) (h1 [t] s rfl)) (fun p q e => h1 (t :: p) q (by rw [e]; rfl))

theorem turns_run {d : List Nat} {prog : Nat → Code} {s : List Nat}
    (h : ∀ p q, s = p ++ q → ∀ t u, InOp t (run p (init d prog)).log → InOp u (run p (init d prog)).log → t = u) : Turns d (run s (init d prog)) :=
  turns_from s ⟨rfl, fun _ hk => (nomatch (show false = true from hk)), fun _ => rfl⟩
    (fun p q e t u ht hu => h p q e t u (inOp_of_busy ht) (inOp_of_busy hu))

/-! ## What happened and what was told -/

theorem now_parts (l : List Ev) : ∀ (s : A), (l.foldl A.on s).told = s.told ++ tellings s.data l ∧ (l.foldl A.on s).res = s.res ++ results l := by
  induction l with
  | nil => intro s; simp [tellings, results]
  | cons e l ih =>
    intro s
    obtain ⟨h1, h2⟩ := ih (s.on e)
    have hv : value s.data [e] = (s.on e).data := by
      rw [on_data]
      exact value_snoc s.data [] e
    rw [List.foldl_cons, h1, h2]
    rw [show tellings s.data (e :: l) = telling s.data e ++ tellings (value s.data [e]) l from rfl, hv]
    rw [show results (e :: l) = result e ++ results l from rfl, ← List.append_assoc, ← List.append_assoc]
    refine ⟨?_, ?_⟩
    · congr 1
      cases e with
      | took t k x => cases x <;> simp [A.on, A.pull, telling]
      | put t k v x => cases x <;> simp [A.on, A.store, telling]
      | _ => simp [A.on, A.tell, A.ok, A.bad, A.end, A.ins, telling]
    · congr 1
      cases e with
      | took t k x => cases x <;> simp [A.on, A.pull, result]
      | put t k v x => cases x <;> simp [A.on, A.store, result]
      | _ => simp [A.on, A.tell, A.ok, A.bad, A.end, A.ins, result]

/-! ## The list of C27 and C28 -/

/-- What there is and what was told in the model of C27 (`/repo/src/psygnal/containers/_evented_list.py:124`). -/
def abs (s : EL.St Nat) (r : List (Except Py.Err (EL.Res Nat))) : A := ⟨s.data, s.log, r⟩

theorem emit_seq (e : EL.Ev Nat) (s : EL.St Nat) : EL.emit seq e s = (.ok (), { s with log := s.log ++ [(e, s.data)] }) := by
  simp [EL.emit, seq, Py.M.pure]

theorem item_none {l : List Nat} {i : Int} (h : item l i = none) : Py.getItem l i = .error .index ∧ Py.pop l i = .error .index := by
  have hn : Py.normIndex l.length i = none := by
    cases hj : Py.normIndex l.length i with
    | none => rfl
    | some j =>
      have := item_some.mpr ⟨j, hj⟩
      rw [h] at this; cases this
  exact ⟨by simp [Py.getItem, hn], by simp [Py.pop, hn]⟩

/-- An operation of C27 that does the same (`/repo/src/psygnal/containers/_evented_list.py:137-197,271-290`). -/
def Same (o : EL.Op Nat) : Prop := ∀ (s : EL.St Nat) (r : List (Except Py.Err (EL.Res Nat))), s.blocked = false →
    (EL.step seq o s).2.blocked = false ∧ abs (EL.step seq o s).2 (r ++ [(EL.step seq o s).1]) = (abs s r).call o

theorem insert_same (i : Int) (v : Nat) : Same (.insert i v) := by
  intro s r hs
  have e : EL.step seq (.insert i v) s = (.ok .unit, { s with data := Py.insert s.data i v, log := s.log ++ [(.inserting i, s.data)] ++ [(.inserted i v, Py.insert s.data i v)] }) := by
    simp [EL.step, EL.insert, Py.M.bind, Py.M.get, emit_seq, EL.setData, Py.M.modify, EL.postInsert, show seq.childEvents = false from rfl]
  rw [e]
  exact ⟨hs, rfl⟩

theorem set_same (i : Int) (v : Nat) : Same (.setItem i v) := by
  intro s r hs
  have hl : (abs s r).data = s.data := rfl
  cases h : item s.data i with
  | none =>
    have e : EL.step seq (.setItem i v) s = (.error .index, s) := by
      simp [EL.step, EL.setItem, Py.M.bind, Py.M.get, Py.M.ofExcept, (item_none h).1]
    rw [e]
    refine ⟨hs, ?_⟩
    show _ = (abs s r).set i v
    unfold A.set
    rw [hl, h]; rfl
  | some o =>
    by_cases hv : v = o
    · have e : EL.step seq (.setItem i v) s = (.ok .unit, s) := by
        simp [EL.step, EL.setItem, Py.M.bind, Py.M.get, Py.M.ofExcept, item_ok h, hv]
      rw [e]
      refine ⟨hs, ?_⟩
      show _ = (abs s r).set i v
      unfold A.set
      rw [hl, h]
      simp [hv, A.ok, A.end, abs]
    · obtain ⟨j, h1, h2, h3⟩ := set_of_item v h
      have e : EL.step seq (.setItem i v) s = (.ok .unit, { s with data := s.data.set j v, log := s.log ++ [(.changed i o v, s.data.set j v)] }) := by
        simp [EL.step, EL.setItem, Py.M.bind, Py.M.get, Py.M.ofExcept, item_ok h, hv, h3, emit_seq, EL.setData, Py.M.modify]
      rw [e]
      refine ⟨hs, ?_⟩
      show _ = (abs s r).set i v
      unfold A.set A.put
      rw [hl, h]
      simp [hv, A.ok, A.end, A.tell, A.store, abs, h3]

theorem remove_same (j : Int) (s : EL.St Nat) (r : List (Except Py.Err (EL.Res Nat))) :
    ∃ x s', EL.delOne seq j s = (x, s') ∧ s'.blocked = s.blocked ∧ ∀ y, y = x.map (fun _ => EL.Res.unit) → abs s' (r ++ [y]) = (abs s r).remove j := by
  have hl : (abs s r).data = s.data := rfl
  cases h : item s.data j with
  | none =>
    refine ⟨.error .index, { s with log := s.log ++ [(.removing j, s.data)] }, ?_, rfl, ?_⟩
    · simp [EL.delOne, EL.preRemove, Py.M.bind, Py.M.get, Py.M.ofExcept, emit_seq, (item_none h).2, show seq.childEvents = false from rfl]
    · rintro _ rfl
      unfold A.remove A.take
      rw [show ((abs s r).tell (.removing j)).data = s.data from rfl, h]; rfl
  | some z =>
    obtain ⟨m, h1, h2, h3⟩ := pop_of_item h
    refine ⟨.ok (), { s with data := s.data.eraseIdx m, log := s.log ++ [(.removing j, s.data)] ++ [(.removed j z, s.data.eraseIdx m)] }, ?_, rfl, ?_⟩
    · simp [EL.delOne, EL.preRemove, Py.M.bind, Py.M.get, Py.M.ofExcept, emit_seq, h3, EL.setData, Py.M.modify, show seq.childEvents = false from rfl]
    · rintro _ rfl
      unfold A.remove A.take
      rw [show ((abs s r).tell (.removing j)).data = s.data from rfl, h]
      simp [A.ok, A.end, A.tell, A.pull, abs, h3, Except.map]

theorem del_same (i : Int) : Same (.delItem (.int i)) := by
  intro s r hs
  obtain ⟨x, s', h1, h2, h3⟩ := remove_same (if i ≥ 0 then i else i + s.data.length) s r
  have e : EL.step seq (.delItem (.int i)) s = (x.map (fun _ => EL.Res.unit), s') := by
    have : EL.delItem seq (.int i) s = (x, s') := by
      simp only [EL.delItem, EL.delIndices, Py.M.bind_eq, Py.M.bind, Py.M.get, Py.M.ofExcept, Py.M.forEach, h1]
      cases x <;> rfl
    simp only [EL.step, Py.M.bind_eq, Py.M.bind, this]
    cases x <;> rfl
  rw [e]
  refine ⟨h2.trans hs, ?_⟩
  rw [h3 _ rfl]
  show _ = (abs s r).del i
  unfold A.del
  by_cases hi : i < 0
  · rw [if_pos hi, if_neg (by omega)]; rfl
  · rw [if_neg hi, if_pos (by omega)]

theorem move_same (a d : Int) : Same (.move a d) := by
  intro s r hs
  show _ ∧ _ = (abs s r).move a d
  have hm : (abs s r).move a d = (abs s r).need a (if d < 0 then d + (s.data.length + 1) else d) := by
    unfold A.move
    split <;> rfl
  rw [hm]
  generalize he : (if d < 0 then d + ((s.data.length : Int) + 1) else d) = e
  unfold A.need
  by_cases hn : e = a ∨ e = a + 1
  · have h : EL.step seq (.move a d) s = (.ok (.bool false), s) := by
      simp [EL.step, EL.move, Py.M.bind, Py.M.get, he, hn]
    rw [h, if_pos hn]
    exact ⟨hs, rfl⟩
  · rw [if_neg hn]
    unfold A.takeM
    rw [show ((abs s r).tell (.moving a e)).data = s.data from rfl]
    cases h : item s.data a with
    | none =>
      have h : EL.step seq (.move a d) s = (.error .index, { s with log := s.log ++ [(.moving a e, s.data)] }) := by
        simp [EL.step, EL.move, Py.M.bind, Py.M.get, he, hn, emit_seq, Py.M.ofExcept, (item_none h).2]
      rw [h]
      exact ⟨hs, rfl⟩
    | some x =>
      obtain ⟨m, h1, h2, h3⟩ := pop_of_item h
      have h : EL.step seq (.move a d) s = (.ok (.bool true), { s with
          data := Py.insert (s.data.eraseIdx m) (if a < e then e - 1 else e) x,
          log := s.log ++ [(.moving a e, s.data)] ++ [(.moved a (if a < e then e - 1 else e) x, Py.insert (s.data.eraseIdx m) (if a < e then e - 1 else e) x)] ++
            [(.reordered, Py.insert (s.data.eraseIdx m) (if a < e then e - 1 else e) x)] }) := by
        simp [EL.step, EL.move, Py.M.bind, Py.M.get, he, hn, emit_seq, Py.M.ofExcept, h3, EL.setData, Py.M.modify, EL.emitReordered, hs]
      rw [h]
      refine ⟨hs, ?_⟩
      simp [A.insM, A.end, A.tell, A.ins, A.pull, abs, h3]

theorem run_same : ∀ (l : List Ev) {s : EL.St Nat} (r : List (Except Py.Err (EL.Res Nat))), s.blocked = false →
    abs (EL.run seq (calls l) s).2 (r ++ (EL.run seq (calls l) s).1) = (calls l).foldl A.call (abs s r)
  | [], _, _, _ => by simp [calls, EL.run]
  | e :: l, s, r, hs => by
    have hc : calls (e :: l) = calls [e] ++ calls l := calls_append [e] l
    rw [hc]
    have key : ∀ o : EL.Op Nat, Same o →
        abs (EL.run seq ([o] ++ calls l) s).2 (r ++ (EL.run seq ([o] ++ calls l) s).1) = ([o] ++ calls l).foldl A.call (abs s r) := by
      intro o ho
      obtain ⟨h1, h2⟩ := ho s r hs
      have h3 := run_same l (r ++ [(EL.step seq o s).1]) h1
      rw [h2, List.append_assoc] at h3
      exact h3
    cases e with
    | callI t i v => exact key _ (insert_same i v)
    | callS t i v => exact key _ (set_same i v)
    | callD t i => exact key _ (del_same i)
    | callM t a d => exact key _ (move_same a d)
    | _ => exact run_same l r hs

end Psygnal.LsC
