import Verif.CallersLemmas

/-! # C86: the callbacks that `connect_setattr` and `connect_setitem` return -/
namespace Psygnal.Callers

namespace Ex
/-- Object 7 follows signal 0 (callback 0) and object 8 follows signal 1 (callback 1). -/
def pair : List Op := [.bind 0 7 0 none 0, .bind 1 8 0 (some 1) 3]
/-- Callback 0 is given to signal 1 as well. -/
def lent : List Op := pair ++ [.connect 1 0 (some 1) 5 .no, .bind 1 9 0 none (-1)]
end Ex

/-- In every signal the slots stand in the order of the priorities with which the callbacks were *made*. -/
theorem C86_order (n : Nat) (ops : List Op) (s : Nat) :
    let σ := ((St.init n).run ops).2
    ((σ.slots s).filterMap (σ.callers[·]?)).Pairwise fun c d => d.priority ≤ c.priority := by
  intro σ
  have h : Inv σ := (Inv.init n).run ops
  rw [List.pairwise_filterMap]
  refine (h.sorted s).imp ?_
  intro i j hij c hc d hd
  simpa [St.prioOf, hc, hd] using hij

example : let σ := ((St.init 2).run Ex.lent).2
    (σ.slots 1).filterMap (σ.callers[·]?) = [⟨8, 0, some 1, 3, 1⟩, ⟨7, 0, none, 0, 0⟩, ⟨9, 0, none, -1, 1⟩] := by decide

/-- `s.connect(i, max_args=…, priority=…)` puts the callback itself into `s`: behind all of the same or a higher priority and before all of a
lower one, the priority being that with which it was made. -/
theorem C86_connect (n : Nat) (ops : List Op) (s i : Nat) (m : Option Nat) (p : Int) (c : Caller) :
    let σ := ((St.init n).run ops).2
    s < n → σ.held i = true → σ.callers[i]? = some c →
    (σ.step (.connect s i m p .no)).1 = .ok () ∧
    ∃ a b, σ.slots s = a ++ b ∧ (σ.step (.connect s i m p .no)).2.slots s = a ++ i :: b ∧
      (∀ j ∈ a, ∀ d, σ.callers[j]? = some d → c.priority ≤ d.priority) ∧ (∀ j ∈ b, ∀ d, σ.callers[j]? = some d → d.priority < c.priority) := by
  intro σ hs hh hc
  have hn : σ.n = n := run_n ops _
  have h : Inv σ := (Inv.init n).run ops
  have e : σ.step (.connect s i m p .no) = (.ok (), σ.append s i) := by
    have : ¬ (n ≤ s) := by omega
    simp [St.step, hn, this, hh, hc]
  have hp : σ.prioOf i = c.priority := by simp [St.prioOf, hc]
  rw [e]
  refine ⟨rfl, ?_⟩
  simp only
  unfold St.append
  split
  · rename_i hb
    refine ⟨σ.slots s, [], by simp, by simp, ?_, by simp⟩
    intro j hj d hd
    have := h.flat s hb.1 j hj
    simp only [St.prioOf, hd] at this
    omega
  · obtain ⟨a, b, e1, e2, h1, h2⟩ := place_eq σ i (σ.slots s)
    refine ⟨a, b, e1, by simp [e2], ?_, ?_⟩
    · intro j hj d hd
      have := h1 j hj
      simpa [St.prioOf, hd, hc] using this
    · intro j hj d hd
      have hso := h.sorted s
      rw [e1] at hso
      have hso := (List.pairwise_append.1 hso).2.1
      cases b with
      | nil => cases hj
      | cons y b =>
        have hy := h2 y rfl
        have hd' : σ.prioOf j = d.priority := by simp [St.prioOf, hd]
        rcases List.mem_cons.1 hj with rfl | hj
        · omega
        · have := (List.pairwise_cons.1 hso).1 j hj
          omega

example : let σ := ((St.init 2).run Ex.lent).2
    σ.held 0 = true ∧ σ.callers[0]? = some ⟨7, 0, none, 0, 0⟩ ∧ σ.slots 1 = [1, 0, 2] ∧
    (σ.step (.connect 1 0 none 0 .no)).2.slots 1 = [1, 0, 0, 2] := by decide

/-- With `unique`, nothing is connected to `s` as long as a callback for the same attribute of the same object is. -/
theorem C86_unique (n : Nat) (ops : List Op) (s i j : Nat) (m : Option Nat) (p : Int) (u : Unique) (c d : Caller) :
    let σ := ((St.init n).run ops).2
    s < n → σ.held i = true → σ.callers[i]? = some c → j ∈ σ.slots s → σ.callers[j]? = some d → d.obj = c.obj → d.attr = c.attr →
    u ≠ .no → (σ.step (.connect s i m p u)).2 = σ ∧ (σ.step (.connect s i m p u)).1 = if u = .raise then .error .value else .ok () := by
  intro σ hs hh hc hj hd e1 e2 hu
  have hn : σ.n = n := run_n ops _
  have hhas : σ.has s c.obj c.attr = true := List.any_eq_true.2 ⟨j, hj, isFor_iff.2 ⟨d, hd, e1, e2⟩⟩
  have : ¬ (n ≤ s) := by omega
  simp [St.step, hn, this, hh, hc, hhas, hu]

example : let σ := ((St.init 2).run (Ex.lent ++ [.bind 0 8 0 none 0])).2
    σ.held 3 = true ∧ σ.callers[3]? = some ⟨8, 0, none, 0, 0⟩ ∧ 1 ∈ σ.slots 1 ∧ σ.callers[1]? = some ⟨8, 0, some 1, 3, 1⟩ := by decide

/-- `s.disconnect(i)` takes out the first callback for the same attribute of the same object, and only that. -/
theorem C86_disconnect (n : Nat) (ops : List Op) (s i k : Nat) (ok : Bool) (c d : Caller) (a b : List Nat) :
    let σ := ((St.init n).run ops).2
    s < n → σ.held i = true → σ.callers[i]? = some c → σ.slots s = a ++ k :: b →
    (∀ j ∈ a, ∀ e, σ.callers[j]? = some e → ¬ (e.obj = c.obj ∧ e.attr = c.attr)) → σ.callers[k]? = some d → d.obj = c.obj → d.attr = c.attr →
    (σ.step (.disconnect s i ok)).1 = .ok () ∧ (σ.step (.disconnect s i ok)).2.slots s = a ++ b ∧
      ∀ x, x ≠ s → (σ.step (.disconnect s i ok)).2.slots x = σ.slots x := by
  intro σ hs hh hc hl ha hk e1 e2
  have hn : σ.n = n := run_n ops _
  have hhas : σ.has s c.obj c.attr = true := List.any_eq_true.2 ⟨k, by simp [hl], isFor_iff.2 ⟨d, hk, e1, e2⟩⟩
  have : ¬ (n ≤ s) := by omega
  have e : σ.step (.disconnect s i ok) = (.ok (), σ.remove s c.obj c.attr) := by simp [St.step, hn, this, hh, hc, hhas]
  rw [e]
  refine ⟨rfl, ?_, fun x hx => by simp [St.remove, hx]⟩
  have hk' : σ.isFor c.obj c.attr k = true := isFor_iff.2 ⟨d, hk, e1, e2⟩
  have ha' : ∀ j ∈ a, ¬ σ.isFor c.obj c.attr j = true := by
    intro j hj hj'
    obtain ⟨f, g, g1, g2⟩ := isFor_iff.1 hj'
    exact ha j hj f g ⟨g1, g2⟩
  simp only [St.remove, if_true, hl]
  rw [List.eraseP_append_right _ ha', List.eraseP_cons_of_pos hk']

example : let σ := ((St.init 2).run (Ex.lent ++ [.bind 0 7 0 (some 1) 0])).2
    σ.held 3 = true ∧ σ.callers[3]? = some ⟨7, 0, some 1, 0, 0⟩ ∧ σ.slots 1 = [1] ++ 0 :: [2] ∧
    (σ.step (.disconnect 1 3 false)).2.slots 1 = [1, 2] := by decide

/-- Two callbacks for one attribute: disconnecting the second takes out the first, and the second goes on with its own `maxargs`. -/
theorem C86_which_refuted :
    ¬ ∀ (ops : List Op) (s i : Nat), let σ := ((St.init 1).run ops).2
      i ∈ σ.slots s → σ.held i = true → (σ.slots s).Nodup → i ∉ (σ.step (.disconnect s i false)).2.slots s := by
  intro h
  exact absurd (h [.bind 0 7 0 none 0, .bind 0 7 0 (some 1) 0] 0 1 (by decide) (by decide) (by decide)) (by decide)

/-- What a callback is to assign: the arguments, cut to its own `maxargs` if it has one; alone if it is one, as a tuple if not
(the text of `connect_setattr`, `/repo/src/psygnal/_signal.py:836-844`). -/
def wanted (c : Caller) (args : List Nat) : Val :=
  let l := args.take (c.maxArgs.getD args.length)
  if l.length = 1 then .one (l.headD 0) else .tup l

theorem pack_eq (c : Caller) (args : List Nat) : pack c.maxArgs args = wanted c args := by
  have key : ∀ l : List Nat, (match l with | [v] => Val.one v | l => .tup l) = if l.length = 1 then .one (l.headD 0) else .tup l := by
    intro l
    match l with
    | [] => rfl
    | [v] => rfl
    | v :: w :: l => simp
  unfold pack wanted
  cases c.maxArgs with
  | none =>
    have e : args.take ((none : Option Nat).getD args.length) = args := by simp
    rw [e]
    exact key args
  | some k => exact key (args.take k)

/-- An emission while no connected object is dead assigns, in the order of the slots, what the callback was *made* for: the arguments cut to
its own `maxargs`, alone if it is one and as a tuple if not. -/
theorem C86_calls (n : Nat) (ops : List Op) (s : Nat) (args : List Nat) :
    let σ := ((St.init n).run ops).2
    (∀ i ∈ σ.slots s, ∀ c, σ.callers[i]? = some c → σ.dead c.obj = false) →
    (σ.step (.emit s args)).1 = .ok () ∧
    (σ.step (.emit s args)).2 = { σ with sets := σ.sets ++ ((σ.slots s).filterMap (σ.callers[·]?)).map fun c => (c.obj, c.attr, wanted c args) } := by
  intro σ h
  have e : σ.step (.emit s args) = _ := call_alive σ args (σ.slots s) h
  rw [e]
  simp [pack_eq]

example : let σ := ((St.init 2).run Ex.lent).2
    (∀ i ∈ σ.slots 1, ∀ c, σ.callers[i]? = some c → σ.dead c.obj = false) ∧
    (σ.step (.emit 1 [5, 6])).2.sets = [(8, 0, .one 5), (7, 0, .tup [5, 6]), (9, 0, .tup [5, 6])] := by
  refine ⟨?_, by decide⟩
  intro i _ c _
  rfl

/-- Callback 0, connected to signal 1 with `max_args=1, priority=5`, comes after one of priority 3 and gets both arguments. -/
theorem C86_settings_refuted : (((St.init 2).run Ex.lent).2.step (.emit 1 [5, 6])).2.sets ≠ [(7, 0, .one 5), (8, 0, .one 5), (9, 0, .tup [5, 6])] := by
  decide

/-- The slots before one of a dead object have got the emission and those after it have not; the emission raises. -/
theorem C86_stops (n : Nat) (ops : List Op) (s i : Nat) (args : List Nat) (a b : List Nat) (c : Caller) :
    let σ := ((St.init n).run ops).2
    σ.slots s = a ++ i :: b → (∀ j ∈ a, ∀ d, σ.callers[j]? = some d → σ.dead d.obj = false) → σ.callers[i]? = some c → σ.dead c.obj = true →
    (σ.step (.emit s args)).1 = .error .emitLoop ∧
    (σ.step (.emit s args)).2 = { σ with sets := σ.sets ++ (a.filterMap (σ.callers[·]?)).map fun d => (d.obj, d.attr, wanted d args) } := by
  intro σ hl ha hc hd
  have e : σ.step (.emit s args) = _ := (congrArg (σ.call args) hl).trans (call_stop σ args i c hc hd b a ha)
  rw [e]
  simp [pack_eq]

example : let σ := ((St.init 2).run (Ex.lent ++ [.die 7])).2
    σ.slots 1 = [1] ++ 0 :: [2] ∧ σ.callers[0]? = some ⟨7, 0, none, 0, 0⟩ ∧ σ.dead 7 = true ∧ σ.slots 0 = [] := by decide

/-- What is left when an object dies.  `L` are the callbacks for an attribute of the object that were made by `s` and have not been destroyed.
That many slots for the attribute leave `s` - the first ones - or all, if they are fewer; and the slots for other objects stay. -/
theorem C86_death (n : Nat) (ops : List Op) (o attr s : Nat) (L : List Nat) :
    let σ := ((St.init n).run ops).2
    let τ := (σ.step (.die o)).2
    σ.dead o = false → L.Nodup →
    (∀ i, i ∈ L ↔ σ.gone i = false ∧ ∃ c, σ.callers[i]? = some c ∧ c.home = s ∧ c.obj = o ∧ c.attr = attr) →
    ((τ.slots s).filterMap (τ.callers[·]?)).countP (fun c => c.obj == o && c.attr == attr) =
      ((σ.slots s).filterMap (σ.callers[·]?)).countP (fun c => c.obj == o && c.attr == attr) - L.length ∧
    ((τ.slots s).filterMap (τ.callers[·]?)).filter (fun c => c.obj != o) = ((σ.slots s).filterMap (σ.callers[·]?)).filter fun c => c.obj != o := by
  intro σ τ hd hL hm
  have e : τ = St.finalize { σ with dead := fun x => if x = o then true else σ.dead x } (σ.mourners o) := by
    simp [τ, St.step, hd]
  have hc : τ.callers = σ.callers := by rw [e, (finalize_same _ _).1]
  have key : ∀ l : List Nat, (l.filterMap (σ.callers[·]?)).countP (fun c => c.obj == o && c.attr == attr) = l.countP (σ.isFor o attr) := by
    intro l
    rw [List.countP_filterMap]
    refine List.countP_congr ?_
    intro i _
    simp only [St.isFor]
    cases σ.callers[i]? <;> simp
  rw [hc]
  constructor
  · rw [key, key, ← mourners_count σ o attr s L hL hm, e]
    exact finalize_count s o attr (σ.mourners o) { σ with dead := fun x => if x = o then true else σ.dead x }
  · have := finalize_others s o (fun i => match σ.callers[i]? with | some c => c.obj != o | none => false) (σ.mourners o)
      { σ with dead := fun x => if x = o then true else σ.dead x } (fun c hc => mem_mourners hc) (by
        intro i c hc ho
        simp only at hc
        simp [hc, ho])
    rw [← e] at this
    have key2 : ∀ l : List Nat, (l.filterMap (σ.callers[·]?)).filter (fun c => c.obj != o) =
        (l.filter (fun i => match σ.callers[i]? with | some c => c.obj != o | none => false)).filterMap (σ.callers[·]?) := by
      intro l
      induction l with
      | nil => rfl
      | cons i l ih =>
        cases hi : σ.callers[i]? with
        | none => simp [hi, ih]
        | some c =>
          by_cases ho : c.obj = o
          · simp [hi, ho, ih]
          · simp [hi, ho, ih]
    rw [key2, key2, this]

/-- A callback of signal 0 for the attribute that is connected there twice and a second callback: three slots, two callbacks. -/
example : let σ := ((St.init 1).run [.bind 0 7 0 none 0, .connect 0 0 none 0 .no, .bind 0 7 0 none 0, .bind 0 8 0 none 0]).2
    σ.slots 0 = [0, 0, 1, 2] ∧ (σ.step (.die 7)).2.slots 0 = [1, 2] ∧
    (∀ i, i ∈ [0, 1] ↔ σ.gone i = false ∧ ∃ c, σ.callers[i]? = some c ∧ c.home = 0 ∧ c.obj = 7 ∧ c.attr = 0) := by
  refine ⟨by decide, by decide, ?_⟩
  intro i
  match i with
  | 0 => exact ⟨fun _ => ⟨rfl, _, rfl, rfl, rfl, rfl⟩, by simp⟩
  | 1 => exact ⟨fun _ => ⟨rfl, _, rfl, rfl, rfl, rfl⟩, by simp⟩
  | 2 => exact ⟨by simp, fun ⟨_, c, h, _, h', _⟩ => by cases h; cases h'⟩
  | i + 3 => exact ⟨by simp, fun ⟨_, c, h, _⟩ => by cases h⟩

/-- **Partial**: if the program gives such callbacks only to the signals that made them, with `unique`, and while the object lives, then no
signal ever holds a slot of a dead object and no emission raises.  Without any of the three this is false. -/
theorem C86_gone_partial (n : Nat) (ops : List Op)
    (h : ∀ pre post s i m p u, ops = pre ++ .connect s i m p u :: post →
      u ≠ .no ∧ ∀ c, ((St.init n).run pre).2.callers[i]? = some c → c.home = s ∧ .die c.obj ∉ pre) :
    .error .emitLoop ∉ ((St.init n).run ops).1 ∧
    ∀ s, ∀ i ∈ ((St.init n).run ops).2.slots s, ∃ c, ((St.init n).run ops).2.callers[i]? = some c ∧ ((St.init n).run ops).2.dead c.obj = false := by
  obtain ⟨h1, h2⟩ := Home.run ops (σ := .init n) ⟨by simp [St.init], by simp [St.init], by simp [St.init]⟩ (Inv.init n) (by
    intro pre post s i m p u e c hc
    obtain ⟨k1, k2⟩ := h pre post s i m p u e
    refine ⟨?_, k1, (k2 c hc).1⟩
    cases hd : ((St.init n).run pre).2.dead c.obj
    · rfl
    · rcases run_dead pre (.init n) c.obj hd with hd | hd
      · cases hd
      · exact absurd hd (k2 c hc).2)
  refine ⟨h2, ?_⟩
  intro s i hi
  have hI : Inv ((St.init n).run ops).2 := (Inv.init n).run ops
  have := List.getElem?_eq_getElem (hI.made s i hi)
  exact ⟨_, this, h1.alive s i hi _ this⟩

example : (∀ pre post s i m p u, (Ex.pair ++ [.disconnect 0 0 true, .connect 0 0 none 0 .yes, .connect 0 0 none 0 .yes, .die 7, .emit 0 [1]] : List Op) =
      pre ++ .connect s i m p u :: post →
      u ≠ .no ∧ ∀ c, ((St.init 2).run pre).2.callers[i]? = some c → c.home = s ∧ .die c.obj ∉ pre) ∧
    ((St.init 2).run (Ex.pair ++ [.disconnect 0 0 true, .connect 0 0 none 0 .yes, .connect 0 0 none 0 .yes])).2.slots 0 = [0] := by
  refine ⟨?_, by decide⟩
  intro pre post s i m p u e
  match pre, e with
  | [], e => cases e
  | [a], e => cases e
  | [a, b], e => cases e
  | [a, b, c], e =>
    cases e
    exact ⟨by decide, fun c hc => by cases hc; exact ⟨rfl, by decide⟩⟩
  | [a, b, c, d], e =>
    cases e
    exact ⟨by decide, fun c hc => by cases hc; exact ⟨rfl, by decide⟩⟩
  | [a, b, c, d, f], e => cases e
  | [a, b, c, d, f, g], e => cases e
  | a :: b :: c :: d :: f :: g :: k :: pre, e => simp [Ex.pair] at e

/-- Given to another signal, the callback stays there when its object dies; every later emission raises and does not get to the slots behind. -/
theorem C86_dead_refuted :
    ¬ (∀ ops : List Op, (∀ s i m p, .connect s i m p .no ∉ ops) → .error .emitLoop ∉ ((St.init 2).run ops).1) := by
  intro h
  have e : ((St.init 2).run (Ex.pair ++ [.connect 1 0 none 0 .yes, .die 7, .emit 1 [5]])).1 = [.ok (), .ok (), .ok (), .ok (), .error .emitLoop] := rfl
  refine absurd (h (Ex.pair ++ [.connect 1 0 none 0 .yes, .die 7, .emit 1 [5]]) ?_) (by rw [e]; simp)
  intro s i m p hm
  simp [Ex.pair] at hm

/-- Given a second time to the signal that made it, it is taken out once. -/
theorem C86_twice_refuted :
    ¬ (∀ ops : List Op, .error .emitLoop ∉ ((St.init 1).run ops).1) := by
  intro h
  have e : ((St.init 1).run [.bind 0 7 0 none 0, .connect 0 0 none 0 .no, .die 7, .emit 0 [5]]).1 = [.ok (), .ok (), .ok (), .error .emitLoop] := rfl
  exact absurd (h [.bind 0 7 0 none 0, .connect 0 0 none 0 .no, .die 7, .emit 0 [5]]) (by rw [e]; simp)

/-- Given to its signal when the object is dead, it is connected all the same. -/
theorem C86_late_refuted :
    ¬ (∀ ops : List Op, (∀ s i m p, .connect s i m p .no ∉ ops) → .error .emitLoop ∉ ((St.init 1).run ops).1) := by
  intro h
  have e : ((St.init 1).run [.bind 0 7 0 none 0, .die 7, .connect 0 0 none 0 .yes, .emit 0 [5]]).1 = [.ok (), .ok (), .ok (), .error .emitLoop] := rfl
  refine absurd (h [.bind 0 7 0 none 0, .die 7, .connect 0 0 none 0 .yes, .emit 0 [5]] ?_) (by rw [e]; simp)
  intro s i m p hm
  simp at hm

end Psygnal.Callers
