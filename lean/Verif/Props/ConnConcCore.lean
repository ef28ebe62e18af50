import Verif.Props.ConnConc
import Verif.Props.Slots
import Verif.Examples

/-! # C90: what calls do alone is what they do in the model of one thread -/
namespace Psygnal.CoC

/-- The number of a function. -/
def num : Base → Nat
  | .func f => f
  | _ => 0

/-- The slots of a signal as C90 sees them. -/
def view (l : List Psygnal.Slot) : List Slot := l.map fun x => ⟨num x.base, x.priority⟩

/-- The same call in both models: functions are connected (with any bound arguments, `max_args` and thread), their arguments are not checked. -/
inductive Same (s : SigId) : Op → Act → Prop
  | no (f : Nat) (b : Args) (o : ConnOpts) : o.checkNargs = some false → o.unique = .no →
      Same s (.conn f .no o.priority) (.connect s ⟨.func f, b⟩ o)
  | yes (f : Nat) (b : Args) (o : ConnOpts) : o.checkNargs = some false → o.unique = .yes →
      Same s (.conn f .yes o.priority) (.connect s ⟨.func f, b⟩ o)
  | raise (f : Nat) (b : Args) (o : ConnOpts) : o.checkNargs = some false → o.unique = .orRaise →
      Same s (.conn f .raise o.priority) (.connect s ⟨.func f, b⟩ o)
  | disc (f : Nat) (b : Args) (ok : Bool) : Same s (.disc f ok) (.disconnect s (some ⟨.func f, b⟩) ok)
  | discAll (ok : Bool) : Same s .discAll (.disconnect s none ok)
  | has (f : Nat) (b : Args) : Same s (.has f) (.contains s ⟨.func f, b⟩)
  | len : Same s .len (.len s)

/-- The same answer in both models. -/
inductive Answer : Res → Except Exc Resp → Prop
  | ok : Answer .ok (.ok .unit)
  | bool (b : Bool) : Answer (.bool b) (.ok (.bool b))
  | num (n : Nat) : Answer (.num n) (.ok (.nat n))
  | value : Answer .value (.error .valueError)

theorem view_mem {l : List Psygnal.Slot} (hf : ∀ x ∈ l, ∃ f, x.base = .func f) (f : Nat) :
    f ∈ (view l).map Slot.f ↔ ∃ x ∈ l, x.base = .func f := by
  simp only [view, List.map_map, List.mem_map, Function.comp]
  constructor
  · rintro ⟨x, hx, e⟩
    obtain ⟨g, hg⟩ := hf x hx
    rw [hg] at e
    exact ⟨x, hx, by rw [hg, show g = f from e]⟩
  · rintro ⟨x, hx, e⟩
    exact ⟨x, hx, by rw [e]; rfl⟩

theorem index_mem {l : List Psygnal.Slot} (hf : ∀ x ∈ l, ∃ f, x.base = .func f) (f : Nat) :
    (slotIndex (.func f) l).isSome = true ↔ f ∈ (view l).map Slot.f := by
  rw [view_mem hf]
  cases h : slotIndex (.func f) l with
  | none =>
    have := slotIndex_none.1 h
    simp only [Option.isSome_none, Bool.false_eq_true, false_iff]
    rintro ⟨x, hx, e⟩
    exact this x hx e
  | some i =>
    obtain ⟨l₁, x, l₂, h1, h2, -⟩ := slotIndex_some h
    simp only [Option.isSome_some, true_iff]
    exact ⟨x, by simp [h1], h2⟩

theorem view_pop {l : List Psygnal.Slot} (hf : ∀ x ∈ l, ∃ f, x.base = .func f) {f i : Nat} (h : slotIndex (.func f) l = some i) :
    view (popAt l i) = (view l).eraseP (·.f = f) := by
  induction l generalizing i with
  | nil => cases h
  | cons x l ih =>
    obtain ⟨g, hg⟩ := hf x (.head _)
    have e : view (x :: l) = ⟨g, x.priority⟩ :: view l := by simp [view, hg, num]
    rw [e]
    simp only [slotIndex] at h
    by_cases hx : x.base = .func f
    · rw [if_pos hx] at h
      cases h
      have : g = f := by rw [hg] at hx; cases hx; rfl
      rw [List.eraseP_cons_of_pos (by simpa using this)]
      rfl
    · rw [if_neg hx] at h
      have : g ≠ f := fun e => hx (by rw [hg, e])
      rw [List.eraseP_cons_of_neg (by simpa using this)]
      cases hi : slotIndex (.func f) l with
      | none => rw [hi] at h; cases h
      | some j =>
        rw [hi] at h
        cases h
        rw [← ih (fun y hy => hf y (.tail _ hy)) hi]
        simp [view, popAt, hg, num]

theorem view_insert (x : Psygnal.Slot) : ∀ {l : List Psygnal.Slot}, l.Pairwise (fun a b => b.priority ≤ a.priority) →
    view (insertByPriority x l) =
      (view l).filter (fun s => decide (x.priority ≤ s.p)) ++ ⟨num x.base, x.priority⟩ :: (view l).filter (fun s => decide (s.p < x.priority))
  | [], _ => rfl
  | y :: l, h => by
    have h' := List.pairwise_cons.mp h
    have e : view (y :: l) = ⟨num y.base, y.priority⟩ :: view l := rfl
    rw [e, insertByPriority]
    by_cases hy : y.priority < x.priority
    · rw [if_pos hy]
      have h1 : ∀ s ∈ (⟨num y.base, y.priority⟩ : Slot) :: view l, s.p < x.priority := by
        intro s hs
        rcases List.mem_cons.mp hs with rfl | hs
        · exact hy
        · obtain ⟨z, hz, rfl⟩ := List.mem_map.mp hs
          have := h'.1 z hz
          show z.priority < _
          omega
      rw [List.filter_eq_nil_iff.mpr (fun s hs => by have := h1 s hs; simp; omega), List.filter_eq_self.mpr (fun s hs => by simpa using h1 s hs)]
      rfl
    · rw [if_neg hy, List.filter_cons_of_pos (by simp; omega), List.filter_cons_of_neg (by simpa using hy)]
      show _ :: view (insertByPriority x l) = _
      rw [view_insert x h'.2]
      rfl

theorem view_append (st : SigState) (x : Psygnal.Slot) (h : st.slots.Pairwise (fun a b => b.priority ≤ a.priority))
    (h0 : st.prioInUse = false → ∀ y ∈ st.slots, y.priority = 0) :
    view (st.appendSlot x).slots = (view st.slots).filter (fun s => decide (x.priority ≤ s.p)) ++
      ⟨num x.base, x.priority⟩ :: (view st.slots).filter (fun s => decide (s.p < x.priority)) := by
  have key := view_insert x h
  unfold SigState.appendSlot
  split
  · rename_i hp
    split
    · rename_i hx
      have hz : ∀ s ∈ view st.slots, s.p = 0 := by
        intro s hs
        obtain ⟨z, hz, rfl⟩ := List.mem_map.mp hs
        exact h0 hp z hz
      rw [List.filter_eq_self.mpr (fun s hs => by simp [hz s hs, hx]), List.filter_eq_nil_iff.mpr (fun s hs => by simp [hz s hs, hx])]
      simp [view]
    · exact key
  · exact key

/-- **C90 (what "alone" means).**  In every state that a program of the single-threaded model can reach - with any callbacks, groups, blocking,
pausing, deaths - a call of `connect`, `disconnect`, `in` or `len` on a signal to which functions are connected answers as `Op.alone` says, with which
`C90_linear_partial` compares the calls of many threads, and leaves the callbacks that it says. -/
theorem C90_core {env : Env} {t : Task} {w : World} (hw : Live env anyAct t w) {s : SigId} (hr : (env.decl s).isRelay = false)
    (hf : ∀ x ∈ (w.sig s).slots, ∃ f, x.base = .func f) {o : Op} {a : Act} (h : Same s o a) :
    Answer (o.alone (view (w.sig s).slots)).1 (a.run env w).2 ∧
      view (((a.run env w).1).sig s).slots = (o.alone (view (w.sig s).slots)).2 := by
  obtain ⟨i1, -, i3⟩ := orderInv_live hw s
  have hs : (w.sig s).slots.Pairwise (fun a b => b.priority ≤ a.priority) := i1.imp (fun {a b} h => by
    unfold SlotBefore at h; omega)
  have dead : ∀ f, (Base.func f).isDead w = false := fun f => rfl
  have conn : ∀ (f : Nat) (b : Args) (o : ConnOpts), o.checkNargs = some false →
      ¬ (o.unique ≠ .no ∧ f ∈ (view (w.sig s).slots).map Slot.f) →
      ((Act.connect s ⟨.func f, b⟩ o).run env w).2 = .ok .unit ∧
        view ((((Act.connect s ⟨.func f, b⟩ o).run env w).1).sig s).slots =
          (view (w.sig s).slots).filter (fun x => decide (o.priority ≤ x.p)) ++
            ⟨f, o.priority⟩ :: (view (w.sig s).slots).filter (fun x => decide (x.p < o.priority)) := by
    intro f b o hc hn
    rw [← index_mem hf] at hn
    simp only [Act.run, dead, Bool.false_eq_true, if_false, World.connect, if_neg hn, hc, Option.getD_some, false_and]
    refine ⟨trivial, ?_⟩
    simp only [World.appendSlot, hr, Bool.false_eq_true, false_and, if_false, World.plainAppend, upd_sig_same]
    exact view_append (w.sig s) _ hs i3
  have there : ∀ (f : Nat) (b : Args) (o : ConnOpts), o.unique ≠ .no → f ∈ (view (w.sig s).slots).map Slot.f →
      (Act.connect s ⟨.func f, b⟩ o).run env w = if o.unique = .orRaise then (w, .error .valueError) else (w, .ok .unit) := by
    intro f b o hu hm
    simp only [Act.run, dead, Bool.false_eq_true, if_false, World.connect, if_pos (⟨hu, (index_mem hf f).mpr hm⟩ : _ ∧ _)]
  cases h with
  | no f b o hc hu =>
    obtain ⟨h1, h2⟩ := conn f b o hc (fun h => h.1 hu)
    rw [h1, h2]
    simp only [Op.alone, ne_eq, not_true, false_and, if_false]
    exact ⟨.ok, trivial⟩
  | yes f b o hc hu =>
    by_cases hm : f ∈ (view (w.sig s).slots).map Slot.f
    · rw [there f b o (by rw [hu]; decide) hm, hu, if_neg (by decide)]
      simp only [Op.alone]
      rw [if_pos ⟨by decide, hm⟩, if_neg (by decide)]
      exact ⟨.ok, rfl⟩
    · obtain ⟨h1, h2⟩ := conn f b o hc (fun h => hm h.2)
      rw [h1, h2]
      simp only [Op.alone]
      rw [if_neg (fun h => hm h.2)]
      exact ⟨.ok, rfl⟩
  | raise f b o hc hu =>
    by_cases hm : f ∈ (view (w.sig s).slots).map Slot.f
    · rw [there f b o (by rw [hu]; decide) hm, hu, if_pos rfl]
      simp only [Op.alone]
      rw [if_pos ⟨by decide, hm⟩, if_pos trivial]
      exact ⟨.value, rfl⟩
    · obtain ⟨h1, h2⟩ := conn f b o hc (fun h => hm h.2)
      rw [h1, h2]
      simp only [Op.alone]
      rw [if_neg (fun h => hm h.2)]
      exact ⟨.ok, rfl⟩
  | disc f b ok =>
    simp only [Act.run, World.disconnect, hr, Bool.false_eq_true, if_false, World.disconnect1, Op.alone]
    cases hi : slotIndex (.func f) (w.sig s).slots with
    | none =>
      have hm : f ∉ (view (w.sig s).slots).map Slot.f := fun hm => by
        have := (index_mem hf f).mpr hm
        rw [hi] at this
        cases this
      rw [if_neg hm]
      cases ok
      · exact ⟨.value, rfl⟩
      · exact ⟨.ok, rfl⟩
    | some i =>
      have hm : f ∈ (view (w.sig s).slots).map Slot.f := (index_mem hf f).mp (by rw [hi]; rfl)
      rw [if_pos hm]
      refine ⟨.ok, ?_⟩
      simp only [World.setSlotsRemoved, hr, Bool.false_eq_true, false_and, if_false, upd_sig_same]
      exact view_pop hf hi
  | discAll ok =>
    simp only [Act.run, World.disconnect, hr, Bool.false_eq_true, if_false, World.disconnect1, Op.alone, World.setSlotsRemoved, false_and,
      upd_sig_same]
    exact ⟨.ok, rfl⟩
  | has f b =>
    simp only [Act.run, Op.alone]
    have : (slotIndex (.func f) (w.sig s).slots).isSome = decide (f ∈ (view (w.sig s).slots).map Slot.f) :=
      Bool.eq_iff_iff.mpr ((index_mem hf f).trans decide_eq_true_iff.symm)
    rw [this]
    exact ⟨.bool _, trivial⟩
  | len =>
    simp only [Act.run, Op.alone]
    refine ⟨?_, trivial⟩
    have : (view (w.sig s).slots).length = (w.sig s).slots.length := by simp [view]
    rw [this]
    exact .num _

/-- A case for `C90_core`: function 1 is connected twice, at priorities 5 and 0; `disconnect(1)` removes the first, `connect(2, unique='raise')` is
refused, and function 3 is put between. -/
example : ∃ w : World, Live Ex.quiet anyAct (.prog .ret) w ∧ view (w.sig 0).slots = [⟨2, 5⟩, ⟨1, 5⟩, ⟨1, 0⟩] ∧
    (∀ x ∈ (w.sig 0).slots, ∃ f, x.base = .func f) ∧
    Same 0 (.disc 1 false) (.disconnect 0 (some ⟨.func 1, []⟩) false) ∧
    (Op.disc 1 false).alone (view (w.sig 0).slots) = (.ok, [⟨2, 5⟩, ⟨1, 0⟩]) ∧
    Same 0 (.conn 2 .raise 3) (.connect 0 ⟨.func 2, []⟩ { checkNargs := some false, unique := .orRaise, priority := 3 }) ∧
    (Op.conn 2 .raise 3).alone (view (w.sig 0).slots) = (.value, [⟨2, 5⟩, ⟨1, 5⟩, ⟨1, 0⟩]) ∧
    (Op.conn 3 .yes 3).alone (view (w.sig 0).slots) = (.ok, [⟨2, 5⟩, ⟨1, 5⟩, ⟨3, 3⟩, ⟨1, 0⟩]) := by
  refine ⟨_, .top (Ex.reach (n := 30) (l := [Ex.conn 0 (.func 1), Ex.conn 0 (.func 2) 5, Ex.conn 0 (.func 1) 5]) (by simp [anyAct]) rfl) 0 .ret trivial,
    by rfl, ?_, .disc .., by rfl, .raise 2 [] { checkNargs := some false, unique := .orRaise, priority := 3 } rfl rfl, by rfl, by rfl⟩
  intro x hx
  have : x.base = .func 2 ∨ x.base = .func 1 := by
    rcases List.mem_cons.mp hx with rfl | hx
    · exact .inl rfl
    rcases List.mem_cons.mp hx with rfl | hx
    · exact .inr rfl
    rcases List.mem_cons.mp hx with rfl | hx
    · exact .inr rfl
    · cases hx
  rcases this with h | h
  · exact ⟨2, h⟩
  · exact ⟨1, h⟩

end Psygnal.CoC
