import Verif.Death
import Verif.Examples

/-!
# Connections to dead objects: C15
-/
namespace Psygnal

/-- **C15** (exactly the connections of the dead object vanish). When object `o` dies, every signal
keeps exactly the slots not owned by `o`, in order; additionally, a member of a group whose last
listeners died with `o` loses the group's internal relay slot. -/
theorem C15_kill_removes_exactly (env : Env) (w : World) (o : ObjId) (s : SigId) :
    let kept := (w.sig s).slots.filter fun x => x.base.owner? ≠ some o
    let slots' := (((Act.kill o).run env w).1.sig s).slots
    slots' = kept ∨ ∃ g, (env.decl s).parent = some g ∧ (w.sig g).slots ≠ [] ∧
      (∀ x ∈ (w.sig g).slots, x.base.owner? = some o) ∧
      ∃ l₁ x l₂, kept = l₁ ++ x :: l₂ ∧ x.base = .relay g ∧ slots' = l₁ ++ l₂ := by
  have hk : ((w.sig s).slots.filter fun x => decide (x.base.owner? ≠ some o)) =
      finalizeSlots o (w.sig s).slots := by
    rw [finalizeSlots_eq]
    congr 1
    funext x
    simp only [Slot.ownedBy]
    by_cases h : x.base.owner? = some o <;> simp [h]
  simp only [hk, Act.run, World.kill]
  split
  · exact .inl rfl
  · rename_i g hg
    split
    · rename_i hc
      cases hi : slotIndex (.relay g) (finalizeSlots o (w.sig s).slots) with
      | none => left; simp [eraseSlot, hi]
      | some i =>
        right
        obtain ⟨l₁, x, l₂, h1, h2, -, h4⟩ := slotIndex_some hi
        refine ⟨g, hg, by simpa using hc.1, ?_, l₁, x, l₂, h1, h2, by simp [eraseSlot, hi, h4]⟩
        have := hc.2
        rw [finalizeSlots_eq, List.isEmpty_iff, List.filter_eq_nil_iff] at this
        simpa [Slot.ownedBy] using this
    · exact .inl rfl

/-- **C15** (invariant). At every moment of every execution, no callback of a dead object is connected
to any signal. -/
theorem C15_no_dead_connected {env : Env} {Q : Act → Prop} {t : Task} {w : World} (h : Live env Q t w)
    {s : SigId} {x : Slot} {o : ObjId} (hx : x ∈ (w.sig s).slots) (ho : x.base.owner? = some o) :
    w.dead o = false := by
  simpa [Base.isDead, ho] using deadInv_live h s x hx

/-- **C15** (never invoked). Once `o` is dead, no procedure — emission, `emit_queued` of callbacks that
were queued before `o` died, arbitrary user code — ever invokes a callback of `o`: none of the events
it logs is such an invocation. -/
theorem C15_dead_never_called {env : Env} {t : Task} {w w' : World} {r : Res} {o : ObjId}
    (hd : w.dead o = true) (h : Runs env t w w' r) :
    ∃ l, w'.log = w.log ++ l ∧
      ∀ em src d e th b a, .call em src d e th b a ∈ l → b.owner? ≠ some o := by
  obtain ⟨l, hl⟩ := log_prefix h
  refine ⟨l, hl.symm, ?_⟩
  intro em src d e th b a hm ho
  have hc := callsOn_dead h hd
  rw [← hl] at hc
  have : callsOn o l = [] := by
    simpa [callsOn] using hc
  have hm' : Ev.call em src d e th b a ∈ callsOn o l := by
    simp [callsOn, hm, ho]
  rw [this] at hm'
  simp at hm'

/-- Object 5 has a method connected twice to signal 0 (once for thread 1), an attribute connected to
signal 1, and is the only listener of group 30; its method is waiting in the queue of thread 1.  Then
it dies: nothing of it is left connected, and draining the queue takes the entry but invokes nothing. -/
example : ∃ (w : World), Reachable Ex.quiet anyAct w ∧ w.dead 5 = true ∧
    (w.sig 0).slots.map (·.base) = [.func 0] ∧ (w.sig 1).slots.length = 0 ∧
    (w.sig 31).slots.length = 0 ∧ (w.tq 1).length = 1 ∧
    ∃ w' r, Runs Ex.quiet (.drain 1) w w' r ∧ w'.log = w.log ++ [.get 1 (.method 5 0) [.atom 3]] := by
  refine ⟨_, Ex.reach (n := 30) (l := [Ex.conn 0 (.method 5 0),
    .connect 0 ⟨.method 5 0, []⟩ { thread := some (.this 1) }, Ex.conn 0 (.func 0),
    .connectRaw 1 (.setattr 5 0) none 0, Ex.conn 30 (.method 5 1), Ex.emit 0 3, .kill 5])
    (by simp [anyAct]) rfl, rfl, rfl, rfl, rfl, rfl, _, _, ⟨5, rfl⟩, rfl⟩

end Psygnal
