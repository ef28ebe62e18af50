import Verif.Props.SetBlock
import Verif.EventedSetSteps

/-!
# C100: a mirror of a set

Whatever the threads do in blocks `with lock:`, a listener that removes from a copy of the set what it is told was removed, and adds what it is told was added,
has a copy of the set whenever nobody holds the lock; provided that no `symmetric_difference_update` gets an item twice (`C31_repeated_refuted`).
-/

namespace Psygnal.StC

/-- What a listener does to its copy when it is told (specification, for `/repo/src/psygnal/_signal.py:1201,1425`). -/
def copies (l : List Nat) : Seen → List Nat
  | .told _ a r => l.filter (fun x => decide (x ∉ r)) ++ a
  | _ => l

/-- Whatever it sees, the block gives no item twice to one `symmetric_difference_update` (specification, for `/repo/src/psygnal/containers/_evented_set.py:163-170`). -/
inductive Once : Code → Prop
  | ret : Once .ret
  | has (x : Nat) (c : Bool → Code) : (∀ b, Once (c b)) → Once (.has x c)
  | call (o : Call) (c : Code) : (∀ xs, o = .sym xs → xs.Nodup) → Once c → Once (.call o c)

instance : seq.Passive := ⟨rfl⟩

theorem seq_fair : seq.Fair := fun l x => by
  show (l ++ [x]).Perm (x :: l)
  exact List.perm_append_comm

theorem copies_exact {old new l a r : List Nat} (h : ES.Exact old (a, r) new) (hl : ∀ y, y ∈ l ↔ y ∈ old) (t y : Nat) : y ∈ copies l (.told t a r) ↔ y ∈ new := by
  have h1 : y ∈ a ↔ y ∈ new ∧ y ∉ old := h.added y
  have h2 : y ∈ r ↔ y ∈ old ∧ y ∉ new := h.removed y
  have h3 := hl y
  show y ∈ l.filter (fun x => decide (x ∉ r)) ++ a ↔ _
  rw [List.mem_append, List.mem_filter, decide_eq_true_iff]
  by_cases hn : y ∈ new <;> by_cases ho : y ∈ old <;> simp_all

theorem copies_story {old new : List Nat} {es : List ((List Nat × List Nat) × List Nat)} (h : ES.Story old es new) (t : Nat) :
    ∀ l, (∀ y, y ∈ l ↔ y ∈ old) → ∀ y, y ∈ (es.map fun x => Seen.told t x.1.1 x.1.2).foldl copies l ↔ y ∈ new := by
  induction h with
  | nil h => exact fun l hl y => (hl y).trans (h y)
  | cons he _ ih => exact fun l hl => ih _ (copies_exact he hl t)

theorem alone_copies (t : Nat) {c : Code} (h : Once c) : ∀ d : List Nat, d.Nodup → ∀ l, (∀ y, y ∈ l ↔ y ∈ d) →
    (∀ y, y ∈ (alone t d c).1.foldl copies l ↔ y ∈ (alone t d c).2) ∧ (alone t d c).2.Nodup := by
  induction h with
  | ret => exact fun d hd l hl => ⟨hl, hd⟩
  | has x c _ ih => exact fun d hd l hl => ih _ d hd l hl
  | call o c ho _ ih =>
    intro d hd l hl
    have hp : o.op.Plain := by
      cases o with
      | sym xs => exact ho xs rfl
      | inter xs => exact List.cons_ne_nil _ _
      | _ => trivial
    have hg := ES.step_good seq_fair (fun _ => rfl) o.op hp (s := { data := d }) ⟨hd, rfl, rfl, rfl⟩
    obtain ⟨es, h1, h2⟩ := hg.tells.1 rfl
    have h1 : (ES.step seq o.op { data := d }).2.log = es := h1
    have h3 := ih _ hg.clean.nodup _ (copies_story h2 t l hl)
    show (∀ y, y ∈ ((ES.step seq o.op { data := d }).2.log.map (fun x => Seen.told t x.1.1 x.1.2) ++ _).foldl copies l ↔ _) ∧ _
    rw [List.foldl_append, h1]
    exact h3

/-- For all programs in blocks, the copy has just the items of the set, if no `symmetric_difference_update` gets an item twice.  If one does, it need not:
`C100_set_twice_refuted`. -/
theorem C100_set_mirror (d : List Nat) (hd : d.Nodup) (prog : Nat → List Seen → Option Code) (s : List Nat)
    (ho : ∀ t l c, prog t l = some c → Once c) :
    let p := Blk.run sys (blocks prog) s (fresh d)
    p.lock = none → ∀ y, y ∈ (p.log.filterMap Ev.seen).foldl copies d ↔ y ∈ p.data.set := by
  intro p hn
  have h := (C100_set d hd prog s hn).1
  generalize p.log.filterMap Ev.seen = l at h ⊢
  generalize p.data.set = x at h ⊢
  suffices (∀ y, y ∈ l.foldl copies d ↔ y ∈ x) ∧ x.Nodup from this.1
  induction h with
  | nil => exact ⟨fun _ => Iff.rfl, hd⟩
  | @block l d1 t c _ hc ih =>
    rw [List.foldl_append]
    exact alone_copies t (ho _ _ _ hc) d1 ih.2 _ ih.1

/-- One thread gives an item twice to `symmetric_difference_update`: the item is added and removed, and the copy has it. -/
def exTwice (t : Nat) (l : List Seen) : Option Code := if t = 0 ∧ l = [] then some (.call (.sym [7, 7]) .ret) else none

theorem C100_set_twice_refuted : ∃ s, let p := Blk.run sys (blocks exTwice) s (fresh [5])
    p.lock = none ∧ p.data.set = [5] ∧ 7 ∈ (p.log.filterMap Ev.seen).foldl copies [5] :=
  ⟨List.replicate 20 0, by decide +kernel, by decide +kernel, by decide +kernel⟩

/-- Without a lock the copy differs: thread 0 adds an item before thread 1 discards it, and tells after it. -/
theorem C100_set_mirror_refuted : ∃ s, let p := run s (init [5, 6] (exP (exAdd 7) (exDis 7)))
    p.thr 0 = .run .ret ∧ p.thr 1 = .run .ret ∧ p.data.set = [5, 6] ∧ (p.log.filterMap Ev.seen).foldl copies [5, 6] = [5, 6, 7] :=
  ⟨[0, 0, 0, 1, 1, 1, 1, 1, 1, 0, 0, 0], by rfl, by rfl, by decide, by decide⟩

/-- Blocks with `symmetric_difference_update`. -/
def exSym (t : Nat) (l : List Seen) : Option Code :=
  if t < 2 ∧ l = [] then some (.call (.sym [5, 7 + t]) (.has 5 fun b => if b then .call (.inter [5, 6]) .ret else .ret)) else none

theorem exSym_once (t : Nat) (l : List Seen) (c : Code) (h : exSym t l = some c) : Once c := by
  unfold exSym at h
  split at h
  · obtain rfl := Option.some.inj h
    rename_i ht
    refine .call _ _ (fun xs hx => ?_) (.has _ _ fun b => ?_)
    · cases hx
      simp; omega
    · cases b
      · exact .ret
      · exact .call _ _ (fun xs hx => nomatch hx) .ret
  · cases h

example : let p := Blk.run sys (blocks exSym) exBulkS (fresh [5, 6])
    p.log.filterMap Ev.seen = [.told 0 [7] [5], .found 0 5 false, .told 1 [5, 8] [], .found 1 5 true, .told 1 [] [7, 8]] ∧ p.data.set = [6, 5] ∧
      ∀ y, y ∈ (p.log.filterMap Ev.seen).foldl copies [5, 6] ↔ y ∈ p.data.set :=
  ⟨by decide +kernel, by decide +kernel, C100_set_mirror [5, 6] (by decide) exSym exBulkS exSym_once (by decide +kernel)⟩

end Psygnal.StC
