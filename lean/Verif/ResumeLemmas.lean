import Verif.Resume

/-! # Invariants for `resume` in several threads -/
namespace Psygnal.Res

/-- How often `v` was emitted (specification; `/repo/src/psygnal/_signal.py:1142`). -/
def emitted (v : Nat) : List Ev → Nat
  | [] => 0
  | .emitted w :: l => (if w = v then 1 else 0) + emitted v l
  | _ :: l => emitted v l

/-- How often `v` was handed over, alone or reduced with others, or given up for lack of callbacks
(specification; `/repo/src/psygnal/_signal.py:1201,1412-1428`). -/
def settled (v : Nat) : List Ev → Nat
  | [] => 0
  | .handed vs :: l => vs.count v + settled v l
  | .dropped vs :: l => vs.count v + settled v l
  | _ :: l => settled v l

@[simp] theorem emitted_append (v : Nat) (l m : List Ev) : emitted v (l ++ m) = emitted v l + emitted v m := by
  induction l with
  | nil => simp [emitted]
  | cons a l ih => cases a <;> simp [emitted, ih]; omega

@[simp] theorem settled_append (v : Nat) (l m : List Ev) : settled v (l ++ m) = settled v l + settled v m := by
  induction l with
  | nil => simp [settled]
  | cons a l ih => cases a <;> simp [settled, ih] <;> omega

/-- Where a `resume` in progress is (`/repo/src/psygnal/_signal.py:1416-1429`): in an iteration, having put aside
`acc`, at index `i`; or about to clear. -/
inductive Pos
  | iter (acc : List Nat) (i : Nat)
  | clear

/-- The position of the innermost resume that is not calling callbacks (`/repo/src/psygnal/_signal.py:1416-1429`). -/
def Ctl.pos : Ctl → List Pos
  | .iter i => [.iter [] i]
  | .reduce acc i => [.iter acc i]
  | .clear => [.clear]
  | _ => []

/-- The positions of those that are (`/repo/src/psygnal/_signal.py:1425,1428`). -/
def Frame.pos : Frame → List Pos
  | .cont _ => []
  | .iter i => [.iter [] i]
  | .clear => [.clear]

/-- All positions in a thread (`/repo/src/psygnal/_signal.py:1416-1429`). -/
def Thread.pos (th : Thread) : List Pos := th.ctl.pos ++ th.stack.flatMap Frame.pos

/-- What a resume still has before it (`/repo/src/psygnal/_signal.py:1416-1429`). -/
def Pos.left (q : List Nat) : Pos → List Nat
  | .iter acc i => acc ++ q.drop i
  | .clear => []

/-- Would a value that is now appended be missed by this resume (`/repo/src/psygnal/_signal.py:1427-1429`)? -/
def Pos.past (q : List Nat) : Pos → Prop
  | .iter _ i => q.length < i
  | .clear => True

/-- Some resume in progress is past the end of the queue (`/repo/src/psygnal/_signal.py:1427-1429`). -/
def Exposed (σ : St) : Prop := ∃ t, ∃ p ∈ (σ.thr t).pos, p.past σ.queue

/-- Thread `t` is about to record `v` (`/repo/src/psygnal/_signal.py:1193`). -/
def Appends (σ : St) (t v : Nat) : Prop := (σ.thr t).ctl = .append v

/-- Nothing equal to `v` is lost, now or at the next clear. -/
structure Kept (v : Nat) (σ : St) : Prop where
  now : emitted v σ.log ≤ settled v σ.log + σ.queue.count v
  later : ∀ t, ∀ p ∈ (σ.thr t).pos, emitted v σ.log ≤ settled v σ.log + (p.left σ.queue).count v

theorem kept_init (v : Nat) (prog : Nat → Code) : Kept v (init prog) :=
  ⟨Nat.le_refl _, fun t p hp => by simp [init, Thread.pos, Ctl.pos] at hp⟩

/-- A step is one of: nothing, an append, a hand-over of what is in front of a resume, a clear. -/
theorem kept_step {e : Env} {t v : Nat} {σ σ' : St} (h : step e t σ = some σ')
    (hx : Appends σ t v → ¬ Exposed σ) (hk : Kept v σ) : Kept v σ' := by
  obtain ⟨h1, h2⟩ := hk
  have key : ∀ (c : Ctl) (st : List Frame) (σ0 : St), (∀ t', t' ≠ t → σ0.thr t' = σ.thr t') →
      emitted v σ0.log ≤ settled v σ0.log + σ0.queue.count v →
      (∀ p ∈ (⟨c, st⟩ : Thread).pos, emitted v σ0.log ≤ settled v σ0.log + (p.left σ0.queue).count v) →
      (∀ t', t' ≠ t → ∀ p ∈ (σ.thr t').pos, emitted v σ0.log ≤ settled v σ0.log + (p.left σ0.queue).count v) →
      Kept v (σ0.at t c st) := by
    intro c st σ0 ha hb hc hd
    refine ⟨hb, fun t' p hp => ?_⟩
    simp only [St.at] at hp ⊢
    split at hp
    · exact hc p hp
    · rename_i hne
      rw [ha t' hne] at hp
      exact hd t' hne p hp
  have h2t := h2 t
  rcases hth : σ.thr t with ⟨c, st⟩
  simp only [step, hth] at h
  rw [hth] at h2t
  unfold Appends at hx
  rw [hth] at hx
  simp only at hx h2t
  simp only [Thread.pos, List.forall_mem_append] at h2t
  have same : ∀ (c' : Ctl) (st' : List Frame) (σ0 : St), σ0.thr = σ.thr → σ0.queue = σ.queue → σ0.log = σ.log →
      (∀ p ∈ (⟨c', st'⟩ : Thread).pos, emitted v σ.log ≤ settled v σ.log + (p.left σ.queue).count v) →
      Kept v (σ0.at t c' st') := by
    intro c' st' σ0 ha hb hc hd
    refine key c' st' σ0 (fun t' _ => by rw [ha]) (by rw [hb, hc]; exact h1) (by rw [hb, hc]; exact hd) ?_
    intro t' _; rw [hb, hc]; exact h2 t'
  have more : ∀ (c' : Ctl) (st' : List Frame) (evs : List Ev), emitted v evs ≤ settled v evs →
      (∀ p ∈ (⟨c', st'⟩ : Thread).pos, emitted v (σ.log ++ evs) ≤ settled v (σ.log ++ evs) + (p.left σ.queue).count v) →
      Kept v ({ σ with log := σ.log ++ evs }.at t c' st') := by
    intro c' st' evs ha hb
    refine key c' st' _ (fun _ _ => rfl) ?_ hb ?_
    · simp only [emitted_append, settled_append]; omega
    · intro t' _ p hp
      have := h2 t' p hp
      simp only [emitted_append, settled_append]; omega
  split at h
  · cases h; exact same _ _ _ rfl rfl rfl (by simpa [Thread.pos, Ctl.pos] using h2t)
  · cases h; exact same _ _ _ rfl rfl rfl (by simpa [Thread.pos, Ctl.pos] using h2t)
  · cases h; exact same _ _ _ rfl rfl rfl (by simpa [Thread.pos, Ctl.pos, Frame.pos] using h2t)
  · cases h; exact same _ _ _ rfl rfl rfl (by simpa [Thread.pos, Ctl.pos] using h2t)
  · cases h; exact same _ _ _ rfl rfl rfl (by simpa [Thread.pos, Ctl.pos, Frame.pos] using h2t)
  · cases h; exact same _ _ _ rfl rfl rfl (by simpa [Thread.pos, Ctl.pos] using h2t)
  · cases h; exact same _ _ _ rfl rfl rfl (by simpa [Thread.pos, Ctl.pos] using h2t)
  · split at h
    · cases h
    · cases h; exact same _ _ _ rfl rfl rfl (by simpa [Thread.pos, Ctl.pos, Frame.pos] using h2t)
    · split at h <;> cases h
      · exact same _ _ _ rfl rfl rfl (by simpa [Thread.pos, Ctl.pos, Frame.pos] using h2t)
      · refine same _ _ _ rfl rfl rfl ?_
        have := h2t.2
        simp only [List.flatMap_cons, List.forall_mem_append] at this
        simpa [Thread.pos, Ctl.pos] using this.2
    · split at h <;> cases h
      · exact same _ _ _ rfl rfl rfl (by simpa [Thread.pos, Ctl.pos, Frame.pos] using h2t)
      · refine same _ _ _ rfl rfl rfl ?_
        have := h2t.2
        simp only [List.flatMap_cons, List.forall_mem_append] at this
        simpa [Thread.pos, Ctl.pos] using this.2
  · split at h <;> cases h <;> exact same _ _ _ rfl rfl rfl (by simpa [Thread.pos, Ctl.pos] using h2t)
  · split at h <;> cases h <;> exact same _ _ _ rfl rfl rfl (by simpa [Thread.pos, Ctl.pos] using h2t)
  · rename_i w
    cases h
    have hleft : ∀ t', ∀ p ∈ (σ.thr t').pos, emitted v (σ.log ++ [Ev.emitted w]) ≤ settled v (σ.log ++ [Ev.emitted w])
        + (p.left (σ.queue ++ [w])).count v := by
      intro t' p hp
      have h3 := h2 t' p hp
      simp only [emitted_append, settled_append, emitted, settled]
      by_cases hw : w = v
      · subst hw
        have hne := hx rfl
        cases p with
        | clear => exact absurd ⟨t', _, hp, trivial⟩ hne
        | iter acc i =>
          have hi : i ≤ σ.queue.length := by
            refine Nat.le_of_not_lt fun hlt => hne ⟨t', _, hp, hlt⟩
          simp only [Pos.left, List.count_append, List.drop_append_of_le_length hi] at h3 ⊢
          simp; omega
      · cases p with
        | clear => simpa [hw, Pos.left] using h3
        | iter acc i =>
          have : ((σ.queue ++ [w]).drop i).count v ≥ (σ.queue.drop i).count v := by
            rw [List.drop_append, List.count_append]; omega
          simp only [Pos.left, List.count_append, if_neg hw] at h3 ⊢
          omega
    refine key _ _ _ (fun _ _ => rfl) ?_ ?_ (fun t' _ => hleft t')
    · simp only [emitted_append, settled_append, emitted, settled, List.count_append, List.count_singleton]
      by_cases hw : w = v <;> simp [hw] <;> omega
    · intro p hp
      refine hleft t p ?_
      rw [hth]
      simpa [Thread.pos, Ctl.pos] using hp
  · rename_i w
    cases h
    refine more _ _ _ (by simp [emitted, settled, List.count_singleton]) ?_
    intro p hp
    have h3 := h2t.2 p (by simpa [Thread.pos, Ctl.pos] using hp)
    simp only [emitted_append, settled_append, emitted, settled, List.count_singleton]
    simp; omega
  · cases h; exact same _ _ _ rfl rfl rfl (by simpa [Thread.pos, Ctl.pos] using h2t)
  · split at h <;> cases h <;> exact same _ _ _ rfl rfl rfl (by simpa [Thread.pos, Ctl.pos] using h2t)
  · rename_i r
    split at h <;> cases h
    · refine same _ _ _ rfl rfl rfl ?_
      simp only [Thread.pos, List.forall_mem_append]
      refine ⟨?_, h2t.2⟩
      cases r <;> simpa [Ctl.pos, Pos.left] using h1
    · refine more _ _ _ (by simp [emitted]) ?_
      intro p hp
      simp only [emitted_append, settled_append, emitted, settled]
      omega
  · rename_i i
    have hc : emitted v σ.log ≤ settled v σ.log + (σ.queue.drop i).count v := by
      simpa [Ctl.pos, Pos.left] using h2t.1
    split at h <;> cases h
    · rename_i w hw
      have hd : σ.queue.drop i = w :: σ.queue.drop (i + 1) := by
        obtain ⟨hlt, rfl⟩ := List.getElem?_eq_some_iff.mp hw
        exact List.drop_eq_getElem_cons hlt
      refine more _ _ _ (by simp [emitted]) ?_
      simp only [Thread.pos, Ctl.pos, List.nil_append, List.flatMap_cons, List.forall_mem_append, Frame.pos,
        emitted_append, settled_append, emitted, settled]
      refine ⟨?_, fun p hp => ?_⟩
      · rw [hd, List.count_cons] at hc
        simp [Pos.left, List.count_singleton]; simp at hc; omega
      · have := h2t.2 p hp; omega
    · rename_i hw
      have hd : σ.queue.drop i = [] := List.drop_eq_nil_of_le (List.getElem?_eq_none_iff.mp hw)
      refine same _ _ _ rfl rfl rfl ?_
      simp only [Thread.pos, List.forall_mem_append]
      refine ⟨?_, h2t.2⟩
      rw [hd] at hc
      simpa [Ctl.pos, Pos.left] using hc
  · rename_i acc i
    have hc : emitted v σ.log ≤ settled v σ.log + (acc.count v + (σ.queue.drop i).count v) := by
      simpa [Ctl.pos, Pos.left] using h2t.1
    split at h
    · rename_i w hw
      cases h
      have hd : σ.queue.drop i = w :: σ.queue.drop (i + 1) := by
        obtain ⟨hlt, rfl⟩ := List.getElem?_eq_some_iff.mp hw
        exact List.drop_eq_getElem_cons hlt
      refine same _ _ _ rfl rfl rfl ?_
      simp only [Thread.pos, List.forall_mem_append]
      refine ⟨?_, h2t.2⟩
      rw [hd, List.count_cons] at hc
      simp [Ctl.pos, Pos.left, List.count_cons]; simp at hc; omega
    · rename_i hw
      have hd : σ.queue.drop i = [] := List.drop_eq_nil_of_le (List.getElem?_eq_none_iff.mp hw)
      rw [hd] at hc
      split at h <;> cases h
      · refine more _ _ _ (by simp [emitted]) ?_
        simp only [Thread.pos, Ctl.pos, List.nil_append, List.flatMap_cons, List.forall_mem_append, Frame.pos,
          emitted_append, settled_append, emitted, settled]
        refine ⟨?_, fun p hp => ?_⟩
        · simp at hc; simp [Pos.left]; omega
        · have := h2t.2 p hp; omega
      · exact same _ _ _ rfl rfl rfl (by simpa [Thread.pos, Ctl.pos] using h2t.2)
  · cases h
    have hc : emitted v σ.log ≤ settled v σ.log := by simpa [Ctl.pos, Pos.left] using h2t.1
    exact key _ _ _ (fun _ _ => rfl) (by simpa using hc) (fun p _ => Nat.le_trans hc (Nat.le_add_right _ _))
      (fun _ _ p _ => Nat.le_trans hc (Nat.le_add_right _ _))

end Psygnal.Res
