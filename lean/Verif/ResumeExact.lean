import Verif.ResumeLemmas

/-! # `resume` hands over exactly once -/
namespace Psygnal.Res

/-- At most one resume is in progress (`/repo/src/psygnal/_signal.py:1416-1429`), and no exception is passing through
one. -/
structure Calm (σ : St) : Prop where
  thread : ∀ t t', (σ.thr t).pos ≠ [] → (σ.thr t').pos ≠ [] → t = t'
  nested : ∀ t, (σ.thr t).pos.length ≤ 1
  raised : ∀ t, (σ.thr t).ctl = .fin false → (σ.thr t).pos = []

/-- Everything emitted is settled or before the resume in progress, if there is one, or in the queue. -/
structure Exact (v : Nat) (σ : St) : Prop where
  idle : (∀ t, (σ.thr t).pos = []) → emitted v σ.log = settled v σ.log + σ.queue.count v
  busy : ∀ t, ∀ p ∈ (σ.thr t).pos, emitted v σ.log = settled v σ.log + (p.left σ.queue).count v

theorem exact_init (v : Nat) (prog : Nat → Code) : Exact v (init prog) :=
  ⟨fun _ => rfl, fun t p hp => by simp [init, Thread.pos, Ctl.pos] at hp⟩

/-- If one position is in the control, there is none on the stack. -/
theorem one_left {c : Ctl} {st : List Frame} {p : Pos} (hp : c.pos = [p]) (h : (⟨c, st⟩ : Thread).pos.length ≤ 1) :
    st.flatMap Frame.pos = [] := by
  unfold Thread.pos at h
  rw [hp, List.length_append] at h
  simp only [List.length_singleton] at h
  exact List.eq_nil_of_length_eq_zero (by omega)

/-- What happens to the resumes in one step. -/
theorem exact_step {e : Env} (he : ∀ acc, e.reduces acc = true) {t v : Nat} {σ σ' : St} (h : step e t σ = some σ')
    (hc : Calm σ) (hc' : Calm σ') (hx : Appends σ t v → ¬ Exposed σ) (hk : Exact v σ) : Exact v σ' := by
  obtain ⟨h1, h2⟩ := hk
  obtain ⟨c1, c2, c3⟩ := hc
  -- no resume before and after, or the same position
  have same : ∀ (c' : Ctl) (st' : List Frame) (σ0 : St), σ0.thr = σ.thr → σ0.queue = σ.queue →
      emitted v σ0.log + settled v σ.log = settled v σ0.log + emitted v σ.log → (⟨c', st'⟩ : Thread).pos = (σ.thr t).pos →
      Exact v (σ0.at t c' st') := by
    intro c' st' σ0 ha hb hl hp
    have hpos : ∀ t', ((σ0.at t c' st').thr t').pos = (σ.thr t').pos := by
      intro t'; simp only [St.at]; split
      · rename_i e; rw [e, hp]
      · rw [ha]
    refine ⟨fun hi => ?_, fun t' p hp' => ?_⟩
    · have := h1 fun t' => (hpos t').symm.trans (hi t')
      show emitted v σ0.log = settled v σ0.log + σ0.queue.count v
      rw [hb]; omega
    · rw [hpos t'] at hp'
      have := h2 t' p hp'
      show emitted v σ0.log = settled v σ0.log + (p.left σ0.queue).count v
      rw [hb]; omega
  -- the resume moves to another position
  have move : ∀ (c' : Ctl) (st' : List Frame) (σ0 : St) (p : Pos), σ0.thr = σ.thr →
      (⟨c', st'⟩ : Thread).pos = [p] → Calm (σ0.at t c' st') →
      emitted v σ0.log = settled v σ0.log + (p.left σ0.queue).count v → Exact v (σ0.at t c' st') := by
    intro c' st' σ0 p ha hp hcalm heq
    have hself : ((σ0.at t c' st').thr t).pos = [p] := by simp [St.at, hp]
    refine ⟨(fun hi => by have := hi t; rw [hself] at this; cases this), fun t' p' hp' => ?_⟩
    have htt : t = t' := hcalm.thread t t' (by rw [hself]; simp) (List.ne_nil_of_mem hp')
    subst htt
    rw [hself] at hp'
    simp at hp'; subst hp'
    exact heq
  have h2t := h2 t
  have c2t := c2 t
  have c3t := c3 t
  rcases hth : σ.thr t with ⟨c, st⟩
  simp only [step, hth] at h
  unfold Appends at hx
  rw [hth] at hx h2t c2t c3t
  simp only at hx h2t c2t c3t
  split at h
  · cases h; exact same _ _ _ rfl rfl (by simp [Nat.add_comm]) (by simp [hth, Thread.pos, Ctl.pos])
  · cases h; exact same _ _ _ rfl rfl (by simp [Nat.add_comm]) (by simp [hth, Thread.pos, Ctl.pos])
  · cases h; exact same _ _ _ rfl rfl (by simp [Nat.add_comm]) (by simp [hth, Thread.pos, Ctl.pos, Frame.pos])
  · cases h; exact same _ _ _ rfl rfl (by simp [Nat.add_comm]) (by simp [hth, Thread.pos, Ctl.pos])
  · cases h; exact same _ _ _ rfl rfl (by simp [Nat.add_comm]) (by simp [hth, Thread.pos, Ctl.pos, Frame.pos])
  · cases h; exact same _ _ _ rfl rfl (by simp [Nat.add_comm]) (by simp [hth, Thread.pos, Ctl.pos])
  · cases h; exact same _ _ _ rfl rfl (by simp [Nat.add_comm]) (by simp [hth, Thread.pos, Ctl.pos])
  · rename_i ok
    split at h
    · cases h
    · cases h; exact same _ _ _ rfl rfl (by simp [Nat.add_comm]) (by simp [hth, Thread.pos, Ctl.pos, Frame.pos])
    · split at h <;> cases h
      · exact same _ _ _ rfl rfl (by simp [Nat.add_comm]) (by simp [hth, Thread.pos, Ctl.pos, Frame.pos])
      · rename_i hok
        have := c3t (by simp [hok])
        simp [Thread.pos, Frame.pos] at this
    · split at h <;> cases h
      · exact same _ _ _ rfl rfl (by simp [Nat.add_comm]) (by simp [hth, Thread.pos, Ctl.pos, Frame.pos])
      · rename_i hok
        have := c3t (by simp [hok])
        simp [Thread.pos, Frame.pos] at this
  · split at h <;> cases h <;> exact same _ _ _ rfl rfl (by simp [Nat.add_comm]) (by simp [hth, Thread.pos, Ctl.pos])
  · split at h <;> cases h <;> exact same _ _ _ rfl rfl (by simp [Nat.add_comm]) (by simp [hth, Thread.pos, Ctl.pos])
  · rename_i w
    cases h
    have hpos : ∀ t', ((({ σ with queue := σ.queue ++ [w], log := σ.log ++ [Ev.emitted w] } : St).at t (.fin true) st).thr t').pos = (σ.thr t').pos := by
      intro t'; simp only [St.at]; split
      · rename_i e; rw [e, hth]; simp [Thread.pos, Ctl.pos]
      · rfl
    refine ⟨fun hi => ?_, fun t' p hp => ?_⟩
    · have h3 := h1 fun t' => (hpos t').symm.trans (hi t')
      simp only [St.at, emitted_append, settled_append, emitted, settled, List.count_append, List.count_singleton]
      by_cases hw : w = v <;> simp [hw] <;> omega
    · have h3 := (hpos t') ▸ hp
      have h4 := h2 t' p h3
      simp only [St.at, emitted_append, settled_append, emitted, settled]
      by_cases hw : w = v
      · subst hw
        have hne := hx rfl
        cases p with
        | clear => exact absurd ⟨t', _, h3, trivial⟩ hne
        | iter acc i =>
          have hi : i ≤ σ.queue.length := Nat.le_of_not_lt fun hlt => hne ⟨t', _, h3, hlt⟩
          simp only [Pos.left, List.count_append, List.drop_append_of_le_length hi] at h4 ⊢
          simp; omega
      · cases p with
        | clear => simpa [hw, Pos.left] using h4
        | iter acc i =>
          have : ((σ.queue ++ [w]).drop i).count v = (σ.queue.drop i).count v := by
            rw [List.drop_append, List.count_append]
            have : (List.drop (i - σ.queue.length) [w]).count v = 0 := by
              rw [List.count_eq_zero]
              intro hm
              have := List.mem_of_mem_drop hm
              simp at this; exact hw this.symm
            omega
          simp only [Pos.left, List.count_append, if_neg hw] at h4 ⊢
          omega
  · cases h
    refine same _ _ _ rfl rfl ?_ (by simp [hth, Thread.pos, Ctl.pos])
    simp [emitted, settled, List.count_singleton]; omega
  · cases h; exact same _ _ _ rfl rfl (by simp [Nat.add_comm]) (by simp [hth, Thread.pos, Ctl.pos])
  · split at h <;> cases h <;> exact same _ _ _ rfl rfl (by simp [Nat.add_comm]) (by simp [hth, Thread.pos, Ctl.pos])
  · rename_i r
    have key : ∀ (c' : Ctl) (p : Pos) (σ0 : St), c'.pos = [p] → σ0.thr = σ.thr → Calm (σ0.at t c' st) →
        (emitted v σ.log = settled v σ.log + σ.queue.count v →
          emitted v σ0.log = settled v σ0.log + (p.left σ0.queue).count v) → Exact v (σ0.at t c' st) := by
      intro c' p σ0 hp hs hcalm hl
      have hn := hcalm.nested t
      have hall : ∀ t', (σ.thr t').pos = [] := by
        intro t'
        by_cases htt : t' = t
        · subst htt
          rw [hth]
          simp only [St.at, if_pos] at hn
          exact one_left hp hn
        · refine Classical.byContradiction fun hne => htt ?_
          refine hcalm.thread t' t ?_ ?_
          · simp only [St.at, if_neg htt, hs]; exact hne
          · simp [St.at, Thread.pos, hp]
      have hst : st.flatMap Frame.pos = [] := by
        have := hall t; rw [hth] at this; simpa [Thread.pos, Ctl.pos] using this
      exact move c' st σ0 p hs (by simp [Thread.pos, hp, hst]) hcalm (hl (h1 hall))
    split at h <;> cases h
    · cases r
      · exact key (.iter 0) (.iter [] 0) σ rfl rfl hc' (by simp [Pos.left])
      · exact key (.reduce [] 0) (.iter [] 0) σ rfl rfl hc' (by simp [Pos.left])
    · refine key .clear .clear _ rfl rfl hc' ?_
      intro h; simp [Pos.left, emitted, settled, h]
  · rename_i i
    have hst : st.flatMap Frame.pos = [] := one_left rfl c2t
    have hc : emitted v σ.log = settled v σ.log + (σ.queue.drop i).count v := by
      simpa [Pos.left] using h2t (.iter [] i) (by simp [Thread.pos, Ctl.pos])
    split at h <;> cases h
    · rename_i w hw
      have hd : σ.queue.drop i = w :: σ.queue.drop (i + 1) := by
        obtain ⟨hlt, rfl⟩ := List.getElem?_eq_some_iff.mp hw
        exact List.drop_eq_getElem_cons hlt
      refine move _ _ _ (.iter [] (i + 1)) rfl (by simp [Thread.pos, Ctl.pos, Frame.pos, hst]) hc' ?_
      rw [hd, List.count_cons] at hc
      simp [Pos.left, emitted, settled, List.count_singleton]; simp at hc; omega
    · rename_i hw
      have hd : σ.queue.drop i = [] := List.drop_eq_nil_of_le (List.getElem?_eq_none_iff.mp hw)
      refine move _ _ _ .clear rfl (by simp [Thread.pos, Ctl.pos, hst]) hc' ?_
      rw [hd] at hc; simpa [Pos.left] using hc
  · rename_i acc i
    have hst : st.flatMap Frame.pos = [] := one_left rfl c2t
    have hc : emitted v σ.log = settled v σ.log + (acc.count v + (σ.queue.drop i).count v) := by
      simpa [Pos.left] using h2t (.iter acc i) (by simp [Thread.pos, Ctl.pos])
    split at h
    · rename_i w hw
      cases h
      have hd : σ.queue.drop i = w :: σ.queue.drop (i + 1) := by
        obtain ⟨hlt, rfl⟩ := List.getElem?_eq_some_iff.mp hw
        exact List.drop_eq_getElem_cons hlt
      refine move _ _ _ (.iter (acc ++ [w]) (i + 1)) rfl (by simp [Thread.pos, Ctl.pos, hst]) hc' ?_
      rw [hd, List.count_cons] at hc
      simp [Pos.left, List.count_cons]; simp at hc; omega
    · rename_i hw
      have hd : σ.queue.drop i = [] := List.drop_eq_nil_of_le (List.getElem?_eq_none_iff.mp hw)
      rw [hd] at hc
      rw [if_pos (he acc)] at h
      cases h
      refine move _ _ _ .clear rfl (by simp [Thread.pos, Ctl.pos, Frame.pos, hst]) hc' ?_
      simp at hc; simp [Pos.left, emitted, settled]; omega
  · cases h
    have hst : st.flatMap Frame.pos = [] := one_left rfl c2t
    have hc : emitted v σ.log = settled v σ.log := by
      simpa [Pos.left] using h2t .clear (by simp [Thread.pos, Ctl.pos])
    refine ⟨fun _ => by simpa [St.at] using hc, fun t' p hp => ?_⟩
    simp only [St.at] at hp
    split at hp
    · simp [Thread.pos, Ctl.pos, hst] at hp
    · rename_i hne
      refine absurd (c1 t' t (List.ne_nil_of_mem hp) ?_) hne
      rw [hth]; simp [Thread.pos, Ctl.pos]

end Psygnal.Res
