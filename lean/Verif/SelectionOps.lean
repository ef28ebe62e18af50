import Verif.SelectionInv

/-!
# Selections: every operation keeps the invariant, continued (lemmas for C33)
-/

namespace Psygnal.Sel
open Psygnal.Py (M Err Key Slice)
open Psygnal.ES (Diff Story Exact)

variable {α : Type} [DecidableEq α] {c : Cfg α} {T : Prop} {s0 : St α} {p : Option (Option α)} {A R : List α} {n : Nat}

theorem toggles_to (hq : c.Quiet) (xs : List α) : ∀ {s : St α} {A R : List α}, K T s0 p A R s → (T → xs.Nodup) →
    (T → ∀ x ∈ xs, x ∉ A ∧ x ∉ R) →
    ∃ s' r, M.forEach xs (toggleOne c (updateActive c (n + 1))) s = (r, s') ∧ To T s0 p A R xs xs s s' := by
  induction xs with
  | nil => intro s A R h _ _; exact ⟨s, _, rfl, .refl h _ _⟩
  | cons x xs ih =>
    intro s A R h hn hx
    have h1 : ∃ s1 r1, toggleOne c (updateActive c (n + 1)) x s = (r1, s1) ∧ To T s0 p A R [x] [x] s s1 := by
      simp only [toggleOne, M.bind_eq, M.bind_app, M.get_app]
      by_cases hm : x ∈ s.data
      · simp only [hm, if_true]
        obtain ⟨s1, h1, ⟨⟨A1, R1, k1, hA1, hR1⟩, h3, h4⟩, _⟩ :=
          discard_to (n := n) hq h (x := x) fun hT => (hx hT x (by simp)).1
        exact ⟨s1, _, h1, ⟨A1, R1, k1, fun hT y hy => (hA1 hT y hy).imp id (by simp), hR1⟩, h3, h4⟩
      · simp only [hm, if_false]
        obtain ⟨s1, r1, h1, ⟨⟨A1, R1, k1, hA1, hR1⟩, h3, h4⟩, _⟩ :=
          add_to (n := n) hq h (x := x) fun hT => (hx hT x (by simp)).2
        exact ⟨s1, _, h1, ⟨A1, R1, k1, hA1, fun hT y hy => (hR1 hT y hy).imp id (by simp)⟩, h3, h4⟩
    obtain ⟨s1, r1, h1, ⟨⟨A1, R1, k1, hA1, hR1⟩, h3, h4⟩⟩ := h1
    simp only [M.forEach, M.bind_app, h1]
    have inc : ∀ {B B1 : List α}, (T → ∀ y ∈ B1, y ∈ B ∨ y ∈ [x]) → T → ∀ y ∈ B1, y ∈ B ∨ y ∈ x :: xs := by
      intro B B1 hB hT y hy
      rcases hB hT y hy with h | h
      · exact .inl h
      · exact .inr (by simp [List.mem_singleton.1 h])
    rcases r1 with e | _
    · exact ⟨s1, _, rfl, ⟨⟨A1, R1, k1, inc hA1, inc hR1⟩, h3, h4⟩⟩
    · obtain ⟨s2, r2, g1, ⟨⟨A2, R2, k2, hA2, hR2⟩, g3, g4⟩⟩ := ih k1 (fun hT => (List.nodup_cons.1 (hn hT)).2) fun hT y hy => by
        have hyx : y ≠ x := by rintro rfl; exact (List.nodup_cons.1 (hn hT)).1 hy
        have := hx hT y (by simp [hy])
        refine ⟨fun hyA => ?_, fun hyR => ?_⟩
        · rcases hA1 hT y hyA with h | h
          · exact this.1 h
          · exact hyx (by simpa using h)
        · rcases hR1 hT y hyR with h | h
          · exact this.2 h
          · exact hyx (by simpa using h)
      refine ⟨s2, r2, g1, ⟨⟨A2, R2, k2, fun hT y hy => ?_, fun hT y hy => ?_⟩, g3.trans h3, g4.trans h4⟩⟩
      · rcases hA2 hT y hy with h | h
        · exact inc hA1 hT y h
        · exact .inr (by simp [h])
      · rcases hR2 hT y hy with h | h
        · exact inc hR1 hT y h
        · exact .inr (by simp [h])

/-! ## Between operations -/

/-- The invariant between operations. -/
structure Rest (T : Prop) (s0 : St α) (p : Option (Option α)) (s : St α) : Prop where
  k : K T s0 p [] [] s
  paused : s.paused = false

theorem To.rest {s s' : St α} {a r : List α} (h : To T s0 p A R a r s s') (hp : s.paused = false) : Rest T s0 p s' := by
  obtain ⟨⟨A', R', h1, _⟩, h2, _⟩ := h
  exact ⟨h1.rest (h2.trans hp), h2.trans hp⟩

omit [DecidableEq α] in
/-- The block under `paused` starts with the same invariant. -/
theorem W.pause {s : St α} (h : W T s0 [] [] s) : W T s0 [] [] { s with paused := true } :=
  ⟨h.nodup, fun hf => by simp at hf, h.cur, h.trk, h.qA, h.qR, h.qNe⟩

theorem K.pause {s : St α} (h : K T s0 p [] [] s) : K T s0 p [] [] { s with paused := true } :=
  ⟨h.w.pause, h.par, h.told, h.synced⟩

/-- The end of the block. -/
theorem withPaused_to (hq : c.Quiet) {s s1 : St α} {m : M (St α) Unit} {r : Except Err Unit} {a b : List α}
    (hp : s.paused = false) (hm : m { s with paused := true } = (r, s1))
    (h : To T s0 p [] [] a b { s with paused := true } s1) :
    ∃ s', withPaused c m s = (r, s') ∧ Rest T s0 p s' ∧ s'.parent = s.parent ∧ s'.data = s1.data ∧
      s'.active = s1.active := by
  obtain ⟨⟨A, R, ⟨⟨w1, w2, w3, w4, w5, w6, w7⟩, k2, k3, k4⟩, _⟩, _, hpar⟩ := h
  simp only [withPaused, hm, hp, Bool.false_eq_true, if_false, resume]
  by_cases hqe : s1.queue = []
  · simp only [hqe, if_true]
    refine ⟨_, rfl, ⟨⟨⟨w1, fun _ => rfl, w3, fun hT => ?_, fun _ => rfl, fun _ => rfl, by simp⟩, k2, k3, k4⟩, rfl⟩, hpar, rfl, rfl⟩
    have hA : A = [] := by rw [← w5 hT, hqe]; rfl
    have hR : R = [] := by rw [← w6 hT, hqe]; rfl
    rw [hA, hR] at w4
    exact w4 hT
  · simp only [hqe, if_false, emit_quiet hq]
    refine ⟨_, rfl, ⟨⟨⟨w1, fun _ => rfl, ?_, fun hT => ?_, fun _ => rfl, fun _ => rfl, by simp⟩, k2, ?_, k4⟩, rfl⟩, hpar, rfl, rfl⟩
    · rw [lastCurrent_snoc]; exact w3
    · obtain ⟨base, h1, h2⟩ := w4 hT
      refine ⟨s1.data, ?_, Diff.refl w1⟩
      rw [itemsOf_append, itemsOf_items, w5 hT, w6 hT]
      refine Story.snoc h1 (h2.exact ?_)
      rcases hs : s1.queue with _ | ⟨q, qs⟩
      · exact absurd hs hqe
      · have := w7 hT q (by simp [hs])
        rw [← w5 hT, ← w6 hT, hs]
        simp only [List.flatMap_cons]
        exact this.imp (fun h e => h (List.append_eq_nil_iff.1 e).1) fun h e => h (List.append_eq_nil_iff.1 e).1
    · exact k3.imp id fun ⟨t1, t2⟩ => ⟨by rw [lastActive_snoc]; exact t1, t2⟩

/-- `EventedSet.clear`. -/
theorem baseClear_to (hq : c.Quiet) {s : St α} (hp : s.paused = false) (hw : W T s0 [] [] s) (hpar : Par s)
    (ht : Pend p s ∨ s.active = lastActive s0.active s.log) (hs : Pend p s ∨ Synced s) :
    ∃ s', baseClear c (updateActive c (n + 1)) s = (.ok (), s') ∧ Rest T s0 p s' ∧ s'.parent = s.parent ∧ s'.data = [] ∧
      (Synced s → Synced s') := by
  simp only [baseClear]
  by_cases hd : s.data = []
  · have hk : K T s0 p [] [] s := by
      refine ⟨hw, hpar, ?_, hs⟩
      rcases hs with hs | hs
      · exact .inl hs
      · refine ht.imp id fun h => ⟨h, fun x hx => ?_⟩
        have := (hs x).1 hx
        simp [hd] at this
    obtain ⟨s', h1, h2, h3, h4, h5⟩ := withPaused_to (c := c) (m := do
      let s ← M.get
      if s.data = [] then pure () else do
        M.modify fun s => { s with data := [] }
        emitChange c (updateActive c (n + 1)) [] s.data) (r := .ok ()) hq hp
      (by simp only [M.bind_eq, M.bind_app, M.get_app, hd, if_true]; rfl) (.refl hk.pause [] [])
    refine ⟨s', h1, h2, h3, h4.trans hd, fun h x => ?_⟩
    rw [h4, h5]
    exact h x
  · have hmid : Mid T s0 p [] [] [] s.data { s with data := [], paused := true } := by
      refine ⟨by simp, fun hf => by simp at hf, hw.cur, fun hT => ?_, hw.qA, hw.qR, hw.qNe, .inr hd, ?_, ?_⟩
      · obtain ⟨base, h1, h2⟩ := hw.trk hT
        refine ⟨base, h1, ⟨by simp, by simpa using hw.nodup, by simp, ?_, ?_, by simp⟩⟩
        · intro y hy
          have := (h2.mem y).1 (by simpa using hy)
          simpa using this
        · intro y
          have := h2.mem y
          simp only [List.not_mem_nil, not_false_eq_true, and_true, or_false] at this
          simp [this]
      · intro x hx; simp at hx
      · exact ht.imp id fun h => ⟨h, fun x _ hx => by simp at hx⟩
    obtain ⟨s1, h1, ⟨⟨A', R', k, kA, kR⟩, h3, h4⟩, h5, h6⟩ := emitChange_to (n := n) hq hmid
    obtain ⟨s', g1, g2, g3, g4, g5⟩ := withPaused_to (c := c) (m := do
      let s ← M.get
      if s.data = [] then pure () else do
        M.modify fun s => { s with data := [] }
        emitChange c (updateActive c (n + 1)) [] s.data) (r := .ok ()) (s1 := s1) (T := T) (s0 := s0) (p := p) (a := []) (b := s.data) hq hp
      (by simp only [M.bind_eq, M.bind_app, M.get_app, hd, if_false, M.modify_app]; exact h1) ⟨⟨A', R', k, kA, kR⟩, h3, h4⟩
    refine ⟨s', g1, g2, g3, g4.trans h6, fun _ x => ?_⟩
    rw [g4, g5]
    exact h5 x

/-- `clear`. -/
theorem clear_to (hq : c.Quiet) {s : St α} (h : Rest T s0 p s) (keep : Bool) :
    ∃ s', clear c (updateActive c (n + 1)) keep s = (.ok (), s') ∧ Rest T s0 p s' ∧ s'.parent = s.parent ∧ s'.data = [] ∧
      (Synced s → Synced s') := by
  obtain ⟨⟨hw, hpar, ht, hs⟩, hp⟩ := h
  cases keep
  · have e : clear c (updateActive c (n + 1)) false s = baseClear c (updateActive c (n + 1)) (setCurrent c none s).2 := by
      simp only [clear, Bool.false_eq_true, if_false, M.bind_eq, M.bind_app, setCurrent_quiet hq]
    rw [e, setCurrent_quiet hq]
    by_cases hc : none = s.current
    · rw [if_pos hc]
      exact baseClear_to hq hp hw hpar (ht.imp id fun h => h.1) hs
    · rw [if_neg hc]
      refine baseClear_to hq (s := { s with current := none, log := s.log ++ [(.current none, s.data)] }) hp ?_ hpar ?_ hs
      · refine hw.other rfl rfl rfl ?_ ?_
        · simp [itemsOf_append, itemsOf_current]
        · rw [lastCurrent_snoc]
      · exact ht.imp id fun h => by rw [lastActive_snoc]; exact h.1
  · exact baseClear_to hq hp hw hpar (ht.imp id fun h => h.1) hs

theorem update_to (hq : c.Quiet) {s : St α} (h : Rest T s0 p s) (o : List (List α)) :
    ∃ s' r, update c (updateActive c (n + 1)) o s = (r, s') ∧ Rest T s0 p s' ∧ s'.parent = s.parent := by
  obtain ⟨s1, r, h1, h2⟩ := adds_to (n := n) hq o.flatten h.k.pause (by simp)
  obtain ⟨s', g1, g2, g3, _⟩ := withPaused_to hq h.paused h1 h2
  exact ⟨s', r, g1, g2, g3⟩

theorem differenceUpdate_to (hq : c.Quiet) {s : St α} (h : Rest T s0 p s) (o : List (List α)) :
    ∃ s' r, differenceUpdate c (updateActive c (n + 1)) o s = (r, s') ∧ Rest T s0 p s' ∧ s'.parent = s.parent := by
  obtain ⟨s1, h1, h2, _⟩ := discards_to (n := n) hq o.flatten h.k.pause (by simp)
  obtain ⟨s', g1, g2, g3, _⟩ := withPaused_to hq h.paused h1 h2
  exact ⟨s', _, g1, g2, g3⟩

theorem differenceUpdateSelf_to (hq : c.Quiet) {s : St α} (h : Rest T s0 p s) :
    ∃ s' r, differenceUpdateSelf c (updateActive c (n + 1)) s = (r, s') ∧ Rest T s0 p s' ∧ s'.parent = s.parent := by
  simp only [differenceUpdateSelf]
  rcases hd : s.data with _ | ⟨x, l⟩
  · obtain ⟨s', g1, g2, g3, _⟩ := withPaused_to (c := c) (m := do
      let s ← M.get
      match s.data with
      | [] => pure ()
      | x :: _ => do
        discard c (updateActive c (n + 1)) x
        M.raise .runtime) (r := .ok ()) hq h.paused
      (by simp only [M.bind_eq, M.bind_app, M.get_app, hd]; rfl) (.refl h.k.pause [] [])
    exact ⟨s', _, g1, g2, g3⟩
  · obtain ⟨s1, h1, h2, _⟩ := discard_to (n := n) hq h.k.pause (x := x) (by simp)
    obtain ⟨s', g1, g2, g3, _⟩ := withPaused_to (c := c) (m := do
      let s ← M.get
      match s.data with
      | [] => pure ()
      | x :: _ => do
        discard c (updateActive c (n + 1)) x
        M.raise .runtime) (r := .error .runtime) hq h.paused
      (by simp only [M.bind_eq, M.bind_app, M.get_app, hd] at h1 ⊢; rw [h1]; rfl) h2
    exact ⟨s', _, g1, g2, g3⟩

theorem intersectionUpdate_to (hq : c.Quiet) {s : St α} (h : Rest T s0 p s) (o : List (List α)) :
    ∃ s' r, intersectionUpdate c (updateActive c (n + 1)) o s = (r, s') ∧ Rest T s0 p s' ∧ s'.parent = s.parent ∧
      (o ≠ [] → r = .ok () ∧ (∀ y, y ∈ s'.data ↔ y ∈ s.data ∧ ∀ l ∈ o, y ∈ l) ∧
        ((∃ y ∈ s.data, y ∉ s'.data) ∨ Synced s → Synced s')) := by
  simp only [intersectionUpdate]
  by_cases ho : o = []
  · simp only [ho, if_true]
    obtain ⟨s', g1, g2, g3, _⟩ := withPaused_to (c := c) (m := M.raise .type) (r := .error .type) hq h.paused rfl (.refl h.k.pause [] [])
    exact ⟨s', _, g1, g2, g3, by simp⟩
  · simp only [ho, if_false]
    obtain ⟨s1, h1, h2, h3, h4⟩ := discards_to (n := n) hq (s.data.filter fun x => !o.all (x ∈ ·)) h.k.pause (by simp)
    obtain ⟨s', g1, g2, g3, g4, g5⟩ := withPaused_to (c := c) (m := do
      let s ← M.get
      M.forEach (s.data.filter fun x => !o.all (x ∈ ·)) (discard c (updateActive c (n + 1)))) hq h.paused h1 h2
    have hmem : ∀ y, y ∈ s'.data ↔ y ∈ s.data ∧ ∀ l ∈ o, y ∈ l := by
      intro y
      rw [g4, h3]
      simp only [List.mem_filter, Bool.not_eq_true', List.all_eq_false, decide_eq_true_eq, not_and, not_exists, Decidable.not_not]
      constructor
      · rintro ⟨a, b⟩; exact ⟨a, b a⟩
      · rintro ⟨a, b⟩; exact ⟨a, fun _ => b⟩
    refine ⟨s', _, g1, g2, g3, fun _ => ⟨rfl, hmem, fun hc x => ?_⟩⟩
    rw [g4, g5]
    refine h4 ?_ x
    refine hc.imp (fun ⟨y, hy, hyn⟩ => ⟨y, ?_, hy⟩) fun h x => h x
    rw [g4, h3] at hyn
    exact Decidable.not_not.1 fun hf => hyn ⟨hy, hf⟩

theorem symmetricDifferenceUpdate_to (hq : c.Quiet) {s : St α} (h : Rest T s0 p s) {xs : List α} (hn : T → xs.Nodup) :
    ∃ s' r, symmetricDifferenceUpdate c (updateActive c (n + 1)) xs s = (r, s') ∧ Rest T s0 p s' ∧ s'.parent = s.parent := by
  obtain ⟨s1, r, h1, h2⟩ := toggles_to (n := n) hq xs h.k.pause hn (by simp)
  obtain ⟨s', g1, g2, g3, _⟩ := withPaused_to hq h.paused h1 h2
  exact ⟨s', r, g1, g2, g3⟩

/-- `select_only`. -/
theorem selectOnly_to (hq : c.Quiet) {s : St α} (h : Rest T s0 p s) (x : α) :
    ∃ s' r, selectOnly c (updateActive c (n + 1)) x s = (r, s') ∧ Rest T s0 p s' ∧ s'.parent = s.parent ∧
      (s.inParent x = true → r = .ok () ∧ s'.data = [x]) ∧
      (s.inParent x = false → r = .error .value ∧ s'.data = [] ∧ (s.data ≠ [] ∨ Synced s → Synced s')) := by
  obtain ⟨s1, r, h1, h2, h3, h4⟩ := intersectionUpdate_to (n := n) hq h [[x]]
  obtain ⟨rfl, h5, h6⟩ := h4 (by simp)
  have h5' : ∀ y, y ∈ s1.data ↔ y ∈ s.data ∧ y = x := by simpa using h5
  obtain ⟨s2, r2, g1, g2, g3, g4, g5⟩ := add_to (n := n) hq h2.k (x := x) (by simp)
  simp only [selectOnly, M.bind_eq, M.bind_app, h1, g1]
  have hip : s1.inParent x = s.inParent x := by simp [St.inParent, h3]
  refine ⟨s2, r2, rfl, g2.rest h2.paused, g2.parent.trans h3, fun hi => ?_, fun hi => ?_⟩
  · obtain ⟨rfl, e⟩ := g3 (hip.trans hi)
    refine ⟨rfl, ?_⟩
    have hn := h2.k.w.nodup
    rw [e]
    rcases hd : s1.data with _ | ⟨y, _ | ⟨z, l⟩⟩
    · simp
    · have : y = x := ((h5' y).1 (by simp [hd])).2
      simp [this]
    · have e1 : y = x := ((h5' y).1 (by simp [hd])).2
      have e2 : z = x := ((h5' z).1 (by simp [hd])).2
      rw [hd, e1, e2] at hn
      simp at hn
  · obtain ⟨rfl, he⟩ := g4 (hip.trans hi)
    rw [he]
    have hx : x ∉ s.data := fun hm => by
      have := h.k.par x hm
      rw [hi] at this
      cases this
    have hd : s1.data = [] := by
      rcases hd : s1.data with _ | ⟨y, l⟩
      · rfl
      · have := (h5' y).1 (by simp [hd])
        exact absurd (this.2 ▸ this.1) hx
    refine ⟨rfl, hd, fun hc => h6 ?_⟩
    refine hc.imp (fun hne => ?_) id
    rcases hds : s.data with _ | ⟨y, l⟩
    · exact absurd hds hne
    · exact ⟨y, by simp, by simp [hd]⟩

theorem K.pend {s : St α} (h : K T s0 none [] [] s) (v : Option α) : K T s0 (some v) [] [] { s with active := v } :=
  ⟨⟨h.w.nodup, h.w.rest, h.w.cur, h.w.trk, h.w.qA, h.w.qR, h.w.qNe⟩, h.par, .inl rfl, .inl rfl⟩

/-- The end of the setter of `active`. -/
theorem finish_to (hq : c.Quiet) {s : St α} (h : Rest T s0 p s) (hs : Synced s) :
    ∃ s', (M.bind (setCurrent c s.active) fun _ => emit c (.active s.active)) s = (.ok (), s') ∧ Rest T s0 none s' ∧
      s'.parent = s.parent ∧ s'.data = s.data := by
  obtain ⟨⟨hw, hpar, _, _⟩, hp⟩ := h
  simp only [M.bind_app, setCurrent_quiet hq, emit_quiet hq]
  by_cases hc : s.active = s.current
  · rw [if_pos hc]
    refine ⟨_, rfl, ⟨⟨hw.other rfl rfl rfl ?_ ?_, hpar, .inr ⟨?_, ?_⟩, .inr hs⟩, hp⟩, rfl, rfl⟩
    · simp [itemsOf_append, itemsOf_active]
    · rw [lastCurrent_snoc]; exact hw.cur
    · rw [lastActive_snoc]
    · exact fun x hx => hc ▸ hx
  · rw [if_neg hc]
    refine ⟨_, rfl, ⟨⟨hw.other rfl rfl rfl ?_ ?_, hpar, .inr ⟨?_, ?_⟩, .inr hs⟩, hp⟩, rfl, rfl⟩
    · rw [itemsOf_append, itemsOf_append, itemsOf_active, itemsOf_current]; simp
    · rw [lastCurrent_snoc, lastCurrent_snoc]
    · rw [lastActive_snoc]
    · exact fun x hx => hx

/-- The setter of `active`. -/
theorem setActive_to (hq : c.Quiet) {s : St α} (h : Rest T s0 none s) (v : Option α)
    (hb : ∀ x, v = some x → s.inParent x = false → s.data ≠ []) :
    ∃ s' r, setActive c (updateActive c (n + 1)) v s = (r, s') ∧ Rest T s0 none s' ∧ s'.parent = s.parent ∧
      (∀ x, v = some x → s.inParent x = true → r = .ok () ∧ s'.data = [x]) := by
  have hs : Synced s := h.k.synced.resolve_left (by simp [Pend])
  simp only [setActive, M.bind_eq, M.bind_app, M.get_app]
  by_cases hv : v = s.active
  · simp only [hv, if_true]
    exact ⟨s, _, rfl, h, rfl, fun x hx _ => ⟨rfl, (hs x).1 hx⟩⟩
  · simp only [hv, if_false, M.bind_app, M.modify_app]
    have hk := h.k.pend v
    rcases v with _ | x
    · obtain ⟨s1, h1, h2, h3, h4, _⟩ := clear_to (n := n) hq ⟨hk, h.paused⟩ false
      have ha : s1.active = none := by
        rcases h2.k.synced with h | h
        · simpa [Pend, eq_comm] using h
        · rcases hx : s1.active with _ | x
          · rfl
          · have := (h x).1 hx
            simp [h4] at this
      have hs1 : Synced s1 := fun x => by simp [ha, h4]
      obtain ⟨s', g1, g2, g3, g4⟩ := finish_to hq h2 hs1
      simp only [M.bind_app, ha] at g1
      simp only [M.bind_app, h1]
      exact ⟨s', _, g1, g2, g3.trans h3, by simp⟩
    · obtain ⟨s1, r1, h1, h2, h3, h4, h5⟩ := selectOnly_to (n := n) hq ⟨hk, h.paused⟩ x
      simp only [M.bind_app, h1]
      cases hip : s.inParent x
      · obtain ⟨rfl, h6, h7⟩ := h5 hip
        have hs1 : Synced s1 := h7 (.inl (hb x rfl hip))
        have ha : s1.active = none := by
          rcases hx : s1.active with _ | y
          · rfl
          · have := (hs1 y).1 hx
            simp [h6] at this
        refine ⟨s1, _, rfl, ⟨⟨h2.k.w, h2.k.par, .inr ?_, .inr hs1⟩, h2.paused⟩, h3, ?_⟩
        · exact h2.k.told.resolve_left (by simp [Pend, ha])
        · intro y hy hf
          obtain rfl := Option.some.inj hy
          simp [hip] at hf
      · obtain ⟨rfl, h6⟩ := h4 hip
        have ha : s1.active = some x := by
          rcases h2.k.synced with h | h
          · simpa [Pend, eq_comm] using h
          · exact (h x).2 h6
        have hs1 : Synced s1 := fun y => by simp [ha, h6]
        obtain ⟨s', g1, g2, g3, g4⟩ := finish_to hq h2 hs1
        simp only [M.bind_app, ha] at g1
        refine ⟨s', _, g1, g2, g3.trans h3, fun y hy _ => ⟨rfl, ?_⟩⟩
        rw [g4, h6, Option.some.inj hy]

/-! ## One operation -/

theorem setStep_seq {u : M (St α) Unit} {op : ES.Op α} {m : M (St α) Unit} {s s' : St α} {r : Except Err Unit} {x : ES.Res α}
    (h : m s = (r, s')) (hm : setStep c u op = (m >>= fun _ => pure x)) : (setStep c u op s).2 = s' := by
  rw [hm]
  simp only [M.bind_eq, M.bind_app, h]
  cases r <;> rfl

omit [DecidableEq α] in
theorem seq_to {m : M (St α) Unit} {s s' : St α} {r : Except Err Unit} (h : m s = (r, s')) (x : ES.Res α) :
    ((m >>= fun _ => pure x : M (St α) (ES.Res α)) s).2 = s' := by
  simp only [M.bind_eq, M.bind_app, h]
  cases r <;> rfl

theorem setStep_to (hq : c.Quiet) {s : St α} (h : Rest T s0 none s) (op : ES.Op α) (hpl : T → Op.Plain (.set op)) :
    Rest T s0 none (setStep c (updateActive c (n + 1)) op s).2 ∧
      (setStep c (updateActive c (n + 1)) op s).2.parent = s.parent := by
  cases op with
  | add x =>
    obtain ⟨s', r, h1, h2, _⟩ := add_to (n := n) hq h.k (x := x) (by simp)
    rw [setStep_seq h1 rfl]
    exact ⟨h2.rest h.paused, h2.parent⟩
  | discard x =>
    obtain ⟨s', h1, h2, _⟩ := discard_to (n := n) hq h.k (x := x) (by simp)
    rw [setStep_seq h1 rfl]
    exact ⟨h2.rest h.paused, h2.parent⟩
  | remove x =>
    have e : setStep c (updateActive c (n + 1)) (.remove x) = (do
        let s ← M.get
        if x ∈ s.data then discard c (updateActive c (n + 1)) x else M.raise .key
        pure .unit) := rfl
    rw [e]
    simp only [M.bind_eq, M.bind_app, M.get_app]
    by_cases hm : x ∈ s.data
    · simp only [hm, if_true]
      obtain ⟨s', h1, h2, _⟩ := discard_to (n := n) hq h.k (x := x) (by simp)
      simp only [M.bind_app, h1]
      exact ⟨h2.rest h.paused, h2.parent⟩
    · simp only [hm, if_false]
      exact ⟨h, rfl⟩
  | pop =>
    have e : setStep c (updateActive c (n + 1)) .pop = (do
        let s ← M.get
        match s.data with
        | [] => M.raise .key
        | x :: _ => do
          discard c (updateActive c (n + 1)) x
          pure (.item x)) := rfl
    rw [e]
    simp only [M.bind_eq, M.bind_app, M.get_app]
    rcases hd : s.data with _ | ⟨x, l⟩
    · exact ⟨h, rfl⟩
    · obtain ⟨s', h1, h2, _⟩ := discard_to (n := n) hq h.k (x := x) (by simp)
      simp only [M.bind_app, h1]
      exact ⟨h2.rest h.paused, h2.parent⟩
  | clear | isubSelf | ixorSelf =>
    obtain ⟨s', h1, h2, h3, _⟩ := clear_to (n := n) hq h false
    rw [setStep_seq h1 rfl]
    exact ⟨h2, h3⟩
  | update o =>
    obtain ⟨s', r, h1, h2, h3⟩ := update_to (n := n) hq h o
    rw [setStep_seq h1 rfl]
    exact ⟨h2, h3⟩
  | differenceUpdate o =>
    obtain ⟨s', r, h1, h2, h3⟩ := differenceUpdate_to (n := n) hq h o
    rw [setStep_seq h1 rfl]
    exact ⟨h2, h3⟩
  | differenceUpdateSelf | symmetricDifferenceUpdateSelf =>
    obtain ⟨s', r, h1, h2, h3⟩ := differenceUpdateSelf_to (n := n) hq h
    rw [setStep_seq h1 rfl]
    exact ⟨h2, h3⟩
  | intersectionUpdate o =>
    obtain ⟨s', r, h1, h2, h3, _⟩ := intersectionUpdate_to (n := n) hq h o
    rw [setStep_seq h1 rfl]
    exact ⟨h2, h3⟩
  | symmetricDifferenceUpdate xs =>
    obtain ⟨s', r, h1, h2, h3⟩ := symmetricDifferenceUpdate_to (n := n) hq h (xs := xs) hpl
    rw [setStep_seq h1 rfl]
    exact ⟨h2, h3⟩
  | ior xs =>
    obtain ⟨s', r, h1, h2⟩ := adds_to (n := n) hq xs h.k (by simp)
    rw [setStep_seq h1 rfl]
    exact ⟨h2.rest h.paused, h2.parent⟩
  | iand xs =>
    obtain ⟨s', h1, h2, _⟩ := discards_to (n := n) hq (s.data.filter (· ∉ xs)) h.k (by simp)
    have e : setStep c (updateActive c (n + 1)) (.iand xs) = (do
        let s ← M.get
        M.forEach (s.data.filter (· ∉ xs)) (discard c (updateActive c (n + 1)))
        pure .unit) := rfl
    rw [e]
    simp only [M.bind_eq, M.bind_app, M.get_app, h1]
    exact ⟨h2.rest h.paused, h2.parent⟩
  | isub xs =>
    obtain ⟨s', h1, h2, _⟩ := discards_to (n := n) hq xs h.k (by simp)
    rw [setStep_seq h1 rfl]
    exact ⟨h2.rest h.paused, h2.parent⟩
  | ixor xs =>
    obtain ⟨s', r, h1, h2⟩ := toggles_to (n := n) hq xs h.k hpl (by simp)
    rw [setStep_seq h1 rfl]
    exact ⟨h2.rest h.paused, h2.parent⟩
  | _ => exact ⟨h, rfl⟩

/-- One operation keeps the invariant. -/
theorem step_to (hd : 0 < c.depth) (hq : c.Quiet) {s : St α} (h : Rest T s0 none s) (op : Op α) (hpl : T → op.Plain)
    (hb : ¬ op.Bad s) : Rest T s0 none (step c op s).2 ∧ (step c op s).2.parent = s.parent := by
  obtain ⟨n, hn⟩ : ∃ n, c.depth = n + 1 := ⟨c.depth - 1, by omega⟩
  cases op with
  | set op => simp only [step, hn]; exact setStep_to hq h op hpl
  | setActive v =>
    obtain ⟨s', r, h1, h2, h3, _⟩ := setActive_to (n := n) hq h v fun x hx hi hd => hb ⟨x, by rw [hx], hi, hd⟩
    simp only [step, hn]; rw [seq_to h1]
    exact ⟨h2, h3⟩
  | clear k =>
    obtain ⟨s', h1, h2, h3, _⟩ := clear_to (n := n) hq h k
    simp only [step, hn]; rw [seq_to h1]
    exact ⟨h2, h3⟩
  | toggle x =>
    obtain ⟨s', r, h1, h2, h3⟩ := symmetricDifferenceUpdate_to (n := n) hq h (xs := [x]) (by simp)
    simp only [step, hn]; rw [seq_to h1]
    exact ⟨h2, h3⟩
  | selectOnly x =>
    obtain ⟨s', r, h1, h2, h3, _⟩ := selectOnly_to (n := n) hq h x
    simp only [step, hn]; rw [seq_to h1]
    exact ⟨h2, h3⟩

end Psygnal.Sel
