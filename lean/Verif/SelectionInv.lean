import Verif.SelectionLemmas

/-!
# Selections: every operation keeps the invariant (lemmas for C33)
-/

namespace Psygnal.Sel
open Psygnal.Py (M Err Key Slice)
open Psygnal.ES (Diff Story Exact)

variable {α : Type} [DecidableEq α] {c : Cfg α} {T : Prop} {s0 : St α} {p : Option (Option α)} {A R : List α} {n : Nat}

/-- The data have been changed, the change has not been reported. -/
structure Mid (T : Prop) (s0 : St α) (p : Option (Option α)) (A R a r : List α) (s : St α) : Prop where
  nodup : s.data.Nodup
  rest : s.paused = false → s.queue = []
  cur : s.current = lastCurrent s0.current s.log
  trk : T → ∃ base, Story s0.data (itemsOf s.log) base ∧ Diff base (A ++ a) (R ++ r) s.data
  qA : T → s.queue.flatMap (·.1) = A
  qR : T → s.queue.flatMap (·.2) = R
  qNe : T → ∀ q ∈ s.queue, q.1 ≠ [] ∨ q.2 ≠ []
  ne : a ≠ [] ∨ r ≠ []
  par : Par s
  told : Pend p s ∨ Told' s0 s

/-- What an operation leads to, whatever it returns. -/
structure To (T : Prop) (s0 : St α) (p : Option (Option α)) (A R a r : List α) (s s' : St α) : Prop where
  k : ∃ A' R', K T s0 p A' R' s' ∧ (T → ∀ y ∈ A', y ∈ A ∨ y ∈ a) ∧ (T → ∀ y ∈ R', y ∈ R ∨ y ∈ r)
  paused : s'.paused = s.paused
  parent : s'.parent = s.parent

omit [DecidableEq α] in
theorem Story.snoc {old es base new} {e : List α × List α} (h : Story old es base) (hx : Exact base e new) :
    Story old (es ++ [(e, new)]) new := by
  refine ES.Story.trans h (.cons hx (.nil fun _ => Iff.rfl))

theorem emitChange_to (hq : c.Quiet) {a r : List α} {s : St α} (h : Mid T s0 p A R a r s) :
    ∃ s', emitChange c (updateActive c (n + 1)) a r s = (.ok (), s') ∧ To T s0 p A R a r s s' ∧ Synced s' ∧
      s'.data = s.data := by
  simp only [emitChange, M.bind_eq, M.bind_app, emitItems]
  rcases Bool.eq_false_or_eq_true s.paused with hpa | hpa
  rotate_left
  · rw [if_neg (by simp [hpa]), emit_quiet hq]
    have hq0 := h.rest hpa
    have hA : T → A = [] := fun hT => by rw [← h.qA hT, hq0]; rfl
    have hR : T → R = [] := fun hT => by rw [← h.qR hT, hq0]; rfl
    have hw : W T s0 [] [] { s with log := s.log ++ [(.items a r, s.data)] } := by
      refine ⟨h.nodup, h.rest, ?_, ?_, ?_, ?_, h.qNe⟩
      · rw [lastCurrent_snoc]; exact h.cur
      · intro hT
        obtain ⟨base, h1, h2⟩ := h.trk hT
        refine ⟨s.data, ?_, Diff.refl h.nodup⟩
        rw [itemsOf_append, itemsOf_items]
        rw [hA hT, hR hT] at h2
        exact Story.snoc h1 (h2.exact (by simpa using h.ne))
      · intro _; simp [hq0]
      · intro _; simp [hq0]
    have hp' : Par { s with log := s.log ++ [(.items a r, s.data)] } := h.par
    have ht' : Pend p { s with log := s.log ++ [(.items a r, s.data)] } ∨ Told' s0 { s with log := s.log ++ [(.items a r, s.data)] } :=
      h.told.imp id fun ⟨t1, t2⟩ => ⟨by rw [lastActive_snoc]; exact t1, t2⟩
    obtain ⟨k1, k2⟩ := next_K hw hp' ht'
    obtain ⟨e1, e2, e3, e4⟩ := next_same { s with log := s.log ++ [(.items a r, s.data)] }
    have e := updateActive_quiet hq n hw.rest fun x hx => hp' x (by rw [hx]; simp)
    exact ⟨_, e, ⟨⟨[], [], k1, by simp, by simp⟩, e2, e4⟩, k2, e1⟩
  · rw [if_pos hpa]
    have hw : W T s0 (A ++ a) (R ++ r) { s with queue := s.queue ++ [(a, r)] } := by
      refine ⟨h.nodup, fun hf => ?_, h.cur, h.trk, ?_, ?_, ?_⟩
      · exact absurd hf (by simp [hpa])
      · intro hT; simp [h.qA hT]
      · intro hT; simp [h.qR hT]
      · intro hT q hqm
        rcases List.mem_append.1 hqm with hqm | hqm
        · exact h.qNe hT q hqm
        · rw [List.mem_singleton.1 hqm]; exact h.ne
    have hp' : Par { s with queue := s.queue ++ [(a, r)] } := h.par
    have ht' : Pend p { s with queue := s.queue ++ [(a, r)] } ∨ Told' s0 { s with queue := s.queue ++ [(a, r)] } := h.told
    obtain ⟨k1, k2⟩ := next_K hw hp' ht'
    obtain ⟨e1, e2, e3, e4⟩ := next_same { s with queue := s.queue ++ [(a, r)] }
    have e := updateActive_quiet hq n hw.rest fun x hx => hp' x (by rw [hx]; simp)
    refine ⟨_, e, ⟨⟨_, _, k1, fun _ y hy => by simpa using hy, fun _ y hy => by simpa using hy⟩, e2, e4⟩, k2, e1⟩

/-- Outside a pause nothing is collected. -/
theorem K.rest {s : St α} (h : K T s0 p A R s) (hp : s.paused = false) : K T s0 p [] [] s := by
  obtain ⟨⟨h1, h2, h3, h4, h5, h6, h7⟩, h8, h9, h10⟩ := h
  have hq0 := h2 hp
  refine ⟨⟨h1, h2, h3, fun hT => ?_, fun _ => by simp [hq0], fun _ => by simp [hq0], h7⟩, h8, h9, h10⟩
  have hA : A = [] := by rw [← h5 hT, hq0]; rfl
  have hR : R = [] := by rw [← h6 hT, hq0]; rfl
  rw [hA, hR] at h4
  exact h4 hT

omit [DecidableEq α] in
instance : (setCfg : ES.Cfg α).Passive := ⟨rfl⟩

theorem fair : (setCfg : ES.Cfg α).Fair := fun l x => List.perm_append_singleton x l

/-- `add`. -/
theorem add_to (hq : c.Quiet) {s : St α} (h : K T s0 p A R s) {x : α} (hx : T → x ∉ R) :
    ∃ s' r, add c (updateActive c (n + 1)) x s = (r, s') ∧ To T s0 p A R [x] [] s s' ∧
      (s.inParent x = true → r = .ok () ∧ s'.data = if x ∈ s.data then s.data else s.data ++ [x]) ∧
      (s.inParent x = false → r = .error .value ∧ s' = s) ∧
      (x ∉ s.data → s.inParent x = true → Synced s') := by
  simp only [add, M.bind_eq, M.bind_app, M.get_app]
  cases hip : s.inParent x
  · exact ⟨s, _, rfl, ⟨⟨A, R, h, fun _ y hy => .inl hy, fun _ y hy => .inl hy⟩, rfl, rfl⟩, by simp, by simp, by simp⟩
  · simp only [if_true]
    by_cases hm : x ∈ s.data
    · simp only [hm, if_true]
      exact ⟨s, _, rfl, ⟨⟨A, R, h, fun _ y hy => .inl hy, fun _ y hy => .inl hy⟩, rfl, rfl⟩, by simp, by simp, by simp⟩
    · simp only [hm, if_false, M.bind_app, M.modify_app]
      have hmid : Mid T s0 p A R [x] [] { s with data := s.data ++ [x] } := by
        refine ⟨?_, h.w.rest, h.w.cur, fun hT => ?_, h.w.qA, h.w.qR, h.w.qNe, by simp, ?_, h.told.imp id Told.weaken⟩
        · exact (List.perm_append_singleton x s.data).nodup_iff.2 (List.nodup_cons.2 ⟨hm, h.w.nodup⟩)
        · obtain ⟨base, h1, h2⟩ := h.w.trk hT
          refine ⟨base, h1, ?_⟩
          rw [List.append_nil]
          exact h2.add fair hm (hx hT)
        · intro y hy
          rcases List.mem_append.1 hy with hy | hy
          · exact h.par y hy
          · rw [List.mem_singleton.1 hy]; exact hip
      obtain ⟨s', h1, ⟨h2, h3, h4⟩, h5, h6⟩ := emitChange_to (n := n) hq hmid
      exact ⟨s', _, h1, ⟨h2, h3, h4⟩, fun _ => ⟨rfl, h6⟩, by simp, fun _ _ => h5⟩

/-- `discard`, also of an item that the parent has lost. -/
theorem discard_to' (hq : c.Quiet) {s : St α} {x : α} (hw : W T s0 A R s) (hpar : ∀ y ∈ s.data, y ≠ x → s.inParent y = true)
    (ht : Pend p s ∨ Told s0 s) (hs : Pend p s ∨ Synced s) (hx : T → x ∉ A) :
    ∃ s', discard c (updateActive c (n + 1)) x s = (.ok (), s') ∧ To T s0 p A R [] [x] s s' ∧
      s'.data = s.data.erase x ∧ (x ∈ s.data ∨ Synced s → Synced s') := by
  simp only [discard, M.bind_eq, M.bind_app, M.get_app]
  by_cases hm : x ∈ s.data
  · simp only [hm, if_true, M.bind_app, M.modify_app]
    have hmid : Mid T s0 p A R [] [x] { s with data := s.data.erase x } := by
      refine ⟨hw.nodup.erase x, hw.rest, hw.cur, fun hT => ?_, hw.qA, hw.qR, hw.qNe, by simp, ?_, ht.imp id Told.weaken⟩
      · obtain ⟨base, h1, h2⟩ := hw.trk hT
        refine ⟨base, h1, ?_⟩
        rw [List.append_nil]
        exact h2.discard hm (hx hT)
      · intro y hy
        have := hw.nodup.mem_erase_iff.1 hy
        exact hpar y this.2 this.1
    obtain ⟨s', h1, ⟨h2, h3, h4⟩, h5, h6⟩ := emitChange_to (n := n) hq hmid
    exact ⟨s', h1, ⟨h2, h3, h4⟩, h6, fun _ => h5⟩
  · simp only [hm, if_false]
    refine ⟨s, rfl, ⟨⟨A, R, ⟨hw, ?_, ht, hs⟩, fun _ y hy => .inl hy, fun _ y hy => .inl hy⟩, rfl, rfl⟩, ?_, by simp⟩
    · intro y hy
      exact hpar y hy (by rintro rfl; exact hm hy)
    · rw [List.erase_of_not_mem hm]

theorem discard_to (hq : c.Quiet) {s : St α} {x : α} (h : K T s0 p A R s) (hx : T → x ∉ A) :
    ∃ s', discard c (updateActive c (n + 1)) x s = (.ok (), s') ∧ To T s0 p A R [] [x] s s' ∧
      s'.data = s.data.erase x ∧ (x ∈ s.data ∨ Synced s → Synced s') :=
  discard_to' hq h.w (fun y hy _ => h.par y hy) h.told h.synced hx

/-! ## Loops -/

theorem To.refl {s : St α} (h : K T s0 p A R s) (a r : List α) : To T s0 p A R a r s s :=
  ⟨⟨A, R, h, fun _ _ hy => .inl hy, fun _ _ hy => .inl hy⟩, rfl, rfl⟩

theorem adds_to (hq : c.Quiet) (xs : List α) : ∀ {s : St α} {A R : List α}, K T s0 p A R s → (T → ∀ x ∈ xs, x ∉ R) →
    ∃ s' r, M.forEach xs (add c (updateActive c (n + 1))) s = (r, s') ∧ To T s0 p A R xs [] s s' := by
  induction xs with
  | nil => intro s A R h _; exact ⟨s, _, rfl, .refl h _ _⟩
  | cons x xs ih =>
    intro s A R h hx
    obtain ⟨s1, r1, h1, ⟨⟨A1, R1, k1, hA1, hR1⟩, h3, h4⟩, h5, h6, h7⟩ := add_to (n := n) hq h (x := x) fun hT => hx hT x (by simp)
    simp only [M.forEach, M.bind_app, h1]
    rcases r1 with e | _
    · refine ⟨s1, _, rfl, ⟨⟨A1, R1, k1, fun hT y hy => ?_, fun hT y hy => hR1 hT y hy⟩, h3, h4⟩⟩
      rcases hA1 hT y hy with h | h
      · exact .inl h
      · exact .inr (by simp [List.mem_singleton.1 h])
    · obtain ⟨s2, r2, g1, ⟨⟨A2, R2, k2, hA2, hR2⟩, g3, g4⟩⟩ := ih k1 fun hT y hy hyR => by
        have := hR1 hT y hyR
        simp at this
        exact hx hT y (by simp [hy]) this
      refine ⟨s2, r2, g1, ⟨⟨A2, R2, k2, fun hT y hy => ?_, fun hT y hy => ?_⟩, g3.trans h3, g4.trans h4⟩⟩
      · rcases hA2 hT y hy with h | h
        · rcases hA1 hT y h with h | h
          · exact .inl h
          · exact .inr (by simp [List.mem_singleton.1 h])
        · exact .inr (by simp [h])
      · rcases hR2 hT y hy with h | h
        · exact hR1 hT y h
        · simp at h

theorem discards_to (hq : c.Quiet) (xs : List α) : ∀ {s : St α} {A R : List α}, K T s0 p A R s → (T → ∀ x ∈ xs, x ∉ A) →
    ∃ s', M.forEach xs (discard c (updateActive c (n + 1))) s = (.ok (), s') ∧ To T s0 p A R [] xs s s' ∧
      (∀ y, y ∈ s'.data ↔ y ∈ s.data ∧ y ∉ xs) ∧ ((∃ x ∈ xs, x ∈ s.data) ∨ Synced s → Synced s') := by
  induction xs with
  | nil => intro s A R h _; exact ⟨s, rfl, .refl h _ _, by simp, fun h => h.resolve_left (by simp)⟩
  | cons x xs ih =>
    intro s A R h hx
    obtain ⟨s1, h1, ⟨⟨A1, R1, k1, hA1, hR1⟩, h3, h4⟩, h5, h6⟩ := discard_to (n := n) hq h (x := x) fun hT => hx hT x (by simp)
    simp only [M.forEach, M.bind_app, h1]
    obtain ⟨s2, g1, ⟨⟨A2, R2, k2, hA2, hR2⟩, g3, g4⟩, g5, g6⟩ := ih k1 fun hT y hy hyA => by
      have := hA1 hT y hyA
      simp at this
      exact hx hT y (by simp [hy]) this
    refine ⟨s2, g1, ⟨⟨A2, R2, k2, fun hT y hy => ?_, fun hT y hy => ?_⟩, g3.trans h3, g4.trans h4⟩, ?_, ?_⟩
    · rcases hA2 hT y hy with h | h
      · exact hA1 hT y h
      · simp at h
    · rcases hR2 hT y hy with h | h
      · rcases hR1 hT y h with h | h
        · exact .inl h
        · exact .inr (by simp [List.mem_singleton.1 h])
      · exact .inr (by simp [h])
    · intro y
      rw [g5, h5, h.w.nodup.mem_erase_iff]
      simp only [List.mem_cons, not_or]
      constructor
      · rintro ⟨⟨a, b⟩, d⟩; exact ⟨b, a, d⟩
      · rintro ⟨b, a, d⟩; exact ⟨⟨a, b⟩, d⟩
    · rintro (⟨y, hy, hyd⟩ | hsy)
      · by_cases hyx : y = x
        · exact g6 (.inr (h6 (.inl (hyx ▸ hyd))))
        · exact g6 (.inl ⟨y, (List.mem_cons.1 hy).resolve_left hyx, by rw [h5]; exact h.w.nodup.mem_erase_iff.2 ⟨hyx, hyd⟩⟩)
      · exact g6 (.inr (h6 (.inr hsy)))

end Psygnal.Sel
