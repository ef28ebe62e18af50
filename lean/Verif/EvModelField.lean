import Verif.EvModelOnce

/-! # Assignments of a field when getters may raise (lemmas for C40) -/
namespace Psygnal.EM

theorem lookup_isSome {q : List (Nat × Option Nat)} {n : Nat} : (lookup q n).isSome = true ↔ ∃ o, (n, o) ∈ q := by
  simp only [lookup, Option.isSome_map, List.find?_isSome, decide_eq_true_eq]
  constructor
  · rintro ⟨⟨a, o⟩, h, rfl⟩
    exact ⟨o, h⟩
  · rintro ⟨o, h⟩
    exact ⟨_, h, rfl⟩

theorem lookup_in {q : List (Nat × Option Nat)} {n : Nat} {o : Option Nat} (h : lookup q n = some o) : (n, o) ∈ q := by
  simp only [lookup, Option.map_eq_some_iff] at h
  obtain ⟨e, h1, rfl⟩ := h
  have h2 := List.find?_some h1
  simp only [decide_eq_true_eq] at h2
  subst h2
  exact List.mem_of_find?_eq_some h1

/-- The queue after `track`: the names of `q` and `ks`, new ones with their present value. -/
theorem addQ_fold (c : Cfg) (F : Nat → Nat) : ∀ (ks : List Nat) (q : List (Nat × Option Nat)),
    (∀ e ∈ ks.foldl (addQ c F) q, e ∈ q ∨ e.2 = c.get e.1 F) ∧
    ∀ x, (x ∈ ks ∨ ∃ o, (x, o) ∈ q) → ∃ o, (x, o) ∈ ks.foldl (addQ c F) q
  | [], q => ⟨fun _ h => .inl h, fun x h => by simpa using h⟩
  | k :: ks, q => by
    obtain ⟨h1, h2⟩ := addQ_fold c F ks (addQ c F q k)
    have key : ∀ e ∈ addQ c F q k, e ∈ q ∨ e.2 = c.get e.1 F := by
      intro e he
      unfold addQ at he
      split at he
      · exact .inl he
      · rcases List.mem_append.mp he with he | he
        · exact .inl he
        · cases List.mem_singleton.mp he
          exact .inr rfl
    have key2 : ∀ x, (x = k ∨ ∃ o, (x, o) ∈ q) → ∃ o, (x, o) ∈ addQ c F q k := by
      intro x hx
      unfold addQ
      split
      · rename_i hk
        rcases hx with rfl | hx
        · exact lookup_isSome.mp hk
        · exact hx
      · rcases hx with rfl | ⟨o, hx⟩
        · exact ⟨c.get x F, by simp⟩
        · exact ⟨o, by simp [hx]⟩
    refine ⟨fun e he => ?_, fun x hx => ?_⟩
    · rcases h1 e he with h | h
      · exact key e h
      · exact .inr h
    · refine h2 x ?_
      rcases hx with hx | hx
      · rcases List.mem_cons.mp hx with rfl | hx
        · exact .inr (key2 x (.inl rfl))
        · exact .inl hx
      · exact .inr (key2 x (.inr hx))

theorem loop2_ok (c : Cfg) (F : Nat → Nat) : ∀ (q : List (Nat × Option Nat)) (acc l : List (Nat × Nat)), loop2 c F q acc = .ok l →
    (∀ e ∈ q, (c.get e.1 F).isSome = true) ∧
    ∀ e, e ∈ l ↔ e ∈ acc ∨ ∃ o, (e.1, o) ∈ q ∧ c.get e.1 F = some e.2 ∧ c.changed e.1 e.2 o = true
  | [], acc, l, h => by
    simp only [loop2, Except.ok.injEq] at h
    subst h
    simp
  | (x, old) :: q, acc, l, h => by
    simp only [loop2] at h
    cases hg : c.get x F with
    | none => rw [hg] at h; cases h
    | some v =>
      rw [hg] at h
      obtain ⟨h1, h2⟩ := loop2_ok c F q _ l h
      refine ⟨fun e he => ?_, fun e => ?_⟩
      · rcases List.mem_cons.mp he with rfl | he
        · simp [hg]
        · exact h1 e he
      · rw [h2 e]
        obtain ⟨a, b⟩ := e
        by_cases hch : c.changed x v old = true
        · rw [if_pos hch]
          simp only [List.mem_append, List.mem_cons, Prod.mk.injEq, List.not_mem_nil, or_false]
          constructor
          · rintro ((h | ⟨rfl, rfl⟩) | ⟨o, h, h3⟩)
            · exact .inl h
            · exact .inr ⟨old, .inl ⟨rfl, rfl⟩, hg, hch⟩
            · exact .inr ⟨o, .inr h, h3⟩
          · rintro (h | ⟨o, ⟨rfl, rfl⟩ | h, h3, h4⟩)
            · exact .inl (.inl h)
            · rw [hg] at h3
              cases h3
              exact .inl (.inr ⟨rfl, rfl⟩)
            · exact .inr ⟨o, h, h3, h4⟩
        · rw [if_neg hch]
          simp only [List.mem_cons, Prod.mk.injEq]
          constructor
          · rintro (h | ⟨o, h, h3⟩)
            · exact .inl h
            · exact .inr ⟨o, .inr h, h3⟩
          · rintro (h | ⟨o, ⟨rfl, rfl⟩ | h, h3, h4⟩)
            · exact .inl h
            · rw [hg] at h3
              cases h3
              exact absurd h4 hch
            · exact .inr ⟨o, h, h3, h4⟩

theorem emits_all {c : Cfg} (hcb : ∀ n x, Silent (c.cb n x)) (f : Nat) : ∀ (l : List (Nat × Nat)) (s s' : St),
    exec c f (.emits l) s = some (.ok (), s') →
    s'.log = s.log ++ l.filter (fun e => c.listens e.1) ∧ s'.F = s.F ∧ s'.queue = s.queue ∧ s'.sem = s.sem := by
  induction f with
  | zero => intro l s s' h; simp [exec] at h
  | succ f ih =>
    intro l s s' h
    cases l with
    | nil =>
      simp only [exec, Option.some.injEq, Prod.mk.injEq] at h
      obtain ⟨-, rfl⟩ := h
      simp
    | cons e l =>
      obtain ⟨n, x⟩ := e
      simp only [exec] at h
      by_cases hcf : c.conflict n = true
      · rw [if_pos hcf] at h
        cases h
      · rw [if_neg hcf] at h
        by_cases hl : c.listens n = false
        · rw [if_pos hl] at h
          obtain ⟨h1, h2⟩ := ih l _ _ h
          exact ⟨by rw [h1, List.filter_cons_of_neg (by simp [hl])], h2⟩
        · rw [if_neg hl] at h
          have hl : c.listens n = true := by simpa using hl
          rcases hx : exec c f (.prog (c.cb n x)) { s with log := s.log ++ [(n, x)] } with _ | ⟨r1, s1⟩
          · rw [hx] at h; cases h
          · rw [hx] at h
            have := exec_silent (hcb n x) _ _ _ _ hx
            subst this
            cases r1 with
            | error e => cases h
            | ok u =>
              obtain ⟨h1, h2⟩ := ih l _ _ h
              exact ⟨by rw [h1, List.filter_cons_of_pos (by simpa using hl)]; simp, h2⟩

theorem impl_field {c : Cfg} {f n v : Nat} {s s1 : St} {r : Except Err Unit} (hp : c.isProp n = false) (ht : c.tracked n = true)
    (h : exec c f (.impl n v) s = some (r, s1)) :
    (∃ e, r = .error e) ∨ ∃ w, r = .ok () ∧ s1 = { track c n s with F := fun x => if x = n then w else s.F x } := by
  rcases f with _ | _ | f
  · simp [exec] at h
  · simp only [exec] at h
    split at h
    · cases h; exact .inl ⟨_, rfl⟩
    · cases h
  · simp only [exec] at h
    split at h
    · cases h; exact .inl ⟨_, rfl⟩
    · rw [if_neg (by simp [hp])] at h
      cases hw : c.coerce n v with
      | none => rw [hw] at h; cases h; exact .inl ⟨_, rfl⟩
      | some w => rw [hw] at h; cases h; exact .inr ⟨w, rfl, rfl⟩

theorem exit_error {c : Cfg} {f : Nat} {s s' : St} {e : Err} : exec c f (.exit (.error e)) s ≠ some (.ok (), s') := by
  intro h
  cases f with
  | zero => simp [exec] at h
  | succ f =>
    simp only [exec] at h
    split at h
    · cases h
    · split at h <;> cases h

theorem check_field {c : Cfg} (ho : ∀ l, (c.order l).Perm l) (hcb : ∀ n x, Silent (c.cb n x)) {f n w : Nat} {o : Option Nat} {t s' : St}
    (hprim : t.primary = [n]) (hlook : lookup t.queue n = some o) (hget : c.get n t.F = some w)
    (h : exec c f .check t = some (.ok (), s')) :
    s'.F = t.F ∧ (c.changed n w o = true → (∀ e ∈ t.queue, e.1 ≠ n → (c.get e.1 t.F).isSome = true) ∧
      ∀ e, e.1 ≠ n → (e ∈ s'.log ↔ e ∈ t.log ∨ c.listens e.1 = true ∧
        ∃ o', (e.1, o') ∈ t.queue ∧ c.get e.1 t.F = some e.2 ∧ c.changed e.1 e.2 o' = true)) := by
  cases f with
  | zero => simp [exec] at h
  | succ f =>
  have hord : c.order t.primary = [n] := by
    rw [hprim]
    exact List.perm_singleton.mp (ho [n])
  simp only [exec, compare, hord, loop1, hlook, hget] at h
  by_cases hch : c.changed n w o = true
  · rw [if_pos hch] at h
    simp only [List.nil_append] at h
    cases hl2 : loop2 c t.F (t.queue.filter (·.1 ≠ n)) [(n, w)] with
    | error e => rw [hl2] at h; cases h
    | ok l =>
      rw [hl2] at h
      obtain ⟨a1, a2⟩ := loop2_ok c t.F _ _ _ hl2
      cases l with
      | nil => exact absurd ((a2 (n, w)).mpr (.inl (by simp))) (by simp)
      | cons e l =>
        dsimp only at h
        rcases hx : exec c f (.emits (e :: l)) { t with queue := [], primary := [], sem := t.sem + 1 } with _ | ⟨r2, s2⟩
        · rw [hx] at h; cases h
        · rw [hx] at h
          dsimp only at h
          cases r2 with
          | error e => exact absurd h exit_error
          | ok u =>
            obtain ⟨b1, b2, b3, b4⟩ := emits_all hcb _ _ _ _ hx
            cases f with
            | zero => simp [exec] at h
            | succ f =>
              simp only [exec] at h
              rw [if_pos (.inr b3)] at h
              cases h
              refine ⟨b2, fun _ => ⟨fun e he hne => a1 e (by simp [he, hne]), fun e hne => ?_⟩⟩
              show e ∈ s2.log ↔ _
              rw [b1, List.mem_append, List.mem_filter, a2 e]
              constructor
              · rintro (h | ⟨h | ⟨o', h, h2⟩, h3⟩)
                · exact .inl h
                · cases List.mem_singleton.mp h
                  exact absurd rfl hne
                · exact .inr ⟨h3, o', (List.mem_filter.mp h).1, h2⟩
              · rintro (h | ⟨h3, o', h, h2⟩)
                · exact .inl h
                · exact .inr ⟨.inr ⟨o', List.mem_filter.mpr ⟨h, by simpa using hne⟩, h2⟩, h3⟩
  · rw [if_neg hch] at h
    cases h
    exact ⟨rfl, fun h => absurd h hch⟩

/-- One assignment of a field that changes it. -/
theorem set_field {c : Cfg} (hc : c.noDeps = false) (ho : ∀ l, (c.order l).Perm l) (hcb : ∀ n x, Silent (c.cb n x))
    {f n v : Nat} {s s' : St} (hi : Idle s) (hsig : c.sig n = true) (hp : c.isProp n = false)
    (h : exec c f (.set n v) s = some (.ok (), s')) (hch : c.same n (s'.F n) (s.F n) = false) {d : Nat} (hd : d ∈ c.deps n)
    (hl : c.listens d = true) (hdn : d ≠ n) :
    ∃ y, c.get d s'.F = some y ∧ ((d, y) ∈ s'.log ↔ ∀ o, c.get d s.F = some o → c.same d y o = false) := by
  have hlive : d ∈ c.liveDeps n := by simp [Cfg.liveDeps, hd, hl]
  have htr : c.tracked n = true := by
    have : (c.liveDeps n).isEmpty = false := by
      cases hq : c.liveDeps n with
      | nil => rw [hq] at hlive; cases hlive
      | cons => rfl
    simp [Cfg.tracked, this]
  cases f with
  | zero => simp [exec] at h
  | succ f =>
  simp only [exec] at h
  rw [if_neg (by simp [hsig]), if_neg (by simp [hc])] at h
  rcases hx : exec c f (.impl n v) { s with sem := s.sem + 1 } with _ | ⟨r1, s1⟩
  · rw [hx] at h; cases h
  rw [hx] at h
  dsimp only at h
  rcases impl_field hp htr hx with ⟨e, rfl⟩ | ⟨w, rfl, rfl⟩
  · exact absurd h exit_error
  clear hx
  cases f with
  | zero => simp [exec] at h
  | succ f =>
  obtain ⟨q1, q2⟩ := addQ_fold c s.F (c.liveDeps n) (addQ c s.F s.queue n)
  have q0 : addQ c s.F s.queue n = [(n, some (s.F n))] := by simp [addQ, hi.queue, lookup, Cfg.get, hp]
  have q1 : ∀ e ∈ (c.liveDeps n).foldl (addQ c s.F) (addQ c s.F s.queue n), e.2 = c.get e.1 s.F := by
    intro e he
    rcases q1 e he with h | h
    · rw [q0] at h
      cases List.mem_singleton.mp h
      simp [Cfg.get, hp]
    · exact h
  simp only [exec, track] at h
  generalize hQ : (c.liveDeps n).foldl (addQ c s.F) (addQ c s.F s.queue n) = Q at h q1 q2
  obtain ⟨on, hon⟩ := q2 n (.inr ⟨some (s.F n), by rw [q0]; simp⟩)
  obtain ⟨od, hod⟩ := q2 d (.inl hlive)
  have hne : ¬(s.sem + 1 - 1 > 0 ∨ Q = []) := by
    rintro (h | h)
    · simp [hi.sem] at h
    · rw [h] at hon; cases hon
  rw [if_neg hne] at h
  split at h
  · cases h
  · rename_i s2 hy
    cases h
    obtain ⟨o', ho'⟩ : ∃ o, lookup Q n = some o := Option.isSome_iff_exists.mp (lookup_isSome.mpr ⟨on, hon⟩)
    have : o' = some (s.F n) := (q1 _ (lookup_in ho')).trans (by simp [Cfg.get, hp])
    subst this
    obtain ⟨k1, k2⟩ := check_field ho hcb (n := n) (w := w) (by simp [hi.primary]) ho' (by simp [Cfg.get, hp]) hy
    obtain ⟨k3, k4⟩ := k2 (by rw [k1] at hch; simpa [Cfg.changed] using hch)
    obtain ⟨y, hyy⟩ := Option.isSome_iff_exists.mp (k3 _ hod hdn)
    refine ⟨y, by rw [k1]; exact hyy, ?_⟩
    rw [k4 (d, y) hdn]
    constructor
    · rintro (h | ⟨-, o'', h1, -, h2⟩) o hd0
      · simp [hi.log] at h
      · have := q1 _ h1
        dsimp only at this
        rw [this, hd0] at h2
        simpa [Cfg.changed] using h2
    · intro h
      refine .inr ⟨hl, od, hod, hyy, ?_⟩
      rw [show od = _ from q1 _ hod]
      cases hd0 : c.get d s.F with
      | none => rfl
      | some o => simpa [Cfg.changed] using h o hd0
  · cases h

end Psygnal.EM
