import Verif.EvModelInv

/-! # Callbacks that do not assign, and classes without dependents (lemmas for C40) -/
namespace Psygnal.EM

/-- Inside a block nothing is emitted. -/
theorem exec_quiet {c : Cfg} (hc : c.noDeps = false) (f : Nat) : ∀ (t : Task) (s : St) (r : Except Err Unit) (s' : St),
    exec c f t s = some (r, s') →
    match t with
    | .prog _ => s.sem > 0 → s'.log = s.log ∧ s'.lost = s.lost ∧ s'.sem = s.sem
    | .set _ _ => s.sem > 0 → s'.log = s.log ∧ s'.lost = s.lost ∧ s'.sem = s.sem
    | .super _ _ => s.sem > 0 → s'.log = s.log ∧ s'.lost = s.lost ∧ s'.sem = s.sem
    | .impl _ _ => s.sem > 0 → s'.log = s.log ∧ s'.lost = s.lost ∧ s'.sem = s.sem
    | .exit _ => s.sem > 1 → s'.log = s.log ∧ s'.lost = s.lost ∧ s'.sem = s.sem - 1
    | .check => True
    | .emits _ => True := by
  induction f with
  | zero => intro t s r s' h; simp [exec] at h
  | succ f ih =>
    intro t s r s' h
    cases t with
    | prog p =>
      intro hs
      cases p with
      | ret => simp only [exec, Option.some.injEq, Prod.mk.injEq] at h; obtain ⟨rfl, rfl⟩ := h; exact ⟨rfl, rfl, rfl⟩
      | raise => simp only [exec, Option.some.injEq, Prod.mk.injEq] at h; obtain ⟨rfl, rfl⟩ := h; exact ⟨rfl, rfl, rfl⟩
      | get n k =>
        simp only [exec] at h
        exact ih (.prog _) _ _ _ h hs
      | set n v k =>
        simp only [exec] at h
        rcases hx : exec c f (.set n v) s with _ | ⟨r1, s1⟩
        · rw [hx] at h; cases h
        · rw [hx] at h
          obtain ⟨i1, i2, i3⟩ := ih (.set n v) _ _ _ hx hs
          obtain ⟨j1, j2, j3⟩ := ih (.prog _) _ _ _ h (by omega)
          exact ⟨j1.trans i1, j2.trans i2, j3.trans i3⟩
    | set n v =>
      intro hs
      simp only [exec] at h
      by_cases hsig : c.sig n = false
      · rw [if_pos hsig] at h
        exact ih (.super n v) _ _ _ h hs
      · rw [if_neg hsig, if_neg (by simp [hc])] at h
        rcases hx : exec c f (.impl n v) { s with sem := s.sem + 1 } with _ | ⟨r1, s1⟩
        · rw [hx] at h; cases h
        · rw [hx] at h
          obtain ⟨i1, i2, i3⟩ := ih (.impl n v) _ _ _ hx (Nat.succ_pos _)
          have i3 : s1.sem = s.sem + 1 := i3
          obtain ⟨j1, j2, j3⟩ := ih (.exit _) _ _ _ h (by omega)
          exact ⟨j1.trans i1, j2.trans i2, by omega⟩
    | super n v =>
      intro hs
      simp only [exec] at h
      by_cases hp : c.isProp n = true
      · rw [if_pos hp] at h
        exact ih (.prog _) _ _ _ h hs
      · rw [if_neg hp] at h
        rcases hw : c.coerce n v with _ | w
        all_goals
          rw [hw] at h
          simp only [Option.some.injEq, Prod.mk.injEq] at h
          obtain ⟨rfl, rfl⟩ := h
          exact ⟨rfl, rfl, rfl⟩
    | impl n v =>
      intro hs
      simp only [exec] at h
      by_cases hd : (c.deps n).any (fun d => !c.sig d) = true
      · rw [if_pos hd] at h
        simp only [Option.some.injEq, Prod.mk.injEq] at h
        obtain ⟨rfl, rfl⟩ := h
        exact ⟨rfl, rfl, rfl⟩
      · rw [if_neg hd] at h
        by_cases ht : c.tracked n = true
        · rw [if_pos ht] at h
          have i := ih (.super n v) _ _ _ h hs
          exact i
        · rw [if_neg ht] at h
          exact ih (.super n v) _ _ _ h hs
    | exit r0 =>
      intro hs
      simp only [exec] at h
      rw [if_pos (.inl (by omega))] at h
      simp only [Option.some.injEq, Prod.mk.injEq] at h
      obtain ⟨rfl, rfl⟩ := h
      exact ⟨rfl, rfl, rfl⟩
    | check => trivial
    | emits l => trivial

/-- User code that assigns nothing. -/
inductive Silent : Prog → Prop
  | ret : Silent .ret
  | raise : Silent .raise
  | get {n k} : (∀ o, Silent (k o)) → Silent (.get n k)

theorem exec_silent {c : Cfg} {p : Prog} (hp : Silent p) : ∀ (f : Nat) (s : St) (r : Except Err Unit) (s' : St),
    exec c f (.prog p) s = some (r, s') → s' = s := by
  induction hp with
  | ret =>
    intro f s r s' h
    cases f with
    | zero => simp [exec] at h
    | succ f => simp only [exec, Option.some.injEq, Prod.mk.injEq] at h; exact h.2.symm
  | raise =>
    intro f s r s' h
    cases f with
    | zero => simp [exec] at h
    | succ f => simp only [exec, Option.some.injEq, Prod.mk.injEq] at h; exact h.2.symm
  | get _ ih =>
    intro f s r s' h
    cases f with
    | zero => simp [exec] at h
    | succ f => simp only [exec] at h; exact ih _ f s r s' h

theorem emits_silent {c : Cfg} (hcb : ∀ n x, Silent (c.cb n x)) (f : Nat) : ∀ (l : List (Nat × Nat)) (s : St)
    (r : Except Err Unit) (s' : St), exec c f (.emits l) s = some (r, s') →
    ∃ l1, l1.Sublist l ∧ (∀ e ∈ l1, c.listens e.1 = true) ∧ s'.log = s.log ++ l1 ∧ s'.F = s.F ∧ s'.queue = s.queue ∧ s'.sem = s.sem := by
  induction f with
  | zero => intro l s r s' h; simp [exec] at h
  | succ f ih =>
    intro l s r s' h
    cases l with
    | nil =>
      simp only [exec, Option.some.injEq, Prod.mk.injEq] at h
      obtain ⟨rfl, rfl⟩ := h
      exact ⟨[], .slnil, (fun _ h => by cases h), by simp, rfl, rfl, rfl⟩
    | cons e l =>
      obtain ⟨n, x⟩ := e
      simp only [exec] at h
      by_cases hcf : c.conflict n = true
      · rw [if_pos hcf] at h
        simp only [Option.some.injEq, Prod.mk.injEq] at h
        obtain ⟨rfl, rfl⟩ := h
        exact ⟨[], List.nil_sublist _, (fun _ h => by cases h), by simp, rfl, rfl, rfl⟩
      · rw [if_neg hcf] at h
        by_cases hl : c.listens n = false
        · rw [if_pos hl] at h
          obtain ⟨l1, i1, i2⟩ := ih l _ _ _ h
          exact ⟨l1, i1.cons _, i2⟩
        · rw [if_neg hl] at h
          have hl : c.listens n = true := by simpa using hl
          rcases hx : exec c f (.prog (c.cb n x)) { s with log := s.log ++ [(n, x)] } with _ | ⟨r1, s1⟩
          · rw [hx] at h; cases h
          · rw [hx] at h
            have := exec_silent (hcb n x) _ _ _ _ hx
            subst this
            cases r1 with
            | error e =>
              simp only [Option.some.injEq, Prod.mk.injEq] at h
              obtain ⟨rfl, rfl⟩ := h
              refine ⟨[(n, x)], (List.nil_sublist _).cons_cons _, ?_, rfl, rfl, rfl, rfl⟩
              intro e he
              cases List.mem_singleton.mp he
              exact hl
            | ok u =>
              obtain ⟨l1, i1, i2, i3, i4⟩ := ih l _ _ _ h
              refine ⟨(n, x) :: l1, i1.cons_cons _, ?_, ?_, i4⟩
              · intro e he
                rcases List.mem_cons.mp he with rfl | he
                · exact hl
                · exact i2 e he
              · rw [i3]; simp

/-- A model nobody is assigning to; the log starts here. -/
structure Idle (s : St) : Prop where
  sem : s.sem = 0
  queue : s.queue = []
  primary : s.primary = []
  log : s.log = []

/-- The values at the start. -/
def start (c : Cfg) (s : St) (n : Nat) : Nat := (c.get n s.F).getD 0

theorem Idle.good {c : Cfg} (hc : c.Ok) {s : St} (h : Idle s) : Good c (start c s) [] s := by
  refine ⟨?_, fun _ => ⟨?_, ?_, List.nodup_nil, (fun _ h => by cases h), ?_⟩⟩
  · refine ⟨?_, ?_, ?_, ?_, ?_, ?_, ?_, ?_⟩ <;> simp [keys, h.queue, h.primary, lookup]
  · intro n o _ _ hq
    rw [h.queue] at hq
    cases hq
  · intro n hn _ _
    obtain ⟨v, hv⟩ := hc.total n s.F hn
    rw [h.log, hv]
    simp [view, last, start, hv]
  · intro pre e post heq
    rw [h.log] at heq
    cases pre <;> cases heq

theorem Idle.before {c : Cfg} (hc : c.Ok) {s : St} (h : Idle s) (n v : Nat) : Before c (start c s) [] s (.set n v) :=
  ⟨h.good hc, fun _ => ⟨h.queue, h.primary⟩, fun _ => rfl⟩

/-- One assignment from outside, with callbacks that do not assign. -/
theorem set_silent {c : Cfg} (hc : c.Ok) (hcb : ∀ n x, Silent (c.cb n x)) {f n v : Nat} {s s' : St} {r : Except Err Unit}
    (hi : Idle s) (hsig : c.sig n = true) (h : exec c f (.set n v) s = some (r, s')) :
    (s'.log.map (·.1)).Nodup ∧ ∀ e ∈ s'.log, c.listens e.1 = true ∧ c.get e.1 s'.F = some e.2 := by
  cases f with
  | zero => simp [exec] at h
  | succ f =>
    simp only [exec] at h
    rw [if_neg (by simp [hsig]), if_neg (by simp [hc.deps])] at h
    rcases hx : exec c f (.impl n v) { s with sem := s.sem + 1 } with _ | ⟨r1, s1⟩
    · rw [hx] at h; cases h
    · rw [hx] at h
      obtain ⟨i1, i2, i3⟩ := exec_quiet hc.deps f (.impl n v) _ _ _ hx (Nat.succ_pos _)
      have i1 : s1.log = [] := i1.trans hi.log
      have i3 : s1.sem = 1 := by rw [i3]; simp [hi.sem]
      have hb : Book c s1 := (exec_ok hc f (.impl n v) [] _ _ _ hx ⟨(hi.good hc).congr rfl rfl rfl rfl rfl, Nat.succ_pos _, hsig⟩).1.1
      have hnil : ∀ s : St, s.log = [] → (s.log.map (·.1)).Nodup ∧ ∀ e ∈ s.log, c.listens e.1 = true ∧ c.get e.1 s.F = some e.2 := by
        intro s hs
        rw [hs]
        exact ⟨List.nodup_nil, fun _ h => by cases h⟩
      cases f with
      | zero => simp [exec] at h
      | succ f =>
        simp only [exec] at h
        by_cases hd : s1.sem - 1 > 0 ∨ s1.queue = []
        · rw [if_pos hd] at h
          simp only [Option.some.injEq, Prod.mk.injEq] at h
          obtain ⟨rfl, rfl⟩ := h
          exact hnil _ i1
        · rw [if_neg hd] at h
          rcases hy : exec c f .check { s1 with sem := s1.sem - 1 } with _ | ⟨r2, s2⟩
          · rw [hy] at h; cases h
          · rw [hy] at h
            have : s' = s2 := by
              cases r2 <;> simp only [Option.some.injEq, Prod.mk.injEq] at h <;> exact h.2.symm
            subst this
            cases f with
            | zero => simp [exec] at hy
            | succ f =>
              simp only [exec] at hy
              obtain ⟨P, k0, k1, k2, k3, k4⟩ := compare_eq hc (s := { s1 with sem := s1.sem - 1 })
                ⟨hb.prim, hb.pnod, hb.nod, hb.origin, hb.vals, hb.live, hb.un, hb.old⟩
              rw [k0] at hy
              cases P with
              | nil =>
                simp only [Option.some.injEq, Prod.mk.injEq] at hy
                obtain ⟨rfl, rfl⟩ := hy
                exact hnil _ i1
              | cons e l =>
                simp only at hy
                rcases hz : exec c f (.emits (e :: l)) { s1 with queue := [], primary := [], sem := s1.sem - 1 + 1 } with _ | ⟨r3, s3⟩
                · rw [hz] at hy; cases hy
                · rw [hz] at hy
                  obtain ⟨l1, j1, j2, j3, j4, j5, j6⟩ := emits_silent hcb f _ _ _ _ hz
                  have j3 : s3.log = l1 := by rw [j3]; simp [i1]
                  cases f with
                  | zero => simp [exec] at hy
                  | succ f =>
                    simp only [exec] at hy
                    rw [if_pos (.inr j5)] at hy
                    simp only [Option.some.injEq, Prod.mk.injEq] at hy
                    obtain ⟨rfl, rfl⟩ := hy
                    refine ⟨?_, ?_⟩
                    · show (s3.log.map _).Nodup
                      rw [j3]
                      exact k1.sublist (j1.map _)
                    · intro e he
                      have he : e ∈ s3.log := he
                      rw [j3] at he
                      refine ⟨j2 e he, ?_⟩
                      obtain ⟨_, _, _, hg, _⟩ := due_some.mp (k2 e (j1.subset he))
                      show c.get e.1 s3.F = some e.2
                      rw [j4]
                      exact hg

/-! ## Classes without dependents -/

/-- What is assumed about a class without dependents: values are accepted as they are or rejected. -/
structure Cfg.Plain (c : Cfg) : Prop where
  deps : c.noDeps = true
  coerce : ∀ n v w, c.coerce n v = some w → w = v
  same : ∀ n x y, c.same n x y = true ↔ x = y

/-- Fields with listeners have the value last reported; successive reports differ. -/
def Told (c : Cfg) (init : Nat → Nat) (s : St) : Prop :=
  s.lost = false →
    (∀ m, c.sig m = true → c.listens m = true → c.isProp m = false → s.F m = last init s.log m) ∧
    ∀ pre e post, s.log = pre ++ e :: post → c.isProp e.1 = false → last init pre e.1 ≠ e.2

theorem changes_append {c : Cfg} {init : Nat → Nat} {log : List (Nat × Nat)} {n x : Nat}
    (h : ∀ pre e post, log = pre ++ e :: post → c.isProp e.1 = false → last init pre e.1 ≠ e.2)
    (hx : c.isProp n = false → last init log n ≠ x) :
    ∀ pre e post, log ++ [(n, x)] = pre ++ e :: post → c.isProp e.1 = false → last init pre e.1 ≠ e.2 := by
  intro pre e post heq
  rcases List.eq_nil_or_concat post with rfl | ⟨post', y, rfl⟩
  · have := List.append_inj' heq rfl
    rw [← this.1]
    have h2 := List.cons.inj this.2
    rw [← h2.1]
    exact hx
  · have heq' : log ++ [(n, x)] = (pre ++ e :: post') ++ [y] := by rw [heq]; simp
    exact h pre e post' (List.append_inj' heq' rfl).1

theorem exec_plain {c : Cfg} (hc : c.Plain) {init : Nat → Nat} (f : Nat) : ∀ (t : Task) (s : St)
    (r : Except Err Unit) (s' : St), exec c f t s = some (r, s') →
    match t with
    | .prog _ => Told c init s → Told c init s'
    | .set _ _ => Told c init s → Told c init s'
    | .super n _ => (c.isProp n = false → c.sig n = true → c.listens n = false) → Told c init s → Told c init s'
    | .emits l => match l with
      | [(n, x)] => Told c init { s with log := if c.listens n then s.log ++ [(n, x)] else s.log } → Told c init s'
      | [] => Told c init s → Told c init s'
      | _ => True
    | _ => True := by
  induction f with
  | zero => intro t s r s' h; simp [exec] at h
  | succ f ih =>
    intro t s r s' h
    cases t with
    | prog p =>
      intro hs
      cases p with
      | ret => simp only [exec, Option.some.injEq, Prod.mk.injEq] at h; obtain ⟨rfl, rfl⟩ := h; exact hs
      | raise => simp only [exec, Option.some.injEq, Prod.mk.injEq] at h; obtain ⟨rfl, rfl⟩ := h; exact hs
      | get n k =>
        simp only [exec] at h
        exact ih (.prog _) _ _ _ h hs
      | set n v k =>
        simp only [exec] at h
        rcases hx : exec c f (.set n v) s with _ | ⟨r1, s1⟩
        · rw [hx] at h; cases h
        · rw [hx] at h
          exact ih (.prog _) _ _ _ h (ih (.set n v) _ _ _ hx hs)
    | set n v =>
      intro hs
      simp only [exec] at h
      by_cases hsig : c.sig n = false
      · rw [if_pos hsig] at h
        exact ih (.super n v) _ _ _ h (fun _ h => by rw [hsig] at h; cases h) hs
      · rw [if_neg hsig, if_pos hc.deps] at h
        by_cases hl : c.listens n = false
        · rw [if_pos hl] at h
          exact ih (.super n v) _ _ _ h (fun _ _ => hl) hs
        · rw [if_neg hl] at h
          have hl : c.listens n = true := by simpa using hl
          rcases hx : exec c f (.super n v) s with _ | ⟨r1, s1⟩
          · rw [hx] at h; cases h
          · rw [hx] at h
            by_cases hp : c.isProp n = true
            · have hs1 : Told c init s1 := ih (.super n v) _ _ _ hx (fun h => by rw [hp] at h; cases h) hs
              cases r1 with
              | error e =>
                simp only [Option.some.injEq, Prod.mk.injEq] at h
                obtain ⟨rfl, rfl⟩ := h
                exact hs1
              | ok u =>
                simp only at h
                by_cases hch : c.changed n v (c.get n s.F) = true
                · rw [if_pos hch] at h
                  refine ih (.emits [(n, v)]) _ _ _ h ?_
                  intro hlost
                  obtain ⟨h1, h2⟩ := hs1 hlost
                  simp only [hl, if_true]
                  refine ⟨?_, changes_append h2 (fun h => by rw [hp] at h; cases h)⟩
                  intro m hm hlm hpm
                  rw [last_append, if_neg]
                  · exact h1 m hm hlm hpm
                  · intro e
                    have e : n = m := e
                    rw [e, hpm] at hp; cases hp
                · rw [if_neg hch] at h
                  simp only [Option.some.injEq, Prod.mk.injEq] at h
                  obtain ⟨rfl, rfl⟩ := h
                  exact hs1
            · have hp : c.isProp n = false := by simpa using hp
              have hget : c.get n s.F = some (s.F n) := by unfold Cfg.get; rw [if_neg (by simp [hp])]
              have hsig : c.sig n = true := by simpa using hsig
              cases f with
              | zero => simp [exec] at hx
              | succ f =>
                simp only [exec] at hx
                rw [if_neg (by simp [hp])] at hx
                rcases hw : c.coerce n v with _ | w
                · rw [hw] at hx
                  simp only [Option.some.injEq, Prod.mk.injEq] at hx
                  obtain ⟨rfl, rfl⟩ := hx
                  simp only [Option.some.injEq, Prod.mk.injEq] at h
                  obtain ⟨rfl, rfl⟩ := h
                  exact hs
                · rw [hw] at hx
                  simp only [Option.some.injEq, Prod.mk.injEq] at hx
                  obtain ⟨rfl, rfl⟩ := hx
                  have hwv := hc.coerce n v w hw
                  subst hwv
                  simp only [hget] at h
                  by_cases hch : c.changed n w (some (s.F n)) = true
                  · rw [if_pos hch] at h
                    refine ih (.emits [(n, w)]) _ _ _ h ?_
                    intro hlost
                    obtain ⟨h1, h2⟩ := hs hlost
                    simp only [hl, if_true]
                    refine ⟨?_, changes_append h2 ?_⟩
                    · intro m hm hlm hpm
                      rw [last_append]
                      by_cases e : n = m
                      · subst e; simp
                      · simp only [e, Ne.symm e, if_false]
                        exact h1 m hm hlm hpm
                    · intro _ heq
                      have h3 := h1 n hsig hl hp
                      rw [h3, heq] at hch
                      simp [Cfg.changed, (hc.same n w w).mpr rfl] at hch
                  · rw [if_neg hch] at h
                    simp only [Option.some.injEq, Prod.mk.injEq] at h
                    obtain ⟨rfl, rfl⟩ := h
                    have hsame : w = s.F n := by simpa [Cfg.changed, hc.same] using hch
                    intro hlost
                    obtain ⟨h1, h2⟩ := hs hlost
                    refine ⟨?_, h2⟩
                    intro m hm hlm hpm
                    show (if m = n then w else s.F m) = _
                    by_cases e : m = n
                    · rw [if_pos e, hsame, e]; exact h1 n hsig hl hp
                    · rw [if_neg e]; exact h1 m hm hlm hpm
    | super n v =>
      intro hn hs
      simp only [exec] at h
      by_cases hp : c.isProp n = true
      · rw [if_pos hp] at h
        exact ih (.prog _) _ _ _ h hs
      · rw [if_neg hp] at h
        have hp : c.isProp n = false := by simpa using hp
        rcases hw : c.coerce n v with _ | w
        all_goals
          rw [hw] at h
          simp only [Option.some.injEq, Prod.mk.injEq] at h
          obtain ⟨rfl, rfl⟩ := h
        · exact hs
        · intro hlost
          obtain ⟨h1, h2⟩ := hs hlost
          refine ⟨?_, h2⟩
          intro m hm hlm hpm
          show (if m = n then w else s.F m) = _
          rw [if_neg]
          · exact h1 m hm hlm hpm
          · rintro rfl
            rw [hn hp hm] at hlm; cases hlm
    | impl n v => trivial
    | exit r0 => trivial
    | check => trivial
    | emits l =>
      match l, h with
      | [], h =>
        simp only [exec, Option.some.injEq, Prod.mk.injEq] at h
        obtain ⟨rfl, rfl⟩ := h
        exact id
      | [(n, x)], h =>
        intro hs
        simp only [exec] at h
        by_cases hcf : c.conflict n = true
        · rw [if_pos hcf] at h
          simp only [Option.some.injEq, Prod.mk.injEq] at h
          obtain ⟨rfl, rfl⟩ := h
          intro hlost; cases hlost
        · rw [if_neg hcf] at h
          by_cases hl : c.listens n = false
          · rw [if_pos hl] at h
            simp only [hl] at hs
            exact ih (.emits []) _ _ _ h hs
          · rw [if_neg hl] at h
            have hl : c.listens n = true := by simpa using hl
            simp only [hl, if_true] at hs
            rcases hx : exec c f (.prog (c.cb n x)) { s with log := s.log ++ [(n, x)] } with _ | ⟨r1, s1⟩
            · rw [hx] at h; cases h
            · rw [hx] at h
              have hs1 := ih (.prog _) _ _ _ hx hs
              cases r1 with
              | error e =>
                simp only [Option.some.injEq, Prod.mk.injEq] at h
                obtain ⟨rfl, rfl⟩ := h
                intro hlost; cases hlost
              | ok u => exact ih (.emits []) _ _ _ h hs1
      | _ :: _ :: _, _ => trivial

end Psygnal.EM
