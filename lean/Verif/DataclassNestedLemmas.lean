import Verif.DataclassNested
/-!
# Lemmas on listeners that assign fields
-/
namespace Psygnal.DCN
open Psygnal.DC (Val Env EqMap)

/-- The calls of listener `i` of field `f`. -/
def heard (log : List Call) (f i : Nat) : List Call := log.filter fun c => decide (c.field = f) && decide (c.slot = i)

/-- What it was told: new and old values. -/
def told (log : List Call) (f i : Nat) : List (Val × Val) := (heard log f i).map fun c => (c.new, c.old)

theorem heard_append (a b : List Call) (f i : Nat) : heard (a ++ b) f i = heard a f i ++ heard b f i := by
  simp [heard]

theorem told_append (a b : List Call) (f i : Nat) : told (a ++ b) f i = told a f i ++ told b f i := by
  simp [told, heard_append]

theorem heard_none {log : List Call} {f : Nat} (h : ∀ c ∈ log, c.field ≠ f) (i : Nat) : heard log f i = [] := by
  unfold heard
  rw [List.filter_eq_nil_iff]
  intro c hc
  simp [h c hc]

/-- Each change begins where the one before ended. -/
def Chain : Val → List Call → Val → Prop
  | v, [], w => v = w
  | v, c :: cs, w => c.old = v ∧ Chain c.new cs w

theorem Chain.append {u v w : Val} {as bs : List Call} (h : Chain u as v) (h' : Chain v bs w) : Chain u (as ++ bs) w := by
  induction as generalizing u with
  | nil => rw [show u = v from h]; exact h'
  | cons a as ih => exact ⟨h.1, ih h.2⟩

/-! ## Relations between states -/

section
variable {R : St → St → Prop} (refl : ∀ s, R s s) (trans : ∀ {a b c}, R a b → R b c → R a c)
include refl trans

theorem runWith_rel {asg : Nat → Val → Code} (ha : ∀ f v s, R s (asg f v s).2) (p : Prog) (s : St) :
    R s (runWith asg p s).2 := by
  induction p generalizing s with
  | done => exact refl s
  | raise => exact refl s
  | get f k ih => exact ih _ s
  | set f v k ih => exact trans (ha f v s) (ih _ _)

theorem assign_rel {c : Cfg} (h0 : ∀ s, R s { s with limited := true })
    (hs : ∀ run : Prog → Code, (∀ p s, R s (run p s).2) → ∀ f v s, R s (assignWith c run f v s).2) (n f : Nat) (v : Val)
    (s : St) : R s (assign c n f v s).2 := by
  induction n generalizing f v s with
  | zero => exact h0 s
  | succ n ih => exact hs _ (fun p s => runWith_rel refl trans ih p s) f v s

theorem run_rel {c : Cfg} (h0 : ∀ s, R s { s with limited := true })
    (hs : ∀ run : Prog → Code, (∀ p s, R s (run p s).2) → ∀ f v s, R s (assignWith c run f v s).2) (n : Nat) (p : Prog)
    (s : St) : R s (run c n p s).2 :=
  runWith_rel refl trans (assign_rel refl trans h0 hs n) p s

/-- A loop whose own entries do not matter. -/
theorem loop_rel {run : Prog → Code} (hr : ∀ p s, R s (run p s).2) {g : Nat} {new old : Val}
    (ls : List (List Call → Prog)) (i : Nat)
    (hl : ∀ (j : Nat) (s : St), i ≤ j → R s { s with log := s.log ++ [⟨g, j, new, old, s.vals g⟩] }) (s : St) :
    R s (loop run g new old i ls s).2 := by
  induction ls generalizing i s with
  | nil => exact refl s
  | cons l ls ih =>
    rw [loop]
    dsimp only
    have h1 := hl i s (Nat.le_refl _)
    have h2 := hr (l (s.log ++ [⟨g, i, new, old, s.vals g⟩])) { s with log := s.log ++ [⟨g, i, new, old, s.vals g⟩] }
    split
    · exact trans h1 h2
    · exact trans (trans h1 h2) (ih (i + 1) (fun j s hj => hl j s (by omega)) _)

end

/-- The state after storing. -/
def stored (c : Cfg) (f : Nat) (v : Val) (s : St) : St :=
  { s with vals := fun g => if g = f then (c.conv f v).getD (s.vals f) else s.vals g }

theorem store_snd (c : Cfg) (f : Nat) (v : Val) (s : St) : (store c f v s).2 = stored c f v s := by
  unfold store stored
  cases c.conv f v with
  | some w => rfl
  | none =>
    simp only [Option.getD_none]
    have : (fun g => if g = f then s.vals f else s.vals g) = s.vals := by
      funext g
      split
      · rename_i h; rw [h]
      · rfl
    rw [this]

/-- What an assignment does: store; compare, if there are listeners; emit, if the values differ. -/
theorem assignWith_cases (c : Cfg) (run : Prog → Code) (f : Nat) (v : Val) (s : St) :
    (c.listeners f = [] ∧ (assignWith c run f v s).2 = stored c f v s) ∨
    (c.listeners f ≠ [] ∧ ∃ m,
      ((DC.checkEq c.env s.eqmap f (s.vals f) ((stored c f v s).vals f)).1 ≠ .ok false ∧
        (assignWith c run f v s).2 = { stored c f v s with eqmap := m }) ∨
      ((DC.checkEq c.env s.eqmap f (s.vals f) ((stored c f v s).vals f)).1 = .ok false ∧
        (assignWith c run f v s).2 =
          (emit c run f ((stored c f v s).vals f) (s.vals f) { stored c f v s with eqmap := m }).2)) := by
  unfold assignWith
  split
  · rename_i h
    exact .inl ⟨by simpa using h, store_snd c f v s⟩
  · rename_i h
    refine .inr ⟨by simpa using h, (DC.checkEq c.env s.eqmap f (s.vals f) ((stored c f v s).vals f)).2, ?_⟩
    dsimp only
    rw [store_snd]
    have he : (stored c f v s).eqmap = s.eqmap := rfl
    rw [he]
    split
    · rename_i e hq
      exact .inl ⟨by rw [hq]; simp, rfl⟩
    · rename_i hq
      exact .inl ⟨by rw [hq]; simp, rfl⟩
    · rename_i hq
      refine .inr ⟨hq, ?_⟩
      split <;> rfl

/-! ## The first listener -/

/-- Comparisons tell exactly whether the values are the same. -/
def Exact (e : Env) : Prop := ∀ (m : EqMap) (f : Nat) (a b : Val), (DC.checkEq e m f a b).1 = .ok (decide (a = b))

/-- What the first listener of `f` was told leads from the values of one state to those of the other. -/
def Informed (f : Nat) (s s' : St) : Prop :=
  s'.limited = false → s.limited = false ∧ ∃ es, heard s'.log f 0 = heard s.log f 0 ++ es ∧
    Chain (s.vals f) es (s'.vals f) ∧ ∀ e ∈ es, e.now = e.new

theorem Informed.refl (f : Nat) (s : St) : Informed f s s := fun h => ⟨h, [], by simp, rfl, by simp⟩

theorem Informed.trans {f : Nat} {a b c : St} (h : Informed f a b) (h' : Informed f b c) : Informed f a c := by
  intro hl
  obtain ⟨hb, es', h1, h2, h3⟩ := h' hl
  obtain ⟨ha, es, k1, k2, k3⟩ := h hb
  refine ⟨ha, es ++ es', by rw [h1, k1, List.append_assoc], k2.append h2, ?_⟩
  intro e he
  rcases List.mem_append.mp he with he | he
  · exact k3 e he
  · exact h3 e he

theorem informed_limited (f : Nat) (s : St) : Informed f s { s with limited := true } := fun h => by cases h

/-- States that differ in what the first listener of `f` does not see. -/
theorem informed_of_eq {f : Nat} {s s' : St} (h1 : s'.limited = s.limited) (h2 : heard s'.log f 0 = heard s.log f 0)
    (h3 : s'.vals f = s.vals f) : Informed f s s' :=
  fun h => ⟨h1 ▸ h, [], by rw [h2, List.append_nil], h3.symm, by simp⟩

theorem heard_other {g j f : Nat} (h : g ≠ f ∨ j ≠ 0) (log : List Call) (new old now : Val) :
    heard (log ++ [⟨g, j, new, old, now⟩]) f 0 = heard log f 0 := by
  rw [heard_append]
  have : heard [⟨g, j, new, old, now⟩] f 0 = [] := by
    rcases h with h | h <;> simp [heard, h]
  rw [this, List.append_nil]

theorem informed_log {g j f : Nat} (h : g ≠ f ∨ j ≠ 0) (s : St) (new old now : Val) :
    Informed f s { s with log := s.log ++ [⟨g, j, new, old, now⟩] } :=
  informed_of_eq rfl (heard_other h _ _ _ _) rfl

theorem informed_emit_other {c : Cfg} {run : Prog → Code} {f g : Nat} (hr : ∀ p s, Informed f s (run p s).2) (hg : g ≠ f)
    (new old : Val) (s : St) : Informed f s (emit c run g new old s).2 := by
  unfold emit
  split
  · exact informed_limited f s
  · dsimp only
    have hl := fun t => loop_rel (R := Informed f) (Informed.refl f) Informed.trans hr (g := g) (new := new) (old := old)
      (c.listeners g) 0 (fun j s _ => informed_log (.inl hg) s _ _ _) t
    have h1 : Informed f s (s.enter g) := informed_of_eq rfl rfl rfl
    have h2 := h1.trans (hl _)
    split
    · exact h2.trans (informed_of_eq rfl rfl rfl)
    · exact h2.trans (informed_of_eq rfl rfl rfl)

theorem informed_emit_own {c : Cfg} {run : Prog → Code} {f : Nat} (hr : ∀ p s, Informed f s (run p s).2)
    (hf : c.listeners f ≠ []) {old : Val} {s s0 : St} (h1 : s.limited = s0.limited) (h2 : s.log = s0.log)
    (h3 : s0.vals f = old) : Informed f s0 (emit c run f (s.vals f) old s).2 := by
  unfold emit
  split
  · intro h; cases h
  · dsimp only
    obtain ⟨l, ls, e⟩ := List.exists_cons_of_ne_nil hf
    rw [e, loop]
    dsimp only
    have k0 : Informed f s0 { s.enter f with log := s.log ++ [⟨f, 0, s.vals f, old, s.vals f⟩] } := by
      intro h
      refine ⟨h1 ▸ h, [⟨f, 0, s.vals f, old, s.vals f⟩], ?_, ⟨h3.symm, rfl⟩, by simp⟩
      show heard (s.log ++ [_]) f 0 = _
      rw [heard_append, h2]
      simp [heard]
    have k1 := k0.trans (hr (l (s.log ++ [⟨f, 0, s.vals f, old, s.vals f⟩])) _)
    have hl := fun t => loop_rel (R := Informed f) (Informed.refl f) Informed.trans hr (g := f) (new := s.vals f)
      (old := old) ls 1 (fun j s hj => informed_log (.inr (by omega)) s _ _ _) t
    have k2 := k1.trans (hl _)
    have hle : ∀ (t : St) b, Informed f t (t.leave f b) := fun t b => informed_of_eq rfl rfl rfl
    cases hx : (run (l (s.log ++ [⟨f, 0, s.vals f, old, s.vals f⟩]))
        { s.enter f with log := s.log ++ [⟨f, 0, s.vals f, old, s.vals f⟩] }).1 with
    | error e =>
      simp only [St.enter] at hx k1 ⊢
      rw [hx]
      exact k1.trans (hle _ _)
    | ok u =>
      simp only [St.enter] at hx k2 ⊢
      rw [hx]
      dsimp only
      split
      · exact k2.trans (hle _ _)
      · exact k2.trans (hle _ _)

theorem informed_assign {c : Cfg} (he : Exact c.env) {f : Nat} (hf : c.listeners f ≠ []) (run : Prog → Code)
    (hr : ∀ p s, Informed f s (run p s).2) (g : Nat) (v : Val) (s : St) : Informed f s (assignWith c run g v s).2 := by
  by_cases hg : g = f
  · subst hg
    rcases assignWith_cases c run g v s with ⟨h, _⟩ | ⟨_, m, ⟨hq, h⟩ | ⟨_, h⟩⟩
    · exact absurd h hf
    · rw [h]
      rw [he] at hq
      refine informed_of_eq rfl rfl ?_
      by_cases hv : s.vals g = (stored c g v s).vals g
      · exact hv.symm
      · simp [hv] at hq
    · rw [h]
      exact informed_emit_own (c := c) hr hf (s := { stored c g v s with eqmap := m }) rfl rfl rfl
  · have hst : ∀ m, Informed f s { stored c g v s with eqmap := m } := by
      intro m
      refine informed_of_eq rfl rfl ?_
      show (if f = g then _ else s.vals f) = s.vals f
      rw [if_neg (Ne.symm hg)]
    rcases assignWith_cases c run g v s with ⟨_, h⟩ | ⟨_, m, ⟨_, h⟩ | ⟨_, h⟩⟩
    · rw [h]; exact hst s.eqmap
    · rw [h]; exact hst m
    · rw [h]; exact (hst m).trans (informed_emit_other hr hg _ _ _)

theorem run_informed {c : Cfg} (he : Exact c.env) {f : Nat} (hf : c.listeners f ≠ []) (n : Nat) (p : Prog) (s : St) :
    Informed f s (run c n p s).2 :=
  run_rel (Informed.refl f) Informed.trans (informed_limited f) (fun run hr g v s => informed_assign he hf run hr g v s) n p s

/-! ## All listeners -/

/-- Between the two states all listeners of `f` were told the same, in some order, unless an emission failed. -/
def Balanced (c : Cfg) (f : Nat) (s s' : St) : Prop :=
  s'.failed f = false → s.failed f = false ∧ ∃ d, s'.log = s.log ++ d ∧
    ∃ e, ∀ i < (c.listeners f).length, (told d f i).Perm e

theorem Balanced.refl (c : Cfg) (f : Nat) (s : St) : Balanced c f s s :=
  fun h => ⟨h, [], by simp, [], fun _ _ => by simp [told, heard]⟩

theorem Balanced.trans {c : Cfg} {f : Nat} {x y z : St} (h : Balanced c f x y) (h' : Balanced c f y z) : Balanced c f x z := by
  intro hz
  obtain ⟨hy, d', h1, e', h2⟩ := h' hz
  obtain ⟨hx, d, k1, e, k2⟩ := h hy
  refine ⟨hx, d ++ d', by rw [h1, k1, List.append_assoc], e ++ e', fun i hi => ?_⟩
  rw [told_append]
  exact (k2 i hi).append (h2 i hi)

theorem balanced_of_eq {c : Cfg} {f : Nat} {s s' : St} (h1 : s'.failed f = s.failed f) (h2 : s'.log = s.log) :
    Balanced c f s s' :=
  fun h => ⟨h1 ▸ h, [], by simp [h2], [], fun _ _ => by simp [told, heard]⟩

theorem told_other {g f : Nat} (h : g ≠ f) (j : Nat) (new old now : Val) (i : Nat) :
    told [⟨g, j, new, old, now⟩] f i = [] := by
  simp [told, heard, h]

theorem told_own (f j : Nat) (new old now : Val) (i : Nat) :
    told [⟨f, j, new, old, now⟩] f i = if j = i then [(new, old)] else [] := by
  by_cases h : j = i <;> simp [told, heard, h]

theorem balanced_log {c : Cfg} {g f : Nat} (h : g ≠ f) (j : Nat) (s : St) (new old now : Val) :
    Balanced c f s { s with log := s.log ++ [⟨g, j, new, old, now⟩] } :=
  fun hs => ⟨hs, _, rfl, [], fun i _ => by rw [told_other h]⟩

/-- The loop over the listeners of the field itself. -/
theorem balanced_loop {c : Cfg} {run : Prog → Code} {f : Nat} (hr : ∀ p s, Balanced c f s (run p s).2) (new old : Val)
    (ls : List (List Call → Prog)) (j : Nat) (hj : j + ls.length = (c.listeners f).length) (s : St)
    (hok : (loop run f new old j ls s).1 = .ok ()) (hf : (loop run f new old j ls s).2.failed f = false) :
    s.failed f = false ∧ ∃ d, (loop run f new old j ls s).2.log = s.log ++ d ∧
      ∃ e, ∀ i < (c.listeners f).length, (told d f i).Perm ((if j ≤ i then [(new, old)] else []) ++ e) := by
  induction ls generalizing j s with
  | nil =>
    refine ⟨hf, [], by simp [loop], [], fun i hi => ?_⟩
    rw [if_neg (by simp at hj; omega)]
    simp [told, heard]
  | cons l ls ih =>
    rw [loop] at hok hf ⊢
    dsimp only at hok hf ⊢
    have hb := hr (l (s.log ++ [⟨f, j, new, old, s.vals f⟩])) { s with log := s.log ++ [⟨f, j, new, old, s.vals f⟩] }
    cases hx : (run (l (s.log ++ [⟨f, j, new, old, s.vals f⟩]))
        { s with log := s.log ++ [⟨f, j, new, old, s.vals f⟩] }).1 with
    | error e => rw [hx] at hok; cases hok
    | ok u =>
      rw [hx] at hok hf
      dsimp only at hok hf ⊢
      obtain ⟨h1, d2, h2, e2, h3⟩ := ih (j + 1) (by simp at hj; omega) _ hok hf
      obtain ⟨k1, d1, k2, e1, k3⟩ := hb h1
      refine ⟨k1, [⟨f, j, new, old, s.vals f⟩] ++ d1 ++ d2, ?_, e1 ++ e2, fun i hi => ?_⟩
      · rw [h2, k2]; simp
      · rw [told_append, told_append, told_own]
        have q1 := k3 i hi
        have q2 := h3 i hi
        by_cases hij : j = i
        · subst hij
          rw [if_pos rfl, if_pos (Nat.le_refl _)]
          rw [if_neg (by omega), List.nil_append] at q2
          have := (List.Perm.refl [(new, old)]).append (q1.append q2)
          simpa only [List.append_assoc] using this
        · rw [if_neg hij, List.nil_append]
          by_cases hle : j ≤ i
          · rw [if_pos hle]
            rw [if_pos (by omega)] at q2
            have h4 := q1.append q2
            refine h4.trans ?_
            have := (List.perm_append_comm (l₁ := e1) (l₂ := [(new, old)])).append_right e2
            simpa only [List.append_assoc] using this
          · rw [if_neg hle]
            rw [if_neg (by omega)] at q2
            simpa using q1.append q2

theorem balanced_emit {c : Cfg} {run : Prog → Code} {f : Nat} (hr : ∀ p s, Balanced c f s (run p s).2) (g : Nat)
    (new old : Val) (s : St) : Balanced c f s (emit c run g new old s).2 := by
  unfold emit
  split
  · exact balanced_of_eq rfl rfl
  · dsimp only
    by_cases hg : g = f
    · subst hg
      cases hx : (loop run g new old 0 (c.listeners g) (s.enter g)).1 with
      | error e =>
        intro h
        simp [St.leave] at h
      | ok u =>
        intro h
        have hf : (loop run g new old 0 (c.listeners g) (s.enter g)).2.failed g = false := by
          simpa [St.leave] using h
        obtain ⟨h1, d, h2, e, h3⟩ := balanced_loop hr new old (c.listeners g) 0 (by simp) _ hx hf
        exact ⟨h1, d, h2, (new, old) :: e, fun i hi => h3 i hi⟩
    · have hl := fun t => loop_rel (R := Balanced c f) (Balanced.refl c f) Balanced.trans hr (g := g) (new := new)
        (old := old) (c.listeners g) 0 (fun j s _ => balanced_log hg j s _ _ _) t
      have h1 : Balanced c f s (s.enter g) := balanced_of_eq rfl rfl
      have h2 := h1.trans (hl _)
      have hle : ∀ (t : St) b, Balanced c f t (t.leave g b) := fun t b =>
        balanced_of_eq (by show (if f = g then _ else t.failed f) = _; rw [if_neg (Ne.symm hg)]) rfl
      split
      · exact h2.trans (hle _ _)
      · exact h2.trans (hle _ _)

theorem balanced_assign {c : Cfg} {f : Nat} (run : Prog → Code) (hr : ∀ p s, Balanced c f s (run p s).2) (g : Nat)
    (v : Val) (s : St) : Balanced c f s (assignWith c run g v s).2 := by
  have hst : ∀ m, Balanced c f s { stored c g v s with eqmap := m } := fun m => balanced_of_eq rfl rfl
  rcases assignWith_cases c run g v s with ⟨_, h⟩ | ⟨_, m, ⟨_, h⟩ | ⟨_, h⟩⟩
  · rw [h]; exact hst s.eqmap
  · rw [h]; exact hst m
  · rw [h]; exact (hst m).trans (balanced_emit hr _ _ _ _)

theorem run_balanced (c : Cfg) (f n : Nat) (p : Prog) (s : St) : Balanced c f s (run c n p s).2 :=
  run_rel (Balanced.refl c f) Balanced.trans (fun _ => balanced_of_eq rfl rfl)
    (fun run hr g v s => balanced_assign run hr g v s) n p s

/-! ## Fields that are not assigned while they are reported -/

/-- Between the two states all listeners of `f` were told the same in the same order, and nothing if they were just being told of a
change, unless an emission failed or `f` was assigned by its own listeners. -/
def Ordered (c : Cfg) (f : Nat) (s s' : St) : Prop :=
  s'.depth f = s.depth f ∧
  (s'.nested f = false → s'.failed f = false → s.nested f = false ∧ s.failed f = false ∧ ∃ d, s'.log = s.log ++ d ∧
    (0 < s.depth f → ∀ x ∈ d, x.field ≠ f) ∧
    (s.depth f = 0 → ∀ i < (c.listeners f).length, told d f i = told d f 0))

theorem Ordered.refl (c : Cfg) (f : Nat) (s : St) : Ordered c f s s :=
  ⟨rfl, fun h1 h2 => ⟨h1, h2, [], by simp, by simp, fun _ _ _ => by simp [told, heard]⟩⟩

theorem Ordered.trans {c : Cfg} {f : Nat} {x y z : St} (h : Ordered c f x y) (h' : Ordered c f y z) : Ordered c f x z := by
  refine ⟨h'.1.trans h.1, fun hz1 hz2 => ?_⟩
  obtain ⟨hy1, hy2, d', h1, h2, h3⟩ := h'.2 hz1 hz2
  obtain ⟨hx1, hx2, d, k1, k2, k3⟩ := h.2 hy1 hy2
  rw [h.1] at h2 h3
  refine ⟨hx1, hx2, d ++ d', by rw [h1, k1, List.append_assoc], fun hd x hx => ?_, fun hd i hi => ?_⟩
  · rcases List.mem_append.mp hx with hx | hx
    · exact k2 hd x hx
    · exact h2 hd x hx
  · rw [told_append, told_append, k3 hd i hi, h3 hd i hi]

theorem ordered_of_eq {c : Cfg} {f : Nat} {s s' : St} (h0 : s'.depth f = s.depth f) (h1 : s'.failed f = s.failed f)
    (h2 : s'.log = s.log) (h3 : s'.nested f = s.nested f) : Ordered c f s s' :=
  ⟨h0, fun k1 k2 => ⟨h3 ▸ k1, h1 ▸ k2, [], by simp [h2], by simp, fun _ _ _ => by simp [told, heard]⟩⟩

theorem ordered_log {c : Cfg} {g f : Nat} (h : g ≠ f) (j : Nat) (s : St) (new old now : Val) :
    Ordered c f s { s with log := s.log ++ [⟨g, j, new, old, now⟩] } :=
  ⟨rfl, fun h1 h2 => ⟨h1, h2, _, rfl, fun _ x hx => by rw [List.mem_singleton] at hx; rw [hx]; exact h,
    fun _ i _ => by rw [told_other h, told_other h]⟩⟩

theorem ordered_loop {c : Cfg} {run : Prog → Code} {f : Nat} (hr : ∀ p s, Ordered c f s (run p s).2) (new old : Val)
    (ls : List (List Call → Prog)) (j : Nat) (s : St) (hd : 0 < s.depth f) :
    (loop run f new old j ls s).2.depth f = s.depth f ∧
    ((loop run f new old j ls s).1 = .ok () → (loop run f new old j ls s).2.nested f = false →
      (loop run f new old j ls s).2.failed f = false → s.nested f = false ∧ s.failed f = false ∧
      ∃ d, (loop run f new old j ls s).2.log = s.log ++ d ∧
        ∀ i, told d f i = if j ≤ i ∧ i < j + ls.length then [(new, old)] else []) := by
  induction ls generalizing j s with
  | nil =>
    refine ⟨rfl, fun _ h1 h2 => ⟨h1, h2, [], by simp [loop], fun i => ?_⟩⟩
    rw [if_neg (by simp)]
    rfl
  | cons l ls ih =>
    rw [loop]
    dsimp only
    have hb := hr (l (s.log ++ [⟨f, j, new, old, s.vals f⟩])) { s with log := s.log ++ [⟨f, j, new, old, s.vals f⟩] }
    cases hx : (run (l (s.log ++ [⟨f, j, new, old, s.vals f⟩]))
        { s with log := s.log ++ [⟨f, j, new, old, s.vals f⟩] }).1 with
    | error e => exact ⟨hb.1, fun h => by cases h⟩
    | ok u =>
      dsimp only
      have ih := ih (j + 1) (run (l (s.log ++ [⟨f, j, new, old, s.vals f⟩]))
        { s with log := s.log ++ [⟨f, j, new, old, s.vals f⟩] }).2 (by rw [hb.1]; exact hd)
      refine ⟨ih.1.trans hb.1, fun h0 h1 h2 => ?_⟩
      obtain ⟨a1, a2, d2, a3, a4⟩ := ih.2 h0 h1 h2
      obtain ⟨b1, b2, d1, b3, b4, _⟩ := hb.2 a1 a2
      refine ⟨b1, b2, [⟨f, j, new, old, s.vals f⟩] ++ d1 ++ d2, by rw [a3, b3]; simp, fun i => ?_⟩
      have hn : told d1 f i = [] := by
        rw [told, heard_none (b4 hd)]; rfl
      rw [told_append, told_append, told_own, hn, a4 i, List.length_cons]
      by_cases hij : j = i
      · rw [if_pos hij, if_neg (by omega), if_pos (by omega)]; rfl
      · rw [if_neg hij]
        by_cases hr : j + 1 ≤ i ∧ i < j + 1 + ls.length
        · rw [if_pos hr, if_pos (by omega)]; rfl
        · rw [if_neg hr, if_neg (by omega)]; rfl

theorem ordered_emit {c : Cfg} {run : Prog → Code} {f : Nat} (hr : ∀ p s, Ordered c f s (run p s).2) (g : Nat)
    (new old : Val) (s : St) : Ordered c f s (emit c run g new old s).2 := by
  unfold emit
  split
  · exact ordered_of_eq rfl rfl rfl rfl
  · dsimp only
    by_cases hg : g = f
    · subst hg
      have he : (s.enter g).depth g = s.depth g + 1 := by simp [St.enter]
      have hl := ordered_loop hr new old (c.listeners g) 0 (s.enter g) (by rw [he]; omega)
      have hdep : ∀ b, ((loop run g new old 0 (c.listeners g) (s.enter g)).2.leave g b).depth g = s.depth g := by
        intro b
        show (if g = g then _ - 1 else _) = _
        rw [if_pos rfl, hl.1, he]
        rfl
      cases hx : (loop run g new old 0 (c.listeners g) (s.enter g)).1 with
      | error e =>
        refine ⟨hdep true, fun _ h => ?_⟩
        simp [St.leave] at h
      | ok u =>
        refine ⟨hdep false, fun h1 h2 => ?_⟩
        have hf : (loop run g new old 0 (c.listeners g) (s.enter g)).2.failed g = false := by
          simpa [St.leave] using h2
        obtain ⟨a1, a2, d, a3, a4⟩ := hl.2 hx h1 hf
        simp [St.enter] at a1
        refine ⟨a1.1, a2, d, a3, fun h => absurd h (by omega), fun _ i hi => ?_⟩
        rw [a4, a4, if_pos (by omega), if_pos (by omega)]
    · have hl := fun t => loop_rel (R := Ordered c f) (Ordered.refl c f) Ordered.trans hr (g := g) (new := new)
        (old := old) (c.listeners g) 0 (fun j s _ => ordered_log hg j s _ _ _) t
      have hi : ∀ {α : Type} (x y : α), (if f = g then x else y) = y := fun x y => if_neg (Ne.symm hg)
      have h1 : Ordered c f s (s.enter g) := ordered_of_eq (hi _ _) rfl rfl (hi _ _)
      have h2 := h1.trans (hl _)
      have hle : ∀ (t : St) b, Ordered c f t (t.leave g b) := fun t b => ordered_of_eq (hi _ _) (hi _ _) rfl rfl
      split
      · exact h2.trans (hle _ _)
      · exact h2.trans (hle _ _)

theorem ordered_assign {c : Cfg} {f : Nat} (run : Prog → Code) (hr : ∀ p s, Ordered c f s (run p s).2) (g : Nat)
    (v : Val) (s : St) : Ordered c f s (assignWith c run g v s).2 := by
  have hst : ∀ m, Ordered c f s { stored c g v s with eqmap := m } := fun m => ordered_of_eq rfl rfl rfl rfl
  rcases assignWith_cases c run g v s with ⟨_, h⟩ | ⟨_, m, ⟨_, h⟩ | ⟨_, h⟩⟩
  · rw [h]; exact hst s.eqmap
  · rw [h]; exact hst m
  · rw [h]; exact (hst m).trans (ordered_emit hr _ _ _ _)

theorem run_ordered (c : Cfg) (f n : Nat) (p : Prog) (s : St) : Ordered c f s (run c n p s).2 :=
  run_rel (Ordered.refl c f) Ordered.trans (fun _ => ordered_of_eq rfl rfl rfl rfl)
    (fun run hr g v s => ordered_assign run hr g v s) n p s

/-! ## Programs that assign upwards only -/

/-- All fields the program assigns satisfy `P`. -/
inductive Prog.Sets (P : Nat → Prop) : Prog → Prop
  | done : Prog.Sets P .done
  | raise : Prog.Sets P .raise
  | get (f : Nat) (k : Val → Prog) : (∀ v, Prog.Sets P (k v)) → Prog.Sets P (.get f k)
  | set (f : Nat) (v : Val) (k : Except Err Unit → Prog) : P f → (∀ r, Prog.Sets P (k r)) → Prog.Sets P (.set f v k)

/-- Fields that are being reported have a rank below `r`. -/
def Active (rank : Nat → Nat) (r : Nat) (s : St) : Prop := ∀ g, 0 < s.depth g → rank g < r

/-- Nothing is assigned while it is reported, and no limit is reached. -/
def Calm (rank : Nat → Nat) (r : Nat) (m : Code) : Prop :=
  ∀ s, Active rank r s → (m s).2.nested = s.nested ∧ (m s).2.depth = s.depth ∧ (m s).2.limited = s.limited

theorem calm_runWith {rank : Nat → Nat} {r : Nat} {asg : Nat → Val → Code} (ha : ∀ f v, r ≤ rank f → Calm rank r (asg f v))
    {p : Prog} (hp : p.Sets (fun f => r ≤ rank f)) : Calm rank r (runWith asg p) := by
  induction hp with
  | done => exact fun s _ => ⟨rfl, rfl, rfl⟩
  | raise => exact fun s _ => ⟨rfl, rfl, rfl⟩
  | get f k _ ih => exact fun s hs => ih _ s hs
  | set f v k hf _ ih =>
    intro s hs
    obtain ⟨h1, h2, h3⟩ := ha f v hf s hs
    obtain ⟨k1, k2, k3⟩ := ih (asg f v s).1 (asg f v s).2 (by intro g hg; rw [h2] at hg; exact hs g hg)
    exact ⟨k1.trans h1, k2.trans h2, k3.trans h3⟩

theorem calm_loop {rank : Nat → Nat} {r : Nat} {run : Prog → Code} {f : Nat} (new old : Val)
    {ls : List (List Call → Prog)} (hr : ∀ l ∈ ls, ∀ log, Calm rank r (run (l log))) (j : Nat) :
    Calm rank r (loop run f new old j ls) := by
  induction ls generalizing j with
  | nil => exact fun s _ => ⟨rfl, rfl, rfl⟩
  | cons l ls ih =>
    intro s hs
    rw [loop]
    dsimp only
    obtain ⟨h1, h2, h3⟩ := hr l (by simp) (s.log ++ [⟨f, j, new, old, s.vals f⟩])
      { s with log := s.log ++ [⟨f, j, new, old, s.vals f⟩] } hs
    split
    · exact ⟨h1, h2, h3⟩
    · obtain ⟨k1, k2, k3⟩ := ih (fun l hl => hr l (by simp [hl])) (j + 1)
        (run (l (s.log ++ [⟨f, j, new, old, s.vals f⟩])) { s with log := s.log ++ [⟨f, j, new, old, s.vals f⟩] }).2
        (by intro g hg; rw [h2] at hg; exact hs g hg)
      exact ⟨k1.trans h1, k2.trans h2, k3.trans h3⟩

theorem calm_emit {c : Cfg} {rank : Nat → Nat} {r f : Nat} (hf : r ≤ rank f) (hlim : 1 ≤ c.limit) {run : Prog → Code}
    (hr : ∀ l ∈ c.listeners f, ∀ log, Calm rank (rank f + 1) (run (l log))) (new old : Val) :
    Calm rank r (emit c run f new old) := by
  intro s hs
  have h0 : s.depth f = 0 := by
    rcases Nat.eq_zero_or_pos (s.depth f) with h | h
    · exact h
    · have := hs f h; omega
  unfold emit
  rw [if_neg (by omega)]
  dsimp only
  have hact : Active rank (rank f + 1) (s.enter f) := by
    intro g hg
    by_cases h : g = f
    · subst h; omega
    · have : 0 < s.depth g := by simpa [St.enter, h] using hg
      have := hs g this
      omega
  obtain ⟨hl1, hl2, hl3⟩ := calm_loop (f := f) new old hr 0 (s.enter f) hact
  have hn : (s.enter f).nested = s.nested := by
    funext g
    simp only [St.enter]
    split
    · rename_i h; rw [h]; simp [h0]
    · rfl
  have hd : ∀ b, ((loop run f new old 0 (c.listeners f) (s.enter f)).2.leave f b).depth = s.depth := by
    intro b
    funext g
    simp only [St.leave]
    rw [hl2]
    by_cases h : g = f
    · subst h; simp [St.enter]
    · simp [h, St.enter]
  split
  · exact ⟨hl1.trans hn, hd false, hl3⟩
  · exact ⟨hl1.trans hn, hd true, hl3⟩

theorem calm_assign {c : Cfg} {rank : Nat → Nat} {top : Nat} (ht : ∀ f, rank f ≤ top) (hlim : 1 ≤ c.limit)
    (hc : ∀ f, ∀ l ∈ c.listeners f, ∀ log, (l log).Sets (fun g => rank f < rank g)) (n r f : Nat) (v : Val)
    (hf : r ≤ rank f) (hn : top < n + rank f) : Calm rank r (assign c n f v) := by
  induction n generalizing r f v with
  | zero => exact absurd (ht f) (by omega)
  | succ n ih =>
    intro s hs
    rw [show assign c (n + 1) f v s = assignWith c (runWith (assign c n)) f v s from rfl]
    rcases assignWith_cases c (runWith (assign c n)) f v s with ⟨_, h⟩ | ⟨_, m, ⟨_, h⟩ | ⟨_, h⟩⟩
    · rw [h]; exact ⟨rfl, rfl, rfl⟩
    · rw [h]; exact ⟨rfl, rfl, rfl⟩
    · rw [h]
      exact calm_emit hf hlim (fun l hl log =>
        calm_runWith (fun g w hg => ih (rank f + 1) g w hg (by omega)) (hc f l hl log)) _ _ _ hs

theorem Prog.sets_true (p : Prog) : p.Sets (fun _ => True) := by
  induction p with
  | done => exact .done
  | raise => exact .raise
  | get f k ih => exact .get f k ih
  | set f v k ih => exact .set f v k trivial ih

theorem Prog.Sets.mono {P Q : Nat → Prop} (h : ∀ f, P f → Q f) {p : Prog} (hp : p.Sets P) : p.Sets Q := by
  induction hp with
  | done => exact .done
  | raise => exact .raise
  | get f k _ ih => exact .get f k ih
  | set f v k hf _ ih => exact .set f v k (h f hf) ih

/-! ## Listeners that do not raise -/

/-- The program does not raise. -/
inductive Prog.Quiet : Prog → Prop
  | done : Prog.Quiet .done
  | get (f : Nat) (k : Val → Prog) : (∀ v, Prog.Quiet (k v)) → Prog.Quiet (.get f k)
  | set (f : Nat) (v : Val) (k : Except Err Unit → Prog) : (∀ r, Prog.Quiet (k r)) → Prog.Quiet (.set f v k)

theorem quiet_runWith (asg : Nat → Val → Code) {p : Prog} (hp : p.Quiet) (s : St) : (runWith asg p s).1 = .ok () := by
  induction hp generalizing s with
  | done => rfl
  | get f k _ ih => exact ih _ s
  | set f v k _ ih => exact ih _ _

theorem quiet_loop {run : Prog → Code} {ls : List (List Call → Prog)} (h : ∀ l ∈ ls, ∀ log s, (run (l log) s).1 = .ok ())
    (f : Nat) (new old : Val) (j : Nat) (s : St) : (loop run f new old j ls s).1 = .ok () := by
  induction ls generalizing j s with
  | nil => rfl
  | cons l ls ih =>
    rw [loop]
    dsimp only
    rw [h l (by simp)]
    exact ih (fun l hl => h l (by simp [hl])) _ _

theorem run_quiet {c : Cfg} {f : Nat} (h : ∀ l ∈ c.listeners f, ∀ log, (l log).Quiet) (n : Nat) (p : Prog) (s : St) :
    (run c n p s).2.failed f = s.failed f := by
  have hrt : ∀ {x y z : St}, y.failed f = x.failed f → z.failed f = y.failed f → z.failed f = x.failed f :=
    fun h1 h2 => h2.trans h1
  suffices H : ∀ n g v s, (assign c n g v s).2.failed f = s.failed f from
    runWith_rel (R := fun x y => y.failed f = x.failed f) (fun _ => rfl) hrt (H n) p s
  intro n
  induction n with
  | zero => intro g v s; rfl
  | succ n ih =>
    intro g v s
    have hr : ∀ p s, (runWith (assign c n) p s).2.failed f = s.failed f :=
      runWith_rel (R := fun x y => y.failed f = x.failed f) (fun _ => rfl) hrt ih
    rw [show assign c (n + 1) g v s = assignWith c (runWith (assign c n)) g v s from rfl]
    rcases assignWith_cases c (runWith (assign c n)) g v s with ⟨_, h'⟩ | ⟨_, m, ⟨_, h'⟩ | ⟨_, h'⟩⟩
    · rw [h']; rfl
    · rw [h']; rfl
    · rw [h']
      unfold emit
      split
      · rfl
      · dsimp only
        generalize hs1 : ({ stored c g v s with eqmap := m } : St) = s1
        have hl : (loop (runWith (assign c n)) g ((stored c g v s).vals g) (s.vals g) 0 (c.listeners g) (s1.enter g)).2.failed f =
            (s1.enter g).failed f :=
          loop_rel (R := fun x y => y.failed f = x.failed f) (fun _ => rfl) hrt hr (c.listeners g) 0
            (fun _ _ _ => rfl) (s1.enter g)
        have hs : (s1.enter g).failed f = s.failed f := by subst hs1; rfl
        by_cases hg : g = f
        · subst hg
          rw [quiet_loop (fun l hl log s => quiet_runWith _ (h l hl log) s)]
          simp only [St.leave, if_true, Bool.or_false]
          exact hl.trans hs
        · have hle : ∀ (t : St) b, (t.leave g b).failed f = t.failed f := fun t b => if_neg (Ne.symm hg)
          split
          · rw [hle]; exact hl.trans hs
          · rw [hle]; exact hl.trans hs

end Psygnal.DCN
