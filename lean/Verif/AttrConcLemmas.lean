import Verif.AttrConc

/-! # Lemmas for C92 -/
namespace Psygnal.AtC

/-- The thread of an event. -/
def Ev.thread : Ev → Nat
  | .call t _ _ => t
  | .wrote t _ _ => t
  | .told t _ _ _ _ => t
  | .same t _ _ _ _ => t

/-- The value of attribute `n` after what happened, if it was `a n` before. -/
def value (a : Nat → Nat) (n : Nat) : List Ev → Nat
  | [] => a n
  | .wrote _ m v :: l => if m = n then value (fun _ => v) n l else value a n l
  | _ :: l => value a n l

/-- No event of thread `t`. -/
def Free (t : Nat) (l : List Ev) : Prop := ∀ e ∈ l, e.thread ≠ t

theorem Free.nil (t : Nat) : Free t [] := fun _ h => nomatch h

theorem Free.snoc {t : Nat} {l : List Ev} (h : Free t l) {e : Ev} (he : e.thread ≠ t) : Free t (l ++ [e]) := by
  intro x hx
  rcases List.mem_append.mp hx with hx | hx
  · exact h x hx
  · rw [List.mem_singleton.mp hx]; exact he

theorem value_append (n : Nat) (l2 : List Ev) : ∀ (l1 : List Ev) (a : Nat → Nat), value a n (l1 ++ l2) = value (fun _ => value a n l1) n l2
  | [], a => by
    have : ∀ (l : List Ev) (a b : Nat → Nat), a n = b n → value a n l = value b n l := by
      intro l
      induction l with
      | nil => exact fun _ _ h => h
      | cons e l ih =>
        intro a b h
        cases e with
        | wrote t m v =>
          simp only [value]
          split
          · rfl
          · exact ih _ _ h
        | call => exact ih _ _ h
        | told => exact ih _ _ h
        | same => exact ih _ _ h
    exact this l2 _ _ rfl
  | .wrote t m v :: l1, a => by
    simp only [List.cons_append, value]
    split
    · exact value_append n l2 l1 _
    · exact value_append n l2 l1 _
  | .call _ _ _ :: l1, a => value_append n l2 l1 a
  | .told _ _ _ _ _ :: l1, a => value_append n l2 l1 a
  | .same _ _ _ _ _ :: l1, a => value_append n l2 l1 a

/-- What has happened since the current assignment of thread `t` began. -/
def Since (c : Cfg) (a : Nat → Nat) (t : Nat) (L : List Ev) : Ctl → Prop
  | .run _ => True
  | .prev n v _ => ∃ A B, L = A ++ .call t n v :: B ∧ Free t B
  | .write n v old _ => ∃ A B B', L = A ++ .call t n v :: (B ++ B') ∧ Free t B ∧ Free t B' ∧ old = value a n (A ++ .call t n v :: B)
  | .new n v old _ => c.reread = true ∧ ∃ A B B' C, L = A ++ .call t n v :: (B ++ B' ++ .wrote t n v :: C) ∧ Free t B ∧ Free t B' ∧ Free t C ∧
      old = value a n (A ++ .call t n v :: B)
  | .test n v new old _ => ∃ A B B' C C', L = A ++ .call t n v :: (B ++ B' ++ .wrote t n v :: (C ++ C')) ∧ Free t B ∧ Free t B' ∧ Free t C ∧ Free t C' ∧
      old = value a n (A ++ .call t n v :: B) ∧ new = value a n (A ++ .call t n v :: (B ++ B' ++ .wrote t n v :: C)) ∧ (c.reread = false → C = [])
  | .emit n v new old _ => c.unchanged new old = false ∧
      ∃ A B B' C C', L = A ++ .call t n v :: (B ++ B' ++ .wrote t n v :: (C ++ C')) ∧ Free t B ∧ Free t B' ∧ Free t C ∧ Free t C' ∧
      old = value a n (A ++ .call t n v :: B) ∧ new = value a n (A ++ .call t n v :: (B ++ B' ++ .wrote t n v :: C)) ∧ (c.reread = false → C = [])

/-- The end of an assignment. -/
def Ev.fin : Ev → Option (Nat × Nat × Nat × Nat × Nat × Bool)
  | .told t n v new old => some (t, n, v, new, old, false)
  | .same t n v new old => some (t, n, v, new, old, true)
  | _ => none

/-- What has happened when an assignment is over. -/
def Over (c : Cfg) (a : Nat → Nat) (L : List Ev) : Nat × Nat × Nat × Nat × Nat × Bool → Prop
  | (t, n, v, new, old, b) => c.unchanged new old = b ∧
    ∃ A B B' C C', L = A ++ .call t n v :: (B ++ B' ++ .wrote t n v :: (C ++ C')) ∧ Free t B ∧ Free t B' ∧ Free t C ∧ Free t C' ∧
      old = value a n (A ++ .call t n v :: B) ∧ new = value a n (A ++ .call t n v :: (B ++ B' ++ .wrote t n v :: C)) ∧ (c.reread = false → C = [])

structure Inv (c : Cfg) (a : Nat → Nat) (σ : St) : Prop where
  attr : ∀ n, σ.attr n = value a n σ.log
  since : ∀ t, Since c a t σ.log (σ.thr t)
  over : ∀ l1 e l2 x, σ.log = l1 ++ e :: l2 → e.fin = some x → Over c a l1 x

theorem since_snoc {c : Cfg} {a : Nat → Nat} {t : Nat} {L : List Ev} {x : Ctl} (h : Since c a t L x) {e : Ev} (he : e.thread ≠ t) :
    Since c a t (L ++ [e]) x := by
  cases x with
  | run => trivial
  | prev n v k =>
    obtain ⟨A, B, rfl, h1⟩ := h
    exact ⟨A, B ++ [e], by simp, h1.snoc he⟩
  | write n v old k =>
    obtain ⟨A, B, B', rfl, h1, h2, h3⟩ := h
    exact ⟨A, B, B' ++ [e], by simp, h1, h2.snoc he, h3⟩
  | new n v old k =>
    obtain ⟨h0, A, B, B', C, rfl, h1, h2, h3, h4⟩ := h
    exact ⟨h0, A, B, B', C ++ [e], by simp, h1, h2, h3.snoc he, h4⟩
  | test n v new old k =>
    obtain ⟨A, B, B', C, C', rfl, h1, h2, h3, h4, h5⟩ := h
    exact ⟨A, B, B', C, C' ++ [e], by simp, h1, h2, h3, h4.snoc he, h5⟩
  | emit n v new old k =>
    obtain ⟨h0, A, B, B', C, C', rfl, h1, h2, h3, h4, h5⟩ := h
    exact ⟨h0, A, B, B', C, C' ++ [e], by simp, h1, h2, h3, h4.snoc he, h5⟩

/-- Nothing is logged and nothing is stored. -/
theorem inv_go {c : Cfg} {a : Nat → Nat} {σ : St} (h : Inv c a σ) {t : Nat} {x : Ctl} (hx : Since c a t σ.log x) : Inv c a (σ.go t x) where
  attr := h.attr
  since := fun u => by
    show Since c a u σ.log (if u = t then x else σ.thr u)
    split
    · rename_i e; subst e; exact hx
    · exact h.since u
  over := h.over

/-- Something is logged. -/
theorem inv_log {c : Cfg} {a : Nat → Nat} {σ : St} (h : Inv c a σ) {t : Nat} {x : Ctl} {e : Ev} {at' : Nat → Nat} (he : e.thread = t)
    (hx : Since c a t (σ.log ++ [e]) x) (ha : ∀ n, at' n = value (fun _ => σ.attr n) n [e]) (hf : ∀ y, e.fin = some y → Over c a σ.log y) :
    Inv c a { (σ.go t x) with attr := at', log := σ.log ++ [e] } where
  attr := fun n => by
    show at' n = value a n (σ.log ++ [e])
    rw [value_append, ← h.attr n, ha n]
  since := fun u => by
    show Since c a u (σ.log ++ [e]) (if u = t then x else σ.thr u)
    split
    · rename_i e; subst e; exact hx
    · rename_i hu
      exact since_snoc (h.since u) (by rw [he]; exact fun e => hu e.symm)
  over := fun l1 e' l2 y hl hy => by
    rcases List.eq_nil_or_concat l2 with rfl | ⟨l3, z, rfl⟩
    · have := List.append_inj' (show σ.log ++ [e] = l1 ++ [e'] from hl) rfl
      cases this.2
      rw [← this.1]
      exact hf y hy
    · have hl' : σ.log ++ [e] = (l1 ++ e' :: l3) ++ [z] := by
        rw [show σ.log ++ [e] = _ from hl]; simp
      exact h.over l1 e' l3 y (List.append_inj' hl' rfl).1 hy

theorem inv_step {c : Cfg} {a : Nat → Nat} {σ : St} (h : Inv c a σ) (t : Nat) : Inv c a (step c σ t) := by
  have hs := h.since t
  unfold step
  split
  · exact h
  · rename_i n v k e
    exact inv_log h rfl ⟨σ.log, [], by simp, .nil t⟩ (fun _ => rfl) (fun y hy => by cases hy)
  · rename_i n k e
    exact inv_go h trivial
  · rename_i n v k e
    rw [e] at hs
    obtain ⟨A, B, h1, h2⟩ := hs
    refine inv_go h ⟨A, B, [], by rw [h1]; simp, h2, .nil t, ?_⟩
    rw [h.attr n, h1]
  · rename_i n v old k e
    rw [e] at hs
    obtain ⟨A, B, B', h1, h2, h3, h4⟩ := hs
    refine inv_log h (t := t) (e := .wrote t n v) rfl ?_ (fun m => ?_) (fun y hy => by cases hy)
    · split
      · rename_i hr
        exact ⟨hr, A, B, B', [], by rw [h1]; simp, h2, h3, .nil t, h4⟩
      · refine ⟨A, B, B', [], [], by rw [h1]; simp, h2, h3, .nil t, .nil t, h4, ?_, fun _ => rfl⟩
        rw [show A ++ Ev.call t n v :: (B ++ B' ++ [.wrote t n v]) = (A ++ .call t n v :: (B ++ B')) ++ [.wrote t n v] from by simp, value_append]
        simp [value]
    · simp only [value]
      by_cases hm : m = n
      · rw [if_pos hm, if_pos hm.symm]
      · rw [if_neg hm, if_neg (fun e => hm e.symm)]
  · rename_i n v old k e
    rw [e] at hs
    obtain ⟨h0, A, B, B', C, h1, h2, h3, h4, h5⟩ := hs
    refine inv_go h ⟨A, B, B', C, [], by rw [h1]; simp, h2, h3, h4, .nil t, h5, ?_, fun hr => ?_⟩
    · rw [h.attr n, h1]
    · rw [h0] at hr; cases hr
  · rename_i n v new old k e
    rw [e] at hs
    split
    · rename_i hq
      exact inv_log h rfl trivial (fun _ => rfl) (fun y hy => by cases hy; exact ⟨hq, hs⟩)
    · rename_i hq
      exact inv_go h ⟨by simpa using hq, hs⟩
  · rename_i n v new old k e
    rw [e] at hs
    exact inv_log h rfl trivial (fun _ => rfl) (fun y hy => by cases hy; exact hs)

theorem inv_run {c : Cfg} {a : Nat → Nat} : ∀ (s : List Nat) {σ : St}, Inv c a σ → Inv c a (run c s σ)
  | [], _, h => h
  | t :: s, _, h => inv_run s (inv_step h t)

theorem inv_init (c : Cfg) (a : Nat → Nat) (prog : Nat → Code) : Inv c a (init a prog) where
  attr := fun _ => rfl
  since := fun _ => trivial
  over := fun l1 e l2 x hl => by
    have := congrArg List.length hl
    simp [init] at this

/-! ## Every stored value is followed by the end of its assignment -/

/-- Thread `t` has stored `v` and the assignment is not over. -/
def Ctl.stored (n v : Nat) : Ctl → Prop
  | .new m w _ _ => m = n ∧ w = v
  | .test m w _ _ _ => m = n ∧ w = v
  | .emit m w _ _ _ => m = n ∧ w = v
  | _ => False

/-- The end of an assignment of `v` to `n` by `t`. -/
def Ends (t n v : Nat) (e : Ev) : Prop := ∃ new old, e = .told t n v new old ∨ e = .same t n v new old

/-- Every stored value: the assignment is over, or the thread is still in it. -/
def Closed (σ : St) : Prop := ∀ l1 t n v l2, σ.log = l1 ++ .wrote t n v :: l2 →
  (∃ m e m', l2 = m ++ e :: m' ∧ Free t m ∧ Ends t n v e) ∨ (Free t l2 ∧ (σ.thr t).stored n v)

theorem closed_go {σ : St} (h : Closed σ) {t : Nat} {x : Ctl} (hx : ∀ n v, (σ.thr t).stored n v → x.stored n v) : Closed (σ.go t x) := by
  intro l1 u n v l2 hl
  rcases h l1 u n v l2 hl with h1 | ⟨h1, h2⟩
  · exact .inl h1
  · refine .inr ⟨h1, ?_⟩
    show (if u = t then x else σ.thr u).stored n v
    split
    · rename_i e; subst e; exact hx n v h2
    · exact h2

theorem closed_log {σ : St} (h : Closed σ) {t : Nat} {x : Ctl} {e : Ev} {at' : Nat → Nat} (he : e.thread = t)
    (hx : ∀ n v, (σ.thr t).stored n v → Ends t n v e) (hw : ∀ u n v, e = .wrote u n v → x.stored n v) :
    Closed { (σ.go t x) with attr := at', log := σ.log ++ [e] } := by
  intro l1 u n v l2 hl
  have hl : σ.log ++ [e] = l1 ++ .wrote u n v :: l2 := hl
  rcases List.eq_nil_or_concat l2 with rfl | ⟨l3, z, rfl⟩
  · have := (List.append_inj' hl rfl).2
    have he' : e = .wrote u n v := by cases this; rfl
    have hu : u = t := by rw [← he, he']; rfl
    refine .inr ⟨.nil u, ?_⟩
    show (if u = t then x else σ.thr u).stored n v
    rw [if_pos hu]
    exact hw u n v he'
  · have hl' : σ.log ++ [e] = (l1 ++ .wrote u n v :: l3) ++ [z] := by rw [hl]; simp
    have hz : e = z := by have := (List.append_inj' hl' rfl).2; cases this; rfl
    rcases h l1 u n v l3 (List.append_inj' hl' rfl).1 with ⟨m, f, m', h1, h2, h3⟩ | ⟨h1, h2⟩
    · exact .inl ⟨m, f, m' ++ [z], by rw [h1]; simp, h2, h3⟩
    · by_cases hu : u = t
      · subst hu
        exact .inl ⟨l3, z, [], by simp, h1, hz ▸ hx n v h2⟩
      · refine .inr ⟨by simpa using h1.snoc (e := z) (by rw [← hz, he]; exact fun e => hu e.symm), ?_⟩
        show (if u = t then x else σ.thr u).stored n v
        rw [if_neg hu]
        exact h2

theorem closed_step (c : Cfg) {σ : St} (h : Closed σ) (t : Nat) : Closed (step c σ t) := by
  unfold step
  split
  · exact h
  · rename_i n v k e
    exact closed_log h rfl (fun _ _ hs => by rw [e] at hs; exact hs.elim) (fun _ _ _ he => by cases he)
  · rename_i n k e
    exact closed_go h (fun _ _ hs => by rw [e] at hs; exact hs.elim)
  · rename_i n v k e
    exact closed_go h (fun _ _ hs => by rw [e] at hs; exact hs.elim)
  · rename_i n v old k e
    refine closed_log h (t := t) (e := .wrote t n v) rfl (fun _ _ hs => by rw [e] at hs; exact hs.elim) (fun _ _ _ he => ?_)
    cases he
    split
    · exact ⟨rfl, rfl⟩
    · exact ⟨rfl, rfl⟩
  · rename_i n v old k e
    exact closed_go h (fun _ _ hs => by rw [e] at hs; exact hs)
  · rename_i n v new old k e
    split
    · refine closed_log h (t := t) (e := .same t n v new old) rfl (fun _ _ hs => ?_) (fun _ _ _ he => by cases he)
      rw [e] at hs
      obtain ⟨rfl, rfl⟩ := hs
      exact ⟨new, old, .inr rfl⟩
    · exact closed_go h (fun _ _ hs => by rw [e] at hs; exact hs)
  · rename_i n v new old k e
    refine closed_log h (t := t) (e := .told t n v new old) rfl (fun _ _ hs => ?_) (fun _ _ _ he => by cases he)
    rw [e] at hs
    obtain ⟨rfl, rfl⟩ := hs
    exact ⟨new, old, .inl rfl⟩

theorem closed_run (c : Cfg) : ∀ (s : List Nat) {σ : St}, Closed σ → Closed (run c s σ)
  | [], _, h => h
  | t :: s, _, h => closed_run c s (closed_step c h t)

theorem closed_init (a : Nat → Nat) (prog : Nat → Code) : Closed (init a prog) := by
  intro l1 t n v l2 hl
  have := congrArg List.length hl
  simp [init] at this

/-- The last event of a thread is at one place. -/
theorem last_unique {t : Nat} {e f : Ev} (he : e.thread = t) (hf : f.thread = t) : ∀ {x1 x2 y1 y2 : List Ev},
    x1 ++ e :: y1 = x2 ++ f :: y2 → Free t y1 → Free t y2 → x1 = x2 ∧ e = f ∧ y1 = y2
  | [], [], _, _, h, _, _ => by
    rw [List.nil_append, List.nil_append] at h
    exact ⟨rfl, (List.cons.inj h).1, (List.cons.inj h).2⟩
  | [], z :: x2, y1, y2, h, h1, _ => by
    have h2 : y1 = x2 ++ f :: y2 := (List.cons.inj h).2
    exact absurd hf (h1 f (by rw [h2]; simp))
  | z :: x1, [], y1, y2, h, _, h1 => by
    have h2 : x1 ++ e :: y1 = y2 := (List.cons.inj h).2
    exact absurd he (h1 e (by rw [← h2]; simp))
  | z :: x1, w :: x2, y1, y2, h, h1, h2 => by
    obtain ⟨hz, h3⟩ := List.cons.inj (show z :: (x1 ++ e :: y1) = w :: (x2 ++ f :: y2) from h)
    obtain ⟨h4, h5, h6⟩ := last_unique he hf h3 h1 h2
    exact ⟨by rw [hz, h4], h5, h6⟩

/-- Without assignments of `n` it keeps its value. -/
theorem value_still {n : Nat} : ∀ {l : List Ev} {a : Nat → Nat}, (∀ t v, .wrote t n v ∉ l) → value a n l = a n
  | [], _, _ => rfl
  | .wrote t m v :: l, a, h => by
    have hm : m ≠ n := fun e => h t v (by rw [e]; simp)
    simp only [value, if_neg hm]
    exact value_still (fun u w hu => h u w (List.mem_cons_of_mem _ hu))
  | .call _ _ _ :: l, a, h => value_still (l := l) (a := a) (fun u w hu => h u w (List.mem_cons_of_mem _ hu))
  | .told _ _ _ _ _ :: l, a, h => value_still (l := l) (a := a) (fun u w hu => h u w (List.mem_cons_of_mem _ hu))
  | .same _ _ _ _ _ :: l, a, h => value_still (l := l) (a := a) (fun u w hu => h u w (List.mem_cons_of_mem _ hu))

theorem value_last {n t v : Nat} {l1 l2 : List Ev} {a : Nat → Nat} (h : ∀ u w, .wrote u n w ∉ l2) : value a n (l1 ++ .wrote t n v :: l2) = v := by
  rw [value_append]
  simp only [value, if_pos]
  exact value_still h

/-! ## The events of one thread -/

/-- Assignments one after the other: begin, store, end. -/
inductive Blocks (t : Nat) : List Ev → Prop
  | nil : Blocks t []
  | told {l : List Ev} (h : Blocks t l) (n v new old : Nat) : Blocks t (l ++ [.call t n v, .wrote t n v, .told t n v new old])
  | same {l : List Ev} (h : Blocks t l) (n v new old : Nat) : Blocks t (l ++ [.call t n v, .wrote t n v, .same t n v new old])

/-- The events of thread `t`. -/
def only (t : Nat) (l : List Ev) : List Ev := l.filter (fun e => e.thread == t)

/-- The events of the current assignment. -/
def Ctl.part (t : Nat) : Ctl → List Ev
  | .run _ => []
  | .prev n v _ => [.call t n v]
  | .write n v _ _ => [.call t n v]
  | .new n v _ _ => [.call t n v, .wrote t n v]
  | .test n v _ _ _ => [.call t n v, .wrote t n v]
  | .emit n v _ _ _ => [.call t n v, .wrote t n v]

def Blocked (σ : St) : Prop := ∀ t, ∃ l, Blocks t l ∧ only t σ.log = l ++ (σ.thr t).part t

theorem blocked_go {σ : St} (h : Blocked σ) {t : Nat} {x : Ctl} (hx : x.part t = (σ.thr t).part t) : Blocked (σ.go t x) := by
  intro u
  obtain ⟨l, h1, h2⟩ := h u
  refine ⟨l, h1, h2.trans ?_⟩
  show _ = l ++ (if u = t then x else σ.thr u).part u
  split
  · rename_i e; subst e; rw [hx]
  · rfl

theorem blocked_log {σ : St} (h : Blocked σ) {t : Nat} {x : Ctl} {e : Ev} {at' : Nat → Nat} (he : e.thread = t)
    (hx : ∀ l, Blocks t l → ∃ l', Blocks t l' ∧ l ++ (σ.thr t).part t ++ [e] = l' ++ x.part t) :
    Blocked { (σ.go t x) with attr := at', log := σ.log ++ [e] } := by
  intro u
  obtain ⟨l, h1, h2⟩ := h u
  show ∃ l, Blocks u l ∧ only u (σ.log ++ [e]) = l ++ (if u = t then x else σ.thr u).part u
  have ho : only u (σ.log ++ [e]) = only u σ.log ++ only u [e] := List.filter_append ..
  by_cases hu : u = t
  · subst hu
    obtain ⟨l', h3, h4⟩ := hx l h1
    refine ⟨l', h3, ?_⟩
    rw [if_pos rfl, ← h4, ho, h2]
    simp [only, he]
  · refine ⟨l, h1, ?_⟩
    rw [if_neg hu, ← h2, ho]
    have : e.thread ≠ u := by rw [he]; exact fun e => hu e.symm
    simp [only, this]

theorem blocked_step (c : Cfg) {σ : St} (h : Blocked σ) (t : Nat) : Blocked (step c σ t) := by
  unfold step
  split <;> rename_i e
  · exact h
  · exact blocked_log h rfl (fun l hl => ⟨l, hl, by rw [e]; simp [Ctl.part]⟩)
  · exact blocked_go h (by rw [e]; rfl)
  · exact blocked_go h (by rw [e]; rfl)
  · rename_i n v old k
    refine blocked_log (e := .wrote t n v) h rfl (fun l hl => ⟨l, hl, ?_⟩)
    rw [e]
    split <;> simp [Ctl.part]
  · exact blocked_go h (by rw [e]; rfl)
  · rename_i n v new old k
    split
    · exact blocked_log (e := .same t n v new old) h rfl (fun l hl => ⟨_, hl.same n v new old, by rw [e]; simp [Ctl.part]⟩)
    · exact blocked_go h (by rw [e]; rfl)
  · rename_i n v new old k
    exact blocked_log (e := .told t n v new old) h rfl (fun l hl => ⟨_, hl.told n v new old, by rw [e]; simp [Ctl.part]⟩)

theorem blocked_run (c : Cfg) : ∀ (s : List Nat) {σ : St}, Blocked σ → Blocked (run c s σ)
  | [], _, h => h
  | t :: s, _, h => blocked_run c s (blocked_step c h t)

theorem blocked_init (a : Nat → Nat) (prog : Nat → Code) : Blocked (init a prog) := fun _ => ⟨[], .nil, rfl⟩

/-! ## What a listener that keeps the last value knows -/

/-- The last value of `n` that was told, `a n` if none. -/
def mirror (a : Nat → Nat) (n : Nat) : List Ev → Nat
  | [] => a n
  | .told _ m _ new _ :: l => if m = n then mirror (fun _ => new) n l else mirror a n l
  | _ :: l => mirror a n l

theorem mirror_snoc (n : Nat) (e : Ev) : ∀ (l : List Ev) (a : Nat → Nat), mirror a n (l ++ [e]) = mirror (fun _ => mirror a n l) n [e]
  | [], a => by cases e <;> rfl
  | .told t m v new old :: l, a => by
    simp only [List.cons_append, mirror]
    split
    · exact mirror_snoc n e l _
    · exact mirror_snoc n e l _
  | .call _ _ _ :: l, a => mirror_snoc n e l a
  | .wrote _ _ _ :: l, a => mirror_snoc n e l a
  | .same _ _ _ _ _ :: l, a => mirror_snoc n e l a

/-- The thread is in an assignment of `n`. -/
def Ctl.busy (n : Nat) : Ctl → Prop
  | .run _ => False
  | .prev m _ _ => m = n
  | .write m _ _ _ => m = n
  | .new m _ _ _ => m = n
  | .test m _ _ _ _ => m = n
  | .emit m _ _ _ _ => m = n

/-- What attribute and mirror are while a thread assigns alone. -/
def Ctl.knows (n val mir : Nat) : Ctl → Prop
  | .run _ => True
  | .prev m _ _ => m = n → val = mir
  | .write m _ old _ => m = n → val = mir ∧ old = mir
  | .new m v old _ => m = n → val = v ∧ old = mir
  | .test m _ nw old _ => m = n → val = nw ∧ old = mir
  | .emit m _ nw old _ => m = n → val = nw ∧ old = mir

/-- `n` is known: nobody assigns it and the mirror is right, or one thread does. -/
structure Known (a : Nat → Nat) (n : Nat) (σ : St) : Prop where
  knows : ∀ t, (σ.thr t).knows n (σ.attr n) (mirror a n σ.log)
  rest : (∀ t, ¬ (σ.thr t).busy n) → σ.attr n = mirror a n σ.log

theorem knows_of_not_busy {n val mir : Nat} : ∀ {x : Ctl}, ¬ x.busy n → x.knows n val mir
  | .run _, _ => trivial
  | .prev _ _ _, h => fun e => absurd e h
  | .write _ _ _ _, h => fun e => absurd e h
  | .new _ _ _ _, h => fun e => absurd e h
  | .test _ _ _ _ _, h => fun e => absurd e h
  | .emit _ _ _ _ _, h => fun e => absurd e h

/-- In an assignment, going by the log. -/
theorem since_busy {c : Cfg} {a : Nat → Nat} {t n : Nat} {L : List Ev} {x : Ctl} (h : Since c a t L x) (hb : x.busy n) :
    ∃ A v B, L = A ++ .call t n v :: B ∧ ∀ e ∈ B, e.thread = t → e = .wrote t n v := by
  have key : ∀ {v : Nat} {B : List Ev}, Free t B → ∀ e ∈ B, e.thread = t → e = .wrote t n v := fun h e he ht => absurd ht (h e he)
  cases x with
  | run => exact hb.elim
  | prev m v k => obtain rfl : m = n := hb; obtain ⟨A, B, h1, h2⟩ := h; exact ⟨A, v, B, h1, key h2⟩
  | write m v old k =>
    obtain rfl : m = n := hb
    obtain ⟨A, B, B', h1, h2, h3, _⟩ := h
    refine ⟨A, v, B ++ B', h1, fun e he => ?_⟩
    rcases List.mem_append.mp he with he | he
    · exact key h2 e he
    · exact key h3 e he
  | new m v old k =>
    obtain rfl : m = n := hb
    obtain ⟨_, A, B, B', C, h1, h2, h3, h4, _⟩ := h
    refine ⟨A, v, _, h1, fun e he => ?_⟩
    simp only [List.mem_append, List.mem_cons] at he
    rcases he with (he | he) | he | he
    · exact key h2 e he
    · exact key h3 e he
    · exact fun _ => he
    · exact key h4 e he
  | test m v new old k =>
    obtain rfl : m = n := hb
    obtain ⟨A, B, B', C, C', h1, h2, h3, h4, h5, _⟩ := h
    refine ⟨A, v, _, h1, fun e he => ?_⟩
    simp only [List.mem_append, List.mem_cons] at he
    rcases he with (he | he) | he | he | he
    · exact key h2 e he
    · exact key h3 e he
    · exact fun _ => he
    · exact key h4 e he
    · exact key h5 e he
  | emit m v new old k =>
    obtain rfl : m = n := hb
    obtain ⟨_, A, B, B', C, C', h1, h2, h3, h4, h5, _⟩ := h
    refine ⟨A, v, _, h1, fun e he => ?_⟩
    simp only [List.mem_append, List.mem_cons] at he
    rcases he with (he | he) | he | he | he
    · exact key h2 e he
    · exact key h3 e he
    · exact fun _ => he
    · exact key h4 e he
    · exact key h5 e he

/-- At most one thread assigns `n`. -/
def One (n : Nat) (σ : St) : Prop := ∀ t u, (σ.thr t).busy n → (σ.thr u).busy n → t = u

/-- A step that leaves attribute and mirror alone. -/
theorem known_keep {a : Nat → Nat} {n : Nat} {σ τ : St} {t : Nat} {x : Ctl} (h : Known a n σ) (hthr : ∀ u, τ.thr u = if u = t then x else σ.thr u)
    (ha : τ.attr n = σ.attr n) (hm : mirror a n τ.log = mirror a n σ.log) (hx : x.knows n (σ.attr n) (mirror a n σ.log))
    (hr : ¬ x.busy n → ((∀ u, ¬ (σ.thr u).busy n) ∨ σ.attr n = mirror a n σ.log) ∨ ¬ (σ.thr t).busy n) : Known a n τ where
  knows := fun u => by
    rw [hthr u, ha, hm]
    split
    · exact hx
    · exact h.knows u
  rest := fun hb => by
    rw [ha, hm]
    have hxb : ¬ x.busy n := by have := hb t; rwa [hthr t, if_pos rfl] at this
    rcases hr hxb with (h1 | h1) | h1
    · exact h.rest h1
    · exact h1
    · refine h.rest (fun u => ?_)
      by_cases hu : u = t
      · rw [hu]; exact h1
      · have := hb u; rwa [hthr u, if_neg hu] at this

theorem known_step {c : Cfg} {a : Nat → Nat} {n : Nat} {σ : St} (hc : ∀ x y, c.eq x y = true → x = y) (h : Known a n σ) (t : Nat)
    (h1 : One n σ) (h2 : One n (step c σ t)) : Known a n (step c σ t) := by
  have hk := h.knows t
  unfold step
  split <;> rename_i e
  · exact h
  · rename_i m v k
    refine known_keep (t := t) (x := .prev m v k) h (fun u => rfl) rfl ?_ (fun hm => h.rest (fun u hu => ?_)) (fun _ => .inr (by rw [e]; exact id))
    · show mirror a n (σ.log ++ [.call t m v]) = _
      rw [mirror_snoc]; rfl
    · have hut : u ≠ t := fun hut => by rw [hut, e] at hu; exact hu
      simp only [step, e] at h2
      refine hut (h2 u t ?_ ?_)
      · show Ctl.busy n (if u = t then _ else σ.thr u)
        rw [if_neg hut]; exact hu
      · show Ctl.busy n (if t = t then _ else σ.thr t)
        rw [if_pos rfl]; exact hm
  · exact known_keep (t := t) h (fun u => rfl) rfl rfl trivial (fun _ => .inr (by rw [e]; exact id))
  · rename_i m v k
    rw [e] at hk
    exact known_keep (t := t) (x := .write m v (σ.attr m) k) h (fun u => rfl) rfl rfl
      (fun hm => ⟨hk hm, by rw [hm]; exact hk hm⟩) (fun hb => .inr (by rw [e]; exact hb))
  · rename_i m v old k
    rw [e] at hk
    have hmir : mirror a n (σ.log ++ [.wrote t m v]) = mirror a n σ.log := by rw [mirror_snoc]; rfl
    by_cases hm : m = n
    · have hbt : (σ.thr t).busy n := by rw [e]; exact hm
      constructor
      · intro u
        show Ctl.knows n (if n = m then v else σ.attr n) (mirror a n (σ.log ++ [.wrote t m v])) (if u = t then _ else σ.thr u)
        rw [hmir, if_pos hm.symm]
        split
        · split
          · exact fun _ => ⟨rfl, (hk hm).2⟩
          · exact fun _ => ⟨rfl, (hk hm).2⟩
        · rename_i hu
          exact knows_of_not_busy (fun hb => hu (h1 u t hb hbt))
      · intro hb
        exfalso
        refine hb t ?_
        show Ctl.busy n (if t = t then _ else σ.thr t)
        rw [if_pos rfl]
        split
        · exact hm
        · exact hm
    · refine known_keep (t := t) (x := if c.reread then .new m v old k else .test m v v old k) h (fun u => rfl) ?_ hmir
        (knows_of_not_busy ?_) (fun _ => .inr (by rw [e]; exact hm))
      · show (if n = m then v else σ.attr n) = _
        rw [if_neg (fun e => hm e.symm)]
      · split
        · exact hm
        · exact hm
  · rename_i m v old k
    rw [e] at hk
    exact known_keep (t := t) (x := .test m v (σ.attr m) old k) h (fun u => rfl) rfl rfl
      (fun hm => ⟨by rw [hm], (hk hm).2⟩) (fun hb => .inr (by rw [e]; exact hb))
  · rename_i m v new old k
    rw [e] at hk
    split
    · rename_i hq
      have hno : new = old := by
        unfold Cfg.unchanged at hq
        split at hq
        · exact hc _ _ hq
        · exact (hc _ _ hq).symm
      refine known_keep (t := t) (x := .run k) h (fun u => rfl) rfl ?_ trivial (fun _ => ?_)
      · show mirror a n (σ.log ++ [.same t m v new old]) = _
        rw [mirror_snoc]; rfl
      · by_cases hm : m = n
        · exact .inl (.inr (by rw [(hk hm).1, hno, (hk hm).2]))
        · exact .inr (by rw [e]; exact hm)
    · exact known_keep (t := t) (x := .emit m v new old k) h (fun u => rfl) rfl rfl hk (fun hb => .inr (by rw [e]; exact hb))
  · rename_i m v new old k
    rw [e] at hk
    by_cases hm : m = n
    · have hbt : (σ.thr t).busy n := by rw [e]; exact hm
      have hmir : mirror a n (σ.log ++ [.told t m v new old]) = new := by rw [mirror_snoc]; simp [mirror, hm]
      constructor
      · intro u
        show Ctl.knows n (σ.attr n) (mirror a n (σ.log ++ [.told t m v new old])) (if u = t then _ else σ.thr u)
        split
        · trivial
        · rename_i hu
          exact knows_of_not_busy (fun hb => hu (h1 u t hb hbt))
      · intro _
        show σ.attr n = mirror a n (σ.log ++ [.told t m v new old])
        rw [hmir]; exact (hk hm).1
    · refine known_keep (t := t) (x := .run k) h (fun u => rfl) rfl ?_ trivial (fun _ => .inr (by rw [e]; exact hm))
      show mirror a n (σ.log ++ [.told t m v new old]) = _
      rw [mirror_snoc]; simp [mirror, hm]

theorem known_run {c : Cfg} {a : Nat → Nat} {n : Nat} (hc : ∀ x y, c.eq x y = true → x = y) : ∀ (s : List Nat) {σ : St}, Known a n σ →
    (∀ p q, s = p ++ q → One n (run c p σ)) → Known a n (run c s σ)
  | [], _, h, _ => h
  | t :: s, _, h, h1 => known_run hc s (known_step hc h t (h1 [] (t :: s) rfl) (h1 [t] s rfl)) (fun p q e => h1 (t :: p) q (by rw [e]; rfl))

theorem known_init (a : Nat → Nat) (n : Nat) (prog : Nat → Code) : Known a n (init a prog) := ⟨fun _ => trivial, fun _ => rfl⟩

end Psygnal.AtC
