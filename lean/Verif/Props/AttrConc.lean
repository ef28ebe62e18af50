import Verif.AttrConcLemmas

/-!
# C92: assigning evented attributes in several threads

`value a n l`: what attribute `n` holds after the events `l`; `mirror a n l`: what a listener that keeps the last value it was told holds.
-/
namespace Psygnal.AtC

/-! Example: attribute 0 is 0, thread 0 assigns 1, thread 1 assigns the given value. -/

def exA : Nat → Nat := fun _ => 0

def exP (w : Nat) : Nat → Code
  | 0 => .set 0 1 .ret
  | 1 => .set 0 w .ret
  | _ => .ret

/-- A dataclass, compared with `==`. -/
def exD : Cfg := ⟨true, fun x y => x == y⟩

/-- A model, compared with `==`. -/
def exM : Cfg := ⟨false, fun x y => x == y⟩

/-- An attribute holds the value stored last, whoever stored it. -/
theorem C92_value (c : Cfg) (a : Nat → Nat) (prog : Nat → Code) (s : List Nat) (n : Nat) (l1 : List Ev) (t v : Nat) (l2 : List Ev)
    (hl : (run c s (init a prog)).log = l1 ++ .wrote t n v :: l2) (h2 : ∀ u w, .wrote u n w ∉ l2) : (run c s (init a prog)).attr n = v := by
  rw [(inv_run s (inv_init c a prog)).attr n, hl]
  exact value_last h2

/-- Nothing else changes an attribute. -/
theorem C92_untouched (c : Cfg) (a : Nat → Nat) (prog : Nat → Code) (s : List Nat) (n : Nat)
    (h : ∀ t v, .wrote t n v ∉ (run c s (init a prog)).log) : (run c s (init a prog)).attr n = a n := by
  rw [(inv_run s (inv_init c a prog)).attr n]
  exact value_still h

/-- What listeners are told: the assignment was begun, then stored its value, once; the old value is one the attribute held between the two, the new
value one it held between storing and telling - the assigned one for a model; and the operator says they differ. -/
theorem C92_told (c : Cfg) (a : Nat → Nat) (prog : Nat → Code) (s : List Nat) (t n v new old : Nat) (l1 l2 : List Ev)
    (hl : (run c s (init a prog)).log = l1 ++ .told t n v new old :: l2) :
    ∃ A B B' C C', l1 = A ++ .call t n v :: (B ++ B' ++ .wrote t n v :: (C ++ C')) ∧ (∀ e ∈ B ++ B' ++ C ++ C', e.thread ≠ t) ∧
      old = value a n (A ++ .call t n v :: B) ∧ new = value a n (A ++ .call t n v :: (B ++ B' ++ .wrote t n v :: C)) ∧
      (c.reread = true → c.eq new old = false) ∧ (c.reread = false → new = v ∧ c.eq old new = false) := by
  obtain ⟨h0, A, B, B', C, C', h1, h2, h3, h4, h5, h6, h7, h8⟩ := (inv_run s (inv_init c a prog)).over l1 _ l2 _ hl rfl
  refine ⟨A, B, B', C, C', h1, ?_, h6, h7, fun hr => ?_, fun hr => ⟨?_, ?_⟩⟩
  · intro e he
    simp only [List.mem_append] at he
    rcases he with ((he | he) | he) | he
    · exact h2 e he
    · exact h3 e he
    · exact h4 e he
    · exact h5 e he
  · simpa [Cfg.unchanged, hr] using h0
  · rw [h7, h8 hr, show A ++ Ev.call t n v :: (B ++ B' ++ [.wrote t n v]) = (A ++ .call t n v :: (B ++ B')) ++ .wrote t n v :: [] from by simp]
    exact value_last (fun _ _ h => nomatch h)
  · simpa [Cfg.unchanged, hr] using h0

/-- The same for an assignment that tells nobody: the operator says the two values it saw are equal. -/
theorem C92_silent (c : Cfg) (a : Nat → Nat) (prog : Nat → Code) (s : List Nat) (t n v new old : Nat) (l1 l2 : List Ev)
    (hl : (run c s (init a prog)).log = l1 ++ .same t n v new old :: l2) :
    ∃ A B B' C C', l1 = A ++ .call t n v :: (B ++ B' ++ .wrote t n v :: (C ++ C')) ∧ (∀ e ∈ B ++ B' ++ C ++ C', e.thread ≠ t) ∧
      old = value a n (A ++ .call t n v :: B) ∧ new = value a n (A ++ .call t n v :: (B ++ B' ++ .wrote t n v :: C)) ∧
      (c.reread = true → c.eq new old = true) ∧ (c.reread = false → new = v ∧ c.eq old new = true) := by
  obtain ⟨h0, A, B, B', C, C', h1, h2, h3, h4, h5, h6, h7, h8⟩ := (inv_run s (inv_init c a prog)).over l1 _ l2 _ hl rfl
  refine ⟨A, B, B', C, C', h1, ?_, h6, h7, fun hr => ?_, fun hr => ⟨?_, ?_⟩⟩
  · intro e he
    simp only [List.mem_append] at he
    rcases he with ((he | he) | he) | he
    · exact h2 e he
    · exact h3 e he
    · exact h4 e he
    · exact h5 e he
  · simpa [Cfg.unchanged, hr] using h0
  · rw [h7, h8 hr, show A ++ Ev.call t n v :: (B ++ B' ++ [.wrote t n v]) = (A ++ .call t n v :: (B ++ B')) ++ .wrote t n v :: [] from by simp]
    exact value_last (fun _ _ h => nomatch h)
  · simpa [Cfg.unchanged, hr] using h0

/-- The events of a thread that is not in an assignment: assignments one after the other, each begun, stored and ended once. -/
theorem C92_blocks (c : Cfg) (a : Nat → Nat) (prog : Nat → Code) (s : List Nat) (t : Nat) (k : Code)
    (ht : (run c s (init a prog)).thr t = .run k) : Blocks t ((run c s (init a prog)).log.filter (fun e => e.thread == t)) := by
  obtain ⟨l, h1, h2⟩ := blocked_run c s (blocked_init a prog) t
  rw [ht] at h2
  rw [show (run c s (init a prog)).log.filter (fun e => e.thread == t) = l from h2.trans (List.append_nil l)]
  exact h1

/-- The final value is told by the thread that stored it, unless the operator says it equals a value the attribute held during that assignment. -/
theorem C92_final (c : Cfg) (a : Nat → Nat) (prog : Nat → Code) (s : List Nat) (n : Nat) (l1 : List Ev) (t v : Nat) (l2 : List Ev) (k : Code)
    (hl : (run c s (init a prog)).log = l1 ++ .wrote t n v :: l2) (h2 : ∀ u w, .wrote u n w ∉ l2) (ht : (run c s (init a prog)).thr t = .run k) :
    ∃ old A B B', l1 = A ++ .call t n v :: (B ++ B') ∧ old = value a n (A ++ .call t n v :: B) ∧
      (.told t n v v old ∈ l2 ∨ (.same t n v v old ∈ l2 ∧ (c.eq v old = true ∨ c.eq old v = true))) := by
  rcases closed_run c s (closed_init a prog) l1 t n v l2 hl with ⟨m, e, m', h3, h4, new, old, h5⟩ | ⟨_, h3⟩
  · have hw : ∀ C C', C ++ C' = m → ∀ u w, .wrote u n w ∉ C := fun C C' hC u w hw => h2 u w (by rw [h3, ← hC]; simp [hw])
    have hsplit : (run c s (init a prog)).log = (l1 ++ .wrote t n v :: m) ++ e :: m' := by rw [hl, h3]; simp
    have hov : ∃ b, Over c a (l1 ++ .wrote t n v :: m) (t, n, v, new, old, b) := by
      rcases h5 with rfl | rfl
      · exact ⟨_, (inv_run s (inv_init c a prog)).over _ _ m' _ hsplit rfl⟩
      · exact ⟨_, (inv_run s (inv_init c a prog)).over _ _ m' _ hsplit rfl⟩
    obtain ⟨b, h0, A, B, B', C, C', h6, h7, h8, h9, h10, h11, h12, h13⟩ := hov
    obtain ⟨e1, _, e3⟩ := last_unique (t := t) (e := .wrote t n v) (f := .wrote t n v) rfl rfl
      (show l1 ++ .wrote t n v :: m = (A ++ .call t n v :: (B ++ B')) ++ .wrote t n v :: (C ++ C') from by rw [h6]; simp) h4
      (fun x hx => (List.mem_append.mp hx).elim (h9 x) (h10 x))
    have hnew : new = v := by
      rw [h12, show A ++ Ev.call t n v :: (B ++ B' ++ .wrote t n v :: C) = (A ++ .call t n v :: (B ++ B')) ++ .wrote t n v :: C from by simp]
      exact value_last (hw C C' e3.symm)
    subst hnew
    refine ⟨old, A, B, B', e1, h11, ?_⟩
    rcases h5 with rfl | rfl
    · exact .inl (by rw [h3]; simp)
    · refine .inr ⟨by rw [h3]; simp, ?_⟩
      have h14 := ((inv_run s (inv_init c a prog)).over _ _ m' _ hsplit rfl).1
      unfold Cfg.unchanged at h14
      split at h14
      · exact .inl h14
      · exact .inr h14
  · rw [ht] at h3
    exact h3.elim

/-- Partial: if assignments of an attribute never overlap - at no moment are two threads between the beginning and the end of one - and the operator
is not true of different values, then whenever nobody assigns it, who keeps the last value told has the value of the attribute.  Missing: overlapping
assignments, for which it is false (`C92_mirror_refuted`, `C92_silent_refuted`). -/
theorem C92_mirror_partial (c : Cfg) (a : Nat → Nat) (prog : Nat → Code) (s : List Nat) (n : Nat) (hc : ∀ x y, c.eq x y = true → x = y)
    (h1 : ∀ p q, s = p ++ q → ∀ t u A B v A' B' v', (run c p (init a prog)).log = A ++ .call t n v :: B →
      (∀ e ∈ B, e.thread = t → e = .wrote t n v) → (run c p (init a prog)).log = A' ++ .call u n v' :: B' →
      (∀ e ∈ B', e.thread = u → e = .wrote u n v') → t = u)
    (hr : ∀ t, ∃ k, (run c s (init a prog)).thr t = .run k) :
    (run c s (init a prog)).attr n = mirror a n (run c s (init a prog)).log := by
  refine (known_run hc s (known_init a n prog) (fun p q e t u ht hu => ?_)).rest (fun t hb => ?_)
  · obtain ⟨A, v, B, h2, h3⟩ := since_busy ((inv_run p (inv_init c a prog)).since t) ht
    obtain ⟨A', v', B', h4, h5⟩ := since_busy ((inv_run p (inv_init c a prog)).since u) hu
    exact h1 p q e t u A B v A' B' v' h2 h3 h4 h5
  · obtain ⟨k, hk⟩ := hr t
    rw [hk] at hb
    exact hb

/-! ## What fails when assignments overlap -/

/-- The full claim fails: thread 0 has read the new value, thread 1 assigns 2 and tells it, then thread 0 tells 1 (dataclass and model). -/
theorem C92_mirror_refuted :
    (∃ s, (run exD s (init exA (exP 2))).attr 0 = 2 ∧ mirror exA 0 (run exD s (init exA (exP 2))).log = 1) ∧
    (∃ s, (run exM s (init exA (exP 2))).attr 0 = 2 ∧ mirror exA 0 (run exM s (init exA (exP 2))).log = 1) :=
  ⟨⟨[0, 0, 0, 0, 0, 1, 1, 1, 1, 1, 1, 0], by decide, by decide⟩, ⟨[0, 0, 0, 0, 1, 1, 1, 1, 1, 0], by decide, by decide⟩⟩

/-- A change is told to nobody: thread 1 reads 0, thread 0 assigns 1 and tells it, thread 1 puts back 0 and sees no difference. -/
theorem C92_silent_refuted :
    ∃ s, (run exD s (init exA (exP 0))).log =
      [.call 1 0 0, .call 0 0 1, .wrote 0 0 1, .told 0 0 1 1 0, .wrote 1 0 0, .same 1 0 0 0 0] ∧ (run exD s (init exA (exP 0))).attr 0 = 0 :=
  ⟨[1, 1, 0, 0, 0, 0, 0, 0, 1, 1, 1], by decide, by decide⟩

/-- A value is told twice and another never: thread 1 assigns 2 before thread 0 reads what it stored (dataclass). -/
theorem C92_twice_refuted :
    ∃ s, (run exD s (init exA (exP 2))).log =
      [.call 0 0 1, .wrote 0 0 1, .call 1 0 2, .wrote 1 0 2, .told 0 0 1 2 0, .told 1 0 2 2 1] :=
  ⟨[0, 0, 0, 1, 1, 1, 0, 0, 0, 1, 1, 1], by decide⟩

/-! ## Examples -/

/-- `C92_value`, `C92_final`: the last value stored is 2, by thread 1. -/
example : (run exD [0, 0, 0, 1, 1, 1, 0, 0, 0, 1, 1, 1] (init exA (exP 2))).attr 0 = 2 :=
  C92_value exD exA (exP 2) _ 0 [.call 0 0 1, .wrote 0 0 1, .call 1 0 2] 1 2 [.told 0 0 1 2 0, .told 1 0 2 2 1] (by decide) (by simp)

example : ∃ old A B B', [Ev.call 0 0 1, .wrote 0 0 1, .call 1 0 2] = A ++ Ev.call 1 0 2 :: (B ++ B') ∧ old = value exA 0 (A ++ .call 1 0 2 :: B) ∧
    (.told 1 0 2 2 old ∈ [Ev.told 0 0 1 2 0, .told 1 0 2 2 1] ∨
      (.same 1 0 2 2 old ∈ [Ev.told 0 0 1 2 0, .told 1 0 2 2 1] ∧ (exD.eq 2 old = true ∨ exD.eq old 2 = true))) :=
  C92_final exD exA (exP 2) [0, 0, 0, 1, 1, 1, 0, 0, 0, 1, 1, 1] 0 [.call 0 0 1, .wrote 0 0 1, .call 1 0 2] 1 2 [.told 0 0 1 2 0, .told 1 0 2 2 1] .ret
    (by decide) (by simp) (by rfl)

/-- `C92_untouched`: attribute 1 while attribute 0 is assigned. -/
example : (run exD [0, 0, 0, 1, 1] (init exA (exP 2))).attr 1 = 0 :=
  C92_untouched exD exA (exP 2) [0, 0, 0, 1, 1] 1 (by
    rw [show (run exD [0, 0, 0, 1, 1] (init exA (exP 2))).log = [.call 0 0 1, .wrote 0 0 1, .call 1 0 2] from by decide]; simp)

/-- `C92_told`: thread 0 assigned 1 and tells 2. -/
example : ∃ l1 l2, (run exD [0, 0, 0, 1, 1, 1, 0, 0, 0, 1, 1, 1] (init exA (exP 2))).log = l1 ++ .told 0 0 1 2 0 :: l2 :=
  ⟨[.call 0 0 1, .wrote 0 0 1, .call 1 0 2, .wrote 1 0 2], [.told 1 0 2 2 1], by decide⟩

/-- `C92_silent`: thread 1 saw 0 and 0. -/
example : ∃ l1 l2, (run exM [1, 1, 0, 0, 0, 0, 0, 1, 1] (init exA (exP 0))).log = l1 ++ .same 1 0 0 0 0 :: l2 :=
  ⟨[.call 1 0 0, .call 0 0 1, .wrote 0 0 1, .told 0 0 1 1 0, .wrote 1 0 0], [], by decide⟩

/-- `C92_blocks`: thread 0 is done while thread 1 is not. -/
example : Blocks 0 ((run exD [0, 0, 0, 1, 1, 1, 0, 0, 0] (init exA (exP 2))).log.filter (fun e => e.thread == 0)) :=
  C92_blocks exD exA (exP 2) [0, 0, 0, 1, 1, 1, 0, 0, 0] 0 .ret (by rfl)

/-- For the example: the threads in an assignment of `n`. -/
def opens (n : Nat) : List Nat → List Ev → List Nat
  | o, [] => o
  | o, .call t m _ :: l => opens n (if m = n then t :: o else o) l
  | o, .wrote _ _ _ :: l => opens n o l
  | o, .told t _ _ _ _ :: l => opens n (o.filter (· != t)) l
  | o, .same t _ _ _ _ :: l => opens n (o.filter (· != t)) l

theorem opens_append (n : Nat) (l2 : List Ev) : ∀ (l1 : List Ev) (o : List Nat), opens n o (l1 ++ l2) = opens n (opens n o l1) l2
  | [], _ => rfl
  | .call _ _ _ :: l1, _ => opens_append n l2 l1 _
  | .wrote _ _ _ :: l1, _ => opens_append n l2 l1 _
  | .told _ _ _ _ _ :: l1, _ => opens_append n l2 l1 _
  | .same _ _ _ _ _ :: l1, _ => opens_append n l2 l1 _

theorem opens_keep {n t v : Nat} : ∀ {B : List Ev} {o : List Nat}, (∀ e ∈ B, e.thread = t → e = .wrote t n v) → t ∈ o → t ∈ opens n o B
  | [], _, _, h => h
  | .call u m w :: B, o, hB, h => by
    refine opens_keep (B := B) (fun e he => hB e (List.mem_cons_of_mem _ he)) ?_
    split
    · exact List.mem_cons_of_mem _ h
    · exact h
  | .wrote u m w :: B, o, hB, h => opens_keep (B := B) (fun e he => hB e (List.mem_cons_of_mem _ he)) h
  | .told u m w x y :: B, o, hB, h => by
    have hu : t ≠ u := fun e => by have := hB _ List.mem_cons_self e.symm; cases this
    exact opens_keep (B := B) (fun e he => hB e (List.mem_cons_of_mem _ he)) (List.mem_filter.mpr ⟨h, by simpa using hu⟩)
  | .same u m w x y :: B, o, hB, h => by
    have hu : t ≠ u := fun e => by have := hB _ List.mem_cons_self e.symm; cases this
    exact opens_keep (B := B) (fun e he => hB e (List.mem_cons_of_mem _ he)) (List.mem_filter.mpr ⟨h, by simpa using hu⟩)

theorem opens_mem {n t v : Nat} {L A B : List Ev} (h : L = A ++ .call t n v :: B) (hB : ∀ e ∈ B, e.thread = t → e = .wrote t n v) :
    t ∈ opens n [] L := by
  rw [h, opens_append]
  show t ∈ opens n (if n = n then t :: opens n [] A else opens n [] A) B
  rw [if_pos rfl]
  exact opens_keep hB List.mem_cons_self

/-- The schedule of the example: one assignment after the other, with a step of a third thread between. -/
def exS : List Nat := [0, 0, 0, 0, 0, 0, 2, 1, 1, 1, 1, 1, 1]

theorem exS_one : ∀ i ∈ List.range 14, ∀ t ∈ opens 0 [] (run exD (exS.take i) (init exA (exP 2))).log,
    ∀ u ∈ opens 0 [] (run exD (exS.take i) (init exA (exP 2))).log, t = u := by decide

theorem exS_rest : ∀ t, ∃ k, (run exD exS (init exA (exP 2))).thr t = .run k
  | 0 => ⟨.ret, rfl⟩
  | 1 => ⟨.ret, rfl⟩
  | _ + 2 => ⟨.ret, rfl⟩

/-- `C92_mirror_partial`: both threads assign, 1 and then 2 is told, and 2 is the value. -/
example : (run exD exS (init exA (exP 2))).attr 0 = mirror exA 0 (run exD exS (init exA (exP 2))).log ∧
    (run exD exS (init exA (exP 2))).log = [.call 0 0 1, .wrote 0 0 1, .told 0 0 1 1 0, .call 1 0 2, .wrote 1 0 2, .told 1 0 2 2 1] := by
  refine ⟨C92_mirror_partial exD exA (exP 2) exS 0 (fun x y h => by simpa [exD] using h) ?_ exS_rest, by decide⟩
  intro p q e t u A B v A' B' v' h1 h2 h3 h4
  have hp : p = exS.take p.length := by rw [e]; simp
  have hlen : p.length ∈ List.range 14 := by
    have := congrArg List.length e
    simp [exS] at this
    exact List.mem_range.mpr (by omega)
  have h5 := opens_mem h1 h2
  have h6 := opens_mem h3 h4
  rw [hp] at h5 h6
  exact exS_one p.length hlen t h5 u h6

end Psygnal.AtC
