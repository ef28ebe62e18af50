import Verif.SetConcLemmas

/-!
# C96: an evented set in several threads

`value d l`: the items of a plain set after what was stored and dropped in `l` if it had the items `d`; `stopped l`: the signal was last paused, not resumed;
`recorded l`: what was recorded since the record was last emptied; `heard d x l`: what someone has who counts item `x` by what is told; `Free t l`: no event of
thread `t` is in `l`; `InOp t l`: thread `t` is in a method; `InBulk t l`: in one that pauses.
-/
namespace Psygnal.StC

/-! Examples: threads 0 and 1 use the set of 5 and 6. -/

def exP (c0 c1 : Code) : Nat → Code
  | 0 => c0
  | 1 => c1
  | _ => .ret

def exAdd (x : Nat) : Code := .call (.add x) .ret

def exDis (x : Nat) : Code := .call (.discard x) .ret

def exUpd (xs : List Nat) : Code := .call (.update xs) .ret

def exClr : Code := .call .clear .ret

/-! ## What is in the set -/

/-- The set has the items of a plain set to which the threads' changes are done one at a time, in the order in which they happen. -/
theorem C96_set (d : List Nat) (prog : Nat → Code) (s : List Nat) : (run s (init d prog)).data.set = value d (run s (init d prog)).log := by
  rw [data_run]

/-- Two threads add items, thread 0 discards one. -/
example : (run [0, 0, 1, 1, 1, 0, 0, 0, 0, 0, 0, 0, 0, 0, 1, 1, 1] (init [5, 6] (exP (.call (.add 7) (exDis 5)) (exAdd 8)))).data.set = [6, 8, 7] := by decide

/-- An item is in the set at most once. -/
theorem C96_nodup (d : List Nat) (prog : Nat → Code) (s : List Nat) (hd : d.Nodup) : (run s (init d prog)).data.set.Nodup := by
  rw [data_run]
  show (value d _).Nodup
  generalize (run s (init d prog)).log = l
  induction l generalizing d with
  | nil => exact hd
  | cons e l ih =>
    rw [show e :: l = [e] ++ l from rfl, value_append]
    refine ih _ ?_
    cases e with
    | put t x =>
      show (if x ∈ d then d else d ++ [x]).Nodup
      split
      · exact hd
      · rename_i hx
        exact List.nodup_append.mpr ⟨hd, by simp, fun a ha b hb e => hx (by rw [List.mem_singleton.mp hb] at e; exact e ▸ ha)⟩
    | drop t x => exact hd.filter _
    | wipe t l => exact List.nodup_nil
    | _ => exact hd

/-- Two threads store the same item. -/
example : (run [0, 0, 1, 1, 1, 0] (init [5, 6] (exP (exAdd 7) (exAdd 7)))).data.set = [5, 6, 7] ∧
    (run [0, 0, 1, 1, 1, 0] (init [5, 6] (exP (exAdd 7) (exAdd 7)))).data.set.Nodup := ⟨by decide, C96_nodup _ _ _ (by decide)⟩

/-- `x in s` says whether the item is in the set at that moment; so do the tests that the methods make. -/
theorem C96_look (d : List Nat) (prog : Nat → Code) (s : List Nat) (l1 l2 : List Ev) (e : Ev) (hl : (run s (init d prog)).log = l1 ++ e :: l2) :
    (∀ t x b, e = .look t x b → (b = true ↔ x ∈ value d l1)) ∧ (∀ t x b, e = .test t x b → (b = true ↔ x ∈ value d l1)) ∧
    (∀ t b, e = .empty t b → (b = true ↔ value d l1 = [])) ∧ (∀ t l, e = .items t l → l = value d l1) := by
  obtain ⟨x, y, m, h1, _⟩ := history hl rfl
  refine ⟨fun t z b he => ?_, fun t z b he => ?_, fun t b he => ?_, fun t l he => ?_⟩
  · subst he
    cases x with
    | run c =>
      cases c with
      | ret => cases h1
      | call o c => cases o <;> cases h1
      | has z f => cases h1; simp
    | _ => cases h1
  · subst he
    cases x with
    | run c =>
      cases c with
      | ret => cases h1
      | call o c => cases o <;> cases h1
      | has z f => cases h1
    | testA z k => cases h1; simp
    | testD z k => cases h1; simp
    | testS z k => cases h1; simp
    | _ => cases h1
  · subst he
    cases x with
    | run c =>
      cases c with
      | ret => cases h1
      | call o c => cases o <;> cases h1
      | has z f => cases h1
    | empty w c => cases h1; simp
    | _ => cases h1
  · subst he
    cases x with
    | run c =>
      cases c with
      | ret => cases h1
      | call o c => cases o <;> cases h1
      | has z f => cases h1
    | itemsC w c => cases h1; rfl
    | itemsI xs w c => cases h1; rfl
    | _ => cases h1

/-- Thread 1 looks after thread 0 stored the item and before it tells. -/
example : 7 ∈ value [5, 6] [.call 0 (.add 7), .test 0 7 false, .put 0 7] :=
  ((C96_look [5, 6] (exP (exAdd 7) (.has 7 fun _ => .ret)) [0, 0, 0, 1] _ [] (.look 1 7 true) (by decide)).1 1 7 true rfl).mp rfl

/-- `emit` and `paused()` see whether the signal was last paused, not resumed; `resume` sees and reduces everything recorded since the record was last emptied. -/
theorem C96_signal (d : List Nat) (prog : Nat → Code) (s : List Nat) (l1 l2 : List Ev) (e : Ev) (hl : (run s (init d prog)).log = l1 ++ e :: l2) :
    (∀ t b, e = .paused t b → b = stopped l1) ∧ (∀ t b, e = .was t b → b = stopped l1) ∧
    (∀ t b, e = .any t b → (b = true ↔ recorded l1 ≠ [])) ∧
    (∀ t a r, e = .reduce t a r → a = (recorded l1).flatMap Prod.fst ∧ r = (recorded l1).flatMap Prod.snd) := by
  obtain ⟨x, y, m, h1, _⟩ := history hl rfl
  refine ⟨fun t b he => ?_, fun t b he => ?_, fun t b he => ?_, fun t a r he => ?_⟩
  · subst he
    cases x with
    | run c =>
      cases c with
      | ret => cases h1
      | call o c => cases o <;> cases h1
      | has z f => cases h1
    | emit a r k => cases h1; rfl
    | _ => cases h1
  · subst he
    cases x with
    | run c =>
      cases c with
      | ret => cases h1
      | call o c => cases o <;> cases h1
      | has z f => cases h1
    | was o c => cases h1; rfl
    | _ => cases h1
  · subst he
    cases x with
    | run c =>
      cases c with
      | ret => cases h1
      | call o c => cases o <;> cases h1
      | has z f => cases h1
    | any o c => cases h1; simp
    | _ => cases h1
  · subst he
    cases x with
    | run c =>
      cases c with
      | ret => cases h1
      | call o c => cases o <;> cases h1
      | has z f => cases h1
    | reduce o c => cases h1; exact ⟨rfl, rfl⟩
    | _ => cases h1

/-- Thread 1's change is recorded and reduced by thread 0. -/
example : ([7, 8] : List Nat) = (recorded [.call 0 (.update [7]), .was 0 false, .pause 0, .test 0 7 false, .put 0 7, .paused 0 true, .record 0 [7] [],
    .call 1 (.add 8), .test 1 8 false, .put 1 8, .paused 1 true, .record 1 [8] [], .resume 0, .any 0 true]).flatMap Prod.fst :=
  ((C96_signal [5, 6] (exP (exUpd [7]) (exAdd 8)) [0, 0, 0, 0, 0, 0, 0, 1, 1, 1, 1, 1, 0, 0, 0] _ [] (.reduce 0 [7, 8] []) (by decide)).2.2.2 0 [7, 8] [] rfl).1

/-! ## Calls -/

/-- What a thread does follows its program: whole calls one after the other, each with all its events in order. -/
theorem C96_program (d : List Nat) (prog : Nat → Code) (s : List Nat) (t : Nat) (c : Code) (ht : (run s (init d prog)).thr t = .run c) :
    Follows t (prog t) ((run s (init d prog)).log.filter (fun e => e.thread == t)) c := by
  obtain ⟨l, m, h1, h2, h3⟩ := blocked_run d prog s t
  rw [ht] at h1 h2
  obtain rfl : m = [] := h2
  rw [List.append_nil] at h3
  rw [show (run s (init d prog)).log.filter (fun e => e.thread == t) = l from h3]
  exact h1

/-- The calls of a thread do not mix: its events are whole calls and looks, and the begin of one. -/
theorem C96_blocks (d : List Nat) (prog : Nat → Code) (s : List Nat) (t : Nat) :
    ∃ l m, (run s (init d prog)).log.filter (fun e => e.thread == t) = l ++ m ∧ Blocks t l ∧ ((∃ c, (run s (init d prog)).thr t = .run c) → m = []) := by
  obtain ⟨l, m, h1, h2, h3⟩ := blocked_run d prog s t
  refine ⟨l, m, h3, h1.blocks, ?_⟩
  rintro ⟨c, hc⟩
  rw [hc] at h2
  exact h2

/-- Thread 0 updates while thread 1 looks. -/
example : Follows 0 (exUpd [7, 5]) [.call 0 (.update [7, 5]), .was 0 false, .pause 0, .test 0 7 false, .put 0 7, .paused 0 true, .record 0 [7] [], .test 0 5 true,
    .resume 0, .any 0 true, .reduce 0 [7] [], .told 0 [7] [], .forget 0, .done 0] .ret :=
  C96_program [5, 6] (exP (exUpd [7, 5]) (.has 7 fun _ => .ret)) [0, 0, 0, 0, 0, 1, 0, 0, 0, 0, 0, 0, 0, 0, 0] 0 .ret (by rfl)

/-! ## What is told -/

theorem last_of {t : Nat} {A B m : List Ev} {e : Ev} (hB : only t B = m ++ [e]) : ∃ A' B', A ++ B = A' ++ e :: B' ∧ Free t B' := by
  obtain ⟨B1, B2, rfl, _, hB2⟩ := only_append hB
  obtain ⟨C, D, rfl, _, hD⟩ := only_cons hB2
  exact ⟨A ++ B1 ++ C, D, by simp, only_nil hD⟩

/-- A thread stores an item only if it saw that it is not there, drops one only if it saw it, and drops all items after it took `tuple(self)`, which is what the
set held then. -/
theorem C96_change (d : List Nat) (prog : Nat → Code) (s : List Nat) (l1 l2 : List Ev) (e : Ev) (hl : (run s (init d prog)).log = l1 ++ e :: l2) :
    (∀ t x, e = .put t x → ∃ A B, l1 = A ++ .test t x false :: B ∧ Free t B ∧ x ∉ value d A) ∧
    (∀ t x, e = .drop t x → ∃ A B, l1 = A ++ .test t x true :: B ∧ Free t B ∧ x ∈ value d A) ∧
    (∀ t l, e = .wipe t l → ∃ A B, l1 = A ++ .items t l :: B ∧ Free t B ∧ l = value d A) := by
  refine ⟨fun t z he => ?_, fun t z he => ?_, fun t l he => ?_⟩
  · subst he
    obtain ⟨x, y, m, h1, h2, A, B, rfl, _, hB⟩ := history (t := t) hl rfl
    cases x with
    | run c =>
      cases c with
      | ret => cases h1
      | call o c => cases o <;> cases h1
      | has z f => cases h1
    | put z k =>
      cases h1
      obtain ⟨m', _, rfl⟩ := h2
      obtain ⟨A', B', h3, h4⟩ := last_of (A := A) hB
      refine ⟨A', B', h3, h4, fun hz => ?_⟩
      rw [h3] at hl
      have := ((C96_look d prog s A' (B' ++ .put t z :: l2) (.test t z false) (by rw [hl]; simp)).2.1 t z false rfl).mpr hz
      cases this
    | _ => cases h1
  · subst he
    obtain ⟨x, y, m, h1, h2, A, B, rfl, _, hB⟩ := history (t := t) hl rfl
    cases x with
    | run c =>
      cases c with
      | ret => cases h1
      | call o c => cases o <;> cases h1
      | has z f => cases h1
    | drop z k =>
      cases h1
      obtain ⟨m', _, rfl⟩ := h2
      obtain ⟨A', B', h3, h4⟩ := last_of (A := A) hB
      refine ⟨A', B', h3, h4, ?_⟩
      rw [h3] at hl
      exact ((C96_look d prog s A' (B' ++ .drop t z :: l2) (.test t z true) (by rw [hl]; simp)).2.1 t z true rfl).mp rfl
    | _ => cases h1
  · subst he
    obtain ⟨x, y, m, h1, h2, A, B, rfl, _, hB⟩ := history (t := t) hl rfl
    cases x with
    | run c =>
      cases c with
      | ret => cases h1
      | call o c => cases o <;> cases h1
      | has z f => cases h1
    | wipe l w c =>
      cases h1
      have h2 : m = (head t .clear (some w) ++ [.empty t false]) ++ [.items t l] := by rw [show m = _ from h2]; simp
      subst h2
      obtain ⟨A', B', h3, h4⟩ := last_of (A := A) hB
      refine ⟨A', B', h3, h4, ?_⟩
      rw [h3] at hl
      exact (C96_look d prog s A' (B' ++ .wipe t l :: l2) (.items t l) (by rw [hl]; simp)).2.2.2 t l rfl
    | _ => cases h1

/-- Thread 1 clears; thread 0 has added an item after `tuple(self)`, and it is gone. -/
example : ∃ A B, [Ev.call 1 .clear, .was 1 false, .pause 1, .empty 1 false, .items 1 [5, 6], .call 0 (.add 7), .test 0 7 false, .put 0 7] =
    A ++ .items 1 [5, 6] :: B ∧ Free 1 B ∧ [5, 6] = value [5, 6] A :=
  (C96_change [5, 6] (exP (exAdd 7) exClr) [1, 1, 1, 1, 1, 0, 0, 0, 1] _ [] (.wipe 1 [5, 6]) (by decide)).2.2 1 [5, 6] rfl

/-- What is told at once: exactly the change that the thread has just made, after it saw that the signal is not paused.  What is told otherwise: everything that was
recorded when it was reduced. -/
theorem C96_told (d : List Nat) (prog : Nat → Code) (s : List Nat) (l1 l2 : List Ev) (t : Nat) (a r : List Nat)
    (hl : (run s (init d prog)).log = l1 ++ .told t a r :: l2) :
    (∃ A e B C, l1 = A ++ e :: (B ++ .paused t false :: C) ∧ Free t B ∧ Free t C ∧
      ((∃ x, e = .put t x ∧ a = [x] ∧ r = []) ∨ (∃ x, e = .drop t x ∧ a = [] ∧ r = [x]) ∨ (e = .wipe t r ∧ a = []))) ∨
    (∃ A B, l1 = A ++ .reduce t a r :: B ∧ Free t B ∧ a = (recorded A).flatMap Prod.fst ∧ r = (recorded A).flatMap Prod.snd) := by
  obtain ⟨x, y, m, h1, h2, A, B, rfl, _, hB⟩ := history (t := t) hl rfl
  cases x with
  | run c =>
    cases c with
    | ret => cases h1
    | call o c => cases o <;> cases h1
    | has z f => cases h1
  | tell a r k =>
    cases h1
    left
    have two : ∀ {m' : List Ev} {e : Ev}, m = m' ++ [e, .paused t false] → ∃ A' B' C', A ++ B = A' ++ e :: (B' ++ .paused t false :: C') ∧
        Free t B' ∧ Free t C' := by
      intro m' e hm
      rw [hm] at hB
      obtain ⟨B1, B2, rfl, _, hB2⟩ := only_append hB
      obtain ⟨C, D, rfl, _, hD⟩ := only_cons hB2
      obtain ⟨E, F, rfl, hE, hF⟩ := only_cons hD
      exact ⟨A ++ B1 ++ C, E, F, by simp, hE, only_nil hF⟩
    obtain ⟨m', h2, rfl⟩ := h2
    rcases h2 with ⟨z, m'', _, rfl, rfl, rfl⟩ | ⟨z, m'', _, rfl, rfl, rfl⟩ | ⟨_, _, w, _, rfl, rfl⟩
    · obtain ⟨A', B', C', h3, h4, h5⟩ := two (m' := m'' ++ [.test t z false]) (e := .put t z) (by simp)
      exact ⟨A', _, B', C', h3, h4, h5, .inl ⟨z, rfl, rfl, rfl⟩⟩
    · obtain ⟨A', B', C', h3, h4, h5⟩ := two (m' := m'' ++ [.test t z true]) (e := .drop t z) (by simp)
      exact ⟨A', _, B', C', h3, h4, h5, .inr (.inl ⟨z, rfl, rfl, rfl⟩)⟩
    · obtain ⟨A', B', C', h3, h4, h5⟩ := two (m' := head t .clear (some w) ++ [.empty t false, .items t r]) (e := .wipe t r) (by simp)
      exact ⟨A', _, B', C', h3, h4, h5, .inr (.inr ⟨rfl, rfl⟩)⟩
  | tellR o a r c =>
    cases h1
    right
    obtain ⟨b, _, rfl⟩ := h2
    have hB' : only t B = (head t o (some false) ++ (b ++ [.resume t, .any t true])) ++ [.reduce t a r] := by rw [hB]; simp
    obtain ⟨B1, B2, rfl, _, hB2⟩ := only_append hB'
    obtain ⟨C, D, rfl, _, hD⟩ := only_cons hB2
    refine ⟨A ++ B1 ++ C, D, by simp, only_nil hD, ?_⟩
    exact (C96_signal d prog s (A ++ B1 ++ C) (D ++ .told t a r :: l2) (.reduce t a r) (by rw [hl]; simp)).2.2.2 t a r rfl
  | _ => cases h1

/-- Thread 1 tells at once. -/
example : ∃ A e B C, [Ev.call 1 (.add 7), .test 1 7 false, .put 1 7, .look 0 7 true, .paused 1 false] = A ++ e :: (B ++ .paused 1 false :: C) ∧ Free 1 B ∧ Free 1 C ∧
    ((∃ x, e = .put 1 x ∧ [7] = [x] ∧ ([] : List Nat) = []) ∨ (∃ x, e = .drop 1 x ∧ [7] = ([] : List Nat) ∧ [] = [x]) ∨ (e = .wipe 1 [] ∧ [7] = ([] : List Nat))) := by
  rcases C96_told [5, 6] (exP (.has 7 fun _ => .ret) (exAdd 7)) [1, 1, 1, 0, 1, 1]
      [.call 1 (.add 7), .test 1 7 false, .put 1 7, .look 0 7 true, .paused 1 false] [] 1 [7] [] (by decide) with h | ⟨A, B, h, _⟩
  · exact h
  · have : Ev.reduce 1 [7] [] ∈ [Ev.call 1 (.add 7), .test 1 7 false, .put 1 7, .look 0 7 true, .paused 1 false] := by rw [h]; simp
    simp at this

theorem recorded_mem {l : List Ev} {a r : List Nat} (h : (a, r) ∈ recorded l) : ∃ t, .record t a r ∈ l := by
  unfold recorded at h
  have key : ∀ (l : List Ev) (q : List (List Nat × List Nat)), (a, r) ∈ l.foldl (fun q e => match e with
      | .record _ a r => q ++ [(a, r)]
      | .forget _ => []
      | _ => q) q → (a, r) ∈ q ∨ ∃ t, .record t a r ∈ l := by
    intro l
    induction l with
    | nil => exact fun _ h => .inl h
    | cons e l ih =>
      intro q h
      rcases ih _ h with h1 | ⟨t, h1⟩
      · cases e with
        | record t a' r' =>
          rcases List.mem_append.mp h1 with h2 | h2
          · exact .inl h2
          · have := List.mem_singleton.mp h2
            cases this
            exact .inr ⟨t, List.mem_cons_self⟩
        | forget t => cases h1
        | _ => exact .inl h1
      · exact .inr ⟨t, List.mem_cons_of_mem _ h1⟩
  rcases key l [] h with h | h
  · cases h
  · exact h

theorem record_source {d : List Nat} {prog : Nat → Code} {s : List Nat} {l1 l2 : List Ev} {t : Nat} {a r : List Nat}
    (hl : (run s (init d prog)).log = l1 ++ .record t a r :: l2) :
    (∃ x, a = [x] ∧ r = [] ∧ .put t x ∈ l1) ∨ (∃ x, a = [] ∧ r = [x] ∧ .drop t x ∈ l1) ∨ (a = [] ∧ .wipe t r ∈ l1) := by
  obtain ⟨x, y, m, h1, h2, A, B, rfl, _, hB⟩ := history (t := t) hl rfl
  have mem : ∀ {e}, e ∈ m → e ∈ A ++ B := fun he => List.mem_append_right _ (List.mem_filter.mp (by rw [show List.filter _ B = m from hB]; exact he)).1
  cases x with
  | run c =>
    cases c with
    | ret => cases h1
    | call o c => cases o <;> cases h1
    | has z f => cases h1
  | record a r k =>
    cases h1
    obtain ⟨m', h2, rfl⟩ := h2
    rcases h2 with ⟨z, m'', _, rfl, rfl, rfl⟩ | ⟨z, m'', _, rfl, rfl, rfl⟩ | ⟨_, _, w, _, rfl, rfl⟩
    · exact .inl ⟨z, rfl, rfl, mem (by simp)⟩
    · exact .inr (.inl ⟨z, rfl, rfl, mem (by simp)⟩)
    · exact .inr (.inr ⟨rfl, mem (by simp)⟩)
  | _ => cases h1

/-- Nothing is invented: an item told to be added has been stored before; one told to be removed has been dropped before, alone or with all others. -/
theorem C96_origin (d : List Nat) (prog : Nat → Code) (s : List Nat) (l1 l2 : List Ev) (t : Nat) (a r : List Nat)
    (hl : (run s (init d prog)).log = l1 ++ .told t a r :: l2) (x : Nat) :
    (x ∈ a → ∃ u, .put u x ∈ l1) ∧ (x ∈ r → ∃ u, .drop u x ∈ l1 ∨ ∃ l, x ∈ l ∧ .wipe u l ∈ l1) := by
  rcases C96_told d prog s l1 l2 t a r hl with ⟨A, e, B, C, rfl, _, _, h⟩ | ⟨A, B, rfl, _, ha, hr⟩
  · rcases h with ⟨z, rfl, rfl, rfl⟩ | ⟨z, rfl, rfl, rfl⟩ | ⟨rfl, rfl⟩
    · exact ⟨fun h => ⟨t, by rw [List.mem_singleton.mp h]; simp⟩, fun h => (nomatch h)⟩
    · exact ⟨fun h => (nomatch h), fun h => ⟨t, .inl (by rw [List.mem_singleton.mp h]; simp)⟩⟩
    · exact ⟨fun h => (nomatch h), fun h => ⟨t, .inr ⟨r, h, by simp⟩⟩⟩
  · have src : ∀ a' r', (a', r') ∈ recorded A → ∃ u, (∃ x, a' = [x] ∧ r' = [] ∧ .put u x ∈ A) ∨ (∃ x, a' = [] ∧ r' = [x] ∧ .drop u x ∈ A) ∨
        (a' = [] ∧ .wipe u r' ∈ A) := by
      intro a' r' h
      obtain ⟨u, hu⟩ := recorded_mem h
      obtain ⟨A1, A2, rfl⟩ := List.append_of_mem hu
      refine ⟨u, ?_⟩
      have := record_source (d := d) (prog := prog) (s := s) (l1 := A1) (t := u) (a := a') (r := r') (l2 := A2 ++ .reduce t a r :: (B ++ .told t a r :: l2))
        (by rw [hl]; simp)
      rcases this with ⟨x, h1, h2, h3⟩ | ⟨x, h1, h2, h3⟩ | ⟨h1, h3⟩
      · exact .inl ⟨x, h1, h2, List.mem_append_left _ h3⟩
      · exact .inr (.inl ⟨x, h1, h2, List.mem_append_left _ h3⟩)
      · exact .inr (.inr ⟨h1, List.mem_append_left _ h3⟩)
    refine ⟨fun h => ?_, fun h => ?_⟩
    · rw [ha] at h
      obtain ⟨⟨a', r'⟩, h1, h2⟩ := List.mem_flatMap.mp h
      obtain ⟨u, ⟨z, rfl, _, h3⟩ | ⟨z, rfl, _, h3⟩ | ⟨rfl, h3⟩⟩ := src a' r' h1
      · exact ⟨u, by rw [List.mem_singleton.mp h2]; exact List.mem_append_left _ h3⟩
      · cases h2
      · cases h2
    · rw [hr] at h
      obtain ⟨⟨a', r'⟩, h1, h2⟩ := List.mem_flatMap.mp h
      obtain ⟨u, ⟨z, _, rfl, h3⟩ | ⟨z, _, rfl, h3⟩ | ⟨_, h3⟩⟩ := src a' r' h1
      · cases h2
      · exact ⟨u, .inl (by rw [List.mem_singleton.mp h2]; exact List.mem_append_left _ h3)⟩
      · exact ⟨u, .inr ⟨r', h2, List.mem_append_left _ h3⟩⟩

/-- Thread 0 tells what thread 1 has stored. -/
example : ∃ u, Ev.put u 8 ∈ [Ev.call 0 (.update [7]), .was 0 false, .pause 0, .test 0 7 false, .put 0 7, .paused 0 true, .record 0 [7] [],
    .call 1 (.add 8), .test 1 8 false, .put 1 8, .paused 1 true, .record 1 [8] [], .resume 0, .any 0 true, .reduce 0 [7, 8] []] :=
  (C96_origin [5, 6] (exP (exUpd [7]) (exAdd 8)) [0, 0, 0, 0, 0, 0, 0, 1, 1, 1, 1, 1, 0, 0, 0, 0] _ [] 0 [7, 8] [] (by decide) 8).1 (by decide)

/-! ## Counting -/

/-- `x` is stored. -/
def Ev.isPut (x : Nat) : Ev → Nat
  | .put _ y => if y = x then 1 else 0
  | _ => 0

/-- `x` is dropped, alone or with all others. -/
def Ev.isDrop (x : Nat) : Ev → Nat
  | .drop _ y => if y = x then 1 else 0
  | .wipe _ l => l.count x
  | _ => 0

/-- `x` is told to be added. -/
def Ev.toldAdd (x : Nat) : Ev → Nat
  | .told _ a _ => a.count x
  | _ => 0

/-- `x` is told to be removed. -/
def Ev.toldDrop (x : Nat) : Ev → Nat
  | .told _ _ r => r.count x
  | _ => 0

/-- It is recorded that `x` is added. -/
def Ev.recordAdd (x : Nat) : Ev → Nat
  | .record _ a _ => a.count x
  | _ => 0

/-- It is recorded that `x` is removed. -/
def Ev.recordDrop (x : Nat) : Ev → Nat
  | .record _ _ r => r.count x
  | _ => 0

/-- That `x` is added is in what a `resume` took from the record. -/
def Ev.reduceAdd (x : Nat) : Ev → Nat
  | .reduce _ a _ => a.count x
  | _ => 0

/-- That `x` is removed is in what a `resume` took from the record. -/
def Ev.reduceDrop (x : Nat) : Ev → Nat
  | .reduce _ _ r => r.count x
  | _ => 0

theorem rest_run {d : List Nat} {prog : Nat → Code} {s : List Nat} (hr : ∀ t, ¬ InOp t (run s (init d prog)).log) (t : Nat) :
    ∃ c, (run s (init d prog)).thr t = .run c := by
  have h := (open_run d prog s t).1
  cases hc : (run s (init d prog)).thr t with
  | run c => exact ⟨c, rfl⟩
  | _ => rw [hc] at h; exact absurd (h rfl) (hr t)

theorem tally_two {f g h : Ev → Nat} (hf : ∀ e, h e = f e + g e) (l : List Ev) : tally h l = tally f l + tally g l := by
  rw [show h = fun e => f e + g e from funext hf, tally_add]

/-- Every change is told or recorded, exactly once, whatever the interleaving: when nobody is in a method, stored items and items taken from the record are as
many as items told to be added and items recorded to be added; the same for removals. -/
theorem C96_account (d : List Nat) (prog : Nat → Code) (s : List Nat) (x : Nat) (hr : ∀ t, ¬ InOp t (run s (init d prog)).log) :
    ((run s (init d prog)).log.map (Ev.isPut x)).sum + ((run s (init d prog)).log.map (Ev.reduceAdd x)).sum =
      ((run s (init d prog)).log.map (Ev.toldAdd x)).sum + ((run s (init d prog)).log.map (Ev.recordAdd x)).sum ∧
    ((run s (init d prog)).log.map (Ev.isDrop x)).sum + ((run s (init d prog)).log.map (Ev.reduceDrop x)).sum =
      ((run s (init d prog)).log.map (Ev.toldDrop x)).sum + ((run s (init d prog)).log.map (Ev.recordDrop x)).sum := by
  have h1 := Fair.rest (fun t => fair_adds t x) (rest_run hr)
  have h2 := Fair.rest (fun t => fair_drops t x) (rest_run hr)
  rw [tally_two (h := Ev.adds x) (f := Ev.isPut x) (g := Ev.reduceAdd x) (fun e => by cases e <;> simp [Ev.adds, Ev.isPut, Ev.reduceAdd]),
    tally_two (h := Ev.added x) (f := Ev.toldAdd x) (g := Ev.recordAdd x) (fun e => by cases e <;> simp [Ev.added, Ev.toldAdd, Ev.recordAdd])] at h1
  rw [tally_two (h := Ev.drops x) (f := Ev.isDrop x) (g := Ev.reduceDrop x) (fun e => by cases e <;> simp [Ev.drops, Ev.isDrop, Ev.reduceDrop]),
    tally_two (h := Ev.dropped x) (f := Ev.toldDrop x) (g := Ev.recordDrop x) (fun e => by cases e <;> simp [Ev.dropped, Ev.toldDrop, Ev.recordDrop])] at h2
  exact ⟨h1, h2⟩

theorem stopped_pause {l : List Ev} (h : stopped l = true) : ∃ t, .pause t ∈ l := by
  have key : ∀ (l : List Ev) (b : Bool), l.foldl (fun b e => match e with
      | .pause _ => true
      | .resume _ => false
      | _ => b) b = true → b = true ∨ ∃ t, .pause t ∈ l := by
    intro l
    induction l with
    | nil => exact fun _ h => .inl h
    | cons e l ih =>
      intro b h
      rcases ih _ h with h1 | ⟨t, h1⟩
      · cases e with
        | pause t => exact .inr ⟨t, List.mem_cons_self⟩
        | resume t => cases h1
        | _ => exact .inl h1
      · exact .inr ⟨t, List.mem_cons_of_mem _ h1⟩
  rcases key l false h with h | h
  · cases h
  · exact h

theorem pause_call {d : List Nat} {prog : Nat → Code} {s : List Nat} {t : Nat} (h : .pause t ∈ (run s (init d prog)).log) :
    ∃ o, o.bulk = true ∧ .call t o ∈ (run s (init d prog)).log := by
  obtain ⟨l1, l2, hl⟩ := List.append_of_mem h
  obtain ⟨x, y, m, h1, h2, A, B, rfl, _, hB⟩ := history (t := t) hl rfl
  have mem : ∀ {e}, e ∈ m → e ∈ (run s (init d prog)).log := fun he => by
    rw [hl]
    exact List.mem_append_left _ (List.mem_append_right _ (List.mem_filter.mp (by rw [show List.filter _ B = m from hB]; exact he)).1)
  cases x with
  | run c =>
    cases c with
    | ret => cases h1
    | call o c => cases o <;> cases h1
    | has z f => cases h1
  | pause o w c =>
    cases h1
    obtain ⟨h3, rfl⟩ := h2
    exact ⟨o, h3, mem (by simp)⟩
  | _ => cases h1

/-- Without bulk methods nothing is recorded, reduced or wiped. -/
theorem single_log {d : List Nat} {prog : Nat → Code} {s : List Nat}
    (hc : ∀ t o, .call t o ∈ (run s (init d prog)).log → (∃ x, o = .add x) ∨ ∃ x, o = .discard x) (t : Nat) (a r : List Nat) :
    .record t a r ∉ (run s (init d prog)).log ∧ .reduce t a r ∉ (run s (init d prog)).log ∧ .wipe t r ∉ (run s (init d prog)).log := by
  have nop : ∀ u, .pause u ∉ (run s (init d prog)).log := fun u hu => by
    obtain ⟨o, h1, h2⟩ := pause_call hu
    rcases hc u o h2 with ⟨x, rfl⟩ | ⟨x, rfl⟩ <;> cases h1
  refine ⟨fun h => ?_, fun h => ?_, fun h => ?_⟩
  · obtain ⟨l1, l2, hl⟩ := List.append_of_mem h
    obtain ⟨x, y, m, h1, h2, A, B, rfl, _, hB⟩ := history (t := t) hl rfl
    cases x with
    | run c =>
      cases c with
      | ret => cases h1
      | call o c => cases o <;> cases h1
      | has z f => cases h1
    | record a r k =>
      cases h1
      obtain ⟨m', _, rfl⟩ := h2
      obtain ⟨B1, B2, rfl, _, hB2⟩ := only_append hB
      obtain ⟨C, D, rfl, _, hD⟩ := only_cons hB2
      have hs := (C96_signal d prog s (A ++ (B1 ++ C)) (D ++ .record t a r :: l2) (.paused t true) (by rw [hl]; simp)).1 t true rfl
      obtain ⟨u, hu⟩ := stopped_pause hs.symm
      exact nop u (by rw [hl]; simp only [List.mem_append] at hu ⊢; rcases hu with hu | hu | hu <;> simp [hu])
    | _ => cases h1
  · obtain ⟨l1, l2, hl⟩ := List.append_of_mem h
    obtain ⟨x, y, m, h1, h2, A, B, rfl, _, hB⟩ := history (t := t) hl rfl
    cases x with
    | run c =>
      cases c with
      | ret => cases h1
      | call o c => cases o <;> cases h1
      | has z f => cases h1
    | reduce o c =>
      cases h1
      obtain ⟨b, _, rfl⟩ := h2
      have : Ev.pause t ∈ B := (List.mem_filter.mp (show Ev.pause t ∈ List.filter _ B by rw [show List.filter _ B = _ from hB]; simp [head])).1
      exact nop t (by rw [hl]; simp [this])
    | _ => cases h1
  · obtain ⟨l1, l2, hl⟩ := List.append_of_mem h
    obtain ⟨x, y, m, h1, h2, A, B, rfl, _, hB⟩ := history (t := t) hl rfl
    cases x with
    | run c =>
      cases c with
      | ret => cases h1
      | call o c => cases o <;> cases h1
      | has z f => cases h1
    | wipe l w c =>
      cases h1
      have h2 : m = head t .clear (some w) ++ [.empty t false, .items t r] := h2
      subst h2
      have : Ev.pause t ∈ B := (List.mem_filter.mp (show Ev.pause t ∈ List.filter _ B by rw [show List.filter _ B = _ from hB]; simp [head])).1
      exact nop t (by rw [hl]; simp [this])
    | _ => cases h1

theorem tally_zero {f : Ev → Nat} {l : List Ev} (h : ∀ e ∈ l, f e = 0) : (l.map f).sum = 0 := by
  induction l with
  | nil => rfl
  | cons e l ih =>
    rw [List.map_cons, List.sum_cons, h e List.mem_cons_self, ih (fun e he => h e (List.mem_cons_of_mem _ he))]

/-- If only `add` and `discard` are used, each item is told to be added exactly as often as it was stored, and told to be removed exactly as often as it was dropped,
whatever the interleaving. -/
theorem C96_single (d : List Nat) (prog : Nat → Code) (s : List Nat) (x : Nat)
    (hc : ∀ t o, .call t o ∈ (run s (init d prog)).log → (∃ x, o = .add x) ∨ ∃ x, o = .discard x) (hr : ∀ t, ¬ InOp t (run s (init d prog)).log) :
    ((run s (init d prog)).log.map (Ev.isPut x)).sum = ((run s (init d prog)).log.map (Ev.toldAdd x)).sum ∧
    ((run s (init d prog)).log.map (Ev.isDrop x)).sum = ((run s (init d prog)).log.map (Ev.toldDrop x)).sum := by
  obtain ⟨h1, h2⟩ := C96_account d prog s x hr
  have z : ∀ f : Ev → Nat, (∀ e, (∀ t a r, e ≠ .record t a r) → (∀ t a r, e ≠ .reduce t a r) → f e = 0) → ((run s (init d prog)).log.map f).sum = 0 := by
    intro f hf
    refine tally_zero fun e he => hf e (fun t a r e' => ?_) (fun t a r e' => ?_)
    · exact (single_log hc t a r).1 (e' ▸ he)
    · exact (single_log hc t a r).2.1 (e' ▸ he)
  rw [z (Ev.reduceAdd x) (fun e _ h => by cases e <;> first | rfl | exact absurd rfl (h _ _ _)),
    z (Ev.recordAdd x) (fun e h _ => by cases e <;> first | rfl | exact absurd rfl (h _ _ _))] at h1
  rw [z (Ev.reduceDrop x) (fun e _ h => by cases e <;> first | rfl | exact absurd rfl (h _ _ _)),
    z (Ev.recordDrop x) (fun e h _ => by cases e <;> first | rfl | exact absurd rfl (h _ _ _))] at h2
  exact ⟨h1, h2⟩

theorem sum_pos {f : Ev → Nat} {l : List Ev} : (l.map f).sum ≠ 0 ↔ ∃ e ∈ l, f e ≠ 0 := by
  induction l with
  | nil => simp
  | cons e l ih =>
    rw [List.map_cons, List.sum_cons]
    constructor
    · intro h
      by_cases he : f e = 0
      · obtain ⟨e', h1, h2⟩ := ih.mp (by omega)
        exact ⟨e', List.mem_cons_of_mem _ h1, h2⟩
      · exact ⟨e, List.mem_cons_self, he⟩
    · rintro ⟨e', h1, h2⟩
      rcases List.mem_cons.mp h1 with rfl | h1
      · omega
      · have := ih.mpr ⟨e', h1, h2⟩; omega

theorem value_adds {x : Nat} : ∀ {l : List Ev} {d : List Nat}, (∀ t y, .drop t y ∉ l) → (∀ t m, .wipe t m ∉ l) →
    (x ∈ value d l ↔ x ∈ d ∨ ∃ t, .put t x ∈ l)
  | [], d, _, _ => by simp [value]
  | e :: l, d, h1, h2 => by
    rw [show e :: l = [e] ++ l from rfl, value_append,
      value_adds (fun t y h => h1 t y (List.mem_cons_of_mem _ h)) (fun t m h => h2 t m (List.mem_cons_of_mem _ h))]
    cases e with
    | put u y =>
      show (x ∈ (if y ∈ d then d else d ++ [y])) ∨ _ ↔ _
      by_cases hy : y ∈ d
      · rw [if_pos hy]
        constructor
        · rintro (h | ⟨t, h⟩)
          · exact .inl h
          · exact .inr ⟨t, List.mem_cons_of_mem _ h⟩
        · rintro (h | ⟨t, h⟩)
          · exact .inl h
          · rcases List.mem_cons.mp h with h | h
            · cases h; exact .inl hy
            · exact .inr ⟨t, h⟩
      · rw [if_neg hy, List.mem_append, List.mem_singleton]
        constructor
        · rintro ((h | rfl) | ⟨t, h⟩)
          · exact .inl h
          · exact .inr ⟨u, List.mem_cons_self⟩
          · exact .inr ⟨t, List.mem_cons_of_mem _ h⟩
        · rintro (h | ⟨t, h⟩)
          · exact .inl (.inl h)
          · rcases List.mem_cons.mp h with h | h
            · cases h; exact .inl (.inr rfl)
            · exact .inr ⟨t, h⟩
    | drop u y => exact absurd List.mem_cons_self (h1 u y)
    | wipe u m => exact absurd List.mem_cons_self (h2 u m)
    | _ =>
      refine or_congr Iff.rfl ⟨fun ⟨t, h⟩ => ⟨t, List.mem_cons_of_mem _ h⟩, fun ⟨t, h⟩ => ?_⟩
      rcases List.mem_cons.mp h with h | h
      · cases h
      · exact ⟨t, h⟩

theorem drop_call {d : List Nat} {prog : Nat → Code} {s : List Nat} {t x : Nat} (h : .drop t x ∈ (run s (init d prog)).log) :
    ∃ o, (∀ y, o ≠ .add y) ∧ .call t o ∈ (run s (init d prog)).log := by
  obtain ⟨l1, l2, hl⟩ := List.append_of_mem h
  obtain ⟨z, y, m, h1, h2, A, B, rfl, _, hB⟩ := history (t := t) hl rfl
  have mem : ∀ {e}, e ∈ m → e ∈ (run s (init d prog)).log := fun he => by
    rw [hl]
    exact List.mem_append_left _ (List.mem_append_right _ (List.mem_filter.mp (by rw [show List.filter _ B = m from hB]; exact he)).1)
  have pre : ∀ {k : Rest} {a : Do} {m' : List Ev}, Pre t k a m' → (∀ y, a ≠ .add y) → (∀ y, k.call ≠ .add y) ∧ .call t k.call ∈ m' := by
    rintro k a m' ⟨b, s, ds, rfl, h3, _⟩ ha
    refine ⟨fun y hy => ?_, ?_⟩
    · rw [hy] at h3
      generalize hds : ds ++ a :: k.todo = L at h3
      generalize k.saw = w at h3
      cases h3
      have : a ∈ [Do.add y] := by rw [← hds]; simp
      exact ha y (List.mem_singleton.mp this)
    · cases k.saw <;> simp [head]
  cases z with
  | run c =>
    cases c with
    | ret => cases h1
    | call o c => cases o <;> cases h1
    | has z f => cases h1
  | drop z k =>
    cases h1
    obtain ⟨m', h3 | ⟨m'', h3, rfl⟩, rfl⟩ := h2
    · obtain ⟨h4, h5⟩ := pre h3 (by simp)
      exact ⟨k.call, h4, mem (by simp [h5])⟩
    · obtain ⟨h4, h5⟩ := pre h3 (by simp)
      exact ⟨k.call, h4, mem (by simp [h5])⟩
  | _ => cases h1

/-- If items are only added, one at a time, then whatever the interleaving: when nobody is in `add`, the set has the items it had and those told to be added. -/
theorem C96_adds (d : List Nat) (prog : Nat → Code) (s : List Nat) (x : Nat)
    (hc : ∀ t o, .call t o ∈ (run s (init d prog)).log → ∃ x, o = .add x) (hr : ∀ t, ¬ InOp t (run s (init d prog)).log) :
    x ∈ (run s (init d prog)).data.set ↔ x ∈ d ∨ ∃ t a r, .told t a r ∈ (run s (init d prog)).log ∧ x ∈ a := by
  rw [C96_set, value_adds (fun t y h => ?_) (fun t m h => (single_log (fun t o h => .inl (hc t o h)) t [] m).2.2 h)]
  · refine or_congr Iff.rfl ?_
    have h1 := (C96_single d prog s x (fun t o h => .inl (hc t o h)) hr).1
    constructor
    · rintro ⟨t, ht⟩
      have : ((run s (init d prog)).log.map (Ev.toldAdd x)).sum ≠ 0 := by
        rw [← h1]; exact sum_pos.mpr ⟨_, ht, by simp [Ev.isPut]⟩
      obtain ⟨e, h2, h3⟩ := sum_pos.mp this
      cases e with
      | told t a r => exact ⟨t, a, r, h2, List.count_pos_iff.mp (Nat.pos_of_ne_zero h3)⟩
      | _ => exact absurd rfl h3
    · rintro ⟨t, a, r, ht, hx⟩
      have : ((run s (init d prog)).log.map (Ev.isPut x)).sum ≠ 0 := by
        rw [h1]; exact sum_pos.mpr ⟨_, ht, by have := List.count_pos_iff.mpr hx; show a.count x ≠ 0; omega⟩
      obtain ⟨e, h2, h3⟩ := sum_pos.mp this
      cases e with
      | put t y =>
        by_cases hy : y = x
        · exact ⟨t, hy ▸ h2⟩
        · exact absurd (by simp [Ev.isPut, hy]) h3
      | _ => exact absurd rfl h3
  · obtain ⟨o, h2, h3⟩ := drop_call h
    obtain ⟨z, rfl⟩ := hc t o h3
    exact h2 z rfl

/-! ## The set used by one thread at a time -/

/-- Partial: if methods do not overlap - at no moment two threads are in one - then whenever nobody is in a method, someone who counts what is told has one for
the items in the set and zero for the others.  Missing: overlapping methods (`C96_double_refuted`, `C96_lost_refuted`, …). -/
theorem C96_mirror_partial (d : List Nat) (prog : Nat → Code) (s : List Nat) (hd : d.Nodup)
    (h : ∀ p q, s = p ++ q → ∀ t u, InOp t (run p (init d prog)).log → InOp u (run p (init d prog)).log → t = u)
    (hr : ∀ t, ¬ InOp t (run s (init d prog)).log) (x : Nat) :
    heard d x (run s (init d prog)).log = (if x ∈ (run s (init d prog)).data.set then 1 else 0) := by
  obtain ⟨h1, h2⟩ := (known_run hd h).rest (fun t => by obtain ⟨c, hc⟩ := rest_run hr t; rw [hc]; rfl)
  have h3 : has x (run s (init d prog)).data.set = heard d x (run s (init d prog)).log + net x (run s (init d prog)).data.queue + 0 := h1.2 x
  rw [h2.2] at h3
  have hn : net x [] = 0 := rfl
  show heard d x (run s (init d prog)).log = has x (run s (init d prog)).data.set
  omega

/-- Partial, under the same condition: nothing stays recorded and the signal does not stay paused.  Missing: overlapping methods (`C96_left_refuted`,
`C96_stuck_refuted`). -/
theorem C96_quiet_partial (d : List Nat) (prog : Nat → Code) (s : List Nat) (hd : d.Nodup)
    (h : ∀ p q, s = p ++ q → ∀ t u, InOp t (run p (init d prog)).log → InOp u (run p (init d prog)).log → t = u)
    (hr : ∀ t, ¬ InOp t (run s (init d prog)).log) :
    (run s (init d prog)).data.paused = false ∧ (run s (init d prog)).data.queue = [] :=
  ((known_run hd h).rest (fun t => by obtain ⟨c, hc⟩ := rest_run hr t; rw [hc]; rfl)).2

/-- Partial: if bulk methods do not overlap each other - `add` and `discard` may overlap anything - the signal is not paused when no bulk method is under way.
Missing: overlapping bulk methods (`C96_stuck_refuted`). -/
theorem C96_unpaused_partial (d : List Nat) (prog : Nat → Code) (s : List Nat)
    (h : ∀ p q, s = p ++ q → ∀ t u, InBulk t (run p (init d prog)).log → InBulk u (run p (init d prog)).log → t = u)
    (hr : ∀ t, ¬ InBulk t (run s (init d prog)).log) : (run s (init d prog)).data.paused = false := by
  cases hp : (run s (init d prog)).data.paused with
  | false => rfl
  | true =>
    obtain ⟨t, ht⟩ := (still_run h).sect hp
    exact absurd ((open_run d prog s t).2 (sect_bulk ht)) (hr t)

/-! ## What goes wrong -/

/-- Two threads add the same item: it is told to be added twice; someone who counts has two. -/
theorem C96_double_refuted : ∃ s, (run s (init [5, 6] (exP (exAdd 7) (exAdd 7)))).thr 0 = .run .ret ∧ (run s (init [5, 6] (exP (exAdd 7) (exAdd 7)))).thr 1 = .run .ret ∧
    (run s (init [5, 6] (exP (exAdd 7) (exAdd 7)))).data.set = [5, 6, 7] ∧ heard [5, 6] 7 (run s (init [5, 6] (exP (exAdd 7) (exAdd 7)))).log = 2 :=
  ⟨[0, 0, 1, 1, 0, 0, 0, 0, 1, 1, 1, 1], by rfl, by rfl, by decide, by decide⟩

/-- An item is added and discarded: it is not in the set, but the last thing told of it is that it is added. -/
theorem C96_order_refuted : ∃ s, (run s (init [5, 6] (exP (exAdd 7) (exDis 7)))).thr 0 = .run .ret ∧ (run s (init [5, 6] (exP (exAdd 7) (exDis 7)))).thr 1 = .run .ret ∧
    (run s (init [5, 6] (exP (exAdd 7) (exDis 7)))).data.set = [5, 6] ∧
    ∃ l1, (run s (init [5, 6] (exP (exAdd 7) (exDis 7)))).log = l1 ++ [.told 1 [] [7], .done 1, .paused 0 false, .told 0 [7] [], .done 0] :=
  ⟨[0, 0, 0, 1, 1, 1, 1, 1, 1, 0, 0, 0], by rfl, by rfl, by decide,
    [.call 0 (.add 7), .test 0 7 false, .put 0 7, .call 1 (.discard 7), .test 1 7 true, .drop 1 7, .paused 1 false], by decide⟩

/-- Two `update`s overlap: the second sees the signal paused by the first, pauses it after the first resumed, and does not resume.  The signal stays paused for good:
the item of the second, and every item added afterwards, is never told. -/
theorem C96_stuck_refuted : ∃ s, (run s (init [5, 6] (exP (.call (.update [7]) (exAdd 9)) (exUpd [8])))).thr 0 = .run .ret ∧
    (run s (init [5, 6] (exP (.call (.update [7]) (exAdd 9)) (exUpd [8])))).thr 1 = .run .ret ∧
    (run s (init [5, 6] (exP (.call (.update [7]) (exAdd 9)) (exUpd [8])))).data = ⟨[5, 6, 7, 8, 9], true, [([8], []), ([9], [])]⟩ ∧
    heard [5, 6] 8 (run s (init [5, 6] (exP (.call (.update [7]) (exAdd 9)) (exUpd [8])))).log = 0 ∧
    heard [5, 6] 9 (run s (init [5, 6] (exP (.call (.update [7]) (exAdd 9)) (exUpd [8])))).log = 0 :=
  ⟨[0, 0, 0, 1, 1, 0, 0, 0, 0, 0, 0, 0, 0, 0, 0, 1, 1, 1, 1, 1, 1, 0, 0, 0, 0, 0, 0], by rfl, by rfl, by decide, by decide, by decide⟩

/-- An item added during an `update` is recorded after the record was reduced and before it is emptied: it is in the set and never told. -/
theorem C96_lost_refuted : ∃ s, (run s (init [5, 6] (exP (exUpd [7]) (exAdd 8)))).thr 0 = .run .ret ∧ (run s (init [5, 6] (exP (exUpd [7]) (exAdd 8)))).thr 1 = .run .ret ∧
    (run s (init [5, 6] (exP (exUpd [7]) (exAdd 8)))).data = ⟨[5, 6, 8, 7], false, []⟩ ∧ heard [5, 6] 8 (run s (init [5, 6] (exP (exUpd [7]) (exAdd 8)))).log = 0 :=
  ⟨[0, 0, 0, 1, 1, 1, 1, 0, 0, 0, 0, 0, 0, 0, 1, 0, 0, 0, 1], by rfl, by rfl, by decide, by decide⟩

/-- An item added during an `update` is recorded after everything recorded was told: it stays recorded though the signal is not paused. -/
theorem C96_left_refuted : ∃ s, (run s (init [5, 6] (exP (exUpd [7]) (exAdd 8)))).thr 0 = .run .ret ∧ (run s (init [5, 6] (exP (exUpd [7]) (exAdd 8)))).thr 1 = .run .ret ∧
    (run s (init [5, 6] (exP (exUpd [7]) (exAdd 8)))).data = ⟨[5, 6, 8, 7], false, [([8], [])]⟩ ∧
    heard [5, 6] 8 (run s (init [5, 6] (exP (exUpd [7]) (exAdd 8)))).log = 0 :=
  ⟨[0, 0, 0, 1, 1, 1, 1, 0, 0, 0, 0, 0, 0, 0, 0, 0, 0, 1, 1], by rfl, by rfl, by decide, by decide⟩

/-- Two `update`s that both resume tell the item of one twice. -/
theorem C96_twice_refuted : ∃ s, (run s (init [5, 6] (exP (exUpd [7]) (exUpd [8])))).thr 0 = .run .ret ∧ (run s (init [5, 6] (exP (exUpd [7]) (exUpd [8])))).thr 1 = .run .ret ∧
    .told 0 [7] [] ∈ (run s (init [5, 6] (exP (exUpd [7]) (exUpd [8])))).log ∧ .told 1 [7, 8] [] ∈ (run s (init [5, 6] (exP (exUpd [7]) (exUpd [8])))).log :=
  ⟨[0, 0, 1, 1, 0, 0, 0, 0, 0, 0, 0, 0, 1, 1, 1, 1, 1, 1, 1, 1, 1, 1, 1, 0, 0, 0], by rfl, by rfl, by decide, by decide⟩

/-- An item added during `clear` is dropped by it; that it is added is told, that it is removed is not. -/
theorem C96_clear_refuted : ∃ s, (run s (init [5, 6] (exP exClr (exAdd 8)))).thr 0 = .run .ret ∧ (run s (init [5, 6] (exP exClr (exAdd 8)))).thr 1 = .run .ret ∧
    (run s (init [5, 6] (exP exClr (exAdd 8)))).data = ⟨[], false, []⟩ ∧ heard [5, 6] 8 (run s (init [5, 6] (exP exClr (exAdd 8)))).log = 1 :=
  ⟨[0, 0, 0, 0, 0, 1, 1, 1, 0, 0, 0, 0, 0, 0, 0, 0, 0, 1, 1, 1], by rfl, by rfl, by decide, by decide⟩

/-! ## Examples -/

/-- The threads that are in a method, by the events. -/
def open1 (o : List Nat) : Ev → List Nat
  | .call t _ => t :: o
  | .done t => o.filter (· != t)
  | _ => o

theorem opens_mem {t : Nat} {L : List Ev} (h : InOp t L) : t ∈ L.foldl open1 [] := by
  obtain ⟨A, o, B, rfl, h2⟩ := h
  rw [List.foldl_append]
  have key : ∀ (B : List Ev) (o : List Nat), .done t ∉ B → t ∈ o → t ∈ B.foldl open1 o := by
    intro B
    induction B with
    | nil => exact fun _ _ h => h
    | cons x B ih =>
      refine fun o hB h => ih _ (fun hy => hB (List.mem_cons_of_mem _ hy)) ?_
      cases x with
      | call u o' => exact List.mem_cons_of_mem _ h
      | done u =>
        have : t ≠ u := fun e => hB (by rw [e]; exact List.mem_cons_self)
        exact List.mem_filter.mpr ⟨h, by simpa using this⟩
      | _ => exact h
  exact key B _ h2 List.mem_cons_self

theorem exRest {d : List Nat} {s : List Nat} {prog : Nat → Code} (h : (run s (init d prog)).log.foldl open1 [] = []) (t : Nat) :
    ¬ InOp t (run s (init d prog)).log := fun ht => by
  have := opens_mem ht
  rw [h] at this
  cases this

/-- `C96_account` and `C96_lost_refuted`: 8 is stored once, recorded once, and neither reduced nor told. -/
example : ((run [0, 0, 0, 1, 1, 1, 1, 0, 0, 0, 0, 0, 0, 0, 1, 0, 0, 0, 1] (init [5, 6] (exP (exUpd [7]) (exAdd 8)))).log.map (Ev.isPut 8)).sum + 0 =
    0 + ((run [0, 0, 0, 1, 1, 1, 1, 0, 0, 0, 0, 0, 0, 0, 1, 0, 0, 0, 1] (init [5, 6] (exP (exUpd [7]) (exAdd 8)))).log.map (Ev.recordAdd 8)).sum :=
  (C96_account [5, 6] (exP (exUpd [7]) (exAdd 8)) [0, 0, 0, 1, 1, 1, 1, 0, 0, 0, 0, 0, 0, 0, 1, 0, 0, 0, 1] 8 (exRest (by decide))).1

theorem exDouble_calls (t : Nat) (o : Call) (h : .call t o ∈ (run [0, 0, 1, 1, 0, 0, 0, 0, 1, 1, 1, 1] (init [5, 6] (exP (exAdd 7) (exAdd 7)))).log) :
    ∃ x, o = .add x := by
  rw [show (run [0, 0, 1, 1, 0, 0, 0, 0, 1, 1, 1, 1] (init [5, 6] (exP (exAdd 7) (exAdd 7)))).log = [.call 0 (.add 7), .test 0 7 false, .call 1 (.add 7),
    .test 1 7 false, .put 0 7, .paused 0 false, .told 0 [7] [], .done 0, .put 1 7, .paused 1 false, .told 1 [7] [], .done 1] from by decide] at h
  simp at h
  rcases h with ⟨_, rfl⟩ | ⟨_, rfl⟩ <;> exact ⟨7, rfl⟩

/-- `C96_single`, `C96_adds`: two threads add 7. -/
example : ((run [0, 0, 1, 1, 0, 0, 0, 0, 1, 1, 1, 1] (init [5, 6] (exP (exAdd 7) (exAdd 7)))).log.map (Ev.toldAdd 7)).sum = 2 ∧
    (7 ∈ [5, 6, 7] ↔ 7 ∈ [5, 6] ∨ ∃ t a r, .told t a r ∈ (run [0, 0, 1, 1, 0, 0, 0, 0, 1, 1, 1, 1] (init [5, 6] (exP (exAdd 7) (exAdd 7)))).log ∧ 7 ∈ a) :=
  ⟨((C96_single [5, 6] _ _ 7 (fun t o h => .inl (exDouble_calls t o h)) (exRest (by decide))).1).symm.trans (by decide),
    C96_adds [5, 6] _ _ 7 exDouble_calls (exRest (by decide))⟩

/-- One method after the other: thread 0 makes a symmetric difference, thread 1 clears, thread 1 looks in between. -/
def exS : List Nat := [0, 0, 0, 0, 0, 0, 1, 0, 0, 0, 0, 0, 0, 0, 0, 0, 0, 0, 0, 0] ++ [1, 1, 1, 1, 1, 1, 1, 1, 1, 1, 1, 1, 1, 1]

def exC : Nat → Code := exP (.call (.sym [5, 7]) .ret) (.has 5 fun _ => exClr)

theorem exS_one : ∀ i ∈ List.range 35, ∀ t ∈ (run (exS.take i) (init [5, 6] exC)).log.foldl open1 [],
    ∀ u ∈ (run (exS.take i) (init [5, 6] exC)).log.foldl open1 [], t = u := by decide +kernel

theorem exS_apart (p q : List Nat) (e : exS = p ++ q) (t u : Nat) (ht : InOp t (run p (init [5, 6] exC)).log)
    (hu : InOp u (run p (init [5, 6] exC)).log) : t = u := by
  have hp : p = exS.take p.length := by rw [e]; simp
  have hlen : p.length ∈ List.range 35 := by
    have := congrArg List.length e
    simp [exS] at this
    exact List.mem_range.mpr (by omega)
  have h1 := opens_mem ht
  have h2 := opens_mem hu
  rw [hp] at h1 h2
  exact exS_one p.length hlen t h1 u h2

/-- `C96_mirror_partial`, `C96_quiet_partial`. -/
example : heard [5, 6] 6 (run exS (init [5, 6] exC)).log = 0 ∧ (run exS (init [5, 6] exC)).data.queue = [] ∧
    .told 0 [7] [5] ∈ (run exS (init [5, 6] exC)).log ∧ .told 1 [] [6, 7] ∈ (run exS (init [5, 6] exC)).log := by
  refine ⟨?_, (C96_quiet_partial [5, 6] _ exS (by decide) exS_apart (exRest (by decide +kernel))).2, by decide +kernel, by decide +kernel⟩
  rw [C96_mirror_partial [5, 6] _ exS (by decide) exS_apart (exRest (by decide +kernel)) 6, show (run exS (init [5, 6] exC)).data.set = [] from by decide +kernel]
  rfl

/-- Thread 0 updates, thread 1 adds meanwhile. -/
def exU : List Nat := [0, 0, 0, 1, 1, 1, 1, 0, 0, 0, 0, 0, 0, 0, 1, 0, 0, 0, 1]

theorem exU_bulk (p q : List Nat) (e : exU = p ++ q) (t : Nat) (ht : InBulk t (run p (init [5, 6] (exP (exUpd [7]) (exAdd 8)))).log) : t = 0 := by
  obtain ⟨A, o, B, h1, _, h3, h4⟩ := ht
  have hm : .call t o ∈ (run p (init [5, 6] (exP (exUpd [7]) (exAdd 8)))).log := by rw [h1]; simp
  obtain ⟨l, hl⟩ := log_grows q (run p (init [5, 6] (exP (exUpd [7]) (exAdd 8))))
  have hm2 : .call t o ∈ (run exU (init [5, 6] (exP (exUpd [7]) (exAdd 8)))).log := by
    rw [e, run_append, hl]; exact List.mem_append_left _ hm
  rw [show (run exU (init [5, 6] (exP (exUpd [7]) (exAdd 8)))).log = [.call 0 (.update [7]), .was 0 false, .pause 0, .call 1 (.add 8), .test 1 8 false, .put 1 8,
    .paused 1 true, .test 0 7 false, .put 0 7, .paused 0 true, .record 0 [7] [], .resume 0, .any 0 true, .reduce 0 [7] [], .record 1 [8] [], .told 0 [7] [],
    .forget 0, .done 0, .done 1] from by decide] at hm2
  simp at hm2
  rcases hm2 with ⟨h, _⟩ | ⟨_, h⟩
  · exact h
  · exact absurd h (h3 8)

/-- `C96_unpaused_partial`. -/
example : (run exU (init [5, 6] (exP (exUpd [7]) (exAdd 8)))).data.paused = false := by
  refine C96_unpaused_partial [5, 6] _ exU (fun p q e t u ht hu => (exU_bulk p q e t ht).trans (exU_bulk p q e u hu).symm) (fun t ht => ?_)
  have h0 := exU_bulk exU [] (by simp) t ht
  obtain ⟨A, o, B, h1, h2, h3, h4⟩ := ht
  have := exRest (d := [5, 6]) (s := exU) (prog := exP (exUpd [7]) (exAdd 8)) (by decide) t
  exact this ⟨A, o, B, h1, h2⟩

end Psygnal.StC
