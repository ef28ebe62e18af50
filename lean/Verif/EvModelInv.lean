import Verif.EvModel

/-! # Invariant of the bookkeeping of `EventedModel` (lemmas for C40) -/
namespace Psygnal.EM

/-- The value last reported for `n` by the emissions `log`; `init n` before the first. -/
def last (init : Nat → Nat) (log : List (Nat × Nat)) (n : Nat) : Nat :=
  log.foldl (fun v e => if e.1 = n then e.2 else v) (init n)

theorem last_append (init : Nat → Nat) (log : List (Nat × Nat)) (e : Nat × Nat) (n : Nat) :
    last init (log ++ [e]) n = if e.1 = n then e.2 else last init log n := by
  simp [last]

/-- The names in the queue. -/
abbrev keys (s : St) : List Nat := s.queue.map (·.1)

theorem lookup_none {q : List (Nat × Option Nat)} {n : Nat} : lookup q n = none ↔ n ∉ q.map (·.1) := by
  simp only [lookup, Option.map_eq_none_iff, List.find?_eq_none, List.mem_map, not_exists, not_and, decide_eq_true_eq]

theorem lookup_some {q : List (Nat × Option Nat)} {n : Nat} (h : n ∈ q.map (·.1)) : ∃ o, lookup q n = some o := by
  rcases hl : lookup q n with _ | o
  · exact absurd h (lookup_none.mp hl)
  · exact ⟨o, rfl⟩

theorem lookup_mem {q : List (Nat × Option Nat)} {n : Nat} {o : Option Nat} (h : lookup q n = some o) :
    n ∈ q.map (·.1) := by
  apply Classical.byContradiction
  intro hn
  rw [lookup_none.mpr hn] at h
  cases h

theorem lookup_append (q q' : List (Nat × Option Nat)) (n : Nat) :
    lookup (q ++ q') n = (lookup q n).or (lookup q' n) := by
  unfold lookup
  rw [List.find?_append]
  cases q.find? (·.1 = n) <;> simp

theorem lookup_single (x n : Nat) (o : Option Nat) : lookup [(x, o)] n = if x = n then some o else none := by
  unfold lookup
  rw [List.find?_cons]
  by_cases h : x = n <;> simp [h]

theorem lookup_cons (x n : Nat) (o : Option Nat) (q : List (Nat × Option Nat)) :
    lookup ((x, o) :: q) n = if x = n then some o else lookup q n := by
  unfold lookup
  rw [List.find?_cons]
  by_cases h : x = n <;> simp [h]

/-- What is assumed about the class. -/
structure Cfg.Ok (c : Cfg) : Prop where
  deps : c.noDeps = false
  /-- Getters do not raise. -/
  total : ∀ n F, c.sig n = true → ∃ v, c.get n F = some v
  /-- The value of a name depends on itself and on the evented fields it is declared to depend on. -/
  support : ∀ n F F', c.sig n = true → (∀ x, x = n ∨ c.sig x = true ∧ n ∈ c.deps x → F x = F' x) → c.get n F = c.get n F'
  same : ∀ n x y, c.same n x y = true ↔ x = y
  order : ∀ l, (c.order l).Perm l

/-- The fields as they were when their old values were recorded. -/
def oldF (c : Cfg) (s : St) (x : Nat) : Nat :=
  if c.isProp x then s.F x else match lookup s.queue x with | some (some v) => v | _ => s.F x

structure Book (c : Cfg) (s : St) : Prop where
  prim : ∀ x ∈ s.primary, x ∈ keys s
  pnod : s.primary.Nodup
  nod : (keys s).Nodup
  origin : ∀ x ∈ keys s, c.sig x = true ∧ c.tracked x = true
  vals : ∀ x o, lookup s.queue x = some o → ∃ v, o = some v
  live : ∀ x ∈ s.primary, ∀ d ∈ c.liveDeps x, d ∈ keys s
  un : ∀ x ∈ keys s, x ∉ s.primary → c.isProp x = false → lookup s.queue x = some (some (s.F x))
  old : ∀ n ∈ keys s, c.listens n = true → lookup s.queue n = some (c.get n (oldF c s))

/-- What a listener to `n` will have been told when the emissions `P` are done. -/
def view (init : Nat → Nat) (log P : List (Nat × Nat)) (n : Nat) : Nat :=
  ((P.find? (·.1 = n)).map (·.2)).getD (last init log n)

structure Views (c : Cfg) (init : Nat → Nat) (s : St) (P : List (Nat × Nat)) : Prop where
  queued : ∀ n o, c.sig n = true → c.listens n = true → lookup s.queue n = some o → o = some (view init s.log P n)
  told : ∀ n, c.sig n = true → c.listens n = true → lookup s.queue n = none → c.get n s.F = some (view init s.log P n)
  pnames : (P.map (·.1)).Nodup
  differ : ∀ e ∈ P, c.listens e.1 = true → last init s.log e.1 ≠ e.2
  changes : ∀ pre e post, s.log = pre ++ e :: post → last init pre e.1 ≠ e.2

theorem tracked_of_listens {c : Cfg} {n : Nat} (h : c.listens n = true) : c.tracked n = true := by
  simp [Cfg.tracked, h]

theorem tracked_of_dep {c : Cfg} {x n : Nat} (h : c.listens n = true) (hd : n ∈ c.deps x) : c.tracked x = true := by
  have : n ∈ c.liveDeps x := by simp [Cfg.liveDeps, h, hd]
  have : (c.liveDeps x).isEmpty = false := by
    cases hl : c.liveDeps x with
    | nil => rw [hl] at this; cases this
    | cons a l => rfl
  simp [Cfg.tracked, this]

/-! ## Storing a field -/

/-- The state after storing a field. -/
abbrev stored (n w : Nat) (s : St) : St := { s with F := fun x => if x = n then w else s.F x }

theorem oldF_stored (c : Cfg) {n : Nat} (w : Nat) {s : St} (hb : Book c s) (hn : n ∈ keys s) (hi : c.isProp n = false) :
    oldF c (stored n w s) = oldF c s := by
  funext x
  unfold oldF
  by_cases h : c.isProp x = true
  · simp only [h, if_true]
    rw [if_neg]
    rintro rfl
    rw [hi] at h; cases h
  · simp only [h]
    rcases hl : lookup s.queue x with _ | _ | v
    · simp only [Bool.false_eq_true, if_false]
      rw [if_neg]
      rintro rfl
      exact lookup_none.mp hl hn
    · obtain ⟨v, hv⟩ := hb.vals _ _ hl
      cases hv
    · rfl

/-- A listening name does not depend on a field that nobody tracks. -/
theorem get_untracked {c : Cfg} (hc : c.Ok) {m n : Nat} (hm : c.sig m = true) (hl : c.listens m = true)
    (hn : c.sig n = true → c.tracked n = false) (F F' : Nat → Nat) (hF : ∀ x, x ≠ n → F x = F' x) :
    c.get m F = c.get m F' := by
  refine hc.support m F F' hm ?_
  rintro x hx
  apply hF
  rintro rfl
  rcases hx with rfl | ⟨h1, h2⟩
  · have := hn hm; rw [tracked_of_listens hl] at this; cases this
  · have := hn h1; rw [tracked_of_dep hl h2] at this; cases this

theorem stored_ok {c : Cfg} (hc : c.Ok) {init : Nat → Nat} {n w : Nat} {s : St} (hb : Book c s) (hi : c.isProp n = false)
    (hp : c.sig n = true → c.tracked n = true → n ∈ s.primary) :
    Book c (stored n w s) ∧ ∀ P, Views c init s P → Views c init (stored n w s) P := by
  by_cases ht : c.sig n = true ∧ c.tracked n = true
  · have hn := hp ht.1 ht.2
    refine ⟨⟨hb.prim, hb.pnod, hb.nod, hb.origin, hb.vals, hb.live, ?_, ?_⟩, ?_⟩
    · intro x hx hxp hxi
      show lookup s.queue x = some (some (if x = n then w else s.F x))
      rw [if_neg (fun e : x = n => hxp (e ▸ hn))]
      exact hb.un x hx hxp hxi
    · intro m hm hl
      rw [oldF_stored c w hb (hb.prim n hn) hi]
      exact hb.old m hm hl
    · intro P hv
      refine ⟨hv.queued, ?_, hv.pnames, hv.differ, hv.changes⟩
      intro m hm hl hq
      show c.get m (fun x => if x = n then w else s.F x) = _
      rw [← hv.told m hm hl hq]
      refine hc.support m _ _ hm ?_
      intro x hx
      show (if x = n then w else s.F x) = s.F x
      rw [if_neg]
      rintro rfl
      have hmk := lookup_none.mp hq
      rcases hx with rfl | ⟨_, h2⟩
      · exact hmk (hb.prim _ hn)
      · exact hmk (hb.live x hn m (by simp [Cfg.liveDeps, h2, hl]))
  · have hu : c.sig n = true → c.tracked n = false := by
      intro h
      cases h2 : c.tracked n with
      | false => rfl
      | true => exact absurd ⟨h, h2⟩ ht
    have hnk : n ∉ keys s := fun h => ht (hb.origin n h)
    refine ⟨⟨hb.prim, hb.pnod, hb.nod, hb.origin, hb.vals, hb.live, ?_, ?_⟩, ?_⟩
    · intro x hx hxp hxi
      show lookup s.queue x = some (some (if x = n then w else s.F x))
      rw [if_neg (fun e : x = n => hnk (e ▸ hx))]
      exact hb.un x hx hxp hxi
    · intro m hm hl
      show lookup s.queue m = _
      rw [hb.old m hm hl]
      congr 1
      refine get_untracked hc (hb.origin m hm).1 hl hu _ _ ?_
      intro x hx
      unfold oldF
      simp [hx]
    · intro P hv
      refine ⟨hv.queued, ?_, hv.pnames, hv.differ, hv.changes⟩
      intro m hm hl hq
      rw [← hv.told m hm hl hq]
      exact get_untracked hc hm hl hu _ _ (fun x hx => by simp [hx])

/-! ## Recording old values -/

/-- The state with one more old value. -/
abbrev addS (c : Cfg) (x : Nat) (s : St) : St := { s with queue := addQ c s.F s.queue x }

theorem lookup_addQ (c : Cfg) (F : Nat → Nat) (q : List (Nat × Option Nat)) (x n : Nat) :
    lookup (addQ c F q x) n = (lookup q n).or (if x = n then some (c.get x F) else none) := by
  unfold addQ
  split
  · rename_i h
    by_cases e : x = n
    · subst e
      obtain ⟨o, ho⟩ := Option.isSome_iff_exists.mp h
      simp [ho]
    · simp [e]
  · rw [lookup_append, lookup_single]

theorem keys_addQ (c : Cfg) (F : Nat → Nat) (q : List (Nat × Option Nat)) (x n : Nat) :
    n ∈ (addQ c F q x).map (·.1) ↔ n ∈ q.map (·.1) ∨ n = x := by
  unfold addQ
  split
  · rename_i h
    obtain ⟨o, ho⟩ := Option.isSome_iff_exists.mp h
    refine ⟨.inl, fun h => h.elim id ?_⟩
    rintro rfl
    exact lookup_mem ho
  · simp

theorem addS_ok {c : Cfg} (hc : c.Ok) {init : Nat → Nat} {x : Nat} {s : St} (hb : Book c s)
    (hs : c.sig x = true) (ht : c.tracked x = true) :
    Book c (addS c x s) ∧ ∀ P, Views c init s P → Views c init (addS c x s) P := by
  by_cases hx : x ∈ keys s
  · have : addS c x s = s := by
      obtain ⟨o, ho⟩ := lookup_some hx
      simp [addS, addQ, ho]
    rw [this]
    exact ⟨hb, fun _ h => h⟩
  · obtain ⟨v, hv⟩ := hc.total x s.F hs
    have hlx := lookup_none.mpr hx
    have hF : ∀ y, oldF c (addS c x s) y = oldF c s y := by
      intro y
      unfold oldF
      by_cases h : c.isProp y = true
      · simp [h]
      · simp only [h, Bool.false_eq_true, if_false, lookup_addQ]
        by_cases e : x = y
        · subst e
          have : v = s.F x := by
            unfold Cfg.get at hv
            rw [if_neg h] at hv
            exact (Option.some.inj hv).symm
          simp [hlx, hv, this]
        · simp [e]
    refine ⟨⟨?_, hb.pnod, ?_, ?_, ?_, ?_, ?_, ?_⟩, ?_⟩
    · intro y hy; exact (keys_addQ ..).mpr (.inl (hb.prim y hy))
    · show (List.map _ (addQ c s.F s.queue x)).Nodup
      unfold addQ
      rw [if_neg (by simp [hlx]), List.map_append, List.nodup_append]
      refine ⟨hb.nod, by simp, ?_⟩
      intro a ha b hb' e
      simp at hb'
      exact hx (hb' ▸ e ▸ ha)
    · intro y hy
      rcases (keys_addQ ..).mp hy with hy | rfl
      · exact hb.origin y hy
      · exact ⟨hs, ht⟩
    · intro y o hy
      have hy : lookup (addQ c s.F s.queue x) y = some o := hy
      rw [lookup_addQ] at hy
      rcases hl : lookup s.queue y with _ | o'
      · rw [hl] at hy
        by_cases e : x = y
        · simp [e] at hy
          subst e
          exact ⟨v, by rw [← hy, hv]⟩
        · simp [e] at hy
      · rw [hl] at hy
        simp at hy
        exact hy ▸ hb.vals y o' hl
    · intro y hy d hd; exact (keys_addQ ..).mpr (.inl (hb.live y hy d hd))
    · intro y hy hyp hyi
      show lookup (addQ c s.F s.queue x) y = _
      rw [lookup_addQ]
      rcases (keys_addQ ..).mp hy with hy | rfl
      · rw [hb.un y hy hyp hyi]; rfl
      · simp [hlx, Cfg.get, hyi]
    · intro m hm hl
      rw [funext hF]
      show lookup (addQ c s.F s.queue x) m = _
      rw [lookup_addQ]
      rcases (keys_addQ ..).mp hm with hm | rfl
      · rw [hb.old m hm hl]; rfl
      · simp only [hlx, if_true, Option.none_or]
        congr 1
        refine hc.support m _ _ hs ?_
        intro y hy
        unfold oldF
        by_cases h : c.isProp y = true
        · simp [h]
        · simp only [h]
          rcases hl' : lookup s.queue y with _ | o
          · rfl
          · by_cases hyp : y ∈ s.primary
            · rcases hy with rfl | ⟨_, h2⟩
              · exact absurd (lookup_mem hl') hx
              · exact absurd (hb.live y hyp m (by simp [Cfg.liveDeps, h2, hl])) hx
            · rw [hb.un y (lookup_mem hl') hyp (by simpa using h)] at hl'
              cases hl'
              rfl
    · intro P hv'
      refine ⟨?_, ?_, hv'.pnames, hv'.differ, hv'.changes⟩
      · intro m o hm hl hq
        have hq : lookup (addQ c s.F s.queue x) m = some o := hq
        rw [lookup_addQ] at hq
        rcases hl' : lookup s.queue m with _ | o'
        · rw [hl'] at hq
          by_cases e : x = m
          · subst e
            simp at hq
            rw [← hq]
            exact hv'.told x hm hl hl'
          · simp [e] at hq
        · rw [hl'] at hq
          simp at hq
          exact hq ▸ hv'.queued m o' hm hl hl'
      · intro m hm hl hq
        have hq : lookup (addQ c s.F s.queue x) m = none := hq
        rw [lookup_addQ] at hq
        rcases hl' : lookup s.queue m with _ | o'
        · exact hv'.told m hm hl hl'
        · rw [hl'] at hq; cases hq

theorem addAll_ok {c : Cfg} (hc : c.Ok) {init : Nat → Nat} (l : List Nat) (hl : ∀ x ∈ l, c.sig x = true ∧ c.tracked x = true) :
    ∀ {s : St}, Book c s →
      Book c { s with queue := l.foldl (addQ c s.F) s.queue } ∧
      (∀ P, Views c init s P → Views c init { s with queue := l.foldl (addQ c s.F) s.queue } P) ∧
      ∀ n, n ∈ (l.foldl (addQ c s.F) s.queue).map (·.1) ↔ n ∈ keys s ∨ n ∈ l := by
  induction l with
  | nil => intro s hb; exact ⟨hb, fun _ h => h, by simp⟩
  | cons x l ih =>
    intro s hb
    obtain ⟨h1, h2⟩ := addS_ok hc (init := init) hb (hl x (.head _)).1 (hl x (.head _)).2
    obtain ⟨i1, i2, i3⟩ := ih (fun y hy => hl y (.tail _ hy)) h1
    refine ⟨i1, fun P h => i2 P (h2 P h), ?_⟩
    intro n
    rw [List.foldl_cons, i3 n, keys_addQ, List.mem_cons, or_assoc]

theorem track_ok {c : Cfg} (hc : c.Ok) {init : Nat → Nat} {n : Nat} {s : St} (hb : Book c s)
    (hs : c.sig n = true) (ht : c.tracked n = true) (hd : ∀ d ∈ c.deps n, c.sig d = true) :
    Book c (track c n s) ∧ (∀ P, Views c init s P → Views c init (track c n s) P) ∧ n ∈ (track c n s).primary := by
  obtain ⟨h1, h2, h3⟩ := addAll_ok hc (init := init) (n :: c.liveDeps n) (by
    intro x hx
    rcases List.mem_cons.mp hx with rfl | hx
    · exact ⟨hs, ht⟩
    · simp only [Cfg.liveDeps, List.mem_filter] at hx
      exact ⟨hd x hx.1, tracked_of_listens hx.2⟩) hb
  have hq : (track c n s).queue = (n :: c.liveDeps n).foldl (addQ c s.F) s.queue := rfl
  have hp : ∀ x, x ∈ (track c n s).primary ↔ x ∈ s.primary ∨ x = n := by
    intro x
    show x ∈ (if n ∈ s.primary then s.primary else s.primary ++ [n]) ↔ _
    split
    · rename_i h
      exact ⟨.inl, fun h' => h'.elim id (fun e => e ▸ h)⟩
    · simp
  refine ⟨⟨?_, ?_, h1.nod, h1.origin, h1.vals, ?_, ?_, ?_⟩, ?_, (hp n).mpr (.inr rfl)⟩
  · intro x hx
    show x ∈ (track c n s).queue.map _
    rw [hq, h3 x]
    rcases (hp x).mp hx with hx | rfl
    · exact .inl (hb.prim x hx)
    · exact .inr (.head _)
  · show (if n ∈ s.primary then s.primary else s.primary ++ [n]).Nodup
    split
    · exact hb.pnod
    · rename_i h
      rw [List.nodup_append]
      refine ⟨hb.pnod, by simp, ?_⟩
      intro a ha b hb' e
      simp at hb'
      exact h (hb' ▸ e ▸ ha)
  · intro x hx d hd'
    show d ∈ (track c n s).queue.map _
    rw [hq, h3 d]
    rcases (hp x).mp hx with hx | rfl
    · exact .inl (hb.live x hx d hd')
    · exact .inr (.tail _ hd')
  · intro x hx hxp hxi
    exact h1.un x hx (fun h => hxp ((hp x).mpr (.inl h))) hxi
  · intro m hm hl
    exact h1.old m hm hl
  · intro P hv
    exact ⟨(h2 P hv).queued, (h2 P hv).told, hv.pnames, hv.differ, hv.changes⟩

/-! ## Comparing -/

theorem filterMap_congr {α β : Type} {f g : α → Option β} {l : List α} (h : ∀ x ∈ l, f x = g x) :
    l.filterMap f = l.filterMap g := by
  induction l with
  | nil => rfl
  | cons a l ih =>
    rw [List.filterMap_cons, List.filterMap_cons, h a (.head _), ih (fun x hx => h x (.tail _ hx))]

/-- The emission due for `x`, if any. -/
def due (c : Cfg) (F : Nat → Nat) (q : List (Nat × Option Nat)) (x : Nat) : Option (Nat × Nat) :=
  match lookup q x, c.get x F with
  | some old, some v => if c.changed x v old then some (x, v) else none
  | _, _ => none

theorem due_some {c : Cfg} {F : Nat → Nat} {q : List (Nat × Option Nat)} {x : Nat} {e : Nat × Nat} :
    due c F q x = some e ↔ e.1 = x ∧ ∃ old, lookup q x = some old ∧ c.get x F = some e.2 ∧ c.changed x e.2 old = true := by
  unfold due
  rcases lookup q x with _ | old
  · simp
  · rcases c.get x F with _ | v
    · simp
    · by_cases h : c.changed x v old = true
      · simp only [h, if_true, Option.some.injEq]
        constructor
        · rintro rfl; exact ⟨rfl, old, rfl, rfl, h⟩
        · rintro ⟨rfl, o, rfl, rfl, _⟩; rfl
      · simp only [h]
        simp only [Bool.false_eq_true, if_false, reduceCtorEq, Option.some.injEq, false_iff, not_and, not_exists]
        rintro _ o rfl rfl h'
        exact h h'

theorem lookup_filter (q : List (Nat × Option Nat)) (p : Nat → Bool) (y : Nat) (h : p y = true) :
    lookup (q.filter (fun e => p e.1)) y = lookup q y := by
  induction q with
  | nil => rfl
  | cons e q ih =>
    obtain ⟨x, o⟩ := e
    rw [List.filter_cons]
    by_cases hx : p x = true
    · simp only [hx, if_true, lookup_cons, ih]
    · simp only [hx, Bool.false_eq_true, if_false, lookup_cons, ih]
      rw [if_neg]
      rintro rfl
      exact hx h

theorem due_filter (c : Cfg) (F : Nat → Nat) (q : List (Nat × Option Nat)) (p : Nat → Bool) (y : Nat) (h : p y = true) :
    due c F (q.filter (fun e => p e.1)) y = due c F q y := by
  unfold due
  rw [lookup_filter q p y h]

theorem loop1_eq {c : Cfg} {F : Nat → Nat} (l : List Nat) (hn : l.Nodup) :
    ∀ {q : List (Nat × Option Nat)} (acc : List (Nat × Nat)), (∀ x ∈ l, x ∈ q.map (·.1)) →
      (∀ x ∈ l, ∃ v, c.get x F = some v) →
      loop1 c F l q acc = (.ok (acc ++ l.filterMap (due c F q)), q.filter (fun e => decide (e.1 ∉ l))) := by
  induction l with
  | nil =>
    intro q acc _ _
    simp only [loop1, List.filterMap_nil, List.append_nil, List.not_mem_nil, not_false_eq_true, decide_true]
    rw [List.filter_eq_self.mpr (fun _ _ => rfl)]
  | cons x l ih =>
    intro q acc hq hg
    rw [List.nodup_cons] at hn
    obtain ⟨old, ho⟩ := lookup_some (hq x (.head _))
    obtain ⟨v, hv⟩ := hg x (.head _)
    have hq' : ∀ y ∈ l, y ∈ (q.filter (fun e => decide (e.1 ≠ x))).map (·.1) := by
      intro y hy
      obtain ⟨o, hl⟩ := lookup_some (hq y (.tail _ hy))
      have hne : y ≠ x := fun e => hn.1 (e ▸ hy)
      rw [← lookup_filter q (fun z => decide (z ≠ x)) y (by simpa using hne)] at hl
      exact lookup_mem hl
    have hd : ∀ y ∈ l, due c F (q.filter (fun e => decide (e.1 ≠ x))) y = due c F q y := by
      intro y hy
      have hne : y ≠ x := fun e => hn.1 (e ▸ hy)
      exact due_filter c F q (fun z => decide (z ≠ x)) y (by simpa using hne)
    have hfm : l.filterMap (due c F (q.filter (fun e => decide (e.1 ≠ x)))) = l.filterMap (due c F q) :=
      filterMap_congr hd
    have hdx : due c F q x = if c.changed x v old then some (x, v) else none := by
      unfold due; rw [ho, hv]
    show loop1 c F (x :: l) q acc = _
    unfold loop1
    simp only [ho, hv]
    rw [ih hn.2 _ hq' (fun y hy => hg y (.tail _ hy)), hfm, List.filter_filter, List.filterMap_cons, hdx]
    have hfl : q.filter (fun e => decide (e.1 ∉ l) && decide (e.1 ≠ x)) = q.filter (fun e => decide (e.1 ∉ x :: l)) := by
      apply List.filter_congr
      intro e _
      by_cases h1 : e.1 = x <;> by_cases h2 : e.1 ∈ l <;> simp [h1, h2]
    rw [hfl]
    by_cases h : c.changed x v old = true
    · simp [h]
    · simp [h]

theorem loop2_eq {c : Cfg} {F : Nat → Nat} (q : List (Nat × Option Nat)) :
    ∀ (acc : List (Nat × Nat)), (∀ e ∈ q, ∃ v, c.get e.1 F = some v) → (q.map (·.1)).Nodup →
      loop2 c F q acc = .ok (acc ++ (q.map (·.1)).filterMap (due c F q)) := by
  induction q with
  | nil => intro acc _ _; simp [loop2]
  | cons e q ih =>
    obtain ⟨x, old⟩ := e
    intro acc hg hn
    rw [List.map_cons, List.nodup_cons] at hn
    obtain ⟨v, hv⟩ := hg _ (.head _)
    have hv : c.get x F = some v := hv
    have hd : ∀ y ∈ q.map (·.1), due c F ((x, old) :: q) y = due c F q y := by
      intro y hy
      unfold due
      rw [lookup_cons, if_neg]
      rintro rfl
      exact hn.1 hy
    have hdx : due c F ((x, old) :: q) x = if c.changed x v old then some (x, v) else none := by
      unfold due; rw [lookup_cons, if_pos rfl, hv]
    unfold loop2
    simp only [hv]
    rw [ih _ (fun e he => hg e (.tail _ he)) hn.2, List.map_cons, List.filterMap_cons, hdx, filterMap_congr hd]
    by_cases h : c.changed x v old = true
    · simp [h]
    · simp [h]

theorem due_names (c : Cfg) (F : Nat → Nat) (q : List (Nat × Option Nat)) (l : List Nat) :
    ((l.filterMap (due c F q)).map (·.1)).Sublist l := by
  induction l with
  | nil => exact .slnil
  | cons x l ih =>
    rw [List.filterMap_cons]
    split
    · exact ih.cons _
    · rename_i e he
      have := (due_some.mp he).1
      rw [List.map_cons, this]
      exact ih.cons_cons _

/-- The outcome of the comparisons. -/
theorem compare_eq {c : Cfg} (hc : c.Ok) {s : St} (hb : Book c s) :
    ∃ P, compare c s = (.ok P, { s with queue := [], primary := [] }) ∧ (P.map (·.1)).Nodup ∧
      (∀ e ∈ P, due c s.F s.queue e.1 = some e) ∧
      ((∃ x ∈ s.primary, ∃ e, due c s.F s.queue x = some e) → ∀ x e, due c s.F s.queue x = some e → e ∈ P) ∧
      ((∀ x ∈ s.primary, due c s.F s.queue x = none) → P = []) := by
  have hmem : ∀ x, x ∈ c.order s.primary ↔ x ∈ s.primary := fun x => (hc.order s.primary).mem_iff
  have hnod : (c.order s.primary).Nodup := (hc.order s.primary).nodup_iff.mpr hb.pnod
  have h1 := loop1_eq (c := c) (F := s.F) (c.order s.primary) hnod (q := s.queue) []
    (fun x hx => hb.prim x ((hmem x).mp hx))
    (fun x hx => hc.total x s.F (hb.origin x (hb.prim x ((hmem x).mp hx))).1)
  have hfree : (fun e : Nat × Option Nat => decide (e.1 ∉ c.order s.primary)) = fun e => (fun x => decide (x ∉ c.order s.primary)) e.1 := rfl
  have hkeys : ∀ x, x ∈ (s.queue.filter (fun e => decide (e.1 ∉ c.order s.primary))).map (·.1) ↔ x ∈ keys s ∧ x ∉ s.primary := by
    intro x
    simp only [List.mem_map, List.mem_filter, decide_eq_true_eq, hmem]
    constructor
    · rintro ⟨e, ⟨he, hp⟩, rfl⟩; exact ⟨⟨e, he, rfl⟩, hp⟩
    · rintro ⟨⟨e, he, rfl⟩, hp⟩; exact ⟨e, ⟨he, hp⟩, rfl⟩
  unfold compare
  rw [h1]
  simp only [List.nil_append]
  rcases hl : (c.order s.primary).filterMap (due c s.F s.queue) with _ | ⟨e, l⟩
  · have hnone : ∀ x ∈ s.primary, due c s.F s.queue x = none := by
      intro x hx
      cases hd : due c s.F s.queue x with
      | none => rfl
      | some e =>
        have : e ∈ (c.order s.primary).filterMap (due c s.F s.queue) := List.mem_filterMap.mpr ⟨x, (hmem x).mpr hx, hd⟩
        rw [hl] at this
        cases this
    refine ⟨[], rfl, List.nodup_nil, (fun e he => by cases he), ?_, fun _ => rfl⟩
    rintro ⟨x, hx, e, he⟩
    rw [hnone x hx] at he
    cases he
  · have h2 := loop2_eq (c := c) (F := s.F) (s.queue.filter (fun e => decide (e.1 ∉ c.order s.primary))) (e :: l)
      (fun e he => hc.total e.1 s.F (hb.origin e.1 ((hkeys e.1).mp (List.mem_map.mpr ⟨e, he, rfl⟩)).1).1)
      (hb.nod.sublist (List.filter_sublist.map _))
    simp only
    rw [h2]
    have hrest : ∀ x, x ∉ s.primary → due c s.F (s.queue.filter (fun e => decide (e.1 ∉ c.order s.primary))) x = due c s.F s.queue x := by
      intro x hx
      exact due_filter c s.F s.queue (fun x => decide (x ∉ c.order s.primary)) x (by simpa [hmem] using hx)
    refine ⟨_, rfl, ?_, ?_, ?_, ?_⟩
    · rw [← hl, List.map_append, List.nodup_append]
      refine ⟨hnod.sublist (due_names ..), ?_, ?_⟩
      · exact (hb.nod.sublist (List.filter_sublist.map _)).sublist (due_names ..)
      · intro a ha b hb' e
        have h1 := (hmem a).mp ((due_names ..).subset ha)
        have h2 := ((hkeys b).mp ((due_names ..).subset hb')).2
        exact h2 (e ▸ h1)
    · intro x hx
      rw [← hl] at hx
      rcases List.mem_append.mp hx with hx | hx
      · obtain ⟨y, hy, hd⟩ := List.mem_filterMap.mp hx
        rw [(due_some.mp hd).1]; exact hd
      · obtain ⟨y, hy, hd⟩ := List.mem_filterMap.mp hx
        rw [(due_some.mp hd).1, ← hrest y ((hkeys y).mp hy).2]; exact hd
    · intro _ x e' hd
      rw [← hl]
      by_cases hx : x ∈ s.primary
      · exact List.mem_append.mpr (.inl (List.mem_filterMap.mpr ⟨x, (hmem x).mpr hx, hd⟩))
      · obtain ⟨_, old, ho, _⟩ := due_some.mp hd
        refine List.mem_append.mpr (.inr (List.mem_filterMap.mpr ⟨x, (hkeys x).mpr ⟨lookup_mem ho, hx⟩, ?_⟩))
        rw [hrest x hx]; exact hd
    · intro hnone
      have : e ∈ (c.order s.primary).filterMap (due c s.F s.queue) := by rw [hl]; exact .head _
      obtain ⟨y, hy, hd⟩ := List.mem_filterMap.mp this
      rw [hnone y ((hmem y).mp hy)] at hd
      cases hd

theorem find_none {P : List (Nat × Nat)} {n : Nat} : P.find? (·.1 = n) = none ↔ ∀ e ∈ P, e.1 ≠ n := by
  simp [List.find?_eq_none]

theorem find_some {P : List (Nat × Nat)} (hn : (P.map (·.1)).Nodup) {e : Nat × Nat} (he : e ∈ P) :
    P.find? (·.1 = e.1) = some e := by
  induction P with
  | nil => cases he
  | cons a P ih =>
    rw [List.map_cons, List.nodup_cons] at hn
    rw [List.find?_cons]
    rcases List.mem_cons.mp he with rfl | he
    · simp
    · have : a.1 ≠ e.1 := fun h => hn.1 (h ▸ List.mem_map_of_mem he)
      simp [this, ih hn.2 he]

theorem compare_views {c : Cfg} (hc : c.Ok) {init : Nat → Nat} {s : St} (hb : Book c s) (hv : Views c init s [])
    {P : List (Nat × Nat)} (h1 : (P.map (·.1)).Nodup)
    (h2 : ∀ e ∈ P, due c s.F s.queue e.1 = some e)
    (h3 : (∃ x ∈ s.primary, ∃ e, due c s.F s.queue x = some e) → ∀ x e, due c s.F s.queue x = some e → e ∈ P)
    (h4 : (∀ x ∈ s.primary, due c s.F s.queue x = none) → P = []) :
    Views c init { s with queue := [], primary := [] } P := by
  have hview : ∀ n, view init s.log [] n = last init s.log n := fun _ => rfl
  refine ⟨(fun _ _ _ _ h => by cases h), ?_, h1, ?_, hv.changes⟩
  · intro n hn hl _
    show c.get n s.F = _
    rcases hq : lookup s.queue n with _ | o
    · have hP : P.find? (·.1 = n) = none := by
        rw [find_none]
        rintro e he rfl
        obtain ⟨_, o, ho, _⟩ := due_some.mp (h2 e he)
        rw [hq] at ho; cases ho
      rw [hv.told n hn hl hq, hview]
      unfold view
      rw [hP]; rfl
    · have ho := hv.queued n o hn hl hq
      rw [hview] at ho
      obtain ⟨v, hg⟩ := hc.total n s.F hn
      by_cases hex : ∃ x ∈ s.primary, ∃ e, due c s.F s.queue x = some e
      · by_cases hch : c.changed n v o = true
        · have hd : due c s.F s.queue n = some (n, v) := due_some.mpr ⟨rfl, o, hq, hg, hch⟩
          have := find_some h1 (h3 hex n _ hd)
          unfold view
          rw [this, hg]; rfl
        · have hP : P.find? (·.1 = n) = none := by
            rw [find_none]
            rintro e he rfl
            obtain ⟨_, o', ho', hg', hch'⟩ := due_some.mp (h2 e he)
            rw [hq] at ho'; cases ho'
            rw [hg] at hg'; cases hg'
            exact hch hch'
          have hsame : v = last init s.log n := by
            rw [ho] at hch
            simpa [Cfg.changed, hc.same] using hch
          unfold view
          rw [hP, hg, hsame]; rfl
      · have hnone : ∀ x ∈ s.primary, due c s.F s.queue x = none := by
          intro x hx
          cases hd : due c s.F s.queue x with
          | none => rfl
          | some e => exact absurd ⟨x, hx, e, hd⟩ hex
        have hF : oldF c s = s.F := by
          funext x
          unfold oldF
          by_cases hp : c.isProp x = true
          · simp [hp]
          · simp only [hp]
            rcases hqx : lookup s.queue x with _ | _ | w
            · rfl
            · rfl
            · simp only [Bool.false_eq_true, if_false]
              by_cases hxp : x ∈ s.primary
              · have hgx : c.get x s.F = some (s.F x) := by unfold Cfg.get; rw [if_neg hp]
                apply Classical.byContradiction
                intro hne
                have : due c s.F s.queue x = some (x, s.F x) := due_some.mpr ⟨rfl, _, hqx, hgx, by
                  simp only [Cfg.changed, Bool.not_eq_true']
                  cases hs : c.same x (s.F x) w with
                  | false => rfl
                  | true => exact absurd ((hc.same _ _ _).mp hs).symm hne⟩
                rw [hnone x hxp] at this
                cases this
              · have := hb.un x (lookup_mem hqx) hxp (by simpa using hp)
                rw [hqx] at this
                cases this; rfl
        have hold := hb.old n (lookup_mem hq) hl
        rw [hF, hq, ho] at hold
        rw [h4 hnone, hview]
        exact (Option.some.inj hold).symm
  · intro e he hl hlast
    obtain ⟨_, o, ho, hg, hch⟩ := due_some.mp (h2 e he)
    have := hv.queued e.1 o (hb.origin e.1 (lookup_mem ho)).1 hl ho
    rw [hview] at this
    have hlast : last init s.log e.1 = e.2 := hlast
    rw [this, hlast] at hch
    simp [Cfg.changed, (hc.same e.1 e.2 e.2).mpr rfl] at hch

/-! ## Executions -/

/-- Bookkeeping and, unless an emission was abandoned, what listeners know. -/
def Good (c : Cfg) (init : Nat → Nat) (P : List (Nat × Nat)) (s : St) : Prop :=
  Book c s ∧ (s.lost = false → Views c init s P)

/-- Outside of all blocks nothing is recorded. -/
def Clean (s : St) : Prop := s.sem = 0 → s.queue = [] ∧ s.primary = []

/-- What holds before a task. -/
def Before (c : Cfg) (init : Nat → Nat) (P : List (Nat × Nat)) (s : St) : Task → Prop
  | .prog _ => Good c init P s ∧ Clean s ∧ (s.sem = 0 → P = [])
  | .set _ _ => Good c init P s ∧ Clean s ∧ (s.sem = 0 → P = [])
  | .super n _ => Good c init P s ∧ Clean s ∧ (s.sem = 0 → P = []) ∧
      (c.isProp n = false → c.sig n = true → c.tracked n = true → n ∈ s.primary)
  | .impl n _ => Good c init P s ∧ s.sem > 0 ∧ c.sig n = true
  | .exit _ => Good c init P s ∧ s.sem > 0 ∧ (s.sem = 1 → P = [])
  | .check => Good c init P s ∧ s.sem = 0 ∧ P = []
  | .emits l => Good c init P s ∧ s.sem > 0 ∧ P = l

/-- What holds after it. -/
def After (c : Cfg) (init : Nat → Nat) (P : List (Nat × Nat)) (s s' : St) : Task → Prop
  | .exit _ => Good c init P s' ∧ Clean s' ∧ s'.sem = s.sem - 1
  | .emits _ => Good c init [] s' ∧ s'.sem = s.sem
  | _ => Good c init P s' ∧ Clean s' ∧ s'.sem = s.sem

theorem Good.congr {c : Cfg} {init : Nat → Nat} {P : List (Nat × Nat)} {s s' : St} (h : Good c init P s)
    (h1 : s'.F = s.F) (h2 : s'.queue = s.queue) (h3 : s'.primary = s.primary) (h4 : s'.log = s.log)
    (h5 : s'.lost = s.lost) : Good c init P s' := by
  obtain ⟨hb, hv⟩ := h
  have ho : oldF c s' = oldF c s := by funext x; unfold oldF; rw [h1, h2]
  refine ⟨⟨?_, ?_, ?_, ?_, ?_, ?_, ?_, ?_⟩, fun hl => ⟨?_, ?_, ?_, ?_, ?_⟩⟩
  · unfold keys; rw [h2, h3]; exact hb.prim
  · rw [h3]; exact hb.pnod
  · unfold keys; rw [h2]; exact hb.nod
  · unfold keys; rw [h2]; exact hb.origin
  · rw [h2]; exact hb.vals
  · unfold keys; rw [h2, h3]; exact hb.live
  · unfold keys; rw [h1, h2, h3]; exact hb.un
  · unfold keys; rw [ho, h2]; exact hb.old
  all_goals have hv := hv (h5 ▸ hl)
  · rw [h2, h4]; exact hv.queued
  · rw [h1, h2, h4]; exact hv.told
  · exact hv.pnames
  · rw [h4]; exact hv.differ
  · rw [h4]; exact hv.changes

theorem Good.cleared {c : Cfg} {init : Nat → Nat} {P : List (Nat × Nat)} {s : St}
    (h : s.lost = false → Views c init { s with queue := [], primary := [] } P) :
    Good c init P { s with queue := [], primary := [] } :=
  ⟨⟨(fun _ h => by cases h), List.nodup_nil, List.nodup_nil, (fun _ h => by cases h), (fun _ _ h => by cases h),
    (fun _ h => by cases h), (fun _ h => by cases h), (fun _ h => by cases h)⟩, h⟩

theorem Good.lost {c : Cfg} {init : Nat → Nat} {P Q : List (Nat × Nat)} {s : St} (h : Good c init P s) :
    Good c init Q { s with lost := true } :=
  ⟨⟨h.1.prim, h.1.pnod, h.1.nod, h.1.origin, h.1.vals, h.1.live, h.1.un, h.1.old⟩, fun h => by cases h⟩

theorem view_emitted {init : Nat → Nat} {log P : List (Nat × Nat)} {n x m : Nat} (hn : (((n, x) :: P).map (·.1)).Nodup) :
    view init (log ++ [(n, x)]) P m = view init log ((n, x) :: P) m := by
  rw [List.map_cons, List.nodup_cons] at hn
  unfold view
  rw [last_append, List.find?_cons]
  by_cases e : n = m
  · subst e
    have : P.find? (·.1 = n) = none := by
      rw [find_none]
      intro e he heq
      exact hn.1 (heq ▸ List.mem_map.mpr ⟨e, he, rfl⟩)
    rw [this]
    simp
  · simp [e]

theorem Good.emitted {c : Cfg} {init : Nat → Nat} {P : List (Nat × Nat)} {s : St} {n x : Nat}
    (h : Good c init ((n, x) :: P) s) (hl : c.listens n = true) : Good c init P { s with log := s.log ++ [(n, x)] } := by
  refine ⟨⟨h.1.prim, h.1.pnod, h.1.nod, h.1.origin, h.1.vals, h.1.live, h.1.un, h.1.old⟩, fun hlost => ?_⟩
  have hv := h.2 hlost
  refine ⟨?_, ?_, ?_, ?_, ?_⟩
  · intro m o hm hlm hq
    rw [view_emitted hv.pnames]
    exact hv.queued m o hm hlm hq
  · intro m hm hlm hq
    rw [view_emitted hv.pnames]
    exact hv.told m hm hlm hq
  · have := hv.pnames
    rw [List.map_cons, List.nodup_cons] at this
    exact this.2
  · intro e he hle
    show last init (s.log ++ [(n, x)]) e.1 ≠ e.2
    rw [last_append, if_neg]
    · exact hv.differ e (.tail _ he) hle
    · intro heq
      have := hv.pnames
      rw [List.map_cons, List.nodup_cons] at this
      have heq : n = e.1 := heq
      exact this.1 (heq ▸ List.mem_map.mpr ⟨e, he, rfl⟩)
  · intro pre e post heq
    have heq : s.log ++ [(n, x)] = pre ++ e :: post := heq
    rcases List.eq_nil_or_concat post with rfl | ⟨post', y, rfl⟩
    · have := List.append_inj' heq rfl
      rw [← this.1]
      have h2 := List.cons.inj this.2
      rw [← h2.1]
      exact hv.differ (n, x) (.head _) hl
    · have heq' : s.log ++ [(n, x)] = (pre ++ e :: post') ++ [y] := by rw [heq]; simp
      exact hv.changes pre e post' (List.append_inj' heq' rfl).1

theorem Good.skipped {c : Cfg} {init : Nat → Nat} {P : List (Nat × Nat)} {s : St} {n x : Nat}
    (h : Good c init ((n, x) :: P) s) (hl : c.listens n = false) : Good c init P s := by
  refine ⟨h.1, fun hlost => ?_⟩
  have hv := h.2 hlost
  have hview : ∀ m, c.listens m = true → view init s.log ((n, x) :: P) m = view init s.log P m := by
    intro m hm
    unfold view
    rw [List.find?_cons]
    have : n ≠ m := by rintro rfl; rw [hl] at hm; cases hm
    simp [this]
  refine ⟨?_, ?_, ?_, fun e he => hv.differ e (.tail _ he), hv.changes⟩
  · intro m o hm hlm hq
    rw [← hview m hlm]; exact hv.queued m o hm hlm hq
  · intro m hm hlm hq
    rw [← hview m hlm]; exact hv.told m hm hlm hq
  · have := hv.pnames
    rw [List.map_cons, List.nodup_cons] at this
    exact this.2

theorem exec_ok {c : Cfg} (hc : c.Ok) {init : Nat → Nat} (f : Nat) : ∀ (t : Task) (P : List (Nat × Nat)) (s : St)
    (r : Except Err Unit) (s' : St), exec c f t s = some (r, s') → Before c init P s t → After c init P s s' t := by
  induction f with
  | zero => intro t P s r s' h; simp [exec] at h
  | succ f ih =>
    intro t P s r s' h hb
    cases t with
    | prog p =>
      obtain ⟨h1, h2, h3⟩ := hb
      cases p with
      | ret => simp only [exec, Option.some.injEq, Prod.mk.injEq] at h; obtain ⟨rfl, rfl⟩ := h; exact ⟨h1, h2, rfl⟩
      | raise => simp only [exec, Option.some.injEq, Prod.mk.injEq] at h; obtain ⟨rfl, rfl⟩ := h; exact ⟨h1, h2, rfl⟩
      | get n k =>
        simp only [exec] at h
        have i := ih _ P _ _ _ h ⟨h1, h2, h3⟩
        exact i
      | set n v k =>
        simp only [exec] at h
        rcases hx : exec c f (.set n v) s with _ | ⟨r1, s1⟩
        · rw [hx] at h; cases h
        · rw [hx] at h
          obtain ⟨i1, i2, i3⟩ := ih _ P _ _ _ hx ⟨h1, h2, h3⟩
          obtain ⟨j1, j2, j3⟩ := ih _ P _ _ _ h ⟨i1, i2, fun h => h3 (i3 ▸ h)⟩
          exact ⟨j1, j2, j3.trans i3⟩
    | set n v =>
      obtain ⟨h1, h2, h3⟩ := hb
      simp only [exec] at h
      by_cases hs : c.sig n = false
      · rw [if_pos hs] at h
        have i := ih _ P _ _ _ h ⟨h1, h2, h3, fun _ h => by rw [hs] at h; cases h⟩
        exact i
      · rw [if_neg hs, if_neg (by simp [hc.deps])] at h
        rcases hx : exec c f (.impl n v) { s with sem := s.sem + 1 } with _ | ⟨r1, s1⟩
        · rw [hx] at h; cases h
        · rw [hx] at h
          obtain ⟨i1, i2, i3⟩ := ih _ P _ _ _ hx ⟨h1.congr rfl rfl rfl rfl rfl, Nat.succ_pos _, by simpa using hs⟩
          have i3 : s1.sem = s.sem + 1 := i3
          obtain ⟨j1, j2, j3⟩ := ih _ P _ _ _ h ⟨i1, by omega, fun h => h3 (by omega)⟩
          exact ⟨j1, j2, by omega⟩
    | super n v =>
      obtain ⟨h1, h2, h3, h4⟩ := hb
      simp only [exec] at h
      by_cases hp : c.isProp n = true
      · rw [if_pos hp] at h
        have i := ih _ P _ _ _ h ⟨h1, h2, h3⟩
        exact i
      · rw [if_neg hp] at h
        have hp : c.isProp n = false := by simpa using hp
        rcases hw : c.coerce n v with _ | w
        · rw [hw] at h
          simp only [Option.some.injEq, Prod.mk.injEq] at h
          obtain ⟨rfl, rfl⟩ := h
          exact ⟨h1, h2, rfl⟩
        · rw [hw] at h
          simp only [Option.some.injEq, Prod.mk.injEq] at h
          obtain ⟨rfl, rfl⟩ := h
          obtain ⟨k1, k2⟩ := stored_ok hc (init := init) (w := w) h1.1 hp (h4 hp)
          exact ⟨⟨k1, fun hl => k2 P (h1.2 hl)⟩, h2, rfl⟩
    | impl n v =>
      obtain ⟨h1, h2, h3⟩ := hb
      simp only [exec] at h
      by_cases hd : (c.deps n).any (fun d => !c.sig d) = true
      · rw [if_pos hd] at h
        simp only [Option.some.injEq, Prod.mk.injEq] at h
        obtain ⟨rfl, rfl⟩ := h
        exact ⟨h1, fun h => by omega, rfl⟩
      · rw [if_neg hd] at h
        have hd : ∀ d ∈ c.deps n, c.sig d = true := by
          intro d hdm
          cases hsd : c.sig d with
          | true => rfl
          | false => exact absurd (List.any_eq_true.mpr ⟨d, hdm, by simp [hsd]⟩) hd
        by_cases ht : c.tracked n = true
        · rw [if_pos ht] at h
          obtain ⟨k1, k2, k3⟩ := track_ok hc (init := init) h1.1 h3 ht hd
          obtain ⟨j1, j2, j3⟩ := ih _ P _ _ _ h ⟨⟨k1, fun hl => k2 P (h1.2 hl)⟩, (fun h => by simp only [track] at h; omega),
            (fun h => by simp only [track] at h; omega), fun _ _ _ => k3⟩
          exact ⟨j1, j2, j3⟩
        · rw [if_neg ht] at h
          have i := ih _ P _ _ _ h ⟨h1, (fun h => by omega), (fun h => by omega), fun _ _ h => absurd h ht⟩
          exact i
    | exit r0 =>
      obtain ⟨h1, h2, h3⟩ := hb
      simp only [exec] at h
      by_cases hd : s.sem - 1 > 0 ∨ s.queue = []
      · rw [if_pos hd] at h
        simp only [Option.some.injEq, Prod.mk.injEq] at h
        obtain ⟨rfl, rfl⟩ := h
        refine ⟨h1.congr rfl rfl rfl rfl rfl, ?_, rfl⟩
        intro h0
        have h0 : s.sem - 1 = 0 := h0
        have hq : s.queue = [] := hd.resolve_left (by omega)
        refine ⟨hq, ?_⟩
        cases hp : s.primary with
        | nil => rfl
        | cons a l =>
          have := h1.1.prim a (by rw [hp]; exact .head _)
          unfold keys at this
          rw [hq] at this
          cases this
      · rw [if_neg hd] at h
        have hsem : s.sem = 1 := by have := not_or.mp hd; omega
        rcases hx : exec c f .check { s with sem := s.sem - 1 } with _ | ⟨r1, s1⟩
        · rw [hx] at h; cases h
        · rw [hx] at h
          obtain ⟨i1, i2, i3⟩ := ih _ P _ _ _ hx ⟨h1.congr rfl rfl rfl rfl rfl, (by simp [hsem]), h3 hsem⟩
          have : s' = s1 := by
            cases r1 <;> simp only [Option.some.injEq, Prod.mk.injEq] at h <;> exact h.2.symm
          subst this
          exact ⟨i1, i2, i3⟩
    | check =>
      obtain ⟨h1, h2, rfl⟩ := hb
      simp only [exec] at h
      obtain ⟨P, k0, k1, k2, k3, k4⟩ := compare_eq hc h1.1
      have hv : s.lost = false → Views c init { s with queue := [], primary := [] } P :=
        fun hl => compare_views hc h1.1 (h1.2 hl) k1 k2 k3 k4
      rw [k0] at h
      cases P with
      | nil =>
        simp only [Option.some.injEq, Prod.mk.injEq] at h
        obtain ⟨rfl, rfl⟩ := h
        exact ⟨Good.cleared hv, fun _ => ⟨rfl, rfl⟩, rfl⟩
      | cons e l =>
        simp only at h
        rcases hx : exec c f (.emits (e :: l)) { s with queue := [], primary := [], sem := s.sem + 1 } with _ | ⟨r1, s1⟩
        · rw [hx] at h; cases h
        · rw [hx] at h
          obtain ⟨i1, i2⟩ := ih _ (e :: l) _ _ _ hx ⟨(Good.cleared hv).congr rfl rfl rfl rfl rfl, Nat.succ_pos _, rfl⟩
          have i2 : s1.sem = s.sem + 1 := i2
          obtain ⟨j1, j2, j3⟩ := ih _ [] _ _ _ h ⟨i1, by omega, fun _ => rfl⟩
          exact ⟨j1, j2, by omega⟩
    | emits l =>
      obtain ⟨h1, h2, rfl⟩ := hb
      cases P with
      | nil =>
        simp only [exec, Option.some.injEq, Prod.mk.injEq] at h
        obtain ⟨rfl, rfl⟩ := h
        exact ⟨h1, rfl⟩
      | cons e l =>
        obtain ⟨n, x⟩ := e
        simp only [exec] at h
        by_cases hcf : c.conflict n = true
        · rw [if_pos hcf] at h
          simp only [Option.some.injEq, Prod.mk.injEq] at h
          obtain ⟨rfl, rfl⟩ := h
          exact ⟨h1.lost, rfl⟩
        · rw [if_neg hcf] at h
          by_cases hl : c.listens n = false
          · rw [if_pos hl] at h
            exact ih _ l _ _ _ h ⟨h1.skipped hl, h2, rfl⟩
          · rw [if_neg hl] at h
            have hl : c.listens n = true := by simpa using hl
            rcases hx : exec c f (.prog (c.cb n x)) { s with log := s.log ++ [(n, x)] } with _ | ⟨r1, s1⟩
            · rw [hx] at h; cases h
            · rw [hx] at h
              obtain ⟨i1, i2, i3⟩ := ih _ l _ _ _ hx ⟨h1.emitted hl, (fun h => by simp only at h; omega), fun h => by simp only at h; omega⟩
              have i3 : s1.sem = s.sem := i3
              cases r1 with
              | error e =>
                simp only [Option.some.injEq, Prod.mk.injEq] at h
                obtain ⟨rfl, rfl⟩ := h
                exact ⟨i1.lost, i3⟩
              | ok u =>
                obtain ⟨j1, j2⟩ := ih _ l _ _ _ h ⟨i1, by omega, rfl⟩
                exact ⟨j1, by omega⟩

end Psygnal.EM
