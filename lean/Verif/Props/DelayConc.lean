import Verif.DelayConcMirror

/-!
# C93: assigning fields of evented models with dependent properties in several threads

`value a l`: what the fields hold after the events `l`; `mirror x l m`: the last value told of the name `m`, `x` if none was.
-/
namespace Psygnal.DlC

/-! Example: fields 0 and 2, property 1 that depends on field 0 (its tens); everything is 0. -/

def exA : Nat → Nat := fun _ => 0

def exC : Cls := ⟨fun n => if n = 0 then [1] else [], fun m => if m = 1 then some (fun a => a 0 / 10) else none, fun _ x y => x == y⟩

/-- Thread 0 assigns field 0 twice, thread 1 assigns field `n` once. -/
def exT (n : Nat) : Nat → List (Nat × Nat)
  | 0 => [(0, 10), (0, 30)]
  | 1 => [(n, 20)]
  | _ => []

/-- A field holds the value stored last, whoever stored it. -/
theorem C93_value (c : Cls) (a : Nat → Nat) (todo : Nat → List (Nat × Nat)) (s : List Nat) (n : Nat) (l1 : List Ev) (t v : Nat) (l2 : List Ev)
    (hl : (run c s (init a todo)).log = l1 ++ .wrote t n v :: l2) (h2 : ∀ u w, .wrote u n w ∉ l2) : (run c s (init a todo)).attr n = v := by
  rw [(run_inv inv_step s (inv_init c a todo)).attr, hl]
  exact value_last l2 h2

/-- Nothing else changes a field. -/
theorem C93_untouched (c : Cls) (a : Nat → Nat) (todo : Nat → List (Nat × Nat)) (s : List Nat) (n : Nat)
    (h : ∀ t v, .wrote t n v ∉ (run c s (init a todo)).log) : (run c s (init a todo)).attr n = a n := by
  rw [(run_inv inv_step s (inv_init c a todo)).attr]
  exact value_none _ h

/-- The events of a thread between assignments: each assignment stored once, then told any number of names, then returned or raised. -/
theorem C93_blocks (c : Cls) (a : Nat → Nat) (todo : Nat → List (Nat × Nat)) (s : List Nat) (t : Nat) (ht : (run c s (init a todo)).thr t = .idle) :
    Blocks t ((run c s (init a todo)).log.filter (fun e => e.thread == t)) := by
  obtain ⟨l, h1, h2, _, _⟩ := run_inv (c := c) (I := fun σ => ∀ u, Part u σ.log (σ.thr u)) part_step s (part_init a todo) t
  rw [show (run c s (init a todo)).log.filter (fun e => e.thread == t) = l from h2 ht]
  exact h1

/-- Whatever is told of a name is a value the name had between the storing of the assignment that tells it and the telling: of a field what it held, of a
property what its getter gives for the fields then. -/
theorem C93_told (c : Cls) (a : Nat → Nat) (todo : Nat → List (Nat × Nat)) (s : List Nat) (t m x : Nat) (l1 l2 : List Ev)
    (hl : (run c s (init a todo)).log = l1 ++ .told t m x :: l2) :
    ∃ A n v B C, l1 = A ++ .wrote t n v :: (B ++ C) ∧ (∀ e ∈ B ++ C, e.thread = t → ∃ k y, e = .told t k y) ∧
      (c.prop m = none → x = value a (A ++ .wrote t n v :: B) m) ∧ (∀ f, c.prop m = some f → x = f (value a (A ++ .wrote t n v :: B))) := by
  obtain ⟨A, n, v, B, C, h1, h2, h3⟩ := (run_inv inv_step s (inv_init c a todo)).told l1 t m x l2 hl
  refine ⟨A, n, v, B, C, h1, h2, fun hp => ?_, fun f hp => ?_⟩
  · rw [h3]; simp only [Cls.get, hp]
  · rw [h3]; simp only [Cls.get, hp]

/-- A name is told only after it or a field on which it depends was assigned. -/
theorem C93_named (c : Cls) (a : Nat → Nat) (todo : Nat → List (Nat × Nat)) (s : List Nat) (t m x : Nat) (l1 l2 : List Ev)
    (hl : (run c s (init a todo)).log = l1 ++ .told t m x :: l2) : ∃ u n v, .call u n v ∈ l1 ∧ (m = n ∨ m ∈ c.deps n) :=
  (run_inv names_step s (names_init c a todo)).told l1 t m x l2 hl

/-- Partial: an assignment that no other overlaps, on a model where none is under way and nothing is left over, returns; it has told the field if its
value changed, and then those of its dependent properties that changed, with their values; and nothing is left over.  Missing: overlapping assignments,
for which it is false (`C93_silent_refuted`, `C93_key_refuted`, `C93_size_refuted`, `C93_lost_refuted`). -/
theorem C93_alone_partial (c : Cls) (σ : St) (t n v : Nat) (r : List (Nat × Nat)) (ht : σ.thr t = .idle) (hr : σ.todo t = (n, v) :: r)
    (hs : σ.sem = 0) (hq : σ.queue = []) (hp : σ.prim = []) (hn : (n :: c.deps n).Nodup) :
    ∃ k, let τ := run c (List.replicate k t) σ
      τ.log = σ.log ++ [.call t n v, .wrote t n v] ++
        (if c.eq n (c.get n σ.attr) (c.get n τ.attr) then []
         else .told t n (c.get n τ.attr) :: ((c.deps n).filter (fun m => !c.eq m (c.get m σ.attr) (c.get m τ.attr))).map (fun m => .told t m (c.get m τ.attr)))
        ++ [.done t] ∧
      τ.attr = (fun m => if m = n then v else σ.attr m) ∧ τ.sem = 0 ∧ τ.queue = [] ∧ τ.prim = [] ∧ τ.thr = σ.thr ∧
      τ.todo = (fun u => if u = t then r else σ.todo u) := by
  have h0 : σ = at' t σ.thr σ.todo .idle σ.attr 0 [] [] σ.log := by
    obtain ⟨a, s, q, p, th, td, l⟩ := σ
    dsimp only at ht hs hq hp
    subst hs hq hp
    have : th = fun u => if u = t then .idle else th u := by
      funext u
      split
      · rename_i e; rw [e, ht]
      · rfl
    show St.mk a 0 [] [] th td l = St.mk a 0 [] [] (fun u => if u = t then .idle else th u) td l
    rw [← this]
  obtain ⟨k, hk, _⟩ := goes_set (c := c) (t := t) (f := σ.thr) (td := σ.todo) (a := σ.attr) (l := σ.log) hn hr
  rw [← h0] at hk
  refine ⟨k, ?_⟩
  dsimp only
  rw [hk]
  refine ⟨?_, rfl, rfl, rfl, rfl, ?_, rfl⟩
  · obtain ⟨b, hb⟩ : ∃ b, b = fun m => if m = n then v else σ.attr m := ⟨_, rfl⟩
    simp only [at', ← hb, tells]
    congr 2
    split
    · rfl
    · rw [List.map_cons]
      congr 1
      generalize c.deps n = ds
      induction ds with
      | nil => rfl
      | cons d ds ih =>
        rw [List.filterMap_cons, List.filter_cons]
        by_cases h : c.eq d (c.get d σ.attr) (c.get d b) = true
        · simp [h, ih]
        · simp [h, ih]
  · funext u
    show (if u = t then Ctl.idle else σ.thr u) = σ.thr u
    split
    · rename_i e; rw [e, ht]
    · rfl

/-- If the counter is above 0 between assignments, a thread alone never tells anything again, however often it assigns. -/
theorem C93_stuck (c : Cls) (σ : St) (t : Nat) (ht : σ.thr t = .idle) (hs : 0 < σ.sem) (k : Nat) :
    ∃ l, (run c (List.replicate k t) σ).log = σ.log ++ l ∧ ∀ u m x, .told u m x ∉ l :=
  (high_run (s := σ.sem) hs k (⟨by rw [ht]; rfl, [], by simp, fun _ _ _ h => absurd h List.not_mem_nil⟩ : High σ.sem t σ.log σ)).log

/-- Partial: if assignments never overlap - at no moment are two threads between the beginning and the end of one -, operators are not true of different
values, and properties depend only on the fields that declare them, then whenever nobody assigns, who keeps the last value told of any field or property
has its value, nothing is left over and no assignment raised.  Missing: overlapping assignments, for which it is false (see below). -/
theorem C93_mirror_partial (c : Cls) (a : Nat → Nat) (todo : Nat → List (Nat × Nat)) (s : List Nat) (heq : ∀ k x y, c.eq k x y = true → x = y)
    (hnd : ∀ n, (n :: c.deps n).Nodup) (hf : ∀ t n v, (n, v) ∈ todo t → c.prop n = none)
    (hd : ∀ n m (b : Nat → Nat) v, c.prop n = none → m ∉ n :: c.deps n → c.get m (fun k => if k = n then v else b k) = c.get m b)
    (h1 : ∀ p q, s = p ++ q → ∀ t u A n v B A' n' v' B', (run c p (init a todo)).log = A ++ .call t n v :: B → .done t ∉ B → (∀ r, .raised t r ∉ B) →
      (run c p (init a todo)).log = A' ++ .call u n' v' :: B' → .done u ∉ B' → (∀ r, .raised u r ∉ B') → t = u)
    (hr : ∀ t, (run c s (init a todo)).thr t = .idle) :
    (∀ m, mirror (c.get m a) (run c s (init a todo)).log m = c.get m (run c s (init a todo)).attr) ∧
    (run c s (init a todo)).sem = 0 ∧ (run c s (init a todo)).queue = [] ∧ (run c s (init a todo)).prim = [] := by
  have hone : ∀ p q, s = p ++ q → One (run c p (init a todo)) := by
    intro p q e t u ht hu
    have hp := run_inv (c := c) (I := fun σ => ∀ u, Part u σ.log (σ.thr u)) part_step p (part_init a todo)
    obtain ⟨A, n, v, B, h2, h3, h4⟩ := part_busy (hp t) ht
    obtain ⟨A', n', v', B', h5, h6, h7⟩ := part_busy (hp u) hu
    exact h1 p q e t u A n v B A' n' v' B' h2 h3 h4 h5 h6 h7
  have h0 : Good c a (init a todo) := .quiet ⟨fun _ => rfl, rfl, rfl, rfl, fun _ => rfl, hf⟩
  rcases good_run heq hnd hd s h0 hone with h | ⟨t, σ0, j, k, _, hj, hk, hσ, hn, _⟩
  · exact ⟨h.right, h.sem, h.queue, h.prim⟩
  · exact absurd (hr t) (by rw [← hσ]; exact hn j hj hk)

/-! ## What fails when assignments overlap -/

/-- Both threads have stored and end their delays. -/
def exLost : List Nat := List.replicate 12 0 ++ List.replicate 8 1 ++ [0, 1, 0, 1, 0, 1]

/-- Both threads read the counter before either writes it: it stays at 1, nobody is told of the two changes, nor of any that thread 0 will make. -/
theorem C93_silent_refuted :
    (run exC exLost (init exA (exT 0))).log = [.call 0 0 10, .wrote 0 0 10, .call 1 0 20, .wrote 1 0 20, .done 0, .done 1] ∧
    (run exC exLost (init exA (exT 0))).thr 0 = .idle ∧ (run exC exLost (init exA (exT 0))).thr 1 = .idle ∧
    (run exC exLost (init exA (exT 0))).sem = 1 ∧
    (∀ k, ∃ l, (run exC (List.replicate k 0) (run exC exLost (init exA (exT 0)))).log = (run exC exLost (init exA (exT 0))).log ++ l ∧
      ∀ u m x, .told u m x ∉ l) ∧
    (run exC (List.replicate 20 0) (run exC exLost (init exA (exT 0)))).attr 0 = 30 :=
  ⟨by decide +kernel, by decide +kernel, by decide +kernel, by decide +kernel,
    fun k => C93_stuck exC _ 0 (by decide +kernel) (by decide +kernel) k, by decide +kernel⟩

/-- Both threads find the counter at 0 and the queue filled; the second to take a name out of it raises `KeyError`. -/
theorem C93_key_refuted : ∃ s, .raised 1 .key ∈ (run exC s (init exA (exT 0))).log :=
  ⟨List.replicate 12 0 ++ List.replicate 8 1 ++ [0, 0, 1, 1] ++ List.replicate 6 0 ++ List.replicate 6 1 ++ [0, 1], by decide +kernel⟩

/-- Another thread assigns another field while this one goes through the primary changes: `RuntimeError`. -/
theorem C93_size_refuted : ∃ s, .raised 0 .size ∈ (run exC s (init exA (exT 2))).log :=
  ⟨List.replicate 17 0 ++ List.replicate 4 1 ++ [0], by decide +kernel⟩

/-- Thread 0 clears the queue after thread 1 has put the old value of field 2 there: nobody is told of its change, and nothing is left over. -/
theorem C93_lost_refuted :
    ∃ s, (run exC s (init exA (exT 2))).log =
      [.call 0 0 10, .wrote 0 0 10, .call 1 2 20, .told 0 0 10, .told 0 1 1, .done 0, .wrote 1 2 20, .done 1] ∧
      (run exC s (init exA (exT 2))).sem = 0 ∧ (run exC s (init exA (exT 2))).queue = [] :=
  ⟨List.replicate 26 0 ++ List.replicate 8 1 ++ List.replicate 10 0 ++ List.replicate 5 1, by decide +kernel⟩

/-! ## Examples -/

/-- Thread 0 tells both of its values while thread 1 assigns another field. -/
def exS : List Nat := List.replicate 26 0 ++ List.replicate 8 1 ++ List.replicate 10 0 ++ List.replicate 5 1

/-- `C93_value`, `C93_untouched`, `C93_blocks`. -/
example : (run exC exS (init exA (exT 2))).attr 0 = 10 :=
  C93_value exC exA (exT 2) exS 0 [.call 0 0 10] 0 10 [.call 1 2 20, .told 0 0 10, .told 0 1 1, .done 0, .wrote 1 2 20, .done 1] (by decide +kernel) (by simp)

example : (run exC exS (init exA (exT 2))).attr 5 = 0 :=
  C93_untouched exC exA (exT 2) exS 5 (by
    rw [show (run exC exS (init exA (exT 2))).log =
      [.call 0 0 10, .wrote 0 0 10, .call 1 2 20, .told 0 0 10, .told 0 1 1, .done 0, .wrote 1 2 20, .done 1] from by decide +kernel]
    simp)

example : Blocks 0 ((run exC exS (init exA (exT 2))).log.filter (fun e => e.thread == 0)) :=
  C93_blocks exC exA (exT 2) exS 0 (by decide +kernel)

/-- `C93_told`, `C93_named`: property 1. -/
example : ∃ u n v, .call u n v ∈ [Ev.call 0 0 10, .wrote 0 0 10, .call 1 2 20, .told 0 0 10] ∧ (1 = n ∨ 1 ∈ exC.deps n) :=
  C93_named exC exA (exT 2) exS 0 1 1 _ [.done 0, .wrote 1 2 20, .done 1] (by decide +kernel)

example : ∃ A n v B C, [Ev.call 0 0 10, .wrote 0 0 10, .call 1 2 20, .told 0 0 10] = A ++ .wrote 0 n v :: (B ++ C) ∧
    (∀ e ∈ B ++ C, e.thread = 0 → ∃ k y, e = .told 0 k y) ∧
    (exC.prop 1 = none → 1 = value exA (A ++ .wrote 0 n v :: B) 1) ∧ (∀ f, exC.prop 1 = some f → 1 = f (value exA (A ++ .wrote 0 n v :: B))) :=
  C93_told exC exA (exT 2) exS 0 1 1 _ [.done 0, .wrote 1 2 20, .done 1] (by decide +kernel)

/-- `C93_alone_partial`: the second assignment of thread 0, after all the above; field and property changed. -/
example : ∃ k, (run exC (List.replicate k 0) (run exC exS (init exA (exT 2)))).attr = (fun m => if m = 0 then 30 else (run exC exS (init exA (exT 2))).attr m) :=
  have ⟨k, h⟩ := C93_alone_partial exC (run exC exS (init exA (exT 2))) 0 0 30 [] (by decide +kernel) (by decide +kernel) (by decide +kernel)
    (by decide +kernel) (by decide +kernel) (by decide +kernel)
  ⟨k, h.2.1⟩

example : (run exC (List.replicate 40 0) (run exC exS (init exA (exT 2)))).log =
    (run exC exS (init exA (exT 2))).log ++ [.call 0 0 30, .wrote 0 0 30, .told 0 0 30, .told 0 1 3, .done 0] := by decide +kernel

/-- For the example: the threads in an assignment. -/
def opens : List Nat → List Ev → List Nat
  | o, [] => o
  | o, .call t _ _ :: l => opens (t :: o) l
  | o, .done t :: l => opens (o.filter (· != t)) l
  | o, .raised t _ :: l => opens (o.filter (· != t)) l
  | o, .wrote _ _ _ :: l => opens o l
  | o, .told _ _ _ :: l => opens o l

theorem opens_append (l2 : List Ev) : ∀ (l1 : List Ev) (o : List Nat), opens o (l1 ++ l2) = opens (opens o l1) l2
  | [], _ => rfl
  | .call _ _ _ :: l1, _ => opens_append l2 l1 _
  | .wrote _ _ _ :: l1, _ => opens_append l2 l1 _
  | .told _ _ _ :: l1, _ => opens_append l2 l1 _
  | .done _ :: l1, _ => opens_append l2 l1 _
  | .raised _ _ :: l1, _ => opens_append l2 l1 _

theorem opens_keep {t : Nat} : ∀ {B : List Ev} {o : List Nat}, .done t ∉ B → (∀ r, .raised t r ∉ B) → t ∈ o → t ∈ opens o B
  | [], _, _, _, h => h
  | .call u n v :: B, o, h1, h2, h =>
    opens_keep (B := B) (fun hm => h1 (List.mem_cons_of_mem _ hm)) (fun r hm => h2 r (List.mem_cons_of_mem _ hm)) (List.mem_cons_of_mem _ h)
  | .wrote _ _ _ :: B, o, h1, h2, h => opens_keep (B := B) (fun hm => h1 (List.mem_cons_of_mem _ hm)) (fun r hm => h2 r (List.mem_cons_of_mem _ hm)) h
  | .told _ _ _ :: B, o, h1, h2, h => opens_keep (B := B) (fun hm => h1 (List.mem_cons_of_mem _ hm)) (fun r hm => h2 r (List.mem_cons_of_mem _ hm)) h
  | .done u :: B, o, h1, h2, h => by
    have hu : t ≠ u := fun e => h1 (by rw [e]; exact List.mem_cons_self)
    exact opens_keep (B := B) (fun hm => h1 (List.mem_cons_of_mem _ hm)) (fun r hm => h2 r (List.mem_cons_of_mem _ hm))
      (List.mem_filter.mpr ⟨h, by simpa using hu⟩)
  | .raised u r :: B, o, h1, h2, h => by
    have hu : t ≠ u := fun e => h2 r (by rw [e]; exact List.mem_cons_self)
    exact opens_keep (B := B) (fun hm => h1 (List.mem_cons_of_mem _ hm)) (fun r hm => h2 r (List.mem_cons_of_mem _ hm))
      (List.mem_filter.mpr ⟨h, by simpa using hu⟩)

theorem opens_mem {t n v : Nat} {L A B : List Ev} (h : L = A ++ .call t n v :: B) (h1 : .done t ∉ B) (h2 : ∀ r, .raised t r ∉ B) : t ∈ opens [] L := by
  rw [h, opens_append]
  exact opens_keep (B := B) h1 h2 List.mem_cons_self

/-- Thread 0 assigns field 0, a third thread has nothing to do, then thread 1 assigns field 2. -/
def exOne : List Nat := List.replicate 5 0 ++ [2] ++ List.replicate 32 0 ++ [2] ++ List.replicate 31 1

theorem exOne_one : ∀ i ∈ List.range 71, ∀ t ∈ opens [] (run exC (exOne.take i) (init exA (exT 2))).log,
    ∀ u ∈ opens [] (run exC (exOne.take i) (init exA (exT 2))).log, t = u := by decide +kernel

theorem exOne_log : (run exC exOne (init exA (exT 2))).log =
    [.call 0 0 10, .wrote 0 0 10, .told 0 0 10, .told 0 1 1, .done 0, .call 1 2 20, .wrote 1 2 20, .told 1 2 20, .done 1] := by decide +kernel

theorem exOne_idle : ∀ t, (run exC exOne (init exA (exT 2))).thr t = .idle
  | 0 => by decide +kernel
  | 1 => by decide +kernel
  | t + 2 => by
    have key : ∀ (s : List Nat) (σ : St), (∀ u, u ≥ 2 → σ.thr u = .idle ∧ σ.todo u = []) → ∀ u, u ≥ 2 → (run exC s σ).thr u = .idle ∧ (run exC s σ).todo u = [] := by
      intro s
      induction s with
      | nil => exact fun _ h => h
      | cons v s ih =>
        intro σ h
        refine ih (step exC σ v) (fun u hu => ?_)
        by_cases huv : u = v
        · subst huv
          have : step exC σ u = σ := by unfold step; rw [(h u hu).1]; simp [(h u hu).2]
          rw [this]; exact h u hu
        · exact ⟨(step_other exC σ v u huv).trans (h u hu).1, (step_todo exC σ v u huv).trans (h u hu).2⟩
    exact (key exOne (init exA (exT 2)) (fun u hu => ⟨rfl, by
      match u, hu with
      | u + 2, _ => rfl⟩) (t + 2) (by omega)).1

/-- `C93_mirror_partial`. -/
example : (∀ m, mirror (exC.get m exA) (run exC exOne (init exA (exT 2))).log m = exC.get m (run exC exOne (init exA (exT 2))).attr) := by
  refine (C93_mirror_partial exC exA (exT 2) exOne (fun k x y h => by simpa [exC] using h) (fun n => ?_) (fun t n v h => ?_) (fun n m b v hn hm => ?_)
    (fun p q e t u A n v B A' n' v' B' h1 h2 h3 h4 h5 h6 => ?_) exOne_idle).1
  · by_cases hn : n = 0
    · subst hn; decide
    · simp [exC, hn]
  · match t, h with
    | 0, h =>
      simp only [exT, List.mem_cons, Prod.mk.injEq, List.not_mem_nil, or_false] at h
      rcases h with ⟨rfl, _⟩ | ⟨rfl, _⟩ <;> rfl
    | 1, h =>
      simp only [exT, List.mem_cons, Prod.mk.injEq, List.not_mem_nil, or_false] at h
      obtain ⟨rfl, _⟩ := h
      rfl
  · by_cases hm1 : m = 1
    · subst hm1
      have hn0 : n ≠ 0 := fun e => hm (by rw [e]; decide)
      have hn0' : ¬ 0 = n := fun e => hn0 e.symm
      simp [Cls.get, exC, hn0']
    · have hmn : m ≠ n := fun e => hm (by rw [e]; exact List.mem_cons_self)
      simp [Cls.get, exC, hm1, hmn]
  · have hp : p = exOne.take p.length := by rw [e]; simp
    have hlen : p.length ∈ List.range 71 := by
      have := congrArg List.length e
      simp [exOne] at this
      exact List.mem_range.mpr (by omega)
    have h7 := opens_mem h1 h2 h3
    have h8 := opens_mem h4 h5 h6
    rw [hp] at h7 h8
    exact exOne_one p.length hlen t h7 u h8

end Psygnal.DlC
