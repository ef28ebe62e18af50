import Verif.QueueConc

/-! # Lemmas for `Verif/QueueConc.lean` -/
namespace Psygnal.QC

/-- What was put for thread `T`, in order. -/
def puts (T : Nat) (l : List Ev) : List Entry :=
  l.filterMap fun ev => match ev with
    | .put _ T' n => if T' = T then some n else none
    | _ => none

/-- What was taken out for thread `T`, in order. -/
def gets (T : Nat) (l : List Ev) : List Entry :=
  l.filterMap fun ev => match ev with
    | .get _ T' n => if T' = T then some n else none
    | _ => none

/-- Is the thread creating the queue of `T`, having found none? -/
def creating (T : Nat) (th : Thread) : Prop :=
  match th.ctl with
  | .make T' _ => T' = T
  | .store T' _ _ => T' = T
  | _ => False

/-- The thread uses the `v`-th queue of `T` right now. -/
def usesC (T v : Nat) : Ctl → Prop
  | .found T' v' _ => T' = T ∧ v' = v
  | .poll T' v' => T' = T ∧ v' = v
  | .take T' v' => T' = T ∧ v' = v
  | _ => False

/-- The thread has the `v`-th queue of `T` in hand. -/
def Uses (T v : Nat) (th : Thread) : Prop := usesC T v th.ctl ∨ Frame.loop T v ∈ th.stack

/-- One constructor per branch of `step`. -/
inductive Step (e : Env) (t : Nat) (σ : St) : St → Prop
  | ret {st : List Frame} : σ.thr t = ⟨.run .ret, st⟩ → Step e t σ { σ with thr := set σ.thr t ⟨.fin true, st⟩ }
  | raise {st : List Frame} : σ.thr t = ⟨.run .raise, st⟩ → Step e t σ { σ with thr := set σ.thr t ⟨.fin false, st⟩ }
  | direct {x a : Nat} {k : Bool → Code} {st : List Frame} : σ.thr t = ⟨.run (.send x a k), st⟩ → t = e.home x →
    Step e t σ { σ with thr := set σ.thr t ⟨.run (e.body x a), .cont k :: st⟩, log := σ.log ++ [.call t x a] }
  | send {x a : Nat} {k : Bool → Code} {st : List Frame} : σ.thr t = ⟨.run (.send x a k), st⟩ → t ≠ e.home x →
    Step e t σ { σ with thr := set σ.thr t ⟨.look (e.home x) (.put x a), .cont k :: st⟩ }
  | drain {T : Option Nat} {k : Bool → Code} {st : List Frame} : σ.thr t = ⟨.run (.drain T k), st⟩ →
    Step e t σ { σ with thr := set σ.thr t ⟨.look (T.getD t) .drain, .drain (T.getD t) k :: st⟩, log := σ.log ++ [.start t (T.getD t)] }
  | hit {T v : Nat} {y : Why} {st : List Frame} : σ.thr t = ⟨.look T y, st⟩ → σ.tab T = some v →
    Step e t σ { σ with thr := set σ.thr t ⟨.found T v y, st⟩ }
  | miss {T : Nat} {y : Why} {st : List Frame} : σ.thr t = ⟨.look T y, st⟩ → σ.tab T = none →
    Step e t σ { σ with thr := set σ.thr t ⟨.make T y, st⟩ }
  | make {T : Nat} {y : Why} {st : List Frame} : σ.thr t = ⟨.make T y, st⟩ →
    Step e t σ { σ with thr := set σ.thr t ⟨.store T (σ.made T) y, st⟩, made := set σ.made T (σ.made T + 1) }
  | store {T v : Nat} {y : Why} {st : List Frame} : σ.thr t = ⟨.store T v y, st⟩ →
    Step e t σ { σ with thr := set σ.thr t ⟨.found T v y, st⟩, tab := set σ.tab T (some v) }
  | put {T v x a : Nat} {st : List Frame} : σ.thr t = ⟨.found T v (.put x a), st⟩ →
    Step e t σ { σ with thr := set σ.thr t ⟨.fin true, st⟩, q := setQ σ.q T v (σ.q T v ++ [(σ.next, x, a)]), next := σ.next + 1, log := σ.log ++ [.put t T (σ.next, x, a)] }
  | begin {T v : Nat} {st : List Frame} : σ.thr t = ⟨.found T v .drain, st⟩ →
    Step e t σ { σ with thr := set σ.thr t ⟨.poll T v, st⟩ }
  | empty {T v : Nat} {st : List Frame} : σ.thr t = ⟨.poll T v, st⟩ → σ.q T v = [] →
    Step e t σ { σ with thr := set σ.thr t ⟨.fin true, st⟩, log := σ.log ++ [.empty t T] }
  | more {T v : Nat} {st : List Frame} : σ.thr t = ⟨.poll T v, st⟩ → σ.q T v ≠ [] →
    Step e t σ { σ with thr := set σ.thr t ⟨.take T v, st⟩ }
  | get {T v n x a : Nat} {l : List Entry} {st : List Frame} : σ.thr t = ⟨.take T v, st⟩ → σ.q T v = (n, x, a) :: l →
    Step e t σ { σ with thr := set σ.thr t ⟨.run (e.body x a), .loop T v :: st⟩, q := setQ σ.q T v l, log := σ.log ++ [.get t T (n, x, a), .call t x a] }
  | back {ok : Bool} {k : Bool → Code} {st : List Frame} : σ.thr t = ⟨.fin ok, .cont k :: st⟩ →
    Step e t σ { σ with thr := set σ.thr t ⟨.run (k ok), st⟩ }
  | done {ok : Bool} {T : Nat} {k : Bool → Code} {st : List Frame} : σ.thr t = ⟨.fin ok, .drain T k :: st⟩ →
    Step e t σ { σ with thr := set σ.thr t ⟨.run (k ok), st⟩, log := σ.log ++ [.back t T ok] }
  | again {T v : Nat} {st : List Frame} : σ.thr t = ⟨.fin true, .loop T v :: st⟩ →
    Step e t σ { σ with thr := set σ.thr t ⟨.poll T v, st⟩ }
  | leave {T v : Nat} {st : List Frame} : σ.thr t = ⟨.fin false, .loop T v :: st⟩ →
    Step e t σ { σ with thr := set σ.thr t ⟨.fin false, st⟩ }

theorem step_rel {e : Env} {t : Nat} {σ σ' : St} (h : step e t σ = some σ') : Step e t σ σ' := by
  unfold step at h
  split at h
  · cases h; exact .ret ‹_›
  · cases h; exact .raise ‹_›
  · split at h <;> cases h
    · exact .direct ‹_› ‹_›
    · exact .send ‹_› ‹_›
  · cases h; exact .drain ‹_›
  · split at h <;> cases h
    · exact .hit ‹_› ‹_›
    · exact .miss ‹_› ‹_›
  · cases h; exact .make ‹_›
  · cases h; exact .store ‹_›
  · cases h; exact .put ‹_›
  · cases h; exact .begin ‹_›
  · split at h <;> cases h
    · exact .empty ‹_› ‹_›
    · rename_i hq; exact .more ‹_› (by rw [hq]; simp)
  · split at h
    · cases h
    · cases h; exact .get ‹_› ‹_›
  · cases h
  · cases h; exact .back ‹_›
  · cases h; exact .done ‹_›
  · cases h; exact .again ‹_›
  · cases h; exact .leave ‹_›

theorem run_inv {e : Env} {P : St → Prop} (hs : ∀ t σ σ', Step e t σ σ' → P σ → P σ') :
    ∀ (l : List Nat) (σ : St), P σ → P (run e l σ)
  | [], _, h => h
  | t :: l, σ, h => by
    unfold run
    apply run_inv hs
    cases hq : step e t σ with
    | none => exact h
    | some σ' => exact hs t σ σ' (step_rel hq) h

/-! ## The queue of one thread, if it is created once -/

/-- The content of the queue that is in the table. -/
def content (T : Nat) (σ : St) : List Entry :=
  match σ.tab T with
  | none => []
  | some v => σ.q T v

/-- All threads that have a queue of `T` in hand have the one in the table, and nothing was lost. -/
structure Fifo (T : Nat) (σ : St) : Prop where
  one : ∀ t v, Uses T v (σ.thr t) → σ.tab T = some v
  fresh : ∀ v, σ.tab T ≠ some v → σ.q T v = []
  create : ∀ t, creating T (σ.thr t) → σ.tab T = none
  eq : puts T σ.log = gets T σ.log ++ content T σ

/-- At most one thread is creating the queue of `T`. -/
def Single (T : Nat) (σ : St) : Prop := ∀ t t', creating T (σ.thr t) → creating T (σ.thr t') → t = t'

theorem puts_append (T : Nat) (l l' : List Ev) : puts T (l ++ l') = puts T l ++ puts T l' := by simp [puts]
theorem gets_append (T : Nat) (l l' : List Ev) : gets T (l ++ l') = gets T l ++ gets T l' := by simp [gets]

/-- A step that only moves thread `t` and uses no other queue than before, resp. the one in the table. -/
theorem fifo_move {T t : Nat} {σ σ' : St} {th : Thread} (hi : Fifo T σ) (ht : σ'.thr = set σ.thr t th)
    (htab : σ'.tab = σ.tab) (hq : σ'.q = σ.q) (hp : puts T σ'.log = puts T σ.log) (hg : gets T σ'.log = gets T σ.log)
    (hu : ∀ v, Uses T v th → σ.tab T = some v) (hc : creating T th → σ.tab T = none) : Fifo T σ' := by
  refine ⟨fun t' v h => ?_, ?_, fun t' h => ?_, ?_⟩
  · rw [htab]; rw [ht] at h
    by_cases e : t' = t
    · subst e; simp only [set, if_true] at h; exact hu v h
    · simp only [set, if_neg e] at h; exact hi.one t' v h
  · rw [htab, hq]; exact hi.fresh
  · rw [htab]; rw [ht] at h
    by_cases e : t' = t
    · subst e; simp only [set, if_true] at h; exact hc h
    · simp only [set, if_neg e] at h; exact hi.create t' h
  · rw [hp, hg, hi.eq]; simp only [content, htab, hq]

theorem fifo_step {e : Env} {T t : Nat} {σ σ' : St} (h : Step e t σ σ') (hx : Single T σ) (hi : Fifo T σ) :
    Fifo T σ' := by
  have hone := fun v => hi.one t v
  have hcr := hi.create t
  cases h with
  | ret h => exact fifo_move hi rfl rfl rfl rfl rfl (by simpa [h, Uses, usesC] using hone) (by simp [creating])
  | raise h => exact fifo_move hi rfl rfl rfl rfl rfl (by simpa [h, Uses, usesC] using hone) (by simp [creating])
  | direct h _ =>
    exact fifo_move hi rfl rfl rfl (by simp [puts]) (by simp [gets]) (by simpa [h, Uses, usesC] using hone)
      (by simp [creating])
  | send h _ => exact fifo_move hi rfl rfl rfl rfl rfl (by simpa [h, Uses, usesC] using hone) (by simp [creating])
  | drain h => exact fifo_move hi rfl rfl rfl (by simp [puts]) (by simp [gets]) (by simpa [h, Uses, usesC] using hone) (by simp [creating])
  | hit h hv =>
    refine fifo_move hi rfl rfl rfl rfl rfl (fun v hu => ?_) (by simp [creating])
    rcases hu with ⟨rfl, rfl⟩ | hu
    · exact hv
    · exact hone v (.inr (by rw [h]; exact hu))
  | miss h hv =>
    refine fifo_move hi rfl rfl rfl rfl rfl (by simpa [h, Uses, usesC] using hone) ?_
    rintro rfl; exact hv
  | make h =>
    refine fifo_move hi rfl rfl rfl rfl rfl (by simpa [h, Uses, usesC] using hone) ?_
    rintro rfl; exact hcr (by rw [h]; rfl)
  | store h =>
    rename_i T' v y st
    by_cases hT : T' = T
    · subst hT
      have hn := hcr (by rw [h]; rfl)
      have hno : ∀ t' v', ¬ Uses T' v' (σ.thr t') := fun t' v' hu => by
        have := hi.one t' v' hu; rw [hn] at this; cases this
      refine ⟨fun t' v' hu => ?_, fun v' _ => ?_, fun t' hc => ?_, ?_⟩
      · by_cases e : t' = t
        · subst e
          simp only [set, if_true] at hu ⊢
          rcases hu with ⟨_, rfl⟩ | hu
          · rfl
          · exact absurd (.inr (by rw [h]; exact hu)) (hno t' v')
        · simp only [set, if_neg e] at hu
          exact absurd hu (hno t' v')
      · exact hi.fresh v' (by rw [hn]; simp)
      · exfalso
        by_cases e : t' = t
        · subst e; simp [set, creating] at hc
        · simp only [set, if_neg e] at hc
          exact e (hx t' t hc (by rw [h]; rfl))
      · simp only [content, set, if_true]
        rw [hi.eq]
        simp only [content, hn]
        rw [hi.fresh v (by rw [hn]; simp)]
    · have htab : set σ.tab T' (some v) T = σ.tab T := by simp [set, Ne.symm hT]
      refine ⟨fun t' v' hu => ?_, ?_, fun t' hc => ?_, ?_⟩
      · simp only [htab]
        by_cases e : t' = t
        · subst e
          simp only [set, if_true] at hu
          rcases hu with ⟨rfl, _⟩ | hu
          · exact absurd rfl hT
          · exact hone v' (.inr (by rw [h]; exact hu))
        · simp only [set, if_neg e] at hu
          exact hi.one t' v' hu
      · simp only [htab]; exact hi.fresh
      · simp only [htab]
        by_cases e : t' = t
        · subst e; simp [set, creating] at hc
        · simp only [set, if_neg e] at hc
          exact hi.create t' hc
      · simp only [content, htab]; exact hi.eq
  | put h =>
    rename_i T' v x a st
    have hst : ∀ v', Frame.loop T v' ∈ st → σ.tab T = some v' := fun v' hm => hone v' (.inr (by rw [h]; exact hm))
    by_cases hT : T' = T
    · subst hT
      have hv := hone v (.inl (by rw [h]; exact ⟨rfl, rfl⟩))
      refine ⟨fun t' v' hu => ?_, fun v' hne => ?_, fun t' hc => ?_, ?_⟩
      · by_cases e : t' = t
        · subst e
          simp only [set, if_true] at hu
          rcases hu with hu | hu
          · exact hu.elim
          · exact hst v' hu
        · simp only [set, if_neg e] at hu; exact hi.one t' v' hu
      · have : v' ≠ v := by rintro rfl; exact hne hv
        simp only [setQ, true_and, if_neg this]
        exact hi.fresh v' hne
      · by_cases e : t' = t
        · subst e; simp [set, creating] at hc
        · simp only [set, if_neg e] at hc; exact hi.create t' hc
      · simp only [content, hv, setQ, puts_append, gets_append, hi.eq]
        simp [puts, gets]
    · refine ⟨fun t' v' hu => ?_, fun v' hne => ?_, fun t' hc => ?_, ?_⟩
      · by_cases e : t' = t
        · subst e
          simp only [set, if_true] at hu
          rcases hu with hu | hu
          · exact hu.elim
          · exact hst v' hu
        · simp only [set, if_neg e] at hu; exact hi.one t' v' hu
      · simp only [setQ]
        rw [if_neg (fun h => hT h.1.symm)]
        exact hi.fresh v' hne
      · by_cases e : t' = t
        · subst e; simp [set, creating] at hc
        · simp only [set, if_neg e] at hc; exact hi.create t' hc
      · simp only [content, puts_append, gets_append, hi.eq, setQ]
        simp [puts, gets, Ne.symm hT, hT]
  | begin h => exact fifo_move hi rfl rfl rfl rfl rfl (by simpa [h, Uses, usesC] using hone) (by simp [creating])
  | empty h _ =>
    refine fifo_move hi rfl rfl rfl (by simp [puts]) (by simp [gets]) (fun v hu => ?_) (by simp [creating])
    refine hone v ?_
    rw [h]
    rcases hu with hu | hu
    · exact hu.elim
    · exact .inr hu
  | more h _ => exact fifo_move hi rfl rfl rfl rfl rfl (by simpa [h, Uses, usesC] using hone) (by simp [creating])
  | get h hq =>
    rename_i T' v n x a l st
    have hst : ∀ v', Frame.loop T v' ∈ Frame.loop T' v :: st → σ.tab T = some v' := fun v' hm => by
      refine hone v' ?_
      rw [h]
      rcases List.mem_cons.1 hm with hm | hm
      · cases hm; exact .inl ⟨rfl, rfl⟩
      · exact .inr hm
    have hthr : ∀ t' v', Uses T v' (set σ.thr t ⟨.run (e.body x a), .loop T' v :: st⟩ t') → σ.tab T = some v' := by
      intro t' v' hu
      by_cases e : t' = t
      · subst e
        simp only [set, if_true] at hu
        rcases hu with hu | hu
        · exact hu.elim
        · exact hst v' hu
      · simp only [set, if_neg e] at hu; exact hi.one t' v' hu
    have hcre : ∀ t', creating T (set σ.thr t ⟨.run (e.body x a), .loop T' v :: st⟩ t') → σ.tab T = none := by
      intro t' hc
      by_cases e : t' = t
      · subst e; simp [set, creating] at hc
      · simp only [set, if_neg e] at hc; exact hi.create t' hc
    by_cases hT : T' = T
    · subst hT
      have hv := hone v (.inl (by rw [h]; exact ⟨rfl, rfl⟩))
      refine ⟨hthr, fun v' hne => ?_, hcre, ?_⟩
      · have : v' ≠ v := by rintro rfl; exact hne hv
        simp only [setQ, true_and, if_neg this]
        exact hi.fresh v' hne
      · simp only [content, hv, setQ, puts_append, gets_append, hi.eq, hq]
        simp [puts, gets]
    · refine ⟨hthr, fun v' hne => ?_, hcre, ?_⟩
      · simp only [setQ]
        rw [if_neg (fun h => hT h.1.symm)]
        exact hi.fresh v' hne
      · simp only [content, puts_append, gets_append, hi.eq, setQ]
        simp [puts, gets, Ne.symm hT, hT]
  | back h => exact fifo_move hi rfl rfl rfl rfl rfl (by simpa [h, Uses, usesC] using hone) (by simp [creating])
  | done h =>
    exact fifo_move hi rfl rfl rfl (by simp [puts]) (by simp [gets]) (by simpa [h, Uses, usesC] using hone) (by simp [creating])
  | again h =>
    refine fifo_move hi rfl rfl rfl rfl rfl (fun v hu => ?_) (by simp [creating])
    refine hone v ?_
    rw [h]
    rcases hu with ⟨rfl, rfl⟩ | hu
    · exact .inr List.mem_cons_self
    · exact .inr (List.mem_cons_of_mem _ hu)
  | leave h =>
    refine fifo_move hi rfl rfl rfl rfl rfl (fun v hu => ?_) (by simp [creating])
    refine hone v ?_
    rw [h]
    rcases hu with hu | hu
    · exact hu.elim
    · exact .inr (List.mem_cons_of_mem _ hu)

theorem fifo_init (ready : Nat → Bool) (prog : Nat → Code) (T : Nat) : Fifo T (init ready prog) := by
  refine ⟨fun t v h => ?_, fun _ _ => rfl, fun t h => ?_, ?_⟩
  · simp [init, Uses, usesC] at h
  · simp [init, creating] at h
  · simp only [init, content, puts, gets]
    cases ready T <;> rfl

/-! ## Threads that only empty their own queue -/

/-- All calls of `emit_queued` in the code are for the own thread. -/
def Own (t : Nat) : Code → Prop
  | .ret => True
  | .raise => True
  | .send _ _ k => ∀ b, Own t (k b)
  | .drain T k => T.getD t = t ∧ ∀ b, Own t (k b)

/-- The same for what a thread does next. -/
def OwnC (t : Nat) : Ctl → Prop
  | .run c => Own t c
  | .look T .drain => T = t
  | .make T .drain => T = t
  | .store T _ .drain => T = t
  | .found T _ .drain => T = t
  | .poll T _ => T = t
  | .take T _ => T = t
  | _ => True

/-- The same for a frame. -/
def OwnF (t : Nat) : Frame → Prop
  | .cont k => ∀ b, Own t (k b)
  | .drain T k => T = t ∧ ∀ b, Own t (k b)
  | .loop T _ => T = t

/-- A callback that is about to be queued belongs to the queue; a queue about to be read is not empty. -/
def PutC (e : Env) (q : Nat → Nat → List Entry) : Ctl → Prop
  | .look T (.put x _) => e.home x = T
  | .make T (.put x _) => e.home x = T
  | .store T _ (.put x _) => e.home x = T
  | .found T _ (.put x _) => e.home x = T
  | .take T v => q T v ≠ []
  | _ => True

/-- Every thread empties its own queue only; what is queued belongs there; callbacks were called where they belong. -/
structure Home (e : Env) (σ : St) : Prop where
  ctl : ∀ t, OwnC t (σ.thr t).ctl
  stack : ∀ t, ∀ f ∈ (σ.thr t).stack, OwnF t f
  put : ∀ t, PutC e σ.q (σ.thr t).ctl
  queue : ∀ T v, ∀ n ∈ σ.q T v, e.home n.2.1 = T
  log : ∀ t x a, Ev.call t x a ∈ σ.log → e.home x = t

theorem home_step {e : Env} (he : ∀ x a t, Own t (e.body x a)) {t : Nat} {σ σ' : St} (h : Step e t σ σ')
    (hi : Home e σ) : Home e σ' := by
  obtain ⟨h1, h2, h3, h4, h5⟩ := hi
  have g1 := h1 t
  have g2 := h2 t
  have g3 := h3 t
  have mk : ∀ {c : Ctl} {st : List Frame} {σ'' : St}, σ''.thr = set σ.thr t ⟨c, st⟩ → OwnC t c → (∀ f ∈ st, OwnF t f) →
      PutC e σ''.q c → (∀ T v, T ≠ t → σ.q T v ≠ [] → σ''.q T v ≠ []) →
      (∀ T v, ∀ n ∈ σ''.q T v, e.home n.2.1 = T) → (∀ t x a, Ev.call t x a ∈ σ''.log → e.home x = t) → Home e σ'' := by
    intro c st σ'' k4 k1 k2 k3 k5 k6 k7
    refine ⟨fun t' => ?_, fun t' => ?_, fun t' => ?_, k6, k7⟩ <;> rw [k4] <;> by_cases et : t' = t
    · subst et; simpa [set] using k1
    · simpa [set, et] using h1 t'
    · subst et; simpa [set] using k2
    · simpa [set, et] using h2 t'
    · subst et; simpa [set] using k3
    · simp only [set, if_neg et]
      have a1 := h1 t'
      have a3 := h3 t'
      generalize (σ.thr t').ctl = c' at a1 a3
      cases c' with
      | take T v => exact k5 T v (by intro h; exact et (a1.symm.trans h)) a3
      | look T y => cases y <;> exact a3
      | make T y => cases y <;> exact a3
      | store T v y => cases y <;> exact a3
      | found T v y => cases y <;> exact a3
      | _ => trivial
  cases h with
  | ret h => rw [h] at g2; exact mk rfl trivial g2 trivial (fun _ _ _ h => h) h4 h5
  | raise h => rw [h] at g2; exact mk rfl trivial g2 trivial (fun _ _ _ h => h) h4 h5
  | direct h hd =>
    rw [h] at g1 g2
    refine mk rfl (he _ _ t) ?_ trivial (fun _ _ _ h => h) h4 ?_
    · intro f hf
      rcases List.mem_cons.1 hf with rfl | hf
      · exact g1
      · exact g2 f hf
    · intro t' x' a' hm
      rcases List.mem_append.1 hm with hm | hm
      · exact h5 _ _ _ hm
      · simp at hm; obtain ⟨rfl, rfl, rfl⟩ := hm; exact hd.symm
  | send h _ =>
    rw [h] at g1 g2
    refine mk rfl trivial ?_ rfl (fun _ _ _ h => h) h4 h5
    intro f hf
    rcases List.mem_cons.1 hf with rfl | hf
    · exact g1
    · exact g2 f hf
  | drain h =>
    rw [h] at g1 g2
    refine mk rfl g1.1 ?_ trivial (fun _ _ _ h => h) h4 (by simpa using h5)
    intro f hf
    rcases List.mem_cons.1 hf with rfl | hf
    · exact ⟨g1.1, g1.2⟩
    · exact g2 f hf
  | hit h hv =>
    rename_i T v y st
    rw [h] at g1 g2 g3
    cases y
    · exact mk rfl trivial g2 g3 (fun _ _ _ h => h) h4 h5
    · exact mk rfl g1 g2 trivial (fun _ _ _ h => h) h4 h5
  | miss h hv =>
    rename_i T y st
    rw [h] at g1 g2 g3
    cases y
    · exact mk rfl trivial g2 g3 (fun _ _ _ h => h) h4 h5
    · exact mk rfl g1 g2 trivial (fun _ _ _ h => h) h4 h5
  | make h =>
    rename_i T y st
    rw [h] at g1 g2 g3
    cases y
    · exact mk rfl trivial g2 g3 (fun _ _ _ h => h) h4 h5
    · exact mk rfl g1 g2 trivial (fun _ _ _ h => h) h4 h5
  | store h =>
    rename_i T v y st
    rw [h] at g1 g2 g3
    cases y
    · exact mk rfl trivial g2 g3 (fun _ _ _ h => h) h4 h5
    · exact mk rfl g1 g2 trivial (fun _ _ _ h => h) h4 h5
  | put h =>
    rename_i T v x a st
    rw [h] at g2 g3
    refine mk rfl trivial g2 trivial (fun T' v' _ hn => ?_) (fun T' v' n hn => ?_) (fun t' x' a' hm => ?_)
    · simp only [setQ]; split
      · simp
      · exact hn
    · simp only [setQ] at hn
      split at hn
      · rename_i hh
        rcases List.mem_append.1 hn with hn | hn
        · rw [hh.1]; exact h4 T v n hn
        · simp at hn; subst hn; rw [hh.1]; exact g3
      · exact h4 T' v' n hn
    · rcases List.mem_append.1 hm with hm | hm
      · exact h5 _ _ _ hm
      · simp at hm
  | begin h => rw [h] at g1 g2; exact mk rfl g1 g2 trivial (fun _ _ _ h => h) h4 h5
  | empty h _ => rw [h] at g2; exact mk rfl trivial g2 trivial (fun _ _ _ h => h) h4 (by simpa using h5)
  | more h hq => rw [h] at g1 g2; exact mk rfl g1 g2 hq (fun _ _ _ h => h) h4 h5
  | get h hq =>
    rename_i T v n x a l st
    rw [h] at g1 g2
    have hT : T = t := g1
    subst hT
    refine mk rfl (he _ _ _) ?_ trivial (fun T' v' hne hn => ?_) (fun T' v' m hm => ?_) (fun t' x' a' hm => ?_)
    · intro f hf
      rcases List.mem_cons.1 hf with rfl | hf
      · rfl
      · exact g2 f hf
    · simp only [setQ]; rw [if_neg (fun hh => hne hh.1)]; exact hn
    · simp only [setQ] at hm
      split at hm
      · rename_i hh
        rw [hh.1]; exact h4 T v m (by rw [hq]; exact List.mem_cons_of_mem _ hm)
      · exact h4 T' v' m hm
    · rcases List.mem_append.1 hm with hm | hm
      · exact h5 _ _ _ hm
      · simp at hm; obtain ⟨rfl, rfl, rfl⟩ := hm
        exact h4 t' v (n, x', a') (by rw [hq]; exact List.mem_cons_self)
  | back h =>
    rw [h] at g2
    exact mk rfl (g2 _ List.mem_cons_self _) (fun f hf => g2 f (List.mem_cons_of_mem _ hf)) trivial
      (fun _ _ _ h => h) h4 h5
  | done h =>
    rw [h] at g2
    exact mk rfl ((g2 _ List.mem_cons_self).2 _) (fun f hf => g2 f (List.mem_cons_of_mem _ hf)) trivial
      (fun _ _ _ h => h) h4 (by simpa using h5)
  | again h =>
    rw [h] at g2
    exact mk rfl (g2 _ List.mem_cons_self) (fun f hf => g2 f (List.mem_cons_of_mem _ hf)) trivial
      (fun _ _ _ h => h) h4 h5
  | leave h =>
    rw [h] at g2
    exact mk rfl trivial (fun f hf => g2 f (List.mem_cons_of_mem _ hf)) trivial
      (fun _ _ _ h => h) h4 h5

theorem home_init {e : Env} (ready : Nat → Bool) {prog : Nat → Code} (hp : ∀ t, Own t (prog t)) :
    Home e (init ready prog) := by
  refine ⟨hp, ?_, fun _ => trivial, ?_, ?_⟩ <;> simp [init]

/-! ## What `emit_queued` has done when it returns -/

/-- The thread of an event. -/
def Ev.thread : Ev → Nat
  | .put t _ _ => t
  | .get t _ _ => t
  | .call t _ _ => t
  | .start t _ => t
  | .empty t _ => t
  | .back t _ _ => t

/-- The last event of thread `t` is that it finds the queue of `T` empty. -/
def LastEmpty (t T : Nat) (l : List Ev) : Prop := ∃ m1 m2, l = m1 ++ .empty t T :: m2 ∧ ∀ ev ∈ m2, ev.thread ≠ t

/-- Is there a call of `emit_queued` on top?  For which thread? -/
def topDrain : List Frame → Option Nat
  | .drain T _ :: _ => some T
  | _ => none

/-- What is on top of the stack. -/
def topOk : Ctl → Option Nat → Prop
  | .run _, o => o = none
  | .look T y, o => match y with | .put _ _ => o = none | .drain => o = some T
  | .make T y, o => match y with | .put _ _ => o = none | .drain => o = some T
  | .store T _ y, o => match y with | .put _ _ => o = none | .drain => o = some T
  | .found T _ y, o => match y with | .put _ _ => o = none | .drain => o = some T
  | .poll T _, o => o = some T
  | .take T _, o => o = some T
  | .fin _, _ => True

/-- What is below each frame. -/
def stackOk : List Frame → Prop
  | [] => True
  | .cont _ :: st => topDrain st = none ∧ stackOk st
  | .drain _ _ :: st => topDrain st = none ∧ stackOk st
  | .loop T _ :: st => topDrain st = some T ∧ stackOk st

/-- A call of `emit_queued` that has ended without an exception has just found its queue empty. -/
structure Drains (σ : St) : Prop where
  top : ∀ t, topOk (σ.thr t).ctl (topDrain (σ.thr t).stack)
  stack : ∀ t, stackOk (σ.thr t).stack
  ended : ∀ t T, (σ.thr t).ctl = .fin true → topDrain (σ.thr t).stack = some T → LastEmpty t T σ.log
  log : ∀ l1 l2 t T, σ.log = l1 ++ .back t T true :: l2 → LastEmpty t T l1

theorem lastEmpty_append {t T : Nat} {l l' : List Ev} (h : LastEmpty t T l) (hl : ∀ ev ∈ l', ev.thread ≠ t) :
    LastEmpty t T (l ++ l') := by
  obtain ⟨m1, m2, rfl, h2⟩ := h
  exact ⟨m1, m2 ++ l', by simp, fun ev hev => by
    rcases List.mem_append.1 hev with hev | hev
    · exact h2 ev hev
    · exact hl ev hev⟩

theorem split_append {α : Type} {l l' l1 l2 : List α} {x : α} (h : l ++ l' = l1 ++ x :: l2) :
    (∃ m, l = l1 ++ x :: m ∧ l2 = m ++ l') ∨ ∃ m, l1 = l ++ m ∧ l' = m ++ x :: l2 := by
  rcases List.append_eq_append_iff.1 h with ⟨m, h1, h2⟩ | ⟨m, h1, h2⟩
  · exact .inr ⟨m, h1, h2⟩
  · cases m with
    | nil => exact .inr ⟨[], by simpa using h1.symm, by simpa using h2.symm⟩
    | cons y m =>
      simp only [List.cons_append, List.cons.injEq] at h2
      obtain ⟨rfl, rfl⟩ := h2
      exact .inl ⟨m, h1, rfl⟩

theorem drains_step {e : Env} {t : Nat} {σ σ' : St} (h : Step e t σ σ') (hi : Drains σ) : Drains σ' := by
  obtain ⟨h1, h2, h3, h4⟩ := hi
  have g1 := h1 t
  have g2 := h2 t
  have g3 := fun T => h3 t T
  have mk : ∀ {th : Thread} {evs : List Ev} {σ'' : St}, σ''.thr = set σ.thr t th → σ''.log = σ.log ++ evs →
      (∀ ev ∈ evs, ev.thread = t) → topOk th.ctl (topDrain th.stack) → stackOk th.stack →
      (∀ T, th.ctl = .fin true → topDrain th.stack = some T → LastEmpty t T (σ.log ++ evs)) →
      (∀ m1 m2 t' T, evs = m1 ++ .back t' T true :: m2 → LastEmpty t' T (σ.log ++ m1)) → Drains σ'' := by
    intro th evs σ'' k1 k2 k3 k4 k5 k6 k7
    refine ⟨fun t' => ?_, fun t' => ?_, fun t' T => ?_, fun l1 l2 t' T heq => ?_⟩
    · rw [k1]
      by_cases et : t' = t
      · subst et; simpa [set] using k4
      · simpa [set, et] using h1 t'
    · rw [k1]
      by_cases et : t' = t
      · subst et; simpa [set] using k5
      · simpa [set, et] using h2 t'
    · rw [k1, k2]
      by_cases et : t' = t
      · subst et; simpa [set] using k6 T
      · simp only [set, if_neg et]
        exact fun a b => lastEmpty_append (h3 t' T a b) (fun ev hev => by rw [k3 ev hev]; exact Ne.symm et)
    · rw [k2] at heq
      rcases split_append heq with ⟨m, h5, _⟩ | ⟨m, rfl, h6⟩
      · exact h4 _ _ _ _ h5
      · exact k7 m l2 t' T h6
  have nob : ∀ m1 m2 t' T, ([] : List Ev) = m1 ++ .back t' T true :: m2 → LastEmpty t' T (σ.log ++ m1) :=
    fun m1 m2 t' T h => by simp at h
  have one : ∀ ev : Ev, (∀ t' T, ev ≠ .back t' T true) → ∀ m1 m2 t' T, [ev] = m1 ++ .back t' T true :: m2 →
      LastEmpty t' T (σ.log ++ m1) := fun ev hev m1 m2 t' T h => by
    cases m1 with
    | nil => simp at h; exact absurd h.1 (hev _ _)
    | cons y m1 => simp at h
  cases h with
  | ret h => rw [h] at g1 g2; exact mk rfl (List.append_nil _).symm (by simp) trivial g2 (by simp_all [topOk]) nob
  | raise h => rw [h] at g1 g2; exact mk rfl (List.append_nil _).symm (by simp) trivial g2 (by simp) nob
  | direct h _ => rw [h] at g1 g2; exact mk rfl rfl (by simp [Ev.thread]) rfl ⟨g1, g2⟩ (by simp) (one _ (by simp))
  | send h _ => rw [h] at g1 g2; exact mk rfl (List.append_nil _).symm (by simp) rfl ⟨g1, g2⟩ (by simp) nob
  | drain h => rw [h] at g1 g2; exact mk rfl rfl (by simp [Ev.thread]) rfl ⟨g1, g2⟩ (by simp) (one _ (by simp))
  | hit h _ => rw [h] at g1 g2; exact mk rfl (List.append_nil _).symm (by simp) g1 g2 (by simp) nob
  | miss h _ => rw [h] at g1 g2; exact mk rfl (List.append_nil _).symm (by simp) g1 g2 (by simp) nob
  | make h => rw [h] at g1 g2; exact mk rfl (List.append_nil _).symm (by simp) g1 g2 (by simp) nob
  | store h => rw [h] at g1 g2; exact mk rfl (List.append_nil _).symm (by simp) g1 g2 (by simp) nob
  | put h =>
    rw [h] at g1 g2
    exact mk rfl rfl (by simp [Ev.thread]) trivial g2 (by simp_all [topOk]) (one _ (by simp))
  | begin h => rw [h] at g1 g2; exact mk rfl (List.append_nil _).symm (by simp) g1 g2 (by simp) nob
  | empty h _ =>
    rw [h] at g1 g2
    refine mk rfl rfl (by simp [Ev.thread]) trivial g2 (fun T _ hT => ?_) (one _ (by simp))
    have : some T = some _ := hT.symm.trans g1
    cases this
    exact ⟨σ.log, [], rfl, by simp⟩
  | more h _ => rw [h] at g1 g2; exact mk rfl (List.append_nil _).symm (by simp) g1 g2 (by simp) nob
  | get h _ =>
    rw [h] at g1 g2
    refine mk rfl rfl (by simp [Ev.thread]) rfl ⟨g1, g2⟩ (by simp) (fun m1 m2 t' T h => ?_)
    cases m1 with
    | nil => simp at h
    | cons y m1 =>
      cases m1 with
      | nil => simp at h
      | cons z m1 => simp at h
  | back h => rw [h] at g1 g2; exact mk rfl (List.append_nil _).symm (by simp) g2.1 g2.2 (by simp) nob
  | done h =>
    rw [h] at g1 g2
    rename_i ok T' k st
    refine mk rfl rfl (by simp [Ev.thread]) g2.1 g2.2 (by simp) (fun m1 m2 t' T hm => ?_)
    cases m1 with
    | nil =>
      simp at hm
      obtain ⟨⟨rfl, rfl, rfl⟩, rfl⟩ := hm
      rw [List.append_nil]
      exact g3 T' (by rw [h]) (by rw [h]; rfl)
    | cons y m1 => simp at hm
  | again h => rw [h] at g1 g2; exact mk rfl (List.append_nil _).symm (by simp) g2.1 g2.2 (by simp) nob
  | leave h => rw [h] at g1 g2; exact mk rfl (List.append_nil _).symm (by simp) trivial g2.2 (by simp) nob

theorem drains_init (ready : Nat → Bool) (prog : Nat → Code) : Drains (init ready prog) := by
  refine ⟨fun _ => rfl, fun _ => trivial, ?_, ?_⟩ <;> simp [init]

/-- Whenever a thread found the queue of `T` empty, everything put so far had been taken. -/
def Emptied (T : Nat) (σ : St) : Prop := ∀ m1 m2 t, σ.log = m1 ++ .empty t T :: m2 → gets T m1 = puts T m1

theorem emptied_step {e : Env} {T t : Nat} {σ σ' : St} (h : Step e t σ σ') (hf : Fifo T σ) (hi : Emptied T σ) :
    Emptied T σ' := by
  have mk : ∀ {evs : List Ev}, (∀ t', Ev.empty t' T ∉ evs) → σ'.log = σ.log ++ evs → Emptied T σ' := by
    intro evs hev hlog m1 m2 t' heq
    rw [hlog] at heq
    rcases split_append heq with ⟨m, h5, _⟩ | ⟨m, _, h6⟩
    · exact hi _ _ _ h5
    · exact absurd (by rw [h6]; simp) (hev t')
  cases h with
  | empty h hq =>
    rename_i T' v st
    by_cases hT : T' = T
    · subst hT
      intro m1 m2 t' heq
      rcases split_append heq with ⟨m, h5, _⟩ | ⟨m, rfl, h6⟩
      · exact hi _ _ _ h5
      · cases m with
        | nil =>
          have hv := hf.one t v (.inl (by rw [h]; exact ⟨rfl, rfl⟩))
          rw [List.append_nil, hf.eq]
          simp [content, hv, hq]
        | cons y m => simp at h6
    · exact mk (by simp [Ne.symm hT]) rfl
  | direct h _ => exact mk (evs := [_]) (by simp) rfl
  | drain h => exact mk (evs := [_]) (by simp) rfl
  | put h => exact mk (evs := [_]) (by simp) rfl
  | get h _ => exact mk (evs := [_, _]) (by simp) rfl
  | done h => exact mk (evs := [_]) (by simp) rfl
  | _ => exact hi

theorem fifo_run {e : Env} {T : Nat} : ∀ (l : List Nat) (σ : St), (∀ pre post, l = pre ++ post → Single T (run e pre σ)) →
    Fifo T σ → Emptied T σ → Fifo T (run e l σ) ∧ Emptied T (run e l σ)
  | [], _, _, h, h' => ⟨h, h'⟩
  | t :: l, σ, hx, h, h' => by
    unfold run
    have hx' : ∀ pre post, l = pre ++ post → Single T (run e pre ((step e t σ).getD σ)) := fun pre post heq =>
      hx (t :: pre) post (by rw [heq]; rfl)
    cases hq : step e t σ with
    | none => rw [hq] at hx'; exact fifo_run l σ hx' h h'
    | some σ' =>
      rw [hq] at hx'
      exact fifo_run l σ' hx' (fifo_step (step_rel hq) (hx [] (t :: l) rfl) h) (emptied_step (step_rel hq) h h')

end Psygnal.QC
