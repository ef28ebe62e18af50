import Verif.ConcSep

/-! # Lemmas for C82 -/
namespace Psygnal.Conc

/-- The control of a thread is on signals of `S`. -/
def Ctl.on (S : Nat → Bool) : Ctl → Prop
  | .run c => c.on S
  | .fin _ => True
  | .check s _ | .wait s _ | .locked s _ | .readPrev s | .writeCur s _ | .start s _ | .next s _ _ | .restore s _ _ | .cleanup s _
  | .release s _ | .unhold s _ => S s = true
  | .waitHold s c => S s = true ∧ c.on S

/-- A frame is on signals of `S`. -/
def Frame.on (S : Nat → Bool) : Frame → Prop
  | .cont k => ∀ b, (k b).on S
  | .loop s _ _ => S s = true
  | .hold s => S s = true

/-- The same up to the local variable `previous`. -/
inductive CtlR : Ctl → Ctl → Prop
  | run (c) : CtlR (.run c) (.run c)
  | fin (ok) : CtlR (.fin ok) (.fin ok)
  | check (s a) : CtlR (.check s a) (.check s a)
  | wait (s a) : CtlR (.wait s a) (.wait s a)
  | waitHold (s c) : CtlR (.waitHold s c) (.waitHold s c)
  | locked (s a) : CtlR (.locked s a) (.locked s a)
  | readPrev (s) : CtlR (.readPrev s) (.readPrev s)
  | writeCur (s p p') : CtlR (.writeCur s p) (.writeCur s p')
  | start (s p p') : CtlR (.start s p) (.start s p')
  | next (s p p' l) : CtlR (.next s p l) (.next s p' l)
  | restore (s p p' ok) : CtlR (.restore s p ok) (.restore s p' ok)
  | cleanup (s ok) : CtlR (.cleanup s ok) (.cleanup s ok)
  | release (s ok) : CtlR (.release s ok) (.release s ok)
  | unhold (s ok) : CtlR (.unhold s ok) (.unhold s ok)

/-- The same up to the local variables `previous`. -/
inductive StackR : List Frame → List Frame → Prop
  | nil : StackR [] []
  | cont (k) {st st'} : StackR st st' → StackR (.cont k :: st) (.cont k :: st')
  | loop (s p p' l) {st st'} : StackR st st' → StackR (.loop s p l :: st) (.loop s p' l :: st')
  | hold (s) {st st'} : StackR st st' → StackR (.hold s :: st) (.hold s :: st')

theorem StackR.refl : ∀ st : List Frame, StackR st st
  | [] => .nil
  | .cont _ :: st => .cont _ (StackR.refl st)
  | .loop .. :: st => .loop _ _ _ _ (StackR.refl st)
  | .hold _ :: st => .hold _ (StackR.refl st)

theorem CtlR.refl (c : Ctl) : CtlR c c := by cases c <;> constructor

theorem StackR.looping {st st' : List Frame} (h : StackR st st') (s : Nat) : looping s st = looping s st' := by
  induction h with
  | nil => rfl
  | cont _ _ ih => exact ih
  | hold _ _ ih => exact ih
  | loop _ _ _ _ _ ih => simp only [Conc.looping, ih]

variable {e : Env} {T S : Nat → Bool}

/-- Each thread is on its side. -/
def Sided (T S : Nat → Bool) (σ : St) : Prop :=
  ∀ t, (σ.thr t).ctl.on (fun s => S s == T t) ∧ ∀ f ∈ (σ.thr t).stack, f.on (fun s => S s == T t)

/-- The threads in `T` cannot tell the states apart. -/
structure Alike (T S : Nat → Bool) (σ σ' : St) : Prop where
  ctl : ∀ t, T t = true → CtlR (σ.thr t).ctl (σ'.thr t).ctl
  stack : ∀ t, T t = true → StackR (σ.thr t).stack (σ'.thr t).stack
  locks : ∀ s, S s = true → σ.locks s = σ'.locks s
  queue : ∀ s, S s = true → σ.queue s = σ'.queue s
  depth : ∀ s, S s = true → σ.depth s = σ'.depth s
  maxd : ∀ s, S s = true → σ.maxd s = σ'.maxd s
  slots : ∀ s, S s = true → σ.slots s = σ'.slots s
  acc : ∀ s, S s = true → σ.acc s = σ'.acc s
  lost : ∀ s, S s = true → σ.lost s = σ'.lost s
  log : σ.log.filter (fun v => T v.thread) = σ'.log.filter (fun v => T v.thread)

theorem set_same {α : Type} (f : Nat → α) (n : Nat) (v : α) : set f n v n = v := if_pos rfl

theorem set_ne {α : Type} {f : Nat → α} {n m : Nat} {v : α} (h : m ≠ n) : set f n v m = f m := if_neg h

theorem set_congr {α : Type} {f g : Nat → α} {n m : Nat} {v : α} (h : f m = g m) : set f n v m = set g n v m := by
  by_cases e : m = n
  · subst e; rw [set_same, set_same]
  · rw [set_ne e, set_ne e, h]

theorem sided_set {σ : St} {t : Nat} (h : Sided T S σ) {th : Thread} (hc : th.ctl.on (fun s => S s == T t))
    (hs : ∀ f ∈ th.stack, f.on (fun s => S s == T t)) : ∀ t', (set σ.thr t th t').ctl.on (fun s => S s == T t') ∧
      ∀ f ∈ (set σ.thr t th t').stack, f.on (fun s => S s == T t') := by
  intro t'
  by_cases ht : t' = t
  · subst ht; rw [set_same]; exact ⟨hc, hs⟩
  · rw [set_ne ht]; exact h t'

theorem sided_step (hb : ∀ s x a, (e.body s x a).on (fun s' => S s' == S s)) {t : Nat} {σ σ' : St} (h : step e t σ = some σ') (hi : Sided T S σ) :
    Sided T S σ' := by
  obtain ⟨h1, h2⟩ := hi t
  have body : ∀ s x a, (S s == T t) = true → (e.body s x a).on (fun s' => S s' == T t) := by
    intro s x a hs
    have := hb s x a
    rwa [eq_of_beq hs] at this
  have push : ∀ {f : Frame}, f.on (fun s => S s == T t) → ∀ g ∈ f :: (σ.thr t).stack, g.on (fun s => S s == T t) := by
    intro f hf g hg
    rcases List.mem_cons.mp hg with rfl | hg
    · exact hf
    · exact h2 g hg
  cases hc : (σ.thr t).ctl with
  | run c =>
    rw [hc] at h1
    cases c with
    | see k => exact absurd h1 id
    | ret => simp only [step, hc] at h; cases h; exact sided_set hi trivial h2
    | raise => simp only [step, hc] at h; cases h; exact sided_set hi trivial h2
    | emit s a k => simp only [step, hc] at h; cases h; exact sided_set hi h1.1 (push h1.2)
    | hold s c k => simp only [step, hc] at h; cases h; exact sided_set hi ⟨h1.1, h1.2.1⟩ (push h1.2.2)
    | slots s f k => simp only [step, hc] at h; cases h; exact sided_set hi h1.2 h2
  | fin ok =>
    simp only [step, hc] at h
    cases hst : (σ.thr t).stack with
    | nil => simp only [hst] at h; cases h
    | cons f st =>
      rw [hst] at h2
      have h3 : ∀ f ∈ st, f.on (fun s => S s == T t) := fun g hg => h2 g (List.mem_cons_of_mem _ hg)
      have h4 := h2 f (List.mem_cons_self ..)
      cases f with
      | cont k => simp only [hst] at h; cases h; exact sided_set hi (h4 ok) h3
      | hold s => simp only [hst] at h; cases h; exact sided_set hi h4 h3
      | loop s p l =>
        simp only [hst] at h
        split at h <;> cases h
        · exact sided_set hi h4 h3
        · exact sided_set hi h4 h3
  | check s a =>
    rw [hc] at h1
    simp only [step, hc] at h
    split at h <;> cases h
    · exact sided_set hi trivial h2
    · exact sided_set hi h1 h2
  | wait s a =>
    rw [hc] at h1
    simp only [step, hc] at h
    split at h <;> cases h
    exact sided_set hi h1 h2
  | waitHold s c =>
    rw [hc] at h1
    simp only [step, hc] at h
    split at h <;> cases h
    exact sided_set hi h1.2 (push h1.1)
  | locked s a =>
    rw [hc] at h1
    simp only [step, hc] at h
    split at h <;> cases h
    · exact sided_set hi h1 h2
    · exact sided_set hi h1 h2
  | readPrev s => rw [hc] at h1; simp only [step, hc] at h; cases h; exact sided_set hi h1 h2
  | writeCur s p => rw [hc] at h1; simp only [step, hc] at h; cases h; exact sided_set hi h1 h2
  | start s p =>
    rw [hc] at h1
    simp only [step, hc] at h
    split at h
    · cases h; exact sided_set hi h1 h2
    · split at h <;> cases h
      · exact sided_set hi h1 h2
      · exact sided_set hi h1 h2
  | next s p l =>
    obtain ⟨a, j, i⟩ := l
    rw [hc] at h1
    simp only [step, hc] at h
    split at h
    · split at h <;> cases h
      · exact sided_set hi h1 h2
      · exact sided_set hi (body _ _ _ h1) (push h1)
    · split at h
      · split at h <;> cases h
        · exact sided_set hi h1 h2
        · exact sided_set hi h1 h2
      · cases h; exact sided_set hi h1 h2
  | restore s p ok => rw [hc] at h1; simp only [step, hc] at h; cases h; exact sided_set hi h1 h2
  | cleanup s ok => rw [hc] at h1; simp only [step, hc] at h; cases h; exact sided_set hi h1 h2
  | release s ok => simp only [step, hc] at h; cases h; exact sided_set hi trivial h2
  | unhold s ok => simp only [step, hc] at h; cases h; exact sided_set hi trivial h2

/-! ## Threads of the other side -/

theorem alike_refl (σ : St) : Alike T S σ σ :=
  ⟨fun _ _ => CtlR.refl _, fun _ _ => StackR.refl _, fun _ _ => rfl, fun _ _ => rfl, fun _ _ => rfl, fun _ _ => rfl, fun _ _ => rfl, fun _ _ => rfl,
    fun _ _ => rfl, rfl⟩

section out
variable {σ τ : St} {t : Nat}

theorem Alike.outThr (h : Alike T S τ σ) (ht : T t = false) (th : Thread) : Alike T S { τ with thr := set τ.thr t th } σ := by
  have hn : ∀ t', T t' = true → t' ≠ t := by rintro t' h' rfl; simp [ht] at h'
  exact ⟨fun t' h' => by simp only [set_ne (hn t' h')]; exact h.ctl t' h', fun t' h' => by simp only [set_ne (hn t' h')]; exact h.stack t' h',
    h.3, h.4, h.5, h.6, h.7, h.8, h.9, h.10⟩

theorem Alike.outLocks (h : Alike T S τ σ) {s : Nat} (hs : S s = false) (v : Option (Nat × Nat)) : Alike T S { τ with locks := set τ.locks s v } σ :=
  ⟨h.1, h.2, fun s' h' => (set_ne (by rintro rfl; simp [hs] at h')).trans (h.3 s' h'), h.4, h.5, h.6, h.7, h.8, h.9, h.10⟩

theorem Alike.outQueue (h : Alike T S τ σ) {s : Nat} (hs : S s = false) (v : List Nat) : Alike T S { τ with queue := set τ.queue s v } σ :=
  ⟨h.1, h.2, h.3, fun s' h' => (set_ne (by rintro rfl; simp [hs] at h')).trans (h.4 s' h'), h.5, h.6, h.7, h.8, h.9, h.10⟩

theorem Alike.outDepth (h : Alike T S τ σ) {s : Nat} (hs : S s = false) (v : Nat) : Alike T S { τ with depth := set τ.depth s v } σ :=
  ⟨h.1, h.2, h.3, h.4, fun s' h' => (set_ne (by rintro rfl; simp [hs] at h')).trans (h.5 s' h'), h.6, h.7, h.8, h.9, h.10⟩

theorem Alike.outMaxd (h : Alike T S τ σ) {s : Nat} (hs : S s = false) (v : Nat) : Alike T S { τ with maxd := set τ.maxd s v } σ :=
  ⟨h.1, h.2, h.3, h.4, h.5, fun s' h' => (set_ne (by rintro rfl; simp [hs] at h')).trans (h.6 s' h'), h.7, h.8, h.9, h.10⟩

theorem Alike.outSlots (h : Alike T S τ σ) {s : Nat} (hs : S s = false) (v : List Nat) : Alike T S { τ with slots := set τ.slots s v } σ :=
  ⟨h.1, h.2, h.3, h.4, h.5, h.6, fun s' h' => (set_ne (by rintro rfl; simp [hs] at h')).trans (h.7 s' h'), h.8, h.9, h.10⟩

theorem Alike.outAcc (h : Alike T S τ σ) {s : Nat} (hs : S s = false) (v : List (Nat × Nat)) : Alike T S { τ with acc := set τ.acc s v } σ :=
  ⟨h.1, h.2, h.3, h.4, h.5, h.6, h.7, fun s' h' => (set_ne (by rintro rfl; simp [hs] at h')).trans (h.8 s' h'), h.9, h.10⟩

theorem Alike.outLost (h : Alike T S τ σ) {s : Nat} (hs : S s = false) (v : Bool) : Alike T S { τ with lost := set τ.lost s v } σ :=
  ⟨h.1, h.2, h.3, h.4, h.5, h.6, h.7, h.8, fun s' h' => (set_ne (by rintro rfl; simp [hs] at h')).trans (h.9 s' h'), h.10⟩

theorem Alike.outLog (h : Alike T S τ σ) (v : Ev) (hv : T v.thread = false) : Alike T S { τ with log := τ.log ++ [v] } σ :=
  ⟨h.1, h.2, h.3, h.4, h.5, h.6, h.7, h.8, h.9, by simp only [List.filter_append, h.10]; simp [hv]⟩

theorem Alike.outCur (h : Alike T S τ σ) (c : Option Nat) : Alike T S { τ with cur := c } σ := ⟨h.1, h.2, h.3, h.4, h.5, h.6, h.7, h.8, h.9, h.10⟩
end out

theorem out_step {t : Nat} {σ τ : St} (hi : Sided T S σ) (ht : T t = false) (h : step e t σ = some τ) : Alike T S τ σ := by
  obtain ⟨h1, h2⟩ := hi t
  have r : Alike T S σ σ := alike_refl σ
  have os : ∀ {s : Nat}, (S s == T t) = true → S s = false := by
    intro s hs; rw [eq_of_beq hs, ht]
  cases hc : (σ.thr t).ctl with
  | run c =>
    rw [hc] at h1
    cases c with
    | see k => exact absurd h1 id
    | ret => simp only [step, hc] at h; cases h; exact r.outThr ht _
    | raise => simp only [step, hc] at h; cases h; exact r.outThr ht _
    | emit s a k => simp only [step, hc] at h; cases h; exact r.outThr ht _
    | hold s c k => simp only [step, hc] at h; cases h; exact r.outThr ht _
    | slots s f k => simp only [step, hc] at h; cases h; exact (r.outSlots (os h1.1) _).outThr ht _
  | fin ok =>
    simp only [step, hc] at h
    cases hst : (σ.thr t).stack with
    | nil => simp only [hst] at h; cases h
    | cons f st =>
      rw [hst] at h2
      have h4 := h2 f (List.mem_cons_self ..)
      cases f with
      | cont k => simp only [hst] at h; cases h; exact r.outThr ht _
      | hold s => simp only [hst] at h; cases h; exact r.outThr ht _
      | loop s p l =>
        simp only [hst] at h
        split at h <;> cases h
        · exact (r.outLost (os h4) _).outThr ht _
        · exact r.outThr ht _
  | check s a =>
    simp only [step, hc] at h
    split at h <;> cases h
    · exact r.outThr ht _
    · exact r.outThr ht _
  | wait s a =>
    rw [hc] at h1
    simp only [step, hc] at h
    split at h <;> cases h
    exact (r.outLocks (os h1) _).outThr ht _
  | waitHold s c =>
    rw [hc] at h1
    simp only [step, hc] at h
    split at h <;> cases h
    exact (r.outLocks (os h1.1) _).outThr ht _
  | locked s a =>
    rw [hc] at h1
    simp only [step, hc] at h
    split at h <;> cases h
    · exact ((r.outQueue (os h1) _).outAcc (os h1) _).outThr ht _
    · exact ((((r.outQueue (os h1) _).outDepth (os h1) _).outMaxd (os h1) _).outAcc (os h1) _).outThr ht _
  | readPrev s => simp only [step, hc] at h; cases h; exact r.outThr ht _
  | writeCur s p => simp only [step, hc] at h; cases h; exact (r.outCur (some s)).outThr ht _
  | start s p =>
    rw [hc] at h1
    simp only [step, hc] at h
    split at h
    · cases h; exact (r.outLost (os h1) _).outThr ht _
    · split at h <;> cases h
      · exact r.outThr ht _
      · exact (r.outQueue (os h1) _).outThr ht _
  | next s p l =>
    obtain ⟨a, j, i⟩ := l
    rw [hc] at h1
    simp only [step, hc] at h
    split at h
    · split at h <;> cases h
      · exact r.outThr ht _
      · exact (r.outLog (.call t s _ a) ht).outThr ht _
    · split at h
      · split at h <;> cases h
        · exact r.outThr ht _
        · exact r.outThr ht _
      · cases h; exact r.outThr ht _
  | restore s p ok => simp only [step, hc] at h; cases h; exact (r.outCur p).outThr ht _
  | cleanup s ok =>
    rw [hc] at h1
    simp only [step, hc] at h; cases h
    exact (((r.outDepth (os h1) _).outMaxd (os h1) _).outQueue (os h1) _).outThr ht _
  | release s ok =>
    rw [hc] at h1
    simp only [step, hc] at h
    by_cases hl : looping s (σ.thr t).stack
    · simp only [hl, if_true] at h; cases h; exact (r.outLocks (os h1) _).outThr ht _
    · simp only [hl] at h; cases h; exact ((r.outLocks (os h1) _).outLog (.done t s) ht).outThr ht _
  | unhold s ok =>
    rw [hc] at h1
    simp only [step, hc] at h; cases h; exact (r.outLocks (os h1) _).outThr ht _

/-! ## Threads of this side -/

section inn
variable {σ τ : St} {t : Nat}

theorem Alike.inThr (h : Alike T S τ σ) {c c' : Ctl} {st st' : List Frame} (hc : CtlR c c') (hs : StackR st st') :
    Alike T S { τ with thr := set τ.thr t ⟨c, st⟩ } { σ with thr := set σ.thr t ⟨c', st'⟩ } := by
  refine ⟨fun t' h' => ?_, fun t' h' => ?_, h.3, h.4, h.5, h.6, h.7, h.8, h.9, h.10⟩
  · by_cases e : t' = t
    · subst e; simp only [set_same]; exact hc
    · simp only [set_ne e]; exact h.ctl t' h'
  · by_cases e : t' = t
    · subst e; simp only [set_same]; exact hs
    · simp only [set_ne e]; exact h.stack t' h'

theorem Alike.inLocks (h : Alike T S τ σ) (s : Nat) (v : Option (Nat × Nat)) : Alike T S { τ with locks := set τ.locks s v } { σ with locks := set σ.locks s v } :=
  ⟨h.1, h.2, fun s' h' => set_congr (h.3 s' h'), h.4, h.5, h.6, h.7, h.8, h.9, h.10⟩

theorem Alike.inQueue (h : Alike T S τ σ) (s : Nat) (v : List Nat) : Alike T S { τ with queue := set τ.queue s v } { σ with queue := set σ.queue s v } :=
  ⟨h.1, h.2, h.3, fun s' h' => set_congr (h.4 s' h'), h.5, h.6, h.7, h.8, h.9, h.10⟩

theorem Alike.inDepth (h : Alike T S τ σ) (s : Nat) (v : Nat) : Alike T S { τ with depth := set τ.depth s v } { σ with depth := set σ.depth s v } :=
  ⟨h.1, h.2, h.3, h.4, fun s' h' => set_congr (h.5 s' h'), h.6, h.7, h.8, h.9, h.10⟩

theorem Alike.inMaxd (h : Alike T S τ σ) (s : Nat) (v : Nat) : Alike T S { τ with maxd := set τ.maxd s v } { σ with maxd := set σ.maxd s v } :=
  ⟨h.1, h.2, h.3, h.4, h.5, fun s' h' => set_congr (h.6 s' h'), h.7, h.8, h.9, h.10⟩

theorem Alike.inSlots (h : Alike T S τ σ) (s : Nat) (v : List Nat) : Alike T S { τ with slots := set τ.slots s v } { σ with slots := set σ.slots s v } :=
  ⟨h.1, h.2, h.3, h.4, h.5, h.6, fun s' h' => set_congr (h.7 s' h'), h.8, h.9, h.10⟩

theorem Alike.inAcc (h : Alike T S τ σ) (s : Nat) (v : List (Nat × Nat)) : Alike T S { τ with acc := set τ.acc s v } { σ with acc := set σ.acc s v } :=
  ⟨h.1, h.2, h.3, h.4, h.5, h.6, h.7, fun s' h' => set_congr (h.8 s' h'), h.9, h.10⟩

theorem Alike.inLost (h : Alike T S τ σ) (s : Nat) (v : Bool) : Alike T S { τ with lost := set τ.lost s v } { σ with lost := set σ.lost s v } :=
  ⟨h.1, h.2, h.3, h.4, h.5, h.6, h.7, h.8, fun s' h' => set_congr (h.9 s' h'), h.10⟩

theorem Alike.inLog (h : Alike T S τ σ) (v : Ev) : Alike T S { τ with log := τ.log ++ [v] } { σ with log := σ.log ++ [v] } :=
  ⟨h.1, h.2, h.3, h.4, h.5, h.6, h.7, h.8, h.9, by simp only [List.filter_append, h.10]⟩

theorem Alike.inCur (h : Alike T S τ σ) (c c' : Option Nat) : Alike T S { τ with cur := c } { σ with cur := c' } :=
  ⟨h.1, h.2, h.3, h.4, h.5, h.6, h.7, h.8, h.9, h.10⟩
end inn

/-- Both stop or both go on, alike. -/
def Both (T S : Nat → Bool) : Option St → Option St → Prop
  | none, none => True
  | some τ, some τ' => Alike T S τ τ'
  | _, _ => False

theorem in_step {t : Nat} {σ σ' : St} (hi : Sided T S σ) (ht : T t = true) (h : Alike T S σ σ') : Both T S (step e t σ) (step e t σ') := by
  obtain ⟨h1, h2⟩ := hi t
  have os : ∀ {s : Nat}, (S s == T t) = true → S s = true := by
    intro s hs; rw [eq_of_beq hs, ht]
  have hk := h.ctl t ht
  have hst := h.stack t ht
  generalize hc : (σ.thr t).ctl = c at hk h1
  generalize hc' : (σ'.thr t).ctl = c' at hk
  cases hk with
  | run c =>
    cases c with
    | see k => exact absurd h1 id
    | ret => simp only [step, hc, hc']; exact h.inThr (.fin _) hst
    | raise => simp only [step, hc, hc']; exact h.inThr (.fin _) hst
    | emit s a k => simp only [step, hc, hc']; exact h.inThr (.check ..) (.cont _ hst)
    | hold s c k => simp only [step, hc, hc']; exact h.inThr (.waitHold ..) (.cont _ hst)
    | slots s f k => simp only [step, hc, hc', h.slots s (os h1.1)]; exact (h.inSlots s _).inThr (.run _) hst
  | fin ok =>
    simp only [step, hc, hc']
    generalize hs : (σ.thr t).stack = st at hst h2
    generalize hs' : (σ'.thr t).stack = st' at hst
    cases hst with
    | nil => trivial
    | cont k hst => exact h.inThr (.run _) hst
    | hold s hst => exact h.inThr (.unhold ..) hst
    | loop s p p' l hst =>
      simp only [h.queue s (os (h2 _ (List.mem_cons_self ..)))]
      by_cases hx : ok = false ∨ (e.mode s = .queued ∧ e.limit < (σ'.queue s).length)
      · simp only [if_pos hx]; exact (h.inLost s _).inThr (.restore ..) hst
      · simp only [if_neg hx]; exact h.inThr (.next ..) hst
  | check s a =>
    simp only [step, hc, hc', h.depth s (os h1)]
    by_cases hx : e.limit ≤ σ'.depth s
    · simp only [if_pos hx]; exact h.inThr (.fin _) hst
    · simp only [if_neg hx]; exact h.inThr (.wait ..) hst
  | wait s a =>
    simp only [step, hc, hc', h.locks s (os h1)]
    cases acquire t (σ'.locks s) with
    | none => trivial
    | some l => exact (h.inLocks s _).inThr (.locked ..) hst
  | waitHold s c =>
    simp only [step, hc, hc', h.locks s (os h1.1)]
    cases acquire t (σ'.locks s) with
    | none => trivial
    | some l => exact (h.inLocks s _).inThr (.run _) (.hold _ hst)
  | locked s a =>
    simp only [step, hc, hc', h.queue s (os h1), h.depth s (os h1), h.maxd s (os h1), h.acc s (os h1)]
    by_cases hx : 1 < (σ'.queue s ++ [a]).length
    · simp only [if_pos hx]; exact ((h.inQueue s _).inAcc s _).inThr (.release ..) hst
    · simp only [if_neg hx]; exact ((((h.inQueue s _).inDepth s _).inMaxd s _).inAcc s _).inThr (.readPrev _) hst
  | readPrev s => simp only [step, hc, hc']; exact h.inThr (.writeCur ..) hst
  | writeCur s p p' => simp only [step, hc, hc']; exact (h.inCur (some s) (some s)).inThr (.start ..) hst
  | start s p p' =>
    simp only [step, hc, hc', h.queue s (os h1)]
    cases σ'.queue s with
    | nil => exact (h.inLost s _).inThr (.restore ..) hst
    | cons a q =>
      simp only
      by_cases hx : e.mode s = .queued
      · simp only [if_pos hx]; exact h.inThr (.next ..) hst
      · simp only [if_neg hx]; exact (h.inQueue s _).inThr (.next ..) hst
  | next s p p' l =>
    obtain ⟨a, j, i⟩ := l
    simp only [step, hc, hc', h.slots s (os h1), h.depth s (os h1), h.maxd s (os h1), h.queue s (os h1)]
    cases (σ'.slots s)[j]? with
    | some x =>
      simp only
      by_cases hx : e.mode s = .latest ∧ σ'.depth s < σ'.maxd s
      · simp only [if_pos hx]; exact h.inThr (.restore ..) hst
      · simp only [if_neg hx]; exact (h.inLog _).inThr (.run _) (.loop _ _ _ _ hst)
    | none =>
      simp only
      by_cases hx : e.mode s = .queued
      · simp only [if_pos hx]
        cases (σ'.queue s)[i + 1]? with
        | some a => exact h.inThr (.next ..) hst
        | none => exact h.inThr (.restore ..) hst
      · simp only [if_neg hx]; exact h.inThr (.restore ..) hst
  | restore s p p' ok => simp only [step, hc, hc']; exact (h.inCur p p').inThr (.cleanup ..) hst
  | cleanup s ok =>
    simp only [step, hc, hc', h.depth s (os h1), h.maxd s (os h1)]
    exact (((h.inDepth s _).inMaxd s _).inQueue s _).inThr (.release ..) hst
  | release s ok =>
    simp only [step, hc, hc', h.locks s (os h1), hst.looping s]
    by_cases hl : looping s (σ'.thr t).stack
    · simp only [hl, if_true]; exact (h.inLocks s _).inThr (.fin _) hst
    · simp only [hl]; exact ((h.inLocks s _).inLog _).inThr (.fin _) hst
  | unhold s ok =>
    simp only [step, hc, hc', h.locks s (os h1)]
    exact (h.inLocks s _).inThr (.fin _) hst

/-! ## Schedules -/

theorem Alike.trans {σ τ υ : St} (h : Alike T S σ τ) (h' : Alike T S τ υ) : Alike T S σ υ := by
  have ct : ∀ {a b c : Ctl}, CtlR a b → CtlR b c → CtlR a c := by
    intro a b c h1 h2
    cases h1 <;> cases h2 <;> constructor
  have st : ∀ {a b : List Frame}, StackR a b → ∀ {c}, StackR b c → StackR a c := by
    intro a b h1
    induction h1 with
    | nil => intro c h2; exact h2
    | cont k _ ih => intro c h2; cases h2 with | cont _ h2 => exact .cont _ (ih h2)
    | hold k _ ih => intro c h2; cases h2 with | hold _ h2 => exact .hold _ (ih h2)
    | loop s p p' l _ ih => intro c h2; cases h2 with | loop _ _ _ _ h2 => exact .loop _ _ _ _ (ih h2)
  exact ⟨fun t ht => ct (h.1 t ht) (h'.1 t ht), fun t ht => st (h.2 t ht) (h'.2 t ht), fun s hs => (h.3 s hs).trans (h'.3 s hs),
    fun s hs => (h.4 s hs).trans (h'.4 s hs), fun s hs => (h.5 s hs).trans (h'.5 s hs), fun s hs => (h.6 s hs).trans (h'.6 s hs),
    fun s hs => (h.7 s hs).trans (h'.7 s hs), fun s hs => (h.8 s hs).trans (h'.8 s hs), fun s hs => (h.9 s hs).trans (h'.9 s hs), h.10.trans h'.10⟩

theorem run_alike (hb : ∀ s x a, (e.body s x a).on (fun s' => S s' == S s)) : ∀ (sched : List Nat) {σ σ' : St}, Sided T S σ → Alike T S σ σ' →
    Alike T S (run e sched σ) (run e (sched.filter T) σ') ∧ Sided T S (run e sched σ)
  | [], _, _, hi, h => ⟨h, hi⟩
  | t :: ts, σ, σ', hi, h => by
    cases ht : T t with
    | true =>
      rw [List.filter_cons_of_pos (by simp [ht])]
      simp only [run]
      have h1 := in_step (e := e) hi ht h
      cases hs : step e t σ with
      | none =>
        cases hs' : step e t σ' with
        | none => exact run_alike hb ts hi h
        | some τ' => rw [hs, hs'] at h1; exact absurd h1 id
      | some τ =>
        cases hs' : step e t σ' with
        | none => rw [hs, hs'] at h1; exact absurd h1 id
        | some τ' => rw [hs, hs'] at h1; exact run_alike hb ts (sided_step hb hs hi) h1
    | false =>
      rw [List.filter_cons_of_neg (by simp [ht])]
      simp only [run]
      cases hs : step e t σ with
      | none => exact run_alike hb ts hi h
      | some τ => exact run_alike hb ts (sided_step hb hs hi) ((out_step hi ht hs).trans h)

end Psygnal.Conc
