import Verif.LazyThreads

/-! # Invariants of first accesses from several threads -/
namespace Psygnal.Lazy

/-- Where a thread can be. -/
def allowed : Kind → Pc → Bool
  | .signal _, .idle | .signal _, .look | .signal _, .check | .signal _, .make | .signal _, .store _ => true
  | .signal b, .read => !b
  | .signal _, _ => false
  | .group _, .idle | .group _, .look | .group _, .check | .group _, .make | .group _, .put _ | .group _, .read => true
  | .group b, .fetch | .group b, .set _ => b
  | .group _, .store _ => false

/-- A thread here will store something. -/
def writes : Kind → Pc → Bool
  | _, .make | _, .store _ | _, .put _ | _, .fetch | _, .set _ => true
  | .signal true, .check => true
  | _, _ => false

/-- A thread here relies on an entry of the cache. -/
def reads : Pc → Bool
  | .read | .fetch | .set _ => true
  | _ => false

/-- A thread here is about to store the object in its `__dict__`, after the cache. -/
def setting : Pc → Bool
  | .fetch | .set _ => true
  | _ => false

structure Base (k : Kind) (s : St) : Prop where
  began : ∀ t, s.pc t ≠ .idle → s.began t < s.clock
  done : ∀ a ∈ s.done, a.start < a.stop ∧ a.stop < s.clock
  allow : ∀ t, allowed k (s.pc t) = true
  nomap : k = .signal true → s.map = none
  nodict : k = .signal false ∨ k = .group false → s.dict = none
  has : s.done ≠ [] → (k = .signal true → s.dict.isSome = true) ∧ (k ≠ .signal true → s.map.isSome = true)
  rd : ∀ t, reads (s.pc t) = true → s.map.isSome = true
  wr : ∀ t, writes k (s.pc t) = true → ∀ a ∈ s.done, s.began t < a.stop
  fin : k = .group true → s.map.isSome = true → s.dict.isSome = true ∨ ∃ t, setting (s.pc t) = true
  dm : s.dict.isSome = true → k ≠ .signal true → s.map.isSome = true

theorem base_start (k : Kind) : Base k start where
  began := fun _ h => absurd rfl h
  done := fun _ h => by cases h
  allow := fun _ => by cases k <;> rfl
  nomap := fun _ => rfl
  nodict := fun _ => rfl
  has := fun h => absurd rfl h
  rd := fun _ h => by cases h
  wr := fun _ _ _ h => by cases h
  fin := fun _ h => by cases h
  dm := fun h => by cases h

/-- Thread `t` goes on without an end; what is stored may change. -/
theorem base_goto {k : Kind} {s : St} (h : Base k s) (t : Nat) (p : Pc) (d m : Option Nat) (n : Nat) (g : Nat → Nat)
    (hg : ∀ u, u ≠ t → g u = s.began u) (hgt : g t ≤ s.clock)
    (hall : allowed k p = true) (hm : s.map.isSome = true → m.isSome = true) (hd : s.dict.isSome = true → d.isSome = true)
    (hnm : k = .signal true → m = none) (hnd : k = .signal false ∨ k = .group false → d = none)
    (hrd : reads p = true → m.isSome = true) (hwr : writes k p = true → ∀ a ∈ s.done, g t < a.stop)
    (hfin : k = .group true → m.isSome = true → d.isSome = true ∨ setting p = true ∨ (setting (s.pc t) = false ∧ s.map.isSome = true))
    (hdm : d.isSome = true → k ≠ .signal true → m.isSome = true) :
    Base k { dict := d, map := m, made := n, pc := fun u => if u = t then p else s.pc u, clock := s.clock + 1, began := g, done := s.done } where
  began := by
    intro u hu
    show g u < s.clock + 1
    by_cases e : u = t
    · subst e; omega
    · rw [hg u e]
      simp only [e, if_false] at hu
      have := h.began u hu
      omega
  done := fun a ha => ⟨(h.done a ha).1, Nat.lt_succ_of_lt (h.done a ha).2⟩
  allow := by
    intro u
    show allowed k (if u = t then p else s.pc u) = true
    split
    · exact hall
    · exact h.allow u
  nomap := hnm
  nodict := hnd
  has := fun hne => ⟨fun e => hd ((h.has hne).1 e), fun e => hm ((h.has hne).2 e)⟩
  rd := by
    intro u hu
    have hu : reads (if u = t then p else s.pc u) = true := hu
    split at hu
    · exact hrd hu
    · exact hm (h.rd u hu)
  wr := by
    intro u hu a ha
    replace hu : writes k (if u = t then p else s.pc u) = true := hu
    show g u < a.stop
    by_cases e : u = t
    · rw [if_pos e] at hu; subst e; exact hwr hu a ha
    · rw [if_neg e] at hu; rw [hg u e]; exact h.wr u hu a ha
  fin := by
    intro hk hms
    rcases hfin hk hms with h1 | h1 | ⟨h1, h2⟩
    · exact .inl h1
    · exact .inr ⟨t, by show setting (if t = t then p else s.pc t) = true; rw [if_pos rfl]; exact h1⟩
    · rcases h.fin hk h2 with h3 | ⟨u, h3⟩
      · exact .inl (hd h3)
      · refine .inr ⟨u, ?_⟩
        show setting (if u = t then p else s.pc u) = true
        by_cases e : u = t
        · subst e; rw [h1] at h3; cases h3
        · rw [if_neg e]; exact h3
  dm := hdm

/-- The access of thread `t` ends. -/
theorem base_ret {k : Kind} {s : St} (h : Base k s) (t : Nat) (v d m : Option Nat) (ht : s.pc t ≠ .idle)
    (hset : setting (s.pc t) = false)
    (hm : s.map.isSome = true → m.isSome = true) (hd : s.dict.isSome = true → d.isSome = true)
    (hnm : k = .signal true → m = none) (hnd : k = .signal false ∨ k = .group false → d = none)
    (hhas : (k = .signal true → d.isSome = true) ∧ (k ≠ .signal true → m.isSome = true))
    (hfin : k = .group true → m = s.map) :
    Base k { dict := d, map := m, made := s.made, pc := fun u => if u = t then .idle else s.pc u, clock := s.clock + 1,
             began := s.began, done := s.done ++ [⟨t, s.began t, s.clock, v⟩] } where
  began := by
    intro u hu
    show s.began u < s.clock + 1
    by_cases e : u = t
    · simp only [e, if_true] at hu
      exact absurd rfl hu
    · simp only [e, if_false] at hu
      have := h.began u hu
      omega
  done := by
    intro a ha
    show _ ∧ a.stop < s.clock + 1
    rcases List.mem_append.mp ha with ha | ha
    · exact ⟨(h.done a ha).1, Nat.lt_succ_of_lt (h.done a ha).2⟩
    · rw [List.mem_singleton.mp ha]
      exact ⟨h.began t ht, Nat.lt_succ_self _⟩
  allow := by
    intro u
    show allowed k (if u = t then .idle else s.pc u) = true
    split
    · cases k <;> rfl
    · exact h.allow u
  nomap := hnm
  nodict := hnd
  has := fun _ => hhas
  rd := by
    intro u hu
    have hu : reads (if u = t then .idle else s.pc u) = true := hu
    split at hu
    · cases hu
    · exact hm (h.rd u hu)
  wr := by
    intro u hu a ha
    have hu : writes k (if u = t then .idle else s.pc u) = true := hu
    show s.began u < a.stop
    split at hu
    · cases k <;> simp [writes] at hu
    · rcases List.mem_append.mp ha with ha | ha
      · exact h.wr u hu a ha
      · rw [List.mem_singleton.mp ha]
        refine h.began u fun e => ?_
        rw [e] at hu
        cases k <;> simp [writes] at hu
  fin := by
    intro hk hms
    have e := hfin hk
    subst e
    rcases h.fin hk hms with h1 | ⟨u, h1⟩
    · exact .inl (hd h1)
    · refine .inr ⟨u, ?_⟩
      show setting (if u = t then .idle else s.pc u) = true
      by_cases e : u = t
      · subst e; rw [hset] at h1; cases h1
      · rw [if_neg e]; exact h1
  dm := fun _ => hhas.2

theorem base_step {k : Kind} {s : St} (h : Base k s) (t : Nat) : Base k (step k t s) := by
  have hal := h.allow t
  have hwr := h.wr t
  have hrd := h.rd t
  have hgt : s.pc t ≠ .idle → s.began t ≤ s.clock := fun e => Nat.le_of_lt (h.began t e)
  unfold step act
  split
  · -- idle
    rename_i hp
    refine base_goto h t .look s.dict s.map s.made _ (fun u e => if_neg e) (by simp) (by cases k <;> rfl) id id h.nomap h.nodict
      (fun e => by cases e) (fun e => by cases k <;> simp [writes] at e) (fun _ e => .inr (.inr ⟨by rw [hp]; rfl, e⟩)) h.dm
  · -- look
    rename_i hp
    split
    · rename_i i hi
      have hds : s.dict.isSome = true := by rw [hi]; rfl
      exact base_ret h t _ s.dict s.map (by rw [hp]; simp) (by rw [hp]; rfl) id id h.nomap h.nodict
        ⟨fun _ => hds, h.dm hds⟩ (fun _ => rfl)
    · rename_i hi
      refine base_goto h t .check s.dict s.map s.made s.began (fun _ _ => rfl) (hgt (by rw [hp]; simp)) (by cases k <;> rfl) id id
        h.nomap h.nodict (fun e => by cases e) (fun e a ha => ?_) (fun _ e => .inr (.inr ⟨by rw [hp]; rfl, e⟩)) h.dm
      have hk : k = .signal true := by
        rcases k with (_ | _) | _ <;> first | rfl | simp [writes] at e
      have := (h.has (List.ne_nil_of_mem ha)).1 hk
      rw [hi] at this; cases this
  · -- check
    rename_i hp
    split
    · rename_i hms
      refine base_goto h t .read s.dict s.map s.made s.began (fun _ _ => rfl) (hgt (by rw [hp]; simp)) ?_ id id
        h.nomap h.nodict (fun _ => hms) (fun e => by cases k <;> simp [writes] at e) (fun _ e => .inr (.inr ⟨by rw [hp]; rfl, e⟩)) h.dm
      rcases k with (_ | _) | _
      · rfl
      · rw [h.nomap rfl] at hms; cases hms
      · rfl
    · rename_i hms
      refine base_goto h t .make s.dict s.map s.made s.began (fun _ _ => rfl) (hgt (by rw [hp]; simp)) (by cases k <;> rfl) id id
        h.nomap h.nodict (fun e => by cases e) (fun _ a ha => ?_) (fun _ e => .inr (.inr ⟨by rw [hp]; rfl, e⟩)) h.dm
      by_cases hk : k = .signal true
      · refine hwr ?_ a ha
        rw [hp, hk]; rfl
      · exact absurd ((h.has (List.ne_nil_of_mem ha)).2 hk) hms
  · -- read
    rename_i hp
    have hms : s.map.isSome = true := hrd (by rw [hp]; rfl)
    refine base_ret h t _ s.dict s.map (by rw [hp]; simp) (by rw [hp]; rfl) id id h.nomap h.nodict
      ⟨fun hk => ?_, fun _ => hms⟩ (fun _ => rfl)
    rw [h.nomap hk] at hms; cases hms
  · -- make
    rename_i hp
    split
    · refine base_goto h t (.store s.made) s.dict s.map (s.made + 1) s.began (fun _ _ => rfl) (hgt (by rw [hp]; simp)) rfl id id
        h.nomap h.nodict (fun e => by cases e) (fun _ => hwr (by rw [hp]; rfl)) (fun e => by cases e) h.dm
    · refine base_goto h t (.put s.made) s.dict s.map (s.made + 1) s.began (fun _ _ => rfl) (hgt (by rw [hp]; simp)) rfl id id
        h.nomap h.nodict (fun e => by cases e) (fun _ => hwr (by rw [hp]; rfl)) (fun _ e => .inr (.inr ⟨by rw [hp]; rfl, e⟩)) h.dm
  · -- store
    rename_i i hp
    split
    · exact base_ret h t (some i) (some i) s.map (by rw [hp]; simp) (by rw [hp]; rfl) id (fun _ => rfl) h.nomap
        (fun e => e.elim (fun e => by cases e) (fun e => by cases e)) ⟨fun _ => rfl, fun e => absurd rfl e⟩ (fun e => by cases e)
    · rename_i hk
      have hk' : k = .signal false := by
        rw [hp] at hal
        rcases k with (_ | _) | _
        · rfl
        · exact absurd rfl hk
        · cases hal
      subst hk'
      exact base_ret h t (some i) s.dict (some i) (by rw [hp]; simp) (by rw [hp]; rfl) (fun _ => rfl) id (fun e => by cases e)
        h.nodict ⟨(fun e => by cases e), fun _ => rfl⟩ (fun e => by cases e)
  · -- put
    rename_i i hp
    split
    · exact base_goto h t .fetch s.dict (some i) s.made s.began (fun _ _ => rfl) (hgt (by rw [hp]; simp)) rfl (fun _ => rfl) id
        (fun e => by cases e) h.nodict (fun _ => rfl) (fun _ => hwr (by rw [hp]; rfl)) (fun _ _ => .inr (.inl rfl)) (fun _ _ => rfl)
    · rename_i hk
      have hk' : k = .group false := by
        rw [hp] at hal
        rcases k with _ | (_ | _)
        · cases hal
        · rfl
        · exact absurd rfl hk
      subst hk'
      exact base_goto h t .read s.dict (some i) s.made s.began (fun _ _ => rfl) (hgt (by rw [hp]; simp)) rfl (fun _ => rfl) id
        (fun e => by cases e) h.nodict (fun _ => rfl) (fun e => by simp [writes] at e) (fun e => by cases e) (fun _ _ => rfl)
  · -- fetch
    rename_i hp
    have hk : k = .group true := by
      rw [hp] at hal
      rcases k with _ | (_ | _)
      · cases hal
      · cases hal
      · rfl
    have hms : s.map.isSome = true := hrd (by rw [hp]; rfl)
    subst hk
    split
    · rename_i j hj
      exact base_goto h t (.set j) s.dict s.map s.made s.began (fun _ _ => rfl) (hgt (by rw [hp]; simp)) rfl id id
        h.nomap h.nodict (fun _ => hms) (fun _ => hwr (by rw [hp]; rfl)) (fun _ _ => .inr (.inl rfl)) h.dm
    · rename_i hj
      rw [hj] at hms; cases hms
  · -- set
    rename_i j hp
    have hk : k = .group true := by
      rw [hp] at hal
      rcases k with _ | (_ | _)
      · cases hal
      · cases hal
      · rfl
    have hms : s.map.isSome = true := hrd (by rw [hp]; rfl)
    subst hk
    exact base_goto h t .read (some j) s.map s.made s.began (fun _ _ => rfl) (hgt (by rw [hp]; simp)) rfl id (fun _ => rfl)
      h.nomap (fun e => e.elim (fun e => by cases e) (fun e => by cases e)) (fun _ => hms) (fun e => by simp [writes] at e)
      (fun _ _ => .inl rfl) (fun _ _ => hms)

theorem base_run {k : Kind} (ts : List Nat) : ∀ {s : St}, Base k s → Base k (run k ts s) := by
  induction ts with
  | nil => exact fun h => h
  | cons t ts ih => exact fun h => ih (base_step h t)

/-- The numbers in use are those of objects that were made. -/
structure Made (s : St) : Prop where
  dict : ∀ i, s.dict = some i → i < s.made
  map : ∀ i, s.map = some i → i < s.made
  pc : ∀ t i, s.pc t = .store i ∨ s.pc t = .put i ∨ s.pc t = .set i → i < s.made
  done : ∀ x ∈ s.done, ∃ i, x.val = some i ∧ i < s.made

theorem made_goto {s : St} (h : Made s) (t : Nat) (p : Pc) (d m : Option Nat) (n l : Nat) (g : Nat → Nat) (hn : s.made ≤ n)
    (hd : ∀ i, d = some i → i < n) (hm : ∀ i, m = some i → i < n)
    (hp : ∀ i, p = .store i ∨ p = .put i ∨ p = .set i → i < n) :
    Made { dict := d, map := m, made := n, pc := fun u => if u = t then p else s.pc u, clock := l, began := g, done := s.done } where
  dict := hd
  map := hm
  pc := by
    intro u i hu
    by_cases e : u = t
    · simp only [e, if_true] at hu; exact hp i hu
    · simp only [e, if_false] at hu; exact Nat.lt_of_lt_of_le (h.pc u i hu) hn
  done := fun x hx => (h.done x hx).imp fun _ h => ⟨h.1, Nat.lt_of_lt_of_le h.2 hn⟩

theorem made_ret {s : St} (h : Made s) (t : Nat) (d m : Option Nat) (l i a b : Nat) (g : Nat → Nat)
    (hd : ∀ i, d = some i → i < s.made) (hm : ∀ i, m = some i → i < s.made) (hi : i < s.made) :
    Made { dict := d, map := m, made := s.made, pc := fun u => if u = t then .idle else s.pc u, clock := l, began := g,
           done := s.done ++ [⟨t, a, b, some i⟩] } where
  dict := hd
  map := hm
  pc := by
    intro u i hu
    by_cases e : u = t
    · simp only [e, if_true] at hu; simp at hu
    · simp only [e, if_false] at hu; exact h.pc u i hu
  done := fun x hx => (List.mem_append.mp hx).elim (h.done x) fun e => by rw [List.mem_singleton.mp e]; exact ⟨i, rfl, hi⟩

theorem made_step {k : Kind} {s : St} (hb : Base k s) (h : Made s) (t : Nat) : Made (step k t s) := by
  have hpc := h.pc t
  have hrd := hb.rd t
  unfold step act
  split
  · exact made_goto h t .look _ _ _ _ _ (Nat.le_refl _) h.dict h.map (by simp)
  · split
    · rename_i i hi
      exact made_ret h t _ _ _ i _ _ _ h.dict h.map (h.dict i hi)
    · exact made_goto h t .check _ _ _ _ _ (Nat.le_refl _) h.dict h.map (by simp)
  · split
    · exact made_goto h t .read _ _ _ _ _ (Nat.le_refl _) h.dict h.map (by simp)
    · exact made_goto h t .make _ _ _ _ _ (Nat.le_refl _) h.dict h.map (by simp)
  · rename_i hp
    have hm := hrd (by rw [hp]; rfl)
    obtain ⟨i, hi⟩ := Option.isSome_iff_exists.mp hm
    have := made_ret h t s.dict s.map (s.clock + 1) i (s.began t) s.clock s.began h.dict h.map (h.map i hi)
    rw [← hi] at this
    exact this
  · split
    · exact made_goto h t (.store s.made) _ _ _ _ _ (Nat.le_succ _) (fun i e => Nat.lt_succ_of_lt (h.dict i e))
        (fun i e => Nat.lt_succ_of_lt (h.map i e)) (by simp)
    · exact made_goto h t (.put s.made) _ _ _ _ _ (Nat.le_succ _) (fun i e => Nat.lt_succ_of_lt (h.dict i e))
        (fun i e => Nat.lt_succ_of_lt (h.map i e)) (by simp)
  · rename_i i hp
    have hi := hpc i (.inl hp)
    have hi' : ∀ j, some i = some j → j < s.made := fun j e => by cases e; exact hi
    split
    · exact made_ret h t (some i) s.map _ i _ _ _ hi' h.map hi
    · exact made_ret h t s.dict (some i) _ i _ _ _ h.dict hi' hi
  · rename_i i hp
    have hi := hpc i (.inr (.inl hp))
    have hi' : ∀ j, some i = some j → j < s.made := fun j e => by cases e; exact hi
    split
    · exact made_goto h t .fetch s.dict (some i) _ _ _ (Nat.le_refl _) h.dict hi' (by simp)
    · exact made_goto h t .read s.dict (some i) _ _ _ (Nat.le_refl _) h.dict hi' (by simp)
  · split
    · rename_i j hj
      refine made_goto h t (.set j) _ _ _ _ _ (Nat.le_refl _) h.dict h.map ?_
      rintro i (e | e | e) <;> cases e
      exact h.map _ hj
    · exact made_goto h t .read _ _ _ _ _ (Nat.le_refl _) h.dict h.map (by simp)
  · rename_i j hp
    have hj := hpc j (.inr (.inr hp))
    exact made_goto h t .read (some j) s.map _ _ _ (Nat.le_refl _) (fun i e => by cases e; exact hj) h.map (by simp)

theorem made_run {k : Kind} (ts : List Nat) : ∀ {s : St}, Base k s → Made s → Made (run k ts s) := by
  induction ts with
  | nil => exact fun _ h => h
  | cons t ts ih => exact fun hb h => ih (base_step hb t) (made_step hb h t)

theorem run_append (k : Kind) (p q : List Nat) : ∀ s, run k (p ++ q) s = run k q (run k p s) := by
  induction p with
  | nil => exact fun _ => rfl
  | cons o os ih => exact fun st => ih _

end Psygnal.Lazy
