import Verif.LazyThreadsLemmas

/-! # When the accesses of several threads agree -/
namespace Psygnal.Lazy

/-- Accesses find the object in the `__dict__`. -/
def viaDict : Kind → Bool
  | .signal b => b
  | .group b => b

/-- What a new access returns. -/
def cur (k : Kind) (s : St) : Option Nat := if viaDict k then s.dict else s.map

/-- From time `T` on, accesses return `c`. -/
structure Stable (k : Kind) (T : Nat) (c : Option Nat) (s : St) : Prop where
  cur : cur k s = c
  some : c.isSome = true
  map : k ≠ .signal true → s.map.isSome = true
  quiet : ∀ t, writes k (s.pc t) = false
  new : ∀ t, s.pc t ≠ .idle → T ≤ s.began t → viaDict k = true → s.pc t = .look
  vals : ∀ a ∈ s.done, T ≤ a.start → a.val = c

theorem stable_goto {k : Kind} {T : Nat} {c : Option Nat} {s : St} (h : Stable k T c s) (t : Nat) (p : Pc) (g : Nat → Nat)
    (hg : ∀ u, u ≠ t → g u = s.began u) (hq : writes k p = false) (hn : p = .look ∨ (T ≤ g t → viaDict k = false)) :
    Stable k T c { dict := s.dict, map := s.map, made := s.made, pc := fun u => if u = t then p else s.pc u, clock := s.clock + 1,
                   began := g, done := s.done } where
  cur := h.cur
  some := h.some
  map := h.map
  quiet := by
    intro u
    show writes k (if u = t then p else s.pc u) = false
    split
    · exact hq
    · exact h.quiet u
  new := by
    intro u hu hb hv
    show (if u = t then p else s.pc u) = .look
    by_cases e : u = t
    · rw [if_pos e]
      subst e
      rcases hn with hn | hn
      · exact hn
      · rw [hn hb] at hv; cases hv
    · rw [if_neg e]
      replace hu : (if u = t then p else s.pc u) ≠ .idle := hu
      rw [if_neg e] at hu
      exact h.new u hu (by rw [← hg u e]; exact hb) hv
  vals := h.vals

theorem stable_ret {k : Kind} {T : Nat} {c : Option Nat} {s : St} (h : Stable k T c s) (t : Nat) (v : Option Nat)
    (hv : T ≤ s.began t → v = c) :
    Stable k T c { dict := s.dict, map := s.map, made := s.made, pc := fun u => if u = t then .idle else s.pc u, clock := s.clock + 1,
                   began := s.began, done := s.done ++ [⟨t, s.began t, s.clock, v⟩] } where
  cur := h.cur
  some := h.some
  map := h.map
  quiet := by
    intro u
    show writes k (if u = t then .idle else s.pc u) = false
    split
    · rcases k with (_ | _) | _ <;> rfl
    · exact h.quiet u
  new := by
    intro u hu hb hv
    replace hu : (if u = t then .idle else s.pc u) ≠ .idle := hu
    show (if u = t then .idle else s.pc u) = .look
    by_cases e : u = t
    · rw [if_pos e] at hu; exact absurd rfl hu
    · rw [if_neg e] at hu ⊢
      exact h.new u hu hb hv
  vals := by
    intro a ha hT
    rcases List.mem_append.mp ha with ha | ha
    · exact h.vals a ha hT
    · rw [List.mem_singleton.mp ha] at hT ⊢
      exact hv hT

theorem stable_step {k : Kind} {T : Nat} {c : Option Nat} {s : St} (hb : Base k s) (h : Stable k T c s) (t : Nat) :
    Stable k T c (step k t s) := by
  have hq := h.quiet t
  have hal := hb.allow t
  have hnew := h.new t
  have hwi : ∀ p, (p = .idle ∨ p = .look ∨ p = .read) → writes k p = false := by
    rintro p (rfl | rfl | rfl) <;> rcases k with (_ | _) | _ <;> rfl
  unfold step act
  split
  · exact stable_goto h t .look _ (fun u e => if_neg e) (hwi _ (.inr (.inl rfl))) (.inl rfl)
  · rename_i hp
    split
    · rename_i i hi
      refine stable_ret h t _ fun hT => ?_
      rw [← h.cur, cur]
      split
      · exact hi.symm
      · rename_i hv
        have : s.dict = none := hb.nodict (by rcases k with (_ | _) | (_ | _) <;> simp_all [viaDict])
        rw [hi] at this; cases this
    · rename_i hi
      have hv : viaDict k = false := by
        rcases hvd : viaDict k with _ | _
        · rfl
        · have := h.cur
          rw [cur, hvd, if_pos rfl, hi] at this
          have h2 := h.some
          rw [← this] at h2; cases h2
      exact stable_goto h t .check s.began (fun _ _ => rfl) (by rcases k with (_ | _) | _ <;> first | rfl | cases hv) (.inr fun _ => hv)
  · rename_i hp
    split
    · refine stable_goto h t .read s.began (fun _ _ => rfl) (hwi _ (.inr (.inr rfl))) (.inr fun hT => ?_)
      rcases hvd : viaDict k with _ | _
      · rfl
      · have := hnew (by rw [hp]; simp) hT hvd
        rw [hp] at this; cases this
    · rename_i hm
      by_cases hk : k = .signal true
      · subst hk; rw [hp] at hq; cases hq
      · exact absurd (h.map hk) hm
  · rename_i hp
    refine stable_ret h t _ fun hT => ?_
    rw [← h.cur, cur]
    split
    · rename_i hv
      have := hnew (by rw [hp]; simp) hT hv
      rw [hp] at this; cases this
    · rfl
  all_goals rename_i hp; rw [hp] at hq; rcases k with (_ | _) | _ <;> cases hq

theorem stable_run {k : Kind} {T : Nat} {c : Option Nat} (ts : List Nat) : ∀ {s : St}, Base k s → Stable k T c s →
    Stable k T c (run k ts s) := by
  induction ts with
  | nil => exact fun _ h => h
  | cons t ts ih => exact fun hb h => ih (base_step hb t) (stable_step hb h t)

/-- Stable states are reached once all accesses that began before the end of the first have ended. -/
theorem stable_of {k : Kind} {s : St} (hb : Base k s) {a : Acc} (ha : a ∈ s.done) (h : ∀ t, s.pc t ≠ .idle → a.stop ≤ s.began t) :
    Stable k s.clock (cur k s) s := by
  have hne := List.ne_nil_of_mem ha
  have hq : ∀ t, writes k (s.pc t) = false := by
    intro t
    rcases hw : writes k (s.pc t) with _ | _
    · rfl
    · have h1 := hb.wr t hw a ha
      have h2 := h t (fun e => by rw [e] at hw; rcases k with (_ | _) | _ <;> cases hw)
      omega
  refine ⟨rfl, ?_, (hb.has hne).2, hq, fun t ht hT => ?_, fun x hx hT => ?_⟩
  · rw [cur]
    rcases k with (_ | _) | (_ | _)
    · exact (hb.has hne).2 (by simp)
    · exact (hb.has hne).1 rfl
    · exact (hb.has hne).2 (by simp)
    · rcases hb.fin rfl ((hb.has hne).2 (by simp)) with h1 | ⟨t, h1⟩
      · exact h1
      · have := hq t
        generalize s.pc t = p at h1 this
        cases p <;> first | (simp [writes] at this; done) | (simp [setting] at h1; done)
  · have := hb.began t ht; omega
  · have := hb.done x hx; omega

/-! ## The first access alone -/

/-- What one thread alone has done so far. -/
def solo (k : Kind) (s : St) (p : Pc) : Prop :=
  match p with
  | .idle | .look | .check | .make | .store _ | .put _ => s.dict = none ∧ s.map = none
  | .fetch => s.dict = none ∧ s.map.isSome = true
  | .set j => s.dict = none ∧ s.map = some j
  | .read => s.map.isSome = true ∧ s.dict = if viaDict k then s.map else none

/-- As long as no access has ended and only thread `t` has one in progress. -/
def Alone (k : Kind) (s : St) : Prop := s.done = [] → ∀ t, (∀ u, u ≠ t → s.pc u = .idle) → solo k s (s.pc t)

theorem alone_start (k : Kind) : Alone k start := fun _ _ _ => ⟨rfl, rfl⟩

/-- Thread `t` goes on without an end. -/
theorem alone_goto {k : Kind} {s : St} (h : Alone k s) (t : Nat) (p : Pc) (d m : Option Nat) (n l : Nat) (g : Nat → Nat)
    (hi : p ≠ .idle)
    (hs : solo k s (s.pc t) → solo k { dict := d, map := m, made := n, pc := fun u => if u = t then p else s.pc u, clock := l, began := g, done := s.done } p) :
    Alone k { dict := d, map := m, made := n, pc := fun u => if u = t then p else s.pc u, clock := l, began := g, done := s.done } := by
  intro hd v hv
  have e : t = v := by
    apply Classical.byContradiction
    intro e
    have := hv t e
    simp only [if_true] at this
    exact hi this
  subst e
  show solo k _ (if t = t then p else s.pc t)
  rw [if_pos rfl]
  refine hs (h hd t fun u hu => ?_)
  have := hv u hu
  simp only [hu, if_false] at this
  exact this

theorem alone_step {k : Kind} {s : St} (hb : Base k s) (h : Alone k s) (t : Nat) : Alone k (step k t s) := by
  have hal := hb.allow t
  have hret : ∀ (d m : Option Nat) (n l : Nat) (p : Nat → Pc) (g : Nat → Nat) (x : Acc),
      Alone k { dict := d, map := m, made := n, pc := p, clock := l, began := g, done := s.done ++ [x] } :=
    fun _ _ _ _ _ _ _ e => by simp at e
  unfold step act
  split
  · rename_i hp
    exact alone_goto h t .look s.dict s.map s.made _ _ (by simp) (fun hs => by rw [hp] at hs; exact hs)
  · rename_i hp
    split
    · exact hret _ _ _ _ _ _ _
    · exact alone_goto h t .check s.dict s.map s.made _ s.began (by simp) (fun hs => by rw [hp] at hs; exact hs)
  · rename_i hp
    split
    · rename_i hm
      refine alone_goto h t .read s.dict s.map s.made _ s.began (by simp) (fun hs => ?_)
      rw [hp] at hs
      have hs : s.dict = none ∧ s.map = none := hs
      rw [hs.2] at hm; cases hm
    · exact alone_goto h t .make s.dict s.map s.made _ s.began (by simp) (fun hs => by rw [hp] at hs; exact hs)
  · exact hret _ _ _ _ _ _ _
  · rename_i hp
    split
    · exact alone_goto h t (.store s.made) s.dict s.map (s.made + 1) _ s.began (by simp) (fun hs => by rw [hp] at hs; exact hs)
    · exact alone_goto h t (.put s.made) s.dict s.map (s.made + 1) _ s.began (by simp) (fun hs => by rw [hp] at hs; exact hs)
  · split <;> exact hret _ _ _ _ _ _ _
  · rename_i i hp
    split
    · exact alone_goto h t .fetch s.dict (some i) s.made _ s.began (by simp) (fun hs => by rw [hp] at hs; exact ⟨hs.1, rfl⟩)
    · rename_i hk
      refine alone_goto h t .read s.dict (some i) s.made _ s.began (by simp) (fun hs => ?_)
      rw [hp] at hs hal
      refine ⟨rfl, ?_⟩
      have : viaDict k = false := by
        rcases k with _ | (_ | _)
        · cases hal
        · rfl
        · exact absurd rfl hk
      show s.dict = if viaDict k then some i else none
      rw [this]; exact hs.1
  · rename_i hp
    split
    · rename_i j hj
      exact alone_goto h t (.set j) s.dict s.map s.made _ s.began (by simp) (fun hs => by rw [hp] at hs; exact ⟨hs.1, hj⟩)
    · rename_i hj
      refine alone_goto h t .read s.dict s.map s.made _ s.began (by simp) (fun hs => ?_)
      rw [hp] at hs
      have := hs.2
      rw [hj] at this; cases this
  · rename_i j hp
    refine alone_goto h t .read (some j) s.map s.made _ s.began (by simp) (fun hs => ?_)
    rw [hp] at hs hal
    have hm : s.map = some j := hs.2
    refine ⟨by show s.map.isSome = true; rw [hm]; rfl, ?_⟩
    have : viaDict k = true := by
      rcases k with _ | (_ | _)
      · cases hal
      · cases hal
      · rfl
    show some j = if viaDict k then s.map else none
    rw [this, hm]; rfl

/-- The access `a` has ended before any other began. -/
structure Before (s : St) (a : Acc) : Prop where
  mem : a ∈ s.done
  others : ∀ x ∈ s.done, x ≠ a → a.stop ≤ x.start
  busy : ∀ t, s.pc t ≠ .idle → a.stop ≤ s.began t

/-- What then is stored. -/
structure Same (k : Kind) (s : St) (a : Acc) : Prop where
  some : a.val.isSome = true
  dict : s.dict = if viaDict k then a.val else none
  map : s.map = if k = .signal true then none else a.val
  vals : ∀ x ∈ s.done, x.val = a.val

theorem same_goto {k : Kind} {s : St} {a : Acc} (h : Same k s a) (n l : Nat) (p : Nat → Pc) (g : Nat → Nat) :
    Same k { dict := s.dict, map := s.map, made := n, pc := p, clock := l, began := g, done := s.done } a :=
  ⟨h.some, h.dict, h.map, h.vals⟩

theorem same_ret {k : Kind} {s : St} {a : Acc} (h : Same k s a) (n l : Nat) (p : Nat → Pc) (g : Nat → Nat) (x : Acc)
    (hx : x.val = a.val) :
    Same k { dict := s.dict, map := s.map, made := n, pc := p, clock := l, began := g, done := s.done ++ [x] } a :=
  ⟨h.some, h.dict, h.map, fun y hy => (List.mem_append.mp hy).elim (h.vals y) fun e => by rw [List.mem_singleton.mp e]; exact hx⟩

theorem same_step {k : Kind} {s : St} {a : Acc} (hb : Base k s) (h : Same k s a) (t : Nat)
    (hq : writes k (s.pc t) = false) : Same k (step k t s) a := by
  unfold step act
  split
  · exact same_goto h _ _ _ _
  · split
    · rename_i i hi
      refine same_ret h _ _ _ _ _ ?_
      have := h.dict
      rw [hi] at this
      show Option.some i = a.val
      rw [this]
      split
      · rfl
      · rename_i hv; rw [if_neg hv] at this; cases this
    · exact same_goto h _ _ _ _
  · rename_i hp
    split
    · exact same_goto h _ _ _ _
    · exact same_goto h _ _ _ _
  · rename_i hp
    refine same_ret h _ _ _ _ _ ?_
    show s.map = a.val
    rw [h.map, if_neg]
    intro hk
    have := hb.allow t
    rw [hk, hp] at this; cases this
  all_goals rename_i hp; rw [hp] at hq; rcases k with (_ | _) | _ <;> cases hq

/-- A step either leaves the finished accesses alone, or adds the one of the thread. -/
theorem step_done (k : Kind) (t : Nat) (s : St) :
    ((step k t s).done = s.done ∧ (step k t s).pc t ≠ .idle ∧ (s.pc t ≠ .idle → (step k t s).began t = s.began t)) ∨
    (∃ v, (step k t s).done = s.done ++ [⟨t, s.began t, s.clock, v⟩]) := by
  have hg : ∀ (d m : Option Nat) (n l : Nat) (g : Nat → Nat) (p : Pc), p ≠ .idle → (s.pc t ≠ .idle → g t = s.began t) →
      let s' : St := { dict := d, map := m, made := n, pc := fun u => if u = t then p else s.pc u, clock := l, began := g, done := s.done }
      (s'.done = s.done ∧ s'.pc t ≠ .idle ∧ (s.pc t ≠ .idle → s'.began t = s.began t)) ∨
        (∃ v, s'.done = s.done ++ [⟨t, s.began t, s.clock, v⟩]) :=
    fun d m n l g p hp hgt => .inl ⟨rfl, by simpa using hp, hgt⟩
  unfold step act
  split
  · rename_i hp
    exact hg _ _ _ _ _ .look (by simp) (fun e => absurd hp e)
  · split
    · exact .inr ⟨_, rfl⟩
    · exact hg _ _ _ _ _ .check (by simp) (fun _ => rfl)
  · split
    · exact hg _ _ _ _ _ .read (by simp) (fun _ => rfl)
    · exact hg _ _ _ _ _ .make (by simp) (fun _ => rfl)
  · exact .inr ⟨_, rfl⟩
  · split
    · exact hg _ _ _ _ _ (.store _) (by simp) (fun _ => rfl)
    · exact hg _ _ _ _ _ (.put _) (by simp) (fun _ => rfl)
  · split <;> exact .inr ⟨_, rfl⟩
  · split
    · exact hg _ _ _ _ _ .fetch (by simp) (fun _ => rfl)
    · exact hg _ _ _ _ _ .read (by simp) (fun _ => rfl)
  · split
    · exact hg _ _ _ _ _ (.set _) (by simp) (fun _ => rfl)
    · exact hg _ _ _ _ _ .read (by simp) (fun _ => rfl)
  · exact hg _ _ _ _ _ .read (by simp) (fun _ => rfl)

/-- Other threads stay where they are. -/
theorem step_other (k : Kind) (t : Nat) (s : St) {u : Nat} (h : u ≠ t) :
    (step k t s).pc u = s.pc u ∧ (step k t s).began u = s.began u := by
  have hg : ∀ (d m : Option Nat) (n l : Nat) (g : Nat → Nat) (x : List Acc) (p : Pc), g u = s.began u →
      let s' : St := { dict := d, map := m, made := n, pc := fun u => if u = t then p else s.pc u, clock := l, began := g, done := x }
      s'.pc u = s.pc u ∧ s'.began u = s.began u :=
    fun d m n l g x p e => ⟨if_neg h, e⟩
  unfold step act
  split
  · exact hg _ _ _ _ _ _ _ (if_neg h)
  all_goals repeat' split
  all_goals exact hg _ _ _ _ _ _ _ rfl

theorem same_of_alone {k : Kind} {s : St} (hb : Base k s) (ha : Alone k s) {t : Nat} {v : Option Nat} (hd : s.done = [])
    (hi : ∀ u, u ≠ t → s.pc u = .idle) (hx : (step k t s).done = s.done ++ [⟨t, s.began t, s.clock, v⟩]) :
    Same k (step k t s) ⟨t, s.began t, s.clock, v⟩ := by
  have hs := ha hd t hi
  have hal := hb.allow t
  have hvals : ∀ x ∈ (step k t s).done, x.val = v := by
    rw [hx, hd]
    intro x hx
    rw [List.mem_singleton.mp hx]
  have hne : (step k t s).done ≠ [] := by rw [hx]; simp
  refine ⟨?_, ?_, ?_, hvals⟩ <;> revert hx hne <;> clear hvals
  all_goals
    unfold step act
    split
    · intro _ hne; exact absurd hd hne
    · rename_i hp
      rw [hp] at hs
      split
      · rename_i hi; rw [hs.1] at hi; cases hi
      · intro _ hne; exact absurd hd hne
    · split <;> (intro _ hne; exact absurd hd hne)
    · rename_i hp
      intro hx _
      rw [hp] at hs hal
      have hv : s.map = v := by
        have : s.done ++ [(⟨t, s.began t, s.clock, s.map⟩ : Acc)] = s.done ++ [⟨t, s.began t, s.clock, v⟩] := hx
        simpa using this
      subst hv
      first
        | exact hs.1
        | exact hs.2
        | (refine (if_neg ?_).symm; intro hk; rw [hk] at hal; cases hal)
    · split <;> (intro _ hne; exact absurd hd hne)
    · rename_i i hp
      rw [hp] at hs hal
      split
      · intro hx _
        have hv : some i = v := by
          have : s.done ++ [(⟨t, s.began t, s.clock, some i⟩ : Acc)] = s.done ++ [⟨t, s.began t, s.clock, v⟩] := hx
          simpa using this
        subst hv
        first
          | rfl
          | exact hs.2
      · rename_i hk
        intro hx _
        have hv : some i = v := by
          have : s.done ++ [(⟨t, s.began t, s.clock, some i⟩ : Acc)] = s.done ++ [⟨t, s.began t, s.clock, v⟩] := hx
          simpa using this
        subst hv
        have hk' : k = .signal false := by
          rcases k with (_ | _) | _
          · rfl
          · exact absurd rfl hk
          · cases hal
        subst hk'
        first
          | rfl
          | exact hs.1
    · split <;> (intro _ hne; exact absurd hd hne)
    · split <;> (intro _ hne; exact absurd hd hne)
    · intro _ hne; exact absurd hd hne

theorem first_step {k : Kind} {s : St} (hb : Base k s) (hal : Alone k s) (h : ∀ a, Before s a → Same k s a) (t : Nat) :
    ∀ a, Before (step k t s) a → Same k (step k t s) a := by
  intro a ha
  have hbusy : ∀ u, u ≠ t → s.pc u ≠ .idle → a.stop ≤ s.began u := by
    intro u hu hp
    have := step_other k t s hu
    rw [← this.2]
    exact ha.busy u (by rw [this.1]; exact hp)
  have old : a ∈ s.done → Same k (step k t s) a := by
    intro hm
    have hstop := (hb.done a hm).2
    have hbt : s.pc t ≠ .idle → a.stop ≤ s.began t := by
      intro hp
      rcases step_done k t s with ⟨_, h2, h3⟩ | ⟨v, hv⟩
      · rw [← h3 hp]; exact ha.busy t h2
      · refine ha.others ⟨t, s.began t, s.clock, v⟩ (by rw [hv]; simp) fun e => ?_
        rw [← e] at hstop
        exact Nat.lt_irrefl _ hstop
    have hbef : Before s a := by
      refine ⟨hm, fun x hx => ha.others x ?_, fun u hp => ?_⟩
      · rcases step_done k t s with ⟨h1, _⟩ | ⟨v, hv⟩
        · rw [h1]; exact hx
        · rw [hv]; exact List.mem_append_left _ hx
      · by_cases e : u = t
        · subst e; exact hbt hp
        · exact hbusy u e hp
    refine same_step hb (h a hbef) t ?_
    rcases hw : writes k (s.pc t) with _ | _
    · rfl
    · have h1 := hb.wr t hw a hm
      have h2 := hbt (fun e => by rw [e] at hw; rcases k with (_ | _) | _ <;> cases hw)
      omega
  rcases step_done k t s with ⟨h1, _⟩ | ⟨v, hv⟩
  · exact old (h1 ▸ ha.mem)
  · have hm := ha.mem
    rw [hv] at hm
    rcases List.mem_append.mp hm with hm | hm
    · exact old hm
    · have e := List.mem_singleton.mp hm
      subst e
      refine same_of_alone hb hal ?_ (fun u hu => ?_) hv
      · apply List.eq_nil_iff_forall_not_mem.mpr
        intro x hx
        have h1 := hb.done x hx
        have h2 := ha.others x (by rw [hv]; exact List.mem_append_left _ hx) (fun e => by rw [e] at h1; exact Nat.lt_irrefl _ h1.2)
        have h2 : s.clock ≤ x.start := h2
        omega
      · apply Classical.byContradiction
        intro hp
        have h1 := hb.began u hp
        have h2 : s.clock ≤ s.began u := hbusy u hu hp
        omega

theorem first_run {k : Kind} (ts : List Nat) : ∀ {s : St}, Base k s → Alone k s → (∀ a, Before s a → Same k s a) →
    ∀ a, Before (run k ts s) a → Same k (run k ts s) a := by
  induction ts with
  | nil => exact fun _ _ h => h
  | cons t ts ih => exact fun hb ha h => ih (base_step hb t) (alone_step hb ha t) (first_step hb ha h t)

end Psygnal.Lazy
