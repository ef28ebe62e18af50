import Verif.MonitorLemmas

/-! # Relays and whole bodies, for `Verif/Monitor.lean` -/
namespace Psygnal.Mon

/-- Members of groups are no relays, and in one group only (they are made by the group,
`/repo/src/psygnal/_group.py:272-280`). -/
structure EnvOk (e : Env) : Prop where
  plain : ∀ r m, e.isRelay r = true → m ∈ e.members r → e.isRelay m = false
  one : ∀ r r' m, e.isRelay r = true → e.isRelay r' = true → m ∈ e.members r → m ∈ e.members r' → r = r'

/-- Relays are connected to members of their group only, at most once, and a relay without callbacks not
at all. -/
structure Relays (e : Env) (s : St) : Prop where
  cnt : ∀ r m, (s.slots m).count (.relay r) ≤ 1
  mem : ∀ r m, Slot.relay r ∈ s.slots m → e.isRelay r = true ∧ m ∈ e.members r
  idle : ∀ r, s.slots r = [] → ∀ m, Slot.relay r ∉ s.slots m

/-- A relay with callbacks is connected to all its members. -/
def Full (e : Env) (s : St) : Prop :=
  ∀ r m, e.isRelay r = true → s.slots r ≠ [] → m ∈ e.members r → Slot.relay r ∈ s.slots m

/-- `Relays`, except that relay `r` may be connected without having callbacks. -/
structure RelaysBut (e : Env) (r : Nat) (s : St) : Prop where
  cnt : ∀ r m, (s.slots m).count (.relay r) ≤ 1
  mem : ∀ r m, Slot.relay r ∈ s.slots m → e.isRelay r = true ∧ m ∈ e.members r
  idle : ∀ r', r' ≠ r → s.slots r' = [] → ∀ m, Slot.relay r' ∉ s.slots m

theorem Relays.but {e : Env} {s : St} (h : Relays e s) (r : Nat) : RelaysBut e r s :=
  ⟨h.cnt, h.mem, fun r' _ => h.idle r'⟩

/-- What is not a relay. -/
def NotRelay (x : Slot) : Prop := ∀ r, x ≠ .relay r

theorem foldl_mem {α : Type} {P : St → Prop} {f : St → α → St} :
    ∀ (l : List α) (s : St), (∀ s a, a ∈ l → P s → P (f s a)) → P s → P (l.foldl f s)
  | [], _, _, hs => hs
  | a :: l, s, h, hs => foldl_mem l (f s a) (fun s b hb => h s b (List.mem_cons_of_mem _ hb)) (h s a (List.mem_cons_self ..) hs)

theorem insert_ne_nil (e : Env) (x : Slot) (l : List Slot) : insert e x l ≠ [] := by
  cases l with
  | nil => simp [insert]
  | cons a l => unfold insert; split <;> simp

theorem but_ins {e : Env} {sig : Nat} {x : Slot} {s : St} (hx : NotRelay x) {r : Nat} (h : RelaysBut e r s) :
    RelaysBut e r (ins e sig x s) := by
  refine ⟨?_, ?_, ?_⟩
  · intro r m; rw [slots_ins]; split
    · rw [count_insert, if_neg (hx r)]; exact h.cnt r m
    · exact h.cnt r m
  · intro r m; rw [slots_ins]; split
    · rw [mem_insert]
      rintro (h' | h')
      · exact absurd h'.symm (hx r)
      · exact h.mem r m h'
    · exact h.mem r m
  · intro r' hr he m
    have he' : s.slots r' = [] := by
      rw [slots_ins] at he; split at he
      · exact absurd he (insert_ne_nil _ _ _)
      · exact he
    rw [slots_ins]; split
    · rw [mem_insert]
      rintro (h' | h')
      · exact hx r' h'.symm
      · exact h.idle r' hr he' m h'
    · exact h.idle r' hr he' m

/-- Removing anything from a signal that is no relay, or is the exception. -/
theorem but_del {e : Env} {sig : Nat} {x : Slot} {s : St} {r : Nat} (hs : e.isRelay sig = false ∨ sig = r)
    (h : RelaysBut e r s) : RelaysBut e r (del sig x s) := by
  have hsub : ∀ m, ((del sig x s).slots m).Sublist (s.slots m) := by
    intro m; rw [slots_del]; split
    · exact List.erase_sublist
    · exact List.Sublist.refl _
  refine ⟨fun r m => Nat.le_trans ((hsub m).count_le _) (h.cnt r m), fun r m hm => h.mem r m ((hsub m).mem hm), ?_⟩
  intro r' hr he m hm
  have hm' := (hsub m).mem hm
  rcases hs with hs | hs
  · by_cases hq : r' = sig
    · subst hq
      have := (h.mem _ _ hm').1
      rw [hs] at this; cases this
    · rw [slots_del, if_neg hq] at he
      exact h.idle r' hr he m hm'
  · subst hs
    rw [slots_del, if_neg hr] at he
    exact h.idle r' hr he m hm'

theorem but_upd {e : Env} {sig : Nat} {s : St} {r : Nat} (hs : e.isRelay sig = false ∨ sig = r)
    (h : RelaysBut e r s) : RelaysBut e r (upd s sig []) := by
  have hsub : ∀ m, ((upd s sig []).slots m).Sublist (s.slots m) := by
    intro m; rw [slots_upd]; split
    · exact List.nil_sublist _
    · exact List.Sublist.refl _
  refine ⟨fun r m => Nat.le_trans ((hsub m).count_le _) (h.cnt r m), fun r m hm => h.mem r m ((hsub m).mem hm), ?_⟩
  intro r' hr he m hm
  have hm' := (hsub m).mem hm
  rcases hs with hs | hs
  · by_cases hq : r' = sig
    · subst hq
      have := (h.mem _ _ hm').1
      rw [hs] at this; cases this
    · rw [slots_upd, if_neg hq] at he
      exact h.idle r' hr he m hm'
  · subst hs
    rw [slots_upd, if_neg hr] at he
    exact h.idle r' hr he m hm'

theorem but_join {e : Env} {r m : Nat} {s : St} (hr : e.isRelay r = true) (hm : m ∈ e.members r)
    (h : RelaysBut e r s) : RelaysBut e r (joinRelay e r s m) := by
  unfold joinRelay; split
  · exact h
  · rename_i hn
    refine ⟨?_, ?_, ?_⟩
    · intro r' m'; rw [slots_ins]; split
      · rename_i hq; subst hq
        rw [count_insert]
        by_cases hrr : r = r'
        · subst hrr; rw [List.count_eq_zero_of_not_mem hn]; simp
        · rw [if_neg (by intro h; cases h; exact hrr rfl)]; exact h.cnt r' _
      · exact h.cnt r' m'
    · intro r' m'; rw [slots_ins]; split
      · rename_i hq; subst hq
        rw [mem_insert]
        rintro (h' | h')
        · cases h'; exact ⟨hr, hm⟩
        · exact h.mem r' _ h'
      · exact h.mem r' m'
    · intro r' hr' he m'
      have he' : s.slots r' = [] := by
        rw [slots_ins] at he; split at he
        · exact absurd he (insert_ne_nil _ _ _)
        · exact he
      rw [slots_ins]; split
      · rw [mem_insert]
        rintro (h' | h')
        · cases h'; exact hr' rfl
        · exact h.idle r' hr' he' _ h'
      · exact h.idle r' hr' he' m'

/-- The exception is none if the relay has callbacks. -/
theorem RelaysBut.of_ne {e : Env} {r : Nat} {s : St} (h : RelaysBut e r s) (hn : s.slots r ≠ []) : Relays e s :=
  ⟨h.cnt, h.mem, fun r' he => by
    by_cases hq : r' = r
    · subst hq; exact absurd he hn
    · exact h.idle r' hq he⟩

theorem RelaysBut.of_absent {e : Env} {r : Nat} {s : St} (h : RelaysBut e r s) (hn : ∀ m, Slot.relay r ∉ s.slots m) :
    Relays e s :=
  ⟨h.cnt, h.mem, fun r' he => by
    by_cases hq : r' = r
    · subst hq; exact hn
    · exact h.idle r' hq he⟩

theorem join_ne {e : Env} {r r' m : Nat} {s : St} (h : s.slots r' ≠ []) : (joinRelay e r s m).slots r' ≠ [] := by
  unfold joinRelay; split
  · exact h
  · rw [slots_ins]; split
    · exact insert_ne_nil _ _ _
    · exact h

theorem relays_connect {e : Env} {sig : Nat} {x : Slot} {s : St} (hx : NotRelay x) (h : Relays e s) :
    Relays e (connect e sig x s) := by
  have h1 := but_ins (e := e) (sig := sig) (x := x) hx (h.but sig)
  have hn : (ins e sig x s).slots sig ≠ [] := by rw [slots_ins, if_pos rfl]; exact insert_ne_nil _ _ _
  unfold connect; simp only; split
  · rename_i hc
    have h2 := foldl_mem (P := fun s => RelaysBut e sig s ∧ s.slots sig ≠ []) (f := joinRelay e sig) (e.members sig)
      (ins e sig x s) (fun s m hm hs => ⟨but_join hc.1 hm hs.1, join_ne hs.2⟩) ⟨h1, hn⟩
    exact h2.1.of_ne h2.2
  · exact h1.of_ne hn

/-- After `_disconnect_relay` the relay is not connected. -/
theorem leaveAll_gone {e : Env} {r : Nat} : ∀ {s : St}, RelaysBut e r s → ∀ m, Slot.relay r ∉ (leaveAll e r s).slots m := by
  have key : ∀ (l : List Nat) (s : St), (∀ m, (s.slots m).count (.relay r) ≤ 1) →
      (∀ m, Slot.relay r ∈ (l.foldl (fun s m => del m (.relay r) s) s).slots m → m ∉ l ∧ Slot.relay r ∈ s.slots m) := by
    intro l
    induction l with
    | nil => intro s _ m hm; exact ⟨by simp, hm⟩
    | cons a l ih =>
      intro s hc m hm
      have hc' : ∀ m, ((del a (.relay r) s).slots m).count (.relay r) ≤ 1 := by
        intro m; rw [slots_del]; split
        · exact Nat.le_trans (List.erase_sublist.count_le _) (hc m)
        · exact hc m
      obtain ⟨h1, h2⟩ := ih _ hc' m hm
      rw [slots_del] at h2
      split at h2
      · have : 0 < ((s.slots m).erase (.relay r)).count (.relay r) := List.count_pos_iff.mpr h2
        rw [List.count_erase_self] at this
        have := hc m; omega
      · rename_i hne
        exact ⟨by simp [h1, hne], h2⟩
  intro s h m hm
  obtain ⟨h1, h2⟩ := key (e.members r) s (fun m => h.cnt r m) m hm
  exact h1 (h.mem r m h2).2

theorem but_leaveAll {e : Env} (he : EnvOk e) {r : Nat} {s : St} (hr : e.isRelay r = true) (h : RelaysBut e r s) :
    RelaysBut e r (leaveAll e r s) :=
  foldl_mem (P := RelaysBut e r) (e.members r) s (fun _ m hm hs => but_del (.inl (he.plain r m hr hm)) hs) h

theorem relays_disconnect {e : Env} (he : EnvOk e) {sig : Nat} {x : Slot} {s : St} (h : Relays e s) :
    Relays e (disconnect e sig x s) := by
  have h1 : Relays e (if e.isRelay sig then (e.members sig).foldl (fun s m => del m x s) s else s) := by
    split
    · rename_i hr
      refine foldl_mem (P := Relays e) (e.members sig) s (fun s m hm hs => ?_) h
      have hp := he.plain sig m hr hm
      refine (but_del (x := x) (.inl hp) (hs.but m)).of_absent fun m' hm' => ?_
      have := ((but_del (x := x) (.inl hp) (hs.but m)).mem m m' hm').1
      rw [hp] at this; cases this
    · exact h
  unfold disconnect
  generalize (if e.isRelay sig then (e.members sig).foldl (fun s m => del m x s) s else s) = s1 at h1
  unfold remove; split
  · have h2 := but_del (x := x) (.inr rfl) (h1.but sig)
    simp only; split
    · rename_i hc
      exact (but_leaveAll he hc.1 h2).of_absent (leaveAll_gone h2)
    · rename_i hc
      by_cases hr : e.isRelay sig = true
      · exact h2.of_ne fun hn => hc ⟨hr, hn⟩
      · exact h2.of_absent fun m hm => hr (h2.mem _ _ hm).1
  · exact h1

theorem relays_clear {e : Env} (he : EnvOk e) {sig : Nat} {s : St} (h : Relays e s) : Relays e (clear e sig s) := by
  unfold clear
  by_cases hr : e.isRelay sig = true <;> simp only [hr, if_true, Bool.false_eq_true, if_false]
  · have h1 : RelaysBut e sig ((e.members sig).foldl (fun s m => upd s m []) s) :=
      foldl_mem (P := RelaysBut e sig) (e.members sig) s
        (fun _ m hm hs => but_upd (.inl (he.plain sig m hr hm)) hs) (h.but sig)
    have h2 := but_upd (sig := sig) (.inr rfl) h1
    exact (but_leaveAll he hr h2).of_absent (leaveAll_gone h2)
  · have h2 := but_upd (sig := sig) (.inr rfl) (h.but sig)
    exact h2.of_absent fun m hm => hr (h2.mem _ _ hm).1

theorem relays_enter {e : Env} : ∀ (ts : List Nat) {s : St}, Relays e s → Relays e (enter e ts s).2
  | [], _, h => h
  | t :: ts, s, h => by
    have h1 : Relays e (connect e t (.report s.next) s) := relays_connect (fun _ h => by cases h) h
    exact relays_enter ts (s := { connect e t (.report s.next) s with next := s.next + 1 }) ⟨h1.cnt, h1.mem, h1.idle⟩

theorem relays_leave {e : Env} (he : EnvOk e) {d : List (Nat × Nat)} {s : St} (h : Relays e s) : Relays e (leave e d s) :=
  foldl_keep (P := Relays e) (fun _ _ hs => relays_disconnect he hs) _ _ h

theorem relays_exec {e : Env} (he : EnvOk e) {order : List (Nat × Nat) → List (Nat × Nat)} (b : Body) :
    ∀ {s : St}, Relays e s → Relays e (exec e order b s).2 := by
  induction b with
  | ret => exact fun h => h
  | raise => exact fun h => h
  | look k ih => exact fun h => ih _ h
  | connect sig k b ih => exact fun h => ih (relays_connect (fun _ h => by cases h) h)
  | disconnect sig k b ih => exact fun h => ih (relays_disconnect he h)
  | clear sig b ih => exact fun h => ih (relays_clear he h)
  | monitor ts fails inner k ih ihk =>
    intro s h
    unfold exec; simp only; split
    · exact ihk _ (relays_enter ts h)
    · exact ihk _ (relays_leave he (ih (relays_enter ts h)))
  | monitorAll l inner k ih ihk =>
    intro s h
    unfold exec; simp only
    have h1 : Relays e { s with hook := some l } := ⟨h.cnt, h.mem, h.idle⟩
    have h2 : Relays e (exec e order inner { s with hook := some l }).2 := ih h1
    exact ihk _ (s := { (exec e order inner { s with hook := some l }).2 with hook := s.hook }) ⟨h2.cnt, h2.mem, h2.idle⟩

/-! ## Relays with callbacks -/

theorem mem_join {e : Env} {r m : Nat} {s : St} (n : Nat) (x : Slot) :
    x ∈ (joinRelay e r s m).slots n ↔ x ∈ s.slots n ∨ (n = m ∧ x = .relay r) := by
  unfold joinRelay; split
  · grind
  · rw [slots_ins]; split
    · rw [mem_insert]; grind
    · grind

theorem join_all {e : Env} {r : Nat} : ∀ (l : List Nat) (s : St) (n : Nat) (x : Slot),
    x ∈ (l.foldl (joinRelay e r) s).slots n ↔ x ∈ s.slots n ∨ (n ∈ l ∧ x = .relay r)
  | [], s, n, x => by simp
  | a :: l, s, n, x => by
    rw [List.foldl_cons, join_all l (joinRelay e r s a) n x, mem_join]; grind

theorem full_connect {e : Env} (he : EnvOk e) {sig : Nat} {x : Slot} {s : St} (h : Full e s) :
    Full e (connect e sig x s) := by
  intro r m hr hn hm
  unfold connect at hn ⊢
  simp only at hn ⊢
  split at hn
  · rename_i hc
    rw [if_pos hc, join_all]
    by_cases hq : r = sig
    · subst hq; exact .inr ⟨hm, rfl⟩
    · refine .inl ?_
      have hrm : ¬ r ∈ e.members sig := fun hm' => by
        have := he.plain sig r hc.1 hm'; rw [hr] at this; cases this
      have hn' : s.slots r ≠ [] := by
        intro h0
        apply hn
        apply List.eq_nil_iff_forall_not_mem.mpr
        intro y hy
        rw [join_all, slots_ins, if_neg hq, h0] at hy
        rcases hy with hy | hy
        · cases hy
        · exact hrm hy.1
      have := h r m hr hn' hm
      rw [slots_ins]; split
      · exact (mem_insert ..).mpr (.inr this)
      · exact this
  · rename_i hc
    rw [if_neg hc]
    have hn' : s.slots r ≠ [] := by
      intro h0
      rw [slots_ins] at hn
      split at hn
      · rename_i hq; subst hq
        apply hc
        rw [slots_ins, if_pos rfl, h0]
        exact ⟨hr, rfl⟩
      · exact hn h0
    have := h r m hr hn' hm
    rw [slots_ins]; split
    · exact (mem_insert ..).mpr (.inr this)
    · exact this

theorem mem_del_ne {sig n : Nat} {x y : Slot} {s : St} (h : x ≠ y) : y ∈ (del sig x s).slots n ↔ y ∈ s.slots n := by
  rw [slots_del]; split
  · exact List.mem_erase_of_ne (fun h' => h h'.symm)
  · exact Iff.rfl

theorem mem_dels_ne {x y : Slot} (h : x ≠ y) : ∀ (l : List Nat) (s : St) (n : Nat),
    y ∈ (l.foldl (fun s m => del m x s) s).slots n ↔ y ∈ s.slots n
  | [], _, _ => Iff.rfl
  | a :: l, s, n => by rw [List.foldl_cons, mem_dels_ne h l, mem_del_ne h]

theorem sub_dels {x : Slot} : ∀ (l : List Nat) (s : St) (n : Nat),
    ((l.foldl (fun s m => del m x s) s).slots n).Sublist (s.slots n)
  | [], _, _ => List.Sublist.refl _
  | a :: l, s, n => by
    refine (sub_dels l (del a x s) n).trans ?_
    rw [slots_del]; split
    · exact List.erase_sublist
    · exact List.Sublist.refl _

theorem full_disconnect {e : Env} {sig : Nat} {x : Slot} {s : St} (hx : NotRelay x) (h : Full e s) :
    Full e (disconnect e sig x s) := by
  have h1 : Full e (if e.isRelay sig then (e.members sig).foldl (fun s m => del m x s) s else s) := by
    split
    · intro r m hr hn hm
      rw [mem_dels_ne (hx r)]
      exact h r m hr (fun h0 => hn (List.sublist_nil.mp (h0 ▸ sub_dels (x := x) (e.members sig) s r))) hm
    · exact h
  unfold disconnect
  generalize (if e.isRelay sig then (e.members sig).foldl (fun s m => del m x s) s else s) = s1 at h1
  unfold remove; split
  · have h2 : ∀ r m, e.isRelay r = true → (del sig x s1).slots r ≠ [] → m ∈ e.members r →
        Slot.relay r ∈ (del sig x s1).slots m := by
      intro r m hr hn hm
      rw [mem_del_ne (hx r)]
      refine h1 r m hr (fun h0 => hn ?_) hm
      rw [slots_del]; split
      · rw [h0]; rfl
      · exact h0
    simp only; split
    · rename_i hc
      intro r m hr hn hm
      have hrs : sig ≠ r := fun hq => by
        subst hq
        have := sub_dels (x := .relay sig) (e.members sig) (del sig x s1) sig
        rw [hc.2] at this
        exact hn (List.sublist_nil.mp this)
      unfold leaveAll at hn ⊢
      rw [mem_dels_ne (fun h => hrs (by cases h; rfl))]
      exact h2 r m hr (fun h0 => hn (List.sublist_nil.mp (h0 ▸ sub_dels (x := .relay sig) (e.members sig) _ r))) hm
    · exact h2
  · exact h1

theorem slots_upds : ∀ (l : List Nat) (s : St) (n : Nat),
    (l.foldl (fun s m => upd s m []) s).slots n = if n ∈ l then [] else s.slots n
  | [], _, _ => rfl
  | a :: l, s, n => by
    rw [List.foldl_cons, slots_upds l, slots_upd]
    by_cases h1 : n ∈ l <;> by_cases h2 : n = a <;> simp [h1, h2]

theorem full_clear {e : Env} (he : EnvOk e) {sig : Nat} {s : St}
    (hs : ∀ r, e.isRelay r = true → sig ∉ e.members r) (h : Full e s) : Full e (clear e sig s) := by
  unfold clear
  by_cases hr : e.isRelay sig = true <;> simp only [hr, if_true, Bool.false_eq_true, if_false]
  · intro r m hr' hn hm
    have hsl : ∀ n, (upd ((e.members sig).foldl (fun s m => upd s m []) s) sig []).slots n
        = if n = sig ∨ n ∈ e.members sig then [] else s.slots n := by
      intro n; rw [slots_upd, slots_upds]; by_cases h1 : n = sig <;> simp [h1]
    have hsub := sub_dels (x := .relay sig) (e.members sig)
      (upd ((e.members sig).foldl (fun s m => upd s m []) s) sig []) r
    have hrs : r ≠ sig := fun hq => by
      rw [hsl, if_pos (.inl hq)] at hsub
      exact hn (List.sublist_nil.mp hsub)
    unfold leaveAll at hn ⊢
    rw [mem_dels_ne (fun h => hrs (by cases h; rfl)), hsl, if_neg]
    · refine h r m hr' (fun h0 => hn ?_) hm
      rw [hsl] at hsub
      split at hsub
      · exact List.sublist_nil.mp hsub
      · rw [h0] at hsub; exact List.sublist_nil.mp hsub
    · rintro (h1 | h1)
      · subst h1; exact hs r hr' hm
      · exact hrs (he.one r sig m hr' hr hm h1)
  · intro r m hr' hn hm
    have hrs : r ≠ sig := fun hq => by subst hq; exact hr hr'
    rw [slots_upd, if_neg hrs] at hn
    rw [slots_upd, if_neg (fun hq : m = sig => hs r hr' (hq ▸ hm))]
    exact h r m hr' hn hm

theorem full_enter {e : Env} (he : EnvOk e) : ∀ (ts : List Nat) {s : St}, Full e s → Full e (enter e ts s).2
  | [], _, h => h
  | t :: ts, s, h => by
    have h1 : Full e (connect e t (.report s.next) s) := full_connect he h
    exact full_enter he ts (s := { connect e t (.report s.next) s with next := s.next + 1 }) h1

theorem full_leave {e : Env} {d : List (Nat × Nat)} {s : St} (h : Full e s) : Full e (leave e d s) :=
  foldl_keep (P := Full e) (fun _ _ hs => full_disconnect (fun _ h => by cases h) hs) _ _ h

/-- The body disconnects all callbacks of no member of a group directly. -/
def NoClear (e : Env) : Body → Prop
  | .ret => True
  | .raise => True
  | .look k => ∀ o, NoClear e (k o)
  | .connect _ _ b => NoClear e b
  | .disconnect _ _ b => NoClear e b
  | .clear sig b => (∀ r, e.isRelay r = true → sig ∉ e.members r) ∧ NoClear e b
  | .monitor _ _ inner k => NoClear e inner ∧ ∀ o, NoClear e (k o)
  | .monitorAll _ inner k => NoClear e inner ∧ ∀ o, NoClear e (k o)

theorem full_exec {e : Env} (he : EnvOk e) {order : List (Nat × Nat) → List (Nat × Nat)} (b : Body) :
    NoClear e b → ∀ {s : St}, Full e s → Full e (exec e order b s).2 := by
  induction b with
  | ret => exact fun _ _ h => h
  | raise => exact fun _ _ h => h
  | look k ih => exact fun hb _ h => ih _ (hb _) h
  | connect sig k b ih => exact fun hb _ h => ih hb (full_connect he h)
  | disconnect sig k b ih => exact fun hb _ h => ih hb (full_disconnect (fun _ h => by cases h) h)
  | clear sig b ih => exact fun hb _ h => ih hb.2 (full_clear he hb.1 h)
  | monitor ts fails inner k ih ihk =>
    intro hb s h
    unfold exec; simp only; split
    · exact ihk _ (hb.2 _) (full_enter he ts h)
    · exact ihk _ (hb.2 _) (full_leave (ih hb.1 (full_enter he ts h)))
  | monitorAll l inner k ih ihk =>
    intro hb s h
    unfold exec; simp only
    have h1 : Full e { s with hook := some l } := h
    have h2 : Full e (exec e order inner { s with hook := some l }).2 := ih hb.1 h1
    exact ihk _ (hb.2 _) (s := { (exec e order inner { s with hook := some l }).2 with hook := s.hook }) h2

/-! ## Whole bodies -/

/-- No monitor of the body fails while looking for signals. -/
def Clean : Body → Prop
  | .ret => True
  | .raise => True
  | .look k => ∀ o, Clean (k o)
  | .connect _ _ b => Clean b
  | .disconnect _ _ b => Clean b
  | .clear _ b => Clean b
  | .monitor _ fails inner k => fails = false ∧ Clean inner ∧ ∀ o, Clean (k o)
  | .monitorAll _ inner k => Clean inner ∧ ∀ o, Clean (k o)

theorem clean_strip {b : Body} : Clean (strip b) := by
  induction b with
  | ret => trivial
  | raise => trivial
  | look k ih => exact fun o => ih o
  | connect sig k b ih => exact ih
  | disconnect sig k b ih => exact ih
  | clear sig b ih => exact ih
  | monitor ts fails inner k ih ihk => exact ⟨rfl, ih, fun o => ihk o⟩
  | monitorAll l inner k ih ihk => exact ⟨rfl, ih, fun o => ihk o⟩

theorem noClear_strip {e : Env} {b : Body} : NoClear e b → NoClear e (strip b) := by
  induction b with
  | ret => exact id
  | raise => exact id
  | look k ih => exact fun h o => ih o (h o)
  | connect sig k b ih => exact fun h => ih h
  | disconnect sig k b ih => exact fun h => ih h
  | clear sig b ih => exact fun h => ⟨h.1, ih h.2⟩
  | monitor ts fails inner k ih ihk => exact fun h => ⟨ih h.1, fun o => ihk o (h.2 o)⟩
  | monitorAll l inner k ih ihk => exact fun h => ⟨ih h.1, fun o => ihk o (h.2 o)⟩

/-- Orders of iterating a set. -/
def Order (order : List (Nat × Nat) → List (Nat × Nat)) : Prop := ∀ d, (order d).Perm d

theorem reports_exec {e : Env} {order : List (Nat × Nat) → List (Nat × Nat)} (ho : Order order) (b : Body) :
    Clean b → ∀ {s : St}, Fresh s → Fresh (exec e order b s).2 ∧ FewerReports (exec e order b s).2 s
      ∧ s.next ≤ (exec e order b s).2.next := by
  induction b with
  | ret => exact fun _ s h => ⟨h, fewer_refl s, Nat.le_refl _⟩
  | raise => exact fun _ s h => ⟨h, fewer_refl s, Nat.le_refl _⟩
  | look k ih => exact fun hb _ h => ih _ (hb _) h
  | connect sig k b ih =>
    intro hb s h
    have h1 : FewerReports (connect e sig (.user k) s) s :=
      fewer_trans (fewer_connect _ _ _ _) (fewer_ins (fun _ h => by cases h))
    have hn := next_connect e sig (.user k) s
    obtain ⟨h2, h3, h4⟩ := ih hb (fresh_of h h1 (Nat.le_of_eq hn.symm))
    exact ⟨h2, fewer_trans h3 h1, hn ▸ h4⟩
  | disconnect sig k b ih =>
    intro hb s h
    have h1 := fewer_disconnect e sig (.user k) s
    have hn := next_disconnect e sig (.user k) s
    obtain ⟨h2, h3, h4⟩ := ih hb (fresh_of h h1 (Nat.le_of_eq hn.symm))
    exact ⟨h2, fewer_trans h3 h1, hn ▸ h4⟩
  | clear sig b ih =>
    intro hb s h
    have h1 := fewer_clear e sig s
    have hn := next_clear e sig s
    obtain ⟨h2, h3, h4⟩ := ih hb (fresh_of h h1 (Nat.le_of_eq hn.symm))
    exact ⟨h2, fewer_trans h3 h1, hn ▸ h4⟩
  | monitor ts fails inner k ih ihk =>
    intro hb s h
    obtain ⟨hf, hi, hk⟩ := hb
    unfold exec; simp only; rw [if_neg (by simp [hf])]
    obtain ⟨e1, e2, e3, e4⟩ := enter_spec e ts s h
    obtain ⟨i1, i2, i3⟩ := ih hi e1
    generalize exec e order inner (enter e ts s).2 = q at i1 i2 i3
    have hl := fewer_leave e (order (enter e ts s).1) q.2
    have hn := next_leave e (order (enter e ts s).1) q.2
    have hfew : FewerReports (leave e (order (enter e ts s).1) q.2) s := by
      intro n i
      rcases e4 n i with h4 | ⟨h4, h5, _⟩
      · exact Nat.le_trans (hl n i) (Nat.le_trans (i2 n i) h4)
      · have := leave_removes e (order (enter e ts s).1) q.2 (n, i) ((ho _).mem_iff.mpr h4)
          (Nat.le_trans (i2 n i) h5)
        simp only at this; omega
    have hnx : s.next ≤ (leave e (order (enter e ts s).1) q.2).next := by omega
    obtain ⟨k1, k2, k3⟩ := ihk q.1 (hk _) (fresh_of i1 hl (Nat.le_of_eq hn.symm))
    exact ⟨k1, fewer_trans k2 hfew, Nat.le_trans hnx k3⟩
  | monitorAll l inner k ih ihk =>
    intro hb s h
    unfold exec; simp only
    have h1 : Fresh { s with hook := some l } := h
    obtain ⟨i1, i2, i3⟩ := ih hb.1 h1
    generalize exec e order inner { s with hook := some l } = q at i1 i2 i3
    obtain ⟨k1, k2, k3⟩ := ihk q.1 (hb.2 _) (s := { q.2 with hook := s.hook }) i1
    exact ⟨k1, fewer_trans k2 i2, Nat.le_trans i3 k3⟩

theorem enter_ge (e : Env) : ∀ (ts : List Nat) (s : St), (∀ p, p ∈ (enter e ts s).1 → s.next ≤ p.2)
    ∧ s.next ≤ (enter e ts s).2.next
  | [], _ => ⟨(fun _ h => by cases h), Nat.le_refl _⟩
  | t :: ts, s => by
    obtain ⟨h1, h2⟩ := enter_ge e ts { connect e t (.report s.next) s with next := s.next + 1 }
    have h2 : s.next + 1 ≤ _ := h2
    refine ⟨?_, Nat.le_trans (Nat.le_succ _) h2⟩
    intro p hp
    rcases List.mem_cons.mp hp with rfl | hp
    · exact Nat.le_refl _
    · exact Nat.le_trans (Nat.le_succ _) (h1 p hp)

theorem next_exec {e : Env} {order : List (Nat × Nat) → List (Nat × Nat)} (b : Body) :
    ∀ (s : St), s.next ≤ (exec e order b s).2.next := by
  induction b with
  | ret => exact fun _ => Nat.le_refl _
  | raise => exact fun _ => Nat.le_refl _
  | look k ih => exact fun s => ih _ s
  | connect sig k b ih => exact fun s => Nat.le_trans (Nat.le_of_eq (next_connect ..).symm) (ih _)
  | disconnect sig k b ih => exact fun s => Nat.le_trans (Nat.le_of_eq (next_disconnect ..).symm) (ih _)
  | clear sig b ih => exact fun s => Nat.le_trans (Nat.le_of_eq (next_clear ..).symm) (ih _)
  | monitor ts fails inner k ih ihk =>
    intro s
    unfold exec; simp only; split
    · exact Nat.le_trans (enter_ge e ts s).2 (ihk _ _)
    · refine Nat.le_trans (enter_ge e ts s).2 (Nat.le_trans (ih _) (Nat.le_trans ?_ (ihk _ _)))
      exact Nat.le_of_eq (next_leave ..).symm
  | monitorAll l inner k ih ihk =>
    intro s
    unfold exec; simp only
    have h1 := ih { s with hook := some l }
    generalize exec e order inner { s with hook := some l } = q at h1
    exact Nat.le_trans h1 (ihk q.1 { q.2 with hook := s.hook })

/-- With and without monitors: the same result, the same callbacks of the user. -/
theorem same_exec {e : Env} {order : List (Nat × Nat) → List (Nat × Nat)} (ho : Order order) (N : Nat) (b : Body) :
    Clean b → ∀ {s t : St}, Same N s t → AllSorted e s → AllSorted e t → N ≤ s.next → N ≤ t.next →
      (exec e order b s).1 = (exec e order (strip b) t).1
        ∧ Same N (exec e order b s).2 (exec e order (strip b) t).2 := by
  have hnil : order [] = [] := (ho []).eq_nil
  induction b with
  | ret => exact fun _ _ _ h _ _ _ _ => ⟨rfl, h⟩
  | raise => exact fun _ _ _ h _ _ _ _ => ⟨rfl, h⟩
  | look k ih =>
    intro hb s t h hs ht hn hn'
    unfold strip exec
    rw [h.users]
    exact ih _ (hb _) h hs ht hn hn'
  | connect sig k b ih =>
    intro hb s t h hs ht hn hn'
    exact ih hb (connect_same h hs ht) (sorted_connect hs) (sorted_connect ht)
      (by rw [next_connect]; exact hn) (by rw [next_connect]; exact hn')
  | disconnect sig k b ih =>
    intro hb s t h hs ht hn hn'
    exact ih hb (disconnect_same h) (sorted_disconnect hs) (sorted_disconnect ht)
      (by rw [next_disconnect]; exact hn) (by rw [next_disconnect]; exact hn')
  | clear sig b ih =>
    intro hb s t h hs ht hn hn'
    exact ih hb (clear_same h) (sorted_clear hs) (sorted_clear ht)
      (by rw [next_clear]; exact hn) (by rw [next_clear]; exact hn')
  | monitor ts fails inner k ih ihk =>
    intro hb s t h hs ht hn hn'
    obtain ⟨hf, hi, hk⟩ := hb
    unfold strip exec; simp only [enter, hnil, leave, List.foldl_nil]
    rw [if_neg (by simp [hf]), if_neg (by simp)]
    have g := enter_ge e ts s
    obtain ⟨i1, i2⟩ := ih hi (same_trans (same_enter ts s hn) h) (sorted_enter ts hs) ht (Nat.le_trans hn g.2) hn'
    have n1 := next_exec (e := e) (order := order) inner (enter e ts s).2
    have n2 := next_exec (e := e) (order := order) (strip inner) t
    have s1 := sorted_exec (order := order) inner (sorted_enter ts hs)
    have s2 := sorted_exec (order := order) (strip inner) ht
    generalize exec e order inner (enter e ts s).2 = q at i1 i2 n1 s1
    generalize exec e order (strip inner) t = q' at i1 i2 n2 s2
    rw [← i1]
    refine ihk q.1 (hk _) (same_trans (same_leave e _ _ ?_) i2) (sorted_leave s1) s2 ?_ (Nat.le_trans hn' n2)
    · intro p hp
      exact Nat.le_trans hn (g.1 p ((ho _).mem_iff.mp hp))
    · show N ≤ (leave e _ q.2).next
      rw [next_leave]; exact Nat.le_trans hn (Nat.le_trans g.2 n1)
  | monitorAll l inner k ih ihk =>
    intro hb s t h hs ht hn hn'
    unfold strip exec; simp only [enter, hnil, leave, List.foldl_nil]
    rw [if_neg (by simp)]
    obtain ⟨i1, i2⟩ := ih hb.1 (s := { s with hook := some l }) h hs ht hn hn'
    have n1 := next_exec (e := e) (order := order) inner { s with hook := some l }
    have n2 := next_exec (e := e) (order := order) (strip inner) t
    have s1 := sorted_exec (order := order) (s := { s with hook := some l }) inner hs
    have s2 := sorted_exec (order := order) (strip inner) ht
    generalize exec e order inner { s with hook := some l } = q at i1 i2 n1 s1
    generalize exec e order (strip inner) t = q' at i1 i2 n2 s2
    rw [← i1]
    exact ihk q.1 (hb.2 _) (s := { q.2 with hook := s.hook }) i2 s1 s2 (Nat.le_trans hn n1) (Nat.le_trans hn' n2)

end Psygnal.Mon
