import Verif.Monitor

/-! # Lemmas for `Verif/Monitor.lean` -/
namespace Psygnal.Mon

/-! ## Insertion -/

theorem mem_insert (e : Env) (x y : Slot) (l : List Slot) : y ∈ insert e x l ↔ y = x ∨ y ∈ l := by
  induction l with
  | nil => simp [insert]
  | cons a l ih => unfold insert; split <;> simp [ih]; grind

theorem count_insert (e : Env) (x y : Slot) (l : List Slot) :
    (insert e x l).count y = l.count y + if x = y then 1 else 0 := by
  induction l with
  | nil => simp [insert, List.count_cons]
  | cons a l ih => unfold insert; split <;> simp [ih, List.count_cons]; grind

/-- Higher priorities first. -/
def Sorted (e : Env) (l : List Slot) : Prop := l.Pairwise fun x y => e.prioOf y ≤ e.prioOf x

theorem sorted_insert {e : Env} {x : Slot} {l : List Slot} (h : Sorted e l) : Sorted e (insert e x l) := by
  unfold Sorted at *
  induction l with
  | nil => simp [insert]
  | cons a l ih =>
    obtain ⟨h1, h2⟩ := List.pairwise_cons.mp h
    unfold insert; split
    · rename_i hlt
      refine List.pairwise_cons.mpr ⟨?_, h⟩
      intro y hy
      rcases List.mem_cons.mp hy with rfl | hy
      · omega
      · have := h1 y hy; omega
    · refine List.pairwise_cons.mpr ⟨?_, ih h2⟩
      intro y hy
      rcases (mem_insert e x y l).mp hy with rfl | hy
      · omega
      · exact h1 y hy

theorem filter_insert_out {e : Env} {x : Slot} (p : Slot → Bool) (hx : p x = false) (l : List Slot) :
    (insert e x l).filter p = l.filter p := by
  induction l with
  | nil => simp [insert, hx]
  | cons a l ih => unfold insert; split <;> simp [List.filter_cons, hx, ih]

theorem filter_erase_out {x : Slot} (p : Slot → Bool) (hx : p x = false) (l : List Slot) :
    (l.erase x).filter p = l.filter p := by
  induction l with
  | nil => rfl
  | cons a l ih =>
    rw [List.erase_cons]
    by_cases h : a = x
    · subst h; simp [hx]
    · simp [h, List.filter_cons, ih]

theorem filter_erase_in {x : Slot} (p : Slot → Bool) (hx : p x = true) (l : List Slot) :
    (l.erase x).filter p = (l.filter p).erase x := by
  induction l with
  | nil => rfl
  | cons a l ih =>
    rw [List.erase_cons]
    by_cases h : a = x
    · subst h; simp [hx]
    · by_cases ha : p a = true
      · simp [h, ih, ha]
      · simp [h, ih, ha]

theorem insert_cons (e : Env) (x y : Slot) (l : List Slot) :
    insert e x (y :: l) = if e.prioOf y < e.prioOf x then x :: y :: l else y :: insert e x l := rfl

theorem insert_all_lower {e : Env} {x : Slot} : {l : List Slot} → (∀ y, y ∈ l → e.prioOf y < e.prioOf x) →
    insert e x l = x :: l
  | [], _ => rfl
  | a :: l, h => by unfold insert; rw [if_pos (h a (by simp))]

theorem filter_insert_in {e : Env} {x : Slot} (p : Slot → Bool) (hx : p x = true) {l : List Slot}
    (hs : Sorted e l) : (insert e x l).filter p = insert e x (l.filter p) := by
  unfold Sorted at hs
  induction l with
  | nil => simp [insert, hx]
  | cons a l ih =>
    obtain ⟨h1, h2⟩ := List.pairwise_cons.mp hs
    rw [insert_cons]; split
    · rename_i hlt
      rw [List.filter_cons_of_pos (by simpa using hx), insert_all_lower]
      intro y hy
      have hy := (List.mem_filter.mp hy).1
      rcases List.mem_cons.mp hy with rfl | hy
      · exact hlt
      · have := h1 y hy; omega
    · rename_i hlt
      by_cases ha : p a = true
      · rw [List.filter_cons_of_pos (by simpa using ha), List.filter_cons_of_pos (by simpa using ha), ih h2, insert_cons,
          if_neg hlt]
      · rw [List.filter_cons_of_neg (by simpa using ha), List.filter_cons_of_neg (by simpa using ha), ih h2]

/-! ## Callbacks of the user, and reports of monitors entered earlier -/

/-- Is it a callback of the user or one of the first `N` reports? -/
def ext (N : Nat) : Slot → Bool
  | .user _ => true
  | .report i => decide (i < N)
  | .relay _ => false

theorem users_eq (N : Nat) (l : List Slot) : users l = users (l.filter (ext N)) := by
  induction l with
  | nil => rfl
  | cons a l ih =>
    cases a with
    | user k =>
      rw [List.filter_cons_of_pos (by rfl)]
      simp only [users, List.filterMap_cons] at *; rw [ih]
    | relay k => simp [users, ext] at *; exact ih
    | report k =>
      by_cases hk : k < N
      · simp [users, ext, hk] at *; exact ih
      · simp [users, ext, hk] at *; exact ih

/-- Two states have the same callbacks of the user, and earlier reports, everywhere. -/
def Same (N : Nat) (s t : St) : Prop := ∀ n, (s.slots n).filter (ext N) = (t.slots n).filter (ext N)

theorem Same.users {N : Nat} {s t : St} (h : Same N s t) :
    (fun n => users (s.slots n)) = fun n => users (t.slots n) := by
  funext n; rw [users_eq N, h n, ← users_eq]

/-- All lists of slots are sorted. -/
def AllSorted (e : Env) (s : St) : Prop := ∀ n, Sorted e (s.slots n)

@[simp] theorem slots_upd (s : St) (sig : Nat) (l : List Slot) (n : Nat) :
    (upd s sig l).slots n = if n = sig then l else s.slots n := rfl

theorem slots_ins (e : Env) (sig : Nat) (x : Slot) (s : St) (n : Nat) :
    (ins e sig x s).slots n = if n = sig then insert e x (s.slots n) else s.slots n := by
  unfold ins; rw [slots_upd]; grind

theorem slots_del (sig : Nat) (x : Slot) (s : St) (n : Nat) :
    (del sig x s).slots n = if n = sig then (s.slots n).erase x else s.slots n := by
  unfold del; rw [slots_upd]; grind

/-- A property of states that the two elementary changes and `upd … []` keep is kept by folds. -/
theorem foldl_keep {α : Type} {P : St → Prop} {f : St → α → St} (h : ∀ s a, P s → P (f s a)) :
    ∀ (l : List α) (s : St), P s → P (l.foldl f s)
  | [], _, hs => hs
  | a :: l, s, hs => foldl_keep h l (f s a) (h s a hs)

/-! ## Sorting -/

theorem sorted_ins {e : Env} {sig : Nat} {x : Slot} {s : St} (h : AllSorted e s) : AllSorted e (ins e sig x s) := by
  intro n; rw [slots_ins]; split
  · exact sorted_insert (h n)
  · exact h n

theorem sorted_del {e : Env} {sig : Nat} {x : Slot} {s : St} (h : AllSorted e s) : AllSorted e (del sig x s) := by
  intro n; rw [slots_del]; split
  · exact List.Pairwise.sublist List.erase_sublist (h n)
  · exact h n

theorem sorted_join {e : Env} {r : Nat} {s : St} {m : Nat} (h : AllSorted e s) : AllSorted e (joinRelay e r s m) := by
  unfold joinRelay; split
  · exact h
  · exact sorted_ins h

theorem sorted_connect {e : Env} {sig : Nat} {x : Slot} {s : St} (h : AllSorted e s) :
    AllSorted e (connect e sig x s) := by
  unfold connect; simp only; split
  · exact foldl_keep (P := AllSorted e) (fun s m hs => sorted_join hs) _ _ (sorted_ins h)
  · exact sorted_ins h

theorem sorted_leaveAll {e : Env} {r : Nat} {s : St} (h : AllSorted e s) : AllSorted e (leaveAll e r s) :=
  foldl_keep (P := AllSorted e) (fun _ _ hs => sorted_del hs) _ _ h

theorem sorted_remove {e : Env} {sig : Nat} {x : Slot} {s : St} (h : AllSorted e s) :
    AllSorted e (remove e sig x s) := by
  unfold remove; split
  · simp only; split
    · exact sorted_leaveAll (sorted_del h)
    · exact sorted_del h
  · exact h

theorem sorted_disconnect {e : Env} {sig : Nat} {x : Slot} {s : St} (h : AllSorted e s) :
    AllSorted e (disconnect e sig x s) := by
  unfold disconnect
  refine sorted_remove ?_
  split
  · exact foldl_keep (P := AllSorted e) (fun _ _ hs => sorted_del hs) _ _ h
  · exact h

theorem sorted_upd {e : Env} {sig : Nat} {s : St} (h : AllSorted e s) : AllSorted e (upd s sig []) := by
  intro n; rw [slots_upd]; split
  · exact List.Pairwise.nil
  · exact h n

theorem sorted_clear {e : Env} {sig : Nat} {s : St} (h : AllSorted e s) : AllSorted e (clear e sig s) := by
  unfold clear
  have h1 : AllSorted e (if e.isRelay sig then (e.members sig).foldl (fun s m => upd s m []) s else s) := by
    split
    · exact foldl_keep (P := AllSorted e) (fun _ _ hs => sorted_upd hs) _ _ h
    · exact h
  by_cases hr : e.isRelay sig = true <;> simp only [hr, if_true, Bool.false_eq_true, if_false] at h1 ⊢
  · exact sorted_leaveAll (sorted_upd h1)
  · exact sorted_upd h1

theorem sorted_enter {e : Env} : ∀ (ts : List Nat) {s : St}, AllSorted e s → AllSorted e (enter e ts s).2
  | [], _, h => h
  | t :: ts, s, h => sorted_enter ts (s := { connect e t (.report s.next) s with next := s.next + 1 })
      (fun n => sorted_connect h n)

theorem sorted_leave {e : Env} {d : List (Nat × Nat)} {s : St} (h : AllSorted e s) : AllSorted e (leave e d s) :=
  foldl_keep (P := AllSorted e) (fun _ _ hs => sorted_disconnect hs) _ _ h

theorem sorted_exec {e : Env} {order : List (Nat × Nat) → List (Nat × Nat)} (b : Body) :
    ∀ {s : St}, AllSorted e s → AllSorted e (exec e order b s).2 := by
  induction b with
  | ret => exact fun h => h
  | raise => exact fun h => h
  | look k ih => exact fun h => ih _ h
  | connect sig k b ih => exact fun h => ih (sorted_connect h)
  | disconnect sig k b ih => exact fun h => ih (sorted_disconnect h)
  | clear sig b ih => exact fun h => ih (sorted_clear h)
  | monitor ts fails inner k ih ihk =>
    intro s h
    unfold exec; simp only; split
    · exact ihk _ (sorted_enter ts h)
    · exact ihk _ (sorted_leave (ih (sorted_enter ts h)))
  | monitorAll l inner k ih ihk =>
    intro s h
    unfold exec; simp only
    have h1 : AllSorted e { s with hook := some l } := h
    have h2 : AllSorted e (exec e order inner { s with hook := some l }).2 := ih h1
    exact ihk _ (s := { (exec e order inner { s with hook := some l }).2 with hook := s.hook }) h2

/-! ## Users are not touched by monitors -/

theorem same_foldl_right {N : Nat} {α : Type} {f : St → α → St} (h : ∀ s a, Same N (f s a) s) :
    ∀ (l : List α) (s : St), Same N (l.foldl f s) s
  | [], _ => fun _ => rfl
  | a :: l, s => fun n => (same_foldl_right h l (f s a) n).trans (h s a n)

theorem same_ins {N : Nat} {e : Env} {sig : Nat} {x : Slot} {s : St} (hx : ext N x = false) : Same N (ins e sig x s) s := by
  intro n; rw [slots_ins]; split
  · exact filter_insert_out _ hx _
  · rfl

theorem same_del {N : Nat} {sig : Nat} {x : Slot} {s : St} (hx : ext N x = false) : Same N (del sig x s) s := by
  intro n; rw [slots_del]; split
  · exact filter_erase_out _ hx _
  · rfl

theorem same_trans {N : Nat} {s t u : St} (h : Same N s t) (h' : Same N t u) : Same N s u :=
  fun n => (h n).trans (h' n)

theorem same_symm {N : Nat} {s t : St} (h : Same N s t) : Same N t s := fun n => (h n).symm

theorem same_join {N : Nat} {e : Env} {r : Nat} {s : St} {m : Nat} : Same N (joinRelay e r s m) s := by
  unfold joinRelay; split
  · exact fun _ => rfl
  · exact same_ins rfl

/-- `connect` is, for the user, an insertion in one signal. -/
theorem same_connect {N : Nat} (e : Env) (sig : Nat) (x : Slot) (s : St) :
    Same N (connect e sig x s) (ins e sig x s) := by
  unfold connect; simp only; split
  · exact same_foldl_right (fun _ _ => same_join) _ _
  · exact fun _ => rfl

theorem same_leaveAll {N : Nat} (e : Env) (r : Nat) (s : St) : Same N (leaveAll e r s) s :=
  same_foldl_right (fun _ _ => same_del rfl) _ _

theorem same_remove {N : Nat} (e : Env) (sig : Nat) (x : Slot) (s : St) : Same N (remove e sig x s) (del sig x s) := by
  unfold remove; split
  · simp only; split
    · exact same_leaveAll _ _ _
    · exact fun _ => rfl
  · rename_i h
    intro n; rw [slots_del]; split
    · rename_i hn; subst hn; rw [List.erase_of_not_mem h]
    · rfl

theorem same_enter {N : Nat} {e : Env} : ∀ (ts : List Nat) (s : St), N ≤ s.next → Same N (enter e ts s).2 s
  | [], _, _ => fun _ => rfl
  | t :: ts, s, hN => by
    have h1 := same_enter (e := e) ts { connect e t (.report s.next) s with next := s.next + 1 }
      (Nat.le_trans hN (Nat.le_succ _))
    have h2 : Same N (connect e t (.report s.next) s) s :=
      same_trans (same_connect e t _ s) (same_ins (by simpa [ext] using hN))
    exact fun n => (h1 n).trans (h2 n)

theorem same_disconnect_report {N : Nat} (e : Env) (sig i : Nat) (s : St) (hi : N ≤ i) :
    Same N (disconnect e sig (.report i) s) s := by
  have hx : ext N (.report i) = false := by simpa [ext] using hi
  unfold disconnect
  refine same_trans (same_remove _ _ _ _) (same_trans (same_del hx) ?_)
  split
  · exact same_foldl_right (fun _ _ => same_del hx) _ _
  · exact fun _ => rfl

theorem same_leave {N : Nat} (e : Env) : ∀ (d : List (Nat × Nat)) (s : St), (∀ p, p ∈ d → N ≤ p.2) →
    Same N (leave e d s) s
  | [], _, _ => fun _ => rfl
  | p :: d, s, h => same_trans (same_leave e d _ fun q hq => h q (List.mem_cons_of_mem _ hq))
      (same_disconnect_report e p.1 p.2 s (h p (List.mem_cons_self ..)))

/-! ## The same operation on states with the same users -/

theorem ins_same {N : Nat} {e : Env} {sig k : Nat} {s t : St} (h : Same N s t) (hs : AllSorted e s) (ht : AllSorted e t) :
    Same N (ins e sig (.user k) s) (ins e sig (.user k) t) := by
  intro n; rw [slots_ins, slots_ins]; split
  · rw [filter_insert_in (ext N) rfl (hs n), filter_insert_in (ext N) rfl (ht n), h n]
  · exact h n

theorem del_same {N : Nat} {sig k : Nat} {s t : St} (h : Same N s t) :
    Same N (del sig (.user k) s) (del sig (.user k) t) := by
  intro n; rw [slots_del, slots_del]; split
  · rw [filter_erase_in (ext N) rfl, filter_erase_in (ext N) rfl, h n]
  · exact h n

theorem upd_same {N : Nat} {sig : Nat} {s t : St} (h : Same N s t) : Same N (upd s sig []) (upd t sig []) := by
  intro n; rw [slots_upd, slots_upd]; split
  · rfl
  · exact h n

theorem foldl_same {N : Nat} {α : Type} {f : St → α → St} (hf : ∀ s t a, Same N s t → Same N (f s a) (f t a)) :
    ∀ (l : List α) {s t : St}, Same N s t → Same N (l.foldl f s) (l.foldl f t)
  | [], _, _, h => h
  | a :: l, _, _, h => foldl_same hf l (hf _ _ a h)

theorem connect_same {N : Nat} {e : Env} {sig k : Nat} {s t : St} (h : Same N s t) (hs : AllSorted e s) (ht : AllSorted e t) :
    Same N (connect e sig (.user k) s) (connect e sig (.user k) t) :=
  same_trans (same_connect _ _ _ _) (same_trans (ins_same h hs ht) (same_symm (same_connect _ _ _ _)))

theorem disconnect_same {N : Nat} {e : Env} {sig k : Nat} {s t : St} (h : Same N s t) :
    Same N (disconnect e sig (.user k) s) (disconnect e sig (.user k) t) := by
  unfold disconnect
  refine same_trans (same_remove _ _ _ _) (same_trans (del_same ?_) (same_symm (same_remove _ _ _ _)))
  split
  · exact foldl_same (f := fun s m => del m (.user k) s) (fun _ _ _ h => del_same h) _ h
  · exact h

theorem clear_same {N : Nat} {e : Env} {sig : Nat} {s t : St} (h : Same N s t) :
    Same N (clear e sig s) (clear e sig t) := by
  unfold clear
  by_cases hr : e.isRelay sig = true <;> simp only [hr, if_true, Bool.false_eq_true, if_false]
  · refine same_trans (same_leaveAll _ _ _) (same_trans (upd_same ?_) (same_symm (same_leaveAll _ _ _)))
    exact foldl_same (f := fun s m => upd s m []) (fun _ _ _ h => upd_same h) _ h
  · exact upd_same h

/-! ## Reports -/

/-- At most as many reports as in another state. -/
def FewerReports (s t : St) : Prop := ∀ n i, (s.slots n).count (.report i) ≤ (t.slots n).count (.report i)

theorem fewer_trans {s t u : St} (h : FewerReports s t) (h' : FewerReports t u) : FewerReports s u :=
  fun n i => Nat.le_trans (h n i) (h' n i)

theorem fewer_refl (s : St) : FewerReports s s := fun _ _ => Nat.le_refl _

theorem fewer_foldl {α : Type} {f : St → α → St} (h : ∀ s a, FewerReports (f s a) s) :
    ∀ (l : List α) (s : St), FewerReports (l.foldl f s) s
  | [], s => fewer_refl s
  | a :: l, s => fewer_trans (fewer_foldl h l (f s a)) (h s a)

theorem fewer_ins {e : Env} {sig : Nat} {x : Slot} {s : St} (hx : ∀ i, x ≠ .report i) : FewerReports (ins e sig x s) s := by
  intro n i; rw [slots_ins]; split
  · rw [count_insert, if_neg (hx i)]; exact Nat.le_refl _
  · exact Nat.le_refl _

theorem fewer_del {sig : Nat} {x : Slot} {s : St} : FewerReports (del sig x s) s := by
  intro n i; rw [slots_del]; split
  · exact List.Sublist.count_le _ List.erase_sublist
  · exact Nat.le_refl _

theorem fewer_upd {sig : Nat} {s : St} : FewerReports (upd s sig []) s := by
  intro n i; rw [slots_upd]; split
  · simp
  · exact Nat.le_refl _

theorem fewer_join {e : Env} {r : Nat} {s : St} {m : Nat} : FewerReports (joinRelay e r s m) s := by
  unfold joinRelay; split
  · exact fewer_refl s
  · exact fewer_ins (fun _ h => by cases h)

theorem fewer_connect (e : Env) (sig : Nat) (x : Slot) (s : St) : FewerReports (connect e sig x s) (ins e sig x s) := by
  unfold connect; simp only; split
  · exact fewer_foldl (fun _ _ => fewer_join) _ _
  · exact fewer_refl _

theorem fewer_leaveAll (e : Env) (r : Nat) (s : St) : FewerReports (leaveAll e r s) s :=
  fewer_foldl (fun _ _ => fewer_del) _ _

theorem fewer_remove (e : Env) (sig : Nat) (x : Slot) (s : St) : FewerReports (remove e sig x s) (del sig x s) := by
  unfold remove; split
  · simp only; split
    · exact fewer_leaveAll _ _ _
    · exact fewer_refl _
  · rename_i h
    intro n i; rw [slots_del]; split
    · rename_i hn; subst hn; rw [List.erase_of_not_mem h]; exact Nat.le_refl _
    · exact Nat.le_refl _

theorem fewer_before (e : Env) (sig : Nat) (x : Slot) (s : St) :
    FewerReports (if e.isRelay sig then (e.members sig).foldl (fun s m => del m x s) s else s) s := by
  split
  · exact fewer_foldl (fun _ _ => fewer_del) _ _
  · exact fewer_refl _

theorem fewer_disconnect (e : Env) (sig : Nat) (x : Slot) (s : St) : FewerReports (disconnect e sig x s) s := by
  unfold disconnect
  exact fewer_trans (fewer_remove _ _ _ _) (fewer_trans fewer_del (fewer_before _ _ _ _))

/-- Disconnecting a report lowers its number. -/
theorem disconnect_report (e : Env) (sig i : Nat) (s : St) :
    ((disconnect e sig (.report i) s).slots sig).count (.report i) ≤ (s.slots sig).count (.report i) - 1 := by
  unfold disconnect
  refine Nat.le_trans (fewer_remove _ _ _ _ sig i) ?_
  rw [slots_del, if_pos rfl, List.count_erase_self]
  exact Nat.sub_le_sub_right (fewer_before _ _ _ _ sig i) 1

theorem fewer_clear (e : Env) (sig : Nat) (s : St) : FewerReports (clear e sig s) s := by
  unfold clear
  by_cases hr : e.isRelay sig = true <;> simp only [hr, if_true, Bool.false_eq_true, if_false]
  · exact fewer_trans (fewer_leaveAll _ _ _) (fewer_trans fewer_upd (fewer_foldl (fun _ _ => fewer_upd) _ _))
  · exact fewer_upd

theorem fewer_leave (e : Env) (d : List (Nat × Nat)) (s : St) : FewerReports (leave e d s) s :=
  fewer_foldl (fun _ _ => fewer_disconnect _ _ _ _) _ _

theorem leave_removes (e : Env) : ∀ (d : List (Nat × Nat)) (s : St) (p : Nat × Nat), p ∈ d →
    (s.slots p.1).count (.report p.2) ≤ 1 → ((leave e d s).slots p.1).count (.report p.2) = 0
  | q :: d, s, p, hp, h1 => by
    have hl := fewer_leave e d (disconnect e q.1 (.report q.2) s) p.1 p.2
    rcases List.mem_cons.mp hp with rfl | hp
    · have := disconnect_report e p.1 p.2 s
      show ((leave e d (disconnect e p.1 (.report p.2) s)).slots p.1).count _ = 0
      omega
    · exact leave_removes e d _ p hp (Nat.le_trans (fewer_disconnect _ _ _ _ p.1 p.2) h1)

@[simp] theorem next_foldl {α : Type} {f : St → α → St} (h : ∀ s a, (f s a).next = s.next) :
    ∀ (l : List α) (s : St), (l.foldl f s).next = s.next
  | [], _ => rfl
  | a :: l, s => (next_foldl h l (f s a)).trans (h s a)

theorem next_join (e : Env) (r : Nat) (s : St) (m : Nat) : (joinRelay e r s m).next = s.next := by
  unfold joinRelay; split <;> rfl

theorem next_connect (e : Env) (sig : Nat) (x : Slot) (s : St) : (connect e sig x s).next = s.next := by
  unfold connect; simp only; split
  · exact (next_foldl (fun _ _ => next_join _ _ _ _) _ _).trans rfl
  · rfl

theorem next_leaveAll (e : Env) (r : Nat) (s : St) : (leaveAll e r s).next = s.next :=
  next_foldl (f := fun s m => del m (.relay r) s) (fun _ _ => rfl) _ _

theorem next_remove (e : Env) (sig : Nat) (x : Slot) (s : St) : (remove e sig x s).next = s.next := by
  unfold remove; split
  · simp only; split
    · exact (next_leaveAll _ _ _).trans rfl
    · rfl
  · rfl

theorem next_disconnect (e : Env) (sig : Nat) (x : Slot) (s : St) : (disconnect e sig x s).next = s.next := by
  unfold disconnect; rw [next_remove]; split
  · exact next_foldl (f := fun s m => del m x s) (fun _ _ => rfl) _ _
  · rfl

theorem next_clear (e : Env) (sig : Nat) (s : St) : (clear e sig s).next = s.next := by
  unfold clear
  by_cases hr : e.isRelay sig = true <;> simp only [hr, if_true, Bool.false_eq_true, if_false]
  · rw [next_leaveAll]; exact next_foldl (f := fun s m => upd s m []) (fun _ _ => rfl) _ _
  · rfl

theorem next_leave (e : Env) (d : List (Nat × Nat)) (s : St) : (leave e d s).next = s.next :=
  next_foldl (fun _ _ => next_disconnect _ _ _ _) _ _

/-- Reports made later do not exist yet. -/
def Fresh (s : St) : Prop := ∀ n i, s.next ≤ i → (s.slots n).count (.report i) = 0

theorem fresh_of {s t : St} (h : Fresh t) (hf : FewerReports s t) (hn : t.next ≤ s.next) : Fresh s := by
  intro n i hi
  have := h n i (by omega); have := hf n i; omega

theorem connect_report_count (e : Env) (t : Nat) (s : St) (n i : Nat) :
    ((connect e t (.report s.next) s).slots n).count (.report i)
      ≤ (s.slots n).count (.report i) + if n = t ∧ i = s.next then 1 else 0 := by
  refine Nat.le_trans (fewer_connect e t _ s n i) ?_
  rw [slots_ins]; split
  · rw [count_insert]; grind
  · omega

/-- Entering: new reports, once each, and nothing else. -/
theorem enter_spec (e : Env) : ∀ (ts : List Nat) (s : St), Fresh s →
    Fresh (enter e ts s).2 ∧ s.next ≤ (enter e ts s).2.next
      ∧ (∀ p, p ∈ (enter e ts s).1 → s.next ≤ p.2)
      ∧ ∀ n i, (((enter e ts s).2.slots n).count (.report i) ≤ (s.slots n).count (.report i))
        ∨ ((n, i) ∈ (enter e ts s).1 ∧ ((enter e ts s).2.slots n).count (.report i) ≤ 1 ∧ s.next ≤ i)
  | [], s, h => ⟨h, Nat.le_refl _, (fun _ hp => by cases hp), fun _ _ => .inl (Nat.le_refl _)⟩
  | t :: ts, s, h => by
    let s1 : St := { connect e t (.report s.next) s with next := s.next + 1 }
    have hc : ∀ n i, (s1.slots n).count (.report i)
        ≤ (s.slots n).count (.report i) + if n = t ∧ i = s.next then 1 else 0 :=
      connect_report_count e t s
    have hf : Fresh s1 := by
      intro n i hi
      have h1 := hc n i
      have hi : s.next + 1 ≤ i := hi
      have h2 := h n i (by omega)
      rw [if_neg (by omega)] at h1
      omega
    obtain ⟨h1, h2, h3, h4⟩ := enter_spec e ts s1 hf
    have h2 : s.next + 1 ≤ _ := h2
    refine ⟨h1, Nat.le_trans (Nat.le_succ _) h2, ?_, ?_⟩
    · intro p hp
      rcases List.mem_cons.mp hp with rfl | hp
      · exact Nat.le_refl _
      · exact Nat.le_trans (Nat.le_succ _) (h3 p hp)
    · intro n i
      have hc := hc n i
      rcases h4 n i with h4 | ⟨h4, h5, h6⟩
      · by_cases hq : n = t ∧ i = s.next
        · obtain ⟨rfl, rfl⟩ := hq
          rw [if_pos ⟨rfl, rfl⟩, h n s.next (Nat.le_refl _)] at hc
          exact .inr ⟨List.mem_cons_self .., Nat.le_trans h4 hc, Nat.le_refl _⟩
        · rw [if_neg hq] at hc
          exact .inl (Nat.le_trans h4 hc)
      · have h6 : s.next + 1 ≤ i := h6
        exact .inr ⟨List.mem_cons_of_mem _ h4, h5, by omega⟩

end Psygnal.Mon
