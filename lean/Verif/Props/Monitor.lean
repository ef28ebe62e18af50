import Verif.MonitorInv

/-! # C44: `monitor_events` leaves no trace -/
namespace Psygnal.Mon

/-! ## The debug hook -/

/-- **C44** (hook).  After any code, with any monitors in it, returning or raising, the global hook is
what it was. -/
theorem C44_hook {e : Env} {order : List (Nat × Nat) → List (Nat × Nat)} (b : Body) :
    ∀ (s : St), (exec e order b s).2.hook = s.hook := by
  have hfold : ∀ {α : Type} {f : St → α → St}, (∀ s a, (f s a).hook = s.hook) →
      ∀ (l : List α) (s : St), (l.foldl f s).hook = s.hook := by
    intro α f h l
    induction l with
    | nil => exact fun _ => rfl
    | cons a l ih => exact fun s => (ih (f s a)).trans (h s a)
  have hconn : ∀ sig x s, (connect e sig x s).hook = s.hook := by
    intro sig x s
    unfold connect; simp only; split
    · exact (hfold (fun s m => by unfold joinRelay; split <;> rfl) _ _).trans rfl
    · rfl
  have hleave : ∀ r s, (leaveAll e r s).hook = s.hook :=
    fun r s => hfold (f := fun s m => del m (.relay r) s) (fun _ _ => rfl) _ _
  have hdisc : ∀ sig x s, (disconnect e sig x s).hook = s.hook := by
    intro sig x s
    have h1 : (if e.isRelay sig then (e.members sig).foldl (fun s m => del m x s) s else s).hook = s.hook := by
      split
      · exact hfold (f := fun s m => del m x s) (fun _ _ => rfl) _ _
      · rfl
    unfold disconnect
    generalize (if e.isRelay sig then (e.members sig).foldl (fun s m => del m x s) s else s) = s1 at h1
    unfold remove; split
    · simp only; split
      · exact (hleave _ _).trans h1
      · exact h1
    · exact h1
  have hclear : ∀ sig s, (clear e sig s).hook = s.hook := by
    intro sig s
    unfold clear
    by_cases hr : e.isRelay sig = true <;> simp only [hr, if_true, Bool.false_eq_true, if_false]
    · exact (hleave _ _).trans (hfold (f := fun s m => upd s m []) (fun _ _ => rfl) _ _)
    · rfl
  have henter : ∀ ts s, (enter e ts s).2.hook = s.hook := by
    intro ts
    induction ts with
    | nil => exact fun _ => rfl
    | cons t ts ih => exact fun s => (ih _).trans (hconn t _ s)
  induction b with
  | ret => exact fun _ => rfl
  | raise => exact fun _ => rfl
  | look k ih => exact fun s => ih _ s
  | connect sig k b ih => exact fun s => (ih _).trans (hconn ..)
  | disconnect sig k b ih => exact fun s => (ih _).trans (hdisc ..)
  | clear sig b ih => exact fun s => (ih _).trans (hclear ..)
  | monitor ts fails inner k ih ihk =>
    intro s
    unfold exec; simp only; split
    · exact (ihk _ _).trans (henter ..)
    · refine (ihk _ _).trans (Eq.trans ?_ ((ih (enter e ts s).2).trans (henter ts s)))
      exact hfold (f := fun s (p : Nat × Nat) => disconnect e p.1 (.report p.2) s) (fun s p => hdisc p.1 (.report p.2) s) _ _
  | monitorAll l inner k ih ihk =>
    intro s
    unfold exec
    exact ihk _ _

/-! ## Connections -/

/-- A signal 0, a group with relay 1 and members 2 and 3; callback 9 has a high priority. -/
def demoEnv : Env where
  prio k := if k = 9 then 5 else 0
  isRelay n := n == 1
  members n := if n = 1 then [2, 3] else []

theorem demoEnv_ok : EnvOk demoEnv := by
  constructor
  · intro r m hr hm
    have hr : r = 1 := by simpa [demoEnv] using hr
    subst hr
    have hm : m = 2 ∨ m = 3 := by simpa [demoEnv] using hm
    rcases hm with rfl | rfl <;> rfl
  · intro r r' m hr hr' _ _
    have hr : r = 1 := by simpa [demoEnv] using hr
    have hr' : r' = 1 := by simpa [demoEnv] using hr'
    rw [hr, hr']

/-- Two callbacks at signal 0, one at member 2, one at the relay, which is connected to the members;
another monitor was entered before. -/
def demoSt : St where
  slots n := if n = 0 then [.user 9, .user 5, .report 0]
    else if n = 1 then [.user 4]
    else if n = 2 then [.user 6, .relay 1]
    else if n = 3 then [.relay 1] else []
  hook := some 77
  next := 1

/-- What a program may start from: nothing connected (specification). -/
def start : St := { slots := fun _ => [], hook := none, next := 0 }

/-- The states properties are about: what can be reached from nothing (specification). -/
structure Ok (e : Env) (s : St) : Prop where
  sorted : AllSorted e s
  fresh : Fresh s
  relays : Relays e s

theorem ok_start (e : Env) : Ok e start :=
  ⟨fun _ => List.Pairwise.nil, fun _ _ _ => rfl,
   ⟨fun _ _ => Nat.zero_le _, (fun _ _ h => by cases h), (fun _ _ _ h => by cases h)⟩⟩

/-- Every state reached by any code with any monitors, also in the middle, is such a state; so the
hypotheses below are met by every program. -/
theorem C44_reachable {e : Env} (he : EnvOk e) {order : List (Nat × Nat) → List (Nat × Nat)} (ho : Order order)
    {b : Body} (hb : Clean b) {s : St} (h : Ok e s) : Ok e (exec e order b s).2 :=
  ⟨sorted_exec b h.sorted, (reports_exec ho b hb h.fresh).1, relays_exec he b h.relays⟩

/-- **C44** (callbacks).  Any code with any monitors in it, nested, on any objects, with any exits, does the
same as the code without them: same result, and at every signal the same callbacks in the same order,
including the reports of monitors entered before; and its own reports are all gone.  Not said here: which
relays of groups are connected, see below.  Hypothesis: looking for signals does not raise. -/
theorem C44_callbacks_partial {e : Env} {order : List (Nat × Nat) → List (Nat × Nat)} (ho : Order order)
    {b : Body} (hb : Clean b) {s : St} (hs : AllSorted e s) (hf : Fresh s) :
    (exec e order b s).1 = (exec e order (strip b) s).1
      ∧ ∀ n, ((exec e order b s).2.slots n).filter (fun x => x matches .user _ | .report _)
        = ((exec e order (strip b) s).2.slots n).filter (fun x => x matches .user _ | .report _) := by
  obtain ⟨h1, h2⟩ := same_exec (e := e) ho s.next b hb (s := s) (t := s) (fun _ => rfl) hs hs (Nat.le_refl _) (Nat.le_refl _)
  refine ⟨h1, fun n => ?_⟩
  have key : ∀ t : St, FewerReports t s → (t.slots n).filter (fun x => x matches .user _ | .report _)
      = (t.slots n).filter (ext s.next) := by
    intro t ht
    apply List.filter_congr
    intro x hx
    cases x with
    | user k => rfl
    | relay r => rfl
    | report i =>
      have h3 : 0 < (t.slots n).count (.report i) := List.count_pos_iff.mpr hx
      have h4 := ht n i
      have h5 : i < s.next := Nat.lt_of_not_le fun h => by have := hf n i h; omega
      simp [ext, h5]
  rw [key _ (reports_exec ho b hb hf).2.1, key _ (reports_exec ho (strip b) clean_strip hf).2.1, h2 n]

/-- **C44** (groups).  If moreover every relay with callbacks is connected to all its members, and the code
never disconnects everything from a member of a group, then the connections afterwards are exactly those
without monitors, relays included (as a set: the position of a relay among the slots of a member may
differ). -/
theorem C44_partial {e : Env} (he : EnvOk e) {order : List (Nat × Nat) → List (Nat × Nat)} (ho : Order order)
    {b : Body} (hb : Clean b) (hc : NoClear e b) {s : St} (h : Ok e s) (hfull : Full e s) (n : Nat) :
    ((exec e order b s).2.slots n).Perm ((exec e order (strip b) s).2.slots n) := by
  have hcb := (C44_callbacks_partial (e := e) ho hb h.sorted h.fresh).2
  have r1 := relays_exec he (order := order) b h.relays
  have r2 := relays_exec he (order := order) (strip b) h.relays
  have f1 := full_exec he (order := order) b hc hfull
  have f2 := full_exec he (order := order) (strip b) (noClear_strip hc) hfull
  generalize (exec e order b s).2 = t1 at hcb r1 f1
  generalize (exec e order (strip b) s).2 = t2 at hcb r2 f2
  rw [List.perm_iff_count]
  have hne : ∀ x, ¬ (∃ r, x = Slot.relay r) → ∀ m, (t1.slots m).count x = (t2.slots m).count x := by
    intro x hx m
    have hp : (fun x : Slot => x matches .user _ | .report _) x = true := by
      cases x with
      | user k => rfl
      | report k => rfl
      | relay r => exact absurd ⟨r, rfl⟩ hx
    rw [← List.count_filter (p := fun x : Slot => x matches .user _ | .report _) hp, hcb m,
      List.count_filter (p := fun x : Slot => x matches .user _ | .report _) hp]
  intro x
  by_cases hx : ∃ r, x = Slot.relay r
  · obtain ⟨r, rfl⟩ := hx
    -- a relay is connected to `n` iff it has callbacks
    have hiff : ∀ (t : St), Relays e t → Full e t →
        (Slot.relay r ∈ t.slots n ↔ e.isRelay r = true ∧ n ∈ e.members r ∧ t.slots r ≠ []) := by
      intro t ht hft
      refine ⟨fun hm => ?_, fun ⟨a, b, c⟩ => hft r n a c b⟩
      obtain ⟨a, b⟩ := ht.mem r n hm
      exact ⟨a, b, fun h0 => ht.idle r h0 n hm⟩
    have hnil : ∀ (t t' : St), Relays e t → (∀ x, ¬ (∃ r, x = Slot.relay r) → ∀ m, (t.slots m).count x = (t'.slots m).count x) →
        e.isRelay r = true → t'.slots r = [] → t.slots r = [] := by
      intro t t' ht hcnt hr h0
      apply List.eq_nil_iff_forall_not_mem.mpr
      intro y hy
      by_cases hyr : ∃ r', y = Slot.relay r'
      · obtain ⟨r', rfl⟩ := hyr
        obtain ⟨a, b⟩ := ht.mem r' r hy
        have := he.plain r' r a b
        rw [hr] at this; cases this
      · have h1 : 0 < (t.slots r).count y := List.count_pos_iff.mpr hy
        rw [hcnt y hyr r, h0] at h1
        simp at h1
    have hsame : Slot.relay r ∈ t1.slots n ↔ Slot.relay r ∈ t2.slots n := by
      rw [hiff t1 r1 f1, hiff t2 r2 f2]
      constructor
      · rintro ⟨a, b, c⟩
        exact ⟨a, b, fun h0 => c (hnil t1 t2 r1 hne a h0)⟩
      · rintro ⟨a, b, c⟩
        exact ⟨a, b, fun h0 => c (hnil t2 t1 r2 (fun x hx m => (hne x hx m).symm) a h0)⟩
    by_cases hm : Slot.relay r ∈ t1.slots n
    · have a := List.count_pos_iff.mpr hm
      have b := List.count_pos_iff.mpr (hsame.mp hm)
      have c := r1.cnt r n
      have d := r2.cnt r n
      omega
    · rw [List.count_eq_zero_of_not_mem hm, List.count_eq_zero_of_not_mem (fun h => hm (hsame.mpr h))]
  · exact hne x hx n

/-- The code changes no connections itself; it may look, raise, and have monitors. -/
def Quiet : Body → Prop
  | .ret => True
  | .raise => True
  | .look k => ∀ o, Quiet (k o)
  | .connect .. => False
  | .disconnect .. => False
  | .clear .. => False
  | .monitor _ fails inner k => fails = false ∧ Quiet inner ∧ ∀ o, Quiet (k o)
  | .monitorAll _ inner k => Quiet inner ∧ ∀ o, Quiet (k o)

/-- Entering and leaving a monitor, with nothing connected in between: every list of slots is as before,
position by position. -/
theorem enter_leave {e : Env} (he : EnvOk e) {order : List (Nat × Nat) → List (Nat × Nat)} (ho : Order order)
    (ts : List Nat) {s q : St} (h : Ok e s) (hq : q.slots = (enter e ts s).2.slots) :
    (leave e (order (enter e ts s).1) q).slots = s.slots := by
  -- what is kept: everything but new reports and relays without callbacks
  let keep : Slot → Bool := fun
    | .user _ => true
    | .report i => decide (i < s.next)
    | .relay r => decide (s.slots r ≠ [])
  let K : St → Prop := fun t => ∀ n, (t.slots n).filter keep = s.slots n
  have kstart : K s := by
    intro n
    rw [List.filter_eq_self]
    intro x hx
    cases x with
    | user k => rfl
    | report i =>
      have h3 : 0 < (s.slots n).count (.report i) := List.count_pos_iff.mpr hx
      have h5 : i < s.next := Nat.lt_of_not_le fun h' => by have := h.fresh n i h'; omega
      simp [keep, h5]
    | relay r =>
      have h5 : s.slots r ≠ [] := fun h0 => h.relays.idle r h0 n hx
      simp [keep, h5]
  have kins : ∀ sig x t, keep x = false → K t → K (ins e sig x t) := by
    intro sig x t hx hk n; rw [slots_ins]; split
    · rw [filter_insert_out keep hx]; exact hk n
    · exact hk n
  have kdel : ∀ sig x t, keep x = false → K t → K (del sig x t) := by
    intro sig x t hx hk n; rw [slots_del]; split
    · rw [filter_erase_out keep hx]; exact hk n
    · exact hk n
  have kconn : ∀ sig i t, s.next ≤ i → K t → K (connect e sig (.report i) t) := by
    intro sig i t hi hk
    have hx : keep (.report i) = false := by simpa [keep] using hi
    have h1 := kins sig (.report i) t hx hk
    unfold connect; simp only; split
    · rename_i hc
      have h0 : t.slots sig = [] := by
        have h2 := hc.2
        rw [slots_ins, if_pos rfl] at h2
        cases hl : t.slots sig with
        | nil => rfl
        | cons a l =>
          rw [hl] at h2
          unfold insert at h2
          split at h2
          · simp at h2
          · have : (insert e (.report i) l) ≠ [] := insert_ne_nil _ _ _
            simp only [List.length_cons] at h2
            exact absurd (List.length_eq_zero_iff.mp (by omega)) this
      have hr : keep (.relay sig) = false := by
        have := hk sig
        rw [h0] at this
        simp [keep, ← this]
      refine foldl_keep (P := K) (fun t m ht => ?_) _ _ h1
      unfold joinRelay; split
      · exact ht
      · exact kins _ _ _ hr ht
    · exact h1
  have kdisc : ∀ sig i t, s.next ≤ i → K t → K (disconnect e sig (.report i) t) := by
    intro sig i t hi hk
    have hx : keep (.report i) = false := by simpa [keep] using hi
    have h1 : K (if e.isRelay sig then (e.members sig).foldl (fun s m => del m (.report i) s) t else t) := by
      split
      · exact foldl_keep (P := K) (fun t m ht => kdel m (.report i) t hx ht) _ _ hk
      · exact hk
    unfold disconnect
    generalize (if e.isRelay sig then (e.members sig).foldl (fun s m => del m (.report i) s) t else t) = s1 at h1
    unfold remove; split
    · have h2 := kdel sig (.report i) _ hx h1
      simp only; split
      · rename_i hc
        have hr : keep (.relay sig) = false := by
          have := h2 sig
          rw [hc.2] at this
          simp [keep, ← this]
        exact foldl_keep (P := K) (fun t m ht => kdel m (.relay sig) t hr ht) _ _ h2
      · exact h2
    · exact h1
  have kenter : ∀ ts t, s.next ≤ t.next → K t → K (enter e ts t).2 := by
    intro ts
    induction ts with
    | nil => exact fun _ _ hk => hk
    | cons a ts ih =>
      intro t ht hk
      exact ih { connect e a (.report t.next) t with next := t.next + 1 } (Nat.le_trans ht (Nat.le_succ _))
        (kconn a t.next t ht hk)
  have kleave : ∀ (d : List (Nat × Nat)) t, (∀ p, p ∈ d → s.next ≤ p.2) → K t → K (leave e d t) := by
    intro d
    induction d with
    | nil => exact fun _ _ hk => hk
    | cons p d ih =>
      intro t hd hk
      exact ih _ (fun q hq => hd q (List.mem_cons_of_mem _ hq)) (kdisc p.1 p.2 t (hd p (List.mem_cons_self ..)) hk)
  obtain ⟨e1, e2, e3, e4⟩ := enter_spec e ts s h.fresh
  have kq : K q := by intro n; rw [hq]; exact kenter ts s (Nat.le_refl _) kstart n
  have kend := kleave (order (enter e ts s).1) q (fun p hp => e3 p ((ho _).mem_iff.mp hp)) kq
  have rq : Relays e q := by
    have := relays_enter (e := e) ts h.relays
    exact ⟨fun r m => hq ▸ this.cnt r m, fun r m => hq ▸ this.mem r m, fun r => hq ▸ this.idle r⟩
  have rend := relays_leave he (d := order (enter e ts s).1) rq
  have hrep : ∀ n i, s.next ≤ i → Slot.report i ∉ (leave e (order (enter e ts s).1) q).slots n := by
    intro n i hi hm
    have h0 : 0 < ((leave e (order (enter e ts s).1) q).slots n).count (.report i) := List.count_pos_iff.mpr hm
    have h1 := fewer_leave e (order (enter e ts s).1) q n i
    rw [hq] at h1
    rcases e4 n i with h4 | ⟨h4, h5, _⟩
    · have := h.fresh n i hi; omega
    · have := leave_removes e (order (enter e ts s).1) q (n, i) ((ho _).mem_iff.mpr h4) (by rw [hq]; exact h5)
      simp only at this; omega
  have hrel : ∀ n r, s.slots r = [] → Slot.relay r ∉ (leave e (order (enter e ts s).1) q).slots n := by
    intro n r h0 hm
    refine rend.idle r ?_ n hm
    apply List.eq_nil_iff_forall_not_mem.mpr
    intro y hy
    have hk := kend r
    rw [h0, List.filter_eq_nil_iff] at hk
    have hy' := hk y hy
    cases y with
    | user k => exact hy' rfl
    | report i =>
      by_cases hi : i < s.next
      · exact hy' (by simp [keep, hi])
      · exact hrep r i (by omega) hy
    | relay r' =>
      obtain ⟨a, b⟩ := rend.mem r' r hy
      have h1 := he.plain r' r a b
      rw [(rend.mem r n hm).1] at h1; cases h1
  funext n
  rw [← kend n, eq_comm, List.filter_eq_self]
  intro x hx
  cases x with
  | user k => rfl
  | report i =>
    have : i < s.next := Nat.lt_of_not_le fun hi => hrep n i hi hx
    simp [keep, this]
  | relay r =>
    have : s.slots r ≠ [] := fun h0 => hrel n r h0 hx
    simp [keep, this]

/-- **C44** (nothing done).  Around code that connects and disconnects nothing, monitors, however nested,
leave every list of slots exactly as it was, relays of groups included. -/
theorem C44_quiet {e : Env} (he : EnvOk e) {order : List (Nat × Nat) → List (Nat × Nat)} (ho : Order order)
    (b : Body) : Quiet b → ∀ {s : St}, Ok e s → (exec e order b s).2.slots = s.slots := by
  have hqc : ∀ b : Body, Quiet b → Clean b := by
    intro b
    induction b with
    | ret => exact id
    | raise => exact id
    | look k ih => exact fun h o => ih o (h o)
    | connect => exact fun h => absurd h id
    | disconnect => exact fun h => absurd h id
    | clear => exact fun h => absurd h id
    | monitor ts fails inner k ih ihk => exact fun h => ⟨h.1, ih h.2.1, fun o => ihk o (h.2.2 o)⟩
    | monitorAll l inner k ih ihk => exact fun h => ⟨ih h.1, fun o => ihk o (h.2 o)⟩
  induction b with
  | ret => exact fun _ _ _ => rfl
  | raise => exact fun _ _ _ => rfl
  | look k ih => exact fun hb _ h => ih _ (hb _) h
  | connect => exact fun h => absurd h id
  | disconnect => exact fun h => absurd h id
  | clear => exact fun h => absurd h id
  | monitor ts fails inner k ih ihk =>
    intro hb s h
    obtain ⟨hf, hi, hk⟩ := hb
    unfold exec; simp only; rw [if_neg (by simp [hf])]
    have o1 : Ok e (enter e ts s).2 :=
      ⟨sorted_enter ts h.sorted, (enter_spec e ts s h.fresh).1, relays_enter ts h.relays⟩
    have i1 := ih hi o1
    have o2 := C44_reachable he ho (hqc _ hi) o1
    have hl := enter_leave he ho ts h i1
    have o3 : Ok e (leave e (order (enter e ts s).1) (exec e order inner (enter e ts s).2).2) :=
      ⟨sorted_leave o2.sorted, fresh_of o2.fresh (fewer_leave _ _ _) (Nat.le_of_eq (next_leave ..).symm),
       relays_leave he o2.relays⟩
    exact (ihk _ (hk _) o3).trans hl
  | monitorAll l inner k ih ihk =>
    intro hb s h
    unfold exec; simp only
    have o1 : Ok e { s with hook := some l } := ⟨h.sorted, h.fresh, ⟨h.relays.cnt, h.relays.mem, h.relays.idle⟩⟩
    have i1 := ih hb.1 o1
    have o2 := C44_reachable he ho (hqc _ hb.1) o1
    generalize exec e order inner { s with hook := some l } = q at i1 o2
    exact (ihk q.1 (hb.2 _) (s := { q.2 with hook := s.hook })
      ⟨o2.sorted, o2.fresh, ⟨o2.relays.cnt, o2.relays.mem, o2.relays.idle⟩⟩).trans i1

/-! ## Exceptions pass through -/

/-- The code `b` ends by returning (`true`) or raising (`false`), whatever callbacks it sees: a `with` statement ends
the way the code in it ends, and one whose `iter_signal_instances` raises ends with that exception (specification,
for `/repo/src/psygnal/utils.py:63-84`). -/
inductive Ends : Body → Bool → Prop
  | ret : Ends .ret true
  | raise : Ends .raise false
  | look {k : (Nat → List Nat) → Body} {o : Bool} : (∀ f, Ends (k f) o) → Ends (.look k) o
  | connect {sig x : Nat} {b : Body} {o : Bool} : Ends b o → Ends (.connect sig x b) o
  | disconnect {sig x : Nat} {b : Body} {o : Bool} : Ends b o → Ends (.disconnect sig x b) o
  | clear {sig : Nat} {b : Body} {o : Bool} : Ends b o → Ends (.clear sig b) o
  | within {ts : List Nat} {inner : Body} {k : Bool → Body} {i o : Bool} :
      Ends inner i → Ends (k i) o → Ends (.monitor ts false inner k) o
  | entry {ts : List Nat} {inner : Body} {k : Bool → Body} {o : Bool} :
      Ends (k false) o → Ends (.monitor ts true inner k) o
  | withinAll {l : Nat} {inner : Body} {k : Bool → Body} {i o : Bool} :
      Ends inner i → Ends (k i) o → Ends (.monitorAll l inner k) o

/-- **C44** (exceptions).  Monitors neither swallow nor make up an exception: code that returns or raises by itself
does so under any monitors, in any state and with the disconnectors called in any order. -/
theorem C44_exceptions {e : Env} {order : List (Nat × Nat) → List (Nat × Nat)} {b : Body} {o : Bool} (h : Ends b o) :
    ∀ (s : St), (exec e order b s).1 = o := by
  induction h with
  | ret => exact fun _ => rfl
  | raise => exact fun _ => rfl
  | look _ ih => exact fun s => ih _ s
  | connect _ ih => exact fun s => ih _
  | disconnect _ ih => exact fun s => ih _
  | clear _ ih => exact fun s => ih _
  | within _ _ ihi iho =>
    intro s
    unfold exec; simp only [Bool.false_eq_true, if_false]
    rw [ihi]; exact iho _
  | entry _ ih =>
    intro s
    unfold exec; simp only [if_true]
    exact ih _
  | withinAll _ _ ihi iho =>
    intro s
    unfold exec; simp only
    rw [ihi]; exact iho _

/-- A body with nested monitors, an exception caught by its caller and one that is not. -/
def exEnds : Body :=
  .look fun o => .monitor [0, 1] false
    (.monitorAll 3 (.connect 0 (o 1).length .raise) fun ok => if ok then .ret else .disconnect 0 4 .ret)
    fun ok => if ok then .monitor [2] true .ret fun ok => if ok then .ret else .raise else .ret

example : Ends exEnds false :=
  .look fun _ => .within (.withinAll (.connect .raise) (.disconnect .ret)) (.entry .raise)

/-! ## Cases that meet the hypotheses -/

/-- A body: look, connect with priority, a nested monitor on the same signals in which the group loses its
callback and an exception is raised, then a global monitor. -/
def demoBody : Body :=
  .monitor [0, 1, 0] false
    (.look fun o => if o 0 = [9, 5] then
      .connect 0 9 (.monitor [1, 2] false (.disconnect 1 4 (.connect 3 8 .raise)) fun _ =>
        .monitorAll 3 (.clear 0 (.connect 0 5 .raise)) fun _ => .raise) else .ret)
    fun ok => if ok then .ret else .connect 1 7 .ret

/-- The order of a set used in the examples: reversed. -/
theorem order_reverse : Order List.reverse := fun d => List.reverse_perm d

theorem demoBody_clean : Clean demoBody := by
  refine ⟨rfl, ?_, ?_⟩
  · intro o
    dsimp only
    split
    · exact ⟨rfl, trivial, fun _ => ⟨trivial, fun _ => trivial⟩⟩
    · trivial
  · intro o; cases o <;> trivial

theorem demoBody_noClear : NoClear demoEnv demoBody := by
  refine ⟨?_, ?_⟩
  · intro o
    dsimp only
    split
    · refine ⟨trivial, fun _ => ⟨⟨?_, trivial⟩, fun _ => trivial⟩⟩
      intro r hr
      have hr : r = 1 := by simpa [demoEnv] using hr
      subst hr; decide
    · trivial
  · intro o; cases o <;> trivial

example : (exec demoEnv List.reverse demoBody demoSt).1 = true
    ∧ (List.range 5).map (exec demoEnv List.reverse demoBody demoSt).2.slots
      = [[.user 5], [.user 7], [.user 6, .relay 1], [.user 8, .relay 1], []]
    ∧ (exec demoEnv List.reverse demoBody demoSt).2.hook = some 77 := by decide +kernel

theorem demoSt_ok : Ok demoEnv demoSt := by
  have hsl : ∀ n, 4 ≤ n → demoSt.slots n = [] := by
    intro n hn
    simp only [demoSt]
    rw [if_neg (by omega), if_neg (by omega), if_neg (by omega), if_neg (by omega)]
  have hcase : ∀ n, n = 0 ∨ n = 1 ∨ n = 2 ∨ n = 3 ∨ 4 ≤ n := by intro n; omega
  refine ⟨?_, ?_, ?_, ?_, ?_⟩
  · intro n
    rcases hcase n with rfl | rfl | rfl | rfl | h
    · show List.Pairwise _ [Slot.user 9, Slot.user 5, Slot.report 0]
      decide
    · show List.Pairwise _ [Slot.user 4]
      decide
    · show List.Pairwise _ [Slot.user 6, Slot.relay 1]
      decide
    · show List.Pairwise _ [Slot.relay 1]
      decide
    · rw [hsl n h]; exact List.Pairwise.nil
  · intro n i hi
    have hi : 1 ≤ i := hi
    apply List.count_eq_zero_of_not_mem
    rcases hcase n with rfl | rfl | rfl | rfl | h
    · show _ ∉ [Slot.user 9, Slot.user 5, Slot.report 0]
      simp; omega
    · show _ ∉ [Slot.user 4]
      simp
    · show _ ∉ [Slot.user 6, Slot.relay 1]
      simp
    · show _ ∉ [Slot.relay 1]
      simp
    · rw [hsl n h]; simp
  · intro r n
    rcases hcase n with rfl | rfl | rfl | rfl | h
    · show List.count _ [Slot.user 9, Slot.user 5, Slot.report 0] ≤ 1
      simp
    · show List.count _ [Slot.user 4] ≤ 1
      simp
    · show List.count _ [Slot.user 6, Slot.relay 1] ≤ 1
      simp [List.count_cons]; split <;> omega
    · show List.count _ [Slot.relay 1] ≤ 1
      simp [List.count_cons]; split <;> omega
    · rw [hsl n h]; simp
  · intro r n
    rcases hcase n with rfl | rfl | rfl | rfl | h
    · show _ ∈ [Slot.user 9, Slot.user 5, Slot.report 0] → _
      simp
    · show _ ∈ [Slot.user 4] → _
      simp
    · show _ ∈ [Slot.user 6, Slot.relay 1] → _
      simp; rintro rfl; decide
    · show _ ∈ [Slot.relay 1] → _
      simp; rintro rfl; decide
    · rw [hsl n h]; simp
  · intro r hr n hm
    have hr1 : r = 1 := by
      rcases hcase n with rfl | rfl | rfl | rfl | h
      · revert hm; show _ ∈ [Slot.user 9, Slot.user 5, Slot.report 0] → _
        simp
      · revert hm; show _ ∈ [Slot.user 4] → _
        simp
      · revert hm; show _ ∈ [Slot.user 6, Slot.relay 1] → _
        simp
      · revert hm; show _ ∈ [Slot.relay 1] → _
        simp
      · rw [hsl n h] at hm; cases hm
    subst hr1
    cases hr

theorem demoSt_full : Full demoEnv demoSt := by
  intro r m hr _ hm
  have hr : r = 1 := by simpa [demoEnv] using hr
  subst hr
  have hm : m = 2 ∨ m = 3 := by simpa [demoEnv] using hm
  rcases hm with rfl | rfl <;> decide

example (n : Nat) : ((exec demoEnv List.reverse demoBody demoSt).2.slots n).Perm
    ((exec demoEnv List.reverse (strip demoBody) demoSt).2.slots n) :=
  C44_partial demoEnv_ok order_reverse demoBody_clean demoBody_noClear demoSt_ok demoSt_full n

/-- Monitors only: nested on a group without callbacks, on a signal twice, with an exception. -/
example : (exec demoEnv List.reverse (.monitor [0, 1, 0] false (.monitor [1] false .raise fun _ => .raise) fun _ => .ret)
    demoSt).2.slots = demoSt.slots :=
  C44_quiet demoEnv_ok order_reverse
    (.monitor [0, 1, 0] false (.monitor [1] false .raise fun _ => .raise) fun _ => .ret) ⟨rfl, ⟨rfl, trivial, fun _ => trivial⟩, fun _ => trivial⟩ demoSt_ok

/-! ## Where the code leaves a trace -/

/-- **C44 fails (1)**: if an attribute of the object raises anything but `AttributeError` while the signals
are looked for, `with monitor_events(obj)` raises, and the reports connected to the signals found before
stay connected: the connections are made before the `try` (`/repo/src/psygnal/utils.py:62-78`). -/
theorem C44_entry_refuted : ∃ (s : St), Ok demoEnv s ∧
    (exec demoEnv id (.monitor [0] true .ret fun ok => if ok then .ret else .raise) s).1 = false ∧
    (exec demoEnv id (.monitor [0] true .ret fun ok => if ok then .ret else .raise) s).2.slots 0 ≠ s.slots 0 :=
  ⟨demoSt, demoSt_ok, by decide +kernel, by decide +kernel⟩

/-- **C44 fails (2)**: a group without callbacks is monitored; the body disconnects everything from a member
and then connects a callback to the group.  Afterwards the group does not hear that member; without the
monitor it would, because the first callback connects the relay (`/repo/src/psygnal/_group.py:75-78`). -/
theorem C44_group_refuted : ∃ (b : Body), Clean b ∧
    Slot.relay 1 ∉ (exec demoEnv id b start).2.slots 2 ∧ Slot.user 4 ∈ (exec demoEnv id b start).2.slots 1 ∧
    Slot.relay 1 ∈ (exec demoEnv id (strip b) start).2.slots 2 :=
  ⟨.monitor [1] false (.clear 2 (.connect 1 4 .ret)) fun _ => .ret, ⟨rfl, trivial, fun _ => trivial⟩,
   by decide +kernel, by decide +kernel, by decide +kernel⟩

/-- **C44 fails (3)**: the position.  A callback connected to a group, and then one to a member, by the body
of a monitor of the group: afterwards a member calls the relay before or after other callbacks than without
the monitor, so "the same connections" holds only as a set. -/
theorem C44_position_refuted : ∃ (b : Body), Clean b ∧ NoClear demoEnv b ∧
    (exec demoEnv id b start).2.slots 2 = [.relay 1, .user 6]
      ∧ (exec demoEnv id (strip b) start).2.slots 2 = [.user 6, .relay 1] :=
  ⟨.monitor [1] false (.connect 2 6 (.connect 1 4 .ret)) fun _ => .ret, ⟨rfl, trivial, fun _ => trivial⟩,
   ⟨trivial, fun _ => trivial⟩, by decide +kernel, by decide +kernel⟩

/-- Monitors without an object that are left in the order they were entered, not the reverse (by hand, or in
generators), leave the hook of the first behind; `with` statements in one function cannot do this
(`/repo/src/psygnal/utils.py:55,81`). -/
def enterAll (l : Nat) (s : St) : Option Nat × St := (s.hook, { s with hook := some l })

theorem C44_interleaved_refuted :
    let a := enterAll 1 start
    let b := enterAll 2 a.2
    ({ { b.2 with hook := a.1 } with hook := b.1 } : St).hook ≠ start.hook := by decide

end Psygnal.Mon
