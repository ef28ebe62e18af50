import Verif.Termination
import Verif.BlockLemmas
import Verif.Ends

/-!
# Programs end (helper lemmas for C83)
-/
namespace Psygnal
namespace Ends

theorem only_mono {Q R : Act → Prop} (h : ∀ a, Q a → R a) : ∀ {p : Prog}, p.Only Q → p.Only R := by
  intro p
  induction p with
  | ret => exact id
  | raise e => exact id
  | user f k ih => exact fun hp m => ih m (hp m)
  | api a k ih => exact fun hp => ⟨h _ hp.1, fun r => ih r (hp.2 r)⟩
  | withBlocked s ex b k ihb ihk =>
    exact fun hp => ⟨h _ hp.1, h _ hp.2.1, ihb hp.2.2.1, fun r => ihk r (hp.2.2.2 r)⟩
  | withPaused s red b k ihb ihk =>
    exact fun hp => ⟨h _ hp.1, h _ hp.2.1, ihb hp.2.2.1, fun r => ihk r (hp.2.2.2 r)⟩

theorem harmless_simple {S : List SigId} : ∀ a, Harmless S a → Simple a := by
  intro a h
  cases a <;> first | trivial | exact h

/-- No debug hook, and no negative depth. -/
structure Inv (w : World) : Prop where
  hook : w.hook = none
  depth : ∀ s, 0 ≤ (w.sig s).depth

/-- Length of the queue of the running thread. -/
def backlog (w : World) : Nat := (w.tq w.thread).length

theorem hook_run {env : Env} (w : World) (a : Act) (h : Simple a) (hw : w.hook = none) :
    (a.run env w).1.hook = none := by
  by_cases hk : ∃ k, a = .setHook k
  · obtain ⟨k, rfl⟩ := hk
    exact h
  · rw [(frame_run_noHook env w a (fun k e => hk ⟨k, e⟩)).hook, hw]

theorem hook_const {env : Env} (he : env.Only Simple) {t w w' r}
    (h : Runs env t w w' r) : t.Only Simple → w.hook = none → w'.hook = none := by
  refine Runs.induct (P := fun t w w' _ => t.Only Simple → w.hook = none → w'.hook = none) ?_ h
  clear h
  intro t w w' r h ht hj
  have hbd : ∀ b a, (env.body b a).Only Simple := he
  have hr := fun w a => @hook_run env w a
  unfold_body t h
  all_goals grind [Comp.Via, task?_only]

theorem inv_run {env : Env} (w : World) (a : Act) (h : Simple a) (hw : Inv w) :
    Inv (a.run env w).1 :=
  ⟨hook_run w a h hw.hook, fun s => by simp [hw.depth s]⟩

theorem inv_runs {env : Env} (he : env.Only Simple) {t w w' r}
    (h : Runs env t w w' r) (ht : t.Only Simple) (hi : Inv w) : Inv w' :=
  ⟨hook_const he h ht hi.hook, fun s => by rw [depth_restored h s (hi.depth s)]; exact hi.depth s⟩

/-- A thread never puts work into its own queue. -/
theorem backlog_le {env : Env} {t w w' r} (h : Runs env t w w' r) : backlog w' ≤ backlog w := by
  have key : ∀ th, w.thread = th → (w'.tq th).length ≤ (w.tq th).length := by
    refine Runs.induct (P := fun _ w w' _ => ∀ th, w.thread = th →
      (w'.tq th).length ≤ (w.tq th).length) ?_ h
    clear h
    intro t w w' r h th hth
    have hc : ∀ {t w w' r}, Runs env t w w' r → w'.thread = w.thread := fun h => thread_const h
    have hrun : ∀ w a, ((Act.run env w a).1.tq) = w.tq := fun w a => (frame_run env w a).tq
    have hput : ∀ (w : World) t y a em, (w.putQueue t y a em).tq th =
      if th = t then w.tq t ++ [(y, a)] else w.tq th := fun _ _ _ _ _ => rfl
    have hget : ∀ (w : World) t y a, ((w.getQueue t y a).tq th).length ≤ (w.tq th).length := by
      intro w t y a
      simp only [World.getQueue]
      split
      · rename_i e; subst e; simp
      · exact Nat.le_refl _
    unfold_body t h
    all_goals grind [Comp.Via]
  have := key _ rfl
  unfold backlog
  rw [thread_const h]
  exact this

/-- Signals that are not paused stay so, and nothing is collected for them. -/
def Awake (s : SigId) (n : Nat) (w : World) : Prop :=
  (w.sig s).paused = false ∧ (w.sig s).argsQueue.length ≤ n

theorem awake_run {env : Env} {S : List SigId} {s : SigId} {n : Nat} (w : World) (a : Act)
    (h : Harmless S a) (hw : Awake s n w) : Awake s n (a.run env w).1 := by
  have ha : ((a.run env w).1.sig s).argsQueue = (w.sig s).argsQueue := ((frame_run env w a).sig s).argsQueue
  have hp : ((a.run env w).1.sig s).paused = (w.sig s).paused := by
    by_cases h1 : ∃ x ex, a = .block x ex
    · obtain ⟨x, ex, rfl⟩ := h1
      exact block_paused ..
    · by_cases h2 : ∃ x, a = .unblock x
      · obtain ⟨x, rfl⟩ := h2
        exact unblock_paused ..
      · exact ((flags_run env w a (fun x ex e => h1 ⟨x, ex, e⟩) (fun x e => h2 ⟨x, e⟩)
          (by rintro x rfl; exact h)).app s).2.1
  exact ⟨hp.trans hw.1, by rw [ha]; exact hw.2⟩

theorem awake_runs {env : Env} {S : List SigId} (he : env.Only (Harmless S)) {s : SigId} {n : Nat} {t w w' r}
    (h : Runs env t w w' r) : t.Only (Harmless S) → Awake s n w → Awake s n w' := by
  refine Runs.induct (P := fun t w w' _ => t.Only (Harmless S) → Awake s n w → Awake s n w') ?_ h
  clear h
  intro t w w' r h ht hj
  have hbd : ∀ b a, (env.body b a).Only (Harmless S) := he
  have hr := fun w a => @awake_run env S s n w a
  have hp : ∀ s, Harmless S (.pause s) = False := fun _ => rfl
  unfold_body t h
  all_goals grind [Comp.Via, task?_only, Awake]

/-- What a harmless execution leaves unchanged. -/
structure Keeps (w w' : World) : Prop where
  inv : Inv w'
  sub : SubConn w w'
  depth : ∀ s, (w'.sig s).depth = (w.sig s).depth
  back : backlog w' ≤ backlog w

theorem Keeps.room {S : List SigId} {w w' : World} (h : Keeps w w') : room S w' = room S w := by
  simp only [Psygnal.room, h.depth]

section
variable {env : Env} {S : List SigId} (he : env.Only (Harmless S))
include he

theorem simple_env : env.Only Simple := fun b a => only_mono harmless_simple (he b a)

theorem keeps {t w w' r} (h : Runs env t w w' r) (ht : t.Only (Harmless S)) (hi : Inv w) :
    Keeps w w' := by
  have hs : SubConn w w' := conn_inv (Q := Harmless S) (fun w' => SubConn w w')
    (fun w1 a ha hj => hj.trans (sub_run w1 a (by rintro _ _ _ rfl; exact ha)
      (by rintro _ _ _ _ rfl; exact ha)))
    (fun _ _ hc hj => hj.trans hc.sub) he h ht (.refl _)
  have hd : ∀ s, (w'.sig s).depth = (w.sig s).depth := fun s => depth_restored h s (hi.depth s)
  refine ⟨inv_runs (simple_env he) h ?_ hi, hs, hd, backlog_le h⟩
  cases t <;> first | trivial | exact only_mono harmless_simple ht

/-- With at most `a` calls queued for the running thread and at most `n` room for nesting, everything
that can be nested ends. -/
def EndAt (env : Env) (S : List SigId) (a n : Nat) : Prop :=
  ∀ w, Inv w → backlog w ≤ a → room S w ≤ n →
    (∀ p : Prog, p.Only (Harmless S) → Terminates env (.prog p) w) ∧
    (∀ s args, s ∈ S → Terminates env (.runLoop s args) w) ∧
    Terminates env (.drain w.thread) w

variable (hg : ∀ g, (env.decl g).isRelay = true → g ∈ S)
include hg

theorem end_direct {a n : Nat} (hn : EndAt env S a n) (em src x args w)
    (hi : Inv w) (hb : backlog w ≤ a) (hr : room S w ≤ n) :
    Terminates env (.direct em src x args) w := by
  have hl : Inv (w.logCall em src x.base (x.callArgs args)) := ⟨hi.hook, hi.depth⟩
  have H := hn (w.logCall em src x.base (x.callArgs args)) hl hb hr
  rw [terminates_iff]
  simp only [body]
  split
  · exact ⟨_, _, rfl, rfl⟩
  · split
    · rename_i r hb
      have : Terminates env (.slotRelay r (x.callArgs args))
          (w.logCall em src x.base (x.callArgs args)) := by
        rw [terminates_iff]
        simp only [body]
        split
        · exact ⟨_, _, rfl, rfl⟩
        · rename_i hrel
          split
          · exact ⟨_, _, rfl, rfl⟩
          · split
            · exact ⟨_, _, rfl, rfl⟩
            · obtain ⟨w', r', h⟩ := H.2.1 r _ (hg r (by simpa using hrel))
              exact ⟨w', r', w', r', h, rfl, rfl⟩
      obtain ⟨w', r', h⟩ := this
      exact ⟨_, _, w', r', h, rfl, rfl⟩
    · obtain ⟨w', r', h⟩ := H.1 _ (he x.base (x.callArgs args))
      exact ⟨_, _, w', r', h, rfl, rfl⟩

theorem end_cb {a n : Nat} (hn : EndAt env S a n) (em src x args w)
    (hi : Inv w) (hb : backlog w ≤ a) (hr : room S w ≤ n) :
    Terminates env (.cb em src x args) w := by
  obtain ⟨w', r', h⟩ := end_direct he hg hn em src x args w hi hb hr
  rw [terminates_iff]
  simp only [body]
  split
  · exact ⟨_, _, w', r', h, rfl, rfl⟩
  · split
    · exact ⟨_, _, w', r', h, rfl, rfl⟩
    · exact ⟨_, _, rfl, rfl⟩

theorem end_forSlots {a n : Nat} (hn : EndAt env S a n) (s em args) : ∀ k i w,
    (w.sig s).slots.length ≤ i + k → Inv w → backlog w ≤ a → room S w ≤ n →
    Terminates env (.forSlots s em args i) w := by
  intro k
  induction k with
  | zero =>
    intro i w hk _ _ _
    rw [terminates_iff]
    simp only [body, List.getElem?_eq_none (by omega : (w.sig s).slots.length ≤ i)]
    exact ⟨_, _, rfl, rfl⟩
  | succ k ih =>
    intro i w hk hi hb hr
    rw [terminates_iff]
    simp only [body]
    split
    · exact ⟨_, _, rfl, rfl⟩
    · rename_i x hx
      obtain ⟨w', r', h⟩ := end_cb he hg hn (some em) (some s) x args w hi hb hr
      have st := keeps he h trivial hi
      cases r' with
      | error e => exact ⟨_, _, w', _, h, rfl, rfl⟩
      | ok u =>
        obtain ⟨w2, r2, h2⟩ := ih (i + 1) w' (by have := (st.sub.slots s).length_le; omega) st.inv
          (Nat.le_trans st.back hb) (st.room ▸ hr)
        exact ⟨_, _, w', _, h, w2, r2, h2, rfl, rfl⟩

theorem end_forLatest {a n : Nat} (hn : EndAt env S a n) (s em args) : ∀ k i w,
    (w.sig s).slots.length ≤ i + k → Inv w → backlog w ≤ a → room S w ≤ n →
    Terminates env (.forLatest s em args i) w := by
  intro k
  induction k with
  | zero =>
    intro i w hk _ _ _
    rw [terminates_iff]
    simp only [body, List.getElem?_eq_none (by omega : (w.sig s).slots.length ≤ i)]
    exact ⟨_, _, rfl, rfl⟩
  | succ k ih =>
    intro i w hk hi hb hr
    rw [terminates_iff]
    simp only [body]
    split
    · exact ⟨_, _, rfl, rfl⟩
    · rename_i x hx
      split
      · exact ⟨_, _, rfl, rfl⟩
      obtain ⟨w', r', h⟩ := end_cb he hg hn (some em) (some s) x args w hi hb hr
      have st := keeps he h trivial hi
      cases r' with
      | error e => exact ⟨_, _, w', _, h, rfl, rfl⟩
      | ok u =>
        obtain ⟨w2, r2, h2⟩ := ih (i + 1) w' (by have := (st.sub.slots s).length_le; omega) st.inv
          (Nat.le_trans st.back hb) (st.room ▸ hr)
        exact ⟨_, _, w', _, h, w2, r2, h2, rfl, rfl⟩

theorem end_forQueued {a n : Nat} (hn : EndAt env S a n) (s em args) : ∀ k i w,
    (w.sig s).slots.length ≤ i + k → Inv w → backlog w ≤ a → room S w ≤ n →
    Terminates env (.forQueued s em args i) w := by
  intro k
  induction k with
  | zero =>
    intro i w hk _ _ _
    rw [terminates_iff]
    simp only [body, List.getElem?_eq_none (by omega : (w.sig s).slots.length ≤ i)]
    exact ⟨_, _, rfl, rfl⟩
  | succ k ih =>
    intro i w hk hi hb hr
    rw [terminates_iff]
    simp only [body]
    split
    · exact ⟨_, _, rfl, rfl⟩
    · rename_i x hx
      obtain ⟨w', r', h⟩ := end_cb he hg hn (some em) (some s) x args w hi hb hr
      have st := keeps he h trivial hi
      cases r' with
      | error e => exact ⟨_, _, w', _, h, rfl, rfl⟩
      | ok u =>
        by_cases hl : (((w'.sig s).emitQueue.length : Int) > LIMIT)
        · exact ⟨w', .error .recursion, w', _, h, by simp only [hl, if_true]; exact ⟨rfl, rfl⟩⟩
        · obtain ⟨w2, r2, h2⟩ := ih (i + 1) w' (by have := (st.sub.slots s).length_le; omega) st.inv
            (Nat.le_trans st.back hb) (st.room ▸ hr)
          exact ⟨w2, r2, w', _, h, by simp only [hl, if_false]; exact ⟨w2, r2, h2, rfl, rfl⟩⟩

theorem end_whileQueued {a n : Nat} (hn : EndAt env S a n) (s em) : ∀ k i w,
    max (w.sig s).emitQueue.length 301 ≤ i + k → Inv w → backlog w ≤ a → room S w ≤ n →
    Terminates env (.whileQueued s em i) w := by
  intro k
  induction k with
  | zero =>
    intro i w hk _ _ _
    rw [terminates_iff]
    simp only [body, List.getElem?_eq_none (by omega : (w.sig s).emitQueue.length ≤ i)]
    exact ⟨_, _, rfl, rfl⟩
  | succ k ih =>
    intro i w hk hi hb hr
    rw [terminates_iff]
    simp only [body]
    split
    · exact ⟨_, _, rfl, rfl⟩
    · rename_i x hx
      obtain ⟨w', r', h⟩ := end_forQueued he hg hn s em x _ 0 w (Nat.le_add_left _ _) hi hb hr
      have st := keeps he h trivial hi
      cases r' with
      | error e => exact ⟨_, _, w', _, h, rfl, rfl⟩
      | ok u =>
        have hl : max (w'.sig s).emitQueue.length 301 ≤ i + 1 + k := by
          rcases forQueued_len h s em x 0 rfl rfl with e | e
          · subst e; omega
          · simp only [LIMIT] at e; omega
        obtain ⟨w2, r2, h2⟩ := ih (i + 1) w' hl st.inv (Nat.le_trans st.back hb) (st.room ▸ hr)
        exact ⟨_, _, w', _, h, w2, r2, h2, rfl, rfl⟩

theorem end_inner {a n : Nat} (hn : EndAt env S a n) (s em w) (hi : Inv w) (hb : backlog w ≤ a)
    (hr : room S w ≤ n) : Terminates env (.inner s em) w := by
  have hp : Inv (w.popQueue s) := ⟨hi.hook, fun s => by simpa using hi.depth s⟩
  have hpr : room S (w.popQueue s) ≤ n := by simpa [room] using hr
  rw [terminates_iff]
  simp only [body]
  split
  · obtain ⟨w', r', h⟩ := end_forSlots he hg hn s em _ _ 0 _ (Nat.le_add_left _ _) hp hb hpr
    exact ⟨_, _, w', r', h, rfl, rfl⟩
  · obtain ⟨w', r', h⟩ := end_forLatest he hg hn s em _ _ 0 _ (Nat.le_add_left _ _) hp hb hpr
    exact ⟨_, _, w', r', h, rfl, rfl⟩
  · obtain ⟨w', r', h⟩ := end_whileQueued he hg hn s em _ 0 _ (Nat.le_add_left _ _) hi hb hr
    exact ⟨_, _, w', r', h, rfl, rfl⟩
  · exact ⟨_, _, rfl, rfl⟩

omit he hg in
theorem inv_startLoop {w : World} (s args) (hi : Inv w) : Inv ((w.enqueue s args).startLoop s) :=
  ⟨hi.hook, fun x => by
    have := hi.depth x
    simp only [startLoop_depth, enqueue_depth]
    split <;> omega⟩

omit he hg in
theorem inv_startFast {w : World} (s args) (hi : Inv w) : Inv (w.startFast s args) :=
  ⟨hi.hook, fun x => by
    have := hi.depth x
    simp only [startFast_depth]
    split <;> omega⟩

/-- An emit loop ends when what its callbacks do ends. -/
theorem end_runLoop {a : Nat} (s args w) (hi : Inv w) (hb : backlog w ≤ a)
    (hn : (w.sig s).depth < LIMIT → EndAt env S a (room S ((w.enqueue s args).startLoop s))) :
    Terminates env (.runLoop s args) w := by
  rw [terminates_iff]
  simp only [body]
  split
  · exact ⟨_, _, rfl, rfl⟩
  · rename_i hl
    split
    · exact ⟨_, _, rfl, rfl⟩
    · obtain ⟨w', r', h⟩ := end_inner he hg (hn (by omega)) s w.nextEm _ (inv_startLoop s args hi) hb
        (Nat.le_refl _)
      exact ⟨_, _, w', r', h, rfl, rfl⟩

omit he hg in
theorem end_emit {s args chk w} (hi : Inv w) (h : Terminates env (.runLoop s args) w) :
    Terminates env (.emit s args chk) w := by
  obtain ⟨w', r', h⟩ := h
  rw [terminates_iff]
  simp only [body, hi.hook]
  split
  · exact ⟨_, _, rfl, rfl⟩
  · split
    · exact ⟨_, _, rfl, rfl⟩
    · split
      · exact ⟨_, _, rfl, rfl⟩
      · exact ⟨_, _, w', r', h, rfl, rfl⟩

theorem end_emitFast {a : Nat} (s args w) (hi : Inv w) (hb : backlog w ≤ a)
    (hn : (w.sig s).depth < LIMIT → EndAt env S a (room S (w.startFast s args))) :
    Terminates env (.emitFast s args) w := by
  rw [terminates_iff]
  simp only [body]
  split
  · exact ⟨_, _, rfl, rfl⟩
  · split
    · exact ⟨_, _, rfl, rfl⟩
    · split
      · exact ⟨_, _, rfl, rfl⟩
      · rename_i hl
        obtain ⟨w', r', h⟩ := end_forSlots he hg (hn (by omega)) s w.nextEm args _ 0 _
          (Nat.le_add_left _ _) (inv_startFast s args hi) hb (Nat.le_refl _)
        exact ⟨_, _, w', r', h, rfl, rfl⟩

omit hg in
/-- `resume` ends when the emit loops of the signal end. -/
theorem end_replay {a n : Nat} (s)
    (hl : ∀ w args, Inv w → backlog w ≤ a → room S w ≤ n → Terminates env (.runLoop s args) w) :
    ∀ k i w, Awake s (i + k) w → Inv w → backlog w ≤ a → room S w ≤ n →
      Terminates env (.replay s i) w := by
  intro k
  induction k with
  | zero =>
    intro i w hk _ _ _
    rw [terminates_iff]
    simp only [body, List.getElem?_eq_none (by simpa using hk.2 : (w.sig s).argsQueue.length ≤ i)]
    exact ⟨_, _, rfl, rfl⟩
  | succ k ih =>
    intro i w hk hi hb hr
    rw [terminates_iff]
    simp only [body]
    split
    · exact ⟨_, _, rfl, rfl⟩
    · rename_i x hx
      obtain ⟨w', r', h⟩ := hl w x hi hb hr
      have st := keeps he h trivial hi
      cases r' with
      | error e => exact ⟨_, _, w', _, h, rfl, rfl⟩
      | ok u =>
        have ha := awake_runs he (n := i + (k + 1)) h trivial hk
        obtain ⟨w2, r2, h2⟩ := ih (i + 1) w' ⟨ha.1, by have := ha.2; omega⟩ st.inv
          (Nat.le_trans st.back hb) (st.room ▸ hr)
        exact ⟨_, _, w', _, h, w2, r2, h2, rfl, rfl⟩

omit hg in
theorem end_resume {a n : Nat} (s red w) (hi : Inv w) (hb : backlog w ≤ a) (hr : room S w ≤ n)
    (hl : ∀ w args, Inv w → backlog w ≤ a → room S w ≤ n → Terminates env (.runLoop s args) w) :
    Terminates env (.resume s red) w := by
  have hu : Inv (w.unpause s) := ⟨hi.hook, fun x => by simpa using hi.depth x⟩
  have hur : room S (w.unpause s) ≤ n := by simpa [room] using hr
  rw [terminates_iff]
  simp only [body]
  split
  · exact ⟨_, _, rfl, rfl⟩
  · split
    · exact ⟨_, _, rfl, rfl⟩
    · cases red with
      | none =>
        obtain ⟨w', r', h⟩ := end_replay he s hl (w.sig s).argsQueue.length 0 (w.unpause s)
          ⟨by simp, by simp⟩ hu hb hur
        cases r' with
        | error e => exact ⟨_, _, w', _, h, rfl, rfl⟩
        | ok u => exact ⟨_, _, w', _, h, rfl, rfl⟩
      | some rd =>
        simp only []
        split
        · exact ⟨_, _, rfl, rfl⟩
        · rename_i args _
          obtain ⟨w', r', h⟩ := hl (w.unpause s) args hu hb hur
          cases r' with
          | error e => exact ⟨_, _, w', _, h, rfl, rfl⟩
          | ok u => exact ⟨_, _, w', _, h, rfl, rfl⟩

theorem end_all (a : Nat) : ∀ n, EndAt env S a n := by
  induction a using Nat.strongRecOn with
  | ind a iha =>
  intro n
  induction n using Nat.strongRecOn with
  | ind n ihn =>
    have hloop : ∀ s, s ∈ S → ∀ w args, Inv w → backlog w ≤ a → room S w ≤ n →
        Terminates env (.runLoop s args) w := by
      intro s hs w args hi hb hr
      refine end_runLoop he hg s args w hi hb fun hl => ihn _ (Nat.lt_of_lt_of_le ?_ hr)
      exact room_lt hs hl (by simp) (fun x hx => by simp [hx])
    have hfast : ∀ s, s ∈ S → ∀ w args, Inv w → backlog w ≤ a → room S w ≤ n →
        Terminates env (.emitFast s args) w := by
      intro s hs w args hi hb hr
      refine end_emitFast he hg s args w hi hb fun hl => ihn _ (Nat.lt_of_lt_of_le ?_ hr)
      exact room_lt hs hl (by simp) (fun x hx => by simp [hx])
    have hdrain : ∀ w, Inv w → backlog w ≤ a → room S w ≤ n → Terminates env (.drain w.thread) w := by
      intro w hi hb hr
      rw [terminates_iff]
      simp only [body]
      split
      · exact ⟨_, _, rfl, rfl⟩
      · rename_i x args rest hq
        have hlen : backlog w = rest.length + 1 := by simp [backlog, hq]
        have hgi : Inv (w.getQueue w.thread x args) := ⟨hi.hook, hi.depth⟩
        have hgb : backlog (w.getQueue w.thread x args) ≤ a - 1 := by
          have h1 : (w.getQueue w.thread x args).tq w.thread = rest := by simp [World.getQueue, hq]
          show ((w.getQueue w.thread x args).tq w.thread).length ≤ a - 1
          rw [h1]
          omega
        obtain ⟨w', r', h⟩ := end_direct he hg (iha (a - 1) (by omega) n) none none x args _ hgi hgb hr
        have st := keeps he h trivial hgi
        cases r' with
        | error e => exact ⟨_, _, w', _, h, rfl, rfl⟩
        | ok u =>
          have hth : w'.thread = w.thread := (thread_const h).trans rfl
          obtain ⟨w2, r2, h2⟩ := (iha (a - 1) (by omega) n w' st.inv (Nat.le_trans st.back hgb) (st.room ▸ hr)).2.2
          rw [hth] at h2
          exact ⟨_, _, w', _, h, w2, r2, h2, rfl, rfl⟩
    intro w hi hb hr
    refine ⟨?_, fun s args hs => hloop s hs w args hi hb hr, hdrain w hi hb hr⟩
    intro p
    induction p generalizing w with
    | ret => intro _; exact terminates_iff.2 ⟨_, _, rfl, rfl⟩
    | raise e => intro _; exact terminates_iff.2 ⟨_, _, rfl, rfl⟩
    | user f k ihp =>
      intro hp
      obtain ⟨w', r', h⟩ := ihp w.mem (w.setMem (f w.mem)) ⟨hi.hook, hi.depth⟩ hb hr (hp w.mem)
      exact terminates_iff.2 ⟨_, _, w', r', h, rfl, rfl⟩
    | api act k ihp =>
      intro hp
      rw [terminates_iff]
      simp only [body]
      split
      · rename_i t ht
        have hq := hp.1
        have htt : Terminates env t w := by
          cases act <;> simp only [Act.task?, Option.some.injEq, reduceCtorEq] at ht
          case emit s a c => subst ht; exact end_emit hi (hloop s hq w a hi hb hr)
          case emitFast s a => subst ht; exact hfast s hq w a hi hb hr
          case resume s red => subst ht; exact end_resume he s red w hi hb hr (hloop s hq)
          case emitQueued th =>
            have : th = none := hq
            subst this
            simp only [Option.some.injEq] at ht
            subst ht
            exact hdrain w hi hb hr
        obtain ⟨w', r', h⟩ := htt
        have st := keeps he h (task?_only ht hq) hi
        obtain ⟨w2, r2, h2⟩ := ihp _ w' st.inv (Nat.le_trans st.back hb) (st.room ▸ hr) (hp.2 _)
        exact ⟨_, _, w', r', h, w2, r2, h2, rfl, rfl⟩
      · have hi' := inv_run (env := env) w act (harmless_simple _ hp.1) hi
        have hb' : backlog (act.run env w).1 ≤ a := by
          have hf := frame_run env w act
          simpa [backlog, hf.tq, hf.thread] using hb
        obtain ⟨w2, r2, h2⟩ := ihp (act.run env w).2 (act.run env w).1 hi' hb' (by simpa [room] using hr)
          (hp.2 _)
        exact ⟨_, _, w2, r2, h2, rfl, rfl⟩
    | withBlocked s ex b k ihb ihk =>
      intro hp
      rw [terminates_iff]
      simp only [body]
      have hi' := inv_run (env := env) w _ (harmless_simple _ hp.1) hi
      have hf := frame_run env w (.block s ex)
      have hb' : backlog (w.block env s ex) ≤ a := by
        have h1 : (w.block env s ex).tq = w.tq := hf.tq
        have h2 : (w.block env s ex).thread = w.thread := hf.thread
        simpa [backlog, h1, h2] using hb
      obtain ⟨w', r', h⟩ := ihb _ hi' hb' (by simpa [room] using hr) hp.2.2.1
      have st := keeps he h hp.2.2.1 hi'
      have hr' : room S w' ≤ n := st.room (S := S) ▸ (by simpa [room] using hr)
      have hi2 := inv_run (env := env) w' _ (harmless_simple _ hp.2.1) st.inv
      split
      · obtain ⟨w2, r2, h2⟩ := ihk _ w' st.inv (Nat.le_trans st.back hb') hr' (hp.2.2.2 _)
        exact ⟨_, _, w', r', h, w2, r2, h2, rfl, rfl⟩
      · have hf := frame_run env w' (.unblock s)
        have hb2 : backlog (w'.unblock env s) ≤ a := by
          have h1 : (w'.unblock env s).tq = w'.tq := hf.tq
          have h2 : (w'.unblock env s).thread = w'.thread := hf.thread
          simpa [backlog, h1, h2] using Nat.le_trans st.back hb'
        obtain ⟨w2, r2, h2⟩ := ihk _ _ hi2 hb2 (by simpa [room] using hr') (hp.2.2.2 _)
        exact ⟨_, _, w', r', h, w2, r2, h2, rfl, rfl⟩
    | withPaused s red b k ihb ihk => intro hp; exact hp.1.elim

/-- Programs outside callbacks end. -/
theorem end_top : ∀ (p : Prog), p.Only Simple → ∀ w, Inv w → Terminates env (.prog p) w := by
  have hse := simple_env he
  have hloop : ∀ s args w, Inv w → Terminates env (.runLoop s args) w := fun s args w hi =>
    end_runLoop he hg s args w hi (Nat.le_refl _) fun _ => end_all he hg _ _
  have hres : ∀ s red w, Inv w → Terminates env (.resume s red) w := fun s red w hi =>
    end_resume he s red w hi (Nat.le_refl _) (Nat.le_refl _) fun w args hi _ _ => hloop s args w hi
  intro p
  induction p with
  | ret => intro _ w _; exact terminates_iff.2 ⟨_, _, rfl, rfl⟩
  | raise e => intro _ w _; exact terminates_iff.2 ⟨_, _, rfl, rfl⟩
  | user f k ihp =>
    intro hp w hi
    obtain ⟨w', r', h⟩ := ihp w.mem (hp w.mem) (w.setMem (f w.mem)) ⟨hi.hook, hi.depth⟩
    exact terminates_iff.2 ⟨_, _, w', r', h, rfl, rfl⟩
  | api act k ihp =>
    intro hp w hi
    rw [terminates_iff]
    simp only [body]
    split
    · rename_i t ht
      have hq := hp.1
      have htt : Terminates env t w := by
        cases act <;> simp only [Act.task?, Option.some.injEq, reduceCtorEq] at ht
        case emit s a c => subst ht; exact end_emit hi (hloop s a w hi)
        case emitFast s a =>
          subst ht
          exact end_emitFast he hg s a w hi (Nat.le_refl _) fun _ => end_all he hg _ _
        case resume s red => subst ht; exact hres s red w hi
        case emitQueued th =>
          have : th = none := hq
          subst this
          simp only [Option.some.injEq] at ht
          subst ht
          exact (end_all he hg _ _ w hi (Nat.le_refl _) (Nat.le_refl _)).2.2
      obtain ⟨w', r', h⟩ := htt
      obtain ⟨w2, r2, h2⟩ := ihp _ (hp.2 _) w' (inv_runs hse h (task?_only ht hq) hi)
      exact ⟨_, _, w', r', h, w2, r2, h2, rfl, rfl⟩
    · obtain ⟨w2, r2, h2⟩ := ihp (act.run env w).2 (hp.2 _) (act.run env w).1 (inv_run w act hp.1 hi)
      exact ⟨_, _, w2, r2, h2, rfl, rfl⟩
  | withBlocked s ex b k ihb ihk =>
    intro hp w hi
    rw [terminates_iff]
    simp only [body]
    have hi' := inv_run (env := env) w _ hp.1 hi
    obtain ⟨w', r', h⟩ := ihb hp.2.2.1 _ hi'
    have hi2 := inv_runs hse h hp.2.2.1 hi'
    have hi3 := inv_run (env := env) w' _ hp.2.1 hi2
    split
    · obtain ⟨w2, r2, h2⟩ := ihk _ (hp.2.2.2 _) w' hi2
      exact ⟨_, _, w', r', h, w2, r2, h2, rfl, rfl⟩
    · obtain ⟨w2, r2, h2⟩ := ihk _ (hp.2.2.2 _) _ hi3
      exact ⟨_, _, w', r', h, w2, r2, h2, rfl, rfl⟩
  | withPaused s red b k ihb ihk =>
    intro hp w hi
    rw [terminates_iff]
    simp only [body]
    have hi' := inv_run (env := env) w _ hp.1 hi
    obtain ⟨w', r', h⟩ := ihb hp.2.2.1 _ hi'
    have hi2 := inv_runs hse h hp.2.2.1 hi'
    by_cases hpd : (w.sig s).paused = true
    · obtain ⟨w2, r2, h2⟩ := ihk r' (hp.2.2.2 _) w' hi2
      exact ⟨w2, r2, w', r', h, by simp only [if_pos hpd]; exact ⟨w2, r2, h2, rfl, rfl⟩⟩
    · obtain ⟨w1, r1, h1⟩ := hres s red w' hi2
      have hi3 := inv_runs hse h1 trivial hi2
      cases r1 with
      | ok u =>
        obtain ⟨w2, r2, h2⟩ := ihk r' (hp.2.2.2 _) w1 hi3
        exact ⟨w2, r2, w', r', h, by simp only [if_neg hpd]; exact ⟨w1, _, h1, w2, r2, h2, rfl, rfl⟩⟩
      | error e =>
        obtain ⟨w2, r2, h2⟩ := ihk (.error e) (hp.2.2.2 _) w1 hi3
        exact ⟨w2, r2, w', r', h, by simp only [if_neg hpd]; exact ⟨w1, _, h1, w2, r2, h2, rfl, rfl⟩⟩

end

end Ends
end Psygnal
