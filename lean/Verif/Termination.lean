import Verif.LogInv

/-!
# Emissions terminate (helper lemmas for C08)
-/
namespace Psygnal

/-- The group relays connected to some signal are among `S`, and no debug hook is installed. -/
structure TermInv (S : List SigId) (w : World) : Prop where
  rel : ∀ s, ∀ x ∈ (w.sig s).slots, ∀ r, x.base = .relay r → r ∈ S
  hook : w.hook = none
  depth : ∀ s, 0 ≤ (w.sig s).depth

/-- How much deeper emissions can still nest. -/
def room (S : List SigId) (w : World) : Nat :=
  (S.map fun s => (LIMIT - (w.sig s).depth).toNat).sum

def Terminates (env : Env) (t : Task) (w : World) : Prop := ∃ w' r, Runs env t w w' r

theorem terminates_iff {env : Env} {t : Task} {w : World} :
    Terminates env t w ↔ ∃ w' r, (body env t w).Via (Runs env) w' r := by
  simp only [Terminates, runs_iff]

theorem hook_run {env : Env} {S : List SigId} (w : World) (a : Act) (h : Bounded S a)
    (hw : w.hook = none) : (a.run env w).1.hook = none := by
  by_cases hk : ∃ k, a = .setHook k
  · obtain ⟨k, rfl⟩ := hk
    exact h
  · rw [(frame_run_noHook env w a (fun k e => hk ⟨k, e⟩)).hook, hw]

theorem terminv_run {env : Env} {S : List SigId} (w : World) (a : Act) (h : Bounded S a)
    (hw : TermInv S w) : TermInv S (a.run env w).1 := by
  have hs : SubConn w (a.run env w).1 := sub_run w a (by rintro _ _ _ rfl; exact h) (by rintro _ _ _ _ rfl; exact h)
  refine ⟨fun s x hx r hr => hw.rel s x ((hs.slots s).subset hx) r hr, hook_run w a h hw.hook, ?_⟩
  intro s
  simp [hw.depth s]

/-- What a bounded execution leaves unchanged. -/
structure Stay (S : List SigId) (w w' : World) : Prop where
  inv : TermInv S w'
  sub : SubConn w w'
  depth : ∀ s, (w'.sig s).depth = (w.sig s).depth

theorem hook_const {env : Env} {S : List SigId} (he : env.Only (Bounded S)) {t w w' r}
    (h : Runs env t w w' r) : t.Only (Bounded S) → w.hook = none → w'.hook = none := by
  refine Runs.induct (P := fun t w w' _ => t.Only (Bounded S) → w.hook = none → w'.hook = none) ?_ h
  clear h
  intro t w w' r h ht hj
  have hbd : ∀ b a, (env.body b a).Only (Bounded S) := he
  have hr := fun w a => @hook_run env S w a
  unfold_body t h
  all_goals grind [Comp.Via, task?_only]

theorem stay {env : Env} {S : List SigId} (he : env.Only (Bounded S)) {t w w' r}
    (h : Runs env t w w' r) (ht : t.Only (Bounded S)) (hi : TermInv S w) : Stay S w w' := by
  have hs : SubConn w w' := conn_inv (Q := Bounded S) (fun w' => SubConn w w')
    (fun w1 a ha hj => hj.trans (sub_run w1 a (by rintro _ _ _ rfl; exact ha)
      (by rintro _ _ _ _ rfl; exact ha)))
    (fun _ _ hc hj => hj.trans hc.sub) he h ht (.refl _)
  have hd : ∀ s, (w'.sig s).depth = (w.sig s).depth := fun s => depth_restored h s (hi.depth s)
  exact ⟨⟨fun s x hx r hr => hi.rel s x ((hs.slots s).subset hx) r hr, hook_const he h ht hi.hook,
    fun s => by rw [hd]; exact hi.depth s⟩, hs, hd⟩

theorem Stay.room {S : List SigId} {w w' : World} (h : Stay S w w') : room S w' = room S w := by
  simp only [Psygnal.room, h.depth]

theorem Stay.trans {S : List SigId} {a b c : World} (h : Stay S a b) (g : Stay S b c) : Stay S a c :=
  ⟨g.inv, h.sub.trans g.sub, fun s => (g.depth s).trans (h.depth s)⟩

theorem sum_lt {S : List SigId} {f g : SigId → Nat} {s : SigId} (hs : s ∈ S) (hle : ∀ x, f x ≤ g x)
    (hlt : f s < g s) : (S.map f).sum < (S.map g).sum := by
  induction S with
  | nil => simp at hs
  | cons a S ih =>
    have hle' : (S.map f).sum ≤ (S.map g).sum := by
      clear ih hs
      induction S with
      | nil => simp
      | cons b S ih => simp only [List.map_cons, List.sum_cons]; have := hle b; omega
    simp only [List.map_cons, List.sum_cons]
    rcases List.mem_cons.1 hs with rfl | hs
    · omega
    · have := ih hs; have := hle a; omega

/-- Raising the depth of one signal of `S` (below the limit) leaves less room. -/
theorem room_lt {S : List SigId} {w w' : World} {s : SigId} (hs : s ∈ S)
    (hl : (w.sig s).depth < LIMIT) (hd : (w'.sig s).depth = (w.sig s).depth + 1)
    (ho : ∀ x, x ≠ s → (w'.sig x).depth = (w.sig x).depth) : room S w' < room S w := by
  refine sum_lt hs (fun x => ?_) (by omega)
  by_cases h : x = s
  · subst h; omega
  · rw [ho x h]; omega

theorem forQueued_len {env : Env} {t w w' r} (h : Runs env t w w' r) :
    ∀ s em args i, t = .forQueued s em args i → r = .ok () →
      w' = w ∨ ((w'.sig s).emitQueue.length : Int) ≤ LIMIT := by
  refine Runs.induct (P := fun t w w' r => ∀ s em args i, t = .forQueued s em args i → r = .ok () →
      w' = w ∨ ((w'.sig s).emitQueue.length : Int) ≤ LIMIT) ?_ h
  clear h
  intro t w w' r h s em args i ht hr
  subst ht
  simp only [body] at h
  split at h
  · exact .inl h.1
  · obtain ⟨w1, r1, h1, h2⟩ := h
    dsimp only at h2
    split at h2
    · obtain ⟨-, h⟩ := h2; rw [h] at hr; simp at hr
    · split at h2
      · obtain ⟨-, h⟩ := h2; rw [h] at hr; simp at hr
      · rename_i hl
        obtain ⟨w2, r2, ⟨-, h3⟩, h4, h5⟩ := h2
        subst h4; subst h5
        rcases h3 s em args (i + 1) rfl hr with h | h
        · subst h; right; omega
        · exact .inr h

section
variable {env : Env} {S : List SigId} (he : env.Only (Bounded S))
include he

/-- Everything that can be nested terminates when there is `n` room. -/
def TermAt (env : Env) (S : List SigId) (n : Nat) : Prop :=
  (∀ p : Prog, p.Only (Bounded S) → ∀ w, TermInv S w → room S w = n → Terminates env (.prog p) w) ∧
  (∀ s args w, s ∈ S → TermInv S w → room S w = n → Terminates env (.runLoop s args) w)

theorem term_direct {n : Nat} (hn : TermAt env S n) (em src x args w)
    (hx : ∀ r, x.base = .relay r → r ∈ S) (hi : TermInv S w) (hr : room S w = n) :
    Terminates env (.direct em src x args) w := by
  have hl : TermInv S (w.logCall em src x.base (x.callArgs args)) := ⟨hi.rel, hi.hook, hi.depth⟩
  rw [terminates_iff]
  simp only [body]
  split
  · exact ⟨_, _, rfl, rfl⟩
  · split
    · rename_i r hb
      have : Terminates env (.slotRelay r (x.callArgs args))
          (w.logCall em src x.base (x.callArgs args)) := by
        rw [terminates_iff]
        simp only [body]
        split
        · exact ⟨_, _, rfl, rfl⟩
        · split
          · exact ⟨_, _, rfl, rfl⟩
          · split
            · exact ⟨_, _, rfl, rfl⟩
            · obtain ⟨w', r', h⟩ := hn.2 r _ _ (hx r hb) hl (by exact hr)
              exact ⟨w', r', w', r', h, rfl, rfl⟩
      obtain ⟨w', r', h⟩ := this
      exact ⟨_, _, w', r', h, rfl, rfl⟩
    · obtain ⟨w', r', h⟩ := hn.1 _ (he x.base (x.callArgs args)) _ hl (by exact hr)
      exact ⟨_, _, w', r', h, rfl, rfl⟩

theorem term_cb {n : Nat} (hn : TermAt env S n) (em src x args w)
    (hx : ∀ r, x.base = .relay r → r ∈ S) (hi : TermInv S w) (hr : room S w = n) :
    Terminates env (.cb em src x args) w := by
  obtain ⟨w', r', h⟩ := term_direct he hn em src x args w hx hi hr
  rw [terminates_iff]
  simp only [body]
  split
  · exact ⟨_, _, w', r', h, rfl, rfl⟩
  · split
    · exact ⟨_, _, w', r', h, rfl, rfl⟩
    · exact ⟨_, _, rfl, rfl⟩

omit he in
theorem slot_rel {w : World} {s : SigId} {i : Nat} {x : Slot} (hi : TermInv S w)
    (h : (w.sig s).slots[i]? = some x) : ∀ r, x.base = .relay r → r ∈ S :=
  hi.rel s x (List.mem_of_getElem? h)

theorem term_forSlots {n : Nat} (hn : TermAt env S n) (s em args) : ∀ k i w,
    (w.sig s).slots.length ≤ i + k → TermInv S w → room S w = n →
    Terminates env (.forSlots s em args i) w := by
  intro k
  induction k with
  | zero =>
    intro i w hk _ _
    rw [terminates_iff]
    simp only [body, List.getElem?_eq_none (by omega : (w.sig s).slots.length ≤ i)]
    exact ⟨_, _, rfl, rfl⟩
  | succ k ih =>
    intro i w hk hi hr
    rw [terminates_iff]
    simp only [body]
    split
    · exact ⟨_, _, rfl, rfl⟩
    · rename_i x hx
      obtain ⟨w', r', h⟩ := term_cb he hn (some em) (some s) x args w (slot_rel hi hx) hi hr
      have st := stay he h trivial hi
      cases r' with
      | error e => exact ⟨_, _, w', _, h, rfl, rfl⟩
      | ok u =>
        obtain ⟨w2, r2, h2⟩ := ih (i + 1) w' (by have := (st.sub.slots s).length_le; omega) st.inv
          (st.room.trans hr)
        exact ⟨_, _, w', _, h, w2, r2, h2, rfl, rfl⟩

theorem term_forLatest {n : Nat} (hn : TermAt env S n) (s em args) : ∀ k i w,
    (w.sig s).slots.length ≤ i + k → TermInv S w → room S w = n →
    Terminates env (.forLatest s em args i) w := by
  intro k
  induction k with
  | zero =>
    intro i w hk _ _
    rw [terminates_iff]
    simp only [body, List.getElem?_eq_none (by omega : (w.sig s).slots.length ≤ i)]
    exact ⟨_, _, rfl, rfl⟩
  | succ k ih =>
    intro i w hk hi hr
    rw [terminates_iff]
    simp only [body]
    split
    · exact ⟨_, _, rfl, rfl⟩
    · rename_i x hx
      split
      · exact ⟨_, _, rfl, rfl⟩
      obtain ⟨w', r', h⟩ := term_cb he hn (some em) (some s) x args w (slot_rel hi hx) hi hr
      have st := stay he h trivial hi
      cases r' with
      | error e => exact ⟨_, _, w', _, h, rfl, rfl⟩
      | ok u =>
        obtain ⟨w2, r2, h2⟩ := ih (i + 1) w' (by have := (st.sub.slots s).length_le; omega) st.inv
          (st.room.trans hr)
        exact ⟨_, _, w', _, h, w2, r2, h2, rfl, rfl⟩

theorem term_forQueued {n : Nat} (hn : TermAt env S n) (s em args) : ∀ k i w,
    (w.sig s).slots.length ≤ i + k → TermInv S w → room S w = n →
    Terminates env (.forQueued s em args i) w := by
  intro k
  induction k with
  | zero =>
    intro i w hk _ _
    rw [terminates_iff]
    simp only [body, List.getElem?_eq_none (by omega : (w.sig s).slots.length ≤ i)]
    exact ⟨_, _, rfl, rfl⟩
  | succ k ih =>
    intro i w hk hi hr
    rw [terminates_iff]
    simp only [body]
    split
    · exact ⟨_, _, rfl, rfl⟩
    · rename_i x hx
      obtain ⟨w', r', h⟩ := term_cb he hn (some em) (some s) x args w (slot_rel hi hx) hi hr
      have st := stay he h trivial hi
      cases r' with
      | error e => exact ⟨_, _, w', _, h, rfl, rfl⟩
      | ok u =>
        by_cases hl : (((w'.sig s).emitQueue.length : Int) > LIMIT)
        · exact ⟨w', .error .recursion, w', _, h, by simp only [hl, if_true]; exact ⟨rfl, rfl⟩⟩
        · obtain ⟨w2, r2, h2⟩ := ih (i + 1) w' (by have := (st.sub.slots s).length_le; omega) st.inv
            (st.room.trans hr)
          exact ⟨w2, r2, w', _, h, by simp only [hl, if_false]; exact ⟨w2, r2, h2, rfl, rfl⟩⟩

theorem term_whileQueued {n : Nat} (hn : TermAt env S n) (s em) : ∀ k i w,
    max (w.sig s).emitQueue.length 301 ≤ i + k → TermInv S w → room S w = n →
    Terminates env (.whileQueued s em i) w := by
  intro k
  induction k with
  | zero =>
    intro i w hk _ _
    rw [terminates_iff]
    simp only [body, List.getElem?_eq_none (by omega : (w.sig s).emitQueue.length ≤ i)]
    exact ⟨_, _, rfl, rfl⟩
  | succ k ih =>
    intro i w hk hi hr
    rw [terminates_iff]
    simp only [body]
    split
    · exact ⟨_, _, rfl, rfl⟩
    · rename_i x hx
      obtain ⟨w', r', h⟩ := term_forQueued he hn s em x _ 0 w (Nat.le_add_left _ _) hi hr
      have st := stay he h trivial hi
      cases r' with
      | error e => exact ⟨_, _, w', _, h, rfl, rfl⟩
      | ok u =>
        have hl : max (w'.sig s).emitQueue.length 301 ≤ i + 1 + k := by
          rcases forQueued_len h s em x 0 rfl rfl with e | e
          · subst e; omega
          · simp only [LIMIT] at e; omega
        obtain ⟨w2, r2, h2⟩ := ih (i + 1) w' hl st.inv (st.room.trans hr)
        exact ⟨_, _, w', _, h, w2, r2, h2, rfl, rfl⟩

theorem term_inner {n : Nat} (hn : TermAt env S n) (s em w) (hi : TermInv S w) (hr : room S w = n) :
    Terminates env (.inner s em) w := by
  have hp : TermInv S (w.popQueue s) :=
    ⟨fun s x hx => hi.rel s x (by simpa using hx), hi.hook, fun s => by simpa using hi.depth s⟩
  have hpr : room S (w.popQueue s) = n := by simpa [room] using hr
  rw [terminates_iff]
  simp only [body]
  split
  · obtain ⟨w', r', h⟩ := term_forSlots he hn s em _ _ 0 _ (Nat.le_add_left _ _) hp hpr
    exact ⟨_, _, w', r', h, rfl, rfl⟩
  · obtain ⟨w', r', h⟩ := term_forLatest he hn s em _ _ 0 _ (Nat.le_add_left _ _) hp hpr
    exact ⟨_, _, w', r', h, rfl, rfl⟩
  · obtain ⟨w', r', h⟩ := term_whileQueued he hn s em _ 0 _ (Nat.le_add_left _ _) hi hr
    exact ⟨_, _, w', r', h, rfl, rfl⟩
  · exact ⟨_, _, rfl, rfl⟩

theorem term_all (n : Nat) : TermAt env S n := by
  induction n using Nat.strongRecOn with
  | ind n ih =>
    have hloop : ∀ s args w, s ∈ S → TermInv S w → room S w = n → Terminates env (.runLoop s args) w := by
      intro s args w hs hi hr
      rw [terminates_iff]
      simp only [body]
      split
      · exact ⟨_, _, rfl, rfl⟩
      · rename_i hl
        split
        · exact ⟨_, _, rfl, rfl⟩
        · have hi' : TermInv S ((w.enqueue s args).startLoop s) :=
            ⟨fun s x hx => hi.rel s x (by simpa using hx), hi.hook, fun x => by
              have := hi.depth x
              simp only [startLoop_depth, enqueue_depth]
              split <;> omega⟩
          have hlt : room S ((w.enqueue s args).startLoop s) < n := by
            rw [← hr]
            exact room_lt hs (by omega) (by simp) (fun x hx => by simp [hx])
          obtain ⟨w', r', h⟩ := term_inner he (ih _ hlt) s w.nextEm _ hi' rfl
          exact ⟨_, _, w', r', h, rfl, rfl⟩
    have hemit : ∀ s args chk w, s ∈ S → TermInv S w → room S w = n →
        Terminates env (.emit s args chk) w := by
      intro s args chk w hs hi hr
      rw [terminates_iff]
      simp only [body, hi.hook]
      split
      · exact ⟨_, _, rfl, rfl⟩
      · split
        · exact ⟨_, _, rfl, rfl⟩
        · split
          · exact ⟨_, _, rfl, rfl⟩
          · obtain ⟨w', r', h⟩ := hloop s args w hs hi hr
            exact ⟨_, _, w', r', h, rfl, rfl⟩
    have hfast : ∀ s args w, s ∈ S → TermInv S w → room S w = n →
        Terminates env (.emitFast s args) w := by
      intro s args w hs hi hr
      rw [terminates_iff]
      simp only [body]
      split
      · exact ⟨_, _, rfl, rfl⟩
      · split
        · exact ⟨_, _, rfl, rfl⟩
        · split
          · exact ⟨_, _, rfl, rfl⟩
          · rename_i hl
            have hi' : TermInv S (w.startFast s args) :=
              ⟨fun s x hx => hi.rel s x (by simpa using hx), hi.hook, fun x => by
                have := hi.depth x
                simp only [startFast_depth]
                split <;> omega⟩
            have hlt : room S (w.startFast s args) < n := by
              rw [← hr]
              exact room_lt hs (by omega) (by simp) (fun x hx => by simp [hx])
            obtain ⟨w', r', h⟩ := term_forSlots he (ih _ hlt) s w.nextEm args _ 0 _
              (Nat.le_add_left _ _) hi' rfl
            exact ⟨_, _, w', r', h, rfl, rfl⟩
    refine ⟨?_, hloop⟩
    intro p
    induction p with
    | ret => intro _ w _ _; exact terminates_iff.2 ⟨_, _, rfl, rfl⟩
    | raise e => intro _ w _ _; exact terminates_iff.2 ⟨_, _, rfl, rfl⟩
    | user f k ihp =>
      intro hp w hi hr
      obtain ⟨w', r', h⟩ := ihp w.mem (hp w.mem) (w.setMem (f w.mem)) ⟨hi.rel, hi.hook, hi.depth⟩ hr
      exact terminates_iff.2 ⟨_, _, w', r', h, rfl, rfl⟩
    | api a k ihp =>
      intro hp w hi hr
      rw [terminates_iff]
      simp only [body]
      split
      · rename_i t ht
        have hq := hp.1
        have htt : Terminates env t w := by
          cases a <;> simp only [Act.task?, Option.some.injEq, reduceCtorEq] at ht
          case emit s a c => subst ht; exact hemit s a c w hq hi hr
          case emitFast s a => subst ht; exact hfast s a w hq hi hr
          case resume => exact hq.elim
          case emitQueued => exact hq.elim
        obtain ⟨w', r', h⟩ := htt
        have st := stay he h (task?_only ht hq) hi
        obtain ⟨w2, r2, h2⟩ := ihp _ (hp.2 _) w' st.inv (st.room.trans hr)
        exact ⟨_, _, w', r', h, w2, r2, h2, rfl, rfl⟩
      · have hi' := terminv_run (env := env) w a hp.1 hi
        obtain ⟨w2, r2, h2⟩ := ihp (a.run env w).2 (hp.2 _) (a.run env w).1 hi' (by simpa [room] using hr)
        exact ⟨_, _, w2, r2, h2, rfl, rfl⟩
    | withBlocked s ex b k ihb ihk =>
      intro hp w hi hr
      rw [terminates_iff]
      simp only [body]
      have hi' := terminv_run (env := env) w _ hp.1 hi
      obtain ⟨w', r', h⟩ := ihb hp.2.2.1 _ hi' (by simpa [room] using hr)
      have st := stay he h hp.2.2.1 hi'
      have hr' : room S w' = n := st.room.trans (by simpa [room] using hr)
      have hi2 := terminv_run (env := env) w' _ hp.2.1 st.inv
      split
      · obtain ⟨w2, r2, h2⟩ := ihk _ (hp.2.2.2 _) w' st.inv hr'
        exact ⟨_, _, w', r', h, w2, r2, h2, rfl, rfl⟩
      · obtain ⟨w2, r2, h2⟩ := ihk _ (hp.2.2.2 _) _ hi2 (by simpa [room] using hr')
        exact ⟨_, _, w', r', h, w2, r2, h2, rfl, rfl⟩
    | withPaused s red b k ihb ihk => intro hp; exact hp.2.1.elim

end

end Psygnal
