import Verif.SwapLemmas

/-! # The simulation for C87 -/
namespace Psygnal
namespace Swap

section
variable {env : Env} {g : Base → Args → Prog}

/-- The nested calls of a procedure are simulated. -/
abbrev Sub (env : Env) (g : Base → Args → Prog) : Task → World → World → Res → Prop :=
  fun t w w' r => Runs env t w w' r ∧ Sim env (withBody env g) t w w' r

theorem go_of {env' : Env} {e : Option SigId} {m : SigId → Int} {l : List Ev} {t : Task} {w w' : World} {r : Res}
    (h : ∃ m' l', (body env' t (alt e m l w)).Via (Runs env') (alt e m' l' w') r ∧ Good env w' ∧ Ok env m' l' w') :
    ∃ m' l', Runs env' t (alt e m l w) (alt e m' l' w') r ∧ Good env w' ∧ Ok env m' l' w' := by
  obtain ⟨m', l', h1, h2⟩ := h
  exact ⟨m', l', (runs_iff ..).2 h1, h2⟩

theorem sim_prog {p : Prog} {w w' : World} {r : Res} (h : (body env (.prog p) w).Via (Sub env g) w' r) : Sim env (withBody env g) (.prog p) w w' r := by
  intro p' hp e m l _ hg ho
  cases hp with
  | ret => obtain ⟨rfl, rfl⟩ := h; exact ⟨m, l, (runs_iff ..).2 ⟨rfl, rfl⟩, hg, ho⟩
  | raise => obtain ⟨rfl, rfl⟩ := h; exact ⟨m, l, (runs_iff ..).2 ⟨rfl, rfl⟩, hg, ho⟩
  | user hk =>
    obtain ⟨w1, r1, ⟨_, h1⟩, rfl, rfl⟩ := h
    obtain ⟨m', l', h2, h3, h4⟩ := h1 _ (hk w.mem) e m l trivial ⟨hg.hook, hg.st, hg.slots, hg.tq⟩ ⟨ho.max, ho.log⟩
    exact ⟨m', l', (runs_iff ..).2 ⟨_, _, h2, rfl, rfl⟩, h3, h4⟩
  | @api a a' k k' ha hk =>
    cases ha with
    | same hb =>
      simp only [body] at h
      have ht : a.task? (alt e m l w) = a.task? w := by cases a <;> rfl
      split at h
      · rename_i t hta
        obtain ⟨w1, r1, ⟨_, h1⟩, w2, r2, ⟨_, h2⟩, rfl, rfl⟩ := h
        have h3 : Go env (withBody env g) (fun _ => True) t w w1 r1 := by
          cases a with
          | emitQueued o => cases o <;> cases hta <;> exact h1
          | emit => cases hta; exact h1.1
          | emitFast => cases hta; exact h1.1 hb
          | resume => cases hta; exact h1
          | _ => cases hta
        obtain ⟨m1, l1, h4, h5, h6⟩ := h3 e m l trivial hg ho
        obtain ⟨m2, l2, h7, h8, h9⟩ := h2 _ (hk _) e m1 l1 trivial h5 h6
        refine ⟨m2, l2, ?_, h8, h9⟩
        rw [runs_iff]
        simp only [body, ht, hta]
        exact ⟨_, _, h4, _, _, h7, rfl, rfl⟩
      · rename_i hta
        obtain ⟨w1, r1, ⟨_, h1⟩, rfl, rfl⟩ := h
        obtain ⟨m2, l2, h7, h8, h9⟩ := h1 _ (hk _) e m l trivial (hg.act hb) (ho.act a)
        refine ⟨m2, l2, ?_, h8, h9⟩
        have he : a.run (withBody env g) (alt e m l w) = (alt e m l (a.run env w).1, (a.run env w).2) :=
          (run_body a g).trans (run_alt a (by rintro rfl; exact hb))
        rw [runs_iff]
        simp only [body, ht, hta, he]
        exact ⟨_, _, h7, rfl, rfl⟩
    | fast hp hc =>
      obtain ⟨w1, r1, ⟨_, h1⟩, w2, r2, ⟨_, h2⟩, rfl, rfl⟩ := h
      obtain ⟨m1, l1, h4, h5, h6⟩ := h1.2 hp hc e m l trivial hg ho
      obtain ⟨m2, l2, h7, h8, h9⟩ := h2 _ (hk _) e m1 l1 trivial h5 h6
      exact ⟨m2, l2, (runs_iff ..).2 ⟨_, _, h4, _, _, h7, rfl, rfl⟩, h8, h9⟩
    | slow hp hc =>
      obtain ⟨w1, r1, ⟨_, h1⟩, w2, r2, ⟨_, h2⟩, rfl, rfl⟩ := h
      obtain ⟨m1, l1, h4, h5, h6⟩ := h1.2 hp _ hc e m l trivial hg ho
      obtain ⟨m2, l2, h7, h8, h9⟩ := h2 _ (hk _) e m1 l1 trivial h5 h6
      exact ⟨m2, l2, (runs_iff ..).2 ⟨_, _, h4, _, _, h7, rfl, rfl⟩, h8, h9⟩
  | @withBlocked s ex b b' k k' hb hk =>
    obtain ⟨w1, r1, ⟨_, h1⟩, w2, r2, ⟨_, h2⟩, rfl, rfl⟩ := h
    obtain ⟨m1, l1, h3, h4, h5⟩ := h1 _ hb e m l trivial (hg.act (a := .block s ex) trivial) (ho.act (.block s ex))
    have e1 : (alt e m l w).block (withBody env g) s ex = alt e m l (w.block env s ex) :=
      (congrArg Prod.fst (run_body (w := alt e m l w) (env := env) (.block s ex) g)).trans block_alt
    have e2 : (alt e m1 l1 w1).unblock (withBody env g) s = alt e m1 l1 (w1.unblock env s) :=
      (congrArg Prod.fst (run_body (w := alt e m1 l1 w1) (env := env) (.unblock s) g)).trans unblock_alt
    by_cases hbl : (w.sig s).blocked = true
    · simp only [if_pos hbl] at h2
      obtain ⟨m2, l2, h7, h8, h9⟩ := h2 _ (hk _) e m1 l1 trivial h4 h5
      refine ⟨m2, l2, ?_, h8, h9⟩
      rw [runs_iff]
      simp only [body, e1]
      refine ⟨_, _, h3, _, _, ?_, rfl, rfl⟩
      rw [if_pos (show ((alt e m l w).sig s).blocked = true from hbl)]
      exact h7
    · simp only [if_neg hbl] at h2
      obtain ⟨m2, l2, h7, h8, h9⟩ := h2 _ (hk _) e m1 l1 trivial (h4.act (a := .unblock s) trivial) (h5.act (.unblock s))
      refine ⟨m2, l2, ?_, h8, h9⟩
      rw [runs_iff]
      simp only [body, e1]
      refine ⟨_, _, h3, _, _, ?_, rfl, rfl⟩
      rw [if_neg (show ¬ ((alt e m l w).sig s).blocked = true from hbl), e2]
      exact h7
  | @withPaused s red b b' k k' hb hk =>
    obtain ⟨w1, r1, ⟨_, h1⟩, h⟩ := h
    obtain ⟨m1, l1, h3, h4, h5⟩ := h1 _ hb e m l trivial (hg.act (env := env) (a := .pause s) trivial) (ho.act (.pause s))
    have e1 : (alt e m l w).pause s = alt e m l (w.pause s) := upd_alt fun _ _ => rfl
    by_cases hpa : (w.sig s).paused = true
    · simp only [if_pos hpa] at h
      obtain ⟨w2, r2, ⟨_, h2⟩, rfl, rfl⟩ := h
      obtain ⟨m2, l2, h7, h8, h9⟩ := h2 _ (hk _) e m1 l1 trivial h4 h5
      refine ⟨m2, l2, ?_, h8, h9⟩
      rw [runs_iff]
      simp only [body, e1]
      refine ⟨_, _, h3, ?_⟩
      simp only [if_pos (show ((alt e m l w).sig s).paused = true from hpa)]
      exact ⟨_, _, h7, rfl, rfl⟩
    · simp only [if_neg hpa] at h
      obtain ⟨w2, r2, ⟨_, h2⟩, w3, r3, ⟨_, h6⟩, rfl, rfl⟩ := h
      obtain ⟨m2, l2, h7, h8, h9⟩ := h2 e m1 l1 trivial h4 h5
      obtain ⟨m3, l3, h10, h11, h12⟩ := h6 _ (hk _) e m2 l2 trivial h8 h9
      refine ⟨m3, l3, ?_, h11, h12⟩
      rw [runs_iff]
      simp only [body, e1]
      refine ⟨_, _, h3, ?_⟩
      simp only [if_neg (show ¬ ((alt e m l w).sig s).paused = true from hpa)]
      exact ⟨_, _, h7, _, _, h10, rfl, rfl⟩

theorem collect_alt {e : Option SigId} {m : SigId → Int} {l : List Ev} {w : World} {s : SigId} {a : Args} :
    (alt e m l w).collect s a = alt e m l (w.collect s a) := upd_alt fun _ _ => rfl

theorem sim_emit {s : SigId} {a : Args} {c : Bool} {w w' : World} {r : Res} (h : (body env (.emit s a c) w).Via (Sub env g) w' r) :
    Sim env (withBody env g) (.emit s a c) w w' r := by
  simp only [body] at h
  by_cases h1 : (w.sig s).blocked = true
  · rw [if_pos h1] at h
    obtain ⟨rfl, rfl⟩ := h
    exact ⟨fun e m l _ hg ho => ⟨m, l, emit_blocked h1, hg, ho⟩, fun _ _ e m l _ hg ho => ⟨m, l, fast_blocked h1, hg, ho⟩⟩
  rw [if_neg h1] at h
  by_cases h2 : c = true ∧ bindsPos (env.decl s).sig a.length = false
  · rw [if_pos h2] at h
    obtain ⟨rfl, rfl⟩ := h
    refine ⟨fun e m l _ hg ho => ⟨m, l, ?_, hg, ho⟩, fun _ hc => ?_⟩
    · rw [runs_iff]
      simp only [body]
      rw [if_neg (show ¬ ((alt e m l _).sig s).blocked = true from h1)]
      refine (congrArg (Comp.Via _ · _ _) (if_pos h2)).mpr ⟨rfl, rfl⟩
    · have := h2.2; rw [hc h2.1] at this; cases this
  rw [if_neg h2] at h
  have hc : c = true → bindsPos (env.decl s).sig a.length = true := fun hc => by
    cases hb : bindsPos (env.decl s).sig a.length with
    | true => rfl
    | false => exact absurd ⟨hc, hb⟩ h2
  by_cases h3 : (w.sig s).paused = true
  · rw [if_pos h3] at h
    obtain ⟨rfl, rfl⟩ := h
    have hg' : Good env w → Good env (w.collect s a) := fun hg => hg.upd' (fun _ => rfl) fun _ => ⟨rfl, rfl⟩
    refine ⟨fun e m l _ hg ho => ⟨m, l, ?_, hg' hg, ho.upd' fun _ => rfl⟩, fun _ _ e m l _ hg ho => ⟨m, l, ?_, hg' hg, ho.upd' fun _ => rfl⟩⟩
    · exact collect_alt ▸ emit_paused (v := alt e m l w) h1 hc h3
    · exact collect_alt ▸ fast_paused (v := alt e m l w) h1 h3
  rw [if_neg h3] at h
  have key : w.hook = none → Sim env (withBody env g) (.runLoop s a) w w' r := by
    intro hh
    rw [hh] at h
    obtain ⟨w1, r1, ⟨_, h4⟩, rfl, rfl⟩ := h
    exact h4
  refine ⟨fun e m l _ hg ho => ?_, fun hp _ e m l _ hg ho => (key hg.hook).2 hp h1 h3 e m l trivial hg ho⟩
  obtain ⟨m1, l1, h5, h6, h7⟩ := (key hg.hook).1 e m l trivial hg ho
  exact ⟨m1, l1, emit_loop h1 hc h3 hg.hook h5, h6, h7⟩

theorem sim_emitFast {s : SigId} {a : Args} {w w' : World} {r : Res} (h : (body env (.emitFast s a) w).Via (Sub env g) w' r) :
    Sim env (withBody env g) (.emitFast s a) w w' r := by
  simp only [body] at h
  by_cases h1 : (w.sig s).blocked = true
  · rw [if_pos h1] at h
    obtain ⟨rfl, rfl⟩ := h
    exact ⟨fun _ e m l _ hg ho => ⟨m, l, fast_blocked h1, hg, ho⟩, fun _ c _ e m l _ hg ho => ⟨m, l, emit_blocked h1, hg, ho⟩⟩
  rw [if_neg h1] at h
  by_cases h3 : (w.sig s).paused = true
  · rw [if_pos h3] at h
    obtain ⟨rfl, rfl⟩ := h
    have hg' : Good env w → Good env (w.collect s a) := fun hg => hg.upd' (fun _ => rfl) fun _ => ⟨rfl, rfl⟩
    refine ⟨fun _ e m l _ hg ho => ⟨m, l, ?_, hg' hg, ho.upd' fun _ => rfl⟩, fun _ c hc e m l _ hg ho => ⟨m, l, ?_, hg' hg, ho.upd' fun _ => rfl⟩⟩
    · exact collect_alt ▸ fast_paused (v := alt e m l w) h1 h3
    · exact collect_alt ▸ emit_paused (v := alt e m l w) h1 hc h3
  rw [if_neg h3] at h
  by_cases h4 : (w.sig s).depth ≥ LIMIT
  · rw [if_pos h4] at h
    obtain ⟨rfl, rfl⟩ := h
    exact ⟨fun _ e m l _ hg ho => ⟨m, l, fast_limit h1 h3 h4, hg, ho⟩,
      fun _ c hc e m l _ hg ho => ⟨m, l, emit_loop h1 hc h3 hg.hook (loop_limit h4), hg, ho⟩⟩
  rw [if_neg h4] at h
  obtain ⟨w1, r1, ⟨_, h5⟩, rfl, rfl⟩ := h
  refine ⟨fun hf e m l _ hg ho => ?_, fun hp c hc e m l _ hg ho => ?_⟩
  · obtain ⟨m1, l1, h6, h7, h8⟩ := h5 e m (l ++ [.fast s a w.nextEm]) (fun hn => absurd hf hn) (good_startFast hg) (ok_startFast ho rfl)
    rw [← startFast_alt] at h6
    exact ⟨m1, l1, endFast_both ▸ fast_loop (v := alt e m l w) h1 h3 h4 h6, good_endFast h7, ok_endFast_both h8⟩
  · have hq := (hg.st s hp).1
    obtain ⟨m1, l1, h6, h7, h8⟩ := h5 (some s) (put m s (max (m s) ((w.sig s).depth + 1))) (l ++ [.req s a]) (fun hn => absurd hp.2 hn)
      (good_startFast hg) ((ok_startFast ho rfl).put hp _)
    rw [← begun_fast (e := e) hq] at h6
    have h9 := plain_loop (env := withBody env g) (v := alt e m l w) hp hq h4 h6
    rw [end_fast h7 hp] at h9
    exact ⟨_, l1, emit_loop h1 hc h3 hg.hook h9, good_endFast h7, (ok_endFast_both h8).put hp _⟩

theorem sim_runLoop {s : SigId} {a : Args} {w w' : World} {r : Res} (h : (body env (.runLoop s a) w).Via (Sub env g) w' r) :
    Sim env (withBody env g) (.runLoop s a) w w' r := by
  simp only [body] at h
  by_cases h4 : (w.sig s).depth ≥ LIMIT
  · rw [if_pos h4] at h
    obtain ⟨rfl, rfl⟩ := h
    exact ⟨fun e m l _ hg ho => ⟨m, l, loop_limit h4, hg, ho⟩, fun _ h1 h3 e m l _ hg ho => ⟨m, l, fast_limit h1 h3 h4, hg, ho⟩⟩
  rw [if_neg h4] at h
  by_cases hp : env.Plain s
  · have key : Good env w → ∃ w1 r1, Go env (withBody env g) (fun _ => True) (.forSlots s w.nextEm a 0) (begun w s a) w1 r1 ∧
        w' = w1.endLoop s w.emitter ∧ r = wrapRes s r1 := by
      intro hg
      have hq := (hg.st s hp).1
      have h6 : ¬ ((w.enqueue s a).sig s).emitQueue.length > 1 := by rw [enq, hq]; simp
      rw [if_neg h6] at h
      obtain ⟨w1, r1, ⟨_, h5⟩, rfl, rfl⟩ := h
      exact ⟨w1, r1, h5.2 hp a (by rw [started, hq]; rfl), rfl, rfl⟩
    refine ⟨fun e m l _ hg ho => ?_, fun _ h1 h3 e m l _ hg ho => ?_⟩
    · obtain ⟨w1, r1, h5, rfl, rfl⟩ := key hg
      obtain ⟨m1, l1, h6, h7, h8⟩ := h5 (some s) (put m s (max (m s) ((w.sig s).depth + 1))) (l ++ [.req s a]) trivial (good_begun hg) (ok_begun ho)
      rw [← begun_alt (e := e)] at h6
      have h9 := plain_loop (env := withBody env g) (v := alt e m l w) hp (hg.st s hp).1 h4 h6
      rw [end_alt] at h9
      exact ⟨_, l1, h9, good_end h7 _, ok_end h8 _⟩
    · obtain ⟨w1, r1, h5, rfl, rfl⟩ := key hg
      obtain ⟨m1, l1, h6, h7, h8⟩ := h5 e m (l ++ [.fast s a w.nextEm]) trivial (good_begun hg) (ok_fast ho hp)
      rw [← fast_alt (hg.st s hp).1] at h6
      have h9 := fast_loop (env := withBody env g) (v := alt e m l w) h1 h3 h4 h6
      rw [endFast_alt (p := w.emitter) h7 hp] at h9
      exact ⟨m1, l1, h9, good_end h7 _, ok_endFast h8 hp _⟩
  · refine ⟨fun e m l _ hg ho => ?_, fun hp' => absurd hp' hp⟩
    have he : (alt e m l w).enqueue s a = alt e m (l ++ [.req s a]) (w.enqueue s a) := by
      have := upd_alt (e := e) (m := m) (l := l) (w := w) (s := s) (f := fun st => { st with emitQueue := st.emitQueue ++ [a] }) fun _ _ => rfl
      simp only [World.enqueue, this]
      rfl
    have hge : Good env (w.enqueue s a) := (hg.upd (s := s) (g := fun st => { st with emitQueue := st.emitQueue ++ [a] }) rfl fun hp' => absurd hp' hp).ev
    have hoe : Ok env m (l ++ [.req s a]) (w.enqueue s a) :=
      (ho.upd' (s := s) (g := fun st => { st with emitQueue := st.emitQueue ++ [a] }) fun _ => rfl).ev rfl
    by_cases h5 : ((w.enqueue s a).sig s).emitQueue.length > 1
    · rw [if_pos h5] at h
      obtain ⟨rfl, rfl⟩ := h
      refine ⟨m, _, ?_, hge, hoe⟩
      rw [runs_iff]
      simp only [body, if_neg (show ¬ ((alt e m l w).sig s).depth ≥ LIMIT from h4), he]
      refine (congrArg (Comp.Via _ · _ _) (if_pos h5)).mpr ⟨rfl, rfl⟩
    · rw [if_neg h5] at h
      obtain ⟨w1, r1, ⟨_, h6⟩, rfl, rfl⟩ := h
      have hgs : Good env ((w.enqueue s a).startLoop s) := by
        have := hge.upd (s := s) (g := SigState.enter) rfl fun hp' => absurd hp' hp
        exact ⟨this.hook, this.st, this.slots, this.tq⟩
      have hs : ((alt e m l w).enqueue s a).startLoop s =
          alt (some s) (put m s (max (m s) (((w.enqueue s a).sig s).depth + 1))) (l ++ [.req s a]) ((w.enqueue s a).startLoop s) := by
        rw [he]
        have := alt_upd (e := e) (m := m) (l := l ++ [.req s a]) (w := w.enqueue s a) (s := s) (g := SigState.enter)
          (x := max (m s) (((w.enqueue s a).sig s).depth + 1)) rfl
        simp only [World.startLoop, this]
        rfl
      have hos : Ok env (put m s (max (m s) (((w.enqueue s a).sig s).depth + 1))) (l ++ [.req s a]) ((w.enqueue s a).startLoop s) := by
        refine ⟨fun y hy => ?_, hoe.log⟩
        have := hoe.max y hy
        simp only [World.startLoop, World.upd, put]
        by_cases hys : y = s
        · subst hys; simp only [if_true, SigState.enter, this]
        · simp only [if_neg hys, this]
      obtain ⟨m1, l1, h7, h8, h9⟩ := h6.1 hp (some s) _ _ (fun _ => rfl) hgs hos
      rw [← hs] at h7
      refine ⟨_, l1, ?_, good_end h8 _, ok_end h9 _⟩
      rw [runs_iff]
      simp only [body, if_neg (show ¬ ((alt e m l w).sig s).depth ≥ LIMIT from h4)]
      have h5' : ¬ ((((alt e m l w).enqueue s a).sig s).emitQueue.length > 1) := by rw [he]; exact h5
      rw [if_neg h5']
      exact ⟨_, _, h7, end_alt.symm, rfl⟩

theorem sim_inner {s : SigId} {em : Nat} {w w' : World} {r : Res} (h : (body env (.inner s em) w).Via (Sub env g) w' r) :
    Sim env (withBody env g) (.inner s em) w w' r := by
  simp only [body] at h
  refine ⟨fun hp e m l he hg ho => ?_, fun hp a ha => ?_⟩
  · have e1 : (alt e m l w).popQueue s = alt e m l (w.popQueue s) := upd_alt fun _ _ => rfl
    have hg' : Good env (w.popQueue s) := hg.upd rfl fun hp' => absurd hp' hp
    have ho' : Ok env m l (w.popQueue s) := ho.upd' fun _ => rfl
    cases hm : (env.decl s).mode with
    | immediate =>
      cases hq : (w.sig s).emitQueue with
      | nil =>
        rw [hm, hq] at h
        obtain ⟨rfl, rfl⟩ := h
        refine ⟨m, l, ?_, hg, ho⟩
        rw [runs_iff]
        simp only [body, show ((withBody env g).decl s).mode = .immediate from hm, show ((alt e m l w').sig s).emitQueue = [] from hq]
        exact ⟨rfl, rfl⟩
      | cons a q =>
        rw [hm, hq] at h
        obtain ⟨w1, r1, ⟨_, h1⟩, rfl, rfl⟩ := h
        obtain ⟨m1, l1, h2, h3, h4⟩ := h1 e m l he hg' ho'
        refine ⟨m1, l1, ?_, h3, h4⟩
        rw [runs_iff]
        simp only [body, show ((withBody env g).decl s).mode = .immediate from hm, show ((alt e m l w).sig s).emitQueue = a :: q from hq, e1]
        exact ⟨_, _, h2, rfl, rfl⟩
    | latest =>
      cases hq : (w.sig s).emitQueue with
      | nil =>
        rw [hm, hq] at h
        obtain ⟨rfl, rfl⟩ := h
        refine ⟨m, l, ?_, hg, ho⟩
        rw [runs_iff]
        simp only [body, show ((withBody env g).decl s).mode = .latest from hm, show ((alt e m l w').sig s).emitQueue = [] from hq]
        exact ⟨rfl, rfl⟩
      | cons a q =>
        rw [hm, hq] at h
        obtain ⟨w1, r1, ⟨_, h1⟩, rfl, rfl⟩ := h
        obtain ⟨m1, l1, h2, h3, h4⟩ := h1 hp e m l he hg' ho'
        refine ⟨m1, l1, ?_, h3, h4⟩
        rw [runs_iff]
        simp only [body, show ((withBody env g).decl s).mode = .latest from hm, show ((alt e m l w).sig s).emitQueue = a :: q from hq, e1]
        exact ⟨_, _, h2, rfl, rfl⟩
    | queued =>
      rw [hm] at h
      obtain ⟨w1, r1, ⟨_, h1⟩, rfl, rfl⟩ := h
      obtain ⟨m1, l1, h2, h3, h4⟩ := h1 e m l he hg ho
      refine ⟨m1, l1, ?_, h3, h4⟩
      rw [runs_iff]
      simp only [body, show ((withBody env g).decl s).mode = .queued from hm]
      exact ⟨_, _, h2, rfl, rfl⟩
  · rw [hp.1, ha] at h
    obtain ⟨w1, r1, ⟨_, h1⟩, rfl, rfl⟩ := h
    exact fun e m l _ hg ho => h1 e m l (fun hn => absurd hp.2 hn) hg ho

/-- The callback is called in both runs by emitters that are the same if it relays. -/
theorem seen_slot {s : SigId} {w : World} {e : Option SigId} (hg : Good env w) (he : Seen env s w e) {i : Nat} {x : Slot}
    (hx : (w.sig s).slots[i]? = some x) : SeenBy x w e := fun r hr =>
  have h := hg.slots s x (List.mem_of_getElem? hx) r hr
  ⟨he h.1, h.2⟩

theorem seen_next {s : SigId} {w w1 : World} {e : Option SigId} {t : Task} {r : Res} (he : Seen env s w e) (h : Runs env t w w1 r) :
    Seen env s w1 e := fun hn => (he hn).trans (emitter_restored h).symm

theorem sim_forSlots {s : SigId} {em : Nat} {a : Args} {i : Nat} {w w' : World} {r : Res}
    (h : (body env (.forSlots s em a i) w).Via (Sub env g) w' r) : Sim env (withBody env g) (.forSlots s em a i) w w' r := by
  intro e m l he hg ho
  refine go_of ?_
  simp only [body] at h ⊢
  rw [show ((alt e m l w).sig s).slots = (w.sig s).slots from rfl]
  cases hx : (w.sig s).slots[i]? with
  | none => rw [hx] at h; obtain ⟨rfl, rfl⟩ := h; exact ⟨m, l, ⟨rfl, rfl⟩, hg, ho⟩
  | some x =>
    rw [hx] at h
    obtain ⟨w1, r1, ⟨h0, h1⟩, h⟩ := h
    obtain ⟨m1, l1, h2, h3, h4⟩ := h1 e m l (seen_slot hg he hx) hg ho
    cases r1 with
    | error x => obtain ⟨rfl, rfl⟩ := h; exact ⟨m1, l1, ⟨_, _, h2, rfl, rfl⟩, h3, h4⟩
    | ok u =>
      obtain ⟨w2, r2, ⟨_, h5⟩, rfl, rfl⟩ := h
      obtain ⟨m2, l2, h6, h7, h8⟩ := h5 e m1 l1 (seen_next he h0) h3 h4
      exact ⟨m2, l2, ⟨_, _, h2, _, _, h6, rfl, rfl⟩, h7, h8⟩

theorem sim_forLatest {s : SigId} {em : Nat} {a : Args} {i : Nat} {w w' : World} {r : Res}
    (h : (body env (.forLatest s em a i) w).Via (Sub env g) w' r) : Sim env (withBody env g) (.forLatest s em a i) w w' r := by
  intro hp e m l he hg ho
  refine go_of ?_
  simp only [body] at h ⊢
  rw [show ((alt e m l w).sig s).slots = (w.sig s).slots from rfl]
  cases hx : (w.sig s).slots[i]? with
  | none => rw [hx] at h; obtain ⟨rfl, rfl⟩ := h; exact ⟨m, l, ⟨rfl, rfl⟩, hg, ho⟩
  | some x =>
    rw [hx] at h
    dsimp only at h ⊢
    have hd : ((alt e m l w).sig s).maxDepth = (w.sig s).maxDepth := ho.max s hp
    rw [hd, show ((alt e m l w).sig s).depth = (w.sig s).depth from rfl]
    by_cases hlt : (w.sig s).depth < (w.sig s).maxDepth
    · rw [if_pos hlt] at h ⊢
      obtain ⟨rfl, rfl⟩ := h
      exact ⟨m, l, ⟨rfl, rfl⟩, hg, ho⟩
    rw [if_neg hlt] at h ⊢
    obtain ⟨w1, r1, ⟨h0, h1⟩, h⟩ := h
    obtain ⟨m1, l1, h2, h3, h4⟩ := h1 e m l (seen_slot hg he hx) hg ho
    cases r1 with
    | error x => obtain ⟨rfl, rfl⟩ := h; exact ⟨m1, l1, ⟨_, _, h2, rfl, rfl⟩, h3, h4⟩
    | ok u =>
      obtain ⟨w2, r2, ⟨_, h5⟩, rfl, rfl⟩ := h
      obtain ⟨m2, l2, h6, h7, h8⟩ := h5 hp e m1 l1 (seen_next he h0) h3 h4
      exact ⟨m2, l2, ⟨_, _, h2, _, _, h6, rfl, rfl⟩, h7, h8⟩

theorem sim_forQueued {s : SigId} {em : Nat} {a : Args} {i : Nat} {w w' : World} {r : Res}
    (h : (body env (.forQueued s em a i) w).Via (Sub env g) w' r) : Sim env (withBody env g) (.forQueued s em a i) w w' r := by
  intro e m l he hg ho
  refine go_of ?_
  simp only [body] at h ⊢
  rw [show ((alt e m l w).sig s).slots = (w.sig s).slots from rfl]
  cases hx : (w.sig s).slots[i]? with
  | none => rw [hx] at h; obtain ⟨rfl, rfl⟩ := h; exact ⟨m, l, ⟨rfl, rfl⟩, hg, ho⟩
  | some x =>
    rw [hx] at h
    obtain ⟨w1, r1, ⟨h0, h1⟩, h⟩ := h
    obtain ⟨m1, l1, h2, h3, h4⟩ := h1 e m l (seen_slot hg he hx) hg ho
    cases r1 with
    | error x => obtain ⟨rfl, rfl⟩ := h; exact ⟨m1, l1, ⟨_, _, h2, rfl, rfl⟩, h3, h4⟩
    | ok u =>
      dsimp only at h
      by_cases hlt : ((w1.sig s).emitQueue.length : Int) > LIMIT
      · rw [if_pos hlt] at h
        obtain ⟨rfl, rfl⟩ := h
        refine ⟨m1, l1, ⟨_, _, h2, ?_⟩, h3, h4⟩
        dsimp only
        refine (congrArg (Comp.Via _ · _ _) (if_pos hlt)).mpr ⟨rfl, rfl⟩
      · rw [if_neg hlt] at h
        obtain ⟨w2, r2, ⟨_, h5⟩, rfl, rfl⟩ := h
        obtain ⟨m2, l2, h6, h7, h8⟩ := h5 e m1 l1 (seen_next he h0) h3 h4
        refine ⟨m2, l2, ⟨_, _, h2, ?_⟩, h7, h8⟩
        dsimp only
        refine (congrArg (Comp.Via _ · _ _) (if_neg hlt)).mpr ⟨_, _, h6, rfl, rfl⟩

theorem sim_whileQueued {s : SigId} {em : Nat} {i : Nat} {w w' : World} {r : Res}
    (h : (body env (.whileQueued s em i) w).Via (Sub env g) w' r) : Sim env (withBody env g) (.whileQueued s em i) w w' r := by
  intro e m l he hg ho
  refine go_of ?_
  simp only [body] at h ⊢
  rw [show ((alt e m l w).sig s).emitQueue = (w.sig s).emitQueue from rfl]
  cases hx : (w.sig s).emitQueue[i]? with
  | none => rw [hx] at h; obtain ⟨rfl, rfl⟩ := h; exact ⟨m, l, ⟨rfl, rfl⟩, hg, ho⟩
  | some x =>
    rw [hx] at h
    obtain ⟨w1, r1, ⟨h0, h1⟩, h⟩ := h
    obtain ⟨m1, l1, h2, h3, h4⟩ := h1 e m l he hg ho
    cases r1 with
    | error x => obtain ⟨rfl, rfl⟩ := h; exact ⟨m1, l1, ⟨_, _, h2, rfl, rfl⟩, h3, h4⟩
    | ok u =>
      obtain ⟨w2, r2, ⟨_, h5⟩, rfl, rfl⟩ := h
      obtain ⟨m2, l2, h6, h7, h8⟩ := h5 e m1 l1 (seen_next he h0) h3 h4
      exact ⟨m2, l2, ⟨_, _, h2, _, _, h6, rfl, rfl⟩, h7, h8⟩

theorem sim_cb {em : Option Nat} {src : Option SigId} {x : Slot} {a : Args} {w w' : World} {r : Res}
    (h : (body env (.cb em src x a) w).Via (Sub env g) w' r) : Sim env (withBody env g) (.cb em src x a) w w' r := by
  intro e m l he hg ho
  refine go_of ?_
  simp only [body] at h ⊢
  have hd : ∀ {w1 : World} {r1 : Res}, Sim env (withBody env g) (.direct em src x a) w w1 r1 → w' = w1 → r = r1 →
      ∃ m' l', (Comp.call (.direct em src x a) (alt e m l w) .done).Via (Runs (withBody env g)) (alt e m' l' w') r ∧ Good env w' ∧ Ok env m' l' w' := by
    rintro w1 r1 h1 rfl rfl
    obtain ⟨m1, l1, h2, h3, h4⟩ := h1 e m l he hg ho
    exact ⟨m1, l1, ⟨_, _, h2, rfl, rfl⟩, h3, h4⟩
  cases hth : x.thread with
  | none =>
    rw [hth] at h
    obtain ⟨w1, r1, ⟨_, h1⟩, rfl, rfl⟩ := h
    exact hd h1 rfl rfl
  | some t =>
    rw [hth] at h
    dsimp only at h ⊢
    by_cases ht : w.thread = t
    · rw [if_pos ht] at h
      rw [if_pos (show (alt e m l w).thread = t from ht)]
      obtain ⟨w1, r1, ⟨_, h1⟩, rfl, rfl⟩ := h
      exact hd h1 rfl rfl
    · rw [if_neg ht] at h
      rw [if_neg (show ¬ (alt e m l w).thread = t from ht)]
      obtain ⟨rfl, rfl⟩ := h
      refine ⟨m, l ++ [.put t x.base a em], ⟨rfl, rfl⟩, ⟨hg.hook, hg.st, hg.slots, fun t' y hy r hr => ?_⟩, ⟨ho.max, ?_⟩⟩
      · simp only [World.putQueue] at hy
        split at hy
        · rcases List.mem_append.mp hy with hy | hy
          · exact hg.tq _ _ hy r hr
          · rw [List.mem_singleton.mp hy] at hr
            have := (he r hr).2
            rw [hth] at this
            cases this
        · exact hg.tq _ _ hy r hr
      · exact (ho.ev (x := .put t x.base a em) rfl).log

theorem sim_direct (hc : ∀ b a, (env.body b a).Alike env (g b a)) {em : Option Nat} {src : Option SigId} {x : Slot} {a : Args} {w w' : World} {r : Res}
    (h : (body env (.direct em src x a) w).Via (Sub env g) w' r) : Sim env (withBody env g) (.direct em src x a) w w' r := by
  intro e m l he hg ho
  refine go_of ?_
  simp only [body] at h ⊢
  by_cases hd : x.base.isDead w = true
  · rw [if_pos hd] at h
    obtain ⟨rfl, rfl⟩ := h
    rw [if_pos (show x.base.isDead (alt e m l _) = true from hd)]
    exact ⟨m, l, ⟨rfl, rfl⟩, hg, ho⟩
  rw [if_neg hd] at h
  rw [if_neg (show ¬ x.base.isDead (alt e m l w) = true from hd)]
  have hol : ∃ l', (alt e m l w).logCall em src x.base (x.callArgs a) = alt e m l' (w.logCall em src x.base (x.callArgs a)) ∧
      Ok env m l' (w.logCall em src x.base (x.callArgs a)) := by
    cases src with
    | none => exact ⟨l ++ [.call em none 0 e w.thread x.base (x.callArgs a)], rfl, ho.ev rfl⟩
    | some s => exact ⟨l ++ [.call em (some s) (w.sig s).depth e w.thread x.base (x.callArgs a)], rfl, ho.ev rfl⟩
  obtain ⟨l', e1, ho'⟩ := hol
  rw [e1]
  have hgl : Good env (w.logCall em src x.base (x.callArgs a)) := hg.ev
  have hret : ∀ {m1 : SigId → Int} {l1 : List Ev} {w1 : World} {r1 : Res}, Ok env m1 l1 w1 →
      Ok env m1 (l1 ++ [.ret em src x.base r1]) (w1.logRet em src x.base r1) := fun h => h.ev rfl
  cases hb : x.base with
  | relay r' =>
    have hs := (he r' hb).1
    rw [hb] at h hgl hret ho'
    obtain ⟨w1, r1, ⟨_, h1⟩, rfl, rfl⟩ := h
    obtain ⟨m1, l1, h2, h3, h4⟩ := h1 e m l' hs hgl ho'
    exact ⟨m1, _, ⟨_, _, h2, rfl, rfl⟩, h3.ev, hret h4⟩
  | _ =>
    have hcc := hc x.base (x.callArgs a)
    rw [hb] at h hgl hret ho' hcc
    obtain ⟨w1, r1, ⟨_, h1⟩, rfl, rfl⟩ := h
    obtain ⟨m1, l1, h2, h3, h4⟩ := h1 _ hcc e m l' trivial hgl ho'
    exact ⟨m1, _, ⟨_, _, h2, rfl, rfl⟩, h3.ev, hret h4⟩

theorem sim_slotRelay {s : SigId} {a : Args} {w w' : World} {r : Res} (h : (body env (.slotRelay s a) w).Via (Sub env g) w' r) :
    Sim env (withBody env g) (.slotRelay s a) w w' r := by
  rintro e m l rfl hg ho
  refine go_of ?_
  simp only [body] at h ⊢
  rw [show ((withBody env g).decl s).isRelay = (env.decl s).isRelay from rfl]
  split at h
  · rename_i hh; rw [if_pos hh]; obtain ⟨rfl, rfl⟩ := h; exact ⟨m, l, ⟨rfl, rfl⟩, hg, ho⟩
  · rename_i hh; rw [if_neg hh, show (alt w.emitter m l w).emitter = w.emitter from rfl]
    cases he : w.emitter with
    | none => rw [he] at h; obtain ⟨rfl, rfl⟩ := h; exact ⟨m, l, ⟨rfl, rfl⟩, hg, ho⟩
    | some e =>
      rw [he] at h
      dsimp only at h ⊢
      rw [show ((alt (some e) m l w).sig e).slots = (w.sig e).slots from rfl]
      split at h
      · rename_i hh; rw [if_pos hh]; obtain ⟨rfl, rfl⟩ := h; exact ⟨m, l, ⟨rfl, rfl⟩, hg, ho⟩
      · rename_i hh; rw [if_neg hh]; obtain ⟨w1, r1, ⟨_, h1⟩, rfl, rfl⟩ := h
        obtain ⟨m1, l1, h2, h3, h4⟩ := h1.1 (some e) m l trivial hg ho
        exact ⟨m1, l1, ⟨_, _, h2, rfl, rfl⟩, h3, h4⟩

theorem sim_replay {s : SigId} {i : Nat} {w w' : World} {r : Res} (h : (body env (.replay s i) w).Via (Sub env g) w' r) :
    Sim env (withBody env g) (.replay s i) w w' r := by
  intro e m l _ hg ho
  refine go_of ?_
  simp only [body] at h ⊢
  rw [show ((alt e m l w).sig s).argsQueue = (w.sig s).argsQueue from rfl]
  cases hx : (w.sig s).argsQueue[i]? with
  | none => rw [hx] at h; obtain ⟨rfl, rfl⟩ := h; exact ⟨m, l, ⟨rfl, rfl⟩, hg, ho⟩
  | some x =>
    rw [hx] at h
    obtain ⟨w1, r1, ⟨h0, h1⟩, h⟩ := h
    obtain ⟨m1, l1, h2, h3, h4⟩ := h1.1 e m l trivial hg ho
    cases r1 with
    | error x => obtain ⟨rfl, rfl⟩ := h; exact ⟨m1, l1, ⟨_, _, h2, rfl, rfl⟩, h3, h4⟩
    | ok u =>
      obtain ⟨w2, r2, ⟨_, h5⟩, rfl, rfl⟩ := h
      obtain ⟨m2, l2, h6, h7, h8⟩ := h5 e m1 l1 trivial h3 h4
      exact ⟨m2, l2, ⟨_, _, h2, _, _, h6, rfl, rfl⟩, h7, h8⟩

theorem sim_resume {s : SigId} {red : Option Reducer} {w w' : World} {r : Res} (h : (body env (.resume s red) w).Via (Sub env g) w' r) :
    Sim env (withBody env g) (.resume s red) w w' r := by
  intro e m l _ hg ho
  have hu : Good env (w.unpause s) := hg.upd' (fun _ => rfl) fun _ => ⟨rfl, rfl⟩
  have hou : Ok env m l (w.unpause s) := ho.upd' fun _ => rfl
  have eu : (alt e m l w).unpause s = alt e m l (w.unpause s) := upd_alt fun _ _ => rfl
  have hc : ∀ {w1 : World}, Good env w1 → Good env (w1.clearArgs s) := fun h => h.upd' (fun _ => rfl) fun _ => ⟨rfl, rfl⟩
  have hoc : ∀ {m1 : SigId → Int} {l1 : List Ev} {w1 : World}, Ok env m1 l1 w1 → Ok env m1 l1 (w1.clearArgs s) := fun h => h.upd' fun _ => rfl
  have ec : ∀ {m1 : SigId → Int} {l1 : List Ev} {w1 : World}, (alt e m1 l1 w1).clearArgs s = alt e m1 l1 (w1.clearArgs s) := upd_alt fun _ _ => rfl
  refine go_of ?_
  simp only [body] at h ⊢
  rw [eu, show ((alt e m l w).sig s).argsQueue = (w.sig s).argsQueue from rfl, show ((alt e m l w).sig s).slots = (w.sig s).slots from rfl, ec]
  split at h
  · rename_i hh; rw [if_pos hh]; obtain ⟨rfl, rfl⟩ := h; exact ⟨m, l, ⟨rfl, rfl⟩, hu, hou⟩
  · rename_i hh; rw [if_neg hh]; clear hh; split at h
    · rename_i hh; rw [if_pos hh]; obtain ⟨rfl, rfl⟩ := h; exact ⟨m, l, ⟨rfl, rfl⟩, hc hu, hoc hou⟩
    · rename_i hh; rw [if_neg hh]; clear hh; cases red with
      | none =>
        obtain ⟨w1, r1, ⟨_, h1⟩, h⟩ := h
        obtain ⟨m1, l1, h2, h3, h4⟩ := h1 e m l trivial hu hou
        cases r1 with
        | error x => obtain ⟨rfl, rfl⟩ := h; exact ⟨m1, l1, ⟨_, _, h2, rfl, rfl⟩, h3, h4⟩
        | ok u => obtain ⟨rfl, rfl⟩ := h; exact ⟨m1, l1, ⟨_, _, h2, ec.symm, rfl⟩, hc h3, hoc h4⟩
      | some rd =>
        dsimp only at h ⊢
        cases hrd : rd.run (w.sig s).argsQueue with
        | error x => rw [hrd] at h; obtain ⟨rfl, rfl⟩ := h; exact ⟨m, l, ⟨rfl, rfl⟩, hu, hou⟩
        | ok args =>
          rw [hrd] at h
          obtain ⟨w1, r1, ⟨_, h1⟩, h⟩ := h
          obtain ⟨m1, l1, h2, h3, h4⟩ := h1.1 e m l trivial hu hou
          cases r1 with
          | error x => obtain ⟨rfl, rfl⟩ := h; exact ⟨m1, l1, ⟨_, _, h2, rfl, rfl⟩, h3, h4⟩
          | ok u => obtain ⟨rfl, rfl⟩ := h; exact ⟨m1, l1, ⟨_, _, h2, ec.symm, rfl⟩, hc h3, hoc h4⟩

theorem sim_drain {t : ThreadId} {w w' : World} {r : Res} (h : (body env (.drain t) w).Via (Sub env g) w' r) :
    Sim env (withBody env g) (.drain t) w w' r := by
  intro e m l _ hg ho
  refine go_of ?_
  simp only [body] at h ⊢
  rw [show (alt e m l w).tq t = w.tq t from rfl]
  cases hq : w.tq t with
  | nil => rw [hq] at h; obtain ⟨rfl, rfl⟩ := h; exact ⟨m, l, ⟨rfl, rfl⟩, hg, ho⟩
  | cons y k =>
    obtain ⟨x, args⟩ := y
    rw [hq] at h
    obtain ⟨w1, r1, ⟨_, h1⟩, h⟩ := h
    have hgq : Good env (w.getQueue t x args) := by
      refine ⟨hg.hook, hg.st, hg.slots, fun t' y hy => ?_⟩
      simp only [World.getQueue] at hy
      split at hy
      · exact hg.tq t y (List.mem_of_mem_tail hy)
      · exact hg.tq t' y hy
    have hoq : Ok env m (l ++ [.get t x.base args]) (w.getQueue t x args) := ⟨ho.max, (ho.ev (x := .get t x.base args) rfl).log⟩
    obtain ⟨m1, l1, h2, h3, h4⟩ := h1 e m _ (fun r hr => absurd hr (hg.tq t (x, args) (by rw [hq]; exact .head _) r)) hgq hoq
    cases r1 with
    | error x => obtain ⟨rfl, rfl⟩ := h; exact ⟨m1, l1, ⟨_, _, h2, rfl, rfl⟩, h3, h4⟩
    | ok u =>
      obtain ⟨w2, r2, ⟨_, h5⟩, rfl, rfl⟩ := h
      obtain ⟨m2, l2, h6, h7, h8⟩ := h5 e m1 l1 trivial h3 h4
      exact ⟨m2, l2, ⟨_, _, h2, _, _, h6, rfl, rfl⟩, h7, h8⟩

theorem sim (hc : ∀ b a, (env.body b a).Alike env (g b a)) {t : Task} {w w' : World} {r : Res} (h : Runs env t w w' r) :
    Sim env (withBody env g) t w w' r := by
  refine Runs.induct (P := Sim env (withBody env g)) ?_ h
  clear h
  intro t w w' r h
  cases t with
  | prog p => exact sim_prog h
  | emit s a c => exact sim_emit h
  | emitFast s a => exact sim_emitFast h
  | runLoop s a => exact sim_runLoop h
  | inner s em => exact sim_inner h
  | forSlots s em a i => exact sim_forSlots h
  | forLatest s em a i => exact sim_forLatest h
  | forQueued s em a i => exact sim_forQueued h
  | whileQueued s em i => exact sim_whileQueued h
  | cb em src x a => exact sim_cb h
  | direct em src x a => exact sim_direct hc h
  | slotRelay s a => exact sim_slotRelay h
  | resume s red => exact sim_resume h
  | replay s i => exact sim_replay h
  | drain t => exact sim_drain h

theorem good_init : Good env .init :=
  ⟨rfl, fun _ _ => ⟨rfl, Int.le_refl _⟩, fun s x hx => by simp [World.init, SigState.init] at hx, fun t x hx => by simp [World.init] at hx⟩

theorem ok_init : Ok env (fun _ => 0) [] .init := ⟨fun _ _ => rfl, rfl⟩

/-- The programs of the one list are those of the other up to the kind of emission. -/
def Both (env : Env) : List (Bool × ThreadId × Prog) → List (Bool × ThreadId × Prog) → Prop
  | [], [] => True
  | x :: ps, y :: qs => (x.1 = y.1 ∧ x.2.1 = y.2.1 ∧ x.2.2.Alike env y.2.2) ∧ Both env ps qs
  | _, _ => False

theorem turns (hc : ∀ b a, (env.body b a).Alike env (g b a)) {ps qs : List (Bool × ThreadId × Prog)} (hp : Both env ps qs)
    {w w' : World} {rs : List (Bool × Res)} (h : Turns env ps w rs w') :
    ∀ {m l}, Good env w → Ok env m l w → ∃ m' l', Turns (withBody env g) qs (alt w.emitter m l w) rs (alt w.emitter m' l' w') ∧ Good env w' ∧ Ok env m' l' w' := by
  induction h generalizing qs with
  | nil =>
    intro m l hg ho
    cases qs with
    | nil => exact ⟨m, l, .nil, hg, ho⟩
    | cons => exact hp.elim
  | @cons b t p ps w w1 w2 r rs h1 _ ih =>
    intro m l hg ho
    cases qs with
    | nil => exact hp.elim
    | cons y qs =>
      obtain ⟨b', t', p'⟩ := y
      obtain ⟨⟨hb, ht, hpp⟩, hps⟩ := hp
      dsimp only at hb ht hpp
      subst hb
      subst ht
      obtain ⟨m1, l1, h2, h3, h4⟩ := sim hc h1 p' hpp w.emitter m l trivial ⟨hg.hook, hg.st, hg.slots, hg.tq⟩ ⟨ho.max, ho.log⟩
      obtain ⟨m2, l2, h5, h6, h7⟩ := ih hps h3 h4
      have he := emitter_restored h1
      dsimp only at he
      rw [he] at h5
      exact ⟨m2, l2, .cons h2 h5, h6, h7⟩

end
end Swap
end Psygnal
