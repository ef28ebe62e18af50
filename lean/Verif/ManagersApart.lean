import Verif.ManagersLemmas
import Verif.LoopShape
import Verif.LoopLemmas

/-! # Lemmas for C85: emissions while pausers overlap -/
namespace Psygnal
namespace Mgr

variable {env : Env} {s : SigId}

/-- The emissions of `s` that a procedure accepts if it returns. -/
def accepts (s : SigId) (w : World) : Task → List Args
  | .runLoop x a => if x = s then [a] else []
  | .replay x i => if x = s then (w.sig s).argsQueue.drop i else []
  | _ => []

theorem apart_task {w : World} {a : Act} {t : Task} (h : a.task? w = some t) (hc : Apart env s a) : t.Only (Apart env s) ∧ t.resumes s = false ∧ accepts s w t = [] := by
  obtain ⟨h1, h2, h3⟩ := hc
  cases a <;> simp [Act.task?] at h
  case emitQueued th => cases th <;> simp at h <;> subst h <;> simp [Task.Only, Task.resumes, accepts]
  all_goals subst h
  all_goals simp_all [Task.Only, Task.resumes, Act.Calm, Apart, Keeps, accepts]

theorem apart_run (w : World) (a : Act) (h : Apart env s a) : (((a.run env w).1).sig s).slots = (w.sig s).slots := keeps_run w a h.2.1

theorem apart_block (w : World) (x : SigId) (ex : List SigId) (s : SigId) :
    ((w.block env x ex).sig s).slots = (w.sig s).slots ∧ ((w.block env x ex).sig s).argsQueue = (w.sig s).argsQueue ∧ (w.block env x ex).log = w.log :=
  ⟨keeps_run (env := env) w (.block x ex) trivial, run_argsQueue env w (.block x ex) s, run_log env w (.block x ex)⟩

theorem apart_unblock (w : World) (x : SigId) (s : SigId) :
    ((w.unblock env x).sig s).slots = (w.sig s).slots ∧ ((w.unblock env x).sig s).argsQueue = (w.sig s).argsQueue ∧ (w.unblock env x).log = w.log :=
  ⟨keeps_run (env := env) w (.unblock x) trivial, run_argsQueue env w (.unblock x) s, run_log env w (.unblock x)⟩

theorem apart_pause {x : SigId} (h : Apart env s (.pause x)) : x ≠ s := h.1

theorem apart_pauses (env : Env) (w : World) (x : SigId) (s : SigId) :
    ((w.pause x).sig s).slots = (w.sig s).slots ∧ ((w.pause x).sig s).argsQueue = (w.sig s).argsQueue ∧ (w.pause x).log = w.log :=
  ⟨keeps_run (env := env) w (.pause x) trivial, run_argsQueue env w (.pause x) s, run_log env w (.pause x)⟩

theorem apart_emit {x : SigId} {a : Args} {c : Bool} (h : Apart env s (.emit x a c)) : x ≠ s := by
  rintro rfl; exact (h.2.2 a).1 c rfl

theorem apart_fast {x : SigId} {a : Args} (h : Apart env s (.emitFast x a)) : x ≠ s := by
  rintro rfl; exact (h.2.2 a).2 rfl

theorem apart_runs (hs : (env.decl s).isRelay = false) (henv : env.Only (Apart env s)) {t : Task} {w w' : World} {r : Res} (h : Runs env t w w' r) :
    t.Only (Apart env s) → t.resumes s = false →
      (w'.sig s).argsQueue = (w.sig s).argsQueue ∧ (w'.sig s).slots = (w.sig s).slots ∧
      (r = .ok () → accepted s w'.log = accepted s w.log ++ accepts s w t) ∧ (accepts s w t = [] → accepted s w'.log = accepted s w.log) := by
  refine Runs.induct (P := fun t w w' r => t.Only (Apart env s) → t.resumes s = false →
      (w'.sig s).argsQueue = (w.sig s).argsQueue ∧ (w'.sig s).slots = (w.sig s).slots ∧
      (r = .ok () → accepted s w'.log = accepted s w.log ++ accepts s w t) ∧ (accepts s w t = [] → accepted s w'.log = accepted s w.log)) ?_ h
  clear h
  intro t w w' r h hc hr
  unfold_body t h
  all_goals grind [Comp.Via, Task.Only, Prog.Only, Env.Only, Task.resumes, accepts, apart_task, apart_run, apart_block, apart_unblock, apart_pauses env, apart_pause, apart_emit, apart_fast, List.drop_eq_getElem_cons, List.drop_eq_nil_iff]

/-- An emission of `s` that returns. -/
theorem emit_step (hs : (env.decl s).isRelay = false) (henv : env.Only (Apart env s)) {w w' : World} {a : Args} {c : Bool}
    (h : Runs env (.emit s a c) w w' (.ok ())) (hb : (w.sig s).blocked = false) (hq : (w.sig s).paused = false → (w.sig s).argsQueue = []) :
    (w'.sig s).slots = (w.sig s).slots ∧ accepted s w'.log ++ (w'.sig s).argsQueue = accepted s w.log ++ (w.sig s).argsQueue ++ [a] ∧
      ((w.sig s).paused = false → (w'.sig s).argsQueue = []) := by
  rw [runs_iff] at h
  simp only [body, hb, Bool.false_eq_true, if_false] at h
  split at h
  · obtain ⟨_, h⟩ := h
    cases h
  · cases hp : (w.sig s).paused with
    | true =>
      rw [hp, if_pos rfl] at h
      obtain ⟨rfl, -⟩ := h
      refine ⟨?_, ?_, by simp⟩
      · simp [World.collect]
      · simp [World.collect]
    | false =>
      rw [hp, if_neg (by simp)] at h
      have hq := hq hp
      split at h
      · obtain ⟨w1, r1, h, rfl, rfl⟩ := h
        obtain ⟨k1, k2, k3, -⟩ := apart_runs hs henv h trivial rfl
        refine ⟨k2, ?_, fun _ => by rw [k1, hq]⟩
        rw [k3 rfl, k1, hq]
        simp [accepts]
      · obtain ⟨w1, r1, h1, h⟩ := h
        cases r1 with
        | error e => obtain ⟨_, h⟩ := h; cases h
        | ok _ =>
          obtain ⟨w2, r2, h, rfl, rfl⟩ := h
          obtain ⟨j1, j2, -, j3⟩ := apart_runs hs henv h1 trivial rfl
          obtain ⟨k1, k2, k3, -⟩ := apart_runs hs henv h trivial rfl
          refine ⟨k2.trans j2, ?_, fun _ => by rw [k1, j1, hq]⟩
          rw [k3 rfl, k1, j1, j3 rfl, hq]
          simp [accepts]

/-- Code that emits `s` once. -/
theorem emit_prog (hs : (env.decl s).isRelay = false) (henv : env.Only (Apart env s)) {w w' : World} {a : Args} {c : Bool} {k : Except Exc Resp → Prog}
    (h : Runs env (.prog (.api (.emit s a c) k)) w w' (.ok ())) (h1 : ∀ e, k (.error e) = .raise e) (h2 : ∀ v, (k (.ok v)).Only (Apart env s))
    (hb : (w.sig s).blocked = false) (hq : (w.sig s).paused = false → (w.sig s).argsQueue = []) :
    (w'.sig s).slots = (w.sig s).slots ∧ accepted s w'.log ++ (w'.sig s).argsQueue = accepted s w.log ++ (w.sig s).argsQueue ++ [a] ∧
      ((w.sig s).paused = false → (w'.sig s).argsQueue = []) := by
  rw [runs_iff] at h
  simp only [body, Act.task?] at h
  obtain ⟨w1, r1, h3, w2, r2, h4, rfl, rfl⟩ := h
  cases r1 with
  | error e =>
    simp only [Except.map, h1] at h4
    rw [runs_iff] at h4
    obtain ⟨_, h4⟩ := h4
    cases h4
  | ok _ =>
    obtain ⟨k1, k2, k3⟩ := emit_step hs henv h3 hb hq
    obtain ⟨j1, j2, -, j3⟩ := apart_runs hs henv h4 (h2 _) rfl
    rw [j1, j2, j3 rfl]
    exact ⟨k1, k2, k3⟩

/-- `resume` without reducer, if it returns. -/
theorem resume_step (hs : (env.decl s).isRelay = false) (henv : env.Only (Apart env s)) {w w' : World} (h : Runs env (.resume s none) w w' (.ok ()))
    (hl : (w.sig s).slots ≠ []) :
    (w'.sig s).slots = (w.sig s).slots ∧ accepted s w'.log = accepted s w.log ++ (w.sig s).argsQueue ∧ (w'.sig s).argsQueue = [] := by
  rw [runs_iff] at h
  simp only [body] at h
  split at h
  · rename_i hh
    obtain ⟨rfl, -⟩ := h
    have := List.isEmpty_iff.1 hh
    refine ⟨?_, ?_, ?_⟩
    · simp [World.unpause]
    · simp [this, World.unpause]
    · simp [this, World.unpause]
  · split at h
    · rename_i hh
      exact absurd (List.isEmpty_iff.1 hh) hl
    · obtain ⟨w1, r1, h1, h⟩ := h
      cases r1 with
      | error e => obtain ⟨_, h⟩ := h; cases h
      | ok _ =>
        obtain ⟨rfl, -⟩ := h
        obtain ⟨k1, k2, k3, -⟩ := apart_runs hs henv h1 trivial rfl
        refine ⟨?_, ?_, ?_⟩
        · simpa [World.clearArgs, World.unpause] using k2
        · simpa [World.clearArgs, World.unpause, accepts] using k3 rfl
        · simp [World.clearArgs]

theorem only_calm : ∀ p : Prog, p.Only (Apart env s) → p.Calm env s
  | .ret, _ => trivial
  | .raise _, _ => trivial
  | .user _ k, h => fun m => only_calm (k m) (h m)
  | .api _ k, h => ⟨h.1.1, fun r => only_calm (k r) (h.2 r)⟩
  | .withBlocked _ _ b k, h => ⟨h.1.1.2, only_calm b h.2.2.1, fun r => only_calm (k r) (h.2.2.2 r)⟩
  | .withPaused _ _ b k, h => ⟨only_calm b h.2.2.1, fun r => only_calm (k r) (h.2.2.2 r)⟩

/-- What has been emitted so far is `acc`. -/
structure Cnt (s : SigId) (acc : List Args) (o : List Nat) (σ : CtxWorld) : Prop where
  nb : (σ.w.sig s).blocked = false
  ne : (σ.w.sig s).slots ≠ []
  quiet : (σ.w.sig s).paused = false → (σ.w.sig s).argsQueue = []
  sum : accepted s σ.w.log ++ (σ.w.sig s).argsQueue = acc
  plain : ∀ i ∈ o, (∀ ex was, σ.ctx i ≠ some (.blocker s ex was)) ∧ ∀ red was, σ.ctx i = some (.pauser s red was) → red = none
  far : ∀ i ∈ o, ∃ c, σ.ctx i = some c ∧ ∀ x ex was, c = .blocker x ex was → ¬ MemberOf env s x

theorem Cnt.closes (hs : (env.decl s).isRelay = false) (henv : env.Only (Apart env s)) {acc : List Args} {o : List Nat} {σ : CtxWorld}
    (h : Cnt (env := env) s acc o σ) {t : ThreadId} {i : Nat} (hi : i ∈ o) {w : World}
    (hr : (CtxWorld.comp env { σ with w := { σ.w with thread := t } } (.exit i)).Via (Runs env) w (.ok ())) :
    Cnt (env := env) s acc (o.erase i) ⟨w, σ.ctx⟩ := by
  obtain ⟨c, hc, hm⟩ := h.far i hi
  have hp := h.plain i hi
  have plain : ∀ j ∈ o.erase i, _ := fun j hj => h.plain j (List.mem_of_mem_erase hj)
  have far : ∀ j ∈ o.erase i, _ := fun j hj => h.far j (List.mem_of_mem_erase hj)
  have calm : env.Calm s := fun b a => only_calm _ (henv b a)
  simp only [CtxWorld.comp, hc] at hr
  cases c with
  | blocker x ex was =>
    obtain ⟨rfl, -⟩ := hr
    cases was with
    | true => exact ⟨h.nb, h.ne, h.quiet, h.sum, plain, far⟩
    | false =>
      have e : x ≠ s := by rintro rfl; exact hp.1 _ _ hc
      have u := unblock_other env { σ.w with thread := t } x s e (hm x ex false rfl)
      obtain ⟨u1, u2, u3⟩ := apart_unblock (env := env) { σ.w with thread := t } x s
      have u4 := unblock_paused env { σ.w with thread := t } x s
      refine ⟨?_, ?_, ?_, ?_, plain, far⟩
      · exact u.trans h.nb
      · exact fun hh => h.ne (u1.symm.trans hh)
      · exact fun hh => u2.trans (h.quiet (u4.symm.trans hh))
      · exact Eq.trans (congr (congrArg (fun a b => accepted s a ++ b) u3) u2) h.sum
  | pauser x red was =>
    cases was with
    | true =>
      obtain ⟨rfl, -⟩ := hr
      exact ⟨h.nb, h.ne, h.quiet, h.sum, plain, far⟩
    | false =>
      simp only [Bool.false_eq_true, if_false] at hr
      obtain ⟨w1, r1, hr, rfl, rfl⟩ := hr
      obtain ⟨k1, k2, k3⟩ := calm_restores calm hr trivial
      by_cases e : x = s
      · subst e
        obtain rfl := hp.2 _ _ hc
        obtain ⟨j1, j2, j3⟩ := resume_step hs henv hr h.ne
        refine ⟨k1.trans h.nb, ?_, fun _ => j3, ?_, plain, far⟩
        · dsimp only; rw [j1]; exact h.ne
        · dsimp only; rw [j2, j3, List.append_nil]; exact h.sum
      · obtain ⟨j1, j2, -, j3⟩ := apart_runs hs henv hr trivial (by simp [Task.resumes, e])
        refine ⟨k1.trans h.nb, ?_, ?_, ?_, plain, far⟩
        · dsimp only; rw [j2]; exact h.ne
        · dsimp only; rw [k2 (by simp [Task.resumes, e]), j1]; exact h.quiet
        · dsimp only; rw [j3 rfl, j1]; exact h.sum

theorem Cnt.opens {acc : List Args} {o : List Nat} {σ : CtxWorld} (h : Cnt (env := env) s acc o σ) {w : World} {i : Nat} {c : Ctx} {ctx : Nat → Option Ctx}
    (h1 : (w.sig s).blocked = false) (h2 : (w.sig s).slots = (σ.w.sig s).slots) (h3 : (w.sig s).argsQueue = (σ.w.sig s).argsQueue)
    (h4 : (w.sig s).paused = false → (σ.w.sig s).paused = false) (h5 : w.log = σ.w.log) (hc : ctx = fun j => if j = i then some c else σ.ctx j)
    (h6 : (∀ ex was, c ≠ .blocker s ex was) ∧ ∀ red was, c = .pauser s red was → red = none)
    (h7 : ∀ x ex was, c = .blocker x ex was → ¬ MemberOf env s x) : Cnt (env := env) s acc (i :: o) ⟨w, ctx⟩ := by
  subst hc
  refine ⟨h1, ?_, ?_, ?_, ?_, ?_⟩
  · dsimp only; rw [h2]; exact h.ne
  · dsimp only; intro hp; rw [h3]; exact h.quiet (h4 hp)
  · dsimp only; rw [h5, h3]; exact h.sum
  · intro j hj
    dsimp only
    by_cases e : j = i
    · rw [if_pos e]
      exact ⟨fun ex was hh => h6.1 ex was (Option.some.inj hh), fun red was hh => h6.2 red was (Option.some.inj hh)⟩
    · rw [if_neg e]
      exact h.plain j ((List.mem_cons.1 hj).resolve_left e)
  · intro j hj
    dsimp only
    by_cases e : j = i
    · exact ⟨c, if_pos e, h7⟩
    · rw [if_neg e]
      exact h.far j ((List.mem_cons.1 hj).resolve_left e)

theorem emitsOf_apart {t : ThreadId} {p : Prog} (l : List (ThreadId × CtxOp)) (h : p.Only (Apart env s)) : emitsOf s ((t, .run p) :: l) = emitsOf s l := by
  cases p with
  | api a k =>
    cases a with
    | emit x a c => simp only [emitsOf]; rw [if_neg (apart_emit h.1)]
    | _ => rfl
  | _ => rfl

theorem cnt_run (hs : (env.decl s).isRelay = false) (henv : env.Only (Apart env s)) :
    ∀ (l : List (ThreadId × CtxOp)) (o : List Nat) (σ : CtxWorld) (o' : List Nat) (rs : List Res) (σ' : CtxWorld) (acc : List Args),
    Cnt (env := env) s acc o σ → Overlap env s o l o' → (∀ e ∈ l, e.2.Counted env s) → CtxRun env l σ rs σ' → (∀ r ∈ rs, r = .ok ()) →
      Cnt (env := env) s (acc ++ emitsOf s l) o' σ'
  | [], o, σ, o', rs, σ', acc, hi, ho, hc, hr, hk => by
    cases hr
    simp only [Overlap] at ho
    subst ho
    simpa [emitsOf] using hi
  | (t, .run p) :: l, o, σ, o', rs, σ', acc, hi, ho, hc, hr, hk => by
    obtain ⟨w, r, rs', rfl, h1, h2⟩ := run_cons hr
    obtain ⟨w1, r1, h1, rfl, rfl⟩ := h1
    obtain rfl := hk r (List.mem_cons_self ..)
    have calm : env.Calm s := fun b a => only_calm _ (henv b a)
    obtain ⟨k1, k2, -⟩ := calm_restores calm h1 ho.1
    have hk' : ∀ r ∈ rs', r = .ok () := fun r hr => hk r (List.mem_cons_of_mem _ hr)
    have hc' : ∀ e ∈ l, e.2.Counted env s := fun e he => hc e (List.mem_cons_of_mem _ he)
    rcases hc _ (List.mem_cons_self ..) with hp | ⟨a, c, k, rfl, e1, e2⟩
    · rw [emitsOf_apart l hp]
      obtain ⟨j1, j2, -, j3⟩ := apart_runs hs henv h1 hp rfl
      refine cnt_run hs henv l o ⟨w, σ.ctx⟩ o' rs' σ' acc ⟨k1.trans hi.nb, ?_, ?_, ?_, hi.plain, hi.far⟩ ho.2 hc' h2 hk'
      · dsimp only; rw [j2]; exact hi.ne
      · dsimp only; rw [k2 rfl, j1]; exact hi.quiet
      · dsimp only; rw [j3 rfl, j1]; exact hi.sum
    · obtain ⟨j1, j2, j3⟩ := emit_prog hs henv h1 e1 e2 hi.nb hi.quiet
      simp only [emitsOf, if_true]
      have := cnt_run hs henv l o ⟨w, σ.ctx⟩ o' rs' σ' (acc ++ [a]) ⟨k1.trans hi.nb, ?_, ?_, ?_, hi.plain, hi.far⟩ ho.2 hc' h2 hk'
      · simpa using this
      · dsimp only; rw [j1]; exact hi.ne
      · dsimp only; rw [k2 rfl]; exact j3
      · dsimp only; rw [j2]; congr 1; exact hi.sum
  | (t, .blocked i x ex) :: (t', .enter j) :: l, o, σ, o', rs, σ', acc, hi, ho, hc, hr, hk => by
    obtain ⟨rfl, h3, h4, h5⟩ := ho
    obtain ⟨w, r, rs', rfl, ⟨rfl, rfl⟩, h2⟩ := run_cons hr
    obtain ⟨w, r, rs', rfl, h1, h6⟩ := run_cons h2
    simp only [CtxWorld.comp, CtxWorld.vars, if_true] at h1
    obtain ⟨rfl, rfl⟩ := h1
    have e : x ≠ s := hc _ (List.mem_cons_self ..)
    obtain ⟨u1, u2, u3⟩ := apart_block (env := env) { { σ.w with thread := t } with thread := t' } x ex s
    refine cnt_run hs henv l _ _ o' rs' σ' acc (hi.opens (i := j) (c := .blocker x ex (σ.w.sig x).blocked) ?_ u1 u2 ?_ u3 rfl ⟨?_, ?_⟩ ?_) h5
      (fun e he => hc e (List.mem_cons_of_mem _ (List.mem_cons_of_mem _ he))) h6 (fun r hr => hk r (List.mem_cons_of_mem _ (List.mem_cons_of_mem _ hr)))
    · rw [block_other _ _ _ _ _ e h4]; exact hi.nb
    · rw [block_paused]; exact id
    · rintro _ _ ⟨⟩; exact e rfl
    · rintro _ _ ⟨⟩
    · rintro _ _ _ ⟨⟩; exact h4
  | (t, .paused i x red) :: (t', .enter j) :: l, o, σ, o', rs, σ', acc, hi, ho, hc, hr, hk => by
    obtain ⟨rfl, h3, h4, h5⟩ := ho
    obtain ⟨w, r, rs', rfl, ⟨rfl, rfl⟩, h2⟩ := run_cons hr
    obtain ⟨w, r, rs', rfl, h1, h6⟩ := run_cons h2
    simp only [CtxWorld.comp, CtxWorld.vars, if_true] at h1
    obtain ⟨rfl, rfl⟩ := h1
    have e : x = s → red = none := hc _ (List.mem_cons_self ..)
    obtain ⟨u1, u2, u3⟩ := apart_pauses env { { σ.w with thread := t } with thread := t' } x s
    refine cnt_run hs henv l _ _ o' rs' σ' acc (hi.opens (i := j) (c := .pauser x red (σ.w.sig x).paused) ?_ u1 u2 ?_ u3 rfl ⟨?_, ?_⟩ ?_) h5
      (fun e he => hc e (List.mem_cons_of_mem _ (List.mem_cons_of_mem _ he))) h6 (fun r hr => hk r (List.mem_cons_of_mem _ (List.mem_cons_of_mem _ hr)))
    · simp only [World.pause, upd_sig]
      split
      · subst_vars; exact hi.nb
      · exact hi.nb
    · simp only [World.pause, upd_sig]
      split
      · simp
      · exact id
    · rintro _ _ ⟨⟩
    · rintro _ _ ⟨⟩; exact e rfl
    · rintro _ _ _ ⟨⟩
  | (t, .exit i) :: l, o, σ, o', rs, σ', acc, hi, ho, hc, hr, hk => by
    obtain ⟨w, r, rs', rfl, h1, h2⟩ := run_cons hr
    obtain rfl := hk r (List.mem_cons_self ..)
    exact cnt_run hs henv l _ _ o' rs' σ' acc (hi.closes hs henv ho.1 h1) ho.2 (fun e he => hc e (List.mem_cons_of_mem _ he)) h2
      fun r hr => hk r (List.mem_cons_of_mem _ hr)
  | [(_, .blocked ..)], _, _, _, _, _, _, _, ho, _, _, _ => by simp [Overlap] at ho
  | [(_, .paused ..)], _, _, _, _, _, _, _, ho, _, _, _ => by simp [Overlap] at ho
  | (_, .enter _) :: _, _, _, _, _, _, _, _, ho, _, _, _ => by simp [Overlap] at ho
  | (_, .blocked ..) :: (_, .blocked ..) :: _, _, _, _, _, _, _, _, ho, _, _, _ => by simp [Overlap] at ho
  | (_, .blocked ..) :: (_, .paused ..) :: _, _, _, _, _, _, _, _, ho, _, _, _ => by simp [Overlap] at ho
  | (_, .blocked ..) :: (_, .exit _) :: _, _, _, _, _, _, _, _, ho, _, _, _ => by simp [Overlap] at ho
  | (_, .blocked ..) :: (_, .run _) :: _, _, _, _, _, _, _, _, ho, _, _, _ => by simp [Overlap] at ho
  | (_, .paused ..) :: (_, .blocked ..) :: _, _, _, _, _, _, _, _, ho, _, _, _ => by simp [Overlap] at ho
  | (_, .paused ..) :: (_, .paused ..) :: _, _, _, _, _, _, _, _, ho, _, _, _ => by simp [Overlap] at ho
  | (_, .paused ..) :: (_, .exit _) :: _, _, _, _, _, _, _, _, ho, _, _, _ => by simp [Overlap] at ho
  | (_, .paused ..) :: (_, .run _) :: _, _, _, _, _, _, _, _, ho, _, _, _ => by simp [Overlap] at ho

end Mgr
end Psygnal
