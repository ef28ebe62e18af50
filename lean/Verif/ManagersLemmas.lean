import Verif.Managers
import Verif.BlockLemmas

/-! # Lemmas for C85: overlapping context managers -/
namespace Psygnal
namespace Mgr

variable {env : Env} {s : SigId}

theorem run_cons {t : ThreadId} {op : CtxOp} {l : List (ThreadId × CtxOp)} {σ σ' : CtxWorld} {rs : List Res} (h : CtxRun env ((t, op) :: l) σ rs σ') :
    ∃ w r rs', rs = r :: rs' ∧ (CtxWorld.comp env { σ with w := { σ.w with thread := t } } op).Via (Runs env) w r ∧
      CtxRun env l ⟨w, σ.vars op⟩ rs' σ' := by
  cases h with
  | cons n h1 h2 => exact ⟨_, _, _, rfl, Comp.Via.mono (fun t w w' r h => ⟨n, h⟩) _ _ _ (runComp_via _ _ _ _ h1), h2⟩

/-- An open manager that will lift the block. -/
def holdB (ctx : Nat → Option Ctx) (s : SigId) (i : Nat) : Bool :=
  match ctx i with
  | some (.blocker x _ was) => x == s && !was
  | _ => false

/-- An open manager that will lift the pause. -/
def holdP (ctx : Nat → Option Ctx) (s : SigId) (i : Nat) : Bool :=
  match ctx i with
  | some (.pauser x _ was) => x == s && !was
  | _ => false

/-- One of the open managers has changed a flag that was `b0` before. -/
structure Held (b0 b : Bool) (n : Nat) : Prop where
  one : n ≤ 1
  val : b = (b0 || n == 1)
  zero : b0 = true → n = 0

structure Inv (env : Env) (s : SigId) (b0 p0 : Bool) (o : List Nat) (σ : CtxWorld) : Prop where
  nodup : o.Nodup
  far : ∀ i ∈ o, ∃ c, σ.ctx i = some c ∧ ∀ x ex was, c = .blocker x ex was → ¬ MemberOf env s x
  blk : Held b0 (σ.w.sig s).blocked (o.countP (holdB σ.ctx s))
  psd : Held p0 (σ.w.sig s).paused (o.countP (holdP σ.ctx s))

variable {b0 p0 : Bool} {o : List Nat} {σ : CtxWorld}

theorem Held.opens {b : Bool} {n : Nat} (h : Held b0 b n) : Held b0 true (n + if b then 0 else 1) := by
  obtain ⟨h1, h2, h3⟩ := h
  have : n = 0 ∨ n = 1 := by omega
  rcases this with rfl | rfl <;> cases b0 <;> simp at h2 h3 <;> subst h2 <;> constructor <;> simp

theorem Held.closes {b : Bool} {n : Nat} (h : Held b0 b (n + 1)) : Held b0 false n := by
  obtain ⟨h1, h2, h3⟩ := h
  have : n = 0 := by omega
  subst this
  cases b0 <;> (constructor <;> simp_all)

theorem countP_new {f g : Nat → Bool} {i : Nat} (hi : i ∉ o) (h : ∀ j, j ≠ i → f j = g j) :
    (i :: o).countP f = o.countP g + if f i then 1 else 0 := by
  rw [List.countP_cons]
  congr 1
  refine List.countP_congr fun j hj => ?_
  rw [h j (fun e => hi (e ▸ hj))]

theorem countP_erase {f : Nat → Bool} {i : Nat} (hi : i ∈ o) : o.countP f = (o.erase i).countP f + if f i then 1 else 0 := by
  rw [List.Perm.countP_eq f (List.perm_cons_erase hi), List.countP_cons]

/-- Opening a blocker. -/
theorem Inv.openB (h : Inv env s b0 p0 o σ) {t t' : ThreadId} {i : Nat} {x : SigId} {ex : List SigId} (hi : i ∉ o) (hx : ¬ MemberOf env s x) :
    Inv env s b0 p0 (i :: o) ⟨World.block env { { σ.w with thread := t } with thread := t' } x ex, σ.vars (.blocked i x ex)⟩ := by
  refine ⟨List.nodup_cons.2 ⟨hi, h.nodup⟩, ?_, ?_, ?_⟩
  · intro j hj
    dsimp only [CtxWorld.vars]
    by_cases e : j = i
    · exact ⟨_, if_pos e, by rintro y ey was ⟨⟩; exact hx⟩
    · rw [if_neg e]
      exact h.far j ((List.mem_cons.1 hj).resolve_left e)
  · rw [countP_new (g := holdB σ.ctx s) hi fun j hj => by simp [holdB, CtxWorld.vars, hj]]
    by_cases e : x = s
    · subst e
      rw [block_self]
      have : holdB (σ.vars (.blocked i x ex)) x i = !(σ.w.sig x).blocked := by simp [holdB, CtxWorld.vars]
      rw [this]
      have := h.blk.opens
      cases hb : (σ.w.sig x).blocked <;> rw [hb] at this <;> exact this
    · rw [block_other _ _ _ _ _ e hx]
      have : holdB (σ.vars (.blocked i x ex)) s i = false := by simp [holdB, CtxWorld.vars, e]
      rw [this]
      exact h.blk
  · rw [countP_new (g := holdP σ.ctx s) hi fun j hj => by simp [holdP, CtxWorld.vars, hj], block_paused]
    have : holdP (σ.vars (.blocked i x ex)) s i = false := by simp [holdP, CtxWorld.vars]
    rw [this]
    exact h.psd

theorem Inv.openP (h : Inv env s b0 p0 o σ) {t t' : ThreadId} {i : Nat} {x : SigId} {red : Option Reducer} (hi : i ∉ o) :
    Inv env s b0 p0 (i :: o) ⟨World.pause { { σ.w with thread := t } with thread := t' } x, σ.vars (.paused i x red)⟩ := by
  refine ⟨List.nodup_cons.2 ⟨hi, h.nodup⟩, ?_, ?_, ?_⟩
  · intro j hj
    dsimp only [CtxWorld.vars]
    by_cases e : j = i
    · exact ⟨_, if_pos e, by rintro y ey was ⟨⟩⟩
    · rw [if_neg e]
      exact h.far j ((List.mem_cons.1 hj).resolve_left e)
  · rw [countP_new (g := holdB σ.ctx s) hi fun j hj => by simp [holdB, CtxWorld.vars, hj]]
    have : holdB (σ.vars (.paused i x red)) s i = false := by simp [holdB, CtxWorld.vars]
    rw [this]
    have e : ((World.pause { { σ.w with thread := t } with thread := t' } x).sig s).blocked = (σ.w.sig s).blocked := by
      simp only [World.pause, upd_sig]
      split <;> rfl
    rw [e]
    exact h.blk
  · rw [countP_new (g := holdP σ.ctx s) hi fun j hj => by simp [holdP, CtxWorld.vars, hj]]
    by_cases e : x = s
    · subst e
      have : holdP (σ.vars (.paused i x red)) x i = !(σ.w.sig x).paused := by simp [holdP, CtxWorld.vars]
      rw [this]
      have := h.psd.opens
      simp only [World.pause, upd_sig_same]
      cases hb : (σ.w.sig x).paused <;> rw [hb] at this <;> exact this
    · have : holdP (σ.vars (.paused i x red)) s i = false := by simp [holdP, CtxWorld.vars, e]
      rw [this]
      simp only [World.pause]
      rw [upd_sig_ne _ _ (Ne.symm e)]
      exact h.psd

theorem Inv.run (h : Inv env s b0 p0 o σ) {w : World} (hb : (w.sig s).blocked = (σ.w.sig s).blocked) (hp : (w.sig s).paused = (σ.w.sig s).paused) :
    Inv env s b0 p0 o ⟨w, σ.ctx⟩ := by
  refine ⟨h.nodup, h.far, ?_, ?_⟩
  · dsimp only; rw [hb]; exact h.blk
  · dsimp only; rw [hp]; exact h.psd

theorem Inv.close (henv : env.Calm s) (h : Inv env s b0 p0 o σ) {t : ThreadId} {i : Nat} (hi : i ∈ o) {w : World} {r : Res}
    (hr : (CtxWorld.comp env { σ with w := { σ.w with thread := t } } (.exit i)).Via (Runs env) w r) : Inv env s b0 p0 (o.erase i) ⟨w, σ.ctx⟩ := by
  obtain ⟨c, hc, hm⟩ := h.far i hi
  have hb := h.blk
  have hp := h.psd
  rw [countP_erase hi] at hb hp
  have far : ∀ j ∈ o.erase i, ∃ c, σ.ctx j = some c ∧ ∀ x ex was, c = .blocker x ex was → ¬ MemberOf env s x :=
    fun j hj => h.far j (List.mem_of_mem_erase hj)
  simp only [CtxWorld.comp, hc] at hr
  cases c with
  | blocker x ex was =>
    have e2 : holdP σ.ctx s i = false := by simp [holdP, hc]
    rw [e2] at hp
    obtain ⟨rfl, rfl⟩ := hr
    cases was with
    | true =>
      have e1 : holdB σ.ctx s i = false := by simp [holdB, hc]
      rw [e1] at hb
      exact ⟨h.nodup.erase _, far, hb, hp⟩
    | false =>
      by_cases e : x = s
      · subst e
        have e1 : holdB σ.ctx x i = true := by simp [holdB, hc]
        rw [e1] at hb
        refine ⟨h.nodup.erase _, far, ?_, ?_⟩
        · simp only [Bool.false_eq_true, if_false, unblock_self]
          exact hb.closes
        · simp only [Bool.false_eq_true, if_false, unblock_paused]
          exact hp
      · have e1 : holdB σ.ctx s i = false := by simp [holdB, hc, e]
        rw [e1] at hb
        refine ⟨h.nodup.erase _, far, ?_, ?_⟩
        · simp only [Bool.false_eq_true, if_false]
          rw [unblock_other _ _ _ _ e (hm x ex false rfl)]
          exact hb
        · simp only [Bool.false_eq_true, if_false, unblock_paused]
          exact hp
  | pauser x red was =>
    have e2 : holdB σ.ctx s i = false := by simp [holdB, hc]
    rw [e2] at hb
    cases was with
    | true =>
      obtain ⟨rfl, rfl⟩ := hr
      have e1 : holdP σ.ctx s i = false := by simp [holdP, hc]
      rw [e1] at hp
      exact ⟨h.nodup.erase _, far, hb, hp⟩
    | false =>
      simp only [Bool.false_eq_true, if_false] at hr
      obtain ⟨w1, r1, hr, rfl, rfl⟩ := hr
      obtain ⟨k1, k2, k3⟩ := calm_restores henv hr trivial
      by_cases e : x = s
      · subst e
        have e1 : holdP σ.ctx x i = true := by simp [holdP, hc]
        rw [e1] at hp
        refine ⟨h.nodup.erase _, far, ?_, ?_⟩
        · dsimp only; rw [k1]; exact hb
        · dsimp only; rw [k3 (by simp [Task.resumes])]; exact hp.closes
      · have e1 : holdP σ.ctx s i = false := by simp [holdP, hc, e]
        rw [e1] at hp
        refine ⟨h.nodup.erase _, far, ?_, ?_⟩
        · dsimp only; rw [k1]; exact hb
        · dsimp only; rw [k2 (by simp [Task.resumes, e])]; exact hp

theorem inv_run (henv : env.Calm s) : ∀ (l : List (ThreadId × CtxOp)) (o : List Nat) (σ : CtxWorld) (o' : List Nat) (rs : List Res) (σ' : CtxWorld),
    Inv env s b0 p0 o σ → Overlap env s o l o' → CtxRun env l σ rs σ' → Inv env s b0 p0 o' σ'
  | [], o, σ, o', rs, σ', hi, ho, hr => by
    cases hr
    simp only [Overlap] at ho
    subst ho
    exact hi
  | (t, .run p) :: l, o, σ, o', rs, σ', hi, ho, hr => by
    obtain ⟨w, r, rs', -, h1, h2⟩ := run_cons hr
    obtain ⟨w1, r1, h1, rfl, rfl⟩ := h1
    obtain ⟨k1, k2, -⟩ := calm_restores henv h1 ho.1
    exact inv_run henv l o _ o' rs' σ' (hi.run k1 (k2 rfl)) ho.2 h2
  | (t, .blocked i x ex) :: (t', .enter j) :: l, o, σ, o', rs, σ', hi, ho, hr => by
    obtain ⟨rfl, h3, h4, h5⟩ := ho
    obtain ⟨w, r, rs', -, ⟨rfl, rfl⟩, h2⟩ := run_cons hr
    obtain ⟨w, r, rs', -, h1, h2⟩ := run_cons h2
    simp only [CtxWorld.comp, CtxWorld.vars, if_true] at h1
    obtain ⟨rfl, rfl⟩ := h1
    exact inv_run henv l _ _ o' rs' σ' (hi.openB h3 h4) h5 h2
  | (t, .paused i x red) :: (t', .enter j) :: l, o, σ, o', rs, σ', hi, ho, hr => by
    obtain ⟨rfl, h3, h4, h5⟩ := ho
    obtain ⟨w, r, rs', -, ⟨rfl, rfl⟩, h2⟩ := run_cons hr
    obtain ⟨w, r, rs', -, h1, h2⟩ := run_cons h2
    simp only [CtxWorld.comp, CtxWorld.vars, if_true] at h1
    obtain ⟨rfl, rfl⟩ := h1
    exact inv_run henv l _ _ o' rs' σ' (hi.openP h3) h5 h2
  | (t, .exit i) :: l, o, σ, o', rs, σ', hi, ho, hr => by
    obtain ⟨w, r, rs', -, h1, h2⟩ := run_cons hr
    exact inv_run henv l _ _ o' rs' σ' (hi.close henv ho.1 h1) ho.2 h2
  | [(_, .blocked ..)], _, _, _, _, _, _, ho, _ => by simp [Overlap] at ho
  | [(_, .paused ..)], _, _, _, _, _, _, ho, _ => by simp [Overlap] at ho
  | (_, .enter _) :: _, _, _, _, _, _, _, ho, _ => by simp [Overlap] at ho
  | (_, .blocked ..) :: (_, .blocked ..) :: _, _, _, _, _, _, _, ho, _ => by simp [Overlap] at ho
  | (_, .blocked ..) :: (_, .paused ..) :: _, _, _, _, _, _, _, ho, _ => by simp [Overlap] at ho
  | (_, .blocked ..) :: (_, .exit _) :: _, _, _, _, _, _, _, ho, _ => by simp [Overlap] at ho
  | (_, .blocked ..) :: (_, .run _) :: _, _, _, _, _, _, _, ho, _ => by simp [Overlap] at ho
  | (_, .paused ..) :: (_, .blocked ..) :: _, _, _, _, _, _, _, ho, _ => by simp [Overlap] at ho
  | (_, .paused ..) :: (_, .paused ..) :: _, _, _, _, _, _, _, ho, _ => by simp [Overlap] at ho
  | (_, .paused ..) :: (_, .exit _) :: _, _, _, _, _, _, _, ho, _ => by simp [Overlap] at ho
  | (_, .paused ..) :: (_, .run _) :: _, _, _, _, _, _, _, ho, _ => by simp [Overlap] at ho

theorem inv_start (σ : CtxWorld) : Inv env s (σ.w.sig s).blocked (σ.w.sig s).paused [] σ :=
  ⟨List.nodup_nil, by simp, ⟨by simp, by simp, by simp⟩, ⟨by simp, by simp, by simp⟩⟩

/-- The variable of an open manager keeps its value until the manager is closed. -/
theorem open_kept {i : Nat} : ∀ (l : List (ThreadId × CtxOp)) (o : List Nat) (σ : CtxWorld) (o' : List Nat) (rs : List Res) (σ' : CtxWorld),
    i ∈ o → (∀ e ∈ l, e.2 ≠ .exit i) → Overlap env s o l o' → CtxRun env l σ rs σ' → i ∈ o' ∧ σ'.ctx i = σ.ctx i
  | [], o, σ, o', rs, σ', hi, hn, ho, hr => by
    cases hr
    simp only [Overlap] at ho
    subst ho
    exact ⟨hi, rfl⟩
  | (t, .run p) :: l, o, σ, o', rs, σ', hi, hn, ho, hr => by
    obtain ⟨w, r, rs', -, h1, h2⟩ := run_cons hr
    exact open_kept l o ⟨w, σ.ctx⟩ o' rs' σ' hi (fun e he => hn e (List.mem_cons_of_mem _ he)) ho.2 h2
  | (t, .blocked k x ex) :: (t', .enter j) :: l, o, σ, o', rs, σ', hi, hn, ho, hr => by
    obtain ⟨rfl, h3, h4, h5⟩ := ho
    obtain ⟨w, r, rs', -, -, h2⟩ := run_cons hr
    obtain ⟨w, r, rs', -, -, h2⟩ := run_cons h2
    obtain ⟨k1, k2⟩ := open_kept l _ _ o' rs' σ' (List.mem_cons_of_mem _ hi) (fun e he => hn e (List.mem_cons_of_mem _ (List.mem_cons_of_mem _ he))) h5 h2
    refine ⟨k1, k2.trans (if_neg ?_)⟩
    rintro rfl
    exact h3 hi
  | (t, .paused k x red) :: (t', .enter j) :: l, o, σ, o', rs, σ', hi, hn, ho, hr => by
    obtain ⟨rfl, h3, h4, h5⟩ := ho
    obtain ⟨w, r, rs', -, -, h2⟩ := run_cons hr
    obtain ⟨w, r, rs', -, -, h2⟩ := run_cons h2
    obtain ⟨k1, k2⟩ := open_kept l _ _ o' rs' σ' (List.mem_cons_of_mem _ hi) (fun e he => hn e (List.mem_cons_of_mem _ (List.mem_cons_of_mem _ he))) h5 h2
    refine ⟨k1, k2.trans (if_neg ?_)⟩
    rintro rfl
    exact h3 hi
  | (t, .exit j) :: l, o, σ, o', rs, σ', hi, hn, ho, hr => by
    obtain ⟨w, r, rs', -, h1, h2⟩ := run_cons hr
    have hne : i ≠ j := by rintro rfl; exact hn _ (List.mem_cons_self ..) rfl
    exact open_kept l _ ⟨w, σ.ctx⟩ o' rs' σ' ((List.mem_erase_of_ne hne).2 hi) (fun e he => hn e (List.mem_cons_of_mem _ he)) ho.2 h2
  | [(_, .blocked ..)], _, _, _, _, _, _, _, ho, _ => by simp [Overlap] at ho
  | [(_, .paused ..)], _, _, _, _, _, _, _, ho, _ => by simp [Overlap] at ho
  | (_, .enter _) :: _, _, _, _, _, _, _, _, ho, _ => by simp [Overlap] at ho
  | (_, .blocked ..) :: (_, .blocked ..) :: _, _, _, _, _, _, _, _, ho, _ => by simp [Overlap] at ho
  | (_, .blocked ..) :: (_, .paused ..) :: _, _, _, _, _, _, _, _, ho, _ => by simp [Overlap] at ho
  | (_, .blocked ..) :: (_, .exit _) :: _, _, _, _, _, _, _, _, ho, _ => by simp [Overlap] at ho
  | (_, .blocked ..) :: (_, .run _) :: _, _, _, _, _, _, _, _, ho, _ => by simp [Overlap] at ho
  | (_, .paused ..) :: (_, .blocked ..) :: _, _, _, _, _, _, _, _, ho, _ => by simp [Overlap] at ho
  | (_, .paused ..) :: (_, .paused ..) :: _, _, _, _, _, _, _, _, ho, _ => by simp [Overlap] at ho
  | (_, .paused ..) :: (_, .exit _) :: _, _, _, _, _, _, _, _, ho, _ => by simp [Overlap] at ho
  | (_, .paused ..) :: (_, .run _) :: _, _, _, _, _, _, _, _, ho, _ => by simp [Overlap] at ho

theorem Inv.holdsB (h : Inv env s b0 p0 o σ) {i : Nat} (hi : i ∈ o) {ex : List SigId} (hc : σ.ctx i = some (.blocker s ex false)) :
    (σ.w.sig s).blocked = true := by
  have : 0 < o.countP (holdB σ.ctx s) := List.countP_pos_iff.2 ⟨i, hi, by simp [holdB, hc]⟩
  have h1 := h.blk.one
  rw [h.blk.val, show o.countP (holdB σ.ctx s) = 1 by omega]
  simp

theorem Inv.holdsP (h : Inv env s b0 p0 o σ) {i : Nat} (hi : i ∈ o) {red : Option Reducer} (hc : σ.ctx i = some (.pauser s red false)) :
    (σ.w.sig s).paused = true := by
  have : 0 < o.countP (holdP σ.ctx s) := List.countP_pos_iff.2 ⟨i, hi, by simp [holdP, hc]⟩
  have h1 := h.psd.one
  rw [h.psd.val, show o.countP (holdP σ.ctx s) = 1 by omega]
  simp

/-- A variable keeps its value through steps that do not assign it. -/
theorem spared {i : Nat} : ∀ (l : List (ThreadId × CtxOp)) (σ : CtxWorld) (rs : List Res) (σ' : CtxWorld),
    (∀ e ∈ l, e.2.spares i) → CtxRun env l σ rs σ' → σ'.ctx i = σ.ctx i
  | [], σ, rs, σ', hn, hr => by cases hr; rfl
  | (t, op) :: l, σ, rs, σ', hn, hr => by
    obtain ⟨w, r, rs', -, -, h2⟩ := run_cons hr
    refine (spared l _ rs' σ' (fun e he => hn e (List.mem_cons_of_mem _ he)) h2).trans ?_
    have := hn _ (List.mem_cons_self ..)
    cases op <;> simp only [CtxWorld.vars, CtxOp.spares] at this ⊢
    · exact if_neg (Ne.symm this)
    · exact if_neg (Ne.symm this)

theorem run_append {l1 l2 : List (ThreadId × CtxOp)} : ∀ {σ σ' : CtxWorld} {rs : List Res}, CtxRun env (l1 ++ l2) σ rs σ' →
    ∃ σ1 rs1 rs2, rs = rs1 ++ rs2 ∧ CtxRun env l1 σ rs1 σ1 ∧ CtxRun env l2 σ1 rs2 σ' := by
  induction l1 with
  | nil => exact fun h => ⟨_, [], _, rfl, .nil, h⟩
  | cons e l1 ih =>
    intro σ σ' rs h
    cases h with
    | cons n h1 h2 =>
      obtain ⟨σ1, rs1, rs2, rfl, h3, h4⟩ := ih h2
      exact ⟨σ1, _ :: rs1, rs2, rfl, .cons n h1 h3, h4⟩

/-- Code does not change threads. -/
theorem runs_thread {t : Task} {w w' : World} {r : Res} (h : Runs env t w w' r) : w'.thread = w.thread := by
  refine Runs.induct (P := fun t w w' r => w'.thread = w.thread) ?_ h
  clear h
  intro t w w' r h
  unfold_body t h
  all_goals grind [Comp.Via]

theorem cons_of {t : ThreadId} {op : CtxOp} {l : List (ThreadId × CtxOp)} {σ σ' : CtxWorld} {w : World} {r : Res} {rs : List Res}
    (h1 : (CtxWorld.comp env { σ with w := { σ.w with thread := t } } op).Via (Runs env) w r) (h2 : CtxRun env l ⟨w, σ.vars op⟩ rs σ') :
    CtxRun env ((t, op) :: l) σ (r :: rs) σ' := by
  obtain ⟨n, hn⟩ := runs_via_aux env _ _ _ h1
  exact .cons n hn h2

theorem leave_runs {w w' : World} {r r' : Res} : Runs env (.prog (leave r)) w w' r' ↔ w' = w ∧ r' = r := by
  rw [runs_iff]
  cases r <;> exact Iff.rfl

theorem at_thread {w : World} {t : ThreadId} (h : w.thread = t) : ({ w with thread := t } : World) = w := by
  subst h; rfl

theorem with_blocked (i : Nat) (ex : List SigId) (b : Prog) (w w' : World) (ctx : Nat → Option Ctx) (r : Res) :
    Runs env (.prog (.withBlocked s ex b leave)) w w' r ↔
      CtxRun env [(w.thread, .blocked i s ex), (w.thread, .enter i), (w.thread, .run b), (w.thread, .exit i)] ⟨w, ctx⟩ [.ok (), .ok (), r, .ok ()]
        ⟨w', fun j => if j = i then some (.blocker s ex (w.sig s).blocked) else ctx j⟩ := by
  have hb : (w.block env s ex).thread = w.thread := by simp
  rw [runs_iff]
  constructor
  · rintro ⟨w1, r1, h1, w2, r2, h2, rfl, rfl⟩
    rw [leave_runs] at h2
    obtain ⟨rfl, rfl⟩ := h2
    have ht : w1.thread = w.thread := (runs_thread h1).trans hb
    refine cons_of (w := w) ⟨rfl, rfl⟩ (cons_of (w := w.block env s ex) (r := .ok ()) ?_ (cons_of (w := w1) ?_ (cons_of (r := .ok ()) ?_ .nil)))
    · simp only [CtxWorld.comp, CtxWorld.vars, if_true]
      exact ⟨rfl, rfl⟩
    · simp only [CtxWorld.comp]
      rw [at_thread hb]
      exact ⟨_, _, h1, rfl, rfl⟩
    · simp only [CtxWorld.comp, CtxWorld.vars, if_true]
      rw [at_thread ht]
      exact ⟨rfl, rfl⟩
  · intro h
    obtain ⟨_, _, _, e, ⟨rfl, rfl⟩, h⟩ := run_cons h
    cases e
    obtain ⟨_, _, _, e, h1, h⟩ := run_cons h
    cases e
    simp only [CtxWorld.comp, CtxWorld.vars, if_true] at h1
    obtain ⟨rfl, -⟩ := h1
    obtain ⟨w1, _, _, e, ⟨_, _, h1, rfl, rfl⟩, h⟩ := run_cons h
    cases e
    obtain ⟨w2, _, _, e, h2, h⟩ := run_cons h
    cases e
    cases h
    simp only [at_thread hb] at h1
    have ht : w1.thread = w.thread := (runs_thread h1).trans hb
    simp only [CtxWorld.comp, CtxWorld.vars, if_true, at_thread ht] at h2
    obtain ⟨rfl, -⟩ := h2
    exact ⟨_, _, h1, _, _, leave_runs.2 ⟨rfl, rfl⟩, rfl, rfl⟩

theorem with_paused (i : Nat) (red : Option Reducer) (b : Prog) (w w' : World) (ctx : Nat → Option Ctx) (r : Res) :
    Runs env (.prog (.withPaused s red b leave)) w w' r ↔ ∃ r1 r2 : Res,
      CtxRun env [(w.thread, .paused i s red), (w.thread, .enter i), (w.thread, .run b), (w.thread, .exit i)] ⟨w, ctx⟩ [.ok (), .ok (), r1, r2]
        ⟨w', fun j => if j = i then some (.pauser s red (w.sig s).paused) else ctx j⟩ ∧ r = match r2 with | .ok _ => r1 | .error e => .error e := by
  have hb : (w.pause s).thread = w.thread := by simp
  rw [runs_iff]
  constructor
  · rintro ⟨w1, r1, h1, h2⟩
    have ht : w1.thread = w.thread := (runs_thread h1).trans hb
    have key : ∀ w' r2, (CtxWorld.comp env ⟨w1, fun j => if j = i then some (.pauser s red (w.sig s).paused) else ctx j⟩ (.exit i)).Via (Runs env) w' r2 →
        CtxRun env [(w.thread, .paused i s red), (w.thread, .enter i), (w.thread, .run b), (w.thread, .exit i)] ⟨w, ctx⟩ [.ok (), .ok (), r1, r2]
        ⟨w', fun j => if j = i then some (.pauser s red (w.sig s).paused) else ctx j⟩ := by
      intro w' r2 h
      refine cons_of (w := w) ⟨rfl, rfl⟩ (cons_of (w := w.pause s) (r := .ok ()) ?_ (cons_of (w := w1) (r := r1) ?_ (cons_of (r := r2) ?_ .nil)))
      · simp only [CtxWorld.comp, CtxWorld.vars, if_true]
        exact ⟨rfl, rfl⟩
      · simp only [CtxWorld.comp]
        rw [at_thread hb]
        exact ⟨_, _, h1, rfl, rfl⟩
      · simp only [CtxWorld.vars]
        rw [at_thread ht]
        exact h
    cases hp : (w.sig s).paused with
    | true =>
      simp only [hp, if_true] at h2
      obtain ⟨w2, r2, h2, rfl, rfl⟩ := h2
      rw [leave_runs] at h2
      obtain ⟨rfl, rfl⟩ := h2
      rw [← hp]
      refine ⟨_, .ok (), key _ _ ?_, rfl⟩
      simp only [CtxWorld.comp, if_true, hp]
      exact ⟨rfl, rfl⟩
    | false =>
      simp only [hp, Bool.false_eq_true, if_false] at h2
      obtain ⟨w2, r2, h2, w3, r3, h3, rfl, rfl⟩ := h2
      rw [leave_runs] at h3
      obtain ⟨rfl, rfl⟩ := h3
      rw [← hp]
      refine ⟨_, r2, key _ _ ?_, rfl⟩
      simp only [CtxWorld.comp, if_true, hp]
      exact ⟨_, _, h2, rfl, rfl⟩
  · rintro ⟨r1, r2, h, rfl⟩
    obtain ⟨_, _, _, e, ⟨rfl, rfl⟩, h⟩ := run_cons h
    cases e
    obtain ⟨_, _, _, e, h1, h⟩ := run_cons h
    cases e
    simp only [CtxWorld.comp, CtxWorld.vars, if_true] at h1
    obtain ⟨rfl, -⟩ := h1
    obtain ⟨w1, _, _, e, ⟨_, _, h1, rfl, rfl⟩, h⟩ := run_cons h
    cases e
    obtain ⟨w2, _, _, e, h2, h⟩ := run_cons h
    cases e
    cases h
    simp only [at_thread hb] at h1
    have ht : w1.thread = w.thread := (runs_thread h1).trans hb
    simp only [CtxWorld.comp, CtxWorld.vars, if_true, at_thread ht] at h2
    refine ⟨_, _, h1, ?_⟩
    dsimp only
    split at h2
    · rename_i hp
      rw [if_pos hp]
      obtain ⟨rfl, rfl⟩ := h2
      exact ⟨_, _, leave_runs.2 ⟨rfl, rfl⟩, rfl, rfl⟩
    · rename_i hp
      rw [if_neg hp]
      obtain ⟨w3, r3, h2, rfl, rfl⟩ := h2
      exact ⟨_, _, h2, _, _, leave_runs.2 ⟨rfl, rfl⟩, rfl, rfl⟩

end Mgr
end Psygnal
