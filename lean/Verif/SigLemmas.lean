import Verif.DeliveryLemmas

/-!
# Python signatures and argument-count checking (helper lemmas for C16)
-/
namespace Psygnal

/-! ## The accepted range of positional arguments -/

/-- Number of required positional parameters. -/
def cReq : PySig → Nat
  | [] => 0
  | p :: ps => (if p.isPos ∧ ¬ p.hasDefault then 1 else 0) + cReq ps

/-- Number of optional positional parameters. -/
def cOpt : PySig → Nat
  | [] => 0
  | p :: ps => (if p.isPos ∧ p.hasDefault then 1 else 0) + cOpt ps

/-- Is there a `*args`? -/
def anyVar (sg : PySig) : Bool := sg.any fun p => p.kind == .varPos

/-- Is there a required keyword-only parameter? -/
def anyReqKw (sg : PySig) : Bool := sg.any fun p => p.kind == .kwOnly && !p.hasDefault

theorem posargLoop_eq : ∀ (sg : PySig) (req opt : Nat) (unl : Bool),
    posargLoop sg req opt unl = if anyReqKw sg then none else
      some (req + cReq sg, if unl || anyVar sg then none else some (req + cReq sg + (opt + cOpt sg)))
  | [], req, opt, unl => by simp [posargLoop, anyReqKw, anyVar, cReq, cOpt]
  | ⟨k, d⟩ :: ps, req, opt, unl => by
    have ih := posargLoop_eq ps
    cases k <;> cases d <;>
      simp [posargLoop, ih, anyReqKw, anyVar, cReq, cOpt, Param.isPos] <;>
      (try (split <;> simp_all <;> omega)) <;> grind

theorem posargRange_eq (sg : PySig) : posargRange sg = if anyReqKw sg then none else
    some (cReq sg, if anyVar sg then none else some (cReq sg + cOpt sg)) := by
  rw [posargRange, posargLoop_eq]
  simp

theorem noPos_counts : ∀ {sg : PySig}, (∀ q ∈ sg, 2 ≤ q.kind.phase) → cReq sg = 0 ∧ cOpt sg = 0
  | [], _ => ⟨rfl, rfl⟩
  | ⟨k, d⟩ :: ps, h => by
    have h1 := h ⟨k, d⟩ (by simp)
    obtain ⟨h2, h3⟩ := noPos_counts (sg := ps) fun q hq => h q (by simp [hq])
    cases k <;> simp_all [Kind.phase, cReq, cOpt, Param.isPos]

theorem noVar : ∀ {sg : PySig}, (∀ q ∈ sg, 3 ≤ q.kind.phase) → anyVar sg = false
  | [], _ => rfl
  | ⟨k, d⟩ :: ps, h => by
    have h1 := h ⟨k, d⟩ (by simp)
    have h2 := noVar (sg := ps) fun q hq => h q (by simp [hq])
    cases k <;> simp_all [Kind.phase, anyVar]

theorem allDefault_counts : ∀ {sg : PySig}, (∀ q ∈ sg, q.isPos → q.hasDefault) → cReq sg = 0
  | [], _ => rfl
  | p :: ps, h => by
    have h1 := h p (by simp)
    have h2 := allDefault_counts (sg := ps) fun q hq => h q (by simp [hq])
    unfold cReq
    rw [h2]
    split
    · rename_i hp
      exact absurd (h1 hp.1) hp.2
    · rfl

theorem bindsPos_eq : ∀ (sg : PySig), WFSig sg → ∀ k, bindsPos sg k = true ↔
    anyReqKw sg = false ∧ cReq sg ≤ k ∧ (anyVar sg = true ∨ k ≤ cReq sg + cOpt sg)
  | [], _, k => by simp [bindsPos, anyReqKw, anyVar, cReq, cOpt]
  | ⟨kd, d⟩ :: ps, ⟨hph, hv1, hv2, hdef, hwf⟩, k => by
    have ih := bindsPos_eq ps hwf
    have hph' : ∀ q ∈ ps, kd.phase ≤ q.kind.phase := hph
    have pos : (kd = .posOnly ∨ kd = .posOrKw) → (bindsPos (⟨kd, d⟩ :: ps) k = true ↔
        anyReqKw (⟨kd, d⟩ :: ps) = false ∧ cReq (⟨kd, d⟩ :: ps) ≤ k ∧
        (anyVar (⟨kd, d⟩ :: ps) = true ∨ k ≤ cReq (⟨kd, d⟩ :: ps) + cOpt (⟨kd, d⟩ :: ps))) := by
      intro hk
      have hpos : Param.isPos ⟨kd, d⟩ = true := by rcases hk with rfl | rfl <;> rfl
      have e1 : anyReqKw (⟨kd, d⟩ :: ps) = anyReqKw ps := by
        rcases hk with rfl | rfl <;> simp [anyReqKw]
      have e2 : anyVar (⟨kd, d⟩ :: ps) = anyVar ps := by
        rcases hk with rfl | rfl <;> simp [anyVar]
      have e3 : bindsPos (⟨kd, d⟩ :: ps) k = match k with
          | 0 => d && bindsPos ps 0
          | k + 1 => bindsPos ps k := by rcases hk with rfl | rfl <;> rfl
      rw [e1, e2, e3]
      cases d with
      | false =>
        simp only [cReq, cOpt, hpos, true_and, Bool.false_eq_true, not_false_eq_true, if_true, if_false]
        cases k with
        | zero => simp
        | succ k => simp only [ih]; grind
      | true =>
        have h0 := allDefault_counts (sg := ps) (fun q hq h => hdef hpos rfl q hq h)
        simp only [cReq, cOpt, hpos, true_and, not_true_eq_false, if_true, if_false]
        rw [h0]
        cases k with
        | zero => simp [ih, h0]
        | succ k => simp only [ih, h0]; grind
    cases kd with
    | posOnly => exact pos (.inl rfl)
    | posOrKw => exact pos (.inr rfl)
    | varPos =>
      obtain ⟨h1, h2⟩ := noPos_counts (sg := ps) fun q hq => hph' q hq
      simp [bindsPos, ih, anyReqKw, anyVar, cReq, cOpt, Param.isPos, h1, h2]
    | kwOnly =>
      obtain ⟨h1, h2⟩ := noPos_counts (sg := ps) fun q hq => Nat.le_trans (by decide) (hph' q hq)
      have h3 := noVar (sg := ps) fun q hq => hph' q hq
      cases d <;> simp [bindsPos, ih, anyReqKw, anyVar, cReq, cOpt, Param.isPos, h1, h2] <;>
        simp_all [anyVar]
    | varKw =>
      obtain ⟨h1, h2⟩ := noPos_counts (sg := ps) fun q hq => Nat.le_trans (by decide) (hph' q hq)
      have h3 := noVar (sg := ps) fun q hq => Nat.le_trans (by decide) (hph' q hq)
      simp [bindsPos, ih, anyReqKw, anyVar, cReq, cOpt, Param.isPos, h1, h2]

theorem WFSig.dropBound : ∀ {sg : PySig} {m : Nat} {sg' : PySig}, WFSig sg →
    Psygnal.dropBound sg m = some sg' → WFSig sg'
  | sg, 0, sg', h, e => by simp [Psygnal.dropBound] at e; subst e; exact h
  | [], m + 1, _, _, e => by simp [Psygnal.dropBound] at e
  | ⟨k, d⟩ :: ps, m + 1, sg', h, e => by
    cases k <;> simp [Psygnal.dropBound] at e
    · exact WFSig.dropBound (sg := ps) h.2.2.2.2 e
    · exact WFSig.dropBound (sg := ps) h.2.2.2.2 e
    · subst e; exact h

theorem dropBound_binds : ∀ {sg : PySig} {m : Nat} {sg' : PySig}, dropBound sg m = some sg' →
    ∀ k, bindsPos sg (m + k) = bindsPos sg' k
  | sg, 0, sg', e, k => by simp [dropBound] at e; subst e; simp
  | [], m + 1, _, e, _ => by simp [dropBound] at e
  | ⟨kd, d⟩ :: ps, m + 1, sg', e, k => by
    have : m + 1 + k = (m + k) + 1 := by omega
    rw [this]
    cases kd <;> simp [dropBound] at e
    · simpa [bindsPos] using dropBound_binds e k
    · simpa [bindsPos] using dropBound_binds e k
    · subst e; simp [bindsPos]

theorem dropBound_none : ∀ {sg : PySig} {m : Nat}, dropBound sg m = none →
    ∀ k, WFSig sg → bindsPos sg (m + k) = false
  | sg, 0, e, k, _ => by simp [dropBound] at e
  | [], m + 1, e, k, _ => by simp [bindsPos]
  | ⟨kd, d⟩ :: ps, m + 1, e, k, hw => by
    have : m + 1 + k = (m + k) + 1 := by omega
    cases kd <;> simp [dropBound] at e
    · rw [this]; simpa [bindsPos] using dropBound_none e k hw.2.2.2.2
    · rw [this]; simpa [bindsPos] using dropBound_none e k hw.2.2.2.2
    all_goals
      have hph : ∀ q ∈ ps, 3 ≤ q.kind.phase := fun q hq => Nat.le_trans (by simp [Kind.phase]) (hw.1 q hq)
      obtain ⟨h1, h2⟩ := noPos_counts (sg := ps) fun q hq => Nat.le_trans (by decide) (hph q hq)
      have h3 := noVar hph
      rw [Bool.eq_false_iff]
      intro hb
      rw [bindsPos_eq _ hw] at hb
      simp [cReq, cOpt, Param.isPos, h1, h2, anyVar] at hb
      simp [anyVar] at h3
      have := hb.2
      grind

/-! ## All calls bind -/

/-- Calling slot `x` for an emission with `args` binds. -/
def CallFits (env : Env) (x : Slot) (args : Args) : Prop :=
  x.base.isPlain = true → ∃ sg, env.pysig x.base = some sg ∧ bindsPos sg (x.callArgs args).length = true

/-- Everything in the world fits together. -/
structure Fit (env : Env) (w : World) : Prop where
  conn : ∀ s, ∀ x ∈ (w.sig s).slots, ∀ a : Args, a.length = (env.decl s).sig.length → CallFits env x a
  queue : ∀ s, ∀ a ∈ (w.sig s).emitQueue, a.length = (env.decl s).sig.length
  args : ∀ s, ∀ a ∈ (w.sig s).argsQueue, a.length = (env.decl s).sig.length
  tq : ∀ t, ∀ p ∈ w.tq t, CallFits env p.1 p.2
  log : ∀ e ∈ w.log, e.Binds env
  hook : w.hook = none

theorem Fit.mono {env : Env} {w w' : World} (h : Fit env w)
    (h1 : ∀ s, ∀ x ∈ (w'.sig s).slots, x ∈ (w.sig s).slots)
    (h2 : ∀ s, ∀ x ∈ (w'.sig s).emitQueue, x ∈ (w.sig s).emitQueue)
    (h3 : ∀ s, ∀ x ∈ (w'.sig s).argsQueue, x ∈ (w.sig s).argsQueue)
    (h4 : ∀ t, ∀ x ∈ w'.tq t, x ∈ w.tq t) (h5 : ∀ e ∈ w'.log, e ∈ w.log) (h6 : w'.hook = w.hook) :
    Fit env w' :=
  ⟨fun s x hx => h.conn s x (h1 s x hx), fun s x hx => h.queue s x (h2 s x hx),
    fun s x hx => h.args s x (h3 s x hx), fun t p hp => h.tq t p (h4 t p hp),
    fun e he => h.log e (h5 e he), h6.trans h.hook⟩

theorem Fit.collect {env w} (h : Fit env w) (s a) (ha : List.length a = (env.decl s).sig.length) :
    Fit env (w.collect s a) := by
  refine ⟨?_, ?_, ?_, h.tq, h.log, h.hook⟩
  · intro x; rw [collect_slots]; exact h.conn x
  · intro x; rw [collect_emitQueue]; exact h.queue x
  · intro x b hb
    rw [collect_argsQueue] at hb
    split at hb
    · rename_i hx
      subst hx
      rw [List.mem_append, List.mem_singleton] at hb
      rcases hb with hb | rfl
      · exact h.args x b hb
      · exact ha
    · exact h.args x b hb

theorem Fit.enqueue {env w} (h : Fit env w) (s a) (ha : List.length a = (env.decl s).sig.length) :
    Fit env (w.enqueue s a) := by
  refine ⟨?_, ?_, ?_, h.tq, ?_, h.hook⟩
  · intro x; rw [enqueue_slots]; exact h.conn x
  · intro x b hb
    rw [enqueue_emitQueue] at hb
    split at hb
    · rename_i hx
      subst hx
      rw [List.mem_append, List.mem_singleton] at hb
      rcases hb with hb | rfl
      · exact h.queue x b hb
      · exact ha
    · exact h.queue x b hb
  · intro x; rw [enqueue_argsQueue]; exact h.args x
  · intro e he
    rw [enqueue_log, List.mem_append, List.mem_singleton] at he
    rcases he with he | rfl
    · exact h.log e he
    · trivial

theorem Fit.startLoop {env w} (h : Fit env w) (s) : Fit env (w.startLoop s) :=
  h.mono (by simp) (by simp) (by simp) (by simp) (by simp) (by simp)
theorem Fit.endLoop {env w} (h : Fit env w) (s p) : Fit env (w.endLoop s p) :=
  h.mono (by simp) (by intro x; simp) (by simp) (by simp) (by simp) (by simp)
theorem Fit.startFast {env w} (h : Fit env w) (s a) : Fit env (w.startFast s a) := by
  refine ⟨?_, ?_, ?_, h.tq, ?_, h.hook⟩
  · intro x; rw [startFast_slots]; exact h.conn x
  · intro x; rw [startFast_emitQueue]; exact h.queue x
  · intro x; rw [startFast_argsQueue]; exact h.args x
  · intro e he
    rw [startFast_log, List.mem_append, List.mem_singleton] at he
    rcases he with he | rfl
    · exact h.log e he
    · trivial
theorem Fit.endFast {env w} (h : Fit env w) (s) : Fit env (w.endFast s) :=
  h.mono (by simp) (by simp) (by simp) (by simp) (by simp) (by simp)
theorem Fit.popQueue {env w} (h : Fit env w) (s) : Fit env (w.popQueue s) :=
  h.mono (by simp) (by intro x a; simp; split; exact List.mem_of_mem_tail; exact id) (by simp) (by simp)
    (by simp) (by simp)
theorem Fit.unpause {env w} (h : Fit env w) (s) : Fit env (w.unpause s) :=
  h.mono (by simp) (by simp) (by simp) (by simp) (by simp) (by simp)
theorem Fit.pause {env w} (h : Fit env w) (s) : Fit env (w.pause s) :=
  h.mono (by simp) (by simp) (by simp) (by simp) (by simp) (by simp)
theorem Fit.clearArgs {env w} (h : Fit env w) (s) : Fit env (w.clearArgs s) :=
  h.mono (by simp) (by simp) (by intro x; simp) (by simp) (by simp) (by simp)
theorem Fit.putQueue {env w} (h : Fit env w) (t x a em) (hx : CallFits env x a) :
    Fit env (w.putQueue t x a em) := by
  refine ⟨h.conn, h.queue, h.args, ?_, ?_, h.hook⟩
  · intro t' p hp
    rw [putQueue_tq] at hp
    dsimp only at hp
    split at hp
    · rename_i ht
      subst ht
      rw [List.mem_append, List.mem_singleton] at hp
      rcases hp with hp | rfl
      · exact h.tq _ p hp
      · exact hx
    · exact h.tq _ p hp
  · intro e he
    rw [putQueue_log, List.mem_append, List.mem_singleton] at he
    rcases he with he | rfl
    · exact h.log e he
    · trivial
theorem Fit.getQueue {env w} (h : Fit env w) (t x a) : Fit env (w.getQueue t x a) := by
  refine ⟨h.conn, h.queue, h.args, ?_, ?_, h.hook⟩
  · intro t' p hp
    rw [getQueue_tq] at hp
    dsimp only at hp
    split at hp
    · rename_i ht
      subst ht
      exact h.tq _ p (List.mem_of_mem_tail hp)
    · exact h.tq _ p hp
  · intro e he
    rw [getQueue_log, List.mem_append, List.mem_singleton] at he
    rcases he with he | rfl
    · exact h.log e he
    · trivial
theorem Fit.setMem {env w} (h : Fit env w) (m) : Fit env (w.setMem m) :=
  h.mono (by simp) (by simp) (by simp) (by simp) (by simp) (by simp)
theorem Fit.logRet {env w} (h : Fit env w) (em src b r) : Fit env (w.logRet em src b r) := by
  refine ⟨h.conn, h.queue, h.args, h.tq, ?_, h.hook⟩
  intro e he
  rw [logRet_log, List.mem_append, List.mem_singleton] at he
  rcases he with he | rfl
  · exact h.log e he
  · trivial
theorem Fit.logCall {env w} (h : Fit env w) (em src) (x : Slot) (a) (hx : CallFits env x a) :
    Fit env (w.logCall em src x.base (x.callArgs a)) := by
  refine ⟨h.conn, h.queue, h.args, h.tq, ?_, h.hook⟩
  intro e he
  rw [logCall_log, List.mem_append, List.mem_singleton] at he
  rcases he with he | rfl
  · exact h.log e he
  · exact hx
theorem Fit.block {env w} (h : Fit env w) (s ex) : Fit env (w.block env s ex) :=
  h.mono (by intro x; rw [(connEq_block env w s ex).1 x]; simp) (by simp) (by simp) (by simp) (by simp)
    (by simp)
theorem Fit.unblock {env w} (h : Fit env w) (s) : Fit env (w.unblock env s) :=
  h.mono (by intro x; rw [(connEq_unblock env w s).1 x]; simp) (by simp) (by simp) (by simp) (by simp)
    (by simp)

/-- A slot accepted by the check fits. -/
theorem checked_fits {env : Env} {n : Nat} {c : Callable} {m : Option Nat} {sg sg' : PySig}
    (hs : env.pysig c.base = some sg) (hw : WFSig sg) (hd : dropBound sg c.bound.length = some sg')
    (hc : checkNargs env n c = .ok m) (p : Int) (t : Option ThreadId) (k : Nat) (a : Args)
    (ha : a.length = n) :
    CallFits env
      { base := c.base, bound := c.boundFor, maxArgs := m, priority := p, thread := t, serial := k }
      a := by
  intro hp
  refine ⟨sg, hs, ?_⟩
  have hlen : Slot.callArgs
      { base := c.base, bound := c.boundFor, maxArgs := m, priority := p, thread := t, serial := k }
      a = c.bound ++ m.elim a (fun m => a.take m) := by
    obtain ⟨b, bd⟩ := c
    cases b <;> simp [Base.isPlain] at hp <;> cases m <;> rfl
  rw [hlen, List.length_append]
  rw [dropBound_binds hd, bindsPos_eq _ (hw.dropBound hd)]
  simp only [checkNargs, slotSig, hs, hd, posargRange_eq] at hc
  split at hc
  · simp at hc
  · rename_i lo hi he
    split at he
    · simp at he
    · rename_i hk
      cases he
      split at hc
      · simp at hc
      · by_cases hv : anyVar sg' = true
        · rw [if_pos hv] at hc
          cases hc
          exact ⟨by simpa using hk, by simp only [Option.elim]; omega, .inl hv⟩
        · rw [if_neg hv] at hc
          cases hc
          simp only [Option.elim, List.length_take]
          exact ⟨by simpa using hk, by omega, by omega⟩

theorem Fit.run {env w} (h : Fit env w) (a : Act) (ha : Checked env a) : Fit env (a.run env w).1 := by
  have happ : ∀ (w1 : World) s x, (∀ k, ∀ a : Args, a.length = (env.decl s).sig.length →
        CallFits env { x with serial := k } a) →
      (∀ s, ∀ x ∈ (w1.sig s).slots, ∀ a : Args, a.length = (env.decl s).sig.length → CallFits env x a) →
      ∀ s', ∀ y ∈ ((w1.plainAppend s x).sig s').slots, ∀ a : Args,
        a.length = (env.decl s').sig.length → CallFits env y a := by
    intro w1 s x hx hw s' y hy
    by_cases hs : s' = s
    · subst hs
      rw [plainAppend_same] at hy
      obtain ⟨l₁, l₂, h1, h2⟩ := appendSlot_split (w1.sig s') { x with serial := w1.nextSerial }
      rw [h2] at hy
      simp only [List.mem_append, List.mem_cons] at hy
      rcases hy with hy | rfl | hy
      · exact hw s' y (by rw [h1]; simp [hy])
      · exact hx _
      · exact hw s' y (by rw [h1]; simp [hy])
    · rw [plainAppend_ne _ _ _ _ hs] at hy
      exact hw s' y hy
  refine ⟨?_, ?_, ?_, ?_, ?_, ?_⟩
  · refine run_preserves' (env := env)
      (J := fun w1 => ∀ s, ∀ x ∈ (w1.sig s).slots, ∀ a : Args,
        a.length = (env.decl s).sig.length → CallFits env x a) a w
      (fun w1 w2 hs hw s x hx => hw s x ((hs.slots s).subset hx))
      (fun w1 r c _ hw => happ w1 c (relaySlot r) (fun _ _ _ hp => by simp [relaySlot, Base.isPlain] at hp) hw)
      ?_ (fun s b m p he _ hw => happ w s _ (fun _ _ _ hp => ?_) hw) h.conn
    · intro s c o m he _ _ hm hw
      subst he
      obtain ⟨h1, h2, sg, h3, h4, h5⟩ := ha
      obtain ⟨sg', h5⟩ := Option.isSome_iff_exists.1 h5
      rw [if_pos ⟨h1, h2⟩] at hm
      exact happ w s _ (fun k a ha => checked_fits h3 h4 h5 hm _ _ k a ha) hw
    · subst he
      have : b.isPlain = false := ha
      simp [this] at hp
  · intro s; rw [run_emitQueue]; exact h.queue s
  · intro s; rw [run_argsQueue]; exact h.args s
  · rw [run_tq]; exact h.tq
  · rw [run_log]; exact h.log
  · by_cases hk : ∃ k, a = .setHook k
    · obtain ⟨k, rfl⟩ := hk
      exact ha
    · exact (frame_run_noHook env w a fun k e => hk ⟨k, e⟩).hook.trans h.hook

/-- What each procedure relies on. -/
def Task.Fits (env : Env) : Task → Prop
  | .prog p => p.Only (Checked env)
  | .emit s a c => c = true ∨ a.length = (env.decl s).sig.length
  | .emitFast s a => a.length = (env.decl s).sig.length
  | .runLoop s a => a.length = (env.decl s).sig.length
  | .forSlots s _ a _ => a.length = (env.decl s).sig.length
  | .forLatest s _ a _ => a.length = (env.decl s).sig.length
  | .forQueued s _ a _ => a.length = (env.decl s).sig.length
  | .cb _ _ x a => CallFits env x a
  | .direct _ _ x a => CallFits env x a
  | .resume _ red => red = none
  | _ => True

theorem checked_task {env : Env} {w : World} {a : Act} {t : Task}
    (h : a.task? w = some t) (hc : Checked env a) : t.Fits env := by
  cases a <;> simp [Act.task?] at h
  case emitQueued th => cases th <;> simp at h <;> subst h <;> trivial
  all_goals subst h
  all_goals exact hc

/-- … together with the world fitting together. -/
def FitPre (env : Env) (t : Task) (w : World) : Prop := t.Fits env ∧ Fit env w

theorem fit_ok {env : Env} (hsig : ∀ s k, bindsPos (env.decl s).sig k = true → k = (env.decl s).sig.length)
    (hrel : ∀ r, (env.decl r).isRelay = true → (env.decl r).sig.length = 1)
    (henv : env.Only (Checked env)) :
    ∀ t w, FitPre env t w → (body env t w).Ok env (FitPre env)
      (fun _ _ w' _ => Fit env w') (fun w' _ => Fit env w') := by
  intro t w ⟨ht, hw⟩
  have c1 := @Fit.collect env
  have c2 := @Fit.enqueue env
  have c3 := @Fit.startLoop env
  have c4 := @Fit.endLoop env
  have c5 := @Fit.startFast env
  have c6 := @Fit.endFast env
  have c7 := @Fit.popQueue env
  have c8 := @Fit.unpause env
  have c9 := @Fit.pause env
  have c10 := @Fit.clearArgs env
  have c11 := @Fit.putQueue env
  have c12 := @Fit.getQueue env
  have c13 := @Fit.setMem env
  have c14 := @Fit.logRet env
  have c15 := @Fit.logCall env
  have c16 := @Fit.block env
  have c17 := @Fit.unblock env
  have c18 := @Fit.run env
  have c19 := @checked_task env
  have q1 := hw.conn
  have q2 := hw.queue
  have q3 := hw.args
  have q4 := hw.tq
  have q5 := hw.hook
  have q6 : ∀ t x a l, w.tq t = (x, a) :: l → CallFits env x a :=
    fun t x a l h => hw.tq t (x, a) (by simp [h])
  have mem : ∀ {α : Type} {l : List α} {i : Nat} {a : α}, l[i]? = some a → a ∈ l :=
    fun h => List.mem_of_getElem? h
  unfold_goal t
  all_goals grind (splits := 20) [Comp.Ok, Task.Fits, FitPre, Prog.Only, Env.Only, Checked]

end Psygnal
