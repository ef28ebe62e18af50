import Verif.SigLemmas
import Verif.Examples

/-!
# Argument-count checking on connect: C16
-/
namespace Psygnal

/-- **C16** (the computed range). For every legal Python signature: `_acceptable_posarg_range` gives
exactly the numbers of positional arguments that Python would bind; it refuses a signature (required
keyword-only parameters) only if no number of positional arguments binds. -/
theorem C16_range_correct {sg : PySig} (hw : WFSig sg) :
    (∀ lo hi, posargRange sg = some (lo, hi) →
      ∀ k, bindsPos sg k = true ↔ lo ≤ k ∧ ∀ m, hi = some m → k ≤ m) ∧
    (posargRange sg = none → ∀ k, bindsPos sg k = false) := by
  rw [posargRange_eq]
  constructor
  · intro lo hi h k
    rw [bindsPos_eq _ hw]
    split at h
    · simp at h
    · rename_i hk
      cases h
      by_cases hv : anyVar sg = true <;> simp [hk, hv]
  · intro h k
    split at h
    · rename_i hk
      rw [Bool.eq_false_iff]
      intro hb
      rw [bindsPos_eq _ hw, hk] at hb
      simp at hb
    · simp at h

/-- `def f(a, /, b, c=0, *args, d=0, **kw)`: two positional arguments or more. -/
def exEveryKind : PySig := [⟨.posOnly, false⟩, ⟨.posOrKw, false⟩, ⟨.posOrKw, true⟩, ⟨.varPos, false⟩, ⟨.kwOnly, true⟩, ⟨.varKw, false⟩]

example : WFSig exEveryKind ∧ posargRange exEveryKind = some (2, none) ∧ ∀ k, bindsPos exEveryKind k = true ↔ 2 ≤ k := by
  have hw : WFSig exEveryKind := by simp [exEveryKind, WFSig, Kind.phase, Param.isPos]
  exact ⟨hw, by decide, fun k => ((C16_range_correct hw).1 2 none (by decide) k).trans ⟨fun h => h.1, fun h => ⟨h, fun _ hm => nomatch hm⟩⟩⟩

/-- `def f(a, *, d, **kw)`: never. -/
example : WFSig [⟨.posOrKw, false⟩, ⟨.kwOnly, false⟩, ⟨.varKw, false⟩] ∧ ∀ k, bindsPos [⟨.posOrKw, false⟩, ⟨.kwOnly, false⟩, ⟨.varKw, false⟩] k = false := by
  have hw : WFSig [⟨.posOrKw, false⟩, ⟨.kwOnly, false⟩, ⟨.varKw, false⟩] := by simp [WFSig, Kind.phase, Param.isPos]
  exact ⟨hw, (C16_range_correct hw).2 (by decide)⟩

/-- **C16** (accepted iff callable). Connecting `c` (a callable with legal signature `sg`, possibly a
`partial` with bound positional arguments, not more than it accepts) with argument checking to a signal with
`n` parameters succeeds iff some prefix of `n` arguments, after the bound ones, binds; otherwise it raises
`ValueError` and changes nothing. -/
theorem C16_connect_iff {env : Env} {w : World} {s : SigId} {c : Callable} {o : ConnOpts} {sg : PySig}
    (hd : c.base.isDead w = false) (hu : o.unique = .no) (hm : o.maxArgs = none)
    (hc : o.checkNargs.getD (env.decl s).checkNargs = true)
    (hs : env.pysig c.base = some sg) (hw : WFSig sg) (hb : (dropBound sg c.bound.length).isSome) :
    (((Act.connect s c o).run env w).2 = .ok .unit ↔
      ∃ k, k ≤ (env.decl s).sig.length ∧ bindsPos sg (c.bound.length + k) = true) ∧
    (((Act.connect s c o).run env w).2 ≠ .ok .unit →
      (Act.connect s c o).run env w = (w, .error .valueError)) := by
  obtain ⟨sg', hb⟩ := Option.isSome_iff_exists.1 hb
  have hw' := hw.dropBound hb
  have hrun : (Act.connect s c o).run env w = match checkNargs env (env.decl s).sig.length c with
      | .error e => (w, .error e)
      | .ok m => (w.appendSlot env s
        { base := c.base, bound := c.boundFor, maxArgs := m, priority := o.priority,
          thread := resolveThread w o.thread }, .ok .unit) := by
    simp [Act.run, hd, World.connect, hu, hc, hm]
    rfl
  have hchk : checkNargs env (env.decl s).sig.length c = match posargRange sg' with
      | none => .error .valueError
      | some (lo, hi) => if lo > (env.decl s).sig.length then .error .valueError else .ok hi := by
    simp only [checkNargs, slotSig, hs, hb]
    rfl
  rw [hrun, hchk]
  have hR := C16_range_correct hw'
  simp only [dropBound_binds hb]
  cases hp : posargRange sg' with
  | none => simp [hR.2 hp]
  | some lh =>
    obtain ⟨lo, hi⟩ := lh
    have hR := hR.1 lo hi hp
    have hlo : ∀ m, hi = some m → lo ≤ m := by
      rw [posargRange_eq] at hp
      intro m hm
      subst hm
      split at hp
      · simp at hp
      · by_cases hv : anyVar sg' = true <;> simp [hv] at hp
        omega
    by_cases hl : lo > (env.decl s).sig.length
    · simp only [hl, if_true, reduceCtorEq, false_iff, not_exists, not_and, ne_eq, not_false_eq_true,
        forall_const, and_true]
      intro k hk hbk
      have := ((hR k).1 hbk).1
      omega
    · simp only [hl, if_false, true_iff, ne_eq, not_true_eq_false, false_implies, and_true]
      exact ⟨lo, by omega, (hR lo).2 ⟨Nat.le_refl _, hlo⟩⟩

/-- **C02** (what the new callback gets). The slot that a successful `connect` adds runs in the thread that was asked
for (none: in the emitting one), and with `max_args=m` it gets the bound arguments and the first `m` emitted ones; with
neither `max_args` nor argument checking it gets all. -/
theorem C02_connect_receives {env : Env} {w w' : World} {s : SigId} {c : Callable} {o : ConnOpts}
    {v : Resp} (hr : (env.decl s).isRelay = false)
    (h : (Act.connect s c o).run env w = (w', .ok v))
    (hn : o.unique ≠ .no → ∀ x ∈ (w.sig s).slots, x.base ≠ c.base)
    (hb : (∀ o n, c.base ≠ .setattr o n) ∧ ∀ o k, c.base ≠ .setitem o k) :
    ∃ l₁ x l₂, (w.sig s).slots = l₁ ++ l₂ ∧ (w'.sig s).slots = l₁ ++ x :: l₂ ∧ x.base = c.base ∧
      (x.thread = match o.thread with
        | none => none
        | some .main => some 0
        | some .current => some w.thread
        | some (.this t) => some t) ∧
      (∀ m, o.maxArgs = some m → ∀ args, x.receives args = c.bound ++ args.take m) ∧
      (o.maxArgs = none → o.checkNargs.getD (env.decl s).checkNargs = false →
        ∀ args, x.receives args = c.bound ++ args) := by
  have hbf : c.boundFor = c.bound := by
    unfold Callable.boundFor
    split
    · rename_i o n e; exact absurd e (hb.1 o n)
    · rename_i o n e; exact absurd e (hb.2 o n)
    · rfl
  have hrec : ∀ m (p : Int) t n args, Slot.receives ⟨c.base, c.bound, m, p, t, n⟩ args =
      c.bound ++ args.take (m.getD args.length) := by
    intro m p t n args
    unfold Slot.receives
    simp only []
    split
    · rename_i o n e; exact absurd e (hb.1 o n)
    · rename_i o n e; exact absurd e (hb.2 o n)
    · rfl
  simp only [Act.run, World.connect, hbf] at h
  split at h
  · simp at h
  split at h
  · rename_i hc
    have := slotIndex_none.2 (hn hc.1)
    simp [this] at hc
  · split at h
    · simp at h
    · rename_i m hm
      simp only [World.appendSlot, hr, Bool.false_eq_true, false_and, if_false, Prod.mk.injEq] at h
      obtain ⟨rfl, -⟩ := h
      obtain ⟨l₁, l₂, h1, h2⟩ := appendSlot_split (w.sig s)
        { base := c.base, bound := c.bound, maxArgs := m, priority := o.priority,
          thread := resolveThread w o.thread, serial := w.nextSerial }
      refine ⟨l₁, _, l₂, h1, by rw [plainAppend_same, h2], rfl, ?_, ?_, ?_⟩
      · show resolveThread w o.thread = _
        cases o.thread with
        | none => rfl
        | some t => cases t <;> rfl
      · intro k hk args
        rw [hrec]
        rw [if_neg (by simp [hk])] at hm
        cases hm
        rw [hk]
        rfl
      · intro hk hch args
        rw [hrec]
        rw [if_neg (by simp [hch])] at hm
        cases hm
        rw [hk]
        simp

/-- **C16** (as many as possible). In the situation of `C16_connect_iff`, an accepted callable gets as many of the
emitted arguments as it accepts: its bound arguments and the first `k` emitted ones, where `k` is the greatest number
for which the call binds. -/
theorem C16_as_many {env : Env} {w w' : World} {s : SigId} {c : Callable} {o : ConnOpts} {sg : PySig} {v : Resp}
    (hr : (env.decl s).isRelay = false) (hu : o.unique = .no) (hm : o.maxArgs = none)
    (hc : o.checkNargs.getD (env.decl s).checkNargs = true)
    (hs : env.pysig c.base = some sg) (hw : WFSig sg) (hd : (dropBound sg c.bound.length).isSome)
    (hb : (∀ o n, c.base ≠ .setattr o n) ∧ ∀ o k, c.base ≠ .setitem o k)
    (h : (Act.connect s c o).run env w = (w', .ok v)) :
    ∃ l₁ x l₂, (w.sig s).slots = l₁ ++ l₂ ∧ (w'.sig s).slots = l₁ ++ x :: l₂ ∧ x.base = c.base ∧
      ∀ args : Args, args.length = (env.decl s).sig.length →
        ∃ k, k ≤ args.length ∧ x.receives args = c.bound ++ args.take k ∧ bindsPos sg (c.bound.length + k) = true ∧
          ∀ j, k < j → j ≤ args.length → bindsPos sg (c.bound.length + j) = false := by
  have hbf : c.boundFor = c.bound := by
    unfold Callable.boundFor
    split
    · rename_i o n e; exact absurd e (hb.1 o n)
    · rename_i o n e; exact absurd e (hb.2 o n)
    · rfl
  obtain ⟨sg', hd⟩ := Option.isSome_iff_exists.1 hd
  have hw' := hw.dropBound hd
  have hchk : checkNargs env (env.decl s).sig.length c = match posargRange sg' with
      | none => .error .valueError
      | some (lo, hi) => if lo > (env.decl s).sig.length then .error .valueError else .ok hi := by
    simp only [checkNargs, slotSig, hs, hd]
    rfl
  simp only [Act.run, World.connect, hbf, hu, hc, hm, hchk] at h
  split at h
  · simp at h
  · simp only [ne_eq, not_true_eq_false, false_and, if_false, and_self, if_true] at h
    have hR := C16_range_correct hw'
    simp only [dropBound_binds hd]
    cases hp : posargRange sg' with
    | none => simp [hp] at h
    | some lh =>
      obtain ⟨lo, hi⟩ := lh
      have hR := hR.1 lo hi hp
      have hlo : ∀ m, hi = some m → lo ≤ m := by
        rw [posargRange_eq] at hp
        intro m hm
        subst hm
        split at hp
        · simp at hp
        · by_cases hv : anyVar sg' = true <;> simp [hv] at hp
          omega
      simp only [hp] at h
      by_cases hl : lo > (env.decl s).sig.length
      · simp [hl] at h
      · simp only [hl, if_false, World.appendSlot, hr, Bool.false_eq_true, false_and, Prod.mk.injEq] at h
        obtain ⟨rfl, -⟩ := h
        obtain ⟨l₁, l₂, h1, h2⟩ := appendSlot_split (w.sig s)
          { base := c.base, bound := c.bound, maxArgs := hi, priority := o.priority,
            thread := resolveThread w o.thread, serial := w.nextSerial }
        refine ⟨l₁, _, l₂, h1, by rw [plainAppend_same, h2], rfl, ?_⟩
        intro args hargs
        have hrec : Slot.receives ⟨c.base, c.bound, hi, o.priority, resolveThread w o.thread, w.nextSerial⟩ args =
            c.bound ++ args.take (hi.getD args.length) := by
          unfold Slot.receives
          simp only []
          split
          · rename_i o n e; exact absurd e (hb.1 o n)
          · rename_i o n e; exact absurd e (hb.2 o n)
          · rfl
        rw [hrec]
        cases hi with
        | none =>
          refine ⟨args.length, Nat.le_refl _, rfl, (hR _).2 ⟨by omega, by simp⟩, fun j h1 h2 => by omega⟩
        | some m =>
          have hlm := hlo m rfl
          by_cases hma : m ≤ args.length
          · refine ⟨m, hma, rfl, (hR _).2 ⟨hlm, by simp⟩, fun j h1 h2 => ?_⟩
            cases hj : bindsPos sg' j with
            | false => rfl
            | true => have := ((hR j).1 hj).2 m rfl; omega
          · refine ⟨args.length, Nat.le_refl _, ?_, (hR _).2 ⟨by omega, ?_⟩, fun j h1 h2 => by omega⟩
            · simp only [Option.getD_some]
              rw [List.take_of_length_le (by omega), List.take_of_length_le (Nat.le_refl _)]
            · intro k hk; cases hk; omega

/-- **C16** (calls never fail to bind). In any history in which callables are connected with argument
checking (and their signatures can be determined) and signals are emitted with the right number of
arguments — by `emit` with checking, `emit_fast`, pausing and resuming, from within callbacks, on other
threads, via groups —: at every moment, every call of an ordinary callable that psygnal has made has bound
to the signature of that callable. -/
theorem C16_calls_bind {env : Env}
    (hsig : ∀ s k, bindsPos (env.decl s).sig k = true → k = (env.decl s).sig.length)
    (hrel : ∀ r, (env.decl r).isRelay = true → (env.decl r).sig.length = 1)
    (henv : env.Only (Checked env)) {t : Task} {w : World} (h : Live env (Checked env) t w) :
    ∀ e ∈ w.log, e.Binds env := by
  have := hoare_live (Q := Checked env) (FitPre env) (fun _ _ w' _ => Fit env w') (fit_ok hsig hrel henv)
    (Fit env) ⟨by simp [World.init, SigState.init], by simp [World.init, SigState.init],
      by simp [World.init, SigState.init], by simp [World.init], by simp [World.init], rfl⟩
    (fun w t h => ⟨h.conn, h.queue, h.args, h.tq, h.log, h.hook⟩)
    (fun w p hp h => ⟨hp, h⟩) (fun _ _ _ _ _ h => h) h
  exact this.2.log

/-- The condition `hsig` holds for signals declared with a list of types: `Signal(int, str, …)`. -/
theorem buildSig_binds (n k : Nat) : bindsPos (buildSig n) k = true → k = (buildSig n).length := by
  have : ∀ n k, bindsPos (List.replicate n ⟨.posOnly, false⟩) k = true → k = n := by
    intro n
    induction n with
    | zero => intro k h; simpa [bindsPos] using h
    | succ n ih =>
      intro k h
      rw [List.replicate_succ] at h
      cases k with
      | zero => simp [bindsPos] at h
      | succ k => rw [ih k (by simpa [bindsPos] using h)]
  intro h
  simpa [buildSig] using this n k h

/-- `f(a, /, b=…, *, kw=…)`, `g(a, b, c)`, `h(*args)`, `k(a, *, kw)`. -/
example : posargRange [⟨.posOnly, false⟩, ⟨.posOrKw, true⟩, ⟨.kwOnly, true⟩] = some (1, some 2) ∧
    WFSig [⟨.posOnly, false⟩, ⟨.posOrKw, true⟩, ⟨.kwOnly, true⟩] ∧
    posargRange [⟨.varPos, false⟩] = some (0, none) ∧ WFSig [⟨.varPos, false⟩] ∧
    posargRange [⟨.posOrKw, false⟩, ⟨.kwOnly, false⟩] = none ∧ WFSig [⟨.posOrKw, false⟩, ⟨.kwOnly, false⟩] := by
  simp [posargRange, posargLoop, WFSig, Kind.phase, Param.isPos]

/-- An environment in which `func 0` takes no argument, `func 1` two (one optional), everything else one. -/
def Ex.arity : Env :=
  { Ex.quiet with
    pysig := fun b => match b with
      | .func 0 => some []
      | .func 1 => some [⟨.posOrKw, false⟩, ⟨.posOrKw, true⟩]
      | .func 2 => some [⟨.posOrKw, false⟩, ⟨.posOrKw, false⟩]
      | _ => some (buildSig 1) }

/-- `s0` (one argument): `f0()`, `f1(a, b=…)`, `partial(f2, 9)` are accepted, `f2(a, b)` is refused; the
emission calls them with 0, 1, and 2 arguments. -/
example : ∃ (w : World) (t : Task), Live Ex.arity (Checked Ex.arity) t w ∧
    (∀ s k, bindsPos (Ex.arity.decl s).sig k = true → k = (Ex.arity.decl s).sig.length) ∧
    Ex.arity.Only (Checked Ex.arity) ∧
    w.log.filterMap (fun v => match v with | .call _ _ _ _ _ b a => some (b, a) | _ => none) =
      [(.func 0, []), (.func 1, [.atom 5]), (.func 2, [.atom 9, .atom 5])] ∧
    (Act.connect 0 ⟨.func 2, []⟩ {}).run Ex.arity w = (w, .error .valueError) := by
  refine ⟨_, _, .top (Ex.reach (n := 40) (l := [Ex.conn 0 (.func 0), Ex.conn 0 (.func 1), Ex.conn 0 (.func 2),
      .connect 0 ⟨.func 2, [.atom 9]⟩ {}, Ex.emit 0 5]) ?_ rfl) 0 .ret trivial, ?_, fun _ _ => trivial, rfl, rfl⟩
  · intro a ha
    simp only [List.mem_cons, List.not_mem_nil, or_false] at ha
    rcases ha with rfl | rfl | rfl | rfl | rfl
    · exact ⟨rfl, rfl, _, rfl, trivial, rfl⟩
    · exact ⟨rfl, rfl, _, rfl, by simp [WFSig, Kind.phase, Param.isPos], rfl⟩
    · exact ⟨rfl, rfl, _, rfl, by simp [WFSig, Kind.phase, Param.isPos], rfl⟩
    · exact ⟨rfl, rfl, _, rfl, by simp [WFSig, Kind.phase, Param.isPos], rfl⟩
    · exact .inl rfl
  · intro s k h
    have : (Ex.arity.decl s).sig = buildSig 1 := by
      simp only [Ex.arity, Ex.quiet, Ex.env, Ex.decl]
      repeat' split
      all_goals rfl
    rw [this] at h ⊢
    exact buildSig_binds 1 k h

/-- `partial(f2, 9)` and `f1(a, b=…)` with `max_args=0` on thread 3, connected to a signal with one argument, meet
the hypotheses of `C16_as_many` and `C02_connect_receives`. -/
example : ∃ w1 w2 : World,
    (Act.connect 0 ⟨.func 2, [.atom 9]⟩ {}).run Ex.arity .init = (w1, .ok .unit) ∧
    WFSig [⟨.posOrKw, false⟩, ⟨.posOrKw, false⟩] ∧ Ex.arity.pysig (.func 2) = some [⟨.posOrKw, false⟩, ⟨.posOrKw, false⟩] ∧
    (dropBound [⟨.posOrKw, false⟩, ⟨.posOrKw, false⟩] 1).isSome ∧ (Ex.arity.decl 0).checkNargs = true ∧
    (Act.connect 0 ⟨.func 1, []⟩ { maxArgs := some 0, thread := some (.this 3) }).run Ex.arity w1 = (w2, .ok .unit) ∧
    (w2.sig 0).slots.map (fun x => (x.receives [.atom 5], x.thread)) = [([.atom 9, .atom 5], none), ([], some 3)] :=
  ⟨_, _, rfl, by simp [WFSig, Kind.phase, Param.isPos], rfl, rfl, rfl, rfl, rfl⟩

/-- **C16 is violated for partials with too many bound arguments**: connecting `partial(f, 1, 2)` with
`f(a)` is accepted (the signature "cannot be determined", so nothing is checked) although no call of it
can ever bind. -/
theorem C16_partial_refuted : ∃ (env : Env) (w w' : World) (c : Callable) (sg : PySig),
    Reachable env anyAct w ∧ env.pysig c.base = some sg ∧ WFSig sg ∧
    (Act.connect 0 c { checkNargs := some true }).run env w = (w', .ok .unit) ∧ (w'.sig 0).slots.length = 1 ∧
    ∀ k, bindsPos sg (c.bound.length + k) = false := by
  refine ⟨Ex.quiet, .init, _, ⟨.func 0, [.atom 1, .atom 2]⟩, buildSig 1, .init, rfl,
    by simp [buildSig, WFSig, Kind.phase, Param.isPos], rfl, rfl, ?_⟩
  intro k
  exact dropBound_none rfl k (by simp [buildSig, WFSig, Kind.phase, Param.isPos])

end Psygnal
