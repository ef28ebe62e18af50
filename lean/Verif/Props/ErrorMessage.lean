import Verif.ErrorMessageLemmas
import Verif.Props.Delivery

/-!
# What an emission that fails says: C67
-/
namespace Psygnal.Msg

/-! ## The error that comes out -/

/-- **C67** (the error and its heading).  An emission of `s` fails with an ordinary exception `e` of a callback.  If neither `str(e)`, the truth
value of the owner of the signal, `inspect.stack()`, nor the `repr` of emitted arguments raises, and nothing else that is asked raises more than an
`Exception` — frames that cannot be shown, local variables without `repr` and the like do no harm —, then the caller gets an `EmitLoopError` with cause
`e`, whose message begins with the name of the signal (`module.Class.name` if the owner is there and true), the class of `e` and its text.  This part
is missing: the same without these conditions on the owner, on `str(e)` and on the arguments (`C67_str_refuted`, `C67_owner_refuted`,
`C67_args_refuted`). -/
theorem C67_raised_partial (env : Env) {a : Ask} (ha : a.Tame) {repr : Args → Except Raised Text} {name : Text} {owner : Option Owner} {s : SigId}
    {w : World} (e : Exc) {t : Text} {st : List Frame} (hs : a.str = .ok t) (hst : a.stack = .ok st)
    (ho : ∀ o, owner = some o → ∃ b, o.truth = .ok b) (hr : ∀ x ∈ (w.sig s).emitQueue, ∃ u, repr x = .ok u)
    (hq : (env.decl s).mode = .queued → (w.sig s).emitQueue ≠ []) :
    ∃ n rest, raised env a repr (name, owner) s w e = .loopError e (.heading n :: .error a.cls t :: rest) ∧
      (owner = none → n = name) ∧
      (∀ o, owner = some o → o.truth = .ok false → n = name) ∧
      (∀ o, owner = some o → o.truth = .ok true → o.module = [] → n = o.qualname ++ ['.'] ++ name) ∧
      (∀ o, owner = some o → o.truth = .ok true → o.module ≠ [] → n = o.module ++ ['.'] ++ o.qualname ++ ['.'] ++ name) := by
  obtain ⟨n, hn, g1, g2, g3, g4⟩ : ∃ n, sigName (some (name, owner)) = .ok n ∧ (owner = none → n = name) ∧
      (∀ o, owner = some o → o.truth = .ok false → n = name) ∧
      (∀ o, owner = some o → o.truth = .ok true → o.module = [] → n = o.qualname ++ ['.'] ++ name) ∧
      (∀ o, owner = some o → o.truth = .ok true → o.module ≠ [] → n = o.module ++ ['.'] ++ o.qualname ++ ['.'] ++ name) := by
    cases owner with
    | none => exact ⟨name, rfl, by simp, by simp, by simp, by simp⟩
    | some o =>
      obtain ⟨b, hb⟩ := ho o rfl
      cases b with
      | false =>
        refine ⟨name, by simp [sigName, hb], by simp, by simp, ?_, ?_⟩
        · intro o' h1 h2
          cases h1
          rw [hb] at h2
          cases h2
        · intro o' h1 h2
          cases h1
          rw [hb] at h2
          cases h2
      | true =>
        refine ⟨_, by simp only [sigName, hb]; rfl, by simp, ?_, ?_, ?_⟩
        · intro o' h1 h2
          cases h1
          rw [hb] at h2
          cases h2
        · rintro o' h1 - h3
          cases h1
          simp [h3]
        · rintro o' h1 - h3
          cases h1
          simp [h3]
  obtain ⟨rest, hrest⟩ : ∃ rest, addNote repr ((env.decl s).mode = .queued) (w.sig s).emitQueue
      (.heading n :: .error a.cls t :: (if (w.sig s).depth - 1 ≠ 0 then [.nested ((w.sig s).depth - 1)] else []) ++ sections a st) =
      .ok (.heading n :: .error a.cls t :: rest) := by
    rw [addNote.eq_def]
    split
    · rename_i h0
      have hm : (env.decl s).mode = .queued := by simpa using h0.1
      cases hl : (w.sig s).emitQueue.getLast? with
      | none => exact absurd (List.getLast?_eq_none_iff.1 hl) (hq hm)
      | some x =>
        obtain ⟨u, hu⟩ := hr x (List.mem_of_getLast? hl)
        dsimp only
        rw [hu]
        exact ⟨_, rfl⟩
    · exact ⟨_, rfl⟩
  refine ⟨n, rest, ?_, g1, g2, g3, g4⟩
  rw [raised, init, hn]
  dsimp only
  rw [build_ok ha hs hst]
  dsimp only
  rw [hrest]
  rfl

/-- **C67** for `emit_fast` and `emit_queued`, which name no depth and no arguments; `emit_queued` does not name the signal either.  Missing: as for
`C67_raised_partial`. -/
theorem C67_others_partial {a : Ask} (ha : a.Tame) {name : Text} {owner : Option Owner} (e : Exc) {t : Text} {st : List Frame}
    (hs : a.str = .ok t) (hst : a.stack = .ok st) (ho : ∀ o, owner = some o → ∃ b, o.truth = .ok b) :
    (∃ n m, raisedFast a (name, owner) e = .loopError e (.heading n :: .error a.cls t :: m) ∧ (∃ pre, n = pre ++ name) ∧ NoNote m) ∧
      ∃ m, raisedQueued a e = .loopError e (.heading [] :: .error a.cls t :: m) ∧ NoNote m := by
  constructor
  · obtain ⟨n, hn, hp⟩ : ∃ n, sigName (some (name, owner)) = .ok n ∧ ∃ pre, n = pre ++ name := by
      cases owner with
      | none => exact ⟨_, rfl, [], rfl⟩
      | some o =>
        obtain ⟨b, hb⟩ := ho o rfl
        cases b with
        | false => exact ⟨name, by simp [sigName, hb], [], rfl⟩
        | true => exact ⟨_, by simp only [sigName, hb]; rfl, _, by rw [List.append_cons]⟩
    refine ⟨n, sections a st, ?_, hp, sections_noNote a st⟩
    rw [raisedFast, init, hn]
    dsimp only
    rw [build_ok ha hs hst]
    simp [addNote, outcome]
  · refine ⟨sections a st, ?_, sections_noNote a st⟩
    rw [raisedQueued, init, sigName]
    dsimp only
    rw [build_ok ha hs hst]
    simp [addNote, outcome]

/-- **C67** fails if `str` of the exception raises: the caller gets that exception and no `EmitLoopError`, whatever the rest. -/
theorem C67_str_refuted (env : Env) (a : Ask) (repr : Args → Except Raised Text) (name : Text) (s : SigId) (w : World) (e : Exc) (r : Raised)
    (h : a.str = .error r) : raised env a repr (name, none) s w e = .other r := by
  simp [raised, init, sigName, build, h, outcome]

/-- **C67** fails if the truth value of the owner raises, as for arrays: the caller gets that exception and no `EmitLoopError`. -/
theorem C67_owner_refuted (env : Env) (a : Ask) (repr : Args → Except Raised Text) (name : Text) (o : Owner) (s : SigId) (w : World) (e : Exc)
    (r : Raised) (h : o.truth = .error r) : raised env a repr (name, some o) s w e = .other r := by
  simp [raised, init, sigName, h, outcome]

/-- The owner has no truth value: nothing about the rest of the surroundings helps. -/
example : ∃ (a : Ask) (o : Owner), a.Tame ∧ a.str = .ok "no".toList ∧ a.stack = .ok [⟨0, false⟩] ∧
    raised Ex.quiet a (fun _ => .ok []) ("changed".toList, some o) 0 .init (.user 3) = .other (.exc 7) :=
  ⟨⟨"ValueError".toList, .ok "no".toList, .ok [⟨0, false⟩], none, fun _ _ => .ok [], fun _ => [], false⟩,
    ⟨.error (.exc 7), "m".toList, "C".toList⟩, ⟨by simp, by simp, by simp⟩, rfl, rfl, rfl⟩

/-! ## Where it happened -/

/-- **C67** (locations).  If the frames can be shown, the message tells: the frame that emitted, which is the innermost one outside the package, and the one
that called it; the callback that was called first, the number of frames between it and the place of the error, and the place of the error. -/
theorem C67_locations {a : Ask} (ha : a.Tame) {t : Text} {txt : Frame → Bool → Text} {pre post ipre mid : List Frame} {f g x : Frame}
    (hs : a.str = .ok t) (hf : ∀ f c, a.fmt f c = .ok (txt f c))
    (hst : a.stack = .ok (pre ++ f :: post)) (hp : ∀ g ∈ pre, g.inPkg = true) (hpf : f.inPkg = false)
    (hin : a.inner = some (.ok (ipre ++ g :: mid ++ [x]))) (hip : ∀ h ∈ ipre, h.inPkg = true) (hig : g.inPkg = false) (hgx : g ≠ x)
    (name : Text) (d : Int) :
    ∃ rest, build a name d = .ok ([.heading name, .error a.cls t] ++ (if d = 0 then [] else [.nested d]) ++
      [.emission] ++ (post.head?.toList.map fun b => .back (txt b true)) ++ [.emitHere (txt f true)] ++
      [.chain, .callback (txt g false), .more mid.length, .errorHere (txt x true)] ++ rest) := by
  have h1 : (emissionSection a (pre ++ f :: post)).1 =
      [.emission] ++ (post.head?.toList.map fun b => .back (txt b true)) ++ [.emitHere (txt f true)] := by
    rw [emissionSection, find?_first hp hpf]
    dsimp only
    rw [back, idxOf_first hp hpf]
    cases post with
    | nil => simp [Out.andThen, frame, hf]
    | cons b post =>
      have : (pre ++ f :: b :: post)[pre.length + 1]? = some b := by simp
      rw [this]
      simp [Out.andThen, frame, hf]
  have h2 : ∃ rest, (errorSection a (.ok (ipre ++ g :: mid ++ [x]))).1 =
      [.chain, .callback (txt g false), .more mid.length, .errorHere (txt x true)] ++ rest := by
    rw [errorSection, List.getLast?_append]
    simp only [List.getLast?_singleton, Option.some_or]
    rw [chainSection, List.append_assoc, List.cons_append, find?_first hip hig]
    dsimp only
    rw [if_neg hgx, idxOf_first hip hig]
    have hlen : ((ipre ++ g :: (mid ++ [x])).length : Int) - ipre.length - 2 = mid.length := by
      simp
      omega
    rw [hlen]
    simp [Out.andThen, frame, hf]
  obtain ⟨rest, h2⟩ := h2
  refine ⟨rest, ?_⟩
  rw [build_ok ha hs hst, sections, hin, h1]
  dsimp only
  rw [h2]
  by_cases hd : d = 0 <;> simp [hd]

/-- A local variable as it is to be shown. -/
def Shown (name value line : Text) : Prop :=
  ∃ pad v, line = pad ++ name ++ [' ', '=', ' '] ++ v ∧ (∀ c ∈ pad, c = ' ') ∧ pad.length + name.length = max 20 name.length ∧
    (value.length ≤ 60 → v = value) ∧ (60 < value.length → v = value.take 60 ++ ['.', '.', '.'])

/-- One line for each of the variables, in order. -/
def AllShown : List (Text × Text) → List Text → Prop
  | [], ls => ls = []
  | p :: ps, ls => ∃ l ls', ls = l :: ls' ∧ Shown p.1 p.2 l ∧ AllShown ps ls'

/-- **C67** (local variables).  If the frames can be shown, all local variables of the innermost frame of the error have a `repr` and they are not hidden,
then the message ends with one line for each of them except `self` and `cls`, in order. -/
theorem C67_locals {a : Ask} (ha : a.Tame) {t : Text} {txt : Frame → Bool → Text} {st fs : List Frame} {x : Frame} {vars : List (Text × Text)}
    (hs : a.str = .ok t) (hst : a.stack = .ok st) (hin : a.inner = some (.ok (fs ++ [x]))) (hf : ∀ f c, a.fmt f c = .ok (txt f c))
    (hh : a.hide = false) (hv : a.locals x = vars.map fun p => (p.1, .ok p.2)) (hne : vars ≠ []) (name : Text) (d : Int) :
    ∃ m lines, build a name d = .ok (m ++ [.errorHere (txt x true), .localsHead, .locals lines]) ∧
      AllShown (vars.filter fun p => p.1 ≠ "self".toList ∧ p.1 ≠ "cls".toList) lines := by
  have key : ∀ vars : List (Text × Text), ∃ lines, fmtLocals (vars.map fun p => (p.1, .ok p.2)) = .ok lines ∧
      AllShown (vars.filter fun p => p.1 ≠ "self".toList ∧ p.1 ≠ "cls".toList) lines := by
    intro vars
    induction vars with
    | nil => exact ⟨[], rfl, rfl⟩
    | cons p vars ih =>
      obtain ⟨lines, h1, h2⟩ := ih
      rw [List.map_cons, fmtLocals.eq_def]
      dsimp only
      by_cases hp : p.1 = ['s', 'e', 'l', 'f'] ∨ p.1 = ['c', 'l', 's']
      · rw [if_pos hp]
        refine ⟨lines, h1, ?_⟩
        rw [List.filter_cons_of_neg]
        · exact h2
        · rcases hp with hp | hp <;> simp [hp]
      · rw [if_neg hp, h1]
        refine ⟨_, rfl, ?_⟩
        rw [List.filter_cons_of_pos]
        · refine ⟨_, _, rfl, ⟨_, _, rfl, by simp, by simp; omega, ?_, ?_⟩, h2⟩
          · intro h
            rw [shorten, if_neg (by omega)]
          · intro h
            rw [shorten, if_pos h]
        · simpa using hp
  obtain ⟨lines, h1, h2⟩ := key vars
  have h3 : ∃ m, (errorSection a (.ok (fs ++ [x]))).1 = m ++ [.errorHere (txt x true), .localsHead, .locals lines] := by
    obtain ⟨m, hc⟩ : ∃ m, chainSection a (fs ++ [x]) x = (m, none) := by
      rw [chainSection]
      split
      · exact ⟨_, rfl⟩
      · split
        · exact ⟨_, rfl⟩
        · simp [Out.andThen, frame, hf]
    refine ⟨m, ?_⟩
    rw [errorSection, List.getLast?_append]
    simp only [List.getLast?_singleton, Option.some_or]
    rw [hc, localsSection, hv, h1, hh]
    have : (vars.map fun p => ((p.1, .ok p.2) : Text × Except Raised Text)).isEmpty = false := by
      cases vars with
      | nil => exact absurd rfl hne
      | cons => rfl
    rw [this]
    simp [Out.andThen, frame, hf]
  obtain ⟨m, h3⟩ := h3
  refine ⟨.heading name :: .error a.cls t :: (if d ≠ 0 then [.nested d] else []) ++ (emissionSection a st).1 ++ m, lines, ?_, h2⟩
  rw [build_ok ha hs hst, sections, hin]
  dsimp only
  rw [h3]
  simp

/-! ## The message of an emission -/

/-- **C67** (immediate and latest-only signals).  Any emission of such a signal at any moment of any execution, one of whose own callbacks raised `e`,
and which therefore fails with an `EmitLoopError` for `s` and `e`.  In surroundings that can be asked, that error has a message, which begins with the heading, and tells
how deep the emission is nested: in how many running callbacks of the same signal. -/
theorem C67_nested_partial {env : Env} {Q : Act → Prop} {s : SigId} {args : Args} {chk : Bool} {w w' : World} {e : Exc}
    (hl : Live env Q (.emit s args chk) w) (hh : w.hook = none) (hm : (env.decl s).mode ≠ .queued)
    (h : Runs env (.emit s args chk) w w' (.error (.emitLoop (some s) e)))
    (hlast : ∃ b l₁, w'.log = l₁ ++ [.ret (some w.nextEm) (some s) b (.error e)])
    {a : Ask} {repr : Args → Except Raised Text} {name : Text} {owner : Option Owner} {t : Text} {st : List Frame}
    (ha : Askable a repr owner t st) :
    ∃ w1, Runs env (.inner s w.nextEm) ((w.enqueue s args).startLoop s) w1 (.error e) ∧ w1.log = w'.log ∧
      ∃ n m, raised env a repr (name, owner) s w1 e = .loopError e (.heading n :: .error a.cls t ::
        (if openCalls s w.log = 0 then [] else [.nested (openCalls s w.log)]) ++ m) ∧ NoNote m := by
  obtain ⟨w1, h1, h2, -, h4⟩ := emit_caught hl hh h hlast
  have hn : openCalls s w.log = (w.sig s).depth := by simpa [Task.sig?] using (nestPre_live hl).2.2 s
  obtain ⟨n, m, note, hi, hm', h0, -⟩ := init_ok ha name ((w1.sig s).depth - 1) (decide ((env.decl s).mode = .queued)) (w1.sig s).emitQueue (by simp [hm])
  refine ⟨w1, h1, h2, n, m, ?_, hm'⟩
  have : (w1.sig s).depth - 1 = openCalls s w.log := by omega
  rw [raised, hi, h0 (.inl (by simp [hm])), this]
  simp [outcome]

/-- **C67** (queued signals).  Any emission of a queued signal at any moment of any execution, one of whose callbacks raised `e`, and which therefore fails with an
`EmitLoopError` for `s` and `e`.  Let `args` and what was accepted meanwhile be the values that were emitted.  The first `k` of them were delivered; then `e` was raised
while value number `k`, `y`, was delivered to the slot `x`.  If that was the last value, i.e. none waits, then the message tells just that: it ends with the note that the error
occurred at queue depth `k`, with arguments `y`, or has no note, if `k = 0`.  This part is missing: the same if values wait (`C67_note_refuted`). -/
theorem C67_note_partial {env : Env} {Q : Act → Prop} {s : SigId} {args : Args} {chk : Bool} {w w' : World} {e : Exc}
    (hl : Live env Q (.emit s args chk) w) (hh : w.hook = none) (hm : (env.decl s).mode = .queued)
    (h : Runs env (.emit s args chk) w w' (.error (.emitLoop (some s) e))) (he : e ≠ .recursion)
    (hlast : ∃ b l₁, w'.log = l₁ ++ [.ret (some w.nextEm) (some s) b (.error e)])
    {a : Ask} {repr : Args → Except Raised Text} {name : Text} {owner : Option Owner} {t : Text} {st : List Frame}
    (ha : Askable a repr owner t st) :
    ∃ w1 k y rs ys x l0 l1 seg, Runs env (.inner s w.nextEm) ((w.enqueue s args).startLoop s) w1 (.error e) ∧ w1.log = w'.log ∧
      w'.log = w.log ++ .req s args :: (l0 ++ (l1 ++ seg)) ∧
      (args :: accepted s (l0 ++ (l1 ++ seg)))[k]? = some y ∧
      rs.map Prod.fst = (args :: accepted s (l0 ++ (l1 ++ seg))).take k ∧ RoundsBy s w.nextEm w.thread rs l0 ∧
      Deliveries s w.nextEm w.thread y ys l1 ∧ Delivery s w.nextEm w.thread y x seg (.error e) ∧
      ∃ n m note, raised env a repr (name, owner) s w1 e = .loopError e (.heading n :: .error a.cls t ::
          (if openCalls s w.log = 0 then [] else [.nested (openCalls s w.log)]) ++ m ++ note) ∧ NoNote m ∧
        (k = (accepted s (l0 ++ (l1 ++ seg))).length → (k = 0 → note = []) ∧ (k ≠ 0 → ∃ u, repr y = .ok u ∧ note = [.note k u])) := by
  obtain ⟨w1, h1, h2, hq, h4⟩ := emit_caught hl hh h hlast
  have hbody : body env (.inner s w.nextEm) ((w.enqueue s args).startLoop s) =
      .call (.whileQueued s w.nextEm 0) ((w.enqueue s args).startLoop s) .done := by
    simp only [body, hm]
  have h3 := h1
  rw [runs_iff, hbody] at h3
  obtain ⟨w2, r2, h3, rfl, rfl⟩ := h3
  have hd : DeadInv ((w.enqueue s args).startLoop s) := ConnEq.deadInv (by simp [ConnEq]) (deadInv_live hl)
  obtain ⟨k, y, rs, ys, x, l0, l1, seg, -, hy, hlog, hrs, hR, hd1, hd2⟩ := whileQueued_stops h3 s w.nextEm 0 e rfl rfl he (by simp) hd
  have hqc := queue_collects hm h3 (by simp [hq]) (accepted s w.log) (by simp [accepted_append', hq])
  have hqq : (w1.sig s).emitQueue = args :: accepted s (l0 ++ (l1 ++ seg)) := by
    have h4 := hqc.1
    rw [hlog] at h4
    simp only [accepted_append'] at h4
    have h5 : accepted s ((w.enqueue s args).startLoop s).log = accepted s w.log ++ [args] := by
      simp [accepted_append']
    rw [h5, List.append_assoc] at h4
    simpa [accepted_append'] using (List.append_cancel_left h4).symm
  rw [hqq] at hy hrs
  have hn : openCalls s w.log = (w.sig s).depth := by simpa [Task.sig?] using (nestPre_live hl).2.2 s
  obtain ⟨n, m, note, hi, hm', hn1, hn2⟩ := init_ok ha name ((w1.sig s).depth - 1) (decide ((env.decl s).mode = .queued)) (w1.sig s).emitQueue (by simp [hqq])
  have hdep : (w1.sig s).depth - 1 = openCalls s w.log := by omega
  refine ⟨w1, k, y, rs, ys, x, l0, l1, seg, h1, h2, ?_, hy, by simpa using hrs, by simpa using hR, by simpa using hd1, by simpa using hd2, n, m,
    note, ?_, hm', ?_⟩
  · rw [← h2, hlog]
    simp
  · rw [raised, hi, hdep]
    rfl
  · intro hk
    rw [hqq] at hn1 hn2
    refine ⟨fun h0 => hn1 (.inr (by rw [List.length_cons]; omega)), fun h0 => ?_⟩
    obtain ⟨z, u, hz, hu, rfl⟩ := hn2 (by simp [hm]) (by rw [List.length_cons]; omega)
    rw [List.getLast?_eq_getElem?] at hz
    simp only [List.length_cons, Nat.add_sub_cancel] at hz
    rw [← hk, hy] at hz
    cases hz
    exact ⟨u, hu, by simp [hk]⟩

/-- Surroundings for the examples: the callback and the emitter are outside the package. -/
def ask : Ask :=
  ⟨['E'], .ok ['n', 'o'], .ok [⟨1, true⟩, ⟨2, false⟩, ⟨3, false⟩], some (.ok [⟨4, true⟩, ⟨5, false⟩, ⟨6, false⟩, ⟨7, true⟩]),
    fun f c => .ok (List.replicate f.id 'x' ++ [if c then '+' else '-']), fun f => if f.id = 7 then [(['s', 'e', 'l', 'f'], .error (.exc 0)), (['x'], .ok ['1', '2'])] else [],
    false⟩

/-- Arguments as text, for the examples. -/
def showArgs : Args → Except Raised Text
  | [.atom 1] => .ok ['(', '1', ',', ')']
  | [.atom 2] => .ok ['(', '2', ',', ')']
  | [.atom 3] => .ok ['(', '3', ',', ')']
  | _ => .ok ['(', ')']

theorem ask_tame : ask.Tame := by
  constructor
  · intro f c n h
    simp only [ask] at h
    injection h
  · intro n h
    simp only [ask] at h
    injection h with h
    injection h
  · intro f p n hp h
    have : p.2 = .error (.exc 0) ∨ p.2 = .ok ['1', '2'] := by
      rw [ask] at hp
      dsimp only at hp
      split at hp
      · rcases List.mem_cons.1 hp with h | h
        · exact .inl (congrArg Prod.snd h)
        · exact .inr (congrArg Prod.snd (List.mem_singleton.1 h))
      · cases hp
    rw [h] at this
    rcases this with h | h
    · injection h with h
      injection h
    · injection h

theorem ask_ok : Askable ask showArgs none ['n', 'o'] [⟨1, true⟩, ⟨2, false⟩, ⟨3, false⟩] where
  tame := ask_tame
  str := rfl
  stack := rfl
  truth := by simp
  repr x := by
    rw [showArgs.eq_def]
    split <;> exact ⟨_, rfl⟩

/-- The whole message: heading, emission with its caller, callback, one frame between, the place of the error, and its local variables. -/
example : build ask ['c'] 2 = .ok [.heading ['c'], .error ['E'] ['n', 'o'], .nested 2, .emission, .back ['x', 'x', 'x', '+'],
    .emitHere ['x', 'x', '+'], .chain, .callback ['x', 'x', 'x', 'x', 'x', '-'], .more 1, .errorHere ['x', 'x', 'x', 'x', 'x', 'x', 'x', '+'], .localsHead,
    .locals [(List.replicate 19 ' ' ++ ['x', ' ', '=', ' ', '1', '2'])]] := rfl

/-- `ask` meets the conditions of `C67_raised_partial`, `C67_others_partial`, `C67_locations` and `C67_locals`. -/
example : ask.Tame ∧ ask.str = .ok ['n', 'o'] ∧ ask.stack = .ok ([⟨1, true⟩] ++ ⟨2, false⟩ :: [⟨3, false⟩]) ∧
    ask.inner = some (.ok ([⟨4, true⟩] ++ ⟨5, false⟩ :: [⟨6, false⟩] ++ [⟨7, true⟩])) ∧ ask.hide = false ∧
    raisedFast ask (['c'], none) (.user 3) = .loopError (.user 3) [.heading ['c'], .error ['E'] ['n', 'o'], .emission, .back ['x', 'x', 'x', '+'],
      .emitHere ['x', 'x', '+'], .chain, .callback ['x', 'x', 'x', 'x', 'x', '-'], .more 1, .errorHere ['x', 'x', 'x', 'x', 'x', 'x', 'x', '+'], .localsHead,
      .locals [List.replicate 19 ' ' ++ ['x', ' ', '=', ' ', '1', '2']]] :=
  ⟨ask_tame, rfl, rfl, rfl, rfl, rfl⟩

/-- A frame with two local variables, of which one is shown; its value is long. -/
example : ∃ (a : Ask) (vars : List (Text × Text)), a.Tame ∧ a.str = .ok ['n', 'o'] ∧ a.stack = .ok [] ∧ a.inner = some (.ok ([] ++ [⟨7, true⟩])) ∧ a.hide = false ∧
    a.locals ⟨7, true⟩ = vars.map (fun p => (p.1, .ok p.2)) ∧ vars ≠ [] ∧
    build a ['c'] 0 = .ok [.heading ['c'], .error ['E'] ['n', 'o'], .errorHere ['+'], .localsHead,
      .locals [List.replicate 19 ' ' ++ ['x', ' ', '=', ' '] ++ List.replicate 60 '1' ++ ['.', '.', '.']]] :=
  ⟨⟨['E'], .ok ['n', 'o'], .ok [], some (.ok [⟨7, true⟩]), fun _ _ => .ok ['+'],
      fun _ => [(['x'], .ok (List.replicate 61 '1')), (['s', 'e', 'l', 'f'], .ok ['?'])], false⟩,
    [(['x'], List.replicate 61 '1'), (['s', 'e', 'l', 'f'], ['?'])],
    ⟨by simp, by simp, fun f p n hp h => by
      rcases List.mem_cons.1 hp with rfl | hp
      · injection h
      · rw [List.mem_singleton.1 hp] at h
        injection h⟩, rfl, rfl, rfl, rfl, rfl, by simp, rfl⟩

/-- Callbacks of the queued signal 20: the first one emits 2 when it gets 1, the second one raises when it gets `n`. -/
def failAt (n : Int) (more : List Act) : Env := Ex.env fun b a => match b, a with
  | .func 0, [.atom 1] => Ex.seq more
  | .func 1, [.atom m] => if m = n then .raise (.user 3) else .ret
  | _, _ => .ret

/-- The second callback fails with the last value, 2: the note tells so. -/
example : ∃ (w w' w1 : World), Live (failAt 2 [Ex.emit 20 2]) anyAct (.emit 20 [.atom 1] true) w ∧ w.hook = none ∧
    Runs (failAt 2 [Ex.emit 20 2]) (.emit 20 [.atom 1] true) w w' (.error (.emitLoop (some 20) (.user 3))) ∧
    (∃ b l₁, w'.log = l₁ ++ [.ret (some w.nextEm) (some 20) b (.error (.user 3))]) ∧
    Runs (failAt 2 [Ex.emit 20 2]) (.inner 20 w.nextEm) ((w.enqueue 20 [.atom 1]).startLoop 20) w1 (.error (.user 3)) ∧
    ∃ m, raised (failAt 2 [Ex.emit 20 2]) ask showArgs (['c'], none) 20 w1 (.user 3) =
      .loopError (.user 3) (m ++ [.note 1 ['(', '2', ',', ')']]) := by
  refine ⟨_, _, _, .sub (.top (Ex.reach (n := 30) (l := [Ex.conn 20 (.func 0), Ex.conn 20 (.func 1)])
      (by simp [anyAct]) rfl) 0 (Ex.seq [Ex.emit 20 1]) (Ex.Only.seq_mem (by simp [anyAct])))
      (.inl ⟨rfl, rfl⟩), rfl, ⟨40, rfl⟩, ⟨.func 1, _, rfl⟩, ⟨40, rfl⟩, [.heading ['c'], .error ['E'] ['n', 'o'], .emission, .back ['x', 'x', 'x', '+'],
    .emitHere ['x', 'x', '+'], .chain, .callback ['x', 'x', 'x', 'x', 'x', '-'], .more 1, .errorHere ['x', 'x', 'x', 'x', 'x', 'x', 'x', '+'], .localsHead,
    .locals [(List.replicate 19 ' ' ++ ['x', ' ', '=', ' ', '1', '2'])]], rfl⟩

/-- **C67** fails for queued signals if values wait: the first callback emits 2 and 3 when it gets 1; then the second callback raises, having got 1; but the message says that the error occurred at queue
depth 2 while emitting 3, which no callback has got. -/
theorem C67_note_refuted : ∃ (w w' w1 : World), Live (failAt 1 [Ex.emit 20 2, Ex.emit 20 3]) anyAct (.emit 20 [.atom 1] true) w ∧ w.hook = none ∧
    Runs (failAt 1 [Ex.emit 20 2, Ex.emit 20 3]) (.emit 20 [.atom 1] true) w w' (.error (.emitLoop (some 20) (.user 3))) ∧
    callsBy w.nextEm w'.log = [(.func 0, [.atom 1]), (.func 1, [.atom 1])] ∧
    Runs (failAt 1 [Ex.emit 20 2, Ex.emit 20 3]) (.inner 20 w.nextEm) ((w.enqueue 20 [.atom 1]).startLoop 20) w1 (.error (.user 3)) ∧
    ∃ m, raised (failAt 1 [Ex.emit 20 2, Ex.emit 20 3]) ask showArgs (['c'], none) 20 w1 (.user 3) =
      .loopError (.user 3) (m ++ [.note 2 ['(', '3', ',', ')']]) := by
  refine ⟨_, _, _, .sub (.top (Ex.reach (n := 30) (l := [Ex.conn 20 (.func 0), Ex.conn 20 (.func 1)])
      (by simp [anyAct]) rfl) 0 (Ex.seq [Ex.emit 20 1]) (Ex.Only.seq_mem (by simp [anyAct])))
      (.inl ⟨rfl, rfl⟩), rfl, ⟨40, rfl⟩, rfl, ⟨40, rfl⟩, [.heading ['c'], .error ['E'] ['n', 'o'], .emission, .back ['x', 'x', 'x', '+'],
    .emitHere ['x', 'x', '+'], .chain, .callback ['x', 'x', 'x', 'x', 'x', '-'], .more 1, .errorHere ['x', 'x', 'x', 'x', 'x', 'x', 'x', '+'], .localsHead,
    .locals [(List.replicate 19 ' ' ++ ['x', ' ', '=', ' ', '1', '2'])]], rfl⟩

/-- **C67** fails if the `repr` of the last waiting arguments raises: the caller gets that exception and no `EmitLoopError`. -/
theorem C67_args_refuted : ∃ (w w' w1 : World), Live (failAt 1 [Ex.emit 20 2]) anyAct (.emit 20 [.atom 1] true) w ∧
    Runs (failAt 1 [Ex.emit 20 2]) (.emit 20 [.atom 1] true) w w' (.error (.emitLoop (some 20) (.user 3))) ∧
    Runs (failAt 1 [Ex.emit 20 2]) (.inner 20 w.nextEm) ((w.enqueue 20 [.atom 1]).startLoop 20) w1 (.error (.user 3)) ∧
    raised (failAt 1 [Ex.emit 20 2]) ask (fun _ => .error (.exc 9)) (['c'], none) 20 w1 (.user 3) = .other (.exc 9) := by
  exact ⟨_, _, _, .sub (.top (Ex.reach (n := 30) (l := [Ex.conn 20 (.func 0), Ex.conn 20 (.func 1)])
      (by simp [anyAct]) rfl) 0 (Ex.seq [Ex.emit 20 1]) (Ex.Only.seq_mem (by simp [anyAct])))
      (.inl ⟨rfl, rfl⟩), ⟨40, rfl⟩, ⟨40, rfl⟩, rfl⟩

/-- Signal 0, immediate, whose callback emits it again and raises the second time: nested in one callback. -/
def nestedEnv : Env := Ex.env fun b a => match b, a with
  | .func 0, [.atom 1] => .api (Ex.emit 0 2) fun r => match r with | .ok _ => .ret | .error e => .raise e
  | .func 0, [.atom 2] => .raise (.user 3)
  | _, _ => .ret

/-- The inner one of two emissions fails. -/
example : ∃ (w w' : World), Live nestedEnv anyAct (.emit 0 [.atom 2] true) w ∧ w.hook = none ∧ openCalls 0 w.log = 1 ∧
    Runs nestedEnv (.emit 0 [.atom 2] true) w w' (.error (.emitLoop (some 0) (.user 3))) ∧
    (∃ b l₁, w'.log = l₁ ++ [.ret (some w.nextEm) (some 0) b (.error (.user 3))]) := by
  have h0 : Live nestedEnv anyAct (.prog (Ex.seq [Ex.emit 0 1])) _ := .top (Ex.reach (n := 30) (l := [Ex.conn 0 (.func 0)])
      (by simp [anyAct]) rfl) 0 (Ex.seq [Ex.emit 0 1]) (Ex.Only.seq_mem (by simp [anyAct]))
  have h1 : Live nestedEnv anyAct (.emit 0 [.atom 1] true) _ := .sub h0 (.inl ⟨rfl, rfl⟩)
  have h2 : Live nestedEnv anyAct (.runLoop 0 [.atom 1]) _ := .sub h1 (.inl ⟨rfl, rfl⟩)
  have h3 : Live nestedEnv anyAct (.inner 0 0) _ := .sub h2 (.inl ⟨rfl, rfl⟩)
  have h4 : Live nestedEnv anyAct (.forSlots 0 0 [.atom 1] 0) _ := .sub h3 (.inl ⟨rfl, rfl⟩)
  have h5 : Live nestedEnv anyAct (.cb (some 0) (some 0) _ [.atom 1]) _ := .sub h4 (.inl ⟨rfl, rfl⟩)
  have h6 : Live nestedEnv anyAct (.direct (some 0) (some 0) _ [.atom 1]) _ := .sub h5 (.inl ⟨rfl, rfl⟩)
  have h7 : Live nestedEnv anyAct (.prog (.api (Ex.emit 0 2) fun r => match r with | .ok _ => .ret | .error e => .raise e)) _ := .sub h6 (.inl ⟨rfl, rfl⟩)
  exact ⟨_, _, .sub h7 (.inl ⟨rfl, rfl⟩), rfl, rfl, ⟨40, rfl⟩, ⟨.func 0, _, rfl⟩⟩

end Psygnal.Msg
