import Verif.ErrorMessage
import Verif.ChangeLemmas

/-!
# Lemmas for C67
-/
namespace Psygnal

/-- A queued emit loop that fails: rounds that were completed, and one that was not. -/
theorem whileQueued_stops {env : Env} {t w w' r} (h : Runs env t w w' r) : ∀ s em i e,
    t = .whileQueued s em i → r = .error e → e ≠ .recursion → em < w.nextEm → DeadInv w →
    ∃ k a rs ys x l0 l1 seg, i ≤ k ∧ (w'.sig s).emitQueue[k]? = some a ∧ w'.log = w.log ++ (l0 ++ (l1 ++ seg)) ∧
      rs.map Prod.fst = ((w'.sig s).emitQueue.drop i).take (k - i) ∧ RoundsBy s em w.thread rs l0 ∧
      Deliveries s em w.thread a ys l1 ∧ Delivery s em w.thread a x seg (.error e) := by
  refine Runs.induct (P := fun t w w' r => ∀ s em i e,
    t = .whileQueued s em i → r = .error e → e ≠ .recursion → em < w.nextEm → DeadInv w →
    ∃ k a rs ys x l0 l1 seg, i ≤ k ∧ (w'.sig s).emitQueue[k]? = some a ∧ w'.log = w.log ++ (l0 ++ (l1 ++ seg)) ∧
      rs.map Prod.fst = ((w'.sig s).emitQueue.drop i).take (k - i) ∧ RoundsBy s em w.thread rs l0 ∧
      Deliveries s em w.thread a ys l1 ∧ Delivery s em w.thread a x seg (.error e)) ?_ h
  clear h
  rintro t w w' r h s em i e rfl rfl he hn hdead
  simp only [body] at h
  split at h
  · simp [Comp.Via] at h
  · rename_i a ha
    obtain ⟨w1, r1, ⟨h1, -⟩, h2⟩ := h
    obtain ⟨ys, l, hl, hle, -⟩ := forQueued_log h1 s em _ 0 rfl hn hdead
    have hpre : ∀ {u : World}, (w1.sig s).emitQueue <+: (u.sig s).emitQueue → (u.sig s).emitQueue[i]? = some a := by
      intro u hu
      obtain ⟨q, hq⟩ := (emitQueue_inv h1 s (by simp)).1.trans hu
      rw [List.getElem?_eq_some_iff] at ha
      obtain ⟨hi, rfl⟩ := ha
      rw [← hq, List.getElem?_append_left hi, List.getElem?_eq_getElem hi]
    cases r1 with
    | error e1 =>
      obtain ⟨rfl, h2⟩ := h2
      cases h2
      rcases hle with ⟨h0, -⟩ | ⟨e2, l1, seg, ys1, x, h0, rfl, rfl, hd1, hd2⟩ | ⟨-, h0, -⟩
      · cases h0
      · cases h0
        exact ⟨i, a, [], ys1, x, [], l1, seg, Nat.le_refl _, hpre List.prefix_rfl, hl, by simp, rfl, hd1, hd2⟩
      · cases h0
        exact absurd rfl he
    | ok u =>
      obtain ⟨w2, r2, ⟨h3, ih⟩, rfl, rfl⟩ := h2
      have nm := nextEm_mono h1
      obtain ⟨k, b, rs, ys2, x, l0, l1, seg, hk, hb, hl2, hrs, hR, hd1, hd2⟩ :=
        ih s em (i + 1) e rfl rfl he (by omega) (deadInv_runs h1 hdead)
      rcases hle with ⟨-, hd⟩ | ⟨e2, _, _, _, _, h0, _⟩ | ⟨-, h0, -⟩
      · rw [thread_const h1] at hR hd1 hd2
        have hi := hpre (emitQueue_inv h3 s (by simp)).1
        refine ⟨k, b, (a, ys) :: rs, ys2, x, l ++ l0, l1, seg, by omega, hb, by rw [hl2, hl]; simp, ?_,
          ⟨l, l0, rfl, hd, hR⟩, hd1, hd2⟩
        rw [List.getElem?_eq_some_iff] at hi
        obtain ⟨hi, rfl⟩ := hi
        rw [List.drop_eq_getElem_cons hi, List.map_cons, hrs, show k - i = (k - (i + 1)) + 1 by omega, List.take_succ_cons]
      · cases h0
      · cases h0

namespace Msg

/-! ## Building the message -/

theorem suppress_none {o : Out} (h : ∀ n, o.2 ≠ some (.base n)) : suppress o = (o.1, none) := by
  obtain ⟨m, r⟩ := o
  rcases r with _ | _ | _ | n <;> first | rfl | exact absurd rfl (h n)

theorem andThen_base {o k : Out} (h1 : ∀ n, o.2 ≠ some (.base n)) (h2 : ∀ n, k.2 ≠ some (.base n)) :
    ∀ n, (o.andThen k).2 ≠ some (.base n) := by
  obtain ⟨m, r⟩ := o
  cases r with
  | none => exact h2
  | some r => exact h1

/-- Nothing that is asked raises a `BaseException` that is not an `Exception` (about `/repo/src/psygnal/_exceptions.py:77,87`). -/
structure Ask.Tame (a : Ask) : Prop where
  fmt : ∀ f c n, a.fmt f c ≠ .error (.base n)
  inner : ∀ n, a.inner ≠ some (.error (.base n))
  locals : ∀ f p n, p ∈ a.locals f → p.2 ≠ .error (.base n)

theorem frame_base {a : Ask} (h : a.Tame) (f : Frame) (c : Bool) (p : Text → Part) : ∀ n, (frame a f c p).2 ≠ some (.base n) := by
  intro n
  rw [frame]
  split
  · simp
  · rename_i r hr
    intro h0
    cases h0
    exact h.fmt f c n hr

theorem back_base {a : Ask} (h : a.Tame) (st : List Frame) (f : Frame) : ∀ n, (back a st f).2 ≠ some (.base n) := by
  intro n
  rw [back]
  split
  · simp
  · split
    · simp
    · exact frame_base h _ _ _ n

theorem emission_base {a : Ask} (h : a.Tame) (st : List Frame) : ∀ n, (emissionSection a st).2 ≠ some (.base n) := by
  intro n
  rw [emissionSection]
  split
  · simp
  · exact andThen_base (by simp) (andThen_base (back_base h st _) (frame_base h _ _ _)) n

theorem fmtLocals_base : ∀ {l : List (Text × Except Raised Text)}, (∀ p n, p ∈ l → p.2 ≠ .error (.base n)) →
    ∀ n, fmtLocals l ≠ .error (.base n)
  | [], _, n => by simp [fmtLocals]
  | (name, v) :: l, h, n => by
    have ih := fmtLocals_base (l := l) (fun p n hp => h p n (by simp [hp])) n
    rw [fmtLocals.eq_def]
    dsimp only
    split
    · exact ih
    · cases v with
      | error r =>
        intro h0
        cases h0
        exact h (name, .error (.base n)) n (by simp) rfl
      | ok t =>
        dsimp only
        split
        · rename_i r hr
          intro h0
          cases h0
          exact ih hr
        · simp

theorem locals_base {a : Ask} (h : a.Tame) (f : Frame) : ∀ n, (localsSection a f).2 ≠ some (.base n) := by
  intro n
  rw [localsSection]
  split
  · simp
  split
  · simp
  split
  · simp
  · rename_i r hr
    intro h0
    cases h0
    exact fmtLocals_base (fun p n hp => h.locals f p n hp) n hr

theorem chain_base {a : Ask} (h : a.Tame) (fs : List Frame) (x : Frame) : ∀ n, (chainSection a fs x).2 ≠ some (.base n) := by
  intro n
  rw [chainSection]
  split
  · simp
  split
  · simp
  · exact andThen_base (by simp) (andThen_base (frame_base h _ _ _) (by simp)) n

theorem error_base {a : Ask} (h : a.Tame) {i : Except Raised (List Frame)} (hi : a.inner = some i) :
    ∀ n, (errorSection a i).2 ≠ some (.base n) := by
  intro n
  rw [errorSection.eq_def]
  split
  · intro h0
    cases h0
    exact h.inner n hi
  · split
    · simp
    · exact andThen_base (chain_base h _ _) (andThen_base (frame_base h _ _ _) (locals_base h _)) n

/-- The two sections that are guarded by `suppress`. -/
def sections (a : Ask) (st : List Frame) : List Part :=
  (emissionSection a st).1 ++ (match a.inner with | none => [] | some i => (errorSection a i).1)

theorem build_ok {a : Ask} (h : a.Tame) {t : Text} {st : List Frame} (hs : a.str = .ok t) (hst : a.stack = .ok st) (n : Text) (d : Int) :
    build a n d = .ok (.heading n :: .error a.cls t :: (if d ≠ 0 then [.nested d] else []) ++ sections a st) := by
  rw [build, hs, hst]
  dsimp only
  rw [suppress_none (emission_base h st), sections]
  cases hi : a.inner with
  | none => simp [Out.andThen]
  | some i =>
    dsimp only
    rw [suppress_none (error_base h hi)]
    simp [Out.andThen]

theorem find?_first {pre post : List Frame} {f : Frame} (hp : ∀ g ∈ pre, g.inPkg = true) (hf : f.inPkg = false) :
    (pre ++ f :: post).find? (!·.inPkg) = some f := by
  rw [List.find?_append, List.find?_eq_none.2 (by simpa using hp)]
  simp [hf]

theorem idxOf_first {pre post : List Frame} {f : Frame} (hp : ∀ g ∈ pre, g.inPkg = true) (hf : f.inPkg = false) :
    (pre ++ f :: post).idxOf f = pre.length := by
  have : f ∉ pre := fun h => by simp [hp f h] at hf
  rw [List.idxOf_append, if_neg this]
  simp

/-- The note comes last, if at all. -/
def NoNote (m : List Part) : Prop := ∀ d u, Part.note d u ∉ m

theorem NoNote.append {m k : List Part} (h1 : NoNote m) (h2 : NoNote k) : NoNote (m ++ k) := by
  intro d u h
  rcases List.mem_append.1 h with h | h
  · exact h1 d u h
  · exact h2 d u h

theorem andThen_noNote {o k : Out} (h1 : NoNote o.1) (h2 : NoNote k.1) : NoNote (o.andThen k).1 := by
  obtain ⟨m, r⟩ := o
  cases r with
  | none => exact h1.append h2
  | some r => exact h1

theorem frame_noNote (a : Ask) (f : Frame) (c : Bool) {p : Text → Part} (hp : ∀ t d u, p t ≠ .note d u) : NoNote (frame a f c p).1 := by
  intro d u
  rw [frame]
  split
  · rename_i t _
    simpa using fun h => hp t d u h.symm
  · simp

theorem back_noNote (a : Ask) (st : List Frame) (f : Frame) : NoNote (back a st f).1 := by
  rw [back]
  split
  · exact fun _ _ => by simp
  · have h := fun f => frame_noNote a f true (p := .back) (by simp)
    split
    · rename_i b _ _ m hb
      have := h b
      rw [hb] at this
      exact this
    · exact h _

theorem emission_noNote (a : Ask) (st : List Frame) : NoNote (emissionSection a st).1 := by
  rw [emissionSection]
  split
  · exact fun _ _ => by simp
  · exact andThen_noNote (fun _ _ => by simp) (andThen_noNote (back_noNote a st _) (frame_noNote a _ _ (by simp)))

theorem locals_noNote (a : Ask) (f : Frame) : NoNote (localsSection a f).1 := by
  intro d u
  rw [localsSection]
  repeat' split
  all_goals simp

theorem chain_noNote (a : Ask) (fs : List Frame) (x : Frame) : NoNote (chainSection a fs x).1 := by
  rw [chainSection]
  split
  · exact fun _ _ => by simp
  split
  · exact fun _ _ => by simp
  · exact andThen_noNote (fun _ _ => by simp) (andThen_noNote (frame_noNote a _ _ (by simp)) (fun _ _ => by simp))

theorem error_noNote (a : Ask) (i : Except Raised (List Frame)) : NoNote (errorSection a i).1 := by
  rw [errorSection.eq_def]
  split
  · exact fun _ _ => by simp
  · split
    · exact fun _ _ => by simp
    · exact andThen_noNote (chain_noNote a _ _) (andThen_noNote (frame_noNote a _ _ (by simp)) (locals_noNote a _))

theorem sections_noNote (a : Ask) (st : List Frame) : NoNote (sections a st) := by
  rw [sections]
  refine (emission_noNote a st).append ?_
  split
  · exact fun _ _ => by simp
  · exact error_noNote a _

/-- The surroundings of an emission of a signal with this name and owner can be asked: `str` of the exception gives `t`, the stack is `st`, the owner, if any, has a truth value,
emitted arguments have a `repr`, and nothing else raises more than an `Exception`. -/
structure Askable (a : Ask) (repr : Args → Except Raised Text) (owner : Option Owner) (t : Text) (st : List Frame) : Prop where
  tame : a.Tame
  str : a.str = .ok t
  stack : a.stack = .ok st
  truth : ∀ o, owner = some o → ∃ b, o.truth = .ok b
  repr : ∀ x, ∃ u, repr x = .ok u

/-- What `init` makes in such surroundings. -/
theorem init_ok {a : Ask} {repr : Args → Except Raised Text} {owner : Option Owner} {t : Text} {st : List Frame}
    (ha : Askable a repr owner t st) (name : Text) (d : Int) (queued : Bool) (q : List Args) (hq : queued = true → q ≠ []) :
    ∃ n m note, init a repr (some (name, owner)) d queued q =
        .ok (.heading n :: .error a.cls t :: (if d = 0 then [] else [.nested d]) ++ m ++ note) ∧ NoNote m ∧
      (queued = false ∨ q.length = 1 → note = []) ∧
      (queued = true → q.length ≠ 1 → ∃ x u, q.getLast? = some x ∧ repr x = .ok u ∧ note = [.note ((q.length : Int) - 1) u]) := by
  obtain ⟨n, hn⟩ : ∃ n, sigName (some (name, owner)) = .ok n := by
    cases owner with
    | none => exact ⟨_, rfl⟩
    | some o =>
      obtain ⟨b, hb⟩ := ha.truth o rfl
      cases b <;> exact ⟨_, by simp only [sigName, hb]; rfl⟩
  have hd : (if d ≠ 0 then [Part.nested d] else []) = (if d = 0 then [] else [.nested d]) := by split <;> simp_all
  have h0 : init a repr (some (name, owner)) d queued q =
      addNote repr queued q (.heading n :: .error a.cls t :: (if d = 0 then [] else [.nested d]) ++ sections a st) := by
    rw [init, hn]
    dsimp only
    rw [build_ok ha.tame ha.str ha.stack, hd]
  rw [h0, addNote.eq_def]
  by_cases h1 : queued = true ∧ (q.length : Int) - 1 ≠ 0
  · rw [if_pos h1]
    cases hl : q.getLast? with
    | none => exact absurd (List.getLast?_eq_none_iff.1 hl) (hq h1.1)
    | some x =>
      obtain ⟨u, hu⟩ := ha.repr x
      refine ⟨n, sections a st, [.note ((q.length : Int) - 1) u], by simp [hu], sections_noNote a st, ?_, fun _ _ => ⟨x, u, rfl, hu, rfl⟩⟩
      rintro (h | h)
      · rw [h] at h1
        exact absurd h1.1 (by simp)
      · omega
  · rw [if_neg h1]
    exact ⟨n, sections a st, [], by simp, sections_noNote a st, fun _ => rfl, fun h2 h3 => absurd ⟨h2, by omega⟩ h1⟩

end Msg

/-- An emission of `s` one of whose own callbacks raised an ordinary exception: the state in which its `except` clause runs. -/
theorem emit_caught {env : Env} {Q : Act → Prop} {s : SigId} {args : Args} {chk : Bool} {w w' : World} {e : Exc}
    (hl : Live env Q (.emit s args chk) w) (hh : w.hook = none) (h : Runs env (.emit s args chk) w w' (.error (.emitLoop (some s) e)))
    (hlast : ∃ b l₁, w'.log = l₁ ++ [.ret (some w.nextEm) (some s) b (.error e)]) :
    ∃ w1, Runs env (.inner s w.nextEm) ((w.enqueue s args).startLoop s) w1 (.error e) ∧ w1.log = w'.log ∧ (w.sig s).emitQueue = [] ∧
      (w1.sig s).depth = (w.sig s).depth + 1 := by
  rcases emit_cases h hh with ⟨-, -, h⟩ | ⟨-, -, -, h⟩ | ⟨-, -, h⟩ | ⟨-, -, h⟩
  · cases h
  · cases h
  · cases h
  have hq : (w.sig s).emitQueue = [] := by
    cases hq : (w.sig s).emitQueue with
    | nil => rfl
    | cons y q =>
      rw [runs_iff] at h
      simp only [body] at h
      split at h
      · simp [Comp.Via] at h
      · split at h
        · simp [Comp.Via] at h
        · rename_i h0
          simp [hq] at h0
  rcases runLoop_inner h hq with ⟨-, -, h⟩ | ⟨-, w1, r1, h1, rfl, hr, -⟩
  · cases h
  have hd0 : 0 ≤ (w.sig s).depth := (depthPre_live hl).2.1 s
  have hdep := depth_restored h1 s (by simp; omega)
  have hlog : (w1.endLoop s w.emitter).log = w1.log := by simp
  refine ⟨w1, ?_, hlog.symm, hq, by simpa using hdep⟩
  cases r1 with
  | ok u => simp [wrapRes] at hr
  | error e1 =>
    obtain ⟨l, hl1, hf⟩ := inner_fail h1 (by simp) (ConnEq.deadInv (by simp [ConnEq]) (deadInv_live hl)) (by simp)
    obtain ⟨b, l₁, hlast⟩ := hlast
    rw [hlog, hl1] at hlast
    rcases hf with ⟨l₂, b', rfl, -⟩ | ⟨-, rfl, -⟩
    · rw [← List.append_assoc] at hlast
      have := List.append_inj_right' hlast rfl
      simp only [List.cons.injEq, Ev.ret.injEq, Except.error.injEq, and_true, true_and] at this
      rw [← this.2]
      exact h1
    · simp [wrapRes, wrapErr] at hr

end Psygnal
