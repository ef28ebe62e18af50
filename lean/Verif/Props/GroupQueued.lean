import Verif.GroupQueued
import Verif.Examples

/-!
# Groups with members in queued mode: C19
-/
namespace Psygnal

/-- **C19** for members with `reemission="queued"`.  As `C19_member_emit`, but the emission of `c` also delivers the values that are
emitted on `c` meanwhile (by its own listeners, by listeners of the group, …), one after the other.  Each of them, in order, invokes the
relay of the group exactly once, and inside that invocation the group emits it to every listener of the group, in order, each exactly
once. -/
theorem C19_queued_member_emit {env : Env} {r : SigId} (hg : Groups env) (hr : (env.decl r).isRelay = true)
    (he : env.Only (Respects env r)) {c : SigId} (hc : c ∈ (env.decl r).children) {args : Args} {chk : Bool}
    {w w' : World} (hl : Live env (Respects env r) (.emit c args chk) w) (hh : w.hook = none)
    (hm : (env.decl c).mode = .queued) (hb : (w.sig c).blocked = false) (hp : (w.sig c).paused = false)
    (hq : (w.sig c).emitQueue = []) (hs : (w.sig r).slots ≠ [])
    (hkc : ∀ t1 w1, Within env (.emit c args chk) w t1 w1 → (w1.sig c).slots = (w.sig c).slots)
    (hkr : ∀ t1 w1, Within env (.emit c args chk) w t1 w1 → (w1.sig r).slots = (w.sig r).slots)
    (h : Runs env (.emit c args chk) w w' (.ok ())) :
    ∃ l, w'.log = w.log ++ .req c args :: l ∧
      Heard r c w.nextEm w.thread (w.sig r).slots (args :: accepted c l) l ∧
      (callsBy w.nextEm l).filter (·.1 = .relay r) = (args :: accepted c l).map fun a => (.relay r, a) := by
  obtain ⟨n, hrel⟩ := (groupInv_live hg hr he hl c hc).1 hs
  obtain ⟨l, hlog, hR⟩ := C10_breadth_first hl hh hm hb hp hq hkc h
  refine ⟨l, hlog, ?_, ?_⟩
  · obtain ⟨h1, hw1⟩ := emit_loop h hh hb hp
    rcases runLoop_inner h1 hq with ⟨-, -, h⟩ | ⟨-, w1, r1, h2, rfl, hr1, hw2⟩
    · simp at h
    have hr1 := wrapRes_ok hr1
    subst hr1
    have hbody : body env (.inner c w.nextEm) ((w.enqueue c args).startLoop c) =
        .call (.whileQueued c w.nextEm 0) ((w.enqueue c args).startLoop c) .done := by
      simp only [body, hm]
    rw [runs_iff, hbody] at h2
    obtain ⟨w2, r2, h3, rfl, rfl⟩ := h2
    have hw3 : Within env (.emit c args chk) w (.whileQueued c w.nextEm 0) ((w.enqueue c args).startLoop c) :=
      .step (hw1.trans hw2) (by rw [hbody]; exact .inl ⟨rfl, rfl⟩)
    have hmem : ({ relaySlot r with serial := n } : Slot) ∈ (w.sig c).slots := by
      have : ({ relaySlot r with serial := n } : Slot) ∈ relays r (w.sig c).slots := by rw [hrel]; simp
      exact (List.mem_filter.1 this).1
    obtain ⟨l', hl', hH⟩ := whileQueued_heard hg hr hmem h3 0 rfl rfl (live_within hl hw3) (by simp)
      (fun t1 w1 g => hkc t1 w1 (hw3.trans g)) (fun t1 w1 g => hkr t1 w1 (hw3.trans g))
    have hqc := queue_collects hm h3 (by simp [hq]) (accepted c w.log) (by simp [accepted_append', hq])
    have hll : l' = l := by
      have h4 : w.log ++ .req c args :: l' = w.log ++ .req c args :: l := by
        rw [← hlog]
        simp [hl']
      simpa using h4
    subst hll
    have : (w1.sig c).emitQueue = args :: accepted c l' := by
      have h4 := hqc.1
      rw [hl'] at h4
      simp only [accepted_append'] at h4
      have h5 : accepted c ((w.enqueue c args).startLoop c).log = accepted c w.log ++ [args] := by
        simp [accepted_append']
      rw [h5, List.append_assoc] at h4
      exact (List.append_cancel_left h4).symm
    rw [List.drop_zero, this] at hH
    simpa using hH
  · generalize args :: accepted c l = as at hR ⊢
    clear hlog
    induction as generalizing l with
    | nil =>
      cases hR
      rfl
    | cons a as ih =>
      obtain ⟨l1, l2, rfl, hd, hR⟩ := hR
      rw [callsBy_append, List.filter_append, ih l2 hR, hd.calls.1, List.filter_map, List.filter_filter]
      have : (w.sig c).slots.filter (fun x => (x.base, x.receives a).1 = .relay r && Slot.isLocal w.thread x) =
          relays r (w.sig c).slots := by
        apply List.filter_congr
        intro x hx
        by_cases hxr : x.base = .relay r
        · have hxm : x ∈ relays r (w.sig c).slots := by
            rw [relays, List.mem_filter]
            exact ⟨hx, by simp [hxr]⟩
          rw [hrel, List.mem_singleton] at hxm
          simp [hxm, Slot.isLocal, relaySlot]
        · simp [hxr]
      simp only [Function.comp_def]
      rw [this, hrel]
      simp [Slot.receives, relaySlot]

/-- As `Ex.env`, with member 31 of group 30 in queued mode. -/
def queuedEnv (body : Base → Args → Prog) : Env :=
  { Ex.env body with decl := fun s => if s = 31 then { Ex.decl 31 with mode := .queued } else Ex.decl s }

theorem queuedEnv_groups (body : Base → Args → Prog) : Groups (queuedEnv body) := by
  have hg := Ex.groups body
  have h : ∀ s, ((queuedEnv body).decl s).isRelay = ((Ex.env body).decl s).isRelay ∧
      ((queuedEnv body).decl s).children = ((Ex.env body).decl s).children ∧
      ((queuedEnv body).decl s).parent = ((Ex.env body).decl s).parent ∧
      (s ≠ 31 → ((queuedEnv body).decl s).mode = ((Ex.env body).decl s).mode) := by
    intro s
    simp only [queuedEnv, Ex.env]
    by_cases hs : s = 31
    · subst hs
      simp
    · simp [hs]
  refine ⟨fun r hr => ?_, fun r => ?_, fun r c hr hc => ?_, fun r c => ?_⟩
  · rw [(h r).1] at hr
    by_cases hs : r = 31
    · subst hs
      simp [Ex.env, Ex.decl] at hr
      cases hr
    · rw [(h r).2.2.2 hs]
      exact hg.mode r hr
  · rw [(h r).2.1]
    exact hg.nodup r
  · rw [(h r).1] at hr
    rw [(h r).2.1] at hc
    rw [(h c).1]
    exact hg.plain r c hr hc
  · rw [(h c).2.2.1, (h r).1, (h r).2.1]
    exact hg.parent r c

/-- Group 30 with members 31 (queued), 32.  The listener of 31 emits 31 twice more; the listener of the group emits 31 once more. -/
example : ∃ (env : Env) (w w' : World), Groups env ∧ (env.decl 30).isRelay = true ∧
    env.Only (Respects env 30) ∧ 31 ∈ (env.decl 30).children ∧
    Live env (Respects env 30) (.emit 31 [.atom 1] true) w ∧ w.hook = none ∧
    (env.decl 31).mode = .queued ∧ (w.sig 31).blocked = false ∧ (w.sig 31).paused = false ∧ (w.sig 31).emitQueue = [] ∧
    (w.sig 30).slots ≠ [] ∧
    (∀ t1 w1, Within env (.emit 31 [.atom 1] true) w t1 w1 → (w1.sig 31).slots = (w.sig 31).slots) ∧
    (∀ t1 w1, Within env (.emit 31 [.atom 1] true) w t1 w1 → (w1.sig 30).slots = (w.sig 30).slots) ∧
    Runs env (.emit 31 [.atom 1] true) w w' (.ok ()) ∧
    w'.log.filterMap (fun v => match v with | .call _ s _ _ _ b a => some (s, b, a) | _ => none) =
      [(some 31, .func 0, [.atom 1]), (some 31, .relay 30, [.atom 1]), (some 30, .func 1, [.info 31 [.atom 1]]),
       (some 31, .func 0, [.atom 2]), (some 31, .relay 30, [.atom 2]), (some 30, .func 1, [.info 31 [.atom 2]]),
       (some 31, .func 0, [.atom 3]), (some 31, .relay 30, [.atom 3]), (some 30, .func 1, [.info 31 [.atom 3]]),
       (some 31, .func 0, [.atom 4]), (some 31, .relay 30, [.atom 4]), (some 30, .func 1, [.info 31 [.atom 4]])] := by
  refine ⟨queuedEnv fun b a => match b, a with
      | .func 0, [.atom 1] => Ex.seq [Ex.emit 31 2, Ex.emit 31 3]
      | .func 1, [.info 31 [.atom 2]] => Ex.seq [Ex.emit 31 4]
      | _, _ => .ret, _, _,
    queuedEnv_groups _, rfl, ?_, by simp [queuedEnv, Ex.decl], .sub (.top (Ex.reach (n := 30)
      (l := [Ex.conn 31 (.func 0), Ex.conn 30 (.func 1)])
      (by simp [Respects, Ex.conn]) rfl) 0 (Ex.seq [Ex.emit 31 1])
      (Ex.Only.seq_mem (by simp [Respects, Ex.emit])))
      (.inl ⟨rfl, rfl⟩), rfl, rfl, rfl, rfl, rfl, ?_, fun t1 w1 h => (keeps_within ?_ ?_ h).2,
      fun t1 w1 h => (keeps_within ?_ ?_ h).2, ⟨60, rfl⟩, rfl⟩
  · intro b a
    simp only [queuedEnv, Ex.env]
    split
    · exact Ex.Only.seq_mem (by simp [Respects, Ex.emit])
    · exact Ex.Only.seq_mem (by simp [Respects, Ex.emit])
    · trivial
  · intro h
    exact absurd (congrArg List.length h) (by decide)
  · intro b a
    simp only [queuedEnv, Ex.env]
    split
    · exact Ex.Only.seq_mem (by simp [Keeps, Ex.emit])
    · exact Ex.Only.seq_mem (by simp [Keeps, Ex.emit])
    · trivial
  · trivial
  · intro b a
    simp only [queuedEnv, Ex.env]
    split
    · exact Ex.Only.seq_mem (by simp [Keeps, Ex.emit])
    · exact Ex.Only.seq_mem (by simp [Keeps, Ex.emit])
    · trivial
  · trivial

end Psygnal
