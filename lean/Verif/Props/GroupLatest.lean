import Verif.GroupLatest
import Verif.Props.GroupQueued

/-!
# Groups with members in latest-only mode: C19
-/
namespace Psygnal

/-- **C19** for members with `reemission="latest-only"` (partial, as `C11_latest_delivered_partial`).  As `C19_member_emit`, for an
emission during which no newer value of `c` is accepted: its value invokes the relay of the group exactly once, and inside that
invocation the group emits it to every listener of the group, in order, each exactly once — provided that no emission running on `c` had
been nested deeper.  Without this last condition the claim is false (`C19_latest_member_refuted`). -/
theorem C19_latest_member_emit_partial {env : Env} {r : SigId} (hg : Groups env) (hr : (env.decl r).isRelay = true)
    (he : env.Only (Respects env r)) {c : SigId} (hc : c ∈ (env.decl r).children) {args : Args} {chk : Bool}
    {w w' : World} (hl : Live env (Respects env r) (.emit c args chk) w) (hh : w.hook = none)
    (hm : (env.decl c).mode = .latest) (hb : (w.sig c).blocked = false) (hp : (w.sig c).paused = false)
    (hmd : (w.sig c).maxDepth ≤ (w.sig c).depth + 1) (hs : (w.sig r).slots ≠ [])
    (hkc : ∀ t1 w1, Within env (.emit c args chk) w t1 w1 → (w1.sig c).slots = (w.sig c).slots)
    (hkr : ∀ t1 w1, Within env (.emit c args chk) w t1 w1 → (w1.sig r).slots = (w.sig r).slots)
    (h : Runs env (.emit c args chk) w w' (.ok ()))
    (hnew : accepted c w'.log = accepted c w.log ++ [args]) :
    ∃ l₁ d em l₂ l₃, w'.log = w.log ++ (l₁ ++
        .call (some w.nextEm) (some c) d (some c) w.thread (.relay r) args ::
        .req r [.info c args] :: (l₂ ++ .ret (some w.nextEm) (some c) (.relay r) (.ok ()) :: l₃)) ∧
      Deliveries r em w.thread [.info c args] (w.sig r).slots l₂ ∧
      (callsBy w.nextEm (w'.log.drop w.log.length)).filter (·.1 = .relay r) = [(.relay r, args)] := by
  obtain ⟨le, hle, hde⟩ := C11_latest_delivered_partial hl hh hm hb hp hmd hkc h hnew
  obtain ⟨n, hrel⟩ := (groupInv_live hg hr he hl c hc).1 hs
  have hq := ((queuePre_live hl) c (by simp [hm])).2 (by simp)
  have hq : (w.sig c).emitQueue = [] := List.length_eq_zero_iff.1 hq
  obtain ⟨h1, hw1⟩ := emit_loop h hh hb hp
  rcases runLoop_inner h1 hq with ⟨-, -, h2⟩ | ⟨-, w1, r1, h2, hw', h3, hw2⟩
  · simp at h2
  · have hr1 := wrapRes_ok h3
    subst hr1
    have hqs : (((w.enqueue c args).startLoop c).sig c).emitQueue = [args] := by simp [hq]
    have hbi : body env (.inner c w.nextEm) ((w.enqueue c args).startLoop c) =
        .call (.forLatest c w.nextEm args 0) (((w.enqueue c args).startLoop c).popQueue c) .done := by
      simp only [body, hm, hqs]
    rw [runs_iff, hbi] at h2
    obtain ⟨w2, r2, h2, h4, h5⟩ := h2
    subst h4; subst h5
    have hw3 : Within env (.emit c args chk) w (.forLatest c w.nextEm args 0)
        (((w.enqueue c args).startLoop c).popQueue c) :=
      (hw1.trans hw2).trans (.step .refl (by rw [hbi]; exact .inl ⟨rfl, rfl⟩))
    have hdep := (depthPre_live hl).2.1 c
    -- the relay slot
    have hmem : ({ relaySlot r with serial := n } : Slot) ∈ (w.sig c).slots := by
      have : ({ relaySlot r with serial := n } : Slot) ∈ relays r (w.sig c).slots := by rw [hrel]; simp
      exact (List.mem_filter.1 this).1
    obtain ⟨j, hj⟩ := List.getElem?_of_mem hmem
    obtain ⟨wa, wb, a1, a2, a3, a4, a5, a6⟩ := forLatest_visits h2 c w.nextEm args 0 (w.sig c).slots j _
      (by simp [hm]) rfl ⟨by simp; omega, by simp, by simp [hq]⟩ (by simp; omega) rfl
      (by simpa [hw', accepted_append'] using hnew)
      (fun t1 w1 hw => hkc t1 w1 (hw3.trans hw)) (Nat.zero_le _) hj
    have hbc : body env (.cb (some w.nextEm) (some c) { relaySlot r with serial := n } args) wa =
        .call (.direct (some w.nextEm) (some c) { relaySlot r with serial := n } args) wa .done := by
      simp only [body, relaySlot]
    rw [runs_iff, hbc] at a2
    obtain ⟨w3, r3, a2, h4, h5⟩ := a2
    subst h4; subst h5
    have hw4 := hw3.trans (a1.trans (.step .refl (by rw [hbc]; exact .inl ⟨rfl, rfl⟩)))
    have hca : (wa.sig c).slots ≠ [] := by
      rw [hkc _ _ hw4]
      intro h0
      rw [h0] at hmem
      simp at hmem
    obtain ⟨d, em', l, hlog, hd⟩ := relay_call (live_within hl hw4) rfl hr (hg.mode r hr)
      (c := c) (by simpa using a3) hca (fun t1 w1 h => hkr t1 w1 (hw4.trans h)) a2
    have hth : wa.thread = w.thread := by simpa using a4
    have hrec : ({ relaySlot r with serial := n } : Slot).receives args = args := by
      simp [Slot.receives, relaySlot]
    rw [hrec, hth] at hlog
    rw [hrec, hth] at hd
    obtain ⟨l1, hl1⟩ : ∃ l1, wa.log = w.log ++ l1 := by
      have : w.log <+: wa.log := List.IsPrefix.trans (by simp) a5
      obtain ⟨l1, h⟩ := this
      exact ⟨l1, h.symm⟩
    obtain ⟨l3, hl3⟩ := a6
    have hfin : w'.log = wb.log ++ l3 := by
      rw [hw', hl3]
      simp
    refine ⟨l1, d, em', l, l3, ?_, hd, ?_⟩
    · rw [hfin, hlog, hl1]
      simp
    · rw [hle, List.drop_left, show callsBy w.nextEm (.req c args :: le) = callsBy w.nextEm le from rfl,
        hde.calls.1, List.filter_map, List.filter_filter]
      have : (w.sig c).slots.filter (fun x => (x.base, x.receives args).1 = .relay r &&
          Slot.isLocal w.thread x) = relays r (w.sig c).slots := by
        apply List.filter_congr
        intro x hx
        by_cases hxr : x.base = .relay r
        · have hxm : x ∈ relays r (w.sig c).slots := by
            rw [relays, List.mem_filter]
            exact ⟨hx, by simp [hxr]⟩
          rw [hrel, List.mem_singleton] at hxm
          simp [hxm, Slot.isLocal, relaySlot]
        · simp [hxr]
      simp only [Function.comp_def]
      rw [this, hrel]
      simp only [List.map_cons, List.map_nil, hrec]
      rfl

/-- As `Ex.env`, with member 31 of group 30 in latest-only mode. -/
def latestEnv (body : Base → Args → Prog) : Env :=
  { Ex.env body with decl := fun s => if s = 31 then { Ex.decl 31 with mode := .latest } else Ex.decl s }

theorem latestEnv_groups (body : Base → Args → Prog) : Groups (latestEnv body) := by
  have hg := Ex.groups body
  have h : ∀ s, ((latestEnv body).decl s).isRelay = ((Ex.env body).decl s).isRelay ∧
      ((latestEnv body).decl s).children = ((Ex.env body).decl s).children ∧
      ((latestEnv body).decl s).parent = ((Ex.env body).decl s).parent ∧
      (s ≠ 31 → ((latestEnv body).decl s).mode = ((Ex.env body).decl s).mode) := by
    intro s
    simp only [latestEnv, Ex.env]
    by_cases hs : s = 31
    · subst hs
      simp
    · simp [hs]
  refine ⟨fun r hr => ?_, fun r => ?_, fun r c hr hc => ?_, fun r c => ?_⟩
  · rw [(h r).1] at hr
    by_cases hs : r = 31
    · subst hs
      simp [Ex.env, Ex.decl] at hr
      cases hr
    · rw [(h r).2.2.2 hs]
      exact hg.mode r hr
  · rw [(h r).2.1]
    exact hg.nodup r
  · rw [(h r).1] at hr
    rw [(h r).2.1] at hc
    rw [(h c).1]
    exact hg.plain r c hr hc
  · rw [(h c).2.2.1, (h r).1, (h r).2.1]
    exact hg.parent r c

/-- Group 30 with members 31 (latest-only), 32.  The first listener of the group emits 32 while it is told of an emission
of 31. -/
example : ∃ (env : Env) (w w' : World), Groups env ∧ (env.decl 30).isRelay = true ∧
    env.Only (Respects env 30) ∧ 31 ∈ (env.decl 30).children ∧
    Live env (Respects env 30) (.emit 31 [.atom 1] true) w ∧ w.hook = none ∧
    (env.decl 31).mode = .latest ∧ (w.sig 31).blocked = false ∧ (w.sig 31).paused = false ∧
    (w.sig 31).maxDepth ≤ (w.sig 31).depth + 1 ∧ (w.sig 30).slots ≠ [] ∧
    (∀ t1 w1, Within env (.emit 31 [.atom 1] true) w t1 w1 → (w1.sig 31).slots = (w.sig 31).slots) ∧
    (∀ t1 w1, Within env (.emit 31 [.atom 1] true) w t1 w1 → (w1.sig 30).slots = (w.sig 30).slots) ∧
    Runs env (.emit 31 [.atom 1] true) w w' (.ok ()) ∧
    accepted 31 w'.log = accepted 31 w.log ++ [[.atom 1]] ∧
    w'.log.filterMap (fun v => match v with | .call _ s _ _ _ b a => some (s, b, a) | _ => none) =
      [(some 31, .func 0, [.atom 1]), (some 31, .relay 30, [.atom 1]), (some 30, .func 1, [.info 31 [.atom 1]]),
       (some 32, .relay 30, [.atom 5]), (some 30, .func 1, [.info 32 [.atom 5]]), (some 30, .func 2, [.info 32 [.atom 5]]),
       (some 30, .func 2, [.info 31 [.atom 1]])] := by
  refine ⟨latestEnv fun b a => match b, a with
      | .func 1, [.info 31 [.atom 1]] => Ex.seq [Ex.emit 32 5]
      | _, _ => .ret, _, _,
    latestEnv_groups _, rfl, ?_, by simp [latestEnv, Ex.decl], .sub (.top (Ex.reach (n := 30)
      (l := [Ex.conn 31 (.func 0), Ex.conn 30 (.func 1), Ex.conn 30 (.func 2)])
      (by simp [Respects, Ex.conn]) rfl) 0 (Ex.seq [Ex.emit 31 1])
      (Ex.Only.seq_mem (by simp [Respects, Ex.emit])))
      (.inl ⟨rfl, rfl⟩), rfl, rfl, rfl, rfl, by decide, ?_, fun t1 w1 h => (keeps_within ?_ ?_ h).2,
      fun t1 w1 h => (keeps_within ?_ ?_ h).2, ⟨60, rfl⟩, rfl, rfl⟩
  · intro b a
    simp only [latestEnv, Ex.env]
    split
    · exact Ex.Only.seq_mem (by simp [Respects, Ex.emit])
    · trivial
  · intro h
    exact absurd (congrArg List.length h) (by decide)
  · intro b a
    simp only [latestEnv, Ex.env]
    split
    · exact Ex.Only.seq_mem (by simp [Keeps, Ex.emit])
    · trivial
  · trivial
  · intro b a
    simp only [latestEnv, Ex.env]
    split
    · exact Ex.Only.seq_mem (by simp [Keeps, Ex.emit])
    · trivial
  · trivial

namespace C19ex

/-- Member 31 of group 30 is latest-only; its listeners do as those of signal 10 in `C11ex.env`. -/
def env : Env := latestEnv fun b a => match b, a with
  | .func 0, [.atom 1] => Ex.seq [Ex.emit 31 2, Ex.emit 31 3]
  | .func 1, [.atom 2] => Ex.seq [Ex.emit 31 10]
  | _, _ => .ret

/-- Two callbacks of the member and one of the group, one emission. -/
def acts : List Act := [Ex.conn 31 (.func 0), Ex.conn 31 (.func 1), Ex.conn 30 (.func 2), Ex.emit 31 1]

end C19ex

/-- **C19 is violated for latest-only members**: the most recent value of the member (3) is accepted, but the group is not told of it;
its listener saw 10 last. -/
theorem C19_latest_member_refuted : ∃ w, Reachable C19ex.env (fun a => Respects C19ex.env 30 a ∧ NoFast 31 a) w ∧
    accepted 31 w.log = [[.atom 1], [.atom 2], [.atom 10], [.atom 3]] ∧
    (w.sig 31).blocked = false ∧ (w.sig 31).paused = false ∧
    w.log.filterMap (fun v => match v with | .call _ (some 30) _ _ _ b a => some (b, a) | _ => none) =
      [(.func 2, [.info 31 [.atom 10]])] :=
  ⟨_, Ex.reach (n := 60) (l := C19ex.acts) (by simp [C19ex.acts, Respects, NoFast, Ex.conn, Ex.emit]) rfl,
    rfl, rfl, rfl, rfl⟩

end Psygnal
