import Verif.GroupLemmas
import Verif.Examples
import Verif.Props.BlockPause

/-!
# Signal groups: C19, C20, C21, C22
-/
namespace Psygnal

/-! ## C19: group listeners get every emission of every member -/

/-- **C19** (the relay is in place). In any history that respects group `r` — any connects and disconnects
of listeners on the group and on its members, `group.disconnect()`, deaths of objects owning listeners,
emissions, … — at any moment of any execution: if the group has listeners, then the relay of the group is
connected to every member exactly once; if not, it is not connected at all. -/
theorem C19_relay_connected {env : Env} {r : SigId} (hg : Groups env) (hr : (env.decl r).isRelay = true)
    (he : env.Only (Respects env r)) {t : Task} {w : World} (h : Live env (Respects env r) t w)
    {c : SigId} (hc : c ∈ (env.decl r).children) :
    ((w.sig r).slots ≠ [] → ((w.sig c).slots.map (·.base)).count (.relay r) = 1) ∧
    ((w.sig r).slots = [] → ((w.sig c).slots.map (·.base)).count (.relay r) = 0) := by
  have hi := groupInv_live hg hr he h c hc
  have key : ((w.sig c).slots.map (·.base)).count (.relay r) = (relays r (w.sig c).slots).length := by
    rw [List.count, List.countP_map, List.countP_eq_length_filter]
    rfl
  rw [key]
  refine ⟨fun h => ?_, fun h => by rw [hi.2 h]; rfl⟩
  obtain ⟨n, h1⟩ := hi.1 h
  rw [h1]
  rfl

/-- **C19.** After any history that respects group `r`, at any moment of any execution (also nested in
callbacks): `c.emit(args)` of a member `c` in the default mode, neither blocked nor paused, returning
normally, during which neither the connections of `c` nor those of the group change.  Then the emission of
`c` invokes the relay of the group exactly once, and inside that invocation the group emits
`EmissionInfo(c, args)`, which is delivered to every listener of the group, in order, each exactly once —
and nothing else happens in it. -/
theorem C19_member_emit {env : Env} {r : SigId} (hg : Groups env) (hr : (env.decl r).isRelay = true)
    (he : env.Only (Respects env r)) {c : SigId} (hc : c ∈ (env.decl r).children) {args : Args} {chk : Bool}
    {w w' : World} (hl : Live env (Respects env r) (.emit c args chk) w) (hh : w.hook = none)
    (hm : (env.decl c).mode = .immediate) (hb : (w.sig c).blocked = false) (hp : (w.sig c).paused = false)
    (hs : (w.sig r).slots ≠ [])
    (hkc : ∀ t1 w1, Within env (.emit c args chk) w t1 w1 → (w1.sig c).slots = (w.sig c).slots)
    (hkr : ∀ t1 w1, Within env (.emit c args chk) w t1 w1 → (w1.sig r).slots = (w.sig r).slots)
    (h : Runs env (.emit c args chk) w w' (.ok ())) :
    ∃ l₁ d em l₂ l₃, w'.log = w.log ++ (l₁ ++
        .call (some w.nextEm) (some c) d (some c) w.thread (.relay r) args ::
        .req r [.info c args] :: (l₂ ++ .ret (some w.nextEm) (some c) (.relay r) (.ok ()) :: l₃)) ∧
      Deliveries r em w.thread [.info c args] (w.sig r).slots l₂ ∧
      (callsBy w.nextEm (w'.log.drop w.log.length)).filter (·.1 = .relay r) = [(.relay r, args)] := by
  obtain ⟨n, hrel⟩ := (groupInv_live hg hr he hl c hc).1 hs
  have hq := ((queuePre_live hl) c (by simp [hm])).2 (by simp)
  have hq : (w.sig c).emitQueue = [] := List.length_eq_zero_iff.1 hq
  obtain ⟨h1, hw1⟩ := emit_loop h hh hb hp
  rcases runLoop_inner h1 hq with ⟨-, -, h2⟩ | ⟨-, w1, r1, h2, hw', h3, hw2⟩
  · simp at h2
  · have hr1 := wrapRes_ok h3
    subst hr1
    have hqs : (((w.enqueue c args).startLoop c).sig c).emitQueue = [args] := by simp [hq]
    have hbi : body env (.inner c w.nextEm) ((w.enqueue c args).startLoop c) =
        .call (.forSlots c w.nextEm args 0) (((w.enqueue c args).startLoop c).popQueue c) .done := by
      simp only [body, hm, hqs]
    rw [runs_iff, hbi] at h2
    obtain ⟨w2, r2, h2, h4, h5⟩ := h2
    subst h4; subst h5
    have hw3 : Within env (.emit c args chk) w (.forSlots c w.nextEm args 0)
        (((w.enqueue c args).startLoop c).popQueue c) :=
      (hw1.trans hw2).trans (.step .refl (by rw [hbi]; exact .inl ⟨rfl, rfl⟩))
    -- the relay slot
    have hmem : ({ relaySlot r with serial := n } : Slot) ∈ (w.sig c).slots := by
      have : ({ relaySlot r with serial := n } : Slot) ∈ relays r (w.sig c).slots := by rw [hrel]; simp
      exact (List.mem_filter.1 this).1
    obtain ⟨j, hj⟩ := List.getElem?_of_mem hmem
    obtain ⟨wa, wb, a1, a2, a3, a4, a5, a6⟩ := forSlots_visits h2 c w.nextEm args 0 (w.sig c).slots j _
      rfl rfl (fun t1 w1 hw => hkc t1 w1 (hw3.trans hw)) (Nat.zero_le _) hj
    have hbc : body env (.cb (some w.nextEm) (some c) { relaySlot r with serial := n } args) wa =
        .call (.direct (some w.nextEm) (some c) { relaySlot r with serial := n } args) wa .done := by
      simp only [body, relaySlot]
    rw [runs_iff, hbc] at a2
    obtain ⟨w3, r3, a2, h4, h5⟩ := a2
    subst h4; subst h5
    have hw4 := hw3.trans (a1.trans (.step .refl (by rw [hbc]; exact .inl ⟨rfl, rfl⟩)))
    have hca : (wa.sig c).slots ≠ [] := by
      rw [hkc _ _ hw4]
      intro h0
      rw [h0] at hmem
      simp at hmem
    obtain ⟨d, em', l, hlog, hd⟩ := relay_call (live_within hl hw4) rfl hr (hg.mode r hr)
      (c := c) (by simpa using a3) hca (fun t1 w1 h => hkr t1 w1 (hw4.trans h)) a2
    have hth : wa.thread = w.thread := by simpa using a4
    have hrec : ({ relaySlot r with serial := n } : Slot).receives args = args := by
      simp [Slot.receives, relaySlot]
    rw [hrec, hth] at hlog
    rw [hrec, hth] at hd
    obtain ⟨l1, hl1⟩ : ∃ l1, wa.log = w.log ++ l1 := by
      have : w.log <+: wa.log := List.IsPrefix.trans (by simp) a5
      obtain ⟨l1, h⟩ := this
      exact ⟨l1, h.symm⟩
    obtain ⟨l3, hl3⟩ := a6
    have hfin : w'.log = wb.log ++ l3 := by
      rw [hw', hl3]
      simp
    refine ⟨l1, d, em', l, l3, ?_, hd, ?_⟩
    · rw [hfin, hlog, hl1]
      simp
    · -- the relay is invoked only once
      obtain ⟨le, hle, hde⟩ := runLoop_slots (t1 := .emit c args chk) hm h1 hw1
        (by simp [hq]) rfl (deadInv_live hl) hkc
      rw [hle, List.drop_left, show callsBy w.nextEm (.req c args :: le) = callsBy w.nextEm le from rfl,
        hde.calls.1, List.filter_map, List.filter_filter]
      have : (w.sig c).slots.filter (fun x => (x.base, x.receives args).1 = .relay r &&
          Slot.isLocal w.thread x) = relays r (w.sig c).slots := by
        apply List.filter_congr
        intro x hx
        by_cases hxr : x.base = .relay r
        · have hxm : x ∈ relays r (w.sig c).slots := by
            rw [relays, List.mem_filter]
            exact ⟨hx, by simp [hxr]⟩
          rw [hrel, List.mem_singleton] at hxm
          simp [hxm, Slot.isLocal, relaySlot]
        · simp [hxr]
      simp only [Function.comp_def]
      rw [this, hrel]
      simp only [List.map_cons, List.map_nil, hrec]
      rfl

/-- Group 30 with members 31, 32.  History: two listeners connected to the group, one of them disconnected,
`group.disconnect()`, a listener connected to member 31, a listener connected to the group.  The listener
of 31 emits 32. -/
example : ∃ (env : Env) (w w' : World), Groups env ∧ (env.decl 30).isRelay = true ∧
    env.Only (Respects env 30) ∧ 31 ∈ (env.decl 30).children ∧
    Live env (Respects env 30) (.emit 31 [.atom 5] true) w ∧ w.hook = none ∧
    (env.decl 31).mode = .immediate ∧ (w.sig 31).blocked = false ∧ (w.sig 31).paused = false ∧
    (w.sig 30).slots ≠ [] ∧
    (∀ t1 w1, Within env (.emit 31 [.atom 5] true) w t1 w1 → (w1.sig 31).slots = (w.sig 31).slots) ∧
    (∀ t1 w1, Within env (.emit 31 [.atom 5] true) w t1 w1 → (w1.sig 30).slots = (w.sig 30).slots) ∧
    Runs env (.emit 31 [.atom 5] true) w w' (.ok ()) ∧
    w'.log.filterMap (fun v => match v with | .call _ s _ _ _ b a => some (s, b, a) | _ => none) =
      [(some 31, .func 1, [.atom 5]), (some 32, .relay 30, [.atom 7]),
       (some 30, .func 2, [.info 32 [.atom 7]]), (some 31, .relay 30, [.atom 5]),
       (some 30, .func 2, [.info 31 [.atom 5]])] := by
  refine ⟨Ex.env fun b _ => match b with | .func 1 => Ex.seq [Ex.emit 32 7] | _ => .ret, _, _,
    Ex.groups _, rfl, ?_, by simp [Ex.env, Ex.decl], .sub (.top (Ex.reach (n := 30)
      (l := [Ex.conn 30 (.func 0), Ex.conn 30 (.func 1), .disconnect 30 (some ⟨.func 1, []⟩) true,
        .disconnect 30 none true, Ex.conn 31 (.func 1), Ex.conn 30 (.func 2)])
      (by simp [Respects, Ex.conn, Ex.env, Ex.decl]) rfl) 0 (Ex.seq [Ex.emit 31 5])
      (Ex.Only.seq_mem (by simp [Respects, Ex.emit])))
      (.inl ⟨rfl, rfl⟩), rfl, rfl, rfl, rfl, ?_, fun t1 w1 h => (keeps_within ?_ ?_ h).2,
      fun t1 w1 h => (keeps_within ?_ ?_ h).2, ⟨40, rfl⟩, rfl⟩
  · intro b a
    simp only [Ex.env]
    split
    · exact Ex.Only.seq_mem (by simp [Respects, Ex.emit])
    · trivial
  · intro h
    exact absurd (congrArg List.length h) (by decide)
  · intro b a
    simp only [Ex.env]
    split
    · exact Ex.Only.seq_mem (by simp [Keeps, Ex.emit])
    · trivial
  · trivial
  · intro b a
    simp only [Ex.env]
    split
    · exact Ex.Only.seq_mem (by simp [Keeps, Ex.emit])
    · trivial
  · trivial

/-- **C19 is false for histories with `member.disconnect()`**: it also removes the relay of the group from
the member, and connecting another listener to the group does not repair this.  Here: `group.connect(f)`,
`member.disconnect()`, `group.connect(g)`, `member.emit(5)`: no callback is invoked. -/
theorem C19_member_disconnect_refuted : ∃ (env : Env) (w w' : World), Groups env ∧
    (env.decl 30).isRelay = true ∧ 31 ∈ (env.decl 30).children ∧
    Live env anyAct (.emit 31 [.atom 5] true) w ∧ w.hook = none ∧
    (w.sig 31).blocked = false ∧ (w.sig 31).paused = false ∧
    (w.sig 30).blocked = false ∧ (w.sig 30).paused = false ∧
    (w.sig 30).slots.map (·.base) = [.func 0, .func 1] ∧
    Runs env (.emit 31 [.atom 5] true) w w' (.ok ()) ∧ w'.log = w.log ++ [.req 31 [.atom 5]] := by
  refine ⟨Ex.quiet, _, _, Ex.groups _, rfl, by simp [Ex.quiet, Ex.env, Ex.decl],
    .sub (.top (Ex.reach (n := 30) (l := [Ex.conn 30 (.func 0), .disconnect 31 none true,
      Ex.conn 30 (.func 1)]) (by simp [anyAct]) rfl) 0 (Ex.seq [Ex.emit 31 5])
      (Ex.Only.seq_mem (by simp [anyAct]))) (.inl ⟨rfl, rfl⟩), rfl, rfl, rfl, rfl, rfl, rfl,
    ⟨30, rfl⟩, rfl⟩

/-- **C19 is false for `emit_fast`**: a member emitting with `emit_fast` at top level invokes the relay of
the group, but no listener of the group. -/
theorem C19_fast_refuted : ∃ (env : Env) (w w' : World), Groups env ∧
    (env.decl 30).isRelay = true ∧ 31 ∈ (env.decl 30).children ∧
    Live env (Respects env 30) (.emitFast 31 [.atom 5]) w ∧
    (w.sig 31).blocked = false ∧ (w.sig 31).paused = false ∧
    (w.sig 30).blocked = false ∧ (w.sig 30).paused = false ∧
    (w.sig 30).slots.map (·.base) = [.func 0] ∧ w.log = [] ∧
    Runs env (.emitFast 31 [.atom 5]) w w' (.ok ()) ∧
    w'.log.filterMap (fun v => match v with | .call _ s _ _ _ b _ => some (s, b) | _ => none) =
      [(some 31, .relay 30)] := by
  refine ⟨Ex.quiet, _, _, Ex.groups _, rfl, by simp [Ex.quiet, Ex.env, Ex.decl],
    .sub (.top (Ex.reach (n := 30) (l := [Ex.conn 30 (.func 0)])
      (by simp [Respects, Ex.conn]) rfl) 0 (Ex.seq [.emitFast 31 [.atom 5]])
      (Ex.Only.seq_mem (by simp [Respects]))) (.inl ⟨rfl, rfl⟩), rfl, rfl, rfl, rfl, rfl, rfl,
    ⟨30, rfl⟩, rfl⟩

/-- **… and inside a callback of another signal the emission is attributed to that signal**: the callback of
signal 0 calls `member.emit_fast(7)`; the listener of the group gets `EmissionInfo(signal 0, (7,))`. -/
theorem C19_fast_attribution_refuted : ∃ (env : Env) (w w' : World), Groups env ∧
    (env.decl 30).isRelay = true ∧ 31 ∈ (env.decl 30).children ∧
    Live env (Respects env 30) (.emit 0 [.atom 5] true) w ∧ w.log = [] ∧
    Runs env (.emit 0 [.atom 5] true) w w' (.ok ()) ∧
    w'.log.filterMap (fun v => match v with | .call _ s _ _ _ b a => some (s, b, a) | _ => none) =
      [(some 0, .func 1, [.atom 5]), (some 31, .relay 30, [.atom 7]),
        (some 30, .func 0, [.info 0 [.atom 7]])] := by
  refine ⟨Ex.env fun b _ => match b with | .func 1 => Ex.seq [.emitFast 31 [.atom 7]] | _ => .ret, _, _,
    Ex.groups _, rfl, by simp [Ex.env, Ex.decl],
    .sub (.top (Ex.reach (n := 30) (l := [Ex.conn 30 (.func 0), Ex.conn 0 (.func 1)])
      (by simp [Respects, Ex.conn]) rfl) 0 (Ex.seq [Ex.emit 0 5])
      (Ex.Only.seq_mem (by simp [Respects, Ex.emit]))) (.inl ⟨rfl, rfl⟩), rfl,
    ⟨40, rfl⟩, rfl⟩

/-! ## C20: blocking a group -/

/-- **C20** (`group.block(exclude)` silences the other members). After `group.block(exclude=ex)`, any
program — as long as user code (un)blocks and pauses the member `c` only with `c.blocked()`, `c.paused()`
contexts: a non-excluded member emits nothing (no emission accepted, no emit loop, no callback), records
nothing, and is still blocked at the end. -/
theorem C20_block_silences {env : Env} {r : SigId} (hg : Groups env) (hr : (env.decl r).isRelay = true)
    {c : SigId} (hc : c ∈ (env.decl r).children) {ex : List SigId} (hx : c ∉ ex) (henv : env.Calm c)
    {p : Prog} (hp : p.Calm env c) {w w' : World} {res : Res} (hq : (w.sig c).argsQueue = [])
    (h : Runs env (.prog (.api (.block r ex) fun _ => p)) w w' res) :
    sigEvents c w'.log = sigEvents c w.log ∧ (w'.sig c).argsQueue = [] ∧ (w'.sig c).blocked = true := by
  rw [runs_iff] at h
  simp only [body, Act.task?, Act.run] at h
  obtain ⟨w1, r1, h1, rfl, rfl⟩ := h
  have h2 : ((w.block env r ex).sig c).argsQueue = [] := by simp [hq]
  obtain ⟨a1, a2, a3⟩ := hoare _ _ (blockedPre_ok henv (hg.plain r c hr hc)) h1
    ⟨hp, by simp [Task.loopOf?], by simp [hr, hc, hx], h2⟩
  exact ⟨by simpa using a3, a2, a1⟩

/-- A member with a listener, and a listener on the group; the program emits both members, also through a
callback, and one of them inside a `blocked()` context. -/
example : ∃ (env : Env) (p : Prog) (w w' : World), Groups env ∧ (env.decl 30).isRelay = true ∧
    31 ∈ (env.decl 30).children ∧ 31 ∉ [32] ∧ env.Calm 31 ∧ p.Calm env 31 ∧ (w.sig 31).argsQueue = [] ∧
    (w.sig 31).blocked = false ∧ (w.sig 31).slots.length = 2 ∧
    Runs env (.prog (.api (.block 30 [32]) fun _ => p)) w w' (.ok ()) ∧
    w.log = [] ∧ w'.log.length = 8 ∧ sigEvents 31 w'.log = [] := by
  refine ⟨Ex.env fun b _ => match b with | .func 1 => Ex.seq [Ex.emit 31 7] | _ => .ret,
    .api (Ex.emit 31 5) fun _ => .withBlocked 31 [] (Ex.seq [Ex.emit 31 6, Ex.emit 32 8]) fun _ => .ret,
    (Ex.after Ex.quiet 30 [Ex.conn 30 (.func 0), Ex.conn 31 (.func 2), Ex.conn 32 (.func 1)]).get rfl, _,
    Ex.groups _, rfl, by simp [Ex.env, Ex.decl], by simp, ?_, ?_, rfl, rfl, rfl, ⟨40, rfl⟩, rfl, rfl, rfl⟩
  · intro b a
    simp only [Ex.env]
    split
    · exact ⟨trivial, fun _ => trivial⟩
    · trivial
  · exact ⟨trivial, fun _ => ⟨by simp [MemberOf, Ex.env, Ex.decl, Ex.plain],
      ⟨trivial, fun _ => ⟨trivial, fun _ => trivial⟩⟩, fun _ => trivial⟩⟩

/-- **C20** (one context), weakened by: the group is not blocked before; members that are excluded are not
blocked before.  `with group.blocked(exclude=ex): body`, where the body (and the callbacks it triggers) may
do anything — use `blocked()` contexts of members and of other groups, raise, … — except (un)blocking the
group or its members directly: when the code after the `with` starts, every member is blocked iff it was
blocked before. -/
theorem C20_context_partial {env : Env} {r : SigId} (hg : Groups env) (hr : (env.decl r).isRelay = true)
    (henv : ∀ c ∈ (env.decl r).children, env.Calm c) (henv' : env.Only (NoBlock r))
    {ex : List SigId} {b : Prog} {k : Res → Prog} (hb : ∀ c ∈ (env.decl r).children, b.Calm env c)
    (hb' : b.Only (NoBlock r)) {w w' : World} {res : Res} (hw : (w.sig r).blocked = false)
    (hex : ∀ c ∈ (env.decl r).children, c ∈ ex → (w.sig c).blocked = false)
    (h : Runs env (.prog (.withBlocked r ex b k)) w w' res) :
    ∃ w₁ r₁ w₂, Runs env (.prog b) (w.block env r ex) w₁ r₁ ∧ Runs env (.prog (k r₁)) w₂ w' res ∧
      (w₂.sig r).blocked = false ∧
      ∀ c ∈ (env.decl r).children, (w₂.sig c).blocked = (w.sig c).blocked := by
  have hself : r ∉ (env.decl r).children := fun h => by simp [hg.plain r r hr h] at hr
  rw [runs_iff] at h
  simp only [body, hw, Bool.false_eq_true, if_false] at h
  obtain ⟨w1, r1, h1, w2, r2, h2, rfl, rfl⟩ := h
  refine ⟨w1, r1, _, h1, h2, unblock_self .., fun c hc => ?_⟩
  rw [unblock_member env w1 r hr (hg.nodup r) hself c hc, was_const henv' h1 hb',
    block_was env w r ex hr (hg.nodup r) hself c hc, (calm_restores (henv c hc) h1 (hb c hc)).1,
    block_blocked]
  by_cases hx : c ∈ ex
  · rw [hex c hc hx]
    have hcr : c ≠ r := fun e => hself (e ▸ hc)
    simp [hx, hcr]
  · simp [hx, hr, hc]

/-- **C20** (inner context). If the group is blocked already, leaving `with group.blocked(exclude=ex)` keeps
every member blocked that was blocked before; all non-excluded members stay blocked. -/
theorem C20_inner_context {env : Env} {r : SigId} (hr : (env.decl r).isRelay = true)
    (henv : ∀ c ∈ (env.decl r).children, env.Calm c)
    {ex : List SigId} {b : Prog} {k : Res → Prog} (hb : ∀ c ∈ (env.decl r).children, b.Calm env c)
    {w w' : World} {res : Res} (hw : (w.sig r).blocked = true)
    (h : Runs env (.prog (.withBlocked r ex b k)) w w' res) :
    ∃ w₁ r₁, Runs env (.prog b) (w.block env r ex) w₁ r₁ ∧ Runs env (.prog (k r₁)) w₁ w' res ∧
      ∀ c ∈ (env.decl r).children, (w₁.sig c).blocked = true ↔ ((w.sig c).blocked = true ∨ c ∉ ex ∨ c = r) := by
  rw [runs_iff] at h
  simp only [body, hw, if_true] at h
  obtain ⟨w1, r1, h1, w2, r2, h2, rfl, rfl⟩ := h
  refine ⟨w1, r1, h1, h2, fun c hc => ?_⟩
  rw [(calm_restores (henv c hc) h1 (hb c hc)).1, block_blocked]
  simp only [hr, Bool.true_and, Bool.or_eq_true, decide_eq_true_eq, Bool.and_eq_true, Bool.not_eq_true',
    List.contains_iff_mem, hc, true_and, Bool.eq_false_iff, ne_eq]
  grind

/-- A body that uses a context of member 31, emits both members, and raises; 32 is blocked before. -/
example : ∃ (env : Env) (b : Prog) (w w' : World), Groups env ∧ (env.decl 30).isRelay = true ∧
    (∀ c ∈ (env.decl 30).children, env.Calm c) ∧ env.Only (NoBlock 30) ∧
    (∀ c ∈ (env.decl 30).children, b.Calm env c) ∧ b.Only (NoBlock 30) ∧
    (w.sig 30).blocked = false ∧ (w.sig 31).blocked = false ∧ (w.sig 32).blocked = true ∧
    Runs env (.prog (.withBlocked 30 [31] b fun _ => .ret)) w w' (.ok ()) ∧
    (w'.sig 31).blocked = false ∧ (w'.sig 32).blocked = true := by
  refine ⟨Ex.quiet, .withBlocked 31 [] (Ex.seq [Ex.emit 31 1, Ex.emit 32 1]) fun _ =>
      .api (Ex.emit 31 2) fun _ => .raise (.user 3),
    (Ex.after Ex.quiet 30 [.block 32 [], Ex.conn 30 (.func 0)]).get rfl, _, Ex.groups _, rfl,
    fun _ _ _ _ => trivial, fun _ _ => trivial, fun c hc => ?_, ?_, rfl, rfl, rfl, ⟨30, rfl⟩, rfl, rfl⟩
  · exact ⟨by simp [MemberOf, Ex.quiet, Ex.env, Ex.decl, Ex.plain],
      ⟨trivial, fun _ => ⟨trivial, fun _ => trivial⟩⟩, fun _ => ⟨trivial, fun _ => trivial⟩⟩
  · exact ⟨by simp [NoBlock], by simp [NoBlock], Ex.Only.seq_mem (by simp [NoBlock, Ex.emit]),
      fun _ => ⟨trivial, fun _ => trivial⟩⟩

/-- **C20 is false for nested contexts**: `with group.blocked(): with group.blocked(): pass` leaves all
members blocked, although neither the group nor any member was blocked before. -/
theorem C20_nested_refuted : ∃ (env : Env) (w' : World), Groups env ∧
    (env.decl 30).isRelay = true ∧ (env.decl 30).children = [31, 32] ∧
    Runs env (.prog (.withBlocked 30 [] (.withBlocked 30 [] .ret fun _ => .ret) fun _ => .ret))
      .init w' (.ok ()) ∧
    (w'.sig 30).blocked = false ∧ (w'.sig 31).blocked = true ∧ (w'.sig 32).blocked = true :=
  ⟨Ex.quiet, _, Ex.groups _, rfl, rfl, ⟨30, rfl⟩, rfl, rfl, rfl⟩

/-- **C20 is false for excluded members that are blocked**: `member.block()`, then
`with group.blocked(exclude=[member]): pass` unblocks the member. -/
theorem C20_excluded_refuted : ∃ (env : Env) (w w' : World), Groups env ∧
    (env.decl 30).isRelay = true ∧ (env.decl 30).children = [31, 32] ∧ Reachable env anyAct w ∧
    (w.sig 30).blocked = false ∧ (w.sig 31).blocked = true ∧
    Runs env (.prog (.withBlocked 30 [31] .ret fun _ => .ret)) w w' (.ok ()) ∧
    (w'.sig 31).blocked = false :=
  ⟨Ex.quiet, _, _, Ex.groups _, rfl, rfl, Ex.reach (n := 30) (l := [.block 31 []]) (by simp [anyAct]) rfl,
    rfl, rfl, ⟨30, rfl⟩, rfl⟩

/-- **C20 is false if the group is blocked before**: `group.block(); member.unblock();
with group.blocked(): pass` leaves the member blocked. -/
theorem C20_blocked_before_refuted : ∃ (env : Env) (w w' : World), Groups env ∧
    (env.decl 30).isRelay = true ∧ (env.decl 30).children = [31, 32] ∧ Reachable env anyAct w ∧
    (w.sig 31).blocked = false ∧
    Runs env (.prog (.withBlocked 30 [] .ret fun _ => .ret)) w w' (.ok ()) ∧
    (w'.sig 31).blocked = true :=
  ⟨Ex.quiet, _, _, Ex.groups _, rfl, rfl, Ex.reach (n := 30) (l := [.block 30 [], .unblock 31])
    (by simp [anyAct]) rfl, rfl, ⟨30, rfl⟩, rfl⟩

/-- **Blocking the group does not silence its listeners for excluded members**: after
`group.block(exclude=[member])`, an emission of the member still reaches the listener of the (blocked)
group. -/
theorem C20_blocked_group_listeners : ∃ (env : Env) (w w' : World), Groups env ∧
    Live env (Respects env 30) (.emit 31 [.atom 5] true) w ∧ (w.sig 30).blocked = true ∧ w.log = [] ∧
    Runs env (.emit 31 [.atom 5] true) w w' (.ok ()) ∧
    w'.log.filterMap (fun v => match v with | .call _ s _ _ _ b a => some (s, b, a) | _ => none) =
      [(some 31, .relay 30, [.atom 5]), (some 30, .func 0, [.info 31 [.atom 5]])] := by
  refine ⟨Ex.quiet, _, _, Ex.groups _,
    .sub (.top (Ex.reach (n := 30) (l := [Ex.conn 30 (.func 0), .block 30 [31]])
      (by simp [Respects, Ex.conn]) rfl) 0 (Ex.seq [Ex.emit 31 5])
      (Ex.Only.seq_mem (by simp [Respects, Ex.emit]))) (.inl ⟨rfl, rfl⟩), rfl, rfl, ⟨40, rfl⟩, rfl⟩

/-! ## C21: pausing a group -/

/-- **C21 is false**: `group.connect(f); group.pause(); member.emit(5)` invokes `f` at once; nothing is
recorded, and `group.resume()` does not invoke it again. -/
theorem C21_refuted : ∃ (env : Env) (w w' w'' : World), Groups env ∧
    Live env (Respects env 30) (.emit 31 [.atom 5] true) w ∧ (w.sig 30).paused = true ∧ w.log = [] ∧
    Runs env (.emit 31 [.atom 5] true) w w' (.ok ()) ∧
    w'.log.filterMap (fun v => match v with | .call _ s _ _ _ b a => some (s, b, a) | _ => none) =
      [(some 31, .relay 30, [.atom 5]), (some 30, .func 0, [.info 31 [.atom 5]])] ∧
    (w'.sig 30).argsQueue = [] ∧ Runs env (.resume 30 none) w' w'' (.ok ()) ∧ w''.log = w'.log := by
  refine ⟨Ex.quiet, _, _, _, Ex.groups _,
    .sub (.top (Ex.reach (n := 30) (l := [Ex.conn 30 (.func 0), .pause 30])
      (by simp [Respects, Ex.conn]) rfl) 0 (Ex.seq [Ex.emit 31 5])
      (Ex.Only.seq_mem (by simp [Respects, Ex.emit]))) (.inl ⟨rfl, rfl⟩), rfl, rfl, ⟨40, rfl⟩, rfl, rfl,
    ⟨40, rfl⟩, rfl⟩

/-- **C21 is false for every group, in every situation**: any emission of a member (as in
`C19_member_emit`) while the group is paused invokes every (same-thread) listener of the group during the
emission. -/
theorem C21_pause_ineffective {env : Env} {r : SigId} (hg : Groups env) (hr : (env.decl r).isRelay = true)
    (he : env.Only (Respects env r)) {c : SigId} (hc : c ∈ (env.decl r).children) {args : Args} {chk : Bool}
    {w w' : World} (hl : Live env (Respects env r) (.emit c args chk) w) (hh : w.hook = none)
    (hm : (env.decl c).mode = .immediate) (hb : (w.sig c).blocked = false) (hp : (w.sig c).paused = false)
    (_hpaused : (w.sig r).paused = true)
    (hkc : ∀ t1 w1, Within env (.emit c args chk) w t1 w1 → (w1.sig c).slots = (w.sig c).slots)
    (hkr : ∀ t1 w1, Within env (.emit c args chk) w t1 w1 → (w1.sig r).slots = (w.sig r).slots)
    (h : Runs env (.emit c args chk) w w' (.ok ())) {x : Slot} (hx : x ∈ (w.sig r).slots)
    (ht : x.thread = none) :
    ∃ l em d e, w'.log = w.log ++ l ∧
      .call (some em) (some r) d e w.thread x.base (x.receives [.info c args]) ∈ l := by
  have hs : (w.sig r).slots ≠ [] := List.ne_nil_of_mem hx
  obtain ⟨l₁, d, em, l₂, l₃, hlog, hd, -⟩ := C19_member_emit hg hr he hc hl hh hm hb hp hs hkc hkr h
  obtain ⟨d', e, hmem⟩ := hd.call_mem hx (.inl ht)
  exact ⟨_, em, d', e, hlog, by simp [hmem]⟩

/-- **C21** for emissions of the group itself only: while the group is paused, `group.emit(…)` invokes
nothing; on `group.resume()` the values are emitted in order, each exactly once, each delivered to all
listeners. -/
theorem C21_direct_partial {env : Env} {r : SigId} (hm : (env.decl r).mode = .immediate) {as : List Args}
    {Q : Act → Prop} {w w₁ w' : World} (hb : (w.sig r).blocked = false) (hp : (w.sig r).paused = true)
    (hq : (w.sig r).argsQueue = []) (hs : (w.sig r).slots ≠ []) (h : EmitAll env r as w w₁)
    (hl : Live env Q (.resume r none) w₁)
    (hk : ∀ t1 w1, Within env (.resume r none) w₁ t1 w1 →
      (w1.sig r).slots = (w₁.sig r).slots ∧ (w1.sig r).argsQueue = (w₁.sig r).argsQueue)
    (h' : Runs env (.resume r none) w₁ w' (.ok ())) :
    w₁.log = w.log ∧ ∃ l, w'.log = w.log ++ l ∧ Emissions r w.thread (w.sig r).slots as l := by
  have key : ∀ (as : List Args) (w w₁ : World), (w.sig r).blocked = false → (w.sig r).paused = true →
      EmitAll env r as w w₁ → w₁.log = w.log ∧ w₁.thread = w.thread ∧
        (w₁.sig r).slots = (w.sig r).slots ∧ (w₁.sig r).argsQueue = (w.sig r).argsQueue ++ as := by
    intro as
    induction as with
    | nil =>
      intro w w₁ _ _ h
      cases h
      simp
    | cons a as ih =>
      intro w w₁ hb hp ⟨w2, h1, h2⟩
      rw [runs_iff] at h1
      simp only [body, hb, hp, Bool.false_eq_true, if_false, if_true, false_and, Comp.Via] at h1
      obtain ⟨rfl, -⟩ := h1
      obtain ⟨i1, i2, i3, i4⟩ := ih (w.collect r a) w₁ (by simp [hb]) (by simp [hp]) h2
      exact ⟨by simpa using i1, by simpa using i2, by simpa using i3, by simpa using i4⟩
  obtain ⟨h1, h2, h3, h4⟩ := key as w w₁ hb hp h
  rw [hq, List.nil_append] at h4
  obtain ⟨-, l, hlog, hem⟩ := C13_resume_in_order hl hm (by rw [h3]; exact hs) hk h'
  rw [h1] at hlog
  rw [h2, h3, h4] at hem
  exact ⟨h1, l, hlog, hem⟩

/-- Two values emitted by the paused group itself. -/
example : ∃ (env : Env) (w w₁ w' : World), (env.decl 30).mode = .immediate ∧ (w.sig 30).blocked = false ∧
    (w.sig 30).paused = true ∧ (w.sig 30).argsQueue = [] ∧ (w.sig 30).slots ≠ [] ∧
    EmitAll env 30 [[.atom 5], [.atom 6]] w w₁ ∧ Live env anyAct (.resume 30 none) w₁ ∧
    (∀ t1 w1, Within env (.resume 30 none) w₁ t1 w1 →
      (w1.sig 30).slots = (w₁.sig 30).slots ∧ (w1.sig 30).argsQueue = (w₁.sig 30).argsQueue) ∧
    Runs env (.resume 30 none) w₁ w' (.ok ()) ∧ w₁.log = [] ∧ w'.log.length = 6 := by
  refine ⟨Ex.quiet, (Ex.after Ex.quiet 30 [Ex.conn 30 (.func 0), .pause 30]).get rfl,
    (Ex.after Ex.quiet 30 [Ex.conn 30 (.func 0), .pause 30, Ex.emit 30 5, Ex.emit 30 6]).get rfl, _,
    rfl, rfl, rfl, rfl, ?_, ⟨_, ⟨30, rfl⟩, _, ⟨30, rfl⟩, rfl⟩,
    .sub (.top (Ex.reach (n := 30) (l := [Ex.conn 30 (.func 0), .pause 30, Ex.emit 30 5, Ex.emit 30 6])
      (by simp [anyAct]) rfl) 0 (Ex.seq [.resume 30 none]) (Ex.Only.seq_mem (by simp [anyAct])))
      (.inl ⟨rfl, rfl⟩), fun t1 w1 h => ⟨?_, ?_⟩, ⟨40, rfl⟩, rfl, rfl⟩
  · intro h
    exact absurd (congrArg List.length h) (by decide)
  · refine (keeps_within ?_ ?_ h).2
    · exact fun _ _ => trivial
    · trivial
  · refine C13_record_kept ?_ t1 w1 h
    exact fun _ _ => trivial

/-! ## C22: disconnecting from a group -/

/-- **C22** (`group.disconnect()`). Nothing is connected any more to the group or to any of its members;
other signals are untouched; no error. -/
theorem C22_disconnect_all {env : Env} {r : SigId} (hg : Groups env) (hr : (env.decl r).isRelay = true)
    (w : World) (m : Bool) :
    ((Act.disconnect r none m).run env w).2 = .ok .unit ∧
    (((Act.disconnect r none m).run env w).1.sig r).slots = [] ∧
    (∀ c ∈ (env.decl r).children, (((Act.disconnect r none m).run env w).1.sig c).slots = []) ∧
    ∀ s, s ≠ r → s ∉ (env.decl r).children →
      (((Act.disconnect r none m).run env w).1.sig s).slots = (w.sig s).slots := by
  obtain ⟨h1, h2⟩ := group_disconnect_all hg hr w m
  refine ⟨h1, ?_, fun c hc => ?_, fun s hs hs' => ?_⟩ <;> simp only [Act.run]
  · simp [h2]
  · simp [h2, hc]
  · simp [h2, hs, hs']

/-- **C22** (`group.disconnect(f)`, returning normally). From the group and from each member exactly one
connection of `f` is removed where there was one, the earliest in the order of calling; connections of
other callables (the internal relay aside) are untouched, as are other signals. -/
theorem C22_disconnect {env : Env} {r : SigId} (hg : Groups env) (hr : (env.decl r).isRelay = true)
    (w : World) (f : Callable) (m : Bool) (hf : f.base ≠ .relay r)
    (h : ((Act.disconnect r (some f) m).run env w).2 = .ok .unit) :
    (∀ s, s = r ∨ s ∈ (env.decl r).children →
      (((Act.disconnect r (some f) m).run env w).1.sig s).slots.filter (·.base == f.base) =
        ((w.sig s).slots.filter (·.base == f.base)).tail ∧
      ∀ b, b ≠ f.base → b ≠ .relay r →
        (((Act.disconnect r (some f) m).run env w).1.sig s).slots.filter (·.base == b) =
          (w.sig s).slots.filter (·.base == b)) ∧
    ∀ s, s ≠ r → s ∉ (env.decl r).children →
      (((Act.disconnect r (some f) m).run env w).1.sig s).slots = (w.sig s).slots := by
  simp only [Act.run] at h ⊢
  rcases group_disconnect hg hr w f m with ⟨-, -, h1, h2, h3⟩ | ⟨h1, -⟩
  · refine ⟨fun s hs => ?_, h3⟩
    rcases hs with rfl | hs
    · rw [h1]
      refine ⟨by rw [eraseSlot_count, if_pos rfl], fun b hb _ => by rw [eraseSlot_count, if_neg hb]⟩
    · rcases h2 s hs with h2 | h2 <;> rw [h2]
      · refine ⟨by rw [eraseSlot_count, if_pos rfl], fun b hb _ => by rw [eraseSlot_count, if_neg hb]⟩
      · refine ⟨by rw [eraseSlot_count, if_neg hf, eraseSlot_count, if_pos rfl], fun b hb hbr => ?_⟩
        rw [eraseSlot_count, if_neg hbr, eraseSlot_count, if_neg hb]
  · rw [h1] at h
    simp at h

/-- **C22** (`group.disconnect(f)` with `missing_ok=True`) never fails. -/
theorem C22_missing_ok {env : Env} {r : SigId} (hg : Groups env) (hr : (env.decl r).isRelay = true)
    (w : World) (f : Callable) : ((Act.disconnect r (some f) true).run env w).2 = .ok .unit := by
  rcases group_disconnect hg hr w f true with ⟨h1, -⟩ | ⟨-, h, -⟩
  · exact h1
  · simp at h

/-- **C22** (errors), as it really is: `group.disconnect(f, missing_ok=False)` raises ValueError iff `f` is
missing in the group **or in any member** — and then the connections of the group are untouched. -/
theorem C22_missing_partial {env : Env} {r : SigId} (hg : Groups env) (hr : (env.decl r).isRelay = true)
    (w : World) (f : Callable) :
    (((Act.disconnect r (some f) false).run env w).2 = .error .valueError ↔
      ∃ s, (s = r ∨ s ∈ (env.decl r).children) ∧ ∀ x ∈ (w.sig s).slots, x.base ≠ f.base) ∧
    (((Act.disconnect r (some f) false).run env w).2 ≠ .error .valueError →
      ((Act.disconnect r (some f) false).run env w).2 = .ok .unit) ∧
    (((Act.disconnect r (some f) false).run env w).2 = .error .valueError →
      (((Act.disconnect r (some f) false).run env w).1.sig r).slots = (w.sig r).slots) := by
  simp only [Act.run]
  rcases group_disconnect hg hr w f false with ⟨h1, h2, -⟩ | ⟨h1, -, ⟨s, hs, h2⟩, h3⟩
  · have h2 := h2.resolve_left (by simp)
    refine ⟨⟨fun h => by simp [h1] at h, fun ⟨s, hs, h3⟩ => absurd (slotIndex_none.2 h3) (h2 s hs)⟩,
      fun _ => h1, fun h => by simp [h1] at h⟩
  · exact ⟨⟨fun _ => ⟨s, hs, slotIndex_none.1 h2⟩, fun _ => h1⟩, fun h => absurd h1 h, fun _ => h3⟩

/-- **C22 is false as stated**: `group.connect(f); group.disconnect(f, missing_ok=False)` raises ValueError,
and `f` stays connected to the group. -/
theorem C22_refuted : ∃ (env : Env) (w : World), Groups env ∧ (env.decl 30).isRelay = true ∧
    Reachable env (Respects env 30) w ∧ (w.sig 30).slots.map (·.base) = [.func 0] ∧
    ((Act.disconnect 30 (some ⟨.func 0, []⟩) false).run env w).2 = .error .valueError ∧
    (((Act.disconnect 30 (some ⟨.func 0, []⟩) false).run env w).1.sig 30).slots.map (·.base) = [.func 0] :=
  ⟨Ex.quiet, _, Ex.groups _, rfl, Ex.reach (n := 30) (l := [Ex.conn 30 (.func 0)])
    (by simp [Respects, Ex.conn]) rfl, rfl, rfl, rfl⟩

/-- `f` is connected twice to the group and once to member 31, `g` to member 31: `group.disconnect(f)`. -/
example : ∃ (env : Env) (w : World), Groups env ∧ (env.decl 30).isRelay = true ∧
    Reachable env (Respects env 30) w ∧
    ((Act.disconnect 30 (some ⟨.func 0, []⟩) true).run env w).2 = .ok .unit ∧
    (w.sig 30).slots.map (·.base) = [.func 0, .func 0] ∧
    (w.sig 31).slots.map (·.base) = [.relay 30, .func 1, .func 0] ∧
    (((Act.disconnect 30 (some ⟨.func 0, []⟩) true).run env w).1.sig 30).slots.map (·.base) = [.func 0] ∧
    (((Act.disconnect 30 (some ⟨.func 0, []⟩) true).run env w).1.sig 31).slots.map (·.base) =
      [.relay 30, .func 1] :=
  ⟨Ex.quiet, _, Ex.groups _, rfl, Ex.reach (n := 30) (l := [Ex.conn 30 (.func 0), Ex.conn 30 (.func 0),
    Ex.conn 31 (.func 1), Ex.conn 31 (.func 0)])
    (by simp [Respects, Ex.conn]) rfl, rfl, rfl, rfl, rfl, rfl⟩

end Psygnal
