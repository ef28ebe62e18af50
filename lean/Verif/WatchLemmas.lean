import Verif.Watch
import Verif.CoreInv
import Verif.SlotLemmas
import Verif.ModesLemmas

/-! # Lemmas for C88: a callback that only watches -/
namespace Psygnal
namespace Watch

/-! ## Lists of callbacks with others, and the watcher at the end -/

/-- Other numbers for connections from number `n` on. -/
def ren (n : Nat) (x : Slot) : Slot := { x with serial := if x.serial < n then x.serial else x.serial + 1 }

@[simp] theorem ren_base {n : Nat} {x : Slot} : (ren n x).base = x.base := rfl
@[simp] theorem ren_prio {n : Nat} {x : Slot} : (ren n x).priority = x.priority := rfl

/-- The list in the other run. -/
def ext (n : Nat) (T A : List Slot) : List Slot := A.map (ren n) ++ T

variable {n : Nat} {T A : List Slot}

theorem ext_insert {x : Slot} (h : ∀ z ∈ T, z.priority < x.priority) : insertByPriority (ren n x) (ext n T A) = ext n T (insertByPriority x A) := by
  induction A with
  | nil =>
    cases T with
    | nil => rfl
    | cons z T =>
      show (if z.priority < x.priority then _ else _) = _
      rw [if_pos (h z (.head _))]
      rfl
  | cons y A ih =>
    show (if y.priority < x.priority then _ else _) = ext n T (if y.priority < x.priority then _ else _)
    by_cases hy : y.priority < x.priority
    · rw [if_pos hy, if_pos hy]; rfl
    · rw [if_neg hy, if_neg hy]
      exact congrArg (ren n y :: ·) ih

theorem insert_last {x : Slot} (h : ∀ y ∈ A, ¬ y.priority < x.priority) : insertByPriority x A = A ++ [x] := by
  induction A with
  | nil => rfl
  | cons y A ih =>
    rw [insertByPriority, if_neg (h y (.head _)), ih fun z hz => h z (.tail _ hz)]
    rfl

theorem ext_index {b : Base} (h : ∀ z ∈ T, z.base ≠ b) : slotIndex b (ext n T A) = slotIndex b A := by
  induction A with
  | nil =>
    induction T with
    | nil => rfl
    | cons z T ih =>
      show (if z.base = b then _ else _) = _
      rw [if_neg (h z (.head _))]
      have := ih fun z hz => h z (.tail _ hz)
      simp only [ext, List.map_nil, List.nil_append, slotIndex] at this ⊢
      rw [this]; rfl
  | cons y A ih =>
    show (if y.base = b then some 0 else Option.map (· + 1) (slotIndex b (ext n T A))) = _
    rw [ih]
    rfl

theorem index_lt {b : Base} {i : Nat} : ∀ {A : List Slot}, slotIndex b A = some i → i < A.length := by
  intro A
  induction A generalizing i with
  | nil => intro h; cases h
  | cons y A ih =>
    intro h
    rw [slotIndex] at h
    split at h
    · cases h; simp
    · cases hs : slotIndex b A with
      | none => rw [hs] at h; cases h
      | some j => rw [hs] at h; cases h; have := ih hs; simp; omega

theorem ext_pop : ∀ {A : List Slot} {i : Nat}, i < A.length → popAt (ext n T A) i = ext n T (popAt A i) := by
  intro A
  induction A with
  | nil => intro i h; simp at h
  | cons y A ih =>
    intro i h
    cases i with
    | zero => rfl
    | succ i => exact congrArg (ren n y :: ·) (ih (by simpa using h))

theorem ext_remove {b : Base} (h : ∀ z ∈ T, z.base ≠ b) : removeKey b (ext n T A) = (removeKey b A).map (ext n T) := by
  induction A with
  | nil =>
    induction T with
    | nil => rfl
    | cons z T ih =>
      show (if z.base = b then _ else _) = _
      rw [if_neg (h z (.head _))]
      have := ih fun z hz => h z (.tail _ hz)
      simp only [ext, List.map_nil, List.nil_append, removeKey, Option.map_none] at this ⊢
      rw [this]; rfl
  | cons y A ih =>
    show (if y.base = b then some (ext n T A) else Option.map (ren n y :: ·) (removeKey b (ext n T A)))
      = Option.map _ (if y.base = b then _ else _)
    rw [ih]
    split
    · rfl
    · cases removeKey b A <;> rfl

theorem ext_erase {b : Base} (h : ∀ z ∈ T, z.base ≠ b) : eraseSlot b (ext n T A) = ext n T (eraseSlot b A) := by
  simp only [eraseSlot, ext_index h]
  cases hi : slotIndex b A with
  | none => rfl
  | some i => exact ext_pop (index_lt hi)

theorem ext_final {o : ObjId} (h : ∀ z ∈ T, z.base.owner? = none) : finalizeSlots o (ext n T A) = ext n T (finalizeSlots o A) := by
  have hf : (ext n T A).filter (·.ownedBy o) = (A.filter (·.ownedBy o)).map (ren n) := by
    rw [ext, List.filter_append, List.filter_map]
    have : T.filter (·.ownedBy o) = [] := by
      rw [List.filter_eq_nil_iff]
      intro z hz
      simp [Slot.ownedBy, h z hz]
    rw [this, List.append_nil]
    rfl
  have key : ∀ (xs A : List Slot), (∀ x ∈ xs, x.ownedBy o = true) →
      (xs.map (ren n)).foldl (fun acc x => (removeKey x.base acc).getD acc) (ext n T A)
      = ext n T (xs.foldl (fun acc x => (removeKey x.base acc).getD acc) A) := by
    intro xs
    induction xs with
    | nil => intro A _; rfl
    | cons x xs ih =>
      intro A hx
      have hb : ∀ z ∈ T, z.base ≠ x.base := by
        intro z hz e
        have h1 := h z hz
        have h2 := hx x (.head _)
        rw [e] at h1
        simp [Slot.ownedBy, h1] at h2
      simp only [List.foldl_cons, List.map_cons, ren_base, ext_remove hb]
      rw [← ih _ fun y hy => hx y (.tail _ hy)]
      congr 1
      cases removeKey x.base A <;> rfl
  rw [finalizeSlots, hf, key _ _ fun x hx => (List.mem_filter.mp hx).2]
  rfl

theorem ext_get {i : Nat} {x : Slot} (h : A[i]? = some x) : (ext n T A)[i]? = some (ren n x) := by
  have hi : i < A.length := (List.getElem?_eq_some_iff.mp h).1
  rw [ext, List.getElem?_append_left (by simpa using hi), List.getElem?_map, h]
  rfl

theorem ext_bare : (ext n T A).map Slot.bare = A.map Slot.bare ++ T.map Slot.bare := by
  rw [ext, List.map_append, List.map_map]
  rfl

/-! ## The other state -/

/-- The state with the watcher `o` at `s` (or without it, if `c` is false), and other numbers of connections. -/
def ins (s : SigId) (o : Slot) (n : Nat) (c : Bool) (l : List Ev) (v : World) : World :=
  { v with
    sig := fun y => { v.sig y with
      slots := ext n (if c = true ∧ y = s then [o] else []) (v.sig y).slots
      prioInUse := (v.sig y).prioInUse || decide (y = s) }
    tq := fun t => (v.tq t).map fun q => (ren n q.1, q.2)
    log := l
    nextSerial := v.nextSerial + 1 }

/-- What holds of the run without the watcher. -/
structure Good (env : Env) (s : SigId) (o : Slot) (n : Nat) (v : World) : Prop where
  hook : ∀ h, v.hook = some h → ∀ r, h ≠ .relay r
  slots : ∀ y, ∀ x ∈ (v.sig y).slots, ∀ r, x.base = .relay r → ¬ env.Free y ∧ x.thread = none
  prio : ∀ x ∈ (v.sig s).slots, o.priority < x.priority
  zero : (v.sig s).prioInUse = false → ∀ x ∈ (v.sig s).slots, x.priority = 0
  quiet : (v.sig s).paused = false ∧ (v.sig s).argsQueue = []
  tq : ∀ t, ∀ q ∈ v.tq t, ∀ r, q.1.base ≠ .relay r
  num : n ≤ v.nextSerial
  serial : ∀ y, ∀ x ∈ (v.sig y).slots, x.serial < v.nextSerial
  wait : ∀ t, ∀ q ∈ v.tq t, q.1.serial < v.nextSerial

/-- What is given: a plain function as watcher, with a negative priority, at a signal that is not a group. -/
structure Given (env : Env) (s : SigId) (o : Slot) : Prop where
  relay : (env.decl s).isRelay = false
  parent : ∀ y, (env.decl y).parent ≠ some s
  func : ∃ f, o.base = .func f
  prio : o.priority < 0
  thread : o.thread = none
  code : ∀ a, env.body o.base a = .ret

variable {env : Env} {s : SigId} {o : Slot} {c : Bool} {l : List Ev} {v : World}

theorem Given.owner (h : Given env s o) : o.base.owner? = none := by obtain ⟨f, hf⟩ := h.func; rw [hf]; rfl
theorem Given.notRelay (h : Given env s o) (r : SigId) : o.base ≠ .relay r := by obtain ⟨f, hf⟩ := h.func; rw [hf]; exact nofun

theorem tail_mem {y : SigId} {z : Slot} (h : z ∈ (if c = true ∧ y = s then [o] else [])) : z = o ∧ y = s := by
  split at h
  · rename_i hc; exact ⟨List.mem_singleton.mp h, hc.2⟩
  · cases h

/-- A change of one signal that does not touch the callbacks. -/
theorem ins_upd {y : SigId} {g : SigState → SigState} (h : ∀ st k b, g { st with slots := k, prioInUse := b } =
    { g st with slots := k, prioInUse := b }) (h1 : ∀ st, (g st).slots = st.slots) (h2 : ∀ st, (g st).prioInUse = st.prioInUse) :
    (ins s o n c l v).upd y g = ins s o n c l (v.upd y g) := by
  simp only [ins, World.upd, World.mk.injEq, and_true]
  funext x
  by_cases hx : x = y
  · subst hx
    simp only [if_true]
    rw [h, h1, h2]
  · simp only [if_neg hx]

/-- A change of the callbacks of one signal. -/
theorem ins_slots {y : SigId} {A : List Slot} :
    (ins s o n c l v).upd y (fun st => { st with slots := ext n (if c = true ∧ y = s then [o] else []) A }) =
      ins s o n c l (v.upd y fun st => { st with slots := A }) := by
  simp only [ins, World.upd, World.mk.injEq, and_true]
  funext x
  by_cases hx : x = y
  · subst hx; simp
  · simp only [if_neg hx]

theorem ins_append (hg : Good env s o n v) {y : SigId} {x : Slot} (hx : y = s → o.priority < x.priority) :
    (ins s o n c l v).plainAppend y x = ins s o n c l (v.plainAppend y x) := by
  have hs : ({ x with serial := v.nextSerial + 1 } : Slot) = ren n { x with serial := v.nextSerial } := by
    simp only [ren]
    rw [if_neg (by have := hg.num; omega)]
  have hT : ∀ z ∈ (if c = true ∧ y = s then [o] else []), z.priority < x.priority := fun z hz => by
    obtain ⟨rfl, h⟩ := tail_mem hz
    exact hx h
  have hi := ext_insert (n := n) (A := (v.sig y).slots) (x := { x with serial := v.nextSerial }) hT
  simp only [World.plainAppend, ins, World.upd, World.mk.injEq, and_true]
  funext z
  by_cases hz : z = y
  · subst hz
    rw [if_pos rfl, if_pos rfl, hs]
    generalize hTe : (if c = true ∧ z = s then [o] else []) = T at hi
    by_cases hzs : z = s
    · have hl : (v.sig z).prioInUse = false → x.priority = 0 →
          (v.sig z).slots ++ [{ x with serial := v.nextSerial }] = insertByPriority { x with serial := v.nextSerial } (v.sig z).slots :=
        fun hp h0 => by
          subst hzs
          exact (insert_last fun y hy => by rw [hg.zero hp y hy]; dsimp only; omega).symm
      have hd : decide (z = s) = true := by simpa using hzs
      simp only [SigState.appendSlot, hd, Bool.or_true, Bool.true_eq_false, if_false]
      by_cases hp : (v.sig z).prioInUse = false
      · rw [if_pos hp]
        by_cases h0 : x.priority = 0
        · rw [if_pos h0, hi, ← hl hp h0]
        · rw [if_neg h0, hi]
      · rw [if_neg hp, hi]
    · have hd : decide (z = s) = false := by simpa using hzs
      simp only [SigState.appendSlot, hd, Bool.or_false]
      by_cases hp : (v.sig z).prioInUse = false
      · rw [if_pos hp, if_pos hp]
        by_cases h0 : x.priority = 0
        · have hn : T = [] := by rw [← hTe, if_neg fun h => hzs h.2]
          subst hn
          rw [if_pos h0, ren_prio, if_pos h0]
          simp [ext]
        · rw [if_neg h0, ren_prio, if_neg h0, hi]
      · rw [if_neg hp, if_neg hp, hi]
  · simp only [if_neg hz]

/-! ## Both runs go on in the same way -/

theorem Good.upd (hg : Good env s o n v) {y : SigId} {g : SigState → SigState} (h1 : ∀ st, (g st).slots = st.slots)
    (h2 : ∀ st, (g st).prioInUse = st.prioInUse)
    (h3 : y = s → (v.sig y).paused = false ∧ (v.sig y).argsQueue = [] → (g (v.sig y)).paused = false ∧ (g (v.sig y)).argsQueue = []) :
    Good env s o n (v.upd y g) := by
  have hs : ∀ z, ((v.upd y g).sig z).slots = (v.sig z).slots := fun z => by
    simp only [World.upd]; split
    · rename_i h; subst h; exact h1 _
    · rfl
  have hp : ∀ z, ((v.upd y g).sig z).prioInUse = (v.sig z).prioInUse := fun z => by
    simp only [World.upd]; split
    · rename_i h; subst h; exact h2 _
    · rfl
  refine ⟨hg.hook, fun z => by rw [hs]; exact hg.slots z, by rw [hs]; exact hg.prio, by rw [hs, hp]; exact hg.zero, ?_, hg.tq, hg.num,
    fun z => by rw [hs]; exact hg.serial z, hg.wait⟩
  simp only [World.upd]; split
  · rename_i h; subst h; exact h3 rfl hg.quiet
  · exact hg.quiet

theorem Good.ev (hg : Good env s o n v) (e : Ev) : Good env s o n (v.ev e) :=
  ⟨hg.hook, hg.slots, hg.prio, hg.zero, hg.quiet, hg.tq, hg.num, hg.serial, hg.wait⟩

/-- Callbacks are dropped. -/
theorem Good.less (hg : Good env s o n v) {y : SigId} {A : List Slot} (hA : ∀ x ∈ A, x ∈ (v.sig y).slots) :
    Good env s o n (v.upd y fun st => { st with slots := A }) := by
  have hs : ∀ z, ∀ x ∈ ((v.upd y fun st => { st with slots := A }).sig z).slots, x ∈ (v.sig z).slots := fun z x hx => by
    simp only [World.upd] at hx
    split at hx
    · rename_i h; subst h; exact hA x hx
    · exact hx
  refine ⟨hg.hook, fun z x hx => hg.slots z x (hs z x hx), fun x hx => hg.prio x (hs s x hx), fun h x hx => hg.zero ?_ x (hs s x hx), ?_, hg.tq,
    hg.num, fun z x hx => hg.serial z x (hs z x hx), hg.wait⟩
  · simp only [World.upd] at h; split at h <;> exact h
  · simp only [World.upd]; split <;> exact hg.quiet

theorem mem_ins {x y : Slot} : ∀ {A : List Slot}, y ∈ insertByPriority x A → y = x ∨ y ∈ A := by
  intro A
  induction A with
  | nil => intro h; exact .inl (List.mem_singleton.mp h)
  | cons z A ih =>
    intro h
    rw [insertByPriority] at h
    split at h
    · exact List.mem_cons.mp h
    · rcases List.mem_cons.mp h with h | h
      · exact .inr (h ▸ .head _)
      · exact (ih h).imp_right (.tail _)

theorem Good.append (hg : Good env s o n v) {y : SigId} {x : Slot} (hx : y = s → o.priority < x.priority)
    (hr : ∀ r, x.base = .relay r → ¬ env.Free y ∧ x.thread = none) : Good env s o n (v.plainAppend y x) := by
  have hm : ∀ z, ∀ a ∈ ((v.plainAppend y x).sig z).slots, a ∈ (v.sig z).slots ∨ (z = y ∧ a = { x with serial := v.nextSerial }) := by
    intro z a ha
    simp only [World.plainAppend, World.upd] at ha
    split at ha
    · rename_i h
      subst h
      simp only [SigState.appendSlot] at ha
      split at ha
      · split at ha
        · rcases List.mem_append.mp ha with ha | ha
          · exact .inl ha
          · exact .inr ⟨rfl, List.mem_singleton.mp ha⟩
        · exact (mem_ins ha).symm.imp_right fun h => ⟨rfl, h⟩
      · exact (mem_ins ha).symm.imp_right fun h => ⟨rfl, h⟩
    · exact .inl ha
  refine ⟨hg.hook, fun z a ha => ?_, fun a ha => ?_, fun h a ha => ?_, ?_, hg.tq, Nat.le_succ_of_le hg.num, fun z a ha => ?_,
    fun t q hq => Nat.lt_succ_of_lt (hg.wait t q hq)⟩
  · rcases hm z a ha with h | ⟨rfl, rfl⟩
    · exact hg.slots z a h
    · exact hr
  · rcases hm s a ha with h | ⟨h, rfl⟩
    · exact hg.prio a h
    · exact hx h.symm
  · by_cases hy : s = y
    · subst hy
      have hp : (v.sig s).prioInUse = false ∧ x.priority = 0 := by
        simp only [World.plainAppend, World.upd, if_true, SigState.appendSlot] at h
        split at h
        · rename_i h1
          split at h
          · rename_i h2; exact ⟨h1, h2⟩
          · cases h
        · rename_i h1; exact absurd h h1
      rcases hm s a ha with h' | ⟨_, rfl⟩
      · exact hg.zero hp.1 a h'
      · exact hp.2
    · have h' : (v.sig s).prioInUse = false := by simpa only [World.plainAppend, World.upd, if_neg hy] using h
      rcases hm s a ha with h1 | ⟨h1, _⟩
      · exact hg.zero h' a h1
      · exact absurd h1 hy
  · simp only [World.plainAppend, World.upd]
    split
    · rename_i h
      subst h
      simp only [SigState.appendSlot]
      split
      · split <;> exact hg.quiet
      · exact hg.quiet
    · exact hg.quiet
  · rcases hm z a ha with h | ⟨_, rfl⟩
    · exact Nat.lt_succ_of_lt (hg.serial z a h)
    · exact Nat.lt_succ_self _

theorem erase_sub {b : Base} {A : List Slot} : ∀ x ∈ eraseSlot b A, x ∈ A := by
  intro x hx
  simp only [eraseSlot] at hx
  split at hx
  · exact (popAt_sublist _ _).subset hx
  · exact hx

/-! ## Calls that run no user code -/

/-- The call does the same in both states. -/
def Both (env : Env) (s : SigId) (o : Slot) (n : Nat) (f : World → World × Except Exc Resp) (v : World) : Prop :=
  Good env s o n (f v).1 ∧ ∀ c l, ∃ c', f (ins s o n c l v) = (ins s o n c' l (f v).1, (f v).2)

theorem ins_remove1 (hG : Given env s o) (hg : Good env s o n v) {r y : SigId} :
    (ins s o n c l v).disconnectRelay1 r y = ins s o n c l (v.disconnectRelay1 r y) ∧ Good env s o n (v.disconnectRelay1 r y) := by
  have h1 : ∀ u : World, u.disconnectRelay1 r y = u.upd y fun st => { st with slots := eraseSlot (.relay r) (u.sig y).slots } := fun u => by
    simp only [World.disconnectRelay1, World.upd, World.mk.injEq, and_true]
    funext z
    by_cases hz : z = y
    · subst hz; rfl
    · simp only [if_neg hz]
  have h2 : eraseSlot (.relay r) ((ins s o n c l v).sig y).slots = ext n (if c = true ∧ y = s then [o] else []) (eraseSlot (.relay r) (v.sig y).slots) :=
    ext_erase fun z hz => by rw [(tail_mem hz).1]; exact hG.notRelay r
  rw [h1, h1, h2]
  exact ⟨ins_slots, hg.less erase_sub⟩

theorem ins_removeAll (hG : Given env s o) {r : SigId} : ∀ (ys : List SigId) {v : World}, Good env s o n v →
    ys.foldl (World.disconnectRelay1 r) (ins s o n c l v) = ins s o n c l (ys.foldl (World.disconnectRelay1 r) v) ∧
      Good env s o n (ys.foldl (World.disconnectRelay1 r) v) := by
  intro ys
  induction ys with
  | nil => intro v hg; exact ⟨rfl, hg⟩
  | cons y ys ih =>
    intro v hg
    have h := ins_remove1 (c := c) (l := l) hG hg (r := r) (y := y)
    simp only [List.foldl_cons, h.1]
    exact ih h.2

theorem ins_relay1 (hG : Given env s o) (hg : Good env s o n v) {r y : SigId} (hy : ¬ env.Free y) :
    (ins s o n c l v).connectRelay1 r y = ins s o n c l (v.connectRelay1 r y) ∧ Good env s o n (v.connectRelay1 r y) := by
  have h2 : slotIndex (.relay r) ((ins s o n c l v).sig y).slots = slotIndex (.relay r) (v.sig y).slots :=
    ext_index fun z hz => by rw [(tail_mem hz).1]; exact hG.notRelay r
  simp only [World.connectRelay1, h2]
  split
  · exact ⟨rfl, hg⟩
  · exact ⟨ins_append hg fun _ => hG.prio, hg.append (fun _ => hG.prio) fun _ _ => ⟨hy, rfl⟩⟩

theorem ins_relayAll (hG : Given env s o) {r : SigId} : ∀ (ys : List SigId) {v : World}, (∀ y ∈ ys, ¬ env.Free y) → Good env s o n v →
    ys.foldl (World.connectRelay1 r) (ins s o n c l v) = ins s o n c l (ys.foldl (World.connectRelay1 r) v) ∧
      Good env s o n (ys.foldl (World.connectRelay1 r) v) := by
  intro ys
  induction ys with
  | nil => intro v _ hg; exact ⟨rfl, hg⟩
  | cons y ys ih =>
    intro v hf hg
    have h := ins_relay1 (c := c) (l := l) hG hg (r := r) (hf y (.head _))
    simp only [List.foldl_cons, h.1]
    exact ih (fun z hz => hf z (.tail _ hz)) h.2

theorem ins_len {y : SigId} (hy : y ≠ s) : ((ins s o n c l v).sig y).slots = (v.sig y).slots.map (ren n) := by
  simp only [ins, ext]
  rw [if_neg fun h => hy h.2, List.append_nil]

theorem ins_appendSlot (hG : Given env s o) (hg : Good env s o n v) {y : SigId} {x : Slot} (hx : y = s → o.priority < x.priority)
    (hr : ∀ r, x.base ≠ .relay r) : (ins s o n c l v).appendSlot env y x = ins s o n c l (v.appendSlot env y x) ∧ Good env s o n (v.appendSlot env y x) := by
  have hg' := hg.append (y := y) (x := x) hx fun r h => absurd h (hr r)
  simp only [World.appendSlot, ins_append hg hx]
  by_cases hrel : (env.decl y).isRelay = true
  · have hy : y ≠ s := by rintro rfl; rw [hG.relay] at hrel; cases hrel
    rw [ins_len hy, List.length_map]
    split
    · exact ins_relayAll hG _ (fun z hz hf => hf y hz) hg'
    · exact ⟨rfl, hg'⟩
  · rw [if_neg fun h => hrel h.1, if_neg fun h => hrel h.1]
    exact ⟨rfl, hg'⟩

theorem ins_setSlots (hG : Given env s o) (hg : Good env s o n v) {y : SigId} {A : List Slot} (hA : ∀ x ∈ A, x ∈ (v.sig y).slots) :
    (ins s o n c l v).setSlotsRemoved env y (ext n (if c = true ∧ y = s then [o] else []) A) = ins s o n c l (v.setSlotsRemoved env y A) ∧
      Good env s o n (v.setSlotsRemoved env y A) := by
  have hg' := hg.less hA
  simp only [World.setSlotsRemoved, ins_slots]
  by_cases hrel : (env.decl y).isRelay = true
  · have hy : y ≠ s := by rintro rfl; rw [hG.relay] at hrel; cases hrel
    have he : (ext n (if c = true ∧ y = s then [o] else []) A).isEmpty = A.isEmpty := by
      rw [if_neg fun h => hy h.2]; cases A <;> rfl
    rw [he]
    split
    · exact ins_removeAll hG _ hg'
    · exact ⟨rfl, hg'⟩
  · rw [if_neg fun h => hrel h.1, if_neg fun h => hrel h.1]
    exact ⟨rfl, hg'⟩

/-- `disconnect()` of the watched signal drops the watcher too. -/
theorem ins_setNil (hG : Given env s o) (hg : Good env s o n v) {y : SigId} :
    ∃ c', (ins s o n c l v).setSlotsRemoved env y [] = ins s o n c' l (v.setSlotsRemoved env y []) := by
  by_cases hy : y = s
  · subst hy
    refine ⟨false, ?_⟩
    have hrel : ¬ (env.decl y).isRelay = true := by rw [hG.relay]; exact nofun
    simp only [World.setSlotsRemoved]
    rw [if_neg fun h => hrel h.1, if_neg fun h => hrel h.1]
    simp only [ins, World.upd, World.mk.injEq, and_true]
    funext z
    by_cases hz : z = y
    · subst hz; simp [ext]
    · simp [hz]
  · refine ⟨c, ?_⟩
    have := (ins_setSlots (c := c) (l := l) hG hg (y := y) (A := []) nofun).1
    rw [if_neg fun h => hy h.2] at this
    exact this

theorem both_disconnect1 (hG : Given env s o) (hg : Good env s o n v) {y : SigId} {d : Option Callable} {m : Bool}
    (hd : ∀ x, d = some x → x.base ≠ o.base) : Both env s o n (fun w => w.disconnect1 env y d m) v := by
  cases d with
  | none =>
    refine ⟨(ins_setSlots (c := false) (l := []) (A := []) hG hg nofun).2, fun c l => ?_⟩
    obtain ⟨c', h⟩ := ins_setNil (c := c) (l := l) hG hg (y := y)
    exact ⟨c', congrArg (·, _) h⟩
  | some d =>
    have hi : ∀ c l, slotIndex d.base ((ins s o n c l v).sig y).slots = slotIndex d.base (v.sig y).slots := fun c l =>
      ext_index fun z hz => by rw [(tail_mem hz).1]; exact (hd d rfl).symm
    cases h : slotIndex d.base (v.sig y).slots with
    | none =>
      refine ⟨?_, fun c l => ⟨c, ?_⟩⟩
      · simp only [World.disconnect1, h]; split <;> exact hg
      · simp only [World.disconnect1, hi, h]; split <;> rfl
    | some i =>
      have hsub : ∀ x ∈ popAt (v.sig y).slots i, x ∈ (v.sig y).slots := fun x hx => (popAt_sublist _ _).subset hx
      refine ⟨?_, fun c l => ⟨c, ?_⟩⟩
      · simp only [World.disconnect1, h]; exact (ins_setSlots (c := false) (l := []) hG hg hsub).2
      · simp only [World.disconnect1, hi, h]
        have : popAt ((ins s o n c l v).sig y).slots i = ext n (if c = true ∧ y = s then [o] else []) (popAt (v.sig y).slots i) := ext_pop (index_lt h)
        rw [this, (ins_setSlots hG hg hsub).1]

theorem both_members (hG : Given env s o) {d : Option Callable} {m : Bool} (hd : ∀ x, d = some x → x.base ≠ o.base) :
    ∀ (ys : List SigId) {v : World}, Good env s o n v → Both env s o n (World.disconnectMembers env d m ys) v := by
  intro ys
  induction ys with
  | nil => intro v hg; exact ⟨hg, fun c l => ⟨c, rfl⟩⟩
  | cons y ys ih =>
    intro v hg
    obtain ⟨h1, h2⟩ := both_disconnect1 hG hg (y := y) (m := m) hd
    dsimp only at h1 h2
    cases hr : v.disconnect1 env y d m with
    | mk v1 r1 =>
      rw [hr] at h1 h2
      cases r1 with
      | error e =>
        refine ⟨by simp only [World.disconnectMembers, hr]; exact h1, fun c l => ?_⟩
        obtain ⟨c1, h3⟩ := h2 c l
        exact ⟨c1, by simp only [World.disconnectMembers, hr, h3]⟩
      | ok a =>
        obtain ⟨h4, h5⟩ := ih h1
        refine ⟨by simp only [World.disconnectMembers, hr]; exact h4, fun c l => ?_⟩
        obtain ⟨c1, h3⟩ := h2 c l
        obtain ⟨c2, h6⟩ := h5 c1 l
        exact ⟨c2, by simp only [World.disconnectMembers, hr, h3]; exact h6⟩

theorem both_disconnect (hG : Given env s o) (hg : Good env s o n v) {y : SigId} {d : Option Callable} {m : Bool}
    (hd : ∀ x, d = some x → x.base ≠ o.base) : Both env s o n (fun w => w.disconnect env y d m) v := by
  simp only [World.disconnect]
  split
  · obtain ⟨h1, h2⟩ := both_members hG (m := m) hd (env.decl y).children hg
    cases hr : World.disconnectMembers env d m (env.decl y).children v with
    | mk v1 r1 =>
      rw [hr] at h1 h2
      cases r1 with
      | error e =>
        refine ⟨by simp only [hr]; exact h1, fun c l => ?_⟩
        obtain ⟨c1, h3⟩ := h2 c l
        exact ⟨c1, by simp only [hr, h3]⟩
      | ok a =>
        obtain ⟨h4, h5⟩ := both_disconnect1 hG h1 (y := y) (m := m) hd
        refine ⟨by simp only [hr]; exact h4, fun c l => ?_⟩
        obtain ⟨c1, h3⟩ := h2 c l
        obtain ⟨c2, h6⟩ := h5 c1 l
        exact ⟨c2, by simp only [hr, h3]; exact h6⟩
  · exact both_disconnect1 hG hg hd

theorem remove_sub {b : Base} : ∀ {A B : List Slot}, removeKey b A = some B → ∀ x ∈ B, x ∈ A := by
  intro A
  induction A with
  | nil => intro B h; cases h
  | cons y A ih =>
    intro B h x hx
    rw [removeKey] at h
    split at h
    · cases h; exact .tail _ hx
    · cases hr : removeKey b A with
      | none => rw [hr] at h; cases h
      | some C =>
        rw [hr] at h
        cases h
        rcases List.mem_cons.mp hx with rfl | hx
        · exact .head _
        · exact .tail _ (ih hr x hx)

theorem both_discard (hG : Given env s o) (hg : Good env s o n v) {y : SigId} {b : Base} {m : Bool} (hb : b ≠ o.base) :
    Both env s o n (fun w => w.discard env y b m) v := by
  have hi : ∀ c l, removeKey b ((ins s o n c l v).sig y).slots = (removeKey b (v.sig y).slots).map (ext n (if c = true ∧ y = s then [o] else [])) :=
    fun c l => ext_remove fun z hz => by rw [(tail_mem hz).1]; exact hb.symm
  cases h : removeKey b (v.sig y).slots with
  | none =>
    refine ⟨?_, fun c l => ⟨c, ?_⟩⟩
    · simp only [World.discard, h]; split <;> exact hg
    · simp only [World.discard, hi, h, Option.map_none]; split <;> rfl
  | some A =>
    refine ⟨?_, fun c l => ⟨c, ?_⟩⟩
    · simp only [World.discard, h]; exact (ins_setSlots (c := false) (l := []) hG hg (remove_sub h)).2
    · simp only [World.discard, hi, h, Option.map_some]
      rw [(ins_setSlots hG hg (remove_sub h)).1]

theorem ins_fold {f : World → SigId → World} (hf : ∀ w y, Good env s o n w → f (ins s o n c l w) y = ins s o n c l (f w y) ∧ Good env s o n (f w y)) :
    ∀ (ys : List SigId) {v : World}, Good env s o n v → ys.foldl f (ins s o n c l v) = ins s o n c l (ys.foldl f v) ∧ Good env s o n (ys.foldl f v) := by
  intro ys
  induction ys with
  | nil => intro v hg; exact ⟨rfl, hg⟩
  | cons y ys ih =>
    intro v hg
    have h := hf v y hg
    simp only [List.foldl_cons, h.1]
    exact ih h.2

/-- A change of one signal that touches neither callbacks nor pausing. -/
theorem ins_flag (hg : Good env s o n v) {y : SigId} {g : SigState → SigState} (h : ∀ st k b, g { st with slots := k, prioInUse := b } =
    { g st with slots := k, prioInUse := b }) (h1 : ∀ st, (g st).slots = st.slots) (h2 : ∀ st, (g st).prioInUse = st.prioInUse)
    (h3 : ∀ st, (g st).paused = st.paused ∧ (g st).argsQueue = st.argsQueue) :
    (ins s o n c l v).upd y g = ins s o n c l (v.upd y g) ∧ Good env s o n (v.upd y g) :=
  ⟨ins_upd h h1 h2, hg.upd h1 h2 fun _ hq => by rw [(h3 _).1, (h3 _).2]; exact hq⟩

theorem ins_block (hg : Good env s o n v) {y : SigId} {ex : List SigId} :
    (ins s o n c l v).block env y ex = ins s o n c l (v.block env y ex) ∧ Good env s o n (v.block env y ex) := by
  have h0 := ins_flag (c := c) (l := l) hg (y := y) (g := fun st => { st with blocked := true }) (fun _ _ _ => rfl) (fun _ => rfl) (fun _ => rfl)
    fun _ => ⟨rfl, rfl⟩
  simp only [World.block, h0.1]
  split
  · refine ins_fold (fun w z hw => ?_) _ h0.2
    split
    · exact ⟨rfl, hw⟩
    · have h1 := ins_flag (c := c) (l := l) hw (y := y)
        (g := fun st => { st with wasBlocked := fun x => if x = z then some (w.sig z).blocked else st.wasBlocked x })
        (fun _ _ _ => rfl) (fun _ => rfl) (fun _ => rfl) fun _ => ⟨rfl, rfl⟩
      have h2 := ins_flag (c := c) (l := l) h1.2 (y := z) (g := fun st => { st with blocked := true }) (fun _ _ _ => rfl) (fun _ => rfl)
        (fun _ => rfl) fun _ => ⟨rfl, rfl⟩
      exact ⟨(congrArg (fun u : World => u.upd z fun st => { st with blocked := true }) h1.1).trans h2.1, h2.2⟩
  · exact ⟨rfl, h0.2⟩

theorem ins_unblock (hg : Good env s o n v) {y : SigId} :
    (ins s o n c l v).unblock env y = ins s o n c l (v.unblock env y) ∧ Good env s o n (v.unblock env y) := by
  have h0 := ins_flag (c := c) (l := l) hg (y := y) (g := fun st => { st with blocked := false }) (fun _ _ _ => rfl) (fun _ => rfl) (fun _ => rfl)
    fun _ => ⟨rfl, rfl⟩
  simp only [World.unblock, h0.1]
  split
  · refine ins_fold (fun w z hw => ?_) _ h0.2
    have h1 := ins_flag (c := c) (l := l) hw (y := y)
      (g := fun st => { st with wasBlocked := fun x => if x = z then none else st.wasBlocked x })
      (fun _ _ _ => rfl) (fun _ => rfl) (fun _ => rfl) fun _ => ⟨rfl, rfl⟩
    have h2 := ins_flag (c := c) (l := l) h1.2 (y := z) (g := fun st => { st with blocked := false }) (fun _ _ _ => rfl) (fun _ => rfl)
      (fun _ => rfl) fun _ => ⟨rfl, rfl⟩
    rw [h1.1]
    by_cases h : ((w.sig y).wasBlocked z).getD false = true
    · rw [if_pos h]
      exact ⟨if_pos h, h1.2⟩
    · rw [if_neg h]
      exact ⟨(if_neg h).trans h2.1, h2.2⟩
  · exact ⟨rfl, h0.2⟩

theorem both_connect (hG : Given env s o) (hg : Good env s o n v) {y : SigId} {d : Callable} {p : ConnOpts} (hb : d.base ≠ o.base)
    (hr : ∀ r, d.base ≠ .relay r) (hp : y = s → o.priority < p.priority) : Both env s o n (fun w => w.connect env y d p) v := by
  have hi : ∀ c l, slotIndex d.base ((ins s o n c l v).sig y).slots = slotIndex d.base (v.sig y).slots := fun c l =>
    ext_index fun z hz => by rw [(tail_mem hz).1]; exact hb.symm
  have ha := fun (c : Bool) (l : List Ev) (m : Option Nat) => ins_appendSlot (c := c) (l := l) hG hg (y := y)
    (x := { base := d.base, bound := d.boundFor, maxArgs := m, priority := p.priority, thread := resolveThread v p.thread }) hp hr
  refine ⟨?_, fun c l => ⟨c, ?_⟩⟩
  · simp only [World.connect]
    split
    · split <;> exact hg
    · split
      · exact hg
      · exact (ha false [] _).2
  · have ht : resolveThread (ins s o n c l v) p.thread = resolveThread v p.thread := by
      cases p.thread with
      | none => rfl
      | some x => cases x <;> rfl
    simp only [World.connect, hi, ht, (ha c l _).1]
    split
    · split <;> rfl
    · split <;> rfl

theorem both_kill (hG : Given env s o) (hg : Good env s o n v) {x : ObjId} :
    Good env s o n (v.kill env x) ∧ ∀ c l, (ins s o n c l v).kill env x = ins s o n c l (v.kill env x) := by
  have hsub : ∀ y, ∀ z ∈ ((v.kill env x).sig y).slots, z ∈ (v.sig y).slots := by
    intro y z hz
    simp only [World.kill] at hz
    split at hz
    · exact (finalizeSlots_sublist _ _).subset hz
    · split at hz
      · exact (finalizeSlots_sublist _ _).subset (erase_sub _ hz)
      · exact (finalizeSlots_sublist _ _).subset hz
  refine ⟨⟨hg.hook, fun y z hz => hg.slots y z (hsub y z hz), fun z hz => hg.prio z (hsub s z hz), fun h z hz => hg.zero h z (hsub s z hz),
    hg.quiet, hg.tq, hg.num, fun y z hz => hg.serial y z (hsub y z hz), hg.wait⟩, fun c l => ?_⟩
  have ho : ∀ y, ∀ z ∈ (if c = true ∧ y = s then [o] else []), z.base.owner? = none := fun y z hz => by rw [(tail_mem hz).1]; exact hG.owner
  have hf : ∀ y, finalizeSlots x ((ins s o n c l v).sig y).slots = ext n (if c = true ∧ y = s then [o] else []) (finalizeSlots x (v.sig y).slots) :=
    fun y => ext_final (ho y)
  simp only [World.kill, ins, World.mk.injEq, and_true]
  refine funext fun y => ?_
  have hfy := hf y
  simp only [ins] at hfy
  rw [hfy]
  cases hp : (env.decl y).parent with
  | none => rfl
  | some r =>
    have hr : r ≠ s := by rintro rfl; exact hG.parent y hp
    have hn : (if c = true ∧ r = s then [o] else []) = [] := if_neg fun h => hr h.2
    have e1 : ∀ A : List Slot, (ext n [] A).isEmpty = A.isEmpty := fun A => by cases A <;> rfl
    have e2 : ((ins s o n c l v).sig r).slots = ext n [] (v.sig r).slots := by simp only [ins, hn]
    have e3 : (finalizeSlots x ((ins s o n c l v).sig r).slots).isEmpty = (finalizeSlots x (v.sig r).slots).isEmpty := by rw [hf, hn, e1]
    have e4 : ((ins s o n c l v).sig r).slots.isEmpty = (v.sig r).slots.isEmpty := by rw [e2, e1]
    have e5 : eraseSlot (.relay r) (ext n (if c = true ∧ y = s then [o] else []) (finalizeSlots x (v.sig y).slots)) =
        ext n (if c = true ∧ y = s then [o] else []) (eraseSlot (.relay r) (finalizeSlots x (v.sig y).slots)) :=
      ext_erase fun z hz => by rw [(tail_mem hz).1]; exact hG.notRelay r
    dsimp only
    by_cases h : (!(v.sig r).slots.isEmpty) = true ∧ (finalizeSlots x (v.sig r).slots).isEmpty = true
    · have h' : (!((ins s o n c l v).sig r).slots.isEmpty) = true ∧ (finalizeSlots x ((ins s o n c l v).sig r).slots).isEmpty = true := by
        rw [e3, e4]; exact h
      rw [if_pos h, ← e5]
      exact congrArg (fun A => ({ v.sig y with slots := A, prioInUse := (v.sig y).prioInUse || decide (y = s) } : SigState)) (if_pos h')
    · have h' : ¬ ((!((ins s o n c l v).sig r).slots.isEmpty) = true ∧ (finalizeSlots x ((ins s o n c l v).sig r).slots).isEmpty = true) := by
        rw [e3, e4]; exact h
      rw [if_neg h]
      exact congrArg (fun A => ({ v.sig y with slots := A, prioInUse := (v.sig y).prioInUse || decide (y = s) } : SigState)) (if_neg h')

theorem Given.dead (hG : Given env s o) {w : World} : o.base.isDead w = false := by
  simp only [Base.isDead, hG.owner]

/-- Calls that run no user code. -/
theorem both_run (hG : Given env s o) (hg : Good env s o n v) {a : Act} (ha : a.Ignores env s o.base o.priority) (ht : a.task? v = none) :
    Both env s o n (fun w => a.run env w) v := by
  cases a with
  | connect y d p =>
    have h := both_connect hG hg ha.1 ha.2.1 ha.2.2
    simp only [Both, Act.run]
    by_cases hd : d.base.isDead v = true
    · refine ⟨by rw [if_pos hd]; exact hg, fun c l => ⟨c, ?_⟩⟩
      rw [if_pos hd]; exact if_pos hd
    · refine ⟨by rw [if_neg hd]; exact h.1, fun c l => ?_⟩
      obtain ⟨c', h'⟩ := h.2 c l
      exact ⟨c', by rw [if_neg hd]; exact (if_neg hd).trans h'⟩
  | connectRaw y b m p =>
    have h := fun c l => ins_appendSlot (c := c) (l := l) hG hg (y := y) (x := { base := b, bound := [], maxArgs := m, priority := p, thread := none })
      ha.2.2 ha.2.1
    simp only [Both, Act.run]
    by_cases hd : b.isDead v = true
    · refine ⟨by rw [if_pos hd]; exact hg, fun c l => ⟨c, ?_⟩⟩
      rw [if_pos hd]; exact if_pos hd
    · refine ⟨by rw [if_neg hd]; exact (h false []).2, fun c l => ⟨c, ?_⟩⟩
      rw [if_neg hd]
      exact (if_neg hd).trans (congrArg (·, _) (h c l).1)
  | disconnect y d m => exact both_disconnect hG hg ha
  | discard y b m => exact both_discard hG hg ha
  | contains y d =>
    refine ⟨hg, fun c l => ⟨c, ?_⟩⟩
    have : slotIndex d.base ((ins s o n c l v).sig y).slots = slotIndex d.base (v.sig y).slots :=
      ext_index fun z hz => by rw [(tail_mem hz).1]; exact Ne.symm ha
    simp only [Act.run, this]
  | len y => exact ⟨hg, fun c l => ⟨c, by simp only [Act.run, ins_len ha, List.length_map]⟩⟩
  | block y ex => exact ⟨(ins_block (c := false) (l := []) hg).2, fun c l => ⟨c, congrArg (·, _) (ins_block hg).1⟩⟩
  | unblock y => exact ⟨(ins_unblock (c := false) (l := []) hg).2, fun c l => ⟨c, congrArg (·, _) (ins_unblock hg).1⟩⟩
  | pause y =>
    exact ⟨hg.upd (g := fun st => { st with paused := true }) (fun _ => rfl) (fun _ => rfl) fun h => absurd h ha,
      fun c l => ⟨c, congrArg (·, _) (ins_upd (g := fun st => { st with paused := true }) (fun _ _ _ => rfl) (fun _ => rfl) fun _ => rfl)⟩⟩
  | currentEmitter => exact ⟨hg, fun c l => ⟨c, rfl⟩⟩
  | kill x => exact ⟨(both_kill hG hg).1, fun c l => ⟨c, congrArg (·, _) ((both_kill hG hg).2 c l)⟩⟩
  | setHook h =>
    exact ⟨⟨fun x hx r => ha x r hx, hg.slots, hg.prio, hg.zero, hg.quiet, hg.tq, hg.num, hg.serial, hg.wait⟩, fun c l => ⟨c, rfl⟩⟩
  | getHook => exact ⟨hg, fun c l => ⟨c, rfl⟩⟩
  | emit => cases ht
  | emitFast => cases ht
  | resume => cases ht
  | emitQueued t => cases t <;> cases ht

/-! ## The log, and the call of the watcher -/

/-- The same events but for those of the watcher. -/
def LogOk (o : Slot) (l : List Ev) (v : World) : Prop := l.filter (fun e => !e.about o.base) = v.log.filter fun e => !e.about o.base

theorem LogOk.ev (h : LogOk o l v) (e : Ev) : LogOk o (l ++ [e]) (v.ev e) := by
  simp only [LogOk, World.ev, List.filter_append] at h ⊢
  rw [h]

/-- The watcher is called: nothing changes but the log. -/
theorem watcher (hG : Given env s o) (hl : LogOk o l v) (em : Option Nat) (src : Option SigId) (a : Args) :
    ∃ l', Runs env (.cb em src o a) (ins s o n c l v) (ins s o n c l' v) (.ok ()) ∧ LogOk o l' v := by
  obtain ⟨f, hf⟩ := hG.func
  have h1 : Runs env (.prog .ret) ((ins s o n c l v).logCall em src o.base (o.callArgs a)) ((ins s o n c l v).logCall em src o.base (o.callArgs a)) (.ok ()) :=
    (runs_iff ..).2 ⟨rfl, rfl⟩
  have h2 : Runs env (.direct em src o a) (ins s o n c l v)
      (((ins s o n c l v).logCall em src o.base (o.callArgs a)).logRet em src o.base (.ok ())) (.ok ()) := by
    rw [runs_iff]
    simp only [body, hG.dead, Bool.false_eq_true, if_false]
    have hc := hG.code (o.callArgs a)
    rw [hf] at h1 hc ⊢
    dsimp only
    rw [hc]
    exact ⟨_, _, h1, rfl, rfl⟩
  refine ⟨l ++ [.call em src (match src with | none => 0 | some y => (v.sig y).depth) v.emitter v.thread o.base (o.callArgs a)] ++ [.ret em src o.base (.ok ())], ?_, ?_⟩
  · rw [runs_iff]
    simp only [body, hG.thread]
    refine ⟨_, _, h2, ?_, rfl⟩
    cases src <;> rfl
  · simp only [LogOk] at hl ⊢
    rw [List.filter_append, List.filter_append, hl]
    have h3 : ∀ e : Ev, e.about o.base = true → [e].filter (fun e => !e.about o.base) = [] := fun e he => by simp [he]
    rw [h3 _ (by simp [Ev.about]), h3 _ (by simp [Ev.about]), List.append_nil, List.append_nil]

/-- Where the list of the one run ends, that of the other ends too or has the watcher left. -/
theorem at_end {y : SigId} {i : Nat} (h : (v.sig y).slots[i]? = none) :
    ((ins s o n c l v).sig y).slots[i]? = none ∨
      (((ins s o n c l v).sig y).slots[i]? = some o ∧ y = s ∧ ((ins s o n c l v).sig y).slots[i + 1]? = none) := by
  have hi : (v.sig y).slots.length ≤ i := List.getElem?_eq_none_iff.mp h
  simp only [ins, ext]
  by_cases hc : c = true ∧ y = s
  · rw [if_pos hc]
    by_cases he : i = (v.sig y).slots.length
    · refine .inr ⟨?_, hc.2, ?_⟩
      · rw [List.getElem?_append_right (by simp; omega)]; simp [he]
      · rw [List.getElem?_eq_none_iff]; simp; omega
    · refine .inl ?_
      rw [List.getElem?_eq_none_iff]; simp; omega
  · rw [if_neg hc]
    refine .inl ?_
    rw [List.getElem?_eq_none_iff]; simp; omega

end Watch
end Psygnal
