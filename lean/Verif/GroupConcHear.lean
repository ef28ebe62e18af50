import Verif.GroupConcLink

/-! # What the listeners of a group hear -/
namespace Psygnal.GrC

/-! ## Counting events -/

/-- `connect(f)` has returned. -/
def isRet (f : Nat) : Ev → Bool
  | .connRet _ g => g == f
  | _ => false

/-- Listener `f` has been appended. -/
def isAdd (f : Nat) : Ev → Bool
  | .added _ g => g == f
  | _ => false

/-- Listener `f` has been removed by `disconnect(f)`. -/
def isRem (f : Nat) : Ev → Bool
  | .removed _ (.one g) => g == f
  | _ => false

/-- Listener `f` is called in emission `n`. -/
def isCall (f n : Nat) : Ev → Bool
  | .call _ g _ _ m => g == f && m == n
  | _ => false

/-- Emission `n` starts. -/
def isStart (n : Nat) : Ev → Bool
  | .start m _ _ _ => m == n
  | _ => false

/-- `disconnect()` or the death of a listener. -/
def isClear : Ev → Bool
  | .offCall _ .all => true
  | .offCall _ (.dead _) => true
  | _ => false

/-- What happened before emission `n`. -/
def before (n : Nat) (log : List Ev) : List Ev := log.takeWhile (fun ev => !isStart n ev)

/-- Listener `f` was connected when emission `n` started and has not been taken off since. -/
def Cond (f n : Nat) (log : List Ev) : Prop := log.countP (isRem f) < (before n log).countP (isRet f)

/-- Emission `n` has reached listener `f`, or `_slot_relay` did nothing. -/
def Heard (f n : Nat) (log : List Ev) : Prop := Ev.drop n ∈ log ∨ 1 ≤ log.countP (isCall f n)

theorem before_append {n : Nat} {log l : List Ev} (h : ∃ ev ∈ log, isStart n ev = true) : before n (log ++ l) = before n log := by
  unfold before
  induction log with
  | nil => obtain ⟨_, h, _⟩ := h; cases h
  | cons ev log ih =>
    simp only [List.cons_append, List.takeWhile_cons]
    cases hs : isStart n ev with
    | true => simp
    | false =>
      simp only [Bool.not_false, if_true]
      congr 1
      apply ih
      obtain ⟨ev', h1, h2⟩ := h
      rcases List.mem_cons.mp h1 with rfl | h1
      · rw [hs] at h2; cases h2
      · exact ⟨ev', h1, h2⟩

theorem before_none {n : Nat} {log : List Ev} (h : ∀ ev ∈ log, isStart n ev = false) : before n log = log := by
  unfold before
  induction log with
  | nil => rfl
  | cons ev log ih =>
    simp only [List.takeWhile_cons, h ev (by simp), Bool.not_false, if_true]
    rw [ih (fun ev' h' => h ev' (by simp [h']))]

theorem Cond.mono {f n : Nat} {log l : List Ev} (hs : ∃ ev ∈ log, isStart n ev = true) (h : Cond f n (log ++ l)) : Cond f n log := by
  unfold Cond at *
  rw [before_append hs, List.countP_append] at h
  omega

theorem Heard.mono {f n : Nat} {log : List Ev} (l : List Ev) (h : Heard f n log) : Heard f n (log ++ l) := by
  rcases h with h | h
  · exact .inl (List.mem_append_left _ h)
  · exact .inr (by rw [List.countP_append]; omega)

/-! ## How often a listener is connected -/

/-- The listener that has been appended by a `connect` that has not yet returned. -/
def phase : Ctl → Option Nat
  | .ccheck f => some f
  | .clink f _ => some f
  | .crel f => some f
  | _ => none

/-- The list of listeners against what happened. -/
structure Cnt (σ : St) : Prop where
  exact : ∀ f, σ.gslots.count f + σ.log.countP (isRem f) = σ.log.countP (isAdd f)
  rets : ∀ f, σ.log.countP (isRet f) ≤ σ.log.countP (isAdd f)
  phases : ∀ t f, phase (σ.thr t).ctl = some f → σ.log.countP (isRet f) + 1 ≤ σ.log.countP (isAdd f) ∧ f ∈ σ.gslots

/-- Neither `disconnect()` nor the death of a listener so far. -/
def NoClear (log : List Ev) : Prop := ∀ ev ∈ log, isClear ev = false

theorem NoClear.dead {log : List Ev} (h : NoClear log) (t f : Nat) : Ev.offCall t (.dead f) ∉ log :=
  fun h1 => by have := h _ h1; cases this

theorem NoClear.all {log : List Ev} (h : NoClear log) (t : Nat) : Ev.offCall t .all ∉ log :=
  fun h1 => by have := h _ h1; cases this

theorem NoClear.step {e : Env} {t : Nat} {σ σ' : St} (hs : Step e t σ σ') (h : NoClear σ'.log) : NoClear σ.log :=
  fun ev h1 => h ev (mem_log_step hs h1)

theorem phase_held {σ : St} {t f : Nat} (h : phase (σ.thr t).ctl = some f) : 0 < held .grp (σ.thr t) := by
  unfold held
  generalize (σ.thr t).ctl = c at *
  cases c <;> simp [phase, heldC, same] at * <;> omega

theorem cnt_step {e : Env} {t : Nat} {σ σ' : St} (h : Step e t σ σ') (hk : Locks σ) (hc : Called σ) (hn : NoClear σ.log)
    (hl : Cnt σ) : Cnt σ' := by
  -- other threads do not matter if the list does not change
  have hph : ∀ u f, u ≠ t → phase (σ'.thr u).ctl = some f → phase (σ.thr u).ctl = some f := fun u f hu h1 => by
    rw [thr_other h hu] at h1; exact h1
  have keep : ∀ {c : Ctl}, (σ'.thr t).ctl = c → σ'.gslots = σ.gslots →
      (∀ f, σ'.log.countP (isRem f) = σ.log.countP (isRem f)) → (∀ f, σ'.log.countP (isAdd f) = σ.log.countP (isAdd f)) →
      (∀ f, σ'.log.countP (isRet f) = σ.log.countP (isRet f)) → (∀ f, phase c = some f → phase (σ.thr t).ctl = some f) →
      Cnt σ' := by
    intro c h0 h1 h2 h3 h4 h5
    refine ⟨fun f => by rw [h1, h2, h3]; exact hl.exact f, fun f => by rw [h3, h4]; exact hl.rets f, fun u f hu => ?_⟩
    rw [h1, h3, h4]
    refine hl.phases u f ?_
    by_cases hut : u = t
    · subst hut; rw [h0] at hu; exact h5 f hu
    · exact hph u f hut hu
  have hex : ∀ {c : Ctl} {st : List Frame}, σ.thr t = ⟨c, st⟩ → 0 < heldC .grp c → ∀ u f, phase (σ.thr u).ctl = some f → u = t :=
    fun hth hp u f hu => hk.excl (phase_held hu) (by rw [held_thr hth]; omega)
  cases h with
  | @cadd f st hth =>
    refine ⟨fun g => ?_, fun g => ?_, fun u g hu => ?_⟩
    · have := hl.exact g
      by_cases hg : f = g
      · subst hg; simp [List.count_append, List.countP_append, isRem, isAdd]; omega
      · have hg' : ¬ (f == g) = true := by simpa using hg
        simp [List.count_append, List.countP_append, isRem, isAdd, hg]; omega
    · have := hl.rets g
      simp [List.countP_append, isRet, isAdd]; omega
    · by_cases hut : u = t
      · subst hut
        simp [phase] at hu
        subst hu
        have := hl.rets f
        simp [List.countP_append, isRet, isAdd]; omega
      · exact absurd (hex hth (by simp [heldC, same]) u g (hph u g hut hu)) hut
  | @crel f st hth =>
    have hp := (hl.phases t f (by rw [hth]; rfl)).1
    refine ⟨fun g => ?_, fun g => ?_, fun u g hu => ?_⟩
    · have := hl.exact g
      simp [List.countP_append, isRem, isAdd]; omega
    · have := hl.rets g
      by_cases hg : f = g
      · subst hg; simp [List.countP_append, isRet, isAdd]; omega
      · simp [List.countP_append, isRet, isAdd, hg]; omega
    · by_cases hut : u = t
      · subst hut; simp [phase] at hu
      · exact absurd (hex hth (by simp [heldC, same]) u g (hph u g hut hu)) hut
  | @drem o f st hth ho hf =>
    rcases ho with rfl | rfl
    · refine ⟨fun g => ?_, fun g => ?_, fun u g hu => ?_⟩
      · have := hl.exact g
        by_cases hg : f = g
        · subst hg
          have := List.count_pos_iff.mpr hf
          simp [List.countP_append, isRem, isAdd, List.count_erase_self]; omega
        · simp [List.countP_append, isRem, isAdd, hg, List.count_erase_of_ne (Ne.symm hg)]; omega
      · have := hl.rets g
        simp [List.countP_append, isRet, isAdd]; omega
      · by_cases hut : u = t
        · subst hut; simp [phase] at hu
        · exact absurd (hex hth (by simp [heldC, same]) u g (hph u g hut hu)) hut
    · exact absurd (hc t _ (by rw [hth]; rfl)) (hn.dead t f)
  | dremAll hth => exact absurd (hc t _ (by rw [hth]; rfl)) (hn.all t)
  | ccheck hth => exact keep rfl rfl (fun _ => rfl) (fun _ => rfl) (fun _ => rfl) (by simp [phase, hth])
  | ccheckNo hth => exact keep rfl rfl (fun _ => rfl) (fun _ => rfl) (fun _ => rfl) (by simp [phase, hth])
  | clinkEnd hth => exact keep rfl rfl (fun _ => rfl) (fun _ => rfl) (fun _ => rfl) (by simp [phase, hth])
  | clink hth => exact keep rfl rfl (fun _ => rfl) (fun _ => rfl) (fun _ => rfl) (by simp [phase, hth])
  | _ hth =>
    refine keep rfl rfl (fun f => ?_) (fun f => ?_) (fun f => ?_) (by simp [phase]) <;>
      simp [List.countP_append, isRem, isAdd, isRet]

theorem cnt_init (e : Env) (prog : Nat → Code) : Cnt (init e prog) where
  exact f := by simp [init]
  rets f := by simp [init]
  phases t f h := by simp [init, phase] at h

/-- As long as a listener is connected, so is the group. -/
theorem linked_of {e : Env} {σ : St} (hc : Called σ) (hn : NoClear σ.log) (hl : Link e σ) (hcnt : Cnt σ) {f : Nat}
    (hf : σ.log.countP (isRem f) < σ.log.countP (isRet f)) : f ∈ σ.gslots ∧ ∀ m ∈ e.members, Slot.relay ∈ σ.slots m := by
  have hmem : 0 < σ.gslots.count f := by have := hcnt.exact f; have := hcnt.rets f; omega
  have hmem' := List.count_pos_iff.mp hmem
  refine ⟨hmem', fun m hm => ?_⟩
  have hcl : ∀ m, ¬ Cleared e σ m := by
    intro m ⟨u, hu⟩
    have : offOf (σ.thr u).ctl = some .all := by
      generalize (σ.thr u).ctl = c at *
      cases c with
      | dfrom o ms => cases o <;> simp [clearing, offOf] at *
      | dwait o => cases o <;> simp [clearing, offOf] at *
      | drem o => cases o <;> simp [clearing, offOf] at *
      | _ => exact hu.elim
    exact hn.all u (hc u _ this)
  have hL : Linked e σ → Slot.relay ∈ σ.slots m := fun h => (h m hm).resolve_right (hcl m)
  have hlong : ∀ u g, phase (σ.thr u).ctl = some g → σ.gslots.length ≠ 1 := by
    intro u g hg h1
    obtain ⟨h2, h3⟩ := hcnt.phases u g hg
    obtain ⟨y, hy⟩ := List.length_eq_one_iff.mp h1
    rw [hy] at hmem' h3
    simp at hmem' h3
    rw [h3, ← hmem'] at h2
    have h4 := hcnt.exact f
    rw [hy, ← hmem'] at h4
    simp at h4
    omega
  by_cases hi : ∀ u, mid (σ.thr u).ctl = false
  · exact hL ((hl.idle hi).2 (List.ne_nil_of_mem hmem'))
  · obtain ⟨u, hu⟩ := Classical.not_forall.mp hi
    have h1 := hl.mids u
    have h2 := hlong u
    generalize (σ.thr u).ctl = c at *
    cases c with
    | ccheck g => exact hL (h1.2.2 (h2 g rfl))
    | clink g ms => exact absurd h1.1 (h2 g rfl)
    | dcheck o => exact hL (h1 (List.ne_nil_of_mem hmem'))
    | dlink o ms => rw [h1.1] at hmem'; cases hmem'
    | _ => exact absurd rfl hu

/-! ## Callbacks that do not connect or disconnect -/

/-- Code that connects and disconnects nothing. -/
def Plain : Code → Prop
  | .ret => True
  | .look k => ∀ l, Plain (k l)
  | .emit _ _ k => Plain k
  | .conn _ _ => False
  | .off _ _ => False
  | .mine _ _ _ _ => False

/-- Callbacks and listeners connect and disconnect nothing. -/
def PlainEnv (e : Env) : Prop := (∀ x s a, Plain (e.body x s a)) ∧ ∀ f src a, Plain (e.gbody f src a)

/-- Is there an emission on the stack? -/
def busy : List Frame → Bool
  | [] => false
  | .cont _ :: st => busy st
  | _ :: _ => true

/-- What the thread does next connects and disconnects nothing. -/
def CtlPlain : Ctl → Prop
  | .run c => Plain c
  | .cwait _ | .cadd _ | .ccheck _ | .clink _ _ | .crel _ => False
  | .dfrom _ _ | .dwait _ | .drem _ | .dcheck _ | .dlink _ _ | .dend _ => False
  | _ => True

/-- Code waiting on the stack within an emission connects and disconnects nothing. -/
def StackPlain : List Frame → Prop
  | [] => True
  | .cont k :: st => (busy st = true → Plain k) ∧ StackPlain st
  | _ :: st => StackPlain st

/-- Within emissions nothing is connected or disconnected. -/
def TopOk (th : Thread) : Prop := (busy th.stack = true → CtlPlain th.ctl) ∧ StackPlain th.stack

theorem top_step {e : Env} (he : PlainEnv e) {t : Nat} {σ σ' : St} (h : Step e t σ σ') (ht : ∀ u, TopOk (σ.thr u)) :
    ∀ u, TopOk (σ'.thr u) := by
  intro u
  by_cases hu : u = t
  · subst hu
    have hk := ht u
    cases h with
    | nextOwn hth => rw [hth] at hk; simp only [to_thr, set_same]; exact ⟨fun _ => he.1 _ _ _, hk.2⟩
    | gnext hth => rw [hth] at hk; simp only [to_thr, set_same]; exact ⟨fun _ => he.2 _ _ _, hk.2⟩
    | finCont hth => rw [hth] at hk; simp only [to_thr, set_same]; exact hk.2
    | look hth => rw [hth] at hk; simp only [to_thr, set_same]; exact ⟨fun hb => hk.1 hb _, hk.2⟩
    | _ hth =>
      rw [hth] at hk
      simp only [TopOk, CtlPlain, Plain, StackPlain, busy, to_thr, set_same] at hk ⊢
      first
        | exact hk
        | exact ⟨fun _ => trivial, hk.2⟩
        | exact ⟨fun _ => trivial, hk.1, hk.2⟩
        | exact ⟨hk.1, hk.1, hk.2⟩
        | simp_all
  · rw [thr_other h hu]; exact ht u

/-- Steps that may change a list of slots. -/
def edits : Ctl → Bool
  | .run (.mine _ _ _ _) => true
  | .cadd _ => true
  | .clink _ _ => true
  | .dfrom _ _ => true
  | .drem _ => true
  | .dlink _ _ => true
  | _ => false

theorem edits_plain {c : Ctl} (h : edits c = true) : ¬ CtlPlain c := by
  cases c with
  | run c => cases c <;> simp [edits, CtlPlain, Plain] at *
  | _ => simp [edits, CtlPlain] at *

theorem no_edit {e : Env} {t : Nat} {σ σ' : St} (h : Step e t σ σ') (hn : edits (σ.thr t).ctl = false) :
    σ'.slots = σ.slots ∧ σ'.gslots = σ.gslots := by
  cases h <;> first
    | exact ⟨rfl, rfl⟩
    | (rename_i hth _; rw [hth] at hn; simp [edits] at hn; done)
    | (rename_i hth _ _; rw [hth] at hn; simp [edits] at hn; done)
    | (rename_i hth; rw [hth] at hn; simp [edits] at hn; done)

/-- The slots of a signal do not change while another thread holds its lock. -/
theorem slots_held {e : Env} {t : Nat} {σ σ' : St} (h : Step e t σ σ') (hk : Locks σ) {s u : Nat} (hu : u ≠ t)
    (hs : 0 < held (.sig s) (σ.thr u)) : σ'.slots s = σ.slots s := by
  have key : ∀ {m : Nat} {l : List Slot}, free t (σ.locks (.sig m)) = true → set σ.slots m l s = σ.slots s := by
    intro m l hf
    by_cases hm : s = m
    · subst hm; exact absurd (hk.free hf hs) hu
    · exact set_other hm
  cases h with
  | mine _ hf => exact key hf
  | clink _ hf => exact key hf
  | dfrom _ hf => exact key hf
  | dlink _ hf => exact key hf
  | _ => rfl

/-- The listeners of the group do not change while another thread holds its lock. -/
theorem gslots_held {e : Env} {t : Nat} {σ σ' : St} (h : Step e t σ σ') (hk : Locks σ) (hc : Called σ)
    (hd : ∀ t f, Ev.offCall t (.dead f) ∉ σ.log) {u : Nat} (hu : u ≠ t) (hs : 0 < held .grp (σ.thr u)) :
    σ'.gslots = σ.gslots := by
  have key : ∀ {c : Ctl} {st : List Frame}, σ.thr t = ⟨c, st⟩ → 0 < heldC .grp c → False :=
    fun hth hp => hu (hk.excl hs (by rw [held_thr hth]; omega))
  cases h with
  | cadd hth => exact (key hth (by simp [heldC, same])).elim
  | drem hth ho =>
    rcases ho with rfl | rfl
    · exact (key hth (by simp [heldC, same])).elim
    · exact absurd (hc t _ (by rw [hth]; rfl)) (hd t _)
  | dremAll hth => exact (key hth (by simp [heldC, same])).elim
  | _ => rfl

/-! ## Emissions in progress -/

/-- How far an emission is: before its loop, in its loop, in `_slot_relay` before the group's lock, in the loop of the
group, after it, at its end. -/
inductive Item
  | pre (s a n : Nat)
  | loop (l : Loop)
  | ask (l : Loop)
  | gl (l : Loop) (i : Nat)
  | back (l : Loop)
  | done (l : Loop)

/-- The signal. -/
def Item.s : Item → Nat
  | .pre s _ _ => s
  | .loop l | .ask l | .gl l _ | .back l | .done l => l.s

/-- The number of the emission. -/
def Item.n : Item → Nat
  | .pre _ _ n => n
  | .loop l | .ask l | .gl l _ | .back l | .done l => l.n

/-- The argument of the emission. -/
def Item.a : Item → Nat
  | .pre _ a _ => a
  | .loop l | .ask l | .gl l _ | .back l | .done l => l.a

/-- The emission what the thread does next belongs to. -/
def ctlItem : Ctl → Option Item
  | .prev s a n => some (.pre s a n)
  | .setCur s a n _ => some (.pre s a n)
  | .next l => some (.loop l)
  | .asks l => some (.ask l)
  | .gwait l _ => some (.ask l)
  | .gprev l _ => some (.ask l)
  | .gset l _ _ => some (.ask l)
  | .gnext l _ _ i => some (.gl l i)
  | .grest l _ => some (.back l)
  | .grel l => some (.back l)
  | .rest l => some (.done l)
  | .rel l => some (.done l)
  | _ => none

/-- The emission that waits in a frame. -/
def frameItem : Frame → Option Item
  | .cont _ => none
  | .loop l => some (.loop l)
  | .gloop l _ _ i => some (.gl l i)

/-- The emissions a thread is in, innermost first. -/
def items (th : Thread) : List Item := (ctlItem th.ctl).toList ++ th.stack.filterMap frameItem

/-- Emission `n` is under way: it has started, and if a listener is connected, the signal has the relay. -/
def Pre (e : Env) (σ : St) (t s a n : Nat) : Prop :=
  Ev.start n t s a ∈ σ.log ∧ (s ∈ e.members → ∀ f, Cond f n σ.log → Slot.relay ∈ σ.slots s)

/-- Calls of listener `f` in emission `n`. -/
def calls (f n : Nat) (log : List Ev) : Nat := log.countP (isCall f n)

/-- The group is done with emission `n`. -/
def Past (σ : St) (n : Nat) : Prop := ∀ f, (Cond f n σ.log → Heard f n σ.log) ∧ calls f n σ.log ≤ σ.log.countP (isAdd f)

/-- What is true while an emission is under way. -/
def ItemOk (e : Env) (σ : St) (t : Nat) : Item → Prop
  | .pre s a n => Pre e σ t s a n ∧ ∀ f, calls f n σ.log = 0
  | .loop l => Pre e σ t l.s l.a l.n ∧ (Slot.relay ∉ (σ.slots l.s).take l.j → ∀ f, calls f l.n σ.log = 0)
      ∧ (Slot.relay ∈ (σ.slots l.s).take l.j → Past σ l.n)
  | .ask l => Pre e σ t l.s l.a l.n ∧ Slot.relay ∈ (σ.slots l.s).take l.j ∧ ∀ f, calls f l.n σ.log = 0
  | .gl l i => Pre e σ t l.s l.a l.n ∧ Slot.relay ∈ (σ.slots l.s).take l.j
      ∧ ∀ f, calls f l.n σ.log = (σ.gslots.take i).count f
  | .back l => Pre e σ t l.s l.a l.n ∧ Slot.relay ∈ (σ.slots l.s).take l.j ∧ Past σ l.n
  | .done l => Pre e σ t l.s l.a l.n ∧ (l.s ∈ e.members → ∀ f, Cond f l.n σ.log → Heard f l.n σ.log)
      ∧ ∀ f, calls f l.n σ.log ≤ σ.log.countP (isAdd f)

/-- In the loop of the group. -/
def Item.grp : Item → Bool
  | .gl _ _ => true
  | _ => false

theorem isStart_start (n t s a : Nat) : isStart n (.start n t s a) = true := by simp [isStart]

theorem Pre.keep {e : Env} {σ σ' : St} {t s a n : Nat} {evs : List Ev} (h : Pre e σ t s a n) (hlog : σ'.log = σ.log ++ evs)
    (hs : σ'.slots s = σ.slots s) : Pre e σ' t s a n := by
  refine ⟨by rw [hlog]; exact List.mem_append_left _ h.1, fun hm f hc => ?_⟩
  rw [hs]
  rw [hlog] at hc
  exact h.2 hm f (hc.mono ⟨_, h.1, isStart_start n t s a⟩)

theorem Past.keep {σ σ' : St} {t s a n : Nat} {evs : List Ev} (h : Past σ n) (hst : Ev.start n t s a ∈ σ.log)
    (hlog : σ'.log = σ.log ++ evs) (hcall : ∀ f, evs.countP (isCall f n) = 0) : Past σ' n := by
  intro f
  rw [hlog]
  refine ⟨fun hc => ((h f).1 (hc.mono ⟨_, hst, isStart_start n t s a⟩)).mono _, ?_⟩
  have := (h f).2
  unfold calls at *
  rw [List.countP_append, List.countP_append, hcall f]
  omega

theorem ItemOk.keep {e : Env} {σ σ' : St} {t : Nat} {it : Item} {evs : List Ev} (h : ItemOk e σ t it)
    (hlog : σ'.log = σ.log ++ evs) (hcall : ∀ f, evs.countP (isCall f it.n) = 0) (hs : σ'.slots it.s = σ.slots it.s)
    (hg : it.grp = true → σ'.gslots = σ.gslots) : ItemOk e σ' t it := by
  have hc : ∀ f n, (∀ f, evs.countP (isCall f n) = 0) → calls f n σ'.log = calls f n σ.log := fun f n h1 => by
    unfold calls; rw [hlog, List.countP_append, h1 f]; rfl
  cases it with
  | pre s a n =>
    simp only [Item.s, Item.n] at hs hcall
    exact ⟨h.1.keep hlog hs, fun f => by rw [hc f _ hcall]; exact h.2 f⟩
  | loop l =>
    simp only [Item.s, Item.n] at hs hcall
    simp only [ItemOk, hs]
    exact ⟨h.1.keep hlog hs, fun h1 f => by rw [hc f _ hcall]; exact h.2.1 h1 f, fun h1 => (h.2.2 h1).keep h.1.1 hlog hcall⟩
  | ask l =>
    simp only [Item.s, Item.n] at hs hcall
    simp only [ItemOk, hs]
    exact ⟨h.1.keep hlog hs, h.2.1, fun f => by rw [hc f _ hcall]; exact h.2.2 f⟩
  | gl l i =>
    simp only [Item.s, Item.n] at hs hcall
    simp only [ItemOk, hs, hg rfl]
    exact ⟨h.1.keep hlog hs, h.2.1, fun f => by rw [hc f _ hcall]; exact h.2.2 f⟩
  | back l =>
    simp only [Item.s, Item.n] at hs hcall
    simp only [ItemOk, hs]
    exact ⟨h.1.keep hlog hs, h.2.1, h.2.2.keep h.1.1 hlog hcall⟩
  | done l =>
    simp only [Item.s, Item.n] at hs hcall
    refine ⟨h.1.keep hlog hs, fun hm f h1 => ?_, fun f => ?_⟩
    · rw [hlog] at h1 ⊢
      exact (h.2.1 hm f (h1.mono ⟨_, h.1.1, isStart_start _ _ _ _⟩)).mono _
    · rw [hc f _ hcall, hlog, List.countP_append]
      have := h.2.2 f
      omega

/-- An emission holds the lock of its signal, and that of the group in the group's loop. -/
theorem item_held {th : Thread} {it : Item} (h : it ∈ items th) :
    0 < held (.sig it.s) th ∧ (it.grp = true → 0 < held .grp th) := by
  have hS : ∀ {st : List Frame}, it ∈ st.filterMap frameItem → 0 < heldS (.sig it.s) st ∧ (it.grp = true → 0 < heldS .grp st) := by
    intro st hst
    induction st with
    | nil => cases hst
    | cons f st ih =>
      cases f with
      | cont k => simpa [heldS, heldF] using ih (by simpa [frameItem] using hst)
      | loop l =>
        simp only [List.filterMap_cons, frameItem, List.mem_cons] at hst
        rcases hst with rfl | hst
        · exact ⟨by simp [heldS, heldF, same, Item.s]; omega, by simp [Item.grp]⟩
        · have := ih hst; exact ⟨by simp [heldS]; omega, fun hg => by have := this.2 hg; simp [heldS]; omega⟩
      | gloop l src q i =>
        simp only [List.filterMap_cons, frameItem, List.mem_cons] at hst
        rcases hst with rfl | hst
        · exact ⟨by simp [heldS, heldF, same, Item.s]; omega, by simp [heldS, heldF, same]; omega⟩
        · have := ih hst; exact ⟨by simp [heldS]; omega, fun hg => by have := this.2 hg; simp [heldS]; omega⟩
  obtain ⟨c, st⟩ := th
  unfold items at h
  rcases List.mem_append.mp h with h | h
  · unfold held
    cases c <;> simp [ctlItem] at h <;> subst h <;> simp [Item.s, Item.grp, heldC, same] <;> omega
  · have := hS (st := st) h
    unfold held
    exact ⟨by simp only; omega, fun hg => by have := this.2 hg; simp only; omega⟩

theorem items_busy {st : List Frame} (h : busy st = false) : st.filterMap frameItem = [] := by
  induction st with
  | nil => rfl
  | cons f st ih => cases f <;> simp [busy, frameItem] at * ; exact ih h

@[simp] theorem fm_cont (k : Code) (st : List Frame) : (Frame.cont k :: st).filterMap frameItem = st.filterMap frameItem := rfl
@[simp] theorem fm_loop (l : Loop) (st : List Frame) :
    (Frame.loop l :: st).filterMap frameItem = .loop l :: st.filterMap frameItem := rfl
@[simp] theorem fm_gloop (l : Loop) (src : Sig) (q : Option Sig) (i : Nat) (st : List Frame) :
    (Frame.gloop l src q i :: st).filterMap frameItem = .gl l i :: st.filterMap frameItem := rfl

/-- Emissions have numbers, in the order in which they start; a thread is in emissions it has started. -/
structure Num (σ : St) : Prop where
  lt : ∀ n t s a, Ev.start n t s a ∈ σ.log → n < σ.n
  uniq : ∀ n t s a t' s' a', Ev.start n t s a ∈ σ.log → Ev.start n t' s' a' ∈ σ.log → t = t' ∧ s = s' ∧ a = a'
  desc : ∀ t, (items (σ.thr t)).Pairwise (fun x y => y.n < x.n)
  mine : ∀ t, ∀ it ∈ items (σ.thr t), Ev.start it.n t it.s it.a ∈ σ.log
  called : ∀ t f src a n, Ev.call t f src a n ∈ σ.log → ∃ s, Ev.start n t s a ∈ σ.log
  dropped : ∀ n, Ev.drop n ∈ σ.log → ∃ t s a, Ev.start n t s a ∈ σ.log
  finished : ∀ n, Ev.finish n ∈ σ.log → ∃ t s a, Ev.start n t s a ∈ σ.log

/-- Number, signal and argument of an emission. -/
def Item.key (it : Item) : Nat × Nat × Nat := (it.n, it.s, it.a)

theorem num_step {e : Env} {t : Nat} {σ σ' : St} (h : Step e t σ σ') (hn : Num σ) : Num σ' := by
  have keep : (∀ n u s a, Ev.start n u s a ∈ σ'.log → Ev.start n u s a ∈ σ.log) → σ'.n = σ.n →
      ((items (σ'.thr t)).map Item.key).Sublist ((items (σ.thr t)).map Item.key) →
      (∀ u f src a n, Ev.call u f src a n ∈ σ'.log → Ev.call u f src a n ∈ σ.log ∨ ∃ s, Ev.start n u s a ∈ σ.log) →
      (∀ n, Ev.drop n ∈ σ'.log → Ev.drop n ∈ σ.log ∨ ∃ u s a, Ev.start n u s a ∈ σ.log) →
      (∀ n, Ev.finish n ∈ σ'.log → Ev.finish n ∈ σ.log ∨ ∃ u s a, Ev.start n u s a ∈ σ.log) → Num σ' := by
    intro h1 h2 h3 h4 h5 h6
    refine ⟨fun n u s a hs => by rw [h2]; exact hn.lt n u s a (h1 _ _ _ _ hs),
      fun n u s a u' s' a' hs hs' => hn.uniq n u s a u' s' a' (h1 _ _ _ _ hs) (h1 _ _ _ _ hs'), fun u => ?_, fun u it hit => ?_,
      fun u f src a n hc => ?_, fun n hc => ?_, fun n hc => ?_⟩
    · by_cases hu : u = t
      · subst hu
        have h3' := h3.map Prod.fst
        simp only [List.map_map] at h3'
        have := List.Pairwise.sublist h3' (List.pairwise_map (R := fun x y => y < x) |>.mpr (hn.desc u))
        exact List.pairwise_map.mp this
      · rw [thr_other h hu]; exact hn.desc u
    · by_cases hu : u = t
      · subst hu
        have := h3.subset (List.mem_map_of_mem hit)
        obtain ⟨it', h4, h5⟩ := List.mem_map.mp this
        have h6 := hn.mine u it' h4
        simp only [Item.key, Prod.mk.injEq] at h5
        rw [h5.1, h5.2.1, h5.2.2] at h6
        exact mem_log_step h h6
      · rw [thr_other h hu] at hit
        exact mem_log_step h (hn.mine u it hit)
    · have : ∃ s, Ev.start n u s a ∈ σ.log := (h4 u f src a n hc).elim (hn.called u f src a n) id
      exact this.imp fun s hs => mem_log_step h hs
    · obtain ⟨u, s, a, h7⟩ := (h5 n hc).elim (hn.dropped n) id
      exact ⟨u, s, a, mem_log_step h h7⟩
    · obtain ⟨u, s, a, h7⟩ := (h6 n hc).elim (hn.finished n) id
      exact ⟨u, s, a, mem_log_step h h7⟩
  have head : ∀ {c : Ctl} {st : List Frame} {it : Item}, σ.thr t = ⟨c, st⟩ → ctlItem c = some it →
      Ev.start it.n t it.s it.a ∈ σ.log := by
    intro c st it h1 h2
    exact hn.mine t it (by rw [h1]; simp [items, h2])
  have h0 := h
  cases h with
  | @wait s a st k hth hl =>
    have hit : items (σ.thr t) = st.filterMap frameItem := by rw [hth]; rfl
    refine ⟨fun n u s' a' hs => ?_, fun n u s' a' u' s'' a'' hs hs' => ?_, fun u => ?_, fun u it hit' => ?_,
      fun u f src a n hc => ?_, fun n hc => ?_, fun n hc => ?_⟩
    · simp only [to_log, note_log, lk_log, List.mem_append, List.mem_singleton, Ev.start.injEq] at hs
      simp only [to_n]
      rcases hs with hs | hs
      · have := hn.lt n u s' a' hs; omega
      · omega
    · simp only [to_log, note_log, lk_log, List.mem_append, List.mem_singleton, Ev.start.injEq] at hs hs'
      rcases hs with hs | hs <;> rcases hs' with hs' | hs'
      · exact hn.uniq n u s' a' u' s'' a'' hs hs'
      · have := hn.lt n u s' a' hs; omega
      · have := hn.lt n u' s'' a'' hs'; omega
      · exact ⟨hs.2.1.trans hs'.2.1.symm, hs.2.2.1.trans hs'.2.2.1.symm, hs.2.2.2.trans hs'.2.2.2.symm⟩
    · by_cases hu : u = t
      · subst hu
        simp only [to_thr, set_same, items, ctlItem, Option.toList, List.singleton_append]
        rw [← hit]
        refine List.pairwise_cons.mpr ⟨fun it hit' => ?_, hn.desc u⟩
        exact hn.lt _ _ _ _ (hn.mine u it hit')
      · rw [thr_other h0 hu]; exact hn.desc u
    · by_cases hu : u = t
      · subst hu
        simp only [to_thr, set_same, items, ctlItem, Option.toList, List.singleton_append] at hit'
        rw [← hit] at hit'
        rcases List.mem_cons.mp hit' with rfl | h1
        · simp [Item.n, Item.s, Item.a]
        · exact mem_log_step h0 (hn.mine u it h1)
      · rw [thr_other h0 hu] at hit'
        exact mem_log_step h0 (hn.mine u it hit')
    · exact (hn.called u f src a n (by simpa using hc)).imp fun s hs => mem_log_step h0 hs
    · obtain ⟨u, s, a, h7⟩ := hn.dropped n (by simpa using hc)
      exact ⟨u, s, a, mem_log_step h0 h7⟩
    · obtain ⟨u, s, a, h7⟩ := hn.finished n (by simpa using hc)
      exact ⟨u, s, a, mem_log_step h0 h7⟩
  | @gnext l src q i st f hth hi =>
    refine keep (fun n u s a hs => by simpa using hs) rfl (by rw [hth]; simp [items, ctlItem, Item.key, Item.n, Item.s, Item.a])
      (fun u g src' a n hc => ?_) (fun n hc => .inl (by simpa using hc)) (fun n hc => .inl (by simpa using hc))
    simp only [to_log, note_log, List.mem_append, List.mem_singleton, Ev.call.injEq] at hc
    rcases hc with hc | ⟨rfl, rfl, rfl, rfl, rfl⟩
    · exact .inl hc
    · exact .inr ⟨l.s, head hth rfl⟩
  | @drop l st hth hc =>
    refine keep (fun n u s a hs => by simpa using hs) rfl (by rw [hth]; simp [items, ctlItem, Item.key, Item.n, Item.s, Item.a])
      (fun u g src' a n hc => .inl (by simpa using hc)) (fun n hc => ?_) (fun n hc => .inl (by simpa using hc))
    simp only [to_log, note_log, List.mem_append, List.mem_singleton, Ev.drop.injEq] at hc
    rcases hc with hc | rfl
    · exact .inl hc
    · exact .inr ⟨t, l.s, l.a, head hth rfl⟩
  | @rel l st hth =>
    refine keep (fun n u s a hs => by simpa using hs) rfl (by rw [hth]; simp [items, ctlItem])
      (fun u g src' a n hc => .inl (by simpa using hc)) (fun n hc => .inl (by simpa using hc)) (fun n hc => ?_)
    simp only [to_log, note_log, List.mem_append, List.mem_singleton, Ev.finish.injEq] at hc
    rcases hc with hc | rfl
    · exact .inl hc
    · exact .inr ⟨t, l.s, l.a, head hth rfl⟩
  | _ hth =>
    refine keep ?_ rfl ?_ (fun u g src' a n hc => .inl (by simpa using hc)) (fun n hc => .inl (by simpa using hc))
      (fun n hc => .inl (by simpa using hc))
    · intro n u s a hs; simpa using hs
    · rw [hth]; simp [items, ctlItem, Item.key, Item.n, Item.s, Item.a]

theorem num_init (e : Env) (prog : Nat → Code) : Num (init e prog) where
  lt n t s a h := by cases h
  uniq n t s a t' s' a' h := by cases h
  desc t := by simp [init, items, ctlItem]
  mine t it h := by simp [init, items, ctlItem] at h
  called t f src a n h := by cases h
  dropped n h := by cases h
  finished n h := by cases h

/-- All emissions under way are as they should be, unless the group has been cleared. -/
structure Hear (e : Env) (σ : St) : Prop where
  base : Base e σ
  num : Num σ
  top : ∀ t, TopOk (σ.thr t)
  cnt : NoClear σ.log → Cnt σ
  ok : NoClear σ.log → ∀ t, ∀ it ∈ items (σ.thr t), ItemOk e σ t it

theorem take_succ_mem {l : List Slot} {j : Nat} {x : Slot} (h : l[j]? = some x) :
    Slot.relay ∈ l.take (j + 1) ↔ Slot.relay ∈ l.take j ∨ x = .relay := by
  rw [List.take_add_one, h]
  simp [eq_comm]

theorem take_length_le {l : List Slot} {j : Nat} (h : l[j]? = none) : l.take j = l :=
  List.take_of_length_le (List.getElem?_eq_none_iff.mp h)

theorem hear_step {e : Env} (he : PlainEnv e) {t : Nat} {σ σ' : St} (h : Step e t σ σ') (hh : Hear e σ) : Hear e σ' := by
  refine ⟨base_step h hh.base, num_step h hh.num, top_step he h hh.top,
    fun hn => cnt_step h hh.base.locks hh.base.called (hn.step h) (hh.cnt (hn.step h)), fun hn' => ?_⟩
  have hn := hn'.step h
  have hok := hh.ok hn
  have hlk := hh.base.link hn.dead
  have hcnt := hh.cnt hn
  obtain ⟨evs, hevs⟩ := log_step h
  -- emissions that are not touched
  have other : ∀ u, u ≠ t → ∀ it ∈ items (σ.thr u), (∀ f, evs.countP (isCall f it.n) = 0) → ItemOk e σ' u it := by
    intro u hu it hit hcall
    have hd := item_held hit
    exact (hok u it hit).keep hevs hcall (slots_held h hh.base.locks hu hd.1)
      (fun hg => gslots_held h hh.base.locks hh.base.called hn.dead hu (hd.2 hg))
  have own : edits (σ.thr t).ctl = false → ∀ it ∈ items (σ.thr t), (∀ f, evs.countP (isCall f it.n) = 0) → ItemOk e σ' t it := by
    intro hed it hit hcall
    have := no_edit h hed
    exact (hok t it hit).keep hevs hcall (by rw [this.1]) (fun _ => this.2)
  have idle : edits (σ.thr t).ctl = true → items (σ.thr t) = [] := by
    intro hed
    have hb : busy (σ.thr t).stack = false := by
      cases hb : busy (σ.thr t).stack with
      | false => rfl
      | true => exact absurd ((hh.top t).1 hb) (edits_plain hed)
    unfold items
    rw [items_busy hb]
    generalize (σ.thr t).ctl = c at hed
    cases c <;> simp [edits, ctlItem] at *
  have zero : (∀ f n, σ'.log.countP (isCall f n) = σ.log.countP (isCall f n)) → ∀ f n, evs.countP (isCall f n) = 0 := by
    intro h1 f n
    have := h1 f n
    rw [hevs, List.countP_append] at this
    omega
  have quiet : (∀ f n, σ'.log.countP (isCall f n) = σ.log.countP (isCall f n)) →
      (∀ it ∈ items (σ'.thr t), (edits (σ.thr t).ctl = false ∧ it ∈ items (σ.thr t)) ∨ ItemOk e σ' t it) →
      ∀ u, ∀ it ∈ items (σ'.thr u), ItemOk e σ' u it := by
    intro h1 h2 u it hit
    by_cases hu : u = t
    · subst hu
      rcases h2 it hit with h3 | h3
      · exact own h3.1 it h3.2 (fun f => zero h1 f _)
      · exact h3
    · rw [thr_other h hu] at hit
      exact other u hu it hit (fun f => zero h1 f _)
  have head : ∀ {c : Ctl} {st : List Frame} {it : Item}, σ.thr t = ⟨c, st⟩ → ctlItem c = some it → it ∈ items (σ.thr t) := by
    intro c st it h1 h2
    rw [h1]; simp [items, h2]
  have tail : ∀ {c : Ctl} {st : List Frame} {it : Item}, σ.thr t = ⟨c, st⟩ → it ∈ st.filterMap frameItem →
      it ∈ items (σ.thr t) := by
    intro c st it h1 h2
    rw [h1]; simp only [items]; exact List.mem_append_right _ h2
  have h0 := h
  cases h with
  | @wait s a st k hth hl =>
    refine quiet (fun f n => by simp [List.countP_append, isCall]) (fun it hit => ?_)
    simp only [to_thr, set_same, items, ctlItem, Option.toList, List.singleton_append, List.mem_cons] at hit
    rcases hit with rfl | hit
    · right
      have hfresh : ∀ ev ∈ σ.log, isStart σ.n ev = false := by
        intro ev hev
        cases ev <;> simp [isStart]
        have := hh.num.lt _ _ _ _ hev
        omega
      refine ⟨⟨by simp, fun hm f hc => ?_⟩, fun f => ?_⟩
      · have hb : before σ.n (σ.log ++ [Ev.start σ.n t s a]) = σ.log := by
          unfold before
          rw [List.takeWhile_append_of_pos (fun ev hev => by simp [hfresh ev hev])]
          simp [isStart]
        simp only [Cond, to_log, note_log, lk_log, hb, List.countP_append] at hc
        simp [isRem] at hc
        exact (linked_of hh.base.called hn hlk hcnt hc).2 s hm
      · refine List.countP_eq_zero.mpr (fun ev hev hc => ?_)
        simp only [to_log, note_log, lk_log, List.mem_append, List.mem_singleton] at hev
        rcases hev with hev | rfl
        · cases ev <;> simp [isCall] at hc
          obtain ⟨s', h1⟩ := hh.num.called _ _ _ _ _ hev
          have := hh.num.lt _ _ _ _ h1
          omega
        · simp [isCall] at hc
    · exact .inl ⟨by rw [hth]; rfl, tail hth hit⟩
  | @setCur s a n p st hth =>
    refine quiet (fun f n => by simp) (fun it hit => ?_)
    simp only [to_thr, set_same, items, ctlItem, Option.toList, List.singleton_append, List.mem_cons] at hit
    rcases hit with rfl | hit
    · right
      have hk := hok t _ (head hth rfl)
      exact ⟨hk.1, fun _ => hk.2, fun h1 => by simp at h1⟩
    · exact .inl ⟨by rw [hth]; rfl, tail hth hit⟩
  | @nextEnd l st hth hj =>
    refine quiet (fun f n => by simp) (fun it hit => ?_)
    simp only [to_thr, set_same, items, ctlItem, Option.toList, List.singleton_append, List.mem_cons] at hit
    rcases hit with rfl | hit
    · right
      have hk := hok t _ (head hth rfl)
      simp only [ItemOk, take_length_le hj] at hk
      refine ⟨hk.1, fun hm f hc => (hk.2.2 (hk.1.2 hm f hc) f).1 hc, fun f => ?_⟩
      by_cases hr : Slot.relay ∈ σ.slots l.s
      · exact (hk.2.2 hr f).2
      · have := hk.2.1 hr f
        simp only [to_log]; omega
    · exact .inl ⟨by rw [hth]; rfl, tail hth hit⟩
  | @nextOwn l st x hth hj =>
    refine quiet (fun f n => by simp [List.countP_append, isCall]) (fun it hit => ?_)
    simp only [to_thr, set_same, items, ctlItem, Option.toList, List.nil_append, fm_loop, List.mem_cons] at hit
    rcases hit with rfl | hit
    · right
      have hk := (hok t _ (head hth rfl)).keep hevs
        (fun f => zero (fun f n => by simp [List.countP_append, isCall]) f _) rfl (fun _ => rfl)
      have h2 : ∀ y, y ∈ (σ.slots l.s).take (l.j + 1) ∧ y = .relay → Slot.relay ∈ (σ.slots l.s).take l.j := by
        rintro y ⟨h1, rfl⟩
        exact ((take_succ_mem hj).mp h1).resolve_right (by simp)
      refine ⟨hk.1, fun h1 => hk.2.1 (fun h3 => h1 ((take_succ_mem hj).mpr (.inl h3))), fun h1 => hk.2.2 (h2 _ ⟨h1, rfl⟩)⟩
    · exact .inl ⟨by rw [hth]; rfl, tail hth hit⟩
  | @nextRelay l st hth hj =>
    refine quiet (fun f n => by simp) (fun it hit => ?_)
    simp only [to_thr, set_same, items, ctlItem, Option.toList, List.singleton_append, List.mem_cons] at hit
    rcases hit with rfl | hit
    · right
      have hk := hok t _ (head hth rfl)
      refine ⟨hk.1, (take_succ_mem hj).mpr (.inr rfl), hk.2.1 (fun h1 => ?_)⟩
      have h2 := hlk.once l.s
      have h3 : (σ.slots l.s).count .relay = ((σ.slots l.s).take l.j).count .relay + ((σ.slots l.s).drop l.j).count .relay := by
        rw [← List.count_append, List.take_append_drop]
      have h4 := List.count_pos_iff.mpr h1
      have h5 : Slot.relay ∈ (σ.slots l.s).drop l.j := by
        refine List.mem_of_getElem? (i := 0) ?_
        rw [List.getElem?_drop]; exact hj
      have h6 := List.count_pos_iff.mpr h5
      omega
    · exact .inl ⟨by rw [hth]; rfl, tail hth hit⟩
  | @drop l st hth hc =>
    refine quiet (fun f n => by simp [List.countP_append, isCall]) (fun it hit => ?_)
    simp only [to_thr, set_same, items, ctlItem, Option.toList, List.singleton_append, List.mem_cons] at hit
    rcases hit with rfl | hit
    · right
      have hk := (hok t _ (head hth rfl)).keep hevs
        (fun f => zero (fun f n => by simp [List.countP_append, isCall]) f _) rfl (fun _ => rfl)
      refine ⟨hk.1, fun h1 => absurd hk.2.1 h1, fun _ f => ⟨fun _ => .inl (by simp), ?_⟩⟩
      rw [hk.2.2 f]; exact Nat.zero_le _
    · exact .inl ⟨by rw [hth]; rfl, tail hth hit⟩
  | @gset l src q st hth =>
    refine quiet (fun f n => by simp) (fun it hit => ?_)
    simp only [to_thr, set_same, items, ctlItem, Option.toList, List.singleton_append, List.mem_cons] at hit
    rcases hit with rfl | hit
    · right
      have hk := hok t _ (head hth rfl)
      exact ⟨hk.1, hk.2.1, fun f => by simpa using hk.2.2 f⟩
    · exact .inl ⟨by rw [hth]; rfl, tail hth hit⟩
  | @gnextEnd l src q i st hth hi =>
    refine quiet (fun f n => by simp) (fun it hit => ?_)
    simp only [to_thr, set_same, items, ctlItem, Option.toList, List.singleton_append, List.mem_cons] at hit
    rcases hit with rfl | hit
    · right
      have hk := hok t _ (head hth rfl)
      simp only [ItemOk, List.take_of_length_le (List.getElem?_eq_none_iff.mp hi)] at hk
      refine ⟨hk.1, hk.2.1, fun f => ⟨fun hc => .inr ?_, ?_⟩⟩
      · have h1 : σ.log.countP (isRem f) < σ.log.countP (isRet f) := by
          refine Nat.lt_of_lt_of_le hc ?_
          exact (List.takeWhile_sublist _).countP_le
        have h2 := List.count_pos_iff.mpr (linked_of hh.base.called hn hlk hcnt h1).1
        have h3 := hk.2.2 f
        simp only [calls] at h3
        simp only [to_log]
        omega
      · have h3 := hk.2.2 f
        have h4 := hcnt.exact f
        simp only [to_log]
        omega
    · exact .inl ⟨by rw [hth]; rfl, tail hth hit⟩
  | @grel l st hth =>
    refine quiet (fun f n => by simp) (fun it hit => ?_)
    simp only [to_thr, set_same, items, ctlItem, Option.toList, List.singleton_append, List.mem_cons] at hit
    rcases hit with rfl | hit
    · right
      have hk := hok t _ (head hth rfl)
      exact ⟨hk.1, fun h1 => absurd hk.2.1 h1, fun _ => hk.2.2⟩
    · exact .inl ⟨by rw [hth]; rfl, tail hth hit⟩
  | @gnext l src q i st f hth hi =>
    have hev : evs = [.call t f src l.a l.n] := (List.append_cancel_left hevs).symm
    have hz : ∀ n, n ≠ l.n → ∀ g, evs.countP (isCall g n) = 0 := by
      intro n hne g
      rw [hev]
      simp [isCall, Ne.symm hne]
    have hhead : Item.gl l i ∈ items (σ.thr t) := head hth rfl
    intro u it hit
    by_cases hu : u = t
    · subst hu
      simp only [to_thr, set_same, items, ctlItem, Option.toList, List.nil_append, fm_gloop, List.mem_cons] at hit
      rcases hit with rfl | hit
      · have hk := hok u _ hhead
        refine ⟨hk.1.keep hevs rfl, hk.2.1, fun g => ?_⟩
        have h3 := hk.2.2 g
        simp only [calls] at h3 ⊢
        simp only [to_log, note_log, List.countP_append, to_gslots, note_gslots, List.take_add_one, hi, List.count_append, h3]
        by_cases hg : f = g
        · subst hg; simp [isCall]
        · simp [isCall, hg]
      · refine own (by rw [hth]; rfl) it (tail hth hit) (hz _ ?_)
        have := hh.num.desc u
        rw [hth] at this
        have := (List.pairwise_cons.mp this).1 it hit
        simp only [Item.n] at this ⊢
        omega
    · rw [thr_other h0 hu] at hit
      refine other u hu it hit (hz _ (fun hne => hu ?_))
      have h1 := hh.num.mine u it hit
      have h2 := hh.num.mine t _ hhead
      rw [hne] at h1
      exact (hh.num.uniq _ _ _ _ _ _ _ h1 h2).1
  | rel hth =>
    refine quiet (fun f n => by simp [List.countP_append, isCall]) (fun it hit => ?_)
    simp only [to_thr, set_same, items, ctlItem, Option.toList, List.nil_append] at hit
    exact .inl ⟨by rw [hth]; rfl, tail hth hit⟩
  | _ hth =>
    refine quiet (fun f n => by simp [List.countP_append, isCall]) (fun it hit => ?_)
    simp only [to_thr, set_same, items, ctlItem, Option.toList, List.singleton_append, List.nil_append, fm_cont] at hit
    by_cases hed : edits (σ.thr t).ctl = true
    · have := idle hed
      rw [hth] at this
      simp only [items, ctlItem, Option.toList, List.nil_append, List.singleton_append, fm_cont, fm_loop, fm_gloop] at this
      rw [this] at hit
      cases hit
    · have hed' : edits (σ.thr t).ctl = false := by simpa using hed
      refine .inl ⟨hed', ?_⟩
      rw [hth]
      simpa [items, ctlItem] using hit

theorem hear_init {e : Env} (hf : Fresh e) (prog : Nat → Code) : Hear e (init e prog) where
  base := base_init hf prog
  num := num_init e prog
  top t := by simp [init, TopOk, busy, StackPlain]
  cnt _ := cnt_init e prog
  ok _ t it h := by simp [init, items, ctlItem] at h

theorem hear_run {e : Env} (hf : Fresh e) (he : PlainEnv e) (prog : Nat → Code) (sched : List Nat) :
    Hear e (run e sched (init e prog)) :=
  run_inv (fun _ _ _ h => hear_step he h) sched (hear_init hf prog)

/-- A step adds at most one event. -/
theorem log_one {e : Env} {t : Nat} {σ σ' : St} (h : Step e t σ σ') : σ'.log = σ.log ∨ ∃ ev, σ'.log = σ.log ++ [ev] := by
  cases h <;> first
    | exact .inr ⟨_, rfl⟩
    | exact .inl rfl

/-- What happened up to a moment is what happened in a shorter execution. -/
theorem run_prefix (e : Env) : ∀ (sched : List Nat) (σ : St) {l l' : List Ev}, (run e sched σ).log = σ.log ++ l ++ l' →
    ∃ sched', (run e sched' σ).log = σ.log ++ l
  | [], σ, l, l', h => by
    have : l = [] := by simp [run] at h; exact h.1
    subst this
    exact ⟨[], by simp [run]⟩
  | t :: ts, σ, l, l', h => by
    unfold run at h
    cases hs : step e t σ with
    | none =>
      rw [hs] at h
      exact run_prefix e ts σ h
    | some σ' =>
      rw [hs] at h
      simp only [Option.getD_some] at h
      rcases log_one (step_rel hs) with h1 | ⟨ev, h1⟩
      · obtain ⟨sched', h2⟩ := run_prefix e ts σ' (l := l) (l' := l') (by rw [h1]; exact h)
        exact ⟨t :: sched', by unfold run; rw [hs]; simp only [Option.getD_some]; rw [h2, h1]⟩
      · cases l with
        | nil => exact ⟨[], by simp [run]⟩
        | cons ev' l =>
          have h3 : ∃ l'', (run e ts σ').log = σ'.log ++ l'' := by
            have : ∀ (ts : List Nat) (τ : St), ∃ l'', (run e ts τ).log = τ.log ++ l'' := by
              intro ts
              induction ts with
              | nil => exact fun τ => ⟨[], by simp [run]⟩
              | cons u us ih =>
                intro τ
                unfold run
                cases hu : step e u τ with
                | none => exact ih τ
                | some τ' =>
                  obtain ⟨l1, h4⟩ := log_step (step_rel hu)
                  obtain ⟨l2, h5⟩ := ih τ'
                  exact ⟨l1 ++ l2, by simp only [Option.getD_some]; rw [h5, h4, List.append_assoc]⟩
            exact this ts σ'
          obtain ⟨l'', h3⟩ := h3
          have h4 : σ.log ++ (ev :: l'') = σ.log ++ (ev' :: l ++ l') := by
            rw [← List.append_assoc, ← h, h3, h1]; simp
          have h5 := List.append_cancel_left h4
          simp only [List.cons_append, List.cons.injEq] at h5
          obtain ⟨rfl, h5⟩ := h5
          obtain ⟨sched', h6⟩ := run_prefix e ts σ' (l := l) (l' := l') (by rw [h3, h5, List.append_assoc])
          exact ⟨t :: sched', by unfold run; rw [hs]; simp only [Option.getD_some]; rw [h6, h1]; simp⟩

/-- When an emission has just ended. -/
def Ended (e : Env) (σ : St) : Prop := ∀ n t s a, σ.log.getLast? = some (.finish n) → Ev.start n t s a ∈ σ.log →
  NoClear σ.log → (s ∈ e.members → ∀ f, Cond f n σ.log → Heard f n σ.log) ∧ ∀ f, calls f n σ.log ≤ σ.log.countP (isAdd f)

theorem ended_step {e : Env} {t : Nat} {σ σ' : St} (h : Step e t σ σ') (hh : Hear e σ) (hh' : Hear e σ') (hd : Ended e σ) :
    Ended e σ' := by
  intro n u s a hlast hst hn
  rcases log_one h with h1 | ⟨ev, h1⟩
  · rw [h1] at hlast hst hn ⊢
    exact hd n u s a hlast hst hn
  · have hev : ev = .finish n := by rw [h1] at hlast; simpa using hlast
    subst hev
    have hn0 := hn.step h
    cases h with
    | @rel l st hth =>
      have hl : l.n = n := by
        have := List.append_cancel_left (show σ.log ++ [Ev.finish l.n] = σ.log ++ [.finish n] from h1)
        simpa using this
      subst hl
      have hk := hh.ok hn0 t (.done l) (by rw [hth]; simp [items, ctlItem])
      have hst' : Ev.start l.n u s a ∈ σ.log := by simpa using hst
      obtain ⟨_, hs, _⟩ := hh.num.uniq _ _ _ _ _ _ _ hst' hk.1.1
      rw [hs]
      refine ⟨fun hm f hc => ?_, fun f => ?_⟩
      · simp only [to_log, note_log, lk_log] at hc ⊢
        exact (hk.2.1 hm f (hc.mono ⟨_, hk.1.1, isStart_start _ _ _ _⟩)).mono _
      · have := hk.2.2 f
        simp only [calls] at this ⊢
        simp only [to_log, note_log, lk_log, List.countP_append]
        simp [isCall, isAdd]
        omega
    | _ => exfalso; first
      | (have := List.append_cancel_left h1; simp at this; done)
      | (have := congrArg List.length h1; simp at this; done)

theorem ended_run {e : Env} (hf : Fresh e) (he : PlainEnv e) (prog : Nat → Code) (sched : List Nat) :
    Ended e (run e sched (init e prog)) := by
  have := run_inv (e := e) (P := fun σ => Hear e σ ∧ Ended e σ)
    (fun t σ σ' h hp => ⟨hear_step he h hp.1, ended_step h hp.1 (hear_step he h hp.1) hp.2⟩) sched
    (σ := init e prog) ⟨hear_init hf prog, fun n t s a h => by simp [init] at h⟩
  exact this.2

end Psygnal.GrC
