import Verif.GroupConcHear

/-! # Group operations that have returned; groups whose members are emitted by one thread -/
namespace Psygnal.GrC

/-! ## Calls of `connect` and `disconnect` that have not returned -/

/-- Thread `t` calls `connect` or `disconnect` of the group, or a listener dies in it. -/
def isOpen (t : Nat) : Ev → Bool
  | .connCall u _ => u == t
  | .offCall u _ => u == t
  | _ => false

/-- Such a call returns. -/
def isClose (t : Nat) : Ev → Bool
  | .connRet u _ => u == t
  | .offRet u _ => u == t
  | _ => false

/-- Is the thread in such a call? -/
def inOp : Ctl → Nat
  | .cwait _ | .cadd _ | .ccheck _ | .clink _ _ | .crel _ => 1
  | .dfrom _ _ | .dwait _ | .drem _ | .dcheck _ | .dlink _ _ | .dend _ => 1
  | _ => 0

/-- Calls that have not returned are those a thread is in. -/
def Opens (σ : St) : Prop := ∀ t, σ.log.countP (isOpen t) = σ.log.countP (isClose t) + inOp (σ.thr t).ctl

theorem opens_step {e : Env} {t : Nat} {σ σ' : St} (h : Step e t σ σ') (ho : Opens σ) : Opens σ' := by
  intro u
  have hu := ho u
  by_cases hut : u = t
  · subst hut
    cases h with
    | _ hth =>
      rw [hth] at hu
      simp [List.countP_append, inOp, isOpen, isClose] at hu ⊢
      try omega
  · rw [thr_other h hut]
    have hut' : ¬ t = u := fun h => hut h.symm
    cases h <;> simp [List.countP_append, isOpen, isClose, hut'] <;> omega

theorem opens_init (e : Env) (prog : Nat → Code) : Opens (init e prog) := fun t => by simp [init, inOp]

/-! ## Listeners that have been taken off -/

/-- The thread has removed what it takes off. -/
def offDone (o : Off) : Ctl → Prop
  | .dcheck o' => o' = o
  | .dlink o' _ => o' = o
  | .dend o' => o' = o
  | _ => False

/-- The list of listeners, and calls of listeners that are taken off. -/
structure Gone (σ : St) : Prop where
  exact : ∀ f, σ.gslots.count f + σ.log.countP (isRem f) ≤ σ.log.countP (isAdd f)
  one : ∀ t f, offDone (.one f) (σ.thr t).ctl → σ.log.countP (isAdd f) ≤ 1 → f ∉ σ.gslots
  all : ∀ t, offDone .all (σ.thr t).ctl → σ.gslots = []
  past : ∀ l1 l2 t f, σ.log = l1 ++ .offRet t (.one f) :: l2 → l1.countP (isAdd f) ≤ 1 → l2.countP (isAdd f) = 0 →
    f ∉ σ.gslots ∧ ∀ u src a n, Ev.call u f src a n ∉ l2
  pastAll : ∀ l1 l2 t f, σ.log = l1 ++ .offRet t .all :: l2 → l2.countP (isAdd f) = 0 →
    f ∉ σ.gslots ∧ ∀ u src a n, Ev.call u f src a n ∉ l2

theorem offDone_held {σ : St} {t : Nat} {o : Off} (ho : ∀ f, o ≠ .dead f) (h : offDone o (σ.thr t).ctl) :
    0 < held .grp (σ.thr t) := by
  unfold held
  generalize (σ.thr t).ctl = c at *
  cases c <;> simp only [offDone] at h <;> first
    | exact h.elim
    | (rw [h]
       cases o
       · simp [heldC, same]; omega
       · simp [heldC, same]; omega
       · exact absurd rfl (ho _))

/-- Where the last event of a list splits it. -/
theorem split_last {l l1 l2 : List Ev} {ev x : Ev} (h : l ++ [ev] = l1 ++ x :: l2) :
    (l2 = [] ∧ l1 = l ∧ x = ev) ∨ ∃ m, l2 = m ++ [ev] ∧ l = l1 ++ x :: m := by
  rcases List.eq_nil_or_concat l2 with rfl | ⟨m, y, rfl⟩
  · left
    have := List.append_inj' h rfl
    simp at this
    exact ⟨rfl, this.1.symm, this.2.symm⟩
  · right
    rw [List.concat_eq_append, ← List.cons_append, ← List.append_assoc] at h
    obtain ⟨h1, h2⟩ := List.append_inj' h rfl
    simp only [List.cons.injEq, and_true] at h2
    exact ⟨m, by rw [List.concat_eq_append, h2], h1⟩

theorem gone_step {e : Env} {t : Nat} {σ σ' : St} (h : Step e t σ σ') (hk : Locks σ) (hg : Gone σ) : Gone σ' := by
  have hoth : ∀ {c : Ctl} {st : List Frame}, σ.thr t = ⟨c, st⟩ → 0 < heldC .grp c → ∀ o, (∀ f, o ≠ .dead f) → ∀ u,
      offDone o (σ.thr u).ctl → u = t :=
    fun hth hp o ho u hu => hk.excl (offDone_held ho hu) (by rw [held_thr hth]; omega)
  -- the list gets no new listeners
  have keep : (∀ f, f ∈ σ'.gslots → f ∈ σ.gslots) →
      (∀ f, σ'.gslots.count f + σ'.log.countP (isRem f) ≤ σ'.log.countP (isAdd f)) →
      (∀ f, σ'.log.countP (isAdd f) = σ.log.countP (isAdd f)) →
      (∀ f, offDone (.one f) (σ'.thr t).ctl → σ'.log.countP (isAdd f) ≤ 1 → f ∉ σ'.gslots) →
      (offDone .all (σ'.thr t).ctl → σ'.gslots = []) →
      (σ'.log = σ.log ∨ ∃ ev, σ'.log = σ.log ++ [ev] ∧ (∀ u f src a n, ev = .call u f src a n → f ∈ σ.gslots) ∧
        (∀ u f, ev = .offRet u (.one f) → offDone (.one f) (σ.thr t).ctl) ∧
        (∀ u, ev = .offRet u .all → offDone .all (σ.thr t).ctl) ∧ ∀ f, isAdd f ev = false) → Gone σ' := by
    intro h1 h2 h3 h4 h5 h6
    refine ⟨h2, fun u f hu ha => ?_, fun u hu => ?_, fun l1 l2 u f hl ha hb => ?_, fun l1 l2 u f hl hb => ?_⟩
    · by_cases hut : u = t
      · subst hut; exact h4 f hu ha
      · rw [thr_other h hut] at hu
        rw [h3] at ha
        exact fun hm => hg.one u f hu ha (h1 f hm)
    · by_cases hut : u = t
      · subst hut; exact h5 hu
      · rw [thr_other h hut] at hu
        have := hg.all u hu
        exact List.eq_nil_iff_forall_not_mem.mpr fun f hf => by have := h1 f hf; simp_all
    · rcases h6 with h6 | ⟨ev, h6, h7, h8, _, h9⟩
      · have := hg.past l1 l2 u f (by rw [← h6, hl]) ha hb
        exact ⟨fun hm => this.1 (h1 f hm), this.2⟩
      · rw [h6] at hl
        rcases split_last hl with ⟨rfl, rfl, rfl⟩ | ⟨m, rfl, hm⟩
        · exact ⟨fun hm => hg.one t f (h8 _ _ rfl) ha (h1 f hm), by simp⟩
        · have := hg.past l1 m u f hm ha (by rw [List.countP_append] at hb; omega)
          refine ⟨fun hm => this.1 (h1 f hm), fun u' src a n hc => ?_⟩
          rcases List.mem_append.mp hc with hc | hc
          · exact this.2 _ _ _ _ hc
          · exact this.1 (h7 _ _ _ _ _ (List.mem_singleton.mp hc).symm)
    · rcases h6 with h6 | ⟨ev, h6, h7, _, h8, h9⟩
      · have := hg.pastAll l1 l2 u f (by rw [← h6, hl]) hb
        exact ⟨fun hm => this.1 (h1 f hm), this.2⟩
      · rw [h6] at hl
        rcases split_last hl with ⟨rfl, rfl, rfl⟩ | ⟨m, rfl, hm⟩
        · exact ⟨fun hm => (by have h10 := h1 f hm; rw [hg.all t (h8 _ rfl)] at h10; cases h10), by simp⟩
        · have := hg.pastAll l1 m u f hm (by rw [List.countP_append] at hb; omega)
          refine ⟨fun hm => this.1 (h1 f hm), fun u' src a n hc => ?_⟩
          rcases List.mem_append.mp hc with hc | hc
          · exact this.2 _ _ _ _ hc
          · exact this.1 (h7 _ _ _ _ _ (List.mem_singleton.mp hc).symm)
  cases h with
  | @cadd f st hth =>
    refine ⟨fun g => ?_, fun u g hu ha => ?_, fun u hu => ?_, fun l1 l2 u g hl ha hb => ?_, fun l1 l2 u g hl hb => ?_⟩
    · have := hg.exact g
      by_cases hg' : f = g
      · subst hg'; simp [List.count_append, List.countP_append, isRem, isAdd]; omega
      · simp [List.count_append, List.countP_append, isRem, isAdd, hg']; omega
    · by_cases hut : u = t
      · subst hut; simp [offDone] at hu
      · simp [set_other hut] at hu
        exact absurd (hoth hth (by simp [heldC, same]) _ (by simp) u hu) hut
    · by_cases hut : u = t
      · subst hut; simp [offDone] at hu
      · simp [set_other hut] at hu
        exact absurd (hoth hth (by simp [heldC, same]) _ (by simp) u hu) hut
    · rcases split_last hl with ⟨_, _, h3⟩ | ⟨m, rfl, hm⟩
      · cases h3
      · rw [List.countP_append] at hb
        have hne : f ≠ g := by
          rintro rfl
          simp [isAdd] at hb
        have := hg.past l1 m u g hm ha (by omega)
        refine ⟨by simpa [hne.symm] using this.1, fun u' src a n hc => ?_⟩
        rcases List.mem_append.mp hc with hc | hc
        · exact this.2 _ _ _ _ hc
        · simp at hc
    · rcases split_last hl with ⟨_, _, h3⟩ | ⟨m, rfl, hm⟩
      · cases h3
      · rw [List.countP_append] at hb
        have hne : f ≠ g := by
          rintro rfl
          simp [isAdd] at hb
        have := hg.pastAll l1 m u g hm (by omega)
        refine ⟨by simpa [hne.symm] using this.1, fun u' src a n hc => ?_⟩
        rcases List.mem_append.mp hc with hc | hc
        · exact this.2 _ _ _ _ hc
        · simp at hc
  | @drem o f st hth ho hf =>
    have hpos := List.count_pos_iff.mpr hf
    have hex : ∀ g, (σ.gslots.erase f).count g + (σ.log ++ [Ev.removed t o]).countP (isRem g) ≤ σ.log.countP (isAdd g) := by
      intro g
      have := hg.exact g
      by_cases hg' : f = g
      · subst hg'
        rcases ho with rfl | rfl <;> simp [List.countP_append, isRem, List.count_erase_self] <;> omega
      · rcases ho with rfl | rfl <;> simp [List.countP_append, isRem, hg', List.count_erase_of_ne (Ne.symm hg')] <;> omega
    refine keep (fun g hm => List.mem_of_mem_erase hm) (fun g => ?_) (fun g => ?_) (fun g h1 h2 => ?_) (fun h1 => ?_) (.inr ⟨_, rfl, by simp, by simp, by simp, by simp [isAdd]⟩)
    · have := hex g
      simp only [to_gslots, note_gslots, to_log, note_log]
      rw [List.countP_append (p := isAdd g)]
      omega
    · simp [List.countP_append, isAdd]
    · simp [offDone] at h1
      subst h1
      have hfg : f = g := by rcases ho with h | h <;> cases h; rfl
      subst hfg
      have := hex f
      simp only [to_log, note_log, to_gslots, note_gslots, List.countP_append] at this h2 ⊢
      simp [isAdd] at h2
      have h3 : [Ev.removed t (.one f)].countP (isRem f) = 1 := by simp [isRem]
      exact fun hm => by have := List.count_pos_iff.mpr hm; omega
    · simp [offDone] at h1
      subst h1
      rcases ho with h | h <;> cases h
  | @dremNo o f st hth ho hf =>
    refine keep (fun g hm => hm) hg.exact (fun g => rfl) (fun g h1 h2 => ?_) (fun h1 => ?_) (.inl rfl)
    · simp [offDone] at h1
      subst h1
      have hfg : f = g := by rcases ho with h | h <;> cases h; rfl
      subst hfg
      exact hf
    · simp [offDone] at h1
      subst h1
      rcases ho with h | h <;> cases h
  | @dremAll st hth =>
    refine keep (fun g hm => by cases hm) (fun g => ?_) (fun g => ?_) (fun g h1 h2 => by simp) (fun h1 => rfl)
      (.inr ⟨_, rfl, by simp, by simp, by simp, by simp [isAdd]⟩)
    · have := hg.exact g
      simp [List.countP_append, isRem, isAdd]; omega
    · simp [List.countP_append, isAdd]
  | dcheck hth =>
    exact keep (fun g hm => hm) hg.exact (fun g => rfl)
      (fun g h1 => hg.one t g (by rw [hth]; simpa [offDone] using h1))
      (fun h1 => hg.all t (by rw [hth]; simpa [offDone] using h1)) (.inl rfl)
  | dcheckNo hth =>
    exact keep (fun g hm => hm) hg.exact (fun g => rfl)
      (fun g h1 => hg.one t g (by rw [hth]; simpa [offDone] using h1))
      (fun h1 => hg.all t (by rw [hth]; simpa [offDone] using h1)) (.inl rfl)
  | dlinkEnd hth =>
    exact keep (fun g hm => hm) hg.exact (fun g => rfl)
      (fun g h1 => hg.one t g (by rw [hth]; simpa [offDone] using h1))
      (fun h1 => hg.all t (by rw [hth]; simpa [offDone] using h1)) (.inl rfl)
  | dlink hth =>
    exact keep (fun g hm => hm) hg.exact (fun g => rfl)
      (fun g h1 => hg.one t g (by rw [hth]; simpa [offDone] using h1))
      (fun h1 => hg.all t (by rw [hth]; simpa [offDone] using h1)) (.inl rfl)
  | @dend o st hth ho =>
    refine keep (fun g hm => hm) (fun g => ?_) (fun g => by simp [List.countP_append, isAdd]) (fun g h1 => by simp [offDone] at h1)
      (fun h1 => by simp [offDone] at h1)
      (.inr ⟨_, rfl, by simp, fun u f h1 => by cases h1; rw [hth]; rfl, fun u h1 => by cases h1; rw [hth]; rfl, by simp [isAdd]⟩)
    have := hg.exact g
    simp [List.countP_append, isRem, isAdd]; omega
  | @gnext l src q i st f hth hi =>
    refine keep (fun g hm => hm) (fun g => ?_) (fun g => by simp [List.countP_append, isAdd]) (fun g h1 => by simp [offDone] at h1)
      (fun h1 => by simp [offDone] at h1)
      (.inr ⟨_, rfl, fun u f' src a n h1 => by cases h1; exact List.mem_of_getElem? hi, by simp, by simp, by simp [isAdd]⟩)
    have := hg.exact g
    simp [List.countP_append, isRem, isAdd]; omega
  | _ hth =>
    refine keep (fun g hm => hm) (fun g => ?_) (fun g => by simp [List.countP_append, isAdd]) (fun g h1 => by simp [offDone] at h1)
      (fun h1 => by simp [offDone] at h1) ?_
    · have := hg.exact g
      simp [List.countP_append, isRem, isAdd]; try omega
    · first
        | exact .inl rfl
        | exact .inr ⟨_, rfl, by simp, by simp, by simp, by simp [isAdd]⟩

theorem gone_init (e : Env) (prog : Nat → Code) : Gone (init e prog) where
  exact f := by simp [init]
  one t f h := by simp [init, offDone] at h
  all t h := by simp [init, offDone] at h
  past l1 l2 t f h := by simp [init] at h
  pastAll l1 l2 t f h := by simp [init] at h

theorem gone_run {e : Env} (hf : Fresh e) (prog : Nat → Code) (sched : List Nat) : Gone (run e sched (init e prog)) :=
  (run_inv (e := e) (P := fun σ => Base e σ ∧ Gone σ) (fun _ _ _ h hp => ⟨base_step h hp.1, gone_step h hp.1.locks hp.2⟩) sched
    (σ := init e prog) ⟨base_init hf prog, gone_init e prog⟩).2

/-! ## One emitting thread -/

/-- Code that does not emit. -/
def Silent : Code → Prop
  | .ret => True
  | .look k => ∀ l, Silent (k l)
  | .emit _ _ _ => False
  | .conn _ k => Silent k
  | .off _ k => Silent k
  | .mine _ _ _ k => Silent k

/-- A thread that does not emit. -/
def CtlSilent : Ctl → Prop
  | .run c => Silent c
  | .fin => True
  | .cwait _ | .cadd _ | .ccheck _ | .clink _ _ | .crel _ => True
  | .dfrom _ _ | .dwait _ | .drem _ | .dcheck _ | .dlink _ _ | .dend _ => True
  | _ => False

/-- Frames of a thread that does not emit. -/
def FrameSilent : Frame → Prop
  | .cont k => Silent k
  | _ => False

/-- What `_current_emitter` is for the code above a stack. -/
def top : List Frame → Option Sig
  | [] => none
  | .cont _ :: st => top st
  | .loop l :: _ => some (.sig l.s)
  | .gloop _ _ _ _ :: _ => some .grp

/-- The local variables `previous` and `emitter` of the frames. -/
def StackOk : List Frame → Prop
  | [] => True
  | .cont _ :: st => StackOk st
  | .loop l :: st => l.p = top st ∧ StackOk st
  | .gloop l src q _ :: st => l.p = top st ∧ q = some (.sig l.s) ∧ src = .sig l.s ∧ StackOk st

/-- `_current_emitter` and the local variables of what the thread does next. -/
def CurOk (cur : Option Sig) (slots : Nat → List Slot) (st : List Frame) : Ctl → Prop
  | .setCur _ _ _ p => cur = top st ∧ p = top st
  | .next l => cur = some (.sig l.s) ∧ l.p = top st
  | .asks l => cur = some (.sig l.s) ∧ l.p = top st ∧ slots l.s ≠ []
  | .gwait l src => cur = some (.sig l.s) ∧ l.p = top st ∧ src = .sig l.s
  | .gprev l src => cur = some (.sig l.s) ∧ l.p = top st ∧ src = .sig l.s
  | .gset l src q => cur = some (.sig l.s) ∧ l.p = top st ∧ src = .sig l.s ∧ q = some (.sig l.s)
  | .gnext l src q _ => cur = some .grp ∧ l.p = top st ∧ src = .sig l.s ∧ q = some (.sig l.s)
  | .grest l q => l.p = top st ∧ q = some (.sig l.s)
  | .grel l => cur = some (.sig l.s) ∧ l.p = top st
  | .rest l => l.p = top st
  | _ => cur = top st

/-- Only thread `T` emits. -/
structure Alone (T : Nat) (σ : St) : Prop where
  others : ∀ u, u ≠ T → CtlSilent (σ.thr u).ctl ∧ ∀ f ∈ (σ.thr u).stack, FrameSilent f
  stack : StackOk (σ.thr T).stack
  cur : CurOk σ.cur σ.slots (σ.thr T).stack (σ.thr T).ctl
  drops : ∀ n, Ev.drop n ∉ σ.log
  srcs : ∀ t f src a n, Ev.call t f src a n ∈ σ.log → ∃ s, src = .sig s ∧ Ev.start n t s a ∈ σ.log

theorem CurOk.slots {cur : Option Sig} {slots slots' : Nat → List Slot} {st : List Frame} {c : Ctl} (h : CurOk cur slots st c)
    (hs : ∀ l, c = .asks l → slots' l.s = slots l.s) : CurOk cur slots' st c := by
  cases c <;> first
    | exact h
    | (simp only [CurOk] at *; rw [hs _ rfl]; exact h)

theorem alone_other {e : Env} {T t : Nat} (hT : t ≠ T) {σ σ' : St} (h : Step e t σ σ') (hk : Locks σ) (ha : Alone T σ) :
    Alone T σ' := by
  obtain ⟨h1, h2⟩ := ha.others t hT
  have hthr : σ'.thr T = σ.thr T := thr_other h (Ne.symm hT)
  have hcur : CurOk σ.cur σ'.slots (σ'.thr T).stack (σ'.thr T).ctl := by
    rw [hthr]
    refine ha.cur.slots (fun l hl => slots_held h hk (Ne.symm hT) ?_)
    unfold held
    rw [hl]
    simp [heldC, same]; omega
  have ho : ∀ u, u ≠ t → u ≠ T → CtlSilent (σ'.thr u).ctl ∧ ∀ f ∈ (σ'.thr u).stack, FrameSilent f :=
    fun u hu huT => by rw [thr_other h hu]; exact ha.others u huT
  have mk : CtlSilent (σ'.thr t).ctl → (∀ f ∈ (σ'.thr t).stack, FrameSilent f) → σ'.cur = σ.cur → (∀ n, Ev.drop n ∈ σ'.log → Ev.drop n ∈ σ.log) →
      (∀ t f src a n, Ev.call t f src a n ∈ σ'.log → Ev.call t f src a n ∈ σ.log) → Alone T σ' := by
    intro h3 h4 h5 h6 h7
    refine ⟨fun u hu => ?_, by rw [hthr]; exact ha.stack, by rw [h5]; exact hcur, fun n hn => ha.drops n (h6 n hn), fun u f src a n hc => ?_⟩
    · by_cases hut : u = t
      · subst hut; exact ⟨h3, h4⟩
      · exact ho u hut hu
    · obtain ⟨s, h8, h9⟩ := ha.srcs u f src a n (h7 _ _ _ _ _ hc)
      exact ⟨s, h8, mem_log_step h h9⟩
  cases h with
  | look hth =>
    rw [hth] at h1 h2
    exact mk (by simpa [CtlSilent] using h1 _) (by simpa using h2) rfl (by simp) (by simp)
  | finCont hth =>
    rw [hth] at h1 h2
    exact mk (by simpa [CtlSilent, FrameSilent] using h2 _ List.mem_cons_self) (by simpa using fun f hf => h2 f (List.mem_cons_of_mem _ hf)) rfl (by simp) (by simp)
  | finLoop hth => rw [hth] at h2; exact (h2 _ List.mem_cons_self).elim
  | finGloop hth => rw [hth] at h2; exact (h2 _ List.mem_cons_self).elim
  | _ hth =>
    rw [hth] at h1 h2
    first
      | exact h1.elim
      | (refine mk ?_ ?_ rfl ?_ ?_ <;> simp [CtlSilent, FrameSilent, Silent] at h1 h2 ⊢ <;> first
          | assumption
          | exact ⟨h1, h2⟩)

theorem alone_self {e : Env} {T : Nat} {σ σ' : St} (h : Step e T σ σ') (hn : Num σ) (ha : Alone T σ) : Alone T σ' := by
  have hs := ha.stack
  have hc := ha.cur
  have ho : ∀ u, u ≠ T → CtlSilent (σ'.thr u).ctl ∧ ∀ f ∈ (σ'.thr u).stack, FrameSilent f :=
    fun u hu => by rw [thr_other h hu]; exact ha.others u hu
  have mk : StackOk (σ'.thr T).stack → CurOk σ'.cur σ'.slots (σ'.thr T).stack (σ'.thr T).ctl →
      (∀ n, Ev.drop n ∈ σ'.log → Ev.drop n ∈ σ.log) →
      (∀ t f src a n, Ev.call t f src a n ∈ σ'.log → Ev.call t f src a n ∈ σ.log) → Alone T σ' := by
    intro h3 h4 h6 h7
    refine ⟨ho, h3, h4, fun n hn => ha.drops n (h6 n hn), fun u f src a n hc => ?_⟩
    obtain ⟨s, h8, h9⟩ := ha.srcs u f src a n (h7 _ _ _ _ _ hc)
    exact ⟨s, h8, mem_log_step h h9⟩
  have h0 := h
  cases h with
  | drop hth hd =>
    rw [hth] at hc
    have h1 := hd _ hc.1
    simp only [truthy] at h1
    have h2 := hc.2.2
    simp at h1
    exact absurd h1 h2
  | @gnext l src q i st f hth hi =>
    have h3 := hn.mine T (.gl l i) (by rw [hth]; simp [items, ctlItem])
    rw [hth] at hs hc
    refine ⟨ho, ?_, ?_, fun n hn => ha.drops n (by simpa using hn), fun u g src' a n hg => ?_⟩
    · simp only [to_thr, set_same]
      exact ⟨hc.2.1, hc.2.2.2, hc.2.2.1, hs⟩
    · simp only [to_thr, set_same, CurOk, top]
      exact hc.1
    · rcases List.mem_append.mp (show _ ∈ σ.log ++ [Ev.call T f src l.a l.n] from hg) with hg | hg
      · obtain ⟨s, h8, h9⟩ := ha.srcs u g src' a n hg
        exact ⟨s, h8, mem_log_step h0 h9⟩
      · simp at hg
        obtain ⟨rfl, rfl, rfl, rfl, rfl⟩ := hg
        exact ⟨l.s, hc.2.2.1, mem_log_step h0 h3⟩
  | nextRelay hth hj =>
    rw [hth] at hs hc
    refine mk (by simpa using hs) ?_ (by simp) (by simp)
    simp only [to_thr, set_same, CurOk]
    refine ⟨hc.1, hc.2, fun h => ?_⟩
    simp only [to_slots] at h
    rw [h] at hj
    simp at hj
  | asks hth hcur ht =>
    rw [hth] at hs hc
    refine mk (by simpa using hs) ?_ (by simp) (by simp)
    simp only [to_thr, set_same, CurOk]
    have := hc.1
    rw [hcur] at this
    cases this
    exact ⟨hcur, hc.2.1, rfl⟩
  | _ hth =>
    rw [hth] at hs hc
    refine mk ?_ ?_ (by simp) (by simp) <;> simp_all [CurOk, StackOk, top]

theorem alone_init {e : Env} {prog : Nat → Code} {T : Nat} (h : ∀ u, u ≠ T → Silent (prog u)) : Alone T (init e prog) where
  others u hu := ⟨h u hu, by simp [init]⟩
  stack := trivial
  cur := rfl
  drops n := by simp [init]
  srcs t f src a n h := by simp [init] at h

theorem num_run {e : Env} (prog : Nat → Code) (sched : List Nat) : Num (run e sched (init e prog)) :=
  run_inv (fun _ _ _ h => num_step h) sched (num_init e prog)

theorem alone_run {e : Env} (hf : Fresh e) {prog : Nat → Code} {T : Nat} (h : ∀ u, u ≠ T → Silent (prog u)) (sched : List Nat) :
    Alone T (run e sched (init e prog)) :=
  (run_inv (e := e) (P := fun σ => (Base e σ ∧ Num σ) ∧ Alone T σ) (fun t σ σ' hs hp =>
    ⟨⟨base_step hs hp.1.1, num_step hs hp.1.2⟩, by
      by_cases ht : t = T
      · rw [ht] at hs; exact alone_self hs hp.1.2 hp.2
      · exact alone_other ht hs hp.1.1.locks hp.2⟩) sched
    (σ := init e prog) ⟨⟨base_init hf prog, num_init e prog⟩, alone_init h⟩).2

end Psygnal.GrC
