import Verif.ConcQueued

/-! # Threads that emit a queued signal one argument after the other -/
namespace Psygnal.Conc

/-- Emit each argument, whatever becomes of it. -/
def emits (s : Nat) : List Nat → Code
  | [] => .ret
  | a :: l => .emit s a fun _ => emits s l

/-- Code that does not emit `s`, nor connects to it or disconnects from it, nor raises; it may emit other signals and
hold locks. -/
inductive Quiet (s : Nat) : Code → Prop
  | ret : Quiet s .ret
  | see {k} : (∀ v, Quiet s (k v)) → Quiet s (.see k)
  | emit {s' a k} : s' ≠ s → (∀ b, Quiet s (k b)) → Quiet s (.emit s' a k)
  | hold {s' c k} : Quiet s c → (∀ b, Quiet s (k b)) → Quiet s (.hold s' c k)
  | slots {s' f k} : s' ≠ s → Quiet s k → Quiet s (.slots s' f k)

/-- Stacks below quiet code of a thread that has `l` still to emit; `true` if code waits for a value on top. -/
inductive Under (s : Nat) (l : List Nat) : Bool → List Frame → Prop
  | base : Under s l true [.cont fun _ => emits s l]
  | cont {b st k} : (∀ v, Quiet s (k v)) → Under s l b st → Under s l true (.cont k :: st)
  | loop {st s' p lp} : Under s l true st → Under s l false (.loop s' p lp :: st)
  | hold {st s'} : Under s l true st → Under s l false (.hold s' :: st)

/-- Is a frame a loop? -/
def isLoop : List Frame → Bool
  | .loop .. :: _ => true
  | _ => false

theorem Under.noloop {s : Nat} {l : List Nat} {st : List Frame} (h : Under s l true st) : isLoop st = false := by
  cases h <;> rfl

/-- What a thread does next in quiet code or in a callback's emission. -/
def CtlOk (s : Nat) (l : List Nat) (st : List Frame) : Ctl → Prop
  | .run c => Quiet s c ∧ ∃ b, Under s l b st
  | .fin ok => (∃ b, Under s l b st) ∧ (ok = false → isLoop st = false)
  | .check s' _ | .wait s' _ | .locked s' _ => s' ≠ s ∧ Under s l true st
  | .waitHold _ c => Quiet s c ∧ Under s l true st
  | _ => Under s l true st

/-- The thread has `l` still to emit. -/
inductive Pend (s : Nat) : Thread → List Nat → Prop
  | top {l} : Pend s ⟨.run (emits s l), []⟩ l
  | ended {ok} : Pend s ⟨.fin ok, []⟩ []
  | check {a l} : Pend s ⟨.check s a, [.cont fun _ => emits s l]⟩ (a :: l)
  | wait {a l} : Pend s ⟨.wait s a, [.cont fun _ => emits s l]⟩ (a :: l)
  | locked {a l} : Pend s ⟨.locked s a, [.cont fun _ => emits s l]⟩ (a :: l)
  | deep {c st l} : CtlOk s l st c → Pend s ⟨c, st⟩ l

/-- What thread `t` has got in. -/
def mine (t : Nat) (l : List (Nat × Nat)) : List Nat := (l.filter (·.1 = t)).map (·.2)

theorem mine_append (t : Nat) (l l' : List (Nat × Nat)) : mine t (l ++ l') = mine t l ++ mine t l' := by simp [mine]

/-- All is well with the threads of these programs. -/
structure EInv (e : Env) (s : Nat) (ls : Nat → List Nat) (σ : St) : Prop where
  q : QInv (e.slots s) s σ
  slots : σ.slots s = e.slots s
  kept : σ.lost s = false
  len : (σ.queue s).length ≤ 1
  pend : ∀ t, ∃ l, Pend s (σ.thr t) l ∧ mine t (σ.acc s) ++ l = ls t

theorem pend_step {e : Env} {t : Nat} {σ σ' : St} {s : Nat} (h : step e t σ = some σ')
    (hm : e.mode s = .queued) (hb : ∀ s' x a, Quiet s (e.body s' x a)) (hlim : σ.depth s < e.limit) (hlen : (σ.queue s).length ≤ e.limit)
    (hq : ∀ p, (σ.thr t).ctl = .start s p → σ.queue s ≠ [])
    (hown : ∀ a, (σ.thr t).ctl = .locked s a → σ.queue s ≠ [] → 0 < loopS s (σ.thr t).stack)
    {l : List Nat} (hp : Pend s (σ.thr t) l) :
    σ'.slots s = σ.slots s ∧ σ'.lost s = σ.lost s ∧
    ((σ'.acc s = σ.acc s ∧ (σ'.queue s = σ.queue s ∨ σ'.queue s = []) ∧ Pend s (σ'.thr t) l)
      ∨ ∃ a l', l = a :: l' ∧ σ'.acc s = σ.acc s ++ [(t, a)] ∧ σ'.queue s = [a] ∧ Pend s (σ'.thr t) l') := by
  have h := step_rel h
  rcases hth : σ.thr t with ⟨c, st⟩
  rw [hth] at h hp hq hown
  have stay : ∀ {σ'' : St}, σ''.slots s = σ.slots s → σ''.lost s = σ.lost s → σ''.acc s = σ.acc s → σ''.queue s = σ.queue s →
      Pend s (σ''.thr t) l → σ''.slots s = σ.slots s ∧ σ''.lost s = σ.lost s ∧
      ((σ''.acc s = σ.acc s ∧ (σ''.queue s = σ.queue s ∨ σ''.queue s = []) ∧ Pend s (σ''.thr t) l)
      ∨ ∃ a l', l = a :: l' ∧ σ''.acc s = σ.acc s ++ [(t, a)] ∧ σ''.queue s = [a] ∧ Pend s (σ''.thr t) l') :=
    fun h1 h2 h3 h4 h5 => ⟨h1, h2, .inl ⟨h3, .inl h4, h5⟩⟩
  cases hp with
  | top =>
    cases l with
    | nil => cases h; exact stay rfl rfl rfl rfl (by simp only [set_same]; exact .ended)
    | cons a l => cases h; exact stay rfl rfl rfl rfl (by simp only [set_same]; exact .check)
  | ended => cases h
  | check =>
    cases h with
    | limit hl => omega
    | check => exact stay rfl rfl rfl rfl (by simp only [set_same]; exact .wait)
  | wait => cases h; exact stay rfl rfl rfl rfl (by simp only [set_same]; exact .locked)
  | locked =>
    rename_i a l
    cases h with
    | queue h0 => exact absurd (hown a rfl h0) (by simp [loopF])
    | enter h0 =>
      refine ⟨rfl, rfl, .inr ⟨a, l, rfl, by simp, by simp, ?_⟩⟩
      simp only [set_same]
      exact .deep Under.base
  | deep hc =>
    cases h with
    | ret => exact stay rfl rfl rfl rfl (by simp only [set_same]; exact .deep ⟨hc.2, by simp⟩)
    | raise => cases hc.1
    | see =>
      obtain ⟨h1, h2⟩ := hc
      cases h1 with
      | see h1 => exact stay rfl rfl rfl rfl (by simp only [set_same]; exact .deep ⟨h1 _, h2⟩)
    | emit =>
      obtain ⟨h1, b, h2⟩ := hc
      cases h1 with
      | emit h0 h1 => exact stay rfl rfl rfl rfl (by simp only [set_same]; exact .deep ⟨h0, .cont h1 h2⟩)
    | hold =>
      obtain ⟨h1, b, h2⟩ := hc
      cases h1 with
      | hold h0 h1 => exact stay rfl rfl rfl rfl (by simp only [set_same]; exact .deep ⟨h0, .cont h1 h2⟩)
    | slots =>
      obtain ⟨h1, h2⟩ := hc
      cases h1 with
      | slots h0 h1 =>
        exact stay (by simp [set_other (Ne.symm h0)]) rfl rfl rfl (by simp only [set_same]; exact .deep ⟨h1, h2⟩)
    | limit =>
      exact stay rfl rfl rfl rfl (by simp only [set_same]; exact .deep ⟨⟨_, hc.2⟩, fun _ => hc.2.noloop⟩)
    | check => exact stay rfl rfl rfl rfl (by simp only [set_same]; exact .deep ⟨hc.1, hc.2⟩)
    | wait => exact stay rfl rfl rfl rfl (by simp only [set_same]; exact .deep ⟨hc.1, hc.2⟩)
    | waitHold => exact stay rfl rfl rfl rfl (by simp only [set_same]; exact .deep ⟨hc.1, _, .hold hc.2⟩)
    | queue =>
      exact stay rfl rfl (by simp [set_other (Ne.symm hc.1)]) (by simp [set_other (Ne.symm hc.1)])
        (by simp only [set_same]; exact .deep hc.2)
    | enter =>
      exact stay rfl rfl (by simp [set_other (Ne.symm hc.1)]) (by simp [set_other (Ne.symm hc.1)])
        (by simp only [set_same]; exact .deep hc.2)
    | readPrev => exact stay rfl rfl rfl rfl (by simp only [set_same]; exact .deep hc)
    | writeCur => exact stay rfl rfl rfl rfl (by simp only [set_same]; exact .deep hc)
    | none h0 =>
      rename_i s' p
      by_cases hs : s' = s
      · subst hs; exact absurd h0 (hq p rfl)
      · exact stay rfl (by simp [set_other (Ne.symm hs)]) rfl rfl (by simp only [set_same]; exact .deep hc)
    | startQ => exact stay rfl rfl rfl rfl (by simp only [set_same]; exact .deep hc)
    | start h0 hm' =>
      rename_i s' p a q
      have hs : s' ≠ s := fun hs => hm' (hs ▸ hm)
      exact stay rfl rfl rfl (by simp [set_other (Ne.symm hs)]) (by simp only [set_same]; exact .deep hc)
    | call => exact stay rfl rfl rfl rfl (by simp only [set_same]; exact .deep ⟨hb _ _ _, _, .loop hc⟩)
    | nextQ => exact stay rfl rfl rfl rfl (by simp only [set_same]; exact .deep hc)
    | endLoop => exact stay rfl rfl rfl rfl (by simp only [set_same]; exact .deep hc)
    | restore => exact stay rfl rfl rfl rfl (by simp only [set_same]; exact .deep hc)
    | cleanup =>
      rename_i s' ok
      have hp : Pend s ⟨.release s' ok, st⟩ l := .deep hc
      by_cases hs : s' = s
      · subst hs; exact ⟨rfl, rfl, .inl ⟨rfl, .inr (by simp), by simpa using hp⟩⟩
      · exact stay rfl rfl rfl (by simp [set_other (Ne.symm hs)]) (by simpa using hp)
    | release =>
      have hc : Under s l true st := hc
      exact stay rfl rfl rfl rfl (by simp only [set_same]; exact .deep ⟨⟨_, hc⟩, fun _ => hc.noloop⟩)
    | unhold =>
      have hc : Under s l true st := hc
      exact stay rfl rfl rfl rfl (by simp only [set_same]; exact .deep ⟨⟨_, hc⟩, fun _ => hc.noloop⟩)
    | finCont =>
      obtain ⟨⟨b, h1⟩, h2⟩ := hc
      cases h1 with
      | base => exact stay rfl rfl rfl rfl (by simp only [set_same]; exact .top)
      | cont h3 h4 => exact stay rfl rfl rfl rfl (by simp only [set_same]; exact .deep ⟨h3 _, _, h4⟩)
    | finHold =>
      obtain ⟨⟨b, h1⟩, h2⟩ := hc
      cases h1 with
      | hold h1 => exact stay rfl rfl rfl rfl (by simp only [set_same]; exact .deep h1)
    | finRaise hf =>
      rename_i st ok s' p lp
      obtain ⟨⟨b, h1⟩, h2⟩ := hc
      cases h1 with
      | loop h1 =>
        have hs : s' ≠ s := by
          intro hs; subst hs
          rcases hf with hf | hf
          · have := h2 hf; cases this
          · omega
        exact stay rfl (by simp [set_other (Ne.symm hs)]) rfl rfl (by simp only [set_same]; exact .deep h1)
    | finNext =>
      obtain ⟨⟨b, h1⟩, h2⟩ := hc
      cases h1 with
      | loop h1 => exact stay rfl rfl rfl rfl (by simp only [set_same]; exact .deep h1)

theorem depth_le_one {s : Nat} {S : List Nat} {σ : St} (h : QInv S s σ) : σ.depth s ≤ 1 := by
  obtain ⟨t, h1, _⟩ := h.depth.eq s
  rw [h1]; exact h.one t

theorem einv_step {e : Env} {s : Nat} {ls : Nat → List Nat} (hm : e.mode s = .queued)
    (hb : ∀ s' x a, Quiet s (e.body s' x a)) (hlim : 2 ≤ e.limit) (t : Nat) (σ σ' : St) (h : step e t σ = some σ')
    (hi : EInv e s ls σ) : EInv e s ls σ' := by
  have hd := depth_le_one hi.q
  have hlen := hi.len
  obtain ⟨l, hp, hl⟩ := hi.pend t
  have hstart : ∀ p, (σ.thr t).ctl = .start s p → σ.queue s ≠ [] := fun p hc =>
    good_ne (S := e.slots s) (d := σ.data s) (hi.q.busy t .start (by simp [pos, hc, posC])) (by simp)
  have hown : ∀ a, (σ.thr t).ctl = .locked s a → σ.queue s ≠ [] → 0 < loopS s (σ.thr t).stack := by
    intro a hc hq
    obtain ⟨t', ht'⟩ := hi.q.queues s hq
    have h1 : 0 < held s (σ.thr t) := by simp [held, hc, heldC]; omega
    have h2 := loops_le_held s (σ.thr t')
    have h3 := hi.q.locks.one h1 (show 0 < held s (σ.thr t') by omega)
    subst h3
    simpa [loops, hc, loopC] using ht'
  obtain ⟨h1, h2, h3⟩ := pend_step h hm hb (by omega) (by omega) hstart hown hp
  have ho := (lockStep_step h).others
  refine ⟨qinv_step h hm hi.slots hi.q, by rw [h1, hi.slots], by rw [h2, hi.kept], ?_, fun u => ?_⟩
  · rcases h3 with ⟨_, h3 | h3, _⟩ | ⟨a, l', _, _, h3, _⟩ <;> rw [h3]
    · exact hlen
    · exact Nat.zero_le _
    · exact Nat.le_refl _
  · by_cases hu : u = t
    · subst hu
      rcases h3 with ⟨h3, _, h4⟩ | ⟨a, l', rfl, h3, _, h4⟩
      · exact ⟨l, h4, by rw [h3, hl]⟩
      · refine ⟨l', h4, ?_⟩
        rw [h3, mine_append, ← hl]
        simp [mine]
    · obtain ⟨l', hp', hl'⟩ := hi.pend u
      rw [ho u hu]
      refine ⟨l', hp', ?_⟩
      rcases h3 with ⟨h3, _⟩ | ⟨a, _, _, h3, _⟩ <;> rw [h3]
      · exact hl'
      · rw [mine_append]
        simpa [mine, Ne.symm hu] using hl'

theorem einv_init (e : Env) (s : Nat) (ls : Nat → List Nat) : EInv e s ls (init e fun t => emits s (ls t)) where
  q := qinv_init e _ _ s
  slots := rfl
  kept := rfl
  len := Nat.zero_le _
  pend t := ⟨ls t, .top, rfl⟩

theorem einv_run {e : Env} {s : Nat} {ls : Nat → List Nat} (hm : e.mode s = .queued)
    (hb : ∀ s' x a, Quiet s (e.body s' x a)) (hlim : 2 ≤ e.limit) (sched : List Nat) :
    EInv e s ls (run e sched (init e fun t => emits s (ls t))) :=
  run_inv (einv_step hm hb hlim) sched _ (einv_init e s ls)

end Psygnal.Conc
