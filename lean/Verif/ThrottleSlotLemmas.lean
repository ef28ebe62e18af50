import Verif.ThrottleSlot
import Verif.ThrottleLemmas

/-! # Throttled callbacks: each throttler sees a history of its own -/
namespace Psygnal.ThS

/-- The numbers of the calls. -/
def calls (es : List Thr.Ev) : List Nat :=
  es.filterMap fun
    | .call a => some a
    | _ => none

/-- What is left of `Thr.run` when the wrapped function returns. -/
abbrev thr (c : Thr.Cfg) (es : List Thr.Ev) (s : Thr.St) : Thr.St := Thr.run c (fun _ => false) es s

theorem thr_append (c : Thr.Cfg) : ∀ (l l' : List Thr.Ev) (s : Thr.St), thr c (l ++ l') s = thr c l' (thr c l s)
  | [], _, _ => rfl
  | _ :: l, l', _ => thr_append c l l' _

/-- Throttler `x` became `x'` by these events, with calls with these arguments. -/
structure Ext (x x' : Wrap) (es : List Thr.Ev) (new : List (List Nat)) : Prop where
  cfg : x'.cfg = x.cfg
  lo : x'.lo = x.lo
  hi : x'.hi = x.hi
  st : x'.st = thr x.cfg es x.st
  seen : x'.seen = x.seen ++ new
  num : calls es = List.range' x.seen.length new.length

theorem Ext.refl (x : Wrap) : Ext x x [] [] := ⟨rfl, rfl, rfl, rfl, by simp, rfl⟩

theorem Ext.trans {x y z : Wrap} {es es' : List Thr.Ev} {n n' : List (List Nat)} (h : Ext x y es n) (h' : Ext y z es' n') :
    Ext x z (es ++ es') (n ++ n') where
  cfg := h'.cfg.trans h.cfg
  lo := h'.lo.trans h.lo
  hi := h'.hi.trans h.hi
  st := by rw [h'.st, h.st, h.cfg, thr_append]
  seen := by rw [h'.seen, h.seen, List.append_assoc]
  num := by
    have h1 := h.num
    have h2 := h'.num
    simp only [calls] at h1 h2 ⊢
    rw [List.filterMap_append, h1, h2, h.seen, List.length_append, List.length_append, List.range'_append_1]

theorem Ext.call (x : Wrap) (a : List Nat) : Ext x (x.call a) [.call x.seen.length] [a] := ⟨rfl, rfl, rfl, rfl, rfl, rfl⟩

theorem Ext.event (x : Wrap) {ev : Thr.Ev} (h : ∀ a, ev ≠ .call a) : Ext x (x.event ev) [ev] [] :=
  ⟨rfl, rfl, rfl, rfl, by simp [Wrap.event], by cases ev <;> first | rfl | exact absurd rfl (h _)⟩

/-- Several calls. -/
def callAll (l : List (List Nat)) (x : Wrap) : Wrap := l.foldl (fun x a => x.call a) x

theorem callAll_ext : ∀ (l : List (List Nat)) (x : Wrap), ∃ es, Ext x (callAll l x) es l ∧ ∀ ev ∈ es, ∃ a, ev = .call a
  | [], x => ⟨[], Ext.refl x, by simp⟩
  | a :: l, x => by
    obtain ⟨es, h, h1⟩ := callAll_ext l (x.call a)
    refine ⟨_, (Ext.call x a).trans h, fun ev hm => ?_⟩
    rcases List.mem_append.mp hm with hm | hm
    · exact ⟨_, by simpa using hm⟩
    · exact h1 ev hm

theorem callAll_same (l : List (List Nat)) (x : Wrap) : (callAll l x).held = x.held ∧ (callAll l x).live = x.live := by
  induction l generalizing x with
  | nil => exact ⟨rfl, rfl⟩
  | cons a l ih => exact ih (x.call a)

/-- What throttler `w` gets from an emission. -/
def heard (s : Nat) (args : List Nat) (w : Nat) (l : List Slot) : List (List Nat) :=
  (l.filter fun b => decide (b.sig = s ∧ b.tgt = w)).map fun b => cut b.maxArgs args

theorem modify_get {α : Type} (l : List α) (i j : Nat) (f : α → α) :
    (l.modify i f)[j]? = if i = j then l[j]?.map f else l[j]? := by
  rw [List.getElem?_modify]
  split <;> simp

theorem emitLoop_spec (s : Nat) (args : List Nat) : ∀ (l : List Slot) (ws : List Wrap),
    (∀ b ∈ l, ∃ x, ws[b.tgt]? = some x ∧ x.live = true) →
    (emitLoop s args l ws).1 = true ∧ ∀ w, (emitLoop s args l ws).2[w]? = ws[w]?.map (callAll (heard s args w l))
  | [], ws, _ => ⟨rfl, fun w => by
      have : callAll ([] : List (List Nat)) = id := rfl
      simp [emitLoop, heard, this]⟩
  | b :: l, ws, h => by
    rw [emitLoop]
    by_cases hs : b.sig = s
    · rw [if_pos hs]
      obtain ⟨x, hx, hl⟩ := h b (by simp)
      simp only [hx, hl, if_true]
      have hk : ∀ b' ∈ l, ∃ x, (ws.modify b.tgt (Wrap.call (cut b.maxArgs args)))[b'.tgt]? = some x ∧ x.live = true := by
        intro b' hb'
        obtain ⟨y, hy, hyl⟩ := h b' (by simp [hb'])
        rw [modify_get]
        split
        · exact ⟨y.call (cut b.maxArgs args), by rw [hy]; rfl, hyl⟩
        · exact ⟨y, hy, hyl⟩
      obtain ⟨h1, h2⟩ := emitLoop_spec s args l _ hk
      refine ⟨h1, fun w => ?_⟩
      rw [h2, modify_get]
      by_cases hw : b.tgt = w
      · rw [if_pos hw]
        simp only [heard, List.filter_cons, hs, hw, and_self, decide_true, if_true, List.map_cons, Option.map_map]
        rfl
      · rw [if_neg hw]
        simp [heard, hw]
    · rw [if_neg hs]
      obtain ⟨h1, h2⟩ := emitLoop_spec s args l ws fun b' hb' => h b' (by simp [hb'])
      refine ⟨h1, fun w => ?_⟩
      rw [h2]
      simp [heard, hs]

/-- The throttlers that slots or the program refer to have not been collected, and a collected one has no timer left. -/
structure Inv (σ : St) : Prop where
  slot : ∀ b ∈ σ.slots, ∃ x, σ.wraps[b.tgt]? = some x ∧ x.live = true ∧ b.maxArgs = x.hi
  held : ∀ (w : Nat) (x : Wrap), σ.wraps[w]? = some x → x.held = true → x.live = true
  dead : ∀ (w : Nat) (x : Wrap), σ.wraps[w]? = some x → x.live = false → x.busy = false

theorem inv_init : Inv init := ⟨by simp [init], by simp [init], by simp [init]⟩

/-- What throttler `w` is called with in one operation. -/
def given (σ : St) (w : Nat) : Op → List (List Nat)
  | .emit s args => heard s args w σ.slots
  | .call w' args => if w' = w ∧ σ.held w = true then [args] else []
  | _ => []

/-- Which event of throttler `w` belongs to an operation. -/
def Fits (w : Nat) (op : Op) : Thr.Ev → Prop
  | .tick => op = .tick
  | .call _ => (∃ s args, op = .emit s args) ∨ ∃ args, op = .call w args
  | .cancel => op = .cancel w
  | .flush => op = .flush w
  | .fire k => op = .fire w k
  | .reap k => op = .reap w k

theorem held_get {σ : St} {w : Nat} {x : Wrap} (h : σ.wraps[w]? = some x) : σ.held w = x.held := by simp [St.held, h]

/-- Throttlers that differ at most in their references. -/
def Same (x x' : Wrap) : Prop := x'.cfg = x.cfg ∧ x'.lo = x.lo ∧ x'.hi = x.hi ∧ x'.st = x.st ∧ x'.seen = x.seen

theorem Same.ext {x x' : Wrap} (h : Same x x') : Ext x x' [] [] :=
  ⟨h.1, h.2.1, h.2.2.1, h.2.2.2.1, by rw [h.2.2.2.2]; simp, rfl⟩

theorem kill_get (w v : Nat) (σ : St) : (kill w σ).wraps[v]? = if w = v then σ.wraps[v]?.map fun x => { x with live := false } else σ.wraps[v]? := by
  simp only [kill, modify_get]

theorem gc_get (e : Env) (w v : Nat) (σ : St) {x : Wrap} (h : σ.wraps[v]? = some x) :
    ∃ x', (gc e w σ).wraps[v]? = some x' ∧ Same x x' ∧ x'.held = x.held := by
  unfold gc
  split
  · rw [kill_get]
    split
    · exact ⟨{ x with live := false }, by rw [h]; rfl, ⟨rfl, rfl, rfl, rfl, rfl⟩, rfl⟩
    · exact ⟨x, h, ⟨rfl, rfl, rfl, rfl, rfl⟩, rfl⟩
  · exact ⟨x, h, ⟨rfl, rfl, rfl, rfl, rfl⟩, rfl⟩

theorem unref_get (e : Env) (w v : Nat) (σ : St) {x : Wrap} (h : σ.wraps[v]? = some x) :
    ∃ x', (unref e w σ).wraps[v]? = some x' ∧ Same x x' ∧ x'.held = x.held := by
  unfold unref
  split
  · exact ⟨x, h, ⟨rfl, rfl, rfl, rfl, rfl⟩, rfl⟩
  · split
    · exact gc_get e w v σ h
    · exact ⟨x, h, ⟨rfl, rfl, rfl, rfl, rfl⟩, rfl⟩

/-- One throttler in one operation. -/
theorem step_ext (e : Env) {σ : St} (hi : Inv σ) (op : Op) {w : Nat} {x : Wrap} (h : σ.wraps[w]? = some x) :
    ∃ x' es, (step e σ op).2.wraps[w]? = some x' ∧ Ext x x' es (given σ w op) ∧ (∀ ev ∈ es, Fits w op ev ∧ (ev = .cancel ∨ ev = .flush → x.held = true))
      ∧ x'.held = (x.held && decide (op ≠ .drop w)) := by
  have same : ∀ {w' : Nat} (f : Wrap → Wrap), w' ≠ w → (σ.wraps.modify w' f)[w]? = some x := by
    intro w' f hw
    rw [modify_get, if_neg hw, h]
  have noop : given σ w op = [] → (∀ w', op = .drop w' → w' ≠ w) → (step e σ op).2.wraps[w]? = some x → ∃ x' es, (step e σ op).2.wraps[w]? = some x' ∧ Ext x x' es (given σ w op)
      ∧ (∀ ev ∈ es, Fits w op ev ∧ (ev = .cancel ∨ ev = .flush → x.held = true)) ∧ x'.held = (x.held && decide (op ≠ .drop w)) := by
    intro hg hd hs
    refine ⟨x, [], hs, ?_, by simp, ?_⟩
    · rw [hg]; exact Ext.refl x
    · have : op ≠ .drop w := fun h => hd w h rfl
      simp [this]
  have event : ∀ {ev : Thr.Ev}, (∀ a, ev ≠ .call a) → given σ w op = [] → (Fits w op ev ∧ (ev = .cancel ∨ ev = .flush → x.held = true)) → (∀ w', op ≠ .drop w') →
      (step e σ op).2.wraps[w]? = some (x.event ev) → ∃ x' es, (step e σ op).2.wraps[w]? = some x' ∧ Ext x x' es (given σ w op)
      ∧ (∀ ev ∈ es, Fits w op ev ∧ (ev = .cancel ∨ ev = .flush → x.held = true)) ∧ x'.held = (x.held && decide (op ≠ .drop w)) := by
    intro ev hc hg hf hd hs
    refine ⟨_, [ev], hs, ?_, by simpa using hf, ?_⟩
    · rw [hg]; exact Ext.event x hc
    · simp [hd w, Wrap.event]
  cases op with
  | make kind t l lo hi' =>
    refine noop rfl (fun _ q => by cases q) ?_
    simp only [step, make]
    rw [List.getElem?_append_left (List.getElem?_eq_some_iff.mp h).1, h]
  | connect s w' =>
    refine noop rfl (fun _ q => by cases q) ?_
    simp only [step, connect]
    split
    · exact h
    · split
      · split <;> exact h
      · exact h
  | disconnect s w' =>
    refine noop rfl (fun _ q => by cases q) ?_
    simp only [step]
    split <;> exact h
  | emit s args =>
    obtain ⟨_, h2⟩ := emitLoop_spec s args σ.slots σ.wraps fun b hb => by
      obtain ⟨y, h1, h2, _⟩ := hi.slot b hb
      exact ⟨y, h1, h2⟩
    obtain ⟨es, h3, h4⟩ := callAll_ext (heard s args w σ.slots) x
    refine ⟨callAll (heard s args w σ.slots) x, es, ?_, h3, fun ev hm => ?_, ?_⟩
    · simp only [step]
      rw [h2, h]
      rfl
    · obtain ⟨a, rfl⟩ := h4 ev hm
      exact ⟨.inl ⟨s, args, rfl⟩, fun q => by rcases q with q | q <;> cases q⟩
    · rw [(callAll_same _ x).1]; simp
  | call w' args =>
    by_cases hw : w' = w
    · subst hw
      by_cases hh : σ.held w' = true
      · refine ⟨x.call args, [.call x.seen.length], ?_, ?_, ?_, ?_⟩
        · simp only [step, hh, if_true]
          rw [modify_get, if_pos rfl, h]; rfl
        · simp only [given, hh, and_self, if_true]
          exact Ext.call x args
        · intro ev hm
          rw [List.mem_singleton] at hm
          subst hm
          exact ⟨.inr ⟨args, rfl⟩, fun q => by rcases q with q | q <;> cases q⟩
        · simp [Wrap.call]
      · refine noop (by simp [given, hh]) (fun _ q => by cases q) ?_
        simp only [step, hh]
        exact h
    · refine noop (by simp [given, hw]) (fun _ q => by cases q) ?_
      simp only [step]
      split
      · exact same _ hw
      · exact h
  | cancel w' =>
    by_cases hw : w' = w
    · subst hw
      by_cases hh : σ.held w' = true
      · refine event (ev := .cancel) (fun _ q => by cases q) rfl ⟨rfl, fun _ => by rw [← held_get h]; exact hh⟩ (fun _ q => by cases q) ?_
        simp only [step, hh, if_true]
        rw [modify_get, if_pos rfl, h]; rfl
      · refine noop rfl (fun _ q => by cases q) ?_
        simp only [step, hh]
        exact h
    · refine noop rfl (fun _ q => by cases q) ?_
      simp only [step]
      split
      · exact same _ hw
      · exact h
  | flush w' =>
    by_cases hw : w' = w
    · subst hw
      by_cases hh : σ.held w' = true
      · refine event (ev := .flush) (fun _ q => by cases q) rfl ⟨rfl, fun _ => by rw [← held_get h]; exact hh⟩ (fun _ q => by cases q) ?_
        simp only [step, hh, if_true]
        rw [modify_get, if_pos rfl, h]; rfl
      · refine noop rfl (fun _ q => by cases q) ?_
        simp only [step, hh]
        exact h
    · refine noop rfl (fun _ q => by cases q) ?_
      simp only [step]
      split
      · exact same _ hw
      · exact h
  | drop w' =>
    simp only [step]
    by_cases hw : w' = w
    · subst hw
      obtain ⟨x', h1, h2, h3⟩ := unref_get e w' w' { σ with wraps := σ.wraps.modify w' fun x => { x with held := false } }
        (x := { x with held := false }) (by
          show (σ.wraps.modify w' _)[w']? = _
          rw [modify_get, if_pos rfl, h]; rfl)
      refine ⟨x', [], h1, ?_, by simp, by rw [h3]; simp⟩
      obtain ⟨a, b, c, d, f⟩ := h2
      exact Same.ext ⟨a, b, c, d, f⟩
    · obtain ⟨x', h1, h2, h3⟩ := unref_get e w' w { σ with wraps := σ.wraps.modify w' fun x => { x with held := false } }
        (x := x) (same _ hw)
      refine ⟨x', [], h1, h2.ext, by simp, by rw [h3]; simp [hw]⟩
  | gc w' =>
    simp only [step]
    obtain ⟨x', h1, h2, h3⟩ := gc_get e w' w σ h
    exact ⟨x', [], h1, h2.ext, by simp, by rw [h3]; simp⟩
  | tick =>
    refine event (ev := .tick) (fun _ q => by cases q) rfl ⟨rfl, fun q => by rcases q with q | q <;> cases q⟩ (fun _ q => by cases q) ?_
    simp only [step]
    rw [List.getElem?_map, h]; rfl
  | fire w' k =>
    by_cases hw : w' = w
    · subst hw
      refine event (ev := .fire k) (fun _ q => by cases q) rfl ⟨rfl, fun q => by rcases q with q | q <;> cases q⟩ (fun _ q => by cases q) ?_
      simp only [step]
      rw [modify_get, if_pos rfl, h]; rfl
    · exact noop rfl (fun _ q => by cases q) (same _ hw)
  | reap w' k =>
    by_cases hw : w' = w
    · subst hw
      refine event (ev := .reap k) (fun _ q => by cases q) rfl ⟨rfl, fun q => by rcases q with q | q <;> cases q⟩ (fun _ q => by cases q) ?_
      simp only [step]
      rw [modify_get, if_pos rfl, h]; rfl
    · exact noop rfl (fun _ q => by cases q) (same _ hw)

/-! ## Collected throttlers -/

/-- Without a thread of a timer of its own, time does nothing. -/
theorem quiet_event {x : Wrap} (hb : x.busy = false) {ev : Thr.Ev} (hq : ev = .tick ∨ (∃ k, ev = .fire k) ∨ ∃ k, ev = .reap k) :
    (x.event ev).busy = false ∧ (x.event ev).st.trace = x.st.trace := by
  have upd : ∀ (k : Nat) (f : Thr.Timer → Thr.Timer), (∀ t, (f t).cb = t.cb) → (∀ t, (f t).alive = true → t.alive = true) →
      ((x.st.upd k f).timers.any fun t => t.cb && t.alive) = false := by
    intro k f h1 h2
    rw [List.any_eq_false]
    intro t ht
    obtain ⟨j, hj⟩ := List.mem_iff_getElem?.mp ht
    rw [Thr.upd_get] at hj
    have hx := List.any_eq_false.mp hb
    split at hj
    · cases hg : x.st.timers[j]? with
      | none => rw [hg] at hj; cases hj
      | some t' =>
        rw [hg] at hj
        cases hj
        have := hx t' (List.mem_of_getElem? hg)
        simp only [Bool.and_eq_true, not_and] at this ⊢
        intro h3 h4
        exact this ((h1 t') ▸ h3) (h2 t' h4)
    · exact hx t (List.mem_of_getElem? hj)
  rcases hq with rfl | ⟨k, rfl⟩ | ⟨k, rfl⟩
  · exact ⟨hb, rfl⟩
  · simp only [Wrap.busy, Wrap.event, Thr.step]
    cases hd : Thr.due x.st k with
    | none => exact ⟨hb, rfl⟩
    | some t =>
      have hk : x.st.timers[k]? = some t ∧ ∃ d, t.status = .waiting d := by
        unfold Thr.due at hd
        split at hd
        · rename_i cb d hk
          split at hd
          · cases hd; exact ⟨hk, d, rfl⟩
          · cases hd
        · cases hd
      have hcb : t.cb = false := by
        have := List.any_eq_false.mp hb t (List.mem_of_getElem? hk.1)
        obtain ⟨d, h2⟩ := hk.2
        simpa [Thr.Timer.alive, h2] using this
      simp only [hcb]
      refine ⟨?_, rfl⟩
      have : ∀ f g : Thr.Timer → Thr.Timer, (x.st.upd k f).upd k g = x.st.upd k (g ∘ f) := by
        intro f g
        simp only [Thr.St.upd, Thr.St.mk.injEq, true_and, and_true]
        apply List.ext_getElem?
        intro j
        rw [modify_get, modify_get, modify_get]
        split <;> simp
      simp only [Bool.false_eq_true, if_false]
      rw [this]
      exact upd k _ (fun _ => rfl) (fun t h => by simp [Thr.Timer.alive] at h)
  · simp only [Wrap.busy, Wrap.event, Thr.step, Thr.reap]
    split
    · exact ⟨upd k _ (fun _ => rfl) (fun t h => by simp [Thr.Timer.alive] at h), rfl⟩
    · exact ⟨hb, rfl⟩

theorem quiet_events : ∀ (es : List Thr.Ev) {x x' : Wrap}, x.busy = false →
    (∀ ev ∈ es, ev = .tick ∨ (∃ k, ev = .fire k) ∨ ∃ k, ev = .reap k) → x'.st = thr x.cfg es x.st →
    x'.busy = false ∧ x'.st.trace = x.st.trace
  | [], x, x', hb, _, h => by
    have h : x'.st = x.st := h
    exact ⟨by simp only [Wrap.busy, h]; exact hb, by rw [h]⟩
  | ev :: es, x, x', hb, hq, h => by
    obtain ⟨h1, h2⟩ := quiet_event hb (hq ev (by simp))
    obtain ⟨h3, h4⟩ := quiet_events es (x' := x') h1 (fun e he => hq e (by simp [he])) h
    exact ⟨h3, h4.trans h2⟩

theorem calls_nil {es : List Thr.Ev} (h : calls es = []) (a : Nat) : .call a ∉ es := by
  intro hm
  have : a ∈ calls es := List.mem_filterMap.mpr ⟨_, hm, rfl⟩
  rw [h] at this
  cases this

/-- A collected throttler is not called, and does nothing any more. -/
theorem dead_step (e : Env) {σ : St} (hi : Inv σ) (op : Op) {w : Nat} {x : Wrap} (h : σ.wraps[w]? = some x) (hl : x.live = false) :
    ∃ x', (step e σ op).2.wraps[w]? = some x' ∧ x'.busy = false ∧ x'.st.trace = x.st.trace ∧ x'.seen = x.seen := by
  have hh : x.held = false := by
    cases hx : x.held
    · rfl
    · rw [hi.held w x h hx] at hl; cases hl
  obtain ⟨x', es, h1, h2, h3, _⟩ := step_ext e hi op h
  have hg : given σ w op = [] := by
    cases op with
    | emit s args =>
      simp only [given, heard, List.map_eq_nil_iff, List.filter_eq_nil_iff, decide_eq_true_eq]
      rintro b hb ⟨_, rfl⟩
      obtain ⟨y, k1, k2, _⟩ := hi.slot b hb
      rw [h] at k1
      cases k1
      rw [hl] at k2; cases k2
    | call w' args => simp [given, held_get h, hh]
    | _ => rfl
  rw [hg] at h2
  have hc := calls_nil h2.num
  obtain ⟨h4, h5⟩ := quiet_events es (hi.dead w x h hl) (fun ev hm => by
    have := h3 ev hm
    cases ev with
    | tick => exact .inl rfl
    | call a => exact absurd hm (hc a)
    | cancel => rw [this.2 (.inl rfl)] at hh; cases hh
    | flush => rw [this.2 (.inr rfl)] at hh; cases hh
    | fire k => exact .inr (.inl ⟨k, rfl⟩)
    | reap k => exact .inr (.inr ⟨k, rfl⟩)) h2.st
  exact ⟨x', h1, h4, h5, by rw [h2.seen]; simp⟩

theorem remove_sub {s w : Nat} {b : Slot} : ∀ {l : List Slot}, b ∈ remove s w l → b ∈ l
  | c :: l, h => by
    rw [remove] at h
    split at h
    · exact List.mem_cons_of_mem _ h
    · rcases List.mem_cons.mp h with rfl | h
      · simp
      · exact List.mem_cons_of_mem _ (remove_sub h)

theorem live_step (e : Env) {σ : St} (hi : Inv σ) (op : Op) (hop : (∀ w, op ≠ .drop w) ∧ ∀ w, op ≠ .gc w) {w : Nat} {x : Wrap}
    (h : σ.wraps[w]? = some x) : ∃ x', (step e σ op).2.wraps[w]? = some x' ∧ x'.live = x.live := by
  have modi : ∀ (w' : Nat) (f : Wrap → Wrap), (∀ x, (f x).live = x.live) → ∃ x', (σ.wraps.modify w' f)[w]? = some x' ∧ x'.live = x.live := by
    intro w' f hf
    rw [modify_get]
    split
    · exact ⟨f x, by rw [h]; rfl, hf x⟩
    · exact ⟨x, h, rfl⟩
  cases op with
  | make kind t l lo hi' =>
    refine ⟨x, ?_, rfl⟩
    simp only [step, make]
    rw [List.getElem?_append_left (List.getElem?_eq_some_iff.mp h).1, h]
  | connect s w' =>
    refine ⟨x, ?_, rfl⟩
    simp only [step, connect]
    split
    · exact h
    · split
      · split <;> exact h
      · exact h
  | disconnect s w' =>
    refine ⟨x, ?_, rfl⟩
    simp only [step]
    split <;> exact h
  | emit s args =>
    obtain ⟨_, h2⟩ := emitLoop_spec s args σ.slots σ.wraps fun b hb => by
      obtain ⟨y, h1, h2, _⟩ := hi.slot b hb
      exact ⟨y, h1, h2⟩
    refine ⟨callAll (heard s args w σ.slots) x, ?_, (callAll_same _ x).2⟩
    simp only [step]
    rw [h2, h]
    rfl
  | call w' args =>
    simp only [step]
    split
    · exact modi _ _ fun _ => rfl
    · exact ⟨x, h, rfl⟩
  | cancel w' =>
    simp only [step]
    split
    · exact modi _ _ fun _ => rfl
    · exact ⟨x, h, rfl⟩
  | flush w' =>
    simp only [step]
    split
    · exact modi _ _ fun _ => rfl
    · exact ⟨x, h, rfl⟩
  | drop w' => exact absurd rfl (hop.1 w')
  | gc w' => exact absurd rfl (hop.2 w')
  | tick =>
    refine ⟨x.event .tick, ?_, rfl⟩
    simp only [step]
    rw [List.getElem?_map, h]; rfl
  | fire w' k => exact modi _ _ fun _ => rfl
  | reap w' k => exact modi _ _ fun _ => rfl

/-- Nobody rises from the dead. -/
theorem dead_stays (e : Env) {σ : St} (hi : Inv σ) (op : Op) {w : Nat} {x : Wrap} (h : σ.wraps[w]? = some x) (hl : x.live = false) :
    ∃ x', (step e σ op).2.wraps[w]? = some x' ∧ x'.live = false := by
  have hgc : ∀ (v : Nat) {σ : St} {x : Wrap}, σ.wraps[w]? = some x → x.live = false → ∃ x', (gc e v σ).wraps[w]? = some x' ∧ x'.live = false := by
    intro v σ x h hl
    unfold gc
    split
    · rw [kill_get]
      split
      · exact ⟨{ x with live := false }, by rw [h]; rfl, rfl⟩
      · exact ⟨x, h, hl⟩
    · exact ⟨x, h, hl⟩
  by_cases hd : ∃ w, op = .drop w
  · obtain ⟨v, rfl⟩ := hd
    have h0 : ∃ y, ({ σ with wraps := σ.wraps.modify v fun x => { x with held := false } } : St).wraps[w]? = some y ∧ y.live = false := by
      show ∃ y, (σ.wraps.modify v _)[w]? = some y ∧ _
      rw [modify_get]
      split
      · exact ⟨{ x with held := false }, by rw [h]; rfl, hl⟩
      · exact ⟨x, h, hl⟩
    obtain ⟨y, h1, h2⟩ := h0
    simp only [step, unref]
    split
    · exact ⟨y, h1, h2⟩
    · split
      · exact hgc v h1 h2
      · exact ⟨y, h1, h2⟩
  by_cases hg : ∃ w, op = .gc w
  · obtain ⟨v, rfl⟩ := hg
    exact hgc v h hl
  obtain ⟨y, h1, h2⟩ := live_step e hi op ⟨fun w q => hd ⟨w, q⟩, fun w q => hg ⟨w, q⟩⟩ h
  exact ⟨y, h1, h2.trans hl⟩

theorem kill_inv {σ : St} (hi : Inv σ) {w : Nat} (hf : ∀ x, σ.wraps[w]? = some x → x.held = false ∧ x.busy = false) : Inv (kill w σ) where
  slot := by
    intro b hb
    simp only [kill, List.mem_filter, decide_eq_true_eq] at hb
    obtain ⟨x, h1, h2, h3⟩ := hi.slot b hb.1
    exact ⟨x, by rw [kill_get, if_neg (Ne.symm hb.2), h1], h2, h3⟩
  held := by
    intro v x hx hh
    rw [kill_get] at hx
    split at hx
    · rename_i hw
      subst hw
      cases hg : σ.wraps[w]? with
      | none => rw [hg] at hx; cases hx
      | some y =>
        rw [hg] at hx
        cases hx
        rw [show y.held = false from (hf y hg).1] at hh
        cases hh
    · exact hi.held v x hx hh
  dead := by
    intro v x hx hh
    rw [kill_get] at hx
    split at hx
    · rename_i hw
      subst hw
      cases hg : σ.wraps[w]? with
      | none => rw [hg] at hx; cases hx
      | some y =>
        rw [hg] at hx
        cases hx
        exact (hf y hg).2
    · exact hi.dead v x hx hh

theorem gc_inv (e : Env) {σ : St} (hi : Inv σ) (w : Nat) : Inv (gc e w σ) := by
  unfold gc
  split
  · rename_i hf
    refine kill_inv hi fun x hx => ?_
    simp only [free, hx, Bool.and_eq_true, Bool.not_eq_true'] at hf
    exact hf.1
  · exact hi

theorem gc_none (e : Env) (w : Nat) {v : Nat} {σ : St} (h : σ.wraps[v]? = none) : (gc e w σ).wraps[v]? = none := by
  unfold gc
  split
  · rw [kill_get]
    split
    · rw [h]; rfl
    · exact h
  · exact h

/-- New throttlers come from `make`. -/
theorem fresh_step (e : Env) {σ : St} (hi : Inv σ) (op : Op) {w : Nat} {x' : Wrap} (hx : σ.wraps[w]? = none)
    (hx' : (step e σ op).2.wraps[w]? = some x') : ∃ kind t l lo hi', op = .make kind t l lo hi'
      ∧ x' = ⟨⟨kind, l, t⟩, lo, hi', Thr.St.init, [], true, true⟩ := by
  have none_modify : ∀ (w' : Nat) (f : Wrap → Wrap), (σ.wraps.modify w' f)[w]? = none := by
    intro w' f
    rw [modify_get, hx]; simp
  cases op with
  | make kind t l lo hi' =>
    simp only [step, make] at hx'
    have hle : σ.wraps.length ≤ w := List.getElem?_eq_none_iff.mp hx
    rw [List.getElem?_append_right hle] at hx'
    cases hn : w - σ.wraps.length with
    | zero => rw [hn] at hx'; cases hx'; exact ⟨_, _, _, _, _, rfl, rfl⟩
    | succ n => rw [hn] at hx'; simp at hx'
  | connect s w' =>
    exfalso
    simp only [step, connect] at hx'
    split at hx'
    · rw [hx] at hx'; cases hx'
    · split at hx'
      · split at hx' <;> (rw [hx] at hx'; cases hx')
      · rw [hx] at hx'; cases hx'
  | disconnect s w' => exfalso; simp only [step] at hx'; split at hx' <;> (rw [hx] at hx'; cases hx')
  | emit s args =>
    exfalso
    obtain ⟨_, h2⟩ := emitLoop_spec s args σ.slots σ.wraps fun b hb => by
      obtain ⟨y, h1, h2, _⟩ := hi.slot b hb
      exact ⟨y, h1, h2⟩
    simp only [step] at hx'
    rw [h2, hx] at hx'
    cases hx'
  | call w' args =>
    exfalso; simp only [step] at hx'; split at hx'
    · rw [none_modify] at hx'; cases hx'
    · rw [hx] at hx'; cases hx'
  | cancel w' =>
    exfalso; simp only [step] at hx'; split at hx'
    · rw [none_modify] at hx'; cases hx'
    · rw [hx] at hx'; cases hx'
  | flush w' =>
    exfalso; simp only [step] at hx'; split at hx'
    · rw [none_modify] at hx'; cases hx'
    · rw [hx] at hx'; cases hx'
  | drop w' =>
    exfalso
    simp only [step] at hx'
    have hn : ({ σ with wraps := σ.wraps.modify w' fun x => { x with held := false } } : St).wraps[w]? = none := none_modify _ _
    revert hx'
    simp only [unref]
    split
    · intro hx'; rw [hn] at hx'; cases hx'
    · split
      · intro hx'; rw [gc_none e w' hn] at hx'; cases hx'
      · intro hx'; rw [hn] at hx'; cases hx'
  | gc w' => exfalso; simp only [step] at hx'; rw [gc_none e w' hx] at hx'; cases hx'
  | tick => exfalso; simp only [step] at hx'; rw [List.getElem?_map, hx] at hx'; cases hx'
  | fire w' k => exfalso; simp only [step] at hx'; rw [none_modify] at hx'; cases hx'
  | reap w' k => exfalso; simp only [step] at hx'; rw [none_modify] at hx'; cases hx'

/-- One operation. -/
theorem step_inv (e : Env) {σ : St} (hi : Inv σ) (op : Op) : Inv (step e σ op).2 := by
  by_cases hd : ∃ w, op = .drop w
  · obtain ⟨w, rfl⟩ := hd
    have h0 : Inv { σ with wraps := σ.wraps.modify w fun x => { x with held := false } } := by
      refine ⟨fun b hb => ?_, fun v x hx hh => ?_, fun v x hx hh => ?_⟩
      · obtain ⟨x, h1, h2, h3⟩ := hi.slot b hb
        show ∃ y, (σ.wraps.modify w _)[b.tgt]? = some y ∧ _
        rw [modify_get]
        split
        · exact ⟨{ x with held := false }, by rw [h1]; rfl, h2, h3⟩
        · exact ⟨x, h1, h2, h3⟩
      · replace hx : (σ.wraps.modify w _)[v]? = some x := hx
        rw [modify_get] at hx
        split at hx
        · cases hg : σ.wraps[v]? with
          | none => rw [hg] at hx; cases hx
          | some y => rw [hg] at hx; cases hx; cases hh
        · exact hi.held v x hx hh
      · replace hx : (σ.wraps.modify w _)[v]? = some x := hx
        rw [modify_get] at hx
        split at hx
        · cases hg : σ.wraps[v]? with
          | none => rw [hg] at hx; cases hx
          | some y => rw [hg] at hx; cases hx; exact hi.dead v y hg hh
        · exact hi.dead v x hx hh
    simp only [step, unref]
    split
    · exact h0
    · split
      · exact gc_inv e h0 w
      · exact h0
  by_cases hg : ∃ w, op = .gc w
  · obtain ⟨w, rfl⟩ := hg
    exact gc_inv e hi w
  have hop : (∀ w, op ≠ .drop w) ∧ ∀ w, op ≠ .gc w := ⟨fun w q => hd ⟨w, q⟩, fun w q => hg ⟨w, q⟩⟩
  have back : ∀ (w : Nat) (x' : Wrap), (step e σ op).2.wraps[w]? = some x' → (∃ x, σ.wraps[w]? = some x ∧ x'.live = x.live ∧ x'.held = x.held
      ∧ (x.live = false → x'.busy = false)) ∨ x'.live = true := by
    intro w x' hx'
    cases hx : σ.wraps[w]? with
    | some x =>
      refine .inl ⟨x, rfl, ?_, ?_, fun hl => ?_⟩
      · obtain ⟨y, h1, h2⟩ := live_step e hi op hop hx
        rw [hx'] at h1; cases h1; exact h2
      · obtain ⟨y, es, h1, _, _, h2⟩ := step_ext e hi op hx
        rw [hx'] at h1; cases h1; rw [h2]; simp [hop.1 w]
      · obtain ⟨y, h1, h2, _⟩ := dead_step e hi op hx hl
        rw [hx'] at h1; cases h1; exact h2
    | none =>
      obtain ⟨kind, t, l, lo, hi', rfl, rfl⟩ := fresh_step e hi op hx hx'
      exact .inr rfl
  have old : ∀ b ∈ σ.slots, ∃ x, (step e σ op).2.wraps[b.tgt]? = some x ∧ x.live = true ∧ b.maxArgs = x.hi := by
    intro b hb
    obtain ⟨x, h1, h2, h3⟩ := hi.slot b hb
    obtain ⟨y, k1, k2⟩ := live_step e hi op hop h1
    obtain ⟨z, es, k3, k4, _⟩ := step_ext e hi op h1
    rw [k1] at k3
    cases k3
    exact ⟨y, k1, k2.trans h2, by rw [k4.hi, h3]⟩
  refine ⟨fun b hb => ?_, fun w x hx hh => ?_, fun w x hx hh => ?_⟩
  · cases op with
    | connect s w =>
      simp only [step, connect] at hb
      revert hb old
      simp only [step, connect]
      split
      · exact fun old hb => old b hb
      · rename_i x hx
        split
        · rename_i hh
          split
          · intro old hb
            rcases List.mem_append.mp hb with hb | hb
            · exact old b hb
            · rw [List.mem_singleton] at hb
              subst hb
              exact ⟨x, hx, hi.held w x hx hh, rfl⟩
          · exact fun old hb => old b hb
        · exact fun old hb => old b hb
    | disconnect s w =>
      refine old b ?_
      simp only [step] at hb
      split at hb
      · exact remove_sub hb
      · exact hb
    | make kind t l lo hi' => exact old b hb
    | emit s args => exact old b hb
    | call w args => exact old b (by simp only [step] at hb; split at hb <;> exact hb)
    | cancel w => exact old b (by simp only [step] at hb; split at hb <;> exact hb)
    | flush w => exact old b (by simp only [step] at hb; split at hb <;> exact hb)
    | drop w => exact absurd rfl (hop.1 w)
    | gc w => exact absurd rfl (hop.2 w)
    | tick => exact old b hb
    | fire w k => exact old b hb
    | reap w k => exact old b hb
  · rcases back w x hx with ⟨y, h1, h2, h3, _⟩ | h1
    · rw [h2]; exact hi.held w y h1 (h3 ▸ hh)
    · exact h1
  · rcases back w x hx with ⟨y, h1, h2, _, h3⟩ | h1
    · exact h3 (h2 ▸ hh)
    · rw [h1] at hh; cases hh

theorem run_append (e : Env) : ∀ (l l' : List Op) (σ : St), run e (l ++ l') σ = run e l' (run e l σ)
  | [], _, _ => rfl
  | _ :: l, l', _ => run_append e l l' _

theorem run_inv (e : Env) : ∀ (l : List Op) {σ : St}, Inv σ → Inv (run e l σ)
  | [], _, h => h
  | op :: l, _, h => run_inv e l (step_inv e h op)

/-- One throttler in a history. -/
theorem run_ext (e : Env) : ∀ (l : List Op) {σ : St}, Inv σ → ∀ {w : Nat} {x : Wrap}, σ.wraps[w]? = some x →
    ∃ x' es new, (run e l σ).wraps[w]? = some x' ∧ Ext x x' es new ∧ (∀ ev ∈ es, ∃ op ∈ l, Fits w op ev)
      ∧ x'.held = (x.held && decide (.drop w ∉ l))
  | [], σ, _, w, x, h => ⟨x, [], [], h, Ext.refl x, by simp, by simp⟩
  | op :: l, σ, hi, w, x, h => by
    obtain ⟨y, es, h1, h2, h3, h4⟩ := step_ext e hi op h
    obtain ⟨z, es', n', k1, k2, k3, k4⟩ := run_ext e l (step_inv e hi op) h1
    refine ⟨z, es ++ es', _, k1, h2.trans k2, fun ev hm => ?_, ?_⟩
    · rcases List.mem_append.mp hm with hm | hm
      · exact ⟨op, by simp, (h3 ev hm).1⟩
      · obtain ⟨o, ho, hf⟩ := k3 ev hm
        exact ⟨o, by simp [ho], hf⟩
    · rw [k4, h4]
      by_cases hd : op = .drop w
      · simp [hd]
      · simp [hd, Ne.symm hd]

/-- A throttler that exists at the end was made at some point, and has had a history of its own since. -/
theorem made_at (e : Env) {w : Nat} {x : Wrap} : ∀ (l : List Op) {σ : St}, Inv σ → σ.wraps[w]? = none → (run e l σ).wraps[w]? = some x →
    ∃ es new, Ext ⟨x.cfg, x.lo, x.hi, Thr.St.init, [], true, true⟩ x es new ∧ (∀ ev ∈ es, ∃ op ∈ l, Fits w op ev)
  | [], σ, _, hn, h => by
    rw [show run e [] σ = σ from rfl, hn] at h; cases h
  | op :: l, σ, hi, hn, h => by
    cases hs : (step e σ op).2.wraps[w]? with
    | none =>
      obtain ⟨es, new, h1, h2⟩ := made_at e l (step_inv e hi op) hs h
      exact ⟨es, new, h1, fun ev hm => by
        obtain ⟨o, ho, hf⟩ := h2 ev hm
        exact ⟨o, by simp [ho], hf⟩⟩
    | some y =>
      obtain ⟨kind, t, ld, lo, hi', rfl, rfl⟩ := fresh_step e hi op hn hs
      obtain ⟨z, es, new, k1, k2, k3, _⟩ := run_ext e l (step_inv e hi _) hs
      rw [show (run e l (step e σ _).2).wraps[w]? = some x from h] at k1
      cases k1
      refine ⟨es, new, ?_, fun ev hm => ?_⟩
      · obtain ⟨a, b, c, d, f, g⟩ := k2
        have a' : x.cfg = _ := a
        exact ⟨rfl, rfl, rfl, by rw [a']; exact d, f, g⟩
      · obtain ⟨o, ho, hf⟩ := k3 ev hm
        exact ⟨o, by simp [ho], hf⟩

theorem made (e : Env) (l : List Op) {w : Nat} {x : Wrap} (h : (run e l init).wraps[w]? = some x) :
    ∃ es, x.st = thr x.cfg es Thr.St.init ∧ calls es = List.range' 0 x.seen.length ∧ ∀ ev ∈ es, ∃ op ∈ l, Fits w op ev := by
  obtain ⟨es, new, h1, h2⟩ := made_at e l inv_init (by simp [init]) h
  refine ⟨es, h1.st, ?_, h2⟩
  have h3 := h1.seen
  have h4 := h1.num
  simp only [List.nil_append] at h3
  rw [h4, h3]
  rfl

end Psygnal.ThS
