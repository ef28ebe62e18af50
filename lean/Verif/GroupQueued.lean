import Verif.GroupLemmas
import Verif.Props.Reemission

/-!
# Groups with members in queued mode: lemmas for C19
-/
namespace Psygnal

/-- The log of emissions of `c` whose values are passed on by group `r`: for each value, in order, the relay is invoked, and inside
this invocation the group emits it to the listeners `xs` (specification: `/repo/src/psygnal/_group.py:92-105`). -/
def Heard (r c : SigId) (em : Nat) (th : ThreadId) (xs : List Slot) : List Args → List Ev → Prop
  | [], _ => True
  | a :: as, l => ∃ l₁ d em' l₂ l₃, l = l₁ ++ .call (some em) (some c) d (some c) th (.relay r) a :: .req r [.info c a] ::
        (l₂ ++ .ret (some em) (some c) (.relay r) (.ok ()) :: l₃) ∧
      Deliveries r em' th [.info c a] xs l₂ ∧ Heard r c em th xs as l₃

theorem Heard.prepend {r c : SigId} {em : Nat} {th : ThreadId} {xs : List Slot} {as : List Args} {l : List Ev} (l0 : List Ev)
    (h : Heard r c em th xs as l) : Heard r c em th xs as (l0 ++ l) := by
  cases as with
  | nil => trivial
  | cons a as =>
    obtain ⟨l1, d, em', l2, l3, rfl, h1, h2⟩ := h
    exact ⟨l0 ++ l1, d, em', l2, l3, by simp, h1, h2⟩

theorem forQueued_visits {env : Env} {t w w' res} (h : Runs env t w w' res) : ∀ s em args i xs j x,
    t = .forQueued s em args i → res = .ok () →
    (∀ t1 w1, Within env t w t1 w1 → (w1.sig s).slots = xs) → i ≤ j → xs[j]? = some x →
    ∃ w1 w2, Within env t w (.cb (some em) (some s) x args) w1 ∧
      Runs env (.cb (some em) (some s) x args) w1 w2 (.ok ()) ∧
      w1.emitter = w.emitter ∧ w1.thread = w.thread ∧ w.log <+: w1.log ∧ w2.log <+: w'.log := by
  refine Runs.induct (P := fun t w w' res => ∀ s em args i xs j x,
    t = .forQueued s em args i → res = .ok () →
    (∀ t1 w1, Within env t w t1 w1 → (w1.sig s).slots = xs) → i ≤ j → xs[j]? = some x →
    ∃ w1 w2, Within env t w (.cb (some em) (some s) x args) w1 ∧
      Runs env (.cb (some em) (some s) x args) w1 w2 (.ok ()) ∧
      w1.emitter = w.emitter ∧ w1.thread = w.thread ∧ w.log <+: w1.log ∧ w2.log <+: w'.log) ?_ h
  clear h
  rintro t w w' res h s em args i xs j x rfl rfl hk hij hj
  have hs := hk _ _ .refl
  have hi : i < xs.length := by
    have := (List.getElem?_eq_some_iff.1 hj).1
    omega
  have hx : (w.sig s).slots[i]? = some xs[i] := by rw [hs]; exact List.getElem?_eq_getElem hi
  simp only [body, hx] at h
  obtain ⟨w1, r1, ⟨h1, -⟩, h2⟩ := h
  cases r1 with
  | error e => simp [Comp.Via] at h2
  | ok u =>
    dsimp only at h2
    split at h2
    · simp [Comp.Via] at h2
    rename_i hlen
    obtain ⟨w2, r2, ⟨h3, ih⟩, rfl, rfl⟩ := h2
    by_cases hji : j = i
    · subst hji
      rw [List.getElem?_eq_getElem hi] at hj
      cases hj
      exact ⟨w, w1, .step .refl (by simp only [body, hx]; exact .inl ⟨rfl, rfl⟩), h1, rfl, rfl, List.prefix_rfl,
        log_prefix h3⟩
    · have hw : Within env (.forQueued s em args i) w (.forQueued s em args (i + 1)) w1 :=
        .step .refl (by
          simp only [body, hx]
          exact .inr ⟨w1, _, h1, by simp only [hlen, if_false]; exact .inl ⟨rfl, rfl⟩⟩)
      obtain ⟨w3, w4, a1, a2, a3, a4, a5, a6⟩ := ih s em args (i + 1) xs j x rfl rfl
        (fun t2 w2 h => hk t2 w2 (hw.trans h)) (by omega) hj
      exact ⟨w3, w4, hw.trans a1, a2, by rw [a3, emitter_restored h1], by rw [a4, thread_const h1],
        (log_prefix h1).trans a5, a6⟩

/-- One round of a member in queued mode. -/
theorem round_heard {env : Env} {Q : Act → Prop} {r c : SigId} (hg : Groups env) (hr : (env.decl r).isRelay = true)
    {em n : Nat} {a : Args} {w w' : World} {xs ys : List Slot} (hl : Live env Q (.forQueued c em a 0) w)
    (hem : w.emitter = some c) (hmem : ({ relaySlot r with serial := n } : Slot) ∈ ys)
    (hkc : ∀ t1 w1, Within env (.forQueued c em a 0) w t1 w1 → (w1.sig c).slots = ys)
    (hkr : ∀ t1 w1, Within env (.forQueued c em a 0) w t1 w1 → (w1.sig r).slots = xs)
    (h : Runs env (.forQueued c em a 0) w w' (.ok ())) :
    ∃ l₁ d em' l₂ l₃, w'.log = w.log ++ (l₁ ++ .call (some em) (some c) d (some c) w.thread (.relay r) a :: .req r [.info c a] ::
        (l₂ ++ .ret (some em) (some c) (.relay r) (.ok ()) :: l₃)) ∧
      Deliveries r em' w.thread [.info c a] xs l₂ := by
  obtain ⟨j, hj⟩ := List.getElem?_of_mem hmem
  obtain ⟨wa, wb, a1, a2, a3, a4, a5, a6⟩ := forQueued_visits h c em a 0 ys j _ rfl rfl hkc (Nat.zero_le _) hj
  have hbc : body env (.cb (some em) (some c) { relaySlot r with serial := n } a) wa =
      .call (.direct (some em) (some c) { relaySlot r with serial := n } a) wa .done := by
    simp only [body, relaySlot]
  rw [runs_iff, hbc] at a2
  obtain ⟨w3, r3, a2, h4, h5⟩ := a2
  subst h4; subst h5
  have hw4 := a1.trans (.step .refl (by rw [hbc]; exact .inl ⟨rfl, rfl⟩))
  have hca : (wa.sig c).slots ≠ [] := by
    rw [hkc _ _ hw4]
    intro h0
    rw [h0] at hmem
    simp at hmem
  obtain ⟨d, em', l, hlog, hd⟩ := relay_call (live_within hl hw4) rfl hr (hg.mode r hr)
    (c := c) (by rw [a3, hem]) hca (fun t1 w1 h => hkr t1 w1 (hw4.trans h)) a2
  have hrec : ({ relaySlot r with serial := n } : Slot).receives a = a := by
    simp [Slot.receives, relaySlot]
  rw [hrec, a4] at hlog
  rw [hrec, a4] at hd
  obtain ⟨l1, hl1⟩ := a5
  obtain ⟨l3, hl3⟩ := a6
  refine ⟨l1, d, em', l, l3, ?_, hd⟩
  rw [← hl3, hlog, ← hl1]
  simp

theorem whileQueued_heard {env : Env} {Q : Act → Prop} {r c : SigId} (hg : Groups env) (hr : (env.decl r).isRelay = true)
    {em n : Nat} {xs ys : List Slot} (hmem : ({ relaySlot r with serial := n } : Slot) ∈ ys)
    {t w w' res} (h : Runs env t w w' res) : ∀ i, t = .whileQueued c em i → res = .ok () → Live env Q t w →
    w.emitter = some c →
    (∀ t1 w1, Within env t w t1 w1 → (w1.sig c).slots = ys) →
    (∀ t1 w1, Within env t w t1 w1 → (w1.sig r).slots = xs) →
    ∃ l, w'.log = w.log ++ l ∧ Heard r c em w.thread xs ((w'.sig c).emitQueue.drop i) l := by
  refine Runs.induct (P := fun t w w' res => ∀ i, t = .whileQueued c em i → res = .ok () → Live env Q t w →
    w.emitter = some c →
    (∀ t1 w1, Within env t w t1 w1 → (w1.sig c).slots = ys) →
    (∀ t1 w1, Within env t w t1 w1 → (w1.sig r).slots = xs) →
    ∃ l, w'.log = w.log ++ l ∧ Heard r c em w.thread xs ((w'.sig c).emitQueue.drop i) l) ?_ h
  clear h
  rintro t w w' res h i rfl rfl hl hem hkc hkr
  simp only [body] at h
  split at h
  · rename_i hq
    obtain ⟨rfl, -⟩ := h
    rw [List.getElem?_eq_none_iff] at hq
    exact ⟨[], by simp, by rw [List.drop_eq_nil_of_le hq]; trivial⟩
  · rename_i a ha
    obtain ⟨w1, r1, ⟨h1, -⟩, h2⟩ := h
    cases r1 with
    | error e =>
      obtain ⟨rfl, h2⟩ := h2
      simp at h2
    | ok u =>
      obtain ⟨w2, r2, ⟨h3, ih⟩, rfl, rfl⟩ := h2
      have hwa : Within env (.whileQueued c em i) w (.forQueued c em a 0) w :=
        .step .refl (by simp only [body, ha]; exact .inl ⟨rfl, rfl⟩)
      have hwb : Within env (.whileQueued c em i) w (.whileQueued c em (i + 1)) w1 :=
        .step .refl (by simp only [body, ha]; exact .inr ⟨w1, _, h1, .inl ⟨rfl, rfl⟩⟩)
      obtain ⟨l1, d, em', l2, l3, hlog, hd⟩ := round_heard hg hr (live_within hl hwa) hem hmem
        (fun t1 w1 g => hkc t1 w1 (hwa.trans g)) (fun t1 w1 g => hkr t1 w1 (hwa.trans g)) h1
      obtain ⟨l, hl2, hh⟩ := ih (i + 1) rfl rfl (live_within hl hwb) (by rw [emitter_restored h1, hem])
        (fun t1 w1 g => hkc t1 w1 (hwb.trans g)) (fun t1 w1 g => hkr t1 w1 (hwb.trans g))
      have hpre : (w.sig c).emitQueue <+: (w'.sig c).emitQueue :=
        (emitQueue_inv h1 c (by simp)).1.trans (emitQueue_inv h3 c (by simp)).1
      have hdr : (w'.sig c).emitQueue.drop i = a :: (w'.sig c).emitQueue.drop (i + 1) := by
        obtain ⟨q, hq⟩ := hpre
        rw [List.getElem?_eq_some_iff] at ha
        obtain ⟨hi, rfl⟩ := ha
        rw [← hq, List.drop_eq_getElem_cons (by simp; omega)]
        rw [List.getElem_append_left hi]
      rw [thread_const h1] at hh
      refine ⟨_, by rw [hl2, hlog, List.append_assoc], ?_⟩
      rw [hdr]
      exact ⟨l1, d, em', l2, l3 ++ l, by simp, hd, by
        exact Heard.prepend l3 hh⟩

end Psygnal
