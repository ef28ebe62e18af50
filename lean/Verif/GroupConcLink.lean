import Verif.GroupConcLemmas

/-! # When a group is connected to its members -/
namespace Psygnal.GrC

/-- What the thread takes off the group. -/
def offOf : Ctl → Option Off
  | .dfrom o _ => some o
  | .dwait o => some o
  | .drem o => some o
  | .dcheck o => some o
  | .dlink o _ => some o
  | .dend o => some o
  | _ => none

/-- Threads that take something off the group have been asked to. -/
def Called (σ : St) : Prop := ∀ t o, offOf (σ.thr t).ctl = some o → Ev.offCall t o ∈ σ.log

theorem log_step {e : Env} {t : Nat} {σ σ' : St} (h : Step e t σ σ') : ∃ l, σ'.log = σ.log ++ l := by
  cases h <;> first
    | exact ⟨_, rfl⟩
    | exact ⟨[], by simp⟩

theorem mem_log_step {e : Env} {t : Nat} {σ σ' : St} (h : Step e t σ σ') {ev : Ev} (hev : ev ∈ σ.log) : ev ∈ σ'.log := by
  obtain ⟨l, hl⟩ := log_step h
  rw [hl]
  exact List.mem_append_left _ hev

theorem thr_other {e : Env} {t : Nat} {σ σ' : St} (h : Step e t σ σ') {u : Nat} (hu : u ≠ t) : σ'.thr u = σ.thr u := by
  cases h <;> simp [set_other hu]

theorem called_step {e : Env} {t : Nat} {σ σ' : St} (h : Step e t σ σ') (hc : Called σ) : Called σ' := by
  intro u o ho
  by_cases hu : u = t
  · subst hu
    have hc := hc u
    cases h <;> simp [offOf] at ho ⊢ <;> grind [offOf]
  · exact mem_log_step h (hc u o (by rw [thr_other h hu] at ho; exact ho))

/-- Is the thread between a change of the group's list of listeners and what follows from it? -/
def mid : Ctl → Bool
  | .ccheck _ => true
  | .clink _ _ => true
  | .dcheck _ => true
  | .dlink _ _ => true
  | _ => false

/-- The thread is in `group.all.disconnect()` and has already emptied the list of member `m`. -/
def clearing (e : Env) (m : Nat) : Ctl → Prop
  | .dfrom .all ms => ∃ done, e.members = done ++ ms ∧ m ∈ done
  | .dwait .all => True
  | .drem .all => True
  | _ => False

/-- Some thread has, see `clearing`. -/
def Cleared (e : Env) (σ : St) (m : Nat) : Prop := ∃ t, clearing e m (σ.thr t).ctl

/-- All members have the relay (or are being cleared). -/
def Linked (e : Env) (σ : St) : Prop := ∀ m ∈ e.members, Slot.relay ∈ σ.slots m ∨ Cleared e σ m

/-- No signal has the relay. -/
def Unlinked (σ : St) : Prop := ∀ m, Slot.relay ∉ σ.slots m

/-- What is true while a thread is at such a place. -/
def MidOk (e : Env) (σ : St) : Ctl → Prop
  | .ccheck _ => σ.gslots ≠ [] ∧ (σ.gslots.length = 1 → Unlinked σ) ∧ (σ.gslots.length ≠ 1 → Linked e σ)
  | .clink _ ms => σ.gslots.length = 1 ∧ ∀ m ∈ e.members, m ∈ ms ∨ Slot.relay ∈ σ.slots m ∨ Cleared e σ m
  | .dcheck _ => σ.gslots ≠ [] → Linked e σ
  | .dlink _ ms => σ.gslots = [] ∧ ∀ m, Slot.relay ∈ σ.slots m → m ∈ ms
  | _ => True

/-- The lists of members left are ends of the list of members. -/
def SufOk (e : Env) : Ctl → Prop
  | .dfrom _ ms => ∃ done, e.members = done ++ ms
  | .clink _ ms => ∃ done, e.members = done ++ ms
  | _ => True

/-- A group is connected to its members if it has listeners. -/
structure Link (e : Env) (σ : St) : Prop where
  once : ∀ m, (σ.slots m).count .relay ≤ 1
  foreign : ∀ m, Slot.relay ∈ σ.slots m → m ∈ e.members
  suf : ∀ t, SufOk e (σ.thr t).ctl
  mids : ∀ t, MidOk e σ (σ.thr t).ctl
  idle : (∀ t, mid (σ.thr t).ctl = false) → (σ.gslots = [] → Unlinked σ) ∧ (σ.gslots ≠ [] → Linked e σ)

/-- Being cleared lasts until the listeners of the group are removed. -/
theorem clearing_step {e : Env} {t : Nat} {σ σ' : St} (h : Step e t σ σ') {m : Nat} (hc : clearing e m (σ.thr t).ctl)
    (hr : (σ.thr t).ctl ≠ .drem .all) : clearing e m (σ'.thr t).ctl := by
  cases h with
  | dfromEnd h => rw [h] at hc; simp only [to_thr, set_same]; revert hc; rename_i o _; cases o <;> simp [clearing]
  | dfrom h =>
    rw [h] at hc; simp only [to_thr, set_same]; revert hc; rename_i o m' ms _ _ ; cases o <;> simp [clearing]
    intro done h1 h2
    exact ⟨done ++ [m'], by simpa using h1, by simp [h2]⟩
  | dwait h => rw [h] at hc; simp only [to_thr, set_same]; revert hc; rename_i o _ _ _ _; cases o <;> simp [clearing]
  | drem h ho => rw [h] at hc; rcases ho with rfl | rfl <;> exact hc.elim
  | dremNo h ho => rw [h] at hc; rcases ho with rfl | rfl <;> exact hc.elim
  | dremAll h => rw [h] at hr; exact absurd rfl hr
  | _ h => rw [h] at hc; exact hc.elim

theorem cleared_step {e : Env} {t : Nat} {σ σ' : St} (h : Step e t σ σ') {m : Nat} (hc : Cleared e σ m)
    (hr : (σ.thr t).ctl ≠ .drem .all) : Cleared e σ' m := by
  obtain ⟨u, hu⟩ := hc
  refine ⟨u, ?_⟩
  by_cases hut : u = t
  · subst hut; exact clearing_step h hu hr
  · rw [thr_other h hut]; exact hu

/-- Threads at such places hold the lock of the group, unless a listener has died. -/
theorem mid_held {σ : St} (hd : ∀ t f, Ev.offCall t (.dead f) ∉ σ.log) (hc : Called σ) {t : Nat}
    (hm : mid (σ.thr t).ctl = true) : 0 < held .grp (σ.thr t) := by
  have hc := hc t
  have hd := hd t
  unfold held
  generalize (σ.thr t).ctl = c at *
  cases c with
  | ccheck f => simp [heldC, same]; omega
  | clink f ms => simp [heldC, same]; omega
  | dcheck o =>
    cases o with
    | dead f => exact absurd (hc _ rfl) (hd f)
    | one f => simp [heldC, same]; omega
    | all => simp [heldC, same]; omega
  | dlink o ms =>
    cases o with
    | dead f => exact absurd (hc _ rfl) (hd f)
    | one f => simp [heldC, same]; omega
    | all => simp [heldC, same]; omega
  | _ => simp [mid] at hm

/-- A step that changes no list of listeners and no membership of the relay. -/
theorem Link.frame {e : Env} {t : Nat} {σ σ' : St} (h : Step e t σ σ') (hl : Link e σ) (hg : σ'.gslots = σ.gslots)
    (hr : ∀ m, (σ'.slots m).count .relay = (σ.slots m).count .relay) (hs : SufOk e (σ'.thr t).ctl)
    (hm : mid (σ.thr t).ctl = false) (hm' : mid (σ'.thr t).ctl = false) (hne : (σ.thr t).ctl ≠ .drem .all) :
    Link e σ' := by
  have hmem : ∀ m, Slot.relay ∈ σ'.slots m ↔ Slot.relay ∈ σ.slots m := fun m => by
    rw [← List.count_pos_iff, ← List.count_pos_iff, hr]
  have hL : Linked e σ → Linked e σ' := fun hL m hm => by
    rcases hL m hm with h1 | h1
    · exact .inl ((hmem m).mpr h1)
    · exact .inr (cleared_step h h1 hne)
  have hU : Unlinked σ → Unlinked σ' := fun hU m h1 => hU m ((hmem m).mp h1)
  refine ⟨fun m => by rw [hr]; exact hl.once m, fun m hm => hl.foreign m ((hmem m).mp hm), fun u => ?_, fun u => ?_, fun hi => ?_⟩
  · by_cases hu : u = t
    · subst hu; exact hs
    · rw [thr_other h hu]; exact hl.suf u
  · by_cases hu : u = t
    · subst hu
      generalize (σ'.thr u).ctl = c at *
      cases c <;> simp [mid, MidOk] at *
    · rw [thr_other h hu]
      have hk := hl.mids u
      generalize (σ.thr u).ctl = c at *
      cases c <;> simp only [MidOk, hg] at * <;> try trivial
      · exact ⟨hk.1, fun h1 => hU (hk.2.1 h1), fun h1 => hL (hk.2.2 h1)⟩
      · refine ⟨hk.1, fun m hm => ?_⟩
        rcases hk.2 m hm with h1 | h1 | h1
        · exact .inl h1
        · exact .inr (.inl ((hmem m).mpr h1))
        · exact .inr (.inr (cleared_step h h1 hne))
      · exact fun h1 => hL (hk h1)
      · exact ⟨hk.1, fun m hm => hk.2 m ((hmem m).mp hm)⟩
  · have := hl.idle (fun u => by
      by_cases hu : u = t
      · subst hu; exact hm
      · rw [← thr_other h hu]; exact hi u)
    rw [hg]
    exact ⟨fun h1 => hU (this.1 h1), fun h1 => hL (this.2 h1)⟩

/-- At most one thread is at such a place. -/
theorem mid_one {σ : St} (hk : Locks σ) (hd : ∀ t f, Ev.offCall t (.dead f) ∉ σ.log) (hc : Called σ) {t u : Nat}
    (ht : 0 < held .grp (σ.thr t)) (hu : u ≠ t) : mid (σ.thr u).ctl = false := by
  cases hm : mid (σ.thr u).ctl with
  | false => rfl
  | true => exact absurd (hk.excl (mid_held hd hc hm) ht) hu

theorem count_link (l : List Slot) (h : l.count .relay ≤ 1) : (link l).count .relay = 1 := by
  unfold link
  split
  · rename_i hm
    have := List.count_pos_iff.mpr hm
    omega
  · rename_i hm
    simp [List.count_append, List.count_eq_zero.mpr hm]

theorem count_takeOff {o : Off} (ho : o ≠ .all) (l : List Slot) : (takeOff o l).count .relay = l.count .relay := by
  cases o with
  | one f => simp [takeOff, List.count_erase_of_ne]
  | all => exact absurd rfl ho
  | dead f => rfl

theorem midOk_other {e : Env} {σ : St} {c : Ctl} (h : mid c = false) : MidOk e σ c := by
  cases c <;> simp [mid, MidOk] at *

theorem link_step {e : Env} {t : Nat} {σ σ' : St} (h : Step e t σ σ') (hk : Locks σ) (hc : Called σ)
    (hd : ∀ t f, Ev.offCall t (.dead f) ∉ σ.log) (hl : Link e σ) : Link e σ' := by
  have hone : ∀ {c : Ctl} {st : List Frame}, σ.thr t = ⟨c, st⟩ → 0 < heldC .grp c → ∀ u, u ≠ t → mid (σ.thr u).ctl = false :=
    fun hth hp u hu => mid_one hk hd hc (by rw [held_thr hth]; omega) hu
  have hidle : ∀ {c : Ctl} {st : List Frame}, σ.thr t = ⟨c, st⟩ → 0 < heldC .grp c → mid c = false →
      (σ.gslots = [] → Unlinked σ) ∧ (σ.gslots ≠ [] → Linked e σ) := fun hth hp hm =>
    hl.idle (fun u => by
      by_cases hu : u = t
      · subst hu; rw [hth]; exact hm
      · exact hone hth hp u hu)
  -- a thread in the middle goes on, others are not
  have hmid : ∀ {σ₁ : St}, Step e t σ σ₁ → (∀ u, u ≠ t → mid (σ.thr u).ctl = false) →
      (∀ m, (σ₁.slots m).count .relay ≤ 1) → (∀ m, Slot.relay ∈ σ₁.slots m → m ∈ e.members) → SufOk e (σ₁.thr t).ctl →
      MidOk e σ₁ (σ₁.thr t).ctl →
      (mid (σ₁.thr t).ctl = false → (σ₁.gslots = [] → Unlinked σ₁) ∧ (σ₁.gslots ≠ [] → Linked e σ₁)) → Link e σ₁ := by
    intro σ₁ h1 h2 h3 h4 h5 h6 h7
    refine ⟨h3, h4, fun u => ?_, fun u => ?_, fun hi => h7 (hi t)⟩
    · by_cases hu : u = t
      · subst hu; exact h5
      · rw [thr_other h1 hu]; exact hl.suf u
    · by_cases hu : u = t
      · subst hu; exact h6
      · rw [thr_other h1 hu]; exact midOk_other (h2 u hu)
  have hL : Linked e σ → (σ.thr t).ctl ≠ .drem .all → σ'.slots = σ.slots → Linked e σ' := fun h1 h2 h3 m hm => by
    rcases h1 m hm with h4 | h4
    · exact .inl (by rw [h3]; exact h4)
    · exact .inr (cleared_step h h4 h2)
  have h0 := h
  cases h with
  | @mine s x add k st hth hf =>
    refine Link.frame h0 hl rfl (fun m => ?_) (by simp [SufOk]) (by rw [hth]; rfl) (by simp [mid]) (by rw [hth]; simp)
    by_cases hm : m = s
    · subst hm
      cases add <;> simp [List.count_append]
    · simp [set_other hm]
  | @dfrom o m ms st hth hf =>
    have hsuf : SufOk e (.dfrom o (m :: ms)) := by have := hl.suf t; rw [hth] at this; exact this
    obtain ⟨done, hdone⟩ := hsuf
    by_cases ho : o = .all
    · subst ho
      have hne : (σ.thr t).ctl ≠ .drem .all := by rw [hth]; simp
      have hcl : Cleared e ((σ.sl m (takeOff .all (σ.slots m))).to t (.dfrom .all ms) st) m :=
        ⟨t, by simp only [to_thr, set_same, clearing]; exact ⟨done ++ [m], by simp [hdone], by simp⟩⟩
      have hsub : ∀ m', Slot.relay ∈ ((σ.sl m (takeOff .all (σ.slots m))).to t (.dfrom .all ms) st).slots m' →
          Slot.relay ∈ σ.slots m' := by
        intro m' h1
        by_cases hm : m' = m
        · subst hm; simp [takeOff] at h1
        · simpa [set_other hm] using h1
      have hsup : ∀ m', Slot.relay ∈ σ.slots m' ∨ Cleared e σ m' →
          Slot.relay ∈ ((σ.sl m (takeOff .all (σ.slots m))).to t (.dfrom .all ms) st).slots m' ∨
          Cleared e ((σ.sl m (takeOff .all (σ.slots m))).to t (.dfrom .all ms) st) m' := by
        intro m' h1
        by_cases hm : m' = m
        · subst hm; exact .inr hcl
        · rcases h1 with h1 | h1
          · exact .inl (by simpa [set_other hm] using h1)
          · exact .inr (cleared_step h0 h1 hne)
      refine ⟨fun m' => ?_, fun m' hm' => hl.foreign m' (hsub m' hm'), fun u => ?_, fun u => ?_, fun hi => ?_⟩
      · by_cases hm : m' = m
        · subst hm; simp [takeOff]
        · simpa [set_other hm] using hl.once m'
      · by_cases hu : u = t
        · subst hu; simp only [to_thr, set_same]; exact ⟨done ++ [m], by simp [hdone]⟩
        · rw [thr_other h0 hu]; exact hl.suf u
      · by_cases hu : u = t
        · subst hu; simp [MidOk]
        · rw [thr_other h0 hu]
          have hk := hl.mids u
          generalize (σ.thr u).ctl = c at hk ⊢
          cases c <;> simp only [MidOk] at hk ⊢ <;> try trivial
          · exact ⟨hk.1, fun h1 m' h2 => hk.2.1 h1 m' (hsub m' h2), fun h1 m' h2 => hsup m' (hk.2.2 h1 m' h2)⟩
          · refine ⟨hk.1, fun m' hm' => ?_⟩
            rcases hk.2 m' hm' with h1 | h1
            · exact .inl h1
            · exact .inr (hsup m' h1)
          · exact fun h1 m' h2 => hsup m' (hk h1 m' h2)
          · exact ⟨hk.1, fun m' hm' => hk.2 m' (hsub m' hm')⟩
      · have := hl.idle (fun u => by
          by_cases hu : u = t
          · subst hu; rw [hth]; rfl
          · rw [← thr_other h0 hu]; exact hi u)
        exact ⟨fun h1 m' h2 => this.1 h1 m' (hsub m' h2), fun h1 m' h2 => hsup m' (this.2 h1 m' h2)⟩
    · refine Link.frame h0 hl rfl (fun m' => ?_) ?_ (by rw [hth]; rfl) (by simp [mid]) (by rw [hth]; simp)
      · by_cases hm : m' = m
        · subst hm
          simp [count_takeOff ho]
        · simp [set_other hm]
      · simp only [to_thr, set_same]; exact ⟨done ++ [m], by simp [hdone]⟩
  | @cadd f st hth =>
    have hi := hidle hth (by simp [heldC, same]) rfl
    refine hmid h0 (hone hth (by simp [heldC, same])) hl.once hl.foreign (by simp [SufOk]) ?_ (by simp [mid])
    simp only [to_thr, set_same, MidOk]
    refine ⟨by simp, fun h1 => ?_, fun h1 => ?_⟩
    · have : σ.gslots = [] := by simpa using h1
      exact fun m hm => hi.1 this m hm
    · have : σ.gslots ≠ [] := by intro h2; simp [h2] at h1
      exact hL (hi.2 this) (by rw [hth]; simp) rfl
  | ccheck hth hg =>
    have hk := hl.mids t
    rw [hth] at hk
    refine hmid h0 (hone hth (by simp [heldC, same])) hl.once hl.foreign ?_ ?_ (by simp [mid])
    · simp only [to_thr, set_same]; exact ⟨[], rfl⟩
    · simp only [to_thr, set_same]; exact ⟨hg, fun m hm => .inl hm⟩
  | ccheckNo hth hg =>
    have hk := hl.mids t
    rw [hth] at hk
    refine hmid h0 (hone hth (by simp [heldC, same])) hl.once hl.foreign (by simp [SufOk]) (by simp [MidOk]) fun _ => ?_
    exact ⟨fun h1 => absurd h1 hk.1, fun _ => hL (hk.2.2 hg) (by rw [hth]; simp) rfl⟩
  | clinkEnd hth =>
    have hk := hl.mids t
    rw [hth] at hk
    refine hmid h0 (hone hth (by simp [heldC, same])) hl.once hl.foreign (by simp [SufOk]) (by simp [MidOk]) fun _ => ?_
    have hlk : Linked e σ := fun m hm => by
      rcases hk.2 m hm with h1 | h1
      · cases h1
      · exact h1
    exact ⟨fun h1 => (by have := hk.1; rw [show σ.gslots = [] from h1] at this; cases this), fun _ => hL hlk (by rw [hth]; simp) rfl⟩
  | @clink f m ms st hth hf =>
    have hk := hl.mids t
    have hsuf := hl.suf t
    rw [hth] at hk hsuf
    obtain ⟨done, hdone⟩ := hsuf
    refine hmid h0 (hone hth (by simp [heldC, same])) (fun m' => ?_) (fun m' hm' => ?_) ?_ ?_ (by simp [mid])
    · by_cases hm : m' = m
      · subst hm; simp [count_link _ (hl.once m')]
      · simpa [set_other hm] using hl.once m'
    · by_cases hm : m' = m
      · subst hm; simp [hdone]
      · exact hl.foreign m' (by simpa [set_other hm] using hm')
    · simp only [to_thr, set_same]; exact ⟨done ++ [m], by simp [hdone]⟩
    · simp only [to_thr, set_same]
      refine ⟨hk.1, fun m' hm' => ?_⟩
      by_cases hm : m' = m
      · subst hm
        refine .inr (.inl ?_)
        simp only [to_slots, sl_slots, set_same]
        exact List.count_pos_iff.mp (by rw [count_link _ (hl.once m')]; exact Nat.one_pos)
      · rcases hk.2 m' hm' with h1 | h1 | h1
        · rcases List.mem_cons.mp h1 with h2 | h2
          · exact absurd h2 hm
          · exact .inl h2
        · exact .inr (.inl (by simpa [set_other hm] using h1))
        · exact .inr (.inr (cleared_step h0 h1 (by rw [hth]; simp)))
  | @drem o f st hth ho hf =>
    rcases ho with rfl | rfl
    · have hi := hidle hth (by simp [heldC, same]) rfl
      refine hmid h0 (hone hth (by simp [heldC, same])) hl.once hl.foreign (by simp [SufOk]) ?_ (by simp [mid])
      simp only [to_thr, set_same]
      exact fun _ => hL (hi.2 (List.ne_nil_of_mem hf)) (by rw [hth]; simp) rfl
    · exact absurd (hc t _ (by rw [hth]; rfl)) (hd t f)
  | dremNo hth ho hf =>
    rcases ho with rfl | rfl <;>
      exact Link.frame h0 hl rfl (fun _ => rfl) (by simp [SufOk]) (by rw [hth]; rfl) (by simp [mid]) (by rw [hth]; simp)
  | dremAll hth =>
    refine hmid h0 (hone hth (by simp [heldC, same])) hl.once hl.foreign (by simp [SufOk]) ?_ (by simp [mid])
    simp only [to_thr, set_same]
    exact fun h1 => absurd rfl h1
  | @dcheck o st hth hg =>
    have hm : mid (σ.thr t).ctl = true := by rw [hth]; rfl
    refine hmid h0 (fun u hu => mid_one hk hd hc (mid_held hd hc hm) hu) hl.once hl.foreign (by simp [SufOk]) ?_ (by simp [mid])
    simp only [to_thr, set_same]
    exact ⟨hg, fun m h1 => hl.foreign m h1⟩
  | @dcheckNo o st hth hg =>
    have hm : mid (σ.thr t).ctl = true := by rw [hth]; rfl
    have hk' := hl.mids t
    rw [hth] at hk'
    refine hmid h0 (fun u hu => mid_one hk hd hc (mid_held hd hc hm) hu) hl.once hl.foreign (by simp [SufOk]) (by simp [MidOk]) fun _ => ?_
    exact ⟨fun h1 => absurd h1 hg, fun _ => hL (hk' hg) (by rw [hth]; simp) rfl⟩
  | @dlinkEnd o st hth =>
    have hm : mid (σ.thr t).ctl = true := by rw [hth]; rfl
    have hk' := hl.mids t
    rw [hth] at hk'
    refine hmid h0 (fun u hu => mid_one hk hd hc (mid_held hd hc hm) hu) hl.once hl.foreign (by simp [SufOk]) (by simp [MidOk]) fun _ => ?_
    exact ⟨fun _ m h1 => (by cases hk'.2 m h1), fun h1 => absurd hk'.1 h1⟩
  | @dlink o m ms st hth hf =>
    have hm : mid (σ.thr t).ctl = true := by rw [hth]; rfl
    have hk' := hl.mids t
    rw [hth] at hk'
    have hcnt : ∀ m', ((set σ.slots m ((σ.slots m).erase .relay)) m').count .relay ≤ (σ.slots m').count .relay := by
      intro m'
      by_cases hm : m' = m
      · subst hm; simp [List.count_erase_self]
      · simp [set_other hm]
    refine hmid h0 (fun u hu => mid_one hk hd hc (mid_held hd hc hm) hu) (fun m' => Nat.le_trans (hcnt m') (hl.once m'))
      (fun m' h1 => hl.foreign m' (List.count_pos_iff.mp (Nat.lt_of_lt_of_le (List.count_pos_iff.mpr h1) (hcnt m')))) (by simp [SufOk]) ?_ (by simp [mid])
    simp only [to_thr, set_same]
    refine ⟨hk'.1, fun m' h1 => ?_⟩
    by_cases hm : m' = m
    · subst hm
      have h2 := List.count_pos_iff.mpr h1
      simp only [to_slots, sl_slots, set_same, List.count_erase_self] at h2
      have := hl.once m'
      omega
    · have h2 : Slot.relay ∈ σ.slots m' := by simpa [set_other hm] using h1
      rcases List.mem_cons.mp (hk'.2 m' h2) with h3 | h3
      · exact absurd h3 hm
      · exact h3
  | off hth =>
    refine Link.frame h0 hl rfl (fun _ => rfl) ?_ (by rw [hth]; rfl) (by simp [mid]) (by rw [hth]; simp)
    simp only [to_thr, set_same]; exact ⟨[], rfl⟩
  | _ hth =>
    exact Link.frame h0 hl rfl (fun _ => rfl) (by simp [SufOk]) (by rw [hth]; rfl) (by simp [mid]) (by rw [hth]; simp)

/-- No signal is connected to the group at first. -/
def Fresh (e : Env) : Prop := ∀ s, Slot.relay ∉ e.slots s

theorem link_init {e : Env} (he : Fresh e) (prog : Nat → Code) : Link e (init e prog) where
  once m := by rw [List.count_eq_zero.mpr (show Slot.relay ∉ (init e prog).slots m from he m)]; exact Nat.zero_le _
  foreign m h := absurd h (he m)
  suf t := by simp [init, SufOk]
  mids t := by simp [init, MidOk]
  idle _ := ⟨fun _ m h => he m h, fun h => absurd rfl h⟩

/-- The invariants that hold in all executions. -/
structure Base (e : Env) (σ : St) : Prop where
  locks : Locks σ
  called : Called σ
  link : (∀ t f, Ev.offCall t (.dead f) ∉ σ.log) → Link e σ

theorem base_step {e : Env} {t : Nat} {σ σ' : St} (h : Step e t σ σ') (hb : Base e σ) : Base e σ' where
  locks := locks_step h hb.locks
  called := called_step h hb.called
  link hd :=
    have hd' : ∀ t f, Ev.offCall t (.dead f) ∉ σ.log := fun t f h1 => hd t f (mem_log_step h h1)
    link_step h hb.locks hb.called hd' (hb.link hd')

theorem base_init {e : Env} (he : Fresh e) (prog : Nat → Code) : Base e (init e prog) where
  locks x := fun t => rfl
  called t o h := by simp [init, offOf] at h
  link _ := link_init he prog

theorem base_run {e : Env} (he : Fresh e) (prog : Nat → Code) (sched : List Nat) : Base e (run e sched (init e prog)) :=
  run_inv (fun _ _ _ h => base_step h) sched (base_init he prog)

end Psygnal.GrC
