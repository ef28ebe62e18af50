import Verif.ConnConc

/-! # Lemmas for C90 -/
namespace Psygnal.CoC

/-- What a call does if nothing else happens at the same time. -/
def Op.alone : Op → List Slot → Res × List Slot
  | .conn f u p, l =>
    if u ≠ .no ∧ f ∈ l.map Slot.f then (if u = .raise then .value else .ok, l)
    else (.ok, l.filter (p ≤ ·.p) ++ ⟨f, p⟩ :: l.filter (·.p < p))
  | .disc f ok, l => if f ∈ l.map Slot.f then (.ok, l.eraseP (·.f = f)) else (if ok then .ok else .value, l)
  | .discAll, _ => (.ok, [])
  | .has f, l => (.bool (f ∈ l.map Slot.f), l)
  | .len, l => (.num l.length, l)
  | .emit _, l => (.calls (l.map Slot.f), l)

/-- The events are those of calls that have their effects one after the other, and of deaths between them, beginning with no callbacks and
ending with the callbacks `l`. -/
inductive Legal : List Ev → List Slot → Prop
  | nil : Legal [] []
  | effect {L : List Ev} {l : List Slot} (t : Nat) (o : Op) : Legal L l → Legal (L ++ [.effect t o (o.alone l).1]) (o.alone l).2
  | died {L : List Ev} {l : List Slot} (f : Nat) : Legal L l → Legal (L ++ [.died f]) (l.eraseP (·.f = f))
  | call {L : List Ev} {l : List Slot} (t : Nat) (o : Op) : Legal L l → Legal (L ++ [.call t o]) l
  | called {L : List Ev} {l : List Slot} (t f a : Nat) : Legal L l → Legal (L ++ [.called t f a]) l
  | ret {L : List Ev} {l : List Slot} (t : Nat) (o : Op) (r : Res) : Legal L l → Legal (L ++ [.ret t o r]) l

/-- The thread has the lock. -/
def Ctl.holds : Ctl → Bool
  | .run _ => false
  | .wait _ _ => false
  | .size _ => false
  | .back _ _ _ => false
  | _ => true

/-- What the thread that has the lock knows of the slots. -/
def Knows (l : List Slot) (inUse : Bool) : Ctl → Prop
  | .scan o _ i => i ≤ l.length ∧ (∃ f, o.target = some f ∧ ∀ s ∈ l.take i, s.f ≠ f) ∧ ∀ f p, o ≠ .conn f .no p
  | .add f u _ _ => u ≠ .no → ∀ s ∈ l, s.f ≠ f
  | .place f u p _ i => inUse = true ∧ i ≤ l.length ∧ (∀ s ∈ l.take i, p ≤ s.p) ∧ (u ≠ .no → ∀ s ∈ l, s.f ≠ f)
  | .ins f u p _ i => inUse = true ∧ i < l.length ∧ (∀ s ∈ l.take i, p ≤ s.p) ∧ (∀ s, l[i]? = some s → s.p < p) ∧ (u ≠ .no → ∀ s ∈ l, s.f ≠ f)
  | .pop f _ _ i => (∀ s ∈ l.take i, s.f ≠ f) ∧ ∃ s, l[i]? = some s ∧ s.f = f
  | .loop _ _ j fs => j ≤ l.length ∧ fs = (l.take j).map Slot.f
  | _ => True

/-- Sorted by priority; all priorities are 0 as long as none is in use. -/
def Sorted (l : List Slot) (inUse : Bool) : Prop := l.Pairwise (fun a b => b.p ≤ a.p) ∧ (inUse = false → ∀ s ∈ l, s.p = 0)

structure Inv (σ : St) : Prop where
  lock : ∀ t, (σ.thr t).holds = true ↔ σ.owner = some t
  knows : ∀ t, (σ.thr t).holds = true → Knows σ.slots σ.inUse (σ.thr t)
  sorted : Sorted σ.slots σ.inUse
  legal : Legal σ.log σ.slots
  wait : ∀ t k, σ.thr t ≠ .wait .len k

@[simp] theorem go_thr (σ : St) (t : Nat) (c : Ctl) (u : Nat) : (σ.go t c).thr u = if u = t then c else σ.thr u := rfl
@[simp] theorem go_slots (σ : St) (t : Nat) (c : Ctl) : (σ.go t c).slots = σ.slots := rfl
@[simp] theorem go_inUse (σ : St) (t : Nat) (c : Ctl) : (σ.go t c).inUse = σ.inUse := rfl
@[simp] theorem go_owner (σ : St) (t : Nat) (c : Ctl) : (σ.go t c).owner = σ.owner := rfl
@[simp] theorem go_log (σ : St) (t : Nat) (c : Ctl) : (σ.go t c).log = σ.log := rfl

theorem inv_init (prog : Nat → Code) : Inv (init prog) where
  lock := fun t => by simp [init, Ctl.holds]
  knows := fun t h => by simp [init, Ctl.holds] at h
  sorted := ⟨.nil, fun _ _ h => by cases h⟩
  legal := .nil
  wait := fun t k h => by simp [init] at h

/-- A step of a thread that has the lock and keeps it, or of one that has not and does not take it. -/
theorem inv_go {σ : St} (h : Inv σ) {t : Nat} {c : Ctl} (h1 : c.holds = (σ.thr t).holds) {l : List Slot} {b : Bool} {L : List Ev}
    (h2 : c.holds = true → Knows l b c) (h3 : Sorted l b) (h4 : Legal L l) (h5 : c.holds = false → l = σ.slots ∧ b = σ.inUse)
    (h6 : ∀ k, c ≠ .wait .len k := by intro k hk; cases hk) :
    Inv ⟨l, b, σ.owner, fun u => if u = t then c else σ.thr u, L⟩ where
  lock := fun u => by
    simp only
    split
    · rename_i e
      rw [h1, e]
      exact h.lock t
    · exact h.lock u
  knows := fun u => by
    simp only
    split
    · exact h2
    · rename_i hu
      intro hh
      have ho := (h.lock u).mp hh
      cases hc : c.holds with
      | true =>
        exfalso
        rw [hc] at h1
        have := (h.lock t).mp h1.symm
        rw [ho] at this
        exact hu (Option.some.inj this)
      | false =>
        obtain ⟨rfl, rfl⟩ := h5 hc
        exact h.knows u hh
  sorted := h3
  legal := h4
  wait := fun u k => by
    simp only
    split
    · exact h6 k
    · exact h.wait u k

theorem inv_eff {σ : St} (h : Inv σ) {t : Nat} (ht : (σ.thr t).holds = true) {o : Op} {k : Res → Code} {r : Res} {l : List Slot}
    (he : o.alone σ.slots = (r, l)) (hs : Sorted l σ.inUse) : Inv (σ.eff t o k r l) := by
  refine inv_go h (by rw [ht]; rfl) (fun _ => trivial) hs ?_ (fun hh => by cases hh)
  have := Legal.effect t o h.legal
  rw [he] at this
  exact this

theorem take_succ {l : List Slot} {i : Nat} {s : Slot} (h : l[i]? = some s) : l.take (i + 1) = l.take i ++ [s] := by
  rw [List.take_add_one, h]
  rfl

theorem take_none {l : List Slot} {i : Nat} (h : l[i]? = none) : l.take i = l :=
  List.take_of_length_le (List.getElem?_eq_none_iff.mp h)

theorem filters {l : List Slot} {p : Int} {i : Nat} (hs : l.Pairwise (fun a b => b.p ≤ a.p)) (h1 : ∀ s ∈ l.take i, p ≤ s.p)
    (h2 : ∀ s, l[i]? = some s → s.p < p) : l.filter (p ≤ ·.p) = l.take i ∧ l.filter (·.p < p) = l.drop i := by
  have h3 : ∀ s ∈ l.drop i, s.p < p := by
    intro s hsd
    cases hd : l.drop i with
    | nil => rw [hd] at hsd; cases hsd
    | cons a r =>
      have ha : l[i]? = some a := by
        have := List.getElem?_drop (xs := l) (i := i) (j := 0)
        rw [hd] at this
        simpa using this.symm
      have hp : (l.drop i).Pairwise (fun a b => b.p ≤ a.p) := hs.sublist (List.drop_sublist _ _)
      rw [hd] at hsd hp
      rcases List.mem_cons.mp hsd with rfl | hm
      · exact h2 _ ha
      · have := (List.pairwise_cons.mp hp).1 s hm
        have := h2 _ ha
        omega
  have e := List.take_append_drop i l
  constructor
  · rw [← e, List.filter_append, e, List.filter_eq_self.mpr (fun s hs => decide_eq_true (h1 s hs)),
      List.filter_eq_nil_iff.mpr (fun s hs => by have := h3 s hs; simp; omega), List.append_nil]
  · rw [← e, List.filter_append, e, List.filter_eq_nil_iff.mpr (fun s hs => by have := h1 s hs; simp; omega),
      List.filter_eq_self.mpr (fun s hs => decide_eq_true (h3 s hs)), List.nil_append]

theorem not_mem_of {l : List Slot} {f : Nat} (h : ∀ s ∈ l, s.f ≠ f) : f ∉ l.map Slot.f := by
  intro hm
  obtain ⟨s, hs, e⟩ := List.mem_map.mp hm
  exact h s hs e

/-- Connecting: the slots and that they stay sorted. -/
theorem conn_alone {l : List Slot} {b : Bool} {f : Nat} {u : Uniq} {p : Int} {i : Nat} (hs : Sorted l b) (hb : b = false → p = 0)
    (h1 : ∀ s ∈ l.take i, p ≤ s.p) (h2 : ∀ s, l[i]? = some s → s.p < p) (hu : u ≠ .no → ∀ s ∈ l, s.f ≠ f) :
    (Op.conn f u p).alone l = (.ok, l.take i ++ ⟨f, p⟩ :: l.drop i) ∧ Sorted (l.take i ++ ⟨f, p⟩ :: l.drop i) b := by
  have hf := filters hs.1 h1 h2
  constructor
  · show (if u ≠ .no ∧ f ∈ l.map Slot.f then _ else _) = _
    rw [if_neg (fun h => not_mem_of (hu h.1) h.2), hf.1, hf.2]
  · constructor
    · rw [List.pairwise_append]
      have e := List.take_append_drop i l
      have hp := hs.1
      rw [← e, List.pairwise_append] at hp
      refine ⟨hp.1, List.pairwise_cons.mpr ⟨?_, hp.2.1⟩, ?_⟩
      · intro s hsd
        rw [← hf.2] at hsd
        have := of_decide_eq_true (List.mem_filter.mp hsd).2
        show s.p ≤ p
        omega
      · intro a ha c hc
        rcases List.mem_cons.mp hc with rfl | hc
        · exact h1 a ha
        · exact hp.2.2 a ha c hc
    · intro hb' s hm
      rcases List.mem_append.mp hm with hm | hm
      · exact hs.2 hb' s (List.mem_of_mem_take hm)
      · rcases List.mem_cons.mp hm with rfl | hm
        · exact hb hb'
        · exact hs.2 hb' s (List.mem_of_mem_drop hm)

theorem sub_sorted {l l' : List Slot} {b : Bool} (hs : Sorted l b) (h : l'.Sublist l) : Sorted l' b :=
  ⟨hs.1.sublist h, fun hb s hm => hs.2 hb s (h.subset hm)⟩

theorem eraseIdx_eq {l : List Slot} {f : Nat} : ∀ {i : Nat}, (∀ s ∈ l.take i, s.f ≠ f) → (∃ s, l[i]? = some s ∧ s.f = f) →
    l.eraseIdx i = l.eraseP (·.f = f) := by
  induction l with
  | nil =>
    rintro i _ ⟨s, h, _⟩
    cases h
  | cons a l ih =>
    intro i h1 h2
    cases i with
    | zero =>
      obtain ⟨s, h, e⟩ := h2
      cases h
      rw [List.eraseP_cons_of_pos (by simpa using e)]
      rfl
    | succ i =>
      rw [List.take_succ_cons] at h1
      rw [List.eraseP_cons_of_neg (by simpa using h1 a (.head _)), List.eraseIdx_cons_succ]
      rw [ih (fun s hs => h1 s (.tail _ hs)) (by simpa using h2)]

theorem inv_step {σ : St} (h : Inv σ) (t : Nat) : Inv (step t σ) := by
  have hk := h.knows t
  unfold step
  split
  · exact h
  · rename_i o k hc
    refine inv_go h (c := if o = .len then .size k else .wait o k) (by rw [hc]; split <;> rfl) (fun hh => by split at hh <;> cases hh) h.sorted (.call t o h.legal) (fun _ => ⟨rfl, rfl⟩)
      (fun k' hk => by
        split at hk
        · cases hk
        · rename_i hn
          cases hk
          exact hn rfl)
  · rename_i o k hc
    split
    · rename_i ho
      have hn : ∀ u, (σ.thr u).holds = false := fun u => by
        cases hu : (σ.thr u).holds with
        | false => rfl
        | true => rw [(h.lock u).mp hu] at ho; cases ho
      have hf : (first o k).holds = true := by unfold first; split <;> rfl
      refine ⟨fun u => ?_, fun u => ?_, h.sorted, h.legal, fun u k' => ?_⟩
      · simp only [go_thr]
        split
        · rename_i e
          simp [hf, e]
        · rename_i hu
          simp [hn u]
          exact fun e => hu e.symm
      · simp only [go_thr]
        split
        · intro _
          unfold first
          split
          · exact fun hu => absurd rfl hu
          · trivial
          · exact ⟨Nat.zero_le _, rfl⟩
          · rename_i h1 h2 h3
            refine ⟨Nat.zero_le _, ?_, fun f p e => h1 f p e⟩
            cases o with
            | conn f u p => exact ⟨f, rfl, fun _ hs => by cases hs⟩
            | disc f ok => exact ⟨f, rfl, fun _ hs => by cases hs⟩
            | has f => exact ⟨f, rfl, fun _ hs => by cases hs⟩
            | discAll => exact absurd rfl h2
            | emit a => exact absurd rfl (h3 a)
            | len => exact absurd hc (h.wait t k)
        · intro hh
          rw [hn u] at hh
          cases hh
      · simp only [go_thr]
        split
        · intro e
          rw [e] at hf
          cases hf
        · exact h.wait u k'
    · exact h
  · rename_i o k i hc
    have ht : (σ.thr t).holds = true := by rw [hc]; rfl
    have hk := hk ht
    rw [hc] at hk
    obtain ⟨h1, ⟨f, h2, h3⟩, h4⟩ := hk
    split
    · rename_i s hs
      have hmem : s ∈ σ.slots := List.mem_of_getElem? hs
      split
      · rename_i he
        rw [h2] at he
        have he := Option.some.inj he
        have hin : f ∈ σ.slots.map Slot.f := List.mem_map.mpr ⟨s, hmem, he⟩
        split
        · rename_i f' p
          cases h2
          refine inv_eff h ht ?_ h.sorted
          simp only [Op.alone]
          rw [if_pos ⟨by decide, hin⟩]
          rfl
        · rename_i f' ok
          cases h2
          exact inv_go h (by rw [ht]; rfl) (fun _ => ⟨h3, s, hs, he⟩) h.sorted h.legal (fun hh => by cases hh)
        · rename_i f'
          cases h2
          refine inv_eff h ht ?_ h.sorted
          simp only [Op.alone]
          rw [decide_eq_true hin]
        · rename_i q1 q2 q3
          cases o with
          | conn f' u p =>
            cases h2
            refine inv_eff h ht ?_ h.sorted
            simp only [Op.alone]
            cases u with
            | no => exact absurd rfl (h4 _ _)
            | yes => rw [if_pos ⟨by decide, hin⟩]; rfl
            | raise => exact absurd rfl (q1 _ _)
          | disc f' ok => exact absurd rfl (q2 _ _)
          | has f' => exact absurd rfl (q3 _)
          | discAll => cases h2
          | len => cases h2
          | emit a => cases h2
      · rename_i he
        refine inv_go h (by rw [ht]; rfl) (fun _ => ⟨?_, ⟨f, h2, ?_⟩, h4⟩) h.sorted h.legal (fun hh => by cases hh)
        · have := (List.getElem?_eq_some_iff.mp hs).1
          omega
        · rw [take_succ hs]
          intro x hx
          rcases List.mem_append.mp hx with hx | hx
          · exact h3 x hx
          · rcases List.mem_singleton.mp hx with rfl
            rw [h2] at he
            exact fun e => he (congrArg some e)
    · rename_i hs
      rw [take_none hs] at h3
      have hnin := not_mem_of h3
      split
      · rename_i f' u p
        cases h2
        exact inv_go h (by rw [ht]; rfl) (fun _ => fun _ => h3) h.sorted h.legal (fun hh => by cases hh)
      · rename_i f' ok
        cases h2
        refine inv_eff h ht ?_ h.sorted
        simp only [Op.alone]
        rw [if_neg hnin]
      · rename_i q1 q2
        cases o with
        | conn f' u p => exact absurd rfl (q1 _ _ _)
        | disc f' ok => exact absurd rfl (q2 _ _)
        | has f' =>
          cases h2
          refine inv_eff h ht ?_ h.sorted
          simp only [Op.alone]
          rw [decide_eq_false hnin]
        | discAll => cases h2
        | len => cases h2
        | emit a => cases h2
  · rename_i f u p k hc
    have ht : (σ.thr t).holds = true := by rw [hc]; rfl
    have hk := hk ht
    rw [hc] at hk
    split
    · rename_i hi
      have hp := hi.2
      have hz := h.sorted.2 hi.1
      have := conn_alone (f := f) (u := u) (p := p) (i := σ.slots.length) h.sorted (fun _ => hp)
        (fun s hs => by rw [hz s (List.mem_of_mem_take hs)]; omega)
        (fun s hs => by rw [List.getElem?_eq_none (Nat.le_refl _)] at hs; cases hs) hk
      rw [List.take_length, List.drop_length] at this
      exact inv_eff h ht this.1 this.2
    · exact inv_go h (by rw [ht]; rfl) (fun _ => ⟨rfl, Nat.zero_le _, fun _ hs => (by cases hs), hk⟩)
        ⟨h.sorted.1, fun hh => by cases hh⟩ h.legal (fun hh => by cases hh)
  · rename_i f u p k i hc
    have ht : (σ.thr t).holds = true := by rw [hc]; rfl
    have hk := hk ht
    rw [hc] at hk
    obtain ⟨h1, h2, h3, h4⟩ := hk
    split
    · rename_i s hs
      have hl := (List.getElem?_eq_some_iff.mp hs).1
      split
      · rename_i hlt
        refine inv_go h (by rw [ht]; rfl) (fun _ => ⟨h1, hl, h3, ?_, h4⟩) h.sorted h.legal (fun hh => by cases hh)
        intro x hx
        rw [hs] at hx
        cases hx
        exact hlt
      · rename_i hlt
        refine inv_go h (by rw [ht]; rfl) (fun _ => ⟨h1, by omega, ?_, h4⟩) h.sorted h.legal (fun hh => by cases hh)
        rw [take_succ hs]
        intro x hx
        rcases List.mem_append.mp hx with hx | hx
        · exact h3 x hx
        · rcases List.mem_singleton.mp hx with rfl
          omega
    · rename_i hs
      have := conn_alone (f := f) (u := u) (p := p) (i := i) h.sorted (fun hb => by rw [h1] at hb; cases hb) h3 (fun s hs' => by rw [hs] at hs'; cases hs') h4
      rw [take_none hs, List.drop_of_length_le (List.getElem?_eq_none_iff.mp hs)] at this
      exact inv_eff h ht this.1 this.2
  · rename_i f u p k i hc
    have ht : (σ.thr t).holds = true := by rw [hc]; rfl
    have hk := hk ht
    rw [hc] at hk
    obtain ⟨h1, h2, h3, h4, h5⟩ := hk
    have := conn_alone (f := f) (u := u) (p := p) (i := i) h.sorted (fun hb => by rw [h1] at hb; cases hb) h3 h4 h5
    exact inv_eff h ht this.1 this.2
  · rename_i f ok k i hc
    have ht : (σ.thr t).holds = true := by rw [hc]; rfl
    have hk := hk ht
    rw [hc] at hk
    obtain ⟨h1, s, h2, h3⟩ := hk
    rw [if_pos (List.getElem?_eq_some_iff.mp h2).1]
    refine inv_eff h ht ?_ (sub_sorted h.sorted (List.eraseIdx_sublist _ _))
    simp only [Op.alone]
    rw [if_pos (List.mem_map.mpr ⟨s, List.mem_of_getElem? h2, h3⟩), eraseIdx_eq h1 ⟨s, h2, h3⟩]
  · rename_i k hc
    have ht : (σ.thr t).holds = true := by rw [hc]; rfl
    exact inv_eff h ht rfl ⟨.nil, fun _ _ hs => by cases hs⟩
  · rename_i k hc
    exact inv_go h (by rw [hc]; rfl) (fun hh => by cases hh) h.sorted (Legal.effect t .len h.legal) (fun _ => ⟨rfl, rfl⟩)
  · rename_i a k j fs hc
    have ht : (σ.thr t).holds = true := by rw [hc]; rfl
    have hk := hk ht
    rw [hc] at hk
    obtain ⟨h1, rfl⟩ := hk
    split
    · rename_i s hs
      refine inv_go h (by rw [ht]; rfl) (fun _ => ⟨?_, ?_⟩) h.sorted (.called t s.f a h.legal) (fun hh => by cases hh)
      · have := (List.getElem?_eq_some_iff.mp hs).1
        show j + 1 ≤ σ.slots.length
        omega
      · show _ = (σ.slots.take (j + 1)).map Slot.f
        rw [take_succ hs, List.map_append]
        rfl
    · rename_i hs
      refine inv_eff h ht ?_ h.sorted
      rw [take_none hs]
      rfl
  · rename_i o k r hc
    have ht : (σ.thr t).holds = true := by rw [hc]; rfl
    have ho := (h.lock t).mp ht
    refine ⟨fun u => ?_, fun u => ?_, h.sorted, h.legal, fun u k' => ?_⟩
    · simp only [go_thr]
      split
      · simp [Ctl.holds]
      · rename_i hu
        have := h.lock u
        rw [ho] at this
        simp only [reduceCtorEq, iff_false, Bool.not_eq_true]
        cases hx : (σ.thr u).holds with
        | false => rfl
        | true => exact absurd (Option.some.inj (this.mp hx)).symm hu
    · simp only [go_thr]
      split
      · intro hh
        cases hh
      · exact h.knows u
    · simp only [go_thr]
      split
      · intro e
        cases e
      · exact h.wait u k'
  · rename_i o k r hc
    exact inv_go h (by rw [hc]; rfl) (fun hh => by cases hh) h.sorted (.ret t o r h.legal) (fun _ => ⟨rfl, rfl⟩)

theorem inv_die {σ : St} (h : Inv σ) (ho : σ.owner = none) (f : Nat) : Inv (die f σ) where
  lock := h.lock
  knows := fun t ht => by
    have := (h.lock t).mp ht
    rw [ho] at this
    cases this
  sorted := sub_sorted h.sorted List.eraseP_sublist
  legal := .died f h.legal
  wait := h.wait

/-! ## All schedules -/

/-- Who has the lock, also with deaths at any time. -/
def Lock (σ : St) : Prop := ∀ t, (σ.thr t).holds = true ↔ σ.owner = some t

theorem lock_go {σ : St} (h : Lock σ) {t : Nat} {c : Ctl} (h1 : c.holds = (σ.thr t).holds) (l : List Slot) (b : Bool) (L : List Ev) :
    Lock ⟨l, b, σ.owner, fun u => if u = t then c else σ.thr u, L⟩ := fun u => by
  simp only
  split
  · rename_i e
    rw [h1, e]
    exact h t
  · exact h u

/-- What a step of thread `t` does: events of `t` are added; who does not hold the lock does not touch the slots; the other threads are where
they were. -/
structure Does (t : Nat) (σ σ' : St) : Prop where
  lock : Lock σ → Lock σ'
  slots : (σ.thr t).holds = false → σ'.slots = σ.slots
  other : ∀ u, u ≠ t → σ'.thr u = σ.thr u
  moves : (∀ o k, σ.thr t = .wait o k → σ.owner = none) → σ.thr t ≠ .run .ret → σ'.thr t ≠ σ.thr t

theorem does_go {σ : St} {t : Nat} {c : Ctl} (h1 : c.holds = (σ.thr t).holds) (l : List Slot) (b : Bool) (L : List Ev)
    (h2 : c.holds = false → l = σ.slots) (h3 : c ≠ σ.thr t) : Does t σ ⟨l, b, σ.owner, fun u => if u = t then c else σ.thr u, L⟩ where
  lock := fun h => lock_go h h1 l b L
  slots := fun h => h2 (h1.trans h)
  other := fun u hu => if_neg hu
  moves := fun _ _ => by simpa using h3

theorem does_step (t : Nat) (σ : St) : Does t σ (step t σ) := by
  unfold step
  split
  · rename_i hc
    exact ⟨id, fun _ => rfl, fun _ _ => rfl, fun _ h => absurd hc h⟩
  · rename_i o k hc
    refine does_go (c := if o = .len then .size k else .wait o k) (by rw [hc]; split <;> rfl) _ _ _ (fun _ => rfl) (by rw [hc]; split <;> simp)
  · rename_i o k hc
    split
    · rename_i ho
      have hf : (first o k).holds = true := by unfold first; split <;> rfl
      refine ⟨fun h u => ?_, fun _ => rfl, fun u hu => if_neg hu, fun _ _ e => ?_⟩
      · simp only [go_thr]
        split
        · rename_i e
          simp [hf, e]
        · rename_i hu
          have := h u
          rw [ho] at this
          simp only [Option.some.injEq]
          constructor
          · intro hh
            cases this.mp hh
          · exact fun e => absurd e.symm hu
      · simp only [go_thr, if_true] at e
        rw [hc] at e
        rw [e] at hf
        cases hf
    · rename_i ho
      exact ⟨id, fun _ => rfl, fun _ _ => rfl, fun h _ => absurd (h o k hc) ho⟩
  · rename_i o k i hc
    split
    · split
      · split <;> exact does_go (by rw [hc]; rfl) _ _ _ (fun hh => by cases hh) (by rw [hc]; simp)
      · exact does_go (by rw [hc]; rfl) _ _ _ (fun hh => by cases hh) (by rw [hc]; simp)
    · split <;> exact does_go (by rw [hc]; rfl) _ _ _ (fun hh => by cases hh) (by rw [hc]; simp)
  · rename_i hc
    split <;> exact does_go (by rw [hc]; rfl) _ _ _ (fun hh => by cases hh) (by rw [hc]; simp)
  · rename_i hc
    split
    · split <;> exact does_go (by rw [hc]; rfl) _ _ _ (fun hh => by cases hh) (by rw [hc]; simp)
    · exact does_go (by rw [hc]; rfl) _ _ _ (fun hh => by cases hh) (by rw [hc]; simp)
  · rename_i hc
    exact does_go (by rw [hc]; rfl) _ _ _ (fun hh => by cases hh) (by rw [hc]; simp)
  · rename_i hc
    split <;> exact does_go (by rw [hc]; rfl) _ _ _ (fun hh => by cases hh) (by rw [hc]; simp)
  · rename_i hc
    exact does_go (by rw [hc]; rfl) _ _ _ (fun hh => by cases hh) (by rw [hc]; simp)
  · rename_i hc
    exact does_go (by rw [hc]; rfl) _ _ _ (fun _ => rfl) (by rw [hc]; simp)
  · rename_i hc
    split <;> exact does_go (by rw [hc]; rfl) _ _ _ (fun hh => by cases hh) (by rw [hc]; simp)
  · rename_i o k r hc
    have ht : (σ.thr t).holds = true := by rw [hc]; rfl
    refine ⟨fun h u => ?_, fun _ => rfl, fun u hu => if_neg hu, fun _ _ e => ?_⟩
    · have ho := (h t).mp ht
      simp only [go_thr]
      split
      · simp [Ctl.holds]
      · rename_i hu
        have := h u
        rw [ho] at this
        simp only [reduceCtorEq, iff_false, Bool.not_eq_true]
        cases hx : (σ.thr u).holds with
        | false => rfl
        | true => exact absurd (Option.some.inj (this.mp hx)).symm hu
    · simp only [go_thr, if_true] at e
      rw [hc] at e
      cases e
  · rename_i hc
    exact does_go (by rw [hc]; rfl) _ _ _ (fun _ => rfl) (by rw [hc]; simp)

theorem lock_run (prog : Nat → Code) (sched : List Who) : Lock (run sched (init prog)) := by
  have : ∀ (s : List Who) (σ : St), Lock σ → Lock (run s σ) := by
    intro s
    induction s with
    | nil => exact fun _ h => h
    | cons w s ih =>
      intro σ h
      refine ih _ ?_
      cases w with
      | thr t => exact (does_step t σ).lock h
      | gc f => exact h
  exact this _ _ (fun t => by simp [init, Ctl.holds])

/-- How many steps the thread needs at most before it gives the lock back. -/
def pot (n : Nat) : Ctl → Nat
  | .scan _ _ i => 5 + n + (n - i)
  | .add .. => 4 + n
  | .place _ _ _ _ i => 3 + (n - i)
  | .ins .. => 2
  | .pop .. => 2
  | .clear _ => 2
  | .loop _ _ j _ => 2 + (n - j)
  | .rel .. => 1
  | _ => 0

theorem pot_mono {n m : Nat} (h : n ≤ m) (c : Ctl) : pot n c ≤ pot m c := by
  cases c <;> simp only [pot] <;> omega

theorem pot_le (n : Nat) (c : Ctl) : pot n c ≤ 5 + 2 * n := by
  cases c <;> simp only [pot] <;> omega

theorem pot_step {t : Nat} {σ : St} (ht : (σ.thr t).holds = true) :
    pot (step t σ).slots.length ((step t σ).thr t) < pot σ.slots.length (σ.thr t) := by
  unfold step
  split
  · rename_i hc; rw [hc] at ht; cases ht
  · rename_i hc; rw [hc] at ht; cases ht
  · rename_i hc; rw [hc] at ht; cases ht
  · rename_i o k i hc
    split
    · rename_i s hs
      have hl := (List.getElem?_eq_some_iff.mp hs).1
      split
      · split <;> simp only [St.eff, go_thr, if_true, pot, hc] <;> omega
      · simp only [go_thr, go_slots, if_true, pot, hc]; omega
    · rename_i hs
      have hl := List.getElem?_eq_none_iff.mp hs
      split <;> simp only [St.eff, go_thr, go_slots, if_true, pot, hc] <;> omega
  · rename_i hc
    split <;> simp only [St.eff, go_thr, go_slots, if_true, pot, hc] <;> omega
  · rename_i hc
    split
    · rename_i s hs
      have hl := (List.getElem?_eq_some_iff.mp hs).1
      split <;> simp only [go_thr, go_slots, if_true, pot, hc] <;> omega
    · simp only [St.eff, go_thr, if_true, pot, hc]; omega
  · rename_i hc
    simp only [St.eff, go_thr, if_true, pot, hc]; omega
  · rename_i hc
    split <;> simp only [St.eff, go_thr, if_true, pot, hc] <;> omega
  · rename_i hc
    simp only [St.eff, go_thr, if_true, pot, hc]; omega
  · rename_i hc; rw [hc] at ht; cases ht
  · rename_i hc
    split
    · rename_i s hs
      have hl := (List.getElem?_eq_some_iff.mp hs).1
      simp only [go_thr, go_slots, if_true, pot, hc]; omega
    · simp only [St.eff, go_thr, if_true, pot, hc]; omega
  · rename_i hc
    simp only [go_thr, if_true, pot, hc]; omega
  · rename_i hc; rw [hc] at ht; cases ht

theorem released {t : Nat} : ∀ (s : List Who) {σ : St}, Lock σ → σ.owner = some t → pot σ.slots.length (σ.thr t) ≤ s.countP (· = .thr t) →
    ∃ s1 s2, s = s1 ++ s2 ∧ (run s1 σ).owner ≠ some t
  | [], σ, h, ho, hp => by
    exfalso
    have := pot_step ((h t).mpr ho)
    simp at hp
    omega
  | w :: s, σ, h, ho, hp => by
    have ht := (h t).mpr ho
    by_cases hn : (act σ w).owner = some t
    · have hl : Lock (act σ w) := by
        cases w with
        | thr u => exact (does_step u σ).lock h
        | gc f => exact h
      have hp' : pot (act σ w).slots.length ((act σ w).thr t) ≤ s.countP (· = .thr t) := by
        cases w with
        | gc f =>
          rw [List.countP_cons_of_neg (by simp)] at hp
          refine Nat.le_trans (pot_mono ?_ _) hp
          exact (List.eraseP_sublist).length_le
        | thr u =>
          by_cases hu : u = t
          · subst hu
            rw [List.countP_cons_of_pos (by simp)] at hp
            have := pot_step ht
            show pot (step u σ).slots.length ((step u σ).thr u) ≤ _
            omega
          · rw [List.countP_cons_of_neg (by simpa using hu)] at hp
            have hd := does_step u σ
            have hu' : (σ.thr u).holds = false := by
              cases hx : (σ.thr u).holds with
              | false => rfl
              | true =>
                have := (h u).mp hx
                rw [ho] at this
                exact absurd (Option.some.inj this).symm hu
            show pot (step u σ).slots.length ((step u σ).thr t) ≤ _
            rw [hd.slots hu', hd.other t (fun e => hu e.symm)]
            exact hp
      obtain ⟨s1, s2, e, hr⟩ := released s hl hn hp'
      exact ⟨w :: s1, s2, by rw [e]; rfl, hr⟩
    · exact ⟨[w], s, rfl, hn⟩

end Psygnal.CoC
