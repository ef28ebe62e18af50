import Verif.ChildEvents
import Verif.EventedListChildren

/-! # Child events: lemmas for C79 -/

namespace Psygnal.EL
open Psygnal.Py (M Err Key Slice)

variable {α : Type} [DecidableEq α] {c : Cfg α} [c.Passive] {w : World α}

/-! ## Emissions, when no listener raises -/

theorem hear_all (hq : c.Quiet) {s : St α} (hf : ∀ x ∈ s.data, c.isList x = false) (e : Nat) {i : Nat}
    (hi : s.data.findIdx? (fun v => decide (v = w.inst e) || c.eq v (w.inst e)) = some i) (args : List Nat) (n : Nat) :
    M.forEach (List.replicate n ()) (fun _ => hear c w (some e) args) s =
      (.ok (), { s with log := s.log ++ List.replicate n (.childEvent i (w.inst e) e args, s.data) }) :=
  childEmit_log hq hf e (w.inst e) hi args n

theorem relay_all (hq : c.Quiet) {s : St α} (hf : ∀ x ∈ s.data, c.isList x = false) (r e : Nat) {i : Nat}
    (hi : s.data.findIdx? (fun v => decide (v = w.inst r) || c.eq v (w.inst r)) = some i) (args : List Nat) (n : Nat) :
    M.forEach (List.replicate n ()) (fun _ => reemit c r (w.inst r) (.info e args)) s =
      (.ok (), { s with log := s.log ++ List.replicate n (.childEvent i (w.inst r) e args, s.data) }) := by
  induction n generalizing s with
  | zero => simp [M.forEach]
  | succ n ih =>
    rw [List.replicate_succ, M.forEach, M.bind_ok (reemit_plain hq hf r (w.inst r) hi (.info e args))]
    refine (ih (s := { s with log := s.log ++ [(.childEvent i (w.inst r) e args, s.data)] }) hf hi).trans ?_
    simp [List.replicate_succ]

theorem forEach_none {β σ : Type} (f : β → M σ Unit) (s : σ) : M.forEach ([] : List β) f s = (.ok (), s) := rfl

/-- All the relays: each of them that is connected has `x` as its instance. -/
theorem relays_all (hq : c.Quiet) {s : St α} (hf : ∀ x ∈ s.data, c.isList x = false) (e : Nat) {x : α} {i : Nat}
    (hi : s.data.findIdx? (fun v => decide (v = x) || c.eq v x) = some i) (args : List Nat) (rs : List Nat)
    (hr : ∀ r ∈ rs, s.conns r ≠ 0 → w.inst r = x) :
    M.forEach rs (fun r => relayed c w (some e) r args) s =
      (.ok (), { s with log := s.log ++ List.replicate (rs.map s.conns).sum (.childEvent i x e args, s.data) }) := by
  induction rs generalizing s with
  | nil => simp [M.forEach]
  | cons r rs ih =>
    have h1 : relayed c w (some e) r args s =
        (.ok (), { s with log := s.log ++ List.replicate (s.conns r) (.childEvent i x e args, s.data) }) := by
      simp only [relayed, M.bind_eq, M.bind_app, M.get_app]
      by_cases h0 : s.conns r = 0
      · rw [h0]; simp [M.forEach]
      · have := hr r (by simp) h0
        subst this
        exact relay_all hq hf r e hi args _
    rw [M.forEach, M.bind_ok h1]
    refine (ih (s := { s with log := s.log ++ List.replicate (s.conns r) (.childEvent i x e args, s.data) }) hf hi
      (fun r' h' => hr r' (by simp [h']))).trans ?_
    simp [List.replicate_append_replicate]

/-- An emission of `g` by `emit`. -/
theorem emission_all (hq : c.Quiet) {s : St α} (hf : ∀ x ∈ s.data, c.isList x = false) (outer : Option Nat) (g : Nat) {x : α} {i : Nat}
    (hi : s.data.findIdx? (fun v => decide (v = x) || c.eq v x) = some i) (args : List Nat)
    (hg : s.conns g ≠ 0 → w.inst g = x) (hr : ∀ r ∈ w.relays g, s.conns r ≠ 0 → w.inst r = x) :
    emission c w false outer g args s = (.ok (), {
      s with log := s.log ++ List.replicate (s.conns g + ((w.relays g).map s.conns).sum) (.childEvent i x g args, s.data) }) := by
  have h1 : M.forEach (List.replicate (s.conns g) ()) (fun _ => hear c w (some g) args) s =
      (.ok (), { s with log := s.log ++ List.replicate (s.conns g) (.childEvent i x g args, s.data) }) := by
    by_cases h0 : s.conns g = 0
    · rw [h0]; simp [M.forEach]
    · have := hg h0
      subst this
      exact hear_all hq hf g hi args _
  simp only [emission, Bool.false_eq_true, if_false, M.bind_eq, M.bind_app, M.get_app]
  rw [h1]
  simp only []
  refine (relays_all hq (s := { s with log := s.log ++ List.replicate (s.conns g) (.childEvent i x g args, s.data) }) hf g hi args _
    hr).trans ?_
  simp [List.replicate_append_replicate]

omit [c.Passive] in
/-- An emission nobody is connected to. -/
theorem emission_deaf (fast : Bool) (outer : Option Nat) (g : Nat) (args : List Nat) {s : St α}
    (hg : s.conns g = 0) (hr : ∀ r ∈ w.relays g, s.conns r = 0) : emission c w fast outer g args s = (.ok (), s) := by
  have key : ∀ (cur : Option Nat) (rs : List Nat), (∀ r ∈ rs, s.conns r = 0) →
      M.forEach rs (fun r => relayed c w cur r args) s = (.ok (), s) := by
    intro cur rs
    induction rs with
    | nil => exact fun _ => rfl
    | cons r rs ih =>
      intro h
      have h1 : relayed c w cur r args s = (.ok (), s) := by
        cases cur with
        | none => rfl
        | some e =>
          simp only [relayed, M.bind_eq, M.bind_app, M.get_app, h r (by simp)]
          rfl
      rw [M.forEach, M.bind_ok h1]
      exact ih fun r' h' => h r' (by simp [h'])
  simp only [emission, M.bind_eq, M.bind_app, M.get_app, hg, List.replicate_zero, forEach_none]
  exact key _ _ hr

/-- Emissions keep the list and the connections. -/
theorem emission_same (fast : Bool) (outer : Option Nat) (g : Nat) (args : List Nat) (d : List α) (k : Nat → Nat) :
    M.Keeps (fun s : St α => s.data = d ∧ s.conns = k) (emission c w fast outer g args) := by
  have hre : ∀ (e : Nat) (x : α) (m : ChildMsg), M.Keeps (fun s : St α => s.data = d ∧ s.conns = k) (reemit c e x m) := by
    intro e x m s hs
    obtain ⟨e1, e2⟩ := reemit_same (c := c) e x m s
    exact ⟨e1.trans hs.1, e2.trans hs.2⟩
  have hh : ∀ cur, M.Keeps (fun s : St α => s.data = d ∧ s.conns = k) (hear c w cur args) := by
    intro cur
    cases cur with
    | none => exact M.Keeps.pure _
    | some e => exact hre _ _ _
  have hrl : ∀ cur r, M.Keeps (fun s : St α => s.data = d ∧ s.conns = k) (relayed c w cur r args) := by
    intro cur r
    cases cur with
    | none => exact M.Keeps.pure _
    | some e => exact M.Keeps.get.seq fun _ => M.Keeps.forEach _ fun _ => hre _ _ _
  exact M.Keeps.get.seq fun _ => (M.Keeps.forEach _ fun _ => hh _).seq fun _ => M.Keeps.forEach _ fun r => hrl _ r

theorem wstep_attached (hq : c.Quiet) (hc : c.childEvents = true) (hl : ∀ x, c.isList x = false) (o : WOp α)
    (h1 : ∀ i x, o ≠ .list (.setItem i x)) (h2 : ∀ k vs, o ≠ .list (.setSlice k vs)) {s : St α} (hs : Attached c s) :
    Attached c (wstep c w s o) := by
  cases o with
  | list o =>
    exact step_attached hq hc o (fun i x h => h1 i x (by rw [h])) (fun k vs h => h2 k vs (by rw [h])) (fun x _ => hl x) s hs
  | emit fast outer g args =>
    have := emission_same (c := c) (w := w) fast outer g args s.data s.conns s ⟨rfl, rfl⟩
    exact attached_perm hs (.of_eq this.1) this.2

theorem wrun_attached (hq : c.Quiet) (hc : c.childEvents = true) (hl : ∀ x, c.isList x = false) : ∀ (ops : List (WOp α)) {s : St α},
    (∀ i x, .list (.setItem i x) ∉ ops) → (∀ k vs, .list (.setSlice k vs) ∉ ops) → Attached c s → Attached c (wrun c w ops s)
  | [], _, _, _, hs => hs
  | o :: ops, s, h1, h2, hs => by
    refine wrun_attached hq hc hl ops (s := wstep c w s o) (fun i x h => h1 i x (by simp [h])) (fun k vs h => h2 k vs (by simp [h])) ?_
    exact wstep_attached hq hc hl o (fun i x h => h1 i x (by simp [h])) (fun k vs h => h2 k vs (by simp [h])) hs

/-! ## What is in the log -/

/-- An event that is not a child event. -/
def Ev.own : Ev α → Bool
  | .childEvent _ _ _ _ => false
  | _ => true

variable {Q : Ev α × List α → Prop}

/-- All of the log satisfies `Q`. -/
def Logged (Q : Ev α × List α → Prop) (s : St α) : Prop := ∀ e ∈ s.log, Q e

omit [DecidableEq α] in
theorem emit_logged (hQ : ∀ e d, e.own = true → Q (e, d)) {e : Ev α} (he : e.own = true) : M.Keeps (Logged Q) (emit c e) := by
  intro s hs
  rw [emit_state]
  intro x hx
  rcases List.mem_append.1 hx with h | h
  · exact hs x h
  · rw [List.mem_singleton.1 h]
    exact hQ e _ he

omit [DecidableEq α] in
theorem emitReordered_logged (hQ : ∀ e d, e.own = true → Q (e, d)) : M.Keeps (Logged Q) (emitReordered c) := by
  intro s hs
  simp only [emitReordered]
  split
  · exact hs
  · exact emit_logged hQ rfl s hs

omit [DecidableEq α] [c.Passive] in
theorem getItem_logged (i : Int) : M.Keeps (Logged Q) (getItem c i) :=
  M.Keeps.get.seq fun _ => (M.Keeps.ofExcept _).seq fun _ => M.Keeps.pure' _

omit [DecidableEq α] in
theorem insert_logged (hQ : ∀ e d, e.own = true → Q (e, d)) (i : Int) (x : α) : M.Keeps (Logged Q) (insert c i x) := by
  refine (emit_logged hQ rfl).seq fun _ => M.Keeps.get.seq fun _ => M.Keeps.seq (fun s hs => hs) fun _ =>
    (emit_logged hQ rfl).seq fun _ => ?_
  simp only [postInsert]
  split
  · exact fun s hs => hs
  · exact M.Keeps.pure' _

omit [DecidableEq α] in
theorem delOne_logged (hQ : ∀ e d, e.own = true → Q (e, d)) (i : Int) : M.Keeps (Logged Q) (delOne c i) := by
  refine (emit_logged hQ rfl).seq fun _ => M.Keeps.seq ?_ fun _ => M.Keeps.get.seq fun _ => (M.Keeps.ofExcept _).seq fun p =>
    M.Keeps.seq (fun s hs => hs) fun _ => emit_logged hQ rfl
  simp only [preRemove]
  split
  · exact (getItem_logged i).seq fun _ => fun s hs => hs
  · exact M.Keeps.pure' _

omit [DecidableEq α] in
theorem delItem_logged (hQ : ∀ e d, e.own = true → Q (e, d)) (k : Key) : M.Keeps (Logged Q) (delItem c k) :=
  M.Keeps.get.seq fun _ => (M.Keeps.ofExcept _).seq fun _ => M.Keeps.forEach _ fun _ => delOne_logged hQ _

omit [DecidableEq α] in
theorem pop_logged (hQ : ∀ e d, e.own = true → Q (e, d)) (k : Key) : M.Keeps (Logged Q) (pop c k) :=
  M.Keeps.seq (fun s hs => by rw [getKey_state]; exact hs) fun _ => (delItem_logged hQ k).seq fun _ => M.Keeps.pure' _

omit [DecidableEq α] in
theorem clearLoop_logged (hQ : ∀ e d, e.own = true → Q (e, d)) (n : Nat) : M.Keeps (Logged Q) (clearLoop c n) := by
  induction n with
  | zero => exact M.Keeps.pure _
  | succ n ih =>
    intro s hs
    have := pop_logged (c := c) hQ (.int (-1)) s hs
    simp only [clearLoop]
    rcases hp : pop c (.int (-1)) s with ⟨e | r, s'⟩
    · rw [hp] at this
      cases e <;> exact this
    · rw [hp] at this
      exact ih s' this

theorem setItem_logged (hQ : ∀ e d, e.own = true → Q (e, d)) (i : Int) (x : α) : M.Keeps (Logged Q) (setItem c i x) := by
  refine M.Keeps.get.seq fun _ => (M.Keeps.ofExcept _).seq fun old => ?_
  split
  · exact M.Keeps.pure' _
  · exact (M.Keeps.ofExcept _).seq fun _ => M.Keeps.seq (fun s hs => hs) fun _ => emit_logged hQ rfl

omit [DecidableEq α] in
theorem setSlice_logged (hQ : ∀ e d, e.own = true → Q (e, d)) (k : Slice) (vs : Option (List α)) :
    M.Keeps (Logged Q) (setSlice c k vs) := by
  refine M.Keeps.get.seq fun _ => (M.Keeps.ofExcept _).seq fun old => ?_
  cases vs with
  | none => exact M.Keeps.raise _
  | some vs => exact (M.Keeps.ofExcept _).seq fun _ => M.Keeps.seq (fun s hs => hs) fun _ => emit_logged hQ rfl

theorem swap_logged (hQ : ∀ e d, e.own = true → Q (e, d)) (n i : Nat) : M.Keeps (Logged Q) (swap c n i) :=
  (getItem_logged _).seq fun _ => (getItem_logged _).seq fun _ => (setItem_logged hQ _ _).seq fun _ => setItem_logged hQ _ _

theorem reverse_logged (hQ : ∀ e d, e.own = true → Q (e, d)) (b : Bool) : M.Keeps (Logged Q) (reverse c b) := by
  refine M.Keeps.get.seq fun s => ?_
  dsimp only
  split
  · exact (M.Keeps.forEach _ fun _ => swap_logged hQ _ _).seq fun _ => emitReordered_logged hQ
  · exact M.Keeps.seq (fun s hs => hs) fun _ => emitReordered_logged hQ

omit [DecidableEq α] in
theorem move_logged (hQ : ∀ e d, e.own = true → Q (e, d)) (a b : Int) : M.Keeps (Logged Q) (move c a b) := by
  refine M.Keeps.get.seq fun s => ?_
  have body : ∀ d : Int, M.Keeps (Logged Q) (if d = a ∨ d = a + 1 then (pure false : M (St α) Bool) else do
      emit c (.moving a d)
      let s' ← M.get
      let p ← M.ofExcept (Py.pop s'.data a)
      setData (Py.insert p.2 (if a < d then d - 1 else d) p.1)
      emit c (.moved a (if a < d then d - 1 else d) p.1)
      emitReordered c
      pure true) := by
    intro d
    split
    · exact M.Keeps.pure' _
    · exact (emit_logged hQ rfl).seq fun _ => M.Keeps.get.seq fun _ => (M.Keeps.ofExcept _).seq fun p =>
        M.Keeps.seq (fun s hs => hs) fun _ => (emit_logged hQ rfl).seq fun _ => (emitReordered_logged hQ).seq fun _ => M.Keeps.pure' _
  dsimp only
  split <;> exact body _

omit [DecidableEq α] in
theorem moveMultiple_logged (hQ : ∀ e d, e.own = true → Q (e, d)) (ks : List Key) (d : Int) :
    M.Keeps (Logged Q) (moveMultiple c ks d) := by
  refine M.Keeps.get.seq fun s => (M.Keeps.ofExcept _).seq fun plan => M.Keeps.seq (fun s hs => ?_) fun _ =>
    (emitReordered_logged hQ).seq fun _ => M.Keeps.pure' _
  simp only [withBlocked]
  exact M.Keeps.forEach (P := Logged Q) plan (fun p => (move_logged hQ p.1 p.2).seq fun _ => M.Keeps.pure' _)
    { s with blocked := true } hs

theorem step_logged (hQ : ∀ e d, e.own = true → Q (e, d)) (op : Op α) (h : ∀ g x m, op ≠ .childEmit g x m) :
    M.Keeps (Logged Q) (step c op) := by
  have app : ∀ x, M.Keeps (Logged Q) (append c x) := fun x => M.Keeps.get.seq fun _ => insert_logged hQ _ _
  cases op with
  | getItem k => exact M.Keeps.seq (fun s hs => by rw [getKey_state]; exact hs) fun _ => M.Keeps.pure' _
  | setItem i x => exact (setItem_logged hQ i x).seq fun _ => M.Keeps.pure' _
  | setSlice k vs => exact (setSlice_logged hQ k vs).seq fun _ => M.Keeps.pure' _
  | setOther => exact M.Keeps.raise _
  | delItem k => exact (delItem_logged hQ k).seq fun _ => M.Keeps.pure' _
  | insert i x => exact (insert_logged hQ i x).seq fun _ => M.Keeps.pure' _
  | append x => exact (app x).seq fun _ => M.Keeps.pure' _
  | extend xs => exact (M.Keeps.forEach _ app).seq fun _ => M.Keeps.pure' _
  | extendSelf => exact (M.Keeps.get.seq fun _ => M.Keeps.forEach _ app).seq fun _ => M.Keeps.pure' _
  | pop k => exact (pop_logged hQ k).seq fun _ => M.Keeps.pure' _
  | remove x =>
    exact (M.Keeps.seq (fun _ h => h) fun i => delItem_logged hQ _ : M.Keeps _ (remove c x)).seq fun _ => M.Keeps.pure' _
  | clear => exact (M.Keeps.get.seq fun _ => clearLoop_logged hQ _).seq fun _ => M.Keeps.pure' _
  | reverse b => exact (reverse_logged hQ b).seq fun _ => M.Keeps.pure' _
  | len | contents | add xs | radd xs | contains x | count x => exact fun _ h => h
  | index x a b => exact M.Keeps.seq (fun _ h => h) fun _ => M.Keeps.pure' _
  | move a b => exact (move_logged hQ a b).seq fun _ => M.Keeps.pure' _
  | moveMultiple ks d => exact (moveMultiple_logged hQ ks d).seq fun _ => M.Keeps.pure' _
  | childEmit g x m => exact absurd rfl (h g x m)

/-- What a child event of an emission says. -/
theorem reemit_logged (hl : ∀ x, c.isList x = false) (e : Nat) (x : α) (m : ChildMsg)
    (hQ : ∀ (i : Nat) (v : α) (d : List α), d[i]? = some v → (v = x ∨ c.eq v x = true) → Q (match m with
      | .plain args => .childEvent i x e args
      | .info g' args => .childEvent i x g' args, d)) :
    M.Keeps (Logged Q) (reemit c e x m) := by
  intro s hs
  have h0 : index c x 0 none s = ((match s.data.findIdx? (same c · x) with
      | some j => .ok ((0 : Int) + j)
      | none => .error .value), s) := by
    simp only [index, M.bind_eq, M.bind_app, M.get_app, M.ofExcept_app]
    exact Prod.ext (indexLoop_findIdx (fun x _ => hl x) 0) rfl
  cases hj : s.data.findIdx? (same c · x) with
  | none =>
    rw [hj] at h0
    simp only [reemit, h0]
    exact hs
  | some j =>
    rw [hj] at h0
    simp only [Int.zero_add] at h0
    have hj' := List.findIdx?_eq_some_iff_getElem.1 hj
    obtain ⟨hlt, hsame, -⟩ := hj'
    have hv : s.data[j]? = some s.data[j] := List.getElem?_eq_getElem hlt
    have hv2 : s.data[j] = x ∨ c.eq s.data[j] x = true := by
      simpa [same] using hsame
    have hq := hQ j _ s.data hv hv2
    cases m with
    | plain args =>
      simp only [reemit, h0, emit_state]
      intro y hy
      rcases List.mem_append.1 hy with h | h
      · exact hs y h
      · rw [List.mem_singleton.1 h]; exact hq
    | info g' args =>
      simp only [reemit, h0, emit_state]
      intro y hy
      rcases List.mem_append.1 hy with h | h
      · exact hs y h
      · rw [List.mem_singleton.1 h]; exact hq

theorem emission_logged (hl : ∀ x, c.isList x = false) (outer : Option Nat) (g : Nat) (args : List Nat)
    (hQ : ∀ (i : Nat) (x v : α) (d : List α), d[i]? = some v → (v = x ∨ c.eq v x = true) →
      (x = w.inst g ∨ ∃ r ∈ w.relays g, x = w.inst r) → Q (.childEvent i x g args, d)) :
    M.Keeps (Logged Q) (emission c w false outer g args) := by
  have hrs : ∀ rs : List Nat, (∀ r ∈ rs, r ∈ w.relays g) →
      M.Keeps (Logged Q) (M.forEach rs fun r => relayed c w (some g) r args) := by
    intro rs
    induction rs with
    | nil => exact fun _ => M.Keeps.pure _
    | cons r rs ih =>
      intro h
      refine M.Keeps.bind ?_ fun _ => ih fun r' h' => h r' (by simp [h'])
      exact M.Keeps.get.seq fun _ => M.Keeps.forEach _ fun _ =>
        reemit_logged hl r (w.inst r) (.info g args) fun i v d h1 h2 => hQ i _ v d h1 h2 (.inr ⟨r, h r (by simp), rfl⟩)
  refine M.Keeps.get.seq fun _ => (M.Keeps.forEach _ fun _ => ?_).seq fun _ => hrs _ fun _ h => h
  exact reemit_logged hl g (w.inst g) (.plain args) fun i v d h1 h2 => hQ i _ v d h1 h2 (.inl rfl)

end Psygnal.EL
