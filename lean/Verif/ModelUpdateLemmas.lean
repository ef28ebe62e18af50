import Verif.ModelUpdate

/-! # Lemmas for `Verif/ModelUpdate.lean` -/
namespace Psygnal.Upd

/-! ## Fields -/

@[simp] theorem get_nil (k : Nat) : Flds.nil.get k = Option.none := rfl

theorem get_cons (k n : Nat) (v : Val) (fs : Flds) : (Flds.cons n v fs).get k = if n = k then some v else fs.get k := rfl

theorem get_isSome {k : Nat} : ∀ {fs : Flds}, (fs.get k).isSome = true ↔ k ∈ fs.names
  | .nil => by simp [Flds.names]
  | .cons n v fs => by
    simp only [get_cons, Flds.names, List.mem_cons]
    by_cases h : n = k
    · simp [h]
    · simp [h, Ne.symm h, get_isSome (fs := fs)]

theorem get_none {k : Nat} {fs : Flds} : fs.get k = Option.none ↔ k ∉ fs.names := by
  rw [← get_isSome]; simp

theorem mem_of_get {k : Nat} {v : Val} {fs : Flds} (h : fs.get k = some v) : k ∈ fs.names := get_isSome.mp (by simp [h])

@[simp] theorem set_names {k : Nat} {x : Val} : ∀ {fs : Flds}, (fs.set k x).names = fs.names
  | .nil => rfl
  | .cons n v fs => by
    unfold Flds.set
    split
    · rfl
    · simp [Flds.names, set_names (fs := fs)]

theorem get_set {k m : Nat} {x : Val} : ∀ {fs : Flds}, k ∈ fs.names → (fs.set k x).get m = if m = k then some x else fs.get m
  | .nil, h => by simp [Flds.names] at h
  | .cons n v fs, h => by
    unfold Flds.set
    by_cases hn : n = k
    · subst hn
      simp only [if_true, get_cons]
      by_cases hm : n = m
      · simp [hm]
      · simp [hm, Ne.symm hm]
    · have h' : k ∈ fs.names := by simpa [Flds.names, Ne.symm hn] using h
      simp only [if_neg hn, get_cons]
      by_cases hm : n = m
      · subst hm; simp [hn]
      · simp [hm, get_set h']

theorem set_absent {k : Nat} {x : Val} : ∀ {fs : Flds}, k ∉ fs.names → fs.set k x = fs
  | .nil, _ => rfl
  | .cons n v fs, h => by
    simp only [Flds.names, List.mem_cons, not_or] at h
    unfold Flds.set
    rw [if_neg (Ne.symm h.1), set_absent h.2]

/-- Fields with the same names and values are the same. -/
theorem flds_ext : ∀ {fs gs : Flds}, fs.names = gs.names → fs.names.Nodup → (∀ k, fs.get k = gs.get k) → fs = gs
  | .nil, .nil, _, _, _ => rfl
  | .nil, .cons _ _ _, h, _, _ => by simp [Flds.names] at h
  | .cons _ _ _, .nil, h, _, _ => by simp [Flds.names] at h
  | .cons n v fs, .cons m w gs, h, hn, hg => by
    simp only [Flds.names, List.cons.injEq] at h
    obtain ⟨rfl, h⟩ := h
    simp only [Flds.names, List.nodup_cons] at hn
    have h1 := hg n
    simp only [get_cons, if_true, Option.some.injEq] at h1
    subst h1
    congr 1
    refine flds_ext h hn.2 (fun k => ?_)
    have h2 := hg k
    simp only [get_cons] at h2
    by_cases hk : n = k
    · subst hk
      rw [get_none.mpr hn.1, get_none.mpr (h ▸ hn.1)]
    · simpa [hk] using h2

@[simp] theorem dump_names : ∀ {fs : Flds}, fs.dump.names = fs.names
  | .nil => rfl
  | .cons n v fs => by simp [Flds.dump, Flds.names, dump_names (fs := fs)]

theorem get_dump {k : Nat} : ∀ {fs : Flds}, fs.dump.get k = (fs.get k).map Val.dump
  | .nil => rfl
  | .cons n v fs => by
    simp only [Flds.dump, get_cons]
    split
    · rfl
    · exact get_dump

mutual
theorem dump_dump : ∀ v : Val, v.dump.dump = v.dump
  | .none => rfl
  | .undef => rfl
  | .atom _ => rfl
  | .dict fs => by simp only [Val.dump, dump_dumpF fs]
  | .model _ _ fs => by simp only [Val.dump, dump_dumpF fs]
theorem dump_dumpF : ∀ fs : Flds, fs.dump.dump = fs.dump
  | .nil => rfl
  | .cons n v fs => by simp only [Flds.dump, dump_dump v, dump_dumpF fs]
end

/-! ## The loop of `update` -/

/-- What a field `x` becomes by the value `v`. -/
def cell (e : Env) (r d : Bool) (x v : Val) : Val :=
  match x, r with
  | .model j c' gs, true => .model j c' (upd e r d j c' gs v).fs
  | _, _ => if d then v.dump else v

/-- The exception that assigning `v` to field `k`, which is `x`, raises. -/
def cellErr (e : Env) (r d : Bool) (c k : Nat) (x v : Val) : Option Err :=
  match x, r with
  | .model j c' gs, true => (upd e r d j c' gs v).err
  | _, _ => if e.fixed c k then some .frozen else Option.none

/-- What a field becomes, also if an exception is raised. -/
def cellFin (e : Env) (r d : Bool) (c k : Nat) (x v : Val) : Val :=
  match x, r with
  | .model j c' gs, true => .model j c' (upd e r d j c' gs v).fs
  | _, _ => if e.fixed c k then x else if d then v.dump else v

/-- What listeners are told. -/
def cellLog (e : Env) (r d : Bool) (i c k : Nat) (x v : Val) (fs : Flds) : List Ev :=
  match x, r with
  | .model j c' gs, true => (upd e r d j c' gs v).log
  | _, _ => (assign e i c k x (if d then v.dump else v) fs).log

theorem set_get {k : Nat} {x : Val} : ∀ {fs : Flds}, fs.get k = some x → fs.set k x = fs
  | .nil, h => by simp at h
  | .cons n v fs, h => by
    simp only [get_cons] at h
    unfold Flds.set
    split at h
    · rename_i hn; cases h; rw [if_pos hn]
    · rename_i hn; rw [if_neg hn, set_get h]

theorem assign_ok {e : Env} {i c k : Nat} {old v : Val} {fs : Flds} (h : e.fixed c k = false) :
    (assign e i c k old v fs).fs = fs.set k v ∧ (assign e i c k old v fs).err = Option.none := by
  unfold assign
  rw [h]
  simp only [Bool.false_eq_true, if_false]
  split <;> exact ⟨rfl, rfl⟩

theorem loop_nil (e : Env) (r d : Bool) (i c : Nat) (fs : Flds) : loop e r d i c .nil fs = ⟨fs, [], Option.none⟩ := by
  unfold loop; rfl

theorem loop_attr {e : Env} {r d : Bool} {i c k : Nat} {v : Val} {vs fs : Flds} (h : fs.get k = Option.none) :
    loop e r d i c (.cons k v vs) fs = ⟨fs, [], some .attr⟩ := by
  unfold loop; rw [h]

theorem loop_err {e : Env} {r d : Bool} {i c k : Nat} {v x : Val} {vs fs : Flds} (h : fs.get k = some x) {er : Err}
    (he : cellErr e r d c k x v = some er) :
    loop e r d i c (.cons k v vs) fs = ⟨fs.set k (cellFin e r d c k x v), cellLog e r d i c k x v fs, some er⟩ := by
  unfold loop
  rw [h]
  unfold cellErr at he
  simp only
  split
  · rename_i er' h1
    split at he
    · simp only at h1
      rw [he] at h1
      cases h1
      simp [cellFin, cellLog]
    · split at he
      · rename_i hne hf
        cases he
        simp only [assign, hf, if_true] at h1
        cases h1
        cases x with
        | model => cases r with
          | true => exact absurd rfl (hne _ _ _ rfl)
          | false => simp only [cellFin, cellLog, assign, hf, if_true, set_get h]
        | _ => simp only [cellFin, cellLog, assign, hf, if_true, set_get h]
      · cases he
  · rename_i h1
    split at he
    · simp only at h1
      rw [he] at h1; cases h1
    · split at he
      · rename_i hf
        simp [assign, hf] at h1
      · cases he

theorem loop_ok {e : Env} {r d : Bool} {i c k : Nat} {v x : Val} {vs fs : Flds} (h : fs.get k = some x)
    (he : cellErr e r d c k x v = Option.none) :
    loop e r d i c (.cons k v vs) fs =
      ⟨(loop e r d i c vs (fs.set k (cell e r d x v))).fs, cellLog e r d i c k x v fs ++
        (loop e r d i c vs (fs.set k (cell e r d x v))).log, (loop e r d i c vs (fs.set k (cell e r d x v))).err⟩ := by
  rw [loop]
  rw [h]
  unfold cellErr at he
  simp only
  cases x with
  | model j c' gs =>
    cases r with
    | true => simp only at he; simp only [he, cell, cellLog]
    | false =>
      simp only at he
      have hf : e.fixed c k = false := by simpa using he
      simp only [cell, cellLog, assign_ok hf]
  | _ =>
    simp only at he
    have hf : e.fixed c k = false := by simpa using he
    simp only [cell, cellLog, assign_ok hf]

/-- Induction over the loop. -/
theorem loop_cases {e : Env} {r d : Bool} {i c k : Nat} {v : Val} {vs fs : Flds} :
    (fs.get k = Option.none ∧ loop e r d i c (.cons k v vs) fs = ⟨fs, [], some .attr⟩) ∨
    (∃ x er, fs.get k = some x ∧ cellErr e r d c k x v = some er ∧ loop e r d i c (.cons k v vs) fs =
      ⟨fs.set k (cellFin e r d c k x v), cellLog e r d i c k x v fs, some er⟩) ∨
    ∃ x, fs.get k = some x ∧ cellErr e r d c k x v = Option.none ∧ loop e r d i c (.cons k v vs) fs =
      ⟨(loop e r d i c vs (fs.set k (cell e r d x v))).fs, cellLog e r d i c k x v fs ++
        (loop e r d i c vs (fs.set k (cell e r d x v))).log, (loop e r d i c vs (fs.set k (cell e r d x v))).err⟩ := by
  cases h : fs.get k with
  | none => exact .inl ⟨rfl, loop_attr h⟩
  | some x =>
    cases he : cellErr e r d c k x v with
    | some er => exact .inr (.inl ⟨x, er, rfl, he, loop_err h he⟩)
    | none => exact .inr (.inr ⟨x, rfl, he, loop_ok h he⟩)

/-- `update` changes no names. -/
theorem loop_names {e : Env} {r d : Bool} {i c : Nat} : ∀ {vs fs : Flds}, (loop e r d i c vs fs).fs.names = fs.names
  | .nil, fs => by rw [loop_nil]
  | .cons k v vs, fs => by
    rcases loop_cases (e := e) (r := r) (d := d) (i := i) (c := c) (k := k) (v := v) (vs := vs) (fs := fs) with ⟨_, h⟩ | ⟨x, er, _, _, h⟩ | ⟨x, _, _, h⟩
    · rw [h]
    · rw [h]; simp
    · rw [h]; simp only; rw [loop_names]; simp

mutual
theorem upd_dump (e : Env) (r : Bool) : ∀ (v : Val) (i c : Nat) (fs : Flds), upd e r true i c fs v = upd e r false i c fs v.dump
  | .none, _, _, _ => by simp [upd, Val.dump]
  | .undef, _, _, _ => by simp [upd, Val.dump]
  | .atom x, _, _, _ => by simp [upd, Val.dump]
  | .dict vs, i, c, fs => by simp only [upd, Val.dump]; exact loop_dump e r vs i c fs
  | .model _ _ vs, i, c, fs => by simp only [upd, Val.dump]; exact loop_dump e r vs i c fs
theorem loop_dump (e : Env) (r : Bool) : ∀ (vs : Flds) (i c : Nat) (fs : Flds), loop e r true i c vs fs = loop e r false i c vs.dump fs
  | .nil, _, _, _ => by simp [loop, Flds.dump]
  | .cons k v vs, i, c, fs => by
    simp only [loop, Flds.dump, upd_dump e r v, if_true, Bool.false_eq_true, if_false, loop_dump e r vs]
end

/-- The value of every field after a successful `update`. -/
theorem loop_get {e : Env} {r d : Bool} {i c : Nat} : ∀ {vs fs : Flds}, vs.names.Nodup → (loop e r d i c vs fs).err = Option.none →
    ∀ k, (loop e r d i c vs fs).fs.get k = match vs.get k, fs.get k with
      | some v, some x => some (cell e r d x v)
      | _, y => y
  | .nil, fs, _, _, k => by rw [loop_nil]; simp
  | .cons n v vs, fs, hn, he, k => by
    simp only [Flds.names, List.nodup_cons] at hn
    rcases loop_cases (e := e) (r := r) (d := d) (i := i) (c := c) (k := n) (v := v) (vs := vs) (fs := fs) with ⟨_, h⟩ | ⟨x, er, _, _, h⟩ | ⟨x, hx, _, h⟩
    · rw [h] at he; cases he
    · rw [h] at he; cases he
    · rw [h] at he ⊢
      simp only at he ⊢
      rw [loop_get hn.2 he k]
      have hmem := mem_of_get hx
      simp only [get_cons, get_set hmem]
      by_cases hk : n = k
      · subst hk
        rw [get_none.mpr hn.1, hx]
        simp
      · simp [hk, Ne.symm hk]

/-- When `update` raises no exception. -/
theorem loop_err_none {e : Env} {r d : Bool} {i c : Nat} : ∀ {vs fs : Flds}, vs.names.Nodup →
    ((loop e r d i c vs fs).err = Option.none ↔ ∀ k v, vs.get k = some v → ∃ x, fs.get k = some x ∧ cellErr e r d c k x v = Option.none)
  | .nil, fs, _ => by rw [loop_nil]; simp
  | .cons n v vs, fs, hn => by
    simp only [Flds.names, List.nodup_cons] at hn
    rcases loop_cases (e := e) (r := r) (d := d) (i := i) (c := c) (k := n) (v := v) (vs := vs) (fs := fs) with ⟨hx, h⟩ | ⟨x, er, hx, he, h⟩ | ⟨x, hx, he, h⟩
    · rw [h]
      refine ⟨fun h1 => (by cases h1), fun h1 => ?_⟩
      obtain ⟨x, h2, _⟩ := h1 n v (by simp [get_cons])
      rw [hx] at h2; cases h2
    · rw [h]
      refine ⟨fun h1 => (by cases h1), fun h1 => ?_⟩
      obtain ⟨x', h2, h3⟩ := h1 n v (by simp [get_cons])
      rw [hx] at h2; cases h2
      rw [he] at h3; cases h3
    · rw [h]
      simp only
      rw [loop_err_none hn.2]
      have hmem := mem_of_get hx
      constructor
      · intro h1 k w hk
        simp only [get_cons] at hk
        by_cases hnk : n = k
        · subst hnk; rw [if_pos rfl] at hk; cases hk; exact ⟨x, hx, he⟩
        · rw [if_neg hnk] at hk
          obtain ⟨y, h2, h3⟩ := h1 k w hk
          rw [get_set hmem, if_neg (Ne.symm hnk)] at h2
          exact ⟨y, h2, h3⟩
      · intro h1 k w hk
        have hnk : n ≠ k := by rintro rfl; exact hn.1 (mem_of_get hk)
        obtain ⟨y, h2, h3⟩ := h1 k w (by rw [get_cons, if_neg hnk]; exact hk)
        exact ⟨y, by rw [get_set hmem, if_neg (Ne.symm hnk)]; exact h2, h3⟩

/-! ## What listeners are told -/

/-- Model, field and value of an event. -/
def Ev.key (ev : Ev) : Nat × Nat × Val := (ev.i, ev.k, ev.v)

/-- What listeners are told when `v` is assigned to field `k`, which is `x`. -/
def told (e : Env) (r d : Bool) (i k : Nat) (x v : Val) : List (Nat × Nat × Val) :=
  match x, r with
  | .model j c' gs, true => (upd e r d j c' gs v).log.map Ev.key
  | _, _ => if pyeq e x (if d then v.dump else v) then [] else [(i, k, if d then v.dump else v)]

theorem cellLog_key {e : Env} {r d : Bool} {i c k : Nat} {x v : Val} {fs : Flds} (h : cellErr e r d c k x v = Option.none) :
    (cellLog e r d i c k x v fs).map Ev.key = told e r d i k x v := by
  unfold cellLog told
  unfold cellErr at h
  cases x with
  | model j c' gs =>
    cases r with
    | true => rfl
    | false =>
      have hf : e.fixed c k = false := by simpa using h
      simp only [assign, hf, Bool.false_eq_true, if_false]
      generalize (if d = true then v.dump else v) = u
      split <;> rfl
  | _ =>
    have hf : e.fixed c k = false := by simpa using h
    simp only [assign, hf, Bool.false_eq_true, if_false]
    generalize (if d = true then v.dump else v) = u
    split <;> rfl

/-- Names with values as a list. -/
def Flds.list : Flds → List (Nat × Val)
  | .nil => []
  | .cons n v fs => (n, v) :: fs.list

theorem loop_told {e : Env} {r d : Bool} {i c : Nat} : ∀ {vs fs : Flds}, vs.names.Nodup → (loop e r d i c vs fs).err = Option.none →
    (loop e r d i c vs fs).log.map Ev.key = vs.list.flatMap fun (k, v) =>
      match fs.get k with
      | some x => told e r d i k x v
      | Option.none => []
  | .nil, fs, _, _ => by rw [loop_nil]; simp [Flds.list]
  | .cons n v vs, fs, hn, he => by
    simp only [Flds.names, List.nodup_cons] at hn
    rcases loop_cases (e := e) (r := r) (d := d) (i := i) (c := c) (k := n) (v := v) (vs := vs) (fs := fs) with ⟨_, h⟩ | ⟨x, er, _, _, h⟩ | ⟨x, hx, hc, h⟩
    · rw [h] at he; cases he
    · rw [h] at he; cases he
    · rw [h] at he ⊢
      simp only at he ⊢
      have hmem := mem_of_get hx
      rw [List.map_append, cellLog_key hc, loop_told hn.2 he]
      simp only [Flds.list, List.flatMap_cons, hx]
      congr 1
      have hlist : ∀ {vs : Flds} {p : Nat × Val}, p ∈ vs.list → p.1 ∈ vs.names := by
        intro vs
        induction vs using Flds.rec (motive_1 := fun _ => True) with
        | nil => intro p h; cases h
        | cons n v fs _ ih =>
          intro p h
          simp only [Flds.list, List.mem_cons] at h
          rcases h with rfl | h
          · simp [Flds.names]
          · simp [Flds.names, ih h]
        | _ => trivial
      have key : ∀ p ∈ vs.list, (fs.set n (cell e r d x v)).get p.1 = fs.get p.1 := fun p hp => by
        rw [get_set hmem, if_neg (by rintro rfl; exact hn.1 (hlist hp))]
      have : ∀ (l : List (Nat × Val)), (∀ p ∈ l, (fs.set n (cell e r d x v)).get p.1 = fs.get p.1) →
          (l.flatMap fun (k, v') => match (fs.set n (cell e r d x v)).get k with
            | some x => told e r d i k x v'
            | Option.none => []) = l.flatMap fun (k, v') => match fs.get k with
            | some x => told e r d i k x v'
            | Option.none => [] := by
        intro l
        induction l with
        | nil => intro _; rfl
        | cons p l ih =>
          intro h
          rw [List.flatMap_cons, List.flatMap_cons, ih (fun q hq => h q (List.mem_cons_of_mem _ hq))]
          simp only [h p List.mem_cons_self]
      exact this _ key

mutual
theorem upd_seen (e : Env) (r d : Bool) : ∀ (v : Val) (i c : Nat) (fs : Flds), ∀ ev ∈ (upd e r d i c fs v).log, ev.seen.get ev.k = some ev.v
  | .none, _, _, _ => by simp [upd]
  | .undef, _, _, _ => by simp [upd]
  | .atom x, _, _, _ => by simp [upd]
  | .dict vs, i, c, fs => by simp only [upd]; exact loop_seen e r d vs i c fs
  | .model _ _ vs, i, c, fs => by simp only [upd]; exact loop_seen e r true vs i c fs
theorem loop_seen (e : Env) (r d : Bool) : ∀ (vs : Flds) (i c : Nat) (fs : Flds), ∀ ev ∈ (loop e r d i c vs fs).log, ev.seen.get ev.k = some ev.v
  | .nil, _, _, _ => by simp [loop]
  | .cons k v vs, i, c, fs => by
    have hcell : ∀ x, fs.get k = some x → ∀ ev ∈ cellLog e r d i c k x v fs, ev.seen.get ev.k = some ev.v := by
      intro x hx ev hev
      have hleaf : ev ∈ (assign e i c k x (if d then v.dump else v) fs).log → ev.seen.get ev.k = some ev.v := by
        intro h
        generalize (if d = true then v.dump else v) = u at h
        unfold assign at h
        split at h
        · cases h
        · split at h
          · cases h
          · simp only [List.mem_singleton] at h
            subst h
            simp only
            rw [get_set (mem_of_get hx)]
            simp
      unfold cellLog at hev
      split at hev
      · exact upd_seen e _ d v _ _ _ ev hev
      · exact hleaf hev
    rcases loop_cases (e := e) (r := r) (d := d) (i := i) (c := c) (k := k) (v := v) (vs := vs) (fs := fs) with ⟨_, h⟩ | ⟨x, er, hx, _, h⟩ | ⟨x, hx, _, h⟩
    · rw [h]; simp
    · rw [h]; exact hcell x hx
    · rw [h]
      intro ev hev
      rcases List.mem_append.mp hev with hev | hev
      · exact hcell x hx ev hev
      · exact loop_seen e r d vs i c _ ev hev
end

/-! ## What an exception leaves -/

/-- One dict after the other. -/
def Flds.app : Flds → Flds → Flds
  | .nil, gs => gs
  | .cons n v fs, gs => .cons n v (fs.app gs)

theorem loop_stops {e : Env} {r d : Bool} {i c : Nat} : ∀ {vs fs : Flds} {er : Err}, (loop e r d i c vs fs).err = some er →
    ∃ vs1 k v vs2, vs = vs1.app (.cons k v vs2) ∧ (loop e r d i c vs1 fs).err = Option.none ∧
      (loop e r d i c vs1 fs).log <+: (loop e r d i c vs fs).log ∧
      (∀ m, m ≠ k → (loop e r d i c vs fs).fs.get m = (loop e r d i c vs1 fs).fs.get m) ∧
      (∀ x, (loop e r d i c vs1 fs).fs.get k = some x → (∀ j c' gs, x = .model j c' gs → r = false) →
        e.fixed c k = true ∧ er = .frozen ∧ (loop e r d i c vs fs).fs.get k = some x) ∧
      ((loop e r d i c vs1 fs).fs.get k = Option.none → er = .attr)
  | .nil, fs, er, h => by rw [loop_nil] at h; cases h
  | .cons n v vs, fs, er, h0 => by
    rcases loop_cases (e := e) (r := r) (d := d) (i := i) (c := c) (k := n) (v := v) (vs := vs) (fs := fs) with ⟨hx, h⟩ | ⟨x, er', hx, he, h⟩ | ⟨x, hx, hc, h⟩
    · refine ⟨.nil, n, v, vs, rfl, by rw [loop_nil], by rw [loop_nil]; exact List.nil_prefix, ?_, ?_, ?_⟩
      · intro m _; rw [h, loop_nil]
      · intro x h1; rw [loop_nil, hx] at h1; cases h1
      · intro _; rw [h] at h0; cases h0; rfl
    · refine ⟨.nil, n, v, vs, rfl, by rw [loop_nil], by rw [loop_nil]; exact List.nil_prefix, ?_, ?_, ?_⟩
      · intro m hm; rw [h, loop_nil]; simp only; rw [get_set (mem_of_get hx), if_neg hm]
      · intro x' h1 h2
        rw [loop_nil, hx] at h1
        cases h1
        rw [h] at h0 ⊢
        simp only at h0 ⊢
        cases h0
        unfold cellErr at he
        rw [get_set (mem_of_get hx)]
        cases x with
        | model j c' gs =>
          have := h2 j c' gs rfl
          subst this
          simp only at he
          split at he
          · rename_i hf; cases he; simp [hf, cellFin]
          · cases he
        | _ =>
          simp only at he
          split at he
          · rename_i hf; cases he; simp [hf, cellFin]
          · cases he
      · intro h1; rw [loop_nil, hx] at h1; cases h1
    · rw [h] at h0
      simp only at h0
      obtain ⟨vs1, k, w, vs2, h1, h2, h3, h4, h5, h6⟩ := loop_stops h0
      have h7 := loop_ok (e := e) (r := r) (d := d) (i := i) (c := c) (v := v) (vs := vs1) hx hc
      refine ⟨.cons n v vs1, k, w, vs2, by rw [h1]; rfl, by rw [h7]; exact h2, ?_, ?_, ?_, ?_⟩
      · rw [h, h7]; exact (List.prefix_append_right_inj _).mpr h3
      · intro m hm; rw [h, h7]; exact h4 m hm
      · intro x' hx' hm; rw [h7] at hx'; rw [h]; exact h5 x' hx' hm
      · intro hx'; rw [h7] at hx'; exact h6 hx'

/-! ## Models of the same kind -/

/-- Is it a model? -/
def Val.isModel : Val → Bool
  | .model _ _ _ => true
  | _ => false

mutual
/-- The same structure: models of the same classes at the same places, with the same distinct names of fields; other fields not
frozen. -/
def Val.like (e : Env) : Val → Val → Bool
  | .model _ c fs, .model _ c' gs => c == c' && fs.like e c gs
  | .model _ _ _, _ => false
  | _, .model _ _ _ => false
  | _, _ => true
/-- See `Val.like`. -/
def Flds.like (e : Env) (c : Nat) : Flds → Flds → Bool
  | .nil, .nil => true
  | .cons n v fs, .cons m w gs => n == m && !fs.names.contains n && v.like e w && (v.isModel || !e.fixed c n) && fs.like e c gs
  | _, _ => false
end

mutual
/-- The models without other values. -/
def Val.skel : Val → Val
  | .model i c fs => .model i c fs.skel
  | _ => .none
/-- See `Val.skel`. -/
def Flds.skel : Flds → Flds
  | .nil => .nil
  | .cons n v fs => .cons n v.skel fs.skel
end

@[simp] theorem skel_names : ∀ {fs : Flds}, fs.skel.names = fs.names
  | .nil => rfl
  | .cons n v fs => by simp [Flds.skel, Flds.names, skel_names (fs := fs)]

theorem get_skel {k : Nat} : ∀ {fs : Flds}, fs.skel.get k = (fs.get k).map Val.skel
  | .nil => rfl
  | .cons n v fs => by
    simp only [Flds.skel, get_cons]
    split
    · rfl
    · exact get_skel

theorem like_iff {e : Env} {c : Nat} : ∀ {fs gs : Flds}, fs.like e c gs = true ↔ fs.names = gs.names ∧ fs.names.Nodup ∧
    ∀ k x w, fs.get k = some x → gs.get k = some w → x.like e w = true ∧ (x.isModel = true ∨ e.fixed c k = false)
  | .nil, .nil => by simp [Flds.like, Flds.names]
  | .nil, .cons _ _ _ => by simp [Flds.like, Flds.names]
  | .cons _ _ _, .nil => by simp [Flds.like, Flds.names]
  | .cons n v fs, .cons m w gs => by
    unfold Flds.like
    simp only [Bool.and_eq_true, like_iff (fs := fs) (gs := gs), Flds.names, List.cons.injEq, List.nodup_cons]
    constructor
    · rintro ⟨⟨⟨⟨h1, h2⟩, h3⟩, h4⟩, h5, h6, h7⟩
      have hnm : n = m := by simpa using h1
      subst hnm
      refine ⟨⟨rfl, h5⟩, ⟨by simpa using h2, h6⟩, fun k x y hx hy => ?_⟩
      simp only [get_cons] at hx hy
      by_cases hk : n = k
      · subst hk
        simp only [if_true, Option.some.injEq] at hx hy
        subst hx; subst hy
        exact ⟨h3, by simpa using h4⟩
      · rw [if_neg hk] at hx hy
        exact h7 k x y hx hy
    · rintro ⟨⟨rfl, h5⟩, ⟨h2, h6⟩, h7⟩
      have h8 := h7 n v w (by simp [get_cons]) (by simp [get_cons])
      refine ⟨⟨⟨⟨by simp, by simpa using h2⟩, h8.1⟩, by simpa using h8.2⟩, h5, h6, fun k x y hx hy => ?_⟩
      have hk : n ≠ k := by rintro rfl; exact h2 (mem_of_get hx)
      exact h7 k x y (by rw [get_cons, if_neg hk]; exact hx) (by rw [get_cons, if_neg hk]; exact hy)

/-- What `update` does to a model of the same kind. -/
def Follows (e : Env) (v : Val) : Prop := ∀ j c gs, (Val.model j c gs).like e v = true →
  (upd e true true j c gs v).err = Option.none ∧ (Val.model j c (upd e true true j c gs v).fs).dump = v.dump ∧
  (Val.model j c (upd e true true j c gs v).fs).skel = (Val.model j c gs).skel

theorem like_nonmodel {e : Env} {a b : Val} (h : a.like e b = true) : a.isModel = b.isModel := by
  cases a <;> cases b <;> simp [Val.like, Val.isModel] at *

mutual
theorem follows (e : Env) : ∀ v, Follows e v
  | .none => by intro j c gs h; simp [Val.like] at h
  | .undef => by intro j c gs h; simp [Val.like] at h
  | .atom x => by intro j c gs h; simp [Val.like] at h
  | .dict vs => by intro j c gs h; simp [Val.like] at h
  | .model _ c' vs => by
    intro j c gs h
    simp only [Val.like, Bool.and_eq_true, like_iff] at h
    obtain ⟨_, h1, h2, h3⟩ := h
    have hvs := followsF e vs
    simp only [upd]
    have hpair : ∀ {k w}, vs.get k = some w → ∃ x, gs.get k = some x := fun {k w} hw => by
      have : k ∈ gs.names := h1 ▸ mem_of_get hw
      exact Option.isSome_iff_exists.mp (get_isSome.mpr this)
    have hok : (loop e true true j c vs gs).err = Option.none := by
      rw [loop_err_none (h1 ▸ h2)]
      intro k w hw
      obtain ⟨x, hx⟩ := hpair hw
      refine ⟨x, hx, ?_⟩
      obtain ⟨h4, h5⟩ := h3 k x w hx hw
      cases x with
      | model i d fs => exact (hvs k w hw i d fs h4).1
      | _ => simpa [cellErr, Val.isModel] using h5
    have hget := loop_get (h1 ▸ h2) hok
    refine ⟨hok, ?_, ?_⟩
    · simp only [Val.dump]
      congr 1
      refine flds_ext (by simp [loop_names, h1]) (by simpa [loop_names] using h2) (fun k => ?_)
      rw [get_dump, hget k, get_dump]
      cases hw : vs.get k with
      | none =>
        have : gs.get k = Option.none := by rw [get_none, h1]; exact get_none.mp hw
        simp [this]
      | some w =>
        obtain ⟨x, hx⟩ := hpair hw
        rw [hx]
        simp only [Option.map_some]
        congr 1
        obtain ⟨h4, h5⟩ := h3 k x w hx hw
        cases x with
        | model i d fs => exact (hvs k w hw i d fs h4).2.1
        | _ => simp [cell, dump_dump]
    · simp only [Val.skel]
      congr 1
      refine flds_ext (by simp [loop_names]) (by simpa [loop_names] using h2) (fun k => ?_)
      rw [get_skel, hget k, get_skel]
      cases hw : vs.get k with
      | none => rfl
      | some w =>
        obtain ⟨x, hx⟩ := hpair hw
        rw [hx]
        simp only [Option.map_some]
        congr 1
        obtain ⟨h4, h5⟩ := h3 k x w hx hw
        have h6 := like_nonmodel h4
        cases x with
        | model i d fs => exact (hvs k w hw i d fs h4).2.2
        | _ => cases w <;> simp [Val.isModel] at h6 <;> simp [cell, Val.dump, Val.skel]
theorem followsF (e : Env) : ∀ vs : Flds, ∀ k w, vs.get k = some w → Follows e w
  | .nil, k, w, h => by simp at h
  | .cons n v vs, k, w, h => by
    simp only [get_cons] at h
    split at h
    · cases h; exact follows e v
    · exact followsF e vs k w h
end

/-! ## `==` -/

mutual
theorem depth_dump : ∀ v : Val, v.dump.depth = v.depth
  | .none => rfl
  | .undef => rfl
  | .atom _ => rfl
  | .dict fs => by simp only [Val.dump, Val.depth, depth_dumpF fs]
  | .model _ _ fs => by simp only [Val.dump, Val.depth, depth_dumpF fs]
theorem depth_dumpF : ∀ fs : Flds, fs.dump.depth = fs.depth
  | .nil => rfl
  | .cons n v fs => by simp only [Flds.dump, Flds.depth, depth_dump v, depth_dumpF fs]
end

theorem get_depth {k : Nat} {v : Val} : ∀ {fs : Flds}, fs.get k = some v → v.depth ≤ fs.depth
  | .nil, h => by simp at h
  | .cons n w fs, h => by
    simp only [get_cons] at h
    simp only [Flds.depth]
    split at h
    · cases h; omega
    · have := get_depth h; omega

theorem feq_iff {e : Env} {n : Nat} {gs : Flds} : ∀ {fs : Flds}, fs.names.Nodup → (feq (veq e n) gs fs = true ↔
    ∀ k a, fs.get k = some a → ∃ b, gs.get k = some b ∧ veq e n b a = true)
  | .nil, _ => by simp [feq]
  | .cons m x fs, hn => by
    simp only [Flds.names, List.nodup_cons] at hn
    rw [feq]
    constructor
    · intro h k a hk
      split at h
      · cases h
      · rename_i b hb
        simp only [Bool.and_eq_true] at h
        simp only [get_cons] at hk
        split at hk
        · rename_i hm; cases hk; subst hm; exact ⟨b, hb, h.1⟩
        · exact (feq_iff hn.2).mp h.2 k a hk
    · intro h
      obtain ⟨b, hb, h1⟩ := h m x (by simp [get_cons])
      rw [hb]
      simp only [Bool.and_eq_true]
      refine ⟨h1, (feq_iff hn.2).mpr fun k a hk => h k a ?_⟩
      rw [get_cons, if_neg (by rintro rfl; exact hn.1 (mem_of_get hk))]
      exact hk

/-- Values that dump to the same are equal. -/
def Faithful (e : Env) : Prop := ∀ a b : Val, a.isModel = false → b.isModel = false → a.dump = b.dump → e.eq a b = true

theorem like_get {e : Env} {c : Nat} {fs gs : Flds} (h : fs.like e c gs = true) {k : Nat} {x : Val} (hx : fs.get k = some x) :
    ∃ w, gs.get k = some w ∧ x.like e w = true := by
  rw [like_iff] at h
  have : k ∈ gs.names := h.1 ▸ mem_of_get hx
  obtain ⟨w, hw⟩ := Option.isSome_iff_exists.mp (get_isSome.mpr this)
  exact ⟨w, hw, (h.2.2 k x w hx hw).1⟩

theorem like_get' {e : Env} {c : Nat} {fs gs : Flds} (h : fs.like e c gs = true) {k : Nat} {w : Val} (hw : gs.get k = some w) :
    ∃ x, fs.get k = some x ∧ x.like e w = true := by
  rw [like_iff] at h
  have : k ∈ fs.names := h.1 ▸ mem_of_get hw
  obtain ⟨x, hx⟩ := Option.isSome_iff_exists.mp (get_isSome.mpr this)
  exact ⟨x, hx, (h.2.2 k x w hx hw).1⟩

theorem veq_leaf {e : Env} {n : Nat} {a b : Val} (ha : a.isModel = false) (hb : b.isModel = false) : veq e n a b = e.eq a b := by
  cases n <;> cases a <;> cases b <;> simp [Val.isModel, veq] at *

theorem model_of {v : Val} (h : v.isModel = true) : ∃ i c fs, v = .model i c fs := by
  cases v <;> simp [Val.isModel] at h ⊢

theorem veq_of_dump {e : Env} (he : Faithful e) : ∀ {n : Nat} {a b : Val}, (a.like e b = true ∨ b.like e a = true) → a.dump = b.dump →
    a.depth ≤ n → veq e n a b = true
  | n, a, b, hl, hd, hn => by
    have hm : a.isModel = b.isModel := hl.elim like_nonmodel (fun h => (like_nonmodel h).symm)
    cases ha : a.isModel with
    | false => rw [veq_leaf ha (hm ▸ ha)]; exact he a b ha (hm ▸ ha) hd
    | true =>
      obtain ⟨i, c, fs, rfl⟩ := model_of ha
      obtain ⟨j, c', gs, rfl⟩ := model_of (hm ▸ ha)
      simp only [Val.dump, Val.dict.injEq] at hd
      simp only [Val.depth] at hn
      obtain ⟨m, rfl⟩ : ∃ m, n = m + 1 := ⟨n - 1, by omega⟩
      have hcc : c = c' := by
        rcases hl with h | h <;> simp only [Val.like, Bool.and_eq_true, beq_iff_eq] at h
        · exact h.1
        · exact h.1.symm
      subst hcc
      have hl' : fs.like e c gs = true ∨ gs.like e c fs = true := by
        rcases hl with h | h <;> simp only [Val.like, Bool.and_eq_true] at h
        · exact .inl h.2
        · exact .inr h.2
      have hnd : fs.names.Nodup := by
        rcases hl' with h | h <;> rw [like_iff] at h
        · exact h.2.1
        · exact h.1 ▸ h.2.1
      simp only [veq]
      rw [feq_iff hnd]
      intro k x hx
      have : ∃ w, gs.get k = some w ∧ (w.like e x = true ∨ x.like e w = true) := by
        rcases hl' with h | h
        · obtain ⟨w, hw, h'⟩ := like_get h hx; exact ⟨w, hw, .inr h'⟩
        · obtain ⟨w, hw, h'⟩ := like_get' h hx; exact ⟨w, hw, .inl h'⟩
      obtain ⟨w, hw, hwx⟩ := this
      refine ⟨w, hw, veq_of_dump he hwx ?_ ?_⟩
      · have h1 : fs.dump.get k = gs.dump.get k := by rw [hd]
        rw [get_dump, get_dump, hx, hw] at h1
        simpa using h1.symm
      · have h1 := get_depth hw
        have h2 : gs.depth = fs.depth := by rw [← depth_dumpF gs, ← depth_dumpF fs, hd]
        omega

theorem veq_symm {e : Env} (he : ∀ a b, e.eq a b = e.eq b a) : ∀ {n : Nat} {a b : Val}, a.like e b = true → veq e n a b = veq e n b a
  | 0, a, b, _ => by simp only [veq]; exact he a b
  | n + 1, a, b, hl => by
    have hm := like_nonmodel hl
    cases ha : a.isModel with
    | false => rw [veq_leaf ha (hm ▸ ha), veq_leaf (hm ▸ ha) ha, he]
    | true =>
      obtain ⟨i, c, fs, rfl⟩ := model_of ha
      obtain ⟨j, c', gs, rfl⟩ := model_of (hm ▸ ha)
      simp only [Val.like, Bool.and_eq_true] at hl
      have h2 := like_iff.mp hl.2
      simp only [veq]
      rw [Bool.eq_iff_iff, feq_iff h2.2.1, feq_iff (h2.1 ▸ h2.2.1)]
      constructor
      · intro h k w hw
        obtain ⟨x, hx, hxw⟩ := like_get' hl.2 hw
        obtain ⟨w', hw', h3⟩ := h k x hx
        rw [hw] at hw'; cases hw'
        exact ⟨x, hx, by rw [veq_symm he hxw]; exact h3⟩
      · intro h k x hx
        obtain ⟨w, hw, hxw⟩ := like_get hl.2 hx
        obtain ⟨x', hx', h3⟩ := h k w hw
        rw [hx] at hx'; cases hx'
        exact ⟨w, hw, by rw [← veq_symm he hxw]; exact h3⟩

theorem like_symm {e : Env} : ∀ {n : Nat} {a b : Val}, a.depth ≤ n → a.like e b = true → b.like e a = true
  | 0, a, b, hn, h => by
    cases a <;> cases b <;> simp [Val.like, Val.depth] at *
  | n + 1, a, b, hn, h => by
    have hm := like_nonmodel h
    cases ha : a.isModel with
    | false =>
      rw [ha] at hm
      cases a <;> cases b <;> simp [Val.like, Val.isModel] at *
    | true =>
      obtain ⟨i, c, fs, rfl⟩ := model_of ha
      obtain ⟨j, c', gs, rfl⟩ := model_of (hm ▸ ha)
      simp only [Val.like, Bool.and_eq_true, beq_iff_eq, like_iff] at h ⊢
      obtain ⟨rfl, h1, h2, h3⟩ := h
      simp only [Val.depth] at hn
      refine ⟨rfl, h1.symm, h1 ▸ h2, fun k w x hw hx => ?_⟩
      obtain ⟨h4, h5⟩ := h3 k x w hx hw
      have := get_depth hx
      exact ⟨like_symm (n := n) (by omega) h4, by rw [← like_nonmodel h4]; exact h5⟩

theorem like_trans {e : Env} : ∀ {n : Nat} {a b c : Val}, a.depth ≤ n → a.like e b = true → b.like e c = true → a.like e c = true
  | 0, a, b, c, hn, h, h' => by
    cases a <;> cases b <;> cases c <;> simp [Val.like, Val.depth] at *
  | n + 1, a, b, c, hn, h, h' => by
    have hm := like_nonmodel h
    have hm' := like_nonmodel h'
    cases ha : a.isModel with
    | false =>
      rw [ha] at hm
      rw [← hm] at hm'
      cases a <;> cases c <;> simp [Val.like, Val.isModel] at *
    | true =>
      obtain ⟨i, c1, fs, rfl⟩ := model_of ha
      obtain ⟨j, c2, gs, rfl⟩ := model_of (hm ▸ ha)
      obtain ⟨k, c3, hs, rfl⟩ := model_of (hm' ▸ hm ▸ ha)
      simp only [Val.like, Bool.and_eq_true, beq_iff_eq] at h h' ⊢
      obtain ⟨rfl, h⟩ := h
      obtain ⟨rfl, h'⟩ := h'
      simp only [Val.depth] at hn
      have h1 := like_iff.mp h
      have h2 := like_iff.mp h'
      refine ⟨rfl, like_iff.mpr ⟨h1.1.trans h2.1, h1.2.1, fun k x w hx hw => ?_⟩⟩
      obtain ⟨y, hy, _⟩ := like_get h hx
      obtain ⟨h3, h4⟩ := h1.2.2 k x y hx hy
      have := get_depth hx
      exact ⟨like_trans (n := n) (by omega) h3 (h2.2.2 k y w hy hw).1, h4⟩

theorem veq_trans {e : Env} (he : ∀ a b c, e.eq a b = true → e.eq b c = true → e.eq a c = true) :
    ∀ {n : Nat} {a b c : Val}, a.like e b = true → b.like e c = true → veq e n a b = true → veq e n b c = true → veq e n a c = true
  | 0, a, b, c, _, _, h1, h2 => by simp only [veq] at *; exact he a b c h1 h2
  | n + 1, a, b, c, hl, hl', h1, h2 => by
    have hm := like_nonmodel hl
    have hm' := like_nonmodel hl'
    cases ha : a.isModel with
    | false =>
      have hb : b.isModel = false := hm ▸ ha
      have hc : c.isModel = false := hm' ▸ hb
      rw [veq_leaf ha hb] at h1
      rw [veq_leaf hb hc] at h2
      rw [veq_leaf ha hc]
      exact he a b c h1 h2
    | true =>
      obtain ⟨i, c1, fs, rfl⟩ := model_of ha
      obtain ⟨j, c2, gs, rfl⟩ := model_of (hm ▸ ha)
      obtain ⟨k, c3, hs, rfl⟩ := model_of (hm' ▸ hm ▸ ha)
      simp only [Val.like, Bool.and_eq_true, beq_iff_eq] at hl hl'
      obtain ⟨rfl, hl⟩ := hl
      obtain ⟨rfl, hl'⟩ := hl'
      have hi := like_iff.mp hl
      simp only [veq] at h1 h2 ⊢
      rw [feq_iff hi.2.1] at h1 ⊢
      rw [feq_iff (hi.1 ▸ hi.2.1)] at h2
      intro k x hx
      obtain ⟨y, hy, hyx⟩ := h1 k x hx
      obtain ⟨z, hz, hzy⟩ := h2 k y hy
      obtain ⟨y', hy', hxy⟩ := like_get hl hx
      obtain ⟨z', hz', hyz⟩ := like_get hl' hy
      rw [hy] at hy'; cases hy'
      rw [hz] at hz'; cases hz'
      exact ⟨z, hz, veq_trans he (like_symm (Nat.le_refl _) hyz) (like_symm (Nat.le_refl _) hxy) hzy hyx⟩

theorem veq_more {e : Env} : ∀ {n m : Nat} {a b : Val}, a.depth ≤ n → b.depth ≤ n → n ≤ m → veq e m a b = veq e n a b
  | 0, m, a, b, ha, hb, _ => by
    have h1 : a.isModel = false := by cases a <;> simp [Val.depth, Val.isModel] at *
    have h2 : b.isModel = false := by cases b <;> simp [Val.depth, Val.isModel] at *
    rw [veq_leaf h1 h2, veq_leaf h1 h2]
  | n + 1, m, a, b, ha, hb, hm => by
    obtain ⟨m, rfl⟩ : ∃ m', m = m' + 1 := ⟨m - 1, by omega⟩
    cases h1 : a.isModel with
    | false =>
      cases h2 : b.isModel with
      | false => rw [veq_leaf h1 h2, veq_leaf h1 h2]
      | true =>
        obtain ⟨j, c', gs, rfl⟩ := model_of h2
        cases a <;> simp [Val.isModel, veq] at *
    | true =>
      obtain ⟨i, c, fs, rfl⟩ := model_of h1
      cases h2 : b.isModel with
      | false => cases b <;> simp [Val.isModel, veq] at *
      | true =>
        obtain ⟨j, c', gs, rfl⟩ := model_of h2
        simp only [veq]
        simp only [Val.depth] at ha hb
        have : ∀ {fs : Flds}, fs.depth ≤ n → feq (veq e m) gs fs = feq (veq e n) gs fs := by
          intro fs
          induction fs using Flds.rec (motive_1 := fun _ => True) with
          | nil => intro _; simp [feq]
          | cons k x fs _ ih =>
            intro hd
            simp only [Flds.depth] at hd
            rw [feq, feq, ih (by omega)]
            cases hg : gs.get k with
            | none => rfl
            | some y =>
              have := get_depth hg
              simp only
              rw [veq_more (n := n) (m := m) (by omega) (by omega) (by omega)]
          | _ => trivial
        exact this (by omega)

theorem pyeq_at {e : Env} {n : Nat} {a b : Val} (h : a.depth + b.depth ≤ n) : pyeq e a b = veq e n a b :=
  (veq_more (by omega) (by omega) h).symm

theorem pyeq_symm {e : Env} (he : ∀ a b, e.eq a b = e.eq b a) {a b : Val} (h : a.like e b = true) : pyeq e a b = pyeq e b a := by
  unfold pyeq
  rw [veq_symm he h, Nat.add_comm]

theorem pyeq_trans {e : Env} (he : ∀ a b c, e.eq a b = true → e.eq b c = true → e.eq a c = true) {a b c : Val} (h : a.like e b = true)
    (h' : b.like e c = true) (h1 : pyeq e a b = true) (h2 : pyeq e b c = true) : pyeq e a c = true := by
  rw [pyeq_at (n := a.depth + b.depth + c.depth) (by omega)] at *
  exact veq_trans he h h' h1 h2

theorem pyeq_of_dump {e : Env} (he : Faithful e) {a b : Val} (h : a.like e b = true) (hd : a.dump = b.dump) : pyeq e a b = true :=
  veq_of_dump he (.inl h) hd (by omega)

theorem like_skel {e : Env} : ∀ {n : Nat} {a b c : Val}, a.depth ≤ n → a.skel = b.skel → a.like e c = true → b.like e c = true
  | 0, a, b, c, hn, hs, h => by
    cases a <;> cases b <;> cases c <;> simp [Val.like, Val.depth, Val.skel] at *
  | n + 1, a, b, c, hn, hs, h => by
    cases ha : a.isModel with
    | false =>
      cases a <;> cases b <;> cases c <;> simp [Val.like, Val.isModel, Val.skel] at *
    | true =>
      obtain ⟨i, c1, fs, rfl⟩ := model_of ha
      have hb : b.isModel = true := by cases b <;> simp [Val.skel, Val.isModel] at *
      obtain ⟨j, c2, gs, rfl⟩ := model_of hb
      have hc : c.isModel = true := by rw [← like_nonmodel h]; rfl
      obtain ⟨k, c3, hs', rfl⟩ := model_of hc
      simp only [Val.skel, Val.model.injEq] at hs
      obtain ⟨rfl, rfl, hs⟩ := hs
      simp only [Val.like, Bool.and_eq_true, beq_iff_eq] at h ⊢
      obtain ⟨rfl, h⟩ := h
      refine ⟨rfl, ?_⟩
      have hnames : gs.names = fs.names := by rw [← skel_names (fs := gs), ← hs, skel_names]
      rw [like_iff] at h ⊢
      refine ⟨hnames.trans h.1, hnames ▸ h.2.1, fun k y w hy hw => ?_⟩
      have h1 : fs.skel.get k = gs.skel.get k := by rw [hs]
      rw [get_skel, get_skel, hy] at h1
      cases hx : fs.get k with
      | none => rw [hx] at h1; cases h1
      | some x =>
        rw [hx] at h1
        simp only [Option.map_some, Option.some.injEq] at h1
        obtain ⟨h2, h3⟩ := h.2.2 k x w hx hw
        simp only [Val.depth] at hn
        have := get_depth hx
        have h4 := like_skel (n := n) (by omega) h1 h2
        exact ⟨h4, by rw [like_nonmodel h4, ← like_nonmodel h2]; exact h3⟩

/-- A value is equal to one that dumps to the same. -/
theorem pyeq_leaf {e : Env} (he : Faithful e) {x w : Val} (hw : w.isModel = false) (h : x.dump = w.dump) : pyeq e x w = true := by
  cases hx : x.isModel with
  | false => unfold pyeq; rw [veq_leaf hx hw]; exact he x w hx hw h
  | true =>
    obtain ⟨i, c, fs, rfl⟩ := model_of hx
    have h1 : pyeq e (.model i c fs) w = e.eq (.dict fs.dump) w := by
      rw [pyeq_at (n := (Val.model i c fs).depth + w.depth + 1) (by omega)]
      cases w <;> simp [Val.isModel, veq] at *
    rw [h1]
    refine he _ _ rfl hw ?_
    simp only [Val.dump] at h ⊢
    rw [← h, dump_dumpF]

/-- Updating with what is there tells nobody. -/
def Quiet (e : Env) (v : Val) : Prop := ∀ j c gs, (Val.model j c gs).like e v = true → (Val.model j c gs).dump = v.dump →
  (upd e true true j c gs v).log = []

theorem list_get {fs : Flds} : fs.names.Nodup → ∀ {p : Nat × Val}, p ∈ fs.list → fs.get p.1 = some p.2 := by
  induction fs using Flds.rec (motive_1 := fun _ => True) with
  | nil => intro _ p h; cases h
  | cons n v fs _ ih =>
    intro hn p h
    simp only [Flds.names, List.nodup_cons] at hn
    simp only [Flds.list, List.mem_cons] at h
    rcases h with rfl | h
    · simp [get_cons]
    · have h1 := ih hn.2 h
      rw [get_cons, if_neg (by rintro rfl; exact hn.1 (mem_of_get h1))]
      exact h1
  | _ => trivial

mutual
theorem quiet {e : Env} (he : Faithful e) : ∀ v, Quiet e v
  | .none => by intro j c gs h; simp [Val.like] at h
  | .undef => by intro j c gs h; simp [Val.like] at h
  | .atom x => by intro j c gs h; simp [Val.like] at h
  | .dict vs => by intro j c gs h; simp [Val.like] at h
  | .model j' c' vs => by
    intro j c gs h hd
    have hok := (follows e (.model j' c' vs) j c gs h).1
    simp only [Val.like, Bool.and_eq_true] at h
    have hi := like_iff.mp h.2
    have hvs := quietF he vs
    simp only [upd] at hok ⊢
    simp only [Val.dump, Val.dict.injEq] at hd
    have h1 := loop_told (hi.1 ▸ hi.2.1) hok
    have h2 : (vs.list.flatMap fun (k, v) =>
      match gs.get k with
      | some x => told e true true j k x v
      | Option.none => []) = [] := by
      rw [List.flatMap_eq_nil_iff]
      rintro ⟨k, w⟩ hp
      have hw : vs.get k = some w := list_get (hi.1 ▸ hi.2.1) hp
      obtain ⟨x, hx, hl⟩ := like_get' h.2 hw
      have hxw : x.dump = w.dump := by
        have h3 : gs.dump.get k = vs.dump.get k := by rw [hd]
        rw [get_dump, get_dump, hx, hw] at h3
        simpa using h3
      simp only [hx]
      cases hm : x.isModel with
      | false =>
        have hwm : w.dump.isModel = false := by cases w <;> rfl
        have h4 := pyeq_leaf he hwm (hxw.trans (dump_dump w).symm)
        unfold told
        split
        · simp [Val.isModel] at hm
        · simp [h4]
      | true =>
        obtain ⟨i, d, fs, rfl⟩ := model_of hm
        simp only [told]
        rw [hvs k w hw i d fs hl hxw]
        rfl
    rw [h2] at h1
    simpa using h1
theorem quietF {e : Env} (he : Faithful e) : ∀ vs : Flds, ∀ k w, vs.get k = some w → Quiet e w
  | .nil, k, w, h => by simp at h
  | .cons n v vs, k, w, h => by
    simp only [get_cons] at h
    split at h
    · cases h; exact quiet he v
    · exact quietF he vs k w h
end

/-! ## `reset` -/

/-- What a field becomes. -/
def rval (e : Env) (n c k : Nat) (x : Val) : Val :=
  match (e.decl c k).bind (default e n) with
  | Option.none => x
  | some (.model _ _ _) => (resetV e n x).1
  | some v => if e.fixed c k then x else v

/-- What listeners are told. -/
def rtold (e : Env) (n i c k : Nat) (x : Val) : List (Nat × Nat × Val) :=
  match (e.decl c k).bind (default e n) with
  | Option.none => []
  | some (.model _ _ _) => (resetV e n x).2.1.map Ev.key
  | some v => if e.fixed c k || pyeq e x v then [] else [(i, k, v)]

/-- The exception. -/
def rerr (e : Env) (n c k : Nat) (x : Val) : Option Err :=
  match (e.decl c k).bind (default e n) with
  | some (.model _ _ _) => (resetV e n x).2.2
  | _ => Option.none

/-- One field of `resetF`. -/
def rone (e : Env) (n i c k : Nat) (old : Val) (fs : Flds) : Res :=
  match (e.decl c k).bind (default e n) with
  | Option.none => ⟨fs, [], Option.none⟩
  | some (.model _ _ _) => let u := resetV e n old; ⟨fs.set k u.1, u.2.1, u.2.2⟩
  | some v => if e.fixed c k then ⟨fs, [], Option.none⟩ else assign e i c k old v fs

theorem resetF_cons {e : Env} {n i c k : Nat} {old : Val} {gs fs : Flds} :
    resetF e n i c (.cons k old gs) fs = match (rone e n i c k old fs).err with
      | some x => ⟨(rone e n i c k old fs).fs, (rone e n i c k old fs).log, some x⟩
      | Option.none => ⟨(resetF e n i c gs (rone e n i c k old fs).fs).fs,
          (rone e n i c k old fs).log ++ (resetF e n i c gs (rone e n i c k old fs).fs).log,
          (resetF e n i c gs (rone e n i c k old fs).fs).err⟩ := by
  rw [resetF]; rfl

theorem assign_spec {e : Env} {i c k : Nat} {x v : Val} {fs : Flds} (hx : fs.get k = some x) :
    (∀ ev ∈ (assign e i c k x v fs).log, ev.seen.get ev.k = some ev.v) ∧ (e.fixed c k = false →
      (assign e i c k x v fs).log.map Ev.key = if pyeq e x v then [] else [(i, k, v)]) := by
  unfold assign
  refine ⟨fun ev h => ?_, fun hf => ?_⟩
  · split at h
    · cases h
    · split at h
      · cases h
      · simp only [List.mem_singleton] at h
        subst h
        simp only
        rw [get_set (mem_of_get hx)]
        simp
  · rw [hf]
    simp only [Bool.false_eq_true, if_false]
    split <;> rfl

theorem rone_spec {e : Env} {n i c k : Nat} {x : Val} {fs : Flds} (hx : fs.get k = some x) :
    (rone e n i c k x fs).err = rerr e n c k x ∧ (rone e n i c k x fs).fs = fs.set k (rval e n c k x) ∧
    (rone e n i c k x fs).log.map Ev.key = rtold e n i c k x := by
  unfold rone rerr rval rtold
  have h1 : ∀ v : Val, (if e.fixed c k then (⟨fs, [], Option.none⟩ : Res) else assign e i c k x v fs).err = Option.none ∧
      (if e.fixed c k then (⟨fs, [], Option.none⟩ : Res) else assign e i c k x v fs).fs = fs.set k (if e.fixed c k then x else v) ∧
      (if e.fixed c k then (⟨fs, [], Option.none⟩ : Res) else assign e i c k x v fs).log.map Ev.key =
        if e.fixed c k || pyeq e x v then [] else [(i, k, v)] := by
    intro v
    cases hf : e.fixed c k with
    | true => simp [set_get hx]
    | false =>
      simp only [Bool.false_eq_true, if_false, Bool.false_or]
      exact ⟨(assign_ok hf).2, (assign_ok hf).1, (assign_spec hx).2 hf⟩
  cases hd : (e.decl c k).bind (default e n) with
  | none => simp [set_get hx]
  | some v =>
    cases v with
    | model j c' gs => exact ⟨rfl, rfl, rfl⟩
    | _ => exact h1 _

theorem resetF_names {e : Env} {n i c : Nat} : ∀ {gs fs : Flds}, (resetF e n i c gs fs).fs.names = fs.names
  | .nil, fs => by rw [resetF]
  | .cons k x gs, fs => by
    have h1 : (rone e n i c k x fs).fs.names = fs.names := by
      unfold rone
      split
      · rfl
      · simp
      · split
        · rfl
        · unfold assign
          split
          · rfl
          · split <;> simp
    rw [resetF_cons]
    split
    · exact h1
    · simp only; rw [resetF_names, h1]

/-- What `reset` does to the fields. -/
theorem resetF_spec {e : Env} {n i c : Nat} : ∀ {gs fs : Flds}, gs.names.Nodup → (∀ k x, gs.get k = some x → fs.get k = some x) →
    ((resetF e n i c gs fs).err = Option.none ↔ ∀ k x, gs.get k = some x → rerr e n c k x = Option.none) ∧
    ((resetF e n i c gs fs).err = Option.none → (∀ k, (resetF e n i c gs fs).fs.get k = match gs.get k with
        | some x => some (rval e n c k x)
        | Option.none => fs.get k) ∧
      (resetF e n i c gs fs).log.map Ev.key = gs.list.flatMap fun (k, x) => rtold e n i c k x)
  | .nil, fs, _, _ => by simp [resetF, Flds.list]
  | .cons k x gs, fs, hn, hg => by
    simp only [Flds.names, List.nodup_cons] at hn
    have hx : fs.get k = some x := hg k x (by simp [get_cons])
    obtain ⟨h1, h2, h3⟩ := rone_spec (e := e) (n := n) (i := i) (c := c) hx
    have hg' : ∀ m y, gs.get m = some y → (fs.set k (rval e n c k x)).get m = some y := by
      intro m y hy
      have hm : m ≠ k := by rintro rfl; exact hn.1 (mem_of_get hy)
      rw [get_set (mem_of_get hx), if_neg hm]
      exact hg m y (by rw [get_cons, if_neg (Ne.symm hm)]; exact hy)
    obtain ⟨h4, h5⟩ := resetF_spec (e := e) (n := n) (i := i) (c := c) hn.2 hg'
    rw [resetF_cons, h1]
    cases hr : rerr e n c k x with
    | some er =>
      refine ⟨⟨fun h => (by cases h), fun h => ?_⟩, fun h => (by cases h)⟩
      have := h k x (by simp [get_cons])
      rw [hr] at this; cases this
    | none =>
      simp only
      rw [h2, h4]
      refine ⟨⟨fun h m y hy => ?_, fun h m y hy => ?_⟩, fun h => ?_⟩
      · simp only [get_cons] at hy
        split at hy
        · rename_i hm; cases hy; subst hm; exact hr
        · exact h m y hy
      · refine h m y ?_
        rw [get_cons, if_neg (by rintro rfl; exact hn.1 (mem_of_get hy))]
        exact hy
      · obtain ⟨h6, h7⟩ := h5 (h4.mpr h)
        refine ⟨fun m => ?_, ?_⟩
        · rw [h6 m, get_cons]
          by_cases hm : k = m
          · subst hm
            rw [get_none.mpr hn.1, if_pos rfl, get_set (mem_of_get hx)]
            simp
          · rw [if_neg hm]
            cases gs.get m with
            | some y => rfl
            | none => simp only; rw [get_set (mem_of_get hx), if_neg (Ne.symm hm)]
        · rw [List.map_append, h3, h7]; rfl

mutual
theorem resetV_seen (e : Env) (n : Nat) : ∀ v : Val, ∀ ev ∈ (resetV e n v).2.1, ev.seen.get ev.k = some ev.v
  | .none => by simp [resetV]
  | .undef => by simp [resetV]
  | .atom _ => by simp [resetV]
  | .dict _ => by simp [resetV]
  | .model i c fs => by
    intro ev h
    rw [resetV] at h
    split at h
    · exact resetF_seen e n i c fs fs (fun _ h => h) ev h
    · cases h
theorem resetF_seen (e : Env) (n i c : Nat) : ∀ gs fs : Flds, (∀ k, k ∈ gs.names → k ∈ fs.names) →
    ∀ ev ∈ (resetF e n i c gs fs).log, ev.seen.get ev.k = some ev.v
  | .nil, fs, _ => by simp [resetF]
  | .cons k x gs, fs, hg => by
    have h1 : ∀ ev ∈ (rone e n i c k x fs).log, ev.seen.get ev.k = some ev.v := by
      intro ev h
      unfold rone at h
      split at h
      · cases h
      · exact resetV_seen e n x ev h
      · split at h
        · cases h
        · unfold assign at h
          split at h
          · cases h
          · split at h
            · cases h
            · simp only [List.mem_singleton] at h
              subst h
              simp only
              rw [get_set (hg k (by simp [Flds.names]))]
              simp
    have h2 : (rone e n i c k x fs).fs.names = fs.names := by
      unfold rone
      split
      · rfl
      · simp
      · split
        · rfl
        · unfold assign
          split
          · rfl
          · split <;> simp
    rw [resetF_cons]
    split
    · exact h1
    · intro ev h
      rcases List.mem_append.mp h with h | h
      · exact h1 ev h
      · exact resetF_seen e n i c gs _ (fun m hm => by rw [h2]; exact hg m (by simp [Flds.names, hm])) ev h
end

mutual
/-- Fields are those of the classes and nothing is frozen; each default is a value, and where it is a model, the field holds a model
of its class and the default is as new. -/
def Val.plain (e : Env) : Val → Bool
  | .model _ c fs => decide (fs.names = (e.decls c).map Decl.name) && decide (fs.names.Nodup) && fs.plain e c
  | _ => false
/-- See `Val.plain`. -/
def Flds.plain (e : Env) (c : Nat) : Flds → Bool
  | .nil => true
  | .cons k x fs => (match e.decl c k with
    | Option.none => false
    | some d => match d.dflt with
      | .value (.model _ c' ws) => (match x with
        | .model _ c'' _ => c'' == c'
        | _ => false) && x.plain e && ws.dump.beq (fresh e c' (fun _ => .undef)).dump
      | .value .none => d.ann.isNone && !e.fixed c k
      | .value _ => !e.fixed c k
      | _ => false) && fs.plain e c
end

mutual
theorem beq_eq : ∀ {a b : Val}, a.beq b = true ↔ a = b
  | .none, b => by cases b <;> simp [Val.beq]
  | .undef, b => by cases b <;> simp [Val.beq]
  | .atom x, b => by cases b <;> simp [Val.beq]
  | .dict fs, b => by cases b <;> simp [Val.beq, beq_eqF (fs := fs)]
  | .model i c fs, b => by cases b <;> simp [Val.beq, beq_eqF (fs := fs), and_assoc]
theorem beq_eqF : ∀ {fs gs : Flds}, fs.beq gs = true ↔ fs = gs
  | .nil, gs => by cases gs <;> simp [Flds.beq]
  | .cons n v fs, gs => by cases gs <;> simp [Flds.beq, beq_eq (a := v), beq_eqF (fs := fs), and_assoc]
end

/-- The value of a field of a new model. -/
def Dflt.init (d : Dflt) (g : Val) : Val :=
  match d with
  | .required => g
  | .value v => v
  | .factory v => v

theorem fresh_names {e : Env} {c : Nat} {g : Nat → Val} : (fresh e c g).names = (e.decls c).map Decl.name := by
  unfold fresh
  induction e.decls c with
  | nil => rfl
  | cons d ds ih => simp only [List.foldr_cons, Flds.names, List.map_cons, ih]

theorem get_fresh {e : Env} {c : Nat} {g : Nat → Val} {k : Nat} : (fresh e c g).get k = (e.decl c k).map (fun d => d.dflt.init (g k)) := by
  unfold fresh Env.decl
  induction e.decls c with
  | nil => rfl
  | cons d ds ih =>
    simp only [List.foldr_cons, get_cons, List.find?_cons]
    by_cases h : d.name = k
    · subst h
      simp only [if_true, BEq.rfl, Option.map_some]
      cases d.dflt <;> rfl
    · rw [if_neg h, ih, show (d.name == k) = false by simpa using h]

/-- See `Flds.plain`. -/
def PlainAt (e : Env) (c k : Nat) (x : Val) : Prop := ∃ d w, e.decl c k = some d ∧ d.dflt = .value w ∧
  ((∃ j c' ws j' gs, w = .model j c' ws ∧ x = .model j' c' gs ∧ x.plain e = true ∧ ws.dump = (fresh e c' (fun _ => .undef)).dump) ∨
    (w.isModel = false ∧ (w = .none → d.ann = Option.none) ∧ e.fixed c k = false))

theorem plain_cons {e : Env} {c k : Nat} {x : Val} {fs : Flds} :
    (Flds.cons k x fs).plain e c = true ↔ PlainAt e c k x ∧ fs.plain e c = true := by
  rw [Flds.plain, Bool.and_eq_true]
  unfold PlainAt
  refine and_congr ?_ Iff.rfl
  cases hd : e.decl c k with
  | none => simp
  | some d =>
    simp only [Option.some.injEq]
    cases hf : d.dflt with
    | required => simp [hf]
    | factory v => simp [hf]
    | value w =>
      cases w with
      | model j c' ws =>
        simp only
        constructor
        · intro h
          rw [Bool.and_eq_true, Bool.and_eq_true, beq_eqF] at h
          cases x with
          | model j' c'' gs =>
            have : c'' = c' := by simpa using h.1.1
            subst this
            exact ⟨d, _, rfl, hf, .inl ⟨j, c'', ws, j', gs, rfl, rfl, h.1.2, h.2⟩⟩
          | _ => simp at h
        · rintro ⟨_, w, rfl, hw, h⟩
          rw [hf] at hw
          cases hw
          rcases h with ⟨j1, c1, ws1, j', gs, h1, rfl, h2, h3⟩ | ⟨h1, _⟩
          · cases h1
            simp [h2, h3, beq_eqF]
          · simp [Val.isModel] at h1
      | none =>
        constructor
        · intro h
          simp at h
          exact ⟨d, _, rfl, hf, .inr ⟨rfl, fun _ => h.1, h.2⟩⟩
        · rintro ⟨_, w, rfl, hw, h⟩
          rw [hf] at hw
          cases hw
          rcases h with ⟨_, _, _, _, _, h1, _⟩ | ⟨_, h2, h3⟩
          · cases h1
          · simp [h2 rfl, h3]
      | _ =>
        constructor
        · intro h
          simp at h
          exact ⟨d, _, rfl, hf, .inr ⟨rfl, fun h => (by cases h), h⟩⟩
        · rintro ⟨_, w, rfl, hw, h⟩
          rw [hf] at hw
          cases hw
          rcases h with ⟨_, _, _, _, _, h1, _⟩ | ⟨_, _, h3⟩
          · cases h1
          · simp [h3]

theorem plain_iff {e : Env} {c : Nat} : ∀ {fs : Flds}, fs.names.Nodup → (fs.plain e c = true ↔ ∀ k x, fs.get k = some x → PlainAt e c k x)
  | .nil, _ => by simp [Flds.plain]
  | .cons n v fs, hn => by
    simp only [Flds.names, List.nodup_cons] at hn
    rw [plain_cons, plain_iff hn.2]
    constructor
    · rintro ⟨h1, h2⟩ k x hx
      simp only [get_cons] at hx
      split at hx
      · rename_i h; cases hx; subst h; exact h1
      · exact h2 k x hx
    · intro h
      refine ⟨h n v (by simp [get_cons]), fun k x hx => h k x ?_⟩
      rw [get_cons, if_neg (by rintro rfl; exact hn.1 (mem_of_get hx))]
      exact hx

theorem default_value {e : Env} {n : Nat} {d : Decl} {w : Val} (h : d.dflt = .value w) (hw : w = .none → d.ann = Option.none) :
    default e (n + 1) d = some w := by
  unfold default
  rw [h]
  cases w with
  | none => rw [hw rfl]
  | _ => cases d.ann <;> rfl

theorem decl_mem {e : Env} {c k : Nat} {d : Decl} (h : e.decl c k = some d) : k ∈ (e.decls c).map Decl.name := by
  unfold Env.decl at h
  have h4 := List.find?_some h
  exact List.mem_map.mpr ⟨d, List.mem_of_find?_eq_some h, by simpa using h4⟩

theorem decl_of_mem {e : Env} {c : Nat} {d : Decl} (hn : ((e.decls c).map Decl.name).Nodup) (h : d ∈ e.decls c) : e.decl c d.name = some d := by
  unfold Env.decl
  revert hn h
  generalize e.decls c = l
  induction l with
  | nil => intro _ h; cases h
  | cons a l ih =>
    intro hn h
    simp only [List.map_cons, List.nodup_cons] at hn
    rw [List.find?_cons]
    rcases List.mem_cons.mp h with rfl | h
    · simp
    · have : a.name ≠ d.name := fun h1 => hn.1 (h1 ▸ List.mem_map_of_mem h)
      rw [show (a.name == d.name) = false by simpa using this]
      exact ih hn.2 h

theorem plain_fresh {e : Env} {i c : Nat} {fs : Flds} (h : (Val.model i c fs).plain e = true) (g g' : Nat → Val) : fresh e c g = fresh e c g' := by
  simp only [Val.plain, Bool.and_eq_true, decide_eq_true_eq] at h
  obtain ⟨⟨h1, h2⟩, h3⟩ := h
  rw [plain_iff h2] at h3
  refine flds_ext (by rw [fresh_names, fresh_names]) (by rw [fresh_names, ← h1]; exact h2) (fun k => ?_)
  rw [get_fresh, get_fresh]
  cases hd : e.decl c k with
  | none => rfl
  | some d =>
    have hk : k ∈ fs.names := by
      rw [h1]
      exact decl_mem hd
    obtain ⟨x, hx⟩ := Option.isSome_iff_exists.mp (get_isSome.mpr hk)
    obtain ⟨d', w, h4, h5, _⟩ := h3 k x hx
    rw [hd] at h4
    cases h4
    simp [h5, Dflt.init]

/-- What `reset` does where defaults are plain. -/
def Back (e : Env) (n : Nat) (v : Val) : Prop := ∀ i c fs, v = .model i c fs → v.plain e = true → ∀ g,
  (resetV e (n + 1) v).2.2 = Option.none ∧ (∃ fs', (resetV e (n + 1) v).1 = .model i c fs' ∧ fs'.dump = (fresh e c g).dump ∧
    (Val.model i c fs').plain e = true) ∧ (Faithful e → fs.dump = (fresh e c g).dump → (resetV e (n + 1) v).2.1 = [])

mutual
theorem back (e : Env) (n : Nat) : ∀ v, Back e n v
  | .none => by intro i c fs h; cases h
  | .undef => by intro i c fs h; cases h
  | .atom _ => by intro i c fs h; cases h
  | .dict _ => by intro i c fs h; cases h
  | .model i c fs => by
    intro i' c' fs' heq hp g
    cases heq
    have hF := backF e n fs
    have hfresh := plain_fresh hp g (fun _ => .undef)
    rw [hfresh]
    have hp0 := hp
    simp only [Val.plain, Bool.and_eq_true, decide_eq_true_eq] at hp
    obtain ⟨⟨h1, h2⟩, h3⟩ := hp
    rw [plain_iff h2] at h3
    have hall : ((e.decls c).all fun d => (default e (n + 1) d).isSome) = true := by
      rw [List.all_eq_true]
      intro d hd
      have h4 : d.name ∈ fs.names := by rw [h1]; exact List.mem_map_of_mem hd
      obtain ⟨x, hx⟩ := Option.isSome_iff_exists.mp (get_isSome.mpr h4)
      obtain ⟨d', w, h5, h6, h7⟩ := h3 _ x hx
      rw [decl_of_mem (h1 ▸ h2) hd] at h5
      cases h5
      rcases h7 with ⟨j, c', ws, j', gs, rfl, _⟩ | ⟨_, h8, _⟩
      · rw [default_value h6 (by intro h; cases h)]; rfl
      · rw [default_value h6 h8]; rfl
    have hsp := resetF_spec (e := e) (n := n + 1) (i := i) (c := c) (gs := fs) (fs := fs) h2 (fun _ _ h => h)
    have hok : (resetF e (n + 1) i c fs fs).err = Option.none := by
      rw [hsp.1]
      intro k x hx
      obtain ⟨d, w, h4, h5, h6⟩ := h3 k x hx
      unfold rerr
      rw [h4]
      simp only [Option.bind_some]
      rcases h6 with ⟨j, c', ws, j', gs, rfl, rfl, h7, h8⟩ | ⟨h7, h8, h9⟩
      · rw [default_value h5 (by intro h; cases h)]
        exact (hF k _ hx j' c' gs rfl h7 (fun _ => .undef)).1
      · rw [default_value h5 h8]
        cases w <;> simp [Val.isModel] at h7 <;> rfl
    obtain ⟨hget, hlog⟩ := hsp.2 hok
    rw [resetV, if_pos hall]
    refine ⟨hok, ⟨_, rfl, ?_, ?_⟩, fun he hd => ?_⟩
    · refine flds_ext (by simp [resetF_names, h1, fresh_names]) (by simpa [resetF_names] using h2) (fun k => ?_)
      rw [get_dump, get_dump, hget k, get_fresh]
      cases hx : fs.get k with
      | none =>
        have h4 : e.decl c k = Option.none := by
          cases hd : e.decl c k with
          | none => rfl
          | some d => exact absurd (h1 ▸ decl_mem hd) (get_none.mp hx)
        simp [h4]
      | some x =>
        obtain ⟨d, w, h4, h5, h6⟩ := h3 k x hx
        rw [h4]
        simp only [Option.map_some, h5, Dflt.init, Option.some.injEq]
        unfold rval
        rw [h4]
        simp only [Option.bind_some]
        rcases h6 with ⟨j, c', ws, j', gs, rfl, rfl, h7, h8⟩ | ⟨h7, h8, h9⟩
        · rw [default_value h5 (by intro h; cases h)]
          obtain ⟨_, ⟨fs', h10, h11, _⟩, _⟩ := hF k _ hx j' c' gs rfl h7 (fun _ => .undef)
          simp only [h10, Val.dump, h11, h8]
        · rw [default_value h5 h8]
          cases w <;> simp [Val.isModel] at h7 <;> simp [h9]
    · simp only [Val.plain, Bool.and_eq_true, decide_eq_true_eq, resetF_names]
      refine ⟨⟨h1, h2⟩, (plain_iff (by rw [resetF_names]; exact h2)).mpr fun k y hy => ?_⟩
      rw [hget k] at hy
      cases hx : fs.get k with
      | none => rw [hx] at hy; cases hy
      | some x =>
        rw [hx] at hy
        simp only [Option.some.injEq] at hy
        subst hy
        obtain ⟨d, w, h4, h5, h6⟩ := h3 k x hx
        refine ⟨d, w, h4, h5, ?_⟩
        rcases h6 with ⟨j, c', ws, j', gs, rfl, rfl, h7, h8⟩ | h6
        · left
          obtain ⟨_, ⟨fs', h10, h11, h12⟩, _⟩ := hF k _ hx j' c' gs rfl h7 (fun _ => .undef)
          have h13 : rval e (n + 1) c k (.model j' c' gs) = .model j' c' fs' := by
            unfold rval
            rw [h4]
            simp only [Option.bind_some]
            rw [default_value h5 (by intro h; cases h)]
            exact h10
          rw [h13]
          exact ⟨j, c', ws, j', fs', rfl, rfl, h12, h8⟩
        · exact .inr h6
    · have h4 : (fs.list.flatMap fun (k, x) => rtold e (n + 1) i c k x) = [] := by
        rw [List.flatMap_eq_nil_iff]
        rintro ⟨k, x⟩ hp
        have hx : fs.get k = some x := list_get h2 hp
        obtain ⟨d, w, h4, h5, h6⟩ := h3 k x hx
        have hxw : x.dump = w.dump := by
          have h7 : fs.dump.get k = (fresh e c fun _ => .undef).dump.get k := by rw [hd]
          rw [get_dump, get_dump, hx, get_fresh, h4] at h7
          simpa [h5, Dflt.init] using h7
        simp only
        unfold rtold
        rw [h4]
        simp only [Option.bind_some]
        rcases h6 with ⟨j, c', ws, j', gs, rfl, rfl, h7, h8⟩ | ⟨h7, h8, h9⟩
        · rw [default_value h5 (by intro h; cases h)]
          simp only [Val.dump, Val.dict.injEq] at hxw
          have h9 := (hF k _ hx j' c' gs rfl h7 (fun _ => .undef)).2.2 he (hxw.trans h8)
          simp only [h9, List.map_nil]
        · rw [default_value h5 h8]
          have h10 := pyeq_leaf he h7 hxw
          cases w <;> simp [Val.isModel] at h7 <;> simp [h10]
      rw [h4] at hlog
      simpa using hlog
theorem backF (e : Env) (n : Nat) : ∀ vs : Flds, ∀ k w, vs.get k = some w → Back e n w
  | .nil, k, w, h => by simp at h
  | .cons m v vs, k, w, h => by
    simp only [get_cons] at h
    split at h
    · cases h; exact back e n v
    · exact backF e n vs k w h
end

end Psygnal.Upd
