import Verif.EqOps
import Verif.Props.Dataclass

/-! # Lemmas for C91 -/
namespace Psygnal.EqO

open Psygnal.DC (Op Val EqMap Ty Field Env pickOp checkEq Answer)

/-- Comparisons one after the other, beginning with operator `o` and ending with operator `o'`: before, after, the answer.  An attribute that did
not exist has changed if it exists now. -/
inductive Chain (env : Env) : Op → List (Val × Val × Except Unit Bool) → Op → Prop
  | nil (o : Op) : Chain env o [] o
  | new {o o' : Op} {l : List (Val × Val × Except Unit Bool)} (after : Val) : Chain env o l o' →
      Chain env o ((.null, after, .ok (decide (after = .null))) :: l) o'
  | cons {o o1 o' : Op} {before after : Val} {b : Bool} {l : List (Val × Val × Except Unit Bool)} : before ≠ .null →
      Answer env before after o b o1 → Chain env o1 l o' → Chain env o ((before, after, .ok b) :: l) o'

theorem Chain.append {env : Env} {o1 o2 o3 : Op} {l1 l2 : List (Val × Val × Except Unit Bool)} (h1 : Chain env o1 l1 o2) (h2 : Chain env o2 l2 o3) :
    Chain env o1 (l1 ++ l2) o3 := by
  induction h1 with
  | nil => exact h2
  | new a _ ih => exact .new a (ih h2)
  | cons hb ha _ ih => exact .cons hb ha (ih h2)

/-- The comparisons of field `name` of class `c` among what one sees. -/
def Out.of (c name : Nat) : Out → Option (Val × Val × Except Unit Bool)
  | .cmp c' n x y r => if c' = c ∧ n = name then some (x, y, r) else none
  | .same _ _ => none

/-- The class of the object in an event. -/
def Ev.cls : Ev → Nat
  | .access _ c => c
  | .assign _ c _ _ _ => c
  | .compare c _ _ _ => c
  | .same c _ _ => c

/-- The descriptor that is asked for a group in an event. -/
def Ev.desc : Ev → Option Nat
  | .access d _ => some d
  | .assign d _ _ _ _ => some d
  | _ => none

variable {p : Prg}

/-- The operator for `name` in a dict. -/
def St.op (σ : St) (l : Loc) (name : Nat) : Op := ((σ.dicts l).ops name).getD .eq

theorem op_set_ne {σ : St} {l k : Loc} (h : l ≠ k) (d : D) (name : Nat) : (σ.set k d).op l name = σ.op l name := by
  unfold St.op St.set
  simp only [if_neg h]

theorem op_set {σ : St} {l : Loc} (d : D) (name : Nat) : (σ.set l d).op l name = (d.ops name).getD .eq := by
  unfold St.op St.set
  simp only [if_pos]

theorem check_other (ha : p.env.Attrs) {c c' n name : Nat} {x y : Val} {σ : St} (h : p.loc c' ≠ p.loc c ∨ n ≠ name) :
    (p.check c' n x y σ).2.op (p.loc c) name = σ.op (p.loc c) name := by
  by_cases hl : p.loc c' = p.loc c
  · have hn : n ≠ name := h.resolve_left (fun h => h hl)
    unfold Prg.check
    rw [← hl]
    rw [op_set]
    split
    · rfl
    · rename_i hb
      obtain ⟨b, o, -, -, -, h4⟩ := DC.C42_partial p.env ha (σ.dicts (p.loc c')).ops n (before := x) y hb
      simp only [D.put]
      rw [h4 name (fun e => hn e.symm)]
      rfl
  · unfold Prg.check
    exact op_set_ne (fun e => hl e.symm) _ _

theorem check_same (ha : p.env.Attrs) (c name : Nat) (x y : Val) (σ : St) :
    Chain p.env (σ.op (p.loc c) name) [(x, y, (p.check c name x y σ).1)] ((p.check c name x y σ).2.op (p.loc c) name) := by
  unfold Prg.check
  simp only
  rw [op_set]
  split
  · rename_i hb
    subst hb
    rw [DC.C42_missing]
    exact .new y (.nil _)
  · rename_i hb
    obtain ⟨b, o, h1, h2, h3, -⟩ := DC.C42_partial p.env ha (σ.dicts (p.loc c)).ops name (before := x) y hb
    rw [h1]
    refine .cons hb h2 ?_
    simp only [D.put]
    rw [h3]
    exact .nil _

theorem check_built (c name : Nat) (x y : Val) (σ : St) : (p.check c name x y σ).2.built = σ.built := rfl

theorem same_built (c : Nat) (a b : Nat → Option Val) : ∀ (ns : List Nat) (σ : St), (p.same c a b ns σ).2.2.built = σ.built
  | [], _ => rfl
  | n :: ns, σ => by
    rw [Prg.same]
    split
    · rename_i x y _ _
      split
      · rename_i σ' hc
        have := check_built (p := p) c n x y σ
        rw [hc] at this
        exact (same_built c a b ns σ').trans this
      · rename_i r σ' _ hc
        have := check_built (p := p) c n x y σ
        rw [hc] at this
        exact this
    · rfl

/-- Comparing models of another class. -/
theorem same_other (ha : p.env.Attrs) {c c' name : Nat} (h : p.loc c' ≠ p.loc c) (a b : Nat → Option Val) :
    ∀ (ns : List Nat) (σ : St), (p.same c' a b ns σ).2.2.op (p.loc c) name = σ.op (p.loc c) name
  | [], _ => rfl
  | n :: ns, σ => by
    rw [Prg.same]
    split
    · rename_i x y _ _
      have := check_other (p := p) ha (c := c) (c' := c') (n := n) (name := name) (x := x) (y := y) (σ := σ) (.inl h)
      split
      · rename_i σ' hc
        rw [hc] at this
        exact (same_other ha h a b ns σ').trans this
      · rename_i r σ' _ hc
        rw [hc] at this
        exact this
    · rfl

/-- Comparing models of the class. -/
theorem same_chain (ha : p.env.Attrs) (c name : Nat) (a b : Nat → Option Val) : ∀ (ns : List Nat) (σ : St),
    Chain p.env (σ.op (p.loc c) name) ((p.same c a b ns σ).1.filterMap (Out.of c name)) ((p.same c a b ns σ).2.2.op (p.loc c) name)
  | [], _ => .nil _
  | n :: ns, σ => by
    rw [Prg.same]
    split
    · rename_i x y _ _
      have h1 := check_other (p := p) ha (c := c) (c' := c) (n := n) (name := name) (x := x) (y := y) (σ := σ)
      have h2 := check_same ha c n x y σ
      split
      · rename_i σ' hc
        have ih := same_chain ha c name a b ns σ'
        rw [hc] at h1 h2
        by_cases hn : n = name
        · subst hn
          rw [List.filterMap_cons_some (b := (x, y, .ok true)) (by simp [Out.of])]
          exact Chain.append h2 ih
        · rw [List.filterMap_cons_none (by simp [Out.of, hn])]
          rw [h1 (.inr hn)] at ih
          exact ih
      · rename_i r σ' _ hc
        rw [hc] at h1 h2
        by_cases hn : n = name
        · subst hn
          rw [List.filterMap_cons_some (b := (x, y, r)) (by simp [Out.of])]
          exact h2
        · rw [List.filterMap_cons_none (by simp [Out.of, hn])]
          show Chain _ _ [] (St.op σ' _ _)
          rw [h1 (.inr hn)]
          exact .nil _
    · exact .nil _

theorem same_outs (c c' name : Nat) (h : c' ≠ c) (a b : Nat → Option Val) : ∀ (ns : List Nat) (σ : St),
    (p.same c' a b ns σ).1.filterMap (Out.of c name) = []
  | [], _ => rfl
  | n :: ns, σ => by
    rw [Prg.same]
    split
    · split
      · rename_i σ' _
        rw [List.filterMap_cons_none (by simp [Out.of, h])]
        exact same_outs c c' name h a b ns σ'
      · rw [List.filterMap_cons_none (by simp [Out.of, h])]
        rfl
    · rfl

theorem access_other {c d' c' name : Nat} (h : p.loc c' ≠ p.loc c) (σ : St) : (p.access d' c' σ).op (p.loc c) name = σ.op (p.loc c) name := by
  unfold Prg.access
  split
  · rfl
  · split
    · exact op_set_ne (fun e => h e.symm) _ _
    · rfl

theorem access_done {c d name : Nat} {σ : St} (h : (d, c) ∈ σ.built ∨ (p.desc d).collect = false) :
    (p.access d c σ).op (p.loc c) name = σ.op (p.loc c) name := by
  unfold Prg.access
  split
  · rfl
  · rename_i hb
    rw [if_neg (by rw [h.resolve_left hb]; decide)]
    rfl

theorem access_built (d c : Nat) (σ : St) : (p.access d c σ).built = if (d, c) ∈ σ.built then σ.built else (d, c) :: σ.built := by
  unfold Prg.access
  split
  · rfl
  · split <;> rfl

theorem mem_access {d c : Nat} {x : Nat × Nat} {σ : St} : x ∈ (p.access d c σ).built ↔ x = (d, c) ∨ x ∈ σ.built := by
  rw [access_built]
  split
  · rename_i h
    exact ⟨.inr, fun hx => hx.elim (fun e => e ▸ h) id⟩
  · exact List.mem_cons

theorem fill_op (numpy : Bool) (custom : Nat → Option Op) {name : Nat} {ty : Ty} : ∀ (fs : List Field) (d : D),
    (∀ f ∈ fs, f.name = name → f.type = ty) →
      (fill numpy custom fs d).ops name = if (∃ f ∈ fs, f.name = name) then some ((custom name).getD (pickOp numpy ty)) else d.ops name
  | [], d, _ => by
    rw [if_neg (by rintro ⟨f, h, -⟩; cases h)]
    rfl
  | f :: fs, d, h => by
    have ih := fill_op numpy custom fs (d.put f.name (d.ops.set f.name ((custom f.name).getD (pickOp numpy f.type))))
      (fun g hg => h g (.tail _ hg))
    show (fill numpy custom fs _).ops name = _
    rw [ih]
    by_cases h1 : ∃ g ∈ fs, g.name = name
    · obtain ⟨g, hg, e⟩ := h1
      rw [if_pos ⟨g, hg, e⟩, if_pos ⟨g, .tail _ hg, e⟩]
    · rw [if_neg h1]
      by_cases h2 : f.name = name
      · rw [if_pos ⟨f, .head _, h2⟩]
        have ht := h f (.head _) h2
        simp only [D.put, EqMap.set, h2, ht, if_pos]
      · rw [if_neg (by
          rintro ⟨g, hg, e⟩
          rcases List.mem_cons.mp hg with rfl | hg
          · exact h2 e
          · exact h1 ⟨g, hg, e⟩)]
        simp only [D.put, EqMap.set, if_neg (fun e => h2 (Eq.symm e))]

theorem access_new {c d name : Nat} {ty : Ty} {σ : St} (h : (d, c) ∉ σ.built) (hc : (p.desc d).collect = true)
    (hf : ∃ f ∈ (p.cls c).fields, f.name = name) (ht : ∀ f ∈ (p.cls c).fields, f.name = name → f.type = ty) :
    (p.access d c σ).op (p.loc c) name = ((p.desc d).custom name).getD (pickOp p.env.numpy ty) := by
  unfold Prg.access
  rw [if_neg h]
  simp only [hc, if_true]
  rw [op_set, fill_op _ _ _ _ ht, if_pos hf]
  rfl

/-- An event with an object of another class whose dict is another one. -/
theorem step_other (ha : p.env.Attrs) {c name : Nat} {e : Ev} (h : p.loc e.cls ≠ p.loc c) (σ : St) :
    (p.step σ e).2.op (p.loc c) name = σ.op (p.loc c) name ∧ (p.step σ e).1.filterMap (Out.of c name) = [] := by
  have hc : e.cls ≠ c := fun e => h (by rw [e])
  cases e with
  | access d c' => exact ⟨access_other h σ, rfl⟩
  | assign d c' n x y =>
    refine ⟨(check_other ha (.inl h)).trans (access_other h σ), ?_⟩
    rw [Prg.step, List.filterMap_cons_none (by simp [Out.of, show c' ≠ c from hc])]
    rfl
  | compare c' n x y =>
    refine ⟨check_other ha (.inl h), ?_⟩
    rw [Prg.step, List.filterMap_cons_none (by simp [Out.of, show c' ≠ c from hc])]
    rfl
  | same c' a b =>
    refine ⟨same_other ha h a b _ σ, ?_⟩
    rw [Prg.step, List.filterMap_append, same_outs c c' name hc]
    rfl

/-- An event with an object of the class, after which no group is made that is not there already. -/
theorem step_own (ha : p.env.Attrs) {c name : Nat} {e : Ev} (h : e.cls = c) {σ : St}
    (hd : ∀ d, e.desc = some d → (d, c) ∈ σ.built ∨ (p.desc d).collect = false) :
    Chain p.env (σ.op (p.loc c) name) ((p.step σ e).1.filterMap (Out.of c name)) ((p.step σ e).2.op (p.loc c) name) := by
  subst h
  have one : ∀ (c n : Nat) (x y : Val) (σ : St),
      Chain p.env (σ.op (p.loc c) name) ([Out.cmp c n x y (p.check c n x y σ).1].filterMap (Out.of c name)) ((p.check c n x y σ).2.op (p.loc c) name) := by
    intro c n x y σ
    by_cases hn : n = name
    · subst hn
      rw [List.filterMap_cons_some (b := (x, y, (p.check c n x y σ).1)) (by simp [Out.of])]
      exact check_same ha c n x y σ
    · rw [List.filterMap_cons_none (by simp [Out.of, hn]), check_other ha (.inr hn)]
      exact .nil _
  cases e with
  | access d c =>
    show Chain _ (σ.op (p.loc c) name) [] (St.op (p.access d c σ) (p.loc c) name)
    rw [access_done (c := c) (hd d rfl)]
    exact .nil _
  | assign d c n x y =>
    have := one c n x y (p.access d c σ)
    rw [access_done (c := c) (hd d rfl)] at this
    exact this
  | compare c n x y => exact one c n x y σ
  | same c a b =>
    rw [Prg.step, List.filterMap_append]
    show Chain _ _ (_ ++ []) _
    rw [List.append_nil]
    exact same_chain ha c name a b _ σ

theorem step_built {e : Ev} {x : Nat × Nat} {σ : St} :
    x ∈ (p.step σ e).2.built ↔ (e.desc = some x.1 ∧ e.cls = x.2) ∨ x ∈ σ.built := by
  cases e with
  | access d c =>
    show x ∈ (p.access d c σ).built ↔ _
    rw [mem_access]
    simp only [Ev.desc, Ev.cls, Option.some.injEq, Prod.ext_iff]
    exact or_congr (and_congr eq_comm eq_comm) .rfl
  | assign d c n y z =>
    show x ∈ (p.check c n y z (p.access d c σ)).2.built ↔ _
    rw [check_built, mem_access]
    simp only [Ev.desc, Ev.cls, Option.some.injEq, Prod.ext_iff]
    exact or_congr (and_congr eq_comm eq_comm) .rfl
  | compare c n y z =>
    show x ∈ σ.built ↔ _
    simp [Ev.desc]
  | same c a b =>
    show x ∈ (p.same c a b _ σ).2.2.built ↔ _
    rw [same_built]
    simp [Ev.desc]

/-- A history in which nobody else uses the dict of the class, and no group is made for it any more. -/
theorem run_chain (ha : p.env.Attrs) {c name : Nat} : ∀ (es : List Ev) (σ : St), (∀ e ∈ es, e.cls ≠ c → p.loc e.cls ≠ p.loc c) →
    (∀ e ∈ es, e.cls = c → ∀ d, e.desc = some d → (d, c) ∈ σ.built ∨ (p.desc d).collect = false) →
    Chain p.env (σ.op (p.loc c) name) ((p.run es σ).1.filterMap (Out.of c name)) ((p.run es σ).2.op (p.loc c) name)
  | [], _, _, _ => .nil _
  | e :: es, σ, h1, h2 => by
    have ih := run_chain ha (name := name) es (p.step σ e).2 (fun e' he => h1 e' (.tail _ he))
      (fun e' he hc d hd => (h2 e' (.tail _ he) hc d hd).imp_left fun h => step_built.mpr (.inr h))
    show Chain _ _ ((_ ++ _ : List Out).filterMap _) _
    rw [List.filterMap_append]
    by_cases hc : e.cls = c
    · exact (step_own ha hc (h2 e (.head _) hc)).append ih
    · obtain ⟨h3, h4⟩ := step_other ha (name := name) (h1 e (.head _) hc) σ
      rw [h3] at ih
      rw [h4]
      exact ih

/-- The first group for the class is made by a descriptor that collects the fields. -/
theorem run_first (ha : p.env.Attrs) {c d name : Nat} {ty : Ty} (hc : (p.desc d).collect = true)
    (hf : ∃ f ∈ (p.cls c).fields, f.name = name) (ht : ∀ f ∈ (p.cls c).fields, f.name = name → f.type = ty) :
    ∀ (es : List Ev) (σ : St), (∀ e ∈ es, e.cls ≠ c → p.loc e.cls ≠ p.loc c) → (∀ e ∈ es, e.cls = c → e.desc = some d) → (d, c) ∉ σ.built →
    ∃ o, Chain p.env (((p.desc d).custom name).getD (pickOp p.env.numpy ty)) ((p.run es σ).1.filterMap (Out.of c name)) o
  | [], _, _, _, _ => ⟨_, .nil _⟩
  | e :: es, σ, h1, h2, h3 => by
    by_cases he : e.cls = c
    · -- the event is as good as the access and the event after it
      have hd := h2 e (.head _) he
      have hstep : p.step σ e = p.step (p.access d c σ) e := by
        have hacc : p.access d c (p.access d c σ) = p.access d c σ := by
          have : (d, c) ∈ (p.access d c σ).built := mem_access.mpr (.inl rfl)
          exact if_pos this
        cases e with
        | access d' c' =>
          cases hd; cases he
          rw [Prg.step, Prg.step]
          exact congrArg _ hacc.symm
        | assign d' c' n x y =>
          cases hd; cases he
          rw [Prg.step, Prg.step]
          show _ = ([Out.cmp c' n x y (p.check c' n x y (p.access d c' (p.access d c' σ))).1],
            (p.check c' n x y (p.access d c' (p.access d c' σ))).2)
          rw [show p.access d c' (p.access d c' σ) = p.access d c' σ from hacc]
        | compare => cases hd
        | same => cases hd
      have hrun : p.run (e :: es) σ = p.run (e :: es) (p.access d c σ) := by
        rw [Prg.run, Prg.run, hstep]
      rw [hrun]
      have := run_chain ha (name := name) (e :: es) (p.access d c σ) h1 (fun e' he' hc' d' hd' => by
        rw [h2 e' he' hc'] at hd'
        cases hd'
        exact .inl (mem_access.mpr (.inl rfl)))
      rw [access_new h3 hc hf ht] at this
      exact ⟨_, this⟩
    · obtain ⟨h4, h5⟩ := step_other ha (name := name) (h1 e (.head _) he) σ
      show ∃ o, Chain _ _ ((_ ++ _ : List Out).filterMap _) _
      rw [List.filterMap_append, h5]
      exact run_first ha hc hf ht es (p.step σ e).2 (fun e' he' => h1 e' (.tail _ he')) (fun e' he' => h2 e' (.tail _ he'))
        (fun hm => (step_built.mp hm).elim (fun h => he h.2) h3)

/-! ## Where the dicts are -/

theorem loc_none {c : Nat} (h : ∀ b ∈ c :: (p.cls c).bases, (p.cls b).attr = none) : p.loc c = .entry c := by
  unfold Prg.loc
  rw [List.find?_eq_none.mpr (fun b hb => by rw [h b hb]; decide)]

theorem loc_own {c : Nat} (h : (p.cls c).attr ≠ none) : p.loc c = .attr c := by
  unfold Prg.loc
  rw [List.find?_cons_of_pos (by cases hc : (p.cls c).attr with
    | none => exact absurd hc h
    | some _ => rfl)]

theorem loc_entry {c c' : Nat} (h : p.loc c' = .entry c) : c' = c := by
  unfold Prg.loc at h
  split at h
  · cases h
  · cases h; rfl

theorem loc_attr {c c' : Nat} (h : p.loc c' = .attr c) : c' = c ∨ (c ∈ (p.cls c').bases ∧ (p.cls c').attr = none) := by
  by_cases hn : (p.cls c').attr = none
  · unfold Prg.loc at h
    split at h
    · rename_i b hb
      cases h
      rcases List.mem_cons.mp (List.mem_of_find?_eq_some hb) with e | hm
      · exact .inl e.symm
      · exact .inr ⟨hm, hn⟩
    · cases h
  · rw [loc_own hn] at h
    cases h
    exact .inl rfl

/-! ## Keys -/

theorem put_keys {d : D} {name : Nat} (h : name ∈ d.keys) (m : EqMap) : (d.put name m).keys = d.keys := if_pos h

theorem ofList_aux (l : List (Nat × Op)) : ∀ d : D, (l.map Prod.fst).Nodup → (∀ e ∈ l, e.1 ∉ d.keys) →
    (l.foldl (fun d e => d.put e.1 (d.ops.set e.1 e.2)) d).keys = d.keys ++ l.map Prod.fst ∧
    (∀ e ∈ l, (l.foldl (fun d e => d.put e.1 (d.ops.set e.1 e.2)) d).ops e.1 = some e.2) ∧
    ∀ n, n ∉ l.map Prod.fst → (l.foldl (fun d e => d.put e.1 (d.ops.set e.1 e.2)) d).ops n = d.ops n := by
  induction l with
  | nil => exact fun d _ _ => ⟨by simp, fun e h => absurd h List.not_mem_nil, fun n _ => rfl⟩
  | cons x l ih =>
    intro d hn hd
    obtain ⟨hx, hn⟩ := List.nodup_cons.mp hn
    have hk : (d.put x.1 (d.ops.set x.1 x.2)).keys = d.keys ++ [x.1] := if_neg (hd x (.head _))
    obtain ⟨h1, h2, h3⟩ := ih (d.put x.1 (d.ops.set x.1 x.2)) hn (fun e he hm => by
      rw [hk] at hm
      rcases List.mem_append.mp hm with hm | hm
      · exact hd e (.tail _ he) hm
      · have e' : e.1 = x.1 := List.mem_singleton.mp hm
        exact hx (e' ▸ List.mem_map_of_mem he))
    refine ⟨?_, ?_, ?_⟩
    · rw [List.foldl_cons, h1, hk]
      simp
    · intro e he
      rw [List.foldl_cons]
      rcases List.mem_cons.mp he with rfl | he
      · rw [h3 _ hx]
        simp [D.put, EqMap.set]
      · exact h2 e he
    · intro n hm
      rw [List.map_cons, List.mem_cons, not_or] at hm
      rw [List.foldl_cons, h3 n hm.2]
      simp [D.put, EqMap.set, hm.1]

theorem init_attr {c : Nat} {l : List (Nat × Op)} (h : (p.cls c).attr = some l) (hn : (l.map Prod.fst).Nodup) :
    (p.init.dicts (.attr c)).keys = l.map Prod.fst ∧ (∀ name o, (name, o) ∈ l → p.init.op (.attr c) name = o) ∧
      ∀ name, name ∉ l.map Prod.fst → p.init.op (.attr c) name = .eq := by
  have e : p.init.dicts (.attr c) = D.ofList l := by
    show D.ofList ((p.cls c).attr.getD []) = _
    rw [h]
    rfl
  obtain ⟨h1, h2, h3⟩ := ofList_aux l ⟨fun _ => none, []⟩ hn (fun e _ h => by cases h)
  refine ⟨?_, fun name o hm => ?_, fun name hm => ?_⟩
  · rw [e]
    exact h1
  · unfold St.op
    rw [e]
    exact congrArg (·.getD Op.eq) (h2 _ hm)
  · unfold St.op
    rw [e]
    exact congrArg (·.getD Op.eq) (h3 _ hm)

theorem check_dict {c c' n : Nat} {x y : Val} {σ : St} (h : p.loc c' ≠ p.loc c) :
    (p.check c' n x y σ).2.dicts (p.loc c) = σ.dicts (p.loc c) := if_neg (fun e => h e.symm)

theorem check_keys {c n : Nat} {x y : Val} {σ : St} (h : n ∈ (σ.dicts (p.loc c)).keys) :
    ((p.check c n x y σ).2.dicts (p.loc c)).keys = (σ.dicts (p.loc c)).keys := by
  unfold Prg.check St.set
  simp only [if_true]
  split
  · rfl
  · exact put_keys h _

theorem same_dict {c c' : Nat} (h : p.loc c' ≠ p.loc c) (a b : Nat → Option Val) : ∀ (ns : List Nat) (σ : St),
    (p.same c' a b ns σ).2.2.dicts (p.loc c) = σ.dicts (p.loc c)
  | [], _ => rfl
  | n :: ns, σ => by
    rw [Prg.same]
    split
    · rename_i x y _ _
      have := check_dict (p := p) (n := n) (x := x) (y := y) (σ := σ) h
      split
      · rename_i σ' hc
        rw [hc] at this
        exact (same_dict h a b ns σ').trans this
      · rename_i r σ' _ hc
        rw [hc] at this
        exact this
    · rfl

theorem same_keys (c : Nat) (a b : Nat → Option Val) : ∀ (ns : List Nat) (σ : St), (∀ n ∈ ns, n ∈ (σ.dicts (p.loc c)).keys) →
    ((p.same c a b ns σ).2.2.dicts (p.loc c)).keys = (σ.dicts (p.loc c)).keys
  | [], _, _ => rfl
  | n :: ns, σ, h => by
    rw [Prg.same]
    split
    · rename_i x y _ _
      have := check_keys (p := p) (x := x) (y := y) (h n (.head _))
      split
      · rename_i σ' hc
        rw [hc] at this
        exact (same_keys c a b ns σ' (fun m hm => by rw [this]; exact h m (.tail _ hm))).trans this
      · rename_i r σ' _ hc
        rw [hc] at this
        exact this
    · rfl

theorem access_dict {c d c' : Nat} (h : p.loc c' ≠ p.loc c) (σ : St) : (p.access d c' σ).dicts (p.loc c) = σ.dicts (p.loc c) := by
  unfold Prg.access
  split
  · rfl
  · split
    · exact if_neg (fun e => h e.symm)
    · rfl

theorem step_keys {c : Nat} {K : List Nat} {e : Ev} {σ : St} (h1 : e.cls ≠ c → p.loc e.cls ≠ p.loc c) (h2 : e.cls = c → e.desc = none)
    (h3 : ∀ n x y, e = .compare c n x y → n ∈ K) (hk : (σ.dicts (p.loc c)).keys = K) : ((p.step σ e).2.dicts (p.loc c)).keys = K := by
  by_cases hc : e.cls = c
  · cases e with
    | access => cases h2 hc
    | assign => cases h2 hc
    | compare c' n x y =>
      cases hc
      have hm : n ∈ (σ.dicts (p.loc c')).keys := (show (σ.dicts (p.loc c')).keys = K from hk) ▸ h3 n x y rfl
      exact (check_keys hm).trans hk
    | same c' a b =>
      cases hc
      exact (same_keys _ a b _ σ (fun _ h => h)).trans hk
  · have h := h1 hc
    rw [← hk]
    cases e with
    | access d c' => exact congrArg D.keys (access_dict h σ)
    | assign d c' n x y => exact congrArg D.keys ((check_dict h).trans (access_dict h σ))
    | compare c' n x y => exact congrArg D.keys (check_dict h)
    | same c' a b => exact congrArg D.keys (same_dict h a b _ σ)

theorem run_keys {c : Nat} {K : List Nat} : ∀ (es : List Ev) (σ : St), (∀ e ∈ es, e.cls ≠ c → p.loc e.cls ≠ p.loc c) →
    (∀ e ∈ es, e.cls = c → e.desc = none) → (∀ n x y, Ev.compare c n x y ∈ es → n ∈ K) → (σ.dicts (p.loc c)).keys = K →
    ((p.run es σ).2.dicts (p.loc c)).keys = K
  | [], _, _, _, _, hk => hk
  | e :: es, σ, h1, h2, h3, hk =>
    run_keys es (p.step σ e).2 (fun e' h => h1 e' (.tail _ h)) (fun e' h => h2 e' (.tail _ h)) (fun n x y h => h3 n x y (.tail _ h))
      (step_keys (h1 e (.head _)) (h2 e (.head _)) (fun n x y he => h3 n x y (by rw [he]; exact .head _)) hk)

theorem init_entry (c name : Nat) : p.init.op (.entry c) name = .eq := rfl

end Psygnal.EqO
