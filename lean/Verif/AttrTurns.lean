import Verif.AttrConcLemmas
import Verif.Dataclass
import Verif.EvModel

/-! # Assignments of an attribute in turns: helpers for C98 -/
namespace Psygnal.AtC

/-- What listeners of an attribute are told: new and old values (`/repo/src/psygnal/_group_descriptor.py:318`, `/repo/src/psygnal/_evented_model.py:635`). -/
def tellings (n : Nat) (l : List Ev) : List (Nat × Nat) := l.filterMap fun e => match e with
  | .told _ m _ new old => if m = n then some (new, old) else none
  | _ => none

/-- The values assigned to an attribute, in the order in which the assignments begin (`/repo/src/psygnal/_group_descriptor.py:387`,
`/repo/src/psygnal/_evented_model.py:626`). -/
def calls (n : Nat) (l : List Ev) : List Nat := l.filterMap fun e => match e with
  | .call _ m v => if m = n then some v else none
  | _ => none

/-- An attribute, and what was told (`/repo/src/psygnal/_group_descriptor.py:307-318`). -/
@[ext] structure A where
  val : Nat
  told : List (Nat × Nat)

/-- The end of an assignment (`/repo/src/psygnal/_group_descriptor.py:317-318`, `/repo/src/psygnal/_evented_model.py:634-635`). -/
def A.test (c : Cfg) (new old : Nat) (s : A) : A := if c.unchanged new old then s else { s with told := s.told ++ [(new, old)] }

/-- An assignment (`/repo/src/psygnal/_group_descriptor.py:306-318,401-402`, `/repo/src/psygnal/_evented_model.py:626-635`). -/
def A.set (c : Cfg) (s : A) (v : Nat) : A := A.test c v s.val { s with val := v }

/-- What the rest of an assignment does to attribute `n` (`/repo/src/psygnal/_group_descriptor.py:306-318,401-402`,
`/repo/src/psygnal/_evented_model.py:626-635`). -/
def Ctl.fin (c : Cfg) : Ctl → A → A
  | .run _, s => s
  | .prev _ v _, s => s.set c v
  | .write _ v old _, s => A.test c v old { s with val := v }
  | .new _ _ old _, s => A.test c s.val old s
  | .test _ _ nw old _, s => A.test c nw old s
  | .emit _ _ nw old _, s => { s with told := s.told ++ [(nw, old)] }

/-- The attribute, and what was told of it (`/repo/src/psygnal/_group_descriptor.py:307-318`). -/
def now (n : Nat) (σ : St) : A := ⟨σ.attr n, tellings n σ.log⟩

/-- The same if assignments are made one after the other (`/repo/src/psygnal/_group_descriptor.py:387-402`). -/
def all (c : Cfg) (a : Nat → Nat) (n : Nat) (l : List Ev) : A := (calls n l).foldl (A.set c) ⟨a n, []⟩

/-- Assignments do not overlap: one that is under way will have been made at its end (`/repo/src/psygnal/_group_descriptor.py:387-402`). -/
structure Turns (c : Cfg) (a : Nat → Nat) (n : Nat) (σ : St) : Prop where
  busy : ∀ t, (σ.thr t).busy n → (σ.thr t).fin c (now n σ) = all c a n σ.log
  rest : (∀ t, ¬ (σ.thr t).busy n) → now n σ = all c a n σ.log

theorem turns_keep {c : Cfg} {a : Nat → Nat} {n t : Nat} {x : Ctl} {σ τ : St} (h : Turns c a n σ) (h1 : One n σ) (hthr : ∀ u, τ.thr u = if u = t then x else σ.thr u)
    (hall : all c a n τ.log = all c a n σ.log) (hb : x.busy n → (σ.thr t).busy n)
    (hn : ¬ (σ.thr t).busy n → now n τ = now n σ)
    (hf : (σ.thr t).busy n → (x.busy n → x.fin c (now n τ) = (σ.thr t).fin c (now n σ)) ∧ (¬ x.busy n → now n τ = (σ.thr t).fin c (now n σ))) : Turns c a n τ := by
  have ht : τ.thr t = x := by rw [hthr t, if_pos rfl]
  have hu : ∀ u, u ≠ t → τ.thr u = σ.thr u := fun u hu => by rw [hthr u, if_neg hu]
  by_cases hσ : (σ.thr t).busy n
  · have hone : ∀ u, (τ.thr u).busy n → u = t := by
      intro u hb'
      by_cases e : u = t
      · exact e
      · rw [hu u e] at hb'; exact h1 u t hb' hσ
    refine ⟨fun u hb' => ?_, fun hr => ?_⟩
    · have := hone u hb'
      subst this
      rw [ht] at hb' ⊢
      rw [hall, (hf hσ).1 hb', h.busy u hσ]
    · have := hr t
      rw [ht] at this
      rw [hall, (hf hσ).2 this, h.busy t hσ]
  · have hx : ¬ x.busy n := fun e => hσ (hb e)
    refine ⟨fun u hb' => ?_, fun hr => ?_⟩
    · by_cases e : u = t
      · subst e; rw [ht] at hb'; exact absurd hb' hx
      · rw [hu u e] at hb' ⊢
        rw [hall, hn hσ, h.busy u hb']
    · rw [hall, hn hσ]
      refine h.rest (fun u => ?_)
      by_cases e : u = t
      · subst e; exact hσ
      · have := hr u; rwa [hu u e] at this

theorem calls_snoc (n : Nat) (l : List Ev) (e : Ev) : calls n (l ++ [e]) = calls n l ++ calls n [e] := by simp [calls]

theorem tellings_snoc (n : Nat) (l : List Ev) (e : Ev) : tellings n (l ++ [e]) = tellings n l ++ tellings n [e] := by simp [tellings]

theorem all_snoc (c : Cfg) (a : Nat → Nat) (n : Nat) (l : List Ev) (e : Ev) (h : calls n [e] = []) : all c a n (l ++ [e]) = all c a n l := by
  unfold all; rw [calls_snoc, h, List.append_nil]

theorem turns_step {c : Cfg} {a : Nat → Nat} {n : Nat} {σ : St} (h : Turns c a n σ) (t : Nat) (h1 : One n σ) (h2 : One n (step c σ t)) :
    Turns c a n (step c σ t) := by
  cases hx : σ.thr t with
  | run k =>
    cases k with
    | ret => rw [show step c σ t = σ from by simp only [step, hx]]; exact h
    | set m v k =>
      have hs : step c σ t = { (σ.go t (.prev m v k)) with log := σ.log ++ [.call t m v] } := by simp only [step, hx]
      rw [hs] at h2 ⊢
      by_cases hm : m = n
      · subst hm
        have hr : now m σ = all c a m σ.log := h.rest (fun u hu => by
          by_cases e : u = t
          · subst e; rw [hx] at hu; exact hu
          · exact e (h2 u t (by simpa [St.go, e] using hu) (by simp [St.go, Ctl.busy])))
        have hall : all c a m (σ.log ++ [.call t m v]) = (all c a m σ.log).set c v := by
          unfold all; rw [calls_snoc, List.foldl_append]; simp [calls]
        have hnow : now m { (σ.go t (.prev m v k)) with log := σ.log ++ [.call t m v] } = now m σ := by
          simp [now, St.go, tellings]
        refine ⟨fun u hu => ?_, fun hr' => absurd (hr' t) (by simp [St.go, Ctl.busy])⟩
        have e : u = t := h2 u t hu (by simp [St.go, Ctl.busy])
        subst e
        rw [hnow, hall, ← hr]
        simp [St.go, Ctl.fin]
      · refine turns_keep h h1 (x := .prev m v k) (t := t) (fun u => rfl) (all_snoc c a n _ _ (by simp [calls, hm])) (fun hb => absurd hb hm) (fun _ => ?_) (fun hb => ?_)
        · simp [now, St.go, tellings]
        · rw [hx] at hb; exact hb.elim
    | get m k =>
      rw [show step c σ t = σ.go t (.run (k (σ.attr m))) from by simp only [step, hx]]
      refine turns_keep h h1 (x := .run (k (σ.attr m))) (t := t) (fun u => rfl) rfl (fun hb => hb.elim) (fun _ => rfl) (fun hb => ?_)
      rw [hx] at hb; exact hb.elim
  | prev m v k =>
    rw [show step c σ t = σ.go t (.write m v (σ.attr m) k) from by simp only [step, hx]]
    refine turns_keep h h1 (x := .write m v (σ.attr m) k) (t := t) (fun u => rfl) rfl (fun hb => by rw [hx]; exact hb) (fun _ => rfl) (fun hb => ⟨fun _ => ?_, fun hb' => ?_⟩)
    · rw [hx] at hb ⊢
      have : m = n := hb
      subst this; rfl
    · rw [hx] at hb; exact absurd hb hb'
  | write m v old k =>
    rw [show step c σ t = { (σ.go t (if c.reread then .new m v old k else .test m v v old k)) with
      attr := fun i => if i = m then v else σ.attr i, log := σ.log ++ [.wrote t m v] } from by simp only [step, hx]]
    refine turns_keep h h1 (x := if c.reread then .new m v old k else .test m v v old k) (t := t) (fun u => rfl) (all_snoc c a n _ _ (by simp [calls])) (fun hb => ?_) (fun hb => ?_) (fun hb => ⟨fun _ => ?_, fun hb' => ?_⟩)
    · rw [hx]; revert hb; split <;> exact id
    · rw [hx] at hb
      have : ¬ m = n := hb
      simp [now, tellings, Ne.symm this]
    · rw [hx] at hb ⊢
      have : m = n := hb
      subst this
      split <;> simp [Ctl.fin, now, tellings]
    · rw [hx] at hb; revert hb'; split <;> exact fun hb' => absurd hb hb'
  | new m v old k =>
    rw [show step c σ t = σ.go t (.test m v (σ.attr m) old k) from by simp only [step, hx]]
    refine turns_keep h h1 (x := .test m v (σ.attr m) old k) (t := t) (fun u => rfl) rfl (fun hb => by rw [hx]; exact hb) (fun _ => rfl) (fun hb => ⟨fun _ => ?_, fun hb' => ?_⟩)
    · rw [hx] at hb ⊢
      have : m = n := hb
      subst this; rfl
    · rw [hx] at hb; exact absurd hb hb'
  | test m v new old k =>
    by_cases hu : c.unchanged new old = true
    · rw [show step c σ t = { (σ.go t (.run k)) with log := σ.log ++ [.same t m v new old] } from by simp only [step, hx, hu, if_true]]
      refine turns_keep h h1 (x := .run k) (t := t) (fun u => rfl) (all_snoc c a n _ _ (by simp [calls])) (fun hb => hb.elim) (fun _ => ?_) (fun hb => ⟨fun hb' => hb'.elim, fun _ => ?_⟩)
      · simp [now, St.go, tellings]
      · rw [hx]; simp [now, St.go, tellings, Ctl.fin, A.test, hu]
    · rw [show step c σ t = σ.go t (.emit m v new old k) from by simp only [step, hx]; rw [if_neg hu]]
      refine turns_keep h h1 (x := .emit m v new old k) (t := t) (fun u => rfl) rfl (fun hb => by rw [hx]; exact hb) (fun _ => rfl) (fun hb => ⟨fun _ => ?_, fun hb' => ?_⟩)
      · rw [hx]; simp [Ctl.fin, A.test, hu]; exact ⟨rfl, rfl⟩
      · rw [hx] at hb; exact absurd hb hb'
  | emit m v new old k =>
    rw [show step c σ t = { (σ.go t (.run k)) with log := σ.log ++ [.told t m v new old] } from by simp only [step, hx]]
    refine turns_keep h h1 (x := .run k) (t := t) (fun u => rfl) (all_snoc c a n _ _ (by simp [calls])) (fun hb => hb.elim) (fun hb => ?_) (fun hb => ⟨fun hb' => hb'.elim, fun _ => ?_⟩)
    · rw [hx] at hb
      have : ¬ m = n := hb
      simp [now, St.go, tellings, this]
    · rw [hx] at hb ⊢
      have : m = n := hb
      subst this
      simp [now, St.go, tellings, Ctl.fin]

theorem run_append (c : Cfg) (p q : List Nat) (σ : St) : run c (p ++ q) σ = run c q (run c p σ) := by simp [run, List.foldl_append]

theorem turns_run {c : Cfg} {a : Nat → Nat} {n : Nat} {prog : Nat → Code} (s : List Nat)
    (h : ∀ p q, s = p ++ q → One n (run c p (init a prog))) : Turns c a n (run c s (init a prog)) := by
  suffices ∀ q p, (∀ p' q', p ++ q = p' ++ q' → One n (run c p' (init a prog))) → Turns c a n (run c p (init a prog)) → Turns c a n (run c (p ++ q) (init a prog)) from
    this s [] h ⟨fun t hb => hb.elim, fun _ => rfl⟩
  intro q
  induction q with
  | nil => intro p _ ht; rwa [List.append_nil]
  | cons t q ih =>
    intro p hp ht
    have h1 := hp p (t :: q) rfl
    have h2 := hp (p ++ [t]) q (by simp)
    have e : run c (p ++ [t]) (init a prog) = step c (run c p (init a prog)) t := by rw [run_append]; rfl
    have := ih (p ++ [t]) (fun p' q' e => hp p' q' (by rw [← e]; simp)) (by rw [e] at h2 ⊢; exact turns_step ht t h1 h2)
    simpa using this

/-! ## The models of C39 and C40 do the same -/

/-- Assignments one after the other in the model of C39 (`/repo/src/psygnal/_group_descriptor.py:387-402`). -/
def dcRun (g : DC.Cfg) (n : Nat) : List Nat → DC.St → List (Except DC.Err Unit) × DC.St
  | [], s => ([], s)
  | v :: l, s => let r := DC.setattrAndEmit g DC.plain n (.obj v) s; let q := dcRun g n l r.2; (r.1 :: q.1, q.2)

/-- Somebody listens, silently, to the signal `k` of attribute `n`, which is compared with the operator of `c`
(`/repo/src/psygnal/_group_descriptor.py:98,387-402`). -/
structure Suits (c : Cfg) (g : DC.Cfg) (n k : Nat) : Prop where
  kind : c.reread = true
  apply : ∀ x y, g.env.apply .eq (.obj x) (.obj y) = .ok (c.eq x y)
  name : n ≠ g.groupName
  lookup : g.lookup n = some k
  listens : g.listeners k = true
  quiet : ∀ x y, g.raises k x y = false

theorem dc_set {c : Cfg} {g : DC.Cfg} {n k : Nat} (h : Suits c g n k) {s : DC.St} {x : A} {l : List (Nat × DC.Val × DC.Val)} (h1 : s.attrs n = .obj x.val)
    (h2 : (s.eqmap n).getD .eq = .eq) (h3 : s.log = l ++ x.told.map (fun p => (k, .obj p.1, .obj p.2))) (v : Nat) :
    (DC.setattrAndEmit g DC.plain n (.obj v) s).1 = .ok () ∧
    (DC.setattrAndEmit g DC.plain n (.obj v) s).2.attrs n = .obj (x.set c v).val ∧
    ((DC.setattrAndEmit g DC.plain n (.obj v) s).2.eqmap n).getD .eq = .eq ∧
    (DC.setattrAndEmit g DC.plain n (.obj v) s).2.log = l ++ (x.set c v).told.map (fun p => (k, .obj p.1, .obj p.2)) ∧
    ∀ m, m ≠ n → (DC.setattrAndEmit g DC.plain n (.obj v) s).2.attrs m = s.attrs m := by
  unfold DC.setattrAndEmit
  rw [if_neg h.name, h.lookup]
  simp only [h.listens, if_true]
  unfold DC.changesEmitted
  simp only [DC.plain, DC.checkEq, h1, h2, DC.Env.run, if_true, h.apply, A.set, A.test, Cfg.unchanged, h.kind]
  cases c.eq v x.val <;> simp +contextual [DC.emit, h.quiet, h3, DC.EqMap.set]

theorem dc_run {c : Cfg} {g : DC.Cfg} {n k : Nat} (h : Suits c g n k) {l : List (Nat × DC.Val × DC.Val)} : ∀ (vs : List Nat) {s : DC.St} {x : A}, s.attrs n = .obj x.val →
    (s.eqmap n).getD .eq = .eq → s.log = l ++ x.told.map (fun p => (k, .obj p.1, .obj p.2)) →
    (∀ r ∈ (dcRun g n vs s).1, r = .ok ()) ∧ (dcRun g n vs s).2.attrs n = .obj (vs.foldl (A.set c) x).val ∧
    (dcRun g n vs s).2.log = l ++ (vs.foldl (A.set c) x).told.map (fun p => (k, .obj p.1, .obj p.2)) ∧ ∀ m, m ≠ n → (dcRun g n vs s).2.attrs m = s.attrs m
  | [], _, _, h1, _, h3 => ⟨(fun _ hr => nomatch hr), h1, h3, fun _ _ => rfl⟩
  | v :: vs, _, _, h1, h2, h3 => by
    obtain ⟨e1, e2, e3, e4, e5⟩ := dc_set h h1 h2 h3 v
    obtain ⟨f1, f2, f3, f4⟩ := dc_run h vs e2 e3 e4
    refine ⟨fun r hr => ?_, f2, f3, fun m hm => (f4 m hm).trans (e5 m hm)⟩
    rcases List.mem_cons.mp hr with rfl | hr
    · exact e1
    · exact f1 r hr

/-- The same for a model without properties (`/repo/src/psygnal/_evented_model.py:594-635`). -/
structure SuitsM (c : Cfg) (g : EM.Cfg) (n : Nat) : Prop where
  kind : c.reread = false
  same : ∀ x y, g.same n x y = c.eq y x
  sig : g.sig n = true
  noDeps : g.noDeps = true
  field : g.isProp n = false
  valid : ∀ v, g.coerce n v = some v
  listens : g.listens n = true
  clear : g.conflict n = false
  quiet : ∀ v, g.cb n v = .ret

theorem em_set {c : Cfg} {g : EM.Cfg} {n : Nat} (h : SuitsM c g n) {s : EM.St} {x : A} {l : List (Nat × Nat)} (h1 : s.F n = x.val)
    (h3 : s.log = l ++ x.told.map (fun p => (n, p.1))) (v f : Nat) :
    ∃ s', EM.exec g (f + 4) (.set n v) s = some (.ok (), s') ∧ s'.F n = (x.set c v).val ∧ s'.log = l ++ (x.set c v).told.map (fun p => (n, p.1)) ∧
      ∀ m, m ≠ n → s'.F m = s.F m := by
  have hc : g.changed n v (some x.val) = !c.eq x.val v := by simp [EM.Cfg.changed, h.same]
  simp only [EM.exec, h.sig, h.noDeps, h.listens, h.field, h.valid, h.clear, h.quiet, EM.Cfg.get, h1, A.set, A.test, Cfg.unchanged, h.kind]
  revert hc
  cases c.eq x.val v <;> intro hc <;> simp +contextual [h3, hc]

theorem em_run {c : Cfg} {g : EM.Cfg} {n : Nat} (h : SuitsM c g n) (f : Nat) {l : List (Nat × Nat)} : ∀ (vs : List Nat) {s : EM.St} {x : A}, s.F n = x.val →
    s.log = l ++ x.told.map (fun p => (n, p.1)) →
    ∃ s', EM.assigns g (f + 4) (vs.map (fun v => (n, v))) s = some s' ∧ s'.F n = (vs.foldl (A.set c) x).val ∧
      s'.log = l ++ (vs.foldl (A.set c) x).told.map (fun p => (n, p.1)) ∧ ∀ m, m ≠ n → s'.F m = s.F m
  | [], s, _, h1, h3 => ⟨s, rfl, h1, h3, fun _ _ => rfl⟩
  | v :: vs, s, x, h1, h3 => by
    obtain ⟨s1, e0, e1, e2, e3⟩ := em_set h h1 h3 v f
    obtain ⟨s2, f0, f1, f2, f3⟩ := em_run h f vs e1 e2
    exact ⟨s2, by simp only [List.map_cons, EM.assigns, e0]; exact f0, f1, f2, fun m hm => (f3 m hm).trans (e3 m hm)⟩

end Psygnal.AtC
