import Verif.DelayConcMirror
import Verif.EvModel

/-! # Assignments of fields with dependent properties in turns: helpers for C98 -/
namespace Psygnal.DlC

/-- What listeners are told: a name and its value (`/repo/src/psygnal/_evented_model.py:592`). -/
def tellings (l : List Ev) : List (Nat × Nat) := l.filterMap fun e => match e with
  | .told _ m x => some (m, x)
  | _ => none

/-- The assignments in the order in which they begin (`/repo/src/psygnal/_evented_model.py:637`). -/
def calls (l : List Ev) : List (Nat × Nat) := l.filterMap fun e => match e with
  | .call _ n v => some (n, v)
  | _ => none

/-- How the assignments end, in the order in which they do (`/repo/src/psygnal/_evented_model.py:637-640`). -/
def results (l : List Ev) : List (Option Err) := l.filterMap fun e => match e with
  | .done _ => some none
  | .raised _ r => some (some r)
  | _ => none

/-- The fields, and what was told (`/repo/src/psygnal/_evented_model.py:592,668`). -/
structure A where
  attr : Nat → Nat
  told : List (Nat × Nat)

/-- An assignment (`/repo/src/psygnal/_evented_model.py:557-592,637-668`). -/
def A.set (c : Cls) (s : A) (p : Nat × Nat) : A :=
  ⟨fun m => if m = p.1 then p.2 else s.attr m, s.told ++ tells c p.1 s.attr (fun m => if m = p.1 then p.2 else s.attr m)⟩

/-- Nobody assigns, nothing is left over, and it is as if the assignments had been made one after the other (`/repo/src/psygnal/_evented_model.py:637-640`). -/
structure Calm (c : Cls) (a0 : Nat → Nat) (σ : St) : Prop where
  idle : ∀ t, σ.thr t = .idle
  sem : σ.sem = 0
  queue : σ.queue = []
  prim : σ.prim = []
  same : A.mk σ.attr (tellings σ.log) = (calls σ.log).foldl (A.set c) ⟨a0, []⟩
  fine : ∀ r ∈ results σ.log, r = none

theorem Calm.at' {c : Cls} {a0 : Nat → Nat} {σ : St} (h : Calm c a0 σ) (t : Nat) : σ = at' t (fun _ => .idle) σ.todo .idle σ.attr 0 [] [] σ.log := by
  obtain ⟨a, s, q, p, th, td, l⟩ := σ
  obtain ⟨h1, h2, h3, h4, _, _⟩ := h
  dsimp only at h1 h2 h3 h4
  subst h2 h3 h4
  have : th = fun u => if u = t then .idle else .idle := by
    funext u
    rw [h1 u]
    split <;> rfl
  rw [this]
  rfl

/-- A calm state or one in the middle of an assignment that began in one (`/repo/src/psygnal/_evented_model.py:637-640`). -/
inductive Turn (c : Cls) (a0 : Nat → Nat) (σ : St) : Prop
  | calm (h : Calm c a0 σ)
  | busy (t : Nat) (σ0 : St) (j k : Nat) (h0 : Calm c a0 σ0) (hj : 0 < j) (hk : j < k) (hσ : run c (List.replicate j t) σ0 = σ)
      (hn : ∀ i, 0 < i → i < k → (run c (List.replicate i t) σ0).thr t ≠ .idle) (he : Calm c a0 (run c (List.replicate k t) σ0))

theorem tellings_map (t : Nat) : ∀ (l : List (Nat × Nat)), tellings (l.map (fun e => .told t e.1 e.2)) = l
  | [] => rfl
  | e :: l => by
    show (e.1, e.2) :: tellings (l.map (fun e => .told t e.1 e.2)) = e :: l
    rw [tellings_map t l]

theorem calls_map (t : Nat) : ∀ (l : List (Nat × Nat)), calls (l.map (fun e => .told t e.1 e.2)) = []
  | [] => rfl
  | _ :: l => calls_map t l

theorem results_map (t : Nat) : ∀ (l : List (Nat × Nat)), results (l.map (fun e => .told t e.1 e.2)) = []
  | [] => rfl
  | _ :: l => results_map t l

theorem calm_set {c : Cls} {a0 : Nat → Nat} (hnd : ∀ n, (n :: c.deps n).Nodup) {σ : St} (h : Calm c a0 σ) {t n v : Nat} {r : List (Nat × Nat)}
    (ht : σ.todo t = (n, v) :: r) :
    ∃ k, 0 < k ∧ Calm c a0 (run c (List.replicate k t) σ) ∧ ∀ i, 0 < i → i < k → (run c (List.replicate i t) σ).thr t ≠ .idle := by
  obtain ⟨k, hk, hi⟩ := goes_set (c := c) (t := t) (f := fun _ => .idle) (td := σ.todo) (a := σ.attr) (l := σ.log) (hnd n) ht
  rw [← h.at' t] at hk hi
  refine ⟨k, Nat.pos_of_ne_zero (fun h0 => ?_), ?_, hi⟩
  · rw [h0] at hk
    have := congrArg (fun σ => σ.log.length) hk
    simp [run, DlC.at'] at this
  · rw [hk]
    refine ⟨fun u => ?_, rfl, rfl, rfl, ?_, ?_⟩
    · show (if u = t then Ctl.idle else .idle) = .idle
      split <;> rfl
    · have e1 : ∀ ts : List (Nat × Nat), tellings (σ.log ++ [.call t n v, .wrote t n v] ++ ts.map (fun e => .told t e.1 e.2) ++ [.done t]) = tellings σ.log ++ ts := by
        intro ts
        have := tellings_map t ts
        simp only [tellings, List.filterMap_append] at this ⊢
        rw [this]; simp
      have e2 : ∀ ts : List (Nat × Nat), calls (σ.log ++ [.call t n v, .wrote t n v] ++ ts.map (fun e => .told t e.1 e.2) ++ [.done t]) = calls σ.log ++ [(n, v)] := by
        intro ts
        have := calls_map t ts
        simp only [calls, List.filterMap_append] at this ⊢
        rw [this]; simp
      show A.mk (fun m => if m = n then v else σ.attr m) (tellings _) = (calls _).foldl _ _
      dsimp only [DlC.at']
      rw [e1, e2, List.foldl_append, ← h.same]
      rfl
    · have e3 : ∀ ts : List (Nat × Nat), results (σ.log ++ [.call t n v, .wrote t n v] ++ ts.map (fun e => .told t e.1 e.2) ++ [.done t]) = results σ.log ++ [none] := by
        intro ts
        have := results_map t ts
        simp only [results, List.filterMap_append] at this ⊢
        rw [this]; simp
      intro x hx
      dsimp only [DlC.at'] at hx
      rw [e3] at hx
      rcases List.mem_append.mp hx with hx | hx
      · exact h.fine x hx
      · simpa using hx

theorem turn_step {c : Cls} {a0 : Nat → Nat} (hnd : ∀ n, (n :: c.deps n).Nodup) {σ : St} (h : Turn c a0 σ) (u : Nat) (h1 : One (step c σ u)) :
    Turn c a0 (step c σ u) := by
  rcases h with h | ⟨t, σ0, j, k, h0, hj, hk, hσ, hn, he⟩
  · cases ht : σ.todo u with
    | nil =>
      have : step c σ u = σ := by unfold step; rw [h.idle u]; simp [ht]
      rw [this]; exact .calm h
    | cons p r =>
      obtain ⟨k, hk, hq, hi⟩ := calm_set hnd h (t := u) (n := p.1) (v := p.2) (r := r) ht
      by_cases hk1 : k = 1
      · rw [hk1] at hq; exact .calm hq
      · exact .busy u σ 1 k h (by omega) (by omega) rfl hi hq
  · by_cases hu : u = t
    · subst hu
      have hs : run c (List.replicate (j + 1) u) σ0 = step c σ u := by rw [run_succ, hσ]
      by_cases hjk : j + 1 = k
      · rw [← hs, hjk]; exact .calm he
      · exact .busy u σ0 (j + 1) k h0 (by omega) (by omega) hs hn he
    · have hui : σ.thr u = .idle := by rw [← hσ, run_other c t u hu]; exact h0.idle u
      have hti : σ.thr t ≠ .idle := by rw [← hσ]; exact hn j hj hk
      cases ht : σ.todo u with
      | nil =>
        have : step c σ u = σ := by unfold step; rw [hui]; simp [ht]
        rw [this]; exact .busy t σ0 j k h0 hj hk hσ hn he
      | cons p r =>
        exfalso
        refine hu (h1 u t ?_ ?_)
        · unfold step
          rw [hui]
          simp [ht, St.go, St.say]
        · rw [step_other c σ u t (fun e => hu e.symm)]; exact hti

theorem turn_run {c : Cls} {a0 : Nat → Nat} (hnd : ∀ n, (n :: c.deps n).Nodup) :
    ∀ (s : List Nat) {σ : St}, Turn c a0 σ → (∀ p q, s = p ++ q → One (run c p σ)) → Turn c a0 (run c s σ)
  | [], _, h, _ => h
  | t :: s, _, h, h1 => turn_run hnd s (turn_step hnd h t (h1 [t] s rfl)) (fun p q e => h1 (t :: p) q (by rw [e]; rfl))

/-! ## The model of C40 does the same -/

/-- The class `g` in the model of C40 has the fields, properties and operators of `c`; all signals have silent listeners
(`/repo/src/psygnal/_evented_model.py:557-668`). -/
structure Suits (c : Cls) (g : EM.Cfg) : Prop where
  sig : ∀ n, g.sig n = true
  deps : g.deps = c.deps
  prop : ∀ m, g.isProp m = (c.prop m).isSome
  fget : ∀ m F f, c.prop m = some f → g.fget m F = some (f F)
  noDeps : g.noDeps = false
  listens : ∀ n, g.listens n = true
  valid : ∀ n v, g.coerce n v = some v
  same : ∀ m x y, g.same m x y = c.eq m y x
  order : ∀ l, (g.order l).Perm l
  clear : ∀ n, g.conflict n = false
  quiet : ∀ n v, g.cb n v = .ret

theorem Suits.get {c : Cls} {g : EM.Cfg} (h : Suits c g) (m : Nat) (F : Nat → Nat) : g.get m F = some (c.get m F) := by
  unfold EM.Cfg.get Cls.get
  rw [h.prop m]
  cases hp : c.prop m with
  | none => rfl
  | some f => simp [h.fget m F f hp]

theorem em_emits {c : Cls} {g : EM.Cfg} (h : Suits c g) : ∀ (l : List (Nat × Nat)) (f : Nat) (s : EM.St), l.length + 1 ≤ f →
    EM.exec g f (.emits l) s = some (.ok (), { s with log := s.log ++ l })
  | [], 0, _, hf => by simp at hf
  | [], _ + 1, s, _ => by simp [EM.exec]
  | e :: l, 0, _, hf => by simp at hf
  | e :: l, 1, _, hf => by simp at hf
  | e :: l, f + 2, s, hf => by
    obtain ⟨n, x⟩ := e
    have := em_emits h l (f + 1) { s with log := s.log ++ [(n, x)] } (by simp at hf; omega)
    rw [show EM.exec g (f + 2) (.emits ((n, x) :: l)) s = EM.exec g (f + 1) (.emits l) { s with log := s.log ++ [(n, x)] } from by
      rw [EM.exec]; simp [h.clear, h.listens, h.quiet, EM.exec], this]
    simp

theorem lookup_none {m : Nat} : ∀ {q : List (Nat × Option Nat)}, (∀ e ∈ q, e.1 ≠ m) → EM.lookup q m = none := by
  intro q hq
  have : q.find? (·.1 = m) = none := List.find?_eq_none.mpr (fun e he => by simpa using hq e he)
  simp [EM.lookup, this]

theorem em_addQ {c : Cls} {g : EM.Cfg} (h : Suits c g) (F : Nat → Nat) : ∀ (ms : List Nat) (q : List (Nat × Option Nat)), ms.Nodup → (∀ m ∈ ms, ∀ e ∈ q, e.1 ≠ m) →
    ms.foldl (EM.addQ g F) q = q ++ ms.map (fun m => (m, some (c.get m F)))
  | [], q, _, _ => by simp
  | m :: ms, q, hn, hq => by
    have hm : EM.addQ g F q m = q ++ [(m, some (c.get m F))] := by
      unfold EM.addQ
      rw [lookup_none (hq m List.mem_cons_self), h.get]; rfl
    obtain ⟨h1, h2⟩ := List.nodup_cons.mp hn
    rw [List.foldl_cons, hm, em_addQ h F ms _ h2 (fun k hk e he => ?_)]
    · simp
    · rcases List.mem_append.mp he with he | he
      · exact hq k (List.mem_cons_of_mem _ hk) e he
      · obtain rfl := List.mem_singleton.mp he
        exact fun e => h1 (show m ∈ ms from (show m = k from e) ▸ hk)

theorem em_loop2 {c : Cls} {g : EM.Cfg} (h : Suits c g) (F G : Nat → Nat) : ∀ (ms : List Nat) (acc : List (Nat × Nat)),
    EM.loop2 g G (ms.map (fun m => (m, some (c.get m F)))) acc = .ok (acc ++ ms.filterMap (fun m => if c.eq m (c.get m F) (c.get m G) then none else some (m, c.get m G)))
  | [], acc => by simp [EM.loop2]
  | m :: ms, acc => by
    simp only [List.map_cons, EM.loop2, h.get, EM.Cfg.changed, h.same]
    rw [em_loop2 h F G ms]
    cases he : c.eq m (c.get m F) (c.get m G) <;> simp [he]

theorem em_compare {c : Cls} {g : EM.Cfg} (h : Suits c g) {n : Nat} (hn : (n :: c.deps n).Nodup) (F : Nat → Nat) (s : EM.St) (hp : s.primary = [n])
    (hq : s.queue = (n :: c.deps n).map (fun m => (m, some (c.get m F)))) :
    EM.compare g s = (.ok (tells c n F s.F), { s with queue := [], primary := [] }) := by
  obtain ⟨h1, h2⟩ := List.nodup_cons.mp hn
  have ho : g.order [n] = [n] := List.perm_singleton.mp (h.order [n])
  have hl : EM.lookup ((n :: c.deps n).map (fun m => (m, some (c.get m F)))) n = some (some (c.get n F)) := by simp [EM.lookup]
  have hf : ((n :: c.deps n).map (fun m => (m, some (c.get m F)))).filter (fun e => decide (e.1 ≠ n)) = (c.deps n).map (fun m => (m, some (c.get m F))) := by
    rw [List.map_cons, List.filter_cons_of_neg (by simp)]
    refine List.filter_eq_self.mpr (fun e he => ?_)
    obtain ⟨m, hm, rfl⟩ := List.mem_map.mp he
    simpa using fun e : m = n => h1 (e ▸ hm)
  unfold EM.compare
  rw [hp, ho, hq]
  simp only [EM.loop1, hl, h.get, EM.Cfg.changed, h.same, hf, tells]
  cases he : c.eq n (c.get n F) (c.get n s.F)
  · simp only [Bool.not_false, if_true, List.nil_append, em_loop2 h F s.F]
    rfl
  · rfl

theorem tells_length (c : Cls) (n : Nat) (a b : Nat → Nat) : (tells c n a b).length ≤ (c.deps n).length + 1 := by
  unfold tells
  split
  · simp
  · simp only [List.length_cons]
    have := List.length_filterMap_le (fun m => if c.eq m (c.get m a) (c.get m b) then none else some (m, c.get m b)) (c.deps n)
    omega

theorem em_set {c : Cls} {g : EM.Cfg} (h : Suits c g) {n v f : Nat} (hn : (n :: c.deps n).Nodup) (hp : c.prop n = none) {s : EM.St} (hq : s.queue = []) (hr : s.primary = [])
    (hs : s.sem = 0) (hf : (c.deps n).length + 6 ≤ f) :
    EM.exec g f (.set n v) s = some (.ok (), { s with F := (fun m => if m = n then v else s.F m), log := s.log ++ tells c n s.F (fun m => if m = n then v else s.F m) }) := by
  obtain ⟨f, rfl⟩ : ∃ k, f = k + 6 := ⟨f - 6, by omega⟩
  have hlive : g.liveDeps n = c.deps n := by
    unfold EM.Cfg.liveDeps
    rw [h.deps]
    exact List.filter_eq_self.mpr (fun m _ => h.listens m)
  have htr : EM.track g n { s with sem := s.sem + 1 } = { s with sem := 1, primary := [n], queue := (n :: c.deps n).map (fun m => (m, some (c.get m s.F))) } := by
    unfold EM.track
    have := em_addQ h s.F (n :: c.deps n) [] hn (fun _ _ _ he => nomatch he)
    rw [List.foldl_cons] at this
    simp only [hlive, hq, hr, hs, this]
    simp
  have himpl : EM.exec g (f + 5) (.impl n v) { s with sem := s.sem + 1 } =
      some (.ok (), { s with F := (fun m => if m = n then v else s.F m), sem := 1, primary := [n], queue := (n :: c.deps n).map (fun m => (m, some (c.get m s.F))) }) := by
    rw [EM.exec]
    rw [show ((g.deps n).any fun d => !g.sig d) = false from by simp [h.sig]]
    rw [show g.tracked n = true from by simp [EM.Cfg.tracked, h.listens], if_pos rfl, htr]
    simp [EM.exec, h.prop, hp, h.valid]
  have hexit : EM.exec g (f + 5) (.exit (.ok ())) { s with F := (fun m => if m = n then v else s.F m), sem := 1, primary := [n], queue := (n :: c.deps n).map (fun m => (m, some (c.get m s.F))) } =
      some (.ok (), { s with F := (fun m => if m = n then v else s.F m), log := s.log ++ tells c n s.F (fun m => if m = n then v else s.F m) }) := by
    have hcmp := em_compare h hn s.F { s with F := (fun m => if m = n then v else s.F m), sem := 0, primary := [n], queue := (n :: c.deps n).map (fun m => (m, some (c.get m s.F))) } rfl rfl
    have hlen := tells_length c n s.F (fun m => if m = n then v else s.F m)
    have hsq : ({ s with queue := [], primary := [], sem := 0 } : EM.St) = s := by rw [← hq, ← hr, ← hs]
    rw [EM.exec, if_neg (by simp), EM.exec]
    simp only [Nat.sub_self]
    rw [hcmp]
    generalize htl : tells c n s.F (fun m => if m = n then v else s.F m) = ts at hlen ⊢
    cases ts with
    | nil => simp [← hq, ← hr, ← hs]
    | cons e ts =>
      dsimp only
      rw [em_emits h (e :: ts) (f + 3) _ (by omega)]
      simp [EM.exec, ← hq, ← hr, ← hs]
  rw [EM.exec]
  simp only [h.sig, h.noDeps, himpl, hexit]
  simp

theorem em_run {c : Cls} {g : EM.Cfg} (h : Suits c g) (hnd : ∀ n, (n :: c.deps n).Nodup) {f : Nat} : ∀ (l : List (Nat × Nat)) {s : EM.St} {x : A} {l0 : List (Nat × Nat)},
    (∀ p ∈ l, c.prop p.1 = none ∧ (c.deps p.1).length + 6 ≤ f) → s.queue = [] → s.primary = [] → s.sem = 0 → s.F = x.attr → s.log = l0 ++ x.told →
    ∃ s', EM.assigns g f l s = some s' ∧ s'.F = (l.foldl (A.set c) x).attr ∧ s'.log = l0 ++ (l.foldl (A.set c) x).told
  | [], s, _, _, _, _, _, _, h4, h5 => ⟨s, rfl, h4, h5⟩
  | p :: l, s, x, l0, hl, h1, h2, h3, h4, h5 => by
    obtain ⟨e1, e2⟩ := hl p List.mem_cons_self
    have hs := em_set h (v := p.2) (hnd p.1) e1 h1 h2 h3 e2
    obtain ⟨s', f1, f2, f3⟩ := em_run h hnd (f := f) l (x := x.set c p) (l0 := l0) (fun q hq => hl q (List.mem_cons_of_mem _ hq))
      (s := { s with F := (fun m => if m = p.1 then p.2 else s.F m), log := s.log ++ tells c p.1 s.F (fun m => if m = p.1 then p.2 else s.F m) }) h1 h2 h3
      (by rw [h4]; rfl) (by simp only [h5, h4, A.set, List.append_assoc])
    exact ⟨s', by simp only [EM.assigns, hs]; exact f1, f2, f3⟩

end Psygnal.DlC
