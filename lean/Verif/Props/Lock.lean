import Verif.Lock
import Verif.Props.Turns
import Verif.Props.AttrTurns
import Verif.Props.DelayTurns

/-!
# C99: a lock around the operations is enough

If user code makes every operation on an evented set, dictionary or list, or every assignment of an evented attribute, in a block `with lock:`, then whatever the
threads do and whoever goes when, everything is as if the operations were made one after the other in one thread, in the order in which they got the lock; and
whoever holds the lock lets it go.
-/

namespace Psygnal.StC

/-- Sets: whenever nobody holds the lock. -/
theorem C99_set (d : List Nat) (hd : d.Nodup) (prog : Nat → Code) (l : List Nat) :
    let p := Lk.run step inside l (init d prog, none)
    let q := ES.run seq ((calls p.1.log).map Call.op) { data := d }
    p.2 = none → p.1.data.set = q.2.data ∧ tellings d p.1.log = q.2.log ∧ ∀ r ∈ q.1, r = .ok .unit := by
  intro p q hn
  obtain ⟨s, h1, h2, h3⟩ := Lk.locked inside_other (σ0 := init d prog) (fun _ => rfl) l
  have ht : Turns d (run s (init d prog)) := turns_from s ⟨rfl, fun _ hk => (nomatch (show false = true from hk)), fun _ => rfl⟩
    (fun a b e t u ht hu => h2 a b e t u (by rw [inside_busy]; exact ht) (by rw [inside_busy]; exact hu))
  have h4 := ht.rest (fun t => by rw [← inside_busy]; exact h3 hn t)
  obtain ⟨h5, h6⟩ := run_same (calls p.1.log) (s := { data := d }) ⟨rfl, hd⟩
  have h7 : now d p.1 = abs q.2 := by rw [show p.1 = run s (init d prog) from h1, h4, h6, show p.1 = run s (init d prog) from h1]; rfl
  exact ⟨congrArg (fun a => a.data.set) h7, congrArg A.told h7, h5⟩

/-- Whoever holds the lock lets it go. -/
theorem C99_set_free (d : List Nat) (prog : Nat → Code) (l : List Nat) (t : Nat) (h : (Lk.run step inside l (init d prog, none)).2 = some t) :
    ∃ k, (Lk.run step inside (l ++ List.replicate k t) (init d prog, none)).2 = none :=
  Lk.frees inside_other (fun _ => rfl) l h (fun s _ _ => ends_all t _ (s.foldl step (init d prog)) rfl)

/-- Two threads add the same item, as in `C97_set_refuted`, but with a lock: it is told once. -/
example : let p := Lk.run step inside [0, 0, 1, 1, 0, 0, 0, 0, 1, 1, 1, 1] (init [5, 6] (exP (exAdd 7) (exAdd 7)), none)
    p.2 = none ∧ p.1.data.set = [5, 6, 7] ∧ tellings [5, 6] p.1.log = [(([7], []), [5, 6, 7])] ∧ calls p.1.log = [.add 7, .add 7] := by
  have h := C99_set [5, 6] (by decide) (exP (exAdd 7) (exAdd 7)) [0, 0, 1, 1, 0, 0, 0, 0, 1, 1, 1, 1] (by decide)
  exact ⟨by decide, h.1, h.2.1, by decide⟩

example : ∃ k, (Lk.run step inside ([0, 0, 1, 1] ++ List.replicate k 0) (init [5, 6] (exP (exUpd [6, 7]) exClr), none)).2 = none :=
  C99_set_free [5, 6] (exP (exUpd [6, 7]) exClr) [0, 0, 1, 1] 0 (by decide)

end Psygnal.StC

namespace Psygnal.DcC

/-- Dictionaries: whenever nobody holds the lock. -/
theorem C99_dict (a : List (Nat × Nat)) (ha : (a.map Prod.fst).Nodup) (prog : Nat → Code) (l : List Nat) :
    let p := Lk.run step inside l (init (ED.lookup a) prog, none)
    let q := ED.run seq (calls p.1.log) { dict := a }
    p.2 = none → p.1.dict = ED.lookup q.2.dict ∧ tellings (ED.lookup a) p.1.log = q.2.log.map (fun x => (x.1, ED.lookup x.2)) ∧ results p.1.log = q.1 := by
  intro p q hn
  obtain ⟨s, h1, h2, h3⟩ := Lk.locked inside_other (σ0 := init (ED.lookup a) prog) (fun _ => rfl) l
  have hp : p.1 = run s (init (ED.lookup a) prog) := h1
  have ht : Turns (ED.lookup a) p.1 := by
    rw [hp]
    exact turns_from s ⟨rfl, fun _ hk => (nomatch (show false = true from hk)), fun _ => rfl⟩
      (fun a b e t u ht hu => h2 a b e t u (by rw [inside_busy]; exact ht) (by rw [inside_busy]; exact hu))
  have h4 := ht.rest (fun t => by rw [← inside_busy, hp]; exact h3 hn t)
  have h5 := run_same p.1.log (s := { dict := a }) [] ha
  have h6 : now (ED.lookup a) p.1.log = abs q.2 q.1 := h4.trans h5.symm
  obtain ⟨h7, h8⟩ := now_parts p.1.log ⟨ED.lookup a, [], []⟩
  refine ⟨ht.dict.symm.trans (congrArg A.dict h6), ?_, ?_⟩
  · rw [← show (now (ED.lookup a) p.1.log).told = tellings (ED.lookup a) p.1.log from h7.trans (List.nil_append _), h6]; rfl
  · rw [← show (now (ED.lookup a) p.1.log).res = results p.1.log from h8.trans (List.nil_append _), h6]; rfl

/-- Whoever holds the lock lets it go. -/
theorem C99_dict_free (d : Dict) (prog : Nat → Code) (l : List Nat) (t : Nat) (h : (Lk.run step inside l (init d prog, none)).2 = some t) :
    ∃ k, (Lk.run step inside (l ++ List.replicate k t) (init d prog, none)).2 = none :=
  Lk.frees inside_other (fun _ => rfl) l h (fun s _ _ => ends_all t _ (s.foldl step (init d prog)) rfl)

/-- Two threads assign the same value to a new key, with a lock: added once. -/
example : let p := Lk.run step inside [0, 0, 1, 1, 0, 0, 0, 1, 1, 1, 1] (init (ED.lookup [(0, 5)]) (exP (exSet 1 6) (exSet 1 6)), none)
    p.2 = none ∧ (tellings (ED.lookup [(0, 5)]) p.1.log).map Prod.fst = [.adding 1, .added 1 6] ∧ calls p.1.log = [.setItem 1 6, .setItem 1 6] := by
  have h := C99_dict [(0, 5)] (by decide) (exP (exSet 1 6) (exSet 1 6)) [0, 0, 1, 1, 0, 0, 0, 1, 1, 1, 1] (by decide)
  exact ⟨by decide, by rw [h.2.1]; decide, by rfl⟩

example : ∃ k, (Lk.run step inside ([0, 0, 1, 1] ++ List.replicate k 0) (init (ED.lookup [(0, 5)]) (exP (exSet 1 6) (exDel 0)), none)).2 = none :=
  C99_dict_free (ED.lookup [(0, 5)]) (exP (exSet 1 6) (exDel 0)) [0, 0, 1, 1] 0 (by decide)

end Psygnal.DcC

namespace Psygnal.LsC

/-- Lists: whenever nobody holds the lock. -/
theorem C99_list (d : List Nat) (prog : Nat → Code) (l : List Nat) :
    let p := Lk.run step inside l (init d prog, none)
    let q := EL.run seq (calls p.1.log) { data := d }
    p.2 = none → p.1.data = q.2.data ∧ tellings d p.1.log = q.2.log ∧ results p.1.log = q.1 := by
  intro p q hn
  obtain ⟨s, h1, h2, h3⟩ := Lk.locked inside_other (σ0 := init d prog) (fun _ => rfl) l
  have hp : p.1 = run s (init d prog) := h1
  have ht : Turns d p.1 := by
    rw [hp]
    exact turns_from s ⟨rfl, fun _ hk => (nomatch (show false = true from hk)), fun _ => rfl⟩
      (fun a b e t u ht hu => h2 a b e t u (by rw [inside_busy]; exact ht) (by rw [inside_busy]; exact hu))
  have h4 := ht.rest (fun t => by rw [← inside_busy, hp]; exact h3 hn t)
  have h5 := run_same p.1.log (s := { data := d }) [] rfl
  have h6 : now d p.1.log = abs q.2 q.1 := h4.trans h5.symm
  obtain ⟨h7, h8⟩ := now_parts p.1.log ⟨d, [], []⟩
  refine ⟨ht.data.symm.trans (congrArg A.data h6), ?_, ?_⟩
  · rw [← show (now d p.1.log).told = tellings d p.1.log from h7.trans (List.nil_append _), h6]; rfl
  · rw [← show (now d p.1.log).res = results p.1.log from h8.trans (List.nil_append _), h6]; rfl

/-- Whoever holds the lock lets it go. -/
theorem C99_list_free (d : List Nat) (prog : Nat → Code) (l : List Nat) (t : Nat) (h : (Lk.run step inside l (init d prog, none)).2 = some t) :
    ∃ k, (Lk.run step inside (l ++ List.replicate k t) (init d prog, none)).2 = none :=
  Lk.frees inside_other (fun _ => rfl) l h (fun s _ _ => ends_all t _ (s.foldl step (init d prog)) rfl)

/-- Two threads assign the same value, with a lock: changed once. -/
example : let p := Lk.run step inside [0, 0, 1, 1, 0, 0, 1, 1, 1] (init [5, 6] (exP (exSet 0 9) (exSet 0 9)), none)
    p.2 = none ∧ p.1.data = [9, 6] ∧ tellings [5, 6] p.1.log = [(.changed 0 5 9, [9, 6])] ∧ calls p.1.log = [.setItem 0 9, .setItem 0 9] := by
  have h := C99_list [5, 6] (exP (exSet 0 9) (exSet 0 9)) [0, 0, 1, 1, 0, 0, 1, 1, 1] (by decide)
  exact ⟨by decide, by rw [h.1]; decide, by rw [h.2.1]; decide, by rfl⟩

example : ∃ k, (Lk.run step inside ([0, 0, 1, 1] ++ List.replicate k 0) (init [5, 6] (exP (exMove 0 (-1)) (exDel 0)), none)).2 = none :=
  C99_list_free [5, 6] (exP (exMove 0 (-1)) (exDel 0)) [0, 0, 1, 1] 0 (by decide)

end Psygnal.LsC

namespace Psygnal.AtC

theorem locked_now (c : Cfg) (a : Nat → Nat) (prog : Nat → Code) (l : List Nat) (n : Nat) (hn : (Lk.run (step c) inside l (init a prog, none)).2 = none) :
    now n (Lk.run (step c) inside l (init a prog, none)).1 = (calls n (Lk.run (step c) inside l (init a prog, none)).1.log).foldl (A.set c) ⟨a n, []⟩ := by
  obtain ⟨s, h1, h2, h3⟩ := Lk.locked (inside_other c) (σ0 := init a prog) (fun _ => rfl) l
  have ht : Turns c a n (run c s (init a prog)) := turns_run s (fun p q e t u ht hu => h2 p q e t u (inside_busy ht) (inside_busy hu))
  have h4 := ht.rest (fun t hb => by
    have := inside_busy hb
    rw [show inside (run c s (init a prog)) t = false from h3 hn t] at this
    cases this)
  rw [h1]
  exact h4

/-- Attributes of a dataclass (`g` and `s0` as in `C98_attr_partial`): whenever nobody holds the lock. -/
theorem C99_attr (eq : Nat → Nat → Bool) (a : Nat → Nat) (prog : Nat → Code) (l : List Nat) (n k : Nat) (g : DC.Cfg) (s0 : DC.St)
    (he : ∀ x y, g.env.apply .eq (.obj x) (.obj y) = .ok (eq x y)) (hn : n ≠ g.groupName) (hk : g.lookup n = some k) (hl : g.listeners k = true)
    (hq : ∀ x y, g.raises k x y = false) (h0 : s0.attrs n = .obj (a n)) (hm : s0.eqmap n = none ∨ s0.eqmap n = some .eq) :
    let p := Lk.run (step ⟨true, eq⟩) inside l (init a prog, none)
    let q := dcRun g n (calls n p.1.log) s0
    p.2 = none → q.2.attrs n = .obj (p.1.attr n) ∧ q.2.log = s0.log ++ (tellings n p.1.log).map (fun x => (k, .obj x.1, .obj x.2)) ∧
      (∀ r ∈ q.1, r = .ok ()) ∧ ∀ m, m ≠ n → q.2.attrs m = s0.attrs m := by
  intro p q hp
  have h1 := locked_now ⟨true, eq⟩ a prog l n hp
  obtain ⟨e1, e2, e3, e4⟩ := dc_run (c := ⟨true, eq⟩) ⟨rfl, he, hn, hk, hl, hq⟩ (l := s0.log) (calls n p.1.log) (s := s0) (x := ⟨a n, []⟩) h0
    (by rcases hm with hm | hm <;> simp [hm]) (by simp)
  rw [← h1] at e2 e3
  exact ⟨e2, e3, e1, e4⟩

/-- Fields of an evented model without dependent properties (`g` and `s0` as in `C98_model_partial`): whenever nobody holds the lock. -/
theorem C99_model (eq : Nat → Nat → Bool) (a : Nat → Nat) (prog : Nat → Code) (l : List Nat) (n f : Nat) (g : EM.Cfg) (s0 : EM.St)
    (he : ∀ x y, g.same n x y = eq y x) (hs : g.sig n = true) (hd : g.noDeps = true) (hpr : g.isProp n = false) (hv : ∀ v, g.coerce n v = some v)
    (hl : g.listens n = true) (hc : g.conflict n = false) (hq : ∀ v, g.cb n v = .ret) (h0 : s0.F n = a n) :
    let p := Lk.run (step ⟨false, eq⟩) inside l (init a prog, none)
    p.2 = none → ∃ q, EM.assigns g (f + 4) ((calls n p.1.log).map (fun v => (n, v))) s0 = some q ∧
      q.F n = p.1.attr n ∧ q.log = s0.log ++ (tellings n p.1.log).map (fun x => (n, x.1)) ∧ ∀ m, m ≠ n → q.F m = s0.F m := by
  intro p hp
  have h1 := locked_now ⟨false, eq⟩ a prog l n hp
  obtain ⟨q, e1, e2, e3, e4⟩ := em_run (c := ⟨false, eq⟩) ⟨rfl, he, hs, hd, hpr, hv, hl, hc, hq⟩ f (l := s0.log) (calls n p.1.log) (s := s0) (x := ⟨a n, []⟩) h0 (by simp)
  rw [← h1] at e2 e3
  exact ⟨q, e1, e2, e3, e4⟩

/-- Whoever holds the lock lets it go. -/
theorem C99_attr_free (c : Cfg) (a : Nat → Nat) (prog : Nat → Code) (l : List Nat) (t : Nat) (h : (Lk.run (step c) inside l (init a prog, none)).2 = some t) :
    ∃ k, (Lk.run (step c) inside (l ++ List.replicate k t) (init a prog, none)).2 = none :=
  Lk.frees (inside_other c) (fun _ => rfl) l h (fun s _ _ => gets_all c t _ (s.foldl (step c) (init a prog)) rfl)

/-- Two threads assign 1, with a lock: told once. -/
def exLk : List Nat := [0, 0, 1, 1, 0, 0, 0, 0, 1, 1, 1, 1, 1, 1]

example : let p := Lk.run (step exD) inside exLk (init exA (exP 1), none)
    p.2 = none ∧ tellings 0 p.1.log = [(1, 0)] ∧ calls 0 p.1.log = [1, 1] ∧ (dcRun exG 0 [1, 1] exO).2.log = [(0, .obj 1, .obj 0)] := by
  have h := C99_attr (fun x y => x == y) exA (exP 1) exLk 0 0 exG exO obj_eq (by decide) (by decide) rfl (fun _ _ => rfl) rfl (.inl rfl) (by decide)
  exact ⟨by decide, by decide, by decide, h.2.1⟩

example : ∃ q, EM.assigns exMo 4 [(0, 1), (0, 1)] exMs = some q ∧ q.F 0 = 1 ∧ q.log = [(0, 1)] ∧ ∀ m, m ≠ 0 → q.F m = 0 :=
  C99_model (fun x y => x == y) exA (exP 1) exLk 0 0 exMo exMs (fun x y => by simp [exMo, Bool.beq_comm]) rfl rfl rfl (fun _ => rfl) rfl rfl (fun _ => rfl) rfl (by decide)

example : ∃ k, (Lk.run (step exD) inside ([0, 0, 1, 1] ++ List.replicate k 0) (init exA (exP 1), none)).2 = none :=
  C99_attr_free exD exA (exP 1) [0, 0, 1, 1] 0 (by decide)

end Psygnal.AtC

namespace Psygnal.DlC

theorem locked_turn {c : Cls} {a : Nat → Nat} {todo : Nat → List (Nat × Nat)} (hnd : ∀ n, (n :: c.deps n).Nodup) {s : List Nat}
    (h : ∀ p q : List Nat, s = p ++ q → ∀ t u, inside (p.foldl (step c) (init a todo)) t = true → inside (p.foldl (step c) (init a todo)) u = true → t = u) :
    Turn c a (run c s (init a todo)) :=
  turn_run hnd s (.calm ⟨fun _ => rfl, rfl, rfl, rfl, rfl, fun _ h => nomatch h⟩)
    (fun p q e t u ht hu => h p q e t u (inside_busy.mpr ht) (inside_busy.mpr hu))

/-- Fields with dependent properties (`g` and `s0` as in `C98_dependents_partial`): whenever nobody holds the lock; no assignment raises. -/
theorem C99_dependents (c : Cls) (a : Nat → Nat) (todo : Nat → List (Nat × Nat)) (l : List Nat) (f : Nat) (g : EM.Cfg) (s0 : EM.St)
    (hnd : ∀ n, (n :: c.deps n).Nodup)
    (hsig : ∀ n, g.sig n = true) (hdeps : g.deps = c.deps) (hno : g.noDeps = false) (hprop : ∀ m, g.isProp m = (c.prop m).isSome)
    (hget : ∀ m F k, c.prop m = some k → g.fget m F = some (k F)) (hl : ∀ n, g.listens n = true) (hv : ∀ n v, g.coerce n v = some v)
    (he : ∀ m x y, g.same m x y = c.eq m y x) (ho : ∀ l, (g.order l).Perm l) (hc : ∀ n, g.conflict n = false) (hq : ∀ n v, g.cb n v = .ret)
    (h0 : s0.F = a) (hs : s0.sem = 0) (hsq : s0.queue = []) (hsp : s0.primary = []) :
    let p := Lk.run (step c) inside l (init a todo, none)
    p.2 = none → (∀ t n v, .call t n v ∈ p.1.log → c.prop n = none ∧ (c.deps n).length + 6 ≤ f) →
    (∃ q, EM.assigns g f (calls p.1.log) s0 = some q ∧ q.F = p.1.attr ∧ q.log = s0.log ++ tellings p.1.log) ∧ (∀ t r, .raised t r ∉ p.1.log) ∧
    p.1.sem = 0 ∧ p.1.queue = [] ∧ p.1.prim = [] := by
  intro p hp hf
  obtain ⟨s, h1, h2, h3⟩ := Lk.locked (inside_other c) (σ0 := init a todo) (fun _ => rfl) l
  have hpr : p.1 = run c s (init a todo) := h1
  have hi : ∀ t, (run c s (init a todo)).thr t = .idle := fun t => by
    have := h3 hp t
    cases hx : (run c s (init a todo)).thr t with
    | idle => rfl
    | _ => exact absurd (this.symm.trans (inside_busy.mpr (by rw [show (s.foldl (step c) (init a todo)).thr t = _ from hx]; exact fun e => nomatch e))) (by decide)
  rcases locked_turn hnd h2 with h | ⟨t, σ0, j, k, _, hj, hk, hσ, hn, _⟩
  · rw [hpr] at hf ⊢
    have hff : ∀ x ∈ calls (run c s (init a todo)).log, c.prop x.1 = none ∧ (c.deps x.1).length + 6 ≤ f := by
      intro x hx
      obtain ⟨e, hm, he'⟩ := List.mem_filterMap.mp hx
      match e, hm, he' with
      | .call t n v, hm, rfl => exact hf t n v hm
    obtain ⟨q, e1, e2, e3⟩ := em_run (c := c) ⟨hsig, hdeps, hprop, hget, hno, hl, hv, he, ho, hc, hq⟩ hnd (f := f) (calls (run c s (init a todo)).log) (s := s0)
      (x := ⟨a, []⟩) (l0 := s0.log) hff hsq hsp hs h0 (by simp)
    rw [← h.same] at e2 e3
    refine ⟨⟨q, e1, e2, e3⟩, fun t r hm => ?_, h.sem, h.queue, h.prim⟩
    have := h.fine (some r) (List.mem_filterMap.mpr ⟨.raised t r, hm, rfl⟩)
    cases this
  · exact absurd (hi t) (by rw [← hσ]; exact hn j hj hk)

/-- Whoever holds the lock lets it go. -/
theorem C99_dependents_free (c : Cls) (a : Nat → Nat) (todo : Nat → List (Nat × Nat)) (hnd : ∀ n, (n :: c.deps n).Nodup) (l : List Nat) (t : Nat)
    (h : (Lk.run (step c) inside l (init a todo, none)).2 = some t) : ∃ k, (Lk.run (step c) inside (l ++ List.replicate k t) (init a todo, none)).2 = none := by
  refine Lk.frees (inside_other c) (fun _ => rfl) l h (fun s _ h2 => ?_)
  rcases locked_turn hnd h2 with hc | ⟨u, σ0, j, k, h0, hj, hk, hσ, hn, hc⟩
  · exact ⟨0, by
      show inside (run c s (init a todo)) t = false
      unfold inside; rw [hc.idle t]⟩
  · by_cases hu : t = u
    · subst hu
      refine ⟨k - j, ?_⟩
      have : run c (List.replicate (k - j) t) (run c s (init a todo)) = run c (List.replicate k t) σ0 := by
        rw [← hσ]
        unfold run
        rw [← List.foldl_append, List.replicate_append_replicate]
        congr 2
        omega
      show inside (run c (List.replicate (k - j) t) (run c s (init a todo))) t = false
      rw [this]
      unfold inside; rw [hc.idle t]
    · refine ⟨0, ?_⟩
      show inside (run c s (init a todo)) t = false
      unfold inside
      rw [← hσ, run_other c u t hu, h0.idle t]

/-- Thread 1 wants to assign field 0 while thread 0 does, as in `C93_silent_refuted`, but there is a lock: all is told. -/
def exLk : List Nat := List.replicate 12 0 ++ List.replicate 8 1 ++ List.replicate 25 0 ++ List.replicate 60 1

theorem exLk_log : (Lk.run (step exC) inside exLk (init exA (exT 0), none)).1.log =
    [.call 0 0 10, .wrote 0 0 10, .told 0 0 10, .told 0 1 1, .done 0, .call 1 0 20, .wrote 1 0 20, .told 1 0 20, .told 1 1 2, .done 1] := by decide +kernel

theorem exC_nodup (n : Nat) : (n :: exC.deps n).Nodup := by
  by_cases hn : n = 0
  · subst hn; decide
  · simp [exC, hn]

/-- `C99_dependents`. -/
example : ∃ q, EM.assigns exG 7 [(0, 10), (0, 20)] exO = some q ∧ q.F = (Lk.run (step exC) inside exLk (init exA (exT 0), none)).1.attr ∧
    q.log = [(0, 10), (1, 1), (0, 20), (1, 2)] := by
  have h := (C99_dependents exC exA (exT 0) exLk 7 exG exO exC_nodup (fun _ => rfl) rfl rfl (fun _ => rfl)
    (fun m F k hk => by simp only [exG, hk]; rfl) (fun _ => rfl) (fun _ _ => rfl) (fun _ x y => by simp [exG, exC, Bool.beq_comm]) (fun l => List.Perm.refl l)
    (fun _ => rfl) (fun _ _ => rfl) rfl rfl rfl rfl (by decide +kernel) (fun t n v hm => by
      rw [exLk_log] at hm
      simp only [List.mem_cons, Ev.call.injEq, reduceCtorEq, false_or, or_false, List.not_mem_nil] at hm
      rcases hm with ⟨_, rfl, _⟩ | ⟨_, rfl, _⟩
      · exact ⟨rfl, by decide⟩
      · exact ⟨rfl, by decide⟩)).1
  rw [exLk_log] at h
  exact h

/-- `C99_dependents_free`. -/
example : ∃ k, (Lk.run (step exC) inside (List.replicate 12 0 ++ List.replicate 8 1 ++ List.replicate k 0) (init exA (exT 0), none)).2 = none :=
  C99_dependents_free exC exA (exT 0) exC_nodup (List.replicate 12 0 ++ List.replicate 8 1) 0 (by decide +kernel)

end Psygnal.DlC
