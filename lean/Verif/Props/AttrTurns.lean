import Verif.AttrTurns
import Verif.Props.AttrConc

/-!
# C98: evented attributes that threads assign in turns

If assignments of one attribute do not overlap - in particular, if only one thread assigns it - it holds what it holds, and listeners are told what they are
told, if the same assignments are made one after the other in one thread, in the order in which they began: whatever the threads do with the other attributes.
What happens in one thread is what the models of C39 (dataclasses) and C40 (evented models) say.
-/
namespace Psygnal.AtC

/-- Thread `t` is in an assignment of `n`: begun, not ended. -/
def InSet (t n : Nat) (L : List Ev) : Prop := ∃ A v B, L = A ++ .call t n v :: B ∧ ∀ e ∈ B, e.thread = t → e = .wrote t n v

theorem apart_now {c : Cfg} {a : Nat → Nat} {prog : Nat → Code} {s : List Nat} {n : Nat}
    (h : ∀ p q, s = p ++ q → ∀ t u, InSet t n (run c p (init a prog)).log → InSet u n (run c p (init a prog)).log → t = u)
    (hr : ∀ t, ¬ InSet t n (run c s (init a prog)).log) :
    now n (run c s (init a prog)) = (calls n (run c s (init a prog)).log).foldl (A.set c) ⟨a n, []⟩ :=
  (turns_run s (fun p q e t u ht hu => h p q e t u (since_busy ((inv_run p (inv_init c a prog)).since t) ht)
    (since_busy ((inv_run p (inv_init c a prog)).since u) hu))).rest (fun t ht => hr t (since_busy ((inv_run s (inv_init c a prog)).since t) ht))

theorem log_step (c : Cfg) (σ : St) (t : Nat) : ∃ l, (step c σ t).log = σ.log ++ l := by
  unfold step
  split
  · exact ⟨[], by simp⟩
  · exact ⟨_, rfl⟩
  · exact ⟨[], by simp [St.go]⟩
  · exact ⟨[], by simp [St.go]⟩
  · exact ⟨_, rfl⟩
  · exact ⟨[], by simp [St.go]⟩
  · split
    · exact ⟨_, rfl⟩
    · exact ⟨[], by simp [St.go]⟩
  · exact ⟨_, rfl⟩

theorem log_grows (c : Cfg) : ∀ (q : List Nat) (σ : St), ∃ l, (run c q σ).log = σ.log ++ l
  | [], _ => ⟨[], by simp [run]⟩
  | t :: q, σ => by
    obtain ⟨l, h⟩ := log_step c σ t
    obtain ⟨m, h'⟩ := log_grows c q (step c σ t)
    exact ⟨l ++ m, by rw [show run c (t :: q) σ = run c q (step c σ t) from rfl, h', h, List.append_assoc]⟩

theorem writer_one {c : Cfg} {a : Nat → Nat} {prog : Nat → Code} {s : List Nat} {n t : Nat} (h : ∀ u v, .call u n v ∈ (run c s (init a prog)).log → u = t) :
    ∀ p q, s = p ++ q → ∀ u, InSet u n (run c p (init a prog)).log → u = t := by
  rintro p q rfl u ⟨A, v, B, h1, _⟩
  refine h u v ?_
  obtain ⟨l, h2⟩ := log_grows c q (run c p (init a prog))
  rw [run_append, h2, h1]; simp

/-- Partial: an attribute of a dataclass.  `g` is any evented class in the model of C39 in which somebody listens to the signal `k` of `n`, and `s0` an object
with the same value.  Missing: overlapping assignments (`C98_refuted`). -/
theorem C98_attr_partial (eq : Nat → Nat → Bool) (a : Nat → Nat) (prog : Nat → Code) (s : List Nat) (n k : Nat) (g : DC.Cfg) (s0 : DC.St)
    (h : ∀ p q, s = p ++ q → ∀ t u, InSet t n (run ⟨true, eq⟩ p (init a prog)).log → InSet u n (run ⟨true, eq⟩ p (init a prog)).log → t = u)
    (hr : ∀ t, ¬ InSet t n (run ⟨true, eq⟩ s (init a prog)).log)
    (he : ∀ x y, g.env.apply .eq (.obj x) (.obj y) = .ok (eq x y)) (hn : n ≠ g.groupName) (hk : g.lookup n = some k) (hl : g.listeners k = true)
    (hq : ∀ x y, g.raises k x y = false) (h0 : s0.attrs n = .obj (a n)) (hm : s0.eqmap n = none ∨ s0.eqmap n = some .eq) :
    let q := dcRun g n (calls n (run ⟨true, eq⟩ s (init a prog)).log) s0
    q.2.attrs n = .obj ((run ⟨true, eq⟩ s (init a prog)).attr n) ∧
    q.2.log = s0.log ++ (tellings n (run ⟨true, eq⟩ s (init a prog)).log).map (fun p => (k, .obj p.1, .obj p.2)) ∧ (∀ r ∈ q.1, r = .ok ()) ∧ ∀ m, m ≠ n → q.2.attrs m = s0.attrs m := by
  have h1 := apart_now h hr
  obtain ⟨e1, e2, e3, e4⟩ := dc_run (c := ⟨true, eq⟩) ⟨rfl, he, hn, hk, hl, hq⟩ (l := s0.log) (calls n (run ⟨true, eq⟩ s (init a prog)).log) (s := s0) (x := ⟨a n, []⟩) h0
    (by rcases hm with hm | hm <;> simp [hm]) (by simp)
  rw [← h1] at e2 e3
  exact ⟨e2, e3, e1, e4⟩

/-- An attribute of a dataclass that one thread assigns, whatever the others do. -/
theorem C98_attr_writer (eq : Nat → Nat → Bool) (a : Nat → Nat) (prog : Nat → Code) (s : List Nat) (n k t : Nat) (g : DC.Cfg) (s0 : DC.St)
    (h : ∀ u v, .call u n v ∈ (run ⟨true, eq⟩ s (init a prog)).log → u = t) (hr : ¬ InSet t n (run ⟨true, eq⟩ s (init a prog)).log)
    (he : ∀ x y, g.env.apply .eq (.obj x) (.obj y) = .ok (eq x y)) (hn : n ≠ g.groupName) (hk : g.lookup n = some k) (hl : g.listeners k = true)
    (hq : ∀ x y, g.raises k x y = false) (h0 : s0.attrs n = .obj (a n)) (hm : s0.eqmap n = none ∨ s0.eqmap n = some .eq) :
    let q := dcRun g n (calls n (run ⟨true, eq⟩ s (init a prog)).log) s0
    q.2.attrs n = .obj ((run ⟨true, eq⟩ s (init a prog)).attr n) ∧
    q.2.log = s0.log ++ (tellings n (run ⟨true, eq⟩ s (init a prog)).log).map (fun p => (k, .obj p.1, .obj p.2)) ∧ (∀ r ∈ q.1, r = .ok ()) ∧ ∀ m, m ≠ n → q.2.attrs m = s0.attrs m :=
  have key := writer_one h
  C98_attr_partial eq a prog s n k g s0 (fun p q e u w hu hw => (key p q e u hu).trans (key p q e w hw).symm)
    (fun u hu => hr ((key s [] (by simp) u hu) ▸ hu)) he hn hk hl hq h0 hm

/-- Partial: a field of an evented model without properties that depend on fields; `g` is any such class in the model of C40.  Missing: overlapping
assignments (`C98_refuted`). -/
theorem C98_model_partial (eq : Nat → Nat → Bool) (a : Nat → Nat) (prog : Nat → Code) (s : List Nat) (n f : Nat) (g : EM.Cfg) (s0 : EM.St)
    (h : ∀ p q, s = p ++ q → ∀ t u, InSet t n (run ⟨false, eq⟩ p (init a prog)).log → InSet u n (run ⟨false, eq⟩ p (init a prog)).log → t = u)
    (hr : ∀ t, ¬ InSet t n (run ⟨false, eq⟩ s (init a prog)).log)
    (he : ∀ x y, g.same n x y = eq y x) (hs : g.sig n = true) (hd : g.noDeps = true) (hp : g.isProp n = false) (hv : ∀ v, g.coerce n v = some v)
    (hl : g.listens n = true) (hc : g.conflict n = false) (hq : ∀ v, g.cb n v = .ret) (h0 : s0.F n = a n) :
    ∃ q, EM.assigns g (f + 4) ((calls n (run ⟨false, eq⟩ s (init a prog)).log).map (fun v => (n, v))) s0 = some q ∧
      q.F n = (run ⟨false, eq⟩ s (init a prog)).attr n ∧ q.log = s0.log ++ (tellings n (run ⟨false, eq⟩ s (init a prog)).log).map (fun p => (n, p.1)) ∧ ∀ m, m ≠ n → q.F m = s0.F m := by
  have h1 := apart_now h hr
  obtain ⟨q, e1, e2, e3, e4⟩ := em_run (c := ⟨false, eq⟩) ⟨rfl, he, hs, hd, hp, hv, hl, hc, hq⟩ f (l := s0.log) (calls n (run ⟨false, eq⟩ s (init a prog)).log) (s := s0)
    (x := ⟨a n, []⟩) h0 (by simp)
  rw [← h1] at e2 e3
  exact ⟨q, e1, e2, e3, e4⟩

/-- A field of such a model that one thread assigns, whatever the others do. -/
theorem C98_model_writer (eq : Nat → Nat → Bool) (a : Nat → Nat) (prog : Nat → Code) (s : List Nat) (n f t : Nat) (g : EM.Cfg) (s0 : EM.St)
    (h : ∀ u v, .call u n v ∈ (run ⟨false, eq⟩ s (init a prog)).log → u = t) (hr : ¬ InSet t n (run ⟨false, eq⟩ s (init a prog)).log)
    (he : ∀ x y, g.same n x y = eq y x) (hs : g.sig n = true) (hd : g.noDeps = true) (hp : g.isProp n = false) (hv : ∀ v, g.coerce n v = some v)
    (hl : g.listens n = true) (hc : g.conflict n = false) (hq : ∀ v, g.cb n v = .ret) (h0 : s0.F n = a n) :
    ∃ q, EM.assigns g (f + 4) ((calls n (run ⟨false, eq⟩ s (init a prog)).log).map (fun v => (n, v))) s0 = some q ∧
      q.F n = (run ⟨false, eq⟩ s (init a prog)).attr n ∧ q.log = s0.log ++ (tellings n (run ⟨false, eq⟩ s (init a prog)).log).map (fun p => (n, p.1)) ∧ ∀ m, m ≠ n → q.F m = s0.F m :=
  have key := writer_one h
  C98_model_partial eq a prog s n f g s0 (fun p q e u w hu hw => (key p q e u hu).trans (key p q e w hw).symm)
    (fun u hu => hr ((key s [] (by simp) u hu) ▸ hu)) he hs hd hp hv hl hc hq h0

/-! ## Examples -/

/-- A dataclass whose attributes 0 and 1 have signals. -/
def exG : DC.Cfg where
  env := ⟨fun _ x y => .ok (x == y), fun _ => .ok false, false⟩
  groupName := 9
  withAliases := false
  group := ⟨[0, 1], []⟩
  listeners := fun _ => true
  raises := fun _ _ _ => false

def exO : DC.St := ⟨fun _ => .obj 0, fun _ => none, []⟩

/-- A model with fields 0 and 1. -/
def exMo : EM.Cfg where
  sig := fun n => n < 2
  isProp := fun _ => false
  deps := fun _ => []
  noDeps := true
  listens := fun _ => true
  relay := false
  coerce := fun _ v => some v
  fset := fun _ _ => .ret
  fget := fun _ _ => none
  same := fun _ x y => x == y
  order := id
  cb := fun _ _ => .ret
  conflict := fun _ => false

def exMs : EM.St := ⟨fun _ => 0, [], [], 0, [], false⟩

/-- Two threads assign 1 at the same time: both say that 0 has become 1, which they do not if one comes after the other. -/
theorem C98_refuted :
    (∃ s, (run exD s (init exA (exP 1))).thr 0 = .run .ret ∧ (run exD s (init exA (exP 1))).thr 1 = .run .ret ∧
      ∀ vs : List Nat, vs.Perm (calls 0 (run exD s (init exA (exP 1))).log) →
        (dcRun exG 0 vs exO).2.log ≠ (tellings 0 (run exD s (init exA (exP 1))).log).map (fun p => (0, .obj p.1, .obj p.2))) ∧
    (∃ s, (run exM s (init exA (exP 1))).thr 0 = .run .ret ∧ (run exM s (init exA (exP 1))).thr 1 = .run .ret ∧
      ∀ vs : List Nat, vs.Perm (calls 0 (run exM s (init exA (exP 1))).log) →
        (EM.assigns exMo 4 (vs.map (fun v => (0, v))) exMs).map EM.St.log ≠ some ((tellings 0 (run exM s (init exA (exP 1))).log).map (fun p => (0, p.1)))) := by
  refine ⟨⟨[0, 0, 1, 1, 0, 0, 0, 0, 1, 1, 1, 1], by rfl, by rfl, fun vs hv => ?_⟩, ⟨[0, 0, 1, 1, 0, 0, 0, 1, 1, 1], by rfl, by rfl, fun vs hv => ?_⟩⟩
  · rw [show calls 0 (run exD [0, 0, 1, 1, 0, 0, 0, 0, 1, 1, 1, 1] (init exA (exP 1))).log = List.replicate 2 1 from by decide] at hv
    rw [List.perm_replicate.mp hv]
    decide
  · rw [show calls 0 (run exM [0, 0, 1, 1, 0, 0, 0, 1, 1, 1] (init exA (exP 1))).log = List.replicate 2 1 from by decide] at hv
    rw [List.perm_replicate.mp hv]
    decide

theorem obj_eq (x y : Nat) : exG.env.apply .eq (.obj x) (.obj y) = .ok (x == y) := by
  show Except.ok (decide (DC.Val.obj x = DC.Val.obj y)) = _
  simp only [DC.Val.obj.injEq]
  rfl

theorem exS_in (t : Nat) : ¬ InSet t 0 (run exD exS (init exA (exP 2))).log := fun ⟨_, _, _, h1, h2⟩ => by
  have := opens_mem h1 h2
  rw [show opens 0 [] (run exD exS (init exA (exP 2))).log = [] from by decide] at this
  cases this

/-- `C98_attr_partial`: thread 0 assigns 1, then thread 1 assigns 2. -/
example : (dcRun exG 0 [1, 2] exO).2.log = (tellings 0 (run exD exS (init exA (exP 2))).log).map (fun p => (0, .obj p.1, .obj p.2)) ∧
    tellings 0 (run exD exS (init exA (exP 2))).log = [(1, 0), (2, 1)] := by
  have h := C98_attr_partial (fun x y => x == y) exA (exP 2) exS 0 0 exG exO (fun p q e t u ⟨A, v, B, h1, h2⟩ ⟨A', v', B', h3, h4⟩ => by
      have hp : p = exS.take p.length := by rw [e]; simp
      have hlen : p.length ∈ List.range 14 := by
        have := congrArg List.length e
        simp [exS] at this
        exact List.mem_range.mpr (by omega)
      have h5 := opens_mem h1 h2
      have h6 := opens_mem h3 h4
      rw [hp] at h5 h6
      exact exS_one p.length hlen t h5 u h6)
    exS_in obj_eq (by decide) (by decide) rfl (fun _ _ => rfl) rfl (.inl rfl)
  exact ⟨h.2.1, by decide⟩

/-- Two threads and two attributes: their assignments overlap. -/
def exQ : Nat → Code
  | 0 => .set 0 1 (.set 0 1 (.set 0 2 .ret))
  | 1 => .set 1 5 .ret
  | _ => .ret

def exR : List Nat := [0, 1, 0, 1, 0, 1, 0, 1, 0, 1, 0, 1, 0, 0, 0, 0, 0, 0, 0, 0, 0, 0, 0]

theorem exR_open : ∀ r : Bool, ∀ n < 2, opens n [] (run ⟨r, fun x y => x == y⟩ exR (init exA exQ)).log = [] := by decide

theorem exR_in (r : Bool) (n t : Nat) (hn : n < 2) : ¬ InSet t n (run ⟨r, fun x y => x == y⟩ exR (init exA exQ)).log := fun ⟨_, _, _, h1, h2⟩ => by
  have := opens_mem h1 h2
  rw [exR_open r n hn] at this
  cases this

/-- `C98_attr_writer`. -/
example : (dcRun exG 0 [1, 1, 2] exO).2.log = [(0, .obj 1, .obj 0), (0, .obj 2, .obj 1)] ∧ (run exD exR (init exA exQ)).attr 0 = 2 := by
  have hl : (run exD exR (init exA exQ)).log = [.call 0 0 1, .call 1 1 5, .wrote 0 0 1, .wrote 1 1 5, .told 0 0 1 1 0, .told 1 1 5 5 0, .call 0 0 1, .wrote 0 0 1,
      .same 0 0 1 1 1, .call 0 0 2, .wrote 0 0 2, .told 0 0 2 2 1] := by decide
  have h := C98_attr_writer (fun x y => x == y) exA exQ exR 0 0 0 exG exO (fun u v hm => by
      rw [show (run ⟨true, fun x y => x == y⟩ exR (init exA exQ)).log = _ from hl] at hm
      simp at hm; omega)
    (exR_in true 0 0 (by decide)) obj_eq (by decide) (by decide) rfl (fun _ _ => rfl) rfl (.inl rfl)
  exact ⟨by decide, by decide⟩

/-- `C98_model_partial` and `C98_model_writer`. -/
example : ∃ q, EM.assigns exMo 4 [(0, 1), (0, 1), (0, 2)] exMs = some q ∧ q.F 0 = 2 ∧ q.log = [(0, 1), (0, 2)] := by
  have hl : (run exM exR (init exA exQ)).log = [.call 0 0 1, .call 1 1 5, .wrote 0 0 1, .wrote 1 1 5, .told 0 0 1 1 0, .told 1 1 5 5 0, .call 0 0 1, .wrote 0 0 1,
      .same 0 0 1 1 1, .call 0 0 2, .wrote 0 0 2, .told 0 0 2 2 1] := by decide
  have h := C98_model_writer (fun x y => x == y) exA exQ exR 0 0 0 exMo exMs (fun u v hm => by
      rw [show (run ⟨false, fun x y => x == y⟩ exR (init exA exQ)).log = _ from hl] at hm
      simp at hm; omega)
    (exR_in false 0 0 (by decide)) (fun x y => by simp [exMo, Bool.beq_comm]) rfl rfl rfl (fun _ => rfl) rfl rfl (fun _ => rfl) rfl
  rw [show (run ⟨false, fun x y => x == y⟩ exR (init exA exQ)).log = _ from hl] at h
  exact ⟨_, h.choose_spec.1, h.choose_spec.2.1, h.choose_spec.2.2.1⟩

end Psygnal.AtC
