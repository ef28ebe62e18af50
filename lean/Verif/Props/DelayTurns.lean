import Verif.DelayTurns
import Verif.Props.DelayConc

/-!
# C98: fields with dependent properties that threads assign in turns

The thread model of C93 compared with the model of C40: if no two assignments are under way at the same time, the fields hold what they hold, and listeners are
told what they are told - of fields and of dependent properties, in order -, if the same assignments are made in one thread in the order in which they began.
-/
namespace Psygnal.DlC

/-- Partial: whatever the getters and the operators are.  `g` is any class in the model of C40 with these fields, properties and operators and silent listeners
to all names.  Missing: overlapping assignments (`C98_dependents_refuted`). -/
theorem C98_dependents_partial (c : Cls) (a : Nat → Nat) (todo : Nat → List (Nat × Nat)) (s : List Nat) (f : Nat) (g : EM.Cfg) (s0 : EM.St)
    (hnd : ∀ n, (n :: c.deps n).Nodup)
    (h1 : ∀ p q, s = p ++ q → ∀ t u A n v B A' n' v' B', (run c p (init a todo)).log = A ++ .call t n v :: B → .done t ∉ B → (∀ r, .raised t r ∉ B) →
      (run c p (init a todo)).log = A' ++ .call u n' v' :: B' → .done u ∉ B' → (∀ r, .raised u r ∉ B') → t = u)
    (hr : ∀ t, (run c s (init a todo)).thr t = .idle)
    (hf : ∀ t n v, .call t n v ∈ (run c s (init a todo)).log → c.prop n = none ∧ (c.deps n).length + 6 ≤ f)
    (hsig : ∀ n, g.sig n = true) (hdeps : g.deps = c.deps) (hno : g.noDeps = false) (hprop : ∀ m, g.isProp m = (c.prop m).isSome)
    (hget : ∀ m F k, c.prop m = some k → g.fget m F = some (k F)) (hl : ∀ n, g.listens n = true) (hv : ∀ n v, g.coerce n v = some v)
    (he : ∀ m x y, g.same m x y = c.eq m y x) (ho : ∀ l, (g.order l).Perm l) (hc : ∀ n, g.conflict n = false) (hq : ∀ n v, g.cb n v = .ret)
    (h0 : s0.F = a) (hs : s0.sem = 0) (hsq : s0.queue = []) (hsp : s0.primary = []) :
    (∃ q, EM.assigns g f (calls (run c s (init a todo)).log) s0 = some q ∧ q.F = (run c s (init a todo)).attr ∧
      q.log = s0.log ++ tellings (run c s (init a todo)).log) ∧ ∀ t r, .raised t r ∉ (run c s (init a todo)).log := by
  have hone : ∀ p q, s = p ++ q → One (run c p (init a todo)) := by
    intro p q e t u ht hu
    have hp := run_inv (c := c) (I := fun σ => ∀ u, Part u σ.log (σ.thr u)) part_step p (part_init a todo)
    obtain ⟨A, n, v, B, h2, h3, h4⟩ := part_busy (hp t) ht
    obtain ⟨A', n', v', B', h5, h6, h7⟩ := part_busy (hp u) hu
    exact h1 p q e t u A n v B A' n' v' B' h2 h3 h4 h5 h6 h7
  have hi : Turn c a (init a todo) := .calm ⟨fun _ => rfl, rfl, rfl, rfl, rfl, fun _ h => nomatch h⟩
  rcases turn_run hnd s hi hone with h | ⟨t, σ0, j, k, _, hj, hk, hσ, hn, _⟩
  · have hff : ∀ p ∈ calls (run c s (init a todo)).log, c.prop p.1 = none ∧ (c.deps p.1).length + 6 ≤ f := by
      intro p hp
      obtain ⟨e, hm, he'⟩ := List.mem_filterMap.mp hp
      match e, hm, he' with
      | .call t n v, hm, rfl => exact hf t n v hm
    obtain ⟨q, e1, e2, e3⟩ := em_run (c := c) ⟨hsig, hdeps, hprop, hget, hno, hl, hv, he, ho, hc, hq⟩ hnd (f := f) (calls (run c s (init a todo)).log) (s := s0)
      (x := ⟨a, []⟩) (l0 := s0.log) hff hsq hsp hs h0 (by simp)
    rw [← h.same] at e2 e3
    refine ⟨⟨q, e1, e2, e3⟩, fun t r hm => ?_⟩
    have := h.fine (some r) (List.mem_filterMap.mpr ⟨.raised t r, hm, rfl⟩)
    cases this
  · exact absurd (hr t) (by rw [← hσ]; exact hn j hj hk)

/-- The class of the examples of C93 in the model of C40: fields 0 and 2, property 1, the tens of field 0. -/
def exG : EM.Cfg where
  sig := fun _ => true
  isProp := fun m => (exC.prop m).isSome
  deps := exC.deps
  noDeps := false
  listens := fun _ => true
  relay := false
  coerce := fun _ v => some v
  fset := fun _ _ => .ret
  fget := fun m F => (exC.prop m).map (fun k => k F)
  same := fun _ x y => x == y
  order := id
  cb := fun _ _ => .ret
  conflict := fun _ => false

def exO : EM.St := ⟨exA, [], [], 0, [], false⟩

theorem perm_two {x y : Nat × Nat} {l : List (Nat × Nat)} (h : l.Perm [x, y]) (hxy : x ≠ y) : l = [x, y] ∨ l = [y, x] := by
  match l, h.length_eq with
  | [p, q], _ =>
    have hp := h.mem_iff.mp (List.mem_cons_self : p ∈ [p, q])
    have hn := (h.nodup_iff).mpr (by simpa using hxy)
    have hq := h.mem_iff.mp (by simp : q ∈ [p, q])
    simp only [List.mem_cons, List.not_mem_nil, or_false] at hp hq
    have hpq : p ≠ q := by simpa using hn
    rcases hp with rfl | rfl <;> rcases hq with rfl | rfl
    · exact absurd rfl hpq
    · exact .inl rfl
    · exact .inr rfl
    · exact absurd rfl hpq

/-- Two threads assign the field at the same time: nobody is told of anything, which no order of the two assignments does. -/
theorem C98_dependents_refuted :
    ∃ s, (run exC s (init exA (exT 0))).thr 0 = .idle ∧ (run exC s (init exA (exT 0))).thr 1 = .idle ∧
      ∀ l : List (Nat × Nat), l.Perm (calls (run exC s (init exA (exT 0))).log) →
        (EM.assigns exG 7 l exO).map EM.St.log ≠ some (tellings (run exC s (init exA (exT 0))).log) := by
  refine ⟨exLost, by decide +kernel, by decide +kernel, fun l hl => ?_⟩
  rw [show calls (run exC exLost (init exA (exT 0))).log = [(0, 10), (0, 20)] from by decide +kernel] at hl
  rw [show tellings (run exC exLost (init exA (exT 0))).log = [] from by decide +kernel]
  rcases perm_two hl (by decide) with rfl | rfl
  · decide +kernel
  · decide +kernel

/-- `C98_dependents_partial`: thread 0 assigns field 0, then thread 1 field 2. -/
example : ∃ q, EM.assigns exG 7 [(0, 10), (2, 20)] exO = some q ∧ q.F = (run exC exOne (init exA (exT 2))).attr ∧ q.log = [(0, 10), (1, 1), (2, 20)] := by
  have h := (C98_dependents_partial exC exA (exT 2) exOne 7 exG exO (fun n => ?_)
    (fun p q e t u A n v B A' n' v' B' h1 h2 h3 h4 h5 h6 => ?_) exOne_idle (fun t n v hm => ?_) (fun _ => rfl) rfl rfl (fun _ => rfl)
    (fun m F k hk => by simp only [exG, hk]; rfl) (fun _ => rfl) (fun _ _ => rfl) (fun _ x y => by simp [exG, exC, Bool.beq_comm]) (fun l => List.Perm.refl l)
    (fun _ => rfl) (fun _ _ => rfl) rfl rfl rfl rfl).1
  · rw [exOne_log] at h
    exact h
  · by_cases hn : n = 0
    · subst hn; decide
    · simp [exC, hn]
  · have hp : p = exOne.take p.length := by rw [e]; simp
    have hlen : p.length ∈ List.range 71 := by
      have := congrArg List.length e
      simp [exOne] at this
      exact List.mem_range.mpr (by omega)
    have h7 := opens_mem h1 h2 h3
    have h8 := opens_mem h4 h5 h6
    rw [hp] at h7 h8
    exact exOne_one p.length hlen t h7 u h8
  · rw [exOne_log] at hm
    simp only [List.mem_cons, Ev.call.injEq, reduceCtorEq, false_or, or_false, List.not_mem_nil] at hm
    rcases hm with ⟨_, rfl, _⟩ | ⟨_, rfl, _⟩
    · exact ⟨rfl, by decide⟩
    · exact ⟨rfl, by decide⟩

end Psygnal.DlC
