import Verif.FastConc

/-! # Lemmas about `FastConc` -/
namespace Psygnal.FC

@[simp] theorem set_same {α : Type} (f : Nat → α) (n : Nat) (v : α) : set f n v n = v := by simp [set]

theorem set_apply {α : Type} (f : Nat → α) (n : Nat) (v : α) (m : Nat) : set f n v m = if m = n then v else f m := rfl

theorem set_other {α : Type} {f : Nat → α} {n m : Nat} {v : α} (h : m ≠ n) : set f n v m = f m := by simp [set, h]

/-- The steps, one constructor for each branch of `step`. -/
inductive Step (e : Env) (t : Nat) (σ : St) : Thread → St → Prop
  | ret {st n l} : Step e t σ ⟨.run .ret, st, n, l⟩ { σ with thr := set σ.thr t ⟨.fin true, st, n, l⟩ }
  | raise {st n l} : Step e t σ ⟨.run .raise, st, n, l⟩ { σ with thr := set σ.thr t ⟨.fin false, st, n, l⟩ }
  | emit {st n l f s a k} : Step e t σ ⟨.run (.emit f s a k), st, n, l⟩
      { σ with thr := set σ.thr t ⟨.check f s a, .cont k :: st, n, l⟩ }
  | limit {st n l f s a} : e.limit ≤ σ.depth s → Step e t σ ⟨.check f s a, st, n, l⟩
      { σ with thr := set σ.thr t ⟨.fin false, st, n, l ++ [.refused f s a]⟩ }
  | checkF {st n l s a} : σ.depth s < e.limit → Step e t σ ⟨.check true s a, st, n, l⟩
      { σ with thr := set σ.thr t ⟨.load ⟨n, true, s, a⟩, st, n + 1, l⟩ }
  | check {st n l s a} : σ.depth s < e.limit → Step e t σ ⟨.check false s a, st, n, l⟩
      { σ with thr := set σ.thr t ⟨.wait s a, st, n, l⟩ }
  | wait {st n l s a lk} : acquire t (σ.locks s) = some lk → Step e t σ ⟨.wait s a, st, n, l⟩
      { σ with locks := set σ.locks s (some lk), thr := set σ.thr t ⟨.load ⟨n, false, s, a⟩, st, n + 1, l⟩ }
  | load {st n l m} : Step e t σ ⟨.load m, st, n, l⟩ { σ with thr := set σ.thr t ⟨.store m (σ.depth m.s), st, n, l⟩ }
  | storeF {st n l m v} : m.fast = true → Step e t σ ⟨.store m v, st, n, l⟩
      { σ with depth := set σ.depth m.s (v + 1), thr := set σ.thr t ⟨.next m 0, st, n, l⟩ }
  | store {st n l m v} : m.fast = false → Step e t σ ⟨.store m v, st, n, l⟩
      { σ with depth := set σ.depth m.s (v + 1), thr := set σ.thr t ⟨.maxd m, st, n, l⟩ }
  | maxd {st n l m} : Step e t σ ⟨.maxd m, st, n, l⟩
      { σ with maxd := set σ.maxd m.s (max (σ.maxd m.s) (σ.depth m.s)), thr := set σ.thr t ⟨.next m 0, st, n, l⟩ }
  | endF {st n l m j} : m.fast = true → (e.slots m.s)[j]? = none → Step e t σ ⟨.next m j, st, n, l⟩
      { σ with thr := set σ.thr t ⟨.test m true, st, n, l⟩ }
  | end {st n l m j} : m.fast = false → (e.slots m.s)[j]? = none → Step e t σ ⟨.next m j, st, n, l⟩
      { σ with thr := set σ.thr t ⟨.dload m true, st, n, l⟩ }
  | break {st n l m j} : m.fast = false → e.latest m.s = true → σ.depth m.s < σ.maxd m.s →
      Step e t σ ⟨.next m j, st, n, l⟩ { σ with thr := set σ.thr t ⟨.dload m true, st, n, l⟩ }
  | call {st n l m j x} : (e.slots m.s)[j]? = some x → Step e t σ ⟨.next m j, st, n, l⟩
      { σ with thr := set σ.thr t ⟨.run (e.body m.s x m.a), .loop m (j + 1) :: st, n, l ++ [.call m x]⟩ }
  | test {st n l m ok} : 0 < σ.depth m.s → Step e t σ ⟨.test m ok, st, n, l⟩
      { σ with thr := set σ.thr t ⟨.dload m ok, st, n, l⟩ }
  | testNo {st n l m ok} : σ.depth m.s ≤ 0 → Step e t σ ⟨.test m ok, st, n, l⟩
      { σ with thr := set σ.thr t ⟨.fin ok, st, n, l ++ [.done m ok]⟩ }
  | dload {st n l m ok} : Step e t σ ⟨.dload m ok, st, n, l⟩
      { σ with thr := set σ.thr t ⟨.dstore m ok (σ.depth m.s), st, n, l⟩ }
  | dstoreF {st n l m ok v} : m.fast = true → Step e t σ ⟨.dstore m ok v, st, n, l⟩
      { σ with depth := set σ.depth m.s (v - 1), thr := set σ.thr t ⟨.fin ok, st, n, l ++ [.done m ok]⟩ }
  | dstore {st n l m ok v} : m.fast = false → Step e t σ ⟨.dstore m ok v, st, n, l⟩
      { σ with depth := set σ.depth m.s (v - 1), thr := set σ.thr t ⟨.reset m ok, st, n, l⟩ }
  | reset {st n l m ok} : σ.depth m.s ≤ 0 → Step e t σ ⟨.reset m ok, st, n, l⟩
      { σ with thr := set σ.thr t ⟨.zero m ok, st, n, l⟩ }
  | resetNo {st n l m ok} : 0 < σ.depth m.s → Step e t σ ⟨.reset m ok, st, n, l⟩
      { σ with thr := set σ.thr t ⟨.release m ok, st, n, l⟩ }
  | zero {st n l m ok} : Step e t σ ⟨.zero m ok, st, n, l⟩
      { σ with depth := set σ.depth m.s 0, maxd := set σ.maxd m.s 0, thr := set σ.thr t ⟨.release m ok, st, n, l⟩ }
  | release {st n l m ok} : Step e t σ ⟨.release m ok, st, n, l⟩
      { σ with locks := set σ.locks m.s (unlock (σ.locks m.s)), thr := set σ.thr t ⟨.fin ok, st, n, l ++ [.done m ok]⟩ }
  | finCont {st n l ok k} : Step e t σ ⟨.fin ok, .cont k :: st, n, l⟩
      { σ with thr := set σ.thr t ⟨.run (k ok), st, n, l⟩ }
  | finNext {st n l m j} : Step e t σ ⟨.fin true, .loop m j :: st, n, l⟩
      { σ with thr := set σ.thr t ⟨.next m j, st, n, l⟩ }
  | finRaiseF {st n l m j} : m.fast = true → Step e t σ ⟨.fin false, .loop m j :: st, n, l⟩
      { σ with thr := set σ.thr t ⟨.test m false, st, n, l⟩ }
  | finRaise {st n l m j} : m.fast = false → Step e t σ ⟨.fin false, .loop m j :: st, n, l⟩
      { σ with thr := set σ.thr t ⟨.dload m false, st, n, l⟩ }

theorem step_rel {e : Env} {t : Nat} {σ σ' : St} (h : step e t σ = some σ') : Step e t σ (σ.thr t) σ' := by
  unfold step at h
  rcases hth : σ.thr t with ⟨c, st, n, l⟩
  simp only [hth] at h ⊢
  cases c <;> try simp only at h
  case run c => cases c <;> simp only at h <;> cases h <;> constructor
  case check f s a =>
    split at h
    · cases h; exact .limit (by assumption)
    · cases f <;> simp at h <;> cases h
      · exact .check (by omega)
      · exact .checkF (by omega)
  case wait =>
    split at h
    · cases h
    · rename_i hl; cases h; exact .wait hl
  case load => cases h; exact .load
  case store m v =>
    split at h <;> cases h
    · exact .storeF (by assumption)
    · exact .store (by simp_all)
  case maxd => cases h; exact .maxd
  case next m j =>
    split at h
    · cases hm : m.fast <;> simp [hm] at h <;> cases h
      · exact .end hm (by assumption)
      · exact .endF hm (by assumption)
    · split at h
      · rename_i hc; cases h; exact .break hc.1 hc.2.1 hc.2.2
      · cases h; exact .call (by assumption)
  case test =>
    split at h <;> cases h
    · exact .test (by assumption)
    · exact .testNo (by omega)
  case dload => cases h; exact .dload
  case dstore =>
    split at h <;> cases h
    · exact .dstoreF (by assumption)
    · exact .dstore (by simp_all)
  case reset =>
    split at h <;> cases h
    · exact .reset (by assumption)
    · exact .resetNo (by omega)
  case zero => cases h; exact .zero
  case release => cases h; exact .release
  case fin ok =>
    cases st with
    | nil => cases h
    | cons f st =>
      cases f <;> simp only at h
      case cont => cases h; exact .finCont
      case loop m j =>
        cases ok
        · cases hm : m.fast <;> simp [hm] at h <;> cases h
          · exact .finRaise hm
          · exact .finRaiseF hm
        · simp at h; cases h; exact .finNext

/-- A step of thread `t` leaves the others alone. -/
theorem Step.others {e : Env} {t : Nat} {σ σ' : St} {th : Thread} (h : Step e t σ th σ') {t' : Nat} (ht : t' ≠ t) :
    σ'.thr t' = σ.thr t' := by
  cases h <;> simp [set_other ht]

theorem run_inv {e : Env} {P : St → Prop} (hs : ∀ t σ σ', step e t σ = some σ' → P σ → P σ') :
    ∀ (sched : List Nat) (σ : St), P σ → P (run e sched σ)
  | [], _, h => h
  | t :: ts, σ, h => by
    refine run_inv hs ts _ ?_
    cases hst : step e t σ with
    | none => exact h
    | some σ' => exact hs t σ σ' hst h

theorem run_append (e : Env) : ∀ (s1 s2 : List Nat) (σ : St), run e (s1 ++ s2) σ = run e s2 (run e s1 σ)
  | [], _, _ => rfl
  | t :: s1, s2, σ => run_append e s1 s2 ((step e t σ).getD σ)

/-- A thread that is not in the schedule does nothing. -/
theorem run_others (e : Env) {t : Nat} : ∀ {sched : List Nat} (σ : St), t ∉ sched → (run e sched σ).thr t = σ.thr t
  | [], _, _ => rfl
  | u :: ts, σ, h => by
    have h1 : t ≠ u := fun h' => h (h' ▸ List.mem_cons_self ..)
    have h2 : t ∉ ts := fun h' => h (List.mem_cons_of_mem _ h')
    have h3 := run_others e (sched := ts) ((step e u σ).getD σ) h2
    show (run e ts ((step e u σ).getD σ)).thr t = _
    rw [h3]
    cases hst : step e u σ with
    | none => rfl
    | some σ' => exact (step_rel hst).others h1

end Psygnal.FC
