import Verif.GroupConc

/-! # Lemmas for `Verif/GroupConc.lean` -/
namespace Psygnal.GrC

@[simp] theorem set_same {ι α : Type} [DecidableEq ι] (f : ι → α) (n : ι) (v : α) : set f n v n = v := by simp [set]

theorem set_other {ι α : Type} [DecidableEq ι] {f : ι → α} {n m : ι} {v : α} (h : m ≠ n) : set f n v m = f m := by
  simp [set, h]

/-- Thread `t` goes on with `c`, its stack being `st`. -/
def St.to (σ : St) (t : Nat) (c : Ctl) (st : List Frame) : St := { σ with thr := set σ.thr t ⟨c, st⟩ }

/-- Something has happened. -/
def St.note (σ : St) (ev : Ev) : St := { σ with log := σ.log ++ [ev] }

/-- Lock `x` is now `l`. -/
def St.lk (σ : St) (x : Sig) (l : Option (Nat × Nat)) : St := { σ with locks := set σ.locks x l }

/-- The slots of signal `s` are now `l`. -/
def St.sl (σ : St) (s : Nat) (l : List Slot) : St := { σ with slots := set σ.slots s l }

/-- The steps of thread `t`. -/
inductive Step (e : Env) (t : Nat) (σ : St) : St → Prop
  | ret {st} (h : σ.thr t = ⟨.run .ret, st⟩) : Step e t σ (σ.to t .fin st)
  | look {k st} (h : σ.thr t = ⟨.run (.look k), st⟩) : Step e t σ (σ.to t (.run (k σ.log)) st)
  | emit {s a k st} (h : σ.thr t = ⟨.run (.emit s a k), st⟩) : Step e t σ (σ.to t (.wait s a) (.cont k :: st))
  | conn {f k st} (h : σ.thr t = ⟨.run (.conn f k), st⟩) :
      Step e t σ ((σ.note (.connCall t f)).to t (.cwait f) (.cont k :: st))
  | offDead {f k st} (h : σ.thr t = ⟨.run (.off (.dead f) k), st⟩) :
      Step e t σ ((σ.note (.offCall t (.dead f))).to t (.dwait (.dead f)) (.cont k :: st))
  | off {o k st} (h : σ.thr t = ⟨.run (.off o k), st⟩) (ho : ∀ f, o ≠ .dead f) :
      Step e t σ ((σ.note (.offCall t o)).to t (.dfrom o e.members) (.cont k :: st))
  | mine {s x add k st} (h : σ.thr t = ⟨.run (.mine s x add k), st⟩) (hf : free t (σ.locks (.sig s)) = true) :
      Step e t σ ((σ.sl s (if add = true then σ.slots s ++ [.own x] else (σ.slots s).erase (.own x))).to t (.run k) st)
  | wait {s a st k} (h : σ.thr t = ⟨.wait s a, st⟩) (hl : acquire t (σ.locks (.sig s)) = some k) :
      Step e t σ ({ (σ.lk (.sig s) (some k)).note (.start σ.n t s a) with n := σ.n + 1 }.to t (.prev s a σ.n) st)
  | prev {s a n st} (h : σ.thr t = ⟨.prev s a n, st⟩) : Step e t σ (σ.to t (.setCur s a n σ.cur) st)
  | setCur {s a n p st} (h : σ.thr t = ⟨.setCur s a n p, st⟩) :
      Step e t σ ({ σ with cur := some (.sig s) }.to t (.next ⟨s, a, n, p, 0⟩) st)
  | nextEnd {l st} (h : σ.thr t = ⟨.next l, st⟩) (hj : (σ.slots l.s)[l.j]? = none) : Step e t σ (σ.to t (.rest l) st)
  | nextOwn {l st x} (h : σ.thr t = ⟨.next l, st⟩) (hj : (σ.slots l.s)[l.j]? = some (.own x)) :
      Step e t σ ((σ.note (.own t x l.s l.a l.n)).to t (.run (e.body x l.s l.a)) (.loop { l with j := l.j + 1 } :: st))
  | nextRelay {l st} (h : σ.thr t = ⟨.next l, st⟩) (hj : (σ.slots l.s)[l.j]? = some .relay) :
      Step e t σ (σ.to t (.asks { l with j := l.j + 1 }) st)
  | drop {l st} (h : σ.thr t = ⟨.asks l, st⟩) (hc : ∀ src, σ.cur = some src → truthy σ src = false) :
      Step e t σ ((σ.note (.drop l.n)).to t (.next l) st)
  | asks {l src st} (h : σ.thr t = ⟨.asks l, st⟩) (hc : σ.cur = some src) (ht : truthy σ src = true) :
      Step e t σ (σ.to t (.gwait l src) st)
  | gwait {l src st k} (h : σ.thr t = ⟨.gwait l src, st⟩) (hl : acquire t (σ.locks .grp) = some k) :
      Step e t σ ((σ.lk .grp (some k)).to t (.gprev l src) st)
  | gprev {l src st} (h : σ.thr t = ⟨.gprev l src, st⟩) : Step e t σ (σ.to t (.gset l src σ.cur) st)
  | gset {l src q st} (h : σ.thr t = ⟨.gset l src q, st⟩) :
      Step e t σ ({ σ with cur := some .grp }.to t (.gnext l src q 0) st)
  | gnextEnd {l src q i st} (h : σ.thr t = ⟨.gnext l src q i, st⟩) (hi : σ.gslots[i]? = none) :
      Step e t σ (σ.to t (.grest l q) st)
  | gnext {l src q i st f} (h : σ.thr t = ⟨.gnext l src q i, st⟩) (hi : σ.gslots[i]? = some f) :
      Step e t σ ((σ.note (.call t f src l.a l.n)).to t (.run (e.gbody f src l.a)) (.gloop l src q (i + 1) :: st))
  | grest {l q st} (h : σ.thr t = ⟨.grest l q, st⟩) : Step e t σ ({ σ with cur := q }.to t (.grel l) st)
  | grel {l st} (h : σ.thr t = ⟨.grel l, st⟩) : Step e t σ ((σ.lk .grp (unlock (σ.locks .grp))).to t (.next l) st)
  | rest {l st} (h : σ.thr t = ⟨.rest l, st⟩) : Step e t σ ({ σ with cur := l.p }.to t (.rel l) st)
  | rel {l st} (h : σ.thr t = ⟨.rel l, st⟩) :
      Step e t σ (((σ.lk (.sig l.s) (unlock (σ.locks (.sig l.s)))).note (.finish l.n)).to t .fin st)
  | cwait {f st k} (h : σ.thr t = ⟨.cwait f, st⟩) (hl : acquire t (σ.locks .grp) = some k) :
      Step e t σ ((σ.lk .grp (some k)).to t (.cadd f) st)
  | cadd {f st} (h : σ.thr t = ⟨.cadd f, st⟩) :
      Step e t σ (({ σ with gslots := σ.gslots ++ [f] }.note (.added t f)).to t (.ccheck f) st)
  | ccheck {f st} (h : σ.thr t = ⟨.ccheck f, st⟩) (hl : σ.gslots.length = 1) :
      Step e t σ (σ.to t (.clink f e.members) st)
  | ccheckNo {f st} (h : σ.thr t = ⟨.ccheck f, st⟩) (hl : σ.gslots.length ≠ 1) : Step e t σ (σ.to t (.crel f) st)
  | clinkEnd {f st} (h : σ.thr t = ⟨.clink f [], st⟩) : Step e t σ (σ.to t (.crel f) st)
  | clink {f m ms st} (h : σ.thr t = ⟨.clink f (m :: ms), st⟩) (hf : free t (σ.locks (.sig m)) = true) :
      Step e t σ ((σ.sl m (link (σ.slots m))).to t (.clink f ms) st)
  | crel {f st} (h : σ.thr t = ⟨.crel f, st⟩) :
      Step e t σ (((σ.lk .grp (unlock (σ.locks .grp))).note (.connRet t f)).to t .fin st)
  | dfromEnd {o st} (h : σ.thr t = ⟨.dfrom o [], st⟩) : Step e t σ (σ.to t (.dwait o) st)
  | dfrom {o m ms st} (h : σ.thr t = ⟨.dfrom o (m :: ms), st⟩) (hf : free t (σ.locks (.sig m)) = true) :
      Step e t σ ((σ.sl m (takeOff o (σ.slots m))).to t (.dfrom o ms) st)
  | dwaitDead {f st} (h : σ.thr t = ⟨.dwait (.dead f), st⟩) : Step e t σ (σ.to t (.drem (.dead f)) st)
  | dwait {o st k} (h : σ.thr t = ⟨.dwait o, st⟩) (ho : ∀ f, o ≠ .dead f) (hl : acquire t (σ.locks .grp) = some k) :
      Step e t σ ((σ.lk .grp (some k)).to t (.drem o) st)
  | drem {o f st} (h : σ.thr t = ⟨.drem o, st⟩) (ho : o = .one f ∨ o = .dead f) (hf : f ∈ σ.gslots) :
      Step e t σ (({ σ with gslots := σ.gslots.erase f }.note (.removed t o)).to t (.dcheck o) st)
  | dremNo {o f st} (h : σ.thr t = ⟨.drem o, st⟩) (ho : o = .one f ∨ o = .dead f) (hf : f ∉ σ.gslots) :
      Step e t σ (σ.to t (.dend o) st)
  | dremAll {st} (h : σ.thr t = ⟨.drem .all, st⟩) :
      Step e t σ (({ σ with gslots := [] }.note (.removed t .all)).to t (.dcheck .all) st)
  | dcheck {o st} (h : σ.thr t = ⟨.dcheck o, st⟩) (hg : σ.gslots = []) : Step e t σ (σ.to t (.dlink o e.members) st)
  | dcheckNo {o st} (h : σ.thr t = ⟨.dcheck o, st⟩) (hg : σ.gslots ≠ []) : Step e t σ (σ.to t (.dend o) st)
  | dlinkEnd {o st} (h : σ.thr t = ⟨.dlink o [], st⟩) : Step e t σ (σ.to t (.dend o) st)
  | dlink {o m ms st} (h : σ.thr t = ⟨.dlink o (m :: ms), st⟩) (hf : free t (σ.locks (.sig m)) = true) :
      Step e t σ ((σ.sl m ((σ.slots m).erase .relay)).to t (.dlink o ms) st)
  | dendDead {f st} (h : σ.thr t = ⟨.dend (.dead f), st⟩) :
      Step e t σ ((σ.note (.offRet t (.dead f))).to t .fin st)
  | dend {o st} (h : σ.thr t = ⟨.dend o, st⟩) (ho : ∀ f, o ≠ .dead f) :
      Step e t σ (((σ.lk .grp (unlock (σ.locks .grp))).note (.offRet t o)).to t .fin st)
  | finCont {k st} (h : σ.thr t = ⟨.fin, .cont k :: st⟩) : Step e t σ (σ.to t (.run k) st)
  | finLoop {l st} (h : σ.thr t = ⟨.fin, .loop l :: st⟩) : Step e t σ (σ.to t (.next l) st)
  | finGloop {l src q i st} (h : σ.thr t = ⟨.fin, .gloop l src q i :: st⟩) :
      Step e t σ (σ.to t (.gnext l src q i) st)

theorem step_rel {e : Env} {t : Nat} {σ σ' : St} (h : step e t σ = some σ') : Step e t σ σ' := by
  have hth : σ.thr t = ⟨(σ.thr t).ctl, (σ.thr t).stack⟩ := rfl
  generalize (σ.thr t).ctl = c at hth
  generalize (σ.thr t).stack = st at hth
  unfold step at h
  simp only [hth] at h
  cases c with
  | run c =>
    cases c with
    | ret => cases h; exact .ret hth
    | look k => cases h; exact .look hth
    | emit s a k => cases h; exact .emit hth
    | conn f k => cases h; exact .conn hth
    | off o k =>
      cases o with
      | one f => cases h; exact .off hth (by simp)
      | all => cases h; exact .off hth (by simp)
      | dead f => cases h; exact .offDead hth
    | mine s x add k =>
      simp only at h
      split at h
      · rename_i hf; cases h; exact .mine hth hf
      · cases h
  | fin =>
    cases st with
    | nil => cases h
    | cons f st =>
      cases f with
      | cont k => cases h; exact .finCont hth
      | loop l => cases h; exact .finLoop hth
      | gloop l src q i => cases h; exact .finGloop hth
  | wait s a =>
    simp only at h
    split at h
    · cases h
    · rename_i hl; cases h; exact .wait hth hl
  | prev s a n => cases h; exact .prev hth
  | setCur s a n p => cases h; exact .setCur hth
  | next l =>
    simp only at h
    split at h
    · rename_i hj; cases h; exact .nextEnd hth hj
    · rename_i hj; cases h; exact .nextOwn hth hj
    · rename_i hj; cases h; exact .nextRelay hth hj
  | asks l =>
    simp only at h
    split at h
    · rename_i hc; cases h; exact .drop hth (by intro src h1; rw [hc] at h1; cases h1)
    · rename_i src hc
      split at h
      · rename_i ht; cases h; exact .asks hth hc ht
      · rename_i ht; cases h
        refine .drop hth (fun src' h1 => ?_)
        rw [hc] at h1; cases h1; simpa using ht
  | gwait l src =>
    simp only at h
    split at h
    · cases h
    · rename_i hl; cases h; exact .gwait hth hl
  | gprev l src => cases h; exact .gprev hth
  | gset l src q => cases h; exact .gset hth
  | gnext l src q i =>
    simp only at h
    split at h
    · rename_i hi; cases h; exact .gnextEnd hth hi
    · rename_i hi; cases h; exact .gnext hth hi
  | grest l q => cases h; exact .grest hth
  | grel l => cases h; exact .grel hth
  | rest l => cases h; exact .rest hth
  | rel l => cases h; exact .rel hth
  | cwait f =>
    simp only at h
    split at h
    · cases h
    · rename_i hl; cases h; exact .cwait hth hl
  | cadd f => cases h; exact .cadd hth
  | ccheck f =>
    simp only at h
    split at h
    · rename_i hl; cases h; exact .ccheck hth hl
    · rename_i hl; cases h; exact .ccheckNo hth hl
  | clink f ms =>
    cases ms with
    | nil => cases h; exact .clinkEnd hth
    | cons m ms =>
      simp only at h
      split at h
      · rename_i hf; cases h; exact .clink hth hf
      · cases h
  | crel f => cases h; exact .crel hth
  | dfrom o ms =>
    cases ms with
    | nil => cases h; exact .dfromEnd hth
    | cons m ms =>
      simp only at h
      split at h
      · rename_i hf; cases h; exact .dfrom hth hf
      · cases h
  | dwait o =>
    cases o with
    | dead f => cases h; exact .dwaitDead hth
    | one f =>
      simp only at h
      split at h
      · cases h
      · rename_i hl; cases h; exact .dwait hth (by simp) hl
    | all =>
      simp only at h
      split at h
      · cases h
      · rename_i hl; cases h; exact .dwait hth (by simp) hl
  | drem o =>
    cases o with
    | one f =>
      simp only at h
      split at h
      · rename_i hf; cases h; exact .drem hth (.inl rfl) hf
      · rename_i hf; cases h; exact .dremNo hth (.inl rfl) hf
    | dead f =>
      simp only at h
      split at h
      · rename_i hf; cases h; exact .drem hth (.inr rfl) hf
      · rename_i hf; cases h; exact .dremNo hth (.inr rfl) hf
    | all => cases h; exact .dremAll hth
  | dcheck o =>
    simp only at h
    split at h
    · rename_i hg; cases h; exact .dcheck hth hg
    · rename_i hg; cases h; exact .dcheckNo hth hg
  | dlink o ms =>
    cases ms with
    | nil => cases h; exact .dlinkEnd hth
    | cons m ms =>
      simp only at h
      split at h
      · rename_i hf; cases h; exact .dlink hth hf
      · cases h
  | dend o =>
    cases o with
    | one f => cases h; exact .dend hth (by simp)
    | all => cases h; exact .dend hth (by simp)
    | dead f => cases h; exact .dendDead hth

/-- An invariant of all steps holds after every schedule. -/
theorem run_inv {e : Env} {P : St → Prop} (hs : ∀ t σ σ', Step e t σ σ' → P σ → P σ') :
    ∀ (sched : List Nat) {σ : St}, P σ → P (run e sched σ)
  | [], _, h => h
  | t :: ts, σ, h => by
    unfold run
    apply run_inv hs ts
    cases h' : step e t σ with
    | none => exact h
    | some σ' => exact hs t σ σ' (step_rel h') h

theorem run_append (e : Env) (ts us : List Nat) (σ : St) : run e (ts ++ us) σ = run e us (run e ts σ) := by
  induction ts generalizing σ with
  | nil => rfl
  | cons t ts ih => simp [run, ih]

section
variable (σ : St) (t : Nat) (c : Ctl) (st : List Frame) (ev : Ev) (x : Sig) (l : Option (Nat × Nat)) (s : Nat) (k : List Slot)
@[simp] theorem to_locks : (σ.to t c st).locks = σ.locks := rfl
@[simp] theorem to_gslots : (σ.to t c st).gslots = σ.gslots := rfl
@[simp] theorem to_slots : (σ.to t c st).slots = σ.slots := rfl
@[simp] theorem to_cur : (σ.to t c st).cur = σ.cur := rfl
@[simp] theorem to_thr : (σ.to t c st).thr = set σ.thr t ⟨c, st⟩ := rfl
@[simp] theorem to_log : (σ.to t c st).log = σ.log := rfl
@[simp] theorem to_n : (σ.to t c st).n = σ.n := rfl
@[simp] theorem note_locks : (σ.note ev).locks = σ.locks := rfl
@[simp] theorem note_gslots : (σ.note ev).gslots = σ.gslots := rfl
@[simp] theorem note_slots : (σ.note ev).slots = σ.slots := rfl
@[simp] theorem note_cur : (σ.note ev).cur = σ.cur := rfl
@[simp] theorem note_thr : (σ.note ev).thr = σ.thr := rfl
@[simp] theorem note_log : (σ.note ev).log = σ.log ++ [ev] := rfl
@[simp] theorem note_n : (σ.note ev).n = σ.n := rfl
@[simp] theorem lk_locks : (σ.lk x l).locks = set σ.locks x l := rfl
@[simp] theorem lk_gslots : (σ.lk x l).gslots = σ.gslots := rfl
@[simp] theorem lk_slots : (σ.lk x l).slots = σ.slots := rfl
@[simp] theorem lk_cur : (σ.lk x l).cur = σ.cur := rfl
@[simp] theorem lk_thr : (σ.lk x l).thr = σ.thr := rfl
@[simp] theorem lk_log : (σ.lk x l).log = σ.log := rfl
@[simp] theorem lk_n : (σ.lk x l).n = σ.n := rfl
@[simp] theorem sl_locks : (σ.sl s k).locks = σ.locks := rfl
@[simp] theorem sl_gslots : (σ.sl s k).gslots = σ.gslots := rfl
@[simp] theorem sl_slots : (σ.sl s k).slots = set σ.slots s k := rfl
@[simp] theorem sl_cur : (σ.sl s k).cur = σ.cur := rfl
@[simp] theorem sl_thr : (σ.sl s k).thr = σ.thr := rfl
@[simp] theorem sl_log : (σ.sl s k).log = σ.log := rfl
@[simp] theorem sl_n : (σ.sl s k).n = σ.n := rfl
end

/-! ## Which locks a thread has taken -/

/-- 1 if the two are the same signal. -/
def same (x y : Sig) : Nat := if y = x then 1 else 0

/-- How often does what the thread does next hold the lock of `x`? -/
def heldC (x : Sig) : Ctl → Nat
  | .prev s _ _ => same x (.sig s)
  | .setCur s _ _ _ => same x (.sig s)
  | .next l => same x (.sig l.s)
  | .asks l => same x (.sig l.s)
  | .gwait l _ => same x (.sig l.s)
  | .rest l => same x (.sig l.s)
  | .rel l => same x (.sig l.s)
  | .gprev l _ => same x (.sig l.s) + same x .grp
  | .gset l _ _ => same x (.sig l.s) + same x .grp
  | .gnext l _ _ _ => same x (.sig l.s) + same x .grp
  | .grest l _ => same x (.sig l.s) + same x .grp
  | .grel l => same x (.sig l.s) + same x .grp
  | .cadd _ => same x .grp
  | .ccheck _ => same x .grp
  | .clink _ _ => same x .grp
  | .crel _ => same x .grp
  | .drem (.dead _) => 0
  | .drem _ => same x .grp
  | .dcheck (.dead _) => 0
  | .dcheck _ => same x .grp
  | .dlink (.dead _) _ => 0
  | .dlink _ _ => same x .grp
  | .dend (.dead _) => 0
  | .dend _ => same x .grp
  | _ => 0

/-- How often a frame holds the lock of `x`. -/
def heldF (x : Sig) : Frame → Nat
  | .cont _ => 0
  | .loop l => same x (.sig l.s)
  | .gloop l _ _ _ => same x (.sig l.s) + same x .grp

/-- How often a stack holds the lock of `x`. -/
def heldS (x : Sig) : List Frame → Nat
  | [] => 0
  | f :: st => heldF x f + heldS x st

/-- How often a thread holds the lock of `x`. -/
def held (x : Sig) (th : Thread) : Nat := heldC x th.ctl + heldS x th.stack

/-- A lock is held by its owner, so many times as its count says. -/
def LockOk (l : Option (Nat × Nat)) (h : Nat → Nat) : Prop :=
  match l with
  | none => ∀ t, h t = 0
  | some (o, c) => 0 < c ∧ h o = c ∧ ∀ t, t ≠ o → h t = 0

theorem LockOk.acquire {l : Option (Nat × Nat)} {h h' : Nat → Nat} {t : Nat} {k : Nat × Nat} (hl : LockOk l h)
    (ha : acquire t l = some k) (h1 : h' t = h t + 1) (h2 : ∀ u, u ≠ t → h' u = h u) : LockOk (some k) h' := by
  cases l with
  | none =>
    cases ha
    refine ⟨by decide, ?_, fun u hu => ?_⟩
    · rw [h1, hl t]
    · rw [h2 u hu, hl u]
  | some q =>
    obtain ⟨o, c⟩ := q
    simp only [GrC.acquire] at ha
    split at ha
    · rename_i ho
      subst ho
      cases ha
      obtain ⟨_, k2, k3⟩ := hl
      exact ⟨by omega, by omega, fun u hu => by rw [h2 u hu, k3 u hu]⟩
    · cases ha

theorem LockOk.unlock {l : Option (Nat × Nat)} {h h' : Nat → Nat} {t : Nat} (hl : LockOk l h)
    (h1 : h t = h' t + 1) (h2 : ∀ u, u ≠ t → h' u = h u) : LockOk (unlock l) h' := by
  cases l with
  | none => have := hl t; omega
  | some q =>
    obtain ⟨o, c⟩ := q
    obtain ⟨k1, k2, k3⟩ := hl
    have ho : o = t := Classical.byContradiction fun hne => by have := k3 t (Ne.symm hne); omega
    subst ho
    match c with
    | 0 => omega
    | 1 =>
      intro u
      by_cases hu : u = o
      · subst hu; omega
      · rw [h2 u hu, k3 u hu]
    | c + 2 => exact ⟨by omega, by omega, fun u hu => by rw [h2 u hu, k3 u hu]⟩

theorem LockOk.same {l : Option (Nat × Nat)} {h h' : Nat → Nat} (hl : LockOk l h) (h1 : ∀ u, h' u = h u) : LockOk l h' := by
  have : h' = h := funext h1
  rw [this]; exact hl

/-- Every lock is held by its owner. -/
def Locks (σ : St) : Prop := ∀ x, LockOk (σ.locks x) (fun u => held x (σ.thr u))

theorem Locks.excl {σ : St} (h : Locks σ) {x : Sig} {t u : Nat} (ht : 0 < held x (σ.thr t)) (hu : 0 < held x (σ.thr u)) :
    t = u := by
  have h := h x
  cases hl : σ.locks x with
  | none => rw [hl] at h; have := h t; simp only at this; omega
  | some q =>
    rw [hl] at h
    obtain ⟨o, c⟩ := q
    obtain ⟨_, _, k3⟩ := h
    have h1 : t = o := Classical.byContradiction fun hne => by have := k3 t hne; simp only at this; omega
    have h2 : u = o := Classical.byContradiction fun hne => by have := k3 u hne; simp only at this; omega
    rw [h1, h2]

/-- A thread that can get a lock: nobody else holds it. -/
theorem Locks.free {σ : St} (h : Locks σ) {x : Sig} {t u : Nat} (hf : free t (σ.locks x) = true)
    (hu : 0 < held x (σ.thr u)) : u = t := by
  have h := h x
  cases hl : σ.locks x with
  | none => rw [hl] at h; have := h u; simp only at this; omega
  | some q =>
    rw [hl] at h hf
    obtain ⟨o, c⟩ := q
    obtain ⟨_, _, k3⟩ := h
    simp only [GrC.free, GrC.acquire] at hf
    split at hf
    · rename_i ho
      subst ho
      exact Classical.byContradiction fun hne => by have := k3 u hne; simp only at this; omega
    · simp at hf

theorem free_of_acquire {t : Nat} {l : Option (Nat × Nat)} {k : Nat × Nat} (h : acquire t l = some k) : free t l = true := by
  simp [free, h]

theorem held_thr {x : Sig} {σ : St} {t : Nat} {c : Ctl} {st : List Frame} (h : σ.thr t = ⟨c, st⟩) :
    held x (σ.thr t) = heldC x c + heldS x st := by rw [h]; rfl

theorem locks_step {e : Env} {t : Nat} {σ σ' : St} (h : Step e t σ σ') (hl : Locks σ) : Locks σ' := by
  intro x
  have hx := hl x
  have hset : ∀ (th : Thread), (∀ u, u ≠ t → held x (set σ.thr t th u) = held x (σ.thr u)) ∧
      held x (set σ.thr t th t) = heldC x th.ctl + heldS x th.stack :=
    fun th => ⟨fun u hu => by rw [set_other hu], by rw [set_same]; rfl⟩
  have stay : ∀ {c : Ctl} {st : List Frame}, heldC x c + heldS x st = held x (σ.thr t) →
      LockOk (σ.locks x) (fun u => held x (set σ.thr t ⟨c, st⟩ u)) := by
    intro c st hc
    refine hx.same (fun u => ?_)
    by_cases hu : u = t
    · subst hu; rw [(hset _).2]; exact hc
    · exact (hset _).1 u hu
  have acq : ∀ {c : Ctl} {st : List Frame} {y : Sig} {k : Nat × Nat}, acquire t (σ.locks y) = some k →
      heldC x c + heldS x st = held x (σ.thr t) + same x y →
      LockOk (set σ.locks y (some k) x) (fun u => held x (set σ.thr t ⟨c, st⟩ u)) := by
    intro c st y k ha hc
    by_cases hxy : x = y
    · subst hxy
      rw [set_same]
      refine hx.acquire ha ?_ (hset _).1
      simp only [(hset _).2, hc, same, if_true]
    · rw [set_other hxy]
      exact stay (by rw [hc]; simp [same, Ne.symm hxy])
  have rel : ∀ {c : Ctl} {st : List Frame} {y : Sig}, held x (σ.thr t) = heldC x c + heldS x st + same x y →
      LockOk (set σ.locks y (unlock (σ.locks y)) x) (fun u => held x (set σ.thr t ⟨c, st⟩ u)) := by
    intro c st y hc
    by_cases hxy : x = y
    · subst hxy
      rw [set_same]
      refine hx.unlock ?_ (hset _).1
      simp only [(hset _).2, hc, same, if_true]
    · rw [set_other hxy]
      exact stay (by rw [hc]; simp [same, Ne.symm hxy])
  cases h with
  | wait h ha => exact acq ha (by rw [held_thr h]; simp [heldC]; omega)
  | gwait h ha => exact acq ha (by rw [held_thr h]; simp [heldC]; omega)
  | cwait h ha => exact acq ha (by rw [held_thr h]; simp [heldC]; omega)
  | @dwait o st k h ho ha =>
    cases o with
    | one f => exact acq ha (by rw [held_thr h]; simp [heldC]; omega)
    | all => exact acq ha (by rw [held_thr h]; simp [heldC]; omega)
    | dead f => exact absurd rfl (ho f)
  | grel h => exact rel (by rw [held_thr h]; simp [heldC]; omega)
  | rel h => exact rel (by rw [held_thr h]; simp [heldC]; omega)
  | crel h => exact rel (by rw [held_thr h]; simp [heldC]; omega)
  | @dend o st h ho =>
    cases o with
    | one f => exact rel (by rw [held_thr h]; simp [heldC]; omega)
    | all => exact rel (by rw [held_thr h]; simp [heldC]; omega)
    | dead f => exact absurd rfl (ho f)
  | drem h ho => rcases ho with rfl | rfl <;> exact stay (by rw [held_thr h]; simp [heldC])
  | dremNo h ho => rcases ho with rfl | rfl <;> exact stay (by rw [held_thr h]; simp [heldC])
  | @dcheck o _ h => cases o <;> exact stay (by rw [held_thr h]; simp [heldC])
  | @dcheckNo o _ h => cases o <;> exact stay (by rw [held_thr h]; simp [heldC])
  | @dlinkEnd o _ h => cases o <;> exact stay (by rw [held_thr h]; simp [heldC])
  | @dlink o _ _ _ h => cases o <;> exact stay (by rw [held_thr h]; simp [heldC])
  | _ h => exact stay (by rw [held_thr h]; simp [heldC, heldS, heldF] <;> omega)

end Psygnal.GrC
