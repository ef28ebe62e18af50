import Verif.TypeCheck
import Verif.SigLemmas

/-! # Lemmas about type checking (for C60) -/
namespace Psygnal.TC

/-- Specification: `issubclass(n, t)`, the values of class `n` are instances of the type `t` (`isinstance`, PEP 484). -/
def Ty.has (sub : Nat → Nat → Bool) (n : Nat) : Ty → Prop
  | .cls m => sub n m = true
  | .union ms => ∃ m, some m ∈ ms ∧ sub n m = true
  | .special => False

/-- Specification: the classes that a type names. -/
def Ty.names (n : Nat) : Ty → Prop
  | .cls m => n = m
  | .union ms => some n ∈ ms
  | .special => False

/-- Specification: a type made of classes only. -/
def Ty.Plain : Ty → Prop
  | .cls _ => True
  | .union ms => none ∉ ms
  | .special => False

/-- Specification: what an annotation says. -/
def Ann.hint : Ann → Option Ty
  | .empty => none
  | .ty t => some t
  | .str t => t

/-- Specification: an annotation (of a signal) made of classes only. -/
def Ann.Plain (a : Ann) : Prop := ∃ t, a = .ty t ∧ t.Plain

/-- Specification: which parameter gets the `i`-th positional argument (Python). -/
def target : List P → Nat → Option P
  | [], _ => none
  | p :: ps, i => match p.param.kind with
    | .posOnly | .posOrKw => match i with
      | 0 => some p
      | i + 1 => target ps i
    | .varPos => some p
    | .kwOnly | .varKw => target ps i

theorem subR_true {sub : Nat → Nat → Bool} {n : Nat} {r : Ann} (h : subR sub n r = .ok true) : ∃ t, r = .ty t ∧ t.has sub n := by
  cases r with
  | empty => cases h
  | str t => cases h
  | ty t =>
    refine ⟨t, rfl, ?_⟩
    cases t with
    | special => cases h
    | cls m => simpa [subR, Ty.has] using h
    | union ms =>
      unfold subR at h
      unfold Ty.has
      induction ms with
      | nil => cases h
      | cons m ms ih =>
        cases m with
        | none => cases h
        | some m =>
          simp only [List.foldr_cons] at h
          by_cases hs : sub n m = true
          · exact ⟨m, by simp, hs⟩
          · rw [if_neg hs] at h
            obtain ⟨k, h1, h2⟩ := ih h
            exact ⟨k, by simp [h1], h2⟩

theorem subR_plain {sub : Nat → Nat → Bool} {n : Nat} {t : Ty} (hp : t.Plain) :
    ∃ b, subR sub n (.ty t) = .ok b ∧ (b = true ↔ t.has sub n) := by
  cases t with
  | special => cases hp
  | cls m => exact ⟨_, rfl, Iff.rfl⟩
  | union ms =>
    unfold subR Ty.has
    unfold Ty.Plain at hp
    induction ms with
    | nil => exact ⟨false, rfl, by simp⟩
    | cons m ms ih =>
      cases m with
      | none => simp at hp
      | some m =>
        simp only [List.foldr_cons]
        by_cases hs : sub n m = true
        · rw [if_pos hs]
          exact ⟨true, rfl, by simp only [true_iff]; exact ⟨m, by simp, hs⟩⟩
        · rw [if_neg hs]
          obtain ⟨b, h1, h2⟩ := ih (by intro h; exact hp (by simp [h]))
          refine ⟨b, h1, h2.trans ?_⟩
          constructor
          · rintro ⟨k, h3, h4⟩; exact ⟨k, by simp [h3], h4⟩
          · rintro ⟨k, h3, h4⟩
            simp only [List.mem_cons, Option.some.injEq] at h3
            rcases h3 with rfl | h3
            · exact absurd h4 hs
            · exact ⟨k, h3, h4⟩

theorem isSub_true {sub : Nat → Nat → Bool} {l : Ty} {r : Ann} (h : isSub sub l r = .ok true) :
    ∃ n t, l.names n ∧ r = .ty t ∧ t.has sub n := by
  cases l with
  | special => cases h
  | cls n =>
    obtain ⟨t, h1, h2⟩ := subR_true h
    exact ⟨n, t, rfl, h1, h2⟩
  | union ms =>
    unfold isSub at h
    unfold Ty.names
    simp only at h
    induction ms with
    | nil => cases h
    | cons m ms ih =>
      cases m with
      | none => cases h
      | some m =>
        simp only [List.foldr_cons] at h
        cases hs : subR sub m r with
        | error e => rw [hs] at h; cases h
        | ok b =>
          rw [hs] at h
          cases b with
          | true =>
            obtain ⟨t, h1, h2⟩ := subR_true hs
            exact ⟨m, t, by simp, h1, h2⟩
          | false =>
            obtain ⟨n, t, h1, h2⟩ := ih h
            exact ⟨n, t, by simp [h1], h2⟩

theorem isSub_plain {sub : Nat → Nat → Bool} {l t : Ty} (hl : l.Plain) (ht : t.Plain) :
    ∃ b, isSub sub l (.ty t) = .ok b ∧ (b = true ↔ ∃ n, l.names n ∧ t.has sub n) := by
  cases l with
  | special => cases hl
  | cls n =>
    obtain ⟨b, h1, h2⟩ := subR_plain (sub := sub) (n := n) ht
    exact ⟨b, h1, h2.trans ⟨fun h => ⟨n, rfl, h⟩, fun ⟨k, hk, h⟩ => by cases hk; exact h⟩⟩
  | union ms =>
    unfold isSub Ty.names
    unfold Ty.Plain at hl
    simp only
    induction ms with
    | nil => exact ⟨false, rfl, by simp⟩
    | cons m ms ih =>
      cases m with
      | none => simp at hl
      | some m =>
        simp only [List.foldr_cons]
        obtain ⟨b, h1, h2⟩ := subR_plain (sub := sub) (n := m) ht
        obtain ⟨b', h3, h4⟩ := ih (by intro h; exact hl (by simp [h]))
        rw [h1]
        cases b with
        | true => exact ⟨true, rfl, by simp only [true_iff]; exact ⟨m, by simp, h2.mp rfl⟩⟩
        | false =>
          refine ⟨b', h3, h4.trans ?_⟩
          constructor
          · rintro ⟨k, h5, h6⟩; exact ⟨k, by simp [h5], h6⟩
          · rintro ⟨k, h5, h6⟩
            simp only [List.mem_cons, Option.some.injEq] at h5
            rcases h5 with rfl | h5
            · cases h2.mpr h6
            · exact ⟨k, h5, h6⟩

/-- What an annotated parameter and the parameter of the signal at the same place have to do with each other. -/
def Fits (sub : Nat → Nat → Bool) (f s : P) : Prop :=
  f.ann ≠ .empty → ∃ l t n, f.ann.hint = some l ∧ s.ann = .ty t ∧ l.names n ∧ t.has sub n

theorem match_true {sub : Nat → Nat → Bool} : ∀ {fs ss : List P}, typesMatch sub fs ss = .ok true →
    ∀ {i : Nat} {f s : P}, fs[i]? = some f → ss[i]? = some s → Fits sub f s
  | [], _, _, i, f, s, h1, _ => by simp at h1
  | _ :: _, [], _, i, f, s, _, h2 => by simp at h2
  | f :: fs, s :: ss, h, i, f', s', h1, h2 => by
    have key : (f.ann = .empty ∨ ∃ l, f.ann.hint = some l ∧ isSub sub l s.ann = .ok true) ∧ typesMatch sub fs ss = .ok true := by
      unfold typesMatch at h
      cases ha : f.ann with
      | empty => rw [ha] at h; exact ⟨.inl rfl, h⟩
      | str t =>
        rw [ha] at h
        cases t with
        | none => cases h
        | some t =>
          simp only at h
          cases hs : isSub sub t s.ann with
          | error e => rw [hs] at h; cases h
          | ok b =>
            rw [hs] at h
            cases b with
            | false => cases h
            | true => exact ⟨.inr ⟨t, rfl, hs⟩, h⟩
      | ty t =>
        rw [ha] at h
        simp only at h
        cases hs : isSub sub t s.ann with
        | error e => rw [hs] at h; cases h
        | ok b =>
          rw [hs] at h
          cases b with
          | false => cases h
          | true => exact ⟨.inr ⟨t, rfl, hs⟩, h⟩
    cases i with
    | zero =>
      simp only [List.getElem?_cons_zero, Option.some.injEq] at h1 h2
      subst h1
      subst h2
      intro hne
      rcases key.1 with h0 | ⟨l, hl, hs⟩
      · exact absurd h0 hne
      · obtain ⟨n, t, h3, h4, h5⟩ := isSub_true hs
        exact ⟨l, t, n, hl, h4, h3, h5⟩
    | succ i =>
      simp only [List.getElem?_cons_succ] at h1 h2
      exact match_true key.2 h1 h2

theorem match_plain {sub : Nat → Nat → Bool} : ∀ {fs ss : List P}, (∀ f ∈ fs, f.ann ≠ .empty → ∃ l, f.ann.hint = some l ∧ l.Plain) →
    (∀ s ∈ ss, s.ann.Plain) → ∃ b, typesMatch sub fs ss = .ok b ∧
      (b = true ↔ ∀ (i : Nat) (f s : P), fs[i]? = some f → ss[i]? = some s → Fits sub f s)
  | [], ss, _, _ => ⟨true, by simp [typesMatch], by simp⟩
  | _ :: _, [], _, _ => ⟨true, by simp [typesMatch], by simp⟩
  | f :: fs, s :: ss, hf, hs => by
    obtain ⟨b, h1, h2⟩ := match_plain (sub := sub) (fs := fs) (ss := ss) (fun f h => hf f (by simp [h])) (fun s h => hs s (by simp [h]))
    obtain ⟨t, ht, htp⟩ := hs s (by simp)
    have step : ∀ b0, (b0 = true ↔ Fits sub f s) →
        ((if b0 then b else false) = true ↔ ∀ (i : Nat) (f' s' : P), (f :: fs)[i]? = some f' → (s :: ss)[i]? = some s' → Fits sub f' s') := by
      intro b0 h0
      constructor
      · intro hb i f' s' hf' hs'
        cases b0 with
        | false => cases hb
        | true =>
          cases i with
          | zero =>
            simp only [List.getElem?_cons_zero, Option.some.injEq] at hf' hs'
            subst hf'
            subst hs'
            exact h0.mp rfl
          | succ i => exact h2.mp hb i f' s' (by simpa using hf') (by simpa using hs')
      · intro hall
        rw [h0.mpr (hall 0 f s rfl rfl), if_pos rfl]
        exact h2.mpr fun i f' s' hf' hs' => hall (i + 1) f' s' (by simpa using hf') (by simpa using hs')
    have withTy : ∀ l, f.ann.hint = some l → f.ann ≠ .empty → ∃ b', (match isSub sub l s.ann with
        | .ok true => typesMatch sub fs ss
        | e => e) = .ok b' ∧ (b' = true ↔ ∀ (i : Nat) (f' s' : P), (f :: fs)[i]? = some f' → (s :: ss)[i]? = some s' → Fits sub f' s') := by
      intro l hl hne
      obtain ⟨l', hl', hlp⟩ := hf f (by simp) hne
      rw [hl] at hl'
      cases hl'
      obtain ⟨b0, h3, h4⟩ := isSub_plain (sub := sub) hlp htp
      rw [ht, h3]
      refine ⟨if b0 then b else false, ?_, step b0 ?_⟩
      · cases b0
        · rfl
        · exact h1
      · rw [h4]
        constructor
        · rintro ⟨n, h5, h6⟩ _
          exact ⟨l, t, n, hl, ht, h5, h6⟩
        · intro h
          obtain ⟨l', t', n, h5, h6, h7, h8⟩ := h hne
          rw [hl] at h5
          rw [ht] at h6
          cases h5
          cases h6
          exact ⟨n, h7, h8⟩
    unfold typesMatch
    cases ha : f.ann with
    | empty =>
      refine ⟨b, h1, ?_⟩
      have := step true (by simp [Fits, ha])
      simpa using this
    | str o =>
      cases o with
      | none =>
        obtain ⟨l, hl, _⟩ := hf f (by simp) (by rw [ha]; intro h; cases h)
        rw [ha] at hl
        cases hl
      | some l => exact withTy l (by rw [ha]; rfl) (by rw [ha]; intro h; cases h)
    | ty l => exact withTy l (by rw [ha]; rfl) (by rw [ha]; intro h; cases h)

/-! ## Which parameter gets an argument -/

theorem target_pos : ∀ {sig : List P} {i : Nat} {p : P}, WFSig (sig.map P.param) → target sig i = some p → p.param.isPos = true →
    sig[i]? = some p
  | [], _, _, _, h, _ => by cases h
  | q :: ps, i, p, hw, h, hp => by
    unfold target at h
    have hrest : ∀ (k : Kind), q.param.kind = k → 2 ≤ k.phase → target ps i = some p → False := by
      intro k hk h2 ht
      have hno : ∀ (l : List P) (j : Nat), (∀ x ∈ l, 2 ≤ x.param.kind.phase) → ∀ y, target l j = some y → 2 ≤ y.param.kind.phase := by
        intro l
        induction l with
        | nil => intro j _ y hy; cases hy
        | cons x l ih =>
          intro j hl y hy
          have hx := hl x (by simp)
          unfold target at hy
          cases hkx : x.param.kind <;> rw [hkx] at hy hx <;> simp only at hy
          · simp [Kind.phase] at hx
          · simp [Kind.phase] at hx
          · cases hy; rw [hkx]; exact hx
          · exact ih j (fun z hz => hl z (by simp [hz])) y hy
          · exact ih j (fun z hz => hl z (by simp [hz])) y hy
      have := hno ps i (fun x hx => by
        have := hw.1 x.param (List.mem_map_of_mem hx)
        rw [hk] at this
        omega) p ht
      unfold Param.isPos at hp
      cases hkp : p.param.kind <;> rw [hkp] at hp this <;> simp [Kind.phase] at this hp
    cases hk : q.param.kind <;> rw [hk] at h <;> simp only at h
    · cases i with
      | zero => simpa using h
      | succ i => simpa using target_pos hw.2.2.2.2 h hp
    · cases i with
      | zero => simpa using h
      | succ i => simpa using target_pos hw.2.2.2.2 h hp
    · cases h
      simp [Param.isPos, hk] at hp
    · exact absurd h (fun h => hrest _ hk (by decide) h)
    · exact absurd h (fun h => hrest _ hk (by decide) h)

/-! ## Programs -/

/-- Arguments that an emission with both checks lets through. -/
structure Good (sub : Nat → Nat → Bool) (ts : List Ann) (args : List V) : Prop where
  len : args.length = ts.length
  inst : ∀ (i : Nat) (a : V) (r : Ann), args[i]? = some a → ts[i]? = some r → ∃ t, r = .ty t ∧ t.has sub a.cls

/-- A slot that was connected with both checks. -/
structure Conn (sub : Nat → Nat → Bool) (ts : List Ann) (x : Slot) : Prop where
  nargs : TC.nargs (build ts) x.sig = .ok x.maxArgs
  types : typesMatch sub x.sig (build ts) = .ok true

/-- What holds after every program with both checks everywhere. -/
structure Inv (sub : Nat → Nat → Bool) (ts : List Ann) (s : St) : Prop where
  slots : ∀ x ∈ s.slots, Conn sub ts x
  queue : ∀ q ∈ s.queue, Good sub ts q
  calls : ∀ c ∈ s.calls, ∃ x full, s.slots[c.1]? = some x ∧ Good sub ts full ∧ c.2 = x.given full

theorem bindsPos_build : ∀ (ts : List Ann) (k : Nat), bindsPos ((build ts).map P.param) k = true ↔ k = ts.length
  | [], k => by simp [build, bindsPos]
  | t :: ts, k => by
    have ih := bindsPos_build ts
    cases k with
    | zero => simp [build, bindsPos]
    | succ k => simpa [build, bindsPos] using ih k

theorem good_of {sub : Nat → Nat → Bool} {ts : List Ann} {args : List V} (h1 : bindsPos ((build ts).map P.param) args.length = true)
    (h2 : typesMatch sub (build (args.map (fun a => .ty (.cls a.cls)))) (build ts) = .ok true) : Good sub ts args := by
  refine ⟨(bindsPos_build ts _).mp h1, ?_⟩
  intro i a r ha hr
  have := match_true h2 (i := i) (f := ⟨⟨.posOnly, false⟩, .ty (.cls a.cls)⟩) (s := ⟨⟨.posOnly, false⟩, r⟩)
    (by simp [build, ha]) (by simp [build, hr]) (by intro h; cases h)
  obtain ⟨l, t, n, h3, h4, h5, h6⟩ := this
  cases h3
  cases h5
  exact ⟨t, h4, h6⟩

theorem inv_deliver {sub : Nat → Nat → Bool} {ts : List Ann} {s : St} {args : List V} (h : Inv sub ts s) (hg : Good sub ts args) :
    Inv sub ts (deliver args s) := by
  refine ⟨h.slots, h.queue, ?_⟩
  intro c hc
  unfold deliver at hc
  simp only [List.mem_append] at hc
  rcases hc with hc | hc
  · exact h.calls c hc
  · rw [List.mem_mapIdx] at hc
    obtain ⟨i, hi, rfl⟩ := hc
    exact ⟨s.slots[i], args, by simp [deliver], hg, rfl⟩

theorem inv_resume {sub : Nat → Nat → Bool} {ts : List Ann} {s : St} (h : Inv sub ts s) : Inv sub ts (TC.resume s) := by
  have key : ∀ (q : List (List V)) (r : St), (∀ x ∈ q, Good sub ts x) → Inv sub ts r → Inv sub ts (q.foldl (fun r a => deliver a r) r) := by
    intro q
    induction q with
    | nil => intro r _ hr; exact hr
    | cons a q ih =>
      intro r hq hr
      exact ih _ (fun x hx => hq x (by simp [hx])) (inv_deliver hr (hq a (by simp)))
  have := key s.queue { s with paused := false } h.queue ⟨h.slots, h.queue, h.calls⟩
  unfold TC.resume
  exact ⟨this.slots, by simp, this.calls⟩

theorem inv_step {sub : Nat → Nat → Bool} {ts : List Ann} {s s' : St} {o : Op} (h : Inv sub ts s)
    (ho : ∀ sig cn ct, o = .connect sig cn ct → cn = true ∧ ct = true) (ho' : ∀ args cn ct, o = .emit args cn ct → cn = true ∧ ct = true)
    (hs : step sub (build ts) o s = .ok s') : Inv sub ts s' := by
  cases o with
  | connect sig cn ct =>
    obtain ⟨rfl, rfl⟩ := ho _ _ _ rfl
    have hs : TC.connect sub (build ts) sig true true s = .ok s' := hs
    unfold TC.connect at hs
    simp only [if_true] at hs
    cases hn : nargs (build ts) sig with
    | error e => rw [hn] at hs; cases hs
    | ok m =>
      rw [hn] at hs
      simp only at hs
      cases ht : typesMatch sub sig (build ts) with
      | error e => rw [ht] at hs; cases hs
      | ok b =>
        rw [ht] at hs
        cases b with
        | false => cases hs
        | true =>
          cases hs
          refine ⟨?_, h.queue, ?_⟩
          · intro x hx
            simp only [List.mem_append, List.mem_singleton] at hx
            rcases hx with hx | rfl
            · exact h.slots x hx
            · exact ⟨hn, ht⟩
          · intro c hc
            obtain ⟨x, full, h1, h2, h3⟩ := h.calls c hc
            refine ⟨x, full, ?_, h2, h3⟩
            rw [List.getElem?_append_left]
            · exact h1
            · exact (List.getElem?_eq_some_iff.mp h1).1
  | emit args cn ct =>
    obtain ⟨rfl, rfl⟩ := ho' _ _ _ rfl
    have hs : TC.emit sub (build ts) args true true s = .ok s' := hs
    unfold TC.emit at hs
    split at hs
    · cases hs; exact h
    split at hs
    · cases hs
    rename_i hb
    simp only [if_true] at hs
    cases ht : typesMatch sub (build (args.map (fun a => .ty (.cls a.cls)))) (build ts) with
    | error e => rw [ht] at hs; cases hs
    | ok b =>
      rw [ht] at hs
      cases b with
      | false => cases hs
      | true =>
        have hg : Good sub ts args := good_of (by
          cases hx : bindsPos ((build ts).map P.param) args.length with
          | true => rfl
          | false => exact absurd ⟨rfl, hx⟩ hb) ht
        simp only at hs
        split at hs
        · cases hs
          refine ⟨h.slots, ?_, h.calls⟩
          intro q hq
          simp only [List.mem_append, List.mem_singleton] at hq
          rcases hq with hq | rfl
          · exact h.queue q hq
          · exact hg
        · cases hs
          exact inv_deliver h hg
  | block => cases hs; exact ⟨h.slots, h.queue, h.calls⟩
  | unblock => cases hs; exact ⟨h.slots, h.queue, h.calls⟩
  | pause => cases hs; exact ⟨h.slots, h.queue, h.calls⟩
  | resume => cases hs; exact inv_resume h

theorem inv_run {sub : Nat → Nat → Bool} {ts : List Ann} : ∀ {ops : List Op} {s : St},
    (∀ sig cn ct, Op.connect sig cn ct ∈ ops → cn = true ∧ ct = true) → (∀ args cn ct, Op.emit args cn ct ∈ ops → cn = true ∧ ct = true) →
    Inv sub ts s → Inv sub ts (run sub (build ts) ops s)
  | [], _, _, _, h => h
  | o :: ops, s, h1, h2, h => by
    unfold run
    have hr := fun s' => inv_run (sub := sub) (ts := ts) (ops := ops) (s := s') (fun sig cn ct hm => h1 sig cn ct (by simp [hm]))
      (fun args cn ct hm => h2 args cn ct (by simp [hm]))
    cases hs : step sub (build ts) o s with
    | error e => exact hr _ h
    | ok s' =>
      exact hr _ (inv_step h (fun sig cn ct he => h1 sig cn ct (by simp [he])) (fun args cn ct he => h2 args cn ct (by simp [he])) hs)

theorem run_app {sub : Nat → Nat → Bool} {spec : List P} : ∀ (a b : List Op) (s : St),
    run sub spec (a ++ b) s = run sub spec b (run sub spec a s)
  | [], _, _ => rfl
  | o :: a, b, s => by
    simp only [List.cons_append, run]
    split <;> exact run_app a b _

/-- What `emit` does in two states that are blocked alike: nothing, or it raises, or it takes the arguments. -/
theorem emit_cases (sub : Nat → Nat → Bool) (spec : List P) (args : List V) (cn ct : Bool) (s t : St) (h : t.blocked = s.blocked) :
    (emit sub spec args cn ct s = .ok s ∧ emit sub spec args cn ct t = .ok t) ∨
    (∃ x, emit sub spec args cn ct s = .error x ∧ emit sub spec args cn ct t = .error x) ∨
    (emit sub spec args cn ct s = (if s.paused then .ok { s with queue := s.queue ++ [args] } else .ok (deliver args s)) ∧
      emit sub spec args cn ct t = (if t.paused then .ok { t with queue := t.queue ++ [args] } else .ok (deliver args t))) := by
  unfold emit
  rw [h]
  by_cases hb : s.blocked = true
  · exact .inl ⟨by rw [if_pos hb], by rw [if_pos hb]⟩
  · simp only [if_neg hb]
    by_cases hn : cn ∧ bindsPos (spec.map P.param) args.length = false
    · exact .inr (.inl ⟨_, by rw [if_pos hn], by rw [if_pos hn]⟩)
    · simp only [if_neg hn]
      cases (if ct then typesMatch sub (build (args.map (fun a => .ty (.cls a.cls)))) spec else .ok true) with
      | error e => exact .inr (.inl ⟨_, rfl, rfl⟩)
      | ok b => cases b with
        | false => exact .inr (.inl ⟨_, rfl, rfl⟩)
        | true => exact .inr (.inr ⟨rfl, rfl⟩)

/-- A signal that is not paused has nothing collected. -/
theorem run_idle {sub : Nat → Nat → Bool} {spec : List P} : ∀ (ops : List Op) {s : St}, (s.paused = false → s.queue = []) →
    (run sub spec ops s).paused = false → (run sub spec ops s).queue = []
  | [], _, h => h
  | o :: ops, s, h => by
    simp only [run]
    split
    · rename_i s' hs
      refine run_idle ops ?_
      cases o with
      | connect sig cn ct =>
        simp only [step, connect] at hs
        repeat' split at hs
        all_goals cases hs
        exact h
      | emit args cn ct =>
        simp only [step] at hs
        rcases emit_cases sub spec args cn ct s s rfl with ⟨ha, -⟩ | ⟨x, ha, -⟩ | ⟨ha, -⟩
        · rw [ha] at hs; cases hs; exact h
        · rw [ha] at hs; cases hs
        · rw [ha] at hs
          split at hs <;> cases hs
          · rename_i hp; exact fun e => by simp_all
          · exact h
      | block => cases hs; exact h
      | unblock => cases hs; exact h
      | pause => cases hs; exact fun e => by cases e
      | resume => cases hs; exact fun _ => rfl
    · exact run_idle ops h

theorem deliver_queue : ∀ (l q : List (List V)) (s : St),
    l.foldl (fun r a => deliver a r) { s with queue := q } = { l.foldl (fun r a => deliver a r) s with queue := q }
  | [], _, _ => rfl
  | a :: l, q, s => deliver_queue l q (deliver a s)

end Psygnal.TC
