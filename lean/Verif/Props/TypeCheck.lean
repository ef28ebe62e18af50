import Verif.Py
import Verif.TypeCheckLemmas

/-! # C60: type checking on connect and on emit

For a signal `Signal(*ts)`, all class hierarchies `sub` and all programs. -/
namespace Psygnal.TC

theorem nargs_iff {ts : List Ann} {sig : List P} (hw : WFSig (sig.map P.param)) :
    (∃ m, nargs (build ts) sig = .ok m) ↔ ∃ k, k ≤ ts.length ∧ bindsPos (sig.map P.param) k = true := by
  have hlen : (build ts).length = ts.length := by simp [build]
  unfold nargs
  rw [posargRange_eq, hlen]
  by_cases hk : anyReqKw (sig.map P.param) = true
  · rw [if_pos hk]
    constructor
    · rintro ⟨m, h⟩; cases h
    · rintro ⟨k, _, h⟩
      rw [bindsPos_eq _ hw, hk] at h
      cases h.1
  · rw [if_neg hk]
    simp only
    by_cases hl : ts.length < cReq (sig.map P.param)
    · rw [if_pos hl]
      constructor
      · rintro ⟨m, h⟩; cases h
      · rintro ⟨k, h1, h2⟩
        rw [bindsPos_eq _ hw] at h2
        omega
    · rw [if_neg hl]
      refine ⟨fun _ => ⟨cReq (sig.map P.param), by omega, ?_⟩, fun _ => ⟨_, rfl⟩⟩
      rw [bindsPos_eq _ hw]
      exact ⟨by simpa using hk, by omega, .inr (by omega)⟩

theorem nargs_error {ts : List Ann} {sig : List P} {e : Err} (h : nargs (build ts) sig = .error e) : e = .value := by
  unfold nargs at h
  split at h
  · cases h; rfl
  · split at h <;> cases h
    rfl

/-- **C60 (connect).**  For types made of classes and unions: `connect(slot, check_nargs=True, check_types=True)` succeeds exactly if
some number of the signal's arguments binds to the slot and, for every annotated parameter (in order) that has a counterpart in the
signal, some class named by the annotation is a subclass of the counterpart's type.  It then adds the slot and nothing else;
otherwise it raises `ValueError`. -/
theorem C60_connect {sub : Nat → Nat → Bool} {ts : List Ann} {sig : List P} {s : St} (hw : WFSig (sig.map P.param))
    (hsig : ∀ f ∈ sig, f.ann ≠ .empty → ∃ l, f.ann.hint = some l ∧ l.Plain) (hts : ∀ r ∈ ts, r.Plain) :
    ((∃ m, connect sub (build ts) sig true true s = .ok { s with slots := s.slots ++ [⟨sig, m⟩] }) ↔
      (∃ k, k ≤ ts.length ∧ bindsPos (sig.map P.param) k = true) ∧
      ∀ (i : Nat) (f : P) (r : Ann), sig[i]? = some f → ts[i]? = some r → f.ann ≠ .empty →
        ∃ l t n, f.ann.hint = some l ∧ r = .ty t ∧ l.names n ∧ t.has sub n) ∧
    ((∃ m, connect sub (build ts) sig true true s = .ok { s with slots := s.slots ++ [⟨sig, m⟩] }) ∨
      connect sub (build ts) sig true true s = .error .value) := by
  obtain ⟨b, h1, h2⟩ := match_plain (sub := sub) (fs := sig) (ss := build ts) hsig (by
    intro x hx
    unfold build at hx
    obtain ⟨r, hr, rfl⟩ := List.mem_map.mp hx
    exact hts r hr)
  have h2' : b = true ↔ ∀ (i : Nat) (f : P) (r : Ann), sig[i]? = some f → ts[i]? = some r → f.ann ≠ .empty →
        ∃ l t n, f.ann.hint = some l ∧ r = .ty t ∧ l.names n ∧ t.has sub n := by
    rw [h2]
    constructor
    · intro h i f r hf hr
      exact h i f ⟨⟨.posOnly, false⟩, r⟩ hf (by simp [build, hr])
    · intro h i f x hf hx
      unfold build at hx
      rw [List.getElem?_map] at hx
      cases hr : ts[i]? with
      | none => rw [hr] at hx; cases hx
      | some r =>
        rw [hr] at hx
        cases hx
        exact h i f r hf hr
  rw [← nargs_iff (ts := ts) hw, ← h2']
  unfold connect
  simp only [if_true]
  rw [h1]
  cases hn : nargs (build ts) sig with
  | error e =>
    rw [nargs_error hn]
    refine ⟨⟨fun ⟨m, h⟩ => (by cases h), fun ⟨⟨m, h⟩, _⟩ => (by cases h)⟩, .inr rfl⟩
  | ok m =>
    cases b with
    | false => exact ⟨⟨fun ⟨m, h⟩ => (by cases h), fun ⟨_, h⟩ => (by cases h)⟩, .inr rfl⟩
    | true => exact ⟨⟨fun _ => ⟨⟨m, rfl⟩, rfl⟩, fun _ => ⟨m, rfl⟩⟩, .inl ⟨m, rfl⟩⟩

/-- **C60 (emit).**  For types made of classes and unions: a signal that is not blocked lets `emit(*args, check_nargs=True,
check_types=True)` through exactly if there are as many arguments as types and each is an instance of its type; then all slots
are called, or, if the signal is paused, the emission is kept for later.  Otherwise it raises `TypeError`. -/
theorem C60_emit {sub : Nat → Nat → Bool} {ts : List Ann} {args : List V} {s : St} (hb : s.blocked = false) (hts : ∀ r ∈ ts, r.Plain) :
    ((args.length = ts.length ∧ ∀ (i : Nat) (a : V) (r : Ann), args[i]? = some a → ts[i]? = some r → ∃ t, r = .ty t ∧ t.has sub a.cls) →
      emit sub (build ts) args true true s = .ok (if s.paused then { s with queue := s.queue ++ [args] }
        else { s with calls := s.calls ++ s.slots.mapIdx (fun i x => (i, x.given args)) })) ∧
    (¬ (args.length = ts.length ∧ ∀ (i : Nat) (a : V) (r : Ann), args[i]? = some a → ts[i]? = some r → ∃ t, r = .ty t ∧ t.has sub a.cls) →
      emit sub (build ts) args true true s = .error .type) := by
  obtain ⟨b, h1, h2⟩ := match_plain (sub := sub) (fs := build (args.map (fun a => .ty (.cls a.cls)))) (ss := build ts) (by
    intro x hx _
    unfold build at hx
    obtain ⟨r, hr, rfl⟩ := List.mem_map.mp hx
    obtain ⟨a, _, rfl⟩ := List.mem_map.mp hr
    exact ⟨_, rfl, trivial⟩) (by
    intro x hx
    unfold build at hx
    obtain ⟨r, hr, rfl⟩ := List.mem_map.mp hx
    exact hts r hr)
  have hall : b = true ↔ ∀ (i : Nat) (a : V) (r : Ann), args[i]? = some a → ts[i]? = some r → ∃ t, r = .ty t ∧ t.has sub a.cls := by
    rw [h2]
    constructor
    · intro h i a r ha hr
      obtain ⟨l, t, n, h3, h4, h5, h6⟩ := h i ⟨⟨.posOnly, false⟩, .ty (.cls a.cls)⟩ ⟨⟨.posOnly, false⟩, r⟩ (by simp [build, ha])
        (by simp [build, hr]) (by intro h; cases h)
      cases h3
      cases h5
      exact ⟨t, h4, h6⟩
    · intro h i f x hf hx
      unfold build at hx hf
      rw [List.getElem?_map] at hx hf
      cases hr : ts[i]? with
      | none => rw [hr] at hx; cases hx
      | some r =>
        rw [hr] at hx
        cases hx
        rw [List.getElem?_map] at hf
        cases ha : args[i]? with
        | none => rw [ha] at hf; cases hf
        | some a =>
          rw [ha] at hf
          cases hf
          obtain ⟨t, h3, h4⟩ := h i a r ha hr
          exact fun _ => ⟨_, t, a.cls, rfl, h3, rfl, h4⟩
  have hlen := bindsPos_build ts args.length
  unfold emit
  simp only [hb, Bool.false_eq_true, if_false, if_true, true_and]
  rw [h1]
  constructor
  · rintro ⟨hl, h⟩
    rw [if_neg (by rw [hlen.mpr hl]; simp), hall.mpr h]
    simp only
    split
    · rfl
    · simp [deliver, hb]
  · intro h
    by_cases hl : args.length = ts.length
    · rw [if_neg (by rw [hlen.mpr hl]; simp)]
      cases b with
      | false => rfl
      | true => exact absurd ⟨hl, hall.mp rfl⟩ h
    · rw [if_pos (by
        cases hx : bindsPos ((build ts).map P.param) args.length with
        | false => rfl
        | true => exact absurd (hlen.mp hx) hl)]

/-- **C60 (blocked).**  A blocked signal checks nothing. -/
theorem C60_blocked {sub : Nat → Nat → Bool} {ts : List Ann} {args : List V} {s : St} (hb : s.blocked = true) (cn ct : Bool) :
    emit sub (build ts) args cn ct s = .ok s := by
  unfold emit
  rw [if_pos hb]

/-- **C60 (what callbacks get).**  After every program that checks number and types whenever it connects and emits, whatever else it
does: every call binds to the signature of the slot; every argument is an instance of the signal's type; and the annotation of
the parameter it is bound to, if it is a positional one with annotation, names a subclass of that type. -/
theorem C60_calls {sub : Nat → Nat → Bool} {ts : List Ann} {ops : List Op} {c : Nat} {args : List V}
    (h1 : ∀ sig cn ct, Op.connect sig cn ct ∈ ops → cn = true ∧ ct = true ∧ WFSig (sig.map P.param))
    (h2 : ∀ args cn ct, Op.emit args cn ct ∈ ops → cn = true ∧ ct = true)
    (hc : (c, args) ∈ (run sub (build ts) ops {}).calls) :
    ∃ x, (run sub (build ts) ops {}).slots[c]? = some x ∧ bindsPos (x.sig.map P.param) args.length = true ∧
      ∀ (i : Nat) (a : V), args[i]? = some a → ∃ t, ts[i]? = some (.ty t) ∧ t.has sub a.cls ∧
        ∀ p, target x.sig i = some p → p.param.isPos = true → p.ann ≠ .empty → ∃ l n, p.ann.hint = some l ∧ l.names n ∧ t.has sub n := by
  have hinv : Inv sub ts (run sub (build ts) ops {}) := inv_run (fun sig cn ct h => ⟨(h1 sig cn ct h).1, (h1 sig cn ct h).2.1⟩) h2
    ⟨by simp, by simp, by simp⟩
  have hwf : ∀ x ∈ (run sub (build ts) ops {}).slots, WFSig (x.sig.map P.param) := by
    have key : ∀ (ops : List Op) (s : St), (∀ sig cn ct, Op.connect sig cn ct ∈ ops → WFSig (sig.map P.param)) →
        (∀ x ∈ s.slots, WFSig (x.sig.map P.param)) → ∀ x ∈ (run sub (build ts) ops s).slots, WFSig (x.sig.map P.param) := by
      intro ops
      induction ops with
      | nil => intro s _ h; exact h
      | cons o ops ih =>
        intro s ho h
        unfold run
        have ih' := fun s' => ih s' (fun sig cn ct hm => ho sig cn ct (by simp [hm]))
        cases hs : step sub (build ts) o s with
        | error e => exact ih' _ h
        | ok s' =>
          refine ih' _ ?_
          cases o with
          | connect sig cn ct =>
            have hs : TC.connect sub (build ts) sig cn ct s = .ok s' := hs
            unfold TC.connect at hs
            split at hs
            · cases hs
            split at hs <;> cases hs
            intro x hx
            simp only [List.mem_append, List.mem_singleton] at hx
            rcases hx with hx | rfl
            · exact h x hx
            · exact ho sig cn ct (by simp)
          | emit args cn ct =>
            have hs : TC.emit sub (build ts) args cn ct s = .ok s' := hs
            unfold TC.emit at hs
            split at hs
            · cases hs; exact h
            split at hs
            · cases hs
            split at hs <;> try cases hs
            split at hs <;> cases hs <;> exact h
          | block => cases hs; exact h
          | unblock => cases hs; exact h
          | pause => cases hs; exact h
          | resume =>
            cases hs
            have : ∀ (q : List (List V)) (r : St), (q.foldl (fun r a => deliver a r) r).slots = r.slots := by
              intro q
              induction q with
              | nil => intro r; rfl
              | cons a q ih => intro r; rw [List.foldl_cons, ih]; rfl
            unfold TC.resume
            simp only
            rw [this]
            exact h
    exact key ops {} (fun sig cn ct h => (h1 sig cn ct h).2.2) (by simp)
  obtain ⟨x, full, hx, hg, he⟩ := hinv.calls _ hc
  have hxm := List.mem_of_getElem? hx
  have hcon := hinv.slots x hxm
  have hw := hwf x hxm
  simp only at he
  refine ⟨x, hx, ?_, ?_⟩
  · have hn := hcon.nargs
    unfold nargs at hn
    rw [posargRange_eq] at hn
    by_cases hk : anyReqKw (x.sig.map P.param) = true
    · rw [if_pos hk] at hn; cases hn
    rw [if_neg hk] at hn
    simp only at hn
    split at hn
    · cases hn
    rename_i hlt
    have hlen : (build ts).length = ts.length := by simp [build]
    rw [hlen] at hlt
    rw [bindsPos_eq _ hw, he]
    refine ⟨by simpa using hk, ?_⟩
    have hl := hg.len
    unfold Slot.given
    by_cases hv : anyVar (x.sig.map P.param) = true
    · rw [if_pos hv] at hn
      injection hn with hn
      rw [← hn]
      exact ⟨by simp only; omega, .inl hv⟩
    · rw [if_neg hv] at hn
      injection hn with hn
      rw [← hn]
      simp only [List.length_take]
      exact ⟨by omega, .inr (by omega)⟩
  · intro i a ha
    have hfull : full[i]? = some a := by
      rw [he] at ha
      unfold Slot.given at ha
      split at ha
      · exact ha
      · rw [List.getElem?_take] at ha
        split at ha
        · exact ha
        · cases ha
    have hi : i < ts.length := by
      have := (List.getElem?_eq_some_iff.mp hfull).1
      have := hg.len
      omega
    obtain ⟨t, h3, h4⟩ := hg.inst i a ts[i] hfull (List.getElem?_eq_getElem hi)
    refine ⟨t, by rw [List.getElem?_eq_getElem hi, h3], h4, ?_⟩
    intro p hp hpos hne
    have h5 := target_pos hw hp hpos
    obtain ⟨l, t', n, h6, h7, h8, h9⟩ := match_true hcon.types h5 (s := ⟨⟨.posOnly, false⟩, ts[i]⟩) (by simp [build, hi]) hne
    simp only at h7
    rw [h3] at h7
    cases h7
    exact ⟨l, n, h6, h8, h9⟩

/-- **C60 (callbacks get what they are annotated with; partial).**  Hence every positional parameter gets an instance of its annotation,
if the annotation is at least as wide as the signal's type, or that type is a class without other subclasses.  Missing: otherwise
false (`C60_narrow_refuted`, `C60_union_refuted`), and `*args` is not checked beyond its first argument (`C60_varargs_refuted`). -/
theorem C60_typed_partial {sub : Nat → Nat → Bool} {ts : List Ann} {ops : List Op} {c : Nat} {args : List V}
    (h1 : ∀ sig cn ct, Op.connect sig cn ct ∈ ops → cn = true ∧ ct = true ∧ WFSig (sig.map P.param))
    (h2 : ∀ args cn ct, Op.emit args cn ct ∈ ops → cn = true ∧ ct = true)
    (hc : (c, args) ∈ (run sub (build ts) ops {}).calls) {x : Slot} (hx : (run sub (build ts) ops {}).slots[c]? = some x)
    {i : Nat} {a : V} {p : P} {l : Ty} (ha : args[i]? = some a) (hp : target x.sig i = some p) (hpos : p.param.isPos = true)
    (hl : p.ann.hint = some l)
    (hwide : (∀ t n, ts[i]? = some (.ty t) → t.has sub n → l.has sub n) ∨
      ∃ k, ts[i]? = some (.ty (.cls k)) ∧ (∀ n, sub n k = true ↔ n = k)) : l.has sub a.cls := by
  obtain ⟨x', hx', _, hcall⟩ := C60_calls h1 h2 hc
  rw [hx] at hx'
  cases hx'
  obtain ⟨t, h3, h4, h5⟩ := hcall i a ha
  rcases hwide with hw | ⟨k, hk, hleaf⟩
  · exact hw t _ h3 h4
  · rw [hk] at h3
    cases h3
    obtain ⟨l', n, h6, h7, h8⟩ := h5 p hp hpos (by intro h; rw [h] at hl; cases hl)
    rw [hl] at h6
    cases h6
    have e1 := (hleaf _).mp h4
    have e2 := (hleaf _).mp h8
    rw [e1]
    rw [e2] at h7
    cases l with
    | special => cases h7
    | cls m =>
      cases h7
      exact (hleaf _).mpr rfl
    | union ms => exact ⟨_, h7, (hleaf _).mpr rfl⟩

/-- **C60 (same annotations).**  A slot without annotations, or with the types of the signal as annotations, passes the check of types. -/
theorem C60_same {sub : Nat → Nat → Bool} (hr : ∀ n, sub n n = true) {ts : List Ann} {sig : List P} {s : St}
    (hw : WFSig (sig.map P.param)) (hk : ∃ k, k ≤ ts.length ∧ bindsPos (sig.map P.param) k = true)
    (hts : ∀ r ∈ ts, r.Plain ∧ r ≠ .ty (.union []))
    (hsig : ∀ (i : Nat) (f : P), sig[i]? = some f → f.ann = .empty ∨ ts[i]? = some f.ann) :
    ∃ m, connect sub (build ts) sig true true s = .ok { s with slots := s.slots ++ [⟨sig, m⟩] } := by
  refine ((C60_connect hw ?_ (fun r h => (hts r h).1)).1).mpr ⟨hk, ?_⟩
  · intro f hf hne
    obtain ⟨i, hi, rfl⟩ := List.mem_iff_getElem.mp hf
    rcases hsig i _ (List.getElem?_eq_getElem hi) with h | h
    · exact absurd h hne
    · obtain ⟨t, h1, h2⟩ := (hts _ (List.mem_of_getElem? h)).1
      exact ⟨t, by rw [h1]; rfl, h2⟩
  · intro i f r hf hri hne
    rcases hsig i f hf with h | h
    · exact absurd h hne
    · rw [hri] at h
      cases h
      obtain ⟨⟨t, h1, h2⟩, h3⟩ := hts _ (List.mem_of_getElem? hri)
      cases t with
      | special => cases h2
      | cls n => exact ⟨.cls n, .cls n, n, by rw [h1]; rfl, h1, rfl, hr n⟩
      | union ms =>
        cases ms with
        | nil => exact absurd h1 h3
        | cons m ms =>
          cases m with
          | none => exact absurd h2 (by simp [Ty.Plain])
          | some m => exact ⟨_, _, m, by rw [h1]; rfl, h1, by simp [Ty.names], ⟨m, by simp, hr m⟩⟩

/-! ## Examples -/

/-- 0 `object`, 1 `int`, 2 `bool`, 3 `str`. -/
def exSub (n m : Nat) : Bool := n == m || m == 0 || (n == 2 && m == 1)

/-- A positional parameter. -/
def exP (a : Ann) : P := ⟨⟨.posOrKw, false⟩, a⟩

/-- `f(x: int, y)`. -/
def exF : List P := [exP (.ty (.cls 1)), exP .empty]

/-- `Signal(int, str)`. -/
def exTs : List Ann := [.ty (.cls 1), .ty (.cls 3)]

/-- A program with two slots, an emission while paused, one that is refused. -/
def exOps : List Op := [.connect exF true true, .connect [exP (.str (some (.cls 1)))] true true, .connect [exP (.ty (.cls 3))] true true,
  .pause, .emit [⟨2, 7⟩, ⟨3, 8⟩] true true, .emit [⟨3, 7⟩, ⟨3, 8⟩] true true, .resume, .emit [⟨1, 9⟩, ⟨3, 9⟩] true true]

/-- A case for `C60_calls`. -/
example : (run exSub (build exTs) exOps {}).slots.length = 2 ∧ (run exSub (build exTs) exOps {}).calls =
    [(0, [⟨2, 7⟩, ⟨3, 8⟩]), (1, [⟨2, 7⟩]), (0, [⟨1, 9⟩, ⟨3, 9⟩]), (1, [⟨1, 9⟩])] := by decide

/-- Its hypotheses hold. -/
example : (∀ sig cn ct, Op.connect sig cn ct ∈ exOps → cn = true ∧ ct = true ∧ WFSig (sig.map P.param)) ∧
    (∀ args cn ct, Op.emit args cn ct ∈ exOps → cn = true ∧ ct = true) := by
  constructor
  · intro sig cn ct h
    simp only [exOps, List.mem_cons, Op.connect.injEq, reduceCtorEq, List.not_mem_nil, or_false] at h
    rcases h with ⟨rfl, rfl, rfl⟩ | ⟨rfl, rfl, rfl⟩ | ⟨rfl, rfl, rfl⟩ <;> simp [exF, exP, WFSig, Kind.phase, Param.isPos]
  · intro args cn ct h
    simp only [exOps, List.mem_cons, Op.emit.injEq, reduceCtorEq, List.not_mem_nil, or_false, false_or] at h
    rcases h with ⟨rfl, rfl, rfl⟩ | ⟨rfl, rfl, rfl⟩ | ⟨rfl, rfl, rfl⟩ <;> exact ⟨rfl, rfl⟩

/-- A case for `C60_typed_partial`: `int` is as wide as the signal's type. -/
example : target exF 0 = some (exP (.ty (.cls 1))) ∧ ∀ t n, exTs[0]? = some (.ty t) → t.has exSub n → (Ty.cls 1).has exSub n := by
  refine ⟨rfl, ?_⟩
  intro t n h1 h2
  cases h1
  exact h2

/-- A case for `C60_connect`, `C60_emit`, `C60_same`. -/
example : (∀ r ∈ exTs, r.Plain ∧ r ≠ .ty (.union [])) ∧ WFSig (exF.map P.param) ∧ bindsPos (exF.map P.param) 2 = true ∧
    (∀ f ∈ exF, f.ann ≠ .empty → ∃ l, f.ann.hint = some l ∧ l.Plain) := by
  refine ⟨?_, by simp [exF, exP, WFSig, Kind.phase, Param.isPos], rfl, ?_⟩
  · intro r hr
    simp only [exTs, List.mem_cons, List.not_mem_nil, or_false] at hr
    rcases hr with rfl | rfl
    · exact ⟨⟨_, rfl, trivial⟩, by decide⟩
    · exact ⟨⟨_, rfl, trivial⟩, by decide⟩
  · intro f hf hne
    simp only [exF, List.mem_cons, List.not_mem_nil, or_false] at hf
    rcases hf with rfl | rfl
    · exact ⟨_, rfl, trivial⟩
    · exact absurd rfl hne

/-! ## Where the code deviates -/

/-- **C60, refuted in general:** `check_types` compares the wrong way round.  A slot `f(x: bool)` may be connected to `Signal(int)`
and is called with an `int`; a slot `f(x: object)`, which could take every `int`, is refused. -/
theorem C60_narrow_refuted : (run exSub (build [.ty (.cls 1)]) [.connect [exP (.ty (.cls 2))] true true, .emit [⟨1, 5⟩] true true] {}).calls =
      [(0, [⟨1, 5⟩])] ∧ ¬ (Ty.cls 2).has exSub 1 ∧
    (∀ s, connect exSub (build [.ty (.cls 1)]) [exP (.ty (.cls 0))] true true s = .error .value) ∧
    (∀ n, (Ty.cls 1).has exSub n → (Ty.cls 0).has exSub n) := by
  refine ⟨by decide, by simp [Ty.has, exSub], fun s => rfl, ?_⟩
  intro n _
  simp [Ty.has, exSub]

/-- **C60, refuted in general:** a slot `f(x: Union[str, int])` may be connected to `Signal(str)`, a slot `f(x: int)` to
`Signal(Union[int, str])`; the latter is called with a `str`.  A slot `f(x: int | str)` raises `TypeError`. -/
theorem C60_union_refuted : (run exSub (build [.ty (.union [some 1, some 3])]) [.connect [exP (.ty (.cls 1))] true true, .emit [⟨3, 5⟩] true true] {}).calls =
      [(0, [⟨3, 5⟩])] ∧ ¬ (Ty.cls 1).has exSub 3 ∧
    (∀ sub t s, connect sub (build [t]) [exP (.ty .special)] true true s = .error .type) := by
  exact ⟨by decide, by simp [Ty.has, exSub], fun sub t s => rfl⟩

/-- **C60, refuted in general:** of `*args: int` only the first argument is checked: it gets a `str`; and a keyword-only parameter, which never
gets an argument, is compared with the type of one: `f(x: int, *, k: int = 0)` is refused by `Signal(int, str)`. -/
theorem C60_varargs_refuted : (run exSub (build exTs) [.connect [⟨⟨.varPos, false⟩, .ty (.cls 1)⟩] true true, .emit [⟨1, 5⟩, ⟨3, 5⟩] true true] {}).calls =
      [(0, [⟨1, 5⟩, ⟨3, 5⟩])] ∧ target [⟨⟨.varPos, false⟩, .ty (.cls 1)⟩] 1 = some ⟨⟨.varPos, false⟩, .ty (.cls 1)⟩ ∧
    (∀ s, connect exSub (build exTs) [exP (.ty (.cls 1)), ⟨⟨.kwOnly, true⟩, .ty (.cls 1)⟩] true true s = .error .value) := by
  exact ⟨by decide, by decide, fun s => rfl⟩

/-- **C60, refuted in general:** a signal declared with a signature without annotations refuses every annotated slot and every checked
emission with an argument; and without `check_nargs`, `check_types` lets arguments without type through. -/
theorem C60_empty_refuted : (∀ sub n s, connect sub [exP .empty] [exP (.ty (.cls n))] true true s = .error .value) ∧
    (∀ sub a s, s.blocked = false → emit sub [exP .empty] [a] true true s = .error .type) ∧
    (run exSub (build [.ty (.cls 1)]) [.connect [⟨⟨.varPos, false⟩, .empty⟩] true true, .emit [⟨1, 5⟩, ⟨3, 5⟩] false true] {}).calls =
      [(0, [⟨1, 5⟩, ⟨3, 5⟩])] := by
  refine ⟨fun sub n s => rfl, ?_, by decide⟩
  intro sub a s hb
  unfold emit
  rw [if_neg (by rw [hb]; simp)]
  rfl

/-- **C60 (blocked).**  Emissions between `block` and `unblock` leave no trace, whatever they check. -/
theorem C60_blocked_run {sub : Nat → Nat → Bool} {spec : List P} {ops more : List Op} {ems : List (List V × Bool × Bool)}
    (hb : (run sub spec ops {}).blocked = false) :
    run sub spec (ops ++ .block :: (ems.map fun e => .emit e.1 e.2.1 e.2.2) ++ .unblock :: more) {} = run sub spec (ops ++ more) {} ∧
    (run sub spec (ops ++ .block :: (ems.map fun e => .emit e.1 e.2.1 e.2.2)) {}).blocked = true := by
  have h : ∀ (ems : List (List V × Bool × Bool)) (s : St), s.blocked = true →
      run sub spec (ems.map fun e => .emit e.1 e.2.1 e.2.2) s = s := by
    intro ems
    induction ems with
    | nil => exact fun _ _ => rfl
    | cons e ems ih =>
      intro s hs
      simp only [List.map_cons, run, step, emit, if_pos hs]
      exact ih s hs
  have key : run sub spec (ops ++ .block :: (ems.map fun e => .emit e.1 e.2.1 e.2.2)) {} =
      { run sub spec ops {} with blocked := true } := by
    rw [run_app]
    exact h ems _ rfl
  refine ⟨?_, by rw [key]⟩
  rw [run_app, key, run_app]
  generalize run sub spec ops {} = s at hb
  show run sub spec more { s with blocked := false } = _
  rw [← hb]

/-- **C60 (paused).**  A pause only postpones: what is emitted between `pause` and `resume` is checked when it is emitted, and the
callbacks are called as without the pause. -/
theorem C60_paused_run {sub : Nat → Nat → Bool} {spec : List P} {ops more : List Op} {ems : List (List V × Bool × Bool)}
    (hp : (run sub spec ops {}).paused = false) :
    run sub spec (ops ++ .pause :: (ems.map fun e => .emit e.1 e.2.1 e.2.2) ++ .resume :: more) {} =
      run sub spec (ops ++ (ems.map fun e => .emit e.1 e.2.1 e.2.2) ++ more) {} ∧
    (run sub spec (ops ++ .pause :: (ems.map fun e => .emit e.1 e.2.1 e.2.2)) {}).calls = (run sub spec ops {}).calls := by
  have hq := run_idle (sub := sub) (spec := spec) ops (s := {}) (fun _ => rfl) hp
  generalize hs : run sub spec ops {} = s at hp hq
  have key : ∀ (ems : List (List V × Bool × Bool)) (s t : St), t.paused = true → t.blocked = s.blocked → t.slots = s.slots →
      s.paused = false → s.queue = [] → resume t = s →
      resume (run sub spec (ems.map fun e => .emit e.1 e.2.1 e.2.2) t) = run sub spec (ems.map fun e => .emit e.1 e.2.1 e.2.2) s ∧
      (run sub spec (ems.map fun e => .emit e.1 e.2.1 e.2.2) t).calls = t.calls := by
    intro ems
    induction ems with
    | nil => exact fun s t _ _ _ _ _ h => ⟨h, rfl⟩
    | cons e ems ih =>
      intro s t h1 h2 h3 h4 h5 h6
      rcases emit_cases sub spec e.1 e.2.1 e.2.2 s t h2 with ⟨ha, hb⟩ | ⟨x, ha, hb⟩ | ⟨ha, hb⟩
      · simp only [List.map_cons, run, step, ha, hb]
        exact ih s t h1 h2 h3 h4 h5 h6
      · simp only [List.map_cons, run, step, ha, hb]
        exact ih s t h1 h2 h3 h4 h5 h6
      · simp only [List.map_cons, run, step, ha, hb, h1, h4, if_true]
        refine ih (deliver e.1 s) { t with paused := true, queue := t.queue ++ [e.1] } rfl h2 h3 h4 h5 ?_
        simp only [resume, List.foldl_append, List.foldl_cons, List.foldl_nil] at h6 ⊢
        rw [← h6, deliver_queue t.queue (t.queue ++ [e.1]) { t with paused := false }]
        rfl
  have hr : resume { s with paused := true } = s := by
    simp only [resume, hq, List.foldl_nil]
    rw [← hp, ← hq]
  have k := key ems s { s with paused := true } rfl rfl rfl hp hq hr
  constructor
  · rw [run_app, run_app, run_app, run_app, hs]
    show run sub spec more (resume (run sub spec _ { s with paused := true })) = _
    rw [k.1]
  · rw [run_app, hs]
    exact k.2

example : ∃ (ops more : List Op) (ems : List (List V × Bool × Bool)), (run exSub (build exTs) ops {}).blocked = false ∧
    (run exSub (build exTs) ops {}).paused = false ∧
    (run exSub (build exTs) (ops ++ .pause :: (ems.map fun e => .emit e.1 e.2.1 e.2.2)) {}).queue = [[⟨1, 5⟩, ⟨3, 6⟩]] ∧
    (run exSub (build exTs) (ops ++ (ems.map fun e => .emit e.1 e.2.1 e.2.2) ++ more) {}).calls =
      [(0, [⟨1, 5⟩, ⟨3, 6⟩]), (0, [⟨1, 7⟩, ⟨3, 8⟩])] :=
  ⟨[.connect [⟨⟨.varPos, false⟩, .ty (.cls 1)⟩] true true], [.emit [⟨1, 7⟩, ⟨3, 8⟩] true true],
    [([⟨1, 5⟩, ⟨3, 6⟩], true, true), ([⟨3, 5⟩], true, true)], by decide, by decide, by decide, by decide⟩

end Psygnal.TC
