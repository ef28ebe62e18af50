import Verif.Py
import Verif.DirectLemmas

/-! # C75: connecting directly to the signals of a group; strict groups

For all class hierarchies, `str`, callbacks and programs. -/
namespace Psygnal.Direct

open Psygnal.TC (P Ann Err)

/-- Classes defined one after the other, each a subclass of the one before (the first of `SignalGroup`): the signals of each, and whether
it is strict.  `none` if one of them is refused. -/
def chain (env : Env) : List (List (Nat × Sig) × Bool) → Cls → Option Cls
  | [], c => some c
  | (own, strict) :: ds, c => (define env c own strict).bind (chain env ds)

/-- The signal of that name: of the last class that has one, and there the last one. -/
def signalOf (ds : List (List (Nat × Sig) × Bool)) (k : Nat) : Option Sig := (ds.flatMap (·.1)).reverse.lookup k

/-- Signals that show the same types in the same order. -/
def SameTypes (env : Env) (a b : Sig) : Prop := a.spec.map (fun p => env.str p.ann) = b.spec.map (fun p => env.str p.ann)

theorem chain_signals {env : Env} : ∀ (ds : List (List (Nat × Sig) × Bool)) (c c' : Cls), (c.signals.map (·.1)).Nodup →
    chain env ds c = some c' → (c'.signals.map (·.1)).Nodup ∧
      ∀ k, c'.signals.lookup k = ((ds.flatMap (·.1)).reverse ++ c.signals).lookup k
  | [], c, c', hn, h => by
    cases h
    exact ⟨hn, fun k => rfl⟩
  | (own, strict) :: ds, c, c', hn, h => by
    simp only [chain] at h
    rw [Option.bind_eq_some_iff] at h
    obtain ⟨c1, h1, h2⟩ := h
    have hc1 : c1.signals = merge c.signals own := by
      unfold define at h1
      dsimp only at h1
      split at h1
      · cases h1
      · cases h1; rfl
    obtain ⟨h3, h4⟩ := chain_signals ds c1 c' (by rw [hc1]; exact merge_keys _ _ hn) h2
    refine ⟨h3, fun k => ?_⟩
    rw [h4 k, hc1, List.lookup_append, merge_lookup, List.flatMap_cons, List.reverse_append, List.append_assoc,
      ← List.lookup_append]

theorem uniform_iff {env : Env} {d : List (Nat × Sig)} (hn : (d.map (·.1)).Nodup) :
    isUniform env.str (d.map (·.2)) = true ↔
    ∀ j k a b, d.lookup j = some a → d.lookup k = some b → SameTypes env a b := by
  rw [isUniform_iff]
  constructor
  · intro h j k a b ha hb
    exact h a (List.mem_map.2 ⟨_, (lookup_mem_iff hn).2 ha, rfl⟩) b (List.mem_map.2 ⟨_, (lookup_mem_iff hn).2 hb, rfl⟩)
  · intro h a ha b hb
    obtain ⟨⟨j, a⟩, ha1, rfl⟩ := List.mem_map.1 ha
    obtain ⟨⟨k, b⟩, hb1, rfl⟩ := List.mem_map.1 hb
    exact h j k a b ((lookup_mem_iff hn).1 ha1) ((lookup_mem_iff hn).1 hb1)

/-- **C75 (strict groups).**  After any definitions `ds`: a class with the signals `own` is created with `strict=True` exactly if all its
signals, also those it inherits, show the same types; without `strict` it is always created, and `psygnals_uniform()` tells. -/
theorem C75_strict {env : Env} {ds : List (List (Nat × Sig) × Bool)} {c : Cls} (h : chain env ds {} = some c)
    (own : List (Nat × Sig)) :
    ((define env c own true).isSome = true ↔
      ∀ j k a b, signalOf (ds ++ [(own, true)]) j = some a → signalOf (ds ++ [(own, true)]) k = some b → SameTypes env a b) ∧
    ∃ c', define env c own false = some c' ∧ (c'.psygnalsUniform = true ↔
      ∀ j k a b, signalOf (ds ++ [(own, false)]) j = some a → signalOf (ds ++ [(own, false)]) k = some b → SameTypes env a b) := by
  obtain ⟨hn, hl⟩ := chain_signals ds {} c (by simp) h
  have hm := merge_keys own c.signals hn
  have key : ∀ (st : Bool) k, (merge c.signals own).lookup k = signalOf (ds ++ [(own, st)]) k := by
    intro st k
    rw [merge_lookup, List.lookup_append, hl]
    simp only [signalOf, List.flatMap_append, List.flatMap_cons, List.flatMap_nil, List.append_nil, List.reverse_append]
    rw [List.lookup_append]
  have hu := uniform_iff (env := env) hm
  constructor
  · simp only [← key]
    rw [← hu]
    unfold define
    dsimp only
    cases isUniform env.str ((merge c.signals own).map (·.2)) <;> simp
  · refine ⟨⟨merge c.signals own, isUniform env.str ((merge c.signals own).map (·.2))⟩, by simp [define], ?_⟩
    simp only [← key]
    exact hu

theorem no_of {f : Nat} {l : List Slot} (h : ∀ x ∈ l, x.base ≠ .fn f) : has (.fn f) l = false := by
  simp only [has, List.any_eq_false, decide_eq_true_eq]
  exact h

/-- **C75 (undoing).**  A callback that is connected nowhere in the group is connected with `connect_direct` — which may succeed or
fail, also half-way —, then any program runs that does not mention it, and finally `group.disconnect` is called with it.  The
connections are then exactly those after the program alone, and so is everything that has happened, except for the calls of that
callback. -/
theorem C75_undo {env : Env} {f : Nat} {a : CArgs} {s : St} (hm : ∀ m ∈ s.mems, ∀ x ∈ m.slots, x.base ≠ .fn f)
    (ho : ∀ x ∈ s.own, x.base ≠ .fn f) {ops : List Op} (hops : ∀ o ∈ ops, o.cb ≠ some f) :
    ∃ l r, (run env ops s).log = s.log ++ l ∧
      others f (run env ([.direct f a] ++ ops ++ [.off (some f) true]) s).log = others f s.log ++ [.done r] ++ l ++ [.done none] ∧
      (run env ([.direct f a] ++ ops ++ [.off (some f) true]) s).mems = (run env ops s).mems ∧
      (run env ([.direct f a] ++ ops ++ [.off (some f) true]) s).own = (run env ops s).own := by
  obtain ⟨os, h1, -⟩ := direct_rel (env := env) (a := a) s.mems (fun m h => no_of (hm m h))
  have hrel : Rel f os s (step env s (.direct f a)) := ⟨h1, rfl, no_of ho⟩
  obtain ⟨os', l, l', h2, h3, h4, h5, -⟩ := run_rel (env := env) ops hrel hops
  have hrun : run env ([.direct f a] ++ ops ++ [.off (some f) true]) s =
      step env (run env ops (step env s (.direct f a))) (.off (some f) true) := by
    simp [run, List.foldl_append]
  have hoff := off_rel h2.mems
  have hact : act env (.off (some f) true) (run env ops (step env s (.direct f a))) =
      ({ run env ops (step env s (.direct f a)) with mems := (run env ops s).mems }, none) := by
    simp only [act, groupDisconnect, hoff, h2.own, h2.no]
    simp
  have hstep : step env (run env ops (step env s (.direct f a))) (.off (some f) true) =
      { run env ops (step env s (.direct f a)) with
        mems := (run env ops s).mems, log := (run env ops (step env s (.direct f a))).log ++ [.done none] } := by
    rw [step, hact]
  refine ⟨l, (act env (.direct f a) s).2, h3, ?_, ?_, ?_⟩
  · rw [hrun, hstep]
    dsimp only
    rw [h4, others_append, others_append, h5]
    have : (step env s (.direct f a)).log = s.log ++ [.done (act env (.direct f a) s).2] := rfl
    rw [this, others_append]
    rfl
  · rw [hrun, hstep]
  · rw [hrun, hstep]
    exact h2.own

/-- **C75 (`unique`).**  Connecting a callback with `connect_direct` that all members have: with `unique=True` nothing happens; with
`unique="raise"` it is an error, and nothing is connected.  A callback that no member has is connected as without `unique`. -/
theorem C75_unique {env : Env} {f : Nat} {s : St} :
    (∀ a : CArgs, (∀ m ∈ s.mems, ∃ x ∈ m.slots, x.base = .fn f) →
      act env (.direct f { a with uniq := .quiet }) s = (s, none) ∧
      (s.mems ≠ [] → act env (.direct f { a with uniq := .raise }) s = (s, some .value))) ∧
    (∀ (a : CArgs) (u : Uniq), (∀ m ∈ s.mems, ∀ x ∈ m.slots, x.base ≠ .fn f) →
      act env (.direct f { a with uniq := u }) s = act env (.direct f { a with uniq := .no }) s) := by
  refine ⟨fun a h => ?_, fun a u h => ?_⟩
  · have hh : ∀ m ∈ s.mems, has (.fn f) m.slots = true := by
      intro m hm
      simpa [has] using h m hm
    constructor
    · have : ∀ ms : List Mem, (∀ m ∈ ms, has (.fn f) m.slots = true) → directLoop env f { a with uniq := .quiet } ms = (ms, none) := by
        intro ms
        induction ms with
        | nil => exact fun _ => rfl
        | cons m ms ih =>
          intro h1
          have h2 : newSlot env m.sig m.slots f { a with uniq := .quiet } = .ok none := by
            rw [newSlot, if_pos ⟨by simp, h1 m (by simp)⟩, if_neg (by simp)]
          simp only [directLoop, Mem.connect, h2, ih (fun n hn => h1 n (by simp [hn]))]
      simp only [act, this s.mems hh]
    · intro hne
      obtain ⟨m, ms, hm⟩ := List.exists_cons_of_ne_nil hne
      have h2 : newSlot env m.sig m.slots f { a with uniq := .raise } = .error .value := by
        rw [newSlot, if_pos ⟨by simp, hh m (by simp [hm])⟩, if_pos rfl]
      simp only [act, hm, directLoop, Mem.connect, h2]
      rw [← hm]
  · have : ∀ ms : List Mem, (∀ m ∈ ms, ∀ x ∈ m.slots, x.base ≠ .fn f) →
        directLoop env f { a with uniq := u } ms = directLoop env f { a with uniq := .no } ms := by
      intro ms
      induction ms with
      | nil => exact fun _ => rfl
      | cons m ms ih =>
        intro h1
        have h2 : newSlot env m.sig m.slots f { a with uniq := u } = newSlot env m.sig m.slots f { a with uniq := .no } := by
          simp only [newSlot, no_of (h1 m (by simp)), Bool.false_eq_true, and_false, if_false]
        simp only [directLoop, Mem.connect, h2, ih (fun n hn => h1 n (by simp [hn]))]
    simp only [act, this s.mems h]

/-- The emissions of a program: the member, as it was in `s`, and the arguments. -/
def emissions (s : St) (ops : List Op) : List (Mem × List Nat) := ops.filterMap (fun o => match o with
  | .emit i args => (s.mems[i]?).map (fun m => (m, args))
  | _ => none)

/-- **C75 (calls).**  A callback that is connected nowhere in the group is connected with `connect_direct(f, check_nargs=True)`, which
succeeds, then any program runs that does not mention it and does not remove all slots.  Then the callback is called exactly once for
each emission of each member, in order, with the longest part of the arguments that it accepts (if there are as many arguments as the
signal has types, it accepts some). -/
theorem C75_calls {env : Env} {f : Nat} {a : CArgs} {s : St} (hw : WFSig ((env.sig f).map P.param))
    (hcn : a.cn = some true) (hma : a.maxArgs = none) (hm : ∀ m ∈ s.mems, ∀ x ∈ m.slots, x.base ≠ .fn f)
    (ho : ∀ x ∈ s.own, x.base ≠ .fn f) (hok : (act env (.direct f a) s).2 = none)
    {ops : List Op} (hops : ∀ o ∈ ops, o.cb ≠ some f) (hcl : ∀ o ∈ ops, o.clears = false) :
    ∃ l, (run env ops (step env s (.direct f a))).log = (step env s (.direct f a)).log ++ l ∧
      (callsOf f l).length = (emissions s ops).length ∧
      ∀ (k : Nat) (m : Mem) (args : List Nat) (g : List Arg), (emissions s ops)[k]? = some (m, args) → (callsOf f l)[k]? = some g →
        g <+: args.map .val ∧
        (∀ n, g.length < n → n ≤ args.length → bindsPos ((env.sig f).map P.param) n = false) ∧
        (m.sig.spec.length ≤ args.length → bindsPos ((env.sig f).map P.param) g.length = true) := by
  obtain ⟨os, h1, h1'⟩ := direct_rel (env := env) (a := a) s.mems (fun m h => no_of (hm m h))
  have hrel : Rel f os s (step env s (.direct f a)) := ⟨h1, rfl, no_of ho⟩
  obtain ⟨os', l, l', h2, h3, h4, h5, h6⟩ := run_rel (env := env) ops hrel hops
  obtain ⟨-, h7⟩ := h6 hcl
  have hall := h1' hok
  refine ⟨l', h4, ?_⟩
  rw [h7]
  clear h7 h6 h5 h4 h3 h2 hcl
  -- the slot of a member
  have hslot : ∀ (i : Nat) (m : Mem), s.mems[i]? = some m → ∃ x, os[i]? = some (some x) ∧
      ∃ lo hi, posargRange ((env.sig f).map P.param) = some (lo, hi) ∧ lo ≤ m.sig.spec.length ∧ x.maxArgs = hi := by
    intro i m him
    obtain ⟨x, hx, hn⟩ := hall i m him
    refine ⟨x, hx, ?_⟩
    have hno := no_of (hm m (List.mem_of_getElem? him))
    simp only [newSlot, hno, Bool.false_eq_true, and_false, if_false, hcn, Option.getD_some, hma, and_true, if_true] at hn
    cases hr : TC.nargs m.sig.spec (env.sig f) with
    | error e => rw [hr] at hn; simp at hn
    | ok y =>
      rw [hr] at hn
      have hxy : x.maxArgs = y := by
        dsimp only at hn
        split at hn
        · cases hn
        · cases hn
        · cases hn; rfl
      unfold TC.nargs at hr
      split at hr
      · cases hr
      · rename_i lo mx hlo
        split at hr
        · cases hr
        · rename_i hlt
          cases hr
          exact ⟨lo, _, hlo, by omega, hxy⟩
  induction ops with
  | nil => exact ⟨rfl, fun k m args g h => by simp [emissions] at h⟩
  | cons o ops ih =>
    have ih := ih (fun o' ho' => hops o' (by simp [ho']))
    cases o with
    | emit i args =>
      cases hmi : s.mems[i]? with
      | none =>
        have hos : os[i]? = none := by
          rcases h1.get i with ⟨g, -, -⟩ | ⟨_, _, _, -, g, -⟩
          · exact g
          · rw [hmi] at g; cases g
        have e1 : (Op.emit i args).hears os = [] := by simp [Op.hears, hos, oneCall]
        have e2 : emissions s (.emit i args :: ops) = emissions s ops := by simp [emissions, hmi]
        rw [List.flatMap_cons, e1, e2]
        exact ih
      | some m =>
        obtain ⟨x, hx, lo, mx, hr, hlo, hxm⟩ := hslot i m hmi
        have e1 : (Op.emit i args).hears os = [x.given (args.map .val)] := by simp [Op.hears, hx, oneCall]
        have e2 : emissions s (.emit i args :: ops) = (m, args) :: emissions s ops := by simp [emissions, hmi]
        rw [List.flatMap_cons, e1, e2]
        refine ⟨by simpa using ih.1, ?_⟩
        intro k m' args' g hk hg
        cases k with
        | succ k => exact ih.2 k m' args' g (by simpa using hk) (by simpa using hg)
        | zero =>
          cases hk
          cases hg
          rw [posargRange_eq] at hr
          split at hr
          · cases hr
          · rename_i hkw
            simp only [Bool.not_eq_true] at hkw
            cases hr
            unfold Slot.given
            rw [hxm]
            cases hv : anyVar ((env.sig f).map P.param) with
            | true =>
              simp only [if_true]
              refine ⟨List.prefix_rfl, fun n h1 h2 => ?_, fun hlen => ?_⟩
              · rw [List.length_map] at h1
                omega
              · rw [bindsPos_eq _ hw]
                exact ⟨hkw, by rw [List.length_map]; omega, .inl hv⟩
            | false =>
              simp only [Bool.false_eq_true, if_false]
              refine ⟨List.take_prefix _ _, fun n h1 h2 => ?_, fun hlen => ?_⟩
              · rw [List.length_take, List.length_map] at h1
                rw [← Bool.not_eq_true, bindsPos_eq _ hw]
                rintro ⟨-, h3, h4⟩
                rw [hv] at h4
                rcases h4 with h4 | h4
                · cases h4
                · omega
              · rw [bindsPos_eq _ hw, List.length_take, List.length_map]
                exact ⟨hkw, by omega, .inr (by omega)⟩
    | _ => exact ih

/-- **C75 (all or none; partial).**  A group class with uniform signals, none of whose types look the same without being the same; any
history.  `connect_direct(f, check_nargs=…, check_types=…)` then either adds the callback to all members, with the same number of
arguments, or raises and changes nothing.  What is missing: groups that are not uniform (`C75_half_refuted`), different types that look
the same (`C75_lookalike_refuted`), and leaving the choice to the signals (`C75_defaults_refuted`). -/
theorem C75_all_or_none_partial {env : Env} {ds : List (List (Nat × Sig) × Bool)} {c : Cls} (h : chain env ds {} = some c)
    (hne : ds ≠ []) (hu : c.psygnalsUniform = true)
    (hinj : ∀ e ∈ c.signals, ∀ e' ∈ c.signals, ∀ p ∈ e.2.spec, ∀ q ∈ e'.2.spec, env.str p.ann = env.str q.ann → p.ann = q.ann)
    {ops : List Op} {f : Nat} {cn ct : Bool} {ma : Option Nat} :
    let s := run env ops c.new
    let r := act env (.direct f { cn := some cn, ct := some ct, maxArgs := ma }) s
    (∃ x : Option Nat, r.1 = { s with mems := s.mems.map (fun m => { m with slots := m.slots ++ [⟨.fn f, x⟩] }) } ∧ r.2 = none) ∨
      ∃ e, r = (s, some e) := by
  intro s r
  have hsig : s.mems.map (·.sig) = c.signals.map (·.2) := by
    rw [run_sigs]
    simp [Cls.new, Function.comp_def]
  have huni : isUniform env.str (c.signals.map (·.2)) = true := by
    have key : ∀ (ds : List (List (Nat × Sig) × Bool)) (c0 c : Cls), (ds = [] → c0.uniform = isUniform env.str (c0.signals.map (·.2))) →
        chain env ds c0 = some c → c.uniform = isUniform env.str (c.signals.map (·.2)) := by
      intro ds
      induction ds with
      | nil =>
        intro c0 c h0 h
        cases h
        exact h0 rfl
      | cons d ds ih =>
        intro c0 c h0 h
        obtain ⟨own, st⟩ := d
        simp only [chain] at h
        rw [Option.bind_eq_some_iff] at h
        obtain ⟨c1, h1, h2⟩ := h
        refine ih c1 c (fun _ => ?_) h2
        unfold define at h1
        dsimp only at h1
        split at h1
        · cases h1
        · cases h1; rfl
    rw [← key ds {} c (fun h => absurd h hne) h]
    exact hu
  rw [isUniform_iff] at huni
  -- all members have the same annotations
  have hsame : ∀ m ∈ s.mems, ∀ n ∈ s.mems, m.sig.spec.map P.ann = n.sig.spec.map P.ann := by
    intro m hm n hn
    have hm' : m.sig ∈ c.signals.map (·.2) := by rw [← hsig]; exact List.mem_map.2 ⟨m, hm, rfl⟩
    have hn' : n.sig ∈ c.signals.map (·.2) := by rw [← hsig]; exact List.mem_map.2 ⟨n, hn, rfl⟩
    have h1 := huni _ hm' _ hn'
    obtain ⟨e, he, hem⟩ := List.mem_map.1 hm'
    obtain ⟨e', he', hen⟩ := List.mem_map.1 hn'
    have h2 := hinj e he e' he'
    rw [hem, hen] at h2
    clear hm' hn' he he' hem hen hm hn
    generalize m.sig.spec = xs at h1 h2
    generalize n.sig.spec = ys at h1 h2
    induction xs generalizing ys with
    | nil =>
      cases ys with
      | nil => rfl
      | cons y ys => simp at h1
    | cons x xs ih =>
      cases ys with
      | nil => simp at h1
      | cons y ys =>
        simp only [List.map_cons, List.cons.injEq] at h1 ⊢
        exact ⟨h2 x (by simp) y (by simp) h1.1, ih ys h1.2 (fun p hp q hq => h2 p (by simp [hp]) q (by simp [hq]))⟩
  -- so the outcome is the same for all
  have hty : ∀ (fs ss tt : List P), ss.map P.ann = tt.map P.ann → TC.typesMatch env.sub fs ss = TC.typesMatch env.sub fs tt := by
    intro fs
    induction fs with
    | nil => intro ss tt _; cases ss <;> cases tt <;> rfl
    | cons g fs ih =>
      intro ss tt hst
      cases ss with
      | nil =>
        cases tt with
        | nil => rfl
        | cons t tt => simp at hst
      | cons x ss =>
        cases tt with
        | nil => simp at hst
        | cons t tt =>
          simp only [List.map_cons, List.cons.injEq] at hst
          simp only [TC.typesMatch, hst.1, ih ss tt hst.2]
  have hnew : ∀ m ∈ s.mems, ∀ n ∈ s.mems, newSlot env m.sig m.slots f { cn := some cn, ct := some ct, maxArgs := ma } =
      newSlot env n.sig n.slots f { cn := some cn, ct := some ct, maxArgs := ma } := by
    intro m hm n hn
    have h1 := hsame m hm n hn
    have h2 : m.sig.spec.length = n.sig.spec.length := by simpa using congrArg List.length h1
    simp only [newSlot, ne_eq, not_true_eq_false, false_and, if_false, Option.getD_some, TC.nargs, h2, hty _ _ _ h1]
  have hloop : ∀ (x : Slot) (ms : List Mem), (∀ m ∈ ms,
      newSlot env m.sig m.slots f { cn := some cn, ct := some ct, maxArgs := ma } = .ok (some x)) →
      directLoop env f { cn := some cn, ct := some ct, maxArgs := ma } ms =
        (ms.map (fun m => { m with slots := m.slots ++ [x] }), none) := by
    intro x ms
    induction ms with
    | nil => exact fun _ => rfl
    | cons m ms ih =>
      intro hms
      have h1 := hms m (by simp)
      have h2 := ih (fun n hn => hms n (by simp [hn]))
      simp only [directLoop, Mem.connect, h1, h2, List.map_cons]
  have hr : r = ({ s with mems := (directLoop env f { cn := some cn, ct := some ct, maxArgs := ma } s.mems).1 },
      (directLoop env f { cn := some cn, ct := some ct, maxArgs := ma } s.mems).2) := rfl
  rw [hr]
  by_cases hnil : s.mems = []
  · exact .inl ⟨none, by rw [hnil]; exact ⟨rfl, rfl⟩⟩
  obtain ⟨m, ms, hmem⟩ := List.exists_cons_of_ne_nil hnil
  have hmm : m ∈ s.mems := by rw [hmem]; simp
  cases hres : newSlot env m.sig m.slots f { cn := some cn, ct := some ct, maxArgs := ma } with
  | error e =>
    refine .inr ⟨e, ?_⟩
    have : directLoop env f { cn := some cn, ct := some ct, maxArgs := ma } s.mems = (s.mems, some e) := by
      rw [hmem, directLoop, Mem.connect, hres]
    rw [this]
  | ok y =>
    cases y with
    | none =>
      simp only [newSlot, ne_eq, not_true_eq_false, false_and, if_false] at hres
      split at hres
      · cases hres
      · split at hres <;> cases hres
    | some x =>
      have hx : x = ⟨.fn f, x.maxArgs⟩ := by
        have := newSlot_base hres
        cases x
        simp only at this
        rw [this]
      refine .inl ⟨x.maxArgs, ?_⟩
      rw [hloop x s.mems (fun n hn => by rw [hnew n hn m hmm, hres]), ← hx]
      exact ⟨rfl, rfl⟩

namespace Ex

/-- Classes 0 = `int`, 1 = `str`, 2 = another class that is called `int` as well.  Callback 0 takes one argument, 1 takes two, 2 any
number, 3 is `f(x: int)`, 4 is `f(x, y=0)`. -/
def env : Env where
  sub := fun n m => n == m
  str := fun a => match a with
    | .ty (.cls 2) => 1
    | .ty (.cls n) => n + 1
    | _ => 0
  sig := fun f => match f with
    | 0 => [⟨⟨.posOrKw, false⟩, .empty⟩]
    | 1 => [⟨⟨.posOrKw, false⟩, .empty⟩, ⟨⟨.posOrKw, false⟩, .empty⟩]
    | 2 => [⟨⟨.varPos, false⟩, .empty⟩]
    | 3 => [⟨⟨.posOrKw, false⟩, .ty (.cls 0)⟩]
    | _ => [⟨⟨.posOrKw, false⟩, .empty⟩, ⟨⟨.posOrKw, true⟩, .empty⟩]
  info := 9

/-- `Signal(int)`, `Signal(int, int)`, `Signal(other int)`. -/
def one : Sig := { spec := TC.build [.ty (.cls 0)] }

/-- See `one`. -/
def two : Sig := { spec := TC.build [.ty (.cls 0), .ty (.cls 0)] }

/-- See `one`. -/
def other : Sig := { spec := TC.build [.ty (.cls 2)] }

end Ex

open Ex in
/-- Concrete case for `C75_strict`: a strict class, a subclass with a signal more; with `Signal(int, int)` it is refused if strict. -/
example : ∃ c c', chain env [([(0, one), (1, one)], true), ([(2, one)], false)] {} = some c ∧ c.psygnalsUniform = true ∧
    (define env c [(3, one)] true).isSome = true ∧ (define env c [(3, two)] true).isSome = false ∧
    define env c [(3, two)] false = some c' ∧ c'.psygnalsUniform = false ∧
    signalOf [([(0, one), (1, one)], true), ([(2, one)], false), ([(3, two), (0, two)], false)] 0 = some two := by
  exact ⟨_, _, rfl, rfl, rfl, rfl, rfl, rfl, rfl⟩

open Ex in
/-- Concrete case for `C75_undo` and `C75_calls`: the group has a listener (callback 2), member 0 has callback 0; callback 4 is
connected to both members, two emissions. -/
example : ∃ (s : St) (ops : List Op), s = run env [.group 2 {}, .member 0 0 {}] (Cls.new ⟨[(0, one), (1, two)], false⟩) ∧
    (∀ m ∈ s.mems, ∀ x ∈ m.slots, x.base ≠ .fn 4) ∧ (∀ x ∈ s.own, x.base ≠ .fn 4) ∧
    WFSig ((env.sig 4).map P.param) ∧
    (∀ o ∈ ops, o.cb ≠ some 4) ∧ (∀ o ∈ ops, o.clears = false) ∧
    (act env (.direct 4 { cn := some true }) s).2 = none ∧
    (run env ops (step env s (.direct 4 { cn := some true }))).log.drop 3 =
      [.call 2 [.info 0 [7]], .call 0 [.val 7], .call 4 [.val 7], .done none, .done none,
       .call 4 [.val 8, .val 9], .done none] := by
  refine ⟨_, [.emit 0 [7], .off (some 2) true, .emit 1 [8, 9]], rfl, by decide, by decide, ?_, by decide, by decide, by decide, by decide⟩
  simp [env, WFSig, Kind.phase, Param.isPos]

open Ex in
/-- Concrete case for `C75_unique`: callback 2 is connected to both members; member 0 has callback 0 before it. -/
example : ∃ s : St, s = run env [.member 0 0 {}, .direct 2 { uniq := .raise }] (Cls.new ⟨[(0, one), (1, two)], false⟩) ∧
    s.mems ≠ [] ∧ (∀ m ∈ s.mems, ∃ x ∈ m.slots, x.base = .fn 2) ∧ (∀ m ∈ s.mems, ∀ x ∈ m.slots, x.base ≠ .fn 1) ∧
    (run env [.direct 2 { uniq := .quiet }, .direct 2 { uniq := .raise }, .direct 2 {}, .emit 1 [7, 8]] s).log.drop 2 =
      [.done none, .done (some .value), .done none, .call 2 [.val 7, .val 8], .call 2 [.val 7, .val 8], .done none] := by
  refine ⟨_, rfl, by decide, by decide, by decide, by decide⟩

open Ex in
/-- Concrete case for `C75_all_or_none_partial`: callback 0 is connected to both members, callback 1 to none. -/
example : ∃ c, chain env [([(0, one), (1, one)], true)] {} = some c ∧ c.psygnalsUniform = true ∧
    (∀ e ∈ c.signals, ∀ e' ∈ c.signals, ∀ p ∈ e.2.spec, ∀ q ∈ e'.2.spec, env.str p.ann = env.str q.ann → p.ann = q.ann) ∧
    (act env (.direct 0 { cn := some true, ct := some true }) (run env [.member 1 2 {}] c.new)).2 = none ∧
    act env (.direct 1 { cn := some true, ct := some true }) (run env [.member 1 2 {}] c.new) =
      (run env [.member 1 2 {}] c.new, some .value) := by
  refine ⟨_, rfl, rfl, by decide, by decide, by decide⟩

open Ex in
/-- **C75 is violated** when the signals are not uniform: `connect_direct` raises, but the callback stays connected to the members that
come before the one that refused it. -/
theorem C75_half_refuted : ∃ c, chain env [([(0, two), (1, one)], false)] {} = some c ∧
    (run env [.direct 1 {}, .emit 0 [7, 8]] c.new).log = [.done (some .value), .call 1 [.val 7, .val 8], .done none] :=
  ⟨_, rfl, by decide⟩

open Ex in
/-- … also in a strict group, when different classes look the same: signatures are compared by the text of their annotations. -/
theorem C75_lookalike_refuted : ∃ c, chain env [([(0, one), (1, other)], true)] {} = some c ∧ c.psygnalsUniform = true ∧
    (run env [.direct 3 { ct := some true }, .emit 0 [7]] c.new).log = [.done (some .value), .call 3 [.val 7], .done none] :=
  ⟨_, rfl, rfl, by decide⟩

open Ex in
/-- … also in a strict group, when the choice is left to signals that choose differently. -/
theorem C75_defaults_refuted : ∃ c, chain env [([(0, { one with cn := false }), (1, one)], true)] {} = some c ∧
    c.psygnalsUniform = true ∧
    (run env [.direct 1 {}, .emit 0 [7]] c.new).log = [.done (some .value), .call 1 [.val 7], .done none] :=
  ⟨_, rfl, rfl, by decide⟩

open Ex in
/-- A subclass of a strict group need not be uniform: `strict` holds for the class only. -/
theorem C75_subclass_refuted : ∃ c, chain env [([(0, one)], true), ([(1, two)], false)] {} = some c ∧ c.psygnalsUniform = false :=
  ⟨_, rfl, rfl⟩

open Ex in
/-- `group.disconnect` does not undo `connect_direct` for a callback that was connected before: it removes the older connection, and with
it the number of arguments. -/
theorem C75_connected_refuted : ∃ c, chain env [([(0, two)], false)] {} = some c ∧
    (run env [.member 0 2 { maxArgs := some 1 }, .emit 0 [7, 8]] c.new).log = [.done none, .call 2 [.val 7], .done none] ∧
    (run env [.member 0 2 { maxArgs := some 1 }, .direct 2 {}, .off (some 2) true, .emit 0 [7, 8]] c.new).log =
      [.done none, .done none, .done none, .call 2 [.val 7, .val 8], .done none] :=
  ⟨_, rfl, by decide, by decide⟩

end Psygnal.Direct
