import Verif.Py
import Verif.ModelClassLemmas

/-! # C59: signals, setters and dependencies of classes of evented models

All theorems are about the classes that any sequence of class statements makes. -/
namespace Psygnal.MCls

theorem own_iff (d : Decl) (k : Nat) : k ∈ d.own.map Prod.fst ↔ ∃ id reads, (k, Attr.prop id true reads) ∈ d.ns := by
  unfold Decl.own
  simp only [List.mem_map, List.mem_filterMap]
  constructor
  · rintro ⟨⟨k', p⟩, ⟨⟨n, a⟩, h1, h2⟩, rfl⟩
    cases a with
    | other => simp [Attr.settable] at h2
    | prop id s reads =>
      cases s with
      | false => simp [Attr.settable] at h2
      | true =>
        simp [Attr.settable] at h2
        rw [h2.1] at h1
        exact ⟨id, reads, h1⟩
  · rintro ⟨id, reads, h⟩
    exact ⟨(k, ⟨id, reads⟩), ⟨_, h, rfl⟩, rfl⟩

/-- **C59 (class creation).**  A class statement for an evented model raises `ValueError` exactly if the reemission configuration is
not valid, or property setters are forbidden although a base allows them, or a name declared to depend on others is neither a field
nor a property with a setter, of the class or a base, where those are allowed. -/
theorem C59_creation {σ : List Cls} {d : Decl} (hb : ∀ b ∈ d.bases ++ d.mro, b < σ.length)
    (he : d.root = true ∨ ∃ b ∈ d.bases, ∃ cl, σ[b]? = some cl ∧ cl.evented = true) :
    (∃ cl, mkClass σ d = .ok cl) ↔ ((∀ m, d.conf.reem = .one m → m < 3) ∧ ∀ l, d.conf.reem = .each l → ∀ p ∈ l, p.2 < 3) ∧
      (d.conf.allow = false → ∀ b ∈ d.bases, ∀ cl, σ[b]? = some cl → cl.evented = true → cl.decl.conf.allow = false) ∧
      ∀ p fs, (p, fs) ∈ d.conf.depends → p ∈ d.fields.map Prod.fst ∨ (d.conf.allow = true ∧
        ((∃ id reads, (p, Attr.prop id true reads) ∈ d.ns) ∨ ∃ b ∈ d.bases, ∃ cl, σ[b]? = some cl ∧ p ∈ cl.setters.map Prod.fst)) := by
  have he' : d.evented σ = true := by
    unfold Decl.evented
    rw [Bool.or_eq_true, List.any_eq_true]
    rcases he with h | ⟨b, h1, cl, h2, h3⟩
    · exact .inl h
    · exact .inr ⟨b, h1, by rw [h2]; simpa using h3⟩
  have hre : d.conf.reem.valid = true ↔ ((∀ m, d.conf.reem = .one m → m < 3) ∧ ∀ l, d.conf.reem = .each l → ∀ p ∈ l, p.2 < 3) := by
    unfold Reem.valid
    cases d.conf.reem with
    | one m => simp
    | each l => simp
  have hset : ∀ p, p ∈ (d.setters σ).map Prod.fst ↔ (d.conf.allow = true ∧
        ((∃ id reads, (p, Attr.prop id true reads) ∈ d.ns) ∨ ∃ b ∈ d.bases, ∃ cl, σ[b]? = some cl ∧ p ∈ cl.setters.map Prod.fst)) := by
    intro p
    unfold Decl.setters
    cases d.conf.allow with
    | false => simp
    | true =>
      simp only [if_true, true_and, List.map_append, List.mem_append]
      refine or_congr (own_iff d p) ?_
      simp only [List.mem_map, List.mem_flatMap]
      constructor
      · rintro ⟨x, ⟨b, h1, h2⟩, h3⟩
        unfold settersOf at h2
        cases h4 : σ[b]? with
        | none => rw [h4] at h2; cases h2
        | some cl =>
          rw [h4] at h2
          exact ⟨b, h1, cl, h4, x, h2, h3⟩
      · rintro ⟨b, h1, cl, h4, x, h2, h3⟩
        exact ⟨x, ⟨b, h1, by unfold settersOf; rw [h4]; exact h2⟩, h3⟩
  rw [← hre]
  simp only [← hset]
  have h0 : ¬ ((d.bases ++ d.mro).any fun b => σ.length ≤ b) = true := by
    rw [List.any_eq_true]
    rintro ⟨b, h1, h2⟩
    have := hb b h1
    simp only [decide_eq_true_eq] at h2
    omega
  have hal : (d.bases.any (allows σ) = true ↔ ∃ b ∈ d.bases, ∃ cl, σ[b]? = some cl ∧ cl.evented = true ∧ cl.decl.conf.allow = true) := by
    rw [List.any_eq_true]
    constructor
    · rintro ⟨b, h1, h2⟩
      unfold allows at h2
      cases h3 : σ[b]? with
      | none => rw [h3] at h2; cases h2
      | some cl =>
        rw [h3] at h2
        simp only [Option.map_some, Option.getD_some, Bool.and_eq_true] at h2
        exact ⟨b, h1, cl, h3, h2⟩
    · rintro ⟨b, h1, cl, h2, h3, h4⟩
      exact ⟨b, h1, by rw [allows_iff h2, h3, h4]; rfl⟩
  have hdp : ((d.conf.depends.all fun p => (d.fields.lookup p.1).isSome || ((d.setters σ).lookup p.1).isSome) = true ↔
      ∀ p fs, (p, fs) ∈ d.conf.depends → p ∈ d.fields.map Prod.fst ∨ p ∈ (d.setters σ).map Prod.fst) := by
    rw [List.all_eq_true]
    constructor
    · intro h p fs hp
      have := h (p, fs) hp
      rw [Bool.or_eq_true, lookup_isSome, lookup_isSome] at this
      exact this
    · rintro h ⟨p, fs⟩ hp
      rw [Bool.or_eq_true, lookup_isSome, lookup_isSome]
      exact h p fs hp
  unfold mkClass
  rw [if_neg h0, if_pos he', ← hdp]
  by_cases h1 : d.conf.reem.valid = false
  · rw [if_pos h1]; simp [h1]
  rw [if_neg h1]
  have h1' : d.conf.reem.valid = true := by simpa using h1
  by_cases h2 : d.conf.allow = false ∧ d.bases.any (allows σ) = true
  · rw [if_pos h2]
    obtain ⟨b, hb1, cl, hb2, hb3, hb4⟩ := hal.mp h2.2
    constructor
    · rintro ⟨cl, h⟩; cases h
    · rintro ⟨_, h, _⟩
      have := h h2.1 b hb1 cl hb2 hb3
      rw [hb4] at this; cases this
  rw [if_neg h2]
  have h2' : d.conf.allow = false → ∀ b ∈ d.bases, ∀ cl, σ[b]? = some cl → cl.evented = true → cl.decl.conf.allow = false := by
    intro ha b hb1 cl hb2 hb3
    cases hx : cl.decl.conf.allow with
    | false => rfl
    | true => exact absurd ⟨ha, hal.mpr ⟨b, hb1, cl, hb2, hb3, hx⟩⟩ h2
  by_cases h3 : (d.conf.depends.all fun p => (d.fields.lookup p.1).isSome || ((d.setters σ).lookup p.1).isSome) = false
  · rw [if_pos h3]
    constructor
    · rintro ⟨cl, h⟩; cases h
    · rintro ⟨_, _, h⟩
      rw [h3] at h; cases h
  · rw [if_neg h3]
    exact ⟨fun _ => ⟨h1', h2', (Bool.eq_false_or_eq_true _).resolve_right h3⟩, fun _ => ⟨_, rfl⟩⟩

/-- **C59 (signals; partial).**  `model.events` has a signal for exactly the fields that are not frozen and, if property setters are
allowed, the properties with a setter of the class body itself; its mode is the configured one, latest-only by default.  Missing:
inherited properties have none (`C59_inherited_refuted`). -/
theorem C59_signals_partial {ds : List Decl} {c : Nat} {cl : Cls} (hc : (run ds [])[c]? = some cl) (he : cl.evented = true) (k : Nat) :
    (k ∈ cl.signals.map Prod.fst ↔ (k, false) ∈ cl.decl.fields ∨
      cl.decl.conf.allow = true ∧ ∃ id reads, (k, Attr.prop id true reads) ∈ cl.decl.ns) ∧
    ∀ m, (k, m) ∈ cl.signals → m < 3 ∧ m = match cl.decl.conf.reem with
      | .one m => m
      | .each l => (l.lookup k).getD 2 := by
  have hf := facts (made_run ds made_nil) hc
  rw [hf.signals he]
  have hown := own_iff cl.decl k
  have hfl : k ∈ ((cl.decl.fields.filter (fun p => !p.2)).map (fun p => (p.1, cl.decl.conf.reem.mode p.1))).map Prod.fst ↔ (k, false) ∈ cl.decl.fields := by
    simp only [List.mem_map, List.mem_filter]
    constructor
    · rintro ⟨_, ⟨⟨n, fz⟩, ⟨h1, h2⟩, rfl⟩, rfl⟩
      cases fz with
      | false => exact h1
      | true => simp at h2
    · intro h
      exact ⟨_, ⟨_, ⟨h, rfl⟩, rfl⟩, rfl⟩
  constructor
  · unfold Decl.signals
    rw [List.map_append, List.mem_append, hfl, ← hown]
    cases cl.decl.conf.allow with
    | false => simp
    | true =>
      simp only [if_true, List.map_map, true_and]
      rw [Or.comm]
      rfl
  · intro m hm
    have hmode : m = cl.decl.conf.reem.mode k := by
      unfold Decl.signals at hm
      rw [List.mem_append] at hm
      rcases hm with hm | hm
      · split at hm
        · simp only [List.mem_map] at hm
          obtain ⟨p, _, h2⟩ := hm
          cases h2; rfl
        · cases hm
      · simp only [List.mem_map] at hm
        obtain ⟨p, _, h2⟩ := hm
        cases h2; rfl
    refine ⟨?_, ?_⟩
    · have hv := hf.reem he
      rw [hmode]
      unfold Reem.valid at hv
      unfold Reem.mode
      cases hr : cl.decl.conf.reem with
      | one m => rw [hr] at hv; simpa using hv
      | each l =>
        rw [hr] at hv
        simp only [List.all_eq_true] at hv
        simp only
        cases hl : l.lookup k with
        | none => simp
        | some m =>
          have hmem : ∀ (l : List (Nat × Nat)), l.lookup k = some m → (k, m) ∈ l := by
            intro l
            induction l with
            | nil => intro h; simp at h
            | cons p l ih =>
              intro h
              rw [List.lookup_cons] at h
              split at h
              · rename_i hk
                cases h
                have : k = p.1 := by simpa using hk
                subst this
                exact List.mem_cons_self
              · exact List.mem_cons_of_mem _ (ih h)
          simpa using hv _ (hmem l hl)
    · rw [hmode]
      unfold Reem.mode
      cases cl.decl.conf.reem <;> rfl

/-- **C59 (setters).**  Assigning a name calls a property setter exactly if the class, or one it is derived from at any distance,
allows property setters and has a property of this name with a setter in its body. -/
theorem C59_setters {ds : List Decl} {c : Nat} {cl : Cls} (hc : (run ds [])[c]? = some cl) (k : Nat) :
    k ∈ cl.setters.map Prod.fst ↔ ∃ a acl, Anc (run ds []) c a ∧ (run ds [])[a]? = some acl ∧
      acl.evented = true ∧ acl.decl.conf.allow = true ∧ ∃ id reads, (k, Attr.prop id true reads) ∈ acl.decl.ns := by
  have h1 := setters_iff (made_run ds made_nil) k (c + 1) c (by omega)
  rw [show settersOf (run ds []) c = cl.setters by unfold settersOf; rw [hc]; rfl, lookup_isSome] at h1
  rw [h1]
  refine exists_congr fun a => exists_congr fun acl => and_congr Iff.rfl ?_
  constructor
  · rintro ⟨h2, h3, h4⟩
    rw [allows_iff h2, Bool.and_eq_true] at h3
    refine ⟨h2, h3.1, h3.2, ?_⟩
    exact (own_iff _ _).mp h4
  · rintro ⟨h2, h3, h4, id, reads, h5⟩
    refine ⟨h2, by rw [allows_iff h2, h3, h4]; rfl, ?_⟩
    exact (own_iff _ _).mpr ⟨id, reads, h5⟩

/-- **C59 (evented classes).**  A class is one of an evented model exactly if `EventedModel` or one of those is among its bases; other
classes have no signals, setters and dependencies. -/
theorem C59_evented {ds : List Decl} {c : Nat} {cl : Cls} (hc : (run ds [])[c]? = some cl) :
    (cl.evented = true ↔ cl.decl.root = true ∨ ∃ b ∈ cl.decl.bases, ∃ bcl, (run ds [])[b]? = some bcl ∧ bcl.evented = true) ∧
    (cl.evented = false → cl.setters = [] ∧ cl.signals = [] ∧ cl.deps = []) := by
  have hf := facts (made_run ds made_nil) hc
  refine ⟨?_, hf.plain⟩
  rw [hf.evented, Bool.or_eq_true, List.any_eq_true]
  refine or_congr Iff.rfl (exists_congr fun b => and_congr Iff.rfl ?_)
  cases (run ds [])[b]? <;> simp

/-- **C59 (allowing setters is inherited).**  A class derived, at any distance, from one that allows property setters allows them. -/
theorem C59_allow {ds : List Decl} {c a : Nat} {cl acl : Cls} (hc : (run ds [])[c]? = some cl) (ha : (run ds [])[a]? = some acl)
    (h : Anc (run ds []) c a) (he : acl.evented = true) (hal : acl.decl.conf.allow = true) :
    cl.evented = true ∧ cl.decl.conf.allow = true := by
  have := allows_up (made_run ds made_nil) h (by rw [allows_iff ha, he, hal]; rfl)
  rw [allows_iff hc, Bool.and_eq_true] at this
  exact this

/-- **C59 (which setter; partial).**  The setter that an assignment calls is that of the attribute which Python finds, if all classes
have at most one base, all are evented models that allow property setters, and no class replaces an inherited property with
setter by something else.  Missing: several bases, replaced properties, plain bases (`C59_setter_refuted`). -/
theorem C59_setter_partial {ds : List Decl} {c : Nat} {cl : Cls} (hc : (run ds [])[c]? = some cl)
    (hns : ∀ x ∈ run ds [], (x.decl.ns.map Prod.fst).Nodup)
    (hall : ∀ x ∈ run ds [], x.evented = true ∧ x.decl.conf.allow = true)
    (hone : ∀ x ∈ run ds [], (x.decl.bases = [] ∧ x.decl.mro = []) ∨
      ∃ b bcl, x.decl.bases = [b] ∧ (run ds [])[b]? = some bcl ∧ x.decl.mro = b :: bcl.decl.mro)
    (hkeep : ∀ x ∈ run ds [], ∀ k a, x.decl.ns.lookup k = some a → a.settable = none →
      ∀ b ∈ x.decl.bases, ∀ bcl, (run ds [])[b]? = some bcl → bcl.setters.lookup k = none) (k : Nat) :
    cl.setters.lookup k = (attr (run ds []) cl.decl k).bind Attr.settable := by
  have hm := made_run ds made_nil
  generalize run ds [] = σ at *
  have key : ∀ (n c : Nat) (cl : Cls), c < n → σ[c]? = some cl → cl.setters.lookup k = (attr σ cl.decl k).bind Attr.settable := by
    intro n
    induction n with
    | zero => intro c cl h; omega
    | succ n ih =>
      intro c cl hn hc
      have hf := facts hm hc
      have hmem := List.mem_of_getElem? hc
      obtain ⟨he, ha⟩ := hall cl hmem
      rw [hf.on he ha, List.lookup_append, own_lookup (hns cl hmem), lookup_flatMap]
      unfold attr
      rw [List.findSome?_cons]
      cases hk : cl.decl.ns.lookup k with
      | some a =>
        simp only [Option.bind_some, id]
        cases hs : a.settable with
        | some p => rfl
        | none =>
          simp only [Option.none_or]
          rw [List.findSome?_eq_none_iff]
          intro b hb
          unfold settersOf
          cases hbc : σ[b]? with
          | none => rfl
          | some bcl => exact hkeep cl hmem k a hk hs b hb bcl hbc
      | none =>
        simp only [Option.bind_none, Option.none_or, id]
        rcases hone cl hmem with ⟨h1, h2⟩ | ⟨b, bcl, h1, h2, h3⟩
        · rw [h1, h2]; rfl
        · rw [h1, h3]
          have := ih b bcl (by have := hf.early b (.inl (by simp [h1])); omega) h2
          rw [List.findSome?_cons, List.findSome?_nil]
          have h4 : settersOf σ b = bcl.setters := by unfold settersOf; rw [h2]; rfl
          rw [h4, this]
          unfold attr
          rw [List.map_cons, h2, Option.bind_some]
          cases (_ : Option Attr).bind Attr.settable <;> rfl
  exact key (c + 1) c cl (by omega) hc

/-- **C59 (dependencies).**  What is reported when a field changes: the names declared to depend on it, and, if the dependencies are
to be guessed, the properties with setters whose getter's code uses the name of the field. -/
theorem C59_dependents {ds : List Decl} {c : Nat} {cl : Cls} (hc : (run ds [])[c]? = some cl) (he : cl.evented = true) (f p : Nat) :
    (f, p) ∈ cl.deps ↔ (∃ fs, (p, fs) ∈ (if cl.decl.conf.deps = [] then cl.decl.conf.oldDeps else cl.decl.conf.deps) ∧ f ∈ fs) ∨
      (cl.decl.conf.guess = true ∧ f ∈ cl.decl.fields.map Prod.fst ∧ ∃ x, cl.setters.lookup p = some x ∧ f ∈ x.reads) := by
  have hf := facts (made_run ds made_nil) hc
  have hs : cl.decl.setters (run ds []) = cl.setters := by
    unfold Decl.setters
    cases ha : cl.decl.conf.allow with
    | true => rw [hf.on he ha]; rfl
    | false => rw [(hf.off he ha).1]; rfl
  rw [hf.deps he]
  unfold Decl.dependents
  rw [hs, List.mem_append]
  refine or_congr ?_ ?_
  · have : cl.decl.conf.depends = if cl.decl.conf.deps = [] then cl.decl.conf.oldDeps else cl.decl.conf.deps := by
      unfold Conf.depends
      simp [List.isEmpty_iff]
    rw [← this]
    simp only [List.mem_flatMap, List.mem_map]
    constructor
    · rintro ⟨⟨q, fs⟩, h1, g, h2, h3⟩
      cases h3
      exact ⟨fs, h1, h2⟩
    · rintro ⟨fs, h1, h2⟩
      exact ⟨(p, fs), h1, f, h2, rfl⟩
  · cases cl.decl.conf.guess with
    | false => simp
    | true =>
      simp only [if_true, true_and]
      have hit : ∀ q x, (q, x) ∈ items cl.setters ↔ cl.setters.lookup q = some x := by
        intro q x
        unfold items
        rw [List.mem_filter]
        constructor
        · rintro ⟨_, h⟩; simpa using h
        · intro h
          refine ⟨?_, by simpa using h⟩
          revert h
          generalize cl.setters = l
          induction l with
          | nil => intro h; simp at h
          | cons y l ih =>
            intro h
            rw [List.lookup_cons] at h
            split at h
            · rename_i hk
              cases h
              have : q = y.1 := by simpa using hk
              subst this
              exact List.mem_cons_self
            · exact List.mem_cons_of_mem _ (ih h)
      simp only [List.mem_flatMap, List.mem_map, List.mem_filter]
      constructor
      · rintro ⟨⟨q, x⟩, h1, g, ⟨h2, h3⟩, h4⟩
        cases h4
        rw [lookup_isSome] at h3
        exact ⟨by simpa using h3, x, (hit _ _).mp h1, h2⟩
      · rintro ⟨h1, x, h2, h3⟩
        refine ⟨(p, x), (hit _ _).mpr h2, f, ⟨h3, ?_⟩, rfl⟩
        rw [lookup_isSome]
        simpa using h1

/-- **C59 (dependents have signals; partial).**  If no base has property setters and no frozen field is declared to depend on
anything, everything that is reported when a field changes has a signal.  Missing: otherwise false, and assigning the field fails
(`C59_inherited_refuted`, `C59_frozen_refuted`). -/
theorem C59_signals_of_dependents_partial {ds : List Decl} {c : Nat} {cl : Cls} (hc : (run ds [])[c]? = some cl) (he : cl.evented = true)
    (hb : ∀ b ∈ cl.decl.bases, ∀ bcl, (run ds [])[b]? = some bcl → bcl.setters = [])
    (hfz : ∀ p fs, (p, fs) ∈ cl.decl.conf.deps ∨ (p, fs) ∈ cl.decl.conf.oldDeps → (p, true) ∉ cl.decl.fields) {f p : Nat} (h : (f, p) ∈ cl.deps) :
    p ∈ cl.signals.map Prod.fst := by
  have hf := facts (made_run ds made_nil) hc
  have hset : p ∈ cl.setters.map Prod.fst → p ∈ cl.signals.map Prod.fst := by
    intro hp
    cases ha : cl.decl.conf.allow with
    | false => rw [(hf.off he ha).1] at hp; cases hp
    | true =>
      have h0 : cl.decl.bases.flatMap (settersOf (run ds [])) = [] := by
        rw [List.flatMap_eq_nil_iff]
        intro b hbm
        unfold settersOf
        cases hbc : (run ds [])[b]? with
        | none => rfl
        | some bcl => exact hb b hbm bcl hbc
      rw [hf.on he ha, h0, List.append_nil] at hp
      rw [hf.signals he]
      unfold Decl.signals
      rw [ha, if_pos rfl, List.map_append, List.mem_append]
      left
      rw [List.map_map]
      exact hp
  rw [C59_dependents hc he] at h
  rcases h with ⟨fs, h1, _⟩ | ⟨_, _, x, h1, _⟩
  · have h2 : (p, fs) ∈ cl.decl.conf.depends := by
      unfold Conf.depends
      simpa [List.isEmpty_iff] using h1
    have h3 : (p, fs) ∈ cl.decl.conf.deps ∨ (p, fs) ∈ cl.decl.conf.oldDeps := by
      split at h1
      · exact .inr h1
      · exact .inl h1
    rcases hf.listed he _ h2 with h4 | h4
    · rw [lookup_isSome] at h4
      obtain ⟨⟨q, fz⟩, h5, h6⟩ := List.mem_map.mp h4
      simp only at h6
      subst h6
      cases fz with
      | true => exact absurd h5 (hfz _ _ h3)
      | false => exact ((C59_signals_partial hc he _).1).mpr (.inl h5)
    · exact hset (lookup_isSome.mp h4)
  · exact hset (lookup_isSome.mp (by rw [h1]; rfl))

/-! ## Examples -/

/-- Field 0, property 1 with a setter that depends on it by declaration, property 2 whose getter uses 0. -/
def exBase : Decl where
  root := true
  bases := []
  mro := []
  ns := [(1, .prop 10 true []), (2, .prop 20 true [0])]
  fields := [(0, false)]
  conf := ⟨true, true, [(1, [0])], [], .each [(2, 1)]⟩

/-- `class Derived(Base): pass`. -/
def exDerived : Decl := { exBase with root := false, bases := [0], mro := [0], ns := [] }

/-- A case for all theorems: a class, and one derived from it with one more property with a setter. -/
example : (run [exBase, { exDerived with ns := [(3, .prop 30 true [])] }] []).map (fun c => (c.signals, c.setters.map (·.1), c.deps)) =
    [([(1, 2), (2, 1), (0, 2)], [1, 2], [(0, 1), (0, 2)]), ([(3, 2), (0, 2)], [3, 1, 2], [(0, 1), (0, 2)])] := by decide

/-- A case for `C59_creation`: all three errors. -/
example : (mkClass [] { exBase with conf := ⟨true, true, [], [], .one 3⟩ }).toOption.isNone = true ∧
    (mkClass (run [exBase] []) { exDerived with conf := ⟨false, false, [], [], .one 0⟩ }).toOption.isNone = true ∧
    (mkClass [] { exBase with conf := ⟨true, true, [(5, [0])], [], .one 0⟩ }).toOption.isNone = true ∧
    (mkClass [] exBase).toOption.isSome = true := by decide

/-- A case for `C59_setter_partial`: the derived class replaces property 1 by another one with a setter. -/
example : (run [exBase, { exDerived with ns := [(1, .prop 11 true [])] }] [])[1]?.map (fun c => (c.setters.lookup 1, c.setters.lookup 2)) =
    some (some ⟨11, []⟩, some ⟨20, [0]⟩) := by decide

/-- The hypotheses of `C59_setter_partial` for these two classes. -/
example : ∃ cl, (run [exBase, { exDerived with ns := [(1, .prop 11 true [])] }] [])[1]? = some cl ∧ ∀ k, cl.setters.lookup k =
    (attr (run [exBase, { exDerived with ns := [(1, .prop 11 true [])] }] []) cl.decl k).bind Attr.settable := by
  refine ⟨_, rfl, fun k => C59_setter_partial (c := 1) rfl ?_ ?_ ?_ ?_ k⟩
  · decide
  · decide
  · intro x hx
    rcases List.mem_cons.mp hx with rfl | hx
    · exact .inl ⟨rfl, rfl⟩
    · rcases List.mem_cons.mp hx with rfl | hx
      · exact .inr ⟨0, _, rfl, rfl, rfl⟩
      · cases hx
  · intro x hx k a h1 h2 b hb bcl h3
    rcases List.mem_cons.mp hx with rfl | hx
    · cases hb
    · rcases List.mem_cons.mp hx with rfl | hx
      · exfalso
        revert h1
        show List.lookup k [(1, Attr.prop 11 true [])] = some a → False
        rw [List.lookup_cons]
        split
        · intro h; cases h; cases h2
        · intro h; cases h
      · cases hx

/-- A case for `C59_signals_of_dependents_partial`. -/
example : ∃ cl, (run [exBase] [])[0]? = some cl ∧ (0, 2) ∈ cl.deps ∧ 2 ∈ cl.signals.map Prod.fst := by
  refine ⟨_, rfl, by decide, ?_⟩
  exact C59_signals_of_dependents_partial (ds := [exBase]) (c := 0) rfl rfl (fun b hb => by cases hb)
    (fun p fs _ h2 => by revert h2; simp [exBase]) (f := 0) (by decide)

/-! ## Where the code deviates -/

/-- **C59 (assigning an inherited property).**  Assigning a property with a setter that the class has inherited and that is neither
in its own body nor one of its fields runs the setter and does nothing else: nothing is compared, nobody is told. -/
theorem C59_inherited_silent {ds : List Decl} {c a : Nat} {cl acl : Cls} (hc : (run ds [])[c]? = some cl) (he : cl.evented = true)
    (ha : Anc (run ds []) c a) (hac : (run ds [])[a]? = some acl) (hae : acl.evented = true) (hal : acl.decl.conf.allow = true)
    {k id : Nat} {reads : List Nat} (hk : (k, Attr.prop id true reads) ∈ acl.decl.ns)
    (h1 : ∀ id reads, (k, Attr.prop id true reads) ∉ cl.decl.ns) (h2 : (k, false) ∉ cl.decl.fields)
    (cf : EM.Cfg) (n v : Nat) (s : EM.St) :
    EM.exec (cl.instances cf) (n + 2) (.set k v) s = EM.exec (cl.instances cf) n (.prog (cf.fset k v)) s := by
  have hs : k ∉ cl.signals.map Prod.fst := by
    rw [(C59_signals_partial hc he k).1]
    rintro (h | ⟨_, i, r, h⟩)
    · exact h2 h
    · exact h1 i r h
  have hp : k ∈ cl.setters.map Prod.fst := (C59_setters hc k).mpr ⟨a, acl, ha, hac, hae, hal, id, reads, hk⟩
  have e1 : (cl.instances cf).sig k = false := by
    show (cl.signals.lookup k).isSome = false
    cases h : (cl.signals.lookup k).isSome with
    | false => rfl
    | true =>
      exfalso
      have : ∀ l : List (Nat × Nat), (l.lookup k).isSome = true → k ∈ l.map Prod.fst := by
        intro l hl
        exact lookup_isSome.mp hl
      exact hs (this _ h)
  have e2 : (cl.instances cf).isProp k = true := lookup_isSome.mpr hp
  rw [EM.exec]
  simp only [e1, if_true]
  rw [EM.exec]
  simp only [e2, if_true]
  rfl

/-- A case for `C59_inherited_silent`: property 1 of the derived class. -/
example : ∃ cl, (run [exBase, exDerived] [])[1]? = some cl ∧ ∀ (cf : EM.Cfg) (n v : Nat) (s : EM.St),
    EM.exec (cl.instances cf) (n + 2) (.set 1 v) s = EM.exec (cl.instances cf) n (.prog (cf.fset 1 v)) s :=
  ⟨_, rfl, fun cf n v s => C59_inherited_silent (ds := [exBase, exDerived]) (c := 1) (a := 0) rfl rfl (.step rfl (.head _) (.refl _)) rfl rfl rfl
    (id := 10) (reads := []) (.head _) (fun _ _ h => by cases h) (by decide) cf n v s⟩

/-- **C59, refuted in general:** an inherited property with a setter has no signal, although its dependencies are inherited:
every assignment to field 0 of a model of the derived class raises `KeyError`, whatever its values and listeners are. -/
theorem C59_inherited_refuted : ∃ cl, (run [exBase, exDerived] [])[1]? = some cl ∧ 1 ∈ cl.setters.map Prod.fst ∧
    1 ∉ cl.signals.map Prod.fst ∧ ∀ (c : EM.Cfg) (n v : Nat) (s : EM.St), s.sem = 0 → s.queue = [] →
      EM.exec (cl.instances c) (n + 3) (.set 0 v) s = some (.error .key, s) := by
  refine ⟨_, rfl, by decide, by decide, ?_⟩
  intro c n v s h1 h2
  cases s
  simp only at h1 h2
  subst h1
  subst h2
  rfl

/-- **C59, refuted in general:** the same for a frozen field that is declared to depend on another field. -/
theorem C59_frozen_refuted : ∃ d cl, (run [d] [])[0]? = some cl ∧ (1, true) ∈ cl.decl.fields ∧
    ∀ (c : EM.Cfg) (n v : Nat) (s : EM.St), s.sem = 0 → s.queue = [] →
      EM.exec (cl.instances c) (n + 3) (.set 0 v) s = some (.error .key, s) := by
  refine ⟨⟨true, [], [], [], [(0, false), (1, true)], ⟨false, false, [(1, [0])], [], .one 0⟩⟩, _, rfl, by decide, ?_⟩
  intro c n v s h1 h2
  cases s
  simp only at h1 h2
  subst h1
  subst h2
  rfl

/-- **C59, refuted in general:** the setter that is called is not always that of the attribute which Python finds.  (1) Classes
`A`, `B(A)`, `C(A)` with another property in `C`, `D(B, C)`: Python finds that of `C`, the setter is that of `A`.  (2) A class
that replaces an inherited property by a read-only one: the setter of the base is called.  (3) A base that does not allow
property setters, and (4) a plain base: the property is not known as one with a setter. -/
theorem C59_setter_refuted :
    (∃ cl, (run [exBase, exDerived, { exDerived with ns := [(1, .prop 11 true [])] },
        { exDerived with bases := [1, 2], mro := [1, 2, 0] }] [])[3]? = some cl ∧
      cl.setters.lookup 1 = some ⟨10, []⟩ ∧ attr (run [exBase, exDerived, { exDerived with ns := [(1, .prop 11 true [])] }] []) cl.decl 1 =
        some (.prop 11 true [])) ∧
    (∃ cl, (run [exBase, { exDerived with ns := [(1, .prop 11 false [])] }] [])[1]? = some cl ∧
      cl.setters.lookup 1 = some ⟨10, []⟩ ∧ attr (run [exBase] []) cl.decl 1 = some (.prop 11 false [])) ∧
    (∃ cl, (run [{ exBase with conf := ⟨false, false, [], [], .one 0⟩ }, exDerived |> fun d => { d with conf := ⟨true, false, [], [], .one 0⟩ }] [])[1]? = some cl ∧
      cl.setters.lookup 1 = none ∧ attr (run [{ exBase with conf := ⟨false, false, [], [], .one 0⟩ }] []) cl.decl 1 = some (.prop 10 true [])) ∧
    (∃ cl, (run [{ exBase with root := false }, { exDerived with root := true, conf := ⟨true, false, [], [], .one 0⟩ }] [])[1]? = some cl ∧
      cl.setters.lookup 1 = none ∧ attr (run [{ exBase with root := false }] []) cl.decl 1 = some (.prop 10 true [])) :=
  ⟨⟨_, rfl, by decide, by decide⟩, ⟨_, rfl, by decide, by decide⟩, ⟨_, rfl, by decide, by decide⟩, ⟨_, rfl, by decide, by decide⟩⟩

/-- **C59, refuted in general:** guessing finds only names in the getter itself: property 2 uses property 1, which uses field 0, but
does not count as dependent on it. -/
theorem C59_guess_refuted : ∃ cl, (run [{ exBase with ns := [(1, .prop 10 true [0]), (2, .prop 20 true [1])], conf := ⟨true, true, [], [], .one 0⟩ }] [])[0]? =
    some cl ∧ cl.deps = [(0, 1)] := ⟨_, rfl, by decide⟩

end Psygnal.MCls
