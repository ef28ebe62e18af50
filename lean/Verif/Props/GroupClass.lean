import Verif.GroupClassGroups
import Verif.Py

/-! # C54: a group lists its signals, and gives them under their names -/
namespace Psygnal.GC

/-- Whenever a `SignalGroup` class is made, its signals are: under each name the `Signal` found on the class (in its body or
on a base), and, where none is found, the one that the first base with signals has collected.  Without such a base they are
in the order of their names. -/
theorem C54_signals {e : Env} {mro : List Nat} {dict : List (Nat × Attr)} {strict : Bool} {σ σ' : St} {c : Nat} (h0 : 0 ∈ mro)
    (h : mkClass e mro dict strict σ = (.ok c, σ')) :
    ∃ cl l, σ'.classes[c]? = some cl ∧ cl.signals = some l ∧ cl.mro = mro ∧
      (∀ k s, lookMro (dict :: mro.map σ.dictOf) k = some (.signal s) → l.lookup k = some s) ∧
      (∀ pre c' post cl' l', mro = pre ++ c' :: post → (∀ x ∈ pre, (σ.classes[x]?).bind Cls.signals = none) →
        σ.classes[c']? = some cl' → cl'.signals = some l' →
        ∀ k, (∀ s, lookMro (dict :: mro.map σ.dictOf) k ≠ some (.signal s)) → l.lookup k = l'.lookup k) ∧
      ((∀ x ∈ mro, (σ.classes[x]?).bind Cls.signals = none) →
        (∀ k, (∀ s, lookMro (dict :: mro.map σ.dictOf) k ≠ some (.signal s)) → l.lookup k = none) ∧
        (l.map Prod.fst).Pairwise (· < ·)) := by
  obtain ⟨rfl, dict', _, rfl, _, _⟩ := mkClass_group h0 h
  have hinh : ∀ k, (∀ s, lookMro (dict :: mro.map σ.dictOf) k ≠ some (.signal s)) →
      (newSignals σ mro dict).lookup k = (σ.inherited mro).lookup k := fun k hk => by
    rw [lookup_newSignals]
    cases hv : visible (dict :: mro.map σ.dictOf) k with
    | none => rfl
    | some s => exact absurd (visible_eq.mp hv) (hk s)
  refine ⟨⟨mro, dict', some (newSignals σ mro dict), _, _⟩, newSignals σ mro dict, List.getElem?_concat_length, rfl, rfl,
    fun k s hk => ?_, fun pre c' post cl' l' hmro hpre hc hl k hk => ?_, fun hin => ?_⟩
  · rw [lookup_newSignals, visible_eq.mpr hk]; rfl
  · rw [hinh k hk]
    unfold St.inherited
    have : (pre.findSome? fun c => (σ.classes[c]?).bind Cls.signals) = none := List.findSome?_eq_none_iff.mpr hpre
    rw [hmro, List.findSome?_append, this]
    simp [hc, hl]
  · have hin : σ.inherited mro = [] := by
      unfold St.inherited
      rw [List.findSome?_eq_none_iff.mpr hin]
      rfl
    refine ⟨fun k hk => by rw [hinh k hk, hin]; rfl, ?_⟩
    have : ∀ (b a : List (Nat × Nat)), (a ++ b).map Prod.fst |>.Nodup → merge a b = a ++ b := by
      intro b
      induction b with
      | nil => intro a _; simp [merge]
      | cons x b ih =>
        intro a hn
        have hput : ∀ a : List (Nat × Nat), x.1 ∉ a.map Prod.fst → put x.1 x.2 a = a ++ [x] := by
          intro a
          induction a with
          | nil => intro _; rfl
          | cons y a ih =>
            intro hx
            have hx' : x.1 ≠ y.1 ∧ x.1 ∉ a.map Prod.fst := by simpa using hx
            rcases y with ⟨y1, y2⟩
            unfold put
            rw [if_neg (fun h => hx'.1 h.symm), ih hx'.2]
            rfl
        have hx : x.1 ∉ a.map Prod.fst := by
          rw [List.map_append, List.nodup_append] at hn
          exact fun h => hn.2.2 _ h _ (by simp) rfl
        show merge (put x.1 x.2 a) b = _
        rw [hput a hx, ih (a ++ [x]) (by simpa using hn)]
        simp
    have h2 := collect_sorted (dict :: mro.map σ.dictOf)
    unfold newSignals
    rw [hin, this _ [] (by simpa using nodup_of_sorted h2)]
    simpa using h2

/-- A group whose signals have their own names: iterating it gives the names of the signals of its class, each once; for each
of them `group[name]` is an instance of that signal which belongs to this group and has that name; and `group.name` is the same
object unless the name is reserved or the class has a data descriptor under it. -/
theorem C54_partial {e : Env} {nm : Nat → Nat} {base : List (Nat × Attr)} {names : Nat → Option Nat} {ops : List Op}
    (hb : ∀ k s, (k, Attr.signal s) ∉ base) (hn : ∀ s, names s = none ∨ names s = some (nm s))
    (ho : OpsOk e nm ops (init base names)) {g : Nat} {gr : Grp} (hg : (run e ops (init base names)).groups[g]? = some gr) :
    ∃ cl l, (run e ops (init base names)).classes[gr.cls]? = some cl ∧ cl.signals = some l ∧
      gr.inst.map Prod.fst = l.map Prod.fst ∧ (gr.inst.map Prod.fst).Nodup ∧
      ∀ k ∈ gr.inst.map Prod.fst, ∃ i s, (run e ops (init base names)).item g k = some i ∧ l.lookup k = some s ∧
        (run e ops (init base names)).sis[i]? = some ⟨s, g, some k⟩ ∧
        (base.lookup k = none → e.prefixed k = false → (run e ops (init base names)).attr gr.cls k ≠ some .data →
          (getAttr g k (run e ops (init base names))).1 = .si i) := by
  have hi := inv_run ho (inv_init (e := e) hb hn)
  generalize run e ops (init base names) = σ at hi hg
  obtain ⟨⟨cl, l, h1, h2, h3, h4, h5, _⟩, _⟩ := hi.grp g gr hg
  obtain ⟨p1, p2, p3, _, _⟩ := (hi.cls _ cl h1).sigs l h2
  refine ⟨cl, l, h1, h2, h3, by rw [h3]; exact p1, fun k hk => ?_⟩
  obtain ⟨⟨k', i⟩, hm, rfl⟩ := List.mem_map.mp hk
  obtain ⟨s, h7, h8⟩ := h4 k' i hm
  refine ⟨i, s, ?_, mem_lookup p1 h7, h8, fun hr hp hd => ?_⟩
  · show (σ.groups[g]?).bind _ = _
    rw [hg]
    exact mem_lookup (by rw [h3]; exact p1) hm
  · have hc : k' ∉ cl.conflicts := by
      rw [p2]
      intro h
      have := (List.mem_filter.mp h).2
      unfold St.conflict St.dictOf at this
      rw [hi.zero] at this
      simp [hr, hp] at this
    have := h5 k' i hm hc hd
    unfold getAttr
    simp only [hg]
    rw [this]

/-- The views of a group agree: its names are different, `len` counts them, `in` holds for just these, `[]` gives what `signals`
lists, and raises for other names. -/
theorem C54_views {e : Env} {nm : Nat → Nat} {base : List (Nat × Attr)} {names : Nat → Option Nat} {ops : List Op}
    (hb : ∀ k s, (k, Attr.signal s) ∉ base) (hn : ∀ s, names s = none ∨ names s = some (nm s))
    (ho : OpsOk e nm ops (init base names)) (g : Nat) :
    let σ := run e ops (init base names)
    (σ.keys g).Nodup ∧ σ.len g = (σ.keys g).length ∧ (∀ k, σ.has g k = true ↔ k ∈ σ.keys g) ∧
      (∀ k i, σ.item g k = some i ↔ (k, i) ∈ σ.items g) ∧ ∀ k, σ.item g k = none ↔ k ∉ σ.keys g := by
  have hi := inv_run ho (inv_init (e := e) hb hn)
  generalize run e ops (init base names) = σ at hi
  simp only [St.keys, St.len, St.has, St.items, St.item]
  cases hg : σ.groups[g]? with
  | none => simp
  | some gr =>
    obtain ⟨⟨cl, l, h1, h2, h3, _⟩, _⟩ := hi.grp g gr hg
    have hnd : (gr.inst.map Prod.fst).Nodup := by rw [h3]; exact ((hi.cls _ cl h1).sigs l h2).1
    simp only [Option.map_some, Option.getD_some, Option.bind_some]
    refine ⟨hnd, by simp, fun k => ?_, fun k i => ⟨lookup_mem, mem_lookup hnd⟩, fun k => ?_⟩
    · simp
    · rw [← lookup_isSome]
      cases gr.inst.lookup k <;> simp

/-- `psygnals_uniform` of a class with signals is true just if they all have the same annotations. -/
theorem C54_uniform {e : Env} {mro : List Nat} {dict : List (Nat × Attr)} {strict : Bool} {σ σ' : St} {c : Nat} (h0 : 0 ∈ mro)
    (h : mkClass e mro dict strict σ = (.ok c, σ')) :
    ∃ cl l, σ'.classes[c]? = some cl ∧ cl.signals = some l ∧
      (σ'.uniform c = true ↔ ∀ x ∈ l, ∀ y ∈ l, e.annot x.2 = e.annot y.2) ∧ (strict = true → σ'.uniform c = true) := by
  obtain ⟨rfl, dict', _, rfl, _, hst⟩ := mkClass_group h0 h
  refine ⟨_, newSignals σ mro dict, List.getElem?_concat_length, rfl, ?_, ?_⟩
  all_goals simp only [St.uniform, List.getElem?_concat_length, Option.map_some, Option.getD_some]
  · rw [isUniform_iff]
    simp only [List.mem_map]
    constructor
    · intro h x hx y hy
      exact h _ ⟨x, hx, rfl⟩ _ ⟨y, hy, rfl⟩
    · rintro h _ ⟨x, hx, rfl⟩ _ ⟨y, hy, rfl⟩
      exact h x hx y hy
  · exact hst

/-- What an attribute of a group gives, if it is a signal instance, is one of this group and has that name, and the name is
one of those the group lists. -/
theorem C54_attr {e : Env} {nm : Nat → Nat} {base : List (Nat × Attr)} {names : Nat → Option Nat} {ops : List Op}
    (hb : ∀ k s, (k, Attr.signal s) ∉ base) (hn : ∀ s, names s = none ∨ names s = some (nm s))
    (ho : OpsOk e nm ops (init base names)) {g k i : Nat} (h : (getAttr g k (run e ops (init base names))).1 = .si i) :
    ∃ s j, (getAttr g k (run e ops (init base names))).2.sis[i]? = some ⟨s, g, some k⟩ ∧
      (run e ops (init base names)).item g k = some j := by
  have hi := inv_run ho (inv_init (e := e) hb hn)
  generalize run e ops (init base names) = σ at hi h
  unfold getAttr at h ⊢
  cases hg : σ.groups[g]? with
  | none => simp [hg] at h
  | some gr =>
    obtain ⟨⟨cl, l, h1, h2, h3, h4, h5, h9⟩, h6⟩ := hi.grp g gr hg
    have hitem : k ∈ l.map Prod.fst → ∃ j, σ.item g k = some j := fun hk => by
      rw [← h3] at hk
      obtain ⟨⟨k', j⟩, hm, rfl⟩ := List.mem_map.mp hk
      refine ⟨j, ?_⟩
      unfold St.item
      rw [hg]
      exact mem_lookup (by rw [h3]; exact ((hi.cls _ cl h1).sigs l h2).1) hm
    simp only [hg] at h ⊢
    split at h
    · cases h
    · rename_i hnd
      cases hd : gr.dict.lookup k with
      | some i' =>
        simp only [hd] at h ⊢
        cases h
        obtain ⟨⟨s, q⟩, _⟩ := h6 k i hd
        obtain ⟨j, hj⟩ := hitem (h9 k i hd)
        exact ⟨s, j, q, hj⟩
      | none =>
        simp only [hd] at h ⊢
        split at h
        · rename_i s ha
          simp only at h ⊢
          cases h
          obtain ⟨j, hj⟩ := hitem (((hi.cls _ cl h1).sigs l h2).2.2.2.1 k s ha)
          have hnm : nm s = k ∧ σ.names s = some k := by
            unfold St.attr at ha
            obtain ⟨d, hd1, hd2⟩ := lookMro_mem ha
            unfold St.dicts at hd1
            rw [h1] at hd1
            rcases List.mem_cons.mp hd1 with hd1 | hd1
            · subst hd1; exact (hi.cls _ cl h1).own k s hd2
            · obtain ⟨c', _, rfl⟩ := List.mem_map.mp hd1
              obtain ⟨cl', h7, h8⟩ := dictOf_mem hd2
              exact (hi.cls c' cl' h7).own k s h8
          refine ⟨s, j, ?_, hj⟩
          unfold get
          cases hl : σ.cache.lookup (s, g) with
          | some i =>
            simp only
            obtain ⟨q, _⟩ := hi.cache s g i (mem_of_lookup hl)
            rw [q, hnm.1]
          | none =>
            simp only [hnm.2]
            rw [if_neg (by rw [ha]; simp)]
            simp [create, St.setDict, hnm.2]
        · cases h
        · cases h

/-- The signals of a group never change: whatever is made or read later, `group[name]` stays the same object. -/
theorem C54_stays (e : Env) (ops : List Op) (σ : St) {g k i : Nat} (h : σ.item g k = some i) :
    (run e ops σ).item g k = some i := by
  have hg : g < σ.groups.length := by
    unfold St.item at h
    cases hg : σ.groups[g]? with
    | none => simp [hg] at h
    | some gr => exact (List.getElem?_eq_some_iff.mp hg).1
  rw [item_view, view_run e ops σ hg, ← item_view]
  exact h

/-- If all bases are groups, a reserved name keeps its meaning on the instances. -/
theorem C54_reserved {e : Env} {nm : Nat → Nat} {base : List (Nat × Attr)} {names : Nat → Option Nat} {ops : List Op}
    (hb : ∀ k s, (k, Attr.signal s) ∉ base) (hn : ∀ s, names s = none ∨ names s = some (nm s))
    (ho : OpsOk e nm ops (init base names)) {g : Nat} {gr : Grp} (hg : (run e ops (init base names)).groups[g]? = some gr)
    {cl : Cls} (hcl : (run e ops (init base names)).classes[gr.cls]? = some cl) (h0 : 0 ∈ cl.mro)
    (hm : ∀ c ∈ cl.mro, c = 0 ∨ ∃ cl', (run e ops (init base names)).classes[c]? = some cl' ∧ cl'.signals.isSome)
    {k : Nat} (hk : (base.lookup k).isSome) : (getAttr g k (run e ops (init base names))).1 = .other := by
  have hi := inv_run ho (inv_init (e := e) hb hn)
  generalize run e ops (init base names) = σ at hi hg hcl hm
  obtain ⟨⟨cl', l, h1, h2, h3, h4, h5, h9⟩, h6⟩ := hi.grp g gr hg
  rw [hcl] at h1
  cases h1
  have hz : σ.dictOf 0 = base := by unfold St.dictOf; rw [hi.zero]; rfl
  have hcon : σ.conflict e k = true := by
    unfold St.conflict
    rw [hz, hk]
    rfl
  have hsome : (σ.attr gr.cls k).isSome := by
    unfold St.attr St.dicts lookMro
    rw [hcl]
    simp only
    rw [List.findSome?_isSome_iff]
    exact ⟨σ.dictOf 0, List.mem_cons_of_mem _ (List.mem_map.mpr ⟨0, h0, rfl⟩), by rw [hz]; exact hk⟩
  have hns : ∀ s, σ.attr gr.cls k ≠ some (.signal s) := fun s hs => by
    unfold St.attr St.dicts lookMro at hs
    rw [hcl] at hs
    obtain ⟨d, hd, h7⟩ := List.exists_of_findSome?_eq_some hs
    rcases List.mem_cons.mp hd with rfl | hd
    · have := ((hi.cls _ cl hcl).sigs l h2).2.2.2.2 k s h7
      rw [hcon] at this; cases this
    · obtain ⟨c, hc, rfl⟩ := List.mem_map.mp hd
      rcases hm c hc with rfl | ⟨cl', h8, h10⟩
      · rw [hz] at h7; exact hb k s (lookup_mem h7)
      · obtain ⟨l', hl'⟩ := Option.isSome_iff_exists.mp h10
        have h7' : cl'.dict.lookup k = some (.signal s) := by
          unfold St.dictOf at h7; rw [h8] at h7; exact h7
        have := ((hi.cls c cl' h8).sigs l' hl').2.2.2.2 k s h7'
        rw [hcon] at this; cases this
  have hd : gr.dict.lookup k = none := by
    cases hd : gr.dict.lookup k with
    | none => rfl
    | some i =>
      rcases (h6 k i hd).2 with h | ⟨s, h⟩
      · rw [hcon] at h; cases h
      · exact absurd h (hns s)
  unfold getAttr
  simp only [hg, hd]
  cases ha : σ.attr gr.cls k with
  | none => rw [ha] at hsome; cases hsome
  | some a =>
    cases a with
    | signal s => exact absurd ha (hns s)
    | plain => rfl
    | data => rfl

/-- A class whose bases are groups can be made unless its body has a name starting with `_psygnal`, or it inherits a signal
with a name starting with `psygnal`, or it is strict and its signals differ in their annotations. -/
theorem C54_creates {e : Env} {nm : Nat → Nat} {base : List (Nat × Attr)} {names : Nat → Option Nat} {ops : List Op}
    (hb : ∀ k s, (k, Attr.signal s) ∉ base) (hn : ∀ s, names s = none ∨ names s = some (nm s))
    (ho : OpsOk e nm ops (init base names)) {mro : List Nat} {dict : List (Nat × Attr)} (h0 : 0 ∈ mro)
    (hm : ∀ c ∈ mro, c = 0 ∨ ∃ cl, (run e ops (init base names)).classes[c]? = some cl ∧ cl.signals.isSome)
    (hf : ∀ x ∈ dict, e.forbidden x.1 = false)
    (hp : ∀ c ∈ mro, ∀ cl l, (run e ops (init base names)).classes[c]? = some cl → cl.signals = some l → ∀ x ∈ l,
      e.prefixed x.1 = false ∨ (dict.lookup x.1).isSome) :
    ∃ (σ' : St) (cl : Cls) (l : List (Nat × Nat)),
      mkClass e mro dict false (run e ops (init base names)) = (.ok (run e ops (init base names)).classes.length, σ') ∧
      σ'.classes[(run e ops (init base names)).classes.length]? = some cl ∧ cl.signals = some l ∧
      (cl.uniform = true ↔ ∀ x ∈ l, ∀ y ∈ l, e.annot x.2 = e.annot y.2) ∧
      (mkClass e mro dict true (run e ops (init base names))).1 =
        if cl.uniform = true then .ok (run e ops (init base names)).classes.length else .error .strict := by
  have hi := inv_run ho (inv_init (e := e) hb hn)
  generalize run e ops (init base names) = σ at hi hm hp
  have hp' : ∀ x ∈ σ.inherited mro, e.prefixed x.1 = false ∨ (dict.lookup x.1).isSome := fun x hx => by
    obtain ⟨c, cl, l, h1, h2, h3, h4⟩ := inherited_mem hx
    exact hp c h1 cl l h2 h3 x (by rw [← h4]; exact hx)
  have hz : σ.dictOf 0 = base := by unfold St.dictOf; rw [hi.zero]; rfl
  have hnd : ((newSignals σ mro dict).map Prod.fst).Nodup := nodup_merge _ _ (inherited_nodup hi mro)
  have hsig : ∀ k s, σ.conflict e k = true → lookMro (mro.map σ.dictOf) k ≠ some (.signal s) := fun k s hc h => by
    obtain ⟨d, hd, h7⟩ := List.exists_of_findSome?_eq_some h
    obtain ⟨c, hc', rfl⟩ := List.mem_map.mp hd
    rcases hm c hc' with rfl | ⟨cl', h8, h10⟩
    · rw [hz] at h7; exact hb k s (lookup_mem h7)
    · obtain ⟨l', hl'⟩ := Option.isSome_iff_exists.mp h10
      have h7' : cl'.dict.lookup k = some (.signal s) := by
        unfold St.dictOf at h7; rw [h8] at h7; exact h7
      have := ((hi.cls c cl' h8).sigs l' hl').2.2.2.2 k s h7'
      rw [hc] at this; cases this
  obtain ⟨dict', hd⟩ := delConflicts_succeeds (mro := mro.map σ.dictOf) (dict := dict)
    (ks := ((newSignals σ mro dict).map Prod.fst).filter (σ.conflict e)) (hnd.filter _) (fun k hk => by
      obtain ⟨hk1, hk2⟩ := List.mem_filter.mp hk
      have hother : ∀ s, lookMro (dict :: mro.map σ.dictOf) k = some (.signal s) → (dict.lookup k).isSome := fun s hs => by
        rw [lookMro_cons] at hs
        cases hdk : dict.lookup k with
        | some a => rfl
        | none =>
          rw [hdk] at hs
          exact absurd hs (hsig k s hk2)
      refine ⟨?_, hother⟩
      by_cases hbase : (base.lookup k).isSome
      · unfold lookMro
        rw [List.findSome?_isSome_iff]
        exact ⟨σ.dictOf 0, List.mem_cons_of_mem _ (List.mem_map.mpr ⟨0, h0, rfl⟩), by rw [hz]; exact hbase⟩
      · have hpre : e.prefixed k = true := by
          unfold St.conflict at hk2
          rw [hz] at hk2
          simpa [hbase] using hk2
        obtain ⟨s, hs⟩ := Option.isSome_iff_exists.mp (lookup_isSome.mpr hk1)
        rw [lookup_newSignals] at hs
        cases hv : visible (dict :: mro.map σ.dictOf) k with
        | some s' => rw [visible_eq.mp hv]; rfl
        | none =>
          rw [hv] at hs
          rcases hp' (k, s) (lookup_mem hs) with h | h
          · rw [hpre] at h; cases h
          · rw [lookMro_cons]
            obtain ⟨a, ha⟩ := Option.isSome_iff_exists.mp h
            rw [ha]; rfl)
  have hany : (dict.any fun x => e.forbidden x.1) = false := by
    rw [List.any_eq_false]
    intro x hx
    rw [hf x hx]
    simp
  have hmk : ∀ strict, mkClass e mro dict strict σ =
      if (strict && !isUniform e.annot [] ((newSignals σ mro dict).map Prod.snd)) = true
      then (.error .strict, { σ with names := setNames dict σ.names })
      else (.ok σ.classes.length, { σ with
        names := setNames dict σ.names,
        classes := σ.classes ++ [⟨mro, dict', some (newSignals σ mro dict),
          ((newSignals σ mro dict).map Prod.fst).filter (σ.conflict e),
          isUniform e.annot [] ((newSignals σ mro dict).map Prod.snd)⟩] }) := fun strict => by
    unfold mkClass
    simp only [h0, if_true, hany, Bool.false_eq_true, if_false]
    show (match delConflicts (mro.map σ.dictOf) (((newSignals σ mro dict).map Prod.fst).filter (σ.conflict e)) dict with
      | .error err => _
      | .ok dict' => _) = _
    rw [hd]
    rfl
  refine ⟨_, ⟨mro, dict', some (newSignals σ mro dict), _, _⟩, newSignals σ mro dict, hmk false, List.getElem?_concat_length,
    rfl, ?_, ?_⟩
  · simp only
    rw [isUniform_iff]
    simp only [List.mem_map]
    constructor
    · intro h x hx y hy
      exact h _ ⟨x, hx, rfl⟩ _ ⟨y, hy, rfl⟩
    · rintro h _ ⟨x, hx, rfl⟩ _ ⟨y, hy, rfl⟩
      exact h x hx y hy
  · rw [hmk true]
    cases isUniform e.annot [] ((newSignals σ mro dict).map Prod.snd) <;> simp

/-! ## Concrete programs

Names: 0 is `all`, 1 is `__len__`, 2 is `signals`, 50 is `psygnal_x`, 60 is `_psygnal_x`, others are free. -/

/-- Which names are which (`/repo/src/psygnal/_group.py:285`, `:313`). -/
def exEnv : Env := ⟨fun k => k == 60, fun k => k == 50 || k == 60, fun s => [s % 2]⟩

/-- Some attributes of `SignalGroup` (`/repo/src/psygnal/_group.py:333`, `:353`, `:365`). -/
def exBase : List (Nat × Attr) := [(0, .data), (1, .plain), (2, .data)]

/-- No signal has a name yet (`/repo/src/psygnal/_signal.py:306`). -/
def exInit : St := init exBase fun _ => none

/-- The name each signal has in `exOps`. -/
def exNames : Nat → Nat
  | 1 => 10
  | 2 => 0
  | 3 => 11
  | 4 => 10
  | _ => 0

/-- `class A(SignalGroup): a = Signal(); all = Signal(); other = 1`, `class B(A): b = Signal(); a = Signal()`, instances of
both, an attribute read. -/
def exOps : List Op :=
  [.cls [0] [(10, .signal 1), (0, .signal 2), (12, .plain)] false, .cls [1, 0] [(11, .signal 3), (10, .signal 4)] false,
   .group 2, .group 1, .read 0 10]

theorem exOps_ok : OpsOk exEnv exNames exOps exInit := by
  refine ⟨⟨fun k s h => ?_, by decide⟩, ⟨fun k s h => ?_, by decide⟩, trivial, trivial, trivial, trivial⟩
  · simp at h
    rcases h with ⟨rfl, rfl⟩ | ⟨rfl, rfl⟩ <;> rfl
  · simp at h
    rcases h with ⟨rfl, rfl⟩ | ⟨rfl, rfl⟩ <;> rfl

/-- The hypotheses of the theorems are met: groups of both classes, with signals of their own, inherited, replaced, reserved. -/
example : (∀ k s, (k, Attr.signal s) ∉ exBase) ∧ OpsOk exEnv exNames exOps exInit ∧
    ((run exEnv exOps exInit).groups.map fun gr => (gr.cls, gr.inst)) =
      [(2, [(0, 0), (10, 1), (11, 2)]), (1, [(0, 3), (10, 4)])] ∧
    (run exEnv exOps exInit).sis = [⟨2, 0, some 0⟩, ⟨4, 0, some 10⟩, ⟨3, 0, some 11⟩, ⟨2, 1, some 0⟩, ⟨1, 1, some 10⟩] ∧
    (getAttr 0 10 (run exEnv exOps exInit)).1 = .si 1 ∧ (getAttr 0 0 (run exEnv exOps exInit)).1 = .other :=
  ⟨by simp [exBase], exOps_ok, by decide, by decide, by decide, by decide⟩

/-- The views of the first group. -/
theorem C54_views_example : ((run exEnv exOps exInit).keys 0 = [0, 10, 11]) ∧ (run exEnv exOps exInit).len 0 = 3 ∧
    (run exEnv exOps exInit).has 0 11 = true ∧ (run exEnv exOps exInit).has 1 11 = false ∧
    (run exEnv exOps exInit).items 0 = [(0, 0), (10, 1), (11, 2)] ∧ (run exEnv exOps exInit).item 0 12 = none ∧
    (run exEnv exOps exInit).uniform 1 = false ∧ (run exEnv exOps exInit).uniform 0 = false ∧
    (step exEnv (.cls [0] [(10, .signal 1), (11, .signal 3)] true) exInit).uniform 1 = true := by decide

example : (∀ c ∈ [2, 1, 0], c = 0 ∨ ∃ cl, (run exEnv exOps exInit).classes[c]? = some cl ∧ cl.signals.isSome) := by
  intro c hc
  simp at hc
  rcases hc with rfl | rfl | rfl
  · exact .inr ⟨_, rfl, rfl⟩
  · exact .inr ⟨_, rfl, rfl⟩
  · exact .inl rfl

/-- A further subclass can be made, but not as a strict one. -/
example : (mkClass exEnv [2, 1, 0] [(13, .signal 5)] false (run exEnv exOps exInit)).1 = .ok 3 ∧
    (mkClass exEnv [2, 1, 0] [(13, .signal 5)] true (run exEnv exOps exInit)).1 = .error .strict := by decide

/-! ## What does not hold -/

/-- A group with a signal called `psygnal_x` can be made, but it cannot be subclassed: even an empty subclass raises
`AttributeError`. -/
theorem C54_subclass_refuted : ∃ σ, σ = run exEnv [.cls [0] [(50, .signal 1)] false] exInit ∧ σ.classes.length = 2 ∧
    (mkClass exEnv [1, 0] [] false σ).1 = .error .attribute := ⟨_, rfl, by decide, by decide⟩

/-- A reserved name used for a signal in a mixin: the group class cannot be made. -/
theorem C54_mixin_refuted : (mkClass exEnv [1, 0] [(10, .signal 2)] false
    (run exEnv [.cls [] [(0, .signal 1)] false] exInit)).1 = .error .attribute := by decide

/-- If the class has a signal of its own under that name it can be made, but then `group.all` is the mixin's signal. -/
theorem C54_unveiled_refuted : ∃ σ, σ = run exEnv [.cls [] [(0, .signal 1)] false, .cls [1, 0] [(0, .signal 2)] false, .group 2] exInit ∧
    (σ.item 0 0).bind (fun i => σ.sis[i]?) = some ⟨2, 0, some 0⟩ ∧ (getAttr 0 0 σ).1 = .si 1 ∧
    (getAttr 0 0 σ).2.sis[1]? = some ⟨1, 0, some 0⟩ := ⟨_, rfl, by decide, by decide, by decide⟩

/-- A class with two groups as bases has not all of their signals: those of the second with reserved names are lost. -/
theorem C54_two_bases_refuted : ∃ σ, σ = run exEnv [.cls [0] [(10, .signal 1)] false, .cls [0] [(2, .signal 2), (11, .signal 3)] false,
      .cls [1, 2, 0] [] false, .group 2, .group 3] exInit ∧
    (σ.item 0 2).isSome ∧ (σ.item 0 11).isSome ∧ (σ.item 1 10).isSome ∧ (σ.item 1 11).isSome ∧ σ.item 1 2 = none :=
  ⟨_, rfl, by decide, by decide, by decide, by decide, by decide⟩

/-- A signal with a name other than that of its attribute, `x = Signal(name="y")`: `group.x` is not `group["x"]`. -/
theorem C54_named_refuted : ∃ σ, σ = run exEnv [.cls [0] [(10, .signal 1)] false, .group 1]
      (init exBase fun s => if s = 1 then some 11 else none) ∧
    σ.item 0 10 = some 0 ∧ (getAttr 0 10 σ).1 = .si 1 ∧ (getAttr 0 11 σ).1 = .si 0 := ⟨_, rfl, by decide, by decide, by decide⟩

/-- A signal with two names, `a = b = Signal()`: `group.a` is `group["b"]` and not `group["a"]`. -/
theorem C54_two_names_refuted : ∃ σ, σ = run exEnv [.cls [0] [(10, .signal 1), (11, .signal 1)] false, .group 1] exInit ∧
    σ.item 0 10 = some 0 ∧ σ.item 0 11 = some 1 ∧ (getAttr 0 10 σ).1 = .si 1 := ⟨_, rfl, by decide, by decide, by decide⟩

/-- A subclass that puts something else in the place of an inherited signal: it stays in the group; a property hides the
signal, anything else is hidden by the signal. -/
theorem C54_override_refuted : ∃ σ, σ = run exEnv [.cls [0] [(10, .signal 1), (11, .signal 2)] false,
      .cls [1, 0] [(10, .data), (11, .plain)] false, .group 2] exInit ∧
    σ.attr 2 10 = some .data ∧ σ.attr 2 11 = some .plain ∧ σ.item 0 10 = some 0 ∧ σ.item 0 11 = some 1 ∧
    (getAttr 0 10 σ).1 = .other ∧ (getAttr 0 11 σ).1 = .si 1 :=
  ⟨_, rfl, by decide, by decide, by decide, by decide, by decide, by decide⟩

end Psygnal.GC
