import Verif.FieldsLemmas
import Verif.Props.Dataclass
/-!
# C68: the fields of evented classes

A class decorated with `evented` reports changes of exactly its mutable fields: those declared by it
or its bases, each once, with the type of the latest declaration, whatever library made the classes.
What holds is this, if one library made all classes that declare something, and, for msgspec, without
the types of inherited fields.
-/
namespace Psygnal.Flds

/-- The order in which `iter_fields` asks (`_dataclass_utils.py:163,169,180,185`). -/
def Lib.rank : Lib → Nat
  | .dc => 0
  | .pyd => 1
  | .attrs => 2
  | .msg => 3
  | .plain => 4

/-- `lib` made classes of the chain, and none is made by a library that is asked before. -/
structure Speaks (lib : Lib) (c : Cls) : Prop where
  some : ∃ l ∈ c, l.lib = lib
  first : ∀ l ∈ c, lib.rank ≤ l.lib.rank

/-- The declaration makes a field that can be set. -/
structure IsField (lib : Lib) (excludeFrozen : Bool) (d : Decl) : Prop where
  inst : d.kind ≠ .classVar
  noInit : lib = .dc → d.kind ≠ .initVar
  mutable : lib = .pyd → excludeFrozen = true → d.frozen = false

theorem Speaks.none {lib l' : Lib} {c : Cls} (h : Speaks lib c) (hr : l'.rank < lib.rank) : ∀ l ∈ c, l.lib ≠ l' := by
  intro l hl q
  have := h.first l hl
  rw [q] at this
  exact absurd this (Nat.not_le.mpr hr)

theorem getD_of_ne {α : Type} {o : Option (List α)} (h : ¬ o = none) : o = some (o.getD []) := by
  cases o with
  | none => exact absurd rfl h
  | some x => rfl

/-- **C68**: the fields are those whose latest declaration is one of a field, with its type, each once. -/
theorem C68_fields_partial (c : Cls) (hw : WF c) (lib : Lib) (hs : Speaks lib c) (hp : lib ≠ .plain) (hm : lib ≠ .msg)
    (x : Bool) :
    (∀ n t, (n, t) ∈ iterFields c x ↔
      ∃ d, Latest (declsOf lib c) d ∧ IsField lib x d ∧ d.name = n ∧ t = some d.type) ∧
    ((iterFields c x).map (·.1)).Nodup := by
  obtain ⟨l0, hl0, e0⟩ := hs.some
  have hd := collect_dc hw
  have hy := collect_pyd hw
  have ha := collect_seq hw .attrs
  unfold iterFields
  cases lib with
  | plain => exact absurd rfl hp
  | msg => exact absurd rfl hm
  | dc =>
    rw [getD_of_ne (fun q => hd.1.mp q l0 hl0 e0)]
    dsimp only
    refine ⟨fun n t => ?_, ?_⟩
    · rw [List.mem_map]
      constructor
      · rintro ⟨d, h, e⟩
        rw [List.mem_filter, hd.2.mem] at h
        have hk : d.kind = .field := of_decide_eq_true h.2
        cases e
        exact ⟨d, h.1, ⟨by simp [hk], fun _ => by simp [hk], (fun q => by cases q)⟩, rfl, rfl⟩
      · rintro ⟨d, h, hf, rfl, rfl⟩
        refine ⟨d, ?_, rfl⟩
        rw [List.mem_filter, hd.2.mem]
        refine ⟨h, decide_eq_true ?_⟩
        have h1 := hf.inst
        have h2 := hf.noInit rfl
        cases hk : d.kind <;> simp_all
    · rw [List.map_map]
      exact nodup_filter _ hd.2.nodup
  | pyd =>
    rw [hd.1.mpr (hs.none (by decide)), getD_of_ne (fun q => hy.1.mp q l0 hl0 e0)]
    dsimp only
    refine ⟨fun n t => ?_, ?_⟩
    · rw [List.mem_map]
      constructor
      · rintro ⟨d, h, e⟩
        rw [List.mem_filter, hy.2.mem, latest_field hw] at h
        cases e
        refine ⟨d, h.1.1, ⟨h.1.2, (fun q => by cases q), fun _ q => ?_⟩, rfl, rfl⟩
        have := h.2
        simp [q] at this
        exact this
      · rintro ⟨d, h, hf, rfl, rfl⟩
        refine ⟨d, ?_, rfl⟩
        rw [List.mem_filter, hy.2.mem, latest_field hw]
        refine ⟨⟨h, hf.inst⟩, ?_⟩
        have := hf.mutable rfl
        cases x <;> simp_all
    · rw [List.map_map]
      exact nodup_filter _ hy.2.nodup
  | attrs =>
    rw [hd.1.mpr (hs.none (by decide)), hy.1.mpr (hs.none (by decide)), getD_of_ne (fun q => ha.1.mp q l0 hl0 e0)]
    dsimp only
    refine ⟨fun n t => ?_, ?_⟩
    · rw [List.mem_map]
      constructor
      · rintro ⟨d, h, e⟩
        rw [ha.2.mem, latest_field hw] at h
        cases e
        exact ⟨d, h.1, ⟨h.2, (fun q => by cases q), (fun q => by cases q)⟩, rfl, rfl⟩
      · rintro ⟨d, h, hf, rfl, rfl⟩
        refine ⟨d, ?_, rfl⟩
        rw [ha.2.mem, latest_field hw]
        exact ⟨h, hf.inst⟩
    · rw [List.map_map]
      exact ha.2.nodup

/-- **C68**, msgspec: the names are right; the type is that of the annotation in the class itself, and
`None` for inherited fields. -/
theorem C68_struct_partial (c : Cls) (l : Layer) (hw : WF (c ++ [l])) (hs : Speaks .msg (c ++ [l])) (x : Bool) :
    (∀ n, n ∈ (iterFields (c ++ [l]) x).map (·.1) ↔
      ∃ d, Latest (declsOf .msg (c ++ [l])) d ∧ d.kind ≠ .classVar ∧ d.name = n) ∧
    (∀ d ∈ l.decls, ∀ t, (d.name, t) ∈ iterFields (c ++ [l]) x → t = some d.type) ∧
    (∀ n t, (∀ d ∈ l.decls, d.name ≠ n) → (n, t) ∈ iterFields (c ++ [l]) x → t = none) ∧
    ((iterFields (c ++ [l]) x).map (·.1)).Nodup := by
  obtain ⟨l0, hl0, e0⟩ := hs.some
  have hd := collect_dc hw
  have hy := collect_pyd hw
  have ha := collect_seq hw .attrs
  have hm := collect_seq hw .msg
  have he : iterFields (c ++ [l]) x =
      ((collect .msg seqOwn (c ++ [l])).getD []).map fun d => (d.name, ownType (c ++ [l]) d.name) := by
    unfold iterFields
    rw [hd.1.mpr (hs.none (by decide)), hy.1.mpr (hs.none (by decide)), ha.1.mpr (hs.none (by decide)),
      getD_of_ne (fun q => hm.1.mp q l0 hl0 e0)]
    rfl
  have ho : ∀ n, ownType (c ++ [l]) n = (l.decls.find? (·.name = n)).map (·.type) := by
    intro n; simp [ownType]
  rw [he]
  refine ⟨fun n => ?_, ?_, ?_, ?_⟩
  · rw [List.map_map, List.mem_map]
    constructor
    · rintro ⟨d, h, e⟩
      rw [hm.2.mem, latest_field hw] at h
      exact ⟨d, h.1, h.2, e⟩
    · rintro ⟨d, h, hf, e⟩
      refine ⟨d, ?_, e⟩
      rw [hm.2.mem, latest_field hw]
      exact ⟨h, hf⟩
  · intro d hdl t h
    obtain ⟨e, _, q⟩ := List.mem_map.mp h
    injection q with q1 q2
    rw [q1, ho] at q2
    rw [← q2]
    have hnd := hw.nodup l (by simp)
    cases hf : l.decls.find? (·.name = d.name) with
    | none =>
      have := List.find?_eq_none.mp hf d hdl
      simp at this
    | some y =>
      have h1 : y.name = d.name := by
        have := List.find?_some hf
        simpa using this
      have h2 := List.mem_of_find?_eq_some hf
      have : y = d := by
        obtain ⟨u, v, e⟩ := List.append_of_mem h2
        rw [e, List.map_append, List.map_cons, List.nodup_append, List.nodup_cons] at hnd
        rw [e] at hdl
        rcases List.mem_append.mp hdl with q | q
        · exact absurd h1.symm (hnd.2.2 d.name (List.mem_map_of_mem q) y.name (by simp))
        · rcases List.mem_cons.mp q with q | q
          · exact q.symm
          · exact absurd (h1 ▸ List.mem_map_of_mem q) hnd.2.1.1
      rw [this]
      rfl
  · intro n t hn h
    obtain ⟨e, _, q⟩ := List.mem_map.mp h
    injection q with q1 q2
    rw [q1, ho, List.find?_eq_none.mpr (fun d hd => by simpa using hn d hd)] at q2
    rw [← q2]
    rfl
  · rw [List.map_map]
    exact hm.2.nodup

/-- **C68**: a class that no library made has no fields. -/
theorem C68_none (c : Cls) (hw : WF c) (hp : ∀ l ∈ c, l.lib = .plain) (x : Bool) : iterFields c x = [] := by
  have h : ∀ lib, lib ≠ .plain → ∀ l ∈ c, l.lib ≠ lib := fun lib hl l hlc q => hl (q.symm.trans (hp l hlc))
  unfold iterFields
  rw [(collect_dc hw).1.mpr (h _ (by decide)), (collect_pyd hw).1.mpr (h _ (by decide)),
    (collect_seq hw .attrs).1.mpr (h _ (by decide)), (collect_seq hw .msg).1.mpr (h _ (by decide))]

theorem mem_fields (c : Cls) (n : Nat) : (∃ f ∈ fields c, f.name = n) ↔ n ∈ (iterFields c true).map (·.1) := by
  unfold fields
  simp only [List.mem_map]
  constructor
  · rintro ⟨f, ⟨p, hp, rfl⟩, e⟩; exact ⟨p, hp, e⟩
  · rintro ⟨p, hp, e⟩; exact ⟨_, ⟨p, hp, rfl⟩, e⟩

/-- **C68**: the group has exactly one signal for each such field, named like it; the class is refused, when the
group is made, exactly if a field has a reserved name. -/
theorem C68_signals (reserved : Nat → Bool) (c : Cls) (hw : WF c) (lib : Lib) (hs : Speaks lib c) (hp : lib ≠ .plain) :
    (DC.build reserved (fields c) ⟨[], []⟩ (.mapping []) = none ↔
      ∃ d, Latest (declsOf lib c) d ∧ IsField lib true d ∧ reserved d.name = true) ∧
    ∀ g, DC.build reserved (fields c) ⟨[], []⟩ (.mapping []) = some g →
      g.sigs.Nodup ∧ ∀ n, n ∈ g.sigs ↔ ∃ d, Latest (declsOf lib c) d ∧ IsField lib true d ∧ d.name = n := by
  have hn : ∀ n, (∃ f ∈ fields c, f.name = n) ↔ ∃ d, Latest (declsOf lib c) d ∧ IsField lib true d ∧ d.name = n := by
    intro n
    rw [mem_fields]
    by_cases hm : lib = .msg
    · subst hm
      have hc : c ≠ [] := by
        obtain ⟨l, hl, _⟩ := hs.some
        intro q; rw [q] at hl; cases hl
      rcases List.eq_nil_or_concat c with q | ⟨c', l, q⟩
      · exact absurd q hc
      · rw [List.concat_eq_append] at q
        subst q
        rw [(C68_struct_partial c' l hw hs true).1]
        constructor
        · rintro ⟨d, h1, h2, h3⟩; exact ⟨d, h1, ⟨h2, (fun q => by cases q), (fun q => by cases q)⟩, h3⟩
        · rintro ⟨d, h1, h2, h3⟩; exact ⟨d, h1, h2.inst, h3⟩
    · have := (C68_fields_partial c hw lib hs hp hm true).1
      rw [List.mem_map]
      constructor
      · rintro ⟨⟨n', t⟩, h, rfl⟩
        obtain ⟨d, h1, h2, h3, _⟩ := (this _ _).mp h
        exact ⟨d, h1, h2, h3⟩
      · rintro ⟨d, h1, h2, h3⟩
        exact ⟨(n, some d.type), (this _ _).mpr ⟨d, h1, h2, h3, rfl⟩, rfl⟩
  have ht : ∀ n, DC.target (.mapping []) ⟨[], []⟩ n = some n := by
    intro n; rfl
  refine ⟨?_, fun g hg => ?_⟩
  · rw [DC.C41_reserved]
    constructor
    · rintro ⟨s, h1, _, f, hf, e⟩
      rw [ht] at e
      obtain ⟨d, h2, h3, h4⟩ := (hn s).mp ⟨f, hf, by simpa using e⟩
      exact ⟨d, h2, h3, h4 ▸ h1⟩
    · rintro ⟨d, h1, h2, h3⟩
      obtain ⟨f, hf, e⟩ := (hn d.name).mpr ⟨d, h1, h2, rfl⟩
      exact ⟨d.name, h3, by simp, f, hf, by rw [ht, e]⟩
  · have h := DC.C41_signals hg
    refine ⟨h.2 (by simp), fun n => ?_⟩
    rw [h.1, ← hn]
    constructor
    · rintro (q | ⟨f, hf, e⟩)
      · cases q
      · rw [ht] at e; exact ⟨f, hf, by simpa using e⟩
    · rintro ⟨f, hf, rfl⟩
      exact .inr ⟨f, hf, ht _⟩

/-! ## The decorator -/

/-- **C68**: `evented` refuses exactly a class with a reserved name among its own annotations; else the class is evented
with the given namespace, where the group is found, and its fields are as before. -/
theorem C68_evented_partial (reserved : Nat → Bool) (ns : Nat) (c : Cls) (l : Layer) (x : Bool) :
    (evented reserved ns (c ++ [l]) = none ↔ ∃ d ∈ l.decls, reserved d.name = true) ∧
    ∀ c', evented reserved ns (c ++ [l]) = some c' →
      isEvented c' = true ∧ namespace? c' = some ns ∧ lookup c' ns = some true ∧
      iterFields c' x = iterFields (c ++ [l]) x := by
  have he : evented reserved ns (c ++ [l]) =
      if l.decls.any (fun d => reserved d.name) then none
      else some (c ++ [{ l with attrs := l.attrs ++ [(ns, true)] }]) := by
    simp [evented]
  rw [he]
  refine ⟨?_, ?_⟩
  · split
    · rename_i h
      rw [List.any_eq_true] at h
      exact ⟨fun _ => h, fun _ => rfl⟩
    · rename_i h
      rw [List.any_eq_true] at h
      exact ⟨(fun q => by cases q), fun q => absurd q h⟩
  · intro c' h
    split at h
    · cases h
    · cases h
      have h1 : namespace? (c ++ [{ l with attrs := l.attrs ++ [(ns, true)] }]) = some ns := by
        simp [namespace?, Layer.flag]
      refine ⟨by simp [isEvented, h1], h1, by simp [lookup], ?_⟩
      have hc : ∀ mine own, collect mine own (c ++ [{ l with attrs := l.attrs ++ [(ns, true)] }]) =
          collect mine own (c ++ [l]) := by
        intro mine own; simp [collect]
      have ho : ∀ n, ownType (c ++ [{ l with attrs := l.attrs ++ [(ns, true)] }]) n = ownType (c ++ [l]) n := by
        intro n; simp [ownType]
      simp only [iterFields, hc, ho]

/-- **C68**: a class is evented exactly if it or a base was given a descriptor. -/
theorem C68_isEvented (c : Cls) : isEvented c = true ↔ ∃ l ∈ c, ∃ a ∈ l.attrs, a.2 = true := by
  unfold isEvented namespace?
  rw [List.isSome_findSome?, List.any_eq_true]
  constructor
  · rintro ⟨l, hl, h⟩
    rw [List.mem_reverse] at hl
    simp only [Layer.flag, Option.isSome_map, List.find?_isSome, List.mem_reverse] at h
    exact ⟨l, hl, h⟩
  · rintro ⟨l, hl, h⟩
    refine ⟨l, List.mem_reverse.mpr hl, ?_⟩
    simp only [Layer.flag, Option.isSome_map, List.find?_isSome, List.mem_reverse]
    exact h

/-- **C68**: `get_evented_namespace` is the name of the descriptor assigned last, and the descriptor is found there,
if nothing else was assigned to that name later. -/
theorem C68_namespace_partial (a b : Cls) (l : Layer) (u v : List (Nat × Bool)) (n : Nat)
    (hl : l.attrs = u ++ (n, true) :: v) (hv : ∀ e ∈ v, e.2 = false) (hb : ∀ k ∈ b, ∀ e ∈ k.attrs, e.2 = false) :
    namespace? (a ++ l :: b) = some n ∧
    ((∀ e ∈ v, e.1 ≠ n) → (∀ k ∈ b, ∀ e ∈ k.attrs, e.1 ≠ n) → lookup (a ++ l :: b) n = some true) := by
  have hfind : ∀ (p : Nat × Bool → Bool) (w : List (Nat × Bool)), (∀ e ∈ w, p e = false) → w.reverse.find? p = none := by
    intro p w h
    rw [List.find?_eq_none]
    intro e he
    rw [h e (List.mem_reverse.mp he)]
    decide
  refine ⟨?_, fun h1 h2 => ?_⟩
  · unfold namespace?
    rw [List.reverse_append, List.reverse_cons, List.findSome?_append, List.findSome?_append,
      List.findSome?_eq_none_iff.mpr]
    · have : l.flag = some n := by
        unfold Layer.flag
        rw [hl, List.reverse_append, List.reverse_cons, List.find?_append, List.find?_append, hfind _ v hv]
        rfl
      simp [this]
    · intro k hk
      unfold Layer.flag
      rw [hfind _ k.attrs (hb k (List.mem_reverse.mp hk))]
      rfl
  · unfold lookup
    rw [List.reverse_append, List.reverse_cons, List.findSome?_append, List.findSome?_append,
      List.findSome?_eq_none_iff.mpr]
    · have : (l.attrs.reverse.find? (·.1 = n)) = some (n, true) := by
        rw [hl, List.reverse_append, List.reverse_cons, List.find?_append, List.find?_append,
          hfind _ v (fun e he => decide_eq_false (h1 e he))]
        simp
      simp [this]
    · intro k hk
      rw [hfind _ k.attrs (fun e he => decide_eq_false (h2 k (List.mem_reverse.mp hk) e he))]
      rfl

/-! ## Cases -/

/-- Types: an ordinary one and that of arrays. -/
def Ex.int : DC.Ty := ⟨false, false⟩

def Ex.arr : DC.Ty := ⟨false, true⟩

/-- `class A: x: int; y: ClassVar[int]; z: InitVar[int]; w: int (frozen)`, `class B(A): v: array; x: array`,
`class C(B): u: int` without decorator, the first two by the library. -/
def Ex.chain (lib : Lib) : Cls :=
  [⟨lib, [⟨0, Ex.int, .field, false⟩, ⟨1, Ex.int, .classVar, false⟩, ⟨2, Ex.int, .initVar, false⟩,
    ⟨3, Ex.int, .field, true⟩], [], false⟩,
   ⟨lib, [⟨4, Ex.arr, .field, false⟩, ⟨0, Ex.arr, .field, false⟩], [(20, true), (21, false)], false⟩,
   ⟨.plain, [⟨5, Ex.int, .field, false⟩], [(22, false)], false⟩]

theorem Ex.wf (lib : Lib) : WF (Ex.chain lib) := by
  constructor
  · cases lib <;> decide
  · cases lib <;> decide

theorem Ex.speaks (lib : Lib) (h : lib ≠ .plain) : Speaks lib (Ex.chain lib) := by
  constructor
  · exact ⟨_, List.mem_cons_self .., rfl⟩
  · cases lib <;> first | exact absurd rfl h | decide

example : iterFields (Ex.chain .dc) true = [(0, some Ex.arr), (3, some Ex.int), (4, some Ex.arr)] ∧
    iterFields (Ex.chain .pyd) true = [(0, some Ex.arr), (2, some Ex.int), (4, some Ex.arr)] ∧
    iterFields (Ex.chain .pyd) false = [(0, some Ex.arr), (2, some Ex.int), (3, some Ex.int), (4, some Ex.arr)] ∧
    iterFields (Ex.chain .attrs) true = [(2, some Ex.int), (3, some Ex.int), (4, some Ex.arr), (0, some Ex.arr)] ∧
    iterFields (Ex.chain .plain) true = [] := by decide

example : Latest (declsOf .dc (Ex.chain .dc)) ⟨0, Ex.arr, .field, false⟩ ∧
    IsField .dc true ⟨0, Ex.arr, .field, false⟩ :=
  ⟨⟨(Ex.chain .dc).flatMap (·.decls) |>.take 5, [], rfl, by simp⟩, by decide, by decide, by decide⟩

/-- The hypotheses of `C68_namespace_partial`. -/
example : namespace? (Ex.chain .dc) = some 20 ∧ lookup (Ex.chain .dc) 20 = some true ∧ isEvented (Ex.chain .dc) = true := by
  decide

example : (evented (· == 5) 30 (Ex.chain .dc)) = none ∧ (evented (· == 6) 30 (Ex.chain .dc)).isSome = true := by decide

/-! ## What does not hold -/

/-- An attrs class derived from a dataclass: its own fields have no signals, as `__dataclass_fields__` is looked at
first. -/
theorem C68_mixed_refuted : ∃ c : Cls, WF c ∧
    (∃ l ∈ c.getLast?, l.lib = .attrs ∧ ⟨1, Ex.int, .field, false⟩ ∈ l.decls) ∧
    iterFields c true = [(0, some Ex.int)] :=
  ⟨[⟨.dc, [⟨0, Ex.int, .field, false⟩], [], false⟩, ⟨.attrs, [⟨1, Ex.int, .field, false⟩], [], false⟩],
    ⟨by decide, by decide⟩, by decide, by decide⟩

/-- A msgspec struct that inherits a field with arrays: they are compared with `==` instead of `np.array_equal`, as for
the class that declares the field. -/
theorem C68_struct_refuted : ∃ (a l : Layer), WF [a, l] ∧ Speaks .msg [a, l] ∧
    DC.operators true (fun _ => none) (fields [a]) (fun _ => none) 0 = some .arrayEqual ∧
    DC.operators true (fun _ => none) (fields [a, l]) (fun _ => none) 0 = some .eq :=
  ⟨⟨.msg, [⟨0, Ex.arr, .field, false⟩], [], false⟩, ⟨.msg, [⟨1, Ex.int, .field, false⟩], [], false⟩,
    ⟨by decide, by decide⟩, ⟨by decide, by decide⟩, by decide, by decide⟩

/-- `evented` is documented to raise `TypeError` for frozen classes: it accepts them. -/
theorem C68_frozen_refuted : ∃ l : Layer, l.lib = .dc ∧ l.frozen = true ∧ (evented (fun _ => false) 9 [l]).isSome = true ∧
    iterFields [l] true = [(0, some Ex.int)] :=
  ⟨⟨.dc, [⟨0, Ex.int, .field, false⟩], [], true⟩, by decide⟩

/-- A field with a reserved name in a base class is not noticed by `evented`, only when the group is made. -/
theorem C68_reserved_refuted : ∃ (c : Cls), WF c ∧ Speaks .dc c ∧ (evented (· == 0) 9 c).isSome = true ∧
    (DC.build (· == 0) (fields c) ⟨[], []⟩ (.mapping [])).isNone = true :=
  ⟨[⟨.dc, [⟨0, Ex.int, .field, false⟩], [], false⟩, ⟨.dc, [⟨1, Ex.int, .field, false⟩], [], false⟩],
    ⟨by decide, by decide⟩, ⟨by decide, by decide⟩, by decide, by decide⟩

/-- A derived class that uses the name for something else still has it as namespace. -/
theorem C68_namespace_refuted : ∃ (c : Cls) (n : Nat), namespace? c = some n ∧ lookup c n = some false :=
  ⟨[⟨.dc, [], [(9, true)], false⟩, ⟨.dc, [], [(9, false)], false⟩], 9, by decide⟩

end Psygnal.Flds
