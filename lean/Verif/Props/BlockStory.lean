import Verif.Props.BlockMirror

/-!
# C100: each event fits the copy

Whatever the threads do in blocks `with lock:`, at any time, also while the lock is held, what listeners of a dictionary or list are told fits what they were
told before: `added` comes when the copy lacks the key, `changed`, `removed` and `moved` come with what the copy has, and `KeyError` and `IndexError` are
raised only if the copy lacks the key or index.
-/

namespace Psygnal.DcC

/-- The event fits a copy (specification, for `/repo/src/psygnal/containers/_evented_dict.py:176-192`). -/
def Fits (d : Dict) : Ev → Prop
  | .added _ k _ => d k = none
  | .changed _ k o _ => d k = some o
  | .removed _ k i => d k = some i
  | .fail _ k x => x = none ∧ d k = none
  | _ => True

/-- Each event fits the copy at its time (specification, for `/repo/src/psygnal/containers/_evented_dict.py:176-192`). -/
def Fit : Dict → List Ev → Prop
  | _, [] => True
  | d, e :: l => Fits d e ∧ Fit (copies d e) l

theorem fit_append {a b : List Ev} : ∀ {d : Dict}, Fit d (a ++ b) ↔ Fit d a ∧ Fit (a.foldl copies d) b := by
  induction a with
  | nil => exact fun {d} => ⟨fun h => ⟨trivial, h⟩, And.right⟩
  | cons e a ih => exact fun {d} => ⟨fun h => ⟨⟨h.1, (ih.mp h.2).1⟩, (ih.mp h.2).2⟩, fun h => ⟨h.1.1, ih.mpr ⟨h.1.2, h.2⟩⟩⟩

theorem alone_fit (t : Nat) (c : Code) : ∀ d : Dict, Fit d (alone t d c).1 := by
  induction c with
  | ret => exact fun _ => trivial
  | get k c ih => exact fun d => ⟨trivial, ih _ d⟩
  | set k v c ih =>
    intro d
    unfold alone
    cases hd : d k with
    | none => exact ⟨trivial, trivial, trivial, trivial, hd, ih _ _⟩
    | some o =>
      dsimp only
      split
      · exact ⟨trivial, trivial, trivial, trivial, ih _ _⟩
      · exact ⟨trivial, trivial, trivial, trivial, trivial, hd, ih _ _⟩
  | del k c ih =>
    intro d
    unfold alone
    cases hd : d k with
    | none => exact ⟨trivial, trivial, ⟨rfl, hd⟩, ih _ _⟩
    | some i => exact ⟨trivial, trivial, trivial, trivial, hd, ih _ _⟩

theorem one_fit {prog : Nat → List Ev → Option Code} {d x : Dict} {l : List Ev} (h : OneByOne prog d l x) : Fit d l ∧ l.foldl copies d = x := by
  induction h with
  | nil => exact ⟨trivial, rfl⟩
  | @block l d1 t c _ _ ih =>
    rw [List.foldl_append, ih.2]
    exact ⟨fit_append.mpr ⟨ih.1, by rw [ih.2]; exact alone_fit t c d1⟩, alone_copies t c d1⟩

/-- Dictionaries, at any time. -/
theorem C100_dict_story (d : Dict) (prog : Nat → List Ev → Option Code) (s : List Nat) (l1 l2 : List Ev) (e : Ev)
    (hl : (Blk.run sys (code prog) s (start d)).log = l1 ++ e :: l2) :
    (∀ t k v, e = .added t k v → l1.foldl copies d k = none) ∧ (∀ t k o v, e = .changed t k o v → l1.foldl copies d k = some o) ∧
    (∀ t k i, e = .removed t k i → l1.foldl copies d k = some i) ∧ (∀ t k x, e = .fail t k x → x = none ∧ l1.foldl copies d k = none) := by
  have h : Fit d (Blk.run sys (code prog) s (start d)).log := by
    cases hk : (Blk.run sys (code prog) s (start d)).lock with
    | none => exact (one_fit (C100_dict d prog s hk)).1
    | some t =>
      obtain ⟨l, d1, c, k, r, h1, _, h2, h3⟩ := C100_dict_held d prog s t hk
      have h2 : (Blk.run sys (code prog) s (start d)).log = l ++ k := h2
      obtain ⟨h4, h5⟩ := one_fit h1
      have h6 := alone_fit t c d1
      rw [← h3] at h6
      rw [h2]
      exact fit_append.mpr ⟨h4, by rw [h5]; exact (fit_append.mp h6).1⟩
  rw [hl] at h
  have h := (fit_append.mp h).2.1
  refine ⟨?_, ?_, ?_, ?_⟩ <;> (intros; subst_vars; exact h)

/-- What happens before thread 2 tells that it has added key 1, which thread 0 removed (blocks of `exB`). -/
def exBefore : List Ev := [.look 0 1 (some 5), .callD 0 1, .read 0 1 (some 5), .removing 0 1, .took 0 1 (some 5), .removed 0 1 5, .look 1 1 none, .look 2 1 none,
  .look 2 1 none, .call 2 1 7, .has 2 1 false, .adding 2 1, .put 2 1 7]

example : (exBefore.foldl copies fun k => if k = 1 then some 5 else none) 1 = none :=
  (C100_dict_story (fun k => if k = 1 then some 5 else none) exB [0, 0, 1, 0, 0, 0, 0, 0, 1, 1, 2, 2, 0, 2, 2, 2, 1, 2, 2, 2, 2] exBefore [] (.added 2 1 7)
    (by decide)).1 2 1 7 rfl

end Psygnal.DcC

namespace Psygnal.LsC

/-- The event fits a copy (specification, for `/repo/src/psygnal/containers/_evented_list.py:162-197,271-290`). -/
def Fits (l : List Nat) : Ev → Prop
  | .changed _ i o _ => item l i = some o
  | .removed _ i x => item l i = some x
  | .moved _ i _ x => item l i = some x
  | .fail _ i => item l i = none
  | _ => True

/-- Each event fits the copy at its time (specification, for `/repo/src/psygnal/containers/_evented_list.py:162-197,271-290`). -/
def Fit : List Nat → List Ev → Prop
  | _, [] => True
  | d, e :: l => Fits d e ∧ Fit (copies d e) l

theorem fit_append {a b : List Ev} : ∀ {d : List Nat}, Fit d (a ++ b) ↔ Fit d a ∧ Fit (a.foldl copies d) b := by
  induction a with
  | nil => exact fun {d} => ⟨fun h => ⟨trivial, h⟩, And.right⟩
  | cons e a ih => exact fun {d} => ⟨fun h => ⟨⟨h.1, (ih.mp h.2).1⟩, (ih.mp h.2).2⟩, fun h => ⟨h.1.1, ih.mpr ⟨h.1.2, h.2⟩⟩⟩

theorem alone_fit (t : Nat) (c : Code) : ∀ l : List Nat, Fit l (alone t l c).1 := by
  have hpre : ∀ (b : Prop) [Decidable b] (n : Nat) (l : List Nat) (m : List Ev), Fit l m → Fit l ((if b then [Ev.len t n] else []) ++ m) := by
    intro b _ n l m h
    split
    · exact ⟨trivial, h⟩
    · exact h
  induction c with
  | ret => exact fun _ => trivial
  | get k c ih => exact fun l => ⟨trivial, ih _ l⟩
  | len c ih => exact fun l => ⟨trivial, ih _ l⟩
  | insert i v c ih => exact fun l => ⟨trivial, trivial, trivial, trivial, ih _⟩
  | set i v c ih =>
    intro l
    unfold alone
    cases hd : item l i with
    | none => exact ⟨trivial, trivial, hd, ih _ _⟩
    | some o =>
      dsimp only
      split
      · exact ⟨trivial, trivial, trivial, ih _ _⟩
      · exact ⟨trivial, trivial, trivial, hd, ih _ _⟩
  | del i c ih =>
    intro l
    unfold alone
    dsimp only
    cases hd : item l (if i < 0 then i + l.length else i) with
    | none => exact ⟨trivial, hpre _ _ _ _ ⟨trivial, trivial, hd, ih _ _⟩⟩
    | some x => exact ⟨trivial, hpre _ _ _ _ ⟨trivial, trivial, hd, ih _ _⟩⟩
  | move s d c ih =>
    intro l
    unfold alone
    dsimp only
    generalize (if d < 0 then d + ((l.length : Int) + 1) else d) = e
    by_cases he : e = s ∨ e = s + 1
    · simp only [if_pos he]
      exact ⟨trivial, hpre _ _ _ _ ⟨trivial, ih _ _⟩⟩
    · simp only [if_neg he]
      cases hd : item l s with
      | none => exact ⟨trivial, hpre _ _ _ _ ⟨trivial, trivial, hd, ih _ _⟩⟩
      | some x =>
        obtain ⟨l', hl⟩ := pop_some hd
        refine ⟨trivial, hpre _ _ _ _ ⟨trivial, trivial, trivial, hd, trivial, ?_⟩⟩
        simp only [copies, without, hl]
        exact ih _ _

theorem one_fit {prog : Nat → List Ev → Option Code} {d x : List Nat} {l : List Ev} (h : OneByOne prog d l x) : Fit d l ∧ l.foldl copies d = x := by
  induction h with
  | nil => exact ⟨trivial, rfl⟩
  | @block l d1 t c _ _ ih =>
    rw [List.foldl_append, ih.2]
    exact ⟨fit_append.mpr ⟨ih.1, by rw [ih.2]; exact alone_fit t c d1⟩, alone_copies t c d1⟩

/-- Lists, at any time. -/
theorem C100_list_story (d : List Nat) (prog : Nat → List Ev → Option Code) (s : List Nat) (l1 l2 : List Ev) (e : Ev)
    (hl : (Blk.run sys (code prog) s (start d)).log = l1 ++ e :: l2) :
    (∀ t i o v, e = .changed t i o v → (Py.getItem (l1.foldl copies d) i).toOption = some o) ∧
    (∀ t i x, e = .removed t i x → (Py.getItem (l1.foldl copies d) i).toOption = some x) ∧
    (∀ t i j x, e = .moved t i j x → (Py.getItem (l1.foldl copies d) i).toOption = some x) ∧
    (∀ t i, e = .fail t i → (Py.getItem (l1.foldl copies d) i).toOption = none) := by
  have h : Fit d (Blk.run sys (code prog) s (start d)).log := by
    cases hk : (Blk.run sys (code prog) s (start d)).lock with
    | none => exact (one_fit (C100_list d prog s hk)).1
    | some t =>
      obtain ⟨l, d1, c, k, r, h1, _, h2, h3⟩ := C100_list_held d prog s t hk
      have h2 : (Blk.run sys (code prog) s (start d)).log = l ++ k := h2
      obtain ⟨h4, h5⟩ := one_fit h1
      have h6 := alone_fit t c d1
      rw [← h3] at h6
      rw [h2]
      exact fit_append.mpr ⟨h4, by rw [h5]; exact (fit_append.mp h6).1⟩
  rw [hl] at h
  have h := (fit_append.mp h).2.1
  refine ⟨?_, ?_, ?_, ?_⟩ <;> (intros; subst_vars; exact h)

/-- Thread 0 has the lock and tells that it moved an item. -/
example : (Py.getItem ([Ev.callM 0 0 (-1), .len 0 3, .moving 0 0 3, .took 0 0 (some 5), .ins 0 2 5].foldl copies [5, 6, 7]) 0).toOption = some 5 :=
  (C100_list_story [5, 6, 7] exMv [0, 0, 1, 0, 0, 0, 0, 0] [.callM 0 0 (-1), .len 0 3, .moving 0 0 3, .took 0 0 (some 5), .ins 0 2 5] [] (.moved 0 0 2 5)
    (by decide +kernel)).2.2.1 0 0 2 5 rfl

end Psygnal.LsC
