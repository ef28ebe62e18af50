import Verif.Props.Block

/-!
# C100: mirrors

Whatever the threads do in blocks `with lock:`, a listener that does to a copy of the dictionary or list what it is told, in the order in which it is told it,
has a copy of the contents whenever nobody holds the lock.
-/

namespace Psygnal.DcC

/-- What a listener does to its copy when it is told `added`, `changed` or `removed` (specification, for `/repo/src/psygnal/containers/_evented_dict.py:180,186,192`). -/
def copies (d : Dict) : Ev → Dict
  | .added _ k v => fun m => if m = k then some v else d m
  | .changed _ k _ v => fun m => if m = k then some v else d m
  | .removed _ k _ => fun m => if m = k then none else d m
  | _ => d

theorem alone_copies (t : Nat) (c : Code) : ∀ d : Dict, (alone t d c).1.foldl copies d = (alone t d c).2 := by
  induction c with
  | ret => exact fun _ => rfl
  | get k c ih => exact fun d => ih _ d
  | set k v c ih =>
    intro d
    unfold alone
    cases hd : d k with
    | none => exact ih _ _
    | some o =>
      dsimp only
      split
      · exact ih _ _
      · exact ih _ _
  | del k c ih =>
    intro d
    unfold alone
    cases hd : d k with
    | none => exact ih _ _
    | some i => exact ih _ _

/-- Dictionaries: for all programs in blocks, the copy is the dictionary. -/
theorem C100_dict_mirror (d : Dict) (prog : Nat → List Ev → Option Code) (s : List Nat) :
    let p := Blk.run sys (code prog) s (start d)
    p.lock = none → p.log.foldl copies d = p.data := by
  intro p hn
  have h := C100_dict d prog s hn
  generalize p.log = l at h ⊢
  generalize p.data = x at h ⊢
  induction h with
  | nil => rfl
  | @block l d1 t c _ _ ih => rw [List.foldl_append, ih, alone_copies]

/-- Without a lock the copy differs: thread 0 stores before thread 1, and tells after it. -/
theorem C100_dict_mirror_refuted : ∃ s, let p := run s (init (fun _ => none) fun t => if t < 2 then .set 1 (5 + t) fun _ => .ret else .ret)
    p.thr 0 = .run .ret ∧ p.thr 1 = .run .ret ∧ p.dict 1 = some 6 ∧ (p.log.foldl copies fun _ => none) 1 = some 5 :=
  ⟨[0, 0, 1, 1, 0, 0, 1, 1, 1, 0], by rfl, by rfl, by decide, by decide⟩

example : let p := Blk.run sys (code exB) [0, 0, 1, 0, 0, 0, 0, 0, 1, 1, 2, 2, 0, 2, 2, 2, 1, 2, 2, 2, 2] (start fun k => if k = 1 then some 5 else none)
    p.data 1 = some 7 ∧ p.log.foldl copies (fun k => if k = 1 then some 5 else none) = p.data :=
  ⟨by decide, C100_dict_mirror _ exB _ (by decide)⟩

end Psygnal.DcC

namespace Psygnal.LsC

/-- What a listener does to its copy when it is told `inserted`, `removed`, `changed` or `moved` (specification, for
`/repo/src/psygnal/containers/_evented_list.py:142,178,187,288`). -/
def copies (l : List Nat) : Ev → List Nat
  | .inserted _ i v => Py.insert l i v
  | .removed _ i _ => match Py.pop l i with
    | .ok (_, l') => l'
    | .error _ => l
  | .changed _ i _ v => match Py.setItem l i v with
    | .ok l' => l'
    | .error _ => l
  | .moved _ i j v => match Py.pop l i with
    | .ok (_, l') => Py.insert l' j v
    | .error _ => l
  | _ => l

theorem pop_some {l : List Nat} {i : Int} {x : Nat} (h : item l i = some x) : ∃ l', Py.pop l i = .ok (x, l') := by
  unfold item Py.getItem at h
  unfold Py.pop
  cases hi : Py.normIndex l.length i with
  | none => rw [hi] at h; cases h
  | some n =>
    rw [hi, Option.bind_some] at h
    dsimp only at h ⊢
    cases hl : l[n]? with
    | none => rw [hl] at h; cases h
    | some y => rw [hl] at h; cases h; exact ⟨_, rfl⟩

theorem alone_copies (t : Nat) (c : Code) : ∀ l : List Nat, (alone t l c).1.foldl copies l = (alone t l c).2 := by
  have hpre : ∀ (b : Prop) [Decidable b] (n : Nat) (l k : List Nat) (m : List Ev),
      m.foldl copies l = k → ((if b then [Ev.len t n] else []) ++ m).foldl copies l = k := by
    intro b _ n l k m h
    split <;> exact h
  induction c with
  | ret => exact fun _ => rfl
  | get k c ih => exact fun l => ih _ l
  | len c ih => exact fun l => ih _ l
  | insert i v c ih => exact fun l => ih _
  | set i v c ih =>
    intro l
    unfold alone
    cases hd : item l i with
    | none => exact ih _ _
    | some o =>
      dsimp only
      split
      · exact ih _ _
      · exact ih _ _
  | del i c ih =>
    intro l
    unfold alone
    dsimp only
    cases hd : item l (if i < 0 then i + l.length else i) with
    | none => exact hpre _ _ _ _ _ (ih _ _)
    | some x => exact hpre _ _ _ _ _ (ih _ _)
  | move s d c ih =>
    intro l
    unfold alone
    dsimp only
    generalize (if d < 0 then d + ((l.length : Int) + 1) else d) = e
    by_cases he : e = s ∨ e = s + 1
    · simp only [if_pos he]
      exact hpre _ _ _ _ _ (ih _ _)
    · simp only [if_neg he]
      cases hd : item l s with
      | none => exact hpre _ _ _ _ _ (ih _ _)
      | some x =>
        obtain ⟨l', hl⟩ := pop_some hd
        refine hpre _ _ _ _ _ ?_
        dsimp only
        simp only [List.foldl_cons, copies, without, hl]
        exact ih _ _

/-- Lists: for all programs in blocks, the copy is the list. -/
theorem C100_list_mirror (d : List Nat) (prog : Nat → List Ev → Option Code) (s : List Nat) :
    let p := Blk.run sys (code prog) s (start d)
    p.lock = none → p.log.foldl copies d = p.data := by
  intro p hn
  have h := C100_list d prog s hn
  generalize p.log = l at h ⊢
  generalize p.data = x at h ⊢
  induction h with
  | nil => rfl
  | @block l d1 t c _ _ ih => rw [List.foldl_append, ih, alone_copies]

/-- Each thread moves, replaces, deletes and appends. -/
def exMv (t : Nat) (l : List Ev) : Option Code :=
  if t < 2 ∧ l = [] then some (.move 0 (-1) fun _ => .set t (20 + t) fun _ => .del (-1) fun _ => append (30 + t) .ret) else none

/-- Thread 1 tries while thread 0 is in its block. -/
def exMvS : List Nat := 0 :: 0 :: 1 :: List.replicate 30 0 ++ List.replicate 30 1

example : let p := Blk.run sys (code exMv) exMvS (start [5, 6, 7])
    p.lock = none ∧ p.data = [7, 21, 31] ∧ p.log.foldl copies [5, 6, 7] = p.data :=
  ⟨by decide +kernel, by decide +kernel, C100_list_mirror [5, 6, 7] exMv exMvS (by decide +kernel)⟩

/-- Without a lock the copy differs. -/
theorem C100_list_mirror_refuted : ∃ s, let p := run s (init [] fun t => if t < 2 then .insert 0 (5 + t) .ret else .ret)
    p.thr 0 = .run .ret ∧ p.thr 1 = .run .ret ∧ p.data = [6, 5] ∧ p.log.foldl copies [] = [5, 6] :=
  ⟨[0, 0, 1, 1, 0, 1, 1, 0], by rfl, by rfl, by decide, by decide⟩

end Psygnal.LsC
