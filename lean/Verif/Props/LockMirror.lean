import Verif.Props.Lock
import Verif.Props.SetConc
import Verif.Props.DictConc
import Verif.Props.ListConc
import Verif.Props.AttrConc
import Verif.Props.DelayConc

/-!
# C99: mirrors

With a lock around each operation, someone who follows what is told has what the container holds whenever nobody holds the lock; also if threads look at the
container without the lock.  `heard`, `mirror` are those of C96, C94 and C95.
-/

namespace Psygnal.StC

/-- Sets: someone who counts what is told has one for the items in the set and zero for the others. -/
theorem C99_set_mirror (d : List Nat) (hd : d.Nodup) (prog : Nat → Code) (l : List Nat) (x : Nat) :
    let p := Lk.run step inside l (init d prog, none)
    p.2 = none → heard d x p.1.log = (if x ∈ p.1.data.set then 1 else 0) := by
  intro p hn
  obtain ⟨s, h1, h2, h3⟩ := Lk.locked inside_other (σ0 := init d prog) (fun _ => rfl) l
  have hp : p.1 = run s (init d prog) := h1
  have hk : Known d (run s (init d prog)) :=
    known_from s ⟨fun _ hk => (nomatch (show false = true from hk)), fun _ => ⟨⟨hd, fun x => by show has x d = has x d + 0 + 0; omega⟩, rfl, rfl⟩⟩
      (fun a b e t u ht hu => h2 a b e t u (by rw [inside_busy]; exact ht) (by rw [inside_busy]; exact hu))
  obtain ⟨h4, h5⟩ := hk.rest (fun t => by rw [← inside_busy]; exact h3 hn t)
  have h6 : has x (run s (init d prog)).data.set = heard d x (run s (init d prog)).log + net x (run s (init d prog)).data.queue + 0 := h4.2 x
  rw [h5.2] at h6
  have h7 : net x [] = 0 := rfl
  rw [hp]
  show heard d x (run s (init d prog)).log = has x (run s (init d prog)).data.set
  omega

/-- The schedule of `C96_double_refuted`, but with the lock: told once. -/
example : let p := Lk.run step inside [0, 0, 1, 1, 0, 0, 0, 0, 1, 1, 1, 1] (init [5, 6] (exP (exAdd 7) (exAdd 7)), none)
    p.1.thr 0 = .run .ret ∧ p.1.thr 1 = .run .ret ∧ 7 ∈ p.1.data.set ∧ heard [5, 6] 7 p.1.log = 1 :=
  ⟨by rfl, by rfl, by decide, C99_set_mirror [5, 6] (by decide) (exP (exAdd 7) (exAdd 7)) _ 7 (by decide)⟩

end Psygnal.StC

namespace Psygnal.DcC

/-- Dictionaries: who keeps a copy has what each key holds. -/
theorem C99_dict_mirror (d : Dict) (prog : Nat → Code) (l : List Nat) (k : Nat) :
    let p := Lk.run step inside l (init d prog, none)
    p.2 = none → p.1.dict k = mirror d k p.1.log := by
  intro p hn
  obtain ⟨s, h1, h2, h3⟩ := Lk.locked inside_other (σ0 := init d prog) (fun _ => rfl) l
  have hp : p.1 = run s (init d prog) := h1
  have hb : ∀ (σ : St) t, (σ.thr t).key = some k → inside σ t = true := fun σ t h => by
    rw [inside_busy]
    cases hx : σ.thr t with
    | run c => rw [hx] at h; cases h
    | _ => rfl
  have hk : Known d k (run s (init d prog)) :=
    known_from s ⟨fun _ hk => (nomatch (show (none : Option Nat) = some k from hk)), fun _ => rfl⟩
      (fun a b e t u ht hu => h2 a b e t u (hb _ _ ht) (hb _ _ hu))
  rw [hp]
  exact hk.rest (fun t ht => Bool.noConfusion ((h3 hn t).symm.trans (hb _ t ht)))

/-- At any time, also while the lock is held: `added` comes when the copy does not have the key, `changed` and `removed` come with the value that it has, and
the only operations that raise `KeyError` are deletions when the copy does not have the key. -/
theorem C99_dict_story (d : Dict) (prog : Nat → Code) (l : List Nat) (k : Nat) (l1 l2 : List Ev) (e : Ev)
    (hl : (Lk.run step inside l (init d prog, none)).1.log = l1 ++ e :: l2) :
    (∀ t v, e = .added t k v → mirror d k l1 = none) ∧ (∀ t o v, e = .changed t k o v → mirror d k l1 = some o) ∧
    (∀ t i, e = .removed t k i → mirror d k l1 = some i) ∧ (∀ t x, e = .fail t k x → x = none ∧ mirror d k l1 = none) := by
  obtain ⟨s, h1, h2, _⟩ := Lk.locked inside_other (σ0 := init d prog) (fun _ => rfl) l
  have hb : ∀ (σ : St) t, (σ.thr t).key = some k → inside σ t = true := fun σ t h => by
    rw [inside_busy]
    cases hx : σ.thr t with
    | run c => rw [hx] at h; cases h
    | _ => rfl
  rw [show (Lk.run step inside l (init d prog, none)).1 = run s (init d prog) from h1] at hl
  exact story_known d prog s k (fun p w q e => known_from p ⟨fun _ hk => (nomatch (show (none : Option Nat) = some k from hk)), fun _ => rfl⟩
    (fun a b e' t u ht hu => h2 a (b ++ w :: q) (by rw [e, e', List.append_assoc]) t u (hb _ _ ht) (hb _ _ hu))) l1 l2 e hl

/-- The events of two assignments, the second of which comes while the lock is held. -/
def exL1 : List Ev := [.call 0 0 6, .has 0 0 true, .read 0 0 (some 5), .changing 0 0, .put 0 0 6, .changed 0 0 5 6, .call 1 0 7, .has 1 0 true,
  .read 1 0 (some 6), .changing 1 0, .put 1 0 7]

example : mirror exD 0 exL1 = some 6 :=
  (C99_dict_story exD (exP (exSet 0 6) (exSet 0 7)) [0, 0, 1, 1, 0, 0, 0, 0, 1, 1, 1, 1, 1, 1] 0 exL1 [] (.changed 1 0 6 7) (by decide)).2.1 1 6 7 rfl

/-- Two threads assign different values to one key, with the lock: the copy has the value stored last. -/
example : let p := Lk.run step inside [0, 0, 1, 1, 0, 0, 0, 0, 1, 1, 1, 1, 1, 1] (init exD (exP (exSet 0 6) (exSet 0 7)), none)
    p.1.thr 0 = .run .ret ∧ p.1.thr 1 = .run .ret ∧ p.1.dict 0 = some 7 ∧ p.1.dict 0 = mirror exD 0 p.1.log :=
  ⟨by rfl, by rfl, by decide, C99_dict_mirror exD (exP (exSet 0 6) (exSet 0 7)) _ 0 (by decide)⟩

end Psygnal.DcC

namespace Psygnal.LsC

/-- Lists: who keeps a copy has the list. -/
theorem C99_list_mirror (d : List Nat) (prog : Nat → Code) (l : List Nat) :
    let p := Lk.run step inside l (init d prog, none)
    p.2 = none → p.1.data = mirror d p.1.log := by
  intro p hn
  obtain ⟨s, h1, h2, h3⟩ := Lk.locked inside_other (σ0 := init d prog) (fun _ => rfl) l
  have hp : p.1 = run s (init d prog) := h1
  have hk : Known d (run s (init d prog)) :=
    known_from s ⟨fun _ hk => (nomatch (show false = true from hk)), fun _ => rfl⟩
      (fun a b e t u ht hu => h2 a b e t u (by rw [inside_busy]; exact ht) (by rw [inside_busy]; exact hu))
  rw [hp]
  exact hk.rest (fun t => by rw [← inside_busy]; exact h3 hn t)

/-- At any time, also while the lock is held: `changed`, `removed` and `moved` come with the item that the copy has at the index, and operations raise
`IndexError` only if the copy has nothing there. -/
theorem C99_list_story (d : List Nat) (prog : Nat → Code) (l : List Nat) (l1 l2 : List Ev) (e : Ev)
    (hl : (Lk.run step inside l (init d prog, none)).1.log = l1 ++ e :: l2) :
    (∀ t i o v, e = .changed t i o v → Py.getItem (mirror d l1) i = .ok o) ∧ (∀ t i x, e = .removed t i x → Py.getItem (mirror d l1) i = .ok x) ∧
    (∀ t a b x, e = .moved t a b x → Py.getItem (mirror d l1) a = .ok x) ∧ (∀ t i, e = .fail t i → (Py.getItem (mirror d l1) i).toOption = none) := by
  obtain ⟨s, h1, h2, _⟩ := Lk.locked inside_other (σ0 := init d prog) (fun _ => rfl) l
  rw [show (Lk.run step inside l (init d prog, none)).1 = run s (init d prog) from h1] at hl
  exact story_known d prog s (fun p w q e => known_from p ⟨fun _ hk => (nomatch (show false = true from hk)), fun _ => rfl⟩
    (fun a b e' t u ht hu => h2 a (b ++ w :: q) (by rw [e, e', List.append_assoc]) t u (by rw [inside_busy]; exact ht) (by rw [inside_busy]; exact hu))) l1 l2 e hl

/-- Two threads delete the first item: the second deletes the next one. -/
def exL1 : List Ev := [.callD 0 0, .removing 0 0, .took 0 0 (some 5), .removed 0 0 5, .callD 1 0, .removing 1 0, .took 1 0 (some 6)]

example : Py.getItem (mirror [5, 6] exL1) 0 = .ok 6 :=
  (C99_list_story [5, 6] (exP (exDel 0) (exDel 0)) [0, 0, 1, 1, 0, 0, 1, 1, 1, 1] exL1 [] (.removed 1 0 6) (by decide)).2.1 1 0 6 rfl

/-- One thread moves an item while another tries to delete one. -/
example : let p := Lk.run step inside [0, 0, 1, 1, 0, 0, 0, 0, 0, 0, 1, 1, 1, 1, 1] (init [5, 6] (exP (exMove 0 (-1)) (exDel 0)), none)
    p.1.thr 0 = .run .ret ∧ p.1.thr 1 = .run .ret ∧ p.1.data = [5] ∧ p.1.data = mirror [5, 6] p.1.log :=
  ⟨by rfl, by rfl, by decide, C99_list_mirror [5, 6] (exP (exMove 0 (-1)) (exDel 0)) _ (by decide)⟩

end Psygnal.LsC

namespace Psygnal.AtC

/-- Attributes, if the operator is not true of different values: who keeps the last value told has the value. -/
theorem C99_attr_mirror (c : Cfg) (a : Nat → Nat) (prog : Nat → Code) (l : List Nat) (n : Nat) (hc : ∀ x y, c.eq x y = true → x = y) :
    let p := Lk.run (step c) inside l (init a prog, none)
    p.2 = none → p.1.attr n = mirror a n p.1.log := by
  intro p hn
  obtain ⟨s, h1, h2, h3⟩ := Lk.locked (inside_other c) (σ0 := init a prog) (fun _ => rfl) l
  rw [show p.1 = run c s (init a prog) from h1]
  refine (known_run hc s (known_init a n prog) (fun p q e t u ht hu => h2 p q e t u (inside_busy ht) (inside_busy hu))).rest (fun t hb => ?_)
  have := inside_busy hb
  rw [show inside (run c s (init a prog)) t = false from h3 hn t] at this
  cases this

/-- Two threads assign 1 and 2, with the lock. -/
example : let p := Lk.run (step exD) inside exLk (init exA (exP 2), none)
    p.1.attr 0 = 2 ∧ p.1.attr 0 = mirror exA 0 p.1.log :=
  ⟨by decide, C99_attr_mirror exD exA (exP 2) exLk 0 (fun x y h => by simpa [exD] using h) (by decide)⟩

end Psygnal.AtC

namespace Psygnal.DlC

/-- Fields and properties of a model, if operators are not true of different values and properties depend only on the fields that declare them: who keeps the
last value told of any of them has its value. -/
theorem C99_dependents_mirror (c : Cls) (a : Nat → Nat) (todo : Nat → List (Nat × Nat)) (l : List Nat) (heq : ∀ k x y, c.eq k x y = true → x = y)
    (hnd : ∀ n, (n :: c.deps n).Nodup) (hf : ∀ t n v, (n, v) ∈ todo t → c.prop n = none)
    (hd : ∀ n m (b : Nat → Nat) v, c.prop n = none → m ∉ n :: c.deps n → c.get m (fun k => if k = n then v else b k) = c.get m b) :
    let p := Lk.run (step c) inside l (init a todo, none)
    p.2 = none → ∀ m, mirror (c.get m a) p.1.log m = c.get m p.1.attr := by
  intro p hp
  obtain ⟨s, h1, h2, h3⟩ := Lk.locked (inside_other c) (σ0 := init a todo) (fun _ => rfl) l
  have hpr : p.1 = run c s (init a todo) := h1
  have hi : ∀ t, (run c s (init a todo)).thr t = .idle := fun t => by
    have := h3 hp t
    cases hx : (run c s (init a todo)).thr t with
    | idle => rfl
    | _ => exact absurd (this.symm.trans (inside_busy.mpr (by rw [show (s.foldl (step c) (init a todo)).thr t = _ from hx]; exact fun e => nomatch e))) (by decide)
  have h0 : Good c a (init a todo) := .quiet ⟨fun _ => rfl, rfl, rfl, rfl, fun _ => rfl, hf⟩
  rw [hpr]
  rcases good_run heq hnd hd s h0 (fun p q e t u ht hu => h2 p q e t u (inside_busy.mpr ht) (inside_busy.mpr hu)) with h | ⟨t, σ0, j, k, _, hj, hk, hσ, hn, _⟩
  · exact h.right
  · exact absurd (hi t) (by rw [← hσ]; exact hn j hj hk)

/-- The schedule of `C93_silent_refuted`, but with the lock: the copy of property 1 has its value. -/
example : let p := Lk.run (step exC) inside exLk (init exA (exT 0), none)
    exC.get 1 p.1.attr = 2 ∧ ∀ m, mirror (exC.get m exA) p.1.log m = exC.get m p.1.attr := by
  refine ⟨by decide +kernel, C99_dependents_mirror exC exA (exT 0) exLk (fun k x y h => by simpa [exC] using h) exC_nodup (fun t n v h => ?_)
    (fun n m b v hn hm => ?_) (by decide +kernel)⟩
  · match t, h with
    | 0, h =>
      simp only [exT, List.mem_cons, Prod.mk.injEq, List.not_mem_nil, or_false] at h
      rcases h with ⟨rfl, _⟩ | ⟨rfl, _⟩ <;> rfl
    | 1, h =>
      simp only [exT, List.mem_cons, Prod.mk.injEq, List.not_mem_nil, or_false] at h
      obtain ⟨rfl, _⟩ := h
      rfl
  · by_cases hm1 : m = 1
    · subst hm1
      have hn0 : n ≠ 0 := fun e => hm (by rw [e]; decide)
      have hn0' : ¬ 0 = n := fun e => hn0 e.symm
      simp [Cls.get, exC, hn0']
    · have hmn : m ≠ n := fun e => hm (by rw [e]; exact List.mem_cons_self)
      simp [Cls.get, exC, hm1, hmn]

end Psygnal.DlC
