import Verif.ListConc

/-! # Lemmas for C95 -/
namespace Psygnal.LsC

/-- The thread of an event. -/
def Ev.thread : Ev → Nat
  | .callI t _ _ | .callS t _ _ | .callD t _ | .callM t _ _ | .len t _ | .read t _ _ | .ins t _ _ | .put t _ _ _ | .took t _ _ => t
  | .inserting t _ | .inserted t _ _ | .changed t _ _ _ | .removing t _ | .removed t _ _ | .moving t _ _ | .moved t _ _ _ | .reordered t => t
  | .same t _ _ | .stay t _ _ | .fail t _ | .look t _ _ | .size t _ => t

/-- What a plain list holds after what happened to it - insertions, assignments and removals - if it was `d` before. -/
def value (d : List Nat) (l : List Ev) : List Nat :=
  l.foldl (fun x e => match e with
    | .ins _ i v => Py.insert x i v
    | .put _ i v (some _) => ((Py.setItem x i v).toOption).getD x
    | .took _ i (some _) => ((Py.pop x i).toOption.map Prod.snd).getD x
    | _ => x) d

/-- What someone has who keeps a copy: inserts what is `inserted`, replaces what is `changed`, drops what is `removed`, moves what is `moved`. -/
def mirror (d : List Nat) (l : List Ev) : List Nat :=
  l.foldl (fun x e => match e with
    | .inserted _ i v => Py.insert x i v
    | .changed _ i _ v => ((Py.setItem x i v).toOption).getD x
    | .removed _ i _ => ((Py.pop x i).toOption.map Prod.snd).getD x
    | .moved _ s e v => Py.insert (((Py.pop x s).toOption.map Prod.snd).getD x) e v
    | _ => x) d

/-- No event of thread `t`. -/
def Free (t : Nat) (l : List Ev) : Prop := ∀ e ∈ l, e.thread ≠ t

/-- The events of thread `t`. -/
def only (t : Nat) (l : List Ev) : List Ev := l.filter (fun e => e.thread == t)

/-- The index a deletion of key `i` uses: the length is read, and added, if the key is negative. -/
inductive Idx (t : Nat) (i : Int) : List Ev → Int → Prop
  | pos (h : 0 ≤ i) : Idx t i [] i
  | neg (h : i < 0) (n : Nat) : Idx t i [.len t n] (i + n)

/-- The destination a move uses: the length is read, and added together with one, if it is negative. -/
inductive Dest (t : Nat) (d : Int) : List Ev → Int → Prop
  | pos (h : 0 ≤ d) : Dest t d [] d
  | neg (h : d < 0) (n : Nat) : Dest t d [.len t n] (d + (n + 1))

/-- The events of one whole operation of thread `t`. -/
inductive Op (t : Nat) : List Ev → Prop
  | inserted (i : Int) (v : Nat) : Op t [.callI t i v, .inserting t i, .ins t i v, .inserted t i v]
  | changed (i : Int) (v o x : Nat) (h : v ≠ o) : Op t [.callS t i v, .read t i (some o), .put t i v (some x), .changed t i o v]
  | same (i : Int) (v : Nat) : Op t [.callS t i v, .read t i (some v), .same t i v]
  | outS (i : Int) (v : Nat) : Op t [.callS t i v, .read t i none, .fail t i]
  | lateS (i : Int) (v o : Nat) (h : v ≠ o) : Op t [.callS t i v, .read t i (some o), .put t i v none, .fail t i]
  | removed {i j : Int} {p : List Ev} (h : Idx t i p j) (x : Nat) : Op t (.callD t i :: (p ++ [.removing t j, .took t j (some x), .removed t j x]))
  | outD {i j : Int} {p : List Ev} (h : Idx t i p j) : Op t (.callD t i :: (p ++ [.removing t j, .took t j none, .fail t j]))
  | stay {s d e : Int} {p : List Ev} (h : Dest t d p e) (he : e = s ∨ e = s + 1) : Op t (.callM t s d :: (p ++ [.stay t s e]))
  | moved {s d e : Int} {p : List Ev} (h : Dest t d p e) (he : ¬ (e = s ∨ e = s + 1)) (x : Nat) :
      Op t (.callM t s d :: (p ++ [.moving t s e, .took t s (some x), .ins t (if s < e then e - 1 else e) x,
        .moved t s (if s < e then e - 1 else e) x, .reordered t]))
  | outM {s d e : Int} {p : List Ev} (h : Dest t d p e) (he : ¬ (e = s ∨ e = s + 1)) :
      Op t (.callM t s d :: (p ++ [.moving t s e, .took t s none, .fail t s]))
  | look (i : Int) (x : Option Nat) : Op t [.look t i x]
  | size (n : Nat) : Op t [.size t n]

/-- What program `c` does with one whole operation `m` of thread `t`, and how it goes on: it learns whether an assignment or deletion raised, what `move`
returned or that it raised, what it looked up. -/
inductive Does (t : Nat) : Code → List Ev → Code → Prop
  | insert {i : Int} {v : Nat} {c : Code} {m : List Ev} (h : Op t m) (hm : m.head? = some (.callI t i v)) : Does t (.insert i v c) m c
  | set {i : Int} {v : Nat} {f : Bool → Code} {m : List Ev} (h : Op t m) (hm : m.head? = some (.callS t i v)) (b : Bool)
      (hb : b = true ↔ ∃ j, m.getLast? = some (.fail t j)) : Does t (.set i v f) m (f b)
  | del {i : Int} {f : Bool → Code} {m : List Ev} (h : Op t m) (hm : m.head? = some (.callD t i)) (b : Bool)
      (hb : b = true ↔ ∃ j, m.getLast? = some (.fail t j)) : Does t (.del i f) m (f b)
  | move {s d : Int} {f : Option Bool → Code} {m : List Ev} (h : Op t m) (hm : m.head? = some (.callM t s d)) (r : Option Bool)
      (h1 : r = none ↔ ∃ j, m.getLast? = some (.fail t j)) (h2 : r = some true ↔ m.getLast? = some (.reordered t))
      (h3 : r = some false ↔ ∃ e, m.getLast? = some (.stay t s e)) : Does t (.move s d f) m (f r)
  | get {i : Int} {f : Option Nat → Code} (x : Option Nat) : Does t (.get i f) [.look t i x] (f x)
  | len {f : Nat → Code} (n : Nat) : Does t (.len f) [.size t n] (f n)

/-- The program `c` of thread `t` has made the events `l` and goes on as the other one. -/
inductive Follows (t : Nat) (c : Code) : List Ev → Code → Prop
  | nil : Follows t c [] c
  | op {l m : List Ev} {c1 c2 : Code} (h : Follows t c l c1) (ho : Does t c1 m c2) : Follows t c (l ++ m) c2

/-- Operations one after the other. -/
inductive Blocks (t : Nat) : List Ev → Prop
  | nil : Blocks t []
  | op {l m : List Ev} (h : Blocks t l) (ho : Op t m) : Blocks t (l ++ m)

/-! ## Lists -/

theorem item_iff {l : List Nat} {i : Int} {x : Nat} : item l i = some x ↔ ∃ j, Py.normIndex l.length i = some j ∧ l[j]? = some x := by
  unfold item Py.getItem
  cases hj : Py.normIndex l.length i with
  | none => simp [Except.toOption]
  | some j =>
    cases hx : l[j]? with
    | none => simp [hx, Except.toOption]
    | some y => simp [hx, Except.toOption]

theorem norm_lt {n j : Nat} {i : Int} (h : Py.normIndex n i = some j) : j < n := by
  unfold Py.normIndex at h
  dsimp only at h
  by_cases hi : i < 0
  · rw [if_pos hi] at h
    by_cases hc : 0 ≤ i + n ∧ i + n < n
    · rw [if_pos hc] at h; cases h; omega
    · rw [if_neg hc] at h; cases h
  · rw [if_neg hi] at h
    by_cases hc : 0 ≤ i ∧ i < n
    · rw [if_pos hc] at h; cases h; omega
    · rw [if_neg hc] at h; cases h

theorem item_some {l : List Nat} {i : Int} : (item l i).isSome ↔ ∃ j, Py.normIndex l.length i = some j := by
  constructor
  · intro h
    obtain ⟨x, hx⟩ := Option.isSome_iff_exists.mp h
    obtain ⟨j, h1, _⟩ := item_iff.mp hx
    exact ⟨j, h1⟩
  · rintro ⟨j, h⟩
    have hj : l[j]? = some (l[j]'(norm_lt h)) := List.getElem?_eq_getElem (norm_lt h)
    rw [item_iff.mpr ⟨j, h, hj⟩]; rfl

/-- An index is good if it is good for fewer items. -/
theorem norm_mono {n m : Nat} {i : Int} (hnm : n ≤ m) (h : ∃ j, Py.normIndex n i = some j) : ∃ j, Py.normIndex m i = some j := by
  obtain ⟨j, h⟩ := h
  unfold Py.normIndex at h ⊢
  dsimp only at h ⊢
  by_cases hi : i < 0
  · simp only [if_pos hi] at h ⊢
    by_cases hc : 0 ≤ i + n ∧ i + n < n
    · rw [if_pos (by omega)]; exact ⟨_, rfl⟩
    · rw [if_neg hc] at h; cases h
  · simp only [if_neg hi] at h ⊢
    by_cases hc : 0 ≤ i ∧ i < n
    · rw [if_pos (by omega)]; exact ⟨_, rfl⟩
    · rw [if_neg hc] at h; cases h

theorem pop_of_item {l : List Nat} {i : Int} {x : Nat} (h : item l i = some x) :
    ∃ j, j < l.length ∧ l[j]? = some x ∧ Py.pop l i = .ok (x, l.eraseIdx j) := by
  obtain ⟨j, h1, h2⟩ := item_iff.mp h
  exact ⟨j, norm_lt h1, h2, by simp [Py.pop, h1, h2]⟩

theorem set_of_item {l : List Nat} {i : Int} {x : Nat} (v : Nat) (h : item l i = some x) :
    ∃ j, j < l.length ∧ l[j]? = some x ∧ Py.setItem l i v = .ok (l.set j v) := by
  obtain ⟨j, h1, h2⟩ := item_iff.mp h
  exact ⟨j, norm_lt h1, h2, by simp [Py.setItem, h1]⟩

theorem count_erase {l : List Nat} {j x y : Nat} (h : l[j]? = some x) : (l.eraseIdx j).count y + (if x = y then 1 else 0) = l.count y := by
  induction l generalizing j with
  | nil => simp at h
  | cons a l ih =>
    cases j with
    | zero =>
      obtain rfl : a = x := by simpa using h
      simp [List.count_cons]
    | succ j =>
      have := ih (j := j) (by simpa using h)
      rw [List.eraseIdx_cons_succ, List.count_cons, List.count_cons]
      omega

theorem count_set {l : List Nat} {j x y v : Nat} (h : l[j]? = some x) :
    (l.set j v).count y + (if x = y then 1 else 0) = l.count y + (if v = y then 1 else 0) := by
  induction l generalizing j with
  | nil => simp at h
  | cons a l ih =>
    cases j with
    | zero =>
      obtain rfl : a = x := by simpa using h
      simp [List.count_cons]; omega
    | succ j =>
      have := ih (j := j) (by simpa using h)
      rw [List.set_cons_succ, List.count_cons, List.count_cons]
      omega

theorem count_insert (l : List Nat) (i : Int) (v y : Nat) : (Py.insert l i v).count y = l.count y + (if v = y then 1 else 0) := by
  have := congrArg (List.count y) (List.take_append_drop (Py.insertPos l.length i) l)
  rw [List.count_append] at this
  simp [Py.insert, List.count_append, List.count_cons]
  omega

theorem length_insert (l : List Nat) (i : Int) (v : Nat) : (Py.insert l i v).length = l.length + 1 := by
  have := congrArg List.length (List.take_append_drop (Py.insertPos l.length i) l)
  rw [List.length_append] at this
  simp [Py.insert] at *
  omega

theorem on_value (e : Ev) (l : List Nat) : e.on l = value l [e] := by
  cases e with
  | put t i v x =>
    cases x with
    | none => rfl
    | some x => simp only [Ev.on, value, List.foldl]; cases Py.setItem l i v <;> rfl
  | took t i x =>
    cases x with
    | none => rfl
    | some x => simp only [Ev.on, value, List.foldl]; cases h : Py.pop l i <;> rfl
  | _ => rfl

theorem value_append (d : List Nat) (l1 l2 : List Ev) : value d (l1 ++ l2) = value (value d l1) l2 := by simp [value, List.foldl_append]

theorem value_snoc (d : List Nat) (l : List Ev) (e : Ev) : value d (l ++ [e]) = e.on (value d l) := by rw [value_append, on_value]

theorem on_took {l : List Nat} {i : Int} {x : Nat} (t : Nat) (h : item l i = some x) :
    ∃ j, l[j]? = some x ∧ (Ev.took t i (some x)).on l = l.eraseIdx j ∧ j < l.length := by
  obtain ⟨j, h1, h2, h3⟩ := pop_of_item h
  exact ⟨j, h2, by simp [Ev.on, h3], h1⟩

theorem on_put {l : List Nat} {i : Int} {x : Nat} (t v : Nat) (h : item l i = some x) :
    ∃ j, l[j]? = some x ∧ (Ev.put t i v (some x)).on l = l.set j v ∧ j < l.length := by
  obtain ⟨j, h1, h2, h3⟩ := set_of_item v h
  exact ⟨j, h2, by simp [Ev.on, h3], h1⟩

/-- Each event belongs to a moment of the run. -/
theorem moment {d : List Nat} {prog : Nat → Code} {e : Ev} {l2 : List Ev} : ∀ (s : List Nat) {l1 : List Ev},
    (run s (init d prog)).log = l1 ++ e :: l2 → ∃ p t q y, s = p ++ t :: q ∧ (run p (init d prog)).log = l1 ∧
      next (run p (init d prog)).data t ((run p (init d prog)).thr t) = some (e, y) := by
  intro s
  induction hn : s.length generalizing s l2 with
  | zero =>
    intro l1 h
    rw [List.length_eq_zero_iff.mp hn] at h
    have := congrArg List.length h
    simp [run, init] at this
  | succ n ih =>
    intro l1 h
    rcases List.eq_nil_or_concat s with rfl | ⟨s, t, rfl⟩
    · simp at hn
    · have hn' : s.length = n := by simpa using hn
      have hr : run (s ++ [t]) (init d prog) = step (run s (init d prog)) t := by simp [run, List.foldl_append]
      rw [List.concat_eq_append, hr] at h
      unfold step at h
      split at h
      · obtain ⟨p, u, q, y, h1, h2, h3⟩ := ih s hn' h
        exact ⟨p, u, q ++ [t], y, by simp [h1], h2, h3⟩
      · rename_i e' x hnx
        have h : (run s (init d prog)).log ++ [e'] = l1 ++ e :: l2 := h
        rcases List.eq_nil_or_concat l2 with rfl | ⟨l3, z, rfl⟩
        · have h4 := List.append_inj' h rfl
          have h5 : e' = e := by have := h4.2; cases this; rfl
          exact ⟨s, t, [], x, by simp, h4.1, h5 ▸ hnx⟩
        · have h4 : (run s (init d prog)).log ++ [e'] = (l1 ++ e :: l3) ++ [z] := by rw [h]; simp
          obtain ⟨p, u, q, y, h1, h2, h3⟩ := ih s hn' (List.append_inj' h4 rfl).1
          exact ⟨p, u, q ++ [t], y, by simp [h1], h2, h3⟩

theorem step_some {σ : St} {t : Nat} {e : Ev} {x : Ctl} (h : next σ.data t (σ.thr t) = some (e, x)) :
    step σ t = ⟨e.on σ.data, fun u => if u = t then x else σ.thr u, σ.log ++ [e]⟩ := by
  unfold step; rw [h]

theorem step_none {σ : St} {t : Nat} (h : next σ.data t (σ.thr t) = none) : step σ t = σ := by
  unfold step; rw [h]

theorem next_thread {d : List Nat} {t : Nat} {x y : Ctl} {e : Ev} (h : next d t x = some (e, y)) : e.thread = t := by
  cases x with
  | run c => cases c <;> first | (cases h; rfl) | cases h
  | _ => cases h; rfl

/-! ## The list -/

theorem data_step {d : List Nat} {σ : St} (h : σ.data = value d σ.log) (t : Nat) : (step σ t).data = value d (step σ t).log := by
  cases hn : next σ.data t (σ.thr t) with
  | none => rw [step_none hn]; exact h
  | some p =>
    obtain ⟨e, x⟩ := p
    rw [step_some hn]
    show e.on σ.data = value d (σ.log ++ [e])
    rw [value_snoc, h]

theorem data_from {d : List Nat} : ∀ (s : List Nat) {σ : St}, σ.data = value d σ.log → (run s σ).data = value d (run s σ).log
  | [], _, h => h
  | t :: s, _, h => data_from s (data_step h t)

theorem data_run (d : List Nat) (prog : Nat → Code) (s : List Nat) : (run s (init d prog)).data = value d (run s (init d prog)).log :=
  data_from s rfl

/-- Without removals a good index stays good. -/
theorem value_stays {i : Int} : ∀ {l : List Ev} {d : List Nat}, (item d i).isSome → (∀ t j x, .took t j (some x) ∉ l) → (item (value d l) i).isSome
  | [], _, h, _ => h
  | e :: l, d, h, h2 => by
    rw [show e :: l = [e] ++ l from rfl, value_append]
    refine value_stays ?_ (fun t j x hm => h2 t j x (List.mem_cons_of_mem _ hm))
    rw [← on_value]
    have key : d.length ≤ (e.on d).length := by
      cases e with
      | ins t j v => simp [Ev.on, length_insert]
      | put t j v x =>
        cases x with
        | none => exact Nat.le_refl _
        | some x =>
          simp only [Ev.on, Py.setItem]
          cases Py.normIndex d.length j <;> simp
      | took t j x =>
        cases x with
        | none => exact Nat.le_refl _
        | some x => exact absurd List.mem_cons_self (h2 t j x)
      | _ => exact Nat.le_refl _
    exact item_some.mpr (norm_mono key (item_some.mp h))

theorem length_grows : ∀ {l : List Ev} {d : List Nat}, (∀ t j x, .took t j (some x) ∉ l) → d.length ≤ (value d l).length
  | [], _, _ => Nat.le_refl _
  | e :: l, d, h2 => by
    rw [show e :: l = [e] ++ l from rfl, value_append]
    refine Nat.le_trans ?_ (length_grows (fun t j x hm => h2 t j x (List.mem_cons_of_mem _ hm)))
    rw [← on_value]
    cases e with
    | ins t j v => simp [Ev.on, length_insert]
    | put t j v x =>
      cases x with
      | none => exact Nat.le_refl _
      | some x =>
        simp only [Ev.on, Py.setItem]
        cases Py.normIndex d.length j <;> simp
    | took t j x =>
      cases x with
      | none => exact Nat.le_refl _
      | some x => exact absurd List.mem_cons_self (h2 t j x)
    | _ => exact Nat.le_refl _

/-! ## The events of one thread -/

/-- `m` may be the events of the current operation. -/
def Ctl.Part (t : Nat) (m : List Ev) : Ctl → Prop
  | .run _ => m = []
  | .inserting i v _ => m = [.callI t i v]
  | .ins i v _ => m = [.callI t i v, .inserting t i]
  | .inserted i v _ => m = [.callI t i v, .inserting t i, .ins t i v]
  | .old i v _ => m = [.callS t i v]
  | .same i v _ => m = [.callS t i v, .read t i (some v)]
  | .put i v o _ => v ≠ o ∧ m = [.callS t i v, .read t i (some o)]
  | .changed i v o _ => v ≠ o ∧ ∃ x, m = [.callS t i v, .read t i (some o), .put t i v (some x)]
  | .failS i v _ => m = [.callS t i v, .read t i none] ∨ ∃ o, v ≠ o ∧ m = [.callS t i v, .read t i (some o), .put t i v none]
  | .lenD i _ => i < 0 ∧ m = [.callD t i]
  | .removing i j _ => ∃ p, Idx t i p j ∧ m = .callD t i :: p
  | .take i j _ => ∃ p, Idx t i p j ∧ m = .callD t i :: (p ++ [.removing t j])
  | .removed i j x _ => ∃ p, Idx t i p j ∧ m = .callD t i :: (p ++ [.removing t j, .took t j (some x)])
  | .failD i j _ => ∃ p, Idx t i p j ∧ m = .callD t i :: (p ++ [.removing t j, .took t j none])
  | .lenM s d _ => d < 0 ∧ m = [.callM t s d]
  | .stay s d e _ => (e = s ∨ e = s + 1) ∧ ∃ p, Dest t d p e ∧ m = .callM t s d :: p
  | .moving s d e _ => ¬ (e = s ∨ e = s + 1) ∧ ∃ p, Dest t d p e ∧ m = .callM t s d :: p
  | .takeM s d e _ => ¬ (e = s ∨ e = s + 1) ∧ ∃ p, Dest t d p e ∧ m = .callM t s d :: (p ++ [.moving t s e])
  | .insM s d e' x _ => ∃ e p, ¬ (e = s ∨ e = s + 1) ∧ Dest t d p e ∧ e' = (if s < e then e - 1 else e) ∧
      m = .callM t s d :: (p ++ [.moving t s e, .took t s (some x)])
  | .moved s d e' x _ => ∃ e p, ¬ (e = s ∨ e = s + 1) ∧ Dest t d p e ∧ e' = (if s < e then e - 1 else e) ∧
      m = .callM t s d :: (p ++ [.moving t s e, .took t s (some x), .ins t e' x])
  | .reordered s d e' x _ => ∃ e p, ¬ (e = s ∨ e = s + 1) ∧ Dest t d p e ∧ e' = (if s < e then e - 1 else e) ∧
      m = .callM t s d :: (p ++ [.moving t s e, .took t s (some x), .ins t e' x, .moved t s e' x])
  | .failM s d e _ => ¬ (e = s ∨ e = s + 1) ∧ ∃ p, Dest t d p e ∧ m = .callM t s d :: (p ++ [.moving t s e, .took t s none])

/-- The program at the beginning of the current operation. -/
def Ctl.code : Ctl → Code
  | .run c => c
  | .inserting i v c | .ins i v c | .inserted i v c => .insert i v c
  | .old i v c | .same i v c | .failS i v c => .set i v c
  | .put i v _ c | .changed i v _ c => .set i v c
  | .lenD i c => .del i c
  | .removing i _ c | .take i _ c | .removed i _ _ c | .failD i _ c => .del i c
  | .lenM s d c => .move s d c
  | .stay s d _ c | .moving s d _ c | .takeM s d _ c | .insM s d _ _ c | .moved s d _ _ c | .reordered s d _ _ c | .failM s d _ c => .move s d c

theorem need_part {t : Nat} {s d e : Int} {p : List Ev} {c : Option Bool → Code} (h : Dest t d p e) :
    (need s d e c).Part t (.callM t s d :: p) ∧ (need s d e c).code = .move s d c := by
  unfold need
  split
  · rename_i he; exact ⟨⟨he, p, h, rfl⟩, rfl⟩
  · rename_i he; exact ⟨⟨he, p, h, rfl⟩, rfl⟩

theorem last_snoc (a : Ev) (p m : List Ev) (e : Ev) : (a :: (p ++ m) ++ [e]).getLast? = some e := List.getLast?_concat

/-- A step goes on with the operation or ends it. -/
theorem part_next {l : List Nat} {t : Nat} {m : List Ev} {x y : Ctl} {e : Ev} (h : x.Part t m) (hn : next l t x = some (e, y)) :
    (y.Part t (m ++ [e]) ∧ y.code = x.code) ∨ ∃ c, Does t x.code (m ++ [e]) c ∧ y = .run c := by
  cases x with
  | run c =>
    obtain rfl : m = [] := h
    cases c with
    | ret => cases hn
    | insert i v c => cases hn; exact .inl ⟨rfl, rfl⟩
    | set i v c => cases hn; exact .inl ⟨rfl, rfl⟩
    | del i c =>
      cases hn
      left
      by_cases hi : i < 0
      · rw [if_pos hi]; exact ⟨⟨hi, rfl⟩, rfl⟩
      · rw [if_neg hi]; exact ⟨⟨[], .pos (by omega), rfl⟩, rfl⟩
    | move s d c =>
      cases hn
      left
      by_cases hi : d < 0
      · rw [if_pos hi]; exact ⟨⟨hi, rfl⟩, rfl⟩
      · rw [if_neg hi]; exact need_part (.pos (by omega))
    | get i c => cases hn; exact .inr ⟨_, .get _, rfl⟩
    | len c => cases hn; exact .inr ⟨_, .len _, rfl⟩
  | inserting i v c => obtain rfl : m = _ := h; cases hn; exact .inl ⟨rfl, rfl⟩
  | ins i v c => obtain rfl : m = _ := h; cases hn; exact .inl ⟨rfl, rfl⟩
  | inserted i v c => obtain rfl : m = _ := h; cases hn; exact .inr ⟨_, .insert (.inserted i v) rfl, rfl⟩
  | old i v c =>
    obtain rfl : m = _ := h
    cases hd : item l i with
    | none => simp only [next, hd] at hn; cases hn; exact .inl ⟨.inl rfl, rfl⟩
    | some o =>
      simp only [next, hd] at hn
      by_cases hv : v = o
      · rw [if_pos hv] at hn; cases hn; subst hv; exact .inl ⟨rfl, rfl⟩
      · rw [if_neg hv] at hn; cases hn; exact .inl ⟨⟨hv, rfl⟩, rfl⟩
  | same i v c => obtain rfl : m = _ := h; cases hn; exact .inr ⟨_, .set (.same i v) rfl false (by simp), rfl⟩
  | put i v o c =>
    obtain ⟨hv, rfl⟩ := h
    cases hd : item l i with
    | none => simp only [next, hd] at hn; cases hn; exact .inl ⟨.inr ⟨o, hv, rfl⟩, rfl⟩
    | some x => simp only [next, hd] at hn; cases hn; exact .inl ⟨⟨hv, x, rfl⟩, rfl⟩
  | changed i v o c => obtain ⟨hv, x, rfl⟩ := h; cases hn; exact .inr ⟨_, .set (.changed i v o x hv) rfl false (by simp), rfl⟩
  | failS i v c =>
    cases hn
    rcases h with rfl | ⟨o, hv, rfl⟩
    · exact .inr ⟨_, .set (.outS i v) rfl true (by simp), rfl⟩
    · exact .inr ⟨_, .set (.lateS i v o hv) rfl true (by simp), rfl⟩
  | lenD i c => obtain ⟨hi, rfl⟩ := h; cases hn; exact .inl ⟨⟨_, .neg hi _, rfl⟩, rfl⟩
  | removing i j c => obtain ⟨p, hp, rfl⟩ := h; cases hn; exact .inl ⟨⟨p, hp, rfl⟩, rfl⟩
  | take i j c =>
    obtain ⟨p, hp, rfl⟩ := h
    cases hd : item l j with
    | none => simp only [next, hd] at hn; cases hn; exact .inl ⟨⟨p, hp, by simp⟩, rfl⟩
    | some x => simp only [next, hd] at hn; cases hn; exact .inl ⟨⟨p, hp, by simp⟩, rfl⟩
  | removed i j x c =>
    obtain ⟨p, hp, rfl⟩ := h
    cases hn
    refine .inr ⟨_, .del (i := i) ?_ rfl false ?_, rfl⟩
    · have := Op.removed hp x; simpa using this
    · rw [last_snoc]; simp
  | failD i j c =>
    obtain ⟨p, hp, rfl⟩ := h
    cases hn
    refine .inr ⟨_, .del (i := i) ?_ rfl true ?_, rfl⟩
    · have := Op.outD hp; simpa using this
    · rw [last_snoc]; simp
  | lenM s d c => obtain ⟨hi, rfl⟩ := h; cases hn; exact .inl (need_part (.neg hi _))
  | stay s d e c =>
    obtain ⟨he, p, hp, rfl⟩ := h
    cases hn
    have hl : (Ev.callM t s d :: p ++ [Ev.stay t s e]).getLast? = some (.stay t s e) := List.getLast?_concat
    refine .inr ⟨_, .move (s := s) (d := d) ?_ rfl (some false) ?_ ?_ ?_, rfl⟩
    · have := Op.stay hp he; simpa using this
    all_goals (rw [hl]; simp)
  | moving s d e c => obtain ⟨he, p, hp, rfl⟩ := h; cases hn; exact .inl ⟨⟨he, p, hp, rfl⟩, rfl⟩
  | takeM s d e c =>
    obtain ⟨he, p, hp, rfl⟩ := h
    cases hd : item l s with
    | none => simp only [next, hd] at hn; cases hn; exact .inl ⟨⟨he, p, hp, by simp⟩, rfl⟩
    | some x => simp only [next, hd] at hn; cases hn; exact .inl ⟨⟨e, p, he, hp, rfl, by simp⟩, rfl⟩
  | insM s d e' x c => obtain ⟨e, p, he, hp, rfl, rfl⟩ := h; cases hn; exact .inl ⟨⟨e, p, he, hp, rfl, by simp⟩, rfl⟩
  | moved s d e' x c => obtain ⟨e, p, he, hp, rfl, rfl⟩ := h; cases hn; exact .inl ⟨⟨e, p, he, hp, rfl, by simp⟩, rfl⟩
  | reordered s d e' x c =>
    obtain ⟨e, p, he, hp, rfl, rfl⟩ := h
    cases hn
    refine .inr ⟨_, .move (s := s) (d := d) ?_ rfl (some true) ?_ ?_ ?_, rfl⟩
    · have := Op.moved hp he x; simpa using this
    all_goals (rw [last_snoc]; simp)
  | failM s d e c =>
    obtain ⟨he, p, hp, rfl⟩ := h
    cases hn
    refine .inr ⟨_, .move (s := s) (d := d) ?_ rfl none ?_ ?_ ?_, rfl⟩
    · have := Op.outM hp he; simpa using this
    all_goals (rw [last_snoc]; simp)

theorem Does.op {t : Nat} {c c' : Code} {m : List Ev} (h : Does t c m c') : Op t m := by
  cases h with
  | insert h => exact h
  | set h => exact h
  | del h => exact h
  | move h => exact h
  | get x => exact .look _ x
  | len n => exact .size n

theorem Follows.blocks {t : Nat} {c c' : Code} {l : List Ev} (h : Follows t c l c') : Blocks t l := by
  induction h with
  | nil => exact .nil
  | op _ ho ih => exact ih.op ho.op

/-- The first operation. -/
theorem Follows.first {t : Nat} {c c' : Code} {L : List Ev} (h : Follows t c L c') :
    (L = [] ∧ c = c') ∨ ∃ m l c1, L = m ++ l ∧ Does t c m c1 ∧ Follows t c1 l c' := by
  induction h with
  | nil => exact .inl ⟨rfl, rfl⟩
  | op h ho ih =>
    rcases ih with ⟨rfl, rfl⟩ | ⟨m, l, c1, rfl, h1, h2⟩
    · exact .inr ⟨_, [], _, by simp, ho, .nil⟩
    · exact .inr ⟨m, _, c1, by simp, h1, h2.op ho⟩

def Blocked (prog : Nat → Code) (σ : St) : Prop := ∀ t, ∃ l m, Follows t (prog t) l (σ.thr t).code ∧ (σ.thr t).Part t m ∧ only t σ.log = l ++ m

theorem blocked_step {prog : Nat → Code} {σ : St} (h : Blocked prog σ) (t : Nat) : Blocked prog (step σ t) := by
  cases hn : next σ.data t (σ.thr t) with
  | none => rw [step_none hn]; exact h
  | some p =>
    obtain ⟨e, x⟩ := p
    rw [step_some hn]
    intro u
    show ∃ l m, Follows u (prog u) l (if u = t then x else σ.thr u).code ∧ (if u = t then x else σ.thr u).Part u m ∧ only u (σ.log ++ [e]) = l ++ m
    have ho : only u (σ.log ++ [e]) = only u σ.log ++ only u [e] := List.filter_append ..
    obtain ⟨l, m, h1, h2, h3⟩ := h u
    have he := next_thread hn
    by_cases hu : u = t
    · subst hu
      rw [if_pos rfl, ho, h3, show only u [e] = [e] from by simp [only, he]]
      rcases part_next h2 hn with ⟨h4, h5⟩ | ⟨c, h4, rfl⟩
      · exact ⟨l, m ++ [e], h5 ▸ h1, h4, by simp⟩
      · exact ⟨l ++ (m ++ [e]), [], h1.op h4, rfl, by simp⟩
    · rw [if_neg hu, ho, h3, show only u [e] = [] from by simp [only, he]; exact fun e => hu e.symm]
      exact ⟨l, m, h1, h2, by simp⟩

theorem blocked_from {prog : Nat → Code} : ∀ (s : List Nat) {σ : St}, Blocked prog σ → Blocked prog (run s σ)
  | [], _, h => h
  | t :: s, _, h => blocked_from s (blocked_step h t)

theorem blocked_run (d : List Nat) (prog : Nat → Code) (s : List Nat) : Blocked prog (run s (init d prog)) :=
  blocked_from s (fun _ => ⟨[], [], .nil, rfl, rfl⟩)

theorem only_cons {t : Nat} {L : List Ev} {e : Ev} {Y : List Ev} (h : only t L = e :: Y) :
    ∃ A B, L = A ++ e :: B ∧ Free t A ∧ only t B = Y := by
  obtain ⟨A, B, h1, h2, _, h3⟩ := List.filter_eq_cons_iff.mp h
  exact ⟨A, B, h1, fun x hx hxt => h2 x hx (by simpa using hxt), h3⟩

theorem only_append {t : Nat} {L X Y : List Ev} (h : only t L = X ++ Y) : ∃ A B, L = A ++ B ∧ only t A = X ∧ only t B = Y := by
  obtain ⟨A, B, h1, h2, h3⟩ := List.filter_eq_append_iff.mp h
  exact ⟨A, B, h1, h2, h3⟩

theorem only_nil {t : Nat} {L : List Ev} (h : only t L = []) : Free t L := by
  intro e he ht
  exact List.filter_eq_nil_iff.mp h e he (by simpa using ht)

/-- What has happened when thread `t` makes the event `e`: only whole operations, and the begin `m` of this one. -/
theorem history {d : List Nat} {prog : Nat → Code} {s : List Nat} {l1 : List Ev} {e : Ev} {l2 : List Ev} {t : Nat}
    (hl : (run s (init d prog)).log = l1 ++ e :: l2) (he : e.thread = t) :
    ∃ x y m, next (value d l1) t x = some (e, y) ∧ x.Part t m ∧ ∃ A B, l1 = A ++ B ∧ Blocks t (only t A) ∧ only t B = m := by
  obtain ⟨p, u, q, y, h1, h2, h3⟩ := moment s hl
  have ht : u = t := (next_thread h3).symm.trans he
  subst ht
  obtain ⟨l, m, h4, h5, h6⟩ := blocked_run d prog p u
  rw [h2] at h6
  obtain ⟨A, B, h7, h8, h9⟩ := only_append h6
  refine ⟨_, y, m, ?_, h5, A, B, h7, h8 ▸ h4.blocks, h9⟩
  rw [show value d l1 = (run p (init d prog)).data from by rw [data_run, h2]]
  exact h3

theorem read_true {d : List Nat} {prog : Nat → Code} {s : List Nat} {l1 l2 : List Ev} {t : Nat} {i : Int} {x : Option Nat}
    (hl : (run s (init d prog)).log = l1 ++ .read t i x :: l2) : x = item (value d l1) i := by
  obtain ⟨x, y, m, h1, _⟩ := history hl rfl
  cases x with
  | run c => cases c <;> cases h1
  | old i v c => cases h1; rfl
  | _ => cases h1

theorem put_true {d : List Nat} {prog : Nat → Code} {s : List Nat} {l1 l2 : List Ev} {t v : Nat} {i : Int} {x : Option Nat}
    (hl : (run s (init d prog)).log = l1 ++ .put t i v x :: l2) : x = item (value d l1) i := by
  obtain ⟨x, y, m, h1, _⟩ := history hl rfl
  cases x with
  | run c => cases c <;> cases h1
  | put i v o c => cases h1; rfl
  | _ => cases h1

theorem took_true {d : List Nat} {prog : Nat → Code} {s : List Nat} {l1 l2 : List Ev} {t : Nat} {i : Int} {x : Option Nat}
    (hl : (run s (init d prog)).log = l1 ++ .took t i x :: l2) : x = item (value d l1) i := by
  obtain ⟨x, y, m, h1, _⟩ := history hl rfl
  cases x with
  | run c => cases c <;> cases h1
  | take i j c => cases h1; rfl
  | takeM s d e c => cases h1; rfl
  | _ => cases h1

theorem len_true {d : List Nat} {prog : Nat → Code} {s : List Nat} {l1 l2 : List Ev} {t n : Nat}
    (hl : (run s (init d prog)).log = l1 ++ .len t n :: l2) : n = (value d l1).length := by
  obtain ⟨x, y, m, h1, _⟩ := history hl rfl
  cases x with
  | run c => cases c <;> cases h1
  | lenD i c => cases h1; rfl
  | lenM s d c => cases h1; rfl
  | _ => cases h1

theorem item_ok {l : List Nat} {i : Int} {x : Nat} (h : item l i = some x) : Py.getItem l i = .ok x := by
  unfold item at h
  cases hg : Py.getItem l i with
  | error e => rw [hg] at h; cases h
  | ok y => rw [hg] at h; cases h; rfl

theorem item_of_ok {l : List Nat} {i : Int} {x : Nat} (h : Py.getItem l i = .ok x) : item l i = some x := by
  unfold item; rw [h]; rfl

theorem free_filter {t : Nat} {l : List Ev} (h : Free t l) : l.filter (fun e => e.thread == t) = [] :=
  List.filter_eq_nil_iff.mpr fun e he ht => h e he (by simpa using ht)

/-- A good index is good after what happened if nothing was removed. -/
theorem stays_not {l : List Ev} {d : List Nat} {i : Int} {x : Nat} (h : Py.getItem d i = .ok x) (hno : ∀ u k y, .took u k (some y) ∉ l)
    (hn : item (value d l) i = none) : False := by
  have := value_stays (l := l) (d := d) (i := i) (by rw [item_of_ok h]; rfl) hno
  rw [hn] at this
  cases this

/-- Somebody else has removed an item, if it cannot be that nobody has. -/
theorem taken {t : Nat} {B m : List Ev} (hB : B.filter (fun e => e.thread == t) = m) (hm : ∀ k y, .took t k (some y) ∉ m)
    (h : (∀ u k y, .took u k (some y) ∉ B) → False) : ∃ u k y, u ≠ t ∧ .took u k (some y) ∈ B := by
  refine Classical.byContradiction fun hno => h fun u k y hk => ?_
  by_cases hu : u = t
  · subst hu
    refine hm k y ?_
    rw [← hB]
    exact List.mem_filter.mpr ⟨hk, by simp [Ev.thread]⟩
  · exact hno ⟨u, k, y, hu, hk⟩

theorem norm_neg {n q : Nat} {i : Int} (hi : i < 0) (h : Py.normIndex n i = some q) : 0 ≤ i + n := by
  unfold Py.normIndex at h
  simp only [if_pos hi] at h
  by_cases hc : 0 ≤ i + n ∧ i + n < n
  · exact hc.1
  · rw [if_neg hc] at h; cases h

theorem norm_mid {n : Nat} {i : Int} (h0 : 0 ≤ i) (h1 : i < n) : ∃ j, Py.normIndex n i = some j := by
  unfold Py.normIndex
  simp only [if_neg (show ¬ i < 0 from by omega)]
  rw [if_pos ⟨h0, h1⟩]
  exact ⟨_, rfl⟩

theorem length_same : ∀ {l : List Ev} {d : List Nat}, (∀ u i w, .ins u i w ∉ l) → (∀ t j x, .took t j (some x) ∉ l) → (value d l).length = d.length
  | [], _, _, _ => rfl
  | e :: l, d, h1, h2 => by
    rw [show e :: l = [e] ++ l from rfl, value_append]
    refine (length_same (fun t j x hm => h1 t j x (List.mem_cons_of_mem _ hm)) (fun t j x hm => h2 t j x (List.mem_cons_of_mem _ hm))).trans ?_
    rw [← on_value]
    cases e with
    | ins t j v => exact absurd List.mem_cons_self (h1 t j v)
    | put t j v x =>
      cases x with
      | none => rfl
      | some x =>
        simp only [Ev.on, Py.setItem]
        cases Py.normIndex d.length j <;> simp
    | took t j x =>
      cases x with
      | none => rfl
      | some x => exact absurd List.mem_cons_self (h2 t j x)
    | _ => rfl

theorem insert_end (l : List Nat) (v : Nat) : Py.insert l l.length v = l ++ [v] := by
  have : Py.insertPos l.length (l.length : Int) = l.length := by unfold Py.insertPos; rw [if_neg (by omega)]; omega
  simp [Py.insert, this]

/-! ## Counting -/

/-- A sum over what happened. -/
def tally (f : Ev → Nat) (l : List Ev) : Nat := (l.map f).sum

theorem tally_append (f : Ev → Nat) (l1 l2 : List Ev) : tally f (l1 ++ l2) = tally f l1 + tally f l2 := by simp [tally]

theorem tally_count (p : Ev → Bool) (l : List Ev) : tally (fun e => if p e then 1 else 0) l = l.countP p := by
  induction l with
  | nil => rfl
  | cons e l ih =>
    rw [List.countP_cons, ← ih]
    simp [tally]; omega

theorem tally_add (f g : Ev → Nat) (l : List Ev) : tally (fun e => f e + g e) l = tally f l + tally g l := by
  induction l with
  | nil => rfl
  | cons e l ih => simp only [tally, List.map_cons, List.sum_cons] at *; omega

theorem tally_split (f : Ev → Nat) (t : Nat) (l : List Ev) :
    tally f l = tally f (only t l) + tally f (l.filter (fun e => !(e.thread == t))) := by
  induction l with
  | nil => rfl
  | cons e l ih =>
    by_cases h : e.thread = t
    · simp [tally, only, h] at *; omega
    · simp [tally, only, h] at *; omega

/-- What balances in every thread balances. -/
theorem tally_threads (f g : Ev → Nat) : ∀ (n : Nat) (l : List Ev), l.length ≤ n → (∀ t, tally f (only t l) = tally g (only t l)) → tally f l = tally g l
  | _, [], _, _ => rfl
  | n + 1, e :: l, hn, h => by
    rw [tally_split f e.thread, tally_split g e.thread, h e.thread]
    congr 1
    refine tally_threads f g n _ ?_ (fun t => ?_)
    · rw [List.filter_cons]
      simp only [BEq.rfl, Bool.not_true, Bool.false_eq_true, if_false]
      exact Nat.le_trans (List.length_filter_le _ _) (by simpa using hn)
    · by_cases ht : t = e.thread
      · have : only t ((e :: l).filter (fun x => !(x.thread == e.thread))) = [] := by
          refine List.filter_eq_nil_iff.mpr fun x hx => ?_
          have := (List.mem_filter.mp hx).2
          rw [ht]
          simpa using this
        rw [this]; rfl
      · have : only t ((e :: l).filter (fun x => !(x.thread == e.thread))) = only t (e :: l) := by
          unfold only
          rw [List.filter_filter]
          refine List.filter_congr fun x _ => ?_
          by_cases hx : x.thread = t
          · simp [hx, ht]
          · simp [hx]
        rw [this]; exact h t

theorem tally_blocks {f g : Ev → Nat} {t : Nat} (hop : ∀ m, Op t m → tally f m = tally g m) {l : List Ev} (h : Blocks t l) : tally f l = tally g l := by
  induction h with
  | nil => rfl
  | op _ ho ih => rw [tally_append, tally_append, ih, hop _ ho]

/-- What balances in every operation balances when all threads are between operations. -/
theorem tally_rest {d : List Nat} {prog : Nat → Code} {s : List Nat} {f g : Ev → Nat} (hop : ∀ t m, Op t m → tally f m = tally g m)
    (hr : ∀ t, ∃ c, (run s (init d prog)).thr t = .run c) : tally f (run s (init d prog)).log = tally g (run s (init d prog)).log := by
  refine tally_threads f g _ _ (Nat.le_refl _) fun t => ?_
  obtain ⟨l, m, h1, h2, h3⟩ := blocked_run d prog s t
  obtain ⟨c, hc⟩ := hr t
  rw [hc] at h1 h2
  obtain rfl : m = [] := h2
  rw [h3, List.append_nil]
  exact tally_blocks (hop t) h1.blocks

/-- What every step keeps in balance. -/
theorem tally_run {d : List Nat} {prog : Nat → Code} {s : List Nat} {μ : List Nat → Nat} {f g : Ev → Nat}
    (hs : ∀ l t x e y, next l t x = some (e, y) → μ (e.on l) + f e = μ l + g e) :
    μ (run s (init d prog)).data + tally f (run s (init d prog)).log = μ d + tally g (run s (init d prog)).log := by
  have key : ∀ (s : List Nat) (σ : St), μ σ.data + tally f σ.log = μ d + tally g σ.log → μ (run s σ).data + tally f (run s σ).log = μ d + tally g (run s σ).log := by
    intro s
    induction s with
    | nil => exact fun _ h => h
    | cons t s ih =>
      intro σ h
      refine ih (step σ t) ?_
      cases hn : next σ.data t (σ.thr t) with
      | none => rw [step_none hn]; exact h
      | some p =>
        obtain ⟨e, x⟩ := p
        rw [step_some hn]
        have := hs _ _ _ _ _ hn
        show μ (e.on σ.data) + tally f (σ.log ++ [e]) = μ d + tally g (σ.log ++ [e])
        rw [tally_append, tally_append]
        simp only [tally, List.map_cons, List.map_nil, List.sum_cons, List.sum_nil] at *
        omega
  exact key s (init d prog) rfl

/-- The item that leaves. -/
def Ev.out (x : Nat) : Ev → Nat
  | .took _ _ (some y) => if y = x then 1 else 0
  | .put _ _ _ (some y) => if y = x then 1 else 0
  | _ => 0

/-- The item that comes. -/
def Ev.into (x : Nat) : Ev → Nat
  | .ins _ _ y => if y = x then 1 else 0
  | .put _ _ y (some _) => if y = x then 1 else 0
  | _ => 0

theorem next_count (x : Nat) (l : List Nat) (t : Nat) (c : Ctl) (e : Ev) (y : Ctl) (h : next l t c = some (e, y)) :
    (e.on l).count x + e.out x = l.count x + e.into x := by
  cases c with
  | run c => cases c <;> first | (cases h; rfl) | cases h
  | ins i v c => cases h; exact count_insert l i v x
  | insM s d i v c => cases h; exact count_insert l i v x
  | put i v o c =>
    cases hd : item l i with
    | none => simp only [next, hd] at h; cases h; rfl
    | some z =>
      simp only [next, hd] at h; cases h
      obtain ⟨j, h1, h2, _⟩ := on_put t v hd
      rw [h2]
      exact count_set h1
  | take i k c =>
    cases hd : item l k with
    | none => simp only [next, hd] at h; cases h; rfl
    | some z =>
      simp only [next, hd] at h; cases h
      obtain ⟨j, h1, h2, _⟩ := on_took t hd
      rw [h2]
      exact count_erase h1
  | takeM s d e c =>
    cases hd : item l s with
    | none => simp only [next, hd] at h; cases h; rfl
    | some z =>
      simp only [next, hd] at h; cases h
      obtain ⟨j, h1, h2, _⟩ := on_took t hd
      rw [h2]
      exact count_erase h1
  | _ => cases h; rfl

/-- An item leaves. -/
def Ev.outs : Ev → Nat
  | .took _ _ (some _) => 1
  | _ => 0

/-- An item comes. -/
def Ev.ins1 : Ev → Nat
  | .ins _ _ _ => 1
  | _ => 0

theorem next_length (l : List Nat) (t : Nat) (c : Ctl) (e : Ev) (y : Ctl) (h : next l t c = some (e, y)) :
    (e.on l).length + e.outs = l.length + e.ins1 := by
  cases c with
  | run c => cases c <;> first | (cases h; rfl) | cases h
  | ins i v c => cases h; exact length_insert l i v
  | insM s d i v c => cases h; exact length_insert l i v
  | put i v o c =>
    cases hd : item l i with
    | none => simp only [next, hd] at h; cases h; rfl
    | some z =>
      simp only [next, hd] at h; cases h
      obtain ⟨j, h1, h2, _⟩ := on_put t v hd
      rw [h2]; simp [Ev.outs, Ev.ins1]
  | take i k c =>
    cases hd : item l k with
    | none => simp only [next, hd] at h; cases h; rfl
    | some z =>
      simp only [next, hd] at h; cases h
      obtain ⟨j, h1, h2, h3⟩ := on_took t hd
      rw [h2, List.length_eraseIdx_of_lt h3]; simp [Ev.outs, Ev.ins1]; omega
  | takeM s d e c =>
    cases hd : item l s with
    | none => simp only [next, hd] at h; cases h; rfl
    | some z =>
      simp only [next, hd] at h; cases h
      obtain ⟨j, h1, h2, h3⟩ := on_took t hd
      rw [h2, List.length_eraseIdx_of_lt h3]; simp [Ev.outs, Ev.ins1]; omega
  | _ => cases h; rfl

/-! ## The list used by one thread at a time -/

/-- The operation is over with this event. -/
def Ev.ends : Ev → Bool
  | .inserted .. | .changed .. | .removed .. | .reordered .. | .same .. | .stay .. | .fail .. => true
  | _ => false

/-- An operation begins with this event. -/
def Ev.begins : Ev → Bool
  | .callI .. | .callS .. | .callD .. | .callM .. => true
  | _ => false

/-- Going by the events, thread `t` is changing the list: it began an operation and has not ended it. -/
def InOp (t : Nat) (L : List Ev) : Prop :=
  ∃ A e B, L = A ++ e :: B ∧ e.thread = t ∧ e.begins = true ∧ ∀ x ∈ B, x.thread = t → x.ends = false

/-- In an operation. -/
def Ctl.busy : Ctl → Bool
  | .run _ => false
  | _ => true

theorem Idx.quiet {t : Nat} {i j : Int} {p : List Ev} (h : Idx t i p j) : ∀ x ∈ p, x.ends = false := by
  cases h with
  | pos => simp
  | neg => simp [Ev.ends]

theorem Dest.quiet {t : Nat} {i j : Int} {p : List Ev} (h : Dest t i p j) : ∀ x ∈ p, x.ends = false := by
  cases h with
  | pos => simp
  | neg => simp [Ev.ends]

theorem quiet_append {p q : List Ev} (h1 : ∀ x ∈ p, x.ends = false) (h2 : ∀ x ∈ q, x.ends = false) : ∀ x ∈ p ++ q, x.ends = false :=
  fun x hx => (List.mem_append.mp hx).elim (h1 x) (h2 x)

theorem part_begin {t : Nat} {m : List Ev} {x : Ctl} (h : x.Part t m) (hk : x.busy = true) :
    ∃ e m', m = e :: m' ∧ e.thread = t ∧ e.begins = true ∧ ∀ x ∈ m', x.ends = false := by
  cases x with
  | run c => cases hk
  | inserting => obtain rfl : m = _ := h; exact ⟨_, _, rfl, rfl, rfl, by simp⟩
  | ins => obtain rfl : m = _ := h; exact ⟨_, _, rfl, rfl, rfl, by simp [Ev.ends]⟩
  | inserted => obtain rfl : m = _ := h; exact ⟨_, _, rfl, rfl, rfl, by simp [Ev.ends]⟩
  | old => obtain rfl : m = _ := h; exact ⟨_, _, rfl, rfl, rfl, by simp⟩
  | same => obtain rfl : m = _ := h; exact ⟨_, _, rfl, rfl, rfl, by simp [Ev.ends]⟩
  | put => obtain ⟨_, rfl⟩ := h; exact ⟨_, _, rfl, rfl, rfl, by simp [Ev.ends]⟩
  | changed => obtain ⟨_, _, rfl⟩ := h; exact ⟨_, _, rfl, rfl, rfl, by simp [Ev.ends]⟩
  | failS =>
    rcases h with rfl | ⟨_, _, rfl⟩
    · exact ⟨_, _, rfl, rfl, rfl, by simp [Ev.ends]⟩
    · exact ⟨_, _, rfl, rfl, rfl, by simp [Ev.ends]⟩
  | lenD => obtain ⟨_, rfl⟩ := h; exact ⟨_, _, rfl, rfl, rfl, by simp⟩
  | removing => obtain ⟨p, hp, rfl⟩ := h; exact ⟨_, _, rfl, rfl, rfl, hp.quiet⟩
  | take => obtain ⟨p, hp, rfl⟩ := h; exact ⟨_, _, rfl, rfl, rfl, quiet_append hp.quiet (by simp [Ev.ends])⟩
  | removed => obtain ⟨p, hp, rfl⟩ := h; exact ⟨_, _, rfl, rfl, rfl, quiet_append hp.quiet (by simp [Ev.ends])⟩
  | failD => obtain ⟨p, hp, rfl⟩ := h; exact ⟨_, _, rfl, rfl, rfl, quiet_append hp.quiet (by simp [Ev.ends])⟩
  | lenM => obtain ⟨_, rfl⟩ := h; exact ⟨_, _, rfl, rfl, rfl, by simp⟩
  | stay => obtain ⟨_, p, hp, rfl⟩ := h; exact ⟨_, _, rfl, rfl, rfl, hp.quiet⟩
  | moving => obtain ⟨_, p, hp, rfl⟩ := h; exact ⟨_, _, rfl, rfl, rfl, hp.quiet⟩
  | takeM => obtain ⟨_, p, hp, rfl⟩ := h; exact ⟨_, _, rfl, rfl, rfl, quiet_append hp.quiet (by simp [Ev.ends])⟩
  | insM => obtain ⟨_, p, _, hp, _, rfl⟩ := h; exact ⟨_, _, rfl, rfl, rfl, quiet_append hp.quiet (by simp [Ev.ends])⟩
  | moved => obtain ⟨_, p, _, hp, _, rfl⟩ := h; exact ⟨_, _, rfl, rfl, rfl, quiet_append hp.quiet (by simp [Ev.ends])⟩
  | reordered => obtain ⟨_, p, _, hp, _, rfl⟩ := h; exact ⟨_, _, rfl, rfl, rfl, quiet_append hp.quiet (by simp [Ev.ends])⟩
  | failM => obtain ⟨_, p, hp, rfl⟩ := h; exact ⟨_, _, rfl, rfl, rfl, quiet_append hp.quiet (by simp [Ev.ends])⟩

theorem inOp_of_busy {d : List Nat} {prog : Nat → Code} {s : List Nat} {t : Nat} (hk : ((run s (init d prog)).thr t).busy = true) :
    InOp t (run s (init d prog)).log := by
  obtain ⟨l, m, _, h2, h3⟩ := blocked_run d prog s t
  obtain ⟨e, m', rfl, h4, h4', h5⟩ := part_begin h2 hk
  obtain ⟨A, B, h6, _, h7⟩ := only_append h3
  obtain ⟨A', B', rfl, _, h8⟩ := only_cons h7
  refine ⟨A ++ A', e, B', by rw [h6]; simp, h4, h4', fun x hx ht => h5 x ?_⟩
  rw [← h8]
  exact List.mem_filter.mpr ⟨hx, by simpa using ht⟩

/-- What the list holds and what the copy has while a thread works with it alone. -/
def Ctl.Knows (l mir : List Nat) : Ctl → Prop
  | .inserted i v _ => l = Py.insert mir i v
  | .put i _ o _ => l = mir ∧ item mir i = some o
  | .changed i v o _ => item mir i = some o ∧ Py.setItem mir i v = .ok l
  | .failS i _ _ => l = mir ∧ item mir i = none
  | .removed _ j x _ => item mir j = some x ∧ Py.pop mir j = .ok (x, l)
  | .failD _ j _ => l = mir ∧ item mir j = none
  | .insM s _ _ x _ => item mir s = some x ∧ Py.pop mir s = .ok (x, l)
  | .moved s _ e x _ => item mir s = some x ∧ ∃ r, Py.pop mir s = .ok (x, r) ∧ l = Py.insert r e x
  | .failM s _ _ _ => l = mir ∧ item mir s = none
  | _ => l = mir

/-- What an event does to the copy. -/
def Ev.copy (x : List Nat) (e : Ev) : List Nat := mirror x [e]

theorem mirror_snoc (d : List Nat) (l : List Ev) (e : Ev) : mirror d (l ++ [e]) = e.copy (mirror d l) := by simp [mirror, Ev.copy, List.foldl_append]

/-- A step of the thread that works with the list alone. -/
theorem next_own {l mir : List Nat} {t : Nat} {x y : Ctl} {e : Ev} (h : next l t x = some (e, y)) (hk : x.Knows l mir) :
    y.Knows (e.on l) (e.copy mir) := by
  cases x with
  | run c =>
    obtain rfl : l = mir := hk
    cases c with
    | ret => cases h
    | insert => cases h; rfl
    | set => cases h; rfl
    | del i c => cases h; by_cases hi : i < 0 <;> simp only [hi, if_true, if_false] <;> rfl
    | move s d c =>
      cases h
      by_cases hi : d < 0
      · rw [if_pos hi]; rfl
      · rw [if_neg hi]; unfold need; split <;> rfl
    | get => cases h; rfl
    | len => cases h; rfl
  | inserting => cases h; exact hk
  | ins => cases h; obtain rfl : l = mir := hk; rfl
  | inserted => cases h; exact hk
  | old i v c =>
    obtain rfl : l = mir := hk
    cases hd : item l i with
    | none => simp only [next, hd] at h; cases h; exact ⟨rfl, hd⟩
    | some o =>
      simp only [next, hd] at h
      by_cases hv : v = o
      · rw [if_pos hv] at h; cases h; exact rfl
      · rw [if_neg hv] at h; cases h; exact ⟨rfl, hd⟩
  | same => cases h; exact hk
  | put i v o c =>
    obtain ⟨rfl, hd⟩ := hk
    simp only [next, hd] at h
    cases h
    obtain ⟨j, _, _, h3⟩ := set_of_item v hd
    exact ⟨hd, by show Py.setItem l i v = .ok ((Ev.put t i v (some o)).on l); simp only [Ev.on, h3]⟩
  | changed i v o c =>
    cases h
    show l = ((Py.setItem mir i v).toOption).getD mir
    rw [hk.2]; rfl
  | failS => cases h; exact hk.1
  | lenD => cases h; exact hk
  | removing => cases h; exact hk
  | take i j c =>
    obtain rfl : l = mir := hk
    cases hd : item l j with
    | none => simp only [next, hd] at h; cases h; exact ⟨rfl, hd⟩
    | some x =>
      simp only [next, hd] at h
      cases h
      obtain ⟨k, _, _, h3⟩ := pop_of_item hd
      exact ⟨hd, by show Py.pop l j = .ok (x, (Ev.took t j (some x)).on l); simp only [Ev.on, h3]⟩
  | removed i j x c =>
    cases h
    show l = ((Py.pop mir j).toOption.map Prod.snd).getD mir
    rw [hk.2]; rfl
  | failD => cases h; exact hk.1
  | lenM s d c => cases h; unfold need; split <;> exact hk
  | stay => cases h; exact hk
  | moving => cases h; exact hk
  | takeM s d e c =>
    obtain rfl : l = mir := hk
    cases hd : item l s with
    | none => simp only [next, hd] at h; cases h; exact ⟨rfl, hd⟩
    | some x =>
      simp only [next, hd] at h
      cases h
      obtain ⟨k, _, _, h3⟩ := pop_of_item hd
      exact ⟨hd, by show Py.pop l s = .ok (x, (Ev.took t s (some x)).on l); simp only [Ev.on, h3]⟩
  | insM s d e x c => cases h; exact ⟨hk.1, l, hk.2, rfl⟩
  | moved s d e x c =>
    cases h
    obtain ⟨_, r, h1, h2⟩ := hk
    show l = Py.insert (((Py.pop mir s).toOption.map Prod.snd).getD mir) e x
    rw [h1]; exact h2
  | reordered => cases h; exact hk
  | failM => cases h; exact hk.1

/-- A thread that begins an operation or looks something up changes neither list nor copy. -/
theorem next_idle {l mir : List Nat} {t : Nat} {x y : Ctl} {e : Ev} (h : next l t x = some (e, y)) (hx : x.busy = false) :
    e.on l = l ∧ e.copy mir = mir := by
  cases x with
  | run c => cases c <;> first | (cases h; exact ⟨rfl, rfl⟩) | cases h
  | _ => cases hx

structure Known (d : List Nat) (σ : St) : Prop where
  knows : ∀ t, (σ.thr t).busy = true → (σ.thr t).Knows σ.data (mirror d σ.log)
  rest : (∀ t, (σ.thr t).busy = false) → σ.data = mirror d σ.log

/-- At most one thread is in an operation. -/
def One (σ : St) : Prop := ∀ t u, (σ.thr t).busy = true → (σ.thr u).busy = true → t = u

theorem knows_idle {l mir : List Nat} {x : Ctl} (hx : x.busy = false) (h : x.Knows l mir) : l = mir := by
  cases x with
  | run c => exact h
  | _ => cases hx

theorem known_step {d : List Nat} {σ : St} (h : Known d σ) (t : Nat) (h1 : One σ) (h2 : One (step σ t)) : Known d (step σ t) := by
  cases hn : next σ.data t (σ.thr t) with
  | none => rw [step_none hn]; exact h
  | some p =>
    obtain ⟨e, x⟩ := p
    rw [step_some hn] at h2 ⊢
    by_cases hk : (σ.thr t).busy = true
    · have hown := next_own hn (h.knows t hk)
      refine ⟨fun u hu => ?_, fun hr => ?_⟩
      · have hu : (if u = t then x else σ.thr u).busy = true := hu
        show Ctl.Knows (e.on σ.data) (mirror d (σ.log ++ [e])) (if u = t then x else σ.thr u)
        by_cases hut : u = t
        · rw [if_pos hut, mirror_snoc]; exact hown
        · rw [if_neg hut] at hu
          exact absurd (h1 u t hu hk) hut
      · show e.on σ.data = mirror d (σ.log ++ [e])
        have := hr t
        have hx : x.busy = false := by simpa using this
        rw [mirror_snoc]; exact knows_idle hx hown
    · have hk : (σ.thr t).busy = false := by simpa using hk
      obtain ⟨h3, h4⟩ := next_idle (mir := mirror d σ.log) hn hk
      refine ⟨fun u hu => ?_, fun hr => ?_⟩
      · have hu' : (if u = t then x else σ.thr u).busy = true := hu
        show Ctl.Knows (e.on σ.data) (mirror d (σ.log ++ [e])) (if u = t then x else σ.thr u)
        by_cases hut : u = t
        · rw [if_pos hut, mirror_snoc]
          have hrest : σ.data = mirror d σ.log := h.rest (fun w => by
            cases hw : (σ.thr w).busy with
            | false => rfl
            | true =>
              have hwt : w ≠ t := fun e => by rw [e, hk] at hw; cases hw
              have := h2 u w hu (show (if w = t then x else σ.thr w).busy = true from by rw [if_neg hwt]; exact hw)
              exact absurd (this.symm.trans hut) hwt)
          refine next_own hn ?_
          cases hc : σ.thr t with
          | run c => exact hrest
          | _ => rw [hc] at hk; cases hk
        · rw [if_neg hut] at hu' ⊢
          rw [mirror_snoc, h3, h4]
          exact h.knows u hu'
      · show e.on σ.data = mirror d (σ.log ++ [e])
        rw [mirror_snoc, h3, h4]
        refine h.rest (fun w => ?_)
        by_cases hwt : w = t
        · rw [hwt]; exact hk
        · have : (if w = t then x else σ.thr w).busy = false := hr w
          rwa [if_neg hwt] at this

theorem known_from {d : List Nat} : ∀ (s : List Nat) {σ : St}, Known d σ → (∀ p q, s = p ++ q → One (run p σ)) → Known d (run s σ)
  | [], _, h, _ => h
  | t :: s, _, h, h1 => known_from s (known_step h t (h1 [] (t :: s) rfl) (h1 [t] s rfl)) (fun p q e => h1 (t :: p) q (by rw [e]; rfl))

theorem known_run {d : List Nat} {prog : Nat → Code} {s : List Nat}
    (h : ∀ p q, s = p ++ q → ∀ t u, InOp t (run p (init d prog)).log → InOp u (run p (init d prog)).log → t = u) :
    Known d (run s (init d prog)) :=
  known_from s ⟨fun _ hk => (nomatch (show false = true from hk)), fun _ => rfl⟩ (fun p q e t u ht hu => h p q e t u (inOp_of_busy ht) (inOp_of_busy hu))

theorem log_grows : ∀ (q : List Nat) (σ : St), ∃ l, (run q σ).log = σ.log ++ l
  | [], σ => ⟨[], by simp [run]⟩
  | t :: q, σ => by
    obtain ⟨l, h⟩ := log_grows q (step σ t)
    show ∃ l', (run q (step σ t)).log = σ.log ++ l'
    rw [h]
    cases hn : next σ.data t (σ.thr t) with
    | none => rw [step_none hn]; exact ⟨l, rfl⟩
    | some p => obtain ⟨e, x⟩ := p; rw [step_some hn]; exact ⟨e :: l, by simp⟩

theorem run_append (p q : List Nat) (σ : St) : run (p ++ q) σ = run q (run p σ) := by simp [run, List.foldl_append]

end Psygnal.LsC
