import Verif.ListConcLemmas

/-!
# C95: an evented list in several threads

`value d l`: what a plain list holds after the insertions, assignments and removals in `l` if it was `d`; `mirror d l`: what someone has who keeps a copy by
following `inserted`, `changed`, `removed` and `moved`; `Free t l`: no event of thread `t` is in `l`; `Py.getItem`, `Py.insert`, …: the built-in list.
-/
namespace Psygnal.LsC

/-! Examples: threads 0 and 1 use the list of 5 and 6. -/

def exP (c0 c1 : Code) : Nat → Code
  | 0 => c0
  | 1 => c1
  | _ => .ret

def exIns (i : Int) (v : Nat) : Code := .insert i v .ret

def exSet (i : Int) (v : Nat) : Code := .set i v fun _ => .ret

def exDel (i : Int) : Code := .del i fun _ => .ret

def exMove (s d : Int) : Code := .move s d fun _ => .ret

/-- `inserted` is emitted with item `x`. -/
def Ev.isInserted (x : Nat) : Ev → Bool
  | .inserted _ _ v => v == x
  | _ => false

/-- `removed` is emitted with item `x`. -/
def Ev.isRemoved (x : Nat) : Ev → Bool
  | .removed _ _ v => v == x
  | _ => false

/-- `changed` is emitted with new item `x`. -/
def Ev.isNew (x : Nat) : Ev → Bool
  | .changed _ _ _ v => v == x
  | _ => false

/-- An assignment replaces `x`. -/
def Ev.isReplaced (x : Nat) : Ev → Bool
  | .put _ _ _ (some v) => v == x
  | _ => false

/-- `inserted` is emitted. -/
def Ev.insertedAny : Ev → Bool
  | .inserted .. => true
  | _ => false

/-- `removed` is emitted. -/
def Ev.removedAny : Ev → Bool
  | .removed .. => true
  | _ => false

/-! ## What is in the list -/

/-- The list holds what a plain list holds to which the threads' insertions, assignments and removals are done one at a time, in the order in which they
happen. -/
theorem C95_list (d : List Nat) (prog : Nat → Code) (s : List Nat) : (run s (init d prog)).data = value d (run s (init d prog)).log := data_run d prog s

/-- `l[i]` gives what is there at that moment, or `IndexError`. -/
theorem C95_look (d : List Nat) (prog : Nat → Code) (s : List Nat) (t : Nat) (i : Int) (x : Option Nat) (l1 l2 : List Ev)
    (hl : (run s (init d prog)).log = l1 ++ .look t i x :: l2) : x = (Py.getItem (value d l1) i).toOption := by
  obtain ⟨c, y, m, h1, _⟩ := history (t := t) hl rfl
  cases c with
  | run c => cases c <;> cases h1 <;> rfl
  | _ => cases h1

/-- `len(l)` gives the length at that moment, and so do deletions and moves with negative indices. -/
theorem C95_size (d : List Nat) (prog : Nat → Code) (s : List Nat) (t n : Nat) (l1 l2 : List Ev)
    (hl : (run s (init d prog)).log = l1 ++ .size t n :: l2 ∨ (run s (init d prog)).log = l1 ++ .len t n :: l2) : n = (value d l1).length := by
  rcases hl with hl | hl
  · obtain ⟨c, y, m, h1, _⟩ := history (t := t) hl rfl
    cases c with
    | run c => cases c <;> cases h1 <;> rfl
    | _ => cases h1
  · exact len_true hl

/-- When no thread is in an operation, the length is what it was, and one more for each `inserted`, one less for each `removed` - whatever happened at the
same time. -/
theorem C95_length (d : List Nat) (prog : Nat → Code) (s : List Nat) (hr : ∀ t, ∃ c, (run s (init d prog)).thr t = .run c) :
    (run s (init d prog)).data.length + (run s (init d prog)).log.countP Ev.removedAny =
      d.length + (run s (init d prog)).log.countP Ev.insertedAny := by
  have h1 := tally_run (d := d) (prog := prog) (s := s) (μ := List.length) next_length
  have h2 := tally_rest (d := d) (prog := prog) (s := s)
    (f := fun e => Ev.outs e + (if Ev.insertedAny e then 1 else 0)) (g := fun e => Ev.ins1 e + (if Ev.removedAny e then 1 else 0)) (fun t m ho => ?_) hr
  · rw [tally_add, tally_add, tally_count, tally_count] at h2
    omega
  · cases ho with
    | removed h => cases h <;> simp [tally, Ev.outs, Ev.ins1, Ev.insertedAny, Ev.removedAny]
    | outD h => cases h <;> simp [tally, Ev.outs, Ev.ins1, Ev.insertedAny, Ev.removedAny]
    | stay h => cases h <;> simp [tally, Ev.outs, Ev.ins1, Ev.insertedAny, Ev.removedAny]
    | moved h => cases h <;> simp [tally, Ev.outs, Ev.ins1, Ev.insertedAny, Ev.removedAny]
    | outM h => cases h <;> simp [tally, Ev.outs, Ev.ins1, Ev.insertedAny, Ev.removedAny]
    | _ => simp [tally, Ev.outs, Ev.ins1, Ev.insertedAny, Ev.removedAny]

/-- When no thread is in an operation, an item is in the list as often as it was, and once more for each `inserted` with it and each `changed` to it, once
less for each `removed` with it and each assignment that replaced it - whatever happened at the same time. -/
theorem C95_bag (d : List Nat) (prog : Nat → Code) (s : List Nat) (x : Nat) (hr : ∀ t, ∃ c, (run s (init d prog)).thr t = .run c) :
    (run s (init d prog)).data.count x + (run s (init d prog)).log.countP (Ev.isRemoved x) + (run s (init d prog)).log.countP (Ev.isReplaced x) =
      d.count x + (run s (init d prog)).log.countP (Ev.isInserted x) + (run s (init d prog)).log.countP (Ev.isNew x) := by
  have h1 := tally_run (d := d) (prog := prog) (s := s) (μ := List.count x) (next_count x)
  have h2 := tally_rest (d := d) (prog := prog) (s := s)
    (f := fun e => Ev.out x e + ((if Ev.isInserted x e then 1 else 0) + (if Ev.isNew x e then 1 else 0)))
    (g := fun e => Ev.into x e + ((if Ev.isRemoved x e then 1 else 0) + (if Ev.isReplaced x e then 1 else 0))) (fun t m ho => ?_) hr
  · rw [tally_add, tally_add, tally_add, tally_add, tally_count, tally_count, tally_count, tally_count] at h2
    omega
  · cases ho with
    | removed h => cases h <;> simp [tally, Ev.out, Ev.into, Ev.isInserted, Ev.isNew, Ev.isRemoved, Ev.isReplaced]
    | outD h => cases h <;> simp [tally, Ev.out, Ev.into, Ev.isInserted, Ev.isNew, Ev.isRemoved, Ev.isReplaced]
    | stay h => cases h <;> simp [tally, Ev.out, Ev.into, Ev.isInserted, Ev.isNew, Ev.isRemoved, Ev.isReplaced]
    | moved h => cases h <;> simp [tally, Ev.out, Ev.into, Ev.isInserted, Ev.isNew, Ev.isRemoved, Ev.isReplaced]
    | outM h => cases h <;> simp [tally, Ev.out, Ev.into, Ev.isInserted, Ev.isNew, Ev.isRemoved, Ev.isReplaced]
    | _ => simp [tally, Ev.out, Ev.into, Ev.isInserted, Ev.isNew, Ev.isRemoved, Ev.isReplaced, Nat.add_comm]

/-- So without assignments, when no thread is in an operation, who counts the items of `inserted` and `removed` knows how often each one is in the list,
whatever happened at the same time: only the order may differ (`C95_mirror_refuted`). -/
theorem C95_counted (d : List Nat) (prog : Nat → Code) (s : List Nat) (x : Nat) (hr : ∀ t, ∃ c, (run s (init d prog)).thr t = .run c)
    (hs : ∀ t i v, .callS t i v ∉ (run s (init d prog)).log) :
    (run s (init d prog)).data.count x + (run s (init d prog)).log.countP (Ev.isRemoved x) =
      d.count x + (run s (init d prog)).log.countP (Ev.isInserted x) := by
  have h := C95_bag d prog s x hr
  have h1 : (run s (init d prog)).log.countP (Ev.isReplaced x) = 0 := by
    refine List.countP_eq_zero.mpr fun e he hx => ?_
    cases e with
    | put t i v y =>
      obtain ⟨l1, l2, hl⟩ := List.append_of_mem he
      obtain ⟨c, z, m, h1, h2, A, B, h3, _, h4⟩ := history (t := t) hl rfl
      cases c with
      | run c => cases c <;> cases h1
      | put i v o c =>
        cases h1
        obtain ⟨_, rfl⟩ := h2
        obtain ⟨A1, B1, rfl, _⟩ := only_cons h4
        exact hs t i v (by rw [hl, h3]; simp)
      | _ => cases h1
    | _ => cases hx
  have h2 : (run s (init d prog)).log.countP (Ev.isNew x) = 0 := by
    refine List.countP_eq_zero.mpr fun e he hx => ?_
    cases e with
    | changed t i o v =>
      obtain ⟨l1, l2, hl⟩ := List.append_of_mem he
      obtain ⟨c, z, m, h1, h2, A, B, h3, _, h4⟩ := history (t := t) hl rfl
      cases c with
      | run c => cases c <;> cases h1
      | changed i v o c =>
        cases h1
        obtain ⟨_, _, rfl⟩ := h2
        obtain ⟨A1, B1, rfl, _⟩ := only_cons h4
        exact hs t i v (by rw [hl, h3]; simp)
      | _ => cases h1
    | _ => cases hx
  omega

/-! ## What the listeners are told -/

/-- `inserted`: `inserting` was emitted, then the item came into the list, where the index pointed to at that moment. -/
theorem C95_inserted (d : List Nat) (prog : Nat → Code) (s : List Nat) (t : Nat) (i : Int) (v : Nat) (l1 l2 : List Ev)
    (hl : (run s (init d prog)).log = l1 ++ .inserted t i v :: l2) :
    ∃ A B C D, l1 = A ++ .callI t i v :: (B ++ .inserting t i :: (C ++ .ins t i v :: D)) ∧ Free t B ∧ Free t C ∧ Free t D ∧
      ∀ E, E = A ++ .callI t i v :: (B ++ .inserting t i :: C) → value d (E ++ [.ins t i v]) = Py.insert (value d E) i v := by
  obtain ⟨x, y, m, h1, h2, A, B, h3, _, h4⟩ := history (t := t) hl rfl
  cases x with
  | run c => cases c <;> cases h1
  | inserted i' v' c =>
    cases h1
    obtain rfl : m = _ := h2
    obtain ⟨A1, B1, rfl, _, h5⟩ := only_cons h4
    obtain ⟨A2, B2, rfl, f2, h5⟩ := only_cons h5
    obtain ⟨A3, B3, rfl, f3, h5⟩ := only_cons h5
    exact ⟨A ++ A1, A2, A3, B3, by rw [h3]; simp, f2, f3, only_nil h5, fun E _ => by rw [value_snoc]; rfl⟩
  | _ => cases h1

/-- `changed`: the index held the old item, another one than the new, at one moment of the assignment; at a later one the new item was stored there - in place
of some item. -/
theorem C95_changed (d : List Nat) (prog : Nat → Code) (s : List Nat) (t : Nat) (i : Int) (o v : Nat) (l1 l2 : List Ev)
    (hl : (run s (init d prog)).log = l1 ++ .changed t i o v :: l2) : v ≠ o ∧
    ∃ A B C D x, l1 = A ++ .callS t i v :: (B ++ .read t i (some o) :: (C ++ .put t i v (some x) :: D)) ∧ Free t B ∧ Free t C ∧ Free t D ∧
      Py.getItem (value d (A ++ .callS t i v :: B)) i = .ok o ∧
      Py.getItem (value d (A ++ .callS t i v :: (B ++ .read t i (some o) :: C))) i = .ok x := by
  obtain ⟨x, y, m, h1, h2, A, B, h3, _, h4⟩ := history (t := t) hl rfl
  cases x with
  | run c => cases c <;> cases h1
  | changed i' v' o' c =>
    cases h1
    obtain ⟨hv, x, rfl⟩ := h2
    obtain ⟨A1, B1, rfl, _, h5⟩ := only_cons h4
    obtain ⟨A2, B2, rfl, f2, h5⟩ := only_cons h5
    obtain ⟨A3, B3, rfl, f3, h5⟩ := only_cons h5
    have h6 : (run s (init d prog)).log = (A ++ A1 ++ .callS t i v :: A2) ++ .read t i (some o) ::
        (A3 ++ .put t i v (some x) :: B3 ++ .changed t i o v :: l2) := by rw [hl, h3]; simp
    have h7 : (run s (init d prog)).log = (A ++ A1 ++ .callS t i v :: (A2 ++ .read t i (some o) :: A3)) ++ .put t i v (some x) ::
        (B3 ++ .changed t i o v :: l2) := by rw [hl, h3]; simp
    exact ⟨hv, A ++ A1, A2, A3, B3, x, by rw [h3]; simp, f2, f3, only_nil h5, item_ok (read_true h6).symm, item_ok (put_true h7).symm⟩
  | _ => cases h1

/-- `removed`: the deletion computed its index, emitted `removing`, and then took the very item from the list that `removed` comes with. -/
theorem C95_removed (d : List Nat) (prog : Nat → Code) (s : List Nat) (t : Nat) (j : Int) (x : Nat) (l1 l2 : List Ev)
    (hl : (run s (init d prog)).log = l1 ++ .removed t j x :: l2) :
    ∃ A B C D i p, Idx t i p j ∧ l1 = A ++ .callD t i :: (B ++ .removing t j :: (C ++ .took t j (some x) :: D)) ∧
      B.filter (fun e => e.thread == t) = p ∧ Free t C ∧ Free t D ∧
      Py.getItem (value d (A ++ .callD t i :: (B ++ .removing t j :: C))) j = .ok x := by
  obtain ⟨c, y, m, h1, h2, A, B, h3, _, h4⟩ := history (t := t) hl rfl
  cases c with
  | run c => cases c <;> cases h1
  | removed i j' x' c =>
    cases h1
    obtain ⟨p, hp, rfl⟩ := h2
    obtain ⟨A1, B1, rfl, _, h5⟩ := only_cons h4
    obtain ⟨P, B2, rfl, hP, h5⟩ := only_append h5
    obtain ⟨A2, B2, rfl, f2, h5⟩ := only_cons h5
    obtain ⟨A3, B3, rfl, f3, h5⟩ := only_cons h5
    have h6 : (run s (init d prog)).log = (A ++ A1 ++ .callD t i :: (P ++ A2 ++ .removing t j :: A3)) ++ .took t j (some x) ::
        (B3 ++ .removed t j x :: l2) := by rw [hl, h3]; simp
    refine ⟨A ++ A1, P ++ A2, A3, B3, i, p, hp, by rw [h3]; simp, ?_, f3, only_nil h5, item_ok (took_true h6).symm⟩
    rw [List.filter_append, show P.filter _ = p from hP, free_filter f2, List.append_nil]
  | _ => cases h1

/-- `moved`: the move computed its destination, emitted `moving`, took the item from the list and inserted it there, one place before the destination if the
item came from before it. -/
theorem C95_moved (d : List Nat) (prog : Nat → Code) (s : List Nat) (t : Nat) (a b : Int) (x : Nat) (l1 l2 : List Ev)
    (hl : (run s (init d prog)).log = l1 ++ .moved t a b x :: l2) :
    ∃ A B C D E d' e p, Dest t d' p e ∧ ¬ (e = a ∨ e = a + 1) ∧ b = (if a < e then e - 1 else e) ∧
      l1 = A ++ .callM t a d' :: (B ++ .moving t a e :: (C ++ .took t a (some x) :: (D ++ .ins t b x :: E))) ∧
      B.filter (fun e => e.thread == t) = p ∧ Free t C ∧ Free t D ∧ Free t E ∧
      Py.getItem (value d (A ++ .callM t a d' :: (B ++ .moving t a e :: C))) a = .ok x := by
  obtain ⟨c, y, m, h1, h2, A, B, h3, _, h4⟩ := history (t := t) hl rfl
  cases c with
  | run c => cases c <;> cases h1
  | moved a' d' b' x' c =>
    cases h1
    obtain ⟨e, p, he, hp, hb, rfl⟩ := h2
    obtain ⟨A1, B1, rfl, _, h5⟩ := only_cons h4
    obtain ⟨P, B2, rfl, hP, h5⟩ := only_append h5
    obtain ⟨A2, B2, rfl, f2, h5⟩ := only_cons h5
    obtain ⟨A3, B3, rfl, f3, h5⟩ := only_cons h5
    obtain ⟨A4, B4, rfl, f4, h5⟩ := only_cons h5
    have h6 : (run s (init d prog)).log = (A ++ A1 ++ .callM t a d' :: (P ++ A2 ++ .moving t a e :: A3)) ++ .took t a (some x) ::
        (A4 ++ .ins t b x :: (B4 ++ .moved t a b x :: l2)) := by rw [hl, h3]; simp
    refine ⟨A ++ A1, P ++ A2, A3, A4, B4, d', e, p, hp, he, hb, by rw [h3]; simp, ?_, f3, f4, only_nil h5, item_ok (took_true h6).symm⟩
    rw [List.filter_append, show P.filter _ = p from hP, free_filter f2, List.append_nil]
  | _ => cases h1

/-- `IndexError` from an assignment, deletion or move (insertions do not raise): if the index was good when the operation began, then another thread has
removed an item meanwhile.  The events of the operation are those of one that raises, so nothing was changed by it. -/
theorem C95_fail (d : List Nat) (prog : Nat → Code) (s : List Nat) (t : Nat) (j : Int) (l1 l2 : List Ev)
    (hl : (run s (init d prog)).log = l1 ++ .fail t j :: l2) :
    ∃ A e B i, l1 = A ++ e :: B ∧ Op t (e :: (B.filter (fun e => e.thread == t) ++ [.fail t j])) ∧
      ((∃ v, e = .callS t i v) ∨ e = .callD t i ∨ ∃ d, e = .callM t i d) ∧
      ∀ x, Py.getItem (value d A) i = .ok x → ∃ u k y, u ≠ t ∧ .took u k (some y) ∈ B := by
  obtain ⟨c, y, m, h1, h2, A, B, h3, _, h4⟩ := history (t := t) hl rfl
  cases c with
  | run c => cases c <;> cases h1
  | failS i v c =>
    cases h1
    rcases h2 with rfl | ⟨o, hv, rfl⟩
    · obtain ⟨A1, B1, rfl, _, h5⟩ := only_cons h4
      have hB : B1.filter (fun e => e.thread == t) = [.read t j none] := h5
      refine ⟨A ++ A1, _, B1, j, by rw [h3]; simp, by rw [hB]; exact .outS j v, .inl ⟨v, rfl⟩, fun x hx => ?_⟩
      refine taken hB (by simp) fun hno => ?_
      obtain ⟨A2, B2, rfl, f2, h5⟩ := only_cons h5
      have h6 : (run s (init d prog)).log = (A ++ A1 ++ .callS t j v :: A2) ++ .read t j none :: (B2 ++ .fail t j :: l2) := by rw [hl, h3]; simp
      refine stays_not hx (l := .callS t j v :: A2) (fun u k y hm => ?_) (by rw [← value_append]; exact (read_true h6).symm)
      exact hno u k y (by have := (List.mem_cons.mp hm).resolve_left (by simp); simp [this])
    · obtain ⟨A1, B1, rfl, _, h5⟩ := only_cons h4
      have hB : B1.filter (fun e => e.thread == t) = [.read t j (some o), .put t j v none] := h5
      refine ⟨A ++ A1, _, B1, j, by rw [h3]; simp, by rw [hB]; exact .lateS j v o hv, .inl ⟨v, rfl⟩, fun x hx => ?_⟩
      refine taken hB (by simp) fun hno => ?_
      obtain ⟨A2, B2, rfl, f2, h5⟩ := only_cons h5
      obtain ⟨A3, B3, rfl, f3, h5⟩ := only_cons h5
      have h6 : (run s (init d prog)).log = (A ++ A1 ++ .callS t j v :: (A2 ++ .read t j (some o) :: A3)) ++ .put t j v none ::
          (B3 ++ .fail t j :: l2) := by rw [hl, h3]; simp
      refine stays_not hx (l := .callS t j v :: (A2 ++ .read t j (some o) :: A3)) (fun u k y hm => ?_) (by rw [← value_append]; exact (put_true h6).symm)
      exact hno u k y (by simp at hm ⊢; rcases hm with hm | hm <;> simp [hm])
  | failD i j' c =>
    cases h1
    obtain ⟨p, hp, rfl⟩ := h2
    obtain ⟨A1, B1, rfl, _, h5⟩ := only_cons h4
    have hB : B1.filter (fun e => e.thread == t) = p ++ [.removing t j, .took t j none] := h5
    refine ⟨A ++ A1, _, B1, i, by rw [h3]; simp, by rw [hB]; simpa using Op.outD hp, .inr (.inl rfl), fun x hx => ?_⟩
    refine taken hB (fun k y hm => ?_) fun hno => ?_
    · cases hp with
      | pos => simp at hm
      | neg => simp at hm
    · obtain ⟨P, B2, rfl, hP, h5⟩ := only_append h5
      obtain ⟨A2, B2, rfl, f2, h5⟩ := only_cons h5
      obtain ⟨A3, B3, rfl, f3, h5⟩ := only_cons h5
      have h6 : (run s (init d prog)).log = (A ++ A1 ++ .callD t i :: (P ++ (A2 ++ .removing t j :: A3))) ++ .took t j none ::
          (B3 ++ .fail t j :: l2) := by rw [hl, h3]; simp
      have hnt := (took_true h6).symm
      cases hp with
      | pos hi =>
        refine stays_not hx (l := .callD t j :: (P ++ (A2 ++ .removing t j :: A3))) (fun u k y hm => ?_) (by rw [← value_append]; exact hnt)
        exact hno u k y (by simp at hm ⊢; rcases hm with hm | hm | hm <;> simp [hm])
      | neg hi n =>
        obtain ⟨P1, P2, rfl, f4, h7⟩ := only_cons hP
        have h8 : (run s (init d prog)).log = (A ++ A1 ++ .callD t i :: P1) ++ .len t n ::
            (P2 ++ (A2 ++ .removing t (i + n) :: (A3 ++ .took t (i + n) none :: (B3 ++ .fail t (i + n) :: l2)))) := by rw [hl, h3]; simp
        have hn := len_true h8
        have hgrow := length_grows (l := .callD t i :: P1) (d := value d (A ++ A1)) (fun u k y hm => hno u k y (by
          have := (List.mem_cons.mp hm).resolve_left (by simp); simp [this]))
        rw [← value_append] at hgrow
        obtain ⟨q, hq⟩ := item_some.mp (show (item (value d (A ++ A1)) i).isSome from by rw [item_of_ok hx]; rfl)
        have hlow := norm_neg hi hq
        have hgood : (item (value d (A ++ A1 ++ .callD t i :: P1)) (i + n)).isSome := item_some.mpr (norm_mid (by omega) (by omega))
        obtain ⟨z, hz⟩ := Option.isSome_iff_exists.mp hgood
        refine stays_not (item_ok hz) (l := .len t n :: (P2 ++ (A2 ++ .removing t (i + n) :: A3))) (fun u k y hm => ?_) (by
          rw [← value_append, ← hnt]; simp)
        exact hno u k y (by simp at hm ⊢; rcases hm with hm | hm | hm <;> simp [hm])
  | failM a d' e c =>
    cases h1
    obtain ⟨he, p, hp, rfl⟩ := h2
    obtain ⟨A1, B1, rfl, _, h5⟩ := only_cons h4
    have hB : B1.filter (fun e => e.thread == t) = p ++ [.moving t j e, .took t j none] := h5
    refine ⟨A ++ A1, _, B1, j, by rw [h3]; simp, by rw [hB]; simpa using Op.outM hp he, .inr (.inr ⟨d', rfl⟩), fun x hx => ?_⟩
    refine taken hB (fun k y hm => ?_) fun hno => ?_
    · cases hp with
      | pos => simp at hm
      | neg => simp at hm
    · obtain ⟨P, B2, rfl, hP, h5⟩ := only_append h5
      obtain ⟨A2, B2, rfl, f2, h5⟩ := only_cons h5
      obtain ⟨A3, B3, rfl, f3, h5⟩ := only_cons h5
      have h6 : (run s (init d prog)).log = (A ++ A1 ++ .callM t j d' :: (P ++ (A2 ++ .moving t j e :: A3))) ++ .took t j none ::
          (B3 ++ .fail t j :: l2) := by rw [hl, h3]; simp
      refine stays_not hx (l := .callM t j d' :: (P ++ (A2 ++ .moving t j e :: A3))) (fun u k y hm => ?_) (by rw [← value_append]; exact (took_true h6).symm)
      exact hno u k y (by simp at hm ⊢; rcases hm with hm | hm | hm <;> simp [hm])
  | _ => cases h1

/-- The events of a thread that is not in an operation: what its program does, one whole operation after the other; the program learns whether an operation
raised `IndexError`, what `move` returned, and what it looked up. -/
theorem C95_program (d : List Nat) (prog : Nat → Code) (s : List Nat) (t : Nat) (c : Code) (ht : (run s (init d prog)).thr t = .run c) :
    Follows t (prog t) ((run s (init d prog)).log.filter (fun e => e.thread == t)) c := by
  obtain ⟨l, m, h1, h2, h3⟩ := blocked_run d prog s t
  rw [ht] at h1 h2
  obtain rfl : m = [] := h2
  rw [show (run s (init d prog)).log.filter (fun e => e.thread == t) = l from h3.trans (List.append_nil l)]
  exact h1

/-- In particular these are whole operations. -/
theorem C95_blocks (d : List Nat) (prog : Nat → Code) (s : List Nat) (t : Nat) (c : Code) (ht : (run s (init d prog)).thr t = .run c) :
    Blocks t ((run s (init d prog)).log.filter (fun e => e.thread == t)) :=
  (C95_program d prog s t c ht).blocks

/-- What a thread does that begins with `append`: it asks for the length and inserts the item with that index. -/
theorem C95_append (d : List Nat) (prog : Nat → Code) (s : List Nat) (t v : Nat) (f c : Code) (hp : prog t = append v f)
    (ht : (run s (init d prog)).thr t = .run c) (L : List Ev) (hL : (run s (init d prog)).log.filter (fun e => e.thread == t) = L) :
    (L = [] ∧ c = append v f) ∨ (∃ n, L = [.size t n]) ∨
    (∃ n l, L = .size t n :: .callI t n v :: .inserting t n :: .ins t n v :: .inserted t n v :: l ∧ Follows t f l c) := by
  have h := C95_program d prog s t c ht
  rw [hL, hp] at h
  rcases h.first with ⟨h1, h2⟩ | ⟨m, l, c1, h1, h2, h3⟩
  · exact .inl ⟨h1, h2.symm⟩
  · cases h2 with
    | len n =>
      rcases h3.first with ⟨h4, h5⟩ | ⟨m, l, c1, h4, h5, h6⟩
      · exact .inr (.inl ⟨n, by rw [h1, h4]; rfl⟩)
      · cases h5 with
        | insert ho hm =>
          have : m = [.callI t n v, .inserting t n, .ins t n v, .inserted t n v] := by
            cases ho with
            | inserted i w => cases hm; rfl
            | _ => cases hm
          exact .inr (.inr ⟨n, l, by rw [h1, h4, this]; rfl, h6⟩)

/-- An item inserted with a length that was right at an earlier moment comes to the end of the list, if nothing was inserted or removed since. -/
theorem C95_append_end (d : List Nat) (prog : Nat → Code) (s : List Nat) (t n v : Nat) (A B C : List Ev)
    (hl : (run s (init d prog)).log = A ++ .size t n :: (B ++ .ins t n v :: C)) (h1 : ∀ u i w, .ins u i w ∉ B) (h2 : ∀ u i x, .took u i (some x) ∉ B) :
    value d (A ++ .size t n :: (B ++ [.ins t n v])) = value d (A ++ .size t n :: B) ++ [v] := by
  have hn := C95_size d prog s t n A _ (.inl hl)
  have hlen := length_same (l := B) (d := value d (A ++ [.size t n])) h1 h2
  rw [show A ++ Ev.size t n :: (B ++ [.ins t n v]) = (A ++ .size t n :: B) ++ [.ins t n v] from by simp, value_snoc]
  rw [← value_append, value_snoc, show A ++ [Ev.size t n] ++ B = A ++ .size t n :: B from by simp] at hlen
  show Py.insert (value d (A ++ .size t n :: B)) n v = _
  have hn' : n = (value d (A ++ .size t n :: B)).length := hn.trans hlen.symm
  generalize value d (A ++ .size t n :: B) = l at hn'
  rw [hn']
  exact insert_end l v

/-- What a thread does that begins with `pop`: it looks the index up; if an item is there it deletes as `del` does, and goes on with the item that it looked up
unless the deletion raised `IndexError`. -/
theorem C95_pop (d : List Nat) (prog : Nat → Code) (s : List Nat) (t : Nat) (i : Int) (f : Option Nat → Code) (c : Code) (hp : prog t = pop i f)
    (ht : (run s (init d prog)).thr t = .run c) (L : List Ev) (hL : (run s (init d prog)).log.filter (fun e => e.thread == t) = L) :
    (L = [] ∧ c = pop i f) ∨ (∃ l, L = .look t i none :: l ∧ Follows t (f none) l c) ∨ (∃ v, L = [.look t i (some v)]) ∨
    (∃ v m l, L = .look t i (some v) :: (m ++ l) ∧ Op t m ∧ m.head? = some (.callD t i) ∧
      ((∃ j, m.getLast? = some (.fail t j)) → Follows t (f none) l c) ∧ ((∀ j, m.getLast? ≠ some (.fail t j)) → Follows t (f (some v)) l c)) := by
  have h := C95_program d prog s t c ht
  rw [hL, hp] at h
  rcases h.first with ⟨h1, h2⟩ | ⟨m, l, c1, h1, h2, h3⟩
  · exact .inl ⟨h1, h2.symm⟩
  · cases h2 with
    | get x =>
      cases x with
      | none => exact .inr (.inl ⟨l, h1, h3⟩)
      | some v =>
        rcases h3.first with ⟨h4, h5⟩ | ⟨m, l, c1, h4, h5, h6⟩
        · exact .inr (.inr (.inl ⟨v, by rw [h1, h4]; rfl⟩))
        · cases h5 with
          | del ho hm b hb =>
            refine .inr (.inr (.inr ⟨v, m, l, by rw [h1, h4]; rfl, ho, hm, fun hf => ?_, fun hf => ?_⟩))
            · rw [hb.mpr hf] at h6; exact h6
            · cases b with
              | true => obtain ⟨j, hj⟩ := hb.mp rfl; exact absurd hj (hf j)
              | false => exact h6

/-! ## A list that is changed by one thread at a time -/

/-- Partial: if at no moment two threads are changing the list, then whenever none is, who keeps a copy has what the list holds.  Missing: overlapping
operations, for which it is false (`C95_mirror_refuted`). -/
theorem C95_mirror_partial (d : List Nat) (prog : Nat → Code) (s : List Nat)
    (h : ∀ p q, s = p ++ q → ∀ t u, InOp t (run p (init d prog)).log → InOp u (run p (init d prog)).log → t = u)
    (hr : ∀ t, ¬ InOp t (run s (init d prog)).log) : (run s (init d prog)).data = mirror d (run s (init d prog)).log :=
  (known_run h).rest (fun t => by
    cases ht : ((run s (init d prog)).thr t).busy with
    | false => rfl
    | true => exact absurd (inOp_of_busy ht) (hr t))

theorem story_known (d : List Nat) (prog : Nat → Code) (s : List Nat)
    (h : ∀ p t q, s = p ++ t :: q → Known d (run p (init d prog)))
    (l1 l2 : List Ev) (e : Ev) (hl : (run s (init d prog)).log = l1 ++ e :: l2) :
    (∀ t i o v, e = .changed t i o v → Py.getItem (mirror d l1) i = .ok o) ∧ (∀ t i x, e = .removed t i x → Py.getItem (mirror d l1) i = .ok x) ∧
    (∀ t a b x, e = .moved t a b x → Py.getItem (mirror d l1) a = .ok x) ∧ (∀ t i, e = .fail t i → (Py.getItem (mirror d l1) i).toOption = none) := by
  obtain ⟨p, t, q, y, rfl, h2, h3⟩ := moment s hl
  have hk := (h p t q rfl).knows t
  rw [h2] at hk
  generalize (run p (init d prog)).thr t = x at h3 hk
  refine ⟨fun u i o v he => ?_, fun u i z he => ?_, fun u a b z he => ?_, fun u i he => ?_⟩
  · subst he
    cases x with
    | run c => cases c <;> cases h3
    | changed _ _ _ c => cases h3; exact item_ok (hk rfl).1
    | _ => cases h3
  · subst he
    cases x with
    | run c => cases c <;> cases h3
    | removed _ _ _ c => cases h3; exact item_ok (hk rfl).1
    | _ => cases h3
  · subst he
    cases x with
    | run c => cases c <;> cases h3
    | moved _ _ _ _ c => cases h3; exact item_ok (hk rfl).1
    | _ => cases h3
  · subst he
    cases x with
    | run c => cases c <;> cases h3
    | failS _ _ c => cases h3; exact (hk rfl).2
    | failD _ _ c => cases h3; exact (hk rfl).2
    | failM _ _ _ c => cases h3; exact (hk rfl).2
    | _ => cases h3

/-- Partial, under the same condition: the events fit together.  `changed`, `removed` and `moved` come with the item that the copy has at the index, and
operations raise `IndexError` only if the copy has nothing there.  Missing: overlapping operations (`C95_changed_refuted`, `C95_fail_refuted`). -/
theorem C95_story_partial (d : List Nat) (prog : Nat → Code) (s : List Nat)
    (h : ∀ p q, s = p ++ q → ∀ t u, InOp t (run p (init d prog)).log → InOp u (run p (init d prog)).log → t = u)
    (l1 l2 : List Ev) (e : Ev) (hl : (run s (init d prog)).log = l1 ++ e :: l2) :
    (∀ t i o v, e = .changed t i o v → Py.getItem (mirror d l1) i = .ok o) ∧ (∀ t i x, e = .removed t i x → Py.getItem (mirror d l1) i = .ok x) ∧
    (∀ t a b x, e = .moved t a b x → Py.getItem (mirror d l1) a = .ok x) ∧ (∀ t i, e = .fail t i → (Py.getItem (mirror d l1) i).toOption = none) :=
  story_known d prog s (fun p t q e => known_run (s := p) (fun p' q' e' => h p' (q' ++ t :: q) (by rw [e, e']; simp))) l1 l2 e hl

/-- In particular: if only one thread changes the list and the others look, the copy is right whenever that thread is not changing it. -/
theorem C95_own (d : List Nat) (prog : Nat → Code) (s : List Nat) (t : Nat)
    (h1 : ∀ e ∈ (run s (init d prog)).log, e.begins = true → e.thread = t)
    (hr : ¬ InOp t (run s (init d prog)).log) : (run s (init d prog)).data = mirror d (run s (init d prog)).log := by
  have key : ∀ p q, s = p ++ q → ∀ u, InOp u (run p (init d prog)).log → u = t := by
    intro p q e u ⟨A, x, B, h3, h4, h5, _⟩
    obtain ⟨l, h6⟩ := log_grows q (run p (init d prog))
    exact h4.symm.trans (h1 x (by rw [e, run_append, h6, h3]; simp) h5)
  refine C95_mirror_partial d prog s (fun p q e u w hu hw => (key p q e u hu).trans (key p q e w hw).symm) (fun u hu => ?_)
  have := key s [] (by simp) u hu
  exact hr (this ▸ hu)

/-! ## What fails when operations overlap -/

/-- The full claim fails: thread 0 has inserted 7, thread 1 inserts 8 before it and tells it, then thread 0 tells 7. -/
theorem C95_mirror_refuted : ∃ s, (run s (init [5, 6] (exP (exIns 0 7) (exIns 0 8)))).data = [8, 7, 5, 6] ∧
    mirror [5, 6] (run s (init [5, 6] (exP (exIns 0 7) (exIns 0 8)))).log = [7, 8, 5, 6] :=
  ⟨[0, 0, 0, 1, 1, 1, 1, 0], by decide, by decide⟩

/-- `append` puts 8 before an item that was there already when it inserted. -/
theorem C95_append_refuted : ∃ s, (run s (init [5, 6] (exP (append 7 .ret) (append 8 .ret)))).data = [5, 6, 8, 7] ∧
    (run s (init [5, 6] (exP (append 7 .ret) (append 8 .ret)))).log = [.size 1 2, .size 0 2, .callI 0 2 7, .inserting 0 2, .ins 0 2 7, .inserted 0 2 7,
      .callI 1 2 8, .inserting 1 2, .ins 1 2 8, .inserted 1 2 8] :=
  ⟨[1, 0, 0, 0, 0, 0, 1, 1, 1, 1], by decide, by decide⟩

/-- `changed` comes with old item 5, which was replaced before; 7 is what is replaced. -/
theorem C95_changed_refuted : ∃ s, (run s (init [5, 6] (exP (exSet 0 7) (exSet 0 8)))).log =
    [.callS 1 0 8, .read 1 0 (some 5), .callS 0 0 7, .read 0 0 (some 5), .put 0 0 7 (some 5), .changed 0 0 5 7, .put 1 0 8 (some 7), .changed 1 0 5 8] :=
  ⟨[1, 1, 0, 0, 0, 0, 1, 1], by decide⟩

/-- Operations raise `IndexError` though the index was good when they looked or emitted `removing`: thread 1 deletes the last item meanwhile. -/
theorem C95_fail_refuted : (∃ s, (run s (init [5, 6] (exP (exSet 1 7) (exDel 1)))).log =
    [.callS 0 1 7, .read 0 1 (some 6), .callD 1 1, .removing 1 1, .took 1 1 (some 6), .removed 1 1 6, .put 0 1 7 none, .fail 0 1]) ∧
    (∃ s, (run s (init [5, 6] (exP (exDel (-1)) (exDel 1)))).log =
    [.callD 0 (-1), .len 0 2, .removing 0 1, .callD 1 1, .removing 1 1, .took 1 1 (some 6), .removed 1 1 6, .took 0 1 none, .fail 0 1]) ∧
    (∃ s, (run s (init [5, 6] (exP (exMove 1 0) (exDel 1)))).log =
    [.callM 0 1 0, .moving 0 1 0, .callD 1 1, .removing 1 1, .took 1 1 (some 6), .removed 1 1 6, .took 0 1 none, .fail 0 1]) :=
  ⟨⟨[0, 0, 1, 1, 1, 1, 0, 0], by decide⟩, ⟨[0, 0, 0, 1, 1, 1, 1, 0, 0], by decide⟩, ⟨[0, 0, 1, 1, 1, 1, 0, 0], by decide⟩⟩

/-- `del l[-1]` removes 6, which is not the last item any more when it is removed: thread 1 has appended 7. -/
theorem C95_last_refuted : ∃ s, (run s (init [5, 6] (exP (exDel (-1)) (append 7 .ret)))).data = [5, 7] ∧
    (run s (init [5, 6] (exP (exDel (-1)) (append 7 .ret)))).log = [.callD 0 (-1), .len 0 2, .size 1 2, .callI 1 2 7, .inserting 1 2, .ins 1 2 7,
      .inserted 1 2 7, .removing 0 1, .took 0 1 (some 6), .removed 0 1 6] :=
  ⟨[0, 0, 1, 1, 1, 1, 1, 0, 0, 0], by decide, by decide⟩

/-- During a move the item is not in the list: another thread finds one item only, and nothing at index 1. -/
theorem C95_missing_refuted : ∃ s, (run s (init [5, 6] (exP (exMove 0 2) (.len fun _ => .get 1 fun _ => .ret)))).log =
    [.callM 0 0 2, .moving 0 0 2, .took 0 0 (some 5), .size 1 1, .look 1 1 none, .ins 0 1 5, .moved 0 0 1 5, .reordered 0] :=
  ⟨[0, 0, 0, 1, 1, 0, 0, 0], by decide⟩

/-- The program appends what it gets. -/
def exKeep : Option Nat → Code
  | none => .ret
  | some v => append v .ret

/-- `pop(0)` returns 5, which thread 0 has removed, and removes 6: the program puts back what it got, and 6 is lost. -/
theorem C95_pop_refuted : ∃ s, (run s (init [5, 6] (exP (exDel 0) (pop 0 exKeep)))).data = [5] ∧
    (run s (init [5, 6] (exP (exDel 0) (pop 0 exKeep)))).log = [.look 1 0 (some 5), .callD 0 0, .removing 0 0, .took 0 0 (some 5), .removed 0 0 5,
      .callD 1 0, .removing 1 0, .took 1 0 (some 6), .removed 1 0 6, .size 1 0, .callI 1 0 5, .inserting 1 0, .ins 1 0 5, .inserted 1 0 5] :=
  ⟨[1, 0, 0, 0, 0, 1, 1, 1, 1, 1, 1, 1, 1, 1], by decide, by decide⟩

/-! ## Examples -/

/-- `C95_look`, `C95_size`: thread 1 looks at the list during a move (`C95_missing_refuted`). -/
example : none = (Py.getItem (value [5, 6] [.callM 0 0 2, .moving 0 0 2, .took 0 0 (some 5), .size 1 1]) 1).toOption ∧
    1 = (value [5, 6] [.callM 0 0 2, .moving 0 0 2, .took 0 0 (some 5)]).length :=
  ⟨C95_look [5, 6] (exP (exMove 0 2) (.len fun _ => .get 1 fun _ => .ret)) [0, 0, 0, 1, 1, 0, 0, 0] 1 1 none _
      [.ins 0 1 5, .moved 0 0 1 5, .reordered 0] (by decide),
    C95_size [5, 6] (exP (exMove 0 2) (.len fun _ => .get 1 fun _ => .ret)) [0, 0, 0, 1, 1, 0, 0, 0] 1 1 _
      [.look 1 1 none, .ins 0 1 5, .moved 0 0 1 5, .reordered 0] (.inl (by decide))⟩

theorem exRest {s : List Nat} {c0 c1 : Code} (h0 : (run s (init [5, 6] (exP c0 c1))).thr 0 = .run .ret) (h1 : (run s (init [5, 6] (exP c0 c1))).thr 1 = .run .ret)
    (h2 : ∀ t ∈ s, t < 2) : ∀ t, ∃ c, (run s (init [5, 6] (exP c0 c1))).thr t = .run c := by
  have key : ∀ (s : List Nat) (σ : St) (t : Nat), t ∉ s → (run s σ).thr t = σ.thr t := by
    intro s
    induction s with
    | nil => exact fun _ _ _ => rfl
    | cons u s ih =>
      intro σ t ht
      show (run s (step σ u)).thr t = σ.thr t
      rw [ih _ _ (fun h => ht (List.mem_cons_of_mem _ h))]
      have hu : t ≠ u := fun h => ht (h ▸ List.mem_cons_self)
      cases hn : next σ.data u (σ.thr u) with
      | none => rw [step_none hn]
      | some p => obtain ⟨e, x⟩ := p; rw [step_some hn]; exact if_neg hu
  intro t
  match t with
  | 0 => exact ⟨_, h0⟩
  | 1 => exact ⟨_, h1⟩
  | t + 2 => exact ⟨_, key s _ _ (fun h => by have := h2 _ h; omega)⟩

/-- `C95_length`, `C95_bag`, `C95_counted`: one thread moves 5 to the end, the other inserts 5 at the same time. -/
example : (run [0, 0, 0, 1, 1, 1, 0, 0, 0, 1] (init [5, 6] (exP (exMove 0 2) (exIns 0 5)))).data = [5, 5, 6] ∧
    (run [0, 0, 0, 1, 1, 1, 0, 0, 0, 1] (init [5, 6] (exP (exMove 0 2) (exIns 0 5)))).data.count 5 + 0 = 1 + 1 :=
  ⟨by decide, C95_counted [5, 6] (exP (exMove 0 2) (exIns 0 5)) [0, 0, 0, 1, 1, 1, 0, 0, 0, 1] 5 (exRest (by rfl) (by rfl) (by decide)) (by
    rw [show (run [0, 0, 0, 1, 1, 1, 0, 0, 0, 1] (init [5, 6] (exP (exMove 0 2) (exIns 0 5)))).log = [.callM 0 0 2, .moving 0 0 2, .took 0 0 (some 5),
      .callI 1 0 5, .inserting 1 0, .ins 1 0 5, .ins 0 1 5, .moved 0 0 1 5, .reordered 0, .inserted 1 0 5] from by decide]
    simp)⟩

/-- `C95_bag` with assignments that overlap: 8 replaces 7, which is not told. -/
example : (run [1, 1, 0, 0, 0, 0, 1, 1] (init [5, 6] (exP (exSet 0 7) (exSet 0 8)))).data.count 7 + 0 + 1 = 0 + 0 + 1 :=
  C95_bag [5, 6] (exP (exSet 0 7) (exSet 0 8)) [1, 1, 0, 0, 0, 0, 1, 1] 7 (exRest (by rfl) (by rfl) (by decide))

/-- `C95_inserted`, `C95_removed`, `C95_moved`, `C95_changed`: see the logs above; here a move with a negative destination. -/
example : ∃ s l1 l2, (run s (init [5, 6] (exP (exMove 0 (-1)) (exDel (-2))))).log = l1 ++ .moved 0 0 1 5 :: l2 ∧ .len 0 2 ∈ l1 :=
  ⟨[0, 0, 0, 0, 0, 0, 0], [.callM 0 0 (-1), .len 0 2, .moving 0 0 2, .took 0 0 (some 5), .ins 0 1 5], [.reordered 0], by decide⟩

/-- `C95_fail`: the deletion with index -1 in `C95_fail_refuted`; the index was good when it began. -/
example : ∃ A e B i, [Ev.callD 0 (-1), .len 0 2, .removing 0 1, .callD 1 1, .removing 1 1, .took 1 1 (some 6), .removed 1 1 6, .took 0 1 none] =
      A ++ e :: B ∧ Op 0 (e :: (B.filter (fun e => e.thread == 0) ++ [.fail 0 1])) ∧
      ((∃ v, e = .callS 0 i v) ∨ e = .callD 0 i ∨ ∃ d, e = .callM 0 i d) ∧
      ∀ x, Py.getItem (value [5, 6] A) i = .ok x → ∃ u k y, u ≠ 0 ∧ .took u k (some y) ∈ B :=
  C95_fail [5, 6] (exP (exDel (-1)) (exDel 1)) [0, 0, 0, 1, 1, 1, 1, 0, 0] 0 1 _ [] (by decide)

/-- `C95_program`, `C95_blocks`: thread 0 is done while thread 1 is not. -/
example : Blocks 0 ((run [0, 1, 1, 0, 0, 0] (init [5, 6] (exP (exSet 0 7) (exSet 0 8)))).log.filter (fun e => e.thread == 0)) :=
  C95_blocks [5, 6] (exP (exSet 0 7) (exSet 0 8)) _ 0 .ret (by rfl)

/-- `C95_append`, `C95_append_end`: thread 1 appends 7 while thread 0 assigns. -/
example : value [5, 6] [.callS 0 0 8, .size 1 2, .read 0 0 (some 5), .callI 1 2 7, .put 0 0 8 (some 5), .inserting 1 2, .ins 1 2 7] = [8, 6] ++ [7] :=
  C95_append_end [5, 6] (exP (exSet 0 8) (append 7 .ret)) [0, 1, 0, 1, 0, 1, 1, 0, 1] 1 2 7 [.callS 0 0 8]
    [.read 0 0 (some 5), .callI 1 2 7, .put 0 0 8 (some 5), .inserting 1 2] [.changed 0 0 5 8, .inserted 1 2 7] (by decide) (by simp) (by simp)

/-- `C95_pop`: see `C95_pop_refuted`; the thread goes on with 5. -/
example : (run [1, 0, 0, 0, 0, 1, 1, 1, 1] (init [5, 6] (exP (exDel 0) (pop 0 exKeep)))).thr 1 = .run (append 5 .ret) := rfl

/-- For the examples: the threads in an operation. -/
def open1 (o : List Nat) (e : Ev) : List Nat := if e.begins then e.thread :: o else if e.ends then o.filter (· != e.thread) else o

theorem open1_keep {t : Nat} {o : List Nat} {e : Ev} (he : e.thread = t → e.ends = false) (h : t ∈ o) : t ∈ open1 o e := by
  unfold open1
  split
  · exact List.mem_cons_of_mem _ h
  · split
    · rename_i hb
      refine List.mem_filter.mpr ⟨h, ?_⟩
      have : t ≠ e.thread := fun ht => by rw [he ht.symm] at hb; cases hb
      simpa using this
    · exact h

theorem opens_mem {t : Nat} {L : List Ev} (h : InOp t L) : t ∈ L.foldl open1 [] := by
  obtain ⟨A, e, B, rfl, h1, h1', h2⟩ := h
  rw [List.foldl_append]
  have key : ∀ (B : List Ev) (o : List Nat), (∀ x ∈ B, x.thread = t → x.ends = false) → t ∈ o → t ∈ B.foldl open1 o := by
    intro B
    induction B with
    | nil => exact fun _ _ h => h
    | cons x B ih => exact fun o hB h => ih _ (fun y hy => hB y (List.mem_cons_of_mem _ hy)) (open1_keep (hB x List.mem_cons_self) h)
  refine key B _ h2 ?_
  unfold open1
  rw [if_pos h1', h1]
  exact List.mem_cons_self

/-- One operation after the other: thread 0 moves the first item to the end, thread 1 deletes the first one, thread 0 looks in between. -/
def exS : List Nat := [0, 0, 0, 0, 0, 0, 0, 1, 0, 1, 0, 1, 1]

def exC : Nat → Code := exP (.move 0 (-1) fun _ => .len fun _ => .get 0 fun _ => .ret) (exDel 0)

theorem exS_one : ∀ i ∈ List.range 14, ∀ t ∈ (run (exS.take i) (init [5, 6] exC)).log.foldl open1 [],
    ∀ u ∈ (run (exS.take i) (init [5, 6] exC)).log.foldl open1 [], t = u := by decide +kernel

theorem exS_apart (p q : List Nat) (e : exS = p ++ q) (t u : Nat) (ht : InOp t (run p (init [5, 6] exC)).log)
    (hu : InOp u (run p (init [5, 6] exC)).log) : t = u := by
  have hp : p = exS.take p.length := by rw [e]; simp
  have hlen : p.length ∈ List.range 14 := by
    have := congrArg List.length e
    simp [exS] at this
    exact List.mem_range.mpr (by omega)
  have h1 := opens_mem ht
  have h2 := opens_mem hu
  rw [hp] at h1 h2
  exact exS_one p.length hlen t h1 u h2

/-- `C95_mirror_partial` and `C95_story_partial`: `removed` comes with 6, which the copy has. -/
example : (run exS (init [5, 6] exC)).data = mirror [5, 6] (run exS (init [5, 6] exC)).log ∧ (run exS (init [5, 6] exC)).data = [5] ∧
    Py.getItem (mirror [5, 6] [.callM 0 0 (-1), .len 0 2, .moving 0 0 2, .took 0 0 (some 5), .ins 0 1 5, .moved 0 0 1 5, .reordered 0, .callD 1 0, .size 0 2,
      .removing 1 0, .look 0 0 (some 6), .took 1 0 (some 6)]) 0 = .ok 6 := by
  refine ⟨C95_mirror_partial [5, 6] _ exS exS_apart (fun t ht => ?_), by decide, ?_⟩
  · have h := opens_mem ht
    rw [show (run exS (init [5, 6] exC)).log.foldl open1 [] = [] from by decide] at h
    cases h
  · exact (C95_story_partial [5, 6] _ exS exS_apart _ [] (.removed 1 0 6) (by decide)).2.1 1 0 6 rfl

/-- `C95_own`: thread 0 moves, thread 1 looks. -/
example : (run [0, 0, 0, 1, 1, 0, 0, 0] (init [5, 6] (exP (exMove 0 2) (.len fun _ => .get 1 fun _ => .ret)))).data =
    mirror [5, 6] (run [0, 0, 0, 1, 1, 0, 0, 0] (init [5, 6] (exP (exMove 0 2) (.len fun _ => .get 1 fun _ => .ret)))).log := by
  refine C95_own [5, 6] _ _ 0 (by decide) (fun ht => ?_)
  have h := opens_mem ht
  rw [show (run [0, 0, 0, 1, 1, 0, 0, 0] (init [5, 6] (exP (exMove 0 2) (.len fun _ => .get 1 fun _ => .ret)))).log.foldl open1 [] = [] from by decide] at h
  cases h

end Psygnal.LsC
