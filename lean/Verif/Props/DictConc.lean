import Verif.DictConcLemmas

/-!
# C94: an evented dictionary in several threads

`value d k l`: what key `k` holds after the events `l` if the dictionary was `d`; `mirror d k l`: what someone has under `k` who keeps a copy by following
`added`, `changed` and `removed`; `Free t l`: no event of thread `t` is in `l`.
-/
namespace Psygnal.DcC

/-! Example: key 0 holds 5; thread 0 assigns 6 or deletes, thread 1 pops. -/

def exD : Dict := fun k => if k = 0 then some 5 else none

def exP (c0 c1 : Code) : Nat → Code
  | 0 => c0
  | 1 => c1
  | _ => .ret

def exSet (k v : Nat) : Code := .set k v fun _ => .ret

def exDel (k : Nat) : Code := .del k fun _ => .ret

/-! ## What is in the dictionary -/

/-- A key holds the value stored last, if it was not deleted since. -/
theorem C94_value (d : Dict) (prog : Nat → Code) (s : List Nat) (k : Nat) (l1 l2 : List Ev) (t v : Nat)
    (hl : (run s (init d prog)).log = l1 ++ .put t k v :: l2) (h1 : ∀ u w, .put u k w ∉ l2) (h2 : ∀ u x, .took u k (some x) ∉ l2) :
    (run s (init d prog)).dict k = some v := by
  rw [dict_run, hl, show l1 ++ Ev.put t k v :: l2 = (l1 ++ [.put t k v]) ++ l2 from by simp, value_append, value_still h1 h2, value_snoc]
  exact if_pos rfl

/-- A key deleted and not stored since is not there. -/
theorem C94_gone (d : Dict) (prog : Nat → Code) (s : List Nat) (k : Nat) (l1 l2 : List Ev) (t x : Nat)
    (hl : (run s (init d prog)).log = l1 ++ .took t k (some x) :: l2) (h1 : ∀ u w, .put u k w ∉ l2) : (run s (init d prog)).dict k = none := by
  rw [dict_run, hl, show l1 ++ Ev.took t k (some x) :: l2 = (l1 ++ [.took t k (some x)]) ++ l2 from by simp, value_append]
  refine value_away ?_ h1
  rw [value_snoc]
  exact if_pos rfl

/-- Nothing else changes a key. -/
theorem C94_untouched (d : Dict) (prog : Nat → Code) (s : List Nat) (k : Nat) (h1 : ∀ u w, .put u k w ∉ (run s (init d prog)).log)
    (h2 : ∀ u x, .took u k (some x) ∉ (run s (init d prog)).log) : (run s (init d prog)).dict k = d k := by
  rw [dict_run]
  exact value_still h1 h2

/-- `d[k]` gives what the key holds at that moment. -/
theorem C94_look (d : Dict) (prog : Nat → Code) (s : List Nat) (t k : Nat) (x : Option Nat) (l1 l2 : List Ev)
    (hl : (run s (init d prog)).log = l1 ++ .look t k x :: l2) : x = value d k l1 := by
  obtain ⟨c, y, m, h1, _⟩ := history (t := t) hl rfl
  cases c with
  | run c => cases c <;> cases h1 <;> rfl
  | _ => cases h1

/-- Two deletions of a key never both succeed without an assignment of the second value between them. -/
theorem C94_once (d : Dict) (prog : Nat → Code) (s : List Nat) (k t u x y : Nat) (A B C : List Ev)
    (hl : (run s (init d prog)).log = A ++ .took t k (some x) :: (B ++ .took u k (some y) :: C)) : ∃ w, .put w k y ∈ B := by
  have h0 : (run s (init d prog)).log = (A ++ .took t k (some x) :: B) ++ .took u k (some y) :: C := by rw [hl]; simp
  have hy := took_true h0
  rw [show A ++ Ev.took t k (some x) :: B = (A ++ [.took t k (some x)]) ++ B from by simp, value_append] at hy
  exact value_put (d := fun m => value d m (A ++ [.took t k (some x)])) (by show value d k _ = none; rw [value_snoc]; exact if_pos rfl) hy.symm

/-! ## What the listeners are told -/

/-- `added`: the key was not there at one moment of the assignment; then `adding` was emitted and the value stored. -/
theorem C94_added (d : Dict) (prog : Nat → Code) (s : List Nat) (t k v : Nat) (l1 l2 : List Ev)
    (hl : (run s (init d prog)).log = l1 ++ .added t k v :: l2) :
    ∃ A B C D E, l1 = A ++ .call t k v :: (B ++ .has t k false :: (C ++ .adding t k :: (D ++ .put t k v :: E))) ∧
      Free t B ∧ Free t C ∧ Free t D ∧ Free t E ∧ value d k (A ++ .call t k v :: B) = none := by
  obtain ⟨x, y, m, h1, h2, A, B, h3, _, h4⟩ := history (t := t) hl rfl
  cases x with
  | run c => cases c <;> cases h1
  | added k' v' c =>
    cases h1
    obtain rfl : m = _ := h2
    obtain ⟨A1, B1, rfl, _, h5⟩ := only_cons h4
    obtain ⟨A2, B2, rfl, f2, h5⟩ := only_cons h5
    obtain ⟨A3, B3, rfl, f3, h5⟩ := only_cons h5
    obtain ⟨A4, B4, rfl, f4, h5⟩ := only_cons h5
    refine ⟨A ++ A1, A2, A3, A4, B4, by rw [h3]; simp, f2, f3, f4, only_nil h5, ?_⟩
    have h6 : (run s (init d prog)).log = (A ++ A1 ++ .call t k v :: A2) ++ .has t k false ::
        (A3 ++ .adding t k :: (A4 ++ .put t k v :: B4) ++ .added t k v :: l2) := by rw [hl, h3]; simp
    have := has_true h6
    simpa using this.symm
  | _ => cases h1

/-- `changed`: the key was there at one moment of the assignment and held the old value, another one than the new, at a later moment; then `changing` was
emitted and the new value stored. -/
theorem C94_changed (d : Dict) (prog : Nat → Code) (s : List Nat) (t k o v : Nat) (l1 l2 : List Ev)
    (hl : (run s (init d prog)).log = l1 ++ .changed t k o v :: l2) : v ≠ o ∧
    ∃ A B C D E F, l1 = A ++ .call t k v :: (B ++ .has t k true :: (C ++ .read t k (some o) :: (D ++ .changing t k :: (E ++ .put t k v :: F)))) ∧
      Free t B ∧ Free t C ∧ Free t D ∧ Free t E ∧ Free t F ∧ (value d k (A ++ .call t k v :: B)).isSome ∧
      value d k (A ++ .call t k v :: (B ++ .has t k true :: C)) = some o := by
  obtain ⟨x, y, m, h1, h2, A, B, h3, _, h4⟩ := history (t := t) hl rfl
  cases x with
  | run c => cases c <;> cases h1
  | changed k' v' o' c =>
    cases h1
    obtain ⟨hv, rfl⟩ := h2
    obtain ⟨A1, B1, rfl, _, h5⟩ := only_cons h4
    obtain ⟨A2, B2, rfl, f2, h5⟩ := only_cons h5
    obtain ⟨A3, B3, rfl, f3, h5⟩ := only_cons h5
    obtain ⟨A4, B4, rfl, f4, h5⟩ := only_cons h5
    obtain ⟨A5, B5, rfl, f5, h5⟩ := only_cons h5
    refine ⟨hv, A ++ A1, A2, A3, A4, A5, B5, by rw [h3]; simp, f2, f3, f4, f5, only_nil h5, ?_, ?_⟩
    · have h6 : (run s (init d prog)).log = (A ++ A1 ++ .call t k v :: A2) ++ .has t k true ::
          (A3 ++ .read t k (some o) :: (A4 ++ .changing t k :: (A5 ++ .put t k v :: B5)) ++ .changed t k o v :: l2) := by rw [hl, h3]; simp
      exact (has_true h6).symm
    · have h6 : (run s (init d prog)).log = (A ++ A1 ++ .call t k v :: (A2 ++ .has t k true :: A3)) ++ .read t k (some o) ::
          (A4 ++ .changing t k :: (A5 ++ .put t k v :: B5) ++ .changed t k o v :: l2) := by rw [hl, h3]; simp
      exact (read_true h6).symm
  | _ => cases h1

/-- `removed`: the key held the item at one moment of the deletion; then `removing` was emitted and the key deleted - it held some value then. -/
theorem C94_removed (d : Dict) (prog : Nat → Code) (s : List Nat) (t k i : Nat) (l1 l2 : List Ev)
    (hl : (run s (init d prog)).log = l1 ++ .removed t k i :: l2) :
    ∃ A B C D E x, l1 = A ++ .callD t k :: (B ++ .read t k (some i) :: (C ++ .removing t k :: (D ++ .took t k (some x) :: E))) ∧
      Free t B ∧ Free t C ∧ Free t D ∧ Free t E ∧ value d k (A ++ .callD t k :: B) = some i ∧
      value d k (A ++ .callD t k :: (B ++ .read t k (some i) :: (C ++ .removing t k :: D))) = some x := by
  obtain ⟨x, y, m, h1, h2, A, B, h3, _, h4⟩ := history (t := t) hl rfl
  cases x with
  | run c => cases c <;> cases h1
  | removed k' i' c =>
    cases h1
    obtain ⟨x, rfl⟩ := h2
    obtain ⟨A1, B1, rfl, _, h5⟩ := only_cons h4
    obtain ⟨A2, B2, rfl, f2, h5⟩ := only_cons h5
    obtain ⟨A3, B3, rfl, f3, h5⟩ := only_cons h5
    obtain ⟨A4, B4, rfl, f4, h5⟩ := only_cons h5
    refine ⟨A ++ A1, A2, A3, A4, B4, x, by rw [h3]; simp, f2, f3, f4, only_nil h5, ?_, ?_⟩
    · have h6 : (run s (init d prog)).log = (A ++ A1 ++ .callD t k :: A2) ++ .read t k (some i) ::
          (A3 ++ .removing t k :: (A4 ++ .took t k (some x) :: B4) ++ .removed t k i :: l2) := by rw [hl, h3]; simp
      exact (read_true h6).symm
    · have h6 : (run s (init d prog)).log = (A ++ A1 ++ .callD t k :: (A2 ++ .read t k (some i) :: (A3 ++ .removing t k :: A4))) ++
          .took t k (some x) :: (B4 ++ .removed t k i :: l2) := by rw [hl, h3]; simp
      exact (took_true h6).symm
  | _ => cases h1

/-- An assignment raises `KeyError` only if another thread deletes the key during it, and then it has stored and emitted nothing. -/
theorem C94_fail_set (d : Dict) (prog : Nat → Code) (s : List Nat) (t k v : Nat) (l1 l2 : List Ev)
    (hl : (run s (init d prog)).log = l1 ++ .fail t k (some v) :: l2) :
    ∃ A B C D, l1 = A ++ .call t k v :: (B ++ .has t k true :: (C ++ .read t k none :: D)) ∧ Free t B ∧ Free t C ∧ Free t D ∧
      ∃ u x, .took u k (some x) ∈ C := by
  obtain ⟨x, y, m, h1, h2, A, B, h3, _, h4⟩ := history (t := t) hl rfl
  cases x with
  | run c => cases c <;> cases h1
  | raise k' v' c =>
    cases h1
    obtain rfl : m = _ := h2
    obtain ⟨A1, B1, rfl, _, h5⟩ := only_cons h4
    obtain ⟨A2, B2, rfl, f2, h5⟩ := only_cons h5
    obtain ⟨A3, B3, rfl, f3, h5⟩ := only_cons h5
    refine ⟨A ++ A1, A2, A3, B3, by rw [h3]; simp, f2, f3, only_nil h5, ?_⟩
    have h6 : (run s (init d prog)).log = (A ++ A1 ++ .call t k v :: A2) ++ .has t k true ::
        (A3 ++ .read t k none :: B3 ++ .fail t k (some v) :: l2) := by rw [hl, h3]; simp
    have h7 : (run s (init d prog)).log = (A ++ A1 ++ .call t k v :: (A2 ++ .has t k true :: A3)) ++ .read t k none ::
        (B3 ++ .fail t k (some v) :: l2) := by rw [hl, h3]; simp
    have h8 := has_true h6
    have h9 := read_true h7
    rw [show A ++ A1 ++ Ev.call t k v :: (A2 ++ .has t k true :: A3) = ((A ++ A1 ++ .call t k v :: A2) ++ [.has t k true]) ++ A3 from by simp,
      value_append] at h9
    refine Classical.byContradiction fun hno => ?_
    have h10 := value_stays (d := fun m => value d m ((A ++ A1 ++ .call t k v :: A2) ++ [.has t k true])) (l := A3) (k := k)
      (by show (value d k _).isSome = true; rw [value_snoc]; exact h8.symm) (fun u x hm => hno ⟨u, x, hm⟩)
    rw [← h9] at h10
    cases h10
  | _ => cases h1

/-- A deletion raises `KeyError` if the key is not there when it looks - then it has emitted nothing - or if another thread deletes it after `removing`
may have been emitted. -/
theorem C94_fail_del (d : Dict) (prog : Nat → Code) (s : List Nat) (t k : Nat) (l1 l2 : List Ev)
    (hl : (run s (init d prog)).log = l1 ++ .fail t k none :: l2) :
    (∃ A B C, l1 = A ++ .callD t k :: (B ++ .read t k none :: C) ∧ Free t B ∧ Free t C ∧ value d k (A ++ .callD t k :: B) = none) ∨
    (∃ A B C D E i, l1 = A ++ .callD t k :: (B ++ .read t k (some i) :: (C ++ .removing t k :: (D ++ .took t k none :: E))) ∧
      Free t B ∧ Free t C ∧ Free t D ∧ Free t E ∧ value d k (A ++ .callD t k :: B) = some i ∧ ∃ u x, .took u k (some x) ∈ C ++ D) := by
  obtain ⟨x, y, m, h1, h2, A, B, h3, _, h4⟩ := history (t := t) hl rfl
  cases x with
  | run c => cases c <;> cases h1
  | raise k' v' c =>
    cases h1
    rcases h2 with rfl | ⟨i, rfl⟩
    · obtain ⟨A1, B1, rfl, _, h5⟩ := only_cons h4
      obtain ⟨A2, B2, rfl, f2, h5⟩ := only_cons h5
      refine .inl ⟨A ++ A1, A2, B2, by rw [h3]; simp, f2, only_nil h5, ?_⟩
      have h6 : (run s (init d prog)).log = (A ++ A1 ++ .callD t k :: A2) ++ .read t k none :: (B2 ++ .fail t k none :: l2) := by rw [hl, h3]; simp
      exact (read_true h6).symm
    · obtain ⟨A1, B1, rfl, _, h5⟩ := only_cons h4
      obtain ⟨A2, B2, rfl, f2, h5⟩ := only_cons h5
      obtain ⟨A3, B3, rfl, f3, h5⟩ := only_cons h5
      obtain ⟨A4, B4, rfl, f4, h5⟩ := only_cons h5
      have h6 : (run s (init d prog)).log = (A ++ A1 ++ .callD t k :: A2) ++ .read t k (some i) ::
          (A3 ++ .removing t k :: (A4 ++ .took t k none :: B4) ++ .fail t k none :: l2) := by rw [hl, h3]; simp
      have h7 : (run s (init d prog)).log = (A ++ A1 ++ .callD t k :: (A2 ++ .read t k (some i) :: (A3 ++ .removing t k :: A4))) ++
          .took t k none :: (B4 ++ .fail t k none :: l2) := by rw [hl, h3]; simp
      have h8 := read_true h6
      have h9 := took_true h7
      refine .inr ⟨A ++ A1, A2, A3, A4, B4, i, by rw [h3]; simp, f2, f3, f4, only_nil h5, h8.symm, ?_⟩
      rw [show A ++ A1 ++ Ev.callD t k :: (A2 ++ .read t k (some i) :: (A3 ++ .removing t k :: A4)) =
        ((A ++ A1 ++ .callD t k :: A2) ++ [.read t k (some i)]) ++ (A3 ++ .removing t k :: A4) from by simp, value_append] at h9
      refine Classical.byContradiction fun hno => ?_
      have h10 := value_stays (d := fun m => value d m ((A ++ A1 ++ .callD t k :: A2) ++ [.read t k (some i)])) (l := A3 ++ .removing t k :: A4) (k := k)
        (by show (value d k _).isSome = true; rw [value_snoc]; show (value d k _).isSome = true; rw [← h8]; rfl)
        (fun u x hm => hno ⟨u, x, by simpa using hm⟩)
      rw [← h9] at h10
      cases h10
  | _ => cases h1

/-- The events of a thread that is not in an operation: what its program does, one whole operation after the other; the program learns whether an operation
raised `KeyError`, and what it looked up. -/
theorem C94_program (d : Dict) (prog : Nat → Code) (s : List Nat) (t : Nat) (c : Code) (ht : (run s (init d prog)).thr t = .run c) :
    Follows t (prog t) ((run s (init d prog)).log.filter (fun e => e.thread == t)) c := by
  obtain ⟨l, m, h1, h2, h3⟩ := blocked_run d prog s t
  rw [ht] at h1 h2
  obtain rfl : m = [] := h2
  rw [show (run s (init d prog)).log.filter (fun e => e.thread == t) = l from h3.trans (List.append_nil l)]
  exact h1

/-- In particular these are whole operations. -/
theorem C94_blocks (d : Dict) (prog : Nat → Code) (s : List Nat) (t : Nat) (c : Code) (ht : (run s (init d prog)).thr t = .run c) :
    Blocks t ((run s (init d prog)).log.filter (fun e => e.thread == t)) :=
  (C94_program d prog s t c ht).blocks

/-- What a thread does that begins with `pop`: it looks the key up; if it is there it deletes it as `del` does, and goes on with the value that it looked up
unless the deletion raised `KeyError`. -/
theorem C94_pop (d : Dict) (prog : Nat → Code) (s : List Nat) (t k : Nat) (f : Option Nat → Code) (c : Code) (hp : prog t = pop k f)
    (ht : (run s (init d prog)).thr t = .run c) (L : List Ev) (hL : (run s (init d prog)).log.filter (fun e => e.thread == t) = L) :
    (L = [] ∧ c = pop k f) ∨ (∃ l, L = .look t k none :: l ∧ Follows t (f none) l c) ∨ (∃ v, L = [.look t k (some v)]) ∨
    (∃ v m l, L = .look t k (some v) :: (m ++ l) ∧ Op t k m ∧ m.head? = some (.callD t k) ∧
      (m.getLast? = some (.fail t k none) → Follows t (f none) l c) ∧ (m.getLast? ≠ some (.fail t k none) → Follows t (f (some v)) l c)) := by
  have h := C94_program d prog s t c ht
  rw [hL, hp] at h
  rcases h.first with ⟨h1, h2⟩ | ⟨m, l, c1, h1, h2, h3⟩
  · exact .inl ⟨h1, h2.symm⟩
  · cases h2 with
    | get x =>
      cases x with
      | none => exact .inr (.inl ⟨l, h1, h3⟩)
      | some v =>
        rcases h3.first with ⟨h4, h5⟩ | ⟨m, l, c1, h4, h5, h6⟩
        · exact .inr (.inr (.inl ⟨v, by rw [h1, h4]; rfl⟩))
        · cases h5 with
          | del ho hm b hb =>
            refine .inr (.inr (.inr ⟨v, m, l, by rw [h1, h4]; rfl, ho, hm, fun hf => ?_, fun hf => ?_⟩))
            · rw [hb.mpr hf] at h6; exact h6
            · cases b with
              | true => exact absurd (hb.mp rfl) hf
              | false => exact h6

/-- What a thread does that begins with `setdefault`: it looks the key up and goes on with the value that it has; if it has none, it assigns the default and
goes on with that, unless the assignment raised `KeyError`. -/
theorem C94_setdefault (d : Dict) (prog : Nat → Code) (s : List Nat) (t k v : Nat) (f : Option Nat → Code) (c : Code) (hp : prog t = setdefault k v f)
    (ht : (run s (init d prog)).thr t = .run c) (L : List Ev) (hL : (run s (init d prog)).log.filter (fun e => e.thread == t) = L) :
    (L = [] ∧ c = setdefault k v f) ∨ (∃ w l, L = .look t k (some w) :: l ∧ Follows t (f (some w)) l c) ∨ L = [.look t k none] ∨
    (∃ m l, L = .look t k none :: (m ++ l) ∧ Op t k m ∧ m.head? = some (.call t k v) ∧
      (m.getLast? = some (.fail t k (some v)) → Follows t (f none) l c) ∧ (m.getLast? ≠ some (.fail t k (some v)) → Follows t (f (some v)) l c)) := by
  have h := C94_program d prog s t c ht
  rw [hL, hp] at h
  rcases h.first with ⟨h1, h2⟩ | ⟨m, l, c1, h1, h2, h3⟩
  · exact .inl ⟨h1, h2.symm⟩
  · cases h2 with
    | get x =>
      cases x with
      | some w => exact .inr (.inl ⟨w, l, h1, h3⟩)
      | none =>
        rcases h3.first with ⟨h4, h5⟩ | ⟨m, l, c1, h4, h5, h6⟩
        · exact .inr (.inr (.inl (by rw [h1, h4]; rfl)))
        · cases h5 with
          | set ho hm b hb =>
            refine .inr (.inr (.inr ⟨m, l, by rw [h1, h4]; rfl, ho, hm, fun hf => ?_, fun hf => ?_⟩))
            · rw [hb.mpr hf] at h6; exact h6
            · cases b with
              | true => exact absurd (hb.mp rfl) hf
              | false => exact h6

/-! ## Keys that are used by one thread at a time -/

/-- Partial: if at no moment two threads are in an assignment or deletion of the key, then whenever none is, who keeps a copy has what the key holds.
Missing: overlapping operations, for which it is false (`C94_mirror_refuted`). -/
theorem C94_mirror_partial (d : Dict) (prog : Nat → Code) (s : List Nat) (k : Nat)
    (h : ∀ p q, s = p ++ q → ∀ t u, InOp t k (run p (init d prog)).log → InOp u k (run p (init d prog)).log → t = u)
    (hr : ∀ t, ¬ InOp t k (run s (init d prog)).log) : (run s (init d prog)).dict k = mirror d k (run s (init d prog)).log :=
  (known_run h).rest (fun t ht => hr t (inOp_of_key ht))

theorem story_known (d : Dict) (prog : Nat → Code) (s : List Nat) (k : Nat)
    (h : ∀ p t q, s = p ++ t :: q → Known d k (run p (init d prog)))
    (l1 l2 : List Ev) (e : Ev) (hl : (run s (init d prog)).log = l1 ++ e :: l2) :
    (∀ t v, e = .added t k v → mirror d k l1 = none) ∧ (∀ t o v, e = .changed t k o v → mirror d k l1 = some o) ∧
    (∀ t i, e = .removed t k i → mirror d k l1 = some i) ∧ (∀ t x, e = .fail t k x → x = none ∧ mirror d k l1 = none) := by
  obtain ⟨p, t, q, y, rfl, h2, h3⟩ := moment s hl
  have hk := (h p t q rfl).knows t
  rw [h2] at hk
  generalize (run p (init d prog)).thr t = x at h3 hk
  refine ⟨fun u v he => ?_, fun u o v he => ?_, fun u i he => ?_, fun u z he => ?_⟩
  · subst he
    cases x with
    | run c => cases c <;> cases h3
    | added k' v' c => cases h3; exact (hk rfl).2
    | _ => cases h3
  · subst he
    cases x with
    | run c => cases c <;> cases h3
    | changed k' v' o' c => cases h3; exact (hk rfl).2
    | _ => cases h3
  · subst he
    cases x with
    | run c => cases c <;> cases h3
    | removed k' i' c => cases h3; exact (hk rfl).2
    | _ => cases h3
  · subst he
    cases x with
    | run c => cases c <;> cases h3
    | raise k' v' c => cases h3; exact ⟨(hk rfl).2.2, (hk rfl).2.1⟩
    | _ => cases h3

/-- Partial, under the same condition: the events fit together.  `added` comes when the copy does not have the key, `changed` and `removed` come with the
value that it has, and the only operations that raise `KeyError` are deletions when the copy does not have the key.  Missing: overlapping operations
(`C94_added_refuted`, `C94_stale_refuted`, `C94_fail_refuted`). -/
theorem C94_story_partial (d : Dict) (prog : Nat → Code) (s : List Nat) (k : Nat)
    (h : ∀ p q, s = p ++ q → ∀ t u, InOp t k (run p (init d prog)).log → InOp u k (run p (init d prog)).log → t = u)
    (l1 l2 : List Ev) (e : Ev) (hl : (run s (init d prog)).log = l1 ++ e :: l2) :
    (∀ t v, e = .added t k v → mirror d k l1 = none) ∧ (∀ t o v, e = .changed t k o v → mirror d k l1 = some o) ∧
    (∀ t i, e = .removed t k i → mirror d k l1 = some i) ∧ (∀ t x, e = .fail t k x → x = none ∧ mirror d k l1 = none) :=
  story_known d prog s k (fun p t q e => known_run (s := p) (fun p' q' e' => h p' (q' ++ t :: q) (by rw [e, e']; simp))) l1 l2 e hl

/-- In particular: for a key that only one thread assigns and deletes the copy is right whenever that thread is not doing so, whatever the other threads
do with other keys. -/
theorem C94_own (d : Dict) (prog : Nat → Code) (s : List Nat) (k t : Nat)
    (h1 : ∀ u v, .call u k v ∈ (run s (init d prog)).log → u = t) (h2 : ∀ u, .callD u k ∈ (run s (init d prog)).log → u = t)
    (hr : ¬ InOp t k (run s (init d prog)).log) : (run s (init d prog)).dict k = mirror d k (run s (init d prog)).log := by
  have key : ∀ p q, s = p ++ q → ∀ u, InOp u k (run p (init d prog)).log → u = t := by
    intro p q e u ⟨A, x, B, h3, h4, _⟩
    obtain ⟨l, h5⟩ := log_grows q (run p (init d prog))
    have h6 : x ∈ (run s (init d prog)).log := by rw [e, run_append, h5, h3]; simp
    rcases h4 with ⟨v, rfl⟩ | rfl
    · exact h1 u v h6
    · exact h2 u h6
  refine C94_mirror_partial d prog s k (fun p q e u w hu hw => (key p q e u hu).trans (key p q e w hw).symm) (fun u hu => ?_)
  have := key s [] (by simp) u hu
  exact hr (this ▸ hu)

/-! ## What fails when operations on a key overlap -/

/-- The full claim fails: thread 0 has stored 6, thread 1 stores 7 and tells it, then thread 0 tells 6. -/
theorem C94_mirror_refuted : ∃ s, (run s (init exD (exP (exSet 0 6) (exSet 0 7)))).dict 0 = some 7 ∧
    mirror exD 0 (run s (init exD (exP (exSet 0 6) (exSet 0 7)))).log = some 6 :=
  ⟨[0, 0, 0, 0, 0, 1, 1, 1, 1, 1, 1, 0], by decide, by decide⟩

/-- A key is added twice. -/
theorem C94_added_refuted : ∃ s, (run s (init exD (exP (exSet 1 6) (exSet 1 7)))).log =
    [.call 0 1 6, .has 0 1 false, .call 1 1 7, .has 1 1 false, .adding 0 1, .put 0 1 6, .added 0 1 6, .adding 1 1, .put 1 1 7, .added 1 1 7] :=
  ⟨[0, 0, 1, 1, 0, 0, 0, 1, 1, 1], by decide⟩

/-- An assignment raises `KeyError`: thread 1 deletes the key when thread 0 has seen that it is there. -/
theorem C94_fail_refuted : ∃ s, (run s (init exD (exP (exSet 0 6) (exDel 0)))).log =
    [.call 0 0 6, .has 0 0 true, .callD 1 0, .read 1 0 (some 5), .removing 1 0, .took 1 0 (some 5), .removed 1 0 5, .read 0 0 none, .fail 0 0 (some 6)] :=
  ⟨[0, 0, 1, 1, 1, 1, 1, 0, 0], by decide⟩

/-- `removed` comes with 5, which was replaced before; 6 is what is removed. -/
theorem C94_stale_refuted : ∃ s, (run s (init exD (exP (exSet 0 6) (exDel 0)))).log =
    [.callD 1 0, .read 1 0 (some 5), .call 0 0 6, .has 0 0 true, .read 0 0 (some 5), .changing 0 0, .put 0 0 6, .changed 0 0 5 6,
      .removing 1 0, .took 1 0 (some 6), .removed 1 0 5] :=
  ⟨[1, 1, 0, 0, 0, 0, 0, 0, 1, 1, 1], by decide⟩

/-- `changed` comes although the key is new: it was deleted after the old value was read. -/
theorem C94_changed_refuted : ∃ s, (run s (init exD (exP (exSet 0 6) (exDel 0)))).log =
    [.call 0 0 6, .has 0 0 true, .read 0 0 (some 5), .callD 1 0, .read 1 0 (some 5), .removing 1 0, .took 1 0 (some 5), .removed 1 0 5,
      .changing 0 0, .put 0 0 6, .changed 0 0 5 6] :=
  ⟨[0, 0, 0, 1, 1, 1, 1, 1, 0, 0, 0], by decide⟩

/-- `removing` comes twice, the key is removed once. -/
theorem C94_removing_refuted : ∃ s, (run s (init exD (exP (exDel 0) (exDel 0)))).log =
    [.callD 0 0, .read 0 0 (some 5), .callD 1 0, .read 1 0 (some 5), .removing 0 0, .took 0 0 (some 5), .removed 0 0 5,
      .removing 1 0, .took 1 0 none, .fail 1 0 none] :=
  ⟨[0, 0, 1, 1, 0, 0, 0, 1, 1, 1], by decide⟩

/-- The program stores what it gets under key `m`. -/
def exKeep (m : Nat) : Option Nat → Code
  | none => .ret
  | some v => exSet m v

/-- `pop` returns 5 and removes 6, so 6 is lost: nobody has it any more. -/
theorem C94_pop_refuted : ∃ s, (∀ k v, (run s (init exD (exP (exSet 0 6) (pop 0 (exKeep 9))))).dict k = some v → k = 9 ∧ v = 5) ∧
    (run s (init exD (exP (exSet 0 6) (pop 0 (exKeep 9))))).dict 9 = some 5 := by
  refine ⟨[1, 0, 0, 0, 0, 0, 0, 1, 1, 1, 1, 1, 1, 1, 1, 1, 1], fun k v h => ?_, by decide⟩
  have h : (if k = 9 then some 5 else if k = 0 then none else if k = 0 then some 6 else if k = 0 then some 5 else none) = some v := h
  by_cases h9 : k = 9
  · rw [if_pos h9] at h; cases h; exact ⟨h9, rfl⟩
  · rw [if_neg h9] at h
    by_cases h0 : k = 0
    · rw [if_pos h0] at h; cases h
    · rw [if_neg h0, if_neg h0, if_neg h0] at h; cases h

/-- Two threads get different values from `setdefault` of the same key. -/
theorem C94_setdefault_refuted : ∃ s, (run s (init exD (exP (setdefault 1 7 (exKeep 8)) (setdefault 1 6 (exKeep 9))))).dict 8 = some 7 ∧
    (run s (init exD (exP (setdefault 1 7 (exKeep 8)) (setdefault 1 6 (exKeep 9))))).dict 9 = some 6 :=
  ⟨[0, 1, 0, 0, 0, 0, 0, 1, 1, 1, 1, 1, 1, 0, 0, 0, 0, 0, 1, 1, 1, 1, 1], by decide, by decide⟩

/-! ## Examples -/

/-- `C94_value`, `C94_changed`: the last value stored is 7. -/
example : (run [0, 0, 0, 0, 0, 1, 1, 1, 1, 1, 1, 0] (init exD (exP (exSet 0 6) (exSet 0 7)))).dict 0 = some 7 :=
  C94_value exD _ _ 0 [.call 0 0 6, .has 0 0 true, .read 0 0 (some 5), .changing 0 0, .put 0 0 6, .call 1 0 7, .has 1 0 true, .read 1 0 (some 6),
    .changing 1 0] [.changed 1 0 6 7, .changed 0 0 5 6] 1 7 (by decide) (by simp) (by simp)

/-- `C94_gone`, `C94_removed`: the key is deleted last, and `removed` comes. -/
example : (run [0, 0, 0, 0, 0] (init exD (exP (exDel 0) .ret))).dict 0 = none :=
  C94_gone exD _ _ 0 [.callD 0 0, .read 0 0 (some 5), .removing 0 0] [.removed 0 0 5] 0 5 (by decide) (by simp)

/-- `C94_untouched`: key 0 while key 1 is assigned. -/
example : (run [0, 0, 0, 0, 0] (init exD (exP (exSet 1 6) .ret))).dict 0 = some 5 :=
  C94_untouched exD _ _ 0
    (by rw [show (run [0, 0, 0, 0, 0] (init exD (exP (exSet 1 6) .ret))).log =
      [.call 0 1 6, .has 0 1 false, .adding 0 1, .put 0 1 6, .added 0 1 6] from by decide]; simp)
    (by rw [show (run [0, 0, 0, 0, 0] (init exD (exP (exSet 1 6) .ret))).log =
      [.call 0 1 6, .has 0 1 false, .adding 0 1, .put 0 1 6, .added 0 1 6] from by decide]; simp)

/-- `C94_look`: thread 1 looks up 6 after thread 0 has stored it. -/
example : some 6 = value exD 0 [.call 0 0 6, .has 0 0 true, .read 0 0 (some 5), .changing 0 0, .put 0 0 6] :=
  C94_look exD (exP (exSet 0 6) (.get 0 fun _ => .ret)) [0, 0, 0, 0, 0, 1, 0] 1 0 (some 6) _ [.changed 0 0 5 6] (by decide)

/-- `C94_once`: thread 0 deletes 5, assigns 6 and deletes 6. -/
example : ∃ s A B C, (run s (init exD (exP (.del 0 fun _ => .set 0 6 fun _ => exDel 0) .ret))).log =
    A ++ .took 0 0 (some 5) :: (B ++ .took 0 0 (some 6) :: C) :=
  ⟨[0, 0, 0, 0, 0, 0, 0, 0, 0, 0, 0, 0, 0, 0, 0], [.callD 0 0, .read 0 0 (some 5), .removing 0 0],
    [.removed 0 0 5, .call 0 0 6, .has 0 0 false, .adding 0 0, .put 0 0 6, .added 0 0 6, .callD 0 0, .read 0 0 (some 6), .removing 0 0],
    [.removed 0 0 6], by decide⟩

/-- `C94_added`: both threads add the key (`C94_added_refuted`). -/
example : ∃ s l1 l2, (run s (init exD (exP (exSet 1 6) (exSet 1 7)))).log = l1 ++ .added 1 1 7 :: l2 :=
  ⟨[0, 0, 1, 1, 0, 0, 0, 1, 1, 1],
    [.call 0 1 6, .has 0 1 false, .call 1 1 7, .has 1 1 false, .adding 0 1, .put 0 1 6, .added 0 1 6, .adding 1 1, .put 1 1 7], [], by decide⟩

/-- `C94_fail_set`: see `C94_fail_refuted`; another thread deleted the key between the two looks. -/
example : ∃ A B C D, [Ev.call 0 0 6, .has 0 0 true, .callD 1 0, .read 1 0 (some 5), .removing 1 0, .took 1 0 (some 5), .removed 1 0 5, .read 0 0 none] =
    A ++ .call 0 0 6 :: (B ++ .has 0 0 true :: (C ++ .read 0 0 none :: D)) ∧ Free 0 B ∧ Free 0 C ∧ Free 0 D ∧ ∃ u x, .took u 0 (some x) ∈ C :=
  C94_fail_set exD (exP (exSet 0 6) (exDel 0)) [0, 0, 1, 1, 1, 1, 1, 0, 0] 0 0 6 _ [] (by decide)

/-- `C94_fail_del`: a key that was never there, and one that another thread deletes meanwhile. -/
example : (∃ s l1, (run s (init exD (exP (exDel 1) .ret))).log = l1 ++ [.fail 0 1 none]) ∧
    (∃ s l1, (run s (init exD (exP (exDel 0) (exDel 0)))).log = l1 ++ [.took 1 0 none, .fail 1 0 none]) :=
  ⟨⟨[0, 0, 0], [.callD 0 1, .read 0 1 none], by decide⟩,
    ⟨[0, 0, 1, 1, 0, 0, 0, 1, 1, 1], [.callD 0 0, .read 0 0 (some 5), .callD 1 0, .read 1 0 (some 5), .removing 0 0, .took 0 0 (some 5), .removed 0 0 5,
      .removing 1 0], by decide⟩⟩

/-- `C94_program`, `C94_blocks`: thread 0 is done while thread 1 is not. -/
example : Blocks 0 ((run [0, 1, 1, 0, 0, 0, 0, 0] (init exD (exP (exSet 0 6) (exSet 0 7)))).log.filter (fun e => e.thread == 0)) :=
  C94_blocks exD (exP (exSet 0 6) (exSet 0 7)) _ 0 .ret (by rfl)

/-- The events of the next examples: thread 0 uses key 0, thread 1 key 1, both at the same time. -/
theorem exS_log : (run [0, 1, 0, 1, 0, 1, 0, 1, 0, 0, 1] (init exD (exP (exSet 0 6) (exSet 1 7)))).log =
    [.call 0 0 6, .call 1 1 7, .has 0 0 true, .has 1 1 false, .read 0 0 (some 5), .adding 1 1, .changing 0 0, .put 1 1 7, .put 0 0 6, .changed 0 0 5 6,
      .added 1 1 7] := by decide

/-- `C94_own`, and with it `C94_mirror_partial`. -/
example : (run [0, 1, 0, 1, 0, 1, 0, 1, 0, 0, 1] (init exD (exP (exSet 0 6) (exSet 1 7)))).dict 1 =
    mirror exD 1 (run [0, 1, 0, 1, 0, 1, 0, 1, 0, 0, 1] (init exD (exP (exSet 0 6) (exSet 1 7)))).log := by
  refine C94_own exD _ _ 1 1 (fun u v hu => ?_) (fun u hu => ?_) (fun ⟨A, e, B, h1, h2, h3⟩ => ?_)
  · rw [exS_log] at hu; simpa using (by simpa using hu : u = 1 ∧ v = 7).1
  · rw [exS_log] at hu; simp at hu
  · rw [exS_log] at h1
    rcases List.eq_nil_or_concat B with rfl | ⟨B', z, rfl⟩
    · have h4 := (List.append_inj' (show [Ev.call 0 0 6, .call 1 1 7, .has 0 0 true, .has 1 1 false, .read 0 0 (some 5), .adding 1 1, .changing 0 0,
        .put 1 1 7, .put 0 0 6, .changed 0 0 5 6] ++ [.added 1 1 7] = A ++ [e] from h1) rfl).2
      obtain rfl : Ev.added 1 1 7 = e := by cases h4; rfl
      rcases h2 with ⟨v, h2⟩ | h2 <;> cases h2
    · have h4 := (List.append_inj' (show [Ev.call 0 0 6, .call 1 1 7, .has 0 0 true, .has 1 1 false, .read 0 0 (some 5), .adding 1 1, .changing 0 0,
        .put 1 1 7, .put 0 0 6, .changed 0 0 5 6] ++ [.added 1 1 7] = (A ++ e :: B') ++ [z] from by rw [List.append_assoc]; simpa using h1) rfl).2
      obtain rfl : Ev.added 1 1 7 = z := by cases h4; rfl
      have := h3 (.added 1 1 7) (by simp) rfl
      cases this

/-- For the example: the threads in an operation on `k`. -/
def open1 (k : Nat) (o : List Nat) : Ev → List Nat
  | .call t m _ => if m = k then t :: o else o
  | .callD t m => if m = k then t :: o else o
  | e => if e.ends then o.filter (· != e.thread) else o

theorem open1_keep {k t : Nat} {o : List Nat} {e : Ev} (he : e.thread = t → e.ends = false) (h : t ∈ o) : t ∈ open1 k o e := by
  have key : t ∈ if e.ends then o.filter (· != e.thread) else o := by
    split
    · rename_i hb
      refine List.mem_filter.mpr ⟨h, ?_⟩
      have : t ≠ e.thread := fun ht => by rw [he ht.symm] at hb; cases hb
      simpa using this
    · exact h
  cases e with
  | call u m v => simp only [open1]; split <;> simp [h]
  | callD u m => simp only [open1]; split <;> simp [h]
  | _ => exact key

theorem opens_mem {k t : Nat} {L : List Ev} (h : InOp t k L) : t ∈ L.foldl (open1 k) [] := by
  obtain ⟨A, e, B, rfl, h1, h2⟩ := h
  rw [List.foldl_append]
  have key : ∀ (B : List Ev) (o : List Nat), (∀ x ∈ B, x.thread = t → x.ends = false) → t ∈ o → t ∈ B.foldl (open1 k) o := by
    intro B
    induction B with
    | nil => exact fun _ _ h => h
    | cons x B ih =>
      exact fun o hB h => ih _ (fun y hy => hB y (List.mem_cons_of_mem _ hy)) (open1_keep (hB x List.mem_cons_self) h)
  refine key B _ h2 ?_
  rcases h1 with ⟨v, rfl⟩ | rfl
  · simp [open1]
  · simp [open1]

/-- One operation after the other: thread 0 changes key 0, thread 1 deletes it, with steps of thread 2 between. -/
def exS : List Nat := [0, 0, 0, 0, 0, 0, 2, 1, 1, 1, 1, 1, 2]

theorem exS_one : ∀ i ∈ List.range 14, ∀ t ∈ (run (exS.take i) (init exD (exP (exSet 0 6) (exDel 0)))).log.foldl (open1 0) [],
    ∀ u ∈ (run (exS.take i) (init exD (exP (exSet 0 6) (exDel 0)))).log.foldl (open1 0) [], t = u := by decide

theorem exS_apart (p q : List Nat) (e : exS = p ++ q) (t u : Nat) (ht : InOp t 0 (run p (init exD (exP (exSet 0 6) (exDel 0)))).log)
    (hu : InOp u 0 (run p (init exD (exP (exSet 0 6) (exDel 0)))).log) : t = u := by
  have hp : p = exS.take p.length := by rw [e]; simp
  have hlen : p.length ∈ List.range 14 := by
    have := congrArg List.length e
    simp [exS] at this
    exact List.mem_range.mpr (by omega)
  have h1 := opens_mem ht
  have h2 := opens_mem hu
  rw [hp] at h1 h2
  exact exS_one p.length hlen t h1 u h2

/-- `C94_mirror_partial` and `C94_story_partial`: two threads use the same key; `removed` comes with 6, which the copy has. -/
example : (run exS (init exD (exP (exSet 0 6) (exDel 0)))).dict 0 = mirror exD 0 (run exS (init exD (exP (exSet 0 6) (exDel 0)))).log ∧
    mirror exD 0 [.call 0 0 6, .has 0 0 true, .read 0 0 (some 5), .changing 0 0, .put 0 0 6, .changed 0 0 5 6, .callD 1 0, .read 1 0 (some 6),
      .removing 1 0, .took 1 0 (some 6)] = some 6 := by
  refine ⟨C94_mirror_partial exD _ exS 0 exS_apart (fun t ht => ?_), ?_⟩
  · have h := opens_mem ht
    rw [show (run exS (init exD (exP (exSet 0 6) (exDel 0)))).log.foldl (open1 0) [] = [] from by decide] at h
    cases h
  · exact (C94_story_partial exD _ exS 0 exS_apart _ [] (.removed 1 0 6) (by decide)).2.2.1 1 6 rfl

/-- `C94_pop`, `C94_setdefault`: thread 1 pops key 0 and stores what it gets under key 9, thread 0 finds no key 1 and assigns 7. -/
example : (run [1, 1, 1, 1, 1, 1, 1] (init exD (exP .ret (pop 0 (exKeep 9))))).log =
    [.look 1 0 (some 5), .callD 1 0, .read 1 0 (some 5), .removing 1 0, .took 1 0 (some 5), .removed 1 0 5, .call 1 9 5] ∧
    (run [0, 0, 0, 0, 0, 0, 0] (init exD (exP (setdefault 1 7 (exKeep 8)) .ret))).log =
    [.look 0 1 none, .call 0 1 7, .has 0 1 false, .adding 0 1, .put 0 1 7, .added 0 1 7, .call 0 8 7] ∧
    (run [1, 1, 1, 1, 1, 1] (init exD (exP .ret (pop 0 (exKeep 9))))).thr 1 = .run (exSet 9 5) :=
  ⟨by decide, by decide, rfl⟩

end Psygnal.DcC
