import Verif.EventedListEvents

/-!
# `move` and `move_multiple`: lemmas for C29
-/

namespace Psygnal.EL
open Psygnal.Py (M Err Key Slice)

variable {α β : Type} {c : Cfg α} [c.Passive]

/-- A single move on a plain list: take out position `p`, insert before position `d`. -/
def mv (l : List α) (p d : Nat) : List α :=
  if d = p ∨ d = p + 1 then l
  else
    let e := if d > p then d - 1 else d
    let l' := l.eraseIdx p
    l'.take e ++ (l[p]?).toList ++ l'.drop e

theorem mv_map (f : β → α) (l : List β) (p d : Nat) : mv (l.map f) p d = (mv l p d).map f := by
  simp only [mv]
  split
  · rfl
  · simp only [List.map_append, List.map_take, List.map_drop, List.eraseIdx_eq_take_drop_succ, List.getElem?_map]
    congr 2
    cases l[p]? <;> rfl

theorem mv_fwd (U V W : List α) (s : α) :
    mv (U ++ s :: (V ++ W)) U.length (U.length + 1 + V.length) = U ++ V ++ s :: W := by
  simp only [mv]
  split
  · have : V = [] := by
      rename_i h
      have : V.length = 0 := by omega
      exact List.length_eq_zero_iff.1 this
    subst this
    simp
  · rw [if_pos (by omega), List.eraseIdx_append_of_length_le (Nat.le_refl _)]
    have e : U.length + 1 + V.length - 1 = (U ++ V).length := by rw [List.length_append]; omega
    rw [Nat.sub_self, List.eraseIdx_cons_zero, e, ← List.append_assoc, List.take_left, List.drop_left]
    simp

theorem mv_bwd (U V W : List α) (s : α) :
    mv (U ++ V ++ s :: W) (U.length + V.length) U.length = U ++ s :: (V ++ W) := by
  simp only [mv]
  split
  · have : V = [] := by
      rename_i h
      have : V.length = 0 := by omega
      exact List.length_eq_zero_iff.1 this
    subst this
    simp
  · rw [if_neg (by omega)]
    have e : U.length + V.length = (U ++ V).length := by simp
    rw [e, List.eraseIdx_append_of_length_le (Nat.le_refl _), Nat.sub_self, List.eraseIdx_cons_zero,
      List.getElem?_append_right (Nat.le_refl _), Nat.sub_self, List.append_assoc U V W, List.take_left, List.drop_left]
    simp

theorem insert_nat (l : List α) (e : Nat) (h : e ≤ l.length) (x : α) :
    Py.insert l e x = l.take e ++ x :: l.drop e := by
  have : Py.insertPos l.length (e : Int) = e := by
    simp only [Py.insertPos]
    rw [if_neg (by omega)]
    omega
  simp [Py.insert, this]

/-- `move` with indices in range, on listeners that do not raise. -/
theorem move_nat (hq : c.Quiet) {p d : Nat} {s : St α} (hp : p < s.data.length) (hd : d ≤ s.data.length) :
    ∃ s', move c p d s = (.ok (decide (¬ (d = p ∨ d = p + 1))), s') ∧ s'.data = mv s.data p d ∧
      s'.blocked = s.blocked := by
  have h0 : (if (d : Int) < 0 then (d : Int) + (s.data.length + 1) else d) = d := if_neg (by omega)
  simp only [move, M.bind_eq, M.bind_app, M.get_app, h0]
  by_cases h : d = p ∨ d = p + 1
  · have h1 : (d : Int) = p ∨ (d : Int) = p + 1 := by omega
    simp only [if_pos h1]
    exact ⟨s, by simp [h], by simp [mv, h], rfl⟩
  · have h1 : ¬ ((d : Int) = p ∨ (d : Int) = p + 1) := by omega
    simp only [if_neg h1, M.bind_app, emit_quiet hq, M.get_app, M.ofExcept_app, Py.pop_ok (Py.normIndex_nat hp), setData,
      M.modify_app]
    have hi : Py.insert (s.data.eraseIdx p) (if (d : Int) > p then (d : Int) - 1 else d) s.data[p] = mv s.data p d := by
      simp only [mv, if_neg h]
      have e : (if (d : Int) > p then (d : Int) - 1 else d) = ((if d > p then d - 1 else d : Nat) : Int) := by
        split <;> split <;> omega
      rw [e, insert_nat]
      · simp [List.getElem?_eq_getElem hp]
      · rw [List.length_eraseIdx_of_lt hp]
        split <;> omega
    generalize (if (d : Int) > p then (d : Int) - 1 else d) = e at hi
    cases hb : s.blocked
    · simp only [emitReordered, Bool.false_eq_true, if_false, emit_quiet hq]
      exact ⟨_, Prod.ext (by simp [h]) rfl, hi, rfl⟩
    · simp only [emitReordered, if_true]
      exact ⟨_, Prod.ext (by simp [h]) rfl, hi, rfl⟩

theorem mv_length {l : List α} {p d : Nat} (hp : p < l.length) : (mv l p d).length = l.length := by
  simp only [mv]
  split
  · rfl
  · simp [List.getElem?_eq_getElem hp, List.length_eraseIdx_of_lt hp]
    omega

/-! ## Positions -/

/-- The positions `a, …, b - 1` that are not in `S`. -/
def seg (S : List Nat) (a b : Nat) : List Nat := (List.range' a (b - a)).filter (· ∉ S)

/-- The positions of `place`, as an order of the indices. -/
def order (n d : Nat) (S : List Nat) : List Nat := seg S 0 d ++ S ++ seg S d n

theorem seg_split {S : List Nat} {a b m : Nat} (h1 : a ≤ m) (h2 : m ≤ b) : seg S a b = seg S a m ++ seg S m b := by
  simp only [seg, ← List.filter_append]
  congr 1
  rw [show b - a = (m - a) + (b - m) by omega, ← List.range'_append_1, show a + (m - a) = m by omega]

theorem seg_cons {S : List Nat} {a b : Nat} (h : a < b) (ha : a ∉ S) : seg S a b = a :: seg S (a + 1) b := by
  simp only [seg]
  rw [show b - a = (b - (a + 1)) + 1 by omega, List.range'_succ, List.filter_cons]
  simp [ha]

theorem seg_congr {S T : List Nat} {a b : Nat} (h : ∀ j, a ≤ j → j < b → (j ∈ S ↔ j ∈ T)) :
    seg S a b = seg T a b := by
  simp only [seg]
  refine List.filter_congr fun j hj => ?_
  rw [List.mem_range'_1] at hj
  have := h j (by omega) (by omega)
  simp [this]

theorem seg_length {S : List Nat} (hS : S.Nodup) (a b : Nat) :
    (seg S a b).length + S.countP (fun j => decide (a ≤ j ∧ j < b)) = b - a := by
  induction S with
  | nil => simp [seg, List.filter_eq_self.2]
  | cons s S ih =>
    rw [List.nodup_cons] at hS
    have ih := ih hS.2
    by_cases hs : a ≤ s ∧ s < b
    · have e1 : seg (s :: S) a b = seg S a s ++ seg S (s + 1) b := by
        rw [seg_split (S := s :: S) (Nat.le_succ_of_le hs.1) hs.2, seg_split (S := s :: S) hs.1 (Nat.le_succ s)]
        have e2 : seg (s :: S) s (s + 1) = [] := by simp [seg]
        rw [e2, List.append_nil]
        congr 1 <;> refine seg_congr fun j h1 h2 => ?_ <;> simp <;> omega
      have e2 : seg S a b = seg S a s ++ s :: seg S (s + 1) b := by
        rw [seg_split (S := S) hs.1 (Nat.le_of_lt hs.2), seg_cons hs.2 hS.1]
      rw [List.countP_cons_of_pos (by simpa using hs), e1]
      rw [e2] at ih
      simp at ih ⊢
      omega
    · rw [List.countP_cons_of_neg (by simpa using hs), seg_congr (S := s :: S) (T := S)]
      · exact ih
      · intro j h1 h2
        simp
        intro h
        omega

/-- Where the item from position `s` is after the items `P` have been moved before `d`. -/
def posOf (d : Nat) (P : List Nat) (s : Nat) : Nat :=
  if s < d then s - P.countP (· < s) else s + P.countP (s < ·)

/-- Moving the next item gives the next order. -/
theorem order_step {n d s : Nat} {P : List Nat} (hP : P.Nodup) (hs : s ∉ P) (hsn : s < n) :
    mv (order n d P) (posOf d P s) (d + P.countP (d ≤ ·)) = order n d (P ++ [s]) := by
  have hc1 : ∀ j, j ∈ P ++ [s] ↔ j ∈ P ∨ j = s := by simp
  -- lengths
  have L0 := seg_length hP 0 d
  have Lall : P.length = P.countP (fun j => decide (0 ≤ j ∧ j < d)) + P.countP (d ≤ ·) := by
    rw [List.length_eq_countP_add_countP (fun j => decide (0 ≤ j ∧ j < d))]
    congr 1
    refine List.countP_congr fun j _ => ?_
    simp
  have hD : d + P.countP (d ≤ ·) = (seg P 0 d).length + P.length := by omega
  by_cases h : s < d
  · have e0 : seg P 0 d = seg P 0 s ++ s :: seg P (s + 1) d := by
      rw [seg_split (Nat.zero_le s) (Nat.le_of_lt h), seg_cons h hs]
    have ls := seg_length hP 0 s
    have hp : posOf d P s = (seg P 0 s).length := by
      simp only [posOf, if_pos h]
      have : P.countP (fun j => decide (0 ≤ j ∧ j < s)) = P.countP (· < s) :=
        List.countP_congr fun j _ => by simp
      omega
    have e1 : seg (P ++ [s]) 0 d = seg P 0 s ++ seg P (s + 1) d := by
      have := seg_split (S := P ++ [s]) (Nat.zero_le (s + 1)) h
      rw [this, seg_split (S := P ++ [s]) (Nat.zero_le s) (Nat.le_succ s)]
      have e2 : seg (P ++ [s]) s (s + 1) = [] := by simp [seg]
      rw [e2, List.append_nil]
      congr 1 <;> refine seg_congr fun j h1 h2 => ?_ <;> simp <;> omega
    have e2 : seg (P ++ [s]) d n = seg P d n := by
      refine seg_congr fun j h1 h2 => ?_
      simp
      omega
    have := mv_fwd (seg P 0 s) (seg P (s + 1) d ++ P) (seg P d n) s
    rw [hD, hp, order, order, e1, e2, e0]
    simp only [List.append_assoc, List.cons_append, List.nil_append, List.length_append, List.length_cons] at this ⊢
    rw [← this]
    congr 1
    omega
  · have e0 : seg P d n = seg P d s ++ s :: seg P (s + 1) n := by
      rw [seg_split (m := s) (by omega) (by omega), seg_cons hsn hs]
    have ls := seg_length hP d s
    have hp : posOf d P s = (seg P 0 d ++ P).length + (seg P d s).length := by
      simp only [posOf, if_neg h, List.length_append]
      have : P.countP (d ≤ ·) = P.countP (fun j => decide (d ≤ j ∧ j < s)) + P.countP (s < ·) := by
        clear ls hD Lall L0 e0 hP
        induction P with
        | nil => rfl
        | cons p P ih =>
          have ih := ih (by simp at hs; exact hs.2) (by simp)
          simp at hs
          simp only [List.countP_cons, ih, decide_eq_true_eq]
          split <;> split <;> split <;> omega
      omega
    have e1 : seg (P ++ [s]) d n = seg P d s ++ seg P (s + 1) n := by
      rw [seg_split (S := P ++ [s]) (m := s + 1) (by omega) (by omega),
        seg_split (S := P ++ [s]) (m := s) (b := s + 1) (by omega) (by omega)]
      have e2 : seg (P ++ [s]) s (s + 1) = [] := by simp [seg]
      rw [e2, List.append_nil]
      congr 1 <;> refine seg_congr fun j h1 h2 => ?_ <;> simp <;> omega
    have e2 : seg (P ++ [s]) 0 d = seg P 0 d := by
      refine seg_congr fun j h1 h2 => ?_
      simp
      omega
    have := mv_bwd (seg P 0 d ++ P) (seg P d s) (seg P (s + 1) n) s
    rw [hD, hp, order, order, e1, e2, e0]
    simp only [List.append_assoc, List.length_append, List.cons_append, List.nil_append] at this ⊢
    rw [← this]

theorem order_nil {n d : Nat} (h : d ≤ n) : order n d [] = List.range n := by
  have : order n d [] = seg [] 0 n := by
    rw [seg_split (Nat.zero_le d) h]
    simp [order]
  rw [this]
  simp [seg, List.range_eq_range', List.filter_eq_self.2]

theorem order_length {n d : Nat} {S : List Nat} (hS : S.Nodup) (hn : ∀ s ∈ S, s < n) (hd : d ≤ n) :
    (order n d S).length = n := by
  have h1 := seg_length hS 0 d
  have h2 := seg_length hS d n
  have : S.length = S.countP (fun j => decide (0 ≤ j ∧ j < d)) + S.countP (fun j => decide (d ≤ j ∧ j < n)) := by
    rw [List.length_eq_countP_add_countP (fun j => decide (0 ≤ j ∧ j < d))]
    congr 1
    refine List.countP_congr fun j hj => ?_
    have := hn j hj
    simp
    omega
  simp only [order, List.length_append]
  omega

theorem order_mem {n d : Nat} {S : List Nat} (hn : ∀ s ∈ S, s < n) (hd : d ≤ n) {j : Nat} (h : j ∈ order n d S) :
    j < n := by
  simp only [order, seg, List.mem_append, List.mem_filter, List.mem_range'_1] at h
  rcases h with (h | h) | h
  · omega
  · exact hn j h
  · omega

theorem place_order (l : List α) (S : List Nat) (d : Nat) (hd : d ≤ l.length) :
    place l S d = (order l.length d S).filterMap (l[·]?) := by
  have e1 : (List.range l.length).filter (fun j => decide (j < d ∧ j ∉ S)) = seg S 0 d := by
    rw [List.range_eq_range', show l.length = d + (l.length - d) by omega, ← List.range'_append_1, List.filter_append,
      (List.filter_eq_nil_iff (l := List.range' (0 + d) _)).2, List.append_nil, seg]
    · refine List.filter_congr fun j hj => ?_
      rw [List.mem_range'_1] at hj
      have : j < d := by omega
      simp [this]
    · intro j hj
      rw [List.mem_range'_1] at hj
      have : ¬ j < d := by omega
      simp [this]
  have e2 : (List.range l.length).filter (fun j => decide (d ≤ j ∧ j ∉ S)) = seg S d l.length := by
    rw [List.range_eq_range', show l.length = d + (l.length - d) by omega, ← List.range'_append_1, List.filter_append,
      (List.filter_eq_nil_iff (l := List.range' 0 d)).2, List.nil_append, seg]
    · rw [show d + (l.length - d) - d = l.length - d by omega, Nat.zero_add]
      refine List.filter_congr fun j hj => ?_
      rw [List.mem_range'_1] at hj
      have : d ≤ j := by omega
      simp [this]
    · intro j hj
      rw [List.mem_range'_1] at hj
      have : ¬ d ≤ j := by omega
      simp [this]
  simp only [place, order, e1, e2]

/-- Moving commutes with selecting items by position. -/
theorem mv_select {l : List α} {I : List Nat} (h : ∀ j ∈ I, j < l.length) (p d : Nat) :
    mv (I.filterMap (l[·]?)) p d = (mv I p d).filterMap (l[·]?) := by
  rcases l with _ | ⟨x, l⟩
  · cases I with
    | nil => simp [mv]
    | cons j I => have := h j (by simp); simp at this
  · have key : ∀ J : List Nat, (∀ j ∈ J, j < (x :: l).length) →
        J.filterMap ((x :: l)[·]?) = J.map fun j => (x :: l).getD j x := by
      intro J hJ
      induction J with
      | nil => rfl
      | cons j J ih =>
        rw [List.map_cons, ← ih (fun k hk => hJ k (by simp [hk])), List.filterMap_cons,
          List.getElem?_eq_getElem (hJ j (by simp))]
        simp [List.getD, List.getElem?_eq_getElem (hJ j (by simp))]
    rw [key I h, mv_map, key]
    intro j hj
    simp only [mv] at hj
    split at hj
    · exact h j hj
    · simp only [List.mem_append, Option.mem_toList] at hj
      rcases hj with (hj | hj) | hj
      · exact h j (List.mem_of_mem_eraseIdx (List.mem_of_mem_take hj))
      · exact h j (List.mem_of_getElem? hj)
      · exact h j (List.mem_of_mem_eraseIdx (List.mem_of_mem_drop hj))

/-! ## The plan -/

theorem select_length {l : List α} {I : List Nat} (h : ∀ j ∈ I, j < l.length) :
    (I.filterMap (l[·]?)).length = I.length := by
  induction I with
  | nil => rfl
  | cons j I ih =>
    rw [List.filterMap_cons, List.getElem?_eq_getElem (h j (by simp))]
    simp [ih fun k hk => h k (by simp [hk])]

/-- What `_move_plan` has in `popped` after a source `s`. -/
def popOf (d : Nat) (P : List Nat) (s : Nat) : Int := if s = d then (d : Int) else (posOf d P s : Int)

/-- The bookkeeping of `_move_plan` is right for the remaining sources, after the sources `P`, which left `popped`
in the state `Q`. -/
def PlanOk (d : Nat) : List Nat → List Int → List Nat → Prop
  | _, _, [] => True
  | P, Q, s :: S =>
    Q.countP (· ≤ (s : Int)) = P.countP (· < s) ∧ (d < s → P.countP (· < s) ≤ s - d) ∧
      PlanOk d (P ++ [s]) (Q ++ [popOf d P s]) S

/-- Executing the plan. -/
theorem plan_exec (hq : c.Quiet) {l : List α} {d : Nat} (hd : d ≤ l.length) (S P : List Nat) (Q : List Int)
    (hnd : (P ++ S).Nodup) (hr : ∀ s ∈ P ++ S, s < l.length) (ok : PlanOk d P Q S) {s : St α}
    (hs : s.data = (order l.length d P).filterMap (l[·]?)) :
    ∃ s', M.forEach (planLoop d (S.map (fun (j : Nat) => (j : Int))) P.length (P.countP (d ≤ ·)) Q)
        (fun p => do
          let _ ← move c p.1 p.2
          pure ()) s = (.ok (), s') ∧
      s'.data = (order l.length d (P ++ S)).filterMap (l[·]?) ∧ s'.blocked = s.blocked := by
  induction S generalizing P Q s with
  | nil => exact ⟨s, rfl, by simpa using hs, rfl⟩
  | cons a S ih =>
    obtain ⟨ok1, ok2, ok3⟩ := ok
    have hnd' : (P ++ [a] ++ S).Nodup := by simpa using hnd
    have hr' : ∀ x ∈ P ++ [a] ++ S, x < l.length := by simpa using hr
    have hP : P.Nodup := (List.nodup_append.1 hnd).1
    have ha : a ∉ P := by
      intro h
      exact (List.nodup_append.1 hnd).2.2 a h a (by simp) rfl
    have hal : a < l.length := hr a (by simp)
    have hstep := order_step (d := d) hP ha hal
    have hPr : ∀ x ∈ P, x < l.length := fun x hx => hr x (by simp [hx])
    have hlen : (order l.length d P).length = l.length := order_length hP hPr hd
    have hmem : ∀ j ∈ order l.length d P, j < l.length := fun j hj => order_mem hPr hd hj
    have hsl : s.data.length = l.length := by
      rw [hs, select_length hmem, hlen]
    have hc : ∀ b, (P ++ [a]).countP (d ≤ ·) = b ↔ P.countP (d ≤ ·) + (if d ≤ a then 1 else 0) = b := by
      intro b
      simp [List.countP_append, List.countP_singleton]
    simp only [List.map_cons, planLoop, ok1]
    by_cases had : a = d
    · subst had
      have hpos : posOf a P a = a + P.countP (a ≤ ·) := by
        simp only [posOf, Nat.lt_irrefl, if_false]
        congr 1
        refine List.countP_congr fun j hj => ?_
        have : j ≠ a := fun h => ha (h ▸ hj)
        simp
        omega
      have hsame : order l.length a (P ++ [a]) = order l.length a P := by
        rw [← hstep, hpos]
        simp [mv]
      rw [if_pos rfl, if_pos rfl, if_pos (Int.le_refl _)]
      have := ih (P ++ [a]) (Q ++ [popOf a P a]) hnd' hr' ok3 (s := s) (by rw [hsame]; exact hs)
      rw [(hc _).2 (by rw [if_pos (Nat.le_refl _)])] at this
      simpa [popOf] using this
    · have hai : (a : Int) ≠ d := by omega
      rw [if_neg hai, if_neg hai]
      have hcl : P.countP (· < a) ≤ P.length := List.countP_le_length
      have hca : P.countP (· < a) ≤ a := by
        have := seg_length hP 0 a
        have : P.countP (fun j => decide (0 ≤ j ∧ j < a)) = P.countP (· < a) :=
          List.countP_congr fun j _ => by simp
        omega
      have hsum : P.length = P.countP (· < a) + P.countP (a < ·) := by
        rw [List.length_eq_countP_add_countP (· < a)]
        congr 1
        refine List.countP_congr fun j hj => ?_
        have : j ≠ a := fun h => ha (h ▸ hj)
        simp
        omega
      have hsrc : (if (a : Int) - (P.countP (· < a) : Nat) ≥ d then (a : Int) - (P.countP (· < a) : Nat) + P.length
          else (a : Int) - (P.countP (· < a) : Nat)) = (posOf d P a : Int) := by
        simp only [posOf]
        by_cases h : a < d
        · rw [if_neg (by omega), if_pos h]
          omega
        · have := ok2 (by omega)
          rw [if_pos (by omega), if_neg h]
          omega
      have hge : ((d : Int) ≤ posOf d P a) ↔ d ≤ a := by
        simp only [posOf]
        split <;> omega
      rw [hsrc]
      have hp1 : posOf d P a < s.data.length := by
        have hmv : a ∈ order l.length d (P ++ [a]) := by simp [order]
        rw [hsl]
        simp only [posOf]
        split
        · omega
        · have := seg_length hP (a + 1) l.length
          have h2 : P.countP (fun j => decide (a + 1 ≤ j ∧ j < l.length)) = P.countP (a < ·) := by
            refine List.countP_congr fun j hj => ?_
            have := hPr j hj
            simp
            omega
          omega
      have hd1 : d + P.countP (d ≤ ·) ≤ s.data.length := by
        rw [hsl]
        have := seg_length hP d l.length
        have h2 : P.countP (fun j => decide (d ≤ j ∧ j < l.length)) = P.countP (d ≤ ·) := by
          refine List.countP_congr fun j hj => ?_
          have := hPr j hj
          simp
          omega
        omega
      obtain ⟨s1, m1, m2, m3⟩ := move_nat hq hp1 hd1
      rw [hs, mv_select hmem, hstep] at m2
      obtain ⟨s2, h1, h2, h3⟩ := ih (P ++ [a]) (Q ++ [popOf d P a]) hnd' hr' ok3 m2
      refine ⟨s2, ?_, by simpa using h2, by rw [h3, m3]⟩
      show M.bind _ _ s = _
      have m1' : (do
          let _ ← move c (posOf d P a) ((d : Int) + (P.countP (d ≤ ·) : Nat))
          pure () : M (St α) Unit) s = (.ok (), s1) := by
        rw [M.bind_eq, M.bind_ok (by rw [← Int.natCast_add]; exact m1)]
        rfl
      rw [M.bind_ok m1']
      have e1 : (if (d : Int) ≤ posOf d P a then P.countP (d ≤ ·) + 1 else P.countP (d ≤ ·)) =
          (P ++ [a]).countP (d ≤ ·) := by
        symm
        rw [hc]
        by_cases h : d ≤ a
        · rw [if_pos h, if_pos (hge.2 h)]
        · rw [if_neg h, if_neg (fun h' => h (hge.1 h'))]
          rfl
      rw [e1, show P.length + 1 = (P ++ [a]).length by simp]
      rw [popOf, if_neg had] at h1
      exact h1

theorem planOk_desc {d : Nat} (S P : List Nat) (Q : List Int) (h : (P ++ S).Pairwise (· > ·))
    (hQ : ∀ q ∈ Q, ∀ s ∈ S, (s : Int) < q) : PlanOk d P Q S := by
  induction S generalizing P Q with
  | nil => trivial
  | cons s S ih =>
    have hPs : ∀ p ∈ P, s < p := fun p hp => (List.pairwise_append.1 h).2.2 p hp s (by simp)
    have hSs : ∀ x ∈ S, x < s := fun x hx => (List.pairwise_cons.1 (List.pairwise_append.1 h).2.1).1 x hx
    have c0 : P.countP (· < s) = 0 := by
      rw [List.countP_eq_zero]
      intro p hp
      have := hPs p hp
      simp
      omega
    refine ⟨?_, ?_, ih (P ++ [s]) _ (by simpa using h) ?_⟩
    · rw [c0, List.countP_eq_zero]
      intro q hq
      have := hQ q hq s (by simp)
      simp
      omega
    · omega
    · intro q hq x hx
      simp only [List.mem_append, List.mem_singleton] at hq
      rcases hq with hq | rfl
      · exact hQ q hq x (by simp [hx])
      · have := hSs x hx
        simp only [popOf, posOf, c0]
        split
        · omega
        · split <;> omega

theorem planOk_asc {d : Nat} (S P : List Nat) (Q : List Int) (h : (P ++ S).Pairwise (· < ·))
    (hl : Q.length = P.length) (hd : ∀ s ∈ S, d < s → (P ++ S).countP (· < s) ≤ s - d)
    (hQ : ∀ q ∈ Q, ∀ s ∈ S, q ≤ (s : Int)) : PlanOk d P Q S := by
  induction S generalizing P Q with
  | nil => trivial
  | cons s S ih =>
    have hPs : ∀ p ∈ P, p < s := fun p hp => (List.pairwise_append.1 h).2.2 p hp s (by simp)
    have hSs : ∀ x ∈ S, s < x := fun x hx => (List.pairwise_cons.1 (List.pairwise_append.1 h).2.1).1 x hx
    have c0 : P.countP (· < s) = P.length := by
      rw [List.countP_eq_length]
      intro p hp
      have := hPs p hp
      simp
      omega
    have c1 : P.countP (s < ·) = 0 := by
      rw [List.countP_eq_zero]
      intro p hp
      have := hPs p hp
      simp
      omega
    refine ⟨?_, ?_, ih (P ++ [s]) _ (by simpa using h) (by simp [hl]) ?_ ?_⟩
    · rw [c0, ← hl, List.countP_eq_length]
      intro q hq
      have := hQ q hq s (by simp)
      simpa using this
    · intro hds
      have := hd s (by simp) hds
      rw [List.countP_append] at this
      omega
    · intro x hx hdx
      have := hd x (by simp [hx]) hdx
      simpa using this
    · intro q hq x hx
      simp only [List.mem_append, List.mem_singleton] at hq
      rcases hq with hq | rfl
      · exact hQ q hq x (by simp [hx])
      · have := hSs x hx
        simp only [popOf, posOf, c1]
        split
        · omega
        · split <;> omega

theorem dedup_nodup (l seen : List Int) (h : l.Nodup) (h' : ∀ x ∈ l, x ∉ seen) : dedup seen l = l := by
  induction l generalizing seen with
  | nil => rfl
  | cons x xs ih =>
    rw [List.nodup_cons] at h
    rw [dedup, if_neg (h' x (by simp)), ih (x :: seen) h.2]
    intro y hy
    simp only [List.mem_cons, not_or]
    exact ⟨fun e => h.1 (e ▸ hy), h' y (by simp [hy])⟩

theorem cast_nodup {S : List Nat} (h : S.Nodup) : (S.map (fun (j : Nat) => (j : Int))).Nodup :=
  List.Pairwise.map _ (fun a b h e => h (by omega)) h

theorem expand_ints (n : Nat) (S : List Nat) :
    expand n (S.map fun (j : Nat) => Key.int j) = .ok (S.map (fun (j : Nat) => (j : Int))) := by
  induction S with
  | nil => rfl
  | cons s S ih => simp [expand, ih]

/-- Selecting all positions in order. -/
theorem select_range (l : List α) : l = (List.range l.length).filterMap (l[·]?) := by
  refine List.ext_getElem? fun i => ?_
  by_cases hi : i < l.length
  · have hsome : ∀ n, n ≤ l.length → ((List.range n).filterMap (l[·]?)) = l.take n := by
      intro n hn
      induction n with
      | zero => rfl
      | succ n ih =>
        rw [List.range_succ, List.filterMap_append, ih (by omega), List.take_add_one]
        simp [List.getElem?_eq_getElem (show n < l.length by omega)]
    rw [hsome _ (Nat.le_refl _), List.take_length]
  · have hl : ((List.range l.length).filterMap (l[·]?)).length = l.length := by
      rw [select_length (by intro j hj; simpa using hj), List.length_range]
    rw [List.getElem?_eq_none (by omega), List.getElem?_eq_none (by omega)]

/-- `move_multiple` when the plan is right. -/
theorem moveMultiple_ok (hq : c.Quiet) {s : St α} {ks : List Key} {S : List Nat} {dest : Int} {d : Nat}
    (hk : expand s.data.length ks = .ok (S.map (fun (j : Nat) => (j : Int)))) (hS : S.Nodup)
    (hr : ∀ j ∈ S, j < s.data.length) (hd : d ≤ s.data.length)
    (hdest : dest = d ∨ dest = (d : Int) - (s.data.length + 1)) (ok : PlanOk d [] [] S) :
    ∃ n s', moveMultiple c ks dest s = (.ok n, s') ∧ s'.data = place s.data S d := by
  have hde : (if dest < 0 then dest + ((s.data.length : Int) + 1) else dest) = d := by
    rcases hdest with rfl | rfl
    · exact if_neg (by omega)
    · rw [if_pos (by omega)]
      omega
  have hplan : movePlan s.data.length ks dest =
      .ok (planLoop d (S.map (fun (j : Nat) => (j : Int))) 0 0 []) := by
    simp only [movePlan, hk, hde, dedup_nodup _ [] (cast_nodup hS) (by simp)]
  obtain ⟨s1, h1, h2, h3⟩ := plan_exec hq (l := s.data) hd S [] [] (by simpa using hS) (by simpa using hr) ok
    (s := { s with blocked := true }) (by
      rw [order_nil hd]
      show s.data = _
      exact select_range s.data)
  simp only [List.length_nil, List.countP_nil, List.nil_append] at h1 h2
  obtain ⟨s2, h4, h5, -⟩ := emitReordered_quiet hq { s1 with blocked := s.blocked }
  refine ⟨(planLoop d (S.map (fun (j : Nat) => (j : Int))) 0 0 []).length, s2, ?_, ?_⟩
  · rw [moveMultiple, M.bind_eq, M.bind_ok (M.get_app s), M.bind_eq, hplan, M.bind_ok (M.ofExcept_app _ s), M.bind_eq,
      M.bind_ok (a := ()) (s' := { s1 with blocked := s.blocked })]
    · rw [M.bind_eq, M.bind_ok h4]
      rfl
    · simp only [withBlocked, h1]
  · rw [h5, place_order _ _ _ hd]
    exact h2

/-- `mv` is the placement of a single item. -/
theorem mv_place {l : List α} {p d : Nat} (hp : p < l.length) (hd : d ≤ l.length) : mv l p d = place l [p] d := by
  have h := order_step (n := l.length) (d := d) (s := p) (P := []) List.nodup_nil (by simp) hp
  simp only [posOf, List.countP_nil, Nat.sub_zero, Nat.add_zero, ite_self, List.nil_append, order_nil hd] at h
  rw [place_order _ _ _ hd, ← h, ← mv_select (by intro j hj; simpa using hj), ← select_range]

/-- Moving keeps the elements, whatever the indices and the listeners. -/
theorem move_perm {l : List α} (src dest : Int) : M.Keeps (fun s : St α => s.data.Perm l) (move c src dest) := by
  intro s hs
  have e1 : ∀ (e : Ev α) (s : St α), (emit c e s).2.data = s.data := fun _ _ => by rw [emit_state]
  have hre : M.Keeps (fun s : St α => s.data.Perm l) (emitReordered c) := by
    intro s hs
    simp only [emitReordered]
    split
    · exact hs
    · rw [emit_state]; exact hs
  simp only [move, M.bind_eq, M.bind_app, M.get_app]
  generalize hd : (if dest < 0 then dest + ((s.data.length : Int) + 1) else dest) = e
  split
  · exact hs
  · simp only [M.bind_app]
    rcases emit_cases (c := c) (.moving src e) s with h | h
    · simp only [h, M.get_app, M.ofExcept_app]
      rcases hj : Py.normIndex s.data.length src with _ | j
      · simp only [Py.pop_err hj]
        exact hs
      · simp only [Py.pop_ok hj, setData, M.modify_app]
        have hlt := Py.normIndex_lt hj
        generalize (if e > src then e - 1 else e) = e'
        have key : (Py.insert (s.data.eraseIdx j) e' s.data[j]).Perm l := by
          refine .trans ?_ hs
          simp only [Py.insert]
          refine List.perm_middle.trans ?_
          rw [List.take_append_drop, List.eraseIdx_eq_take_drop_succ]
          refine (List.perm_middle.symm).trans ?_
          rw [← List.drop_eq_getElem_cons hlt, List.take_append_drop]
        rcases emit_cases (c := c) (.moved src e' s.data[j])
          { s with data := Py.insert (s.data.eraseIdx j) e' s.data[j], log := s.log ++ [(.moving src e, s.data)] } with h | h
        · simp only [h]
          have := hre { s with data := Py.insert (s.data.eraseIdx j) e' s.data[j], log := (s.log ++ [(.moving src e, s.data)]) ++
            [(.moved src e' s.data[j], Py.insert (s.data.eraseIdx j) e' s.data[j])] } key
          generalize emitReordered c _ = r at this
          rcases r with ⟨_ | ⟨⟩, s1⟩ <;> exact this
        · simp only [h]
          exact key
    · simp only [h]
      exact hs

theorem withBlocked_perm {l : List α} {m : M (St α) Unit} (h : M.Keeps (fun s : St α => s.data.Perm l) m) :
    M.Keeps (fun s : St α => s.data.Perm l) (withBlocked m) :=
  fun s hs => h { s with blocked := true } hs

theorem emitReordered_perm {l : List α} : M.Keeps (fun s : St α => s.data.Perm l) (emitReordered c) := by
  intro s hs
  simp only [emitReordered]
  split
  · exact hs
  · rw [emit_state]; exact hs

theorem moveMultiple_perm {l : List α} (ks : List Key) (dest : Int) :
    M.Keeps (fun s : St α => s.data.Perm l) (moveMultiple c ks dest) :=
  M.Keeps.get.seq fun _ => (M.Keeps.ofExcept _).seq fun _ =>
    (withBlocked_perm (M.Keeps.forEach _ fun _ => (move_perm _ _).seq fun _ => M.Keeps.pure' _)).seq fun _ =>
      emitReordered_perm.seq fun _ => M.Keeps.pure' _

end Psygnal.EL
