import Verif.QtSlot

/-! # Lemmas for `Verif.QtSlot` -/
namespace Psygnal.QtSlot

theorem has_iff {pat : Str} : ∀ {s : Str}, has pat s = true ↔ pat <:+: s
  | [] => by simp [has]
  | c :: s => by
    rw [has, Bool.or_eq_true, List.isPrefixOf_iff_prefix, has_iff, List.infix_cons_iff]

theorem takeWhile_stop {p : Char → Bool} {j r : Str} {x : Char} (h : ∀ c ∈ j, p c = true) (hx : p x = false) :
    (j ++ x :: r).takeWhile p = j := by
  induction j with
  | nil => simp [hx]
  | cons c j ih => simp [h c (by simp), ih (fun d hd => h d (by simp [hd]))]

theorem dropWhile_stop {p : Char → Bool} {j r : Str} {x : Char} (h : ∀ c ∈ j, p c = true) (hx : p x = false) :
    (j ++ x :: r).dropWhile p = x :: r := by
  induction j with
  | nil => simp [hx]
  | cons c j ih => simp [h c (by simp), ih (fun d hd => h d (by simp [hd]))]

theorem inner_eq {pre j r : Str} (hp : '(' ∉ pre) (hj : ')' ∉ j) : inner (pre ++ '(' :: (j ++ ')' :: r)) = j := by
  unfold inner
  rw [dropWhile_stop (fun c hc => by simpa using fun h : c = '(' => hp (h ▸ hc)) (by simp)]
  rw [List.drop_one, List.tail_cons]
  exact takeWhile_stop (fun c hc => by simpa using fun h : c = ')' => hj (h ▸ hc)) (by simp)

theorem mem_join {c : Char} : ∀ {ts : List Str}, c ∈ join ts → c = ',' ∨ ∃ t ∈ ts, c ∈ t
  | [], h => by simp [join] at h
  | [t], h => .inr ⟨t, by simp, by simpa [join] using h⟩
  | t :: u :: ts, h => by
    simp only [join, List.mem_append, List.mem_cons] at h
    rcases h with h | h | h
    · exact .inr ⟨t, by simp, h⟩
    · exact .inl h
    · rcases mem_join h with h | ⟨v, hv, hc⟩
      · exact .inl h
      · exact .inr ⟨v, List.mem_cons_of_mem _ hv, hc⟩

theorem count_join : ∀ {ts : List Str}, ts ≠ [] → (∀ t ∈ ts, ',' ∉ t) → (join ts).count ',' + 1 = ts.length
  | [], h, _ => absurd rfl h
  | [t], _, h => by simp [join, List.count_eq_zero.mpr (h t (by simp))]
  | t :: u :: ts, _, h => by
    have := count_join (ts := u :: ts) (by simp) (fun v hv => h v (List.mem_cons_of_mem _ hv))
    simp only [join, List.count_append, List.count_cons_self, List.count_eq_zero.mpr (h t (by simp)), List.length_cons] at this ⊢
    omega

theorem join_ne {ts : List Str} (h : ts ≠ []) (h1 : ∀ t ∈ ts, t ≠ []) : join ts ≠ [] := by
  match ts, h with
  | [t], _ => exact h1 t (by simp)
  | t :: u :: ts, _ => simp [join]

/-- Names without the characters by which they are taken apart: the name of the signal has no bracket and no blank, and the names of the
types are not empty and have no comma, no closing bracket and no blank. -/
structure Plain (q : Qt) : Prop where
  name : ∀ c ∈ q.name, c ≠ '(' ∧ c ≠ ' ' ∧ c ≠ '\t' ∧ c ≠ '\n'
  full : ∀ t ∈ q.types, t ≠ []
  types : ∀ t ∈ q.types, ∀ c ∈ t, c ≠ ',' ∧ c ≠ ')' ∧ c ≠ ' ' ∧ c ≠ '\t' ∧ c ≠ '\n'

theorem range_text {q : Qt} (h : Plain q) {pre : Str} (hp : '(' ∉ pre) :
    rangeQt (pre ++ q.text) = some (q.types.length, some q.types.length) := by
  have hin : inner (pre ++ q.text) = join q.types := by
    have := inner_eq (pre := pre ++ q.name) (j := join q.types) (r := [])
      (by simp only [List.mem_append, not_or]; exact ⟨hp, fun hc => (h.name _ hc).1 rfl⟩)
      (fun hc => by
        rcases mem_join hc with h1 | ⟨t, ht, h1⟩
        · cases h1
        · exact (h.types t ht _ h1).2.1 rfl)
    simpa [Qt.text] using this
  rw [rangeQt, if_pos (by simp [Qt.text]), hin]
  by_cases hn : q.types = []
  · simp [hn, join]
  · simp only [join_ne hn h.full, if_false]
    rw [count_join hn (fun t ht hc => (h.types t ht _ hc).1 rfl)]

theorem prefix_false {x : Char} {s : Str} (h : x ≠ 'o') : onlyAccepts.isPrefixOf (x :: s) = false := by
  simp [onlyAccepts, List.isPrefixOf, Ne.symm h]

/-- The pattern has its first blank after four characters and none of them is a bracket. -/
theorem prefix_blank {p r : Str} (hp : ∀ c ∈ p, c ≠ ' ') : onlyAccepts.isPrefixOf (p ++ ')' :: ' ' :: r) = false := by
  rw [Bool.eq_false_iff]
  intro h
  match p, hp with
  | [], _ => simp [onlyAccepts, List.isPrefixOf] at h
  | [a], _ => simp [onlyAccepts, List.isPrefixOf] at h
  | [a, b], _ => simp [onlyAccepts, List.isPrefixOf] at h
  | [a, b, c], _ => simp [onlyAccepts, List.isPrefixOf] at h
  | [a, b, c, d], _ => simp [onlyAccepts, List.isPrefixOf] at h
  | a :: b :: c :: d :: x :: p, hp =>
    simp only [onlyAccepts, List.isPrefixOf, List.cons_append, Bool.and_eq_true, beq_iff_eq] at h
    exact hp x (by simp) h.2.2.2.2.1.symm

theorem before_text : ∀ {p r : Str}, (∀ c ∈ p, c ≠ ' ') →
    before onlyAccepts (p ++ ')' :: ' ' :: (onlyAccepts ++ r)) = p ++ [')', ' ']
  | [], r, _ => by
    rw [List.nil_append, before, if_neg (by rw [prefix_false (by decide)]; simp), before, if_neg (by rw [prefix_false (by decide)]; simp)]
    simp [onlyAccepts, before, List.isPrefixOf]
  | c :: p, r, h => by
    have := prefix_blank (r := onlyAccepts ++ r) h
    rw [List.cons_append] at this
    rw [List.cons_append, before, if_neg (by rw [this]; simp), before_text (fun d hd => h d (by simp [hd]))]
    rfl

theorem has_text {p r : Str} : has onlyAccepts (p ++ (onlyAccepts ++ r)) = true := by
  induction p with
  | nil => simp [onlyAccepts, has, List.isPrefixOf]
  | cons c p ih => simp [has, ih]

theorem strip_text {p : Str} {c : Char} (hc : space c = false) : strip (c :: (p ++ [')', ' '])) = c :: (p ++ [')']) := by
  simp only [strip, List.dropWhile_cons, hc]
  rw [if_neg (by simp)]
  simp [space]

theorem probe_text {q : Qt} (h : Plain q) (h0 : q.types.length ≠ 255) {c : Callee} (hc : c.reply = (q.callee true).reply) :
    probe c = (.ok (some q.text), []) := by
  have hr : (q.callee true).reply = .typeError (q.text ++ ' ' :: (onlyAccepts ++ ' ' :: (Nat.toDigits 10 q.types.length
      ++ [' ', 'a', 'r', 'g', 'u', 'm', 'e', 'n', 't', '(', 's', ')', ',', ' ', '2', '5', '5', ' ', 'g', 'i', 'v', 'e', 'n', '!']))) := by
    simp only [Qt.callee, if_neg h0, List.append_assoc]
    rfl
  rw [probe, hc, hr]
  have hsp : ∀ d ∈ q.name ++ '(' :: join q.types, d ≠ ' ' := by
    intro d hd
    simp only [List.mem_append, List.mem_cons] at hd
    rcases hd with h1 | h1 | h1
    · exact (h.name d h1).2.1
    · rw [h1]; decide
    · rcases mem_join h1 with h2 | ⟨t, ht, h2⟩
      · rw [h2]; decide
      · exact (h.types t ht d h2).2.2.1
  have htext : q.text = (q.name ++ '(' :: join q.types) ++ [')'] := by simp [Qt.text]
  simp only
  generalize ' ' :: (Nat.toDigits 10 q.types.length ++ _) = rest
  have e1 : q.text ++ ' ' :: (onlyAccepts ++ rest) = (q.name ++ '(' :: join q.types) ++ ')' :: ' ' :: (onlyAccepts ++ rest) := by
    rw [htext, List.append_assoc]; rfl
  have e2 : has onlyAccepts (q.text ++ ' ' :: (onlyAccepts ++ rest)) = true := by
    have := has_text (p := q.text ++ [' ']) (r := rest)
    rw [List.append_assoc] at this
    exact this
  rw [if_pos e2, e1, before_text hsp]
  have e3 : strip ((q.name ++ '(' :: join q.types) ++ [')', ' ']) = q.text := by
    rw [htext]
    cases hn : q.name with
    | nil => exact strip_text (p := join q.types) (by decide)
    | cons x n =>
      refine strip_text (p := n ++ '(' :: join q.types) ?_
      have := h.name x (by simp [hn])
      simp [space, this.2.1, this.2.2.1, this.2.2.2]
  rw [e3]

theorem guess_qt {q : Qt} (h : Plain q) (bound : Bool) (h0 : q.lib = .pyside → q.types.length ≠ 255) :
    ∃ pre, '(' ∉ pre ∧ guess (q.callee bound) = (.ok (some (pre ++ q.text)), []) := by
  cases hl : q.lib with
  | pyqt =>
    refine ⟨['2'], by decide, ?_⟩
    cases bound
    · rw [guess, if_neg, if_pos]
      · rfl
      · simp only [Qt.callee, hl]; rfl
      · simp only [Qt.callee, hl]; decide
    · rw [guess, if_pos]
      · rfl
      · simp only [Qt.callee, hl]; decide
  | pyside =>
    refine ⟨[], by simp, ?_⟩
    rw [List.nil_append]
    cases bound
    · rw [guess, if_neg, if_neg, if_pos]
      · exact probe_text h (h0 hl) rfl
      · simp only [Qt.callee, hl]; decide
      · simp only [Qt.callee, hl]; decide
      · simp only [Qt.callee, hl]; decide
    · rw [guess, if_neg, if_neg, if_neg, if_pos]
      · exact probe_text h (h0 hl) rfl
      · simp only [Qt.callee, hl]; decide
      · simp only [Qt.callee, hl]; decide
      · simp only [Qt.callee, hl]; decide
      · simp only [Qt.callee, hl]; decide

theorem connect_qt {q : Qt} (h : Plain q) (bound : Bool) (h0 : q.lib = .pyside → q.types.length ≠ 255) (r : OnRef) (k : Nat) :
    connect ⟨true, none, r⟩ k (q.callee bound)
      = (if k < q.types.length then .error .value else .ok ⟨some q.types.length, true⟩, []) := by
  obtain ⟨pre, hp, hg⟩ := guess_qt h bound h0
  rw [connect, if_pos ⟨rfl, rfl⟩, checkNargs, hg]
  simp only [range_text h hp, checkRange]
  by_cases hk : k < q.types.length
  · simp [hk]
  · have hw : (q.callee bound).weakable = false := rfl
    simp [hk, ref, hw]

end Psygnal.QtSlot
