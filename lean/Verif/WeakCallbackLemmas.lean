import Verif.WeakCallback

/-! # Lemmas about the keys of weak callbacks -/
namespace Psygnal.WC

theorem split_at {α : Type} {a : α} {l l' r r' : List α} (h : a ∉ l) (h' : a ∉ l')
    (e : l ++ a :: r = l' ++ a :: r') : l = l' ∧ r = r' := by
  induction l generalizing l' with
  | nil => cases l' with
    | nil => simpa using e
    | cons b l' => simp at e h'; exact absurd e.1 h'.1
  | cons b l ih => cases l' with
    | nil => simp at e h; exact absurd e.1.symm h.1
    | cons c l' =>
      simp at e h h'
      have := ih h.2 h'.2 e.2
      exact ⟨by rw [e.1, this.1], this.2⟩

theorem digitChar_inj : ∀ a < 16, ∀ b < 16, Nat.digitChar a = Nat.digitChar b → a = b := by
  decide

theorem digitChar_ne_dot : ∀ a < 16, Nat.digitChar a ≠ '.' := by decide

theorem hex_inj (n m : Nat) (h : Nat.toDigits 16 n = Nat.toDigits 16 m) : n = m := by
  induction n using Nat.strongRecOn generalizing m with
  | ind n ih =>
    rw [Nat.toDigits_eq_if (n := n) (by omega), Nat.toDigits_eq_if (n := m) (by omega)] at h
    split at h <;> split at h
    · exact digitChar_inj n ‹_› m ‹_› (by simpa using h)
    · have := congrArg List.length h
      have hp := Nat.length_toDigits_pos (b := 16) (n := m / 16)
      simp at this
    · have := congrArg List.length h
      have hp := Nat.length_toDigits_pos (b := 16) (n := n / 16)
      simp at this
    · have := List.append_inj' h rfl
      have h1 := ih (n / 16) (by omega) _ this.1
      have h2 := digitChar_inj (n % 16) (by omega) (m % 16) (by omega) (by simpa using this.2)
      omega

theorem hex_no_dot (n : Nat) : '.' ∉ Nat.toDigits 16 n := by
  induction n using Nat.strongRecOn with
  | ind n ih =>
    rw [Nat.toDigits_eq_if (n := n) (by omega)]
    split
    · intro h
      exact digitChar_ne_dot n ‹_› (by simpa using (List.mem_singleton.mp h).symm)
    · intro h
      rcases List.mem_append.mp h with h | h
      · exact ih (n / 16) (by omega) h
      · exact digitChar_ne_dot (n % 16) (by omega) (by simpa using (List.mem_singleton.mp h).symm)

/-- A suffix of a key: nothing, or something that starts with a dot. -/
def Suffix (s : List Char) : Prop := s = [] ∨ ∃ t, s = '.' :: t

theorem split_dot {d d' s s' : List Char} (h : '.' ∉ d) (h' : '.' ∉ d') (hs : Suffix s)
    (hs' : Suffix s') (e : d ++ s = d' ++ s') : d = d' ∧ s = s' := by
  rcases hs with rfl | ⟨t, rfl⟩ <;> rcases hs' with rfl | ⟨t', rfl⟩
  · simpa using e
  · rw [List.append_nil] at e
    rw [e] at h
    simp at h
  · rw [List.append_nil] at e
    rw [← e] at h'
    simp at h'
  · have := split_at h h' e
    exact ⟨this.1, by rw [this.2]⟩

theorem fmt_inj {m m' n n' s s' : List Char} {i i' : Nat} (hm : ':' ∉ m) (hm' : ':' ∉ m')
    (hn : '@' ∉ n) (hn' : '@' ∉ n') (hs : Suffix s) (hs' : Suffix s')
    (e : fmt m n i ++ s = fmt m' n' i' ++ s') : m = m' ∧ n = n' ∧ i = i' ∧ s = s' := by
  simp only [fmt, List.append_assoc, List.cons_append] at e
  have h1 := split_at hm hm' e
  have h2 := split_at hn hn' h1.2
  have h3 := h2.2
  simp only [List.cons.injEq, true_and] at h3
  have h4 := split_dot (hex_no_dot i) (hex_no_dot i') hs hs' h3
  exact ⟨h1.1, h2.1, hex_inj _ _ h4.1, h4.2⟩

theorem suffix_nil : Suffix [] := .inl rfl
theorem suffix_attr (env : Env) (a : ObjId) : Suffix (attrSuffix env a) := .inr ⟨_, rfl⟩
theorem suffix_item (env : Env) (a : ObjId) : Suffix (itemSuffix env a) := .inr ⟨_, rfl⟩

theorem attrSuffix_inj {env : Env} {a b : ObjId} (h : attrSuffix env a = attrSuffix env b) :
    env.repr a = env.repr b := by
  simp only [attrSuffix] at h
  exact List.append_cancel_right (List.append_cancel_left h)

theorem itemSuffix_inj {env : Env} {a b : ObjId} (h : itemSuffix env a = itemSuffix env b) :
    env.repr a = env.repr b := by
  simp only [itemSuffix] at h
  exact List.append_cancel_right (List.append_cancel_left h)

theorem attr_ne_item (env : Env) (a b : ObjId) : attrSuffix env a ≠ itemSuffix env b := by
  simp [attrSuffix, itemSuffix]

theorem attr_ne_nil (env : Env) (a : ObjId) : attrSuffix env a ≠ [] := by simp [attrSuffix]
theorem item_ne_nil (env : Env) (a : ObjId) : itemSuffix env a ≠ [] := by simp [itemSuffix]

end Psygnal.WC
