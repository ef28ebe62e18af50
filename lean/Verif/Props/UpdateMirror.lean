import Verif.Props.Update

/-!
# C101: mirrors and invariants of attributes under a lock

Whatever threads read and assign in blocks `with lock:`, a listener that keeps the value it was told last has the value of the attribute whenever nobody holds
the lock, and each time is told as old value what it had; and what every block keeps is kept, so that what is moved from one attribute to another is not lost.
-/

namespace Psygnal.AtC

/-- From the first value to the last by what is told: the old value is the one before, the new one differs from it and is the next (specification, for
`/repo/src/psygnal/_group_descriptor.py:306-318`). -/
inductive Chain : Nat → List (Nat × Nat) → Nat → Prop
  | nil (x : Nat) : Chain x [] x
  | cons {x y z : Nat} {l : List (Nat × Nat)} : y ≠ x → Chain y l z → Chain x ((y, x) :: l) z

theorem Chain.trans {x y z : Nat} {l k : List (Nat × Nat)} (h : Chain x l y) (h' : Chain y k z) : Chain x (l ++ k) z := by
  induction h with
  | nil => exact h'
  | cons hn _ ih => exact .cons hn (ih h')

theorem alone_chain (c : Cfg) (he : ∀ x y, c.eq x y = (x == y)) (t n : Nat) (b : Code) : ∀ d : Nat → Nat,
    Chain (d n) ((alone c t d b).1.filterMap (heard n)) ((alone c t d b).2 n) := by
  induction b with
  | ret => exact fun d => .nil _
  | get m k ih => exact fun d => ih (d m) d
  | set m v k ih =>
    intro d
    have hu : c.unchanged v (d m) = (v == d m) := by
      unfold Cfg.unchanged
      split
      · exact he _ _
      · rw [he]; exact Bool.beq_comm
    have h := ih (fun i => if i = m then v else d i)
    have hl : (alone c t d (.set m v k)).1.filterMap (heard n) =
        (if m = n ∧ v ≠ d m then [(v, d m)] else []) ++ (alone c t (fun i => if i = m then v else d i) k).1.filterMap (heard n) := by
      show List.filterMap (heard n) (.ev (.call t m v) :: .saw t m (d m) :: .ev (.wrote t m v) :: ((if c.reread then [.saw t m v] else []) ++
        (if c.unchanged v (d m) then [.ev (.same t m v v (d m))] else [.differ t, .ev (.told t m v v (d m))]) ++ _)) = _
      rw [hu]
      generalize d m = o
      by_cases hv : v = o <;> by_cases hm : m = n <;> cases c.reread <;> simp [hv, hm, heard, List.filterMap_cons]
    rw [hl]
    show Chain (d n) _ ((alone c t (fun i => if i = m then v else d i) k).2 n)
    by_cases hm : m = n
    · subst hm
      rw [if_pos rfl] at h
      by_cases hv : v = d m
      · rw [if_neg (fun h' => h'.2 hv), List.nil_append]
        rw [← hv]; exact h
      · rw [if_pos ⟨rfl, hv⟩]
        exact .cons hv h
    · rw [if_neg (fun h' => hm h'.1), List.nil_append]
      rw [if_neg (Ne.symm hm)] at h
      exact h

/-- Mirrors: for all programs in blocks, what the listeners of an attribute are told leads from its first value to the one that it has. -/
theorem C101_mirror (c : Cfg) (he : ∀ x y, c.eq x y = (x == y)) (a : Nat → Nat) (prog : Nat → List Act → Option Code) (s : List Nat) (n : Nat) :
    let p := Blk.run (sys c) (code prog) s (start a)
    p.lock = none → Chain (a n) (p.log.filterMap (heard n)) (p.data n) := by
  intro p hn
  have h := C101_attr c a prog s hn
  generalize p.log = l at h ⊢
  generalize p.data = x at h ⊢
  induction h with
  | nil => exact .nil _
  | @block l d t b _ _ ih =>
    rw [List.filterMap_append]
    exact ih.trans (alone_chain c he t n b d)

/-- What every block keeps. -/
theorem C101_invariant (c : Cfg) (I : (Nat → Nat) → Prop) (a : Nat → Nat) (ha : I a) (prog : Nat → List Act → Option Code)
    (hp : ∀ t l b, prog t l = some b → ∀ d, I d → I (alone c t d b).2) (s : List Nat) :
    let p := Blk.run (sys c) (code prog) s (start a)
    (p.lock = none → I p.data) ∧ ∀ t, p.lock = some t → ∃ l d1 b k r, I d1 ∧ prog t (l.filter (fun e => e.thread == t)) = some b ∧ p.log = l ++ k ∧
      k ++ r = (alone c t d1 b).1 := by
  intro p
  have ho : ∀ l x, OneByOne c prog a l x → I x := by
    intro l x h
    induction h with
    | nil => exact ha
    | @block l d t b _ hb ih => exact hp _ _ _ hb _ ih
  refine ⟨fun hn => ho _ _ (C101_attr c a prog s hn), fun t hl => ?_⟩
  obtain ⟨l, d1, b, k, r, h1, h2, h3, h4⟩ := C101_attr_held c a prog s t hl
  exact ⟨l, d1, b, k, r, ho _ _ h1, h2, h3, h4⟩

/-- `obj.m -= i; obj.n += i`, if `obj.m` is at least `i` (user code that calls `/repo/src/psygnal/_group_descriptor.py:387`). -/
def transfer (m n i : Nat) : Code := .get m fun x => .get n fun y => if i ≤ x then .set m (x - i) (.set n (y + i) .ret) else .ret

theorem alone_transfer (c : Cfg) (t : Nat) (d : Nat → Nat) (m n i : Nat) :
    (alone c t d (transfer m n i)).2 = if i ≤ d m then fun k => if k = n then d n + i else if k = m then d m - i else d k else d := by
  show (alone c t d (if i ≤ d m then .set m (d m - i) (.set n (d n + i) .ret) else .ret)).2 = _
  split <;> rfl

/-- Transfers between two attributes in blocks: their sum stays, and no other attribute changes. -/
theorem C101_transfer (c : Cfg) (a : Nat → Nat) (m n : Nat) (hmn : m ≠ n) (prog : Nat → List Act → Option Code)
    (hp : ∀ t l b, prog t l = some b → ∃ i, b = transfer m n i ∨ b = transfer n m i) (s : List Nat) :
    let p := Blk.run (sys c) (code prog) s (start a)
    p.lock = none → p.data m + p.data n = a m + a n ∧ ∀ k, k ≠ m → k ≠ n → p.data k = a k := by
  refine (C101_invariant c (fun d => d m + d n = a m + a n ∧ ∀ k, k ≠ m → k ≠ n → d k = a k) a ⟨rfl, fun _ _ _ => rfl⟩ prog ?_ s).1
  rintro t l b hb d ⟨h1, h2⟩
  obtain ⟨i, rfl | rfl⟩ := hp _ _ _ hb
  · rw [alone_transfer]
    split
    · refine ⟨?_, fun k km kn => ?_⟩
      · simp only [if_neg hmn, if_true]; omega
      · simp only [if_neg km, if_neg kn]; exact h2 k km kn
    · exact ⟨h1, h2⟩
  · rw [alone_transfer]
    split
    · refine ⟨?_, fun k km kn => ?_⟩
      · simp only [if_neg (Ne.symm hmn), if_true]; omega
      · simp only [if_neg km, if_neg kn]; exact h2 k km kn
    · exact ⟨h1, h2⟩

/-- A lock around each assignment is not enough: two transfers change the sum. -/
theorem C101_transfer_refuted : ∃ l, let p := Lk.run (step exK) inside l (init (fun _ => 10) (fun t => if t < 2 then transfer 0 1 (t + 1) else .ret), none)
    p.2 = none ∧ p.1.attr 0 = 9 ∧ p.1.attr 1 = 13 :=
  ⟨0 :: List.replicate 14 1 ++ List.replicate 13 0, by decide +kernel⟩

/-- Thread 0 transfers 3, thread 1 transfers 4 back; each twice. -/
def exTr (t : Nat) (l : List Act) : Option Code :=
  if l.length < 20 then match t with
    | 0 => some (transfer 0 1 3)
    | 1 => some (transfer 1 0 4)
    | _ => none
  else none

theorem exTr_transfer (t : Nat) (l : List Act) (b : Code) (h : exTr t l = some b) : ∃ i, b = transfer 0 1 i ∨ b = transfer 1 0 i := by
  unfold exTr at h
  split at h
  · split at h
    · exact ⟨_, .inl (Option.some.inj h).symm⟩
    · exact ⟨_, .inr (Option.some.inj h).symm⟩
    · cases h
  · cases h

/-- Thread 1 tries while thread 0 is in its block. -/
def exTrS : List Nat := 0 :: List.replicate 14 1 ++ List.replicate 14 0 ++ List.replicate 30 1 ++ List.replicate 15 0

example : let p := Blk.run (sys exK) (code exTr) exTrS (start fun _ => 10)
    p.lock = none ∧ p.data 0 = 12 ∧ p.data 0 + p.data 1 = 20 ∧ p.log.filterMap (heard 0) = [(7, 10), (11, 7), (15, 11), (12, 15)] ∧
      Chain 10 (p.log.filterMap (heard 0)) (p.data 0) :=
  ⟨by decide +kernel, by decide +kernel, (C101_transfer exK (fun _ => 10) 0 1 (by decide) exTr exTr_transfer exTrS (by decide +kernel)).1, by decide +kernel,
    C101_mirror exK (fun _ _ => rfl) (fun _ => 10) exTr exTrS 0 (by decide +kernel)⟩

end Psygnal.AtC
