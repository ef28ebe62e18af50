import Verif.DelayConcLemmas

/-! # Lemmas for C93: one assignment alone -/
namespace Psygnal.DlC

/-- Thread `t` alone comes from `σ` to `τ`, and is in an assignment on the way. -/
def Goes (c : Cls) (t : Nat) (σ τ : St) : Prop :=
  ∃ k, run c (List.replicate k t) σ = τ ∧ ∀ i, 0 < i → i < k → (run c (List.replicate i t) σ).thr t ≠ .idle

theorem run_append (c : Cls) (s1 s2 : List Nat) (σ : St) : run c (s1 ++ s2) σ = run c s2 (run c s1 σ) := List.foldl_append

/-- The state with thread `t` at `x`, other threads as in `f`. -/
def at' (t : Nat) (f : Nat → Ctl) (td : Nat → List (Nat × Nat)) (x : Ctl) (a : Nat → Nat) (s : Int) (q : List (Nat × Nat)) (p : List Nat)
    (l : List Ev) : St := ⟨a, s, q, p, fun u => if u = t then x else f u, td, l⟩

theorem Goes.trans {c : Cls} {t : Nat} {σ τ υ : St} (h1 : Goes c t σ τ) (h2 : Goes c t τ υ) (hτ : τ.thr t ≠ .idle := by simp [at']) : Goes c t σ υ := by
  obtain ⟨k, h1, h3⟩ := h1
  obtain ⟨j, h2, h4⟩ := h2
  refine ⟨k + j, by rw [← List.replicate_append_replicate, run_append, h1, h2], fun i hi hk => ?_⟩
  by_cases h : i < k
  · exact h3 i hi h
  · obtain ⟨d, rfl⟩ : ∃ d, i = k + d := ⟨i - k, by omega⟩
    rw [← List.replicate_append_replicate, run_append, h1]
    by_cases hd : d = 0
    · rw [hd]; exact hτ
    · exact h4 d (by omega) (by omega)

theorem Goes.step {c : Cls} {t : Nat} {σ τ : St} (h : step c σ t = τ) : Goes c t σ τ := ⟨1, h, fun i h1 h2 => by omega⟩

section
variable {c : Cls} {t : Nat} {f : Nat → Ctl} {td : Nat → List (Nat × Nat)} {a : Nat → Nat} {s : Int} {q : List (Nat × Nat)} {p : List Nat} {l : List Ev}

theorem thr_collapse (x y : Ctl) : (fun u => if u = t then y else (fun u => if u = t then x else f u) u) = fun u => if u = t then y else f u := by
  funext u
  dsimp only
  split <;> rfl

/-- The queue is filled. -/
theorem goes_fill {n v : Nat} : ∀ (ms : List Nat) (q : List (Nat × Nat)), ms.Nodup → (∀ m ∈ ms, ∀ e ∈ q, e.1 ≠ m) →
    Goes c t (at' t f td (.qTest n v ms) a s q p l) (at' t f td (.store n v) a s (q ++ ms.map (fun m => (m, c.get m a))) p l)
  | [], q, _, _ => .step (by simp [DlC.step, at', St.go, thr_collapse])
  | m :: ms, q, hn, hq => by
    have hm : q.any (fun e => e.1 == m) = false := by
      rw [List.any_eq_false]
      intro e he
      simpa using hq m List.mem_cons_self e he
    have h1 : Goes c t (at' t f td (.qTest n v (m :: ms)) a s q p l) (at' t f td (.qRead n v m ms) a s q p l) :=
      .step (by simp only [DlC.step, at', St.go, if_pos, hm, thr_collapse]; rfl)
    have h2 : Goes c t (at' t f td (.qRead n v m ms) a s q p l) (at' t f td (.qPut n v m (c.get m a) ms) a s q p l) :=
      .step (by simp only [DlC.step, at', St.go, if_pos, thr_collapse])
    have h3 : Goes c t (at' t f td (.qPut n v m (c.get m a) ms) a s q p l) (at' t f td (.qTest n v ms) a s (q ++ [(m, c.get m a)]) p l) :=
      .step (by simp only [DlC.step, at', St.go, if_pos, thr_collapse, hm]; rfl)
    have hn' := List.nodup_cons.mp hn
    have h4 := goes_fill (n := n) (v := v) ms (q ++ [(m, c.get m a)]) hn'.2 (fun k hk e he => by
      rcases List.mem_append.mp he with he | he
      · exact hq k (List.mem_cons_of_mem _ hk) e he
      · rw [List.mem_singleton.mp he]
        exact fun h => hn'.1 (by rw [show m = k from h]; exact hk))
    rw [List.append_assoc] at h4
    exact ((h1.trans h2).trans h3).trans h4

/-- The names of `q` whose values are not the ones in `q`. -/
def differ (c : Cls) (a : Nat → Nat) (q : List (Nat × Nat)) : List (Nat × Nat) :=
  q.filterMap (fun e => if c.eq e.1 e.2 (c.get e.1 a) then none else some (e.1, c.get e.1 a))

/-- Dependent properties are compared. -/
theorem goes_deps (q1 q2 : List (Nat × Nat)) (acc : List (Nat × Nat)) :
    Goes c t (at' t f td (.dNext q1.length (q1 ++ q2).length acc) a s (q1 ++ q2) p l) (at' t f td (.clearQ (acc ++ differ c a q2)) a s (q1 ++ q2) p l) := by
  induction q2 generalizing q1 acc with
  | nil =>
    refine .step ?_
    simp [DlC.step, at', St.go, thr_collapse, differ]
  | cons e q2 ih =>
    have h1 : Goes c t (at' t f td (.dNext q1.length (q1 ++ e :: q2).length acc) a s (q1 ++ e :: q2) p l)
        (at' t f td (.dNew e.1 e.2 q1.length (q1 ++ e :: q2).length acc) a s (q1 ++ e :: q2) p l) := by
      refine .step ?_
      simp [DlC.step, at', St.go, thr_collapse]
    have h2 : Goes c t (at' t f td (.dNew e.1 e.2 q1.length (q1 ++ e :: q2).length acc) a s (q1 ++ e :: q2) p l)
        (at' t f td (.dNext (q1.length + 1) (q1 ++ e :: q2).length (if c.eq e.1 e.2 (c.get e.1 a) then acc else acc ++ [(e.1, c.get e.1 a)])) a s
          (q1 ++ e :: q2) p l) := .step (by simp only [DlC.step, at', St.go, if_pos, thr_collapse]; rfl)
    have h3 := ih (q1 ++ [e]) (if c.eq e.1 e.2 (c.get e.1 a) then acc else acc ++ [(e.1, c.get e.1 a)])
    rw [List.append_assoc, List.length_append (as := q1) (bs := [e])] at h3
    refine (h1.trans h2).trans ?_
    have h4 : (if c.eq e.1 e.2 (c.get e.1 a) then acc else acc ++ [(e.1, c.get e.1 a)]) ++ differ c a q2 = acc ++ differ c a (e :: q2) := by
      unfold differ
      rw [List.filterMap_cons]
      by_cases hb : c.eq e.1 e.2 (c.get e.1 a) = true <;> simp [hb]
    rw [h4] at h3
    exact h3

/-- Everything is emitted. -/
theorem goes_emit : ∀ (acc : List (Nat × Nat)) (l : List Ev),
    Goes c t (at' t f td (.emit acc) a s q p l) (at' t f td .exR a s q p (l ++ acc.map (fun e => .told t e.1 e.2)))
  | [], l => .step (by simp [DlC.step, at', St.go, thr_collapse])
  | e :: acc, l => by
    have h1 : Goes c t (at' t f td (.emit (e :: acc)) a s q p l) (at' t f td (.emit acc) a s q p (l ++ [.told t e.1 e.2])) :=
      .step (by simp only [DlC.step, at', St.go, St.say, if_pos, thr_collapse])
    have h2 := goes_emit acc (l ++ [.told t e.1 e.2])
    rw [List.append_assoc] at h2
    exact h1.trans h2

/-- The delay ends with nothing to do. -/
theorem goes_out : Goes c t (at' t f td .exR a 1 [] p l) (at' t f td .idle a 0 [] p (l ++ [.done t])) := by
  have h1 : Goes c t (at' t f td .exR a 1 [] p l) (at' t f td (.exW 1) a 1 [] p l) := .step (by simp only [DlC.step, at', St.go, if_pos, thr_collapse])
  have h2 : Goes c t (at' t f td (.exW 1) a 1 [] p l) (at' t f td .ckSem a 0 [] p l) := .step (by simp only [DlC.step, at', St.go, if_pos, thr_collapse]; rfl)
  have h3 : Goes c t (at' t f td .ckSem a 0 [] p l) (at' t f td .ckLen a 0 [] p l) := .step (by simp [DlC.step, at', St.go, thr_collapse])
  have h4 : Goes c t (at' t f td .ckLen a 0 [] p l) (at' t f td .idle a 0 [] p (l ++ [.done t])) := .step (by simp [DlC.step, at', St.go, St.say, thr_collapse])
  exact ((h1.trans h2).trans h3).trans h4

/-- What an assignment tells that changes the fields from `a` to `b`. -/
def tells (c : Cls) (n : Nat) (a b : Nat → Nat) : List (Nat × Nat) :=
  if c.eq n (c.get n a) (c.get n b) then []
  else (n, c.get n b) :: (c.deps n).filterMap (fun m => if c.eq m (c.get m a) (c.get m b) then none else some (m, c.get m b))

/-- From the end of the first delay on. -/
theorem goes_check {n : Nat} {b : Nat → Nat} (hn : (n :: c.deps n).Nodup) :
    Goes c t (at' t f td .exR b 1 ((n :: c.deps n).map (fun m => (m, c.get m a))) [n] l)
      (at' t f td .idle b 0 [] [] (l ++ (tells c n a b).map (fun e => .told t e.1 e.2) ++ [.done t])) := by
  obtain ⟨q, hq⟩ : ∃ q, q = (c.deps n).map (fun m => (m, c.get m a)) := ⟨_, rfl⟩
  have hd : differ c b q = (c.deps n).filterMap (fun m => if c.eq m (c.get m a) (c.get m b) then none else some (m, c.get m b)) := by
    rw [hq, differ, List.filterMap_map]; rfl
  have hf : q.filter (fun e => e.1 != n) = q := by
    rw [List.filter_eq_self]
    intro e he
    rw [hq] at he
    obtain ⟨m, hm, rfl⟩ := List.mem_map.mp he
    have : m ≠ n := fun e => (List.nodup_cons.mp hn).1 (e ▸ hm)
    simpa using this
  rw [List.map_cons, ← hq]
  obtain ⟨x, hx⟩ : ∃ x, x = c.get n a := ⟨_, rfl⟩
  obtain ⟨y, hy⟩ : ∃ y, y = c.get n b := ⟨_, rfl⟩
  have h1 : Goes c t (at' t f td .exR b 1 ((n, x) :: q) [n] l) (at' t f td (.exW 1) b 1 ((n, x) :: q) [n] l) := .step (by simp only [DlC.step, at', St.go, if_pos, thr_collapse])
  have h2 : Goes c t (at' t f td (.exW 1) b 1 ((n, x) :: q) [n] l) (at' t f td .ckSem b 0 ((n, x) :: q) [n] l) := .step (by simp only [DlC.step, at', St.go, if_pos, thr_collapse]; rfl)
  have h3 : Goes c t (at' t f td .ckSem b 0 ((n, x) :: q) [n] l) (at' t f td .ckLen b 0 ((n, x) :: q) [n] l) := .step (by simp [DlC.step, at', St.go, thr_collapse])
  have h4 : Goes c t (at' t f td .ckLen b 0 ((n, x) :: q) [n] l) (at' t f td .pIter b 0 ((n, x) :: q) [n] l) := .step (by simp [DlC.step, at', St.go, thr_collapse])
  have h5 : Goes c t (at' t f td .pIter b 0 ((n, x) :: q) [n] l) (at' t f td (.pNext 0 1 []) b 0 ((n, x) :: q) [n] l) := .step (by simp [DlC.step, at', St.go, thr_collapse])
  have h6 : Goes c t (at' t f td (.pNext 0 1 []) b 0 ((n, x) :: q) [n] l) (at' t f td (.pOld n 0 1 []) b 0 ((n, x) :: q) [n] l) := .step (by simp [DlC.step, at', St.go, thr_collapse])
  have h7 : Goes c t (at' t f td (.pOld n 0 1 []) b 0 ((n, x) :: q) [n] l) (at' t f td (.pNew n x 0 1 []) b 0 ((n, x) :: q) [n] l) := .step (by simp [DlC.step, at', St.go, thr_collapse])
  have h8 : Goes c t (at' t f td (.pNew n x 0 1 []) b 0 ((n, x) :: q) [n] l) (at' t f td (.pPop n 0 1 (if c.eq n x y then [] else [(n, y)])) b 0 ((n, x) :: q) [n] l) :=
    .step (by rw [hy]; simp only [DlC.step, at', St.go, if_pos, thr_collapse, List.nil_append]; rfl)
  have h9 : Goes c t (at' t f td (.pPop n 0 1 (if c.eq n x y then [] else [(n, y)])) b 0 ((n, x) :: q) [n] l)
      (at' t f td (.pNext 1 1 (if c.eq n x y then [] else [(n, y)])) b 0 q [n] l) := .step (by simp [DlC.step, at', St.go, thr_collapse, hf])
  have h := (((((((h1.trans h2).trans h3).trans h4).trans h5).trans h6).trans h7).trans h8).trans h9
  rw [← hx]
  refine h.trans ?_
  unfold tells
  rw [← hx, ← hy, ← hd]
  by_cases hb : c.eq n x y = true
  · rw [if_pos hb, if_pos hb]
    have k1 : Goes c t (at' t f td (.pNext 1 1 []) b 0 q [n] l) (at' t f td (.clearQ []) b 0 q [n] l) := .step (by simp [DlC.step, at', St.go, thr_collapse])
    have k2 : Goes c t (at' t f td (.clearQ []) b 0 q [n] l) (at' t f td (.clearP []) b 0 [] [n] l) := .step (by simp only [DlC.step, at', St.go, if_pos, thr_collapse])
    have k3 : Goes c t (at' t f td (.clearP []) b 0 [] [n] l) (at' t f td .idle b 0 [] [] (l ++ [.done t])) := .step (by simp [DlC.step, at', St.go, St.say, thr_collapse])
    simpa using (k1.trans k2).trans k3
  · rw [if_neg hb, if_neg hb]
    have k1 : Goes c t (at' t f td (.pNext 1 1 [(n, y)]) b 0 q [n] l) (at' t f td (.dIter [(n, y)]) b 0 q [n] l) := .step (by simp [DlC.step, at', St.go, thr_collapse])
    have k2 : Goes c t (at' t f td (.dIter [(n, y)]) b 0 q [n] l) (at' t f td (.dNext 0 q.length [(n, y)]) b 0 q [n] l) := .step (by simp only [DlC.step, at', St.go, if_pos, thr_collapse])
    have k3 := goes_deps (c := c) (t := t) (f := f) (td := td) (a := b) (s := 0) (p := [n]) (l := l) [] q [(n, y)]
    simp only [List.nil_append, List.length_nil, List.cons_append] at k3
    obtain ⟨d, hd'⟩ : ∃ d, d = (n, y) :: differ c b q := ⟨_, rfl⟩
    have hne : d ≠ [] := by rw [hd']; exact nofun
    rw [← hd'] at k3 ⊢
    have k4 : Goes c t (at' t f td (.clearQ d) b 0 q [n] l) (at' t f td (.clearP d) b 0 [] [n] l) := .step (by simp only [DlC.step, at', St.go, if_pos, thr_collapse])
    have k5 : Goes c t (at' t f td (.clearP d) b 0 [] [n] l) (at' t f td (.eR d) b 0 [] [] l) := .step (by simp [DlC.step, at', St.go, thr_collapse, hne])
    have k6 : Goes c t (at' t f td (.eR d) b 0 [] [] l) (at' t f td (.eW 0 d) b 0 [] [] l) := .step (by simp only [DlC.step, at', St.go, if_pos, thr_collapse])
    have k7 : Goes c t (at' t f td (.eW 0 d) b 0 [] [] l) (at' t f td (.emit d) b 1 [] [] l) := .step (by simp only [DlC.step, at', St.go, if_pos, thr_collapse]; rfl)
    exact (((((((k1.trans k2).trans k3).trans k4).trans k5).trans k6).trans k7).trans (goes_emit d l)).trans goes_out

/-- One assignment of a thread that is alone, on a quiet model. -/
theorem goes_set {n v : Nat} {r : List (Nat × Nat)} (hn : (n :: c.deps n).Nodup) (htd : td t = (n, v) :: r) :
    Goes c t (at' t f td .idle a 0 [] [] l)
      (at' t f (fun u => if u = t then r else td u) .idle (fun m => if m = n then v else a m) 0 [] []
        (l ++ [.call t n v, .wrote t n v] ++ (tells c n a (fun m => if m = n then v else a m)).map (fun e => .told t e.1 e.2) ++ [.done t])) := by
  obtain ⟨td', htd'⟩ : ∃ td' : Nat → List (Nat × Nat), td' = fun u => if u = t then r else td u := ⟨_, rfl⟩
  rw [← htd']
  have h1 : Goes c t (at' t f td .idle a 0 [] [] l) (at' t f td' (.semR n v) a 0 [] [] (l ++ [.call t n v])) :=
    .step (by simp [DlC.step, at', St.go, St.say, thr_collapse, htd, htd'])
  have h2 : Goes c t (at' t f td' (.semR n v) a 0 [] [] (l ++ [.call t n v])) (at' t f td' (.semW n v 0) a 0 [] [] (l ++ [.call t n v])) :=
    .step (by simp only [DlC.step, at', St.go, if_pos, thr_collapse])
  have h3 : Goes c t (at' t f td' (.semW n v 0) a 0 [] [] (l ++ [.call t n v])) (at' t f td' (.add n v) a 1 [] [] (l ++ [.call t n v])) :=
    .step (by simp only [DlC.step, at', St.go, if_pos, thr_collapse]; rfl)
  have h4 : Goes c t (at' t f td' (.add n v) a 1 [] [] (l ++ [.call t n v])) (at' t f td' (.qTest n v (n :: c.deps n)) a 1 [] [n] (l ++ [.call t n v])) :=
    .step (by simp [DlC.step, at', St.go, thr_collapse])
  have h5 := goes_fill (c := c) (t := t) (f := f) (td := td') (a := a) (s := 1) (p := [n]) (l := l ++ [.call t n v]) (n := n) (v := v)
    (n :: c.deps n) [] hn (fun _ _ _ he => absurd he List.not_mem_nil)
  rw [List.nil_append] at h5
  have h6 : Goes c t (at' t f td' (.store n v) a 1 ((n :: c.deps n).map (fun m => (m, c.get m a))) [n] (l ++ [.call t n v]))
      (at' t f td' .exR (fun m => if m = n then v else a m) 1 ((n :: c.deps n).map (fun m => (m, c.get m a))) [n] (l ++ [.call t n v, .wrote t n v])) :=
    .step (by simp [DlC.step, at', St.go, St.say, thr_collapse])
  exact (((((h1.trans h2).trans h3).trans h4).trans h5).trans h6).trans (goes_check hn)

end

end Psygnal.DlC
