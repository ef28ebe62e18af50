import Verif.DelayConcAlone

/-! # Lemmas for C93: assignments that do not overlap -/
namespace Psygnal.DlC

/-- The last value of `m` that was told, `x` if none. -/
def mirror (x : Nat) (l : List Ev) (m : Nat) : Nat :=
  l.foldl (fun x e => match e with | .told _ k y => if k = m then y else x | _ => x) x

theorem mirror_append (x : Nat) (l1 l2 : List Ev) (m : Nat) : mirror x (l1 ++ l2) m = mirror (mirror x l1 m) l2 m := List.foldl_append

theorem mirror_tells {t m : Nat} : ∀ (ts : List (Nat × Nat)) (x : Nat), (∀ y, (m, y) ∉ ts) → mirror x (ts.map (fun e => .told t e.1 e.2)) m = x
  | [], _, _ => rfl
  | e :: ts, x, h => by
    have he : e.1 ≠ m := fun h1 => h e.2 (by rw [← h1]; exact List.mem_cons_self)
    show mirror (if e.1 = m then e.2 else x) (ts.map (fun e => .told t e.1 e.2)) m = x
    rw [if_neg he]
    exact mirror_tells ts x (fun y hy => h y (List.mem_cons_of_mem _ hy))

theorem mirror_told {t m y : Nat} : ∀ (ts : List (Nat × Nat)) (x : Nat), (∀ z, (m, z) ∈ ts → z = y) → (m, y) ∈ ts →
    mirror x (ts.map (fun e => .told t e.1 e.2)) m = y
  | [], _, _, h => absurd h List.not_mem_nil
  | e :: ts, x, h, hm => by
    show mirror (if e.1 = m then e.2 else x) (ts.map (fun e => .told t e.1 e.2)) m = y
    by_cases hy : (m, y) ∈ ts
    · exact mirror_told ts _ (fun z hz => h z (List.mem_cons_of_mem _ hz)) hy
    · have he : e = (m, y) := by
        rcases List.mem_cons.mp hm with h1 | h1
        · exact h1.symm
        · exact absurd h1 hy
      rw [mirror_tells ts _ (fun z hz => hy (by rw [← h z (List.mem_cons_of_mem _ hz)]; exact hz)), he, if_pos rfl]

/-- What is told by an assignment is right. -/
theorem mirror_set {c : Cls} {t n v m : Nat} {a : Nat → Nat} (heq : ∀ k x y, c.eq k x y = true → x = y) (hf : c.prop n = none)
    (hd : m ∉ n :: c.deps n → c.get m (fun k => if k = n then v else a k) = c.get m a) :
    mirror (c.get m a) ((tells c n a (fun k => if k = n then v else a k)).map (fun e => .told t e.1 e.2)) m = c.get m (fun k => if k = n then v else a k) := by
  obtain ⟨b, hb⟩ : ∃ b : Nat → Nat, b = fun k => if k = n then v else a k := ⟨_, rfl⟩
  rw [← hb] at hd ⊢
  by_cases hq : c.eq n (c.get n a) (c.get n b) = true
  · have h1 := heq _ _ _ hq
    have h2 : b = a := by
      have h3 : a n = b n := by simpa [Cls.get, hf] using h1
      funext k
      by_cases hk : k = n
      · rw [hk, h3]
      · rw [hb]; exact if_neg hk
    rw [tells, if_pos hq, h2]
    rfl
  · have hsame : ∀ z, (m, z) ∈ tells c n a b → z = c.get m b := by
      intro z hz
      rw [tells, if_neg hq] at hz
      rcases List.mem_cons.mp hz with hz | hz
      · cases hz; rfl
      · obtain ⟨k, _, hk⟩ := List.mem_filterMap.mp hz
        split at hk
        · cases hk
        · cases hk; rfl
    by_cases hm : (m, c.get m b) ∈ tells c n a b
    · exact mirror_told _ _ hsame hm
    · rw [mirror_tells _ _ (fun z hz => hm (by rw [← hsame z hz]; exact hz))]
      rw [tells, if_neg hq] at hm
      by_cases hmn : m ∈ n :: c.deps n
      · rcases List.mem_cons.mp hmn with h | h
        · exact absurd (by rw [h]; exact List.mem_cons_self) hm
        · by_cases he : c.eq m (c.get m a) (c.get m b) = true
          · exact heq _ _ _ he
          · exact absurd (List.mem_cons_of_mem _ (List.mem_filterMap.mpr ⟨m, h, by rw [if_neg he]⟩)) hm
      · exact (hd hmn).symm

/-- Nobody assigns, nothing is left over, and the listeners are right. -/
structure Quiet (c : Cls) (a0 : Nat → Nat) (σ : St) : Prop where
  idle : ∀ t, σ.thr t = .idle
  sem : σ.sem = 0
  queue : σ.queue = []
  prim : σ.prim = []
  right : ∀ m, mirror (c.get m a0) σ.log m = c.get m σ.attr
  todo : ∀ t n v, (n, v) ∈ σ.todo t → c.prop n = none

theorem Quiet.at' {c : Cls} {a0 : Nat → Nat} {σ : St} (h : Quiet c a0 σ) (t : Nat) : σ = at' t (fun _ => .idle) σ.todo .idle σ.attr 0 [] [] σ.log := by
  obtain ⟨a, s, q, p, th, td, l⟩ := σ
  obtain ⟨h1, h2, h3, h4, _, _⟩ := h
  dsimp only at h1 h2 h3 h4
  subst h2 h3 h4
  have : th = fun u => if u = t then .idle else .idle := by
    funext u
    rw [h1 u]
    split <;> rfl
  rw [this]
  rfl

theorem step_other (c : Cls) (σ : St) (t u : Nat) (hu : u ≠ t) : (step c σ t).thr u = σ.thr u := by
  rcases shape c σ t with h1 | ⟨_, _, _, y, ht, _, _, _⟩ | ⟨_, _, _, y, ht, _, _, _⟩ | ⟨_, _, _, ht, _, _⟩ | ⟨_, y, ht, _, _, _, _⟩ |
    ⟨_, _, _, _, ht, _, _⟩ | ⟨_, _, _, ht, _, _⟩
  · rw [h1]
  all_goals rw [ht]; exact if_neg hu

theorem step_todo (c : Cls) (σ : St) (t u : Nat) (hu : u ≠ t) : (step c σ t).todo u = σ.todo u := by
  unfold step
  repeat' split
  all_goals first
    | rfl
    | exact if_neg hu

theorem run_other (c : Cls) (t u : Nat) (hu : u ≠ t) : ∀ (k : Nat) (σ : St), (run c (List.replicate k t) σ).thr u = σ.thr u
  | 0, _ => rfl
  | k + 1, σ => (run_other c t u hu k (step c σ t)).trans (step_other c σ t u hu)

theorem run_succ (c : Cls) (t k : Nat) (σ : St) : run c (List.replicate (k + 1) t) σ = step c (run c (List.replicate k t) σ) t := by
  rw [← List.replicate_append_replicate, run_append]; rfl

/-- A quiet state or one in the middle of an assignment that began in one. -/
inductive Good (c : Cls) (a0 : Nat → Nat) (σ : St) : Prop
  | quiet (h : Quiet c a0 σ)
  | busy (t : Nat) (σ0 : St) (j k : Nat) (h0 : Quiet c a0 σ0) (hj : 0 < j) (hk : j < k) (hσ : run c (List.replicate j t) σ0 = σ)
      (hn : ∀ i, 0 < i → i < k → (run c (List.replicate i t) σ0).thr t ≠ .idle) (he : Quiet c a0 (run c (List.replicate k t) σ0))

/-- At most one thread assigns. -/
def One (σ : St) : Prop := ∀ t u, σ.thr t ≠ .idle → σ.thr u ≠ .idle → t = u

theorem quiet_set {c : Cls} {a0 : Nat → Nat} (heq : ∀ k x y, c.eq k x y = true → x = y) (hnd : ∀ n, (n :: c.deps n).Nodup)
    (hd : ∀ n m (a : Nat → Nat) v, c.prop n = none → m ∉ n :: c.deps n → c.get m (fun k => if k = n then v else a k) = c.get m a)
    {σ : St} (h : Quiet c a0 σ) {t n v : Nat} {r : List (Nat × Nat)} (ht : σ.todo t = (n, v) :: r) :
    ∃ k, 0 < k ∧ Quiet c a0 (run c (List.replicate k t) σ) ∧ ∀ i, 0 < i → i < k → (run c (List.replicate i t) σ).thr t ≠ .idle := by
  have hf : c.prop n = none := h.todo t n v (by rw [ht]; exact List.mem_cons_self)
  obtain ⟨k, hk, hi⟩ := goes_set (c := c) (t := t) (f := fun _ => .idle) (td := σ.todo) (a := σ.attr) (l := σ.log) (hnd n) ht
  rw [← h.at' t] at hk hi
  refine ⟨k, Nat.pos_of_ne_zero (fun h0 => ?_), ?_, hi⟩
  · rw [h0] at hk
    have := congrArg (fun σ => σ.log.length) hk
    simp [run, at'] at this
  · rw [hk]
    refine ⟨fun u => ?_, rfl, rfl, rfl, fun m => ?_, fun u n' v' hm => ?_⟩
    · show (if u = t then Ctl.idle else .idle) = .idle
      split <;> rfl
    · show mirror _ (σ.log ++ [.call t n v, .wrote t n v] ++ _ ++ [.done t]) m = _
      rw [mirror_append, mirror_append, mirror_append, h.right m]
      exact mirror_set heq hf (hd n m σ.attr v hf)
    · have hm : (n', v') ∈ (if u = t then r else σ.todo u) := hm
      split at hm
      · exact h.todo t n' v' (by rw [ht]; exact List.mem_cons_of_mem _ hm)
      · exact h.todo u n' v' hm

theorem good_step {c : Cls} {a0 : Nat → Nat} (heq : ∀ k x y, c.eq k x y = true → x = y) (hnd : ∀ n, (n :: c.deps n).Nodup)
    (hd : ∀ n m (a : Nat → Nat) v, c.prop n = none → m ∉ n :: c.deps n → c.get m (fun k => if k = n then v else a k) = c.get m a)
    {σ : St} (h : Good c a0 σ) (u : Nat) (h1 : One (step c σ u)) : Good c a0 (step c σ u) := by
  rcases h with h | ⟨t, σ0, j, k, h0, hj, hk, hσ, hn, he⟩
  · cases ht : σ.todo u with
    | nil =>
      have : step c σ u = σ := by unfold step; rw [h.idle u]; simp [ht]
      rw [this]; exact .quiet h
    | cons p r =>
      obtain ⟨k, hk, hq, hi⟩ := quiet_set heq hnd hd h (t := u) (n := p.1) (v := p.2) (r := r) ht
      by_cases hk1 : k = 1
      · rw [hk1] at hq; exact .quiet hq
      · exact .busy u σ 1 k h (by omega) (by omega) rfl hi hq
  · by_cases hu : u = t
    · subst hu
      have hs : run c (List.replicate (j + 1) u) σ0 = step c σ u := by rw [run_succ, hσ]
      by_cases hjk : j + 1 = k
      · rw [← hs, hjk]; exact .quiet he
      · exact .busy u σ0 (j + 1) k h0 (by omega) (by omega) hs hn he
    · have hui : σ.thr u = .idle := by rw [← hσ, run_other c t u hu]; exact h0.idle u
      have hti : σ.thr t ≠ .idle := by rw [← hσ]; exact hn j hj hk
      cases ht : σ.todo u with
      | nil =>
        have : step c σ u = σ := by unfold step; rw [hui]; simp [ht]
        rw [this]; exact .busy t σ0 j k h0 hj hk hσ hn he
      | cons p r =>
        exfalso
        refine hu (h1 u t ?_ ?_)
        · unfold step
          rw [hui]
          simp [ht, St.go, St.say]
        · rw [step_other c σ u t (fun e => hu e.symm)]; exact hti

theorem good_run {c : Cls} {a0 : Nat → Nat} (heq : ∀ k x y, c.eq k x y = true → x = y) (hnd : ∀ n, (n :: c.deps n).Nodup)
    (hd : ∀ n m (a : Nat → Nat) v, c.prop n = none → m ∉ n :: c.deps n → c.get m (fun k => if k = n then v else a k) = c.get m a) :
    ∀ (s : List Nat) {σ : St}, Good c a0 σ → (∀ p q, s = p ++ q → One (run c p σ)) → Good c a0 (run c s σ)
  | [], _, h, _ => h
  | t :: s, _, h, h1 => good_run heq hnd hd s (good_step heq hnd hd h t (h1 [t] s rfl)) (fun p q e => h1 (t :: p) q (by rw [e]; rfl))

/-! ## In an assignment, going by the log -/

theorem only_split {t : Nat} {e : Ev} {r : List Ev} : ∀ {L l : List Ev}, only t L = l ++ e :: r → ∃ A B, L = A ++ e :: B ∧ only t B = r
  | [], l, h => by
    have := congrArg List.length h
    simp [only] at this
  | x :: L, l, h => by
    by_cases hx : (x.thread == t) = true
    · have h' : x :: only t L = l ++ e :: r := by rw [← h]; simp only [only, List.filter_cons, hx, if_true]
      cases l with
      | nil =>
        obtain ⟨h1, h2⟩ := List.cons.inj h'
        exact ⟨[], L, by rw [h1]; rfl, h2⟩
      | cons y l =>
        obtain ⟨A, B, h1, h2⟩ := only_split (L := L) (l := l) (List.cons.inj h').2
        exact ⟨x :: A, B, by rw [h1]; rfl, h2⟩
    · have h' : only t L = l ++ e :: r := by rw [← h]; simp only [only, List.filter_cons, hx]; rfl
      obtain ⟨A, B, h1, h2⟩ := only_split (L := L) (l := l) h'
      exact ⟨x :: A, B, by rw [h1]; rfl, h2⟩

theorem part_busy {t : Nat} {L : List Ev} {x : Ctl} (h : Part t L x) (hx : x ≠ .idle) :
    ∃ A n v B, L = A ++ .call t n v :: B ∧ .done t ∉ B ∧ ∀ r, .raised t r ∉ B := by
  obtain ⟨l, _, _, h2, h3⟩ := h
  have key : ∀ {B R : List Ev} {e : Ev}, only t B = R → e.thread = t → e ∉ R → e ∉ B := fun hB he hR hm =>
    hR (by rw [← hB]; exact List.mem_filter.mpr ⟨hm, by simpa using he⟩)
  cases hp : x.pre with
  | some p =>
    obtain ⟨A, B, h4, h5⟩ := only_split (h2 p.1 p.2 hp)
    exact ⟨A, p.1, p.2, B, h4, key h5 rfl List.not_mem_nil, fun r => key h5 rfl List.not_mem_nil⟩
  | none =>
    obtain ⟨n, v, ts, h4⟩ := h3 ⟨hx, hp⟩
    obtain ⟨A, B, h5, h6⟩ := only_split h4
    exact ⟨A, n, v, B, h5, key h6 rfl (by simp), fun r => key h6 rfl (by simp)⟩

end Psygnal.DlC
