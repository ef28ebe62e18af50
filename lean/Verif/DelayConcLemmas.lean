import Verif.DelayConc

/-! # Lemmas for C93 -/
namespace Psygnal.DlC

/-- The thread of an event. -/
def Ev.thread : Ev → Nat
  | .call t _ _ => t
  | .wrote t _ _ => t
  | .told t _ _ => t
  | .done t => t
  | .raised t _ => t

/-- The value of field `n` after what happened, if it was `a n` before. -/
def value (a : Nat → Nat) (l : List Ev) (n : Nat) : Nat :=
  l.foldl (fun x e => match e with | .wrote _ m v => if m = n then v else x | _ => x) (a n)

theorem value_snoc (a : Nat → Nat) (l : List Ev) (e : Ev) (n : Nat) :
    value a (l ++ [e]) n = match e with | .wrote _ m v => if m = n then v else value a l n | _ => value a l n := by
  simp only [value, List.foldl_append, List.foldl_cons, List.foldl_nil]

/-- Before storing: which assignment. -/
def Ctl.pre : Ctl → Option (Nat × Nat)
  | .semR n v => some (n, v)
  | .semW n v _ => some (n, v)
  | .add n v => some (n, v)
  | .qTest n v _ => some (n, v)
  | .qRead n v _ _ => some (n, v)
  | .qPut n v _ _ _ => some (n, v)
  | .store n v => some (n, v)
  | _ => none

/-- What a thread is going to tell. -/
def Ctl.acc : Ctl → List (Nat × Nat)
  | .pNext _ _ acc => acc
  | .pOld _ _ _ acc => acc
  | .pNew _ _ _ _ acc => acc
  | .pPop _ _ _ acc => acc
  | .dIter acc => acc
  | .dNext _ _ acc => acc
  | .dNew _ _ _ _ acc => acc
  | .clearQ acc => acc
  | .clearP acc => acc
  | .eR acc => acc
  | .eW _ acc => acc
  | .emit acc => acc
  | _ => []

/-- After storing. -/
def Ctl.post (x : Ctl) : Prop := x ≠ .idle ∧ x.pre = none

/-- A step, as far as the log, the fields and what a thread is going to tell are concerned. -/
inductive Shape (c : Cls) (σ : St) (t : Nat) (τ : St) : Prop
  | stay (h : τ = σ)
  | begins (n v : Nat) (hx : σ.thr t = .idle) (y : Ctl) (ht : τ.thr = fun u => if u = t then y else σ.thr u) (hy : y.pre = some (n, v))
      (ha : τ.attr = σ.attr) (hl : τ.log = σ.log ++ [.call t n v])
  | before (n v : Nat) (hx : (σ.thr t).pre = some (n, v)) (y : Ctl) (ht : τ.thr = fun u => if u = t then y else σ.thr u) (hy : y.pre = some (n, v))
      (ha : τ.attr = σ.attr) (hl : τ.log = σ.log)
  | stores (n v : Nat) (hx : (σ.thr t).pre = some (n, v)) (ht : τ.thr = fun u => if u = t then .exR else σ.thr u)
      (ha : τ.attr = fun m => if m = n then v else σ.attr m) (hl : τ.log = σ.log ++ [.wrote t n v])
  | after (hx : (σ.thr t).post) (y : Ctl) (ht : τ.thr = fun u => if u = t then y else σ.thr u) (hy : y.post)
      (hc : ∀ e ∈ y.acc, e ∈ (σ.thr t).acc ∨ e.2 = c.get e.1 σ.attr) (ha : τ.attr = σ.attr) (hl : τ.log = σ.log)
  | tells (m x : Nat) (acc : List (Nat × Nat)) (hx : σ.thr t = .emit ((m, x) :: acc)) (ht : τ.thr = fun u => if u = t then .emit acc else σ.thr u)
      (ha : τ.attr = σ.attr) (hl : τ.log = σ.log ++ [.told t m x])
  | ends (hx : (σ.thr t).post) (e : Ev) (he : e = .done t ∨ ∃ r, e = .raised t r) (ht : τ.thr = fun u => if u = t then .idle else σ.thr u)
      (ha : τ.attr = σ.attr) (hl : τ.log = σ.log ++ [e])

theorem acc_add {c : Cls} {m old : Nat} {a : Nat → Nat} {acc : List (Nat × Nat)} {e : Nat × Nat}
    (h : e ∈ (if c.eq m old (c.get m a) then acc else acc ++ [(m, c.get m a)])) : e ∈ acc ∨ e.2 = c.get e.1 a := by
  split at h
  · exact .inl h
  · rcases List.mem_append.mp h with h | h
    · exact .inl h
    · rw [List.mem_singleton.mp h]; exact .inr rfl

theorem shape (c : Cls) (σ : St) (t : Nat) : Shape c σ t (step c σ t) := by
  have P : ∀ {x : Ctl}, σ.thr t = x → x ≠ .idle → x.pre = none → (σ.thr t).post := fun h h1 h2 => by rw [h]; exact ⟨h1, h2⟩
  have Q : ∀ {x : Ctl} {n v : Nat}, σ.thr t = x → x.pre = some (n, v) → (σ.thr t).pre = some (n, v) := fun h h1 => by rw [h]; exact h1
  have K : ∀ {x y : Ctl}, σ.thr t = x → (∀ e ∈ y.acc, e ∈ x.acc) → ∀ e ∈ y.acc, e ∈ (σ.thr t).acc ∨ e.2 = c.get e.1 σ.attr :=
    fun h h1 e he => .inl (by rw [h]; exact h1 e he)
  have N : ∀ {l : List (Nat × Nat)}, ∀ e ∈ ([] : List (Nat × Nat)), e ∈ l := fun e he => absurd he List.not_mem_nil
  unfold step
  split <;> rename_i hx
  · split
    · exact .stay rfl
    · exact .begins _ _ hx _ rfl rfl rfl rfl
  · exact .before _ _ (Q hx rfl) _ rfl rfl rfl rfl
  · exact .before _ _ (Q hx rfl) _ rfl rfl rfl rfl
  · exact .before _ _ (Q hx rfl) _ rfl rfl rfl rfl
  · exact .before _ _ (Q hx rfl) _ rfl rfl rfl rfl
  · split
    · exact .before _ _ (Q hx rfl) _ rfl rfl rfl rfl
    · exact .before _ _ (Q hx rfl) _ rfl rfl rfl rfl
  · exact .before _ _ (Q hx rfl) _ rfl rfl rfl rfl
  · exact .before _ _ (Q hx rfl) _ rfl rfl rfl rfl
  · exact .stores _ _ (Q hx rfl) rfl rfl rfl
  · exact .after (P hx nofun rfl) _ rfl ⟨nofun, rfl⟩ (K hx N) rfl rfl
  · exact .after (P hx nofun rfl) _ rfl ⟨nofun, rfl⟩ (K hx N) rfl rfl
  · split
    · exact .ends (P hx nofun rfl) _ (.inl rfl) rfl rfl rfl
    · exact .after (P hx nofun rfl) _ rfl ⟨nofun, rfl⟩ (K hx N) rfl rfl
  · split
    · exact .ends (P hx nofun rfl) _ (.inl rfl) rfl rfl rfl
    · exact .after (P hx nofun rfl) _ rfl ⟨nofun, rfl⟩ (K hx N) rfl rfl
  · exact .after (P hx nofun rfl) _ rfl ⟨nofun, rfl⟩ (K hx N) rfl rfl
  · split
    · exact .ends (P hx nofun rfl) _ (.inr ⟨_, rfl⟩) rfl rfl rfl
    · split
      · exact .after (P hx nofun rfl) _ rfl ⟨nofun, rfl⟩ (K hx (fun _ h => h)) rfl rfl
      · split
        · exact .after (P hx nofun rfl) _ rfl ⟨nofun, rfl⟩ (K hx N) rfl rfl
        · exact .after (P hx nofun rfl) _ rfl ⟨nofun, rfl⟩ (K hx (fun _ h => h)) rfl rfl
  · split
    · exact .after (P hx nofun rfl) _ rfl ⟨nofun, rfl⟩ (K hx (fun _ h => h)) rfl rfl
    · exact .ends (P hx nofun rfl) _ (.inr ⟨_, rfl⟩) rfl rfl rfl
  · exact .after (P hx nofun rfl) _ rfl ⟨nofun, rfl⟩ (fun e he => by rw [hx]; exact acc_add he) rfl rfl
  · split
    · exact .after (P hx nofun rfl) _ rfl ⟨nofun, rfl⟩ (K hx (fun _ h => h)) rfl rfl
    · exact .ends (P hx nofun rfl) _ (.inr ⟨_, rfl⟩) rfl rfl rfl
  · exact .after (P hx nofun rfl) _ rfl ⟨nofun, rfl⟩ (K hx (fun _ h => h)) rfl rfl
  · split
    · exact .ends (P hx nofun rfl) _ (.inr ⟨_, rfl⟩) rfl rfl rfl
    · split
      · exact .after (P hx nofun rfl) _ rfl ⟨nofun, rfl⟩ (K hx (fun _ h => h)) rfl rfl
      · exact .after (P hx nofun rfl) _ rfl ⟨nofun, rfl⟩ (K hx (fun _ h => h)) rfl rfl
  · exact .after (P hx nofun rfl) _ rfl ⟨nofun, rfl⟩ (fun e he => by rw [hx]; exact acc_add he) rfl rfl
  · exact .after (P hx nofun rfl) _ rfl ⟨nofun, rfl⟩ (K hx (fun _ h => h)) rfl rfl
  · split
    · exact .ends (P hx nofun rfl) _ (.inl rfl) rfl rfl rfl
    · exact .after (P hx nofun rfl) _ rfl ⟨nofun, rfl⟩ (K hx (fun _ h => h)) rfl rfl
  · exact .after (P hx nofun rfl) _ rfl ⟨nofun, rfl⟩ (K hx (fun _ h => h)) rfl rfl
  · exact .after (P hx nofun rfl) _ rfl ⟨nofun, rfl⟩ (K hx (fun _ h => h)) rfl rfl
  · exact .after (P hx nofun rfl) _ rfl ⟨nofun, rfl⟩ (K hx N) rfl rfl
  · exact .tells _ _ _ hx rfl rfl rfl

/-- An invariant of the run. -/
theorem run_inv {c : Cls} {I : St → Prop} (h : ∀ σ t, I σ → I (step c σ t)) : ∀ (s : List Nat) {σ : St}, I σ → I (run c s σ)
  | [], _, h0 => h0
  | t :: s, _, h0 => run_inv h s (h _ t h0)

/-! ## The values -/

theorem value_step {c : Cls} {a : Nat → Nat} (σ : St) (t : Nat) (h : σ.attr = value a σ.log) : (step c σ t).attr = value a (step c σ t).log := by
  rcases shape c σ t with h1 | ⟨n, v, _, y, _, _, ha, hl⟩ | ⟨n, v, _, y, _, _, ha, hl⟩ | ⟨n, v, _, _, ha, hl⟩ | ⟨_, y, _, _, _, ha, hl⟩ |
    ⟨m, x, acc, _, _, ha, hl⟩ | ⟨_, e, he, _, ha, hl⟩
  · rw [h1]; exact h
  · rw [ha, hl, h]; funext k; rw [value_snoc]
  · rw [ha, hl, h]
  · rw [ha, hl, h]; funext k; rw [value_snoc]
    by_cases hk : k = n
    · simp [hk]
    · have hk' : ¬ n = k := fun e => hk e.symm
      simp [hk, hk']
  · rw [ha, hl, h]
  · rw [ha, hl, h]; funext k; rw [value_snoc]
  · rw [ha, hl, h]; funext k; rw [value_snoc]
    rcases he with rfl | ⟨r, rfl⟩ <;> rfl

theorem value_last {a : Nat → Nat} {n t v : Nat} {l1 : List Ev} : ∀ (l2 : List Ev), (∀ u w, .wrote u n w ∉ l2) → value a (l1 ++ .wrote t n v :: l2) n = v := by
  have key : ∀ (l2 : List Ev) (x : Nat), (∀ u w, .wrote u n w ∉ l2) →
      l2.foldl (fun x e => match e with | .wrote _ m v => if m = n then v else x | _ => x) x = x := by
    intro l2
    induction l2 with
    | nil => intro x _; rfl
    | cons e l ih =>
      intro x h
      rw [List.foldl_cons, ih _ (fun u w hw => h u w (List.mem_cons_of_mem _ hw))]
      cases e with
      | wrote u m w =>
        have : m ≠ n := fun e => h u w (by rw [e]; exact List.mem_cons_self)
        simp [this]
      | _ => rfl
  intro l2 h
  simp only [value, List.foldl_append, List.foldl_cons, if_pos]
  exact key l2 v h

theorem value_none {a : Nat → Nat} {n : Nat} : ∀ (l : List Ev), (∀ u w, .wrote u n w ∉ l) → value a l n = a n := by
  intro l h
  have := value_last (a := a) (n := n) (t := 0) (v := a n) (l1 := []) l h
  simpa [value] using this

/-! ## What is told -/

/-- What has happened in the current assignment of `t`. -/
structure Seen (c : Cls) (a : Nat → Nat) (t : Nat) (L : List Ev) (x : Ctl) : Prop where
  post : x.post → ∃ A n v B, L = A ++ .wrote t n v :: B ∧ (∀ e ∈ B, e.thread = t → ∃ m y, e = .told t m y) ∧
    ∀ e ∈ x.acc, ∃ B1 B2, B = B1 ++ B2 ∧ e.2 = c.get e.1 (value a (A ++ .wrote t n v :: B1))

theorem seen_snoc {c : Cls} {a : Nat → Nat} {t : Nat} {L : List Ev} {x : Ctl} (h : Seen c a t L x) {e : Ev} (he : e.thread = t → ∃ m y, e = .told t m y) :
    Seen c a t (L ++ [e]) x := ⟨fun hp => by
  obtain ⟨A, n, v, B, h1, h2, h3⟩ := h.post hp
  refine ⟨A, n, v, B ++ [e], by rw [h1]; simp, fun f hf => ?_, fun f hf => ?_⟩
  · rcases List.mem_append.mp hf with hf | hf
    · exact h2 f hf
    · rw [List.mem_singleton.mp hf]; exact he
  · obtain ⟨B1, B2, h4, h5⟩ := h3 f hf
    exact ⟨B1, B2 ++ [e], by rw [h4]; simp, h5⟩⟩

theorem not_post_pre {x : Ctl} {p : Nat × Nat} (h : x.pre = some p) : ¬ x.post := fun hp => by rw [hp.2] at h; cases h

theorem not_post_idle : ¬ Ctl.idle.post := fun h => h.1 rfl

/-- The invariant: fields, what is going to be told, and what was told. -/
structure Inv (c : Cls) (a : Nat → Nat) (σ : St) : Prop where
  attr : σ.attr = value a σ.log
  seen : ∀ t, Seen c a t σ.log (σ.thr t)
  told : ∀ l1 t m x l2, σ.log = l1 ++ .told t m x :: l2 → ∃ A n v B C, l1 = A ++ .wrote t n v :: (B ++ C) ∧
    (∀ e ∈ B ++ C, e.thread = t → ∃ m y, e = .told t m y) ∧ x = c.get m (value a (A ++ .wrote t n v :: B))

theorem snoc_split {L l1 l2 : List Ev} {e f : Ev} (h : L ++ [e] = l1 ++ f :: l2) : (L = l1 ∧ e = f ∧ l2 = []) ∨ ∃ l3, L = l1 ++ f :: l3 ∧ l2 = l3 ++ [e] := by
  rcases List.eq_nil_or_concat l2 with rfl | ⟨l3, z, rfl⟩
  · have := List.append_inj' h rfl
    exact .inl ⟨this.1, (by have := this.2; cases this; rfl), rfl⟩
  · have h' : L ++ [e] = (l1 ++ f :: l3) ++ [z] := by rw [h]; simp
    have := List.append_inj' h' rfl
    refine .inr ⟨l3, this.1, ?_⟩
    have h2 := this.2
    cases h2
    simp

theorem inv_step {c : Cls} {a : Nat → Nat} (σ : St) (t : Nat) (h : Inv c a σ) : Inv c a (step c σ t) := by
  have hv := value_step (c := c) (a := a) σ t h.attr
  have other : ∀ {e : Ev} {u : Nat}, e.thread = t → u ≠ t → Seen c a u (σ.log ++ [e]) (σ.thr u) := fun he hu =>
    seen_snoc (h.seen _) (fun h1 => absurd (h1.symm.trans he) hu)
  have keep : ∀ {e : Ev}, (∀ u m x, e ≠ .told u m x) → ∀ l1 u m x l2, σ.log ++ [e] = l1 ++ .told u m x :: l2 →
      ∃ A n v B C, l1 = A ++ .wrote u n v :: (B ++ C) ∧ (∀ e ∈ B ++ C, e.thread = u → ∃ m y, e = .told u m y) ∧
      x = c.get m (value a (A ++ .wrote u n v :: B)) := fun he l1 u m x l2 hl => by
    rcases snoc_split hl with ⟨_, h2, _⟩ | ⟨l3, h2, _⟩
    · exact absurd h2 (he u m x)
    · exact h.told l1 u m x l3 h2
  rcases shape c σ t with h1 | ⟨n, v, hx, y, ht, hy, ha, hl⟩ | ⟨n, v, hx, y, ht, hy, ha, hl⟩ | ⟨n, v, hx, ht, ha, hl⟩ | ⟨hx, y, ht, hy, hc, ha, hl⟩ |
    ⟨m, x, acc, hx, ht, ha, hl⟩ | ⟨hx, e, he, ht, ha, hl⟩
  · rw [h1]; exact h
  · refine ⟨hv, fun u => ?_, ?_⟩
    · rw [ht, hl]
      dsimp only
      split
      · exact ⟨fun hp => absurd hp (not_post_pre hy)⟩
      · rename_i hu; exact other rfl hu
    · rw [hl]; exact keep nofun
  · refine ⟨hv, fun u => ?_, ?_⟩
    · rw [ht, hl]
      dsimp only
      split
      · exact ⟨fun hp => absurd hp (not_post_pre hy)⟩
      · exact h.seen u
    · rw [hl]; exact h.told
  · refine ⟨hv, fun u => ?_, ?_⟩
    · rw [ht, hl]
      dsimp only
      split
      · rename_i hu
        subst hu
        exact ⟨fun _ => ⟨σ.log, n, v, [], rfl, fun _ h => absurd h List.not_mem_nil, fun _ h => absurd h List.not_mem_nil⟩⟩
      · rename_i hu; exact other rfl hu
    · rw [hl]; exact keep nofun
  · refine ⟨hv, fun u => ?_, ?_⟩
    · rw [ht, hl]
      dsimp only
      split
      · rename_i hu
        subst hu
        obtain ⟨A, n, v, B, h1, h2, h3⟩ := (h.seen u).post hx
        refine ⟨fun _ => ⟨A, n, v, B, h1, h2, fun f hf => ?_⟩⟩
        rcases hc f hf with h4 | h4
        · exact h3 f h4
        · exact ⟨B, [], by simp, by rw [h4, h.attr, h1]⟩
      · exact h.seen u
    · rw [hl]; exact h.told
  · have hs := h.seen t
    rw [hx] at hs
    refine ⟨hv, fun u => ?_, ?_⟩
    · rw [ht, hl]
      dsimp only
      split
      · rename_i hu
        subst hu
        have hs' : Seen c a u σ.log (.emit acc) := ⟨fun _ => by
          obtain ⟨A, n, v, B, h1, h2, h3⟩ := hs.post ⟨nofun, rfl⟩
          exact ⟨A, n, v, B, h1, h2, fun f hf => h3 f (List.mem_cons_of_mem _ hf)⟩⟩
        exact seen_snoc hs' (fun _ => ⟨m, x, rfl⟩)
      · rename_i hu; exact other rfl hu
    · rw [hl]
      intro l1 u m' x' l2 hl'
      rcases snoc_split hl' with ⟨h1, h2, _⟩ | ⟨l3, h2, _⟩
      · cases h2
        obtain ⟨A, n, v, B, h3, h4, h5⟩ := hs.post ⟨nofun, rfl⟩
        obtain ⟨B1, B2, h6, h7⟩ := h5 (m, x) List.mem_cons_self
        exact ⟨A, n, v, B1, B2, by rw [← h1, h3, h6], by rw [← h6]; exact h4, h7⟩
      · exact h.told l1 u m' x' l3 h2
  · have hth : e.thread = t := by rcases he with rfl | ⟨r, rfl⟩ <;> rfl
    refine ⟨hv, fun u => ?_, ?_⟩
    · rw [ht, hl]
      dsimp only
      split
      · exact ⟨fun hp => absurd hp not_post_idle⟩
      · rename_i hu; exact other hth hu
    · rw [hl]
      exact keep (fun u m x h1 => by rcases he with rfl | ⟨r, rfl⟩ <;> cases h1)

theorem inv_init (c : Cls) (a : Nat → Nat) (todo : Nat → List (Nat × Nat)) : Inv c a (init a todo) where
  attr := rfl
  seen := fun _ => ⟨fun h => absurd h not_post_idle⟩
  told := fun l1 t m x l2 hl => by
    have := congrArg List.length hl
    simp [init] at this

/-! ## The events of one thread -/

/-- Assignments one after the other: begin, store, tell, end. -/
inductive Blocks (t : Nat) : List Ev → Prop
  | nil : Blocks t []
  | snoc {l : List Ev} (h : Blocks t l) (n v : Nat) (ts : List (Nat × Nat)) (e : Ev) (he : e = .done t ∨ ∃ r, e = .raised t r) :
      Blocks t (l ++ .call t n v :: .wrote t n v :: (ts.map (fun p => .told t p.1 p.2) ++ [e]))

/-- The events of thread `t`. -/
def only (t : Nat) (l : List Ev) : List Ev := l.filter (fun e => e.thread == t)

/-- The events of `t`, with the current assignment. -/
def Part (t : Nat) (L : List Ev) (x : Ctl) : Prop := ∃ l, Blocks t l ∧ (x = .idle → only t L = l) ∧
  (∀ n v, x.pre = some (n, v) → only t L = l ++ [.call t n v]) ∧
  (x.post → ∃ (n v : Nat) (ts : List (Nat × Nat)), only t L = l ++ .call t n v :: .wrote t n v :: ts.map (fun p : Nat × Nat => .told t p.1 p.2))

theorem only_snoc_self {t : Nat} {L : List Ev} {e : Ev} (he : e.thread = t) : only t (L ++ [e]) = only t L ++ [e] := by
  simp [only, he]

theorem only_snoc_other {t u : Nat} {L : List Ev} {e : Ev} (he : e.thread = t) (hu : u ≠ t) : only u (L ++ [e]) = only u L := by
  have : e.thread ≠ u := by rw [he]; exact fun e => hu e.symm
  simp [only, this]

theorem part_step {c : Cls} (σ : St) (t : Nat) (h : ∀ u, Part u σ.log (σ.thr u)) : ∀ u, Part u (step c σ t).log ((step c σ t).thr u) := by
  have other : ∀ {e : Ev} {u : Nat}, e.thread = t → u ≠ t → Part u (σ.log ++ [e]) (σ.thr u) := fun he hu => by
    unfold Part; rw [only_snoc_other he hu]; exact h _
  intro u
  rcases shape c σ t with h1 | ⟨n, v, hx, y, ht, hy, ha, hl⟩ | ⟨n, v, hx, y, ht, hy, ha, hl⟩ | ⟨n, v, hx, ht, ha, hl⟩ | ⟨hx, y, ht, hy, hc, ha, hl⟩ |
    ⟨m, x, acc, hx, ht, ha, hl⟩ | ⟨hx, e, he, ht, ha, hl⟩
  · rw [h1]; exact h u
  · rw [ht, hl]
    dsimp only
    split
    · rename_i hu
      subst hu
      obtain ⟨l, h1, h2, _, _⟩ := h u
      refine ⟨l, h1, fun e => (by rw [e] at hy; cases hy), fun n' v' e => ?_, fun hp => absurd hp (not_post_pre hy)⟩
      rw [hy] at e
      cases e
      rw [only_snoc_self (t := u) (e := .call u n v) rfl, h2 hx]
    · rename_i hu; exact other rfl hu
  · rw [ht, hl]
    dsimp only
    split
    · rename_i hu
      subst hu
      obtain ⟨l, h1, _, h2, _⟩ := h u
      refine ⟨l, h1, fun e => (by rw [e] at hy; cases hy), fun n' v' e => ?_, fun hp => absurd hp (not_post_pre hy)⟩
      rw [hy] at e
      cases e
      exact h2 n v hx
    · exact h u
  · rw [ht, hl]
    dsimp only
    split
    · rename_i hu
      subst hu
      obtain ⟨l, h1, _, h2, _⟩ := h u
      refine ⟨l, h1, nofun, nofun, fun _ => ⟨n, v, [], ?_⟩⟩
      rw [only_snoc_self (t := u) (e := .wrote u n v) rfl, h2 n v hx]
      simp
    · rename_i hu; exact other rfl hu
  · rw [ht, hl]
    dsimp only
    split
    · rename_i hu
      subst hu
      obtain ⟨l, h1, _, _, h2⟩ := h u
      exact ⟨l, h1, fun e => absurd e hy.1, fun n' v' e => (by rw [hy.2] at e; cases e), fun _ => h2 hx⟩
    · exact h u
  · rw [ht, hl]
    dsimp only
    split
    · rename_i hu
      subst hu
      obtain ⟨l, h1, _, _, h2⟩ := h u
      rw [hx] at h2
      obtain ⟨n, v, ts, h3⟩ := h2 ⟨nofun, rfl⟩
      refine ⟨l, h1, nofun, nofun, fun _ => ⟨n, v, ts ++ [(m, x)], ?_⟩⟩
      rw [only_snoc_self (t := u) (e := .told u m x) rfl, h3]
      simp
    · rename_i hu; exact other rfl hu
  · have hth : e.thread = t := by rcases he with rfl | ⟨r, rfl⟩ <;> rfl
    rw [ht, hl]
    dsimp only
    split
    · rename_i hu
      subst hu
      obtain ⟨l, h1, _, _, h2⟩ := h u
      obtain ⟨n, v, ts, h3⟩ := h2 hx
      refine ⟨_, h1.snoc n v ts e he, fun _ => ?_, nofun, fun hp => absurd hp not_post_idle⟩
      rw [only_snoc_self hth, h3]
      simp
    · rename_i hu; exact other hth hu

theorem part_init (a : Nat → Nat) (todo : Nat → List (Nat × Nat)) : ∀ u, Part u (init a todo).log ((init a todo).thr u) :=
  fun _ => ⟨[], .nil, fun _ => rfl, nofun, fun hp => absurd hp not_post_idle⟩

/-! ## Which names are told -/

/-- The name was assigned by someone or depends on one that was. -/
def Named (c : Cls) (L : List Ev) (m : Nat) : Prop := ∃ u n v, .call u n v ∈ L ∧ (m = n ∨ m ∈ c.deps n)

theorem Named.mono {c : Cls} {L : List Ev} {m : Nat} (h : Named c L m) (l : List Ev) : Named c (L ++ l) m := by
  obtain ⟨u, n, v, h1, h2⟩ := h
  exact ⟨u, n, v, List.mem_append_left _ h1, h2⟩

/-- The names a thread has in hand. -/
def Ctl.names (c : Cls) : Ctl → List Nat
  | .semR n _ => n :: c.deps n
  | .semW n _ _ => n :: c.deps n
  | .add n _ => n :: c.deps n
  | .qTest _ _ ms => ms
  | .qRead _ _ m ms => m :: ms
  | .qPut _ _ m _ ms => m :: ms
  | .pNext _ _ acc => acc.map (·.1)
  | .pOld m _ _ acc => m :: acc.map (·.1)
  | .pNew m _ _ _ acc => m :: acc.map (·.1)
  | .pPop m _ _ acc => m :: acc.map (·.1)
  | .dIter acc => acc.map (·.1)
  | .dNext _ _ acc => acc.map (·.1)
  | .dNew m _ _ _ acc => m :: acc.map (·.1)
  | .clearQ acc => acc.map (·.1)
  | .clearP acc => acc.map (·.1)
  | .eR acc => acc.map (·.1)
  | .eW _ acc => acc.map (·.1)
  | .emit acc => acc.map (·.1)
  | _ => []

structure Names (c : Cls) (σ : St) : Prop where
  queue : ∀ e ∈ σ.queue, Named c σ.log e.1
  prim : ∀ m ∈ σ.prim, Named c σ.log m
  thr : ∀ t, ∀ m ∈ (σ.thr t).names c, Named c σ.log m
  told : ∀ l1 t m x l2, σ.log = l1 ++ .told t m x :: l2 → Named c l1 m

/-- A step that logs nothing. -/
theorem names_go {c : Cls} {σ : St} (h : Names c σ) {t : Nat} {x : Ctl} {at' : Nat → Nat} {sem' : Int} {q : List (Nat × Nat)} {p : List Nat}
    (hq : ∀ e ∈ q, Named c σ.log e.1) (hp : ∀ m ∈ p, Named c σ.log m) (hx : ∀ m ∈ x.names c, Named c σ.log m) :
    Names c { σ.go t x with attr := at', sem := sem', queue := q, prim := p } where
  queue := hq
  prim := hp
  thr := fun u => by
    show ∀ m ∈ (if u = t then x else σ.thr u).names c, Named c σ.log m
    split
    · exact hx
    · exact h.thr u
  told := h.told

/-- A step that logs something. -/
theorem names_say {c : Cls} {σ : St} (h : Names c σ) {t : Nat} {x : Ctl} {e : Ev} {at' : Nat → Nat} {p : List Nat} {td : Nat → List (Nat × Nat)}
    (hp : ∀ m ∈ p, Named c σ.log m) (hx : ∀ m ∈ x.names c, Named c (σ.log ++ [e]) m) (he : ∀ u m y, e = .told u m y → Named c σ.log m) :
    Names c { (σ.go t x).say e with attr := at', prim := p, todo := td } where
  queue := fun f hf => (h.queue f hf).mono _
  prim := fun m hm => (hp m hm).mono _
  thr := fun u => by
    show ∀ m ∈ (if u = t then x else σ.thr u).names c, Named c (σ.log ++ [e]) m
    split
    · exact hx
    · exact fun m hm => (h.thr u m hm).mono _
  told := fun l1 u m y l2 hl => by
    rcases snoc_split (show σ.log ++ [e] = l1 ++ .told u m y :: l2 from hl) with ⟨h1, h2, _⟩ | ⟨l3, h2, _⟩
    · rw [← h1]; exact he u m y h2
    · exact h.told l1 u m y l3 h2

theorem names_acc {c : Cls} {L : List Ev} {m old : Nat} {a : Nat → Nat} {acc : List (Nat × Nat)} (h : ∀ k ∈ m :: acc.map (·.1), Named c L k) :
    ∀ k ∈ (if c.eq m old (c.get m a) then acc else acc ++ [(m, c.get m a)]).map (·.1), Named c L k := by
  intro k hk
  split at hk
  · exact h k (List.mem_cons_of_mem _ hk)
  · rw [List.map_append] at hk
    rcases List.mem_append.mp hk with hk | hk
    · exact h k (List.mem_cons_of_mem _ hk)
    · exact h k (by rw [List.mem_singleton.mp hk]; exact List.mem_cons_self)

theorem names_step {c : Cls} (σ : St) (t : Nat) (h : Names c σ) : Names c (step c σ t) := by
  have ht := h.thr t
  have hq := h.queue
  have hp := h.prim
  have N : ∀ {L : List Ev}, ∀ m ∈ ([] : List Nat), Named c L m := fun m hm => absurd hm List.not_mem_nil
  have T : ∀ {L : List Ev} {m : Nat} {l : List Nat}, (∀ k ∈ m :: l, Named c L k) → ∀ k ∈ l, Named c L k := fun h k hk => h k (List.mem_cons_of_mem _ hk)
  have D : ∀ {e : Ev}, e = .done t ∨ (∃ r, e = .raised t r) → ∀ u m y, e = .told u m y → Named c σ.log m := fun he u m y h1 => by
    rcases he with rfl | ⟨r, rfl⟩ <;> cases h1
  unfold step
  split <;> rename_i hx
  · split
    · exact h
    · rename_i n v r hr
      exact names_say h hp (fun m hm => ⟨t, n, v, by simp, List.mem_cons.mp hm⟩) nofun
  · rw [hx] at ht; exact names_go h hq hp ht
  · rw [hx] at ht; exact names_go h hq hp ht
  · rename_i n v
    rw [hx] at ht
    refine names_go h hq (fun m hm => ?_) ht
    split at hm
    · exact hp m hm
    · rcases List.mem_append.mp hm with hm | hm
      · exact hp m hm
      · exact ht m (by rw [List.mem_singleton.mp hm]; exact List.mem_cons_self)
  · exact names_go h hq hp N
  · rw [hx] at ht
    split
    · exact names_go h hq hp (T ht)
    · exact names_go h hq hp ht
  · rw [hx] at ht; exact names_go h hq hp ht
  · rename_i n v m x ms
    rw [hx] at ht
    refine names_go h (fun e he => ?_) hp (T ht)
    split at he
    · obtain ⟨f, hf, rfl⟩ := List.mem_map.mp he
      split
      · exact ht m List.mem_cons_self
      · exact hq f hf
    · rcases List.mem_append.mp he with he | he
      · exact hq e he
      · rw [List.mem_singleton.mp he]; exact ht m List.mem_cons_self
  · exact names_say h hp N nofun
  · exact names_go h hq hp N
  · exact names_go h hq hp N
  · split
    · exact names_say h hp N (D (.inl rfl))
    · exact names_go h hq hp N
  · split
    · exact names_say h hp N (D (.inl rfl))
    · exact names_go h hq hp N
  · exact names_go h hq hp N
  · rw [hx] at ht
    split
    · exact names_say h hp N (D (.inr ⟨_, rfl⟩))
    · split
      · rename_i m hm
        refine names_go h hq hp (fun k hk => ?_)
        rcases List.mem_cons.mp hk with rfl | hk
        · exact hp _ (List.mem_of_getElem? hm)
        · exact ht k hk
      · split
        · exact names_go h hq hp N
        · exact names_go h hq hp ht
  · rw [hx] at ht
    split
    · exact names_go h hq hp ht
    · exact names_say h hp N (D (.inr ⟨_, rfl⟩))
  · rw [hx] at ht
    refine names_go h hq hp (fun k hk => ?_)
    rcases List.mem_cons.mp hk with rfl | hk
    · exact ht _ List.mem_cons_self
    · exact names_acc ht k hk
  · rw [hx] at ht
    split
    · exact names_go h (fun e he => hq e (List.mem_filter.mp he).1) hp (T ht)
    · exact names_say h hp N (D (.inr ⟨_, rfl⟩))
  · rw [hx] at ht; exact names_go h hq hp ht
  · rw [hx] at ht
    split
    · exact names_say h hp N (D (.inr ⟨_, rfl⟩))
    · split
      · rename_i e he
        refine names_go h hq hp (fun k hk => ?_)
        rcases List.mem_cons.mp hk with rfl | hk
        · exact hq _ (List.mem_of_getElem? he)
        · exact ht k hk
      · exact names_go h hq hp ht
  · rw [hx] at ht; exact names_go h hq hp (names_acc ht)
  · rw [hx] at ht; exact names_go h (fun e he => absurd he List.not_mem_nil) hp ht
  · rw [hx] at ht
    split
    · exact names_say h N N (D (.inl rfl))
    · exact names_go h hq N ht
  · rw [hx] at ht; exact names_go h hq hp ht
  · rw [hx] at ht; exact names_go h hq hp ht
  · exact names_go h hq hp N
  · rename_i e acc
    rw [hx] at ht
    exact names_say h hp (fun m hm => (ht m (List.mem_cons_of_mem _ hm)).mono _) (fun u m y he => by cases he; exact ht e.1 List.mem_cons_self)

theorem names_init (c : Cls) (a : Nat → Nat) (todo : Nat → List (Nat × Nat)) : Names c (init a todo) where
  queue := fun _ h => absurd h List.not_mem_nil
  prim := fun _ h => absurd h List.not_mem_nil
  thr := fun _ _ h => absurd h List.not_mem_nil
  told := fun l1 t m x l2 hl => by
    have := congrArg List.length hl
    simp [init] at this

/-! ## A counter that is too high -/

/-- What a thread that runs alone sees of a counter that was `s` between its assignments. -/
def Ctl.counts (s sem : Int) : Ctl → Prop
  | .idle => sem = s
  | .semR _ _ => sem = s
  | .semW _ _ x => x = s
  | .add _ _ => sem = s + 1
  | .qTest _ _ _ => sem = s + 1
  | .qRead _ _ _ _ => sem = s + 1
  | .qPut _ _ _ _ _ => sem = s + 1
  | .store _ _ => sem = s + 1
  | .exR => sem = s + 1
  | .exW x => x = s + 1
  | .ckSem => sem = s
  | _ => False

structure High (s : Int) (t : Nat) (l : List Ev) (σ : St) : Prop where
  counts : (σ.thr t).counts s σ.sem
  log : ∃ l', σ.log = l ++ l' ∧ ∀ u m x, .told u m x ∉ l'

theorem high_step {c : Cls} {s : Int} (hs : 0 < s) {t : Nat} {l : List Ev} {σ : St} (h : High s t l σ) : High s t l (step c σ t) := by
  have hc := h.counts
  obtain ⟨l', h1, h2⟩ := h.log
  have say : ∀ {e : Ev}, (∀ u m x, e ≠ .told u m x) → ∃ l', σ.log ++ [e] = l ++ l' ∧ ∀ u m x, .told u m x ∉ l' := fun {e} he =>
    ⟨l' ++ [e], by rw [h1]; simp, fun u m x hm => by
      rcases List.mem_append.mp hm with hm | hm
      · exact h2 u m x hm
      · exact he u m x (List.mem_singleton.mp hm).symm⟩
  have self : ∀ (x : Ctl) (f : Nat → Ctl), (fun u => if u = t then x else f u) t = x := fun x f => if_pos rfl
  unfold step
  split <;> rename_i hx <;> rw [hx] at hc
  · split
    · exact h
    · exact ⟨by simpa [St.go, St.say, Ctl.counts] using hc, say nofun⟩
  · exact ⟨by simpa [St.go, Ctl.counts] using hc, h.log⟩
  · exact ⟨by simpa [St.go, Ctl.counts] using hc, h.log⟩
  · exact ⟨by simpa [St.go, Ctl.counts] using hc, h.log⟩
  · exact ⟨by simpa [St.go, Ctl.counts] using hc, h.log⟩
  · split
    · exact ⟨by simpa [St.go, Ctl.counts] using hc, h.log⟩
    · exact ⟨by simpa [St.go, Ctl.counts] using hc, h.log⟩
  · exact ⟨by simpa [St.go, Ctl.counts] using hc, h.log⟩
  · exact ⟨by simpa [St.go, Ctl.counts] using hc, h.log⟩
  · exact ⟨by simpa [St.go, St.say, Ctl.counts] using hc, say nofun⟩
  · exact ⟨by simpa [St.go, Ctl.counts] using hc, h.log⟩
  · rename_i x
    refine ⟨?_, h.log⟩
    have hc : x = s + 1 := hc
    simp only [St.go, if_pos, Ctl.counts]
    omega
  · have hc : σ.sem = s := hc
    rw [if_pos (by omega)]
    exact ⟨by simpa [St.go, St.say, Ctl.counts] using hc, say nofun⟩
  all_goals exact hc.elim

theorem high_run {c : Cls} {s : Int} (hs : 0 < s) {t : Nat} {l : List Ev} : ∀ (k : Nat) {σ : St}, High s t l σ → High s t l (run c (List.replicate k t) σ)
  | 0, _, h => h
  | k + 1, _, h => high_run hs k (high_step hs h)

end Psygnal.DlC
