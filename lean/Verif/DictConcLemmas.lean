import Verif.DictConc

/-! # Lemmas for C94 -/
namespace Psygnal.DcC

/-- The thread of an event. -/
def Ev.thread : Ev → Nat
  | .call t _ _ | .callD t _ | .has t _ _ | .read t _ _ | .put t _ _ | .took t _ _ | .adding t _ | .changing t _ | .removing t _ => t
  | .added t _ _ | .changed t _ _ _ | .removed t _ _ | .same t _ _ | .fail t _ _ | .look t _ _ => t

/-- What key `k` holds after what happened, if it was `d k` before. -/
def value (d : Dict) (k : Nat) (l : List Ev) : Option Nat :=
  l.foldl (fun x e => match e with
    | .put _ m v => if m = k then some v else x
    | .took _ m (some _) => if m = k then none else x
    | _ => x) (d k)

/-- What someone has under key `k` who keeps a copy: puts in what is added, replaces what is changed, drops what is removed. -/
def mirror (d : Dict) (k : Nat) (l : List Ev) : Option Nat :=
  l.foldl (fun x e => match e with
    | .added _ m v => if m = k then some v else x
    | .changed _ m _ v => if m = k then some v else x
    | .removed _ m _ => if m = k then none else x
    | _ => x) (d k)

/-- No event of thread `t`. -/
def Free (t : Nat) (l : List Ev) : Prop := ∀ e ∈ l, e.thread ≠ t

/-- The events of thread `t`. -/
def only (t : Nat) (l : List Ev) : List Ev := l.filter (fun e => e.thread == t)

/-- The events of one whole operation of thread `t` on key `k`. -/
inductive Op (t k : Nat) : List Ev → Prop
  | added (v : Nat) : Op t k [.call t k v, .has t k false, .adding t k, .put t k v, .added t k v]
  | changed (v o : Nat) (h : v ≠ o) : Op t k [.call t k v, .has t k true, .read t k (some o), .changing t k, .put t k v, .changed t k o v]
  | same (v : Nat) : Op t k [.call t k v, .has t k true, .read t k (some v), .same t k v]
  | lost (v : Nat) : Op t k [.call t k v, .has t k true, .read t k none, .fail t k (some v)]
  | removed (i x : Nat) : Op t k [.callD t k, .read t k (some i), .removing t k, .took t k (some x), .removed t k i]
  | absent : Op t k [.callD t k, .read t k none, .fail t k none]
  | late (i : Nat) : Op t k [.callD t k, .read t k (some i), .removing t k, .took t k none, .fail t k none]
  | look (x : Option Nat) : Op t k [.look t k x]

/-- What program `c` does with one whole operation `m` of thread `t`, and how it goes on: it assigns, deletes or looks up, and learns whether that raised or
what is there. -/
inductive Does (t : Nat) : Code → List Ev → Code → Prop
  | set {k v : Nat} {f : Bool → Code} {m : List Ev} (h : Op t k m) (hm : m.head? = some (.call t k v)) (b : Bool)
      (hb : b = true ↔ m.getLast? = some (.fail t k (some v))) : Does t (.set k v f) m (f b)
  | del {k : Nat} {f : Bool → Code} {m : List Ev} (h : Op t k m) (hm : m.head? = some (.callD t k)) (b : Bool)
      (hb : b = true ↔ m.getLast? = some (.fail t k none)) : Does t (.del k f) m (f b)
  | get {k : Nat} {f : Option Nat → Code} (x : Option Nat) : Does t (.get k f) [.look t k x] (f x)

/-- The program `c` of thread `t` has made the events `l` and goes on as the other one. -/
inductive Follows (t : Nat) (c : Code) : List Ev → Code → Prop
  | nil : Follows t c [] c
  | op {l m : List Ev} {c1 c2 : Code} (h : Follows t c l c1) (ho : Does t c1 m c2) : Follows t c (l ++ m) c2

/-- Operations one after the other. -/
inductive Blocks (t : Nat) : List Ev → Prop
  | nil : Blocks t []
  | op {l m : List Ev} {k : Nat} (h : Blocks t l) (ho : Op t k m) : Blocks t (l ++ m)

theorem value_snoc (d : Dict) (k : Nat) (l : List Ev) (e : Ev) : value d k (l ++ [e]) = e.on (fun m => value d m l) k := by
  cases e with
  | took t m x => cases x <;> simp [value, Ev.on, List.foldl_append, eq_comm]
  | _ => simp [value, Ev.on, List.foldl_append, eq_comm]

theorem value_append (d : Dict) (k : Nat) (l1 l2 : List Ev) : value d k (l1 ++ l2) = value (fun m => value d m l1) k l2 := by
  simp [value, List.foldl_append]

/-- Each event belongs to a moment of the run. -/
theorem moment {d : Dict} {prog : Nat → Code} {e : Ev} {l2 : List Ev} : ∀ (s : List Nat) {l1 : List Ev},
    (run s (init d prog)).log = l1 ++ e :: l2 → ∃ p t q y, s = p ++ t :: q ∧ (run p (init d prog)).log = l1 ∧
      next (run p (init d prog)).dict t ((run p (init d prog)).thr t) = some (e, y) := by
  intro s
  induction hn : s.length generalizing s l2 with
  | zero =>
    intro l1 h
    rw [List.length_eq_zero_iff.mp hn] at h
    have := congrArg List.length h
    simp [run, init] at this
  | succ n ih =>
    intro l1 h
    rcases List.eq_nil_or_concat s with rfl | ⟨s, t, rfl⟩
    · simp at hn
    · have hn' : s.length = n := by simpa using hn
      have hr : run (s ++ [t]) (init d prog) = step (run s (init d prog)) t := by simp [run, List.foldl_append]
      rw [List.concat_eq_append, hr] at h
      unfold step at h
      split at h
      · obtain ⟨p, u, q, y, h1, h2, h3⟩ := ih s hn' h
        exact ⟨p, u, q ++ [t], y, by simp [h1], h2, h3⟩
      · rename_i e' x hnx
        have h : (run s (init d prog)).log ++ [e'] = l1 ++ e :: l2 := h
        rcases List.eq_nil_or_concat l2 with rfl | ⟨l3, z, rfl⟩
        · have h4 := List.append_inj' h rfl
          have h5 : e' = e := by have := h4.2; cases this; rfl
          exact ⟨s, t, [], x, by simp, h4.1, h5 ▸ hnx⟩
        · have h4 : (run s (init d prog)).log ++ [e'] = (l1 ++ e :: l3) ++ [z] := by rw [h]; simp
          obtain ⟨p, u, q, y, h1, h2, h3⟩ := ih s hn' (List.append_inj' h4 rfl).1
          exact ⟨p, u, q ++ [t], y, by simp [h1], h2, h3⟩

theorem step_some {σ : St} {t : Nat} {e : Ev} {x : Ctl} (h : next σ.dict t (σ.thr t) = some (e, x)) :
    step σ t = ⟨e.on σ.dict, fun u => if u = t then x else σ.thr u, σ.log ++ [e]⟩ := by
  unfold step; rw [h]

theorem step_none {σ : St} {t : Nat} (h : next σ.dict t (σ.thr t) = none) : step σ t = σ := by
  unfold step; rw [h]

theorem next_thread {d : Dict} {t : Nat} {x y : Ctl} {e : Ev} (h : next d t x = some (e, y)) : e.thread = t := by
  cases x with
  | run c => cases c <;> first | (cases h; rfl) | cases h
  | _ => cases h; rfl

/-! ## The dictionary -/

theorem dict_step {d : Dict} {σ : St} (h : ∀ k, σ.dict k = value d k σ.log) (t : Nat) : ∀ k, (step σ t).dict k = value d k (step σ t).log := by
  intro k
  cases hn : next σ.dict t (σ.thr t) with
  | none => rw [step_none hn]; exact h k
  | some p =>
    obtain ⟨e, x⟩ := p
    rw [step_some hn]
    show e.on σ.dict k = value d k (σ.log ++ [e])
    rw [value_snoc, show σ.dict = fun m => value d m σ.log from funext h]

theorem dict_from {d : Dict} : ∀ (s : List Nat) {σ : St}, (∀ k, σ.dict k = value d k σ.log) → ∀ k, (run s σ).dict k = value d k (run s σ).log
  | [], _, h => h
  | t :: s, _, h => dict_from s (dict_step h t)

theorem dict_run (d : Dict) (prog : Nat → Code) (s : List Nat) (k : Nat) : (run s (init d prog)).dict k = value d k (run s (init d prog)).log :=
  dict_from s (fun _ => rfl) k

/-- Without changes of `k` it keeps its value. -/
theorem value_still {d : Dict} {k : Nat} {l : List Ev} (h1 : ∀ t v, .put t k v ∉ l) (h2 : ∀ t x, .took t k (some x) ∉ l) : value d k l = d k := by
  induction l generalizing d with
  | nil => rfl
  | cons e l ih =>
    rw [show e :: l = [e] ++ l from rfl, value_append,
      ih (fun t v hm => h1 t v (List.mem_cons_of_mem _ hm)) (fun t x hm => h2 t x (List.mem_cons_of_mem _ hm))]
    cases e with
    | put t m v =>
      have : m ≠ k := fun hm => h1 t v (by rw [hm]; exact List.mem_cons_self)
      simp [value, this]
    | took t m x =>
      cases x with
      | none => rfl
      | some x =>
        have : m ≠ k := fun hm => h2 t x (by rw [hm]; exact List.mem_cons_self)
        simp [value, this]
    | _ => rfl

/-- Without deletions of `k` it stays. -/
theorem value_stays {k : Nat} : ∀ {l : List Ev} {d : Dict}, (d k).isSome → (∀ t x, .took t k (some x) ∉ l) → (value d k l).isSome
  | [], _, h, _ => h
  | e :: l, d, h, h2 => by
    rw [show e :: l = [e] ++ l from rfl, value_append]
    refine value_stays ?_ (fun t x hm => h2 t x (List.mem_cons_of_mem _ hm))
    cases e with
    | put t m v =>
      by_cases hm : m = k
      · simp [value, hm]
      · simpa [value, hm] using h
    | took t m x =>
      cases x with
      | none => exact h
      | some x =>
        have : m ≠ k := fun hm => h2 t x (by rw [hm]; exact List.mem_cons_self)
        simpa [value, this] using h
    | _ => exact h

/-- Without assignments of `k` it stays away. -/
theorem value_away {k : Nat} : ∀ {l : List Ev} {d : Dict}, d k = none → (∀ t v, .put t k v ∉ l) → value d k l = none
  | [], _, h, _ => h
  | e :: l, d, h, h2 => by
    rw [show e :: l = [e] ++ l from rfl, value_append]
    refine value_away ?_ (fun t x hm => h2 t x (List.mem_cons_of_mem _ hm))
    cases e with
    | put t m v =>
      have : m ≠ k := fun hm => h2 t v (by rw [hm]; exact List.mem_cons_self)
      simpa [value, this] using h
    | took t m x =>
      cases x with
      | none => exact h
      | some x =>
        by_cases hm : m = k
        · simp [value, hm]
        · simpa [value, hm] using h
    | _ => exact h

/-! ## The events of one thread -/

/-- `m` may be the events of the current operation. -/
def Ctl.Part (t : Nat) (m : List Ev) : Ctl → Prop
  | .run _ => m = []
  | .has k v _ => m = [.call t k v]
  | .adding k v _ => m = [.call t k v, .has t k false]
  | .putNew k v _ => m = [.call t k v, .has t k false, .adding t k]
  | .added k v _ => m = [.call t k v, .has t k false, .adding t k, .put t k v]
  | .old k v _ => m = [.call t k v, .has t k true]
  | .same k v _ => m = [.call t k v, .has t k true, .read t k (some v)]
  | .changing k v o _ => v ≠ o ∧ m = [.call t k v, .has t k true, .read t k (some o)]
  | .putOld k v o _ => v ≠ o ∧ m = [.call t k v, .has t k true, .read t k (some o), .changing t k]
  | .changed k v o _ => v ≠ o ∧ m = [.call t k v, .has t k true, .read t k (some o), .changing t k, .put t k v]
  | .item k _ => m = [.callD t k]
  | .removing k i _ => m = [.callD t k, .read t k (some i)]
  | .take k i _ => m = [.callD t k, .read t k (some i), .removing t k]
  | .removed k i _ => ∃ x, m = [.callD t k, .read t k (some i), .removing t k, .took t k (some x)]
  | .raise k (some v) _ => m = [.call t k v, .has t k true, .read t k none]
  | .raise k none _ => m = [.callD t k, .read t k none] ∨ ∃ i, m = [.callD t k, .read t k (some i), .removing t k, .took t k none]

/-- The program at the beginning of the current operation. -/
def Ctl.code : Ctl → Code
  | .run c => c
  | .has k v c | .adding k v c | .putNew k v c | .added k v c | .old k v c | .same k v c => .set k v c
  | .changing k v _ c | .putOld k v _ c | .changed k v _ c => .set k v c
  | .item k c | .removing k _ c | .take k _ c | .removed k _ c => .del k c
  | .raise k (some v) c => .set k v c
  | .raise k none c => .del k c

/-- A step goes on with the operation or ends it. -/
theorem part_next {d : Dict} {t : Nat} {m : List Ev} {x y : Ctl} {e : Ev} (h : x.Part t m) (hn : next d t x = some (e, y)) :
    (y.Part t (m ++ [e]) ∧ y.code = x.code) ∨ ∃ c, Does t x.code (m ++ [e]) c ∧ y = .run c := by
  cases x with
  | run c =>
    obtain rfl : m = [] := h
    cases c with
    | ret => cases hn
    | set k v c => cases hn; exact .inl ⟨rfl, rfl⟩
    | del k c => cases hn; exact .inl ⟨rfl, rfl⟩
    | get k c => cases hn; exact .inr ⟨_, .get _, rfl⟩
  | has k v c =>
    obtain rfl : m = _ := h
    cases hd : d k with
    | none => simp only [next, hd] at hn; cases hn; exact .inl ⟨rfl, rfl⟩
    | some o => simp only [next, hd] at hn; cases hn; exact .inl ⟨rfl, rfl⟩
  | adding k v c => obtain rfl : m = _ := h; cases hn; exact .inl ⟨rfl, rfl⟩
  | putNew k v c => obtain rfl : m = _ := h; cases hn; exact .inl ⟨rfl, rfl⟩
  | added k v c => obtain rfl : m = _ := h; cases hn; exact .inr ⟨_, .set (.added v) rfl false (by simp), rfl⟩
  | old k v c =>
    obtain rfl : m = _ := h
    cases hd : d k with
    | none => simp only [next, hd] at hn; cases hn; exact .inl ⟨rfl, rfl⟩
    | some o =>
      simp only [next, hd] at hn
      by_cases hv : v = o
      · rw [if_pos hv] at hn; cases hn; subst hv; exact .inl ⟨rfl, rfl⟩
      · rw [if_neg hv] at hn; cases hn; exact .inl ⟨⟨hv, rfl⟩, rfl⟩
  | same k v c => obtain rfl : m = _ := h; cases hn; exact .inr ⟨_, .set (.same v) rfl false (by simp), rfl⟩
  | changing k v o c => obtain ⟨hv, rfl⟩ := h; cases hn; exact .inl ⟨⟨hv, rfl⟩, rfl⟩
  | putOld k v o c => obtain ⟨hv, rfl⟩ := h; cases hn; exact .inl ⟨⟨hv, rfl⟩, rfl⟩
  | changed k v o c => obtain ⟨hv, rfl⟩ := h; cases hn; exact .inr ⟨_, .set (.changed v o hv) rfl false (by simp), rfl⟩
  | item k c =>
    obtain rfl : m = _ := h
    cases hd : d k with
    | none => simp only [next, hd] at hn; cases hn; exact .inl ⟨.inl rfl, rfl⟩
    | some o => simp only [next, hd] at hn; cases hn; exact .inl ⟨rfl, rfl⟩
  | removing k i c => obtain rfl : m = _ := h; cases hn; exact .inl ⟨rfl, rfl⟩
  | take k i c =>
    obtain rfl : m = _ := h
    cases hd : d k with
    | none => simp only [next, hd] at hn; cases hn; exact .inl ⟨.inr ⟨i, rfl⟩, rfl⟩
    | some o => simp only [next, hd] at hn; cases hn; exact .inl ⟨⟨o, rfl⟩, rfl⟩
  | removed k i c => obtain ⟨x, rfl⟩ := h; cases hn; exact .inr ⟨_, .del (.removed i x) rfl false (by simp), rfl⟩
  | raise k v c =>
    cases v with
    | some v => obtain rfl : m = _ := h; cases hn; exact .inr ⟨_, .set (.lost v) rfl true (by simp), rfl⟩
    | none =>
      cases hn
      rcases h with rfl | ⟨i, rfl⟩
      · exact .inr ⟨_, .del (.absent) rfl true (by simp), rfl⟩
      · exact .inr ⟨_, .del (.late i) rfl true (by simp), rfl⟩

theorem Does.op {t : Nat} {c c' : Code} {m : List Ev} (h : Does t c m c') : ∃ k, Op t k m := by
  cases h with
  | set h => exact ⟨_, h⟩
  | del h => exact ⟨_, h⟩
  | get x => exact ⟨_, .look x⟩

theorem Follows.blocks {t : Nat} {c c' : Code} {l : List Ev} (h : Follows t c l c') : Blocks t l := by
  induction h with
  | nil => exact .nil
  | op _ ho ih => obtain ⟨k, hk⟩ := ho.op; exact ih.op hk

/-- The first operation. -/
theorem Follows.first {t : Nat} {c c' : Code} {L : List Ev} (h : Follows t c L c') :
    (L = [] ∧ c = c') ∨ ∃ m l c1, L = m ++ l ∧ Does t c m c1 ∧ Follows t c1 l c' := by
  induction h with
  | nil => exact .inl ⟨rfl, rfl⟩
  | op h ho ih =>
    rcases ih with ⟨rfl, rfl⟩ | ⟨m, l, c1, rfl, h1, h2⟩
    · exact .inr ⟨_, [], _, by simp, ho, .nil⟩
    · exact .inr ⟨m, _, c1, by simp, h1, h2.op ho⟩

def Blocked (prog : Nat → Code) (σ : St) : Prop := ∀ t, ∃ l m, Follows t (prog t) l (σ.thr t).code ∧ (σ.thr t).Part t m ∧ only t σ.log = l ++ m

theorem blocked_step {prog : Nat → Code} {σ : St} (h : Blocked prog σ) (t : Nat) : Blocked prog (step σ t) := by
  cases hn : next σ.dict t (σ.thr t) with
  | none => rw [step_none hn]; exact h
  | some p =>
    obtain ⟨e, x⟩ := p
    rw [step_some hn]
    intro u
    show ∃ l m, Follows u (prog u) l (if u = t then x else σ.thr u).code ∧ (if u = t then x else σ.thr u).Part u m ∧ only u (σ.log ++ [e]) = l ++ m
    have ho : only u (σ.log ++ [e]) = only u σ.log ++ only u [e] := List.filter_append ..
    obtain ⟨l, m, h1, h2, h3⟩ := h u
    have he := next_thread hn
    by_cases hu : u = t
    · subst hu
      rw [if_pos rfl, ho, h3, show only u [e] = [e] from by simp [only, he]]
      rcases part_next h2 hn with ⟨h4, h5⟩ | ⟨c, h4, rfl⟩
      · exact ⟨l, m ++ [e], h5 ▸ h1, h4, by simp⟩
      · exact ⟨l ++ (m ++ [e]), [], h1.op h4, rfl, by simp⟩
    · rw [if_neg hu, ho, h3, show only u [e] = [] from by simp [only, he]; exact fun e => hu e.symm]
      exact ⟨l, m, h1, h2, by simp⟩

theorem blocked_from {prog : Nat → Code} : ∀ (s : List Nat) {σ : St}, Blocked prog σ → Blocked prog (run s σ)
  | [], _, h => h
  | t :: s, _, h => blocked_from s (blocked_step h t)

theorem blocked_run (d : Dict) (prog : Nat → Code) (s : List Nat) : Blocked prog (run s (init d prog)) :=
  blocked_from s (fun _ => ⟨[], [], .nil, rfl, rfl⟩)

theorem only_cons {t : Nat} {L : List Ev} {e : Ev} {Y : List Ev} (h : only t L = e :: Y) :
    ∃ A B, L = A ++ e :: B ∧ Free t A ∧ only t B = Y := by
  obtain ⟨A, B, h1, h2, _, h3⟩ := List.filter_eq_cons_iff.mp h
  exact ⟨A, B, h1, fun x hx hxt => h2 x hx (by simpa using hxt), h3⟩

theorem only_append {t : Nat} {L X Y : List Ev} (h : only t L = X ++ Y) : ∃ A B, L = A ++ B ∧ only t A = X ∧ only t B = Y := by
  obtain ⟨A, B, h1, h2, h3⟩ := List.filter_eq_append_iff.mp h
  exact ⟨A, B, h1, h2, h3⟩

theorem only_nil {t : Nat} {L : List Ev} (h : only t L = []) : Free t L := by
  intro e he ht
  exact List.filter_eq_nil_iff.mp h e he (by simpa using ht)

/-- What has happened when thread `t` makes the event `e`: only whole operations, and the begin `m` of this one. -/
theorem history {d : Dict} {prog : Nat → Code} {s : List Nat} {l1 : List Ev} {e : Ev} {l2 : List Ev} {t : Nat}
    (hl : (run s (init d prog)).log = l1 ++ e :: l2) (he : e.thread = t) :
    ∃ x y m, next (fun k => value d k l1) t x = some (e, y) ∧ x.Part t m ∧ ∃ A B, l1 = A ++ B ∧ Blocks t (only t A) ∧ only t B = m := by
  obtain ⟨p, u, q, y, h1, h2, h3⟩ := moment s hl
  have ht : u = t := (next_thread h3).symm.trans he
  subst ht
  obtain ⟨l, m, h4, h5, h6⟩ := blocked_run d prog p u
  rw [h2] at h6
  obtain ⟨A, B, h7, h8, h9⟩ := only_append h6
  refine ⟨_, y, m, ?_, h5, A, B, h7, h8 ▸ h4.blocks, h9⟩
  rw [show (fun k => value d k l1) = (run p (init d prog)).dict from funext fun k => by rw [dict_run, h2]]
  exact h3

theorem has_true {d : Dict} {prog : Nat → Code} {s : List Nat} {l1 l2 : List Ev} {t k : Nat} {b : Bool}
    (hl : (run s (init d prog)).log = l1 ++ .has t k b :: l2) : b = (value d k l1).isSome := by
  obtain ⟨x, y, m, h1, _⟩ := history hl rfl
  cases x with
  | run c => cases c <;> cases h1
  | has k' v c => cases h1; rfl
  | _ => cases h1

theorem read_true {d : Dict} {prog : Nat → Code} {s : List Nat} {l1 l2 : List Ev} {t k : Nat} {x : Option Nat}
    (hl : (run s (init d prog)).log = l1 ++ .read t k x :: l2) : x = value d k l1 := by
  obtain ⟨x, y, m, h1, _⟩ := history hl rfl
  cases x with
  | run c => cases c <;> cases h1
  | old k' v c => cases h1; rfl
  | item k' c => cases h1; rfl
  | _ => cases h1

theorem took_true {d : Dict} {prog : Nat → Code} {s : List Nat} {l1 l2 : List Ev} {t k : Nat} {x : Option Nat}
    (hl : (run s (init d prog)).log = l1 ++ .took t k x :: l2) : x = value d k l1 := by
  obtain ⟨x, y, m, h1, _⟩ := history hl rfl
  cases x with
  | run c => cases c <;> cases h1
  | take k' i c => cases h1; rfl
  | _ => cases h1

/-- A value that was not there has been stored. -/
theorem value_put {k y : Nat} : ∀ {l : List Ev} {d : Dict}, d k = none → value d k l = some y → ∃ w, .put w k y ∈ l := by
  intro l
  induction hn : l.length generalizing l with
  | zero =>
    intro d h h2
    rw [List.length_eq_zero_iff.mp hn] at h2
    rw [show value d k [] = d k from rfl, h] at h2
    cases h2
  | succ n ih =>
    intro d h h2
    rcases List.eq_nil_or_concat l with rfl | ⟨l, e, rfl⟩
    · simp at hn
    · rw [List.concat_eq_append] at h2 ⊢
      have key : value d k l = some y → ∃ w, .put w k y ∈ l ++ [e] := fun h3 => by
        obtain ⟨w, hw⟩ := ih (l := l) (by simpa using hn) h h3
        exact ⟨w, List.mem_append_left _ hw⟩
      rw [value_snoc] at h2
      cases e with
      | put t m v =>
        by_cases hm : k = m
        · rw [show (Ev.put t m v).on (fun m => value d m l) k = some v from if_pos hm] at h2
          cases h2
          exact ⟨t, by rw [hm]; simp⟩
        · exact key ((show (Ev.put t m v).on (fun m => value d m l) k = value d k l from if_neg hm) ▸ h2)
      | took t m x =>
        cases x with
        | none => exact key h2
        | some x =>
          by_cases hm : k = m
          · rw [show (Ev.took t m (some x)).on (fun m => value d m l) k = none from if_pos hm] at h2
            cases h2
          · exact key ((show (Ev.took t m (some x)).on (fun m => value d m l) k = value d k l from if_neg hm) ▸ h2)
      | _ => exact key h2

/-! ## Keys that are used by one thread at a time -/

/-- The operation is over with this event. -/
def Ev.ends : Ev → Bool
  | .added .. | .changed .. | .removed .. | .same .. | .fail .. => true
  | _ => false

/-- Going by the events, thread `t` is in an assignment or deletion of key `k`: it began one and has not ended it. -/
def InOp (t k : Nat) (L : List Ev) : Prop :=
  ∃ A e B, L = A ++ e :: B ∧ ((∃ v, e = .call t k v) ∨ e = .callD t k) ∧ ∀ x ∈ B, x.thread = t → x.ends = false

/-- The key of the current operation. -/
def Ctl.key : Ctl → Option Nat
  | .run _ => none
  | .has k _ _ | .adding k _ _ | .putNew k _ _ | .added k _ _ | .old k _ _ | .same k _ _ => some k
  | .changing k _ _ _ | .putOld k _ _ _ | .changed k _ _ _ => some k
  | .item k _ | .removing k _ _ | .take k _ _ | .removed k _ _ | .raise k _ _ => some k

theorem part_begin {t k : Nat} {m : List Ev} {x : Ctl} (h : x.Part t m) (hk : x.key = some k) :
    ∃ e m', m = e :: m' ∧ ((∃ v, e = .call t k v) ∨ e = .callD t k) ∧ ∀ x ∈ m', x.ends = false := by
  cases x with
  | run c => cases hk
  | has _ v c => cases hk; obtain rfl : m = _ := h; exact ⟨_, _, rfl, .inl ⟨v, rfl⟩, by simp [Ev.ends]⟩
  | adding _ v c => cases hk; obtain rfl : m = _ := h; exact ⟨_, _, rfl, .inl ⟨v, rfl⟩, by simp [Ev.ends]⟩
  | putNew _ v c => cases hk; obtain rfl : m = _ := h; exact ⟨_, _, rfl, .inl ⟨v, rfl⟩, by simp [Ev.ends]⟩
  | added _ v c => cases hk; obtain rfl : m = _ := h; exact ⟨_, _, rfl, .inl ⟨v, rfl⟩, by simp [Ev.ends]⟩
  | old _ v c => cases hk; obtain rfl : m = _ := h; exact ⟨_, _, rfl, .inl ⟨v, rfl⟩, by simp [Ev.ends]⟩
  | same _ v c => cases hk; obtain rfl : m = _ := h; exact ⟨_, _, rfl, .inl ⟨v, rfl⟩, by simp [Ev.ends]⟩
  | changing _ v o c => cases hk; obtain ⟨_, rfl⟩ := h; exact ⟨_, _, rfl, .inl ⟨v, rfl⟩, by simp [Ev.ends]⟩
  | putOld _ v o c => cases hk; obtain ⟨_, rfl⟩ := h; exact ⟨_, _, rfl, .inl ⟨v, rfl⟩, by simp [Ev.ends]⟩
  | changed _ v o c => cases hk; obtain ⟨_, rfl⟩ := h; exact ⟨_, _, rfl, .inl ⟨v, rfl⟩, by simp [Ev.ends]⟩
  | item _ c => cases hk; obtain rfl : m = _ := h; exact ⟨_, _, rfl, .inr rfl, by simp⟩
  | removing _ i c => cases hk; obtain rfl : m = _ := h; exact ⟨_, _, rfl, .inr rfl, by simp [Ev.ends]⟩
  | take _ i c => cases hk; obtain rfl : m = _ := h; exact ⟨_, _, rfl, .inr rfl, by simp [Ev.ends]⟩
  | removed _ i c => cases hk; obtain ⟨x, rfl⟩ := h; exact ⟨_, _, rfl, .inr rfl, by simp [Ev.ends]⟩
  | raise _ v c =>
    cases hk
    cases v with
    | some v => obtain rfl : m = _ := h; exact ⟨_, _, rfl, .inl ⟨v, rfl⟩, by simp [Ev.ends]⟩
    | none =>
      rcases h with rfl | ⟨i, rfl⟩
      · exact ⟨_, _, rfl, .inr rfl, by simp [Ev.ends]⟩
      · exact ⟨_, _, rfl, .inr rfl, by simp [Ev.ends]⟩

theorem inOp_of_key {d : Dict} {prog : Nat → Code} {s : List Nat} {t k : Nat} (hk : ((run s (init d prog)).thr t).key = some k) :
    InOp t k (run s (init d prog)).log := by
  obtain ⟨l, m, _, h2, h3⟩ := blocked_run d prog s t
  obtain ⟨e, m', rfl, h4, h5⟩ := part_begin h2 hk
  obtain ⟨A, B, h6, _, h7⟩ := only_append h3
  obtain ⟨A', B', rfl, _, h8⟩ := only_cons h7
  refine ⟨A ++ A', e, B', by rw [h6]; simp, h4, fun x hx ht => h5 x ?_⟩
  rw [← h8]
  exact List.mem_filter.mpr ⟨hx, by simpa using ht⟩

/-- What the key holds and what the copy has while a thread works with it alone. -/
def Ctl.Knows (val mir : Option Nat) : Ctl → Prop
  | .run _ => True
  | .has _ _ _ | .item _ _ => val = mir
  | .adding _ _ _ | .putNew _ _ _ => val = mir ∧ mir = none
  | .added _ v _ => val = some v ∧ mir = none
  | .old _ _ _ => val = mir ∧ mir.isSome
  | .same _ v _ => val = mir ∧ mir = some v
  | .changing _ _ o _ | .putOld _ _ o _ => val = mir ∧ mir = some o
  | .changed _ v o _ => val = some v ∧ mir = some o
  | .removing _ i _ | .take _ i _ => val = mir ∧ mir = some i
  | .removed _ i _ => val = none ∧ mir = some i
  | .raise _ v _ => val = mir ∧ mir = none ∧ v = none

structure Known (d : Dict) (k : Nat) (σ : St) : Prop where
  knows : ∀ t, (σ.thr t).key = some k → (σ.thr t).Knows (σ.dict k) (mirror d k σ.log)
  rest : (∀ t, (σ.thr t).key ≠ some k) → σ.dict k = mirror d k σ.log

/-- At most one thread works with `k`. -/
def One (k : Nat) (σ : St) : Prop := ∀ t u, (σ.thr t).key = some k → (σ.thr u).key = some k → t = u

/-- What an event does to the copy. -/
def Ev.copy (x : Option Nat) (k : Nat) : Ev → Option Nat
  | .added _ m v => if m = k then some v else x
  | .changed _ m _ v => if m = k then some v else x
  | .removed _ m _ => if m = k then none else x
  | _ => x

theorem mirror_snoc (d : Dict) (k : Nat) (l : List Ev) (e : Ev) : mirror d k (l ++ [e]) = e.copy (mirror d k l) k := by
  cases e <;> simp [mirror, Ev.copy, List.foldl_append]

/-- A step for another key changes neither the key nor the copy; a step that begins an operation neither. -/
theorem next_other {d : Dict} {t k : Nat} {x y : Ctl} {e : Ev} {c : Option Nat} (h : next d t x = some (e, y)) (hk : x.key ≠ some k) :
    e.on d k = d k ∧ e.copy c k = c := by
  cases x with
  | run c => cases c <;> first | (cases h; exact ⟨rfl, rfl⟩) | cases h
  | putNew m v _ =>
    cases h
    have : m ≠ k := fun e => hk (by rw [e]; rfl)
    exact ⟨if_neg (fun e => this e.symm), rfl⟩
  | putOld m v o _ =>
    cases h
    have : m ≠ k := fun e => hk (by rw [e]; rfl)
    exact ⟨if_neg (fun e => this e.symm), rfl⟩
  | take m i _ =>
    cases h
    have : m ≠ k := fun e => hk (by rw [e]; rfl)
    refine ⟨?_, rfl⟩
    cases d m with
    | none => rfl
    | some o => exact if_neg (fun e => this e.symm)
  | added m v _ => cases h; exact ⟨rfl, if_neg (fun e => hk (by rw [e]; rfl))⟩
  | changed m v o _ => cases h; exact ⟨rfl, if_neg (fun e => hk (by rw [e]; rfl))⟩
  | removed m i _ => cases h; exact ⟨rfl, if_neg (fun e => hk (by rw [e]; rfl))⟩
  | _ => cases h; exact ⟨rfl, rfl⟩

/-- The key stays the same during an operation. -/
theorem next_key {d : Dict} {t k m : Nat} {x y : Ctl} {e : Ev} (h : next d t x = some (e, y)) (hx : x.key = some m) (hy : y.key = some k) : m = k := by
  cases x with
  | run c => cases hx
  | has m v c =>
    cases hx
    cases hd : d m with
    | none => simp only [next, hd] at h; cases h; cases hy; rfl
    | some o => simp only [next, hd] at h; cases h; cases hy; rfl
  | old m v c =>
    cases hx
    cases hd : d m with
    | none => simp only [next, hd] at h; cases h; cases hy; rfl
    | some o =>
      simp only [next, hd] at h
      by_cases hv : v = o
      · rw [if_pos hv] at h; cases h; cases hy; rfl
      · rw [if_neg hv] at h; cases h; cases hy; rfl
  | item m c =>
    cases hx
    cases hd : d m with
    | none => simp only [next, hd] at h; cases h; cases hy; rfl
    | some o => simp only [next, hd] at h; cases h; cases hy; rfl
  | take m i c =>
    cases hx
    cases hd : d m with
    | none => simp only [next, hd] at h; cases h; cases hy; rfl
    | some o => simp only [next, hd] at h; cases h; cases hy; rfl
  | _ => cases hx; cases h; first | (cases hy; rfl) | cases hy

/-- A step of the thread that works with the key alone. -/
theorem next_own {d : Dict} {t k : Nat} {x y : Ctl} {e : Ev} {mir : Option Nat} (h : next d t x = some (e, y)) (hx : x.key = some k)
    (hk : x.Knows (d k) mir) :
    (y.key = some k ∧ y.Knows (e.on d k) (e.copy mir k)) ∨ (y.key = none ∧ e.on d k = e.copy mir k) := by
  cases x with
  | run c => cases hx
  | has m v c =>
    cases hx
    cases hd : d k with
    | none =>
      rw [hd] at hk
      simp only [next, hd] at h
      cases h
      exact .inl ⟨rfl, by show d k = mir ∧ _; rw [hd]; exact ⟨hk, hk.symm⟩⟩
    | some o =>
      rw [hd] at hk
      simp only [next, hd] at h
      cases h
      exact .inl ⟨rfl, by show d k = mir ∧ _; rw [hd]; exact ⟨hk, by rw [← show some o = mir from hk]; rfl⟩⟩
  | old m v c =>
    cases hx
    obtain ⟨h1, h2⟩ := hk
    cases hd : d k with
    | none => rw [← h1, hd] at h2; cases h2
    | some o =>
      rw [hd] at h1
      simp only [next, hd] at h
      by_cases hv : v = o
      · rw [if_pos hv] at h; cases h
        exact .inl ⟨rfl, by show d k = mir ∧ mir = some v; rw [hd, hv]; exact ⟨h1, h1.symm⟩⟩
      · rw [if_neg hv] at h; cases h
        exact .inl ⟨rfl, by show d k = mir ∧ mir = some o; rw [hd]; exact ⟨h1, h1.symm⟩⟩
  | item m c =>
    cases hx
    have hk : d k = mir := hk
    cases hd : d k with
    | none =>
      rw [hd] at hk
      simp only [next, hd] at h
      cases h
      exact .inl ⟨rfl, by show d k = mir ∧ mir = none ∧ none = none; rw [hd]; exact ⟨hk, hk.symm, rfl⟩⟩
    | some o =>
      rw [hd] at hk
      simp only [next, hd] at h
      cases h
      exact .inl ⟨rfl, by show d k = mir ∧ mir = some o; rw [hd]; exact ⟨hk, hk.symm⟩⟩
  | take m i c =>
    cases hx
    obtain ⟨h1, h2⟩ := hk
    rw [h2] at h1
    simp only [next, h1] at h
    cases h
    exact .inl ⟨rfl, if_pos rfl, h2⟩
  | putNew m v c => cases hx; cases h; exact .inl ⟨rfl, if_pos rfl, hk.2⟩
  | putOld m v o c => cases hx; cases h; exact .inl ⟨rfl, if_pos rfl, hk.2⟩
  | added m v c => cases hx; cases h; exact .inr ⟨rfl, hk.1.trans (if_pos rfl).symm⟩
  | changed m v o c => cases hx; cases h; exact .inr ⟨rfl, hk.1.trans (if_pos rfl).symm⟩
  | removed m i c => cases hx; cases h; exact .inr ⟨rfl, hk.1.trans (if_pos rfl).symm⟩
  | same m v c => cases hx; cases h; exact .inr ⟨rfl, hk.1⟩
  | raise m v c => cases hx; cases h; exact .inr ⟨rfl, hk.1⟩
  | adding m v c => cases hx; cases h; exact .inl ⟨rfl, hk⟩
  | changing m v o c => cases hx; cases h; exact .inl ⟨rfl, hk⟩
  | removing m i c => cases hx; cases h; exact .inl ⟨rfl, hk⟩

/-- Beginning an operation. -/
theorem next_begin {d : Dict} {t k : Nat} {x y : Ctl} {e : Ev} {mir : Option Nat} (h : next d t x = some (e, y)) (hx : x.key = none)
    (hy : y.key = some k) (hm : d k = mir) : y.Knows (e.on d k) (e.copy mir k) := by
  cases x with
  | run c =>
    cases c with
    | ret => cases h
    | set m v c => cases h; cases hy; exact hm
    | del m c => cases h; cases hy; exact hm
    | get m c => cases h; cases hy
  | _ => cases hx

theorem known_step {d : Dict} {k : Nat} {σ : St} (h : Known d k σ) (t : Nat) (h1 : One k σ) (h2 : One k (step σ t)) : Known d k (step σ t) := by
  cases hn : next σ.dict t (σ.thr t) with
  | none => rw [step_none hn]; exact h
  | some p =>
    obtain ⟨e, x⟩ := p
    rw [step_some hn] at h2 ⊢
    by_cases hk : (σ.thr t).key = some k
    · have hown := next_own hn hk (h.knows t hk)
      refine ⟨fun u hu => ?_, fun hr => ?_⟩
      · have hu : (if u = t then x else σ.thr u).key = some k := hu
        show Ctl.Knows (e.on σ.dict k) (mirror d k (σ.log ++ [e])) (if u = t then x else σ.thr u)
        by_cases hut : u = t
        · rw [if_pos hut] at hu ⊢
          rcases hown with ⟨_, h3⟩ | ⟨h3, _⟩
          · rw [mirror_snoc]; exact h3
          · rw [h3] at hu; cases hu
        · rw [if_neg hut] at hu
          exact absurd (h1 u t hu hk) hut
      · show e.on σ.dict k = mirror d k (σ.log ++ [e])
        rcases hown with ⟨h3, _⟩ | ⟨_, h3⟩
        · have := hr t
          exact absurd (show (if t = t then x else σ.thr t).key = some k from by rw [if_pos rfl]; exact h3) this
        · rw [mirror_snoc]; exact h3
    · obtain ⟨h3, h4⟩ := next_other (c := mirror d k σ.log) hn hk
      refine ⟨fun u hu => ?_, fun hr => ?_⟩
      · have hu' : (if u = t then x else σ.thr u).key = some k := hu
        show Ctl.Knows (e.on σ.dict k) (mirror d k (σ.log ++ [e])) (if u = t then x else σ.thr u)
        by_cases hut : u = t
        · rw [if_pos hut] at hu' ⊢
          rw [mirror_snoc]
          have hxn : (σ.thr t).key = none := by
            cases hkey : (σ.thr t).key with
            | none => rfl
            | some m => exact absurd (hkey.trans (by rw [next_key hn hkey hu'])) hk
          refine next_begin hn hxn hu' (h.rest (fun w hw => ?_))
          have hwt : w ≠ t := fun e => by rw [e, hxn] at hw; cases hw
          have := h2 u w hu (show (if w = t then x else σ.thr w).key = some k from by rw [if_neg hwt]; exact hw)
          exact hwt (this.symm.trans hut)
        · rw [if_neg hut] at hu' ⊢
          rw [mirror_snoc, h3, h4]
          exact h.knows u hu'
      · show e.on σ.dict k = mirror d k (σ.log ++ [e])
        rw [mirror_snoc, h3, h4]
        refine h.rest (fun w hw => ?_)
        by_cases hwt : w = t
        · rw [hwt] at hw; exact hk hw
        · exact hr w (show (if w = t then x else σ.thr w).key = some k from by rw [if_neg hwt]; exact hw)

theorem known_from {d : Dict} {k : Nat} : ∀ (s : List Nat) {σ : St}, Known d k σ → (∀ p q, s = p ++ q → One k (run p σ)) → Known d k (run s σ)
  | [], _, h, _ => h
  | t :: s, _, h, h1 => known_from s (known_step h t (h1 [] (t :: s) rfl) (h1 [t] s rfl)) (fun p q e => h1 (t :: p) q (by rw [e]; rfl))

theorem known_run {d : Dict} {prog : Nat → Code} {k : Nat} {s : List Nat}
    (h : ∀ p q, s = p ++ q → ∀ t u, InOp t k (run p (init d prog)).log → InOp u k (run p (init d prog)).log → t = u) :
    Known d k (run s (init d prog)) :=
  known_from s ⟨fun _ hk => (nomatch (show (none : Option Nat) = some k from hk)), fun _ => rfl⟩ (fun p q e t u ht hu => h p q e t u (inOp_of_key ht) (inOp_of_key hu))

theorem log_grows : ∀ (q : List Nat) (σ : St), ∃ l, (run q σ).log = σ.log ++ l
  | [], σ => ⟨[], by simp [run]⟩
  | t :: q, σ => by
    obtain ⟨l, h⟩ := log_grows q (step σ t)
    show ∃ l', (run q (step σ t)).log = σ.log ++ l'
    rw [h]
    cases hn : next σ.dict t (σ.thr t) with
    | none => rw [step_none hn]; exact ⟨l, rfl⟩
    | some p => obtain ⟨e, x⟩ := p; rw [step_some hn]; exact ⟨e :: l, by simp⟩

theorem run_append (p q : List Nat) (σ : St) : run (p ++ q) σ = run q (run p σ) := by simp [run, List.foldl_append]

end Psygnal.DcC
