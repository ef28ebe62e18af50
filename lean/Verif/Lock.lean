import Verif.SetTurns
import Verif.DictTurns
import Verif.ListTurns
import Verif.AttrTurns
import Verif.DelayTurns

/-!
# A lock around operations: model and helpers for C99

The repository has no such lock: user code puts each operation in a block `with lock:`, with one `threading.Lock` per object.
-/
namespace Psygnal.Lk

/-- One step of thread `t` when every operation is made in a block `with lock:`; the second component is the thread that holds the lock.  `inside σ t`: thread
`t` is in an operation.  A thread that would begin one while another holds the lock waits; the lock is let go with the end of the operation.  User code around
`/repo/src/psygnal/containers/_evented_set.py:38-322`, `/repo/src/psygnal/containers/_evented_dict.py:176-192`,
`/repo/src/psygnal/containers/_evented_list.py:137-290`, `/repo/src/psygnal/_group_descriptor.py:387-402`, `/repo/src/psygnal/_evented_model.py:594-668`. -/
def step {S : Type} (next : S → Nat → S) (inside : S → Nat → Bool) (p : S × Option Nat) (t : Nat) : S × Option Nat :=
  match p.2 with
  | none => (next p.1 t, if inside (next p.1 t) t then some t else none)
  | some u =>
    if u = t then (next p.1 t, if inside (next p.1 t) t then some t else none)
    else if inside (next p.1 t) t then p
    else (next p.1 t, some u)

/-- A schedule: which thread makes the next step (user code around `/repo/src/psygnal/containers/_evented_set.py:38-322` and the others of `step`). -/
def run {S : Type} (next : S → Nat → S) (inside : S → Nat → Bool) (s : List Nat) (p : S × Option Nat) : S × Option Nat := s.foldl (step next inside) p

/-- The run without lock that a run with lock is, in which no two threads are in operations at the same time
(user code around `/repo/src/psygnal/containers/_evented_set.py:38-322` and the others of `step`). -/
structure Is {S : Type} (next : S → Nat → S) (inside : S → Nat → Bool) (σ0 : S) (s : List Nat) (p : S × Option Nat) : Prop where
  same : p.1 = s.foldl next σ0
  one : ∀ a b, s = a ++ b → ∀ t u, inside (a.foldl next σ0) t = true → inside (a.foldl next σ0) u = true → t = u
  owner : ∀ u, inside p.1 u = true → p.2 = some u
  held : ∀ u, p.2 = some u → inside p.1 u = true

theorem is_step {S : Type} {next : S → Nat → S} {inside : S → Nat → Bool} (ho : ∀ σ t u, u ≠ t → inside (next σ t) u = inside σ u) {σ0 : S} {s : List Nat}
    {p : S × Option Nat} (h : Is next inside σ0 s p) (t : Nat) : ∃ s', Is next inside σ0 s' (step next inside p t) := by
  have go : ∀ o, (∀ u, inside (next p.1 t) u = true → o = some u) → (∀ u, o = some u → inside (next p.1 t) u = true) → Is next inside σ0 (s ++ [t]) (next p.1 t, o) := by
    intro o hw hh
    have hs : (s ++ [t]).foldl next σ0 = next p.1 t := by rw [List.foldl_append, ← h.same]; rfl
    refine ⟨hs.symm, fun a b e u w hu hw' => ?_, hw, hh⟩
    rcases List.eq_nil_or_concat b with rfl | ⟨b, x, rfl⟩
    · rw [List.append_nil] at e
      rw [← e, hs] at hu hw'
      exact Option.some.inj ((hw u hu).symm.trans (hw w hw'))
    · rw [List.concat_eq_append, ← List.append_assoc] at e
      exact h.one a b (List.append_inj_left' e rfl) u w hu hw'
  unfold step
  cases hp : p.2 with
  | none =>
    refine ⟨_, go _ (fun u hu => ?_) ?_⟩
    by_cases hut : u = t
    · subst hut; simp [hu]
    · rw [ho _ _ _ hut] at hu
      have := h.owner u hu
      rw [hp] at this; cases this
    · intro u hu
      split at hu
      · rename_i hi; rw [← Option.some.inj hu]; exact hi
      · cases hu
  | some w =>
    dsimp only
    split
    · rename_i e; subst e
      refine ⟨_, go _ (fun u hu => ?_) ?_⟩
      by_cases hut : u = w
      · subst hut; simp [hu]
      · rw [ho _ _ _ hut] at hu
        have := h.owner u hu
        rw [hp] at this; exact absurd (Option.some.inj this).symm hut
      · intro u hu
        split at hu
        · rename_i hi; rw [← Option.some.inj hu]; exact hi
        · cases hu
    · split
      · exact ⟨s, h⟩
      · rename_i hwt hi
        refine ⟨_, go _ (fun u hu => ?_) ?_⟩
        by_cases hut : u = t
        · subst hut; exact absurd hu hi
        · rw [ho _ _ _ hut] at hu
          rw [← hp]; exact h.owner u hu
        · intro u hu
          obtain rfl := Option.some.inj hu
          rw [ho _ _ _ hwt]; exact h.held _ hp

theorem is_run {S : Type} {next : S → Nat → S} {inside : S → Nat → Bool} (ho : ∀ σ t u, u ≠ t → inside (next σ t) u = inside σ u) {σ0 : S} :
    ∀ (l : List Nat) {s : List Nat} {p : S × Option Nat}, Is next inside σ0 s p → ∃ s', Is next inside σ0 s' (run next inside l p)
  | [], s, _, h => ⟨s, h⟩
  | t :: l, _, _, h => by
    obtain ⟨s', h'⟩ := is_step ho h t
    exact is_run ho l h'

theorem is_init {S : Type} {next : S → Nat → S} {inside : S → Nat → Bool} {σ0 : S} (h0 : ∀ t, inside σ0 t = false) : Is next inside σ0 [] (σ0, none) := by
  refine ⟨rfl, fun a b e t u ht _ => ?_, fun u hu => ?_, fun u hu => nomatch hu⟩
  · obtain ⟨rfl, _⟩ := List.append_eq_nil_iff.mp e.symm
    rw [List.foldl_nil, h0] at ht; cases ht
  · rw [h0] at hu; cases hu

/-- Every run with lock is one without in which operations do not overlap; if nobody holds the lock, nobody is in one. -/
theorem locked {S : Type} {next : S → Nat → S} {inside : S → Nat → Bool} (ho : ∀ σ t u, u ≠ t → inside (next σ t) u = inside σ u) {σ0 : S}
    (h0 : ∀ t, inside σ0 t = false) (l : List Nat) :
    ∃ s : List Nat, (run next inside l (σ0, none)).1 = s.foldl next σ0 ∧
      (∀ a b : List Nat, s = a ++ b → ∀ t u, inside (a.foldl next σ0) t = true → inside (a.foldl next σ0) u = true → t = u) ∧
      ((run next inside l (σ0, none)).2 = none → ∀ t, inside (s.foldl next σ0) t = false) := by
  obtain ⟨s, h⟩ := is_run ho l (is_init (next := next) h0)
  refine ⟨s, h.same, h.one, fun hn t => ?_⟩
  cases hi : inside (s.foldl next σ0) t with
  | false => rfl
  | true =>
    rw [← h.same] at hi
    rw [h.owner t hi] at hn; cases hn

theorem lets_go {S : Type} {next : S → Nat → S} {inside : S → Nat → Bool} {t : Nat} : ∀ (k : Nat) {p : S × Option Nat}, p.2 = some t → inside p.1 t = true →
    inside ((List.replicate k t).foldl next p.1) t = false → ∃ j, (run next inside (List.replicate j t) p).2 = none
  | 0, p, _, h1, h2 => by rw [List.replicate_zero, List.foldl_nil, h1] at h2; cases h2
  | k + 1, p, h0, _, h2 => by
    have hs : step next inside p t = (next p.1 t, if inside (next p.1 t) t then some t else none) := by
      unfold step; rw [h0]; simp
    cases hi : inside (next p.1 t) t with
    | false => exact ⟨1, by show (step next inside p t).2 = none; rw [hs, hi]; rfl⟩
    | true =>
      rw [hi] at hs
      obtain ⟨j, hj⟩ := lets_go k (p := step next inside p t) (by rw [hs]; rfl) (by rw [hs]; exact hi) (by rw [hs]; exact h2)
      exact ⟨j + 1, hj⟩

/-- Whoever holds the lock lets it go if operations end. -/
theorem frees {S : Type} {next : S → Nat → S} {inside : S → Nat → Bool} (ho : ∀ σ t u, u ≠ t → inside (next σ t) u = inside σ u) {σ0 : S}
    (h0 : ∀ t, inside σ0 t = false) (l : List Nat) {t : Nat} (ht : (run next inside l (σ0, none)).2 = some t)
    (hf : ∀ s : List Nat, (run next inside l (σ0, none)).1 = s.foldl next σ0 →
      (∀ a b : List Nat, s = a ++ b → ∀ t u, inside (a.foldl next σ0) t = true → inside (a.foldl next σ0) u = true → t = u) →
      ∃ k, inside ((List.replicate k t).foldl next (s.foldl next σ0)) t = false) :
    ∃ k, (run next inside (l ++ List.replicate k t) (σ0, none)).2 = none := by
  obtain ⟨s, h⟩ := is_run ho l (is_init (next := next) h0)
  obtain ⟨k, hk⟩ := hf s h.same h.one
  rw [← h.same] at hk
  obtain ⟨j, hj⟩ := lets_go k ht (h.held t ht) hk
  exact ⟨j, by unfold run at *; rw [List.foldl_append]; exact hj⟩

end Psygnal.Lk

namespace Psygnal.StC

/-- Thread `t` is in a method that changes the set (`/repo/src/psygnal/containers/_evented_set.py:38-67,127-170,273-300`). -/
def inside (σ : St) (t : Nat) : Bool := match σ.thr t with
  | .run _ => false
  | _ => true

theorem inside_busy (σ : St) (t : Nat) : inside σ t = (σ.thr t).busy := by
  unfold inside Ctl.busy; cases σ.thr t <;> rfl

theorem inside_other (σ : St) (t u : Nat) (h : u ≠ t) : inside (step σ t) u = inside σ u := by
  unfold inside step
  cases next σ.data t (σ.thr t) with
  | none => rfl
  | some p => dsimp only; rw [if_neg h]

/-- A thread there gets out by itself (`/repo/src/psygnal/containers/_evented_set.py:38-322`). -/
def Ends (t : Nat) (x : Ctl) : Prop := ∀ σ : St, σ.thr t = x → ∃ k, inside ((List.replicate k t).foldl step σ) t = false

theorem ends_of {t : Nat} {x : Ctl} (h : ∀ d, ∃ e y, next d t x = some (e, y) ∧ Ends t y) : Ends t x := by
  rintro σ rfl
  obtain ⟨e, y, h1, h2⟩ := h σ.data
  obtain ⟨k, hk⟩ := h2 (step σ t) (by unfold step; rw [h1]; dsimp only; rw [if_pos rfl])
  exact ⟨k + 1, hk⟩

theorem ends_run (t : Nat) (c : Code) : Ends t (.run c) := fun σ h => ⟨0, by show inside σ t = false; unfold inside; rw [h]⟩

theorem ends_done (t : Nat) (o : Call) (c : Code) : Ends t (.done o c) := ends_of fun _ => ⟨_, _, rfl, ends_run t c⟩

theorem ends_forget (t : Nat) (o : Call) (c : Code) : Ends t (.forget o c) := ends_of fun _ => ⟨_, _, rfl, ends_done t o c⟩

theorem ends_resume (t : Nat) (o : Call) (c : Code) : Ends t (.resume o c) :=
  ends_of fun _ => ⟨_, _, rfl, ends_of fun d => ⟨_, _, rfl, by
    split
    · exact ends_done t o c
    · exact ends_of fun _ => ⟨_, _, rfl, ends_of fun _ => ⟨_, _, rfl, ends_forget t o c⟩⟩⟩⟩

theorem ends_emit {t : Nat} {k : Rest} (h : Ends t k.go) (a r : List Nat) : Ends t (.emit a r k) :=
  ends_of fun _ => ⟨_, _, rfl, by
    split
    · exact ends_of fun _ => ⟨_, _, rfl, h⟩
    · exact ends_of fun _ => ⟨_, _, rfl, h⟩⟩

theorem ends_testA {t : Nat} {k : Rest} (h : Ends t k.go) (x : Nat) : Ends t (.testA x k) :=
  ends_of fun _ => ⟨_, _, rfl, by
    split
    · exact h
    · exact ends_of fun _ => ⟨_, _, rfl, ends_emit h _ _⟩⟩

theorem ends_testD {t : Nat} {k : Rest} (h : Ends t k.go) (x : Nat) : Ends t (.testD x k) :=
  ends_of fun _ => ⟨_, _, rfl, by
    split
    · exact ends_of fun _ => ⟨_, _, rfl, ends_emit h _ _⟩
    · exact h⟩

theorem ends_testS {t : Nat} {k : Rest} (h : Ends t k.go) (x : Nat) : Ends t (.testS x k) :=
  ends_of fun _ => ⟨_, _, rfl, by
    split
    · exact ends_testD h x
    · exact ends_testA h x⟩

theorem ends_go (t : Nat) (o : Call) (w : Option Bool) (c : Code) : ∀ ds : List Do, Ends t (Rest.go ⟨o, ds, w, c⟩)
  | [] => by
    unfold Rest.go
    dsimp only
    split
    · exact ends_resume t o c
    · exact ends_done t o c
  | .add x :: ds => ends_testA (ends_go t o w c ds) x
  | .del x :: ds => ends_testD (ends_go t o w c ds) x
  | .flip x :: ds => ends_testS (ends_go t o w c ds) x

theorem ends_all (t : Nat) (x : Ctl) : Ends t x := by
  have hw : ∀ l w c, Ends t (.wipe l w c) := fun l w c => ends_of fun _ => ⟨_, _, rfl, ends_emit (ends_go t _ _ _ []) _ _⟩
  have hC : ∀ w c, Ends t (.itemsC w c) := fun w c => ends_of fun _ => ⟨_, _, rfl, hw _ _ _⟩
  have hI : ∀ xs w c, Ends t (.itemsI xs w c) := fun xs w c => ends_of fun _ => ⟨_, _, rfl, ends_go t _ _ _ _⟩
  have hE : ∀ w c, Ends t (.empty w c) := fun w c => ends_of fun _ => ⟨_, _, rfl, by
    split
    · exact ends_go t _ _ _ []
    · exact hC w c⟩
  have hp : ∀ o w c, Ends t (.pause o w c) := fun o w c => ends_of fun _ => ⟨_, _, rfl, by
    cases o with
    | add x => exact ends_testA (ends_go t _ _ _ _) x
    | discard x => exact ends_testD (ends_go t _ _ _ _) x
    | update xs => exact ends_go t _ _ _ _
    | diff xs => exact ends_go t _ _ _ _
    | sym xs => exact ends_go t _ _ _ _
    | inter xs => exact hI _ _ _
    | clear => exact hE _ _⟩
  have hF : ∀ o c, Ends t (.forget o c) := ends_forget t
  cases x with
  | run c => exact ends_run t c
  | testA x k => exact ends_testA (ends_go t _ _ _ _) x
  | put x k => exact ends_of fun _ => ⟨_, _, rfl, ends_emit (ends_go t _ _ _ _) _ _⟩
  | testD x k => exact ends_testD (ends_go t _ _ _ _) x
  | drop x k => exact ends_of fun _ => ⟨_, _, rfl, ends_emit (ends_go t _ _ _ _) _ _⟩
  | testS x k => exact ends_testS (ends_go t _ _ _ _) x
  | emit a r k => exact ends_emit (ends_go t _ _ _ _) _ _
  | record a r k => exact ends_of fun _ => ⟨_, _, rfl, ends_go t _ _ _ _⟩
  | tell a r k => exact ends_of fun _ => ⟨_, _, rfl, ends_go t _ _ _ _⟩
  | was o c => exact ends_of fun _ => ⟨_, _, rfl, hp _ _ _⟩
  | pause o w c => exact hp o w c
  | empty w c => exact hE w c
  | itemsC w c => exact hC w c
  | wipe l w c => exact hw l w c
  | itemsI xs w c => exact hI xs w c
  | resume o c => exact ends_resume t o c
  | any o c => exact ends_of fun _ => ⟨_, _, rfl, by
      split
      · exact ends_done t o c
      · exact ends_of fun _ => ⟨_, _, rfl, ends_of fun _ => ⟨_, _, rfl, hF o c⟩⟩⟩
  | reduce o c => exact ends_of fun _ => ⟨_, _, rfl, ends_of fun _ => ⟨_, _, rfl, hF o c⟩⟩
  | tellR o a r c => exact ends_of fun _ => ⟨_, _, rfl, hF o c⟩
  | forget o c => exact hF o c
  | done o c => exact ends_done t o c

end Psygnal.StC

namespace Psygnal.DcC

/-- Thread `t` is in an assignment or a deletion (`/repo/src/psygnal/containers/_evented_dict.py:176-192`). -/
def inside (σ : St) (t : Nat) : Bool := match σ.thr t with
  | .run _ => false
  | _ => true

theorem inside_busy (σ : St) (t : Nat) : inside σ t = (σ.thr t).busy := by
  unfold inside Ctl.busy; cases σ.thr t <;> rfl

theorem inside_other (σ : St) (t u : Nat) (h : u ≠ t) : inside (step σ t) u = inside σ u := by
  unfold inside step
  cases next σ.dict t (σ.thr t) with
  | none => rfl
  | some p => dsimp only; rw [if_neg h]

/-- A thread there gets out by itself (`/repo/src/psygnal/containers/_evented_dict.py:176-192`). -/
def Ends (t : Nat) (x : Ctl) : Prop := ∀ σ : St, σ.thr t = x → ∃ k, inside ((List.replicate k t).foldl step σ) t = false

theorem ends_of {t : Nat} {x : Ctl} (h : ∀ d, ∃ e y, next d t x = some (e, y) ∧ Ends t y) : Ends t x := by
  rintro σ rfl
  obtain ⟨e, y, h1, h2⟩ := h σ.dict
  obtain ⟨k, hk⟩ := h2 (step σ t) (by unfold step; rw [h1]; dsimp only; rw [if_pos rfl])
  exact ⟨k + 1, hk⟩

theorem ends_run (t : Nat) (c : Code) : Ends t (.run c) := fun σ h => ⟨0, by show inside σ t = false; unfold inside; rw [h]⟩

theorem ends_all (t : Nat) (x : Ctl) : Ends t x := by
  have one : ∀ {y : Ctl}, (∀ d, ∃ e c, next d t y = some (e, .run c)) → Ends t y := fun h => ends_of fun d => by
    obtain ⟨e, c, hc⟩ := h d
    exact ⟨e, _, hc, ends_run t c⟩
  have h1 : ∀ k v c, Ends t (.added k v c) := fun _ _ _ => one fun _ => ⟨_, _, rfl⟩
  have h2 : ∀ k v c, Ends t (.same k v c) := fun _ _ _ => one fun _ => ⟨_, _, rfl⟩
  have h3 : ∀ k v o c, Ends t (.changed k v o c) := fun _ _ _ _ => one fun _ => ⟨_, _, rfl⟩
  have h4 : ∀ k i c, Ends t (.removed k i c) := fun _ _ _ => one fun _ => ⟨_, _, rfl⟩
  have h5 : ∀ k v c, Ends t (.raise k v c) := fun _ _ _ => one fun _ => ⟨_, _, rfl⟩
  have h6 : ∀ k v c, Ends t (.putNew k v c) := fun _ _ _ => ends_of fun _ => ⟨_, _, rfl, h1 _ _ _⟩
  have h7 : ∀ k v c, Ends t (.adding k v c) := fun _ _ _ => ends_of fun _ => ⟨_, _, rfl, h6 _ _ _⟩
  have h8 : ∀ k v o c, Ends t (.putOld k v o c) := fun _ _ _ _ => ends_of fun _ => ⟨_, _, rfl, h3 _ _ _ _⟩
  have h9 : ∀ k v o c, Ends t (.changing k v o c) := fun _ _ _ _ => ends_of fun _ => ⟨_, _, rfl, h8 _ _ _ _⟩
  have h10 : ∀ k v c, Ends t (.old k v c) := fun _ _ _ => ends_of fun _ => ⟨_, _, rfl, by
    split
    · exact h5 _ _ _
    · split
      · exact h2 _ _ _
      · exact h9 _ _ _ _⟩
  have h11 : ∀ k i c, Ends t (.take k i c) := fun _ _ _ => ends_of fun _ => ⟨_, _, rfl, by
    split
    · exact h4 _ _ _
    · exact h5 _ _ _⟩
  have h12 : ∀ k i c, Ends t (.removing k i c) := fun _ _ _ => ends_of fun _ => ⟨_, _, rfl, h11 _ _ _⟩
  cases x with
  | run c => exact ends_run t c
  | has k v c => exact ends_of fun _ => ⟨_, _, rfl, by
      split
      · exact h10 _ _ _
      · exact h7 _ _ _⟩
  | adding k v c => exact h7 _ _ _
  | putNew k v c => exact h6 _ _ _
  | added k v c => exact h1 _ _ _
  | old k v c => exact h10 _ _ _
  | same k v c => exact h2 _ _ _
  | changing k v o c => exact h9 _ _ _ _
  | putOld k v o c => exact h8 _ _ _ _
  | changed k v o c => exact h3 _ _ _ _
  | item k c => exact ends_of fun _ => ⟨_, _, rfl, by
      split
      · exact h5 _ _ _
      · exact h12 _ _ _⟩
  | removing k i c => exact h12 _ _ _
  | take k i c => exact h11 _ _ _
  | removed k i c => exact h4 _ _ _
  | raise k v c => exact h5 _ _ _

end Psygnal.DcC

namespace Psygnal.LsC

/-- Thread `t` is in an operation that changes the list (`/repo/src/psygnal/containers/_evented_list.py:137-197,271-290`). -/
def inside (σ : St) (t : Nat) : Bool := match σ.thr t with
  | .run _ => false
  | _ => true

theorem inside_busy (σ : St) (t : Nat) : inside σ t = (σ.thr t).busy := by
  unfold inside Ctl.busy; cases σ.thr t <;> rfl

theorem inside_other (σ : St) (t u : Nat) (h : u ≠ t) : inside (step σ t) u = inside σ u := by
  unfold inside step
  cases next σ.data t (σ.thr t) with
  | none => rfl
  | some p => dsimp only; rw [if_neg h]

/-- A thread there gets out by itself (`/repo/src/psygnal/containers/_evented_list.py:137-290`). -/
def Ends (t : Nat) (x : Ctl) : Prop := ∀ σ : St, σ.thr t = x → ∃ k, inside ((List.replicate k t).foldl step σ) t = false

theorem ends_of {t : Nat} {x : Ctl} (h : ∀ d, ∃ e y, next d t x = some (e, y) ∧ Ends t y) : Ends t x := by
  rintro σ rfl
  obtain ⟨e, y, h1, h2⟩ := h σ.data
  obtain ⟨k, hk⟩ := h2 (step σ t) (by unfold step; rw [h1]; dsimp only; rw [if_pos rfl])
  exact ⟨k + 1, hk⟩

theorem ends_run (t : Nat) (c : Code) : Ends t (.run c) := fun σ h => ⟨0, by show inside σ t = false; unfold inside; rw [h]⟩

theorem ends_all (t : Nat) (x : Ctl) : Ends t x := by
  have one : ∀ {y : Ctl}, (∀ d, ∃ e c, next d t y = some (e, .run c)) → Ends t y := fun h => ends_of fun d => by
    obtain ⟨e, c, hc⟩ := h d
    exact ⟨e, _, hc, ends_run t c⟩
  have h1 : ∀ i v c, Ends t (.inserted i v c) := fun _ _ _ => one fun _ => ⟨_, _, rfl⟩
  have h2 : ∀ i v c, Ends t (.ins i v c) := fun _ _ _ => ends_of fun _ => ⟨_, _, rfl, h1 _ _ _⟩
  have h3 : ∀ i v c, Ends t (.same i v c) := fun _ _ _ => one fun _ => ⟨_, _, rfl⟩
  have h4 : ∀ i v o c, Ends t (.changed i v o c) := fun _ _ _ _ => one fun _ => ⟨_, _, rfl⟩
  have h5 : ∀ i v c, Ends t (.failS i v c) := fun _ _ _ => one fun _ => ⟨_, _, rfl⟩
  have h6 : ∀ i v o c, Ends t (.put i v o c) := fun _ _ _ _ => ends_of fun _ => ⟨_, _, rfl, by
    split
    · exact h4 _ _ _ _
    · exact h5 _ _ _⟩
  have h7 : ∀ i j x c, Ends t (.removed i j x c) := fun _ _ _ _ => one fun _ => ⟨_, _, rfl⟩
  have h8 : ∀ i j c, Ends t (.failD i j c) := fun _ _ _ => one fun _ => ⟨_, _, rfl⟩
  have h9 : ∀ i j c, Ends t (.take i j c) := fun _ _ _ => ends_of fun _ => ⟨_, _, rfl, by
    split
    · exact h8 _ _ _
    · exact h7 _ _ _ _⟩
  have h10 : ∀ i j c, Ends t (.removing i j c) := fun _ _ _ => ends_of fun _ => ⟨_, _, rfl, h9 _ _ _⟩
  have h11 : ∀ s d e c, Ends t (.stay s d e c) := fun _ _ _ _ => one fun _ => ⟨_, _, rfl⟩
  have h12 : ∀ s d e c, Ends t (.failM s d e c) := fun _ _ _ _ => one fun _ => ⟨_, _, rfl⟩
  have h13 : ∀ s d e x c, Ends t (.reordered s d e x c) := fun _ _ _ _ _ => one fun _ => ⟨_, _, rfl⟩
  have h14 : ∀ s d e x c, Ends t (.moved s d e x c) := fun _ _ _ _ _ => ends_of fun _ => ⟨_, _, rfl, h13 _ _ _ _ _⟩
  have h15 : ∀ s d e x c, Ends t (.insM s d e x c) := fun _ _ _ _ _ => ends_of fun _ => ⟨_, _, rfl, h14 _ _ _ _ _⟩
  have h16 : ∀ s d e c, Ends t (.takeM s d e c) := fun _ _ _ _ => ends_of fun _ => ⟨_, _, rfl, by
    split
    · exact h12 _ _ _ _
    · exact h15 _ _ _ _ _⟩
  have h17 : ∀ s d e c, Ends t (.moving s d e c) := fun _ _ _ _ => ends_of fun _ => ⟨_, _, rfl, h16 _ _ _ _⟩
  have h18 : ∀ s d e c, Ends t (need s d e c) := fun _ _ _ _ => by
    unfold need
    split
    · exact h11 _ _ _ _
    · exact h17 _ _ _ _
  cases x with
  | run c => exact ends_run t c
  | inserting i v c => exact ends_of fun _ => ⟨_, _, rfl, h2 _ _ _⟩
  | ins i v c => exact h2 _ _ _
  | inserted i v c => exact h1 _ _ _
  | old i v c => exact ends_of fun _ => ⟨_, _, rfl, by
      split
      · exact h5 _ _ _
      · split
        · exact h3 _ _ _
        · exact h6 _ _ _ _⟩
  | same i v c => exact h3 _ _ _
  | put i v o c => exact h6 _ _ _ _
  | changed i v o c => exact h4 _ _ _ _
  | failS i v c => exact h5 _ _ _
  | lenD i c => exact ends_of fun _ => ⟨_, _, rfl, h10 _ _ _⟩
  | removing i j c => exact h10 _ _ _
  | take i j c => exact h9 _ _ _
  | removed i j x c => exact h7 _ _ _ _
  | failD i j c => exact h8 _ _ _
  | lenM s d c => exact ends_of fun _ => ⟨_, _, rfl, h18 _ _ _ _⟩
  | stay s d e c => exact h11 _ _ _ _
  | moving s d e c => exact h17 _ _ _ _
  | takeM s d e c => exact h16 _ _ _ _
  | insM s d e x c => exact h15 _ _ _ _ _
  | moved s d e x c => exact h14 _ _ _ _ _
  | reordered s d e x c => exact h13 _ _ _ _ _
  | failM s d e c => exact h12 _ _ _ _

end Psygnal.LsC

namespace Psygnal.AtC

/-- Thread `t` is in an assignment (`/repo/src/psygnal/_group_descriptor.py:387-402`, `/repo/src/psygnal/_evented_model.py:626-635`). -/
def inside (σ : St) (t : Nat) : Bool := match σ.thr t with
  | .run _ => false
  | _ => true

theorem inside_busy {σ : St} {t n : Nat} (h : (σ.thr t).busy n) : inside σ t = true := by
  unfold inside
  revert h
  cases σ.thr t with
  | run c => exact fun h => h.elim
  | _ => exact fun _ => rfl

theorem inside_other (c : Cfg) (σ : St) (t u : Nat) (h : u ≠ t) : inside (step c σ t) u = inside σ u := by
  have : (step c σ t).thr u = σ.thr u := by
    unfold step
    split <;> first | rfl | (split <;> simp only [St.go, if_neg h]; done) | (simp only [St.go, if_neg h]; done)
  unfold inside; rw [this]

/-- A thread there gets out by itself (`/repo/src/psygnal/_group_descriptor.py:387-402`). -/
def Gets (c : Cfg) (t : Nat) (x : Ctl) : Prop := ∀ σ : St, σ.thr t = x → ∃ k, inside ((List.replicate k t).foldl (step c) σ) t = false

theorem gets_of {c : Cfg} {t : Nat} {x : Ctl} (h : ∀ σ : St, σ.thr t = x → Gets c t ((step c σ t).thr t)) : Gets c t x := by
  intro σ hx
  obtain ⟨k, hk⟩ := h σ hx (step c σ t) rfl
  exact ⟨k + 1, hk⟩

theorem gets_run (c : Cfg) (t : Nat) (k : Code) : Gets c t (.run k) := fun σ h => ⟨0, by show inside σ t = false; unfold inside; rw [h]⟩

theorem gets_all (c : Cfg) (t : Nat) (x : Ctl) : Gets c t x := by
  have h1 : ∀ n v nw old k, Gets c t (.emit n v nw old k) := fun n v nw old k => gets_of fun σ h => by
    unfold step; rw [h]; simp only [St.go, if_pos]; exact gets_run c t k
  have h2 : ∀ n v nw old k, Gets c t (.test n v nw old k) := fun n v nw old k => gets_of fun σ h => by
    unfold step; rw [h]; dsimp only
    split
    · simp only [St.go, if_pos]; exact gets_run c t k
    · simp only [St.go, if_pos]; exact h1 _ _ _ _ _
  have h3 : ∀ n v old k, Gets c t (.new n v old k) := fun n v old k => gets_of fun σ h => by
    unfold step; rw [h]; simp only [St.go, if_pos]; exact h2 _ _ _ _ _
  have h4 : ∀ n v old k, Gets c t (.write n v old k) := fun n v old k => gets_of fun σ h => by
    unfold step; rw [h]; simp only [St.go, if_pos]
    split
    · exact h3 _ _ _ _
    · exact h2 _ _ _ _ _
  have h5 : ∀ n v k, Gets c t (.prev n v k) := fun n v k => gets_of fun σ h => by
    unfold step; rw [h]; simp only [St.go, if_pos]; exact h4 _ _ _ _
  cases x with
  | run k => exact gets_run c t k
  | prev n v k => exact h5 _ _ _
  | write n v old k => exact h4 _ _ _ _
  | new n v old k => exact h3 _ _ _ _
  | test n v nw old k => exact h2 _ _ _ _ _
  | emit n v nw old k => exact h1 _ _ _ _ _

end Psygnal.AtC

namespace Psygnal.DlC

/-- Thread `t` is in an assignment (`/repo/src/psygnal/_evented_model.py:637-640`). -/
def inside (σ : St) (t : Nat) : Bool := match σ.thr t with
  | .idle => false
  | _ => true

theorem inside_busy {σ : St} {t : Nat} : inside σ t = true ↔ σ.thr t ≠ .idle := by
  unfold inside
  cases σ.thr t <;> simp

theorem inside_other (c : Cls) (σ : St) (t u : Nat) (h : u ≠ t) : inside (step c σ t) u = inside σ u := by
  unfold inside; rw [step_other c σ t u h]

end Psygnal.DlC
