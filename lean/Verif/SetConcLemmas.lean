import Verif.SetConc

/-! # Lemmas for C96 -/
namespace Psygnal.StC

/-- The thread of an event. -/
def Ev.thread : Ev → Nat
  | .call t _ | .test t _ _ | .put t _ | .drop t _ | .empty t _ | .items t _ | .wipe t _ | .paused t _ | .record t _ _ | .told t _ _ => t
  | .was t _ | .pause t | .resume t | .any t _ | .reduce t _ _ | .forget t | .done t | .look t _ _ => t

/-- The items of a plain set after what happened to it - items stored, dropped, all dropped - if it had the items `d` before. -/
def value (d : List Nat) (l : List Ev) : List Nat :=
  l.foldl (fun y e => match e with
    | .put _ x => if x ∈ y then y else y ++ [x]
    | .drop _ x => y.filter (· != x)
    | .wipe _ _ => []
    | _ => y) d

/-- Was the signal last paused or last resumed? -/
def stopped (l : List Ev) : Bool :=
  l.foldl (fun b e => match e with
    | .pause _ => true
    | .resume _ => false
    | _ => b) false

/-- What is recorded: everything since the record was last emptied. -/
def recorded (l : List Ev) : List (List Nat × List Nat) :=
  l.foldl (fun q e => match e with
    | .record _ a r => q ++ [(a, r)]
    | .forget _ => []
    | _ => q) []

/-- What someone has who counts item `x`: one if it was in the set, one more whenever it is told to be added, one less whenever it is told to be removed. -/
def heard (d : List Nat) (x : Nat) (l : List Ev) : Int :=
  l.foldl (fun n e => match e with
    | .told _ a r => n + ((a.count x : Int) - r.count x)
    | _ => n) (if x ∈ d then 1 else 0)

/-- No event of thread `t`. -/
def Free (t : Nat) (l : List Ev) : Prop := ∀ e ∈ l, e.thread ≠ t

/-- The events of thread `t`. -/
def only (t : Nat) (l : List Ev) : List Ev := l.filter (fun e => e.thread == t)

/-- `emit`: if the signal is paused the change is recorded, if not it is told. -/
inductive Emit (t : Nat) (a r : List Nat) : List Ev → Prop
  | queued : Emit t a r [.paused t true, .record t a r]
  | told : Emit t a r [.paused t false, .told t a r]

/-- One item is added, discarded, or discarded or added. -/
inductive Sub (t : Nat) : Do → List Ev → Prop
  | addIn (x : Nat) : Sub t (.add x) [.test t x true]
  | add (x : Nat) {m : List Ev} (h : Emit t [x] [] m) : Sub t (.add x) (.test t x false :: .put t x :: m)
  | delOut (x : Nat) : Sub t (.del x) [.test t x false]
  | del (x : Nat) {m : List Ev} (h : Emit t [] [x] m) : Sub t (.del x) (.test t x true :: .drop t x :: m)
  | flipIn (x : Nat) {m : List Ev} (h : Sub t (.del x) m) : Sub t (.flip x) (.test t x true :: m)
  | flipOut (x : Nat) {m : List Ev} (h : Sub t (.add x) m) : Sub t (.flip x) (.test t x false :: m)

/-- Several items, one after the other. -/
inductive Subs (t : Nat) : List Do → List Ev → Prop
  | nil : Subs t [] []
  | item {ds : List Do} {l : List Ev} {d : Do} {m : List Ev} (h : Subs t ds l) (hd : Sub t d m) : Subs t (ds ++ [d]) (l ++ m)

/-- The body of a bulk method. -/
inductive Body (t : Nat) : Call → List Ev → Prop
  | update (xs : List Nat) {m : List Ev} (h : Subs t (xs.map .add) m) : Body t (.update xs) m
  | diff (xs : List Nat) {m : List Ev} (h : Subs t (xs.map .del) m) : Body t (.diff xs) m
  | sym (xs : List Nat) {m : List Ev} (h : Subs t (xs.map .flip) m) : Body t (.sym xs) m
  | inter (xs l : List Nat) {m : List Ev} (h : Subs t ((l.filter (fun i => decide (i ∉ xs))).map .del) m) : Body t (.inter xs) (.items t l :: m)
  | clear0 : Body t .clear [.empty t true]
  | clear (l : List Nat) {m : List Ev} (h : Emit t [] l m) : Body t .clear (.empty t false :: .items t l :: .wipe t l :: m)

/-- The end of a bulk method that found the signal paused, or not: then it resumes, and tells what is recorded. -/
inductive Exit (t : Nat) : Bool → List Ev → Prop
  | was : Exit t true []
  | none : Exit t false [.resume t, .any t false]
  | told (a r : List Nat) : Exit t false [.resume t, .any t true, .reduce t a r, .told t a r, .forget t]

/-- The events of one whole call of thread `t`. -/
inductive Op (t : Nat) : Call → List Ev → Prop
  | add (x : Nat) {m : List Ev} (h : Sub t (.add x) m) : Op t (.add x) (.call t (.add x) :: (m ++ [.done t]))
  | discard (x : Nat) {m : List Ev} (h : Sub t (.del x) m) : Op t (.discard x) (.call t (.discard x) :: (m ++ [.done t]))
  | bulk {o : Call} {w : Bool} {m e : List Ev} (h : Body t o m) (he : Exit t w e) :
      Op t o (.call t o :: .was t w :: .pause t :: (m ++ (e ++ [.done t])))

/-- What program `c` does with one whole call, or look, `m` of thread `t`, and how it goes on. -/
inductive Does (t : Nat) : Code → List Ev → Code → Prop
  | call {o : Call} {c : Code} {m : List Ev} (h : Op t o m) : Does t (.call o c) m c
  | has {x : Nat} {f : Bool → Code} (b : Bool) : Does t (.has x f) [.look t x b] (f b)

/-- The program `c` of thread `t` has made the events `l` and goes on as the other one. -/
inductive Follows (t : Nat) (c : Code) : List Ev → Code → Prop
  | nil : Follows t c [] c
  | op {l m : List Ev} {c1 c2 : Code} (h : Follows t c l c1) (ho : Does t c1 m c2) : Follows t c (l ++ m) c2

/-- Calls, and looks, one after the other. -/
inductive Blocks (t : Nat) : List Ev → Prop
  | nil : Blocks t []
  | op {l m : List Ev} {o : Call} (h : Blocks t l) (ho : Op t o m) : Blocks t (l ++ m)
  | look {l : List Ev} (h : Blocks t l) (x : Nat) (b : Bool) : Blocks t (l ++ [.look t x b])

/-! ## Runs -/

/-- Each event belongs to a moment of the run. -/
theorem moment {d : List Nat} {prog : Nat → Code} {e : Ev} {l2 : List Ev} : ∀ (s : List Nat) {l1 : List Ev},
    (run s (init d prog)).log = l1 ++ e :: l2 → ∃ p t q y, s = p ++ t :: q ∧ (run p (init d prog)).log = l1 ∧
      next (run p (init d prog)).data t ((run p (init d prog)).thr t) = some (e, y) := by
  intro s
  induction hn : s.length generalizing s l2 with
  | zero =>
    intro l1 h
    rw [List.length_eq_zero_iff.mp hn] at h
    have := congrArg List.length h
    simp [run, init] at this
  | succ n ih =>
    intro l1 h
    rcases List.eq_nil_or_concat s with rfl | ⟨s, t, rfl⟩
    · simp at hn
    · have hn' : s.length = n := by simpa using hn
      have hr : run (s ++ [t]) (init d prog) = step (run s (init d prog)) t := by simp [run, List.foldl_append]
      rw [List.concat_eq_append, hr] at h
      unfold step at h
      split at h
      · obtain ⟨p, u, q, y, h1, h2, h3⟩ := ih s hn' h
        exact ⟨p, u, q ++ [t], y, by simp [h1], h2, h3⟩
      · rename_i e' x hnx
        have h : (run s (init d prog)).log ++ [e'] = l1 ++ e :: l2 := h
        rcases List.eq_nil_or_concat l2 with rfl | ⟨l3, z, rfl⟩
        · have h4 := List.append_inj' h rfl
          have h5 : e' = e := by have := h4.2; cases this; rfl
          exact ⟨s, t, [], x, by simp, h4.1, h5 ▸ hnx⟩
        · have h4 : (run s (init d prog)).log ++ [e'] = (l1 ++ e :: l3) ++ [z] := by rw [h]; simp
          obtain ⟨p, u, q, y, h1, h2, h3⟩ := ih s hn' (List.append_inj' h4 rfl).1
          exact ⟨p, u, q ++ [t], y, by simp [h1], h2, h3⟩

theorem step_some {σ : St} {t : Nat} {e : Ev} {x : Ctl} (h : next σ.data t (σ.thr t) = some (e, x)) :
    step σ t = ⟨e.on σ.data, fun u => if u = t then x else σ.thr u, σ.log ++ [e]⟩ := by
  unfold step; rw [h]

theorem step_none {σ : St} {t : Nat} (h : next σ.data t (σ.thr t) = none) : step σ t = σ := by
  unfold step; rw [h]

theorem next_thread {d : Data} {t : Nat} {x y : Ctl} {e : Ev} (h : next d t x = some (e, y)) : e.thread = t := by
  cases x with
  | run c =>
    cases c with
    | ret => cases h
    | call o c => cases o <;> (cases h; rfl)
    | has x f => cases h; rfl
  | _ => cases h; rfl

/-- What all events do, one after the other. -/
def replay (d : Data) (l : List Ev) : Data := l.foldl (fun x e => e.on x) d

theorem replay_snoc (d : Data) (l : List Ev) (e : Ev) : replay d (l ++ [e]) = e.on (replay d l) := by simp [replay, List.foldl_append]

theorem replay_parts (d : List Nat) (l : List Ev) : replay ⟨d, false, []⟩ l = ⟨value d l, stopped l, recorded l⟩ := by
  have key : ∀ (l : List Ev) (D : Data), replay D l = ⟨l.foldl (fun y e => match e with
      | .put _ x => if x ∈ y then y else y ++ [x]
      | .drop _ x => y.filter (· != x)
      | .wipe _ _ => []
      | _ => y) D.set, l.foldl (fun b e => match e with
      | .pause _ => true
      | .resume _ => false
      | _ => b) D.paused, l.foldl (fun q e => match e with
      | .record _ a r => q ++ [(a, r)]
      | .forget _ => []
      | _ => q) D.queue⟩ := by
    intro l
    induction l with
    | nil => intro D; rfl
    | cons e l ih =>
      intro D
      show replay (e.on D) l = _
      rw [ih]
      cases e <;> rfl
  exact key l _

theorem data_step {d : Data} {σ : St} (h : σ.data = replay d σ.log) (t : Nat) : (step σ t).data = replay d (step σ t).log := by
  cases hn : next σ.data t (σ.thr t) with
  | none => rw [step_none hn]; exact h
  | some p =>
    obtain ⟨e, x⟩ := p
    rw [step_some hn]
    show e.on σ.data = replay d (σ.log ++ [e])
    rw [replay_snoc, h]

theorem data_from {d : Data} : ∀ (s : List Nat) {σ : St}, σ.data = replay d σ.log → (run s σ).data = replay d (run s σ).log
  | [], _, h => h
  | t :: s, _, h => data_from s (data_step h t)

theorem data_run (d : List Nat) (prog : Nat → Code) (s : List Nat) : (run s (init d prog)).data =
    ⟨value d (run s (init d prog)).log, stopped (run s (init d prog)).log, recorded (run s (init d prog)).log⟩ := by
  rw [← replay_parts]; exact data_from s rfl

theorem value_snoc (d : List Nat) (l : List Ev) (e : Ev) : value d (l ++ [e]) = value (value d l) [e] := by simp [value, List.foldl_append]

theorem value_append (d : List Nat) (l m : List Ev) : value d (l ++ m) = value (value d l) m := by simp [value, List.foldl_append]

/-! ## The events of one thread -/

/-- How a call begins. -/
def head (t : Nat) (o : Call) : Option Bool → List Ev
  | none => [.call t o]
  | some w => [.call t o, .was t w, .pause t]

/-- What is done before the items, and the items. -/
inductive Lead (t : Nat) : Call → Option Bool → List Ev → List Do → Prop
  | add (x : Nat) : Lead t (.add x) none [] [.add x]
  | discard (x : Nat) : Lead t (.discard x) none [] [.del x]
  | update (xs : List Nat) (w : Bool) : Lead t (.update xs) (some w) [] (xs.map .add)
  | diff (xs : List Nat) (w : Bool) : Lead t (.diff xs) (some w) [] (xs.map .del)
  | sym (xs : List Nat) (w : Bool) : Lead t (.sym xs) (some w) [] (xs.map .flip)
  | inter (xs l : List Nat) (w : Bool) : Lead t (.inter xs) (some w) [.items t l] ((l.filter (fun i => decide (i ∉ xs))).map .del)

/-- Between two items. -/
def Mid (t : Nat) (k : Rest) (m : List Ev) : Prop :=
  (∃ b s ds, m = head t k.call k.saw ++ (b ++ s) ∧ Lead t k.call k.saw b (ds ++ k.todo) ∧ Subs t ds s) ∨
  (k.call = .clear ∧ k.todo = [] ∧ ∃ w b, k.saw = some w ∧ Body t .clear b ∧ m = head t .clear (some w) ++ b)

/-- Before item `d`. -/
def Pre (t : Nat) (k : Rest) (d : Do) (m : List Ev) : Prop :=
  ∃ b s ds, m = head t k.call k.saw ++ (b ++ s) ∧ Lead t k.call k.saw b (ds ++ d :: k.todo) ∧ Subs t ds s

/-- Before `self.add(x)`. -/
def PreA (t : Nat) (k : Rest) (x : Nat) (m : List Ev) : Prop := Pre t k (.add x) m ∨ ∃ m', Pre t k (.flip x) m' ∧ m = m' ++ [.test t x false]

/-- Before `self.discard(x)`. -/
def PreD (t : Nat) (k : Rest) (x : Nat) (m : List Ev) : Prop := Pre t k (.del x) m ∨ ∃ m', Pre t k (.flip x) m' ∧ m = m' ++ [.test t x true]

/-- Before `emit`. -/
def Chg (t : Nat) (k : Rest) (a r : List Nat) (m : List Ev) : Prop :=
  (∃ x m', PreA t k x m' ∧ a = [x] ∧ r = [] ∧ m = m' ++ [.test t x false, .put t x]) ∨
  (∃ x m', PreD t k x m' ∧ a = [] ∧ r = [x] ∧ m = m' ++ [.test t x true, .drop t x]) ∨
  (k.call = .clear ∧ k.todo = [] ∧ ∃ w, k.saw = some w ∧ a = [] ∧ m = head t .clear (some w) ++ [.empty t false, .items t r, .wipe t r])

/-- A bulk method. -/
def Call.bulk : Call → Bool
  | .add _ | .discard _ => false
  | _ => true

/-- `m` may be the events of the current call. -/
def Ctl.Part (t : Nat) (m : List Ev) : Ctl → Prop
  | .run _ => m = []
  | .testA x k => PreA t k x m
  | .put x k => ∃ m', PreA t k x m' ∧ m = m' ++ [.test t x false]
  | .testD x k => PreD t k x m
  | .drop x k => ∃ m', PreD t k x m' ∧ m = m' ++ [.test t x true]
  | .testS x k => Pre t k (.flip x) m
  | .emit a r k => Chg t k a r m
  | .record a r k => ∃ m', Chg t k a r m' ∧ m = m' ++ [.paused t true]
  | .tell a r k => ∃ m', Chg t k a r m' ∧ m = m' ++ [.paused t false]
  | .was o _ => o.bulk = true ∧ m = [.call t o]
  | .pause o w _ => o.bulk = true ∧ m = [.call t o, .was t w]
  | .empty w _ => m = head t .clear (some w)
  | .itemsC w _ => m = head t .clear (some w) ++ [.empty t false]
  | .wipe l w _ => m = head t .clear (some w) ++ [.empty t false, .items t l]
  | .itemsI xs w _ => m = head t (.inter xs) (some w)
  | .resume o _ => ∃ b, Body t o b ∧ m = head t o (some false) ++ b
  | .any o _ => ∃ b, Body t o b ∧ m = head t o (some false) ++ (b ++ [.resume t])
  | .reduce o _ => ∃ b, Body t o b ∧ m = head t o (some false) ++ (b ++ [.resume t, .any t true])
  | .tellR o a r _ => ∃ b, Body t o b ∧ m = head t o (some false) ++ (b ++ [.resume t, .any t true, .reduce t a r])
  | .forget o _ => ∃ b a r, Body t o b ∧ m = head t o (some false) ++ (b ++ [.resume t, .any t true, .reduce t a r, .told t a r])
  | .done o _ => Op t o (m ++ [.done t])

/-- The program at the beginning of the current call. -/
def Ctl.code : Ctl → Code
  | .run c => c
  | .testA _ k | .put _ k | .testD _ k | .drop _ k | .testS _ k | .emit _ _ k | .record _ _ k | .tell _ _ k => .call k.call k.code
  | .was o c | .pause o _ c | .resume o c | .any o c | .reduce o c | .tellR o _ _ c | .forget o c | .done o c => .call o c
  | .empty _ c | .itemsC _ c | .wipe _ _ c => .call .clear c
  | .itemsI xs _ c => .call (.inter xs) c

theorem mid_pre {t : Nat} {k : Rest} {d : Do} {m s : List Ev} (h : Pre t k d m) (hs : Sub t d s) : Mid t k (m ++ s) := by
  obtain ⟨b, s0, ds, rfl, h2, h3⟩ := h
  exact .inl ⟨b, s0 ++ s, ds ++ [d], by simp, by simpa using h2, h3.item hs⟩

theorem mid_preA {t : Nat} {k : Rest} {x : Nat} {m s : List Ev} (h : PreA t k x m) (hs : Sub t (.add x) s) : Mid t k (m ++ s) := by
  rcases h with h | ⟨m', h, rfl⟩
  · exact mid_pre h hs
  · have := mid_pre h (.flipOut x hs); simpa using this

theorem mid_preD {t : Nat} {k : Rest} {x : Nat} {m s : List Ev} (h : PreD t k x m) (hs : Sub t (.del x) s) : Mid t k (m ++ s) := by
  rcases h with h | ⟨m', h, rfl⟩
  · exact mid_pre h hs
  · have := mid_pre h (.flipIn x hs); simpa using this

theorem mid_chg {t : Nat} {k : Rest} {a r : List Nat} {m s : List Ev} (h : Chg t k a r m) (hs : Emit t a r s) : Mid t k (m ++ s) := by
  rcases h with ⟨x, m', h, rfl, rfl, rfl⟩ | ⟨x, m', h, rfl, rfl, rfl⟩ | ⟨h1, h2, w, h3, rfl, rfl⟩
  · have := mid_preA h (.add x hs); simpa using this
  · have := mid_preD h (.del x hs); simpa using this
  · exact .inr ⟨h1, h2, w, _, h3, .clear r hs, by simp⟩

theorem lead_body {t : Nat} {o : Call} {w : Bool} {b s : List Ev} {ds : List Do} (h : Lead t o (some w) b ds) (hs : Subs t ds s) : Body t o (b ++ s) := by
  cases h with
  | update xs w => exact .update xs hs
  | diff xs w => exact .diff xs hs
  | sym xs w => exact .sym xs hs
  | inter xs l w => exact .inter xs l hs

theorem subs_one {t : Nat} {d : Do} {s : List Ev} (h : Subs t [d] s) : Sub t d s := by
  generalize hd : [d] = ds at h
  cases h with
  | nil => cases hd
  | @item ds' l d' m h h' =>
    have h2 : ([] : List Do) ++ [d] = ds' ++ [d'] := hd
    obtain ⟨h3, h4⟩ := List.append_inj' h2 rfl
    subst h3
    cases h4
    generalize he : ([] : List Do) = e at h
    cases h with
    | nil => exact h'
    | item => simp at he

theorem go_part {t : Nat} {k : Rest} {m : List Ev} (h : Mid t k m) : k.go.Part t m ∧ k.go.code = .call k.call k.code := by
  obtain ⟨o, td, w, c⟩ := k
  cases td with
  | cons d ds =>
    have hp : Pre t ⟨o, ds, w, c⟩ d m := by
      rcases h with ⟨b, s, es, h1, h2, h3⟩ | ⟨_, h2, _⟩
      · exact ⟨b, s, es, h1, h2, h3⟩
      · cases h2
    cases d with
    | add x => exact ⟨.inl hp, rfl⟩
    | del x => exact ⟨.inl hp, rfl⟩
    | flip x => exact ⟨hp, rfl⟩
  | nil =>
    have key : (w = none ∧ Op t o (m ++ [.done t])) ∨ ∃ v b, w = some v ∧ Body t o b ∧ m = head t o (some v) ++ b := by
      rcases h with ⟨b, s, es, h1, h2, h3⟩ | ⟨h1, _, v, b, h2, h3, h4⟩
      · dsimp only at h1 h2
        rw [List.append_nil] at h2
        cases w with
        | none =>
          left
          refine ⟨rfl, ?_⟩
          cases h2 with
          | add x => have := Op.add x (subs_one h3); rw [h1]; simpa [head] using this
          | discard x => have := Op.discard x (subs_one h3); rw [h1]; simpa [head] using this
        | some v => exact .inr ⟨v, _, rfl, lead_body h2 h3, h1⟩
      · dsimp only at h1 h2
        subst h1
        exact .inr ⟨v, b, h2, h3, h4⟩
    rcases key with ⟨rfl, h4⟩ | ⟨v, b, rfl, h1, rfl⟩
    · exact ⟨h4, rfl⟩
    · cases v with
      | false => exact ⟨⟨b, h1, rfl⟩, rfl⟩
      | true =>
        refine ⟨?_, rfl⟩
        have := Op.bulk h1 Exit.was
        show Op t o (head t o (some true) ++ b ++ [.done t])
        simpa [head] using this

/-- A step goes on with the call or ends it. -/
theorem part_next {d : Data} {t : Nat} {m : List Ev} {x y : Ctl} {e : Ev} (h : x.Part t m) (hn : next d t x = some (e, y)) :
    (y.Part t (m ++ [e]) ∧ y.code = x.code) ∨ ∃ c, Does t x.code (m ++ [e]) c ∧ y = .run c := by
  cases x with
  | run c =>
    obtain rfl : m = [] := h
    cases c with
    | ret => cases hn
    | has x f => cases hn; exact .inr ⟨_, .has _, rfl⟩
    | call o c =>
      left
      cases o with
      | add x => cases hn; exact ⟨.inl ⟨[], [], [], rfl, .add x, .nil⟩, rfl⟩
      | discard x => cases hn; exact ⟨.inl ⟨[], [], [], rfl, .discard x, .nil⟩, rfl⟩
      | _ => cases hn; exact ⟨⟨rfl, rfl⟩, rfl⟩
  | testA x k =>
    cases hn
    left
    by_cases hx : x ∈ d.set
    · simp only [hx, decide_true, if_true]; exact go_part (mid_preA h (.addIn x))
    · simp only [hx, decide_false, if_false]; exact ⟨⟨m, h, rfl⟩, rfl⟩
  | put x k => cases hn; obtain ⟨m', h, rfl⟩ := h; exact .inl ⟨.inl ⟨x, m', h, rfl, rfl, by simp⟩, rfl⟩
  | testD x k =>
    cases hn
    left
    by_cases hx : x ∈ d.set
    · simp only [hx, decide_true, if_true]; exact ⟨⟨m, h, rfl⟩, rfl⟩
    · simp only [hx, decide_false, if_false]; exact go_part (mid_preD h (.delOut x))
  | drop x k => cases hn; obtain ⟨m', h, rfl⟩ := h; exact .inl ⟨.inr (.inl ⟨x, m', h, rfl, rfl, by simp⟩), rfl⟩
  | testS x k =>
    cases hn
    left
    by_cases hx : x ∈ d.set
    · simp only [hx, decide_true, if_true]; exact ⟨.inr ⟨m, h, rfl⟩, rfl⟩
    · simp only [hx, decide_false, if_false]; exact ⟨.inr ⟨m, h, rfl⟩, rfl⟩
  | emit a r k =>
    cases hn
    left
    cases hp : d.paused with
    | true => exact ⟨⟨m, h, rfl⟩, rfl⟩
    | false => exact ⟨⟨m, h, rfl⟩, rfl⟩
  | record a r k => cases hn; obtain ⟨m', h, rfl⟩ := h; left; have := go_part (mid_chg h .queued); rw [List.append_assoc]; exact this
  | tell a r k => cases hn; obtain ⟨m', h, rfl⟩ := h; left; have := go_part (mid_chg h .told); rw [List.append_assoc]; exact this
  | was o c => cases hn; obtain ⟨h, rfl⟩ := h; exact .inl ⟨⟨h, rfl⟩, rfl⟩
  | pause o w c =>
    cases hn
    obtain ⟨h, rfl⟩ := h
    left
    cases o with
    | add x => cases h
    | discard x => cases h
    | update xs => exact go_part (.inl ⟨[], [], [], rfl, .update xs w, .nil⟩)
    | diff xs => exact go_part (.inl ⟨[], [], [], rfl, .diff xs w, .nil⟩)
    | sym xs => exact go_part (.inl ⟨[], [], [], rfl, .sym xs w, .nil⟩)
    | inter xs => exact ⟨rfl, rfl⟩
    | clear => exact ⟨rfl, rfl⟩
  | empty w c =>
    cases hn
    obtain rfl : m = _ := h
    left
    cases he : d.set.isEmpty with
    | true => exact go_part (k := ⟨.clear, [], some w, c⟩) (.inr ⟨rfl, rfl, w, _, rfl, .clear0, rfl⟩)
    | false => exact ⟨rfl, rfl⟩
  | itemsC w c => cases hn; obtain rfl : m = _ := h; exact .inl ⟨rfl, rfl⟩
  | wipe l w c => cases hn; obtain rfl : m = _ := h; exact .inl ⟨.inr (.inr ⟨rfl, rfl, w, rfl, rfl, rfl⟩), rfl⟩
  | itemsI xs w c => cases hn; obtain rfl : m = _ := h; exact .inl (go_part (.inl ⟨[_], [], [], rfl, .inter xs d.set w, .nil⟩))
  | resume o c => cases hn; obtain ⟨b, h, rfl⟩ := h; exact .inl ⟨⟨b, h, by simp⟩, rfl⟩
  | any o c =>
    cases hn
    obtain ⟨b, h, rfl⟩ := h
    left
    cases he : d.queue.isEmpty with
    | true =>
      refine ⟨?_, rfl⟩
      have := Op.bulk h Exit.none
      show Op t o (head t o (some false) ++ (b ++ [.resume t]) ++ [.any t false] ++ [.done t])
      simpa [head] using this
    | false => exact ⟨⟨b, h, by simp⟩, rfl⟩
  | reduce o c => cases hn; obtain ⟨b, h, rfl⟩ := h; exact .inl ⟨⟨b, h, by simp⟩, rfl⟩
  | tellR o a r c => cases hn; obtain ⟨b, h, rfl⟩ := h; exact .inl ⟨⟨b, a, r, h, by simp⟩, rfl⟩
  | forget o c =>
    cases hn
    obtain ⟨b, a, r, h, rfl⟩ := h
    left
    refine ⟨?_, rfl⟩
    have := Op.bulk h (Exit.told a r)
    show Op t o (head t o (some false) ++ (b ++ [.resume t, .any t true, .reduce t a r, .told t a r]) ++ [.forget t] ++ [.done t])
    simpa [head] using this
  | done o c => cases hn; exact .inr ⟨c, .call h, rfl⟩

theorem Follows.blocks {t : Nat} {c c' : Code} {l : List Ev} (h : Follows t c l c') : Blocks t l := by
  induction h with
  | nil => exact .nil
  | op _ ho ih =>
    cases ho with
    | call h => exact ih.op h
    | has b => exact ih.look _ b

def Blocked (prog : Nat → Code) (σ : St) : Prop := ∀ t, ∃ l m, Follows t (prog t) l (σ.thr t).code ∧ (σ.thr t).Part t m ∧ only t σ.log = l ++ m

theorem blocked_step {prog : Nat → Code} {σ : St} (h : Blocked prog σ) (t : Nat) : Blocked prog (step σ t) := by
  cases hn : next σ.data t (σ.thr t) with
  | none => rw [step_none hn]; exact h
  | some p =>
    obtain ⟨e, x⟩ := p
    rw [step_some hn]
    intro u
    show ∃ l m, Follows u (prog u) l (if u = t then x else σ.thr u).code ∧ (if u = t then x else σ.thr u).Part u m ∧ only u (σ.log ++ [e]) = l ++ m
    have ho : only u (σ.log ++ [e]) = only u σ.log ++ only u [e] := List.filter_append ..
    obtain ⟨l, m, h1, h2, h3⟩ := h u
    have he := next_thread hn
    by_cases hu : u = t
    · subst hu
      rw [if_pos rfl, ho, h3, show only u [e] = [e] from by simp [only, he]]
      rcases part_next h2 hn with ⟨h4, h5⟩ | ⟨c, h4, rfl⟩
      · exact ⟨l, m ++ [e], h5 ▸ h1, h4, by simp⟩
      · exact ⟨l ++ (m ++ [e]), [], h1.op h4, rfl, by simp⟩
    · rw [if_neg hu, ho, h3, show only u [e] = [] from by simp [only, he]; exact fun e => hu e.symm]
      exact ⟨l, m, h1, h2, by simp⟩

theorem blocked_from {prog : Nat → Code} : ∀ (s : List Nat) {σ : St}, Blocked prog σ → Blocked prog (run s σ)
  | [], _, h => h
  | t :: s, _, h => blocked_from s (blocked_step h t)

theorem blocked_run (d : List Nat) (prog : Nat → Code) (s : List Nat) : Blocked prog (run s (init d prog)) :=
  blocked_from s (fun _ => ⟨[], [], .nil, rfl, rfl⟩)

theorem only_cons {t : Nat} {L : List Ev} {e : Ev} {Y : List Ev} (h : only t L = e :: Y) :
    ∃ A B, L = A ++ e :: B ∧ Free t A ∧ only t B = Y := by
  obtain ⟨A, B, h1, h2, _, h3⟩ := List.filter_eq_cons_iff.mp h
  exact ⟨A, B, h1, fun x hx hxt => h2 x hx (by simpa using hxt), h3⟩

theorem only_append {t : Nat} {L X Y : List Ev} (h : only t L = X ++ Y) : ∃ A B, L = A ++ B ∧ only t A = X ∧ only t B = Y := by
  obtain ⟨A, B, h1, h2, h3⟩ := List.filter_eq_append_iff.mp h
  exact ⟨A, B, h1, h2, h3⟩

theorem only_nil {t : Nat} {L : List Ev} (h : only t L = []) : Free t L := by
  intro e he ht
  exact List.filter_eq_nil_iff.mp h e he (by simpa using ht)

/-- What has happened when thread `t` makes the event `e`: only whole calls, and the begin `m` of this one. -/
theorem history {d : List Nat} {prog : Nat → Code} {s : List Nat} {l1 : List Ev} {e : Ev} {l2 : List Ev} {t : Nat}
    (hl : (run s (init d prog)).log = l1 ++ e :: l2) (he : e.thread = t) :
    ∃ x y m, next ⟨value d l1, stopped l1, recorded l1⟩ t x = some (e, y) ∧ x.Part t m ∧ ∃ A B, l1 = A ++ B ∧ Blocks t (only t A) ∧ only t B = m := by
  obtain ⟨p, u, q, y, h1, h2, h3⟩ := moment s hl
  have ht : u = t := (next_thread h3).symm.trans he
  subst ht
  obtain ⟨l, m, h4, h5, h6⟩ := blocked_run d prog p u
  rw [h2] at h6
  obtain ⟨A, B, h7, h8, h9⟩ := only_append h6
  refine ⟨_, y, m, ?_, h5, A, B, h7, h8 ▸ h4.blocks, h9⟩
  rw [show (⟨value d l1, stopped l1, recorded l1⟩ : Data) = (run p (init d prog)).data from by rw [data_run, h2]]
  exact h3

/-! ## Counting -/

/-- A sum over what happened. -/
def tally (f : Ev → Nat) (l : List Ev) : Nat := (l.map f).sum

theorem tally_append (f : Ev → Nat) (l1 l2 : List Ev) : tally f (l1 ++ l2) = tally f l1 + tally f l2 := by simp [tally]

theorem tally_count (p : Ev → Bool) (l : List Ev) : tally (fun e => if p e then 1 else 0) l = l.countP p := by
  induction l with
  | nil => rfl
  | cons e l ih =>
    rw [List.countP_cons, ← ih]
    simp [tally]; omega

theorem tally_add (f g : Ev → Nat) (l : List Ev) : tally (fun e => f e + g e) l = tally f l + tally g l := by
  induction l with
  | nil => rfl
  | cons e l ih => simp only [tally, List.map_cons, List.sum_cons] at *; omega

theorem tally_split (f : Ev → Nat) (t : Nat) (l : List Ev) :
    tally f l = tally f (only t l) + tally f (l.filter (fun e => !(e.thread == t))) := by
  induction l with
  | nil => rfl
  | cons e l ih =>
    by_cases h : e.thread = t
    · simp [tally, only, h] at *; omega
    · simp [tally, only, h] at *; omega

/-- What balances in every thread balances. -/
theorem tally_threads (f g : Ev → Nat) : ∀ (n : Nat) (l : List Ev), l.length ≤ n → (∀ t, tally f (only t l) = tally g (only t l)) → tally f l = tally g l
  | _, [], _, _ => rfl
  | n + 1, e :: l, hn, h => by
    rw [tally_split f e.thread, tally_split g e.thread, h e.thread]
    congr 1
    refine tally_threads f g n _ ?_ (fun t => ?_)
    · rw [List.filter_cons]
      simp only [BEq.rfl, Bool.not_true, Bool.false_eq_true, if_false]
      exact Nat.le_trans (List.length_filter_le _ _) (by simpa using hn)
    · by_cases ht : t = e.thread
      · have : only t ((e :: l).filter (fun x => !(x.thread == e.thread))) = [] := by
          refine List.filter_eq_nil_iff.mpr fun x hx => ?_
          have := (List.mem_filter.mp hx).2
          rw [ht]
          simpa using this
        rw [this]; rfl
      · have : only t ((e :: l).filter (fun x => !(x.thread == e.thread))) = only t (e :: l) := by
          unfold only
          rw [List.filter_filter]
          refine List.filter_congr fun x _ => ?_
          by_cases hx : x.thread = t
          · simp [hx, ht]
          · simp [hx]
        rw [this]; exact h t

theorem Emit.tally {t : Nat} {a r : List Nat} {m : List Ev} {f g : Ev → Nat} (h : Emit t a r m) (n : Nat)
    (hp : ∀ b, f (.paused t b) = g (.paused t b)) (h1 : f (.record t a r) + n = g (.record t a r)) (h2 : f (.told t a r) + n = g (.told t a r)) :
    tally f m + n = tally g m := by
  cases h with
  | queued => have := hp true; simp only [StC.tally, List.map_cons, List.map_nil, List.sum_cons, List.sum_nil]; omega
  | told => have := hp false; simp only [StC.tally, List.map_cons, List.map_nil, List.sum_cons, List.sum_nil]; omega

/-- How often an event adds `x`, or takes `x` for telling: stored, or in what is reduced. -/
def Ev.adds (x : Nat) : Ev → Nat
  | .put _ y => if y = x then 1 else 0
  | .reduce _ a _ => a.count x
  | _ => 0

/-- How often an event passes on that `x` is added. -/
def Ev.added (x : Nat) : Ev → Nat
  | .record _ a _ => a.count x
  | .told _ a _ => a.count x
  | _ => 0

def Ev.drops (x : Nat) : Ev → Nat
  | .drop _ y => if y = x then 1 else 0
  | .wipe _ l => l.count x
  | .reduce _ _ r => r.count x
  | _ => 0

def Ev.dropped (x : Nat) : Ev → Nat
  | .record _ _ r => r.count x
  | .told _ _ r => r.count x
  | _ => 0

theorem tally_cons (f : Ev → Nat) (e : Ev) (l : List Ev) : tally f (e :: l) = f e + tally f l := by simp [tally]

theorem tally_nil (f : Ev → Nat) : tally f [] = 0 := rfl

/-- `f` and `g` balance in what every call is made of. -/
structure Fair (t : Nat) (f g : Ev → Nat) : Prop where
  add : ∀ x m, Emit t [x] [] m → tally f (.put t x :: m) = tally g (.put t x :: m)
  del : ∀ x m, Emit t [] [x] m → tally f (.drop t x :: m) = tally g (.drop t x :: m)
  wipe : ∀ l m, Emit t [] l m → tally f (.wipe t l :: m) = tally g (.wipe t l :: m)
  told : ∀ a r, f (.reduce t a r) + f (.told t a r) = g (.reduce t a r) + g (.told t a r)
  zero : ∀ e : Ev, (match e with
    | .put .. | .drop .. | .wipe .. | .record .. | .told .. | .reduce .. => True
    | _ => f e = 0 ∧ g e = 0)

theorem Fair.sub {t : Nat} {f g : Ev → Nat} (hf : Fair t f g) {d : Do} {m : List Ev} (h : Sub t d m) : tally f m = tally g m := by
  induction h with
  | addIn x => have := hf.zero (.test t x true); simp only [tally_cons, this.1, this.2]; rfl
  | add x h => have := hf.zero (.test t x false); rw [tally_cons f, tally_cons g, this.1, this.2, hf.add _ _ h]
  | delOut x => have := hf.zero (.test t x false); simp only [tally_cons, this.1, this.2]; rfl
  | del x h => have := hf.zero (.test t x true); rw [tally_cons f, tally_cons g, this.1, this.2, hf.del _ _ h]
  | flipIn x _ ih => have := hf.zero (.test t x true); rw [tally_cons, tally_cons, this.1, this.2, ih]
  | flipOut x _ ih => have := hf.zero (.test t x false); rw [tally_cons, tally_cons, this.1, this.2, ih]

theorem Fair.subs {t : Nat} {f g : Ev → Nat} (hf : Fair t f g) {ds : List Do} {m : List Ev} (h : Subs t ds m) : tally f m = tally g m := by
  induction h with
  | nil => rfl
  | item _ hd ih => rw [tally_append, tally_append, ih, hf.sub hd]

theorem Fair.body {t : Nat} {f g : Ev → Nat} (hf : Fair t f g) {o : Call} {m : List Ev} (h : Body t o m) : tally f m = tally g m := by
  cases h with
  | update xs h => exact hf.subs h
  | diff xs h => exact hf.subs h
  | sym xs h => exact hf.subs h
  | inter xs l h => have := hf.zero (.items t l); rw [tally_cons, tally_cons, this.1, this.2, hf.subs h]
  | clear0 => have := hf.zero (.empty t true); simp only [tally_cons, this.1, this.2]; rfl
  | clear l h =>
    have h1 := hf.zero (.empty t false)
    have h2 := hf.zero (.items t l)
    rw [tally_cons f, tally_cons g, tally_cons f, tally_cons g, h1.1, h1.2, h2.1, h2.2, hf.wipe _ _ h]

theorem Fair.exit {t : Nat} {f g : Ev → Nat} (hf : Fair t f g) {w : Bool} {m : List Ev} (h : Exit t w m) : tally f m = tally g m := by
  cases h with
  | was => rfl
  | none =>
    have h1 := hf.zero (.resume t)
    have h2 := hf.zero (.any t false)
    simp only [tally_cons, h1.1, h1.2, h2.1, h2.2]; rfl
  | told a r =>
    have h1 := hf.zero (.resume t)
    have h2 := hf.zero (.any t true)
    have h3 := hf.zero (.forget t)
    have h4 := hf.told a r
    simp only [tally_cons, tally_nil, h1.1, h1.2, h2.1, h2.2, h3.1, h3.2]; omega

theorem Fair.op {t : Nat} {f g : Ev → Nat} (hf : Fair t f g) {o : Call} {m : List Ev} (h : Op t o m) : tally f m = tally g m := by
  have hc := hf.zero (.call t o)
  have hd := hf.zero (.done t)
  have hd' : StC.tally f [.done t] = StC.tally g [.done t] := by simp only [tally_cons, hd.1, hd.2]; rfl
  cases h with
  | add x h => rw [tally_cons, tally_cons, tally_append, tally_append, hc.1, hc.2, hf.sub h, hd']
  | discard x h => rw [tally_cons, tally_cons, tally_append, tally_append, hc.1, hc.2, hf.sub h, hd']
  | @bulk _ w _ _ h he =>
    have h1 := hf.zero (.was t w)
    have h2 := hf.zero (.pause t)
    simp only [tally_cons, tally_nil, tally_append, hc.1, hc.2, h1.1, h1.2, h2.1, h2.2, hd.1, hd.2, hf.body h, hf.exit he]

theorem Fair.blocks {t : Nat} {f g : Ev → Nat} (hf : Fair t f g) {l : List Ev} (h : Blocks t l) : tally f l = tally g l := by
  induction h with
  | nil => rfl
  | op _ ho ih => rw [tally_append, tally_append, ih, hf.op ho]
  | look _ x b ih => have := hf.zero (.look t x b); rw [tally_append, tally_append, ih, tally_cons, tally_cons, this.1, this.2]; rfl

/-- What balances in every call balances when all threads are between calls. -/
theorem Fair.rest {d : List Nat} {prog : Nat → Code} {s : List Nat} {f g : Ev → Nat} (hf : ∀ t, Fair t f g)
    (hr : ∀ t, ∃ c, (run s (init d prog)).thr t = .run c) : tally f (run s (init d prog)).log = tally g (run s (init d prog)).log := by
  refine tally_threads f g _ _ (Nat.le_refl _) fun t => ?_
  obtain ⟨l, m, h1, h2, h3⟩ := blocked_run d prog s t
  obtain ⟨c, hc⟩ := hr t
  rw [hc] at h1 h2
  obtain rfl : m = [] := h2
  rw [h3, List.append_nil]
  exact (hf t).blocks h1.blocks

theorem fair_adds (t x : Nat) : Fair t (Ev.adds x) (Ev.added x) where
  add := by
    intro y m h
    cases h <;> simp [tally, Ev.adds, Ev.added, List.count_cons]
  del := by
    intro y m h
    cases h <;> simp [tally, Ev.adds, Ev.added]
  wipe := by
    intro y m h
    cases h <;> simp [tally, Ev.adds, Ev.added]
  told := by intro a r; simp [Ev.adds, Ev.added]
  zero := by intro e; cases e <;> first | trivial | exact ⟨rfl, rfl⟩

theorem fair_drops (t x : Nat) : Fair t (Ev.drops x) (Ev.dropped x) where
  add := by
    intro y m h
    cases h <;> simp [tally, Ev.drops, Ev.dropped]
  del := by
    intro y m h
    cases h <;> simp [tally, Ev.drops, Ev.dropped, List.count_cons]
  wipe := by
    intro y m h
    cases h <;> simp [tally, Ev.drops, Ev.dropped]
  told := by intro a r; simp [Ev.drops, Ev.dropped]
  zero := by intro e; cases e <;> first | trivial | exact ⟨rfl, rfl⟩

/-! ## The set used by one thread at a time -/

/-- Going by the events, thread `t` is in a method: it was called and has not returned. -/
def InOp (t : Nat) (L : List Ev) : Prop := ∃ A o B, L = A ++ .call t o :: B ∧ .done t ∉ B

/-- Going by the events, thread `t` is in a bulk method. -/
def InBulk (t : Nat) (L : List Ev) : Prop := ∃ A o B, L = A ++ .call t o :: B ∧ .done t ∉ B ∧ (∀ x, o ≠ .add x) ∧ ∀ x, o ≠ .discard x

/-- In a call. -/
def Ctl.busy : Ctl → Bool
  | .run _ => false
  | _ => true

/-- In a bulk method, before it is over. -/
def Ctl.bulk : Ctl → Bool
  | .run _ => false
  | .testA _ k | .put _ k | .testD _ k | .drop _ k | .testS _ k | .emit _ _ k | .record _ _ k | .tell _ _ k => k.saw.isSome
  | .done _ _ => false
  | _ => true

theorem go_busy (k : Rest) : k.go.busy = true := by
  unfold Rest.go
  split
  · rename_i d ds h; cases d <;> rfl
  · split <;> rfl

theorem go_bulk {k : Rest} (h : k.go.bulk = true) : k.saw.isSome = true := by
  obtain ⟨o, td, w, c⟩ := k
  cases td with
  | cons d ds => cases d <;> exact h
  | nil =>
    cases w with
    | none => cases h
    | some v => rfl

theorem next_busy {d : Data} {t : Nat} {x y : Ctl} {e : Ev} (h : next d t x = some (e, y)) (hy : y.busy = true) :
    (x.busy = true ∧ e ≠ .done t) ∨ ∃ o, e = .call t o := by
  cases x with
  | run c =>
    cases c with
    | ret => cases h
    | call o c => cases o <;> (cases h; exact .inr ⟨_, rfl⟩)
    | has x f => cases h; cases hy
  | done o c => cases h; cases hy
  | _ => cases h; exact .inl ⟨rfl, by simp⟩

theorem next_bulk {d : Data} {t : Nat} {x y : Ctl} {e : Ev} (h : next d t x = some (e, y)) (hy : y.bulk = true) :
    (x.bulk = true ∧ e ≠ .done t) ∨ ∃ o, e = .call t o ∧ (∀ x, o ≠ .add x) ∧ ∀ x, o ≠ .discard x := by
  cases x with
  | run c =>
    cases c with
    | ret => cases h
    | call o c =>
      cases o with
      | add x => cases h; cases hy
      | discard x => cases h; cases hy
      | _ => cases h; exact .inr ⟨_, rfl, by simp, by simp⟩
    | has x f => cases h; cases hy
  | done o c => cases h; cases hy
  | testA x k =>
    cases h
    refine .inl ⟨?_, by simp⟩
    split at hy
    · exact go_bulk hy
    · exact hy
  | testD x k =>
    cases h
    refine .inl ⟨?_, by simp⟩
    split at hy
    · exact hy
    · exact go_bulk hy
  | testS x k => cases h; refine .inl ⟨?_, by simp⟩; split at hy <;> exact hy
  | emit a r k => cases h; refine .inl ⟨?_, by simp⟩; split at hy <;> exact hy
  | record a r k => cases h; exact .inl ⟨go_bulk hy, by simp⟩
  | tell a r k => cases h; exact .inl ⟨go_bulk hy, by simp⟩
  | put x k => cases h; exact .inl ⟨hy, by simp⟩
  | drop x k => cases h; exact .inl ⟨hy, by simp⟩
  | _ => cases h; exact .inl ⟨rfl, by simp⟩

theorem grow {t : Nat} {e : Ev} {L A : List Ev} {o : Call} {B : List Ev} (h : L = A ++ .call t o :: B) (hB : .done t ∉ B) (he : e ≠ .done t) :
    L ++ [e] = A ++ .call t o :: (B ++ [e]) ∧ .done t ∉ B ++ [e] := by
  refine ⟨by simp [h], fun hm => ?_⟩
  rcases List.mem_append.mp hm with h1 | h1
  · exact hB h1
  · exact he (List.mem_singleton.mp h1).symm

def Open (σ : St) : Prop := ∀ t, ((σ.thr t).busy = true → InOp t σ.log) ∧ ((σ.thr t).bulk = true → InBulk t σ.log)

theorem open_step {σ : St} (h : Open σ) (t : Nat) : Open (step σ t) := by
  cases hn : next σ.data t (σ.thr t) with
  | none => rw [step_none hn]; exact h
  | some p =>
    obtain ⟨e, x⟩ := p
    rw [step_some hn]
    intro u
    show ((if u = t then x else σ.thr u).busy = true → InOp u (σ.log ++ [e])) ∧ ((if u = t then x else σ.thr u).bulk = true → InBulk u (σ.log ++ [e]))
    by_cases hu : u = t
    · subst hu
      rw [if_pos rfl]
      refine ⟨fun hy => ?_, fun hy => ?_⟩
      · rcases next_busy hn hy with ⟨h1, h2⟩ | ⟨o, rfl⟩
        · obtain ⟨A, o, B, h3, h4⟩ := (h u).1 h1
          obtain ⟨h5, h6⟩ := grow h3 h4 h2
          exact ⟨A, o, _, h5, h6⟩
        · exact ⟨σ.log, o, [], rfl, by simp⟩
      · rcases next_bulk hn hy with ⟨h1, h2⟩ | ⟨o, rfl, h1, h2⟩
        · obtain ⟨A, o, B, h3, h4, h7⟩ := (h u).2 h1
          obtain ⟨h5, h6⟩ := grow h3 h4 h2
          exact ⟨A, o, _, h5, h6, h7⟩
        · exact ⟨σ.log, o, [], rfl, by simp, h1, h2⟩
    · rw [if_neg hu]
      have he : e ≠ .done u := fun e' => by
        have := next_thread hn
        rw [e'] at this
        exact hu this
      refine ⟨fun hy => ?_, fun hy => ?_⟩
      · obtain ⟨A, o, B, h3, h4⟩ := (h u).1 hy
        obtain ⟨h5, h6⟩ := grow h3 h4 he
        exact ⟨A, o, _, h5, h6⟩
      · obtain ⟨A, o, B, h3, h4, h7⟩ := (h u).2 hy
        obtain ⟨h5, h6⟩ := grow h3 h4 he
        exact ⟨A, o, _, h5, h6, h7⟩

theorem open_from : ∀ (s : List Nat) {σ : St}, Open σ → Open (run s σ)
  | [], _, h => h
  | t :: s, _, h => open_from s (open_step h t)

theorem open_run (d : List Nat) (prog : Nat → Code) (s : List Nat) : Open (run s (init d prog)) :=
  open_from s (fun _ => ⟨fun h => (nomatch (show false = true from h)), fun h => (nomatch (show false = true from h))⟩)

/-! ## Pausing -/

/-- Every `paused()` has seen that the signal is not paused. -/
def Ctl.Calm : Ctl → Prop
  | .testA _ k | .put _ k | .testD _ k | .drop _ k | .testS _ k | .emit _ _ k | .record _ _ k | .tell _ _ k => k.saw ≠ some true
  | .pause _ w _ | .empty w _ | .itemsC w _ | .wipe _ w _ | .itemsI _ w _ => w = false
  | _ => True

/-- Between `pause` and `resume`. -/
def Ctl.sect : Ctl → Bool
  | .testA _ k | .put _ k | .testD _ k | .drop _ k | .testS _ k | .emit _ _ k | .record _ _ k | .tell _ _ k => k.saw.isSome
  | .empty .. | .itemsC .. | .wipe .. | .itemsI .. | .resume .. => true
  | _ => false

theorem go_calm {k : Rest} (h : k.saw ≠ some true) : k.go.Calm ∧ k.go.sect = k.saw.isSome := by
  obtain ⟨o, td, w, c⟩ := k
  cases td with
  | cons d ds => cases d <;> exact ⟨h, rfl⟩
  | nil =>
    cases w with
    | none => exact ⟨trivial, rfl⟩
    | some v =>
      cases v with
      | false => exact ⟨trivial, rfl⟩
      | true => exact absurd rfl h

theorem next_calm {d : Data} {t : Nat} {x y : Ctl} {e : Ev} (h : next d t x = some (e, y)) (hx : x.Calm) (hw : ∀ o c, x = .was o c → d.paused = false) :
    y.Calm ∧ ((e.on d).paused = true → y.sect = true ∨ (d.paused = true ∧ x.sect = false)) := by
  cases x with
  | run c =>
    cases c with
    | ret => cases h
    | call o c => cases o <;> (cases h; refine ⟨?_, fun hp => .inr ⟨hp, rfl⟩⟩; first | trivial | exact (nomatch ·))
    | has x f => cases h; exact ⟨trivial, fun hp => .inr ⟨hp, rfl⟩⟩
  | testA x k =>
    cases h
    obtain ⟨h1, h2⟩ := go_calm hx
    have key : ∀ z : Ctl, z.sect = k.saw.isSome → (d.paused = true → z.sect = true ∨ (d.paused = true ∧ k.saw.isSome = false)) := by
      intro z hz hp
      cases hs : k.saw.isSome with
      | true => exact .inl (hz.trans hs)
      | false => exact .inr ⟨hp, rfl⟩
    split
    · exact ⟨h1, key _ h2⟩
    · exact ⟨hx, key _ rfl⟩
  | testD x k =>
    cases h
    obtain ⟨h1, h2⟩ := go_calm hx
    have key : ∀ z : Ctl, z.sect = k.saw.isSome → (d.paused = true → z.sect = true ∨ (d.paused = true ∧ k.saw.isSome = false)) := by
      intro z hz hp
      cases hs : k.saw.isSome with
      | true => exact .inl (hz.trans hs)
      | false => exact .inr ⟨hp, rfl⟩
    split
    · exact ⟨hx, key _ rfl⟩
    · exact ⟨h1, key _ h2⟩
  | testS x k =>
    cases h
    have key : ∀ z : Ctl, z.sect = k.saw.isSome → (d.paused = true → z.sect = true ∨ (d.paused = true ∧ k.saw.isSome = false)) := by
      intro z hz hp
      cases hs : k.saw.isSome with
      | true => exact .inl (hz.trans hs)
      | false => exact .inr ⟨hp, rfl⟩
    split <;> exact ⟨hx, key _ rfl⟩
  | emit a r k =>
    cases h
    have key : ∀ z : Ctl, z.sect = k.saw.isSome → (d.paused = true → z.sect = true ∨ (d.paused = true ∧ k.saw.isSome = false)) := by
      intro z hz hp
      cases hs : k.saw.isSome with
      | true => exact .inl (hz.trans hs)
      | false => exact .inr ⟨hp, rfl⟩
    split <;> exact ⟨hx, key _ rfl⟩
  | put x k =>
    cases h
    refine ⟨hx, fun hp => ?_⟩
    show k.saw.isSome = true ∨ (_ ∧ k.saw.isSome = false)
    cases hs : k.saw.isSome with
    | true => exact .inl rfl
    | false => exact .inr ⟨hp, rfl⟩
  | drop x k =>
    cases h
    refine ⟨hx, fun hp => ?_⟩
    show k.saw.isSome = true ∨ (_ ∧ k.saw.isSome = false)
    cases hs : k.saw.isSome with
    | true => exact .inl rfl
    | false => exact .inr ⟨hp, rfl⟩
  | record a r k =>
    cases h
    obtain ⟨h1, h2⟩ := go_calm hx
    refine ⟨h1, fun hp => ?_⟩
    show k.go.sect = true ∨ (_ ∧ k.saw.isSome = false)
    rw [h2]
    cases hs : k.saw.isSome with
    | true => exact .inl rfl
    | false => exact .inr ⟨hp, rfl⟩
  | tell a r k =>
    cases h
    obtain ⟨h1, h2⟩ := go_calm hx
    refine ⟨h1, fun hp => ?_⟩
    show k.go.sect = true ∨ (_ ∧ k.saw.isSome = false)
    rw [h2]
    cases hs : k.saw.isSome with
    | true => exact .inl rfl
    | false => exact .inr ⟨hp, rfl⟩
  | was o c => cases h; exact ⟨hw _ _ rfl, fun hp => .inr ⟨hp, rfl⟩⟩
  | pause o w c =>
    cases h
    obtain rfl : w = false := hx
    have key : (enter false c o).Calm ∧ (enter false c o).sect = true := by
      cases o with
      | update xs => exact go_calm (k := ⟨.update xs, xs.map .add, some false, c⟩) (by simp)
      | diff xs => exact go_calm (k := ⟨.diff xs, xs.map .del, some false, c⟩) (by simp)
      | sym xs => exact go_calm (k := ⟨.sym xs, xs.map .flip, some false, c⟩) (by simp)
      | inter xs => exact ⟨rfl, rfl⟩
      | clear => exact ⟨rfl, rfl⟩
      | add x => exact ⟨(nomatch ·), rfl⟩
      | discard x => exact ⟨(nomatch ·), rfl⟩
    exact ⟨key.1, fun _ => .inl key.2⟩
  | empty w c =>
    cases h
    obtain rfl : w = false := hx
    split
    · obtain ⟨h1, h2⟩ := go_calm (k := ⟨.clear, [], some false, c⟩) (by simp)
      exact ⟨h1, fun _ => .inl h2⟩
    · exact ⟨rfl, fun _ => .inl rfl⟩
  | itemsC w c => cases h; exact ⟨hx, fun _ => .inl rfl⟩
  | wipe l w c => cases h; obtain rfl : w = false := hx; exact ⟨(nomatch ·), fun _ => .inl rfl⟩
  | itemsI xs w c =>
    cases h
    obtain rfl : w = false := hx
    obtain ⟨h1, h2⟩ := go_calm (k := ⟨.inter xs, (d.set.filter (fun i => decide (i ∉ xs))).map .del, some false, c⟩) (by simp)
    exact ⟨h1, fun _ => .inl h2⟩
  | resume o c => cases h; exact ⟨trivial, (nomatch ·)⟩
  | any o c => cases h; split <;> exact ⟨trivial, fun hp => .inr ⟨hp, rfl⟩⟩
  | _ => cases h; exact ⟨trivial, fun hp => .inr ⟨hp, rfl⟩⟩

theorem sect_bulk {x : Ctl} (h : x.sect = true) : x.bulk = true := by
  cases x with
  | testA => exact h
  | put => exact h
  | testD => exact h
  | drop => exact h
  | testS => exact h
  | emit => exact h
  | record => exact h
  | tell => exact h
  | empty => rfl
  | itemsC => rfl
  | wipe => rfl
  | itemsI => rfl
  | resume => rfl
  | _ => cases h

structure Still (σ : St) : Prop where
  calm : ∀ t, (σ.thr t).Calm
  sect : σ.data.paused = true → ∃ t, (σ.thr t).sect = true

theorem still_step {σ : St} (h : Still σ) (t : Nat) (h1 : ∀ t u, (σ.thr t).bulk = true → (σ.thr u).bulk = true → t = u) : Still (step σ t) := by
  cases hn : next σ.data t (σ.thr t) with
  | none => rw [step_none hn]; exact h
  | some p =>
    obtain ⟨e, x⟩ := p
    rw [step_some hn]
    obtain ⟨h2, h3⟩ := next_calm hn (h.calm t) (fun o c hw => by
      cases hp : σ.data.paused with
      | false => rfl
      | true =>
        obtain ⟨u, hu⟩ := h.sect hp
        have := h1 u t (sect_bulk hu) (by rw [hw]; rfl)
        rw [this, hw] at hu
        cases hu)
    refine ⟨fun u => ?_, fun hp => ?_⟩
    · show (if u = t then x else σ.thr u).Calm
      by_cases hu : u = t
      · rw [if_pos hu]; exact h2
      · rw [if_neg hu]; exact h.calm u
    · show ∃ u, (if u = t then x else σ.thr u).sect = true
      rcases h3 hp with h4 | ⟨h4, h5⟩
      · exact ⟨t, by rw [if_pos rfl]; exact h4⟩
      · obtain ⟨u, hu⟩ := h.sect h4
        refine ⟨u, ?_⟩
        rw [if_neg (fun e => by rw [e, h5] at hu; cases hu)]
        exact hu

theorem still_from : ∀ (s : List Nat) {σ : St}, Still σ → (∀ p q, s = p ++ q → ∀ t u, ((run p σ).thr t).bulk = true → ((run p σ).thr u).bulk = true → t = u) →
    Still (run s σ)
  | [], _, h, _ => h
  | t :: s, _, h, h1 => still_from s (still_step h t (h1 [] (t :: s) rfl)) (fun p q e => h1 (t :: p) q (by rw [e]; rfl))

theorem still_run {d : List Nat} {prog : Nat → Code} {s : List Nat}
    (h : ∀ p q, s = p ++ q → ∀ t u, InBulk t (run p (init d prog)).log → InBulk u (run p (init d prog)).log → t = u) : Still (run s (init d prog)) :=
  still_from s ⟨fun _ => trivial, (nomatch ·)⟩
    (fun p q e t u ht hu => h p q e t u ((open_run d prog p t).2 ht) ((open_run d prog p u).2 hu))

/-! ## What is heard -/

/-- What an event does to the count of `x`. -/
def Ev.hear (x : Nat) : Ev → Int
  | .told _ a r => (a.count x : Int) - r.count x
  | _ => 0

theorem heard_snoc (d : List Nat) (x : Nat) (l : List Ev) (e : Ev) : heard d x (l ++ [e]) = heard d x l + e.hear x := by
  unfold heard
  rw [List.foldl_append]
  cases e <;> simp [Ev.hear]

/-- What is recorded of `x`. -/
def net (x : Nat) (q : List (List Nat × List Nat)) : Int := ((q.flatMap Prod.fst).count x : Int) - (q.flatMap Prod.snd).count x

theorem net_snoc (x : Nat) (q : List (List Nat × List Nat)) (a r : List Nat) : net x (q ++ [(a, r)]) = net x q + ((a.count x : Int) - r.count x) := by
  simp only [net, List.flatMap_append, List.flatMap_cons, List.flatMap_nil, List.append_nil, List.count_append]
  omega

/-- One if `x` is in the set. -/
def has (x : Nat) (s : List Nat) : Int := if x ∈ s then 1 else 0

/-- Set and counts agree but for what is recorded and for `e`. -/
def Bal (d : Data) (m e : Nat → Int) : Prop := d.set.Nodup ∧ ∀ x, has x d.set = m x + net x d.queue + e x

def Quiet (d : Data) : Prop := d.paused = false ∧ d.queue = []

def Rest.Ok (d : Data) (k : Rest) : Prop :=
  match k.saw with
  | none => Quiet d
  | some w => w = false ∧ d.paused = true

/-- How the set and the counts are related while a thread works with the set alone. -/
def Ctl.Knows (d : Data) (m : Nat → Int) : Ctl → Prop
  | .run _ => Bal d m (fun _ => 0) ∧ Quiet d
  | .testA _ k | .testD _ k | .testS _ k => Bal d m (fun _ => 0) ∧ k.Ok d
  | .put x k => Bal d m (fun _ => 0) ∧ k.Ok d ∧ x ∉ d.set
  | .drop x k => Bal d m (fun _ => 0) ∧ k.Ok d ∧ x ∈ d.set
  | .emit a r k => Bal d m (fun x => (a.count x : Int) - r.count x) ∧ k.Ok d
  | .record a r k => Bal d m (fun x => (a.count x : Int) - r.count x) ∧ k.Ok d ∧ k.saw = some false
  | .tell a r k => Bal d m (fun x => (a.count x : Int) - r.count x) ∧ k.Ok d ∧ k.saw = none
  | .was _ _ => Bal d m (fun _ => 0) ∧ Quiet d
  | .pause _ w _ => Bal d m (fun _ => 0) ∧ Quiet d ∧ w = false
  | .empty w _ | .itemsC w _ | .itemsI _ w _ => Bal d m (fun _ => 0) ∧ w = false ∧ d.paused = true
  | .wipe l w _ => Bal d m (fun _ => 0) ∧ w = false ∧ d.paused = true ∧ l = d.set
  | .resume _ _ => Bal d m (fun _ => 0) ∧ d.paused = true
  | .any _ _ | .reduce _ _ => Bal d m (fun _ => 0) ∧ d.paused = false
  | .tellR _ a r _ => Bal d m (fun _ => 0) ∧ d.paused = false ∧ a = d.queue.flatMap Prod.fst ∧ r = d.queue.flatMap Prod.snd
  | .forget _ _ => d.set.Nodup ∧ (∀ x, has x d.set = m x) ∧ d.paused = false
  | .done _ _ => Bal d m (fun _ => 0) ∧ Quiet d

theorem go_knows {d : Data} {m : Nat → Int} {k : Rest} (h : Bal d m (fun _ => 0)) (hk : k.Ok d) : k.go.Knows d m := by
  obtain ⟨o, td, w, c⟩ := k
  cases td with
  | cons a ds => cases a <;> exact ⟨h, hk⟩
  | nil =>
    cases w with
    | none => exact ⟨h, hk⟩
    | some v => obtain ⟨rfl, h2⟩ : v = false ∧ d.paused = true := hk; exact ⟨h, h2⟩

theorem bal_put {d : Data} {m : Nat → Int} {x : Nat} (h : Bal d m (fun _ => 0)) (hx : x ∉ d.set) :
    Bal { d with set := if x ∈ d.set then d.set else d.set ++ [x] } m (fun y => (([x] : List Nat).count y : Int) - ([] : List Nat).count y) := by
  refine ⟨?_, fun y => ?_⟩
  · show (if x ∈ d.set then d.set else d.set ++ [x]).Nodup
    rw [if_neg hx]
    exact List.nodup_append.mpr ⟨h.1, by simp, fun a ha b hb e => hx (by rw [List.mem_singleton.mp hb] at e; exact e ▸ ha)⟩
  · have := h.2 y
    show has y (if x ∈ d.set then d.set else d.set ++ [x]) = m y + net y d.queue + _
    rw [if_neg hx]
    by_cases hy : y = x
    · subst hy
      simp only [has, hx, if_false, List.mem_append, List.mem_singleton, or_true, if_true, List.count_cons, List.count_nil] at *
      simp; omega
    · have h2 : (x == y) = false := by simpa using fun e => hy e.symm
      simp only [has, List.mem_append, List.mem_singleton, hy, or_false, List.count_cons, List.count_nil, h2] at *
      simp; omega

theorem bal_drop {d : Data} {m : Nat → Int} {x : Nat} (h : Bal d m (fun _ => 0)) (hx : x ∈ d.set) :
    Bal { d with set := d.set.filter (· != x) } m (fun y => (([] : List Nat).count y : Int) - ([x] : List Nat).count y) := by
  refine ⟨h.1.filter _, fun y => ?_⟩
  have := h.2 y
  show has y (d.set.filter (· != x)) = m y + net y d.queue + _
  by_cases hy : y = x
  · subst hy
    simp only [has, hx, if_true, List.mem_filter, List.count_cons, List.count_nil] at *
    simp; omega
  · have h2 : (x == y) = false := by simpa using fun e => hy e.symm
    simp only [has, List.mem_filter, bne_iff_ne, ne_eq, hy, not_false_eq_true, and_true, List.count_cons, List.count_nil, h2] at *
    simp; omega

theorem count_has {l : List Nat} (h : l.Nodup) (x : Nat) : (l.count x : Int) = has x l := by
  unfold has
  by_cases hx : x ∈ l
  · rw [if_pos hx]
    have h1 := List.count_pos_iff.mpr hx
    have h2 := List.nodup_iff_count.mp h x
    omega
  · rw [if_neg hx, List.count_eq_zero.mpr hx]; rfl

theorem bal_wipe {d : Data} {m : Nat → Int} (h : Bal d m (fun _ => 0)) :
    Bal { d with set := [] } m (fun y => (([] : List Nat).count y : Int) - d.set.count y) := by
  refine ⟨List.nodup_nil, fun y => ?_⟩
  have := h.2 y
  have h2 := count_has h.1 y
  show has y [] = m y + net y d.queue + _
  simp only [List.count_nil] at *
  have : has y [] = 0 := by simp [has]
  omega

theorem bal_ext {d : Data} {m m' e e' : Nat → Int} (h : Bal d m e) (hm : ∀ x, m x + e x = m' x + e' x) : Bal d m' e' :=
  ⟨h.1, fun x => by have := h.2 x; have := hm x; omega⟩

/-- A step of the thread that works with the set alone. -/
theorem next_own {d : Data} {m : Nat → Int} {t : Nat} {x y : Ctl} {e : Ev} (h : next d t x = some (e, y)) (hk : x.Knows d m) :
    y.Knows (e.on d) (fun z => m z + e.hear z) := by
  have zero : ∀ {d' : Data} {f : Nat → Int}, Bal d' m f → Bal d' (fun z => m z + 0) f := fun h => bal_ext h (fun z => by simp)
  cases x with
  | run c =>
    cases c with
    | ret => cases h
    | call o c => cases o <;> (cases h; exact ⟨zero hk.1, hk.2⟩)
    | has x f => cases h; exact ⟨zero hk.1, hk.2⟩
  | testA x k =>
    cases h
    by_cases hx : x ∈ d.set
    · rw [if_pos hx]; exact go_knows (zero hk.1) hk.2
    · rw [if_neg hx]; exact ⟨zero hk.1, hk.2, hx⟩
  | testD x k =>
    cases h
    by_cases hx : x ∈ d.set
    · rw [if_pos hx]; exact ⟨zero hk.1, hk.2, hx⟩
    · rw [if_neg hx]; exact go_knows (zero hk.1) hk.2
  | testS x k => cases h; split <;> exact ⟨zero hk.1, hk.2⟩
  | put x k => cases h; exact ⟨zero (bal_put hk.1 hk.2.2), hk.2.1⟩
  | drop x k => cases h; exact ⟨zero (bal_drop hk.1 hk.2.2), hk.2.1⟩
  | emit a r k =>
    cases h
    obtain ⟨h1, h2⟩ := hk
    obtain ⟨o, td, w, c⟩ := k
    cases w with
    | none =>
      have h2 : Quiet d := h2
      rw [h2.1]
      exact ⟨zero h1, h2, rfl⟩
    | some v =>
      obtain ⟨rfl, h3⟩ : v = false ∧ d.paused = true := h2
      rw [h3]
      exact ⟨zero h1, ⟨rfl, h3⟩, rfl⟩
  | record a r k =>
    cases h
    obtain ⟨h1, h2, h3⟩ := hk
    refine go_knows ⟨h1.1, fun z => ?_⟩ ?_
    · have h4 : has z d.set = m z + net z d.queue + ((a.count z : Int) - r.count z) := h1.2 z
      show has z d.set = m z + 0 + net z (d.queue ++ [(a, r)]) + 0
      rw [net_snoc]; omega
    · unfold Rest.Ok at h2 ⊢; rw [h3] at h2 ⊢; exact h2
  | tell a r k =>
    cases h
    obtain ⟨h1, h2, h3⟩ := hk
    exact go_knows (bal_ext h1 (fun z => by simp [Ev.hear])) h2
  | was o c => cases h; exact ⟨zero hk.1, hk.2, hk.2.1⟩
  | pause o w c =>
    cases h
    obtain ⟨h1, h2, rfl⟩ := hk
    have h1 : Bal (Ev.on d (.pause t)) (fun z => m z + 0) (fun _ => 0) := ⟨h1.1, (zero h1).2⟩
    cases o with
    | update xs => exact go_knows h1 ⟨rfl, rfl⟩
    | diff xs => exact go_knows h1 ⟨rfl, rfl⟩
    | sym xs => exact go_knows h1 ⟨rfl, rfl⟩
    | inter xs => exact ⟨h1, rfl, rfl⟩
    | clear => exact ⟨h1, rfl, rfl⟩
    | add x => exact ⟨h1, rfl, rfl⟩
    | discard x => exact ⟨h1, rfl, rfl⟩
  | empty w c =>
    cases h
    split
    · exact go_knows (zero hk.1) hk.2
    · exact ⟨zero hk.1, hk.2⟩
  | itemsC w c => cases h; exact ⟨zero hk.1, hk.2.1, hk.2.2, rfl⟩
  | wipe l w c => cases h; obtain ⟨h1, h2, h3, rfl⟩ := hk; exact ⟨zero (bal_wipe h1), h2, h3⟩
  | itemsI xs w c => cases h; exact go_knows (zero hk.1) hk.2
  | resume o c => cases h; exact ⟨⟨hk.1.1, (zero hk.1).2⟩, rfl⟩
  | any o c =>
    cases h
    cases hq : d.queue with
    | nil => exact ⟨zero hk.1, hk.2, hq⟩
    | cons a q => exact ⟨zero hk.1, hk.2⟩
  | reduce o c => cases h; exact ⟨zero hk.1, hk.2, rfl, rfl⟩
  | tellR o a r c =>
    cases h
    obtain ⟨h1, h2, rfl, rfl⟩ := hk
    exact ⟨h1.1, fun z => by have := h1.2 z; simp only [net] at this; show has z d.set = m z + (_ - _); omega, h2⟩
  | forget o c => cases h; exact ⟨⟨hk.1, fun z => by have := hk.2.1 z; show has z d.set = m z + 0 + net z [] + 0; simp [net]; omega⟩, hk.2.2, rfl⟩
  | done o c => cases h; exact ⟨zero hk.1, hk.2⟩

/-- A thread that begins a call or looks something up changes neither set nor counts. -/
theorem next_idle {d : Data} {t : Nat} {x y : Ctl} {e : Ev} (h : next d t x = some (e, y)) (hx : x.busy = false) :
    e.on d = d ∧ ∀ z, e.hear z = 0 := by
  cases x with
  | run c =>
    cases c with
    | ret => cases h
    | call o c => cases o <;> (cases h; exact ⟨rfl, fun _ => rfl⟩)
    | has x f => cases h; exact ⟨rfl, fun _ => rfl⟩
  | _ => cases hx

structure Known (d : List Nat) (σ : St) : Prop where
  knows : ∀ t, (σ.thr t).busy = true → (σ.thr t).Knows σ.data (fun x => heard d x σ.log)
  rest : (∀ t, (σ.thr t).busy = false) → Bal σ.data (fun x => heard d x σ.log) (fun _ => 0) ∧ Quiet σ.data

/-- At most one thread is in a call. -/
def One (σ : St) : Prop := ∀ t u, (σ.thr t).busy = true → (σ.thr u).busy = true → t = u

theorem knows_idle {d : Data} {m : Nat → Int} {x : Ctl} (hx : x.busy = false) (h : x.Knows d m) : Bal d m (fun _ => 0) ∧ Quiet d := by
  cases x with
  | run c => exact h
  | _ => cases hx

theorem known_step {d : List Nat} {σ : St} (h : Known d σ) (t : Nat) (h1 : One σ) (h2 : One (step σ t)) : Known d (step σ t) := by
  cases hn : next σ.data t (σ.thr t) with
  | none => rw [step_none hn]; exact h
  | some p =>
    obtain ⟨e, x⟩ := p
    rw [step_some hn] at h2 ⊢
    have hh : (fun z => heard d z (σ.log ++ [e])) = (fun z => heard d z σ.log + e.hear z) := funext fun z => heard_snoc d z σ.log e
    by_cases hk : (σ.thr t).busy = true
    · have hown := next_own hn (h.knows t hk)
      refine ⟨fun u hu => ?_, fun hr => ?_⟩
      · have hu : (if u = t then x else σ.thr u).busy = true := hu
        show Ctl.Knows (e.on σ.data) (fun z => heard d z (σ.log ++ [e])) (if u = t then x else σ.thr u)
        by_cases hut : u = t
        · rw [if_pos hut, hh]; exact hown
        · rw [if_neg hut] at hu
          exact absurd (h1 u t hu hk) hut
      · have := hr t
        have hx : x.busy = false := by simpa using this
        show Bal (e.on σ.data) (fun z => heard d z (σ.log ++ [e])) (fun _ => 0) ∧ Quiet (e.on σ.data)
        rw [hh]; exact knows_idle hx hown
    · have hk : (σ.thr t).busy = false := by simpa using hk
      obtain ⟨h3, h4⟩ := next_idle hn hk
      have hh' : (fun z => heard d z (σ.log ++ [e])) = (fun z => heard d z σ.log) := by rw [hh]; funext z; rw [h4 z]; simp
      refine ⟨fun u hu => ?_, fun hr => ?_⟩
      · have hu' : (if u = t then x else σ.thr u).busy = true := hu
        show Ctl.Knows (e.on σ.data) (fun z => heard d z (σ.log ++ [e])) (if u = t then x else σ.thr u)
        by_cases hut : u = t
        · rw [if_pos hut, hh]
          have hrest := h.rest (fun w => by
            cases hw : (σ.thr w).busy with
            | false => rfl
            | true =>
              have hwt : w ≠ t := fun e => by rw [e, hk] at hw; cases hw
              have := h2 u w hu (show (if w = t then x else σ.thr w).busy = true from by rw [if_neg hwt]; exact hw)
              exact absurd (this.symm.trans hut) hwt)
          refine next_own hn ?_
          cases hc : σ.thr t with
          | run c => exact hrest
          | _ => rw [hc] at hk; cases hk
        · rw [if_neg hut] at hu' ⊢
          rw [hh', h3]
          exact h.knows u hu'
      · show Bal (e.on σ.data) (fun z => heard d z (σ.log ++ [e])) (fun _ => 0) ∧ Quiet (e.on σ.data)
        rw [hh', h3]
        refine h.rest (fun w => ?_)
        by_cases hwt : w = t
        · rw [hwt]; exact hk
        · have : (if w = t then x else σ.thr w).busy = false := hr w
          rwa [if_neg hwt] at this

theorem known_from {d : List Nat} : ∀ (s : List Nat) {σ : St}, Known d σ → (∀ p q, s = p ++ q → One (run p σ)) → Known d (run s σ)
  | [], _, h, _ => h
  | t :: s, _, h, h1 => known_from s (known_step h t (h1 [] (t :: s) rfl) (h1 [t] s rfl)) (fun p q e => h1 (t :: p) q (by rw [e]; rfl))

theorem known_run {d : List Nat} {prog : Nat → Code} {s : List Nat} (hd : d.Nodup)
    (h : ∀ p q, s = p ++ q → ∀ t u, InOp t (run p (init d prog)).log → InOp u (run p (init d prog)).log → t = u) :
    Known d (run s (init d prog)) :=
  known_from s ⟨fun _ hk => (nomatch (show false = true from hk)), fun _ => ⟨⟨hd, fun x => by show has x d = has x d + 0 + 0; omega⟩, rfl, rfl⟩⟩
    (fun p q e t u ht hu => h p q e t u ((open_run d prog p t).1 ht) ((open_run d prog p u).1 hu))

theorem log_grows : ∀ (q : List Nat) (σ : St), ∃ l, (run q σ).log = σ.log ++ l
  | [], σ => ⟨[], by simp [run]⟩
  | t :: q, σ => by
    obtain ⟨l, h⟩ := log_grows q (step σ t)
    show ∃ l', (run q (step σ t)).log = σ.log ++ l'
    rw [h]
    cases hn : next σ.data t (σ.thr t) with
    | none => rw [step_none hn]; exact ⟨l, rfl⟩
    | some p => obtain ⟨e, x⟩ := p; rw [step_some hn]; exact ⟨e :: l, by simp⟩

theorem run_append (p q : List Nat) (σ : St) : run (p ++ q) σ = run q (run p σ) := by simp [run, List.foldl_append]

end Psygnal.StC
