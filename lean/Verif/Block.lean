import Verif.DictConcLemmas
import Verif.ListConcLemmas

/-!
# A lock held over several operations: model and helpers for C100

The repository has no such lock: user code puts several operations, or one like `pop` that is made of several, in one block `with lock:`, with one
`threading.Lock` per object.
-/
namespace Psygnal.Blk

/-- A thread model: what a thread does next, what an event does, when a thread has nothing left to do (`/repo/src/psygnal/containers/_evented_dict.py:176-192`,
`/repo/src/psygnal/containers/_evented_list.py:137-290`). -/
structure Sys (D C E : Type) where
  next : D → Nat → C → Option (E × C)
  on : D → E → D
  rest : C → Bool
  thread : E → Nat

/-- The contents, what the threads do, what happened, who holds the lock (`/repo/src/psygnal/containers/_evented_dict.py:44-51`,
`/repo/src/psygnal/containers/_evented_list.py:124`). -/
structure St (D C E : Type) where
  data : D
  thr : Nat → C
  log : List E
  lock : Option Nat

/-- What thread `t` saw (user code around `/repo/src/psygnal/containers/_evented_dict.py:59-192`, `/repo/src/psygnal/containers/_evented_list.py:137-290`). -/
def own {D C E : Type} (m : Sys D C E) (t : Nat) (l : List E) : List E := l.filter (fun e => m.thread e == t)

/-- One step of thread `t`.  Outside of blocks the thread decides, from what it saw, which block it makes next, and waits if the lock is held; in a block it
goes on, and lets the lock go with the last step.  User code around `/repo/src/psygnal/containers/_evented_dict.py:59-192`,
`/repo/src/psygnal/containers/_evented_list.py:137-290`. -/
def step {D C E : Type} (m : Sys D C E) (prog : Nat → List E → Option C) (σ : St D C E) (t : Nat) : St D C E :=
  if m.rest (σ.thr t) then
    match prog t (own m t σ.log), σ.lock with
    | some x, none => { σ with thr := (fun u => if u = t then x else σ.thr u), lock := if m.rest x then none else some t }
    | _, _ => σ
  else
    match m.next σ.data t (σ.thr t) with
    | none => σ
    | some (e, x) => ⟨m.on σ.data e, (fun u => if u = t then x else σ.thr u), σ.log ++ [e], if m.rest x then none else σ.lock⟩

/-- A schedule: which thread makes the next step (user code around `/repo/src/psygnal/containers/_evented_dict.py:59-192`,
`/repo/src/psygnal/containers/_evented_list.py:137-290`). -/
def run {D C E : Type} (m : Sys D C E) (prog : Nat → List E → Option C) (s : List Nat) (σ : St D C E) : St D C E := s.foldl (step m prog) σ

/-- The events from one place of thread `t` to another when nobody else does anything. -/
inductive Path {D C E : Type} (m : Sys D C E) (t : Nat) : D → C → List E → D → C → Prop
  | nil (d : D) (x : C) : Path m t d x [] d x
  | cons {d d' : D} {x y z : C} {e : E} {l : List E} : m.next d t x = some (e, y) → Path m t (m.on d e) y l d' z → Path m t d x (e :: l) d' z

/-- Thread `t` gets to the end of its block. -/
def Fin {D C E : Type} (m : Sys D C E) (t : Nat) (d : D) (x : C) : Prop := ∃ l d' z, Path m t d x l d' z ∧ m.rest z = true

theorem Fin.step {D C E : Type} {m : Sys D C E} {t : Nat} {d : D} {x y : C} {e : E} (h : m.next d t x = some (e, y)) (hy : Fin m t (m.on d e) y) :
    Fin m t d x := by
  obtain ⟨l, d', z, h1, h2⟩ := hy
  exact ⟨e :: l, d', z, .cons h h1, h2⟩

theorem Path.snoc {D C E : Type} {m : Sys D C E} {t : Nat} {d d' : D} {x y z : C} {e : E} {l : List E} (h : Path m t d x l d' y)
    (hn : m.next d' t y = some (e, z)) : Path m t d x (l ++ [e]) (m.on d' e) z := by
  induction h with
  | nil d x => exact .cons hn (.nil _ _)
  | cons h1 _ ih => exact .cons h1 (ih hn)

theorem Path.trans {D C E : Type} {m : Sys D C E} {t : Nat} {d d' d'' : D} {x y z : C} {l k : List E} (h : Path m t d x l d' y)
    (h' : Path m t d' y k d'' z) : Path m t d x (l ++ k) d'' z := by
  induction h with
  | nil d x => exact h'
  | cons h1 _ ih => exact .cons h1 (ih h')

/-- There is one way to the end. -/
theorem Path.one {D C E : Type} {m : Sys D C E} (hr : ∀ d t x, m.rest x = true → m.next d t x = none) {t : Nat} {d d1 d2 : D} {x y z : C} {l k : List E}
    (h : Path m t d x l d1 y) (hy : m.rest y = true) (h' : Path m t d x k d2 z) (hz : m.rest z = true) : l = k ∧ d1 = d2 := by
  induction h generalizing k with
  | nil d x =>
    cases h' with
    | nil => exact ⟨rfl, rfl⟩
    | cons h2 _ => rw [hr _ _ _ hy] at h2; cases h2
  | cons h1 _ ih =>
    cases h' with
    | nil => rw [hr _ _ _ hz] at h1; cases h1
    | cons h2 h3 =>
      rw [h1] at h2
      cases h2
      obtain ⟨h4, h5⟩ := ih hy h3
      exact ⟨by rw [h4], h5⟩

/-- Whole blocks one after the other: the events so far and the contents after them. -/
inductive Done {D C E : Type} (m : Sys D C E) (prog : Nat → List E → Option C) (d0 : D) : List E → D → Prop
  | nil : Done m prog d0 [] d0
  | block {l k : List E} {d d' : D} {t : Nat} {x z : C} : Done m prog d0 l d → prog t (own m t l) = some x → Path m t d x k d' z → m.rest z = true →
      Done m prog d0 (l ++ k) d'

/-- Only the thread that holds the lock is in a block; apart from that block there are whole blocks only. -/
structure Good {D C E : Type} (m : Sys D C E) (prog : Nat → List E → Option C) (d0 : D) (σ : St D C E) : Prop where
  only : ∀ u, m.rest (σ.thr u) = false → σ.lock = some u
  held : ∀ u, σ.lock = some u → m.rest (σ.thr u) = false ∧ ∃ l k d x, σ.log = l ++ k ∧ Done m prog d0 l d ∧ prog u (own m u l) = some x ∧
    Path m u d x k σ.data (σ.thr u)
  free : σ.lock = none → Done m prog d0 σ.log σ.data

theorem good_step {D C E : Type} {m : Sys D C E} {prog : Nat → List E → Option C} {d0 : D} {σ : St D C E} (h : Good m prog d0 σ) (t : Nat) :
    Good m prog d0 (step m prog σ t) := by
  unfold step
  split
  · rename_i hr
    split
    · rename_i x hx hl
      have hf := h.free hl
      have hall : ∀ u, m.rest (σ.thr u) = true := fun u => by
        cases hu : m.rest (σ.thr u) with
        | true => rfl
        | false => have := h.only u hu; rw [hl] at this; cases this
      cases hx' : m.rest x with
      | true =>
        refine ⟨fun u hu => ?_, fun u hu => ?_, fun _ => ?_⟩
        · dsimp only at hu
          split at hu
          · rw [hx'] at hu; cases hu
          · rw [hall u] at hu; cases hu
        · simp at hu
        · exact hf
      | false =>
        refine ⟨fun u hu => ?_, fun u hu => ?_, fun hn => ?_⟩
        · dsimp only at hu
          split at hu
          · rename_i e; subst e; rfl
          · rw [hall u] at hu; cases hu
        · obtain rfl : t = u := by simpa using hu
          refine ⟨by simp [hx'], σ.log, [], σ.data, x, (List.append_nil _).symm, hf, hx, ?_⟩
          simp only [if_pos]
          exact .nil _ _
        · simp at hn
    · exact h
  · rename_i hr
    have hr' : m.rest (σ.thr t) = false := by simpa using hr
    have hl := h.only t hr'
    obtain ⟨_, l, k, d, x, h1, h2, h3, h4⟩ := h.held t hl
    split
    · exact h
    · rename_i e y hy
      have hp := h4.snoc hy
      have hoth : ∀ u, u ≠ t → m.rest (σ.thr u) = true := fun u hu => by
        cases hq : m.rest (σ.thr u) with
        | true => rfl
        | false => have := h.only u hq; rw [hl] at this; exact absurd (Option.some.inj this).symm hu
      have hlog : σ.log ++ [e] = l ++ (k ++ [e]) := by rw [h1, List.append_assoc]
      cases hy' : m.rest y with
      | true =>
        refine ⟨fun u hu => ?_, fun u hu => ?_, fun _ => ?_⟩
        · dsimp only at hu
          split at hu
          · rw [hy'] at hu; cases hu
          · rename_i hne; rw [hoth u hne] at hu; cases hu
        · simp at hu
        · show Done m prog d0 (σ.log ++ [e]) _
          rw [hlog]
          exact .block h2 h3 hp hy'
      | false =>
        refine ⟨fun u hu => ?_, fun u hu => ?_, fun hn => ?_⟩
        · dsimp only at hu
          split at hu
          · rename_i e'; subst e'; exact hl
          · rename_i hne; rw [hoth u hne] at hu; cases hu
        · have hu' : σ.lock = some u := by simpa using hu
          obtain rfl : t = u := Option.some.inj (hl.symm.trans hu')
          refine ⟨by simp [hy'], l, k ++ [e], d, x, hlog, h2, h3, ?_⟩
          simp only [if_pos]
          exact hp
        · have hn' : σ.lock = none := by simpa using hn
          rw [hl] at hn'; cases hn'

theorem good_run {D C E : Type} {m : Sys D C E} {prog : Nat → List E → Option C} {d0 : D} (s : List Nat) {σ : St D C E} (h : Good m prog d0 σ) :
    Good m prog d0 (run m prog s σ) := by
  induction s generalizing σ with
  | nil => exact h
  | cons t s ih => exact ih (good_step h t)

theorem good_init {D C E : Type} {m : Sys D C E} {prog : Nat → List E → Option C} (d0 : D) {x : C} (hx : m.rest x = true) :
    Good m prog d0 ⟨d0, fun _ => x, [], none⟩ :=
  ⟨(fun _ hu => nomatch hx.symm.trans (show m.rest x = false from hu)), (fun _ hu => nomatch hu), fun _ => .nil⟩

/-- Whoever holds the lock lets it go. -/
theorem frees {D C E : Type} {m : Sys D C E} {prog : Nat → List E → Option C} {t : Nat} {d d' : D} {x z : C} {l : List E} (h : Path m t d x l d' z)
    (hz : m.rest z = true) (σ : St D C E) (hd : σ.data = d) (hx : σ.thr t = x)
    (hi : m.rest x = false) : ∃ k, (run m prog (List.replicate k t) σ).lock = none := by
  induction h generalizing σ with
  | nil d x => rw [hz] at hi; cases hi
  | @cons d d' x y z e l hn hp ih =>
    subst hd hx
    have hs : step m prog σ t = ⟨m.on σ.data e, (fun u => if u = t then y else σ.thr u), σ.log ++ [e], if m.rest y then none else σ.lock⟩ := by
      unfold step
      rw [if_neg (by simp [hi]), hn]
    cases hy : m.rest y with
    | true => exact ⟨1, by show (step m prog σ t).lock = none; rw [hs]; simp [hy]⟩
    | false =>
      obtain ⟨k, hk⟩ := ih hz (step m prog σ t) (by rw [hs]) (by rw [hs]; simp) hy
      exact ⟨k + 1, hk⟩

end Psygnal.Blk

namespace Psygnal.DcC

/-- Has the thread nothing left to do? (`/repo/src/psygnal/containers/_evented_dict.py:59-192`) -/
def Ctl.rest : Ctl → Bool
  | .run .ret => true
  | _ => false

/-- Dictionaries (`/repo/src/psygnal/containers/_evented_dict.py:59-60,176-192`). -/
def sys : Blk.Sys Dict Ctl Ev := ⟨next, Ev.on, Ctl.rest, Ev.thread⟩

theorem sys_rest (d : Dict) (t : Nat) (x : Ctl) (h : sys.rest x = true) : sys.next d t x = none := by
  cases x with
  | run c => cases c <;> first | rfl | cases h
  | _ => cases h

theorem fin_run (t : Nat) (c : Code) : ∀ d, Blk.Fin sys t d (.run c) := by
  induction c with
  | ret => exact fun d => ⟨[], d, _, .nil _ _, rfl⟩
  | set k v c ih =>
    refine fun d => .step rfl (.step rfl ?_)
    show Blk.Fin sys t d (if (d k).isSome then .old k v c else .adding k v c)
    cases hd : d k with
    | none => exact .step rfl (.step rfl (.step rfl (ih false _)))
    | some o =>
      refine .step (x := Ctl.old k v c) rfl ?_
      show Blk.Fin sys t d (match d k with
        | none => .raise k (some v) c
        | some o => if v = o then .same k v c else .changing k v o c)
      rw [hd]
      dsimp only
      split
      · exact .step rfl (ih false _)
      · exact .step rfl (.step rfl (.step rfl (ih false _)))
  | del k c ih =>
    refine fun d => .step rfl (.step rfl ?_)
    show Blk.Fin sys t d (match d k with
      | none => .raise k none c
      | some i => .removing k i c)
    cases hd : d k with
    | none => exact .step rfl (ih true _)
    | some o =>
      refine .step (x := Ctl.removing k o c) rfl (.step (x := Ctl.take k o c) rfl ?_)
      show Blk.Fin sys t _ (if (d k).isSome then .removed k o c else .raise k none c)
      rw [hd]
      exact .step rfl (ih false _)
  | get k c ih => exact fun d => .step rfl (ih _ _)

theorem fin_all (t : Nat) (d : Dict) (x : Ctl) : Blk.Fin sys t d x := by
  have hraise : ∀ d k v c, Blk.Fin sys t d (.raise k v c) := fun d k v c => .step rfl (fin_run t _ _)
  have hput : ∀ d k v o c, Blk.Fin sys t d (.putOld k v o c) := fun d k v o c => .step rfl (.step rfl (fin_run t _ _))
  have hold : ∀ d k v c, Blk.Fin sys t d (.old k v c) := by
    intro d k v c
    refine .step rfl ?_
    show Blk.Fin sys t d _
    cases d k with
    | none => exact hraise _ _ _ _
    | some o =>
      dsimp only
      split
      · exact .step rfl (fin_run t _ _)
      · exact .step rfl (hput _ _ _ _ _)
  have htake : ∀ d k i c, Blk.Fin sys t d (.take k i c) := by
    intro d k i c
    refine .step rfl ?_
    cases d k with
    | none => exact hraise _ _ _ _
    | some o => exact .step rfl (fin_run t _ _)
  cases x with
  | run c => exact fin_run t c d
  | has k v c =>
    refine .step rfl ?_
    show Blk.Fin sys t d _
    split
    · exact hold _ _ _ _
    · exact .step rfl (.step rfl (.step rfl (fin_run t _ _)))
  | adding k v c => exact .step rfl (.step rfl (.step rfl (fin_run t _ _)))
  | putNew k v c => exact .step rfl (.step rfl (fin_run t _ _))
  | added k v c => exact .step rfl (fin_run t _ _)
  | old k v c => exact hold _ _ _ _
  | same k v c => exact .step rfl (fin_run t _ _)
  | changing k v o c => exact .step rfl (hput _ _ _ _ _)
  | putOld k v o c => exact hput _ _ _ _ _
  | changed k v o c => exact .step rfl (fin_run t _ _)
  | item k c =>
    refine .step rfl ?_
    show Blk.Fin sys t d _
    cases d k with
    | none => exact hraise _ _ _ _
    | some i => exact .step rfl (htake _ _ _ _)
  | removing k i c => exact .step rfl (htake _ _ _ _)
  | take k i c => exact htake _ _ _ _
  | removed k i c => exact .step rfl (fin_run t _ _)
  | raise k v c => exact hraise _ _ _ _

/-- A block made alone by thread `t`, as one sees it: what happens, and the dictionary after it (`/repo/src/psygnal/containers/_evented_dict.py:59-60,176-192`). -/
def alone (t : Nat) (d : Dict) : Code → List Ev × Dict
  | .ret => ([], d)
  | .get k c => let q := alone t d (c (d k)); (.look t k (d k) :: q.1, q.2)
  | .set k v c => match d k with
    | none =>
      let q := alone t (fun m => if m = k then some v else d m) (c false)
      (.call t k v :: .has t k false :: .adding t k :: .put t k v :: .added t k v :: q.1, q.2)
    | some o =>
      if v = o then let q := alone t d (c false); (.call t k v :: .has t k true :: .read t k (some o) :: .same t k v :: q.1, q.2)
      else
        let q := alone t (fun m => if m = k then some v else d m) (c false)
        (.call t k v :: .has t k true :: .read t k (some o) :: .changing t k :: .put t k v :: .changed t k o v :: q.1, q.2)
  | .del k c => match d k with
    | none => let q := alone t d (c true); (.callD t k :: .read t k none :: .fail t k none :: q.1, q.2)
    | some i =>
      let q := alone t (fun m => if m = k then none else d m) (c false)
      (.callD t k :: .read t k (some i) :: .removing t k :: .took t k (some i) :: .removed t k i :: q.1, q.2)

theorem path_alone (t : Nat) (c : Code) : ∀ d, Blk.Path sys t d (.run c) (alone t d c).1 (alone t d c).2 (.run .ret) := by
  induction c with
  | ret => exact fun d => .nil _ _
  | get k c ih => exact fun d => .cons rfl (ih _ _)
  | set k v c ih =>
    intro d
    unfold alone
    cases hd : d k with
    | none =>
      refine .cons (y := Ctl.has k v c) rfl (.cons (y := Ctl.adding k v c) ?_ (.cons rfl (.cons rfl (.cons rfl (ih _ _)))))
      show next d t (.has k v c) = _
      simp [next, hd]
    | some o =>
      dsimp only
      split
      · rename_i e
        refine .cons (y := Ctl.has k v c) rfl (.cons (y := Ctl.old k v c) ?_ (.cons (y := Ctl.same k v c) ?_ (.cons rfl (ih _ _))))
        · show next d t (.has k v c) = _
          simp [next, hd]
        · show next d t (.old k v c) = _
          simp [next, hd, e]
      · rename_i e
        refine .cons (y := Ctl.has k v c) rfl (.cons (y := Ctl.old k v c) ?_ (.cons (y := Ctl.changing k v o c) ?_ (.cons rfl (.cons rfl (.cons rfl (ih _ _))))))
        · show next d t (.has k v c) = _
          simp [next, hd]
        · show next d t (.old k v c) = _
          simp [next, hd, e]
  | del k c ih =>
    intro d
    unfold alone
    cases hd : d k with
    | none =>
      refine .cons (y := Ctl.item k c) rfl (.cons (y := Ctl.raise k none c) ?_ (.cons rfl (ih _ _)))
      show next d t (.item k c) = _
      simp [next, hd]
    | some i =>
      refine .cons (y := Ctl.item k c) rfl (.cons (y := Ctl.removing k i c) ?_ (.cons (y := Ctl.take k i c) rfl (.cons (y := Ctl.removed k i c) ?_ (.cons rfl (ih _ _)))))
      · show next d t (.item k c) = _
        simp [next, hd]
      · show next d t (.take k i c) = _
        simp [next, hd]

end Psygnal.DcC

namespace Psygnal.LsC

/-- Has the thread nothing left to do? (`/repo/src/psygnal/containers/_evented_list.py:137-290`) -/
def Ctl.rest : Ctl → Bool
  | .run .ret => true
  | _ => false

/-- Lists (`/repo/src/psygnal/containers/_evented_list.py:137-143,151-154,162-197,239-241,271-290`). -/
def sys : Blk.Sys (List Nat) Ctl Ev := ⟨next, Ev.on, Ctl.rest, Ev.thread⟩

theorem sys_rest (d : List Nat) (t : Nat) (x : Ctl) (h : sys.rest x = true) : sys.next d t x = none := by
  cases x with
  | run c => cases c <;> first | rfl | cases h
  | _ => cases h

theorem fin_need (t : Nat) (c : Option Bool → Code) (ih : ∀ a d, Blk.Fin sys t d (.run (c a))) (d : List Nat) (s a e : Int) : Blk.Fin sys t d (need s a e c) := by
  unfold need
  split
  · exact .step rfl (ih _ _)
  · refine .step rfl (.step (x := Ctl.takeM s a e c) rfl ?_)
    show Blk.Fin sys t _ (match item d s with
      | none => .failM s a e c
      | some x => .insM s a (if s < e then e - 1 else e) x c)
    cases item d s with
    | none => exact .step rfl (ih _ _)
    | some x => exact .step rfl (.step rfl (.step rfl (ih _ _)))

theorem fin_take (t : Nat) (c : Bool → Code) (ih : ∀ a d, Blk.Fin sys t d (.run (c a))) (d : List Nat) (i j : Int) : Blk.Fin sys t d (.take i j c) := by
  refine .step (x := Ctl.take i j c) rfl ?_
  show Blk.Fin sys t _ (match item d j with
    | none => .failD i j c
    | some x => .removed i j x c)
  cases item d j with
  | none => exact .step rfl (ih _ _)
  | some x => exact .step rfl (ih _ _)

theorem fin_put (t : Nat) (c : Bool → Code) (ih : ∀ a d, Blk.Fin sys t d (.run (c a))) (d : List Nat) (i : Int) (v o : Nat) : Blk.Fin sys t d (.put i v o c) := by
  refine .step (x := Ctl.put i v o c) rfl ?_
  show Blk.Fin sys t _ (if (item d i).isSome then .changed i v o c else .failS i v c)
  split
  · exact .step rfl (ih _ _)
  · exact .step rfl (ih _ _)

theorem fin_old (t : Nat) (c : Bool → Code) (ih : ∀ a d, Blk.Fin sys t d (.run (c a))) (d : List Nat) (i : Int) (v : Nat) : Blk.Fin sys t d (.old i v c) := by
  refine .step (x := Ctl.old i v c) rfl ?_
  show Blk.Fin sys t _ (match item d i with
    | none => .failS i v c
    | some o => if v = o then .same i v c else .put i v o c)
  cases item d i with
  | none => exact .step rfl (ih _ _)
  | some o =>
    dsimp only
    split
    · exact .step rfl (ih _ _)
    · exact fin_put t c ih _ _ _ _

theorem fin_run (t : Nat) (c : Code) : ∀ d, Blk.Fin sys t d (.run c) := by
  induction c with
  | ret => exact fun d => ⟨[], d, _, .nil _ _, rfl⟩
  | insert i v c ih => exact fun d => .step rfl (.step rfl (.step rfl (.step rfl (ih _))))
  | set i v c ih => exact fun d => .step rfl (fin_old t c ih _ _ _)
  | del i c ih =>
    refine fun d => .step (x := Ctl.run (.del i c)) rfl ?_
    split
    · exact .step rfl (.step rfl (fin_take t c ih _ _ _))
    · exact .step rfl (fin_take t c ih _ _ _)
  | move s a c ih =>
    refine fun d => .step (x := Ctl.run (.move s a c)) rfl ?_
    split
    · exact .step rfl (fin_need t c ih _ _ _ _)
    · exact fin_need t c ih _ _ _ _
  | get i c ih => exact fun d => .step rfl (ih _ _)
  | len c ih => exact fun d => .step rfl (ih _ _)

theorem fin_all (t : Nat) (d : List Nat) (x : Ctl) : Blk.Fin sys t d x := by
  cases x with
  | run c => exact fin_run t c d
  | inserting i v c => exact .step rfl (.step rfl (.step rfl (fin_run t _ _)))
  | ins i v c => exact .step rfl (.step rfl (fin_run t _ _))
  | inserted i v c => exact .step rfl (fin_run t _ _)
  | old i v c => exact fin_old t c (fun _ => fin_run t _) _ _ _
  | same i v c => exact .step rfl (fin_run t _ _)
  | put i v o c => exact fin_put t c (fun _ => fin_run t _) _ _ _ _
  | changed i v o c => exact .step rfl (fin_run t _ _)
  | failS i v c => exact .step rfl (fin_run t _ _)
  | lenD i c => exact .step rfl (.step rfl (fin_take t c (fun _ => fin_run t _) _ _ _))
  | removing i j c => exact .step rfl (fin_take t c (fun _ => fin_run t _) _ _ _)
  | take i j c => exact fin_take t c (fun _ => fin_run t _) _ _ _
  | removed i j x c => exact .step rfl (fin_run t _ _)
  | failD i j c => exact .step rfl (fin_run t _ _)
  | lenM s a c => exact .step rfl (fin_need t c (fun _ => fin_run t _) _ _ _ _)
  | stay s a e c => exact .step rfl (fin_run t _ _)
  | moving s a e c =>
    refine .step rfl (.step (x := Ctl.takeM s a e c) rfl ?_)
    show Blk.Fin sys t _ (match item d s with
      | none => .failM s a e c
      | some x => .insM s a (if s < e then e - 1 else e) x c)
    cases item d s with
    | none => exact .step rfl (fin_run t _ _)
    | some x => exact .step rfl (.step rfl (.step rfl (fin_run t _ _)))
  | takeM s a e c =>
    refine .step (x := Ctl.takeM s a e c) rfl ?_
    show Blk.Fin sys t _ (match item d s with
      | none => .failM s a e c
      | some x => .insM s a (if s < e then e - 1 else e) x c)
    cases item d s with
    | none => exact .step rfl (fin_run t _ _)
    | some x => exact .step rfl (.step rfl (.step rfl (fin_run t _ _)))
  | insM s a e x c => exact .step rfl (.step rfl (.step rfl (fin_run t _ _)))
  | moved s a e x c => exact .step rfl (.step rfl (fin_run t _ _))
  | reordered s a e x c => exact .step rfl (fin_run t _ _)
  | failM s a e c => exact .step rfl (fin_run t _ _)

/-- `_data.pop(i)`, the list left as it is for `IndexError` (`/repo/src/psygnal/containers/_evented_list.py:186,284`). -/
def without (l : List Nat) (i : Int) : List Nat := match Py.pop l i with
  | .ok (_, l') => l'
  | .error _ => l

/-- `_data[i] = v`, the list left as it is for `IndexError` (`/repo/src/psygnal/containers/_evented_list.py:176`). -/
def replaced (l : List Nat) (i : Int) (v : Nat) : List Nat := match Py.setItem l i v with
  | .ok l' => l'
  | .error _ => l

/-- A block made alone by thread `t`, as one sees it: what happens, and the list after it
(`/repo/src/psygnal/containers/_evented_list.py:137-143,151-154,162-197,239-241,271-290`). -/
def alone (t : Nat) (l : List Nat) : Code → List Ev × List Nat
  | .ret => ([], l)
  | .get i c => let q := alone t l (c (item l i)); (.look t i (item l i) :: q.1, q.2)
  | .len c => let q := alone t l (c l.length); (.size t l.length :: q.1, q.2)
  | .insert i v c => let q := alone t (Py.insert l i v) c; (.callI t i v :: .inserting t i :: .ins t i v :: .inserted t i v :: q.1, q.2)
  | .set i v c => match item l i with
    | none => let q := alone t l (c true); (.callS t i v :: .read t i none :: .fail t i :: q.1, q.2)
    | some o =>
      if v = o then let q := alone t l (c false); (.callS t i v :: .read t i (some o) :: .same t i v :: q.1, q.2)
      else let q := alone t (replaced l i v) (c false); (.callS t i v :: .read t i (some o) :: .put t i v (some o) :: .changed t i o v :: q.1, q.2)
  | .del i c =>
    let j := if i < 0 then i + l.length else i
    let pre := .callD t i :: if i < 0 then [.len t l.length] else []
    match item l j with
    | none => let q := alone t l (c true); (pre ++ .removing t j :: .took t j none :: .fail t j :: q.1, q.2)
    | some x => let q := alone t (without l j) (c false); (pre ++ .removing t j :: .took t j (some x) :: .removed t j x :: q.1, q.2)
  | .move s d c =>
    let e := if d < 0 then d + (l.length + 1) else d
    let pre := .callM t s d :: if d < 0 then [.len t l.length] else []
    if e = s ∨ e = s + 1 then let q := alone t l (c (some false)); (pre ++ .stay t s e :: q.1, q.2)
    else match item l s with
      | none => let q := alone t l (c none); (pre ++ .moving t s e :: .took t s none :: .fail t s :: q.1, q.2)
      | some x =>
        let f := if s < e then e - 1 else e
        let q := alone t (Py.insert (without l s) f x) (c (some true))
        (pre ++ .moving t s e :: .took t s (some x) :: .ins t f x :: .moved t s f x :: .reordered t :: q.1, q.2)

theorem path_alone (t : Nat) (c : Code) : ∀ l, Blk.Path sys t l (.run c) (alone t l c).1 (alone t l c).2 (.run .ret) := by
  induction c with
  | ret => exact fun d => .nil _ _
  | get k c ih => exact fun d => .cons rfl (ih _ _)
  | len c ih => exact fun d => .cons rfl (ih _ _)
  | insert i v c ih => exact fun d => .cons rfl (.cons rfl (.cons rfl (.cons rfl (ih _))))
  | set i v c ih =>
    intro l
    unfold alone
    cases hd : item l i with
    | none =>
      refine .cons (y := Ctl.old i v c) rfl (.cons (y := Ctl.failS i v c) ?_ (.cons rfl (ih _ _)))
      show next l t (.old i v c) = _
      simp [next, hd]
    | some o =>
      dsimp only
      split
      · rename_i e
        refine .cons (y := Ctl.old i v c) rfl (.cons (y := Ctl.same i v c) ?_ (.cons rfl (ih _ _)))
        show next l t (.old i v c) = _
        simp [next, hd, e]
      · rename_i e
        refine .cons (y := Ctl.old i v c) rfl (.cons (y := Ctl.put i v o c) ?_ (.cons (y := Ctl.changed i v o c) ?_ (.cons rfl (ih _ _))))
        · show next l t (.old i v c) = _
          simp [next, hd, e]
        · show next l t (.put i v o c) = _
          simp [next, hd]
  | del i c ih =>
    intro l
    have h1 : Blk.Path sys t l (.run (.del i c)) (.callD t i :: if i < 0 then [.len t l.length] else []) l
        (.removing i (if i < 0 then i + l.length else i) c) := by
      refine .cons rfl ?_
      show Blk.Path sys t l (if i < 0 then .lenD i c else .removing i i c) _ l _
      split
      · exact .cons rfl (.nil _ _)
      · exact .nil _ _
    unfold alone
    dsimp only
    generalize (if i < 0 then i + (l.length : Int) else i) = j at h1 ⊢
    cases hd : item l j with
    | none =>
      refine h1.trans (.cons rfl (.cons (y := Ctl.failD i j c) ?_ (.cons rfl (ih _ _))))
      show next l t (.take i j c) = _
      simp [next, hd]
    | some x =>
      refine h1.trans (.cons rfl (.cons (y := Ctl.removed i j x c) ?_ (.cons rfl (ih _ _))))
      show next l t (.take i j c) = _
      simp [next, hd]
  | move s d c ih =>
    intro l
    have h1 : Blk.Path sys t l (.run (.move s d c)) (.callM t s d :: if d < 0 then [.len t l.length] else []) l
        (need s d (if d < 0 then d + (l.length + 1) else d) c) := by
      refine .cons rfl ?_
      show Blk.Path sys t l (if d < 0 then .lenM s d c else need s d d c) _ l _
      split
      · exact .cons rfl (.nil _ _)
      · exact .nil _ _
    unfold alone
    dsimp only
    generalize (if d < 0 then d + ((l.length : Int) + 1) else d) = e at h1 ⊢
    unfold need at h1
    split
    · rename_i he
      rw [if_pos he] at h1
      exact h1.trans (.cons rfl (ih _ _))
    · rename_i he
      rw [if_neg he] at h1
      cases hd : item l s with
      | none =>
        refine h1.trans (.cons rfl (.cons (y := Ctl.failM s d e c) ?_ (.cons rfl (ih _ _))))
        show next l t (.takeM s d e c) = _
        simp [next, hd]
      | some x =>
        refine h1.trans (.cons rfl (.cons (y := Ctl.insM s d (if s < e then e - 1 else e) x c) ?_ (.cons rfl (.cons rfl (.cons rfl (ih _ _))))))
        show next l t (.takeM s d e c) = _
        simp [next, hd]

theorem alone_get (t : Nat) (l : List Nat) (i : Int) (c : Option Nat → Code) :
    alone t l (.get i c) = (.look t i (item l i) :: (alone t l (c (item l i))).1, (alone t l (c (item l i))).2) := rfl

theorem alone_len (t : Nat) (l : List Nat) (c : Nat → Code) :
    alone t l (.len c) = (.size t l.length :: (alone t l (c l.length)).1, (alone t l (c l.length)).2) := rfl

theorem alone_ins (t : Nat) (l : List Nat) (i : Int) (v : Nat) :
    alone t l (.insert i v .ret) = ([.callI t i v, .inserting t i, .ins t i v, .inserted t i v], Py.insert l i v) := rfl

theorem alone_del (t : Nat) (l : List Nat) (i j : Int) (x : Nat) (c : Bool → Code) (hj : j = if i < 0 then i + l.length else i) (h : item l j = some x)
    (hc : c false = .ret) :
    (alone t l (.del i c)).1 = (.callD t i :: if i < 0 then [.len t l.length] else []) ++ [.removing t j, .took t j (some x), .removed t j x] := by
  subst hj
  unfold alone
  dsimp only
  rw [h, hc]
  rfl

end Psygnal.LsC
