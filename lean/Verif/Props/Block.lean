import Verif.Block
import Verif.Lock

/-!
# C100: a lock held over several operations

A lock around each operation (C99) does not make `pop`, `setdefault` and `append` whole, which are made of several.  If user code makes them, or any other
blocks of operations, in one block `with lock:`, then whatever the threads do and whoever goes when, everything is as if the blocks were made one after the
other in one thread, in the order in which they got the lock; and whoever holds the lock lets it go.  Threads decide which block they make next from all that
they saw.
-/

namespace Psygnal.DcC

/-- Blocks made one after the other: what happened so far, and the dictionary after that (`/repo/src/psygnal/containers/_evented_dict.py:59-60,176-192`). -/
inductive OneByOne (prog : Nat → List Ev → Option Code) (d0 : Dict) : List Ev → Dict → Prop
  | nil : OneByOne prog d0 [] d0
  | block {l : List Ev} {d : Dict} (t : Nat) (c : Code) : OneByOne prog d0 l d → prog t (l.filter (fun e => e.thread == t)) = some c →
      OneByOne prog d0 (l ++ (alone t d c).1) (alone t d c).2

/-- The beginning: the dictionary has some items, no thread is in a block (`/repo/src/psygnal/containers/_evented_dict.py:165-174`). -/
def start (d : Dict) : Blk.St Dict Ctl Ev := ⟨d, fun _ => .run .ret, [], none⟩

/-- The blocks that the threads make (user code around `/repo/src/psygnal/containers/_evented_dict.py:59-192`). -/
def code (prog : Nat → List Ev → Option Code) (t : Nat) (l : List Ev) : Option Ctl := (prog t l).map .run

theorem done_one {prog : Nat → List Ev → Option Code} {d0 : Dict} {l : List Ev} {d : Dict} (h : Blk.Done sys (code prog) d0 l d) : OneByOne prog d0 l d := by
  induction h with
  | nil => exact .nil
  | @block l k d d' t x z _ hp hk hz ih =>
    obtain ⟨c, hc, rfl⟩ : ∃ c, prog t (Blk.own sys t l) = some c ∧ Ctl.run c = x := by
      unfold code at hp
      cases hq : prog t (Blk.own sys t l) with
      | none => rw [hq] at hp; cases hp
      | some c => rw [hq] at hp; exact ⟨c, rfl, Option.some.inj hp⟩
    obtain ⟨h1, h2⟩ := hk.one sys_rest hz (path_alone t c d) rfl
    rw [h1, h2]
    exact .block t c ih hc

/-- Dictionaries: whenever nobody holds the lock. -/
theorem C100_dict (d : Dict) (prog : Nat → List Ev → Option Code) (s : List Nat) :
    let p := Blk.run sys (code prog) s (start d)
    p.lock = none → OneByOne prog d p.log p.data :=
  fun hn => done_one ((Blk.good_run s (Blk.good_init d rfl)).free hn)

/-- While a thread holds the lock: it has made a part of its block, the others nothing. -/
theorem C100_dict_held (d : Dict) (prog : Nat → List Ev → Option Code) (s : List Nat) (t : Nat) :
    let p := Blk.run sys (code prog) s (start d)
    p.lock = some t → ∃ l d1 c k r, OneByOne prog d l d1 ∧ prog t (l.filter (fun e => e.thread == t)) = some c ∧ p.log = l ++ k ∧
      k ++ r = (alone t d1 c).1 := by
  intro p hl
  obtain ⟨_, l, k, d1, x, h1, h2, h3, h4⟩ := (Blk.good_run s (Blk.good_init (m := sys) (prog := code prog) d (x := .run .ret) rfl)).held t hl
  obtain ⟨c, hc, rfl⟩ : ∃ c, prog t (Blk.own sys t l) = some c ∧ Ctl.run c = x := by
    unfold code at h3
    cases hq : prog t (Blk.own sys t l) with
    | none => rw [hq] at h3; cases h3
    | some c => rw [hq] at h3; exact ⟨c, rfl, Option.some.inj h3⟩
  obtain ⟨r, d', z, h5, h6⟩ := fin_all t p.data (p.thr t)
  exact ⟨l, d1, c, k, r, done_one h2, hc, h1, ((h4.trans h5).one sys_rest h6 (path_alone t c d1) rfl).1⟩

/-- Whoever holds the lock lets it go. -/
theorem C100_dict_free (d : Dict) (prog : Nat → List Ev → Option Code) (s : List Nat) (t : Nat) (h : (Blk.run sys (code prog) s (start d)).lock = some t) :
    ∃ k, (Blk.run sys (code prog) (s ++ List.replicate k t) (start d)).lock = none := by
  obtain ⟨hi, _⟩ := (Blk.good_run s (Blk.good_init (m := sys) (prog := code prog) d (x := .run .ret) rfl)).held t h
  obtain ⟨l, d', z, h1, h2⟩ := fin_all t (Blk.run sys (code prog) s (start d)).data ((Blk.run sys (code prog) s (start d)).thr t)
  obtain ⟨k, hk⟩ := Blk.frees (prog := code prog) h1 h2 (Blk.run sys (code prog) s (start d)) rfl rfl hi
  refine ⟨k, ?_⟩
  unfold Blk.run at hk ⊢
  rw [List.foldl_append]
  exact hk

/-- What a look-up found: thread, key, value (`/repo/src/psygnal/containers/_evented_dict.py:60`). -/
def found : Ev → Option (Nat × Nat × Nat)
  | .look t k (some v) => some (t, k, v)
  | _ => none

/-- What the listeners are told to be gone (`/repo/src/psygnal/containers/_evented_dict.py:192`). -/
def gone : Ev → Option (Nat × Nat × Nat)
  | .removed t k v => some (t, k, v)
  | _ => none

theorem alone_pop (t : Nat) (d : Dict) (k : Nat) : alone t d (pop k fun _ => .ret) = match d k with
    | none => ([.look t k none], d)
    | some v => ([.look t k (some v), .callD t k, .read t k (some v), .removing t k, .took t k (some v), .removed t k v], fun m => if m = k then none else d m) := by
  unfold pop alone
  cases hd : d k with
  | none => rfl
  | some v => simp [alone, hd]

theorem alone_setdefault (t : Nat) (d : Dict) (k v : Nat) : alone t d (setdefault k v fun _ => .ret) = match d k with
    | some w => ([.look t k (some w)], d)
    | none => ([.look t k none, .call t k v, .has t k false, .adding t k, .put t k v, .added t k v], fun m => if m = k then some v else d m) := by
  unfold setdefault alone
  cases hd : d k with
  | none => simp [alone, hd]
  | some v => rfl

/-- `pop` in a block: what it finds is what it deletes, and it alone. -/
theorem C100_pop (d : Dict) (prog : Nat → List Ev → Option Code) (s : List Nat) (hp : ∀ t l c, prog t l = some c → ∃ k, c = pop k fun _ => .ret) :
    let p := Blk.run sys (code prog) s (start d)
    p.lock = none → p.log.filterMap found = p.log.filterMap gone := by
  intro p hn
  have h := C100_dict d prog s hn
  generalize p.log = l at h ⊢
  generalize p.data = x at h
  induction h with
  | nil => rfl
  | @block l d1 t c _ hc ih =>
    obtain ⟨k, rfl⟩ := hp _ _ _ hc
    rw [List.filterMap_append, List.filterMap_append, ih, alone_pop]
    cases d1 k <;> rfl

/-- `pop` and `setdefault` in blocks: never a `KeyError` from the deletion or assignment in them, and never a value replaced. -/
theorem C100_whole (d : Dict) (prog : Nat → List Ev → Option Code) (s : List Nat)
    (hp : ∀ t l c, prog t l = some c → (∃ k, c = pop k fun _ => .ret) ∨ ∃ k v, c = setdefault k v fun _ => .ret) :
    let p := Blk.run sys (code prog) s (start d)
    (∀ t k v, .fail t k v ∉ p.log) ∧ ∀ t k o v, .changed t k o v ∉ p.log := by
  intro p
  have hb : ∀ t l c d1, prog t l = some c → (∀ u k v, Ev.fail u k v ∉ (alone t d1 c).1) ∧ ∀ u k o v, Ev.changed u k o v ∉ (alone t d1 c).1 := by
    intro t l c d1 hc
    rcases hp _ _ _ hc with ⟨k, rfl⟩ | ⟨k, v, rfl⟩
    · rw [alone_pop]; cases d1 k <;> simp
    · rw [alone_setdefault]; cases d1 k <;> simp
  have ho : ∀ l x, OneByOne prog d l x → (∀ u k v, Ev.fail u k v ∉ l) ∧ ∀ u k o v, Ev.changed u k o v ∉ l := by
    intro l x h
    induction h with
    | nil => exact ⟨fun _ _ _ => List.not_mem_nil, fun _ _ _ _ => List.not_mem_nil⟩
    | @block l d1 t c _ hc ih =>
      have := hb t _ c d1 hc
      exact ⟨fun u k v hm => (List.mem_append.1 hm).elim (ih.1 u k v) (this.1 u k v), fun u k o v hm => (List.mem_append.1 hm).elim (ih.2 u k o v) (this.2 u k o v)⟩
  cases hl : p.lock with
  | none => exact ho _ _ (C100_dict d prog s hl)
  | some t =>
    obtain ⟨l, d1, c, k, r, h1, h2, h3, h4⟩ := C100_dict_held d prog s t hl
    have h5 := ho _ _ h1
    have h6 := hb t _ c d1 h2
    rw [← h4] at h6
    rw [show p.log = l ++ k from h3]
    exact ⟨fun u a v hm => (List.mem_append.1 hm).elim (h5.1 u a v) (fun h => h6.1 u a v (List.mem_append_left r h)),
      fun u a o v hm => (List.mem_append.1 hm).elim (h5.2 u a o v) (fun h => h6.2 u a o v (List.mem_append_left r h))⟩

/-- A lock around each operation is not enough for that: two threads pop a key, one finds the value and raises `KeyError` when it deletes it. -/
theorem C100_pop_refuted : ∃ l, let p := Lk.run step inside l (init (fun k => if k = 1 then some 5 else none) (fun t => if t < 2 then pop 1 fun _ => .ret else .ret), none)
    p.2 = none ∧ p.1.log.filterMap found = [(0, 1, 5), (1, 1, 5)] ∧ p.1.log.filterMap gone = [(0, 1, 5)] ∧ .fail 1 1 none ∈ p.1.log :=
  ⟨[0, 1, 0, 0, 0, 0, 0, 1, 1, 1], by decide⟩

/-- Nor for `setdefault`: a value that another thread has just put there is replaced. -/
theorem C100_setdefault_refuted : ∃ l, let p := Lk.run step inside l (init (fun _ => none) (fun t => if t < 2 then setdefault 1 (5 + t) fun _ => .ret else .ret), none)
    p.2 = none ∧ .added 0 1 5 ∈ p.1.log ∧ .changed 1 1 5 6 ∈ p.1.log :=
  ⟨[0, 1, 0, 0, 0, 0, 0, 1, 1, 1, 1, 1, 1], by decide⟩

/-- Both threads pop key 1 once, thread 2 then puts a value with `setdefault` when it has found nothing. -/
def exB (t : Nat) : List Ev → Option Code
  | [] => if t < 3 then some (pop 1 fun _ => .ret) else none
  | [.look _ k none] => if t = 2 then some (setdefault k 7 fun _ => .ret) else none
  | _ => none

theorem exB_whole (t : Nat) (l : List Ev) (c : Code) (h : exB t l = some c) : (∃ k, c = pop k fun _ => .ret) ∨ ∃ k v, c = setdefault k v fun _ => .ret := by
  unfold exB at h
  split at h
  · split at h
    · exact .inl ⟨1, (Option.some.inj h).symm⟩
    · cases h
  · split at h
    · exact .inr ⟨_, 7, (Option.some.inj h).symm⟩
    · cases h
  · cases h

/-- The schedule of `C100_pop_refuted`, but with a block: the second thread waits, and finds nothing. -/
example : let p := Blk.run sys (code exB) [0, 0, 1, 0, 0, 0, 0, 0, 1, 1, 2, 2, 0, 2, 2, 2, 1, 2, 2, 2, 2] (start fun k => if k = 1 then some 5 else none)
    p.lock = none ∧ p.log.filterMap found = [(0, 1, 5)] ∧ p.log.filterMap gone = [(0, 1, 5)] ∧ p.data 1 = some 7 ∧ (∀ t k v, .fail t k v ∉ p.log) ∧
      ∃ l x, OneByOne exB (fun k => if k = 1 then some 5 else none) l x ∧ .added 2 1 7 ∈ l :=
  ⟨by decide, by decide, by decide, by decide, (C100_whole _ exB _ exB_whole).1, _, _,
    C100_dict _ exB [0, 0, 1, 0, 0, 0, 0, 0, 1, 1, 2, 2, 0, 2, 2, 2, 1, 2, 2, 2, 2] (by decide), by decide⟩

/-- One pops in a loop what is there. -/
def exQ (t : Nat) (l : List Ev) : Option Code := if t < 2 ∧ l.length < 12 then some (pop (l.length / 6) fun _ => .ret) else none

theorem exQ_pop (t : Nat) (l : List Ev) (c : Code) (h : exQ t l = some c) : ∃ k, c = pop k fun _ => .ret := by
  unfold exQ at h
  split at h
  · exact ⟨_, (Option.some.inj h).symm⟩
  · cases h

example : let p := Blk.run sys (code exQ) [0, 0, 1, 0, 0, 0, 0, 0, 1, 1, 0, 0, 0, 1, 0, 0, 0, 0] (start fun k => if k < 2 then some (k + 5) else none)
    p.lock = none ∧ p.log.filterMap found = [(0, 0, 5), (0, 1, 6)] ∧ p.log.filterMap found = p.log.filterMap gone :=
  ⟨by decide, by decide, C100_pop _ exQ _ exQ_pop (by decide)⟩

example : ∃ k, (Blk.run sys (code exB) ([0, 0, 1, 0] ++ List.replicate k 0) (start fun k => if k = 1 then some 5 else none)).lock = none :=
  C100_dict_free _ exB _ 0 (by decide)

example : ∃ l d1 c k r, OneByOne exB (fun k => if k = 1 then some 5 else none) l d1 ∧ exB 0 (l.filter (fun e => e.thread == 0)) = some c ∧
    [.look 0 1 (some 5), .callD 0 1] = l ++ k ∧ k ++ r = (alone 0 d1 c).1 :=
  C100_dict_held _ exB [0, 0, 1, 0] 0 (by decide)

end Psygnal.DcC

namespace Psygnal.LsC

/-- Blocks made one after the other: what happened so far, and the list after that (`/repo/src/psygnal/containers/_evented_list.py:137-290`). -/
inductive OneByOne (prog : Nat → List Ev → Option Code) (d0 : List Nat) : List Ev → List Nat → Prop
  | nil : OneByOne prog d0 [] d0
  | block {l : List Ev} {d : List Nat} (t : Nat) (c : Code) : OneByOne prog d0 l d → prog t (l.filter (fun e => e.thread == t)) = some c →
      OneByOne prog d0 (l ++ (alone t d c).1) (alone t d c).2

/-- The beginning: the list has some items, no thread is in a block (`/repo/src/psygnal/containers/_evented_list.py:116-128`). -/
def start (d : List Nat) : Blk.St (List Nat) Ctl Ev := ⟨d, fun _ => .run .ret, [], none⟩

/-- The blocks that the threads make (user code around `/repo/src/psygnal/containers/_evented_list.py:137-290`). -/
def code (prog : Nat → List Ev → Option Code) (t : Nat) (l : List Ev) : Option Ctl := (prog t l).map .run

theorem done_one {prog : Nat → List Ev → Option Code} {d0 : List Nat} {l : List Ev} {d : List Nat} (h : Blk.Done sys (code prog) d0 l d) : OneByOne prog d0 l d := by
  induction h with
  | nil => exact .nil
  | @block l k d d' t x z _ hp hk hz ih =>
    obtain ⟨c, hc, rfl⟩ : ∃ c, prog t (Blk.own sys t l) = some c ∧ Ctl.run c = x := by
      unfold code at hp
      cases hq : prog t (Blk.own sys t l) with
      | none => rw [hq] at hp; cases hp
      | some c => rw [hq] at hp; exact ⟨c, rfl, Option.some.inj hp⟩
    obtain ⟨h1, h2⟩ := hk.one sys_rest hz (path_alone t c d) rfl
    rw [h1, h2]
    exact .block t c ih hc

/-- Lists: whenever nobody holds the lock. -/
theorem C100_list (d : List Nat) (prog : Nat → List Ev → Option Code) (s : List Nat) :
    let p := Blk.run sys (code prog) s (start d)
    p.lock = none → OneByOne prog d p.log p.data :=
  fun hn => done_one ((Blk.good_run s (Blk.good_init d rfl)).free hn)

/-- While a thread holds the lock: it has made a part of its block, the others nothing. -/
theorem C100_list_held (d : List Nat) (prog : Nat → List Ev → Option Code) (s : List Nat) (t : Nat) :
    let p := Blk.run sys (code prog) s (start d)
    p.lock = some t → ∃ l d1 c k r, OneByOne prog d l d1 ∧ prog t (l.filter (fun e => e.thread == t)) = some c ∧ p.log = l ++ k ∧
      k ++ r = (alone t d1 c).1 := by
  intro p hl
  obtain ⟨_, l, k, d1, x, h1, h2, h3, h4⟩ := (Blk.good_run s (Blk.good_init (m := sys) (prog := code prog) d (x := .run .ret) rfl)).held t hl
  obtain ⟨c, hc, rfl⟩ : ∃ c, prog t (Blk.own sys t l) = some c ∧ Ctl.run c = x := by
    unfold code at h3
    cases hq : prog t (Blk.own sys t l) with
    | none => rw [hq] at h3; cases h3
    | some c => rw [hq] at h3; exact ⟨c, rfl, Option.some.inj h3⟩
  obtain ⟨r, d', z, h5, h6⟩ := fin_all t p.data (p.thr t)
  exact ⟨l, d1, c, k, r, done_one h2, hc, h1, ((h4.trans h5).one sys_rest h6 (path_alone t c d1) rfl).1⟩

/-- Whoever holds the lock lets it go. -/
theorem C100_list_free (d : List Nat) (prog : Nat → List Ev → Option Code) (s : List Nat) (t : Nat) (h : (Blk.run sys (code prog) s (start d)).lock = some t) :
    ∃ k, (Blk.run sys (code prog) (s ++ List.replicate k t) (start d)).lock = none := by
  obtain ⟨hi, _⟩ := (Blk.good_run s (Blk.good_init (m := sys) (prog := code prog) d (x := .run .ret) rfl)).held t h
  obtain ⟨l, d', z, h1, h2⟩ := fin_all t (Blk.run sys (code prog) s (start d)).data ((Blk.run sys (code prog) s (start d)).thr t)
  obtain ⟨k, hk⟩ := Blk.frees (prog := code prog) h1 h2 (Blk.run sys (code prog) s (start d)) rfl rfl hi
  refine ⟨k, ?_⟩
  unfold Blk.run at hk ⊢
  rw [List.foldl_append]
  exact hk

/-- What a look-up found: thread and item (`/repo/src/psygnal/containers/_evented_list.py:153`). -/
def found : Ev → Option (Nat × Nat)
  | .look t _ (some v) => some (t, v)
  | _ => none

/-- What the listeners are told to be gone (`/repo/src/psygnal/containers/_evented_list.py:187`). -/
def gone : Ev → Option (Nat × Nat)
  | .removed t _ v => some (t, v)
  | _ => none

/-- What the listeners are told to be new: index and item (`/repo/src/psygnal/containers/_evented_list.py:142`). -/
def new : Ev → Option (Int × Nat)
  | .inserted _ i v => some (i, v)
  | _ => none

theorem item_plain (l : List Nat) (i : Int) (v : Nat) (h : item l i = some v) : item l (if i < 0 then i + l.length else i) = some v := by
  by_cases hi : i < 0
  · rw [if_pos hi]
    by_cases hj : i + (l.length : Int) < 0
    · exfalso
      unfold item Py.getItem Py.normIndex at h
      rw [if_pos hi] at h
      simp only [show ¬(0 ≤ i + (l.length : Int) ∧ i + (l.length : Int) < l.length) from fun h => by omega, if_false, Option.bind_none] at h
      cases h
    · rw [← h]
      unfold item Py.getItem Py.normIndex
      rw [if_pos hi, if_neg hj]
  · rw [if_neg hi]; exact h

theorem alone_pop (t : Nat) (l : List Nat) (i : Int) : (alone t l (pop i fun _ => .ret)).1 = match item l i with
    | none => [.look t i none]
    | some v => .look t i (some v) :: ((.callD t i :: if i < 0 then [.len t l.length] else []) ++
        [.removing t (if i < 0 then i + l.length else i), .took t (if i < 0 then i + l.length else i) (some v), .removed t (if i < 0 then i + l.length else i) v]) := by
  rw [pop, alone_get]
  cases hd : item l i with
  | none => rfl
  | some v => exact congrArg (_ :: ·) (alone_del t l i _ v _ rfl (item_plain l i v hd) rfl)

theorem alone_append (t : Nat) (l : List Nat) (v : Nat) :
    alone t l (append v .ret) = ([.size t l.length, .callI t l.length v, .inserting t l.length, .ins t l.length v, .inserted t l.length v], l ++ [v]) := by
  have : Py.insert l l.length v = l ++ [v] := by
    unfold Py.insert Py.insertPos
    rw [if_neg (by omega)]
    simp
  rw [append, alone_len, alone_ins, this]

/-- `append` in a block: the items come at the end, in the order in which the listeners are told, and the index told is the one they have. -/
theorem C100_append (d : List Nat) (prog : Nat → List Ev → Option Code) (s : List Nat) (hp : ∀ t l c, prog t l = some c → ∃ v, c = append v .ret) :
    let p := Blk.run sys (code prog) s (start d)
    p.lock = none → ∃ vs, p.data = d ++ vs ∧ p.log.filterMap new = (vs.zipIdx d.length).map (fun x => ((x.2 : Int), x.1)) := by
  intro p hn
  have h := C100_list d prog s hn
  generalize p.log = l at h ⊢
  generalize p.data = x at h ⊢
  induction h with
  | nil => exact ⟨[], (List.append_nil d).symm, rfl⟩
  | @block l d1 t c _ hc ih =>
    obtain ⟨v, rfl⟩ := hp _ _ _ hc
    obtain ⟨vs, h1, h2⟩ := ih
    refine ⟨vs ++ [v], ?_, ?_⟩
    · rw [alone_append, h1, List.append_assoc]
    · rw [List.filterMap_append, h2, alone_append, h1, List.zipIdx_append, List.map_append]
      simp [List.filterMap, new]

/-- `pop` in a block: what it finds is what it deletes. -/
theorem C100_list_pop (d : List Nat) (prog : Nat → List Ev → Option Code) (s : List Nat) (hp : ∀ t l c, prog t l = some c → ∃ i, c = pop i fun _ => .ret) :
    let p := Blk.run sys (code prog) s (start d)
    (p.lock = none → p.log.filterMap found = p.log.filterMap gone) ∧ ∀ t i, .fail t i ∉ p.log := by
  intro p
  have hb : ∀ t l c d1, prog t l = some c → ∀ u i, Ev.fail u i ∉ (alone t d1 c).1 := by
    intro t l c d1 hc
    obtain ⟨i, rfl⟩ := hp _ _ _ hc
    rw [alone_pop]
    cases item d1 i with
    | none => simp
    | some v => by_cases hi : i < 0 <;> simp [hi]
  have ho : ∀ l x, OneByOne prog d l x → l.filterMap found = l.filterMap gone ∧ ∀ u i, Ev.fail u i ∉ l := by
    intro l x h
    induction h with
    | nil => exact ⟨rfl, fun _ _ => List.not_mem_nil⟩
    | @block l d1 t c _ hc ih =>
      refine ⟨?_, fun u i hm => (List.mem_append.1 hm).elim (ih.2 u i) (hb t _ c d1 hc u i)⟩
      obtain ⟨i, rfl⟩ := hp _ _ _ hc
      rw [List.filterMap_append, List.filterMap_append, ih.1, alone_pop]
      cases item d1 i with
      | none => rfl
      | some v => by_cases hi : i < 0 <;> simp [hi, List.filterMap, found, gone]
  refine ⟨fun hn => (ho _ _ (C100_list d prog s hn)).1, ?_⟩
  cases hl : p.lock with
  | none => exact (ho _ _ (C100_list d prog s hl)).2
  | some t =>
    obtain ⟨l, d1, c, k, r, h1, h2, h3, h4⟩ := C100_list_held d prog s t hl
    have h6 := hb t _ c d1 h2
    rw [← h4] at h6
    rw [show p.log = l ++ k from h3]
    exact fun u i hm => (List.mem_append.1 hm).elim ((ho _ _ h1).2 u i) (fun h => h6 u i (List.mem_append_left r h))

/-- A lock around each operation is not enough: one thread pops the item that another has found at the index, which takes the next one or raises `IndexError`. -/
theorem C100_list_pop_refuted : (∃ l, let p := Lk.run step inside l (init [5, 6] (fun t => if t < 2 then pop 0 fun _ => .ret else .ret), none)
      p.2 = none ∧ p.1.log.filterMap found = [(0, 5), (1, 5)] ∧ p.1.log.filterMap gone = [(0, 5), (1, 6)]) ∧
    ∃ l, let p := Lk.run step inside l (init [5] (fun t => if t < 2 then pop 0 fun _ => .ret else .ret), none)
      p.2 = none ∧ p.1.log.filterMap found = [(0, 5), (1, 5)] ∧ .fail 1 0 ∈ p.1.log :=
  ⟨⟨[0, 1, 0, 0, 0, 0, 1, 1, 1, 1], by decide⟩, ⟨[0, 1, 0, 0, 0, 0, 1, 1, 1, 1], by decide⟩⟩

/-- Nor for `append`: an item comes before the one appended last. -/
theorem C100_append_refuted : ∃ l, let p := Lk.run step inside l (init [5] (fun t => if t < 2 then append (6 + t) .ret else .ret), none)
    p.2 = none ∧ p.1.data = [5, 7, 6] ∧ p.1.log.filterMap new = [(1, 6), (1, 7)] :=
  ⟨[0, 1, 0, 0, 0, 0, 1, 1, 1, 1], by decide⟩

/-- Each thread appends twice. -/
def exA (t : Nat) (l : List Ev) : Option Code := if t < 2 ∧ l.length < 10 then some (append (10 * t + l.length) .ret) else none

theorem exA_append (t : Nat) (l : List Ev) (c : Code) (h : exA t l = some c) : ∃ v, c = append v .ret := by
  unfold exA at h
  split at h
  · exact ⟨_, (Option.some.inj h).symm⟩
  · cases h

/-- Each thread pops once, the first at the end. -/
def exO (t : Nat) (l : List Ev) : Option Code := if t < 2 ∧ l = [] then some (pop (if t = 0 then -1 else 0) fun _ => .ret) else none

theorem exO_pop (t : Nat) (l : List Ev) (c : Code) (h : exO t l = some c) : ∃ i, c = pop i fun _ => .ret := by
  unfold exO at h
  split at h
  · exact ⟨_, (Option.some.inj h).symm⟩
  · cases h

example : let p := Blk.run sys (code exA) [0, 0, 1, 0, 0, 0, 0, 1, 1, 0, 1, 1, 1, 1, 0, 0, 0, 0, 0, 0] (start [5])
    p.lock = none ∧ p.data = [5, 0, 10, 5] ∧ ∃ vs, p.data = [5] ++ vs ∧ p.log.filterMap new = (vs.zipIdx 1).map (fun x => ((x.2 : Int), x.1)) :=
  ⟨by decide, by decide, C100_append [5] exA _ exA_append (by decide)⟩

example : let p := Blk.run sys (code exO) [0, 0, 1, 0, 0, 0, 0, 0, 1, 1, 1, 1, 1, 1] (start [5, 6])
    p.lock = none ∧ p.log.filterMap found = [(0, 6), (1, 5)] ∧ p.log.filterMap found = p.log.filterMap gone ∧ ∀ t i, .fail t i ∉ p.log :=
  ⟨by decide, by decide, (C100_list_pop [5, 6] exO _ exO_pop).1 (by decide), (C100_list_pop [5, 6] exO _ exO_pop).2⟩

example : ∃ l x, OneByOne exO [5, 6] l x ∧ x = [] ∧ .removed 0 1 6 ∈ l :=
  ⟨_, _, C100_list [5, 6] exO [0, 0, 1, 0, 0, 0, 0, 0, 1, 1, 1, 1, 1, 1] (by decide), by decide, by decide⟩

example : ∃ k, (Blk.run sys (code exO) ([0, 0, 1, 0] ++ List.replicate k 0) (start [5, 6])).lock = none :=
  C100_list_free [5, 6] exO _ 0 (by decide)

example : ∃ l d1 c k r, OneByOne exO [5, 6] l d1 ∧ exO 0 (l.filter (fun e => e.thread == 0)) = some c ∧
    [.look 0 (-1) (some 6), .callD 0 (-1)] = l ++ k ∧ k ++ r = (alone 0 d1 c).1 :=
  C100_list_held [5, 6] exO [0, 0, 1, 0] 0 (by decide)

end Psygnal.LsC
