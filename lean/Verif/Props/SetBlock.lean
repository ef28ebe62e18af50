import Verif.SetBlock
import Verif.Lock
import Verif.Props.SetConc

/-!
# C100 for sets: a lock held over several operations

A lock around each operation (C99) does not make "is it there? then discard it" whole.  If user code puts such blocks in `with lock:`, then whatever the
threads do and whoever goes when, what they see - whether items are there, and what callbacks are told - and the set are as if the blocks were made one after
the other, each method doing what the model of C31 says; and whoever holds the lock lets it go.  Threads decide which block they make next from all that they
saw.
-/
namespace Psygnal.StC

/-- Who sees it (`/repo/src/psygnal/containers/_evented_set.py:71`, `/repo/src/psygnal/_signal.py:1201,1425`). -/
def Seen.thread : Seen → Nat
  | .found t _ _ | .told t _ _ => t

/-- Blocks made one after the other: what was seen so far, and the set after that (`/repo/src/psygnal/containers/_evented_set.py:38-71,273-322`). -/
inductive OneByOne (prog : Nat → List Seen → Option Code) (d0 : List Nat) : List Seen → List Nat → Prop
  | nil : OneByOne prog d0 [] d0
  | block {l : List Seen} {d : List Nat} (t : Nat) (c : Code) : OneByOne prog d0 l d → prog t (l.filter (fun e => e.thread == t)) = some c →
      OneByOne prog d0 (l ++ (alone t d c).1) (alone t d c).2

/-- The beginning: the set has some items, nothing is paused, no thread is in a block (`/repo/src/psygnal/containers/_evented_set.py:269-271`,
`/repo/src/psygnal/_signal.py:547,553`). -/
def fresh (d : List Nat) : Blk.St Data Ctl Ev := ⟨⟨d, false, []⟩, fun _ => .run .ret, [], none⟩

/-- The blocks that the threads make (user code around `/repo/src/psygnal/containers/_evented_set.py:38-322`). -/
def blocks (prog : Nat → List Seen → Option Code) (t : Nat) (l : List Ev) : Option Ctl := (prog t (l.filterMap Ev.seen)).map .run

theorem own_seen (t : Nat) (l : List Ev) : (Blk.own sys t l).filterMap Ev.seen = (l.filterMap Ev.seen).filter (fun e => e.thread == t) := by
  induction l with
  | nil => rfl
  | cons e l ih =>
    unfold Blk.own at ih ⊢
    have hs : ∀ s, e.seen = some s → s.thread = e.thread := by
      cases e <;> intro s h <;> cases h <;> rfl
    rw [List.filter_cons, List.filterMap_cons]
    cases hq : e.seen with
    | none =>
      dsimp only
      split
      · rw [List.filterMap_cons, hq]; exact ih
      · exact ih
    | some s =>
      dsimp only
      rw [List.filter_cons, hs s hq]
      show (if (e.thread == t) = true then _ else _ : List Ev).filterMap Ev.seen = _
      split
      · rw [List.filterMap_cons, hq]; exact congrArg (s :: ·) ih
      · exact ih

theorem blocks_some {prog : Nat → List Seen → Option Code} {t : Nat} {l : List Ev} {x : Ctl} (h : blocks prog t (Blk.own sys t l) = some x) :
    ∃ c, prog t ((l.filterMap Ev.seen).filter (fun e => e.thread == t)) = some c ∧ x = .run c := by
  unfold blocks at h
  rw [own_seen] at h
  cases hq : prog t ((l.filterMap Ev.seen).filter (fun e => e.thread == t)) with
  | none => rw [hq] at h; cases h
  | some c => rw [hq] at h; exact ⟨c, rfl, (Option.some.inj h).symm⟩

theorem done_one {prog : Nat → List Seen → Option Code} {d0 : List Nat} (h0 : d0.Nodup) {l : List Ev} {d : Data}
    (h : Blk.Done sys (blocks prog) ⟨d0, false, []⟩ l d) : OneByOne prog d0 (l.filterMap Ev.seen) d.set ∧ d.Calm ∧ d.set.Nodup := by
  induction h with
  | nil => exact ⟨.nil, ⟨rfl, rfl⟩, h0⟩
  | @block l k d d' t x z _ hp hk hz ih =>
    obtain ⟨i1, i2, i3⟩ := ih
    obtain ⟨c, hc, rfl⟩ := blocks_some hp
    obtain ⟨h1, h2, h3⟩ := path_seen hk hz [] i2 i3
    have h1 : k.filterMap Ev.seen = (alone t d.set c).1 := h1
    have h2 : d'.set = (alone t d.set c).2 := h2
    refine ⟨?_, h3⟩
    rw [List.filterMap_append, h1, h2]
    exact .block t c i1 hc

/-- Sets: whenever nobody holds the lock. -/
theorem C100_set (d : List Nat) (hd : d.Nodup) (prog : Nat → List Seen → Option Code) (s : List Nat) :
    let p := Blk.run sys (blocks prog) s (fresh d)
    p.lock = none → OneByOne prog d (p.log.filterMap Ev.seen) p.data.set ∧ p.data.paused = false ∧ p.data.queue = [] :=
  fun hn =>
    let h := done_one hd ((Blk.good_run s (Blk.good_init (m := sys) (prog := blocks prog) ⟨d, false, []⟩ (x := .run .ret) rfl)).free hn)
    ⟨h.1, h.2.1⟩

/-- While a thread holds the lock: it has seen a part of what its block sees, the others nothing more. -/
theorem C100_set_held (d : List Nat) (hd : d.Nodup) (prog : Nat → List Seen → Option Code) (s : List Nat) (t : Nat) :
    let p := Blk.run sys (blocks prog) s (fresh d)
    p.lock = some t → ∃ l d1 c k r, OneByOne prog d l d1 ∧ prog t (l.filter (fun e => e.thread == t)) = some c ∧ p.log.filterMap Ev.seen = l ++ k ∧
      k ++ r = (alone t d1 c).1 := by
  intro p hl
  obtain ⟨_, l, k, d1, x, h1, h2, h3, h4⟩ :=
    (Blk.good_run s (Blk.good_init (m := sys) (prog := blocks prog) ⟨d, false, []⟩ (x := .run .ret) rfl)).held t hl
  obtain ⟨c, hc, rfl⟩ := blocks_some h3
  obtain ⟨r, d', z, h5, h6⟩ := fins_all t (p.thr t) p.data
  obtain ⟨i1, i2, i3⟩ := done_one hd h2
  obtain ⟨h7, _⟩ := path_seen (h4.trans h5) h6 [] i2 i3
  have h7 : (k ++ r).filterMap Ev.seen = (alone t d1.set c).1 := h7
  have h1 : p.log = l ++ k := h1
  exact ⟨_, d1.set, c, k.filterMap Ev.seen, r.filterMap Ev.seen, i1, hc, by rw [h1, List.filterMap_append], by rw [← List.filterMap_append]; exact h7⟩

/-- Whoever holds the lock lets it go. -/
theorem C100_set_free (d : List Nat) (prog : Nat → List Seen → Option Code) (s : List Nat) (t : Nat) (h : (Blk.run sys (blocks prog) s (fresh d)).lock = some t) :
    ∃ k, (Blk.run sys (blocks prog) (s ++ List.replicate k t) (fresh d)).lock = none := by
  obtain ⟨hi, _⟩ := (Blk.good_run s (Blk.good_init (m := sys) (prog := blocks prog) ⟨d, false, []⟩ (x := .run .ret) rfl)).held t h
  obtain ⟨l, d', z, h1, h2⟩ := fins_all t ((Blk.run sys (blocks prog) s (fresh d)).thr t) (Blk.run sys (blocks prog) s (fresh d)).data
  obtain ⟨k, hk⟩ := Blk.frees (prog := blocks prog) h1 h2 (Blk.run sys (blocks prog) s (fresh d)) rfl rfl hi
  refine ⟨k, ?_⟩
  unfold Blk.run at hk ⊢
  rw [List.foldl_append]
  exact hk

/-- `if x in s: s.discard(x)` (user code around `/repo/src/psygnal/containers/_evented_set.py:53-71`). -/
def take (x : Nat) : Code := .has x fun b => if b then .call (.discard x) .ret else .ret

/-- `if x not in s: s.add(x)` (user code around `/repo/src/psygnal/containers/_evented_set.py:38-46,69-71`). -/
def claim (x : Nat) : Code := .has x fun b => if b then .ret else .call (.add x) .ret

/-- What a thread found to be there (`/repo/src/psygnal/containers/_evented_set.py:71`). -/
def there : Seen → Option (Nat × List Nat)
  | .found t x true => some (t, [x])
  | _ => none

/-- What a thread found to be missing (`/repo/src/psygnal/containers/_evented_set.py:71`). -/
def missing : Seen → Option (Nat × List Nat)
  | .found t x false => some (t, [x])
  | _ => none

/-- What callbacks are told to be gone (`/repo/src/psygnal/containers/_evented_set.py:322`). -/
def gone : Seen → Option (Nat × List Nat)
  | .told t _ r => some (t, r)
  | _ => none

/-- What callbacks are told to be new (`/repo/src/psygnal/containers/_evented_set.py:322`). -/
def new : Seen → Option (Nat × List Nat)
  | .told t a _ => some (t, a)
  | _ => none

theorem alone_take (t : Nat) (d : List Nat) (x : Nat) :
    (alone t d (take x)).1 = if x ∈ d then [.found t x true, .told t [] [x]] else [.found t x false] := by
  by_cases h : x ∈ d
  · simp [take, alone, h, Call.op, ES.step, ES.discard, ES.emitChange, seq, ES.deliver, ES.drain, Py.M.bind, Py.M.get, Py.M.modify, Py.M.pure]
  · simp [take, alone, h]

theorem alone_claim (t : Nat) (d : List Nat) (x : Nat) :
    (alone t d (claim x)).1 = if x ∈ d then [.found t x true] else [.found t x false, .told t [x] []] := by
  by_cases h : x ∈ d
  · simp [claim, alone, h]
  · simp [claim, alone, h, Call.op, ES.step, ES.add, ES.emitChange, seq, ES.deliver, ES.drain, Py.M.bind, Py.M.get, Py.M.modify, Py.M.pure]

/-- Discarding in a block what is there: who finds an item discards it, and nobody else finds it. -/
theorem C100_set_take (d : List Nat) (hd : d.Nodup) (prog : Nat → List Seen → Option Code) (s : List Nat)
    (hp : ∀ t l c, prog t l = some c → ∃ x, c = take x) :
    let p := Blk.run sys (blocks prog) s (fresh d)
    p.lock = none → (p.log.filterMap Ev.seen).filterMap there = (p.log.filterMap Ev.seen).filterMap gone := by
  intro p hn
  have h := (C100_set d hd prog s hn).1
  generalize p.log.filterMap Ev.seen = l at h ⊢
  generalize p.data.set = x at h
  induction h with
  | nil => rfl
  | @block l d1 t c _ hc ih =>
    obtain ⟨x, rfl⟩ := hp _ _ _ hc
    rw [List.filterMap_append, List.filterMap_append, ih, alone_take]
    split <;> rfl

/-- Adding in a block what is missing: who finds an item missing adds it, and nobody else finds it missing. -/
theorem C100_set_claim (d : List Nat) (hd : d.Nodup) (prog : Nat → List Seen → Option Code) (s : List Nat)
    (hp : ∀ t l c, prog t l = some c → ∃ x, c = claim x) :
    let p := Blk.run sys (blocks prog) s (fresh d)
    p.lock = none → (p.log.filterMap Ev.seen).filterMap missing = (p.log.filterMap Ev.seen).filterMap new := by
  intro p hn
  have h := (C100_set d hd prog s hn).1
  generalize p.log.filterMap Ev.seen = l at h ⊢
  generalize p.data.set = x at h
  induction h with
  | nil => rfl
  | @block l d1 t c _ hc ih =>
    obtain ⟨x, rfl⟩ := hp _ _ _ hc
    rw [List.filterMap_append, List.filterMap_append, ih, alone_claim]
    split <;> rfl

/-- A lock around each operation is not enough: both threads find the item, or find it missing, and one of them then does nothing. -/
theorem C100_set_refuted : (∃ l, let p := Lk.run step inside l (init [5, 6] (exP (take 5) (take 5)), none)
      p.2 = none ∧ (p.1.log.filterMap Ev.seen).filterMap there = [(0, [5]), (1, [5])] ∧ (p.1.log.filterMap Ev.seen).filterMap gone = [(0, [5])]) ∧
    ∃ l, let p := Lk.run step inside l (init [5, 6] (exP (claim 7) (claim 7)), none)
      p.2 = none ∧ (p.1.log.filterMap Ev.seen).filterMap missing = [(0, [7]), (1, [7])] ∧ (p.1.log.filterMap Ev.seen).filterMap new = [(0, [7])] :=
  ⟨⟨[0, 1, 0, 0, 0, 0, 0, 0, 1, 1, 1], by decide⟩, ⟨[0, 1, 0, 0, 0, 0, 0, 0, 1, 1, 1], by decide⟩⟩

/-- Two threads each discard 5 once if it is there. -/
def exT (t : Nat) (l : List Seen) : Option Code := if t < 2 ∧ l = [] then some (take 5) else none

theorem exT_take (t : Nat) (l : List Seen) (c : Code) (h : exT t l = some c) : ∃ x, c = take x := by
  unfold exT at h
  split at h
  · exact ⟨_, (Option.some.inj h).symm⟩
  · cases h

/-- Two threads each add 7 and then 8 if it is missing. -/
def exM (t : Nat) (l : List Seen) : Option Code := if t < 2 ∧ l.length < 2 then some (claim (7 + l.length)) else none

theorem exM_claim (t : Nat) (l : List Seen) (c : Code) (h : exM t l = some c) : ∃ x, c = claim x := by
  unfold exM at h
  split at h
  · exact ⟨_, (Option.some.inj h).symm⟩
  · cases h

/-- A thread updates the set and looks; if what it added is there, it clears the set. -/
def exBulk (t : Nat) (l : List Seen) : Option Code :=
  if t < 2 ∧ l = [] then some (.call (.update [5, 7 + t]) (.has (7 + t) fun b => if b then .call .clear .ret else .ret)) else none

/-- Thread 1 tries to begin while thread 0 is in its block. -/
def exBulkS : List Nat := 0 :: 1 :: List.replicate 40 0 ++ List.replicate 40 1

/-- The schedule of `C100_set_refuted`, but with blocks. -/
example : let p := Blk.run sys (blocks exT) [0, 0, 1, 0, 0, 0, 0, 0, 0, 1, 1, 1] (fresh [5, 6])
    p.lock = none ∧ p.log.filterMap Ev.seen = [.found 0 5 true, .told 0 [] [5], .found 1 5 false] ∧
      (p.log.filterMap Ev.seen).filterMap there = (p.log.filterMap Ev.seen).filterMap gone :=
  ⟨by decide, by decide, C100_set_take [5, 6] (by decide) exT _ exT_take (by decide)⟩

example : let p := Blk.run sys (blocks exM) [0, 0, 1, 0, 0, 0, 0, 0, 0, 1, 1, 1, 1, 1, 1, 1, 1, 1, 1] (fresh [5, 6])
    p.lock = none ∧ p.log.filterMap Ev.seen = [.found 0 7 false, .told 0 [7] [], .found 1 7 true, .found 1 8 false, .told 1 [8] []] ∧
      (p.log.filterMap Ev.seen).filterMap missing = (p.log.filterMap Ev.seen).filterMap new :=
  ⟨by decide, by decide, C100_set_claim [5, 6] (by decide) exM _ exM_claim (by decide)⟩

/-- Bulk methods: each block tells one change for the update and one for `clear`. -/
example : let p := Blk.run sys (blocks exBulk) exBulkS (fresh [5, 6])
    p.lock = none ∧ p.data.set = [] ∧
      p.log.filterMap Ev.seen = [.told 0 [7] [], .found 0 7 true, .told 0 [] [5, 6, 7], .told 1 [5, 8] [], .found 1 8 true, .told 1 [] [5, 8]] ∧
      OneByOne exBulk [5, 6] (p.log.filterMap Ev.seen) p.data.set :=
  ⟨by decide +kernel, by decide +kernel, by decide +kernel, (C100_set [5, 6] (by decide) exBulk exBulkS (by decide +kernel)).1⟩

example : ∃ k, (Blk.run sys (blocks exBulk) ([0, 0, 1, 0] ++ List.replicate k 0) (fresh [5, 6])).lock = none :=
  C100_set_free [5, 6] exBulk _ 0 (by decide)

example : ∃ l d1 c k r, OneByOne exT [5, 6] l d1 ∧ exT 0 (l.filter (fun e => e.thread == 0)) = some c ∧ [.found 0 5 true] = l ++ k ∧
    k ++ r = (alone 0 d1 c).1 :=
  C100_set_held [5, 6] (by decide) exT [0, 0, 1, 0] 0 (by decide)

end Psygnal.StC
