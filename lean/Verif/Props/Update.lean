import Verif.Update
import Verif.Lock

/-!
# C101: evented attributes updated from their old value

Threads read attributes of an evented dataclass or evented model and assign them in blocks `with lock:`, as in `obj.x += 1`.  Whatever the threads do and
whoever goes when, everything is as if the blocks were made one after the other in one thread; no update is lost, and the listeners are told every one, in
order.  A lock around the assignment only (C99) is not enough.
-/

namespace Psygnal.AtC

/-- Blocks made one after the other: what happened so far, and the attributes after that (`/repo/src/psygnal/_group_descriptor.py:306-318,387-402`). -/
inductive OneByOne (c : Cfg) (prog : Nat → List Act → Option Code) (d0 : Nat → Nat) : List Act → (Nat → Nat) → Prop
  | nil : OneByOne c prog d0 [] d0
  | block {l : List Act} {d : Nat → Nat} (t : Nat) (k : Code) : OneByOne c prog d0 l d → prog t (l.filter (fun e => e.thread == t)) = some k →
      OneByOne c prog d0 (l ++ (alone c t d k).1) (alone c t d k).2

/-- The beginning: the attributes have values, no thread is in a block (`/repo/src/psygnal/_group_descriptor.py:595-621`). -/
def start (d : Nat → Nat) : Blk.St (Nat → Nat) Ctl Act := ⟨d, fun _ => .run .ret, [], none⟩

/-- The blocks that the threads make (user code around `/repo/src/psygnal/_group_descriptor.py:306-318,387-402`). -/
def code (prog : Nat → List Act → Option Code) (t : Nat) (l : List Act) : Option Ctl := (prog t l).map .run

theorem done_one {c : Cfg} {prog : Nat → List Act → Option Code} {d0 : Nat → Nat} {l : List Act} {d : Nat → Nat} (h : Blk.Done (sys c) (code prog) d0 l d) : OneByOne c prog d0 l d := by
  induction h with
  | nil => exact .nil
  | @block l k d d' t x z _ hp hk hz ih =>
    obtain ⟨b, hc, rfl⟩ : ∃ b, prog t (Blk.own (sys c) t l) = some b ∧ Ctl.run b = x := by
      unfold code at hp
      cases hq : prog t (Blk.own (sys c) t l) with
      | none => rw [hq] at hp; cases hp
      | some b => rw [hq] at hp; exact ⟨b, rfl, Option.some.inj hp⟩
    obtain ⟨h1, h2⟩ := hk.one (sys_rest c) hz (path_alone c t b d) rfl
    rw [h1, h2]
    exact .block t b ih hc

/-- Attributes: whenever nobody holds the lock. -/
theorem C101_attr (c : Cfg) (d : Nat → Nat) (prog : Nat → List Act → Option Code) (s : List Nat) :
    let p := Blk.run (sys c) (code prog) s (start d)
    p.lock = none → OneByOne c prog d p.log p.data :=
  fun hn => done_one ((Blk.good_run s (Blk.good_init d rfl)).free hn)

/-- While a thread holds the lock: it has made a part of its block, the others nothing. -/
theorem C101_attr_held (c : Cfg) (d : Nat → Nat) (prog : Nat → List Act → Option Code) (s : List Nat) (t : Nat) :
    let p := Blk.run (sys c) (code prog) s (start d)
    p.lock = some t → ∃ l d1 b k r, OneByOne c prog d l d1 ∧ prog t (l.filter (fun e => e.thread == t)) = some b ∧ p.log = l ++ k ∧
      k ++ r = (alone c t d1 b).1 := by
  intro p hl
  obtain ⟨_, l, k, d1, x, h1, h2, h3, h4⟩ := (Blk.good_run s (Blk.good_init (m := sys c) (prog := code prog) d (x := .run .ret) rfl)).held t hl
  obtain ⟨b, hc, rfl⟩ : ∃ b, prog t (Blk.own (sys c) t l) = some b ∧ Ctl.run b = x := by
    unfold code at h3
    cases hq : prog t (Blk.own (sys c) t l) with
    | none => rw [hq] at h3; cases h3
    | some b => rw [hq] at h3; exact ⟨b, rfl, Option.some.inj h3⟩
  obtain ⟨r, d', z, h5, h6⟩ := fin_all c t p.data (p.thr t)
  exact ⟨l, d1, b, k, r, done_one h2, hc, h1, ((h4.trans h5).one (sys_rest c) h6 (path_alone c t b d1) rfl).1⟩

/-- Whoever holds the lock lets it go. -/
theorem C101_attr_free (c : Cfg) (d : Nat → Nat) (prog : Nat → List Act → Option Code) (s : List Nat) (t : Nat) (h : (Blk.run (sys c) (code prog) s (start d)).lock = some t) :
    ∃ k, (Blk.run (sys c) (code prog) (s ++ List.replicate k t) (start d)).lock = none := by
  obtain ⟨hi, _⟩ := (Blk.good_run s (Blk.good_init (m := sys c) (prog := code prog) d (x := .run .ret) rfl)).held t h
  obtain ⟨l, d', z, h1, h2⟩ := fin_all c t (Blk.run (sys c) (code prog) s (start d)).data ((Blk.run (sys c) (code prog) s (start d)).thr t)
  obtain ⟨k, hk⟩ := Blk.frees (prog := code prog) h1 h2 (Blk.run (sys c) (code prog) s (start d)) rfl rfl hi
  refine ⟨k, ?_⟩
  unfold Blk.run at hk ⊢
  rw [List.foldl_append]
  exact hk

/-- Read attribute `n`, assign `f` of it: `obj.n = f(obj.n)` (user code that calls `/repo/src/psygnal/_group_descriptor.py:387`). -/
def update (n : Nat) (f : Nat → Nat) : Code := .get n fun x => .set n (f x) .ret

/-- What is stored in attribute `n` (`/repo/src/psygnal/_group_descriptor.py:402`). -/
def stored (n : Nat) : Act → Option Nat
  | .ev (.wrote _ m v) => if m = n then some v else none
  | _ => none

/-- What the listeners of attribute `n` are told: new and old value (`/repo/src/psygnal/_group_descriptor.py:318`). -/
def heard (n : Nat) : Act → Option (Nat × Nat)
  | .ev (.told _ m _ x y) => if m = n then some (x, y) else none
  | _ => none

theorem alone_update (c : Cfg) (t : Nat) (d : Nat → Nat) (n : Nat) (f : Nat → Nat) : alone c t d (update n f) =
    (.saw t n (d n) :: .ev (.call t n (f (d n))) :: .saw t n (d n) :: .ev (.wrote t n (f (d n))) :: ((if c.reread then [.saw t n (f (d n))] else []) ++
      (if c.unchanged (f (d n)) (d n) then [.ev (.same t n (f (d n)) (f (d n)) (d n))] else [.differ t, .ev (.told t n (f (d n)) (f (d n)) (d n))]) ++ []),
      fun m => if m = n then f (d n) else d m) := rfl

/-- No update is lost: `k` updates were made, and the attribute is what `f` makes of it `k` times; the listeners are told every one that changes it, in order,
with the values before and after; nothing else changes. -/
theorem C101_update (c : Cfg) (a : Nat → Nat) (prog : Nat → List Act → Option Code) (s : List Nat) (n : Nat) (f : Nat → Nat)
    (hp : ∀ t l b, prog t l = some b → b = update n f) :
    let p := Blk.run (sys c) (code prog) s (start a)
    p.lock = none → ∃ k, p.data n = Nat.repeat f k (a n) ∧ p.log.filterMap (stored n) = (List.range k).map (fun i => Nat.repeat f (i + 1) (a n)) ∧
      p.log.filterMap (heard n) = ((List.range k).map (fun i => (Nat.repeat f (i + 1) (a n), Nat.repeat f i (a n)))).filter (fun x => !c.unchanged x.1 x.2) ∧
      ∀ m, m ≠ n → p.data m = a m := by
  intro p hn
  have h := C101_attr c a prog s hn
  generalize p.log = l at h ⊢
  generalize p.data = x at h ⊢
  induction h with
  | nil => exact ⟨0, rfl, rfl, rfl, fun _ _ => rfl⟩
  | @block l d t b _ hc ih =>
    obtain rfl := hp _ _ _ hc
    obtain ⟨k, h1, h2, h3, h4⟩ := ih
    have hf : f (d n) = Nat.repeat f (k + 1) (a n) := by rw [h1]; rfl
    rw [alone_update]
    refine ⟨k + 1, ?_, ?_, ?_, fun m hm => ?_⟩
    · dsimp only
      rw [if_pos rfl, hf]
    · rw [List.filterMap_append, h2, List.range_succ, List.map_append, hf]
      congr 1
      cases c.reread <;> cases c.unchanged (Nat.repeat f (k + 1) (a n)) (d n) <;> simp [List.filterMap, stored]
    · rw [List.filterMap_append, h3, List.range_succ, List.map_append, List.filter_append, hf, h1]
      congr 1
      cases c.reread <;> cases hu : c.unchanged (Nat.repeat f (k + 1) (a n)) (Nat.repeat f k (a n)) <;> simp [List.filterMap, heard, hu]
    · dsimp only
      rw [if_neg hm, h4 m hm]

theorem repeat_add (m : Nat) (k x : Nat) : Nat.repeat (· + m) k x = x + k * m := by
  induction k with
  | zero => simp [Nat.repeat]
  | succ k ih => rw [Nat.repeat, ih, Nat.succ_mul, Nat.add_assoc]

/-- Counting: when as many assignments as `k` were made, the attribute has grown by `k`, and the listeners were told each value once, in order. -/
theorem C101_count (c : Cfg) (he : ∀ x y, c.eq x y = (x == y)) (a : Nat → Nat) (prog : Nat → List Act → Option Code) (s : List Nat) (n : Nat)
    (hp : ∀ t l b, prog t l = some b → b = update n (· + 1)) :
    let p := Blk.run (sys c) (code prog) s (start a)
    let k := (p.log.filterMap (stored n)).length
    p.lock = none → p.data n = a n + k ∧ p.log.filterMap (heard n) = (List.range k).map (fun i => (a n + i + 1, a n + i)) := by
  intro p k hn
  obtain ⟨j, h1, h2, h3, _⟩ := C101_update c a prog s n (· + 1) hp hn
  have hk : k = j := by
    show (List.filterMap (stored n) _).length = j
    rw [h2]; simp
  rw [hk]
  refine ⟨by rw [h1, repeat_add, Nat.mul_one], ?_⟩
  rw [h3, List.filter_eq_self.2]
  · refine List.map_congr_left fun i _ => ?_
    rw [repeat_add, repeat_add]
    simp [Nat.add_assoc]
  · intro x hx
    obtain ⟨i, _, rfl⟩ := List.mem_map.1 hx
    simp only [repeat_add, Cfg.unchanged, he]
    split <;> simp

/-- A lock around each assignment is not enough: two threads count, and one update is lost. -/
theorem C101_count_refuted : ∃ l, let p := Lk.run (step ⟨true, fun x y => x == y⟩) inside l (init (fun _ => 0) (fun t => if t < 2 then update 0 (· + 1) else .ret), none)
    p.2 = none ∧ p.1.attr 0 = 1 ∧ p.1.log.filterMap (fun e => stored 0 (.ev e)) = [1, 1] ∧ p.1.log.filterMap (fun e => heard 0 (.ev e)) = [(1, 0)] :=
  ⟨[0, 1, 0, 0, 0, 0, 0, 0, 1, 1, 1, 1, 1], by decide⟩

/-- Two threads count to two each. -/
def exN (t : Nat) (l : List Act) : Option Code := if t < 2 ∧ (l.filterMap (stored 0)).length < 2 then some (update 0 (· + 1)) else none

theorem exN_update (t : Nat) (l : List Act) (b : Code) (h : exN t l = some b) : b = update 0 (· + 1) := by
  unfold exN at h
  split at h
  · exact (Option.some.inj h).symm
  · cases h

/-- Some order of steps. -/
def exW : List Nat := [0, 0, 1, 0, 0, 0, 0, 0, 0, 1, 1, 0, 1, 1, 1, 1, 1, 1, 0, 0, 0, 0, 0, 0, 0, 0]

/-- A dataclass with `==`. -/
def exK : Cfg := ⟨true, fun x y => x == y⟩

example : let p := Blk.run (sys exK) (code exN) exW (start fun _ => 4)
    p.lock = none ∧ p.data 0 = 7 ∧ p.log.filterMap (heard 0) = [(5, 4), (6, 5), (7, 6)] :=
  have h := C101_count exK (fun _ _ => rfl) (fun _ => 4) exN exW 0 exN_update (by decide)
  ⟨by decide, h.1.trans (by decide), h.2.trans (by decide)⟩

/-- Two threads count up to 6. -/
def exV (t : Nat) (l : List Act) : Option Code := if t < 2 ∧ l.length < 12 then some (update 0 fun x => min (x + 1) 6) else none

theorem exV_update (t : Nat) (l : List Act) (b : Code) (h : exV t l = some b) : b = update 0 fun x => min (x + 1) 6 := by
  unfold exV at h
  split at h
  · exact (Option.some.inj h).symm
  · cases h

/-- Some order of steps. -/
def exX : List Nat := [0, 0, 1, 0, 0, 0, 0, 0, 1, 1, 0, 1, 1, 1, 1, 1, 0, 0, 0, 0, 0, 0]

/-- A model, which does not read again; the last update changes nothing and is not told. -/
example : let p := Blk.run (sys ⟨false, fun x y => x == y⟩) (code exV) exX (start fun _ => 4)
    p.lock = none ∧ p.data 0 = 6 ∧ p.log.filterMap (stored 0) = [5, 6, 6] ∧ p.log.filterMap (heard 0) = [(5, 4), (6, 5)] ∧
      ∃ k, p.data 0 = Nat.repeat (fun x => min (x + 1) 6) k 4 :=
  ⟨by decide, by decide, by decide, by decide,
    (C101_update ⟨false, fun x y => x == y⟩ (fun _ => 4) exV exX 0 (fun x => min (x + 1) 6) exV_update (by decide)).elim fun k h => ⟨k, h.1⟩⟩

example : ∃ l x, OneByOne exK exN (fun _ => 4) l x ∧ x 0 = 7 :=
  ⟨_, _, C101_attr exK (fun _ => 4) exN exW (by decide), by decide⟩

example : ∃ k, (Blk.run (sys exK) (code exN) ([0, 0, 1, 0] ++ List.replicate k 0) (start fun _ => 4)).lock = none :=
  C101_attr_free exK _ exN _ 0 (by decide)

example : ∃ l d1 b k r, OneByOne exK exN (fun _ => 4) l d1 ∧ exN 0 (l.filter (fun e => e.thread == 0)) = some b ∧
    [.saw 0 0 4, .ev (.call 0 0 5)] = l ++ k ∧ k ++ r = (alone exK 0 d1 b).1 :=
  C101_attr_held exK (fun _ => 4) exN [0, 0, 1, 0] 0 (by decide)

end Psygnal.AtC
