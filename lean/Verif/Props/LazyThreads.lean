import Verif.LazyThreadsStable

/-!
# C71: first accesses from several threads

Full claim: whatever threads do, all accesses of a signal (of the group of an object, of the `events` of a proxy) return the same
object, so that a callback connected through one of them is called by emissions through the others.
-/
namespace Psygnal.Lazy

/-- **C71**, every access returns: whatever the threads do, an access never fails, and returns an object that was made for this
attribute. -/
theorem C71_found (k : Kind) (ts : List Nat) (x : Acc) (hx : x ∈ (run k ts start).done) :
    ∃ i, x.val = some i ∧ i < (run k ts start).made :=
  (made_run ts (base_start k) ⟨(fun _ h => by cases h), (fun _ h => by cases h),
    (fun _ _ h => by rcases h with h | h | h <;> cases h), (fun _ h => by cases h)⟩).done x hx

/-- **C71**, later accesses.  Once an access `a` has ended and so have all that began before its end, all accesses that begin later
return the same object, by whichever threads and in whatever order they are done. -/
theorem C71_later_partial (k : Kind) (ts us : List Nat) (a : Acc) (ha : a ∈ (run k ts start).done)
    (hbusy : ∀ t, (run k ts start).pc t ≠ .idle → a.stop ≤ (run k ts start).began t) :
    ∃ i, ∀ x ∈ (run k (ts ++ us) start).done, ts.length ≤ x.start → x.val = some i := by
  have hb := base_run ts (base_start k)
  have hs := stable_of hb ha hbusy
  have hc : (run k ts start).clock = ts.length := by
    have : ∀ (ts : List Nat) (s : St), (run k ts s).clock = s.clock + ts.length := by
      intro ts
      induction ts with
      | nil => exact fun _ => rfl
      | cons t ts ih => intro s; rw [run, ih]; simp only [step, List.length_cons]; omega
    rw [this]; exact Nat.zero_add _
  obtain ⟨i, hi⟩ := Option.isSome_iff_exists.mp hs.some
  refine ⟨i, fun x hx hT => ?_⟩
  rw [run_append] at hx
  rw [← hi]
  exact (stable_run us hb hs).vals x hx (by rw [hc]; exact hT)

/-- **C71**, the first access.  If one access has ended before any other began, all accesses return the same object.  In particular
this is so if accesses never overlap, or if the attribute is accessed once, in `__init__` say, before other threads
get hold of the object. -/
theorem C71_first_partial (k : Kind) (ts : List Nat) (a : Acc) (ha : a ∈ (run k ts start).done)
    (hother : ∀ x ∈ (run k ts start).done, x ≠ a → a.stop ≤ x.start)
    (hbusy : ∀ t, (run k ts start).pc t ≠ .idle → a.stop ≤ (run k ts start).began t) :
    ∃ i, ∀ x ∈ (run k ts start).done, x.val = some i := by
  have h := first_run ts (base_start k) (alone_start k) (fun a h => absurd h.mem (by simp [start])) a ⟨ha, hother, hbusy⟩
  obtain ⟨i, hi⟩ := Option.isSome_iff_exists.mp h.some
  exact ⟨i, fun x hx => (h.vals x hx).trans hi⟩

/-! ## Cases -/

/-- Thread 0 accesses the group alone, then threads 0, 1 and 2 do at the same time. -/
def exSched : List Nat := List.replicate 8 0 ++ [1, 2, 0, 1, 2, 0, 1, 1]

example : (run (.group true) exSched start).done.map (·.val) = [some 0, some 0, some 0, some 0, some 0] ∧
    (run (.group true) (List.replicate 8 0) start).done = [⟨0, 0, 7, some 0⟩] ∧
    (run (.group true) exSched start).done.all (fun x => x = ⟨0, 0, 7, some 0⟩ || decide (7 ≤ x.start)) = true ∧
    (List.range 3).all (fun t => (run (.group true) exSched start).pc t = .idle) = true := by decide

/-- Threads 0 and 1 both make a signal, then thread 2 finds one of them. -/
def exRace : List Nat := [0, 1, 0, 1, 0, 1, 0, 1, 0, 1]

/-- Both threads get a signal of their own: of the callbacks connected by the first, nobody hears any more. -/
theorem C71_signal_refuted :
    ((run (.signal true) (exRace ++ [2, 2]) start).done.map fun x => (x.thread, x.val)) = [(0, some 0), (1, some 1), (2, some 1)] ∧
    ((run (.signal false) (exRace ++ [2, 2, 2, 2]) start).done.map fun x => (x.thread, x.val)) = [(0, some 0), (1, some 1), (2, some 1)] := by
  decide

/-- The `events` of a proxy, and groups not stored on the object: thread 0 gets an object that is then replaced. -/
theorem C71_proxy_refuted : ((run (.group false) ([0, 1, 0, 1, 0, 1, 0, 0, 0, 1, 1, 1] ++ [2, 2, 2, 2]) start).done.map fun x => (x.thread, x.val)) =
    [(0, some 0), (1, some 1), (2, some 1)] := by decide

/-- A group stored on the object: both threads get the group 1, but all later accesses, also those of the
patched `__setattr__`, find the group 0: neither thread will hear anything of the object. -/
theorem C71_group_refuted :
    ((run (.group true) ([0, 1, 0, 1, 0, 1, 0, 1, 0, 0, 1, 1, 1, 1, 0, 0] ++ [0, 0, 1, 1, 2, 2]) start).done.map fun x => (x.thread, x.val)) =
      [(1, some 1), (0, some 1), (0, some 0), (1, some 0), (2, some 0)] := by decide

/-- The example for `C71_later_partial`: after this race, all accesses return the group 0. -/
example : (run (.group true) [0, 1, 0, 1, 0, 1, 0, 1, 0, 0, 1, 1, 1, 1, 0, 0] start).done = [⟨1, 1, 13, some 1⟩, ⟨0, 0, 15, some 1⟩] ∧
    ∀ t, (run (.group true) [0, 1, 0, 1, 0, 1, 0, 1, 0, 0, 1, 1, 1, 1, 0, 0] start).pc t = .idle := by
  refine ⟨by decide, fun t => ?_⟩
  by_cases h0 : t = 0
  · subst h0; decide
  · by_cases h1 : t = 1
    · subst h1; decide
    · simp [run, step, act, start, St.goto, St.ret, h0, h1]

end Psygnal.Lazy
