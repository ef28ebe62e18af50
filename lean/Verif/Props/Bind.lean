import Verif.BindLemmas

/-! # C56: attributes bound with `connect_setattr` -/
namespace Psygnal.Bind

theorem assigned_iff {e : Env} {v : Val} {n : Nat} {σ σ' : St} {d : List (Nat × Val × Val)}
    (h : Spread e v σ σ' d []) (hn : σ'.val n = v) (hr : ∀ m, σ'.val m ≠ σ.val m → Reach e σ v n m) :
    (∀ m, Reach e σ v n m → σ'.val m = v) ∧ (∀ m, ¬ Reach e σ v n m → σ'.val m = σ.val m) := by
  refine ⟨fun m hm => ?_, fun m hm => Classical.byContradiction fun h1 => hm (hr m h1)⟩
  induction hm with
  | here => exact hn
  | step _ h1 h2 h3 ih =>
    rename_i m b _
    have := h.all m h1 (fun h0 => by rw [h0] at h3; cases h3) h2 ih
    obtain ⟨x, hx, rfl⟩ := List.mem_map.mp this
    exact h.closed x hx b h3

theorem heard_count (slots : Nat → List Slot) (k : Nat) (w : Val × Val) (x : Nat × Val × Val) :
    (heard slots x).count (k, w) = if x.2 = w then (slots x.1).count (.call k) else 0 := by
  unfold heard
  induction slots x.1 with
  | nil => simp
  | cons b l ih =>
    cases b with
    | bind b => simpa using ih
    | call j =>
      by_cases hj : j = k
      · subst hj
        by_cases hx : x.2 = w
        · simp only [if_pos hx] at ih
          subst hx
          simp [ih]
        · simp only [if_neg hx] at ih
          simp [ih, hx]
      · by_cases hx : x.2 = w
        · simp only [if_pos hx] at ih
          subst hx
          simp [ih, hj]
        · simp only [if_neg hx] at ih
          simp [ih, hx]

/-- **C56** (as far as true).  Any number of fields and attributes, bound in any way, also in circles, by
`signal.connect_setattr(obj, attr, maxargs=1)`, no emission being under way.  If `v` is equal to itself for the operators of
the fields, assigning `v` to one ends without an exception, however deep calls may be nested, and sets exactly the attributes that
can be reached through bindings of fields with a value different from `v`; each such field with bindings emits exactly once, the new
and its old value, the others do not.  The other callbacks of the fields that emit are called, once for each emission, with the new and the old
value, and no others; they must not raise.  Connections are as before.  Missing: values that are not equal to themselves, bindings with
other `maxargs`, callbacks that raise, refuted below. -/
theorem C56_partial (e : Env) {σ : St} {v : Val} (hv : ∀ m, e.eq m v v = true) (ns : List Nat)
    (hns : ∀ m ∈ ns, ∀ b, .bind b ∈ σ.slots m → b.tgt ∈ ns) (h1 : ∀ m b, .bind b ∈ σ.slots m → b.maxArgs = some 1)
    (hc : ∀ m k, .call k ∈ σ.slots m → ∀ old, e.raises k v old = false) (hrest : ∀ m, σ.depth m = 0) (hlim : 0 < e.limit) {n : Nat} (hn : n ∈ ns) :
    ∃ F, ∀ f, F ≤ f → ∃ σ' d, assign e f n v σ = some (true, σ')
      ∧ (∀ m, Reach e σ v n m → σ'.val m = v) ∧ (∀ m, ¬ Reach e σ v n m → σ'.val m = σ.val m)
      ∧ σ'.log = σ.log ++ d ∧ (d.map (·.1)).Nodup
      ∧ (∀ m new old, (m, new, old) ∈ d ↔
          Reach e σ v n m ∧ e.evented m = true ∧ σ.slots m ≠ [] ∧ e.eq m v (σ.val m) = false ∧ new = v ∧ old = σ.val m)
      ∧ (∃ c, σ'.calls = σ.calls ++ c ∧ ∀ k old,
          c.count (k, v, old) = (d.map fun x => if x.2.2 = old then (σ.slots x.1).count (.call k) else 0).sum
          ∧ ∀ new, new ≠ v → (k, new, old) ∉ c)
      ∧ σ'.slots = σ.slots ∧ ∀ m, σ'.depth m = 0 := by
  refine ⟨stale e v ns σ + 1, fun f hf => ?_⟩
  have ho : Ok e v ns σ := ⟨h1, hns, hc, fun m _ => by rw [hrest]; exact hlim⟩
  obtain ⟨σ', ha, d, hs, hn', hr⟩ := assign_ok hv f n σ hn ho (by omega)
  obtain ⟨k1, k2⟩ := assigned_iff hs hn' hr
  refine ⟨σ', d, ha, k1, k2, hs.log, hs.nodup, fun m new old => ⟨fun hm => ?_, fun ⟨a1, a2, a3, a4, a5, a6⟩ => ?_⟩, ?_, hs.slots,
    fun m => by rw [hs.depth, hrest]⟩
  · obtain ⟨a1, a2, a3, a4, a5⟩ := hs.entry _ hm
    simp only [Prod.mk.injEq] at a1
    refine ⟨Classical.byContradiction fun hc => ?_, a2, a3, a4, a1.1, a1.2⟩
    have := k2 m hc
    simp only at a4 a5
    rw [a5] at this
    rw [← this, hv] at a4
    cases a4
  · have := hs.all m a2 a3 a4 (k1 m a1)
    obtain ⟨x, hx, rfl⟩ := List.mem_map.mp this
    have h2 := (hs.entry x hx).1
    rw [a5, a6, ← h2]
    exact hx
  · obtain ⟨c, c1, c2⟩ := hs.calls
    rw [List.nil_append] at c2
    refine ⟨c, c1, fun k old => ⟨?_, fun new hnew hm => ?_⟩⟩
    · rw [c2.count_eq, List.count_flatMap]
      congr 1
      apply List.map_congr_left
      intro x hx
      have := (hs.entry x hx).1
      rw [Function.comp, heard_count, this]
      simp
    · obtain ⟨x, hx, hx'⟩ := List.mem_flatMap.mp (c2.mem_iff.mp hm)
      obtain ⟨sl, _, hsl⟩ := List.mem_filterMap.mp hx'
      cases sl with
      | bind b => cases hsl
      | call j =>
        have := (hs.entry x hx).1
        simp only [Option.some.injEq, Prod.mk.injEq] at hsl
        rw [this] at hsl
        simp only [Prod.mk.injEq] at hsl
        exact hnew hsl.2.1.symm

/-- Bound both ways, and in agreement; other callbacks do not raise. -/
structure Sync (e : Env) (σ : St) : Prop where
  one : ∀ m b, .bind b ∈ σ.slots m → b.maxArgs = some 1
  fine : ∀ m k, .call k ∈ σ.slots m → ∀ new old, e.raises k new old = false
  rest : ∀ m, σ.depth m = 0
  evented : ∀ m b, .bind b ∈ σ.slots m → e.evented b.tgt = true
  back : ∀ m b, .bind b ∈ σ.slots m → ∃ b', .bind b' ∈ σ.slots b.tgt ∧ b'.tgt = m
  same : ∀ m b, .bind b ∈ σ.slots m → σ.val b.tgt = σ.val m

/-- A history of assignments. -/
def assigns (e : Env) (f : Nat) : List (Nat × Val) → St → Option (Bool × St)
  | [], σ => some (true, σ)
  | (n, v) :: l, σ =>
    match assign e f n v σ with
    | some (true, σ') => assigns e f l σ'
    | r => r

theorem sync_assign (e : Env) (heq : ∀ m x y, e.eq m x y = true ↔ x = y) (hlim : 0 < e.limit) (ns : List Nat) {σ : St} (hs : Sync e σ)
    (hns : ∀ m ∈ ns, ∀ b, .bind b ∈ σ.slots m → b.tgt ∈ ns) {n : Nat} (hn : n ∈ ns) (v : Val) {f : Nat} (hf : ns.length < f) :
    ∃ σ', assign e f n v σ = some (true, σ') ∧ σ'.slots = σ.slots ∧ Sync e σ' ∧ σ'.val n = v := by
  have hv : ∀ m, e.eq m v v = true := fun m => (heq m v v).mpr rfl
  have ho : Ok e v ns σ := ⟨hs.one, hns, fun m k hk old => hs.fine m k hk v old, fun m _ => by rw [hs.rest]; exact hlim⟩
  have hlen : stale e v ns σ ≤ ns.length := List.length_filter_le _ _
  obtain ⟨σ', ha, d, hsp, hn', hr⟩ := assign_ok hv f n σ hn ho (by omega)
  obtain ⟨k1, k2⟩ := assigned_iff hsp hn' hr
  have hfalse : ∀ m, σ.val m ≠ v → e.eq m v (σ.val m) = false := by
    intro m hm
    cases hq : e.eq m v (σ.val m)
    · rfl
    · exact absurd ((heq _ _ _).mp hq).symm hm
  have key : ∀ m b, .bind b ∈ σ.slots m → Reach e σ v n m → σ'.val b.tgt = v := by
    intro m b hb hm
    by_cases hc : σ.val m = v
    · rcases hsp.val b.tgt with h | h
      · exact h
      · rw [h, hs.same m b hb, hc]
    · obtain ⟨b', hb', hm'⟩ := hs.back m b hb
      have hev := hs.evented _ b' hb'
      rw [hm'] at hev
      exact k1 _ (.step hm hev (hfalse m hc) hb)
  refine ⟨σ', ha, hsp.slots, ⟨?_, ?_, fun m => by rw [hsp.depth, hs.rest], ?_, ?_, ?_⟩, hn'⟩
  · rw [hsp.slots]; exact hs.one
  · rw [hsp.slots]; exact hs.fine
  · rw [hsp.slots]; exact hs.evented
  · rw [hsp.slots]; exact hs.back
  · rw [hsp.slots]
    intro m b hb
    by_cases hm : Reach e σ v n m
    · rw [k1 m hm, key m b hb hm]
    · by_cases hm' : Reach e σ v n b.tgt
      · obtain ⟨b', hb', ht⟩ := hs.back m b hb
        have h3 := key b.tgt b' hb' hm'
        rw [ht] at h3
        rw [h3, k1 _ hm']
      · rw [k2 m hm, k2 _ hm', hs.same m b hb]

/-- Fields bound both ways stay equal: after any sequence of assignments of any values to any of them, each ends without an exception
and the fields that are bound to each other have the same value. -/
theorem C56_sync (e : Env) (heq : ∀ m x y, e.eq m x y = true ↔ x = y) (hlim : 0 < e.limit) (ns : List Nat) {f : Nat}
    (hf : ns.length < f) : ∀ (l : List (Nat × Val)) {σ : St}, Sync e σ → (∀ m ∈ ns, ∀ b, .bind b ∈ σ.slots m → b.tgt ∈ ns) →
      (∀ x ∈ l, x.1 ∈ ns) → ∃ σ', assigns e f l σ = some (true, σ') ∧ (∀ m b, .bind b ∈ σ.slots m → σ'.val b.tgt = σ'.val m)
        ∧ ∀ x, l.getLast? = some x → σ'.val x.1 = x.2
  | [], σ, hs, _, _ => ⟨σ, rfl, hs.same, by simp⟩
  | (n, v) :: l, σ, hs, hns, hl => by
    obtain ⟨σ1, h1, h2, h3, h4⟩ := sync_assign e heq hlim ns hs hns (hl (n, v) (by simp)) v hf
    obtain ⟨σ2, k1, k2, k3⟩ := C56_sync e heq hlim ns hf l h3 (by rw [h2]; exact hns)
      (fun x hx => hl x (List.mem_cons_of_mem _ hx))
    refine ⟨σ2, by simp only [assigns, h1, k1], by rw [← h2]; exact k2, fun x hx => ?_⟩
    cases l with
    | nil =>
      cases hx
      cases k1
      exact h4
    | cons y l => exact k3 x (by simpa [List.getLast?_cons_cons] using hx)

/-! ## Examples and refutations -/

/-- Everything is a field, compared by `==`. -/
def plain (limit : Nat) : Env where
  evented _ := true
  exist _ := true
  eq _ x y := decide (x = y)
  limit := limit
  raises _ _ _ := false
  owner n := n

/-- A circle 0, 1, 2 with 3 hanging on 1, and 4 hanging on 3; two callbacks hear 2. -/
def ring : St where
  val n := .leaf (if n = 3 then 7 else 0)
  slots n := if n = 0 then [.bind ⟨1, some 1⟩] else if n = 1 then [.bind ⟨2, some 1⟩, .bind ⟨3, some 1⟩] else if n = 2 then [.call 8, .bind ⟨0, some 1⟩, .call 9]
    else if n = 3 then [.bind ⟨4, some 1⟩] else []
  depth _ := 0
  log := []
  calls := []

/-- `C56_partial`: 3 has the value already, so 4 is not reached. -/
example : (∀ m, (plain 300).eq m (.leaf 7) (.leaf 7) = true) ∧ (∀ m ∈ [0, 1, 2, 3, 4], ∀ b, .bind b ∈ ring.slots m → b.tgt ∈ [0, 1, 2, 3, 4])
    ∧ (assign (plain 300) 10 0 (.leaf 7) ring).map (fun r => (r.1, r.2.log, r.2.calls, [0, 1, 2, 3, 4].map r.2.val))
      = some (true, [(0, .leaf 7, .leaf 0), (1, .leaf 7, .leaf 0), (2, .leaf 7, .leaf 0)],
          [(8, .leaf 7, .leaf 0), (9, .leaf 7, .leaf 0)], [.leaf 7, .leaf 7, .leaf 7, .leaf 7, .leaf 0]) := by
  refine ⟨fun _ => rfl, fun m hm b hb => ?_, rfl⟩
  simp only [List.mem_cons, List.not_mem_nil, or_false] at hm
  rcases hm with rfl | rfl | rfl | rfl | rfl <;> simp [ring] at hb <;> (try rcases hb with rfl | rfl) <;> simp_all

/-- Three fields, each bound to the next both ways. -/
def linked : St where
  val _ := .leaf 0
  slots n := if n = 0 then [.bind ⟨1, some 1⟩] else if n = 1 then [.bind ⟨0, some 1⟩, .bind ⟨2, some 1⟩] else if n = 2 then [.bind ⟨1, some 1⟩] else []
  depth _ := 0
  log := []
  calls := []

theorem linked_cases {m : Nat} {b : Binding} (h : .bind b ∈ linked.slots m) :
    (m = 0 ∧ b = ⟨1, some 1⟩) ∨ (m = 1 ∧ (b = ⟨0, some 1⟩ ∨ b = ⟨2, some 1⟩)) ∨ (m = 2 ∧ b = ⟨1, some 1⟩) := by
  simp only [linked] at h
  split at h
  · simp_all
  · split at h
    · simp_all
    · split at h
      · simp_all
      · cases h

/-- The hypotheses of `C56_sync` are met. -/
example : Sync (plain 300) linked where
  one m b h := by rcases linked_cases h with ⟨_, rfl⟩ | ⟨_, rfl | rfl⟩ | ⟨_, rfl⟩ <;> rfl
  fine _ _ _ _ _ := rfl
  rest _ := rfl
  evented _ _ _ := rfl
  back m b h := by
    rcases linked_cases h with ⟨rfl, rfl⟩ | ⟨rfl, rfl | rfl⟩ | ⟨rfl, rfl⟩ <;> simp [linked]
  same _ _ _ := rfl

example : (assigns (plain 300) 10 [(1, .leaf 4), (2, .leaf 5)] linked).map (fun r => (r.1, r.2.log, [0, 1, 2].map r.2.val))
    = some (true, [(1, .leaf 4, .leaf 0), (0, .leaf 4, .leaf 0), (2, .leaf 4, .leaf 0),
        (2, .leaf 5, .leaf 4), (1, .leaf 5, .leaf 4), (0, .leaf 5, .leaf 4)], [.leaf 5, .leaf 5, .leaf 5]) := by decide

/-- As `plain`, but `leaf 0` is not equal to itself (`float("nan")`). -/
def nan (limit : Nat) : Env := { plain limit with eq := fun _ x y => decide (x = y ∧ x ≠ .leaf 0) }

/-- Fields 0 and 1 are bound both ways. -/
def Two (k : Option Nat) (σ : St) : Prop := σ.slots 0 = [.bind ⟨1, k⟩] ∧ σ.slots 1 = [.bind ⟨0, k⟩]

theorem Two.slots {k : Option Nat} {σ : St} (h : Two k σ) {n : Nat} (hn : n < 2) : σ.slots n = [.bind ⟨1 - n, k⟩] := by
  match n, hn with
  | 0, _ => exact h.1
  | 1, _ => exact h.2

theorem nan_fails (L : Nat) : ∀ (k n : Nat) (σ : St), n < 2 → Two (some 1) σ → (L - σ.depth 0) + (L - σ.depth 1) ≤ k →
    ∃ σ', assign (nan L) (k + 1) n (.leaf 0) σ = some (false, σ') := by
  intro k
  induction k with
  | zero =>
    intro n σ hn ht hk
    have hd : L ≤ σ.depth n := by
      match n, hn with
      | 0, _ => omega
      | 1, _ => omega
    simp only [assign, ht.slots hn, emit]
    simp [nan, plain, hd]
  | succ k ih =>
    intro n σ hn ht hk
    by_cases hd : L ≤ σ.depth n
    · simp only [assign, ht.slots hn, emit]
      simp [nan, plain, hd]
    · rw [assign]
      simp only [ht.slots hn, emit]
      rw [if_neg (by simp [nan, plain]), if_neg (by simp [nan]), if_neg (by simpa [nan, plain] using hd)]
      obtain ⟨σ', h⟩ := ih (1 - n)
        { σ with val := set σ.val n (.leaf 0), depth := set σ.depth n (σ.depth n + 1),
                 log := σ.log ++ [(n, .leaf 0, σ.val n)] } (by omega) ht (by
          match n, hn with
          | 0, _ => simp only [set_same, set_other (show (1 : Nat) ≠ 0 by decide)]; omega
          | 1, _ => simp only [set_same, set_other (show (0 : Nat) ≠ 1 by decide)]; omega)
      simp only [loop, Binding.arg, h]
      exact ⟨_, rfl⟩

/-- How large a value is. -/
def Val.size : Val → Nat
  | .leaf n => n
  | .unit => 0
  | .pair a b => a.size + b.size + 1

theorem none_fails (L : Nat) : ∀ (k n : Nat) (σ : St) (v : Val), n < 2 → Two none σ → (L - σ.depth 0) + (L - σ.depth 1) ≤ k →
    (σ.val 0).size < v.size → (σ.val 1).size < v.size → ∃ σ', assign (plain L) (k + 1) n v σ = some (false, σ') := by
  intro k
  induction k with
  | zero =>
    intro n σ v hn ht hk h0 h1
    have hd : L ≤ σ.depth n ∧ v ≠ σ.val n := by
      match n, hn with
      | 0, _ => exact ⟨by omega, fun h => by rw [← h] at h0; omega⟩
      | 1, _ => exact ⟨by omega, fun h => by rw [← h] at h1; omega⟩
    simp only [assign, ht.slots hn, emit]
    simp [plain, hd.1, hd.2]
  | succ k ih =>
    intro n σ v hn ht hk h0 h1
    have hne : v ≠ σ.val n := by
      match n, hn with
      | 0, _ => intro h; rw [← h] at h0; omega
      | 1, _ => intro h; rw [← h] at h1; omega
    by_cases hd : L ≤ σ.depth n
    · simp only [assign, ht.slots hn, emit]
      simp [plain, hd, hne]
    · rw [assign]
      simp only [ht.slots hn, emit]
      rw [if_neg (by simp [plain]), if_neg (by simpa [plain] using hne), if_neg (by simpa [plain] using hd)]
      obtain ⟨σ', h⟩ := ih (1 - n)
        { σ with val := set σ.val n v, depth := set σ.depth n (σ.depth n + 1), log := σ.log ++ [(n, v, σ.val n)] }
        (.pair v (σ.val n)) (by omega) ht (by
          match n, hn with
          | 0, _ => simp only [set_same, set_other (show (1 : Nat) ≠ 0 by decide)]; omega
          | 1, _ => simp only [set_same, set_other (show (0 : Nat) ≠ 1 by decide)]; omega)
        (by
          match n, hn with
          | 0, _ => simp only [set_same, Val.size]; omega
          | 1, _ => simp only [set_other (show (0 : Nat) ≠ 1 by decide), Val.size]; omega)
        (by
          match n, hn with
          | 0, _ => simp only [set_other (show (1 : Nat) ≠ 0 by decide), Val.size]; omega
          | 1, _ => simp only [set_same, Val.size]; omega)
      simp only [loop, Binding.arg, h]
      exact ⟨_, rfl⟩

/-- Two fields bound both ways, with the given `maxargs`. -/
def pairOf (k : Option Nat) : St where
  val _ := .leaf 0
  slots n := if n = 0 then [.bind ⟨1, k⟩] else if n = 1 then [.bind ⟨0, k⟩] else []
  depth _ := 0
  log := []
  calls := []

/-- Whatever the limit: assigning a value that is not equal to itself (`float("nan")`) to one of two fields bound both ways ends in an
exception. -/
theorem C56_nan_refuted (L : Nat) : ∃ f σ', assign (nan L) f 0 (.leaf 0) (pairOf (some 1)) = some (false, σ') :=
  ⟨_, nan_fails L (L + L) 0 _ (by decide) ⟨rfl, rfl⟩ (by simp [pairOf])⟩

/-- Whatever the limit: with `maxargs=None`, the default for signals other than those of fields, fields get pairs of the
new and the old value, and two fields bound both ways never agree: an exception. -/
theorem C56_maxargs_refuted (L : Nat) : ∃ f σ', assign (plain L) f 0 (.leaf 1) (pairOf none) = some (false, σ') :=
  ⟨_, none_fails L (L + L) 0 _ _ (by decide) ⟨rfl, rfl⟩ (by simp [pairOf]) (by decide) (by decide)⟩

/-- Field 0 has a callback and a binding of 1, connected in this order; field 1 has a callback. -/
def observed : St where
  val _ := .leaf 0
  slots n := if n = 0 then [.call 5, .bind ⟨1, some 1⟩] else if n = 1 then [.call 6] else []
  depth _ := 0
  log := []
  calls := []

/-- A callback that raises keeps the attributes bound after it from being set: the field and the attribute bound to it differ. -/
theorem C56_raises_refuted : ∃ e σ', (∀ m v, e.eq m v v = true)
    ∧ assign e 5 0 (.leaf 1) observed = some (false, σ') ∧ σ'.val 0 = .leaf 1 ∧ σ'.val 1 = .leaf 0 :=
  ⟨{ plain 300 with raises := fun k _ _ => k == 5 }, _, by simp [plain], rfl, rfl, rfl⟩

/-- If it does not raise, both callbacks are called once. -/
example : (assign (plain 300) 5 0 (.leaf 1) observed).map (fun r => (r.1, r.2.calls, [0, 1].map r.2.val))
    = some (true, [(5, .leaf 1, .leaf 0), (6, .leaf 1, .leaf 0)], [.leaf 1, .leaf 1]) := by decide

/-! ## Connecting and disconnecting -/

/-- How many slots set attribute `m`. -/
def binders (m : Nat) (l : List Slot) : Nat :=
  l.countP fun
    | .bind b => b.tgt = m
    | .call _ => false

@[simp] theorem binders_nil (m : Nat) : binders m [] = 0 := rfl
theorem binders_bind (m : Nat) (b : Binding) (l : List Slot) : binders m (.bind b :: l) = binders m l + if b.tgt = m then 1 else 0 := by
  by_cases h : b.tgt = m <;> simp [binders, h]
@[simp] theorem binders_call (m k : Nat) (l : List Slot) : binders m (.call k :: l) = binders m l := by simp [binders]
theorem binders_append (m : Nat) (l l' : List Slot) : binders m (l ++ l') = binders m l + binders m l' := by simp [binders]

theorem remove_binders (m m' : Nat) : ∀ l : List Slot, binders m (remove m' l) = if m' = m then binders m l - 1 else binders m l
  | [] => by simp [remove]
  | .call k :: l => by simp [remove, remove_binders m m' l]
  | .bind b :: l => by
    have ih := remove_binders m m' l
    rw [remove]
    by_cases hb : b.tgt = m'
    · rw [if_pos hb, binders_bind]
      by_cases hm : m' = m
      · simp [hb, hm]
      · rw [if_neg hm, hb, if_neg hm]; omega
    · rw [if_neg hb, binders_bind, binders_bind, ih]
      by_cases hm : m' = m
      · subst hm; simp [hb]
      · simp [hm]

theorem erase_binders (m k : Nat) : ∀ l : List Slot, binders m (l.erase (.call k)) = binders m l
  | [] => rfl
  | .call j :: l => by
    by_cases h : j = k
    · subst h; simp
    · rw [List.erase_cons_tail (by simpa using h)]; simp [erase_binders m k l]
  | .bind b :: l => by
    rw [List.erase_cons_tail (by simp), binders_bind, binders_bind, erase_binders m k l]

theorem filter_binders (e : Env) (m o : Nat) : ∀ l : List Slot,
    binders m (l.filter fun | .bind b => e.owner b.tgt ≠ o | .call _ => true) = if e.owner m = o then 0 else binders m l
  | [] => by simp
  | .call j :: l => by simpa using filter_binders e m o l
  | .bind b :: l => by
    have ih := filter_binders e m o l
    by_cases hb : e.owner b.tgt = o
    · rw [List.filter_cons_of_neg (by simp [hb]), ih, binders_bind]
      by_cases hm : b.tgt = m
      · subst hm; simp [hb]
      · simp [hm]
    · rw [List.filter_cons_of_pos (by simp [hb]), binders_bind, ih, binders_bind]
      by_cases hm : b.tgt = m
      · subst hm; simp [hb]
      · simp [hm]

/-- How often attribute `m` is bound to field `n` after these operations. -/
def bound (e : Env) (n m : Nat) : List Op → Nat → Nat
  | [], k => k
  | .bind n' m' :: l, k => bound e n m l (if n' = n ∧ m' = m then k + 1 else k)
  | .unbind n' m' :: l, k => bound e n m l (if n' = n ∧ m' = m then k - 1 else k)
  | .die o :: l, k => bound e n m l (if e.owner m = o then 0 else k)
  | _ :: l, k => bound e n m l k

/-- After any history of `connect_setattr` and `disconnect_setattr`, of other connections and of deaths of objects, the attribute is bound as often
as it was connected and not disconnected since its object lived; each `disconnect_setattr` takes back one connection and no other
attribute's. -/
theorem C56_bound (e : Env) {m : Nat} (he : e.exist m = true) (n : Nat) : ∀ (l : List Op) (σ : St),
    ((run e l σ).slots n).countP (fun | .bind b => b.tgt = m | .call _ => false)
      = bound e n m l (((σ.slots n).countP fun | .bind b => b.tgt = m | .call _ => false))
  | [], σ => rfl
  | .bind n' m' :: l, σ => by
    unfold run bound
    rw [C56_bound e he n l]
    congr 1
    show binders m _ = if _ then binders m _ + 1 else binders m _
    simp only [step, connect]
    by_cases hn : n' = n
    · subst hn
      by_cases hm : m' = m
      · subst hm
        simp [he, binders_append, binders_bind]
      · split <;> simp [hm, binders_append, binders_bind]
    · split <;> simp [hn, set_other (Ne.symm hn)]
  | .unbind n' m' :: l, σ => by
    unfold run bound
    rw [C56_bound e he n l]
    congr 1
    show binders m _ = if _ then binders m _ - 1 else binders m _
    simp only [step, disconnect]
    by_cases hn : n' = n
    · subst hn
      rw [set_same, remove_binders]
      simp
    · simp [hn, set_other (Ne.symm hn)]
  | .listen n' k :: l, σ => by
    unfold run bound
    rw [C56_bound e he n l]
    congr 1
    show binders m _ = binders m _
    simp only [step, listen]
    by_cases hn : n' = n
    · subst hn; rw [set_same, binders_append]; simp
    · rw [set_other (Ne.symm hn)]
  | .ignore n' k :: l, σ => by
    unfold run bound
    rw [C56_bound e he n l]
    congr 1
    show binders m _ = binders m _
    simp only [step, ignore]
    by_cases hn : n' = n
    · subst hn; rw [set_same, erase_binders]
    · rw [set_other (Ne.symm hn)]
  | .die o :: l, σ => by
    unfold run bound
    rw [C56_bound e he n l]
    congr 1
    exact filter_binders e m o (σ.slots n)

/-- How often callback `k` is connected to field `n` after these operations. -/
def listening (n k : Nat) : List Op → Nat → Nat
  | [], c => c
  | .listen n' k' :: l, c => listening n k l (if n' = n ∧ k' = k then c + 1 else c)
  | .ignore n' k' :: l, c => listening n k l (if n' = n ∧ k' = k then c - 1 else c)
  | _ :: l, c => listening n k l c

theorem remove_calls (m k : Nat) : ∀ l : List Slot, (remove m l).count (.call k) = l.count (.call k)
  | [] => rfl
  | .call j :: l => by simp only [remove, List.count_cons, remove_calls m k l]
  | .bind b :: l => by
    rw [remove]
    split
    · simp
    · simp [remove_calls m k l]

/-- Binding and unbinding attributes and the deaths of their objects leave the other callbacks of all fields connected, as often as they
were. -/
theorem C56_listening (e : Env) (n k : Nat) : ∀ (l : List Op) (σ : St),
    ((run e l σ).slots n).count (.call k) = listening n k l ((σ.slots n).count (.call k))
  | [], σ => rfl
  | .bind n' m' :: l, σ => by
    unfold run listening
    rw [C56_listening e n k l]
    congr 1
    simp only [step, connect]
    by_cases hn : n' = n
    · subst hn
      split <;> simp
    · split <;> simp [set_other (Ne.symm hn)]
  | .unbind n' m' :: l, σ => by
    unfold run listening
    rw [C56_listening e n k l]
    congr 1
    simp only [step, disconnect]
    by_cases hn : n' = n
    · subst hn; rw [set_same, remove_calls]
    · rw [set_other (Ne.symm hn)]
  | .listen n' j :: l, σ => by
    unfold run listening
    rw [C56_listening e n k l]
    congr 1
    simp only [step, listen]
    by_cases hn : n' = n
    · subst hn
      by_cases hk : j = k
      · subst hk; simp
      · simp [hk]
    · simp [hn, set_other (Ne.symm hn)]
  | .ignore n' j :: l, σ => by
    unfold run listening
    rw [C56_listening e n k l]
    congr 1
    simp only [step, ignore]
    by_cases hn : n' = n
    · subst hn
      rw [set_same, List.count_erase]
      by_cases hk : j = k
      · subst hk; simp
      · simp [hk]
    · simp [hn, set_other (Ne.symm hn)]
  | .die o :: l, σ => by
    unfold run listening
    rw [C56_listening e n k l]
    congr 1
    exact List.count_filter rfl

theorem remove_sublist (m : Nat) : ∀ l : List Slot, (remove m l).Sublist l
  | [] => .slnil
  | .bind b :: bs => by
    rw [remove]
    split
    · exact List.sublist_cons_self _ _
    · exact (remove_sublist m bs).cons_cons _
  | .call _ :: bs => (remove_sublist m bs).cons_cons _

/-- The slots of a field are in the order in which they were connected, whatever was disconnected or died in between. -/
theorem C56_order (e : Env) (n : Nat) : ∀ (l : List Op) (σ : St), ((run e l σ).slots n).Sublist (σ.slots n ++ l.filterMap fun
    | .bind n' m => if n' = n ∧ e.exist m = true then some (.bind ⟨m, some 1⟩) else none
    | .listen n' k => if n' = n then some (.call k) else none
    | _ => none)
  | [], σ => by simp [run]
  | o :: l, σ => by
    refine (C56_order e n l (step e o σ)).trans ?_
    rw [List.filterMap_cons]
    cases o with
    | bind n' m =>
      by_cases hm : e.exist m = true
      · by_cases hn : n' = n
        · subst hn
          simp [step, connect, hm]
        · simp [step, connect, hm, hn, set_other (Ne.symm hn)]
      · simp [step, connect, hm]
    | unbind n' m =>
      refine List.Sublist.append ?_ (List.Sublist.refl _)
      by_cases hn : n' = n
      · subst hn
        simp only [step, disconnect, set_same]
        exact remove_sublist m _
      · simp [step, disconnect, set_other (Ne.symm hn)]
    | listen n' k =>
      by_cases hn : n' = n
      · subst hn
        simp [step, listen]
      · simp [step, listen, hn, set_other (Ne.symm hn)]
    | ignore n' k =>
      refine List.Sublist.append ?_ (List.Sublist.refl _)
      by_cases hn : n' = n
      · subst hn
        simp only [step, ignore, set_same]
        exact List.erase_sublist
      · simp [step, ignore, set_other (Ne.symm hn)]
    | die o => exact List.Sublist.append List.filter_sublist (List.Sublist.refl _)

/-- An assignment sets what is bound: after the history, if the new value is different, attribute `m` has it, provided it is bound to
field `n`. -/
theorem C56_follows (e : Env) {σ : St} {v : Val} (hv : ∀ m, e.eq m v v = true) (ns : List Nat)
    (hns : ∀ m ∈ ns, ∀ b, .bind b ∈ σ.slots m → b.tgt ∈ ns) (h1 : ∀ m b, .bind b ∈ σ.slots m → b.maxArgs = some 1)
    (hc : ∀ m k, .call k ∈ σ.slots m → ∀ old, e.raises k v old = false) (hrest : ∀ m, σ.depth m = 0) (hlim : 0 < e.limit)
    {n m : Nat} (hn : n ∈ ns) (hev : e.evented n = true)
    (hne : e.eq n v (σ.val n) = false) (hb : 0 < (σ.slots n).countP fun | .bind b => b.tgt = m | .call _ => false) :
    ∃ F, ∀ f, F ≤ f → ∃ σ', assign e f n v σ = some (true, σ') ∧ σ'.val n = v ∧ σ'.val m = v := by
  obtain ⟨F, hF⟩ := C56_partial e hv ns hns h1 hc hrest hlim hn
  refine ⟨F, fun f hf => ?_⟩
  obtain ⟨σ', d, h2, h3, _⟩ := hF f hf
  obtain ⟨b, hb, ht⟩ := List.countP_pos_iff.mp hb
  refine ⟨σ', h2, h3 n .here, ?_⟩
  cases b with
  | call k => cases ht
  | bind b =>
    have : b.tgt = m := by simpa using ht
    rw [← this]
    exact h3 _ (.step .here hev hne hb)

theorem loop_plain (e : Env) {v old : Val} (f : Nat) : ∀ (bs : List Slot) (σ : St), (∀ b, .bind b ∈ bs → e.evented b.tgt = false) →
    (∀ k, .call k ∈ bs → e.raises k v old = false) → ∃ σ', loop e (assign e (f + 1)) v old bs σ = some (true, σ') ∧
      σ'.calls = σ.calls ++ bs.filterMap fun
        | .call k => some (k, v, old)
        | .bind _ => none
  | [], σ, _, _ => ⟨σ, rfl, by simp⟩
  | .bind b :: bs, σ, hb, hc => by
    obtain ⟨σ', h1, h2⟩ := loop_plain e f bs { σ with val := set σ.val b.tgt (b.arg v old) } (fun b h => hb b (by simp [h]))
      (fun k h => hc k (by simp [h]))
    refine ⟨σ', ?_, by simpa using h2⟩
    simp only [loop, assign, hb b (by simp), true_or, if_true]
    exact h1
  | .call k :: bs, σ, hb, hc => by
    obtain ⟨σ', h1, h2⟩ := loop_plain e f bs { σ with calls := σ.calls ++ [(k, v, old)] } (fun b h => hb b (by simp [h]))
      (fun k h => hc k (by simp [h]))
    refine ⟨σ', ?_, by simpa using h2⟩
    simp only [loop, hc k (by simp), Bool.false_eq_true, if_false]
    exact h1

/-- The callbacks of a field that changes are called one after the other, in the order of the slots; here for a field to which only
attributes without events are bound (in general other callbacks may be called in between). -/
theorem C56_calls_order (e : Env) {σ : St} {v : Val} {n : Nat} (hev : e.evented n = true) (hne : e.eq n v (σ.val n) = false)
    (hlim : σ.depth n < e.limit) (hb : ∀ b, .bind b ∈ σ.slots n → e.evented b.tgt = false)
    (hc : ∀ k, .call k ∈ σ.slots n → e.raises k v (σ.val n) = false) (f : Nat) :
    ∃ σ', assign e (f + 2) n v σ = some (true, σ') ∧ σ'.calls = σ.calls ++ (σ.slots n).filterMap fun
      | .call k => some (k, v, σ.val n)
      | .bind _ => none := by
  rw [assign]
  by_cases h0 : σ.slots n = []
  · exact ⟨_, if_pos (.inr h0), by simp [h0]⟩
  · obtain ⟨σ', h1, h2⟩ := loop_plain e f (σ.slots n) { { σ with val := set σ.val n v } with
      depth := set σ.depth n (σ.depth n + 1)
      log := σ.log ++ [(n, v, σ.val n)] } hb hc
    refine ⟨{ σ' with depth := set σ'.depth n (σ'.depth n - 1) }, ?_, h2⟩
    simp only [hev, h0, hne, Bool.false_eq_true, Bool.true_eq_false, or_self, if_false, emit, if_neg (Nat.not_le.2 hlim)]
    rw [h1]

/-- Connected twice, disconnected once, another object dead; then an assignment. -/
example : let l := [Op.bind 0 1, .bind 0 2, .listen 0 4, .bind 0 1, .unbind 0 1, .die 2]
    let σ := run (plain 300) l { pairOf none with slots := fun _ => [] }
    σ.slots 0 = [.call 4, .bind ⟨1, some 1⟩] ∧ bound (plain 300) 0 1 l 0 = 1 ∧ listening 0 4 l 0 = 1
    ∧ (assign (plain 300) 5 0 (.leaf 9) σ).map (fun r => (r.1, r.2.calls, [0, 1, 2].map r.2.val))
      = some (true, [(4, .leaf 9, .leaf 0)], [.leaf 9, .leaf 9, .leaf 0]) := by
  decide

/-- The hypotheses of `C56_calls_order` are met: two callbacks around a binding of an attribute without events, in the order of their
connection. -/
example : let l := [Op.listen 0 4, .bind 0 1, .listen 0 3, .listen 0 5, .ignore 0 5]
    let e := { plain 300 with evented := fun n => n == 0 }
    let σ := run e l { pairOf none with slots := fun _ => [] }
    (∀ b, .bind b ∈ σ.slots 0 → e.evented b.tgt = false) ∧ σ.slots 0 = [.call 4, .bind ⟨1, some 1⟩, .call 3]
    ∧ (assign e 2 0 (.leaf 9) σ).map (fun r => (r.1, r.2.calls, r.2.val 1))
      = some (true, [(4, .leaf 9, .leaf 0), (3, .leaf 9, .leaf 0)], .leaf 9) := by
  refine ⟨fun b h => ?_, by decide, by decide⟩
  have h' : Slot.bind b ∈ [Slot.call 4, .bind ⟨1, some 1⟩, .call 3] := h
  simp only [List.mem_cons, List.not_mem_nil, reduceCtorEq, Slot.bind.injEq, or_false, false_or] at h'
  rw [h']
  rfl

end Psygnal.Bind
