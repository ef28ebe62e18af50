import Verif.Props.Block
import Verif.Props.SetBlock

/-!
# C100: what every block keeps

If every block that the threads make under the lock keeps something true when made alone, it is true whenever nobody holds the lock, and whoever holds it began
with it.  In particular the items of one `extend` stay together, and what is taken from one value of a dictionary and added to another is not lost.
-/

namespace Psygnal.DcC

/-- Dictionaries: what every block keeps. -/
theorem C100_dict_invariant (I : Dict → Prop) (d : Dict) (hd : I d) (prog : Nat → List Ev → Option Code)
    (hp : ∀ t l c, prog t l = some c → ∀ x, I x → I (alone t x c).2) (s : List Nat) :
    let p := Blk.run sys (code prog) s (start d)
    (p.lock = none → I p.data) ∧ ∀ t, p.lock = some t → ∃ l d1 c k r, I d1 ∧ prog t (l.filter (fun e => e.thread == t)) = some c ∧ p.log = l ++ k ∧
      k ++ r = (alone t d1 c).1 := by
  intro p
  have ho : ∀ l x, OneByOne prog d l x → I x := by
    intro l x h
    induction h with
    | nil => exact hd
    | @block l d1 t c _ hc ih => exact hp _ _ _ hc _ ih
  refine ⟨fun hn => ho _ _ (C100_dict d prog s hn), fun t hl => ?_⟩
  obtain ⟨l, d1, c, k, r, h1, h2, h3, h4⟩ := C100_dict_held d prog s t hl
  exact ⟨l, d1, c, k, r, ho _ _ h1, h2, h3, h4⟩

/-- Take `n` from the value of one key and add it to that of another, if there is that much (user code around
`/repo/src/psygnal/containers/_evented_dict.py:59-60,176-186`). -/
def transfer (a b n : Nat) : Code :=
  .get a fun
    | none => .ret
    | some x => .get b fun
      | none => .ret
      | some y => if n ≤ x then .set a (x - n) fun _ => .set b (y + n) fun _ => .ret else .ret

/-- An assignment made alone (`/repo/src/psygnal/containers/_evented_dict.py:176-186`). -/
theorem alone_set (t : Nat) (d : Dict) (k v : Nat) (c : Bool → Code) :
    (alone t d (.set k v c)).2 = (alone t (fun m => if m = k then some v else d m) (c false)).2 := by
  show (match d k with
    | none => _
    | some o => if v = o then _ else _ : List Ev × Dict).2 = _
  cases hd : d k with
  | none => rfl
  | some o =>
    dsimp only
    split
    · rename_i h
      have : (fun m => if m = k then some v else d m) = d := by
        funext m
        by_cases hm : m = k
        · rw [if_pos hm, hm, hd, h]
        · rw [if_neg hm]
      rw [this]
    · rfl

theorem alone_transfer (t : Nat) (d : Dict) (a b n x y : Nat) (ha : d a = some x) (hb : d b = some y) :
    (alone t d (transfer a b n)).2 = if n ≤ x then fun m => if m = b then some (y + n) else if m = a then some (x - n) else d m else d := by
  show (alone t d (match d a with
    | none => .ret
    | some x => .get b fun
      | none => .ret
      | some y => if n ≤ x then .set a (x - n) fun _ => .set b (y + n) fun _ => .ret else .ret)).2 = _
  rw [ha]
  show (alone t d (match d b with
    | none => .ret
    | some y => if n ≤ x then .set a (x - n) fun _ => .set b (y + n) fun _ => .ret else .ret)).2 = _
  rw [hb]
  dsimp only
  split
  · rw [alone_set, alone_set]; rfl
  · rfl

/-- Transfers between two keys in blocks: the sum of the two values stays, and no other key changes. -/
theorem C100_transfer (d : Dict) (a b x y : Nat) (hab : a ≠ b) (ha : d a = some x) (hb : d b = some y) (prog : Nat → List Ev → Option Code)
    (hp : ∀ t l c, prog t l = some c → ∃ n, c = transfer a b n ∨ c = transfer b a n) (s : List Nat) :
    let p := Blk.run sys (code prog) s (start d)
    p.lock = none → ∃ x' y', p.data a = some x' ∧ p.data b = some y' ∧ x' + y' = x + y ∧ ∀ k, k ≠ a → k ≠ b → p.data k = d k := by
  refine (C100_dict_invariant (fun e => ∃ x' y', e a = some x' ∧ e b = some y' ∧ x' + y' = x + y ∧ ∀ k, k ≠ a → k ≠ b → e k = d k) d
    ⟨x, y, ha, hb, rfl, fun _ _ _ => rfl⟩ prog ?_ s).1
  rintro t l c hc e ⟨x', y', h1, h2, h3, h4⟩
  obtain ⟨n, rfl | rfl⟩ := hp _ _ _ hc
  · rw [alone_transfer t e a b n x' y' h1 h2]
    split
    · refine ⟨x' - n, y' + n, by simp [hab], by simp, by omega, fun k ka kb => ?_⟩
      dsimp only
      rw [if_neg kb, if_neg ka]; exact h4 k ka kb
    · exact ⟨x', y', h1, h2, h3, h4⟩
  · rw [alone_transfer t e b a n y' x' h2 h1]
    split
    · refine ⟨x' + n, y' - n, by simp, by simp [Ne.symm hab], by omega, fun k ka kb => ?_⟩
      dsimp only
      rw [if_neg ka, if_neg kb]; exact h4 k ka kb
    · exact ⟨x', y', h1, h2, h3, h4⟩

/-- Two values, 10 each. -/
def exTen : Dict := fun k => if k < 2 then some 10 else none

/-- Two threads transfer once. -/
def exTwo (t : Nat) : Code := if t < 2 then transfer 0 1 (t + 1) else .ret

/-- The lock of C99 is not enough: two transfers change the sum. -/
theorem C100_transfer_refuted : ∃ l, let p := Lk.run step inside l (init exTen exTwo, none)
    p.2 = none ∧ p.1.dict 0 = some 9 ∧ p.1.dict 1 = some 13 :=
  ⟨0 :: List.replicate 14 1 ++ List.replicate 13 0, by decide +kernel⟩

/-- Thread 0 transfers 3, thread 1 transfers 4 back; then each transfers once more. -/
def exTr (t : Nat) (l : List Ev) : Option Code :=
  if l.length < 20 then match t with
    | 0 => some (transfer 0 1 3)
    | 1 => some (transfer 1 0 4)
    | _ => none
  else none

theorem exTr_transfer (t : Nat) (l : List Ev) (c : Code) (h : exTr t l = some c) : ∃ n, c = transfer 0 1 n ∨ c = transfer 1 0 n := by
  unfold exTr at h
  split at h
  · split at h
    · exact ⟨_, .inl (Option.some.inj h).symm⟩
    · exact ⟨_, .inr (Option.some.inj h).symm⟩
    · cases h
  · cases h

/-- Thread 1 tries while thread 0 is in its block. -/
def exTrS : List Nat := 0 :: List.replicate 14 1 ++ List.replicate 14 0 ++ List.replicate 30 1 ++ List.replicate 15 0

example : let p := Blk.run sys (code exTr) exTrS (start exTen)
    p.lock = none ∧ p.data 0 = some 12 ∧ p.data 1 = some 8 ∧ ∃ x y, p.data 0 = some x ∧ p.data 1 = some y ∧ x + y = 20 ∧ ∀ k, k ≠ 0 → k ≠ 1 → p.data k = exTen k :=
  ⟨by decide +kernel, by decide +kernel, by decide +kernel, C100_transfer exTen 0 1 10 10 (by decide) rfl rfl exTr exTr_transfer exTrS (by decide +kernel)⟩

end Psygnal.DcC

namespace Psygnal.LsC

/-- Lists: what every block keeps. -/
theorem C100_list_invariant (I : List Nat → Prop) (d : List Nat) (hd : I d) (prog : Nat → List Ev → Option Code)
    (hp : ∀ t l c, prog t l = some c → ∀ x, I x → I (alone t x c).2) (s : List Nat) :
    let p := Blk.run sys (code prog) s (start d)
    (p.lock = none → I p.data) ∧ ∀ t, p.lock = some t → ∃ l d1 c k r, I d1 ∧ prog t (l.filter (fun e => e.thread == t)) = some c ∧ p.log = l ++ k ∧
      k ++ r = (alone t d1 c).1 := by
  intro p
  have ho : ∀ l x, OneByOne prog d l x → I x := by
    intro l x h
    induction h with
    | nil => exact hd
    | @block l d1 t c _ hc ih => exact hp _ _ _ hc _ ih
  refine ⟨fun hn => ho _ _ (C100_list d prog s hn), fun t hl => ?_⟩
  obtain ⟨l, d1, c, k, r, h1, h2, h3, h4⟩ := C100_list_held d prog s t hl
  exact ⟨l, d1, c, k, r, ho _ _ h1, h2, h3, h4⟩

/-- `l.extend(vs)` of `collections.abc.MutableSequence`, which `EventedList` inherits (`/repo/src/psygnal/containers/_evented_list.py:89,134`), and `l += vs`
(`:230-233`): append each. -/
def extend (vs : List Nat) (c : Code) : Code := vs.foldr append c

theorem alone_extend (t : Nat) (vs : List Nat) : ∀ l : List Nat, (alone t l (extend vs .ret)).2 = l ++ vs ∧
    (alone t l (extend vs .ret)).1.filterMap new = (vs.zipIdx l.length).map (fun x => ((x.2 : Int), x.1)) := by
  induction vs with
  | nil => exact fun l => ⟨(List.append_nil l).symm, rfl⟩
  | cons v vs ih =>
    intro l
    have hi : Py.insert l l.length v = l ++ [v] := by
      unfold Py.insert Py.insertPos
      rw [if_neg (by omega)]
      simp
    have h : alone t l (extend (v :: vs) .ret) = (.size t l.length :: .callI t l.length v :: .inserting t l.length :: .ins t l.length v ::
        .inserted t l.length v :: (alone t (l ++ [v]) (extend vs .ret)).1, (alone t (l ++ [v]) (extend vs .ret)).2) := by
      show alone t l (append v (extend vs .ret)) = _
      rw [append, alone_len]
      show (Ev.size t l.length :: .callI t l.length v :: .inserting t l.length :: .ins t l.length v ::
        .inserted t l.length v :: (alone t (Py.insert l l.length v) (extend vs .ret)).1, (alone t (Py.insert l l.length v) (extend vs .ret)).2) = _
      rw [hi]
    obtain ⟨h1, h2⟩ := ih (l ++ [v])
    rw [h]
    refine ⟨by rw [h1]; simp, ?_⟩
    simp only [List.filterMap_cons, new, List.zipIdx_cons, List.map_cons]
    rw [h2]
    simp

/-- `extend` in a block: the items of each call come at the end and stay together, in the order in which the blocks were made, and the listeners are told the
index that each has. -/
theorem C100_extend (d : List Nat) (prog : Nat → List Ev → Option Code) (s : List Nat) (hp : ∀ t l c, prog t l = some c → ∃ vs, c = extend vs .ret) :
    let p := Blk.run sys (code prog) s (start d)
    p.lock = none → ∃ bs : List (Nat × List Nat), (∀ b ∈ bs, ∃ l, prog b.1 l = some (extend b.2 .ret)) ∧ p.data = d ++ (bs.map Prod.snd).flatten ∧
      p.log.filterMap new = ((bs.map Prod.snd).flatten.zipIdx d.length).map (fun x => ((x.2 : Int), x.1)) := by
  intro p hn
  have h := C100_list d prog s hn
  generalize p.log = l at h ⊢
  generalize p.data = x at h ⊢
  induction h with
  | nil => exact ⟨[], (fun _ h => nomatch h), (List.append_nil d).symm, rfl⟩
  | @block l d1 t c _ hc ih =>
    obtain ⟨vs, rfl⟩ := hp _ _ _ hc
    obtain ⟨bs, h0, h1, h2⟩ := ih
    obtain ⟨h3, h4⟩ := alone_extend t vs d1
    refine ⟨bs ++ [(t, vs)], fun b hb => ?_, ?_, ?_⟩
    · rcases List.mem_append.1 hb with hb | hb
      · exact h0 b hb
      · rw [List.mem_singleton.1 hb]; exact ⟨_, hc⟩
    · rw [h3, h1]; simp
    · rw [List.filterMap_append, h2, h4, h1]
      simp [List.zipIdx_append]

/-- Each of two threads extends by two items. -/
def exE (t : Nat) : Code := if t < 2 then extend [10 * t + 6, 10 * t + 7] .ret else .ret

/-- The lock of C99 is not enough: the items of two calls are mixed. -/
theorem C100_extend_refuted : ∃ l, let p := Lk.run step inside l (init [5] exE, none)
    p.2 = none ∧ p.1.data = [5, 6, 16, 7, 17] :=
  ⟨List.replicate 5 0 ++ List.replicate 5 1 ++ List.replicate 5 0 ++ List.replicate 5 1, by decide +kernel⟩

/-- The same in blocks; thread 0 then extends once more. -/
def exEB (t : Nat) (l : List Ev) : Option Code := if l.length < 20 - 10 * t then some (extend [10 * t + 6, 10 * t + 7 + l.length] .ret) else none

theorem exEB_extend (t : Nat) (l : List Ev) (c : Code) (h : exEB t l = some c) : ∃ vs, c = extend vs .ret := by
  unfold exEB at h
  split at h
  · exact ⟨_, (Option.some.inj h).symm⟩
  · cases h

/-- As in `C100_extend_refuted`, with more steps. -/
def exES : List Nat := List.replicate 5 0 ++ List.replicate 5 1 ++ List.replicate 6 0 ++ List.replicate 11 1 ++ List.replicate 11 0

example : let p := Blk.run sys (code exEB) exES (start [5])
    p.lock = none ∧ p.data = [5, 6, 7, 16, 17, 6, 17] ∧ ∃ bs : List (Nat × List Nat), (∀ b ∈ bs, ∃ l, exEB b.1 l = some (extend b.2 .ret)) ∧
      p.data = [5] ++ (bs.map Prod.snd).flatten ∧ p.log.filterMap new = ((bs.map Prod.snd).flatten.zipIdx 1).map (fun x => ((x.2 : Int), x.1)) :=
  ⟨by decide +kernel, by decide +kernel, C100_extend [5] exEB exES exEB_extend (by decide +kernel)⟩

/-- `C100_list_invariant`: the first item stays. -/
example : (Blk.run sys (code exEB) exES (start [5])).data.head? = some 5 :=
  (C100_list_invariant (fun l => l.head? = some 5) [5] rfl exEB (fun t l c hc x hx => by
    obtain ⟨vs, rfl⟩ := exEB_extend t l c hc
    rw [(alone_extend t vs x).1, List.head?_append, hx]; rfl) exES).1 (by decide +kernel)

end Psygnal.LsC

namespace Psygnal.StC

/-- Sets: what every block keeps. -/
theorem C100_set_invariant (I : List Nat → Prop) (d : List Nat) (hn : d.Nodup) (hd : I d) (prog : Nat → List Seen → Option Code)
    (hp : ∀ t l c, prog t l = some c → ∀ x, I x → I (alone t x c).2) (s : List Nat) :
    let p := Blk.run sys (blocks prog) s (fresh d)
    (p.lock = none → I p.data.set) ∧ ∀ t, p.lock = some t → ∃ l d1 c k r, I d1 ∧ prog t (l.filter (fun e => e.thread == t)) = some c ∧
      p.log.filterMap Ev.seen = l ++ k ∧ k ++ r = (alone t d1 c).1 := by
  intro p
  have ho : ∀ l x, OneByOne prog d l x → I x := by
    intro l x h
    induction h with
    | nil => exact hd
    | @block l d1 t c _ hc ih => exact hp _ _ _ hc _ ih
  refine ⟨fun hq => ho _ _ (C100_set d hn prog s hq).1, fun t hl => ?_⟩
  obtain ⟨l, d1, c, k, r, h1, h2, h3, h4⟩ := C100_set_held d hn prog s t hl
  exact ⟨l, d1, c, k, r, ho _ _ h1, h2, h3, h4⟩

theorem alone_discard (t : Nat) (d : List Nat) (x : Nat) (c : Code) : (alone t d (.call (.discard x) c)).2 = (alone t (d.erase x) c).2 := by
  by_cases h : x ∈ d
  · simp [alone, h, Call.op, ES.step, ES.discard, ES.emitChange, seq, ES.deliver, ES.drain, Py.M.bind, Py.M.get, Py.M.modify, Py.M.pure]
  · simp [alone, h, Call.op, ES.step, ES.discard, Py.M.bind, Py.M.get, Py.M.modify, List.erase_of_not_mem]

theorem alone_add (t : Nat) (d : List Nat) (x : Nat) (c : Code) : (alone t d (.call (.add x) c)).2 = (alone t (if x ∈ d then d else d ++ [x]) c).2 := by
  by_cases h : x ∈ d
  · simp [alone, h, Call.op, ES.step, ES.add, Py.M.bind, Py.M.get, Py.M.modify]
  · simp [alone, h, Call.op, ES.step, ES.add, ES.emitChange, seq, ES.deliver, ES.drain, Py.M.bind, Py.M.get, Py.M.modify, Py.M.pure]

/-- `if a in s: s.discard(a); s.add(b)` (user code around `/repo/src/psygnal/containers/_evented_set.py:38-71`). -/
def switch (a b : Nat) : Code := .has a fun h => if h then .call (.discard a) (.call (.add b) .ret) else .ret

/-- Switching between two items in blocks: of the two exactly one is in the set, whenever nobody holds the lock. -/
theorem C100_set_switch (d : List Nat) (hn : d.Nodup) (a b : Nat) (hab : a ≠ b) (hd : a ∈ d ↔ b ∉ d) (prog : Nat → List Seen → Option Code)
    (hp : ∀ t l c, prog t l = some c → c = switch a b ∨ c = switch b a) (s : List Nat) :
    let p := Blk.run sys (blocks prog) s (fresh d)
    p.lock = none → (a ∈ p.data.set ↔ b ∉ p.data.set) := by
  have key : ∀ t (x : List Nat), x.Nodup → ∀ u v, u ≠ v → (u ∈ x ↔ v ∉ x) →
      (alone t x (switch u v)).2.Nodup ∧ (u ∈ (alone t x (switch u v)).2 ↔ v ∉ (alone t x (switch u v)).2) := by
    intro t x hx u v huv h
    by_cases hu : u ∈ x
    · have hv : v ∉ x := h.1 hu
      have : (alone t x (switch u v)).2 = x.erase u ++ [v] := by
        show (alone t x (if decide (u ∈ x) then .call (.discard u) (.call (.add v) .ret) else .ret)).2 = _
        rw [decide_eq_true hu, if_pos rfl, alone_discard, alone_add, if_neg (fun h' => hv (List.mem_of_mem_erase h'))]
        rfl
      rw [this]
      refine ⟨List.nodup_append.mpr ⟨hx.erase u, by simp, fun a ha b hb e => ?_⟩, ?_⟩
      · rw [List.mem_singleton.1 hb] at e
        exact hv (e ▸ List.mem_of_mem_erase ha)
      · simp [huv, hx.mem_erase_iff]
    · have : (alone t x (switch u v)).2 = x := by
        show (alone t x (if decide (u ∈ x) then .call (.discard u) (.call (.add v) .ret) else .ret)).2 = _
        rw [decide_eq_false hu]; rfl
      rw [this]
      exact ⟨hx, h⟩
  intro p hl
  refine ((C100_set_invariant (fun x => x.Nodup ∧ (a ∈ x ↔ b ∉ x)) d hn ⟨hn, hd⟩ prog (fun t l c hc x hx => ?_) s).1 hl).2
  rcases hp _ _ _ hc with rfl | rfl
  · exact key t x hx.1 a b hab hx.2
  · have hs : ∀ y : List Nat, (b ∈ y ↔ a ∉ y) ↔ (a ∈ y ↔ b ∉ y) := fun y => by
      by_cases h1 : a ∈ y <;> by_cases h2 : b ∈ y <;> simp [h1, h2]
    have := key t x hx.1 b a (Ne.symm hab) ((hs x).2 hx.2)
    exact ⟨this.1, (hs _).1 this.2⟩

/-- Each of two threads switches once, the first from 1 to 2, the second back. -/
def exSw (t : Nat) (l : List Seen) : Option Code := if l = [] then some (if t = 0 then switch 1 2 else switch 2 1) else none

theorem exSw_switch (t : Nat) (l : List Seen) (c : Code) (h : exSw t l = some c) : c = switch 1 2 ∨ c = switch 2 1 := by
  unfold exSw at h
  split at h
  · have h := Option.some.inj h
    split at h
    · exact .inl h.symm
    · exact .inr h.symm
  · cases h

/-- Thread 1 tries while thread 0 is in its block. -/
def exSwS : List Nat := [0, 0, 0, 1, 0] ++ List.replicate 10 0 ++ List.replicate 3 1 ++ List.replicate 12 1

example : let p := Blk.run sys (blocks exSw) exSwS (fresh [1, 7])
    p.lock = none ∧ p.data.set = [7, 1] ∧ (1 ∈ p.data.set ↔ 2 ∉ p.data.set) :=
  ⟨by decide +kernel, by decide +kernel, C100_set_switch [1, 7] (by decide) 1 2 (by decide) (by decide) exSw exSw_switch exSwS (by decide +kernel)⟩

/-- One thread switches from 1 to 2, the other too and then back. -/
def exSw2 : Nat → Code :=
  exP (switch 1 2) (.has 1 fun h => if h then .call (.discard 1) (.call (.add 2) (switch 2 1)) else .ret)

/-- The lock of C99 is not enough: in the end both are there. -/
theorem C100_set_switch_refuted : ∃ l, let p := Lk.run step inside l (init [1, 7] exSw2, none)
    p.2 = none ∧ p.1.thr 0 = .run .ret ∧ p.1.thr 1 = .run .ret ∧ p.1.data.set = [7, 2, 1] :=
  ⟨0 :: List.replicate 14 1 ++ List.replicate 3 0 ++ List.replicate 6 1 ++ List.replicate 6 0 ++ List.replicate 6 1, by decide +kernel, by rfl, by rfl, by decide +kernel⟩

end Psygnal.StC
