import Verif.DictConcLemmas
import Verif.EventedDictLemmas

/-! # Lemmas for C97: a dictionary used by several threads in turns and the dictionary of C30 -/
namespace Psygnal.DcC

/-- What the listeners are told by an event, with what the dictionary holds at that moment. -/
def telling (d : Dict) : Ev → List (ED.Ev Nat Nat × Dict)
  | .adding _ k => [(.adding k, d)]
  | .added _ k v => [(.added k v, d)]
  | .changing _ k => [(.changing k, d)]
  | .changed _ k o v => [(.changed k o v, d)]
  | .removing _ k => [(.removing k, d)]
  | .removed _ k i => [(.removed k i, d)]
  | _ => []

/-- What the listeners are told, each time with what the dictionary holds at that moment. -/
def tellings (d : Dict) : List Ev → List (ED.Ev Nat Nat × Dict)
  | [] => []
  | e :: l => telling d e ++ tellings (fun k => value d k [e]) l

/-- The assignments and deletions in the order in which they begin, in the model of C30 (`/repo/src/psygnal/containers/_evented_dict.py:176-192`). -/
def calls (l : List Ev) : List (ED.Op Nat Nat) := l.filterMap fun e => match e with
  | .call _ k v => some (.setItem k v)
  | .callD _ k => some (.delItem k)
  | _ => none

/-- How the operations end, in the order in which they do: they return or raise `KeyError`. -/
def results (l : List Ev) : List (Except Py.Err (ED.Res Nat Nat)) := l.filterMap fun e => match e with
  | .added .. | .changed .. | .removed .. | .same .. => some (.ok .unit)
  | .fail .. => some (.error .key)
  | _ => none

/-- An evented dictionary without base types, with listeners that listen (`/repo/src/psygnal/containers/_evented_dict.py:44-51,71-78,173`). -/
def seq : ED.Cfg Nat Nat where
  hashable := fun _ => true
  okType := fun _ => true
  fails := fun _ => false

/-! ## Whole operations -/

/-- The dictionary, what was told, how operations ended. -/
structure A where
  dict : Dict
  told : List (ED.Ev Nat Nat × Dict)
  res : List (Except Py.Err (ED.Res Nat Nat))

/-- The callbacks are told (`/repo/src/psygnal/containers/_evented_dict.py:178-192`). -/
def A.tell (e : ED.Ev Nat Nat) (s : A) : A := { s with told := s.told ++ [(e, s.dict)] }

/-- An item is stored (`/repo/src/psygnal/containers/_evented_dict.py:54`). -/
def A.put (k v : Nat) (s : A) : A := { s with dict := fun m => if m = k then some v else s.dict m }

/-- An item is dropped (`/repo/src/psygnal/containers/_evented_dict.py:57`). -/
def A.drop (k : Nat) (s : A) : A := { s with dict := fun m => if m = k then none else s.dict m }

/-- An operation returns (`/repo/src/psygnal/containers/_evented_dict.py:176-192`). -/
def A.ok (s : A) : A := { s with res := s.res ++ [.ok .unit] }

/-- An operation raises `KeyError` (`/repo/src/psygnal/containers/_evented_dict.py:182,189,191`). -/
def A.bad (s : A) : A := { s with res := s.res ++ [.error .key] }

/-- What an event does, tells and ends (`/repo/src/psygnal/containers/_evented_dict.py:176-192`). -/
def A.on (s : A) (e : Ev) : A := match e with
  | .adding _ k => s.tell (.adding k)
  | .added _ k v => (s.tell (.added k v)).ok
  | .changing _ k => s.tell (.changing k)
  | .changed _ k o v => (s.tell (.changed k o v)).ok
  | .removing _ k => s.tell (.removing k)
  | .removed _ k i => (s.tell (.removed k i)).ok
  | .put _ k v => s.put k v
  | .took _ k (some _) => s.drop k
  | .same .. => s.ok
  | .fail .. => s.bad
  | _ => s

/-- A new key (`/repo/src/psygnal/containers/_evented_dict.py:178-180`). -/
def A.add (k v : Nat) (s : A) : A := (((s.tell (.adding k)).put k v).tell (.added k v)).ok

/-- Another value (`/repo/src/psygnal/containers/_evented_dict.py:184-186`). -/
def A.change (k v o : Nat) (s : A) : A := (((s.tell (.changing k)).put k v).tell (.changed k o v)).ok

/-- A key that is there (`/repo/src/psygnal/containers/_evented_dict.py:182-186`). -/
def A.old (k v : Nat) (s : A) : A := match s.dict k with
  | none => s.bad
  | some o => if v = o then s.ok else s.change k v o

/-- `d[k] = v` (`/repo/src/psygnal/containers/_evented_dict.py:176-186`). -/
def A.set (k v : Nat) (s : A) : A := if (s.dict k).isSome then s.old k v else s.add k v

/-- The end of `del d[k]` (`/repo/src/psygnal/containers/_evented_dict.py:191-192`). -/
def A.take (k i : Nat) (s : A) : A := if (s.dict k).isSome then ((s.drop k).tell (.removed k i)).ok else s.bad

/-- `del d[k]` (`/repo/src/psygnal/containers/_evented_dict.py:188-192`). -/
def A.del (k : Nat) (s : A) : A := match s.dict k with
  | none => s.bad
  | some i => (s.tell (.removing k)).take k i

/-- A whole operation; the others are not used (`/repo/src/psygnal/containers/_evented_dict.py:176-192`). -/
def A.call (s : A) : ED.Op Nat Nat → A
  | .setItem k v => s.set k v
  | .delItem k => s.del k
  | _ => s

/-- What the rest of the operation does. -/
def Ctl.fin : Ctl → A → A
  | .run _, s => s
  | .has k v _, s => s.set k v
  | .adding k v _, s => s.add k v
  | .putNew k v _, s => ((s.put k v).tell (.added k v)).ok
  | .added k v _, s => (s.tell (.added k v)).ok
  | .old k v _, s => s.old k v
  | .same _ _ _, s => s.ok
  | .changing k v o _, s => s.change k v o
  | .putOld k v o _, s => ((s.put k v).tell (.changed k o v)).ok
  | .changed k v o _, s => (s.tell (.changed k o v)).ok
  | .item k _, s => s.del k
  | .removing k i _, s => (s.tell (.removing k)).take k i
  | .take k i _, s => s.take k i
  | .removed k i _, s => (s.tell (.removed k i)).ok
  | .raise _ _ _, s => s.bad

/-- In an operation. -/
def Ctl.busy : Ctl → Bool
  | .run _ => false
  | _ => true

theorem busy_key {x : Ctl} (h : x.busy = true) : ∃ k, x.key = some k := by
  cases x with
  | run c => cases h
  | _ => exact ⟨_, rfl⟩

/-- A step of an operation does part of it. -/
theorem next_fin {s : A} {t : Nat} {x y : Ctl} {e : Ev} (h : next s.dict t x = some (e, y)) (hx : x.busy = true) : y.fin (s.on e) = x.fin s := by
  cases x with
  | run c => cases hx
  | has k v c =>
    cases h
    show (if (s.dict k).isSome then Ctl.old k v c else .adding k v c).fin s = s.set k v
    unfold A.set
    split <;> rfl
  | old k v c =>
    cases h
    show (match s.dict k with
      | none => Ctl.raise k (some v) c
      | some o => if v = o then .same k v c else .changing k v o c).fin s = s.old k v
    unfold A.old
    cases s.dict k with
    | none => rfl
    | some o =>
      show (if v = o then Ctl.same k v c else .changing k v o c).fin s = if v = o then s.ok else s.change k v o
      split <;> rfl
  | item k c =>
    cases h
    show (match s.dict k with
      | none => Ctl.raise k none c
      | some i => .removing k i c).fin s = s.del k
    unfold A.del
    cases s.dict k <;> rfl
  | take k i c =>
    cases h
    show (if (s.dict k).isSome then Ctl.removed k i c else .raise k none c).fin (s.on (.took t k (s.dict k))) = s.take k i
    unfold A.take
    cases s.dict k <;> rfl
  | _ => cases h; rfl

/-- Beginning an operation begins all of it. -/
theorem next_idle {s : A} {t : Nat} {x y : Ctl} {e : Ev} (h : next s.dict t x = some (e, y)) (hx : x.busy = false) : s.on e = s ∧
    ((calls [e] = [] ∧ y.busy = false) ∨ ∃ o, calls [e] = [o] ∧ y.busy = true ∧ y.fin s = s.call o) := by
  cases x with
  | run c =>
    cases c with
    | ret => cases h
    | set k v c => cases h; exact ⟨rfl, .inr ⟨_, rfl, rfl, rfl⟩⟩
    | del k c => cases h; exact ⟨rfl, .inr ⟨_, rfl, rfl, rfl⟩⟩
    | get k c => cases h; exact ⟨rfl, .inl ⟨rfl, rfl⟩⟩
  | _ => cases hx

theorem next_no_call {d : Dict} {t : Nat} {x y : Ctl} {e : Ev} (h : next d t x = some (e, y)) (hx : x.busy = true) : calls [e] = [] := by
  cases x with
  | run c => cases hx
  | _ => cases h; rfl

theorem idle_fin {x : Ctl} (hx : x.busy = false) (s : A) : x.fin s = s := by
  cases x with
  | run c => rfl
  | _ => cases hx

/-! ## In turns -/

/-- What the events did and told (`/repo/src/psygnal/containers/_evented_dict.py:176-192`). -/
def now (d : Dict) (l : List Ev) : A := l.foldl A.on ⟨d, [], []⟩

/-- The same if the operations are done one after the other (`/repo/src/psygnal/containers/_evented_dict.py:176-192`). -/
def all (d : Dict) (l : List Ev) : A := (calls l).foldl A.call ⟨d, [], []⟩

theorem calls_append (l m : List Ev) : calls (l ++ m) = calls l ++ calls m := by simp [calls]

theorem now_snoc (d : Dict) (l : List Ev) (e : Ev) : now d (l ++ [e]) = (now d l).on e := by simp [now, List.foldl_append]

theorem on_dict (s : A) (e : Ev) : (s.on e).dict = e.on s.dict := by
  cases e with
  | took t k x => cases x <;> rfl
  | _ => rfl

/-- At most one thread is in an operation (`/repo/src/psygnal/containers/_evented_dict.py:176-192`). -/
def One' (σ : St) : Prop := ∀ t u, (σ.thr t).busy = true → (σ.thr u).busy = true → t = u

/-- Operations do not overlap: what is under way will have done all of it at its end (`/repo/src/psygnal/containers/_evented_dict.py:176-192`). -/
structure Turns (d : Dict) (σ : St) : Prop where
  dict : (now d σ.log).dict = σ.dict
  busy : ∀ t, (σ.thr t).busy = true → (σ.thr t).fin (now d σ.log) = all d σ.log
  rest : (∀ t, (σ.thr t).busy = false) → now d σ.log = all d σ.log

theorem turns_step {d : Dict} {σ : St} (h : Turns d σ) (t : Nat) (h1 : One' σ) (h2 : One' (step σ t)) : Turns d (step σ t) := by
  cases hn : next σ.dict t (σ.thr t) with
  | none => rw [step_none hn]; exact h
  | some p =>
    obtain ⟨e, x⟩ := p
    rw [step_some hn] at h2 ⊢
    have hd : (now d (σ.log ++ [e])).dict = e.on σ.dict := by rw [now_snoc, on_dict, h.dict]
    rw [← h.dict] at hn
    by_cases hk : (σ.thr t).busy = true
    · have hown := next_fin hn hk
      rw [h.busy t hk] at hown
      have hc : all d (σ.log ++ [e]) = all d σ.log := by
        unfold all; rw [calls_append, next_no_call hn hk, List.append_nil]
      refine ⟨hd, fun u hu => ?_, fun hr => ?_⟩
      · have hu : (if u = t then x else σ.thr u).busy = true := hu
        show (if u = t then x else σ.thr u).fin (now d (σ.log ++ [e])) = all d (σ.log ++ [e])
        by_cases hut : u = t
        · rw [if_pos hut, hc, now_snoc]; exact hown
        · rw [if_neg hut] at hu
          exact absurd (h1 u t hu hk) hut
      · have hx : x.busy = false := by simpa using hr t
        show now d (σ.log ++ [e]) = all d (σ.log ++ [e])
        rw [hc, ← hown, idle_fin hx, now_snoc]
    · have hk : (σ.thr t).busy = false := by simpa using hk
      obtain ⟨hs, h3 | ⟨o, h3, hb, h4⟩⟩ := next_idle hn hk
      · have ha : all d (σ.log ++ [e]) = all d σ.log := by
          unfold all; rw [calls_append, h3.1, List.append_nil]
        refine ⟨hd, fun u hu => ?_, fun hr => ?_⟩
        · have hu : (if u = t then x else σ.thr u).busy = true := hu
          show (if u = t then x else σ.thr u).fin (now d (σ.log ++ [e])) = all d (σ.log ++ [e])
          rw [ha, now_snoc, hs]
          by_cases hut : u = t
          · rw [if_pos hut, h3.2] at hu; cases hu
          · rw [if_neg hut] at hu ⊢
            exact h.busy u hu
        · show now d (σ.log ++ [e]) = all d (σ.log ++ [e])
          rw [ha, now_snoc, hs]
          refine h.rest fun w => ?_
          by_cases hwt : w = t
          · rw [hwt]; exact hk
          · have : (if w = t then x else σ.thr w).busy = false := hr w
            rwa [if_neg hwt] at this
      · have hrest := h.rest (fun w => by
          cases hw : (σ.thr w).busy with
          | false => rfl
          | true =>
            have hwt : w ≠ t := fun e => by rw [e, hk] at hw; cases hw
            have := h2 t w (show (if t = t then x else σ.thr t).busy = true from by rw [if_pos rfl]; exact hb)
              (show (if w = t then x else σ.thr w).busy = true from by rw [if_neg hwt]; exact hw)
            exact absurd this.symm hwt)
        refine ⟨hd, fun u hu => ?_, fun hr => ?_⟩
        · have hu : (if u = t then x else σ.thr u).busy = true := hu
          show (if u = t then x else σ.thr u).fin (now d (σ.log ++ [e])) = all d (σ.log ++ [e])
          by_cases hut : u = t
          · rw [if_pos hut, now_snoc, hs, h4, hrest]
            unfold all; rw [calls_append, h3, List.foldl_append]; rfl
          · have := h2 u t (show (if u = t then x else σ.thr u).busy = true from hu)
              (show (if t = t then x else σ.thr t).busy = true from by rw [if_pos rfl]; exact hb)
            exact absurd this hut
        · have : (if t = t then x else σ.thr t).busy = false := hr t
          rw [if_pos rfl, hb] at this
          cases this

theorem turns_from {d : Dict} : ∀ (s : List Nat) {σ : St}, Turns d σ → (∀ p q, s = p ++ q → One' (run p σ)) → Turns d (run s σ)
  | [], _, h, _ => h
  | t :: s, _, h, h1 => turns_from s (turns_step h t (h1 [] (t :: s) rfl) (h1 [t] s rfl)) (fun p q e => h1 (t :: p) q (by rw [e]; rfl))

theorem turns_run {d : Dict} {prog : Nat → Code} {s : List Nat}
    (h : ∀ p q, s = p ++ q → ∀ t u k m, InOp t k (run p (init d prog)).log → InOp u m (run p (init d prog)).log → t = u) : Turns d (run s (init d prog)) :=
  turns_from s ⟨rfl, fun _ hk => (nomatch (show false = true from hk)), fun _ => rfl⟩ (fun p q e t u ht hu => by
    obtain ⟨k, hk⟩ := busy_key ht
    obtain ⟨m, hm⟩ := busy_key hu
    exact h p q e t u k m (inOp_of_key hk) (inOp_of_key hm))

/-! ## What happened and what was told -/

theorem now_parts (l : List Ev) : ∀ (s : A), (l.foldl A.on s).told = s.told ++ tellings s.dict l ∧ (l.foldl A.on s).res = s.res ++ results l := by
  induction l with
  | nil => intro s; simp [tellings, results]
  | cons e l ih =>
    intro s
    obtain ⟨h1, h2⟩ := ih (s.on e)
    have hv : (fun k => value s.dict k [e]) = (s.on e).dict := by
      rw [on_dict]
      funext k
      have := value_snoc s.dict k [] e
      simpa [value] using this
    rw [List.foldl_cons, h1, h2]
    show _ = s.told ++ tellings s.dict (e :: l) ∧ _ = s.res ++ results (e :: l)
    rw [show tellings s.dict (e :: l) = telling s.dict e ++ tellings (fun k => value s.dict k [e]) l from rfl, hv]
    have hr : results (e :: l) = results [e] ++ results l := by simp [results]; cases e <;> rfl
    rw [hr, ← List.append_assoc, ← List.append_assoc]
    refine ⟨?_, ?_⟩
    · congr 1
      cases e with
      | took t k x => cases x <;> simp [A.on, A.drop, telling]
      | _ => simp [A.on, A.tell, A.ok, A.bad, A.put, telling]
    · congr 1
      cases e with
      | took t k x => cases x <;> simp [A.on, A.drop, results]
      | _ => simp [A.on, A.tell, A.ok, A.bad, A.put, results]

/-! ## The dictionary of C30 -/

theorem lookup_put (d : List (Nat × Nat)) (k v m : Nat) : ED.lookup (ED.put d k v) m = if m = k then some v else ED.lookup d m := by
  induction d with
  | nil => simp only [ED.put, ED.lookup]; by_cases h : m = k
           · simp [h]
           · simp [h, Ne.symm h]
  | cons p d ih =>
    unfold ED.put
    by_cases h : p.1 = k
    · rw [if_pos h]
      by_cases hm : m = k
      · subst hm; simp [ED.lookup, h]
      · have : ¬ p.1 = m := fun e => hm (e ▸ h)
        simp [ED.lookup, this, hm]
    · rw [if_neg h]
      by_cases hp : p.1 = m
      · have : ¬ m = k := fun e => h (hp.trans e)
        simp [ED.lookup, hp, this]
      · simp only [ED.lookup, if_neg hp]; exact ih

theorem lookup_del (d : List (Nat × Nat)) (hd : (d.map Prod.fst).Nodup) (k m : Nat) : ED.lookup (ED.del d k) m = if m = k then none else ED.lookup d m := by
  induction d with
  | nil => simp [ED.del, ED.lookup]
  | cons p d ih =>
    obtain ⟨h1, h2⟩ := List.nodup_cons.mp hd
    unfold ED.del
    by_cases h : p.1 = k
    · rw [if_pos h]
      by_cases hm : m = k
      · rw [if_pos hm, hm, ← h]; exact ED.lookup_none.mpr h1
      · have : ¬ p.1 = m := fun e => hm (e ▸ h)
        simp [ED.lookup, this, hm]
    · rw [if_neg h]
      by_cases hp : p.1 = m
      · have : ¬ m = k := fun e => h (hp.trans e)
        simp [ED.lookup, hp, this]
      · simp only [ED.lookup, if_neg hp]; exact ih h2

theorem put_keys (d : List (Nat × Nat)) (k v : Nat) (hd : (d.map Prod.fst).Nodup) : ((ED.put d k v).map Prod.fst).Nodup := by
  have key : ∀ d : List (Nat × Nat), (ED.put d k v).map Prod.fst = if k ∈ d.map Prod.fst then d.map Prod.fst else d.map Prod.fst ++ [k] := by
    intro d
    induction d with
    | nil => simp [ED.put]
    | cons p d ih =>
      unfold ED.put
      by_cases h : p.1 = k
      · simp [h]
      · rw [if_neg h, List.map_cons, ih]
        by_cases hk : k ∈ d.map Prod.fst
        · simp only [List.map_cons, if_pos hk, if_pos (List.mem_cons_of_mem _ hk)]
        · have : ¬ k ∈ p.1 :: d.map Prod.fst := fun e => by
            rcases List.mem_cons.mp e with e | e
            · exact h e.symm
            · exact hk e
          simp only [List.map_cons, if_neg hk, if_neg this, List.cons_append]
  rw [key]
  split
  · exact hd
  · rename_i h
    exact List.nodup_append.mpr ⟨hd, by simp, fun a ha b hb e => by simp at hb; rw [e, hb] at ha; exact h ha⟩

theorem del_keys (d : List (Nat × Nat)) (k : Nat) (hd : (d.map Prod.fst).Nodup) : ((ED.del d k).map Prod.fst).Nodup := by
  have key : ∀ d : List (Nat × Nat), ((ED.del d k).map Prod.fst).Sublist (d.map Prod.fst) := by
    intro d
    induction d with
    | nil => simp [ED.del]
    | cons p d ih =>
      unfold ED.del
      by_cases h : p.1 = k
      · rw [if_pos h]; simp
      · rw [if_neg h]; simpa using ih
  exact (key d).nodup hd

/-- What there is and what was told in the model of C30 (`/repo/src/psygnal/containers/_evented_dict.py:47`). -/
def abs (s : ED.St Nat Nat) (r : List (Except Py.Err (ED.Res Nat Nat))) : A := ⟨ED.lookup s.dict, s.log.map (fun p => (p.1, ED.lookup p.2)), r⟩

theorem abs_tell (s : ED.St Nat Nat) (r : List (Except Py.Err (ED.Res Nat Nat))) (e : ED.Ev Nat Nat) :
    abs { s with log := s.log ++ [(e, s.dict)] } r = (abs s r).tell e := by simp [abs, A.tell]

theorem abs_put (s : ED.St Nat Nat) (r : List (Except Py.Err (ED.Res Nat Nat))) (k v : Nat) : abs { s with dict := ED.put s.dict k v } r = (abs s r).put k v := by
  simp only [abs, A.put]
  congr 1
  funext m
  exact lookup_put _ _ _ _

theorem abs_del (s : ED.St Nat Nat) (r : List (Except Py.Err (ED.Res Nat Nat))) (k : Nat) (h : (s.dict.map Prod.fst).Nodup) :
    abs { s with dict := ED.del s.dict k } r = (abs s r).drop k := by
  simp only [abs, A.drop]
  congr 1
  funext m
  exact lookup_del _ h _ _

theorem emit_seq (e : ED.Ev Nat Nat) (s : ED.St Nat Nat) : ED.emit seq e s = (.ok (), { s with log := s.log ++ [(e, s.dict)] }) := by
  simp [ED.emit, seq, Py.M.pure]

theorem set_same (k v : Nat) (s : ED.St Nat Nat) (hs : (s.dict.map Prod.fst).Nodup) (r : List (Except Py.Err (ED.Res Nat Nat))) :
    ((ED.step seq (.setItem k v) s).2.dict.map Prod.fst).Nodup ∧
    abs (ED.step seq (.setItem k v) s).2 (r ++ [(ED.step seq (.setItem k v) s).1]) = (abs s r).call (.setItem k v) := by
  have hl : (abs s r).dict k = ED.lookup s.dict k := rfl
  cases h : ED.lookup s.dict k with
  | none =>
    have e : ED.step seq (.setItem k v) s = (.ok .unit, { s with dict := ED.put s.dict k v, log := s.log ++ [(.adding k, s.dict)] ++ [(.added k v, ED.put s.dict k v)] }) := by
      simp [ED.step, ED.setItem, ED.hash, Py.M.bind, Py.M.get, h, emit_seq, ED.baseSet, Py.M.modify, show seq.hashable k = true from rfl, show seq.okType v = true from rfl]
    rw [e]
    refine ⟨put_keys _ _ _ hs, ?_⟩
    show _ = (abs s r).set k v
    unfold A.set
    rw [hl, h]
    show _ = (abs s r).add k v
    unfold A.add
    rw [← abs_tell, ← abs_put, ← abs_tell]; rfl
  | some o =>
    by_cases hv : v = o
    · have e : ED.step seq (.setItem k v) s = (.ok .unit, s) := by
        simp [ED.step, ED.setItem, ED.hash, Py.M.bind, Py.M.get, h, hv, show seq.hashable k = true from rfl]
      rw [e]
      refine ⟨hs, ?_⟩
      show _ = (abs s r).set k v
      unfold A.set A.old
      rw [hl, h]
      simp [hv, A.ok, abs]
    · have e : ED.step seq (.setItem k v) s = (.ok .unit, { s with dict := ED.put s.dict k v, log := s.log ++ [(.changing k, s.dict)] ++ [(.changed k o v, ED.put s.dict k v)] }) := by
        simp [ED.step, ED.setItem, ED.hash, Py.M.bind, Py.M.get, h, hv, emit_seq, ED.baseSet, Py.M.modify, show seq.hashable k = true from rfl, show seq.okType v = true from rfl]
      rw [e]
      refine ⟨put_keys _ _ _ hs, ?_⟩
      show _ = (abs s r).set k v
      unfold A.set A.old
      rw [hl, h]
      show _ = if v = o then (abs s r).ok else (abs s r).change k v o
      rw [if_neg hv]
      unfold A.change
      rw [← abs_tell, ← abs_put, ← abs_tell]; rfl

theorem del_same (k : Nat) (s : ED.St Nat Nat) (hs : (s.dict.map Prod.fst).Nodup) (r : List (Except Py.Err (ED.Res Nat Nat))) :
    ((ED.step seq (.delItem k) s).2.dict.map Prod.fst).Nodup ∧
    abs (ED.step seq (.delItem k) s).2 (r ++ [(ED.step seq (.delItem k) s).1]) = (abs s r).call (.delItem k) := by
  have hl : (abs s r).dict k = ED.lookup s.dict k := rfl
  cases h : ED.lookup s.dict k with
  | none =>
    have e : ED.step seq (.delItem k) s = (.error .key, s) := by
      simp [ED.step, ED.delItem, ED.getItem, ED.hash, Py.M.bind, Py.M.get, h, show seq.hashable k = true from rfl]
    rw [e]
    refine ⟨hs, ?_⟩
    show _ = (abs s r).del k
    unfold A.del
    rw [hl, h]; rfl
  | some i =>
    have e : ED.step seq (.delItem k) s = (.ok .unit, { s with dict := ED.del s.dict k, log := s.log ++ [(.removing k, s.dict)] ++ [(.removed k i, ED.del s.dict k)] }) := by
      simp [ED.step, ED.delItem, ED.getItem, ED.hash, ED.baseDel, Py.M.bind, Py.M.get, h, emit_seq, Py.M.modify, show seq.hashable k = true from rfl]
    rw [e]
    refine ⟨del_keys _ _ hs, ?_⟩
    show _ = (abs s r).del k
    unfold A.del
    rw [hl, h]
    show _ = ((abs s r).tell (.removing k)).take k i
    unfold A.take
    rw [show ((abs s r).tell (.removing k)).dict k = some i from h]
    simp only [Option.isSome_some, if_true]
    rw [← abs_tell, ← abs_del { s with log := s.log ++ [(.removing k, s.dict)] } r k hs, ← abs_tell]; rfl

theorem run_same : ∀ (l : List Ev) {s : ED.St Nat Nat} (r : List (Except Py.Err (ED.Res Nat Nat))), (s.dict.map Prod.fst).Nodup →
    abs (ED.run seq (calls l) s).2 (r ++ (ED.run seq (calls l) s).1) = (calls l).foldl A.call (abs s r)
  | [], _, _, _ => by simp [calls, ED.run]
  | e :: l, s, r, hs => by
    have hc : calls (e :: l) = calls [e] ++ calls l := calls_append [e] l
    rw [hc]
    have key : ∀ o : ED.Op Nat Nat, (∀ (s : ED.St Nat Nat) (hs : (s.dict.map Prod.fst).Nodup) (r : List (Except Py.Err (ED.Res Nat Nat))),
        ((ED.step seq o s).2.dict.map Prod.fst).Nodup ∧ abs (ED.step seq o s).2 (r ++ [(ED.step seq o s).1]) = (abs s r).call o) →
        abs (ED.run seq ([o] ++ calls l) s).2 (r ++ (ED.run seq ([o] ++ calls l) s).1) = ([o] ++ calls l).foldl A.call (abs s r) := by
      intro o ho
      obtain ⟨h1, h2⟩ := ho s hs r
      have h3 := run_same l (r ++ [(ED.step seq o s).1]) h1
      rw [h2, List.append_assoc] at h3
      exact h3
    cases e with
    | call t k v => exact key _ (set_same k v)
    | callD t k => exact key _ (del_same k)
    | _ => exact run_same l r hs

end Psygnal.DcC
