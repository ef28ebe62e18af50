import Verif.SetTurns
import Verif.DictTurns
import Verif.ListTurns
import Verif.Props.SetConc
import Verif.Props.DictConc
import Verif.Props.ListConc

/-!
# C97: containers used by several threads in turns

If at no moment two threads are in an operation - in particular, if only one thread changes the container and the others look - an evented set, dictionary
or list does in several threads what it does in one: there are the same items, the listeners are told the same things in the same order, each time with the
same contents, and the operations return or raise the same, as if they were done one after the other in the order in which they began.  What they do one
after the other is what the models of C31, C30, C27 and C28 say.
-/

namespace Psygnal.StC

/-- Partial: sets used in turns.  Missing: overlapping methods (`C97_set_refuted`). -/
theorem C97_set_partial (d : List Nat) (prog : Nat → Code) (s : List Nat) (hd : d.Nodup)
    (h : ∀ p q, s = p ++ q → ∀ t u, InOp t (run p (init d prog)).log → InOp u (run p (init d prog)).log → t = u)
    (hr : ∀ t, ¬ InOp t (run s (init d prog)).log) :
    let q := ES.run seq ((calls (run s (init d prog)).log).map Call.op) { data := d }
    (run s (init d prog)).data.set = q.2.data ∧ tellings d (run s (init d prog)).log = q.2.log ∧ ∀ r ∈ q.1, r = .ok .unit := by
  intro q
  have h1 := (turns_run h).rest (fun t => by
    cases hb : ((run s (init d prog)).thr t).busy with
    | false => rfl
    | true => exact absurd ((open_run d prog s t).1 hb) (hr t))
  obtain ⟨h2, h3⟩ := run_same (calls (run s (init d prog)).log) (s := { data := d }) ⟨rfl, hd⟩
  have h4 : now d (run s (init d prog)) = abs q.2 := h1.trans h3.symm
  exact ⟨congrArg (fun a => a.data.set) h4, congrArg A.told h4, h2⟩

/-- One thread calls methods of a set, the others only look: the set is what it is without them, and so is what is told. -/
theorem C97_set_writer (d : List Nat) (prog : Nat → Code) (s : List Nat) (hd : d.Nodup) (t : Nat)
    (h : ∀ u o, .call u o ∈ (run s (init d prog)).log → u = t) (hr : ¬ InOp t (run s (init d prog)).log) :
    let q := ES.run seq ((calls (run s (init d prog)).log).map Call.op) { data := d }
    (run s (init d prog)).data.set = q.2.data ∧ tellings d (run s (init d prog)).log = q.2.log ∧ ∀ r ∈ q.1, r = .ok .unit := by
  have key : ∀ p q, s = p ++ q → ∀ u, InOp u (run p (init d prog)).log → u = t := by
    rintro p q rfl u ⟨A, o, B, h1, _⟩
    refine h u o ?_
    obtain ⟨l, h2⟩ := log_grows q (run p (init d prog))
    rw [run_append, h2, h1]; simp
  exact C97_set_partial d prog s hd (fun p q e u w hu hw => (key p q e u hu).trans (key p q e w hw).symm)
    (fun u hu => hr ((key s [] (by simp) u hu) ▸ hu))

/-- Two threads add the same item: in no order do the two calls tell what was told. -/
theorem C97_set_refuted : ∃ s, (run s (init [5, 6] (exP (exAdd 7) (exAdd 7)))).thr 0 = .run .ret ∧ (run s (init [5, 6] (exP (exAdd 7) (exAdd 7)))).thr 1 = .run .ret ∧
    ∀ os : List Call, os.Perm (calls (run s (init [5, 6] (exP (exAdd 7) (exAdd 7)))).log) →
      tellings [5, 6] (run s (init [5, 6] (exP (exAdd 7) (exAdd 7)))).log ≠ (ES.run seq (os.map Call.op) { data := [5, 6] }).2.log := by
  refine ⟨[0, 0, 1, 1, 0, 0, 0, 0, 1, 1, 1, 1], by rfl, by rfl, fun os ho => ?_⟩
  have h : calls (run [0, 0, 1, 1, 0, 0, 0, 0, 1, 1, 1, 1] (init [5, 6] (exP (exAdd 7) (exAdd 7)))).log = List.replicate 2 (.add 7) := by decide
  rw [h] at ho
  rw [List.perm_replicate.mp ho]
  decide

/-- `C97_set_partial`: a symmetric difference in one thread, then `clear` in another, which looks in between. -/
example : (run exS (init [5, 6] exC)).data.set = [] ∧ calls (run exS (init [5, 6] exC)).log = [.sym [5, 7], .clear] ∧
    (ES.run seq [.symmetricDifferenceUpdate [5, 7], .clear] { data := [5, 6] }).2.log = [(([7], [5]), [6, 7]), (([], [6, 7]), [])] ∧
    tellings [5, 6] (run exS (init [5, 6] exC)).log = [(([7], [5]), [6, 7]), (([], [6, 7]), [])] := by
  have h := C97_set_partial [5, 6] exC exS (by decide) exS_apart (exRest (by decide +kernel))
  have hc : calls (run exS (init [5, 6] exC)).log = [.sym [5, 7], .clear] := by decide +kernel
  rw [hc] at h
  have hq : (ES.run seq [.symmetricDifferenceUpdate [5, 7], .clear] { data := [5, 6] }).2.log = [(([7], [5]), [6, 7]), (([], [6, 7]), [])] := by decide
  exact ⟨h.1, hc, hq, h.2.1.trans hq⟩

/-- Thread 0 updates, thread 1 looks meanwhile. -/
def exW : List Nat := [0, 0, 0, 1, 0, 0, 0, 1, 0, 0, 0, 0, 0, 0, 0, 0]

def exL : Nat → Code := exP (exUpd [6, 7]) (.has 7 fun _ => .has 7 fun _ => .ret)

/-- `C97_set_writer`. -/
example : (run exW (init [5, 6] exL)).data.set = [5, 6, 7] ∧ tellings [5, 6] (run exW (init [5, 6] exL)).log = [(([7], []), [5, 6, 7])] := by
  have h := C97_set_writer [5, 6] exL exW (by decide) 0 (fun u o hm => by
      rw [show (run exW (init [5, 6] exL)).log = [.call 0 (.update [6, 7]), .was 0 false, .pause 0, .look 1 7 false, .test 0 6 true, .test 0 7 false, .put 0 7, .look 1 7 true,
        .paused 0 true, .record 0 [7] [], .resume 0, .any 0 true, .reduce 0 [7] [], .told 0 [7] [], .forget 0, .done 0] from by decide +kernel] at hm
      simp at hm
      exact hm.1)
    (exRest (by decide +kernel) 0)
  rw [show calls (run exW (init [5, 6] exL)).log = [.update [6, 7]] from by decide +kernel] at h
  exact ⟨h.1, h.2.1⟩

end Psygnal.StC

namespace Psygnal.DcC

/-- Partial: dictionaries used in turns.  Missing: overlapping operations (`C97_dict_refuted`). -/
theorem C97_dict_partial (a : List (Nat × Nat)) (ha : (a.map Prod.fst).Nodup) (prog : Nat → Code) (s : List Nat)
    (h : ∀ p q, s = p ++ q → ∀ t u k m, InOp t k (run p (init (ED.lookup a) prog)).log → InOp u m (run p (init (ED.lookup a) prog)).log → t = u)
    (hr : ∀ t k, ¬ InOp t k (run s (init (ED.lookup a) prog)).log) :
    let q := ED.run seq (calls (run s (init (ED.lookup a) prog)).log) { dict := a }
    (run s (init (ED.lookup a) prog)).dict = ED.lookup q.2.dict ∧
    tellings (ED.lookup a) (run s (init (ED.lookup a) prog)).log = q.2.log.map (fun p => (p.1, ED.lookup p.2)) ∧
    results (run s (init (ED.lookup a) prog)).log = q.1 := by
  intro q
  have ht := turns_run h
  have h1 := ht.rest (fun t => by
    cases hb : ((run s (init (ED.lookup a) prog)).thr t).busy with
    | false => rfl
    | true =>
      obtain ⟨k, hk⟩ := busy_key hb
      exact absurd (inOp_of_key hk) (hr t k))
  have h2 := run_same (run s (init (ED.lookup a) prog)).log (s := { dict := a }) [] ha
  have h3 : now (ED.lookup a) (run s (init (ED.lookup a) prog)).log = abs q.2 q.1 := h1.trans h2.symm
  obtain ⟨h4, h5⟩ := now_parts (run s (init (ED.lookup a) prog)).log ⟨ED.lookup a, [], []⟩
  refine ⟨ht.dict.symm.trans (congrArg A.dict h3), ?_, ?_⟩
  · have : (now (ED.lookup a) (run s (init (ED.lookup a) prog)).log).told = tellings (ED.lookup a) (run s (init (ED.lookup a) prog)).log := h4.trans (List.nil_append _)
    rw [← this, h3]; rfl
  · have : (now (ED.lookup a) (run s (init (ED.lookup a) prog)).log).res = results (run s (init (ED.lookup a) prog)).log := h5.trans (List.nil_append _)
    rw [← this, h3]; rfl

/-- One thread assigns and deletes, the others only look: everything is as without them. -/
theorem C97_dict_writer (a : List (Nat × Nat)) (ha : (a.map Prod.fst).Nodup) (prog : Nat → Code) (s : List Nat) (t : Nat)
    (h1 : ∀ u k v, .call u k v ∈ (run s (init (ED.lookup a) prog)).log → u = t) (h2 : ∀ u k, .callD u k ∈ (run s (init (ED.lookup a) prog)).log → u = t)
    (hr : ∀ k, ¬ InOp t k (run s (init (ED.lookup a) prog)).log) :
    let q := ED.run seq (calls (run s (init (ED.lookup a) prog)).log) { dict := a }
    (run s (init (ED.lookup a) prog)).dict = ED.lookup q.2.dict ∧
    tellings (ED.lookup a) (run s (init (ED.lookup a) prog)).log = q.2.log.map (fun p => (p.1, ED.lookup p.2)) ∧
    results (run s (init (ED.lookup a) prog)).log = q.1 := by
  have key : ∀ p q, s = p ++ q → ∀ u k, InOp u k (run p (init (ED.lookup a) prog)).log → u = t := by
    rintro p q rfl u k ⟨A, e, B, h3, h4, _⟩
    obtain ⟨l, h5⟩ := log_grows q (run p (init (ED.lookup a) prog))
    rcases h4 with ⟨v, rfl⟩ | rfl
    · exact h1 u k v (by rw [run_append, h5, h3]; simp)
    · exact h2 u k (by rw [run_append, h5, h3]; simp)
  exact C97_dict_partial a ha prog s (fun p q e u w k m hu hw => (key p q e u k hu).trans (key p q e w m hw).symm)
    (fun u k hu => hr k ((key s [] (by simp) u k hu) ▸ hu))

/-- Two threads assign the same value to a new key: in no order do the two assignments say that they both added it. -/
theorem C97_dict_refuted : ∃ s, (run s (init (ED.lookup [(0, 5)]) (exP (exSet 1 6) (exSet 1 6)))).thr 0 = .run .ret ∧
    (run s (init (ED.lookup [(0, 5)]) (exP (exSet 1 6) (exSet 1 6)))).thr 1 = .run .ret ∧
    ∀ os : List (ED.Op Nat Nat), os.Perm (calls (run s (init (ED.lookup [(0, 5)]) (exP (exSet 1 6) (exSet 1 6)))).log) →
      (tellings (ED.lookup [(0, 5)]) (run s (init (ED.lookup [(0, 5)]) (exP (exSet 1 6) (exSet 1 6)))).log).map Prod.fst ≠
        (ED.run seq os { dict := [(0, 5)] }).2.log.map Prod.fst := by
  refine ⟨[0, 0, 1, 1, 0, 0, 0, 1, 1, 1], by rfl, by rfl, fun os ho => ?_⟩
  have h : calls (run [0, 0, 1, 1, 0, 0, 0, 1, 1, 1] (init (ED.lookup [(0, 5)]) (exP (exSet 1 6) (exSet 1 6)))).log = List.replicate 2 (.setItem 1 6) := by rfl
  rw [h] at ho
  rw [List.perm_replicate.mp ho]
  decide

/-- Which threads are in an operation, with whatever key. -/
def openAny (o : List Nat) : Ev → List Nat
  | .call t _ _ => t :: o
  | .callD t _ => t :: o
  | e => if e.ends then o.filter (· != e.thread) else o

theorem openAny_keep {t : Nat} {o : List Nat} {e : Ev} (he : e.thread = t → e.ends = false) (h : t ∈ o) : t ∈ openAny o e := by
  have key : t ∈ if e.ends then o.filter (· != e.thread) else o := by
    split
    · rename_i hb
      refine List.mem_filter.mpr ⟨h, ?_⟩
      have : t ≠ e.thread := fun ht => by rw [he ht.symm] at hb; cases hb
      simpa using this
    · exact h
  cases e with
  | call u k v => exact List.mem_cons_of_mem _ h
  | callD u k => exact List.mem_cons_of_mem _ h
  | _ => exact key

theorem openAny_mem {k t : Nat} {L : List Ev} (h : InOp t k L) : t ∈ L.foldl openAny [] := by
  obtain ⟨A, e, B, rfl, h1, h2⟩ := h
  rw [List.foldl_append]
  have key : ∀ (B : List Ev) (o : List Nat), (∀ x ∈ B, x.thread = t → x.ends = false) → t ∈ o → t ∈ B.foldl openAny o := by
    intro B
    induction B with
    | nil => exact fun _ _ h => h
    | cons x B ih => exact fun o hB h => ih _ (fun y hy => hB y (List.mem_cons_of_mem _ hy)) (openAny_keep (hB x List.mem_cons_self) h)
  refine key B _ h2 ?_
  rcases h1 with ⟨v, rfl⟩ | rfl <;> exact List.mem_cons_self

/-- Thread 0 changes the key, thread 1 deletes it afterwards, and once more. -/
def exT : List Nat := [0, 0, 0, 0, 0, 0, 2, 1, 1, 1, 1, 1, 1, 1, 1]

def exTP : Nat → Code := exP (exSet 0 6) (.del 0 fun _ => exDel 0)

theorem exT_one : ∀ i ∈ List.range 16, ∀ t ∈ (run (exT.take i) (init (ED.lookup [(0, 5)]) exTP)).log.foldl openAny [],
    ∀ u ∈ (run (exT.take i) (init (ED.lookup [(0, 5)]) exTP)).log.foldl openAny [], t = u := by decide

/-- `C97_dict_partial`. -/
example : results (run exT (init (ED.lookup [(0, 5)]) exTP)).log = [.ok .unit, .ok .unit, .error .key] ∧
    (tellings (ED.lookup [(0, 5)]) (run exT (init (ED.lookup [(0, 5)]) exTP)).log).map Prod.fst = [.changing 0, .changed 0 5 6, .removing 0, .removed 0 6] ∧
    (run exT (init (ED.lookup [(0, 5)]) exTP)).dict 0 = none := by
  have h := C97_dict_partial [(0, 5)] (by decide) exTP exT (fun p q e t u k m ht hu => by
      have hp : p = exT.take p.length := by rw [e]; simp
      have hlen : p.length ∈ List.range 16 := by
        have := congrArg List.length e
        simp [exT] at this
        exact List.mem_range.mpr (by omega)
      have h1 := openAny_mem ht
      have h2 := openAny_mem hu
      rw [hp] at h1 h2
      exact exT_one p.length hlen t h1 u h2)
    (fun t k ht => by
      have := openAny_mem ht
      rw [show (run exT (init (ED.lookup [(0, 5)]) exTP)).log.foldl openAny [] = [] from by decide] at this
      cases this)
  rw [show calls (run exT (init (ED.lookup [(0, 5)]) exTP)).log = [.setItem 0 6, .delItem 0, .delItem 0] from by rfl] at h
  refine ⟨h.2.2.trans (by decide), ?_, ?_⟩
  · rw [h.2.1, List.map_map]; decide
  · rw [h.1]; decide

/-- `C97_dict_writer`: thread 0 assigns, thread 1 looks meanwhile. -/
example : results (run [0, 0, 1, 0, 0, 0, 0] (init (ED.lookup [(0, 5)]) (exP (exSet 0 6) (.get 0 fun _ => .ret)))).log = [.ok .unit] ∧
    (run [0, 0, 1, 0, 0, 0, 0] (init (ED.lookup [(0, 5)]) (exP (exSet 0 6) (.get 0 fun _ => .ret)))).dict 0 = some 6 := by
  have hl : (run [0, 0, 1, 0, 0, 0, 0] (init (ED.lookup [(0, 5)]) (exP (exSet 0 6) (.get 0 fun _ => .ret)))).log =
      [.call 0 0 6, .has 0 0 true, .look 1 0 (some 5), .read 0 0 (some 5), .changing 0 0, .put 0 0 6, .changed 0 0 5 6] := by decide
  have h := C97_dict_writer [(0, 5)] (by decide) (exP (exSet 0 6) (.get 0 fun _ => .ret)) [0, 0, 1, 0, 0, 0, 0] 0
    (fun u k v hm => by rw [hl] at hm; simp at hm; exact hm.1) (fun u k hm => by rw [hl] at hm; simp at hm)
    (fun k ht => by
      have := openAny_mem ht
      rw [hl] at this
      exact absurd this (by decide))
  rw [hl] at h
  exact ⟨by rw [hl]; rfl, by rw [h.1]; decide⟩

end Psygnal.DcC

namespace Psygnal.LsC

/-- Partial: lists used in turns.  Missing: overlapping operations (`C97_list_refuted`). -/
theorem C97_list_partial (d : List Nat) (prog : Nat → Code) (s : List Nat)
    (h : ∀ p q, s = p ++ q → ∀ t u, InOp t (run p (init d prog)).log → InOp u (run p (init d prog)).log → t = u)
    (hr : ∀ t, ¬ InOp t (run s (init d prog)).log) :
    let q := EL.run seq (calls (run s (init d prog)).log) { data := d }
    (run s (init d prog)).data = q.2.data ∧ tellings d (run s (init d prog)).log = q.2.log ∧ results (run s (init d prog)).log = q.1 := by
  intro q
  have ht := turns_run h
  have h1 := ht.rest (fun t => by
    cases hb : ((run s (init d prog)).thr t).busy with
    | false => rfl
    | true => exact absurd (inOp_of_busy hb) (hr t))
  have h2 := run_same (run s (init d prog)).log (s := { data := d }) [] rfl
  have h3 : now d (run s (init d prog)).log = abs q.2 q.1 := h1.trans h2.symm
  obtain ⟨h4, h5⟩ := now_parts (run s (init d prog)).log ⟨d, [], []⟩
  refine ⟨ht.data.symm.trans (congrArg A.data h3), ?_, ?_⟩
  · have : (now d (run s (init d prog)).log).told = tellings d (run s (init d prog)).log := h4.trans (List.nil_append _)
    rw [← this, h3]; rfl
  · have : (now d (run s (init d prog)).log).res = results (run s (init d prog)).log := h5.trans (List.nil_append _)
    rw [← this, h3]; rfl

/-- One thread changes the list, the others only look: everything is as without them. -/
theorem C97_list_writer (d : List Nat) (prog : Nat → Code) (s : List Nat) (t : Nat)
    (h : ∀ e ∈ (run s (init d prog)).log, e.begins = true → e.thread = t) (hr : ¬ InOp t (run s (init d prog)).log) :
    let q := EL.run seq (calls (run s (init d prog)).log) { data := d }
    (run s (init d prog)).data = q.2.data ∧ tellings d (run s (init d prog)).log = q.2.log ∧ results (run s (init d prog)).log = q.1 := by
  have key : ∀ p q, s = p ++ q → ∀ u, InOp u (run p (init d prog)).log → u = t := by
    rintro p q rfl u ⟨A, e, B, h1, h2, h3, _⟩
    obtain ⟨l, h5⟩ := log_grows q (run p (init d prog))
    exact h2.symm.trans (h e (by rw [run_append, h5, h1]; simp) h3)
  exact C97_list_partial d prog s (fun p q e u w hu hw => (key p q e u hu).trans (key p q e w hw).symm)
    (fun u hu => hr ((key s [] (by simp) u hu) ▸ hu))

/-- Two threads make the same assignment: in no order do both say that they changed the item. -/
theorem C97_list_refuted : ∃ s, (run s (init [5, 6] (exP (exSet 0 9) (exSet 0 9)))).thr 0 = .run .ret ∧ (run s (init [5, 6] (exP (exSet 0 9) (exSet 0 9)))).thr 1 = .run .ret ∧
    ∀ os : List (EL.Op Nat), os.Perm (calls (run s (init [5, 6] (exP (exSet 0 9) (exSet 0 9)))).log) →
      tellings [5, 6] (run s (init [5, 6] (exP (exSet 0 9) (exSet 0 9)))).log ≠ (EL.run seq os { data := [5, 6] }).2.log := by
  refine ⟨[0, 0, 1, 1, 0, 0, 1, 1], by rfl, by rfl, fun os ho => ?_⟩
  have h : calls (run [0, 0, 1, 1, 0, 0, 1, 1] (init [5, 6] (exP (exSet 0 9) (exSet 0 9)))).log = List.replicate 2 (.setItem 0 9) := by rfl
  rw [h] at ho
  rw [List.perm_replicate.mp ho]
  decide

theorem exS_rest (t : Nat) : ¬ InOp t (run exS (init [5, 6] exC)).log := fun ht => by
  have := opens_mem ht
  rw [show (run exS (init [5, 6] exC)).log.foldl open1 [] = [] from by decide +kernel] at this
  cases this

/-- `C97_list_partial`: `move(0, -1)` in one thread, then `del l[0]` in another, while the first looks. -/
example : (run exS (init [5, 6] exC)).data = [5] ∧ results (run exS (init [5, 6] exC)).log = [.ok (.bool true), .ok .unit] ∧
    tellings [5, 6] (run exS (init [5, 6] exC)).log =
      [(.moving 0 2, [5, 6]), (.moved 0 1 5, [6, 5]), (.reordered, [6, 5]), (.removing 0, [6, 5]), (.removed 0 6, [5])] := by
  have h := C97_list_partial [5, 6] exC exS exS_apart exS_rest
  rw [show calls (run exS (init [5, 6] exC)).log = [.move 0 (-1), .delItem (.int 0)] from by rfl] at h
  exact ⟨h.1, h.2.2.trans (by decide), h.2.1.trans (by decide)⟩

/-- `C97_list_writer`: an index that is not there, while another thread asks for the length. -/
example : results (run [0, 1, 0, 0, 0] (init [5, 6] (exP (exDel 7) (.len fun _ => .ret)))).log = [.error .index] ∧
    (run [0, 1, 0, 0, 0] (init [5, 6] (exP (exDel 7) (.len fun _ => .ret)))).data = [5, 6] := by
  have hl : (run [0, 1, 0, 0, 0] (init [5, 6] (exP (exDel 7) (.len fun _ => .ret)))).log =
      [.callD 0 7, .size 1 2, .removing 0 7, .took 0 7 none, .fail 0 7] := by decide
  have h := C97_list_writer [5, 6] (exP (exDel 7) (.len fun _ => .ret)) [0, 1, 0, 0, 0] 0
    (fun e he hb => by
      rw [hl] at he
      rcases List.mem_cons.mp he with rfl | he
      · rfl
      · have : e.begins = false := by revert e; decide
        rw [this] at hb; cases hb)
    (fun ht => by
      have := opens_mem ht
      rw [hl] at this
      exact absurd this (by decide))
  rw [hl] at h ⊢
  exact ⟨rfl, h.1⟩

end Psygnal.LsC
