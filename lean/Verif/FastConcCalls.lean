import Verif.FastConcLemmas

/-! # Each emission calls its own callbacks -/
namespace Psygnal.FC

/-- The first `j` callbacks were called. -/
def Sofar (e : Env) (m : Em) (j : Nat) (log : List Ev) : Prop :=
  calls m.i log = ((e.slots m.s).take j).map (Ev.call m)

/-- The end of an emission: some of the callbacks were called, all if it returns and is not latest-only. -/
def Good (e : Env) (m : Em) (ok : Bool) (log : List Ev) : Prop :=
  (∃ j, Sofar e m j log) ∧
    (ok = true → m.fast = true ∨ e.latest m.s = false → calls m.i log = (e.slots m.s).map (Ev.call m))

/-- What holds of the emission that a thread is in. -/
def Claim (e : Env) (log : List Ev) : Ctl → Prop
  | .load m | .store m _ | .maxd m => Sofar e m 0 log
  | .next m j => Sofar e m j log
  | .test m ok | .dload m ok | .dstore m ok _ | .reset m ok | .zero m ok | .release m ok => Good e m ok log
  | _ => True

/-- The emission that the control is in. -/
def idC : Ctl → List Nat
  | .load m | .store m _ | .maxd m | .next m _ => [m.i]
  | .test m _ | .dload m _ | .dstore m _ _ | .reset m _ | .zero m _ | .release m _ => [m.i]
  | _ => []

/-- The emissions of a stack. -/
def idS : List Frame → List Nat
  | [] => []
  | .cont _ :: st => idS st
  | .loop m _ :: st => m.i :: idS st

structure TInv (e : Env) (th : Thread) : Prop where
  ctl : Claim e th.log th.ctl
  frames : ∀ m j, Frame.loop m j ∈ th.stack → Sofar e m j th.log
  nodup : (idC th.ctl ++ idS th.stack).Nodup
  lt : ∀ i ∈ idC th.ctl ++ idS th.stack, i < th.n
  old : ∀ m x, Ev.call m x ∈ th.log → m.i < th.n
  done : ∀ m ok, Ev.done m ok ∈ th.log → Good e m ok th.log ∧ m.i ∉ idC th.ctl ++ idS th.stack ∧ m.i < th.n

theorem mem_idS {m : Em} {j : Nat} : ∀ {st : List Frame}, Frame.loop m j ∈ st → m.i ∈ idS st
  | .cont _ :: st, h => by
    rcases List.mem_cons.mp h with h | h
    · cases h
    · exact mem_idS (st := st) h
  | .loop m' j' :: st, h => by
    rcases List.mem_cons.mp h with h | h
    · cases h; exact List.mem_cons_self ..
    · exact List.mem_cons_of_mem _ (mem_idS (st := st) h)

theorem calls_call (i : Nat) (log : List Ev) (m : Em) (x : Nat) :
    calls i (log ++ [.call m x]) = if m.i = i then calls i log ++ [.call m x] else calls i log := by
  by_cases h : m.i = i <;> simp [calls, h]

theorem calls_done (i : Nat) (log : List Ev) (m : Em) (ok : Bool) : calls i (log ++ [.done m ok]) = calls i log := by
  simp [calls]

theorem calls_refused (i : Nat) (log : List Ev) (f : Bool) (s a : Nat) :
    calls i (log ++ [.refused f s a]) = calls i log := by
  simp [calls]

theorem calls_new {i : Nat} : ∀ {log : List Ev}, (∀ m x, Ev.call m x ∈ log → m.i < i) → calls i log = [] := by
  intro log h
  refine List.filter_eq_nil_iff.mpr fun ev hev => ?_
  cases ev with
  | call m x =>
    have := h m x hev
    simp only [decide_eq_true_eq]
    omega
  | done => simp
  | refused => simp

theorem good_congr {e : Env} {m : Em} {ok : Bool} {l l' : List Ev} (h : calls m.i l' = calls m.i l) (hg : Good e m ok l) :
    Good e m ok l' := by
  obtain ⟨⟨j, h1⟩, h2⟩ := hg
  exact ⟨⟨j, by unfold Sofar; rw [h]; exact h1⟩, fun a b => by rw [h]; exact h2 a b⟩

theorem TInv.move {e : Env} {c c' : Ctl} {st st' : List Frame} {n : Nat} {l : List Ev} (h : TInv e ⟨c, st, n, l⟩)
    (hid : idC c' ++ idS st' = idC c ++ idS st) (hf : ∀ m j, Frame.loop m j ∈ st' → Frame.loop m j ∈ st)
    (hc : Claim e l c') : TInv e ⟨c', st', n, l⟩ := by
  obtain ⟨h1, h2, h3, h4, h5, h6⟩ := h
  simp only at h3 h4 h6
  rw [← hid] at h3 h4 h6
  exact ⟨hc, fun m j hm => h2 m j (hf m j hm), h3, h4, h5, h6⟩

theorem TInv.finish {e : Env} {c : Ctl} {st : List Frame} {n : Nat} {l : List Ev} {m : Em} {ok : Bool}
    (h : TInv e ⟨c, st, n, l⟩) (hid : idC c = [m.i]) (hc : Good e m ok l) :
    TInv e ⟨.fin ok, st, n, l ++ [.done m ok]⟩ := by
  obtain ⟨h1, h2, h3, h4, h5, h6⟩ := h
  simp only [hid, List.singleton_append, List.nodup_cons] at h2 h3 h4 h5 h6
  have hcalls : ∀ i, calls i (l ++ [.done m ok]) = calls i l := fun i => calls_done i l m ok
  refine ⟨trivial, fun m' j hm => ?_, h3.2, fun i hi => h4 i (List.mem_cons_of_mem _ hi), fun m' x hm => ?_, ?_⟩
  · exact (hcalls m'.i).trans (h2 m' j hm)
  · simp only [List.mem_append, List.mem_singleton] at hm
    rcases hm with hm | hm
    · exact h5 m' x hm
    · cases hm
  · intro m' ok' hm
    simp only [List.mem_append, List.mem_singleton] at hm
    rcases hm with hm | hm
    · obtain ⟨g1, g2, g3⟩ := h6 m' ok' hm
      exact ⟨good_congr (hcalls _) g1, fun hi => g2 (List.mem_cons_of_mem _ hi), g3⟩
    · cases hm
      exact ⟨good_congr (hcalls _) hc, h3.1, h4 _ (List.mem_cons_self ..)⟩

theorem TInv.new {e : Env} {c : Ctl} {st : List Frame} {n : Nat} {l : List Ev} {f : Bool} {s a : Nat}
    (h : TInv e ⟨c, st, n, l⟩) (hid : idC c = []) : TInv e ⟨.load ⟨n, f, s, a⟩, st, n + 1, l⟩ := by
  obtain ⟨h1, h2, h3, h4, h5, h6⟩ := h
  simp only [hid, List.nil_append] at h2 h3 h4 h5 h6
  refine ⟨?_, h2, ?_, fun i hi => ?_, fun m x hm => Nat.lt_succ_of_lt (h5 m x hm), fun m ok hm => ?_⟩
  · show calls n l = _
    rw [calls_new h5]; rfl
  · exact List.nodup_cons.mpr ⟨fun hn => absurd (h4 n hn) (Nat.lt_irrefl n), h3⟩
  · rcases List.mem_cons.mp hi with hi | hi
    · subst hi; exact Nat.lt_succ_self _
    · exact Nat.lt_succ_of_lt (h4 i hi)
  · obtain ⟨g1, g2, g3⟩ := h6 m ok hm
    refine ⟨g1, fun hi => ?_, Nat.lt_succ_of_lt g3⟩
    rcases List.mem_cons.mp hi with hi | hi
    · exact absurd g3 (by rw [hi]; exact Nat.lt_irrefl _)
    · exact g2 hi

theorem TInv.call {e : Env} {st : List Frame} {n : Nat} {l : List Ev} {m : Em} {j x : Nat} {c : Code}
    (h : TInv e ⟨.next m j, st, n, l⟩) (hx : (e.slots m.s)[j]? = some x) :
    TInv e ⟨.run c, .loop m (j + 1) :: st, n, l ++ [.call m x]⟩ := by
  obtain ⟨h1, h2, h3, h4, h5, h6⟩ := h
  simp only [idC, List.singleton_append, List.nodup_cons] at h2 h3 h4 h5 h6
  have hne : ∀ i, i ≠ m.i → calls i (l ++ [.call m x]) = calls i l := fun i hi => by
    rw [calls_call, if_neg (fun h => hi h.symm)]
  refine ⟨trivial, fun m' j' hm => ?_, ?_, h4, fun m' x' hm => ?_, fun m' ok hm => ?_⟩
  · rcases List.mem_cons.mp hm with hm | hm
    · cases hm
      show calls m.i _ = _
      have h1 : calls m.i l = _ := h1
      rw [calls_call, if_pos rfl, h1, List.take_add_one, hx, List.map_append]
      rfl
    · have : m'.i ≠ m.i := fun h => h3.1 (h ▸ mem_idS hm)
      exact (hne _ this).trans (h2 m' j' hm)
  · exact List.nodup_cons.mpr h3
  · simp only [List.mem_append, List.mem_singleton] at hm
    rcases hm with hm | hm
    · exact h5 m' x' hm
    · cases hm; exact h4 _ (List.mem_cons_self ..)
  · simp only [List.mem_append, List.mem_singleton] at hm
    rcases hm with hm | hm
    · obtain ⟨g1, g2, g3⟩ := h6 m' ok hm
      have : m'.i ≠ m.i := fun h => g2 (by rw [h]; exact List.mem_cons_self ..)
      exact ⟨good_congr (hne _ this) g1, g2, g3⟩
    · cases hm

theorem good_all {e : Env} {m : Em} {j : Nat} {l : List Ev} (h : Sofar e m j l) (hj : (e.slots m.s)[j]? = none) :
    Good e m true l := by
  refine ⟨⟨j, h⟩, fun _ _ => ?_⟩
  have h : calls m.i l = _ := h
  rw [h, List.take_of_length_le (List.getElem?_eq_none_iff.mp hj)]

theorem good_break {e : Env} {m : Em} {j : Nat} {l : List Ev} (h : Sofar e m j l) (hf : m.fast = false)
    (hl : e.latest m.s = true) : Good e m true l :=
  ⟨⟨j, h⟩, fun _ h => by rcases h with h | h <;> simp_all⟩

theorem good_raise {e : Env} {m : Em} {j : Nat} {l : List Ev} (h : Sofar e m j l) : Good e m false l :=
  ⟨⟨j, h⟩, fun h => by cases h⟩

theorem tinv_step {e : Env} {t : Nat} {σ σ' : St} {th : Thread} (h : Step e t σ th σ') (hi : TInv e th) :
    TInv e (σ'.thr t) := by
  have tl : ∀ {f : Frame} {st : List Frame} (m : Em) (j : Nat), Frame.loop m j ∈ st → Frame.loop m j ∈ f :: st :=
    fun m j h => List.mem_cons_of_mem _ h
  have id' : ∀ {st : List Frame} (m : Em) (j : Nat), Frame.loop m j ∈ st → Frame.loop m j ∈ st := fun m j h => h
  cases h <;> simp only [set_same]
  case ret => exact hi.move rfl id' trivial
  case raise => exact hi.move rfl id' trivial
  case emit =>
    refine hi.move rfl (fun m j hm => ?_) trivial
    rcases List.mem_cons.mp hm with hm | hm
    · cases hm
    · exact hm
  case limit n l f s a hl =>
    obtain ⟨h1, h2, h3, h4, h5, h6⟩ := hi
    simp only at h2 h3 h4 h5 h6
    refine ⟨trivial, fun m j hm => (calls_refused ..).trans (h2 m j hm), h3, h4, fun m x hm => ?_, fun m ok hm => ?_⟩
    · simp only [List.mem_append, List.mem_singleton] at hm
      rcases hm with hm | hm
      · exact h5 m x hm
      · cases hm
    · simp only [List.mem_append, List.mem_singleton] at hm
      rcases hm with hm | hm
      · obtain ⟨g1, g2⟩ := h6 m ok hm
        exact ⟨good_congr (calls_refused ..) g1, g2⟩
      · cases hm
  case checkF => exact hi.new rfl
  case check => exact hi.move rfl id' trivial
  case wait => exact hi.new rfl
  case load => exact hi.move rfl id' hi.ctl
  case storeF => exact hi.move rfl id' hi.ctl
  case store => exact hi.move rfl id' hi.ctl
  case maxd => exact hi.move rfl id' hi.ctl
  case endF hm hj => exact hi.move rfl id' (good_all hi.ctl hj)
  case «end» hm hj => exact hi.move rfl id' (good_all hi.ctl hj)
  case «break» hm hl _ => exact hi.move rfl id' (good_break hi.ctl hm hl)
  case call hx => exact hi.call hx
  case test => exact hi.move rfl id' hi.ctl
  case testNo => exact hi.finish rfl hi.ctl
  case dload => exact hi.move rfl id' hi.ctl
  case dstoreF => exact hi.finish rfl hi.ctl
  case dstore => exact hi.move rfl id' hi.ctl
  case reset => exact hi.move rfl id' hi.ctl
  case resetNo => exact hi.move rfl id' hi.ctl
  case zero => exact hi.move rfl id' hi.ctl
  case release => exact hi.finish rfl hi.ctl
  case finCont => exact hi.move rfl tl trivial
  case finNext => exact hi.move rfl tl (hi.frames _ _ (List.mem_cons_self ..))
  case finRaiseF => exact hi.move rfl tl (good_raise (hi.frames _ _ (List.mem_cons_self ..)))
  case finRaise => exact hi.move rfl tl (good_raise (hi.frames _ _ (List.mem_cons_self ..)))

theorem tinv_run (e : Env) (prog : Nat → Code) (sched : List Nat) (t : Nat) : TInv e ((run e sched (init prog)).thr t) := by
  refine run_inv (e := e) (P := fun σ => ∀ t, TInv e (σ.thr t)) (fun t σ σ' h hi t' => ?_) sched _ ?_ t
  · have h := step_rel h
    by_cases ht : t' = t
    · subst ht; exact tinv_step h (hi t')
    · rw [h.others ht]; exact hi t'
  · intro t
    exact ⟨trivial, (fun _ _ h => by cases h), List.nodup_nil, (fun _ h => by cases h), (fun _ _ h => by cases h),
      (fun _ _ h => by cases h)⟩

end Psygnal.FC
