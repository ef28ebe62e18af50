import Verif.LogInv

/-!
# Death of owners (helper lemmas for C15)
-/
namespace Psygnal

theorem filter_removeKey {o : ObjId} {b : Base} (hb : b.owner? = some o) :
    ∀ (ss : List Slot), ((removeKey b ss).getD ss).filter (fun x => !x.ownedBy o) =
      ss.filter (fun x => !x.ownedBy o)
  | [] => rfl
  | s :: ss => by
    unfold removeKey
    split
    · rename_i h
      subst h
      simp [Slot.ownedBy, hb]
    · have ih := filter_removeKey hb ss
      cases hr : removeKey b ss with
      | none => rfl
      | some l =>
        rw [hr] at ih
        simp only [Option.getD_some, Option.map_some, List.filter_cons] at ih ⊢
        rw [ih]

/-- Running the finalizer of every slot owned by `o` removes exactly these slots. -/
theorem finalizeSlots_eq (o : ObjId) (ss : List Slot) :
    finalizeSlots o ss = ss.filter (fun x => !x.ownedBy o) := by
  have key : ∀ (l acc : List Slot), (∀ x ∈ l, x.ownedBy o) →
      List.Perm ((acc.filter (Slot.ownedBy o)).map Slot.base) (l.map Slot.base) →
      l.foldl (fun acc x => (removeKey x.base acc).getD acc) acc = acc.filter (fun x => !x.ownedBy o) := by
    intro l
    induction l with
    | nil =>
      intro acc _ hp
      have : acc.filter (Slot.ownedBy o) = [] := by simpa using hp
      rw [List.filter_eq_nil_iff] at this
      symm
      simpa using this
    | cons x l ih =>
      intro acc hl hp
      have hx : x.base.owner? = some o := by simpa [Slot.ownedBy] using hl x (by simp)
      rw [List.foldl_cons, ih]
      · exact filter_removeKey hx acc
      · exact fun y hy => hl y (by simp [hy])
      · have hmem : x.base ∈ (acc.filter (Slot.ownedBy o)).map Slot.base := hp.mem_iff.2 (by simp)
        have : ∃ y ∈ acc, y.base = x.base := by
          obtain ⟨y, hy, h⟩ := List.mem_map.1 hmem
          exact ⟨y, (List.mem_filter.1 hy).1, h⟩
        cases hr : removeKey x.base acc with
        | none =>
          obtain ⟨y, hy, h⟩ := this
          exact absurd h (removeKey_none.1 hr y hy)
        | some acc' =>
          obtain ⟨l₁, y, l₂, rfl, h2, -, rfl⟩ := removeKey_some hr
          simp only [Option.getD_some]
          have hy : y.ownedBy o = true := by simp [Slot.ownedBy, h2, hx]
          rw [List.filter_append, List.filter_cons_of_pos hy, List.map_append, List.map_cons,
            List.map_cons, h2] at hp
          rw [List.filter_append, List.map_append]
          exact (List.perm_middle.symm.trans hp).cons_inv
  exact key _ _ (fun x hx => (List.mem_filter.1 hx).2) (.refl _)

theorem dead_foldl {α : Type} (g : World → α → World) (hg : ∀ (w : World) a, (g w a).dead = w.dead) :
    ∀ (l : List α) (w : World), (l.foldl g w).dead = w.dead
  | [], _ => rfl
  | a :: l, w => (dead_foldl g hg l (g w a)).trans (hg w a)

theorem dead_appendSlot (env : Env) (w : World) (s : SigId) (x : Slot) :
    (w.appendSlot env s x).dead = w.dead := by
  unfold World.appendSlot World.connectRelay
  dsimp only
  split
  · exact dead_foldl _ (fun w c => by unfold World.connectRelay1; split <;> rfl) _ _
  · rfl

theorem dead_setSlotsRemoved (env : Env) (w : World) (s : SigId) (ss : List Slot) :
    (w.setSlotsRemoved env s ss).dead = w.dead := by
  unfold World.setSlotsRemoved World.disconnectRelay
  dsimp only
  split
  · exact dead_foldl (World.disconnectRelay1 s) (fun w c => rfl) _ _
  · rfl

theorem dead_disconnect1 (env : Env) (w : World) (s : SigId) (c : Option Callable) (m : Bool) :
    (w.disconnect1 env s c m).1.dead = w.dead := by
  unfold World.disconnect1
  split
  · exact dead_setSlotsRemoved ..
  · split
    · exact dead_setSlotsRemoved ..
    · split <;> rfl

theorem dead_disconnectMembers (env : Env) (c : Option Callable) (m : Bool) :
    ∀ (l : List SigId) (w : World), (World.disconnectMembers env c m l w).1.dead = w.dead
  | [], _ => rfl
  | s :: l, w => by
    unfold World.disconnectMembers
    have := dead_disconnect1 env w s c m
    split
    · rename_i w' r h
      rw [h] at this
      exact (dead_disconnectMembers env c m l w').trans this
    · rename_i h
      rw [h] at this
      exact this

theorem dead_disconnect (env : Env) (w : World) (s : SigId) (c : Option Callable) (m : Bool) :
    (w.disconnect env s c m).1.dead = w.dead := by
  unfold World.disconnect
  split
  · have := dead_disconnectMembers env c m (env.decl s).children w
    split
    · rename_i h; rw [h] at this; exact (dead_disconnect1 ..).trans this
    · rename_i h; rw [h] at this; exact this
  · exact dead_disconnect1 ..

theorem dead_run (env : Env) (w : World) (a : Act) (h : ∀ o, a ≠ .kill o) :
    (a.run env w).1.dead = w.dead := by
  cases a <;> simp only [Act.run]
  case connect =>
    split
    · rfl
    · unfold World.connect
      split
      · split <;> rfl
      · dsimp only
        split
        · rfl
        · exact dead_appendSlot ..
  case connectRaw =>
    split
    · rfl
    · exact dead_appendSlot ..
  case disconnect => exact dead_disconnect ..
  case discard =>
    unfold World.discard
    split
    · exact dead_setSlotsRemoved ..
    · split <;> rfl
  case block => exact (connEq_block _ _ _ _).2.2.1
  case unblock => exact (connEq_unblock _ _ _).2.2.1
  case kill o => exact absurd rfl (h o)
  all_goals rfl

/-- The dead stay dead. -/
theorem dead_mono_run (env : Env) (w : World) (a : Act) (o : ObjId) (h : w.dead o = true) :
    (a.run env w).1.dead o = true := by
  by_cases hk : ∃ k, a = .kill k
  · obtain ⟨k, rfl⟩ := hk
    simp only [Act.run, World.kill]
    split <;> simp [h]
  · rw [dead_run env w a (fun k e => hk ⟨k, e⟩)]; exact h

theorem dead_mono {env : Env} {o : ObjId} {t w w' r} (h : Runs env t w w' r) :
    w.dead o = true → w'.dead o = true := by
  intro hw
  exact conn_inv (Q := anyAct) (fun w => w.dead o = true)
    (fun w a _ h => dead_mono_run env w a o h) (fun w w' h hw => by rw [h.2.2.1]; exact hw)
    (env_only_true env) h (task_only_true t) hw

/-- No connected slot has a dead owner. -/
def DeadInv (w : World) : Prop := ∀ s, ∀ x ∈ (w.sig s).slots, x.base.isDead w = false

theorem kill_sub_filter (env : Env) (w : World) (o : ObjId) (s : SigId) :
    List.Sublist ((w.kill env o).sig s).slots ((w.sig s).slots.filter fun x => !x.ownedBy o) := by
  simp only [World.kill, finalizeSlots_eq]
  split
  · exact .refl _
  · split
    · exact eraseSlot_sublist ..
    · exact .refl _

theorem deadInv_run {env : Env} (w : World) (a : Act) (hj : DeadInv w) : DeadInv (a.run env w).1 := by
  by_cases hk : ∃ k, a = .kill k
  · obtain ⟨o, rfl⟩ := hk
    intro s x hx
    have hx := (kill_sub_filter env w o s).subset hx
    rw [List.mem_filter] at hx
    have h1 := hj s x hx.1
    have h2 : x.base.owner? ≠ some o := by simpa [Slot.ownedBy] using hx.2
    unfold Base.isDead at h1 ⊢
    split
    · rfl
    · rename_i o' ho
      rw [ho] at h1 h2
      simp only [Act.run, World.kill]
      split
      · simp_all
      · exact h1
  · have hd := dead_run env w a (fun k e => hk ⟨k, e⟩)
    have key : ∀ b : Base, b.isDead (a.run env w).1 = b.isDead w := by
      intro b; unfold Base.isDead; rw [hd]
    have happ : ∀ (w1 : World) s x, x.base.isDead w = false →
        (∀ s, ∀ x ∈ (w1.sig s).slots, x.base.isDead w = false) →
        ∀ s', ∀ y ∈ ((w1.plainAppend s x).sig s').slots, y.base.isDead w = false := by
      intro w1 s x hx hw s' y hy
      by_cases hs : s' = s
      · subst hs
        rw [plainAppend_same] at hy
        obtain ⟨l₁, l₂, h1, h2⟩ := appendSlot_split (w1.sig s') { x with serial := w1.nextSerial }
        rw [h2] at hy
        simp only [List.mem_append, List.mem_cons] at hy
        rcases hy with hy | rfl | hy
        · exact hw s' y (by rw [h1]; simp [hy])
        · exact hx
        · exact hw s' y (by rw [h1]; simp [hy])
      · rw [plainAppend_ne _ _ _ _ hs] at hy
        exact hw s' y hy
    have := run_preserves' (env := env)
      (J := fun w1 => ∀ s, ∀ x ∈ (w1.sig s).slots, x.base.isDead w = false) a w
      (fun w1 w2 hs hw s x hx => hw s x ((hs.slots s).subset hx))
      (fun w1 r c _ hw => happ w1 c (relaySlot r) rfl hw)
      (fun s c o m _ hd _ _ hw => happ w s _ hd hw)
      (fun s b m p _ hd hw => happ w s _ hd hw) hj
    intro s x hx
    rw [key]
    exact this s x hx

theorem ConnEq.deadInv {w w' : World} (h : ConnEq w w') (hj : DeadInv w) : DeadInv w' := by
  intro s x hx
  rw [h.1 s] at hx
  have := hj s x hx
  unfold Base.isDead at this ⊢
  rw [h.2.2.1]
  exact this

theorem deadInv_live {env : Env} {Q : Act → Prop} {t : Task} {w : World} (h : Live env Q t w) :
    DeadInv w := by
  have h' : ∀ w, Reachable env Q w → DeadInv w := by
    intro w h
    induction h with
    | init => intro s x hx; simp [World.init, SigState.init] at hx
    | step t p hp _ hr ih =>
      exact conn_inv (Q := anyAct) DeadInv (fun w a _ => deadInv_run w a) (fun _ _ he => he.deadInv)
        (env_only_true env) hr (task_only_true _) ((connEq_thread _ t).deadInv ih)
  induction h with
  | top hr t p hp => exact (connEq_thread _ t).deadInv (h' _ hr)
  | sub _ hr ih =>
    exact (conn_reaches (Q := anyAct) DeadInv (fun w a _ => deadInv_run w a) (fun _ _ he => he.deadInv)
        (env_only_true env) hr (task_only_true _) ih).2

/-- Invocations of callbacks owned by `o`. -/
def callsOn (o : ObjId) (l : List Ev) : List Ev := l.filter fun e => match e with
  | .call _ _ _ _ _ b _ => b.owner? == some o
  | _ => false

@[grind =] theorem callsOn_append (o : ObjId) (l : List Ev) (e : Ev) :
    callsOn o (l ++ [e]) = callsOn o l ++ callsOn o [e] := by
  simp [callsOn]
@[simp, grind =] theorem callsOn_req (o s a) : callsOn o [.req s a] = [] := rfl
@[simp, grind =] theorem callsOn_fast (o s a e) : callsOn o [.fast s a e] = [] := rfl
@[simp, grind =] theorem callsOn_ret (o e s b r) : callsOn o [.ret e s b r] = [] := rfl
@[simp, grind =] theorem callsOn_put (o t b a e) : callsOn o [.put t b a e] = [] := rfl
@[simp, grind =] theorem callsOn_get (o t b a) : callsOn o [.get t b a] = [] := rfl
theorem callsOn_call {o e s d m t b a} (h : Base.owner? b ≠ some o) :
    callsOn o [.call e s d m t b a] = [] := by simp [callsOn, h]

theorem callsOn_logCall {w : World} {o em src b a} (hd : w.dead o = true) (hb : ¬ b.isDead w = true) :
    callsOn o (w.logCall em src b a).log = callsOn o w.log := by
  unfold World.logCall
  rw [ev_log, callsOn_append, callsOn_call, List.append_nil]
  intro ho
  simp [Base.isDead, ho, hd] at hb

/-- Nobody calls the dead. -/
theorem callsOn_dead {env : Env} {o : ObjId} {t w w' r} (h : Runs env t w w' r) :
    w.dead o = true → callsOn o w'.log = callsOn o w.log := by
  refine Runs.induct (P := fun t w w' _ => w.dead o = true → callsOn o w'.log = callsOn o w.log) ?_ h
  clear h
  have dm := fun t w w' r => @dead_mono env o t w w' r
  have dr := fun w a => dead_mono_run env w a o
  have db : ∀ (w : World) s ex, (w.block env s ex).dead = w.dead :=
    fun w s ex => (connEq_block env w s ex).2.2.1
  have du : ∀ (w : World) s, (w.unblock env s).dead = w.dead :=
    fun w s => (connEq_unblock env w s).2.2.1
  have hc := @callsOn_logCall
  intro t w w' r h
  unfold_body t h
  all_goals grind [Comp.Via]

end Psygnal
