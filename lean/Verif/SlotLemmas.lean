import Verif.CoreInv
import Verif.Spec

/-!
# Lemmas on slot lists: insertion, removal, and how API calls change them
-/
namespace Psygnal

/-! ## List level -/

theorem popAt_sublist : ∀ (ss : List Slot) (i : Nat), List.Sublist (popAt ss i) ss
  | [], _ => .slnil
  | _ :: _, 0 => List.sublist_cons_self _ _
  | s :: ss, n + 1 => (popAt_sublist ss n).cons_cons s

theorem removeKey_sublist (b : Base) : ∀ (ss ss' : List Slot), removeKey b ss = some ss' →
    List.Sublist ss' ss
  | [], _, h => by simp [removeKey] at h
  | s :: ss, ss', h => by
    simp only [removeKey] at h
    split at h
    · simp only [Option.some.injEq] at h
      subst h; exact List.sublist_cons_self _ _
    · cases hr : removeKey b ss with
      | none => simp [hr] at h
      | some t =>
        simp only [hr, Option.map_some, Option.some.injEq] at h
        subst h
        exact (removeKey_sublist b ss t hr).cons_cons s

theorem eraseSlot_sublist (b : Base) (ss : List Slot) : List.Sublist (eraseSlot b ss) ss := by
  unfold eraseSlot
  split
  · exact popAt_sublist _ _
  · exact List.Sublist.refl _

theorem finalizeSlots_sublist (o : ObjId) (ss : List Slot) :
    List.Sublist (finalizeSlots o ss) ss := by
  unfold finalizeSlots
  have : ∀ (l acc : List Slot),
      List.Sublist (l.foldl (fun acc x => (removeKey x.base acc).getD acc) acc) acc := by
    intro l
    induction l with
    | nil => intro acc; exact List.Sublist.refl _
    | cons x l ih =>
      intro acc
      refine (ih _).trans ?_
      cases h : removeKey x.base acc with
      | none => simp [h]
      | some t => simpa [h] using removeKey_sublist _ _ _ h
  exact this _ _

theorem insertByPriority_perm (x : Slot) : ∀ ss, (insertByPriority x ss).Perm (x :: ss)
  | [] => .refl _
  | s :: ss => by
    unfold insertByPriority
    split
    · exact .refl _
    · exact ((insertByPriority_perm x ss).cons s).trans (.swap _ _ _)

theorem insertByPriority_ordered (x : Slot) : ∀ ss : List Slot, ss.Pairwise SlotBefore →
    (∀ y ∈ ss, y.serial < x.serial) → (insertByPriority x ss).Pairwise SlotBefore
  | [], _, _ => by simp [insertByPriority]
  | s :: ss, h, hx => by
    unfold insertByPriority
    rw [List.pairwise_cons] at h
    split
    · rename_i hlt
      rw [List.pairwise_cons]
      refine ⟨?_, List.pairwise_cons.2 h⟩
      intro y hy
      rcases List.mem_cons.1 hy with rfl | hy
      · exact .inl hlt
      · have := h.1 y hy
        unfold SlotBefore at this ⊢
        omega
    · rename_i hlt
      rw [List.pairwise_cons]
      refine ⟨?_, insertByPriority_ordered x ss h.2 (fun y hy => hx y (List.mem_cons_of_mem _ hy))⟩
      intro y hy
      have hy' := (insertByPriority_perm x ss).mem_iff.1 hy
      rcases List.mem_cons.1 hy' with rfl | hy'
      · have := hx s List.mem_cons_self
        unfold SlotBefore; omega
      · exact h.1 y hy'

/-! ## Worlds: appending and removing -/

/-- Connections of `w'` are those of `w` minus some. -/
structure SubConn (w w' : World) : Prop where
  slots : ∀ s, List.Sublist (w'.sig s).slots (w.sig s).slots
  prio : ∀ s, (w'.sig s).prioInUse = (w.sig s).prioInUse
  serial : w'.nextSerial = w.nextSerial

theorem SubConn.refl (w : World) : SubConn w w := ⟨fun _ => .refl _, fun _ => rfl, rfl⟩
theorem SubConn.trans {a b c : World} (h : SubConn a b) (g : SubConn b c) : SubConn a c :=
  ⟨fun s => (g.1 s).trans (h.1 s), fun s => (g.2 s).trans (h.2 s), g.3.trans h.3⟩
theorem ConnEq.sub {a b : World} (h : ConnEq a b) : SubConn a b :=
  ⟨fun s => by rw [h.1 s]; exact List.Sublist.refl _, h.2.1, h.2.2.2⟩

theorem SubConn.upd (w : World) (s : SigId) (f : SigState → SigState)
    (hf : List.Sublist (f (w.sig s)).slots (w.sig s).slots)
    (hp : (f (w.sig s)).prioInUse = (w.sig s).prioInUse) : SubConn w (w.upd s f) := by
  refine ⟨fun x => ?_, fun x => ?_, rfl⟩ <;> rw [upd_sig] <;> split
  · rename_i h; subst h; exact hf
  · exact List.Sublist.refl _
  · rename_i h; subst h; exact hp
  · rfl

theorem SubConn.foldl {α : Type} (g : World → α → World) (hg : ∀ (w : World) a, SubConn w (g w a)) :
    ∀ (l : List α) (w : World), SubConn w (l.foldl g w)
  | [], w => .refl w
  | a :: l, w => (hg w a).trans (SubConn.foldl g hg l (g w a))

theorem sub_disconnectRelay (env : Env) (w : World) (r : SigId) :
    SubConn w (w.disconnectRelay env r) := by
  refine SubConn.foldl _ (fun w a => ?_) _ _
  exact SubConn.upd _ _ _ (eraseSlot_sublist _ _) rfl

theorem sub_setSlotsRemoved (env : Env) (w : World) (s : SigId) (ss : List Slot)
    (h : List.Sublist ss (w.sig s).slots) : SubConn w (w.setSlotsRemoved env s ss) := by
  have h1 : SubConn w (w.upd s fun st => { st with slots := ss }) := .upd _ _ _ h rfl
  unfold World.setSlotsRemoved
  dsimp only
  split
  · exact h1.trans (sub_disconnectRelay _ _ _)
  · exact h1

theorem sub_disconnect1 (env : Env) (w : World) (s : SigId) (c : Option Callable) (m : Bool) :
    SubConn w (w.disconnect1 env s c m).1 := by
  unfold World.disconnect1
  split
  · exact sub_setSlotsRemoved _ _ _ _ (List.nil_sublist _)
  · split
    · exact sub_setSlotsRemoved _ _ _ _ (popAt_sublist _ _)
    · split <;> exact .refl _

theorem sub_disconnectMembers (env : Env) (c : Option Callable) (m : Bool) :
    ∀ (l : List SigId) (w : World), SubConn w (World.disconnectMembers env c m l w).1
  | [], w => .refl w
  | s :: ss, w => by
    unfold World.disconnectMembers
    have h := sub_disconnect1 env w s c m
    split
    · rename_i w' _ heq
      rw [heq] at h
      exact h.trans (sub_disconnectMembers env c m ss _)
    · rename_i w' _ heq
      rw [heq] at h
      exact h

theorem sub_disconnect (env : Env) (w : World) (s : SigId) (c : Option Callable) (m : Bool) :
    SubConn w (w.disconnect env s c m).1 := by
  unfold World.disconnect
  split
  · have h := sub_disconnectMembers env c m (env.decl s).children w
    split
    · rename_i w' _ heq
      rw [heq] at h
      exact h.trans (sub_disconnect1 env _ s c m)
    · rename_i w' _ heq
      rw [heq] at h
      exact h
  · exact sub_disconnect1 env w s c m

theorem sub_discard (env : Env) (w : World) (s : SigId) (b : Base) (m : Bool) :
    SubConn w (w.discard env s b m).1 := by
  unfold World.discard
  split
  · rename_i h
    exact sub_setSlotsRemoved _ _ _ _ (removeKey_sublist _ _ _ h)
  · split <;> exact .refl _

theorem sub_kill (env : Env) (w : World) (o : ObjId) : SubConn w (w.kill env o) := by
  refine ⟨fun s => ?_, fun s => rfl, rfl⟩
  simp only [World.kill]
  split
  · exact finalizeSlots_sublist _ _
  · split
    · exact (eraseSlot_sublist _ _).trans (finalizeSlots_sublist _ _)
    · exact finalizeSlots_sublist _ _

/-- All API calls except connecting only remove connections. -/
theorem sub_run {env : Env} (w : World) (a : Act) (h1 : ∀ s c o, a ≠ .connect s c o)
    (h2 : ∀ s b m p, a ≠ .connectRaw s b m p) : SubConn w (a.run env w).1 := by
  cases a <;> simp only [Act.run]
  case connect s c o => exact absurd rfl (h1 s c o)
  case connectRaw s b m p => exact absurd rfl (h2 s b m p)
  case disconnect => exact sub_disconnect _ _ _ _ _
  case discard => exact sub_discard _ _ _ _ _
  case block => exact (connEq_block _ _ _ _).sub
  case unblock => exact (connEq_unblock _ _ _).sub
  case pause => exact ConnEq.sub (by simp [ConnEq])
  case kill => exact sub_kill _ _ _
  case setHook => exact ConnEq.sub ⟨fun _ => rfl, fun _ => rfl, rfl, rfl⟩
  all_goals exact .refl _

/-- Generic preservation: a property of connections preserved by removal, by connecting a relay that
is not yet connected, and by appending the slots `a` itself asks for, is preserved by `a`. -/
theorem run_preserves' {env : Env} {J : World → Prop} (a : Act) (w : World)
    (hsub : ∀ w w', SubConn w w' → J w → J w')
    (hrel : ∀ w r c, slotIndex (.relay r) (w.sig c).slots = none → J w →
      J (w.plainAppend c (relaySlot r)))
    (hcon : ∀ s c o m, a = .connect s c o → c.base.isDead w = false →
      ¬ (o.unique ≠ .no ∧ (slotIndex c.base (w.sig s).slots).isSome) →
      (if o.checkNargs.getD (env.decl s).checkNargs ∧ o.maxArgs = none then
        checkNargs env (env.decl s).sig.length c else .ok o.maxArgs) = .ok m →
      J w → J (w.plainAppend s
        { base := c.base, bound := c.boundFor, maxArgs := m, priority := o.priority,
          thread := resolveThread w o.thread }))
    (hraw : ∀ s b m p, a = .connectRaw s b m p → b.isDead w = false → J w →
      J (w.plainAppend s { base := b, bound := [], maxArgs := m, priority := p, thread := none })) :
    J w → J (a.run env w).1 := by
  intro hj
  have hcr : ∀ (r : SigId) (l : List SigId) (w : World), J w →
      J (l.foldl (World.connectRelay1 r) w) := by
    intro r l
    induction l with
    | nil => intro w h; exact h
    | cons c l ih =>
      intro w h
      apply ih
      unfold World.connectRelay1
      split
      · exact h
      · rename_i hn
        exact hrel _ _ _ (by simpa using hn) h
  have hap : ∀ (w : World) s x, J (w.plainAppend s x) → J (w.appendSlot env s x) := by
    intro w s x h
    unfold World.appendSlot
    dsimp only
    split
    · exact hcr _ _ _ h
    · exact h
  cases a <;> simp only [Act.run]
  case connect s c o =>
    split
    · exact hj
    rename_i hd
    unfold World.connect
    split
    · split <;> exact hj
    · dsimp only
      split
      · exact hj
      · rename_i hm
        exact hap _ _ _ (hcon _ _ _ _ rfl (by simpa using hd) ‹_› hm hj)
  case connectRaw =>
    split
    · exact hj
    · rename_i hd
      exact hap _ _ _ (hraw _ _ _ _ rfl (by simpa using hd) hj)
  case disconnect => exact hsub _ _ (sub_disconnect _ _ _ _ _) hj
  case discard => exact hsub _ _ (sub_discard _ _ _ _ _) hj
  case block => exact hsub _ _ (connEq_block _ _ _ _).sub hj
  case unblock => exact hsub _ _ (connEq_unblock _ _ _).sub hj
  case pause => exact hsub _ _ (ConnEq.sub (by simp [ConnEq])) hj
  case kill => exact hsub _ _ (sub_kill _ _ _) hj
  case setHook => exact hsub w _ (ConnEq.sub ⟨fun _ => rfl, fun _ => rfl, rfl, rfl⟩) hj
  all_goals exact hj

/-- A property of connections preserved by removal and by appending is preserved by `Act.run`. -/
theorem run_preserves {env : Env} {J : World → Prop}
    (hsub : ∀ w w', SubConn w w' → J w → J w')
    (happ : ∀ w s x, J w → J (w.plainAppend s x)) (w : World) (a : Act) :
    J w → J (a.run env w).1 :=
  run_preserves' a w hsub (fun _ _ _ _ => happ _ _ _) (fun _ _ _ _ _ _ _ _ => happ _ _ _)
    (fun _ _ _ _ _ _ => happ _ _ _)

/-- The invariant behind C01. -/
def OrderInv (w : World) : Prop :=
  ∀ s, (w.sig s).slots.Pairwise SlotBefore ∧
    (∀ x ∈ (w.sig s).slots, x.serial < w.nextSerial) ∧
    ((w.sig s).prioInUse = false → ∀ x ∈ (w.sig s).slots, x.priority = 0)

theorem orderInv_sub (w w' : World) (h : SubConn w w') (hj : OrderInv w) : OrderInv w' := by
  intro s
  obtain ⟨h1, h2, h3⟩ := hj s
  refine ⟨h1.sublist (h.slots s), fun x hx => ?_, fun hp x hx => ?_⟩
  · rw [h.serial]; exact h2 x ((h.slots s).subset hx)
  · rw [h.prio] at hp; exact h3 hp x ((h.slots s).subset hx)

theorem orderInv_append (w : World) (s : SigId) (x : Slot) (hj : OrderInv w) :
    OrderInv (w.plainAppend s x) := by
  intro y
  obtain ⟨h1, h2, h3⟩ := hj y
  show (_ ∧ _ ∧ _)
  by_cases hy : y = s
  · subst hy
    simp only [World.plainAppend, upd_sig_same, SigState.appendSlot]
    split
    · rename_i hp
      split
      · rename_i h0
        refine ⟨?_, ?_, ?_⟩
        · rw [List.pairwise_append]
          refine ⟨h1, by simp, ?_⟩
          intro a ha b hb
          simp only [List.mem_singleton] at hb
          subst hb
          exact .inr ⟨by simp [h3 hp a ha, h0], h2 a ha⟩
        · intro a ha
          rcases List.mem_append.1 ha with ha | ha
          · exact Nat.lt_succ_of_lt (h2 a ha)
          · simp only [List.mem_singleton] at ha; subst ha; exact Nat.lt_succ_self _
        · intro _ a ha
          rcases List.mem_append.1 ha with ha | ha
          · exact h3 hp a ha
          · simp only [List.mem_singleton] at ha; subst ha; exact h0
      · refine ⟨insertByPriority_ordered _ _ h1 h2, ?_, by simp⟩
        intro a ha
        rcases List.mem_cons.1 ((insertByPriority_perm _ _).mem_iff.1 ha) with rfl | ha
        · exact Nat.lt_succ_self _
        · exact Nat.lt_succ_of_lt (h2 a ha)
    · rename_i hp
      refine ⟨insertByPriority_ordered _ _ h1 h2, ?_, fun h => absurd h hp⟩
      intro a ha
      rcases List.mem_cons.1 ((insertByPriority_perm _ _).mem_iff.1 ha) with rfl | ha
      · exact Nat.lt_succ_self _
      · exact Nat.lt_succ_of_lt (h2 a ha)
  · simp only [World.plainAppend, upd_sig_ne _ _ hy]
    exact ⟨h1, fun a ha => Nat.lt_succ_of_lt (h2 a ha), h3⟩

theorem ConnEq.orderInv {w w' : World} (h : ConnEq w w') (hj : OrderInv w) : OrderInv w' :=
  orderInv_sub _ _ h.sub hj

theorem only_true (p : Prog) : p.Only anyAct := by
  induction p with
  | ret => trivial
  | raise => trivial
  | user f k ih => exact ih
  | api a k ih => exact ⟨trivial, ih⟩
  | withBlocked s ex b k ihb ihk => exact ⟨trivial, trivial, ihb, ihk⟩
  | withPaused s red b k ihb ihk => exact ⟨trivial, trivial, ihb, ihk⟩

theorem env_only_true (env : Env) : env.Only anyAct := fun _ _ => only_true _

theorem task_only_true (t : Task) : t.Only anyAct := by
  cases t <;> first | trivial | exact only_true _

/-- Connection properties also hold whenever a nested procedure starts. -/
theorem conn_reaches {env : Env} {Q : Act → Prop} (J : World → Prop)
    (hrun : ∀ w a, Q a → J w → J (a.run env w).1) (hc : ∀ w w', ConnEq w w' → J w → J w')
    (he : env.Only Q) {t w t' w'} (h : (body env t w).Reaches (Runs env) t' w') :
    t.Only Q → J w → t'.Only Q ∧ J w' := by
  intro ht hj
  have hr : ∀ {t w w' r}, Runs env t w w' r → t.Only Q → J w → J w' := fun h => conn_inv J hrun hc he h
  have hbd : ∀ b a, (env.body b a).Only Q := he
  have hb := fun (w : World) s ex => hc w _ (connEq_block env w s ex)
  have hu := fun (w : World) s => hc w _ (connEq_unblock env w s)
  have h1 := fun (w : World) s => hc w (w.pause s) (by simp [ConnEq])
  have h2 := fun (w : World) s => hc w (w.unpause s) (by simp [ConnEq])
  have h5 := fun (w : World) s a => hc w (w.enqueue s a) (by simp [ConnEq])
  have h6 := fun (w : World) s => hc w (w.startLoop s) (by simp [ConnEq])
  have h8 := fun (w : World) s a => hc w (w.startFast s a) (by simp [ConnEq])
  have h10 := fun (w : World) s => hc w (w.popQueue s) (by simp [ConnEq])
  have h12 := fun (w : World) t x a => hc w (w.getQueue t x a) (by simp [ConnEq])
  have h13 := fun (w : World) m => hc w (w.setMem m) (by simp [ConnEq])
  have h14 := fun (w : World) a b c d => hc w (w.logCall a b c d) (by simp [ConnEq])
  clear hc
  cases t using Task.splitProg
  all_goals simp only [body] at h
  all_goals repeat' split at h
  all_goals simp only [Comp.Reaches] at h
  all_goals grind [Comp.Reaches, task?_only]

theorem connEq_thread (w : World) (t : ThreadId) : ConnEq w { w with thread := t } := by
  simp [ConnEq]

/-- A connection property that holds initially and is preserved by the allowed API calls holds in
all reachable worlds … -/
theorem conn_reachable {env : Env} {Q : Act → Prop} (J : World → Prop) (h0 : J .init)
    (hrun : ∀ w a, Q a → J w → J (a.run env w).1) (hc : ∀ w w', ConnEq w w' → J w → J w')
    (he : env.Only Q) {w} (h : Reachable env Q w) : J w := by
  induction h with
  | init => exact h0
  | step t p hp _ hr ih =>
    exact conn_inv J hrun hc he hr hp (hc _ _ (connEq_thread _ t) ih)

/-- … and at every moment of every execution. -/
theorem conn_live {env : Env} {Q : Act → Prop} (J : World → Prop) (h0 : J .init)
    (hrun : ∀ w a, Q a → J w → J (a.run env w).1) (hc : ∀ w w', ConnEq w w' → J w → J w')
    (he : env.Only Q) {t w} (h : Live env Q t w) : t.Only Q ∧ J w := by
  induction h with
  | top hr t p hp =>
    exact ⟨hp, hc _ _ (connEq_thread _ t) (conn_reachable J h0 hrun hc he hr)⟩
  | sub _ hr ih => exact conn_reaches J hrun hc he hr ih.1 ih.2

theorem orderInv_init : OrderInv .init := fun s =>
  ⟨.nil, by simp [World.init, SigState.init], by simp [World.init, SigState.init]⟩

theorem orderInv_live {env : Env} {t : Task} {w : World} (h : Live env anyAct t w) : OrderInv w :=
  (conn_live OrderInv orderInv_init (fun w a _ => run_preserves orderInv_sub orderInv_append w a)
    (fun _ _ he => orderInv_sub _ _ he.sub) (env_only_true env) h).2


/-! ## Shape of the slot list operations -/

theorem slotIndex_none {b : Base} : ∀ {ss : List Slot}, slotIndex b ss = none ↔ ∀ x ∈ ss, x.base ≠ b
  | [] => by simp [slotIndex]
  | x :: ss => by
    unfold slotIndex
    have ih := @slotIndex_none b ss
    split
    · rename_i h; simp [h]
    · rename_i h
      simp only [Option.map_eq_none_iff, ih, List.mem_cons, forall_eq_or_imp]
      exact ⟨fun g => ⟨h, g⟩, fun g => g.2⟩

theorem slotIndex_some {b : Base} : ∀ {ss : List Slot} {i : Nat}, slotIndex b ss = some i →
    ∃ l₁ x l₂, ss = l₁ ++ x :: l₂ ∧ x.base = b ∧ (∀ y ∈ l₁, y.base ≠ b) ∧ popAt ss i = l₁ ++ l₂
  | [], i, h => by simp [slotIndex] at h
  | x :: ss, i, h => by
    unfold slotIndex at h
    split at h
    · rename_i hx
      simp only [Option.some.injEq] at h
      subst h
      exact ⟨[], x, ss, rfl, hx, by simp, rfl⟩
    · rename_i hx
      simp only [Option.map_eq_some_iff] at h
      obtain ⟨j, hj, rfl⟩ := h
      obtain ⟨l₁, y, l₂, rfl, h2, h3, h4⟩ := slotIndex_some hj
      refine ⟨x :: l₁, y, l₂, rfl, h2, ?_, ?_⟩
      · simp only [List.mem_cons, forall_eq_or_imp]; exact ⟨hx, h3⟩
      · simp [popAt, h4]

theorem removeKey_some {b : Base} : ∀ {ss ss' : List Slot}, removeKey b ss = some ss' →
    ∃ l₁ x l₂, ss = l₁ ++ x :: l₂ ∧ x.base = b ∧ (∀ y ∈ l₁, y.base ≠ b) ∧ ss' = l₁ ++ l₂
  | [], _, h => by simp [removeKey] at h
  | x :: ss, ss', h => by
    unfold removeKey at h
    split at h
    · rename_i hx
      simp only [Option.some.injEq] at h
      subst h
      exact ⟨[], x, ss, rfl, hx, by simp, rfl⟩
    · rename_i hx
      simp only [Option.map_eq_some_iff] at h
      obtain ⟨j, hj, rfl⟩ := h
      obtain ⟨l₁, y, l₂, rfl, h2, h3, rfl⟩ := removeKey_some hj
      refine ⟨x :: l₁, y, l₂, rfl, h2, ?_, rfl⟩
      simp only [List.mem_cons, forall_eq_or_imp]; exact ⟨hx, h3⟩

theorem removeKey_none {b : Base} : ∀ {ss : List Slot}, removeKey b ss = none ↔ ∀ x ∈ ss, x.base ≠ b
  | [] => by simp [removeKey]
  | x :: ss => by
    unfold removeKey
    have ih := @removeKey_none b ss
    split
    · rename_i h; simp [h]
    · rename_i h
      simp only [Option.map_eq_none_iff, ih, List.mem_cons, forall_eq_or_imp]
      exact ⟨fun g => ⟨h, g⟩, fun g => g.2⟩

theorem insertByPriority_split (x : Slot) : ∀ ss : List Slot, ∃ l₁ l₂, ss = l₁ ++ l₂ ∧
    insertByPriority x ss = l₁ ++ x :: l₂
  | [] => ⟨[], [], rfl, rfl⟩
  | y :: ss => by
    unfold insertByPriority
    split
    · exact ⟨[], y :: ss, rfl, rfl⟩
    · obtain ⟨l₁, l₂, h1, h2⟩ := insertByPriority_split x ss
      exact ⟨y :: l₁, l₂, by simp [h1], by simp [h2]⟩

theorem appendSlot_split (st : SigState) (x : Slot) : ∃ l₁ l₂, st.slots = l₁ ++ l₂ ∧
    (st.appendSlot x).slots = l₁ ++ x :: l₂ := by
  unfold SigState.appendSlot
  split
  · split
    · exact ⟨st.slots, [], by simp, by simp⟩
    · exact insertByPriority_split _ _
  · exact insertByPriority_split _ _

theorem plainAppend_same (w : World) (s : SigId) (x : Slot) :
    ((w.plainAppend s x).sig s) = (w.sig s).appendSlot { x with serial := w.nextSerial } := by
  simp [World.plainAppend]

theorem plainAppend_ne (w : World) (s t : SigId) (x : Slot) (h : t ≠ s) :
    ((w.plainAppend s x).sig t) = w.sig t := by
  simp [World.plainAppend, upd_sig_ne _ _ h]

end Psygnal
