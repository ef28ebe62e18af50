import Verif.DeliveryLemmas

/-!
# Emissions during which connections change (helper lemmas for C49)
-/
namespace Psygnal

/-- While `t` runs, connections of `s` are only added, wherever (specification: changes of `_slots` of
`_signal.py:770-802` during the loop of `:1307`). -/
def Grows (env : Env) (s : SigId) (t : Task) (w : World) : Prop :=
  ∀ t1 w1 t2 w2, Within env t w t1 w1 → Within env t1 w1 t2 w2 → (w1.sig s).slots.Sublist (w2.sig s).slots

/-- While `t` runs, connections of `s` are only removed, wherever (see `Grows`). -/
def Shrinks (env : Env) (s : SigId) (t : Task) (w : World) : Prop :=
  ∀ t1 w1 t2 w2, Within env t w t1 w1 → Within env t1 w1 t2 w2 → (w2.sig s).slots.Sublist (w1.sig s).slots

/-- While `t` runs, the connections of `s` that emit loop `em` has served, and the one it is serving, stay
where they are: nothing is removed from or put into this part of the list (see `Grows`). -/
def Settled (env : Env) (s : SigId) (em : Nat) (t : Task) (w : World) : Prop :=
  ∀ a i w1 t2 w2, Within env t w (.forSlots s em a i) w1 → Within env (.forSlots s em a i) w1 t2 w2 →
    (w1.sig s).slots.take (i + 1) <+: (w2.sig s).slots

theorem Grows.mono {env : Env} {s t w t1 w1} (h : Grows env s t w) (g : Within env t w t1 w1) : Grows env s t1 w1 :=
  fun t2 w2 t3 w3 h2 h3 => h t2 w2 t3 w3 (g.trans h2) h3

theorem Shrinks.mono {env : Env} {s t w t1 w1} (h : Shrinks env s t w) (g : Within env t w t1 w1) : Shrinks env s t1 w1 :=
  fun t2 w2 t3 w3 h2 h3 => h t2 w2 t3 w3 (g.trans h2) h3

theorem Settled.mono {env : Env} {s em t w t1 w1} (h : Settled env s em t w) (g : Within env t w t1 w1) :
    Settled env s em t1 w1 :=
  fun a i w2 t3 w3 h2 h3 => h a i w2 t3 w3 (g.trans h2) h3

theorem forSlots_changes {env : Env} {t w w' r} (h : Runs env t w w' r) : ∀ s em args i,
    t = .forSlots s em args i → em < w.nextEm → DeadInv w → ∃ ys l, w'.log = w.log ++ l ∧
      LoopEnd False s em w.thread args ys l r ∧
      (r = .ok () → ∃ j, Within env t w (.forSlots s em args j) w') ∧
      (Grows env s t w → r = .ok () → ((w.sig s).slots.drop i).Sublist ys) ∧
      (Shrinks env s t w → ys.Sublist ((w.sig s).slots.drop i)) ∧
      (Settled env s em t w → r = .ok () → ys = (w'.sig s).slots.drop i) := by
  refine Runs.induct (P := fun t w w' r => ∀ s em args i,
    t = .forSlots s em args i → em < w.nextEm → DeadInv w → ∃ ys l, w'.log = w.log ++ l ∧
      LoopEnd False s em w.thread args ys l r ∧
      (r = .ok () → ∃ j, Within env t w (.forSlots s em args j) w') ∧
      (Grows env s t w → r = .ok () → ((w.sig s).slots.drop i).Sublist ys) ∧
      (Shrinks env s t w → ys.Sublist ((w.sig s).slots.drop i)) ∧
      (Settled env s em t w → r = .ok () → ys = (w'.sig s).slots.drop i)) ?_ h
  clear h
  rintro t w w' r h s em args i rfl hn hdead
  simp only [body] at h
  split at h
  · rename_i hx
    obtain ⟨rfl, rfl⟩ := h
    have hx' := List.drop_eq_nil_of_le (List.getElem?_eq_none_iff.1 hx)
    exact ⟨[], [], by simp, .inl ⟨rfl, rfl⟩, fun _ => ⟨i, .refl⟩, by simp [hx'], by simp, by simp [hx']⟩
  · rename_i x hx
    have hdrop : (w.sig s).slots.drop i = x :: (w.sig s).slots.drop (i + 1) := by
      obtain ⟨hi, rfl⟩ := List.getElem?_eq_some_iff.1 hx
      exact List.drop_eq_getElem_cons hi
    obtain ⟨w1, r1, ⟨h1, -⟩, h2⟩ := h
    dsimp only at h2
    obtain ⟨seg, hl, hd⟩ := cb_log h1 hn (hdead s x (List.mem_of_getElem? hx))
    cases r1 with
    | error e =>
      obtain ⟨rfl, rfl⟩ := h2
      exact ⟨[x], seg, hl, .inr (.inl ⟨e, [], seg, [], x, rfl, rfl, rfl, rfl, hd⟩), by simp, by simp,
        fun _ => by rw [hdrop]; simp, by simp⟩
    | ok u =>
      obtain ⟨w2, r2, ⟨h3, ih⟩, rfl, rfl⟩ := h2
      have nm := nextEm_mono h1
      obtain ⟨ys, l, hl2, hle, hj, hg, hs, hk⟩ := ih s em args (i + 1) rfl (by omega) (deadInv_runs h1 hdead)
      rw [thread_const h1] at hle
      have hw : Within env (.forSlots s em args i) w (.forSlots s em args (i + 1)) w1 :=
        .step .refl (by
          simp only [body, hx]
          exact .inr ⟨w1, _, h1, .inl ⟨rfl, rfl⟩⟩)
      refine ⟨x :: ys, seg ++ l, by rw [hl2, hl]; simp, hle.cons hd, ?_, ?_, ?_, ?_⟩
      · intro hr
        obtain ⟨j, hj⟩ := hj hr
        exact ⟨j, hw.trans hj⟩
      · intro hG hr
        rw [hdrop]
        exact (((hG _ _ _ _ .refl hw).drop (i + 1)).trans (hg (hG.mono hw) hr)).cons_cons _
      · intro hS
        rw [hdrop]
        exact ((hs (hS.mono hw)).trans ((hS _ _ _ _ .refl hw).drop (i + 1))).cons_cons _
      · intro hK hr
        obtain ⟨j, hj⟩ := hj hr
        obtain ⟨zs, hz⟩ := hK args i w _ _ .refl (hw.trans hj)
        rw [hk (hK.mono hw) hr]
        obtain ⟨hi, rfl⟩ := List.getElem?_eq_some_iff.1 hx
        have hlen : ((w.sig s).slots.take (i + 1)).length = i + 1 := by simp; omega
        have hget : (w'.sig s).slots[i]? = some (w.sig s).slots[i] := by
          rw [← hz, List.getElem?_append_left (by omega)]
          simp
        obtain ⟨hi', he⟩ := List.getElem?_eq_some_iff.1 hget
        rw [List.drop_eq_getElem_cons hi', he]

/-- The loop over the slots inside an immediate emission. -/
theorem runLoop_loop {env : Env} {s args w w'} (hm : (env.decl s).mode = .immediate)
    (h : Runs env (.runLoop s args) w w' (.ok ())) (hq : (w.sig s).emitQueue.length = 0) (hdead : DeadInv w) :
    ∃ w1 w2, Runs env (.forSlots s w.nextEm args 0) w1 w2 (.ok ()) ∧
      Within env (.runLoop s args) w (.forSlots s w.nextEm args 0) w1 ∧ (w1.sig s).slots = (w.sig s).slots ∧
      w1.log = w.log ++ [.req s args] ∧ w1.thread = w.thread ∧ w.nextEm < w1.nextEm ∧ DeadInv w1 ∧
      w'.log = w2.log ∧ (w'.sig s).slots = (w2.sig s).slots := by
  have hq0 : (w.sig s).emitQueue = [] := List.length_eq_zero_iff.1 hq
  have hqe : ((w.enqueue s args).sig s).emitQueue = [args] := by simp [hq0]
  rw [runs_iff] at h
  have hb : body env (.runLoop s args) w = body env (.runLoop s args) w := rfl
  conv at hb => rhs; simp only [body]
  rw [hb] at h
  split at h
  · obtain ⟨-, h⟩ := h
    simp at h
  · rename_i hd
    rw [if_neg hd] at hb
    split at h
    · rename_i hlen
      rw [hqe] at hlen
      simp at hlen
    · rename_i hlen
      rw [if_neg hlen] at hb
      obtain ⟨w1, r1, h1, rfl, hr⟩ := h
      have hw1 : Within env (.runLoop s args) w (.inner s w.nextEm) ((w.enqueue s args).startLoop s) :=
        .step .refl (by rw [hb]; exact .inl ⟨rfl, rfl⟩)
      have hqs : (((w.enqueue s args).startLoop s).sig s).emitQueue = [args] := by
        simp [hq0]
      have hbi : body env (.inner s w.nextEm) ((w.enqueue s args).startLoop s) =
          .call (.forSlots s w.nextEm args 0) (((w.enqueue s args).startLoop s).popQueue s) .done := by
        simp only [body, hm, hqs]
      rw [runs_iff, hbi] at h1
      obtain ⟨w2, r2, h2, rfl, rfl⟩ := h1
      have hr2 : r1 = .ok () := by
        cases r1 with
        | ok u => rfl
        | error e => simp [wrapRes] at hr
      subst hr2
      exact ⟨_, _, h2, .step hw1 (by rw [hbi]; exact .inl ⟨rfl, rfl⟩), by simp, by simp, by simp, by simp,
        ConnEq.deadInv (by simp [ConnEq]) hdead, by simp, by simp⟩

/-- The same from `emit`. -/
theorem emit_forSlots {env : Env} {Q : Act → Prop} {s : SigId} {args : Args} {chk : Bool}
    {w w' : World} (hl : Live env Q (.emit s args chk) w) (hh : w.hook = none)
    (hm : (env.decl s).mode = .immediate) (hb : (w.sig s).blocked = false) (hp : (w.sig s).paused = false)
    (h : Runs env (.emit s args chk) w w' (.ok ())) :
    ∃ w1 w2, Runs env (.forSlots s w.nextEm args 0) w1 w2 (.ok ()) ∧
      Within env (.emit s args chk) w (.forSlots s w.nextEm args 0) w1 ∧ (w1.sig s).slots = (w.sig s).slots ∧
      w1.log = w.log ++ [.req s args] ∧ w1.thread = w.thread ∧ w.nextEm < w1.nextEm ∧ DeadInv w1 ∧
      w'.log = w2.log ∧ (w'.sig s).slots = (w2.sig s).slots := by
  have hq := ((queuePre_live hl) s (by simp [hm])).2 (by simp)
  have hbody : body env (.emit s args chk) w = body env (.emit s args chk) w := rfl
  conv at hbody => rhs; simp only [body]
  simp only [hb, hp, hh, Bool.false_eq_true, if_false] at hbody
  rcases emit_cases h hh with ⟨h1, -⟩ | ⟨-, -, -, h1⟩ | ⟨h1, -⟩ | ⟨-, -, h'⟩
  · simp [hb] at h1
  · simp at h1
  · simp [hp] at h1
  · obtain ⟨w1, w2, g1, g2, g3⟩ := runLoop_loop hm h' hq (deadInv_live hl)
    refine ⟨w1, w2, g1, Within.reaches ?_ g2, g3⟩
    rw [hbody]
    split
    · rename_i hc
      rw [runs_iff, hbody, if_pos hc] at h
      simp [Comp.Via] at h
    · exact .inl ⟨rfl, rfl⟩

/-- Emit loops call slots of the list as it is. -/
theorem reaches_cb {env : Env} {t : Task} {w w1 : World} {em : Nat} {s : SigId} {x : Slot} {args : Args}
    (h : (body env t w).Reaches (Runs env) (.cb (some em) (some s) x args) w1) : x ∈ (w1.sig s).slots := by
  have ht : ∀ (a : Act) w, a.task? w ≠ some (.cb (some em) (some s) x args) := by
    intro a w; cases a <;> simp [Act.task?]; rename_i t; cases t <;> simp
  have hm : ∀ {l : List Slot} {i : Nat} {y : Slot}, l[i]? = some y → y ∈ l := fun h => List.mem_of_getElem? h
  cases t using Task.splitProg
  all_goals simp only [body] at h
  all_goals repeat' split at h
  all_goals simp only [Comp.Reaches] at h
  all_goals grind [Comp.Reaches]

/-! ## Which API calls change connections how -/

/-- API calls other than disconnecting; no object dies (specification: `_signal.py:794-816,1105-1132`). -/
def Adds : Act → Prop
  | .disconnect .. => False
  | .discard .. => False
  | .kill _ => False
  | _ => True

/-- API calls other than connecting (specification: `_signal.py:770-792`). -/
def Removes : Act → Prop
  | .connect .. => False
  | .connectRaw .. => False
  | _ => True

/-- As `Adds`, and connecting is with the default priority (specification: `_signal.py:777-779`). -/
def Appends : Act → Prop
  | .connect _ _ o => o.priority = 0
  | .connectRaw _ _ _ p => p = 0
  | .disconnect .. => False
  | .discard .. => False
  | .kill _ => False
  | _ => True

theorem adds_run {env : Env} (R : World → World → Prop) (hrefl : ∀ w, R w w)
    (htrans : ∀ a b c, R a b → R b c → R a c) (hc : ∀ w w', ConnEq w w' → R w w') (ok : Int → Prop) (h0 : ok 0)
    (hap : ∀ (w : World) s x, ok x.priority → R w (w.plainAppend s x)) (w : World) (a : Act) (ha : Adds a)
    (h1 : ∀ s c o, a = .connect s c o → ok o.priority) (h2 : ∀ s b m p, a = .connectRaw s b m p → ok p) :
    R w (a.run env w).1 := by
  have hfold : ∀ (r : SigId) (l : List SigId) (w : World), R w (l.foldl (World.connectRelay1 r) w) := by
    intro r l
    induction l with
    | nil => exact fun w => hrefl w
    | cons c l ih =>
      intro w
      refine htrans _ _ _ ?_ (ih _)
      unfold World.connectRelay1
      split
      · exact hrefl w
      · exact hap _ _ _ h0
  have happ : ∀ (w : World) s x, ok x.priority → R w (w.appendSlot env s x) := by
    intro w s x hx
    unfold World.appendSlot
    dsimp only
    split
    · exact htrans _ _ _ (hap w s x hx) (hfold _ _ _)
    · exact hap w s x hx
  cases a <;> simp only [Act.run]
  case connect s c o =>
    split
    · exact hrefl w
    · unfold World.connect
      split
      · split <;> exact hrefl w
      · dsimp only
        split
        · exact hrefl w
        · exact happ _ _ _ (h1 s c o rfl)
  case connectRaw s b m p =>
    split
    · exact hrefl w
    · exact happ _ _ _ (h2 s b m p rfl)
  case disconnect => exact ha.elim
  case discard => exact ha.elim
  case kill => exact ha.elim
  case block => exact hc _ _ (connEq_block _ _ _ _)
  case unblock => exact hc _ _ (connEq_unblock _ _ _)
  case pause => exact hc _ _ (by simp [ConnEq])
  case setHook => exact hc _ _ ⟨fun _ => rfl, fun _ => rfl, rfl, rfl⟩
  all_goals exact hrefl w

/-- A relation between worlds that holds across each allowed API call holds between any two moments. -/
theorem within_rel {env : Env} {Q : Act → Prop} (R : World → World → Prop) (hrefl : ∀ w, R w w)
    (htrans : ∀ a b c, R a b → R b c → R a c) (hc : ∀ w w', ConnEq w w' → R w w')
    (hrun : ∀ w a, Q a → R w (a.run env w).1) (he : env.Only Q) {t w t1 w1} (ht : t.Only Q)
    (h : Within env t w t1 w1) : t1.Only Q ∧ R w w1 := by
  induction h with
  | refl => exact ⟨ht, hrefl w⟩
  | step _ hr ih =>
    exact conn_reaches (fun w1 => R w w1) (fun w1 a ha h => htrans _ _ _ h (hrun w1 a ha))
      (fun w1 w2 hc' h => htrans _ _ _ h (hc _ _ hc')) he hr ih.1 ih.2

theorem grows_of_adds {env : Env} (s : SigId) (he : env.Only Adds) {t w} (ht : t.Only Adds) : Grows env s t w := by
  have hR := @within_rel env Adds (fun w w1 => (w.sig s).slots.Sublist (w1.sig s).slots) (fun w => .refl _)
    (fun _ _ _ h g => h.trans g) (fun w w' h => by rw [h.1 s]; exact .refl _)
    (fun w a ha => adds_run (fun w w1 => (w.sig s).slots.Sublist (w1.sig s).slots) (fun w => .refl _) (fun _ _ _ h g => h.trans g)
      (fun w w' h => by rw [h.1 s]; exact .refl _) (fun _ => True) trivial
      (fun w s' x _ => by
        by_cases hs : s = s'
        · subst hs
          rw [plainAppend_same]
          obtain ⟨l₁, l₂, h1, h2⟩ := appendSlot_split (w.sig s) { x with serial := w.nextSerial }
          rw [h1, h2]
          exact (List.Sublist.refl l₁).append (List.sublist_cons_self _ _)
        · rw [plainAppend_ne _ _ _ _ hs]; exact .refl _) w a ha (fun _ _ _ _ => trivial) (fun _ _ _ _ _ => trivial)) he
  intro t1 w1 t2 w2 h1 h2
  exact (hR (hR ht h1).1 h2).2

theorem shrinks_of_removes {env : Env} (s : SigId) (he : env.Only Removes) {t w} (ht : t.Only Removes) :
    Shrinks env s t w := by
  have hR := @within_rel env Removes SubConn SubConn.refl (fun _ _ _ h g => h.trans g) (fun w w' h => h.sub)
    (fun w a ha => sub_run w a (by rintro _ _ _ rfl; exact ha) (by rintro _ _ _ _ rfl; exact ha)) he
  intro t1 w1 t2 w2 h1 h2
  exact (hR (hR ht h1).1 h2).2.slots s

theorem prefix_of_appends {env : Env} (s : SigId) (he : env.Only Appends) {t w t1 w1} (ht : t.Only Appends)
    (h : Within env t w t1 w1) : t1.Only Appends ∧ ((w.sig s).prioInUse = false →
      (w1.sig s).prioInUse = false ∧ (w.sig s).slots <+: (w1.sig s).slots) := by
  refine within_rel (fun w w1 => (w.sig s).prioInUse = false →
      (w1.sig s).prioInUse = false ∧ (w.sig s).slots <+: (w1.sig s).slots) (fun w h => ⟨h, List.prefix_rfl⟩)
    (fun _ _ _ h g hp => ⟨(g (h hp).1).1, (h hp).2.trans (g (h hp).1).2⟩)
    (fun w w' h hp => ⟨by rw [h.2.1 s]; exact hp, by rw [h.1 s]; exact List.prefix_rfl⟩) ?_ he ht h
  intro w a ha
  refine adds_run (fun w w1 => (w.sig s).prioInUse = false →
      (w1.sig s).prioInUse = false ∧ (w.sig s).slots <+: (w1.sig s).slots) (fun w h => ⟨h, List.prefix_rfl⟩)
    (fun _ _ _ h g hp => ⟨(g (h hp).1).1, (h hp).2.trans (g (h hp).1).2⟩)
    (fun w w' h hp => ⟨by rw [h.2.1 s]; exact hp, by rw [h.1 s]; exact List.prefix_rfl⟩) (· = 0) rfl ?_ w a ?_ ?_ ?_
  · intro w s' x hx hp
    by_cases hs : s = s'
    · subst hs
      rw [plainAppend_same]
      simp only [SigState.appendSlot, hp, hx, if_true]
      exact ⟨trivial, List.prefix_append _ _⟩
    · rw [plainAppend_ne _ _ _ _ hs]; exact ⟨hp, List.prefix_rfl⟩
  · cases a <;> first | trivial | exact ha
  · rintro s' c o rfl; exact ha
  · rintro s' b m p rfl; exact ha

theorem settled_of_appends {env : Env} (s : SigId) (em : Nat) (he : env.Only Appends) {t w} (ht : t.Only Appends)
    (hp : (w.sig s).prioInUse = false) : Settled env s em t w := by
  intro a i w1 t2 w2 h1 h2
  have g1 := prefix_of_appends s he ht h1
  have g2 := prefix_of_appends s he g1.1 h2
  exact (List.take_prefix _ _).trans (g2.2 (g1.2 hp).1).2

/-! ## Queued and latest-only mode -/

/-- The log of an emit loop that delivered each of the values, in order, to the slots beside it (specification: `_signal.py:1320-1328`). -/
def RoundsBy (s : SigId) (em : Nat) (th : ThreadId) : List (Args × List Slot) → List Ev → Prop
  | [], l => l = []
  | r :: rs, l => ∃ l₁ l₂, l = l₁ ++ l₂ ∧ Deliveries s em th r.1 r.2 l₁ ∧ RoundsBy s em th rs l₂

theorem forQueued_changes {env : Env} {t w w' r} (h : Runs env t w w' r) : ∀ s em args i,
    t = .forQueued s em args i → em < w.nextEm → DeadInv w → ∃ ys l, w'.log = w.log ++ l ∧
      LoopEnd True s em w.thread args ys l r ∧
      (r = .ok () → ∃ j, Within env t w (.forQueued s em args j) w') ∧
      (Grows env s t w → r = .ok () → ((w.sig s).slots.drop i).Sublist ys) ∧
      (Shrinks env s t w → ys.Sublist ((w.sig s).slots.drop i)) ∧
      ((∀ t1 w1 t2 w2, Within env t w t1 w1 → Within env t1 w1 t2 w2 → (w1.sig s).slots <+: (w2.sig s).slots) → r = .ok () →
        ys = (w'.sig s).slots.drop i) := by
  refine Runs.induct (P := fun t w w' r => ∀ s em args i,
    t = .forQueued s em args i → em < w.nextEm → DeadInv w → ∃ ys l, w'.log = w.log ++ l ∧
      LoopEnd True s em w.thread args ys l r ∧
      (r = .ok () → ∃ j, Within env t w (.forQueued s em args j) w') ∧
      (Grows env s t w → r = .ok () → ((w.sig s).slots.drop i).Sublist ys) ∧
      (Shrinks env s t w → ys.Sublist ((w.sig s).slots.drop i)) ∧
      ((∀ t1 w1 t2 w2, Within env t w t1 w1 → Within env t1 w1 t2 w2 → (w1.sig s).slots <+: (w2.sig s).slots) → r = .ok () →
        ys = (w'.sig s).slots.drop i)) ?_ h
  clear h
  rintro t w w' r h s em args i rfl hn hdead
  simp only [body] at h
  split at h
  · rename_i hx
    obtain ⟨rfl, rfl⟩ := h
    have hx' := List.drop_eq_nil_of_le (List.getElem?_eq_none_iff.1 hx)
    exact ⟨[], [], by simp, .inl ⟨rfl, rfl⟩, fun _ => ⟨i, .refl⟩, by simp [hx'], by simp, by simp [hx']⟩
  · rename_i x hx
    have hdrop : (w.sig s).slots.drop i = x :: (w.sig s).slots.drop (i + 1) := by
      obtain ⟨hi, rfl⟩ := List.getElem?_eq_some_iff.1 hx
      exact List.drop_eq_getElem_cons hi
    obtain ⟨w1, r1, ⟨h1, -⟩, h2⟩ := h
    dsimp only at h2
    obtain ⟨seg, hl, hd⟩ := cb_log h1 hn (hdead s x (List.mem_of_getElem? hx))
    cases r1 with
    | error e =>
      obtain ⟨rfl, rfl⟩ := h2
      exact ⟨[x], seg, hl, .inr (.inl ⟨e, [], seg, [], x, rfl, rfl, rfl, rfl, hd⟩), by simp, by simp,
        fun _ => by rw [hdrop]; simp, by simp⟩
    | ok u =>
      dsimp only at h2
      split at h2
      · obtain ⟨rfl, rfl⟩ := h2
        exact ⟨[x], seg, hl, .inr (.inr ⟨trivial, rfl, seg, [], by simp, hd, rfl⟩), by simp, by simp,
          fun _ => by rw [hdrop]; simp, by simp⟩
      rename_i hlen
      obtain ⟨w2, r2, ⟨h3, ih⟩, rfl, rfl⟩ := h2
      have nm := nextEm_mono h1
      obtain ⟨ys, l, hl2, hle, hj, hg, hs, hk⟩ := ih s em args (i + 1) rfl (by omega) (deadInv_runs h1 hdead)
      rw [thread_const h1] at hle
      have hw : Within env (.forQueued s em args i) w (.forQueued s em args (i + 1)) w1 :=
        .step .refl (by
          simp only [body, hx]
          exact .inr ⟨w1, _, h1, by simp only [hlen, if_false]; exact .inl ⟨rfl, rfl⟩⟩)
      refine ⟨x :: ys, seg ++ l, by rw [hl2, hl]; simp, hle.cons hd, ?_, ?_, ?_, ?_⟩
      · intro hr
        obtain ⟨j, hj⟩ := hj hr
        exact ⟨j, hw.trans hj⟩
      · intro hG hr
        rw [hdrop]
        exact (((hG _ _ _ _ .refl hw).drop (i + 1)).trans (hg (hG.mono hw) hr)).cons_cons _
      · intro hS
        rw [hdrop]
        exact ((hs (hS.mono hw)).trans ((hS _ _ _ _ .refl hw).drop (i + 1))).cons_cons _
      · intro hK hr
        obtain ⟨j, hj⟩ := hj hr
        obtain ⟨zs, hz⟩ := hK _ _ _ _ .refl (hw.trans hj)
        rw [hk (fun t1 w1 t2 w2 g1 g2 => hK t1 w1 t2 w2 (hw.trans g1) g2) hr]
        obtain ⟨hi, rfl⟩ := List.getElem?_eq_some_iff.1 hx
        have hget : (w'.sig s).slots[i]? = some (w.sig s).slots[i] := by
          rw [← hz, List.getElem?_append_left hi]
          simp
        obtain ⟨hi', he⟩ := List.getElem?_eq_some_iff.1 hget
        rw [List.drop_eq_getElem_cons hi', he]

theorem whileQueued_changes {env : Env} {t w w' r} (h : Runs env t w w' r) : ∀ s em i,
    t = .whileQueued s em i → em < w.nextEm → DeadInv w → r = .ok () →
    ∃ rs l, w'.log = w.log ++ l ∧ RoundsBy s em w.thread rs l ∧ rs.map (·.1) = (w'.sig s).emitQueue.drop i ∧
      (∃ j, Within env t w (.whileQueued s em j) w') ∧
      (Grows env s t w → ∀ q ∈ rs, (w.sig s).slots.Sublist q.2) ∧
      (Shrinks env s t w → ∀ q ∈ rs, q.2.Sublist (w.sig s).slots) ∧
      ((∀ t1 w1 t2 w2, Within env t w t1 w1 → Within env t1 w1 t2 w2 → (w1.sig s).slots <+: (w2.sig s).slots) →
        ∀ q ∈ rs, (w.sig s).slots <+: q.2 ∧ q.2 <+: (w'.sig s).slots) := by
  refine Runs.induct (P := fun t w w' r => ∀ s em i,
    t = .whileQueued s em i → em < w.nextEm → DeadInv w → r = .ok () →
    ∃ rs l, w'.log = w.log ++ l ∧ RoundsBy s em w.thread rs l ∧ rs.map (·.1) = (w'.sig s).emitQueue.drop i ∧
      (∃ j, Within env t w (.whileQueued s em j) w') ∧
      (Grows env s t w → ∀ q ∈ rs, (w.sig s).slots.Sublist q.2) ∧
      (Shrinks env s t w → ∀ q ∈ rs, q.2.Sublist (w.sig s).slots) ∧
      ((∀ t1 w1 t2 w2, Within env t w t1 w1 → Within env t1 w1 t2 w2 → (w1.sig s).slots <+: (w2.sig s).slots) →
        ∀ q ∈ rs, (w.sig s).slots <+: q.2 ∧ q.2 <+: (w'.sig s).slots)) ?_ h
  clear h
  rintro t w w' r h s em i rfl hn hdead hok
  simp only [body] at h
  split at h
  · rename_i hq
    obtain ⟨rfl, rfl⟩ := h
    rw [List.getElem?_eq_none_iff] at hq
    exact ⟨[], [], by simp, rfl, by simp [List.drop_eq_nil_of_le hq], ⟨i, .refl⟩, by simp, by simp, by simp⟩
  · rename_i a ha
    obtain ⟨w1, r1, ⟨h1, -⟩, h2⟩ := h
    cases r1 with
    | error e =>
      obtain ⟨rfl, rfl⟩ := h2
      simp at hok
    | ok u =>
      obtain ⟨w2, r2, ⟨h3, ih⟩, rfl, rfl⟩ := h2
      obtain ⟨ys, l, hl, hle, hj, hg, hs, hk⟩ := forQueued_changes h1 s em a 0 rfl hn hdead
      have nm := nextEm_mono h1
      obtain ⟨rs, l2, hl2, hr, hmap, ⟨j2, hj2⟩, hg2, hs2, hk2⟩ := ih s em (i + 1) rfl (by omega) (deadInv_runs h1 hdead) hok
      have hwa : Within env (.whileQueued s em i) w (.forQueued s em a 0) w :=
        .step .refl (by simp only [body, ha]; exact .inl ⟨rfl, rfl⟩)
      have hwb : Within env (.whileQueued s em i) w (.whileQueued s em (i + 1)) w1 :=
        .step .refl (by simp only [body, ha]; exact .inr ⟨w1, _, h1, .inl ⟨rfl, rfl⟩⟩)
      have hpre : (w.sig s).emitQueue <+: (w'.sig s).emitQueue :=
        (emitQueue_inv h1 s (by simp)).1.trans (emitQueue_inv h3 s (by simp)).1
      have hdr : (w'.sig s).emitQueue.drop i = a :: (w'.sig s).emitQueue.drop (i + 1) := by
        obtain ⟨q, hq⟩ := hpre
        rw [List.getElem?_eq_some_iff] at ha
        obtain ⟨hi, rfl⟩ := ha
        rw [← hq, List.drop_eq_getElem_cons (by simp; omega)]
        rw [List.getElem_append_left hi]
      rw [thread_const h1] at hr
      have hd : Deliveries s em w.thread a ys l := by
        rcases hle with ⟨-, h⟩ | ⟨e, -, -, -, -, h, -⟩ | ⟨-, h, -⟩
        · exact h
        · simp at h
        · simp at h
      refine ⟨(a, ys) :: rs, l ++ l2, by rw [hl2, hl]; simp, ⟨l, l2, rfl, hd, hr⟩, ?_, ⟨j2, hwb.trans hj2⟩, ?_, ?_, ?_⟩
      · rw [hdr, List.map_cons, hmap]
      · intro hG q hq
        rcases List.mem_cons.1 hq with rfl | hq
        · have := hg (hG.mono hwa) rfl
          rwa [List.drop_zero] at this
        · exact (hG _ _ _ _ .refl hwb).trans (hg2 (hG.mono hwb) q hq)
      · intro hS q hq
        rcases List.mem_cons.1 hq with rfl | hq
        · have := hs (hS.mono hwa)
          rwa [List.drop_zero] at this
        · exact (hs2 (hS.mono hwb) q hq).trans (hS _ _ _ _ .refl hwb)
      · intro hP q hq
        rcases List.mem_cons.1 hq with rfl | hq
        · have := hk (fun t1 w1 t2 w2 g1 g2 => hP t1 w1 t2 w2 (hwa.trans g1) g2) rfl
          rw [List.drop_zero] at this
          simp only [this]
          exact ⟨hP _ _ _ _ .refl hwb, hP _ _ _ _ hwb hj2⟩
        · have := hk2 (fun t1 w1 t2 w2 g1 g2 => hP t1 w1 t2 w2 (hwb.trans g1) g2) q hq
          exact ⟨(hP _ _ _ _ .refl hwb).trans this.1, this.2⟩

theorem forLatest_changes {env : Env} {t w w' r} (h : Runs env t w w' r) : ∀ s em args i,
    t = .forLatest s em args i → em < w.nextEm → DeadInv w → ∃ ys l, w'.log = w.log ++ l ∧
      LoopEnd False s em w.thread args ys l r ∧
      (Shrinks env s t w → ys.Sublist ((w.sig s).slots.drop i)) := by
  refine Runs.induct (P := fun t w w' r => ∀ s em args i,
    t = .forLatest s em args i → em < w.nextEm → DeadInv w → ∃ ys l, w'.log = w.log ++ l ∧
      LoopEnd False s em w.thread args ys l r ∧
      (Shrinks env s t w → ys.Sublist ((w.sig s).slots.drop i))) ?_ h
  clear h
  rintro t w w' r h s em args i rfl hn hdead
  simp only [body] at h
  split at h
  · obtain ⟨rfl, rfl⟩ := h
    exact ⟨[], [], by simp, .inl ⟨rfl, rfl⟩, by simp⟩
  · rename_i x hx
    split at h
    · obtain ⟨rfl, rfl⟩ := h
      exact ⟨[], [], by simp, .inl ⟨rfl, rfl⟩, by simp⟩
    rename_i hmd
    have hdrop : (w.sig s).slots.drop i = x :: (w.sig s).slots.drop (i + 1) := by
      obtain ⟨hi, rfl⟩ := List.getElem?_eq_some_iff.1 hx
      exact List.drop_eq_getElem_cons hi
    obtain ⟨w1, r1, ⟨h1, -⟩, h2⟩ := h
    dsimp only at h2
    obtain ⟨seg, hl, hd⟩ := cb_log h1 hn (hdead s x (List.mem_of_getElem? hx))
    cases r1 with
    | error e =>
      obtain ⟨rfl, rfl⟩ := h2
      exact ⟨[x], seg, hl, .inr (.inl ⟨e, [], seg, [], x, rfl, rfl, rfl, rfl, hd⟩), fun _ => by rw [hdrop]; simp⟩
    | ok u =>
      obtain ⟨w2, r2, ⟨h3, ih⟩, rfl, rfl⟩ := h2
      have nm := nextEm_mono h1
      obtain ⟨ys, l, hl2, hle, hs⟩ := ih s em args (i + 1) rfl (by omega) (deadInv_runs h1 hdead)
      rw [thread_const h1] at hle
      have hw : Within env (.forLatest s em args i) w (.forLatest s em args (i + 1)) w1 :=
        .step .refl (by
          simp only [body, hx, hmd, if_false]
          exact .inr ⟨w1, _, h1, .inl ⟨rfl, rfl⟩⟩)
      refine ⟨x :: ys, seg ++ l, by rw [hl2, hl]; simp, hle.cons hd, ?_⟩
      intro hS
      rw [hdrop]
      exact ((hs (hS.mono hw)).trans ((hS _ _ _ _ .refl hw).drop (i + 1))).cons_cons _

end Psygnal
