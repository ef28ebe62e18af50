import Verif.BlockLemmas

/-!
# Groups (helper lemmas for C19–C22)
-/
namespace Psygnal

/-! ## The relay slot in the slot list of a member -/

/-- The relay slots of group `r` in a slot list. -/
def relays (r : SigId) (ss : List Slot) : List Slot := ss.filter fun x => x.base == .relay r

theorem relays_append (r : SigId) (l l' : List Slot) : relays r (l ++ l') = relays r l ++ relays r l' := by
  simp [relays]

theorem relays_cons_ne {r : SigId} {x : Slot} (h : x.base ≠ .relay r) (l : List Slot) :
    relays r (x :: l) = relays r l := by
  simp [relays, h]

theorem relays_cons_eq {r : SigId} {x : Slot} (h : x.base = .relay r) (l : List Slot) :
    relays r (x :: l) = x :: relays r l := by
  simp [relays, h]

theorem relays_nil {r : SigId} {l : List Slot} : relays r l = [] ↔ ∀ x ∈ l, x.base ≠ .relay r := by
  simp [relays]

theorem relays_slotIndex {r : SigId} {l : List Slot} :
    slotIndex (.relay r) l = none ↔ relays r l = [] := by
  rw [slotIndex_none, relays_nil]

theorem relays_appendSlot_ne {r : SigId} {x : Slot} (h : x.base ≠ .relay r) (st : SigState) :
    relays r (st.appendSlot x).slots = relays r st.slots := by
  obtain ⟨l₁, l₂, h1, h2⟩ := appendSlot_split st x
  rw [h1, h2, relays_append, relays_append, relays_cons_ne h]

theorem relays_appendSlot_eq {r : SigId} {x : Slot} (h : x.base = .relay r) (st : SigState)
    (h0 : relays r st.slots = []) : relays r (st.appendSlot x).slots = [x] := by
  obtain ⟨l₁, l₂, h1, h2⟩ := appendSlot_split st x
  rw [h1, relays_append, List.append_eq_nil_iff] at h0
  rw [h2, relays_append, relays_cons_eq h, h0.1, h0.2]
  rfl

theorem relays_popAt {r : SigId} {b : Base} {ss : List Slot} {i : Nat} (h : slotIndex b ss = some i)
    (hb : b ≠ .relay r) : relays r (popAt ss i) = relays r ss := by
  obtain ⟨l₁, x, l₂, rfl, h1, -, h2⟩ := slotIndex_some h
  rw [h2, relays_append, relays_append, relays_cons_ne (by rw [h1]; exact hb)]

theorem relays_removeKey {r : SigId} {b : Base} {ss ss' : List Slot} (h : removeKey b ss = some ss')
    (hb : b ≠ .relay r) : relays r ss' = relays r ss := by
  obtain ⟨l₁, x, l₂, rfl, h1, -, rfl⟩ := removeKey_some h
  rw [relays_append, relays_append, relays_cons_ne (by rw [h1]; exact hb)]

theorem relays_eraseSlot_ne {r : SigId} {b : Base} (hb : b ≠ .relay r) (ss : List Slot) :
    relays r (eraseSlot b ss) = relays r ss := by
  unfold eraseSlot
  split
  · exact relays_popAt (by assumption) hb
  · rfl

theorem relays_eraseSlot_eq (r : SigId) (ss : List Slot) :
    relays r (eraseSlot (.relay r) ss) = (relays r ss).tail := by
  unfold eraseSlot
  split
  · rename_i i h
    obtain ⟨l₁, x, l₂, rfl, h1, h2, h3⟩ := slotIndex_some h
    rw [h3, relays_append, relays_append, relays_cons_eq h1, relays_nil.2 h2]
    rfl
  · rename_i h
    rw [relays_slotIndex.1 h]
    rfl

theorem relays_finalize (r : SigId) (o : ObjId) (ss : List Slot) :
    relays r (finalizeSlots o ss) = relays r ss := by
  rw [finalizeSlots_eq]
  simp only [relays, List.filter_filter]
  apply List.filter_congr
  intro x hx
  by_cases h : x.base = .relay r
  · simp [h, Slot.ownedBy, Base.owner?]
  · simp [h]

/-! ## Invariant: a group with listeners has its relay connected to all members -/

/-- Members have exactly one relay slot if the group has listeners, and none otherwise. -/
def GroupInv (env : Env) (r : SigId) (w : World) : Prop :=
  ∀ c ∈ (env.decl r).children,
    ((w.sig r).slots ≠ [] → ∃ n, relays r (w.sig c).slots = [{ relaySlot r with serial := n }]) ∧
    ((w.sig r).slots = [] → relays r (w.sig c).slots = [])

/-- Same relay slots for members of `r`, and the group's listeners are empty/non-empty as before. -/
structure RelEq (env : Env) (r : SigId) (w w' : World) : Prop where
  empty : (w'.sig r).slots = [] ↔ (w.sig r).slots = []
  rel : ∀ c ∈ (env.decl r).children, relays r (w'.sig c).slots = relays r (w.sig c).slots

theorem RelEq.refl {env : Env} {r : SigId} (w : World) : RelEq env r w w := ⟨.rfl, fun _ _ => rfl⟩
theorem RelEq.trans {env : Env} {r : SigId} {a b c : World} (h : RelEq env r a b) (g : RelEq env r b c) :
    RelEq env r a c := ⟨g.1.trans h.1, fun x hx => (g.2 x hx).trans (h.2 x hx)⟩
theorem RelEq.inv {env : Env} {r : SigId} {w w' : World} (h : RelEq env r w w')
    (hi : GroupInv env r w) : GroupInv env r w' := by
  intro c hc
  rw [h.2 c hc, ne_eq, h.1]
  exact hi c hc

theorem connEq_relEq {env : Env} {r : SigId} {w w' : World} (h : ConnEq w w') : RelEq env r w w' :=
  ⟨by rw [h.1], fun c _ => by rw [h.1]⟩

variable {env : Env} {r : SigId}

theorem connectRelay1_slots (r' c s : SigId) (w : World) (h : s ≠ c) :
    (World.connectRelay1 r' w c).sig s = w.sig s := by
  unfold World.connectRelay1
  split
  · rfl
  · exact plainAppend_ne _ _ _ _ h

theorem connectRelay_ne (r' s : SigId) : ∀ (l : List SigId) (w : World), s ∉ l →
    (l.foldl (World.connectRelay1 r') w).sig s = w.sig s
  | [], _, _ => rfl
  | c :: l, w, h => by
    rw [List.mem_cons, not_or] at h
    rw [List.foldl_cons, connectRelay_ne r' s l _ h.2, connectRelay1_slots _ _ _ _ h.1]

theorem connectRelay1_relays_ne {r' : SigId} (h : r' ≠ r) (c s : SigId) (w : World) :
    relays r ((World.connectRelay1 r' w c).sig s).slots = relays r (w.sig s).slots := by
  unfold World.connectRelay1
  split
  · rfl
  · by_cases hs : s = c
    · subst hs
      rw [plainAppend_same, relays_appendSlot_ne]
      simpa [relaySlot] using h
    · rw [plainAppend_ne _ _ _ _ hs]

theorem connectRelay_relays_ne {r' : SigId} (h : r' ≠ r) (s : SigId) : ∀ (l : List SigId) (w : World),
    relays r ((l.foldl (World.connectRelay1 r') w).sig s).slots = relays r (w.sig s).slots
  | [], _ => rfl
  | c :: l, w => by
    rw [List.foldl_cons, connectRelay_relays_ne h s l, connectRelay1_relays_ne h]

/-- Connecting the relay to all members. -/
theorem connectRelay_relays (s : SigId) : ∀ (l : List SigId) (w : World), s ∈ l →
    (relays r (w.sig s).slots = [] ∨ ∃ n, relays r (w.sig s).slots = [{ relaySlot r with serial := n }]) →
    ∃ n, relays r ((l.foldl (World.connectRelay1 r) w).sig s).slots = [{ relaySlot r with serial := n }]
  | [], _, h, _ => by simp at h
  | c :: l, w, h, h0 => by
    rw [List.foldl_cons]
    have step : ∃ n, relays r ((World.connectRelay1 r w c).sig c).slots =
        [{ relaySlot r with serial := n }] ∨ s ≠ c := by
      by_cases hs : s = c
      · subst hs
        rcases h0 with h0 | ⟨n, h0⟩
        · refine ⟨w.nextSerial, .inl ?_⟩
          unfold World.connectRelay1
          rw [if_neg (by rw [relays_slotIndex.2 h0]; simp), plainAppend_same, relays_appendSlot_eq rfl _ h0]
        · refine ⟨n, .inl ?_⟩
          unfold World.connectRelay1
          rw [if_pos]
          · exact h0
          · cases hi : slotIndex (.relay r) (w.sig s).slots with
            | some _ => rfl
            | none => rw [relays_slotIndex, h0] at hi; simp at hi
      · exact ⟨0, .inr hs⟩
    by_cases hs : s = c
    · subst hs
      obtain ⟨n, h1 | h1⟩ := step
      · by_cases hl : s ∈ l
        · exact connectRelay_relays s l _ hl (.inr ⟨n, h1⟩)
        · rw [connectRelay_ne _ _ _ _ hl]
          exact ⟨n, h1⟩
      · exact absurd rfl h1
    · have hl : s ∈ l := by simpa [hs] using h
      refine connectRelay_relays s l _ hl ?_
      rw [connectRelay1_slots _ _ _ _ hs]
      exact h0

theorem appendSlot_inv (hg : Groups env) (w : World) (s : SigId) (x : Slot) (hx : x.base ≠ .relay r)
    (hr : (env.decl r).isRelay = true) (hi : GroupInv env r w) : GroupInv env r (w.appendSlot env s x) := by
  have hself : r ∉ (env.decl r).children := fun h => by simp [hg.plain r r hr h] at hr
  have hpa : ∀ y, relays r (((w.plainAppend s x).sig y).slots) = relays r (w.sig y).slots := by
    intro y
    by_cases hy : y = s
    · subst hy; rw [plainAppend_same, relays_appendSlot_ne (by exact hx)]
    · rw [plainAppend_ne _ _ _ _ hy]
  have hne : ((w.plainAppend s x).sig s).slots ≠ [] := by
    rw [plainAppend_same]
    obtain ⟨l₁, l₂, h1, h2⟩ := appendSlot_split (w.sig s) { x with serial := w.nextSerial }
    rw [h2]; simp
  unfold World.appendSlot
  dsimp only
  by_cases hs : s = r
  · subst hs
    split
    · -- first listener: the relay is connected to all members
      rename_i hlen
      have h0 : (w.sig s).slots = [] := by
        obtain ⟨l₁, l₂, h1, h2⟩ := appendSlot_split (w.sig s) { x with serial := w.nextSerial }
        have := hlen.2
        rw [plainAppend_same, h2] at this
        rw [h1]
        rw [List.length_append, List.length_cons] at this
        rw [List.append_eq_nil_iff, ← List.length_eq_zero_iff, ← List.length_eq_zero_iff]
        omega
      intro c hc
      have hnr : ((World.connectRelay env (w.plainAppend s x) s).sig s).slots =
          ((w.plainAppend s x).sig s).slots := by
        unfold World.connectRelay; rw [connectRelay_ne _ _ _ _ hself]
      refine ⟨fun _ => ?_, fun h => ?_⟩
      · refine connectRelay_relays c _ _ hc (.inl ?_)
        rw [hpa]
        exact (hi c hc).2 h0
      · rw [hnr] at h
        exact absurd h hne
    · rename_i hlen
      have h0 : (w.sig s).slots ≠ [] := by
        intro h0
        apply hlen
        refine ⟨hr, ?_⟩
        rw [plainAppend_same]
        obtain ⟨l₁, l₂, h1, h2⟩ := appendSlot_split (w.sig s) { x with serial := w.nextSerial }
        rw [h0] at h1
        have := List.append_eq_nil_iff.1 h1.symm
        rw [h2, this.1, this.2]
        rfl
      intro c hc
      rw [hpa]
      exact ⟨fun _ => (hi c hc).1 h0, fun h => absurd h hne⟩
  · have hsr : ((w.plainAppend s x).sig r).slots = (w.sig r).slots := by
      rw [plainAppend_ne _ _ _ _ (Ne.symm hs)]
    have h1 : RelEq env r w (w.plainAppend s x) := ⟨by rw [hsr], fun c _ => hpa c⟩
    split
    · rename_i hlen
      refine (h1.trans ⟨?_, fun c _ => ?_⟩).inv hi
      · unfold World.connectRelay
        rw [connectRelay_ne]
        intro hmem
        simp [hg.plain s r hlen.1 hmem] at hr
      · unfold World.connectRelay
        exact connectRelay_relays_ne hs _ _ _
    · exact h1.inv hi

theorem disconnectRelay_sig (r' s : SigId) : ∀ (l : List SigId) (w : World), l.Nodup →
    ((l.foldl (World.disconnectRelay1 r') w).sig s).slots =
      if s ∈ l then eraseSlot (.relay r') (w.sig s).slots else (w.sig s).slots
  | [], _, _ => by simp
  | c :: l, w, hn => by
    rw [List.nodup_cons] at hn
    rw [List.foldl_cons, disconnectRelay_sig r' s l _ hn.2]
    simp only [World.disconnectRelay1, upd_sig]
    by_cases hs : s = c
    · subst hs; simp [hn.1]
    · simp [hs]

theorem setSlotsRemoved_inv (hg : Groups env) (w : World) (s : SigId) (ss : List Slot)
    (hr : (env.decl r).isRelay = true) (hsub : List.Sublist ss (w.sig s).slots)
    (hrel : s ∈ (env.decl r).children → relays r ss = relays r (w.sig s).slots)
    (hi : GroupInv env r w) : GroupInv env r (w.setSlotsRemoved env s ss) := by
  have hself : r ∉ (env.decl r).children := fun h => by simp [hg.plain r r hr h] at hr
  unfold World.setSlotsRemoved
  dsimp only
  by_cases hs : s = r
  · subst hs
    intro c hc
    have hcs : c ≠ s := fun h => hself (h ▸ hc)
    split
    · rename_i he
      have he : ss = [] := by simpa using he.2
      subst he
      unfold World.disconnectRelay
      rw [disconnectRelay_sig _ _ _ _ (hg.nodup _), disconnectRelay_sig _ _ _ _ (hg.nodup _),
        if_neg hself, if_pos hc, upd_sig_same, upd_sig_ne _ _ hcs, relays_eraseSlot_eq]
      refine ⟨by simp, fun _ => ?_⟩
      by_cases h0 : (w.sig s).slots = []
      · rw [(hi c hc).2 h0]; rfl
      · obtain ⟨n, h1⟩ := (hi c hc).1 h0
        rw [h1]; rfl
    · rename_i he
      have he : ss ≠ [] := by simpa [hr] using he
      have h0 : (w.sig s).slots ≠ [] := fun h0 => he (by rw [h0] at hsub; exact List.sublist_nil.1 hsub)
      rw [upd_sig_same, upd_sig_ne _ _ hcs]
      exact ⟨fun _ => (hi c hc).1 h0, fun h => absurd h he⟩
  · have h1 : RelEq env r w (w.upd s fun st => { st with slots := ss }) := by
      refine ⟨by rw [upd_sig_ne _ _ (Ne.symm hs)], fun c hc => ?_⟩
      by_cases hcs : c = s
      · subst hcs; rw [upd_sig_same]; exact hrel hc
      · rw [upd_sig_ne _ _ hcs]
    split
    · rename_i he
      have hnr : r ∉ (env.decl s).children := fun hm => by simp [hg.plain s r he.1 hm] at hr
      refine (h1.trans ⟨?_, fun c hc => ?_⟩).inv hi
      · unfold World.disconnectRelay
        rw [disconnectRelay_sig _ _ _ _ (hg.nodup _), if_neg hnr]
      · unfold World.disconnectRelay
        rw [disconnectRelay_sig _ _ _ _ (hg.nodup _)]
        split
        · exact relays_eraseSlot_ne (by simpa using hs) _
        · rfl
    · exact h1.inv hi

theorem disconnect1_inv (hg : Groups env) (hr : (env.decl r).isRelay = true) (w : World) (s : SigId)
    (c : Callable) (m : Bool) (hc : c.base ≠ .relay r) (hi : GroupInv env r w) :
    GroupInv env r (w.disconnect1 env s (some c) m).1 := by
  unfold World.disconnect1
  dsimp only
  split
  · rename_i i h
    exact setSlotsRemoved_inv hg w s _ hr (popAt_sublist _ _) (fun _ => relays_popAt h hc) hi
  · split <;> exact hi

theorem disconnectMembers_inv (hg : Groups env) (hr : (env.decl r).isRelay = true) (c : Callable) (m : Bool)
    (hc : c.base ≠ .relay r) : ∀ (l : List SigId) (w : World), GroupInv env r w →
      GroupInv env r (World.disconnectMembers env (some c) m l w).1
  | [], _, h => h
  | s :: l, w, h => by
    unfold World.disconnectMembers
    have h1 := disconnect1_inv hg hr w s c m hc h
    split
    · rename_i heq
      rw [heq] at h1
      exact disconnectMembers_inv hg hr c m hc l _ h1
    · rename_i heq
      rw [heq] at h1
      exact h1

/-- `disconnect()` on plain signals empties them. -/
theorem clearMembers (m : Bool) : ∀ (l : List SigId) (w : World),
    (∀ c ∈ l, (env.decl c).isRelay = false) →
    (World.disconnectMembers env none m l w).2 = .ok .unit ∧
    ∀ s, ((World.disconnectMembers env none m l w).1.sig s).slots =
      if s ∈ l then [] else (w.sig s).slots
  | [], _, _ => by simp [World.disconnectMembers]
  | c :: l, w, h => by
    have hc := h c (by simp)
    have h1 : (w.disconnect1 env c none m) = (w.upd c fun st => { st with slots := [] }, .ok .unit) := by
      simp [World.disconnect1, World.setSlotsRemoved, hc]
    unfold World.disconnectMembers
    rw [h1]
    dsimp only
    obtain ⟨h2, h3⟩ := clearMembers m l (w.upd c fun st => { st with slots := [] })
      (fun x hx => h x (by simp [hx]))
    refine ⟨h2, fun s => ?_⟩
    rw [h3, upd_sig]
    by_cases hs : s = c
    · subst hs; simp
    · simp [hs]

theorem group_disconnect_all (hg : Groups env) (hr : (env.decl r).isRelay = true) (w : World) (m : Bool) :
    (w.disconnect env r none m).2 = .ok .unit ∧
    ∀ s, ((w.disconnect env r none m).1.sig s).slots =
      if s = r ∨ s ∈ (env.decl r).children then [] else (w.sig s).slots := by
  have hself : r ∉ (env.decl r).children := fun h => by simp [hg.plain r r hr h] at hr
  obtain ⟨h2, h3⟩ := clearMembers (env := env) m (env.decl r).children w (fun c hc => hg.plain r c hr hc)
  unfold World.disconnect
  rw [if_pos hr]
  rcases hdm : World.disconnectMembers env none m (env.decl r).children w with ⟨w1, r1⟩
  rw [hdm] at h2 h3
  dsimp only at h2 h3
  subst h2
  dsimp only
  simp only [World.disconnect1, World.setSlotsRemoved, hr, List.isEmpty_nil, and_self, if_true, true_and]
  intro s
  unfold World.disconnectRelay
  rw [disconnectRelay_sig _ _ _ _ (hg.nodup _), upd_sig]
  by_cases hs : s = r
  · subst hs; simp [hself]
  · simp only [hs, false_or, if_false]
    rw [h3]
    split <;> rfl

theorem groupInv_run (hg : Groups env) (hr : (env.decl r).isRelay = true) (w : World) (a : Act)
    (ha : Respects env r a) (hi : GroupInv env r w) : GroupInv env r (a.run env w).1 := by
  have hself : r ∉ (env.decl r).children := fun h => by simp [hg.plain r r hr h] at hr
  cases a <;> simp only [Act.run]
  case connect s c o =>
    split
    · exact hi
    · unfold World.connect
      split
      · split <;> exact hi
      · dsimp only
        split
        · exact hi
        · exact appendSlot_inv hg _ _ _ ha hr hi
  case connectRaw =>
    split
    · exact hi
    · exact appendSlot_inv hg _ _ _ ha hr hi
  case disconnect s c m =>
    cases c with
    | some c =>
      unfold World.disconnect
      split
      · have h1 := disconnectMembers_inv hg hr c m ha (env.decl s).children w hi
        split
        · rename_i heq
          rw [heq] at h1
          exact disconnect1_inv hg hr _ _ _ _ ha h1
        · rename_i heq
          rw [heq] at h1
          exact h1
      · exact disconnect1_inv hg hr _ _ _ _ ha hi
    | none =>
      by_cases hs : s = r
      · subst hs
        intro c hc
        obtain ⟨-, h⟩ := group_disconnect_all hg hr w m
        rw [h, h, if_pos (.inl rfl), if_pos (.inr hc)]
        exact ⟨by simp, fun _ => rfl⟩
      · by_cases hsr : (env.decl s).isRelay = true
        · obtain ⟨-, h⟩ := group_disconnect_all hg hsr w m
          have hout : ∀ c, c = r ∨ c ∈ (env.decl r).children →
              ¬ (c = s ∨ c ∈ (env.decl s).children) := by
            rintro c (rfl | hc) (h | h)
            · exact hs h.symm
            · simp [hg.plain s c hsr h] at hr
            · subst h; exact ha hc
            · have h1 := (hg.parent r c).2 ⟨hr, hc⟩
              have h2 := (hg.parent s c).2 ⟨hsr, h⟩
              rw [h1] at h2
              exact hs (by simpa using h2.symm)
          refine RelEq.inv ⟨?_, fun c hc => ?_⟩ hi
          · rw [h, if_neg (hout r (.inl rfl))]
          · rw [h, if_neg (hout c (.inr hc))]
        · simp only [World.disconnect, if_neg hsr, World.disconnect1]
          exact setSlotsRemoved_inv hg w s _ hr (List.nil_sublist _) (fun hm => absurd hm ha) hi
  case discard s b m =>
    unfold World.discard
    split
    · rename_i h
      exact setSlotsRemoved_inv hg w s _ hr (removeKey_sublist _ _ _ h) (fun _ => relays_removeKey h ha) hi
    · split <;> exact hi
  case block => exact (connEq_relEq (connEq_block _ _ _ _)).inv hi
  case unblock => exact (connEq_relEq (connEq_unblock _ _ _)).inv hi
  case pause => exact (connEq_relEq (by simp [ConnEq])).inv hi
  case setHook => exact RelEq.inv ⟨.rfl, fun _ _ => rfl⟩ hi
  case kill o =>
    intro c hc
    have hp : (env.decl c).parent = some r := (hg.parent r c).2 ⟨hr, hc⟩
    have hpr : (env.decl r).parent = none := by
      cases h : (env.decl r).parent with
      | none => rfl
      | some r' =>
        obtain ⟨h1, h2⟩ := (hg.parent r' r).1 h
        simp [hg.plain r' r h1 h2] at hr
    simp only [World.kill, hp, hpr]
    refine ⟨fun h => ?_, fun h => ?_⟩
    · have h0 : (w.sig r).slots ≠ [] := fun h0 => h (by rw [h0]; rfl)
      rw [if_neg (by simp [h])]
      rw [relays_finalize]
      exact (hi c hc).1 h0
    · by_cases h0 : (w.sig r).slots = []
      · rw [if_neg (by simp [h0]), relays_finalize]
        exact (hi c hc).2 h0
      · rw [if_pos (by simp [h0, h]), relays_eraseSlot_eq, relays_finalize]
        obtain ⟨n, h1⟩ := (hi c hc).1 h0
        rw [h1]; rfl
  all_goals exact hi

theorem groupInv_live (hg : Groups env) (hr : (env.decl r).isRelay = true)
    (he : env.Only (Respects env r)) {t w} (h : Live env (Respects env r) t w) : GroupInv env r w :=
  (conn_live (GroupInv env r) (fun c _ => ⟨fun h => absurd rfl h, fun _ => rfl⟩)
    (fun w a ha hi => groupInv_run hg hr w a ha hi) (fun _ _ hc hi => (connEq_relEq hc).inv hi) he h).2

/-! ## One iteration of an emit loop -/

theorem forSlots_visits {env : Env} {t w w' res} (h : Runs env t w w' res) : ∀ s em args i xs j x,
    t = .forSlots s em args i → res = .ok () →
    (∀ t1 w1, Within env t w t1 w1 → (w1.sig s).slots = xs) → i ≤ j → xs[j]? = some x →
    ∃ w1 w2, Within env t w (.cb (some em) (some s) x args) w1 ∧
      Runs env (.cb (some em) (some s) x args) w1 w2 (.ok ()) ∧
      w1.emitter = w.emitter ∧ w1.thread = w.thread ∧ w.log <+: w1.log ∧ w2.log <+: w'.log := by
  refine Runs.induct (P := fun t w w' res => ∀ s em args i xs j x,
    t = .forSlots s em args i → res = .ok () →
    (∀ t1 w1, Within env t w t1 w1 → (w1.sig s).slots = xs) → i ≤ j → xs[j]? = some x →
    ∃ w1 w2, Within env t w (.cb (some em) (some s) x args) w1 ∧
      Runs env (.cb (some em) (some s) x args) w1 w2 (.ok ()) ∧
      w1.emitter = w.emitter ∧ w1.thread = w.thread ∧ w.log <+: w1.log ∧ w2.log <+: w'.log) ?_ h
  clear h
  rintro t w w' res h s em args i xs j x rfl rfl hk hij hj
  have hs := hk _ _ .refl
  have hi : i < xs.length := by
    have := (List.getElem?_eq_some_iff.1 hj).1
    omega
  have hx : (w.sig s).slots[i]? = some xs[i] := by rw [hs]; exact List.getElem?_eq_getElem hi
  have hbody : body env (.forSlots s em args i) w = .call (.cb (some em) (some s) xs[i] args) w fun w' r =>
      match r with
      | .error e => .done w' (.error e)
      | .ok _ => .call (.forSlots s em args (i + 1)) w' .done := by
    simp only [body, hx]
    rfl
  rw [hbody] at h
  obtain ⟨w1, r1, ⟨h1, -⟩, h2⟩ := h
  match r1, h1, h2 with
  | .error e, h1, h2 => simp [Comp.Via] at h2
  | .ok (), h1, ⟨w2, r2, ⟨h3, ih⟩, h4, h5⟩ =>
    subst h4; subst h5
    by_cases hji : j = i
    · subst hji
      rw [List.getElem?_eq_getElem hi] at hj
      cases hj
      exact ⟨w, w1, .step .refl (by rw [hbody]; exact .inl ⟨rfl, rfl⟩), h1, rfl, rfl, List.prefix_rfl,
        log_prefix h3⟩
    · have hw : Within env (.forSlots s em args i) w (.forSlots s em args (i + 1)) w1 :=
        .step .refl (by rw [hbody]; exact .inr ⟨w1, _, h1, .inl ⟨rfl, rfl⟩⟩)
      obtain ⟨w3, w4, a1, a2, a3, a4, a5, a6⟩ := ih s em args (i + 1) xs j x rfl rfl
        (fun t2 w2 h => hk t2 w2 (hw.trans h)) (by omega) hj
      exact ⟨w3, w4, hw.trans a1, a2, by rw [a3, emitter_restored h1], by rw [a4, thread_const h1],
        (log_prefix h1).trans a5, a6⟩

/-- Invoking the relay of a group with listeners, from an emission of `c`. -/
theorem relay_call {env : Env} {Q : Act → Prop} {em : Option Nat} {src : Option SigId} {x : Slot}
    {args : Args} {c r : SigId} {w w' : World} (hl : Live env Q (.direct em src x args) w)
    (hx : x.base = .relay r) (hr : (env.decl r).isRelay = true)
    (hm : (env.decl r).mode = .immediate) (he : w.emitter = some c) (hc : (w.sig c).slots ≠ [])
    {xs : List Slot} (hk : ∀ t1 w1, Within env (.direct em src x args) w t1 w1 → (w1.sig r).slots = xs)
    (h : Runs env (.direct em src x args) w w' (.ok ())) :
    ∃ d em' l, w'.log = w.log ++ (.call em src d (some c) w.thread (.relay r) (x.receives args) ::
        .req r [.info c (x.receives args)] :: (l ++ [.ret em src (.relay r) (.ok ())])) ∧
      Deliveries r em' w.thread [.info c (x.receives args)] xs l := by
  have hdead : x.base.isDead w = false := by simp [hx, Base.isDead, Base.owner?]
  have hbody : body env (.direct em src x args) w =
      .call (.slotRelay r (x.callArgs args)) (w.logCall em src (.relay r) (x.callArgs args))
          fun w' res => .done (w'.logRet em src (.relay r) res) res := by
    have hd : Base.isDead w (.relay r) = false := rfl
    simp only [body, hx, hd, Bool.false_eq_true, if_false]
  rw [runs_iff, hbody] at h
  obtain ⟨w1, r1, h1, h2, h3⟩ := h
  subst h3
  have hw1 : Within env (.direct em src x args) w (.slotRelay r (x.callArgs args))
      (w.logCall em src (.relay r) (x.callArgs args)) := .step .refl (by rw [hbody]; exact .inl ⟨rfl, rfl⟩)
  have hc' : (w.sig c).slots.isEmpty = false := by simpa using hc
  have hbody2 : body env (.slotRelay r (x.callArgs args)) (w.logCall em src (.relay r) (x.callArgs args)) =
      .call (.runLoop r [.info c (x.callArgs args)]) (w.logCall em src (.relay r) (x.callArgs args)) .done := by
    simp [body, hr, he, hc']
  rw [runs_iff, hbody2] at h1
  obtain ⟨w2, r2, h1, h4, h5⟩ := h1
  subst h4; subst h5
  have hw2 := Within.step hw1 (by rw [hbody2]; exact .inl ⟨rfl, rfl⟩)
  have hl2 := live_within hl hw2
  obtain ⟨l, hlog, hd⟩ := runLoop_slots (t1 := .runLoop r [.info c (x.callArgs args)]) hm h1 .refl
    ((queuePre_live hl2 r (by simp [hm])).2 (by simp)) rfl (deadInv_live hl2)
    (fun t2 w2 h => hk t2 w2 (hw2.trans h))
  rw [← receives_eq]
  subst h2
  obtain ⟨d, hcall⟩ : ∃ d, (w.logCall em src (.relay r) (x.callArgs args)).log =
      w.log ++ [.call em src d w.emitter w.thread (.relay r) (x.callArgs args)] := ⟨_, rfl⟩
  refine ⟨d, _, l, ?_, hd⟩
  rw [show (w1.logRet em src (.relay r) (.ok ())).log = w1.log ++ [.ret em src (.relay r) (.ok ())] from rfl,
    hlog, hcall, he]
  simp

/-! ## Blocking groups -/

theorem block_was_fold (x : SigId) (ex : List SigId) : ∀ (l : List SigId) (w : World), l.Nodup → x ∉ l →
    ∀ c, ((l.foldl (fun w c => if ex.contains c then w else
        let b := (w.sig c).blocked
        (w.upd x fun st => { st with wasBlocked := fun y => if y = c then some b else st.wasBlocked y }).upd
          c fun st => { st with blocked := true }) w).sig x).wasBlocked c =
      if c ∈ l ∧ c ∉ ex then some (w.sig c).blocked else (w.sig x).wasBlocked c
  | [], w, _, _, c => by simp
  | a :: l, w, hn, hx, c => by
    rw [List.nodup_cons] at hn
    rw [List.mem_cons, not_or] at hx
    rw [List.foldl_cons, block_was_fold x ex l _ hn.2 hx.2]
    by_cases ha : a ∈ ex
    · simp only [List.contains_iff_mem, ha, if_true]
      by_cases hc : c = a
      · subst hc; simp [hn.1, ha]
      · simp [hc]
    · simp only [List.contains_iff_mem, ha, if_false]
      by_cases hc : c = a
      · subst hc
        simp [hn.1, ha, upd_sig, hx.1]
      · by_cases hcx : c = x
        · subst hcx
          simp [hc, hx.2, upd_sig]
        · simp [hc, hcx, upd_sig, hx.1]

theorem unblock_member_fold (x : SigId) : ∀ (l : List SigId) (w : World), l.Nodup → x ∉ l → ∀ c ∈ l,
    ((l.foldl (fun w c =>
      let was := ((w.sig x).wasBlocked c).getD false
      let w1 := w.upd x fun st => { st with wasBlocked := fun y => if y = c then none else st.wasBlocked y }
      if was then w1 else w1.upd c fun st => { st with blocked := false }) w).sig c).blocked =
      (((w.sig x).wasBlocked c).getD false && (w.sig c).blocked)
  | [], w, _, _, c, h => by simp at h
  | a :: l, w, hn, hx, c, h => by
    rw [List.nodup_cons] at hn
    rw [List.mem_cons, not_or] at hx
    simp only [List.foldl_cons]
    by_cases hc : c = a
    · subst hc
      rw [(unblock_fold x l _ c).2 hn.1]
      by_cases hw : ((w.sig x).wasBlocked c).getD false = true
      · simp [hw, upd_sig, Ne.symm hx.1]
      · simp [hw, upd_sig]
    · have hl : c ∈ l := by simpa [hc] using h
      have hcx : c ≠ x := fun e => hx.2 (e ▸ hl)
      rw [unblock_member_fold x l _ hn.2 hx.2 c hl]
      by_cases hw : ((w.sig x).wasBlocked a).getD false = true
      · simp [hw, upd_sig, hc, hcx]
      · simp [hw, upd_sig, hc, hcx, hx.1]

theorem block_was (env : Env) (w : World) (x : SigId) (ex : List SigId) (hr : (env.decl x).isRelay = true)
    (hn : (env.decl x).children.Nodup) (hx : x ∉ (env.decl x).children) (c : SigId)
    (hc : c ∈ (env.decl x).children) : ((w.block env x ex).sig x).wasBlocked c =
      if c ∈ ex then (w.sig x).wasBlocked c else some (w.sig c).blocked := by
  have hcx : c ≠ x := fun e => hx (e ▸ hc)
  unfold World.block
  dsimp only
  rw [if_pos hr, block_was_fold _ _ _ _ hn hx]
  by_cases he : c ∈ ex <;> simp [he, hc, upd_sig, hcx]

theorem unblock_member (env : Env) (w : World) (x : SigId) (hr : (env.decl x).isRelay = true)
    (hn : (env.decl x).children.Nodup) (hx : x ∉ (env.decl x).children) (c : SigId)
    (hc : c ∈ (env.decl x).children) : ((w.unblock env x).sig c).blocked =
      (((w.sig x).wasBlocked c).getD false && (w.sig c).blocked) := by
  have hcx : c ≠ x := fun e => hx (e ▸ hc)
  unfold World.unblock
  dsimp only
  rw [if_pos hr, unblock_member_fold _ _ _ hn hx c hc]
  simp [upd_sig, hcx]

@[grind =>] theorem block_was_other (env : Env) (w : World) (x : SigId) (ex : List SigId) (s : SigId)
    (h : x ≠ s) : ((w.block env x ex).sig s).wasBlocked = (w.sig s).wasBlocked := by
  have key : ∀ (l : List SigId) (w : World), ((l.foldl (fun w c => if ex.contains c then w else
        let b := (w.sig c).blocked
        (w.upd x fun st => { st with wasBlocked := fun y => if y = c then some b else st.wasBlocked y }).upd
          c fun st => { st with blocked := true }) w).sig s).wasBlocked = (w.sig s).wasBlocked := by
    intro l
    induction l with
    | nil => exact fun _ => rfl
    | cons c l ih =>
      intro w
      rw [List.foldl_cons, ih]
      split
      · rfl
      · simp only [upd_sig, Ne.symm h, if_false]
        split <;> rfl
  unfold World.block
  dsimp only
  split
  · rw [key, upd_sig_ne _ _ (Ne.symm h)]
  · rw [upd_sig_ne _ _ (Ne.symm h)]

@[grind =>] theorem unblock_was_other (env : Env) (w : World) (x : SigId) (s : SigId)
    (h : x ≠ s) : ((w.unblock env x).sig s).wasBlocked = (w.sig s).wasBlocked := by
  have key : ∀ (l : List SigId) (w : World), ((l.foldl (fun w c =>
      let was := ((w.sig x).wasBlocked c).getD false
      let w1 := w.upd x fun st => { st with wasBlocked := fun y => if y = c then none else st.wasBlocked y }
      if was then w1 else w1.upd c fun st => { st with blocked := false }) w).sig s).wasBlocked =
        (w.sig s).wasBlocked := by
    intro l
    induction l with
    | nil => exact fun _ => rfl
    | cons c l ih =>
      intro w
      rw [List.foldl_cons, ih]
      dsimp only
      split
      · simp only [upd_sig, Ne.symm h, if_false]
      · simp only [upd_sig, Ne.symm h, if_false]
        split <;> rfl
  unfold World.unblock
  dsimp only
  split
  · rw [key, upd_sig_ne _ _ (Ne.symm h)]
  · rw [upd_sig_ne _ _ (Ne.symm h)]

theorem was_run (env : Env) (w : World) (s : SigId) (a : Act) (h : NoBlock s a) :
    (((a.run env w).1).sig s).wasBlocked = (w.sig s).wasBlocked := by
  by_cases h1 : ∃ x ex, a = .block x ex
  · obtain ⟨x, ex, rfl⟩ := h1
    exact block_was_other _ _ _ _ _ h
  · by_cases h2 : ∃ x, a = .unblock x
    · obtain ⟨x, rfl⟩ := h2
      exact unblock_was_other _ _ _ _ h
    · by_cases h3 : ∃ x, a = .pause x
      · obtain ⟨x, rfl⟩ := h3
        simp only [Act.run, World.pause, upd_sig]
        split <;> rfl
      · exact ((flags_run env w a (fun x ex e => h1 ⟨x, ex, e⟩) (fun x e => h2 ⟨x, e⟩)
          (fun x e => h3 ⟨x, e⟩)).app s).2.2

grind_pattern was_run => ((a.run env w).1).sig s, NoBlock s a

theorem was_const {env : Env} {s : SigId} (henv : env.Only (NoBlock s)) {t w w' res}
    (h : Runs env t w w' res) : t.Only (NoBlock s) → (w'.sig s).wasBlocked = (w.sig s).wasBlocked := by
  have tk : ∀ {a : Act} {w : World} {t : Task}, a.task? w = some t → t.Only (NoBlock s) := by
    intro a w t h
    cases a <;> simp [Act.task?] at h
    case emitQueued th => cases th <;> simp at h <;> subst h <;> trivial
    all_goals subst h; trivial
  refine Runs.induct (P := fun t w w' _ => t.Only (NoBlock s) →
    (w'.sig s).wasBlocked = (w.sig s).wasBlocked) ?_ h
  clear h
  intro t w w' r h hc
  unfold_body t h
  all_goals grind [Comp.Via, Task.Only, Prog.Only, Env.Only, NoBlock]

/-! ## Disconnecting from groups -/

theorem disconnectMembers_some (c : Callable) (m : Bool) : ∀ (l : List SigId) (w : World), l.Nodup →
    (∀ s ∈ l, (env.decl s).isRelay = false) →
    (((World.disconnectMembers env (some c) m l w).2 = .ok .unit ∧
        (m = true ∨ ∀ s ∈ l, slotIndex c.base (w.sig s).slots ≠ none) ∧
        ∀ s, ((World.disconnectMembers env (some c) m l w).1.sig s).slots =
          if s ∈ l then eraseSlot c.base (w.sig s).slots else (w.sig s).slots) ∨
      ((World.disconnectMembers env (some c) m l w).2 = .error .valueError ∧ m = false ∧
        (∃ s ∈ l, slotIndex c.base (w.sig s).slots = none) ∧
        ∀ s, s ∉ l → ((World.disconnectMembers env (some c) m l w).1.sig s).slots = (w.sig s).slots))
  | [], _, _, _ => .inl (by simp [World.disconnectMembers])
  | a :: l, w, hn, h => by
    rw [List.nodup_cons] at hn
    have ha := h a (by simp)
    unfold World.disconnectMembers
    cases hi : slotIndex c.base (w.sig a).slots with
    | none =>
      cases m with
      | false =>
        refine .inr ?_
        simp only [World.disconnect1, hi, Bool.false_eq_true, if_false]
        simpa using .inl hi
      | true =>
        simp only [World.disconnect1, hi, if_true]
        rcases disconnectMembers_some c true l w hn.2 (fun s hs => h s (by simp [hs])) with
          ⟨h1, h2, h3⟩ | ⟨-, h2, -⟩
        · refine .inl ⟨h1, by simp, fun s => ?_⟩
          rw [h3]
          by_cases hs : s = a
          · subst hs; simp [hn.1, eraseSlot, hi]
          · simp [hs]
        · simp at h2
    | some i =>
      have hss : w.setSlotsRemoved env a (popAt (w.sig a).slots i) =
          w.upd a fun st => { st with slots := popAt (w.sig a).slots i } := by
        simp [World.setSlotsRemoved, ha]
      simp only [World.disconnect1, hi, hss]
      have hne : ∀ s ∈ l, s ≠ a := fun s hs e => hn.1 (e ▸ hs)
      rcases disconnectMembers_some c m l (w.upd a fun st => { st with slots := popAt (w.sig a).slots i })
          hn.2 (fun s hs => h s (by simp [hs])) with ⟨h1, h2, h3⟩ | ⟨h1, h2, ⟨s, hs, h3⟩, h4⟩
      · refine .inl ⟨h1, ?_, fun s => ?_⟩
        · rcases h2 with h2 | h2
          · exact .inl h2
          · refine .inr fun s hs => ?_
            rw [List.mem_cons] at hs
            rcases hs with rfl | hs
            · simp [hi]
            · have := h2 s hs
              rwa [upd_sig_ne _ _ (hne s hs)] at this
        · rw [h3, upd_sig]
          by_cases hs : s = a
          · subst hs; simp [hn.1, eraseSlot, hi]
          · simp [hs]
      · refine .inr ⟨h1, h2, ⟨s, by simp [hs], ?_⟩, fun s' hs' => ?_⟩
        · rwa [upd_sig_ne _ _ (hne s hs)] at h3
        · rw [List.mem_cons, not_or] at hs'
          rw [h4 s' hs'.2, upd_sig_ne _ _ hs'.1]

/-- `group.disconnect(f, …)` returning normally. -/
theorem group_disconnect (hg : Groups env) (hr : (env.decl r).isRelay = true) (w : World) (f : Callable)
    (m : Bool) :
    ((w.disconnect env r (some f) m).2 = .ok .unit ∧
      (m = true ∨ ∀ s, s = r ∨ s ∈ (env.decl r).children → slotIndex f.base (w.sig s).slots ≠ none) ∧
      ((w.disconnect env r (some f) m).1.sig r).slots = eraseSlot f.base (w.sig r).slots ∧
      (∀ s ∈ (env.decl r).children,
        ((w.disconnect env r (some f) m).1.sig s).slots = eraseSlot f.base (w.sig s).slots ∨
        ((w.disconnect env r (some f) m).1.sig s).slots =
          eraseSlot (.relay r) (eraseSlot f.base (w.sig s).slots)) ∧
      ∀ s, s ≠ r → s ∉ (env.decl r).children →
        ((w.disconnect env r (some f) m).1.sig s).slots = (w.sig s).slots) ∨
    ((w.disconnect env r (some f) m).2 = .error .valueError ∧ m = false ∧
      (∃ s, (s = r ∨ s ∈ (env.decl r).children) ∧ slotIndex f.base (w.sig s).slots = none) ∧
      ((w.disconnect env r (some f) m).1.sig r).slots = (w.sig r).slots) := by
  have hself : r ∉ (env.decl r).children := fun h => by simp [hg.plain r r hr h] at hr
  have hd := disconnectMembers_some (env := env) f m (env.decl r).children w (hg.nodup r)
    (fun c hc => hg.plain r c hr hc)
  unfold World.disconnect
  rw [if_pos hr]
  rcases hdm : World.disconnectMembers env (some f) m (env.decl r).children w with ⟨w1, r1⟩
  rw [hdm] at hd
  rcases hd with ⟨h1, h2, h3⟩ | ⟨h1, h2, ⟨s, hs, h3⟩, h4⟩
  · dsimp only at h1 h3
    subst h1
    dsimp only
    have hr1 : (w1.sig r).slots = (w.sig r).slots := by rw [h3, if_neg hself]
    simp only [World.disconnect1, hr1]
    cases hi : slotIndex f.base (w.sig r).slots with
    | none =>
      cases m with
      | false =>
        exact .inr ⟨rfl, rfl, ⟨r, .inl rfl, hi⟩, hr1⟩
      | true =>
        refine .inl ⟨rfl, .inl rfl, ?_, fun s hs => .inl ?_, fun s _ hs => ?_⟩
        · simp [hr1, eraseSlot, hi]
        · simp [h3, hs]
        · simp [h3, hs]
    | some i =>
      dsimp only
      refine .inl ⟨rfl, ?_, ?_, fun s hs => ?_, fun s hsr hs => ?_⟩
      · rcases h2 with h2 | h2
        · exact .inl h2
        · refine .inr fun s hs => ?_
          rcases hs with rfl | hs
          · simp [hi]
          · exact h2 s hs
      · unfold World.setSlotsRemoved World.disconnectRelay
        dsimp only
        split
        · rw [disconnectRelay_sig _ _ _ _ (hg.nodup r), if_neg hself]
          simp [eraseSlot, hi]
        · simp [eraseSlot, hi]
      · have hsr : s ≠ r := fun e => hself (e ▸ hs)
        unfold World.setSlotsRemoved World.disconnectRelay
        dsimp only
        split
        · right
          rw [disconnectRelay_sig _ _ _ _ (hg.nodup r), if_pos hs, upd_sig_ne _ _ hsr, h3, if_pos hs]
        · left
          rw [upd_sig_ne _ _ hsr, h3, if_pos hs]
      · unfold World.setSlotsRemoved World.disconnectRelay
        dsimp only
        split
        · rw [disconnectRelay_sig _ _ _ _ (hg.nodup r), if_neg hs, upd_sig_ne _ _ hsr, h3, if_neg hs]
        · rw [upd_sig_ne _ _ hsr, h3, if_neg hs]
  · dsimp only at h1 h4
    subst h1
    dsimp only
    exact .inr ⟨rfl, h2, ⟨s, .inr hs, h3⟩, h4 r hself⟩

/-- Removing one slot of a callable. -/
theorem eraseSlot_count (b b' : Base) (ss : List Slot) :
    (eraseSlot b ss).filter (·.base == b') =
      if b' = b then (ss.filter (·.base == b)).tail else ss.filter (·.base == b') := by
  unfold eraseSlot
  split
  · rename_i i h
    obtain ⟨l₁, x, l₂, rfl, h1, h2, h3⟩ := slotIndex_some h
    rw [h3]
    split
    · rename_i hb
      subst hb
      have : l₁.filter (fun x => x.base == b') = [] := by simpa using h2
      simp [List.filter_append, this, h1]
    · rename_i hb
      simp [List.filter_append, h1, Ne.symm hb]
  · rename_i h
    split
    · rename_i hb
      subst hb
      have : ss.filter (fun x => x.base == b') = [] := by simpa using slotIndex_none.1 h
      simp [this]
    · rfl

theorem Deliveries.call_mem {s em th args} {x : Slot} : ∀ {xs l}, Deliveries s em th args xs l → x ∈ xs →
    x.thread = none ∨ x.thread = some th →
    ∃ d e, .call (some em) (some s) d e th x.base (x.receives args) ∈ l
  | [], _, _, hx, _ => by simp at hx
  | y :: ys, _, ⟨seg, rest, rfl, h1, h2⟩, hx, ht => by
    rw [List.mem_cons] at hx
    rcases hx with rfl | hx
    · rcases h1 with ⟨-, d, e, inner, rfl, -⟩ | ⟨t, h3, h4, -⟩
      · exact ⟨d, e, by simp⟩
      · rcases ht with ht | ht
        · simp [ht] at h3
        · rw [ht] at h3; exact absurd (by simpa using h3.symm) h4
    · obtain ⟨d, e, h3⟩ := Deliveries.call_mem h2 hx ht
      exact ⟨d, e, by simp [h3]⟩

end Psygnal
