import Verif.Bind

/-! # How assigned values spread over bindings -/
namespace Psygnal.Bind

@[simp] theorem set_same {α : Type} (f : Nat → α) (n : Nat) (v : α) : set f n v n = v := by simp [set]
theorem set_other {α : Type} {f : Nat → α} {n m : Nat} {v : α} (h : m ≠ n) : set f n v m = f m := by simp [set, h]

theorem filter_sub {p q : Nat → Bool} (h : ∀ m, p m = true → q m = true) : ∀ l : List Nat, (l.filter p).Sublist (l.filter q)
  | [] => List.Sublist.refl _
  | a :: l => by
    have ih := filter_sub h l
    cases hp : p a
    · rw [List.filter_cons_of_neg (by simp [hp])]
      cases hq : q a
      · rw [List.filter_cons_of_neg (by simp [hq])]; exact ih
      · rw [List.filter_cons_of_pos hq]; exact ih.cons a
    · rw [List.filter_cons_of_pos hp, List.filter_cons_of_pos (h a hp)]; exact ih.cons_cons a

/-- The fields that an assignment of `v` to `n` reaches: through bindings of fields whose value is not equal to `v`. -/
inductive Reach (e : Env) (σ : St) (v : Val) (n : Nat) : Nat → Prop
  | here : Reach e σ v n n
  | step {m b} : Reach e σ v n m → e.evented m = true → e.eq m v (σ.val m) = false → .bind b ∈ σ.slots m → Reach e σ v n b.tgt

/-- How many of the attributes would change. -/
def stale (e : Env) (v : Val) (ns : List Nat) (σ : St) : Nat := (ns.filter fun m => !e.eq m v (σ.val m)).length

/-- The calls that an emission `(n, new, old)` is to make. -/
def heard (slots : Nat → List Slot) (x : Nat × Val × Val) : List (Nat × Val × Val) :=
  (slots x.1).filterMap fun
    | .bind _ => none
    | .call k => some (k, x.2)

/-- What has happened between two states in which attributes were set to `v`. -/
structure Spread (e : Env) (v : Val) (σ σ' : St) (d o : List (Nat × Val × Val)) : Prop where
  val : ∀ m, σ'.val m = v ∨ σ'.val m = σ.val m
  slots : σ'.slots = σ.slots
  depth : σ'.depth = σ.depth
  log : σ'.log = σ.log ++ d
  entry : ∀ x ∈ d, x.2 = (v, σ.val x.1) ∧ e.evented x.1 = true ∧ σ.slots x.1 ≠ [] ∧ e.eq x.1 v (σ.val x.1) = false ∧ σ'.val x.1 = v
  nodup : (d.map (·.1)).Nodup
  closed : ∀ x ∈ d, ∀ b, .bind b ∈ σ.slots x.1 → σ'.val b.tgt = v
  all : ∀ m, e.evented m = true → σ.slots m ≠ [] → e.eq m v (σ.val m) = false → σ'.val m = v → m ∈ d.map (·.1)
  calls : ∃ c, σ'.calls = σ.calls ++ c ∧ c.Perm (o ++ d.flatMap (heard σ.slots))

theorem Spread.trans {e : Env} {v : Val} (hv : ∀ m, e.eq m v v = true) {σ σ1 σ2 : St} {d d' o o' : List (Nat × Val × Val)}
    (h : Spread e v σ σ1 d o) (h' : Spread e v σ1 σ2 d' o') : Spread e v σ σ2 (d ++ d') (o ++ o') where
  val m := by
    rcases h'.val m with h2 | h2
    · exact .inl h2
    · rw [h2]; exact h.val m
  slots := h'.slots.trans h.slots
  depth := h'.depth.trans h.depth
  log := by rw [h'.log, h.log, List.append_assoc]
  entry x hx := by
    rcases List.mem_append.mp hx with hx | hx
    · obtain ⟨h1, h2, h3, h4, h5⟩ := h.entry x hx
      refine ⟨h1, h2, h3, h4, ?_⟩
      rcases h'.val x.1 with h6 | h6
      · exact h6
      · rw [h6, h5]
    · obtain ⟨h1, h2, h3, h4, h5⟩ := h'.entry x hx
      have : σ1.val x.1 = σ.val x.1 := by
        rcases h.val x.1 with h6 | h6
        · rw [h6, hv] at h4; cases h4
        · exact h6
      rw [this] at h1 h4
      exact ⟨h1, h2, by rw [← h.slots]; exact h3, h4, h5⟩
  nodup := by
    rw [List.map_append, List.nodup_append]
    refine ⟨h.nodup, h'.nodup, ?_⟩
    intro a ha b hb hab
    subst hab
    obtain ⟨x, hx, rfl⟩ := List.mem_map.mp ha
    obtain ⟨y, hy, hyx⟩ := List.mem_map.mp hb
    have h1 := (h.entry x hx).2.2.2.2
    have h2 := (h'.entry y hy).2.2.2.1
    rw [hyx, h1, hv] at h2
    cases h2
  closed x hx b hb := by
    rcases List.mem_append.mp hx with hx | hx
    · have h1 := h.closed x hx b hb
      rcases h'.val b.tgt with h6 | h6
      · exact h6
      · rw [h6, h1]
    · exact h'.closed x hx b (by rw [h.slots]; exact hb)
  all m h1 h2 h3 h4 := by
    rw [List.map_append, List.mem_append]
    rcases h.val m with h5 | h5
    · exact .inl (h.all m h1 h2 h3 h5)
    · exact .inr (h'.all m h1 (by rw [h.slots]; exact h2) (by rw [h5]; exact h3) h4)
  calls := by
    obtain ⟨c, h1, h2⟩ := h.calls
    obtain ⟨c', h3, h4⟩ := h'.calls
    rw [h.slots] at h4
    refine ⟨c ++ c', by rw [h3, h1, List.append_assoc], (h2.append h4).trans ?_⟩
    rw [List.flatMap_append, List.append_assoc, List.append_assoc]
    refine List.Perm.append_left _ ?_
    rw [← List.append_assoc, ← List.append_assoc]
    exact List.Perm.append_right _ List.perm_append_comm

theorem Spread.refl (e : Env) (v : Val) (σ : St) (hv : ∀ m, e.eq m v v = true) : Spread e v σ σ [] [] where
  val m := .inr rfl
  slots := rfl
  depth := rfl
  log := by simp
  entry x hx := by cases hx
  nodup := by simp
  closed x hx := by cases hx
  all m _ _ h3 h4 := by rw [h4, hv] at h3; cases h3
  calls := ⟨[], by simp, List.Perm.refl _⟩

/-- Fewer would change afterwards. -/
theorem Spread.stale {e : Env} {v : Val} (hv : ∀ m, e.eq m v v = true) {σ σ' : St} {d o : List (Nat × Val × Val)}
    (h : Spread e v σ σ' d o) (ns : List Nat) : stale e v ns σ' ≤ stale e v ns σ := by
  unfold Bind.stale
  apply List.Sublist.length_le
  refine filter_sub ?_ _
  intro m hm
  rcases h.val m with h1 | h1
  · rw [h1, hv] at hm; cases hm
  · rw [h1] at hm; exact hm

theorem reach_mono {e : Env} {v : Val} (hv : ∀ m, e.eq m v v = true) {σ σ' : St} {n m : Nat}
    (hval : ∀ m, σ'.val m = v ∨ σ'.val m = σ.val m) (hs : σ'.slots = σ.slots) (h : Reach e σ' v n m) : Reach e σ v n m := by
  induction h with
  | here => exact .here
  | step _ h1 h2 h3 ih =>
    refine .step ih h1 ?_ (by rw [← hs]; exact h3)
    rename_i m' b _
    rcases hval m' with h4 | h4
    · rw [h4, hv] at h2; cases h2
    · rw [← h4]; exact h2

theorem reach_trans {e : Env} {v : Val} {σ : St} {n m k : Nat} (h : Reach e σ v n m) (h' : Reach e σ v m k) :
    Reach e σ v n k := by
  induction h' with
  | here => exact h
  | step _ h1 h2 h3 ih => exact .step ih h1 h2 h3

/-- What an assignment does. -/
def Assigned (e : Env) (v : Val) (n : Nat) (σ σ' : St) : Prop :=
  ∃ d, Spread e v σ σ' d [] ∧ σ'.val n = v ∧ ∀ m, σ'.val m ≠ σ.val m → Reach e σ v n m

/-- What is assumed of the bindings. -/
structure Ok (e : Env) (v : Val) (ns : List Nat) (σ : St) : Prop where
  one : ∀ m b, .bind b ∈ σ.slots m → b.maxArgs = some 1
  closed : ∀ m ∈ ns, ∀ b, .bind b ∈ σ.slots m → b.tgt ∈ ns
  fine : ∀ m k, .call k ∈ σ.slots m → ∀ old, e.raises k v old = false
  depth : ∀ m, e.eq m v (σ.val m) = false → σ.depth m < e.limit

theorem Spread.ok {e : Env} {v : Val} (hv : ∀ m, e.eq m v v = true) {σ σ' : St} {d o : List (Nat × Val × Val)} {ns : List Nat}
    (h : Spread e v σ σ' d o) (ho : Ok e v ns σ) : Ok e v ns σ' where
  one m b hb := ho.one m b (by rw [← h.slots]; exact hb)
  closed m hm b hb := ho.closed m hm b (by rw [← h.slots]; exact hb)
  fine m k hb := ho.fine m k (by rw [← h.slots]; exact hb)
  depth m hm := by
    rw [h.depth]
    apply ho.depth
    rcases h.val m with h1 | h1
    · rw [h1, hv] at hm; cases hm
    · rw [← h1]; exact hm

/-- Loops, given what `setattr` does. -/
theorem loop_ok {e : Env} {v old : Val} (hv : ∀ m, e.eq m v v = true) {ns : List Nat} {k : Nat}
    {g : Nat → Val → St → Option (Bool × St)}
    (hg : ∀ n σ, n ∈ ns → Ok e v ns σ → stale e v ns σ < k → ∃ σ', g n v σ = some (true, σ') ∧ Assigned e v n σ σ') :
    ∀ (bs : List Slot) (σ : St), (∀ b, .bind b ∈ bs → b.maxArgs = some 1 ∧ b.tgt ∈ ns) → (∀ k, .call k ∈ bs → e.raises k v old = false) →
      Ok e v ns σ → stale e v ns σ < k →
      ∃ σ' d, loop e g v old bs σ = some (true, σ')
        ∧ Spread e v σ σ' d (bs.filterMap fun | .bind _ => none | .call k => some (k, v, old))
        ∧ (∀ b, .bind b ∈ bs → σ'.val b.tgt = v)
        ∧ ∀ m, σ'.val m ≠ σ.val m → ∃ b, .bind b ∈ bs ∧ Reach e σ v b.tgt m
  | [], σ, _, _, _, _ => ⟨σ, [], rfl, .refl e v σ hv, by simp, fun m h => absurd rfl h⟩
  | .call c :: bs, σ, hb, hc, ho, hk => by
    have hσ : Spread e v σ { σ with calls := σ.calls ++ [(c, v, old)] } [] [(c, v, old)] :=
      { Spread.refl e v σ hv with calls := ⟨[(c, v, old)], rfl, List.Perm.refl _⟩ }
    obtain ⟨σ2, d2, h2, hs2, ht2, hr2⟩ := loop_ok (old := old) hv hg bs { σ with calls := σ.calls ++ [(c, v, old)] }
      (fun b h => hb b (List.mem_cons_of_mem _ h)) (fun k h => hc k (List.mem_cons_of_mem _ h)) (hσ.ok hv ho) hk
    refine ⟨σ2, d2, ?_, hσ.trans hv hs2, ?_, fun m hm => ?_⟩
    · simp only [loop, hc c (by simp), h2]
      rfl
    · intro b hb'
      rcases List.mem_cons.mp hb' with h | h
      · cases h
      · exact ht2 b h
    · obtain ⟨b, hb', hr⟩ := hr2 m hm
      exact ⟨b, List.mem_cons_of_mem _ hb', reach_mono hv hσ.val hσ.slots hr⟩
  | .bind b :: bs, σ, hb, hc, ho, hk => by
    have hb0 := hb b (by simp)
    obtain ⟨σ1, h1, d1, hs1, hn1, hr1⟩ := hg b.tgt σ hb0.2 ho hk
    have hst := hs1.stale hv ns
    obtain ⟨σ2, d2, h2, hs2, ht2, hr2⟩ := loop_ok (old := old) hv hg bs σ1 (fun b h => hb b (List.mem_cons_of_mem _ h))
      (fun k h => hc k (List.mem_cons_of_mem _ h)) (hs1.ok hv ho) (by omega)
    refine ⟨σ2, d1 ++ d2, ?_, hs1.trans hv hs2, ?_, ?_⟩
    · have ha : b.arg v old = v := by simp [Binding.arg, hb0.1]
      simp only [loop, ha, h1, h2]
    · intro b' hb'
      rcases List.mem_cons.mp hb' with h | hb'
      · cases h
        rcases hs2.val b.tgt with h3 | h3
        · exact h3
        · rw [h3, hn1]
      · exact ht2 b' hb'
    · intro m hm
      by_cases h3 : σ1.val m = σ.val m
      · obtain ⟨b', hb', hr⟩ := hr2 m (by rw [h3]; exact hm)
        exact ⟨b', List.mem_cons_of_mem _ hb', reach_mono hv hs1.val hs1.slots hr⟩
      · exact ⟨b, by simp, hr1 m h3⟩

theorem assign_ok {e : Env} {v : Val} (hv : ∀ m, e.eq m v v = true) {ns : List Nat} :
    ∀ (f n : Nat) (σ : St), n ∈ ns → Ok e v ns σ → stale e v ns σ < f →
      ∃ σ', assign e f n v σ = some (true, σ') ∧ Assigned e v n σ σ'
  | 0, _, _, _, _, h => absurd h (Nat.not_lt_zero _)
  | f + 1, n, σ, hn, ho, hf => by
    have hquiet : (e.evented n = false ∨ σ.slots n = []) ∨ e.eq n v (σ.val n) = true →
        Assigned e v n σ { σ with val := set σ.val n v } := by
      intro hq
      refine ⟨[], ⟨fun m => ?_, rfl, rfl, by simp, by simp, by simp, by simp, fun m h1 h2 h3 h4 => ?_, ⟨[], by simp, List.Perm.refl _⟩⟩, by simp,
        fun m hm => ?_⟩
      · by_cases hm : m = n
        · subst hm; simp
        · simp [set_other hm]
      · by_cases hm : m = n
        · subst hm
          rcases hq with (hq | hq) | hq
          · rw [hq] at h1; cases h1
          · exact absurd hq h2
          · rw [hq] at h3; cases h3
        · simp only [set_other hm] at h4
          rw [h4, hv] at h3; cases h3
      · by_cases hmn : m = n
        · subst hmn; exact .here
        · simp [set_other hmn] at hm
    unfold assign
    simp only
    split
    · rename_i hq; exact ⟨_, rfl, hquiet (.inl hq)⟩
    · rename_i hq
      split
      · rename_i hq; exact ⟨_, rfl, hquiet (.inr hq)⟩
      · rename_i hne
        have hne : e.eq n v (σ.val n) = false := by simpa using hne
        have hq1 : e.evented n = true := by
          cases h : e.evented n
          · exact absurd (.inl h) hq
          · rfl
        have hq2 : σ.slots n ≠ [] := fun h => hq (.inr h)
        have hd := ho.depth n hne
        unfold emit
        rw [if_neg (by simp only; omega)]
        generalize hσ1 : ({ val := set σ.val n v, slots := σ.slots, depth := set σ.depth n (σ.depth n + 1),
                            log := σ.log ++ [(n, v, σ.val n)], calls := σ.calls } : St) = σ1
        have hval1 : ∀ m, σ1.val m = v ∨ σ1.val m = σ.val m := by
          intro m; subst hσ1
          by_cases hm : m = n
          · subst hm; simp
          · simp [set_other hm]
        have hsl1 : σ1.slots = σ.slots := by subst hσ1; rfl
        have hn1 : σ1.val n = v := by subst hσ1; simp
        have hoth1 : ∀ m, m ≠ n → σ1.val m = σ.val m := by intro m hm; subst hσ1; simp [set_other hm]
        have ho1 : Ok e v ns σ1 := by
          refine ⟨fun m b hb => ho.one m b (by rw [← hsl1]; exact hb), fun m hm b hb => ho.closed m hm b (by rw [← hsl1]; exact hb),
            fun m k hb => ho.fine m k (by rw [← hsl1]; exact hb), ?_⟩
          intro m hm
          by_cases hmn : m = n
          · subst hmn; rw [hn1, hv] at hm; cases hm
          · rw [hoth1 m hmn] at hm
            have := ho.depth m hm
            subst hσ1
            simpa [set_other hmn] using this
        have hst1 : stale e v ns σ1 < stale e v ns σ := by
          unfold stale
          refine Nat.lt_of_le_of_ne (List.Sublist.length_le ?_) ?_
          · refine filter_sub ?_ _
            intro m hm
            rcases hval1 m with h1 | h1
            · rw [h1, hv] at hm; cases hm
            · rw [h1] at hm; exact hm
          · intro heq
            have hsub : (ns.filter fun m => !e.eq m v (σ1.val m)).Sublist (ns.filter fun m => !e.eq m v (σ.val m)) := by
              refine filter_sub ?_ _
              intro m hm
              rcases hval1 m with h1 | h1
              · rw [h1, hv] at hm; cases hm
              · rw [h1] at hm; exact hm
            have := hsub.eq_of_length heq
            have hin : n ∈ ns.filter fun m => !e.eq m v (σ.val m) := by simp [hn, hne]
            rw [← this] at hin
            simp [hn1, hv] at hin
        obtain ⟨σ2, d, h2, hs2, ht2, hr2⟩ := loop_ok (old := σ.val n) hv (fun n σ => assign_ok hv f n σ) (σ.slots n) σ1
          (fun b hb => ⟨ho.one n b hb, ho.closed n hn b hb⟩) (fun k hk => ho.fine n k hk _) ho1 (by omega)
        simp only [h2]
        refine ⟨_, rfl, (n, v, σ.val n) :: d, ⟨fun m => ?_, ?_, ?_, ?_, ?_, ?_, ?_, ?_, ?_⟩, ?_, ?_⟩
        · rcases hs2.val m with h3 | h3
          · exact .inl h3
          · rw [h3]; exact hval1 m
        · rw [hs2.slots, hsl1]
        · simp only [hs2.depth]
          subst hσ1
          funext m
          by_cases hm : m = n
          · subst hm; simp
          · simp [set_other hm]
        · rw [hs2.log]; subst hσ1; simp
        · intro x hx
          rcases List.mem_cons.mp hx with rfl | hx
          · refine ⟨rfl, hq1, hq2, hne, ?_⟩
            rcases hs2.val n with h3 | h3
            · exact h3
            · rw [h3, hn1]
          · obtain ⟨k1, k2, k3, k4, k5⟩ := hs2.entry x hx
            have hxn : x.1 ≠ n := by intro h; rw [h, hn1, hv] at k4; cases k4
            rw [hoth1 _ hxn] at k1 k4
            exact ⟨k1, k2, by rw [← hsl1]; exact k3, k4, k5⟩
        · rw [List.map_cons, List.nodup_cons]
          refine ⟨?_, hs2.nodup⟩
          intro hmem
          obtain ⟨x, hx, hxn⟩ := List.mem_map.mp hmem
          have := (hs2.entry x hx).2.2.2.1
          simp only at hxn
          rw [hxn, hn1, hv] at this; cases this
        · intro x hx b hb
          rcases List.mem_cons.mp hx with rfl | hx
          · exact ht2 b hb
          · exact hs2.closed x hx b (by rw [hsl1]; exact hb)
        · intro m k1 k2 k3 k4
          rw [List.map_cons, List.mem_cons]
          by_cases hmn : m = n
          · exact .inl hmn
          · exact .inr (hs2.all m k1 (by rw [hsl1]; exact k2) (by rw [hoth1 m hmn]; exact k3) k4)
        · obtain ⟨c, k1, k2⟩ := hs2.calls
          refine ⟨c, by rw [k1]; subst hσ1; rfl, ?_⟩
          rw [hsl1] at k2
          rw [List.nil_append, List.flatMap_cons]
          exact k2
        · rcases hs2.val n with h3 | h3
          · exact h3
          · simp only; rw [h3, hn1]
        · intro m hm
          by_cases hmn : m = n
          · subst hmn; exact .here
          · obtain ⟨b, hb, hr⟩ := hr2 m (by rw [hoth1 m hmn]; exact hm)
            exact reach_trans (.step .here hq1 hne hb) (reach_mono hv hval1 hsl1 hr)

end Psygnal.Bind
