import Verif.GroupQueued

/-!
# Groups with members in latest-only mode: lemmas for C19
-/
namespace Psygnal

theorem forLatest_visits {env : Env} {t w w' res} (h : Runs env t w w' res) : ∀ s em args i xs j x,
    (env.decl s).mode ≠ .queued → t = .forLatest s em args i → AcceptPre s t w →
    (w.sig s).maxDepth ≤ (w.sig s).depth → res = .ok () → accepted s w'.log = accepted s w.log →
    (∀ t1 w1, Within env t w t1 w1 → (w1.sig s).slots = xs) → i ≤ j → xs[j]? = some x →
    ∃ w1 w2, Within env t w (.cb (some em) (some s) x args) w1 ∧
      Runs env (.cb (some em) (some s) x args) w1 w2 (.ok ()) ∧
      w1.emitter = w.emitter ∧ w1.thread = w.thread ∧ w.log <+: w1.log ∧ w2.log <+: w'.log := by
  refine Runs.induct (P := fun t w w' res => ∀ s em args i xs j x,
    (env.decl s).mode ≠ .queued → t = .forLatest s em args i → AcceptPre s t w →
    (w.sig s).maxDepth ≤ (w.sig s).depth → res = .ok () → accepted s w'.log = accepted s w.log →
    (∀ t1 w1, Within env t w t1 w1 → (w1.sig s).slots = xs) → i ≤ j → xs[j]? = some x →
    ∃ w1 w2, Within env t w (.cb (some em) (some s) x args) w1 ∧
      Runs env (.cb (some em) (some s) x args) w1 w2 (.ok ()) ∧
      w1.emitter = w.emitter ∧ w1.thread = w.thread ∧ w.log <+: w1.log ∧ w2.log <+: w'.log) ?_ h
  clear h
  rintro t w w' res h s em args i xs j x hm rfl hp hmd rfl hacc hk hij hj
  have hs := hk _ _ .refl
  have hi : i < xs.length := by
    have := (List.getElem?_eq_some_iff.1 hj).1
    omega
  have hx : (w.sig s).slots[i]? = some xs[i] := by rw [hs]; exact List.getElem?_eq_getElem hi
  simp only [body, hx] at h
  split at h
  · omega
  rename_i hmd'
  obtain ⟨w1, r1, ⟨h1, -⟩, h2⟩ := h
  have hpost := accept_runs hm h1 ⟨hp.1, by simp, fun _ => hp.2.2 (by simp)⟩
  cases r1 with
  | error e =>
    obtain ⟨-, h2⟩ := h2
    simp at h2
  | ok u =>
    obtain ⟨w2, r2, ⟨h3, ih⟩, rfl, rfl⟩ := h2
    by_cases hji : j = i
    · subst hji
      rw [List.getElem?_eq_getElem hi] at hj
      cases hj
      exact ⟨w, w1, .step .refl (by simp only [body, hx, hmd', if_false]; exact .inl ⟨rfl, rfl⟩), h1, rfl, rfl,
        List.prefix_rfl, log_prefix h3⟩
    · have hw : Within env (.forLatest s em args i) w (.forLatest s em args (i + 1)) w1 :=
        .step .refl (by simp only [body, hx, hmd', if_false]; exact .inr ⟨w1, _, h1, .inl ⟨rfl, rfl⟩⟩)
      have hp1 : AcceptPre s (.forLatest s em args (i + 1)) w1 :=
        ⟨by rw [hpost.2.2.2.2.2]; exact hp.1, by simp, fun _ => hpost.2.2.2.2.1⟩
      have hpost2 := accept_runs hm h3 hp1
      have ha1 : (accepted s w.log).length = (accepted s w1.log).length := by
        have := congrArg List.length hacc
        have := hpost.2.1
        have := hpost2.2.1
        omega
      have hacc1 : accepted s w1.log = accepted s w.log := by
        obtain ⟨seg, hl⟩ := log_prefix h1
        rw [← hl, accepted_append'] at ha1 ⊢
        rw [List.length_append] at ha1
        have : accepted s seg = [] := List.length_eq_zero_iff.1 (by omega)
        simp [this]
      obtain ⟨w3, w4, a1, a2, a3, a4, a5, a6⟩ := ih s em args (i + 1) xs j x hm rfl hp1
        (by rw [← hpost.2.2.1 ha1, hpost.2.2.2.2.2]; exact hmd) rfl (by rw [hacc1]; exact hacc)
        (fun t2 w2 h => hk t2 w2 (hw.trans h)) (by omega) hj
      exact ⟨w3, w4, hw.trans a1, a2, by rw [a3, emitter_restored h1], by rw [a4, thread_const h1],
        (log_prefix h1).trans a5, a6⟩

end Psygnal
