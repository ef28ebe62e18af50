import Verif.SlotLemmas

/-!
# Invariants at every moment of every execution (helper lemmas)
-/
namespace Psygnal

/-- `c.Ok env I G post`: every nested call of `c` is started in a state satisfying `I`, and if nested
calls guarantee `G`, then `c` ends in a state satisfying `post`. -/
def Comp.Ok (env : Env) (I : Task → World → Prop) (G : Task → World → World → Res → Prop)
    (post : World → Res → Prop) : Comp → Prop
  | .done w r => post w r
  | .call t w k => I t w ∧ ∀ w1 r1, Runs env t w w1 r1 → G t w w1 r1 → (k w1 r1).Ok env I G post

theorem Comp.Ok.via {env : Env} {I : Task → World → Prop} {G : Task → World → World → Res → Prop}
    {post : World → Res → Prop} : ∀ (c : Comp) (w' : World) (r : Res), c.Ok env I G post →
      c.Via (fun t w w' r => Runs env t w w' r ∧ (I t w → G t w w' r)) w' r → post w' r
  | .done w r0, w', r, h, hv => by obtain ⟨rfl, rfl⟩ := hv; exact h
  | .call t w k, w', r, h, ⟨w1, r1, ⟨hr, hg⟩, hk⟩ =>
    Comp.Ok.via (k w1 r1) w' r (h.2 w1 r1 hr (hg h.1)) hk

theorem Comp.Ok.reaches {env : Env} {I : Task → World → Prop} {G : Task → World → World → Res → Prop}
    {post : World → Res → Prop} (hG : ∀ {t w w' r}, Runs env t w w' r → I t w → G t w w' r) :
    ∀ (c : Comp) (t' : Task) (w' : World), c.Ok env I G post → c.Reaches (Runs env) t' w' → I t' w'
  | .done _ _, _, _, _, h => h.elim
  | .call t w k, t', w', h, .inl ⟨ht, hw⟩ => by subst ht; subst hw; exact h.1
  | .call t w k, t', w', h, .inr ⟨w1, r1, hr, hk⟩ =>
    Comp.Ok.reaches hG (k w1 r1) t' w' (h.2 w1 r1 hr (hG hr h.1)) hk

/-- The rule: if every body is `Ok`, then `G` holds of all executions started in `I`. -/
theorem hoare {env : Env} (I : Task → World → Prop) (G : Task → World → World → Res → Prop)
    (H : ∀ t w, I t w → (body env t w).Ok env I G (G t w)) {t w w' r} (h : Runs env t w w' r) :
    I t w → G t w w' r := by
  refine Runs.induct (P := fun t w w' r => I t w → G t w w' r) ?_ h
  clear h
  intro t w w' r h hi
  exact Comp.Ok.via _ _ _ (H t w hi) h

/-- … and `I` holds of every procedure started during any history. -/
theorem hoare_live {env : Env} {Q : Act → Prop} (I : Task → World → Prop)
    (G : Task → World → World → Res → Prop)
    (H : ∀ t w, I t w → (body env t w).Ok env I G (G t w))
    (J : World → Prop) (h0 : J .init) (ht : ∀ w t, J w → J { w with thread := t })
    (hI : ∀ w p, p.Only Q → J w → I (.prog p) w)
    (hJ : ∀ w p w' r, J w → G (.prog p) w w' r → J w') {t w} (h : Live env Q t w) : I t w := by
  have hr : ∀ w, Reachable env Q w → J w := by
    intro w h
    induction h with
    | init => exact h0
    | step t p hp _ hr ih =>
      exact hJ _ _ _ _ (ht _ t ih) (hoare I G H hr (hI _ _ hp (ht _ t ih)))
  induction h with
  | top h t p hp => exact hI _ _ hp (ht _ t (hr _ h))
  | sub _ h ih => exact Comp.Ok.reaches (hoare I G H) _ _ _ (H _ _ ih) h

theorem hoare_reachable {env : Env} {Q : Act → Prop} (I : Task → World → Prop)
    (G : Task → World → World → Res → Prop)
    (H : ∀ t w, I t w → (body env t w).Ok env I G (G t w))
    (J : World → Prop) (h0 : J .init) (ht : ∀ w t, J w → J { w with thread := t })
    (hI : ∀ w p, p.Only Q → J w → I (.prog p) w)
    (hJ : ∀ w p w' r, J w → G (.prog p) w w' r → J w') {w} (h : Reachable env Q w) : J w := by
  induction h with
  | init => exact h0
  | step t p hp _ hr ih =>
    exact hJ _ _ _ _ (ht _ t ih) (hoare I G H hr (hI _ _ hp (ht _ t ih)))

theorem Comp.Ok.strengthen {env : Env} {I K : Task → World → Prop}
    {G : Task → World → World → Res → Prop} {post : World → Res → Prop} :
    ∀ c : Comp, c.Ok env I G post → (∀ t w, c.Reaches (Runs env) t w → K t w) →
      c.Ok env (fun t w => I t w ∧ K t w) G post
  | .done _ _, h, _ => h
  | .call t w k, h, hk =>
    ⟨⟨h.1, hk t w (.inl ⟨rfl, rfl⟩)⟩, fun w1 r1 hr hg =>
      Comp.Ok.strengthen (k w1 r1) (h.2 w1 r1 hr hg) fun t' w' hr' => hk t' w' (.inr ⟨w1, r1, hr, hr'⟩)⟩

/-- `hoare_live` with the help of a property `C` of the connections. -/
theorem hoare_conn_live {env : Env} {Q : Act → Prop} (C : World → Prop) (c0 : C .init)
    (crun : ∀ w a, Q a → C w → C (a.run env w).1) (cc : ∀ w w', ConnEq w w' → C w → C w')
    (he : env.Only Q) (I : Task → World → Prop) (G : Task → World → World → Res → Prop)
    (H : ∀ t w, t.Only Q → C w → I t w → (body env t w).Ok env I G (G t w))
    (J : World → Prop) (h0 : J .init) (ht : ∀ w t, J w → J { w with thread := t })
    (hI : ∀ w p, p.Only Q → J w → I (.prog p) w)
    (hJ : ∀ w p w' r, J w → G (.prog p) w w' r → J w') {t w} (h : Live env Q t w) :
    I t w ∧ t.Only Q ∧ C w := by
  refine hoare_live (fun t w => I t w ∧ t.Only Q ∧ C w)
    (fun t w w' r => G t w w' r ∧ C w') ?_
    (fun w => J w ∧ C w) ⟨h0, c0⟩ (fun w t h => ⟨ht w t h.1, cc _ _ (connEq_thread w t) h.2⟩)
    (fun w p hp h => ⟨hI w p hp h.1, hp, h.2⟩)
    (fun w p w' r h hg => ⟨hJ w p w' r h.1 hg.1, hg.2⟩) h
  · intro t w ⟨hi, ho, hc⟩
    have h1 := H t w ho hc hi
    have h2 := Comp.Ok.strengthen (K := fun t w => t.Only Q ∧ C w) _ h1 fun t' w' hr =>
      conn_reaches C crun cc he hr ho hc
    have key : ∀ (c : Comp), c.Ok env (fun t w => I t w ∧ t.Only Q ∧ C w) G (G t w) →
        (∀ w' r, c.Via (Runs env) w' r → C w') →
        c.Ok env (fun t w => I t w ∧ t.Only Q ∧ C w)
          (fun t w w' r => G t w w' r ∧ C w')
          (fun w' r => G t w w' r ∧ C w') := by
      intro c
      induction c with
      | done w1 r1 => exact fun h hv => ⟨h, hv w1 r1 ⟨rfl, rfl⟩⟩
      | call t1 w1 k ih =>
        exact fun h hv => ⟨h.1, fun w2 r2 hr hg => ih w2 r2 (h.2 w2 r2 hr hg.1)
          fun w' r' hv' => hv w' r' ⟨w2, r2, hr, hv'⟩⟩
    exact key _ h2 fun w' r hv => conn_inv C crun cc he ((runs_iff ..).2 hv) ho hc

/-- Split on the task in the goal and unfold its body. -/
macro "unfold_goal " t:ident : tactic => `(tactic|
  (cases $t:ident using Task.splitProg
   all_goals simp only [body]
   all_goals repeat' split
   all_goals simp only [Comp.Ok]))

end Psygnal
