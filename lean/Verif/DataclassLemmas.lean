import Verif.Dataclass

/-! # The loop over the fields of a dataclass (lemmas for C41) -/
namespace Psygnal.DC

/-- The documented name of the signal of field `n`: the alias mapping, else the alias callable, else
the alias of the group class, else the name of the field.  `none`: no signal. -/
def target (arg : AliasArg) (grp : Group) (n : Nat) : Option Nat :=
  match arg with
  | .callable f => f n
  | .mapping l =>
    match l.find? (·.1 = n) with
    | some e => e.2
    | none => match grp.aliases.find? (·.1 = n) with
      | some e => e.2
      | none => some n

theorem get_eq (l : Aliases) (n : Nat) : l.get n = (l.find? (·.1 = n)).map (·.2) := rfl

theorem get_cons (l : Aliases) (k n : Nat) (x : Option Nat) :
    Aliases.get ((k, x) :: l) n = if k = n then some x else l.get n := by
  unfold Aliases.get
  rw [List.find?_cons]
  by_cases h : k = n <;> simp [h]

theorem get_append (l l' : Aliases) (n : Nat) : Aliases.get (l ++ l') n = (l.get n).or (l'.get n) := by
  unfold Aliases.get
  rw [List.find?_append]
  cases l.find? (·.1 = n) <;> simp

/-- The state of the loop after some fields: `done` are those already seen. -/
structure LoopOk (arg : AliasArg) (grp : Group) (done : List Field) (a : Acc) : Prop where
  /-- The aliases say what is documented, and nothing is said about fields not seen. -/
  known : ∀ n, (∃ f ∈ done, f.name = n) → ((a.aliases ++ grp.aliases).get n).getD (some n) = target arg grp n
  fresh : ∀ n, a.aliases.get n = arg.start.get n ∨
    (∃ f ∈ done, f.name = n) ∧ a.aliases.get n = some (target arg grp n)
  sigs : ∀ s, s ∈ a.signals ↔ s ∉ grp.sigs ∧ ∃ f ∈ done, target arg grp f.name = some s
  nodup : a.signals.Nodup

theorem resolve_target (arg : AliasArg) (grp : Group) (a : Aliases) (n : Nat)
    (h : a.get n = arg.start.get n ∨ a.get n = some (target arg grp n)) :
    (resolve arg grp a n).1 = target arg grp n ∧
    (((resolve arg grp a n).2 ++ grp.aliases).get n).getD (some n) = target arg grp n ∧
    (∀ k, k ≠ n → (resolve arg grp a n).2.get k = a.get k) ∧
    ((resolve arg grp a n).2.get n = arg.start.get n ∨
      (resolve arg grp a n).2.get n = some (target arg grp n)) := by
  unfold resolve
  rcases hg : a.get n with _ | x
  · rw [hg] at h
    cases arg with
    | callable f =>
      refine ⟨rfl, ?_, ?_, .inr ?_⟩
      · simp [get_cons, target]
      · intro k hk; simp [get_cons, Ne.symm hk]
      · simp [get_cons, target]
    | mapping l =>
      have hl : l.find? (·.1 = n) = none := by
        rcases h with h | h
        · have h : none = Aliases.get l n := h
          unfold Aliases.get at h
          cases hf : l.find? (·.1 = n) with
          | none => rfl
          | some e => rw [hf] at h; cases h
        · cases h
      have hlg : Aliases.get l n = none := by simp [Aliases.get, hl]
      simp only
      rcases hgr : grp.aliases.get n with _ | x
      · have hgf : grp.aliases.find? (·.1 = n) = none := by
          unfold Aliases.get at hgr
          cases hf : grp.aliases.find? (·.1 = n) with
          | none => rfl
          | some e => rw [hf] at hgr; cases hgr
        have ht : target (.mapping l) grp n = some n := by simp [target, hl, hgf]
        refine ⟨ht.symm, ?_, fun _ _ => by trivial, .inl ?_⟩
        · rw [get_append, hg, hgr, ht]; rfl
        · exact hg.trans hlg.symm
      · obtain ⟨e, hf, he⟩ : ∃ e, grp.aliases.find? (·.1 = n) = some e ∧ e.2 = x := by
          unfold Aliases.get at hgr
          cases hf : grp.aliases.find? (·.1 = n) with
          | none => rw [hf] at hgr; cases hgr
          | some e => rw [hf] at hgr; exact ⟨e, rfl, Option.some.inj hgr⟩
        have ht : target (.mapping l) grp n = x := by simp [target, hl, hf, he]
        refine ⟨ht.symm, ?_, ?_, .inr ?_⟩
        · simp [get_cons, ht]
        · intro k hk; simp [get_cons, Ne.symm hk]
        · simp [get_cons, ht]
  · have hx : target arg grp n = x := by
      rcases h with h | h
      · rw [hg] at h
        cases arg with
        | callable f => cases h
        | mapping l =>
          have h : some x = Aliases.get l n := h
          unfold Aliases.get at h
          cases hf : l.find? (·.1 = n) with
          | none => rw [hf] at h; cases h
          | some e =>
            rw [hf] at h
            simp only [target, hf]
            exact (Option.some.inj h).symm
      · rw [hg] at h
        exact (Option.some.inj h).symm
    simp only
    refine ⟨hx.symm, ?_, fun _ _ => by trivial, .inr ?_⟩
    · rw [get_append, hg, hx]; rfl
    · rw [hg, hx]

theorem addField_ok {arg : AliasArg} {grp : Group} {done : List Field} {a : Acc} (h : LoopOk arg grp done a)
    (f : Field) : LoopOk arg grp (done ++ [f]) (addField arg grp a f) := by
  obtain ⟨h1, h2, h3, h4⟩ := resolve_target arg grp a.aliases f.name ((h.fresh f.name).imp id And.right)
  have hal : (addField arg grp a f).aliases = (resolve arg grp a.aliases f.name).2 := by
    unfold addField
    simp only
    split
    · rfl
    · split
      · rfl
      · split <;> rfl
  have hmem : ∀ n, (∃ g ∈ done ++ [f], g.name = n) ↔ (∃ g ∈ done, g.name = n) ∨ f.name = n := by
    intro n
    simp only [List.mem_append, List.mem_singleton]
    exact ⟨fun ⟨g, hg, e⟩ => hg.elim (fun hg => .inl ⟨g, hg, e⟩) (fun hg => .inr (hg ▸ e)),
      fun h => h.elim (fun ⟨g, hg, e⟩ => ⟨g, .inl hg, e⟩) (fun e => ⟨f, .inr rfl, e⟩)⟩
  have hmem' : ∀ s, (∃ g ∈ done ++ [f], target arg grp g.name = some s) ↔
      (∃ g ∈ done, target arg grp g.name = some s) ∨ target arg grp f.name = some s := by
    intro n
    simp only [List.mem_append, List.mem_singleton]
    exact ⟨fun ⟨g, hg, e⟩ => hg.elim (fun hg => .inl ⟨g, hg, e⟩) (fun hg => .inr (hg ▸ e)),
      fun h => h.elim (fun ⟨g, hg, e⟩ => ⟨g, .inl hg, e⟩) (fun e => ⟨f, .inr rfl, e⟩)⟩
  have hs : (∀ s, s ∈ (addField arg grp a f).signals ↔
      s ∉ grp.sigs ∧ ∃ g ∈ done ++ [f], target arg grp g.name = some s) ∧ (addField arg grp a f).signals.Nodup := by
    unfold addField
    simp only [h1]
    split
    · rename_i ht
      refine ⟨fun s => ?_, h.nodup⟩
      rw [h.sigs s, hmem' s, ht]
      simp
    · rename_i x ht
      split
      · rename_i hx
        refine ⟨fun s => ?_, h.nodup⟩
        rw [h.sigs s, hmem' s, ht]
        refine ⟨fun ⟨p, q⟩ => ⟨p, .inl q⟩, fun ⟨p, q⟩ => ⟨p, q.elim id fun e => ?_⟩⟩
        cases e
        exact ((h.sigs x).mp hx).2
      · rename_i hx
        split
        · rename_i hg
          refine ⟨fun s => ?_, h.nodup⟩
          rw [h.sigs s, hmem' s, ht]
          refine ⟨fun ⟨p, q⟩ => ⟨p, .inl q⟩, fun ⟨p, q⟩ => ⟨p, q.elim id fun e => ?_⟩⟩
          cases e
          exact absurd hg p
        · rename_i hg
          refine ⟨fun s => ?_, ?_⟩
          · rw [hmem' s, ht]
            simp only [List.mem_append, List.mem_singleton, h.sigs s, Option.some.injEq]
            refine ⟨?_, ?_⟩
            · rintro (⟨p, q⟩ | rfl)
              · exact ⟨p, .inl q⟩
              · exact ⟨hg, .inr rfl⟩
            · rintro ⟨p, q | rfl⟩
              · exact .inl ⟨p, q⟩
              · exact .inr rfl
          · rw [List.nodup_append]
            refine ⟨h.nodup, by simp, ?_⟩
            intro y hy z hz e
            simp only [List.mem_singleton] at hz
            subst hz; subst e
            exact hx hy
  refine ⟨?_, ?_, hs.1, hs.2⟩
  · intro n hn
    rw [hal]
    by_cases e : n = f.name
    · subst e; exact h2
    · rw [get_append, h3 n e, ← get_append]
      rcases (hmem n).mp hn with hn | hn
      · exact h.known n hn
      · exact absurd hn.symm e
  · intro n
    rw [hal]
    by_cases e : n = f.name
    · subst e
      exact h4.imp id fun h => ⟨(hmem _).mpr (.inr rfl), h⟩
    · rw [h3 n e]
      exact (h.fresh n).imp id fun ⟨p, q⟩ => ⟨(hmem n).mpr (.inl p), q⟩

theorem loop_ok (arg : AliasArg) (grp : Group) (fields : List Field) :
    ∀ (done : List Field) (a : Acc), LoopOk arg grp done a →
      LoopOk arg grp (done ++ fields) (fields.foldl (addField arg grp) a) := by
  induction fields with
  | nil => intro done a h; simpa using h
  | cons f fs ih =>
    intro done a h
    have := ih (done ++ [f]) _ (addField_ok h f)
    simpa using this

theorem build_ok (fields : List Field) (grp : Group) (arg : AliasArg) :
    LoopOk arg grp fields (fields.foldl (addField arg grp) ⟨[], arg.start⟩) := by
  have h0 : LoopOk arg grp [] ⟨[], arg.start⟩ :=
    ⟨(by rintro n ⟨f, hf, _⟩; cases hf), fun n => .inl rfl, (by intro s; simp), List.nodup_nil⟩
  simpa using loop_ok arg grp fields [] _ h0

end Psygnal.DC
