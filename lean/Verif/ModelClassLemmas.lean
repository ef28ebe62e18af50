import Verif.ModelClass

/-! # Lemmas for `Verif/ModelClass.lean` -/
namespace Psygnal.MCls

/-- Every class was made from its declaration when the classes before it existed. -/
def Made (σ : List Cls) : Prop := ∀ c cl, σ[c]? = some cl → mkClass (σ.take c) cl.decl = .ok cl

theorem mk_decl {σ : List Cls} {d : Decl} {cl : Cls} (h : mkClass σ d = .ok cl) : cl.decl = d := by
  unfold mkClass at h
  repeat' split at h
  all_goals cases h
  all_goals rfl

theorem made_run : ∀ (ds : List Decl) {σ : List Cls}, Made σ → Made (run ds σ)
  | [], σ, h => h
  | d :: ds, σ, h => by
    unfold run
    split
    · rename_i cl hc
      refine made_run ds ?_
      intro c x hx
      rw [List.getElem?_append] at hx
      split at hx
      · rename_i hlt
        rw [List.take_append_of_le_length (by omega)]
        exact h c x hx
      · rename_i hge
        obtain ⟨n, hn⟩ : ∃ n, c - σ.length = n := ⟨_, rfl⟩
        rw [hn] at hx
        cases n with
        | succ n => simp at hx
        | zero =>
          simp at hx
          subst hx
          have : c = σ.length := by omega
          subst this
          rw [List.take_left' rfl, mk_decl hc]
          exact hc
    · exact made_run ds h

theorem made_nil : Made [] := fun c cl h => by simp at h

theorem lookup_flatMap {α : Type} (k : Nat) (f : α → List (Nat × Prp)) : ∀ l : List α,
    (l.flatMap f).lookup k = l.findSome? (fun b => (f b).lookup k)
  | [] => rfl
  | a :: l => by
    rw [List.flatMap_cons, List.lookup_append, List.findSome?_cons, lookup_flatMap k f l]
    cases (f a).lookup k <;> rfl

theorem take_get {σ : List Cls} {c b : Nat} (h : b < c) : (σ.take c)[b]? = σ[b]? := by
  rw [List.getElem?_take, if_pos h]

/-- What is known of a class. -/
structure Facts (σ : List Cls) (c : Nat) (cl : Cls) : Prop where
  early : ∀ b, b ∈ cl.decl.bases ∨ b ∈ cl.decl.mro → b < c
  evented : cl.evented = (cl.decl.root || cl.decl.bases.any (fun b => ((σ[b]?).map Cls.evented).getD false))
  plain : cl.evented = false → cl.setters = [] ∧ cl.signals = [] ∧ cl.deps = []
  off : cl.evented = true → cl.decl.conf.allow = false → cl.setters = [] ∧ ∀ b ∈ cl.decl.bases, allows σ b = false
  on : cl.evented = true → cl.decl.conf.allow = true → cl.setters = cl.decl.own ++ cl.decl.bases.flatMap (settersOf σ)
  signals : cl.evented = true → cl.signals = cl.decl.signals
  deps : cl.evented = true → cl.deps = cl.decl.dependents σ
  listed : cl.evented = true → ∀ p ∈ cl.decl.conf.depends, (cl.decl.fields.lookup p.1).isSome = true ∨ (cl.setters.lookup p.1).isSome = true
  reem : cl.evented = true → cl.decl.conf.reem.valid = true

theorem congr_any {l : List Nat} {f g : Nat → Bool} (h : ∀ b ∈ l, f b = g b) : l.any f = l.any g := by
  induction l with
  | nil => rfl
  | cons a l ih => simp [h a, ih fun b hb => h b (List.mem_cons_of_mem _ hb)]

theorem facts {σ : List Cls} (hm : Made σ) {c : Nat} {cl : Cls} (hc : σ[c]? = some cl) : Facts σ c cl := by
  have h := hm c cl hc
  have hlt : c < σ.length := by
    rcases Nat.lt_or_ge c σ.length with h | h
    · exact h
    · rw [List.getElem?_eq_none h] at hc; cases hc
  unfold mkClass at h
  split at h
  · cases h
  rename_i hb
  have hearly : ∀ b, b ∈ cl.decl.bases ∨ b ∈ cl.decl.mro → b < c := by
    intro b hbm
    rcases Nat.lt_or_ge b c with h1 | h1
    · exact h1
    · exfalso
      apply hb
      rw [List.any_eq_true]
      refine ⟨b, by simpa using hbm, ?_⟩
      rw [List.length_take]
      simp only [decide_eq_true_eq]
      omega
  have hset : ∀ b ∈ cl.decl.bases, settersOf (σ.take c) b = settersOf σ b := fun b hb => by
    unfold settersOf; rw [take_get (hearly b (.inl hb))]
  have hall : ∀ b ∈ cl.decl.bases, allows (σ.take c) b = allows σ b := fun b hb => by
    unfold allows; rw [take_get (hearly b (.inl hb))]
  have hev : cl.decl.evented (σ.take c) = (cl.decl.root || cl.decl.bases.any (fun b => ((σ[b]?).map Cls.evented).getD false)) := by
    unfold Decl.evented
    congr 1
    exact congr_any fun b hb => by rw [take_get (hearly b (.inl hb))]
  have hsetters : cl.decl.setters (σ.take c) = cl.decl.setters σ := by
    unfold Decl.setters
    congr 1
    congr 1
    have : ∀ l : List Nat, (∀ b ∈ l, b ∈ cl.decl.bases) → l.flatMap (settersOf (σ.take c)) = l.flatMap (settersOf σ) := by
      intro l
      induction l with
      | nil => intro _; rfl
      | cons a l ih =>
        intro hl
        rw [List.flatMap_cons, List.flatMap_cons, hset a (hl a List.mem_cons_self), ih fun b hb => hl b (List.mem_cons_of_mem _ hb)]
    exact this _ fun _ h => h
  have hdeps : cl.decl.dependents (σ.take c) = cl.decl.dependents σ := by
    unfold Decl.dependents; rw [hsetters]
  split at h
  · rename_i he
    rw [hev] at he
    split at h
    · cases h
    split at h
    · cases h
    split at h
    · cases h
    rename_i h1 h2 h3
    rw [hsetters] at h h3
    rw [hdeps] at h
    simp only [Except.ok.injEq] at h
    have he' : cl.evented = true := by rw [← h]
    have hs' : cl.setters = cl.decl.setters σ := by rw [← h]
    refine ⟨hearly, by rw [he', he], fun h0 => ?_, fun _ h0 => ?_, fun _ h0 => ?_, fun _ => by rw [← h], fun _ => by rw [← h], fun _ p hp => ?_, fun _ => ?_⟩
    · rw [he'] at h0; cases h0
    · refine ⟨by rw [hs']; simp [Decl.setters, h0], fun b hb => ?_⟩
      rw [← hall b hb]
      cases ha : allows (σ.take c) b with
      | false => rfl
      | true => exact absurd ⟨h0, List.any_eq_true.mpr ⟨b, hb, ha⟩⟩ h2
    · rw [hs']; simp [Decl.setters, h0]
    · rw [hs']
      have h4 : (cl.decl.conf.depends.all fun p => (cl.decl.fields.lookup p.1).isSome || ((cl.decl.setters σ).lookup p.1).isSome) = true := by
        cases hx : (cl.decl.conf.depends.all fun p => (cl.decl.fields.lookup p.1).isSome || ((cl.decl.setters σ).lookup p.1).isSome) with
        | true => rfl
        | false => exact absurd hx h3
      rw [List.all_eq_true] at h4
      exact Bool.or_eq_true_iff.mp (h4 p hp)
    · simpa using h1
  · rename_i he
    rw [hev] at he
    simp only [Except.ok.injEq] at h
    have he' : cl.evented = false := by rw [← h]
    refine ⟨hearly, by rw [he']; simpa using he, fun _ => by rw [← h]; exact ⟨rfl, rfl, rfl⟩, ?_, ?_, ?_, ?_, ?_, ?_⟩ <;>
      (intro h0; rw [he'] at h0; cases h0)

theorem allows_iff {σ : List Cls} {b : Nat} {cl : Cls} (h : σ[b]? = some cl) : allows σ b = (cl.evented && cl.decl.conf.allow) := by
  unfold allows; rw [h]; rfl

theorem setters_off {σ : List Cls} (hm : Made σ) {b : Nat} (h : allows σ b = false) : settersOf σ b = [] := by
  unfold settersOf
  cases hb : σ[b]? with
  | none => rfl
  | some cl =>
    have hf := facts hm hb
    rw [allows_iff hb] at h
    simp only [Option.map_some, Option.getD_some]
    cases he : cl.evented with
    | false => exact (hf.plain he).1
    | true =>
      rw [he] at h
      exact (hf.off he (by simpa using h)).1

/-- A class and the classes it is derived from. -/
inductive Anc (σ : List Cls) : Nat → Nat → Prop
  | refl (c : Nat) : Anc σ c c
  | step {c b a : Nat} {cl : Cls} : σ[c]? = some cl → b ∈ cl.decl.bases → Anc σ b a → Anc σ c a

theorem allows_up {σ : List Cls} (hm : Made σ) {c a : Nat} (h : Anc σ c a) : allows σ a = true → allows σ c = true := by
  induction h with
  | refl => exact id
  | @step c b a cl hc hb _ ih =>
    intro ha
    have hb' := ih ha
    have hf := facts hm hc
    rw [allows_iff hc]
    have he : cl.evented = true := by
      rw [hf.evented]
      simp only [Bool.or_eq_true]
      right
      rw [List.any_eq_true]
      refine ⟨_, hb, ?_⟩
      unfold allows at hb'
      revert hb'
      cases σ[b]? with
      | none => simp
      | some x => simp; intro h _; exact h
    rw [he]
    cases hal : cl.decl.conf.allow with
    | true => rfl
    | false =>
      have := (hf.off he hal).2 _ hb
      rw [hb'] at this; cases this

theorem own_lookup {d : Decl} (hn : (d.ns.map Prod.fst).Nodup) (k : Nat) : d.own.lookup k = (d.ns.lookup k).bind Attr.settable := by
  unfold Decl.own
  revert hn
  generalize d.ns = l
  induction l with
  | nil => intro _; rfl
  | cons p l ih =>
    obtain ⟨n, a⟩ := p
    intro hn
    simp only [List.map_cons, List.nodup_cons] at hn
    rw [List.lookup_cons]
    by_cases h : k = n
    · subst h
      simp only [BEq.rfl, Option.bind_some]
      rw [List.filterMap_cons]
      cases hs : a.settable with
      | some x => simp
      | none =>
        simp only [Option.map_none]
        rw [ih hn.2]
        have : l.lookup k = none := by
          rw [List.lookup_eq_none_iff]
          intro p hp
          simp only [bne_iff_ne, ne_eq]
          rintro rfl
          exact hn.1 (List.mem_map_of_mem hp)
        rw [this]; rfl
    · have h' : (k == n) = false := by simpa using h
      rw [h', List.filterMap_cons]
      cases hs : a.settable with
      | some x => simp only [Option.map_some]; rw [List.lookup_cons, h']; exact ih hn.2
      | none => exact ih hn.2

theorem lookup_isSome {α : Type} {k : Nat} : ∀ {l : List (Nat × α)}, (l.lookup k).isSome = true ↔ k ∈ l.map Prod.fst
  | [] => by simp
  | (n, a) :: l => by
    rw [List.lookup_cons]
    by_cases h : k = n
    · subst h; simp
    · have h' : (k == n) = false := by simpa using h
      rw [h', List.map_cons, List.mem_cons, lookup_isSome (l := l)]
      simp [h]

theorem setters_iff {σ : List Cls} (hm : Made σ) (k : Nat) : ∀ (n c : Nat), c < n → (((settersOf σ c).lookup k).isSome = true ↔
    ∃ a cl, Anc σ c a ∧ σ[a]? = some cl ∧ allows σ a = true ∧ k ∈ cl.decl.own.map Prod.fst)
  | 0, c, h => by omega
  | n + 1, c, hn => by
    cases hc : σ[c]? with
    | none =>
      constructor
      · intro h; simp [settersOf, hc] at h
      · rintro ⟨a, cl, h1, h2, h3, h4⟩
        cases h1 with
        | refl => rw [hc] at h2; cases h2
        | step h => rw [hc] at h; cases h
    | some cl =>
      have hf := facts hm hc
      cases hal : allows σ c with
      | false =>
        rw [setters_off hm hal]
        constructor
        · intro h; simp at h
        · rintro ⟨a, _, h1, _, h3, _⟩
          rw [allows_up hm h1 h3] at hal; cases hal
      | true =>
        have hal' := hal
        rw [allows_iff hc, Bool.and_eq_true] at hal'
        have hs : settersOf σ c = cl.decl.own ++ cl.decl.bases.flatMap (settersOf σ) := by
          unfold settersOf
          rw [hc]
          exact hf.on hal'.1 hal'.2
        rw [hs, List.lookup_append, lookup_flatMap]
        simp only [Option.isSome_or, Bool.or_eq_true, lookup_isSome]
        constructor
        · rintro (h | h)
          · exact ⟨c, cl, .refl c, hc, hal, h⟩
          · rw [List.findSome?_isSome_iff] at h
            obtain ⟨b, hb, h⟩ := h
            have := hf.early b (.inl hb)
            obtain ⟨a, cl', h1, h2, h3, h4⟩ := (setters_iff hm k n b (by omega)).mp h
            exact ⟨a, cl', .step hc hb h1, h2, h3, h4⟩
        · rintro ⟨a, cl', h1, h2, h3, h4⟩
          cases h1 with
          | refl => rw [hc] at h2; cases h2; exact .inl h4
          | step h5 hb h6 =>
            rw [hc] at h5; cases h5
            right
            rw [List.findSome?_isSome_iff]
            have := hf.early _ (.inl hb)
            exact ⟨_, hb, (setters_iff hm k n _ (by omega)).mpr ⟨a, cl', h6, h2, h3, h4⟩⟩

end Psygnal.MCls
