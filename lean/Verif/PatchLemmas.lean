import Verif.Patch

/-! # Lemmas for `Verif/Patch.lean` (C61) -/
namespace Psygnal.Pat

/-- Specification: the `__setattr__` from the body of a class that Python finds in a list of classes, without psygnal. -/
def St.first (s : St) (l : List Nat) : Fn :=
  (l.findSome? (fun d => ((s.classes[d]?).bind Cls.body).map (.custom d))).getD .object

/-- Specification: the value after an assignment, according to the bodies of the classes in the MRO. -/
def St.plain (s : St) (old v : Nat) : List Nat → Nat
  | [] => v
  | d :: l => match (s.classes[d]?).bind Cls.body with
    | none => s.plain old v l
    | some .super => s.plain old v l
    | some .direct => v
    | some .ignore => old

/-- Specification: the MRO of a class. -/
def St.bases (s : St) (t : Nat) : List Nat := match s.classes[t]? with
  | none => [t]
  | some c => t :: c.mro

theorem bases_line (s : St) (t : Nat) : s.bases t = s.line t := by
  unfold St.bases St.line
  cases s.classes[t]? <;> rfl

/-- Specification: has the class a descriptor called `n`, with this flag `patch_setattr`? -/
def St.hasDesc (s : St) (t n : Nat) (p : Bool) : Prop := ∃ d ∈ s.bases t, ∃ c, s.classes[d]? = some c ∧ (n, p) ∈ c.desc

/-- What holds of all classes. -/
structure Own (s : St) : Prop where
  up : ∀ (t : Nat) (c : Cls), s.classes[t]? = some c → ∀ d ∈ c.mro, d < t
  bare : ∀ (t : Nat) (c : Cls), s.classes[t]? = some c → c.own = none → c.body = none
  custom : ∀ (t : Nat) (c : Cls) (k : Nat) (b : Body), s.classes[t]? = some c → c.own = some (.custom k b) → k = t ∧ c.body = some b
  object : ∀ (t : Nat) (c : Cls), s.classes[t]? = some c → c.own ≠ some .object
  patched : ∀ (t : Nat) (c : Cls) (n : Nat) (f : Fn), s.classes[t]? = some c → c.own = some (.patched n f) →
    f = s.first (s.line t) ∧ s.hasDesc t n true

/-- Nothing but `own` differs. -/
structure Same (s s' : St) : Prop where
  len : s'.classes.length = s.classes.length
  cls : ∀ (t : Nat) (c : Cls), s.classes[t]? = some c → ∃ o : Option Fn, s'.classes[t]? = some { c with own := o }
  own : ∀ d : Nat, s'.own d = s.own d ∨ ∃ m f, s'.own d = some (.patched m f)
  objs : s'.objs = s.objs
  log : s'.log = s.log

theorem Same.refl (s : St) : Same s s := ⟨rfl, fun _ c h => ⟨c.own, h⟩, fun _ => .inl rfl, rfl, rfl⟩

theorem Same.none {s s' : St} (h : Same s s') {t : Nat} (hn : s.classes[t]? = none) : s'.classes[t]? = none := by
  rw [List.getElem?_eq_none_iff] at *
  rw [h.len]
  exact hn

theorem Same.line {s s' : St} (h : Same s s') (t : Nat) : s'.line t = s.line t := by
  unfold St.line
  cases hc : s.classes[t]? with
  | none => rw [h.none hc]
  | some c =>
    obtain ⟨o, ho⟩ := h.cls t c hc
    rw [ho]
    rfl

theorem Same.body {s s' : St} (h : Same s s') (d : Nat) : (s'.classes[d]?).bind Cls.body = (s.classes[d]?).bind Cls.body := by
  cases hc : s.classes[d]? with
  | none => rw [h.none hc]
  | some c =>
    obtain ⟨o, ho⟩ := h.cls d c hc
    rw [ho]
    rfl

theorem Same.first {s s' : St} (h : Same s s') (l : List Nat) : s'.first l = s.first l := by
  unfold St.first
  congr 2
  funext d
  rw [h.body d]

theorem Same.plain {s s' : St} (h : Same s s') (a v : Nat) : ∀ l : List Nat, s'.plain a v l = s.plain a v l
  | [] => rfl
  | d :: l => by
    unfold St.plain
    rw [h.body d, Same.plain h a v l]

theorem Same.hasDesc {s s' : St} (h : Same s s') {t n : Nat} {p : Bool} (hd : s.hasDesc t n p) : s'.hasDesc t n p := by
  obtain ⟨d, h1, c, h2, h3⟩ := hd
  obtain ⟨o, ho⟩ := h.cls d c h2
  exact ⟨d, by rw [bases_line, h.line, ← bases_line]; exact h1, _, ho, h3⟩

theorem Same.desc {s s' : St} (h : Same s s') (t n : Nat) : s'.desc t n = s.desc t n := by
  unfold St.desc
  rw [h.line]
  congr 1
  funext d
  cases hc : s.classes[d]? with
  | none => rw [h.none hc]
  | some c =>
    obtain ⟨o, ho⟩ := h.cls d c hc
    rw [ho]
    rfl

theorem Same.trans {a b c : St} (h1 : Same a b) (h2 : Same b c) : Same a c := by
  refine ⟨h2.len.trans h1.len, ?_, ?_, h2.objs.trans h1.objs, h2.log.trans h1.log⟩
  · intro t x hx
    obtain ⟨o, ho⟩ := h1.cls t x hx
    obtain ⟨o', ho'⟩ := h2.cls t _ ho
    exact ⟨o', ho'⟩
  · intro d
    rcases h2.own d with h | h
    · rw [h]; exact h1.own d
    · exact .inr h

theorem Same.value {s s' : St} (h : Same s s') (o f : Nat) : s'.value o f = s.value o f := by unfold St.value; rw [h.objs]

/-- What `owner.__setattr__` is, if it is not patched. -/
theorem lookup_first {s : St} (h : Own s) {l : List Nat} (hl : ∀ d ∈ l, d < s.classes.length)
    (hp : ((l.findSome? s.own).getD .object).isPatched = false) : (l.findSome? s.own).getD .object = s.first l := by
  induction l with
  | nil => rfl
  | cons d l ih =>
    have hd := hl d (by simp)
    have hc : s.classes[d]? = some s.classes[d] := List.getElem?_eq_getElem hd
    unfold St.first
    rw [List.findSome?_cons, List.findSome?_cons]
    rw [List.findSome?_cons] at hp
    have ho : s.own d = s.classes[d].own := by unfold St.own; rw [hc]; rfl
    cases hown : s.classes[d].own with
    | none =>
      rw [ho, hown] at hp ⊢
      rw [hc, Option.bind_some, h.bare d _ hc hown]
      exact ih (fun x hx => hl x (by simp [hx])) hp
    | some fn =>
      rw [ho, hown] at hp ⊢
      cases fn with
      | object => exact absurd hown (h.object d _ hc)
      | patched n f => cases hp
      | custom k b =>
        obtain ⟨h1, h2⟩ := h.custom d _ k b hc hown
        rw [hc, Option.bind_some, h2, h1]
        rfl

theorem line_lt {s : St} (h : Own s) {t : Nat} (ht : t < s.classes.length) : ∀ d ∈ s.line t, d < s.classes.length := by
  intro d hd
  unfold St.line at hd
  rw [List.getElem?_eq_getElem ht, Option.map_some, Option.getD_some] at hd
  rcases List.mem_cons.mp hd with rfl | hd
  · exact ht
  · exact Nat.lt_trans (h.up t _ (List.getElem?_eq_getElem ht) d hd) ht

theorem patch_same (s : St) (t n : Nat) : Same s (patch s t n) := by
  unfold patch
  split
  · exact Same.refl s
  · refine ⟨by simp, ?_, ?_, rfl, rfl⟩
    · intro k c hc
      simp only [List.getElem?_modify, hc]
      by_cases hk : t = k
      · exact ⟨some (.patched n (s.lookup t)), by simp [hk]⟩
      · exact ⟨c.own, by simp [hk]⟩
    · intro d
      unfold St.own
      simp only [List.getElem?_modify]
      by_cases hk : t = d
      · cases hc : s.classes[d]? with
        | none => left; simp
        | some c => exact .inr ⟨n, s.lookup t, by simp [hk]⟩
      · left; simp [hk]

theorem patch_own {s : St} (h : Own s) {t n : Nat} (ht : t < s.classes.length) (hd : s.hasDesc t n true) : Own (patch s t n) := by
  have hs := patch_same s t n
  have key : ∀ (k : Nat) (c : Cls), (patch s t n).classes[k]? = some c → ∃ c', s.classes[k]? = some c' ∧ c.mro = c'.mro ∧ c.body = c'.body ∧
      (c.own = c'.own ∨ k = t ∧ c.own = some (.patched n (s.first (s.line t)))) := by
    intro k c hc
    cases hk : s.classes[k]? with
    | none => rw [hs.none hk] at hc; cases hc
    | some c' =>
      obtain ⟨o, ho⟩ := hs.cls k c' hk
      rw [ho] at hc
      cases hc
      refine ⟨c', rfl, rfl, rfl, ?_⟩
      unfold patch at ho
      split at ho
      · rw [hk] at ho
        left
        have := Option.some.inj ho
        rw [this]
      · rename_i hp
        simp only [List.getElem?_modify, hk] at ho
        by_cases hkt : t = k
        · right
          refine ⟨hkt.symm, ?_⟩
          simp only [hkt, if_true] at ho
          have := Option.some.inj ho
          have h2 := congrArg Cls.own this
          simp only at h2
          rw [← h2]
          unfold St.lookup at hp ⊢
          have := lookup_first h (line_lt h ht) (by simpa using hp)
          rw [← hkt, this]
        · left
          simp only [hkt, if_false] at ho
          have := Option.some.inj ho
          exact (congrArg Cls.own this).symm
  refine ⟨?_, ?_, ?_, ?_, ?_⟩
  · intro k c hc d hdm
    obtain ⟨c', h1, h2, _⟩ := key k c hc
    rw [h2] at hdm
    exact h.up k c' h1 d hdm
  · intro k c hc ho
    obtain ⟨c', h1, _, h3, h4 | ⟨_, h4⟩⟩ := key k c hc
    · rw [h3]; exact h.bare k c' h1 (h4 ▸ ho)
    · rw [h4] at ho; cases ho
  · intro k c j b hc ho
    obtain ⟨c', h1, _, h3, h4 | ⟨_, h4⟩⟩ := key k c hc
    · rw [h3]; exact h.custom k c' j b h1 (h4 ▸ ho)
    · rw [h4] at ho; cases ho
  · intro k c hc ho
    obtain ⟨c', h1, _, h3, h4 | ⟨_, h4⟩⟩ := key k c hc
    · exact h.object k c' h1 (h4 ▸ ho)
    · rw [h4] at ho; cases ho
  · intro k c m f hc ho
    rw [hs.line, hs.first]
    obtain ⟨c', h1, _, h3, h4 | ⟨h5, h4⟩⟩ := key k c hc
    · obtain ⟨h6, h7⟩ := h.patched k c' m f h1 (h4 ▸ ho)
      exact ⟨h6, hs.hasDesc h7⟩
    · rw [h4] at ho
      cases ho
      rw [h5]
      exact ⟨rfl, hs.hasDesc hd⟩

theorem desc_hasDesc {s : St} {t n k : Nat} {p : Bool} (h : s.desc t n = some (k, p)) : s.hasDesc t n p := by
  unfold St.desc at h
  obtain ⟨d, h1, h2⟩ := List.exists_of_findSome?_eq_some h
  cases hc : s.classes[d]? with
  | none => rw [hc] at h2; cases h2
  | some c =>
    rw [hc, Option.bind_some] at h2
    cases hl : c.desc.lookup n with
    | none => rw [hl] at h2; cases h2
    | some q =>
      have hq : q = p := by rw [hl] at h2; exact congrArg Prod.snd (Option.some.inj h2)
      subst hq
      refine ⟨d, by rw [bases_line]; exact h1, c, hc, ?_⟩
      have : ∀ l : List (Nat × Bool), l.lookup n = some q → (n, q) ∈ l := by
        intro l
        induction l with
        | nil => intro h; cases h
        | cons x l ih =>
          intro h
          rw [List.lookup_cons] at h
          split at h
          · rename_i hx
            cases h
            have hx : n = x.1 := by simpa using hx
            rw [hx]
            exact List.mem_cons_self
          · exact List.mem_cons_of_mem _ (ih h)
      exact this _ hl

theorem made_same (s : St) (m : List (Nat × Nat × Nat)) : Same s { s with made := m } := ⟨rfl, fun _ c h => ⟨c.own, h⟩, fun _ => .inl rfl, rfl, rfl⟩

theorem made_own {s : St} (h : Own s) (m : List (Nat × Nat × Nat)) : Own { s with made := m } :=
  ⟨h.up, h.bare, h.custom, h.object, fun t c n f h1 h2 => h.patched t c n f h1 h2⟩

theorem access_same (s : St) (t n : Nat) : Same s (access s t n) := by
  unfold access
  split
  · exact Same.refl s
  · split
    · exact Same.refl s
    · simp only
      split
      · exact (made_same s _).trans (patch_same _ t n)
      · exact made_same s _

theorem access_own {s : St} (h : Own s) {t : Nat} (ht : t < s.classes.length) (n : Nat) : Own (access s t n) := by
  unfold access
  split
  · exact h
  · rename_i hd
    split
    · exact h
    · simp only
      split
      · rename_i hp
        exact patch_own (made_own h _) ht (by
          have := desc_hasDesc hd
          obtain ⟨d, h1, c, h2, h3⟩ := this
          exact ⟨d, h1, c, h2, by rw [← hp]; exact h3⟩)
      · exact made_own h _

theorem Same.patched {s s' : St} (h : Same s s') {t : Nat} (hp : (s.lookup t).isPatched = true) : (s'.lookup t).isPatched = true := by
  unfold St.lookup at *
  rw [h.line]
  generalize s.line t = l at *
  induction l with
  | nil => cases hp
  | cons d l ih =>
    rw [List.findSome?_cons] at *
    rcases h.own d with h1 | ⟨m, f, h1⟩
    · rw [h1]
      cases hd : s.own d with
      | none => rw [hd] at hp; exact ih hp
      | some fn => rw [hd] at hp; exact hp
    · rw [h1]; rfl

theorem access_patched {s : St} {t n k : Nat} (ht : t < s.classes.length) (hd : s.desc t n = some (k, true)) (hm : (k, n, t) ∉ s.made) :
    ((access s t n).lookup t).isPatched = true := by
  unfold access
  rw [hd]
  simp only [hm, if_false, if_true]
  unfold patch
  split
  · assumption
  · unfold St.lookup St.line St.own
    rw [List.findSome?_cons]
    simp [ht, Fn.isPatched]

/-- What holds after every program whose descriptors are all called `n` and patch. -/
structure Good (n : Nat) (s : St) : Prop where
  own : Own s
  uni : ∀ c ∈ s.classes, ∀ p ∈ c.desc, p = (n, true)
  objs : ∀ x ∈ s.objs, x.cls < s.classes.length
  heard : ∀ x ∈ s.objs, ∀ p ∈ x.heard, p.1 = n ∧ (s.lookup x.cls).isPatched = true
  made : ∀ p ∈ s.made, (s.lookup p.2.2).isPatched = true

theorem Good.name {n : Nat} {s : St} (h : Good n s) {t m : Nat} {p : Bool} (hd : s.hasDesc t m p) : m = n := by
  obtain ⟨d, _, c, h2, h3⟩ := hd
  have := h.uni c (List.mem_of_getElem? h2) _ h3
  exact congrArg Prod.fst this

theorem desc_flag {n : Nat} {s : St} (h : Good n s) {t m k : Nat} {p : Bool} (hd : s.desc t m = some (k, p)) : p = true := by
  unfold St.desc at hd
  obtain ⟨d, _, h2⟩ := List.exists_of_findSome?_eq_some hd
  cases hc : s.classes[d]? with
  | none => rw [hc] at h2; cases h2
  | some c =>
    rw [hc, Option.bind_some] at h2
    cases hl : c.desc.lookup m with
    | none => rw [hl] at h2; cases h2
    | some q =>
      rw [hl] at h2
      cases h2
      have : ∀ l : List (Nat × Bool), l.lookup m = some p → (m, p) ∈ l := by
        intro l
        induction l with
        | nil => intro h; cases h
        | cons x l ih =>
          intro h
          rw [List.lookup_cons] at h
          split at h
          · rename_i hx
            cases h
            have hx : m = x.1 := by simpa using hx
            rw [hx]
            exact List.mem_cons_self
          · exact List.mem_cons_of_mem _ (ih h)
      exact congrArg Prod.snd (h.uni c (List.mem_of_getElem? hc) _ (this _ hl))

theorem good_same {n : Nat} {s s' : St} (h : Good n s) (hs : Same s s') (ho : Own s') (hm : ∀ p ∈ s'.made, (s'.lookup p.2.2).isPatched = true) :
    Good n s' := by
  refine ⟨ho, ?_, ?_, ?_, hm⟩
  · intro c hc p hp
    obtain ⟨t, ht, rfl⟩ := List.mem_iff_getElem.mp hc
    have hlt : t < s.classes.length := by rw [← hs.len]; exact ht
    obtain ⟨o, h1⟩ := hs.cls t _ (List.getElem?_eq_getElem hlt)
    rw [List.getElem?_eq_getElem ht] at h1
    have := Option.some.inj h1
    rw [this] at hp
    exact h.uni _ (List.getElem_mem hlt) p hp
  · intro x hx
    rw [hs.objs] at hx
    rw [hs.len]
    exact h.objs x hx
  · intro x hx p hp
    rw [hs.objs] at hx
    obtain ⟨h1, h2⟩ := h.heard x hx p hp
    exact ⟨h1, hs.patched h2⟩

theorem access_good {n : Nat} {s : St} (h : Good n s) {t : Nat} (ht : t < s.classes.length) (m : Nat) : Good n (access s t m) := by
  refine good_same h (access_same s t m) (access_own h.own ht m) ?_
  intro p hp
  by_cases hold : p ∈ s.made
  · exact (access_same s t m).patched (h.made p hold)
  · cases hd : s.desc t m with
    | none =>
      unfold access at hp
      rw [hd] at hp
      exact absurd hp hold
    | some kp =>
      obtain ⟨k, q⟩ := kp
      have hq := desc_flag h hd
      subst hq
      by_cases hm : (k, m, t) ∈ s.made
      · unfold access at hp
        rw [hd] at hp
        simp only [hm, if_true] at hp
        exact absurd hp hold
      · have hpt : p.2.2 = t := by
          have hmade : (access s t m).made = (k, m, t) :: s.made := by
            unfold access
            rw [hd]
            simp only [hm, if_false, if_true]
            unfold patch
            split <;> rfl
          rw [hmade] at hp
          rcases List.mem_cons.mp hp with rfl | hp
          · rfl
          · exact absurd hp hold
        rw [hpt]
        exact access_patched ht hd hm

/-! ### Assignments -/

/-- The classes after `c` in the list. -/
def after (c : Nat) : List Nat → List Nat
  | [] => []
  | d :: l => if c = d then l else after c l

theorem after_len (c : Nat) : ∀ l : List Nat, (after c l).length ≤ l.length - 1
  | [] => Nat.le_refl _
  | d :: l => by
    unfold after
    split
    · simp
    · have := after_len c l
      simp only [List.length_cons]
      omega

theorem after_split (c : Nat) : ∀ l : List Nat, c ∈ l → ∃ m, l = m ++ c :: after c l
  | [], h => by cases h
  | d :: l, h => by
    unfold after
    split
    · rename_i hc; subst hc; exact ⟨[], rfl⟩
    · rename_i hc
      rcases List.mem_cons.mp h with rfl | h
      · exact absurd rfl hc
      · obtain ⟨m, hm⟩ := after_split c l h
        exact ⟨d :: m, by rw [List.cons_append, ← hm]⟩

theorem after_not (c : Nat) : ∀ l : List Nat, c ∉ l → after c l = []
  | [], _ => rfl
  | d :: l, h => by
    unfold after
    simp only [List.mem_cons, not_or] at h
    rw [if_neg h.1]
    exact after_not c l h.2

theorem callAfter_eq (o f v c : Nat) : ∀ (l : List Nat) (s : St), callAfter o f v l c s = callFrom o f v (after c l) s
  | [], _ => by simp [callAfter, after, callFrom]
  | d :: l, s => by
    rw [callAfter, after]
    split
    · rfl
    · exact callAfter_eq o f v c l s

theorem callFrom_cons (o f v d : Nat) (l : List Nat) (s : St) :
    callFrom o f v (d :: l) s = match s.own d with
      | none => callFrom o f v l s
      | some fn => callFn o f v (fun c r => callFrom o f v (after c (d :: l)) r) fn s := by
  rw [callFrom]
  cases s.own d with
  | none => rfl
  | some fn =>
    simp only
    congr 1
    funext c r
    rw [after]
    split
    · rfl
    · exact callAfter_eq o f v c l r

theorem own_of {s s' : St} (h : Own s) (hc : s'.classes = s.classes) : Own s' := by
  cases s; cases s'
  simp only at hc
  subst hc
  exact ⟨h.up, h.bare, h.custom, h.object, h.patched⟩

theorem callFn_ind {o f v : Nat} {sup : Nat → St → St} (P : St → Prop) (hset : ∀ s, P s → P (setObj o f v s))
    (hacc : ∀ s m, P s → P (access s (((s.objs[o]?).map Obj.cls).getD 0) m)) (hlog : ∀ s e, P s → P { s with log := s.log ++ [e] })
    (hsup : ∀ c s, P s → P (sup c s)) : ∀ (fn : Fn) (s : St), P s → P (callFn o f v sup fn s)
  | .object, s, h => hset s h
  | .custom c .super, s, h => hsup c s h
  | .custom _ .direct, s, h => hset s h
  | .custom _ .ignore, _, h => h
  | .patched n inner, s, h => by
    rw [callFn]
    have ih := callFn_ind P hset hacc hlog hsup inner
    split
    · exact ih s h
    · simp only
      split
      · split
        · exact ih _ (hacc s n h)
        · exact hlog _ _ (ih _ (hacc s n h))
      · exact ih _ (hacc s n h)

theorem callFrom_ind {o f v : Nat} (P : St → Prop) (hset : ∀ s, P s → P (setObj o f v s))
    (hacc : ∀ s m, P s → P (access s (((s.objs[o]?).map Obj.cls).getD 0) m)) (hlog : ∀ s e, P s → P { s with log := s.log ++ [e] }) :
    ∀ (N : Nat) (l : List Nat), l.length ≤ N → ∀ s : St, P s → P (callFrom o f v l s) := by
  intro N
  induction N with
  | zero =>
    intro l hl s h
    have : l = [] := List.eq_nil_of_length_eq_zero (by omega)
    subst this
    rw [callFrom]
    exact hset s h
  | succ N ih =>
    intro l hl s h
    cases l with
    | nil => rw [callFrom]; exact hset s h
    | cons d l =>
      simp only [List.length_cons] at hl
      rw [callFrom_cons]
      cases s.own d with
      | none => exact ih l (by omega) s h
      | some fn =>
        refine callFn_ind P hset hacc hlog ?_ fn s h
        intro c r hr
        refine ih _ ?_ r hr
        have := after_len c (d :: l)
        simp only [List.length_cons] at this
        omega

/-- What holds after every program. -/
structure Fine (s : St) : Prop where
  own : Own s
  objs : ∀ x ∈ s.objs, x.cls < s.classes.length

theorem Good.fine {n : Nat} {s : St} (h : Good n s) : Fine s := ⟨h.own, h.objs⟩

theorem setObj_mem {s : St} {o f w : Nat} {x : Obj} (hx : x ∈ (setObj o f w s).objs) : ∃ y ∈ s.objs, x.cls = y.cls ∧ x.heard = y.heard := by
  simp only [setObj] at hx
  rw [List.mem_iff_getElem?] at hx
  obtain ⟨i, hi⟩ := hx
  rw [List.getElem?_modify] at hi
  cases hy : s.objs[i]? with
  | none => rw [hy] at hi; cases hi
  | some y =>
    rw [hy] at hi
    refine ⟨y, List.mem_of_getElem? hy, ?_⟩
    by_cases hoi : o = i
    · simp only [hoi, if_true] at hi; cases hi; exact ⟨rfl, rfl⟩
    · simp only [hoi, if_false] at hi; cases hi; exact ⟨rfl, rfl⟩

theorem fine_objs {s : St} (h : Fine s) (o f w : Nat) : Fine (setObj o f w s) := by
  refine ⟨own_of h.own rfl, ?_⟩
  intro x hx
  obtain ⟨y, hy, h1, _⟩ := setObj_mem hx
  rw [h1]
  exact h.objs y hy

theorem good_objs {n : Nat} {s : St} (h : Good n s) (o f w : Nat) : Good n (setObj o f w s) := by
  refine ⟨own_of h.own rfl, h.uni, (fine_objs h.fine o f w).objs, ?_, h.made⟩
  intro x hx
  obtain ⟨y, hy, h1, h2⟩ := setObj_mem hx
  rw [h1, h2]
  exact h.heard y hy

theorem access_fine {s : St} (h : Fine s) {t : Nat} (ht : t < s.classes.length) (m : Nat) : Fine (access s t m) := by
  refine ⟨access_own h.own ht m, ?_⟩
  have hs := access_same s t m
  intro x hx
  rw [hs.objs] at hx
  rw [hs.len]
  exact h.objs x hx

/-- What an assignment does: the attribute becomes `w`, and one event is logged for every group of `gs`. -/
structure Eff (o f v : Nat) (s s' : St) (w : Nat) (gs : List Nat) : Prop where
  same : Same s { s' with objs := s.objs, log := s.log }
  fine : Fine s'
  objs : s'.objs = (setObj o f w s).objs
  log : s'.log = s.log ++ gs.map (fun g => ⟨o, g, f, w, s.value o f⟩)
  zero : w = s.value o f → gs = []
  val : w = v ∨ w = s.value o f
  heard : ∀ g ∈ gs, ∃ x, s.objs[o]? = some x ∧ (g, f) ∈ x.heard

theorem same_refl (s : St) : Same s { s with objs := s.objs, log := s.log } := Same.refl s

theorem eff_set {s : St} (h : Fine s) (o f v : Nat) : Eff o f v s (setObj o f v s) v [] :=
  ⟨same_refl s, fine_objs h o f v, rfl, by simp [setObj], fun _ => rfl, .inl rfl, fun _ h => (by cases h)⟩

theorem setObj_same (s : St) (o f : Nat) : (setObj o f (s.value o f) s).objs = s.objs := by
  simp only [setObj]
  apply List.ext_getElem?
  intro i
  rw [List.getElem?_modify]
  cases hy : s.objs[i]? with
  | none => rfl
  | some y =>
    by_cases hoi : o = i
    · subst hoi
      simp only [Option.map_eq_map, Option.map_some, if_true, St.value, hy, Option.getD_some]
      congr
      funext g
      split
      · rename_i hg; rw [hg]
      · rfl
    · simp [hoi]

theorem eff_id {s : St} (h : Fine s) (o f v : Nat) : Eff o f v s s (s.value o f) [] :=
  ⟨same_refl s, h, (setObj_same s o f).symm, by simp, fun _ => rfl, .inr rfl, fun _ h => (by cases h)⟩

theorem eff_same {o f v w : Nat} {gs : List Nat} {s s1 s' : St} (h1 : Same s s1) (h : Eff o f v s1 s' w gs) : Eff o f v s s' w gs := by
  refine ⟨?_, h.fine, ?_, ?_, ?_, ?_, ?_⟩
  · have h2 := h.same
    rw [h1.objs, h1.log] at h2
    exact h1.trans h2
  · rw [h.objs]; simp only [setObj, h1.objs]
  · rw [h.log, h1.log, h1.value]
  · rw [← h1.value]; exact h.zero
  · rw [← h1.value]; exact h.val
  · rw [← h1.objs]; exact h.heard

theorem eff_value {o f v w : Nat} {gs : List Nat} {s s' : St} (h : Eff o f v s s' w gs) {x : Obj} (hx : s.objs[o]? = some x) : s'.value o f = w := by
  unfold St.value
  rw [h.objs]
  simp only [setObj]
  rw [List.getElem?_modify, hx]
  simp

theorem eff_log {o f v w n : Nat} {gs : List Nat} {s s' : St} (h : Eff o f v s s' w gs) (hne : s.value o f ≠ w)
    (hh : ∃ x, s.objs[o]? = some x ∧ (n, f) ∈ x.heard) :
    Eff o f v s { s' with log := s'.log ++ [⟨o, n, f, w, s.value o f⟩] } w (gs ++ [n]) := by
  refine ⟨h.same, ⟨own_of h.fine.own rfl, h.fine.objs⟩, h.objs, ?_, fun hw => absurd hw.symm hne, h.val, ?_⟩
  rotate_left
  · intro g hg
    rcases List.mem_append.mp hg with hg | hg
    · exact h.heard g hg
    · rw [List.mem_singleton.mp hg]; exact hh
  simp only
  rw [List.map_append, ← List.append_assoc, ← h.log]
  rfl

/-- The state in which the wrapped `__setattr__` runs. -/
theorem patched_eff {o f v n w : Nat} {gs : List Nat} {sup : Nat → St → St} {inner : Fn} {s : St} {x : Obj} (hx : s.objs[o]? = some x) (hf : f ≠ n)
    (h : Eff o f v (access s x.cls n) (callFn o f v sup inner (access s x.cls n)) w gs) :
    Eff o f v s (callFn o f v sup (.patched n inner) s) w (if (n, f) ∈ x.heard ∧ w ≠ s.value o f then gs ++ [n] else gs) := by
  have hs := access_same s x.cls n
  rw [callFn, if_neg hf, hx]
  simp only [Option.map_some, Option.getD_some]
  have hl : (access s x.cls n).listened o n f = decide ((n, f) ∈ x.heard) := by
    unfold St.listened
    rw [hs.objs, hx]
    rfl
  have hv := eff_value h (by rw [hs.objs]; exact hx)
  rw [hl, hv, hs.value]
  by_cases hh : (n, f) ∈ x.heard
  · simp only [hh, decide_true, if_true, true_and]
    by_cases hw : s.value o f = w
    · rw [if_pos hw, if_neg (fun hne => hne hw.symm)]
      exact eff_same hs h
    · rw [if_neg hw, if_pos (fun he => hw he.symm)]
      have := eff_log (n := n) h (by rw [hs.value]; exact hw) ⟨x, by rw [hs.objs]; exact hx, hh⟩
      rw [hs.value] at this
      exact eff_same hs this
  · simp only [hh, decide_false, false_and, if_false]
    exact eff_same hs h

theorem callFn_eff {o f v : Nat} {sup : Nat → St → St}
    (hsup : ∀ c s, Fine s → (∃ x, s.objs[o]? = some x) → ∃ w gs, Eff o f v s (sup c s) w gs) :
    ∀ (fn : Fn) (s : St), Fine s → (∃ x, s.objs[o]? = some x) → ∃ w gs, Eff o f v s (callFn o f v sup fn s) w gs
  | .object, s, h, _ => ⟨v, [], eff_set h o f v⟩
  | .custom c .super, s, h, hx => hsup c s h hx
  | .custom _ .direct, s, h, _ => ⟨v, [], eff_set h o f v⟩
  | .custom _ .ignore, _, h, _ => ⟨_, [], eff_id h o f v⟩
  | .patched n inner, s, h, ⟨x, hx⟩ => by
    have ih := callFn_eff (v := v) hsup inner
    by_cases hf : f = n
    · rw [callFn, if_pos hf]
      exact ih s h ⟨x, hx⟩
    · obtain ⟨w, gs, he⟩ := ih (access s x.cls n) (access_fine h (h.objs x (List.mem_of_getElem? hx)) n)
        ⟨x, by rw [(access_same s x.cls n).objs]; exact hx⟩
      exact ⟨w, _, patched_eff hx hf he⟩

theorem callFrom_eff {o f v : Nat} : ∀ (N : Nat) (l : List Nat), l.length ≤ N → ∀ s : St, Fine s → (∃ x, s.objs[o]? = some x) →
    ∃ w gs, Eff o f v s (callFrom o f v l s) w gs := by
  intro N
  induction N with
  | zero =>
    intro l hl s h hx
    have : l = [] := List.eq_nil_of_length_eq_zero (by omega)
    subst this
    rw [callFrom]
    exact ⟨v, [], eff_set h o f v⟩
  | succ N ih =>
    intro l hl s h hx
    cases l with
    | nil => rw [callFrom]; exact ⟨v, [], eff_set h o f v⟩
    | cons d l =>
      simp only [List.length_cons] at hl
      rw [callFrom_cons]
      cases s.own d with
      | none => exact ih l (by omega) s h hx
      | some fn =>
        refine callFn_eff ?_ fn s h hx
        intro c r hr hx
        refine ih _ ?_ r hr hx
        have := after_len c (d :: l)
        simp only [List.length_cons] at this
        omega

/-! ### Values -/

theorem setObj_value {s : St} {o : Nat} {x : Obj} (hx : s.objs[o]? = some x) (f v : Nat) : (setObj o f v s).value o f = v := by
  unfold St.value setObj
  simp only
  rw [List.getElem?_modify, hx]
  simp

theorem first_spec (s : St) (old v : Nat) : ∀ l : List Nat, (s.first l = .object ∧ s.plain old v l = v) ∨
    ∃ c b, s.first l = .custom c b ∧ c ∈ l ∧ (s.classes[c]?).bind Cls.body = some b ∧ (b = .super → s.plain old v l = s.plain old v (after c l)) ∧
      (b = .direct → s.plain old v l = v) ∧ (b = .ignore → s.plain old v l = old)
  | [] => .inl ⟨rfl, rfl⟩
  | d :: l => by
    unfold St.first
    rw [St.plain]
    rw [List.findSome?_cons]
    cases hb : (s.classes[d]?).bind Cls.body with
    | some b =>
      right
      refine ⟨d, b, rfl, List.mem_cons_self, hb, ?_, ?_, ?_⟩
      · rintro rfl; simp [after]
      · rintro rfl; rfl
      · rintro rfl; rfl
    | none =>
      rcases first_spec s old v l with ⟨h1, h2⟩ | ⟨c, b, h1, h2, h3, h4, h5, h6⟩
      · exact .inl ⟨h1, h2⟩
      · right
        refine ⟨c, b, h1, List.mem_cons_of_mem _ h2, h3, ?_, h5, h6⟩
        have hcd : c ≠ d := by rintro rfl; rw [hb] at h3; cases h3
        rw [after, if_neg hcd]
        exact h4

/-- Every class in the list is followed by its own bases. -/
def Chain (s : St) (l : List Nat) : Prop := ∀ (l1 : List Nat) (d : Nat) (l2 : List Nat), l = l1 ++ d :: l2 → s.line d = d :: l2

theorem Chain.tail {s : St} {d : Nat} {l : List Nat} (h : Chain s (d :: l)) : Chain s l := by
  intro l1 e l2 he
  exact h (d :: l1) e l2 (by rw [he]; rfl)

theorem Chain.after {s : St} (c : Nat) : ∀ {l : List Nat}, Chain s l → Chain s (after c l)
  | [], h => h
  | d :: l, h => by
    unfold Pat.after
    split
    · exact h.tail
    · exact Chain.after c h.tail

theorem Chain.same {s s' : St} {l : List Nat} (h : Chain s l) (hs : Same s s') : Chain s' l := by
  intro l1 d l2 he
  rw [hs.line]
  exact h l1 d l2 he

theorem own_cases {s : St} (h : Own s) (d : Nat) :
    (s.own d = none ∧ (s.classes[d]?).bind Cls.body = none) ∨ (∃ b, s.own d = some (.custom d b) ∧ (s.classes[d]?).bind Cls.body = some b) ∨
    ∃ n, s.own d = some (.patched n (s.first (s.line d))) ∧ s.hasDesc d n true := by
  unfold St.own
  cases hc : s.classes[d]? with
  | none => exact .inl ⟨rfl, rfl⟩
  | some c =>
    simp only [Option.bind_some]
    cases ho : c.own with
    | none => exact .inl ⟨rfl, h.bare d c hc ho⟩
    | some fn =>
      cases fn with
      | object => exact absurd ho (h.object d c hc)
      | custom k b =>
        obtain ⟨rfl, h2⟩ := h.custom d c k b hc ho
        exact .inr (.inl ⟨b, rfl, h2⟩)
      | patched n i =>
        obtain ⟨rfl, h2⟩ := h.patched d c n i hc ho
        exact .inr (.inr ⟨n, rfl, h2⟩)

theorem callFrom_value {o f v : Nat} : ∀ (N : Nat) (l : List Nat), l.length ≤ N → ∀ s : St, Fine s → (∃ x, s.objs[o]? = some x) → Chain s l →
    (callFrom o f v l s).value o f = s.plain (s.value o f) v l := by
  intro N
  induction N with
  | zero =>
    intro l hl s h ⟨x, hx⟩ _
    have : l = [] := List.eq_nil_of_length_eq_zero (by omega)
    subst this
    rw [callFrom]
    exact setObj_value hx f v
  | succ N ih =>
    intro l hl s h ⟨x, hx⟩ hc
    cases l with
    | nil => rw [callFrom]; exact setObj_value hx f v
    | cons d l =>
      simp only [List.length_cons] at hl
      have hafter : ∀ (c : Nat), (after c (d :: l)).length ≤ N := by
        intro c
        have := after_len c (d :: l)
        simp only [List.length_cons] at this
        omega
      rw [callFrom_cons]
      rcases own_cases h.own d with ⟨h1, h2⟩ | ⟨b, h1, h2⟩ | ⟨n, h1, _⟩
      · rw [h1, St.plain, h2]
        exact ih l (by omega) s h ⟨x, hx⟩ hc.tail
      · rw [h1, St.plain, h2]
        cases b with
        | super =>
          simp only [callFn, after, if_true]
          exact ih l (by omega) s h ⟨x, hx⟩ hc.tail
        | direct => exact setObj_value hx f v
        | ignore => rfl
      · rw [h1, hc [] d l rfl]
        simp only
        have inner : ∀ s1 : St, Same s s1 → Fine s1 →
            (callFn o f v (fun c r => callFrom o f v (after c (d :: l)) r) (s.first (d :: l)) s1).value o f = s.plain (s.value o f) v (d :: l) := by
          intro s1 hs1 hf1
          have hx1 : s1.objs[o]? = some x := by rw [hs1.objs]; exact hx
          rcases first_spec s (s.value o f) v (d :: l) with ⟨e1, e2⟩ | ⟨c, b, e1, _, _, e4, e5, e6⟩
          · rw [e1, e2]; exact setObj_value hx1 f v
          · rw [e1]
            cases b with
            | super =>
              rw [e4 rfl]
              simp only [callFn]
              rw [ih _ (hafter c) s1 hf1 ⟨x, hx1⟩ ((hc.after c).same hs1), hs1.value, hs1.plain]
            | direct => rw [e5 rfl]; exact setObj_value hx1 f v
            | ignore => rw [e6 rfl]; exact hs1.value o f
        rw [callFn]
        by_cases hf : f = n
        · rw [if_pos hf]
          exact inner s (Same.refl s) h
        · have ha := inner (access s x.cls n) (access_same s x.cls n) (access_fine h (h.objs x (List.mem_of_getElem? hx)) n)
          rw [if_neg hf, hx]
          simp only [Option.map_some, Option.getD_some]
          split
          · split
            · exact ha
            · exact ha
          · exact ha

/-! ### Nothing patched -/

theorem callFrom_quiet {o f v : Nat} : ∀ (N : Nat) (l : List Nat), l.length ≤ N → ∀ s : St, Own s → (∃ x, s.objs[o]? = some x) →
    (∀ d ∈ l, ∀ n, ¬ s.hasDesc d n true) →
    (callFrom o f v l s).log = s.log ∧ (callFrom o f v l s).value o f = s.plain (s.value o f) v l := by
  intro N
  induction N with
  | zero =>
    intro l hl s h ⟨x, hx⟩ _
    have : l = [] := List.eq_nil_of_length_eq_zero (by omega)
    subst this
    rw [callFrom]
    exact ⟨rfl, setObj_value hx f v⟩
  | succ N ih =>
    intro l hl s h ⟨x, hx⟩ hq
    cases l with
    | nil => rw [callFrom]; exact ⟨rfl, setObj_value hx f v⟩
    | cons d l =>
      simp only [List.length_cons] at hl
      rw [callFrom_cons]
      rcases own_cases h d with ⟨h1, h2⟩ | ⟨b, h1, h2⟩ | ⟨n, h1, h3⟩
      · rw [h1, St.plain, h2]
        exact ih l (by omega) s h ⟨x, hx⟩ (fun e he => hq e (List.mem_cons_of_mem _ he))
      · rw [h1, St.plain, h2]
        cases b with
        | super =>
          simp only [callFn, after, if_true]
          exact ih l (by omega) s h ⟨x, hx⟩ (fun e he => hq e (List.mem_cons_of_mem _ he))
        | direct => exact ⟨rfl, setObj_value hx f v⟩
        | ignore => exact ⟨rfl, rfl⟩
      · exact absurd h3 (hq d List.mem_cons_self n)

/-! ### The function found first -/

theorem callFrom_found {o f v : Nat} {s : St} {fn : Fn} : ∀ l : List Nat, l.findSome? s.own = some fn →
    ∃ l1 d l2, l = l1 ++ d :: l2 ∧ s.own d = some fn ∧ callFrom o f v l s = callFn o f v (fun c r => callFrom o f v (after c (d :: l2)) r) fn s
  | [], h => by cases h
  | d :: l, h => by
    rw [List.findSome?_cons] at h
    rw [callFrom_cons]
    cases hd : s.own d with
    | some g =>
      rw [hd] at h
      cases h
      exact ⟨[], d, l, rfl, hd, rfl⟩
    | none =>
      rw [hd] at h
      obtain ⟨l1, e, l2, h1, h2, h3⟩ := callFrom_found l h
      exact ⟨d :: l1, e, l2, by rw [h1]; rfl, h2, h3⟩

/-! ### Programs -/

/-- The old classes are where they were. -/
structure More (s s' : St) : Prop where
  cls : ∀ (t : Nat), t < s.classes.length → s'.classes[t]? = s.classes[t]?
  len : s.classes.length ≤ s'.classes.length

theorem More.line {s s' : St} (h : More s s') {t : Nat} (ht : t < s.classes.length) : s'.line t = s.line t := by
  unfold St.line
  rw [h.cls t ht]

theorem More.lookup {s s' : St} (h : More s s') (ho : Own s) {t : Nat} (ht : t < s.classes.length) : s'.lookup t = s.lookup t := by
  unfold St.lookup
  rw [h.line ht]
  have : ∀ d ∈ s.line t, s'.own d = s.own d := by
    intro d hd
    unfold St.own
    rw [h.cls d (line_lt ho ht d hd)]
  congr 1
  generalize s.line t = l at this
  induction l with
  | nil => rfl
  | cons d l ih =>
    rw [List.findSome?_cons, List.findSome?_cons, this d List.mem_cons_self, ih (fun e he => this e (List.mem_cons_of_mem _ he))]

theorem More.first {s s' : St} (h : More s s') {l : List Nat} (hl : ∀ d ∈ l, d < s.classes.length) : s'.first l = s.first l := by
  unfold St.first
  congr 1
  induction l with
  | nil => rfl
  | cons d l ih =>
    rw [List.findSome?_cons, List.findSome?_cons, h.cls d (hl d List.mem_cons_self), ih (fun e he => hl e (List.mem_cons_of_mem _ he))]

theorem More.hasDesc {s s' : St} (h : More s s') (ho : Own s) {t n : Nat} {p : Bool} (ht : t < s.classes.length) : s'.hasDesc t n p ↔ s.hasDesc t n p := by
  unfold St.hasDesc
  rw [bases_line, bases_line, h.line ht]
  constructor
  · rintro ⟨d, h1, c, h2, h3⟩
    exact ⟨d, h1, c, by rw [← h.cls d (line_lt ho ht d h1)]; exact h2, h3⟩
  · rintro ⟨d, h1, c, h2, h3⟩
    exact ⟨d, h1, c, by rw [h.cls d (line_lt ho ht d h1)]; exact h2, h3⟩

/-- The state after a class statement. -/
theorem cls_more (s : St) (c : Cls) : More s { s with classes := s.classes ++ [c] } :=
  ⟨fun t ht => by simp [List.getElem?_append, ht], by simp⟩

theorem cls_cases {s : St} {c e : Cls} {t : Nat} (h : (s.classes ++ [c])[t]? = some e) :
    (t < s.classes.length ∧ s.classes[t]? = some e) ∨ (t = s.classes.length ∧ e = c) := by
  rw [List.getElem?_append] at h
  split at h
  · rename_i ht; exact .inl ⟨ht, h⟩
  · rename_i ht
    right
    cases hk : t - s.classes.length with
    | zero =>
      rw [hk] at h
      exact ⟨by omega, (Option.some.inj h).symm⟩
    | succ k => rw [hk] at h; cases h

theorem own_cls {s : St} (h : Own s) (mro : List Nat) (desc : List (Nat × Bool)) (sigs : List Nat) (body : Option Body)
    (hm : mro.all (· < s.classes.length) = true) :
    Own { s with classes := s.classes ++ [⟨mro, desc, sigs, body, body.map (.custom s.classes.length)⟩] } := by
  have hmore := cls_more s ⟨mro, desc, sigs, body, body.map (.custom s.classes.length)⟩
  constructor
  · intro t c hc d hd
    rcases cls_cases hc with ⟨ht, hc⟩ | ⟨rfl, rfl⟩
    · exact h.up t c hc d hd
    · simpa using List.all_eq_true.mp hm d hd
  · intro t c hc ho
    rcases cls_cases hc with ⟨ht, hc⟩ | ⟨rfl, rfl⟩
    · exact h.bare t c hc ho
    · cases body with
      | none => rfl
      | some b => cases ho
  · intro t c k b hc ho
    rcases cls_cases hc with ⟨ht, hc⟩ | ⟨rfl, rfl⟩
    · exact h.custom t c k b hc ho
    · cases body with
      | none => cases ho
      | some b' => cases ho; exact ⟨rfl, rfl⟩
  · intro t c hc ho
    rcases cls_cases hc with ⟨ht, hc⟩ | ⟨rfl, rfl⟩
    · exact h.object t c hc ho
    · cases body with
      | none => cases ho
      | some b' => cases ho
  · intro t c n f hc ho
    rcases cls_cases hc with ⟨ht, hc⟩ | ⟨rfl, rfl⟩
    · obtain ⟨h1, h2⟩ := h.patched t c n f hc ho
      refine ⟨?_, (hmore.hasDesc h ht).mpr h2⟩
      rw [hmore.line ht, hmore.first (line_lt h ht)]
      exact h1
    · cases body with
      | none => cases ho
      | some b' => cases ho

theorem access_cls {s : St} {o : Nat} (h : Fine s) (hx : ∃ x, s.objs[o]? = some x) : ((s.objs[o]?).map Obj.cls).getD 0 < s.classes.length := by
  obtain ⟨x, hx⟩ := hx
  rw [hx]
  exact h.objs x (List.mem_of_getElem? hx)

theorem setObj_some {s : St} {o : Nat} (hx : ∃ x, s.objs[o]? = some x) (f v : Nat) : ∃ x, (setObj o f v s).objs[o]? = some x := by
  obtain ⟨x, hx⟩ := hx
  refine ⟨{ x with attrs := fun g => if g = f then v else x.attrs g }, ?_⟩
  simp only [setObj, List.getElem?_modify, hx]
  simp

theorem set_good {n : Nat} {s : St} (h : Good n s) (o f v : Nat) {x : Obj} (hx : s.objs[o]? = some x) (l : List Nat) : Good n (callFrom o f v l s) := by
  refine (callFrom_ind (fun s => Good n s ∧ ∃ x, s.objs[o]? = some x) ?_ ?_ ?_ l.length l (Nat.le_refl _) s ⟨h, x, hx⟩).1
  · intro s hs
    exact ⟨good_objs hs.1 o f v, setObj_some hs.2 f v⟩
  · intro s m hs
    refine ⟨access_good hs.1 (access_cls hs.1.fine hs.2) m, ?_⟩
    rw [(access_same _ _ _).objs]
    exact hs.2
  · intro s e hs
    exact ⟨⟨own_of hs.1.own rfl, hs.1.uni, hs.1.objs, hs.1.heard, hs.1.made⟩, hs.2⟩

theorem set_fine {s : St} (h : Fine s) (o f v : Nat) {x : Obj} (hx : s.objs[o]? = some x) (l : List Nat) : Fine (callFrom o f v l s) := by
  obtain ⟨w, gs, he⟩ := callFrom_eff (f := f) (v := v) l.length l (Nat.le_refl _) s h ⟨x, hx⟩
  exact he.fine

theorem heard_mem {s : St} {o : Nat} {p : Nat × Nat} {x : Obj} (hx : x ∈ s.objs.modify o (fun y => { y with heard := p :: y.heard })) :
    ∃ i y, s.objs[i]? = some y ∧ x.cls = y.cls ∧ (x.heard = y.heard ∨ (i = o ∧ x.heard = p :: y.heard)) := by
  rw [List.mem_iff_getElem?] at hx
  obtain ⟨i, hi⟩ := hx
  rw [List.getElem?_modify] at hi
  cases hy : s.objs[i]? with
  | none => rw [hy] at hi; cases hi
  | some y =>
    rw [hy] at hi
    refine ⟨i, y, hy, ?_⟩
    by_cases hoi : o = i
    · simp only [hoi, if_true] at hi; cases hi; exact ⟨rfl, .inr ⟨hoi.symm, rfl⟩⟩
    · simp only [hoi, if_false] at hi; cases hi; exact ⟨rfl, .inl rfl⟩

theorem step_fine {s : St} (h : Fine s) (op : Op) : Fine (step s op) := by
  cases op with
  | cls mro desc sigs body =>
    simp only [step]
    split
    · rename_i hm
      refine ⟨own_cls h.own mro desc sigs body hm, ?_⟩
      intro x hx
      have := h.objs x hx
      simp only [List.length_append, List.length_singleton]
      omega
    · exact h
  | new c =>
    simp only [step]
    split
    · rename_i hc
      refine ⟨own_of h.own rfl, ?_⟩
      intro x hx
      rcases List.mem_append.mp hx with hx | hx
      · exact h.objs x hx
      · rw [List.mem_singleton.mp hx]; exact hc
    · exact h
  | access o n =>
    simp only [step]
    split
    · exact h
    · rename_i x hx
      exact access_fine h (h.objs x (List.mem_of_getElem? hx)) n
  | connect o n f =>
    simp only [step]
    split
    · exact h
    · rename_i x hx
      have ha := access_fine h (h.objs x (List.mem_of_getElem? hx)) n
      split
      · refine ⟨own_of ha.own rfl, ?_⟩
        intro y hy
        obtain ⟨i, z, h1, h2, _⟩ := heard_mem hy
        rw [h2]
        exact ha.objs z (List.mem_of_getElem? h1)
      · exact ha
  | set o f v =>
    simp only [step]
    split
    · exact h
    · rename_i x hx
      exact set_fine h o f v hx _

theorem run_fine : ∀ (ops : List Op) {s : St}, Fine s → Fine (run ops s)
  | [], _, h => h
  | op :: ops, _, h => run_fine ops (step_fine h op)

theorem made_patched {n : Nat} {s : St} (h : Good n s) {t m : Nat} (ht : t < s.classes.length) (hd : (s.desc t m).isSome = true) :
    ((access s t m).lookup t).isPatched = true := by
  obtain ⟨⟨k, p⟩, hk⟩ := Option.isSome_iff_exists.mp hd
  have hp := desc_flag h hk
  subst hp
  by_cases hm : (k, m, t) ∈ s.made
  · have : access s t m = s := by
      unfold access
      rw [hk]
      simp only [hm, if_true]
    rw [this]
    exact h.made _ hm
  · exact access_patched ht hk hm

/-- The descriptors of a class statement are all called `n` and patch. -/
def Op.uni (n : Nat) : Op → Prop
  | .cls _ desc _ _ => ∀ p ∈ desc, p = (n, true)
  | _ => True

theorem step_good {n : Nat} {s : St} (h : Good n s) (op : Op) (hop : op.uni n) : Good n (step s op) := by
  cases op with
  | cls mro desc sigs body =>
    simp only [step]
    split
    · rename_i hm
      have hmore := cls_more s ⟨mro, desc, sigs, body, body.map (.custom s.classes.length)⟩
      refine ⟨own_cls h.own mro desc sigs body hm, ?_, ?_, ?_, ?_⟩
      · intro c hc p hp
        rcases List.mem_append.mp hc with hc | hc
        · exact h.uni c hc p hp
        · rw [List.mem_singleton.mp hc] at hp
          exact hop p hp
      · intro x hx
        have := h.objs x hx
        simp only [List.length_append, List.length_singleton]
        omega
      · intro x hx p hp
        obtain ⟨h1, h2⟩ := h.heard x hx p hp
        rw [hmore.lookup h.own (h.objs x hx)]
        exact ⟨h1, h2⟩
      · intro p hp
        have h1 := h.made p hp
        have hlt : p.2.2 < s.classes.length := by
          false_or_by_contra
          rename_i hge
          have : s.lookup p.2.2 = .object := by
            unfold St.lookup St.line St.own
            rw [List.getElem?_eq_none (by omega)]
            simp [List.getElem?_eq_none (show s.classes.length ≤ p.2.2 by omega)]
          rw [this] at h1
          cases h1
        rw [hmore.lookup h.own hlt]
        exact h1
    · exact h
  | new c =>
    simp only [step]
    split
    · rename_i hc
      refine ⟨own_of h.own rfl, h.uni, ?_, ?_, h.made⟩
      · intro x hx
        rcases List.mem_append.mp hx with hx | hx
        · exact h.objs x hx
        · rw [List.mem_singleton.mp hx]; exact hc
      · intro x hx p hp
        rcases List.mem_append.mp hx with hx | hx
        · exact h.heard x hx p hp
        · rw [List.mem_singleton.mp hx] at hp; cases hp
    · exact h
  | access o m =>
    simp only [step]
    split
    · exact h
    · rename_i x hx
      exact access_good h (h.objs x (List.mem_of_getElem? hx)) m
  | connect o m f =>
    simp only [step]
    split
    · exact h
    · rename_i x hx
      have hlt := h.objs x (List.mem_of_getElem? hx)
      have ha := access_good h hlt m
      split
      · rename_i hd
        refine ⟨own_of ha.own rfl, ha.uni, ?_, ?_, ha.made⟩
        · intro y hy
          obtain ⟨i, z, h1, h2, _⟩ := heard_mem hy
          rw [h2]
          exact ha.objs z (List.mem_of_getElem? h1)
        · intro y hy p hp
          obtain ⟨i, z, h1, h2, h3⟩ := heard_mem hy
          rw [h2]
          rcases h3 with h3 | ⟨rfl, h3⟩
          · rw [h3] at hp
            exact ha.heard z (List.mem_of_getElem? h1) p hp
          · rw [h3] at hp
            rcases List.mem_cons.mp hp with rfl | hp
            · rw [(access_same _ _ _).objs, hx] at h1
              cases h1
              refine ⟨?_, made_patched h hlt hd.1⟩
              obtain ⟨⟨k, q⟩, hk⟩ := Option.isSome_iff_exists.mp hd.1
              exact h.name (desc_hasDesc hk)
            · exact ha.heard z (List.mem_of_getElem? h1) p hp
      · exact ha
  | set o f v =>
    simp only [step]
    split
    · exact h
    · rename_i x hx
      exact set_good h o f v hx _

theorem run_good {n : Nat} : ∀ (ops : List Op) {s : St}, Good n s → (∀ op ∈ ops, op.uni n) → Good n (run ops s)
  | [], _, h, _ => h
  | op :: ops, _, h, hu => run_good ops (step_good h op (hu op List.mem_cons_self)) (fun x hx => hu x (List.mem_cons_of_mem _ hx))

theorem own_empty : Own ⟨[], [], [], []⟩ :=
  ⟨fun _ _ h => (by cases h), fun _ _ h => (by cases h), fun _ _ _ _ h => (by cases h), fun _ _ h => (by cases h), fun _ _ _ _ h => (by cases h)⟩

theorem fine_empty : Fine ⟨[], [], [], []⟩ := ⟨own_empty, fun _ h => by cases h⟩

theorem good_empty (n : Nat) : Good n ⟨[], [], [], []⟩ :=
  ⟨own_empty, fun _ h => (by cases h), fun _ h => (by cases h), fun _ h => (by cases h), fun _ h => (by cases h)⟩

/-! ### One assignment -/

theorem step_set {s : St} {o : Nat} {x : Obj} (hx : s.objs[o]? = some x) (f v : Nat) : step s (.set o f v) = callFrom o f v (s.line x.cls) s := by
  simp only [step, hx]

theorem value_some {s : St} {o : Nat} {x : Obj} (hx : s.objs[o]? = some x) (f : Nat) : s.value o f = x.attrs f := by
  unfold St.value
  rw [hx]
  rfl

theorem set_eq {s : St} {o : Nat} {x : Obj} (hx : s.objs[o]? = some x) (f w : Nat) :
    (setObj o f w s).objs = s.objs.set o { x with attrs := fun g => if g = f then w else x.attrs g } := by
  simp only [setObj]
  apply List.ext_getElem?
  intro i
  rw [List.getElem?_modify, List.getElem?_set]
  by_cases hoi : o = i
  · subst hoi
    have hlt : o < s.objs.length := by
      false_or_by_contra
      rename_i hge
      rw [List.getElem?_eq_none (by omega)] at hx
      cases hx
    rw [hx]
    simp only [if_true, hlt, Option.map_eq_map, Option.map_some]
  · simp [hoi]

theorem set_eff {s : St} (h : Fine s) {o : Nat} {x : Obj} (hx : s.objs[o]? = some x) (f v : Nat) : ∃ w gs, Eff o f v s (step s (.set o f v)) w gs := by
  rw [step_set hx]
  exact callFrom_eff _ _ (Nat.le_refl _) s h ⟨x, hx⟩

/-- What a listened assignment logs: what the wrapped function logs, and the event. -/
theorem set_reported {n : Nat} {s : St} (h : Good n s) {o f : Nat} {x : Obj} (hx : s.objs[o]? = some x) (hh : (n, f) ∈ x.heard) (hf : f ≠ n) (v : Nat) :
    ∃ d l1 l2 w gs, s.line x.cls = l1 ++ d :: l2 ∧ Eff o f v (access s x.cls n)
        (callFn o f v (fun c r => callFrom o f v (after c (d :: l2)) r) (s.first (s.line d)) (access s x.cls n)) w gs ∧
      Eff o f v s (step s (.set o f v)) w (if w ≠ x.attrs f then gs ++ [n] else gs) := by
  have hmem := List.mem_of_getElem? hx
  have hlt := h.objs x hmem
  obtain ⟨_, hp⟩ := h.heard x hmem _ hh
  unfold St.lookup at hp
  cases hfs : (s.line x.cls).findSome? s.own with
  | none => rw [hfs] at hp; cases hp
  | some fn =>
    rw [hfs] at hp
    obtain ⟨l1, d, l2, h1, h2, h3⟩ := callFrom_found (o := o) (f := f) (v := v) _ hfs
    rcases own_cases h.own d with ⟨e, _⟩ | ⟨b, e, _⟩ | ⟨m, e, hd⟩
    · rw [h2] at e; cases e
    · rw [h2] at e; cases e; cases hp
    · rw [h2] at e
      cases e
      cases h.name hd
      have hx' : ∃ y, (access s x.cls n).objs[o]? = some y := ⟨x, by rw [(access_same s x.cls n).objs]; exact hx⟩
      obtain ⟨w, gs, he⟩ := callFn_eff (o := o) (f := f) (v := v) (sup := fun c r => callFrom o f v (after c (d :: l2)) r)
        (fun c r hr hxr => callFrom_eff _ _ (Nat.le_refl _) r hr hxr) (s.first (s.line d)) (access s x.cls n) (access_fine h.fine hlt n) hx'
      refine ⟨d, l1, l2, w, gs, h1, he, ?_⟩
      rw [step_set hx, h3]
      have := patched_eff hx hf he
      simp only [hh, true_and, value_some hx] at this
      exact this

/-- With one base per class, every class in an MRO is followed by its own MRO. -/
theorem chain_line {s : St} (h : Own s) (hs : ∀ (t : Nat) (c : Cls), s.classes[t]? = some c → c.mro = [] ∨ ∃ b, c.mro = s.line b) :
    ∀ (N t : Nat), t < N → Chain s (s.line t) := by
  intro N
  induction N with
  | zero => intro t ht; omega
  | succ N ih =>
    intro t ht l1 d l2 he
    cases l1 with
    | nil =>
      have : t = d := by unfold St.line at he; exact (List.cons.inj he).1
      subst this
      rw [he]
      rfl
    | cons a l1 =>
      have htail : ((s.classes[t]?).map Cls.mro).getD [] = l1 ++ d :: l2 := by unfold St.line at he; exact (List.cons.inj he).2
      cases hc : s.classes[t]? with
      | none => rw [hc] at htail; simp at htail
      | some c =>
        rw [hc] at htail
        have htail : c.mro = l1 ++ d :: l2 := htail
        rcases hs t c hc with h0 | ⟨b, hb⟩
        · rw [h0] at htail; simp at htail
        · have hbt : b < t := h.up t c hc b (by rw [hb]; unfold St.line; exact List.mem_cons_self)
          exact ih b (by omega) l1 d l2 (by rw [← hb]; exact htail)

/-! ### Listeners stay -/

theorem hasDesc_desc {s : St} {t n : Nat} {p : Bool} (h : s.hasDesc t n p) : (s.desc t n).isSome = true := by
  obtain ⟨d, h1, c, h2, h3⟩ := h
  unfold St.desc
  rw [List.findSome?_isSome_iff]
  refine ⟨d, by rw [← bases_line]; exact h1, ?_⟩
  rw [h2, Option.bind_some]
  have : ∀ l : List (Nat × Bool), (n, p) ∈ l → (l.lookup n).isSome = true := by
    intro l
    induction l with
    | nil => intro h; cases h
    | cons q l ih =>
      intro h
      rw [List.lookup_cons]
      split
      · rfl
      · rename_i hq
        rcases List.mem_cons.mp h with rfl | h
        · simp at hq
        · exact ih h
  rw [Option.isSome_map]
  exact this _ h3

theorem step_heard {s : St} (h : Fine s) {o : Nat} {x : Obj} (hx : s.objs[o]? = some x) (op : Op) :
    ∃ y, (step s op).objs[o]? = some y ∧ y.cls = x.cls ∧ ∀ p ∈ x.heard, p ∈ y.heard := by
  have hlt : o < s.objs.length := by
    false_or_by_contra
    rename_i hge
    rw [List.getElem?_eq_none (by omega)] at hx
    cases hx
  cases op with
  | cls mro desc sigs body =>
    simp only [step]
    split
    · exact ⟨x, hx, rfl, fun _ hp => hp⟩
    · exact ⟨x, hx, rfl, fun _ hp => hp⟩
  | new c =>
    simp only [step]
    split
    · exact ⟨x, by rw [List.getElem?_append_left hlt]; exact hx, rfl, fun _ hp => hp⟩
    · exact ⟨x, hx, rfl, fun _ hp => hp⟩
  | access a n =>
    simp only [step]
    split
    · exact ⟨x, hx, rfl, fun _ hp => hp⟩
    · rw [(access_same _ _ _).objs]
      exact ⟨x, hx, rfl, fun _ hp => hp⟩
  | connect a n f =>
    simp only [step]
    split
    · exact ⟨x, hx, rfl, fun _ hp => hp⟩
    · split
      · simp only [(access_same _ _ _).objs, List.getElem?_modify, hx]
        by_cases ha : a = o
        · exact ⟨{ x with heard := (n, f) :: x.heard }, by simp [ha], rfl, fun _ hp => List.mem_cons_of_mem _ hp⟩
        · exact ⟨x, by simp [ha], rfl, fun _ hp => hp⟩
      · rw [(access_same _ _ _).objs]
        exact ⟨x, hx, rfl, fun _ hp => hp⟩
  | set a f v =>
    cases hy : s.objs[a]? with
    | none =>
      simp only [step, hy]
      exact ⟨x, hx, rfl, fun _ hp => hp⟩
    | some y =>
      obtain ⟨w, gs, he⟩ := set_eff h hy f v
      rw [he.objs]
      simp only [setObj, List.getElem?_modify, hx]
      by_cases ha : a = o
      · exact ⟨{ x with attrs := fun g => if g = f then w else x.attrs g }, by simp [ha], rfl, fun _ hp => hp⟩
      · exact ⟨x, by simp [ha], rfl, fun _ hp => hp⟩

theorem run_heard : ∀ (ops : List Op) {s : St}, Fine s → ∀ {o : Nat} {x : Obj}, s.objs[o]? = some x →
    ∃ y, (run ops s).objs[o]? = some y ∧ y.cls = x.cls ∧ ∀ p ∈ x.heard, p ∈ y.heard
  | [], _, _, _, x, hx => ⟨x, hx, rfl, fun _ hp => hp⟩
  | op :: ops, _, h, _, _, hx => by
    obtain ⟨y, h1, h2, h3⟩ := step_heard h hx op
    obtain ⟨z, h4, h5, h6⟩ := run_heard ops (step_fine h op) h1
    exact ⟨z, h4, h5.trans h2, fun p hp => h6 p (h3 p hp)⟩

theorem connect_run {s : St} (h : Fine s) {o n f : Nat} {x : Obj} {c : Cls} (hx : s.objs[o]? = some x) {p : Bool} (hd : s.hasDesc x.cls n p)
    (hc : s.classes[x.cls]? = some c) (hf : f ∈ c.sigs) (ops : List Op) :
    ∃ y, (run (.connect o n f :: ops) s).objs[o]? = some y ∧ y.cls = x.cls ∧ (n, f) ∈ y.heard := by
  have h1 : (step s (.connect o n f)).objs[o]? = some { x with heard := (n, f) :: x.heard } := by
    simp only [step, hx, hc, Option.map_some, Option.getD_some, decide_eq_true_eq, hf, and_true, hasDesc_desc hd, if_true,
      (access_same _ _ _).objs, List.getElem?_modify]
    rfl
  obtain ⟨y, h2, h3, h4⟩ := run_heard ops (step_fine h (.connect o n f)) h1
  exact ⟨y, h2, h3, h4 _ List.mem_cons_self⟩

end Psygnal.Pat
