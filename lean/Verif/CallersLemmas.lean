import Verif.Callers

/-! # Lemmas for C86 -/
namespace Psygnal.Callers

theorem place_eq (σ : St) (i : Nat) : ∀ l : List Nat, ∃ a b, l = a ++ b ∧ σ.place i l = a ++ i :: b ∧
    (∀ j ∈ a, σ.prioOf i ≤ σ.prioOf j) ∧ (∀ j, b.head? = some j → σ.prioOf j < σ.prioOf i)
  | [] => ⟨[], [], rfl, rfl, by simp, by simp⟩
  | j :: l => by
    by_cases h : σ.prioOf j < σ.prioOf i
    · exact ⟨[], j :: l, rfl, by simp [St.place, h], by simp, by simpa using h⟩
    · obtain ⟨a, b, rfl, e, h1, h2⟩ := place_eq σ i l
      refine ⟨j :: a, b, rfl, by simp [St.place, h, e], ?_, h2⟩
      intro k hk
      rcases List.mem_cons.1 hk with rfl | hk
      · omega
      · exact h1 k hk

/-- Slots are callbacks that were made, of signals that exist; without priorities all priorities are zero; the order is that of priorities. -/
structure Inv (σ : St) : Prop where
  made : ∀ s i, i ∈ σ.slots s → i < σ.callers.length
  sig : ∀ s i, i ∈ σ.slots s → s < σ.n
  flat : ∀ s, σ.prio s = false → ∀ i ∈ σ.slots s, σ.prioOf i = 0
  kept : ∀ i, σ.gone i = true → i < σ.callers.length ∧ σ.held i = false ∧ ∀ s, i ∉ σ.slots s
  sorted : ∀ s, (σ.slots s).Pairwise fun i j => σ.prioOf j ≤ σ.prioOf i

theorem Inv.init (n : Nat) : Inv (.init n) := ⟨by simp [St.init], by simp [St.init], by simp [St.init], by simp [St.init], by simp [St.init]⟩

theorem append_slots (σ : St) (s i x : Nat) : (∃ a b, σ.slots s = a ++ b ∧ ((σ.append s i).slots x = if x = s then a ++ i :: b else σ.slots x)) := by
  unfold St.append
  split
  · exact ⟨σ.slots s, [], by simp, rfl⟩
  · obtain ⟨a, b, h, e, -⟩ := place_eq σ i (σ.slots s)
    exact ⟨a, b, h, by simp only; rw [e]⟩

theorem append_same (σ : St) (s i : Nat) : (σ.append s i).callers = σ.callers ∧ (σ.append s i).n = σ.n ∧ (σ.append s i).held = σ.held ∧ (σ.append s i).gone = σ.gone ∧
    (σ.append s i).dead = σ.dead ∧ (σ.append s i).sets = σ.sets := by
  unfold St.append
  split <;> simp

theorem prioOf_congr {σ τ : St} (h : σ.callers = τ.callers) (i : Nat) : σ.prioOf i = τ.prioOf i := by simp [St.prioOf, h]

theorem mem_append {σ : St} {s i x j : Nat} : j ∈ (σ.append s i).slots x ↔ j ∈ σ.slots x ∨ (x = s ∧ j = i) := by
  obtain ⟨a, b, h, e⟩ := append_slots σ s i x
  rw [e]
  by_cases hx : x = s
  · subst hx; simp [h]; grind
  · simp [hx]

theorem Inv.append {σ : St} (h : Inv σ) {s i : Nat} (hi : i < σ.callers.length) (hg : σ.held i = true) (hs : s < σ.n) : Inv (σ.append s i) := by
  obtain ⟨c1, c2, c3, c4, -, -⟩ := append_same σ s i
  refine ⟨?_, ?_, ?_, ?_, ?_⟩
  · intro x j hj
    rw [c1]
    rcases mem_append.1 hj with hj | ⟨rfl, rfl⟩
    · exact h.made x j hj
    · exact hi
  · intro x j hj
    rw [c2]
    rcases mem_append.1 hj with hj | ⟨rfl, rfl⟩
    · exact h.sig x j hj
    · exact hs
  · intro x hp j hj
    rw [prioOf_congr c1]
    by_cases hb : σ.prio s = false ∧ σ.prioOf i = 0
    · rcases mem_append.1 hj with hj | ⟨rfl, rfl⟩
      · refine h.flat x ?_ j hj
        simpa [St.append, hb] using hp
      · exact hb.2
    · simp only [St.append, if_neg hb] at hp
      by_cases hx : x = s
      · simp [hx] at hp
      · rw [if_neg hx] at hp
        rcases mem_append.1 hj with hj | ⟨rfl, rfl⟩
        · exact h.flat x hp j hj
        · exact absurd rfl hx
  · intro j hj
    rw [c4] at hj
    obtain ⟨k1, k2, k3⟩ := h.kept j hj
    refine ⟨by rw [c1]; exact k1, by rw [c3]; exact k2, ?_⟩
    intro x hx
    rcases mem_append.1 hx with hx | ⟨rfl, rfl⟩
    · exact k3 x hx
    · rw [hg] at k2; cases k2
  · intro x
    have : ((σ.append s i).slots x).Pairwise fun i j => σ.prioOf j ≤ σ.prioOf i := by
      by_cases hx : x = s
      · subst hx
        unfold St.append
        split
        · rename_i hb
          simp only [if_true]
          rw [List.pairwise_append]
          refine ⟨h.sorted x, by simp, ?_⟩
          intro a ha b hbm
          obtain rfl := List.mem_singleton.1 hbm
          rw [h.flat x hb.1 a ha, hb.2]
          exact Int.le_refl _
        · simp only [if_true]
          obtain ⟨a, b, e1, e2, h1, h2⟩ := place_eq σ i (σ.slots x)
          rw [e2]
          have hs := h.sorted x
          rw [e1] at hs
          obtain ⟨p1, p2, p3⟩ := List.pairwise_append.1 hs
          refine List.pairwise_append.2 ⟨p1, List.pairwise_cons.2 ⟨?_, p2⟩, ?_⟩
          · intro k hk
            cases b with
            | nil => simp at hk
            | cons y b =>
              have hy := h2 y rfl
              rcases List.mem_cons.1 hk with rfl | hk
              · omega
              · have := (List.pairwise_cons.1 p2).1 k hk
                omega
          · intro k hk l hl
            rcases List.mem_cons.1 hl with rfl | hl
            · exact h1 k hk
            · exact p3 k hk l hl
      · have : (σ.append s i).slots x = σ.slots x := by
          obtain ⟨a, b, -, e⟩ := append_slots σ s i x
          rw [e, if_neg hx]
        rw [this]
        exact h.sorted x
    exact this.imp fun {a b} hab => by rw [prioOf_congr c1, prioOf_congr c1]; exact hab

/-- Fewer slots. -/
theorem Inv.less {σ τ : St} (h : Inv σ) (h1 : τ.callers = σ.callers) (h2 : τ.n = σ.n) (h3 : τ.prio = σ.prio)
    (h5 : ∀ i, τ.gone i = true → i < σ.callers.length ∧ τ.held i = false ∧ ∀ s, i ∉ τ.slots s) (h4 : ∀ s, (τ.slots s).Sublist (σ.slots s)) :
    Inv τ := by
  refine ⟨?_, ?_, ?_, by rw [h1]; exact h5, ?_⟩
  · intro s i hi; rw [h1]; exact h.made s i ((h4 s).subset hi)
  · intro s i hi; rw [h2]; exact h.sig s i ((h4 s).subset hi)
  · intro s hp i hi; rw [prioOf_congr h1]; exact h.flat s (h3 ▸ hp) i ((h4 s).subset hi)
  · intro s
    refine ((h.sorted s).sublist (h4 s)).imp fun {a b} hab => ?_
    rw [prioOf_congr h1, prioOf_congr h1]; exact hab

theorem Inv.rest {σ τ : St} (h : Inv σ) (h1 : τ.callers = σ.callers) (h2 : τ.n = σ.n) (h3 : τ.prio = σ.prio)
    (h5 : τ.gone = σ.gone) (h6 : ∀ i, σ.held i = false → τ.held i = false) (h4 : ∀ s, (τ.slots s).Sublist (σ.slots s)) : Inv τ := by
  refine h.less h1 h2 h3 ?_ h4
  intro i hi
  obtain ⟨k1, k2, k3⟩ := h.kept i (h5 ▸ hi)
  exact ⟨k1, h6 i k2, fun s hs => k3 s ((h4 s).subset hs)⟩

theorem remove_sub (σ : St) (s o a x : Nat) : ((σ.remove s o a).slots x).Sublist (σ.slots x) := by
  simp only [St.remove]
  split
  · subst_vars; exact List.eraseP_sublist
  · exact List.Sublist.refl _

theorem finalize_same (σ : St) : ∀ l : List Caller, (σ.finalize l).callers = σ.callers ∧ (σ.finalize l).n = σ.n ∧ (σ.finalize l).prio = σ.prio ∧
    (σ.finalize l).held = σ.held ∧ (σ.finalize l).gone = σ.gone ∧ (σ.finalize l).dead = σ.dead ∧ (σ.finalize l).sets = σ.sets ∧ ∀ x, ((σ.finalize l).slots x).Sublist (σ.slots x)
  | [] => ⟨rfl, rfl, rfl, rfl, rfl, rfl, rfl, fun _ => List.Sublist.refl _⟩
  | c :: l => by
    obtain ⟨h1, h2, h3, h4, h5, h6, h8, h7⟩ := finalize_same (σ.remove c.home c.obj c.attr) l
    exact ⟨h1, h2, h3, h4, h5, h6, h8, fun x => (h7 x).trans (remove_sub ..)⟩

theorem call_same (σ : St) (args : List Nat) : ∀ l : List Nat, ∃ t, (σ.call args l).2 = { σ with sets := σ.sets ++ t } := by
  intro l
  induction l generalizing σ with
  | nil => exact ⟨[], by simp [St.call]⟩
  | cons i l ih =>
    simp only [St.call]
    split
    · exact ih σ
    · split
      · exact ⟨[], by simp⟩
      · obtain ⟨t, e⟩ := ih { σ with sets := σ.sets ++ [_] }
        rw [e]
        exact ⟨_ :: t, by simp; rfl⟩

theorem Inv.new {σ : St} (h : Inv σ) (c : Caller) :
    Inv { σ with callers := σ.callers ++ [c], held := fun j => if j = σ.callers.length then true else σ.held j } := by
  have hp : ∀ i, i < σ.callers.length →
      St.prioOf { σ with callers := σ.callers ++ [c], held := fun j => if j = σ.callers.length then true else σ.held j } i = σ.prioOf i := by
    intro i hi
    simp [St.prioOf, List.getElem?_append_left hi]
  refine ⟨?_, h.sig, ?_, ?_, ?_⟩
  · intro s i hi
    have := h.made s i hi
    simp; omega
  · intro s hf i hi
    rw [hp i (h.made s i hi)]
    exact h.flat s hf i hi
  · intro i hi
    obtain ⟨k1, k2, k3⟩ := h.kept i hi
    refine ⟨by simp; omega, ?_, k3⟩
    have : i ≠ σ.callers.length := by omega
    simp [this, k2]
  · intro s
    refine List.Pairwise.imp_of_mem ?_ (h.sorted s)
    intro a b ha hb hab
    rw [hp a (h.made s a ha), hp b (h.made s b hb)]
    exact hab

theorem reachable_iff {σ : St} (h : Inv σ) (i : Nat) : σ.reachable i = true ↔ σ.held i = true ∨ ∃ s, i ∈ σ.slots s := by
  simp only [St.reachable, Bool.or_eq_true, List.any_eq_true, List.mem_range, List.contains_iff_mem]
  constructor
  · rintro (h | ⟨s, -, h⟩)
    · exact .inl h
    · exact .inr ⟨s, h⟩
  · rintro (h' | ⟨s, h'⟩)
    · exact .inl h'
    · exact .inr ⟨s, h.sig s i h', h'⟩

theorem Inv.step {σ : St} (h : Inv σ) (o : Op) : Inv (σ.step o).2 := by
  cases o with
  | bind s obj attr max p =>
    simp only [St.step]
    split
    · exact h
    · rename_i hn
      exact Inv.append (h.new _) (by simp) (by simp) (by simp only [not_or] at hn; simpa using hn.1)
  | connect s i max p u =>
    simp only [St.step]
    split
    · exact h
    · rename_i hn
      split
      · exact h
      · rename_i c hc
        split
        · exact h
        · simp only [not_or] at hn
          exact h.append (List.getElem?_eq_some_iff.1 hc).1 (by simpa using hn.2) (by omega)
  | disconnect s i ok =>
    simp only [St.step]
    split
    · exact h
    · split
      · exact h
      · split
        · exact h.rest rfl rfl rfl rfl (fun _ => id) fun _ => remove_sub ..
        · exact h
  | unbind s o a ok =>
    simp only [St.step]
    split
    · exact h
    · split
      · exact h.rest rfl rfl rfl rfl (fun _ => id) fun _ => remove_sub ..
      · exact h
  | drop i =>
    refine h.rest rfl rfl rfl rfl ?_ fun _ => List.Sublist.refl _
    intro j hj
    simp only [St.step]
    split <;> simp_all
  | collect =>
    refine h.less rfl rfl rfl ?_ fun _ => List.Sublist.refl _
    intro i hi
    simp only [St.step, Bool.or_eq_true, Bool.and_eq_true, decide_eq_true_eq, Bool.not_eq_true'] at hi
    rcases hi with ⟨h1, h2⟩ | hi
    · have := mt (reachable_iff h i).2 (by simp [h2])
      simp only [not_or, not_exists] at this
      exact ⟨h1, by simpa [St.step] using this.1, this.2⟩
    · exact h.kept i hi
  | die o =>
    simp only [St.step]
    split
    · exact h
    · obtain ⟨h1, h2, h3, h4, h5, -, -, h7⟩ := finalize_same { σ with dead := fun x => if x = o then true else σ.dead x } (σ.mourners o)
      exact h.rest h1 h2 h3 h5 (fun i hi => by rw [h4]; exact hi) h7
  | emit s args =>
    obtain ⟨t, e⟩ := call_same σ args (σ.slots s)
    simp only [St.step]
    rw [e]
    exact h.rest rfl rfl rfl rfl (fun _ => id) fun _ => List.Sublist.refl _

theorem Inv.run {σ : St} (h : Inv σ) : ∀ l : List Op, Inv (σ.run l).2 := by
  intro l
  induction l generalizing σ with
  | nil => exact h
  | cons o l ih => exact ih (h.step o)

/-! ## Emission -/

theorem call_alive (σ : St) (args : List Nat) : ∀ l : List Nat, (∀ i ∈ l, ∀ c, σ.callers[i]? = some c → σ.dead c.obj = false) →
    σ.call args l = (.ok (), { σ with sets := σ.sets ++ (l.filterMap (σ.callers[·]?)).map fun c => (c.obj, c.attr, pack c.maxArgs args) }) := by
  intro l
  induction l generalizing σ with
  | nil => intro _; simp [St.call]
  | cons i l ih =>
    intro h
    simp only [St.call]
    split
    · rename_i hn
      rw [ih σ fun j hj => h j (.tail _ hj)]
      simp [hn]
    · rename_i c hc
      rw [h i (.head _) c hc]
      simp only [Bool.false_eq_true, if_false]
      rw [ih { σ with sets := σ.sets ++ [(c.obj, c.attr, pack c.maxArgs args)] } fun j hj => h j (.tail _ hj)]
      simp [hc]

theorem call_stop (σ : St) (args : List Nat) (i : Nat) (c : Caller) (hc : σ.callers[i]? = some c) (hd : σ.dead c.obj = true) (post : List Nat) :
    ∀ l : List Nat, (∀ i ∈ l, ∀ c, σ.callers[i]? = some c → σ.dead c.obj = false) →
    σ.call args (l ++ i :: post) =
      (.error .emitLoop, { σ with sets := σ.sets ++ (l.filterMap (σ.callers[·]?)).map fun c => (c.obj, c.attr, pack c.maxArgs args) }) := by
  intro l
  induction l generalizing σ with
  | nil => intro _; simp [St.call, hc, hd]
  | cons j l ih =>
    intro h
    simp only [List.cons_append, St.call]
    split
    · rename_i hn
      rw [ih σ hc hd fun j hj => h j (.tail _ hj)]
      simp [hn]
    · rename_i c' hc'
      rw [h j (.head _) c' hc']
      simp only [Bool.false_eq_true, if_false]
      rw [ih { σ with sets := σ.sets ++ [(c'.obj, c'.attr, pack c'.maxArgs args)] } hc hd fun j hj => h j (.tail _ hj)]
      simp [hc']

/-! ## Death -/

theorem filter_eraseP_of_disjoint {α} (p q : α → Bool) : ∀ l : List α, (∀ a ∈ l, p a = true → q a = false) → (l.eraseP p).filter q = l.filter q
  | [], _ => rfl
  | a :: l, h => by
    by_cases hp : p a = true
    · simp [hp, h a (.head _) hp]
    · rw [List.eraseP_cons_of_neg hp]
      simp only [List.filter_cons, filter_eraseP_of_disjoint p q l fun b hb => h b (.tail _ hb)]

theorem countP_eraseP_self {α} (p : α → Bool) : ∀ l : List α, (l.eraseP p).countP p = l.countP p - 1
  | [] => rfl
  | a :: l => by
    by_cases hp : p a = true
    · simp [hp]
    · rw [List.eraseP_cons_of_neg hp]
      simp [hp, countP_eraseP_self p l]

theorem isFor_congr {σ τ : St} (h : σ.callers = τ.callers) (o a : Nat) : σ.isFor o a = τ.isFor o a := by
  funext i; simp [St.isFor, h]

theorem isFor_iff {σ : St} {o a i : Nat} : σ.isFor o a i = true ↔ ∃ c, σ.callers[i]? = some c ∧ c.obj = o ∧ c.attr = a := by
  unfold St.isFor
  split <;> simp_all

theorem finalize_count (x o a : Nat) : ∀ (l : List Caller) (σ : St),
    ((σ.finalize l).slots x).countP (σ.isFor o a) =
      (σ.slots x).countP (σ.isFor o a) - l.countP fun c => c.home == x && (c.obj == o && c.attr == a)
  | [], σ => by simp [St.finalize]
  | c :: l, σ => by
    have ih := finalize_count x o a l (σ.remove c.home c.obj c.attr)
    rw [isFor_congr (show (σ.remove c.home c.obj c.attr).callers = σ.callers from rfl) o a] at ih
    simp only [St.finalize]
    rw [ih, List.countP_cons]
    by_cases h1 : c.home = x
    · subst h1
      by_cases h2 : c.obj = o ∧ c.attr = a
      · obtain ⟨rfl, rfl⟩ := h2
        simp [St.remove, countP_eraseP_self]
        omega
      · have : (c.obj == o && c.attr == a) = false := by simpa using h2
        simp only [this, Bool.and_false, Bool.false_eq_true, if_false, Nat.add_zero, St.remove, if_true]
        rw [List.countP_eq_length_filter, filter_eraseP_of_disjoint, ← List.countP_eq_length_filter]
        intro i _ hi
        obtain ⟨c', e, e1, e2⟩ := isFor_iff.1 hi
        rw [Bool.eq_false_iff]
        intro hi'
        obtain ⟨c'', e', e3, e4⟩ := isFor_iff.1 hi'
        grind
    · have : x ≠ c.home := fun h => h1 h.symm
      simp [St.remove, h1, this]

theorem finalize_others (x o : Nat) (q : Nat → Bool) : ∀ (l : List Caller) (σ : St), (∀ c ∈ l, c.obj = o) →
    (∀ i c, σ.callers[i]? = some c → c.obj = o → q i = false) → ((σ.finalize l).slots x).filter q = (σ.slots x).filter q
  | [], σ, _, _ => rfl
  | c :: l, σ, h, hq => by
    simp only [St.finalize]
    rw [finalize_others x o q l (σ.remove c.home c.obj c.attr) (fun d hd => h d (.tail _ hd)) hq]
    simp only [St.remove]
    split
    · rename_i hx
      subst hx
      rw [filter_eraseP_of_disjoint]
      intro i _ hi
      obtain ⟨c', e, e1, e2⟩ := isFor_iff.1 hi
      exact hq i c' e (e1.trans (h c (.head _)))
    · rfl

theorem mem_mourners {σ : St} {o : Nat} {c : Caller} (h : c ∈ σ.mourners o) : c.obj = o := by
  simp only [St.mourners, List.mem_filterMap] at h
  obtain ⟨i, -, h⟩ := h
  split at h
  · split at h
    · cases h; assumption
    · cases h
  · cases h

theorem mourners_count (σ : St) (o a x : Nat) (L : List Nat) (hL : L.Nodup)
    (h : ∀ i, i ∈ L ↔ σ.gone i = false ∧ ∃ c, σ.callers[i]? = some c ∧ c.home = x ∧ c.obj = o ∧ c.attr = a) :
    (σ.mourners o).countP (fun c => c.home == x && (c.obj == o && c.attr == a)) = L.length := by
  rw [St.mourners, List.countP_filterMap, List.countP_filter, List.countP_eq_length_filter]
  refine List.Perm.length_eq ((List.perm_ext_iff_of_nodup (List.Nodup.sublist List.filter_sublist List.nodup_range) hL).2 ?_)
  intro i
  rw [h, List.mem_filter, List.mem_range]
  constructor
  · rintro ⟨h1, h2⟩
    simp only [Bool.and_eq_true, Bool.not_eq_true'] at h2
    refine ⟨h2.2, ?_⟩
    have e := List.getElem?_eq_getElem h1
    rw [e] at h2 ⊢
    by_cases ho : (σ.callers[i]).obj = o
    · simp [ho] at h2
      exact ⟨_, rfl, h2.1.1, ho, h2.1.2⟩
    · simp [ho] at h2
  · rintro ⟨h1, c, e, rfl, rfl, rfl⟩
    exact ⟨(List.getElem?_eq_some_iff.1 e).1, by simp [e, h1]⟩

/-! ## Callbacks that stay at home -/

/-- Every slot is at home, once, and of a live object. -/
structure Home (σ : St) : Prop where
  nodup : ∀ s, (σ.slots s).Nodup
  home : ∀ s, ∀ i ∈ σ.slots s, ∀ c, σ.callers[i]? = some c → c.home = s
  alive : ∀ s, ∀ i ∈ σ.slots s, ∀ c, σ.callers[i]? = some c → σ.dead c.obj = false

theorem nodup_append' {σ : St} {s i : Nat} (h : (σ.slots s).Nodup) (hi : i ∉ σ.slots s) : ((σ.append s i).slots s).Nodup := by
  obtain ⟨a, b, e1, e2⟩ := append_slots σ s i s
  rw [e2, if_pos rfl]
  rw [e1] at h hi
  grind

theorem Home.append {σ : St} (h : Home σ) {s i : Nat} (hi : i ∉ σ.slots s)
    (hc : ∀ c, σ.callers[i]? = some c → c.home = s ∧ σ.dead c.obj = false) : Home (σ.append s i) := by
  obtain ⟨c1, -, -, -, c5, -⟩ := append_same σ s i
  refine ⟨?_, ?_, ?_⟩
  · intro x
    by_cases hx : x = s
    · subst hx; exact nodup_append' (h.nodup x) hi
    · obtain ⟨a, b, -, e⟩ := append_slots σ s i x
      rw [e, if_neg hx]; exact h.nodup x
  · intro x j hj c hc'
    rw [c1] at hc'
    rcases mem_append.1 hj with hj | ⟨rfl, rfl⟩
    · exact h.home x j hj c hc'
    · exact (hc c hc').1
  · intro x j hj c hc'
    rw [c1] at hc'
    rw [c5]
    rcases mem_append.1 hj with hj | ⟨rfl, rfl⟩
    · exact h.alive x j hj c hc'
    · exact (hc c hc').2

theorem Home.less {σ τ : St} (h : Home σ) (h1 : τ.callers = σ.callers) (h2 : τ.dead = σ.dead) (h4 : ∀ s, (τ.slots s).Sublist (σ.slots s)) :
    Home τ :=
  ⟨fun s => (h.nodup s).sublist (h4 s), fun s i hi c hc => h.home s i ((h4 s).subset hi) c (h1 ▸ hc),
    fun s i hi c hc => by rw [h2]; exact h.alive s i ((h4 s).subset hi) c (h1 ▸ hc)⟩

theorem step_dead (σ : St) (o : Op) (x : Nat) (h : (σ.step o).2.dead x = true) : σ.dead x = true ∨ o = .die x := by
  cases o with
  | bind s obj attr max p =>
    simp only [St.step] at h
    split at h
    · exact .inl h
    · rw [(append_same _ _ _).2.2.2.2.1] at h; exact .inl h
  | connect s j max p u =>
    simp only [St.step] at h
    split at h
    · exact .inl h
    · split at h
      · exact .inl h
      · split at h
        · exact .inl h
        · rw [(append_same _ _ _).2.2.2.2.1] at h; exact .inl h
  | disconnect s j ok =>
    simp only [St.step] at h
    split at h
    · exact .inl h
    · split at h
      · exact .inl h
      · split at h
        · exact .inl h
        · exact .inl h
  | unbind s o a ok =>
    simp only [St.step] at h
    split at h
    · exact .inl h
    · split at h
      · exact .inl h
      · exact .inl h
  | drop j => exact .inl h
  | collect => exact .inl h
  | die o =>
    simp only [St.step] at h
    split at h
    · exact .inl h
    · rw [(finalize_same _ _).2.2.2.2.2.1] at h
      by_cases hx : x = o
      · exact .inr (by rw [hx])
      · simp only [hx, if_false] at h; exact .inl h
  | emit s args =>
    obtain ⟨t, e⟩ := call_same σ args (σ.slots s)
    simp only [St.step] at h
    rw [e] at h; exact .inl h

theorem Home.step {σ : St} (h : Home σ) (hI : Inv σ) (o : Op)
    (hd : ∀ s i m p u, o = .connect s i m p u → ∀ c, σ.callers[i]? = some c → σ.dead c.obj = false ∧ u ≠ .no ∧ c.home = s) :
    Home (σ.step o).2 ∧ (σ.step o).1 ≠ .error .emitLoop := by
  cases o with
  | bind s obj attr max p =>
    simp only [St.step]
    split
    · exact ⟨h, by simp⟩
    · rename_i hn
      simp only [not_or] at hn
      refine ⟨?_, by simp⟩
      refine Home.append (σ := { σ with callers := σ.callers ++ [⟨obj, attr, max, p, s⟩], held := fun j => if j = σ.callers.length then true else σ.held j })
        ⟨h.nodup, ?_, ?_⟩ ?_ ?_
      · intro x i hi c hc
        simp only [List.getElem?_append_left (hI.made x i hi)] at hc
        exact h.home x i hi c hc
      · intro x i hi c hc
        simp only [List.getElem?_append_left (hI.made x i hi)] at hc
        exact h.alive x i hi c hc
      · intro hm
        have := hI.made s _ hm
        omega
      · intro c hc
        simp at hc
        subst hc
        exact ⟨rfl, by simpa using hn.2⟩
  | connect s i max p u =>
    simp only [St.step]
    split
    · exact ⟨h, by simp⟩
    · split
      · exact ⟨h, by simp⟩
      · rename_i c hc
        obtain ⟨h1, h2, h3⟩ := hd s i max p u rfl c hc
        split
        · exact ⟨h, by split <;> simp⟩
        · rename_i hn
          refine ⟨h.append ?_ ?_, by simp⟩
          · intro hm
            refine hn ⟨h2, ?_⟩
            simp only [St.has, List.any_eq_true]
            exact ⟨i, hm, isFor_iff.2 ⟨c, hc, rfl, rfl⟩⟩
          · intro c' hc'
            rw [hc] at hc'
            cases hc'
            exact ⟨h3, h1⟩
  | disconnect s i ok =>
    simp only [St.step]
    split
    · exact ⟨h, by simp⟩
    · split
      · exact ⟨h, by simp⟩
      · split
        · exact ⟨h.less rfl rfl fun _ => remove_sub .., by simp⟩
        · exact ⟨h, by split <;> simp⟩
  | unbind s o a ok =>
    simp only [St.step]
    split
    · exact ⟨h, by simp⟩
    · split
      · exact ⟨h.less rfl rfl fun _ => remove_sub .., by simp⟩
      · exact ⟨h, by split <;> simp⟩
  | drop i => exact ⟨h.less rfl rfl fun _ => List.Sublist.refl _, by simp [St.step]⟩
  | collect => exact ⟨h.less rfl rfl fun _ => List.Sublist.refl _, by simp [St.step]⟩
  | die o =>
    simp only [St.step]
    split
    · exact ⟨h, by simp⟩
    · refine ⟨?_, by simp⟩
      obtain ⟨h1, -, -, -, -, h5, -, h7⟩ := finalize_same { σ with dead := fun x => if x = o then true else σ.dead x } (σ.mourners o)
      refine ⟨fun s => (h.nodup s).sublist (h7 s), fun s i hi c hc => h.home s i ((h7 s).subset hi) c (h1 ▸ hc), ?_⟩
      intro s i hi c hc
      rw [h1] at hc
      rw [h5]
      have hi' := (h7 s).subset hi
      have ha := h.alive s i hi' c hc
      by_cases ho : c.obj = o
      · exfalso
        have hcnt := finalize_count s o c.attr (σ.mourners o) { σ with dead := fun x => if x = o then true else σ.dead x }
        rw [mourners_count σ o c.attr s ((List.range σ.callers.length).filter fun j => !σ.gone j && (match σ.callers[j]? with
            | some d => d.home == s && d.obj == o && d.attr == c.attr
            | none => false)) (List.Nodup.sublist List.filter_sublist List.nodup_range) ?_] at hcnt
        · have hle : (σ.slots s).countP (St.isFor { σ with dead := fun x => if x = o then true else σ.dead x } o c.attr) ≤
              ((List.range σ.callers.length).filter fun j => !σ.gone j && (match σ.callers[j]? with
                | some d => d.home == s && d.obj == o && d.attr == c.attr
                | none => false)).length := by
            rw [List.countP_eq_length_filter]
            refine List.Nodup.length_le_of_subset (List.Nodup.sublist List.filter_sublist (h.nodup s)) ?_
            intro j hj
            obtain ⟨hj1, hj2⟩ := List.mem_filter.1 hj
            obtain ⟨d, e, e1, e2⟩ := isFor_iff.1 hj2
            simp only at e
            have hg : σ.gone j = false := by
              cases hg : σ.gone j
              · rfl
              · exact absurd hj1 ((hI.kept j hg).2.2 s)
            refine List.mem_filter.2 ⟨List.mem_range.2 (hI.made s j hj1), ?_⟩
            simp [hg, e, e1, e2, h.home s j hj1 d e]
          have hpos : 0 < ((St.finalize { σ with dead := fun x => if x = o then true else σ.dead x } (σ.mourners o)).slots s).countP
              (St.isFor { σ with dead := fun x => if x = o then true else σ.dead x } o c.attr) :=
            List.countP_pos_iff.2 ⟨i, hi, isFor_iff.2 ⟨c, hc, ho, rfl⟩⟩
          simp only at hcnt hle
          omega
        · intro j
          simp only [List.mem_filter, List.mem_range, Bool.and_eq_true, Bool.not_eq_true']
          constructor
          · rintro ⟨h1, h2, h3⟩
            refine ⟨h2, ?_⟩
            split at h3
            · rename_i d e
              simp at h3
              exact ⟨d, e, h3.1.1, h3.1.2, h3.2⟩
            · cases h3
          · rintro ⟨h1, d, e, e1, e2, e3⟩
            exact ⟨(List.getElem?_eq_some_iff.1 e).1, h1, by simp [e, e1, e2, e3]⟩
      · simp [ho, ha]
  | emit s args =>
    simp only [St.step]
    rw [call_alive σ args (σ.slots s) (h.alive s)]
    exact ⟨h.less rfl rfl fun _ => List.Sublist.refl _, by simp⟩

theorem step_n (σ : St) (o : Op) : (σ.step o).2.n = σ.n := by
  cases o with
  | bind s obj attr max p =>
    simp only [St.step]
    split
    · rfl
    · exact (append_same _ _ _).2.1
  | connect s j max p u =>
    simp only [St.step]
    split
    · rfl
    · split
      · rfl
      · split
        · rfl
        · exact (append_same _ _ _).2.1
  | disconnect s j ok =>
    simp only [St.step]
    split
    · rfl
    · split
      · rfl
      · split <;> rfl
  | unbind s o a ok =>
    simp only [St.step]
    split
    · rfl
    · split <;> rfl
  | drop j => rfl
  | collect => rfl
  | die o =>
    simp only [St.step]
    split
    · rfl
    · exact (finalize_same _ _).2.1
  | emit s args =>
    obtain ⟨t, e⟩ := call_same σ args (σ.slots s)
    simp only [St.step]
    rw [e]

theorem run_n (ops : List Op) : ∀ σ : St, (σ.run ops).2.n = σ.n := by
  induction ops with
  | nil => intro σ; rfl
  | cons o ops ih => intro σ; exact (ih _).trans (step_n σ o)

theorem run_append (a b : List Op) : ∀ σ : St, (σ.run (a ++ b)).2 = ((σ.run a).2.run b).2 := by
  induction a with
  | nil => intro σ; rfl
  | cons o a ih => intro σ; exact ih _

theorem run_dead (ops : List Op) : ∀ (σ : St) (x : Nat), (σ.run ops).2.dead x = true → σ.dead x = true ∨ .die x ∈ ops := by
  induction ops with
  | nil => intro σ x h; exact .inl h
  | cons o ops ih =>
    intro σ x h
    rcases ih _ x h with h | h
    · rcases step_dead σ o x h with h | rfl
      · exact .inl h
      · exact .inr (.head _)
    · exact .inr (.tail _ h)

theorem Home.run (ops : List Op) : ∀ {σ : St}, Home σ → Inv σ →
    (∀ pre post s i m p u, ops = pre ++ .connect s i m p u :: post →
      ∀ c, (σ.run pre).2.callers[i]? = some c → (σ.run pre).2.dead c.obj = false ∧ u ≠ .no ∧ c.home = s) →
    Home (σ.run ops).2 ∧ .error .emitLoop ∉ (σ.run ops).1 := by
  induction ops with
  | nil => intro σ h _ _; exact ⟨h, by simp [St.run]⟩
  | cons o ops ih =>
    intro σ h hI hd
    obtain ⟨h1, h2⟩ := h.step hI o fun s i m p u e c hc => hd [] ops s i m p u (by rw [e]; rfl) c hc
    obtain ⟨h3, h4⟩ := ih h1 (hI.step o) fun pre post s i m p u e c hc => hd (o :: pre) post s i m p u (by rw [e]; rfl) c hc
    refine ⟨h3, ?_⟩
    simp only [St.run, List.mem_cons, not_or]
    exact ⟨fun e => h2 e.symm, h4⟩

end Psygnal.Callers
