import Verif.Fields
/-!
# Lemmas on the fields of evented classes
-/
namespace Psygnal.Flds

/-- `d` is the latest declaration of its name in `ds`. -/
def Latest (ds : List Decl) (d : Decl) : Prop :=
  ∃ pre post, ds = pre ++ d :: post ∧ ∀ e ∈ post, e.name ≠ d.name

/-- The annotations of the classes that `lib` made, the base first. -/
def declsOf (lib : Lib) (c : Cls) : List Decl := (c.filter (·.lib = lib)).flatMap (·.decls)

/-- `__annotations__` are dicts, and a name is always a `ClassVar`, always an `InitVar`, or never. -/
structure WF (c : Cls) : Prop where
  nodup : ∀ l ∈ c, (l.decls.map (·.name)).Nodup
  kinds : ∀ l ∈ c, ∀ l' ∈ c, ∀ d ∈ l.decls, ∀ d' ∈ l'.decls, d.name = d'.name → d.kind = d'.kind

theorem latest_nil (d : Decl) : ¬ Latest [] d := by
  rintro ⟨pre, post, e, _⟩
  cases pre <;> simp at e

theorem latest_snoc (ds : List Decl) (x d : Decl) :
    Latest (ds ++ [x]) d ↔ d = x ∨ (Latest ds d ∧ d.name ≠ x.name) := by
  constructor
  · rintro ⟨pre, post, e, h⟩
    rcases List.eq_nil_or_concat post with rfl | ⟨post', y, rfl⟩
    · have := List.append_inj' e (by simp)
      exact .inl (by simpa using this.2.symm)
    · refine .inr ?_
      have e2 : ds ++ [x] = (pre ++ d :: post') ++ [y] := by simp [e]
      have := List.append_inj' e2 (by simp)
      obtain ⟨e3, e4⟩ := this
      have e5 : x = y := by simpa using e4
      subst e5
      exact ⟨⟨pre, post', e3, fun z hz => h z (by simp [hz])⟩, fun q => h x (by simp) q.symm⟩
  · rintro (rfl | ⟨⟨pre, post, rfl, h⟩, hn⟩)
    · exact ⟨ds, [], by simp, by simp⟩
    · refine ⟨pre, post ++ [x], by simp, ?_⟩
      intro z hz
      rcases List.mem_append.mp hz with hz | hz
      · exact h z hz
      · rw [List.mem_singleton] at hz; subst hz; exact fun q => hn q.symm

theorem latest_mem {ds : List Decl} {d : Decl} (h : Latest ds d) : d ∈ ds := by
  obtain ⟨pre, post, rfl, _⟩ := h
  simp

/-- Of a dict, each entry is the latest. -/
theorem latest_append (as bs : List Decl) (hb : (bs.map (·.name)).Nodup) (d : Decl) :
    Latest (as ++ bs) d ↔ d ∈ bs ∨ (Latest as d ∧ ∀ e ∈ bs, e.name ≠ d.name) := by
  constructor
  · rintro ⟨pre, post, e, h⟩
    rcases List.append_eq_append_iff.mp e with ⟨w, e1, e2⟩ | ⟨w, e1, e2⟩
    · exact .inl (by rw [e2]; simp)
    · cases w with
      | nil => exact .inl (by simp at e2; rw [← e2]; simp)
      | cons y w =>
        simp at e2
        obtain ⟨rfl, rfl⟩ := e2
        exact .inr ⟨⟨pre, w, e1, fun z hz => h z (by simp [hz])⟩, fun z hz => h z (by simp [hz])⟩
  · rintro (h | ⟨⟨pre, post, rfl, h⟩, hn⟩)
    · obtain ⟨u, v, rfl⟩ := List.append_of_mem h
      refine ⟨as ++ u, v, by simp, ?_⟩
      intro e he q
      rw [List.map_append, List.nodup_append] at hb
      have := hb.2.1
      rw [List.map_cons, List.nodup_cons] at this
      exact this.1 (q ▸ List.mem_map_of_mem he)
    · refine ⟨pre, post ++ bs, by simp, ?_⟩
      intro z hz
      rcases List.mem_append.mp hz with hz | hz
      · exact h z hz
      · exact hn z hz

/-! ## Dicts -/

/-- A dict that holds exactly the latest of `ds`. -/
structure Holds (l ds : List Decl) : Prop where
  nodup : (l.map (·.name)).Nodup
  mem : ∀ d, d ∈ l ↔ Latest ds d

theorem holds_nil : Holds [] [] := ⟨by simp, fun d => by simp [latest_nil]⟩

theorem map_name_put (l : List Decl) (d : Decl) :
    (l.map fun x => if x.name = d.name then d else x).map (·.name) = l.map (·.name) := by
  rw [List.map_map]
  apply List.map_congr_left
  intro x _
  show (if x.name = d.name then d else x).name = x.name
  split
  · rename_i h; exact h.symm
  · rfl

theorem holds_put {l ds : List Decl} (h : Holds l ds) (d : Decl) : Holds (put l d) (ds ++ [d]) := by
  unfold put
  split
  · rename_i ha
    rw [List.any_eq_true] at ha
    obtain ⟨y, hy, hy2⟩ := ha
    have hy2 : y.name = d.name := of_decide_eq_true hy2
    refine ⟨by rw [map_name_put]; exact h.nodup, fun x => ?_⟩
    rw [latest_snoc, ← h.mem, List.mem_map]
    constructor
    · rintro ⟨z, hz, rfl⟩
      split
      · exact .inl rfl
      · rename_i hn; exact .inr ⟨hz, hn⟩
    · rintro (rfl | ⟨hx, hn⟩)
      · exact ⟨y, hy, by rw [if_pos hy2]⟩
      · exact ⟨x, hx, by rw [if_neg hn]⟩
  · rename_i ha
    have hn : ∀ x ∈ l, x.name ≠ d.name := fun x hx q =>
      ha (List.any_eq_true.mpr ⟨x, hx, decide_eq_true q⟩)
    refine ⟨?_, fun x => ?_⟩
    · rw [List.map_append, List.nodup_append]
      refine ⟨h.nodup, by simp, ?_⟩
      intro a ha b hb q
      obtain ⟨x, hx, rfl⟩ := List.mem_map.mp ha
      simp at hb
      exact hn x hx (q.trans hb)
    · rw [latest_snoc, ← h.mem, List.mem_append, List.mem_singleton]
      constructor
      · rintro (hx | hx)
        · exact .inr ⟨hx, hn x hx⟩
        · exact .inl hx
      · rintro (hx | ⟨hx, _⟩)
        · exact .inr hx
        · exact .inl hx

theorem holds_foldl {l ds : List Decl} (h : Holds l ds) (es : List Decl) : Holds (es.foldl put l) (ds ++ es) := by
  induction es generalizing l ds with
  | nil => simpa using h
  | cons e es ih =>
    have := ih (holds_put h e)
    simpa using this

theorem nodup_filter {es : List Decl} (p : Decl → Bool) (h : (es.map (·.name)).Nodup) :
    ((es.filter p).map (·.name)).Nodup :=
  (List.filter_sublist.map _).nodup h

theorem holds_seq {l ds : List Decl} (h : Holds l ds) (es : List Decl) (he : (es.map (·.name)).Nodup) :
    Holds (seqOwn l es) (ds ++ es.filter (·.kind ≠ .classVar)) := by
  unfold seqOwn
  generalize hg : es.filter (·.kind ≠ .classVar) = fs
  have hf : (fs.map (·.name)).Nodup := hg ▸ nodup_filter _ he
  have key : ∀ d : Decl, (!fs.any (fun x => decide (x.name = d.name))) = true ↔ ∀ e ∈ fs, e.name ≠ d.name := by
    intro d
    simp
  refine ⟨?_, fun d => ?_⟩
  · rw [List.map_append, List.nodup_append]
    refine ⟨nodup_filter _ h.nodup, hf, ?_⟩
    intro a ha b hb q
    obtain ⟨x, hx, rfl⟩ := List.mem_map.mp ha
    obtain ⟨y, hy, rfl⟩ := List.mem_map.mp hb
    rw [List.mem_filter] at hx
    exact (key x).mp hx.2 y hy q.symm
  · rw [latest_append _ _ hf, List.mem_append, List.mem_filter, h.mem, key]
    exact or_comm

/-! ## Chains -/

/-- What is stored, given a rule that keeps `keep`. -/
theorem collect_holds (mine : Lib) (own : List Decl → List Decl → List Decl) (keep : Decl → Bool)
    (hown : ∀ (l ds es : List Decl), Holds l ds → (es.map (·.name)).Nodup → Holds (own l es) (ds ++ es.filter keep))
    (c : Cls) (hw : ∀ l ∈ c, (l.decls.map (·.name)).Nodup) :
    ((collect mine own c = none) ↔ ∀ l ∈ c, l.lib ≠ mine) ∧
      Holds ((collect mine own c).getD []) ((declsOf mine c).filter keep) := by
  suffices H : ∀ (acc : Option (List Decl)) (ds : List Decl), Holds (acc.getD []) ds →
      (c.foldl (fun acc l => if l.lib = mine then some (own (acc.getD []) l.decls) else acc) acc = none ↔
        acc = none ∧ ∀ l ∈ c, l.lib ≠ mine) ∧
      Holds ((c.foldl (fun acc l => if l.lib = mine then some (own (acc.getD []) l.decls) else acc) acc).getD [])
        (ds ++ (declsOf mine c).filter keep) by
    have := H none [] holds_nil
    simpa [collect] using this
  induction c with
  | nil =>
    intro acc ds h
    simpa [declsOf] using h
  | cons l c ih =>
    intro acc ds h
    have hw' : ∀ l ∈ c, (l.decls.map (·.name)).Nodup := fun x hx => hw x (by simp [hx])
    rw [List.foldl_cons]
    by_cases hl : l.lib = mine
    · rw [if_pos hl]
      have h2 := hown _ _ _ h (hw l (by simp))
      have := ih hw' (some (own (acc.getD []) l.decls)) _ h2
      refine ⟨?_, ?_⟩
      · rw [this.1]
        constructor
        · rintro ⟨e, _⟩; cases e
        · rintro ⟨_, e⟩; exact absurd hl (e l (by simp))
      · have h3 := this.2
        simpa [declsOf, hl] using h3
    · rw [if_neg hl]
      have := ih hw' acc ds h
      refine ⟨?_, ?_⟩
      · rw [this.1]
        simp [hl]
      · simpa [declsOf, hl] using this.2

theorem mem_declsOf {lib : Lib} {c : Cls} {d : Decl} (h : d ∈ declsOf lib c) :
    ∃ l ∈ c, l.lib = lib ∧ d ∈ l.decls := by
  obtain ⟨l, hl, hd⟩ := List.mem_flatMap.mp h
  rw [List.mem_filter] at hl
  exact ⟨l, hl.1, of_decide_eq_true hl.2, hd⟩

/-- A name is kept always or never. -/
theorem latest_filter {keep : Decl → Bool} {ds : List Decl}
    (hk : ∀ d ∈ ds, ∀ e ∈ ds, d.name = e.name → keep d = keep e) (d : Decl) :
    Latest (ds.filter keep) d ↔ Latest ds d ∧ keep d = true := by
  constructor
  · rintro ⟨pre, post, e, h⟩
    obtain ⟨as, bs, rfl, e1, e2⟩ := List.filter_eq_append_iff.mp e
    obtain ⟨bs1, bs2, rfl, h1, h2, h3⟩ := List.filter_eq_cons_iff.mp e2
    refine ⟨⟨as ++ bs1, bs2, by simp, ?_⟩, h2⟩
    intro x hx q
    have := hk x (by simp [hx]) d (by simp) q
    exact h x (h3 ▸ List.mem_filter.mpr ⟨hx, this.trans h2⟩) q
  · rintro ⟨⟨pre, post, rfl, h⟩, hd⟩
    refine ⟨pre.filter keep, post.filter keep, by simp [hd], ?_⟩
    intro x hx
    exact h x (List.mem_filter.mp hx).1

theorem WF.same {c : Cls} (hw : WF c) (lib : Lib) : ∀ d ∈ declsOf lib c, ∀ e ∈ declsOf lib c, d.name = e.name →
    d.kind = e.kind := by
  intro d hd e he q
  obtain ⟨l, hl, _, hd⟩ := mem_declsOf hd
  obtain ⟨l', hl', _, he⟩ := mem_declsOf he
  exact hw.kinds l hl l' hl' d hd e he q

/-- What each library stores. -/
theorem collect_dc {c : Cls} (hw : WF c) :
    (collect .dc dcOwn c = none ↔ ∀ l ∈ c, l.lib ≠ .dc) ∧
      Holds ((collect .dc dcOwn c).getD []) (declsOf .dc c) := by
  have hf : ∀ l : List Decl, l.filter (fun _ => true) = l := fun l => List.filter_eq_self.mpr (by simp)
  have := collect_holds .dc dcOwn (fun _ => true)
    (fun l ds es h _ => by rw [hf]; exact holds_foldl h es) c hw.nodup
  rw [hf] at this
  exact this

theorem collect_pyd {c : Cls} (hw : WF c) :
    (collect .pyd pydOwn c = none ↔ ∀ l ∈ c, l.lib ≠ .pyd) ∧
      Holds ((collect .pyd pydOwn c).getD []) ((declsOf .pyd c).filter (·.kind ≠ .classVar)) :=
  collect_holds .pyd pydOwn (·.kind ≠ .classVar) (fun _ _ _ h _ => holds_foldl h _) c hw.nodup

theorem collect_seq {c : Cls} (hw : WF c) (lib : Lib) :
    (collect lib seqOwn c = none ↔ ∀ l ∈ c, l.lib ≠ lib) ∧
      Holds ((collect lib seqOwn c).getD []) ((declsOf lib c).filter (·.kind ≠ .classVar)) :=
  collect_holds lib seqOwn (·.kind ≠ .classVar) (fun _ _ es h he => holds_seq h es he) c hw.nodup

theorem latest_field {c : Cls} (hw : WF c) (lib : Lib) (d : Decl) :
    Latest ((declsOf lib c).filter (·.kind ≠ .classVar)) d ↔ Latest (declsOf lib c) d ∧ d.kind ≠ .classVar := by
  rw [latest_filter]
  · simp
  · intro x hx y hy q
    rw [hw.same lib x hx y hy q]

end Psygnal.Flds
