import Verif.Hook

/-! # C89: hidden imports for PyInstaller -/
namespace Psygnal.Hook

/-- A name in a dotted module name: nonempty, no dots and separators. -/
def Ident (n : Str) : Prop := n ≠ [] ∧ '.' ∉ n ∧ '/' ∉ n ∧ '\\' ∉ n

/-- `p` is the file of the compiled module `m` (the list of the names in its dotted name): the directories, then the last name, perhaps the
tag of the interpreter and the platform, `.so` or `.pyd`. -/
def FileOf (p m : List Str) : Prop :=
  ∃ dirs stem mid suf, p = dirs ++ [stem ++ (mid ++ suf)] ∧ m = dirs ++ [stem] ∧ (∀ n ∈ m, Ident n) ∧
    (mid = [] ∨ ∃ r, mid = '.' :: r) ∧ (suf = ".so".toList ∨ suf = ".pyd".toList)

/-- The dotted name. -/
def dotted (m : List Str) : Str := str '.' m

theorem suffix_of {n suf r : Str} (h : suf = '.' :: r) (h1 : '.' ∉ r) (h2 : r ≠ []) (hn : n ≠ []) : suffix (n ++ suf) = suf := by
  subst h
  have e : (n ++ '.' :: r).reverse.takeWhile (· ≠ '.') = r.reverse := by
    rw [List.reverse_append, List.reverse_cons, List.append_assoc, List.takeWhile_append_of_pos]
    · simp
    · intro c hc
      have : c ≠ '.' := fun h => h1 (h ▸ List.mem_reverse.mp hc)
      simpa using this
  unfold suffix
  simp only [e, List.reverse_reverse]
  rw [if_neg]
  rintro (h | h)
  · exact h2 (by simpa using h)
  · cases n with
    | nil => exact hn rfl
    | cons a n => simp at h; omega

theorem str_clean {sep : Char} : ∀ {m : List Str}, (∀ n ∈ m, '.' ∉ n) → sep ≠ '.' → '.' ∉ str sep m
  | [], _, _ => by simp [str]
  | [n], h, _ => h n (.head _)
  | n :: k :: p, h, hs => by
    have := str_clean (m := k :: p) (fun x hx => h x (.tail _ hx)) hs
    show '.' ∉ n ++ sep :: str sep (k :: p)
    rw [List.mem_append, List.mem_cons]
    rintro (h' | h' | h')
    · exact h n (.head _) h'
    · exact hs h'.symm
    · exact this h'

theorem str_snoc {sep : Char} (x : Str) : ∀ (dirs : List Str) (stem : Str), str sep (dirs ++ [stem ++ x]) = str sep (dirs ++ [stem]) ++ x
  | [], stem => rfl
  | [d], stem => by simp [str]
  | d :: k :: p, stem => by
    have := str_snoc (sep := sep) x (k :: p) stem
    show d ++ sep :: str sep (k :: p ++ [stem ++ x]) = (d ++ sep :: str sep (k :: p ++ [stem])) ++ x
    rw [this]
    simp

theorem str_map {sep : Char} (g : Char → Char) : ∀ {m : List Str}, (∀ n ∈ m, n.map g = n) → (str sep m).map g = str (g sep) m
  | [], _ => rfl
  | [n], h => h n (.head _)
  | n :: k :: p, h => by
    have := str_map (sep := sep) g (m := k :: p) (fun x hx => h x (.tail _ hx))
    show (n ++ sep :: str sep (k :: p)).map g = n ++ g sep :: str (g sep) (k :: p)
    rw [List.map_append, List.map_cons, this, h n (.head _)]

theorem map_clean {a : Char} {n : Str} (h : a ∉ n) : n.map (fun c => if c = a then '.' else c) = n := by
  have : ∀ c ∈ n, (if c = a then '.' else c) = c := fun c hc => if_neg (fun (e : c = a) => h (e ▸ hc))
  rw [List.map_congr_left this]
  simp

/-- **C89 (files and names).**  The file of a compiled module counts as one, on systems with either separator, and the hook gives it the
dotted name of the module. -/
theorem C89_name {p m : List Str} (h : FileOf p m) {sep : Char} (hs : sep = '/' ∨ sep = '\\') : binary p = true ∧ name sep p = dotted m := by
  obtain ⟨dirs, stem, mid, suf, rfl, rfl, hm, hmid, hsuf⟩ := h
  have hst : Ident stem := hm stem (by simp)
  constructor
  · have hl : (dirs ++ [stem ++ (mid ++ suf)]).getLast? = some (stem ++ (mid ++ suf)) := by simp
    have hne : stem ++ mid ≠ [] := by
      intro h
      exact hst.1 (List.append_eq_nil_iff.mp h).1
    unfold binary
    rw [hl, ← List.append_assoc]
    rcases hsuf with rfl | rfl
    · exact decide_eq_true (.inl (suffix_of (r := ['s', 'o']) rfl (by decide) (by decide) hne))
    · exact decide_eq_true (.inr (suffix_of (r := ['p', 'y', 'd']) rfl (by decide) (by decide) hne))
  · have hc : '.' ∉ str sep (dirs ++ [stem]) := str_clean (fun n hn => (hm n hn).2.1) (by rcases hs with rfl | rfl <;> decide)
    have hd : ∃ r, mid ++ suf = '.' :: r := by
      rcases hmid with rfl | ⟨r, rfl⟩
      · rcases hsuf with rfl | rfl
        · exact ⟨_, rfl⟩
        · exact ⟨_, rfl⟩
      · exact ⟨_, rfl⟩
    obtain ⟨r, hr⟩ := hd
    unfold name
    rw [str_snoc, hr, List.takeWhile_append_of_pos (by
      intro c hcm
      have : c ≠ '.' := fun h => hc (h ▸ hcm)
      simpa using this)]
    rw [List.takeWhile_cons_of_neg (by simp), List.append_nil]
    rw [str_map _ (fun n hn => map_clean (hm n hn).2.2.1), str_map _ (fun n hn => map_clean (hm n hn).2.2.2)]
    unfold dotted
    rcases hs with rfl | rfl <;> rfl

theorem suffix_ends {n : Str} (h : suffix n ≠ []) : ∃ k, n = k ++ suffix n := by
  unfold suffix at h ⊢
  simp only at h ⊢
  split at h
  · exact absurd rfl h
  · rename_i hn
    rw [if_neg hn]
    have hd := List.takeWhile_append_dropWhile (p := (· ≠ '.')) (l := n.reverse)
    generalize hr : n.reverse.takeWhile (· ≠ '.') = r at hn hd ⊢
    cases hx : n.reverse.dropWhile (· ≠ '.') with
    | nil =>
      rw [hx, List.append_nil] at hd
      exact absurd (.inr (by rw [hd, List.length_reverse]; omega)) hn
    | cons c l =>
      have hc : c = '.' := by
        have := List.head_dropWhile_not (p := (· ≠ '.')) (l := n.reverse) (by rw [hx]; exact List.cons_ne_nil _ _)
        simp only [hx, List.head_cons] at this
        simpa using this
      rw [hx, hc] at hd
      refine ⟨l.reverse, ?_⟩
      have := congrArg List.reverse hd
      simp only [List.reverse_append, List.reverse_cons, List.reverse_reverse] at this
      rw [← this]
      simp

theorem not_binary {p : List Str} (h : ∀ dirs n, p ≠ dirs ++ [n ++ ".so".toList] ∧ p ≠ dirs ++ [n ++ ".pyd".toList]) : binary p = false := by
  unfold binary
  cases hl : p.getLast? with
  | none => rfl
  | some n =>
    obtain ⟨l, rfl⟩ := List.getLast?_eq_some_iff.mp hl
    refine decide_eq_false ?_
    rintro (hs | hs)
    · obtain ⟨k, hk⟩ := suffix_ends (n := n) (by rw [hs]; exact List.cons_ne_nil _ _)
      rw [hs] at hk
      exact (h l k).1 (by rw [hk]; rfl)
    · obtain ⟨k, hk⟩ := suffix_ends (n := n) (by rw [hs]; exact List.cons_ne_nil _ _)
      rw [hs] at hk
      exact (h l k).2 (by rw [hk]; rfl)

/-- Every file that ends like a compiled module is one: `mod` says which. -/
def Modules (mod : List Str → Option (List Str)) (files : List (List Str)) : Prop :=
  ∀ p ∈ files, (∃ m, mod p = some m ∧ FileOf p m) ∨
    mod p = none ∧ ∀ dirs n, p ≠ dirs ++ [n ++ ".so".toList] ∧ p ≠ dirs ++ [n ++ ".pyd".toList]

theorem names_of {mod : List Str → Option (List Str)} {sep : Char} (hs : sep = '/' ∨ sep = '\\') : ∀ {files : List (List Str)}, Modules mod files →
    (files.filter binary).length = (files.filterMap mod).length ∧ (files.filter binary).map (name sep) = (files.filterMap mod).map dotted
  | [], _ => ⟨rfl, rfl⟩
  | p :: files, h => by
    have ih := names_of hs (files := files) (fun x hx => h x (.tail _ hx))
    rcases h p (.head _) with ⟨m, hm, hf⟩ | ⟨hm, hf⟩
    · have := C89_name hf hs
      simp [hm, this.1, this.2, ih.1, ih.2]
    · simp [hm, not_binary hf, ih.1, ih.2]

/-- **C89 (an installed package; partial).**  If the record of the installed package has at least two compiled modules and every file in it
that ends like one is one, then the hook names three modules that it always names, then exactly those compiled modules, in the order of the
record.  Missing: a single compiled module, and files elsewhere (`C89_single_refuted`, `C89_elsewhere_refuted`). -/
theorem C89_installed_partial {y : Sys} (hs : y.sep = '/' ∨ y.sep = '\\') {files : List (List Str)} (hr : y.record = some (some files))
    {mod : List Str → Option (List Str)} (hm : Modules mod files) (h2 : 2 ≤ (files.filterMap mod).length) :
    create y = ["queue".toList, "mypy_extensions".toList, "__future__".toList] ++ (files.filterMap mod).map dotted := by
  have := names_of hs hm
  unfold create
  rw [hr]
  simp only
  rw [if_neg (by omega), this.2]
  rfl

/-- **C89 (an editable installation; partial).**  If the record has less than two compiled modules, the hook names instead those in the
package directory and in the directory that contains it.  Missing: those of subpackages (`C89_sub_refuted`). -/
theorem C89_editable_partial {y : Sys} (hs : y.sep = '/' ∨ y.sep = '\\') {files : List (List Str)} (hr : y.record = some (some files))
    {mod : List Str → Option (List Str)} (hm : Modules mod files) (h2 : (files.filterMap mod).length < 2) (hp : Ident y.pkg)
    {mod' : List Str → Option (List Str)} (h3 : Modules mod' (y.inPkg.map (fun n => [n]))) (h4 : Modules mod' (y.inSrc.map (fun n => [n]))) :
    create y = ["queue".toList, "mypy_extensions".toList, "__future__".toList] ++
      ((y.inPkg.filterMap (fun n => mod' [n])).map (fun m => dotted (y.pkg :: m)) ++ (y.inSrc.filterMap (fun n => mod' [n])).map dotted) := by
  have hn := names_of hs hm
  have key : ∀ l : List Str, Modules mod' (l.map (fun n => [n])) →
      ((l.filter (fun n => binary [n])).map (fun n => [n])).map (name y.sep) = (l.filterMap (fun n => mod' [n])).map dotted ∧
      ((l.filter (fun n => binary [n])).map (fun n => [y.pkg, n])).map (name y.sep) =
        (l.filterMap (fun n => mod' [n])).map (fun m => dotted (y.pkg :: m)) := by
    intro l
    induction l with
    | nil => exact fun _ => ⟨rfl, rfl⟩
    | cons n l ih =>
      intro h
      have ih := ih (fun x hx => h x (.tail _ hx))
      rcases h [n] (.head _) with ⟨m, hm, hf⟩ | ⟨hm, hf⟩
      · have h1 := C89_name hf hs
        have h5 : FileOf [y.pkg, n] (y.pkg :: m) := by
          obtain ⟨dirs, stem, mid, suf, e, rfl, q1, q2, q3⟩ := hf
          refine ⟨y.pkg :: dirs, stem, mid, suf, by rw [e]; rfl, rfl, ?_, q2, q3⟩
          intro x hx
          rcases List.mem_cons.mp hx with rfl | hx
          · exact hp
          · exact q1 x hx
        have h6 := C89_name h5 hs
        simp only [List.filter_cons, h1.1, if_true, List.map_cons, List.filterMap_cons, hm, h1.2, h6.2, ih.1, ih.2, and_self]
      · simp only [List.filter_cons, not_binary hf, Bool.false_eq_true, if_false, List.filterMap_cons, hm, ih.1, ih.2, and_self]
  unfold create
  rw [hr]
  simp only
  rw [if_pos (by omega), List.map_append, (key _ h3).2, (key _ h4).1]
  rfl

/-- **C89 (no package).**  Without an installed package, or without a record, only the three. -/
theorem C89_none {y : Sys} (h : y.record = none ∨ y.record = some none) :
    create y = ["queue".toList, "mypy_extensions".toList, "__future__".toList] := by
  unfold create
  rcases h with h | h <;> rw [h] <;> rfl

/-! ## Cases -/

/-- Which module the files of the examples are. -/
def exMod (p : List Str) : Option (List Str) :=
  if p = ["psygnal".toList, "_signal.cpython-311-x86_64-linux-gnu.so".toList] then some ["psygnal".toList, "_signal".toList]
  else if p = ["psygnal".toList, "_queue.pyd".toList] then some ["psygnal".toList, "_queue".toList]
  else if p = ["_group.so".toList] then some ["_group".toList]
  else none

theorem ident_of {n : Str} (h : (n ≠ [] && !n.contains '.' && !n.contains '/' && !n.contains '\\') = true) : Ident n := by
  simp only [Bool.and_eq_true, Bool.not_eq_true', decide_eq_true_eq, List.contains_eq_mem, decide_eq_false_iff_not] at h
  exact ⟨h.1.1.1, h.1.1.2, h.1.2, h.2⟩

theorem idents_of {m : List Str} (h : m.all (fun n => n ≠ [] && !n.contains '.' && !n.contains '/' && !n.contains '\\') = true) :
    ∀ n ∈ m, Ident n := fun n hn => ident_of (List.all_eq_true.mp h n hn)

theorem not_ends {p : List Str} (h1 : (p.getLast?.getD []).reverse.take 3 ≠ ['o', 's', '.'])
    (h2 : (p.getLast?.getD []).reverse.take 4 ≠ ['d', 'y', 'p', '.']) (dirs : List Str) (n : Str) :
    p ≠ dirs ++ [n ++ ".so".toList] ∧ p ≠ dirs ++ [n ++ ".pyd".toList] := by
  constructor
  · rintro rfl
    exact h1 (by simp)
  · rintro rfl
    exact h2 (by simp)

/-- A case for `C89_name`. -/
theorem exFile : FileOf ["psygnal".toList, "_signal.cpython-311-x86_64-linux-gnu.so".toList] ["psygnal".toList, "_signal".toList] :=
  ⟨["psygnal".toList], "_signal".toList, ".cpython-311-x86_64-linux-gnu".toList, ".so".toList, by decide, rfl, idents_of (by decide),
    .inr ⟨_, rfl⟩, .inl rfl⟩

theorem exFile2 : FileOf ["psygnal".toList, "_queue.pyd".toList] ["psygnal".toList, "_queue".toList] :=
  ⟨["psygnal".toList], "_queue".toList, [], ".pyd".toList, by decide, rfl, idents_of (by decide), .inl rfl, .inr rfl⟩

theorem exFile3 : FileOf ["_group.so".toList] ["_group".toList] :=
  ⟨[], "_group".toList, [], ".so".toList, by decide, rfl, idents_of (by decide), .inl rfl, .inl rfl⟩

/-- A record with two compiled modules, a Python file and a file in a directory with dots. -/
def exFiles : List (List Str) := [["psygnal".toList, "_queue.pyd".toList], ["psygnal".toList, "qt.py".toList],
  ["psygnal".toList, "_signal.cpython-311-x86_64-linux-gnu.so".toList], ["psygnal-1.0.dist-info".toList, "RECORD".toList]]

theorem exModules : Modules exMod exFiles := by
  intro p hp
  simp only [exFiles, List.mem_cons, List.not_mem_nil, or_false] at hp
  rcases hp with rfl | rfl | rfl | rfl
  · exact .inl ⟨_, by decide, exFile2⟩
  · exact .inr ⟨by decide, not_ends (by decide) (by decide)⟩
  · exact .inl ⟨_, by decide, exFile⟩
  · exact .inr ⟨by decide, not_ends (by decide) (by decide)⟩

/-- A case for `C89_installed_partial`. -/
example : create ⟨'/', some (some exFiles), [], [], []⟩ =
    ["queue", "mypy_extensions", "__future__", "psygnal._queue", "psygnal._signal"].map String.toList :=
  (C89_installed_partial (.inl rfl) rfl exModules (by decide)).trans (by decide)

/-- A case for `C89_editable_partial`: on Windows, nothing compiled in the record; one module in the package, one beside it. -/
example : create ⟨'\\', some (some []), "psygnal".toList, ["qt.py".toList, "_group.so".toList], ["_group.so".toList]⟩ =
    ["queue", "mypy_extensions", "__future__", "psygnal._group", "_group"].map String.toList :=
  (C89_editable_partial (mod := exMod) (mod' := exMod) (.inr rfl) rfl (fun _ h => by cases h) (by decide) (ident_of (by decide))
    (by
      intro p hp
      simp only [List.map_cons, List.map_nil, List.mem_cons, List.not_mem_nil, or_false] at hp
      rcases hp with rfl | rfl
      · exact .inr ⟨by decide, not_ends (by decide) (by decide)⟩
      · exact .inl ⟨_, by decide, exFile3⟩)
    (by
      intro p hp
      simp only [List.map_cons, List.map_nil, List.mem_cons, List.not_mem_nil, or_false] at hp
      subst hp
      exact .inl ⟨_, by decide, exFile3⟩)).trans (by decide)

/-- A case for `C89_none`. -/
example : create ⟨'/', none, "psygnal".toList, ["_group.so".toList], []⟩ = ["queue", "mypy_extensions", "__future__"].map String.toList :=
  C89_none (.inl rfl)

/-! ## Where the code deviates -/

/-- **C89, refuted in general:** a package with exactly one compiled module: the record is not used, and if the module is in a subpackage it is
not named. -/
theorem C89_single_refuted : ∃ (y : Sys) (p m : List Str), y.record = some (some [p]) ∧ FileOf p m ∧ y.inPkg = ["sub".toList] ∧
    dotted m ∉ create y :=
  ⟨⟨'/', some (some [["psygnal".toList, "sub".toList, "_a.so".toList]]), "psygnal".toList, ["sub".toList], []⟩, _,
    ["psygnal".toList, "sub".toList, "_a".toList], rfl,
    ⟨["psygnal".toList, "sub".toList], "_a".toList, [], ".so".toList, by decide, rfl, idents_of (by decide), .inl rfl, .inl rfl⟩, rfl, by decide⟩

/-- **C89, refuted in general:** a file outside of the directory of the packages (records name such ones with leading `..`), or in a directory
with a dot in its name: a name is put in the list that is not that of a module. -/
theorem C89_elsewhere_refuted :
    (∀ (y : Sys) (files : List (List Str)), y.sep = '/' → y.record = some (some (["..".toList, "lib".toList, "a.so".toList] :: files)) →
      2 ≤ ((["..".toList, "lib".toList, "a.so".toList] :: files).filter binary).length → [] ∈ create y) ∧
    name '/' ["psygnal.libs".toList, "libx.so".toList] = "psygnal".toList := by
  refine ⟨fun y files hs hr h2 => ?_, by decide⟩
  unfold create
  rw [hr]
  simp only
  rw [if_neg (by omega)]
  refine List.mem_append.mpr (.inr (List.mem_map.mpr ⟨["..".toList, "lib".toList, "a.so".toList], ?_, ?_⟩))
  · exact List.mem_filter.mpr ⟨.head _, by decide⟩
  · rw [hs]; decide

/-- **C89, refuted in general:** in an editable installation compiled modules of subpackages are not named. -/
theorem C89_sub_refuted : ∃ (y : Sys) (p m : List Str), y.record = some (some []) ∧ p.head? = some y.pkg ∧ FileOf p m ∧
    p[1]? = y.inPkg.head? ∧ dotted m ∉ create y :=
  ⟨⟨'/', some (some []), "psygnal".toList, ["sub".toList], []⟩, ["psygnal".toList, "sub".toList, "_a.so".toList],
    ["psygnal".toList, "sub".toList, "_a".toList], rfl, rfl,
    ⟨["psygnal".toList, "sub".toList], "_a".toList, [], ".so".toList, by decide, rfl, idents_of (by decide), .inl rfl, .inl rfl⟩, rfl, by decide⟩

end Psygnal.Hook
